import Verif.Lemmas.B64
import Mathlib.Algebra.Order.Archimedean.Basic
import Mathlib.Algebra.Order.Round

/-! Rounding errors of the cut step in double precision. -/

open Classical

namespace Fides

noncomputable section

/-- relative error of rounding to nearest, 2^-53 -/
abbrev ulp : ℝ := 1 / 9007199254740992

theorem near_err (R : Rounding) (x : ℝ) (h1 : (2 : ℝ) ^ (-1022 : ℤ) ≤ |x|) (h2 : |x| < overflow64) : |x - R.near x| ≤ ulp * |x| := by
  have hx : 0 < |x| := lt_of_lt_of_le (zpow_pos (by norm_num) _) h1
  obtain ⟨e, he1, he2⟩ := exists_mem_Ico_zpow hx (show (1 : ℝ) < 2 by norm_num)
  have he3 : -1022 ≤ e := by
    have : (2 : ℝ) ^ (-1022 : ℤ) < 2 ^ (e + 1) := lt_of_le_of_lt h1 he2
    have := (zpow_lt_zpow_iff_right₀ (show (1 : ℝ) < 2 by norm_num)).mp this
    omega
  have he4 : e ≤ 1023 := by
    have h3 : |x| < (2 : ℝ) ^ (1024 : ℤ) := by
      refine lt_of_lt_of_le h2 ?_
      unfold overflow64
      have : (0 : ℝ) < 2 ^ 970 := by positivity
      have h : ((2 : ℝ) ^ (1024 : ℤ)) = 2 ^ 1024 := by rw [show (1024 : ℤ) = ((1024 : ℕ) : ℤ) from rfl, zpow_natCast]
      rw [h]; exact (sub_lt_self _ this).le
    have := (zpow_lt_zpow_iff_right₀ (show (1 : ℝ) < 2 by norm_num)).mp (lt_of_le_of_lt he1 h3)
    omega
  have hp : (0 : ℝ) < 2 ^ (e - 52) := zpow_pos (by norm_num) _
  have hpe : (2 : ℝ) ^ e = 2 ^ (e - 52) * 4503599627370496 := by
    rw [show (4503599627370496 : ℝ) = 2 ^ (52 : ℤ) by norm_num, ← zpow_add₀ (by norm_num)]; congr 1; ring
  have hpe1 : (2 : ℝ) ^ (e + 1) = 2 ^ (e - 52) * 9007199254740992 := by
    rw [show (9007199254740992 : ℝ) = 2 ^ (53 : ℤ) by norm_num, ← zpow_add₀ (by norm_num)]; congr 1; ring
  set p : ℝ := 2 ^ (e - 52) with hpd
  obtain ⟨y, hy⟩ : ∃ y : ℝ, x = y * p := ⟨x / p, by field_simp⟩
  have hxy : |x| = |y| * p := by rw [hy, abs_mul, abs_of_pos hp]
  rw [hxy, hpe, mul_comm p] at he1
  rw [hxy, hpe1, mul_comm p] at he2
  have hy1 : 4503599627370496 ≤ |y| := le_of_mul_le_mul_right he1 hp
  have hy2 : |y| < 9007199254740992 := lt_of_mul_lt_mul_right he2 hp.le
  have hm := abs_sub_round y
  have hB : IsB64 (round y * p) := by
    have hm1 : |(round y : ℝ)| ≤ |y| + 1 / 2 := by
      calc |(round y : ℝ)| = |y - (y - round y)| := by ring_nf
        _ ≤ |y| + |y - round y| := abs_sub _ _
        _ ≤ _ := by linarith
    have hm2 : |(round y : ℝ)| < 9007199254740993 := by linarith
    have hm3 : |round y| < 9007199254740993 := by exact_mod_cast hm2
    rcases (show |round y| < 9007199254740992 ∨ |round y| = 9007199254740992 by omega) with h | h
    · exact ⟨round y, e - 52, by norm_num; exact h, by omega, by omega, rfl⟩
    · have he5 : e ≤ 1022 := by
        by_contra hc
        obtain rfl : e = 1023 := by omega
        have h3 : |(round y : ℝ)| = 9007199254740992 := by exact_mod_cast h
        have h4 : 9007199254740992 - 1 / 2 ≤ |y| := by linarith
        have h5 : overflow64 = (9007199254740992 - 1 / 2) * p := by
          have h6 : p = 2 ^ 971 := by rw [hpd, show (1023 - 52 : ℤ) = ((971 : ℕ) : ℤ) from rfl, zpow_natCast]
          have h7 : (2 : ℝ) ^ 1024 = 9007199254740992 * 2 ^ 971 := by
            rw [show (9007199254740992 : ℝ) = 2 ^ 53 by norm_num, ← pow_add]
          have h8 : (2 : ℝ) ^ 970 = 1 / 2 * 2 ^ 971 := by rw [pow_succ (2 : ℝ) 970]; ring
          unfold overflow64
          rw [h6, h7, h8]; ring
        have h6 := mul_le_mul_of_nonneg_right h4 hp.le
        rw [hxy] at h2
        linarith
      have hp2 : (2 : ℝ) ^ (e - 51) = 2 * p := by
        rw [hpd, show e - 51 = 1 + (e - 52) by ring, zpow_add₀ (by norm_num)]; norm_num
      rcases abs_eq (by norm_num) |>.mp h with h | h
      · exact ⟨4503599627370496, e - 51, by norm_num, by omega, by omega, by rw [h, hp2]; push_cast; ring⟩
      · exact ⟨-4503599627370496, e - 51, by norm_num, by omega, by omega, by rw [h, hp2]; push_cast; ring⟩
  have h3 := R.near_best x _ hB
  have h4 : |x - round y * p| ≤ 1 / 2 * p := by
    have : x - round y * p = (y - round y) * p := by rw [hy]; ring
    rw [this, abs_mul, abs_of_pos hp]
    exact mul_le_mul_of_nonneg_right hm hp.le
  have h5 : 1 / 2 * p ≤ ulp * |x| := by
    rw [hxy, ulp]
    have := mul_le_mul_of_nonneg_right hy1 hp.le
    linarith
  exact h3.trans (h4.trans h5)

theorem near_abs (R : Rounding) (x : ℝ) (h1 : (2 : ℝ) ^ (-1022 : ℤ) ≤ |x|) (h2 : |x| < overflow64) : |R.near x| ≤ (1 + ulp) * |x| := by
  have h := near_err R x h1 h2
  calc |R.near x| = |x - (x - R.near x)| := by ring_nf
    _ ≤ |x| + |x - R.near x| := abs_sub _ _
    _ ≤ _ := by linarith

theorem near_nonneg (R : Rounding) {x : ℝ} (h : 0 ≤ x) : 0 ≤ R.near x := by rw [← R.near_zero]; exact R.near_mono h
theorem near_nonpos (R : Rounding) {x : ℝ} (h : x ≤ 0) : R.near x ≤ 0 := by rw [← R.near_zero]; exact R.near_mono h

theorem isB64_small : IsB64 ((2 : ℝ) ^ (-1022 : ℤ)) := ⟨1, -1022, by norm_num, by norm_num, by norm_num, by simp⟩

/-- small differences of doubles are doubles -/
theorem isB64_diff {x y : ℝ} (hx : IsB64 x) (hy : IsB64 y) (h : |x - y| < (2 : ℝ) ^ (-1022 : ℤ)) : IsB64 (x - y) := by
  obtain ⟨m, e, -, h2, -, rfl⟩ := hx
  obtain ⟨m', e', -, h2', -, rfl⟩ := hy
  obtain ⟨k, rfl⟩ : ∃ k : ℕ, e = -1074 + k := ⟨(e + 1074).toNat, by omega⟩
  obtain ⟨k', rfl⟩ : ∃ k : ℕ, e' = -1074 + k := ⟨(e' + 1074).toNat, by omega⟩
  have hq : (0 : ℝ) < 2 ^ (-1074 : ℤ) := zpow_pos (by norm_num) _
  have hd : (m : ℝ) * 2 ^ (-1074 + (k : ℤ)) - m' * 2 ^ (-1074 + (k' : ℤ)) = ((m * 2 ^ k - m' * 2 ^ k' : ℤ) : ℝ) * 2 ^ (-1074 : ℤ) := by
    rw [zpow_add₀ (by norm_num), zpow_add₀ (by norm_num), zpow_natCast, zpow_natCast]
    push_cast; ring
  rw [hd] at h ⊢
  refine ⟨_, -1074, ?_, by norm_num, by norm_num, rfl⟩
  rw [abs_mul, abs_of_pos hq, show (2 : ℝ) ^ (-1022 : ℤ) = 2 ^ (52 : ℤ) * 2 ^ (-1074 : ℤ) by rw [← zpow_add₀ (by norm_num)]; norm_num] at h
  have h3 := lt_of_mul_lt_mul_right h hq.le
  rw [show (2 : ℝ) ^ (52 : ℤ) = 4503599627370496 by norm_num] at h3
  have h4 : |m * 2 ^ k - m' * 2 ^ k'| < 4503599627370496 := by exact_mod_cast h3
  norm_num
  omega

/-- the computed difference of two doubles is at most `1 + 2^-53` times the exact one -/
theorem near_diff (R : Rounding) {x y : ℝ} (hx : IsB64 x) (hy : IsB64 y) (h2 : |x - y| < overflow64) : |R.near (x - y)| ≤ (1 + ulp) * |x - y| := by
  rcases lt_or_ge |x - y| ((2 : ℝ) ^ (-1022 : ℤ)) with h | h
  · rw [R.near_self (isB64_diff hx hy h)]
    have := abs_nonneg (x - y)
    rw [ulp]; linarith
  · exact near_abs R _ h h2

/-- rounding a product that is below a difference of doubles by a relative margin -/
theorem near_cut_below (R : Rounding) {x y b : ℝ} (hx : IsB64 x) (hy : IsB64 y) (p : ℝ) (hb : b = |x - y|) (hp : (1 + ulp) * |p| ≤ b) (ho : |p| < overflow64) : |R.near p| ≤ b := by
  have hb0 : 0 ≤ b := hb ▸ abs_nonneg _
  have hsm : |R.near p| ≤ (1 + ulp) * |p| ∨ |R.near p| ≤ (2 : ℝ) ^ (-1022 : ℤ) ∧ |p| < (2 : ℝ) ^ (-1022 : ℤ) := by
    rcases lt_or_ge |p| ((2 : ℝ) ^ (-1022 : ℤ)) with h | h
    · refine Or.inr ⟨abs_le.mpr ⟨?_, ?_⟩, h⟩
      · have := R.near_mono (show -(2 : ℝ) ^ (-1022 : ℤ) ≤ p by linarith [neg_abs_le p])
        rwa [R.near_self (isB64_neg isB64_small)] at this
      · have := R.near_mono (show p ≤ (2 : ℝ) ^ (-1022 : ℤ) by linarith [le_abs_self p])
        rwa [R.near_self isB64_small] at this
    · exact Or.inl (near_abs R p h ho)
  rcases hsm with h | ⟨h, h'⟩
  · exact h.trans hp
  · rcases lt_or_ge b ((2 : ℝ) ^ (-1022 : ℤ)) with hlt | hge
    · have hB : IsB64 b := by
        rw [hb] at hlt ⊢
        have := isB64_diff hx hy hlt
        rcases abs_choice (x - y) with e | e <;> rw [e]
        · exact this
        · exact isB64_neg this
      have hpb : |p| ≤ b := by
        refine le_trans ?_ hp
        have := abs_nonneg p
        rw [ulp]; linarith
      refine abs_le.mpr ⟨?_, ?_⟩
      · have := R.near_mono (show -b ≤ p by linarith [neg_abs_le p])
        rwa [R.near_self (isB64_neg hB)] at this
      · have := R.near_mono (show p ≤ b by linarith [le_abs_self p])
        rwa [R.near_self hB] at this
    · exact h.trans hge

/-- the errors of the four operations that determine a cut step -/
theorem cut_core (R : Rounding) (b s th a m d : ℝ) (hb : 0 ≤ b) (hs : 0 < s) (hth : 0 < th) (hth1 : th ≤ 1 - 1 / 1125899906842624)
    (ha : (2 : ℝ) ^ (-1021 : ℤ) ≤ a) (ham : a ≤ R.near (th * m)) (hmo : |m| < overflow64) (hm : m ≤ R.near (d / s)) (hdo : |d / s| < overflow64)
    (hd : 0 ≤ d) (hdb : d ≤ (1 + ulp) * b) : (1 + ulp) * (s * a) ≤ b := by
  have hp : (0 : ℝ) < 2 ^ (-1022 : ℤ) := zpow_pos (by norm_num) _
  have h2 : (2 : ℝ) ^ (-1021 : ℤ) = 2 * 2 ^ (-1022 : ℤ) := by rw [show (-1021 : ℤ) = 1 + -1022 by norm_num, zpow_add₀ (by norm_num)]; norm_num
  have hth2 : th < 1 := by linarith
  have h3 : (2 : ℝ) ^ (-1022 : ℤ) ≤ th * m := by
    by_contra hc
    have := R.near_mono (not_le.mp hc).le
    rw [R.near_self isB64_small] at this
    linarith
  have hm0 : 0 < m := by
    by_contra hc
    have := mul_nonpos_of_nonneg_of_nonpos hth.le (not_lt.mp hc)
    linarith
  have h4 : th * m ≤ m := by nlinarith
  have h5 : a ≤ (1 + ulp) * (th * m) := by
    have h := near_abs R (th * m) (by rw [abs_of_pos (by linarith)]; exact h3) (by rw [abs_of_pos (by linarith)]; rw [abs_of_pos hm0] at hmo; linarith)
    rw [abs_of_pos (show 0 < th * m by linarith)] at h
    exact ham.trans ((le_abs_self _).trans h)
  have h6 : (2 : ℝ) ^ (-1022 : ℤ) ≤ d / s := by
    by_contra hc
    have := R.near_mono (not_le.mp hc).le
    rw [R.near_self isB64_small] at this
    have h7 : th * m < m := by nlinarith
    linarith
  have h7 : m ≤ (1 + ulp) * (d / s) := by
    have h := near_abs R (d / s) (by rw [abs_of_pos (by linarith)]; exact h6) hdo
    rw [abs_of_pos (show 0 < d / s by linarith)] at h
    exact hm.trans ((le_abs_self _).trans h)
  have h8 : s * (d / s) = d := by field_simp
  have hu : (0 : ℝ) < 1 + ulp := by rw [ulp]; norm_num
  have h9 : s * a ≤ (1 + ulp) * th * ((1 + ulp) * ((1 + ulp) * b)) := by
    calc s * a ≤ s * ((1 + ulp) * (th * m)) := mul_le_mul_of_nonneg_left h5 hs.le
      _ = (1 + ulp) * th * (s * m) := by ring
      _ ≤ (1 + ulp) * th * (s * ((1 + ulp) * (d / s))) := by
        apply mul_le_mul_of_nonneg_left _ (mul_pos hu hth).le
        exact mul_le_mul_of_nonneg_left h7 hs.le
      _ = (1 + ulp) * th * ((1 + ulp) * d) := by rw [show s * ((1 + ulp) * (d / s)) = (1 + ulp) * (s * (d / s)) by ring, h8]
      _ ≤ _ := by
        apply mul_le_mul_of_nonneg_left _ (mul_pos hu hth).le
        exact mul_le_mul_of_nonneg_left hdb hu.le
  have h10 : (1 + ulp) ^ 4 * th ≤ 1 := by
    have : (1 + ulp) ^ 4 * (1 - 1 / 1125899906842624) ≤ 1 := by rw [ulp]; norm_num
    exact (mul_le_mul_of_nonneg_left hth1 (pow_pos hu 4).le).trans this
  calc (1 + ulp) * (s * a) ≤ (1 + ulp) * ((1 + ulp) * th * ((1 + ulp) * ((1 + ulp) * b))) := mul_le_mul_of_nonneg_left h9 hu.le
    _ = ((1 + ulp) ^ 4 * th) * b := by ring
    _ ≤ 1 * b := mul_le_mul_of_nonneg_right h10 hb
    _ = b := one_mul b

namespace Dbl
variable {R : Rounding}
open Num

theorem near_le_self (R : Rounding) {s a : ℝ} (hs : IsB64 s) (ha0 : 0 ≤ a) (ha1 : a ≤ 1) : |R.near (s * a)| ≤ |s| ∧ |s * a| < overflow64 ∧ (0 ≤ s → 0 ≤ R.near (s * a)) ∧ (s ≤ 0 → R.near (s * a) ≤ 0) := by
  refine ⟨?_, ?_, fun h => near_nonneg R (mul_nonneg h ha0), fun h => near_nonpos R (mul_nonpos_of_nonpos_of_nonneg h ha0)⟩
  · rcases le_total 0 s with h | h
    · have h1 := R.near_mono (show s * a ≤ s from mul_le_of_le_one_right h ha1)
      rw [R.near_self hs] at h1
      rw [abs_of_nonneg h, abs_of_nonneg (near_nonneg R (mul_nonneg h ha0))]
      exact h1
    · have h1 := R.near_mono (show s ≤ s * a by nlinarith)
      rw [R.near_self hs] at h1
      rw [abs_of_nonpos h, abs_of_nonpos (near_nonpos R (mul_nonpos_of_nonpos_of_nonneg h ha0))]
      linarith
  · refine lt_of_le_of_lt ?_ (isB64_lt hs)
    rw [abs_mul, abs_of_nonneg ha0]
    exact mul_le_of_le_one_right (abs_nonneg _) ha1

/-- the computed step in one coordinate is not longer than the exact distance from the bound -/
theorem cut_side (x y s th a c : ℝ) (m : Num) (hx : IsB64 x) (hy : IsB64 y) (hs : IsB64 s) (hs0 : s ≠ 0) (hc : c = x - y) (hcs : 0 ≤ c / s)
    (hth : 0 < th) (hth1 : th ≤ 1 - 1 / 1125899906842624) (hmo : ∀ r, m = fin r → |r| < overflow64) (ha : (2 : ℝ) ^ (-1021 : ℤ) ≤ a) (ha1 : a ≤ 1)
    (ham : le (fin a) (rd R (fin th * m)) = true) (hm : le m (rd R (rd R (fin c) / fin s)) = true) : |R.near (s * a)| ≤ |c| := by
  have ha0 : 0 < a := lt_of_lt_of_le (zpow_pos (by norm_num) _) ha
  obtain ⟨h1, h2, -, -⟩ := near_le_self R hs ha0.le ha1
  have hsa : 0 < |s| := abs_pos.mpr hs0
  have hcabs : c / s = |c| / |s| := by rw [← abs_div, abs_of_nonneg hcs]
  by_cases ho : overflow64 ≤ |c|
  · exact h1.trans ((isB64_lt hs).le.trans ho)
  rw [not_le] at ho
  rw [rd_fin, if_neg (not_le.mpr ho), fin_div _ _ hs0] at hm
  have hd : |R.near c| ≤ (1 + ulp) * |c| := by rw [hc] at ho ⊢; exact near_diff R hx hy ho
  have hds : R.near c / s = |R.near c| / |s| := by
    rw [← abs_div, abs_of_nonneg]
    rcases lt_or_gt_of_ne hs0 with h | h
    · refine div_nonneg_of_nonpos (near_nonpos R ?_) h.le
      by_contra hcc
      have := div_neg_of_pos_of_neg (not_le.mp hcc) h
      linarith
    · refine div_nonneg (near_nonneg R ?_) h.le
      by_contra hcc
      have := div_neg_of_neg_of_pos (not_le.mp hcc) h
      linarith
  by_cases ho2 : overflow64 ≤ |R.near c / s|
  · have h3 : |s| * 2 ≤ |R.near c| := by
      rw [abs_div, le_div_iff₀ hsa] at ho2
      have h4 : (2 : ℝ) ≤ overflow64 := by
        have := isB64_lt (x := 2) (by simpa using isB64_int 2 (by norm_num))
        rw [abs_of_pos (by norm_num)] at this
        exact this.le
      nlinarith
    have hu : (1 + ulp) * |c| ≤ 2 * |c| := by
      have := abs_nonneg c
      rw [ulp]; linarith
    linarith
  rw [rd_fin, if_neg ho2] at hm
  rw [not_le] at ho2
  have hmr : ∃ r, m = fin r := by
    cases m with
    | fin r => exact ⟨r, rfl⟩
    | pinf => simp at hm
    | ninf =>
      rw [show (fin th * ninf : Num) = ninf by show Num.neg (infSign th) = _; rw [infSign]; simp [hth, hth.ne', Num.neg]] at ham
      simp [rd] at ham
    | nan => simp at hm
  obtain ⟨r, rfl⟩ := hmr
  rw [fin_le, decide_eq_true_eq] at hm
  have hro := hmo r rfl
  have hthr : |th * r| < overflow64 := by
    rw [abs_mul, abs_of_pos hth]
    refine lt_of_le_of_lt ?_ hro
    exact mul_le_of_le_one_left (abs_nonneg _) (by linarith)
  rw [fin_mul, rd_fin, if_neg (not_le.mpr hthr), fin_le, decide_eq_true_eq] at ham
  rw [hds] at hm ho2
  have h5 := cut_core R |c| |s| th a r |R.near c| (abs_nonneg _) hsa hth hth1 ha ham hro hm ho2 (abs_nonneg _) hd
  refine near_cut_below R hx hy _ (by rw [hc]) ?_ h2
  rwa [abs_mul, abs_of_pos ha0]

theorem quot_nonpos (D : Num) (s : ℝ) (h : (le D (fin 0) = true ∧ 0 < s) ∨ (le (fin 0) D = true ∧ s < 0)) : le (rd R (rd R D / fin s)) (fin 0) = true := by
  rw [← rd_zero (R := R)]
  apply rd_mono
  have hs : s ≠ 0 := by rcases h with ⟨-, h⟩ | ⟨-, h⟩ <;> [exact h.ne'; exact h.ne]
  have h' : (le (rd R D) (fin 0) = true ∧ 0 < s) ∨ (le (fin 0) (rd R D) = true ∧ s < 0) := by
    rcases h with ⟨h, h2⟩ | ⟨h, h2⟩
    · exact Or.inl ⟨by rw [← rd_zero (R := R)]; exact rd_mono _ _ h, h2⟩
    · exact Or.inr ⟨by rw [← rd_zero (R := R)]; exact rd_mono _ _ h, h2⟩
  generalize rd R D = e at h'
  cases e with
  | fin r =>
    rw [fin_div _ _ hs, fin_le, decide_eq_true_eq]
    rcases h' with ⟨h, h2⟩ | ⟨h, h2⟩ <;> rw [fin_le, decide_eq_true_eq] at h
    · exact div_nonpos_of_nonpos_of_nonneg h h2.le
    · exact div_nonpos_of_nonneg_of_nonpos h h2.le
  | pinf =>
    rcases h' with ⟨h, h2⟩ | ⟨h, h2⟩
    · simp at h
    · rw [show (pinf / fin s : Num) = ninf by show Num.div _ _ = _; simp [Num.div, infSign, h2, h2.le, not_lt.mpr h2.le, hs]]
      simp
  | ninf =>
    rcases h' with ⟨h, h2⟩ | ⟨h, h2⟩
    · rw [show (ninf / fin s : Num) = ninf by show Num.div _ _ = _; simp [Num.div, infSign, h2, h2.le, not_lt.mpr h2.le, hs, Num.neg]]
      simp
    · simp at h
  | nan => rcases h' with ⟨h, h2⟩ | ⟨h, h2⟩ <;> simp at h

/-- a nonpositive breakpoint leaves no step -/
theorem no_step (th a : ℝ) (m : Num) (hth : 0 < th) (hm : le m (fin 0) = true) (ha : le (fin a) (rd R (fin th * m)) = true) : a ≤ 0 := by
  have h : le (rd R (fin th * m)) (fin 0) = true := by
    rw [← rd_zero (R := R)]
    apply rd_mono
    cases m with
    | fin r => rw [fin_le, decide_eq_true_eq] at hm; rw [fin_mul, fin_le, decide_eq_true_eq]; exact mul_nonpos_of_nonneg_of_nonpos hth.le hm
    | pinf => simp at hm
    | ninf => rw [show (fin th * ninf : Num) = ninf by show Num.neg (infSign th) = _; rw [infSign]; simp [hth, hth.ne', Num.neg]]; simp
    | nan => simp at hm
  have h2 := LawfulFloat.le_trans (F := Num) _ _ _ ha h
  rwa [fin_le, decide_eq_true_eq] at h2

/-- one coordinate of a cut step -/
theorem cut_coord (l u x s theta m alpha : Dbl R) (xv sv th a : ℝ) (hx : x.val = fin xv) (hs : s.val = fin sv) (hlx : le l x = true) (hxu : le x u = true)
    (ht : theta.val = fin th) (hth : 0 < th) (hth1 : th ≤ 1 - 1 / 1125899906842624)
    (hm : lt (lit 0) (FloatOps.abs s) = true → le m (npMax2 ((u - x) / s) ((l - x) / s)) = true) (ha : alpha.val = fin a) (ha1 : a ≤ 1)
    (ham : le alpha (theta * m) = true) (ha0 : a = 0 ∨ (2 : ℝ) ^ (-1021 : ℤ) ≤ a) : le l (x + s * alpha) = true ∧ le (x + s * alpha) u = true := by
  obtain ⟨hsB, hsO⟩ := val_mem s sv hs
  obtain ⟨hxB, hxO⟩ := val_mem x xv hx
  have ha0' : 0 ≤ a := by
    rcases ha0 with rfl | h
    · exact le_rfl
    · exact (lt_of_lt_of_le (zpow_pos (by norm_num) _) h).le
  obtain ⟨hp1, hp2, hp3, hp4⟩ := near_le_self R hsB ha0' ha1
  have hsa : (s * alpha).val = fin (R.near (sv * a)) := by rw [val_mul, hs, ha, fin_mul, v_rd hp2]
  have hpB := R.near_mem (sv * a)
  -- it suffices to bound the exact sum
  have hsum : (x + s * alpha).val = rd R (fin (xv + R.near (sv * a))) := by rw [val_add, hx, hsa, fin_add]
  have hU : le x.val u.val = true := hxu
  have hL : le l.val x.val = true := hlx
  have upper : (∀ uv, u.val = fin uv → xv + R.near (sv * a) ≤ uv) → le (x + s * alpha) u = true := by
    intro h
    show le (x + s * alpha).val u.val = true
    rw [hsum, ← rd_val u]
    apply rd_mono
    rw [hx] at hU
    cases hu : u.val with
    | fin uv => rw [fin_le, decide_eq_true_eq]; exact h uv hu
    | pinf => simp
    | ninf => rw [hu] at hU; simp at hU
    | nan => rw [hu] at hU; simp at hU
  have lower : (∀ lv, l.val = fin lv → lv ≤ xv + R.near (sv * a)) → le l (x + s * alpha) = true := by
    intro h
    show le l.val (x + s * alpha).val = true
    rw [hsum, ← rd_val l]
    apply rd_mono
    rw [hx] at hL
    cases hl : l.val with
    | fin lv => rw [fin_le, decide_eq_true_eq]; exact h lv hl
    | ninf => simp
    | pinf => rw [hl] at hL; simp at hL
    | nan => rw [hl] at hL; simp at hL
  have hle_u : ∀ uv, u.val = fin uv → xv ≤ uv := by
    intro uv h; rw [hx, h, fin_le, decide_eq_true_eq] at hU; exact hU
  have hle_l : ∀ lv, l.val = fin lv → lv ≤ xv := by
    intro lv h; rw [hx, h, fin_le, decide_eq_true_eq] at hL; exact hL
  have stay : R.near (sv * a) = 0 → le l (x + s * alpha) = true ∧ le (x + s * alpha) u = true := by
    intro h
    rw [h] at upper lower
    exact ⟨lower fun lv hl => by linarith [hle_l lv hl], upper fun uv hu => by linarith [hle_u uv hu]⟩
  rcases ha0 with rfl | ha0
  · exact stay (by rw [mul_zero, R.near_zero])
  by_cases hsv : sv = 0
  · exact stay (by rw [hsv, zero_mul, R.near_zero])
  have hgo : lt (lit 0) (FloatOps.abs s) = true := by
    rw [lt_iff val_lit_zero (v_abs hs), decide_eq_true_eq]; exact abs_pos.mpr hsv
  have hm := hm hgo
  have hnn := LawfulFloat.le_self_right _ _ hm
  have hAB : (le m ((u - x) / s) = true ∧ lt ((u - x) / s) ((l - x) / s) = false) ∨ (le m ((l - x) / s) = true ∧ lt ((u - x) / s) ((l - x) / s) = true) := by
    unfold npMax2 at hm
    split at hm
    · rename_i h
      have := LawfulFloat.le_self_right _ _ hm
      rw [isNaN, this] at h; cases h
    · split at hm
      · rename_i h
        have := LawfulFloat.le_self_right _ _ hm
        rw [isNaN, this] at h; cases h
      · split at hm
        · rename_i h; exact Or.inr ⟨hm, h⟩
        · rename_i h; exact Or.inl ⟨hm, by simpa using h⟩
  have hs0 : s.val ≠ fin 0 := by rw [hs]; intro h; exact hsv (Num.fin.inj h)
  have hA : ((u - x) / s).val = rd R (rd R (u.val - fin xv) / fin sv) := by rw [val_div _ _ hs0, val_sub, hx, hs]
  have hB : ((l - x) / s).val = rd R (rd R (l.val - fin xv) / fin sv) := by rw [val_div _ _ hs0, val_sub, hx, hs]
  have ham' : le (fin a) (rd R (fin th * m.val)) = true := by
    have : le alpha.val (theta * m).val = true := ham
    rwa [ha, val_mul, ht] at this
  have hapos : 0 < a := lt_of_lt_of_le (zpow_pos (by norm_num) _) ha0
  have hmo : ∀ r, m.val = fin r → |r| < overflow64 := fun r h => (val_mem m r h).2
  have hUx : le (fin 0) (u.val - fin xv) = true := by
    rw [hx] at hU
    cases hu : u.val with
    | fin uv => have := hle_u uv hu; rw [fin_sub, fin_le, decide_eq_true_eq]; linarith
    | pinf => simp
    | ninf => rw [hu] at hU; simp at hU
    | nan => rw [hu] at hU; simp at hU
  have hLx : le (l.val - fin xv) (fin 0) = true := by
    rw [hx] at hL
    cases hl : l.val with
    | fin lv => have := hle_l lv hl; rw [fin_sub, fin_le, decide_eq_true_eq]; linarith
    | ninf => simp
    | pinf => rw [hl] at hL; simp at hL
    | nan => rw [hl] at hL; simp at hL
  have contra : ∀ Q : Dbl R, le m Q = true → le Q.val (fin 0) = true → False := by
    intro Q h1 h2
    have h3 : le m.val Q.val = true := h1
    have := no_step th a m.val hth (LawfulFloat.le_trans (F := Num) _ _ _ h3 h2) ham'
    linarith
  rcases lt_or_gt_of_ne hsv with hneg | hpos
  · rcases hAB with ⟨h, -⟩ | ⟨h, -⟩
    · exact (contra _ h (by rw [hA]; exact quot_nonpos _ _ (Or.inr ⟨hUx, hneg⟩))).elim
    · have h' : le m.val ((l - x) / s).val = true := h
      rw [hB] at h'
      refine ⟨lower fun lv hl => ?_, upper fun uv hu => by linarith [hle_u uv hu, hp4 hneg.le]⟩
      rw [hl, fin_sub] at h'
      have := cut_side lv xv sv th a (lv - xv) m.val (val_mem l lv hl).1 hxB hsB hsv rfl (div_nonneg_of_nonpos (by linarith [hle_l lv hl]) hneg.le) hth hth1 hmo ha0 ha1 ham' h'
      rw [abs_of_nonpos (show lv - xv ≤ 0 by linarith [hle_l lv hl])] at this
      linarith [neg_abs_le (R.near (sv * a))]
  · rcases hAB with ⟨h, -⟩ | ⟨h, -⟩
    · have h' : le m.val ((u - x) / s).val = true := h
      rw [hA] at h'
      refine ⟨lower fun lv hl => by linarith [hle_l lv hl, hp3 hpos.le], upper fun uv hu => ?_⟩
      rw [hu, fin_sub] at h'
      have := cut_side uv xv sv th a (uv - xv) m.val (val_mem u uv hu).1 hxB hsB hsv rfl (div_nonneg (by linarith [hle_u uv hu]) hpos.le) hth hth1 hmo ha0 ha1 ham' h'
      rw [abs_of_nonneg (show 0 ≤ uv - xv by linarith [hle_u uv hu])] at this
      linarith [le_abs_self (R.near (sv * a))]
    · exact (contra _ h (by rw [hB]; exact quot_nonpos _ _ (Or.inl ⟨hLx, hpos⟩))).elim

end Dbl
end
end Fides
