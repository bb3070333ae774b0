import Verif.Props.Binary64
import Verif.Props.Start

/-!
# The starting point in IEEE double precision (C60 witnesses, C61)
-/

namespace Fides
open Spec Dbl

variable {n : ℕ} {R : Rounding}

/-! ## witnesses for C60 -/

/-- a one-dimensional problem whose variable is fixed at `c` -/
noncomputable def fixDbl (R : Rounding) (O : Oracles (Dbl R)) (c : Dbl R) : Env (Dbl R) 1 := { outEnv R O with lb := fun _ => c, ub := fun _ => c }

theorem fix_rest (O : Oracles (Dbl R)) (c : Dbl R) (r : ℝ) (h : c.val = .fin r) (j : Fin 1) :
    isNaN ((fixDbl R O c).ub j - (fun _ => c : Vec (Dbl R) 1) j) = false := by
  refine nn (v_sub (r := r) (s := r) h h ?_)
  rw [sub_self]; exact isB64_zero

/-- the hypotheses of `C60_counterexample` and of `C60_even_counterexample` are met -/
example (O : Oracles (Dbl evenRounding)) : TiesToEven evenRounding ∧
    (∃ c : Dbl evenRounding, c.val = .fin (1 / 2 ^ 100) ∧
      ∀ j, isNaN ((fixDbl evenRounding O c).ub j - (fun _ => c : Vec (Dbl evenRounding) 1) j) = false) ∧
    (∃ c : Dbl evenRounding, c.val = .fin (9 + 1 / 2 ^ 49) ∧
      ∀ j, isNaN ((fixDbl evenRounding O c).ub j - (fun _ => c : Vec (Dbl evenRounding) 1) j) = false) := by
  refine ⟨evenRounding_even, ⟨.num (1 / 2 ^ 100) ⟨1, -100, by norm_num, by norm_num, by norm_num, by norm_num⟩ (by norm_num), rfl, ?_⟩,
    ⟨.num (9 + 1 / 2 ^ 49) ⟨9 * 2 ^ 49 + 1, -49, by norm_num, by norm_num, by norm_num, by norm_num⟩ (by norm_num), rfl, ?_⟩⟩
  · intro j; exact fix_rest O _ _ rfl j
  · intro j; exact fix_rest O _ _ rfl j

/-- the hypotheses of `C60_kept_partial` are met by a coordinate fixed at 3/2 -/
example (O : Oracles (Dbl R)) : ∃ c : Dbl R, ∃ r : ℝ, c.val = .fin r ∧ (100 / 2 ^ 52 ≤ r ∧ r < 8) ∧
    ∀ j, isNaN ((fixDbl R O c).ub j - (fun _ => c : Vec (Dbl R) 1) j) = false :=
  ⟨.num (3 / 2) ⟨3, -1, by norm_num, by norm_num, by norm_num, by norm_num⟩ (by norm_num), 3 / 2, rfl, by norm_num,
    fun j => fix_rest O _ _ rfl j⟩

/-! ## C61 -/

/-- C61 (the property fails): in double precision a run with bounds `[0, 2^20]` that starts on the upper bound calls the objective
exactly on the bound: the nudge is smaller than half the spacing of the doubles there.  In exact arithmetic the first call has a positive
distance from both bounds (C02). -/
theorem C61_counterexample (E : Env (Dbl R) 1) (x0 : Vec (Dbl R) 1) (startId : String) (hess0 : Hess0 (Dbl R)) (st0 : St (Dbl R) 1)
    (hx : (x0 0).val = .fin (2 ^ 20)) (hl : (E.lb 0).val = .fin 0) (hu : (E.ub 0).val = .fin (2 ^ 20)) (fuel : ℕ) :
    ∃ l first, (finalState (minimize E fuel x0 startId hess0 st0)).evals = l ++ first :: st0.evals ∧
      (first.arg 0).val = (E.ub 0).val := by
  have hnear : R.near (2 ^ 20 - 100 / 4503599627370496) = 2 ^ 20 := by
    obtain ⟨y, hy⟩ : ∃ y, R.near (2 ^ 20 - 100 / 4503599627370496) = y := ⟨_, rfl⟩
    have hd := R.near_mem (2 ^ 20 - 100 / 4503599627370496)
    have h2 := R.near_best (2 ^ 20 - 100 / 4503599627370496) (2 ^ 20) ⟨1, 20, by norm_num, by norm_num, by norm_num, by norm_num⟩
    rw [hy] at hd h2
    rw [hy]
    rw [show (2 ^ 20 - 100 / 4503599627370496 - 2 ^ 20 : ℝ) = -(100 / 4503599627370496) by norm_num, abs_neg,
      abs_of_pos (show (0 : ℝ) < 100 / 4503599627370496 by norm_num)] at h2
    obtain ⟨h4, h5⟩ := abs_le.mp h2
    rcases isB64_between y hd (2 ^ 53 - 1) (-33) (by norm_num) with h | h
    · push_cast at h; norm_num at h h4 h5; linarith
    · push_cast at h
      by_contra hne
      have h6 : (2 : ℝ) ^ 20 ≤ y := by refine le_trans (le_of_eq ?_) h; norm_num
      rcases isB64_between y hd (2 ^ 52) (-32) (by norm_num) with h' | h'
      · apply hne; push_cast at h'; refine le_antisymm (le_trans h' (le_of_eq ?_)) h6; norm_num
      · push_cast at h'; norm_num at h' h4 h5; linarith
  have hov : ((2 : ℝ) ^ 20) < overflow64 := by
    have := isB64_lt (x := 2 ^ 20) ⟨1, 20, by norm_num, by norm_num, by norm_num, by norm_num⟩
    rwa [abs_of_pos (by norm_num)] at this
  have hz : (E.ub 0 - x0 0).val = .fin 0 := by rw [v_sub hu hx (by rw [sub_self]; exact isB64_zero), sub_self]
  have hz2 : (x0 0 - E.lb 0).val = .fin (2 ^ 20) := by
    rw [v_sub hx hl (by rw [sub_zero]; exact (val_mem _ _ hx).1), sub_zero]
  have hz' : (FloatOps.abs (E.ub 0 - x0 0)).val = .fin 0 := by rw [v_abs hz, abs_zero]
  have hn : (nudge E.lb E.ub x0 0).val = .fin (2 ^ 20) := by
    have h1 : lt (vmin fun i => FloatOps.abs (E.ub i - x0 i)) degEps = true := by
      rw [vmin_one _ (nn hz') (by rw [hz']; simp), lt_iff hz' OutDemo.vDeg]; norm_num
    have h2 : lt (E.ub 0 - x0 0) degEps = true := by rw [lt_iff hz OutDemo.vDeg]; norm_num
    have h3 : lt (x0 0 - E.lb 0) degEps = false := by rw [lt_iff hz2 OutDemo.vDeg]; norm_num
    unfold nudge
    rw [if_pos (by rw [h1]; rfl)]
    simp only [h2, h3, if_true, if_false, Bool.false_eq_true]
    rw [val_sub, hx, OutDemo.vDeg, Num.fin_sub, v_rd (lt_trans (by rw [abs_of_pos] <;> norm_num) hov), hnear]
  have hin : inBounds E.lb E.ub (nudge E.lb E.ub x0) = true := by
    have h1 : (E.ub 0 - nudge E.lb E.ub x0 0).val = .fin 0 := by rw [v_sub hu hn (by rw [sub_self]; exact isB64_zero), sub_self]
    have h2 : (E.lb 0 - nudge E.lb E.ub x0 0).val = .fin (-2 ^ 20) := by
      rw [v_sub hl hn (by rw [zero_sub]; exact isB64_neg (val_mem _ _ hx).1), zero_sub]
    unfold inBounds
    rw [Bool.and_eq_true]
    constructor
    · rw [decide_eq_true_eq]
      intro i; rw [Fin.fin_one_eq_zero i]
      rw [le_iff (v_mul val_lit_neg_one h1 (by rw [mul_zero]; exact isB64_zero)) val_lit_zero]; norm_num
    · rw [decide_eq_true_eq]
      intro i; rw [Fin.fin_one_eq_zero i]
      rw [le_iff (v_mul val_lit_one h2 (by rw [one_mul]; exact isB64_neg (val_mem _ _ hx).1)) val_lit_zero]; norm_num
  rcases final_evals E x0 startId hess0 st0 fuel with ⟨_, hn0 | ⟨_, hb⟩⟩ | ⟨_, l, q, h4, h5, _⟩
  · omega
  · rw [hin] at hb; cases hb
  · exact ⟨l, q, h4, by rw [h5, hn, hu]⟩

/-! ### what holds -/

section grid

/-- multiples of `2^-46` are doubles up to 128 -/
theorem grid_b64 (k : ℤ) (h : |k| < 2 ^ 53) : IsB64 ((k : ℝ) * (2 : ℝ) ^ (-46 : ℤ)) := ⟨k, -46, h, by norm_num, by norm_num, rfl⟩

theorem pow46 : (2 : ℝ) ^ (-46 : ℤ) = 1 / 2 ^ 46 := by norm_num

theorem grid_below (x : ℝ) (hx : |x| ≤ 255 / 2) : ∃ y, IsB64 y ∧ x - margin < y ∧ y < x := by
  have hm : (1 : ℝ) / 2 ^ 46 < margin := by rw [margin]; norm_num
  have h1 := Int.ceil_lt_add_one (x * 2 ^ 46)
  have h2 := Int.le_ceil (x * 2 ^ 46)
  obtain ⟨h3, h4⟩ := abs_le.mp hx
  refine ⟨((⌈x * 2 ^ 46⌉ - 1 : ℤ) : ℝ) * (2 : ℝ) ^ (-46 : ℤ), grid_b64 _ ?_, ?_, ?_⟩
  · have : |((⌈x * 2 ^ 46⌉ - 1 : ℤ) : ℝ)| < 2 ^ 53 := by
      rw [abs_lt]; push_cast; constructor <;> norm_num at * <;> nlinarith
    exact_mod_cast this
  · push_cast; rw [pow46]; norm_num at *; linarith
  · push_cast; rw [pow46]; norm_num at *; linarith

theorem grid_above (x : ℝ) (hx : |x| ≤ 255 / 2) : ∃ y, IsB64 y ∧ x < y ∧ y < x + margin := by
  obtain ⟨y, h1, h2, h3⟩ := grid_below (-x) (by rwa [abs_neg])
  exact ⟨-y, isB64_neg h1, by linarith, by linarith⟩

theorem near_below (x : ℝ) (hx : IsB64 x) (hr : |x| ≤ 127) : R.near (x - margin) < x ∧ x - 2 * margin < R.near (x - margin) := by
  have hsmall : margin ≤ 1 / 4 := by rw [margin]; norm_num
  obtain ⟨hr1, hr2⟩ := abs_le.mp hr
  constructor
  · have h1 := R.near_mono (show x - margin ≤ x by linarith [margin_pos])
    rw [R.near_self hx] at h1
    refine lt_of_le_of_ne h1 fun he => ?_
    obtain ⟨y, h2, h3, h4⟩ := grid_below x (by rw [abs_le]; constructor <;> linarith)
    have h5 := R.near_best (x - margin) y h2
    rw [he, show x - margin - x = -margin by ring, abs_neg, abs_of_pos margin_pos] at h5
    have h6 : |x - margin - y| < margin := by rw [abs_lt]; constructor <;> linarith
    linarith
  · obtain ⟨y, h2, h3, h4⟩ := grid_below (x - margin) (by rw [abs_le]; constructor <;> linarith [margin_pos])
    have h1 := R.near_mono h4.le
    rw [R.near_self h2] at h1
    linarith

theorem near_above (x : ℝ) (hx : IsB64 x) (hr : |x| ≤ 127) : x < R.near (x + margin) ∧ R.near (x + margin) < x + 2 * margin := by
  have hsmall : margin ≤ 1 / 4 := by rw [margin]; norm_num
  obtain ⟨hr1, hr2⟩ := abs_le.mp hr
  constructor
  · have h1 := R.near_mono (show x ≤ x + margin by linarith [margin_pos])
    rw [R.near_self hx] at h1
    refine lt_of_le_of_ne h1 fun he => ?_
    obtain ⟨y, h2, h3, h4⟩ := grid_above x (by rw [abs_le]; constructor <;> linarith)
    have h5 := R.near_best (x + margin) y h2
    rw [← he, show x + margin - x = margin by ring, abs_of_pos margin_pos] at h5
    have h6 : |x + margin - y| < margin := by rw [abs_lt]; constructor <;> linarith
    linarith
  · obtain ⟨y, h2, h3, h4⟩ := grid_above (x + margin) (by rw [abs_le]; constructor <;> linarith [margin_pos])
    have h1 := R.near_mono h3.le
    rw [R.near_self h2] at h1
    linarith

theorem vDeg' : (degEps : Dbl R).val = .fin margin := by rw [OutDemo.vDeg, margin]; norm_num

theorem isB64_margin : IsB64 margin := (val_mem _ _ (vDeg' (R := someRounding))).1

theorem rd_margin : rd R (.fin margin) = .fin margin := rd_self _ isB64_margin (isB64_lt isB64_margin)

/-- the test `b - a < eps` on doubles, when `a ≤ b` -/
theorem flag_true (a b : Dbl R) (s : ℝ) (ha : a.val = .fin s) (h : lt (b - a) degEps = true) (hb : le (.fin s) b.val = true) :
    ∃ t, b.val = .fin t ∧ t - s < margin := by
  rw [lt_def, vDeg', val_sub, ha] at h
  cases hv : b.val with
  | fin t =>
    refine ⟨t, rfl, ?_⟩
    rw [hv, Num.fin_sub] at h
    by_contra hc
    have := rd_mono (R := R) (.fin margin) (.fin (t - s)) (by rw [Num.fin_le]; simpa using not_lt.mp hc)
    rw [rd_margin] at this
    have h2 := ((LawfulFloat.lt_iff _ _).mp h).2
    rw [this] at h2; cases h2
  | pinf => rw [hv] at h; cases h
  | ninf => rw [hv] at hb; cases hb
  | nan => rw [hv] at hb; cases hb
theorem flag_false (a b : Dbl R) (s : ℝ) (ha : a.val = .fin s) (h : lt (b - a) degEps = false) (hb : le (.fin s) b.val = true) :
    lt (.fin s) b.val = true := by
  cases hv : b.val with
  | fin t =>
    rw [hv] at hb
    rw [Num.fin_le] at hb
    have hb := of_decide_eq_true hb
    rw [Num.fin_lt, decide_eq_true_eq]
    refine lt_of_le_of_ne hb fun he => ?_
    subst he
    rw [lt_iff (v_sub hv ha (by rw [sub_self]; exact isB64_zero)) vDeg', sub_self] at h
    have := margin_pos
    simp at h; linarith
  | pinf => rfl
  | ninf => rw [hv] at hb; cases hb
  | nan => rw [hv] at hb; cases hb

/-- the test `a - b < eps` on doubles, when `b ≤ a` -/
theorem flag_true' (a b : Dbl R) (s : ℝ) (ha : a.val = .fin s) (h : lt (a - b) degEps = true) (hb : le b.val (.fin s) = true) :
    ∃ t, b.val = .fin t ∧ s - t < margin := by
  rw [lt_def, vDeg', val_sub, ha] at h
  cases hv : b.val with
  | fin t =>
    refine ⟨t, rfl, ?_⟩
    rw [hv, Num.fin_sub] at h
    by_contra hc
    have := rd_mono (R := R) (.fin margin) (.fin (s - t)) (by rw [Num.fin_le]; simpa using not_lt.mp hc)
    rw [rd_margin] at this
    have h2 := ((LawfulFloat.lt_iff _ _).mp h).2
    rw [this] at h2; cases h2
  | ninf => rw [hv] at h; cases h
  | pinf => rw [hv] at hb; cases hb
  | nan => rw [hv] at hb; cases hb
theorem flag_false' (a b : Dbl R) (s : ℝ) (ha : a.val = .fin s) (h : lt (a - b) degEps = false) (hb : le b.val (.fin s) = true) :
    lt b.val (.fin s) = true := by
  cases hv : b.val with
  | fin t =>
    rw [hv] at hb
    rw [Num.fin_le] at hb
    have hb := of_decide_eq_true hb
    rw [Num.fin_lt, decide_eq_true_eq]
    refine lt_of_le_of_ne hb fun he => ?_
    subst he
    rw [lt_iff (v_sub ha hv (by rw [sub_self]; exact isB64_zero)) vDeg', sub_self] at h
    have := margin_pos
    simp at h; linarith
  | ninf => rfl
  | pinf => rw [hv] at hb; cases hb
  | nan => rw [hv] at hb; cases hb

theorem abs_not_nan (a : Dbl R) (h : isNaN a = false) : le (FloatOps.abs a) (FloatOps.abs a) = true := by
  have h2 : isNaN (FloatOps.abs a) = isNaN a := by
    rw [isNaN_def, isNaN_def, val_abs]
    cases a.val with
    | fin q => simp [isNaN]
    | pinf => rfl
    | ninf => rfl
    | nan => rfl
  rw [h] at h2
  simpa [isNaN] using h2

theorem diff_not_nan (a b : Dbl R) (s : ℝ) (ha : a.val = .fin s) (hb : le b.val b.val = true) : isNaN (b - a) = false ∧ isNaN (a - b) = false := by
  rw [isNaN_def, isNaN_def, val_sub, val_sub, rd_nan, rd_nan, ha]
  cases hv : b.val with
  | fin t => rw [Num.fin_sub, Num.fin_sub]; simp [isNaN]
  | pinf => exact ⟨rfl, rfl⟩
  | ninf => exact ⟨rfl, rfl⟩
  | nan => rw [hv] at hb; cases hb
end grid

/-- the nudged coordinates in double precision -/
theorem nudge_dbl (lb ub x : Vec (Dbl R) n) (r : Fin n → ℝ) (hx : ∀ i, (x i).val = .fin (r i))
    (hbox : InBox (fun i => (lb i).val) (fun i => (ub i).val) r) (i : Fin n) (hr : |r i| ≤ 127)
    (hw : ∃ a, InBox1 (lb i).val (ub i).val a ∧ InBox1 (lb i).val (ub i).val (a + 4 * margin)) :
    ∃ q, (nudge lb ub x i).val = .fin q ∧ Inside1 (lb i).val (ub i).val q ∧ |q - r i| < 2 * margin := by
  have hm := margin_pos
  have hself : ∀ {a b : Num}, le a b = true → le a a = true ∧ le b b = true := by
    intro a b h; cases a <;> cases b <;> first | (cases h; done) | exact ⟨by simp, by simp⟩ | exact ⟨rfl, rfl⟩ | exact ⟨by simp, rfl⟩ | exact ⟨rfl, by simp⟩
  have hB := (val_mem _ _ (hx i)).1
  obtain ⟨hb1, hb2⟩ := hbox i
  simp only at hb1 hb2
  obtain ⟨a, ⟨ha1, ha2⟩, ha3, ha4⟩ := hw
  have hov : ∀ y : ℝ, |y| ≤ 128 → |y| < overflow64 := by
    intro y hy
    have := isB64_lt (x := 129) ⟨129, 0, by norm_num, by norm_num, by norm_num, by norm_num⟩
    rw [abs_of_pos (by norm_num)] at this
    linarith
  have hsmall : margin ≤ 1 / 4 := by rw [margin]; norm_num
  obtain ⟨hr1, hr2⟩ := abs_le.mp hr
  obtain ⟨hd1, hd2⟩ := near_below (R := R) (r i) hB hr
  obtain ⟨hd3, hd4⟩ := near_above (R := R) (r i) hB hr
  unfold nudge
  split
  · cases hu : lt (ub i - x i) degEps with
    | true =>
      obtain ⟨u, hu1, hu2⟩ := flag_true _ _ _ (hx i) hu hb2
      cases hl : lt (x i - lb i) degEps with
      | true =>
        exfalso
        obtain ⟨l, hl1, hl2⟩ := flag_true' _ _ _ (hx i) hl hb1
        rw [hl1, Num.fin_le] at ha1
        rw [hu1, Num.fin_le] at ha4
        have := of_decide_eq_true ha1
        have := of_decide_eq_true ha4
        linarith
      | false =>
        refine ⟨R.near (r i - margin), ?_, ⟨?_, ?_⟩, ?_⟩
        · simp only [hu, hl, if_true, if_false, Bool.false_eq_true]
          rw [val_sub, hx, vDeg', Num.fin_sub, v_rd (hov _ (by rw [abs_le]; constructor <;> linarith))]
        · cases hv : (lb i).val with
          | fin l =>
            rw [hv, Num.fin_le] at ha1
            rw [hu1, Num.fin_le] at ha4
            have := of_decide_eq_true ha1
            have := of_decide_eq_true ha4
            rw [Num.fin_lt, decide_eq_true_eq]; linarith
          | ninf => rfl
          | pinf => rw [hv] at hb1; cases hb1
          | nan => rw [hv] at hb1; cases hb1
        · rw [hu1, Num.fin_le] at hb2
          have := of_decide_eq_true hb2
          rw [hu1, Num.fin_lt, decide_eq_true_eq]; linarith
        · rw [abs_lt]; constructor <;> linarith
    | false =>
      have hu' := flag_false _ _ _ (hx i) hu hb2
      cases hl : lt (x i - lb i) degEps with
      | true =>
        obtain ⟨l, hl1, hl2⟩ := flag_true' _ _ _ (hx i) hl hb1
        refine ⟨R.near (r i + margin), ?_, ⟨?_, ?_⟩, ?_⟩
        · simp only [hu, hl, if_true, if_false, Bool.false_eq_true]
          rw [val_add, hx, vDeg', Num.fin_add, v_rd (hov _ (by rw [abs_le]; constructor <;> linarith))]
        · rw [hl1, Num.fin_le] at hb1
          have := of_decide_eq_true hb1
          rw [hl1, Num.fin_lt, decide_eq_true_eq]; linarith
        · cases hv : (ub i).val with
          | fin u =>
            rw [hl1, Num.fin_le] at ha1
            rw [hv, Num.fin_le] at ha4
            have := of_decide_eq_true ha1
            have := of_decide_eq_true ha4
            rw [Num.fin_lt, decide_eq_true_eq]; linarith
          | pinf => rfl
          | ninf => rw [hv] at hb2; cases hb2
          | nan => rw [hv] at hb2; cases hb2
        · rw [abs_lt]; constructor <;> linarith
      | false =>
        refine ⟨r i, ?_, ⟨flag_false' _ _ _ (hx i) hl hb1, hu'⟩, ?_⟩
        · simp only [hu, hl, if_false, Bool.false_eq_true]; exact hx i
        · rw [sub_self, abs_zero]; linarith
  · rename_i htr
    rw [Bool.not_eq_true, Bool.or_eq_false_iff] at htr
    refine ⟨r i, hx i, ⟨?_, ?_⟩, by rw [sub_self, abs_zero]; linarith⟩
    · refine Decidable.byContradiction fun hc => ?_
      have heq : (lb i).val = .fin (r i) := by
        cases hv : (lb i).val with
        | fin l =>
          rw [hv] at hb1 hc
          simp only [Num.fin_le, Num.fin_lt, decide_eq_true_eq] at hb1 hc
          rw [le_antisymm hb1 (not_lt.mp hc)]
        | ninf => rw [hv] at hc; exact absurd rfl hc
        | pinf => rw [hv] at hb1; cases hb1
        | nan => rw [hv] at hb1; cases hb1
      have h0 : (x i - lb i).val = .fin 0 := by rw [v_sub (hx i) heq (by rw [sub_self]; exact isB64_zero), sub_self]
      have h1 : lt (vmin fun j => FloatOps.abs (x j - lb j)) degEps = true :=
        lt_of_le_of_lt' (vmin_le _ (fun j => abs_not_nan _ (diff_not_nan _ _ _ (hx j) (hself (hbox j).1).1).2) i rfl)
          (by rw [lt_iff (v_abs h0) vDeg', abs_zero]; simpa using hm)
      rw [h1] at htr; exact absurd htr.2 (by simp)
    · refine Decidable.byContradiction fun hc => ?_
      have heq : (ub i).val = .fin (r i) := by
        cases hv : (ub i).val with
        | fin l =>
          rw [hv] at hb2 hc
          simp only [Num.fin_le, Num.fin_lt, decide_eq_true_eq] at hb2 hc
          rw [le_antisymm hb2 (not_lt.mp hc)]
        | pinf => rw [hv] at hc; exact absurd rfl hc
        | ninf => rw [hv] at hb2; cases hb2
        | nan => rw [hv] at hb2; cases hb2
      have h0 : (ub i - x i).val = .fin 0 := by rw [v_sub heq (hx i) (by rw [sub_self]; exact isB64_zero), sub_self]
      have h1 : lt (vmin fun j => FloatOps.abs (ub j - x j)) degEps = true :=
        lt_of_le_of_lt' (vmin_le _ (fun j => abs_not_nan _ (diff_not_nan _ _ _ (hx j) (hself (hbox j).2).2).1) i rfl)
          (by rw [lt_iff (v_abs h0) vDeg', abs_zero]; simpa using hm)
      rw [h1] at htr; exact absurd htr.1 (by simp)

/-- the bounds check passes for doubles within the bounds -/
theorem inBounds_dbl (lb ub x : Vec (Dbl R) n) (r : Fin n → ℝ) (hx : ∀ i, (x i).val = .fin (r i))
    (hbox : InBox (fun i => (lb i).val) (fun i => (ub i).val) r) : inBounds lb ub x = true := by
  unfold inBounds
  rw [Bool.and_eq_true, decide_eq_true_eq, decide_eq_true_eq]
  constructor
  · intro i
    obtain ⟨h1, h2⟩ := hbox i
    simp only at h1 h2
    rw [le_def, val_mul, val_lit_neg_one, val_lit_zero, val_sub, hx]
    have key : ∀ w : Num, le (.fin 0) w = true → le (rd R (.fin (-1) * w)) (.fin 0) = true := by
      intro w hw
      have h := rd_mono (R := R) (.fin (-1) * w) (.fin 0) (by
        cases w with
        | fin q => rw [Num.fin_le] at hw; have := of_decide_eq_true hw; rw [Num.fin_mul, Num.fin_le, decide_eq_true_eq]; linarith
        | pinf => have h9 : (Num.fin (-1) * Num.pinf : Num) = .ninf := by show Num.infSign (-1) = _; simp [Num.infSign]
                  rw [h9]; rfl
        | ninf => cases hw
        | nan => cases hw)
      rwa [rd_zero] at h
    apply key
    rw [← rd_zero (R := R)]
    apply rd_mono
    cases hv : (ub i).val with
    | fin u => rw [hv, Num.fin_le] at h2; have := of_decide_eq_true h2; rw [Num.fin_sub, Num.fin_le, decide_eq_true_eq]; linarith
    | pinf => rfl
    | ninf => rw [hv] at h2; cases h2
    | nan => rw [hv] at h2; cases h2
  · intro i
    obtain ⟨h1, h2⟩ := hbox i
    simp only at h1 h2
    rw [le_def, val_mul, val_lit_one, val_lit_zero, val_sub, hx, fin_one_mul]
    rw [← rd_zero (R := R)]
    apply rd_mono
    rw [← rd_zero (R := R)]
    apply rd_mono
    cases hv : (lb i).val with
    | fin u => rw [hv, Num.fin_le] at h1; have := of_decide_eq_true h1; rw [Num.fin_sub, Num.fin_le, decide_eq_true_eq]; linarith
    | ninf => rfl
    | pinf => rw [hv] at h1; cases h1
    | nan => rw [hv] at h1; cases h1

/-- C61, what holds: in double precision, from a feasible starting point with coordinates of magnitude at most 127 and a box at least four
margins wide, the objective is called and the first call is strictly within the bounds, at most two margins away from `x0`. -/
theorem C61_inside_partial (E : Env (Dbl R) n) (x0 : Vec (Dbl R) n) (startId : String) (hess0 : Hess0 (Dbl R)) (st0 : St (Dbl R) n)
    (fuel : ℕ) (hn : 0 < n) (r : Fin n → ℝ) (hx0 : ∀ i, (x0 i).val = .fin (r i))
    (hbox : InBox (fun i => (E.lb i).val) (fun i => (E.ub i).val) r) (hr : ∀ i, |r i| ≤ 127)
    (hw : ∀ i, ∃ a, InBox1 (E.lb i).val (E.ub i).val a ∧ InBox1 (E.lb i).val (E.ub i).val (a + 4 * margin)) :
    ∃ l first, ∃ r' : Fin n → ℝ, (finalState (minimize E fuel x0 startId hess0 st0)).evals = l ++ first :: st0.evals ∧
      (∀ i, (first.arg i).val = .fin (r' i)) ∧ Inside (fun i => (E.lb i).val) (fun i => (E.ub i).val) r' ∧
      ∀ i, |r' i - r i| < 2 * margin := by
  choose q h1 h2 h3 using fun i => nudge_dbl E.lb E.ub x0 r hx0 hbox i (hr i) (hw i)
  have hb' : InBox (fun i => (E.lb i).val) (fun i => (E.ub i).val) q := by
    intro i
    obtain ⟨a, b⟩ := h2 i
    exact ⟨((LawfulFloat.lt_iff _ _).mp a).1, ((LawfulFloat.lt_iff _ _).mp b).1⟩
  rcases final_evals E x0 startId hess0 st0 fuel with ⟨_, hn0 | ⟨_, hb⟩⟩ | ⟨_, l, f, h4, h5, _⟩
  · omega
  · rw [inBounds_dbl _ _ _ q h1 hb'] at hb; cases hb
  · exact ⟨l, f, q, h4, by rw [h5]; exact h1, h2, h3⟩

/-- the hypotheses are met by the upper bound of `[0, 3/2]` -/
example : ∃ c : Dbl R, c.val = .fin (3 / 2) ∧ InBox1 (lit 0 : Dbl R).val c.val (3 / 2) ∧ |(3 / 2 : ℝ)| ≤ 127 ∧
    ∃ a, InBox1 (lit 0 : Dbl R).val c.val a ∧ InBox1 (lit 0 : Dbl R).val c.val (a + 4 * margin) := by
  refine ⟨.num (3 / 2) ⟨3, -1, by norm_num, by norm_num, by norm_num, by norm_num⟩ (by norm_num), rfl, ?_, ?_, 0, ?_, ?_⟩
  · rw [val_lit_zero]; constructor <;> simp [Dbl.val] <;> norm_num
  · rw [abs_of_pos] <;> norm_num
  · rw [val_lit_zero]; constructor <;> simp [Dbl.val] <;> norm_num
  · have := margin_pos
    have h2 : margin ≤ 1 / 4 := by rw [margin]; norm_num
    rw [val_lit_zero]; constructor <;> simp [Dbl.val] <;> linarith

/-- the hypotheses of `C61_counterexample` are met -/
example (O : Oracles (Dbl R)) : ∃ (E : Env (Dbl R) 1) (x0 : Vec (Dbl R) 1), (x0 0).val = .fin (2 ^ 20) ∧ (E.lb 0).val = .fin 0 ∧
    (E.ub 0).val = .fin (2 ^ 20) :=
  ⟨{ outEnv R O with lb := fun _ => lit 0, ub := fun _ => .num (2 ^ 20) ⟨1, 20, by norm_num, by norm_num, by norm_num, by norm_num⟩ (by norm_num) },
    fun _ => .num (2 ^ 20) ⟨1, 20, by norm_num, by norm_num, by norm_num, by norm_num⟩ (by norm_num), rfl, val_lit_zero, rfl⟩

end Fides
