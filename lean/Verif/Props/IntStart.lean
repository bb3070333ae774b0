import Verif.Model.IntStart
import Verif.Spec.IntStart
import Verif.Props.Binary64

/-!
# Integer starting points (C77)
-/

open Classical

set_option linter.unusedSectionVars false

namespace Fides
open Spec

section
variable {F : Type} [FloatOps F] {n : ℕ}

/-- the optimizer when the bounds of an integer starting point are checked, as `startState` -/
def startStateInt (cast : F → F) (E : Env F n) (z : Fin n → ℤ) (startId : String) (st0 : St F n) : St F n :=
  makeNonDegenerateInt cast E { reset E startId st0 with x := fun i => lit (z i : ℚ), xId := (reset E startId st0).nextId,
                                                          nextId := (reset E startId st0).nextId + 1 }

theorem minimizeInt_split (cast : F → F) (E : Env F n) (fuel : ℕ) (z : Fin n → ℤ) (startId : String) (hess0 : Hess0 F) (st0 : St F n) :
    minimizeInt cast E fuel z startId hess0 st0 =
      if n = 0 then .error (.valueError, { reset E startId st0 with x := fun i => lit (z i : ℚ), xId := (reset E startId st0).nextId, nextId := (reset E startId st0).nextId + 1 })
      else match checkInBounds E (startStateInt cast E z startId st0).x (startStateInt cast E z startId st0) with
        | .error e => .error e
        | .ok st => match setup E hess0 st with
          | .error e => .error e
          | .ok (st, fo) => match loop E fuel st fo with
            | .error e => .error e
            | .ok st => writeHistory E st := rfl

theorem minimize_parts (E : Env F n) (fuel : ℕ) (x0 : Vec F n) (startId : String) (hess0 : Hess0 F) (st0 : St F n) :
    minimize E fuel x0 startId hess0 st0 =
      if n = 0 then .error (.valueError, { reset E startId st0 with x := x0, xId := (reset E startId st0).nextId, nextId := (reset E startId st0).nextId + 1 })
      else match checkInBounds E (startState E x0 startId st0).x (startState E x0 startId st0) with
        | .error e => .error e
        | .ok st => match setup E hess0 st with
          | .error e => .error e
          | .ok (st, fo) => match loop E fuel st fo with
            | .error e => .error e
            | .ok st => writeHistory E st := rfl

/-- the run depends only on where `make_non_degenerate` puts the starting point -/
theorem minimizeInt_eq (cast : F → F) (E : Env F n) (fuel : ℕ) (z : Fin n → ℤ) (startId : String) (hess0 : Hess0 F) (st0 : St F n) (y : Vec F n)
    (h : nudgeInt cast E.lb E.ub (fun i => lit (z i : ℚ)) = nudge E.lb E.ub y) (hy : n ≠ 0) :
    minimizeInt cast E fuel z startId hess0 st0 = minimize E fuel y startId hess0 st0 := by
  rw [minimizeInt_split, minimize_parts, if_neg hy, if_neg hy]
  have : startStateInt cast E z startId st0 = startState E y startId st0 := by
    unfold startStateInt startState makeNonDegenerateInt makeNonDegenerate
    simp only [h]
  rw [this]

/-- **C77, away from the bounds**: if no entry is closer than `1e2 * 2^-52` to a bound, a vector of integers is as good as the same vector of floats. -/
theorem C77_away (cast : F → F) (E : Env F n) (fuel : ℕ) (z : Fin n → ℤ) (startId : String) (hess0 : Hess0 F) (st0 : St F n)
    (hu : ∀ i, lt (E.ub i - lit (z i : ℚ)) degEps = false) (hl : ∀ i, lt (lit (z i : ℚ) - E.lb i) degEps = false) :
    minimizeInt cast E fuel z startId hess0 st0 = minimize E fuel (fun i => lit (z i : ℚ)) startId hess0 st0 := by
  by_cases hn : n = 0
  · unfold minimizeInt minimize
    simp only [if_pos hn]
  refine minimizeInt_eq cast E fuel z startId hess0 st0 _ ?_ hn
  unfold nudgeInt nudge
  simp only [hu, hl, Bool.false_eq_true, if_false]

end

section
open Num Dbl
variable {R : Rounding} {n : ℕ}

/-- `1e2 * 2^-52` -/
theorem near_close (z : ℤ) (hz : |z| < 2 ^ 53) (w : ℝ) (hw : |w - z| ≤ 100 / 4503599627370496) :
    |R.near w - z| ≤ 200 / 4503599627370496 ∧ (w ≤ z → R.near w ≤ z) ∧ ((z : ℝ) ≤ w → (z : ℝ) ≤ R.near w) := by
  have hB := isB64_int z hz
  have h1 := R.near_best w z hB
  refine ⟨?_, fun h => ?_, fun h => ?_⟩
  · have : |R.near w - z| ≤ |w - R.near w| + |w - z| := by
      have h := abs_add_le (R.near w - w) (w - z)
      rw [sub_add_sub_cancel, abs_sub_comm (R.near w) w] at h
      exact h
    linarith
  · have := R.near_mono h; rwa [R.near_self hB] at this
  · have := R.near_mono h; rwa [R.near_self hB] at this

theorem near_large (z : ℤ) (hz : |z| < 2 ^ 53) (hz' : 257 ≤ |z|) (w : ℝ) (hw : |w - z| ≤ 100 / 4503599627370496) : R.near w = z := by
  obtain ⟨h1, -⟩ := near_close (R := R) z hz w hw
  by_contra hne
  have key : ∀ (y : ℝ) (a : ℤ), 257 ≤ a → IsB64 y → y ≠ a → |y - a| ≤ 200 / 4503599627370496 → False := by
    intro y a ha hB hne h
    have h2 := isB64_gap y hB (a * 2 ^ 44) (-44) (by omega) (by
      intro h; apply hne; rw [h]; push_cast; rw [mul_assoc, show (17592186044416 : ℝ) * 2 ^ (-44 : ℤ) = 1 by norm_num, mul_one])
    push_cast at h2
    rw [mul_assoc, show (17592186044416 : ℝ) * 2 ^ (-44 : ℤ) = 1 by norm_num, mul_one] at h2
    norm_num at h2
    linarith
  rcases le_total 0 z with h0 | h0
  · rw [abs_of_nonneg h0] at hz'
    exact key _ z hz' (R.near_mem w) hne h1
  · rw [abs_of_nonpos h0] at hz'
    refine key (-R.near w) (-z) hz' (isB64_neg (R.near_mem w)) (by push_cast; intro h; exact hne (neg_inj.mp h)) ?_
    push_cast
    rwa [show -R.near w - -(z : ℝ) = -(R.near w - z) by ring, abs_neg]

theorem near_small (z : ℤ) (s : ℤ) (hs : s = 1 ∨ s = -1) (hz : 1 ≤ s * z) (hz' : s * z ≤ 256) :
    R.near (z - s * (100 / 4503599627370496)) ≠ z := by
  intro h
  have hB : IsB64 (z - s * (1 / 35184372088832)) := by
    refine ⟨z * 2 ^ 45 - s, -45, ?_, by norm_num, by norm_num, ?_⟩
    · rcases hs with rfl | rfl
      · rw [abs_lt]; constructor <;> omega
      · rw [abs_lt]; constructor <;> omega
    · push_cast; norm_num; ring
  have h1 := R.near_best (z - s * (100 / 4503599627370496)) _ hB
  rw [h] at h1
  rcases hs with rfl | rfl
  · rw [abs_sub_comm, abs_of_pos (by push_cast; norm_num), abs_of_pos (by push_cast; norm_num)] at h1
    push_cast at h1
    norm_num at h1
  · rw [abs_of_pos (by push_cast; norm_num), abs_sub_comm, abs_of_pos (by push_cast; norm_num)] at h1
    push_cast at h1
    norm_num at h1

/-- an integer below a bound, less the threshold -/
theorem cast_below (z : ℤ) (hz : |z| < 2 ^ 53) : towardZero (R.near (z - 100 / 4503599627370496)) = if 1 ≤ z ∧ z ≤ 256 then z - 1 else z := by
  obtain ⟨h1, h2, -⟩ := near_close (R := R) z hz (z - 100 / 4503599627370496) (by rw [abs_of_neg] <;> norm_num)
  have h2 := h2 (by norm_num)
  have h3 := abs_le.mp h1
  unfold towardZero
  by_cases hc : 1 ≤ z ∧ z ≤ 256
  · rw [if_pos hc]
    have hne := near_small (R := R) z 1 (Or.inl rfl) (by omega) (by omega)
    rw [Int.cast_one, one_mul] at hne
    have hlt := lt_of_le_of_ne h2 hne
    have hz1 : (1 : ℝ) ≤ z := by exact_mod_cast hc.1
    rw [if_pos (by norm_num at h3; linarith)]
    rw [Int.floor_eq_iff]
    push_cast
    norm_num at h3
    constructor <;> linarith
  · rw [if_neg hc]
    by_cases h0 : z ≤ 0
    · by_cases hp : 0 ≤ R.near (z - 100 / 4503599627370496)
      · have hzz : (0 : ℝ) ≤ z := le_trans hp h2
        have hz0 : z = 0 := le_antisymm h0 (by exact_mod_cast hzz)
        subst hz0
        rw [if_pos hp, Int.floor_eq_iff]
        push_cast at h2 ⊢
        constructor <;> linarith
      · rw [if_neg hp, Int.ceil_eq_iff]
        norm_num at h3
        constructor <;> linarith
    · have hl := near_large (R := R) z hz (by rw [abs_of_pos (by omega)]; omega) (z - 100 / 4503599627370496) (by rw [abs_of_neg] <;> norm_num)
      rw [hl, if_pos (by have : 0 ≤ z := by omega
                         exact_mod_cast this), Int.floor_intCast]

/-- an integer above a bound, plus the threshold -/
theorem cast_above (z : ℤ) (hz : |z| < 2 ^ 53) : towardZero (R.near (z + 100 / 4503599627370496)) = if -256 ≤ z ∧ z ≤ -1 then z + 1 else z := by
  obtain ⟨h1, -, h2⟩ := near_close (R := R) z hz (z + 100 / 4503599627370496) (by rw [abs_of_pos] <;> norm_num)
  have h2 := h2 (by norm_num)
  have h3 := abs_le.mp h1
  unfold towardZero
  by_cases hc : -256 ≤ z ∧ z ≤ -1
  · rw [if_pos hc]
    have hne := near_small (R := R) z (-1) (Or.inr rfl) (by omega) (by omega)
    rw [show (z : ℝ) - ((-1 : ℤ) : ℝ) * (100 / 4503599627370496) = z + 100 / 4503599627370496 by push_cast; ring] at hne
    have hlt := lt_of_le_of_ne h2 (Ne.symm hne)
    have hz1 : (z : ℝ) ≤ -1 := by exact_mod_cast hc.2
    rw [if_neg (by norm_num at h3; linarith)]
    rw [Int.ceil_eq_iff]
    push_cast
    norm_num at h3
    constructor <;> linarith
  · rw [if_neg hc]
    by_cases h0 : 0 ≤ z
    · have hzz : (0 : ℝ) ≤ z := by exact_mod_cast h0
      rw [if_pos (le_trans hzz h2), Int.floor_eq_iff]
      norm_num at h3
      constructor <;> linarith
    · have hl := near_large (R := R) z hz (by rw [abs_of_neg (by omega)]; omega) (z + 100 / 4503599627370496) (by rw [abs_of_pos] <;> norm_num)
      rw [hl, if_neg (by have : ¬ 0 ≤ z := h0
                         exact_mod_cast this), Int.ceil_intCast]

theorem small_overflow (w : ℝ) (h : |w| ≤ 2 ^ 53 + 1) : |w| < overflow64 := by
  have := isB64_lt (x := 2 ^ 60) ⟨1, 60, by norm_num, by norm_num, by norm_num, by norm_num⟩
  rw [abs_of_pos (by norm_num)] at this
  linarith [show (2 : ℝ) ^ 53 + 1 < 2 ^ 60 by norm_num]

theorem v_int (z : ℤ) (hz : |z| < 2 ^ 53) : (lit (z : ℚ) : Dbl R).val = .fin z := by
  have := v_lit (R := R) (z : ℚ) (by push_cast; exact isB64_int z hz)
  rw [this]; push_cast; rfl

theorem cast_sub (cast : Dbl R → Dbl R) (hc : Truncates cast) (x : Dbl R) (z : ℤ) (hz : |z| < 2 ^ 53) (hx : x.val = .fin z) :
    cast (x - degEps) = lit ((if 1 ≤ z ∧ z ≤ 256 then z - 1 else z : ℤ) : ℚ) := by
  have hz' : |(z : ℝ)| < 2 ^ 53 := by exact_mod_cast hz
  have h1 : (x - degEps).val = .fin (R.near (z - 100 / 4503599627370496)) := by
    rw [val_sub, hx, OutDemo.vDeg, Num.fin_sub, v_rd]
    apply small_overflow
    have := abs_lt.mp hz'
    rw [abs_le]; constructor <;> linarith
  rw [hc _ _ h1, cast_below z hz]

theorem cast_add (cast : Dbl R → Dbl R) (hc : Truncates cast) (x : Dbl R) (z : ℤ) (hz : |z| < 2 ^ 53) (hx : x.val = .fin z) :
    cast (x + degEps) = lit ((if -256 ≤ z ∧ z ≤ -1 then z + 1 else z : ℤ) : ℚ) := by
  have hz' : |(z : ℝ)| < 2 ^ 53 := by exact_mod_cast hz
  have h1 : (x + degEps).val = .fin (R.near (z + 100 / 4503599627370496)) := by
    rw [val_add, hx, OutDemo.vDeg, Num.fin_add, v_rd]
    apply small_overflow
    have := abs_lt.mp hz'
    rw [abs_le]; constructor <;> linarith
  rw [hc _ _ h1, cast_above z hz]

/-- a difference that is in the right order is not negative, and its magnitude is itself -/
theorem diff_order (a b : Dbl R) (h : le b a = true) (hb : ∃ r, b.val = .fin r ∨ a.val = .fin r) :
    (∃ r, (a - b).val = .fin r ∧ 0 ≤ r) ∨ (a - b).val = .pinf := by
  rw [val_sub, num_sub_def]
  rw [le_def] at h
  cases ha' : a.val with
  | nan => rw [ha'] at h; cases hv : b.val <;> rw [hv] at h <;> cases h
  | ninf =>
    cases hv : b.val with
    | nan => rw [ha', hv] at h; cases h
    | pinf => rw [ha', hv] at h; cases h
    | fin s => rw [ha', hv] at h; cases h
    | ninf => rw [ha', hv] at hb; obtain ⟨r, h | h⟩ := hb <;> cases h
  | pinf =>
    cases hv : b.val with
    | nan => rw [ha', hv] at h; cases h
    | pinf => rw [ha', hv] at hb; obtain ⟨r, h | h⟩ := hb <;> cases h
    | fin s => right; rfl
    | ninf => right; rfl
  | fin r =>
    cases hv : b.val with
    | nan => rw [ha', hv] at h; cases h
    | pinf => rw [ha', hv] at h; cases h
    | ninf => right; rfl
    | fin s =>
      rw [ha', hv, Num.fin_le, decide_eq_true_eq] at h
      rw [← num_sub_def, Num.fin_sub, rd_fin]
      split
      · rename_i ho
        rw [if_neg (by linarith)]
        right; rfl
      · left
        refine ⟨_, rfl, ?_⟩
        have := R.near_mono (show (0 : ℝ) ≤ r - s by linarith)
        rwa [R.near_zero] at this

theorem abs_diff (a b : Dbl R) (h : le b a = true) (hb : ∃ r, b.val = .fin r ∨ a.val = .fin r) :
    le (FloatOps.abs (a - b)) (FloatOps.abs (a - b)) = true ∧ lt (FloatOps.abs (a - b)) degEps = lt (a - b) degEps := by
  have hd := OutDemo.vDeg (R := R)
  rcases diff_order a b h hb with ⟨r, h1, h2⟩ | h1
  · have h3 := v_abs h1
    rw [abs_of_nonneg h2] at h3
    rw [le_iff h3 h3, lt_iff h3 hd, lt_iff h1 hd]
    simp
  · rw [le_def, lt_def, lt_def, val_abs, h1]
    exact ⟨rfl, rfl⟩

/-- the position after `make_non_degenerate` -/
theorem nudgeInt_moved (cast : Dbl R → Dbl R) (hc : Truncates cast) (lb ub : Vec (Dbl R) n) (z : Fin n → ℤ) (hz : IntFeasible lb ub z) :
    nudgeInt cast lb ub (fun i => lit (z i : ℚ)) =
      fun i => lit (movedInt (lt (ub i - lit (z i : ℚ)) degEps) (lt (lit (z i : ℚ) - lb i) degEps) (z i) : ℚ) := by
  have hv : ∀ j, (lit (z j : ℚ) : Dbl R).val = .fin (z j) := fun j => v_int _ (hz j).1
  have hup := fun j => abs_diff (ub j) (lit (z j : ℚ)) (hz j).2.2 ⟨_, Or.inl (hv j)⟩
  have hlo := fun j => abs_diff (lit (z j : ℚ)) (lb j) (hz j).2.1 ⟨_, Or.inr (hv j)⟩
  funext i
  unfold nudgeInt
  split
  · -- some entry is close
    unfold movedInt
    have hzi := (hz i).1
    simp only
    cases hU : lt (ub i - lit (z i : ℚ)) degEps <;> cases hL : lt (lit (z i : ℚ) - lb i) degEps <;>
      simp only [Bool.false_eq_true, if_false, if_true, false_and, true_and]
    · rw [cast_add cast hc _ _ hzi (hv i)]
    · rw [cast_sub cast hc _ _ hzi (hv i)]
    · rw [cast_sub cast hc _ _ hzi (hv i)]
      split
      · rw [cast_add cast hc _ _ (by rw [abs_lt] at hzi ⊢; omega) (v_int _ (by rw [abs_lt] at hzi ⊢; omega)), if_neg (by omega)]
      · rw [cast_add cast hc _ _ hzi (hv i)]
  · rename_i hcl
    have e1 : lt (ub i - lit (z i : ℚ)) degEps = false := by
      by_contra hne
      rw [Bool.not_eq_false] at hne
      rw [← (hup i).2] at hne
      have := vmin_le (fun j => FloatOps.abs (ub j - lit (z j : ℚ))) (fun j => (hup j).1) i rfl
      exact hcl (by rw [lt_of_le_of_lt' this hne]; rfl)
    have e2 : lt (lit (z i : ℚ) - lb i) degEps = false := by
      by_contra hne
      rw [Bool.not_eq_false] at hne
      rw [← (hlo i).2] at hne
      have := vmin_le (fun j => FloatOps.abs (lit (z j : ℚ) - lb j)) (fun j => (hlo j).1) i rfl
      exact hcl (by rw [lt_of_le_of_lt' this hne, Bool.or_true])
    rw [e1, e2]
    unfold movedInt
    rw [if_neg (by simp), if_neg (by simp)]

end

section
variable {F : Type} [FloatOps F] {n : ℕ}

/-- a pass of the loop adds evaluations and removes none -/
theorem iterate_grows (E : Env F n) (st : St F n) (old : Funout F n) :
    (∀ e s, iterate E st old = .error (e, s) → ∃ l, s.evals = l ++ st.evals) ∧
    ∀ s o, iterate E st old = .ok (s, o) → ∃ l, s.evals = l ++ st.evals := by
  have hpost : ∀ step new, (postCheck E st step new).evals = { arg := trialPoint st step, out := .ok new } :: st.evals := by
    intro step new
    obtain ⟨r, d, i, m, ef, c, mx, mxi, mf, mg, hpf⟩ := postCheck_frame E st step new
    rw [hpf]; rfl
  constructor
  · intro e s h
    rcases iterate_error E _ s old e h with ⟨_, _, rfl⟩ | ⟨_, ⟨_, rfl⟩ | ⟨step, htr, ⟨_, rfl⟩ | ⟨new, _, _, _, ⟨_, _, _, rfl⟩ |
            ⟨_, ⟨_, h⟩ | ⟨_, h, _⟩ | ⟨_, rfl, _⟩⟩⟩⟩⟩
    · exact ⟨[], rfl⟩
    · exact ⟨[], rfl⟩
    · exact ⟨[_], rfl⟩
    · exact ⟨[_], rfl⟩
    · rcases update_error E step new old _ s e h with ⟨rfl, _⟩ | ⟨_, _, happ, hess, rfl⟩
      · exact ⟨[_], hpost step new⟩
      · exact ⟨[_], hpost step new⟩
    · obtain ⟨_, happ, hess, _, rfl⟩ := update_ok E step new old _ s h
      exact ⟨[_], hpost step new⟩
    · exact ⟨[_], hpost step new⟩
  · intro s o h
    obtain ⟨step, new, hist, -, -, -, -, -, -, hd⟩ := iterate_ok E st s old o h
    rcases hd with ⟨-, -, st4, hu, -, rfl⟩ | ⟨-, -, -, rfl⟩
    · obtain ⟨_, happ, hess, _, rfl⟩ := update_ok E step new old _ st4 hu
      exact ⟨[_], hpost step new⟩
    · exact ⟨[_], hpost step new⟩

theorem loop_grows (E : Env F n) (fuel : ℕ) (st : St F n) (cur : Funout F n) : ∃ l, (finalState (loop E fuel st cur)).evals = l ++ st.evals := by
  have hc : ∀ st b st1, checkContinue E st = (b, st1) → st1.evals = st.evals := by
    intro st b st1 h
    cases b with
    | true => obtain ⟨rfl, -⟩ := checkContinue_true E st st1 h; rfl
    | false => rcases checkContinue_false E st st1 h with ⟨_, rfl⟩ | ⟨_, _, rfl⟩ | ⟨_, _, _, rfl⟩ | ⟨_, _, _, rfl⟩ <;> rfl
  induction fuel generalizing st cur with
  | zero =>
    unfold loop
    have h1 := fun b st1 => hc st b st1
    generalize checkContinue E st = c at h1
    obtain ⟨b, st1⟩ := c
    cases b <;> exact ⟨[], h1 _ _ rfl⟩
  | succ fuel ih =>
    unfold loop
    have h0 := fun b st1 => hc st b st1
    generalize checkContinue E st = c at h0
    obtain ⟨b, st1⟩ := c
    have h1 := h0 _ _ rfl
    clear h0
    cases b with
    | false => exact ⟨[], h1⟩
    | true =>
      simp only
      obtain ⟨g1, g2⟩ := iterate_grows E st1 cur
      cases hi : iterate E st1 cur with
      | error p =>
        obtain ⟨e, s⟩ := p
        obtain ⟨l, hl⟩ := g1 e s hi
        exact ⟨l, by rw [← h1]; exact hl⟩
      | ok p =>
        obtain ⟨s, o⟩ := p
        obtain ⟨l, hl⟩ := g2 s o hi
        obtain ⟨l', hl'⟩ := ih s o
        refine ⟨l' ++ l, ?_⟩
        simp only
        rw [hl', hl, h1, List.append_assoc]

theorem writeHistory_evals (E : Env F n) (st : St F n) : (finalState (writeHistory E st)).evals = st.evals := by
  unfold writeHistory
  split
  · split <;> rfl
  · rfl

/-- what happens after the starting point has been moved -/
theorem minimizeInt_first (cast : F → F) (E : Env F n) (hn : n ≠ 0) (fuel : ℕ) (z : Fin n → ℤ) (startId : String) (hess0 : Hess0 F) (st0 : St F n) (y : Vec F n)
    (hy : nudgeInt cast E.lb E.ub (fun i => lit (z i : ℚ)) = y) :
    (inBounds E.lb E.ub y = false → ∃ st', minimizeInt cast E fuel z startId hess0 st0 = .error (.runtimeError, st') ∧
      st'.exitflag = .exceededBoundary ∧ st'.evals = st0.evals) ∧
    (inBounds E.lb E.ub y = true → ∃ l r, (finalState (minimizeInt cast E fuel z startId hess0 st0)).evals = l ++ r :: st0.evals ∧ r.arg = y) := by
  have hx : (startStateInt cast E z startId st0).x = y := hy
  rw [minimizeInt_split, if_neg hn, hx]
  constructor
  · intro hb
    unfold checkInBounds
    rw [hb]
    exact ⟨_, rfl, rfl, rfl⟩
  · intro hb
    unfold checkInBounds
    rw [hb, if_pos rfl]
    simp only
    cases hs : setup E hess0 (startStateInt cast E z startId st0) with
    | error p =>
      obtain ⟨e, s⟩ := p
      rcases setup_error E hess0 _ s e hs with ⟨rfl, _⟩ | ⟨raw, happ, fo, _, _, _, _, rfl⟩
      · exact ⟨[], { arg := _, out := .error e }, rfl, hx⟩
      · obtain ⟨x, i, f, g, hs'⟩ := setupState_frame (startStateInt cast E z startId st0) fo happ
        exact ⟨[], { arg := _, out := .ok fo }, by simp only [finalState, hs']; rfl, hx⟩
    | ok p =>
      obtain ⟨s, fo⟩ := p
      obtain ⟨raw, happ, -, -, -, -, -, -, -, rfl⟩ := setup_ok _ _ _ _ _ hs
      obtain ⟨x, i, f, g, hs'⟩ := setupState_frame (startStateInt cast E z startId st0) fo happ
      have he : (setupState (startStateInt cast E z startId st0) fo happ).evals = { arg := (startStateInt cast E z startId st0).x, out := .ok fo } :: st0.evals := by
        rw [hs']; rfl
      obtain ⟨l, hl⟩ := loop_grows E fuel { setupState (startStateInt cast E z startId st0) fo happ with converged := false } fo
      have hl' : _ = l ++ (setupState (startStateInt cast E z startId st0) fo happ).evals := hl
      rw [he] at hl'
      refine ⟨l, { arg := (startStateInt cast E z startId st0).x, out := .ok fo }, ?_, hx⟩
      simp only
      cases hlp : loop E fuel { setupState (startStateInt cast E z startId st0) fo happ with converged := false } fo with
      | error e => rw [hlp] at hl'; exact hl'
      | ok s =>
        rw [hlp] at hl'
        simp only
        rw [writeHistory_evals]
        exact hl'

end

section
open Num Dbl
variable {R : Rounding} {n : ℕ}

/-- **C77, where a run starts** (double precision): a feasible vector of integers is moved by a whole unit in every coordinate where the upper bound is
within `1e2 * 2^-52` of an integer between 1 and 256, or the lower bound is that close to an integer between -256 and -1; other coordinates are not moved.
If the result is outside the bounds, `minimize` raises RuntimeError without calling the objective; otherwise the objective is called there first. -/
theorem C77_start (cast : Dbl R → Dbl R) (hc : Truncates cast) (E : Env (Dbl R) n) (hn : n ≠ 0) (fuel : ℕ) (z : Fin n → ℤ) (hz : IntFeasible E.lb E.ub z)
    (startId : String) (hess0 : Hess0 (Dbl R)) (st0 : St (Dbl R) n) (y : Fin n → ℤ)
    (hy : ∀ i, y i = movedInt (lt (E.ub i - lit (z i : ℚ)) degEps) (lt (lit (z i : ℚ) - E.lb i) degEps) (z i)) :
    (inBounds E.lb E.ub (fun i => lit (y i : ℚ)) = false → ∃ st', minimizeInt cast E fuel z startId hess0 st0 = .error (.runtimeError, st') ∧
      st'.exitflag = .exceededBoundary ∧ st'.evals = st0.evals) ∧
    (inBounds E.lb E.ub (fun i => lit (y i : ℚ)) = true →
      ∃ l r, (finalState (minimizeInt cast E fuel z startId hess0 st0)).evals = l ++ r :: st0.evals ∧ r.arg = fun i => lit (y i : ℚ)) := by
  refine minimizeInt_first cast E hn fuel z startId hess0 st0 _ ?_
  rw [nudgeInt_moved cast hc E.lb E.ub z hz]
  funext i
  rw [hy]

/-- **C77, the rest of the run**: if the moved point is not within the threshold of a bound, the run is exactly the run from the moved point. -/
theorem C77_moved (cast : Dbl R → Dbl R) (hc : Truncates cast) (E : Env (Dbl R) n) (hn : n ≠ 0) (fuel : ℕ) (z : Fin n → ℤ) (hz : IntFeasible E.lb E.ub z)
    (startId : String) (hess0 : Hess0 (Dbl R)) (st0 : St (Dbl R) n) (y : Fin n → ℤ)
    (hy : ∀ i, y i = movedInt (lt (E.ub i - lit (z i : ℚ)) degEps) (lt (lit (z i : ℚ) - E.lb i) degEps) (z i))
    (hu : ∀ i, lt (E.ub i - lit (y i : ℚ)) degEps = false) (hl : ∀ i, lt (lit (y i : ℚ) - E.lb i) degEps = false) :
    minimizeInt cast E fuel z startId hess0 st0 = minimize E fuel (fun i => lit (y i : ℚ)) startId hess0 st0 := by
  refine minimizeInt_eq cast E fuel z startId hess0 st0 _ ?_ hn
  rw [nudgeInt_moved cast hc E.lb E.ub z hz]
  have he : (fun i => lit (movedInt (lt (E.ub i - lit (z i : ℚ)) degEps) (lt (lit (z i : ℚ) - E.lb i) degEps) (z i) : ℚ) : Vec (Dbl R) n) =
      fun i => lit (y i : ℚ) := by
    funext i; rw [hy]
  rw [he]
  unfold nudge
  simp only [hu, hl, Bool.false_eq_true, if_false, ite_self]

/-- **C77 fails for fixed variables**: in double precision a run from a feasible vector of integers is refused with RuntimeError (EXCEEDED_BOUNDARY) whenever
equal bounds fix some coordinate at an integer of magnitude 1 to 256. -/
theorem C77_fixed_counterexample (cast : Dbl R → Dbl R) (hc : Truncates cast) (E : Env (Dbl R) n) (fuel : ℕ) (z : Fin n → ℤ) (hz : IntFeasible E.lb E.ub z)
    (startId : String) (hess0 : Hess0 (Dbl R)) (st0 : St (Dbl R) n) (i : Fin n) (hi : 1 ≤ |z i| ∧ |z i| ≤ 256) (hl : E.lb i = lit (z i : ℚ))
    (hu : E.ub i = lit (z i : ℚ)) :
    ∃ st', minimizeInt cast E fuel z startId hess0 st0 = .error (.runtimeError, st') ∧ st'.exitflag = .exceededBoundary ∧ st'.evals = st0.evals := by
  have hn : n ≠ 0 := by rintro rfl; exact i.elim0
  refine (C77_start cast hc E hn fuel z hz startId hess0 st0 _ (fun _ => rfl)).1 ?_
  have hv : (lit (z i : ℚ) : Dbl R).val = .fin (z i) := v_int _ (hz i).1
  have hzero : lt ((lit (z i : ℚ) : Dbl R) - lit (z i : ℚ)) degEps = true := by
    rw [lt_iff (v_sub hv hv (by rw [sub_self]; exact isB64_zero)) OutDemo.vDeg, sub_self]
    norm_num
  by_contra hb
  rw [Bool.not_eq_false] at hb
  obtain ⟨h1, h2, -⟩ := inBounds_spec _ _ _ hb i
  rw [hl, hu, hzero] at h1 h2
  unfold movedInt at h1 h2
  simp only [true_and] at h1 h2
  rcases le_total 0 (z i) with h0 | h0
  · rw [abs_of_nonneg h0] at hi
    rw [if_pos hi] at h1
    rw [le_iff hv (v_int _ (by rw [abs_lt]; omega))] at h1
    simp only [decide_eq_true_eq] at h1
    push_cast at h1
    linarith
  · rw [abs_of_nonpos h0] at hi
    rw [if_neg (by omega), if_pos (by omega)] at h2
    rw [le_iff (v_int _ (by rw [abs_lt]; omega)) hv] at h2
    simp only [decide_eq_true_eq] at h2
    push_cast at h2
    linarith

/-- a double whose distance from the integer 1 is zero -/
theorem v_one : (lit ((1 : ℤ) : ℚ) : Dbl R).val = .fin ((1 : ℤ) : ℝ) := v_int 1 (by norm_num)

/-- **C77 is false**: in double precision, with bounds 0 and 1 and the starting point 1, `minimize` calls the objective first at 0 if the starting point is
given as an integer, and at `1 - 1e2 * 2^-52` if it is given as a float, whatever the objective, the options, the solver and the rounding of ties. -/
theorem C77_counterexample (cast : Dbl R → Dbl R) (hc : Truncates cast) (E : Env (Dbl R) 1) (hl : E.lb = fun _ => lit 0) (hu : E.ub = fun _ => lit 1)
    (fuel : ℕ) (startId : String) (hess0 : Hess0 (Dbl R)) (st0 : St (Dbl R) 1) :
    (∃ l r, (finalState (minimizeInt cast E fuel (fun _ => 1) startId hess0 st0)).evals = l ++ r :: st0.evals ∧ (r.arg 0).val = .fin 0) ∧
    ∃ l r, (finalState (minimize E fuel (fun _ => lit 1) startId hess0 st0)).evals = l ++ r :: st0.evals ∧
      (r.arg 0).val = .fin (1 - 100 / 4503599627370496) := by
  have v1' : (lit 1 : Dbl R).val = .fin 1 := by have := v_one (R := R); push_cast at this; exact this
  have v0' : (lit 0 : Dbl R).val = .fin 0 := by have := v_int (R := R) 0 (by norm_num); push_cast at this; exact this
  have hm1 : (lit (-1) : Dbl R).val = .fin (-1) := by have := v_int (R := R) (-1) (by norm_num); push_cast at this; exact this
  have hsub1 : ((lit 1 : Dbl R) - lit 1).val = .fin 0 := by rw [v_sub v1' v1' (by rw [sub_self]; exact isB64_zero), sub_self]
  have hsub2 : ((lit 1 : Dbl R) - lit 0).val = .fin 1 := by
    rw [v_sub v1' v0' (by rw [sub_zero]; exact_mod_cast isB64_int 1 (by norm_num)), sub_zero]
  have hnear : lt ((lit 1 : Dbl R) - lit 1) degEps = true := by rw [lt_iff hsub1 OutDemo.vDeg]; norm_num
  have hfar : lt ((lit 1 : Dbl R) - lit 0) degEps = false := by rw [lt_iff hsub2 OutDemo.vDeg]; norm_num
  have hin : ∀ (y : Dbl R) (r : ℝ), y.val = .fin r → 0 ≤ r → r ≤ 1 → IsB64 (1 - r) → inBounds E.lb E.ub (fun _ => y) = true := by
    intro y r hy h0 h1 hB
    unfold inBounds
    rw [hl, hu]
    simp only [Bool.and_eq_true, decide_eq_true_eq]
    have hd : ((lit 1 : Dbl R) - y).val = .fin (1 - r) := v_sub v1' hy hB
    have hyB := (val_mem y r hy).1
    have hd' : ((lit 0 : Dbl R) - y).val = .fin (0 - r) := v_sub v0' hy (by rw [zero_sub]; exact isB64_neg hyB)
    refine ⟨fun _ => ?_, fun _ => ?_⟩
    · rw [le_iff (v_mul hm1 hd (by rw [neg_one_mul]; exact isB64_neg hB)) v0']
      simp only [decide_eq_true_eq]; linarith
    · rw [le_iff (v_mul v1' hd' (by rw [one_mul, zero_sub]; exact isB64_neg hyB)) v0']
      simp only [decide_eq_true_eq]; linarith
  constructor
  · have hz : IntFeasible E.lb E.ub (fun _ : Fin 1 => (1 : ℤ)) := by
      intro i
      rw [hl, hu]
      refine ⟨by norm_num, ?_, ?_⟩
      · rw [Int.cast_one, le_iff v0' v1']; simp
      · rw [Int.cast_one, le_iff v1' v1']; simp
    have hy : ∀ i : Fin 1, (0 : ℤ) = movedInt (lt (E.ub i - lit (((fun _ : Fin 1 => (1 : ℤ)) i : ℤ) : ℚ)) degEps)
        (lt (lit (((fun _ : Fin 1 => (1 : ℤ)) i : ℤ) : ℚ) - E.lb i) degEps) ((fun _ : Fin 1 => (1 : ℤ)) i) := by
      intro i
      rw [hu]
      simp only [Int.cast_one, hnear]
      rfl
    have hin0 : inBounds E.lb E.ub (fun _ : Fin 1 => (lit (((0 : ℤ)) : ℚ) : Dbl R)) = true := by
      refine hin _ 0 (by rw [Int.cast_zero]; exact v0') le_rfl (by norm_num) ?_
      rw [sub_zero]; exact_mod_cast isB64_int 1 (by norm_num)
    obtain ⟨l, r, h1, h2⟩ := (C77_start cast hc E one_ne_zero fuel (fun _ => 1) hz startId hess0 st0 (fun _ => 0) hy).2 hin0
    refine ⟨l, r, h1, ?_⟩
    rw [h2]
    simp only [Int.cast_zero]
    exact v0'
  · have hB : IsB64 (1 - 100 / 4503599627370496) := ⟨4503599627370396, -52, by norm_num, by norm_num, by norm_num, by norm_num⟩
    have hval : ((lit 1 : Dbl R) - degEps).val = .fin (1 - 100 / 4503599627370496) := v_sub v1' OutDemo.vDeg hB
    have hn : nudge E.lb E.ub (fun _ : Fin 1 => (lit 1 : Dbl R)) = fun _ => lit 1 - degEps := by
      have habs : (FloatOps.abs ((lit 1 : Dbl R) - lit 1)).val = .fin 0 := by rw [v_abs hsub1, abs_zero]
      have hmin : lt (vmin fun _ : Fin 1 => FloatOps.abs ((lit 1 : Dbl R) - lit 1)) degEps = true := by
        refine lt_of_le_of_lt' (vmin_le (fun _ : Fin 1 => FloatOps.abs ((lit 1 : Dbl R) - lit 1)) (fun _ => ?_) 0 rfl) ?_
        · rw [le_iff habs habs]; simp
        · rw [lt_iff habs OutDemo.vDeg]; norm_num
      unfold nudge
      rw [hl, hu]
      simp only [hmin, Bool.true_or, if_true, hnear, hfar, Bool.false_eq_true, if_false]
    rcases final_evals E (fun _ => lit 1) startId hess0 st0 fuel with ⟨-, h | ⟨-, h⟩⟩ | ⟨-, l, r, h1, h2, -⟩
    · cases h
    · rw [hn, hin _ _ hval (by norm_num) (by norm_num)
        (by rw [sub_sub_cancel]; exact ⟨100, -52, by norm_num, by norm_num, by norm_num, by norm_num⟩)] at h
      cases h
    · refine ⟨l, r, h1, ?_⟩
      rw [h2, hn]
      exact hval

/-- such a conversion exists -/
theorem truncates_exists (R : Rounding) : ∃ cast : Dbl R → Dbl R, Truncates cast :=
  ⟨fun a => match a.val with | .fin r => lit (towardZero r : ℚ) | _ => lit 0, fun a r h => by simp only [h]⟩

/-- C77_start, C77_moved: bounds 0 and 3, starting point 3; the run is the run from 2 -/
example (E0 : Env (Dbl R) 1) : let E : Env (Dbl R) 1 := { E0 with lb := fun _ => lit 0, ub := fun _ => lit 3 }
    IntFeasible E.lb E.ub (fun _ => 3) ∧
    (∀ i, (2 : ℤ) = movedInt (lt (E.ub i - lit ((3 : ℤ) : ℚ)) degEps) (lt (lit ((3 : ℤ) : ℚ) - E.lb i) degEps) 3) ∧
    (∀ i, lt (E.ub i - lit ((2 : ℤ) : ℚ)) degEps = false) ∧ (∀ i, lt (lit ((2 : ℤ) : ℚ) - E.lb i) degEps = false) := by
  have hv : ∀ k : ℤ, |k| ≤ 10 → (lit (k : ℚ) : Dbl R).val = .fin k := fun k hk => v_int k (by omega)
  have v0' : (lit 0 : Dbl R).val = .fin ((0 : ℤ) : ℝ) := by have := hv 0 (by norm_num); rwa [Int.cast_zero] at this
  have v3' : (lit 3 : Dbl R).val = .fin ((3 : ℤ) : ℝ) := by have := hv 3 (by norm_num); rwa [show (((3 : ℤ) : ℚ)) = 3 by norm_num] at this
  have hs : ∀ (a b : Dbl R) (k m : ℤ), |k| ≤ 10 → |m| ≤ 10 → a.val = .fin k → b.val = .fin m → (a - b).val = .fin ((k - m : ℤ) : ℝ) := by
    intro a b k m hk hm ha hb
    rw [v_sub ha hb (by rw [← Int.cast_sub]; exact isB64_int _ (by rw [abs_lt]; rw [abs_le] at hk hm; omega))]
    push_cast; rfl
  refine ⟨fun i => ⟨by norm_num, ?_, ?_⟩, fun i => ?_, fun i => ?_, fun i => ?_⟩
  · show le (lit 0 : Dbl R) (lit ((3 : ℤ) : ℚ)) = true
    rw [le_iff v0' (hv 3 (by norm_num))]; norm_num
  · show le (lit ((3 : ℤ) : ℚ) : Dbl R) (lit 3) = true
    rw [le_iff (hv 3 (by norm_num)) v3']; norm_num
  · show (2 : ℤ) = movedInt (lt ((lit 3 : Dbl R) - lit ((3 : ℤ) : ℚ)) degEps) _ 3
    rw [lt_iff (hs _ _ 3 3 (by norm_num) (by norm_num) v3' (hv 3 (by norm_num))) OutDemo.vDeg, decide_eq_true (by norm_num)]
    rfl
  · show lt ((lit 3 : Dbl R) - lit ((2 : ℤ) : ℚ)) degEps = false
    rw [lt_iff (hs _ _ 3 2 (by norm_num) (by norm_num) v3' (hv 2 (by norm_num))) OutDemo.vDeg, decide_eq_false (by norm_num)]
  · show lt ((lit ((2 : ℤ) : ℚ) : Dbl R) - lit 0) degEps = false
    rw [lt_iff (hs _ _ 2 0 (by norm_num) (by norm_num) (hv 2 (by norm_num)) v0') OutDemo.vDeg, decide_eq_false (by norm_num)]

/-- C77_fixed_counterexample: a coordinate fixed at -5 -/
example : IntFeasible (R := R) (fun _ : Fin 1 => lit ((-5 : ℤ) : ℚ)) (fun _ => lit ((-5 : ℤ) : ℚ)) (fun _ => -5) ∧ 1 ≤ |(-5 : ℤ)| ∧ |(-5 : ℤ)| ≤ 256 := by
  have hv : (lit ((-5 : ℤ) : ℚ) : Dbl R).val = .fin ((-5 : ℤ) : ℝ) := v_int _ (by norm_num)
  refine ⟨fun i => ⟨by norm_num, ?_, ?_⟩, by norm_num, by norm_num⟩ <;>
  · show le (lit ((-5 : ℤ) : ℚ) : Dbl R) (lit ((-5 : ℤ) : ℚ)) = true
    rw [le_iff hv hv]; simp

/-- C77_away: bounds 0 and 3, starting point 2 -/
example : lt ((lit 3 : Num) - lit ((2 : ℤ) : ℚ)) degEps = false ∧ lt ((lit ((2 : ℤ) : ℚ) : Num) - lit 0) degEps = false := by
  rw [degEps_num]
  unfold margin
  constructor <;> norm_num

end
end Fides
