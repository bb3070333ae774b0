import Verif.Lemmas.B64Demo
import Verif.Lemmas.Evals
import Verif.Props.Run
import Verif.Props.Flags

/-!
# Properties in IEEE double precision (C58 - C61)

`Dbl R` are the doubles with tie rule and summation order `R` (`Verif/Binary64.lean`).
-/

namespace Fides
open Spec Dbl

variable {n : ℕ}

/-! ## C58: what holds in double precision -/

section C58
variable (R : Rounding) (E : Env (Dbl R) n) (x0 : Vec (Dbl R) n) (startId : String) (hess0 : Hess0 (Dbl R)) (st0 : St (Dbl R) n)

/-- C58: in double precision, whatever the tie rule, the summation order, the objective, the proposals and the clock: a run that
returns gives back value and gradient of one logged call whose argument is finite and within the bounds; the value does not
exceed the value of the first call; `fval_min` is the least finite value of all calls; the number of calls is the number of iterations plus
one and the budget is respected; the exit flag has the sign of `converged`. -/
theorem C58_returned (fuel : ℕ) (st' : St (Dbl R) n) (h : minimize E fuel x0 startId hess0 st0 = .ok st') :
    ∃ calls first, st'.evals = calls ++ first :: st0.evals ∧
      (∃ r ∈ calls ++ [first], ∃ fo, r.out = .ok fo ∧ fo.x = r.arg ∧ st'.fval = fo.fval ∧ st'.grad = fo.grad ∧
        ∀ i, le (E.lb i) (r.arg i) = true ∧ le (r.arg i) (E.ub i) = true ∧ isFinite (r.arg i) = true) ∧
      (∃ fo, first.out = .ok fo ∧ ((st'.fval = fo.fval ∧ st'.grad = fo.grad) ∨ lt st'.fval fo.fval = true)) ∧
      (∀ r ∈ calls ++ [first], ∀ fo, r.out = .ok fo → isFinite fo.fval = true → le st'.fvalMin fo.fval = true) ∧
      calls.length = st'.iteration ∧ (st'.iteration : Int) ≤ max 0 E.opts.maxiter ∧
      (st'.converged = true ↔ 0 < st'.exitflag.toInt) ∧ (st'.converged = false ↔ st'.exitflag.toInt < 0) := by
  obtain ⟨calls, first, fo1, h1, h2, h3⟩ := C07_returned E x0 startId hess0 st0 fuel st' h
  obtain ⟨l, r, fo, h4, h5, h6, h7, h8, h9, _, h10, _⟩ := C08_one_call E x0 startId hess0 st0 fuel st' h
  obtain ⟨l2, b, h11, _, _, _, h12, _⟩ := C05_best E x0 startId hess0 st0 fuel st' h
  obtain ⟨l3, h13, h14, h15⟩ := C09_budget E x0 startId hess0 st0 fuel st' h
  obtain ⟨_, h16, h17⟩ := C11_sign E x0 startId hess0 st0 fuel st' h
  have hc : st'.evals = (calls ++ [first]) ++ st0.evals := by rw [h1]; simp
  have e1 : l = calls ++ [first] := List.append_cancel_right (h4.symm.trans hc)
  have e2 : l2 = calls ++ [first] := List.append_cancel_right (h11.symm.trans hc)
  have e3 : l3 = calls ++ [first] := List.append_cancel_right (h13.symm.trans hc)
  subst e1
  refine ⟨calls, first, h1, ⟨r, h5, fo, h6, h7, h8, h9, h10⟩, ⟨fo1, h2, h3⟩, ?_, ?_, h15, h16, h17⟩
  · rw [← e2]; exact h12
  · rw [e3] at h14
    simpa using h14

/-- C58: in double precision the accepted values strictly decrease, rejected steps change nothing, non-finite trial values are
rejected. -/
theorem C58_pass (prev next : St (Dbl R) n) (cur cur' new : Funout (Dbl R) n) (step : Step (Dbl R) n)
    (h : Pass E prev cur step new next cur') :
    ((cur' = new ∧ next.fval = new.fval ∧ next.grad = new.grad ∧ isFinite next.fval = true ∧ lt next.fval prev.fval = true) ∨
    (cur' = cur ∧ next.x = prev.x ∧ next.fval = prev.fval ∧ next.grad = prev.grad ∧ next.hess = prev.hess)) ∧
    (isFinite new.fval = false → cur' = cur ∧ next.x = prev.x) := by
  refine ⟨?_, fun hf => ?_⟩
  · rcases C07_decrease E prev next cur cur' new step h with h | ⟨h1, h2, h3, h4, h5, _⟩
    · exact Or.inl h
    · exact Or.inr ⟨h1, h2, h3, h4, h5⟩
  · obtain ⟨h1, h2, _⟩ := C14_nonfinite E prev next cur cur' new step h hf
    exact ⟨h1, h2⟩

/-- C58: in double precision the values at the loop heads of a run never increase: a later current value is the same call's value or
strictly smaller. -/
theorem C58_current (k : ℕ) (st : St (Dbl R) n) (cur : Funout (Dbl R) n) (h : LoopHead E x0 startId hess0 st0 k st cur) :
    (∀ i, le (E.lb i) (cur.x i) = true ∧ le (cur.x i) (E.ub i) = true ∧ isFinite (cur.x i) = true) ∧
      st.fval = cur.fval ∧ st.grad = cur.grad := by
  obtain ⟨h1, _, h3, h4⟩ := C01_adopted E x0 startId hess0 st0 k st cur h
  exact ⟨h1, h3, h4⟩
end C58

/-! ## C59: evaluations outside the bounds -/

/-- external routines that return zeros -/
noncomputable def dblOracles (R : Rounding) : Oracles (Dbl R) where
  sub := { eig := fun _ => .ok (vzero, mzero), newton := fun _ x _ => .ok x, brentq := fun _ a _ _ => .ok a }
  lstsq _ _ := .ok vzero
  npEig _ := .ok (vzero, vzero, mzero)
  refine _ _ := .ok []

/-- C59 (the property fails): in double precision, with default options, a starting point strictly inside the bounds and an objective
with finite values, and whatever the external routines return, `minimize` calls the objective above the upper bound and then raises RuntimeError
(EXCEEDED_BOUNDARY).  In exact arithmetic this cannot happen (C04). -/
theorem C59_counterexample (R : Rounding) (O : Oracles (Dbl R)) (hO : Returning R O) (st0 : St (Dbl R) 1) (hh : st0.happ = none)
    (fuel : ℕ) :
    ∃ (E : Env (Dbl R) 1) (x0 : Vec (Dbl R) 1), E.opts = resolveOpts [] ∧ UsesTrustRegion E ∧
      lt (E.lb 0) (x0 0) = true ∧ lt (x0 0) (E.ub 0) = true ∧
      (∀ k x, ∃ f g h, E.obj k x = .tuple [.scalar f, .arr [1] [g], .arr [1, 1] [h]] ∧
        isFinite f = true ∧ isFinite g = true ∧ isFinite h = true) ∧
      ∃ st' q first, minimize E (fuel + 1) x0 "run" .hessStr st0 = .error (.runtimeError, st') ∧
        st'.exitflag = .exceededBoundary ∧ st'.evals = q :: first :: st0.evals ∧ lt (E.ub 0) (q.arg 0) = true := by
  obtain ⟨st', q, first, h1, h2, h3, h4⟩ := OutDemo.out_run hO st0 hh fuel
  refine ⟨outEnv R O, vzero, rfl, ⟨fun _ => O, 10, ?_⟩, ?_, ?_, ?_, st', q, first, h1, h2, h3, ?_⟩
  · intro k I
    show _ = trustRegion O 10 (resolveOpts [] : Opts (Dbl R)).subspaceDim (resolveOpts [] : Opts (Dbl R)).stepbackStrat I
    rw [OutDemo.out_opts]
    rfl
  · show lt (-FloatOps.inf : Dbl R) (lit 0) = true
    rw [lt_def, OutDemo.v0]; rfl
  · show lt (lit 0 : Dbl R) (outU R) = true
    rw [lt_iff OutDemo.v0 OutDemo.vU]; norm_num
  · intro k x
    cases hl : lt (lit 0) (x 0) with
    | true =>
      refine ⟨lit (-1), lit 0, lit 0, ?_, ff val_lit_neg_one, ff OutDemo.v0, ff OutDemo.v0⟩
      simp [outEnv, hl]
    | false =>
      refine ⟨lit 0, outG R, outH R, ?_, ff OutDemo.v0, ff OutDemo.vG, ff OutDemo.vH⟩
      simp [outEnv, hl]
  · rw [lt_iff (show ((outEnv R O).ub 0).val = _ from OutDemo.vU) h4]; norm_num

/-- the hypotheses are met -/
example : Returning evenRounding (dblOracles _) ∧ (St.new (resolveOpts []) none : St (Dbl evenRounding) 1).happ = none :=
  ⟨⟨fun _ _ => ⟨_, rfl⟩, fun _ => ⟨_, rfl⟩⟩, rfl⟩

/-! ## C60: fixed coordinates -/

section vmin
variable {F : Type} [FloatOps F] [LawfulFloat F]

theorem npMin2_le (a b : F) (ha : le a a = true) (hb : le b b = true) :
    le (npMin2 a b) (npMin2 a b) = true ∧ le (npMin2 a b) a = true ∧ le (npMin2 a b) b = true := by
  unfold npMin2
  rw [if_neg (by simp [isNaN, ha]), if_neg (by simp [isNaN, hb])]
  split
  · rename_i h; exact ⟨hb, ((LawfulFloat.lt_iff _ _).mp h).1, hb⟩
  · rename_i h
    refine ⟨ha, ha, ?_⟩
    rcases LawfulFloat.le_total a b ha hb with h' | h'
    · exact h'
    · cases hab : le a b with
      | true => rfl
      | false => exact absurd ((LawfulFloat.lt_iff _ _).mpr ⟨h', hab⟩) h

theorem foldl_npMin2F : ∀ (l : List F) (a : F), le a a = true → (∀ b ∈ l, le b b = true) →
    le (l.foldl npMin2 a) a = true ∧ ∀ b ∈ l, le (l.foldl npMin2 a) b = true
  | [], a, ha, _ => ⟨ha, by simp⟩
  | c :: l, a, ha, h => by
    obtain ⟨h1, h2, h3⟩ := npMin2_le a c ha (h c (by simp))
    obtain ⟨h4, h5⟩ := foldl_npMin2F l (npMin2 a c) h1 (fun b hb => h b (by simp [hb]))
    refine ⟨LawfulFloat.le_trans _ _ _ h4 h2, ?_⟩
    intro b hb
    rcases List.mem_cons.mp hb with rfl | hb
    · exact LawfulFloat.le_trans _ _ _ h4 h3
    · exact h5 b hb

theorem vmin_le (v : Vec F n) (h : ∀ i, le (v i) (v i) = true) (i : Fin n) (hinf : le (FloatOps.inf : F) FloatOps.inf = true) :
    le (vmin v) (v i) = true := by
  refine (foldl_npMin2F (List.ofFn v) FloatOps.inf hinf ?_).2 _ ?_
  · intro b hb
    obtain ⟨j, rfl⟩ := (List.mem_ofFn' v b).mp hb
    exact h j
  · exact (List.mem_ofFn' v _).mpr ⟨i, rfl⟩
end vmin

section C60
variable {R : Rounding}

/-- the degeneracy nudge of a coordinate whose bounds both equal it -/
theorem nudge_fixed (lb ub x : Vec (Dbl R) n) (i : Fin n) (r : ℝ) (hx : (x i).val = .fin r) (hl : lb i = x i) (hu : ub i = x i)
    (hrest : ∀ j, isNaN (ub j - x j) = false) : nudge lb ub x i = x i - degEps + degEps := by
  have hz : (x i - x i).val = .fin 0 := by
    rw [v_sub hx hx (by rw [sub_self]; exact isB64_zero), sub_self]
  have hd : lt (x i - x i) degEps = true := by rw [lt_iff hz OutDemo.vDeg]; norm_num
  have hz' : (FloatOps.abs (ub i - x i)).val = .fin 0 := by rw [hu, v_abs hz, abs_zero]
  have hle : le (vmin fun j => FloatOps.abs (ub j - x j)) (FloatOps.abs (ub i - x i)) = true := by
    refine vmin_le (fun j => FloatOps.abs (ub j - x j)) (fun j => ?_) i rfl
    have := hrest j
    have h2 : isNaN (FloatOps.abs (ub j - x j)) = isNaN (ub j - x j) := by
      rw [isNaN_def, isNaN_def, val_abs]
      cases (ub j - x j).val with
      | fin q => simp [isNaN]
      | pinf => rfl
      | ninf => rfl
      | nan => rfl
    rw [this] at h2
    simpa [isNaN] using h2
  have htr : lt (vmin fun j => FloatOps.abs (ub j - x j)) degEps = true := by
    refine lt_of_le_of_lt' hle ?_
    rw [lt_iff hz' OutDemo.vDeg]; norm_num
  unfold nudge
  rw [if_pos (by rw [htr]; rfl)]
  simp only [hl, hu, hd, if_true]

/-- a value of the format below which nothing is lost -/
theorem refuse_of_moved (E : Env (Dbl R) n) (x0 : Vec (Dbl R) n) (startId : String) (hess0 : Hess0 (Dbl R)) (st0 : St (Dbl R) n) (i : Fin n)
    (r q : ℝ) (hx : (x0 i).val = .fin r) (hl : E.lb i = x0 i) (hu : E.ub i = x0 i) (hrest : ∀ j, isNaN (E.ub j - x0 j) = false)
    (hq : (x0 i - degEps + degEps).val = .fin q) (hne : q < r) (fuel : ℕ) :
    ∃ st', minimize E fuel x0 startId hess0 st0 = .error (.runtimeError, st') ∧ st'.exitflag = .exceededBoundary ∧
      st'.evals = st0.evals := by
  have hb : inBounds E.lb E.ub (nudge E.lb E.ub x0) = false := by
    cases hb : inBounds E.lb E.ub (nudge E.lb E.ub x0) with
    | false => rfl
    | true =>
      have h1 := (inBounds_spec _ _ _ hb i).1
      rw [nudge_fixed _ _ _ i r hx hl hu hrest, hl, le_iff hx hq] at h1
      simp only [decide_eq_true_eq] at h1
      linarith
  have hn : n ≠ 0 := by rintro rfl; exact i.elim0
  rcases final_evals E x0 startId hess0 st0 fuel with ⟨h1, h2⟩ | ⟨h1, _⟩
  · rcases h2 with h2 | ⟨⟨st', h3, h4⟩, _⟩
    · exact absurd h2 hn
    · refine ⟨st', h3, h4, ?_⟩
      rw [h3] at h1; exact h1
  · rw [hb] at h1; cases h1

/-- C60 (the property fails): in double precision a run that starts on a coordinate fixed by equal bounds at `2^-100` is refused with
RuntimeError (EXCEEDED_BOUNDARY) although the starting point is feasible, whatever the tie rule, the objective and the options. -/
theorem C60_counterexample (E : Env (Dbl R) n) (x0 : Vec (Dbl R) n) (startId : String) (hess0 : Hess0 (Dbl R)) (st0 : St (Dbl R) n) (i : Fin n)
    (hx : (x0 i).val = .fin (1 / 2 ^ 100)) (hl : E.lb i = x0 i) (hu : E.ub i = x0 i) (hrest : ∀ j, isNaN (E.ub j - x0 j) = false) (fuel : ℕ) :
    ∃ st', minimize E fuel x0 startId hess0 st0 = .error (.runtimeError, st') ∧ st'.exitflag = .exceededBoundary ∧
      st'.evals = st0.evals := by
  have h1 : (x0 i - degEps).val = .fin (-(100 / 4503599627370496)) := by
    rw [val_sub, hx, OutDemo.vDeg, Num.fin_sub, OutDemo.rd_frac _ (by rw [abs_of_neg] <;> norm_num)]
    congr 1
    have hneg : R.near (1 / 2 ^ 100 - 100 / 4503599627370496) = -(7036874417766400 * (2 : ℝ) ^ (-98 : ℤ)) := by
      obtain ⟨y, hy⟩ : ∃ y, R.near (1 / 2 ^ 100 - 100 / 4503599627370496) = y := ⟨_, rfl⟩
      by_contra hne
      have hd := R.near_mem (1 / 2 ^ 100 - 100 / 4503599627370496)
      have h2 := R.near_best (1 / 2 ^ 100 - 100 / 4503599627370496) (-(7036874417766400 * (2 : ℝ) ^ (-98 : ℤ)))
        ⟨-7036874417766400, -98, by norm_num, by norm_num, by norm_num, by push_cast; ring⟩
      rw [hy] at hd h2 hne
      have h1 := isB64_gap (-y) (isB64_neg hd) 7036874417766400 (-98) (by norm_num)
        (by intro h; apply hne; push_cast at h; linarith)
      rw [show (1 / 2 ^ 100 - 100 / 4503599627370496 - -(7036874417766400 * (2 : ℝ) ^ (-98 : ℤ)) : ℝ) = 1 / 2 ^ 100 by norm_num,
        abs_of_pos (show (0 : ℝ) < 1 / 2 ^ 100 by norm_num)] at h2
      push_cast at h1
      obtain ⟨h4, h5⟩ := abs_le.mp h2
      have h3 : |-y - 7036874417766400 * (2 : ℝ) ^ (-98 : ℤ)| < (2 : ℝ) ^ (-98 : ℤ) := by
        rw [abs_lt]
        norm_num at h4 h5 ⊢
        constructor <;> linarith
      linarith
    rw [hneg]; norm_num
  have h2 : (x0 i - degEps + degEps).val = .fin 0 := by
    rw [v_add h1 OutDemo.vDeg (by rw [neg_add_cancel]; exact isB64_zero), neg_add_cancel]
  exact refuse_of_moved E x0 startId hess0 st0 i _ 0 hx hl hu hrest h2 (by norm_num) fuel

/-- C60 (the property fails): the same with IEEE rounding (ties to even) for an everyday magnitude: a coordinate fixed at `9 + 2^-49` -/
theorem C60_even_counterexample (hR : TiesToEven R) (E : Env (Dbl R) n) (x0 : Vec (Dbl R) n) (startId : String) (hess0 : Hess0 (Dbl R))
    (st0 : St (Dbl R) n) (i : Fin n) (hx : (x0 i).val = .fin (9 + 1 / 2 ^ 49)) (hl : E.lb i = x0 i) (hu : E.ub i = x0 i)
    (hrest : ∀ j, isNaN (E.ub j - x0 j) = false) (fuel : ℕ) :
    ∃ st', minimize E fuel x0 startId hess0 st0 = .error (.runtimeError, st') ∧ st'.exitflag = .exceededBoundary ∧
      st'.evals = st0.evals := by
  have hov : (16 : ℝ) < overflow64 := by
    have := isB64_lt (x := 16) ⟨16, 0, by norm_num, by norm_num, by norm_num, by norm_num⟩
    rwa [abs_of_pos (by norm_num)] at this
  have h1 : (x0 i - degEps).val = .fin (9 - 12 / 2 ^ 49) := by
    rw [val_sub, hx, OutDemo.vDeg, Num.fin_sub, v_rd (lt_trans (by rw [abs_of_pos] <;> norm_num) hov)]
    congr 1
    rw [hR _ (9 * 2 ^ 49 - 12) (-49) ⟨by norm_num, by norm_num, by norm_num, by norm_num, by norm_num⟩, evenNeighbour, if_pos ⟨9 * 2 ^ 48 - 6, by norm_num⟩]
    norm_num
  have h2 : (x0 i - degEps + degEps).val = .fin 9 := by
    rw [val_add, h1, OutDemo.vDeg, Num.fin_add, v_rd (lt_trans (by rw [abs_of_pos] <;> norm_num) hov)]
    congr 1
    rw [hR _ (9 * 2 ^ 49) (-49) ⟨by norm_num, by norm_num, by norm_num, by norm_num, by norm_num⟩, evenNeighbour, if_pos ⟨9 * 2 ^ 48, by norm_num⟩]
    norm_num
  exact refuse_of_moved E x0 startId hess0 st0 i _ 9 hx hl hu hrest h2 (by norm_num) fuel

/-- C60, what holds: a coordinate fixed at 0 or at a value in `[1e2 * 2^-52, 8)` is not moved by the nudge. -/
theorem C60_kept_partial (lb ub x : Vec (Dbl R) n) (i : Fin n) (r : ℝ) (hx : (x i).val = .fin r) (hl : lb i = x i) (hu : ub i = x i)
    (hrest : ∀ j, isNaN (ub j - x j) = false) (hr : r = 0 ∨ (100 / 2 ^ 52 ≤ r ∧ r < 8)) : (nudge lb ub x i).val = .fin r := by
  rw [nudge_fixed lb ub x i r hx hl hu hrest]
  have hB := (val_mem _ _ hx).1
  have hd : IsB64 (r - 100 / 4503599627370496) := by
    rcases hr with rfl | ⟨h1, h2⟩
    · exact ⟨-100, -52, by norm_num, by norm_num, by norm_num, by norm_num⟩
    · obtain ⟨m, e, a1, a2, a3, rfl⟩ := hB
      have hp : (0 : ℝ) < 2 ^ e := zpow_pos (by norm_num) _
      have hmpos : 0 < m := by
        have : (0 : ℝ) < m * 2 ^ e := lt_of_lt_of_le (by norm_num) h1
        exact_mod_cast (pos_of_mul_pos_left this hp.le)
      by_cases he : e ≤ -50
      · obtain ⟨k, hk⟩ := Int.le.dest he
        have hk' : (25 : ℝ) * 2 ^ (-50 : ℤ) = (25 * 2 ^ k) * 2 ^ e := by
          rw [← hk, zpow_add₀ (by norm_num), zpow_natCast]; ring
        have h25 : (100 / 4503599627370496 : ℝ) = 25 * 2 ^ (-50 : ℤ) := by norm_num
        have hle : (25 * 2 ^ k : ℤ) ≤ m := by
          have : (25 * 2 ^ k : ℝ) * 2 ^ e ≤ m * 2 ^ e := by rw [← hk']; refine le_trans (le_of_eq ?_) h1; norm_num
          have := le_of_mul_le_mul_right this hp
          exact_mod_cast this
        have h25p : (0 : ℤ) < 25 * 2 ^ k := by positivity
        refine ⟨m - 25 * 2 ^ k, e, ?_, a2, a3, ?_⟩
        · rw [abs_of_pos hmpos] at a1
          rw [abs_of_nonneg (by omega)]; omega
        · rw [h25, hk']; push_cast; ring
      · obtain ⟨k, hk⟩ := Int.le.dest (show (-50 : ℤ) ≤ e by omega)
        have hk' : (m : ℝ) * 2 ^ e = (m * 2 ^ k) * 2 ^ (-50 : ℤ) := by
          rw [← hk, zpow_add₀ (by norm_num), zpow_natCast]; ring
        have hp50 : (0 : ℝ) < 2 ^ (-50 : ℤ) := zpow_pos (by norm_num) _
        have hlt : (m * 2 ^ k : ℤ) < 2 ^ 53 := by
          rw [hk'] at h2
          have : (m * 2 ^ k : ℝ) * 2 ^ (-50 : ℤ) < 2 ^ 53 * 2 ^ (-50 : ℤ) := lt_of_lt_of_eq h2 (by norm_num)
          have := lt_of_mul_lt_mul_right this hp50.le
          exact_mod_cast this
        have hge : (25 : ℤ) ≤ m * 2 ^ k := by
          rw [hk'] at h1
          have : (25 : ℝ) * 2 ^ (-50 : ℤ) ≤ (m * 2 ^ k) * 2 ^ (-50 : ℤ) := le_trans (by norm_num) h1
          have := le_of_mul_le_mul_right this hp50
          exact_mod_cast this
        refine ⟨m * 2 ^ k - 25, -50, ?_, by norm_num, by norm_num, ?_⟩
        · rw [abs_of_nonneg (by omega)]; omega
        · rw [hk']; push_cast; norm_num; ring
  have h1 : (x i - degEps).val = .fin (r - 100 / 4503599627370496) := v_sub hx OutDemo.vDeg hd
  have h2 := v_add h1 OutDemo.vDeg (by rw [sub_add_cancel]; exact hB)
  rw [h2, sub_add_cancel]

end C60

end Fides
