import Verif.Props.RunUpdate
import Verif.Lemmas.Sr1Demo
import Verif.Spec.Quadratic
import Mathlib.LinearAlgebra.FiniteDimensional.Basic
import Mathlib.LinearAlgebra.Dimension.Constructions

/-!
# C83: SR1 on quadratic functions
-/

set_option linter.unusedSectionVars false

namespace Fides
open Spec Num
variable {n : ℕ}

theorem ofM_inj' {A B : Fin n → Fin n → ℝ} (h : (ofM A : Mat Num n n) = ofM B) : A = B := by
  funext i j
  have := congrFun (congrFun h i) j
  simpa using this

/-- an update with finite result: the matrix is kept, or it is the rank one update -/
theorem sr1_real (a : IterApprox Num n) (B B' : Fin n → Fin n → ℝ) (s y : Fin n → ℝ) (hsch : a.scheme = .sr1) (hB : a.getMat = ofM B)
    (hB' : (a.update (ofV s) (ofV y)).getMat = ofM B') :
    B' = B ∨ (rdot (y - rmv B s) s ≠ 0 ∧ B' = B + fun i j => (y - rmv B s) i * (y - rmv B s) j / rdot (y - rmv B s) s) := by
  rcases Nat.eq_zero_or_pos n with rfl | hn
  · exact Or.inl (Subsingleton.elim _ _)
  simp only [IterApprox.getMat] at hB hB'
  rw [sr1_update a B s y hsch hB] at hB'
  split at hB'
  · rename_i hd
    by_cases hne : rdot (y - rmv B s) s = 0
    · exfalso
      rw [hne, abs_zero] at hd
      have h1 := rnorm_nonneg s
      have h2 := rnorm_nonneg (y - rmv B s)
      have h3 : 0 < Real.sqrt (1 / 4503599627370496 : ℝ) := Real.sqrt_pos.mpr (by norm_num)
      have h4 := congrFun (congrFun hB' ⟨0, hn⟩) ⟨0, hn⟩
      simp only [hne, madd, mdiv, ofM_apply, fin_div_def] at h4
      by_cases hz : (y - rmv B s) ⟨0, hn⟩ * (y - rmv B s) ⟨0, hn⟩ = 0
      · rw [hz] at h4; simp at h4
      · have h5 : 0 < (y - rmv B s) ⟨0, hn⟩ * (y - rmv B s) ⟨0, hn⟩ := lt_of_le_of_ne (mul_self_nonneg _) (Ne.symm hz)
        simp only [if_true, if_neg hz, infSign_pos h5] at h4
        cases h4
    · right
      refine ⟨hne, ?_⟩
      rw [mdiv_ofM _ _ hne, madd_ofM] at hB'
      exact (ofM_inj'  hB').symm
  · exact Or.inl (ofM_inj'  hB').symm

/-- the directions along which two matrices agree -/
def agreeSub (A B : Fin n → Fin n → ℝ) : Submodule ℝ (Fin n → ℝ) where
  carrier := {v | rmv B v = rmv A v}
  zero_mem' := by show rmv B 0 = rmv A 0; rw [rmv_zero, rmv_zero]
  add_mem' := by
    intro v w (hv : rmv B v = rmv A v) (hw : rmv B w = rmv A w)
    show rmv B (v + w) = rmv A (v + w)
    rw [rmv_add, rmv_add, hv, hw]
  smul_mem' := by
    intro c v (hv : rmv B v = rmv A v)
    show rmv B (c • v) = rmv A (c • v)
    rw [rmv_smul, rmv_smul, hv]

theorem mem_agreeSub {A B : Fin n → Fin n → ℝ} {v : Fin n → ℝ} : v ∈ agreeSub A B ↔ rmv B v = rmv A v := Iff.rfl

/-- one update with the gradient difference of a quadratic function -/
theorem sr1_hereditary (A B : Fin n → Fin n → ℝ) (hA : Sym A) (hB : Sym B) (s : Fin n → ℝ) (hne : rdot (rmv A s - rmv B s) s ≠ 0) :
    let B' := B + fun i j => (rmv A s - rmv B s) i * (rmv A s - rmv B s) j / rdot (rmv A s - rmv B s) s
    Sym B' ∧ rmv B' s = rmv A s ∧ ∀ v, rmv B v = rmv A v → rmv B' v = rmv A v := by
  intro B'
  have hv : ∀ v, rmv B' v = rmv B v + (rdot (rmv A s - rmv B s) v / rdot (rmv A s - rmv B s) s) • (rmv A s - rmv B s) := by
    intro v
    show rmv (B + _) v = _
    rw [add_rmv, div_rmv (fun i j => (rmv A s - rmv B s) i * (rmv A s - rmv B s) j), outer_rmv]
    funext i
    simp only [Pi.add_apply, Pi.smul_apply, smul_eq_mul]
    ring
  refine ⟨fun i j => ?_, ?_, fun v hv' => ?_⟩
  · show B i j + _ = B j i + _
    rw [hB i j]; ring
  · rw [hv, div_self hne, one_smul]; abel
  · have h0 : rdot (rmv A s - rmv B s) v = 0 := by
      rw [sub_rdot, ← Sym.rdot_rmv hA, ← Sym.rdot_rmv hB, hv', sub_self]
    rw [hv, h0, zero_div, zero_smul, add_zero, hv']

section run
variable (E : Env Num n) (c : ℝ) (b : Fin n → ℝ) (A : Fin n → Fin n → ℝ) (x0 : Vec Num n) (startId : String) (hess0 : Hess0 Num) (st0 : St Num n)

/-- one pass, given what is known at its start -/
theorem sr1_pass (hU : NoBounds E.lb E.ub) (hev : Evaluates E (quadF c b A) (quadG b A)) (hA : Sym A) (k : ℕ) (prev next : St Num n)
    (cur cur' new : Funout Num n) (step : Step Num n) (hh : LoopHead E x0 startId hess0 st0 k prev cur) (h : Pass E prev cur step new next cur')
    (a : IterApprox Num n) (ha : prev.happ = some (.iter a)) (hsch : a.scheme = .sr1) :
    (∃ a', next.happ = some (.iter a') ∧ a'.scheme = .sr1) ∧ ∃ B x x', prev.hess = ofM B ∧ prev.x = ofV x ∧ next.x = ofV x' ∧
      (Sym B → ∀ B', next.hess = ofM B' → B' = B ∨ (rmv B (x' - x) ≠ rmv A (x' - x) ∧ Sym B' ∧ rmv B' (x' - x) = rmv A (x' - x) ∧
        ∀ v, rmv B v = rmv A v → rmv B' v = rmv A v)) := by
  have hf := pass_facts E _ _ _ _ _ _ h
  have hnext : LoopHead E x0 startId hess0 st0 (k + 1) next cur' := .next _ _ _ _ _ _ hh h.continues h.body
  have hm : mfinite prev.hess = true := by
    have := ((allFinite_iff _ _ _).mp hf.finite0).2.2
    simp only [mfinite, decide_eq_true_eq]
    exact this _ rfl
  obtain ⟨B, hB⟩ := (mfinite_iff _).mp hm
  have hi := headInv E x0 startId hess0 st0 k prev cur hh
  rcases hf.cases with ⟨hacc, h1, _, hnx, hfv, hgr⟩ | ⟨_, _, h3, _, _, h5, h6⟩
  · obtain ⟨hlt, _⟩ := accepted_lt E prev step new hacc hf.finite1
    have hlt' : lt next.fval prev.fval = true := by rw [hfv]; exact hlt
    obtain ⟨x, s, gc, gn, hx, hs, hxn, hgc, hgn⟩ := accepted_finite E x0 startId hess0 st0 k prev next cur cur' new step hh h hacc
    obtain ⟨g', e1, e2, e3, e4⟩ := C56_update E x0 startId hess0 st0 k prev next cur cur' new step hh h hlt' _ ha
    have hu := e4.1 a rfl
    rw [hs, hgn, hgc, vsub_ofV] at hu
    subst hu
    have hnx' : next.x = ofV (x + s) := by rw [hnx, C51_nudge _ _ _ hU, hxn]
    have v1 := (head_values hU hev x0 startId hess0 st0 k prev cur hh x hx).2.2
    have v2 := (head_values hU hev x0 startId hess0 st0 (k + 1) next cur' hnext (x + s) hnx').2.2
    have hgc' : gc = quadG b A x := by
      apply ofV_inj.mp; rw [← hgc, ← v1]; exact hi.grad.symm
    have hgn' : gn = quadG b A (x + s) := by
      apply ofV_inj.mp; rw [← hgn, ← v2, hgr]
    have hy : gn - gc = rmv A s := by
      rw [hgc', hgn']; unfold quadG; rw [rmv_add]; abel
    refine ⟨⟨_, e1, by simp only [IterApprox.update, hsch]⟩, B, x, x + s, hB, hx, hnx', fun hS B' hB' => ?_⟩
    have haB : a.getMat = ofM B := by rw [← hB, e3]; rfl
    have hnh : (a.update (ofV s) (ofV (gn - gc))).getMat = ofM B' := by rw [← hB', e2]; rfl
    rw [hy] at hnh
    rw [add_sub_cancel_left]
    rcases sr1_real a B B' s (rmv A s) hsch haB hnh with h7 | ⟨hne, h7⟩
    · exact Or.inl h7
    · right
      obtain ⟨g1, g2, g3⟩ := sr1_hereditary A B hA hS s hne
      subst h7
      refine ⟨fun hc => hne ?_, g1, g2, g3⟩
      rw [hc, sub_self, zero_rdot]
  · obtain ⟨x, hx⟩ : ∃ x, prev.x = ofV x := by
      have hb := hi.bounds
      have hcx : prev.x = cur.x := by
        rcases hi.x with ⟨_, e⟩ | e | e
        · exact e
        · exact e
        · rw [e, C51_nudge _ _ _ hU]
      have hxf : vfinite prev.x = true := by
        rw [hcx]
        simp only [vfinite, decide_eq_true_eq]
        exact fun i => (inBounds_spec _ _ _ hb i).2.2
      exact (vfinite_iff _).mp hxf
    refine ⟨⟨a, by rw [h6, ha], hsch⟩, B, x, x, hB, hx, by rw [h3, hx], fun hS B' hB' => Or.inl ?_⟩
    apply ofM_inj'
    rw [← hB', h5, hB]

/-- what is known at every loop head of a run with SR1 -/
theorem sr1_head (a0 : IterApprox Num n) (hg : st0.happ = some (.iter a0)) (hsch : a0.scheme = .sr1)
    (h0 : hess0 = .val .none ∨ ∃ m : Fin n → Fin n → ℝ, hess0 = .val (.ofMat (ofM m)) ∧ Sym m) (hU : NoBounds E.lb E.ub)
    (hev : Evaluates E (quadF c b A) (quadG b A)) (hA : Sym A) (k : ℕ) (st : St Num n) (cur : Funout Num n)
    (h : LoopHead E x0 startId hess0 st0 k st cur) :
    (∃ a, st.happ = some (.iter a) ∧ a.scheme = .sr1) ∧ ∀ B, st.hess = ofM B → Sym B := by
  induction k generalizing st cur with
  | zero =>
    have h41 := (C41_run E x0 startId hess0 st0 st cur h).2 _ hg
    refine ⟨?_, ?_⟩
    · cases h with
      | start s _ _ hb hs =>
        obtain ⟨rfl, _⟩ := checkInBounds_ok _ _ _ _ hb
        obtain ⟨raw, happ, _, h2, _, h4, _, _, _, h8⟩ := setup_ok _ _ _ _ _ hs
        have h2' : initialHapp st0.happ hess0 raw = .ok happ := h2
        rw [hg] at h2'
        obtain ⟨g', rfl, hi1, hi2⟩ := initialHapp_some _ _ _ _ h2'
        obtain ⟨b, c, d, e, hf⟩ := setupState_frame (startState E x0 startId st0) cur (some g')
        have hh : st.happ = some g' := by
          rw [h8]
          show (setupState (startState E x0 startId st0) cur (some g')).happ = _
          rw [hf]
        rw [hh]
        have : ∃ v, hess0 = .val v := by
          rcases h0 with h | ⟨m, h, _⟩
          · exact ⟨_, h⟩
          · exact ⟨_, h⟩
        obtain ⟨v, hv⟩ := this
        rcases initHapp_ok _ _ _ (hi2 _ hv) with ⟨_, rfl⟩ | ⟨_, m, _, rfl⟩
        · exact ⟨_, rfl, hsch⟩
        · exact ⟨_, rfl, hsch⟩
    · intro B hB
      rcases h0 with h0 | ⟨m, h0, hm⟩
      · rw [h41.1 h0, meye_ofM] at hB
        rw [← ofM_inj' hB]; exact Sym_idM
      · rw [h41.2.1 _ h0] at hB
        rw [← ofM_inj' hB]; exact hm
  | succ k ih =>
    obtain ⟨prev, cur0, step, new, hh, hp⟩ := loopHead_pass E x0 startId hess0 st0 k st cur h
    obtain ⟨⟨a, iha, ihs⟩, ihB⟩ := ih prev cur0 hh
    obtain ⟨h1, B, x, x', h2, h3, h4, h5⟩ := sr1_pass E c b A x0 startId hess0 st0 hU hev hA k prev st cur0 cur new step hh hp a iha ihs
    refine ⟨h1, fun B' hB' => ?_⟩
    rcases h5 (ihB B h2) B' hB' with rfl | ⟨_, h6, _⟩
    · exact ihB _ h2
    · exact h6

/-- C83: SR1 does not forget.  On a quadratic function with Hessian `A`, directions along which the approximation agrees with `A` remain such directions, and
when an iteration changes the approximation, it agrees with `A` along the step made in this iteration from then on, and did not before. -/
theorem C83_keeps (a0 : IterApprox Num n) (hg : st0.happ = some (.iter a0)) (hsch : a0.scheme = .sr1)
    (h0 : hess0 = .val .none ∨ ∃ m : Fin n → Fin n → ℝ, hess0 = .val (.ofMat (ofM m)) ∧ Sym m) (hU : NoBounds E.lb E.ub)
    (hev : Evaluates E (quadF c b A) (quadG b A)) (hA : Sym A) (k : ℕ) (prev next : St Num n) (cur cur' : Funout Num n)
    (h1 : LoopHead E x0 startId hess0 st0 k prev cur) (h2 : LoopHead E x0 startId hess0 st0 (k + 1) next cur') (B' : Fin n → Fin n → ℝ)
    (hB' : next.hess = ofM B') :
    ∃ B x x', prev.hess = ofM B ∧ prev.x = ofV x ∧ next.x = ofV x' ∧ (∀ v, rmv B v = rmv A v → rmv B' v = rmv A v) ∧
      (B' ≠ B → rmv B' (x' - x) = rmv A (x' - x) ∧ rmv B (x' - x) ≠ rmv A (x' - x)) := by
  obtain ⟨prev', cur0, step, new, hh, hp⟩ := loopHead_pass E x0 startId hess0 st0 k next cur' h2
  obtain ⟨rfl, rfl⟩ := loopHead_unique E _ startId hess0 st0 k _ _ _ _ h1 hh
  obtain ⟨⟨a, ha, hs⟩, hS⟩ := sr1_head E c b A x0 startId hess0 st0 a0 hg hsch h0 hU hev hA k prev cur h1
  obtain ⟨_, B, x, x', e2, e3, e4, e5⟩ := sr1_pass E c b A x0 startId hess0 st0 hU hev hA k prev next cur cur' new step hh hp a ha hs
  refine ⟨B, x, x', e2, e3, e4, ?_⟩
  rcases e5 (hS B e2) B' hB' with rfl | ⟨g1, g2, g3, g4⟩
  · exact ⟨fun v hv => hv, fun hc => absurd rfl hc⟩
  · exact ⟨g4, fun _ => ⟨g3, g1⟩⟩

/-- C83: SR1 learns the Hessian of a quadratic function.  `Bs 0, ..., Bs k` are the approximations used in the first iterations of a run: at most `n` iterations
change the approximation, after `n` changes it is the Hessian `A`, and at any time it agrees with `A` along every step at which it has been changed. -/
theorem C83_learns (a0 : IterApprox Num n) (hg : st0.happ = some (.iter a0)) (hsch : a0.scheme = .sr1)
    (h0 : hess0 = .val .none ∨ ∃ m : Fin n → Fin n → ℝ, hess0 = .val (.ofMat (ofM m)) ∧ Sym m) (hU : NoBounds E.lb E.ub)
    (hev : Evaluates E (quadF c b A) (quadG b A)) (hA : Sym A) (k : ℕ) (Bs : ℕ → Fin n → Fin n → ℝ) (xs : ℕ → Fin n → ℝ)
    (hBs : ∀ j ≤ k, ∃ st cur, LoopHead E x0 startId hess0 st0 j st cur ∧ st.hess = ofM (Bs j) ∧ st.x = ofV (xs j)) :
    ((Finset.range k).filter fun j => Bs (j + 1) ≠ Bs j).card ≤ n ∧
    (((Finset.range k).filter fun j => Bs (j + 1) ≠ Bs j).card = n → Bs k = A) ∧
    ∀ j < k, Bs (j + 1) ≠ Bs j → rmv (Bs k) (xs (j + 1) - xs j) = rmv A (xs (j + 1) - xs j) := by
  have step : ∀ j < k, (∀ v, rmv (Bs j) v = rmv A v → rmv (Bs (j + 1)) v = rmv A v) ∧
      (Bs (j + 1) ≠ Bs j → rmv (Bs (j + 1)) (xs (j + 1) - xs j) = rmv A (xs (j + 1) - xs j) ∧ rmv (Bs j) (xs (j + 1) - xs j) ≠ rmv A (xs (j + 1) - xs j)) := by
    intro j hj
    obtain ⟨st, cur, h1, h2, h3⟩ := hBs j hj.le
    obtain ⟨st', cur', h1', h2', h3'⟩ := hBs (j + 1) hj
    obtain ⟨B, x, x', e1, e2, e3, e4, e5⟩ := C83_keeps E c b A x0 startId hess0 st0 a0 hg hsch h0 hU hev hA j st st' cur cur' h1 h1' _ h2'
    obtain rfl := ofM_inj' (h2.symm.trans e1)
    obtain rfl := ofV_inj.mp (h3.symm.trans e2)
    obtain rfl := ofV_inj.mp (h3'.symm.trans e3)
    exact ⟨e4, e5⟩
  have key : ∀ i ≤ k, ((Finset.range i).filter fun j => Bs (j + 1) ≠ Bs j).card ≤ Module.finrank ℝ (agreeSub A (Bs i)) ∧
      ∀ j < i, Bs (j + 1) ≠ Bs j → rmv (Bs i) (xs (j + 1) - xs j) = rmv A (xs (j + 1) - xs j) := by
    intro i
    induction i with
    | zero => intro _; exact ⟨by simp, fun j hj => absurd hj (Nat.not_lt_zero _)⟩
    | succ i ih =>
      intro hi
      obtain ⟨i1, i2⟩ := ih (by omega)
      obtain ⟨s1, s2⟩ := step i (by omega)
      have hle : agreeSub A (Bs i) ≤ agreeSub A (Bs (i + 1)) := fun v hv => s1 v hv
      refine ⟨?_, ?_⟩
      · rw [Finset.range_add_one, Finset.filter_insert]
        split
        · rename_i hne
          rw [Finset.card_insert_of_notMem (by simp)]
          have hlt : agreeSub A (Bs i) < agreeSub A (Bs (i + 1)) := lt_of_le_of_ne hle fun hc => by
            have : xs (i + 1) - xs i ∈ agreeSub A (Bs i) := by rw [hc]; exact (s2 hne).1
            exact (s2 hne).2 this
          have := Submodule.finrank_lt_finrank_of_lt hlt
          omega
        · exact i1.trans (Submodule.finrank_mono hle)
      · intro j hj hne
        rcases Nat.lt_succ_iff_lt_or_eq.mp hj with hj | rfl
        · exact s1 _ (i2 j hj hne)
        · exact (s2 hne).1
  obtain ⟨k1, k2⟩ := key k le_rfl
  have hfin : Module.finrank ℝ (agreeSub A (Bs k)) ≤ n := by
    have := Submodule.finrank_le (agreeSub A (Bs k))
    rwa [Module.finrank_fin_fun] at this
  refine ⟨k1.trans hfin, fun hc => ?_, k2⟩
  have htop : agreeSub A (Bs k) = ⊤ := by
    apply Submodule.eq_top_of_finrank_eq
    rw [Module.finrank_fin_fun]
    omega
  have hall : ∀ v, rmv (Bs k) v = rmv A v := fun v => by
    have : v ∈ agreeSub A (Bs k) := by rw [htop]; trivial
    exact this
  funext i j
  have := congrFun (hall (Pi.single j 1)) i
  simpa [rmv, rdot, Pi.single_apply] using this

/-- C83 is false where SR1 has learned everything: an accepted step along which the approximation agrees with the Hessian of the quadratic function - once the
Hessian is known, any accepted step - turns every entry into NaN, and the run raises an exception in the next iteration, or ends just there and returns the NaN matrix. -/
theorem C83_counterexample (hn : 0 < n) (a0 : IterApprox Num n) (hg : st0.happ = some (.iter a0)) (hsch : a0.scheme = .sr1)
    (h0 : hess0 = .val .none ∨ ∃ m : Fin n → Fin n → ℝ, hess0 = .val (.ofMat (ofM m)) ∧ Sym m) (hU : NoBounds E.lb E.ub)
    (hev : Evaluates E (quadF c b A) (quadG b A)) (hA : Sym A) (k : ℕ) (prev next : St Num n) (cur cur' : Funout Num n)
    (h1 : LoopHead E x0 startId hess0 st0 k prev cur) (h2 : LoopHead E x0 startId hess0 st0 (k + 1) next cur') (hacc : lt next.fval prev.fval = true)
    (B : Fin n → Fin n → ℝ) (x x' : Fin n → ℝ) (hB : prev.hess = ofM B) (hx : prev.x = ofV x) (hx' : next.x = ofV x')
    (hagree : rmv B (x' - x) = rmv A (x' - x)) :
    (∀ i j, next.hess i j = nan) ∧ ∀ fuel st', minimize E fuel x0 startId hess0 st0 = .ok st' → st'.iteration = k + 1 ∧ ∀ i j, st'.hess i j = nan := by
  obtain ⟨prev', cur0, step, new, hh, hp⟩ := loopHead_pass E x0 startId hess0 st0 k next cur' h2
  obtain ⟨rfl, rfl⟩ := loopHead_unique E _ startId hess0 st0 k _ _ _ _ h1 hh
  obtain ⟨⟨a, ha, hs⟩, hS⟩ := sr1_head E c b A x0 startId hess0 st0 a0 hg hsch h0 hU hev hA k prev cur h1
  have hf := pass_facts E _ _ _ _ _ _ hp
  have hnew : new.x = ofV x' := by
    rcases hf.cases with ⟨_, _, _, e, _, _⟩ | ⟨_, _, _, e, _⟩
    · rw [C51_nudge _ _ _ hU] at e; rw [← e, hx']
    · rw [e] at hacc
      have := (LawfulFloat.lt_iff _ _).mp hacc
      simp [this.1] at this
  have v1 := (head_values hU hev x0 startId hess0 st0 k prev cur h1 x hx).2.2
  have v2 := (head_values hU hev x0 startId hess0 st0 (k + 1) next cur' h2 x' hx').2.2
  have hsec : rmv B (x' - x) = quadG b A x' - quadG b A x := by
    rw [hagree, rmv_sub]; unfold quadG; abel
  obtain ⟨e1, _, e3⟩ := C34_run_counterexample hn E x0 startId hess0 st0 k prev next cur cur' new step hh hp hacc a ha hs x x' _ _ B hx hnew v1 v2 hB hsec
  exact ⟨e1, e3⟩

end run
/-! ### the hypotheses are met -/

theorem srq_evaluates (A : ℝ) : Evaluates (srqEnv A) (quadF ((A - 1) / 2) (fun _ => 1 - A) fun _ _ => A) (quadG (fun _ => 1 - A) fun _ _ => A) := by
  intro k x xId raw fo h1 h2
  have e1 : (srqEnv A).obj k (ofV x) = .tuple [.scalar (fin (A / 2 * x 0 * x 0 + (1 - A) * x 0 + (A - 1) / 2)), .arr [1] [fin (A * x 0 + (1 - A))]] := by
    simp [srqEnv]
  rw [e1] at h1
  simp only [srqEnv, funEval, demoEnv] at h1
  simp at h1
  subst h1
  rw [typed_two] at h2
  cases h2
  refine ⟨?_, ?_⟩
  · simp [quadF, rdot_one, rmv]; ring
  · funext i; simp [quadG, rdot_one, rmv]; ring

theorem srq_noBounds (A : ℝ) : NoBounds (srqEnv A).lb (srqEnv A).ub := fun _ => ⟨rfl, rfl⟩

/-- one iteration of SR1 on a quadratic function with second derivative `A`, from 1 to 0 -/
theorem srq_heads (A : ℝ) (hA1 : 1 ≤ A) (hA2 : A ≤ 3 / 2) : ∃ prev next cur cur', LoopHead (srqEnv A) (v1 1) "run" (.val .none) srqSt0 0 prev cur ∧
    LoopHead (srqEnv A) (v1 1) "run" (.val .none) srqSt0 1 next cur' ∧ lt next.fval prev.fval = true ∧ prev.hess = ofM idM ∧ prev.x = ofV (fun _ => 1) ∧
    next.x = ofV (fun _ => 0) ∧ (A ≠ 1 → next.hess = ofM fun _ _ => A) := by
  obtain ⟨step, new, next, cur', ⟨h1, h2, h3, h4, h5, h6, h7, h8, h9⟩, h10⟩ := srq_pass_full A hA1 hA2
  have hs := srq_start A
  have hf := pass_facts _ _ _ _ _ _ _ h1
  have hlt : lt next.fval (srqHead A).fval = true := by rw [h2, h4]; simp; linarith
  refine ⟨_, next, _, cur', hs, .next _ _ _ _ _ _ hs h1.continues h1.body, hlt, ?_, h9, ?_, fun hA => ?_⟩
  · have := (C41_run _ _ _ _ _ _ _ hs).2 _ rfl
    rw [this.1 rfl, meye_ofM]; rfl
  · rcases hf.cases with ⟨_, _, _, e, _, _⟩ | ⟨_, _, _, e, _⟩
    · rw [e, C51_nudge _ _ _ (srq_noBounds A), h6]; rfl
    · rw [e] at hlt
      have := (LawfulFloat.lt_iff _ _).mp hlt
      simp [this.1] at this
  · rw [h3]
    have hz : (fun _ => -A : Fin 1 → ℝ) - rmv idM (fun _ => -1) = fun _ => 1 - A := by
      rw [idM_rmv]; funext i; simp; ring
    have hne : (1 - A) * -1 ≠ 0 := by intro hc; apply hA; linarith
    show (((IterApprox.new .sr1).initMat none).update (ofV fun _ => -1) (ofV fun _ => -A)).hess = _
    rw [sr1_update _ idM _ _ rfl (show meye = ofM idM by rw [meye_ofM]; rfl), hz, if_pos]
    · rw [mdiv_ofM _ _ (by rw [rdot_one]; exact hne), madd_ofM]
      congr 1
      funext i j
      simp only [Pi.add_apply, rdot_one, idM, Subsingleton.elim i j, if_true]
      have : A - 1 ≠ 0 := fun hc => hA (by linarith)
      field_simp
      ring
    · have e1 : rnorm (fun _ => -1 : Fin 1 → ℝ) = 1 := by simp [rnorm, rdot_one]
      have e2 : rnorm (fun _ => 1 - A : Fin 1 → ℝ) = |1 - A| := by simp [rnorm, rdot_one, Real.sqrt_mul_self_eq_abs]
      have e3 : Real.sqrt (1 / 4503599627370496 : ℝ) ≤ 1 := by
        rw [show (1 : ℝ) = Real.sqrt 1 from Real.sqrt_one.symm]; exact Real.sqrt_le_sqrt (by norm_num)
      rw [e1, e2, rdot_one, mul_one, mul_neg_one, abs_neg]
      nlinarith [abs_nonneg (1 - A)]

/-- C83_keeps, C83_learns: with second derivative 3/2 the approximation goes from 1 to 3/2 in the first iteration -/
example : ∃ (Bs : ℕ → Fin 1 → Fin 1 → ℝ) (xs : ℕ → Fin 1 → ℝ), (∀ j ≤ 1, ∃ st cur, LoopHead (srqEnv (3 / 2)) (v1 1) "run" (.val .none) srqSt0 j st cur ∧
    st.hess = ofM (Bs j) ∧ st.x = ofV (xs j)) ∧ Bs 1 ≠ Bs 0 ∧ NoBounds (srqEnv (3 / 2)).lb (srqEnv (3 / 2)).ub ∧
    Evaluates (srqEnv (3 / 2)) (quadF ((3 / 2 - 1) / 2) (fun _ => 1 - 3 / 2) fun _ _ => 3 / 2) (quadG (fun _ => 1 - 3 / 2) fun _ _ => 3 / 2) ∧
    (∃ a0, srqSt0.happ = some (.iter a0) ∧ a0.scheme = .sr1) := by
  obtain ⟨prev, next, cur, cur', h1, h2, h3, h4, h5, h6, h7⟩ := srq_heads (3 / 2) (by norm_num) (by norm_num)
  refine ⟨fun j => if j = 0 then idM else fun _ _ => 3 / 2, fun j _ => if j = 0 then 1 else 0, fun j hj => ?_, ?_, srq_noBounds _, srq_evaluates _, _, rfl, rfl⟩
  · rcases (by omega : j = 0 ∨ j = 1) with rfl | rfl
    · exact ⟨prev, cur, h1, h4, h5⟩
    · exact ⟨next, cur', h2, by simpa using h7 (by norm_num), by simpa using h6⟩
  · intro hc
    have := congrFun (congrFun hc 0) 0
    norm_num [idM] at this

/-- C83_counterexample: with second derivative 1 the identity matrix is exact from the start, and the first accepted step makes it NaN -/
example : ∃ (prev next : St Num 1) (cur cur' : Funout Num 1), LoopHead (srqEnv 1) (v1 1) "run" (.val .none) srqSt0 0 prev cur ∧
    LoopHead (srqEnv 1) (v1 1) "run" (.val .none) srqSt0 1 next cur' ∧ lt next.fval prev.fval = true ∧ prev.hess = ofM idM ∧ prev.x = ofV (fun _ => 1) ∧
    next.x = ofV (fun _ => 0) ∧ rmv idM ((fun _ => 0) - fun _ => 1 : Fin 1 → ℝ) = rmv (fun _ _ : Fin 1 => 1) ((fun _ => 0) - fun _ => 1 : Fin 1 → ℝ) ∧
    Evaluates (srqEnv 1) (quadF ((1 - 1) / 2) (fun _ => 1 - 1) fun _ _ => 1) (quadG (fun _ => 1 - 1) fun _ _ => 1) := by
  obtain ⟨prev, next, cur, cur', h1, h2, h3, h4, h5, h6, h7⟩ := srq_heads 1 le_rfl (by norm_num)
  refine ⟨prev, next, cur, cur', h1, h2, h3, h4, h5, h6, ?_, srq_evaluates 1⟩
  rw [idM_rmv]
  funext i
  simp [rmv, rdot_one]

end Fides
