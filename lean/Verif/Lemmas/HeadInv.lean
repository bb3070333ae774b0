import Verif.Lemmas.Driver
import Mathlib.Tactic.NormNum
import Mathlib.Tactic.Linarith

/-! Helper lemmas: invariant of the states at the loop head of `minimize`, for any lawful arithmetic. -/

namespace Fides
open Spec
variable {F : Type} [FloatOps F] [LawfulFloat F] {n : ℕ}

theorem allFinite_iff (f : F) (g : Vec F n) (h : Option (Mat F n n)) :
    allFinite f g h = true ↔ isFinite f = true ∧ (∀ i, isFinite (g i) = true) ∧ ∀ m, h = some m → ∀ i j, isFinite (m i j) = true := by
  cases h with
  | none => simp [allFinite, vfinite]
  | some m => simp [allFinite, vfinite, mfinite, and_assoc]

omit [LawfulFloat F] in
theorem finiteEval_iff (fo : Funout F n) : FiniteEval fo ↔ allFinite fo.fval fo.grad fo.hess = true := by
  unfold FiniteEval
  cases fo.hess with
  | none => simp [allFinite, vfinite]
  | some m => simp [allFinite, vfinite, mfinite, and_assoc]

/-- the bounds check, coordinate by coordinate: feasible and finite -/
theorem inBounds_spec (lb ub x : Vec F n) (h : inBounds lb ub x = true) (i : Fin n) :
    le (lb i) (x i) = true ∧ le (x i) (ub i) = true ∧ isFinite (x i) = true := by
  simp only [inBounds, Bool.and_eq_true, decide_eq_true_eq] at h
  obtain ⟨h1, h1'⟩ := LawfulFloat.upper_check _ _ (h.1 i)
  obtain ⟨h2, h2'⟩ := LawfulFloat.lower_check _ _ (h.2 i)
  refine ⟨h2, h1, ?_⟩
  by_contra hf
  rcases LawfulFloat.nonfinite_cases (x i) (LawfulFloat.le_self_left _ _ h1) (by simpa using hf) with h | h
  · exact h1' h
  · exact h2' h

theorem lt_of_lt_of_le' {a b c : F} (h1 : lt a b = true) (h2 : le b c = true) : lt a c = true := by
  rw [LawfulFloat.lt_iff] at h1 ⊢
  refine ⟨LawfulFloat.le_trans _ _ _ h1.1 h2, ?_⟩
  by_contra hc
  have := LawfulFloat.le_trans _ _ _ h2 (by simpa using hc)
  simp [h1.2] at this

theorem lt_of_le_of_lt' {a b c : F} (h1 : le a b = true) (h2 : lt b c = true) : lt a c = true := by
  rw [LawfulFloat.lt_iff] at h2 ⊢
  refine ⟨LawfulFloat.le_trans _ _ _ h1 h2.1, ?_⟩
  by_contra hc
  have := LawfulFloat.le_trans _ _ _ (by simpa using hc) h1
  simp [h2.2] at this

theorem le_of_lt' {a b : F} (h : lt a b = true) : le a b = true := ((LawfulFloat.lt_iff a b).mp h).1

theorem le_of_not_lt' {a b : F} (ha : le a a = true) (hb : le b b = true) (h : lt a b = false) : le b a = true := by
  rcases LawfulFloat.le_total a b ha hb with h' | h'
  · by_contra hc
    have := (LawfulFloat.lt_iff a b).mpr ⟨h', by simpa using hc⟩
    simp [h] at this
  · exact h'

omit [LawfulFloat F] in
theorem isNaN_iff (a : F) : isNaN a = true ↔ le a a = false := by simp [isNaN]

theorem not_lt_nan {a b : F} (h : isNaN b = true) : lt a b = false := by
  by_contra hc
  have := LawfulFloat.le_self_right _ _ (le_of_lt' (by simpa using hc : lt a b = true))
  rw [isNaN_iff] at h
  simp [h] at this

/-- a trial value accepted by the ratio test is smaller than the current value -/
theorem ratio_pos (fval : F) (fo : Funout F n) (step : Step F n) (dv : Vec F n) (hdv : ∀ i, dv i = lit 1 ∨ dv i = lit 0)
    (hg : ∀ i, isFinite (fo.grad i) = true) (h : lt (lit 0) (ratioOf fval fo step dv) = true) : lt fo.fval fval = true := by
  unfold ratioOf at h
  split at h
  · have := (LawfulFloat.lt_iff _ _).mp h
    simp [LawfulFloat.lit_self] at this
  · rename_i hp
    generalize hA : lit (1 / 2) * dot (vadd step.ss step.ss0)
      (fun i => dv i * FloatOps.abs (fo.grad i) * vadd step.ss step.ss0 i) = aug at h
    have hpnan : isNaN (-step.qpval) = false := by
      by_contra hc
      have := not_lt_nan (a := (lit 0 : F)) (LawfulFloat.nan_div_right (fval - fo.fval - aug) _ (by simpa using hc))
      rw [h] at this; simp at this
    have hpself : le (-step.qpval) (-step.qpval) = true := by simpa [isNaN] using hpnan
    have hppos : lt (lit 0) (-step.qpval) = true := by
      rw [LawfulFloat.lt_iff]
      refine ⟨?_, by simpa using hp⟩
      rcases LawfulFloat.le_total (lit 0) (-step.qpval) (LawfulFloat.lit_self 0) hpself with h' | h'
      · exact h'
      · exact absurd h' hp
    have h1 := LawfulFloat.div_pos _ _ hppos h
    have h2 := LawfulFloat.sub_pos _ _ h1
    have haug : le (lit 0) aug = true ∨ isNaN aug = true := by
      rw [← hA]
      have hhalf : le (lit 0 : F) (lit (1 / 2)) = true := LawfulFloat.lit_mono _ _ (by norm_num)
      have hd : le (lit 0) (dot (vadd step.ss step.ss0) (fun i => dv i * FloatOps.abs (fo.grad i) * vadd step.ss step.ss0 i)) = true ∨
          isNaN (dot (vadd step.ss step.ss0) (fun i => dv i * FloatOps.abs (fo.grad i) * vadd step.ss step.ss0 i)) = true := by
        unfold dot
        apply LawfulFloat.sum_nonneg
        intro a ha
        rw [List.mem_ofFn] at ha
        obtain ⟨i, rfl⟩ := ha
        simp only
        have habs := LawfulFloat.abs_nonneg _ (LawfulFloat.finite_self _ (hg i))
        have hdvn : le (lit 0) (dv i) = true := by
          rcases hdv i with h | h <;> rw [h] <;> exact LawfulFloat.lit_mono _ _ (by norm_num)
        rcases LawfulFloat.mul_nonneg _ _ hdvn habs with hc | hc
        · exact LawfulFloat.mul_square_nonneg _ _ hc
        · right
          exact LawfulFloat.nan_mul_right _ _ (LawfulFloat.nan_mul_left _ _ hc)
      rcases hd with hd | hd
      · exact LawfulFloat.mul_nonneg _ _ hhalf hd
      · right; exact LawfulFloat.nan_mul_right _ _ hd
    rcases haug with haug | haug
    · exact LawfulFloat.sub_pos _ _ (lt_of_le_of_lt' haug h2)
    · have h3 := LawfulFloat.nan_sub_right (fval - fo.fval) aug haug
      have := not_lt_nan (a := (lit 0 : F)) h3
      rw [h1] at this; simp at this

omit [LawfulFloat F] in
theorem affineDv_cases (lb ub grad : Vec F n) (i : Fin n) : affineDv lb ub grad i = lit 1 ∨ affineDv lb ub grad i = lit 0 := by
  unfold affineDv
  simp only
  generalize (if lt (grad i) (lit 0) = true then ub i else lb i) = b
  split
  · exact Or.inl rfl
  · exact Or.inr rfl

/-- an accepted trial point has a finite value below the current one -/
theorem accepted_lt (E : Env F n) (st : St F n) (step : Step F n) (new : Funout F n)
    (h : (radiusStep E st step new).1 = true) (hfin : isFinite new.fval = true → allFinite new.fval new.grad new.hess = true) :
    lt new.fval st.fval = true ∧ allFinite new.fval new.grad new.hess = true ∧
      lt (lit 0) (radiusStep E st step new).2.trRatio = true := by
  have key : ∀ (r : F), isFinite new.fval = true → r = ratioOf (afterEval st step (.ok new)).fval new step (trInput E (preIter st)).dv →
      lt (lit 0) r = true → lt new.fval st.fval = true := by
    intro r hf hr hlt
    rw [hr] at hlt
    exact ratio_pos _ _ _ _ (affineDv_cases _ _ _) (((allFinite_iff _ _ _).mp (hfin hf)).2.1) hlt
  rcases updateTrRadius_cases E new step (trInput E (preIter st)).dv (afterEval st step (.ok new)) with
    ⟨_, h'⟩ | ⟨hf, r, hr, ⟨_, _, h'⟩ | ⟨_, _, h'⟩ | ⟨_, _, m, h'⟩⟩
  all_goals
    unfold radiusStep at h ⊢
    rw [h'] at h ⊢
    simp only at h ⊢
  · simp at h
  · exact ⟨key r hf hr h, hfin hf, h⟩
  · exact ⟨key r hf hr h, hfin hf, h⟩
  · exact ⟨key r hf hr h, hfin hf, h⟩

/-! ### minimum tracking -/

/-- `x_min`, `fval_min`, `grad_min` are those of the first best evaluation, `x_min` possibly nudged -/
structure MinInv (E : Env F n) (st : St F n) (l : List (EvalRec F n)) (b : Funout F n) : Prop where
  best : FirstBest l b
  fval : st.fvalMin = b.fval
  grad : st.gradMin = b.grad
  id : st.xMinId = b.xId
  x : st.xMin = b.x ∨ (inBounds E.lb E.ub b.x = true ∧ st.xMin = nudge E.lb E.ub b.x)
  idLt : st.xMinId < st.nextId

theorem firstBest_le (l : List (EvalRec F n)) (b : Funout F n) (h : FirstBest l b) (r : EvalRec F n) (hr : r ∈ l)
    (fo : Funout F n) (ho : r.out = .ok fo) (hf : isFinite fo.fval = true) : le b.fval fo.fval = true := by
  obtain ⟨later, earlier, rfl, hb, h1, h2⟩ := h
  rcases List.mem_append.mp hr with hr | hr
  · exact h1 r hr fo ho hf
  · rcases List.mem_cons.mp hr with rfl | hr
    · cases ho; exact LawfulFloat.finite_self _ hb
    · exact le_of_lt' (h2 r hr fo ho hf)

theorem firstBest_cons (l : List (EvalRec F n)) (b new : Funout F n) (h : FirstBest l b) :
    FirstBest ({ arg := new.x, out := .ok new } :: l)
      (if isFinite new.fval && lt new.fval b.fval then new else b) := by
  have hle := firstBest_le l b h
  by_cases hc : (isFinite new.fval && lt new.fval b.fval) = true
  · rw [if_pos hc]
    rw [Bool.and_eq_true] at hc
    refine ⟨[], l, rfl, hc.1, by simp, ?_⟩
    intro r hr fo ho hf
    exact lt_of_lt_of_le' hc.2 (hle r hr fo ho hf)
  · rw [if_neg hc]
    obtain ⟨later, earlier, rfl, hb, h1, h2⟩ := h
    refine ⟨_ :: later, earlier, rfl, hb, ?_, h2⟩
    intro r hr fo ho hf
    rcases List.mem_cons.mp hr with rfl | hr
    · cases ho
      have hlt : lt new.fval b.fval = false := by
        cases hlt : lt new.fval b.fval with
        | false => rfl
        | true => simp [hf, hlt] at hc
      exact le_of_not_lt' (LawfulFloat.finite_self _ hf) (LawfulFloat.finite_self _ hb) hlt
    · exact h1 r hr fo ho hf

/-- the invariant of the loop head -/
structure HeadInv (E : Env F n) (x0 : Vec F n) (startId : String) (st0 : St F n) (k : ℕ) (st : St F n) (cur : Funout F n) :
    Prop where
  evals : ∃ l fo0, st.evals = l ++ { arg := nudge E.lb E.ub x0, out := .ok fo0 } :: st0.evals ∧ l.length = k ∧
    fo0.x = nudge E.lb E.ub x0 ∧ allFinite fo0.fval fo0.grad fo0.hess = true ∧ (∀ r ∈ l, ∃ fo, r.out = .ok fo ∧ fo.x = r.arg) ∧
    ({ arg := cur.x, out := .ok cur } : EvalRec F n) ∈ l ++ [{ arg := nudge E.lb E.ub x0, out := .ok fo0 }] ∧
    (cur = fo0 ∨ lt cur.fval fo0.fval = true) ∧ ∃ b, MinInv E st (l ++ [{ arg := nudge E.lb E.ub x0, out := .ok fo0 }]) b
  iteration : st.iteration = k
  startId_eq : st.startId = startId
  file : st.file = st0.file
  starttime : st.starttime = E.clock st0.ticks
  bounds : inBounds E.lb E.ub cur.x = true
  finite : allFinite cur.fval cur.grad cur.hess = true
  fval : st.fval = cur.fval
  grad : st.grad = cur.grad
  x : (k = 0 ∧ st.x = cur.x) ∨ st.x = cur.x ∨ st.x = nudge E.lb E.ub cur.x
  xId : st.xId = cur.xId
  idLt : st.xId < st.nextId
  happ : st.happ = none ↔ st0.happ = none
  hess : st.happ = none → cur.hess = some st.hess
  hessApp : ∀ h, st.happ = some h → st.hess = h.getMat

theorem setupState_min (st : St F n) (fo : Funout F n) (happ : Option (Happ F n)) (hf : isFinite fo.fval = true)
    (hm : st.fvalMin = FloatOps.inf) :
    setupState st fo happ = { logStart st (.ok fo) with
      fval := fo.fval, grad := fo.grad, happ := happ,
      hess := (match happ with | some h => h.getMat | none => fo.hess.getD mzero),
      xMin := fo.x, xMinId := fo.xId, fvalMin := fo.fval, gradMin := fo.grad } := by
  unfold setupState trackMinimum
  rw [if_pos]
  · cases happ <;> rfl
  have : (logStart st (.ok fo)).fvalMin = FloatOps.inf := hm
  simp only [this, hf, LawfulFloat.finite_lt_inf _ hf, Bool.and_self]

theorem trackMinimum_eq (fo : Funout F n) (st : St F n) (b : Funout F n) (hb : st.fvalMin = b.fval) :
    trackMinimum fo st = if (isFinite fo.fval && lt fo.fval b.fval) then
      { st with xMin := fo.x, xMinId := fo.xId, fvalMin := fo.fval, gradMin := fo.grad } else st := by
  unfold trackMinimum; rw [hb]

section
variable (E : Env F n) (x0 : Vec F n) (startId : String) (hess0 : Hess0 F) (st0 : St F n)

omit [LawfulFloat F] in
theorem initialHapp_none (happ happ' : Option (Happ F n)) (hess0 : Hess0 F) (raw : RawOut F)
    (h : initialHapp happ hess0 raw = .ok happ') : happ' = none ↔ happ = none := by
  unfold initialHapp at h
  split at h
  · split at h
    · cases h
    · cases h; simp
  · split at h
    · cases h
    · cases h; simp

omit [LawfulFloat F] in
theorem typed_hess (raw : RawOut F) (x : Vec F n) (k : ℕ) (fo : Funout F n) (h : raw.typed x k = some fo)
    (hn : fo.hess = none) : raw.hess = .none := by
  unfold RawOut.typed at h
  split at h
  · split at h
    · rename_i h'; exact h'
    · split at h
      · cases h; simp at hn
      · cases h
  · cases h

theorem headInv (k : ℕ) (st : St F n) (cur : Funout F n) (h : LoopHead E x0 startId hess0 st0 k st cur) :
    HeadInv E x0 startId st0 k st cur := by
  induction h with
  | start st1 st cur hb hs =>
    obtain ⟨rfl, hbd⟩ := checkInBounds_ok _ _ _ _ hb
    obtain ⟨raw, happ, hraw, hhapp, hdim, hty, hx, hxi, hfin, hst⟩ := setup_ok E hess0 _ st cur hs
    have hf := ((allFinite_iff _ _ _).mp hfin).1
    rw [setupState_min _ _ _ hf rfl] at hst
    have hx' : cur.x = nudge E.lb E.ub x0 := hx
    subst hst
    refine
      { evals := ⟨[], cur, ?_, rfl, hx', hfin, by simp, by simp [hx'], Or.inl rfl, cur, ?_⟩
        iteration := rfl, startId_eq := rfl, file := rfl, starttime := rfl, bounds := ?_, finite := hfin, fval := rfl, grad := rfl
        x := Or.inl ⟨rfl, hx.symm⟩, xId := hxi.symm, idLt := ?_, happ := initialHapp_none _ _ _ _ hhapp, hess := ?_, hessApp := ?_ }
    · show _ :: _ = _
      simp only [List.nil_append]
      rfl
    · refine ⟨⟨[], [], ?_, hf, by simp, by simp⟩, rfl, rfl, rfl, Or.inl rfl, ?_⟩
      · simp [hx']
      · show cur.xId < _
        rw [hxi]
        simp [startState, makeNonDegenerate, logStart]
    · rw [hx]; exact hbd
    · simp [startState, makeNonDegenerate, logStart]
    · intro hn
      simp only at hn
      subst hn
      cases hch : cur.hess with
      | none =>
        have hrn := typed_hess _ _ _ _ hty hch
        have : st0.happ = none := (initialHapp_none _ _ _ _ hhapp).mp rfl
        simp [initialHapp, startState, makeNonDegenerate, reset, this, hrn] at hhapp
      | some m => simp
    · intro g hg
      simp only at hg
      subst hg
      rfl
  | next k st st1 st2 cur cur2 hh hc hi ih =>
    obtain ⟨rfl, hconv, hmax, htime, hdelta⟩ := checkContinue_true E st st1 hc
    obtain ⟨step, new, hist, hfin0, htr, hout, hnx, hnxi, hfin, hcase⟩ := iterate_ok E _ st2 cur cur2 hi
    obtain ⟨l, fo0, hl, hlen, hfo0, hfofin, hall, hmem, hlt0, b, hmin⟩ := ih.evals
    have hpost : ∃ b', MinInv E (postCheck E { st with ticks := st.ticks + 1 } step new)
        (({ arg := new.x, out := .ok new } :: l) ++ [{ arg := nudge E.lb E.ub x0, out := .ok fo0 }]) b' ∧
        ((postCheck E { st with ticks := st.ticks + 1 } step new).xMinId = new.xId →
          b' = new ∧ (postCheck E { st with ticks := st.ticks + 1 } step new).xMin = new.x) ∧ b'.xId ≤ new.xId := by
      obtain ⟨r, d, i, m, h1⟩ := updateTrRadius_frame E new step (trInput E (preIter { st with ticks := st.ticks + 1 })).dv
        (afterEval { st with ticks := st.ticks + 1 } step (.ok new))
      obtain ⟨ef, c, h2⟩ := checkConvergence_frame E step new (radiusStep E { st with ticks := st.ticks + 1 } step new).2
      unfold postCheck
      rw [h2]
      unfold radiusStep
      rw [h1]
      rw [trackMinimum_eq _ _ b (by exact hmin.fval)]
      have hlt : b.xId < new.xId := by
        rw [← hmin.id, hnxi]; exact hmin.idLt
      refine ⟨if isFinite new.fval && lt new.fval b.fval then new else b, ?_, ?_, ?_⟩
      · have hb := firstBest_cons _ _ new hmin.best
        by_cases hcnd : (isFinite new.fval && lt new.fval b.fval) = true
        · simp only [if_pos hcnd] at hb ⊢
          refine ⟨hb, rfl, rfl, rfl, Or.inl rfl, ?_⟩
          show new.xId < st.nextId + 1
          rw [hnxi]; exact Nat.lt_succ_self _
        · simp only [if_neg hcnd] at hb ⊢
          exact ⟨hb, hmin.fval, hmin.grad, hmin.id, hmin.x, Nat.lt_succ_of_lt hmin.idLt⟩
      · by_cases hcnd : (isFinite new.fval && lt new.fval b.fval) = true
        · simp only [if_pos hcnd]
          simp
        · simp only [if_neg hcnd]
          intro heq
          exfalso
          have : st.xMinId = new.xId := heq
          rw [hmin.id] at this
          omega
      · split
        · exact le_refl _
        · exact hlt.le
    obtain ⟨b', hmin', hids, hle⟩ := hpost
    obtain ⟨r, d, i, m, ef, c, mx, mxi, mf, mg, hpf⟩ := postCheck_frame E { st with ticks := st.ticks + 1 } step new
    have hevals : (postCheck E { st with ticks := st.ticks + 1 } step new).evals =
        ({ arg := new.x, out := .ok new } :: l) ++ { arg := nudge E.lb E.ub x0, out := .ok fo0 } :: st0.evals := by
      rw [hpf]
      show _ :: st.evals = _
      rw [hl, hnx]; rfl
    have hall' : ∀ r ∈ ({ arg := new.x, out := .ok new } :: l : List (EvalRec F n)), ∃ fo, r.out = .ok fo ∧ fo.x = r.arg := by
      intro r hr
      rcases List.mem_cons.mp hr with rfl | hr
      · exact ⟨new, rfl, rfl⟩
      · exact hall r hr
    rcases hcase with ⟨hacc, rfl, st4, hu, -, rfl⟩ | ⟨hacc, rfl, -, rfl⟩
    · obtain ⟨hlt, hallf, _⟩ := accepted_lt E _ step _ hacc hfin
      obtain ⟨hbd, happ, hess, hhap, rfl⟩ := update_ok E step _ cur _ st4 hu
      refine
        { evals := ⟨_ :: l, fo0, hevals, by simp [hlen], hfo0, hfofin, hall', by simp, Or.inr ?_, b', ?_⟩
          iteration := ?_, startId_eq := ?_, file := ?_, starttime := ?_, bounds := hbd, finite := hallf, fval := rfl, grad := rfl
          x := Or.inr (Or.inr rfl), xId := rfl, idLt := ?_, happ := ?_, hess := ?_, hessApp := ?_ }
      · have h0 : lt cur2.fval cur.fval = true := by rw [← ih.fval]; exact hlt
        rcases hlt0 with rfl | h1
        · exact h0
        · exact lt_of_lt_of_le' h0 (le_of_lt' h1)
      · refine ⟨hmin'.best, hmin'.fval, hmin'.grad, hmin'.id, ?_, hmin'.idLt⟩
        simp only [makeNonDegenerate]
        split
        · rename_i heq
          obtain ⟨hb', hxm⟩ := hids heq
          right; rw [hb']; exact ⟨hbd, rfl⟩
        · exact hmin'.x
      · show (postCheck E _ step cur2).iteration = _
        rw [hpf]; show st.iteration + 1 = _; rw [ih.iteration]
      · show (postCheck E _ step cur2).startId = _
        rw [hpf]; exact ih.startId_eq
      · show (postCheck E _ step cur2).file = _
        rw [hpf]; exact ih.file
      · show (postCheck E _ step cur2).starttime = _
        rw [hpf]; exact ih.starttime
      · show cur2.xId < (postCheck E _ step cur2).nextId
        rw [hpf, hnxi]; exact Nat.lt_succ_self _
      · show happ = none ↔ _
        have hp : (postCheck E { st with ticks := st.ticks + 1 } step cur2).happ = st.happ := by rw [hpf]; rfl
        rw [hp] at hhap
        rcases hhap with ⟨g, g', hg, _, rfl, _⟩ | ⟨hg, rfl, _⟩
        · have := ih.happ
          rw [hg] at this
          simpa using this
        · simpa [hg] using ih.happ
      · intro hn
        have hn' : happ = none := hn
        rcases hhap with ⟨g, g', _, _, rfl, _⟩ | ⟨_, _, hh⟩
        · cases hn'
        · exact hh
      · intro g hg
        have hg' : happ = some g := hg
        rcases hhap with ⟨_, g', _, _, rfl, hm⟩ | ⟨_, rfl, _⟩
        · cases hg'; exact hm
        · cases hg'
    · refine
        { evals := ⟨_ :: l, fo0, hevals, by simp [hlen], hfo0, hfofin, hall', by simp only [List.cons_append, List.mem_cons]; exact Or.inr hmem,
            hlt0, b', ?_⟩
          iteration := ?_, startId_eq := ?_, file := ?_, starttime := ?_, bounds := ih.bounds, finite := ih.finite
          fval := ?_, grad := ?_, x := ?_, xId := ?_, idLt := ?_, happ := ?_, hess := ?_, hessApp := ?_ }
      · exact ⟨hmin'.best, hmin'.fval, hmin'.grad, hmin'.id, hmin'.x, hmin'.idLt⟩
      all_goals simp only [hpf]
      · show st.iteration + 1 = _; rw [ih.iteration]
      · exact ih.startId_eq
      · exact ih.file
      · exact ih.starttime
      · exact ih.fval
      · exact ih.grad
      · rcases ih.x with h | h | h
        · exact Or.inr (Or.inl h.2)
        · exact Or.inr (Or.inl h)
        · exact Or.inr (Or.inr h)
      · exact ih.xId
      · exact Nat.lt_succ_of_lt ih.idLt
      · exact ih.happ
      · exact ih.hess
      · exact ih.hessApp
end

end Fides
