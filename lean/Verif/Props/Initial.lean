import Verif.Props.Structured
import Verif.Props.Evaluations
import Verif.Props.Flags

/-!
# The initial Hessian at the start of the loop (C41) and the time budget in real numbers (C19)
-/

set_option linter.unusedSectionVars false

namespace Fides
open Spec
variable {F : Type} [FloatOps F] [LawfulFloat F] {n : ℕ}
variable (E : Env F n) (x0 : Vec F n) (startId : String) (hess0 : Hess0 F) (st0 : St F n)

theorem typed_hess_cases (raw : RawOut F) (x : Vec F n) (k : ℕ) (fo : Funout F n) (h : raw.typed x k = some fo) :
    (raw.hess = .none ∧ fo.hess = none) ∨ (raw.hess ≠ .none ∧ ∃ m, raw.hess.toMat? n n = some m ∧ fo.hess = some m) := by
  unfold RawOut.typed at h
  split at h
  · split at h
    · rename_i hn; cases h; exact Or.inl ⟨hn, rfl⟩
    · rename_i hn
      split at h
      · rename_i m hm
        cases h
        exact Or.inr ⟨fun h => hn h, m, hm, rfl⟩
      · cases h
  · cases h

theorem initHapp_ok (g g' : Happ F n) (v : PyVal F) (h : initHapp g v = .ok g') :
    (v = .none ∧ g' = g.initMat none) ∨ (v ≠ .none ∧ ∃ m, v.toMat? n n = some m ∧ g' = g.initMat (some m)) := by
  unfold initHapp at h
  split at h
  · cases h
  · split at h
    · cases h; exact Or.inl ⟨rfl, rfl⟩
    · rename_i hn
      split at h
      · rename_i m hm
        cases h
        exact Or.inr ⟨fun h => hn h, m, hm, rfl⟩
      · cases h

theorem initialHapp_some (g : Happ F n) (hess0 : Hess0 F) (raw : RawOut F) (happ : Option (Happ F n))
    (h : initialHapp (some g) hess0 raw = .ok happ) :
    ∃ g', happ = some g' ∧ (hess0 = .hessStr → initHapp g raw.hess = .ok g') ∧ ∀ v, hess0 = .val v → initHapp g v = .ok g' := by
  unfold initialHapp at h
  simp only at h
  split at h
  · cases h
  · rename_i g' hg
    cases h
    refine ⟨g', rfl, ?_, ?_⟩
    · rintro rfl; exact hg
    · rintro v rfl; exact hg

theorem initialHapp_noScheme (hess0 : Hess0 F) (raw : RawOut F) (happ : Option (Happ F n))
    (h : initialHapp none hess0 raw = .ok happ) : happ = none ∧ raw.hess ≠ .none := by
  unfold initialHapp at h
  simp only at h
  split at h
  · cases h
  · rename_i hn
    cases h
    exact ⟨rfl, fun h => hn h⟩

/-- C41: at the start of the loop of every run the Hessian used is: without approximation scheme the objective's; with a scheme the identity if
no `hess0` is given, the given matrix if one is given, and the objective's if `hess0 = 'hess'` (the identity if the objective returned
`None` for it). -/
theorem C41_run (st : St F n) (cur : Funout F n) (h : LoopHead E x0 startId hess0 st0 0 st cur) :
    (st0.happ = none → cur.hess = some st.hess) ∧
    (∀ g, st0.happ = some g →
      (hess0 = .val .none → st.hess = meye) ∧
      (∀ m : Mat F n n, hess0 = .val (.ofMat m) → st.hess = m) ∧
      (hess0 = .hessStr → st.hess = cur.hess.getD meye)) := by
  cases h with
  | start s _ _ hb hs =>
    obtain ⟨rfl, _⟩ := checkInBounds_ok _ _ _ _ hb
    obtain ⟨raw, happ, _, h2, _, h4, _, _, _, h8⟩ := setup_ok _ _ _ _ _ hs
    have h2' : initialHapp st0.happ hess0 raw = .ok happ := h2
    have ht := typed_hess_cases raw _ _ cur h4
    constructor
    · intro hnone
      rw [hnone] at h2'
      obtain ⟨rfl, hraw⟩ := initialHapp_noScheme _ _ _ h2'
      obtain ⟨a, b, c, d, hf⟩ := setupState_frame (startState E x0 startId st0) cur none
      have hh : st.hess = cur.hess.getD mzero := by
        rw [h8]
        show (setupState (startState E x0 startId st0) cur none).hess = _
        rw [hf]
      rcases ht with ⟨h, _⟩ | ⟨_, m, _, hm⟩
      · exact absurd h hraw
      · rw [hh, hm]; rfl
    · intro g hg
      rw [hg] at h2'
      obtain ⟨g', rfl, hi1, hi2⟩ := initialHapp_some _ _ _ _ h2'
      obtain ⟨a, b, c, d, hf⟩ := setupState_frame (startState E x0 startId st0) cur (some g')
      have hh : st.hess = g'.getMat := by
        rw [h8]
        show (setupState (startState E x0 startId st0) cur (some g')).hess = _
        rw [hf]
      refine ⟨?_, ?_, ?_⟩
      · intro hv
        have hi' := initHapp_ok _ _ _ (hi2 _ hv)
        rcases hi' with ⟨_, rfl⟩ | ⟨h, _⟩
        · rw [hh]; exact (C41_init g meye).1
        · exact absurd rfl h
      · intro m hv
        have hi' := initHapp_ok _ _ _ (hi2 _ hv)
        rcases hi' with ⟨h, _⟩ | ⟨_, m', h, rfl⟩
        · cases h
        · rw [toMat_ofMat] at h
          cases h
          rw [hh]; exact (C41_init g m).2
      · intro hv
        have hi' := initHapp_ok _ _ _ (hi1 hv)
        rcases hi' with ⟨h, rfl⟩ | ⟨hn, m', h, rfl⟩
        · rcases ht with ⟨_, h'⟩ | ⟨h', _⟩
          · rw [h', hh]; exact (C41_init g meye).1
          · exact absurd h h'
        · rcases ht with ⟨h', _⟩ | ⟨_, m2, h', hm⟩
          · exact absurd h' hn
          · rw [h] at h'; cases h'
            rw [hm, hh]; exact (C41_init g m').2

/-- loop heads exist with and without scheme -/
example : (∃ st cur, LoopHead (demoEnv 1 (Num.fin 0) (Num.fin 0)) (v1 1) "run" .hessStr demoSt0 0 st cur) ∧ demoSt0.happ = none :=
  ⟨demo_head _ _ _, rfl⟩

open Num in
/-- C19 in real numbers: at the start of iteration `k + 1`, the time used so far plus the average time per iteration so far (the time used
so far if `k = 0`) is at most `maxtime`. -/
theorem C19_real {n : ℕ} (E : Env Num n) (x0 : Vec Num n) (startId : String) (hess0 : Hess0 Num) (st0 : St Num n) (T : ℕ → ℝ) (M : ℝ)
    (hT : ∀ k, E.clock k = fin (T k)) (hM : E.opts.maxtime = fin M) (k : ℕ) (prev next : St Num n) (cur cur' new : Funout Num n)
    (step : Step Num n) (hh : LoopHead E x0 startId hess0 st0 k prev cur) (h : Pass E prev cur step new next cur') :
    T prev.ticks - T st0.ticks + (T prev.ticks - T st0.ticks) / (max 1 k : ℕ) ≤ M := by
  have h1 := C19_time E prev next cur cur' new step h
  obtain ⟨h2, h3⟩ := C19_start E x0 startId hess0 st0 k prev cur hh
  have hpos : (0 : ℝ) < ((max 1 k : ℕ) : ℝ) := by exact_mod_cast lt_of_lt_of_le Nat.zero_lt_one (le_max_left 1 k)
  have hne : (((((max 1 k : ℕ) : ℚ)) : ℝ)) ≠ 0 := by
    rw [Rat.cast_natCast]; exact ne_of_gt hpos
  rw [hM, h2, h3, hT, hT] at h1
  simp only [fin_sub, lit_def, fin_div _ _ hne, fin_lt, decide_eq_false_iff_not, not_lt] at h1
  rw [Rat.cast_natCast] at h1
  linarith

end Fides
