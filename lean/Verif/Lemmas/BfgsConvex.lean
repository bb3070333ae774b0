import Verif.Lemmas.Growth
import Verif.Props.RunUpdate

/-! Helper lemmas: BFGS approximations of a convex function grow at most linearly. -/

namespace Fides
open Num Spec
variable {n : ℕ}

/-- differences of gradients of a convex function with Lipschitz gradient -/
theorem cocoercive {L : ℝ} {f : (Fin n → ℝ) → ℝ} {g : (Fin n → ℝ) → Fin n → ℝ} (hL0 : 0 < L) (hL : SmoothWith L f g) (hc : AboveTangents f g) (x y : Fin n → ℝ) :
    rdot (g y - g x) (g y - g x) ≤ L * rdot (g y - g x) (y - x) := by
  have half : ∀ x y : Fin n → ℝ, rdot (g y - g x) (g y - g x) ≤ 2 * L * (f y - f x - rdot (g x) (y - x)) := by
    intro x y
    set d := g y - g x with hd
    have h1 := hc x (y + (-(1 / L)) • d)
    have h2 := smooth_upper hL y ((-(1 / L)) • d)
    have e1 : y + (-(1 / L)) • d - x = (y - x) + (-(1 / L)) • d := by abel
    rw [e1, rdot_add, rdot_smul] at h1
    rw [rdot_smul, smul_rdot, rdot_smul] at h2
    have e2 : rdot d d = rdot (g y) d - rdot (g x) d := by rw [← sub_rdot]
    have h3 : f x + rdot (g x) (y - x) + -(1 / L) * rdot (g x) d ≤ f y + -(1 / L) * rdot (g y) d + L / 2 * (-(1 / L) * (-(1 / L) * rdot d d)) := by linarith
    have e3 : L / 2 * (-(1 / L) * (-(1 / L) * rdot d d)) = 1 / (2 * L) * rdot d d := by field_simp
    have e4 : 1 / L * rdot d d = 1 / (2 * L) * rdot d d + 1 / (2 * L) * rdot d d := by field_simp; ring
    have h4 : 1 / (2 * L) * rdot d d ≤ f y - f x - rdot (g x) (y - x) := by
      rw [e3] at h3
      have : 1 / L * rdot d d = 1 / L * rdot (g y) d - 1 / L * rdot (g x) d := by rw [e2]; ring
      linarith
    have h5 : rdot d d = 2 * L * (1 / (2 * L) * rdot d d) := by field_simp
    rw [h5]
    exact mul_le_mul_of_nonneg_left h4 (by linarith)
  have h1 := half x y
  have h2 := half y x
  have e1 : rdot (g x - g y) (g x - g y) = rdot (g y - g x) (g y - g x) := by
    rw [← neg_sub (g y) (g x), neg_rdot, rdot_neg, neg_neg]
  have e2 : rdot (g y) (x - y) = -rdot (g y) (y - x) := by rw [← neg_sub y x, rdot_neg]
  rw [e1, e2] at h2
  rw [sub_rdot (g y) (g x) (y - x)]
  have : 0 < L := hL0
  nlinarith

/-- a point with a short gradient is nearly minimal -/
theorem near_minimal {f : (Fin n → ℝ) → ℝ} {g : (Fin n → ℝ) → Fin n → ℝ} (hc : AboveTangents f g) {x : Fin n → ℝ} {eps : ℝ} (hg : rnorm (g x) ≤ eps) (y : Fin n → ℝ) :
    f x ≤ f y + eps * rnorm (x - y) := by
  have h1 := hc x y
  have h2 := cauchy_schwarz (g x) (x - y)
  have h3 : rnorm (g x) * rnorm (x - y) ≤ eps * rnorm (x - y) := mul_le_mul_of_nonneg_right hg (rnorm_nonneg _)
  have h4 : rdot (g x) (x - y) = -rdot (g x) (y - x) := by rw [← neg_sub y x, rdot_neg]
  linarith

/-- one BFGS update raises the bound by at most `L` if the difference of gradients comes from a convex function -/
theorem bfgs_bound {L M : ℝ} (hL : 0 ≤ L) (a : IterApprox Num n) (ha : a.scheme = .broyden (fin 0) true) {B : Fin n → Fin n → ℝ} (hB : a.hess = ofM B) (hS : Sym B) (hpd : PD B)
    (hM : ∀ v, rdot v (rmv B v) ≤ M * rdot v v) (s y : Fin n → ℝ) (hy : rdot y y ≤ L * rdot y s) :
    ∃ C, (a.update (ofV s) (ofV y)).hess = ofM C ∧ Sym C ∧ PD C ∧ ∀ v, rdot v (rmv C v) ≤ (M + L) * rdot v v := by
  rcases le_or_gt (rdot y s) 0 with hb | hb
  · refine ⟨B, ?_, hS, hpd, fun v => (hM v).trans (mul_le_mul_of_nonneg_right (by linarith) (rdot_self_nonneg v))⟩
    simp only [IterApprox.update, ha, IterApprox.computeUpdate, hB, broyden_skip y s _ _ hb, madd_ofM, add_zero]
  · have hs0 : s ≠ 0 := by rintro rfl; rw [rdot_zero] at hb; exact lt_irrefl _ hb
    have hcc : 0 < rdot (rmv B s) s := by rw [rdot_comm]; exact hpd s hs0
    refine ⟨B + rbroyden y s B 0, ?_, Num.Sym.add hS (rbroyden_sym y s B 0), rbroyden_PD y s B 0 le_rfl hS hpd hb, fun v => ?_⟩
    · simp only [IterApprox.update, ha, IterApprox.computeUpdate, hB, broyden_fin y s B 0 true hb.ne' hcc.ne' (fun _ => hb), madd_ofM]
    · rw [add_rmv, rdot_add, quad_rbroyden]
      have h1 := hM v
      have h2 : 0 ≤ rdot (rmv B s) v ^ 2 / rdot (rmv B s) s := by positivity
      have h3 : rdot y v ^ 2 / rdot y s ≤ L * rdot v v := by
        rw [div_le_iff₀ hb]
        have h4 := cauchy_schwarz_sq y v
        have h5 := mul_le_mul_of_nonneg_right hy (rdot_self_nonneg v)
        nlinarith
      have e : (0 : ℝ) * rdot (rmv B s) s * (rdot y v / rdot y s - rdot (rmv B s) v / rdot (rmv B s) s) ^ 2 = 0 := by ring
      rw [e]
      linarith

variable {E : Env Num n} {f : (Fin n → ℝ) → ℝ} {g : (Fin n → ℝ) → Fin n → ℝ}

theorem Spec.ReturnsGrad.evaluates (h : ReturnsGrad E f g) : Evaluates E f g := by
  intro k x xId raw fo h1 h2
  rw [h.nargout, h.resfun, h.obj] at h1
  have hr : raw = { fval := .scalar (fin (f x)), grad := .ofVec (ofV (g x)), hess := .none, res := .none, sres := .none } := (Except.ok.inj h1).symm
  rw [hr] at h2
  simp only [RawOut.typed, toVec_ofVec] at h2
  have := Option.some.inj h2
  rw [← this]
  exact ⟨rfl, rfl⟩

/-- the approximation at the head of iteration `k` -/
theorem bfgs_growth (hU : NoBounds E.lb E.ub) (hev : Evaluates E f g) {L m0 : ℝ} (hL0 : 0 < L) (hL : SmoothWith L f g) (hc : AboveTangents f g) (x0 : Fin n → ℝ) (startId : String) (hess0 : Hess0 Num)
    (st0 : St Num n) (a0 : IterApprox Num n) (hg : st0.happ = some (.iter a0)) (hsch : a0.scheme = .broyden (fin 0) true)
    (h0 : hess0 = .val .none ∧ 1 ≤ m0 ∨ ∃ B : Fin n → Fin n → ℝ, hess0 = .val (.ofMat (ofM B)) ∧ Sym B ∧ PD B ∧ ∀ v, rdot v (rmv B v) ≤ m0 * rdot v v)
    (k : ℕ) (st : St Num n) (cur : Funout Num n) (h : LoopHead E (ofV x0) startId hess0 st0 k st cur) :
    ∃ B, st.hess = ofM B ∧ Sym B ∧ PD B ∧ ∀ v, rdot v (rmv B v) ≤ (m0 + L * k) * rdot v v := by
  have h0' : hess0 = .val .none ∨ ∃ m : Mat Num n n, hess0 = .val (.ofMat m) ∧ FinSPD m := by
    rcases h0 with ⟨h, _⟩ | ⟨B, h, hS, hp, _⟩
    · exact Or.inl h
    · exact Or.inr ⟨_, h, B, rfl, hS, hp⟩
  induction k generalizing st cur with
  | zero =>
    have h41 := (C41_run E _ startId hess0 st0 st cur h).2 _ hg
    rcases h0 with ⟨h, hm⟩ | ⟨B, h, hS, hp, hM⟩
    · refine ⟨idM, by rw [h41.1 h, meye_ofM]; rfl, Sym_idM, PD_idM, fun v => ?_⟩
      rw [idM_rmv]
      have := rdot_self_nonneg v
      simp only [Nat.cast_zero, mul_zero, add_zero]
      nlinarith
    · exact ⟨B, h41.2.1 _ h, hS, hp, by simpa using hM⟩
  | succ k ih =>
    obtain ⟨prev, cur0, step, new, hh, hp⟩ := loopHead_pass E _ startId hess0 st0 k st cur h
    obtain ⟨B, hB, hS, hpd, hM⟩ := ih prev cur0 hh
    obtain ⟨-, a, iha, ihs⟩ := C56_positive_definite E _ startId hess0 st0 a0 hg 0 le_rfl hsch h0' k prev cur0 hh
    have hf := pass_facts E _ _ _ _ _ _ hp
    have hk : (m0 + L * (((k + 1 : ℕ) : ℝ))) = m0 + L * k + L := by push_cast; ring
    rw [hk]
    rcases hf.cases with ⟨hacc, h1, _, _, h2, h3⟩ | ⟨_, _, _, _, _, h5, h6⟩
    · obtain ⟨hlt, _⟩ := accepted_lt E prev step new hacc hf.finite1
      have hlt' : lt st.fval prev.fval = true := by rw [h2]; exact hlt
      obtain ⟨x, s, gc, gn, hx, hs, hxn, hgc, hgn⟩ := accepted_finite E _ startId hess0 st0 k prev st cur0 cur new step hh hp hacc
      obtain ⟨g', k1, k2, k3, k4⟩ := C56_update E _ startId hess0 st0 k prev st cur0 cur new step hh hp hlt' _ iha
      have hu := k4.1 a rfl
      rw [hs, hgn, hgc, vsub_ofV] at hu
      -- the gradients are those of `f`
      have hnew : gn = g (x + s) := by
        obtain ⟨m, raw, e1, e2⟩ := pass_evaluated hp
        rw [hxn] at e1 e2
        obtain ⟨-, e4⟩ := hev m (x + s) _ raw new e1 e2
        rw [hgn] at e4
        exact ofV_inj.mp e4
      have hold : gc = g x := by
        have e1 := (head_values hU hev (ofV x0) startId hess0 st0 k prev cur0 hh x hx).2.2
        rw [(headInv E _ startId hess0 st0 k prev cur0 hh).grad, hgc] at e1
        exact ofV_inj.mp e1
      have hco := cocoercive hL0 hL hc x (x + s)
      rw [add_sub_cancel_left, ← hnew, ← hold] at hco
      have haB : a.hess = ofM B := by rw [← hB]; exact k3.symm
      obtain ⟨C, c1, c2, c3, c4⟩ := bfgs_bound hL0.le a ihs haB hS hpd hM s (gn - gc) hco
      exact ⟨C, by rw [k2, hu]; exact c1, c2, c3, c4⟩
    · obtain ⟨hle⟩ : Nonempty (st.hess = ofM B) := ⟨by rw [h5]; exact hB⟩
      exact ⟨B, hle, hS, hpd, fun v => (hM v).trans (mul_le_mul_of_nonneg_right (by linarith) (rdot_self_nonneg v))⟩

end Fides
