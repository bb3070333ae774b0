import Verif.Props.Convergence
import Verif.Lemmas.Demo

/-!
# Property C62: the rate in the iteration bound, and a problem meeting all assumptions
-/

namespace Fides
open Num Spec

variable {n : ℕ}

/-- **C62, rate.** The iteration bound grows at most like `1 / eps ^ 2`. -/
theorem C62_rate (mu g1 g2 D0 L M gap : ℝ) (hmu : 0 < mu) (hmu1 : mu < 1) (hg1 : 0 < g1) (hg11 : g1 < 1) (hg2 : 1 ≤ g2) (hD0 : 0 < D0)
    (hL : 0 ≤ L) (hM : 0 < M) (hgap : 0 ≤ gap) :
    ∃ K : ℝ, ∀ eps, 0 < eps → eps ≤ 1 → (iterBound mu g1 g2 D0 L M gap eps : ℝ) ≤ K / eps ^ 2 := by
  -- constants
  obtain ⟨c, hc⟩ : ∃ c, c = min D0 (min g1 (1 / 4) * min (1 / M) ((1 - mu) / (L + M))) := ⟨_, rfl⟩
  obtain ⟨d, hd⟩ : ∃ d, d = mu * (1 / 2 * min c (1 / M)) := ⟨_, rfl⟩
  have h1mu : 0 < 1 - mu := by linarith
  have hLM : 0 < L + M := by linarith
  have hc0 : 0 < c := by
    rw [hc]
    exact lt_min hD0 (mul_pos (lt_min hg1 (by norm_num)) (lt_min (by positivity) (by positivity)))
  have hd0 : 0 < d := by
    rw [hd]
    exact mul_pos hmu (mul_pos (by norm_num) (lt_min hc0 (by positivity)))
  have hlog1 : 0 < Real.log (1 / g1) := Real.log_pos (by rw [lt_div_iff₀ hg1, one_mul]; exact hg11)
  have hlog2 : 0 ≤ Real.log g2 := Real.log_nonneg hg2
  obtain ⟨A, hA⟩ : ∃ A, A = gap / d + 1 := ⟨_, rfl⟩
  refine ⟨A + ((|Real.log D0| + A * Real.log g2 + |Real.log c| + 1) / Real.log (1 / g1) + 1), ?_⟩
  intro eps he he1
  have hA0 : 0 < A := by rw [hA]; positivity
  have hee : eps ^ 2 ≤ 1 := by nlinarith
  have hep : 0 < eps ^ 2 := by positivity
  have hfloor : c * eps ≤ radiusFloor mu g1 D0 L M eps := by
    unfold radiusFloor
    rw [hc]
    refine le_min ?_ ?_
    · calc _ ≤ D0 * eps := mul_le_mul_of_nonneg_right (min_le_left _ _) he.le
        _ ≤ D0 * 1 := mul_le_mul_of_nonneg_left he1 hD0.le
        _ = D0 := mul_one _
    · calc _ ≤ min g1 (1 / 4) * min (1 / M) ((1 - mu) / (L + M)) * eps := mul_le_mul_of_nonneg_right (min_le_right _ _) he.le
        _ = _ := by
          rw [mul_assoc, min_mul_of_nonneg _ _ he.le]
          congr 2 <;> ring
  have hlo : 0 < radiusFloor mu g1 D0 L M eps := lt_of_lt_of_le (by positivity) hfloor
  have hred : d * eps ^ 2 ≤ stepReduction mu g1 D0 L M eps := by
    unfold stepReduction
    rw [hd]
    have : min c (1 / M) * eps ≤ min (radiusFloor mu g1 D0 L M eps) (eps / M) := by
      rw [min_mul_of_nonneg _ _ he.le]
      exact min_le_min hfloor (by rw [one_div, inv_mul_eq_div])
    calc mu * (1 / 2 * min c (1 / M)) * eps ^ 2 = mu * (eps / 2 * (min c (1 / M) * eps)) := by ring
      _ ≤ _ := mul_le_mul_of_nonneg_left (mul_le_mul_of_nonneg_left this (by positivity)) hmu.le
  have hG : (successBound mu g1 D0 L M gap eps : ℝ) ≤ A / eps ^ 2 := by
    unfold successBound
    push_cast
    have h1 : (⌊gap / stepReduction mu g1 D0 L M eps⌋₊ : ℝ) ≤ gap / stepReduction mu g1 D0 L M eps :=
      Nat.floor_le (div_nonneg hgap (le_trans (by positivity) hred))
    have h2 : gap / stepReduction mu g1 D0 L M eps ≤ gap / (d * eps ^ 2) := div_le_div_of_nonneg_left hgap (by positivity) hred
    have h3 : gap / (d * eps ^ 2) = gap / d / eps ^ 2 := by rw [div_div]
    have h4 : 1 ≤ 1 / eps ^ 2 := by rw [le_div_iff₀ hep]; linarith
    rw [hA, add_div]
    linarith
  unfold iterBound
  simp only
  generalize successBound mu g1 D0 L M gap eps = G at hG
  generalize radiusFloor mu g1 D0 L M eps = lo at *
  have hgp : 0 < g2 ^ G := pow_pos (by linarith) _
  have hl : Real.log (D0 * g2 ^ G / lo) ≤ (|Real.log D0| + A * Real.log g2 + |Real.log c| + 1) / eps ^ 2 := by
    rw [Real.log_div (by positivity) hlo.ne', Real.log_mul hD0.ne' hgp.ne', Real.log_pow]
    have h1 : Real.log (c * eps) ≤ Real.log lo := Real.log_le_log (by positivity) hfloor
    rw [Real.log_mul hc0.ne' he.ne'] at h1
    have h2 : -Real.log eps ≤ 1 / eps ^ 2 := by
      have h3 := Real.log_le_sub_one_of_pos (show 0 < 1 / eps by positivity)
      rw [Real.log_div one_ne_zero he.ne', Real.log_one] at h3
      have h4 : 1 / eps ≤ 1 / eps ^ 2 := by
        apply one_div_le_one_div_of_le hep
        nlinarith
      linarith
    have h5 : (G : ℝ) * Real.log g2 ≤ A / eps ^ 2 * Real.log g2 := mul_le_mul_of_nonneg_right hG hlog2
    have h6 : ∀ a : ℝ, 0 ≤ a → a ≤ a / eps ^ 2 := fun a ha => by
      rw [le_div_iff₀ hep]; nlinarith
    have h7 := h6 _ (abs_nonneg (Real.log D0))
    have h8 := h6 _ (abs_nonneg (Real.log c))
    have h9 := le_abs_self (Real.log D0)
    have h10 := neg_abs_le (Real.log c)
    have h11 : (|Real.log D0| + A * Real.log g2 + |Real.log c| + 1) / eps ^ 2 =
        |Real.log D0| / eps ^ 2 + A / eps ^ 2 * Real.log g2 + |Real.log c| / eps ^ 2 + 1 / eps ^ 2 := by ring
    rw [h11]
    linarith
  have hf : (⌊Real.log (D0 * g2 ^ G / lo) / Real.log (1 / g1)⌋₊ : ℝ) ≤
      (|Real.log D0| + A * Real.log g2 + |Real.log c| + 1) / Real.log (1 / g1) / eps ^ 2 := by
    set q := (|Real.log D0| + A * Real.log g2 + |Real.log c| + 1) / Real.log (1 / g1) / eps ^ 2
    have hq : 0 ≤ q := by
      have := abs_nonneg (Real.log D0); have := abs_nonneg (Real.log c)
      positivity
    have h1 : Real.log (D0 * g2 ^ G / lo) / Real.log (1 / g1) ≤ q := by
      rw [div_le_iff₀ hlog1]
      refine hl.trans (le_of_eq ?_)
      show _ = _ / _ / _ * _
      field_simp
    by_cases h0 : 0 ≤ Real.log (D0 * g2 ^ G / lo) / Real.log (1 / g1)
    · exact (Nat.floor_le h0).trans h1
    · rw [Nat.floor_of_nonpos (by linarith)]; simpa using hq
  push_cast
  rw [add_div, add_div]
  have h4 : 1 ≤ 1 / eps ^ 2 := by rw [le_div_iff₀ hep]; linarith
  linarith

/-! ## A problem that meets the assumptions -/

noncomputable section

/-- half the squared distance to the origin, in any number of dimensions, Steihaug solver, absolute gradient tolerance only -/
def bowlEnv (n : ℕ) (ga : ℝ) (N : ℕ) : Env Num n where
  lb _ := ninf
  ub _ := pinf
  opts := { (resolveOpts [] : Opts Num) with subspaceDim := .steihaug, fatol := fin 0, frtol := fin 0, gatol := fin ga, maxiter := N }
  nargout := 3
  resfun := false
  obj _ x := .tuple [.scalar (lit (1 / 2) * dot x x), .ofVec x, .ofMat (ofM (idM : Fin n → Fin n → ℝ))]
  clock _ := fin 0
  tr _ I := trustRegion zeroOracles n .steihaug .reflect I
  evs _ := .ok (fin 0, fin 0)
  cond _ := .ok (fin 1)

theorem bowl_params (n : ℕ) (ga : ℝ) (N : ℕ) : TRParams (bowlEnv n ga N) (1 / 4) (3 / 4) (1 / 4) 2 1 := by
  constructor <;> try (simp only [bowlEnv, demo_opts])
  all_goals norm_num

theorem bowl_returns (n : ℕ) (ga : ℝ) (N : ℕ) :
    Returns (bowlEnv n ga N) (fun x => 1 / 2 * rdot x x) (fun x => x) (fun _ => idM) where
  nargout := rfl
  resfun := rfl
  obj k x := by
    show Ret.tuple [.scalar (lit (1 / 2) * dot (ofV x) (ofV x)), _, _] = _
    rw [dot_ofV]
    simp

theorem bowl_smooth (n : ℕ) : SmoothWith 1 (fun x : Fin n → ℝ => 1 / 2 * rdot x x) (fun x => x) where
  deriv x s := by
    have h : (fun t : ℝ => 1 / 2 * rdot (x + t • s) (x + t • s)) = fun t => 1 / 2 * rdot x x + t * rdot x s + t ^ 2 * (1 / 2 * rdot s s) := by
      funext t
      simp only [rdot_add, add_rdot, rdot_smul, smul_rdot, rdot_comm s x]
      ring
    rw [h]
    have h1 : HasDerivAt (fun t : ℝ => 1 / 2 * rdot x x + t * rdot x s + t ^ 2 * (1 / 2 * rdot s s)) (0 + 1 * rdot x s + (2 * 0 ^ (2 - 1) * 1) * (1 / 2 * rdot s s)) 0 :=
      (((hasDerivAt_const _ _).add ((hasDerivAt_id _).mul_const _)).add (((hasDerivAt_id _).pow 2).mul_const _))
    simpa using h1
  lipschitz x y := by simp

/-- the assumptions of `C62_gtol` hold for the bowl in any number of dimensions, from any starting point further from the origin than the tolerance -/
example (n : ℕ) (hn : 0 < n) (x0 : Fin n → ℝ) (ga : ℝ) (hga : 1 / 1000000 ≤ ga) (h0 : ga < rnorm x0) :
    let N := iterBound (1 / 4) (1 / 4) 2 1 1 1 (1 / 2 * rdot x0 x0) ga
    ∃ st', minimize (bowlEnv n ga N) N (ofV x0) "0" (.val .none) (St.new (bowlEnv n ga N).opts none) = .ok st' ∧ st'.exitflag = .gtol ∧
      ∃ y fo, st'.evals.head? = some { arg := ofV y, out := .ok fo } ∧ rnorm y ≤ ga := by
  intro N
  refine C62_gtol (bowl_params n ga N) (fun _ => ⟨rfl, rfl⟩) hn (fun _ => zeroOracles) ?_ rfl (fun _ => idM) (bowl_returns n ga N) 1 1 0 (by norm_num) (by norm_num)
    (bowl_smooth n) ?_ ?_ x0 "0" (.val .none) _ rfl (fun _ => ⟨_, rfl⟩) (fun _ => ⟨_, rfl⟩) ?_ ga rfl (by linarith) h0 N ?_ ?_ ?_ (fun _ => ⟨0, rfl⟩) ?_
    rfl rfl ?_ ?_
  · intro k I; simp only [bowlEnv, demo_opts]
  · intro x
    refine ⟨?_, fun v => ?_⟩
    · intro i j; simp [idM, eq_comm]
    · rw [idM_rmv, abs_of_nonneg (rdot_self_nonneg v), one_mul]
  · intro y; have := rdot_self_nonneg y; positivity
  · intro grp h; simp [St.new] at h
  · rw [sub_zero]
  · rw [sub_zero]; exact le_rfl
  · simp only [bowlEnv, demo_opts]
  · unfold radiusFloor
    refine le_min (by norm_num) ?_
    rw [min_self]
    have : (1 / 4 * ga) / 2 ≤ min (ga / 1) ((1 - 1 / 4) * ga / (1 + 1)) := le_min (by linarith) (by linarith)
    linarith
  · simp only [bowlEnv, demo_opts]
  · simp only [bowlEnv, demo_opts]

end

end Fides
