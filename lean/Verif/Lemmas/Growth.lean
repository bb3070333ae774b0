import Verif.Lemmas.Converge
import Verif.Lemmas.SteihaugDecrease
import Verif.Spec.Growth

/-! Helper lemmas: runs whose model Hessians grow linearly. -/

namespace Fides
open Num Spec
variable {n : ℕ}

section
variable {mu g1 g2 D0 L m0 b eps : ℝ}

theorem log_harmonic (hm : 0 < m0) (hb : 0 ≤ b) (k : ℕ) :
    Real.log ((m0 + b * (k + 1)) / (m0 + b)) ≤ b * ∑ j ∈ Finset.range k, 1 / (m0 + b * (j + 1)) := by
  induction k with
  | zero => simp [div_self (by positivity : m0 + b ≠ 0)]
  | succ k ih =>
    have h1 : 0 < m0 + b * ((k : ℝ) + 1) := by positivity
    have h2 : 0 < m0 + b := by positivity
    have h3 : 0 < m0 + b * ((k : ℝ) + 1 + 1) := by positivity
    have e : (m0 + b * (((k + 1 : ℕ) : ℝ) + 1)) / (m0 + b) = (m0 + b * ((k : ℝ) + 1)) / (m0 + b) * ((m0 + b * ((k : ℝ) + 1 + 1)) / (m0 + b * ((k : ℝ) + 1))) := by
      push_cast
      field_simp
    rw [e, Real.log_mul (by positivity) (by positivity), Finset.sum_range_succ, mul_add b (Finset.sum _ _)]
    have h4 := Real.log_le_sub_one_of_pos (div_pos h3 h1)
    have h5 : (m0 + b * ((k : ℝ) + 1 + 1)) / (m0 + b * ((k : ℝ) + 1)) - 1 = b * (1 / (m0 + b * ((k : ℝ) + 1))) := by
      field_simp
      ring
    linarith

/-- what is known after `k` passes with long gradients -/
structure Grown (f : (Fin n → ℝ) → ℝ) (g : (Fin n → ℝ) → Fin n → ℝ) (x0 : Fin n → ℝ) (fmin A la m0 b kap R : ℝ) (k : ℕ) (st : St Num n) (x : Fin n → ℝ) (D : ℝ) : Prop where
  hx : st.x = ofV x
  fval : st.fval = fin (f x)
  grad : st.grad = ofV (g x)
  delta : st.delta = fin D
  lower : kap ≤ D * (m0 + b * k)
  potential : A * (f x - fmin) + (Real.log (D * (m0 + b * k) / kap) + 1) / (m0 + b * k) + la * ∑ j ∈ Finset.range k, 1 / (m0 + b * (j + 1)) ≤ R

/-- one pass: the second part of the potential -/
theorem potential_step {M M' D D' la kap s : ℝ} (hM : 0 < M) (hMM : M ≤ M') (hD : 0 < D) (hD' : 0 < D') (hk : 0 < kap) (hkD : kap ≤ D * M) (hs : Real.log D' ≤ Real.log D + s) :
    (Real.log (D' * M' / kap) + 1) / M' ≤ (Real.log (D * M / kap) + 1) / M + s / M' := by
  have hM' : 0 < M' := hM.trans_le hMM
  have e1 : Real.log (D' * M' / kap) = Real.log D' + Real.log M' - Real.log kap := by rw [Real.log_div (by positivity) hk.ne', Real.log_mul hD'.ne' hM'.ne']
  have e2 : Real.log (D * M / kap) = Real.log D + Real.log M - Real.log kap := by rw [Real.log_div (by positivity) hk.ne', Real.log_mul hD.ne' hM.ne']
  have h1 : 0 ≤ Real.log (D * M / kap) := Real.log_nonneg (by rw [le_div_iff₀ hk]; linarith)
  have h2 : Real.log M' - Real.log M ≤ M' / M - 1 := by
    rw [← Real.log_div hM'.ne' hM.ne']
    exact Real.log_le_sub_one_of_pos (div_pos hM' hM)
  set l := Real.log (D * M / kap) with hl
  have h3 : Real.log (D' * M' / kap) ≤ l + s + (M' / M - 1) := by rw [e1]; linarith
  have h4 : (Real.log (D' * M' / kap) + 1) / M' ≤ (l + s + (M' / M - 1) + 1) / M' := div_le_div_of_nonneg_right (by linarith) hM'.le
  have h5 : (l + s + (M' / M - 1) + 1) / M' = l / M' + 1 / M + s / M' := by field_simp; ring
  have h6 : l / M' ≤ l / M := div_le_div_of_nonneg_left h1 hM hMM
  have h7 : (l + 1) / M = l / M + 1 / M := add_div _ _ _
  linarith

end

variable {E : Env Num n} {f : (Fin n → ℝ) → ℝ} {g : (Fin n → ℝ) → Fin n → ℝ} {mu eta g1 g2 D0 : ℝ}

theorem shrink_floor {L m0 eps M D l pred act kap : ℝ} (hmu : mu < 1) (hg1 : 0 < g1) (hL0 : 0 ≤ L) (hm : 0 < m0) (he : 0 < eps) (hMm : m0 ≤ M) (hl0 : 0 ≤ l) (hD : 0 < D)
    (hkc : kap ≤ min g1 (1 / 4) * (eps * (1 - mu) * m0 / (L + m0))) (hmu0 : 0 < mu)
    (hpred : eps / 2 * min D (eps / M) ≤ pred) (hlen : l ≤ D ∨ eps / M ≤ min D l) (herr : pred - act ≤ (L + M) / 2 * (l * l)) (hfail : act ≤ mu * pred) :
    kap / M ≤ min (g1 * D) (l / 4) := by
  have hMp : 0 < M := hm.trans_le hMm
  have h1mu : 0 < 1 - mu := sub_pos.mpr hmu
  have hC : CountConst mu (eps / 2) (eps / M) (eps / M) ((L + M) / 2) (min (eps / M) (min (eps / M) ((1 - mu) * (eps / 2) / ((L + M) / 2)))) :=
    ⟨by positivity, by positivity, by positivity, by positivity, rfl⟩
  obtain ⟨hc1, hc2⟩ := shrink_long hC hmu hl0 hD hpred hlen herr hfail
  set c0 := eps * (1 - mu) * m0 / (L + m0) with hc0
  have hc0p : 0 < c0 := by positivity
  have hc0e : c0 ≤ eps := by
    rw [hc0, div_le_iff₀ (by positivity)]
    have : (1 - mu) * m0 ≤ L + m0 := by nlinarith
    calc eps * (1 - mu) * m0 = eps * ((1 - mu) * m0) := by ring
      _ ≤ eps * (L + m0) := mul_le_mul_of_nonneg_left this he.le
  have hcc : c0 / M ≤ min (eps / M) (min (eps / M) ((1 - mu) * (eps / 2) / ((L + M) / 2))) := by
    have h1 : c0 / M ≤ eps / M := div_le_div_of_nonneg_right hc0e hMp.le
    refine le_min h1 (le_min h1 ?_)
    rw [hc0, div_div, div_le_div_iff₀ (by positivity) (by positivity)]
    have h2 : m0 * (L + M) ≤ (L + m0) * M := by nlinarith
    have h3 : 0 ≤ eps * (1 - mu) / 2 := by positivity
    calc eps * (1 - mu) * m0 * ((L + M) / 2) = eps * (1 - mu) / 2 * (m0 * (L + M)) := by ring
      _ ≤ eps * (1 - mu) / 2 * ((L + m0) * M) := mul_le_mul_of_nonneg_left h2 h3
      _ = _ := by ring
  have hcl := hcc.trans hc1
  have hcD := hcc.trans hc2
  have h0 : kap / M ≤ min g1 (1 / 4) * (c0 / M) := by
    rw [← mul_div_assoc]; exact div_le_div_of_nonneg_right hkc hMp.le
  refine h0.trans (le_min ?_ ?_)
  · exact mul_le_mul (min_le_left _ _) hcD (by positivity) hg1.le
  · have : min g1 (1 / 4) * (c0 / M) ≤ 1 / 4 * l := mul_le_mul (min_le_right _ _) hcl (by positivity) (by norm_num)
    linarith

theorem growthFloor_pos (hE : TRParams E mu eta g1 g2 D0) {L m0 eps : ℝ} (hL : 0 ≤ L) (hm : 0 < m0) (he : 0 < eps) : 0 < growthFloor mu g1 D0 L m0 eps := by
  have := hE.D0_pos
  have h1 : 0 < 1 - mu := sub_pos.mpr hE.mu_lt
  exact lt_min (by positivity) (mul_pos (lt_min hE.g1_pos (by norm_num)) (by positivity))

theorem run_grown_of (hE : TRParams E mu eta g1 g2 D0) (hU : NoBounds E.lb E.ub) (hev : Evaluates E f g)
    (L m0 b fmin : ℝ) (hL0 : 0 ≤ L) (hm : 0 < m0) (hb : 0 ≤ b) (hL : SmoothWith L f g) (x0 : Fin n → ℝ) (startId : String) (hess0 : Hess0 Num) (st0 : St Num n)
    (eps big : ℝ) (he : 0 < eps) (hdec : ∀ j prev cur step new next cur', LoopHead E (ofV x0) startId hess0 st0 j prev cur → Pass E prev cur step new next cur' →
      ModelDecrease E g (m0 + b * j) (eps / 2) (eps / (m0 + b * j)) (eps / (m0 + b * j)) big prev step)
    (k : ℕ) (st : St Num n) (cur : Funout Num n) (h : LoopHead E (ofV x0) startId hess0 st0 k st cur)
    (hbig : ∀ j < k, ∀ st' cur' x', LoopHead E (ofV x0) startId hess0 st0 j st' cur' → st'.x = ofV x' → big ≤ rnorm (g x')) :
    ∃ x D, Grown f g x0 fmin ((Real.log (1 / g1) + Real.log g2) / (mu * eps * growthFloor mu g1 D0 L m0 eps / 2)) (Real.log (1 / g1)) m0 b (growthFloor mu g1 D0 L m0 eps)
      (growthReserve mu g1 g2 D0 L m0 (f x0 - fmin) eps) k st x D := by
  have hkp : 0 < growthFloor mu g1 D0 L m0 eps := growthFloor_pos hE hL0 hm he
  have hmu := hE.mu_pos
  have hg1 := hE.g1_pos
  have hg2 : 0 < g2 := by linarith [hE.g2_ge]
  have hD0 := hE.D0_pos
  have hla : 0 < Real.log (1 / g1) := Real.log_pos (by rw [lt_div_iff₀ hg1, one_mul]; exact hE.g1_lt)
  have hl2 : 0 ≤ Real.log g2 := Real.log_nonneg hE.g2_ge
  have h1mu : 0 < 1 - mu := sub_pos.mpr hE.mu_lt
  have hlg : Real.log g1 = -Real.log (1 / g1) := by rw [one_div, Real.log_inv, neg_neg]
  obtain ⟨kap, hkap⟩ : ∃ kap, kap = growthFloor mu g1 D0 L m0 eps := ⟨_, rfl⟩
  have hR : growthReserve mu g1 g2 D0 L m0 (f x0 - fmin) eps = (Real.log (1 / g1) + Real.log g2) / (mu * eps * kap / 2) * (f x0 - fmin) + (Real.log (D0 * m0 / kap) + 1) / m0 := by
    rw [hkap]; rfl
  have hkc : kap ≤ min g1 (1 / 4) * (eps * (1 - mu) * m0 / (L + m0)) := by rw [hkap]; exact min_le_right _ _
  have hk0 : kap ≤ D0 * m0 := by rw [hkap]; exact min_le_left _ _
  rw [← hkap] at hkp ⊢
  set A := (Real.log (1 / g1) + Real.log g2) / (mu * eps * kap / 2) with hA
  have hA0 : 0 ≤ A := div_nonneg (by linarith) (by positivity)
  have hAk : A * (mu * eps * kap / 2) = Real.log (1 / g1) + Real.log g2 := div_mul_cancel₀ _ (by positivity)
  have hke : kap ≤ eps := by
    have h1 : eps * (1 - mu) * m0 / (L + m0) ≤ eps := by
      rw [div_le_iff₀ (by positivity)]
      have : (1 - mu) * m0 ≤ L + m0 := by nlinarith
      calc eps * (1 - mu) * m0 = eps * ((1 - mu) * m0) := by ring
        _ ≤ eps * (L + m0) := mul_le_mul_of_nonneg_left this he.le
    have h2 : 0 < eps * (1 - mu) * m0 / (L + m0) := by positivity
    have : min g1 (1 / 4) * (eps * (1 - mu) * m0 / (L + m0)) ≤ 1 / 4 * (eps * (1 - mu) * m0 / (L + m0)) := mul_le_mul_of_nonneg_right (min_le_right _ _) h2.le
    linarith
  induction k generalizing st cur with
  | zero =>
    obtain ⟨h1, h2, h3⟩ := start_values hU hev x0 startId hess0 st0 st cur h
    refine ⟨x0, D0, h1, h2, h3, by rw [start_delta E _ _ _ _ st cur h, hE.deltaInit], by simpa using hk0, ?_⟩
    rw [hR]
    simp
  | succ k ih =>
    obtain ⟨prev, cur0, step, new, hh, hp⟩ := loopHead_pass E _ startId hess0 st0 k st cur h
    obtain ⟨x, D, hi⟩ := ih prev cur0 hh (fun j hj => hbig j (by omega))
    set M := m0 + b * (k : ℝ) with hM
    set M' := m0 + b * ((k : ℝ) + 1) with hM'
    have hMp : 0 < M := by positivity
    have hMm : m0 ≤ M := by rw [hM]; nlinarith [mul_nonneg hb (Nat.cast_nonneg (α := ℝ) k)]
    have hMM : M ≤ M' := by rw [hM, hM']; linarith
    have hMp' : 0 < M' := hMp.trans_le hMM
    have hDpos : 0 < D := by
      have := hkp.trans_le hi.lower
      exact pos_of_mul_pos_left this hMp.le
    obtain ⟨B, p, hH, hBl, hss, htr, hq, hqd, hlen⟩ := hdec k prev cur0 step new _ _ hh hp x D hi.hx hi.grad hi.delta hDpos
      (hbig k (by omega) prev cur0 x hh hi.hx)
    have hkM : kap / M ≤ min D (eps / M) := le_min (by rw [div_le_iff₀ hMp]; exact hi.lower) (div_le_div_of_nonneg_right hke hMp.le)
    have hdec : mu * eps * kap / 2 / M ≤ mu * -quad B (g x) p := by
      have h1 : eps / 2 * (kap / M) ≤ -quad B (g x) p := (mul_le_mul_of_nonneg_left hkM (by positivity)).trans (by linarith)
      calc mu * eps * kap / 2 / M = mu * (eps / 2 * (kap / M)) := by ring
        _ ≤ _ := mul_le_mul_of_nonneg_left h1 hmu.le
    have hneg : quad B (g x) p < 0 := by
      have : 0 < eps / 2 * min D (eps / M) := mul_pos (by positivity) (lt_min hDpos (by positivity))
      linarith
    obtain ⟨x', D', hx', hf', hg', hd', hcase⟩ := pass_progress hE hU hev hp x p B D hi.hx hi.fval hi.grad hH hi.delta hss htr hq hneg
    have hpot := hi.potential
    have hcast : m0 + b * (((k + 1 : ℕ) : ℝ)) = M' := by push_cast; rfl
    rcases hcase with ⟨hgood, hxp, hD'⟩ | ⟨hbad, hle, hD'⟩
    · have hDD : D ≤ D' ∧ Real.log D' ≤ Real.log D + Real.log g2 := by
        rcases hD' with rfl | rfl
        · exact ⟨le_rfl, by linarith⟩
        · exact ⟨by nlinarith [hE.g2_ge], by rw [Real.log_mul hg2.ne' hDpos.ne']; linarith⟩
      have hlow : kap ≤ D' * M' := hi.lower.trans (mul_le_mul hDD.1 hMM hMp.le (hDpos.le.trans hDD.1))
      refine ⟨x', D', hx', hf', hg', hd', by rw [hcast]; exact hlow, ?_⟩
      rw [hcast, Finset.sum_range_succ, ← hM']
      have h1 := potential_step (la := 0) hMp hMM hDpos (hDpos.trans_le hDD.1) hkp hi.lower hDD.2
      have h2 : A * (f x' - fmin) ≤ A * (f x - fmin) - (Real.log (1 / g1) + Real.log g2) / M' := by
        have h3 : f x' ≤ f x - mu * eps * kap / 2 / M' := by
          have : mu * eps * kap / 2 / M' ≤ mu * eps * kap / 2 / M := div_le_div_of_nonneg_left (by positivity) hMp hMM
          rw [hxp]; linarith
        have h4 := mul_le_mul_of_nonneg_left h3 hA0
        have h5 : A * (mu * eps * kap / 2 / M') = (Real.log (1 / g1) + Real.log g2) / M' := by rw [← hAk]; ring
        rw [mul_sub, h5] at h4
        linarith
      rw [add_div] at h2
      rw [mul_add (Real.log (1 / g1)), mul_one_div]
      linarith
    · have hup := smooth_upper hL x p
      have herr : -quad B (g x) p - (f x - f (x + p)) ≤ (L + M) / 2 * (rnorm p * rnorm p) := by
        have h1 := hBl p
        rw [rnorm_sq]
        unfold quad
        linarith
      have hlow : kap / M ≤ D' := by
        rw [hD']
        exact shrink_floor hE.mu_lt hg1 hL0 hm he hMm (rnorm_nonneg p) hDpos hkc hmu (by linarith) hlen herr hbad
      have hDp' : 0 < D' := lt_of_lt_of_le (by positivity) hlow
      have hDl : Real.log D' ≤ Real.log D + -Real.log (1 / g1) := by
        rw [← hlg, add_comm, ← Real.log_mul hg1.ne' hDpos.ne']
        exact Real.log_le_log hDp' (by rw [hD']; exact min_le_left _ _)
      refine ⟨x', D', hx', hf', hg', hd', ?_, ?_⟩
      · rw [hcast]
        rw [div_le_iff₀ hMp] at hlow
        exact hlow.trans (mul_le_mul_of_nonneg_left hMM hDp'.le)
      · rw [hcast, Finset.sum_range_succ, ← hM']
        have h1 := potential_step (la := 0) hMp hMM hDpos hDp' hkp hi.lower hDl
        have h2 : A * (f x' - fmin) ≤ A * (f x - fmin) := mul_le_mul_of_nonneg_left (by linarith) hA0
        rw [mul_add (Real.log (1 / g1)), mul_one_div]
        rw [neg_div] at h1
        linarith

theorem run_grown (hE : TRParams E mu eta g1 g2 D0) (hU : NoBounds E.lb E.ub) (hT : UsesTrustRegion E) (hdim : E.opts.subspaceDim = .steihaug) (hev : Evaluates E f g)
    (L m0 b fmin : ℝ) (hL0 : 0 ≤ L) (hm : 0 < m0) (hb : 0 ≤ b) (hL : SmoothWith L f g) (x0 : Fin n → ℝ) (startId : String) (hess0 : Hess0 Num) (st0 : St Num n)
    (hB : ∀ j st cur, LoopHead E (ofV x0) startId hess0 st0 j st cur → BoundedSym (m0 + b * j) st.hess) (eps : ℝ) (he : 0 < eps)
    (k : ℕ) (st : St Num n) (cur : Funout Num n) (h : LoopHead E (ofV x0) startId hess0 st0 k st cur)
    (hbig : ∀ j < k, ∀ st' cur' x', LoopHead E (ofV x0) startId hess0 st0 j st' cur' → st'.x = ofV x' → eps ≤ rnorm (g x')) :
    ∃ x D, Grown f g x0 fmin ((Real.log (1 / g1) + Real.log g2) / (mu * eps * growthFloor mu g1 D0 L m0 eps / 2)) (Real.log (1 / g1)) m0 b (growthFloor mu g1 D0 L m0 eps)
      (growthReserve mu g1 g2 D0 L m0 (f x0 - fmin) eps) k st x D :=
  run_grown_of hE hU hev L m0 b fmin hL0 hm hb hL x0 startId hess0 st0 eps eps he
    (fun j prev cur step new next cur' hh hp => steihaug_decrease (g := g) hE hU hT hdim (by positivity) he hp (fun _ _ => hB j prev cur hh)) k st cur h hbig

theorem grown_bound {x0 x : Fin n → ℝ} {fmin A la m0 b kap R D : ℝ} {k : ℕ} {st : St Num n} (hm : 0 < m0) (hb : 0 < b) (hk : 0 < kap) (hla : 0 < la) (hA : 0 ≤ A)
    (hmin : ∀ y, fmin ≤ f y) (h : Grown f g x0 fmin A la m0 b kap R k st x D) : k < ⌊(m0 + b) / b * Real.exp (b * R / la)⌋₊ := by
  have hM : 0 < m0 + b * (k : ℝ) := by positivity
  have h1 : 0 ≤ (Real.log (D * (m0 + b * k) / kap) + 1) / (m0 + b * k) :=
    div_nonneg (add_nonneg (Real.log_nonneg (by rw [le_div_iff₀ hk]; linarith [h.lower])) zero_le_one) hM.le
  have h2 : 0 ≤ A * (f x - fmin) := mul_nonneg hA (by linarith [hmin x])
  have h3 : la * ∑ j ∈ Finset.range k, 1 / (m0 + b * ((j : ℝ) + 1)) ≤ R := by linarith [h.potential]
  have h4 := log_harmonic hm hb.le k
  have h5 : Real.log ((m0 + b * (k + 1)) / (m0 + b)) ≤ b * R / la := by
    refine h4.trans ?_
    rw [mul_div_assoc]
    refine mul_le_mul_of_nonneg_left ?_ hb.le
    rw [le_div_iff₀ hla]; linarith
  have h6 : (m0 + b * ((k : ℝ) + 1)) / (m0 + b) ≤ Real.exp (b * R / la) := by
    rw [← Real.log_le_iff_le_exp (by positivity)]; exact h5
  rw [div_le_iff₀ (by positivity)] at h6
  have h7 : ((k + 1 : ℕ) : ℝ) ≤ (m0 + b) / b * Real.exp (b * R / la) := by
    rw [div_mul_eq_mul_div, le_div_iff₀ hb]
    push_cast
    nlinarith
  exact Nat.lt_of_succ_le (Nat.le_floor h7)

end Fides
