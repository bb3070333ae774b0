import Verif.Spec.Interior
import Verif.Lemmas.LocalRun
import Verif.Lemmas.BoundedProgress

/-! Helper lemmas: Newton's method in scaled variables near a minimum in the interior of the box, over the reals. -/

namespace Fides
open Num Spec
variable {n : ℕ}

theorem inBox1_between {l u : Num} {a b c : ℝ} (ha : InBox1 l u a) (hb : InBox1 l u b) (h1 : a ≤ c) (h2 : c ≤ b) : InBox1 l u c := by
  obtain ⟨a1, -⟩ := ha
  obtain ⟨-, b2⟩ := hb
  constructor
  · cases l <;> simp_all
    linarith
  · cases u <;> simp_all
    linarith

theorem abs_coord_le (v : Fin n → ℝ) (i : Fin n) : |v i| ≤ rnorm v := by
  have h : v i * v i ≤ rdot v v := Finset.single_le_sum (f := fun i => v i * v i) (fun j _ => mul_self_nonneg _) (Finset.mem_univ i)
  rw [← rnorm_sq] at h
  exact abs_le_of_sq_le_sq (by nlinarith) (rnorm_nonneg v)

theorem away_near {lb ub : Vec Num n} {xs y : Fin n → ℝ} {w a b : ℝ} (hA : AwayFromBounds w lb ub xs) (hy : rnorm (y - xs) ≤ a) (hab : a + |b| ≤ w) (i : Fin n) :
    InBox1 (lb i) (ub i) (y i + b) := by
  have h := (abs_coord_le (y - xs) i).trans hy
  rw [Pi.sub_apply] at h
  obtain ⟨h1, h2⟩ := abs_le.mp h
  obtain ⟨h3, h4⟩ := abs_le.mp (le_refl |b|)
  exact inBox1_between (hA i).1 (hA i).2 (by linarith) (by linarith)

theorem boundDist_ge {lb ub : Vec Num n} {x h : Fin n → ℝ} {e : ℝ} (he : e ≤ 1) (i : Fin n)
    (hb : InBox1 (lb i) (ub i) (x i - e) ∧ InBox1 (lb i) (ub i) (x i + e)) : e ≤ boundDist lb ub x h i := by
  obtain ⟨⟨h1, -⟩, -, h2⟩ := hb
  unfold boundDist
  split
  · split
    · rename_i u hu; rw [hu] at h2; simp at h2; linarith
    · exact he
  · split
    · rename_i l hl; rw [hl] at h1; simp at h1; linarith
    · exact he

/-- a weighted sum of products -/
theorem weighted_le (e a s : Fin n → ℝ) {c : ℝ} (h0 : ∀ i, 0 ≤ e i) (hc : ∀ i, e i ≤ c) (hc0 : 0 ≤ c) : |∑ i, e i * a i * s i| ≤ c * (rnorm a * rnorm s) := by
  have hn : ∀ v : Fin n → ℝ, rnorm (fun i => |v i|) = rnorm v := fun v => by
    unfold rnorm rdot
    congr 1
    exact Finset.sum_congr rfl fun i _ => abs_mul_abs_self _
  have h1 : |∑ i, e i * a i * s i| ≤ ∑ i, c * (|a i| * |s i|) := by
    refine (Finset.abs_sum_le_sum_abs _ _).trans (Finset.sum_le_sum fun i _ => ?_)
    rw [abs_mul, abs_mul, abs_of_nonneg (h0 i), mul_assoc]
    exact mul_le_mul_of_nonneg_right (hc i) (mul_nonneg (abs_nonneg _) (abs_nonneg _))
  refine h1.trans ?_
  rw [← Finset.mul_sum]
  refine mul_le_mul_of_nonneg_left ?_ hc0
  have h2 := (abs_le.mp (abs_rdot_le (fun i => |a i|) (fun i => |s i|))).2
  rw [hn, hn] at h2
  exact h2

section
variable {r m M L w tm eta R : ℝ} {f : (Fin n → ℝ) → ℝ} {g : (Fin n → ℝ) → Fin n → ℝ} {H : (Fin n → ℝ) → Fin n → Fin n → ℝ} {xs : Fin n → ℝ}

theorem Spec.InteriorSize.rate (hC : CurvedMinimum r m L f g H xs) (hB : InteriorSize r m M L w tm eta R) : (L + 5 * M / w) * R ≤ m / 2 ∧ (L + 5 * M / w) * R ≤ 2 * m * (1 - eta) := by
  have hm := hC.m_pos
  have e : (L + 5 * M / w) * R = m * (interiorRate m M L w * R) := by unfold interiorRate; field_simp
  rw [e]
  have h1 := mul_le_mul_of_nonneg_left hB.newton hm.le
  have h2 := mul_le_mul_of_nonneg_left hB.ratio hm.le
  constructor <;> linarith

/-- the gradient grows at most linearly -/
theorem curved_grad_le (hC : CurvedMinimum r m L f g H xs) (hM0 : 0 ≤ M) (hM : ∀ x, rnorm (x - xs) ≤ r → ∀ v, rdot v (rmv (H x) v) ≤ M * rdot v v)
    (hLR : L * R ≤ m / 2) {x : Fin n → ℝ} (hx : rnorm (x - xs) ≤ R) (hR : R ≤ r) : rnorm (g x) ≤ 5 / 4 * M * rnorm (x - xs) := by
  have hr : 0 ≤ r := (rnorm_nonneg _).trans (hx.trans hR)
  have hxs : rnorm (xs - xs) ≤ r := by rw [sub_self, rnorm_eq_zero.mpr rfl]; exact hr
  have hv : xs + (x - xs) = x := by abel
  have h := hC.taylor_grad (s := x - xs) hxs (by rw [hv]; exact hx.trans hR) (g x)
  rw [hv, hC.stationary, rdot_zero, sub_zero] at h
  have h1 := (abs_le.mp h).2
  have himg := psd_image (hC.symmetric xs hxs) (fun v => le_trans (mul_nonneg hC.m_pos.le (rdot_self_nonneg v)) (hC.curved xs hxs v)) (hM xs hxs) (x - xs)
  have h4 := hM xs hxs (x - xs)
  have hH : rnorm (rmv (H xs) (x - xs)) ≤ M * rnorm (x - xs) := by
    rw [rnorm_le_iff (mul_nonneg hM0 (rnorm_nonneg _))]
    have h6 := mul_le_mul_of_nonneg_left h4 hM0
    have h7 := rnorm_sq (x - xs)
    calc rdot (rmv (H xs) (x - xs)) (rmv (H xs) (x - xs)) ≤ M * (M * rdot (x - xs) (x - xs)) := himg.trans h6
      _ = M * rnorm (x - xs) * (M * rnorm (x - xs)) := by rw [← h7]; ring
  have h5 := (abs_le.mp (abs_rdot_le (g x) (rmv (H xs) (x - xs)))).2
  rw [← rnorm_sq] at h1
  have he := rnorm_nonneg (x - xs)
  have hg := rnorm_nonneg (g x)
  have hmM : m * rnorm (x - xs) ≤ M * rnorm (x - xs) := by
    have h8 := hC.curved xs hxs (x - xs)
    rcases he.lt_or_eq with h0 | h0
    · have h9 := h8.trans h4
      rw [← rnorm_sq, ← mul_assoc, ← mul_assoc] at h9
      exact le_of_mul_le_mul_right h9 h0
    · rw [← h0]; simp
  have hL := hC.L_nonneg
  have h10 : L / 2 * (rnorm (x - xs) * rnorm (x - xs)) ≤ m / 4 * rnorm (x - xs) := by
    have a1 : L * rnorm (x - xs) ≤ m / 2 := (mul_le_mul_of_nonneg_left hx hL).trans hLR
    have := mul_le_mul_of_nonneg_right a1 he
    linarith
  have h11 : rnorm (g x) * rnorm (g x) ≤ rnorm (g x) * (5 / 4 * M * rnorm (x - xs)) := by
    have a2 := mul_le_mul_of_nonneg_left hH hg
    have a3 := mul_le_mul_of_nonneg_right h10 hg
    have a4 := mul_le_mul_of_nonneg_left hmM hg
    nlinarith
  rcases hg.lt_or_eq with h0 | h0
  · exact le_of_mul_le_mul_left h11 h0
  · rw [← h0]; positivity

/-- one step of Newton's method with a diagonal term due to the bounds -/
theorem interior_newton (hC : CurvedMinimum r m L f g H xs) (hB : InteriorSize r m M L w tm eta R) (hM0 : 0 ≤ M)
    (hM : ∀ x, rnorm (x - xs) ≤ r → ∀ v, rdot v (rmv (H x) v) ≤ M * rdot v v) {x s : Fin n → ℝ} (hx : rnorm (x - xs) ≤ R) (e : Fin n → ℝ) (h0 : ∀ i, 0 ≤ e i)
    (he : ∀ i, e i ≤ 2 / w * rnorm (g x)) (hs : ∀ i, rmv (H x) s i + e i * s i = -g x i) :
    rnorm (x + s - xs) ≤ interiorRate m M L w * rnorm (x - xs) ^ 2 ∧ rnorm (x + s - xs) ≤ rnorm (x - xs) / 2 ∧ rnorm s ≤ 3 / 2 * rnorm (x - xs) := by
  have hm := hC.m_pos
  have hL := hC.L_nonneg
  have hw := hB.w_pos
  have hin := hB.inside
  have hRp := hB.pos
  have hxr : rnorm (x - xs) ≤ r := by linarith
  obtain ⟨hK, -⟩ := hB.rate hC
  have hMw : 0 ≤ 5 * M / w := by positivity
  have hLR : L * R ≤ m / 2 := by nlinarith
  have hMR : 5 * M / w * R ≤ m / 2 := by nlinarith [mul_nonneg hL hRp.le]
  have hg := curved_grad_le hC hM0 hM hLR hx (by linarith)
  set a := x + s - xs with ha
  set E := rnorm (x - xs) with hE
  have hE0 : 0 ≤ E := rnorm_nonneg _
  have ha0 : 0 ≤ rnorm a := rnorm_nonneg _
  have hsa : s = a + (-1 : ℝ) • (x - xs) := by funext i; simp only [ha, Pi.add_apply, Pi.sub_apply, Pi.smul_apply, smul_eq_mul]; ring
  have hs1 : rnorm s ≤ rnorm a + E := by
    have h := rnorm_add_le a ((-1 : ℝ) • (x - xs))
    rw [← hsa, rnorm_smul] at h
    norm_num at h
    exact h
  -- taylor
  have hback : x + (xs - x) = xs := by abel
  have hxs : rnorm (xs - xs) ≤ r := by rw [sub_self, rnorm_eq_zero.mpr rfl]; linarith
  have ht := hC.taylor_grad (s := xs - x) hxr (by rw [hback]; exact hxs) a
  rw [hback, hC.stationary, rdot_zero] at ht
  have hflip : xs - x = -(x - xs) := by abel
  have hnf : rnorm (xs - x) = E := by rw [hflip, hE, rnorm, rnorm, neg_rdot, rdot_neg, neg_neg]
  rw [hnf, hflip, rmv_neg, rdot_neg] at ht
  have ht' := (abs_le.mp ht).2
  have hHs : rdot a (rmv (H x) s) = -rdot a (g x) - ∑ i, e i * a i * s i := by
    unfold rdot
    rw [← Finset.sum_neg_distrib, ← Finset.sum_sub_distrib]
    refine Finset.sum_congr rfl fun i _ => ?_
    have := hs i
    have h2 : rmv (H x) s i = -g x i - e i * s i := by linarith
    rw [h2]; ring
  have haa : rdot a (rmv (H x) a) = rdot a (rmv (H x) (x - xs)) + rdot a (rmv (H x) s) := by
    rw [← rdot_add, ← rmv_add]
    congr 2
    rw [ha]; abel
  have hcur := hC.curved x hxr a
  rw [← rnorm_sq, haa, hHs] at hcur
  have hw1 := (abs_le.mp (weighted_le e a s h0 he (mul_nonneg (by positivity) (rnorm_nonneg _)))).1
  set c := 2 / w * rnorm (g x) with hc
  have hc1 : c ≤ 5 * M / w / 2 * E := by
    have h1 := mul_le_mul_of_nonneg_left hg (by positivity : (0 : ℝ) ≤ 2 / w)
    have e1 : 2 / w * (5 / 4 * M * E) = 5 * M / w / 2 * E := by field_simp; ring
    rw [e1] at h1; exact h1
  have hkey : m * rnorm a * rnorm a ≤ (L / 2 * (E * E) + 5 * M / w / 2 * E * (rnorm a + E)) * rnorm a := by
    have h1 : c * (rnorm a * rnorm s) ≤ 5 * M / w / 2 * E * (rnorm a * (rnorm a + E)) := by
      refine mul_le_mul hc1 (mul_le_mul_of_nonneg_left hs1 ha0) (mul_nonneg ha0 (rnorm_nonneg _)) (by positivity)
    nlinarith
  have hdiv : m * rnorm a ≤ L / 2 * (E * E) + 5 * M / w / 2 * E * (rnorm a + E) := by
    rcases ha0.lt_or_eq with h1 | h1
    · exact le_of_mul_le_mul_right hkey h1
    · rw [← h1, mul_zero, zero_add]; positivity
  have h2 : 5 * M / w / 2 * E * rnorm a ≤ m / 4 * rnorm a := by
    have h3 : 5 * M / w * E ≤ 5 * M / w * R := mul_le_mul_of_nonneg_left hx hMw
    exact mul_le_mul_of_nonneg_right (by linarith) ha0
  have h4 : m * rnorm a ≤ (L + 5 * M / w) * (E * E) := by
    have : 0 ≤ (L + 5 * M / w) * (E * E) := by positivity
    linarith
  have h5 : rnorm a ≤ interiorRate m M L w * E ^ 2 := by
    have e1 : interiorRate m M L w * E ^ 2 = (L + 5 * M / w) * (E * E) / m := by unfold interiorRate; field_simp
    rw [e1, le_div_iff₀ hm]; linarith
  have h6 : rnorm a ≤ E / 2 := by
    have h7 : (L + 5 * M / w) * E ≤ (L + 5 * M / w) * R := mul_le_mul_of_nonneg_left hx (by positivity)
    have h8 : (L + 5 * M / w) * (E * E) ≤ m / 2 * E := by
      have := mul_le_mul_of_nonneg_right (h7.trans hK) hE0
      linarith
    have := h4.trans h8
    exact le_of_mul_le_mul_left (by linarith) hm
  exact ⟨h5, h6, by linarith⟩

/-- the model predicts the reduction well -/
theorem interior_ratio (hC : CurvedMinimum r m L f g H xs) (hB : InteriorSize r m M L w tm eta R) (hM0 : 0 ≤ M)
    (hM : ∀ x, rnorm (x - xs) ≤ r → ∀ v, rdot v (rmv (H x) v) ≤ M * rdot v v) {x s p d dv : Fin n → ℝ} (hx : rnorm (x - xs) ≤ R)
    (hy : rnorm (x + s - xs) ≤ rnorm (x - xs) / 2) (hs : rnorm s ≤ 3 / 2 * rnorm (x - xs)) (hsp : s = fun i => d i * p i) (hd : ∀ i, w / 2 ≤ d i * d i)
    (hdv : ∀ i, dv i = 0 ∨ dv i = 1) (pred : ℝ)
    (hpred : pred = -quad (fun i j => d i * H x i j * d j + if i = j then |g x i| * dv i else 0) (fun i => d i * g x i) p) (hlow : m / 2 * (rnorm s * rnorm s) ≤ pred) :
    eta * pred ≤ f x - f (x + s) - (∑ i, |g (x + s) i| * dv i * (p i * p i)) / 2 := by
  have hm := hC.m_pos
  have hL := hC.L_nonneg
  have hw := hB.w_pos
  have hin := hB.inside
  have hRp := hB.pos
  obtain ⟨hK, hK2⟩ := hB.rate hC
  have hMw : 0 ≤ 5 * M / w := by positivity
  have hE0 := rnorm_nonneg (x - xs)
  have hs0 := rnorm_nonneg s
  have hxr : rnorm (x - xs) ≤ r := by linarith
  have hyR : rnorm (x + s - xs) ≤ R := by linarith
  have hLR : L * R ≤ m / 2 := by nlinarith
  have hgy := curved_grad_le hC hM0 hM hLR hyR (by linarith)
  have hta := (abs_le.mp (hC.taylor_value hxr (by linarith : rnorm (x + s - xs) ≤ r))).2
  rw [quad_scaled, ← hsp] at hpred
  have hnn : 0 ≤ ∑ i, |g x i| * dv i * (p i * p i) := by
    refine Finset.sum_nonneg fun i _ => ?_
    rcases hdv i with h | h <;> rw [h]
    · simp
    · rw [mul_one]; exact mul_nonneg (abs_nonneg _) (mul_self_nonneg _)
  have hsum : ∑ i, |g (x + s) i| * dv i * (p i * p i) ≤ 2 / w * rnorm (g (x + s)) * (rnorm s * rnorm s) := by
    rw [rnorm_sq, rdot, Finset.mul_sum]
    refine Finset.sum_le_sum fun i _ => ?_
    have h1 := abs_coord_le (g (x + s)) i
    have h2 : |g (x + s) i| * dv i ≤ rnorm (g (x + s)) := by
      rcases hdv i with h | h <;> rw [h]
      · simpa using rnorm_nonneg _
      · simpa using h1
    have h3 : p i * p i ≤ 2 / w * (s i * s i) := by
      have e1 : s i * s i = d i * d i * (p i * p i) := by rw [hsp]; ring
      rw [e1]
      have h4 := mul_le_mul_of_nonneg_right (hd i) (mul_self_nonneg (p i))
      have h5 := mul_le_mul_of_nonneg_left h4 (by positivity : (0 : ℝ) ≤ 2 / w)
      have e2 : 2 / w * (w / 2 * (p i * p i)) = p i * p i := by field_simp
      rw [e2] at h5; exact h5
    have h6 := mul_le_mul h2 h3 (mul_self_nonneg _) (rnorm_nonneg _)
    calc |g (x + s) i| * dv i * (p i * p i) ≤ rnorm (g (x + s)) * (2 / w * (s i * s i)) := h6
      _ = 2 / w * rnorm (g (x + s)) * (s i * s i) := by ring
  have hsum2 : 2 / w * rnorm (g (x + s)) * (rnorm s * rnorm s) ≤ 5 * M / w / 4 * R * (rnorm s * rnorm s) := by
    refine mul_le_mul_of_nonneg_right ?_ (mul_nonneg hs0 hs0)
    have h1 : rnorm (g (x + s)) ≤ 5 / 4 * M * (R / 2) := hgy.trans (mul_le_mul_of_nonneg_left (by linarith) (by positivity))
    have h2 := mul_le_mul_of_nonneg_left h1 (by positivity : (0 : ℝ) ≤ 2 / w)
    have e1 : 2 / w * (5 / 4 * M * (R / 2)) = 5 * M / w / 4 * R := by field_simp
    rw [e1] at h2; exact h2
  have hcub : L / 6 * (rnorm s * rnorm s * rnorm s) ≤ L / 4 * R * (rnorm s * rnorm s) := by
    have h1 : L / 6 * rnorm s ≤ L / 6 * (3 / 2 * R) := mul_le_mul_of_nonneg_left (by linarith) (by positivity)
    have h2 := mul_le_mul_of_nonneg_right h1 (mul_nonneg hs0 hs0)
    linarith
  have heta : 0 ≤ 1 - eta := by
    have : 0 ≤ (L + 5 * M / w) * R := by positivity
    by_contra hcon
    push Not at hcon
    nlinarith
  have hfin : (L + 5 * M / w) * R * (rnorm s * rnorm s) ≤ 2 * m * (1 - eta) * (rnorm s * rnorm s) := mul_le_mul_of_nonneg_right hK2 (mul_nonneg hs0 hs0)
  have hlow' := mul_le_mul_of_nonneg_left hlow heta
  have hpos : 0 ≤ 5 * M / w * R * (rnorm s * rnorm s) := by positivity
  nlinarith

end

end Fides
