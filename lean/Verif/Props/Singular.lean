import Verif.Props.SingularFace
import Verif.Kernel.SingularIntegral

/-!
# C74: the singular integrator computes Hadamard finite parts

Specification: a cell is the image of the unit square under a map `x` (three times continuously differentiable, regular at the
singular point, which has no other preimage in the cell). The integrals of the second and first derivatives of the Green function
over the cell diverge; their finite part is what remains of the integral over the points of the cell farther than `ε` from the
singular point after removal of the terms in `1/ε` and `log ε`.
-/

namespace PiBem.Kernel

open MeasureTheory Set Filter Topology

/-! ## Specification -/

/-- `L` is the finite part of `I ε` for `ε → 0+`. -/
def FinitePart (I : ℝ → ℝ) (L : ℝ) : Prop :=
  ∃ c1 c2 : ℝ, Tendsto (fun e => I e - c1 / e - c2 * Real.log e) (𝓝[>] 0) (𝓝 L)

/-- Partial derivative of a function of the point. -/
noncomputable def partialD (f : Pt 3 → ℝ) (i : Fin 3) (R : Pt 3) : ℝ := deriv (fun t => f (Function.update R i t)) (R i)

/-- Vector from the image of the singular point to the image of `p`. -/
def vecTo (x : Fin 3 → ℝ × ℝ → ℝ) (eta p : ℝ × ℝ) : Pt 3 := fun i => x i p - x i eta

/-- Integrand of the hypersingular integral with the area element: derivatives of the normal derivative of the Green function,
with the sign used by the gradient equation, times the function `N`. -/
noncomputable def hyperIntegrand (x : Fin 3 → ℝ × ℝ → ℝ) (eta : ℝ × ℝ) (N : ℝ × ℝ → ℝ) (i : Fin 3) (p : ℝ × ℝ) : ℝ :=
  (∑ k, -partialD (partialD green3 k) i (vecTo x eta p) * unitNormal x p k) * N p * norm (normalVec x p)

/-- Integrand of the strongly singular integral with the area element. -/
noncomputable def strongIntegrand (x : Fin 3 → ℝ × ℝ → ℝ) (eta : ℝ × ℝ) (N : ℝ × ℝ → ℝ) (i : Fin 3) (p : ℝ × ℝ) : ℝ :=
  -partialD green3 i (vecTo x eta p) * N p * norm (normalVec x p)

/-- Integral over the points of the cell farther than `e` from the singular point. -/
noncomputable def cellInt (x : Fin 3 → ℝ × ℝ → ℝ) (eta : ℝ × ℝ) (F : ℝ × ℝ → ℝ) (e : ℝ) : ℝ :=
  ∫ p in {p | InCell p ∧ e < distTo x eta p}, F p

/-- A quadrature rule: points and weights. -/
def ruleSum (rule : List (ℝ × ℝ)) (g : ℝ → ℝ) : ℝ := (rule.map fun q => q.2 * g q.1).sum

/-! ## Lemmas -/

theorem FinitePart.unique {I : ℝ → ℝ} {L L' : ℝ} (h : FinitePart I L) (h' : FinitePart I L') : L = L' := by
  obtain ⟨c1, c2, h⟩ := h
  obtain ⟨d1, d2, h'⟩ := h'
  have h0 := h.sub h'
  have hid : Tendsto (fun e : ℝ => e) (𝓝[>] (0 : ℝ)) (𝓝 0) := tendsto_id.mono_left nhdsWithin_le_nhds
  have hlog : Tendsto (fun e : ℝ => Real.log e * e) (𝓝[>] 0) (𝓝 0) := by
    simpa only [Real.rpow_one] using tendsto_log_mul_rpow_nhdsGT_zero zero_lt_one
  -- the coefficients of 1/e agree
  have a : d1 = c1 := by
    have h1 := (h0.mul hid).sub (hlog.const_mul (d2 - c2))
    rw [mul_zero, mul_zero, sub_zero] at h1
    have h2 : Tendsto (fun _ : ℝ => d1 - c1) (𝓝[>] (0 : ℝ)) (𝓝 0) := by
      refine h1.congr' ?_
      filter_upwards [self_mem_nhdsWithin] with e he
      have he : e ≠ 0 := ne_of_gt he
      field_simp
      ring
    exact sub_eq_zero.1 (tendsto_nhds_unique tendsto_const_nhds h2)
  have b : d2 = c2 := by
    have hinv : Tendsto (fun e : ℝ => (Real.log e)⁻¹) (𝓝[>] 0) (𝓝 0) := Real.tendsto_log_nhdsGT_zero.inv_tendsto_atBot
    have h1 := h0.mul hinv
    rw [mul_zero] at h1
    have h2 : Tendsto (fun _ : ℝ => d2 - c2) (𝓝[>] (0 : ℝ)) (𝓝 0) := by
      refine h1.congr' ?_
      filter_upwards [Ioo_mem_nhdsGT (show (0 : ℝ) < 1 by norm_num)] with e he
      have hl : Real.log e ≠ 0 := (Real.log_neg he.1 he.2).ne
      rw [a]
      field_simp
      ring
    exact sub_eq_zero.1 (tendsto_nhds_unique tendsto_const_nhds h2)
  rw [a, b] at h0
  have : Tendsto (fun _ : ℝ => (0 : ℝ)) (𝓝[>] (0 : ℝ)) (𝓝 (L - L')) := h0.congr fun e => by ring
  have := tendsto_nhds_unique tendsto_const_nhds this
  linarith

theorem FinitePart.congr {I J : ℝ → ℝ} {L : ℝ} (h : FinitePart I L) (he : ∀ e > 0, I e = J e) : FinitePart J L := by
  obtain ⟨c1, c2, h⟩ := h
  refine ⟨c1, c2, h.congr' ?_⟩
  filter_upwards [self_mem_nhdsWithin] with e h0
  rw [he e h0]

theorem FinitePart.div_const {I : ℝ → ℝ} {L : ℝ} (h : FinitePart I L) (a : ℝ) : FinitePart (fun e => I e / a) (L / a) := by
  obtain ⟨c1, c2, h⟩ := h
  refine ⟨c1 / a, c2 / a, (h.div_const a).congr fun e => ?_⟩
  ring

theorem FinitePart.sum {ι : Type} (s : Finset ι) {I : ι → ℝ → ℝ} {L : ι → ℝ} (h : ∀ f ∈ s, FinitePart (I f) (L f)) :
    FinitePart (fun e => ∑ f ∈ s, I f e) (∑ f ∈ s, L f) := by
  choose! c1 c2 h using h
  refine ⟨∑ f ∈ s, c1 f, ∑ f ∈ s, c2 f, ?_⟩
  refine (tendsto_finsetSum s h).congr fun e => ?_
  rw [Finset.sum_div, Finset.sum_mul, ← Finset.sum_sub_distrib, ← Finset.sum_sub_distrib]

theorem partialD_green {R : Pt 3} (hR : R ≠ 0) (i : Fin 3) : partialD green3 i R = doubleLayer3 R i := (partial_green3 hR i).deriv

theorem partialD_partialD_green {R : Pt 3} (hR : R ≠ 0) (i k : Fin 3) : partialD (partialD green3 k) i R =
    ((if i = k then 1 else 0) * square R - 3 * R i * R k) / (-4 * Real.pi * norm R ^ 5) := by
  refine Eq.trans ?_ (partial_double3 hR i k).deriv
  unfold partialD
  apply EventuallyEq.deriv_eq
  have hc : Continuous fun t => Function.update R i t := continuous_const.update i continuous_id
  have ho : ∀ᶠ t in 𝓝 (R i), Function.update R i t ≠ 0 := by
    refine (hc.tendsto (R i)).eventually_ne ?_
    rwa [Function.update_eq_self]
  filter_upwards [ho] with t ht
  exact partialD_green ht k

/-- The integrand of the code is the integrand of the specification, without the factor `1/4π`. -/
theorem hyperIntegrand_eq (x : Fin 3 → ℝ × ℝ → ℝ) (eta : ℝ × ℝ) (N : ℝ × ℝ → ℝ) (i : Fin 3) {p : ℝ × ℝ} (h : 0 < distTo x eta p) :
    hyperIntegrand x eta N i p = vFun (vecTo x eta p) (unitNormal x p) (N p) i * norm (normalVec x p) / (4 * Real.pi) := by
  have hR : vecTo x eta p ≠ 0 := by
    intro h0
    have : distTo x eta p = 0 := by
      change norm (vecTo x eta p) = 0
      rw [h0, norm, sum_square3]; simp
    rw [this] at h
    exact lt_irrefl _ h
  have hn := norm_pos hR
  have hs : square (vecTo x eta p) = norm (vecTo x eta p) ^ 2 := (norm_sq _).symm
  have hpi := Real.pi_pos
  unfold hyperIntegrand vFun sdot
  simp only [partialD_partialD_green hR, hs, Fin.sum_univ_three]
  generalize norm (vecTo x eta p) = l at *
  generalize norm (normalVec x p) = A
  generalize vecTo x eta p = R
  generalize unitNormal x p = n
  fin_cases i <;> simp <;> field_simp <;> ring

theorem strongIntegrand_eq (x : Fin 3 → ℝ × ℝ → ℝ) (eta : ℝ × ℝ) (N : ℝ × ℝ → ℝ) (i : Fin 3) {p : ℝ × ℝ} (h : 0 < distTo x eta p) :
    strongIntegrand x eta N i p = wFun (vecTo x eta p) (N p) i * norm (normalVec x p) / (4 * Real.pi) := by
  have hR : vecTo x eta p ≠ 0 := by
    intro h0
    have : distTo x eta p = 0 := by
      change norm (vecTo x eta p) = 0
      rw [h0, norm, sum_square3]; simp
    rw [this] at h
    exact lt_irrefl _ h
  have hn := norm_pos hR
  have hs : square (vecTo x eta p) = norm (vecTo x eta p) ^ 2 := (norm_sq _).symm
  have hpi := Real.pi_pos
  unfold strongIntegrand wFun
  simp only [partialD_green hR, doubleLayer3, hs]
  field_simp

theorem ruleSum_div (rule : List (ℝ × ℝ)) (g : ℝ → ℝ) (c : ℝ) : ruleSum rule g / c = ruleSum rule fun t => g t / c := by
  unfold ruleSum
  rw [div_eq_mul_inv, ← List.sum_map_mul_right]
  congr 1
  refine List.map_congr_left fun q _ => ?_
  ring

theorem ruleSum_congr {rule : List (ℝ × ℝ)} {g g' : ℝ → ℝ} (h : ∀ q ∈ rule, g q.1 = g' q.1) : ruleSum rule g = ruleSum rule g' := by
  unfold ruleSum
  congr 1
  exact List.map_congr_left fun q hq => by rw [h q hq]

theorem foldl_pair {α : Type} (l : List α) (g : α → ℝ) (I : ℝ × ℝ × ℝ) :
    l.foldl (fun I p => (I.1 + g p, I.2.1, I.2.2)) I = (I.1 + (l.map g).sum, I.2.1, I.2.2) := by
  induction l generalizing I with
  | nil => simp
  | cons a l ih => rw [List.foldl_cons, ih]; simp [add_assoc]

theorem foldl_triple {α : Type} (l : List α) (g0 g1 g2 : α → ℝ) (I : ℝ × ℝ × ℝ) :
    l.foldl (fun I p => (I.1 + g0 p, I.2.1 + g1 p, I.2.2 + g2 p)) I =
      (I.1 + (l.map g0).sum, I.2.1 + (l.map g1).sum, I.2.2 + (l.map g2).sum) := by
  induction l generalizing I with
  | nil => simp
  | cons a l ih => rw [List.foldl_cons, ih]; simp [add_assoc]

open Classical in
/-- The loops as sums. -/
theorem evalIntegrals_eq (eta : P2) (thetaRule : Fin 4 → List (ℝ × ℝ)) (rhoRule : List (ℝ × ℝ)) (i1 i2 : ℝ → ℝ → ℝ) (arg : ℝ → ℝ → ℝ) :
    evalIntegrals eta thetaRule rhoRule i1 i2 arg =
      (∑ f ∈ Finset.univ.filter (fun f => ¬ skipped eta f), ruleSum (thetaRule f) fun th =>
        i1 th (qRho eta f th) + i2 th (qRho eta f th) +
          qRho eta f th * ruleSum rhoRule fun t => arg th (qRho eta f th * t)) / (4 * Real.pi) := by
  unfold evalIntegrals
  have h : ∀ (f : Fin 4) (I : ℝ × ℝ × ℝ), (thetaRule f).foldl (fun I q =>
      let qrho := qRho eta f q.1
      let I := (I.1, I.2.1 + i1 q.1 qrho * q.2, I.2.2 + i2 q.1 qrho * q.2)
      rhoRule.foldl (fun I p =>
        let rho := qrho * p.1
        (I.1 + arg q.1 rho * qrho * p.2 * q.2, I.2.1, I.2.2)) I) I =
      (I.1 + ((thetaRule f).map fun q => (rhoRule.map fun p => arg q.1 (qRho eta f q.1 * p.1) * qRho eta f q.1 * p.2 * q.2).sum).sum,
        I.2.1 + ((thetaRule f).map fun q => i1 q.1 (qRho eta f q.1) * q.2).sum,
        I.2.2 + ((thetaRule f).map fun q => i2 q.1 (qRho eta f q.1) * q.2).sum) := by
    intro f I
    rw [← foldl_triple]
    congr 1
    funext I q
    simp only
    rw [foldl_pair]
  simp only [h]
  have h2 : ∀ (l : List (Fin 4)) (I : ℝ × ℝ × ℝ) (g0 g1 g2 : Fin 4 → ℝ), l.foldl (fun I f => if skipped eta f then I else
      (I.1 + g0 f, I.2.1 + g1 f, I.2.2 + g2 f)) I = (I.1 + (l.map fun f => if skipped eta f then 0 else g0 f).sum,
      I.2.1 + (l.map fun f => if skipped eta f then 0 else g1 f).sum, I.2.2 + (l.map fun f => if skipped eta f then 0 else g2 f).sum) := by
    intro l I g0 g1 g2
    rw [← foldl_triple]
    congr 1
    funext I f
    split_ifs <;> simp
  rw [h2]
  simp only [zero_add]
  rw [← Fin.sum_univ_def, ← Fin.sum_univ_def, ← Fin.sum_univ_def, ← Finset.sum_add_distrib, ← Finset.sum_add_distrib, Finset.sum_filter,
    div_div, mul_comm Real.pi 4]
  congr 1
  refine Finset.sum_congr rfl fun f _ => ?_
  by_cases hs : skipped eta f
  · simp [hs]
  · simp only [hs, if_false, not_false_eq_true, if_true, ruleSum]
    rw [← List.sum_map_add, ← List.sum_map_add]
    congr 1
    refine List.map_congr_left fun q _ => ?_
    have : (rhoRule.map fun p => arg q.1 (qRho eta f q.1 * p.1) * qRho eta f q.1 * p.2 * q.2).sum =
        q.2 * (qRho eta f q.1 * (rhoRule.map fun p => p.2 * arg q.1 (qRho eta f q.1 * p.1)).sum) := by
      rw [← List.sum_map_mul_left, ← List.sum_map_mul_left]
      congr 1
      refine List.map_congr_left fun p _ => ?_
      ring
    rw [this]
    ring

variable {x : Fin 3 → ℝ × ℝ → ℝ} (hx : ∀ i, ContDiff ℝ 3 (x i)) {eta : ℝ × ℝ}

include hx in
theorem normalVec_continuous (i : Fin 3) : Continuous fun p => normalVec x p i := by
  have hp : ∀ i j, Continuous (pd (x i) j) := fun i j => (contDiff_pd (n := 2) (by exact_mod_cast hx i) j).continuous
  have e : (fun p => normalVec x p i) = fun p => etaJxn (jacAt x p) i := by funext p; rw [etaJxn_eq]
  rw [e]
  fin_cases i
  · exact ((hp 1 0).mul (hp 2 1)).sub ((hp 1 1).mul (hp 2 0))
  · exact ((hp 0 1).mul (hp 2 0)).sub ((hp 0 0).mul (hp 2 1))
  · exact ((hp 0 0).mul (hp 1 1)).sub ((hp 0 1).mul (hp 1 0))

include hx in
theorem sing_hyper (hreg : normalVec x eta ≠ 0) {N : ℝ × ℝ → ℝ} (hN : ContDiff ℝ 2 N) (i : Fin 3) :
    SingData x eta (fun p => vFun (vecTo x eta p) (unitNormal x p) (N p) i * norm (normalVec x p))
      (fun th => vF2 (jacAt x eta) (N eta) th i)
      (fun th => vF1 (jacAt x eta) (jacGradAt x eta) (N eta) (fun k => pd N k eta) th i) := by
  have hJ : etaJxn (jacAt x eta) ≠ 0 := by rw [etaJxn_eq]; exact hreg
  obtain ⟨m, hm, hlow⟩ := qA_lower hJ
  have ha : ∀ th, qA (jacAt x eta) th ≠ 0 := fun th => (hm.trans_le (hlow th)).ne'
  have hac := qA_continuous (jacAt x eta)
  obtain ⟨b2, b1, C, δ, hδ, h⟩ := vFun_unif hx eta hreg hN i
  have cA : ∀ k, Continuous fun th => coefA (jacAt x eta) th k := fun k => by unfold coefA; fun_prop
  have cB : ∀ k, Continuous fun th => coefB (jacGradAt x eta) th k := fun k => by unfold coefB; fun_prop
  have cK : ∀ k, Continuous fun th => coefJk1 (jacAt x eta) (jacGradAt x eta) th k := fun k => by unfold coefJk1; fun_prop
  have cN : Continuous fun th => coefN1 (fun k => pd N k eta) th := by unfold coefN1; fun_prop
  have p3 : ∀ th, qA (jacAt x eta) th ^ 3 ≠ 0 := fun th => pow_ne_zero 3 (ha th)
  have p5 : ∀ th, qA (jacAt x eta) th ^ 5 ≠ 0 := fun th => pow_ne_zero 5 (ha th)
  have c3 : Continuous fun th => qA (jacAt x eta) th ^ 3 := hac.pow 3
  have c5 : Continuous fun th => qA (jacAt x eta) th ^ 5 := hac.pow 5
  have cC : Continuous fun th => qC (jacAt x eta) (jacGradAt x eta) th := by
    unfold qC sdot
    exact (((cA 0).mul (cB 0)).add ((cA 1).mul (cB 1))).add ((cA 2).mul (cB 2))
  refine ⟨?_, b2, b1, ?_, ?_, C, δ, hδ, fun th r h0 h1 => ?_⟩
  · have hR : ∀ k, Continuous fun p => vecTo x eta p k := fun k => (hx k).continuous.sub continuous_const
    have hn := normalVec_continuous hx
    have hd : Continuous fun p => sdot (vecTo x eta p) (normalVec x p) := by
      unfold sdot
      exact (((hR 0).mul (hn 0)).add ((hR 1).mul (hn 1))).add ((hR 2).mul (hn 2))
    have hl : Continuous fun p => norm (vecTo x eta p) := distTo_continuous hx
    have hl0 : ∀ p ∈ {p | 0 < distTo x eta p}, norm (vecTo x eta p) ≠ 0 := fun p hp => ne_of_gt hp
    simp only [vFun_area]
    refine ContinuousOn.mul (ContinuousOn.mul ?_ (ContinuousOn.sub (ContinuousOn.mul (ContinuousOn.mul continuousOn_const ?_) ?_)
      (hn i).continuousOn)) hN.continuous.continuousOn
    · exact continuousOn_const.div (hl.pow 3).continuousOn fun p hp => pow_ne_zero 3 (hl0 p hp)
    · exact (hR i).continuousOn.div hl.continuousOn hl0
    · exact hd.continuousOn.div hl.continuousOn hl0
  · unfold vF2
    exact (continuous_const.div c3 p3).mul continuous_const
  · unfold vF1
    have s1 : Continuous fun th => sdot (etaJxn (jacAt x eta)) (coefB (jacGradAt x eta) th) := by
      unfold sdot
      exact ((continuous_const.mul (cB 0)).add (continuous_const.mul (cB 1))).add (continuous_const.mul (cB 2))
    have s2 : Continuous fun th => sdot (coefJk1 (jacAt x eta) (jacGradAt x eta) th) (coefA (jacAt x eta) th) := by
      unfold sdot
      exact (((cK 0).mul (cA 0)).add ((cK 1).mul (cA 1))).add ((cK 2).mul (cA 2))
    exact ((((((continuous_const.mul cC).mul continuous_const).div c5 p5).sub
      (((continuous_const.mul (cA i)).div c5 p5).mul (s1.add s2))).add ((cK i).div c3 p3)).mul continuous_const).add
      ((continuous_const.div c3 p3).mul cN)
  · refine le_trans (le_of_eq ?_) (h th r h0 h1)
    unfold subtracted
    congr 3
    change _ = vFun (vecTo x eta (polarPoint eta th r)) (unitNormal x (polarPoint eta th r)) (N (polarPoint eta th r)) i * r *
      norm (normalVec x (polarPoint eta th r))
    ring

include hx in
theorem sing_strong (hreg : normalVec x eta ≠ 0) {N : ℝ × ℝ → ℝ} (hN : ContDiff ℝ 2 N) (i : Fin 3) :
    SingData x eta (fun p => wFun (vecTo x eta p) (N p) i * norm (normalVec x p)) (fun _ => 0)
      (fun th => wF1 (jacAt x eta) (N eta) th i) := by
  have hJ : etaJxn (jacAt x eta) ≠ 0 := by rw [etaJxn_eq]; exact hreg
  obtain ⟨m, hm, hlow⟩ := qA_lower hJ
  have ha : ∀ th, qA (jacAt x eta) th ≠ 0 := fun th => (hm.trans_le (hlow th)).ne'
  have hac := qA_continuous (jacAt x eta)
  obtain ⟨b1, C, δ, hδ, h⟩ := wFun_unif hx eta hreg hN i
  have cA : ∀ k, Continuous fun th => coefA (jacAt x eta) th k := fun k => by unfold coefA; fun_prop
  refine ⟨?_, Bdd.const 0, b1, continuous_const, ?_, C, δ, hδ, fun th r h0 h1 => ?_⟩
  · have hR : ∀ k, Continuous fun p => vecTo x eta p k := fun k => (hx k).continuous.sub continuous_const
    have hl : Continuous fun p => norm (vecTo x eta p) := distTo_continuous hx
    have hl0 : ∀ p ∈ {p | 0 < distTo x eta p}, norm (vecTo x eta p) ≠ 0 := fun p hp => ne_of_gt hp
    unfold wFun
    refine ContinuousOn.mul (ContinuousOn.mul (ContinuousOn.mul ?_ (hR i).continuousOn) hN.continuous.continuousOn)
      (norm3_continuous (normalVec_continuous hx)).continuousOn
    exact continuousOn_const.div (hl.pow 3).continuousOn fun p hp => pow_ne_zero 3 (hl0 p hp)
  · unfold wF1
    exact (((cA i).mul continuous_const).div (hac.pow 3) fun th => pow_ne_zero 3 (ha th)).mul continuous_const
  · refine le_trans (le_of_eq ?_) (h th r h0 h1)
    unfold subtracted
    congr 3
    change _ = wFun (vecTo x eta (polarPoint eta th r)) (N (polarPoint eta th r)) i * r *
      norm (normalVec x (polarPoint eta th r))
    ring

include hx in
open Classical in
/-- The finite part over the cell is the sum over the faces of the integrals of the finite parts on the rays. -/
theorem cell_finite_part (he : InCell eta) (hreg : normalVec x eta ≠ 0) (hinj : ∀ p, InCell p → p ≠ eta → ∃ i, x i p ≠ x i eta)
    {F : ℝ × ℝ → ℝ} {F2 F1 : ℝ → ℝ} (hF : SingData x eta F F2 F1) :
    FinitePart (cellInt x eta F) (∑ f ∈ Finset.univ.filter (fun f => ¬ skipped eta f),
      ∫ th in Ioo (theta0 eta f) (theta1 eta f), rayVal x eta F F2 F1 f th) := by
  refine FinitePart.congr (FinitePart.sum _ (I := fun f e => ∫ q in sector eta f ∩ polarMap eta ⁻¹' {p : P2 | e < distTo x eta p},
    F (polarMap eta q) * q.1) fun f hf => ?_) fun e h0 => ?_
  · have hf : ¬ skipped eta f := by simpa using hf
    exact (face_finite_part hx he hreg hinj hF hf).2
  · exact (cell_integral he _ (far_measurable hx e) F (cell_integrable hx hF.cont h0)).symm

include hx in
/-- The finite part on a ray. -/
theorem ray_finite_part (he : InCell eta) (hreg : normalVec x eta ≠ 0) (hinj : ∀ p, InCell p → p ≠ eta → ∃ i, x i p ≠ x i eta)
    {F : ℝ × ℝ → ℝ} {F2 F1 : ℝ → ℝ} (hF : SingData x eta F F2 F1) {f : Fin 4} (hf : ¬ skipped eta f) {th : ℝ}
    (hth : th ∈ Icc (theta0 eta f) (theta1 eta f)) : FinitePart (rayInt x eta F f th) (rayVal x eta F F2 F1 f th) := by
  obtain ⟨K, m0, hm0, h⟩ := face_estimate hx he hreg hinj hF hf
  refine ⟨F2 th * qA (jacAt x eta) th, -F1 th, ?_⟩
  rw [tendsto_iff_dist_tendsto_zero]
  have hid : Tendsto (fun e : ℝ => e) (𝓝[>] (0 : ℝ)) (𝓝 0) := tendsto_id.mono_left nhdsWithin_le_nhds
  refine squeeze_zero' (Eventually.of_forall fun _ => _root_.dist_nonneg) ?_ (by simpa using hid.const_mul K)
  filter_upwards [Ioo_mem_nhdsGT hm0] with e h0
  rw [Real.dist_eq]
  refine le_trans (le_of_eq ?_) (h th hth e h0.1 h0.2)
  congr 2
  ring

/-- The terms of the code added to the exact radial integral give the finite part on the ray. -/
theorem rayVal_terms (hreg : normalVec x eta ≠ 0) (he : InCell eta) {F : ℝ × ℝ → ℝ} {F2 F1 : ℝ → Pt 3} (i : Fin 3) {f : Fin 4}
    (hf : ¬ skipped eta f) {th : ℝ} (hth : th ∈ Icc (theta0 eta f) (theta1 eta f)) :
    termI1 (F1 th) (coefBeta (jacAt x eta) th) (qRho eta f th) i +
      termI2 (F2 th) (coefBeta (jacAt x eta) th) (coefGamma (jacAt x eta) (jacGradAt x eta) th) (qRho eta f th) i +
      (∫ r in Ioo 0 (qRho eta f th), (F (polarPoint eta th r) * r - F2 th i / r ^ 2 - F1 th i / r)) =
    rayVal x eta F (fun th => F2 th i) (fun th => F1 th i) f th := by
  have hJ : etaJxn (jacAt x eta) ≠ 0 := by rw [etaJxn_eq]; exact hreg
  have ha : 0 < qA (jacAt x eta) th := norm_pos (coefA_ne_zero hJ th)
  have hr := ((C43_polar_points eta he f hf).2.2.1 th hth.1 hth.2).1
  unfold rayVal rayLim termI1 termI2 coefBeta coefGamma
  have e1 : qRho eta f th / (1 / qA (jacAt x eta) th) = qRho eta f th * qA (jacAt x eta) th := by field_simp
  rw [e1, abs_of_pos (mul_pos hr ha)]
  have e2 : -F2 th i * (-qC (jacAt x eta) (jacGradAt x eta) th / qA (jacAt x eta) th ^ 4 / (1 / qA (jacAt x eta) th) ^ 2 +
      1 / qRho eta f th) = F2 th i * (qC (jacAt x eta) (jacGradAt x eta) th / qA (jacAt x eta) th / qA (jacAt x eta) th -
      1 / qRho eta f th) := by
    field_simp
    ring
  rw [e2]
  ring

/-! ## Theorems -/

/-- Error of the radial rule, transported to `[0, rh]`. -/
noncomputable def radialError (rhoRule : List (ℝ × ℝ)) (rh : ℝ) (g : ℝ → ℝ) : ℝ :=
  rh * (ruleSum rhoRule fun t => g (rh * t)) - ∫ r in Ioo 0 rh, g r

include hx in
open Classical in
/-- **C74**, hypersingular integrals. For every cell, singular point of the cell, shape function and quadrature rules: the integral
of the second derivatives of the Green function has a finite part `L` over the cell, it has a finite part `Λ f θ` on each ray, `L`
is the sum over the faces used of the integrals of `Λ f` on the angles of the face, and the value returned is the sum over the faces
of the angular rule applied to `Λ f` plus the error of the radial rule on the (bounded, C55) subtracted integrand. -/
theorem C74_hypersingular (he : InCell eta) (hreg : normalVec x eta ≠ 0)
    (hinj : ∀ p, InCell p → p ≠ eta → ∃ i, x i p ≠ x i eta) {N : ℝ × ℝ → ℝ} (hN : ContDiff ℝ 2 N) (i : Fin 3)
    (thetaRule : Fin 4 → List (ℝ × ℝ)) (rhoRule : List (ℝ × ℝ))
    (hpts : ∀ f, ¬ skipped eta f → ∀ q ∈ thetaRule f, q.1 ∈ Icc (theta0 eta f) (theta1 eta f)) :
    ∃ (L : ℝ) (Λ : Fin 4 → ℝ → ℝ), FinitePart (cellInt x eta (hyperIntegrand x eta N i)) L ∧
      (∀ f, ¬ skipped eta f → ∀ th ∈ Icc (theta0 eta f) (theta1 eta f), FinitePart (rayInt x eta (hyperIntegrand x eta N i) f th) (Λ f th)) ∧
      (L = ∑ f ∈ Finset.univ.filter (fun f => ¬ skipped eta f), ∫ th in Ioo (theta0 eta f) (theta1 eta f), Λ f th) ∧
      evalV eta (jacAt x eta) (jacGradAt x eta) (N eta) (fun k => pd N k eta) (polarR x eta)
          (fun th rho => unitNormal x (polarPoint eta th rho)) (fun th rho => N (polarPoint eta th rho))
          (fun th rho => norm (normalVec x (polarPoint eta th rho))) thetaRule rhoRule i =
        ∑ f ∈ Finset.univ.filter (fun f => ¬ skipped eta f), ruleSum (thetaRule f) fun th => Λ f th +
          radialError rhoRule (qRho eta f th) (fun rho => subtracted
            (vFun (polarR x eta th rho) (unitNormal x (polarPoint eta th rho)) (N (polarPoint eta th rho)))
            (vF2 (jacAt x eta) (N eta) th) (vF1 (jacAt x eta) (jacGradAt x eta) (N eta) (fun k => pd N k eta) th)
            rho (norm (normalVec x (polarPoint eta th rho))) i) / (4 * Real.pi) := by
  have hS := sing_hyper hx hreg hN i
  set F := fun p => vFun (vecTo x eta p) (unitNormal x p) (N p) i * norm (normalVec x p) with hF
  refine ⟨_, fun f th => rayVal x eta F (fun th => vF2 (jacAt x eta) (N eta) th i)
      (fun th => vF1 (jacAt x eta) (jacGradAt x eta) (N eta) (fun k => pd N k eta) th i) f th / (4 * Real.pi), ?_, ?_, rfl, ?_⟩
  · have h := (cell_finite_part hx he hreg hinj hS).div_const (4 * Real.pi)
    rw [Finset.sum_div] at h
    simp only [← integral_div] at h
    refine h.congr fun e h0 => ?_
    unfold cellInt
    rw [← integral_div]
    refine setIntegral_congr_fun (inCell_closed.measurableSet.inter (far_measurable hx e)) fun p hp => ?_
    exact (hyperIntegrand_eq x eta N i (h0.lt.trans hp.2)).symm
  · intro f hf th hth
    refine ((ray_finite_part hx he hreg hinj hS hf hth).div_const (4 * Real.pi)).congr fun e h0 => ?_
    unfold rayInt
    rw [← integral_div]
    have hm : MeasurableSet {r | r ∈ Ioo 0 (qRho eta f th) ∧ e < distTo x eta (polarPoint eta th r)} :=
      measurableSet_Ioo.inter (((contDiff_polar eta th 0).continuous.measurable) (far_measurable hx e))
    refine setIntegral_congr_fun hm fun r hr => ?_
    rw [hyperIntegrand_eq x eta N i (h0.lt.trans hr.2)]
    ring
  · unfold evalV
    rw [evalIntegrals_eq, Finset.sum_div]
    refine Finset.sum_congr rfl fun f hf => ?_
    have hf : ¬ skipped eta f := by simpa using hf
    rw [ruleSum_div]
    refine ruleSum_congr fun q hq => ?_
    have hq := hpts f hf q hq
    beta_reduce
    rw [← rayVal_terms (F2 := vF2 (jacAt x eta) (N eta)) (F1 := vF1 (jacAt x eta) (jacGradAt x eta) (N eta) (fun k => pd N k eta))
      hreg he i hf hq]
    unfold radialError
    have e : (fun r => F (polarPoint eta q.1 r) * r - vF2 (jacAt x eta) (N eta) q.1 i / r ^ 2 -
        vF1 (jacAt x eta) (jacGradAt x eta) (N eta) (fun k => pd N k eta) q.1 i / r) = fun rho => subtracted
            (vFun (polarR x eta q.1 rho) (unitNormal x (polarPoint eta q.1 rho)) (N (polarPoint eta q.1 rho)))
            (vF2 (jacAt x eta) (N eta) q.1) (vF1 (jacAt x eta) (jacGradAt x eta) (N eta) (fun k => pd N k eta) q.1)
            rho (norm (normalVec x (polarPoint eta q.1 rho))) i := by
      funext r
      unfold subtracted
      congr 2
      change vFun (polarR x eta q.1 r) (unitNormal x (polarPoint eta q.1 r)) (N (polarPoint eta q.1 r)) i *
        norm (normalVec x (polarPoint eta q.1 r)) * r = _
      ring
    rw [e]
    ring

include hx in
open Classical in
/-- **C74**, strongly singular integrals. -/
theorem C74_strongly_singular (he : InCell eta) (hreg : normalVec x eta ≠ 0)
    (hinj : ∀ p, InCell p → p ≠ eta → ∃ i, x i p ≠ x i eta) {N : ℝ × ℝ → ℝ} (hN : ContDiff ℝ 2 N) (i : Fin 3)
    (thetaRule : Fin 4 → List (ℝ × ℝ)) (rhoRule : List (ℝ × ℝ))
    (hpts : ∀ f, ¬ skipped eta f → ∀ q ∈ thetaRule f, q.1 ∈ Icc (theta0 eta f) (theta1 eta f)) :
    ∃ (L : ℝ) (Λ : Fin 4 → ℝ → ℝ), FinitePart (cellInt x eta (strongIntegrand x eta N i)) L ∧
      (∀ f, ¬ skipped eta f → ∀ th ∈ Icc (theta0 eta f) (theta1 eta f), FinitePart (rayInt x eta (strongIntegrand x eta N i) f th) (Λ f th)) ∧
      (L = ∑ f ∈ Finset.univ.filter (fun f => ¬ skipped eta f), ∫ th in Ioo (theta0 eta f) (theta1 eta f), Λ f th) ∧
      evalW eta (jacAt x eta) (N eta) (polarR x eta) (fun th rho => N (polarPoint eta th rho))
          (fun th rho => norm (normalVec x (polarPoint eta th rho))) thetaRule rhoRule i =
        ∑ f ∈ Finset.univ.filter (fun f => ¬ skipped eta f), ruleSum (thetaRule f) fun th => Λ f th +
          radialError rhoRule (qRho eta f th) (fun rho => subtracted (wFun (polarR x eta th rho) (N (polarPoint eta th rho)))
            0 (wF1 (jacAt x eta) (N eta) th) rho (norm (normalVec x (polarPoint eta th rho))) i) / (4 * Real.pi) := by
  have hS := sing_strong hx hreg hN i
  set F := fun p => wFun (vecTo x eta p) (N p) i * norm (normalVec x p) with hF
  refine ⟨_, fun f th => rayVal x eta F (fun _ => 0)
      (fun th => wF1 (jacAt x eta) (N eta) th i) f th / (4 * Real.pi), ?_, ?_, rfl, ?_⟩
  · have h := (cell_finite_part hx he hreg hinj hS).div_const (4 * Real.pi)
    rw [Finset.sum_div] at h
    simp only [← integral_div] at h
    refine h.congr fun e h0 => ?_
    unfold cellInt
    rw [← integral_div]
    refine setIntegral_congr_fun (inCell_closed.measurableSet.inter (far_measurable hx e)) fun p hp => ?_
    exact (strongIntegrand_eq x eta N i (h0.lt.trans hp.2)).symm
  · intro f hf th hth
    refine ((ray_finite_part hx he hreg hinj hS hf hth).div_const (4 * Real.pi)).congr fun e h0 => ?_
    unfold rayInt
    rw [← integral_div]
    have hm : MeasurableSet {r | r ∈ Ioo 0 (qRho eta f th) ∧ e < distTo x eta (polarPoint eta th r)} :=
      measurableSet_Ioo.inter (((contDiff_polar eta th 0).continuous.measurable) (far_measurable hx e))
    refine setIntegral_congr_fun hm fun r hr => ?_
    rw [strongIntegrand_eq x eta N i (h0.lt.trans hr.2)]
    ring
  · unfold evalW
    rw [evalIntegrals_eq, Finset.sum_div]
    refine Finset.sum_congr rfl fun f hf => ?_
    have hf : ¬ skipped eta f := by simpa using hf
    rw [ruleSum_div]
    refine ruleSum_congr fun q hq => ?_
    have hq := hpts f hf q hq
    beta_reduce
    have ht := rayVal_terms (x := x) (F := F) (F2 := fun _ => 0) (F1 := wF1 (jacAt x eta) (N eta)) hreg he i hf hq
    have hz : termI2 (0 : Pt 3) (coefBeta (jacAt x eta) q.1) (coefGamma (jacAt x eta) (jacGradAt x eta) q.1) (qRho eta f q.1) i = 0 := by
      simp [termI2]
    rw [hz] at ht
    have e0 : (fun _ : ℝ => (0 : Pt 3) i) = fun _ => (0 : ℝ) := rfl
    rw [e0] at ht
    rw [← ht]
    unfold radialError
    have e : (fun r => F (polarPoint eta q.1 r) * r - (0 : Pt 3) i / r ^ 2 -
        wF1 (jacAt x eta) (N eta) q.1 i / r) = fun rho => subtracted
            (wFun (polarR x eta q.1 rho) (N (polarPoint eta q.1 rho)))
            0 (wF1 (jacAt x eta) (N eta) q.1) rho (norm (normalVec x (polarPoint eta q.1 rho))) i := by
      funext r
      unfold subtracted
      congr 2
      change wFun (polarR x eta q.1 r) (N (polarPoint eta q.1 r)) i * norm (normalVec x (polarPoint eta q.1 r)) * r = _
      ring
    rw [e]
    ring

include hx in
open Classical in
/-- **C74**, exact rules. If the angular rules integrate the finite parts on the rays exactly and the radial rule is exact on the
subtracted integrand, the value returned is the finite part of the hypersingular integral over the cell. -/
theorem C74_exact_rules (he : InCell eta) (hreg : normalVec x eta ≠ 0)
    (hinj : ∀ p, InCell p → p ≠ eta → ∃ i, x i p ≠ x i eta) {N : ℝ × ℝ → ℝ} (hN : ContDiff ℝ 2 N) (i : Fin 3)
    (thetaRule : Fin 4 → List (ℝ × ℝ)) (rhoRule : List (ℝ × ℝ))
    (hpts : ∀ f, ¬ skipped eta f → ∀ q ∈ thetaRule f, q.1 ∈ Icc (theta0 eta f) (theta1 eta f))
    (hang : ∀ f, ¬ skipped eta f → ∀ g : ℝ → ℝ, (∀ th ∈ Icc (theta0 eta f) (theta1 eta f),
      FinitePart (rayInt x eta (hyperIntegrand x eta N i) f th) (g th)) →
      ruleSum (thetaRule f) g = ∫ th in Ioo (theta0 eta f) (theta1 eta f), g th)
    (hrad : ∀ f, ¬ skipped eta f → ∀ q ∈ thetaRule f, radialError rhoRule (qRho eta f q.1) (fun rho => subtracted
            (vFun (polarR x eta q.1 rho) (unitNormal x (polarPoint eta q.1 rho)) (N (polarPoint eta q.1 rho)))
            (vF2 (jacAt x eta) (N eta) q.1) (vF1 (jacAt x eta) (jacGradAt x eta) (N eta) (fun k => pd N k eta) q.1)
            rho (norm (normalVec x (polarPoint eta q.1 rho))) i) = 0)
    (L : ℝ) (hL : FinitePart (cellInt x eta (hyperIntegrand x eta N i)) L) :
    evalV eta (jacAt x eta) (jacGradAt x eta) (N eta) (fun k => pd N k eta) (polarR x eta)
          (fun th rho => unitNormal x (polarPoint eta th rho)) (fun th rho => N (polarPoint eta th rho))
          (fun th rho => norm (normalVec x (polarPoint eta th rho))) thetaRule rhoRule i = L := by
  obtain ⟨L', Λ, h1, h2, h3, h4⟩ := C74_hypersingular hx he hreg hinj hN i thetaRule rhoRule hpts
  rw [hL.unique h1, h3, h4]
  refine Finset.sum_congr rfl fun f hf => ?_
  have hf : ¬ skipped eta f := by simpa using hf
  rw [← hang f hf (Λ f) (h2 f hf)]
  refine ruleSum_congr fun q hq => ?_
  rw [hrad f hf q hq]
  ring

/-- The finite part is unique: the value of C74 is determined by the cell, the singular point and the integrand. -/
theorem C74_unique (I : ℝ → ℝ) (L L' : ℝ) (h : FinitePart I L) (h' : FinitePart I L') : L = L' := h.unique h'

/-- Non-vacuity of C74: the paraboloid with the singular point in the middle of the cell satisfies the hypotheses. -/
example : InCell (1/2, 1/2) ∧ (∀ i, ContDiff ℝ 3 (paraboloid i)) ∧ normalVec paraboloid (1/2, 1/2) ≠ 0 ∧
    ∀ p, InCell p → p ≠ (1/2, 1/2) → ∃ i, paraboloid i p ≠ paraboloid i (1/2, 1/2) := by
  refine ⟨by norm_num [InCell], ?_, ?_, ?_⟩
  · intro i
    fin_cases i
    · exact contDiff_fst
    · exact contDiff_snd
    · exact contDiff_fst.mul contDiff_fst
  · have d0 : HasFDerivAt (fun p : ℝ × ℝ => p.1) (ContinuousLinearMap.fst ℝ ℝ ℝ) (1/2, 1/2) := hasFDerivAt_fst
    have d1 : HasFDerivAt (fun p : ℝ × ℝ => p.2) (ContinuousLinearMap.snd ℝ ℝ ℝ) (1/2, 1/2) := hasFDerivAt_snd
    intro h
    have h2 := congrFun h 2
    unfold normalVec at h2
    rw [cross_apply] at h2
    simp only [one_div] at d0 d1
    simp [paraboloid, pd, unitDir, d0.fderiv, d1.fderiv] at h2
  · intro p _ hne
    by_contra hc
    push Not at hc
    exact hne (Prod.ext (hc 0) (hc 1))

/-- Non-vacuity of the rules: the midpoint rule of a face has its point between the two angles. -/
example (eta : P2) (he : InCell eta) (f : Fin 4) (hf : ¬ skipped eta f) :
    ∀ q ∈ [((theta0 eta f + theta1 eta f) / 2, theta1 eta f - theta0 eta f)], q.1 ∈ Icc (theta0 eta f) (theta1 eta f) := by
  have := (C43_polar_points eta he f hf).1
  intro q hq
  simp only [List.mem_singleton] at hq
  subst hq
  constructor <;> simp only <;> linarith

end PiBem.Kernel
