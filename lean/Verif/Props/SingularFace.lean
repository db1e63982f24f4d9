import Verif.Props.SingularCell
import Mathlib.MeasureTheory.Integral.Prod

/-!
# The finite part on the triangle of a face

Lemmas for C74.
-/

namespace PiBem.Kernel

open MeasureTheory Set Filter Topology

/-- Distance of the image of `p` from the image of the singular point. -/
noncomputable def distTo (x : Fin 3 → ℝ × ℝ → ℝ) (eta p : ℝ × ℝ) : ℝ := norm (fun i => x i p - x i eta)

/-- What is used of a singular integrand `F` (with the area element): it is continuous away from the singular point and
`F ρ = F2/ρ² + F1/ρ + O(1)` uniformly in the angle. -/
structure SingData (x : Fin 3 → ℝ × ℝ → ℝ) (eta : ℝ × ℝ) (F : ℝ × ℝ → ℝ) (F2 F1 : ℝ → ℝ) : Prop where
  cont : ContinuousOn F {p | 0 < distTo x eta p}
  b2 : Bdd F2
  b1 : Bdd F1
  c2 : Continuous F2
  c1 : Continuous F1
  rem : ∃ C δ : ℝ, 0 < δ ∧ ∀ th r, 0 < r → r < δ → |F (polarPoint eta th r) * r - F2 th / r ^ 2 - F1 th / r| ≤ C

/-- The integral on a ray, of the points farther than `e`. -/
noncomputable def rayInt (x : Fin 3 → ℝ × ℝ → ℝ) (eta : ℝ × ℝ) (F : ℝ × ℝ → ℝ) (f : Fin 4) (th e : ℝ) : ℝ :=
  ∫ r in {r | r ∈ Ioo 0 (qRho eta f th) ∧ e < distTo x eta (polarPoint eta th r)}, F (polarPoint eta th r) * r

/-- The finite part on a ray. -/
noncomputable def rayVal (x : Fin 3 → ℝ × ℝ → ℝ) (eta : ℝ × ℝ) (F : ℝ × ℝ → ℝ) (F2 F1 : ℝ → ℝ) (f : Fin 4) (th : ℝ) : ℝ :=
  rayLim (qA (jacAt x eta) th) (qC (jacAt x eta) (jacGradAt x eta) th / qA (jacAt x eta) th) (F2 th) (F1 th) (qRho eta f th)
    (fun r => F (polarPoint eta th r) * r)

theorem inCell_closed : IsClosed {p : P2 | InCell p} := by
  have h1 : IsClosed {p : P2 | 0 ≤ p.1} := isClosed_le continuous_const continuous_fst
  have h2 : IsClosed {p : P2 | p.1 ≤ 1} := isClosed_le continuous_fst continuous_const
  have h3 : IsClosed {p : P2 | 0 ≤ p.2} := isClosed_le continuous_const continuous_snd
  have h4 : IsClosed {p : P2 | p.2 ≤ 1} := isClosed_le continuous_snd continuous_const
  exact h1.inter (h2.inter (h3.inter h4))

theorem inCell_compact : IsCompact {p : P2 | InCell p} := by
  refine (isCompact_Icc (a := ((0, 0) : P2)) (b := (1, 1))).of_isClosed_subset inCell_closed ?_
  rintro p ⟨h1, h2, h3, h4⟩
  exact ⟨⟨h1, h3⟩, ⟨h2, h4⟩⟩

theorem norm3_continuous {X : Type} [TopologicalSpace X] {R : X → Pt 3} (h : ∀ i, Continuous fun p => R p i) :
    Continuous fun p => norm (R p) := by
  have e : ∀ p, norm (R p) = Real.sqrt (R p 0 * R p 0 + R p 1 * R p 1 + R p 2 * R p 2) := fun p => by
    rw [norm, sum_square3]
  simp only [e]
  have h0 := h 0
  have h1 := h 1
  have h2 := h 2
  fun_prop

variable {x : Fin 3 → ℝ × ℝ → ℝ} (hx : ∀ i, ContDiff ℝ 3 (x i)) {eta : ℝ × ℝ}

include hx in
theorem distTo_continuous : Continuous (distTo x eta) :=
  norm3_continuous fun i => (hx i).continuous.sub continuous_const

theorem distTo_pos (hinj : ∀ p, InCell p → p ≠ eta → ∃ i, x i p ≠ x i eta) {p : ℝ × ℝ} (hp : InCell p) (hne : p ≠ eta) :
    0 < distTo x eta p := by
  refine norm_pos fun h => ?_
  obtain ⟨i, hi⟩ := hinj p hp hne
  exact hi (sub_eq_zero.1 (congrFun h i))

theorem polarPoint_dist (eta : ℝ × ℝ) (th r : ℝ) :
    ((polarPoint eta th r).1 - eta.1) ^ 2 + ((polarPoint eta th r).2 - eta.2) ^ 2 = r ^ 2 := by
  simp only [polarPoint]
  linear_combination r ^ 2 * Real.sin_sq_add_cos_sq th

include hx in
/-- The distance has a positive minimum away from the singular point. -/
theorem far_bound (hinj : ∀ p, InCell p → p ≠ eta → ∃ i, x i p ≠ x i eta) {δ : ℝ} (hδ : 0 < δ) :
    ∃ m0, 0 < m0 ∧ ∀ p, InCell p → δ ^ 2 ≤ (p.1 - eta.1) ^ 2 + (p.2 - eta.2) ^ 2 → m0 ≤ distTo x eta p := by
  have hcl : IsClosed {p : P2 | δ ^ 2 ≤ (p.1 - eta.1) ^ 2 + (p.2 - eta.2) ^ 2} :=
    isClosed_le continuous_const (by fun_prop)
  obtain ⟨m, hm, h⟩ := (inCell_compact.inter_right hcl).exists_forall_le' (distTo_continuous hx (eta := eta)).continuousOn
    (a := 0) (by
      rintro p ⟨hp, hd⟩
      refine distTo_pos hinj hp ?_
      rintro rfl
      have hd : δ ^ 2 ≤ (p.1 - p.1) ^ 2 + (p.2 - p.2) ^ 2 := hd
      rw [sub_self, sub_self] at hd
      nlinarith)
  exact ⟨m, hm, fun p hp hd => h p ⟨hp, hd⟩⟩

include hx in
/-- The data on the rays of a face satisfy the hypotheses of the estimate, with common constants. -/
theorem ray_data (he : InCell eta) (hreg : normalVec x eta ≠ 0) (hinj : ∀ p, InCell p → p ≠ eta → ∃ i, x i p ≠ x i eta)
    {F : ℝ × ℝ → ℝ} {F2 F1 : ℝ → ℝ} (hF : SingData x eta F F2 F1) {f : Fin 4} (hf : ¬ skipped eta f) :
    ∃ am M δ m0, 0 < m0 ∧ ∀ th ∈ Icc (theta0 eta f) (theta1 eta f),
      RayData am M δ m0 (qA (jacAt x eta) th) (qC (jacAt x eta) (jacGradAt x eta) th / qA (jacAt x eta) th) (F2 th) (F1 th)
        (qRho eta f th) (fun r => distTo x eta (polarPoint eta th r)) (fun r => F (polarPoint eta th r) * r) := by
  have hJ : etaJxn (jacAt x eta) ≠ 0 := by rw [etaJxn_eq]; exact hreg
  obtain ⟨am, ham, hlow⟩ := qA_lower hJ
  obtain ⟨-, ⟨Mb, hMb⟩, hO⟩ := tayU_dist hx eta hreg
  obtain ⟨CD, δD, hδD, hD⟩ := isBigO_LU.1 hO
  obtain ⟨M2, hM2⟩ := hF.b2
  obtain ⟨M1, hM1⟩ := hF.b1
  obtain ⟨CF, δF, hδF, hrem⟩ := hF.rem
  obtain ⟨-, rm, rM, hrm, hr⟩ := qRho_bounds he hf
  have hpts := (C43_polar_points eta he f hf).2.2.1
  -- constants
  set M := max 0 (max (max Mb CD) (max (max M2 M1) CF)) with hMdef
  have m0 : 0 ≤ M := le_max_left _ _
  have m1 : Mb ≤ M := (le_max_left _ _).trans ((le_max_left _ _).trans (le_max_right _ _))
  have m2 : CD ≤ M := (le_max_right _ _).trans ((le_max_left _ _).trans (le_max_right _ _))
  have m3 : M2 ≤ M := (le_max_left _ _).trans ((le_max_left _ _).trans ((le_max_right _ _).trans (le_max_right _ _)))
  have m4 : M1 ≤ M := (le_max_right _ _).trans ((le_max_left _ _).trans ((le_max_right _ _).trans (le_max_right _ _)))
  have m5 : CF ≤ M := (le_max_right _ _).trans ((le_max_right _ _).trans (le_max_right _ _))
  set δ := min (min δD δF) (min (min rm 1) (am / (8 * M + 1))) with hδdef
  have q : 0 < am / (8 * M + 1) := by positivity
  have d0 : 0 < δ := lt_min (lt_min hδD hδF) (lt_min (lt_min hrm one_pos) q)
  have d1 : δ ≤ δD := (min_le_left _ _).trans (min_le_left _ _)
  have d2 : δ ≤ δF := (min_le_left _ _).trans (min_le_right _ _)
  have d3 : δ ≤ rm := (min_le_right _ _).trans ((min_le_left _ _).trans (min_le_left _ _))
  have d4 : δ ≤ 1 := (min_le_right _ _).trans ((min_le_left _ _).trans (min_le_right _ _))
  have d5 : δ ≤ am / (8 * M + 1) := (min_le_right _ _).trans (min_le_right _ _)
  obtain ⟨mm, hmm, hfar⟩ := far_bound hx hinj d0
  refine ⟨am, M, δ, mm, hmm, fun th hth => ?_⟩
  obtain ⟨r1, r2⟩ := hr th hth
  obtain ⟨r0, -, hin⟩ := hpts th hth.1 hth.2
  have hincell : ∀ r, 0 ≤ r → r ≤ qRho eta f th → InCell (polarPoint eta th r) := by
    intro r h0 h1
    have := hin (r / qRho eta f th) (div_nonneg h0 r0.le) ((div_le_one r0).2 h1)
    unfold innerPoint at this
    rwa [mul_div_cancel₀ _ r0.ne'] at this
  have hpc : Continuous (polarPoint eta th) := (contDiff_polar eta th 0).continuous
  have hne : ∀ r, 0 < r → polarPoint eta th r ≠ eta := by
    intro r h0 h
    have := polarPoint_dist eta th r
    rw [h, sub_self, sub_self] at this
    nlinarith
  refine ⟨ham, m0, hmm, d0, d4, ?_, hlow th, (hMb th).trans m1, (hM2 th).trans m3, (hM1 th).trans m4, d3.trans r1, ?_, ?_, ?_, ?_, ?_, ?_⟩
  · rw [le_div_iff₀ (by positivity)] at d5
    nlinarith
  · rw [polarPoint_zero, distTo]
    rw [norm, sum_square3]
    simp
  · exact ((distTo_continuous hx).comp hpc).continuousOn
  · intro r h0 h1
    have := hD th r h0 (h1.trans_le d1)
    simp only at this
    have e : distTo x eta (polarPoint eta th r) - (qA (jacAt x eta) th * r +
        qC (jacAt x eta) (jacGradAt x eta) th / qA (jacAt x eta) th * r ^ 2) =
        (norm (polarR x eta th r) / r - (qA (jacAt x eta) th + qC (jacAt x eta) (jacGradAt x eta) th / qA (jacAt x eta) th * r)) * r := by
      have e1 : distTo x eta (polarPoint eta th r) = norm (polarR x eta th r) := rfl
      rw [e1]
      field_simp
    rw [e, abs_mul, abs_of_pos h0]
    rw [abs_of_pos (pow_pos h0 2)] at this
    calc _ ≤ CD * r ^ 2 * r := mul_le_mul_of_nonneg_right this h0.le
      _ = CD * r ^ 3 := by ring
      _ ≤ M * r ^ 3 := mul_le_mul_of_nonneg_right m2 (by positivity)
  · intro r h0 h1
    refine hfar _ (hincell r (d0.le.trans h0) h1) ?_
    rw [polarPoint_dist]
    exact pow_le_pow_left₀ d0.le h0 2
  · intro r h0 h1
    exact (hrem th r h0 (h1.trans_le d2)).trans m5
  · refine ContinuousOn.mul (hF.cont.comp hpc.continuousOn ?_) continuousOn_id
    intro r hr
    exact distTo_pos hinj (hincell r hr.1.le hr.2) (hne r hr.1)

include hx in
/-- The estimate for all rays of a face. -/
theorem face_estimate (he : InCell eta) (hreg : normalVec x eta ≠ 0) (hinj : ∀ p, InCell p → p ≠ eta → ∃ i, x i p ≠ x i eta)
    {F : ℝ × ℝ → ℝ} {F2 F1 : ℝ → ℝ} (hF : SingData x eta F F2 F1) {f : Fin 4} (hf : ¬ skipped eta f) :
    ∃ K m0, 0 < m0 ∧ ∀ th ∈ Icc (theta0 eta f) (theta1 eta f), ∀ e, 0 < e → e < m0 →
      |rayInt x eta F f th e - (F2 th * qA (jacAt x eta) th / e - F1 th * Real.log e) - rayVal x eta F F2 F1 f th| ≤ K * e := by
  obtain ⟨am, M, δ, m0, hm0, h⟩ := ray_data hx he hreg hinj hF hf
  exact ⟨rayK am M, m0, hm0, fun th hth e he hem => ray_estimate (h th hth) he hem⟩

include hx in
theorem F_bound {F : ℝ × ℝ → ℝ} (hF : ContinuousOn F {p | 0 < distTo x eta p}) {e : ℝ} (he : 0 < e) :
    ∃ C, ∀ p, InCell p → e ≤ distTo x eta p → |F p| ≤ C := by
  have hcl : IsClosed {p : P2 | e ≤ distTo x eta p} := isClosed_le continuous_const (distTo_continuous hx)
  obtain ⟨C, hC⟩ := (inCell_compact.inter_right hcl).exists_bound_of_continuousOn
    (hF.mono (fun p hp => he.trans_le hp.2))
  exact ⟨C, fun p hp hd => hC p ⟨hp, hd⟩⟩

include hx in
theorem far_measurable (e : ℝ) : MeasurableSet {p : P2 | e < distTo x eta p} :=
  (isOpen_lt continuous_const (distTo_continuous hx)).measurableSet

include hx in
/-- The integrand is integrable away from the singular point. -/
theorem cell_integrable {F : ℝ × ℝ → ℝ} (hF : ContinuousOn F {p | 0 < distTo x eta p}) {e : ℝ} (he : 0 < e) :
    IntegrableOn F {p | InCell p ∧ p ∈ {p : P2 | e < distTo x eta p}} := by
  obtain ⟨C, hC⟩ := F_bound hx hF he
  have hm : MeasurableSet {p | InCell p ∧ p ∈ {p : P2 | e < distTo x eta p}} :=
    inCell_closed.measurableSet.inter (far_measurable hx e)
  have hfin : volume {p | InCell p ∧ p ∈ {p : P2 | e < distTo x eta p}} ≠ ⊤ := by
    refine ((measure_mono (fun p hp => hp.1)).trans_lt (inCell_compact.measure_lt_top (μ := volume))).ne
  have : IsFiniteMeasure (volume.restrict {p | InCell p ∧ p ∈ {p : P2 | e < distTo x eta p}}) := ⟨by
    rw [Measure.restrict_apply_univ]; exact lt_top_iff_ne_top.2 hfin⟩
  refine Integrable.of_bound ((hF.mono fun p hp => he.trans hp.2).aestronglyMeasurable hm) C ?_
  filter_upwards [ae_restrict_mem hm] with p hp
  exact hC p hp.1 (le_of_lt hp.2)

include hx in
/-- The integral on the triangle of a face by integrals on the rays. -/
theorem face_fubini (he : InCell eta) {F : ℝ × ℝ → ℝ} (hF : ContinuousOn F {p | 0 < distTo x eta p}) {f : Fin 4}
    (hf : ¬ skipped eta f) {e : ℝ} (he0 : 0 < e) :
    IntegrableOn (fun th => rayInt x eta F f th e) (Ioo (theta0 eta f) (theta1 eta f)) ∧
    ∫ q in sector eta f ∩ polarMap eta ⁻¹' {p : P2 | e < distTo x eta p}, F (polarMap eta q) * q.1 =
      ∫ th in Ioo (theta0 eta f) (theta1 eta f), rayInt x eta F f th e := by
  obtain ⟨C, hC⟩ := F_bound hx hF he0
  obtain ⟨-, rm, rM, hrm, hr⟩ := qRho_bounds he hf
  set T := sector eta f ∩ polarMap eta ⁻¹' {p : P2 | e < distTo x eta p} with hT
  have hTm : MeasurableSet T := (sector_measurable eta f).inter ((polarMap_continuous eta).measurable (far_measurable hx e))
  have hsub : T ⊆ Ioo 0 rM ×ˢ Ioo (theta0 eta f) (theta1 eta f) := by
    rintro q ⟨⟨h1, h2⟩, -⟩
    exact ⟨⟨h2.1, h2.2.trans_le (hr q.2 ⟨h1.1.le, h1.2.le⟩).2⟩, h1⟩
  have hfin : volume T < ⊤ := by
    refine (measure_mono hsub).trans_lt ?_
    rw [Measure.volume_eq_prod, Measure.prod_prod]
    exact ENNReal.mul_lt_top (by simp) (by simp)
  have hint : IntegrableOn (fun q : ℝ × ℝ => F (polarMap eta q) * q.1) T := by
    have : IsFiniteMeasure (volume.restrict T) := ⟨by rw [Measure.restrict_apply_univ]; exact hfin⟩
    refine Integrable.of_bound (ContinuousOn.aestronglyMeasurable ?_ hTm) (|C| * |rM|) ?_
    · refine ContinuousOn.mul (hF.comp (polarMap_continuous eta).continuousOn ?_) continuousOn_fst
      rintro q ⟨-, hq⟩
      exact he0.trans hq
    · filter_upwards [ae_restrict_mem hTm] with q hq
      have hb := hsub hq
      rw [Real.norm_eq_abs, abs_mul]
      refine mul_le_mul ((hC _ (sector_inCell he hf hq.1) (le_of_lt hq.2)).trans (le_abs_self C)) ?_ (abs_nonneg _) (abs_nonneg _)
      rw [abs_of_pos hb.1.1]
      exact hb.1.2.le.trans (le_abs_self _)
  have hint' := (integrable_indicator_iff hTm).2 hint
  rw [Measure.volume_eq_prod] at hint'
  have key : ∀ th, ∫ r, T.indicator (fun q : ℝ × ℝ => F (polarMap eta q) * q.1) (r, th) =
      (Ioo (theta0 eta f) (theta1 eta f)).indicator (fun th => rayInt x eta F f th e) th := by
    intro th
    by_cases hth : th ∈ Ioo (theta0 eta f) (theta1 eta f)
    · rw [indicator_of_mem hth, rayInt, ← integral_indicator]
      · congr 1
        funext r
        by_cases hr : r ∈ {r | r ∈ Ioo 0 (qRho eta f th) ∧ e < distTo x eta (polarPoint eta th r)}
        · have : (r, th) ∈ T := ⟨⟨hth, hr.1⟩, hr.2⟩
          rw [indicator_of_mem hr, indicator_of_mem this]
          rfl
        · have : (r, th) ∉ T := fun h => hr ⟨h.1.2, h.2⟩
          rw [indicator_of_notMem hr, indicator_of_notMem this]
      · exact measurableSet_Ioo.inter (((contDiff_polar eta th 0).continuous.measurable) (far_measurable hx e))
    · rw [indicator_of_notMem hth]
      have : (fun r => T.indicator (fun q : ℝ × ℝ => F (polarMap eta q) * q.1) (r, th)) = fun _ => 0 := by
        funext r
        refine indicator_of_notMem ?_ _
        exact fun h => hth h.1.1
      rw [this]
      simp
  constructor
  · rw [← integrable_indicator_iff measurableSet_Ioo]
    have := hint'.integral_prod_right
    simp only [key] at this
    exact this
  · rw [← integral_indicator hTm, Measure.volume_eq_prod, integral_prod_symm _ hint', ← integral_indicator measurableSet_Ioo]
    congr 1
    funext th
    exact key th

include hx in
/-- The finite part on the triangle of a face. -/
theorem face_finite_part (he : InCell eta) (hreg : normalVec x eta ≠ 0) (hinj : ∀ p, InCell p → p ≠ eta → ∃ i, x i p ≠ x i eta)
    {F : ℝ × ℝ → ℝ} {F2 F1 : ℝ → ℝ} (hF : SingData x eta F F2 F1) {f : Fin 4} (hf : ¬ skipped eta f) :
    IntegrableOn (rayVal x eta F F2 F1 f) (Ioo (theta0 eta f) (theta1 eta f)) ∧
    ∃ c1 c2, Tendsto (fun e => (∫ q in sector eta f ∩ polarMap eta ⁻¹' {p : P2 | e < distTo x eta p}, F (polarMap eta q) * q.1) -
      c1 / e - c2 * Real.log e) (𝓝[>] 0) (𝓝 (∫ th in Ioo (theta0 eta f) (theta1 eta f), rayVal x eta F F2 F1 f th)) := by
  obtain ⟨K, m0, hm0, hest⟩ := face_estimate hx he hreg hinj hF hf
  have hlt := (C43_polar_points eta he f hf).1
  set U := Ioo (theta0 eta f) (theta1 eta f) with hU
  have hUm : MeasurableSet U := measurableSet_Ioo
  have hest' : ∀ th ∈ U, ∀ e, 0 < e → e < m0 →
      |rayInt x eta F f th e - (F2 th * qA (jacAt x eta) th / e - F1 th * Real.log e) - rayVal x eta F F2 F1 f th| ≤ K * e :=
    fun th hth => hest th (Ioo_subset_Icc_self hth)
  have hG2 : IntegrableOn (fun th => F2 th * qA (jacAt x eta) th) U :=
    ((hF.c2.mul (qA_continuous _)).continuousOn.integrableOn_Icc).mono_set Ioo_subset_Icc_self
  have hG1 : IntegrableOn F1 U := (hF.c1.continuousOn.integrableOn_Icc).mono_set Ioo_subset_Icc_self
  have hI : ∀ e, 0 < e → IntegrableOn (fun th => rayInt x eta F f th e) U := fun e he0 => (face_fubini hx he hF.cont hf he0).1
  have hdiv : ∀ e, IntegrableOn (fun th => F2 th * qA (jacAt x eta) th / e - F1 th * Real.log e) U := fun e =>
    (hG2.div_const e).sub (hG1.mul_const _)
  have hID : ∀ e, 0 < e → IntegrableOn (fun th => rayInt x eta F f th e -
      (F2 th * qA (jacAt x eta) th / e - F1 th * Real.log e)) U := fun e he0 => (hI e he0).sub (hdiv e)
  -- the finite part on the rays is measurable
  have hseq : Tendsto (fun n : ℕ => m0 / ((n : ℝ) + 2)) atTop (𝓝 0) := by
    have h1 : Tendsto (fun n : ℕ => (n : ℝ) + 2) atTop atTop := tendsto_natCast_atTop_atTop.atTop_add tendsto_const_nhds
    exact h1.const_div_atTop m0
  have hpos : ∀ n : ℕ, 0 < m0 / ((n : ℝ) + 2) := fun n => by positivity
  have hsm : ∀ n : ℕ, m0 / ((n : ℝ) + 2) < m0 := fun n => by
    rw [div_lt_iff₀ (by positivity)]
    have : (0 : ℝ) ≤ n := Nat.cast_nonneg n
    nlinarith
  have hVm : AEStronglyMeasurable (rayVal x eta F F2 F1 f) (volume.restrict U) := by
    refine aestronglyMeasurable_of_tendsto_ae atTop (f := fun n : ℕ => fun th => rayInt x eta F f th (m0 / ((n : ℝ) + 2)) -
      (F2 th * qA (jacAt x eta) th / (m0 / ((n : ℝ) + 2)) - F1 th * Real.log (m0 / ((n : ℝ) + 2))))
      (fun n => (hID _ (hpos n)).aestronglyMeasurable) ?_
    filter_upwards [ae_restrict_mem hUm] with th hth
    rw [tendsto_iff_dist_tendsto_zero]
    refine squeeze_zero (fun _ => _root_.dist_nonneg) (fun n => ?_) (by simpa using hseq.const_mul K)
    rw [Real.dist_eq]
    exact hest' th hth _ (hpos n) (hsm n)
  have hV : IntegrableOn (rayVal x eta F F2 F1 f) U := by
    have h1 := hID _ (hpos 0)
    have h2 : IntegrableOn (fun th => rayInt x eta F f th (m0 / (((0 : ℕ) : ℝ) + 2)) -
      (F2 th * qA (jacAt x eta) th / (m0 / (((0 : ℕ) : ℝ) + 2)) - F1 th * Real.log (m0 / (((0 : ℕ) : ℝ) + 2))) -
        rayVal x eta F F2 F1 f th) U := by
      refine Integrable.of_bound (μ := volume.restrict (Ioo _ _)) (h1.aestronglyMeasurable.sub hVm) (K * (m0 / (((0 : ℕ) : ℝ) + 2))) ?_
      filter_upwards [ae_restrict_mem hUm] with th hth
      exact hest' th hth _ (hpos 0) (hsm 0)
    refine (h1.sub h2).congr (Eventually.of_forall fun th => ?_)
    simp
  refine ⟨hV, ∫ th in U, F2 th * qA (jacAt x eta) th, -∫ th in U, F1 th, ?_⟩
  rw [tendsto_iff_dist_tendsto_zero]
  have hlim : Tendsto (fun e : ℝ => K * e * (theta1 eta f - theta0 eta f)) (𝓝[>] 0) (𝓝 0) := by
    have h1 : Tendsto (fun e : ℝ => e) (𝓝[>] (0 : ℝ)) (𝓝 0) := tendsto_id.mono_left nhdsWithin_le_nhds
    simpa using (h1.const_mul K).mul_const (theta1 eta f - theta0 eta f)
  refine squeeze_zero' (Eventually.of_forall fun _ => _root_.dist_nonneg) ?_ hlim
  filter_upwards [Ioo_mem_nhdsGT hm0] with e he0
  rw [Real.dist_eq, (face_fubini hx he hF.cont hf he0.1).2]
  have e1 : (∫ th in U, rayInt x eta F f th e) - (∫ th in U, F2 th * qA (jacAt x eta) th) / e -
      (-∫ th in U, F1 th) * Real.log e - ∫ th in U, rayVal x eta F F2 F1 f th =
      ∫ th in U, (rayInt x eta F f th e - (F2 th * qA (jacAt x eta) th / e - F1 th * Real.log e) - rayVal x eta F F2 F1 f th) := by
    rw [integral_sub (hID e he0.1) hV, integral_sub (hI e he0.1) (hdiv e), integral_sub (hG2.div_const e) (hG1.mul_const _),
      integral_div, integral_mul_const]
    ring
  rw [e1]
  have := norm_setIntegral_le_of_norm_le_const (μ := volume) (s := U) (C := K * e) (by rw [hU, Real.volume_Ioo]; exact ENNReal.ofReal_lt_top)
    (f := fun th => rayInt x eta F f th e - (F2 th * qA (jacAt x eta) th / e - F1 th * Real.log e) - rayVal x eta F F2 F1 f th)
    (fun th hth => hest' th hth e he0.1 he0.2)
  refine this.trans (le_of_eq ?_)
  rw [hU, Real.volume_real_Ioo_of_le hlt.le]

end PiBem.Kernel
