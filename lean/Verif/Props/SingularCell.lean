import Verif.Props.SingularLemmas
import Verif.Props.Polar
import Verif.Kernel.RayIntegral
import Mathlib.Analysis.SpecialFunctions.PolarCoord

/-!
# Integration on the reference cell in polar coordinates

Lemmas for C74.
-/

namespace PiBem.Kernel

open MeasureTheory Set Filter Topology

/-- Interior of the polar image of the triangle of a face: radius, angle. -/
def sector (eta : P2) (f : Fin 4) : Set (ℝ × ℝ) :=
  {q | q.2 ∈ Ioo (theta0 eta f) (theta1 eta f) ∧ q.1 ∈ Ioo 0 (qRho eta f q.2)}

/-- Polar coordinates around the singular point. -/
noncomputable def polarMap (eta : P2) (q : ℝ × ℝ) : P2 := polarPoint eta q.2 q.1

theorem polarMap_hasFDerivAt (eta : P2) (q : ℝ × ℝ) : HasFDerivAt (polarMap eta) (fderivPolarCoordSymm q) q := by
  have h := (hasFDerivAt_polarCoord_symm q).add_const eta
  refine h.congr_of_eventuallyEq (Eventually.of_forall fun q => ?_)
  rfl

theorem polarMap_continuous (eta : P2) : Continuous (polarMap eta) := by
  unfold polarMap polarPoint
  fun_prop

theorem polarMap_inner (eta : P2) (f : Fin 4) {q : ℝ × ℝ} (h : 0 < qRho eta f q.2) :
    polarMap eta q = innerPoint eta f q.2 (q.1 / qRho eta f q.2) := by
  unfold polarMap polarPoint innerPoint
  simp only
  rw [mul_div_cancel₀ _ h.ne']

theorem qRho_measurable (eta : P2) (f : Fin 4) : Measurable (qRho eta f) := by
  unfold qRho
  fun_prop

theorem sector_measurable (eta : P2) (f : Fin 4) : MeasurableSet (sector eta f) := by
  have h1 : MeasurableSet {q : ℝ × ℝ | q.2 ∈ Ioo (theta0 eta f) (theta1 eta f)} := measurable_snd measurableSet_Ioo
  have h2 : MeasurableSet {q : ℝ × ℝ | 0 < q.1} := measurableSet_lt measurable_const measurable_fst
  have h3 : MeasurableSet {q : ℝ × ℝ | q.1 < qRho eta f q.2} :=
    measurableSet_lt measurable_fst ((qRho_measurable eta f).comp measurable_snd)
  exact h1.inter (h2.inter h3)

variable {eta : P2} (he : InCell eta)
include he

theorem sector_unique {f f' : Fin 4} (hf : ¬ skipped eta f) (hf' : ¬ skipped eta f') {q q' : ℝ × ℝ} (hq : q ∈ sector eta f)
    (hq' : q' ∈ sector eta f') (h : polarMap eta q = polarMap eta q') : f = f' ∧ q = q' := by
  have r0 := hq.2.1.trans hq.2.2
  have r0' := hq'.2.1.trans hq'.2.2
  rw [polarMap_inner eta f r0, polarMap_inner eta f' r0'] at h
  obtain ⟨e1, e2, e3⟩ := C43_polar_unique eta he f f' hf hf' _ _ _ _ hq.1.1 hq.1.2 hq'.1.1 hq'.1.2 (div_pos hq.2.1 r0)
    (div_pos hq'.2.1 r0') h
  subst e1
  refine ⟨rfl, Prod.ext ?_ e2⟩
  rw [e2] at e3
  exact (div_left_inj' r0'.ne').1 e3

theorem sector_injOn {f : Fin 4} (hf : ¬ skipped eta f) : InjOn (polarMap eta) (sector eta f) :=
  fun _ hq _ hq' h => (sector_unique he hf hf hq hq' h).2

theorem sector_inCell {f : Fin 4} (hf : ¬ skipped eta f) {q : ℝ × ℝ} (hq : q ∈ sector eta f) : InCell (polarMap eta q) := by
  have r0 := hq.2.1.trans hq.2.2
  rw [polarMap_inner eta f r0]
  refine ((C43_polar_points eta he f hf).2.2.1 q.2 hq.1.1.le hq.1.2.le).2.2 _ (div_pos hq.2.1 r0).le ?_
  rw [div_le_one r0]
  exact hq.2.2.le

omit he in
theorem null_line (eta : P2) (t : ℝ) : volume (polarMap eta '' (univ ×ˢ {t})) = 0 := by
  refine addHaar_image_eq_zero_of_differentiableOn_of_addHaar_eq_zero volume
    (fun q _ => (polarMap_hasFDerivAt eta q).differentiableAt.differentiableWithinAt) ?_
  rw [Measure.volume_eq_prod, Measure.prod_prod]
  simp

omit he in
theorem null_fst (c : ℝ) : volume {p : ℝ × ℝ | p.1 = c} = 0 := by
  have : {p : ℝ × ℝ | p.1 = c} = {c} ×ˢ univ := by ext p; simp
  rw [this, Measure.volume_eq_prod, Measure.prod_prod]
  simp

omit he in
theorem null_snd (c : ℝ) : volume {p : ℝ × ℝ | p.2 = c} = 0 := by
  have : {p : ℝ × ℝ | p.2 = c} = univ ×ˢ {c} := by ext p; simp
  rw [this, Measure.volume_eq_prod, Measure.prod_prod]
  simp

/-- The part of the cell not covered by the open sectors is a null set. -/
theorem cover_null : volume {p | InCell p ∧ ¬ ∃ f, ¬ skipped eta f ∧ p ∈ polarMap eta '' sector eta f} = 0 := by
  have hsub : {p | InCell p ∧ ¬ ∃ f, ¬ skipped eta f ∧ p ∈ polarMap eta '' sector eta f} ⊆
      (⋃ f : Fin 4, (polarMap eta '' (univ ×ˢ {theta0 eta f}) ∪ polarMap eta '' (univ ×ˢ {theta1 eta f}))) ∪
      (({p : ℝ × ℝ | p.1 = 0} ∪ {p : ℝ × ℝ | p.1 = 1}) ∪ ({p : ℝ × ℝ | p.2 = 0} ∪ {p : ℝ × ℝ | p.2 = 1})) := by
    rintro p ⟨hp, hno⟩
    by_cases hpe : p = eta
    · refine Or.inl (mem_iUnion.2 ⟨0, Or.inl ⟨(0, theta0 eta 0), ⟨trivial, rfl⟩, ?_⟩⟩)
      rw [hpe]
      exact polarPoint_zero eta _
    · obtain ⟨f, hf, th, t, t0, t1, s0, s1, heq⟩ := C43_polar_cover eta p he hp hpe
      obtain ⟨-, -, hpts, -, -⟩ := C43_polar_points eta he f hf
      obtain ⟨r0, hedge, -⟩ := hpts th t0 t1
      have hmap : polarMap eta (qRho eta f th * t, th) = p := heq
      rcases eq_or_lt_of_le t0 with h | t0
      · exact Or.inl (mem_iUnion.2 ⟨f, Or.inl ⟨(qRho eta f th * t, th), ⟨trivial, h.symm⟩, hmap⟩⟩)
      rcases eq_or_lt_of_le t1 with h | t1
      · exact Or.inl (mem_iUnion.2 ⟨f, Or.inr ⟨(qRho eta f th * t, th), ⟨trivial, h⟩, hmap⟩⟩)
      rcases eq_or_lt_of_le s1 with h | s1
      · right
        have : p = outerPoint eta f th := by
          rw [← heq, h]
          unfold innerPoint outerPoint
          simp
        rw [← this] at hedge
        fin_cases f
        · exact Or.inl (Or.inl hedge.2)
        · exact Or.inl (Or.inr hedge.2)
        · exact Or.inr (Or.inl hedge.2)
        · exact Or.inr (Or.inr hedge.2)
      · exfalso
        refine hno ⟨f, hf, (qRho eta f th * t, th), ⟨⟨t0, t1⟩, mul_pos r0 s0, ?_⟩, hmap⟩
        exact mul_lt_of_lt_one_right r0 s1
  refine measure_mono_null hsub ?_
  refine measure_union_null (measure_iUnion_null fun f => measure_union_null (null_line eta _) (null_line eta _)) ?_
  exact measure_union_null (measure_union_null (null_fst 0) (null_fst 1)) (measure_union_null (null_snd 0) (null_snd 1))

open Classical in
/-- Integral over a part of the cell as a sum over the faces, in polar coordinates. -/
theorem cell_integral (P : Set P2) (hP : MeasurableSet P) (F : P2 → ℝ) (hF : IntegrableOn F {p | InCell p ∧ p ∈ P}) :
    ∫ p in {p | InCell p ∧ p ∈ P}, F p = ∑ f ∈ Finset.univ.filter (fun f => ¬ skipped eta f),
      ∫ q in sector eta f ∩ polarMap eta ⁻¹' P, F (polarMap eta q) * q.1 := by
  have hPm : MeasurableSet (polarMap eta ⁻¹' P) := (polarMap_continuous eta).measurable hP
  have hm : ∀ f, MeasurableSet (sector eta f ∩ polarMap eta ⁻¹' P) := fun f => (sector_measurable eta f).inter hPm
  have hinj : ∀ f, ¬ skipped eta f → InjOn (polarMap eta) (sector eta f ∩ polarMap eta ⁻¹' P) := fun f hf =>
    (sector_injOn he hf).mono inter_subset_left
  have hder : ∀ f, ∀ q ∈ sector eta f ∩ polarMap eta ⁻¹' P,
      HasFDerivWithinAt (polarMap eta) (fderivPolarCoordSymm q) (sector eta f ∩ polarMap eta ⁻¹' P) q := fun f q _ =>
    (polarMap_hasFDerivAt eta q).hasFDerivWithinAt
  have hsubset : ∀ f, ¬ skipped eta f → polarMap eta '' (sector eta f ∩ polarMap eta ⁻¹' P) ⊆ {p | InCell p ∧ p ∈ P} := by
    rintro f hf p ⟨q, ⟨hq, hqP⟩, rfl⟩
    exact ⟨sector_inCell he hf hq, hqP⟩
  have hae : ({p | InCell p ∧ p ∈ P} : Set P2) =ᵐ[volume]
      ⋃ f ∈ Finset.univ.filter (fun f => ¬ skipped eta f), polarMap eta '' (sector eta f ∩ polarMap eta ⁻¹' P) := by
    rw [ae_eq_set]
    constructor
    · refine measure_mono_null ?_ (cover_null he)
      rintro p ⟨⟨hp, hpP⟩, hno⟩
      refine ⟨hp, ?_⟩
      rintro ⟨f, hf, q, hq, rfl⟩
      apply hno
      refine mem_biUnion (x := f) (by simpa using hf) ⟨q, ⟨hq, hpP⟩, rfl⟩
    · have : (⋃ f ∈ Finset.univ.filter (fun f => ¬ skipped eta f), polarMap eta '' (sector eta f ∩ polarMap eta ⁻¹' P)) \
          {p | InCell p ∧ p ∈ P} = ∅ := by
        rw [sdiff_eq_empty]
        refine iUnion₂_subset fun f hf => hsubset f ?_
        simpa using hf
      rw [this, measure_empty]
  rw [setIntegral_congr_set hae, integral_biUnion_finset]
  · refine Finset.sum_congr rfl fun f hf => ?_
    have hf : ¬ skipped eta f := by simpa using hf
    rw [integral_image_eq_integral_abs_det_fderiv_smul volume (hm f) (hder f) (hinj f hf)]
    refine setIntegral_congr_fun (hm f) fun q hq => ?_
    rw [det_fderivPolarCoordSymm, abs_of_pos hq.1.2.1, smul_eq_mul, mul_comm]
  · intro f hf
    have hf : ¬ skipped eta f := by simpa using hf
    exact measurable_image_of_fderivWithin (hm f) (hder f) (hinj f hf)
  · intro f hf f' hf' hne
    have hf : ¬ skipped eta f := by simpa using hf
    have hf' : ¬ skipped eta f' := by simpa using hf'
    rw [Function.onFun, disjoint_left]
    rintro p ⟨q, hq, rfl⟩ ⟨q', hq', h⟩
    exact hne (sector_unique he hf hf' hq.1 hq'.1 h.symm).1
  · intro f hf
    have hf : ¬ skipped eta f := by simpa using hf
    exact hF.mono_set (hsubset f hf)

/-- The radius is continuous and bounded below on the angles of a face. -/
theorem qRho_bounds {f : Fin 4} (hf : ¬ skipped eta f) : ContinuousOn (qRho eta f) (Icc (theta0 eta f) (theta1 eta f)) ∧
    ∃ m M, 0 < m ∧ ∀ th ∈ Icc (theta0 eta f) (theta1 eta f), m ≤ qRho eta f th ∧ qRho eta f th ≤ M := by
  obtain ⟨hlt, -, hpts, -, -⟩ := C43_polar_points eta he f hf
  have hc : ContinuousOn (qRho eta f) (Icc (theta0 eta f) (theta1 eta f)) := by
    unfold qRho
    refine ContinuousOn.div (by fun_prop) (by fun_prop) fun th hth h0 => ?_
    have := (hpts th hth.1 hth.2).1
    unfold qRho at this
    simp only at this h0
    rw [h0, div_zero] at this
    exact lt_irrefl _ this
  refine ⟨hc, ?_⟩
  obtain ⟨m, hm, h1⟩ := isCompact_Icc.exists_forall_le' hc (fun th hth => (hpts th hth.1 hth.2).1)
  obtain ⟨M, h2⟩ := (isCompact_Icc (a := theta0 eta f) (b := theta1 eta f)).exists_bound_of_continuousOn hc
  exact ⟨m, M, hm, fun th hth => ⟨h1 th hth, (le_abs_self _).trans (h2 th hth)⟩⟩

end PiBem.Kernel
