import Mathlib.Analysis.SpecialFunctions.Integrals.Basic
import Mathlib.MeasureTheory.Integral.IntervalIntegral.FundThmCalculus
import Mathlib.MeasureTheory.Measure.Lebesgue.Basic
import Mathlib.Tactic.FieldSimp
import Mathlib.Tactic.Linarith

/-!
# Singular integrals on a ray

Pure analysis, no code is modelled here: the integral of `f = F2/r² + F1/r + O(1)` over the points of `(0, rh)` whose distance
`D r = a r + b r² + O(r³)` from the singular point exceeds `ε`, for `ε → 0`, with constants that depend only on the bounds.
-/

namespace PiBem.Kernel

open MeasureTheory Set

/-- Bounds for the data on a ray. -/
structure RayData (am M δ m0 a b F2 F1 rh : ℝ) (D f : ℝ → ℝ) : Prop where
  am_pos : 0 < am
  M_nonneg : 0 ≤ M
  m0_pos : 0 < m0
  δ_pos : 0 < δ
  δ_one : δ ≤ 1
  δ_small : 8 * M * δ ≤ am
  ha : am ≤ a
  hb : |b| ≤ M
  hF2 : |F2| ≤ M
  hF1 : |F1| ≤ M
  hrh : δ ≤ rh
  D0 : D 0 = 0
  Dc : ContinuousOn D (Icc 0 rh)
  Dexp : ∀ r, 0 < r → r < δ → |D r - (a * r + b * r ^ 2)| ≤ M * r ^ 3
  Dfar : ∀ r, δ ≤ r → r ≤ rh → m0 ≤ D r
  fexp : ∀ r, 0 < r → r < δ → |f r - F2 / r ^ 2 - F1 / r| ≤ M
  fc : ContinuousOn f (Ioc 0 rh)

/-- The constant of the estimate. -/
noncomputable def rayK (am M : ℝ) : ℝ := (M + 24 * M ^ 2 / am + (2 * M ^ 2 / am + 4 * M ^ 3 / am ^ 2) + 4 * M ^ 2 / am) * (2 / am)

/-- The finite part on a ray. -/
noncomputable def rayLim (a b F2 F1 rh : ℝ) (f : ℝ → ℝ) : ℝ :=
  (∫ r in Ioo 0 rh, (f r - F2 / r ^ 2 - F1 / r)) + F2 * (b / a - 1 / rh) + F1 * Real.log (rh * a)

variable {am M δ m0 a b F2 F1 rh : ℝ} {D f : ℝ → ℝ}

namespace RayData

variable (h : RayData am M δ m0 a b F2 F1 rh D f)
include h

theorem rh_pos : 0 < rh := h.δ_pos.trans_le h.hrh

/-- The largest radius at distance `ε`. -/
theorem exists_alpha {e : ℝ} (he : 0 < e) (hem : e < m0) :
    ∃ al, 0 < al ∧ al < δ ∧ D al = e ∧ ∀ r, al < r → r ≤ rh → e < D r := by
  have hr := h.rh_pos
  obtain ⟨al, ⟨h1, h2⟩, hmax⟩ : ∃ x, IsGreatest ({r | r ∈ Icc 0 rh ∧ D r ≤ e}) x := by
    refine IsCompact.exists_isGreatest ?_ ⟨0, ⟨le_rfl, hr.le⟩, by rw [h.D0]; exact he.le⟩
    have : IsClosed (Icc 0 rh ∩ D ⁻¹' Iic e) := h.Dc.preimage_isClosed_of_isClosed isClosed_Icc isClosed_Iic
    exact isCompact_Icc.of_isClosed_subset this inter_subset_left
  have hlt : al < δ := by
    by_contra hc
    push Not at hc
    have := h.Dfar al hc h1.2
    linarith
  have hmax' : ∀ r, al < r → r ≤ rh → e < D r := by
    intro r hr1 hr2
    by_contra hc
    push Not at hc
    have := hmax (a := r) ⟨⟨by linarith [h1.1], hr2⟩, hc⟩
    linarith
  have heq : D al = e := by
    have hd := h.Dfar δ le_rfl h.hrh
    have hsub : Icc al δ ⊆ Icc 0 rh := Icc_subset_Icc h1.1 h.hrh
    obtain ⟨r, hr1, hr2⟩ := intermediate_value_Icc hlt.le (h.Dc.mono hsub) (show e ∈ Icc (D al) (D δ) from ⟨h2, by linarith⟩)
    have := hmax (a := r) ⟨hsub hr1, hr2.le⟩
    rw [← hr2, le_antisymm hr1.1 this]
  refine ⟨al, lt_of_le_of_ne h1.1 ?_, hlt, heq, hmax'⟩
  rintro rfl
  rw [h.D0] at heq
  linarith

theorem M_small {r : ℝ} (h1 : r < δ) : 8 * M * r ≤ am :=
  (mul_le_mul_of_nonneg_left h1.le (by linarith [h.M_nonneg])).trans h.δ_small

/-- The quotient distance / radius. -/
theorem quot {al : ℝ} (h0 : 0 < al) (h1 : al < δ) :
    |D al / al - a - b * al| ≤ M * al ^ 2 ∧ |D al / al - a| ≤ 2 * M * al ∧ am / 2 ≤ D al / al := by
  have e := h.Dexp al h0 h1
  have hq : D al / al - a - b * al = (D al - (a * al + b * al ^ 2)) / al := by field_simp; ring
  have k1 : |D al / al - a - b * al| ≤ M * al ^ 2 := by
    rw [hq, abs_div, abs_of_pos h0, div_le_iff₀ h0]
    calc _ ≤ _ := e
      _ = _ := by ring
  have k2 : |D al / al - a| ≤ 2 * M * al := by
    have : D al / al - a = (D al / al - a - b * al) + b * al := by ring
    rw [this]
    refine (abs_add_le _ _).trans ?_
    rw [abs_mul, abs_of_pos h0]
    have h2 := mul_le_mul_of_nonneg_right h.hb h0.le
    have h3 : M * al ^ 2 ≤ M * al := by
      have : al ≤ 1 := by linarith [h.δ_one]
      have := mul_le_mul_of_nonneg_left (show al ^ 2 ≤ al by nlinarith) h.M_nonneg
      exact this
    linarith
  refine ⟨k1, k2, ?_⟩
  have h3 := h.M_small h1
  have h4 := (abs_le.1 k2).1
  have h5 := h.ha
  have h6 := h.am_pos
  linarith

/-- Points before the last crossing farther than `ε` are close to the crossing. -/
theorem band {al r : ℝ} (h1 : al < δ) (hr0 : 0 < r) (hr : r < al) (hD : D al < D r) :
    al - r ≤ 3 * M * al ^ 3 / am ∧ al / 2 < r := by
  have h0 : 0 < al := hr0.trans hr
  have e1 := (abs_le.1 (h.Dexp al h0 h1)).1
  have e2 := (abs_le.1 (h.Dexp r hr0 (hr.trans h1))).2
  have hM := h.M_nonneg
  have hs := h.M_small h1
  have hcube : r ^ 3 ≤ al ^ 3 := pow_le_pow_left₀ hr0.le hr.le 3
  have k0 : M * r ^ 3 ≤ M * al ^ 3 := mul_le_mul_of_nonneg_left hcube hM
  have k1 : a * (al - r) + b * (al ^ 2 - r ^ 2) < 2 * M * al ^ 3 := by nlinarith
  have k2 : -(M * ((al - r) * (2 * al))) ≤ b * (al ^ 2 - r ^ 2) := by
    have hb := (abs_le.1 h.hb).1
    have p : 0 ≤ al ^ 2 - r ^ 2 := by nlinarith
    have q : al ^ 2 - r ^ 2 ≤ (al - r) * (2 * al) := by nlinarith
    have := mul_le_mul_of_nonneg_right hb p
    have := mul_le_mul_of_nonneg_left q hM
    linarith
  have k3 : M * ((al - r) * (2 * al)) ≤ am / 4 * (al - r) := by
    have : 0 ≤ al - r := by linarith
    nlinarith
  have k4 : am * (al - r) ≤ a * (al - r) := mul_le_mul_of_nonneg_right h.ha (by linarith)
  have k5 : am * (al - r) ≤ 3 * M * al ^ 3 := by
    have : 0 ≤ M * al ^ 3 := by positivity
    linarith
  have ham := h.am_pos
  have r1 : al - r ≤ 3 * M * al ^ 3 / am := by
    rw [le_div_iff₀ ham]; linarith
  refine ⟨r1, ?_⟩
  have : 3 * M * al ^ 3 ≤ am * (3 / 8 * al) := by
    have hal : al ≤ 1 := by linarith [h.δ_one]
    have : al ^ 3 ≤ al ^ 2 := by nlinarith [sq_nonneg al]
    have := mul_le_mul_of_nonneg_left this hM
    nlinarith
  nlinarith

theorem sub_integrable : IntegrableOn (fun r => f r - F2 / r ^ 2 - F1 / r) (Ioo 0 rh) := by
  have hc : ContinuousOn (fun r => f r - F2 / r ^ 2 - F1 / r) (Ioc 0 rh) := by
    have hne : ∀ r ∈ Ioc 0 rh, r ≠ 0 := fun r hr => hr.1.ne'
    exact (h.fc.sub (continuousOn_const.div (continuousOn_id.pow 2) fun r hr => pow_ne_zero 2 (hne r hr))).sub
      (continuousOn_const.div continuousOn_id hne)
  have hd := h.δ_pos
  have hr := h.hrh
  have h1 : IntegrableOn (fun r => f r - F2 / r ^ 2 - F1 / r) (Ioo 0 δ) := by
    refine Integrable.of_bound (μ := volume.restrict (Ioo 0 δ)) ?_ M ?_
    · refine (hc.mono ?_).aestronglyMeasurable measurableSet_Ioo
      exact fun r hr' => ⟨hr'.1, by linarith [hr'.2]⟩
    · filter_upwards [ae_restrict_mem measurableSet_Ioo] with r hr'
      exact h.fexp r hr'.1 hr'.2
  have h2 : IntegrableOn (fun r => f r - F2 / r ^ 2 - F1 / r) (Icc δ rh) := by
    refine ContinuousOn.integrableOn_Icc (hc.mono ?_)
    exact fun r hr' => ⟨by linarith [hr'.1], hr'.2⟩
  refine (h1.union h2).mono_set fun r hr' => ?_
  rcases lt_or_ge r δ with hl | hl
  · exact Or.inl ⟨hr'.1, hl⟩
  · exact Or.inr ⟨hl, hr'.2.le⟩

end RayData

theorem pole_integrable (F2 F1 : ℝ) {al rh : ℝ} (h0 : 0 < al) : IntegrableOn (fun r => F2 / r ^ 2 + F1 / r) (Icc al rh) := by
  refine ContinuousOn.integrableOn_Icc ?_
  have hne : ∀ r ∈ Icc al rh, r ≠ 0 := fun r hr => (h0.trans_le hr.1).ne'
  exact (continuousOn_const.div (continuousOn_id.pow 2) fun r hr => pow_ne_zero 2 (hne r hr)).add
      (continuousOn_const.div continuousOn_id hne)

theorem pole_integral (F2 F1 : ℝ) {al rh : ℝ} (h0 : 0 < al) (h1 : al ≤ rh) : ∫ r in Ioo al rh, (F2 / r ^ 2 + F1 / r) =
    (-F2 / rh + F1 * Real.log rh) - (-F2 / al + F1 * Real.log al) := by
  rw [← integral_Ioc_eq_integral_Ioo, ← intervalIntegral.integral_of_le h1]
  have hmem : ∀ r ∈ uIcc al rh, 0 < r := by
    intro r hr
    rw [uIcc_of_le h1] at hr
    exact h0.trans_le hr.1
  refine intervalIntegral.integral_eq_sub_of_hasDerivAt (f := fun r => -F2 / r + F1 * Real.log r) ?_ ?_
  · intro r hr
    have hr0 := (hmem r hr).ne'
    have h1 := (hasDerivAt_const r (-F2)).fun_div (hasDerivAt_id' r) hr0
    have h2 := (Real.hasDerivAt_log hr0).const_mul F1
    refine (h1.fun_add h2).congr_deriv ?_
    field_simp
    ring
  · rw [intervalIntegrable_iff, uIoc_of_le h1]
    exact (pole_integrable F2 F1 h0).mono_set Ioc_subset_Icc_self

theorem abs_log_sub_le {x y m : ℝ} (hm : 0 < m) (hx : m ≤ x) (hy : m ≤ y) : |Real.log x - Real.log y| ≤ |x - y| / m := by
  have key : ∀ u v : ℝ, m ≤ u → m ≤ v → Real.log u - Real.log v ≤ |u - v| / m := by
    intro u v hu hv
    have u0 := hm.trans_le hu
    have v0 := hm.trans_le hv
    have := Real.log_le_sub_one_of_pos (div_pos u0 v0)
    rw [Real.log_div u0.ne' v0.ne'] at this
    have e : u / v - 1 = (u - v) / v := by field_simp
    rw [e] at this
    refine this.trans ?_
    calc (u - v) / v ≤ |u - v| / v := by gcongr; exact le_abs_self _
      _ ≤ |u - v| / m := by gcongr
  rw [abs_le]
  constructor
  · have := key y x hy hx
    rw [abs_sub_comm] at this
    linarith
  · exact key x y hx hy

/-- The estimate on a ray. -/
theorem ray_estimate (h : RayData am M δ m0 a b F2 F1 rh D f) {e : ℝ} (he : 0 < e) (hem : e < m0) :
    |(∫ r in {r | r ∈ Ioo 0 rh ∧ e < D r}, f r) - (F2 * a / e - F1 * Real.log e) - rayLim a b F2 F1 rh f| ≤ rayK am M * e := by
  obtain ⟨al, h0, h1, hal, hfar⟩ := h.exists_alpha he hem
  obtain ⟨q1, q2, q3⟩ := h.quot h0 h1
  have ham := h.am_pos
  have hM := h.M_nonneg
  have hrh := h.rh_pos
  have halr : al < rh := h1.trans_le h.hrh
  have hal1 : al ≤ 1 := by linarith [h.δ_one]
  set d := D al / al with hd
  have hde : e = al * d := by rw [hd, hal]; field_simp
  have hd0 : 0 < d := by linarith
  have ha0 : 0 < a := ham.trans_le h.ha
  have hale : al ≤ 2 / am * e := by
    rw [hde]
    have : 1 ≤ 2 / am * d := by
      rw [div_mul_eq_mul_div, le_div_iff₀ ham]; linarith
    nlinarith
  set T := {r | r ∈ Ioo 0 rh ∧ e < D r} with hT
  have hTo : IsOpen T := (h.Dc.mono Ioo_subset_Icc_self).isOpen_inter_preimage isOpen_Ioo isOpen_Ioi
  have hTm := hTo.measurableSet
  have hTs : T ⊆ Ioo 0 rh := fun r hr => hr.1
  have hband : ∀ r ∈ T, r < al → al - r ≤ 3 * M * al ^ 3 / am ∧ al / 2 < r := by
    intro r hr hra
    exact h.band h1 hr.1.1 hra (by rw [hal]; exact hr.2)
  have hTal : ∀ r ∈ T, al / 2 < r := by
    intro r hr
    rcases lt_or_ge r al with hl | hl
    · exact (hband r hr hl).2
    · linarith
  -- splitting of f
  have hsubI := h.sub_integrable
  have hgI : IntegrableOn (fun r => F2 / r ^ 2 + F1 / r) T :=
    (pole_integrable F2 F1 (half_pos h0) (rh := rh)).mono_set fun r hr => ⟨(hTal r hr).le, hr.1.2.le⟩
  have s1 : ∫ r in T, f r = (∫ r in T, (f r - F2 / r ^ 2 - F1 / r)) + ∫ r in T, (F2 / r ^ 2 + F1 / r) := by
    rw [← integral_add (hsubI.mono_set hTs) hgI]
    congr 1
    funext r
    ring
  -- the subtracted part
  have s2 : ∫ r in T, (f r - F2 / r ^ 2 - F1 / r) = (∫ r in Ioo 0 rh, (f r - F2 / r ^ 2 - F1 / r)) -
      ∫ r in Ioo 0 rh \ T, (f r - F2 / r ^ 2 - F1 / r) := by
    rw [setIntegral_sdiff hTm hsubI hTs]; ring
  have hdiff : Ioo 0 rh \ T ⊆ Ioc 0 al := by
    rintro r ⟨hr1, hr2⟩
    refine ⟨hr1.1, ?_⟩
    by_contra hc
    push Not at hc
    exact hr2 ⟨hr1, hfar r hc hr1.2.le⟩
  have s3 : |∫ r in Ioo 0 rh \ T, (f r - F2 / r ^ 2 - F1 / r)| ≤ M * al := by
    have hv : volume (Ioo 0 rh \ T) ≤ ENNReal.ofReal al := by
      refine (measure_mono hdiff).trans ?_
      rw [Real.volume_Ioc, sub_zero]
    have hfin : volume (Ioo 0 rh \ T) < ⊤ := hv.trans_lt ENNReal.ofReal_lt_top
    have := norm_setIntegral_le_of_norm_le_const (μ := volume) (C := M) hfin
      (f := fun r => f r - F2 / r ^ 2 - F1 / r) (fun r hr => h.fexp r (hdiff hr).1 ((hdiff hr).2.trans_lt h1))
    refine this.trans (mul_le_mul_of_nonneg_left ?_ hM)
    rw [Measure.real]
    exact ENNReal.toReal_le_of_le_ofReal h0.le hv
  -- the poles
  have hsplit : T = Ioo al rh ∪ (T ∩ Iio al) := by
    ext r
    constructor
    · intro hr
      rcases lt_trichotomy r al with hl | hl | hl
      · exact Or.inr ⟨hr, hl⟩
      · have := hr.2
        rw [hl, hal] at this
        exact absurd this (lt_irrefl _)
      · exact Or.inl ⟨hl, hr.1.2⟩
    · rintro (hr | hr)
      · exact ⟨⟨h0.trans hr.1, hr.2⟩, hfar r hr.1 hr.2.le⟩
      · exact hr.1
  have s4 : ∫ r in T, (F2 / r ^ 2 + F1 / r) = (∫ r in Ioo al rh, (F2 / r ^ 2 + F1 / r)) +
      ∫ r in T ∩ Iio al, (F2 / r ^ 2 + F1 / r) := by
    conv_lhs => rw [hsplit]
    rw [setIntegral_union]
    · rw [disjoint_left]
      rintro r ⟨hr, -⟩ ⟨-, hr'⟩
      exact absurd hr (not_lt.2 (le_of_lt hr'))
    · exact hTm.inter measurableSet_Iio
    · refine hgI.mono_set ?_
      conv_rhs => rw [hsplit]
      exact subset_union_left
    · exact hgI.mono_set inter_subset_left
  have s5 : |∫ r in T ∩ Iio al, (F2 / r ^ 2 + F1 / r)| ≤ 8 * M / al ^ 2 * (3 * M * al ^ 3 / am) := by
    have hb : T ∩ Iio al ⊆ Ico (al - 3 * M * al ^ 3 / am) al := by
      rintro r ⟨hr, hra⟩
      exact ⟨by linarith [(hband r hr hra).1], hra⟩
    have hv : volume (T ∩ Iio al) ≤ ENNReal.ofReal (3 * M * al ^ 3 / am) := by
      refine (measure_mono hb).trans ?_
      rw [Real.volume_Ico]
      apply le_of_eq
      congr 1
      ring
    have hfin : volume (T ∩ Iio al) < ⊤ := hv.trans_lt ENNReal.ofReal_lt_top
    have := norm_setIntegral_le_of_norm_le_const (μ := volume) (C := 8 * M / al ^ 2) hfin
      (f := fun r => F2 / r ^ 2 + F1 / r) ?_
    · refine this.trans (mul_le_mul_of_nonneg_left ?_ (by positivity))
      rw [Measure.real]
      exact ENNReal.toReal_le_of_le_ofReal (by positivity) hv
    · rintro r ⟨hr, hra⟩
      have hra : r < al := hra
      have hr2 := hTal r hr
      have hr0 : 0 < r := hr.1.1
      rw [Real.norm_eq_abs]
      refine (abs_add_le _ _).trans ?_
      rw [abs_div, abs_div, abs_of_pos hr0, abs_of_pos (pow_pos hr0 2)]
      have t1 : |F2| / r ^ 2 ≤ M / (al / 2) ^ 2 := by
        have := h.hF2
        gcongr
      have t2 : |F1| / r ≤ M / (al / 2) ^ 2 := by
        have k1 : |F1| / r ≤ M / r := by
          have := h.hF1
          gcongr
        have k2 : M / r ≤ M / r ^ 2 := by
          apply div_le_div_of_nonneg_left hM (pow_pos hr0 2)
          nlinarith
        have k3 : M / r ^ 2 ≤ M / (al / 2) ^ 2 := by gcongr
        exact k1.trans (k2.trans k3)
      have : 8 * M / al ^ 2 = M / (al / 2) ^ 2 + M / (al / 2) ^ 2 := by field_simp; ring
      rw [this]
      exact add_le_add t1 t2
  have s6 := pole_integral F2 F1 h0 halr.le
  -- algebra
  have hlog : Real.log e = Real.log al + Real.log d := by rw [hde, Real.log_mul h0.ne' hd0.ne']
  have hmain : (∫ r in T, f r) - (F2 * a / e - F1 * Real.log e) - rayLim a b F2 F1 rh f =
      -(∫ r in Ioo 0 rh \ T, (f r - F2 / r ^ 2 - F1 / r)) + (∫ r in T ∩ Iio al, (F2 / r ^ 2 + F1 / r)) +
      F2 * ((d - a - b * al) / (al * d) + b * (a - d) / (a * d)) + F1 * (Real.log d - Real.log a) := by
    rw [s1, s2, s4, s6, rayLim, hlog, Real.log_mul hrh.ne' ha0.ne']
    have : F2 * a / e = F2 * a / (al * d) := by rw [hde]
    rw [this]
    field_simp
    ring
  rw [hmain]
  have b3 : |F2 * ((d - a - b * al) / (al * d) + b * (a - d) / (a * d))| ≤ (2 * M ^ 2 / am + 4 * M ^ 3 / am ^ 2) * al := by
    rw [abs_mul]
    have u1 : |(d - a - b * al) / (al * d)| ≤ 2 * M / am * al := by
      rw [abs_div, abs_of_pos (mul_pos h0 hd0), div_le_iff₀ (mul_pos h0 hd0)]
      refine q1.trans ?_
      have : 1 ≤ 2 / am * d := by
        rw [div_mul_eq_mul_div, le_div_iff₀ ham]; linarith
      have p : 0 ≤ M * al ^ 2 := by positivity
      calc M * al ^ 2 ≤ M * al ^ 2 * (2 / am * d) := le_mul_of_one_le_right p this
        _ = _ := by ring
    have u2 : |b * (a - d) / (a * d)| ≤ 4 * M ^ 2 / am ^ 2 * al := by
      rw [abs_div, abs_of_pos (mul_pos ha0 hd0), div_le_iff₀ (mul_pos ha0 hd0), abs_mul, abs_sub_comm]
      have v1 : |b| * |d - a| ≤ M * (2 * M * al) := mul_le_mul h.hb q2 (abs_nonneg _) hM
      refine v1.trans ?_
      have : 1 ≤ 2 / am ^ 2 * (a * d) := by
        rw [div_mul_eq_mul_div, le_div_iff₀ (pow_pos ham 2)]
        have := mul_le_mul h.ha q3 (by positivity) ha0.le
        nlinarith
      have p : 0 ≤ M * (2 * M * al) := by positivity
      calc M * (2 * M * al) ≤ M * (2 * M * al) * (2 / am ^ 2 * (a * d)) := le_mul_of_one_le_right p this
        _ = _ := by ring
    calc |F2| * _ ≤ M * (2 * M / am * al + 4 * M ^ 2 / am ^ 2 * al) :=
          mul_le_mul h.hF2 ((abs_add_le _ _).trans (add_le_add u1 u2)) (abs_nonneg _) hM
      _ = _ := by ring
  have b4 : |F1 * (Real.log d - Real.log a)| ≤ 4 * M ^ 2 / am * al := by
    rw [abs_mul]
    have u := abs_log_sub_le (half_pos ham) q3 (show am / 2 ≤ a by linarith [h.ha])
    have u2 : |d - a| / (am / 2) ≤ 2 * M * al / (am / 2) := by gcongr
    calc |F1| * _ ≤ M * (2 * M * al / (am / 2)) := mul_le_mul h.hF1 (u.trans u2) (abs_nonneg _) hM
      _ = _ := by field_simp; ring
  have s5' : |∫ r in T ∩ Iio al, (F2 / r ^ 2 + F1 / r)| ≤ 24 * M ^ 2 / am * al := by
    refine s5.trans (le_of_eq ?_)
    field_simp
    ring
  have tri : ∀ p q r s : ℝ, |p + q + r + s| ≤ |p| + |q| + |r| + |s| := fun p q r s =>
    (abs_add_le _ _).trans (add_le_add ((abs_add_le _ _).trans (add_le_add (abs_add_le _ _) le_rfl)) le_rfl)
  refine (tri _ _ _ _).trans ?_
  rw [abs_neg]
  have fin : M * al + 24 * M ^ 2 / am * al + (2 * M ^ 2 / am + 4 * M ^ 3 / am ^ 2) * al + 4 * M ^ 2 / am * al ≤ rayK am M * e := by
    unfold rayK
    have : M * al + 24 * M ^ 2 / am * al + (2 * M ^ 2 / am + 4 * M ^ 3 / am ^ 2) * al + 4 * M ^ 2 / am * al =
        (M + 24 * M ^ 2 / am + (2 * M ^ 2 / am + 4 * M ^ 3 / am ^ 2) + 4 * M ^ 2 / am) * al := by ring
    rw [this, mul_assoc]
    exact mul_le_mul_of_nonneg_left hale (by positivity)
  linarith

end PiBem.Kernel
