import Verif.Props.FreeCorner

/-!
# Free coefficients at convex polyhedral corners (C66): integrals over wedges
-/

noncomputable section

namespace PiBem.Bem

open PiBem.Expansion (V3 rho dot)
open MeasureTheory

/-- The vector with coordinates `ξ` in the frame. -/
def fromFrame (e : Fin 3 → V3) (ξ : V3) : V3 := fun i => ξ 0 * e 0 i + ξ 1 * e 1 i + ξ 2 * e 2 i

theorem frame_int {e : Fin 3 → V3} (h : Frame e) (F : V3 → ℝ) : ∫ x, F x = ∫ ξ, F (fromFrame e ξ) := by
  set Q : Matrix (Fin 3) (Fin 3) ℝ := (Matrix.of e).transpose with hQ
  have h1 : Q.transpose * Q = 1 := by
    ext a b
    rw [Matrix.mul_apply, Fin.sum_univ_three, Matrix.one_apply]
    exact h a b
  have h2 : Q * Q.transpose = 1 := mul_eq_one_comm.mp h1
  have hdet : Q.det * Q.det = 1 := by
    have := congrArg Matrix.det h2
    rw [Matrix.det_mul, Matrix.det_transpose Q, Matrix.det_one] at this
    exact this
  have hd0 : Q.det ≠ 0 := fun h0 => by rw [h0] at hdet; simp at hdet
  have habs : |Q.det⁻¹| = 1 := by
    rw [abs_inv]
    have : |Q.det| * |Q.det| = 1 := by rw [← abs_mul, hdet, abs_one]
    have h3 : |Q.det| = 1 := by nlinarith [abs_nonneg Q.det]
    rw [h3, inv_one]
  have hmap : Measure.map (Matrix.toLin' Q) volume = (volume : Measure V3) := by
    rw [Real.map_matrix_volume_pi_eq_smul_volume_pi hd0, habs]; simp
  let E := (Matrix.toLin'OfInv h1 h2).toContinuousLinearEquiv.toHomeomorph
  have hmp : MeasurePreserving (Matrix.toLin' Q) (volume : Measure V3) volume :=
    ⟨(Matrix.toLin' Q).continuous_of_finiteDimensional.measurable, hmap⟩
  have hE : MeasurableEmbedding (Matrix.toLin' Q) := E.measurableEmbedding
  have := hmp.integral_comp hE F
  rw [← this]
  refine integral_congr_ae (.of_forall fun ξ => ?_)
  show F _ = F _
  congr 1
  funext i
  simp [fromFrame, hQ, Matrix.mulVec, dotProduct, Fin.sum_univ_three]
  ring

theorem coord_int (F : V3 → ℝ) (hF : Integrable F) : ∫ x, F x = ∫ z : ℝ, ∫ p : ℝ × ℝ, F ![p.1, p.2, z] := by
  have h1 := (volume_preserving_piFinSuccAbove (fun _ : Fin 3 => ℝ) 2).symm
  have h2 := ((MeasurePreserving.id (volume : Measure ℝ)).prod (volume_preserving_finTwoArrow ℝ).symm)
  have h := h1.comp h2
  have hemb : MeasurableEmbedding ((MeasurableEquiv.piFinSuccAbove (fun _ : Fin 3 => ℝ) 2).symm ∘ Prod.map id MeasurableEquiv.finTwoArrow.symm) :=
    (MeasurableEquiv.measurableEmbedding _).comp
      ((MeasurableEquiv.refl ℝ).prodCongr (MeasurableEquiv.finTwoArrow (α := ℝ)).symm).measurableEmbedding
  have hval : ∀ q : ℝ × ℝ × ℝ, ((MeasurableEquiv.piFinSuccAbove (fun _ : Fin 3 => ℝ) 2).symm ∘ Prod.map id MeasurableEquiv.finTwoArrow.symm) q =
      ![q.2.1, q.2.2, q.1] := by
    rintro ⟨z, x, y⟩
    funext i
    fin_cases i <;> rfl
  rw [← h.integral_comp hemb F]
  have hi := (h.integrable_comp_emb hemb).mpr hF
  have := integral_prod _ hi
  simp only [Function.comp_apply] at this hval ⊢
  rw [this]
  simp only [hval]

/-- Radial integrals. -/
def radial (k : ℕ) (z : ℝ) : ℝ := ∫ r in Set.Ioi (0 : ℝ), if r ^ 2 + z ^ 2 < 1 then r ^ (k + 1) else 0

theorem radial_even (k : ℕ) (z : ℝ) : radial k (-z) = radial k z := by simp [radial]

theorem radial_eq (k : ℕ) (z : ℝ) (hz : z ^ 2 < 1) : radial k z = Real.sqrt (1 - z ^ 2) ^ (k + 2) / (k + 2) := by
  have hs : 0 < Real.sqrt (1 - z ^ 2) := Real.sqrt_pos.mpr (by linarith)
  have hset : ∀ r : ℝ, r ∈ Set.Ioi (0 : ℝ) → ((if r ^ 2 + z ^ 2 < 1 then r ^ (k + 1) else 0) =
      (Set.Iio (Real.sqrt (1 - z ^ 2))).indicator (fun r => r ^ (k + 1)) r) := by
    intro r hr
    rw [Set.indicator_apply]
    have : r ^ 2 + z ^ 2 < 1 ↔ r < Real.sqrt (1 - z ^ 2) := by
      rw [Real.lt_sqrt (le_of_lt hr)]; constructor <;> intro h <;> linarith
    simp only [this, Set.mem_Iio]
  rw [radial, setIntegral_congr_fun measurableSet_Ioi hset, setIntegral_indicator measurableSet_Iio, Set.Ioi_inter_Iio,
    ← integral_Ioc_eq_integral_Ioo, ← intervalIntegral.integral_of_le hs.le, integral_pow]
  push_cast
  rw [zero_pow (by omega)]
  ring

theorem radial_zero (k : ℕ) (z : ℝ) (hz : ¬ z ^ 2 < 1) : radial k z = 0 := by
  rw [radial]
  refine setIntegral_eq_zero_of_forall_eq_zero fun r hr => if_neg ?_
  have : 0 < r := hr
  nlinarith

theorem int_cut (f : ℝ → ℝ) (F : ℝ → ℝ) (h1 : ∀ z, z ^ 2 < 1 → F z = f z) (h0 : ∀ z, ¬ z ^ 2 < 1 → F z = 0) :
    ∫ z, F z = ∫ z in (-1 : ℝ)..1, f z := by
  have : F = (Set.Ioo (-1 : ℝ) 1).indicator f := by
    funext z
    rw [Set.indicator_apply]
    by_cases hz : z ^ 2 < 1
    · rw [h1 z hz, if_pos ⟨by nlinarith, by nlinarith⟩]
    · rw [h0 z hz, if_neg]
      rintro ⟨a, b⟩
      exact hz (by nlinarith)
  rw [this, integral_indicator measurableSet_Ioo, ← integral_Ioc_eq_integral_Ioo, ← intervalIntegral.integral_of_le (by norm_num)]

theorem radial_00 : ∫ z : ℝ, z ^ 0 * radial 0 z = 2 / 3 := by
  rw [int_cut (fun z => (1 - z ^ 2) / 2) _ (fun z hz => ?_) (fun z hz => by rw [radial_zero 0 z hz, mul_zero])]
  · rw [intervalIntegral.integral_div, intervalIntegral.integral_sub (by simp) (by simp), integral_pow]
    norm_num
  · rw [radial_eq 0 z hz, zero_add, Real.sq_sqrt (by linarith)]; push_cast; ring

theorem radial_20 : ∫ z : ℝ, z ^ 2 * radial 0 z = 2 / 15 := by
  rw [int_cut (fun z => (z ^ 2 - z ^ 4) / 2) _ (fun z hz => ?_) (fun z hz => by rw [radial_zero 0 z hz, mul_zero])]
  · rw [intervalIntegral.integral_div, intervalIntegral.integral_sub (by simp) (by simp), integral_pow, integral_pow]
    norm_num
  · rw [radial_eq 0 z hz, zero_add, Real.sq_sqrt (by linarith)]; push_cast; ring

theorem radial_02 : ∫ z : ℝ, z ^ 0 * radial 2 z = 4 / 15 := by
  rw [int_cut (fun z => (1 - 2 * z ^ 2 + z ^ 4) / 4) _ (fun z hz => ?_) (fun z hz => by rw [radial_zero 2 z hz, mul_zero])]
  · rw [intervalIntegral.integral_div, intervalIntegral.integral_add (by simp) (by simp), intervalIntegral.integral_sub (by simp) (by simp),
      intervalIntegral.integral_const_mul, integral_pow, integral_pow]
    norm_num
  · rw [radial_eq 2 z hz, show (2 + 2) = 2 * 2 from rfl, pow_mul, Real.sq_sqrt (by linarith)]; push_cast; ring

theorem radial_11 : ∫ z : ℝ, z ^ 1 * radial 1 z = 0 := by
  have h := integral_neg_eq_self (fun z : ℝ => z ^ 1 * radial 1 z) volume
  simp only [radial_even, pow_one, neg_mul] at h
  rw [integral_neg] at h
  simp only [pow_one]
  linarith

/-- The wedge in the plane. -/
def wedge2 (β : ℝ) (x y : ℝ) : Prop := 0 < y ∧ 0 < Real.sin β * x - Real.cos β * y

theorem wedge2_polar {β : ℝ} (h0 : 0 < β) (h1 : β < Real.pi) {r φ : ℝ} (hr : 0 < r) (hφ : φ ∈ Set.Ioo (-Real.pi) Real.pi) :
    wedge2 β (r * Real.cos φ) (r * Real.sin φ) ↔ φ ∈ Set.Ioo 0 β := by
  have e : Real.sin β * (r * Real.cos φ) - Real.cos β * (r * Real.sin φ) = r * Real.sin (β - φ) := by rw [Real.sin_sub]; ring
  rw [wedge2, e]
  constructor
  · rintro ⟨h2, h3⟩
    have hs : 0 < Real.sin φ := (pos_iff_pos_of_mul_pos h2).mp hr
    have hs' : 0 < Real.sin (β - φ) := (pos_iff_pos_of_mul_pos h3).mp hr
    have hφ0 : 0 < φ := by
      by_contra hc
      push Not at hc
      have := Real.sin_nonpos_of_nonpos_of_neg_pi_le hc hφ.1.le
      linarith
    refine ⟨hφ0, ?_⟩
    by_contra hc
    push Not at hc
    have := Real.sin_nonpos_of_nonpos_of_neg_pi_le (x := β - φ) (by linarith) (by linarith [hφ.2])
    linarith
  · rintro ⟨h2, h3⟩
    exact ⟨mul_pos hr (Real.sin_pos_of_pos_of_lt_pi h2 hφ.2), mul_pos hr (Real.sin_pos_of_pos_of_lt_pi (by linarith) (by linarith))⟩

open Classical in
/-- Integral over the wedge of a monomial in the distance to the axis and along the axis. -/
theorem wedge_int {β : ℝ} (h0 : 0 < β) (h1 : β < Real.pi) (k l : ℕ) (c : ℝ → ℝ) (G : ℝ → ℝ → ℝ) (hGc : Continuous fun p : ℝ × ℝ => G p.1 p.2)
    (hG : ∀ r φ, G (r * Real.cos φ) (r * Real.sin φ) = r ^ k * c φ) :
    ∫ ξ in {ξ : V3 | wedge2 β (ξ 0) (ξ 1)} ∩ unitBall, ξ 2 ^ l * G (ξ 0) (ξ 1) = (∫ z : ℝ, z ^ l * radial k z) * ∫ φ in (0 : ℝ)..β, c φ := by
  have hcont : Continuous fun ξ : V3 => ξ 2 ^ l * G (ξ 0) (ξ 1) :=
    ((continuous_apply 2).pow l).mul (hGc.comp (.prodMk (continuous_apply 0) (continuous_apply 1)))
  have hm : MeasurableSet ({ξ : V3 | wedge2 β (ξ 0) (ξ 1)} ∩ unitBall) := by
    refine MeasurableSet.inter (MeasurableSet.inter (measurableSet_lt measurable_const (measurable_pi_apply 1))
      (measurableSet_lt (f := fun _ : V3 => (0 : ℝ)) (g := fun ξ : V3 => Real.sin β * ξ 0 - Real.cos β * ξ 1) measurable_const ?_)) meas_ball
    fun_prop
  rw [← integral_indicator hm, coord_int _ ((integrable_indicator_iff hm).mpr (ball_int hcont _)), ← integral_mul_const]
  refine integral_congr_ae (.of_forall fun z => ?_)
  show (∫ p : ℝ × ℝ, _) = z ^ l * radial k z * _
  rw [← integral_comp_polarCoord_symm]
  have hset : polarCoord.target = Set.Ioi (0 : ℝ) ×ˢ Set.Ioo (-Real.pi) Real.pi := rfl
  have hcg : ∀ p ∈ polarCoord.target, (p.1 • (({ξ : V3 | wedge2 β (ξ 0) (ξ 1)} ∩ unitBall).indicator (fun ξ => ξ 2 ^ l * G (ξ 0) (ξ 1))
      ![(polarCoord.symm p).1, (polarCoord.symm p).2, z])) =
      (z ^ l * (if p.1 ^ 2 + z ^ 2 < 1 then p.1 ^ (k + 1) else 0)) * (Set.Ioo 0 β).indicator c p.2 := by
    rintro ⟨r, φ⟩ ⟨hr, hφ⟩
    have hr : 0 < r := hr
    simp only [polarCoord_symm_apply, smul_eq_mul]
    rw [Set.indicator_apply, Set.indicator_apply]
    have hb : (![r * Real.cos φ, r * Real.sin φ, z] : V3) ∈ {ξ : V3 | wedge2 β (ξ 0) (ξ 1)} ∩ unitBall ↔
        φ ∈ Set.Ioo 0 β ∧ r ^ 2 + z ^ 2 < 1 := by
      rw [Set.mem_inter_iff, ← wedge2_polar h0 h1 hr hφ]
      have : (r * Real.cos φ) ^ 2 + (r * Real.sin φ) ^ 2 = r ^ 2 := by
        have := Real.sin_sq_add_cos_sq φ
        nlinarith
      simp [unitBall, this]
    rw [if_congr hb rfl rfl]
    simp only [Matrix.cons_val_zero, Matrix.cons_val_one, Matrix.cons_val]
    rw [hG]
    by_cases c1 : φ ∈ Set.Ioo 0 β <;> by_cases c2 : r ^ 2 + z ^ 2 < 1 <;> simp [c1, c2]
    ring
  have hmt : MeasurableSet polarCoord.target := polarCoord.open_target.measurableSet
  rw [setIntegral_congr_fun hmt hcg, hset, Measure.volume_eq_prod,
    setIntegral_prod_mul (fun r : ℝ => z ^ l * (if r ^ 2 + z ^ 2 < 1 then r ^ (k + 1) else 0)) ((Set.Ioo 0 β).indicator c), integral_const_mul]
  congr 1
  rw [setIntegral_indicator measurableSet_Ioo]
  have : Set.Ioo (-Real.pi) Real.pi ∩ Set.Ioo 0 β = Set.Ioo 0 β := by
    apply Set.inter_eq_self_of_subset_right
    exact Set.Ioo_subset_Ioo (by linarith [Real.pi_pos]) h1.le
  rw [this, ← integral_Ioc_eq_integral_Ioo, ← intervalIntegral.integral_of_le h0.le]

/-! ## Wedges in space -/

theorem fromFrame_ball {e : Fin 3 → V3} (h : Frame e) (ξ : V3) : fromFrame e ξ ∈ unitBall ↔ ξ ∈ unitBall := by
  have := wedge_dot h (ξ 0) (ξ 1) (ξ 2) (ξ 0) (ξ 1) (ξ 2)
  have e2 : dot (fromFrame e ξ) (fromFrame e ξ) = ξ 0 ^ 2 + ξ 1 ^ 2 + ξ 2 ^ 2 := by
    unfold fromFrame; rw [this]; ring
  have e3 : fromFrame e ξ 0 ^ 2 + fromFrame e ξ 1 ^ 2 + fromFrame e ξ 2 ^ 2 = dot (fromFrame e ξ) (fromFrame e ξ) := by
    simp only [dot]; ring
  simp only [unitBall, Set.mem_ofPred_eq, e3, e2]

theorem fromFrame_wedge {e : Fin 3 → V3} (h : Frame e) (β : ℝ) (ξ : V3) :
    fromFrame e ξ ∈ inner (wedgeNormal0 e) ∩ inner (wedgeNormal1 e β) ↔ wedge2 β (ξ 0) (ξ 1) := by
  have h1 := wedge_dot h (ξ 0) (ξ 1) (ξ 2) 0 (-1) 0
  have h2 := wedge_dot h (ξ 0) (ξ 1) (ξ 2) (-Real.sin β) (Real.cos β) 0
  have e1 : dot (fromFrame e ξ) (wedgeNormal0 e) = -ξ 1 := by
    have : wedgeNormal0 e = fun i => 0 * e 0 i + -1 * e 1 i + 0 * e 2 i := by funext i; simp [wedgeNormal0]
    rw [this]; unfold fromFrame; rw [h1]; ring
  have e2 : dot (fromFrame e ξ) (wedgeNormal1 e β) = -(Real.sin β * ξ 0 - Real.cos β * ξ 1) := by
    have : wedgeNormal1 e β = fun i => -Real.sin β * e 0 i + Real.cos β * e 1 i + 0 * e 2 i := by funext i; simp [wedgeNormal1]
    rw [this]; unfold fromFrame; rw [h2]; ring
  simp only [Set.mem_inter_iff, inner, Set.mem_ofPred_eq, e1, e2, wedge2, neg_lt_zero]

theorem frame_ballInt {e : Fin 3 → V3} (h : Frame e) (β : ℝ) (g : V3 → ℝ) :
    ballInt g (inner (wedgeNormal0 e) ∩ inner (wedgeNormal1 e β)) =
      ∫ ξ in {ξ : V3 | wedge2 β (ξ 0) (ξ 1)} ∩ unitBall, g (fromFrame e ξ) := by
  have hm : MeasurableSet ({ξ : V3 | wedge2 β (ξ 0) (ξ 1)} ∩ unitBall) := by
    refine MeasurableSet.inter (MeasurableSet.inter (measurableSet_lt measurable_const (measurable_pi_apply 1))
      (measurableSet_lt (f := fun _ : V3 => (0 : ℝ)) (g := fun ξ : V3 => Real.sin β * ξ 0 - Real.cos β * ξ 1) measurable_const ?_)) meas_ball
    fun_prop
  rw [ballInt, ← integral_indicator (((meas_inner _).inter (meas_inner _)).inter meas_ball), ← integral_indicator hm, frame_int h]
  refine integral_congr_ae (.of_forall fun ξ => ?_)
  classical
  simp only [Set.indicator_apply]
  refine if_congr ?_ rfl rfl
  rw [Set.mem_inter_iff, fromFrame_wedge h, fromFrame_ball h]
  rfl

theorem wedge_volume {e : Fin 3 → V3} (h : Frame e) {β : ℝ} (h0 : 0 < β) (h1 : β < Real.pi) :
    ballInt (fun _ => 1) (inner (wedgeNormal0 e) ∩ inner (wedgeNormal1 e β)) = 2 / 3 * β := by
  rw [frame_ballInt h]
  have := wedge_int h0 h1 0 0 (fun _ => 1) (fun _ _ => 1) continuous_const (by simp)
  simp only [pow_zero, mul_one] at this
  rw [this]
  have h2 := radial_00
  simp only [pow_zero] at h2
  rw [h2]
  simp

theorem wedge_moment {e : Fin 3 → V3} (h : Frame e) {β : ℝ} (h0 : 0 < β) (h1 : β < Real.pi) (i j : Fin 3) :
    ballInt (fun x => x i * x j) (inner (wedgeNormal0 e) ∩ inner (wedgeNormal1 e β)) = 4 * Real.pi / 15 * wedgeTensor e β i j := by
  rw [frame_ballInt h]
  have w1 := wedge_int h0 h1 2 0
    (fun φ => Real.cos φ ^ 2 * (e 0 i * e 0 j) + Real.sin φ ^ 2 * (e 1 i * e 1 j) + Real.sin φ * Real.cos φ * (e 0 i * e 1 j + e 1 i * e 0 j))
    (fun x y => x ^ 2 * (e 0 i * e 0 j) + y ^ 2 * (e 1 i * e 1 j) + x * y * (e 0 i * e 1 j + e 1 i * e 0 j)) (by fun_prop) (fun r φ => by ring)
  have w2 := wedge_int h0 h1 1 1
    (fun φ => Real.cos φ * (e 0 i * e 2 j + e 2 i * e 0 j) + Real.sin φ * (e 1 i * e 2 j + e 2 i * e 1 j))
    (fun x y => x * (e 0 i * e 2 j + e 2 i * e 0 j) + y * (e 1 i * e 2 j + e 2 i * e 1 j)) (by fun_prop) (fun r φ => by ring)
  have w3 := wedge_int h0 h1 0 2 (fun _ => e 2 i * e 2 j) (fun _ _ => e 2 i * e 2 j) continuous_const (fun r φ => by ring)
  rw [radial_02] at w1
  rw [radial_11, zero_mul] at w2
  rw [radial_20] at w3
  have hsum : ∀ ξ : V3, fromFrame e ξ i * fromFrame e ξ j =
      (ξ 2 ^ 0 * (ξ 0 ^ 2 * (e 0 i * e 0 j) + ξ 1 ^ 2 * (e 1 i * e 1 j) + ξ 0 * ξ 1 * (e 0 i * e 1 j + e 1 i * e 0 j)) +
        ξ 2 ^ 1 * (ξ 0 * (e 0 i * e 2 j + e 2 i * e 0 j) + ξ 1 * (e 1 i * e 2 j + e 2 i * e 1 j))) + ξ 2 ^ 2 * (e 2 i * e 2 j) := by
    intro ξ; simp only [fromFrame]; ring
  simp only [hsum]
  rw [integral_add (ball_int (by fun_prop) _) (ball_int (by fun_prop) _), integral_add (ball_int (by fun_prop) _) (ball_int (by fun_prop) _),
    w1, w2, w3, wedgeTensor_eq h]
  have hd : ∀ φ, HasDerivAt (fun φ : ℝ => (φ / 2 + Real.sin φ * Real.cos φ / 2) * (e 0 i * e 0 j) +
      (φ / 2 - Real.sin φ * Real.cos φ / 2) * (e 1 i * e 1 j) + Real.sin φ ^ 2 / 2 * (e 0 i * e 1 j + e 1 i * e 0 j))
      (Real.cos φ ^ 2 * (e 0 i * e 0 j) + Real.sin φ ^ 2 * (e 1 i * e 1 j) + Real.sin φ * Real.cos φ * (e 0 i * e 1 j + e 1 i * e 0 j)) φ := by
    intro φ
    have hc := Real.hasDerivAt_cos φ
    have hs := Real.hasDerivAt_sin φ
    have hi := hasDerivAt_id φ
    have h1 := ((hi.div_const 2).add ((hs.mul hc).div_const 2)).mul_const (e 0 i * e 0 j)
    have h2 := ((hi.div_const 2).sub ((hs.mul hc).div_const 2)).mul_const (e 1 i * e 1 j)
    have h3 := ((hs.pow 2).div_const 2).mul_const (e 0 i * e 1 j + e 1 i * e 0 j)
    refine HasDerivAt.congr_deriv ((h1.add h2).add h3) (Eq.symm ?_)
    have := Real.sin_sq_add_cos_sq φ
    push_cast
    linear_combination (1 / 2 * (e 0 i * e 0 j) + 1 / 2 * (e 1 i * e 1 j)) * this
  rw [intervalIntegral.integral_eq_sub_of_hasDerivAt (fun φ _ => hd φ) (Continuous.intervalIntegrable (by fun_prop) _ _),
    intervalIntegral.integral_const]
  have hf := frame_complete h i j
  have hpi := Real.pi_ne_zero
  have hz : (if i = j then β / (2 * Real.pi) else 0) = β / (2 * Real.pi) * (if i = j then 1 else 0) := by
    split_ifs <;> ring
  rw [hz, ← hf, Real.sin_zero, Real.cos_zero, smul_eq_mul]
  field_simp
  ring

/-- Two unit normals that are not parallel are those of a wedge. -/
theorem exists_wedge (a b : V3) (ha : rho a = 1) (hb : rho b = 1) (hab : cross a b ≠ 0) :
    ∃ e β, Frame e ∧ 0 < β ∧ β < Real.pi ∧ a = wedgeNormal0 e ∧ b = wedgeNormal1 e β ∧ β = Real.pi - Real.arccos (dot a b) := by
  have haa : dot a a = 1 := by rw [dot_self, ha]; norm_num
  have hbb : dot b b = 1 := by rw [dot_self, hb]; norm_num
  have hrc := rho_cross a b
  rw [haa, hbb] at hrc
  have hpos : 0 < rho (cross a b) := lt_of_le_of_ne (PiBem.Harmonic.rho_nonneg _) fun h => hab (PiBem.Harmonic.rho_eq_zero.1 h.symm)
  set s := rho (cross a b) with hs
  set c := dot a b with hc
  have hs2 : s ^ 2 = 1 - c ^ 2 := by rw [hrc]; ring
  have hc1 : c < 1 := by nlinarith
  have hc2 : -1 < c := by nlinarith
  refine ⟨![fun i => (c * a i - b i) / s, fun i => -a i, fun i => cross a b i / s], Real.pi - Real.arccos c, ?_, ?_, ?_, ?_, ?_, rfl⟩
  · have hcc : dot (cross a b) (cross a b) = s ^ 2 := by rw [dot_self]
    have hac : dot a (cross a b) = 0 := by simp [dot, cross]; ring
    have hbc : dot b (cross a b) = 0 := by simp [dot, cross]; ring
    have bil : ∀ x y z x' y' z' : ℝ, dot (fun i => x * a i + y * b i + z * cross a b i) (fun i => x' * a i + y' * b i + z' * cross a b i) =
        x * x' + y * y' + (x * y' + y * x') * c + z * z' * s ^ 2 := by
      intro x y z x' y' z'
      have hab' : dot a b = c := rfl
      simp only [dot] at haa hbb hcc hac hbc hab' ⊢
      linear_combination x * x' * haa + y * y' * hbb + (x * y' + y * x') * hab' + z * z' * hcc + (x * z' + z * x') * hac + (y * z' + z * y') * hbc
    have v0 : (fun i => (c * a i - b i) / s : V3) = fun i => (c / s) * a i + (-1 / s) * b i + 0 * cross a b i := by funext i; ring
    have v1 : (fun i => -a i : V3) = fun i => (-1) * a i + 0 * b i + 0 * cross a b i := by funext i; ring
    have v2 : (fun i => cross a b i / s : V3) = fun i => 0 * a i + 0 * b i + (1 / s) * cross a b i := by funext i; ring
    have hs0 : s ≠ 0 := hpos.ne'
    rw [v0, v1, v2]
    intro p q
    fin_cases p <;> fin_cases q <;>
      simp only [Fin.zero_eta, Fin.mk_one, Fin.reduceFinMk, Matrix.cons_val_zero, Matrix.cons_val_one, Matrix.cons_val] <;>
      rw [bil] <;> simp only [Fin.isValue, Fin.reduceEq, if_true, if_false] <;> field_simp <;> (try rw [hs2]) <;> ring
  · linarith [Real.arccos_lt_pi.mpr hc2]
  · linarith [Real.arccos_pos.mpr hc1]
  · funext i; simp [wedgeNormal0]
  · funext i
    have h1 : Real.sin (Real.pi - Real.arccos c) = s := by
      rw [Real.sin_pi_sub, Real.sin_arccos, ← hs2, Real.sqrt_sq hpos.le]
    have h2 : Real.cos (Real.pi - Real.arccos c) = -c := by
      rw [Real.cos_pi_sub, Real.cos_arccos hc2.le hc1.le]
    simp only [wedgeNormal1, h1, h2, Matrix.cons_val_zero, Matrix.cons_val_one]
    field_simp
    ring

end PiBem.Bem
