import Verif.Kernel.Guiggiani
import Verif.Kernel.Taylor
import Verif.Props.Kernel
import Mathlib.LinearAlgebra.CrossProduct
import Mathlib.Analysis.Calculus.FDeriv.Symmetric
import Mathlib.Analysis.Calculus.ContDiff.Operations
import Mathlib.Analysis.Calculus.Deriv.Prod
import Mathlib.Analysis.SpecialFunctions.Integrals.Basic

/-!
# C55, C56: the hypersingular integrals

Specification: a cell is the image of a smooth map `x` from the plane (for a mapping of deal.II, a polynomial one), regular
at the singular point; its normal is the normalised vector product of the tangent vectors, its area element the length of
the vector product.
-/

namespace PiBem.Kernel

open Asymptotics Filter Topology

/-! ## Specification -/

/-- Coordinate directions of the parameter plane. -/
def unitDir (j : Fin 2) : ℝ × ℝ := if j = 0 then (1, 0) else (0, 1)

/-- Partial derivative of a function of the parameters. -/
noncomputable def pd (h : ℝ × ℝ → ℝ) (j : Fin 2) (p : ℝ × ℝ) : ℝ := fderiv ℝ h p (unitDir j)

/-- Vector product of the tangent vectors of the surface `x`. -/
noncomputable def normalVec (x : Fin 3 → ℝ × ℝ → ℝ) (p : ℝ × ℝ) : Pt 3 :=
  crossProduct (fun i => pd (x i) 0 p) (fun i => pd (x i) 1 p)

/-- Unit normal. -/
noncomputable def unitNormal (x : Fin 3 → ℝ × ℝ → ℝ) (p : ℝ × ℝ) : Pt 3 :=
  fun i => normalVec x p i / norm (normalVec x p)

/-- Jacobian matrix at a point: what deal.II returns as `jacobian`. -/
noncomputable def jacAt (x : Fin 3 → ℝ × ℝ → ℝ) (p : ℝ × ℝ) : Jac := fun i j => pd (x i) j p

/-- Derivatives of the Jacobian matrix: what deal.II returns as `jacobian_grad`. -/
noncomputable def jacGradAt (x : Fin 3 → ℝ × ℝ → ℝ) (p : ℝ × ℝ) : JacGrad := fun i j k => pd (pd (x i) j) k p

/-- The point with polar coordinates `(rho, th)` around `eta`. -/
noncomputable def polarPoint (eta : ℝ × ℝ) (th rho : ℝ) : ℝ × ℝ :=
  (rho * Real.cos th + eta.1, rho * Real.sin th + eta.2)

/-- The vector from the singular point to the point with polar coordinates `(rho, th)`. -/
noncomputable def polarR (x : Fin 3 → ℝ × ℝ → ℝ) (eta : ℝ × ℝ) (th rho : ℝ) : Pt 3 :=
  fun i => x i (polarPoint eta th rho) - x i eta

/-! ## Derivatives along a ray -/

theorem contDiff_pd {h : ℝ × ℝ → ℝ} {n : ℕ} (hh : ContDiff ℝ (n + 1 : ℕ) h) (j : Fin 2) : ContDiff ℝ n (pd h j) := by
  unfold pd
  have : ContDiff ℝ n (fderiv ℝ h) := by
    apply hh.fderiv_right
    norm_cast
  exact this.clm_apply contDiff_const

theorem polarPoint_zero (eta : ℝ × ℝ) (th : ℝ) : polarPoint eta th 0 = eta := by
  simp [polarPoint]

theorem contDiff_polar (eta : ℝ × ℝ) (th : ℝ) (n : ℕ) : ContDiff ℝ n (polarPoint eta th) := by
  unfold polarPoint
  fun_prop

theorem hasDerivAt_ray {h : ℝ × ℝ → ℝ} (hh : Differentiable ℝ h) (eta : ℝ × ℝ) (th r : ℝ) :
    HasDerivAt (fun r => h (polarPoint eta th r))
      (Real.cos th * pd h 0 (polarPoint eta th r) + Real.sin th * pd h 1 (polarPoint eta th r)) r := by
  have h1 : HasDerivAt (polarPoint eta th) (Real.cos th, Real.sin th) r := by
    unfold polarPoint
    have a := ((hasDerivAt_id' r).mul_const (Real.cos th)).add_const eta.1
    have b := ((hasDerivAt_id' r).mul_const (Real.sin th)).add_const eta.2
    have c := HasDerivAt.prodMk a b
    simp only [one_mul] at c
    exact c
  have h2 := (hh (polarPoint eta th r)).hasFDerivAt.comp_hasDerivAt r h1
  have e : (Real.cos th, Real.sin th) = Real.cos th • ((1 : ℝ), (0 : ℝ)) + Real.sin th • ((0 : ℝ), (1 : ℝ)) := by simp
  have e2 : fderiv ℝ h (polarPoint eta th r) (Real.cos th, Real.sin th) =
      Real.cos th * pd h 0 (polarPoint eta th r) + Real.sin th * pd h 1 (polarPoint eta th r) := by
    rw [e, map_add, map_smul, map_smul]
    simp [pd, unitDir]
  rw [e2] at h2
  exact h2

theorem tay_ray {h : ℝ × ℝ → ℝ} (hh : ContDiff ℝ 2 h) (eta : ℝ × ℝ) (th : ℝ) :
    Tay (fun r => h (polarPoint eta th r)) (h eta) (pd h 0 eta * Real.cos th + pd h 1 eta * Real.sin th) := by
  have hc : ContDiff ℝ 2 (fun r => h (polarPoint eta th r)) := hh.comp (contDiff_polar eta th 2)
  refine (Tay.of_contDiff hc).coef (by rw [polarPoint_zero]) ?_
  rw [(hasDerivAt_ray (hh.differentiable (by norm_num)) eta th 0).deriv, polarPoint_zero]
  ring

theorem pd_symm {h : ℝ × ℝ → ℝ} (hh : ContDiff ℝ 2 h) (p : ℝ × ℝ) : pd (pd h 0) 1 p = pd (pd h 1) 0 p := by
  have hs : IsSymmSndFDerivAt ℝ h p := hh.contDiffAt.isSymmSndFDerivAt (by simp)
  have hd : Differentiable ℝ (fderiv ℝ h) := (hh.fderiv_right (m := 1) (by norm_num)).differentiable (by norm_num)
  have e : ∀ j k, pd (pd h j) k p = fderiv ℝ (fderiv ℝ h) p (unitDir k) (unitDir j) := by
    intro j k
    unfold pd
    rw [fderiv_clm_apply (hd p) (differentiableAt_const _)]
    simp
  rw [e, e]
  exact hs.eq _ _

theorem tay_chord {h : ℝ × ℝ → ℝ} (hh : ContDiff ℝ 3 h) (eta : ℝ × ℝ) (th : ℝ) :
    Tay (fun r => (h (polarPoint eta th r) - h eta) / r) (pd h 0 eta * Real.cos th + pd h 1 eta * Real.sin th)
      (pd (pd h 0) 0 eta * Real.cos th ^ 2 / 2 + pd (pd h 0) 1 eta * Real.cos th * Real.sin th +
        pd (pd h 1) 1 eta * Real.sin th ^ 2 / 2) := by
  have hc : ContDiff ℝ 3 (fun r => h (polarPoint eta th r)) := hh.comp (contDiff_polar eta th 3)
  have hp : ∀ j, ContDiff ℝ 2 (pd h j) := fun j => contDiff_pd (n := 2) (by exact_mod_cast hh) j
  have hd1 : deriv (fun r => h (polarPoint eta th r)) = fun r =>
      Real.cos th * pd h 0 (polarPoint eta th r) + Real.sin th * pd h 1 (polarPoint eta th r) := by
    funext r
    exact (hasDerivAt_ray (hh.differentiable (by norm_num)) eta th r).deriv
  have hd2 : deriv (deriv (fun r => h (polarPoint eta th r))) 0 =
      Real.cos th * (Real.cos th * pd (pd h 0) 0 eta + Real.sin th * pd (pd h 0) 1 eta) +
      Real.sin th * (Real.cos th * pd (pd h 1) 0 eta + Real.sin th * pd (pd h 1) 1 eta) := by
    rw [hd1]
    have a := (hasDerivAt_ray ((hp 0).differentiable (by norm_num)) eta th 0).const_mul (Real.cos th)
    have b := (hasDerivAt_ray ((hp 1).differentiable (by norm_num)) eta th 0).const_mul (Real.sin th)
    have := (a.fun_add b).deriv
    rw [this, polarPoint_zero]
  have h2 : ContDiff ℝ 2 h := hh.of_le (by norm_num)
  have hT := Tay.div_of_contDiff hc
  rw [polarPoint_zero, hd2] at hT
  refine hT.coef ?_ ?_
  · rw [hd1]; simp only [polarPoint_zero]; ring
  · rw [← pd_symm h2]; ring

/-! ## The coefficients are those of the expansions -/

theorem etaJxn_eq (x : Fin 3 → ℝ × ℝ → ℝ) (p : ℝ × ℝ) : etaJxn (jacAt x p) = normalVec x p := by
  unfold etaJxn normalVec jacAt
  rw [cross_apply]
  funext i
  fin_cases i <;> simp <;> ring

theorem tangent_dot (J : Jac) (th : ℝ) : sdot (coefA J th) (etaJxn J) = 0 := by
  simp [sdot, coefA, etaJxn]; ring

theorem coefA_ne_zero {J : Jac} (h : etaJxn J ≠ 0) (th : ℝ) : coefA J th ≠ 0 := by
  intro h0
  apply h
  have a0 := congrFun h0 0
  have a1 := congrFun h0 1
  have a2 := congrFun h0 2
  simp only [coefA, Pi.zero_apply] at a0 a1 a2
  have hcs := Real.sin_sq_add_cos_sq th
  funext i
  fin_cases i
  · simp only [etaJxn]
    simp
    have e1 : (J 1 0 * J 2 1 - J 1 1 * J 2 0) * Real.cos th = 0 := by linear_combination J 2 1 * a1 - J 1 1 * a2
    have e2 : (J 1 0 * J 2 1 - J 1 1 * J 2 0) * Real.sin th = 0 := by linear_combination J 1 0 * a2 - J 2 0 * a1
    linear_combination (-(J 1 0 * J 2 1 - J 1 1 * J 2 0)) * hcs + Real.cos th * e1 + Real.sin th * e2
  · simp only [etaJxn]
    simp
    have e1 : (J 0 1 * J 2 0 - J 0 0 * J 2 1) * Real.cos th = 0 := by linear_combination J 0 1 * a2 - J 2 1 * a0
    have e2 : (J 0 1 * J 2 0 - J 0 0 * J 2 1) * Real.sin th = 0 := by linear_combination J 2 0 * a0 - J 0 0 * a2
    linear_combination (-(J 0 1 * J 2 0 - J 0 0 * J 2 1)) * hcs + Real.cos th * e1 + Real.sin th * e2
  · simp only [etaJxn]
    simp
    have e1 : (J 0 0 * J 1 1 - J 0 1 * J 1 0) * Real.cos th = 0 := by linear_combination J 1 1 * a0 - J 0 1 * a1
    have e2 : (J 0 0 * J 1 1 - J 0 1 * J 1 0) * Real.sin th = 0 := by linear_combination J 0 0 * a1 - J 1 0 * a0
    linear_combination (-(J 0 0 * J 1 1 - J 0 1 * J 1 0)) * hcs + Real.cos th * e1 + Real.sin th * e2

variable {x : Fin 3 → ℝ × ℝ → ℝ} (hx : ∀ i, ContDiff ℝ 3 (x i)) (eta : ℝ × ℝ) (th : ℝ)
include hx

theorem tay_S (i : Fin 3) : Tay (fun r => polarR x eta th r i / r) (coefA (jacAt x eta) th i)
    (coefB (jacGradAt x eta) th i) := tay_chord (hx i) eta th

theorem tay_normal (i : Fin 3) : Tay (fun r => normalVec x (polarPoint eta th r) i) (etaJxn (jacAt x eta) i)
    (coefJk1 (jacAt x eta) (jacGradAt x eta) th i) := by
  have hp : ∀ i j, ContDiff ℝ 2 (pd (x i) j) := fun i j => contDiff_pd (n := 2) (by exact_mod_cast hx i) j
  have t : ∀ i j, Tay (fun r => pd (x i) j (polarPoint eta th r)) (jacAt x eta i j)
      (jacGradAt x eta i j 0 * Real.cos th + jacGradAt x eta i j 1 * Real.sin th) := fun i j => tay_ray (hp i j) eta th
  have e : ∀ i, (fun r => normalVec x (polarPoint eta th r) i) = fun r => etaJxn (jacAt x (polarPoint eta th r)) i := by
    intro i; funext r; rw [etaJxn_eq]
  rw [e]
  fin_cases i
  · refine (((t 1 0).mul (t 2 1)).sub ((t 1 1).mul (t 2 0))).coef (by simp [etaJxn]) ?_
    simp [coefJk1, dEtaJxn]; ring
  · refine (((t 0 1).mul (t 2 0)).sub ((t 0 0).mul (t 2 1))).coef (by simp [etaJxn]) ?_
    simp [coefJk1, dEtaJxn]; ring
  · refine (((t 0 0).mul (t 1 1)).sub ((t 0 1).mul (t 1 0))).coef (by simp [etaJxn]) ?_
    simp [coefJk1, dEtaJxn]; ring

omit hx in
theorem norm_polarR {r : ℝ} (hr : 0 < r) :
    norm (polarR x eta th r) = r * Real.sqrt ((polarR x eta th r 0 / r) * (polarR x eta th r 0 / r) +
      (polarR x eta th r 1 / r) * (polarR x eta th r 1 / r) + (polarR x eta th r 2 / r) * (polarR x eta th r 2 / r)) := by
  rw [norm, sum_square3]
  have : polarR x eta th r 0 * polarR x eta th r 0 + polarR x eta th r 1 * polarR x eta th r 1 +
      polarR x eta th r 2 * polarR x eta th r 2 = r ^ 2 * ((polarR x eta th r 0 / r) * (polarR x eta th r 0 / r) +
      (polarR x eta th r 1 / r) * (polarR x eta th r 1 / r) +
      (polarR x eta th r 2 / r) * (polarR x eta th r 2 / r)) := by field_simp
  rw [this, Real.sqrt_mul (by positivity), Real.sqrt_sq hr.le]

/-- Expansion of the distance divided by the radius. -/
theorem tay_dist (hreg : normalVec x eta ≠ 0) :
    Tay (fun r => norm (polarR x eta th r) / r) (qA (jacAt x eta) th)
      (qC (jacAt x eta) (jacGradAt x eta) th / qA (jacAt x eta) th) := by
  have hA : coefA (jacAt x eta) th ≠ 0 := coefA_ne_zero (by rw [etaJxn_eq]; exact hreg) th
  have t0 := tay_S hx eta th 0
  have t1 := tay_S hx eta th 1
  have t2 := tay_S hx eta th 2
  have hpos := square_pos hA
  have h := (((t0.mul t0).add (t1.mul t1)).add (t2.mul t2)).sqrt (by rw [sum_square3] at hpos; exact hpos)
  have e : norm (coefA (jacAt x eta) th) = Real.sqrt (coefA (jacAt x eta) th 0 * coefA (jacAt x eta) th 0 +
      coefA (jacAt x eta) th 1 * coefA (jacAt x eta) th 1 + coefA (jacAt x eta) th 2 * coefA (jacAt x eta) th 2) := by
    rw [norm, sum_square3]
  rw [← e] at h
  refine (h.congr' (fun r hr => ?_)).coef rfl ?_
  · rw [norm_polarR eta th hr]; field_simp
  · unfold qA qC sdot
    have := (norm_pos hA).ne'
    field_simp
    ring

omit hx in
theorem bounded_of_isBigO {f : ℝ → ℝ} (h : f =O[𝓝[>] (0 : ℝ)] fun _ => (1 : ℝ)) :
    ∃ C δ : ℝ, 0 < δ ∧ ∀ r, 0 < r → r < δ → |f r| ≤ C := by
  obtain ⟨C, hC⟩ := h.bound
  rw [eventually_nhdsWithin_iff, Metric.eventually_nhds_iff] at hC
  obtain ⟨δ, hδ, h⟩ := hC
  refine ⟨C, δ, hδ, fun r h0 h1 => ?_⟩
  have := h (y := r) (by rw [Real.dist_eq, sub_zero, abs_of_pos h0]; exact h1) h0
  simpa using this

omit hx in
/-- If `ρ² f` has the expansion `a + b ρ`, then `f - a / ρ² - b / ρ` is bounded. -/
theorem subtract_isBigO {f g : ℝ → ℝ} {a b : ℝ} (h : Tay g a b) (he : ∀ r > 0, f r = g r / r ^ 2) :
    (fun r => f r - a / r ^ 2 - b / r) =O[𝓝[>] (0 : ℝ)] fun _ => (1 : ℝ) := by
  unfold Tay at h
  have h4 := h.mul (isBigO_refl (fun r : ℝ => (r ^ 2)⁻¹) (𝓝[>] (0 : ℝ)))
  refine h4.congr' ?_ ?_
  · filter_upwards [self_mem_nhdsWithin] with r hr
    rw [he r hr]
    have hr : r ≠ 0 := ne_of_gt hr
    field_simp
    ring
  · filter_upwards [self_mem_nhdsWithin] with r hr
    have hr : r ≠ 0 := ne_of_gt hr
    field_simp

omit hx in
theorem unitNormal_mul (p : ℝ × ℝ) (i : Fin 3) : unitNormal x p i * norm (normalVec x p) = normalVec x p i := by
  unfold unitNormal
  by_cases h : normalVec x p = 0
  · rw [h]; simp
  · rw [div_mul_cancel₀ _ (norm_pos h).ne']

/-! ## Theorems -/

/-- **C55**. For every smooth cell regular at the singular point, every shape function and every angle: the integrand of the
hypersingular integral minus the terms `F_2/ρ² + F_1/ρ` computed from the derivatives at the singular point stays bounded
when the radius tends to zero. So the radial integral computed by Gauss quadrature is not singular. -/
theorem C55_hypersingular_subtraction (hreg : normalVec x eta ≠ 0) {N : ℝ × ℝ → ℝ} (hN : ContDiff ℝ 2 N) (i : Fin 3) :
    ∃ C δ : ℝ, 0 < δ ∧ ∀ rho, 0 < rho → rho < δ →
      |subtracted
        (vFun (polarR x eta th rho) (unitNormal x (polarPoint eta th rho)) (N (polarPoint eta th rho)))
        (vF2 (jacAt x eta) (N eta) th)
        (vF1 (jacAt x eta) (jacGradAt x eta) (N eta) (fun k => pd N k eta) th)
        rho (norm (normalVec x (polarPoint eta th rho))) i| ≤ C := by
  have hA : coefA (jacAt x eta) th ≠ 0 := coefA_ne_zero (by rw [etaJxn_eq]; exact hreg) th
  have ha : qA (jacAt x eta) th ≠ 0 := (norm_pos hA).ne'
  have tu := (tay_dist hx eta th hreg).inv ha
  have tS := tay_S hx eta th
  have tn := tay_normal hx eta th
  have tN := tay_ray hN eta th
  have tdot : Tay (fun r => polarR x eta th r 0 / r * normalVec x (polarPoint eta th r) 0 +
      polarR x eta th r 1 / r * normalVec x (polarPoint eta th r) 1 +
      polarR x eta th r 2 / r * normalVec x (polarPoint eta th r) 2) 0
      (sdot (etaJxn (jacAt x eta)) (coefB (jacGradAt x eta) th) +
        sdot (coefJk1 (jacAt x eta) (jacGradAt x eta) th) (coefA (jacAt x eta) th)) := by
    refine ((((tS 0).mul (tn 0)).add ((tS 1).mul (tn 1))).add ((tS 2).mul (tn 2))).coef
      (tangent_dot (jacAt x eta) th) ?_
    unfold sdot; ring
  have tg := ((((tu.mul tu).mul tu).neg).mul (((((Tay.const 3).mul (tS i)).mul tdot).mul (tu.mul tu)).sub (tn i))).mul tN
  apply bounded_of_isBigO
  unfold subtracted
  have tg' := tg.coef (a' := vF2 (jacAt x eta) (N eta) th i)
    (b' := vF1 (jacAt x eta) (jacGradAt x eta) (N eta) (fun k => pd N k eta) th i) ?_ ?_
  · refine subtract_isBigO tg' (fun r hr => ?_)
    have hn := unitNormal_mul (x := x) (polarPoint eta th r)
    unfold vFun
    have hd : sdot (polarR x eta th r) (unitNormal x (polarPoint eta th r)) * norm (normalVec x (polarPoint eta th r)) =
        r * (polarR x eta th r 0 / r * normalVec x (polarPoint eta th r) 0 +
      polarR x eta th r 1 / r * normalVec x (polarPoint eta th r) 1 +
      polarR x eta th r 2 / r * normalVec x (polarPoint eta th r) 2) := by
      rw [← hn 0, ← hn 1, ← hn 2]; unfold sdot; field_simp
    have e : (3 * (polarR x eta th r i / norm (polarR x eta th r)) *
          (sdot (polarR x eta th r) (unitNormal x (polarPoint eta th r)) / norm (polarR x eta th r)) -
          unitNormal x (polarPoint eta th r) i) * norm (normalVec x (polarPoint eta th r)) =
        3 * (polarR x eta th r i / norm (polarR x eta th r)) *
          ((sdot (polarR x eta th r) (unitNormal x (polarPoint eta th r)) * norm (normalVec x (polarPoint eta th r))) /
            norm (polarR x eta th r)) - normalVec x (polarPoint eta th r) i := by
      rw [← hn i]; ring
    have e' : -1 / norm (polarR x eta th r) ^ 3 * (3 * (polarR x eta th r i / norm (polarR x eta th r)) *
          (sdot (polarR x eta th r) (unitNormal x (polarPoint eta th r)) / norm (polarR x eta th r)) -
          unitNormal x (polarPoint eta th r) i) * N (polarPoint eta th r) * r *
          norm (normalVec x (polarPoint eta th r)) =
        -1 / norm (polarR x eta th r) ^ 3 * N (polarPoint eta th r) * r *
        ((3 * (polarR x eta th r i / norm (polarR x eta th r)) *
          (sdot (polarR x eta th r) (unitNormal x (polarPoint eta th r)) / norm (polarR x eta th r)) -
          unitNormal x (polarPoint eta th r) i) * norm (normalVec x (polarPoint eta th r))) := by ring
    rw [e', e, hd]
    generalize polarR x eta th r 0 / r * normalVec x (polarPoint eta th r) 0 +
      polarR x eta th r 1 / r * normalVec x (polarPoint eta th r) 1 +
      polarR x eta th r 2 / r * normalVec x (polarPoint eta th r) 2 = d
    have hr' : r ≠ 0 := ne_of_gt hr
    rw [inv_div]
    generalize norm (polarR x eta th r) = l
    field_simp
  · simp only [vF2]
    field_simp
    ring
  · simp only [vF1, coefN1]
    generalize sdot (etaJxn (jacAt x eta)) (coefB (jacGradAt x eta) th) +
        sdot (coefJk1 (jacAt x eta) (jacGradAt x eta) th) (coefA (jacAt x eta) th) = m
    field_simp
    ring

omit hx in
theorem tay_id : Tay (fun r => r) 0 1 := by
  unfold Tay
  refine (isBigO_zero (E' := ℝ) (fun r : ℝ => r ^ 2) (𝓝[>] (0 : ℝ))).congr_left (fun r => ?_)
  ring

/-- **C55**, strongly singular integrals (`evaluate_WkNj_integrals`): the integrand minus `F_1/ρ` stays bounded. -/
theorem C55_strongly_singular_subtraction (hreg : normalVec x eta ≠ 0) {N : ℝ × ℝ → ℝ} (hN : ContDiff ℝ 2 N)
    (i : Fin 3) :
    ∃ C δ : ℝ, 0 < δ ∧ ∀ rho, 0 < rho → rho < δ →
      |subtracted (wFun (polarR x eta th rho) (N (polarPoint eta th rho))) 0 (wF1 (jacAt x eta) (N eta) th)
        rho (norm (normalVec x (polarPoint eta th rho))) i| ≤ C := by
  have hA : coefA (jacAt x eta) th ≠ 0 := coefA_ne_zero (by rw [etaJxn_eq]; exact hreg) th
  have ha : qA (jacAt x eta) th ≠ 0 := (norm_pos hA).ne'
  have tu := (tay_dist hx eta th hreg).inv ha
  have tS := tay_S hx eta th
  have tn := tay_normal hx eta th
  have tN := tay_ray hN eta th
  have tJ : ∃ b, Tay (fun r => norm (normalVec x (polarPoint eta th r))) (norm (etaJxn (jacAt x eta))) b := by
    have hpos : 0 < square (etaJxn (jacAt x eta)) := square_pos (by rw [etaJxn_eq]; exact hreg)
    have h := ((((tn 0).mul (tn 0)).add ((tn 1).mul (tn 1))).add ((tn 2).mul (tn 2))).sqrt
      (by rw [sum_square3] at hpos; exact hpos)
    refine ⟨_, (h.congr' (fun r _ => ?_)).coef ?_ rfl⟩
    · rw [norm, sum_square3]
    · rw [norm, sum_square3]
  obtain ⟨b, tJ⟩ := tJ
  have tg := tay_id.mul (((((tu.mul tu).mul tu).mul (tS i)).mul tN).mul tJ)
  apply bounded_of_isBigO
  unfold subtracted
  have tg' := tg.coef (a' := (0 : Pt 3) i) (b' := wF1 (jacAt x eta) (N eta) th i) (by simp) ?_
  · refine subtract_isBigO tg' (fun r hr => ?_)
    unfold wFun
    have hr' : r ≠ 0 := ne_of_gt hr
    rw [inv_div]
    generalize norm (polarR x eta th r) = l
    field_simp
  · simp only [wF1]
    field_simp
    ring

/-- **C56**. The terms added back. Let `α ε` be the radius, on the ray of angle `th`, at which the distance from the
singular point is `ε`. For every radius `rhoHat > 0` and coefficients `F2`, `F1`, the integral of `F2/ρ² + F1/ρ` from `α ε`
to `rhoHat`, minus its divergent part `F2/(β ε) - F1 log ε`, tends for `ε → 0` to the sum of the terms added to `I_2` and
`I_1`. -/
theorem C56_finite_part (hreg : normalVec x eta ≠ 0) (α : ℝ → ℝ) (hα0 : ∀ᶠ e in 𝓝[>] (0 : ℝ), 0 < α e)
    (hα : Tendsto α (𝓝[>] 0) (𝓝 0)) (hdist : ∀ᶠ e in 𝓝[>] (0 : ℝ), norm (polarR x eta th (α e)) = e)
    (rhoHat : ℝ) (hrho : 0 < rhoHat) (F2 F1 : Pt 3) (i : Fin 3) :
    Tendsto (fun e => (∫ rho in (α e)..rhoHat, (F2 i / rho ^ 2 + F1 i / rho)) -
        (F2 i / (coefBeta (jacAt x eta) th * e) - F1 i * Real.log e)) (𝓝[>] 0)
      (𝓝 (termI2 F2 (coefBeta (jacAt x eta) th) (coefGamma (jacAt x eta) (jacGradAt x eta) th) rhoHat i +
        termI1 F1 (coefBeta (jacAt x eta) th) rhoHat i)) := by
  have hA : coefA (jacAt x eta) th ≠ 0 := coefA_ne_zero (by rw [etaJxn_eq]; exact hreg) th
  have ha : 0 < qA (jacAt x eta) th := norm_pos hA
  have td := tay_dist hx eta th hreg
  set a := qA (jacAt x eta) th with hadef
  set c := qC (jacAt x eta) (jacGradAt x eta) th with hcdef
  set d := fun r => norm (polarR x eta th r) / r with hd
  have hα' : Tendsto α (𝓝[>] 0) (𝓝[>] 0) := tendsto_nhdsWithin_iff.2 ⟨hα, hα0⟩
  -- first order quotient of `d`
  have hq : Tendsto (fun r => (d r - a) / r) (𝓝[>] 0) (𝓝 (c / a)) := by
    have h1 : (fun r => (d r - (a + c / a * r)) / r) =O[𝓝[>] (0 : ℝ)] fun r => r := by
      have h4 := IsBigO.mul td (isBigO_refl (fun r : ℝ => r⁻¹) (𝓝[>] (0 : ℝ)))
      refine h4.congr' ?_ ?_
      · filter_upwards with r
        exact (div_eq_mul_inv _ _).symm
      · filter_upwards [self_mem_nhdsWithin] with r hr
        have hr : r ≠ 0 := ne_of_gt hr
        field_simp
    have h2 := (h1.trans_tendsto rho_tendsto).add_const (c / a)
    rw [zero_add] at h2
    refine h2.congr' ?_
    filter_upwards [self_mem_nhdsWithin] with r hr
    have hr : r ≠ 0 := ne_of_gt hr
    field_simp
    ring
  have hdα := td.tendsto.comp hα'
  have hqα := hq.comp hα'
  have lim1 : Tendsto (fun e => F2 i * ((d (α e) - a) / α e / d (α e)) - F2 i / rhoHat +
      F1 i * (Real.log rhoHat + Real.log (d (α e)))) (𝓝[>] 0)
      (𝓝 (F2 i * (c / a / a) - F2 i / rhoHat + F1 i * (Real.log rhoHat + Real.log a))) := by
    refine (((hqα.div hdα ha.ne').const_mul (F2 i)).sub_const _).add ?_
    exact (((hdα.log ha.ne')).const_add _).const_mul _
  have elim : termI2 F2 (coefBeta (jacAt x eta) th) (coefGamma (jacAt x eta) (jacGradAt x eta) th) rhoHat i +
        termI1 F1 (coefBeta (jacAt x eta) th) rhoHat i =
      F2 i * (c / a / a) - F2 i / rhoHat + F1 i * (Real.log rhoHat + Real.log a) := by
    unfold termI2 termI1 coefBeta coefGamma
    rw [← hadef, ← hcdef]
    have : rhoHat / (1 / a) = rhoHat * a := by field_simp
    rw [this, abs_of_pos (by positivity), Real.log_mul hrho.ne' ha.ne']
    field_simp
    ring
  rw [elim]
  refine lim1.congr' ?_
  have hsmall : ∀ᶠ e in 𝓝[>] (0 : ℝ), 0 < d (α e) := hdα.eventually_const_lt ha
  filter_upwards [hα0, hdist, hsmall, self_mem_nhdsWithin] with e h0 h1 h2 he
  have he' : 0 < e := he
  have heq : e = α e * d (α e) := by
    simp only [hd]; rw [h1]; field_simp
  have hint : ∫ rho in (α e)..rhoHat, (F2 i / rho ^ 2 + F1 i / rho) =
      (-F2 i / rhoHat + F1 i * Real.log rhoHat) - (-F2 i / α e + F1 i * Real.log (α e)) := by
    have hmem : ∀ r ∈ Set.uIcc (α e) rhoHat, 0 < r := by
      intro r hr
      exact lt_of_lt_of_le (lt_min h0 hrho) hr.1
    refine intervalIntegral.integral_eq_sub_of_hasDerivAt (f := fun r => -F2 i / r + F1 i * Real.log r) ?_ ?_
    · intro r hr
      have hr0 := (hmem r hr).ne'
      have h1 := (hasDerivAt_const r (-F2 i)).fun_div (hasDerivAt_id' r) hr0
      have h2 := (Real.hasDerivAt_log hr0).const_mul (F1 i)
      refine (h1.fun_add h2).congr_deriv ?_
      field_simp
      ring
    · apply ContinuousOn.intervalIntegrable
      intro r hr
      have hr0 := (hmem r hr).ne'
      apply ContinuousAt.continuousWithinAt
      exact ((continuousAt_const.div (continuousAt_id.pow 2) (pow_ne_zero 2 hr0))).add
        (continuousAt_const.div continuousAt_id hr0)
  rw [hint]
  have hlog : Real.log e = Real.log (α e) + Real.log (d (α e)) := by
    conv_lhs => rw [heq]
    rw [Real.log_mul h0.ne' h2.ne']
  have hb : F2 i / (coefBeta (jacAt x eta) th * e) = F2 i * a / (α e * d (α e)) := by
    unfold coefBeta
    rw [← hadef]
    conv_lhs => rw [heq]
    field_simp
  rw [hlog, hb]
  field_simp
  ring

omit hx in
/-- A curved surface for the non-vacuity of C55 and C56. -/
noncomputable def paraboloid : Fin 3 → ℝ × ℝ → ℝ := ![fun p => p.1, fun p => p.2, fun p => p.1 * p.1]

omit hx in
/-- Non-vacuity of C55: the paraboloid is smooth and regular at the origin. -/
example : (∀ i, ContDiff ℝ 3 (paraboloid i)) ∧ normalVec paraboloid (0, 0) ≠ 0 := by
  constructor
  · intro i
    fin_cases i
    · exact contDiff_fst
    · exact contDiff_snd
    · exact contDiff_fst.mul contDiff_fst
  · have d0 : HasFDerivAt (fun p : ℝ × ℝ => p.1) (ContinuousLinearMap.fst ℝ ℝ ℝ) (0, 0) := hasFDerivAt_fst
    have d1 : HasFDerivAt (fun p : ℝ × ℝ => p.2) (ContinuousLinearMap.snd ℝ ℝ ℝ) (0, 0) := hasFDerivAt_snd
    intro h
    have h2 := congrFun h 2
    unfold normalVec at h2
    rw [cross_apply] at h2
    simp [paraboloid, pd, unitDir, d0.fderiv, d1.fderiv] at h2

omit hx in
/-- Non-vacuity of C56: on a plane the radius at distance `ε` is `ε`. -/
example (eta : ℝ × ℝ) (th : ℝ) : let x : Fin 3 → ℝ × ℝ → ℝ := ![fun p => p.1, fun p => p.2, fun _ => 0]
    ∀ᶠ e in 𝓝[>] (0 : ℝ), norm (polarR x eta th e) = e := by
  intro x
  filter_upwards [self_mem_nhdsWithin] with e he
  have he : 0 < e := he
  rw [norm, sum_square3]
  simp only [polarR, polarPoint, x]
  simp
  rw [show e * Real.cos th * (e * Real.cos th) + e * Real.sin th * (e * Real.sin th) = e ^ 2 by
    linear_combination e ^ 2 * Real.sin_sq_add_cos_sq th]
  exact Real.sqrt_sq he.le

end PiBem.Kernel
