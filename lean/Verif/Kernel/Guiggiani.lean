import Verif.Kernel.Laplace
import Mathlib.Analysis.SpecialFunctions.Trigonometric.Basic

/-!
# Hypersingular integrals on the cell containing the singular point

`SingularKernelIntegral<3>::evaluate_VkNj_integrals` and `evaluate_WkNj_integrals`
(source/singular_kernel_integral.cc): coefficients of the expansion in polar coordinates, subtracted integrand and terms
added back.

What deal.II gives (`jacobian`, `jacobian_grad`, shape values and gradients at `eta`, points, normals and `JxW` at the inner
points) is input.
-/

namespace PiBem.Kernel

open Real

/-- `eta_jacobian[i][j]`, derivative of the coordinate `i` with respect to the parameter `j`. -/
abbrev Jac := Fin 3 → Fin 2 → ℝ
/-- `eta_jacobian_grad[i][j][k]`. -/
abbrev JacGrad := Fin 3 → Fin 2 → Fin 2 → ℝ

/-- Scalar product of two `Tensor<1,3>`. -/
def sdot (a b : Pt 3) : ℝ := a 0 * b 0 + a 1 * b 1 + a 2 * b 2

/-- `eta_Jxn` (singular_kernel_integral.cc:152-157). -/
def etaJxn (J : Jac) : Pt 3 := ![
  J 1 0 * J 2 1 - J 1 1 * J 2 0,
  J 0 1 * J 2 0 - J 0 0 * J 2 1,
  J 0 0 * J 1 1 - J 0 1 * J 1 0]

/-- `d_eta_Jxn_du` (`k = 0`) and `d_eta_Jxn_dv` (`k = 1`) (singular_kernel_integral.cc:160-186); the two blocks of the
code differ only in the last index of `eta_jacobian_grad`. -/
def dEtaJxn (J : Jac) (G : JacGrad) (k : Fin 2) : Pt 3 := ![
  G 1 0 k * J 2 1 + J 1 0 * G 2 1 k - G 1 1 k * J 2 0 - J 1 1 * G 2 0 k,
  G 0 1 k * J 2 0 + J 0 1 * G 2 0 k - G 0 0 k * J 2 1 - J 0 0 * G 2 1 k,
  G 0 0 k * J 1 1 + J 0 0 * G 1 1 k - G 0 1 k * J 1 0 - J 0 1 * G 1 0 k]

/-- `A[q]` (singular_kernel_integral.cc:446-447). -/
noncomputable def coefA (J : Jac) (th : ℝ) : Pt 3 := fun i => J i 0 * Real.cos th + J i 1 * Real.sin th

/-- `B[q]` (singular_kernel_integral.cc:448-454). -/
noncomputable def coefB (G : JacGrad) (th : ℝ) : Pt 3 := fun i =>
  G i 0 0 * Real.cos th ^ 2 / 2 + G i 0 1 * Real.cos th * Real.sin th + G i 1 1 * Real.sin th ^ 2 / 2

/-- `Jk1[q]` (singular_kernel_integral.cc:459-460). -/
noncomputable def coefJk1 (J : Jac) (G : JacGrad) (th : ℝ) : Pt 3 := fun i =>
  dEtaJxn J G 0 i * Real.cos th + dEtaJxn J G 1 i * Real.sin th

/-- `N1[q][ii]` (singular_kernel_integral.cc:464-466), `g` the gradient of the shape function. -/
noncomputable def coefN1 (g : Fin 2 → ℝ) (th : ℝ) : ℝ := g 0 * Real.cos th + g 1 * Real.sin th

/-- `q_A[q]` (singular_kernel_integral.cc:456). -/
noncomputable def qA (J : Jac) (th : ℝ) : ℝ := norm (coefA J th)

/-- `q_C[q]` (singular_kernel_integral.cc:457). -/
noncomputable def qC (J : Jac) (G : JacGrad) (th : ℝ) : ℝ := sdot (coefA J th) (coefB G th)

/-- `beta` (singular_kernel_integral.cc:476). -/
noncomputable def coefBeta (J : Jac) (th : ℝ) : ℝ := 1 / qA J th

/-- `gamma` (singular_kernel_integral.cc:477). -/
noncomputable def coefGamma (J : Jac) (G : JacGrad) (th : ℝ) : ℝ := -qC J G th / qA J th ^ 4

/-- `F_2[ii]` (singular_kernel_integral.cc:482), `N0` the shape value at `eta`. -/
noncomputable def vF2 (J : Jac) (N0 : ℝ) (th : ℝ) : Pt 3 := fun i => etaJxn J i / qA J th ^ 3 * N0

/-- `F_1[ii]` (singular_kernel_integral.cc:483-488). -/
noncomputable def vF1 (J : Jac) (G : JacGrad) (N0 : ℝ) (g : Fin 2 → ℝ) (th : ℝ) : Pt 3 := fun i =>
  (-3 * qC J G th * etaJxn J i / qA J th ^ 5 -
    3 * coefA J th i / qA J th ^ 5 * (sdot (etaJxn J) (coefB G th) + sdot (coefJk1 J G th) (coefA J th)) +
    coefJk1 J G th i / qA J th ^ 3) * N0 +
  etaJxn J i / qA J th ^ 3 * coefN1 g th

/-- `F_1[ii]` of `evaluate_WkNj_integrals` (singular_kernel_integral.cc:1085; there `F_2 = 0`). -/
noncomputable def wF1 (J : Jac) (N0 : ℝ) (th : ℝ) : Pt 3 := fun i =>
  coefA J th i * norm (etaJxn J) / qA J th ^ 3 * N0

/-- `fun` (singular_kernel_integral.cc:566-570): `R` from the singular point to the inner point, `n` the normal, `N` the
shape value there. -/
noncomputable def vFun (R n : Pt 3) (N : ℝ) : Pt 3 := fun i =>
  -1 / norm R ^ 3 * (3 * (R i / norm R) * (sdot R n / norm R) - n i) * N

/-- `fun` of `evaluate_WkNj_integrals` (singular_kernel_integral.cc:1161-1163). -/
noncomputable def wFun (R : Pt 3) (N : ℝ) : Pt 3 := fun i => 1 / norm R ^ 3 * R i * N

/-- `arg` (singular_kernel_integral.cc:571-573), `jxw = JxW(p)`. -/
noncomputable def subtracted (f F2 F1 : Pt 3) (rho jxw : ℝ) : Pt 3 := fun i =>
  f i * rho * jxw - F2 i / rho ^ 2 - F1 i / rho

/-- What the point of angle `th` adds to `I_2`, without the weight (singular_kernel_integral.cc:497-498). -/
noncomputable def termI2 (F2 : Pt 3) (beta gamma rhoHat : ℝ) : Pt 3 := fun i =>
  -F2 i * (gamma / beta ^ 2 + 1 / rhoHat)

/-- What the point of angle `th` adds to `I_1`, without the weight (singular_kernel_integral.cc:499-500). -/
noncomputable def termI1 (F1 : Pt 3) (beta rhoHat : ℝ) : Pt 3 := fun i =>
  F1 i * Real.log |rhoHat / beta|

end PiBem.Kernel
