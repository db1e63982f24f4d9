import Verif.Kernel.Guiggiani
import Verif.Kernel.Polar

/-!
# The free term `b`

`SingularKernelIntegral<3>::evaluate_free_term_b` (source/singular_kernel_integral.cc:1229-1547), exact real arithmetic. What
deal.II gives at `eta` (`jacobian`, `jacobian_grad`) and the one dimensional rule of the angle are input. The vectors
`d_eta_Jxn_du`, `d_eta_Jxn_dv` and the reference cell are computed and never used.
-/

noncomputable section

namespace PiBem.Kernel

open Real

/-- `r_rho[q]` (singular_kernel_integral.cc:1523-1524). -/
def rRho (J : Jac) (th : ℝ) : Pt 3 := fun i => J i 0 * cos th + J i 1 * sin th

/-- `r_rhorho[q]` (singular_kernel_integral.cc:1525-1528). -/
def rRhoRho (G : JacGrad) (th : ℝ) : Pt 3 := fun i =>
  G i 0 0 * cos th ^ 2 + 2 * G i 0 1 * cos th * sin th + G i 1 1 * sin th ^ 2

/-- `eta_g` (singular_kernel_integral.cc:1323-1329). -/
def etaG (J : Jac) : Pt 3 := ![
  J 1 0 * J 2 1 - J 1 1 * J 2 0,
  J 2 0 * J 0 1 - J 2 1 * J 0 0,
  J 0 0 * J 1 1 - J 0 1 * J 1 0]

/-- `eta_n` (singular_kernel_integral.cc:1332-1333). -/
def etaN (J : Jac) : Pt 3 := fun i => etaG J i / norm (etaG J)

/-- What the point of angle `th` adds to `b`, without the weight (singular_kernel_integral.cc:1536-1540). -/
def bIntegrand (J : Jac) (G : JacGrad) (th : ℝ) : Pt 3 := fun i =>
  let tmp := etaN J 0 * rRhoRho G th 0 + etaN J 1 * rRhoRho G th 1 + etaN J 2 * rRhoRho G th 2
  tmp * rRho J th i * norm (etaG J) / norm (rRho J th) ^ 5

/-- The loop on the points of the angular rule on face `f` (singular_kernel_integral.cc:1534-1541): `rule` has the abscissas in
`[0,1]` and the weights of `theta_quadrature`, the cell from `theta_0` to `theta_1` is mapped affinely. -/
def bFace (eta : P2) (J : Jac) (G : JacGrad) (rule : List (ℝ × ℝ)) (f : Fin 4) (b : Pt 3) : Pt 3 :=
  rule.foldl (fun b q =>
    let th := theta0 eta f + q.1 * (theta1 eta f - theta0 eta f)
    let jxw := q.2 * (theta1 eta f - theta0 eta f)
    fun i => b i + bIntegrand J G th i * jxw) b

open Classical in
/-- `evaluate_free_term_b` (singular_kernel_integral.cc:1229-1547). -/
def freeTermB (eta : P2) (J : Jac) (G : JacGrad) (rule : List (ℝ × ℝ)) : Pt 3 :=
  [0, 1, 2, 3].foldl (fun b f => if ¬ skipped eta f then bFace eta J G rule f b else b) fun _ => 0

end PiBem.Kernel
