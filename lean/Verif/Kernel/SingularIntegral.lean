import Verif.Kernel.Guiggiani
import Verif.Kernel.Polar

/-!
# The singular integrator as a whole

`SingularKernelIntegral<3>::evaluate_VkNj_integrals` and `evaluate_WkNj_integrals` (source/singular_kernel_integral.cc:38-626,
636-1220): loops on the faces, on the angular and on the radial quadrature points.
-/

namespace PiBem.Kernel

open Classical in
/-- The loops of the two functions for one shape function and one component (singular_kernel_integral.cc:216-624 and 815-1216).
`thetaRule f` are the points and weights of the angular rule on face `f` (`theta_q_points`, `theta_fe_v.JxW`), `rhoRule` those of
the radial rule on `[0,1]`; `i1`, `i2` are the terms added to `I_1`, `I_2` (497-500) at an angle with outer radius `q_rho`,
`arg` the argument of the radial sum at angle and radius (553-573, 615). The result is
`(I_0 + I_1 + I_2) / PI / 4` (622). -/
noncomputable def evalIntegrals (eta : P2) (thetaRule : Fin 4 → List (ℝ × ℝ)) (rhoRule : List (ℝ × ℝ))
    (i1 i2 : ℝ → ℝ → ℝ) (arg : ℝ → ℝ → ℝ) : ℝ :=
  let I : ℝ × ℝ × ℝ := (List.finRange 4).foldl (fun I f =>
    if skipped eta f then I
    else (thetaRule f).foldl (fun I q =>
      let qrho := qRho eta f q.1
      let I := (I.1, I.2.1 + i1 q.1 qrho * q.2, I.2.2 + i2 q.1 qrho * q.2)
      rhoRule.foldl (fun I p =>
        let rho := qrho * p.1
        (I.1 + arg q.1 rho * qrho * p.2 * q.2, I.2.1, I.2.2)) I) I) (0, 0, 0)
  (I.1 + I.2.1 + I.2.2) / Real.pi / 4

/-- `evaluate_VkNj_integrals`, component `i` for the shape function with value `N0` and gradient `g` at `eta`. `J`, `G`: first and
second derivatives of the mapping at `eta`; `R`, `n`, `N`, `jxw`: vector from the singular point, normal, shape value and `JxW` at
the inner point of given angle and radius. -/
noncomputable def evalV (eta : P2) (J : Jac) (G : JacGrad) (N0 : ℝ) (g : Fin 2 → ℝ) (R n : ℝ → ℝ → Pt 3) (N jxw : ℝ → ℝ → ℝ)
    (thetaRule : Fin 4 → List (ℝ × ℝ)) (rhoRule : List (ℝ × ℝ)) (i : Fin 3) : ℝ :=
  evalIntegrals eta thetaRule rhoRule
    (fun th qrho => termI1 (vF1 J G N0 g th) (coefBeta J th) qrho i)
    (fun th qrho => termI2 (vF2 J N0 th) (coefBeta J th) (coefGamma J G th) qrho i)
    (fun th rho => subtracted (vFun (R th rho) (n th rho) (N th rho)) (vF2 J N0 th) (vF1 J G N0 g th) rho (jxw th rho) i)

/-- `evaluate_WkNj_integrals`: `F_2 = 0`, nothing is added to `I_2` (singular_kernel_integral.cc:1080-1096). -/
noncomputable def evalW (eta : P2) (J : Jac) (N0 : ℝ) (R : ℝ → ℝ → Pt 3) (N jxw : ℝ → ℝ → ℝ)
    (thetaRule : Fin 4 → List (ℝ × ℝ)) (rhoRule : List (ℝ × ℝ)) (i : Fin 3) : ℝ :=
  evalIntegrals eta thetaRule rhoRule
    (fun th qrho => termI1 (wF1 J N0 th) (coefBeta J th) qrho i)
    (fun _ _ => 0)
    (fun th rho => subtracted (wFun (R th rho) (N th rho)) 0 (wF1 J N0 th) rho (jxw th rho) i)

end PiBem.Kernel
