import Mathlib.Analysis.SpecialFunctions.Complex.Arg

/-!
# Polar subdivision of the reference cell

`SingularKernelIntegral<3>` (source/singular_kernel_integral.cc): the geometry of the integration in polar coordinates
around the point `eta` of the reference square. The same code is at lines 208-413 (`evaluate_VkNj_integrals`), 807-1012
(`evaluate_WkNj_integrals`) and 1379-1504 (`evaluate_free_term_b`, angles only).
-/

namespace PiBem.Kernel

open Real

abbrev P2 := ℝ × ℝ

/-- `csi_0` for the face `f` (singular_kernel_integral.cc:218-256). -/
def csi0 (eta : P2) (f : Fin 4) : P2 :=
  match f with
  | 0 => (0 - eta.1, 1 - eta.2)
  | 1 => (1 - eta.1, 0 - eta.2)
  | 2 => (0 - eta.1, 0 - eta.2)
  | 3 => (1 - eta.1, 1 - eta.2)

/-- `csi_1` for the face `f` (singular_kernel_integral.cc:218-256). -/
def csi1 (eta : P2) (f : Fin 4) : P2 :=
  match f with
  | 0 => (0 - eta.1, 0 - eta.2)
  | 1 => (1 - eta.1, 1 - eta.2)
  | 2 => (1 - eta.1, 0 - eta.2)
  | 3 => (0 - eta.1, 1 - eta.2)

/-- `coeff` for the face `f` (singular_kernel_integral.cc:218-256). -/
def faceCoeff (eta : P2) (f : Fin 4) : ℝ :=
  if f.val < 2 then (csi0 eta f).1 else (csi1 eta f).2

/-- The face is not considered (singular_kernel_integral.cc:260-261). -/
def skipped (eta : P2) (f : Fin 4) : Prop :=
  ((csi0 eta f).1 = 0 ∧ (csi1 eta f).1 = 0) ∨ ((csi0 eta f).2 = 0 ∧ (csi1 eta f).2 = 0)

/-- `atan2(y, x)`, with values in `(-π, π]`, then `if (theta < 0) theta += 2 * PI`
(singular_kernel_integral.cc:267-272). Zero is `+0` here (differences of equal numbers), and a result `-π` would be
changed to `π` anyway. -/
noncomputable def angle (p : P2) : ℝ :=
  let t := Complex.arg ⟨p.1, p.2⟩
  if t < 0 then t + 2 * π else t

/-- `theta_1` (singular_kernel_integral.cc:270-272). -/
noncomputable def theta1 (eta : P2) (f : Fin 4) : ℝ := angle (csi1 eta f)

/-- `theta_0` (singular_kernel_integral.cc:267-277). -/
noncomputable def theta0 (eta : P2) (f : Fin 4) : ℝ :=
  let t0 := angle (csi0 eta f)
  if theta1 eta f < t0 then t0 - 2 * π else t0

/-- `q_rho` at the angle `theta` (singular_kernel_integral.cc:395-401). -/
noncomputable def qRho (eta : P2) (f : Fin 4) (theta : ℝ) : ℝ :=
  let a : ℝ := if f.val < 2 then 0 else 1
  let b : ℝ := if f.val < 2 then 1 else 0
  faceCoeff eta f / (a * Real.sin theta + b * Real.cos theta)

/-- `uv_q_points` at the angle `theta` (singular_kernel_integral.cc:404-413). -/
noncomputable def outerPoint (eta : P2) (f : Fin 4) (theta : ℝ) : P2 :=
  (qRho eta f theta * Real.cos theta + eta.1, qRho eta f theta * Real.sin theta + eta.2)

/-- `inner_uv_q_points` at the angle `theta`, with `t` the abscissa in `[0,1]` of the radial rule
(singular_kernel_integral.cc:521-529). -/
noncomputable def innerPoint (eta : P2) (f : Fin 4) (theta t : ℝ) : P2 :=
  let rho := qRho eta f theta * t
  (rho * Real.cos theta + eta.1, rho * Real.sin theta + eta.2)

end PiBem.Kernel
