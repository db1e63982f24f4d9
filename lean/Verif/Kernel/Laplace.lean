import Mathlib.Analysis.SpecialFunctions.Log.Basic
import Mathlib.Analysis.SpecialFunctions.Trigonometric.Basic
import Mathlib.Algebra.BigOperators.Fin

/-!
# Laplace kernels

`include/laplace_kernel.h`, namespace `LaplaceKernel`. Points and tensors of dimension `dim` are functions on `Fin dim`.
The `switch (dim)` of the code becomes one definition for each dimension. The values for `R = 0` (division by zero) are
not meaningful; all statements assume `R ≠ 0`.
-/

namespace PiBem.Kernel

open Real

abbrev Pt (d : ℕ) := Fin d → ℝ
abbrev T2 (d : ℕ) := Fin d → Fin d → ℝ

/-- deal.II `Tensor<1,dim>::norm_square`, `Point<dim>::square`. -/
def square {d : ℕ} (R : Pt d) : ℝ := ∑ i, R i * R i

/-- deal.II `Tensor<1,dim>::norm`. -/
noncomputable def norm {d : ℕ} (R : Pt d) : ℝ := Real.sqrt (square R)

/-- `single_layer<2>` (laplace_kernel.h:17-33, `case 2`). -/
noncomputable def singleLayer2 (R : Pt 2) : ℝ := -Real.log (norm R) / (2 * π)

/-- `single_layer<3>` (laplace_kernel.h:17-33, `case 3`). -/
noncomputable def singleLayer3 (R : Pt 3) : ℝ := 1 / (norm R * 4 * π)

/-- `double_layer<2>` (laplace_kernel.h:37-52, `case 2`). -/
noncomputable def doubleLayer2 (R : Pt 2) : Pt 2 := fun i => R i / (-2 * π * square R)

/-- `double_layer<3>` (laplace_kernel.h:37-52, `case 3`). -/
noncomputable def doubleLayer3 (R : Pt 3) : Pt 3 := fun i => R i / (-4 * π * square R * norm R)

/-- Numerator of `hypersingular<2>` and of the four argument `kernels<2>` (laplace_kernel.h:62-65, 127-131). -/
def hyperNum2 (R : Pt 2) : T2 2 := fun i j =>
  if i = 0 ∧ j = 0 then -R 0 * R 0 + R 1 * R 1
  else if i = 1 ∧ j = 1 then R 0 * R 0 - R 1 * R 1
  else -2 * R 0 * R 1

/-- `hypersingular<2>` (laplace_kernel.h:54-68). -/
noncomputable def hypersingular2 (R : Pt 2) : T2 2 := fun i j =>
  hyperNum2 R i j / (-2 * π * square R * square R)

/-- `for (k = 0; k < dim && k != i; ++k) acc -= R[k]*R[k]` (laplace_kernel.h:76-77): the loop starting at `k`, with
at most `fuel` iterations. -/
def diagLoop (R : ℕ → ℝ) (dim i : ℕ) : ℕ → ℕ → ℝ → ℝ
  | 0, _, acc => acc
  | fuel + 1, k, acc => if k < dim ∧ k ≠ i then diagLoop R dim i fuel (k + 1) (acc - R k * R k) else acc

/-- Access to a component by a natural index. -/
def comp {d : ℕ} (R : Pt d) (k : ℕ) : ℝ := if h : k < d then R ⟨k, h⟩ else 0

/-- `hypersingular<3>` (laplace_kernel.h:69-84). The loop makes at most `dim = 3` iterations. -/
noncomputable def hypersingular3 (R : Pt 3) : T2 3 := fun i j =>
  (if i = j then diagLoop (comp R) 3 i 3 0 (2 * (R j * R j)) else 3 * R i * R j) /
    (-4 * π * square R * square R * norm R)

/-- Three argument `kernels<2>` (laplace_kernel.h:93-110, `case 2`): `(D, d)`. -/
noncomputable def kernels2 (R : Pt 2) : Pt 2 × ℝ :=
  let r := norm R
  let r2 := r * r
  (fun i => R i / (-2 * π * r2), -Real.log r / (2 * π))

/-- Three argument `kernels<3>` (laplace_kernel.h:93-110, `case 3`): `(D, d)`. -/
noncomputable def kernels3 (R : Pt 3) : Pt 3 × ℝ :=
  let r := norm R
  let r2 := r * r
  (fun i => R i / (-4 * π * r2 * r), 1 / (r * 4 * π))

/-- Four argument `kernels<2>` (laplace_kernel.h:113-133): `(H, D, d)`. -/
noncomputable def kernelsH2 (R : Pt 2) : T2 2 × Pt 2 × ℝ :=
  let r := norm R
  let r2 := r * r
  (fun i j => hyperNum2 R i j / (-2 * π * r2 * r2), fun i => R i / (-2 * π * r2), -Real.log r / (2 * π))

/-- Four argument `kernels<3>` (laplace_kernel.h:134-157): `(H, D, d)`. -/
noncomputable def kernelsH3 (R : Pt 3) : T2 3 × Pt 3 × ℝ :=
  let r := norm R
  let r2 := r * r
  let H : T2 3 := fun i j => -3 * R i * R j / r2 / r2 / r
  let H : T2 3 := fun i j => if i = j then H i j + 1 / r2 / r else H i j
  (fun i j => H i j / (4 * π), fun i => R i / (4 * π * r2 * r), 1 / (r * 4 * π))

end PiBem.Kernel
