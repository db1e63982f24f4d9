import Verif.Bem.Assemble
import Mathlib.LinearAlgebra.Matrix.NonsingularInverse

/-!
# Gradients from the hypersingular equation

`BEMProblem<dim>::compute_gradients_hypersingular` (source/bem_problem.cc:2571-2912), dimension 3 (in dimension 2 the program
indexes a third component), exact real arithmetic. The integrals of the singular cells (`evaluate_VkNj_integrals`,
`evaluate_WkNj_integrals`) and the free coefficients `C_ij`, `b_i` are data.
-/

noncomputable section

namespace PiBem.Bem

open PiBem.Octree PiBem.Expansion PiBem.Fmm

/-- What the function reads besides mesh and quadrature: the vectors `phi`, `dphi_dn`, the singular integrals `Vk_integrals`,
`Wk_integrals` (cell, singular index, local dof), the free coefficients of each dof and the arrays `sub_wise_to_original`,
`vec_original_to_sub_wise`. -/
structure HypData where
  phi : ℕ → ℝ
  dphi : ℕ → ℝ
  Vk : ℕ → ℕ → ℕ → V3
  Wk : ℕ → ℕ → ℕ → V3
  C : ℕ → Matrix (Fin 3) (Fin 3) ℝ
  b : ℕ → V3
  s2o : ℕ → ℕ
  vo2s : ℕ → ℕ

/-- `vector_dh_index_x_component` and the others (bem_problem.cc:2778-2784, 2842-2848). -/
def hypIndex (inp : Input 3) (h : HypData) (i : ℕ) (d : Fin 3) : ℕ := h.vo2s (h.s2o i + d * inp.nDofs)

/-- `integral` of dof `i` on cell `c` (bem_problem.cc:2665-2776). -/
def hypIntegral (inp : Input 3) (D : Data) (h : HypData) (i c : ℕ) : V3 :=
  let g := fun j => (inp.cellDofs c).getD j 0
  match singularIndex inp i c with
  | none =>
    (List.range inp.nq).foldl (fun I q =>
      (List.range (inp.cellDofs c).length).foldl (fun I j =>
        let R : V3 := toV (inp.qpos (c, q)) - toV (inp.pos i)
        let K := Kernel.kernelsH3 R
        I + fun k => -h.phi (g j) * (∑ e, K.1 k e * D.normal (c, q) e) * D.shape (c, q) j * D.jxw (c, q)
          + h.dphi (g j) * K.2.1 k * D.shape (c, q) j * D.jxw (c, q)) I) 0
  | some s =>
    let hyp := (List.range (inp.cellDofs c).length).foldl (fun S j => S + fun k => -h.phi (g j) * h.Vk c s j k) (0 : V3)
    let str := (List.range (inp.cellDofs c).length).foldl (fun S j => S + fun k => h.dphi (g j) * h.Wk c s j k) (0 : V3)
    0 + (str + hyp)

/-- The three `+=` (bem_problem.cc:2785-2790). -/
def addVec (inp : Input 3) (h : HypData) (i : ℕ) (I : V3) (v : ℕ → ℝ) : ℕ → ℝ :=
  let a := fun d => hypIndex inp h i d
  let v := Function.update v (a 0) (v (a 0) + I 0)
  let v := Function.update v (a 1) (v (a 1) + I 1)
  Function.update v (a 2) (v (a 2) + I 2)

/-- The three assignments (bem_problem.cc:2897-2902). -/
def setVec (inp : Input 3) (h : HypData) (i : ℕ) (I : V3) (v : ℕ → ℝ) : ℕ → ℝ :=
  let a := fun d => hypIndex inp h i d
  let v := Function.update v (a 0) (I 0)
  let v := Function.update v (a 1) (I 1)
  Function.update v (a 2) (I 2)

/-- The loop on the cells (bem_problem.cc:2637-2798) on the process owning the dofs `own`. -/
def hypIntegrals (inp : Input 3) (D : Data) (h : HypData) (own : ℕ → Bool) : ℕ → ℝ :=
  (List.range inp.nCells).foldl (fun v c =>
    (List.range inp.nDofs).foldl (fun v i =>
      if own i then addVec inp h i (hypIntegral inp D h i c) v else v) v) fun _ => 0

/-- Body of the second loop for an owned dof (bem_problem.cc:2838-2905). `Cinv.invert(C)` divides by the determinant: here
the inverse of a singular matrix is 0, in the program the entries are not finite. -/
def hypStep (inp : Input 3) (h : HypData) (i : ℕ) (v : ℕ → ℝ) : ℕ → ℝ :=
  let rhs : V3 := fun d => v (hypIndex inp h i d) + -h.b i d * h.phi i
  setVec inp h i ((h.C i)⁻¹.mulVec rhs) v

/-- `compute_gradients_hypersingular` (bem_problem.cc:2571-2912): the vector held by the process owning the dofs `own`. -/
def hypGradients (inp : Input 3) (D : Data) (h : HypData) (own : ℕ → Bool) : ℕ → ℝ :=
  (List.range inp.nDofs).foldl (fun v i => if own i then hypStep inp h i v else v) (hypIntegrals inp D h own)

end PiBem.Bem
