import Verif.Kernel.Laplace
import Mathlib.Analysis.SpecialFunctions.Sqrt
import Mathlib.Analysis.SpecialFunctions.Log.Deriv
import Mathlib.Tactic.FieldSimp
import Mathlib.Tactic.FinCases
import Mathlib.Algebra.BigOperators.Field

/-!
# C42: the Laplace kernels

Specification: the Green functions `green2 R = -log |R| / 2π`, `green3 R = 1 / (4π |R|)` and partial derivatives.
-/

namespace PiBem.Kernel

open Real

/-! ## Specification -/

/-- Fundamental solution of the Laplacian in the plane. -/
noncomputable def green2 (R : Pt 2) : ℝ := -Real.log (Real.sqrt (∑ i, R i ^ 2)) / (2 * π)

/-- Fundamental solution of the Laplacian in space. -/
noncomputable def green3 (R : Pt 3) : ℝ := 1 / (4 * π * Real.sqrt (∑ i, R i ^ 2))

/-- `f` has partial derivative `f'` at `R` with respect to the coordinate `i`. -/
def HasPartial {d : ℕ} (f : Pt d → ℝ) (f' : ℝ) (R : Pt d) (i : Fin d) : Prop :=
  HasDerivAt (fun t => f (Function.update R i t)) f' (R i)

/-! ## Lemmas -/

theorem square_eq {d : ℕ} (R : Pt d) : square R = ∑ i, R i ^ 2 := by
  simp [square, pow_two]

theorem square_nonneg {d : ℕ} (R : Pt d) : 0 ≤ square R :=
  Finset.sum_nonneg (fun i _ => mul_self_nonneg _)

theorem square_pos {d : ℕ} {R : Pt d} (h : R ≠ 0) : 0 < square R := by
  refine lt_of_le_of_ne (square_nonneg R) (fun h0 => h ?_)
  funext i
  have := (Finset.sum_eq_zero_iff_of_nonneg (fun i _ => mul_self_nonneg (R i))).1 h0.symm i (Finset.mem_univ i)
  simpa using this

theorem norm_pos {d : ℕ} {R : Pt d} (h : R ≠ 0) : 0 < norm R := Real.sqrt_pos.2 (square_pos h)

theorem norm_mul_self {d : ℕ} (R : Pt d) : norm R * norm R = square R := Real.mul_self_sqrt (square_nonneg R)

theorem norm_sq {d : ℕ} (R : Pt d) : norm R ^ 2 = square R := by rw [pow_two, norm_mul_self]

theorem hasPartial_coord {d : ℕ} (R : Pt d) (i j : Fin d) :
    HasPartial (fun R => R j) (if i = j then 1 else 0) R i := by
  unfold HasPartial
  by_cases h : i = j
  · subst h; simp only [Function.update_self, if_true]; exact hasDerivAt_id' (R i)
  · have : (fun t => Function.update R i t j) = fun _ => R j := by
      funext t; rw [Function.update_of_ne (Ne.symm h)]
    rw [this, if_neg h]; exact hasDerivAt_const _ _

theorem hasPartial_square {d : ℕ} (R : Pt d) (i : Fin d) : HasPartial square (2 * R i) R i := by
  have h : HasDerivAt (fun t => ∑ j, Function.update R i t j * Function.update R i t j)
      (∑ j, ((if i = j then 1 else 0) * R j + R j * (if i = j then 1 else 0))) (R i) := by
    apply HasDerivAt.fun_sum
    intro j _
    have hj := hasPartial_coord R i j
    unfold HasPartial at hj
    have := hj.fun_mul hj
    simp only [Function.update_eq_self] at this
    exact this
  have e : (∑ j, ((if i = j then (1 : ℝ) else 0) * R j + R j * (if i = j then 1 else 0))) = 2 * R i := by
    simp [Finset.sum_add_distrib]; ring
  rw [e] at h
  exact h

theorem hasPartial_norm {d : ℕ} {R : Pt d} (hR : R ≠ 0) (i : Fin d) : HasPartial norm (R i / norm R) R i := by
  have h := hasPartial_square R i
  unfold HasPartial at h ⊢
  have hs : square (Function.update R i (R i)) ≠ 0 := by
    rw [Function.update_eq_self]; exact (square_pos hR).ne'
  have := h.sqrt hs
  rw [Function.update_eq_self] at this
  refine this.congr_deriv ?_
  unfold norm
  have : Real.sqrt (square R) ≠ 0 := (norm_pos hR).ne'
  field_simp

theorem green2_eq (R : Pt 2) : green2 R = singleLayer2 R := by
  simp [green2, singleLayer2, norm, square_eq]

theorem green3_eq (R : Pt 3) : green3 R = singleLayer3 R := by
  simp only [green3, singleLayer3, norm, square_eq]; ring_nf

theorem HasPartial.congr {d : ℕ} {f : Pt d → ℝ} {a b : ℝ} {R : Pt d} {i : Fin d} (h : HasPartial f a R i) (e : a = b) :
    HasPartial f b R i := e ▸ h

theorem partial_green2 {R : Pt 2} (hR : R ≠ 0) (i : Fin 2) : HasPartial green2 (doubleLayer2 R i) R i := by
  have h := hasPartial_norm hR i
  have hn := (norm_pos hR).ne'
  have : HasPartial (fun R => -Real.log (norm R) / (2 * π)) (-(R i / norm R / norm R) / (2 * π)) R i := by
    unfold HasPartial at h ⊢
    have hs : norm (Function.update R i (R i)) ≠ 0 := by rwa [Function.update_eq_self]
    have h2 := ((h.log hs).neg.div_const (2 * π))
    rw [Function.update_eq_self] at h2
    exact h2
  have e : green2 = fun R => -Real.log (norm R) / (2 * π) := by
    funext R; rw [green2_eq]; rfl
  rw [e]
  refine this.congr ?_
  unfold doubleLayer2
  rw [← norm_mul_self]
  have := Real.pi_pos.ne'
  field_simp

theorem partial_green3 {R : Pt 3} (hR : R ≠ 0) (i : Fin 3) : HasPartial green3 (doubleLayer3 R i) R i := by
  have h := hasPartial_norm hR i
  have hn := (norm_pos hR).ne'
  have hpi := Real.pi_pos.ne'
  have : HasPartial (fun R => (norm R * 4 * π)⁻¹) (-(R i / norm R * 4 * π) / (norm R * 4 * π) ^ 2) R i := by
    unfold HasPartial at h ⊢
    have hs : norm (Function.update R i (R i)) * 4 * π ≠ 0 := by
      rw [Function.update_eq_self]; positivity
    have h2 := ((h.mul_const 4).mul_const π).inv hs
    rw [Function.update_eq_self] at h2
    exact h2
  have e : green3 = fun R => (norm R * 4 * π)⁻¹ := by
    funext R; rw [green3_eq]; simp [singleLayer3]
  rw [e]
  refine this.congr ?_
  unfold doubleLayer3
  rw [← norm_mul_self]
  field_simp

/-- Hessian of the Green function of the plane. -/
theorem partial_double2 {R : Pt 2} (hR : R ≠ 0) (i j : Fin 2) :
    HasPartial (fun R => doubleLayer2 R j)
      (((if i = j then 1 else 0) * square R - 2 * R i * R j) / (-2 * π * square R ^ 2)) R i := by
  have h1 := hasPartial_coord R i j
  have h2 := hasPartial_square R i
  have hs := (square_pos hR).ne'
  have hpi := Real.pi_pos.ne'
  unfold HasPartial at h1 h2 ⊢
  have h3 := h1.div (h2.const_mul (-2 * π)) (by rw [Function.update_eq_self]; simpa [hpi] using hs)
  simp only [Function.update_eq_self] at h3
  refine h3.congr_deriv ?_
  split_ifs <;> field_simp <;> ring

/-- Hessian of the Green function of the space. -/
theorem partial_double3 {R : Pt 3} (hR : R ≠ 0) (i j : Fin 3) :
    HasPartial (fun R => doubleLayer3 R j)
      (((if i = j then 1 else 0) * square R - 3 * R i * R j) / (-4 * π * norm R ^ 5)) R i := by
  have h1 := hasPartial_coord R i j
  have h2 := hasPartial_square R i
  have h3 := hasPartial_norm hR i
  have hs := (square_pos hR).ne'
  have hn := (norm_pos hR).ne'
  have hpi := Real.pi_pos.ne'
  unfold HasPartial at h1 h2 h3 ⊢
  have h4 := h1.fun_div ((h2.const_mul (-4 * π)).fun_mul h3) (by
    simp only [Function.update_eq_self]
    simp [hpi, hs, hn])
  simp only [Function.update_eq_self] at h4
  refine h4.congr_deriv ?_
  rw [← norm_sq]
  field_simp
  split_ifs <;> ring

theorem sum_square3 (R : Pt 3) : square R = R 0 * R 0 + R 1 * R 1 + R 2 * R 2 := by
  simp [square, Fin.sum_univ_three]

theorem sum_square2 (R : Pt 2) : square R = R 0 * R 0 + R 1 * R 1 := by
  simp [square, Fin.sum_univ_two]

theorem hyperNum2_eq (R : Pt 2) (i j : Fin 2) :
    hyperNum2 R i j = (if i = j then 1 else 0) * square R - 2 * R i * R j := by
  rw [sum_square2]
  fin_cases i <;> fin_cases j <;> simp [hyperNum2] <;> ring

/-! ## Theorems -/

/-- **C42**, single and double layer. For every `R ≠ 0` the single layer kernels are the Green functions, the double
layer kernels and the vectors of the three argument `kernels` (used by the direct and fast products) are their
gradients, and the Green functions are harmonic. -/
theorem C42_single_double_layer :
    (∀ R : Pt 2, R ≠ 0 → singleLayer2 R = green2 R ∧ (kernels2 R).2 = green2 R ∧
      (∀ i, HasPartial green2 (doubleLayer2 R i) R i ∧ (kernels2 R).1 i = doubleLayer2 R i) ∧
      ∃ h : Fin 2 → ℝ, (∀ i, HasPartial (fun R => doubleLayer2 R i) (h i) R i) ∧ ∑ i, h i = 0) ∧
    (∀ R : Pt 3, R ≠ 0 → singleLayer3 R = green3 R ∧ (kernels3 R).2 = green3 R ∧
      (∀ i, HasPartial green3 (doubleLayer3 R i) R i ∧ (kernels3 R).1 i = doubleLayer3 R i) ∧
      ∃ h : Fin 3 → ℝ, (∀ i, HasPartial (fun R => doubleLayer3 R i) (h i) R i) ∧ ∑ i, h i = 0) := by
  refine ⟨fun R hR => ⟨(green2_eq R).symm, (green2_eq R).symm, fun i => ⟨partial_green2 hR i, ?_⟩,
      _, fun i => partial_double2 hR i i, ?_⟩,
    fun R hR => ⟨(green3_eq R).symm, (green3_eq R).symm, fun i => ⟨partial_green3 hR i, ?_⟩,
      _, fun i => partial_double3 hR i i, ?_⟩⟩
  · simp only [kernels2, doubleLayer2, norm_mul_self]
  · rw [← Finset.sum_div]
    simp only [if_true, one_mul, Fin.sum_univ_two]
    rw [sum_square2]
    rw [div_eq_zero_iff]; left; ring
  · simp only [kernels3, doubleLayer3, norm_mul_self]
  · rw [← Finset.sum_div]
    simp only [if_true, one_mul, Fin.sum_univ_three]
    rw [sum_square3]
    rw [div_eq_zero_iff]; left; ring

/-- **C42**, four argument `kernels` (used by the hypersingular gradients). In the plane `D` is the gradient of the Green
function and `H` the derivative of `D`; in space `D` is the *opposite* of the gradient (the opposite of the `D` given by
the three argument `kernels`) and `H` is the derivative of `D`. `H` is symmetric with zero trace. -/
theorem C42_kernels_with_hessian :
    (∀ R : Pt 2, R ≠ 0 → (kernelsH2 R).2.2 = green2 R ∧ (∀ i, HasPartial green2 ((kernelsH2 R).2.1 i) R i) ∧
      (∀ i j, HasPartial (fun R => (kernelsH2 R).2.1 j) ((kernelsH2 R).1 i j) R i) ∧
      (∀ i j, (kernelsH2 R).1 i j = (kernelsH2 R).1 j i) ∧ ∑ i, (kernelsH2 R).1 i i = 0) ∧
    (∀ R : Pt 3, R ≠ 0 → (kernelsH3 R).2.2 = green3 R ∧ (∀ i, HasPartial green3 (-(kernelsH3 R).2.1 i) R i) ∧
      (∀ i, (kernelsH3 R).2.1 i = -(kernels3 R).1 i) ∧
      (∀ i j, HasPartial (fun R => (kernelsH3 R).2.1 j) ((kernelsH3 R).1 i j) R i) ∧
      (∀ i j, (kernelsH3 R).1 i j = (kernelsH3 R).1 j i) ∧ ∑ i, (kernelsH3 R).1 i i = 0) := by
  have hD2 : ∀ R : Pt 2, (kernelsH2 R).2.1 = doubleLayer2 R := by
    intro R; funext i; simp only [kernelsH2, doubleLayer2, norm_mul_self]
  have hD3 : ∀ R : Pt 3, (kernelsH3 R).2.1 = fun i => -doubleLayer3 R i := by
    intro R; funext i
    simp only [kernelsH3, doubleLayer3, norm_mul_self]
    rw [← div_neg]; ring_nf
  have hH3 : ∀ R : Pt 3, R ≠ 0 → ∀ i j, (kernelsH3 R).1 i j =
      -(((if i = j then 1 else 0) * square R - 3 * R i * R j) / (-4 * π * norm R ^ 5)) := by
    intro R hR i j
    have hn := (norm_pos hR).ne'
    have hpi := Real.pi_pos.ne'
    simp only [kernelsH3]
    rw [← norm_sq]
    split_ifs <;> field_simp <;> ring
  have hH2 : ∀ R : Pt 2, R ≠ 0 → ∀ i j, (kernelsH2 R).1 i j =
      (((if i = j then 1 else 0) * square R - 2 * R i * R j) / (-2 * π * square R ^ 2)) := by
    intro R hR i j
    simp only [kernelsH2, norm_mul_self, hyperNum2_eq]
    ring_nf
  refine ⟨fun R hR => ⟨(green2_eq R).symm, fun i => ?_, fun i j => ?_, fun i j => ?_, ?_⟩,
    fun R hR => ⟨(green3_eq R).symm, fun i => ?_, fun i => ?_, fun i j => ?_, fun i j => ?_, ?_⟩⟩
  · rw [hD2]; exact partial_green2 hR i
  · rw [hH2 R hR]; simp only [hD2]; exact partial_double2 hR i j
  · rw [hH2 R hR, hH2 R hR]; simp only [eq_comm (a := i)]; ring_nf
  · simp only [hH2 R hR]
    rw [← Finset.sum_div, div_eq_zero_iff]; left
    simp only [if_true, one_mul, Fin.sum_univ_two, sum_square2]; ring
  · rw [hD3]; simp only [neg_neg]; exact partial_green3 hR i
  · rw [hD3]; simp only [kernels3, doubleLayer3, norm_mul_self]
  · rw [hH3 R hR]; simp only [hD3]
    have := partial_double3 hR i j
    unfold HasPartial at this ⊢
    exact this.neg
  · rw [hH3 R hR, hH3 R hR]; simp only [eq_comm (a := i)]; ring_nf
  · simp only [hH3 R hR]
    rw [Finset.sum_neg_distrib, neg_eq_zero, ← Finset.sum_div, div_eq_zero_iff]; left
    simp only [if_true, one_mul, Fin.sum_univ_three, sum_square3]; ring

/-- **C42**, `hypersingular`. In the plane it is the derivative of `double_layer`. In space it should be the
tensor of the four argument `kernels` (the opposite of the derivative of `double_layer`): the entries out of the diagonal
are, the entry `(i,i)` is if and only if the components of `R` after the `i`-th vanish. -/
theorem C42_hypersingular :
    (∀ R : Pt 2, R ≠ 0 → ∀ i j, HasPartial (fun R => doubleLayer2 R j) (hypersingular2 R i j) R i) ∧
    (∀ R : Pt 3, R ≠ 0 → ∀ i j, i ≠ j → hypersingular3 R i j = (kernelsH3 R).1 i j) ∧
    (∀ R : Pt 3, R ≠ 0 → ∀ i, hypersingular3 R i i = (kernelsH3 R).1 i i ↔ ∀ k, i < k → R k = 0) := by
  refine ⟨fun R hR i j => ?_, fun R hR i j hij => ?_, fun R hR i => ?_⟩
  · refine (partial_double2 hR i j).congr ?_
    simp only [hypersingular2, hyperNum2_eq]; ring_nf
  · have hn := (norm_pos hR).ne'
    have hpi := Real.pi_pos.ne'
    simp only [hypersingular3, kernelsH3, if_neg hij]
    rw [← norm_sq]
    field_simp
  · have hn := norm_pos hR
    have hpi := Real.pi_pos
    have key : ∀ a : ℝ, a / (-4 * π * square R * square R * norm R) = (kernelsH3 R).1 i i ↔
        a = 3 * R i * R i - square R := by
      intro a
      have e : (kernelsH3 R).1 i i = (3 * R i * R i - square R) / (-4 * π * square R * square R * norm R) := by
        simp only [kernelsH3]
        rw [← norm_sq]
        simp only [if_true]
        field_simp
        ring
      rw [e]
      have hne : -4 * π * square R * square R * norm R ≠ 0 := by
        have := square_pos hR
        simp [hn.ne', hpi.ne', this.ne']
      rw [div_left_inj' hne]
    have e : hypersingular3 R i i = diagLoop (comp R) 3 i 3 0 (2 * (R i * R i)) /
        (-4 * π * square R * square R * norm R) := by simp [hypersingular3]
    rw [e, key, sum_square3]
    have s0 := mul_self_nonneg (R 0)
    have s1 := mul_self_nonneg (R 1)
    have s2 := mul_self_nonneg (R 2)
    fin_cases i
    · simp only [diagLoop, comp]
      simp
      constructor
      · intro h k hk
        fin_cases k
        · simp at hk
        · exact mul_self_eq_zero.1 (by simp; nlinarith)
        · exact mul_self_eq_zero.1 (by simp; nlinarith)
      · intro h
        have h1 := h 1 (by decide)
        have h2 := h 2 (by decide)
        rw [h1, h2]; ring
    · simp only [diagLoop, comp]
      simp
      constructor
      · intro h k hk
        fin_cases k
        · simp at hk
        · simp at hk
        · exact mul_self_eq_zero.1 (by simp; nlinarith)
      · intro h
        have h2 := h 2 (by decide)
        rw [h2]; ring
    · simp only [diagLoop, comp]
      simp
      constructor
      · intro h k hk
        fin_cases k <;> simp at hk
      · intro h
        ring

/-- **C42**, refutation for `hypersingular<3>`: its trace is not zero for `R = (1,1,1)`. -/
theorem C42_hypersingular_refuted : ∃ R : Pt 3, R ≠ 0 ∧ ∑ i, hypersingular3 R i i ≠ 0 ∧
    ∃ i, hypersingular3 R i i ≠ (kernelsH3 R).1 i i := by
  have hR : (fun _ => 1 : Pt 3) ≠ 0 := fun h => by simpa using congrFun h 0
  refine ⟨fun _ => 1, hR, ?_, 0, fun h => ?_⟩
  · have hn := norm_pos hR
    have hpi := Real.pi_pos
    simp only [hypersingular3, if_true]
    rw [← Finset.sum_div]
    refine div_ne_zero ?_ ?_
    · simp [Fin.sum_univ_three, diagLoop, comp]; norm_num
    · have := square_pos hR
      simp [hn.ne', hpi.ne', this.ne']
  · have := (C42_hypersingular.2.2 _ hR 0).1 h 1 (by decide)
    simp at this

/-- Non-vacuity of C42. -/
example : (![1, 2, 2] : Pt 3) ≠ 0 ∧ singleLayer3 ![1, 2, 2] = 1 / (12 * π) := by
  refine ⟨fun h => by simpa using congrFun h 0, ?_⟩
  have : norm (![1, 2, 2] : Pt 3) = 3 := by
    rw [norm, sum_square3]
    rw [Real.sqrt_eq_iff_mul_self_eq_of_pos (by norm_num)]
    simp; norm_num
  rw [singleLayer3, this]; ring

end PiBem.Kernel
