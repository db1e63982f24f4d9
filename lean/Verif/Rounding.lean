import Mathlib.Data.Real.Basic
import Mathlib.Algebra.Order.BigOperators.Group.Finset
import Mathlib.Algebra.BigOperators.Group.List.Basic
import Mathlib.Tactic.Linarith
import Mathlib.Tactic.Positivity
import Mathlib.Tactic.Ring

/-!
# Rounding

The standard model of floating point arithmetic: the result of an addition or of a multiplication of `double` is the exact
one up to a relative error `u` (`2⁻⁵³` when rounding to nearest). Overflow and underflow are not modelled.
-/

namespace PiBem.Rounding

/-- A rounding with relative error `u`. -/
structure Fl (u : ℝ) where
  fl : ℝ → ℝ
  err : ∀ x, |fl x - x| ≤ u * |x|

/-- No rounding. -/
def Fl.exact : Fl 0 := ⟨fun x => x, by simp⟩

/-- `y` approximates `x`, a sum of terms with absolute values summing up to `A`, after `n` rounded operations. -/
def Near (u : ℝ) (n : ℕ) (x A y : ℝ) : Prop := |x| ≤ A ∧ |y - x| ≤ ((1 + u) ^ n - 1) * A

variable {u : ℝ} {n m : ℕ} {x x' A A' y y' : ℝ}

theorem Fl.nonneg (F : Fl u) : 0 ≤ u := by
  have := F.err 1
  simp only [abs_one, mul_one] at this
  exact le_trans (abs_nonneg _) this

theorem one_le_pow' (hu : 0 ≤ u) (n : ℕ) : 1 ≤ (1 + u) ^ n := one_le_pow₀ (by linarith)

theorem Near.nonneg (h : Near u n x A y) : 0 ≤ A := le_trans (abs_nonneg _) h.1

theorem Near.mono (hu : 0 ≤ u) (hnm : n ≤ m) (h : Near u n x A y) : Near u m x A y := by
  refine ⟨h.1, le_trans h.2 ?_⟩
  have := pow_le_pow_right₀ (show 1 ≤ 1 + u by linarith) hnm
  exact mul_le_mul_of_nonneg_right (by linarith) h.nonneg

theorem near_self (x : ℝ) : Near u 0 x |x| x := ⟨le_refl _, by simp⟩

theorem near_zero : Near u 0 0 0 0 := ⟨by simp, by simp⟩

/-- Size of the computed number. -/
theorem Near.size (h : Near u n x A y) : |y| ≤ (1 + u) ^ n * A := by
  have : |y| ≤ |x| + |y - x| := by
    have := abs_add_le x (y - x)
    rwa [add_sub_cancel] at this
  have h1 := h.1
  have h2 := h.2
  nlinarith

/-- Rounded result of a quantity close to `x`. -/
theorem near_round (F : Fl u) (hA : |x| ≤ A) (h : |y - x| ≤ ((1 + u) ^ n - 1) * A) : Near u (n + 1) x A (F.fl y) := by
  refine ⟨hA, ?_⟩
  have hs : Near u n x A y := ⟨hA, h⟩
  have h1 := F.err y
  have h2 := hs.size
  have hu := F.nonneg
  have h3 : |F.fl y - x| ≤ |F.fl y - y| + |y - x| := abs_sub_le _ _ _
  have h4 : u * |y| ≤ u * ((1 + u) ^ n * A) := mul_le_mul_of_nonneg_left h2 hu
  rw [pow_succ]
  nlinarith

/-- Addition. -/
theorem Near.add (F : Fl u) (h : Near u n x A y) (h' : Near u n x' A' y') :
    Near u (n + 1) (x + x') (A + A') (F.fl (y + y')) := by
  refine near_round F (le_trans (abs_add_le _ _) (add_le_add h.1 h'.1)) ?_
  have : y + y' - (x + x') = (y - x) + (y' - x') := by ring
  rw [this]
  refine le_trans (abs_add_le _ _) ?_
  rw [mul_add]
  exact add_le_add h.2 h'.2

/-- Multiplication. -/
theorem Near.mul (F : Fl u) (h : Near u n x A y) (h' : Near u m x' A' y') :
    Near u (n + m + 1) (x * x') (A * A') (F.fl (y * y')) := by
  refine near_round F ?_ ?_
  · rw [abs_mul]
    exact mul_le_mul h.1 h'.1 (abs_nonneg _) h.nonneg
  · have e : y * y' - x * x' = (y - x) * y' + x * (y' - x') := by ring
    rw [e]
    refine le_trans (abs_add_le _ _) ?_
    rw [abs_mul, abs_mul, pow_add]
    have hA := h.nonneg
    have hA' := h'.nonneg
    have hu := F.nonneg
    have p1 := one_le_pow' hu n
    have p2 := one_le_pow' hu m
    have a1 : |y - x| * |y'| ≤ (((1 + u) ^ n - 1) * A) * ((1 + u) ^ m * A') :=
      mul_le_mul h.2 h'.size (abs_nonneg _) (mul_nonneg (by linarith) hA)
    have a2 : |x| * |y' - x'| ≤ A * (((1 + u) ^ m - 1) * A') :=
      mul_le_mul h.1 h'.2 (abs_nonneg _) hA
    nlinarith

/-- A loop `s += term`, the terms being computed with at most `m` operations. -/
theorem near_loop {α : Type} (F : Fl u) (l : List α) (val abs' comp : α → ℝ) (hm : m ≤ n)
    (h : ∀ a ∈ l, Near u m (val a) (abs' a) (comp a)) (h0 : Near u n x A y) :
    Near u (n + l.length) (x + (l.map val).sum) (A + (l.map abs').sum) (l.foldl (fun s a => F.fl (s + comp a)) y) := by
  induction l generalizing x A y n with
  | nil => simpa using h0
  | cons a t ih =>
    have := ih (n := n + 1) (by omega) (fun b hb => h b (by simp [hb])) (h0.add F ((h a (by simp)).mono F.nonneg hm))
    rw [add_assoc x, add_assoc A, show n + 1 + t.length = n + (t.length + 1) by omega] at this
    exact this

/-- Two computations of the same quantity. -/
theorem Near.compare (h : Near u n x A y) (h' : Near u m x A y') : |y - y'| ≤ (((1 + u) ^ n - 1) + ((1 + u) ^ m - 1)) * A := by
  have : |y - y'| ≤ |y - x| + |x - y'| := abs_sub_le _ _ _
  rw [abs_sub_comm x y'] at this
  have a := h.2
  have b := h'.2
  linarith

end PiBem.Rounding
