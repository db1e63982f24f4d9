import Mathlib.Analysis.Calculus.Taylor
import Mathlib.Analysis.Calculus.ContDiff.Basic
import Mathlib.Analysis.Calculus.IteratedDeriv.Lemmas
import Mathlib.Analysis.Asymptotics.Lemmas
import Mathlib.Analysis.SpecialFunctions.Sqrt
import Mathlib.Tactic.FieldSimp
import Mathlib.Tactic.Linarith
import Mathlib.Tactic.LinearCombination

/-!
# First order expansions at `0+`

`Tay f a b`: `f ρ = a + b ρ + O(ρ²)` for `ρ → 0+`.
-/

namespace PiBem.Kernel

open Asymptotics Filter Topology

/-- `f ρ = a + b ρ + O(ρ²)` for `ρ → 0+`. -/
def Tay (f : ℝ → ℝ) (a b : ℝ) : Prop :=
  (fun r => f r - (a + b * r)) =O[𝓝[>] (0 : ℝ)] fun r => r ^ 2

theorem rho_tendsto : Tendsto (fun r : ℝ => r) (𝓝[>] (0 : ℝ)) (𝓝 0) :=
  tendsto_id.mono_left nhdsWithin_le_nhds

theorem rho_isBigO_one (k : ℕ) : (fun r : ℝ => r ^ k) =O[𝓝[>] (0 : ℝ)] fun _ => (1 : ℝ) := by
  have := rho_tendsto.pow k
  exact this.isBigO_one ℝ

theorem Tay.tendsto {f : ℝ → ℝ} {a b : ℝ} (h : Tay f a b) : Tendsto f (𝓝[>] 0) (𝓝 a) := by
  have h1 : Tendsto (fun r : ℝ => r ^ 2) (𝓝[>] (0 : ℝ)) (𝓝 0) := by
    have := rho_tendsto.pow 2
    simpa using this
  have h2 := h.trans_tendsto h1
  have h3 : Tendsto (fun r : ℝ => a + b * r) (𝓝[>] (0 : ℝ)) (𝓝 a) := by
    have := (rho_tendsto.const_mul b).const_add a
    simpa using this
  have := h2.add h3
  simpa using this

theorem Tay.isBigO_one {f : ℝ → ℝ} {a b : ℝ} (h : Tay f a b) : f =O[𝓝[>] 0] fun _ => (1 : ℝ) :=
  h.tendsto.isBigO_one ℝ

theorem Tay.const (a : ℝ) : Tay (fun _ => a) a 0 := by
  unfold Tay
  simp only [zero_mul, add_zero, sub_self]
  exact isBigO_zero _ _

theorem Tay.add {f g : ℝ → ℝ} {a b c d : ℝ} (hf : Tay f a b) (hg : Tay g c d) :
    Tay (fun r => f r + g r) (a + c) (b + d) := by
  unfold Tay at *
  refine (hf.add hg).congr_left (fun r => ?_)
  ring

theorem Tay.neg {f : ℝ → ℝ} {a b : ℝ} (hf : Tay f a b) : Tay (fun r => -f r) (-a) (-b) := by
  unfold Tay at *
  refine hf.neg_left.congr_left (fun r => ?_)
  ring

theorem Tay.sub {f g : ℝ → ℝ} {a b c d : ℝ} (hf : Tay f a b) (hg : Tay g c d) :
    Tay (fun r => f r - g r) (a - c) (b - d) := by
  unfold Tay at *
  refine (hf.sub hg).congr_left (fun r => ?_)
  ring

theorem Tay.mul {f g : ℝ → ℝ} {a b c d : ℝ} (hf : Tay f a b) (hg : Tay g c d) :
    Tay (fun r => f r * g r) (a * c) (a * d + b * c) := by
  have hg1 := hg.isBigO_one
  unfold Tay at *
  have h1 : (fun r => (f r - (a + b * r)) * g r) =O[𝓝[>] (0 : ℝ)] fun r => r ^ 2 := by
    simpa using hf.mul hg1
  have hlin : (fun r => a + b * r) =O[𝓝[>] (0 : ℝ)] fun _ => (1 : ℝ) := by
    have h3 : Tendsto (fun r : ℝ => a + b * r) (𝓝[>] (0 : ℝ)) (𝓝 (a + b * 0)) :=
      (rho_tendsto.const_mul b).const_add a
    exact h3.isBigO_one ℝ
  have h2 : (fun r => (a + b * r) * (g r - (c + d * r))) =O[𝓝[>] (0 : ℝ)] fun r => r ^ 2 := by
    simpa using hlin.mul hg
  have h3 : (fun r : ℝ => (b * d) * r ^ 2) =O[𝓝[>] (0 : ℝ)] fun r => r ^ 2 :=
    (isBigO_refl (fun r : ℝ => r ^ 2) _).const_mul_left _
  refine ((h1.add h2).add h3).congr_left (fun r => ?_)
  ring

theorem Tay.congr' {f g : ℝ → ℝ} {a b : ℝ} (h : Tay f a b) (he : ∀ r > 0, f r = g r) : Tay g a b := by
  unfold Tay at *
  refine h.congr' ?_ (EventuallyEq.refl _ _)
  filter_upwards [self_mem_nhdsWithin] with r hr
  rw [he r hr]

theorem Tay.coef {f : ℝ → ℝ} {a b a' b' : ℝ} (h : Tay f a b) (h1 : a = a') (h2 : b = b') : Tay f a' b' := by
  subst h1 h2; exact h

theorem inv_isBigO_one {f : ℝ → ℝ} {a : ℝ} (h : Tendsto f (𝓝[>] 0) (𝓝 a)) (ha : a ≠ 0) :
    (fun r => (f r)⁻¹) =O[𝓝[>] (0 : ℝ)] fun _ => (1 : ℝ) := (h.inv₀ ha).isBigO_one ℝ

theorem Tay.inv {f : ℝ → ℝ} {a b : ℝ} (h : Tay f a b) (ha : a ≠ 0) :
    Tay (fun r => (f r)⁻¹) a⁻¹ (-b / a ^ 2) := by
  have hne : ∀ᶠ r in 𝓝[>] (0 : ℝ), f r ≠ 0 := h.tendsto.eventually_ne ha
  -- f * (a - b r) = a² + O(r²)
  have hl : Tay (fun r => a - b * r) a (-b) := by
    unfold Tay
    refine (isBigO_zero (E' := ℝ) (fun r : ℝ => r ^ 2) (𝓝[>] (0 : ℝ))).congr_left (fun r => ?_)
    ring
  have h1 := h.mul hl
  unfold Tay at h1 ⊢
  have h2 := (h1.mul (inv_isBigO_one h.tendsto ha)).const_mul_left (-(a ^ 2)⁻¹)
  simp only [mul_one] at h2
  refine h2.congr' ?_ (EventuallyEq.refl _ _)
  filter_upwards [hne] with r hr
  field_simp
  ring

theorem Tay.sqrt {f : ℝ → ℝ} {a b : ℝ} (h : Tay f a b) (ha : 0 < a) :
    Tay (fun r => Real.sqrt (f r)) (Real.sqrt a) (b / (2 * Real.sqrt a)) := by
  have hs : 0 < Real.sqrt a := Real.sqrt_pos.2 ha
  have hpos : ∀ᶠ r in 𝓝[>] (0 : ℝ), 0 < f r := h.tendsto.eventually_const_lt ha
  have hden : Tendsto (fun r : ℝ => Real.sqrt (f r) + (Real.sqrt a + b / (2 * Real.sqrt a) * r)) (𝓝[>] 0)
      (𝓝 (Real.sqrt a + (Real.sqrt a + b / (2 * Real.sqrt a) * 0))) :=
    (h.tendsto.sqrt).add ((rho_tendsto.const_mul _).const_add _)
  have hden0 : Real.sqrt a + (Real.sqrt a + b / (2 * Real.sqrt a) * 0) ≠ 0 := by
    simp; positivity
  have hne := hden.eventually_ne hden0
  have h3 : (fun r : ℝ => (-(b / (2 * Real.sqrt a)) ^ 2) * r ^ 2) =O[𝓝[>] (0 : ℝ)] fun r => r ^ 2 :=
    (isBigO_refl (fun r : ℝ => r ^ 2) _).const_mul_left _
  unfold Tay at h ⊢
  have h4 := (h.add h3).mul (inv_isBigO_one hden hden0)
  simp only [mul_one] at h4
  refine h4.congr' ?_ (EventuallyEq.refl _ _)
  filter_upwards [hpos, hne] with r hr hn
  have e1 : Real.sqrt (f r) * Real.sqrt (f r) = f r := Real.mul_self_sqrt hr.le
  have e2 : Real.sqrt a * Real.sqrt a = a := Real.mul_self_sqrt ha.le
  rw [← div_eq_mul_inv, div_eq_iff hn]
  have e3 : 2 * (b / (2 * Real.sqrt a)) * Real.sqrt a = b := by field_simp
  linear_combination (-1) * e1 + e2 + r * e3

/-- Expansion of a smooth function. -/
theorem Tay.of_contDiff {f : ℝ → ℝ} (hf : ContDiff ℝ 2 f) : Tay f (f 0) (deriv f 0) := by
  have h := taylor_isLittleO_univ (x₀ := (0 : ℝ)) hf
  have h' := h.isBigO.mono (nhdsWithin_le_nhds (s := Set.Ioi (0 : ℝ)))
  simp only [sub_zero] at h'
  have h3 : (fun r : ℝ => (deriv (deriv f) 0 / 2) * r ^ 2) =O[𝓝[>] (0 : ℝ)] fun r => r ^ 2 :=
    (isBigO_refl (fun r : ℝ => r ^ 2) _).const_mul_left _
  refine (h'.add h3).congr_left (fun r => ?_)
  simp [taylorWithinEval_succ, iteratedDerivWithin_univ, iteratedDeriv_succ]
  ring

/-- Second order expansion divided by `ρ`. -/
theorem Tay.div_of_contDiff {f : ℝ → ℝ} (hf : ContDiff ℝ 3 f) :
    Tay (fun r => (f r - f 0) / r) (deriv f 0) (deriv (deriv f) 0 / 2) := by
  have h := taylor_isLittleO_univ (x₀ := (0 : ℝ)) hf
  have h' := h.isBigO.mono (nhdsWithin_le_nhds (s := Set.Ioi (0 : ℝ)))
  simp only [sub_zero] at h'
  have h3 : (fun r : ℝ => (deriv (deriv (deriv f)) 0 / 6) * r ^ 3) =O[𝓝[>] (0 : ℝ)] fun r => r ^ 3 :=
    (isBigO_refl (fun r : ℝ => r ^ 3) _).const_mul_left _
  have h4 := (h'.add h3).mul (isBigO_refl (fun r : ℝ => r⁻¹) (𝓝[>] (0 : ℝ)))
  unfold Tay
  refine h4.congr' ?_ ?_
  · filter_upwards [self_mem_nhdsWithin] with r hr
    have hr : r ≠ 0 := ne_of_gt hr
    simp [taylorWithinEval_succ, iteratedDerivWithin_univ, iteratedDeriv_succ, Nat.factorial]
    field_simp
    ring
  · filter_upwards [self_mem_nhdsWithin] with r hr
    have hr : r ≠ 0 := ne_of_gt hr
    field_simp

end PiBem.Kernel
