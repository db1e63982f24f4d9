import Verif.Legendre.Sound
import Verif.Legendre.Spec
import Mathlib.Analysis.Calculus.Deriv.Polynomial
import Mathlib.Algebra.Polynomial.Roots
import Mathlib.Analysis.SpecialFunctions.Sqrt
import Mathlib.Analysis.SpecialFunctions.Pow.Deriv

/-!
# A program that passes the checks computes the specified function
-/

namespace PiBem.Legendre

open Polynomial

/-- List of coefficients as polynomial. -/
noncomputable def toPoly : Poly → ℝ[X]
  | [] => 0
  | a :: p => C (a : ℝ) + X * toPoly p

theorem eval_toPoly (x : ℝ) (p : Poly) : (toPoly p).eval x = peval x p := by
  induction p with
  | nil => simp [toPoly, peval]
  | cons a p ih => simp [toPoly, peval, ih]

theorem toPoly_padd (p q : Poly) : toPoly (padd p q) = toPoly p + toPoly q := by
  apply Polynomial.funext
  intro x
  rw [eval_add, eval_toPoly, eval_toPoly, eval_toPoly, peval_padd]

theorem toPoly_pmul (p q : Poly) : toPoly (pmul p q) = toPoly p * toPoly q := by
  apply Polynomial.funext
  intro x
  rw [eval_mul, eval_toPoly, eval_toPoly, eval_toPoly, peval_pmul]

theorem toPoly_pderivAux (n : ℕ) (p : Poly) :
    toPoly (pderivAux n p) = C (n : ℝ) * toPoly p + X * derivative (toPoly p) := by
  induction p generalizing n with
  | nil => simp [pderivAux, toPoly]
  | cons a p ih =>
    simp only [pderivAux, toPoly, ih, derivative_add, derivative_mul, derivative_C, derivative_X]
    push_cast
    simp only [C_mul, C_add, C_1]
    ring

theorem toPoly_pderiv (p : Poly) : toPoly (pderiv p) = derivative (toPoly p) := by
  cases p with
  | nil => simp [pderiv, toPoly]
  | cons a p =>
    simp only [pderiv, toPoly, toPoly_pderivAux, derivative_add, derivative_mul, derivative_C, derivative_X]
    simp

theorem toPoly_pderivN (n : ℕ) (p : Poly) : toPoly (pderivN n p) = derivative^[n] (toPoly p) := by
  induction n generalizing p with
  | zero => rfl
  | succ n ih => rw [pderivN, ih, toPoly_pderiv, Function.iterate_succ_apply]

theorem toPoly_pbase (n : ℕ) : toPoly (pbase n) = (X ^ 2 - 1) ^ n := by
  induction n with
  | zero => simp [pbase, toPoly]
  | succ n ih =>
    have : toPoly [-1, 0, 1] = X ^ 2 - 1 := by simp [toPoly]; ring
    rw [pbase, toPoly_pmul, ih, this, ← pow_succ']

theorem fact_eq (n : ℕ) : fact n = n.factorial := by
  induction n with
  | zero => rfl
  | succ n ih => rw [fact, ih, Nat.factorial_succ]

theorem peval_prod (n m : ℕ) (x : ℝ) :
    (derivative^[m] (legendreP n)).eval x = 1 / (2 ^ n * (n.factorial : ℝ)) * peval x (prod n m) := by
  rw [← eval_toPoly, prod, toPoly_pderivN, toPoly_pbase, legendreP]
  rw [← Polynomial.iterate_derivative_C_mul] 
  rw [iterate_derivative_C_mul, iterate_derivative_C_mul, eval_mul, eval_C, ← Function.iterate_add_apply, Nat.add_comm m n]

/-- The certificate gives the square root. -/
theorem root_eq (n m k r q : ℕ) (h : checkRoot n m k r q = true) :
    Real.sqrt (((n - m).factorial : ℝ) / ((n + m).factorial : ℝ)) = Real.sqrt k * (r / (q * k)) ∧ 0 < k ∧ 0 < q := by
  simp only [checkRoot, Bool.and_eq_true, beq_iff_eq, decide_eq_true_eq, fact_eq] at h
  obtain ⟨⟨⟨h, hk⟩, hq⟩, hr⟩ := h
  refine ⟨?_, hk, hq⟩
  have hkr : (0 : ℝ) < k := by exact_mod_cast hk
  have hqr : (0 : ℝ) < q := by exact_mod_cast hq
  have hrr : (0 : ℝ) < r := by exact_mod_cast hr
  have hf : (0 : ℝ) < ((n + m).factorial : ℝ) := by exact_mod_cast Nat.factorial_pos _
  have h' : ((n - m).factorial : ℝ) * k * (q * q) = ((n + m).factorial : ℝ) * (r * r) := by exact_mod_cast h
  rw [Real.sqrt_eq_iff_mul_self_eq (by positivity) (by positivity)]
  have hs : Real.sqrt k * Real.sqrt k = k := Real.mul_self_sqrt hkr.le
  have : Real.sqrt k * (r / (q * k)) * (Real.sqrt k * (r / (q * k))) = r * r / (q * q * k) := by
    rw [show Real.sqrt k * (r / (q * k)) * (Real.sqrt k * (r / (q * k))) =
      (Real.sqrt k * Real.sqrt k) * ((r / (q * k)) * (r / (q * k))) by ring, hs]
    field_simp
  rw [this]
  field_simp
  linarith

/-- The symbolic target is the specified function. -/
theorem den_target (n m k r q : ℕ) (x : ℝ) (h : checkRoot n m k r q = true) :
    Good x (target n m k r q) ∧ den k x (target n m k r q) = assLeg n m x := by
  obtain ⟨hroot, hk, hq⟩ := root_eq n m k r q h
  have hkr : (0 : ℝ) < k := by exact_mod_cast hk
  have hqr : (0 : ℝ) < q := by exact_mod_cast hq
  have hf : (0 : ℝ) < (n.factorial : ℝ) := by exact_mod_cast Nat.factorial_pos _
  refine ⟨⟨?_, by simp [target]⟩, ?_⟩
  · simp only [target, fact_eq]
    have := Nat.factorial_pos n
    positivity
  · unfold assLeg
    rw [hroot, peval_prod]
    simp only [den, target, peval_pscale, fact_eq, sx]
    push_cast
    field_simp

theorem assLeg_eq_poly (n m : ℕ) (x : ℝ) : assLeg n m x =
    Real.sqrt (((n - m).factorial : ℝ) / ((n + m).factorial : ℝ)) *
    ((-1) ^ m * sx x ^ m * (1 / (2 ^ n * (n.factorial : ℝ)) * peval x (prod n m))) := by
  unfold assLeg
  rw [peval_prod]
  rfl

theorem hasDerivAt_peval (p : Poly) (x : ℝ) : HasDerivAt (fun y => peval y p) (peval x (pderiv p)) x := by
  have := (toPoly p).hasDerivAt x
  rw [← toPoly_pderiv, eval_toPoly] at this
  exact this.congr_of_eventuallyEq (Filter.Eventually.of_forall fun y => (eval_toPoly y p).symm)

theorem hasDerivAt_sx (x : ℝ) (hx : x ∈ Set.Ioo (-1 : ℝ) 1) : HasDerivAt sx (-x / sx x) x := by
  have h1 : 0 < 1 - x ^ 2 := by have := hx.1; have := hx.2; nlinarith
  have h2 : HasDerivAt (fun y : ℝ => 1 - y ^ 2) (-(2 * x)) x := by
    simpa using ((hasDerivAt_pow 2 x).const_sub 1)
  have h3 := h2.sqrt h1.ne'
  refine h3.congr_deriv ?_
  have : Real.sqrt (1 - x ^ 2) ≠ 0 := (Real.sqrt_pos.2 h1).ne'
  unfold sx
  field_simp

theorem sx_pos {x : ℝ} (hx : x ∈ Set.Ioo (-1 : ℝ) 1) : 0 < sx x :=
  Real.sqrt_pos.2 (by have := hx.1; have := hx.2; nlinarith)

/-- Derivative of a symbolic value without negative powers of `s`. -/
theorem hasDerivAt_den (k : ℕ) (u : NF) (hd : u.d ≠ 0) (he : u.e = 0) (x : ℝ) (hx : x ∈ Set.Ioo (-1 : ℝ) 1) :
    HasDerivAt (fun y => den k y u) (den k x (derivNF u)) x := by
  have hs := (sx_pos hx).ne'
  have hdr : (u.d : ℝ) ≠ 0 := by exact_mod_cast hd
  have h1 := ((hasDerivAt_sx x hx).pow u.j).mul (hasDerivAt_peval u.p x)
  have h2 := (h1.const_mul (Real.sqrt k ^ u.a)).div_const (u.d : ℝ)
  have hfun : (fun y => den k y u) = fun y => Real.sqrt k ^ u.a * ((sx ^ u.j * fun y => peval y u.p) y) / (u.d : ℝ) := by
    funext y
    simp only [den, he, pow_zero, mul_one, Pi.mul_apply, Pi.pow_apply]
    ring
  rw [hfun]
  refine h2.congr_deriv ?_
  simp only [den, derivNF, peval_padd, peval_pmul, peval_pw, peval_pscale, peval]
  rw [← sx_sq ⟨hx.1.le, hx.2.le⟩]
  push_cast
  simp only [Pi.pow_apply]
  rcases Nat.eq_zero_or_pos u.j with h0 | h0
  · rw [h0]; simp; field_simp
  · have e : sx x ^ u.j = sx x ^ (u.j - 1) * sx x := by rw [← pow_succ]; congr 1; omega
    rw [e]
    field_simp
    ring

/-- A program that passes the check of values computes the specified function on the closed interval. -/
theorem checkVal_sound (n m k r q : ℕ) (p : Prog) (h : checkVal n m k r q p = true) (x : ℝ)
    (hx : x ∈ Set.Icc (-1 : ℝ) 1) : runProg p x = some (assLeg n m x) := by
  unfold checkVal at h
  rw [Bool.and_eq_true] at h
  obtain ⟨h1, h2⟩ := h
  obtain ⟨gt, ht⟩ := den_target n m k r q x h1
  split at h2
  · rename_i u hu
    obtain ⟨gu, he⟩ := symProg_sound k hx true (Or.inl rfl) p u hu
    simp only [Bool.and_eq_true, Bool.or_eq_true, beq_iff_eq] at h2
    have ha : Real.sqrt k ^ u.a = Real.sqrt k ^ (target n m k r q).a := by
      rcases h2.1 with ha | ⟨ha, hk⟩
      · rw [ha]; rfl
      · rw [ha, hk]; simp
    rw [he, nfEq_sound k hx u _ gu gt ha h2.2, ht]
  · simp at h2

/-- A program that passes the check of derivatives computes the derivative in the open interval. -/
theorem checkDer_sound (n m k r q : ℕ) (p : Prog) (h : checkDer n m k r q p = true) (x : ℝ)
    (hx : x ∈ Set.Ioo (-1 : ℝ) 1) : ∃ v, runProg p x = some v ∧ HasDerivAt (assLeg n m) v x := by
  unfold checkDer at h
  rw [Bool.and_eq_true] at h
  obtain ⟨h1, h2⟩ := h
  obtain ⟨gt, _⟩ := den_target n m k r q x h1
  have hx' : x ∈ Set.Icc (-1 : ℝ) 1 := ⟨hx.1.le, hx.2.le⟩
  have hs := (sx_pos hx).ne'
  split at h2
  · rename_i u hu
    obtain ⟨gu, he⟩ := symProg_sound k hx' false (Or.inr hs) p u hu
    simp only [Bool.and_eq_true, Bool.or_eq_true, beq_iff_eq] at h2
    have ha : Real.sqrt k ^ u.a = Real.sqrt k ^ (derivNF (target n m k r q)).a := by
      rcases h2.1 with ha | ⟨ha, hk⟩
      · rw [ha]; rfl
      · rw [ha, hk]; simp
    refine ⟨_, he, ?_⟩
    rw [nfEq_sound k hx' u (derivNF (target n m k r q)) gu ⟨gt.1, fun _ => hs⟩ ha h2.2]
    have hd := hasDerivAt_den k (target n m k r q) gt.1 rfl x hx
    exact hd.congr_of_eventuallyEq (Filter.Eventually.of_forall fun y => (den_target n m k r q y h1).2.symm)
  · simp at h2

/-- Derivative programs at the end points of the interval. -/
theorem checkEnd_sound (m k : ℕ) (p : Prog) (h : checkEnd m k p = true) (x : ℝ) (hx : x = 1 ∨ x = -1) :
    runProg p x = none ↔ m = 1 := by
  have hx' : x ∈ Set.Icc (-1 : ℝ) 1 := by rcases hx with rfl | rfl <;> simp
  have hs : sx x = 0 := by rcases hx with rfl | rfl <;> simp [sx]
  unfold checkEnd at h
  split at h
  · rename_i u hu
    obtain ⟨_, he⟩ := symProg_sound k hx' true (Or.inl rfl) p u hu
    rw [he]
    simpa using h
  · rename_i hu
    have := symProg_dz k hx' hs p hu
    simpa [this] using h
  · simp at h

end PiBem.Legendre
