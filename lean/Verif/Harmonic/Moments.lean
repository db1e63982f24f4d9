import Verif.Harmonic.Signed
import Verif.Expansion.Potential
import Mathlib.Analysis.Calculus.Deriv.Pow
import Mathlib.Analysis.Calculus.Deriv.Add
import Mathlib.Analysis.Calculus.Deriv.Mul
import Mathlib.Analysis.Calculus.Deriv.Star
import Mathlib.Analysis.Calculus.Deriv.Shift
import Mathlib.Analysis.Complex.RealDeriv

/-!
# Moments as coefficients of polynomials

Mathematics used by the proofs.
-/

noncomputable section

namespace PiBem.Harmonic

open Polynomial Complex PiBem.Legendre PiBem.Expansion

/-- Polynomials of degree at most `2n` with coefficients of opposite orders conjugate up to sign. -/
def Sym (n : ℕ) (P : ℂ[X]) : Prop :=
  P.natDegree ≤ 2 * n ∧ P.map (starRingEnd ℂ) = C ((-1) ^ n) * (reflect (2 * n) P).comp (C (-1) * X)

theorem Sym.conj {n : ℕ} {P : ℂ[X]} (h : Sym n P) (k : ℕ) (hk : k ≤ 2 * n) :
    (starRingEnd ℂ) (P.coeff k) = (-1) ^ (n + k) * P.coeff (2 * n - k) := by
  rw [← coeff_map, h.2, coeff_C_mul, comp_C_mul_X_coeff, coeff_reflect, revAt_le hk]
  ring

theorem Sym.mul {n m : ℕ} {P R : ℂ[X]} (hP : Sym n P) (hR : Sym m R) : Sym (n + m) (P * R) := by
  refine ⟨natDegree_mul_le.trans (by have := hP.1; have := hR.1; omega), ?_⟩
  rw [Polynomial.map_mul, hP.2, hR.2, mul_add 2 n m, reflect_mul _ _ hP.1 hR.1, mul_comp, pow_add, C_mul]
  ring

theorem Sym.zero (n : ℕ) : Sym n 0 := ⟨by simp, by simp⟩

theorem Sym.add {n : ℕ} {P R : ℂ[X]} (hP : Sym n P) (hR : Sym n R) : Sym n (P + R) := by
  refine ⟨(natDegree_add_le _ _).trans (max_le hP.1 hR.1), ?_⟩
  rw [Polynomial.map_add, hP.2, hR.2, reflect_add, add_comp]
  ring

theorem Sym.sum {n : ℕ} {ι : Type*} (s : Finset ι) (P : ι → ℂ[X]) (h : ∀ i ∈ s, Sym n (P i)) : Sym n (∑ i ∈ s, P i) := by
  classical
  induction s using Finset.induction_on with
  | empty => simpa using Sym.zero n
  | insert a s ha ih =>
    rw [Finset.sum_insert ha]
    exact (h a (Finset.mem_insert_self _ _)).add (ih fun i hi => h i (Finset.mem_insert_of_mem hi))

theorem Sym.smul {n : ℕ} {P : ℂ[X]} (hP : Sym n P) (c : ℝ) : Sym n (C (c : ℂ) * P) := by
  refine ⟨(natDegree_C_mul_le _ _).trans hP.1, ?_⟩
  rw [Polynomial.map_mul, hP.2, map_C, Complex.conj_ofReal, reflect_C_mul, mul_comp, C_comp]
  ring

theorem Sym.one : Sym 0 1 := ⟨by simp, by simp [reflect_one]⟩

theorem sym_Q (v : V3) : Sym 1 (Q v) := ⟨natDegree_Q v, by rw [map_conj_Q]; simp⟩

theorem sym_Q_pow (v : V3) (n : ℕ) : Sym n (Q v ^ n) := by
  induction n with
  | zero => simpa using Sym.one
  | succ n ih => rw [pow_succ]; exact ih.mul (sym_Q v)

theorem sym_Qd (n : ℕ) (v : V3) : Sym n (Qd n v) := by
  have := (sym_Q_pow v n).smul (1 / (n.factorial : ℝ))
  rw [Qd]; simpa using this

/-- Derivative of `Qd n` at `w` in the direction `d`. -/
def dQd : ℕ → V3 → V3 → ℂ[X]
  | 0, _, _ => 0
  | n + 1, w, d => Qd n w * Q d

theorem sym_dQd (n : ℕ) (w d : V3) : Sym n (dQd n w d) := by
  cases n with
  | zero => exact Sym.zero 0
  | succ n => exact (sym_Qd n w).mul (sym_Q d)

theorem Qd_smul (j : ℕ) (t : ℝ) (d : V3) : Qd j (t • d) = C ((t : ℂ) ^ j) * Qd j d := by
  rw [Qd, Q_smul, mul_pow, Qd, C_pow]; ring

theorem hasDerivAt_poly (n : ℕ) (a : ℕ → ℂ) :
    HasDerivAt (fun t : ℝ => ∑ j ∈ Finset.range (n + 1), (t : ℂ) ^ j * a j) (if n = 0 then 0 else a 1) 0 := by
  have h : ∀ j ∈ Finset.range (n + 1), HasDerivAt (fun t : ℝ => (t : ℂ) ^ j * a j) (if j = 1 then a 1 else 0) 0 := by
    intro j _
    have h1 : HasDerivAt (fun t : ℝ => (t : ℂ) ^ j * a j) (j * (0 : ℂ) ^ (j - 1) * a j) 0 := by
      have h2 := (hasDerivAt_pow j (0 : ℂ)).comp_ofReal (z := (0 : ℝ))
      exact h2.mul_const (a j)
    convert h1 using 1
    rcases j with _ | _ | j <;> simp
  refine (HasDerivAt.fun_sum h).congr_deriv ?_
  rw [Finset.sum_ite_eq']
  rcases n with _ | n <;> simp

theorem hasDerivAt_R_zero (n k : ℕ) (w d : V3) :
    HasDerivAt (fun t : ℝ => R n k (w + t • d)) ((dQd n w d).coeff k) 0 := by
  have h := hasDerivAt_poly n (fun j => (Qd j d * Qd (n - j) w).coeff k)
  have e : (fun t : ℝ => R n k (w + t • d)) =
      fun t : ℝ => ∑ j ∈ Finset.range (n + 1), (t : ℂ) ^ j * (Qd j d * Qd (n - j) w).coeff k := by
    funext t
    rw [add_comm, ← coeff_Qd, Qd_add, finsetSum_coeff]
    refine Finset.sum_congr rfl fun j _ => ?_
    rw [Qd_smul, mul_assoc, coeff_C_mul]
  rw [e]
  convert h using 1
  rcases n with _ | n
  · simp [dQd]
  · simp only [dQd, Nat.add_eq_zero_iff, one_ne_zero, and_false, if_false, Nat.add_sub_cancel]
    rw [show Qd 1 d = Q d by simp [Qd], mul_comm]

theorem hasDerivAt_R (n k : ℕ) (w d : V3) (t : ℝ) :
    HasDerivAt (fun t : ℝ => R n k (w + t • d)) ((dQd n (w + t • d) d).coeff k) t := by
  have h := hasDerivAt_R_zero n k (w + t • d) d
  have h0 : HasDerivAt (fun r : ℝ => R n k (w + t • d + r • d)) ((dQd n (w + t • d) d).coeff k) (t - t) := by
    rw [sub_self]; exact h
  have h1 := h0.comp_sub_const t t
  have e : (fun r : ℝ => R n k (w + r • d)) = fun r : ℝ => R n k (w + t • d + (r - t) • d) := by
    funext r; congr 1; rw [sub_smul]; abel
  rw [e]; exact h1

/-- The polynomials whose coefficients are the moments of a source about `c`. -/
def spoly (c : V3) (n : ℕ) : Source → ℂ[X]
  | .charge q y => C (q : ℂ) * Qd n (y - c)
  | .dipole q y d => C (q : ℂ) * dQd n (y - c) d

theorem sym_spoly (c : V3) (n : ℕ) (s : Source) : Sym n (spoly c n s) := by
  cases s with
  | charge q y => exact (sym_Qd n _).smul q
  | dipole q y d => exact (sym_dQd n _ d).smul q

theorem conj_solid (v : V3) (n m : ℕ) (hm : m ≤ n) :
    ((rho v ^ n * assLeg n m (cosA v) : ℝ) : ℂ) * cis (-m * beta v) = W n m * (starRingEnd ℂ) (R n (n + m) v) := by
  have h := congrArg (starRingEnd ℂ) (solid' v n m hm)
  rw [map_mul, map_mul, conj_cis, Complex.conj_ofReal, Complex.conj_ofReal] at h
  rw [← h, mul_comm (rho v ^ n), neg_mul]

theorem moment_eq (c : V3) (n m : ℕ) (hm : m ≤ n) (s : Source) :
    s.moment c n m = W n m * (starRingEnd ℂ) ((spoly c n s).coeff (n + m)) := by
  cases s with
  | charge q y =>
    rw [Source.moment, mul_assoc, conj_solid _ n m hm, spoly, coeff_C_mul, coeff_Qd, map_mul, Complex.conj_ofReal]
    ring
  | dipole q y d =>
    rw [Source.moment]
    have h : HasDerivAt (fun t : ℝ => ((rho (y + t • d - c) ^ n * assLeg n m (cosA (y + t • d - c)) : ℝ) : ℂ) *
        cis (-m * beta (y + t • d - c))) (W n m * (starRingEnd ℂ) ((dQd n (y - c) d).coeff (n + m))) 0 := by
      have h1 := ((hasDerivAt_R_zero n (n + m) (y - c) d).star).const_mul (W n m : ℂ)
      have e : (fun t : ℝ => ((rho (y + t • d - c) ^ n * assLeg n m (cosA (y + t • d - c)) : ℝ) : ℂ) *
          cis (-m * beta (y + t • d - c))) = fun t : ℝ => (W n m : ℂ) * star (R n (n + m) (y - c + t • d)) := by
        funext t
        rw [conj_solid _ n m hm, show y + t • d - c = y - c + t • d by abel]
        rfl
      rw [e]; exact h1
    rw [h.deriv, spoly, coeff_C_mul, map_mul, Complex.conj_ofReal]
    ring

/-- Polynomials of a list of sources. -/
def lpoly (S : List Source) (c : V3) (n : ℕ) : ℂ[X] := (S.map (spoly c n)).sum

theorem sym_lpoly (S : List Source) (c : V3) (n : ℕ) : Sym n (lpoly S c n) := by
  induction S with
  | nil => simpa [lpoly] using Sym.zero n
  | cons s S ih =>
    simp only [lpoly, List.map_cons, List.sum_cons]
    exact (sym_spoly c n s).add ih

theorem moment_list_eq (S : List Source) (c : V3) (n m : ℕ) (hm : m ≤ n) :
    moment S c n m = W n m * (starRingEnd ℂ) ((lpoly S c n).coeff (n + m)) := by
  induction S with
  | nil => simp [moment, lpoly]
  | cons s S ih =>
    simp only [moment, lpoly, List.map_cons, List.sum_cons] at *
    rw [ih, moment_eq c n m hm, coeff_add, map_add]
    ring

/-- Change of centre. -/
theorem spoly_translate (c c' : V3) (n : ℕ) (s : Source) :
    spoly c n s = ∑ j ∈ Finset.range (n + 1), Qd j (c' - c) * spoly c' (n - j) s := by
  cases s with
  | charge q y =>
    rw [spoly, show y - c = (c' - c) + (y - c') by abel, Qd_add, Finset.mul_sum]
    refine Finset.sum_congr rfl fun j _ => ?_
    rw [spoly]; ring
  | dipole q y d =>
    cases n with
    | zero => simp [spoly, dQd]
    | succ n =>
      rw [spoly, dQd, show y - c = (c' - c) + (y - c') by abel, Qd_add, Finset.sum_mul, Finset.mul_sum,
        Finset.sum_range_succ _ (n + 1)]
      rw [show spoly c' (n + 1 - (n + 1)) (.dipole q y d) = 0 by simp [spoly, dQd], mul_zero, add_zero]
      refine Finset.sum_congr rfl fun j hj => ?_
      have hj : j ≤ n := by simpa [Nat.lt_succ_iff] using hj
      rw [show n + 1 - j = (n - j) + 1 by omega, spoly, dQd]; ring

theorem lpoly_translate (S : List Source) (c c' : V3) (n : ℕ) :
    lpoly S c n = ∑ j ∈ Finset.range (n + 1), Qd j (c' - c) * lpoly S c' (n - j) := by
  induction S with
  | nil => simp [lpoly]
  | cons s S ih =>
    simp only [lpoly, List.map_cons, List.sum_cons] at *
    rw [ih, spoly_translate c c' n s, ← Finset.sum_add_distrib]
    exact Finset.sum_congr rfl fun j _ => by ring

end PiBem.Harmonic
