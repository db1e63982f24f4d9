import Verif.Harmonic.Field

/-!
# Truncation error

Mathematics used by the proofs: the double truncated series of a source.
-/

noncomputable section

namespace PiBem.Harmonic

open Polynomial Complex PiBem.Legendre PiBem.Expansion

/-- A sum over a square as a sum over degrees. -/
theorem sum_square (p : ℕ) (f : ℕ → ℕ → ℝ) :
    ∑ n ∈ Finset.range (p + 1), ∑ j ∈ Finset.range (p + 1), f j n =
      ∑ N ∈ Finset.range (2 * p + 1), ∑ j ∈ Finset.range (N + 1), if j ≤ p ∧ N - j ≤ p then f j (N - j) else 0 := by
  rw [Finset.sum_comm, ← Finset.sum_product']
  rw [← Finset.sum_fiberwise_of_maps_to (g := fun x : ℕ × ℕ => x.1 + x.2) (t := Finset.range (2 * p + 1))]
  · refine Finset.sum_congr rfl fun N _ => ?_
    have h := Finset.Nat.sum_antidiagonal_eq_sum_range_succ_mk
      (fun x : ℕ × ℕ => if x.1 ≤ p ∧ x.2 ≤ p then f x.1 x.2 else 0) N
    simp only at h
    rw [Nat.succ_eq_add_one] at h
    rw [← h, ← Finset.sum_filter]
    refine Finset.sum_congr ?_ fun _ _ => rfl
    ext x
    simp only [Finset.mem_filter, Finset.mem_product, Finset.mem_range, Finset.mem_antidiagonal]
    omega
  · intro x hx
    simp only [Finset.mem_product, Finset.mem_range] at *
    omega

/-- Truncation of a double series dominated degree by degree. -/
theorem truncation (p : ℕ) (F : ℕ → ℕ → ℝ) (S T : ℝ) (β : ℕ → ℝ)
    (hS : HasSum (fun N => ∑ j ∈ Finset.range (N + 1), F j (N - j)) S)
    (hβ : ∀ N, ∑ j ∈ Finset.range (N + 1), |F j (N - j)| ≤ β N)
    (hT : HasSum (fun N => β (N + (p + 1))) T) :
    |S - ∑ n ∈ Finset.range (p + 1), ∑ j ∈ Finset.range (p + 1), F j n| ≤ T := by
  rw [sum_square]
  set H : ℕ → ℝ := fun N => ∑ j ∈ Finset.range (N + 1), if j ≤ p ∧ N - j ≤ p then F j (N - j) else 0 with hH
  have hH0 : ∀ N ∉ Finset.range (2 * p + 1), H N = 0 := by
    intro N hN
    simp only [Finset.mem_range, not_lt] at hN
    refine Finset.sum_eq_zero fun j hj => ?_
    simp only [Finset.mem_range] at hj
    rw [if_neg (by omega)]
  have hHs : HasSum H (∑ N ∈ Finset.range (2 * p + 1), H N) := hasSum_sum_of_ne_finset_zero hH0
  have hG := hS.sub hHs
  have hβT : HasSum (fun N => if N ≤ p then 0 else β N) T := by
    rw [← hasSum_nat_add_iff' (p + 1)]
    have h0 : ∑ i ∈ Finset.range (p + 1), (if i ≤ p then (0 : ℝ) else β i) = 0 :=
      Finset.sum_eq_zero fun i hi => by
        simp only [Finset.mem_range] at hi
        rw [if_pos (by omega)]
    rw [h0, sub_zero]
    refine hT.congr_fun fun N => ?_
    rw [if_neg (by omega)]
  have := hG.norm_le_of_bounded hβT (fun N => ?_)
  · exact this
  · have e : ∑ j ∈ Finset.range (N + 1), F j (N - j) - H N =
        ∑ j ∈ Finset.range (N + 1), if j ≤ p ∧ N - j ≤ p then 0 else F j (N - j) := by
      rw [hH, ← Finset.sum_sub_distrib]
      refine Finset.sum_congr rfl fun j _ => ?_
      split_ifs <;> simp
    rw [e]
    by_cases hN : N ≤ p
    · rw [if_pos hN, Finset.sum_eq_zero]
      · simp
      · intro j hj
        simp only [Finset.mem_range] at hj
        rw [if_pos (by omega)]
    · rw [if_neg hN, Real.norm_eq_abs]
      refine (Finset.abs_sum_le_sum_abs _ _).trans (le_trans (Finset.sum_le_sum fun j _ => ?_) (hβ N))
      split_ifs
      · simp
      · exact le_rfl

theorem spoly_zero_charge (q : ℝ) (a : V3) (j : ℕ) : spoly 0 j (.charge q a) = C (q : ℂ) * Qd j a := by
  rw [spoly, sub_zero]

theorem spoly_zero_dipole (q : ℝ) (a d : V3) (j : ℕ) : spoly 0 j (.dipole q a d) = C (q : ℂ) * dQd j a d := by
  rw [spoly, sub_zero]

theorem sum_spoly (s : Source) (b : V3) (N : ℕ) :
    ∑ j ∈ Finset.range (N + 1), spoly 0 j s * Qd (N - j) b = spoly (-b) N s := by
  rw [spoly_translate (-b) 0 N s, ← Finset.sum_range_reflect]
  refine Finset.sum_congr rfl fun j hj => ?_
  have hj : j ≤ N := by simpa [Nat.lt_succ_iff] using hj
  rw [show N + 1 - 1 - j = N - j by omega, show N - (N - j) = j by omega, sub_neg_eq_add, zero_add, mul_comm]

theorem rho_lt_ne {D : V3} {r : ℝ} (hr : 0 ≤ r) (h : r < rho D) : D ≠ 0 := by
  rintro rfl
  rw [rho_eq_zero.mpr rfl] at h; linarith

/-- **Truncation error** of the double expansion of a source. -/
theorem source_error (s : Source) (D b : V3) (p : ℕ) (h : rho s.pos + rho b < rho D) :
    |s.potential (D - b) -
      ∑ n ∈ Finset.range (p + 1), ∑ j ∈ Finset.range (p + 1), (fld (j + n) D (spoly 0 j s * Qd n b)).re| ≤
      s.bound p (rho D) (rho s.pos + rho b) := by
  have hb0 := rho_nonneg b
  have ha0 := rho_nonneg s.pos
  have hr : 0 < rho D := by linarith
  have hD : D ≠ 0 := rho_lt_ne (by linarith) h
  set r := rho s.pos + rho b with hrd
  have hr0 : 0 ≤ r := by linarith
  have hx0 : 0 ≤ r / rho D := div_nonneg hr0 hr.le
  have hx1 : r / rho D < 1 := by rw [div_lt_one hr]; exact h
  have hDr : 0 < rho D - r := by linarith
  have hterm : ∀ N, ∑ j ∈ Finset.range (N + 1), (fld (j + (N - j)) D (spoly 0 j s * Qd (N - j) b)).re =
      (fld N D (spoly (-b) N s)).re := by
    intro N
    rw [← sum_spoly, fld_sum, Complex.re_sum]
    refine Finset.sum_congr rfl fun j hj => ?_
    have hj : j ≤ N := by simpa [Nat.lt_succ_iff] using hj
    rw [show j + (N - j) = N by omega]
  cases s with
  | charge q a =>
    simp only [Source.pos] at *
    have hab : rho (a + b) < rho D := (rho_add_le a b).trans_lt h
    refine truncation p (fun j n => (fld (j + n) D (spoly 0 j (.charge q a) * Qd n b)).re) _ _
      (fun N => |q| * r ^ N / rho D ^ (N + 1)) ?_ ?_ ?_
    · have hs := (hasSum_charge D (a + b) hab).mul_left q
      have e1 : (fun N => ∑ j ∈ Finset.range (N + 1), (fld (j + (N - j)) D (spoly 0 j (.charge q a) * Qd (N - j) b)).re) =
          fun N => q * (fld N D (Qd N (a + b))).re := by
        funext N
        rw [hterm, spoly, fld_C_mul, Complex.re_ofReal_mul, sub_neg_eq_add]
      have e2 : Source.potential (D - b) (.charge q a) = q * (1 / rho (D - (a + b))) := by
        rw [Source.potential, show D - b - a = D - (a + b) by abel]; ring
      rw [e1, e2]; exact hs
    · intro N
      have hbin : r ^ N = ∑ j ∈ Finset.range (N + 1), rho a ^ j * rho b ^ (N - j) * (N.choose j : ℕ) := by
        rw [hrd, add_pow]
      rw [hbin, Finset.mul_sum, Finset.sum_div]
      refine Finset.sum_le_sum fun j hj => ?_
      have hj : j ≤ N := by simpa [Nat.lt_succ_iff] using hj
      rw [spoly_zero_charge, mul_assoc, fld_C_mul, Complex.re_ofReal_mul, abs_mul, mul_div_assoc]
      refine mul_le_mul_of_nonneg_left ?_ (abs_nonneg q)
      have h1 := norm_fld_charge D a b hD j (N - j)
      refine ((Complex.abs_re_le_norm _).trans h1).trans (le_of_eq ?_)
      rw [show j + (N - j) = N by omega]; ring
    · have hg := (hasSum_geometric_of_lt_one hx0 hx1).mul_left (|q| * (r / rho D) ^ (p + 1) / rho D)
      have e1 : (fun N => |q| * r ^ (N + (p + 1)) / rho D ^ (N + (p + 1) + 1)) =
          fun N => |q| * (r / rho D) ^ (p + 1) / rho D * (r / rho D) ^ N := by
        funext N
        rw [div_pow, div_pow]; field_simp; ring
      have e2 : Source.bound p (rho D) r (.charge q a) = |q| * (r / rho D) ^ (p + 1) / rho D * (1 - r / rho D)⁻¹ := by
        rw [Source.bound, one_sub_div hr.ne', inv_div]; field_simp
      rw [e1, e2]; exact hg
  | dipole q a d =>
    simp only [Source.pos] at *
    have hab : rho (a + b) < rho D := (rho_add_le a b).trans_lt h
    refine truncation p (fun j n => (fld (j + n) D (spoly 0 j (.dipole q a d) * Qd n b)).re) _ _
      (fun N => |q| * rho d * (N * r ^ (N - 1)) / rho D ^ (N + 1)) ?_ ?_ ?_
    · have hs := (hasSum_dipole D (a + b) d hab).mul_left q
      have e1 : (fun N => ∑ j ∈ Finset.range (N + 1), (fld (j + (N - j)) D (spoly 0 j (.dipole q a d) * Qd (N - j) b)).re) =
          fun N => q * (fld N D (dQd N (a + b) d)).re := by
        funext N
        rw [hterm, spoly, fld_C_mul, Complex.re_ofReal_mul, sub_neg_eq_add]
      have e2 : Source.potential (D - b) (.dipole q a d) = q * deriv (fun t : ℝ => 1 / rho (D - (a + b + t • d))) 0 := by
        rw [Source.potential]
        congr 3
        funext t
        rw [show D - b - (a + t • d) = D - (a + b + t • d) by abel]
      rw [e1, e2]; exact hs
    · intro N
      have hbin : (N : ℝ) * r ^ (N - 1) =
          ∑ j ∈ Finset.range (N + 1), j * (N.choose j : ℕ) * rho a ^ (j - 1) * rho b ^ (N - j) := by
        rcases N with _ | N
        · simp
        · rw [Finset.sum_range_succ', hrd, Nat.add_sub_cancel, add_pow, Finset.mul_sum]
          simp only [Nat.cast_zero, zero_mul, add_zero]
          refine Finset.sum_congr rfl fun j _ => ?_
          rw [Nat.add_sub_cancel, show N + 1 - (j + 1) = N - j by omega]
          have hc : ((N + 1 : ℕ) : ℝ) * (N.choose j : ℕ) = ((N + 1).choose (j + 1) : ℕ) * ((j + 1 : ℕ) : ℝ) := by
            exact_mod_cast Nat.add_one_mul_choose_eq N j
          linear_combination (rho a ^ j * rho b ^ (N - j)) * hc
      rw [hbin, Finset.mul_sum, Finset.sum_div]
      refine Finset.sum_le_sum fun j hj => ?_
      have hj : j ≤ N := by simpa [Nat.lt_succ_iff] using hj
      rw [spoly_zero_dipole, mul_assoc, fld_C_mul, Complex.re_ofReal_mul, abs_mul, mul_assoc, mul_div_assoc]
      refine mul_le_mul_of_nonneg_left ?_ (abs_nonneg q)
      have h1 := norm_fld_dipole D a d b hD j (N - j)
      refine ((Complex.abs_re_le_norm _).trans h1).trans (le_of_eq ?_)
      rw [show j + (N - j) = N by omega]; ring
    · have hxn : ‖r / rho D‖ < 1 := by rwa [Real.norm_eq_abs, abs_of_nonneg hx0]
      have hg := (((hasSum_coe_mul_geometric_of_norm_lt_one hxn).add
        ((hasSum_geometric_of_lt_one hx0 hx1).mul_left ((p : ℝ) + 1))).mul_left (|q| * rho d * (r / rho D) ^ p / rho D ^ 2))
      have e1 : (fun N : ℕ => |q| * rho d * (((N + (p + 1) : ℕ) : ℝ) * r ^ (N + (p + 1) - 1)) / rho D ^ (N + (p + 1) + 1)) =
          fun N : ℕ => |q| * rho d * (r / rho D) ^ p / rho D ^ 2 * ((N : ℝ) * (r / rho D) ^ N + ((p : ℝ) + 1) * (r / rho D) ^ N) := by
        funext N
        rw [show N + (p + 1) - 1 = N + p by omega, div_pow, div_pow]; push_cast; field_simp; ring
      have e2 : Source.bound p (rho D) r (.dipole q a d) = |q| * rho d * (r / rho D) ^ p / rho D ^ 2 *
          (r / rho D / (1 - r / rho D) ^ 2 + ((p : ℝ) + 1) * (1 - r / rho D)⁻¹) := by
        rw [Source.bound, one_sub_div hr.ne', inv_div]; field_simp; ring
      rw [e1, e2]; exact hg

end PiBem.Harmonic
