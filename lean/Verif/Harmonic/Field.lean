import Verif.Harmonic.Genfun
import Mathlib.Analysis.Calculus.SmoothSeries
import Mathlib.Analysis.InnerProductSpace.PiL2

/-!
# Fields of single degrees: bounds and sums

Mathematics used by the proofs.
-/

noncomputable section

namespace PiBem.Harmonic

open Polynomial Complex PiBem.Legendre PiBem.Expansion

/-- Term of degree `N` at distance vector `D` of the field with polynomial `g`. -/
def fld (N : ℕ) (D : V3) (g : ℂ[X]) : ℂ := pair N ((Qd N D).map (starRingEnd ℂ)) g / (rho D : ℂ) ^ (2 * N + 1)

theorem pair_add (N : ℕ) (f g g' : ℂ[X]) : pair N f (g + g') = pair N f g + pair N f g' := by
  simp only [pair, coeff_add, mul_add, Finset.sum_add_distrib]

theorem pair_C_mul (N : ℕ) (f g : ℂ[X]) (c : ℂ) : pair N f (C c * g) = c * pair N f g := by
  simp only [pair, coeff_C_mul, Finset.mul_sum]
  exact Finset.sum_congr rfl fun k _ => by ring

theorem pair_sum (N : ℕ) (f : ℂ[X]) {ι : Type*} (s : Finset ι) (g : ι → ℂ[X]) :
    pair N f (∑ i ∈ s, g i) = ∑ i ∈ s, pair N f (g i) := by
  simp only [pair, finsetSum_coeff, Finset.mul_sum]
  rw [Finset.sum_comm]

theorem fld_add (N : ℕ) (D : V3) (g g' : ℂ[X]) : fld N D (g + g') = fld N D g + fld N D g' := by
  simp only [fld, pair_add, add_div]

theorem fld_C_mul (N : ℕ) (D : V3) (c : ℂ) (g : ℂ[X]) : fld N D (C c * g) = c * fld N D g := by
  simp only [fld, pair_C_mul, mul_div_assoc]

theorem fld_sum (N : ℕ) (D : V3) {ι : Type*} (s : Finset ι) (g : ι → ℂ[X]) :
    fld N D (∑ i ∈ s, g i) = ∑ i ∈ s, fld N D (g i) := by
  simp only [fld, pair_sum, Finset.sum_div]

theorem fld_zero (N : ℕ) (D : V3) : fld N D 0 = 0 := by simp [fld, pair]

theorem fld_hom (α β : ℂ) (N : ℕ) (g : ℂ[X]) : fld N (vec α β) g = N.factorial *
    (hom (C (-β) + C ((starRingEnd ℂ) α) * X) (C α + C ((starRingEnd ℂ) β) * X) (2 * N) g).coeff N /
      (rho (vec α β) : ℂ) ^ (2 * N + 1) := by
  have hf : (N.factorial : ℂ) ≠ 0 := by exact_mod_cast N.factorial_ne_zero
  have e : pair N ((Qd N (vec α β)).map (starRingEnd ℂ)) g =
      (1 / (N.factorial : ℂ)) * pair N ((Q (vec α β) ^ N).map (starRingEnd ℂ)) g := by
    simp only [pair, Qd, Polynomial.map_mul, map_C, coeff_C_mul, Finset.mul_sum, map_div₀, map_one, map_natCast]
    exact Finset.sum_congr rfl fun k _ => by ring
  rw [fld, e, pair_conj_Q]
  field_simp

theorem rho_eq_sqrt_sq (v : V3) : rho v = Real.sqrt (sq v) := rfl

theorem rho_rot (α β : ℂ) (x : V3) : rho (rot α β x) = rho (vec α β) * rho x := by
  rw [rho_eq_sqrt_sq, sq_rot, Real.sqrt_mul (by unfold sq; positivity)]; rfl

theorem hom_Qd (α β : ℂ) (n : ℕ) (x : V3) :
    hom (C (-β) + C ((starRingEnd ℂ) α) * X) (C α + C ((starRingEnd ℂ) β) * X) (2 * n) (Qd n x) = Qd n (rot α β x) := by
  have h : hom (C (-β) + C ((starRingEnd ℂ) α) * X) (C α + C ((starRingEnd ℂ) β) * X) (2 * n) (Qd n x) =
      C (1 / (n.factorial : ℂ)) * hom (C (-β) + C ((starRingEnd ℂ) α) * X) (C α + C ((starRingEnd ℂ) β) * X) (2 * n) (Q x ^ n) := by
    rw [hom_eq, hom_eq, Finset.mul_sum]
    refine Finset.sum_congr rfl fun k _ => ?_
    rw [Qd, coeff_C_mul, C_mul]; ring
  rw [h, hom_pow _ _ _ (natDegree_Q x), hom_Q, Qd]

theorem hom_dQd (α β : ℂ) (n : ℕ) (x d : V3) :
    hom (C (-β) + C ((starRingEnd ℂ) α) * X) (C α + C ((starRingEnd ℂ) β) * X) (2 * n) (dQd n x d) =
      dQd n (rot α β x) (rot α β d) := by
  cases n with
  | zero => simp [dQd, hom]
  | succ n =>
    rw [dQd, dQd, mul_add, mul_one, hom_mul _ _ _ _ (sym_Qd n x).1 (natDegree_Q d), hom_Qd, hom_Q]

theorem norm_eval_Qd (n : ℕ) (w : V3) (t : ℂ) (ht : ‖t‖ = 1) : ‖(Qd n w).eval t‖ ≤ rho w ^ n / n.factorial := by
  rw [Qd, eval_mul, eval_C, eval_pow, norm_mul, norm_pow, norm_div, norm_one, Complex.norm_natCast]
  have := pow_le_pow_left₀ (norm_nonneg _) (norm_Q_eval w t ht) n
  rw [one_div, inv_mul_eq_div]
  exact div_le_div_of_nonneg_right this (by positivity)

/-- Bound of a term of charge type. -/
theorem norm_fld_charge (D a b : V3) (hD : D ≠ 0) (j n : ℕ) :
    ‖fld (j + n) D (Qd j a * Qd n b)‖ ≤ ((j + n).choose j : ℕ) * rho a ^ j * rho b ^ n / rho D ^ (j + n + 1) := by
  obtain ⟨α, β, rfl⟩ := exists_spinor D
  set D := vec α β with hDd
  have hr : 0 < rho D := lt_of_le_of_ne (rho_nonneg D) fun h => hD (rho_eq_zero.mp h.symm)
  rw [hDd, fld_hom, mul_add, hom_mul _ _ _ _ (sym_Qd j a).1 (sym_Qd n b).1, hom_Qd, hom_Qd, ← hDd]
  have hb := norm_coeff_le (Qd j (rot α β a) * Qd n (rot α β b))
    (rho D ^ (j + n) * (rho a ^ j / j.factorial * (rho b ^ n / n.factorial))) (fun t ht => by
      rw [eval_mul, norm_mul]
      have h1 := norm_eval_Qd j (rot α β a) t ht
      have h2 := norm_eval_Qd n (rot α β b) t ht
      rw [rho_rot] at h1 h2
      calc _ ≤ _ := mul_le_mul h1 h2 (norm_nonneg _) (by
            have := rho_nonneg a; have := rho_nonneg D; positivity)
        _ = _ := by rw [← hDd, mul_pow, mul_pow, pow_add]; ring) (j + n)
  rw [norm_div, norm_mul, norm_pow, Complex.norm_natCast, Complex.norm_real, Real.norm_eq_abs, abs_of_pos hr, Nat.cast_add_choose]
  rw [div_le_div_iff₀ (by positivity) (by positivity)]
  have hf : (0 : ℝ) < (j + n).factorial := by exact_mod_cast (j + n).factorial_pos
  calc _ ≤ ((j + n).factorial : ℝ) * (rho D ^ (j + n) * (rho a ^ j / j.factorial * (rho b ^ n / n.factorial))) * rho D ^ (j + n + 1) := by
        gcongr
    _ = _ := by
        rw [show 2 * j + 2 * n + 1 = (j + n) + (j + n + 1) by ring, pow_add (rho D) (j + n) (j + n + 1)]
        field_simp

/-- Bound of a term of dipole type. -/
theorem norm_fld_dipole (D a d b : V3) (hD : D ≠ 0) (j n : ℕ) :
    ‖fld (j + n) D (dQd j a d * Qd n b)‖ ≤
      j * ((j + n).choose j : ℕ) * rho a ^ (j - 1) * rho d * rho b ^ n / rho D ^ (j + n + 1) := by
  obtain ⟨α, β, rfl⟩ := exists_spinor D
  set D := vec α β with hDd
  have hr : 0 < rho D := lt_of_le_of_ne (rho_nonneg D) fun h => hD (rho_eq_zero.mp h.symm)
  rcases j with _ | j
  · simp [dQd, fld_zero]
  rw [hDd, fld_hom, mul_add, hom_mul _ _ _ _ (sym_dQd _ a d).1 (sym_Qd n b).1, hom_dQd, hom_Qd, ← hDd, dQd]
  have hb := norm_coeff_le (Qd j (rot α β a) * Q (rot α β d) * Qd n (rot α β b))
    (rho D ^ (j + 1 + n) * (rho a ^ j / j.factorial * rho d * (rho b ^ n / n.factorial))) (fun t ht => by
      rw [eval_mul, eval_mul, norm_mul, norm_mul]
      have h1 := norm_eval_Qd j (rot α β a) t ht
      have h2 := norm_eval_Qd n (rot α β b) t ht
      have h3 := norm_Q_eval (rot α β d) t ht
      rw [rho_rot] at h1 h2 h3
      have := rho_nonneg a; have := rho_nonneg (vec α β); have := rho_nonneg d
      calc _ ≤ _ := mul_le_mul (mul_le_mul h1 h3 (norm_nonneg _) (by positivity)) h2 (norm_nonneg _) (by positivity)
        _ = _ := by rw [← hDd, mul_pow, mul_pow, pow_add, pow_add]; ring) (j + 1 + n)
  rw [norm_div, norm_mul, norm_pow, Complex.norm_natCast, Complex.norm_real, Real.norm_eq_abs, abs_of_pos hr, Nat.cast_add_choose]
  rw [div_le_div_iff₀ (by positivity) (by positivity), Nat.add_sub_cancel]
  have hf : (0 : ℝ) < (j + 1 + n).factorial := by exact_mod_cast (j + 1 + n).factorial_pos
  calc _ ≤ ((j + 1 + n).factorial : ℝ) * (rho D ^ (j + 1 + n) * (rho a ^ j / j.factorial * rho d * (rho b ^ n / n.factorial))) *
        rho D ^ (j + 1 + n + 1) := by
        gcongr
    _ = _ := by
        rw [show 2 * (j + 1) + 2 * n + 1 = (j + 1 + n) + (j + 1 + n + 1) by ring, pow_add (rho D) (j + 1 + n) (j + 1 + n + 1),
          Nat.factorial_succ j]
        push_cast
        field_simp

theorem dot_comm_sub (D w : V3) : rho (D - w) ^ 2 = rho D ^ 2 - 2 * dot D w + rho w ^ 2 := by
  rw [rho_sq, rho_sq, rho_sq]; simp [dot]; ring

/-- The fields of all degrees of a charge add up to its potential. -/
theorem hasSum_charge (D w : V3) (h : rho w < rho D) :
    HasSum (fun N => (fld N D (Qd N w)).re) (1 / rho (D - w)) := by
  have hr : 0 < rho D := lt_of_le_of_lt (rho_nonneg w) h
  obtain ⟨α, β, hDv⟩ := exists_spinor D
  have hg := genfun (fun N => (cen N (rot α β w)).re) (dot D w) (rho D ^ 2 * rho w ^ 2) (rho D * rho w) (1 / rho D ^ 2)
    (by simp [cen_zero]) (by simp [cen_one, rot_two, hDv]) (by
      intro N
      have hc := congrArg Complex.re (cen_rec N (rot α β w))
      have hs : sq (rot α β w) = rho D ^ 2 * rho w ^ 2 := by
        rw [sq_rot, hDv, rho_sq, rho_sq]; rfl
      rw [hs, rot_two, hDv] at hc
      have e1 : (((N : ℂ) + 2) * cen (N + 2) (rot α β w)) = (((N : ℝ) + 2 : ℝ) : ℂ) * cen (N + 2) (rot α β w) := by
        push_cast; rfl
      have e2 : ((2 * (N : ℂ) + 3) * ((dot D w : ℝ) : ℂ) * cen (N + 1) (rot α β w) -
          ((N : ℂ) + 1) * ((rho D ^ 2 * rho w ^ 2 : ℝ) : ℂ) * cen N (rot α β w)) =
          (((2 * (N : ℝ) + 3) * dot D w : ℝ) : ℂ) * cen (N + 1) (rot α β w) -
          ((((N : ℝ) + 1) * (rho D ^ 2 * rho w ^ 2) : ℝ) : ℂ) * cen N (rot α β w) := by push_cast; ring
      rw [e1, e2, Complex.sub_re, Complex.re_ofReal_mul, Complex.re_ofReal_mul, Complex.re_ofReal_mul] at hc
      exact hc)
    (mul_nonneg hr.le (rho_nonneg w)) (fun N => by
      have h1 := norm_cen N (rot α β w)
      rw [rho_rot, hDv] at h1
      exact (Complex.abs_re_le_norm _).trans h1)
    (by positivity) (by rw [mul_one_div, div_lt_one (by positivity)]; nlinarith)
  have hg2 := hg.mul_left (1 / rho D)
  have e1 : (fun N => (fld N D (Qd N w)).re) =
      fun N => 1 / rho D * ((cen N (rot α β w)).re * (1 / rho D ^ 2) ^ N) := by
    funext N
    have e : fld N D (Qd N w) = cen N (rot α β w) * (((1 / rho D) * (1 / rho D ^ 2) ^ N : ℝ) : ℂ) := by
      have hf : (N.factorial : ℂ) ≠ 0 := by exact_mod_cast N.factorial_ne_zero
      rw [← hDv, fld_hom, hom_Qd, coeff_Qd, R, cen, hDv, mul_div_cancel₀ _ hf]
      push_cast
      rw [pow_succ, pow_mul, div_eq_mul_inv]; congr 1
      rw [mul_inv, one_div, one_div, inv_pow]; ring
    rw [e, Complex.re_mul_ofReal]; ring
  have e2 : 1 / rho (D - w) =
      1 / rho D * (1 / Real.sqrt (1 - 2 * dot D w * (1 / rho D ^ 2) + rho D ^ 2 * rho w ^ 2 * (1 / rho D ^ 2) ^ 2)) := by
    have h2 := dot_comm_sub D w
    have e : 1 - 2 * dot D w * (1 / rho D ^ 2) + rho D ^ 2 * rho w ^ 2 * (1 / rho D ^ 2) ^ 2 = rho (D - w) ^ 2 / rho D ^ 2 := by
      rw [h2]; field_simp
    rw [e, Real.sqrt_div (sq_nonneg _), Real.sqrt_sq (rho_nonneg _), Real.sqrt_sq hr.le]
    by_cases h0 : rho (D - w) = 0
    · rw [h0]; simp
    · field_simp
  rw [e1, e2]
  exact hg2

theorem dot_le (v w : V3) : dot v w ≤ rho v * rho w := by
  have h : dot v w ^ 2 ≤ (rho v * rho w) ^ 2 := by
    rw [mul_pow, rho_sq, rho_sq, dot]
    nlinarith [sq_nonneg (v 0 * w 1 - v 1 * w 0), sq_nonneg (v 0 * w 2 - v 2 * w 0), sq_nonneg (v 1 * w 2 - v 2 * w 1)]
  exact (abs_le_of_sq_le_sq' h (mul_nonneg (rho_nonneg v) (rho_nonneg w))).2

theorem rho_add_le (v w : V3) : rho (v + w) ≤ rho v + rho w := by
  have h : rho (v + w) ^ 2 ≤ (rho v + rho w) ^ 2 := by
    have h1 := dot_le v w
    have h2 : rho (v + w) ^ 2 = rho v ^ 2 + 2 * dot v w + rho w ^ 2 := by
      rw [rho_sq, rho_sq, rho_sq]; simp [dot]; ring
    rw [h2]; nlinarith
  exact (abs_le_of_sq_le_sq' h (add_nonneg (rho_nonneg v) (rho_nonneg w))).2

theorem rho_smul (t : ℝ) (v : V3) : rho (t • v) = |t| * rho v := by
  rw [rho, rho, ← Real.sqrt_sq_eq_abs, ← Real.sqrt_mul (sq_nonneg t)]
  congr 1; simp; ring

theorem rho_neg (v : V3) : rho (-v) = rho v := by simp [rho]

theorem hasDerivAt_fld (N : ℕ) (D w d : V3) (t : ℝ) :
    HasDerivAt (fun t : ℝ => (fld N D (Qd N (w + t • d))).re) (fld N D (dQd N (w + t • d) d)).re t := by
  have h : HasDerivAt (fun t : ℝ => fld N D (Qd N (w + t • d))) (fld N D (dQd N (w + t • d) d)) t := by
    simp only [fld, pair, coeff_Qd]
    refine HasDerivAt.div_const (HasDerivAt.fun_sum fun k _ => ?_) _
    exact (hasDerivAt_R N k w d t).const_mul _
  exact Complex.reCLM.hasFDerivAt.comp_hasDerivAt t h

/-- The fields of all degrees of a dipole add up to its potential. -/
theorem hasSum_dipole (D w d : V3) (h : rho w < rho D) :
    HasSum (fun N => (fld N D (dQd N w d)).re) (deriv (fun t : ℝ => 1 / rho (D - (w + t • d))) 0) := by
  have hr : 0 < rho D := lt_of_le_of_lt (rho_nonneg w) h
  have hD : D ≠ 0 := fun h0 => hr.ne' (rho_eq_zero.mpr h0)
  have hd := rho_nonneg d
  have hw := rho_nonneg w
  set ρ := (rho w + rho D) / 2 with hρ
  have hρ1 : rho w < ρ := by rw [hρ]; linarith
  have hρ2 : ρ < rho D := by rw [hρ]; linarith
  set ε := (ρ - rho w) / (rho d + 1) with hε
  have hε0 : 0 < ε := div_pos (by linarith) (by linarith)
  have hin : ∀ t ∈ Set.Ioo (-ε) ε, rho (w + t • d) ≤ ρ := by
    intro t ht
    have h1 := rho_add_le w (t • d)
    rw [rho_smul] at h1
    have h2 : |t| ≤ ε := (abs_lt.mpr ht).le
    have h3 : |t| * rho d ≤ ε * (rho d + 1) := mul_le_mul h2 (by linarith) hd hε0.le
    rw [hε, div_mul_cancel₀ _ (by linarith)] at h3
    linarith
  have hx : ‖ρ / rho D‖ < 1 := by
    rw [Real.norm_eq_abs, abs_of_nonneg (div_nonneg (by linarith) hr.le), div_lt_one hr]; exact hρ2
  have hsu : Summable (fun N : ℕ => (N : ℝ) * ρ ^ (N - 1) * rho d / rho D ^ (N + 1)) := by
    rw [← summable_nat_add_iff 1]
    have h1 := (summable_pow_mul_geometric_of_norm_lt_one 1 hx).add (summable_geometric_of_norm_lt_one hx)
    refine (h1.mul_left (rho d / rho D ^ 2)).congr fun N => ?_
    rw [Nat.add_sub_cancel, div_pow]; push_cast
    field_simp
    ring
  have hT := hasDerivAt_tsum_of_isPreconnected (t := Set.Ioo (-ε) ε) (y := 0) (y₀ := 0)
    (g := fun N t => (fld N D (Qd N (w + t • d))).re) (g' := fun N t => (fld N D (dQd N (w + t • d) d)).re)
    hsu isOpen_Ioo isPreconnected_Ioo (fun N t _ => hasDerivAt_fld N D w d t) (fun N t ht => by
      have h1 := norm_fld_dipole D (w + t • d) d 0 hD N 0
      rw [show Qd 0 (0 : V3) = 1 by simp [Qd], mul_one, add_zero, Nat.choose_self] at h1
      refine ((Complex.abs_re_le_norm _).trans h1).trans ?_
      simp only [Nat.cast_one, mul_one, pow_zero]
      have h2 : rho (w + t • d) ^ (N - 1) ≤ ρ ^ (N - 1) := pow_le_pow_left₀ (rho_nonneg _) (hin t ht) _
      gcongr) ⟨by linarith, hε0⟩ (by
        have := (hasSum_charge D (w + (0 : ℝ) • d) (by simpa using h)).summable
        exact this) ⟨by linarith, hε0⟩
  have hev : (fun t : ℝ => ∑' N, (fld N D (Qd N (w + t • d))).re) =ᶠ[nhds 0] fun t : ℝ => 1 / rho (D - (w + t • d)) := by
    filter_upwards [Ioo_mem_nhds (show -ε < 0 by linarith) hε0] with t ht
    exact (hasSum_charge D (w + t • d) ((hin t ht).trans_lt hρ2)).tsum_eq
  have hT2 := (hT.congr_of_eventuallyEq hev.symm).deriv
  simp only [zero_smul, add_zero] at hT2
  rw [hT2]
  have hsum : Summable (fun N => (fld N D (dQd N w d)).re) := by
    refine Summable.of_norm_bounded hsu fun N => ?_
    have h1 := norm_fld_dipole D w d 0 hD N 0
    rw [show Qd 0 (0 : V3) = 1 by simp [Qd], mul_one, add_zero, Nat.choose_self] at h1
    refine ((Complex.abs_re_le_norm _).trans h1).trans ?_
    simp only [Nat.cast_one, mul_one, pow_zero]
    have h2 : rho w ^ (N - 1) ≤ ρ ^ (N - 1) := pow_le_pow_left₀ (rho_nonneg _) hρ1.le _
    gcongr
  exact hsum.hasSum

end PiBem.Harmonic
