import Verif.Harmonic.M2L

/-!
# Errors of expansions of lists of sources

Mathematics used by the proofs of the accuracy of the expansions.
-/

noncomputable section

namespace PiBem.Harmonic

open Polynomial Complex PiBem.Legendre PiBem.Expansion

theorem abs_sum_sub_le (S : List Source) (f g h : Source → ℝ) (hb : ∀ s ∈ S, |f s - g s| ≤ h s) :
    |(S.map f).sum - (S.map g).sum| ≤ (S.map h).sum := by
  induction S with
  | nil => simp
  | cons s S ih =>
    simp only [List.map_cons, List.sum_cons]
    have h1 := hb s (by simp)
    have h2 := ih (fun t ht => hb t (by simp [ht]))
    have : f s + (S.map f).sum - (g s + (S.map g).sum) = (f s - g s) + ((S.map f).sum - (S.map g).sum) := by ring
    rw [this]
    exact (abs_add_le _ _).trans (add_le_add h1 h2)

/-- The source seen from another origin. -/
def shift (c : V3) : Source → Source
  | .charge q y => .charge q (y - c)
  | .dipole q y d => .dipole q (y - c) d

theorem shift_pos (c : V3) (s : Source) : (shift c s).pos = s.pos - c := by cases s <;> rfl

theorem shift_potential (c x : V3) (s : Source) : (shift c s).potential (x - c) = s.potential x := by
  cases s with
  | charge q y => simp [shift, Source.potential]
  | dipole q y d =>
    simp only [shift, Source.potential]
    congr 3
    funext t
    rw [show x - c - (y - c + t • d) = x - (y + t • d) by abel]

theorem shift_spoly (c : V3) (n : ℕ) (s : Source) : spoly 0 n (shift c s) = spoly c n s := by
  cases s <;> simp [shift, spoly]

theorem shift_bound (c : V3) (p : ℕ) (D r : ℝ) (s : Source) : (shift c s).bound p D r = s.bound p D r := by
  cases s <;> rfl

/-- The mirror image of a source. -/
def mirror : Source → Source
  | .charge q y => .charge q (-y)
  | .dipole q y d => .dipole q (-y) (-d)

theorem mirror_pos (s : Source) : (mirror s).pos = -s.pos := by cases s <;> rfl

theorem mirror_potential (x : V3) (s : Source) : (mirror s).potential (-x) = s.potential x := by
  cases s with
  | charge q y =>
    simp only [mirror, Source.potential]
    rw [show -x - -y = -(x - y) by abel, rho_neg]
  | dipole q y d =>
    simp only [mirror, Source.potential]
    congr 3
    funext t
    rw [show -x - (-y + t • -d) = -(x - (y + t • d)) by rw [smul_neg]; abel, rho_neg]

theorem Qd_neg (n : ℕ) (v : V3) : Qd n (-v) = C ((-1) ^ n) * Qd n v := by
  rw [Qd, Q_neg, neg_pow, Qd]
  simp only [C_pow, C_neg, C_1]; ring

theorem mirror_spoly (n : ℕ) (s : Source) : spoly 0 n (mirror s) = C ((-1) ^ n) * spoly 0 n s := by
  cases s with
  | charge q y => simp only [mirror, spoly, sub_zero, Qd_neg]; ring
  | dipole q y d =>
    simp only [mirror, spoly, sub_zero]
    cases n with
    | zero => simp [dQd]
    | succ n =>
      simp only [dQd, Qd_neg, Q_neg, pow_succ, C_mul, C_neg, C_1]; ring

theorem mirror_bound (p : ℕ) (D r : ℝ) (s : Source) : (mirror s).bound p D r = s.bound p D r := by
  cases s with
  | charge q y => rfl
  | dipole q y d => simp only [mirror, Source.bound, rho_neg]

theorem sum_list_comm {ι : Type*} (S : List Source) (F : Finset ι) (f : ι → Source → ℝ) :
    ∑ i ∈ F, (S.map (f i)).sum = (S.map fun s => ∑ i ∈ F, f i s).sum := by
  induction S with
  | nil => simp
  | cons s S ih => simp only [List.map_cons, List.sum_cons, Finset.sum_add_distrib, ih]

theorem fld_lpoly_mul (N : ℕ) (D c : V3) (S : List Source) (n : ℕ) (g : ℂ[X]) :
    (fld N D (lpoly S c n * g)).re = (S.map fun s => (fld N D (spoly c n s * g)).re).sum := by
  induction S with
  | nil => simp [lpoly, fld_zero]
  | cons s S ih =>
    simp only [lpoly, List.map_cons, List.sum_cons] at *
    rw [add_mul, fld_add, Complex.add_re, ih]

/-- Error of a multipole expansion of one source. -/
theorem source_multipole (s : Source) (c x : V3) (p : ℕ) (h : rho (s.pos - c) < rho (x - c)) :
    |s.potential x - ∑ n ∈ Finset.range (p + 1), (fld n (x - c) (spoly c n s)).re| ≤
      s.bound p (rho (x - c)) (rho (s.pos - c)) := by
  have h0 : rho (0 : V3) = 0 := rho_eq_zero.mpr rfl
  have h1 := source_error (shift c s) (x - c) 0 p (by rw [shift_pos, h0, add_zero]; exact h)
  rw [sub_zero, shift_potential, shift_pos, h0, add_zero, shift_bound] at h1
  have e : ∑ n ∈ Finset.range (p + 1), ∑ j ∈ Finset.range (p + 1),
      (fld (j + n) (x - c) (spoly 0 j (shift c s) * Qd n 0)).re =
      ∑ n ∈ Finset.range (p + 1), (fld n (x - c) (spoly c n s)).re := by
    rw [Finset.sum_eq_single 0]
    · refine Finset.sum_congr rfl fun j _ => ?_
      rw [shift_spoly, add_zero, Qd]; simp
    · intro n _ hn
      refine Finset.sum_eq_zero fun j _ => ?_
      rw [Qd_zero_of_pos n hn, mul_zero, fld_zero, Complex.zero_re]
    · intro h; simp at h
  rwa [e] at h1

/-- Error of the conversion for one source. -/
theorem source_local (s : Source) (cm cl x : V3) (p : ℕ) (h : rho (s.pos - cm) + rho (x - cl) < rho (cm - cl)) :
    |s.potential x - ∑ n ∈ Finset.range (p + 1), ∑ j ∈ Finset.range (p + 1),
      (-1) ^ j * (fld (j + n) (cm - cl) (spoly cm j s * Qd n (x - cl))).re| ≤
      s.bound p (rho (cm - cl)) (rho (s.pos - cm) + rho (x - cl)) := by
  have hp : (mirror (shift cm s)).pos = -(s.pos - cm) := by rw [mirror_pos, shift_pos]
  have h1 := source_error (mirror (shift cm s)) (cm - cl) (x - cl) p (by rw [hp, rho_neg]; exact h)
  rw [hp, rho_neg, mirror_bound, shift_bound, show cm - cl - (x - cl) = -(x - cm) by abel, mirror_potential,
    shift_potential] at h1
  have e : ∀ n j, (fld (j + n) (cm - cl) (spoly 0 j (mirror (shift cm s)) * Qd n (x - cl))).re =
      (-1) ^ j * (fld (j + n) (cm - cl) (spoly cm j s * Qd n (x - cl))).re := by
    intro n j
    rw [mirror_spoly, shift_spoly, mul_assoc, fld_C_mul,
      show ((-1 : ℂ) ^ j) = (((-1) ^ j : ℝ) : ℂ) by push_cast; rfl, Complex.re_ofReal_mul]
  simpa only [e] using h1

/-- `x^p (p + 1 - p x)` increases on `[0, 1]`. -/
theorem mono_aux (p : ℕ) {x y : ℝ} (hx : 0 ≤ x) (hxy : x ≤ y) (hy : y ≤ 1) :
    x ^ p * (p + 1 - p * x) ≤ y ^ p * (p + 1 - p * y) := by
  have hy0 : 0 ≤ y := hx.trans hxy
  induction p with
  | zero => simp
  | succ p ih =>
    -- `y^(p+1) ((p+1)+1-(p+1)y) - x^(p+1) (...)`, using `y^p - x^p`-type differences
    have h1 : ∀ n : ℕ, x ^ n ≤ y ^ n := fun n => pow_le_pow_left₀ hx hxy n
    have hb : ((p + 1 : ℕ) : ℝ) * x ^ p * (y - x) ≤ y ^ (p + 1) - x ^ (p + 1) := by
      have hgeom := (Commute.all y x).geom_sum₂_mul (p + 1)
      rw [← hgeom]
      refine mul_le_mul_of_nonneg_right ?_ (sub_nonneg.mpr hxy)
      have : ∑ i ∈ Finset.range (p + 1), x ^ p ≤ ∑ i ∈ Finset.range (p + 1), y ^ i * x ^ (p + 1 - 1 - i) := by
        refine Finset.sum_le_sum fun i hi => ?_
        have hi : i ≤ p := by simpa [Nat.lt_succ_iff] using hi
        calc x ^ p = x ^ i * x ^ (p - i) := by rw [← pow_add]; congr 1; omega
          _ ≤ y ^ i * x ^ (p - i) := mul_le_mul_of_nonneg_right (h1 i) (pow_nonneg hx _)
          _ = _ := by rw [Nat.add_sub_cancel]
      simpa using this
    -- convexity: `(p+2) (y^(p+1) - x^(p+1)) - (p+1) (y^(p+2) - x^(p+2)) ≥ 0`
    have key : ((p : ℝ) + 1) * (y ^ (p + 2) - x ^ (p + 2)) ≤ ((p : ℝ) + 2) * (y ^ (p + 1) - x ^ (p + 1)) := by
      have e1 : y ^ (p + 2) - x ^ (p + 2) = y * (y ^ (p + 1) - x ^ (p + 1)) + x ^ (p + 1) * (y - x) := by ring
      have h4 : ((p : ℝ) + 1) * (x ^ (p + 1) * (y - x)) ≤ x * (y ^ (p + 1) - x ^ (p + 1)) := by
        have := mul_le_mul_of_nonneg_left hb hx
        push_cast at this
        have e2 : x * (((p : ℝ) + 1) * x ^ p * (y - x)) = ((p : ℝ) + 1) * (x ^ (p + 1) * (y - x)) := by ring
        linarith
      have h5 := sub_nonneg.mpr (h1 (p + 1))
      have hp : (0 : ℝ) ≤ p := Nat.cast_nonneg p
      have h6 := mul_nonneg (add_nonneg hp zero_le_one) (mul_nonneg h5 (sub_nonneg.mpr hy))
      have h7 := mul_nonneg h5 (sub_nonneg.mpr (hxy.trans hy))
      rw [e1]
      nlinarith [h4, h6, h7]
    push_cast
    have e : ∀ z : ℝ, z ^ (p + 1) * ((p : ℝ) + 1 + 1 - ((p : ℝ) + 1) * z) = ((p : ℝ) + 2) * z ^ (p + 1) - ((p : ℝ) + 1) * z ^ (p + 2) := by
      intro z; ring
    rw [e, e]; linarith

/-- The bound increases with the ratio and decreases with the gap. -/
theorem bound_mono' (s : Source) (p : ℕ) {D D' r r' : ℝ} (hx0 : 0 ≤ r / D) (hx : r / D ≤ r' / D') (hx1 : r' / D' ≤ 1)
    (hd : 0 < D' - r') (hdd : D' - r' ≤ D - r) : s.bound p D r ≤ s.bound p D' r' := by
  cases s with
  | charge q y =>
    simp only [Source.bound]
    refine div_le_div₀ (mul_nonneg (abs_nonneg _) (pow_nonneg (hx0.trans hx) _)) ?_ hd hdd
    exact mul_le_mul_of_nonneg_left (pow_le_pow_left₀ hx0 hx _) (abs_nonneg _)
  | dipole q y d =>
    simp only [Source.bound, mul_assoc]
    have hm := mono_aux p hx0 hx hx1
    have hpos : 0 ≤ (r' / D') ^ p * (p + 1 - p * (r' / D')) := by
      refine mul_nonneg (pow_nonneg (hx0.trans hx) _) ?_
      have hp : (0 : ℝ) ≤ p := Nat.cast_nonneg p
      nlinarith [mul_nonneg hp (sub_nonneg.mpr hx1)]
    refine div_le_div₀ ?_ ?_ (by positivity) (pow_le_pow_left₀ hd.le hdd 2)
    · exact mul_nonneg (abs_nonneg _) (mul_nonneg (rho_nonneg _) hpos)
    · exact mul_le_mul_of_nonneg_left (mul_le_mul_of_nonneg_left hm (rho_nonneg _)) (abs_nonneg _)

/-- The bound increases with the radius and decreases with the distance. -/
theorem bound_mono (s : Source) (p : ℕ) {D D' r r' : ℝ} (hr : 0 ≤ r) (hrr : r ≤ r') (hD : r' < D') (hDD : D' ≤ D) :
    s.bound p D r ≤ s.bound p D' r' := by
  have hD' : 0 < D' := lt_of_le_of_lt (hr.trans hrr) hD
  have hD0 : 0 < D := lt_of_lt_of_le hD' hDD
  exact bound_mono' s p (div_nonneg hr hD0.le) (div_le_div₀ (hr.trans hrr) hrr hD' hDD) ((div_le_one hD').mpr hD.le)
    (by linarith) (by linarith)

end PiBem.Harmonic
