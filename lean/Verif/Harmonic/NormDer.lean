import Verif.Harmonic.M2M
import Mathlib.Analysis.SpecialFunctions.Sqrt
import Mathlib.Analysis.Calculus.Deriv.Comp
import Mathlib.Analysis.Calculus.Deriv.Inv

/-!
# The derivative computed by `AddNormDer`

Mathematics used by the proofs: chain rule in spherical coordinates, off the vertical axis.
-/

noncomputable section

namespace PiBem.Harmonic

open Polynomial Complex PiBem.Legendre PiBem.Expansion

variable (v d : V3)

theorem hasDerivAt_coord (i : Fin 3) : HasDerivAt (fun t : ℝ => (v + t • d) i) (d i) 0 := by
  have h := ((hasDerivAt_id (0 : ℝ)).mul_const (d i)).const_add (v i)
  simpa using h

theorem hasDerivAt_rho (hv : v ≠ 0) : HasDerivAt (fun t : ℝ => rho (v + t • d)) (dot v d / rho v) 0 := by
  have hr : rho v ≠ 0 := fun h => hv (rho_eq_zero.mp h)
  have hs : HasDerivAt (fun t : ℝ => (v + t • d) 0 ^ 2 + (v + t • d) 1 ^ 2 + (v + t • d) 2 ^ 2) (2 * dot v d) 0 := by
    have h := (((hasDerivAt_coord v d 0).pow 2).add ((hasDerivAt_coord v d 1).pow 2)).add ((hasDerivAt_coord v d 2).pow 2)
    refine h.congr_deriv ?_
    simp [dot]; ring
  have hne : (v + (0 : ℝ) • d) 0 ^ 2 + (v + (0 : ℝ) • d) 1 ^ 2 + (v + (0 : ℝ) • d) 2 ^ 2 ≠ 0 := by
    simp only [zero_smul, add_zero]; rw [← rho_sq]; exact pow_ne_zero _ hr
  refine (hs.sqrt hne).congr_deriv ?_
  simp only [zero_smul, add_zero]
  rw [show Real.sqrt (v 0 ^ 2 + v 1 ^ 2 + v 2 ^ 2) = rho v from rfl]
  field_simp

theorem hasDerivAt_cosA (hv : v ≠ 0) :
    HasDerivAt (fun t : ℝ => cosA (v + t • d)) ((d 2 * rho v - v 2 * (dot v d / rho v)) / rho v ^ 2) 0 := by
  have hr : rho v ≠ 0 := fun h => hv (rho_eq_zero.mp h)
  have h := (hasDerivAt_coord v d 2).div (hasDerivAt_rho v d hv) (by simpa using hr)
  refine h.congr_deriv ?_
  simp

theorem ofReal_norm_sq (u : ℂ) : ((‖u‖ : ℝ) : ℂ) ^ 2 = u * (starRingEnd ℂ) u := by
  rw [Complex.mul_conj, Complex.normSq_eq_norm_sq]; push_cast; rfl

theorem cis_eq (hu : uc v ≠ 0) : cis (beta v) = uc v / (‖uc v‖ : ℝ) := by
  have h := cis_beta v 1
  have hn : ((‖uc v‖ : ℝ) : ℂ) ≠ 0 := by exact_mod_cast norm_ne_zero_iff.mpr hu
  simp only [pow_one, Nat.cast_one, one_mul] at h
  rw [eq_div_iff hn, mul_comm]; exact h

theorem cis_nat (m : ℕ) (t : ℝ) : cis (-m * t) = ((starRingEnd ℂ) (cis t)) ^ m := by
  rw [conj_cis]; unfold cis
  rw [← Complex.exp_nat_mul]; congr 1; push_cast; ring

theorem hasDerivAt_uc : HasDerivAt (fun t : ℝ => uc (v + t • d)) (uc d) 0 := by
  have e : (fun t : ℝ => uc (v + t • d)) = fun t : ℝ => (((v + t • d) 0 : ℝ) : ℂ) + (((v + t • d) 1 : ℝ) : ℂ) * I := by
    funext t; apply Complex.ext <;> simp [uc]
  rw [e]
  have h := (hasDerivAt_coord v d 0).ofReal_comp.add ((hasDerivAt_coord v d 1).ofReal_comp.mul_const I)
  refine h.congr_deriv ?_
  apply Complex.ext <;> simp [uc]

theorem hasDerivAt_cis_one (hu : uc v ≠ 0) :
    HasDerivAt (fun t : ℝ => cis (beta (v + t • d)))
      (I * (((v 0 * d 1 - v 1 * d 0) / (v 0 ^ 2 + v 1 ^ 2) : ℝ) : ℂ) * cis (beta v)) 0 := by
  have hn : ((‖uc v‖ : ℝ) : ℂ) ≠ 0 := by exact_mod_cast norm_ne_zero_iff.mpr hu
  have hpos : v 0 ^ 2 + v 1 ^ 2 ≠ 0 := by
    intro h
    apply hu
    rw [← norm_eq_zero, norm_uc, h, Real.sqrt_zero]
  -- the norm
  have hN : HasDerivAt (fun t : ℝ => ‖uc (v + t • d)‖) ((v 0 * d 0 + v 1 * d 1) / ‖uc v‖) 0 := by
    have e : (fun t : ℝ => ‖uc (v + t • d)‖) = fun t : ℝ => Real.sqrt ((v + t • d) 0 ^ 2 + (v + t • d) 1 ^ 2) := by
      funext t; exact norm_uc _
    rw [e]
    have h := ((hasDerivAt_coord v d 0).pow 2).add ((hasDerivAt_coord v d 1).pow 2)
    have hne : (fun t : ℝ => (v + t • d) 0 ^ 2 + (v + t • d) 1 ^ 2) 0 ≠ 0 := by simpa using hpos
    refine (h.sqrt hne).congr_deriv ?_
    simp only [Pi.add_apply, Pi.pow_apply, zero_smul, norm_uc]
    have : Real.sqrt (v 0 ^ 2 + v 1 ^ 2) ≠ 0 := by
      rw [← norm_uc]; exact norm_ne_zero_iff.mpr hu
    simp
    field_simp
  have hq := (hasDerivAt_uc v d).div hN.ofReal_comp (by simpa using hu)
  have hev : (fun t : ℝ => cis (beta (v + t • d))) =ᶠ[nhds 0]
      ((fun t : ℝ => uc (v + t • d)) / fun t : ℝ => ((‖uc (v + t • d)‖ : ℝ) : ℂ)) := by
    have hc : ContinuousAt (fun t : ℝ => uc (v + t • d)) 0 := (hasDerivAt_uc v d).continuousAt
    have : ∀ᶠ t in nhds (0 : ℝ), uc (v + t • d) ≠ 0 := hc.eventually_ne (by simpa using hu)
    filter_upwards [this] with t ht
    simpa using cis_eq _ ht
  refine (hq.congr_of_eventuallyEq hev).congr_deriv ?_
  simp only [zero_smul, add_zero]
  rw [cis_eq v hu]
  have hs : ((v 0 ^ 2 + v 1 ^ 2 : ℝ) : ℂ) = ((‖uc v‖ : ℝ) : ℂ) ^ 2 := by
    rw [norm_uc, ← Complex.ofReal_pow, Real.sq_sqrt (by positivity)]
  have hs2 : ((‖uc v‖ : ℝ) : ℂ) ^ 2 = (v 0 : ℂ) ^ 2 + (v 1 : ℂ) ^ 2 := by rw [← hs]; push_cast; rfl
  rw [Complex.ofReal_div (v 0 * d 1 - v 1 * d 0), hs]
  have hu1 : uc v = v 0 + v 1 * I := by apply Complex.ext <;> simp [uc]
  have hd1 : uc d = d 0 + d 1 * I := by apply Complex.ext <;> simp [uc]
  have hdiv : (((v 0 * d 0 + v 1 * d 1) / ‖uc v‖ : ℝ) : ℂ) = ((v 0 : ℂ) * d 0 + v 1 * d 1) / (‖uc v‖ : ℝ) := by
    push_cast; rfl
  rw [hdiv]
  generalize ((‖uc v‖ : ℝ) : ℂ) = r at *
  rw [hu1, hd1]
  have hI : I ^ 2 = -1 := Complex.I_sq
  push_cast
  field_simp
  linear_combination ((d 0 : ℂ) + d 1 * I) * hs2 + (-(v 0 * v 1 * d 1 : ℂ) + v 1 ^ 2 * d 0) * hI

/-- Derivative of the azimuthal factor. -/
theorem hasDerivAt_cis (hu : uc v ≠ 0) (m : ℕ) :
    HasDerivAt (fun t : ℝ => cis (-m * beta (v + t • d)))
      (-(m : ℂ) * I * (((v 0 * d 1 - v 1 * d 0) / (v 0 ^ 2 + v 1 ^ 2) : ℝ) : ℂ) * cis (-m * beta v)) 0 := by
  have h := ((hasDerivAt_cis_one v d hu).star).pow m
  have e : (fun t : ℝ => cis (-m * beta (v + t • d))) = (fun t : ℝ => star (cis (beta (v + t • d)))) ^ m := by
    funext t; exact cis_nat m _
  rw [e]
  refine h.congr_deriv ?_
  rw [cis_nat]
  simp only [zero_smul, add_zero, star_mul', Complex.star_def, Complex.conj_I, Complex.conj_ofReal]
  rcases m with _ | m
  · simp
  · rw [Nat.add_sub_cancel, pow_succ]; ring

/-- **Chain rule.** Off the vertical axis the coefficient computed by `AddNormDer` is the derivative of the moment. -/
theorem normDer_hasDerivAt (L : Legendre) (hL : IsTable L) (hu : uc v ≠ 0) (n m : ℕ) (hn : n ≤ 20) (hm : m ≤ n)
    (s : ℝ) (normal : V3)
    (hd : d = fun k => normal k / Real.sqrt (normal 0 ^ 2 + normal 1 ^ 2 + normal 2 ^ 2)) :
    ∃ D : ℂ, normDerCoeff L s v normal n m = s * D ∧
      HasDerivAt (fun t : ℝ => ((rho (v + t • d) ^ n * assLeg n m (cosA (v + t • d)) : ℝ) : ℂ) *
        cis (-m * beta (v + t • d))) D 0 := by
  have hv : v ≠ 0 := by rintro rfl; apply hu; apply Complex.ext <;> simp [uc]
  have hr : rho v ≠ 0 := fun h => hv (rho_eq_zero.mp h)
  have hpos : v 0 ^ 2 + v 1 ^ 2 ≠ 0 := by
    intro h
    apply hu
    rw [← norm_eq_zero, norm_uc, h, Real.sqrt_zero]
  have hc2 : cosA v ^ 2 < 1 := by
    rw [cosA, div_pow, div_lt_one (by positivity), rho_sq]
    have : 0 < v 0 ^ 2 + v 1 ^ 2 := lt_of_le_of_ne (by positivity) (Ne.symm hpos)
    linarith
  have hc : -1 < cosA v ∧ cosA v < 1 := by constructor <;> nlinarith
  have hA : HasDerivAt (fun t : ℝ => assLeg n m (cosA (v + t • d)))
      (L.der n m (cosA v) * ((d 2 * rho v - v 2 * (dot v d / rho v)) / rho v ^ 2)) 0 := by
    have h1 : HasDerivAt (assLeg n m) (L.der n m (cosA v)) (cosA (v + (0 : ℝ) • d)) := by
      simpa using hL.der n m _ hn hm hc.1 hc.2
    exact HasDerivAt.comp (h₂ := assLeg n m) (h := fun t : ℝ => cosA (v + t • d)) (0 : ℝ) h1 (hasDerivAt_cosA v d hv)
  have hR := (hasDerivAt_rho v d hv).pow n
  have hF := ((hR.mul hA).ofReal_comp).mul (hasDerivAt_cis v d hu m)
  refine ⟨_, ?_, hF⟩
  have hsin : 0 < Real.sqrt (1 - cosA v ^ 2) := Real.sqrt_pos.mpr (by linarith)
  have hsin2 : Real.sqrt (1 - cosA v ^ 2) ^ 2 = 1 - cosA v ^ 2 := Real.sq_sqrt (by linarith)
  have hsr := sin_eq v hv
  have hu1 : ‖uc v‖ ≠ 0 := norm_ne_zero_iff.mpr hu
  have hcosb : Real.cos (beta v) = v 0 / ‖uc v‖ := by
    have := Complex.cos_arg hu; exact this
  have hsinb : Real.sin (beta v) = v 1 / ‖uc v‖ := by
    have := Complex.sin_arg (uc v); exact this
  -- derivative of the colatitude
  have hαd : Real.sqrt (1 - cosA v ^ 2) *
      dot (fun k => (![cosA v * Real.cos (beta v), cosA v * Real.sin (beta v), -Real.sqrt (1 - cosA v ^ 2)] : V3) k / rho v) d =
      -((d 2 * rho v - v 2 * (dot v d / rho v)) / rho v ^ 2) := by
    simp only [dot, hcosb, hsinb, Matrix.cons_val_zero, Matrix.cons_val_one, Matrix.cons_val]
    have e1 : Real.sqrt (1 - cosA v ^ 2) = ‖uc v‖ / rho v := by rw [eq_div_iff hr]; exact hsr
    have e2 : ‖uc v‖ ^ 2 = rho v ^ 2 - v 2 ^ 2 := by
      rw [norm_uc, Real.sq_sqrt (by positivity), rho_sq]; ring
    rw [e1, cosA]
    field_simp
    linear_combination (-(d 2)) * e2
  unfold normDerCoeff
  simp only
  rw [hL.fn n m _ hn hm hc.1.le hc.2.le]
  subst hd
  simp only [zero_smul, add_zero, Pi.mul_apply, Pi.pow_apply]
  set d : V3 := fun k => normal k / Real.sqrt (normal 0 ^ 2 + normal 1 ^ 2 + normal 2 ^ 2) with hdef
  have hρd : dot (fun k => v k / rho v) d = dot v d / rho v := by simp only [dot]; field_simp
  have hβd : dot (fun k => (![-v 1, v 0, 0] : V3) k / (v 0 ^ 2 + v 1 ^ 2)) d =
      (v 0 * d 1 - v 1 * d 0) / (v 0 ^ 2 + v 1 ^ 2) := by
    simp only [dot, Matrix.cons_val_zero, Matrix.cons_val_one, Matrix.cons_val]; field_simp; ring
  rw [hρd, hβd]
  have hαd' : rho v ^ n * (L.der n m (cosA v) * Real.sqrt (1 - cosA v ^ 2)) *
      dot (fun k => (![cosA v * Real.cos (beta v), cosA v * Real.sin (beta v), -Real.sqrt (1 - cosA v ^ 2)] : V3) k / rho v) d =
      -(rho v ^ n * (L.der n m (cosA v) * ((d 2 * rho v - v 2 * (dot v d / rho v)) / rho v ^ 2))) := by
    linear_combination (rho v ^ n * L.der n m (cosA v)) * hαd
  rw [hαd']
  have hpow : (n : ℝ) * rho v ^ ((n : ℤ) - 1) = n * rho v ^ (n - 1) := by
    rcases n with _ | n
    · simp
    · congr 1
      rw [show ((n + 1 : ℕ) : ℤ) - 1 = (n : ℤ) by push_cast; ring, zpow_natCast]; simp
  rw [hpow]
  generalize dot v d / rho v = x1
  generalize (v 0 * d 1 - v 1 * d 0) / (v 0 ^ 2 + v 1 ^ 2) = x2
  generalize L.der n m (cosA v) * ((d 2 * rho v - v 2 * x1) / rho v ^ 2) = x3
  have hz : ∀ a b : ℝ, (⟨a, b⟩ : ℂ) = (a : ℂ) + (b : ℂ) * I := fun a b => by apply Complex.ext <;> simp
  rw [hz]
  push_cast
  ring

end PiBem.Harmonic
