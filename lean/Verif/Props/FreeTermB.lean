import Verif.Kernel.FreeTermB
import Verif.Props.Polar
import Verif.Props.Guiggiani
import Mathlib.Analysis.SpecialFunctions.Integrals.Basic
import Mathlib.MeasureTheory.Integral.IntervalIntegral.FundThmCalculus
import Mathlib.MeasureTheory.Integral.DominatedConvergence

/-!
# C70: the free term `b` of the hypersingular equation
-/

namespace PiBem.Kernel

open Real

/-! ## Specification: geometry of a surface at a point -/

/-- Cross product. -/
def vcross (a b : Pt 3) : Pt 3 := ![a 1 * b 2 - a 2 * b 1, a 2 * b 0 - a 0 * b 2, a 0 * b 1 - a 1 * b 0]

/-- A bilinear form. -/
def bil (S : Fin 3 → Fin 3 → ℝ) (a b : Pt 3) : ℝ := ∑ i, ∑ j, S i j * a i * b j

/-- `S` is the second fundamental form of the cell at the point: on the tangent vectors `J v`, `J w` it is the normal component
of the second derivative of the parametrisation in the directions `v`, `w`. -/
def IsSecondForm (J : Jac) (G : JacGrad) (S : Fin 3 → Fin 3 → ℝ) : Prop :=
  ∀ a b : Fin 2, bil S (fun i => J i a) (fun i => J i b) = sdot (etaN J) (fun i => G i a b)

/-- Unit tangent vector in the direction of the angle `th` of the parameter plane. -/
noncomputable def tangentDir (J : Jac) (th : ℝ) : Pt 3 := fun i => rRho J th i / norm (rRho J th)

/-- The unit tangent vector following it in the tangent plane, at a right angle. -/
noncomputable def tangentPerp (J : Jac) (th : ℝ) : Pt 3 := vcross (etaN J) (tangentDir J th)

/-- Speed of the angle in the tangent plane with respect to the angle of the parameter plane. -/
noncomputable def angSpeed (J : Jac) (th : ℝ) : ℝ := norm (etaG J) / norm (rRho J th) ^ 2

/-- The value of `b` with exact integration in the angle. -/
noncomputable def exactB (eta : P2) (J : Jac) (G : JacGrad) : Pt 3 := fun i =>
  ∑ f : Fin 4, open Classical in if skipped eta f then 0 else ∫ th in theta0 eta f..theta1 eta f, bIntegrand J G th i

/-! ## Sums -/

theorem bFace_eq (eta : P2) (J : Jac) (G : JacGrad) (rule : List (ℝ × ℝ)) (f : Fin 4) (b : Pt 3) (i : Fin 3) :
    bFace eta J G rule f b i = b i + (rule.map fun q =>
      bIntegrand J G (theta0 eta f + q.1 * (theta1 eta f - theta0 eta f)) i *
        (q.2 * (theta1 eta f - theta0 eta f))).sum := by
  unfold bFace
  induction rule generalizing b with
  | nil => simp
  | cons q l ih =>
    rw [List.foldl_cons, ih]
    simp; ring

/-- The value of the rule on one face. -/
noncomputable def ruleOn (eta : P2) (rule : List (ℝ × ℝ)) (f : Fin 4) (g : ℝ → ℝ) : ℝ :=
  (rule.map fun q => g (theta0 eta f + q.1 * (theta1 eta f - theta0 eta f)) * (q.2 * (theta1 eta f - theta0 eta f))).sum

theorem freeTermB_eq (eta : P2) (J : Jac) (G : JacGrad) (rule : List (ℝ × ℝ)) (i : Fin 3) :
    freeTermB eta J G rule i = ∑ f : Fin 4, open Classical in
      if skipped eta f then 0 else ruleOn eta rule f fun th => bIntegrand J G th i := by
  have step : ∀ (b : Pt 3) (f : Fin 4), (open Classical in if ¬ skipped eta f then bFace eta J G rule f b else b) i =
      b i + open Classical in if skipped eta f then 0 else ruleOn eta rule f fun th => bIntegrand J G th i := by
    intro b f
    by_cases h : skipped eta f
    · simp [h]
    · simp [h, bFace_eq, ruleOn]
  unfold freeTermB
  simp only [List.foldl_cons, List.foldl_nil]
  rw [step, step, step, step, Fin.sum_univ_four]
  ring

/-! ## Pointwise facts -/

theorem etaG_eq (J : Jac) : etaG J = etaJxn J := by
  funext i
  fin_cases i <;> (simp [etaG, etaJxn]; try ring)

theorem rRho_eq (J : Jac) (th : ℝ) : rRho J th = coefA J th := rfl

theorem square3 (R : Pt 3) : square R = R 0 * R 0 + R 1 * R 1 + R 2 * R 2 := by
  simp [square, Fin.sum_univ_three]

theorem norm_sq3 (R : Pt 3) : norm R ^ 2 = R 0 * R 0 + R 1 * R 1 + R 2 * R 2 := by
  unfold norm
  rw [Real.sq_sqrt, square3]
  rw [square3]; nlinarith [mul_self_nonneg (R 0), mul_self_nonneg (R 1), mul_self_nonneg (R 2)]

theorem norm_pos3 {R : Pt 3} (h : R ≠ 0) : 0 < norm R := by
  rcases lt_or_eq_of_le (Real.sqrt_nonneg (square R)) with h0 | h0
  · exact h0
  · exfalso
    have e : norm R = 0 := h0.symm
    have h1 := norm_sq3 R
    rw [e] at h1
    apply h
    have a0 : R 0 * R 0 = 0 := by nlinarith [mul_self_nonneg (R 0), mul_self_nonneg (R 1), mul_self_nonneg (R 2)]
    have a1 : R 1 * R 1 = 0 := by nlinarith [mul_self_nonneg (R 0), mul_self_nonneg (R 1), mul_self_nonneg (R 2)]
    have a2 : R 2 * R 2 = 0 := by nlinarith [mul_self_nonneg (R 0), mul_self_nonneg (R 1), mul_self_nonneg (R 2)]
    funext i
    fin_cases i
    · exact mul_self_eq_zero.1 a0
    · exact mul_self_eq_zero.1 a1
    · exact mul_self_eq_zero.1 a2

section regular

variable {J : Jac} (hJ : etaG J ≠ 0)
include hJ

theorem g_pos : 0 < norm (etaG J) := norm_pos3 hJ

theorem r_pos (th : ℝ) : 0 < norm (rRho J th) := norm_pos3 (by
  rw [rRho_eq]; apply coefA_ne_zero; rwa [← etaG_eq])

theorem n_unit : sdot (etaN J) (etaN J) = 1 := by
  have h := g_pos hJ
  have h2 := norm_sq3 (etaG J)
  simp only [sdot, etaN]
  field_simp
  linarith

theorem u_unit (th : ℝ) : sdot (tangentDir J th) (tangentDir J th) = 1 := by
  have h := r_pos hJ th
  have h2 := norm_sq3 (rRho J th)
  simp only [sdot, tangentDir]
  field_simp
  linarith

theorem u_n (th : ℝ) : sdot (etaN J) (tangentDir J th) = 0 := by
  have h := r_pos hJ th
  have h' := g_pos hJ
  have h2 := tangent_dot J th
  rw [← etaG_eq, ← rRho_eq] at h2
  simp only [sdot, tangentDir, etaN] at h2 ⊢
  field_simp
  linarith

end regular

theorem vcross_lag (J : Jac) (th : ℝ) :
    (fun i => (-J i 0 * sin th + J i 1 * cos th) *
        (rRho J th 0 * rRho J th 0 + rRho J th 1 * rRho J th 1 + rRho J th 2 * rRho J th 2) -
      rRho J th i * (rRho J th 0 * (-J 0 0 * sin th + J 0 1 * cos th) +
        rRho J th 1 * (-J 1 0 * sin th + J 1 1 * cos th) + rRho J th 2 * (-J 2 0 * sin th + J 2 1 * cos th))) =
      vcross (etaG J) (rRho J th) := by
  have hcs := Real.sin_sq_add_cos_sq th
  funext i
  fin_cases i
  · simp [vcross, etaG, rRho]
    linear_combination ((J 2 0 * J 0 1 - J 2 1 * J 0 0) * (J 2 0 * cos th + J 2 1 * sin th) -
      (J 0 0 * J 1 1 - J 0 1 * J 1 0) * (J 1 0 * cos th + J 1 1 * sin th)) * hcs
  · simp [vcross, etaG, rRho]
    linear_combination ((J 0 0 * J 1 1 - J 0 1 * J 1 0) * (J 0 0 * cos th + J 0 1 * sin th) -
      (J 1 0 * J 2 1 - J 1 1 * J 2 0) * (J 2 0 * cos th + J 2 1 * sin th)) * hcs
  · simp [vcross, etaG, rRho]
    linear_combination ((J 1 0 * J 2 1 - J 1 1 * J 2 0) * (J 1 0 * cos th + J 1 1 * sin th) -
      (J 2 0 * J 0 1 - J 2 1 * J 0 0) * (J 0 0 * cos th + J 0 1 * sin th)) * hcs

section derivs

variable {J : Jac} (hJ : etaG J ≠ 0)
include hJ

/-- The unit tangent vector turns with speed `angSpeed`. -/
theorem hasDerivAt_dir (th : ℝ) (i : Fin 3) :
    HasDerivAt (fun s => tangentDir J s i) (angSpeed J th * tangentPerp J th i) th := by
  have hr := r_pos hJ th
  have hg := g_pos hJ
  have d : ∀ k, HasDerivAt (fun s => rRho J s k) (-J k 0 * sin th + J k 1 * cos th) th := by
    intro k
    have h := ((hasDerivAt_cos th).const_mul (J k 0)).add ((hasDerivAt_sin th).const_mul (J k 1))
    refine h.congr_deriv ?_
    ring
  have hs : HasDerivAt (fun s => square (rRho J s))
      (2 * (rRho J th 0 * (-J 0 0 * sin th + J 0 1 * cos th) + rRho J th 1 * (-J 1 0 * sin th + J 1 1 * cos th) +
        rRho J th 2 * (-J 2 0 * sin th + J 2 1 * cos th))) th := by
    have h := (((d 0).mul (d 0)).add ((d 1).mul (d 1))).add ((d 2).mul (d 2))
    have e : (fun s => square (rRho J s)) =
        (((fun s => rRho J s 0) * (fun s => rRho J s 0)) + ((fun s => rRho J s 1) * (fun s => rRho J s 1))) +
          ((fun s => rRho J s 2) * (fun s => rRho J s 2)) := by
      funext s; simp [square3]
    rw [e]
    refine h.congr_deriv ?_
    ring
  have hsq : square (rRho J th) ≠ 0 := by
    have := norm_sq3 (rRho J th)
    rw [← square3] at this
    rw [← this]; positivity
  have hn : HasDerivAt (fun s => norm (rRho J s)) _ th := hs.sqrt hsq
  have h := (d i).div hn hr.ne'
  refine h.congr_deriv ?_
  have e : √(square (rRho J th)) = norm (rRho J th) := rfl
  rw [e]
  have n2 := norm_sq3 (rRho J th)
  have hcs := Real.sin_sq_add_cos_sq th
  unfold angSpeed tangentPerp vcross etaN tangentDir
  have hc := vcross_lag J th
  fin_cases i
  · have h0 := congrFun hc 0
    simp [vcross] at h0 ⊢
    field_simp
    rw [n2]
    linear_combination h0
  · have h0 := congrFun hc 1
    simp [vcross] at h0 ⊢
    field_simp
    rw [n2]
    linear_combination h0
  · have h0 := congrFun hc 2
    simp [vcross] at h0 ⊢
    field_simp
    rw [n2]
    linear_combination h0

theorem vcross_n_perp (th : ℝ) (i : Fin 3) : vcross (etaN J) (tangentPerp J th) i = -tangentDir J th i := by
  have h1 := n_unit hJ
  have h2 := u_n hJ th
  unfold tangentPerp
  simp only [sdot] at h1 h2
  fin_cases i
  · simp [vcross]
    linear_combination (etaN J 0) * h2 - (tangentDir J th 0) * h1
  · simp [vcross]
    linear_combination (etaN J 1) * h2 - (tangentDir J th 1) * h1
  · simp [vcross]
    linear_combination (etaN J 2) * h2 - (tangentDir J th 2) * h1

theorem hasDerivAt_perp (th : ℝ) (i : Fin 3) :
    HasDerivAt (fun s => tangentPerp J s i) (-(angSpeed J th * tangentDir J th i)) th := by
  have hd := hasDerivAt_dir hJ th
  have he := vcross_n_perp hJ th
  have key : ∀ a b : Fin 3, HasDerivAt (fun s => etaN J a * tangentDir J s b - etaN J b * tangentDir J s a)
      (angSpeed J th * (etaN J a * tangentPerp J th b - etaN J b * tangentPerp J th a)) th := by
    intro a b
    have h := ((hd b).const_mul (etaN J a)).sub ((hd a).const_mul (etaN J b))
    refine h.congr_deriv ?_
    ring
  fin_cases i
  · have h0 := he 0
    simp only [vcross] at h0
    refine (key 1 2).congr_deriv ?_
    simp at h0 ⊢
    linear_combination (angSpeed J th) * h0
  · have h0 := he 1
    simp only [vcross] at h0
    refine (key 2 0).congr_deriv ?_
    simp at h0 ⊢
    linear_combination (angSpeed J th) * h0
  · have h0 := he 2
    simp only [vcross] at h0
    refine (key 0 1).congr_deriv ?_
    simp at h0 ⊢
    linear_combination (angSpeed J th) * h0

theorem t_unit (th : ℝ) : sdot (tangentPerp J th) (tangentPerp J th) = 1 ∧
    sdot (tangentPerp J th) (tangentDir J th) = 0 ∧ sdot (tangentPerp J th) (etaN J) = 0 := by
  have h1 := n_unit hJ
  have h2 := u_n hJ th
  have h3 := u_unit hJ th
  unfold tangentPerp
  simp only [sdot] at h1 h2 h3 ⊢
  refine ⟨?_, ?_, ?_⟩
  · simp [vcross]
    linear_combination h1 + (etaN J 0 * etaN J 0 + etaN J 1 * etaN J 1 + etaN J 2 * etaN J 2) * h3 -
      (etaN J 0 * tangentDir J th 0 + etaN J 1 * tangentDir J th 1 + etaN J 2 * tangentDir J th 2) * h2
  · simp [vcross]; ring
  · simp [vcross]; ring

end derivs

/-! ## The second fundamental form -/

theorem bil_add (S : Fin 3 → Fin 3 → ℝ) (a b c d : Pt 3) (x y : ℝ) :
    bil S (fun i => a i * x + b i * y) (fun i => c i * x + d i * y) =
      bil S a c * x ^ 2 + (bil S a d + bil S b c) * (x * y) + bil S b d * y ^ 2 := by
  simp [bil, Fin.sum_univ_three]; ring

theorem bil_div (S : Fin 3 → Fin 3 → ℝ) (a b : Pt 3) (x : ℝ) :
    bil S (fun i => a i / x) (fun i => b i / x) = bil S a b / x ^ 2 := by
  simp only [bil, Finset.sum_div]
  refine Finset.sum_congr rfl fun i _ => Finset.sum_congr rfl fun j _ => ?_
  ring

/-- What the code integrates: normal curvature of the direction times the unit tangent vector, with respect to the angle in the
tangent plane. -/
theorem bIntegrand_eq {J : Jac} (hJ : etaG J ≠ 0) {G : JacGrad} (hG : ∀ i, G i 0 1 = G i 1 0) {S : Fin 3 → Fin 3 → ℝ}
    (hS : IsSecondForm J G S) (th : ℝ) (i : Fin 3) :
    bIntegrand J G th i = bil S (tangentDir J th) (tangentDir J th) * tangentDir J th i * angSpeed J th := by
  have hr := r_pos hJ th
  have e : bil S (rRho J th) (rRho J th) = sdot (etaN J) (rRhoRho G th) := by
    have := bil_add S (fun i => J i 0) (fun i => J i 1) (fun i => J i 0) (fun i => J i 1) (cos th) (sin th)
    unfold rRho
    rw [this, hS, hS, hS, hS]
    simp only [sdot, rRhoRho, hG]; ring
  unfold tangentDir
  rw [bil_div, e]
  simp only [bIntegrand, sdot, angSpeed]
  field_simp

/-- There is a second fundamental form, symmetric if the second derivatives commute. -/
theorem exists_secondForm {J : Jac} (hJ : etaG J ≠ 0) {G : JacGrad} (hG : ∀ i, G i 0 1 = G i 1 0) :
    ∃ S, IsSecondForm J G S ∧ ∀ i j, S i j = S j i := by
  have hg := g_pos hJ
  have n2 := norm_sq3 (etaG J)
  set N := norm (etaG J) ^ 2 with hN
  have hN0 : N ≠ 0 := by positivity
  let e : Fin 2 → Pt 3 := ![vcross (fun i => J i 1) (etaG J), vcross (etaG J) (fun i => J i 0)]
  let L : Fin 2 → Fin 2 → ℝ := fun a b => sdot (etaN J) (fun i => G i a b)
  have hL : L 0 1 = L 1 0 := by simp only [L, sdot, hG]
  have dual : ∀ a b : Fin 2, sdot (e a) (fun i => J i b) = if a = b then N else 0 := by
    intro a b
    rw [n2]
    fin_cases a <;> fin_cases b <;> simp [e, sdot, vcross, etaG] <;> ring
  refine ⟨fun i j => ∑ a, ∑ b, L a b * e a i * e b j / N ^ 2, ?_, ?_⟩
  · intro a b
    have : bil (fun i j => ∑ a, ∑ b, L a b * e a i * e b j / N ^ 2) (fun i => J i a) (fun i => J i b) =
        ∑ a', ∑ b', L a' b' * sdot (e a') (fun i => J i a) * sdot (e b') (fun i => J i b) / N ^ 2 := by
      simp [bil, sdot, Fin.sum_univ_three]; ring
    rw [this]
    simp only [dual]
    change _ = L a b
    fin_cases a <;> fin_cases b <;> simp <;> field_simp
  · intro i j
    simp only [Fin.sum_univ_two, hL]; ring

/-! ## Exact integrals -/

/-- An antiderivative, in terms of the unit tangent vector `u` and of `t = n × u` only. -/
noncomputable def bPot (S : Fin 3 → Fin 3 → ℝ) (u t : Pt 3) : Pt 3 := fun i =>
  -(1 / 3) * (bil S u u * t i + (bil S u t + bil S t u) * u i + 2 * bil S t t * t i)

theorem hasDerivAt_bil (S : Fin 3 → Fin 3 → ℝ) {a b : ℝ → Pt 3} {a' b' : Pt 3} {x : ℝ}
    (ha : ∀ i, HasDerivAt (fun s => a s i) (a' i) x) (hb : ∀ i, HasDerivAt (fun s => b s i) (b' i) x) :
    HasDerivAt (fun s => bil S (a s) (b s)) (bil S a' (b x) + bil S (a x) b') x := by
  have h : HasDerivAt (fun s => ∑ i, ∑ j, S i j * a s i * b s j)
      (∑ i, ∑ j, (S i j * a' i * b x j + S i j * a x i * b' j)) x := by
    refine HasDerivAt.fun_sum fun i _ => HasDerivAt.fun_sum fun j _ => ?_
    exact ((ha i).const_mul (S i j)).mul (hb j)
  refine h.congr_deriv ?_
  simp only [bil, Finset.sum_add_distrib]

theorem bil_smul (S : Fin 3 → Fin 3 → ℝ) (a b : Pt 3) (x : ℝ) :
    bil S (fun i => x * a i) b = x * bil S a b ∧ bil S b (fun i => x * a i) = x * bil S b a := by
  simp only [bil, Finset.mul_sum]
  constructor <;> refine Finset.sum_congr rfl fun i _ => Finset.sum_congr rfl fun j _ => ?_ <;> ring

theorem hasDerivAt_bPot {J : Jac} (hJ : etaG J ≠ 0) (S : Fin 3 → Fin 3 → ℝ) (th : ℝ) (i : Fin 3) :
    HasDerivAt (fun s => bPot S (tangentDir J s) (tangentPerp J s) i)
      (bil S (tangentDir J th) (tangentDir J th) * tangentDir J th i * angSpeed J th) th := by
  have hu := hasDerivAt_dir hJ th
  have ht : ∀ i, HasDerivAt (fun s => tangentPerp J s i) (-angSpeed J th * tangentDir J th i) th := fun i =>
    (hasDerivAt_perp hJ th i).congr_deriv (by ring)
  have h := (((hasDerivAt_bil S hu hu).mul (ht i)).add
    (((hasDerivAt_bil S hu ht).add (hasDerivAt_bil S ht hu)).mul (hu i))).add
    (((hasDerivAt_bil S ht ht).const_mul 2).mul (ht i))
  have h' := h.const_mul (-(1 / 3))
  refine h'.congr_deriv ?_
  simp only [(bil_smul _ _ _ _).1, (bil_smul _ _ _ _).2, Pi.add_apply]
  ring

theorem continuous_dir {J : Jac} (hJ : etaG J ≠ 0) (i : Fin 3) : Continuous fun s => tangentDir J s i :=
  continuous_iff_continuousAt.2 fun s => (hasDerivAt_dir hJ s i).continuousAt

theorem continuous_rRho (J : Jac) (i : Fin 3) : Continuous fun s => rRho J s i := by
  unfold rRho; fun_prop

theorem continuous_normR (J : Jac) : Continuous fun s => norm (rRho J s) := by
  unfold norm
  have : (fun s => square (rRho J s)) = fun s => ∑ i, rRho J s i * rRho J s i := rfl
  refine Real.continuous_sqrt.comp ?_
  rw [this]
  exact continuous_finsetSum _ fun i _ => (continuous_rRho J i).mul (continuous_rRho J i)

theorem continuous_angSpeed {J : Jac} (hJ : etaG J ≠ 0) : Continuous fun s => angSpeed J s := by
  unfold angSpeed
  exact continuous_const.div ((continuous_normR J).pow 2) fun s => pow_ne_zero 2 (r_pos hJ s).ne'

theorem continuous_bIntegrand {J : Jac} (hJ : etaG J ≠ 0) (G : JacGrad) (i : Fin 3) :
    Continuous fun s => bIntegrand J G s i := by
  unfold bIntegrand
  refine Continuous.div ?_ ((continuous_normR J).pow 5) fun s => pow_ne_zero 5 (r_pos hJ s).ne'
  refine (Continuous.mul ?_ (continuous_rRho J i)).mul continuous_const
  unfold rRhoRho
  fun_prop

theorem integral_bIntegrand {J : Jac} (hJ : etaG J ≠ 0) {G : JacGrad} (hG : ∀ i, G i 0 1 = G i 1 0)
    {S : Fin 3 → Fin 3 → ℝ} (hS : IsSecondForm J G S) (a b : ℝ) (i : Fin 3) :
    ∫ th in a..b, bIntegrand J G th i =
      bPot S (tangentDir J b) (tangentPerp J b) i - bPot S (tangentDir J a) (tangentPerp J a) i := by
  have h := intervalIntegral.integral_eq_sub_of_hasDerivAt (f := fun s => bPot S (tangentDir J s) (tangentPerp J s) i)
    (f' := fun th => bIntegrand J G th i) (a := a) (b := b)
    (fun th _ => (hasDerivAt_bPot hJ S th i).congr_deriv (bIntegrand_eq hJ hG hS th i).symm)
    ((continuous_bIntegrand hJ G i).intervalIntegrable _ _)
  exact h

/-! ## Properties -/

/-- **C70 (tangent).** The vector `b` of a cell is tangent to the cell, for every angular rule. -/
theorem C70_free_b_tangent (eta : P2) (J : Jac) (G : JacGrad) (rule : List (ℝ × ℝ)) :
    sdot (freeTermB eta J G rule) (etaN J) = 0 := by
  have pt : ∀ th, sdot (bIntegrand J G th) (etaN J) = 0 := by
    intro th
    have h := tangent_dot J th
    rw [← etaG_eq, ← rRho_eq] at h
    simp only [sdot] at h
    have e : ∀ i, bIntegrand J G th i * etaN J i = (etaN J 0 * rRhoRho G th 0 + etaN J 1 * rRhoRho G th 1 +
        etaN J 2 * rRhoRho G th 2) * norm (etaG J) / norm (rRho J th) ^ 5 / norm (etaG J) * (rRho J th i * etaG J i) := by
      intro i
      simp only [bIntegrand, etaN]; ring
    simp only [sdot, e]
    rw [← mul_add, ← mul_add, h, mul_zero]
  have face : ∀ f, (∑ i : Fin 3, ruleOn eta rule f (fun th => bIntegrand J G th i) * etaN J i) = 0 := by
    intro f
    unfold ruleOn
    induction rule with
    | nil => simp
    | cons q l ih =>
      simp only [List.map_cons, List.sum_cons, add_mul, Finset.sum_add_distrib, ih, add_zero]
      have := pt (theta0 eta f + q.1 * (theta1 eta f - theta0 eta f))
      simp only [sdot] at this
      rw [Fin.sum_univ_three]
      linear_combination (q.2 * (theta1 eta f - theta0 eta f)) * this
  have h : sdot (freeTermB eta J G rule) (etaN J) = ∑ i : Fin 3, freeTermB eta J G rule i * etaN J i := by
    rw [Fin.sum_univ_three]; rfl
  rw [h]
  simp only [freeTermB_eq, Finset.sum_mul]
  rw [Finset.sum_comm]
  refine Finset.sum_eq_zero fun f _ => ?_
  by_cases hs : skipped eta f
  · simp [hs]
  · simpa [hs] using face f

theorem ruleOn_zero (eta : P2) (rule : List (ℝ × ℝ)) (f : Fin 4) : ruleOn eta rule f (fun _ => 0) = 0 := by
  unfold ruleOn
  induction rule <;> simp

/-- **C70 (planar cells).** On a cell lying in a plane (with a mapping of any degree, affine or not) `b` is zero, for every angular
rule and point. -/
theorem C70_free_b_planar (x : Fin 3 → ℝ × ℝ → ℝ) (hx : ∀ i, ContDiff ℝ 2 (x i)) (m : Pt 3) (hm : m ≠ 0) (c : ℝ)
    (hplane : ∀ p, sdot m (fun i => x i p) = c) (eta : P2) (rule : List (ℝ × ℝ)) :
    freeTermB eta (jacAt x eta) (jacGradAt x eta) rule = fun _ => 0 := by
  have hp : ∀ i j, ContDiff ℝ 1 (pd (x i) j) := fun i j => contDiff_pd (n := 1) (by exact_mod_cast hx i) j
  have pdlin : ∀ (y : Fin 3 → ℝ × ℝ → ℝ), (∀ i, Differentiable ℝ (y i)) → ∀ j p (c : ℝ),
      (∀ p, m 0 * y 0 p + m 1 * y 1 p + m 2 * y 2 p = c) → m 0 * pd (y 0) j p + m 1 * pd (y 1) j p + m 2 * pd (y 2) j p = 0 := by
    intro y hy j p c hc
    have h := (((hy 0 p).hasFDerivAt.const_mul (m 0)).add ((hy 1 p).hasFDerivAt.const_mul (m 1))).add
      ((hy 2 p).hasFDerivAt.const_mul (m 2))
    have h' : HasFDerivAt (fun _ : ℝ × ℝ => c) _ p := h.congr_of_eventuallyEq (Filter.Eventually.of_forall fun q => by
      simp [← hc q])
    have h0 := h'.unique (hasFDerivAt_const c p)
    have h1 := congrArg (fun L => L (unitDir j)) h0
    simpa [pd] using h1
  have m1 : ∀ j p, m 0 * pd (x 0) j p + m 1 * pd (x 1) j p + m 2 * pd (x 2) j p = 0 := fun j p =>
    pdlin x (fun i => (hx i).differentiable (by norm_num)) j p c hplane
  have m2 : ∀ j k p, m 0 * pd (pd (x 0) j) k p + m 1 * pd (pd (x 1) j) k p + m 2 * pd (pd (x 2) j) k p = 0 := fun j k p =>
    pdlin (fun i => pd (x i) j) (fun i => (hp i j).differentiable (by norm_num)) k p 0 (m1 j)
  have mm : 0 < m 0 * m 0 + m 1 * m 1 + m 2 * m 2 := by
    rw [← norm_sq3]; have := norm_pos3 hm; positivity
  have hg : ∀ i, etaG (jacAt x eta) i * (m 0 * m 0 + m 1 * m 1 + m 2 * m 2) = m i * sdot m (etaG (jacAt x eta)) := by
    intro i
    have a0 := m1 0 eta
    have a1 := m1 1 eta
    fin_cases i
    · simp [etaG, jacAt, sdot]
      linear_combination (m 2 * pd (x 1) 0 eta - m 1 * pd (x 2) 0 eta) * a1 -
        (m 2 * pd (x 1) 1 eta - m 1 * pd (x 2) 1 eta) * a0
    · simp [etaG, jacAt, sdot]
      linear_combination (m 0 * pd (x 2) 0 eta - m 2 * pd (x 0) 0 eta) * a1 -
        (m 0 * pd (x 2) 1 eta - m 2 * pd (x 0) 1 eta) * a0
    · simp [etaG, jacAt, sdot]
      linear_combination (m 1 * pd (x 0) 0 eta - m 0 * pd (x 1) 0 eta) * a1 -
        (m 1 * pd (x 0) 1 eta - m 0 * pd (x 1) 1 eta) * a0
  have zero : ∀ th i, bIntegrand (jacAt x eta) (jacGradAt x eta) th i = 0 := by
    intro th i
    have hr : sdot m (rRhoRho (jacGradAt x eta) th) = 0 := by
      simp only [sdot, rRhoRho, jacGradAt]
      linear_combination cos th ^ 2 * m2 0 0 eta + 2 * cos th * sin th * m2 0 1 eta + sin th ^ 2 * m2 1 1 eta
    have : etaN (jacAt x eta) 0 * rRhoRho (jacGradAt x eta) th 0 + etaN (jacAt x eta) 1 * rRhoRho (jacGradAt x eta) th 1 +
        etaN (jacAt x eta) 2 * rRhoRho (jacGradAt x eta) th 2 = 0 := by
      have e : ∀ i, etaN (jacAt x eta) i = m i * (sdot m (etaG (jacAt x eta)) / (m 0 * m 0 + m 1 * m 1 + m 2 * m 2) /
          norm (etaG (jacAt x eta))) := by
        intro i
        unfold etaN
        rw [← mul_div_assoc, ← mul_div_assoc, ← hg, mul_div_cancel_right₀ _ mm.ne']
      simp only [e]
      simp only [sdot] at hr ⊢
      linear_combination ((m 0 * etaG (jacAt x eta) 0 + m 1 * etaG (jacAt x eta) 1 + m 2 * etaG (jacAt x eta) 2) /
        (m 0 * m 0 + m 1 * m 1 + m 2 * m 2) / norm (etaG (jacAt x eta))) * hr
    unfold bIntegrand
    simp only [this, zero_mul, zero_div]
  funext i
  rw [freeTermB_eq]
  simp only [zero, ruleOn_zero, ite_self, Finset.sum_const_zero]

/-- Opposite directions give opposite contributions. -/
theorem bIntegrand_add_pi (J : Jac) (G : JacGrad) (th : ℝ) (i : Fin 3) :
    bIntegrand J G (th + π) i = -bIntegrand J G th i := by
  have h1 : rRho J (th + π) = fun i => -rRho J th i := by
    funext i; simp only [rRho, cos_add_pi, sin_add_pi]; ring
  have h2 : rRhoRho G (th + π) = rRhoRho G th := by
    funext i; simp only [rRhoRho, cos_add_pi, sin_add_pi]; ring
  have h3 : norm (rRho J (th + π)) = norm (rRho J th) := by
    rw [h1]; simp [norm, square3]
  unfold bIntegrand
  rw [h2, h3, h1]
  ring

/-! ### Smooth points -/

/-- The vector of the tangent space of a vector of the parameter plane. -/
def push (J : Jac) (v : P2) : Pt 3 := fun i => J i 0 * v.1 + J i 1 * v.2

/-- Two vectors with the same direction. -/
def SameDir (v w : Pt 3) : Prop := ∃ k : ℝ, 0 < k ∧ ∀ i, v i = k * w i

theorem tangentDir_of_push {J J' : Jac} {th th' l l' : ℝ} {v v' : P2} (hl : 0 < l) (hl' : 0 < l')
    (h1 : v.1 = l * cos th) (h2 : v.2 = l * sin th) (h1' : v'.1 = l' * cos th') (h2' : v'.2 = l' * sin th')
    (h : SameDir (push J v) (push J' v')) : tangentDir J th = tangentDir J' th' := by
  obtain ⟨k, hk, h⟩ := h
  have e : ∀ i, rRho J th i = (k * l' / l) * rRho J' th' i := by
    intro i
    have := h i
    simp only [push, h1, h2, h1', h2'] at this
    simp only [rRho]
    field_simp
    linear_combination this
  have hc : 0 < k * l' / l := by positivity
  have hn : norm (rRho J th) = (k * l' / l) * norm (rRho J' th') := by
    have : square (rRho J th) = (k * l' / l) ^ 2 * square (rRho J' th') := by
      simp only [square3, e]; ring
    unfold norm
    rw [this, Real.sqrt_mul (by positivity), Real.sqrt_sq hc.le]
  funext i
  unfold tangentDir
  rw [hn, e, mul_div_mul_left _ _ hc.ne']

/-- **C70 (smooth nodes).** Cells meeting at a node where the surface is smooth (same normal, same second fundamental form) and
which close up around it (the direction of the end of every face, seen from the node, is the direction of the beginning of the
next one): with exact integration in the angle the contributions of the cells add up to zero. -/
theorem C70_free_b_smooth_node {ι : Type*} [Fintype ι] (eta : ι → P2) (J : ι → Jac) (G : ι → JacGrad) (n : Pt 3)
    (S : Fin 3 → Fin 3 → ℝ) (heta : ∀ c, InCell (eta c)) (hJ : ∀ c, etaG (J c) ≠ 0) (hG : ∀ c i, G c i 0 1 = G c i 1 0)
    (hn : ∀ c, etaN (J c) = n) (hS : ∀ c, IsSecondForm (J c) (G c) S) (next : ι × Fin 4 → ι × Fin 4)
    (hnext : Set.BijOn next {p | ¬ skipped (eta p.1) p.2} {p | ¬ skipped (eta p.1) p.2})
    (hdir : ∀ p, ¬ skipped (eta p.1) p.2 → SameDir (push (J p.1) (csi1 (eta p.1) p.2))
      (push (J (next p).1) (csi0 (eta (next p).1) (next p).2))) :
    ∑ c, exactB (eta c) (J c) (G c) = 0 := by
  classical
  funext i
  rw [Finset.sum_apply, Pi.zero_apply]
  simp only [exactB, integral_bIntegrand (hJ _) (hG _) (hS _), tangentPerp, hn]
  rw [← Fintype.sum_prod_type' (f := fun (c : ι) (f : Fin 4) =>
    if skipped (eta c) f then 0 else
      bPot S (tangentDir (J c) (theta1 (eta c) f)) (vcross n (tangentDir (J c) (theta1 (eta c) f))) i -
      bPot S (tangentDir (J c) (theta0 (eta c) f)) (vcross n (tangentDir (J c) (theta0 (eta c) f))) i)]
  have e : ∀ p : ι × Fin 4, (if skipped (eta p.1) p.2 then (0 : ℝ) else
      bPot S (tangentDir (J p.1) (theta1 (eta p.1) p.2)) (vcross n (tangentDir (J p.1) (theta1 (eta p.1) p.2))) i -
      bPot S (tangentDir (J p.1) (theta0 (eta p.1) p.2)) (vcross n (tangentDir (J p.1) (theta0 (eta p.1) p.2))) i) =
      if ¬ skipped (eta p.1) p.2 then
      bPot S (tangentDir (J p.1) (theta1 (eta p.1) p.2)) (vcross n (tangentDir (J p.1) (theta1 (eta p.1) p.2))) i -
      bPot S (tangentDir (J p.1) (theta0 (eta p.1) p.2)) (vcross n (tangentDir (J p.1) (theta0 (eta p.1) p.2))) i else 0 := by
    intro p; split_ifs <;> rfl
  simp only [e]
  rw [← Finset.sum_filter, Finset.sum_sub_distrib, sub_eq_zero]
  refine Finset.sum_nbij next ?_ ?_ ?_ ?_
  · intro p hp
    simpa using hnext.mapsTo (by simpa using hp)
  · intro p hp q hq h
    exact hnext.injOn (by simpa using hp) (by simpa using hq) h
  · intro p hp
    obtain ⟨q, hq, h⟩ := hnext.surjOn (by simpa using hp : p ∈ {p | ¬ skipped (eta p.1) p.2})
    exact ⟨q, by simpa using hq, h⟩
  · intro p hp
    have hp' : ¬ skipped (eta p.1) p.2 := by simpa using hp
    have hq' : ¬ skipped (eta (next p).1) (next p).2 := hnext.mapsTo hp'
    have t1 := theta_spec (heta p.1) hp'
    have t2 := theta_spec (heta (next p).1) hq'
    have z1 := ne_zero_of_cross (csi_cross (heta p.1) hp').ne'
    have z2 := ne_zero_of_cross (csi_cross (heta (next p).1) hq').ne'
    rw [tangentDir_of_push (len_pos z1.2) (len_pos z2.1) t1.2.2.2.2.1 t1.2.2.2.2.2 t2.2.2.1 t2.2.2.2.1 (hdir p hp')]

/-- The faces in the order of the angle. -/
def nextFace (p : Unit × Fin 4) : Unit × Fin 4 := ((), ![2, 3, 1, 0] p.2)

/-- **C70 (interior points).** At a point inside a cell the exact value is zero. -/
theorem C70_free_b_interior (eta : P2) (h1 : 0 < eta.1) (h2 : eta.1 < 1) (h3 : 0 < eta.2) (h4 : eta.2 < 1) (J : Jac)
    (G : JacGrad) (hJ : etaG J ≠ 0) (hG : ∀ i, G i 0 1 = G i 1 0) : exactB eta J G = 0 := by
  obtain ⟨S, hS, -⟩ := exists_secondForm hJ hG
  have hin : InCell eta := ⟨h1.le, h2.le, h3.le, h4.le⟩
  have hsk : ∀ f, ¬ skipped eta f := by
    intro f hf
    have h := (C43_skipped_faces eta hin f).1 hf
    fin_cases f <;> simp [OnEdge] at h <;> linarith
  have h := C70_free_b_smooth_node (ι := Unit) (fun _ => eta) (fun _ => J) (fun _ => G) (etaN J) S (fun _ => hin)
    (fun _ => hJ) (fun _ => hG) (fun _ => rfl) (fun _ => hS) nextFace
    (by
      have : {p : Unit × Fin 4 | ¬ skipped eta p.2} = Set.univ := by ext p; simp [hsk]
      rw [this, Set.bijOn_univ]
      decide)
    (by
      rintro ⟨u, f⟩ -
      refine ⟨1, one_pos, fun i => ?_⟩
      rw [one_mul]
      fin_cases f <;> rfl)
  simpa using h

/-- **C70 (interior points, the program).** At a point inside a cell what the program returns is not larger than the sum over the
faces of the errors of the angular rule. -/
theorem C70_free_b_interior_bound (eta : P2) (h1 : 0 < eta.1) (h2 : eta.1 < 1) (h3 : 0 < eta.2) (h4 : eta.2 < 1) (J : Jac)
    (G : JacGrad) (hJ : etaG J ≠ 0) (hG : ∀ i, G i 0 1 = G i 1 0) (rule : List (ℝ × ℝ)) (i : Fin 3) :
    |freeTermB eta J G rule i| ≤ ∑ f : Fin 4, |ruleOn eta rule f (fun th => bIntegrand J G th i) -
      ∫ th in theta0 eta f..theta1 eta f, bIntegrand J G th i| := by
  have hin : InCell eta := ⟨h1.le, h2.le, h3.le, h4.le⟩
  have hsk : ∀ f, ¬ skipped eta f := by
    intro f hf
    have h := (C43_skipped_faces eta hin f).1 hf
    fin_cases f <;> simp [OnEdge] at h <;> linarith
  have h0 := congrFun (C70_free_b_interior eta h1 h2 h3 h4 J G hJ hG) i
  simp only [exactB, hsk, if_false, Pi.zero_apply] at h0
  have : freeTermB eta J G rule i = ∑ f : Fin 4, (ruleOn eta rule f (fun th => bIntegrand J G th i) -
      ∫ th in theta0 eta f..theta1 eta f, bIntegrand J G th i) := by
    rw [Finset.sum_sub_distrib, h0, sub_zero, freeTermB_eq]
    simp only [hsk, if_false]
  rw [this]
  exact Finset.abs_sum_le_sum_abs _ _

theorem angle_unique (p : P2) (l t : ℝ) (hl : 0 < l) (h0 : 0 ≤ t) (h1 : t < 2 * π) (hc : p.1 = l * cos t)
    (hs : p.2 = l * sin t) : angle p = t := by
  have hne : p ≠ (0, 0) := by
    intro h
    rw [h] at hc hs
    have e1 : cos t = 0 := by simpa [hl.ne'] using hc.symm
    have e2 : sin t = 0 := by simpa [hl.ne'] using hs.symm
    have := sin_sq_add_cos_sq t
    rw [e1, e2] at this
    norm_num at this
  obtain ⟨a1, a2, a3, a4⟩ := angle_spec p hne
  have hp := len_pos hne
  have hlen : len p = l := by
    unfold len
    rw [hc, hs, show l * cos t * (l * cos t) + l * sin t * (l * sin t) = l ^ 2 by
      linear_combination l ^ 2 * sin_sq_add_cos_sq t, Real.sqrt_sq hl.le]
  rw [hlen] at a3 a4
  have c1 : cos (angle p) = cos t := mul_left_cancel₀ hl.ne' (by rw [← a3, hc])
  have c2 : sin (angle p) = sin t := mul_left_cancel₀ hl.ne' (by rw [← a4, hs])
  have h3 : cos (angle p - t) = 1 := by
    rw [cos_sub, c1, c2]; linear_combination sin_sq_add_cos_sq t
  have h4 : angle p - t = 0 := by
    refine (Real.cos_eq_one_iff_of_lt_of_lt (by linarith) (by linarith)).1 h3
  linarith

theorem centre_angles : angle (-(1 / 2), -(1 / 2)) = π / 4 + π ∧ angle (1 / 2, -(1 / 2)) = 2 * π - π / 4 ∧
    angle (1 / 2, 1 / 2) = π / 4 ∧ angle (-(1 / 2), 1 / 2) = π - π / 4 := by
  have hp := Real.pi_pos
  have h2 : √2 * √2 = 2 := Real.mul_self_sqrt (by norm_num)
  have hl : 0 < √2 / 2 := by positivity
  refine ⟨angle_unique _ (√2 / 2) _ hl (by linarith) (by linarith) ?_ ?_,
    angle_unique _ (√2 / 2) _ hl (by linarith) (by linarith) ?_ ?_,
    angle_unique _ (√2 / 2) _ hl (by linarith) (by linarith) ?_ ?_,
    angle_unique _ (√2 / 2) _ hl (by linarith) (by linarith) ?_ ?_⟩ <;>
  simp only [cos_add_pi, sin_add_pi, cos_two_pi_sub, sin_two_pi_sub, cos_pi_sub, sin_pi_sub, cos_pi_div_four,
    sin_pi_div_four] <;> linarith

theorem ruleOn_shift (eta : P2) (rule : List (ℝ × ℝ)) (f f' : Fin 4) (h0 : theta0 eta f = theta0 eta f' + π)
    (h1 : theta1 eta f = theta1 eta f' + π) (J : Jac) (G : JacGrad) (i : Fin 3) :
    ruleOn eta rule f (fun th => bIntegrand J G th i) = -ruleOn eta rule f' (fun th => bIntegrand J G th i) := by
  unfold ruleOn
  rw [h0, h1]
  induction rule with
  | nil => simp
  | cons q l ih =>
    simp only [List.map_cons, List.sum_cons]
    rw [ih]
    have e : theta0 eta f' + π + q.1 * (theta1 eta f' + π - (theta0 eta f' + π)) =
        theta0 eta f' + q.1 * (theta1 eta f' - theta0 eta f') + π := by ring
    rw [e, bIntegrand_add_pi]
    ring

/-- **C70 (centre).** At the centre of a cell the program returns exactly zero, with every rule. -/
theorem C70_free_b_centre (J : Jac) (G : JacGrad) (rule : List (ℝ × ℝ)) :
    freeTermB (1 / 2, 1 / 2) J G rule = fun _ => 0 := by
  obtain ⟨a, b, c, d⟩ := centre_angles
  have hp := Real.pi_pos
  have c0 : ∀ f, csi0 (1 / 2, 1 / 2) f = ![(-(1 / 2), 1 / 2), (1 / 2, -(1 / 2)), (-(1 / 2), -(1 / 2)), (1 / 2, 1 / 2)] f := by
    intro f; fin_cases f <;> simp [csi0] <;> norm_num
  have c1 : ∀ f, csi1 (1 / 2, 1 / 2) f = ![(-(1 / 2), -(1 / 2)), (1 / 2, 1 / 2), (1 / 2, -(1 / 2)), (-(1 / 2), 1 / 2)] f := by
    intro f; fin_cases f <;> simp [csi1] <;> norm_num
  have hsk : ∀ f, ¬ skipped (1 / 2, 1 / 2) f := by
    intro f
    unfold skipped
    rw [c0, c1]
    fin_cases f <;> norm_num
  have t1 : ∀ f, theta1 (1 / 2, 1 / 2) f = ![π / 4 + π, π / 4, 2 * π - π / 4, π - π / 4] f := by
    intro f
    unfold theta1
    rw [c1]
    fin_cases f <;> simp only [] <;> assumption
  have t0 : ∀ f, theta0 (1 / 2, 1 / 2) f = ![π - π / 4, 2 * π - π / 4 - 2 * π, π / 4 + π, π / 4] f := by
    intro f
    unfold theta0
    rw [c0, t1]
    fin_cases f
    · change (if π / 4 + π < angle (-(1 / 2), 1 / 2) then angle (-(1 / 2), 1 / 2) - 2 * π else angle (-(1 / 2), 1 / 2)) = π - π / 4
      rw [d, if_neg (by linarith)]
    · change (if π / 4 < angle (1 / 2, -(1 / 2)) then angle (1 / 2, -(1 / 2)) - 2 * π else angle (1 / 2, -(1 / 2))) =
        2 * π - π / 4 - 2 * π
      rw [b, if_pos (by linarith)]
    · change (if 2 * π - π / 4 < angle (-(1 / 2), -(1 / 2)) then angle (-(1 / 2), -(1 / 2)) - 2 * π
        else angle (-(1 / 2), -(1 / 2))) = π / 4 + π
      rw [a, if_neg (by linarith)]
    · change (if π - π / 4 < angle (1 / 2, 1 / 2) then angle (1 / 2, 1 / 2) - 2 * π else angle (1 / 2, 1 / 2)) = π / 4
      rw [c, if_neg (by linarith)]
  funext i
  rw [freeTermB_eq, Fin.sum_univ_four]
  simp only [hsk, if_false]
  rw [ruleOn_shift (1 / 2, 1 / 2) rule 0 1 (by rw [t0, t0]; simp; ring) (by rw [t1, t1]; simp) J G i,
    ruleOn_shift (1 / 2, 1 / 2) rule 2 3 (by rw [t0, t0]; simp) (by rw [t1, t1]; simp; ring) J G i]
  ring

/-! ### The factor of `b` in the equation

The hypersingular equation at a node comes from the domain without a ball of radius `ε` around the node. The part of the sphere
inside the domain contributes `∫ V`, `V` the hypersingular kernel with the normal towards the node: the terms in `1/ε` cancel
against those of the surface, the limit of the rest multiplies the potential. Between the tangent plane and the surface the
sphere has, in the direction of the azimuth `φ` of the tangent plane, elevations from 0 to about `ε κ(φ)/2`, `κ` the normal
curvature. -/

/-- Unit vector of the tangent plane with azimuth `φ`. -/
noncomputable def azimuth (e1 e2 : Pt 3) (φ : ℝ) : Pt 3 := fun i => cos φ * e1 i + sin φ * e2 i

/-- Unit vector with azimuth `φ` and elevation `ψ`. -/
noncomputable def sphereDir (e1 e2 n : Pt 3) (φ ψ : ℝ) : Pt 3 := fun i => cos ψ * azimuth e1 e2 φ i + sin ψ * n i

/-- The hypersingular kernel times `4 π` (`vFun`, see C55) integrated on the part of the sphere of radius `ε` between elevation
0 and `h φ`, for the azimuths from 0 to `Φ`, with the normal towards the centre. -/
noncomputable def sphereStrip (e1 e2 n : Pt 3) (Φ : ℝ) (h : ℝ → ℝ) (ε : ℝ) : Pt 3 := fun i =>
  ∫ φ in (0 : ℝ)..Φ, ∫ ψ in (0 : ℝ)..h φ,
    vFun (fun k => ε * sphereDir e1 e2 n φ ψ k) (fun k => -sphereDir e1 e2 n φ ψ k) 1 i * (ε ^ 2 * cos ψ)

theorem sphereDir_unit {e1 e2 n : Pt 3} (h11 : sdot e1 e1 = 1) (h22 : sdot e2 e2 = 1) (hnn : sdot n n = 1)
    (h12 : sdot e1 e2 = 0) (h1n : sdot e1 n = 0) (h2n : sdot e2 n = 0) (φ ψ : ℝ) :
    sdot (sphereDir e1 e2 n φ ψ) (sphereDir e1 e2 n φ ψ) = 1 := by
  simp only [sdot, sphereDir, azimuth] at *
  linear_combination (cos ψ ^ 2 * cos φ ^ 2) * h11 + (cos ψ ^ 2 * sin φ ^ 2) * h22 + sin ψ ^ 2 * hnn +
    (2 * cos ψ ^ 2 * cos φ * sin φ) * h12 + (2 * cos ψ * sin ψ * cos φ) * h1n + (2 * cos ψ * sin ψ * sin φ) * h2n +
    cos ψ ^ 2 * sin_sq_add_cos_sq φ + sin_sq_add_cos_sq ψ

theorem strip_kernel {w : Pt 3} (hw : sdot w w = 1) {ε : ℝ} (he : 0 < ε) (i : Fin 3) :
    vFun (fun k => ε * w k) (fun k => -w k) 1 i = 2 * w i / ε ^ 3 := by
  have hn : norm (fun k => ε * w k) = ε := by
    unfold norm
    rw [square3]
    simp only [sdot] at hw
    rw [show ε * w 0 * (ε * w 0) + ε * w 1 * (ε * w 1) + ε * w 2 * (ε * w 2) = ε ^ 2 by
      linear_combination ε ^ 2 * hw, Real.sqrt_sq he.le]
  have hd : sdot (fun k => ε * w k) (fun k => -w k) = -ε := by
    simp only [sdot] at *
    linear_combination (-ε) * hw
  unfold vFun
  rw [hn, hd]
  field_simp
  ring

theorem strip_inner (a b : ℝ) (h : ℝ) :
    ∫ ψ in (0 : ℝ)..h, 2 * (cos ψ * a + sin ψ * b) * cos ψ = a * (h + sin h * cos h) + b * sin h ^ 2 := by
  have hd : ∀ ψ : ℝ, HasDerivAt (fun s => a * (s + sin s * cos s) + b * sin s ^ 2) (2 * (cos ψ * a + sin ψ * b) * cos ψ) ψ := by
    intro ψ
    have h := ((((hasDerivAt_id ψ).add ((hasDerivAt_sin ψ).mul (hasDerivAt_cos ψ))).const_mul a).add
      (((hasDerivAt_sin ψ).pow 2).const_mul b))
    refine h.congr_deriv ?_
    simp
    linear_combination (-a) * sin_sq_add_cos_sq ψ
  have := intervalIntegral.integral_eq_sub_of_hasDerivAt (a := 0) (b := h) (fun ψ _ => hd ψ)
    ((by fun_prop : Continuous fun ψ : ℝ => 2 * (cos ψ * a + sin ψ * b) * cos ψ).intervalIntegrable _ _)
  rw [this]
  simp

theorem sphereStrip_eq {e1 e2 n : Pt 3} (h11 : sdot e1 e1 = 1) (h22 : sdot e2 e2 = 1) (hnn : sdot n n = 1)
    (h12 : sdot e1 e2 = 0) (h1n : sdot e1 n = 0) (h2n : sdot e2 n = 0) (Φ : ℝ) (h : ℝ → ℝ) {ε : ℝ} (he : 0 < ε) (i : Fin 3) :
    sphereStrip e1 e2 n Φ h ε i =
      ∫ φ in (0 : ℝ)..Φ, (azimuth e1 e2 φ i * (h φ + sin (h φ) * cos (h φ)) + n i * sin (h φ) ^ 2) / ε := by
  unfold sphereStrip
  refine intervalIntegral.integral_congr fun φ _ => ?_
  rw [← strip_inner, ← intervalIntegral.integral_div]
  refine intervalIntegral.integral_congr fun ψ _ => ?_
  rw [strip_kernel (sphereDir_unit h11 h22 hnn h12 h1n h2n φ ψ) he]
  unfold sphereDir
  field_simp

open Filter Topology in
theorem strip_limit {e1 e2 n : Pt 3} (h11 : sdot e1 e1 = 1) (h22 : sdot e2 e2 = 1) (hnn : sdot n n = 1)
    (h12 : sdot e1 e2 = 0) (h1n : sdot e1 n = 0) (h2n : sdot e2 n = 0) (Φ : ℝ) (h : ℝ → ℝ → ℝ) (κ : ℝ → ℝ) (K : ℝ)
    (hc : ∀ ε > 0, Continuous (h ε)) (hK : ∀ ε > 0, ∀ φ, |h ε φ| ≤ K * ε)
    (hlim : ∀ φ, Tendsto (fun ε => h ε φ / ε) (𝓝[>] 0) (𝓝 (κ φ / 2))) (i : Fin 3) :
    Tendsto (fun ε => sphereStrip e1 e2 n Φ (h ε) ε i) (𝓝[>] 0)
      (𝓝 (∫ φ in (0 : ℝ)..Φ, κ φ * azimuth e1 e2 φ i)) := by
  have hev : (fun ε => ∫ φ in (0 : ℝ)..Φ, (azimuth e1 e2 φ i * (h ε φ + sin (h ε φ) * cos (h ε φ)) +
      n i * sin (h ε φ) ^ 2) / ε) =ᶠ[𝓝[>] 0] fun ε => sphereStrip e1 e2 n Φ (h ε) ε i := by
    filter_upwards [self_mem_nhdsWithin] with ε he
    exact (sphereStrip_eq h11 h22 hnn h12 h1n h2n Φ (h ε) he i).symm
  refine Tendsto.congr' hev ?_
  have hK0 : 0 ≤ K := by
    have := hK 1 one_pos 0
    have := abs_nonneg (h 1 0)
    linarith
  have hcaz : Continuous fun φ => azimuth e1 e2 φ i := by unfold azimuth; fun_prop
  refine intervalIntegral.tendsto_integral_filter_of_dominated_convergence
    (fun φ => |azimuth e1 e2 φ i| * (2 * K) + |n i| * K) ?_ ?_ ?_ ?_
  · filter_upwards [self_mem_nhdsWithin] with ε he
    have := hc ε he
    exact (by fun_prop : Continuous fun φ => (azimuth e1 e2 φ i * (h ε φ + sin (h ε φ) * cos (h ε φ)) +
      n i * sin (h ε φ) ^ 2) / ε).aestronglyMeasurable
  · filter_upwards [self_mem_nhdsWithin] with ε he
    have he : 0 < ε := he
    refine Filter.Eventually.of_forall fun φ _ => ?_
    have hb := hK ε he φ
    have hs : |sin (h ε φ)| ≤ |h ε φ| := Real.abs_sin_le_abs
    have hs1 : |sin (h ε φ)| ≤ 1 := Real.abs_sin_le_one _
    have hc1 : |cos (h ε φ)| ≤ 1 := Real.abs_cos_le_one _
    have q1 : |h ε φ + sin (h ε φ) * cos (h ε φ)| ≤ 2 * K * ε := by
      refine (abs_add_le _ _).trans ?_
      rw [abs_mul]
      nlinarith [abs_nonneg (sin (h ε φ)), abs_nonneg (cos (h ε φ))]
    have q2 : |sin (h ε φ) ^ 2| ≤ K * ε := by
      rw [abs_pow]
      nlinarith [abs_nonneg (sin (h ε φ))]
    rw [Real.norm_eq_abs, abs_div, abs_of_pos he, div_le_iff₀ he]
    refine (abs_add_le _ _).trans ?_
    rw [abs_mul, abs_mul]
    have := mul_le_mul_of_nonneg_left q1 (abs_nonneg (azimuth e1 e2 φ i))
    have := mul_le_mul_of_nonneg_left q2 (abs_nonneg (n i))
    linarith
  · exact (by fun_prop : Continuous fun φ => |azimuth e1 e2 φ i| * (2 * K) + |n i| * K).intervalIntegrable _ _
  · refine Filter.Eventually.of_forall fun φ _ => ?_
    have hl := hlim φ
    have h0 : Tendsto (fun ε => h ε φ) (𝓝[>] 0) (𝓝 0) := by
      have : Tendsto (fun ε : ℝ => ε) (𝓝[>] 0) (𝓝 0) := nhdsWithin_le_nhds
      have hm := hl.mul this
      rw [mul_zero] at hm
      refine hm.congr' ?_
      filter_upwards [self_mem_nhdsWithin] with ε he
      have he : 0 < ε := he
      field_simp
    have hsinc : Tendsto (fun ε => sinc (h ε φ)) (𝓝[>] 0) (𝓝 1) := by
      have := (Real.continuous_sinc.tendsto 0).comp h0
      rwa [Real.sinc_zero] at this
    have hcos : Tendsto (fun ε => cos (h ε φ)) (𝓝[>] 0) (𝓝 1) := by
      have := (Real.continuous_cos.tendsto 0).comp h0
      rwa [Real.cos_zero] at this
    have hsin : Tendsto (fun ε => sin (h ε φ)) (𝓝[>] 0) (𝓝 0) := by
      have := (Real.continuous_sin.tendsto 0).comp h0
      rwa [Real.sin_zero] at this
    have hs : ∀ x : ℝ, sin x = sinc x * x := by
      intro x
      by_cases hx : x = 0
      · simp [hx]
      · rw [Real.sinc_of_ne_zero hx, div_mul_cancel₀ _ hx]
    have hfin := ((hl.add ((hsinc.mul hl).mul hcos)).const_mul (azimuth e1 e2 φ i)).add
      (((hsinc.mul hl).mul hsin).const_mul (n i))
    have e : azimuth e1 e2 φ i * (κ φ / 2 + 1 * (κ φ / 2) * 1) + n i * (1 * (κ φ / 2) * 0) = κ φ * azimuth e1 e2 φ i := by ring
    rw [e] at hfin
    refine hfin.congr' ?_
    filter_upwards [self_mem_nhdsWithin] with ε he
    have he : 0 < ε := he
    have hss := hs (h ε φ)
    field_simp
    linear_combination (-(azimuth e1 e2 φ i * cos (h ε φ))) * hss - n i * sin (h ε φ) * hss

theorem hasDerivAt_angle {J : Jac} (hJ : etaG J ≠ 0) (a th : ℝ) :
    HasDerivAt (fun s => ∫ x in a..s, angSpeed J x) (angSpeed J th) th :=
  intervalIntegral.integral_hasDerivAt_right ((continuous_angSpeed hJ).intervalIntegrable _ _)
    ((continuous_angSpeed hJ).stronglyMeasurableAtFilter _ _) (continuous_angSpeed hJ).continuousAt

/-- The integral of `angSpeed` is the angle in the tangent plane. -/
theorem dir_eq_azimuth {J : Jac} (hJ : etaG J ≠ 0) (a th : ℝ) (i : Fin 3) :
    tangentDir J th i = azimuth (tangentDir J a) (tangentPerp J a) (∫ x in a..th, angSpeed J x) i := by
  set F : ℝ → ℝ := fun s => ∫ x in a..s, angSpeed J x with hF
  have hF' : ∀ s, HasDerivAt F (angSpeed J s) s := fun s => hasDerivAt_angle hJ a s
  have hFa : F a = 0 := by simp [hF]
  have hc : ∀ s, HasDerivAt (fun s => cos (F s)) (-sin (F s) * angSpeed J s) s := fun s => (hF' s).cos
  have hs : ∀ s, HasDerivAt (fun s => sin (F s)) (cos (F s) * angSpeed J s) s := fun s => (hF' s).sin
  have p1 : ∀ s, HasDerivAt (fun s => cos (F s) * tangentDir J s i - sin (F s) * tangentPerp J s i) 0 s := by
    intro s
    have h := ((hc s).mul (hasDerivAt_dir hJ s i)).sub ((hs s).mul (hasDerivAt_perp hJ s i))
    exact h.congr_deriv (by ring)
  have p2 : ∀ s, HasDerivAt (fun s => sin (F s) * tangentDir J s i + cos (F s) * tangentPerp J s i) 0 s := by
    intro s
    have h := ((hs s).mul (hasDerivAt_dir hJ s i)).add ((hc s).mul (hasDerivAt_perp hJ s i))
    exact h.congr_deriv (by ring)
  have c1 := is_const_of_deriv_eq_zero (fun s => (p1 s).differentiableAt) (fun s => (p1 s).deriv) th a
  have c2 := is_const_of_deriv_eq_zero (fun s => (p2 s).differentiableAt) (fun s => (p2 s).deriv) th a
  simp only [hFa, cos_zero, sin_zero, one_mul, zero_mul, sub_zero, zero_add] at c1 c2
  unfold azimuth
  change tangentDir J th i = cos (F th) * _ + sin (F th) * _
  rw [← c1, ← c2]
  linear_combination (-tangentDir J th i) * sin_sq_add_cos_sq (F th)

theorem integral_azimuth {J : Jac} (hJ : etaG J ≠ 0) {G : JacGrad} (hG : ∀ i, G i 0 1 = G i 1 0)
    {S : Fin 3 → Fin 3 → ℝ} (hS : IsSecondForm J G S) (a b : ℝ) (i : Fin 3) :
    ∫ th in a..b, bIntegrand J G th i = ∫ φ in (0 : ℝ)..∫ x in a..b, angSpeed J x,
      bil S (azimuth (tangentDir J a) (tangentPerp J a) φ) (azimuth (tangentDir J a) (tangentPerp J a) φ) *
        azimuth (tangentDir J a) (tangentPerp J a) φ i := by
  set e1 := tangentDir J a
  set e2 := tangentPerp J a
  have hcont : Continuous fun φ => bil S (azimuth e1 e2 φ) (azimuth e1 e2 φ) * azimuth e1 e2 φ i := by
    unfold bil azimuth; fun_prop
  have h := intervalIntegral.integral_comp_mul_deriv (a := a) (b := b) (f := fun s => ∫ x in a..s, angSpeed J x)
    (f' := angSpeed J) (g := fun φ => bil S (azimuth e1 e2 φ) (azimuth e1 e2 φ) * azimuth e1 e2 φ i)
    (fun s _ => hasDerivAt_angle hJ a s) (continuous_angSpeed hJ).continuousOn hcont
  rw [intervalIntegral.integral_same] at h
  rw [← h]
  refine intervalIntegral.integral_congr fun th _ => ?_
  have hd : tangentDir J th = azimuth e1 e2 (∫ x in a..th, angSpeed J x) := funext fun k => dir_eq_azimuth hJ a th k
  simp only [Function.comp]
  rw [bIntegrand_eq hJ hG hS, ← hd]

open Filter Topology in
/-- **C70 (factor).** The contribution of a face to the free term: the limit of the integral of the hypersingular kernel on the
part of the sphere between tangent plane and surface is `1/(4π)` times the integral the program computes. The other terms of
the equation (C64, C68: `1/(4π)` in `H`, `D`, `Vk`, `Wk`) have the factor, the program adds `b` without it: it is `4π` times
too large.

The elevation `h ε` of the surface on the sphere is any function with the right first order term (`C70_elevation`). -/
theorem C70_free_b_factor {J : Jac} (hJ : etaG J ≠ 0) {G : JacGrad} (hG : ∀ i, G i 0 1 = G i 1 0)
    {S : Fin 3 → Fin 3 → ℝ} (hS : IsSecondForm J G S) (a b : ℝ) (h : ℝ → ℝ → ℝ) (K : ℝ)
    (hc : ∀ ε > 0, Continuous (h ε)) (hK : ∀ ε > 0, ∀ φ, |h ε φ| ≤ K * ε)
    (hlim : ∀ φ, Tendsto (fun ε => h ε φ / ε) (𝓝[>] 0)
      (𝓝 (bil S (azimuth (tangentDir J a) (tangentPerp J a) φ) (azimuth (tangentDir J a) (tangentPerp J a) φ) / 2)))
    (i : Fin 3) :
    Tendsto (fun ε => 1 / (4 * π) *
        sphereStrip (tangentDir J a) (tangentPerp J a) (etaN J) (∫ x in a..b, angSpeed J x) (h ε) ε i) (𝓝[>] 0)
      (𝓝 (1 / (4 * π) * ∫ th in a..b, bIntegrand J G th i)) := by
  rw [integral_azimuth hJ hG hS a b i]
  obtain ⟨t1, t2, t3⟩ := t_unit hJ a
  have hun := u_n hJ a
  have comm : ∀ v w : Pt 3, sdot v w = sdot w v := fun v w => by simp only [sdot]; ring
  exact (strip_limit (u_unit hJ a) t1 (n_unit hJ) (by rw [comm]; exact t2) (by rw [comm]; exact hun) t3 _ h _ K hc hK hlim
    i).const_mul _

open Filter Topology in
theorem Tay.div_tendsto {f : ℝ → ℝ} {b : ℝ} (h : Tay f 0 b) : Tendsto (fun r => f r / r) (𝓝[>] 0) (𝓝 b) := by
  unfold Tay at h
  have h1 : (fun r => (f r - (0 + b * r)) * r⁻¹) =O[𝓝[>] (0 : ℝ)] fun r => r ^ 2 * r⁻¹ :=
    h.mul (Asymptotics.isBigO_refl _ _)
  have h2 : Tendsto (fun r : ℝ => r ^ 2 * r⁻¹) (𝓝[>] (0 : ℝ)) (𝓝 0) := by
    refine rho_tendsto.congr' ?_
    filter_upwards [self_mem_nhdsWithin] with r hr
    have hr : 0 < r := hr
    field_simp
  have h3 := (h1.trans_tendsto h2).add_const b
  rw [zero_add] at h3
  refine h3.congr' ?_
  filter_upwards [self_mem_nhdsWithin] with r hr
  have hr : 0 < r := hr
  field_simp
  ring

open Filter Topology in
/-- **C70 (elevation).** On a smooth surface, along every direction of the parameter plane, the sine of the elevation above the
tangent plane divided by the distance tends to half of the normal curvature of the direction. -/
theorem C70_elevation (x : Fin 3 → ℝ × ℝ → ℝ) (hx : ∀ i, ContDiff ℝ 3 (x i)) (eta : ℝ × ℝ)
    (hreg : etaG (jacAt x eta) ≠ 0) {S : Fin 3 → Fin 3 → ℝ} (hS : IsSecondForm (jacAt x eta) (jacGradAt x eta) S) (th : ℝ) :
    Tendsto (fun r => sdot (etaN (jacAt x eta)) (polarR x eta th r) / norm (polarR x eta th r) / norm (polarR x eta th r))
      (𝓝[>] 0) (𝓝 (bil S (tangentDir (jacAt x eta) th) (tangentDir (jacAt x eta) th) / 2)) := by
  set J := jacAt x eta
  set G := jacGradAt x eta
  have hG : ∀ i, G i 0 1 = G i 1 0 := fun i => pd_symm ((hx i).of_le (by norm_num)) eta
  have hT := fun i => tay_S hx eta th i
  have hN := (((hT 0).mul (hT 0)).add ((hT 1).mul (hT 1))).add ((hT 2).mul (hT 2))
  have hD := (((Tay.const (etaN J 0)).mul (hT 0)).add ((Tay.const (etaN J 1)).mul (hT 1))).add
    ((Tay.const (etaN J 2)).mul (hT 2))
  have hD0 : etaN J 0 * coefA J th 0 + etaN J 1 * coefA J th 1 + etaN J 2 * coefA J th 2 = 0 := by
    have h := tangent_dot J th
    rw [← etaG_eq] at h
    simp only [sdot] at h
    simp only [etaN]
    linear_combination (1 / norm (etaG J)) * h
  have hD' := hD.coef hD0 rfl
  have hq := hD'.div_tendsto.div hN.tendsto (by
    have := norm_sq3 (rRho J th)
    rw [rRho_eq] at this
    have hp := r_pos hreg th
    rw [rRho_eq] at hp
    change coefA J th 0 * coefA J th 0 + coefA J th 1 * coefA J th 1 + coefA J th 2 * coefA J th 2 ≠ 0
    rw [← this]; positivity)
  have e : bil S (tangentDir J th) (tangentDir J th) / 2 =
      (etaN J 0 * coefB (jacGradAt x eta) th 0 + 0 * coefA (jacAt x eta) th 0 +
        (etaN J 1 * coefB (jacGradAt x eta) th 1 + 0 * coefA (jacAt x eta) th 1) +
      (etaN J 2 * coefB (jacGradAt x eta) th 2 + 0 * coefA (jacAt x eta) th 2)) /
      (coefA (jacAt x eta) th 0 * coefA (jacAt x eta) th 0 + coefA (jacAt x eta) th 1 * coefA (jacAt x eta) th 1 +
        coefA (jacAt x eta) th 2 * coefA (jacAt x eta) th 2) := by
    have e1 : bil S (rRho J th) (rRho J th) = sdot (etaN J) (rRhoRho G th) := by
      have := bil_add S (fun i => J i 0) (fun i => J i 1) (fun i => J i 0) (fun i => J i 1) (cos th) (sin th)
      unfold rRho
      rw [this, hS, hS, hS, hS]
      simp only [sdot, rRhoRho, hG]; ring
    unfold tangentDir
    rw [bil_div, e1, norm_sq3]
    change _ = _ / (rRho J th 0 * rRho J th 0 + rRho J th 1 * rRho J th 1 + rRho J th 2 * rRho J th 2)
    rw [div_div, mul_comm _ (2 : ℝ), ← div_div]
    congr 1
    simp only [sdot, rRhoRho, coefB, G]
    ring
  rw [e]
  refine hq.congr' ?_
  filter_upwards [self_mem_nhdsWithin] with r hr
  have hr : 0 < r := hr
  rw [div_div, ← pow_two, norm_sq3]
  simp only [Pi.div_apply, sdot]
  field_simp

/-! ### Non-vacuity -/

/-- The four cells around the vertex of the surface `z = x²`: the four quadrants, each with the parameters turned. -/
def quadJ (c : Fin 4) : Jac :=
  match c with
  | 0 => ![![1, 0], ![0, 1], ![0, 0]]
  | 1 => ![![0, -1], ![1, 0], ![0, 0]]
  | 2 => ![![-1, 0], ![0, -1], ![0, 0]]
  | 3 => ![![0, 1], ![-1, 0], ![0, 0]]

/-- Second derivatives of `z`. -/
def quadG (c : Fin 4) : JacGrad := fun i a b => if i = 2 then 2 * quadJ c 0 a * quadJ c 0 b else 0

def quadS : Fin 3 → Fin 3 → ℝ := fun i j => if i = 0 ∧ j = 0 then 2 else 0

theorem quad_g (c : Fin 4) : etaG (quadJ c) = ![0, 0, 1] := by
  fin_cases c <;> (funext i; fin_cases i <;> simp [etaG, quadJ])

theorem quad_n (c : Fin 4) : etaN (quadJ c) = ![0, 0, 1] := by
  unfold etaN
  rw [quad_g]
  have : norm ![(0 : ℝ), 0, 1] = 1 := by simp [norm, square3]
  rw [this]
  funext i; simp

theorem quad_S (c : Fin 4) : IsSecondForm (quadJ c) (quadG c) quadS := by
  intro a b
  rw [quad_n]
  simp [bil, quadS, sdot, quadG, Fin.sum_univ_three]

theorem quad_G (c : Fin 4) (i : Fin 3) : quadG c i 0 1 = quadG c i 1 0 := by
  simp only [quadG]; split_ifs <;> ring

theorem quad_skip (f : Fin 4) : skipped (0, 0) f ↔ f = 0 ∨ f = 2 := by
  rw [C43_skipped_faces (0, 0) (by simp [InCell])]
  fin_cases f <;> simp [OnEdge, InCell]

/-- `C70_free_b_smooth_node` applies to the four cells, whose vectors are not zero. -/
example : ∑ c : Fin 4, exactB (0, 0) (quadJ c) (quadG c) = 0 := by
  refine C70_free_b_smooth_node (fun _ => (0, 0)) quadJ quadG ![0, 0, 1] quadS (fun _ => by simp [InCell])
    (fun c h => ?_) quad_G quad_n quad_S (fun p => if p.2 = 1 then (p.1, 3) else if p.2 = 3 then (p.1 + 1, 1) else p) ?_ ?_
  · rw [quad_g] at h
    simpa using congrFun h 2
  · have : {p : Fin 4 × Fin 4 | ¬ skipped (0, 0) p.2} = {p | p.2 = 1 ∨ p.2 = 3} := by
      ext ⟨c, f⟩
      simp only [Set.mem_ofPred_eq, quad_skip]
      fin_cases f <;> simp
    rw [this]
    refine ⟨?_, ?_, ?_⟩
    · intro p hp; revert p; decide
    · intro p hp q hq; revert p q; decide
    · rintro ⟨c, f⟩ hp
      rcases hp with rfl | rfl
      · exact ⟨(c - 1, 3), Or.inr rfl, by simp⟩
      · exact ⟨(c, 1), Or.inl rfl, by simp⟩
  · rintro ⟨c, f⟩ hf
    refine ⟨1, one_pos, fun i => ?_⟩
    simp only [quad_skip] at hf
    rw [one_mul]
    fin_cases f
    · simp at hf
    · fin_cases i <;> simp [push, csi0, csi1]
    · simp at hf
    · fin_cases c <;> fin_cases i <;> simp [push, csi0, csi1, quadJ]

/-- The vector of one of the cells: `b` at a vertex is not zero. -/
theorem quad_value : exactB (0, 0) (quadJ 0) (quadG 0) 0 = 4 / 3 := by
  have hJ : etaG (quadJ 0) ≠ 0 := by
    rw [quad_g]; intro h; simpa using congrFun h 2
  have hp := Real.pi_pos
  have h2 : √2 * √2 = 2 := Real.mul_self_sqrt (by norm_num)
  have e0 : csi0 (0, 0) 1 = (1, 0) ∧ csi1 (0, 0) 1 = (1, 1) ∧ csi0 (0, 0) 3 = (1, 1) ∧ csi1 (0, 0) 3 = (0, 1) := by
    simp [csi0, csi1]
  have a0 : angle (1, 0) = 0 := angle_unique _ 1 0 one_pos le_rfl (by positivity) (by simp) (by simp)
  have a1 : angle (1, 1) = π / 4 := angle_unique _ √2 _ (by positivity) (by positivity) (by linarith)
    (by rw [cos_pi_div_four]; change (1 : ℝ) = _; linarith) (by rw [sin_pi_div_four]; change (1 : ℝ) = _; linarith)
  have a2 : angle (0, 1) = π / 2 := angle_unique _ 1 _ one_pos (by positivity) (by linarith) (by simp) (by simp)
  have t : theta0 (0, 0) 1 = 0 ∧ theta1 (0, 0) 1 = π / 4 ∧ theta0 (0, 0) 3 = π / 4 ∧ theta1 (0, 0) 3 = π / 2 := by
    unfold theta0 theta1
    rw [e0.1, e0.2.1, e0.2.2.1, e0.2.2.2, a0, a1, a2]
    refine ⟨?_, rfl, ?_, rfl⟩
    · exact if_neg (by linarith)
    · exact if_neg (by linarith)
  have s0 : skipped (0, 0) 0 := (quad_skip 0).2 (by simp)
  have s1 : ¬ skipped (0, 0) 1 := fun h => by simpa using (quad_skip 1).1 h
  have s2 : skipped (0, 0) 2 := (quad_skip 2).2 (by simp)
  have s3 : ¬ skipped (0, 0) 3 := fun h => by simpa using (quad_skip 3).1 h
  have dir : ∀ th, tangentDir (quadJ 0) th = ![cos th, sin th, 0] := by
    intro th
    have hr : rRho (quadJ 0) th = ![cos th, sin th, 0] := by
      funext i; fin_cases i <;> simp [rRho, quadJ]
    unfold tangentDir
    rw [hr]
    have : norm ![cos th, sin th, 0] = 1 := by
      unfold norm
      rw [square3]
      simp
      linarith [sin_sq_add_cos_sq th]
    rw [this]
    funext i; simp
  unfold exactB
  rw [Fin.sum_univ_four, if_pos s0, if_neg s1, if_pos s2, if_neg s3, t.1, t.2.1, t.2.2.1, t.2.2.2,
    integral_bIntegrand hJ (quad_G 0) (quad_S 0), integral_bIntegrand hJ (quad_G 0) (quad_S 0)]
  simp [tangentPerp, quad_n, dir, bPot, bil, quadS, vcross, Fin.sum_univ_three]
  norm_num

/-- **C70 (factor, refuted).** At the vertex of one of the cells the value the program adds (with exact integration) is not the
value of `C70_free_b_factor`. -/
theorem C70_free_b_factor_refuted : exactB (0, 0) (quadJ 0) (quadG 0) 0 ≠ 1 / (4 * π) * exactB (0, 0) (quadJ 0) (quadG 0) 0 := by
  rw [quad_value]
  intro h
  have hp := Real.two_le_pi
  field_simp at h
  linarith

/-- Hypotheses of `C70_free_b_factor`: the elevation `ε κ / 2`. -/
example (i : Fin 3) : Filter.Tendsto (fun ε => 1 / (4 * π) * sphereStrip (tangentDir (quadJ 0) 0) (tangentPerp (quadJ 0) 0)
      (etaN (quadJ 0)) (∫ x in (0 : ℝ)..π / 2, angSpeed (quadJ 0) x) (fun φ => ε * (2 * cos φ ^ 2) / 2) ε i)
    (nhdsWithin 0 (Set.Ioi 0)) (nhds (1 / (4 * π) * ∫ th in (0 : ℝ)..π / 2, bIntegrand (quadJ 0) (quadG 0) th i)) := by
  have hJ : etaG (quadJ 0) ≠ 0 := by
    rw [quad_g]; intro h; simpa using congrFun h 2
  refine C70_free_b_factor hJ (quad_G 0) (quad_S 0) 0 (π / 2) (fun ε φ => ε * (2 * cos φ ^ 2) / 2) 1 ?_ ?_ ?_ i
  · intro ε _; fun_prop
  · intro ε he φ
    have hc : cos φ ^ 2 ≤ 1 := Real.cos_sq_le_one φ
    rw [abs_of_nonneg (by positivity)]
    nlinarith
  · intro φ
    have e : bil quadS (azimuth (tangentDir (quadJ 0) 0) (tangentPerp (quadJ 0) 0) φ)
        (azimuth (tangentDir (quadJ 0) 0) (tangentPerp (quadJ 0) 0) φ) = 2 * cos φ ^ 2 := by
      have hr : rRho (quadJ 0) 0 = ![1, 0, 0] := by
        funext i; fin_cases i <;> simp [rRho, quadJ]
      have hn : norm ![(1 : ℝ), 0, 0] = 1 := by simp [norm, square3]
      simp [bil, quadS, Fin.sum_univ_three, azimuth, tangentDir, tangentPerp, vcross, quad_n, hr, hn]
      ring
    rw [e]
    refine tendsto_const_nhds.congr' ?_
    filter_upwards [self_mem_nhdsWithin] with ε he
    have he : 0 < ε := he
    field_simp

/-- Hypotheses of `C70_free_b_planar`: a plane cell with a mapping of degree 2. -/
example (rule : List (ℝ × ℝ)) : freeTermB (0, 0)
    (jacAt ![fun p => p.1 + p.2 ^ 2, fun p => p.2, fun p => 1 - p.2] (0, 0))
    (jacGradAt ![fun p => p.1 + p.2 ^ 2, fun p => p.2, fun p => 1 - p.2] (0, 0)) rule = fun _ => 0 := by
  refine C70_free_b_planar _ (fun i => ?_) ![0, 1, 1] (fun h => by simpa using congrFun h 1) 1 (fun p => ?_) _ _
  · fin_cases i
    · exact contDiff_fst.add (contDiff_snd.pow 2)
    · exact contDiff_snd
    · exact contDiff_const.sub contDiff_snd
  · simp [sdot]

end PiBem.Kernel
