import Verif.Props.Guiggiani
import Verif.Kernel.TaylorUnif

/-!
# The expansions of C55 uniformly in the angle

Lemmas for C74.
-/

namespace PiBem.Kernel

open Asymptotics Filter Topology

theorem polarPoint_mem (eta : ℝ × ℝ) (th : ℝ) {r : ℝ} (h0 : 0 ≤ r) (h1 : r ≤ 1) :
    polarPoint eta th r ∈ Metric.closedBall eta 1 := by
  rw [Metric.mem_closedBall, Prod.dist_eq]
  apply max_le
  · have e : (polarPoint eta th r).1 - eta.1 = r * Real.cos th := by simp [polarPoint]
    rw [Real.dist_eq, e, abs_mul, abs_of_nonneg h0]
    exact mul_le_one₀ h1 (abs_nonneg _) (Real.abs_cos_le_one _)
  · have e : (polarPoint eta th r).2 - eta.2 = r * Real.sin th := by simp [polarPoint]
    rw [Real.dist_eq, e, abs_mul, abs_of_nonneg h0]
    exact mul_le_one₀ h1 (abs_nonneg _) (Real.abs_sin_le_one _)

theorem bdd_polar {F : ℝ × ℝ → ℝ} (hF : Continuous F) (eta : ℝ × ℝ) :
    ∃ C, 0 ≤ C ∧ ∀ th r, 0 ≤ r → r ≤ 1 → |F (polarPoint eta th r)| ≤ C := by
  obtain ⟨C, hC⟩ := (isCompact_closedBall eta 1).exists_bound_of_continuousOn hF.continuousOn
  refine ⟨C, ?_, fun th r h0 h1 => hC _ (polarPoint_mem eta th h0 h1)⟩
  exact (_root_.norm_nonneg _).trans (hC eta (by simp))

theorem cs_bound {c s x y C : ℝ} (hc : |c| ≤ 1) (hs : |s| ≤ 1) (hx : |x| ≤ C) (hy : |y| ≤ C) : |c * x + s * y| ≤ 2 * C := by
  have h1 : |c * x| ≤ C := by
    rw [abs_mul]
    calc |c| * |x| ≤ 1 * C := mul_le_mul hc hx (abs_nonneg _) zero_le_one
      _ = C := one_mul C
  have h2 : |s * y| ≤ C := by
    rw [abs_mul]
    calc |s| * |y| ≤ 1 * C := mul_le_mul hs hy (abs_nonneg _) zero_le_one
      _ = C := one_mul C
  linarith [abs_add_le (c * x) (s * y)]

/-- Directional derivative along a ray, as a function of the point. -/
noncomputable def dirD (h : ℝ × ℝ → ℝ) (th : ℝ) (p : ℝ × ℝ) : ℝ := Real.cos th * pd h 0 p + Real.sin th * pd h 1 p

/-- First derivatives are bounded on rays. -/
theorem dirD_bound {h : ℝ × ℝ → ℝ} (hh : ContDiff ℝ 1 h) (eta : ℝ × ℝ) :
    ∃ C, 0 ≤ C ∧ ∀ th r, 0 ≤ r → r ≤ 1 → |dirD h th (polarPoint eta th r)| ≤ C := by
  have hc : ∀ j, Continuous (pd h j) := fun j => (contDiff_pd (n := 0) (by exact_mod_cast hh) j).continuous
  obtain ⟨C0, p0, h0⟩ := bdd_polar (hc 0) eta
  obtain ⟨C1, p1, h1⟩ := bdd_polar (hc 1) eta
  refine ⟨2 * (C0 + C1), by linarith, fun th r a b => ?_⟩
  exact cs_bound (Real.abs_cos_le_one _) (Real.abs_sin_le_one _) ((h0 th r a b).trans (by linarith))
    ((h1 th r a b).trans (by linarith))

theorem hasDerivAt_dirRay {h : ℝ × ℝ → ℝ} (hh : Differentiable ℝ h) (eta : ℝ × ℝ) (th r : ℝ) :
    HasDerivAt (fun r => h (polarPoint eta th r)) (dirD h th (polarPoint eta th r)) r := hasDerivAt_ray hh eta th r

/-- First order remainder. -/
theorem ray_step1 {h : ℝ × ℝ → ℝ} (hh : ContDiff ℝ 1 h) (eta : ℝ × ℝ) :
    ∃ C, 0 ≤ C ∧ ∀ th r, 0 ≤ r → r ≤ 1 → |h (polarPoint eta th r) - h eta| ≤ C * r := by
  obtain ⟨C, hC0, hC⟩ := dirD_bound hh eta
  refine ⟨C, hC0, ?_⟩
  have := deriv_step (G := fun th r => h (polarPoint eta th r) - h eta) (G' := fun th r => dirD h th (polarPoint eta th r))
    (C := C) (k := 0) (fun th r => (hasDerivAt_dirRay (hh.differentiable (by norm_num)) eta th r).sub_const _)
    (fun th => by simp [polarPoint_zero]) (fun th r a b => by simpa using hC th r a b)
  simpa using this

/-- Second order remainder. -/
theorem ray_step2 {h : ℝ × ℝ → ℝ} (hh : ContDiff ℝ 2 h) (eta : ℝ × ℝ) :
    ∃ C, 0 ≤ C ∧ ∀ th r, 0 ≤ r → r ≤ 1 → |h (polarPoint eta th r) - h eta - dirD h th eta * r| ≤ C * r ^ 2 := by
  have hp : ∀ j, ContDiff ℝ 1 (pd h j) := fun j => contDiff_pd (n := 1) (by exact_mod_cast hh) j
  obtain ⟨C0, p0, h0⟩ := ray_step1 (hp 0) eta
  obtain ⟨C1, p1, h1⟩ := ray_step1 (hp 1) eta
  refine ⟨2 * (C0 + C1), by linarith, ?_⟩
  have := deriv_step (G := fun th r => h (polarPoint eta th r) - h eta - dirD h th eta * r)
    (G' := fun th r => dirD h th (polarPoint eta th r) - dirD h th eta)
    (C := 2 * (C0 + C1)) (k := 1) (fun th r => ?_) (fun th => by simp [polarPoint_zero]) (fun th r a b => ?_)
  · simpa using this
  · have d1 := (hasDerivAt_dirRay (hh.differentiable (by norm_num)) eta th r).sub_const (h eta)
    have d2 := (hasDerivAt_id' r).const_mul (dirD h th eta)
    rw [mul_one] at d2
    exact d1.fun_sub d2
  · have e : dirD h th (polarPoint eta th r) - dirD h th eta = Real.cos th * (pd h 0 (polarPoint eta th r) - pd h 0 eta) +
        Real.sin th * (pd h 1 (polarPoint eta th r) - pd h 1 eta) := by unfold dirD; ring
    rw [e]
    refine (cs_bound (C := (C0 + C1) * r) (Real.abs_cos_le_one _) (Real.abs_sin_le_one _) ((h0 th r a b).trans ?_)
      ((h1 th r a b).trans ?_)).trans (le_of_eq (by ring))
    · nlinarith
    · nlinarith

/-- Third order remainder. -/
theorem ray_step3 {h : ℝ × ℝ → ℝ} (hh : ContDiff ℝ 3 h) (eta : ℝ × ℝ) :
    ∃ C, 0 ≤ C ∧ ∀ th r, 0 ≤ r → r ≤ 1 → |h (polarPoint eta th r) - h eta - dirD h th eta * r -
      (Real.cos th * dirD (pd h 0) th eta + Real.sin th * dirD (pd h 1) th eta) / 2 * r ^ 2| ≤ C * r ^ 3 := by
  have hp : ∀ j, ContDiff ℝ 2 (pd h j) := fun j => contDiff_pd (n := 2) (by exact_mod_cast hh) j
  obtain ⟨C0, p0, h0⟩ := ray_step2 (hp 0) eta
  obtain ⟨C1, p1, h1⟩ := ray_step2 (hp 1) eta
  refine ⟨2 * (C0 + C1), by linarith, ?_⟩
  refine deriv_step (G := fun th r => h (polarPoint eta th r) - h eta - dirD h th eta * r -
      (Real.cos th * dirD (pd h 0) th eta + Real.sin th * dirD (pd h 1) th eta) / 2 * r ^ 2)
    (G' := fun th r => dirD h th (polarPoint eta th r) - dirD h th eta -
      (Real.cos th * dirD (pd h 0) th eta + Real.sin th * dirD (pd h 1) th eta) * r)
    (C := 2 * (C0 + C1)) (k := 2) (fun th r => ?_) (fun th => by simp [polarPoint_zero]) (fun th r a b => ?_)
  · have d1 := (hasDerivAt_dirRay (hh.differentiable (by norm_num)) eta th r).sub_const (h eta)
    have d2 := (hasDerivAt_id' r).const_mul (dirD h th eta)
    have d3 := (hasDerivAt_pow 2 r).const_mul ((Real.cos th * dirD (pd h 0) th eta + Real.sin th * dirD (pd h 1) th eta) / 2)
    refine ((d1.fun_sub d2).fun_sub d3).congr_deriv ?_
    simp
    ring
  · have e : dirD h th (polarPoint eta th r) - dirD h th eta -
      (Real.cos th * dirD (pd h 0) th eta + Real.sin th * dirD (pd h 1) th eta) * r =
        Real.cos th * (pd h 0 (polarPoint eta th r) - pd h 0 eta - dirD (pd h 0) th eta * r) +
        Real.sin th * (pd h 1 (polarPoint eta th r) - pd h 1 eta - dirD (pd h 1) th eta * r) := by unfold dirD; ring
    rw [e]
    refine (cs_bound (C := (C0 + C1) * r ^ 2) (Real.abs_cos_le_one _) (Real.abs_sin_le_one _) ((h0 th r a b).trans ?_)
      ((h1 th r a b).trans ?_)).trans (le_of_eq (by ring))
    · nlinarith [sq_nonneg r]
    · nlinarith [sq_nonneg r]

theorem bdd_dirD (h : ℝ × ℝ → ℝ) (eta : ℝ × ℝ) : Bdd fun th => dirD h th eta :=
  (Bdd.cos.mul (Bdd.const _)).add (Bdd.sin.mul (Bdd.const _))

theorem tayU_ray {h : ℝ × ℝ → ℝ} (hh : ContDiff ℝ 2 h) (eta : ℝ × ℝ) :
    TayU (fun th r => h (polarPoint eta th r)) (fun _ => h eta)
      (fun th => pd h 0 eta * Real.cos th + pd h 1 eta * Real.sin th) := by
  have hb := bdd_dirD h eta
  refine ⟨Bdd.const _, hb.congr fun t => by unfold dirD; ring, ?_⟩
  obtain ⟨C, hC, hc⟩ := ray_step2 hh eta
  refine isBigO_LU.2 ⟨C, 1, one_pos, fun t r h0 h1 => ?_⟩
  have := hc t r h0.le h1.le
  rw [abs_of_nonneg (sq_nonneg r)]
  refine le_trans (le_of_eq ?_) this
  unfold dirD
  congr 1
  ring

theorem tayU_chord {h : ℝ × ℝ → ℝ} (hh : ContDiff ℝ 3 h) (eta : ℝ × ℝ) :
    TayU (fun th r => (h (polarPoint eta th r) - h eta) / r) (fun th => pd h 0 eta * Real.cos th + pd h 1 eta * Real.sin th)
      (fun th => pd (pd h 0) 0 eta * Real.cos th ^ 2 / 2 + pd (pd h 0) 1 eta * Real.cos th * Real.sin th +
        pd (pd h 1) 1 eta * Real.sin th ^ 2 / 2) := by
  have hb := bdd_dirD h eta
  have hb2 : Bdd fun th => (Real.cos th * dirD (pd h 0) th eta + Real.sin th * dirD (pd h 1) th eta) * (1 / 2) :=
    ((Bdd.cos.mul (bdd_dirD _ eta)).add (Bdd.sin.mul (bdd_dirD _ eta))).mul (Bdd.const _)
  have h2 : ContDiff ℝ 2 h := hh.of_le (by norm_num)
  have e : ∀ th, (Real.cos th * dirD (pd h 0) th eta + Real.sin th * dirD (pd h 1) th eta) * (1 / 2) =
      pd (pd h 0) 0 eta * Real.cos th ^ 2 / 2 + pd (pd h 0) 1 eta * Real.cos th * Real.sin th +
        pd (pd h 1) 1 eta * Real.sin th ^ 2 / 2 := by
    intro th
    unfold dirD
    rw [← pd_symm h2]
    ring
  refine ⟨hb.congr fun t => by unfold dirD; ring, hb2.congr e, ?_⟩
  obtain ⟨C, hC, hc⟩ := ray_step3 hh eta
  refine isBigO_LU.2 ⟨C, 1, one_pos, fun t r h0 h1 => ?_⟩
  have := hc t r h0.le h1.le
  rw [abs_of_nonneg (sq_nonneg r)]
  simp only
  rw [← e]
  have e2 : (h (polarPoint eta t r) - h eta) / r - (pd h 0 eta * Real.cos t + pd h 1 eta * Real.sin t +
      (Real.cos t * dirD (pd h 0) t eta + Real.sin t * dirD (pd h 1) t eta) * (1 / 2) * r) =
      (h (polarPoint eta t r) - h eta - dirD h t eta * r -
      (Real.cos t * dirD (pd h 0) t eta + Real.sin t * dirD (pd h 1) t eta) / 2 * r ^ 2) / r := by
    have : dirD h t eta = pd h 0 eta * Real.cos t + pd h 1 eta * Real.sin t := by unfold dirD; ring
    rw [this]
    field_simp
    ring
  rw [e2, abs_div, abs_of_pos h0, div_le_iff₀ h0]
  refine this.trans (le_of_eq (by ring))

/-! ## The coefficients -/

theorem qA_periodic (J : Jac) : Function.Periodic (qA J) (2 * Real.pi) := by
  intro th
  unfold qA coefA
  simp only [Real.cos_add_two_pi, Real.sin_add_two_pi]

theorem qA_continuous (J : Jac) : Continuous (qA J) := by
  unfold qA
  have : ∀ th, norm (coefA J th) = Real.sqrt (coefA J th 0 * coefA J th 0 + coefA J th 1 * coefA J th 1 +
      coefA J th 2 * coefA J th 2) := fun th => by rw [norm, sum_square3]
  simp only [this, coefA]
  fun_prop

theorem qA_lower {J : Jac} (h : etaJxn J ≠ 0) : ∃ m, 0 < m ∧ ∀ th, m ≤ qA J th := by
  obtain ⟨t, ht, hmin⟩ := isCompact_Icc.exists_isMinOn (Set.nonempty_Icc.2 (by positivity : (0 : ℝ) ≤ 2 * Real.pi))
    (qA_continuous J).continuousOn
  refine ⟨qA J t, norm_pos (coefA_ne_zero h t), fun th => ?_⟩
  obtain ⟨y, hy, he⟩ := (qA_periodic J).exists_mem_Ico₀ (by positivity) th
  rw [he]
  exact hmin ⟨hy.1, hy.2.le⟩

variable {x : Fin 3 → ℝ × ℝ → ℝ} (hx : ∀ i, ContDiff ℝ 3 (x i)) (eta : ℝ × ℝ)
include hx

theorem tayU_S (i : Fin 3) : TayU (fun th r => polarR x eta th r i / r) (fun th => coefA (jacAt x eta) th i)
    (fun th => coefB (jacGradAt x eta) th i) := tayU_chord (hx i) eta

theorem tayU_normal (i : Fin 3) : TayU (fun th r => normalVec x (polarPoint eta th r) i) (fun _ => etaJxn (jacAt x eta) i)
    (fun th => coefJk1 (jacAt x eta) (jacGradAt x eta) th i) := by
  have hp : ∀ i j, ContDiff ℝ 2 (pd (x i) j) := fun i j => contDiff_pd (n := 2) (by exact_mod_cast hx i) j
  have t : ∀ i j, TayU (fun th r => pd (x i) j (polarPoint eta th r)) (fun _ => jacAt x eta i j)
      (fun th => jacGradAt x eta i j 0 * Real.cos th + jacGradAt x eta i j 1 * Real.sin th) := fun i j => tayU_ray (hp i j) eta
  have e : ∀ i, (fun th r => normalVec x (polarPoint eta th r) i) = fun th r => etaJxn (jacAt x (polarPoint eta th r)) i := by
    intro i; funext th r; rw [etaJxn_eq]
  rw [e]
  fin_cases i
  · refine (((t 1 0).mul (t 2 1)).sub ((t 1 1).mul (t 2 0))).coef (fun th => by simp [etaJxn]) fun th => ?_
    simp [coefJk1, dEtaJxn]; ring
  · refine (((t 0 1).mul (t 2 0)).sub ((t 0 0).mul (t 2 1))).coef (fun th => by simp [etaJxn]) fun th => ?_
    simp [coefJk1, dEtaJxn]; ring
  · refine (((t 0 0).mul (t 1 1)).sub ((t 0 1).mul (t 1 0))).coef (fun th => by simp [etaJxn]) fun th => ?_
    simp [coefJk1, dEtaJxn]; ring

theorem tayU_dist (hreg : normalVec x eta ≠ 0) :
    TayU (fun th r => norm (polarR x eta th r) / r) (fun th => qA (jacAt x eta) th)
      (fun th => qC (jacAt x eta) (jacGradAt x eta) th / qA (jacAt x eta) th) := by
  have hJ : etaJxn (jacAt x eta) ≠ 0 := by rw [etaJxn_eq]; exact hreg
  obtain ⟨m, hm, hlow⟩ := qA_lower hJ
  have t0 := tayU_S hx eta 0
  have t1 := tayU_S hx eta 1
  have t2 := tayU_S hx eta 2
  have e : ∀ th, norm (coefA (jacAt x eta) th) = Real.sqrt (coefA (jacAt x eta) th 0 * coefA (jacAt x eta) th 0 +
      coefA (jacAt x eta) th 1 * coefA (jacAt x eta) th 1 + coefA (jacAt x eta) th 2 * coefA (jacAt x eta) th 2) := by
    intro th
    rw [norm, sum_square3]
  have h := (((t0.mul t0).add (t1.mul t1)).add (t2.mul t2)).sqrt (pow_pos hm 2) (fun th => by
    have h1 := hlow th
    unfold qA at h1
    rw [e] at h1
    exact (Real.le_sqrt' hm).1 h1)
  refine (h.congr' (fun th r hr => ?_)).coef (fun th => ?_) fun th => ?_
  · rw [norm_polarR eta th hr]; field_simp
  · rw [qA, e]
  · rw [← e]
    unfold qA qC sdot
    have := (norm_pos (coefA_ne_zero hJ th)).ne'
    field_simp
    ring

omit hx in
theorem subtract_isBigO_unif {f g : ℝ → ℝ → ℝ} {a b : ℝ → ℝ} (h : TayU g a b) (he : ∀ t, ∀ r > 0, f t r = g t r / r ^ 2) :
    ∃ C δ : ℝ, 0 < δ ∧ ∀ t r, 0 < r → r < δ → |f t r - a t / r ^ 2 - b t / r| ≤ C := by
  obtain ⟨C, δ, h0, h⟩ := isBigO_LU.1 h.2.2
  refine ⟨C, δ, h0, fun t r hr0 hr1 => ?_⟩
  have := h t r hr0 hr1
  rw [he t r hr0]
  have e : g t r / r ^ 2 - a t / r ^ 2 - b t / r = (g t r - (a t + b t * r)) / r ^ 2 := by field_simp; ring
  rw [e, abs_div, div_le_iff₀ (by positivity)]
  exact this

omit hx in
/-- The integrand with the area element, without divisions by the area element. -/
theorem vFun_area (R : Pt 3) (p : ℝ × ℝ) (N : ℝ) (i : Fin 3) :
    vFun R (unitNormal x p) N i * norm (normalVec x p) =
      -1 / norm R ^ 3 * (3 * (R i / norm R) * (sdot R (normalVec x p) / norm R) - normalVec x p i) * N := by
  have hn := unitNormal_mul (x := x) p
  unfold vFun
  have hd : sdot R (unitNormal x p) * norm (normalVec x p) = sdot R (normalVec x p) := by
    rw [sdot, sdot, ← hn 0, ← hn 1, ← hn 2]; ring
  rw [← hd]
  conv_rhs => rw [← hn i]
  ring

/-- C55 uniformly in the angle. -/
theorem vFun_unif (hreg : normalVec x eta ≠ 0) {N : ℝ × ℝ → ℝ} (hN : ContDiff ℝ 2 N) (i : Fin 3) :
    Bdd (fun th => vF2 (jacAt x eta) (N eta) th i) ∧
    Bdd (fun th => vF1 (jacAt x eta) (jacGradAt x eta) (N eta) (fun k => pd N k eta) th i) ∧
    ∃ C δ : ℝ, 0 < δ ∧ ∀ th rho, 0 < rho → rho < δ →
      |subtracted
        (vFun (polarR x eta th rho) (unitNormal x (polarPoint eta th rho)) (N (polarPoint eta th rho)))
        (vF2 (jacAt x eta) (N eta) th)
        (vF1 (jacAt x eta) (jacGradAt x eta) (N eta) (fun k => pd N k eta) th)
        rho (norm (normalVec x (polarPoint eta th rho))) i| ≤ C := by
  have hJ : etaJxn (jacAt x eta) ≠ 0 := by rw [etaJxn_eq]; exact hreg
  obtain ⟨m, hm, hlow⟩ := qA_lower hJ
  have ha : ∀ th, qA (jacAt x eta) th ≠ 0 := fun th => (hm.trans_le (hlow th)).ne'
  have tu := (tayU_dist hx eta hreg).inv hm hlow
  have tS := tayU_S hx eta
  have tn := tayU_normal hx eta
  have tN := tayU_ray hN eta
  have tdot : TayU (fun th r => polarR x eta th r 0 / r * normalVec x (polarPoint eta th r) 0 +
      polarR x eta th r 1 / r * normalVec x (polarPoint eta th r) 1 +
      polarR x eta th r 2 / r * normalVec x (polarPoint eta th r) 2) (fun _ => 0)
      (fun th => sdot (etaJxn (jacAt x eta)) (coefB (jacGradAt x eta) th) +
        sdot (coefJk1 (jacAt x eta) (jacGradAt x eta) th) (coefA (jacAt x eta) th)) := by
    refine ((((tS 0).mul (tn 0)).add ((tS 1).mul (tn 1))).add ((tS 2).mul (tn 2))).coef
      (fun th => tangent_dot (jacAt x eta) th) fun th => ?_
    unfold sdot; ring
  have tg := ((((tu.mul tu).mul tu).neg).mul (((((TayU.const 3).mul (tS i)).mul tdot).mul (tu.mul tu)).sub (tn i))).mul tN
  have tg' := tg.coef (a' := fun th => vF2 (jacAt x eta) (N eta) th i)
    (b' := fun th => vF1 (jacAt x eta) (jacGradAt x eta) (N eta) (fun k => pd N k eta) th i) ?_ ?_
  · refine ⟨tg'.1, tg'.2.1, ?_⟩
    unfold subtracted
    refine subtract_isBigO_unif tg' (fun th r hr => ?_)
    have e : ∀ v A : ℝ, v * r * A = v * A * r := fun v A => by ring
    rw [e, vFun_area]
    have hd : sdot (polarR x eta th r) (normalVec x (polarPoint eta th r)) =
        r * (polarR x eta th r 0 / r * normalVec x (polarPoint eta th r) 0 +
      polarR x eta th r 1 / r * normalVec x (polarPoint eta th r) 1 +
      polarR x eta th r 2 / r * normalVec x (polarPoint eta th r) 2) := by
      unfold sdot; field_simp
    rw [hd]
    generalize polarR x eta th r 0 / r * normalVec x (polarPoint eta th r) 0 +
      polarR x eta th r 1 / r * normalVec x (polarPoint eta th r) 1 +
      polarR x eta th r 2 / r * normalVec x (polarPoint eta th r) 2 = d
    have hr' : r ≠ 0 := ne_of_gt hr
    rw [inv_div]
    generalize norm (polarR x eta th r) = l
    field_simp
  · intro th
    have := ha th
    simp only [vF2]
    field_simp
    ring
  · intro th
    have := ha th
    simp only [vF1, coefN1]
    generalize sdot (etaJxn (jacAt x eta)) (coefB (jacGradAt x eta) th) +
        sdot (coefJk1 (jacAt x eta) (jacGradAt x eta) th) (coefA (jacAt x eta) th) = m
    field_simp
    ring

/-- C55 for the strongly singular integrals, uniformly in the angle. -/
theorem wFun_unif (hreg : normalVec x eta ≠ 0) {N : ℝ × ℝ → ℝ} (hN : ContDiff ℝ 2 N) (i : Fin 3) :
    Bdd (fun th => wF1 (jacAt x eta) (N eta) th i) ∧
    ∃ C δ : ℝ, 0 < δ ∧ ∀ th rho, 0 < rho → rho < δ →
      |subtracted (wFun (polarR x eta th rho) (N (polarPoint eta th rho))) 0 (wF1 (jacAt x eta) (N eta) th)
        rho (norm (normalVec x (polarPoint eta th rho))) i| ≤ C := by
  have hJ : etaJxn (jacAt x eta) ≠ 0 := by rw [etaJxn_eq]; exact hreg
  obtain ⟨m, hm, hlow⟩ := qA_lower hJ
  have ha : ∀ th, qA (jacAt x eta) th ≠ 0 := fun th => (hm.trans_le (hlow th)).ne'
  have tu := (tayU_dist hx eta hreg).inv hm hlow
  have tS := tayU_S hx eta
  have tn := tayU_normal hx eta
  have tN := tayU_ray hN eta
  have tJ : ∃ b, TayU (fun th r => norm (normalVec x (polarPoint eta th r))) (fun _ => norm (etaJxn (jacAt x eta))) b := by
    have hpos : 0 < square (etaJxn (jacAt x eta)) := square_pos hJ
    rw [sum_square3] at hpos
    have h := ((((tn 0).mul (tn 0)).add ((tn 1).mul (tn 1))).add ((tn 2).mul (tn 2))).sqrt hpos (fun _ => le_rfl)
    refine ⟨_, (h.congr' (fun th r _ => ?_)).coef (fun th => ?_) fun _ => rfl⟩
    · rw [norm, sum_square3]
    · rw [norm, sum_square3]
  obtain ⟨b, tJ⟩ := tJ
  have tg := TayU.id.mul (((((tu.mul tu).mul tu).mul (tS i)).mul tN).mul tJ)
  have tg' := tg.coef (a' := fun _ => (0 : Pt 3) i) (b' := fun th => wF1 (jacAt x eta) (N eta) th i) (fun th => by simp) ?_
  · refine ⟨tg'.2.1, ?_⟩
    unfold subtracted
    refine subtract_isBigO_unif tg' (fun th r hr => ?_)
    unfold wFun
    have hr' : r ≠ 0 := ne_of_gt hr
    rw [inv_div]
    generalize norm (polarR x eta th r) = l
    field_simp
  · intro th
    have := ha th
    simp only [wF1]
    field_simp
    ring

end PiBem.Kernel
