import Verif.Kernel.Polar
import Mathlib.Tactic.FinCases
import Mathlib.Tactic.Linarith
import Mathlib.Tactic.FieldSimp

/-!
# C43: polar subdivision of the reference cell

Specification: the unit square, its four edges (deal.II numbering: `x = 0`, `x = 1`, `y = 0`, `y = 1`).
-/

namespace PiBem.Kernel

open Real

/-! ## Specification -/

/-- The reference cell. -/
def InCell (p : P2) : Prop := 0 ≤ p.1 ∧ p.1 ≤ 1 ∧ 0 ≤ p.2 ∧ p.2 ≤ 1

/-- `p` is on the edge `f` of the reference cell. -/
def OnEdge (p : P2) (f : Fin 4) : Prop :=
  InCell p ∧ match f with
    | 0 => p.1 = 0
    | 1 => p.1 = 1
    | 2 => p.2 = 0
    | 3 => p.2 = 1

/-- End points of the edge `f`, in the order in which the boundary is run counterclockwise. -/
def edgeStart (f : Fin 4) : P2 :=
  match f with
  | 0 => (0, 1)
  | 1 => (1, 0)
  | 2 => (0, 0)
  | 3 => (1, 1)

def edgeEnd (f : Fin 4) : P2 :=
  match f with
  | 0 => (0, 0)
  | 1 => (1, 1)
  | 2 => (1, 0)
  | 3 => (0, 1)

/-! ## Angles -/

def cross (u v : P2) : ℝ := u.1 * v.2 - u.2 * v.1

noncomputable def len (u : P2) : ℝ := Real.sqrt (u.1 * u.1 + u.2 * u.2)

theorem len_pos {u : P2} (h : u ≠ (0, 0)) : 0 < len u := by
  apply Real.sqrt_pos.2
  rcases lt_or_eq_of_le (add_nonneg (mul_self_nonneg u.1) (mul_self_nonneg u.2)) with h0 | h0
  · exact h0
  · exfalso
    have h1 : u.1 * u.1 = 0 := by linarith [mul_self_nonneg u.1, mul_self_nonneg u.2]
    have h2 : u.2 * u.2 = 0 := by linarith [mul_self_nonneg u.1, mul_self_nonneg u.2]
    exact h (Prod.ext (mul_self_eq_zero.1 h1) (mul_self_eq_zero.1 h2))

theorem polar_arg (u : P2) (h : u ≠ (0, 0)) :
    u.1 = len u * Real.cos (Complex.arg ⟨u.1, u.2⟩) ∧ u.2 = len u * Real.sin (Complex.arg ⟨u.1, u.2⟩) := by
  have hz : (⟨u.1, u.2⟩ : ℂ) ≠ 0 := by
    intro h0
    apply h
    have h1 := congrArg Complex.re h0
    have h2 := congrArg Complex.im h0
    exact Prod.ext h1 h2
  have hl : ‖(⟨u.1, u.2⟩ : ℂ)‖ = len u := by
    rw [Complex.norm_def, Complex.normSq_mk]; rfl
  constructor
  · rw [Complex.cos_arg hz, hl]
    have := (len_pos h).ne'
    field_simp
  · rw [Complex.sin_arg, hl]
    have := (len_pos h).ne'
    field_simp

theorem angle_spec (u : P2) (h : u ≠ (0, 0)) :
    0 ≤ angle u ∧ angle u < 2 * π ∧ u.1 = len u * Real.cos (angle u) ∧ u.2 = len u * Real.sin (angle u) := by
  obtain ⟨h1, h2⟩ := polar_arg u h
  have a1 := Complex.neg_pi_lt_arg ⟨u.1, u.2⟩
  have a2 := Complex.arg_le_pi ⟨u.1, u.2⟩
  have hp := Real.pi_pos
  unfold angle
  dsimp only
  split_ifs with h3
  · exact ⟨by linarith, by linarith, by rwa [Real.cos_add_two_pi], by rwa [Real.sin_add_two_pi]⟩
  · exact ⟨by linarith, by linarith, h1, h2⟩

theorem csi_cross {eta : P2} (he : InCell eta) {f : Fin 4} (h : ¬ skipped eta f) :
    0 < cross (csi0 eta f) (csi1 eta f) := by
  obtain ⟨h1, h2, h3, h4⟩ := he
  fin_cases f
  · have : eta.1 ≠ 0 := by
      intro h0; apply h; left; simp [csi0, csi1, h0]
    have : 0 < eta.1 := lt_of_le_of_ne h1 (Ne.symm this)
    simp only [cross, csi0, csi1]; nlinarith
  · have : eta.1 ≠ 1 := by
      intro h0; apply h; left; simp [csi0, csi1, h0]
    have : eta.1 < 1 := lt_of_le_of_ne h2 this
    simp only [cross, csi0, csi1]; nlinarith
  · have : eta.2 ≠ 0 := by
      intro h0; apply h; right; simp [csi0, csi1, h0]
    have : 0 < eta.2 := lt_of_le_of_ne h3 (Ne.symm this)
    simp only [cross, csi0, csi1]; nlinarith
  · have : eta.2 ≠ 1 := by
      intro h0; apply h; right; simp [csi0, csi1, h0]
    have : eta.2 < 1 := lt_of_le_of_ne h4 this
    simp only [cross, csi0, csi1]; nlinarith

theorem ne_zero_of_cross {u v : P2} (h : cross u v ≠ 0) : u ≠ (0, 0) ∧ v ≠ (0, 0) := by
  constructor <;> (intro h0; apply h; simp [cross, h0])

/-- The two angles of a face: representation of the end points, orientation and width. -/
theorem theta_spec {eta : P2} (he : InCell eta) {f : Fin 4} (h : ¬ skipped eta f) :
    theta0 eta f < theta1 eta f ∧ theta1 eta f - theta0 eta f < π ∧
    (csi0 eta f).1 = len (csi0 eta f) * Real.cos (theta0 eta f) ∧
    (csi0 eta f).2 = len (csi0 eta f) * Real.sin (theta0 eta f) ∧
    (csi1 eta f).1 = len (csi1 eta f) * Real.cos (theta1 eta f) ∧
    (csi1 eta f).2 = len (csi1 eta f) * Real.sin (theta1 eta f) := by
  have hc := csi_cross he h
  obtain ⟨n0, n1⟩ := ne_zero_of_cross hc.ne'
  obtain ⟨a1, a2, a3, a4⟩ := angle_spec _ n0
  obtain ⟨b1, b2, b3, b4⟩ := angle_spec _ n1
  have l0 := len_pos n0
  have l1 := len_pos n1
  have hp := Real.pi_pos
  have hsin : 0 < Real.sin (angle (csi1 eta f) - angle (csi0 eta f)) := by
    rw [Real.sin_sub]
    have hc' := hc
    unfold cross at hc'
    rw [a3, a4, b3, b4] at hc'
    have : 0 < (len (csi0 eta f) * len (csi1 eta f)) *
        (Real.sin (angle (csi1 eta f)) * Real.cos (angle (csi0 eta f)) -
          Real.cos (angle (csi1 eta f)) * Real.sin (angle (csi0 eta f))) := by
      calc _ < _ := hc'
        _ = _ := by ring
    exact (pos_iff_pos_of_mul_pos this).1 (mul_pos l0 l1)
  have main : ∀ d, 0 ≤ d → d < 2 * π → 0 < Real.sin d → 0 < d ∧ d < π := by
    intro d d0 d1 d2
    refine ⟨lt_of_le_of_ne d0 (fun h => by rw [← h] at d2; simp at d2), ?_⟩
    by_contra h
    push Not at h
    have h3 : 0 ≤ Real.sin (d - π) := Real.sin_nonneg_of_nonneg_of_le_pi (by linarith) (by linarith)
    rw [Real.sin_sub_pi] at h3
    linarith
  unfold theta0
  dsimp only
  split_ifs with hlt
  · have hlt' : angle (csi1 eta f) < angle (csi0 eta f) := hlt
    have := main (angle (csi1 eta f) - angle (csi0 eta f) + 2 * π) (by linarith) (by linarith)
      (by rwa [Real.sin_add_two_pi])
    refine ⟨?_, ?_, ?_, ?_, b3, b4⟩
    · unfold theta1; linarith [this.1]
    · unfold theta1; linarith [this.2]
    · rw [Real.cos_sub_two_pi]; exact a3
    · rw [Real.sin_sub_two_pi]; exact a4
  · have hle : angle (csi0 eta f) ≤ angle (csi1 eta f) := not_lt.1 hlt
    have := main (angle (csi1 eta f) - angle (csi0 eta f)) (by linarith) (by linarith) hsin
    exact ⟨by unfold theta1; linarith [this.1], by unfold theta1; linarith [this.2], a3, a4, b3, b4⟩

/-- A direction between the two angles is a combination of the two end points. -/
theorem direction_cone {eta : P2} (he : InCell eta) {f : Fin 4} (h : ¬ skipped eta f) {th : ℝ}
    (h0 : theta0 eta f ≤ th) (h1 : th ≤ theta1 eta f) :
    ∃ a b : ℝ, 0 ≤ a ∧ 0 ≤ b ∧ 0 < a + b ∧
      (theta0 eta f < th → 0 < b) ∧ (th < theta1 eta f → 0 < a) ∧
      Real.cos th = a * (csi0 eta f).1 + b * (csi1 eta f).1 ∧
      Real.sin th = a * (csi0 eta f).2 + b * (csi1 eta f).2 := by
  obtain ⟨t1, t2, a3, a4, b3, b4⟩ := theta_spec he h
  obtain ⟨n0, n1⟩ := ne_zero_of_cross (csi_cross he h).ne'
  have l0 := len_pos n0
  have l1 := len_pos n1
  set t0 := theta0 eta f
  set t1' := theta1 eta f
  set u := csi0 eta f
  set v := csi1 eta f
  have hd : 0 < Real.sin (t1' - t0) := Real.sin_pos_of_pos_of_lt_pi (by linarith) t2
  have hs1 : 0 ≤ Real.sin (t1' - th) := Real.sin_nonneg_of_nonneg_of_le_pi (by linarith) (by linarith)
  have hs0 : 0 ≤ Real.sin (th - t0) := Real.sin_nonneg_of_nonneg_of_le_pi (by linarith) (by linarith)
  have p1 : th < t1' → 0 < Real.sin (t1' - th) := fun h => Real.sin_pos_of_pos_of_lt_pi (by linarith) (by linarith)
  have p0 : t0 < th → 0 < Real.sin (th - t0) := fun h => Real.sin_pos_of_pos_of_lt_pi (by linarith) (by linarith)
  have pa : th < t1' → 0 < Real.sin (t1' - th) / (Real.sin (t1' - t0) * len u) :=
    fun h => div_pos (p1 h) (mul_pos hd l0)
  have pb : t0 < th → 0 < Real.sin (th - t0) / (Real.sin (t1' - t0) * len v) :=
    fun h => div_pos (p0 h) (mul_pos hd l1)
  have na : 0 ≤ Real.sin (t1' - th) / (Real.sin (t1' - t0) * len u) := div_nonneg hs1 (mul_pos hd l0).le
  have nb : 0 ≤ Real.sin (th - t0) / (Real.sin (t1' - t0) * len v) := div_nonneg hs0 (mul_pos hd l1).le
  refine ⟨Real.sin (t1' - th) / (Real.sin (t1' - t0) * len u), Real.sin (th - t0) / (Real.sin (t1' - t0) * len v),
    na, nb, ?_, pb, pa, ?_, ?_⟩
  · rcases lt_or_ge t0 th with h | h
    · linarith [pb h]
    · linarith [pa (by linarith)]
  · rw [a3, b3]
    have e : Real.cos th * Real.sin (t1' - t0) =
        Real.sin (t1' - th) * Real.cos t0 + Real.sin (th - t0) * Real.cos t1' := by
      simp only [Real.sin_sub]; ring
    field_simp
    linarith
  · rw [a4, b4]
    have e : Real.sin th * Real.sin (t1' - t0) =
        Real.sin (t1' - th) * Real.sin t0 + Real.sin (th - t0) * Real.sin t1' := by
      simp only [Real.sin_sub]; ring
    field_simp
    linarith

theorem csi0_eq (eta : P2) (f : Fin 4) : csi0 eta f = ((edgeStart f).1 - eta.1, (edgeStart f).2 - eta.2) := by
  fin_cases f <;> rfl

theorem csi1_eq (eta : P2) (f : Fin 4) : csi1 eta f = ((edgeEnd f).1 - eta.1, (edgeEnd f).2 - eta.2) := by
  fin_cases f <;> rfl

/-- Component of a vector normal to the face `f`. -/
def normalComp (f : Fin 4) (u : P2) : ℝ := if f.val < 2 then u.1 else u.2

theorem face_normal (eta : P2) (f : Fin 4) :
    normalComp f (csi0 eta f) = faceCoeff eta f ∧ normalComp f (csi1 eta f) = faceCoeff eta f := by
  fin_cases f <;> simp [normalComp, faceCoeff, csi0, csi1]

theorem faceCoeff_ne {eta : P2} (he : InCell eta) {f : Fin 4} (h : ¬ skipped eta f) : faceCoeff eta f ≠ 0 := by
  have hx := csi_cross he h
  intro h0
  fin_cases f
  all_goals
    simp [faceCoeff, csi0, csi1, cross] at hx h0
    nlinarith

theorem qRho_den (eta : P2) (f : Fin 4) (th : ℝ) :
    qRho eta f th = faceCoeff eta f / normalComp f (Real.cos th, Real.sin th) := by
  unfold qRho normalComp
  split_ifs <;> simp

theorem normalComp_comb (f : Fin 4) (a b : ℝ) (u v : P2) :
    normalComp f (a * u.1 + b * v.1, a * u.2 + b * v.2) = a * normalComp f u + b * normalComp f v := by
  unfold normalComp; split_ifs <;> rfl

/-- The radius, relative to the combination of `direction_cone`. -/
theorem qRho_eq {eta : P2} (he : InCell eta) {f : Fin 4} (h : ¬ skipped eta f) {th a b : ℝ} (hab : 0 < a + b)
    (hc : Real.cos th = a * (csi0 eta f).1 + b * (csi1 eta f).1)
    (hs : Real.sin th = a * (csi0 eta f).2 + b * (csi1 eta f).2) :
    qRho eta f th = 1 / (a + b) := by
  have hk := faceCoeff_ne he h
  rw [qRho_den, hc, hs, normalComp_comb, (face_normal eta f).1, (face_normal eta f).2]
  field_simp

/-- Distance from the edge `f`. -/
def dist (f : Fin 4) (p : P2) : ℝ :=
  match f with
  | 0 => p.1
  | 1 => 1 - p.1
  | 2 => p.2
  | 3 => 1 - p.2

theorem dist_nonneg {p : P2} (h : InCell p) (f : Fin 4) : 0 ≤ dist f p := by
  obtain ⟨h1, h2, h3, h4⟩ := h
  fin_cases f <;> simp [dist] <;> linarith

theorem inCell_of_dist {p : P2} (h : ∀ f, 0 ≤ dist f p) : InCell p := by
  have h0 := h 0
  have h1 := h 1
  have h2 := h 2
  have h3 := h 3
  simp only [dist] at h0 h1 h2 h3
  exact ⟨by linarith, by linarith, by linarith, by linarith⟩

theorem dist_comb (f : Fin 4) (a b : ℝ) (hab : a + b = 1) (u v : P2) :
    dist f (a * u.1 + b * v.1, a * u.2 + b * v.2) = a * dist f u + b * dist f v := by
  have : b = 1 - a := by linarith
  subst this
  fin_cases f <;> simp [dist] <;> ring

theorem onEdge_iff (p : P2) (f : Fin 4) : OnEdge p f ↔ InCell p ∧ dist f p = 0 := by
  unfold OnEdge
  fin_cases f <;> simp [dist] <;> intro _ <;> constructor <;> intro h <;> linarith

theorem dist_edge (f : Fin 4) : dist f (edgeStart f) = 0 ∧ dist f (edgeEnd f) = 0 := by
  fin_cases f <;> simp [dist, edgeStart, edgeEnd]

theorem dist_edge_nonneg (f g : Fin 4) : 0 ≤ dist g (edgeStart f) ∧ 0 ≤ dist g (edgeEnd f) := by
  fin_cases f <;> fin_cases g <;> simp [dist, edgeStart, edgeEnd]

theorem dist_edge_pos (f g : Fin 4) (h : f ≠ g) : 0 < dist g (edgeStart f) + dist g (edgeEnd f) := by
  fin_cases f <;> fin_cases g <;> simp [dist, edgeStart, edgeEnd] at h ⊢

/-- The outer point is a convex combination of the end points of the face. -/
theorem outer_comb {eta : P2} (he : InCell eta) {f : Fin 4} (h : ¬ skipped eta f) {th a b : ℝ} (hab : 0 < a + b)
    (hc : Real.cos th = a * (csi0 eta f).1 + b * (csi1 eta f).1)
    (hs : Real.sin th = a * (csi0 eta f).2 + b * (csi1 eta f).2) :
    outerPoint eta f th = (a / (a + b) * (edgeStart f).1 + b / (a + b) * (edgeEnd f).1,
      a / (a + b) * (edgeStart f).2 + b / (a + b) * (edgeEnd f).2) := by
  unfold outerPoint
  rw [qRho_eq he h hab hc hs, hc, hs, csi0_eq, csi1_eq]
  refine Prod.ext ?_ ?_
  · simp only; field_simp; ring
  · simp only; field_simp; ring

/-- An inner point lies on the segment between the singular point and the outer point. -/
theorem inner_comb (eta : P2) (f : Fin 4) (th t : ℝ) :
    innerPoint eta f th t = ((1 - t) * eta.1 + t * (outerPoint eta f th).1,
      (1 - t) * eta.2 + t * (outerPoint eta f th).2) := by
  unfold innerPoint outerPoint
  refine Prod.ext ?_ ?_ <;> simp only <;> ring

theorem outer_dist {eta : P2} (he : InCell eta) {f : Fin 4} (h : ¬ skipped eta f) {th : ℝ}
    (h0 : theta0 eta f ≤ th) (h1 : th ≤ theta1 eta f) :
    0 < qRho eta f th ∧ dist f (outerPoint eta f th) = 0 ∧ (∀ g, 0 ≤ dist g (outerPoint eta f th)) ∧
      (theta0 eta f < th → th < theta1 eta f → ∀ g, f ≠ g → 0 < dist g (outerPoint eta f th)) := by
  obtain ⟨a, b, ha, hb, hab, hb', ha', hc, hs⟩ := direction_cone he h h0 h1
  have hsum : a / (a + b) + b / (a + b) = 1 := by field_simp
  have pa : 0 ≤ a / (a + b) := by positivity
  have pb : 0 ≤ b / (a + b) := by positivity
  rw [qRho_eq he h hab hc hs, outer_comb he h hab hc hs]
  refine ⟨by positivity, ?_, fun g => ?_, fun g0 g1 g hg => ?_⟩
  · rw [dist_comb f _ _ hsum, (dist_edge f).1, (dist_edge f).2]; ring
  · rw [dist_comb g _ _ hsum]
    have := dist_edge_nonneg f g
    exact add_nonneg (mul_nonneg pa this.1) (mul_nonneg pb this.2)
  · rw [dist_comb g _ _ hsum]
    have h1 := dist_edge_nonneg f g
    have h2 := dist_edge_pos f g hg
    have qa : 0 < a / (a + b) := div_pos (ha' g1) hab
    have qb : 0 < b / (a + b) := div_pos (hb' g0) hab
    rcases lt_or_eq_of_le h1.1 with h3 | h3
    · exact add_pos_of_pos_of_nonneg (mul_pos qa h3) (mul_nonneg pb h1.2)
    · rw [← h3] at h2 ⊢
      simp only [zero_add] at h2
      simp only [mul_zero, zero_add]
      exact mul_pos qb h2

/-- A vector in the cone of the face has its angle between the two angles of the face. -/
theorem angle_of_cone {eta : P2} (he : InCell eta) {f : Fin 4} (h : ¬ skipped eta f) {w : P2} (hw : w ≠ (0, 0))
    (c0 : 0 ≤ cross (csi0 eta f) w) (c1 : 0 ≤ cross w (csi1 eta f)) :
    ∃ th, theta0 eta f ≤ th ∧ th ≤ theta1 eta f ∧ w.1 = len w * Real.cos th ∧ w.2 = len w * Real.sin th := by
  obtain ⟨t1, t2, a3, a4, b3, b4⟩ := theta_spec he h
  obtain ⟨n0, n1⟩ := ne_zero_of_cross (csi_cross he h).ne'
  have l0 := len_pos n0
  have l1 := len_pos n1
  have lw := len_pos hw
  obtain ⟨-, -, w1, w2⟩ := angle_spec w hw
  have hp := Real.pi_pos
  set t0 := theta0 eta f
  set t1' := theta1 eta f
  -- move the angle of `w` to `[t0, t0 + 2π)`
  obtain ⟨n, ⟨hn1, hn2⟩, -⟩ := existsUnique_add_zsmul_mem_Ico (show (0 : ℝ) < 2 * π by linarith) (angle w) t0
  set th := angle w + n • (2 * π) with hth
  have e1 : w.1 = len w * Real.cos th := by
    rw [hth, zsmul_eq_mul, Real.cos_add_int_mul_two_pi]; exact w1
  have e2 : w.2 = len w * Real.sin th := by
    rw [hth, zsmul_eq_mul, Real.sin_add_int_mul_two_pi]; exact w2
  refine ⟨th, hn1, ?_, e1, e2⟩
  have s0 : 0 ≤ Real.sin (th - t0) := by
    rw [Real.sin_sub]
    unfold cross at c0
    rw [a3, a4, e1, e2] at c0
    have : 0 ≤ (len (csi0 eta f) * len w) * (Real.sin th * Real.cos t0 - Real.cos th * Real.sin t0) := by
      calc _ ≤ _ := c0
        _ = _ := by ring
    exact nonneg_of_mul_nonneg_right this (mul_pos l0 lw)
  have s1 : 0 ≤ Real.sin (t1' - th) := by
    rw [Real.sin_sub]
    unfold cross at c1
    rw [b3, b4, e1, e2] at c1
    have : 0 ≤ (len (csi1 eta f) * len w) * (Real.sin t1' * Real.cos th - Real.cos t1' * Real.sin th) := by
      calc _ ≤ _ := c1
        _ = _ := by ring
    exact nonneg_of_mul_nonneg_right this (mul_pos l1 lw)
  have hle : th - t0 ≤ π := by
    by_contra hc
    push Not at hc
    have := Real.sin_neg_of_neg_of_neg_pi_lt (x := th - t0 - 2 * π) (by linarith) (by linarith)
    rw [Real.sin_sub_two_pi] at this
    linarith
  by_contra hc
  push Not at hc
  have := Real.sin_neg_of_neg_of_neg_pi_lt (x := t1' - th) (by linarith) (by linarith)
  linarith

/-- Every direction pointing to the cell is in the cone of a face that is used. -/
theorem exists_face {eta p : P2} (he : InCell eta) (hp : InCell p) (hne : p ≠ eta) :
    ∃ f, ¬ OnEdge eta f ∧ 0 ≤ cross (csi0 eta f) (p.1 - eta.1, p.2 - eta.2) ∧
      0 ≤ cross (p.1 - eta.1, p.2 - eta.2) (csi1 eta f) := by
  obtain ⟨e1, e2, e3, e4⟩ := he
  obtain ⟨p1, p2, p3, p4⟩ := hp
  have hdist : ∀ f, 0 < dist f eta → ¬ OnEdge eta f := by
    intro f h0 h1
    rw [onEdge_iff] at h1
    linarith [h1.2]
  generalize hx : p.1 - eta.1 = x
  generalize hy : p.2 - eta.2 = y
  have hxy : x ≠ 0 ∨ y ≠ 0 := by
    by_contra hc
    push Not at hc
    exact hne (Prod.ext (by linarith [hc.1]) (by linarith [hc.2]))
  rcases le_or_gt 0 x with sx | sx <;> rcases le_or_gt 0 y with sy | sy
  · -- first quadrant
    rcases le_or_gt (y * (1 - eta.1)) (x * (1 - eta.2)) with hc | hc
    · by_cases h1 : eta.1 = 1
      · -- x = 0, y > 0
        have : 0 < y := lt_of_le_of_ne sy (fun h => by
          rcases hxy with h2 | h2
          · exact h2 (by linarith)
          · exact h2 h.symm)
        refine ⟨3, hdist 3 (by simp only [dist]; linarith), ?_, ?_⟩ <;> simp only [cross, csi0, csi1] <;> nlinarith
      · have h1' : eta.1 < 1 := lt_of_le_of_ne e2 h1
        refine ⟨1, hdist 1 (by simp only [dist]; linarith), ?_, ?_⟩ <;> simp only [cross, csi0, csi1] <;> nlinarith
    · have : 0 < y := by
        rcases lt_or_eq_of_le sy with h | h
        · exact h
        · rw [← h] at hc; nlinarith
      refine ⟨3, hdist 3 (by simp only [dist]; linarith), ?_, ?_⟩ <;> simp only [cross, csi0, csi1] <;> nlinarith
  · -- fourth quadrant
    have hey : 0 < eta.2 := by linarith
    rcases le_or_gt (-y * (1 - eta.1)) (x * eta.2) with hc | hc
    · by_cases h1 : eta.1 = 1
      · refine ⟨2, hdist 2 (by simp only [dist]; linarith), ?_, ?_⟩ <;> simp only [cross, csi0, csi1] <;> nlinarith
      · have h1' : eta.1 < 1 := lt_of_le_of_ne e2 h1
        refine ⟨1, hdist 1 (by simp only [dist]; linarith), ?_, ?_⟩ <;> simp only [cross, csi0, csi1] <;> nlinarith
    · refine ⟨2, hdist 2 (by simp only [dist]; linarith), ?_, ?_⟩ <;> simp only [cross, csi0, csi1] <;> nlinarith
  · -- second quadrant
    have hex : 0 < eta.1 := by linarith
    rcases le_or_gt (y * eta.1) (-x * (1 - eta.2)) with hc | hc
    · refine ⟨0, hdist 0 (by simp only [dist]; linarith), ?_, ?_⟩ <;> simp only [cross, csi0, csi1] <;> nlinarith
    · have : 0 < y := by
        rcases lt_or_eq_of_le sy with h | h
        · exact h
        · rw [← h] at hc; nlinarith
      refine ⟨3, hdist 3 (by simp only [dist]; linarith), ?_, ?_⟩ <;> simp only [cross, csi0, csi1] <;> nlinarith
  · -- third quadrant
    have hex : 0 < eta.1 := by linarith
    have hey : 0 < eta.2 := by linarith
    rcases le_or_gt (-y * eta.1) (-x * eta.2) with hc | hc
    · refine ⟨0, hdist 0 (by simp only [dist]; linarith), ?_, ?_⟩ <;> simp only [cross, csi0, csi1] <;> nlinarith
    · refine ⟨2, hdist 2 (by simp only [dist]; linarith), ?_, ?_⟩ <;> simp only [cross, csi0, csi1] <;> nlinarith

/-! ## Theorems -/

/-- **C43**, which faces are used: those not containing the singular point. -/
theorem C43_skipped_faces (eta : P2) (he : InCell eta) (f : Fin 4) : skipped eta f ↔ OnEdge eta f := by
  unfold OnEdge skipped
  fin_cases f
  · simp [csi0, csi1, he]
    intro h1 h2; linarith
  · simp [csi0, csi1, he, sub_eq_zero]
    constructor
    · rintro (h | ⟨h1, h2⟩)
      · exact h.symm
      · rw [h1] at h2; norm_num at h2
    · intro h; left; exact h.symm
  · simp [csi0, csi1, he]
    intro h1 h2; linarith
  · simp [csi0, csi1, he, sub_eq_zero]
    constructor
    · rintro (⟨h1, h2⟩ | h)
      · rw [h2] at h1; norm_num at h1
      · exact h.symm
    · intro h; right; exact h.symm

/-- **C43**, orientation and range. For every singular point of the cell and every face used: the angles grow and span
less than `π`; for every angle between them the radius is positive, the outer point is on the face, all inner points
(`0 ≤ t ≤ 1`) are in the cell; the extreme angles give the two end points of the face. -/
theorem C43_polar_points (eta : P2) (he : InCell eta) (f : Fin 4) (hf : ¬ skipped eta f) :
    theta0 eta f < theta1 eta f ∧ theta1 eta f < theta0 eta f + π ∧
    (∀ th, theta0 eta f ≤ th → th ≤ theta1 eta f →
      0 < qRho eta f th ∧ OnEdge (outerPoint eta f th) f ∧
      ∀ t, 0 ≤ t → t ≤ 1 → InCell (innerPoint eta f th t)) ∧
    outerPoint eta f (theta0 eta f) = edgeStart f ∧ outerPoint eta f (theta1 eta f) = edgeEnd f := by
  obtain ⟨t1, t2, a3, a4, b3, b4⟩ := theta_spec he hf
  obtain ⟨n0, n1⟩ := ne_zero_of_cross (csi_cross he hf).ne'
  have l0 := len_pos n0
  have l1 := len_pos n1
  refine ⟨t1, by linarith, fun th h0 h1 => ?_, ?_, ?_⟩
  · obtain ⟨q, d0, dn, -⟩ := outer_dist he hf h0 h1
    refine ⟨q, (onEdge_iff _ _).2 ⟨inCell_of_dist dn, d0⟩, fun t ht0 ht1 => inCell_of_dist fun g => ?_⟩
    rw [inner_comb, dist_comb g _ _ (by ring)]
    exact add_nonneg (mul_nonneg (by linarith) (dist_nonneg he g)) (mul_nonneg ht0 (dn g))
  · rw [outer_comb he hf (a := 1 / len (csi0 eta f)) (b := 0) (by positivity)]
    · refine Prod.ext ?_ ?_ <;> simp <;> field_simp
    · rw [a3]; field_simp; simp
    · rw [a4]; field_simp; simp
  · rw [outer_comb he hf (a := 0) (b := 1 / len (csi1 eta f)) (by positivity)]
    · refine Prod.ext ?_ ?_ <;> simp <;> field_simp
    · rw [b3]; field_simp; simp
    · rw [b4]; field_simp; simp

/-- **C43**, the polar points cover the cell: every point of the cell other than the singular point is an inner point of a
face that is used. -/
theorem C43_polar_cover (eta p : P2) (he : InCell eta) (hp : InCell p) (hne : p ≠ eta) :
    ∃ f, ¬ skipped eta f ∧ ∃ th t, theta0 eta f ≤ th ∧ th ≤ theta1 eta f ∧ 0 < t ∧ t ≤ 1 ∧
      innerPoint eta f th t = p := by
  obtain ⟨f, hf, c0, c1⟩ := exists_face he hp hne
  have hs : ¬ skipped eta f := fun h => hf ((C43_skipped_faces eta he f).1 h)
  have hw : (p.1 - eta.1, p.2 - eta.2) ≠ ((0, 0) : P2) := by
    intro h0
    rw [Prod.mk.injEq] at h0
    exact hne (Prod.ext (by linarith [h0.1]) (by linarith [h0.2]))
  obtain ⟨th, t0, t1, w1, w2⟩ := angle_of_cone he hs hw c0 c1
  obtain ⟨q, d0, dn, -⟩ := outer_dist he hs t0 t1
  have lw := len_pos hw
  have heq : innerPoint eta f th (len (p.1 - eta.1, p.2 - eta.2) / qRho eta f th) = p := by
    unfold innerPoint
    refine Prod.ext ?_ ?_
    · simp only at w1 ⊢
      rw [mul_div_cancel₀ _ q.ne', ← w1]; ring
    · simp only at w2 ⊢
      rw [mul_div_cancel₀ _ q.ne', ← w2]; ring
  refine ⟨f, hs, th, _, t0, t1, div_pos lw q, ?_, heq⟩
  have hd := dist_nonneg hp f
  rw [← heq, inner_comb, dist_comb f _ _ (by ring), d0] at hd
  have hpos : 0 < dist f eta := by
    rcases lt_or_eq_of_le (dist_nonneg he f) with h | h
    · exact h
    · exact absurd ((onEdge_iff _ _).2 ⟨he, h.symm⟩) hf
  by_contra hc
  push Not at hc
  nlinarith

/-- **C43**, the polar points do not overlap: a point is obtained in the interior of at most one angular sector, and
then for one angle and one radius only. -/
theorem C43_polar_unique (eta : P2) (he : InCell eta) (f f' : Fin 4) (hf : ¬ skipped eta f) (hf' : ¬ skipped eta f')
    (th th' t t' : ℝ) (h0 : theta0 eta f < th) (h1 : th < theta1 eta f) (h0' : theta0 eta f' < th')
    (h1' : th' < theta1 eta f') (ht : 0 < t) (ht' : 0 < t')
    (heq : innerPoint eta f th t = innerPoint eta f' th' t') : f = f' ∧ th = th' ∧ t = t' := by
  obtain ⟨q, d0, dn, dp⟩ := outer_dist he hf h0.le h1.le
  obtain ⟨q', d0', dn', dp'⟩ := outer_dist he hf' h0'.le h1'.le
  have hpos : ∀ g, ¬ skipped eta g → 0 < dist g eta := by
    intro g hg
    rcases lt_or_eq_of_le (dist_nonneg he g) with h | h
    · exact h
    · exact absurd ((C43_skipped_faces eta he g).2 ((onEdge_iff _ _).2 ⟨he, h.symm⟩)) hg
  have e : ∀ g, (1 - t) * dist g eta + t * dist g (outerPoint eta f th) =
      (1 - t') * dist g eta + t' * dist g (outerPoint eta f' th') := by
    intro g
    have := congrArg (dist g) heq
    rwa [inner_comb, inner_comb, dist_comb g _ _ (by ring), dist_comb g _ _ (by ring)] at this
  have hff : f = f' := by
    by_contra hne
    have a1 := e f
    rw [d0] at a1
    have a2 := e f'
    rw [d0'] at a2
    have b1 := mul_pos ht' (dp' h0' h1' f (Ne.symm hne))
    have b2 := mul_pos ht (dp h0 h1 f' hne)
    have c1 := hpos f hf
    have c2 := hpos f' hf'
    have k1 : t < t' := by
      by_contra hc; push Not at hc; nlinarith
    have k2 : t' < t := by
      by_contra hc; push Not at hc; nlinarith
    linarith
  subst hff
  have htt : t = t' := by
    have a1 := e f
    rw [d0, d0'] at a1
    have c1 := hpos f hf
    have : (t - t') * dist f eta = 0 := by linarith
    rcases mul_eq_zero.1 this with h | h
    · linarith
    · linarith
  subst htt
  refine ⟨rfl, ?_, rfl⟩
  unfold innerPoint at heq
  rw [Prod.mk.injEq] at heq
  have x1 : qRho eta f th * Real.cos th = qRho eta f th' * Real.cos th' := by
    have : (qRho eta f th * Real.cos th - qRho eta f th' * Real.cos th') * t = 0 := by linarith [heq.1]
    rcases mul_eq_zero.1 this with h | h
    · linarith
    · linarith
  have x2 : qRho eta f th * Real.sin th = qRho eta f th' * Real.sin th' := by
    have : (qRho eta f th * Real.sin th - qRho eta f th' * Real.sin th') * t = 0 := by linarith [heq.2]
    rcases mul_eq_zero.1 this with h | h
    · linarith
    · linarith
  have hz : qRho eta f th * Real.sin (th' - th) = 0 := by
    rw [Real.sin_sub]
    have hx : qRho eta f th * (Real.sin th' * Real.cos th - Real.cos th' * Real.sin th) =
        Real.sin th' * (qRho eta f th * Real.cos th) - Real.cos th' * (qRho eta f th * Real.sin th) := by ring
    rw [hx, x1, x2]; ring
  have hsin : Real.sin (th' - th) = 0 := by
    rcases mul_eq_zero.1 hz with h | h
    · linarith
    · exact h
  obtain ⟨_, tw, -⟩ := theta_spec he hf
  rcases lt_trichotomy th th' with h | h | h
  · have := Real.sin_pos_of_pos_of_lt_pi (x := th' - th) (by linarith) (by linarith)
    linarith
  · exact h
  · have := Real.sin_neg_of_neg_of_neg_pi_lt (x := th' - th) (by linarith) (by linarith)
    linarith

/-- Non-vacuity of C43: the centre of the cell uses all faces, a vertex uses two. -/
example : (∀ f, ¬ skipped (1/2, 1/2) f) ∧ skipped (0, 0) 0 ∧ ¬ skipped (0, 0) 1 ∧ skipped (0, 0) 2 ∧
    ¬ skipped (0, 0) 3 := by
  refine ⟨fun f => ?_, ?_, ?_, ?_, ?_⟩
  · fin_cases f <;> simp [skipped, csi0, csi1] <;> norm_num
  all_goals simp [skipped, csi0, csi1]

end PiBem.Kernel
