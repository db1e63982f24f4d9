import Verif.Props.FreeOrder
import Mathlib.MeasureTheory.Integral.Prod
import Mathlib.MeasureTheory.Measure.Lebesgue.EqHaar
import Mathlib.MeasureTheory.Constructions.Pi
import Mathlib.Analysis.SpecialFunctions.PolarCoord
import Mathlib.MeasureTheory.Measure.Haar.Unique

/-!
# Free coefficients at convex polyhedral corners (C66): integrals over cones
-/

noncomputable section

namespace PiBem.Bem

open PiBem.Expansion (V3 rho dot)
open MeasureTheory

/-- The unit ball. -/
def unitBall : Set V3 := {x | x 0 ^ 2 + x 1 ^ 2 + x 2 ^ 2 < 1}

/-- Points on the inner side of the plane with outward normal `n`. -/
def inner (n : V3) : Set V3 := {x | dot x n < 0}

/-- Integral of `g` over the part in `K` of the unit ball. -/
def ballInt (g : V3 → ℝ) (K : Set V3) : ℝ := ∫ x in K ∩ unitBall, g x

theorem meas_dot (n : V3) : Measurable fun x : V3 => dot x n := by
  unfold dot; fun_prop

theorem meas_inner (n : V3) : MeasurableSet (inner n) := measurableSet_lt (meas_dot n) measurable_const

theorem meas_ball : MeasurableSet unitBall := measurableSet_lt (by fun_prop) measurable_const

theorem ball_subset : unitBall ⊆ Set.Icc (fun _ => -1) (fun _ => 1) := by
  intro x hx
  simp only [unitBall, Set.mem_ofPred_eq] at hx
  refine ⟨fun i => ?_, fun i => ?_⟩ <;> fin_cases i <;> simp <;> nlinarith [sq_nonneg (x 0), sq_nonneg (x 1), sq_nonneg (x 2)]

theorem ball_int {g : V3 → ℝ} (hg : Continuous g) (K : Set V3) : IntegrableOn g (K ∩ unitBall) :=
  (hg.continuousOn.integrableOn_compact isCompact_Icc).mono_set (Set.inter_subset_right.trans ball_subset)

/-- The plane has measure zero. -/
theorem plane_null (n : V3) (hn : n ≠ 0) : volume {x : V3 | dot x n = 0} = 0 := by
  let f : V3 →ₗ[ℝ] ℝ :=
    { toFun := fun x => dot x n
      map_add' := fun x y => by simp [dot]; ring
      map_smul' := fun c x => by simp [dot]; ring }
  have : {x : V3 | dot x n = 0} = (LinearMap.ker f : Set V3) := by ext x; simp [f]
  rw [this]
  refine Measure.addHaar_submodule _ _ fun h => hn ?_
  have hz : ∀ x, dot x n = 0 := fun x => by
    have : x ∈ LinearMap.ker f := by rw [h]; trivial
    simpa [f] using this
  have := hz n
  have h0 : n 0 ^ 2 + n 1 ^ 2 + n 2 ^ 2 = 0 := by simpa [dot, sq] using this
  funext i
  fin_cases i <;> simp <;> nlinarith [sq_nonneg (n 0), sq_nonneg (n 1), sq_nonneg (n 2)]

/-- `K` splits along a plane. -/
theorem ballInt_split {g : V3 → ℝ} (hg : Continuous g) {K : Set V3} (hK : MeasurableSet K) (n : V3) (hn : n ≠ 0) :
    ballInt g K = ballInt g (K ∩ inner n) + ballInt g (K ∩ inner (-n)) := by
  unfold ballInt
  have hd : Disjoint (K ∩ inner n ∩ unitBall) (K ∩ inner (-n) ∩ unitBall) := by
    rw [Set.disjoint_left]
    rintro x ⟨⟨_, h1⟩, _⟩ ⟨⟨_, h2⟩, _⟩
    simp only [inner, Set.mem_ofPred_eq, dot, Pi.neg_apply] at h1 h2
    linarith
  rw [← setIntegral_union hd ((hK.inter (meas_inner _)).inter meas_ball) (ball_int hg _) (ball_int hg _)]
  refine setIntegral_congr_set ?_
  have hsub : (K ∩ inner n ∩ unitBall) ∪ (K ∩ inner (-n) ∩ unitBall) ⊆ K ∩ unitBall := by
    rintro x (⟨⟨h1, _⟩, h2⟩ | ⟨⟨h1, _⟩, h2⟩) <;> exact ⟨h1, h2⟩
  symm
  refine hsub.eventuallyLE.antisymm ?_
  rw [MeasureTheory.ae_le_set]
  refine measure_mono_null ?_ (plane_null n hn)
  rintro x ⟨⟨h1, h2⟩, h3⟩
  simp only [Set.mem_union, Set.mem_inter_iff, not_or, not_and, inner, Set.mem_ofPred_eq, dot, Pi.neg_apply] at h3 ⊢
  by_contra hx
  rcases lt_or_gt_of_ne hx with h | h
  · exact h3.1 ⟨h1, h⟩ h2
  · exact h3.2 ⟨h1, by linarith⟩ h2

/-- Reflection at the origin. -/
theorem ballInt_neg {g : V3 → ℝ} (he : ∀ x, g (-x) = g x) (K : Set V3) : ballInt g (-K) = ballInt g K := by
  unfold ballInt
  have h := (Measure.measurePreserving_neg (volume : Measure V3)).setIntegral_preimage_emb (MeasurableEquiv.neg V3).measurableEmbedding
    g (K ∩ unitBall)
  have hs : (fun x : V3 => -x) ⁻¹' (K ∩ unitBall) = -K ∩ unitBall := by
    ext x
    simp [unitBall]
  change ∫ x in (fun x : V3 => -x) ⁻¹' (K ∩ unitBall), g (-x) = _ at h
  rw [hs] at h
  rw [← h]
  simp only [he]

theorem neg_inner (n : V3) : -inner n = inner (-n) := by
  ext x; simp [inner, dot]

theorem inner_nn (n : V3) : inner (- -n) = inner n := by rw [neg_neg]

variable {g : V3 → ℝ} (hg : Continuous g) (he : ∀ x, g (-x) = g x)

include hg he

theorem half (n : V3) (hn : n ≠ 0) : ballInt g (inner n) = ballInt g Set.univ / 2 := by
  have h := ballInt_split hg MeasurableSet.univ n hn
  rw [Set.univ_inter, Set.univ_inter, ← neg_inner, ballInt_neg he] at h
  linarith

/-- wedge with one normal reversed -/
theorem wedge_flip (a b : V3) (ha : a ≠ 0) (hb : b ≠ 0) :
    ballInt g (inner a ∩ inner (-b)) = ballInt g Set.univ / 2 - ballInt g (inner a ∩ inner b) := by
  have h := ballInt_split hg (meas_inner a) b hb
  rw [half hg he a ha] at h
  linarith

/-- Three planes: the integral over the corner from those over its wedges. -/
theorem trihedral (a b c : V3) (ha : a ≠ 0) (hb : b ≠ 0) (hc : c ≠ 0) :
    ballInt g (inner a ∩ inner b ∩ inner c) =
      (ballInt g (inner a ∩ inner b) + ballInt g (inner b ∩ inner c) + ballInt g (inner c ∩ inner a) - ballInt g Set.univ / 2) / 2 := by
  have m1 := ballInt_split hg ((meas_inner a).inter (meas_inner b)) c hc
  have m2 := ballInt_split hg ((meas_inner c).inter (meas_inner a)) b hb
  have m3 := ballInt_split hg ((meas_inner b).inter (meas_inner c)) a ha
  have f1 := wedge_flip hg he a b ha hb
  have m4 := ballInt_split hg ((meas_inner a).inter (meas_inner (-b))) c hc
  have e : ballInt g (inner a ∩ inner (-b) ∩ inner (-c)) = ballInt g (inner b ∩ inner c ∩ inner (-a)) := by
    rw [← ballInt_neg he]
    congr 1
    ext x
    simp only [Set.mem_neg, Set.mem_inter_iff, inner, Set.mem_ofPred_eq, dot, Pi.neg_apply]
    constructor <;> rintro ⟨⟨h1, h2⟩, h3⟩ <;> exact ⟨⟨by linarith, by linarith⟩, by linarith⟩
  have c1 : inner c ∩ inner a ∩ inner b = inner a ∩ inner b ∩ inner c := by ext x; simp only [Set.mem_inter_iff]; tauto
  have c2 : inner b ∩ inner c ∩ inner a = inner a ∩ inner b ∩ inner c := by ext x; simp only [Set.mem_inter_iff]; tauto
  have c3 : inner c ∩ inner a ∩ inner (-b) = inner a ∩ inner (-b) ∩ inner c := by ext x; simp only [Set.mem_inter_iff]; tauto
  rw [c1, c3] at m2
  rw [c2] at m3
  linarith

omit hg he

/-- Determinant of three vectors. -/
def det3 (a b c : V3) : ℝ := dot a (cross b c)

/-- The normals `n 0, …, n (k - 1)` are those of the faces of a convex corner, in order around it. -/
def ConvexOrder (n : ℕ → V3) (k : ℕ) : Prop := ∀ i j l, i < j → j < l → l < k → 0 < det3 (n i) (n j) (n l)

/-- The directions inside a convex corner. -/
def corner (n : ℕ → V3) (k : ℕ) : Set V3 := {x | ∀ i < k, dot x (n i) < 0}

theorem meas_corner (n : ℕ → V3) (k : ℕ) : MeasurableSet (corner n k) := by
  have : corner n k = ⋂ i ∈ Finset.range k, inner (n i) := by ext x; simp [corner, inner]
  rw [this]
  exact Finset.measurableSet_biInter _ fun i _ => meas_inner _

theorem cramer (a b c d : V3) (x : V3) :
    dot x d * det3 a b c = dot x a * det3 d b c + dot x b * det3 a d c + dot x c * det3 a b d := by
  simp only [det3, dot, cross, Matrix.cons_val_zero, Matrix.cons_val_one, Matrix.cons_val]
  ring

/-- The integral over a convex corner from those over the wedges of consecutive faces. -/
theorem corner_int (hg : Continuous g) (he : ∀ x, g (-x) = g x) (n : ℕ → V3) (hn : ∀ i, n i ≠ 0) (k : ℕ) (hc : ConvexOrder n (k + 2)) :
    ballInt g (corner n (k + 2)) = (∑ i ∈ Finset.range (k + 1), ballInt g (inner (n (i + 1)) ∩ inner (n i)) +
      ballInt g (inner (n 0) ∩ inner (n (k + 1)))) / 2 - k * ballInt g Set.univ / 4 := by
  induction k with
  | zero =>
    have h1 : corner n 2 = inner (n 0) ∩ inner (n 1) := by
      ext x
      simp only [corner, inner, Set.mem_ofPred_eq, Set.mem_inter_iff]
      constructor
      · intro h; exact ⟨h 0 (by omega), h 1 (by omega)⟩
      · rintro ⟨h0, h1⟩ i hi
        interval_cases i <;> assumption
    simp only [Nat.zero_add, h1, Finset.sum_range_one, Set.inter_comm (inner (n 1))]
    push_cast
    ring
  | succ k ih =>
    have ih := ih fun i j l h1 h2 h3 => hc i j l h1 h2 (by omega)
    have hs := ballInt_split hg (meas_corner n (k + 2)) (n (k + 2)) (hn _)
    have e1 : corner n (k + 2) ∩ inner (n (k + 2)) = corner n (k + 1 + 2) := by
      ext x
      simp only [corner, inner, Set.mem_ofPred_eq, Set.mem_inter_iff]
      constructor
      · rintro ⟨h1, h2⟩ i hi
        rcases Nat.lt_succ_iff_lt_or_eq.mp hi with h | rfl
        · exact h1 i h
        · exact h2
      · intro h; exact ⟨fun i hi => h i (by omega), h _ (by omega)⟩
    have e2 : corner n (k + 2) ∩ inner (-n (k + 2)) = inner (n 0) ∩ inner (n (k + 1)) ∩ inner (-n (k + 2)) := by
      ext x
      simp only [corner, inner, Set.mem_ofPred_eq, Set.mem_inter_iff]
      constructor
      · rintro ⟨h1, h2⟩; exact ⟨⟨h1 0 (by omega), h1 (k + 1) (by omega)⟩, h2⟩
      · rintro ⟨⟨h0, h1⟩, h2⟩
        refine ⟨fun i hi => ?_, h2⟩
        rcases Nat.eq_zero_or_pos i with rfl | hi0
        · exact h0
        rcases Nat.lt_succ_iff_lt_or_eq.mp hi with hi1 | rfl
        · have d0 := hc 0 (k + 1) (k + 2) (by omega) (by omega) (by omega)
          have d1 := hc i (k + 1) (k + 2) (by omega) (by omega) (by omega)
          have d2 := hc 0 i (k + 2) (by omega) (by omega) (by omega)
          have d3 := hc 0 i (k + 1) (by omega) (by omega) (by omega)
          have hx := cramer (n 0) (n (k + 1)) (n (k + 2)) (n i) x
          have d4 : det3 (n 0) (n (k + 1)) (n i) = -det3 (n 0) (n i) (n (k + 1)) := by
            simp only [det3, dot, cross, Matrix.cons_val_zero, Matrix.cons_val_one, Matrix.cons_val]; ring
          have h3 : 0 < dot x (n (k + 2)) := by
            simp only [dot, Pi.neg_apply] at h2 ⊢; linarith
          rw [d4] at hx
          by_contra hge
          push Not at hge
          nlinarith [mul_nonneg hge d0.le, mul_pos_of_neg_of_neg h0 (neg_lt_zero.mpr d1), mul_pos_of_neg_of_neg h1 (neg_lt_zero.mpr d2), mul_pos h3 d3]
        · exact h1
    rw [e1, e2, trihedral hg he _ _ _ (hn _) (hn _) (neg_ne_zero.mpr (hn _)), wedge_flip hg he _ _ (hn _) (hn _),
      Set.inter_comm (inner (-n (k + 2))), wedge_flip hg he _ _ (hn _) (hn _)] at hs
    rw [Finset.sum_range_succ, Set.inter_comm (inner (n (k + 1 + 1)))]
    have : k + 1 + 1 = k + 2 := rfl
    rw [this]
    push_cast
    linarith

end PiBem.Bem
