import Verif.App.Curvature
import Verif.Props.Domain
import Mathlib.LinearAlgebra.Matrix.Adjugate
import Mathlib.LinearAlgebra.Matrix.NonsingularInverse

/-!
# C84: refinement by the curvature of the CAD surface
-/

noncomputable section

namespace PiBem.App

/-! ## The direction used for the projection -/

/-- Scalar product. -/
def dot3 (x y : P3) : ℝ := x 0 * y 0 + x 1 * y 1 + x 2 * y 2

theorem norm3_sq (x : P3) : norm3 x ^ 2 = dot3 x x := by
  unfold norm3 dot3
  rw [Real.sq_sqrt (by positivity)]
  ring

theorem norm3_nonneg (x : P3) : 0 ≤ norm3 x := Real.sqrt_nonneg _

theorem norm3_eq {x y : P3} (h : dot3 x x = dot3 y y) : norm3 x = norm3 y := by
  have := norm3_sq x
  rw [h, ← norm3_sq] at this
  exact (sq_eq_sq₀ (norm3_nonneg _) (norm3_nonneg _)).1 this

theorem unit3_smul {x : P3} {s : ℝ} (hs : 0 < s) (h1 : dot3 x x = 1) : unit3 (fun a => s * x a) = some x := by
  have hn : norm3 (fun a => s * x a) = s := by
    have : norm3 (fun a => s * x a) ^ 2 = s ^ 2 := by
      rw [norm3_sq, show s ^ 2 = s ^ 2 * dot3 x x by rw [h1, mul_one]]
      unfold dot3
      ring
    exact (sq_eq_sq₀ (norm3_nonneg _) hs.le).1 this
  unfold unit3
  rw [hn, if_neg hs.ne']
  congr 1
  funext a
  field_simp

/-- The vertices in the order in which they are met along the boundary of the cell. -/
def GCell.corner (c : GCell) (k : Fin 4) : P3 := c.v (![0, 1, 3, 2] k)

/-- A flat convex cell seen counterclockwise from the side of the unit vector `nu`: all vertices in a plane orthogonal to `nu`
and a left turn at every corner. -/
structure FlatConvex (c : GCell) (nu : P3) : Prop where
  unit : dot3 nu nu = 1
  flat : ∀ k, dot3 (c.v k - c.v 0) nu = 0
  turn : ∀ k : Fin 4, 0 < dot3 (cross3 (c.corner (k + 1) - c.corner k) (c.corner (k + 2) - c.corner (k + 1))) nu

/-- The product of two vectors orthogonal to a unit vector is a multiple of it. -/
theorem cross3_flat {x y nu : P3} (h1 : dot3 nu nu = 1) (hx : dot3 x nu = 0) (hy : dot3 y nu = 0) :
    cross3 x y = fun a => dot3 (cross3 x y) nu * nu a := by
  unfold dot3 at *
  have e : ∀ a b : ℝ, a - b = 0 → a = b := fun a b h => sub_eq_zero.1 h
  funext a
  fin_cases a
  · simp only [cross3, Fin.zero_eta, Fin.mk_one, Fin.reduceFinMk, Matrix.cons_val]
    apply e
    linear_combination (-(x 1 * y 2 - x 2 * y 1)) * h1 + (nu 1 * y 2 - nu 2 * y 1) * hx - (nu 1 * x 2 - nu 2 * x 1) * hy
  · simp only [cross3, Fin.zero_eta, Fin.mk_one, Fin.reduceFinMk, Matrix.cons_val]
    apply e
    linear_combination (-(x 2 * y 0 - x 0 * y 2)) * h1 + (nu 2 * y 0 - nu 0 * y 2) * hx - (nu 2 * x 0 - nu 0 * x 2) * hy
  · simp only [cross3, Fin.zero_eta, Fin.mk_one, Fin.reduceFinMk, Matrix.cons_val]
    apply e
    linear_combination (-(x 0 * y 1 - x 1 * y 0)) * h1 + (nu 0 * y 1 - nu 1 * y 0) * hx - (nu 0 * x 1 - nu 1 * x 0) * hy

/-- **C84** (direction, flat cells). For every flat convex cell the direction along which the cell centre is projected on the CAD
surface is the unit normal of the cell. -/
theorem C84_direction_flat (c : GCell) (nu : P3) (h : FlatConvex c nu) : cellDirection c = some nu := by
  have hflat : ∀ k, dot3 (c.v k - c.center) nu = 0 := by
    intro k
    have h0 := h.flat k
    have h1 := h.flat 1
    have h2 := h.flat 2
    have h3 := h.flat 3
    simp only [dot3, GCell.center, Pi.sub_apply] at *
    linarith
  have t0 := h.turn 0
  have t1 := h.turn 1
  have t2 := h.turn 2
  have t3 := h.turn 3
  simp only [GCell.corner, dot3, cross3, Pi.sub_apply, Matrix.cons_val, Fin.isValue, zero_add, Fin.reduceAdd] at t0 t1 t2 t3
  have key : ∀ a b : Fin 4, 0 < dot3 (cross3 (c.v a - c.center) (c.v b - c.center)) nu →
      unit3 (cross3 (c.v a - c.center) (c.v b - c.center)) = some nu := by
    intro a b hp
    rw [cross3_flat h.unit (hflat a) (hflat b)]
    exact unit3_smul hp h.unit
  have e0 := key 0 1 (by simp only [dot3, cross3, GCell.center, Pi.sub_apply, Matrix.cons_val]; nlinarith)
  have e1 := key 1 3 (by simp only [dot3, cross3, GCell.center, Pi.sub_apply, Matrix.cons_val]; nlinarith)
  have e2 := key 3 2 (by simp only [dot3, cross3, GCell.center, Pi.sub_apply, Matrix.cons_val]; nlinarith)
  have e3 := key 2 0 (by simp only [dot3, cross3, GCell.center, Pi.sub_apply, Matrix.cons_val]; nlinarith)
  unfold cellDirection
  simp only [e0, e1, e2, e3, Option.bind_eq_bind, Option.bind_some]
  have : (fun a => (nu a + nu a + nu a + nu a) / 4) = fun a => 1 * nu a := by funext a; ring
  rw [this]
  exact unit3_smul one_pos h.unit

/-! ## Rigid motions, scaling and orientation -/

/-- The image of a cell under `x ↦ s·Qx + b`. -/
def GCell.move (c : GCell) (Q : Matrix (Fin 3) (Fin 3) ℝ) (s : ℝ) (b : P3) : GCell :=
  ⟨fun k => s • Q.mulVec (c.v k) + b, c.material⟩

theorem mulVec3 (Q : Matrix (Fin 3) (Fin 3) ℝ) (x : P3) (a : Fin 3) :
    Q.mulVec x a = Q a 0 * x 0 + Q a 1 * x 1 + Q a 2 * x 2 := by
  simp [Matrix.mulVec, dotProduct, Fin.sum_univ_three]

/-- The nine equations satisfied by a rotation: every entry is its own cofactor. -/
theorem rotation_cofactor {Q : Matrix (Fin 3) (Fin 3) ℝ} (hQ : Q.transpose * Q = 1) (hd : Q.det = 1) :
    Q.adjugate = Q.transpose := by
  have h1 : Q.adjugate * Q = 1 := by rw [Matrix.adjugate_mul, hd, one_smul]
  calc Q.adjugate = Q.adjugate * (Q * Q.transpose) := by rw [mul_eq_one_comm.1 hQ, Matrix.mul_one]
    _ = Q.transpose := by rw [← Matrix.mul_assoc, h1, Matrix.one_mul]

theorem cross3_rotation {Q : Matrix (Fin 3) (Fin 3) ℝ} (hQ : Q.transpose * Q = 1) (hd : Q.det = 1) (x y : P3) :
    cross3 (Q.mulVec x) (Q.mulVec y) = Q.mulVec (cross3 x y) := by
  have h := rotation_cofactor hQ hd
  rw [Matrix.adjugate_fin_three] at h
  have e : ∀ i j, _ := fun i j => congrFun (congrFun h i) j
  have e00 := e 0 0; have e01 := e 0 1; have e02 := e 0 2
  have e10 := e 1 0; have e11 := e 1 1; have e12 := e 1 2
  have e20 := e 2 0; have e21 := e 2 1; have e22 := e 2 2
  simp only [Matrix.transpose_apply, Matrix.of_apply, Matrix.cons_val] at e00 e01 e02 e10 e11 e12 e20 e21 e22
  funext a
  fin_cases a
  · simp only [cross3, mulVec3, Fin.zero_eta, Fin.mk_one, Fin.reduceFinMk, Matrix.cons_val]
    linear_combination (x 1 * y 2 - x 2 * y 1) * e00 + (x 2 * y 0 - x 0 * y 2) * e10 + (x 0 * y 1 - x 1 * y 0) * e20
  · simp only [cross3, mulVec3, Fin.zero_eta, Fin.mk_one, Fin.reduceFinMk, Matrix.cons_val]
    linear_combination (x 1 * y 2 - x 2 * y 1) * e01 + (x 2 * y 0 - x 0 * y 2) * e11 + (x 0 * y 1 - x 1 * y 0) * e21
  · simp only [cross3, mulVec3, Fin.zero_eta, Fin.mk_one, Fin.reduceFinMk, Matrix.cons_val]
    linear_combination (x 1 * y 2 - x 2 * y 1) * e02 + (x 2 * y 0 - x 0 * y 2) * e12 + (x 0 * y 1 - x 1 * y 0) * e22

theorem dot3_rotation {Q : Matrix (Fin 3) (Fin 3) ℝ} (hQ : Q.transpose * Q = 1) (x : P3) :
    dot3 (Q.mulVec x) (Q.mulVec x) = dot3 x x := by
  have e : ∀ i j, _ := fun i j => congrFun (congrFun hQ i) j
  have e00 := e 0 0; have e01 := e 0 1; have e02 := e 0 2
  have e11 := e 1 1; have e12 := e 1 2; have e22 := e 2 2
  simp [Matrix.mul_apply, Fin.sum_univ_three] at e00 e01 e02 e11 e12 e22
  simp only [dot3, mulVec3]
  linear_combination x 0 ^ 2 * e00 + x 1 ^ 2 * e11 + x 2 ^ 2 * e22 + 2 * x 0 * x 1 * e01 + 2 * x 0 * x 2 * e02 + 2 * x 1 * x 2 * e12

theorem unit3_rotation {Q : Matrix (Fin 3) (Fin 3) ℝ} (hQ : Q.transpose * Q = 1) {r : ℝ} (hr : 0 < r) (x : P3) :
    unit3 (r • Q.mulVec x) = (unit3 x).map Q.mulVec := by
  have hn : norm3 (r • Q.mulVec x) = r * norm3 x := by
    have : norm3 (r • Q.mulVec x) ^ 2 = (r * norm3 x) ^ 2 := by
      rw [norm3_sq, mul_pow, norm3_sq, ← dot3_rotation hQ x]
      simp only [dot3, Pi.smul_apply, smul_eq_mul]
      ring
    exact (sq_eq_sq₀ (norm3_nonneg _) (mul_nonneg hr.le (norm3_nonneg _))).1 this
  unfold unit3
  rw [hn]
  by_cases h0 : norm3 x = 0
  · simp [h0]
  · rw [if_neg h0, if_neg (mul_ne_zero hr.ne' h0), Option.map_some]
    congr 1
    funext a
    simp only [mulVec3, Pi.smul_apply, smul_eq_mul]
    field_simp

/-- **C84** (direction, rigid motions and scaling). For every cell, flat or not, degenerate or not: rotating, translating and
uniformly scaling the cell rotates the direction used for the projection, and an undefined direction stays undefined. -/
theorem C84_direction_motion (c : GCell) (Q : Matrix (Fin 3) (Fin 3) ℝ) (hQ : Q.transpose * Q = 1) (hd : Q.det = 1)
    (s : ℝ) (hs : 0 < s) (b : P3) :
    cellDirection (c.move Q s b) = (cellDirection c).map Q.mulVec := by
  have ht : ∀ k, (c.move Q s b).v k - (c.move Q s b).center = s • Q.mulVec (c.v k - c.center) := by
    intro k
    funext a
    simp only [GCell.move, GCell.center, Pi.sub_apply, Pi.add_apply, Pi.smul_apply, smul_eq_mul, mulVec3]
    ring
  have hc : ∀ j k, unit3 (cross3 ((c.move Q s b).v j - (c.move Q s b).center) ((c.move Q s b).v k - (c.move Q s b).center)) =
      (unit3 (cross3 (c.v j - c.center) (c.v k - c.center))).map Q.mulVec := by
    intro j k
    rw [ht j, ht k, ← unit3_rotation hQ (mul_pos hs hs), ← cross3_rotation hQ hd]
    congr 1
    funext a
    fin_cases a <;> simp [cross3] <;> ring
  unfold cellDirection
  simp only [hc, Option.bind_eq_bind]
  cases unit3 (cross3 (c.v 0 - c.center) (c.v 1 - c.center)) with
  | none => rfl
  | some n0 =>
    cases unit3 (cross3 (c.v 1 - c.center) (c.v 3 - c.center)) with
    | none => rfl
    | some n1 =>
      cases unit3 (cross3 (c.v 3 - c.center) (c.v 2 - c.center)) with
      | none => rfl
      | some n2 =>
        cases unit3 (cross3 (c.v 2 - c.center) (c.v 0 - c.center)) with
        | none => rfl
        | some n3 =>
          simp only [Option.map_some, Option.bind_some]
          rw [← unit3_rotation hQ one_pos, one_smul]
          congr 1
          funext a
          simp only [mulVec3]
          ring

/-- The cell with its orientation reversed (vertices 1 and 2 exchanged). -/
def GCell.flip (c : GCell) : GCell := ⟨fun k => c.v (![0, 2, 1, 3] k), c.material⟩

theorem unit3_neg (x : P3) : unit3 (-x) = (unit3 x).map fun y => -y := by
  have hn : norm3 (-x) = norm3 x := by simp [norm3]
  unfold unit3
  rw [hn]
  split_ifs
  · rfl
  · simp only [Option.map_some]
    congr 1
    funext a
    simp [neg_div]

theorem cross3_swap (x y : P3) : cross3 x y = -cross3 y x := by
  funext a
  fin_cases a <;> simp [cross3] <;> ring

/-- **C84** (direction, orientation). For every cell, reversing its orientation reverses the direction. -/
theorem C84_direction_orientation (c : GCell) : cellDirection c.flip = (cellDirection c).map fun n => -n := by
  have hcen : c.flip.center = c.center := by
    funext a
    simp [GCell.flip, GCell.center]
    ring
  have v0 : c.flip.v 0 = c.v 0 := rfl
  have v1 : c.flip.v 1 = c.v 2 := rfl
  have v2 : c.flip.v 2 = c.v 1 := rfl
  have v3 : c.flip.v 3 = c.v 3 := rfl
  unfold cellDirection
  simp only [hcen, v0, v1, v2, v3, Option.bind_eq_bind]
  rw [cross3_swap (c.v 0 - c.center) (c.v 2 - c.center), cross3_swap (c.v 2 - c.center) (c.v 3 - c.center),
    cross3_swap (c.v 3 - c.center) (c.v 1 - c.center), cross3_swap (c.v 1 - c.center) (c.v 0 - c.center)]
  simp only [unit3_neg]
  cases unit3 (cross3 (c.v 0 - c.center) (c.v 1 - c.center)) with
  | none =>
    cases unit3 (cross3 (c.v 2 - c.center) (c.v 0 - c.center)) <;>
    cases unit3 (cross3 (c.v 3 - c.center) (c.v 2 - c.center)) <;>
    cases unit3 (cross3 (c.v 1 - c.center) (c.v 3 - c.center)) <;> rfl
  | some n0 =>
    cases unit3 (cross3 (c.v 1 - c.center) (c.v 3 - c.center)) with
    | none =>
      cases unit3 (cross3 (c.v 2 - c.center) (c.v 0 - c.center)) <;>
      cases unit3 (cross3 (c.v 3 - c.center) (c.v 2 - c.center)) <;> rfl
    | some n1 =>
      cases unit3 (cross3 (c.v 3 - c.center) (c.v 2 - c.center)) with
      | none => cases unit3 (cross3 (c.v 2 - c.center) (c.v 0 - c.center)) <;> rfl
      | some n2 =>
        cases unit3 (cross3 (c.v 2 - c.center) (c.v 0 - c.center)) with
        | none => rfl
        | some n3 =>
          simp only [Option.map_some, Option.bind_some]
          rw [← unit3_neg]
          congr 1
          funext a
          simp only [Pi.neg_apply]
          ring

/-! ## The flags -/

/-- The two diagonals of a cell. -/
def GCell.hasDiameter (c : GCell) (d : ℝ) : Prop := d = max (norm3 (c.v 0 - c.v 3)) (norm3 (c.v 1 - c.v 2))

theorem norm3_sub_comm (x y : P3) : norm3 (x - y) = norm3 (y - x) := by
  unfold norm3
  congr 1
  simp only [Pi.sub_apply]
  ring

theorem GCell.diameter_spec (c : GCell) : c.hasDiameter c.diameter := by
  unfold hasDiameter diameter
  rw [norm3_sub_comm (c.v 3), norm3_sub_comm (c.v 2)]

/-- Which surface is used, for material ids below 2³¹. -/
theorem surfaceAccess_surface {n m : ℕ} (hn : n < 2 ^ 31) (h1 : 1 ≤ m) (h2 : m ≤ n) : surfaceAccess n m = .surface (m - 1) := by
  have ht : toInt32 m = m := by unfold toInt32; rw [if_pos (by omega)]
  unfold surfaceAccess
  rw [ht, if_pos (by omega), if_pos (by omega)]
  congr 1
  omega

theorem surfaceAccess_noSurface {n m : ℕ} (h1 : n < m) (h2 : m < 2 ^ 31) : surfaceAccess n m = .noSurface := by
  have ht : toInt32 m = m := by unfold toInt32; rw [if_pos (by omega)]
  unfold surfaceAccess
  rw [ht, if_neg (by omega)]

open Classical in
/-- **C84** (flags). For every cell with a CAD surface and a direction: the cell is flagged exactly if its longer diagonal `d`
exceeds ten tolerances and more than `cells_per_circle` cells of that diameter would be needed around a circle of the smallest
radius of curvature found on the surface, radii being cut off at the reciprocal of the tolerance. -/
theorem C84_flag (p : CurvParams) (htol : 0 < p.tolerance) (hcpc : 0 < p.cellsPerCircle) (hn : p.nSurfaces < 2 ^ 31)
    (c : GCell) (hm1 : 1 ≤ c.material) (hm2 : c.material ≤ p.nSurfaces) (n : P3) (hdir : cellDirection c = some n)
    (d : ℝ) (hd : c.hasDiameter d) (k1 k2 : ℝ) (hk : p.curvatures (c.material - 1) c.center n = (k1, k2)) :
    ∃ b, curvFlag p c = some b ∧
      (b = true ↔ 10 * p.tolerance < d ∧ 2 * Real.pi < p.cellsPerCircle * d * max (max |k1| |k2|) p.tolerance) := by
  have hsa := surfaceAccess_surface hn hm1 hm2
  have hM : 0 < max (max |k1| |k2|) p.tolerance := lt_max_of_lt_right htol
  have hdd : c.diameter = d := by rw [hd, ← c.diameter_spec]
  unfold curvFlag cellSize
  rw [hsa]
  simp only [hdir, Option.map_some, hk]
  refine ⟨_, rfl, ?_⟩
  rw [decide_eq_true_iff]
  unfold curvatureFlag
  dsimp only
  rw [hdd]
  have : 2 * Real.pi / p.cellsPerCircle * (1 / max (max |k1| |k2|) p.tolerance) < d ↔
      2 * Real.pi < p.cellsPerCircle * d * max (max |k1| |k2|) p.tolerance := by
    rw [mul_one_div, div_div, div_lt_iff₀ (mul_pos hcpc hM)]
    constructor <;> intro h <;> nlinarith
  constructor
  · rintro ⟨h1, h2⟩
    exact ⟨h2, this.1 h1⟩
  · rintro ⟨h1, h2⟩
    exact ⟨this.2 h2, h1⟩

/-- **C84** (spheres and cylinders). On a surface whose largest absolute curvature is `1/R`, a cell larger than ten tolerances is
left alone exactly if `cells_per_circle` copies of its diameter do not exceed the circumference `2πR`. -/
theorem C84_sphere (p : CurvParams) (htol : 0 < p.tolerance) (hcpc : 0 < p.cellsPerCircle) (hn : p.nSurfaces < 2 ^ 31)
    (c : GCell) (hm1 : 1 ≤ c.material) (hm2 : c.material ≤ p.nSurfaces) (n : P3) (hdir : cellDirection c = some n)
    (d : ℝ) (hd : c.hasDiameter d) (hd10 : 10 * p.tolerance < d) (R : ℝ) (hR : 0 < R) (hRt : R ≤ 1 / p.tolerance)
    (k1 k2 : ℝ) (hk : p.curvatures (c.material - 1) c.center n = (k1, k2)) (hmax : max |k1| |k2| = 1 / R) :
    curvFlag p c = some false ↔ p.cellsPerCircle * d ≤ 2 * Real.pi * R := by
  obtain ⟨b, hb, hiff⟩ := C84_flag p htol hcpc hn c hm1 hm2 n hdir d hd k1 k2 hk
  have hle : p.tolerance ≤ 1 / R := by
    rw [le_div_iff₀ hR]
    rw [le_div_iff₀ htol] at hRt
    linarith
  rw [hmax, max_eq_left hle, mul_one_div, lt_div_iff₀ hR] at hiff
  rw [hb]
  constructor
  · intro h
    have : b = false := Option.some.inj h
    rw [this] at hiff
    by_contra hc
    exact absurd (hiff.2 ⟨hd10, not_le.1 hc⟩) (by simp)
  · intro h
    cases b
    · rfl
    · exact absurd (hiff.1 rfl).2 (not_lt.2 h)

open Classical in
/-- **C84** (cells without CAD surface). Such a cell is flagged exactly if its diameter exceeds ten tolerances and
`2π / (cells_per_circle · tolerance)`; the direction plays no role. -/
theorem C84_no_surface (p : CurvParams) (hcpc : 0 < p.cellsPerCircle) (htol : 0 < p.tolerance)
    (c : GCell) (hm1 : p.nSurfaces < c.material) (hm2 : c.material < 2 ^ 31) (d : ℝ) (hd : c.hasDiameter d) :
    ∃ b, curvFlag p c = some b ∧
      (b = true ↔ 10 * p.tolerance < d ∧ 2 * Real.pi < p.cellsPerCircle * d * p.tolerance) := by
  have hsa := surfaceAccess_noSurface hm1 hm2
  have hdd : c.diameter = d := by rw [hd, ← c.diameter_spec]
  unfold curvFlag cellSize
  rw [hsa]
  simp only [Option.map_some]
  refine ⟨_, rfl, ?_⟩
  rw [decide_eq_true_iff]
  unfold curvatureFlag
  dsimp only
  rw [hdd]
  have : 2 * Real.pi / p.cellsPerCircle / p.tolerance < d ↔ 2 * Real.pi < p.cellsPerCircle * d * p.tolerance := by
    rw [div_div, div_lt_iff₀ (mul_pos hcpc htol)]
    constructor <;> intro h <;> nlinarith
  constructor
  · rintro ⟨h1, h2⟩
    exact ⟨h2, this.1 h1⟩
  · rintro ⟨h1, h2⟩
    exact ⟨this.2 h2, h1⟩

/-- The square of side `a` in the plane `z = 0`. -/
def square (a : ℝ) (material : ℕ) : GCell := ⟨![![0, 0, 0], ![a, 0, 0], ![0, a, 0], ![a, a, 0]], material⟩

theorem square_diameter (a : ℝ) (ha : 0 ≤ a) (m : ℕ) : (square a m).hasDiameter (Real.sqrt 2 * a) := by
  have h : Real.sqrt (a ^ 2 + a ^ 2) = Real.sqrt 2 * a := by
    rw [← two_mul, Real.sqrt_mul (by norm_num), Real.sqrt_sq ha]
  simp [GCell.hasDiameter, norm3, square, h]

/-- **C84**, refuted form of the comment "the cell is never refined": for every choice of the parameters there are cells without
CAD surface that are refined. -/
theorem C84_no_surface_refuted (p : CurvParams) (hcpc : 0 < p.cellsPerCircle) (htol : 0 < p.tolerance)
    (hn : p.nSurfaces + 1 < 2 ^ 31) : ∃ c : GCell, p.nSurfaces < c.material ∧ curvFlag p c = some true := by
  set a := 10 * p.tolerance + 2 * Real.pi / (p.cellsPerCircle * p.tolerance) with ha
  have hq : 0 < 2 * Real.pi / (p.cellsPerCircle * p.tolerance) := by positivity
  have ha0 : 0 < a := by positivity
  have hs : 1 ≤ Real.sqrt 2 := by rw [Real.one_le_sqrt]; norm_num
  obtain ⟨b, hb, hiff⟩ := C84_no_surface p hcpc htol (square a (p.nSurfaces + 1)) (by simp [square]) (by simpa [square] using hn) _
    (square_diameter a ha0.le _)
  refine ⟨square a (p.nSurfaces + 1), by simp [square], ?_⟩
  rw [hb, hiff.2 ?_]
  have hda : a ≤ Real.sqrt 2 * a := by nlinarith
  refine ⟨by linarith, ?_⟩
  have : 2 * Real.pi / (p.cellsPerCircle * p.tolerance) < Real.sqrt 2 * a := by linarith
  rw [div_lt_iff₀ (by positivity)] at this
  nlinarith

/-- **C84** (undefined outcomes). Material id 0 reads the list of surfaces before its beginning, whatever the cell; a cell with a
surface and no direction has no size. -/
theorem C84_undefined (p : CurvParams) (c : GCell) :
    (c.material = 0 → curvFlag p c = none) ∧
    (1 ≤ c.material → c.material ≤ p.nSurfaces → p.nSurfaces < 2 ^ 31 → cellDirection c = none → curvFlag p c = none) := by
  constructor
  · intro h
    simp [curvFlag, cellSize, h, C46_refuted]
  · intro h1 h2 h3 h4
    have hsa := surfaceAccess_surface h3 h1 h2
    simp [curvFlag, cellSize, hsa, h4]

/-! ## The loop -/

theorem mapM_some_iff {α β : Type} (f : α → Option β) (l : List α) (r : List β) :
    l.mapM f = some r ↔ List.Forall₂ (fun a b => f a = some b) l r := by
  induction l generalizing r with
  | nil => cases r <;> simp
  | cons a l ih =>
    simp only [List.mapM_cons, Option.bind_eq_bind, Option.pure_def, Option.bind_eq_some_iff, Option.some.injEq]
    constructor
    · rintro ⟨b, hb, r', hr', rfl⟩
      exact List.Forall₂.cons hb ((ih r').1 hr')
    · intro h
      cases h with
      | cons hb ht => exact ⟨_, hb, _, (ih _).2 ht, rfl⟩

theorem curvCycle_none (p : CurvParams) (execute : List GCell → List Bool → List GCell) :
    (curvCycle p execute none).1 = none := rfl

/-- **C84** (the loop). For every initial mesh, every refinement procedure and every maximum number of cycles: if the loop ends
with a mesh after fewer cycles than the maximum, then no cell of the mesh on which the last cycle was executed is flagged, and the
final mesh is that mesh after a refinement without flags (followed by the restoration of conformity). -/
theorem C84_loop (p : CurvParams) (execute : List GCell → List Bool → List GCell) (maxCycles : ℕ) (t final : List GCell)
    (hres : (curvLoop p execute maxCycles t).1 = some final) :
    (curvLoop p execute maxCycles t).2.length ≤ maxCycles ∧
    ((curvLoop p execute maxCycles t).2.length < maxCycles →
      ∃ last : List GCell, (∀ c ∈ last, curvFlag p c = some false) ∧
        final = execute last (last.map fun _ => false)) := by
  obtain ⟨h1, h2, _, h4⟩ := C45_loops_bounded (curvCycle p execute) maxCycles (some t)
  refine ⟨h1, fun hl => ?_⟩
  have hlast := h4 hl
  have hpos := h2 (by omega)
  obtain ⟨i1, i2⟩ := refineLoop_iterate (curvCycle p execute) maxCycles 1 (some t)
  obtain ⟨n, hn⟩ : ∃ n, (refineLoop (curvCycle p execute) maxCycles 1 (some t)).2.length = n + 1 :=
    ⟨_, (Nat.succ_pred_eq_of_pos hpos).symm⟩
  have hn' := i2 n (by omega)
  rw [List.getLast?_eq_getElem?, hn] at hlast
  simp only [Nat.add_sub_cancel] at hlast
  rw [hlast] at hn'
  have hzero : (curvCycle p execute (lastStart (curvCycle p execute) n (some t))).2 = 0 := by
    simpa using hn'.symm
  have hfin : (curvCycle p execute (lastStart (curvCycle p execute) n (some t))).1 = some final := by
    rw [← hres]
    unfold curvLoop
    rw [i1, hn, lastStart, lastStart, Function.iterate_succ_apply']
  generalize lastStart (curvCycle p execute) n (some t) = m at hzero hfin
  cases m with
  | none => simp [curvCycle] at hfin
  | some m =>
    unfold curvCycle at hzero hfin
    dsimp only at hzero hfin
    cases hf : m.mapM (curvFlag p) with
    | none => rw [hf] at hfin; simp at hfin
    | some flags =>
      rw [hf] at hzero hfin
      dsimp only at hzero hfin
      have hall := (mapM_some_iff _ _ _).1 hf
      have hfalse : ∀ b ∈ flags, b = false := by
        intro b hb
        have := (List.countP_eq_zero.1 hzero) b hb
        simpa using this
      have hflags : flags = m.map fun _ => false := by
        have hlen := hall.length_eq
        rw [List.map_const', hlen]
        exact List.eq_replicate_iff.2 ⟨rfl, hfalse⟩
      refine ⟨m, fun c hc => ?_, ?_⟩
      · rw [hflags] at hall
        obtain ⟨i, hi, rfl⟩ := List.mem_iff_getElem.1 hc
        have := (List.forall₂_iff_get.1 hall).2 i hi (by simpa using hi)
        simpa using this
      · rw [← hflags]
        exact (Option.some.inj hfin).symm

/-! ## Non-vacuity -/

/-- The unit square is flat and convex, and its direction is the third axis. -/
example : FlatConvex (square 1 1) ![0, 0, 1] := by
  refine ⟨by simp [dot3], fun k => ?_, fun k => ?_⟩
  · fin_cases k <;> simp [square, dot3]
  · fin_cases k <;> simp [square, dot3, cross3, GCell.corner]

/-- A rotation, other than the identity, satisfying the hypotheses. -/
example : ∃ Q : Matrix (Fin 3) (Fin 3) ℝ, Q.transpose * Q = 1 ∧ Q.det = 1 ∧ Q ≠ 1 := by
  refine ⟨!![0, -1, 0; 1, 0, 0; 0, 0, 1], ?_, ?_, ?_⟩
  · ext i j
    fin_cases i <;> fin_cases j <;> simp [Matrix.mul_apply, Fin.sum_univ_three]
  · simp [Matrix.det_fin_three]
  · intro h
    have := congrFun (congrFun h 0) 0
    simp at this

/-- The unit sphere, 12 cells per circle. -/
def sphereParams : CurvParams := ⟨1, 1 / 1000, 12, fun _ _ _ => (1, 1)⟩

theorem square_flat (a : ℝ) (ha : 0 < a) (m : ℕ) : cellDirection (square a m) = some ![0, 0, 1] := by
  refine C84_direction_flat _ _ ⟨by simp [dot3], fun k => ?_, fun k => ?_⟩
  · fin_cases k <;> simp [square, dot3]
  · fin_cases k <;> simp [square, dot3, cross3, GCell.corner] <;> positivity

/-- A cell of side 1 is flagged, one of side 1/10 is not. -/
example : curvFlag sphereParams (square 1 1) ≠ some false ∧ curvFlag sphereParams (square (1 / 10) 1) = some false := by
  have hs1 : 1 ≤ Real.sqrt 2 := by rw [Real.one_le_sqrt]; norm_num
  have hs2 : Real.sqrt 2 ≤ 2 := by rw [Real.sqrt_le_iff]; norm_num
  have hpi := Real.pi_gt_three
  have hpi' := Real.pi_lt_four
  constructor
  · have := C84_sphere sphereParams (by norm_num [sphereParams]) (by norm_num [sphereParams]) (by norm_num [sphereParams])
      (square 1 1) (by norm_num [square]) (by norm_num [square, sphereParams]) _ (square_flat 1 one_pos 1) _
      (square_diameter 1 zero_le_one 1) (by norm_num [sphereParams]; linarith) 1 one_pos (by norm_num [sphereParams]) 1 1 rfl
      (by norm_num)
    rw [Ne, this]
    norm_num [sphereParams]
    nlinarith
  · have := C84_sphere sphereParams (by norm_num [sphereParams]) (by norm_num [sphereParams]) (by norm_num [sphereParams])
      (square (1 / 10) 1) (by norm_num [square]) (by norm_num [square, sphereParams]) _ (square_flat _ (by norm_num) 1) _
      (square_diameter _ (by norm_num) 1) (by norm_num [sphereParams]; linarith) 1 one_pos (by norm_num [sphereParams]) 1 1 rfl
      (by norm_num)
    rw [this]
    norm_num [sphereParams]
    nlinarith

/-- A run that stops before the maximum: a mesh whose only cell is small enough. -/
example : ∃ final, (curvLoop sphereParams (fun t _ => t) 5 [square (1 / 10) 1]).1 = some final ∧
    (curvLoop sphereParams (fun t _ => t) 5 [square (1 / 10) 1]).2.length < 5 := by
  have hs1 : 1 ≤ Real.sqrt 2 := by rw [Real.one_le_sqrt]; norm_num
  have hs2 : Real.sqrt 2 ≤ 2 := by rw [Real.sqrt_le_iff]; norm_num
  have hpi := Real.pi_gt_three
  have hfl : curvFlag sphereParams (square (1 / 10) 1) = some false := by
    have := C84_sphere sphereParams (by norm_num [sphereParams]) (by norm_num [sphereParams]) (by norm_num [sphereParams])
      (square (1 / 10) 1) (by norm_num [square]) (by norm_num [square, sphereParams]) _ (square_flat _ (by norm_num) 1) _
      (square_diameter _ (by norm_num) 1) (by norm_num [sphereParams]; linarith) 1 one_pos (by norm_num [sphereParams]) 1 1 rfl
      (by norm_num)
    rw [this]
    norm_num [sphereParams]
    nlinarith
  have hm : [square (1 / 10) 1].mapM (curvFlag sphereParams) = some [false] := by
    rw [mapM_some_iff]
    exact List.Forall₂.cons hfl List.Forall₂.nil
  unfold curvLoop
  simp only [refineLoop, curvCycle, hm]
  simp

end PiBem.App
