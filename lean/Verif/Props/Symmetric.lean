import Verif.Props.Convex
import Verif.Props.Similar

/-!
# C113: symmetric surfaces

The dense method on a surface, with its mesh and its quadratures, that a rotation, a reflection or another motion maps to itself.
-/

noncomputable section

namespace PiBem.Bem

open PiBem.Octree PiBem.Fmm PiBem.Expansion

/-! ## Specification -/

/-- `P'` is the image of the quadrature point `P` of a cell: moved position, turned normal, the values of the shape functions at the corresponding local numbers
`ρ` and the same area. -/
def PointImage (Q : Matrix (Fin 3) (Fin 3) ℝ) (b : Fin 3 → ℝ) (ρ : Equiv.Perm ℕ) (m : ℕ) (P P' : SingPoint) : Prop :=
  Moved Q 1 b P.pos P'.pos ∧ Turned Q P.normal P'.normal ∧ (∀ j < m, P'.shape (ρ j) = P.shape j) ∧ P'.jxw = P.jxw

/-- The motion `x ↦ Qx + b` maps the surface, the mesh and the quadratures to themselves: node `i` goes to node `σ i`, cell `c` to cell `τ c` and the local
dof `j` of cell `c` to the local dof `ρ c j`. The points of the quadratures of the image cell may come in any order. -/
structure SymmetricSurface (inp : Input 3) (D : Data) (S' : SingRule) (Q : Matrix (Fin 3) (Fin 3) ℝ) (b : Fin 3 → ℝ)
    (σ : Equiv.Perm (Fin inp.nDofs)) (τ : Equiv.Perm ℕ) (ρ : ℕ → Equiv.Perm ℕ) : Prop where
  orthogonal : Q.transpose * Q = 1
  nodes : ∀ i : Fin inp.nDofs, Moved Q 1 b (toV (inp.pos i)) (toV (inp.pos (σ i)))
  cells : ∀ c, τ c < inp.nCells ↔ c < inp.nCells
  lengths : ∀ c < inp.nCells, (inp.cellDofs (τ c)).length = (inp.cellDofs c).length
  locals : ∀ c < inp.nCells, ∀ j, ρ c j < (inp.cellDofs c).length ↔ j < (inp.cellDofs c).length
  dofs : ∀ c < inp.nCells, ∀ j < (inp.cellDofs c).length, ∀ k : Fin inp.nDofs, (inp.cellDofs c).getD j 0 = k ↔ (inp.cellDofs (τ c)).getD (ρ c j) 0 = σ k
  points : ∀ i : Fin inp.nDofs, ∀ c < inp.nCells, ∃ l, l.Perm (usedPoints inp D S' (σ i) (τ c)) ∧
    List.Forall₂ (PointImage Q b (ρ c) (inp.cellDofs c).length) (usedPoints inp D S' i c) l

/-- The boundary conditions are even (`ε = 1`) or odd (`ε = -1`) for the motion: the kind of the condition is the same at a node and at its image, the data differ
by the sign, the normals and the signed surface gradients are turned, the nodes at one position go to the nodes at one position. -/
structure SymmetricConditions {n : ℕ} (C : Setup n 3) (B : Finset (Fin n)) (Q : Matrix (Fin 3) (Fin 3) ℝ) (σ : Equiv.Perm (Fin n)) (ε : ℝ) : Prop where
  kind : ∀ i, σ i ∈ B ↔ i ∈ B
  value : ∀ i, C.nodes.tmpRhs (σ i) = ε * C.nodes.tmpRhs i
  normal : ∀ i, Turned Q (C.nodes.normal i) (C.nodes.normal (σ i))
  surfGrad : ∀ i, Turned Q (fun a => ε * C.nodes.surfGrad i a) (C.nodes.surfGrad (σ i))
  doubles : ∀ i, C.doubles (σ i) = (C.doubles i).image σ

/-! ## Matrices -/

variable {inp : Input 3} {D : Data} {S S' : SingRule} {Q : Matrix (Fin 3) (Fin 3) ℝ} {b : Fin 3 → ℝ}
  {σ : Equiv.Perm (Fin inp.nDofs)} {τ : Equiv.Perm ℕ} {ρ : ℕ → Equiv.Perm ℕ}

theorem symmetric_cellIntegral (h : SymmetricSurface inp D S' Q b σ τ ρ) (ker : Ker) (i : Fin inp.nDofs) {c : ℕ} (hc : c < inp.nCells) {j : ℕ}
    (hj : j < (inp.cellDofs c).length) : cellIntegral inp D S' ker (σ i) (τ c) (ρ c j) = cellIntegral inp D S' ker i c j := by
  obtain ⟨l, hl, hf⟩ := h.points i c hc
  rw [cellIntegral_points, cellIntegral_points, ← (hl.map _).sum_eq]
  clear hl
  generalize usedPoints inp D S' i c = m at hf
  induction hf with
  | nil => rfl
  | cons hp _ ih =>
    obtain ⟨h1, h2, h3, h4⟩ := hp
    have := kernelValue_moved h.orthogonal one_pos (h.nodes i) h1 h2
    rw [List.map_cons, List.sum_cons, List.map_cons, List.sum_cons, ih, h3 j hj, h4]
    congr 3
    cases ker with
    | double => simpa using this.1
    | single => simpa using this.2

theorem symmetric_surfaceIntegral (h : SymmetricSurface inp D S' Q b σ τ ρ) (ker : Ker) (i k : Fin inp.nDofs) :
    surfaceIntegral inp D S' ker (σ i) (σ k) = surfaceIntegral inp D S' ker i k := by
  symm
  unfold surfaceIntegral
  refine Finset.sum_equiv τ (fun c => by simp [h.cells]) fun c hc => ?_
  rw [Finset.mem_range] at hc
  rw [h.lengths c hc]
  refine Finset.sum_equiv (ρ c) (fun j => by simp [h.locals c hc]) fun j hj => ?_
  rw [Finset.mem_range] at hj
  rw [symmetric_cellIntegral h ker i hc hj]
  exact if_congr (h.dofs c hc j hj k) rfl rfl

/-- **C113** (matrices). The entries of both dense matrices at a pair of nodes and at the pair of their images are equal; whatever the partition. -/
theorem C113_matrices (h : SymmetricSurface inp D S' Q b σ τ ρ) (S : SingRule) (owner : ℕ → ℕ) (ker : Ker) (i k : Fin inp.nDofs) :
    solveMatrix inp D S S' .direct owner ker (σ i) (σ k) = solveMatrix inp D S S' .direct owner ker i k := by
  simp only [dense_entry]
  exact symmetric_surfaceIntegral h ker i k

/-- **C113** (free terms). The coefficients `alpha` of a node and of its image are equal. -/
theorem C113_alpha (h : SymmetricSurface inp D S' Q b σ τ ρ) (S : SingRule) (owner : ℕ → ℕ) (l : List (ℕ × ℕ)) (part : ℕ) (a alpha : Vec inp.nDofs)
    (ha : (computeAlpha .direct part (solveMatrix inp D S S' .direct owner .double) a (alphaHistory l)).2 = some alpha) (i : Fin inp.nDofs) :
    alpha (σ i) = alpha i := by
  have h1 := (C27_constants l .direct part _ alpha ha).1 i
  have h2 := (C27_constants l .direct part _ alpha ha).1 (σ i)
  have : ∑ k, solveMatrix inp D S S' .direct owner .double (σ i) k = ∑ k, solveMatrix inp D S S' .direct owner .double i k := by
    rw [← Equiv.sum_comp σ]
    exact Finset.sum_congr rfl fun k _ => C113_matrices h S owner .double i k
  linarith

/-! ## Results -/

theorem symmetric_normalGradient (hQ : Q.transpose * Q = 1) {n : ℕ} {C : Setup n 3} {B : Finset (Fin n)} {σ : Equiv.Perm (Fin n)} {ε : ℝ}
    (hC : SymmetricConditions C B Q σ ε) (i j : Fin n) :
    thisNormalGradient C.nodes (σ i) (σ j) = (thisNormalGradient C.nodes i j).map (ε * ·) := by
  have h1 : dot (C.nodes.normal (σ i)) (C.nodes.normal (σ j)) = dot (C.nodes.normal i) (C.nodes.normal j) :=
    turned_dot hQ (hC.normal i) (hC.normal j)
  have h2 : ∀ i j, dot (C.nodes.surfGrad (σ i)) (C.nodes.normal (σ j)) = ε * dot (C.nodes.surfGrad i) (C.nodes.normal j) := by
    intro i j
    unfold dot
    rw [turned_dot hQ (hC.surfGrad i) (hC.normal j), Finset.mul_sum]
    exact Finset.sum_congr rfl fun a _ => by ring
  unfold thisNormalGradient
  rw [h1, h2, h2]
  unfold fdiv
  split_ifs
  · rfl
  · simp only [Option.map_some]
    congr 1
    ring

/-- **C113** (exactness). Of two results of the dense method, one of which is the signed image of the other, both are exact or both are not. -/
theorem C113_exact (hsym : SymmetricSurface inp D S' Q b σ τ ρ) {ε : ℝ} (hε : ε * ε = 1) (C : Setup inp.nDofs 3) (hm : C.method = .direct)
    (gmres gmres' : (Vec inp.nDofs → Vec inp.nDofs) → Vec inp.nDofs → Vec inp.nDofs) (l l' : List (ℕ × ℕ)) (st st' : AlphaStatics)
    (phi0 dphi0 : Vec inp.nDofs) (X Y : Solution inp.nDofs)
    (h : solve inp D S S' C gmres (alphaHistory l) phi0 dphi0 = (st, some X))
    (h' : solve inp D S S' C gmres' (alphaHistory l') phi0 dphi0 = (st', some Y))
    (B : Finset (Fin inp.nDofs)) (hC : SymmetricConditions C B Q σ ε) (hP : Posed inp C B phi0 dphi0) (hdata : Consistent C B)
    (hphi : ∀ i, Y.phi (σ i) = ε * X.phi i) (hdphi : ∀ i, Y.dphi (σ i) = ε * X.dphi i) :
    (∀ i, Y.residual i = 0) ↔ ∀ i, X.residual i = 0 := by
  have hε0 : ε ≠ 0 := fun h0 => by simp [h0] at hε
  rw [C82_exact_solutions inp D S S' C gmres l st phi0 dphi0 X h B hP hdata.sharp hdata.agree,
    C82_exact_solutions inp D S S' C gmres' l' st' phi0 dphi0 Y h' B hP hdata.sharp hdata.agree]
  have hG : ∀ i, GradientNode C B (σ i) ↔ GradientNode C B i := by
    intro i
    unfold GradientNode
    rw [hC.doubles]
    simp only [Finset.exists_mem_image, hC.kind, ne_eq, EmbeddingLike.apply_eq_iff_eq]
  have hres : ∀ i : Fin inp.nDofs, methodResidual inp D S S' C.method C.owner Y.phi Y.dphi (σ i) =
      ε * methodResidual inp D S S' C.method C.owner X.phi X.dphi i := by
    intro i
    unfold methodResidual
    rw [hm, mul_sub, Finset.mul_sum, Finset.mul_sum, ← Equiv.sum_comp σ, ← Equiv.sum_comp σ fun k => _ * Y.dphi k]
    refine congrArg₂ (· - ·) (Finset.sum_congr rfl fun (k : Fin inp.nDofs) _ => ?_) (Finset.sum_congr rfl fun (k : Fin inp.nDofs) _ => ?_)
    · rw [C113_matrices hsym, hphi, hphi]; ring
    · rw [C113_matrices hsym, hdphi]; ring
  refine and_congr ?_ (and_congr ?_ ?_)
  · rw [σ.surjective.forall]
    refine forall_congr' fun i => ?_
    rw [hG, hres, mul_eq_zero, or_iff_right hε0]
  · rw [σ.surjective.forall]
    refine forall_congr' fun i => ?_
    rw [hC.doubles, Finset.forall_mem_image, hphi]
    refine forall₂_congr fun j _ => ?_
    rw [hphi, mul_right_inj' hε0]
  · refine forall_congr' fun _ => ?_
    rw [σ.surjective.forall]
    refine forall_congr' fun i => ?_
    rw [hC.kind, hC.doubles]
    refine imp_congr Iff.rfl ?_
    rw [Finset.forall_mem_image]
    refine forall₂_congr fun j _ => ?_
    rw [hC.kind, σ.injective.ne_iff, symmetric_normalGradient hsym.orthogonal hC, hdphi]
    refine imp_congr Iff.rfl (imp_congr Iff.rfl ?_)
    cases thisNormalGradient C.nodes i j with
    | none => simp
    | some g =>
      simp only [Option.map_some, Option.some.injEq]
      exact mul_right_inj' hε0

/-- **C113** (results). Dense method. Exact solves of a regular problem with even or odd boundary conditions on a symmetric surface return even or odd potentials and
normal derivatives; whatever the partition, the numbering and the linear solver. -/
theorem C113_symmetric (hsym : SymmetricSurface inp D S' Q b σ τ ρ) {ε : ℝ} (hε : ε * ε = 1) (C : Setup inp.nDofs 3) (hm : C.method = .direct)
    (gmres : (Vec inp.nDofs → Vec inp.nDofs) → Vec inp.nDofs → Vec inp.nDofs) (l : List (ℕ × ℕ)) (st : AlphaStatics)
    (phi0 dphi0 : Vec inp.nDofs) (X : Solution inp.nDofs)
    (h : solve inp D S S' C gmres (alphaHistory l) phi0 dphi0 = (st, some X))
    (B : Finset (Fin inp.nDofs)) (hC : SymmetricConditions C B Q σ ε) (hP : Posed inp C B phi0 dphi0) (hdata : Consistent C B)
    (hdet : Determined inp D S S' C (alphaHistory l) phi0 dphi0) (hX : ∀ i, X.residual i = 0) (i : Fin inp.nDofs) :
    X.phi (σ i) = ε * X.phi i ∧ X.dphi (σ i) = ε * X.dphi i := by
  obtain ⟨Y, hY, hsol⟩ := solve_any h (fun i => ε * X.sol (σ.symm i))
  obtain ⟨-, -, p1, p2, -⟩ := solve_rows hY B hP.dirichlet hP.neumann hP.bc hP.phi hP.dphi
  obtain ⟨-, -, q1, q2, -⟩ := solve_rows h B hP.dirichlet hP.neumann hP.bc hP.phi hP.dphi
  have e1 : ∀ i, Y.phi (σ i) = ε * X.phi i := by
    intro i
    rw [p1, q1]
    simp only [merge, hC.kind, hC.value, hsol, Equiv.symm_apply_apply]
    split_ifs <;> rfl
  have e2 : ∀ i, Y.dphi (σ i) = ε * X.dphi i := by
    intro i
    rw [p2, q2]
    simp only [merge, hC.kind, hC.value, hsol, Equiv.symm_apply_apply]
    split_ifs <;> rfl
  have hres := (C113_exact hsym hε C hm gmres _ l l st st phi0 dphi0 X Y h hY B hC hP hdata e1 e2).2 hX
  obtain ⟨f1, f2⟩ := hdet _ _ _ _ Y X hY h hres hX
  rw [← e1, ← e2, f1, f2]
  exact ⟨rfl, rfl⟩

/-- **C113** (odd data). With odd boundary conditions the potential and the normal derivative vanish at the nodes that the motion leaves at their place. -/
theorem C113_odd (hsym : SymmetricSurface inp D S' Q b σ τ ρ) (C : Setup inp.nDofs 3) (hm : C.method = .direct)
    (gmres : (Vec inp.nDofs → Vec inp.nDofs) → Vec inp.nDofs → Vec inp.nDofs) (l : List (ℕ × ℕ)) (st : AlphaStatics)
    (phi0 dphi0 : Vec inp.nDofs) (X : Solution inp.nDofs)
    (h : solve inp D S S' C gmres (alphaHistory l) phi0 dphi0 = (st, some X))
    (B : Finset (Fin inp.nDofs)) (hC : SymmetricConditions C B Q σ (-1)) (hP : Posed inp C B phi0 dphi0) (hdata : Consistent C B)
    (hdet : Determined inp D S S' C (alphaHistory l) phi0 dphi0) (hX : ∀ i, X.residual i = 0) (i : Fin inp.nDofs) (hi : σ i = i) :
    X.phi i = 0 ∧ X.dphi i = 0 := by
  obtain ⟨h1, h2⟩ := C113_symmetric hsym (by norm_num) C hm gmres l st phi0 dphi0 X h B hC hP hdata hdet hX i
  rw [hi] at h1 h2
  constructor <;> linarith

/-! ## The cube, reflected at the plane through two opposite edges -/

theorem cube_points (R : SingRule) (i c : ℕ) : usedPoints (cubeInput 3 0) cubeData R i c =
    if i ∈ (cubeInput 3 0).cellDofs c then R c (((cubeInput 3 0).cellDofs c).idxOf i)
    else [⟨toV ((cubeInput 3 0).qpos (c, 0)), toV ((cubeInput 3 0).qpos (c, 0)), fun _ => 1 / 4, 4⟩] := by
  have hd : ∀ i, (cubeInput 3 0).doubles i = {i} := fun _ => rfl
  unfold usedPoints
  by_cases h : i ∈ (cubeInput 3 0).cellDofs c
  · have hex : ∃ s, s < ((cubeInput 3 0).cellDofs c).length ∧ ((cubeInput 3 0).cellDofs c).getD s 0 ∈ (cubeInput 3 0).doubles i := by
      refine ⟨((cubeInput 3 0).cellDofs c).idxOf i, List.idxOf_lt_length_iff.2 h, ?_⟩
      rw [List.getD_eq_getElem _ _ (List.idxOf_lt_length_iff.2 h)]
      simp [hd]
    have hf : Nat.find hex = ((cubeInput 3 0).cellDofs c).idxOf i := by
      rw [Nat.find_eq_iff]
      refine ⟨⟨List.idxOf_lt_length_iff.2 h, ?_⟩, fun n hn => ?_⟩
      · rw [List.getD_eq_getElem _ _ (List.idxOf_lt_length_iff.2 h)]
        simp [hd]
      · rintro ⟨h1, h2⟩
        rw [List.getD_eq_getElem _ _ h1, hd, Finset.mem_singleton] at h2
        have := List.not_of_lt_findIdx (p := (· == i)) (xs := (cubeInput 3 0).cellDofs c) hn
        simp [h2] at this
    rw [dif_pos hex, hf, if_pos h]
  · rw [dif_neg, if_neg h]
    · rfl
    · rintro ⟨s, h1, h2⟩
      rw [List.getD_eq_getElem _ _ h1, hd, Finset.mem_singleton] at h2
      exact h (h2 ▸ List.getElem_mem h1)

/-- The reflection that exchanges the second and the third coordinate. -/
def mirror : Matrix (Fin 3) (Fin 3) ℝ := !![1, 0, 0; 0, 0, 1; 0, 1, 0]

/-- The nodes of the cube under the reflection. -/
def mirrorNodes : Equiv.Perm (Fin 8) := Equiv.swap 2 4 * Equiv.swap 3 5

/-- The faces of the cube under the reflection. -/
def mirrorCells : Equiv.Perm ℕ := Equiv.swap 2 4 * Equiv.swap 3 5

/-- The vertices of the faces under the reflection. -/
def mirrorLocal (c : ℕ) : Equiv.Perm ℕ := if c < 2 then Equiv.swap 1 2 else 1

theorem mirror_list : ∀ i, mirrorNodes i = ![0, 1, 4, 5, 2, 3, 6, 7] i := by decide

theorem turned_mirror {x y : Fin 3 → ℝ} (h0 : y 0 = x 0) (h1 : y 1 = x 2) (h2 : y 2 = x 1) : Turned mirror x y := by
  intro a
  fin_cases a <;> simp [mirror, Fin.sum_univ_three, h0, h1, h2]

theorem moved_mirror {x y : Fin 3 → ℝ} (h0 : y 0 = x 0) (h1 : y 1 = x 2) (h2 : y 2 = x 1) : Moved mirror 1 0 x y := by
  intro a
  have := turned_mirror h0 h1 h2 a
  rw [this]
  simp

theorem cube_mirror : SymmetricSurface (cubeInput 3 0) cubeData nodeRule mirror 0 mirrorNodes mirrorCells mirrorLocal := by
  have hpos : ∀ i : Fin 8, (cubeInput 3 0).pos (mirrorNodes i) 0 = (cubeInput 3 0).pos i 0 ∧ (cubeInput 3 0).pos (mirrorNodes i) 1 = (cubeInput 3 0).pos i 2 ∧
      (cubeInput 3 0).pos (mirrorNodes i) 2 = (cubeInput 3 0).pos i 1 := by decide +kernel
  have hface : ∀ c < 6, (cubeInput 3 0).qpos (mirrorCells c, 0) 0 = (cubeInput 3 0).qpos (c, 0) 0 ∧
      (cubeInput 3 0).qpos (mirrorCells c, 0) 1 = (cubeInput 3 0).qpos (c, 0) 2 ∧
      (cubeInput 3 0).qpos (mirrorCells c, 0) 2 = (cubeInput 3 0).qpos (c, 0) 1 := by decide +kernel
  have hlen : ∀ c, c < 6 → ((cubeInput 3 0).cellDofs c).length = 4 := by decide +kernel
  have hcells : ∀ c < 6, mirrorCells c < 6 := by decide +kernel
  have hbig : ∀ c, ¬ c < 6 → ¬ mirrorCells c < 6 := by
    intro c hc
    have : mirrorCells c = c := by
      simp only [mirrorCells, Equiv.Perm.mul_apply]
      rw [Equiv.swap_apply_of_ne_of_ne (a := 3) (b := 5) (x := c) (by omega) (by omega), Equiv.swap_apply_of_ne_of_ne (by omega) (by omega)]
    rwa [this]
  have hloc : ∀ c < 6, ∀ j < 4, mirrorLocal c j < 4 := by decide +kernel
  have hlocbig : ∀ c j, ¬ j < 4 → ¬ mirrorLocal c j < 4 := by
    intro c j hj
    have : mirrorLocal c j = j := by
      unfold mirrorLocal
      split_ifs
      · exact Equiv.swap_apply_of_ne_of_ne (by omega) (by omega)
      · rfl
    rwa [this]
  have hmem : ∀ i : Fin 8, ∀ c < 6, (mirrorNodes i).val ∈ (cubeInput 3 0).cellDofs (mirrorCells c) ↔ i.val ∈ (cubeInput 3 0).cellDofs c := by decide +kernel
  have hidx : ∀ i : Fin 8, ∀ c < 6, i.val ∈ (cubeInput 3 0).cellDofs c →
      ((cubeInput 3 0).cellDofs (mirrorCells c)).idxOf (mirrorNodes i).val = mirrorLocal c (((cubeInput 3 0).cellDofs c).idxOf i.val) := by decide +kernel
  have hget : ∀ i : Fin 8, ∀ c < 6, i.val ∈ (cubeInput 3 0).cellDofs c →
      ((cubeInput 3 0).cellDofs c).getD (((cubeInput 3 0).cellDofs c).idxOf i.val) 0 = i := by decide +kernel
  have hdofs : ∀ c < 6, ∀ j < 4, ∀ k : Fin 8, ((cubeInput 3 0).cellDofs c).getD j 0 = k.val ↔
      ((cubeInput 3 0).cellDofs (mirrorCells c)).getD (mirrorLocal c j) 0 = (mirrorNodes k).val := by decide +kernel
  have hpts : ∀ i : Fin 8, ∀ c < 6, List.Forall₂ (PointImage mirror 0 (mirrorLocal c) ((cubeInput 3 0).cellDofs c).length)
      (usedPoints (cubeInput 3 0) cubeData nodeRule i c) (usedPoints (cubeInput 3 0) cubeData nodeRule (mirrorNodes i) (mirrorCells c)) := by
    intro i c hc
    rw [cube_points, cube_points]
    by_cases h : i.val ∈ (cubeInput 3 0).cellDofs c
    · rw [if_pos h, if_pos ((hmem i c hc).2 h)]
      have e1 := hget i c hc h
      have e2 := hget (mirrorNodes i) (mirrorCells c) (hcells c hc) ((hmem i c hc).2 h)
      rw [hidx i c hc h] at e2 ⊢
      simp only [nodeRule, e1, e2]
      refine List.Forall₂.cons ⟨?_, ?_, fun j _ => ?_, rfl⟩ List.Forall₂.nil
      · obtain ⟨h0, h1, h2⟩ := hpos i
        refine moved_mirror ?_ ?_ ?_ <;> simp [toV, h0, h1, h2]
      · refine turned_mirror ?_ ?_ ?_ <;> simp
      · simp only [(mirrorLocal c).injective.eq_iff]
    · rw [if_neg h, if_neg (fun h' => h ((hmem i c hc).1 h'))]
      obtain ⟨h0, h1, h2⟩ := hface c hc
      exact List.Forall₂.cons ⟨moved_mirror (congrArg Rat.cast h0) (congrArg Rat.cast h1) (congrArg Rat.cast h2), turned_mirror (congrArg Rat.cast h0) (congrArg Rat.cast h1) (congrArg Rat.cast h2),
        fun _ _ => rfl, rfl⟩ List.Forall₂.nil
  refine ⟨?_, ?_, fun c => ⟨fun h => by_contra fun hn => hbig c hn h, hcells c⟩, fun c hc => ?_, fun c hc j => ?_, fun c hc j hj k => ?_, fun i c hc => ?_⟩
  · ext a e
    fin_cases a <;> fin_cases e <;> simp [mirror, Matrix.mul_apply, Fin.sum_univ_three]
  · intro i
    obtain ⟨h0, h1, h2⟩ := hpos i
    exact moved_mirror (congrArg _ h0) (congrArg _ h1) (congrArg _ h2)
  · rw [hlen c hc, hlen _ (hcells c hc)]
  · rw [hlen c hc]
    exact ⟨fun h => by_contra fun hn => hlocbig c j hn h, hloc c hc j⟩
  · rw [hlen c hc] at hj
    exact hdofs c hc j hj k
  · exact ⟨_, List.Perm.refl _, hpts i c hc⟩

theorem cube_conditions (procs : ℕ) (ε : ℝ) (g : Vec 8) (hg : ∀ i, g (mirrorNodes i) = ε * g i) :
    SymmetricConditions (cubeDirichlet procs g) Finset.univ mirror mirrorNodes ε where
  kind := fun _ => by simp
  value := hg
  normal := fun _ a => by simp [cubeDirichlet]
  surfGrad := fun _ a => by simp [cubeDirichlet]
  doubles := fun i => by simp [cubeDirichlet, cubeSetup]

theorem node_injective (x : Vec 8) (hx : ∀ i : Fin 8, ∑ k : Fin 8, surfaceIntegral (cubeInput 3 0) cubeData nodeRule .single i k * x k = 0) : x = 0 := by
  funext i
  have := diag_dominant (fun i k : Fin 8 => surfaceIntegral (cubeInput 3 0) cubeData nodeRule .single i k) (6 / (4 * Real.pi)) (by positivity)
    cube_row x 0 (fun i => by rw [hx i, abs_zero]) i
  rw [mul_zero] at this
  exact abs_nonpos_iff.1 this

/-- what an exact run on the cube returns -/
theorem node_rows {S : SingRule} {procs : ℕ} {g : Vec 8} {gmres : (Vec 8 → Vec 8) → Vec 8 → Vec 8} {st : AlphaStatics} {X : Solution 8}
    (h : solve (cubeInput 3 0) cubeData S nodeRule (cubeDirichlet procs g) gmres (alphaHistory []) g (fun _ => 0) = (st, some X)) :
    (∀ i, X.phi i = g i) ∧ X.dphi = X.sol ∧ ((∀ i, X.residual i = 0) ↔
    ∀ i : Fin 8, ∑ k : Fin 8, surfaceIntegral (cubeInput 3 0) cubeData nodeRule .single i k * X.sol k =
      ∑ k : Fin 8, surfaceIntegral (cubeInput 3 0) cubeData nodeRule .double i k * (g k - g i)) := by
  have hP := cubeDirichlet_posed procs g (fun _ => 0)
  have hc := cubeDirichlet_consistent procs g
  obtain ⟨c, -, h1, h2, -, -⟩ := solve_rows h Finset.univ hP.dirichlet hP.neumann hP.bc hP.phi hP.dphi
  have hphi : ∀ i, X.phi i = g i := fun i => by rw [h1]; exact if_pos (Finset.mem_univ (i : Fin 8))
  have hdphi : ∀ i, X.dphi i = X.sol i := fun i => by rw [h2]; exact if_pos (Finset.mem_univ (i : Fin 8))
  have hx := C82_exact_solutions _ _ _ _ _ _ _ _ _ _ X h Finset.univ hP hc.sharp hc.agree
  have hres : ∀ i : Fin 8, methodResidual (cubeInput 3 0) cubeData S nodeRule (cubeDirichlet procs g).method (cubeDirichlet procs g).owner X.phi X.dphi i =
      (∑ k : Fin 8, surfaceIntegral (cubeInput 3 0) cubeData nodeRule .double i k * (g k - g i)) -
        ∑ k : Fin 8, surfaceIntegral (cubeInput 3 0) cubeData nodeRule .single i k * X.sol k := by
    intro i
    refine (methodResidual_direct _ _ _ _ _ _ _ _).trans ?_
    rw [show X.phi = g from funext hphi, show X.dphi = X.sol from funext hdphi]
    rfl
  refine ⟨hphi, funext hdphi, fun hr i => ?_, fun hr => hx.2 ⟨fun i _ => ?_, fun i j hj => ?_, fun hcg => ?_⟩⟩
  · have := (hx.1 hr).1 i fun hg => by simp [GradientNode, cubeDirichlet] at hg
    rw [hres] at this
    exact (sub_eq_zero.1 this).symm
  · refine (hres i).trans (sub_eq_zero.2 (hr i).symm)
  · rw [Finset.mem_singleton.1 hj]
  · simp [cubeDirichlet] at hcg

theorem node_determined (S : SingRule) (procs : ℕ) (g : Vec 8) :
    Determined (cubeInput 3 0) cubeData S nodeRule (cubeDirichlet procs g) (alphaHistory []) g (fun _ => 0) := by
  intro g₁ g₂ st₁ st₂ X₁ X₂ h₁ h₂ r₁ r₂
  obtain ⟨a1, b1, c1⟩ := node_rows h₁
  obtain ⟨a2, b2, c2⟩ := node_rows h₂
  refine ⟨funext fun i => (a1 i).trans (a2 i).symm, ?_⟩
  have := node_injective (fun k => X₁.sol k - X₂.sol k) fun i => by
    simp only [mul_sub, Finset.sum_sub_distrib]
    rw [c1.1 r₁ i, c2.1 r₂ i, sub_self]
  exact b1.trans ((funext fun i => sub_eq_zero.1 (congrFun this i)).trans b2.symm)

theorem node_exact (S : SingRule) (procs : ℕ) (g : Vec 8) : ∃ (gmres : (Vec 8 → Vec 8) → Vec 8 → Vec 8) (st : AlphaStatics) (X : Solution 8),
    solve (cubeInput 3 0) cubeData S nodeRule (cubeDirichlet procs g) gmres (alphaHistory []) g (fun _ => 0) = (st, some X) ∧ ∀ i, X.residual i = 0 := by
  set M : Fin 8 → Fin 8 → ℝ := fun i k => surfaceIntegral (cubeInput 3 0) cubeData nodeRule .single i k with hM
  have hinj : Function.Injective (Matrix.toLin' (Matrix.of M)) := by
    rw [injective_iff_map_eq_zero]
    intro x hx
    refine node_injective x fun i => ?_
    have := congrFun hx i
    simpa only [Matrix.toLin'_apply, Matrix.mulVec, dotProduct, Matrix.of_apply, Pi.zero_apply] using this
  obtain ⟨v, hv⟩ := LinearMap.injective_iff_surjective.1 hinj fun i => ∑ k : Fin 8, surfaceIntegral (cubeInput 3 0) cubeData nodeRule .double i k * (g k - g i)
  have hl := constraints_no_doubles (cubeDirichlet procs g).nodes (fun i => Or.inr rfl) (fun _ => none) (by simp) 1 (by simp) (List.finRange _)
  obtain ⟨st, X0, h0⟩ := solve_some (inp := cubeInput 3 0) (D := cubeData) (S := S) (S' := nodeRule) (C := cubeDirichlet procs g)
    (gmres := fun _ _ => v) (st := alphaHistory []) (phi0 := g) (dphi0 := fun _ => 0)
    (by simp [alphaHistory, alphaStaticsStep, AlphaStatics.init, cubeInput]) hl
  obtain ⟨X, h, hsol⟩ := solve_any h0 v
  refine ⟨_, st, X, h, (node_rows h).2.2.2 fun i => ?_⟩
  have := congrFun hv i
  rw [hsol]
  simpa only [Matrix.toLin'_apply, Matrix.mulVec, dotProduct, Matrix.of_apply] using this

/-- the hypotheses of `C113_symmetric` hold for the potential `4 i₀ + i₁ + i₂` (`i₀ i₁ i₂` the signs of the coordinates) on the cube: nodes 2 and 4 have the same normal derivative -/
example (S : SingRule) (procs : ℕ) : ∃ (gmres : (Vec 8 → Vec 8) → Vec 8 → Vec 8) (st : AlphaStatics) (X : Solution 8),
    solve (cubeInput 3 0) cubeData S nodeRule (cubeDirichlet procs ![0, 4, 1, 5, 1, 5, 2, 6]) gmres (alphaHistory []) ![0, 4, 1, 5, 1, 5, 2, 6] (fun _ => 0) = (st, some X) ∧
    (∀ i, X.residual i = 0) ∧ X.dphi (2 : Fin 8) = X.dphi (4 : Fin 8) ∧ X.phi (2 : Fin 8) = 1 ∧ X.phi (1 : Fin 8) = 4 := by
  obtain ⟨gmres, st, X, h, hr⟩ := node_exact S procs ![0, 4, 1, 5, 1, 5, 2, 6]
  have hp := (node_rows h).1
  have hs := C113_symmetric cube_mirror (one_mul 1) (cubeDirichlet procs ![0, 4, 1, 5, 1, 5, 2, 6]) rfl gmres [] st _ _ X h Finset.univ
    (cube_conditions procs 1 _ fun i => by rw [mirror_list]; fin_cases i <;> simp) (cubeDirichlet_posed procs _ _)
    (cubeDirichlet_consistent procs _) (node_determined S procs _) hr (4 : Fin 8)
  refine ⟨gmres, st, X, h, hr, ?_, ?_, ?_⟩
  · have := hs.2
    rw [one_mul] at this
    exact this
  · rw [hp]; rfl
  · rw [hp]; rfl

/-- the hypotheses of `C113_odd` hold for the potential `i₁ - i₂` on the cube: the normal derivative at node 7, which the reflection fixes, is zero, while the potential is not -/
example (S : SingRule) (procs : ℕ) : ∃ (gmres : (Vec 8 → Vec 8) → Vec 8 → Vec 8) (st : AlphaStatics) (X : Solution 8),
    solve (cubeInput 3 0) cubeData S nodeRule (cubeDirichlet procs ![0, 0, 1, 1, -1, -1, 0, 0]) gmres (alphaHistory []) ![0, 0, 1, 1, -1, -1, 0, 0] (fun _ => 0) = (st, some X) ∧
    (∀ i, X.residual i = 0) ∧ X.dphi (7 : Fin 8) = 0 ∧ X.phi (2 : Fin 8) = 1 := by
  obtain ⟨gmres, st, X, h, hr⟩ := node_exact S procs ![0, 0, 1, 1, -1, -1, 0, 0]
  have hp := (node_rows h).1
  have hs := C113_odd cube_mirror (cubeDirichlet procs ![0, 0, 1, 1, -1, -1, 0, 0]) rfl gmres [] st _ _ X h Finset.univ
    (cube_conditions procs (-1) _ fun i => by
      rw [mirror_list]; fin_cases i <;> simp) (cubeDirichlet_posed procs _ _)
    (cubeDirichlet_consistent procs _) (node_determined S procs _) hr (7 : Fin 8) rfl
  exact ⟨gmres, st, X, h, hr, hs.2, by rw [hp]; rfl⟩

/-- the coefficients `alpha` of nodes 2 and 4 are equal -/
example (S : SingRule) (owner : ℕ → ℕ) : ∃ alpha : Vec (cubeInput 3 0).nDofs,
    (computeAlpha .direct 1 (solveMatrix (cubeInput 3 0) cubeData S nodeRule .direct owner .double) 0 (alphaHistory [])).2 = some alpha ∧
    alpha (2 : Fin 8) = alpha (4 : Fin 8) := by
  obtain ⟨alpha, ha⟩ : ∃ alpha, (computeAlpha .direct 1 (solveMatrix (cubeInput 3 0) cubeData S nodeRule .direct owner .double) 0 (alphaHistory [])).2 =
      some alpha := ⟨_, by simp [computeAlpha, alphaHistory, alphaStaticsStep, AlphaStatics.init, cubeInput]; rfl⟩
  exact ⟨alpha, ha, C113_alpha cube_mirror S owner [] 1 0 alpha ha (4 : Fin 8)⟩

end PiBem.Bem
