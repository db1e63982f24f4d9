import Verif.Props.Symmetric
import Verif.Props.ConvexPlane

/-!
# C113 with hanging nodes and in dimension 2

The symmetry of the results for arbitrary matrices with the symmetry of the surface, hanging nodes included; the plane.
-/

noncomputable section

namespace PiBem.Bem

open PiBem.Octree PiBem.Fmm PiBem.Expansion

variable {n d : ℕ}

/-- A linear problem that the permutation `σ` of the nodes maps to itself: entries of the matrices, kinds of the conditions and, up to the sign `ε`, data and scalar products of
surface gradients and normals are the same at nodes and at their images; double nodes go to double nodes, hanging nodes to hanging nodes, the entries of whose constraint may
come in another order. -/
structure SymmetricH (σ : Equiv.Perm (Fin n)) (ε : ℝ) (N M : Mat n) (C : Setup n d) (B : Finset (Fin n)) : Prop where
  double : ∀ i k, N (σ i) (σ k) = N i k
  single : ∀ i k, M (σ i) (σ k) = M i k
  kind : ∀ i, σ i ∈ B ↔ i ∈ B
  value : ∀ i, C.nodes.tmpRhs (σ i) = ε * C.nodes.tmpRhs i
  normal : ∀ i j, dot (C.nodes.normal (σ i)) (C.nodes.normal (σ j)) = dot (C.nodes.normal i) (C.nodes.normal j)
  surfGrad : ∀ i j, dot (C.nodes.surfGrad (σ i)) (C.nodes.normal (σ j)) = ε * dot (C.nodes.surfGrad i) (C.nodes.normal j)
  doubles : ∀ i, C.doubles (σ i) = (C.doubles i).image σ
  free : ∀ i, C.hanging i = none → C.hanging (σ i) = none
  hanging : ∀ i es, C.hanging i = some es → ∃ es', C.hanging (σ i) = some es' ∧ es'.Perm (es.map fun x => (σ x.1, x.2))

variable {σ : Equiv.Perm (Fin n)} {ε : ℝ} {N M : Mat n} {C : Setup n d} {B : Finset (Fin n)}

theorem SymmetricH.gradient (hC : SymmetricH σ ε N M C B) (i j : Fin n) :
    thisNormalGradient C.nodes (σ i) (σ j) = (thisNormalGradient C.nodes i j).map (ε * ·) := by
  unfold thisNormalGradient
  rw [hC.normal, hC.surfGrad, hC.surfGrad]
  unfold fdiv
  split_ifs
  · rfl
  · simp only [Option.map_some]
    congr 1
    ring

/-- **C113** (hanging nodes, exactness). Of two results one of which is the signed image of the other both are exact or both are not, on meshes with hanging nodes. -/
theorem C113_hanging_exact (hε : ε * ε = 1) (hC : SymmetricH σ ε N M C B) (gmres gmres' : (Vec n → Vec n) → Vec n → Vec n) (l l' : List (ℕ × ℕ))
    (st st' : AlphaStatics) (phi0 dphi0 : Vec n) (X Y : Solution n)
    (h : solveWith N M C gmres (alphaHistory l) phi0 dphi0 = (st, some X)) (h' : solveWith N M C gmres' (alphaHistory l') phi0 dphi0 = (st', some Y))
    (hP : PosedH N M C B phi0 dphi0) (hdata : Consistent C B) (hphi : ∀ i, Y.phi (σ i) = ε * X.phi i) (hdphi : ∀ i, Y.dphi (σ i) = ε * X.dphi i) :
    (∀ i, Y.residual i = 0) ↔ ∀ i, X.residual i = 0 := by
  have hε0 : ε ≠ 0 := fun h0 => by simp [h0] at hε
  have hsur := σ.surjective
  rw [C91_exact_solutions N M C gmres l st phi0 dphi0 X h B hP hdata, C91_exact_solutions N M C gmres' l' st' phi0 dphi0 Y h' B hP hdata]
  have hG : ∀ i, GradientNode C B (σ i) ↔ GradientNode C B i := by
    intro i
    unfold GradientNode
    rw [hC.doubles]
    simp only [Finset.exists_mem_image, hC.kind, ne_eq, EmbeddingLike.apply_eq_iff_eq]
  have hhang : ∀ i, C.hanging (σ i) = none ↔ C.hanging i = none := by
    intro i
    refine ⟨fun h => ?_, hC.free i⟩
    by_contra hne
    obtain ⟨es, hes⟩ := Option.ne_none_iff_exists'.1 hne
    obtain ⟨es', hes', -⟩ := hC.hanging i es hes
    rw [h] at hes'
    cases hes'
  have heqn : ∀ i, eqResidual N M Y.phi Y.dphi (σ i) = ε * eqResidual N M X.phi X.dphi i := by
    intro i
    unfold eqResidual
    rw [mul_sub, Finset.mul_sum, Finset.mul_sum, ← Equiv.sum_comp σ, ← Equiv.sum_comp σ fun k => _ * Y.dphi k]
    refine congrArg₂ (· - ·) (Finset.sum_congr rfl fun k _ => ?_) (Finset.sum_congr rfl fun k _ => ?_)
    · rw [hC.double, hphi, hphi]; ring
    · rw [hC.single, hdphi]; ring
  have hun : ∀ i, unknown B Y.phi Y.dphi (σ i) = ε * unknown B X.phi X.dphi i := by
    intro i
    unfold unknown merge
    simp only [hC.kind, hphi, hdphi]
    split_ifs <;> rfl
  have hsum : ∀ es es' : List (Fin n × ℝ), es'.Perm (es.map fun x => (σ x.1, x.2)) →
      (es'.map fun x => x.2 * unknown B Y.phi Y.dphi x.1).sum = ε * (es.map fun x => x.2 * unknown B X.phi X.dphi x.1).sum := by
    intro es es' hp
    rw [(hp.map _).sum_eq, List.map_map, ← List.sum_map_mul_left]
    congr 1
    refine List.map_congr_left fun x _ => ?_
    simp only [Function.comp, hun]
    ring
  refine and_congr ?_ (and_congr ?_ (and_congr ?_ ?_))
  · rw [hsur.forall]
    refine forall_congr' fun i => ?_
    rw [hG, hhang, heqn, mul_eq_zero, or_iff_right hε0]
  · rw [hsur.forall]
    refine forall_congr' fun i => ?_
    rw [hC.doubles, Finset.forall_mem_image, hphi]
    exact forall₂_congr fun j _ => by rw [hphi, mul_right_inj' hε0]
  · refine forall_congr' fun _ => ?_
    rw [hsur.forall]
    refine forall_congr' fun i => ?_
    rw [hC.kind, hC.doubles]
    refine imp_congr Iff.rfl ?_
    rw [Finset.forall_mem_image]
    refine forall₂_congr fun j _ => ?_
    rw [hC.kind, σ.injective.ne_iff, hC.gradient, hdphi]
    refine imp_congr Iff.rfl (imp_congr Iff.rfl ?_)
    cases thisNormalGradient C.nodes i j with
    | none => simp
    | some g =>
      simp only [Option.map_some, Option.some.injEq]
      exact mul_right_inj' hε0
  · rw [hsur.forall]
    refine forall_congr' fun i => ?_
    rw [hun]
    constructor
    · intro hx es hes
      obtain ⟨es', hes', hp⟩ := hC.hanging i es hes
      have := hx es' hes'
      rw [hsum es es' hp] at this
      exact mul_left_cancel₀ hε0 this
    · intro hx es' hes'
      obtain ⟨es, hes⟩ := Option.ne_none_iff_exists'.1 (show C.hanging i ≠ none by
        rw [ne_eq, ← hhang, hes']
        simp)
      obtain ⟨es'', hes'', hp⟩ := hC.hanging i es hes
      rw [hes'', Option.some.injEq] at hes'
      subst hes'
      rw [hx es hes, hsum es es'' hp]

/-- **C113** (hanging nodes, results). The results of exact solves of a regular symmetric problem have its symmetry, on meshes with hanging nodes. -/
theorem C113_hanging (hε : ε * ε = 1) (hC : SymmetricH σ ε N M C B) (gmres : (Vec n → Vec n) → Vec n → Vec n) (l : List (ℕ × ℕ))
    (st : AlphaStatics) (phi0 dphi0 : Vec n) (X : Solution n) (h : solveWith N M C gmres (alphaHistory l) phi0 dphi0 = (st, some X))
    (hP : PosedH N M C B phi0 dphi0) (hdata : Consistent C B) (hdet : DeterminedH N M C (alphaHistory l) phi0 dphi0)
    (hX : ∀ i, X.residual i = 0) (i : Fin n) : X.phi (σ i) = ε * X.phi i ∧ X.dphi (σ i) = ε * X.dphi i := by
  obtain ⟨Y, hY, hsol⟩ := solveWith_any h (fun i => ε * X.sol (σ.symm i))
  obtain ⟨-, -, p1, p2, -⟩ := solveWith_rows hY B hP.dirichlet hP.neumann hP.bc hP.phi hP.dphi
  obtain ⟨-, -, q1, q2, -⟩ := solveWith_rows h B hP.dirichlet hP.neumann hP.bc hP.phi hP.dphi
  have e1 : ∀ i, Y.phi (σ i) = ε * X.phi i := by
    intro i
    rw [p1, q1]
    simp only [merge, hC.kind, hC.value, hsol, Equiv.symm_apply_apply]
    split_ifs <;> rfl
  have e2 : ∀ i, Y.dphi (σ i) = ε * X.dphi i := by
    intro i
    rw [p2, q2]
    simp only [merge, hC.kind, hC.value, hsol, Equiv.symm_apply_apply]
    split_ifs <;> rfl
  have hres := (C113_hanging_exact hε hC gmres _ l l st st phi0 dphi0 X Y h hY hP hdata e1 e2).2 hX
  obtain ⟨f1, f2⟩ := hdet _ _ _ _ Y X hY h hres hX
  rw [← e1, ← e2, f1, f2]
  exact ⟨rfl, rfl⟩

/-- **C113** (hanging nodes, dimension 3). The dense method on a symmetric surface fulfils the hypotheses of `C113_hanging`, if the motion maps hanging nodes to hanging nodes. -/
theorem C113_dimension3 {inp : Input 3} {D : Data} {S' : SingRule} {Q : Matrix (Fin 3) (Fin 3) ℝ} {b : Fin 3 → ℝ}
    {σ : Equiv.Perm (Fin inp.nDofs)} {τ : Equiv.Perm ℕ} {ρ : ℕ → Equiv.Perm ℕ} (hsym : SymmetricSurface inp D S' Q b σ τ ρ) (S : SingRule)
    (C : Setup inp.nDofs 3) (hm : C.method = .direct) (B : Finset (Fin inp.nDofs)) (hC : SymmetricConditions C B Q σ ε)
    (free : ∀ i, C.hanging i = none → C.hanging (σ i) = none)
    (hanging : ∀ i es, C.hanging i = some es → ∃ es', C.hanging (σ i) = some es' ∧ es'.Perm (es.map fun x => (σ x.1, x.2))) :
    SymmetricH σ ε (solveMatrix inp D S S' C.method C.owner .double) (solveMatrix inp D S S' C.method C.owner .single) C B := by
  refine ⟨fun i k => ?_, fun i k => ?_, hC.kind, hC.value, fun i j => ?_, fun i j => ?_, hC.doubles, free, hanging⟩
  · rw [hm]; exact C113_matrices hsym S C.owner .double i k
  · rw [hm]; exact C113_matrices hsym S C.owner .single i k
  · exact turned_dot hsym.orthogonal (hC.normal i) (hC.normal j)
  · unfold dot
    rw [turned_dot hsym.orthogonal (hC.surfGrad i) (hC.normal j), Finset.mul_sum]
    exact Finset.sum_congr rfl fun a _ => by ring

/-! ## Dimension 2 -/

namespace Plane

/-- `P'` is the image of the quadrature point `P` of a cell. -/
def PointImage (Q : Matrix (Fin 2) (Fin 2) ℝ) (b : V2) (ρ : Equiv.Perm ℕ) (m : ℕ) (P P' : QPoint) : Prop :=
  Moved2 Q 1 b P.pos P'.pos ∧ Turned2 Q P.normal P'.normal ∧ (∀ j < m, P'.shape (ρ j) = P.shape j) ∧ P'.jxw = P.jxw

/-- The motion `x ↦ Qx + b` maps the curve, the mesh and the quadratures to themselves. -/
structure SymmetricCurve (K : Curve) (Q : Matrix (Fin 2) (Fin 2) ℝ) (b : V2) (σ : Equiv.Perm (Fin K.nDofs)) (τ : Equiv.Perm ℕ)
    (ρ : ℕ → Equiv.Perm ℕ) : Prop where
  orthogonal : Q.transpose * Q = 1
  nodes : ∀ i : Fin K.nDofs, Moved2 Q 1 b (K.pos i) (K.pos (σ i))
  cells : ∀ c, τ c < K.nCells ↔ c < K.nCells
  lengths : ∀ c < K.nCells, (K.cellDofs (τ c)).length = (K.cellDofs c).length
  locals : ∀ c < K.nCells, ∀ j, ρ c j < (K.cellDofs c).length ↔ j < (K.cellDofs c).length
  dofs : ∀ c < K.nCells, ∀ j < (K.cellDofs c).length, ∀ k : Fin K.nDofs, (K.cellDofs c).getD j 0 = k ↔ (K.cellDofs (τ c)).getD (ρ c j) 0 = σ k
  points : ∀ i : Fin K.nDofs, ∀ c < K.nCells, ∃ l, l.Perm (ruleOf K (σ i) (τ c)) ∧ List.Forall₂ (PointImage Q b (ρ c) (K.cellDofs c).length) (ruleOf K i c) l

variable {K : Curve} {Q : Matrix (Fin 2) (Fin 2) ℝ} {b : V2} {σ : Equiv.Perm (Fin K.nDofs)} {τ : Equiv.Perm ℕ} {ρ : ℕ → Equiv.Perm ℕ}

theorem greenValue_motion (hQ : Q.transpose * Q = 1) (ker : Ker) {x y n x' y' n' : V2} (hx : Moved2 Q 1 b x x') (hy : Moved2 Q 1 b y y') (hn : Turned2 Q n n') :
    greenValue ker x' y' n' = greenValue ker x y n := by
  have hr := moved2_dist hQ one_pos hx hy
  rw [one_mul] at hr
  have ht : Turned2 Q (fun e => x e - y e) (fun e => x' e - y' e) := by
    intro a
    have h1 := hx a
    have h2 := hy a
    simp only [Fin.sum_univ_two] at h1 h2 ⊢
    rw [h1, h2]
    ring
  have hd := turned2_dot hQ ht hn
  cases ker with
  | single => simp only [greenValue, hr]
  | double => simp only [greenValue, hr, hd]

/-- **C113** (plane, matrices). The entries of both matrices at a pair of nodes and at the pair of their images are equal. -/
theorem C113_plane_matrices (h : SymmetricCurve K Q b σ τ ρ) (owner : ℕ → ℕ) (ker : Ker) (i k : Fin K.nDofs) :
    planeMatrix K owner ker (σ i) (σ k) = planeMatrix K owner ker i k := by
  rw [planeMatrix_eq, planeMatrix_eq]
  symm
  unfold layer curveIntegral
  refine Finset.sum_equiv τ (fun c => by simp [h.cells]) fun c hc => ?_
  rw [Finset.mem_range] at hc
  rw [h.lengths c hc]
  refine Finset.sum_equiv (ρ c) (fun j => by simp [h.locals c hc]) fun j hj => ?_
  rw [Finset.mem_range] at hj
  refine if_congr (h.dofs c hc j hj k) ?_ rfl
  obtain ⟨l, hl, hf⟩ := h.points i c hc
  rw [← (hl.map _).sum_eq]
  clear hl
  generalize ruleOf K i c = m at hf
  induction hf with
  | nil => rfl
  | cons hp _ ih =>
    obtain ⟨h1, h2, h3, h4⟩ := hp
    rw [List.map_cons, List.sum_cons, List.map_cons, List.sum_cons, ih, h3 j hj, h4]
    dsimp only
    rw [greenValue_motion h.orthogonal ker (h.nodes i) h1 h2]

/-- **C113** (plane). A symmetric plane problem fulfils the hypotheses of `C113_hanging`. -/
theorem C113_plane (h : SymmetricCurve K Q b σ τ ρ) {ε : ℝ} (owner : ℕ → ℕ) (C : Setup K.nDofs 2) (B : Finset (Fin K.nDofs))
    (kind : ∀ i, σ i ∈ B ↔ i ∈ B) (value : ∀ i, C.nodes.tmpRhs (σ i) = ε * C.nodes.tmpRhs i)
    (normal : ∀ i, Turned2 Q (C.nodes.normal i) (C.nodes.normal (σ i)))
    (surfGrad : ∀ i, Turned2 Q (fun a => ε * C.nodes.surfGrad i a) (C.nodes.surfGrad (σ i)))
    (doubles : ∀ i, C.doubles (σ i) = (C.doubles i).image σ) (free : ∀ i, C.hanging i = none → C.hanging (σ i) = none)
    (hanging : ∀ i es, C.hanging i = some es → ∃ es', C.hanging (σ i) = some es' ∧ es'.Perm (es.map fun x => (σ x.1, x.2))) :
    SymmetricH σ ε (planeMatrix K owner .double) (planeMatrix K owner .single) C B := by
  refine ⟨C113_plane_matrices h owner .double, C113_plane_matrices h owner .single, kind, value, fun i j => ?_, fun i j => ?_, doubles, free, hanging⟩
  · exact turned2_dot h.orthogonal (normal i) (normal j)
  · unfold dot
    rw [turned2_dot h.orthogonal (surfGrad i) (normal j), Finset.mul_sum]
    exact Finset.sum_congr rfl fun a _ => by ring

/-! ## The hypotheses are met -/

/-- A reflection of the two elements. -/
def flip : Matrix (Fin 2) (Fin 2) ℝ := !![-1, 0; 0, 1]

/-- The two nodes exchanged. -/
def twoFlip : Equiv.Perm (Fin 2) := Equiv.swap 0 1

/-- the two elements are symmetric with respect to the line in the middle between them -/
theorem two_symmetric : SymmetricCurve twoElements flip ![1, 0] twoFlip (Equiv.swap 0 1) (fun _ => 1) := by
  have hpos : ∀ i : Fin 2, Moved2 flip 1 ![1, 0] (twoElements.pos i) (twoElements.pos (twoFlip i).val) := by
    intro i a
    fin_cases i <;> fin_cases a <;> simp [twoFlip, flip, twoElements, Fin.sum_univ_two]
  have hrule : ∀ i : Fin 2, ∀ c < 2, List.Forall₂ (PointImage flip ![1, 0] 1 1) (ruleOf twoElements i c)
      (ruleOf twoElements (twoFlip i).val (Equiv.swap 0 1 c)) := by
    intro i c hc
    have hc' : c = 0 ∨ c = 1 := by omega
    simp only [ruleOf_two]
    fin_cases i <;> rcases hc' with rfl | rfl <;>
    · simp only [twoFlip, Fin.zero_eta, Fin.mk_one, Equiv.swap_apply_left, Equiv.swap_apply_right, Fin.val_zero, Fin.val_one, if_true, one_ne_zero, zero_ne_one, if_false]
      refine List.Forall₂.cons ⟨fun a => ?_, fun a => ?_, fun _ _ => rfl, rfl⟩ List.Forall₂.nil
      · fin_cases a <;> simp [flip, Fin.sum_univ_two]
      · fin_cases a <;> simp [flip, Fin.sum_univ_two]
  refine ⟨?_, hpos, fun c => ?_, fun _ _ => rfl, fun _ _ _ => Iff.rfl, fun c hc j hj k => ?_, fun i c hc => ⟨_, List.Perm.refl _, hrule i c hc⟩⟩
  · ext a e
    fin_cases a <;> fin_cases e <;> simp [flip, Matrix.mul_apply, Fin.sum_univ_two]
  · show Equiv.swap 0 1 c < 2 ↔ c < 2
    rw [Equiv.swap_apply_def]
    split_ifs <;> omega
  · have hc' : c = 0 ∨ c = 1 := by have : c < 2 := hc; omega
    have hj' : j = 0 := by have : j < 1 := hj; omega
    subst hj'
    revert k
    show ∀ k : Fin 2, _
    rcases hc' with rfl | rfl <;> decide

end Plane

/-- A matrix that couples the nodes. -/
def ones (n : ℕ) : Mat n := fun _ _ => 1

/-- Dirichlet nodes 0 and 1 with opposite potentials and a hanging node 2 between them. -/
def hangOdd : Setup 3 3 :=
  { hangSetup with nodes := ⟨fun _ => 1, ![1, -1, 0], fun _ => 0, fun _ => 0, false⟩ }

theorem hangOdd_posed : PosedH (ones 3) (eye 3) hangOdd Finset.univ hangOdd.nodes.tmpRhs 0 := by
  refine ⟨by simp [hangOdd], by simp [hangOdd, hangSetup], rfl, fun _ _ => rfl, by simp, by simp [hangOdd, hangSetup], ?_, ?_, ?_, by simp [hangOdd, hangSetup]⟩
  · intro i j hj; rw [Finset.mem_singleton.1 hj]
  · intro i j hj; rw [Finset.mem_singleton.1 hj]; simp
  · intro i _ j hj; exact Finset.mem_singleton.1 hj

theorem hangOdd_consistent : Consistent hangOdd Finset.univ := by
  refine ⟨?_, by simp [hangOdd]⟩
  intro i _ j hj _; rw [Finset.mem_singleton.1 hj]

theorem hangOdd_symmetric : SymmetricH (Equiv.swap 0 1) (-1) (ones 3) (eye 3) hangOdd Finset.univ := by
  refine ⟨fun _ _ => rfl, ?_, by simp, ?_, fun _ _ => by simp [hangOdd], fun _ _ => by simp [hangOdd, dot], ?_, ?_, ?_⟩
  · intro i k; simp [eye]
  · intro i; fin_cases i <;> simp [hangOdd, Equiv.swap_apply_def]
  · intro i; simp [hangOdd, hangSetup]
  · intro i; fin_cases i <;> simp [hangOdd, hangSetup, Equiv.swap_apply_def]
  · intro i es hes
    have hi : i = 2 := by by_contra hne; simp [hangOdd, hangSetup, hne] at hes
    subst hi
    simp only [hangOdd, hangSetup, if_true, Option.some.injEq] at hes
    subst hes
    refine ⟨[(0, 1 / 2), (1, 1 / 2)], by simp [hangOdd, hangSetup, Equiv.swap_apply_def], ?_⟩
    simp only [List.map_cons, List.map_nil, Equiv.swap_apply_left, Equiv.swap_apply_right]
    exact List.Perm.swap _ _ _

/-- exact runs of the problem -/
theorem hangOdd_exact (gmres : (Vec 3 → Vec 3) → Vec 3 → Vec 3) (st : AlphaStatics) (X : Solution 3)
    (h : solveWith (ones 3) (eye 3) hangOdd gmres (alphaHistory []) hangOdd.nodes.tmpRhs 0 = (st, some X)) :
    X.phi = ![1, -1, 0] ∧ X.dphi = X.sol ∧ ((∀ i, X.residual i = 0) ↔ X.dphi = ![-3, 3, 0]) := by
  have hP := hangOdd_posed
  obtain ⟨-, -, p1, p2, -⟩ := solveWith_rows h Finset.univ hP.dirichlet hP.neumann hP.bc hP.phi hP.dphi
  have e1 : X.phi = ![1, -1, 0] := by rw [p1]; funext i; simp [merge, hangOdd]
  have e2 : X.dphi = X.sol := by rw [p2]; funext i; simp [merge]
  have e : ∀ i, eqResidual (ones 3) (eye 3) X.phi X.dphi i = ![-3, 3, 0] i - X.dphi i := by
    intro i
    rw [e1]
    fin_cases i <;> simp [eqResidual, eye, ones, Fin.sum_univ_three]; norm_num
  have g0 : ∀ i, ¬ GradientNode hangOdd Finset.univ i := by
    rintro i ⟨h, -⟩
    simp [hangOdd] at h
  refine ⟨e1, e2, (C91_exact_solutions _ _ hangOdd gmres [] st _ _ X h _ hP hangOdd_consistent).trans ⟨?_, ?_⟩⟩
  · rintro ⟨h1, -, -, h4⟩
    have d0 := h1 0 (by simp [hangOdd, hangSetup]) (g0 _)
    have d1 := h1 1 (by simp [hangOdd, hangSetup]) (g0 _)
    rw [e] at d0 d1
    have d2 := h4 2 _ rfl
    simp only [unknown, merge, Finset.mem_univ, if_true, List.map_cons, List.map_nil, List.sum_cons, List.sum_nil] at d2
    simp at d0 d1
    funext i
    fin_cases i
    · show X.dphi 0 = -3; linarith
    · show X.dphi 1 = 3; linarith
    · show X.dphi 2 = 0; linarith
  · intro hd
    refine ⟨fun i _ _ => by rw [e, hd, sub_self], fun i j hj => by rw [Finset.mem_singleton.1 hj], by simp [hangOdd], fun i es hes => ?_⟩
    have hi : i = 2 := by by_contra hne; simp [hangOdd, hangSetup, hne] at hes
    subst hi
    simp only [hangOdd, hangSetup, if_true, Option.some.injEq] at hes
    subst hes
    simp [unknown, merge, hd]

theorem hangOdd_determined : DeterminedH (ones 3) (eye 3) hangOdd (alphaHistory []) hangOdd.nodes.tmpRhs 0 := by
  intro g1 g2 s1 s2 X1 X2 h1 h2 r1 r2
  obtain ⟨a1, -, b1⟩ := hangOdd_exact _ _ _ h1
  obtain ⟨a2, -, b2⟩ := hangOdd_exact _ _ _ h2
  exact ⟨a1.trans a2.symm, (b1.1 r1).trans (b2.1 r2).symm⟩

theorem hang_closed : ∀ i hs, hangOdd.hanging i = some hs → ∀ e ∈ hs, hangOdd.hanging e.1 = none := by
  intro i hs h e he
  have hi : i = 2 := by by_contra hne; simp [hangOdd, hangSetup, hne] at h
  subst hi
  simp only [hangOdd, hangSetup, if_true, Option.some.injEq] at h
  subst h
  simp only [List.mem_cons, List.not_mem_nil, or_false] at he
  rcases he with rfl | rfl <;> simp [hangOdd, hangSetup]

theorem hang_length : ∀ i hs, hangOdd.hanging i = some hs → hs.length < 4 := by
  intro i hs h
  have hi : i = 2 := by by_contra hne; simp [hangOdd, hangSetup, hne] at h
  subst hi
  simp only [hangOdd, hangSetup, if_true, Option.some.injEq] at h
  subst h
  simp

/-- the hypotheses of `C113_hanging` -/
example : ∃ (gmres : (Vec 3 → Vec 3) → Vec 3 → Vec 3) (st : AlphaStatics) (X : Solution 3),
    solveWith (ones 3) (eye 3) hangOdd gmres (alphaHistory []) hangOdd.nodes.tmpRhs 0 = (st, some X) ∧ (∀ i, X.residual i = 0) ∧
    X.dphi 1 = -1 * X.dphi 0 ∧ X.dphi 0 ≠ 0 := by
  obtain ⟨c, hc⟩ : ∃ c, computeConstraints hangOdd.nodes hangOdd.doubles hangOdd.hanging hangOdd.fuel hangOdd.order = some c :=
    ⟨_, constraints_no_doubles hangOdd.nodes (fun i => Or.inr rfl) hangOdd.hanging hang_closed 4 hang_length _⟩
  obtain ⟨st, X0, h0⟩ := Plane.solveWith_some (ones 3) (eye 3) (C := hangOdd) (fun _ _ => 0) (st := alphaHistory []) (phi0 := hangOdd.nodes.tmpRhs) (dphi0 := 0)
    (by simp [alphaHistory, alphaStaticsStep, AlphaStatics.init, hangOdd, hangSetup]) hc
  obtain ⟨X, h, hsol⟩ := solveWith_any h0 ![-3, 3, 0]
  obtain ⟨-, e2, hx⟩ := hangOdd_exact _ _ _ h
  have hr := hx.2 (e2.trans hsol)
  exact ⟨_, st, X, h, hr, (C113_hanging (by norm_num) hangOdd_symmetric _ [] st _ _ X h hangOdd_posed hangOdd_consistent hangOdd_determined hr 0).2,
    by rw [e2, hsol]; norm_num⟩

end PiBem.Bem
