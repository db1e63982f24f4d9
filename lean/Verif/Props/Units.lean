import Verif.Fmm.ScaleRun
import Verif.Props.Motion

/-!
# C108: unit of length with the fast multipole method

`scaleBy f inp`: the same mesh with all coordinates multiplied by `f`.
-/

noncomputable section

namespace PiBem.Bem

open PiBem.Octree PiBem.Fmm PiBem.Expansion

/-- **C108** (octree). In every unit of length the same octree is built: the same numbers of blocks, levels, parents, children, nodes,
quadrature points, blocks of every level; corners and sides multiplied by the ratio of the lengths. In every dimension. -/
theorem C108_octree {d : ℕ} {f : ℚ} (hf : 0 < f) (inp : Input d) :
    (build (scaleBy f inp)).count = (build inp).count ∧ (build (scaleBy f inp)).startLevel = (build inp).startLevel ∧
    (build (scaleBy f inp)).endLevel = (build inp).endLevel ∧ (build (scaleBy f inp)).dofsFilled = (build inp).dofsFilled ∧
    (build (scaleBy f inp)).childless = (build inp).childless ∧ ∀ k,
      ((build (scaleBy f inp)).blocks k).level = ((build inp).blocks k).level ∧
      ((build (scaleBy f inp)).blocks k).parent = ((build inp).blocks k).parent ∧
      ((build (scaleBy f inp)).blocks k).children = ((build inp).blocks k).children ∧
      ((build (scaleBy f inp)).blocks k).nodes = ((build inp).blocks k).nodes ∧
      ((build (scaleBy f inp)).blocks k).qps = ((build inp).blocks k).qps ∧
      (∀ a, ((build (scaleBy f inp)).blocks k).pMin a = f * ((build inp).blocks k).pMin a) ∧
      ((build (scaleBy f inp)).blocks k).delta = f * ((build inp).blocks k).delta := by
  rw [build_scaled hf]
  exact ⟨rfl, rfl, rfl, rfl, rfl, fun k => ⟨rfl, rfl, rfl, rfl, rfl, fun a => rfl, rfl⟩⟩

/-- In both units the boxes of the finest level allowed are larger than `0.001`. -/
def LargeBoxes {d : ℕ} (f : ℚ) (inp : Input d) : Prop :=
  1 / 1000 < 22 / 10 * maxCoor inp / 2 ^ inp.levels ∧ 1 / 1000 < f * (22 / 10 * maxCoor inp / 2 ^ inp.levels)

theorem sameLists_of_large {d : ℕ} {f : ℚ} (hf : 0 < f) {inp : Input d} (h : LargeBoxes f inp) :
    intList (scaleBy f inp) ((build inp).scaled f) = intList inp (build inp) ∧
    nonIntList (scaleBy f inp) ((build inp).scaled f) = nonIntList inp (build inp) := by
  have hadj : ∀ k b, adj d (((build inp).blocks k).scaled f) (((build inp).blocks b).scaled f) = adj d ((build inp).blocks k) ((build inp).blocks b) :=
    fun k b => adj_scaled hf h.1 h.2 (onGrid_build inp k) (onGrid_build inp b)
  exact ⟨intList_scaled hadj, nonIntList_scaled hadj⟩

/-- **C108** (lists). If the boxes are larger than `0.001` in both units, blocks that interact directly and blocks that interact through expansions are
the same in both. -/
theorem C108_lists {f : ℚ} (hf : 0 < f) {inp : Input 3} (h : LargeBoxes f inp) :
    intList (scaleBy f inp) (build (scaleBy f inp)) = intList inp (build inp) ∧
    nonIntList (scaleBy f inp) (build (scaleBy f inp)) = nonIntList inp (build inp) ∧
    m2lSet (scaleBy f inp) (build (scaleBy f inp)) = m2lSet inp (build inp) ∧
    m2pSet (scaleBy f inp) (build (scaleBy f inp)) = m2pSet inp (build inp) := by
  obtain ⟨h1, h2⟩ := sameLists_of_large hf h
  rw [build_scaled hf]
  refine ⟨h1, h2, ?_, ?_⟩
  · funext k s
    unfold m2lSet
    rw [h2]
    rfl
  · funext k s
    unfold m2pSet
    rw [h2]
    rfl

variable {f : ℚ} {inp : Input 3} {D D' : Data} {S S₁ : SingRule}

theorem far_of_large (h : 1 / 1000 < 22 / 10 * maxCoor inp / 2 ^ inp.levels) : Far (build inp) := by
  refine far_of_side ?_
  unfold side
  have : (1 / 1000 : ℚ) ≤ sideAt inp inp.levels := h.le
  have : ((1 / 1000 : ℚ) : ℝ) ≤ ((sideAt inp inp.levels : ℚ) : ℝ) := by exact_mod_cast this
  push_cast at this
  refine le_trans ?_ this
  norm_num

theorem fmaSing_similar (hf : 0 < f) (h : Similar 1 (f : ℝ) 0 inp (scaleBy f inp) D D' S S₁) (ker : Ker) (i c j : ℕ) :
    fmaSing (scaleBy f inp) S₁ ker i c j = scaleOf (f : ℝ) ker * fmaSing inp S ker i c j := by
  have hs : (0 : ℝ) < f := by exact_mod_cast hf
  unfold fmaSing
  rw [show singularIndex (scaleBy f inp) i c = singularIndex inp i c from rfl]
  cases singularIndex inp i c with
  | none => simp
  | some t =>
    have hl := h.sing c t
    have key : ∀ {l l' : List SingPoint}, List.Forall₂ (PointSimilar 1 (f : ℝ) 0) l l' → ∀ x : ℝ,
        l'.foldl (fun x P => x + singTerm (scaleBy f inp) ker i j P) (scaleOf (f : ℝ) ker * x) =
          scaleOf (f : ℝ) ker * l.foldl (fun x P => x + singTerm inp ker i j P) x := by
      intro l l' hl
      induction hl with
      | nil => intro x; rfl
      | cons hp _ ih =>
        intro x
        rw [List.foldl_cons, List.foldl_cons, ← ih, mul_add, singTerm_eq, singTerm_eq, hp.2.2.1,
          term_moved (Q := 1) (b := 0) (by simp) hs ker (h.pos i) hp.1 hp.2.1 _ _ _ hp.2.2.2]
    have := key hl 0
    rwa [mul_zero] at this

theorem rescaled_of_similar (hf : 0 < f) (h : Similar 1 (f : ℝ) 0 inp (scaleBy f inp) D D' S S₁) (hp : D'.p = D.p) (ker : Ker) :
    Rescaled (f : ℝ) ker (withSing inp D S ker) (withSing (scaleBy f inp) D' S₁ ker) := by
  refine ⟨hp, h.shape, fun q => ?_, h.jxw, fun i c j => fmaSing_similar hf h ker i c j⟩
  funext a
  have := h.normal q a
  rw [show (withSing (scaleBy f inp) D' S₁ ker).normal q a = D'.normal q a from rfl, this]
  simp [Matrix.one_apply, withSing]

/-- **C108** (matrix). Same boxes in both units, data of the other unit obtained by multiplying lengths by `f`, same order of the expansions: the double layer
matrix of the fast multipole product is exactly the same, the single layer matrix is multiplied by `f`. -/
theorem C108_matrix (hf : 0 < f) (hb : LargeBoxes f inp) (h : Similar 1 (f : ℝ) 0 inp (scaleBy f inp) D D' S S₁) (hp : D'.p = D.p) (i k : ℕ) :
    fmaMatrix (scaleBy f inp) (withSing (scaleBy f inp) D' S₁ .double) .double i k = fmaMatrix inp (withSing inp D S .double) .double i k ∧
    fmaMatrix (scaleBy f inp) (withSing (scaleBy f inp) D' S₁ .single) .single i k = f * fmaMatrix inp (withSing inp D S .single) .single i k := by
  have key : ∀ ker, fmaMatrix (scaleBy f inp) (withSing (scaleBy f inp) D' S₁ ker) ker i k =
      scaleOf (f : ℝ) ker * fmaMatrix inp (withSing inp D S ker) ker i k := by
    intro ker
    have hfar' : Far ((build inp).scaled f) := by
      rw [← build_scaled hf]
      refine far_of_large ?_
      rw [maxCoor_scaled hf]
      have := hb.2
      show (1 : ℚ) / 1000 < 22 / 10 * (f * maxCoor inp) / 2 ^ inp.levels
      calc (1 : ℚ) / 1000 < _ := this
        _ = _ := by ring
    unfold fmaMatrix
    rw [build_scaled hf]
    exact rowMap_scaled hf (build_tree (Or.inr rfl) inp) (far_of_large hb.1) hfar' (sameLists_of_large hf hb) (rescaled_of_similar hf h hp ker) i _
  exact ⟨by rw [key, scaleOf, one_mul], key .single⟩

/-- **C108** (product). Executions of the fast multipole product in the two units, with any schedules and any rows, of the same density: at every row computed by
both, the double layer has the same value, the single layer is multiplied by `f`. -/
theorem C108_product (hf : 0 < f) (hb : LargeBoxes f inp) (h : Similar 1 (f : ℝ) 0 inp (scaleBy f inp) D D' S S₁) (hp : D'.p = D.p)
    (hdof : ∀ c k, k ∈ inp.cellDofs c → k < inp.nDofs) (ker : Ker) (u : ℕ → ℝ)
    (own own' : ℕ → Bool) (out out' : ℕ → ℝ)
    (hx : NFmmExec inp { withSing inp D S ker with sol := u } ker (build inp) own out)
    (hx' : NFmmExec (scaleBy f inp) { withSing (scaleBy f inp) D' S₁ ker with sol := u } ker (build (scaleBy f inp)) own' out')
    (i : ℕ) (hi : own i = true) (hi' : own' i = true) :
    out' i = (match ker with | .double => 1 | .single => (f : ℝ)) * out i := by
  rw [fma_eq (D := withSing inp D S ker) hdof u own out hx i hi,
    fma_eq (inp := scaleBy f inp) (D := withSing (scaleBy f inp) D' S₁ ker) hdof u own' out' hx' i hi']
  rw [Finset.mul_sum]
  refine Finset.sum_congr rfl fun k _ => ?_
  obtain ⟨h1, h2⟩ := C108_matrix hf hb h hp i k
  cases ker with
  | double => rw [h1, one_mul]
  | single => rw [h2]; ring

theorem fma_matricesSimilar (hf : 0 < f) (hb : LargeBoxes f inp) (h : Similar 1 (f : ℝ) 0 inp (scaleBy f inp) D D' S S₁) (hp : D'.p = D.p)
    (S' S₁' : SingRule) (owner owner' : ℕ → ℕ) :
    MatricesSimilar (f : ℝ) (fun ker => solveMatrix inp D S S' .fma owner ker) (fun ker => solveMatrix (scaleBy f inp) D' S₁ S₁' .fma owner' ker) :=
  fun i k => C108_matrix hf hb h hp i k

/-- **C108** (exactness). Fast multipole method. Of two runs in the two units holding the same potential, and normal derivatives related by the ratio of
the lengths, both are exact or both are not. -/
theorem C108_exact (hf : 0 < f) (hb : LargeBoxes f inp) (hsim : Similar 1 (f : ℝ) 0 inp (scaleBy f inp) D D' S S₁) (hp : D'.p = D.p)
    (S' S₁' : SingRule) (C C' : Setup inp.nDofs 3) (gmres gmres' : (Vec inp.nDofs → Vec inp.nDofs) → Vec inp.nDofs → Vec inp.nDofs)
    (l l' : List (ℕ × ℕ)) (st st' : AlphaStatics) (phi0 dphi0 phi0' dphi0' : Vec inp.nDofs) (X X' : Solution inp.nDofs)
    (h : solve inp D S S' C gmres (alphaHistory l) phi0 dphi0 = (st, some X))
    (h' : solve (scaleBy f inp) D' S₁ S₁' C' gmres' (alphaHistory l') phi0' dphi0' = (st', some X'))
    (B : Finset (Fin inp.nDofs)) (hC : SetupSimilar 1 (f : ℝ) C C' B) (hm : C.method = .fma) (hm' : C'.method = .fma)
    (hP : Posed inp C B phi0 dphi0) (hP' : Posed (scaleBy f inp) C' B phi0' dphi0')
    (hdata : Consistent C B) (hphi : ∀ i, X'.phi i = X.phi i) (hdphi : ∀ i, X'.dphi i = X.dphi i / f) :
    (∀ i, X'.residual i = 0) ↔ ∀ i, X.residual i = 0 := by
  refine exact_of_matrices (Q := 1) (pos' := (scaleBy f inp).pos) (qpos' := (scaleBy f inp).qpos) (D := D) (D' := D') (S := S) (S' := S') (S₁ := S₁)
    (S₁' := S₁') (by simp) (by exact_mod_cast hf) C C' gmres gmres' l l' st st' phi0 dphi0 phi0' dphi0' X X' h h' B hC ?_ hP hP' hdata hphi hdphi
  rw [hm, hm']
  exact fma_matricesSimilar hf hb hsim hp S' S₁' C.owner C'.owner

/-- **C108** (results). Fast multipole method. If the linear system of one run is regular, exact solves in the two units, with any partitions, numbers of
processes and linear solvers, give the same potential at every node, and normal derivatives divided by the ratio of the lengths. -/
theorem C108_same_result (hf : 0 < f) (hb : LargeBoxes f inp) (hsim : Similar 1 (f : ℝ) 0 inp (scaleBy f inp) D D' S S₁) (hp : D'.p = D.p)
    (S' S₁' : SingRule) (C C' : Setup inp.nDofs 3) (gmres gmres' : (Vec inp.nDofs → Vec inp.nDofs) → Vec inp.nDofs → Vec inp.nDofs)
    (l l' : List (ℕ × ℕ)) (st st' : AlphaStatics) (phi0 dphi0 phi0' dphi0' : Vec inp.nDofs) (X X' : Solution inp.nDofs)
    (h : solve inp D S S' C gmres (alphaHistory l) phi0 dphi0 = (st, some X))
    (h' : solve (scaleBy f inp) D' S₁ S₁' C' gmres' (alphaHistory l') phi0' dphi0' = (st', some X'))
    (B : Finset (Fin inp.nDofs)) (hC : SetupSimilar 1 (f : ℝ) C C' B) (hm : C.method = .fma) (hm' : C'.method = .fma)
    (hP : Posed inp C B phi0 dphi0) (hP' : Posed (scaleBy f inp) C' B phi0' dphi0')
    (hdata : Consistent C B) (hdet : Determined inp D S S' C (alphaHistory l) phi0 dphi0)
    (hX : ∀ i, X.residual i = 0) (hX' : ∀ i, X'.residual i = 0) (i : Fin inp.nDofs) :
    X'.phi i = X.phi i ∧ X'.dphi i = X.dphi i / f := by
  refine same_result_of_matrices (Q := 1) (pos' := (scaleBy f inp).pos) (qpos' := (scaleBy f inp).qpos) (D := D) (D' := D') (S := S) (S' := S')
    (S₁ := S₁) (S₁' := S₁') (by simp) (by exact_mod_cast hf) C C' gmres gmres' l l' st st' phi0 dphi0 phi0' dphi0' X X' h h' B hC ?_ hP hP' hdata
    hdet hX hX' i
  rw [hm, hm']
  exact fma_matricesSimilar hf hb hsim hp S' S₁' C.owner C'.owner

/-! ## Examples -/

/-- Every problem in another unit of length. -/
theorem similar_scaleBy (f : ℚ) (inp : Input 3) (D : Data) (S : SingRule) :
    Similar 1 (f : ℝ) 0 inp (scaleBy f inp) D { D with jxw := fun q => (f : ℝ) ^ 2 * D.jxw q } S
      (fun c j => (S c j).map fun P => { P with pos := (f : ℝ) • P.pos, jxw := (f : ℝ) ^ 2 * P.jxw }) := by
  refine ⟨fun i => ?_, fun q => ?_, fun q => turned_one _, fun q => rfl, fun q => rfl, fun c j => ?_⟩
  · rw [show (scaleBy f inp).pos i = fun a => f * inp.pos i a from rfl, toV_scaled]; exact moved_one _ _
  · rw [show (scaleBy f inp).qpos q = fun a => f * inp.qpos q a from rfl, toV_scaled]; exact moved_one _ _
  · rw [List.forall₂_map_right_iff, List.forall₂_same]
    exact fun P _ => ⟨moved_one _ _, turned_one _, rfl, rfl⟩

/-- A mesh in metres and in centimetres: the hypotheses of `C108_matrix` hold, and there are blocks that interact through expansions. -/
example (D : Data) (S : SingRule) : LargeBoxes 100 line4Input ∧ (∃ k b, b ∈ m2lSet line4Input (build line4Input) k 0) ∧
    ∃ D' S₁, Similar 1 ((100 : ℚ) : ℝ) 0 line4Input (scaleBy 100 line4Input) D D' S S₁ ∧ D'.p = D.p :=
  ⟨⟨by decide +kernel, by decide +kernel⟩, ⟨3, 6, by decide +kernel⟩, _, _, similar_scaleBy 100 line4Input D S, rfl⟩

/-- The mesh `pointInput 2` at the point `(1, 0, 0)`. -/
def pointAt : Input 3 := moveInput (pointInput 2 1) (fun _ => ![1, 0, 0]) (pointInput 2 1).qpos

/-- The edge in another unit: twice as long. -/
def edgeTwice : NodeData 2 3 where
  dirichlet := fun _ => 1
  tmpRhs := fun _ => 5
  normal := (edgeNodes id).normal
  surfGrad := fun i a => (edgeNodes id).surfGrad i a / 2
  continuosGradient := true

theorem edge_units (m : Method) (procs procs' : ℕ) : SetupSimilar (1 : Matrix (Fin 3) (Fin 3) ℝ) ((2 : ℚ) : ℝ) (pointSetup m procs (edgeNodes id))
    (pointSetup m procs' edgeTwice) Finset.univ :=
  ⟨fun _ _ => rfl, fun i hi => absurd (Finset.mem_univ i) hi, fun _ => turned_one _, fun i a => by
    simp [pointSetup, edgeTwice, Matrix.one_apply], rfl, rfl⟩

theorem edgeTwice_gradient {i j : Fin 2} (h : i ≠ j) : thisNormalGradient edgeTwice i j = some (if i = 0 then 7 / 2 else 3 / 2) := by
  have := similar_normalGradient (by simp) (edge_units .fma 1 1) i j
  refine this.trans ?_
  show (thisNormalGradient (edgeNodes id) i j).map _ = _
  rw [edge_gradient (o := id) h, Option.map_some]
  congr 1
  by_cases hi : i = 0 <;> simp [hi]

theorem edgeTwice_doubleNodes : DoubleNodes edgeTwice (fun _ => Finset.univ) (fun i => if i = 0 then 7 / 2 else 3 / 2) := by
  refine ⟨by simp [edgeTwice], ?_, ?_, ?_⟩
  · intro i l h; have := h i (Finset.mem_univ i); simp [edgeTwice] at this
  · intro _ i l _ hl hne
    rw [otherNormalGradient_eq, edgeTwice_gradient hne]
  · intro _ i l hi hl hne
    rw [edgeTwice_gradient (Ne.symm hne)]

theorem pointAt_determined (D : Data) (S S' : SingRule) (m : Method) (procs : ℕ) :
    Determined pointAt D S S' (pointSetup m procs (edgeNodes id)) (alphaHistory []) (edgeNodes id).tmpRhs 0 := by
  intro g₁ g₂ st₁ st₂ X₁ X₂ h₁ h₂ r₁ r₂
  have hP := put_posed (pointInput 2 1).qpos (pos' := fun _ => ![1, 0, 0]) (n := 2) (fun _ _ => rfl) m procs (edgeNodes id) (fun _ => rfl) 0
  have hc := edge_consistent m procs (o := id) Function.injective_id
  have a₁ := (C82_exact_solutions pointAt D S S' _ g₁ [] st₁ _ _ X₁ h₁ _ hP hc.sharp hc.agree).1 r₁
  have a₂ := (C82_exact_solutions pointAt D S S' _ g₂ [] st₂ _ _ X₂ h₂ _ hP hc.sharp hc.agree).1 r₂
  obtain ⟨-, -, p₁, -⟩ := solve_rows h₁ Finset.univ hP.dirichlet hP.neumann hP.bc hP.phi hP.dphi
  obtain ⟨-, -, p₂, -⟩ := solve_rows h₂ Finset.univ hP.dirichlet hP.neumann hP.bc hP.phi hP.dphi
  constructor
  · rw [show X₁.phi = _ from p₁, show X₂.phi = _ from p₂]
    funext (i : Fin 2)
    simp only [merge]
    exact (if_pos (Finset.mem_univ i)).trans (if_pos (Finset.mem_univ i)).symm
  · funext (i : Fin 2)
    have hk : ∃ j : Fin 2, j ≠ i := by
      have : Nontrivial (Fin 2) := Fin.nontrivial_iff_two_le.2 le_rfl
      exact exists_ne (α := Fin 2) i
    obtain ⟨j, hj⟩ := hk
    have b₁ := a₁.2.2 rfl i (Finset.mem_univ i) j (Finset.mem_univ j) (Finset.mem_univ j) hj
    have b₂ := a₂.2.2 rfl i (Finset.mem_univ i) j (Finset.mem_univ j) (Finset.mem_univ j) hj
    exact Option.some.inj (b₁.symm.trans b₂)

/-- All hypotheses of `C108_same_result` hold for the edge, on one process, and the edge in the unit half as long, on two. -/
example (D : Data) (S S' S₁' : SingRule) : ∃ (D' : Data) (S₁ : SingRule) (C C' : Setup 2 3) (st st' : AlphaStatics) (X X' : Solution 2)
    (gmres gmres' : (Vec 2 → Vec 2) → Vec 2 → Vec 2) (phi0 : Vec 2),
    LargeBoxes 2 pointAt ∧ Similar 1 ((2 : ℚ) : ℝ) 0 pointAt (scaleBy 2 pointAt) D D' S S₁ ∧ D'.p = D.p ∧
    solve pointAt D S S' C gmres (alphaHistory []) phi0 0 = (st, some X) ∧
    solve (scaleBy 2 pointAt) D' S₁ S₁' C' gmres' (alphaHistory []) phi0 0 = (st', some X') ∧
    SetupSimilar 1 ((2 : ℚ) : ℝ) C C' Finset.univ ∧ C.method = .fma ∧ C'.method = .fma ∧ Posed pointAt C Finset.univ phi0 0 ∧
    Posed (scaleBy 2 pointAt) C' Finset.univ phi0 0 ∧
    Consistent C Finset.univ ∧ Determined pointAt D S S' C (alphaHistory []) phi0 0 ∧
    (∀ i, X.residual i = 0) ∧ (∀ i, X'.residual i = 0) ∧ X.dphi (0 : Fin 2) = 7 ∧ X'.dphi (0 : Fin 2) = 7 / 2 := by
  obtain ⟨st, X, e1, e2, e3⟩ := put_exact (pointInput 2 1).qpos (pos' := fun _ => ![1, 0, 0]) (n := 2) (fun _ _ => rfl) le_rfl D S S' .fma 1
    (edgeNodes id) (fun _ => rfl) rfl _ 0 (edge_doubleNodes Function.injective_id)
  obtain ⟨st', X', f1, f2, f3⟩ := put_exact (scaleBy 2 pointAt).qpos (pos' := (scaleBy 2 pointAt).pos) (n := 2) (fun _ _ => rfl) le_rfl
    { D with jxw := fun q => ((2 : ℚ) : ℝ) ^ 2 * D.jxw q }
    (fun c j => (S c j).map fun P => { P with pos := ((2 : ℚ) : ℝ) • P.pos, jxw := ((2 : ℚ) : ℝ) ^ 2 * P.jxw }) S₁' .fma 2 edgeTwice (fun _ => rfl) rfl _ 0
    edgeTwice_doubleNodes
  refine ⟨_, _, _, _, st, st', X, X', _, _, _, ⟨by decide +kernel, by decide +kernel⟩, similar_scaleBy 2 pointAt D S, rfl, e1, f1,
    edge_units .fma 1 2, rfl, rfl, put_posed _ (fun _ _ => rfl) .fma 1 _ (fun _ => rfl) 0, put_posed _ (fun _ _ => rfl) .fma 2 _ (fun _ => rfl) 0,
    edge_consistent .fma 1 Function.injective_id, pointAt_determined D S S' .fma 1, e2, f2, ?_, ?_⟩
  · rw [e3]; simp
  · rw [f3]; simp

end PiBem.Bem
