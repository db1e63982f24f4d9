import Verif.Octree.Renumber
import Verif.Props.Coincident
import Verif.Octree.Example

/-!
# Renumbering of the degrees of freedom (C83)

The numbering of the degrees of freedom depends on the number of processes (`DoFRenumbering::subdomain_wise`). What the matrices
of both methods and the results of `solve` become under a renumbering.
-/

noncomputable section

namespace PiBem.Bem

open PiBem.Octree PiBem.Fmm PiBem.Expansion

variable {σ : Equiv.Perm ℕ} {inp inp' : Input 3} {D : Data} {S S' : SingRule} {ker : Ker} {T T' : St 3}

/-! ## Fast multipole method -/

theorem getD_map (l : List ℕ) {j : ℕ} (hj : j < l.length) : (l.map σ).getD j 0 = σ (l.getD j 0) := by
  rw [List.getD_eq_getElem _ _ (by simpa using hj), List.getD_eq_getElem _ _ hj, List.getElem_map]

theorem renumber_singularIndex (R : Renumbered σ inp inp') (i c : ℕ) : singularIndex inp' (σ i) c = singularIndex inp i c := by
  unfold singularIndex
  rw [R.cellDofs, R.doubles, List.findIdx?_map]
  simp [Function.comp_def]

theorem renumber_isSingular (R : Renumbered σ inp inp') (i c : ℕ) : isSingular inp' (σ i) c = isSingular inp i c := by
  unfold isSingular
  rw [R.cellDofs, R.doubles, List.any_map]
  simp [Function.comp_def]

theorem renumber_val (R : Renumbered σ inp inp') (i : ℕ) (x : ℕ → ℝ) (e : Contr) :
    valMap inp' (withSing inp' D S ker) ker (σ i) e x = valMap inp (withSing inp D S ker) ker i e (x ∘ σ) := by
  show val inp' { withSing inp' D S ker with sol := x } ker (σ i) e = val inp { withSing inp D S ker with sol := x ∘ σ } ker i e
  have hdot : ∀ c (row : ℕ → ℝ), cellDot inp' { withSing inp' D S ker with sol := x } c row =
      cellDot inp { withSing inp D S ker with sol := x ∘ σ } c row := by
    intro c row
    unfold cellDot
    rw [R.cellDofs, List.length_map]
    refine Finset.sum_congr rfl fun j hj => ?_
    rw [getD_map _ (Finset.mem_range.1 hj)]
    rfl
  cases e with
  | reg c q =>
    simp only [val, hdot]
    congr 1
    funext j
    simp only [regEntry, R.pos, R.qpos]
    cases ker <;> rfl
  | sing c =>
    simp only [val, hdot]
    congr 1
    funext j
    show fmaSing inp' S ker (σ i) c j = fmaSing inp S ker i c j
    unfold fmaSing
    rw [renumber_singularIndex R]
    have : ∀ P, singTerm inp' ker (σ i) j P = singTerm inp ker i j P := by intro P; unfold singTerm; rw [R.pos]
    simp only [this]

theorem renumber_directCells (R : Renumbered σ inp inp') (h : SameUpTo σ T T') (B : Finset ℕ) :
    directCells inp' T' B = directCells inp T B := by
  show directCells inp'.bare T'.bare B = directCells inp.bare T.bare B
  rw [R.bare, h.bare]

theorem renumber_bigRow (R : Renumbered σ inp inp') (h : SameUpTo σ T T') (B : Finset ℕ) (c : ℕ) :
    bigRow inp' T' B c = bigRow inp T B c := by
  show bigRow inp'.bare T'.bare B c = bigRow inp.bare T.bare B c
  rw [R.bare, h.bare]

theorem renumber_direct (R : Renumbered σ inp inp') (h : SameUpTo σ T T') (i : ℕ) :
    directResult inp' T' (fun _ => true) (σ i) = directResult inp T (fun _ => true) i := by
  have hls : ∀ (l : List (ℕ → Multiset Contr)) (k : ℕ), l.sum k = (l.map fun f => f k).sum := by
    intro l k
    induction l with
    | nil => rfl
    | cons a l ih => simp [ih]
  have hleaf : ∀ b, leafEff inp' T' (fun _ => true) b (σ i) = leafEff inp T (fun _ => true) b i := by
    intro b
    have hrow : ∀ (B : Finset ℕ) c, leafRow inp' T' B (σ i) c = leafRow inp T B i c := by
      intro B c
      unfold leafRow
      rw [renumber_isSingular R]
      have := renumber_bigRow R h B c
      unfold bigRow at this
      rw [this]
    unfold leafEff rowSum
    simp only [mem_nodes_same h, intList_same R h, numSub_same R h, renumber_directCells R h, hrow]
  have hbig : ∀ l b, bigEff inp' T' (fun _ => true) l b (σ i) = bigEff inp T (fun _ => true) l b i := by
    intro l b
    have hset : bigSet inp' T' (T'.startLevel l) b = bigSet inp T (T.startLevel l) b := by
      unfold bigSet
      rw [nonIntList_same R h, numSub_same R h, h.startLevel]
    unfold bigEff rowSum
    simp only [mem_nodes_same h, hset, renumber_directCells R h, renumber_bigRow R h]
  unfold directResult
  rw [Pi.add_apply, Pi.add_apply, hls, hls, hls, hls, h.childless, R.levels, h.dofsFilled]
  simp only [List.map_map, Function.comp_def, hls, hleaf, hbig]

theorem renumber_levelOf (R : Renumbered σ inp inp') (h : SameUpTo σ T T') : levelOf inp' T' = levelOf inp T := by
  show levelOf inp'.bare T'.bare = levelOf inp.bare T.bare
  rw [R.bare, h.bare]

theorem renumber_ctr (h : SameUpTo σ T T') : ctr T' = ctr T := by
  show ctr T'.bare = ctr T.bare
  rw [h.bare]

theorem renumber_mpAll (R : Renumbered σ inp inp') (h : SameUpTo σ T T') (p k i : ℕ) :
    mpAll inp' p T' k (σ i) = mpAll inp p T k i := by
  unfold mpAll m2pSet
  rw [numSub_same R h, nonIntList_same R h, renumber_levelOf R h, renumber_ctr h, h.endLevel, R.pos]

theorem renumber_mlAll (R : Renumbered σ inp inp') (h : SameUpTo σ T T') (p k : ℕ) :
    mlAll inp' p T' k = mlAll inp p T k := by
  unfold mlAll m2lSet
  rw [numSub_same R h, nonIntList_same R h, renumber_levelOf R h, renumber_ctr h, h.endLevel, h.startLevel]

theorem renumber_locAt (R : Renumbered σ inp inp') (h : SameUpTo σ T T') (p n k : ℕ) :
    locAt inp' p T' n k = locAt inp p T n k := by
  induction n generalizing k with
  | zero => rfl
  | succ n ih =>
    have hp : (T'.blocks k).parent = (T.blocks k).parent := bare_parent (h.block k)
    rw [locAt, locAt, h.dofsFilled, renumber_mlAll R h, hp, ih, renumber_ctr h]

theorem renumber_multFn (R : Renumbered σ inp inp') (h : SameUpTo σ T T') (p b : ℕ) :
    multFn inp' p T' b = multFn inp p T b := by
  have hk : ∀ n b, multAt p T' n b = multAt p T n b := by
    intro n b
    have : ∀ (T : St 3), multAt p T.bare n b = multAt p T n b := by
      intro T
      induction n generalizing b with
      | zero => rfl
      | succ n ih =>
        rw [multAt, multAt]
        simp only [ih]
        rfl
    rw [← this T', ← this T, h.bare]
  unfold multFn
  rw [hk, h.count, R.levels, bare_level (h.block b)]

theorem renumber_leafVal (R : Renumbered σ inp inp') (h : SameUpTo σ T T') (b : ℕ) (x : ℕ → ℝ) :
    leafVal inp' (withSing inp' D S ker) ker T' b x = leafVal inp (withSing inp D S ker) ker T b (x ∘ σ) := by
  have hc : blockCells inp' T' b = blockCells inp T b := by
    show blockCells inp'.bare T'.bare b = blockCells inp.bare T.bare b
    rw [R.bare, h.bare]
  have hm : ∀ c j, nCellMoment inp' (withSing inp' D S ker) ker T' b c j = nCellMoment inp (withSing inp D S ker) ker T b c j := by
    intro c j
    show nCellMoment inp'.bare D ker T'.bare b c j = nCellMoment inp.bare D ker T.bare b c j
    rw [R.bare, h.bare]
  unfold leafVal
  rw [sum_lin, sum_lin, hc]
  refine congrArg List.sum (List.map_congr_left fun c _ => ?_)
  rw [sum_lin, sum_lin, R.cellDofs, List.length_map]
  refine congrArg List.sum (List.map_congr_left fun j hj => ?_)
  rw [LinearMap.comp_apply, LinearMap.comp_apply, LinearMap.proj_apply, LinearMap.proj_apply, getD_map _ (List.mem_range.1 hj), hm]
  rfl

theorem renumber_rowMap (R : Renumbered σ inp inp') (h : SameUpTo σ T T') (i : ℕ) (x : ℕ → ℝ) :
    rowMap inp' (withSing inp' D S ker) ker T' (σ i) x = rowMap inp (withSing inp D S ker) ker T i (x ∘ σ) := by
  have hmult : multMap inp' (withSing inp' D S ker) ker T' x = multMap inp (withSing inp D S ker) ker T (x ∘ σ) := by
    unfold multMap
    rw [LinearMap.comp_apply, LinearMap.comp_apply]
    have : leafMap inp' (withSing inp' D S ker) ker T' x = leafMap inp (withSing inp D S ker) ker T (x ∘ σ) := by
      funext b
      show (if b ∈ T'.childless then leafVal inp' (withSing inp' D S ker) ker T' b else 0) x =
        (if b ∈ T.childless then leafVal inp (withSing inp D S ker) ker T b else 0) (x ∘ σ)
      rw [h.childless]
      split_ifs
      · exact renumber_leafVal R h b x
      · rfl
    rw [this]
    funext b
    show multFn inp' D.p T' b _ = multFn inp D.p T b _
    rw [renumber_multFn R h]
  unfold rowMap directMap
  rw [LinearMap.add_apply, LinearMap.add_apply, LinearMap.comp_apply, LinearMap.comp_apply, hmult, sum_lin, sum_lin,
    renumber_direct R h]
  congr 1
  · exact congrArg List.sum (List.map_congr_left fun e _ => renumber_val R i x e)
  · congr 1
    show _ + _ = _ + _
    congr 1
    · rw [R.levels, h.dofsFilled]
      simp only [mem_nodes_same h]
      simp only [withSing, renumber_mpAll R h]
    · rw [h.childless]
      simp only [mem_nodes_same h, bare_level (h.block _), withSing, renumber_locAt R h, renumber_ctr h, R.pos]

/-! ## The matrices -/

/-- a position of the renumbered problem -/
def renum (R : Renumbered σ inp inp') (i : Fin inp.nDofs) : Fin inp'.nDofs :=
  ⟨σ i, by rw [R.nDofs]; exact (R.bound i).2 i.isLt⟩

theorem renumber_cellIntegral (R : Renumbered σ inp inp') (i c j : ℕ) :
    cellIntegral inp' D S' ker (σ i) c j = cellIntegral inp D S' ker i c j := by
  have hs : ∀ s, (s < (inp'.cellDofs c).length ∧ (inp'.cellDofs c).getD s 0 ∈ inp'.doubles (σ i)) ↔
      (s < (inp.cellDofs c).length ∧ (inp.cellDofs c).getD s 0 ∈ inp.doubles i) := by
    intro s
    rw [R.cellDofs, R.doubles, List.length_map]
    refine and_congr_right fun h => ?_
    rw [getD_map _ h]
    simp
  unfold cellIntegral
  simp only [hs, R.pos, R.nq, R.qpos]

/-- **C83** (matrices). For both methods the matrices of the renumbered problem are the renumbered matrices, whatever the two
partitions. -/
theorem C83_matrices (R : Renumbered σ inp inp') (D : Data) (S S' : SingRule) (m : Method) (owner owner' : ℕ → ℕ) (ker : Ker)
    (i k : Fin inp.nDofs) : solveMatrix inp' D S S' m owner' ker (renum R i) (renum R k) = solveMatrix inp D S S' m owner ker i k := by
  cases m with
  | direct =>
    simp only [solveMatrix]
    rw [C64_dense_entry inp' D S' ker _ _ (renum R i).isLt (by simp) _, C64_dense_entry inp D S' ker _ i i.isLt (by simp) k, R.nCells]
    refine Finset.sum_congr rfl fun c _ => ?_
    rw [R.cellDofs, List.length_map]
    refine Finset.sum_congr rfl fun j hj => ?_
    rw [getD_map _ (Finset.mem_range.1 hj)]
    show (if σ _ = σ k then cellIntegral inp' D S' ker (σ i) c j else 0) = _
    rw [renumber_cellIntegral R]
    simp only [σ.injective.eq_iff]
  | fma =>
    simp only [solveMatrix, fmaMatrix]
    show rowMap inp' _ ker _ (σ i) (Pi.single (σ k) 1) = _
    rw [renumber_rowMap R (build_same R)]
    congr 1
    funext x
    simp only [Function.comp, Pi.single_apply, σ.injective.eq_iff]

/-! ## The renumbered problem -/

/-- The problem with dof `i` renamed `σ i`. -/
def renumberInput (σ : Equiv.Perm ℕ) (inp : Input 3) : Input 3 :=
  { inp with
    pos := fun i => inp.pos (σ.symm i)
    cellDofs := fun c => (inp.cellDofs c).map σ
    doubles := fun i => (inp.doubles (σ.symm i)).image σ
    oldElems := fun i => inp.oldElems (σ.symm i) }

theorem renumbered_input (σ : Equiv.Perm ℕ) (inp : Input 3) (hb : ∀ i, σ i < inp.nDofs ↔ i < inp.nDofs) :
    Renumbered σ inp (renumberInput σ inp) := by
  refine ⟨rfl, hb, ?_, rfl, rfl, rfl, fun _ => rfl, ?_, rfl, rfl, ?_⟩ <;> intro i <;> simp [renumberInput]

/-- Boundary conditions, data, normals, surface gradients and double nodes of a renumbered problem; partition, number of
processes and order of the constraints are unrelated. -/
structure SetupRenumbered {d : ℕ} (R : Renumbered σ inp inp') (C : Setup inp.nDofs d) (C' : Setup inp'.nDofs d) : Prop where
  method : C'.method = C.method
  tmpRhs : ∀ i, C'.nodes.tmpRhs (renum R i) = C.nodes.tmpRhs i
  normal : ∀ i, C'.nodes.normal (renum R i) = C.nodes.normal i
  surfGrad : ∀ i, C'.nodes.surfGrad (renum R i) = C.nodes.surfGrad i
  grad : C'.nodes.continuosGradient = C.nodes.continuosGradient
  doubles : ∀ i, C'.doubles (renum R i) = (C.doubles i).image (renum R)

theorem renum_injective (R : Renumbered σ inp inp') : Function.Injective (renum R) := by
  intro i j h
  have : σ i = σ j := congrArg Fin.val h
  exact Fin.ext (σ.injective this)

theorem renum_surjective (R : Renumbered σ inp inp') : Function.Surjective (renum R) := by
  intro j
  have hj : σ.symm j < inp.nDofs := by rw [← R.bound, σ.apply_symm_apply, ← R.nDofs]; exact j.isLt
  exact ⟨⟨σ.symm j, hj⟩, Fin.ext (by simp [renum])⟩

theorem renumber_methodResidual (R : Renumbered σ inp inp') (D : Data) (S S' : SingRule) (m : Method) (owner owner' : ℕ → ℕ)
    {phi dphi : Vec inp.nDofs} {phi' dphi' : Vec inp'.nDofs} (h1 : ∀ i, phi' (renum R i) = phi i)
    (h2 : ∀ i, dphi' (renum R i) = dphi i) (i : Fin inp.nDofs) :
    methodResidual inp' D S S' m owner' phi' dphi' (renum R i) = methodResidual inp D S S' m owner phi dphi i := by
  have hb : Function.Bijective (renum R) := ⟨renum_injective R, renum_surjective R⟩
  unfold methodResidual
  rw [← Function.Bijective.sum_comp hb fun k => solveMatrix inp' D S S' m owner' .double (renum R i) k * (phi' k - phi' (renum R i)),
    ← Function.Bijective.sum_comp hb fun k => solveMatrix inp' D S S' m owner' .single (renum R i) k * dphi' k]
  simp only [C83_matrices R D S S' m owner owner', h1, h2]

variable {d : ℕ}

/-- Conditions on the data used by C83: one Dirichlet datum per position and, if continuous gradients are requested, normals of the Dirichlet
nodes at one position that are not parallel and a normal derivative at each of them that does not depend on which of the others it is computed with. The last
condition is void with at most two Dirichlet nodes per position (`Consistent.ofTwo`) and holds if the surface gradients there are those of one vector (`Consistent.ofGradient`). -/
structure Consistent {n : ℕ} (C : Setup n d) (B : Finset (Fin n)) : Prop where
  agree : ∀ i ∈ B, ∀ j ∈ C.doubles i, j ∈ B → C.nodes.tmpRhs j = C.nodes.tmpRhs i
  sharp : C.nodes.continuosGradient = true → ∀ i ∈ B, ∀ j ∈ C.doubles i, j ∈ B → j ≠ i →
      dot (C.nodes.normal i) (C.nodes.normal j) ^ 2 ≠ 1 ∧ ∀ k ∈ C.doubles i, k ∈ B → k ≠ i →
        thisNormalGradient C.nodes i k = thisNormalGradient C.nodes i j

/-- At most two Dirichlet nodes per position, with normals that are not parallel. -/
theorem Consistent.ofTwo {n : ℕ} {C : Setup n d} {B : Finset (Fin n)}
    (agree : ∀ i ∈ B, ∀ j ∈ C.doubles i, j ∈ B → C.nodes.tmpRhs j = C.nodes.tmpRhs i)
    (sharp : C.nodes.continuosGradient = true → ∀ i ∈ B, ∀ j ∈ C.doubles i, j ∈ B → j ≠ i →
      dot (C.nodes.normal i) (C.nodes.normal j) ^ 2 ≠ 1 ∧ ∀ k ∈ C.doubles i, k ∈ B → k ≠ i → k = j) : Consistent C B :=
  ⟨agree, fun hg i hi j hj hjB hne => ⟨(sharp hg i hi j hj hjB hne).1, fun k hk hkB hki =>
    by rw [(sharp hg i hi j hj hjB hne).2 k hk hkB hki]⟩⟩

/-- Any number of Dirichlet nodes per position, with normals that are pairwise not parallel and surface gradients that are the tangential
parts of one vector per position. -/
theorem Consistent.ofGradient {n : ℕ} {C : Setup n d} {B : Finset (Fin n)}
    (agree : ∀ i ∈ B, ∀ j ∈ C.doubles i, j ∈ B → C.nodes.tmpRhs j = C.nodes.tmpRhs i) (refl : ∀ i, i ∈ C.doubles i)
    (normals : C.nodes.continuosGradient = true → ∀ i ∈ B, ∀ j ∈ C.doubles i, j ∈ B → j ≠ i → dot (C.nodes.normal i) (C.nodes.normal j) ^ 2 ≠ 1)
    (gradient : C.nodes.continuosGradient = true → ∀ i, ∃ g : Fin d → ℝ, ∀ j ∈ C.doubles i, j ∈ B →
      C.nodes.surfGrad j = tangential g (C.nodes.normal j)) : Consistent C B := by
  refine ⟨agree, fun hg i hi j hj hjB hne => ⟨normals hg i hi j hj hjB hne, fun k hk hkB hki => ?_⟩⟩
  obtain ⟨g, hgr⟩ := gradient hg i
  rw [(C54_sharp_edge_exact C.nodes i k g (normals hg i hi k hk hkB hki) (hgr i (refl i) hi) (hgr k hk hkB)).1,
    (C54_sharp_edge_exact C.nodes i j g (normals hg i hi j hj hjB hne) (hgr i (refl i) hi) (hgr j hj hjB)).1]

theorem Consistent.renumber {R : Renumbered σ inp inp'} {C : Setup inp.nDofs d} {C' : Setup inp'.nDofs d}
    (hC : SetupRenumbered R C C') {B : Finset (Fin inp.nDofs)} (h : Consistent C B) : Consistent C' (B.image (renum R)) := by
  have hinj := renum_injective R
  constructor
  · intro i' hi' j' hj' hjB'
    obtain ⟨i, hi, rfl⟩ := Finset.mem_image.1 hi'
    rw [hC.doubles] at hj'
    obtain ⟨j, hj, rfl⟩ := Finset.mem_image.1 hj'
    rw [hC.tmpRhs, hC.tmpRhs]
    exact h.agree i hi j hj (hinj.mem_finset_image.1 hjB')
  · intro hg i' hi' j' hj' hjB' hne
    obtain ⟨i, hi, rfl⟩ := Finset.mem_image.1 hi'
    rw [hC.doubles] at hj'
    obtain ⟨j, hj, rfl⟩ := Finset.mem_image.1 hj'
    obtain ⟨h1, h2⟩ := h.sharp (hC.grad ▸ hg) i hi j hj (hinj.mem_finset_image.1 hjB') (fun h => hne (h ▸ rfl))
    refine ⟨by rwa [hC.normal, hC.normal], fun k' hk' hkB' hne' => ?_⟩
    rw [hC.doubles] at hk'
    obtain ⟨k, hk, rfl⟩ := Finset.mem_image.1 hk'
    have := h2 k hk (hinj.mem_finset_image.1 hkB') (fun h => hne' (h ▸ rfl))
    unfold thisNormalGradient at this ⊢
    simpa only [hC.normal, hC.surfGrad] using this

/-- **C83** (exactness). Both methods. The results of two runs with different numberings, partitions and linear solvers that hold the
same potential and normal derivative at every node are both exact or both not. -/
theorem C83_exact (R : Renumbered σ inp inp') (D : Data) (S S' : SingRule) (C : Setup inp.nDofs d) (C' : Setup inp'.nDofs d)
    (hC : SetupRenumbered R C C')
    (gmres : (Vec inp.nDofs → Vec inp.nDofs) → Vec inp.nDofs → Vec inp.nDofs)
    (gmres' : (Vec inp'.nDofs → Vec inp'.nDofs) → Vec inp'.nDofs → Vec inp'.nDofs)
    (l l' : List (ℕ × ℕ)) (st st' : AlphaStatics) (phi0 dphi0 : Vec inp.nDofs) (phi0' dphi0' : Vec inp'.nDofs)
    (X : Solution inp.nDofs) (X' : Solution inp'.nDofs)
    (h : solve inp D S S' C gmres (alphaHistory l) phi0 dphi0 = (st, some X))
    (h' : solve inp' D S S' C' gmres' (alphaHistory l') phi0' dphi0' = (st', some X'))
    (B : Finset (Fin inp.nDofs)) (hP : Posed inp C B phi0 dphi0) (hP' : Posed inp' C' (B.image (renum R)) phi0' dphi0')
    (hdata : Consistent C B)
    (hphi : ∀ i, X'.phi (renum R i) = X.phi i) (hdphi : ∀ i, X'.dphi (renum R i) = X.dphi i) :
    (∀ i, X'.residual i = 0) ↔ ∀ i, X.residual i = 0 := by
  have hinj := renum_injective R
  have hsur := renum_surjective R
  have hdata' := hdata.renumber hC
  rw [C82_exact_solutions inp D S S' C gmres l st phi0 dphi0 X h B hP hdata.sharp hdata.agree,
    C82_exact_solutions inp' D S S' C' gmres' l' st' phi0' dphi0' X' h' _ hP' hdata'.sharp hdata'.agree]
  have hG : ∀ i, GradientNode C' (B.image (renum R)) (renum R i) ↔ GradientNode C B i := by
    intro i
    unfold GradientNode
    rw [hC.grad, hC.doubles]
    simp only [Finset.mem_image, exists_exists_and_eq_and, hinj.eq_iff, exists_eq_right, hinj.ne_iff]
  have hgr : ∀ i j, thisNormalGradient C'.nodes (renum R i) (renum R j) = thisNormalGradient C.nodes i j := by
    intro i j
    unfold thisNormalGradient
    rw [hC.normal, hC.normal, hC.surfGrad, hC.surfGrad]
  refine and_congr ?_ (and_congr ?_ ?_)
  · rw [hsur.forall]
    refine forall_congr' fun i => ?_
    rw [hG, hC.method, renumber_methodResidual R D S S' C.method C.owner C'.owner hphi hdphi]
  · rw [hsur.forall]
    refine forall_congr' fun i => ?_
    rw [hC.doubles, Finset.forall_mem_image, hphi]
    exact forall₂_congr fun j _ => by rw [hphi]
  · rw [hC.grad]
    refine forall_congr' fun _ => ?_
    rw [Finset.forall_mem_image]
    refine forall₂_congr fun i _ => ?_
    rw [hC.doubles, Finset.forall_mem_image]
    refine forall₂_congr fun j _ => ?_
    rw [hinj.mem_finset_image, hinj.ne_iff, hgr, hdphi]

/-- `solve` with another linear solver. -/
theorem solve_any {D : Data} {S S' : SingRule} {C : Setup inp.nDofs d}
    {gmres : (Vec inp.nDofs → Vec inp.nDofs) → Vec inp.nDofs → Vec inp.nDofs} {st0 st : AlphaStatics}
    {phi0 dphi0 : Vec inp.nDofs} {X : Solution inp.nDofs} (h : solve inp D S S' C gmres st0 phi0 dphi0 = (st, some X))
    (x : Vec inp.nDofs) :
    ∃ Y, solve inp D S S' C (fun _ _ => x) st0 phi0 dphi0 = (st, some Y) ∧ Y.sol = x := by
  unfold solve solveWith at h ⊢
  simp only [Prod.mk.injEq] at h ⊢
  obtain ⟨hst, h⟩ := h
  obtain ⟨alpha, ha, h⟩ := Option.bind_eq_some_iff.1 h
  obtain ⟨c, hc, h⟩ := Option.map_eq_some_iff.1 h
  simp only [ha, Option.bind_some, hc, Option.map_some]
  exact ⟨_, ⟨hst, rfl⟩, rfl⟩

/-- The linear system of `solve` has at most one solution: any two exact results are equal. -/
def Determined (inp : Input 3) (D : Data) (S S' : SingRule) (C : Setup inp.nDofs d) (st0 : AlphaStatics)
    (phi0 dphi0 : Vec inp.nDofs) : Prop :=
  ∀ gmres₁ gmres₂ st₁ st₂ X₁ X₂, solve inp D S S' C gmres₁ st0 phi0 dphi0 = (st₁, some X₁) →
    solve inp D S S' C gmres₂ st0 phi0 dphi0 = (st₂, some X₂) → (∀ i, X₁.residual i = 0) → (∀ i, X₂.residual i = 0) →
    X₁.phi = X₂.phi ∧ X₁.dphi = X₂.dphi

/-- **C83** (results). Both methods. If the linear system of one run is regular, exact solves of two runs with
different numberings, partitions, numbers of processes and linear solvers give the same potential and the same normal
derivative at every node. -/
theorem C83_same_result (R : Renumbered σ inp inp') (D : Data) (S S' : SingRule) (C : Setup inp.nDofs d) (C' : Setup inp'.nDofs d)
    (hC : SetupRenumbered R C C')
    (gmres : (Vec inp.nDofs → Vec inp.nDofs) → Vec inp.nDofs → Vec inp.nDofs)
    (gmres' : (Vec inp'.nDofs → Vec inp'.nDofs) → Vec inp'.nDofs → Vec inp'.nDofs)
    (l l' : List (ℕ × ℕ)) (st st' : AlphaStatics) (phi0 dphi0 : Vec inp.nDofs) (phi0' dphi0' : Vec inp'.nDofs)
    (X : Solution inp.nDofs) (X' : Solution inp'.nDofs)
    (h : solve inp D S S' C gmres (alphaHistory l) phi0 dphi0 = (st, some X))
    (h' : solve inp' D S S' C' gmres' (alphaHistory l') phi0' dphi0' = (st', some X'))
    (B : Finset (Fin inp.nDofs)) (hP : Posed inp C B phi0 dphi0) (hP' : Posed inp' C' (B.image (renum R)) phi0' dphi0')
    (hdata : Consistent C B) (hdet : Determined inp D S S' C (alphaHistory l) phi0 dphi0)
    (hX : ∀ i, X.residual i = 0) (hX' : ∀ i, X'.residual i = 0) (i : Fin inp.nDofs) :
    X'.phi (renum R i) = X.phi i ∧ X'.dphi (renum R i) = X.dphi i := by
  obtain ⟨Y, hY, hsol⟩ := solve_any h (fun i => X'.sol (renum R i))
  obtain ⟨-, -, p1, p2, -⟩ := solve_rows hY B hP.dirichlet hP.neumann hP.bc hP.phi hP.dphi
  obtain ⟨-, -, q1, q2, -⟩ := solve_rows h' _ hP'.dirichlet hP'.neumann hP'.bc hP'.phi hP'.dphi
  have hinj := renum_injective R
  have e1 : ∀ i, X'.phi (renum R i) = Y.phi i := by
    intro i
    rw [p1, q1]
    simp only [merge, hinj.mem_finset_image, hC.tmpRhs, hsol]
  have e2 : ∀ i, X'.dphi (renum R i) = Y.dphi i := by
    intro i
    rw [p2, q2]
    simp only [merge, hinj.mem_finset_image, hC.tmpRhs, hsol]
  have hres := (C83_exact R D S S' C C' hC _ gmres' l l' st st' phi0 dphi0 phi0' dphi0' Y X' hY h' B hP hP' hdata e1 e2).1 hX'
  obtain ⟨f1, f2⟩ := hdet _ _ _ _ Y X hY h hres hX
  rw [e1, e2, f1, f2]
  exact ⟨rfl, rfl⟩

/-! ## Corners: three Dirichlet nodes at one position -/

/-- `n` cells with one dof each, all at the origin; the dof of cell `c` has number `σ c`. -/
def pointInput (n : ℕ) (σ : Equiv.Perm ℕ) : Input 3 where
  nDofs := n
  pos := fun _ => 0
  nCells := n
  nq := 1
  qpos := fun q => ![q.1 + 1, 0, 0]
  cellDofs := fun c => [σ c]
  doubles := fun _ => Finset.range n
  levels := 1
  maxNodes := 4
  oldElems := fun _ => []

/-- Boundary conditions `N`, on `procs` processes. -/
def pointSetup {n : ℕ} (m : Method) (procs : ℕ) (N : NodeData n 3) : Setup n 3 where
  method := m
  owner := fun i => i % procs
  procs := procs
  part := procs
  neumannNodes := fun _ => 0
  haveDirichletBc := true
  nodes := N
  doubles := fun _ => Finset.univ
  hanging := fun _ => none
  fuel := 1
  order := List.finRange _

theorem point_renumbered {n : ℕ} (σ : Equiv.Perm ℕ) (hb : ∀ i, σ i < n ↔ i < n) :
    Renumbered σ (pointInput n 1) (pointInput n σ) := by
  refine ⟨rfl, hb, fun _ => rfl, rfl, rfl, rfl, fun _ => rfl, fun i => ?_, rfl, rfl, fun _ => rfl⟩
  ext j
  simp only [pointInput, Finset.mem_range, Finset.mem_image]
  exact ⟨fun h => ⟨σ.symm j, by rw [← hb]; simpa using h, by simp⟩, fun ⟨k, hk, e⟩ => e ▸ (hb k).2 hk⟩

theorem lines_no_entries {n : ℕ} (N : NodeData n d) (G : Fin n → Finset (Fin n))
    (hes : ∀ i es g, doubleNodeConstraints N G i = some (es, g) → es = []) (order : List (Fin n)) :
    computeConstraints N G (fun _ => none) 1 order = some (doubleNodeConstraints N G) := by
  unfold computeConstraints mergeLines
  rw [if_neg (by simp)]
  simp only [Option.map_none, Option.bind_some]
  refine (congrArg (closeLines 1 order) (?_ : _ = doubleNodeConstraints N G)).trans ?_
  · funext i
    cases hi : doubleNodeConstraints N G i with
    | none => rfl
    | some p =>
      obtain ⟨es, g⟩ := p
      have := hes i es g hi
      subst this
      simp [foldEntries]
  unfold closeLines
  generalize hc : doubleNodeConstraints N G = c at *
  induction order with
  | nil => rfl
  | cons a t ih =>
    rw [List.foldlM_cons]
    cases ha : c a with
    | none => simpa [ha] using ih
    | some p =>
      obtain ⟨es, g⟩ := p
      have := hes a es g ha
      subst this
      have hu : Function.update c a (some ([], g)) = c := by rw [← ha]; exact Function.update_eq_self a c
      simpa [expandLine, hu] using ih

theorem point_lines {n : ℕ} (m : Method) (procs : ℕ) (N : NodeData n 3) (hN : ∀ i, N.dirichlet i = 1) :
    computeConstraints (pointSetup m procs N).nodes (pointSetup m procs N).doubles (pointSetup m procs N).hanging
      (pointSetup m procs N).fuel (pointSetup m procs N).order =
      some (doubleNodeConstraints N fun _ => Finset.univ) := by
  refine lines_no_entries N (fun _ => Finset.univ) (fun i es g h => ?_) _
  obtain ⟨h1, h2, h3, h4, h5⟩ := C31_double_node_constraints N (fun _ => Finset.univ) (by simp) (by simp) (fun i => Or.inr (hN i)) i
  cases hg : N.continuosGradient with
  | false => rw [h3 (hN i) hg] at h; cases h
  | true =>
    obtain ⟨f, hf⟩ := exists_firstDirichlet N Finset.univ ⟨i, Finset.mem_univ i, hN i⟩
    by_cases hif : i = f
    · subst hif
      have hl : IsLastDirichlet N Finset.univ (Finset.univ.max' ⟨i, Finset.mem_univ i⟩) :=
        ⟨Finset.mem_univ _, hN _, fun j hj _ => Finset.le_max' _ _ hj⟩
      rw [h5 hg hf _ hl] at h
      split_ifs at h
      cases h; rfl
    · rw [h4 (hN i) hg f hf hif] at h
      cases h; rfl

theorem point_posed {n : ℕ} (m : Method) (procs : ℕ) (N : NodeData n 3) (hN : ∀ i, N.dirichlet i = 1) (dphi0 : Vec n) :
    Posed (pointInput n σ) (pointSetup m procs N) Finset.univ N.tmpRhs dphi0 where
  dirichlet := fun i => by simpa [pointSetup] using hN i
  neumann := by simp [pointSetup]
  bc := rfl
  phi := fun _ _ => rfl
  dphi := by simp
  refl := by simp [pointSetup]
  eq := by simp [pointSetup]
  coincide := fun i j _ => ⟨rfl, rfl⟩
  hanging := fun _ => rfl
  order := fun i => List.mem_finRange i

theorem point_solve {n : ℕ} (D : Data) (S S' : SingRule) (m : Method) (procs : ℕ) (N : NodeData n 3) (hN : ∀ i, N.dirichlet i = 1)
    (hn : 0 < n) (gmres : (Vec n → Vec n) → Vec n → Vec n) (phi0 dphi0 : Vec n) :
    ∃ st X, solve (pointInput n σ) D S S' (pointSetup m procs N) gmres (alphaHistory []) phi0 dphi0 = (st, some X) :=
  solve_some (by simp [alphaHistory, alphaStaticsStep, AlphaStatics.init, pointInput, pointSetup, hn.ne])
    (point_lines m procs N hN)

/-- Two or more Dirichlet nodes at one position, option on: the values of the gradient conditions are an exact result. -/
theorem point_exact {n : ℕ} (hn : 2 ≤ n) (D : Data) (S S' : SingRule) (m : Method) (procs : ℕ) (N : NodeData n 3)
    (hN : ∀ i, N.dirichlet i = 1) (hg : N.continuosGradient = true) (x dphi0 : Vec n)
    (hx : DoubleNodes N (fun _ => Finset.univ) x) :
    ∃ st, ∃ X : Solution n, solve (pointInput n σ) D S S' (pointSetup m procs N) (fun _ _ => x) (alphaHistory []) N.tmpRhs dphi0 =
      (st, some X) ∧ (∀ i, X.residual i = 0) ∧ X.dphi = x := by
  obtain ⟨st, X0, h0⟩ := point_solve (σ := σ) D S S' m procs N hN (by omega) (fun _ _ => x) N.tmpRhs dphi0
  obtain ⟨X, h, hsol⟩ := solve_any h0 x
  have hP := point_posed (σ := σ) m procs N hN dphi0
  obtain ⟨c, hc, h1, h2, h3, h4⟩ := solve_rows h Finset.univ hP.dirichlet hP.neumann hP.bc hP.phi hP.dphi
  obtain ⟨hl, hdom, -⟩ := C75_constraints N (fun _ => Finset.univ) (by simp) (by simp) (fun i => Or.inr (hN i))
    (fun _ => none) 1 (List.finRange n) (fun i => List.mem_finRange i) hc
  have hlines := (hl x).2 ⟨hx, fun i hs hi => by cases hi⟩
  refine ⟨st, X, h, fun i => ?_, ?_⟩
  · have hci : (c i).isSome := by
      refine (hdom i).2 ?_
      right; right; right
      refine ⟨hN i, hg, ?_⟩
      have : Nontrivial (Fin n) := Fin.nontrivial_iff_two_le.2 hn
      obtain ⟨j, hj⟩ := exists_ne i
      exact ⟨j, Finset.mem_univ j, hj, hN j⟩
    obtain ⟨⟨es, g⟩, hi⟩ := Option.isSome_iff_exists.1 hci
    obtain ⟨v, hv, e⟩ := hlines i es g hi
    have := h4 i es g hi
    rw [hsol, hv, Option.getD_some] at this
    have key : ∀ {a s r : ℝ}, a = s → a = s - r → r = 0 := by intro a s r h1 h2; linarith
    exact key e this
  · rw [h2, hsol]
    funext i
    simp [merge]

/-- Normals `e₀, e₁, e₂` of the three faces of a corner; the surface gradient of the third face is not tangential to a common vector with
those of the others: recovered gradients need not be. -/
def cornerNodes (order : Fin 3 → Fin 3) : NodeData 3 3 where
  dirichlet := fun _ => 1
  tmpRhs := fun _ => 0
  normal := fun i => Pi.single (order i) 1
  surfGrad := fun i => if order i = 2 then Pi.single 0 1 else 0
  continuosGradient := true

/-- **C83** (corners, refuted). With three Dirichlet nodes at one position the result depends on the numbering: there are a problem, a renumbering of it and
exact results of both, with different normal derivatives at a node. -/
theorem C83_corner_refuted (D : Data) (S S' : SingRule) (m : Method) :
    ∃ (σ : Equiv.Perm ℕ) (inp inp' : Input 3) (R : Renumbered σ inp inp') (C : Setup inp.nDofs 3) (C' : Setup inp'.nDofs 3)
      (gmres : (Vec inp.nDofs → Vec inp.nDofs) → Vec inp.nDofs → Vec inp.nDofs)
      (gmres' : (Vec inp'.nDofs → Vec inp'.nDofs) → Vec inp'.nDofs → Vec inp'.nDofs) (st st' : AlphaStatics)
      (X : Solution inp.nDofs) (X' : Solution inp'.nDofs) (i : Fin inp.nDofs),
      C.method = m ∧ SetupRenumbered R C C' ∧ Posed inp C Finset.univ 0 0 ∧ Posed inp' C' Finset.univ 0 0 ∧
      (∀ i ∈ Finset.univ, ∀ j ∈ C.doubles i, j ≠ i → dot (C.nodes.normal i) (C.nodes.normal j) ^ 2 ≠ 1) ∧
      solve inp D S S' C gmres (alphaHistory []) 0 0 = (st, some X) ∧
      solve inp' D S S' C' gmres' (alphaHistory []) 0 0 = (st', some X') ∧
      (∀ i, X.residual i = 0) ∧ (∀ i, X'.residual i = 0) ∧ X'.dphi (renum R i) ≠ X.dphi i := by
  have hdot : ∀ a b : Fin 3, dot (Pi.single a 1 : Fin 3 → ℝ) (Pi.single b 1) = if a = b then 1 else 0 := by
    intro a b
    fin_cases a <;> fin_cases b <;> simp [dot, Fin.sum_univ_three]
  have hdz : ∀ b : Fin 3 → ℝ, dot 0 b = 0 := by intro b; simp [dot]
  have hthis : ∀ (o : Fin 3 → Fin 3) i j, o i ≠ o j → thisNormalGradient (cornerNodes o) i j =
      some (if o j = 2 ∧ o i = 0 then 1 else 0) := by
    intro o i j hne
    have h0 : dot ((cornerNodes o).normal i) ((cornerNodes o).normal j) = 0 := (hdot _ _).trans (if_neg hne)
    unfold thisNormalGradient
    rw [h0, fdiv, if_neg (by norm_num), Option.map_some]
    congr 1
    by_cases h2 : o j = 2
    · by_cases h0 : o i = 0
      · simp [cornerNodes, h2, h0, hdot]
      · simp [cornerNodes, h2, h0, hdot, Ne.symm h0]
    · simp [cornerNodes, h2, hdz]
  have h1 : DoubleNodes (cornerNodes id) (fun _ => Finset.univ) ![1, 0, 0] := by
    refine ⟨by simp [cornerNodes], ?_, ?_, ?_⟩
    · intro i l h; have := h i (Finset.mem_univ i); simp [cornerNodes] at this
    · intro _ i l _ hl hne
      have hl0 : l = 0 := by simpa using hl.2.2 0 (Finset.mem_univ _) rfl
      subst hl0
      rw [otherNormalGradient_eq, hthis _ _ _ hne]
      fin_cases i
      · exact absurd rfl hne
      · simp
      · simp
    · intro _ i l hi hl hne
      have hi0 : i = 0 := by simpa using hi.2.2 0 (Finset.mem_univ _) rfl
      have hl2 : l = 2 := le_antisymm (by omega) (hl.2.2 2 (Finset.mem_univ _) rfl)
      subst hi0 hl2
      rw [hthis _ _ _ (by decide)]
      simp
  have h2 : DoubleNodes (cornerNodes (Equiv.swap 1 2)) (fun _ => Finset.univ) ![0, 0, 0] := by
    refine ⟨by simp [cornerNodes], ?_, ?_, ?_⟩
    · intro i l h; have := h i (Finset.mem_univ i); simp [cornerNodes] at this
    · intro _ i l _ hl hne
      have hl0 : l = 0 := by simpa using hl.2.2 0 (Finset.mem_univ _) rfl
      subst hl0
      rw [otherNormalGradient_eq, hthis _ _ _ (by simpa using hne)]
      fin_cases i
      · exact absurd rfl hne
      · simp
      · simp
    · intro _ i l hi hl hne
      have hi0 : i = 0 := by simpa using hi.2.2 0 (Finset.mem_univ _) rfl
      have hl2 : l = 2 := le_antisymm (by omega) (hl.2.2 2 (Finset.mem_univ _) rfl)
      subst hi0 hl2
      rw [hthis _ _ _ (by decide)]
      simp
  obtain ⟨st, X, e1, e2, e3⟩ := point_exact (by norm_num) D S S' m 1 (cornerNodes id) (fun _ => rfl) rfl _ 0 h1
  obtain ⟨st', X', e1', e2', e3'⟩ := point_exact (by norm_num) D S S' m 1 (cornerNodes (Equiv.swap 1 2)) (fun _ => rfl) rfl _ 0 h2
  have hb : ∀ i, Equiv.swap 1 2 i < 3 ↔ i < 3 := by
    intro i
    rcases eq_or_ne i 1 with rfl | h1
    · simp
    · rcases eq_or_ne i 2 with rfl | h2
      · simp
      · rw [Equiv.swap_apply_of_ne_of_ne h1 h2]
  refine ⟨Equiv.swap 1 2, pointInput 3 1, pointInput 3 (Equiv.swap 1 2), point_renumbered _ hb, pointSetup m 1 (cornerNodes id),
    pointSetup m 1 (cornerNodes (Equiv.swap 1 2)), _, _, st, st', X, X', (0 : Fin 3), rfl, ?_, ?_, ?_, ?_, e1, e1', e2, e2', ?_⟩
  · have hsw : ∀ i : Fin 3, Equiv.swap (1 : Fin 3) 2 (renum (point_renumbered (Equiv.swap 1 2) hb) i) = i := by
      intro i
      fin_cases i <;> rfl
    refine ⟨rfl, fun _ => rfl, fun i => ?_, fun i => ?_, rfl, fun i => ?_⟩
    · exact congrArg (fun k : Fin 3 => (Pi.single k 1 : Fin 3 → ℝ)) (hsw i)
    · exact congrArg (fun k : Fin 3 => if k = 2 then (Pi.single 0 1 : Fin 3 → ℝ) else 0) (hsw i)
    · exact (Finset.image_univ_of_surjective (renum_surjective _)).symm
  · exact point_posed m 1 (cornerNodes id) (fun _ => rfl) 0
  · exact point_posed m 1 (cornerNodes _) (fun _ => rfl) 0
  · intro i _ j _ hne
    have h0 : dot ((cornerNodes id).normal i) ((cornerNodes id).normal j) = 0 := (hdot _ _).trans (if_neg hne.symm)
    show dot ((cornerNodes id).normal i) ((cornerNodes id).normal j) ^ 2 ≠ 1
    rw [h0]
    norm_num
  · rw [e3, e3']
    show (![0, 0, 0] : Fin 3 → ℝ) 0 ≠ (![1, 0, 0] : Fin 3 → ℝ) 0
    simp

/-! ## An edge: the hypotheses of C82 and C83 are met -/

/-- Two Dirichlet nodes on the edge of two faces with normals `e₀`, `e₁`, continuous gradients requested. -/
def edgeNodes (order : Fin 2 → Fin 2) : NodeData 2 3 where
  dirichlet := fun _ => 1
  tmpRhs := fun _ => 5
  normal := fun i => if order i = 0 then ![1, 0, 0] else ![0, 1, 0]
  surfGrad := fun i => if order i = 0 then ![0, 3, 0] else ![7, 0, 0]
  continuosGradient := true

theorem edge_dot {o : Fin 2 → Fin 2} {i j : Fin 2} (h : o i ≠ o j) : dot ((edgeNodes o).normal i) ((edgeNodes o).normal j) = 0 := by
  rcases Fin.exists_fin_two.1 ⟨o i, rfl⟩ with hi | hi <;> rcases Fin.exists_fin_two.1 ⟨o j, rfl⟩ with hj | hj
  · exact absurd (hi.trans hj.symm) h
  · simp [edgeNodes, hi, hj, dot, Fin.sum_univ_three]
  · simp [edgeNodes, hi, hj, dot, Fin.sum_univ_three]
  · exact absurd (hi.trans hj.symm) h

theorem edge_gradient {o : Fin 2 → Fin 2} {i j : Fin 2} (h : o i ≠ o j) :
    thisNormalGradient (edgeNodes o) i j = some (if o i = 0 then 7 else 3) := by
  unfold thisNormalGradient
  rw [edge_dot h, fdiv, if_neg (by norm_num), Option.map_some]
  congr 1
  rcases Fin.exists_fin_two.1 ⟨o i, rfl⟩ with hi | hi <;> rcases Fin.exists_fin_two.1 ⟨o j, rfl⟩ with hj | hj
  · exact absurd (hi.trans hj.symm) h
  · simp [edgeNodes, hi, hj, dot, Fin.sum_univ_three]
  · simp [edgeNodes, hi, hj, dot, Fin.sum_univ_three]
  · exact absurd (hi.trans hj.symm) h

theorem edge_doubleNodes {o : Fin 2 → Fin 2} (ho : Function.Injective o) :
    DoubleNodes (edgeNodes o) (fun _ => Finset.univ) (fun i => if o i = 0 then 7 else 3) := by
  refine ⟨by simp [edgeNodes], ?_, ?_, ?_⟩
  · intro i l h; have := h i (Finset.mem_univ i); simp [edgeNodes] at this
  · intro _ i l _ hl hne
    rw [otherNormalGradient_eq, edge_gradient (ho.ne hne)]
  · intro _ i l hi hl hne
    rw [edge_gradient (ho.ne (Ne.symm hne))]

theorem edge_consistent (m : Method) (procs : ℕ) {o : Fin 2 → Fin 2} (ho : Function.Injective o) :
    Consistent (pointSetup m procs (edgeNodes o)) Finset.univ := by
  refine ⟨fun _ _ _ _ _ => rfl, fun _ i _ j _ _ hne => ⟨?_, fun k _ _ hk => ?_⟩⟩
  · show dot ((edgeNodes o).normal i) ((edgeNodes o).normal j) ^ 2 ≠ 1
    rw [edge_dot (ho.ne hne.symm)]
    norm_num
  · rw [show k = j by omega]

theorem edge_determined (D : Data) (S S' : SingRule) (m : Method) (procs : ℕ) {o : Fin 2 → Fin 2} (ho : Function.Injective o)
    (dphi0 : Vec 2) : Determined (pointInput 2 σ) D S S' (pointSetup m procs (edgeNodes o)) (alphaHistory []) (edgeNodes o).tmpRhs dphi0 := by
  intro g₁ g₂ st₁ st₂ X₁ X₂ h₁ h₂ r₁ r₂
  have hP := point_posed (σ := σ) m procs (edgeNodes o) (fun _ => rfl) dphi0
  have hc := edge_consistent m procs ho
  have a₁ := (C82_exact_solutions _ D S S' _ g₁ [] st₁ _ _ X₁ h₁ _ hP hc.sharp hc.agree).1 r₁
  have a₂ := (C82_exact_solutions _ D S S' _ g₂ [] st₂ _ _ X₂ h₂ _ hP hc.sharp hc.agree).1 r₂
  obtain ⟨-, -, p₁, -⟩ := solve_rows h₁ Finset.univ hP.dirichlet hP.neumann hP.bc hP.phi hP.dphi
  obtain ⟨-, -, p₂, -⟩ := solve_rows h₂ Finset.univ hP.dirichlet hP.neumann hP.bc hP.phi hP.dphi
  constructor
  · rw [p₁, p₂]
    funext i
    simp [merge]
  · funext i
    have hk : ∃ j : Fin 2, j ≠ i := by
      have : Nontrivial (Fin 2) := Fin.nontrivial_iff_two_le.2 le_rfl
      exact exists_ne (α := Fin 2) i
    obtain ⟨j, hj⟩ := hk
    have b₁ := a₁.2.2 rfl i (Finset.mem_univ i) j (Finset.mem_univ j) (Finset.mem_univ j) hj
    have b₂ := a₂.2.2 rfl i (Finset.mem_univ i) j (Finset.mem_univ j) (Finset.mem_univ j) hj
    exact Option.some.inj (b₁.symm.trans b₂)

/-- The edge on one process and, with the two dofs exchanged, on two processes: all hypotheses of C83 hold, with exact results of both. -/
example (D : Data) (S S' : SingRule) (m : Method) :
    ∃ (σ : Equiv.Perm ℕ) (R : Renumbered σ (pointInput 2 1) (pointInput 2 σ)) (C C' : Setup 2 3) (st st' : AlphaStatics) (X X' : Solution 2)
      (gmres gmres' : (Vec 2 → Vec 2) → Vec 2 → Vec 2) (phi0 phi0' : Vec 2),
      C.procs = 1 ∧ C'.procs = 2 ∧ (renum R (0 : Fin 2) : ℕ) = 1 ∧ SetupRenumbered (inp := pointInput 2 1) (inp' := pointInput 2 σ) R C C' ∧
      solve (pointInput 2 1) D S S' C gmres (alphaHistory []) phi0 0 = (st, some X) ∧
      solve (pointInput 2 σ) D S S' C' gmres' (alphaHistory []) phi0' 0 = (st', some X') ∧
      Posed (pointInput 2 1) C Finset.univ phi0 0 ∧ Posed (pointInput 2 σ) C' (Finset.univ.image (renum R)) phi0' 0 ∧
      Consistent C Finset.univ ∧ Determined (pointInput 2 1) D S S' C (alphaHistory []) phi0 0 ∧
      (∀ i, X.residual i = 0) ∧ (∀ i, X'.residual i = 0) ∧ X.dphi (0 : Fin 2) = 7 := by
  have hb : ∀ i, Equiv.swap 0 1 i < 2 ↔ i < 2 := by
    intro i
    rcases eq_or_ne i 0 with rfl | h1
    · simp
    · rcases eq_or_ne i 1 with rfl | h2
      · simp
      · rw [Equiv.swap_apply_of_ne_of_ne h1 h2]
  have hs := (Equiv.swap (0 : Fin 2) 1).injective
  obtain ⟨st, X, e1, e2, e3⟩ := point_exact (σ := 1) le_rfl D S S' m 1 (edgeNodes id) (fun _ => rfl) rfl _ 0
    (edge_doubleNodes Function.injective_id)
  obtain ⟨st', X', e1', e2', e3'⟩ := point_exact (σ := Equiv.swap 0 1) le_rfl D S S' m 2 (edgeNodes (Equiv.swap 0 1)) (fun _ => rfl) rfl _ 0
    (edge_doubleNodes hs)
  refine ⟨Equiv.swap 0 1, point_renumbered _ hb, pointSetup m 1 (edgeNodes id), pointSetup m 2 (edgeNodes (Equiv.swap 0 1)), st, st', X, X',
    _, _, _, _, rfl, rfl, rfl, ?_, e1, e1', point_posed m 1 _ (fun _ => rfl) 0, ?_, edge_consistent m 1 Function.injective_id,
    edge_determined D S S' m 1 Function.injective_id 0, e2, e2', ?_⟩
  · have hsw : ∀ i : Fin 2, Equiv.swap (0 : Fin 2) 1 (renum (point_renumbered (Equiv.swap 0 1) hb) i) = i := by
      intro i
      fin_cases i <;> rfl
    refine ⟨rfl, fun _ => rfl, fun i => ?_, fun i => ?_, rfl, fun i => ?_⟩
    · exact congrArg (fun k : Fin 2 => if k = 0 then (![1, 0, 0] : Fin 3 → ℝ) else ![0, 1, 0]) (hsw i)
    · exact congrArg (fun k : Fin 2 => if k = 0 then (![0, 3, 0] : Fin 3 → ℝ) else ![7, 0, 0]) (hsw i)
    · exact (Finset.image_univ_of_surjective (renum_surjective (point_renumbered (Equiv.swap 0 1) hb))).symm
  · rw [Finset.image_univ_of_surjective (renum_surjective _)]
    exact point_posed m 2 _ (fun _ => rfl) 0
  · rw [e3]
    simp

/-- A cube with its first two nodes exchanged. -/
example : ∃ inp' : Input 3, Renumbered (Equiv.swap 0 1) (cubeInput 3 1) inp' ∧ inp'.pos 0 = (cubeInput 3 1).pos 1 ∧
    inp'.pos 0 ≠ (cubeInput 3 1).pos 0 ∧ inp'.cellDofs 0 = [1, 2, 4, 6] := by
  refine ⟨_, renumbered_input _ _ fun i => ?_, ?_, ?_, ?_⟩
  · rcases eq_or_ne i 0 with rfl | h1
    · simp [cubeInput]
    · rcases eq_or_ne i 1 with rfl | h2
      · simp [cubeInput]
      · rw [Equiv.swap_apply_of_ne_of_ne h1 h2]
  · simp [renumberInput]
  · intro h
    have := congrFun h 0
    norm_num [renumberInput, cubeInput] at this
  · simp [renumberInput, cubeInput, Equiv.swap_apply_def]

end PiBem.Bem
