import Verif.Octree.Lists
import Mathlib.Data.List.Perm.Basic
import Mathlib.Data.Finset.Image
import Mathlib.Logic.Equiv.Basic
import Mathlib.Algebra.BigOperators.Group.List.Basic

/-!
# Octree of a renumbered problem (helper lemmas for C83)

The blocks of the octree of a renumbered problem hold the renumbered nodes; everything else in the octree, and all the lists of
blocks computed from it, are the same.
-/

namespace PiBem.Octree

variable {d : ℕ}

/-- `inp'` is the problem `inp` with dof `i` renamed `σ i`: same mesh, quadrature points and parameters. -/
structure Renumbered (σ : Equiv.Perm ℕ) (inp inp' : Input d) : Prop where
  nDofs : inp'.nDofs = inp.nDofs
  bound : ∀ i, σ i < inp.nDofs ↔ i < inp.nDofs
  pos : ∀ i, inp'.pos (σ i) = inp.pos i
  nCells : inp'.nCells = inp.nCells
  nq : inp'.nq = inp.nq
  qpos : inp'.qpos = inp.qpos
  cellDofs : ∀ c, inp'.cellDofs c = (inp.cellDofs c).map σ
  doubles : ∀ i, inp'.doubles (σ i) = (inp.doubles i).image σ
  levels : inp'.levels = inp.levels
  maxNodes : inp'.maxNodes = inp.maxNodes
  oldElems : ∀ i, inp'.oldElems (σ i) = inp.oldElems i

/-- What in the input does not depend on the numbering. -/
def Input.bare (inp : Input d) : Input d :=
  ⟨0, fun _ => 0, inp.nCells, inp.nq, inp.qpos, fun _ => [], fun _ => ∅, inp.levels, inp.maxNodes, fun _ => []⟩

/-- What in a block does not depend on the numbering. -/
def Block.bare (b : Block d) : Block d := { b with nodes := [] }

/-- What in the octree does not depend on the numbering. -/
def St.bare (T : St d) : St d := { T with blocks := fun b => (T.blocks b).bare, dofb := fun _ => [] }

/-- Octrees equal up to the numbering of the nodes. -/
structure SameUpTo (σ : Equiv.Perm ℕ) (T T' : St d) : Prop where
  bare : T'.bare = T.bare
  nodes : ∀ b, (T'.blocks b).nodes.Perm ((T.blocks b).nodes.map σ)

theorem SameUpTo.block {σ : Equiv.Perm ℕ} {T T' : St d} (h : SameUpTo σ T T') (b : ℕ) : (T'.blocks b).bare = (T.blocks b).bare :=
  congrFun (congrArg St.blocks h.bare) b

theorem SameUpTo.count {σ : Equiv.Perm ℕ} {T T' : St d} (h : SameUpTo σ T T') : T'.count = T.count := by
  have hB := h.bare
  simp only [St.bare, St.mk.injEq] at hB
  simp only [hB]

theorem SameUpTo.startLevel {σ : Equiv.Perm ℕ} {T T' : St d} (h : SameUpTo σ T T') : T'.startLevel = T.startLevel := by
  have hB := h.bare
  simp only [St.bare, St.mk.injEq] at hB
  simp only [hB]

theorem SameUpTo.endLevel {σ : Equiv.Perm ℕ} {T T' : St d} (h : SameUpTo σ T T') : T'.endLevel = T.endLevel := by
  have hB := h.bare
  simp only [St.bare, St.mk.injEq] at hB
  simp only [hB]

theorem SameUpTo.parentList {σ : Equiv.Perm ℕ} {T T' : St d} (h : SameUpTo σ T T') : T'.parentList = T.parentList := by
  have hB := h.bare
  simp only [St.bare, St.mk.injEq] at hB
  simp only [hB]

theorem SameUpTo.childless {σ : Equiv.Perm ℕ} {T T' : St d} (h : SameUpTo σ T T') : T'.childless = T.childless := by
  have hB := h.bare
  simp only [St.bare, St.mk.injEq] at hB
  simp only [hB]

theorem SameUpTo.qpb {σ : Equiv.Perm ℕ} {T T' : St d} (h : SameUpTo σ T T') : T'.qpb = T.qpb := by
  have hB := h.bare
  simp only [St.bare, St.mk.injEq] at hB
  simp only [hB]

theorem SameUpTo.dofsFilled {σ : Equiv.Perm ℕ} {T T' : St d} (h : SameUpTo σ T T') : T'.dofsFilled = T.dofsFilled := by
  have hB := h.bare
  simp only [St.bare, St.mk.injEq] at hB
  simp only [hB]

theorem SameUpTo.qpsFilled {σ : Equiv.Perm ℕ} {T T' : St d} (h : SameUpTo σ T T') : T'.qpsFilled = T.qpsFilled := by
  have hB := h.bare
  simp only [St.bare, St.mk.injEq] at hB
  simp only [hB]

theorem SameUpTo.cap {σ : Equiv.Perm ℕ} {T T' : St d} (h : SameUpTo σ T T') : T'.cap = T.cap := by
  have hB := h.bare
  simp only [St.bare, St.mk.injEq] at hB
  simp only [hB]

theorem SameUpTo.oob {σ : Equiv.Perm ℕ} {T T' : St d} (h : SameUpTo σ T T') : T'.oob = T.oob := by
  have hB := h.bare
  simp only [St.bare, St.mk.injEq] at hB
  simp only [hB]

theorem bare_level {b b' : Block d} (h : b'.bare = b.bare) : b'.level = b.level := by
  simp only [Block.bare, Block.mk.injEq] at h
  simp only [h]

theorem bare_parent {b b' : Block d} (h : b'.bare = b.bare) : b'.parent = b.parent := by
  simp only [Block.bare, Block.mk.injEq] at h
  simp only [h]

theorem bare_pMin {b b' : Block d} (h : b'.bare = b.bare) : b'.pMin = b.pMin := by
  simp only [Block.bare, Block.mk.injEq] at h
  simp only [h]

theorem bare_delta {b b' : Block d} (h : b'.bare = b.bare) : b'.delta = b.delta := by
  simp only [Block.bare, Block.mk.injEq] at h
  simp only [h]

theorem bare_qps {b b' : Block d} (h : b'.bare = b.bare) : b'.qps = b.qps := by
  simp only [Block.bare, Block.mk.injEq] at h
  simp only [h]

theorem bare_children {b b' : Block d} (h : b'.bare = b.bare) : b'.children = b.children := by
  simp only [Block.bare, Block.mk.injEq] at h
  simp only [h]

variable {σ : Equiv.Perm ℕ} {inp inp' : Input d}

theorem Renumbered.bare (R : Renumbered σ inp inp') : inp'.bare = inp.bare := by
  simp [Input.bare, R.nCells, R.nq, R.qpos, R.levels, R.maxNodes]

theorem range_perm {n : ℕ} (hb : ∀ i, σ i < n ↔ i < n) : (List.range n).Perm ((List.range n).map σ) := by
  rw [List.perm_ext_iff_of_nodup List.nodup_range (List.nodup_range.map σ.injective)]
  intro i
  simp only [List.mem_range, List.mem_map]
  constructor
  · intro hi
    refine ⟨σ.symm i, ?_, by simp⟩
    rw [← hb]; simpa using hi
  · rintro ⟨j, hj, rfl⟩
    exact (hb j).2 hj

theorem maxCoor_renumber (R : Renumbered σ inp inp') : maxCoor inp' = maxCoor inp := by
  unfold maxCoor
  rw [R.nDofs]
  have hc : ∀ (l : List (Fin d)) (x : Pt d) (m : ℚ),
      l.foldl (fun m a => max m |x a|) m = max m (l.foldl (fun m a => max m |x a|) m) := by
    intro l x
    induction l with
    | nil => intro m; simp
    | cons a l ih =>
      intro m
      simp only [List.foldl_cons]
      rw [ih]
      rw [← max_assoc, ← max_assoc, max_self]
  have hf : ∀ (l : List (Fin d)) (x : Pt d) (m m' : ℚ),
      l.foldl (fun m a => max m |x a|) (max m m') = max m (l.foldl (fun m a => max m |x a|) m') := by
    intro l x
    induction l with
    | nil => intro m m'; simp
    | cons a l ih =>
      intro m m'
      simp only [List.foldl_cons]
      rw [max_assoc, ih]
  have hcomm : ∀ (l : List (Fin d)) (x y : Pt d) (m : ℚ),
      l.foldl (fun m a => max m |x a|) (l.foldl (fun m a => max m |y a|) m) =
      l.foldl (fun m a => max m |y a|) (l.foldl (fun m a => max m |x a|) m) := by
    intro l x y m
    have e : ∀ (x : Pt d) (m : ℚ), l.foldl (fun m a => max m |x a|) m = max (l.foldl (fun m a => max m |x a|) m) m := by
      intro x m; rw [max_comm]; exact hc l x m
    conv_lhs => rw [e y m, hf]
    conv_rhs => rw [e x m, hf]
    exact max_comm _ _
  have hp := (range_perm R.bound).foldl_eq' (f := fun m i => (List.finRange d).foldl (fun m a => max m |inp'.pos i a|) m)
    (fun x _ y _ z => hcomm _ _ _ _) 0
  rw [hp, List.foldl_map]
  simp only [R.pos]

theorem allQps_renumber (R : Renumbered σ inp inp') : allQps inp' = allQps inp := by
  unfold allQps; rw [R.nCells, R.nq]

theorem init_same (R : Renumbered σ inp inp') : SameUpTo σ (initSt inp) (initSt inp') where
  bare := by
    simp [St.bare, initSt, Block.bare, rootBlock, allQps_renumber R, maxCoor_renumber R, R.nCells, R.nq, R.levels]
  nodes := fun b => by
    simp only [initSt, rootBlock, R.nDofs]
    exact range_perm R.bound

theorem mkChild_same (R : Renumbered σ inp inp') {b b' : Block d} (hb : b'.bare = b.bare) (hn : b'.nodes.Perm (b.nodes.map σ))
    (level : ℕ) (delta : ℚ) (jj j : ℕ) :
    (mkChild inp' level delta jj b' j).bare = (mkChild inp level delta jj b j).bare ∧
    (mkChild inp' level delta jj b' j).nodes.Perm ((mkChild inp level delta jj b j).nodes.map σ) := by
  have hp : b'.pMin = b.pMin := bare_pMin hb
  have hq : b'.qps = b.qps := bare_qps hb
  constructor
  · simp only [Block.bare, mkChild, hp, hq, R.qpos]
  · simp only [mkChild, hp]
    refine (hn.filter _).trans ?_
    rw [List.filter_map]
    simp only [Function.comp_def, R.pos]
    exact List.Perm.refl _

theorem addChild_same {T T' : St d} (h : SameUpTo σ T T') (jj : ℕ) {c c' : Block d} (hb : c'.bare = c.bare)
    (hn : c'.nodes.Perm (c.nodes.map σ)) : SameUpTo σ (addChild jj T c) (addChild jj T' c') := by
  have hlen : c'.nodes.length = c.nodes.length := by rw [hn.length_eq, List.length_map]
  have hq : c'.qps = c.qps := bare_qps hb
  have hcnt : T'.count = T.count := h.count
  have hqpb : T'.qpb = T.qpb := h.qpb
  have hoob : T'.oob = T.oob := h.oob
  have hcap : T'.cap = T.cap := h.cap
  have hch : (T'.blocks jj).children = (T.blocks jj).children := bare_children (h.block jj)
  unfold addChild
  rw [hlen, hq]
  split_ifs
  · constructor
    · have hblocks : (fun b => (Function.update (Function.update T'.blocks jj
            { T'.blocks jj with children := (T'.blocks jj).children ++ [T'.count] }) T'.count c' b).bare) =
          fun b => (Function.update (Function.update T.blocks jj
            { T.blocks jj with children := (T.blocks jj).children ++ [T.count] }) T.count c b).bare := by
        funext b
        rw [hcnt]
        by_cases h1 : b = T.count
        · subst h1; simp [hb]
        · rw [Function.update_of_ne h1, Function.update_of_ne h1]
          by_cases h2 : b = jj
          · subst h2
            have := h.block b
            simp only [Function.update_self, hch]
            simp only [Block.bare, Block.mk.injEq] at this ⊢
            simp [this]
          · rw [Function.update_of_ne h2, Function.update_of_ne h2]
            exact h.block b
      have h2 := h.bare
      simp only [St.bare, St.mk.injEq] at h2 ⊢
      refine ⟨hblocks, ?_⟩
      simp [h2]
    · intro b
      simp only [hcnt]
      by_cases h1 : b = T.count
      · subst h1; simpa using hn
      · rw [Function.update_of_ne h1, Function.update_of_ne h1]
        by_cases h2 : b = jj
        · subst h2; simpa using h.nodes b
        · rw [Function.update_of_ne h2, Function.update_of_ne h2]
          exact h.nodes b
  · exact h

theorem split_same (R : Renumbered σ inp inp') {T T' : St d} (h : SameUpTo σ T T') (level : ℕ) (delta : ℚ) (jj : ℕ) :
    SameUpTo σ (splitBlock inp level delta T jj) (splitBlock inp' level delta T' jj) := by
  unfold splitBlock
  have hb := h.block jj
  have hn := h.nodes jj
  generalize T.blocks jj = b at hb hn
  generalize T'.blocks jj = b' at hb hn
  generalize List.range (2 ^ d) = l
  induction l generalizing T T' with
  | nil => exact h
  | cons j l ih =>
    simp only [List.foldl_cons]
    obtain ⟨h1, h2⟩ := mkChild_same R hb hn level delta jj j
    exact ih (addChild_same h jj h1 h2)

theorem foldl_same {α : Type} {f f' : St d → α → St d}
    (hf : ∀ T T' a, SameUpTo σ T T' → SameUpTo σ (f T a) (f' T' a)) (l : List α) {T T' : St d} (h : SameUpTo σ T T') :
    SameUpTo σ (l.foldl f T) (l.foldl f' T') := by
  induction l generalizing T T' with
  | nil => exact h
  | cons a l ih => exact ih (hf _ _ a h)

theorem numNodes_same (R : Renumbered σ inp inp') {b b' : Block d} (hn : b'.nodes.Perm (b.nodes.map σ)) :
    blockNumNodes inp' b' = blockNumNodes inp b := by
  unfold blockNumNodes
  rw [(hn.map _).sum_eq, List.map_map]
  simp only [Function.comp_def, R.doubles, Finset.card_image_of_injective _ σ.injective]

theorem classify_same (R : Renumbered σ inp inp') {T T' : St d} (h : SameUpTo σ T T') (level jj : ℕ) :
    SameUpTo σ (classify inp level T jj) (classify inp' level T' jj) := by
  have h1 : blockNumNodes inp' (T'.blocks jj) = blockNumNodes inp (T.blocks jj) := numNodes_same R (h.nodes jj)
  have h2 : (T'.blocks jj).qps = (T.blocks jj).qps := bare_qps (h.block jj)
  have h3 : T'.childless = T.childless := h.childless
  have h4 : T'.qpb = T.qpb := h.qpb
  have h5 : T'.parentList = T.parentList := h.parentList
  have h6 : T'.dofsFilled = T.dofsFilled := h.dofsFilled
  have h7 : T'.qpsFilled = T.qpsFilled := h.qpsFilled
  have hB := h.bare
  simp only [St.bare, St.mk.injEq] at hB
  unfold classify
  simp only [h1, h2, R.maxNodes, R.levels]
  split_ifs <;>
  exact ⟨by simp only [St.bare, St.mk.injEq]; simp [hB], h.nodes⟩

theorem level_same (R : Renumbered σ inp inp') {T T' : St d} (h : SameUpTo σ T T') (level : ℕ) :
    SameUpTo σ (levelStep inp level T) (levelStep inp' level T') := by
  unfold levelStep
  rw [maxCoor_renumber R]
  dsimp only
  have hpl : T'.parentList = T.parentList := h.parentList
  rw [hpl]
  have h1 := foldl_same (f := splitBlock inp level (22 / 10 * maxCoor inp / 2 ^ level))
    (f' := splitBlock inp' level (22 / 10 * maxCoor inp / 2 ^ level))
    (fun T T' a h => split_same R h level _ a) (T.parentList (level - 1)) h
  generalize (T.parentList (level - 1)).foldl (splitBlock inp level (22 / 10 * maxCoor inp / 2 ^ level)) T = U at h1 ⊢
  generalize (T.parentList (level - 1)).foldl (splitBlock inp' level (22 / 10 * maxCoor inp / 2 ^ level)) T' = U' at h1 ⊢
  have he : U'.endLevel = U.endLevel := h1.endLevel
  have hs : U'.startLevel = U.startLevel := h1.startLevel
  have hc : U'.count = U.count := h1.count
  have hB := h1.bare
  simp only [St.bare, St.mk.injEq] at hB
  simp only [he, hs, hc]
  refine foldl_same (fun T T' a h => classify_same R h level a) _ (SameUpTo.mk ?_ h1.nodes)
  simp only [St.bare, St.mk.injEq]
  simp [hB]

theorem buildTo_same (R : Renumbered σ inp inp') (k : ℕ) : SameUpTo σ (buildTo inp k) (buildTo inp' k) := by
  induction k with
  | zero => exact init_same R
  | succ k ih => exact level_same R ih (k + 1)

/-- The octree of the renumbered problem. -/
theorem build_same (R : Renumbered σ inp inp') : SameUpTo σ (build inp) (build inp') := by
  have h := buildTo_same R inp.levels
  unfold build
  rw [R.levels]
  have h3 : (buildTo inp' inp.levels).childless = (buildTo inp inp.levels).childless := h.childless
  have h5 : (buildTo inp' inp.levels).parentList = (buildTo inp inp.levels).parentList := h.parentList
  have hB := h.bare
  simp only [St.bare, St.mk.injEq] at hB
  refine ⟨?_, h.nodes⟩
  simp only [St.bare, St.mk.injEq]
  simp [hB]

/-! ## Lists -/

theorem adj_bare (b c : Block d) : adj d b.bare c.bare = adj d b c := by
  rcases d with _ | _ | _ | _ | d <;> rfl

theorem nnFirst_bare (T : St d) : nnFirst T.bare = nnFirst T := by
  funext k S
  unfold nnFirst
  simp only [St.bare, adj_bare]
  rfl

theorem nnSub_bare (T : St d) : nnSub T.bare = nnSub T := by
  funext k S s
  induction s with
  | zero => rfl
  | succ s ih =>
    rw [nnSub, nnSub, ih]
    unfold nnNext
    simp only [St.bare, adj_bare]
    rfl

theorem nearNeigh_bare (inp : Input d) (T : St d) : nearNeigh inp T = nearNeigh inp.bare T.bare := by
  have : nnStep inp.bare T.bare = nnStep inp T := by
    funext k f s
    unfold nnStep
    rw [nnFirst_bare, nnSub_bare]
    rfl
  unfold nearNeigh
  rw [this]
  rfl

theorem numSub_bare (inp : Input d) (T : St d) : numSub inp T = numSub inp.bare T.bare := rfl

theorem refine_bare (T : St d) : refine T = refine T.bare := rfl

variable {T T' : St d}

theorem mem_nodes_same (h : SameUpTo σ T T') (b i : ℕ) : σ i ∈ (T'.blocks b).nodes ↔ i ∈ (T.blocks b).nodes := by
  rw [(h.nodes b).mem_iff]; simp

theorem dofToElems_same (R : Renumbered σ inp inp') (i : ℕ) : dofToElems inp' (σ i) = dofToElems inp i := by
  unfold dofToElems
  rw [R.oldElems, R.nCells]
  congr 1
  refine List.filter_congr fun c _ => ?_
  rw [R.cellDofs]
  simp

theorem singBlocks_same (R : Renumbered σ inp inp') (h : SameUpTo σ T T') : singBlocks inp' T' = singBlocks inp T := by
  funext k s
  have h2 : (T'.blocks k).level = (T.blocks k).level := bare_level (h.block k)
  have h4 : T'.qpb = T.qpb := h.qpb
  have hs : quadPointsSize inp' = quadPointsSize inp := by funext c; simp [quadPointsSize, R.nCells, R.nq]
  have hn : (T'.blocks k).nodes.toFinset = (T.blocks k).nodes.toFinset.image σ := by
    ext x
    rw [List.mem_toFinset, (h.nodes k).mem_iff]
    simp
  unfold singBlocks
  rw [hn, Finset.image_biUnion]
  refine Finset.biUnion_congr rfl fun i _ => ?_
  rw [R.doubles, Finset.image_biUnion]
  refine Finset.biUnion_congr rfl fun p _ => ?_
  rw [dofToElems_same R, hs, h2, h4]

theorem numSub_same (R : Renumbered σ inp inp') (h : SameUpTo σ T T') : numSub inp' T' = numSub inp T := by
  rw [numSub_bare, numSub_bare inp, R.bare, h.bare]

theorem levelIds_same (h : SameUpTo σ T T') : T'.levelIds = T.levelIds := by
  have : T'.bare.levelIds = T.bare.levelIds := by rw [h.bare]
  exact this

theorem intList_same (R : Renumbered σ inp inp') (h : SameUpTo σ T T') : intList inp' T' = intList inp T := by
  funext k s
  unfold intList
  rw [levelIds_same h, numSub_same R h, singBlocks_same R h, nearNeigh_bare, nearNeigh_bare inp, R.bare, h.bare]

theorem nonIntList_same (R : Renumbered σ inp inp') (h : SameUpTo σ T T') : nonIntList inp' T' = nonIntList inp T := by
  funext k s
  unfold nonIntList
  have h1 : (T'.blocks k).level = (T.blocks k).level := bare_level (h.block k)
  have h2 : (T'.blocks k).parent = (T.blocks k).parent := bare_parent (h.block k)
  rw [intList_same R h, numSub_same R h, refine_bare, h.bare, ← refine_bare, h1, h2]

end PiBem.Octree
