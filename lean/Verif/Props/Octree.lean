import Verif.Octree.Tree
import Verif.Octree.Dofb
import Verif.Octree.Size
import Verif.Octree.Example

/-!
# Properties of the octree (C01-C05, C11)

Theorems about `build inp`, the state of the program after `generate_octree_blocking`
(bem_fma.cc:3852-4540) on an arbitrary input, in dimension 2 or 3.
-/

namespace PiBem.Octree

variable {d : ℕ}

/-! ## C01 -/

/-- **C01**. Every node and every quadrature point of the mesh is in exactly one leaf, stored there
once; nothing else is stored. A block that is not a leaf stores exactly what its children store, each
item being in exactly one child. -/
theorem C01_leaves_partition (hd : d = 2 ∨ d = 3) (inp : Input d) :
    let T := build inp
    -- nodes
    (∀ i, i < inp.nDofs → ∃! b, b ∈ T.childless ∧ i ∈ (T.blocks b).nodes) ∧
    -- quadrature points
    (∀ c q, c < inp.nCells → q < inp.nq → ∃! b, b ∈ T.childless ∧ (c, q) ∈ (T.blocks b).qps) ∧
    -- no repetitions, and nothing but nodes and quadrature points of the mesh
    T.childless.Nodup ∧
    (∀ b, b < T.count → (T.blocks b).nodes.Nodup ∧ (T.blocks b).qps.Nodup ∧
      (∀ i ∈ (T.blocks b).nodes, i < inp.nDofs) ∧
      (∀ q ∈ (T.blocks b).qps, q.1 < inp.nCells ∧ q.2 < inp.nq)) ∧
    -- leaves are blocks without children, the other blocks are the union of their children
    (∀ b ∈ T.childless, b < T.count ∧ (T.blocks b).children = []) ∧
    (∀ b, b < T.count → b ∉ T.childless →
      (∀ i, i ∈ (T.blocks b).nodes → ∃! c, c ∈ (T.blocks b).children ∧ i ∈ (T.blocks c).nodes) ∧
      (∀ q, q ∈ (T.blocks b).qps → ∃! c, c ∈ (T.blocks b).children ∧ q ∈ (T.blocks c).qps)) ∧
    (∀ b, b < T.count → ∀ c ∈ (T.blocks b).children,
      (∀ i ∈ (T.blocks c).nodes, i ∈ (T.blocks b).nodes) ∧
      (∀ q ∈ (T.blocks c).qps, q ∈ (T.blocks b).qps)) := by
  intro T
  have t : Tree inp T := build_tree hd inp
  have leafU : ∀ x : Item, (rootBlock inp).Mem x → ∃! b, b ∈ T.childless ∧ (T.blocks b).Mem x := by
    intro x hx
    obtain ⟨b, hb, hbx⟩ := t.exists_leaf hd t.links.pos ((t.mem_root x).2 hx)
    exact ⟨b, ⟨hb, hbx⟩, fun c hc => t.leaf_unique' hc.1 hb hc.2 hbx⟩
  have childU : ∀ b, b < T.count → b ∉ T.childless → ∀ x : Item, (T.blocks b).Mem x →
      ∃! c, c ∈ (T.blocks b).children ∧ (T.blocks c).Mem x := by
    intro b hb hc x hx
    obtain ⟨c, hcm, hcx⟩ := t.child_of_mem hd hb hc hx
    exact ⟨c, ⟨hcm, hcx⟩, fun c' hc' => t.child_unique hb hc'.1 hcm hc'.2 hcx⟩
  refine ⟨?_, ?_, t.chlnd, ?_, fun b hb => t.childless_children hb, ?_, ?_⟩
  · intro i hi
    exact leafU (.inl i) (by simpa [Block.Mem, rootBlock] using hi)
  · intro c q hc hq
    exact leafU (.inr (c, q)) (by simpa [Block.Mem, rootBlock, mem_allQps] using ⟨hc, hq⟩)
  · intro b hb
    refine ⟨(t.links.nodup hb).1, (t.links.nodup hb).2, ?_, ?_⟩
    · intro i hi
      have := mem_root_of_mem t.links hb (x := .inl i) hi
      simpa [Block.Mem, rootBlock] using this
    · intro q hq
      have := mem_root_of_mem t.links hb (x := .inr q) hq
      simpa [Block.Mem, rootBlock, mem_allQps] using this
  · intro b hb hc
    exact ⟨fun i hi => childU b hb hc (.inl i) hi, fun q hq => childU b hb hc (.inr q) hq⟩
  · intro b hb c hc
    exact ⟨fun i hi => t.mem_parent_of_child hb hc (x := .inl i) hi,
      fun q hq => t.mem_parent_of_child hb hc (x := .inr q) hq⟩

/-! ## C02 -/

/-- **C02**. Ids are dense (`blocks` is used on `0..count-1`), the ids of level `l` are the interval
`[startLevel l, endLevel l]`, every block but the root is listed exactly once by its parent, whose id
is smaller and whose level is one less, the children lists contain nothing else, and at most `2^dim`
children are added to a block. -/
theorem C02_links_consistent (hd : d = 2 ∨ d = 3) (inp : Input d) :
    let T := build inp
    (∀ l, l ≤ inp.levels → ∀ b, (b < T.count ∧ (T.blocks b).level = l ↔
      T.startLevel l ≤ b ∧ b ≤ T.endLevel l)) ∧
    T.startLevel 0 = 0 ∧ T.endLevel inp.levels + 1 = T.count ∧
    (∀ b, 0 < b → b < T.count →
      (T.blocks b).parent < b ∧
      (T.blocks b).level = (T.blocks (T.blocks b).parent).level + 1 ∧
      (T.blocks (T.blocks b).parent).children.count b = 1) ∧
    (∀ b, b < T.count → ∀ c ∈ (T.blocks b).children, c < T.count ∧ (T.blocks c).parent = b) ∧
    (∀ b, b < T.count → (T.blocks b).children.length ≤ 2 ^ d) := by
  intro T
  have t : Tree inp T := build_tree hd inp
  refine ⟨t.rng, ?_, t.last, ?_, ?_, fun b hb => t.children_length hb⟩
  · have := (t.rng 0 (Nat.zero_le _) 0).1 ⟨t.links.pos, t.links.root_level⟩
    omega
  · intro b h0 hb
    refine ⟨(t.links.par b h0 hb).1, t.links.level_eq h0 hb, ?_⟩
    refine List.count_eq_one_of_mem ?_ (t.links.par b h0 hb).2
    exact (t.links.inc _ (t.links.parent_lt h0 hb)).imp (fun h => Nat.ne_of_lt h)
  · intro b hb c hc
    exact (t.links.chi b hb c hc).2

/-! ## C03 -/

/-- The number of nodes of a block, every node counting `1 / (number of its doubles)`, rounded to the
nearest integer. -/
def weightedNodes (inp : Input d) (b : Block d) : ℤ :=
  ⌊(b.nodes.map fun i => (1 : ℚ) / ((inp.doubles i).card : ℚ)).sum + 1 / 2⌋

/-- **C03**. No block is deeper than `num_octree_levels`; leaves above the last level respect the
capacity; blocks (other than the root) that were subdivided exceed it; every block (but the root of an
empty mesh) that is neither at the last level nor within the capacity was subdivided. -/
theorem C03_leaf_capacity (hd : d = 2 ∨ d = 3) (inp : Input d) :
    let T := build inp
    (∀ b, b < T.count → (T.blocks b).level ≤ inp.levels) ∧
    (∀ b ∈ T.childless, (T.blocks b).level < inp.levels →
      weightedNodes inp (T.blocks b) ≤ inp.maxNodes) ∧
    (∀ b, 0 < b → b < T.count → (T.blocks b).children ≠ [] →
      (inp.maxNodes : ℤ) < weightedNodes inp (T.blocks b)) ∧
    (∀ b, 0 < b → b < T.count → (T.blocks b).level < inp.levels →
      (inp.maxNodes : ℤ) < weightedNodes inp (T.blocks b) → (T.blocks b).children ≠ []) := by
  intro T
  have t : Tree inp T := build_tree hd inp
  have hw : ∀ b : Block d, (inp.maxNodes : ℤ) < weightedNodes inp b ↔ Big inp b := fun b => Iff.rfl
  refine ⟨t.lev_le, ?_, ?_, ?_⟩
  · intro b hb hl
    rw [t.chl] at hb
    rw [← not_lt, hw]
    rcases hb.2 with h | h
    · exact h.2
    · omega
  · intro b h0 hb hne
    rw [hw]
    by_contra h
    exact hne (t.leaf b hb (Or.inr ⟨h0, h⟩))
  · intro b h0 hb hl hbig
    rw [hw] at hbig
    refine t.children_ne_of_not_childless hd hb ?_ ?_
    · exact t.links.ne b h0 hb
    · rw [t.chl]; rintro ⟨_, h | h⟩
      · exact h.2 hbig
      · omega

/-! ## C04 -/

/-- **C04**. For every quadrature point of the mesh, `quad_point_to_block` has one entry for each of
the levels `0..num_octree_levels`; entry `l` is a block containing the point, of level `l`, or of a
smaller level if that block is a leaf. -/
theorem C04_quad_point_map (hd : d = 2 ∨ d = 3) (inp : Input d) (c q : ℕ) (hc : c < inp.nCells)
    (hq : q < inp.nq) :
    let T := build inp
    (T.qpb (c, q)).length = inp.levels + 1 ∧
    ∀ l, l ≤ inp.levels → ∃ b, (T.qpb (c, q))[l]? = some b ∧ b < T.count ∧
      (c, q) ∈ (T.blocks b).qps ∧
      ((T.blocks b).level = l ∨ ((T.blocks b).level < l ∧ b ∈ T.childless)) := by
  intro T
  have t : Tree inp T := build_tree hd inp
  have hm : (c, q) ∈ allQps inp := (mem_allQps _ _).2 ⟨hc, hq⟩
  refine ⟨t.qlen _ hm, ?_⟩
  intro l hl
  have hlt : l < (T.qpb (c, q)).length := by rw [t.qlen _ hm]; omega
  exact ⟨_, List.getElem?_eq_getElem hlt, t.qent _ hm l _ (List.getElem?_eq_getElem hlt)⟩

/-- The entry is determined: it is the only block of level `l` containing the point, or the only leaf
containing it. -/
theorem C04_quad_point_map_unique (hd : d = 2 ∨ d = 3) (inp : Input d) (c q l b b' : ℕ) :
    let T := build inp
    b < T.count → b' < T.count → (c, q) ∈ (T.blocks b).qps → (c, q) ∈ (T.blocks b').qps →
    ((T.blocks b).level = l ∨ ((T.blocks b).level < l ∧ b ∈ T.childless)) →
    ((T.blocks b').level = l ∨ ((T.blocks b').level < l ∧ b' ∈ T.childless)) → b = b' := by
  intro T hb hb' hq hq' hl hl'
  have t : Tree inp T := build_tree hd inp
  have nochild : ∀ a ∈ T.childless, ∀ e, e < T.count → (c, q) ∈ (T.blocks a).qps →
      (c, q) ∈ (T.blocks e).qps → ¬ (T.blocks a).level < (T.blocks e).level := by
    intro a ha e he hqa hqe hlt
    obtain ⟨ha1, ha2⟩ := t.childless_children ha
    obtain ⟨x, hx, _⟩ := t.links.desc_child ha1 he hlt (x := .inr (c, q)) hqa hqe
    rw [ha2] at hx; simp at hx
  rcases hl with hl | hl <;> rcases hl' with hl' | hl'
  · exact t.links.same_level_unique hb hb' (by omega) (x := .inr (c, q)) hq hq'
  · exact absurd (by omega) (nochild b' hl'.2 b hb hq' hq)
  · exact absurd (by omega) (nochild b hl.2 b' hb' hq hq')
  · exact t.leaf_unique' hl.2 hl'.2 (x := .inr (c, q)) hq hq'

/-! ## C05 -/

/-- **C05, refuted**. `dof_to_block` is meant to hold one block per level. On the cube surface with
one level, node 0 has nine entries, eight times the root after the initial one. -/
theorem C05_dof_map_refuted :
    (build (cubeInput 1 0)).dofb 0 = [0, 0, 0, 0, 0, 0, 0, 0, 0] ∧
    ((build (cubeInput 1 0)).dofb 0).length ≠ (cubeInput 1 0).levels + 1 := by
  decide +kernel

/-- **C05**. Exact content of `dof_to_block[i]`: only blocks containing `i`, in order of id (hence of level), the block
`e` being repeated once for each of its children, plus once if it is the root, plus `levels - level(e)` times if it is a
leaf. (One entry per level, as for the quadrature points, would require one child per block.) -/
theorem C05_dof_map (hd : d = 2 ∨ d = 3) (inp : Input d) (i : ℕ) :
    let T := build inp
    (∀ e ∈ T.dofb i, e < T.count ∧ i ∈ (T.blocks e).nodes) ∧
    (T.dofb i).Pairwise (fun e e' => e ≤ e' ∧ (T.blocks e).level ≤ (T.blocks e').level) ∧
    (∀ e, e < T.count → i ∈ (T.blocks e).nodes → (T.dofb i).count e =
      (if e = 0 then 1 else 0) + (T.blocks e).children.length +
        (if e ∈ T.childless then inp.levels - (T.blocks e).level else 0)) := by
  intro T
  have t : Tree inp T := build_tree hd inp
  have h := dofInv_build hd inp i
  refine ⟨t.dok i, ?_, ?_⟩
  · refine (List.pairwise_iff_forall_sublist.2 fun {a b} hab => ?_)
    have hle := List.pairwise_iff_forall_sublist.1 h.1 hab
    exact ⟨hle, t.links.mono a b hle (t.dok i b (hab.subset (by simp))).1⟩
  · intro e he hi
    have hlt : i < inp.nDofs := by
      have := mem_root_of_mem t.links he (x := .inl i) hi
      simpa [rootBlock, Block.Mem] using this
    rw [h.2 e, dofCnt, if_pos (show e < (build inp).count ∧ i ∈ ((build inp).blocks e).nodes from ⟨he, hi⟩)]
    simp only [hlt, true_and, T, add_assoc]

example : (build (cubeInput 2 1)).dofb 3 = [0, 0, 0, 0, 0, 0, 0, 0, 0, 3] := by decide +kernel

/-! ## C11 -/

/-- **C11, refuted**. The table of blocks is resized to `num_octree_levels * n_cells * n_q` entries.
On the cube surface with one quadrature point per cell and one level there are 9 blocks and 6
entries. -/
theorem C11_block_table_refuted : (build (cubeInput 1 1)).oob = true ∧
    (build (cubeInput 1 1)).count = 9 ∧ (build (cubeInput 1 1)).cap = 6 := by
  decide +kernel

/-- **C11, exact condition**: the construction writes out of the table iff the number of blocks
exceeds its size. -/
theorem C11_block_table_iff (hd : d = 2 ∨ d = 3) (inp : Input d) :
    (build inp).oob = true ↔ inp.levels * inp.nCells * inp.nq < (build inp).count := by
  have t := build_tree hd inp
  rw [t.oob, t.cap]

/-- **C11, sufficient condition on the input**: with `W` distinct points, `2^d` octants, `L` levels and at most `m` nodes
in a leaf, the number of blocks is at most `1 + 2^d + 2^d (L-1) W / (m + 1/2)`; the table is large enough if this does not
exceed `L * n_cells * n_q`. -/
theorem C11_block_table_sufficient (hd : d = 2 ∨ d = 3) (inp : Input d) (hlev : 1 ≤ inp.levels) :
    let W : ℚ := ∑ i ∈ Finset.range inp.nDofs, 1 / ((inp.doubles i).card : ℚ)
    let bound : ℚ := 1 + 2 ^ d + 2 ^ d * (inp.levels - 1 : ℕ) * (W / (inp.maxNodes + 1 / 2))
    ((build inp).count : ℚ) ≤ bound ∧
    (bound ≤ inp.levels * inp.nCells * inp.nq → (build inp).oob = false) := by
  intro W bound
  have h := count_le (build_tree hd inp) hlev
  refine ⟨h, fun hb => ?_⟩
  rw [← Bool.not_eq_true, C11_block_table_iff hd inp, not_lt]
  have := h.trans hb
  exact_mod_cast this

/-- the condition is met by the cube with two levels, seven nodes per leaf and four quadrature points per cell -/
example : (build { cubeInput 2 7 with nq := 4 }).oob = false := by
  refine (C11_block_table_sufficient (Or.inr rfl) { cubeInput 2 7 with nq := 4 } (by decide)).2 ?_
  simp only [cubeInput]
  norm_num [Finset.sum_range_succ]

/-! ## Concrete instances -/

/-- two levels, at most one node per block: the eight blocks of level 1 are leaves -/
example : (build (cubeInput 2 1)).childless = [1, 2, 3, 4, 5, 6, 7, 8] ∧
    (build (cubeInput 2 1)).count = 9 := by decide +kernel

/-- two levels, no node allowed: the blocks of level 1 are subdivided, there are 8 blocks of
level 2 and they are the leaves -/
example : (build (squareInput 2 0)).count = 13 ∧ (build (squareInput 2 0)).startLevel 2 = 5 ∧
    (build (squareInput 2 0)).endLevel 2 = 12 ∧
    (build (squareInput 2 0)).childless = [6, 7, 9, 11, 5, 8, 10, 12] ∧
    (build (squareInput 2 0)).qpb (0, 0) = [0, 1, 6] := by decide +kernel

end PiBem.Octree
