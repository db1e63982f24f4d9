import Verif.Fmm.Cover
import Verif.Octree.Example
import Mathlib.Algebra.BigOperators.Group.Multiset.Basic
import Mathlib.Algebra.BigOperators.Intervals

/-!
# Properties of the lists and of the fast multipole product (C06, C09, C10, C12, C14, C15, C49)

`build inp` is the tree built by `generate_octree_blocking`; `FmmExec`, `DirectExec`, ... contain all
the executions of the product for all the schedules of the threads and all the reuses of buffers. The
product exists only in 3D: `BEMFMA<2>` has empty specialisations of three of the four phases
(bem_fma.cc:1746, 2119, 2563).
-/

namespace PiBem.Fmm

open PiBem.Octree PiBem.WorkStream

variable {d : ℕ}

/-! ## Specification -/

/-- The row of a node in the direct method: cells having the node or one of its doubles among their
dofs are integrated by the singular quadrature, the others by the regular points. -/
def specRow (inp : Input d) (i : ℕ) : Multiset Contr :=
  ∑ c ∈ Finset.range inp.nCells,
    if ∃ j ∈ inp.cellDofs c, j ∈ inp.doubles i then {Contr.sing c}
    else ∑ q ∈ Finset.range inp.nq, {Contr.reg c q}

theorem sum_range_list {A : Type} [AddCommMonoid A] (n : ℕ) (f : ℕ → A) :
    ((List.range n).map f).sum = ∑ c ∈ Finset.range n, f c := by
  induction n with
  | zero => rfl
  | succ n ih => rw [List.range_succ, List.map_append, List.sum_append, ih, Finset.sum_range_succ]; simp

theorem coe_map_range {β : Type} (n : ℕ) (f : ℕ → β) :
    (((List.range n).map f : List β) : Multiset β) = ∑ q ∈ Finset.range n, {f q} := by
  rw [← sum_range_list]
  induction n with
  | zero => rfl
  | succ n ih => rw [List.range_succ, List.map_append, List.map_append, List.sum_append, ← ih,
      ← Multiset.coe_add]; simp

theorem specRow_eq (inp : Input d) (i : ℕ) : directRow inp i = specRow inp i := by
  unfold directRow specRow
  rw [← sum_flatMap, sum_range_list]
  refine Finset.sum_congr rfl ?_
  intro c _
  simp only [isSingular, List.any_eq_true, decide_eq_true_eq]
  split_ifs with h
  · rfl
  · exact coe_map_range _ _

/-! ## C06, C14 -/

/-- **C06**. In every execution of the fast multipole product the contributions accumulated in the
entry of an owned node are, each exactly once, the contributions of the direct method. -/
theorem C06_every_interaction_once (inp : Input 3) (hlev : 1 ≤ inp.levels) (hnq : 0 < inp.nq)
    (hself : ∀ i, i < inp.nDofs → i ∈ inp.doubles i) (own : ℕ → Bool) (out : ℕ → Multiset Contr)
    (hx : FmmExec inp (build inp) own out) (i : ℕ) (hi : i < inp.nDofs) (ho : own i = true) :
    out i = specRow inp i := by
  rw [fmm_row (Or.inr rfl) (build_tree (Or.inr rfl) inp) hlev hnq hself hx hi ho, specRow_eq]

/-- **C06**, numeric form: whatever the values (in any commutative monoid) of the elementary
integrals, the entry of the product is the sum over the cells of the direct method. -/
theorem C06_value {A : Type} [AddCommMonoid A] (val : Contr → A) (inp : Input 3)
    (hlev : 1 ≤ inp.levels) (hnq : 0 < inp.nq)
    (hself : ∀ i, i < inp.nDofs → i ∈ inp.doubles i) (own : ℕ → Bool) (out : ℕ → Multiset Contr)
    (hx : FmmExec inp (build inp) own out) (i : ℕ) (hi : i < inp.nDofs) (ho : own i = true) :
    ((out i).map val).sum = ∑ c ∈ Finset.range inp.nCells,
      if ∃ j ∈ inp.cellDofs c, j ∈ inp.doubles i then val (Contr.sing c)
      else ∑ q ∈ Finset.range inp.nq, val (Contr.reg c q) := by
  rw [C06_every_interaction_once inp hlev hnq hself own out hx i hi ho]
  unfold specRow
  let F : Multiset Contr →+ A :=
    { toFun := fun m => (m.map val).sum
      map_zero' := by simp
      map_add' := fun a b => by simp }
  show F (∑ c ∈ Finset.range inp.nCells, _) = _
  rw [map_sum]
  refine Finset.sum_congr rfl ?_
  intro c _
  split_ifs
  · exact (congrArg Multiset.sum (Multiset.map_singleton val _)).trans (Multiset.sum_singleton _)
  · rw [map_sum]
    refine Finset.sum_congr rfl ?_
    intro q _
    exact (congrArg Multiset.sum (Multiset.map_singleton val _)).trans (Multiset.sum_singleton _)

/-- executions exist for every input -/
theorem C06_executions_exist (inp : Input d) (own : ℕ → Bool) :
    ∃ out, FmmExec inp (build inp) own out := fmmExec_exists _ _ _

example : ∃ out, FmmExec (cubeInput 3 0) (build (cubeInput 3 0)) (fun i => i % 2 = 0) out ∧
    out 2 = specRow (cubeInput 3 0) 2 ∧ specRow (cubeInput 3 0) 2 =
      {.sing 0, .reg 1 0, .reg 2 0, .sing 3, .sing 4, .reg 5 0} := by
  obtain ⟨out, h⟩ := C06_executions_exist (cubeInput 3 0) (fun i => i % 2 = 0)
  refine ⟨out, h, ?_, by decide⟩
  exact C06_every_interaction_once (cubeInput 3 0) (by decide) (by decide) (by simp [cubeInput]) _ _ h
    2 (by decide) (by decide)

/-- **C14**. The value of an entry on the process owning it, for any partition of the nodes and any
schedule, is the value of a serial run (with any schedule). -/
theorem C14_partition_independent (inp : Input 3) (hlev : 1 ≤ inp.levels) (hnq : 0 < inp.nq)
    (hself : ∀ i, i < inp.nDofs → i ∈ inp.doubles i) (own : ℕ → Bool)
    (out outSerial : ℕ → Multiset Contr)
    (hx : FmmExec inp (build inp) own out) (hser : FmmExec inp (build inp) (fun _ => true) outSerial)
    (i : ℕ) (hi : i < inp.nDofs) (ho : own i = true) : out i = outSerial i := by
  rw [C06_every_interaction_once inp hlev hnq hself own out hx i hi ho,
    C06_every_interaction_once inp hlev hnq hself _ outSerial hser i hi rfl]

example : ∃ out outSerial, FmmExec (cubeInput 3 0) (build (cubeInput 3 0)) (fun i => i % 3 = 1) out ∧
    FmmExec (cubeInput 3 0) (build (cubeInput 3 0)) (fun _ => true) outSerial ∧
    out 4 = outSerial 4 := by
  obtain ⟨o1, h1⟩ := C06_executions_exist (cubeInput 3 0) (fun i => i % 3 = 1)
  obtain ⟨o2, h2⟩ := C06_executions_exist (cubeInput 3 0) (fun _ => true)
  exact ⟨o1, o2, h1, h2, C14_partition_independent (cubeInput 3 0) (by decide) (by decide)
    (by simp [cubeInput]) _ _ _ h1 h2 4 (by decide) (by decide)⟩

/-! ## C09 -/

/-- **C09**. For a node in a leaf `b`, a cell having the node or one of its doubles among its dofs has
all its quadrature points in blocks of the innermost interaction list of `b`, and none of them in a
block of a non interaction list of `b` or of any block containing the node. -/
theorem C09_singular_cells_near (hd : d = 2 ∨ d = 3) (inp : Input d) (hlev : 1 ≤ inp.levels)
    (b i : ℕ) (hb : b ∈ (build inp).childless) (hi : i ∈ ((build inp).blocks b).nodes)
    (c q : ℕ) (hc : c < inp.nCells) (hq : q < inp.nq)
    (hsing : ∃ j ∈ inp.cellDofs c, j ∈ inp.doubles i) :
    let T := build inp
    (∃ e ∈ intList inp T b (numSub inp T b - 1), (c, q) ∈ (T.blocks e).qps) ∧
    ∀ a, 0 < a → a < T.count → i ∈ (T.blocks a).nodes → ∀ s, ∀ e ∈ nonIntList inp T a s,
      (c, q) ∉ (T.blocks e).qps := by
  intro T
  have t : Octree.Tree inp T := build_tree hd inp
  have hs' : isSingular inp i c = true := by
    unfold isSingular; rw [List.any_eq_true]
    obtain ⟨j, h1, h2⟩ := hsing
    exact ⟨j, h1, decide_eq_true h2⟩
  refine ⟨sing_near hd t hlev hb hi hc hq hs', ?_⟩
  intro a _ ha hia s e he hqe
  have hqa : (c, q) ∈ allQps inp := (mem_allQps _ _).2 ⟨hc, hq⟩
  have h1 : 2 ≤ (T.blocks a).level ∧ s < numSub inp T a := by
    by_contra hh
    unfold nonIntList at he
    rw [if_neg hh] at he
    simp at he
  rw [Tree.nonInt_eq h1.1 h1.2, Finset.mem_sdiff] at he
  have hl : (T.blocks a).level + s ≤ inp.levels := t.numSub_level ha h1.2
  obtain ⟨b1, b2, _⟩ := t.qpb_get hqa hl
  have hin : (T.qpb (c, q)).getD ((T.blocks a).level + s) 0 ∈ intList inp T a s := by
    rw [t.intList_eq hlev ha h1.1 h1.2, Finset.mem_union, Tree.mem_singBlocks]
    right
    obtain ⟨j, hj, hj'⟩ := hsing
    exact ⟨i, hia, j, hj', c, hc, Or.inl hj, q, hq, rfl⟩
  have hok : OkSet T ((T.blocks a).level + s) (Octree.refine T (Tree.prevList inp T a s)) := by
    unfold Tree.prevList
    rcases s with _ | s
    · rw [if_pos rfl]
      have hp := t.parent_level ha (by omega)
      have := t.okSet_refine (t.okSet_int hd hlev hp.1 (by omega) (Tree.numSub_pos _))
      rwa [show (T.blocks (T.blocks a).parent).level + 0 + 1 = (T.blocks a).level + 0 by omega] at this
    · rw [if_neg (by omega)]
      exact t.okSet_refine (t.okSet_int hd hlev ha (by omega) (s := s) (by omega))
  have := t.okSet_unique hok he.1 (t.int_subset_refine hd hlev ha h1.1 h1.2 hin) (x := .inr (c, q))
    hqe b2
  exact he.2 (this ▸ hin)

example : ∃ b ∈ (build (cubeInput 3 0)).childless, 2 ∈ ((build (cubeInput 3 0)).blocks b).nodes ∧
    ∃ e ∈ intList (cubeInput 3 0) (build (cubeInput 3 0)) b
      (numSub (cubeInput 3 0) (build (cubeInput 3 0)) b - 1),
      (3, 0) ∈ ((build (cubeInput 3 0)).blocks e).qps := by
  obtain ⟨b, hb, hm⟩ := (build_tree (Or.inr rfl) (cubeInput 3 0)).exists_leaf (Or.inr rfl)
    (build_tree (Or.inr rfl) (cubeInput 3 0)).links.pos (x := .inl 2)
    (((build_tree (Or.inr rfl) (cubeInput 3 0)).mem_root _).2
      (by simp [rootBlock, Block.Mem, cubeInput]))
  exact ⟨b, hb, hm, (C09_singular_cells_near (Or.inr rfl) (cubeInput 3 0) (by decide) b 2 hb hm 3 0
    (by decide) (by decide) (by decide)).1⟩

/-! ## C10, C49 -/

/-- **C49**. Whatever the schedule and the reuse of the local maps, the table of the element moments
holds an entry exactly for the leaves with quadrature points, and the entry of a leaf gives, for each
cell, the quadrature points of that cell contained in the leaf, each once. -/
theorem C49_moments (inp : Input 3) (E : Moments) (hE : MomentsExec inp (build inp) E) (b : ℕ) :
    let T := build inp
    (E b = none ↔ ¬ (b ∈ T.childless ∧ (T.blocks b).qps ≠ [])) ∧
    ∀ v, E b = some v → ∀ c, (v c).Nodup ∧ ∀ q, q ∈ v c ↔ q ∈ (T.blocks b).qps ∧ q.1 = c := by
  intro T
  have t : Octree.Tree inp T := build_tree (Or.inr rfl) inp
  have h := congrFun (momentsExec_eq t hE) b
  rw [h]
  constructor
  · by_cases hc : b ∈ T.childless ∧ (T.blocks b).qps ≠ []
    · simp [hc]
    · rw [if_neg hc]; simp [hc]
  · intro v hv c
    split_ifs at hv with hc
    · have hv' := Option.some.inj hv
      subst hv'
      unfold cellMoment
      refine ⟨?_, ?_⟩
      · rw [Multiset.coe_nodup]
        exact (t.links.nodup ((t.chl b).1 hc.1).1).2.filter _
      · intro q; rw [Multiset.mem_coe, List.mem_filter, decide_eq_true_eq]

example : ∃ E, MomentsExec (cubeInput 1 1) (build (cubeInput 1 1)) E ∧ E 1 ≠ none := by
  obtain ⟨E, hE⟩ := momentsExec_exists (cubeInput 1 1) (build (cubeInput 1 1))
  refine ⟨E, hE, ?_⟩
  rw [Ne, (C49_moments _ E hE 1).1, not_not]
  decide +kernel

/-- **C10**. After the ascending phase the expansion of each block is built from the quadrature points
contained in the block, each taken once, whatever the schedule of the leaves and of the blocks of each
level. -/
theorem C10_upward_pass (inp : Input 3) (E : Moments) (mult : ℕ → Multiset (ℕ × ℕ))
    (hE : MomentsExec inp (build inp) E) (hA : AscendExec inp (build inp) E mult) (b : ℕ)
    (hb : b < (build inp).count) :
    mult b = (((build inp).blocks b).qps : Multiset (ℕ × ℕ)) ∧ (mult b).Nodup := by
  have t := build_tree (Or.inr rfl) inp
  have h := ascendExec_eq (Or.inr rfl) t hE hA hb
  refine ⟨h, ?_⟩
  rw [h, Multiset.coe_nodup]
  exact (t.links.nodup hb).2

/-- **C10**, numeric form: if the moments of a source add up in any commutative monoid, the expansion
of a block is the sum of the moments of the sources in it. -/
theorem C10_value {A : Type} [AddCommMonoid A] (moment : ℕ × ℕ → A) (inp : Input 3) (E : Moments)
    (mult : ℕ → Multiset (ℕ × ℕ))
    (hE : MomentsExec inp (build inp) E) (hA : AscendExec inp (build inp) E mult) (b : ℕ)
    (hb : b < (build inp).count) :
    ((mult b).map moment).sum = (((build inp).blocks b).qps.map moment).sum := by
  rw [(C10_upward_pass inp E mult hE hA b hb).1]; simp

example : ∃ E mult, MomentsExec (cubeInput 3 0) (build (cubeInput 3 0)) E ∧
    AscendExec (cubeInput 3 0) (build (cubeInput 3 0)) E mult ∧ (mult 0).card = 6 := by
  obtain ⟨E, hE⟩ := momentsExec_exists (cubeInput 3 0) (build (cubeInput 3 0))
  obtain ⟨m, hm⟩ := ascendExec_exists (cubeInput 3 0) (build (cubeInput 3 0)) E
  refine ⟨E, m, hE, hm, ?_⟩
  have t := build_tree (Or.inr rfl) (cubeInput 3 0)
  rw [(C10_upward_pass _ E m hE hm 0 t.links.pos).1, Multiset.coe_card]
  have hp : List.Perm ((build (cubeInput 3 0)).blocks 0).qps (allQps (cubeInput 3 0)) := by
    refine (List.perm_ext_iff_of_nodup (t.links.nodup t.links.pos).2 (nodup_allQps _)).2 ?_
    intro q
    exact t.mem_root (.inr q)
  rw [hp.length_eq]; rfl

/-! ## C12 -/

/-- **C12**. For a block `k` of level at least 2 and a sublevel `s`: the interaction list and the non
interaction list are disjoint, and a block is in one of them iff it is a childless block of the
previous list (the list of the parent if `s = 0`, of the previous sublevel otherwise) or a child of a
subdivided block of that list. -/
theorem C12_lists_split (hd : d = 2 ∨ d = 3) (inp : Input d) (hlev : 1 ≤ inp.levels) (k s : ℕ)
    (hk : k < (build inp).count) (hl : 2 ≤ ((build inp).blocks k).level)
    (hs : s < numSub inp (build inp) k) :
    let T := build inp
    let prev := if s = 0 then intList inp T (T.blocks k).parent 0 else intList inp T k (s - 1)
    Disjoint (intList inp T k s) (nonIntList inp T k s) ∧
    ∀ b, (b ∈ intList inp T k s ∨ b ∈ nonIntList inp T k s) ↔
      (b ∈ prev ∧ (T.blocks b).children = []) ∨ ∃ p ∈ prev, b ∈ (T.blocks p).children := by
  intro T prev
  have t : Octree.Tree inp T := build_tree hd inp
  have hsub := t.int_subset_refine hd hlev hk hl hs
  have hne := Tree.nonInt_eq (inp := inp) hl hs
  have hprev : prev = Tree.prevList inp T k s := rfl
  refine ⟨?_, ?_⟩
  · show Disjoint (intList inp (build inp) k s) (nonIntList inp (build inp) k s)
    rw [hne]; exact Finset.disjoint_sdiff
  · intro b
    have h1 : (b ∈ intList inp T k s ∨ b ∈ nonIntList inp T k s) ↔
        b ∈ Octree.refine T (Tree.prevList inp T k s) := by
      show (b ∈ intList inp (build inp) k s ∨ b ∈ nonIntList inp (build inp) k s) ↔ _
      rw [hne, Finset.mem_sdiff]
      constructor
      · rintro (h | h)
        · exact hsub h
        · exact h.1
      · intro h
        by_cases hb : b ∈ intList inp (build inp) k s
        · exact Or.inl hb
        · exact Or.inr ⟨h, hb⟩
    rw [h1, Tree.mem_refine, hprev]
    constructor
    · rintro (⟨h2, h3⟩ | ⟨p, h2, _, h3⟩)
      · exact Or.inl ⟨h2, (Tree.isLeaf_iff b).1 h3⟩
      · exact Or.inr ⟨p, h2, h3⟩
    · rintro (⟨h2, h3⟩ | ⟨p, h2, h3⟩)
      · exact Or.inl ⟨h2, (Tree.isLeaf_iff b).2 h3⟩
      · refine Or.inr ⟨p, h2, ?_, h3⟩
        by_contra hh
        rw [(Tree.isLeaf_iff p).1 (by simpa using hh)] at h3
        simp at h3

/-- a block of level 2 exists as soon as the capacity is small enough -/
example : ∃ k, k < (build (cubeInput 3 0)).count ∧ 2 ≤ ((build (cubeInput 3 0)).blocks k).level := by
  have t := build_tree (Or.inr rfl) (cubeInput 3 0)
  obtain ⟨b, hb, hm⟩ := t.exists_leaf (Or.inr rfl) t.links.pos (x := .inl 2)
    ((t.mem_root _).2 (by simp [rootBlock, Block.Mem, cubeInput]))
  have hb' := (t.chl b).1 hb
  refine ⟨b, hb'.1, ?_⟩
  have hbig : Big (cubeInput 3 0) ((build (cubeInput 3 0)).blocks b) := by
    have hsum : blockNumNodes (cubeInput 3 0) ((build (cubeInput 3 0)).blocks b) =
        (((build (cubeInput 3 0)).blocks b).nodes.length : ℚ) := by
      unfold blockNumNodes
      simp [cubeInput]
    have hlen : 1 ≤ ((build (cubeInput 3 0)).blocks b).nodes.length := by
      rcases hn : ((build (cubeInput 3 0)).blocks b).nodes with _ | ⟨a, l⟩
      · simp only [Block.Mem] at hm; rw [hn] at hm; simp at hm
      · simp
    unfold Big roundUp
    rw [hsum]
    have h2 : (0 : ℤ) < ⌊(((build (cubeInput 3 0)).blocks b).nodes.length : ℚ) + 1 / 2⌋ := by
      rw [Int.floor_pos]
      have : (1 : ℚ) ≤ (((build (cubeInput 3 0)).blocks b).nodes.length : ℚ) := by exact_mod_cast hlen
      linarith
    have h3 : ((cubeInput 3 0).maxNodes : ℤ) = 0 := rfl
    omega
  rcases hb'.2 with h | h
  · exact absurd hbig h.2
  · rw [h]; decide

/-! ## C15 -/

/-- **C15**. Copying the buffer of a worker adds to the row of each node of the block that is owned the
contributions computed for that node (all the cells of the worker), nothing to any other row, whatever
the recycled buffer contains; for the leaves worker and for the bigger blocks worker. -/
theorem C15_rows_attributed (inp : Input 3) (own : ℕ → Bool) (b : ℕ)
    (hb : b < (build inp).count) (level : ℕ) (shared M : ℕ → Multiset Contr) (buf : DBuf) (i : ℕ) :
    let T := build inp
    let S := intList inp T b (numSub inp T b - 1)
    let S' := bigSet inp T (T.startLevel level) b
    copierDirect (workerLeaf inp T own b shared buf) M i = M i +
      (if i ∈ (T.blocks b).nodes ∧ own i = true then
        ((directCells inp T S).map fun c => (leafRow inp T S i c : Multiset Contr)).sum else 0) ∧
    copierDirect (workerBig inp T own level b shared buf) M i = M i +
      (if i ∈ (T.blocks b).nodes ∧ own i = true then
        ((directCells inp T S').map fun c => (bigRow inp T S' c : Multiset Contr)).sum else 0) := by
  intro T S S'
  have t : Octree.Tree inp T := build_tree (Or.inr rfl) inp
  have hn := (t.links.nodup hb).1
  constructor
  · rw [copier_leaf own hn]; rfl
  · rw [copier_big own hn]; rfl

/-- **C15**. The assembled matrix does not depend on the schedule. -/
theorem C15_schedule_independent (inp : Input 3) (own : ℕ → Bool) (M M' : ℕ → Multiset Contr)
    (h : DirectExec inp (build inp) own M) (h' : DirectExec inp (build inp) own M') : M = M' := by
  have t := build_tree (Or.inr rfl) inp
  rw [directExec_eq t h, directExec_eq t h']

example : ∃ M, DirectExec (cubeInput 3 0) (build (cubeInput 3 0)) (fun i => i % 2 = 0) M :=
  directExec_exists _ _ _

end PiBem.Fmm
