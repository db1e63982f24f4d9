import Verif.Octree.History
import Verif.Props.Fmm
import Verif.Props.Geometry
import Mathlib.Data.List.GetD

/-!
# C73: reuse of the octree object

`hist` are the meshes of the earlier calls of `generate_octree_blocking`, `M` the mesh of the current one, `inp` the
positions, parameters and double nodes of the current one.
-/

namespace PiBem.Fmm

open PiBem.Octree

variable {d : ℕ}

theorem mem_pushElems (m : ℕ → List ℕ) (M : Mesh) (i c : ℕ) :
    c ∈ pushElems m M i ↔ c ∈ m i ∨ c ∈ M.active ∧ i ∈ M.dofs c := by
  have inner : ∀ (l : List ℕ) (c' : ℕ) (m : ℕ → List ℕ),
      c ∈ l.foldl (fun m i => Function.update m i (m i ++ [c'])) m i ↔ c ∈ m i ∨ c = c' ∧ i ∈ l := by
    intro l c'
    induction l with
    | nil => intro m; simp
    | cons a t ih =>
      intro m
      rw [List.foldl_cons, ih]
      by_cases h : i = a
      · subst h; simp [Function.update_self]; tauto
      · rw [Function.update_of_ne h]; simp [h]
  unfold pushElems
  generalize M.active = l
  induction l generalizing m with
  | nil => simp
  | cons a t ih =>
    rw [List.foldl_cons]
    refine (ih _).trans ?_
    rw [inner]
    simp only [List.mem_cons]
    constructor
    · rintro ((h | ⟨rfl, h⟩) | ⟨h1, h2⟩)
      · exact Or.inl h
      · exact Or.inr ⟨Or.inl rfl, h⟩
      · exact Or.inr ⟨Or.inr h1, h2⟩
    · rintro (h | ⟨rfl | h1, h2⟩)
      · exact Or.inl (Or.inl h)
      · exact Or.inl (Or.inr ⟨rfl, h2⟩)
      · exact Or.inr ⟨h1, h2⟩

theorem mem_elemsAfter (hist : List Mesh) (i c : ℕ) :
    c ∈ elemsAfter hist i ↔ ∃ M ∈ hist, c ∈ M.active ∧ i ∈ M.dofs c := by
  unfold elemsAfter
  have key : ∀ m : ℕ → List ℕ, c ∈ hist.foldl pushElems m i ↔ c ∈ m i ∨ ∃ M ∈ hist, c ∈ M.active ∧ i ∈ M.dofs c := by
    induction hist with
    | nil => intro m; simp
    | cons M t ih => intro m; rw [List.foldl_cons, ih, mem_pushElems]; simp [or_assoc]
  rw [key]; simp

/-- **C73**. After any sequence of calls the cells listed for a dof in the call on `M` are the cells that had the dof in
some call, the current one included (the ones not active any more have a number out of range). -/
theorem C73_map (inp : Input d) (hist : List Mesh) (M : Mesh) (hnd : M.active.Nodup) (i c : ℕ) :
    c ∈ dofToElems (callInput inp hist M) i ↔
      ∃ k ∈ elemsAfter (hist ++ [M]) i, c = M.active.idxOf k := by
  unfold dofToElems
  simp only [List.mem_append, List.mem_filter, List.mem_range, callInput, List.mem_map,
    mem_elemsAfter, List.mem_singleton]
  constructor
  · rintro (⟨k, ⟨M', h1, h2⟩, rfl⟩ | ⟨h1, h2⟩)
    · exact ⟨k, ⟨M', Or.inl h1, h2⟩, rfl⟩
    · refine ⟨M.active.getD c 0, ⟨M, Or.inr rfl, ?_, of_decide_eq_true h2⟩, ?_⟩
      · rw [List.getD_eq_getElem _ _ h1]; exact List.getElem_mem h1
      · rw [List.getD_eq_getElem _ _ h1, hnd.idxOf_getElem]
  · rintro ⟨k, ⟨M', h1 | rfl, h2, h3⟩, rfl⟩
    · exact Or.inl ⟨k, ⟨M', h1, h2, h3⟩, rfl⟩
    · refine Or.inr ⟨List.idxOf_lt_length_of_mem h2, ?_⟩
      refine decide_eq_true ?_
      show i ∈ M'.dofs (M'.active.getD (M'.active.idxOf k) 0)
      rw [List.getD_eq_getElem _ _ (List.idxOf_lt_length_of_mem h2), List.getElem_idxOf]
      exact h3

/-- **C73**. Whatever the meshes of the earlier calls, each row of the product of the current cycle contains every
contribution of the direct method on the current mesh exactly once: the stale cells move quadrature points from the
expansions to the direct sums but lose or repeat none. -/
theorem C73_every_history (inp : Input 3) (hist : List Mesh) (M : Mesh) (hlev : 1 ≤ inp.levels) (hnq : 0 < inp.nq)
    (hself : ∀ i, i < inp.nDofs → i ∈ inp.doubles i) (own : ℕ → Bool) (out : ℕ → Multiset Contr)
    (hx : FmmExec (callInput inp hist M) (build (callInput inp hist M)) own out) (i : ℕ) (hi : i < inp.nDofs)
    (ho : own i = true) :
    out i = ∑ c ∈ Finset.range M.active.length,
      if ∃ j ∈ M.dofs (M.active.getD c 0), j ∈ inp.doubles i then {Contr.sing c}
      else ∑ q ∈ Finset.range inp.nq, {Contr.reg c q} :=
  C06_every_interaction_once (callInput inp hist M) hlev hnq hself own out hx i hi ho

theorem buildTo_old (inp : Input d) (hist : List Mesh) (M : Mesh) (k : ℕ) :
    buildTo (callInput inp hist M) k = buildTo (callInput inp [] M) k := by
  induction k with
  | zero => rfl
  | succ k ih => unfold buildTo; rw [ih]; rfl

theorem build_old (inp : Input d) (hist : List Mesh) (M : Mesh) :
    build (callInput inp hist M) = build (callInput inp [] M) := by
  unfold build
  rw [buildTo_old]
  rfl

/-- **C73**. The blocks of the octree and the near neighbour lists do not depend on the earlier calls; the interaction
lists contain those of a new object; they are those of a new object when each cell that was active in an earlier call
and still is has kept its dofs (in particular on an unchanged mesh). -/
theorem C73_lists (inp : Input d) (hist : List Mesh) (M : Mesh) :
    let used := callInput inp hist M
    let fresh := callInput inp [] M
    build used = build fresh ∧
    (∀ k s, nearNeigh used (build used) k s = nearNeigh fresh (build fresh) k s) ∧
    (∀ k s, intList fresh (build fresh) k s ⊆ intList used (build used) k s) ∧
    ((∀ M' ∈ hist, ∀ c ∈ M'.active, c ∈ M.active → M'.dofs c = M.dofs c) →
      ∀ k s, intList used (build used) k s = intList fresh (build fresh) k s ∧
        nonIntList used (build used) k s = nonIntList fresh (build fresh) k s) := by
  intro used fresh
  have hb : build used = build fresh := build_old inp hist M
  have hnn : ∀ T, nearNeigh used T = nearNeigh fresh T := fun T => rfl
  have hns : ∀ T k, numSub used T k = numSub fresh T k := fun T k => rfl
  have hsub : ∀ k s, intList fresh (build fresh) k s ⊆ intList used (build used) k s := by
    intro k s b hbm
    rw [hb]
    unfold intList at hbm ⊢
    rw [hns, hnn]
    split_ifs at hbm ⊢ with h1 h2 h3 <;> try exact hbm
    · rw [Finset.mem_union] at hbm ⊢
      refine hbm.imp id ?_
      rw [Tree.mem_singBlocks, Tree.mem_singBlocks]
      rintro ⟨i, hi, p, hp, c, hc, h, r⟩
      refine ⟨i, hi, p, hp, c, hc, ?_, r⟩
      rcases h with h | h
      · exact Or.inl h
      · simp [fresh, callInput, elemsAfter] at h
  refine ⟨hb, fun k s => by rw [hb, hnn], hsub, ?_⟩
  intro hsame
  have hint : ∀ k s, intList used (build used) k s = intList fresh (build fresh) k s := by
    intro k s
    refine Finset.Subset.antisymm ?_ (hsub k s)
    intro b hbm
    rw [hb] at hbm
    unfold intList at hbm ⊢
    rw [hns, hnn] at hbm
    split_ifs at hbm ⊢ with h1 h2 h3 <;> try exact hbm
    rw [Finset.mem_union] at hbm ⊢
    refine hbm.imp id ?_
    rw [Tree.mem_singBlocks, Tree.mem_singBlocks]
    rintro ⟨i, hi, p, hp, c, hc, h, r⟩
    refine ⟨i, hi, p, hp, c, hc, Or.inl ?_, r⟩
    rcases h with h | h
    · exact h
    · simp only [used, callInput, List.mem_map] at h
      obtain ⟨k', hk', rfl⟩ := h
      rw [mem_elemsAfter] at hk'
      obtain ⟨M', hM', h1', h2'⟩ := hk'
      have hact : k' ∈ M.active := List.idxOf_lt_length_iff.1 hc
      show p ∈ M.dofs _
      rw [List.getD_eq_getElem _ _ (List.idxOf_lt_length_of_mem hact), List.getElem_idxOf, ← hsame M' hM' k' h1' hact]
      exact h2'
  intro k s
  refine ⟨hint k s, ?_⟩
  unfold nonIntList
  rw [hint, hint, hint, hb, hns]

/-- Two cells; then cell 10 is refined into the cells 0, 1, 2, and the dofs are numbered again: cell 3 had dof 0 and has
dof 3. -/
def meshes : List Mesh × Mesh :=
  ([⟨[10, 3], fun c => if c = 10 then [1] else [0]⟩], ⟨[0, 1, 2, 3], fun c => [c]⟩)

/-- **C73**, what does not hold: the lists, and the way an interaction is computed, may depend on the earlier cycles.
After refining one of two cells the block of node 0 still has the block of cell 3 in its interaction list, because cell 3
had dof 0 before the renumbering, although it is not a near neighbour; with a new object it is
handled by a multipole to local translation. -/
theorem C73_history_dependent : ∃ (inp : Input 3) (hist : List Mesh) (M : Mesh), 1 ≤ inp.levels ∧
    let used := callInput inp hist M
    let fresh := callInput inp [] M
    ∃ k b, 0 ∈ ((build used).blocks k).nodes ∧ (3, 0) ∈ ((build used).blocks b).qps ∧
      b ∈ intList used (build used) k 0 ∧ b ∉ nearNeigh used (build used) k 0 ∧
      b ∈ m2lSet fresh (build fresh) k 0 ∧ b ∉ intList fresh (build fresh) k 0 := by
  refine ⟨line4Input, meshes.1, meshes.2, by decide, 3, 6, ?_⟩
  decide +kernel

example : ∃ out, FmmExec (callInput line4Input meshes.1 meshes.2) (build (callInput line4Input meshes.1 meshes.2))
      (fun _ => true) out ∧ out 0 = {.sing 0, .reg 1 0, .reg 2 0, .reg 3 0} := by
  obtain ⟨out, h⟩ := C06_executions_exist (callInput line4Input meshes.1 meshes.2) (fun _ => true)
  refine ⟨out, h, ?_⟩
  rw [C73_every_history line4Input meshes.1 meshes.2 (by decide) (by decide) (by simp [line4Input]) _ _ h
    0 (by decide) rfl]
  decide

/-- the hypothesis of the last part of `C73_lists` holds for a second call on the same mesh -/
example : ∀ M' ∈ [meshes.2], ∀ c ∈ M'.active, c ∈ meshes.2.active → M'.dofs c = meshes.2.dofs c := by
  intro M' h c _ _; rw [List.mem_singleton] at h; subst h; rfl

end PiBem.Fmm
