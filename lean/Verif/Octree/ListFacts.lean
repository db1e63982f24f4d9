import Verif.Octree.Tree
import Verif.Octree.Lists
import Mathlib.Algebra.BigOperators.Group.Finset.Basic
import Mathlib.Algebra.Order.BigOperators.Group.Multiset
import Mathlib.Data.Multiset.Bind

/-! Facts on the lists (helper lemmas). -/

namespace PiBem.Octree

variable {d : ℕ} {inp : Input d} {T : St d}

/-- a list filled by a loop, each entry depending on a previous one -/
theorem foldl_table {α : Type} (p : ℕ → ℕ) (step : ℕ → (ℕ → α) → α)
    (hstep : ∀ k f g, f (p k) = g (p k) → step k f = step k g) (ids : List ℕ) :
    ∀ (f : ℕ → α), ids.Pairwise (· < ·) → (∀ k ∈ ids, p k < k) →
    let F := ids.foldl (fun f k => Function.update f k (step k f)) f
    (∀ k, k ∉ ids → F k = f k) ∧ ∀ k ∈ ids, F k = step k F := by
  induction ids with
  | nil => intro f _ _; simp
  | cons a t ih =>
    intro f hp hlt
    rw [List.pairwise_cons] at hp
    simp only [List.foldl_cons]
    obtain ⟨h1, h2⟩ := ih (Function.update f a (step a f)) hp.2 (fun k hk => hlt k (by simp [hk]))
    have hat : a ∉ t := fun h => lt_irrefl _ (hp.1 a h)
    refine ⟨?_, ?_⟩
    · intro k hk
      simp only [List.mem_cons, not_or] at hk
      rw [h1 k hk.2, Function.update_of_ne hk.1]
    · intro k hk
      rcases List.mem_cons.1 hk with rfl | hk
      · rw [h1 k hat, Function.update_self]
        apply hstep
        have hpk : p k < k := hlt k (by simp)
        have : p k ∉ t := fun h => by have := hp.1 _ h; omega
        rw [h1 _ this, Function.update_of_ne (by omega)]
      · exact h2 k hk

namespace Tree

theorem mem_levelIds (t : Tree inp T) {l : ℕ} (hl : l ≤ inp.levels) (k : ℕ) :
    k ∈ T.levelIds l ↔ k < T.count ∧ (T.blocks k).level = l := by
  rw [t.rng l hl]
  unfold St.levelIds
  rw [List.mem_range'_1]; omega

theorem isLeaf_iff (k : ℕ) : T.isLeaf k = true ↔ (T.blocks k).children = [] := by
  unfold St.isLeaf; rw [List.isEmpty_iff]

theorem not_isLeaf_iff (k : ℕ) : ¬ T.isLeaf k = true ↔ (T.blocks k).children ≠ [] := by
  rw [isLeaf_iff]

theorem isLeaf_childless (hd : d = 2 ∨ d = 3) (t : Tree inp T) {k : ℕ} (h0 : 0 < k)
    (hk : k < T.count) : T.isLeaf k = true ↔ k ∈ T.childless := by
  rw [isLeaf_iff]
  constructor
  · intro h
    by_contra hc
    exact t.children_ne_of_not_childless hd hk (t.links.ne k h0 hk) hc h
  · intro h; exact (t.childless_children h).2

theorem pairwise_ids (t : Tree inp T) :
    ∀ n m, m + n ≤ inp.levels + 1 → ((List.range' m n).flatMap T.levelIds).Pairwise (· < ·) := by
  intro n
  induction n with
  | zero => intro m _; simp
  | succ n ih =>
    intro m hm
    rw [List.range'_succ, List.flatMap_cons, List.pairwise_append]
    refine ⟨?_, ih (m + 1) (by omega), ?_⟩
    · exact List.pairwise_lt_range'
    · intro a ha b hb
      rw [List.mem_flatMap] at hb
      obtain ⟨l, hl, hb⟩ := hb
      rw [List.mem_range'_1] at hl
      rw [t.mem_levelIds (by omega)] at ha hb
      by_contra h
      have := t.links.mono b a (by omega) ha.1
      omega

theorem mem_ids (t : Tree inp T) (h : 1 ≤ inp.levels) (k : ℕ) :
    k ∈ (List.range' 2 (inp.levels - 1)).flatMap T.levelIds ↔
      k < T.count ∧ 2 ≤ (T.blocks k).level := by
  rw [List.mem_flatMap]
  constructor
  · rintro ⟨l, hl, hk⟩
    rw [List.mem_range'_1] at hl
    rw [t.mem_levelIds (by omega)] at hk
    omega
  · rintro ⟨h1, h2⟩
    have := t.lev_le k h1
    refine ⟨(T.blocks k).level, ?_, ?_⟩
    · rw [List.mem_range'_1]; omega
    · rw [t.mem_levelIds this]; exact ⟨h1, rfl⟩

theorem nearNeigh_table (t : Tree inp T) (h : 1 ≤ inp.levels) :
    (∀ k, k < T.count → 2 ≤ (T.blocks k).level →
      nearNeigh inp T k = nnStep inp T k (nearNeigh inp T)) ∧
    (∀ k, k < T.count → (T.blocks k).level = 1 → ∀ s, nearNeigh inp T k s =
      if s = 0 then (T.levelIds 1).toFinset else ∅) := by
  have hpos : ∀ k, k < T.count → 1 ≤ (T.blocks k).level → 0 < k := by
    intro k _ hl
    rcases Nat.eq_zero_or_pos k with rfl | h
    · rw [t.links.root_level] at hl; omega
    · exact h
  obtain ⟨h1, h2⟩ := foldl_table (fun k => (T.blocks k).parent) (nnStep inp T)
    (by intro k f g hfg; unfold nnStep; rw [hfg])
    ((List.range' 2 (inp.levels - 1)).flatMap T.levelIds)
    (fun k s => if k ∈ T.levelIds 1 ∧ s = 0 then (T.levelIds 1).toFinset else ∅)
    (t.pairwise_ids _ _ (by omega))
    (by
      intro k hk
      rw [t.mem_ids h] at hk
      exact (t.links.par k (hpos k hk.1 (by omega)) hk.1).1)
  refine ⟨?_, ?_⟩
  · intro k hk hl
    exact h2 k ((t.mem_ids h k).2 ⟨hk, hl⟩)
  · intro k hk hl s
    have := h1 k (by rw [t.mem_ids h]; omega)
    unfold nearNeigh
    rw [this]
    simp [(t.mem_levelIds h k).2 ⟨hk, hl⟩]

theorem pos_of_level (t : Tree inp T) {k : ℕ} (hl : 1 ≤ (T.blocks k).level) : 0 < k := by
  rcases Nat.eq_zero_or_pos k with rfl | h
  · rw [t.links.root_level] at hl; omega
  · exact h

end Tree

/-- the members of `S` are blocks of level `l`, or leaves of a smaller level -/
def OkSet (T : St d) (l : ℕ) (S : Finset ℕ) : Prop :=
  ∀ b ∈ S, 0 < b ∧ b < T.count ∧
    ((T.blocks b).level = l ∨ ((T.blocks b).level < l ∧ T.isLeaf b = true))

namespace Tree

theorem okSet_refine (t : Tree inp T) {l : ℕ} {S : Finset ℕ} (h : OkSet T l S) :
    OkSet T (l + 1) (refine T S) := by
  intro b hb
  unfold refine at hb
  rw [Finset.mem_biUnion] at hb
  obtain ⟨p, hp, hb⟩ := hb
  obtain ⟨h0, h1, h2⟩ := h p hp
  split_ifs at hb with hleaf
  · rw [Finset.mem_singleton] at hb; subst hb
    refine ⟨h0, h1, Or.inr ⟨?_, hleaf⟩⟩
    rcases h2 with h2 | h2 <;> omega
  · rw [List.mem_toFinset] at hb
    have hc := t.links.chi p h1 b hb
    refine ⟨by omega, hc.2.1, Or.inl ?_⟩
    rw [t.links.level_eq (by omega) hc.2.1, hc.2.2]
    rcases h2 with h2 | h2
    · omega
    · exact absurd h2.2 hleaf

theorem mem_refine (S : Finset ℕ) (b : ℕ) : b ∈ refine T S ↔
    (b ∈ S ∧ T.isLeaf b = true) ∨ ∃ p ∈ S, T.isLeaf p = false ∧ b ∈ (T.blocks p).children := by
  unfold refine
  rw [Finset.mem_biUnion]
  constructor
  · rintro ⟨p, hp, hb⟩
    split_ifs at hb with hl
    · rw [Finset.mem_singleton] at hb; subst hb; exact Or.inl ⟨hp, hl⟩
    · rw [List.mem_toFinset] at hb; exact Or.inr ⟨p, hp, by simpa using hl, hb⟩
  · rintro (⟨h1, h2⟩ | ⟨p, h1, h2, h3⟩)
    · exact ⟨b, h1, by simp [h2]⟩
    · exact ⟨p, h1, by simp [h2, h3]⟩

theorem mem_nnFirst (k : ℕ) (S : Finset ℕ) (b : ℕ) : b ∈ nnFirst T k S ↔
    b = k ∨ (adj d (T.blocks k) (T.blocks b) = true ∧ b ∈ refine T S) := by
  unfold nnFirst
  rw [Finset.mem_insert, Finset.mem_biUnion, mem_refine]
  constructor
  · rintro (h | ⟨p, hp, h⟩)
    · exact Or.inl h
    · rw [Finset.mem_union] at h
      rcases h with h | h
      · split_ifs at h with hh
        · rw [Finset.mem_singleton] at h; subst h
          exact Or.inr ⟨hh.2, Or.inl ⟨hp, hh.1⟩⟩
        · simp at h
      · rw [Finset.mem_filter, List.mem_toFinset] at h
        refine Or.inr ⟨h.2, Or.inr ⟨p, hp, ?_, h.1⟩⟩
        by_contra hl
        have : (T.blocks p).children = [] := (isLeaf_iff p).1 (by simpa using hl)
        rw [this] at h; simp at h
  · rintro (h | ⟨h1, ⟨h2, h3⟩ | ⟨p, hp, hl, hb⟩⟩)
    · exact Or.inl h
    · refine Or.inr ⟨b, h2, ?_⟩
      rw [Finset.mem_union]; left; simp [h3, h1]
    · refine Or.inr ⟨p, hp, ?_⟩
      rw [Finset.mem_union]; right
      rw [Finset.mem_filter, List.mem_toFinset]
      exact ⟨hb, h1⟩

theorem mem_nnNext (k : ℕ) (S : Finset ℕ) (b : ℕ) : b ∈ nnNext T k S ↔
    (b ∈ S ∧ T.isLeaf b = true) ∨
      (adj d (T.blocks k) (T.blocks b) = true ∧ ∃ p ∈ S, b ∈ (T.blocks p).children) := by
  unfold nnNext
  rw [Finset.mem_biUnion]
  constructor
  · rintro ⟨p, hp, h⟩
    rw [Finset.mem_union] at h
    rcases h with h | h
    · split_ifs at h with hh
      · rw [Finset.mem_singleton] at h; subst h
        exact Or.inl ⟨hp, hh⟩
      · simp at h
    · rw [Finset.mem_filter, List.mem_toFinset] at h
      exact Or.inr ⟨h.2, p, hp, h.1⟩
  · rintro (⟨h1, h2⟩ | ⟨h1, p, hp, h2⟩)
    · exact ⟨b, h1, by simp [h2]⟩
    · refine ⟨p, hp, ?_⟩
      rw [Finset.mem_union]; right
      rw [Finset.mem_filter, List.mem_toFinset]
      exact ⟨h2, h1⟩

theorem nnNext_subset (k : ℕ) (S : Finset ℕ) : nnNext T k S ⊆ refine T S := by
  intro b hb
  rw [mem_nnNext] at hb
  rw [mem_refine]
  rcases hb with hb | ⟨_, p, hp, hb⟩
  · exact Or.inl hb
  · refine Or.inr ⟨p, hp, ?_, hb⟩
    by_contra hl
    have : (T.blocks p).children = [] := (isLeaf_iff p).1 (by simpa using hl)
    rw [this] at hb; simp at hb

theorem numSub_pos (k : ℕ) : 0 < numSub inp T k := by unfold numSub; split_ifs <;> omega

/-- recursion of the near neighbours lists -/
theorem nearNeigh_zero (t : Tree inp T) (h : 1 ≤ inp.levels) {k : ℕ} (hk : k < T.count)
    (hl : 2 ≤ (T.blocks k).level) :
    nearNeigh inp T k 0 = nnFirst T k (nearNeigh inp T (T.blocks k).parent 0) := by
  rw [(t.nearNeigh_table h).1 k hk hl]
  unfold nnStep
  rw [if_pos (numSub_pos k)]
  rfl

theorem nearNeigh_succ (t : Tree inp T) (h : 1 ≤ inp.levels) {k : ℕ} (hk : k < T.count)
    (hl : 2 ≤ (T.blocks k).level) {s : ℕ} (hs : s + 1 < numSub inp T k) :
    nearNeigh inp T k (s + 1) = nnNext T k (nearNeigh inp T k s) := by
  rw [(t.nearNeigh_table h).1 k hk hl]
  unfold nnStep
  rw [if_pos hs, if_pos (by omega)]
  rfl

theorem parent_level (t : Tree inp T) {k : ℕ} (hk : k < T.count) (hl : 1 ≤ (T.blocks k).level) :
    (T.blocks k).parent < T.count ∧
    (T.blocks (T.blocks k).parent).level + 1 = (T.blocks k).level ∧
    k ∈ (T.blocks (T.blocks k).parent).children := by
  have h0 := t.pos_of_level hl
  exact ⟨t.links.parent_lt h0 hk, (t.links.level_eq h0 hk).symm, (t.links.par k h0 hk).2⟩

theorem self_mem_nn (t : Tree inp T) (h : 1 ≤ inp.levels) {k : ℕ} (hk : k < T.count)
    (hl : 1 ≤ (T.blocks k).level) : k ∈ nearNeigh inp T k 0 := by
  rcases Nat.lt_or_ge 1 (T.blocks k).level with h2 | h2
  · rw [t.nearNeigh_zero h hk h2, mem_nnFirst]; exact Or.inl rfl
  · rw [(t.nearNeigh_table h).2 k hk (by omega)]
    simp only [if_true, List.mem_toFinset]
    rw [t.mem_levelIds h]; omega

theorem mem_refine_child {S : Finset ℕ} {p b : ℕ} (hp : p ∈ S) (hb : b ∈ (T.blocks p).children) :
    b ∈ refine T S := by
  rw [mem_refine]
  refine Or.inr ⟨p, hp, ?_, hb⟩
  by_contra hl
  have : (T.blocks p).children = [] := (isLeaf_iff p).1 (by simpa using hl)
  rw [this] at hb; simp at hb

theorem nn_zero_subset (t : Tree inp T) (h : 1 ≤ inp.levels) {k : ℕ} (hk : k < T.count)
    (hl : 2 ≤ (T.blocks k).level) :
    nearNeigh inp T k 0 ⊆ refine T (nearNeigh inp T (T.blocks k).parent 0) := by
  intro b hb
  rw [t.nearNeigh_zero h hk hl, mem_nnFirst] at hb
  rcases hb with rfl | hb
  · have hp := t.parent_level hk (by omega)
    exact mem_refine_child (t.self_mem_nn h hp.1 (by omega)) hp.2.2
  · exact hb.2

theorem okSet_level1 (t : Tree inp T) (h : 1 ≤ inp.levels) :
    OkSet T 1 (T.levelIds 1).toFinset := by
  intro b hb
  rw [List.mem_toFinset, t.mem_levelIds h] at hb
  exact ⟨t.pos_of_level (by omega), hb.1, Or.inl hb.2⟩

theorem mono_okSet {l : ℕ} {S S' : Finset ℕ} (h : OkSet T l S) (hs : S' ⊆ S) : OkSet T l S' :=
  fun b hb => h b (hs hb)

theorem okSet_nn_zero (t : Tree inp T) (h : 1 ≤ inp.levels) {k : ℕ} (hk : k < T.count)
    (hl : 1 ≤ (T.blocks k).level) : OkSet T (T.blocks k).level (nearNeigh inp T k 0) := by
  induction k using Nat.strong_induction_on with
  | _ k ih =>
    rcases Nat.lt_or_ge 1 (T.blocks k).level with h2 | h2
    · have hp := t.parent_level hk (by omega)
      have hlt := (t.links.par k (t.pos_of_level hl) hk).1
      have := ih _ hlt hp.1 (by omega)
      have := t.okSet_refine this
      rw [hp.2.1] at this
      exact mono_okSet this (t.nn_zero_subset h hk h2)
    · have hl1 : (T.blocks k).level = 1 := by omega
      rw [hl1, (t.nearNeigh_table h).2 k hk hl1]
      exact t.okSet_level1 h

theorem numSub_gt_one {k s : ℕ} (hs : s + 1 < numSub inp T k) :
    T.isLeaf k = true ∧ 2 ≤ (T.blocks k).level ∧ (T.blocks k).level + (s + 1) ≤ inp.levels := by
  unfold numSub at hs
  split_ifs at hs with h
  · exact ⟨h.1, h.2, by omega⟩
  · omega

theorem okSet_nn (t : Tree inp T) (h : 1 ≤ inp.levels) {k : ℕ} (hk : k < T.count)
    (hl : 1 ≤ (T.blocks k).level) {s : ℕ} (hs : s < numSub inp T k) :
    OkSet T ((T.blocks k).level + s) (nearNeigh inp T k s) := by
  induction s with
  | zero => exact t.okSet_nn_zero h hk hl
  | succ s ih =>
    rw [t.nearNeigh_succ h hk (numSub_gt_one hs).2.1 hs]
    have := t.okSet_refine (ih (by omega))
    exact mono_okSet this (nnNext_subset _ _)

/-! ### blocks of the quadrature points -/

theorem qpb_get (t : Tree inp T) {q : ℕ × ℕ} (hq : q ∈ allQps inp) {l : ℕ} (hl : l ≤ inp.levels) :
    (T.qpb q).getD l 0 < T.count ∧ q ∈ (T.blocks ((T.qpb q).getD l 0)).qps ∧
    ((T.blocks ((T.qpb q).getD l 0)).level = l ∨
      ((T.blocks ((T.qpb q).getD l 0)).level < l ∧ (T.qpb q).getD l 0 ∈ T.childless)) := by
  have hlt : l < (T.qpb q).length := by rw [t.qlen q hq]; omega
  have := t.qent q hq l _ (List.getElem?_eq_getElem hlt)
  rw [List.getD_eq_getElem?_getD, List.getElem?_eq_getElem hlt]
  exact this

theorem qpb_succ (hd : d = 2 ∨ d = 3) (t : Tree inp T) {q : ℕ × ℕ} (hq : q ∈ allQps inp) {l : ℕ}
    (hl : l + 1 ≤ inp.levels) (hl1 : 1 ≤ l) {S : Finset ℕ} (hS : (T.qpb q).getD l 0 ∈ S) :
    (T.qpb q).getD (l + 1) 0 ∈ refine T S := by
  obtain ⟨a1, a2, a3⟩ := t.qpb_get hq (l := l) (by omega)
  obtain ⟨b1, b2, b3⟩ := t.qpb_get hq (l := l + 1) hl
  set a := (T.qpb q).getD l 0
  set b := (T.qpb q).getD (l + 1) 0
  -- a is not the root
  have ha0 : 0 < a := by
    rcases Nat.eq_zero_or_pos a with h0 | h0
    · exfalso
      rw [h0, t.links.root_level] at a3
      rcases a3 with a3 | a3
      · omega
      · rw [t.chl, t.links.root_level] at a3; omega
    · exact h0
  by_cases hleaf : T.isLeaf a = true
  · -- then b = a
    have hac : a ∈ T.childless := (t.isLeaf_childless hd ha0 a1).1 hleaf
    have : b = a := by
      rcases b3 with b3 | b3
      · have hlt : (T.blocks a).level < (T.blocks b).level := by rcases a3 with h | h <;> omega
        obtain ⟨c, hc, _⟩ := t.links.desc_child a1 b1 hlt (x := .inr q) a2 b2
        rw [(isLeaf_iff a).1 hleaf] at hc; simp at hc
      · exact (t.leaf_unique' hac b3.2 (x := .inr q) a2 b2).symm
    rw [this, mem_refine]
    exact Or.inl ⟨hS, hleaf⟩
  · have hac : a ∉ T.childless := fun h => hleaf ((t.isLeaf_childless hd ha0 a1).2 h)
    have hla : (T.blocks a).level = l := by
      rcases a3 with h | h
      · exact h
      · exact absurd h.2 hac
    obtain ⟨c, hc, hcq⟩ := t.child_of_mem hd a1 hac (x := .inr q) a2
    have hcc := t.links.chi a a1 c hc
    have hlc : (T.blocks c).level = l + 1 := by
      rw [t.links.level_eq (by omega) hcc.2.1, hcc.2.2, hla]
    have hbc : b = c := by
      rcases b3 with b3 | b3
      · exact t.links.same_level_unique b1 hcc.2.1 (by omega) (x := .inr q) b2 hcq
      · exfalso
        have hlb : ¬ (T.blocks b).level < (T.blocks c).level := by
          intro hlt
          obtain ⟨e, he, _⟩ := t.links.desc_child b1 hcc.2.1 hlt (x := .inr q) b2 hcq
          rw [(t.childless_children b3.2).2] at he; simp at he
        omega
    rw [hbc]
    exact mem_refine_child hS hc

theorem mem_singBlocks (k s b : ℕ) : b ∈ singBlocks inp T k s ↔
    ∃ i ∈ (T.blocks k).nodes, ∃ p ∈ inp.doubles i, ∃ c, c < inp.nCells ∧ (p ∈ inp.cellDofs c ∨ c ∈ inp.oldElems p) ∧
      ∃ j, j < inp.nq ∧ (T.qpb (c, j)).getD ((T.blocks k).level + s) 0 = b := by
  unfold singBlocks dofToElems quadPointsSize
  simp only [Finset.mem_biUnion, List.mem_toFinset, List.mem_append, List.mem_filter, List.mem_range,
    Finset.mem_image, Finset.mem_range, decide_eq_true_eq]
  constructor
  · rintro ⟨i, hi, p, hp, c, h1, j, hj, h⟩
    by_cases hc : c < inp.nCells
    · rw [if_pos hc] at hj
      refine ⟨i, hi, p, hp, c, hc, ?_, j, hj, h⟩
      rcases h1 with h1 | h1
      · exact Or.inr h1
      · exact Or.inl h1.2
    · rw [if_neg hc] at hj; omega
  · rintro ⟨i, hi, p, hp, c, h1, h2, j, hj, h⟩
    refine ⟨i, hi, p, hp, c, ?_, j, by rw [if_pos h1]; exact hj, h⟩
    rcases h2 with h2 | h2
    · exact Or.inr ⟨h1, h2⟩
    · exact Or.inl h2

theorem okSet_sing (hd : d = 2 ∨ d = 3) (t : Tree inp T) {k s : ℕ} (hl1 : 1 ≤ (T.blocks k).level)
    (hl : (T.blocks k).level + s ≤ inp.levels) :
    OkSet T ((T.blocks k).level + s) (singBlocks inp T k s) := by
  intro b hb
  rw [mem_singBlocks] at hb
  obtain ⟨i, hi, p, hp, c, hc, hpc, j, hj, rfl⟩ := hb
  obtain ⟨b1, b2, b3⟩ := t.qpb_get ((mem_allQps inp (c, j)).2 ⟨hc, hj⟩) hl
  set b := (T.qpb (c, j)).getD ((T.blocks k).level + s) 0
  have hb0 : 0 < b := by
    rcases Nat.eq_zero_or_pos b with h0 | h0
    · exfalso
      rw [h0, t.links.root_level] at b3
      rcases b3 with b3 | b3
      · omega
      · rw [t.chl, t.links.root_level] at b3; omega
    · exact h0
  refine ⟨hb0, b1, ?_⟩
  rcases b3 with b3 | b3
  · exact Or.inl b3
  · exact Or.inr ⟨b3.1, (t.isLeaf_childless hd hb0 b1).2 b3.2⟩

theorem mem_level1_iff (t : Tree inp T) (h : 1 ≤ inp.levels) {k : ℕ} (hk : k < T.count) :
    k ∈ T.levelIds 1 ↔ (T.blocks k).level = 1 := by
  rw [t.mem_levelIds h]; tauto

theorem intList_level1 (t : Tree inp T) (h : 1 ≤ inp.levels) {k : ℕ} (hk : k < T.count)
    (hl : (T.blocks k).level = 1) : intList inp T k 0 = (T.levelIds 1).toFinset := by
  unfold intList
  rw [if_pos ((t.mem_level1_iff h hk).2 hl), if_pos rfl]

theorem intList_eq (t : Tree inp T) (h : 1 ≤ inp.levels) {k : ℕ} (hk : k < T.count)
    (hl : 2 ≤ (T.blocks k).level) {s : ℕ} (hs : s < numSub inp T k) :
    intList inp T k s = nearNeigh inp T k s ∪ singBlocks inp T k s := by
  unfold intList
  rw [if_neg (by rw [t.mem_level1_iff h hk]; omega), if_pos hs]

theorem numSub_level {k s : ℕ} (t : Tree inp T) (hk : k < T.count) (hs : s < numSub inp T k) :
    (T.blocks k).level + s ≤ inp.levels := by
  have := t.lev_le k hk
  unfold numSub at hs
  split_ifs at hs <;> omega

theorem okSet_int (hd : d = 2 ∨ d = 3) (t : Tree inp T) (h : 1 ≤ inp.levels) {k : ℕ}
    (hk : k < T.count) (hl : 1 ≤ (T.blocks k).level) {s : ℕ} (hs : s < numSub inp T k) :
    OkSet T ((T.blocks k).level + s) (intList inp T k s) := by
  rcases Nat.lt_or_ge 1 (T.blocks k).level with h2 | h2
  · rw [t.intList_eq h hk h2 hs]
    intro b hb
    rw [Finset.mem_union] at hb
    rcases hb with hb | hb
    · exact t.okSet_nn h hk hl hs b hb
    · exact t.okSet_sing hd hl (t.numSub_level hk hs) b hb
  · have hl1 : (T.blocks k).level = 1 := by omega
    have : numSub inp T k = 1 := by unfold numSub; rw [if_neg]; omega
    have hs0 : s = 0 := by omega
    subst hs0
    rw [t.intList_level1 h hk hl1, hl1]
    exact t.okSet_level1 h

/-- the list refined to get the lists of block `k` at sublevel `s` -/
def prevList (inp : Input d) (T : St d) (k s : ℕ) : Finset ℕ :=
  if s = 0 then intList inp T (T.blocks k).parent 0 else intList inp T k (s - 1)

theorem nn_sub_int (t : Tree inp T) (h : 1 ≤ inp.levels) {k : ℕ} (hk : k < T.count)
    (hl : 1 ≤ (T.blocks k).level) {s : ℕ} (hs : s < numSub inp T k) :
    nearNeigh inp T k s ⊆ intList inp T k s := by
  rcases Nat.lt_or_ge 1 (T.blocks k).level with h2 | h2
  · rw [t.intList_eq h hk h2 hs]; exact Finset.subset_union_left
  · have hl1 : (T.blocks k).level = 1 := by omega
    have : numSub inp T k = 1 := by unfold numSub; rw [if_neg]; omega
    have hs0 : s = 0 := by omega
    subst hs0
    rw [t.intList_level1 h hk hl1, (t.nearNeigh_table h).2 k hk hl1, if_pos rfl]

theorem refine_mono {S S' : Finset ℕ} (h : S ⊆ S') : refine T S ⊆ refine T S' := by
  intro b hb
  rw [mem_refine] at hb ⊢
  rcases hb with ⟨h1, h2⟩ | ⟨p, h1, h2⟩
  · exact Or.inl ⟨h h1, h2⟩
  · exact Or.inr ⟨p, h h1, h2⟩

theorem int_subset_refine (hd : d = 2 ∨ d = 3) (t : Tree inp T) (h : 1 ≤ inp.levels) {k : ℕ}
    (hk : k < T.count) (hl : 2 ≤ (T.blocks k).level) {s : ℕ} (hs : s < numSub inp T k) :
    intList inp T k s ⊆ refine T (prevList inp T k s) := by
  intro b hb
  rw [t.intList_eq h hk hl hs, Finset.mem_union] at hb
  unfold prevList
  rcases s with _ | s
  · rw [if_pos rfl]
    have hp := t.parent_level hk (by omega)
    rcases hb with hb | hb
    · exact refine_mono (t.nn_sub_int h hp.1 (by omega) (numSub_pos _))
        (t.nn_zero_subset h hk hl hb)
    · rw [mem_singBlocks] at hb
      obtain ⟨i, hi, p, hpd, c, hc, hpc, j, hj, rfl⟩ := hb
      have hq : (c, j) ∈ allQps inp := (mem_allQps _ _).2 ⟨hc, hj⟩
      have hlk := t.lev_le k hk
      rw [Nat.add_zero, ← hp.2.1]
      refine t.qpb_succ hd hq (by omega) (by omega) ?_
      rcases Nat.lt_or_ge 1 (T.blocks (T.blocks k).parent).level with h2 | h2
      · rw [t.intList_eq h hp.1 h2 (numSub_pos _), Finset.mem_union]
        right
        rw [mem_singBlocks]
        have hi' : i ∈ (T.blocks (T.blocks k).parent).nodes :=
          t.mem_parent_of_child hp.1 hp.2.2 (x := .inl i) hi
        exact ⟨i, hi', p, hpd, c, hc, hpc, j, hj, by rw [Nat.add_zero]⟩
      · have hl1 : (T.blocks (T.blocks k).parent).level = 1 := by omega
        rw [t.intList_level1 h hp.1 hl1, hl1, List.mem_toFinset, t.mem_levelIds h]
        obtain ⟨b1, b2, b3⟩ := t.qpb_get hq (l := 1) h
        refine ⟨b1, ?_⟩
        rcases b3 with b3 | b3
        · exact b3
        · exfalso
          have := (t.chl _).1 b3.2
          rcases this.2 with h3 | h3
          · have := t.links.level_pos h3.1 b1; omega
          · omega
  · rw [if_neg (by omega), Nat.add_sub_cancel]
    rcases hb with hb | hb
    · rw [t.nearNeigh_succ h hk hl hs] at hb
      exact refine_mono (t.nn_sub_int h hk (by omega) (by omega)) (nnNext_subset _ _ hb)
    · rw [mem_singBlocks] at hb
      obtain ⟨i, hi, p, hpd, c, hc, hpc, j, hj, rfl⟩ := hb
      have hq : (c, j) ∈ allQps inp := (mem_allQps _ _).2 ⟨hc, hj⟩
      have := t.numSub_level hk hs
      rw [← Nat.add_assoc]
      refine t.qpb_succ hd hq (by omega) (by omega) ?_
      rw [t.intList_eq h hk hl (by omega), Finset.mem_union]
      right
      rw [mem_singBlocks]
      exact ⟨i, hi, p, hpd, c, hc, hpc, j, hj, rfl⟩

theorem nonInt_eq {k : ℕ} (hl : 2 ≤ (T.blocks k).level) {s : ℕ} (hs : s < numSub inp T k) :
    nonIntList inp T k s = refine T (prevList inp T k s) \ intList inp T k s := by
  unfold nonIntList prevList
  rw [if_pos ⟨hl, hs⟩]

/-! ### coverage -/

theorem okSet_unique (t : Tree inp T) {l : ℕ} {S : Finset ℕ} (h : OkSet T l S) {b b' : ℕ}
    (hb : b ∈ S) (hb' : b' ∈ S) {x : Item} (hx : (T.blocks b).Mem x) (hx' : (T.blocks b').Mem x) :
    b = b' := by
  obtain ⟨b0, b1, b2⟩ := h b hb
  obtain ⟨c0, c1, c2⟩ := h b' hb'
  rcases Nat.lt_trichotomy (T.blocks b).level (T.blocks b').level with hlt | heq | hgt
  · exfalso
    have : T.isLeaf b = true := by
      rcases b2 with b2 | b2
      · rcases c2 with c2 | c2 <;> omega
      · exact b2.2
    obtain ⟨e, he, _⟩ := t.links.desc_child b1 c1 hlt hx hx'
    rw [(isLeaf_iff b).1 this] at he; simp at he
  · exact t.links.same_level_unique b1 c1 heq hx hx'
  · exfalso
    have : T.isLeaf b' = true := by
      rcases c2 with c2 | c2
      · rcases b2 with b2 | b2 <;> omega
      · exact c2.2
    obtain ⟨e, he, _⟩ := t.links.desc_child c1 b1 hgt hx' hx
    rw [(isLeaf_iff b').1 this] at he; simp at he

/-- the quadrature points of a set of blocks -/
def srcs (T : St d) (S : Finset ℕ) : Multiset (ℕ × ℕ) :=
  ∑ b ∈ S, ((T.blocks b).qps : Multiset (ℕ × ℕ))

theorem mem_srcs {S : Finset ℕ} {q : ℕ × ℕ} : q ∈ srcs T S ↔ ∃ b ∈ S, q ∈ (T.blocks b).qps := by
  unfold srcs
  rw [Multiset.mem_sum]
  simp

theorem nodup_srcs (t : Tree inp T) {l : ℕ} {S : Finset ℕ} (h : OkSet T l S) :
    (srcs T S).Nodup := by
  classical
  rw [Multiset.nodup_iff_count_le_one]
  intro q
  unfold srcs
  rw [Multiset.count_sum']
  by_cases hq : ∃ b ∈ S, q ∈ (T.blocks b).qps
  · obtain ⟨b, hb, hqb⟩ := hq
    rw [Finset.sum_eq_single_of_mem b hb]
    · exact Multiset.nodup_iff_count_le_one.1
        (Multiset.coe_nodup.2 (t.links.nodup (h b hb).2.1).2) q
    · intro b' hb' hne
      rw [Multiset.count_eq_zero, Multiset.mem_coe]
      intro hq'
      exact hne (t.okSet_unique h hb' hb (x := .inr q) hq' hqb)
  · rw [Finset.sum_eq_zero]
    · omega
    · intro b hb
      rw [Multiset.count_eq_zero, Multiset.mem_coe]
      intro hq'; exact hq ⟨b, hb, hq'⟩

theorem srcs_refine (hd : d = 2 ∨ d = 3) (t : Tree inp T) {l : ℕ} {S : Finset ℕ}
    (h : OkSet T l S) : srcs T (refine T S) = srcs T S := by
  refine (Multiset.Nodup.ext (t.nodup_srcs (t.okSet_refine h)) (t.nodup_srcs h)).2 ?_
  intro q
  rw [mem_srcs, mem_srcs]
  constructor
  · rintro ⟨b, hb, hq⟩
    rw [mem_refine] at hb
    rcases hb with ⟨h1, _⟩ | ⟨p, hp, _, hbc⟩
    · exact ⟨b, h1, hq⟩
    · exact ⟨p, hp, t.mem_parent_of_child (h p hp).2.1 hbc (x := .inr q) hq⟩
  · rintro ⟨b, hb, hq⟩
    by_cases hl : T.isLeaf b = true
    · exact ⟨b, (mem_refine _ _).2 (Or.inl ⟨hb, hl⟩), hq⟩
    · obtain ⟨h0, h1, _⟩ := h b hb
      have hc : b ∉ T.childless := fun hh => hl ((t.isLeaf_childless hd h0 h1).2 hh)
      obtain ⟨c, hcm, hcq⟩ := t.child_of_mem hd h1 hc (x := .inr q) hq
      exact ⟨c, mem_refine_child hb hcm, hcq⟩

theorem srcs_level1 (hd : d = 2 ∨ d = 3) (t : Tree inp T) (h : 1 ≤ inp.levels) :
    srcs T (T.levelIds 1).toFinset = (allQps inp : Multiset (ℕ × ℕ)) := by
  refine (Multiset.Nodup.ext (t.nodup_srcs (t.okSet_level1 h))
    (by rw [Multiset.coe_nodup]; exact nodup_allQps inp)).2 ?_
  intro q
  rw [mem_srcs, Multiset.mem_coe]
  constructor
  · rintro ⟨b, hb, hq⟩
    rw [List.mem_toFinset, t.mem_levelIds h] at hb
    exact mem_root_of_mem t.links hb.1 (x := .inr q) hq
  · intro hq
    have h0 : 0 ∉ T.childless := by
      rw [t.chl, t.links.root_level]; omega
    obtain ⟨c, hc, hcq⟩ := t.child_of_mem hd t.links.pos h0 (x := .inr q) ((t.mem_root _).2 hq)
    have hcc := t.links.chi 0 t.links.pos c hc
    refine ⟨c, ?_, hcq⟩
    rw [List.mem_toFinset, t.mem_levelIds h]
    refine ⟨hcc.2.1, ?_⟩
    rw [t.links.level_eq (by omega) hcc.2.1, hcc.2.2, t.links.root_level]

theorem srcs_split (hd : d = 2 ∨ d = 3) (t : Tree inp T) (h : 1 ≤ inp.levels) {k : ℕ}
    (hk : k < T.count) (hl : 2 ≤ (T.blocks k).level) {s : ℕ} (hs : s < numSub inp T k) :
    srcs T (intList inp T k s) + srcs T (nonIntList inp T k s) = srcs T (prevList inp T k s) := by
  have hok : OkSet T ((T.blocks k).level + s - 1) (prevList inp T k s) := by
    unfold prevList
    rcases s with _ | s
    · rw [if_pos rfl]
      have hp := t.parent_level hk (by omega)
      have := t.okSet_int hd h hp.1 (by omega) (numSub_pos _)
      have e : (T.blocks k).level + 0 - 1 = (T.blocks (T.blocks k).parent).level + 0 := by omega
      rw [e]; exact this
    · rw [if_neg (by omega)]
      have := t.okSet_int hd h hk (by omega) (s := s) (by omega)
      have e : (T.blocks k).level + (s + 1) - 1 = (T.blocks k).level + s := by omega
      rw [e, Nat.add_sub_cancel]; exact this
  rw [← t.srcs_refine hd hok, nonInt_eq hl hs]
  unfold srcs
  rw [add_comm]
  exact Finset.sum_sdiff (t.int_subset_refine hd h hk hl hs)

/-- the far field of block `k`: everything in its non interaction lists -/
def farSrcs (inp : Input d) (T : St d) (k : ℕ) : Multiset (ℕ × ℕ) :=
  ∑ s ∈ Finset.range (numSub inp T k), srcs T (nonIntList inp T k s)

theorem srcs_sublevels (hd : d = 2 ∨ d = 3) (t : Tree inp T) (h : 1 ≤ inp.levels) {k : ℕ}
    (hk : k < T.count) (hl : 2 ≤ (T.blocks k).level) (n : ℕ) (hn : n < numSub inp T k) :
    srcs T (intList inp T k n) + ∑ s ∈ Finset.range (n + 1), srcs T (nonIntList inp T k s) =
      srcs T (intList inp T (T.blocks k).parent 0) := by
  induction n with
  | zero =>
    have := t.srcs_split hd h hk hl hn
    simpa [prevList] using this
  | succ n ih =>
    have h1 := t.srcs_split hd h hk hl hn
    rw [show prevList inp T k (n + 1) = intList inp T k n from by simp [prevList]] at h1
    rw [Finset.sum_range_succ, ← ih (by omega), ← h1]
    abel

theorem near_far (hd : d = 2 ∨ d = 3) (t : Tree inp T) (h : 1 ≤ inp.levels) {k : ℕ}
    (hk : k < T.count) (hl : 2 ≤ (T.blocks k).level) :
    srcs T (intList inp T k (numSub inp T k - 1)) + farSrcs inp T k =
      srcs T (intList inp T (T.blocks k).parent 0) := by
  have hp := numSub_pos (inp := inp) (T := T) k
  have := t.srcs_sublevels hd h hk hl (numSub inp T k - 1) (by omega)
  rw [Nat.sub_add_cancel hp] at this
  exact this

theorem far_level1 {k : ℕ} (hl : (T.blocks k).level < 2) : farSrcs inp T k = 0 := by
  unfold farSrcs
  refine Finset.sum_eq_zero ?_
  intro s _
  unfold nonIntList
  rw [if_neg (by omega)]
  simp [srcs]

end Tree
end PiBem.Octree
