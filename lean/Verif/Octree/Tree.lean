import Verif.Octree.Level
import Mathlib.Algebra.Order.Floor.Ring
import Mathlib.Algebra.Order.Floor.Semiring
import Mathlib.Tactic.Positivity
import Mathlib.Tactic.FieldSimp
import Mathlib.Tactic.Ring

/-! Facts on the complete tree `build inp` (helper lemmas). -/

namespace PiBem.Octree

variable {d : ℕ} {inp : Input d}

/-- What is known of the complete tree. -/
structure Tree (inp : Input d) (T : St d) : Prop where
  links : Links inp T
  lev_le : ∀ b, b < T.count → (T.blocks b).level ≤ inp.levels
  cmp : ∀ b, b < T.count → (T.blocks b).level < inp.levels → (b = 0 ∨ Big inp (T.blocks b)) →
    Complete inp T b
  leaf : ∀ b, b < T.count →
    ((T.blocks b).level = inp.levels ∨ (0 < b ∧ ¬ Big inp (T.blocks b))) →
    (T.blocks b).children = []
  chl : ∀ b, b ∈ T.childless ↔ b < T.count ∧
    ((0 < b ∧ ¬ Big inp (T.blocks b)) ∨ (T.blocks b).level = inp.levels)
  chlnd : T.childless.Nodup
  rng : ∀ l, l ≤ inp.levels → ∀ b, (b < T.count ∧ (T.blocks b).level = l ↔
    T.startLevel l ≤ b ∧ b ≤ T.endLevel l)
  last : T.endLevel inp.levels + 1 = T.count
  par : ∀ l b, b ∈ T.parentList l ↔
    b < T.count ∧ (T.blocks b).level = l ∧ (b = 0 ∨ Big inp (T.blocks b))
  parnd : ∀ l, (T.parentList l).Nodup
  dfil : ∀ l b, b ∈ T.dofsFilled l ↔
    0 < b ∧ b < T.count ∧ (T.blocks b).level = l ∧ 0 < blockNumNodes inp (T.blocks b)
  dfilnd : ∀ l, (T.dofsFilled l).Nodup
  qfil : ∀ l b, b ∈ T.qpsFilled l ↔
    0 < b ∧ b < T.count ∧ (T.blocks b).level = l ∧ (T.blocks b).qps ≠ []
  qfilnd : ∀ l, (T.qpsFilled l).Nodup
  qlen : ∀ q ∈ allQps inp, (T.qpb q).length = inp.levels + 1
  qent : ∀ q ∈ allQps inp, ∀ l e, (T.qpb q)[l]? = some e → e < T.count ∧ q ∈ (T.blocks e).qps ∧
    ((T.blocks e).level = l ∨ ((T.blocks e).level < l ∧ e ∈ T.childless))
  qnone : ∀ q, q ∉ allQps inp → T.qpb q = []
  dok : DOK T
  cap : T.cap = inp.levels * inp.nCells * inp.nq
  oob : T.oob = true ↔ T.cap < T.count

theorem build_tree (hd : d = 2 ∨ d = 3) (inp : Input d) : Tree inp (build inp) := by
  have I := levInv_buildTo (inp := inp) hd inp.levels (le_refl _)
  set s := buildTo inp inp.levels with hs
  have hT : build inp = { s with childless := s.childless ++ s.parentList inp.levels } := rfl
  have hmem : ∀ b, b ∈ (build inp).childless ↔ b < s.count ∧
    ((0 < b ∧ ¬ Big inp (s.blocks b)) ∨ (s.blocks b).level = inp.levels) := by
    intro b
    rw [hT]
    simp only [List.mem_append, I.chl, I.par]
    constructor
    · rintro (⟨h1, h2, h3⟩ | ⟨h1, h2, _⟩)
      · exact ⟨h2, Or.inl ⟨h1, h3⟩⟩
      · exact ⟨h1, Or.inr h2⟩
    · rintro ⟨h1, h2⟩
      by_cases hb : 0 < b ∧ ¬ Big inp (s.blocks b)
      · exact Or.inl ⟨hb.1, h1, hb.2⟩
      · rcases h2 with h2 | h2
        · exact absurd h2 hb
        · right
          refine ⟨h1, h2, ?_⟩
          rcases Nat.eq_zero_or_pos b with h0 | h0
          · exact Or.inl h0
          · right; by_contra h; exact hb ⟨h0, h⟩
  have hL : Links inp (build inp) :=
    I.links.casesOn (fun a b c e f g h i j k => ⟨a, b, c, e, f, g, h, i, j, k⟩)
  refine ⟨hL, I.lev_le, I.cmp, I.leaf, hmem, ?_, I.rng, I.last, I.par, I.parnd, I.dfil, I.dfilnd,
    I.qfil, I.qfilnd, ?_, ?_, I.qnone, I.dok, I.cap, I.oob⟩
  · show (s.childless ++ s.parentList inp.levels).Nodup
    rw [List.nodup_append]
    refine ⟨I.chlnd, I.parnd _, ?_⟩
    rintro a ha b hb rfl
    rw [I.chl] at ha
    rw [I.par] at hb
    rcases hb.2.2 with h | h
    · omega
    · exact ha.2.2 h
  · intro q hq
    obtain ⟨b, hb, hbq, hbc, hlen⟩ := (I.qok q hq).leaf
    show (s.qpb q).length = _
    rw [hlen]
    split_ifs with hc
    · rfl
    · by_contra hne
      have hl := I.lev_le b hb
      have hl' : (s.blocks b).level < inp.levels := by omega
      have hB : b = 0 ∨ Big inp (s.blocks b) := by
        rw [I.chl] at hc
        rcases Nat.eq_zero_or_pos b with h0 | h0
        · exact Or.inl h0
        · right; by_contra h; exact hc ⟨h0, hb, h⟩
      obtain ⟨c, hcm, _⟩ := I.cmp b hb hl' hB _ (childIdx_lt hd _ _ (inp.qpos q))
        ⟨.inr q, (mem_mkChild _ _ _ _ _ _ _).2 ⟨hbq, rfl⟩⟩
      rw [hbc] at hcm; simp at hcm
  · intro q hq l e he
    obtain ⟨h1, h2, h3⟩ := (I.qok q hq).ent l e he
    refine ⟨h1, h2, ?_⟩
    rcases h3 with h3 | ⟨h3, h4⟩
    · exact Or.inl h3
    · refine Or.inr ⟨h3, ?_⟩
      show e ∈ s.childless ++ _
      simp [h4]

theorem Big.nodes_ne {b : Block d} (h : Big inp b) : b.nodes ≠ [] := by
  intro h0
  unfold Big blockNumNodes roundUp at h
  rw [h0] at h
  norm_num at h
  omega

namespace Tree

variable {T : St d}

theorem child_of_mem (hd : d = 2 ∨ d = 3) (t : Tree inp T) {b : ℕ} (hb : b < T.count)
    (hc : b ∉ T.childless) {x : Item} (hx : (T.blocks b).Mem x) :
    ∃ c ∈ (T.blocks b).children, (T.blocks c).Mem x := by
  rw [t.chl] at hc
  have hle := t.lev_le b hb
  have hlt : (T.blocks b).level < inp.levels := by
    rcases Nat.lt_or_ge (T.blocks b).level inp.levels with h | h
    · exact h
    · exact absurd ⟨hb, Or.inr (by omega)⟩ hc
  have hB : b = 0 ∨ Big inp (T.blocks b) := by
    rcases Nat.eq_zero_or_pos b with h0 | h0
    · exact Or.inl h0
    · right; by_contra h; exact hc ⟨hb, Or.inl ⟨h0, h⟩⟩
  have hm : (kidOf inp T b (childIdx d (T.blocks b).pMin
    (sideAt inp ((T.blocks b).level + 1)) (ipos inp x))).Mem x :=
    (mem_mkChild _ _ _ _ _ _ _).2 ⟨hx, rfl⟩
  obtain ⟨c, hcm, hco⟩ := t.cmp b hb hlt hB _ (childIdx_lt hd _ _ (ipos inp x)) ⟨x, hm⟩
  refine ⟨c, hcm, ?_⟩
  have hcc := t.links.chi b hb c hcm
  rw [t.links.mem_iff (by omega) hcc.2.1, hcc.2.2]
  exact ⟨hx, hco.symm⟩

theorem childless_children (t : Tree inp T) {b : ℕ} (hb : b ∈ T.childless) :
    b < T.count ∧ (T.blocks b).children = [] := by
  rw [t.chl] at hb
  exact ⟨hb.1, t.leaf b hb.1 (by tauto)⟩

theorem children_ne_of_not_childless (hd : d = 2 ∨ d = 3) (t : Tree inp T) {b : ℕ}
    (hb : b < T.count) (hx : ∃ x, (T.blocks b).Mem x) (hc : b ∉ T.childless) :
    (T.blocks b).children ≠ [] := by
  obtain ⟨x, hx⟩ := hx
  obtain ⟨c, hc, _⟩ := t.child_of_mem hd hb hc hx
  exact List.ne_nil_of_mem hc

theorem exists_leaf (hd : d = 2 ∨ d = 3) (t : Tree inp T) {b : ℕ} (hb : b < T.count)
    {x : Item} (hx : (T.blocks b).Mem x) : ∃ f ∈ T.childless, (T.blocks f).Mem x := by
  obtain ⟨n, hn⟩ : ∃ n, n = T.count - b := ⟨_, rfl⟩
  induction n using Nat.strong_induction_on generalizing b with
  | _ n ih =>
    by_cases hc : b ∈ T.childless
    · exact ⟨b, hc, hx⟩
    · obtain ⟨c, hcm, hcx⟩ := t.child_of_mem hd hb hc hx
      have := t.links.chi b hb c hcm
      exact ih (T.count - c) (by omega) this.2.1 hcx rfl

theorem mem_root (t : Tree inp T) (x : Item) : (T.blocks 0).Mem x ↔ (rootBlock inp).Mem x :=
  t.links.root.mem x

theorem leaf_unique' (t : Tree inp T) {b c : ℕ} (hb : b ∈ T.childless) (hc : c ∈ T.childless)
    {x : Item} (hx : (T.blocks b).Mem x) (hx' : (T.blocks c).Mem x) : b = c := by
  have h1 := t.childless_children hb
  have h2 := t.childless_children hc
  exact t.links.leaf_unique h1.1 h2.1 h1.2 h2.2 hx hx'

theorem children_length (t : Tree inp T) {b : ℕ} (hb : b < T.count) :
    (T.blocks b).children.length ≤ 2 ^ d := by
  have hnd : ((T.blocks b).children.map fun c => (T.blocks c).oct).Nodup := by
    refine List.Nodup.map_on ?_ ((t.links.inc b hb).imp (fun h => Nat.ne_of_lt h))
    intro x hx y hy h
    exact t.links.octinj b hb x hx y hy h
  have hsub : ((T.blocks b).children.map fun c => (T.blocks c).oct) ⊆ List.range (2 ^ d) := by
    intro o ho
    rw [List.mem_map] at ho
    obtain ⟨c, hc, rfl⟩ := ho
    have := t.links.chi b hb c hc
    rw [List.mem_range]
    exact t.links.octlt c (by omega) this.2.1
  have := (hnd.subperm hsub).length_le
  simpa using this

theorem child_unique (t : Tree inp T) {b c c' : ℕ} (hb : b < T.count)
    (hc : c ∈ (T.blocks b).children) (hc' : c' ∈ (T.blocks b).children) {x : Item}
    (hx : (T.blocks c).Mem x) (hx' : (T.blocks c').Mem x) : c = c' := by
  have h1 := t.links.chi b hb c hc
  have h2 := t.links.chi b hb c' hc'
  refine t.links.same_level_unique h1.2.1 h2.2.1 ?_ hx hx'
  rw [t.links.level_eq (by omega) h1.2.1, t.links.level_eq (by omega) h2.2.1, h1.2.2, h2.2.2]

theorem mem_parent_of_child (t : Tree inp T) {b c : ℕ} (hb : b < T.count)
    (hc : c ∈ (T.blocks b).children) {x : Item} (hx : (T.blocks c).Mem x) : (T.blocks b).Mem x := by
  have h1 := t.links.chi b hb c hc
  have := (t.links.mem_iff (by omega) h1.2.1 x).1 hx
  rw [h1.2.2] at this
  exact this.1

end Tree

end PiBem.Octree
