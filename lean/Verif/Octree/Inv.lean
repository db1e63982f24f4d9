import Verif.Octree.Basic

/-! Invariants of the octree construction (helper lemmas). -/

namespace PiBem.Octree

variable {d : ℕ}

/-- side of the blocks of level `l` -/
def sideAt (inp : Input d) (l : ℕ) : ℚ := 22 / 10 * maxCoor inp / 2 ^ l

/-- the child `j` of block `jj` as the program creates it -/
def kidOf (inp : Input d) (st : St d) (jj j : ℕ) : Block d :=
  mkChild inp ((st.blocks jj).level + 1) (sideAt inp ((st.blocks jj).level + 1)) jj (st.blocks jj) j

/-- two blocks differ at most by the list of children -/
def SameCore (b b' : Block d) : Prop := b' = { b with children := b'.children }

/-- Structural invariant of the table of blocks. -/
structure Links (inp : Input d) (st : St d) : Prop where
  pos : 0 < st.count
  root : SameCore (rootBlock inp) (st.blocks 0)
  par : ∀ i, 0 < i → i < st.count →
    (st.blocks i).parent < i ∧ i ∈ (st.blocks (st.blocks i).parent).children
  chi : ∀ i, i < st.count → ∀ c ∈ (st.blocks i).children,
    i < c ∧ c < st.count ∧ (st.blocks c).parent = i
  inc : ∀ i, i < st.count → (st.blocks i).children.Pairwise (· < ·)
  kid : ∀ i, 0 < i → i < st.count →
    SameCore (kidOf inp st (st.blocks i).parent (st.blocks i).oct) (st.blocks i)
  octlt : ∀ i, 0 < i → i < st.count → (st.blocks i).oct < 2 ^ d
  ne : ∀ i, 0 < i → i < st.count → ∃ x, (st.blocks i).Mem x
  octinj : ∀ i, i < st.count → ∀ c ∈ (st.blocks i).children, ∀ c' ∈ (st.blocks i).children,
    (st.blocks c).oct = (st.blocks c').oct → c = c'
  mono : ∀ i j, i ≤ j → j < st.count → (st.blocks i).level ≤ (st.blocks j).level

theorem SameCore.refl (b : Block d) : SameCore b b := rfl

theorem SameCore.trans {a b c : Block d} (h : SameCore a b) (h' : SameCore b c) : SameCore a c := by
  unfold SameCore at *; rw [h', h]

theorem SameCore.level {b b' : Block d} (h : SameCore b b') : b'.level = b.level := by rw [h]
theorem SameCore.parent {b b' : Block d} (h : SameCore b b') : b'.parent = b.parent := by rw [h]
theorem SameCore.pMin {b b' : Block d} (h : SameCore b b') : b'.pMin = b.pMin := by rw [h]
theorem SameCore.delta {b b' : Block d} (h : SameCore b b') : b'.delta = b.delta := by rw [h]
theorem SameCore.nodes {b b' : Block d} (h : SameCore b b') : b'.nodes = b.nodes := by rw [h]
theorem SameCore.qps {b b' : Block d} (h : SameCore b b') : b'.qps = b.qps := by rw [h]
theorem SameCore.oct {b b' : Block d} (h : SameCore b b') : b'.oct = b.oct := by rw [h]
theorem SameCore.mem {b b' : Block d} (h : SameCore b b') (x : Item) : b'.Mem x ↔ b.Mem x := by
  cases x <;> simp [Block.Mem, h.nodes, h.qps]

theorem mkChild_congr {inp : Input d} {l : ℕ} {δ : ℚ} {jj j : ℕ} {b b' : Block d}
    (h : SameCore b b') : mkChild inp l δ jj b' j = mkChild inp l δ jj b j := by
  simp [mkChild, h.pMin, h.nodes, h.qps]

theorem kidOf_congr {inp : Input d} {st st' : St d} {jj j : ℕ}
    (h : SameCore (st.blocks jj) (st'.blocks jj)) : kidOf inp st' jj j = kidOf inp st jj j := by
  unfold kidOf; rw [mkChild_congr h, h.level]

section addChild

variable {inp : Input d} {st : St d} {jj : ℕ} {c : Block d}

theorem addChild_of_empty (h : ¬ ∃ x, c.Mem x) : addChild jj st c = st := by
  unfold addChild; rw [if_neg]; rw [nonempty_iff]; exact h

theorem addChild_count (h : ∃ x, c.Mem x) : (addChild jj st c).count = st.count + 1 := by
  unfold addChild; rw [if_pos ((nonempty_iff c).2 h)]

theorem addChild_blocks (h : ∃ x, c.Mem x) : (addChild jj st c).blocks = Function.update
    (Function.update st.blocks jj
      { st.blocks jj with children := (st.blocks jj).children ++ [st.count] }) st.count c := by
  unfold addChild; rw [if_pos ((nonempty_iff c).2 h)]

theorem addChild_new (h : ∃ x, c.Mem x) : (addChild jj st c).blocks st.count = c := by
  rw [addChild_blocks h]; simp

theorem addChild_parent (h : ∃ x, c.Mem x) (hjj : jj < st.count) :
    (addChild jj st c).blocks jj =
      { st.blocks jj with children := (st.blocks jj).children ++ [st.count] } := by
  rw [addChild_blocks h, Function.update_of_ne (by omega), Function.update_self]

theorem addChild_other (i : ℕ) (hi : i < st.count) (hij : i ≠ jj) :
    (addChild jj st c).blocks i = st.blocks i := by
  by_cases h : ∃ x, c.Mem x
  · rw [addChild_blocks h, Function.update_of_ne (by omega), Function.update_of_ne hij]
  · rw [addChild_of_empty h]

theorem addChild_core (i : ℕ) (hi : i < st.count) :
    SameCore (st.blocks i) ((addChild jj st c).blocks i) := by
  by_cases h : ∃ x, c.Mem x
  · by_cases hij : i = jj
    · subst hij; rw [addChild_parent h hi]; rfl
    · rw [addChild_other i hi hij]; rfl
  · rw [addChild_of_empty h]; rfl

theorem Links.addChild_kid (h : Links inp st) (hjj : jj < st.count) {j : ℕ} (hj : j < 2 ^ d)
    (hlev : ∀ i, i < st.count → (st.blocks i).level ≤ (st.blocks jj).level + 1)
    (hoct : ∀ c ∈ (st.blocks jj).children, (st.blocks c).oct < j) :
    Links inp (addChild jj st (kidOf inp st jj j)) := by
  by_cases hne : ∃ x, (kidOf inp st jj j).Mem x
  swap
  · rw [addChild_of_empty hne]; exact h
  set st' := addChild jj st (kidOf inp st jj j) with hst'
  have hcnt : st'.count = st.count + 1 := addChild_count hne
  have hnew : st'.blocks st.count = kidOf inp st jj j := addChild_new hne
  have hpar : st'.blocks jj =
      { st.blocks jj with children := (st.blocks jj).children ++ [st.count] } :=
    addChild_parent hne hjj
  have hoth : ∀ i, i < st.count → i ≠ jj → st'.blocks i = st.blocks i :=
    fun i hi hij => addChild_other i hi hij
  have hcore : ∀ i, i < st.count → SameCore (st.blocks i) (st'.blocks i) :=
    fun i hi => addChild_core i hi
  have hsub : ∀ i, i < st.count → ∀ c ∈ (st.blocks i).children, c ∈ (st'.blocks i).children := by
    intro i hi c hc
    by_cases hij : i = jj
    · subst hij; rw [hpar]; simp [hc]
    · rw [hoth i hi hij]; exact hc
  have hchild : ∀ i, i < st.count → ∀ c ∈ (st'.blocks i).children,
      c ∈ (st.blocks i).children ∨ (c = st.count ∧ i = jj) := by
    intro i hi c hc
    by_cases hij : i = jj
    · subst hij; rw [hpar] at hc; simpa using hc
    · rw [hoth i hi hij] at hc; exact Or.inl hc
  refine ⟨by omega, ?_, ?_, ?_, ?_, ?_, ?_, ?_, ?_, ?_⟩
  · exact h.root.trans (hcore 0 h.pos)
  · intro i hi0 hi
    rcases Nat.lt_or_ge i st.count with hi' | hi'
    · have hp := h.par i hi0 hi'
      rw [(hcore i hi').parent]
      exact ⟨hp.1, hsub _ (by omega) _ hp.2⟩
    · have : i = st.count := by omega
      subst this
      rw [hnew]
      refine ⟨hjj, ?_⟩
      show st.count ∈ (st'.blocks jj).children
      rw [hpar]; simp
  · intro i hi c hc
    rcases Nat.lt_or_ge i st.count with hi' | hi'
    · rcases hchild i hi' c hc with hc' | ⟨rfl, rfl⟩
      · have := h.chi i hi' c hc'
        refine ⟨this.1, by omega, ?_⟩
        rw [(hcore c this.2.1).parent]; exact this.2.2
      · refine ⟨hi', by omega, ?_⟩
        rw [hnew]; rfl
    · have : i = st.count := by omega
      subst this; rw [hnew] at hc; simp [kidOf, mkChild] at hc
  · intro i hi
    rcases Nat.lt_or_ge i st.count with hi' | hi'
    · by_cases hij : i = jj
      · subst hij; rw [hpar]
        simp only [List.pairwise_append]
        refine ⟨h.inc i hi', by simp, ?_⟩
        intro a ha b hb
        have := h.chi i hi' a ha
        simp at hb; omega
      · rw [hoth i hi' hij]; exact h.inc i hi'
    · have : i = st.count := by omega
      subst this; rw [hnew]; simp [kidOf, mkChild]
  · intro i hi0 hi
    rcases Nat.lt_or_ge i st.count with hi' | hi'
    · have hk := h.kid i hi0 hi'
      have hp := h.par i hi0 hi'
      have hc := hcore i hi'
      rw [hc.parent, hc.oct, kidOf_congr (hcore _ (by omega : (st.blocks i).parent < st.count))]
      exact hk.trans hc
    · have : i = st.count := by omega
      subst this
      rw [hnew]
      show SameCore (kidOf inp st' jj j) _
      rw [kidOf_congr (hcore _ hjj)]
      exact SameCore.refl _
  · intro i hi0 hi
    rcases Nat.lt_or_ge i st.count with hi' | hi'
    · rw [(hcore i hi').oct]; exact h.octlt i hi0 hi'
    · have : i = st.count := by omega
      subst this; rw [hnew]; exact hj
  · intro i hi0 hi
    rcases Nat.lt_or_ge i st.count with hi' | hi'
    · obtain ⟨x, hx⟩ := h.ne i hi0 hi'
      exact ⟨x, ((hcore i hi').mem x).2 hx⟩
    · have : i = st.count := by omega
      subst this; rw [hnew]; exact hne
  · intro i hi c hc c' hc' heq
    rcases Nat.lt_or_ge i st.count with hi' | hi'
    · rcases hchild i hi' c hc with hc1 | ⟨rfl, rfl⟩
      · have hcc := (h.chi i hi' c hc1).2.1
        rw [(hcore c hcc).oct] at heq
        rcases hchild i hi' c' hc' with hc1' | ⟨rfl, rfl⟩
        · have hcc' := (h.chi i hi' c' hc1').2.1
          rw [(hcore c' hcc').oct] at heq
          exact h.octinj i hi' c hc1 c' hc1' heq
        · rw [hnew] at heq
          have := hoct c hc1
          have : (kidOf inp st i j).oct = j := rfl
          omega
      · rcases hchild i hi' c' hc' with hc1' | ⟨rfl, _⟩
        · have hcc' := (h.chi i hi' c' hc1').2.1
          rw [(hcore c' hcc').oct, hnew] at heq
          have := hoct c' hc1'
          have : (kidOf inp st i j).oct = j := rfl
          omega
        · rfl
    · have : i = st.count := by omega
      subst this; rw [hnew] at hc; simp [kidOf, mkChild] at hc
  · intro i k hik hk
    rcases Nat.lt_or_ge k st.count with hk' | hk'
    · rw [(hcore k hk').level, (hcore i (by omega)).level]
      exact h.mono i k hik hk'
    · have : k = st.count := by omega
      subst this
      rcases Nat.lt_or_ge i st.count with hi' | hi'
      · rw [hnew, (hcore i hi').level]; exact hlev i hi'
      · have : i = st.count := by omega
        subst this; exact le_refl _

end addChild

end PiBem.Octree
