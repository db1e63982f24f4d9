import Verif.Bem.Ownership
import Verif.Props.Nodes

/-!
# C72: the dofs are partitioned among the processes

`o2s`, `vo2s` are the numberings returned by the renumbering routine for the scalar and the vector dofs (permutations),
`assoc i` the process of scalar dof `i`.
-/

namespace PiBem.Bem

theorem mem_foldl_insert {α β : Type} [DecidableEq β] (l : List α) (f : α → β) (s : Finset β) (x : β) :
    x ∈ l.foldl (fun s a => insert (f a) s) s ↔ x ∈ s ∨ ∃ a ∈ l, x = f a := by
  induction l generalizing s with
  | nil => simp
  | cons a t ih => rw [List.foldl_cons, ih, Finset.mem_insert]; simp only [List.mem_cons, exists_eq_or_imp]; tauto

theorem mem_cpuSets (nDofs nGrad dim : ℕ) (assoc s2o vo2s : ℕ → ℕ) (proc x : ℕ) :
    (x ∈ (cpuSets nDofs nGrad dim assoc s2o vo2s proc).1 ↔ x < nDofs ∧ assoc x = proc) ∧
    (x ∈ (cpuSets nDofs nGrad dim assoc s2o vo2s proc).2 ↔
      ∃ i, i < nDofs ∧ assoc i = proc ∧ ∃ k, k < dim ∧ x = vecIndex nGrad dim s2o vo2s i k) := by
  have key : ∀ (l : List ℕ) (r : Finset ℕ × Finset ℕ),
      let r' := l.foldl (fun (r : Finset ℕ × Finset ℕ) i =>
        if assoc i = proc then
          (insert i r.1, (List.range dim).foldl (fun v idim => insert (vo2s (nGrad / dim * idim + s2o i)) v) r.2)
        else r) r
      (x ∈ r'.1 ↔ x ∈ r.1 ∨ x ∈ l ∧ assoc x = proc) ∧
      (x ∈ r'.2 ↔ x ∈ r.2 ∨ ∃ i ∈ l, assoc i = proc ∧ ∃ k, k < dim ∧ x = vecIndex nGrad dim s2o vo2s i k) := by
    intro l
    induction l with
    | nil => intro r; simp
    | cons a t ih =>
      intro r
      simp only [List.foldl_cons]
      obtain ⟨h1, h2⟩ := ih (if assoc a = proc then
          (insert a r.1, (List.range dim).foldl (fun v idim => insert (vo2s (nGrad / dim * idim + s2o a)) v) r.2)
        else r)
      rw [h1, h2]
      by_cases h : assoc a = proc
      · simp only [h, if_true, Finset.mem_insert, mem_foldl_insert, List.mem_range, List.mem_cons, exists_eq_or_imp,
          true_and]
        refine ⟨?_, ?_⟩
        · constructor
          · rintro ((rfl | h3) | ⟨h3, h4⟩)
            · exact Or.inr ⟨Or.inl rfl, h⟩
            · exact Or.inl h3
            · exact Or.inr ⟨Or.inr h3, h4⟩
          · rintro (h3 | ⟨rfl | h3, h4⟩)
            · exact Or.inl (Or.inr h3)
            · exact Or.inl (Or.inl rfl)
            · exact Or.inr ⟨h3, h4⟩
        · unfold vecIndex
          rw [or_assoc]
      · simp only [h, if_false, List.mem_cons, exists_eq_or_imp, false_and, false_or, and_true]
        refine or_congr_right ?_
        constructor
        · rintro ⟨h3, h4⟩; exact ⟨Or.inr h3, h4⟩
        · rintro ⟨rfl | h3, h4⟩
          · exact absurd h4 h
          · exact ⟨h3, h4⟩
  have := key (List.range nDofs) (∅, ∅)
  simpa [cpuSets] using this

/-- **C72**. Process `p` owns scalar dof `i` iff it is associated with `p`; every scalar dof is owned by exactly one
process, and so is every vector dof; a process owns component `k` of the vector quantities at `i` iff it owns `i`
(the consistency asserted by the program in `prepare_bem_vectors`); it owns `dim` vector dofs for each scalar one. -/
theorem C72_ownership (nDofs dim procs : ℕ) (hdim : 0 < dim) (o2s vo2s assoc : ℕ → ℕ)
    (ho : ∀ i < nDofs, o2s i < nDofs) (hoi : ∀ i < nDofs, ∀ j < nDofs, o2s i = o2s j → i = j)
    (hv : ∀ i < dim * nDofs, vo2s i < dim * nDofs)
    (hvi : ∀ i < dim * nDofs, ∀ j < dim * nDofs, vo2s i = vo2s j → i = j)
    (ha : ∀ i < nDofs, assoc i < procs) :
    let s2o := (reorderingVectors nDofs (dim * nDofs) o2s vo2s).1
    let own := fun p => (cpuSets nDofs (dim * nDofs) dim assoc s2o vo2s p).1
    let vown := fun p => (cpuSets nDofs (dim * nDofs) dim assoc s2o vo2s p).2
    (∀ p i, i ∈ own p ↔ i < nDofs ∧ assoc i = p) ∧
    (∀ i < nDofs, ∃! p, p < procs ∧ i ∈ own p) ∧
    (∀ x < dim * nDofs, ∃! p, p < procs ∧ x ∈ vown p) ∧
    (∀ p, ∀ x ∈ vown p, x < dim * nDofs) ∧
    (∀ p, ∀ i < nDofs, ∀ k < dim, vecIndex (dim * nDofs) dim s2o vo2s i k ∈ vown p ↔ i ∈ own p) ∧
    ∀ p, (vown p).card = dim * (own p).card := by
  intro s2o own vown
  obtain ⟨c1, c2, c3, c4, c5, c6⟩ := C35_reordering nDofs dim hdim o2s vo2s ho hoi hv hvi
  have m1 : ∀ p i, i ∈ own p ↔ i < nDofs ∧ assoc i = p := fun p i => (mem_cpuSets _ _ _ _ _ _ p i).1
  have m2 : ∀ p x, x ∈ vown p ↔ ∃ i, i < nDofs ∧ assoc i = p ∧ ∃ k, k < dim ∧ x = vecIndex (dim * nDofs) dim s2o vo2s i k :=
    fun p x => (mem_cpuSets _ _ _ _ _ _ p x).2
  have hdiv : dim * nDofs / dim = nDofs := Nat.mul_div_cancel_left _ hdim
  -- every vector dof is a component of a scalar one
  have surj : ∀ x < dim * nDofs, ∃ i < nDofs, ∃ k < dim, x = vecIndex (dim * nDofs) dim s2o vo2s i k := by
    intro x hx
    obtain ⟨h1, h2⟩ := c4 x hx
    set y := (reorderingVectors nDofs (dim * nDofs) o2s vo2s).2 x with hy
    have hn : 0 < nDofs := by
      rcases Nat.eq_zero_or_pos nDofs with h | h
      · subst h; simp at hx
      · exact h
    refine ⟨o2s (y % nDofs), ho _ (Nat.mod_lt _ hn), y / nDofs, ?_, ?_⟩
    · rw [Nat.div_lt_iff_lt_mul hn]; exact h1
    · unfold vecIndex
      rw [hdiv]
      have : s2o (o2s (y % nDofs)) = y % nDofs := c1 _ (Nat.mod_lt _ hn)
      rw [this, Nat.div_add_mod, h2]
  refine ⟨m1, ?_, ?_, ?_, ?_, ?_⟩
  · intro i hi
    refine ⟨assoc i, ⟨ha i hi, (m1 _ _).2 ⟨hi, rfl⟩⟩, ?_⟩
    rintro p ⟨_, hp⟩
    exact ((m1 _ _).1 hp).2.symm
  · intro x hx
    obtain ⟨i, hi, k, hk, rfl⟩ := surj x hx
    refine ⟨assoc i, ⟨ha i hi, (m2 _ _).2 ⟨i, hi, rfl, k, hk, rfl⟩⟩, ?_⟩
    rintro p ⟨_, hp⟩
    obtain ⟨i', hi', ha', k', hk', h⟩ := (m2 _ _).1 hp
    rw [(c6 i hi k hk i' hi' k' hk' h).1, ha']
  · intro p x hx
    obtain ⟨i, hi, _, k, hk, rfl⟩ := (m2 _ _).1 hx
    exact c5 i hi k hk
  · intro p i hi k hk
    rw [m2, m1]
    constructor
    · rintro ⟨i', hi', ha', k', hk', h⟩
      rw [(c6 i hi k hk i' hi' k' hk' h).1]
      exact ⟨hi', ha'⟩
    · rintro ⟨_, ha'⟩
      exact ⟨i, hi, ha', k, hk, rfl⟩
  · intro p
    have : vown p = (own p ×ˢ Finset.range dim).image fun x => vecIndex (dim * nDofs) dim s2o vo2s x.1 x.2 := by
      ext x
      rw [m2, Finset.mem_image]
      constructor
      · rintro ⟨i, hi, ha', k, hk, rfl⟩
        exact ⟨(i, k), by simp [m1, hi, ha', hk], rfl⟩
      · rintro ⟨⟨i, k⟩, hik, rfl⟩
        rw [Finset.mem_product, m1, Finset.mem_range] at hik
        exact ⟨i, hik.1.1, hik.1.2, k, hik.2, rfl⟩
    rw [this, Finset.card_image_of_injOn, Finset.card_product, Finset.card_range, Nat.mul_comm]
    rintro ⟨i, k⟩ hik ⟨i', k'⟩ hik' h
    rw [Finset.mem_coe, Finset.mem_product, m1, Finset.mem_range] at hik hik'
    have := c6 i hik.1.1 k hik.2 i' hik'.1.1 k' hik'.2 h
    exact Prod.ext this.1 this.2

/-- three scalar dofs, two processes, reversed scalar and interleaved vector numbering -/
example : ∃ o2s vo2s assoc : ℕ → ℕ, (∀ i < 3, o2s i < 3) ∧ (∀ i < 3, ∀ j < 3, o2s i = o2s j → i = j) ∧
    (∀ i < 2 * 3, vo2s i < 2 * 3) ∧ (∀ i < 2 * 3, ∀ j < 2 * 3, vo2s i = vo2s j → i = j) ∧ (∀ i < 3, assoc i < 2) ∧
    (cpuSets 3 6 2 assoc (reorderingVectors 3 6 o2s vo2s).1 vo2s 0).2 = {2, 3, 4, 5} := by
  refine ⟨fun i => 2 - i, fun i => (i % 3) * 2 + i / 3, fun i => if i = 2 then 1 else 0, by decide, by decide,
    by decide, by decide, by decide, ?_⟩
  decide +kernel

/-- **C72**. The pattern of the dense matrices on a process has the full row of each dof of the process and nothing
else; every position belongs to the pattern of exactly one process. -/
theorem C72_full_pattern (nDofs nGrad dim procs : ℕ) (assoc s2o vo2s : ℕ → ℕ) (ha : ∀ i < nDofs, assoc i < procs)
    (i j : ℕ) :
    let pat := fun p => fullPattern nDofs (cpuSets nDofs nGrad dim assoc s2o vo2s p).1
    (∀ p, (i, j) ∈ pat p ↔ i < nDofs ∧ assoc i = p ∧ j < nDofs) ∧
    (i < nDofs → j < nDofs → ∃! p, p < procs ∧ (i, j) ∈ pat p) := by
  intro pat
  have key : ∀ (l : List ℕ) (P : Finset (ℕ × ℕ)),
      (i, j) ∈ l.foldl (fun P i => (List.range nDofs).foldl (fun P j => insert (i, j) P) P) P ↔
        (i, j) ∈ P ∨ i ∈ l ∧ j < nDofs := by
    intro l
    induction l with
    | nil => intro P; simp
    | cons a t ih =>
      intro P
      rw [List.foldl_cons, ih, mem_foldl_insert]
      simp only [List.mem_range, Prod.mk.injEq, List.mem_cons]
      constructor
      · rintro ((h | ⟨b, hb, rfl, rfl⟩) | ⟨h1, h2⟩)
        · exact Or.inl h
        · exact Or.inr ⟨Or.inl rfl, hb⟩
        · exact Or.inr ⟨Or.inr h1, h2⟩
      · rintro (h | ⟨rfl | h1, h2⟩)
        · exact Or.inl (Or.inl h)
        · exact Or.inl (Or.inr ⟨j, h2, rfl, rfl⟩)
        · exact Or.inr ⟨h1, h2⟩
  have m : ∀ p, (i, j) ∈ pat p ↔ i < nDofs ∧ assoc i = p ∧ j < nDofs := by
    intro p
    show (i, j) ∈ fullPattern _ _ ↔ _
    unfold fullPattern
    rw [key, Finset.mem_sort, (mem_cpuSets nDofs nGrad dim assoc s2o vo2s p i).1]
    simp [and_assoc]
  refine ⟨m, fun hi hj => ⟨assoc i, ⟨ha i hi, (m _).2 ⟨hi, rfl, hj⟩⟩, ?_⟩⟩
  rintro p ⟨_, hp⟩
  exact ((m _).1 hp).2.1.symm

example : (2, 1) ∈ fullPattern 3 (cpuSets 3 6 2 (fun i => i % 2) id id 0).1 := by
  exact ((C72_full_pattern 3 6 2 2 (fun i => i % 2) id id (by intro i _; exact Nat.mod_lt _ (by decide)) 2 1).1 0).2
    (by decide)

end PiBem.Bem
