import Verif.Bem.Processes
import Verif.Props.Ownership
import Verif.Props.Operator

/-!
# C90: ghost entries are sufficient; processes that own no dof
-/

noncomputable section

namespace PiBem.Bem

variable {nCells : ℕ} {sub : ℕ → ℕ} {dofs : ℕ → List ℕ}

/-- The subdomain of a dof is the lowest one of the cells it belongs to. -/
theorem associate_spec (nCells : ℕ) (sub : ℕ → ℕ) (dofs : ℕ → List ℕ) (i : ℕ) :
    (associate nCells sub dofs i = none ↔ ∀ c < nCells, i ∉ dofs c) ∧
    ∀ s, associate nCells sub dofs i = some s ↔
      (∃ c < nCells, i ∈ dofs c ∧ sub c = s) ∧ ∀ c < nCells, i ∈ dofs c → s ≤ sub c := by
  -- a dof belongs to a list of (subdomain, dof) pairs
  let step : (ℕ → Option ℕ) → ℕ → ℕ → ℕ → Option ℕ := fun a s i => Function.update a i (match a i with
    | none => some s
    | some s' => if s' > s then some s else some s')
  let P : Set ℕ → Option ℕ → Prop := fun S o => (o = none ↔ S = ∅) ∧ ∀ s, o = some s ↔ s ∈ S ∧ ∀ x ∈ S, s ≤ x
  have pstep : ∀ (S : Set ℕ) (o : Option ℕ) (s : ℕ), P S o → P (insert s S) (match o with
      | none => some s
      | some s' => if s' > s then some s else some s') := by
    intro S o s ⟨h1, h2⟩
    cases o with
    | none =>
      have hS : S = ∅ := h1.1 rfl
      subst hS
      refine ⟨by simp, fun t => ?_⟩
      constructor
      · intro h
        obtain rfl := Option.some.inj h
        simp
      · rintro ⟨h, -⟩
        simp at h
        rw [h]
    | some s' =>
      obtain ⟨m1, m2⟩ := (h2 s').1 rfl
      have hmin : (if s' > s then some s else some s') = some (min s s') := by
        split_ifs with h
        · rw [min_eq_left (by omega)]
        · rw [min_eq_right (by omega)]
      simp only [hmin]
      refine ⟨by simp [(Set.insert_nonempty s S).ne_empty], fun t => ?_⟩
      constructor
      · intro h
        obtain rfl := Option.some.inj h
        refine ⟨?_, ?_⟩
        · rcases le_total s s' with h | h
          · rw [min_eq_left h]; exact Set.mem_insert _ _
          · rw [min_eq_right h]; exact Set.mem_insert_of_mem _ m1
        · intro x hx
          rcases Set.mem_insert_iff.1 hx with rfl | hx
          · exact min_le_left _ _
          · exact (min_le_right _ _).trans (m2 x hx)
      · rintro ⟨ht, hl⟩
        congr 1
        apply le_antisymm
        · rcases Set.mem_insert_iff.1 ht with rfl | ht
          · exact min_le_left _ _
          · exact (min_le_right _ _).trans (m2 t ht)
        · exact le_min (hl s (Set.mem_insert _ _)) (hl s' (Set.mem_insert_of_mem _ m1))
  have inner : ∀ (l : List ℕ) (s : ℕ) (a : ℕ → Option ℕ) (S : Set ℕ), P S (a i) →
      P (if i ∈ l then insert s S else S) (l.foldl (fun a i => step a s i) a i) := by
    intro l s
    induction l with
    | nil => intro a S h; simpa using h
    | cons x l ih =>
      intro a S h
      rw [List.foldl_cons]
      by_cases hx : x = i
      · subst hx
        have := ih (step a s x) (insert s S) (by
          have := pstep S (a x) s h
          simpa [step] using this)
        simpa using this
      · have := ih (step a s x) S (by simpa [step, Function.update_of_ne (Ne.symm hx)] using h)
        simpa [Ne.symm hx] using this
  have outer : ∀ (l : List ℕ) (a : ℕ → Option ℕ) (S : Set ℕ), P S (a i) →
      P (S ∪ {s | ∃ c ∈ l, i ∈ dofs c ∧ sub c = s}) (l.foldl (fun a c => (dofs c).foldl (fun a i => step a (sub c) i) a) a i) := by
    intro l
    induction l with
    | nil => intro a S h; simpa using h
    | cons c l ih =>
      intro a S h
      rw [List.foldl_cons]
      have := ih _ _ (inner (dofs c) (sub c) a S h)
      convert this using 1
      ext t
      by_cases hc : i ∈ dofs c
      · simp only [hc, if_true, Set.mem_union, Set.mem_insert_iff, List.mem_cons, exists_eq_or_imp, true_and, Set.mem_ofPred_eq]
        constructor
        · rintro (h | rfl | h)
          · exact Or.inl (Or.inr h)
          · exact Or.inl (Or.inl rfl)
          · exact Or.inr h
        · rintro ((rfl | h) | h)
          · exact Or.inr (Or.inl rfl)
          · exact Or.inl h
          · exact Or.inr (Or.inr h)
      · simp [hc]
  have h := outer (List.range nCells) (fun _ => none) ∅ ⟨by simp, by simp⟩
  obtain ⟨h1, h2⟩ := h
  have key : ∀ s, s ∈ (∅ : Set ℕ) ∪ {s | ∃ c ∈ List.range nCells, i ∈ dofs c ∧ sub c = s} ↔ ∃ c < nCells, i ∈ dofs c ∧ sub c = s := by
    intro s
    simp
  refine ⟨?_, fun s => ?_⟩
  · refine (show associate nCells sub dofs i = none ↔ _ from h1).trans ?_
    rw [Set.eq_empty_iff_forall_notMem]
    constructor
    · intro h c hc hi
      exact h (sub c) ((key _).2 ⟨c, hc, hi, rfl⟩)
    · intro h s hs
      obtain ⟨c, hc, hi, -⟩ := (key s).1 hs
      exact h c hc hi
  · refine (show associate nCells sub dofs i = some s ↔ _ from h2 s).trans ?_
    rw [key]
    refine and_congr Iff.rfl ⟨fun h c hc hi => h _ ((key _).2 ⟨c, hc, hi, rfl⟩), fun h x hx => ?_⟩
    obtain ⟨c, hc, hi, rfl⟩ := (key x).1 hx
    exact h c hc hi

theorem mem_ghostedSet (nCells : ℕ) (sub : ℕ → ℕ) (dofs : ℕ → List ℕ) (p i : ℕ) :
    i ∈ ghostedSet nCells sub dofs p ↔ ∃ c < nCells, sub c = p ∧ i ∈ dofs c := by
  have inner : ∀ (l : List ℕ) (S : Finset ℕ), i ∈ l.foldl (fun S i => insert i S) S ↔ i ∈ S ∨ i ∈ l := by
    intro l
    induction l with
    | nil => simp
    | cons x l ih => intro S; rw [List.foldl_cons, ih]; simp only [Finset.mem_insert, List.mem_cons]; tauto
  have outer : ∀ (l : List ℕ) (S : Finset ℕ),
      i ∈ l.foldl (fun S c => if sub c = p then (dofs c).foldl (fun S i => insert i S) S else S) S ↔
        i ∈ S ∨ ∃ c ∈ l, sub c = p ∧ i ∈ dofs c := by
    intro l
    induction l with
    | nil => simp
    | cons c l ih =>
      intro S
      rw [List.foldl_cons, ih]
      split_ifs with h
      · rw [inner]; simp [h, or_assoc]
      · simp [h]
  have := outer (List.range nCells) ∅
  simpa [ghostedSet] using this

theorem mapM_ghosted (G : Finset ℕ) (x : ℕ → ℝ) (l : List ℕ) :
    l.mapM (ghosted G x) = if ∀ i ∈ l, i ∈ G then some (l.map x) else none := by
  induction l with
  | nil => simp
  | cons a l ih =>
    rw [List.mapM_cons, ih]
    by_cases ha : a ∈ G
    · by_cases hl : ∀ i ∈ l, i ∈ G
      · rw [if_pos hl, if_pos (by simpa [ha] using hl)]
        simp [ghosted, ha]
      · have : ¬ ∀ i ∈ a :: l, i ∈ G := fun h => hl fun i hi => h i (List.mem_cons_of_mem _ hi)
        rw [if_neg hl, if_neg this]
        simp [ghosted, ha]
    · have : ¬ ∀ i ∈ a :: l, i ∈ G := fun h => ha (h a List.mem_cons_self)
      rw [if_neg this]
      simp [ghosted, ha]

/-- **C90** (ghost entries). On the cells of a process, potentials, normal derivatives and their surface gradients are computed from entries the
process has and are the ones of the global vectors; without any single one of the ghost entries some cell of the process could
not be evaluated. -/
theorem C90_ghosts {d : ℕ} (nCells : ℕ) (cell : ℕ → Grad.Cell d) (p : ℕ) (x : ℕ → ℝ) :
    let G := ghostedSet nCells (fun c => (cell c).subdomain) (fun c => (cell c).sdofs) p
    (∀ c < nCells, (cell c).subdomain = p → ∀ q,
      readValues (cell c) (ghosted G x) q = some (Grad.scalarValue (cell c) x q) ∧
      readGradients (cell c) (ghosted G x) q = some (Grad.scalarGrad (cell c) x q)) ∧
    ∀ i ∈ G, ∃ c < nCells, (cell c).subdomain = p ∧ ∀ q, readValues (cell c) (ghosted (G.erase i) x) q = none ∧
      readGradients (cell c) (ghosted (G.erase i) x) q = none := by
  intro G
  have hG : ∀ i, i ∈ G ↔ ∃ c < nCells, (cell c).subdomain = p ∧ i ∈ (cell c).sdofs := mem_ghostedSet _ _ _ _
  have getD : ∀ (l : List ℕ) {j : ℕ}, j < l.length → (l.map x).getD j 0 = x (l.getD j 0) := by
    intro l j hj
    rw [List.getD_eq_getElem?_getD, List.getD_eq_getElem?_getD, List.getElem?_map, List.getElem?_eq_getElem hj]
    rfl
  constructor
  · intro c hc hp q
    have hall : ∀ i ∈ (cell c).sdofs, i ∈ G := fun i hi => (hG i).2 ⟨c, hc, hp, hi⟩
    unfold readValues readGradients Grad.scalarValue Grad.scalarGrad
    rw [mapM_ghosted, if_pos hall]
    constructor
    · rw [Option.map_some, Option.some.injEq]
      exact Finset.sum_congr rfl fun j hj => by rw [getD _ (Finset.mem_range.1 hj)]
    · rw [Option.map_some, Option.some.injEq]
      funext k
      exact Finset.sum_congr rfl fun j hj => by rw [getD _ (Finset.mem_range.1 hj)]
  · intro i hi
    obtain ⟨c, hc, hp, hic⟩ := (hG i).1 hi
    refine ⟨c, hc, hp, fun q => ?_⟩
    have : ¬ ∀ j ∈ (cell c).sdofs, j ∈ G.erase i := fun h => (Finset.mem_erase.1 (h i hic)).1 rfl
    unfold readValues readGradients
    rw [mapM_ghosted, if_neg this]
    exact ⟨rfl, rfl⟩

theorem nthIndexInSet_zero (s : Finset ℕ) : (nthIndexInSet s 0 = none ↔ s = ∅) ∧ ∀ f, nthIndexInSet s 0 = some f → f ∈ s := by
  unfold nthIndexInSet
  constructor
  · rw [List.getElem?_eq_none_iff, Finset.length_sort]
    simp
  · intro f hf
    exact (Finset.mem_sort _).1 (List.mem_of_getElem? hf)

theorem storeOn_spec (n : ℕ) (own : Finset ℕ) (dn sol phi dphi : ℕ → ℝ) :
    (storeOn n own dn sol phi dphi = none ↔ own = ∅) ∧
    ∀ r, storeOn n own dn sol phi dphi = some r →
      r = (fun i => if i < n ∧ i ∈ own ∧ dn i = 0 then sol i else phi i,
           fun i => if i < n ∧ i ∈ own ∧ dn i ≠ 0 then sol i else dphi i) := by
  have key : ∀ (l : List ℕ) (o : (ℕ → ℝ) × (ℕ → ℝ)), l.foldl (fun (o : (ℕ → ℝ) × (ℕ → ℝ)) i =>
      if i ∈ own then
        if dn i = 0 then (Function.update o.1 i (sol i), o.2) else (o.1, Function.update o.2 i (sol i))
      else o) o = (fun i => if i ∈ l ∧ i ∈ own ∧ dn i = 0 then sol i else o.1 i,
           fun i => if i ∈ l ∧ i ∈ own ∧ dn i ≠ 0 then sol i else o.2 i) := by
    intro l
    induction l with
    | nil => intro o; simp
    | cons a l ih =>
      intro o
      rw [List.foldl_cons, ih]
      ext i
      · dsimp only
        by_cases ha : a ∈ own <;> by_cases hd : dn a = 0 <;> by_cases hi : i = a
        all_goals (try subst hi)
        all_goals simp_all
      · dsimp only
        by_cases ha : a ∈ own <;> by_cases hd : dn a = 0 <;> by_cases hi : i = a
        all_goals (try subst hi)
        all_goals simp_all
  constructor
  · unfold storeOn
    rw [Option.map_eq_none_iff]
    exact (nthIndexInSet_zero own).1
  · intro r hr
    unfold storeOn at hr
    obtain ⟨f, -, rfl⟩ := Option.map_eq_some_iff.1 hr
    rw [key]
    simp [Function.update_eq_self]

theorem mem_ownedBy {n nGrad dim : ℕ} {s2o vo2s : ℕ → ℕ} (cover : ∀ i < n, ∃ c < nCells, i ∈ dofs c) (p i : ℕ) :
    i ∈ ownedBy n nGrad dim nCells sub dofs s2o vo2s p ↔
      i < n ∧ (∃ c < nCells, i ∈ dofs c ∧ sub c = p) ∧ ∀ c < nCells, i ∈ dofs c → p ≤ sub c := by
  unfold ownedBy
  rw [(mem_cpuSets _ _ _ _ _ _ p i).1]
  refine and_congr_right fun hi => ?_
  obtain ⟨c, hc, hic⟩ := cover i hi
  rw [← (associate_spec nCells sub dofs i).2]
  cases h : associate nCells sub dofs i with
  | none => exact absurd hic ((associate_spec nCells sub dofs i).1.1 h c hc)
  | some s => simp

/-- **C90** (storing the solution). `solve_system` ends without accessing an element of an empty set on process `p` iff some dof of the cells of `p`
is on no cell of a process with a lower number. In this case the process stores at its dofs what the serial program stores, and changes nothing else. -/
theorem C90_store {n nGrad dim : ℕ} {s2o vo2s : ℕ → ℕ} (cover : ∀ i < n, ∃ c < nCells, i ∈ dofs c)
    (range : ∀ c < nCells, ∀ i ∈ dofs c, i < n) (p : ℕ) (dn sol phi dphi : ℕ → ℝ) :
    let own := ownedBy n nGrad dim nCells sub dofs s2o vo2s p
    ((storeOn n own dn sol phi dphi).isSome ↔
      ∃ c < nCells, sub c = p ∧ ∃ i ∈ dofs c, ∀ c' < nCells, i ∈ dofs c' → p ≤ sub c') ∧
    ∀ r, storeOn n own dn sol phi dphi = some r →
      (∀ i : Fin n, (i : ℕ) ∈ own → (r.1 i, r.2 i) =
        ((storeSolution (fun i : Fin n => dn i) (fun i => sol i) (fun i => phi i) (fun i => dphi i)).1 i,
         (storeSolution (fun i : Fin n => dn i) (fun i => sol i) (fun i => phi i) (fun i => dphi i)).2 i)) ∧
      ∀ i, i ∉ own → (r.1 i, r.2 i) = (phi i, dphi i) := by
  intro own
  obtain ⟨h1, h2⟩ := storeOn_spec n own dn sol phi dphi
  constructor
  · rw [← Option.ne_none_iff_isSome, ne_eq, h1, ← ne_eq, ← Finset.nonempty_iff_ne_empty]
    constructor
    · rintro ⟨i, hi⟩
      obtain ⟨-, ⟨c, hc, hic, hp⟩, hmin⟩ := (mem_ownedBy cover p i).1 hi
      exact ⟨c, hc, hp, i, hic, hmin⟩
    · rintro ⟨c, hc, hp, i, hic, hmin⟩
      exact ⟨i, (mem_ownedBy cover p i).2 ⟨range c hc i hic, ⟨c, hc, hic, hp⟩, hmin⟩⟩
  · intro r hr
    have hr := h2 r hr
    subst hr
    constructor
    · intro i hi
      rw [storeSolution_eq]
      simp only [i.isLt, hi, true_and]
      by_cases h : dn i = 0 <;> simp [h]
    · intro i hi
      simp [hi]

/-- **C90** (too many processes). On more processes than dofs, `solve_system` accesses an element of an empty set on some process, for any
partition of the cells. -/
theorem C90_too_many_processes {n nGrad dim procs : ℕ} {s2o vo2s : ℕ → ℕ} (cover : ∀ i < n, ∃ c < nCells, i ∈ dofs c)
    (hn : n < procs) (dn sol phi dphi : ℕ → ℕ → ℝ) :
    ∃ p < procs, storeOn n (ownedBy n nGrad dim nCells sub dofs s2o vo2s p) (dn p) (sol p) (phi p) (dphi p) = none := by
  by_contra hcon
  push Not at hcon
  have hne : ∀ p < procs, ∃ i, i ∈ ownedBy n nGrad dim nCells sub dofs s2o vo2s p := by
    intro p hp
    have := hcon p hp
    rw [ne_eq, (storeOn_spec n _ _ _ _ _).1, ← ne_eq, ← Finset.nonempty_iff_ne_empty] at this
    exact this
  choose! f hf using hne
  have hlt : ∀ p ∈ Finset.range procs, f p ∈ Finset.range n := fun p hp =>
    Finset.mem_range.2 ((mem_ownedBy cover p _).1 (hf p (Finset.mem_range.1 hp))).1
  obtain ⟨p, hp, p', hp', hne, he⟩ := Finset.exists_ne_map_eq_of_card_lt_of_maps_to (by simpa using hn) hlt
  have a := (mem_ownedBy cover p _).1 (hf p (Finset.mem_range.1 hp))
  have b := (mem_ownedBy cover p' _).1 (hf p' (Finset.mem_range.1 hp'))
  rw [he] at a
  obtain ⟨-, ⟨c, hc, hic, rfl⟩, ha⟩ := a
  obtain ⟨-, ⟨c', hc', hic', rfl⟩, hb⟩ := b
  exact hne (le_antisymm (ha c' hc' hic') (hb c hc hic))

/-- A closed curve of `m + 2` cells with linear elements, all on process 0 except for one on process 1: for any length of the curve process 1, which has a cell,
owns no dof. -/
theorem C90_cell_without_dofs (m : ℕ) {nGrad dim : ℕ} {s2o vo2s : ℕ → ℕ} (dn sol phi dphi : ℕ → ℝ) :
    storeOn (m + 2) (ownedBy (m + 2) nGrad dim (m + 2) (fun c => if c = 1 then 1 else 0) (fun c => [c, (c + 1) % (m + 2)]) s2o vo2s 1)
      dn sol phi dphi = none := by
  have cover : ∀ i < m + 2, ∃ c < m + 2, i ∈ [c, (c + 1) % (m + 2)] := fun i hi => ⟨i, hi, by simp⟩
  have range : ∀ c < m + 2, ∀ i ∈ [c, (c + 1) % (m + 2)], i < m + 2 := by
    intro c hc i hi
    simp only [List.mem_cons, List.not_mem_nil, or_false] at hi
    rcases hi with rfl | rfl
    · exact hc
    · exact Nat.mod_lt _ (by omega)
  rw [← Option.not_isSome_iff_eq_none,
    (C90_store (sub := fun c => if c = 1 then 1 else 0) (dofs := fun c => [c, (c + 1) % (m + 2)]) cover range 1 dn sol phi dphi).1]
  rintro ⟨c, hc, hp, i, hi, hmin⟩
  have hc1 : c = 1 := by by_contra h; simp [h] at hp
  subst hc1
  have h0 := hmin 0 (by omega)
  have h2 := hmin (2 % (m + 2)) (Nat.mod_lt _ (by omega))
  simp only [List.mem_cons, List.not_mem_nil, or_false] at hi h0 h2
  have e1 : (0 + 1) % (m + 2) = 1 := Nat.mod_eq_of_lt (by omega)
  rcases hi with rfl | rfl
  · exact absurd (h0 (by rw [e1]; simp)) (by simp)
  · have := h2 (Or.inl rfl)
    rcases Nat.eq_zero_or_pos m with rfl | hm
    · simp at this
    · rw [Nat.mod_eq_of_lt (by omega : 2 < m + 2)] at this
      simp at this

/-- Three cells on two processes: process 0 owns dofs 0, 1, 2 and process 1 owns dof 3. -/
example : let own := ownedBy 4 8 2 3 (fun c => if c = 2 then 1 else 0) (fun c => [c, c + 1]) id id
    (∀ i < 4, ∃ c < 3, i ∈ [c, c + 1]) ∧ 2 ∈ own 0 ∧ 3 ∈ own 1 ∧ 2 ∉ own 1 := by
  intro own
  have cover : ∀ i < 4, ∃ c < 3, i ∈ [c, c + 1] := by
    intro i hi
    rcases Nat.lt_or_ge i 3 with h | h
    · exact ⟨i, h, by simp⟩
    · exact ⟨2, by omega, by simp; omega⟩
  refine ⟨cover, (mem_ownedBy cover 0 2).2 ⟨by omega, ⟨1, by omega, by simp, by simp⟩, by simp⟩,
    (mem_ownedBy cover 1 3).2 ⟨by omega, ⟨2, by omega, by simp, by simp⟩, ?_⟩, fun h => ?_⟩
  · intro c hc h
    simp at h
    have : c = 2 := by omega
    simp [this]
  · exact absurd (((mem_ownedBy cover 1 2).1 h).2.2 1 (by omega) (by simp)) (by simp)

end PiBem.Bem
