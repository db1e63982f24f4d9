import Verif.Props.Block

/-!
# C48: what a block holds after a history of calls
-/

namespace PiBem.Block

variable {P C : Type}

theorem run_append (b : Obj P C) (l m : List (Op C)) : run b (l ++ m) =
    match run b l with | .ok b' => run b' m | .throws => .throws | .undef => .undef := by
  induction l generalizing b with
  | nil => rfl
  | cons o l ih =>
    simp only [List.cons_append, run]
    cases step b o with
    | ok b' => exact ih b'
    | throws => rfl
    | undef => rfl

theorem mem_resize {l : List (Finset ℕ)} {n sub x : ℕ} :
    (∃ s, (resize l n)[sub]? = some s ∧ x ∈ s) ↔ sub < n ∧ ∃ s, l[sub]? = some s ∧ x ∈ s := by
  unfold resize
  by_cases h : sub < (l.take n).length
  · rw [List.getElem?_append_left h, List.getElem?_take_of_lt (by simp at h; omega)]
    have : sub < n := by simp at h; omega
    simp [this]
  · rw [List.getElem?_append_right (by omega), List.getElem?_replicate]
    constructor
    · rintro ⟨s, hs, hx⟩
      split_ifs at hs
      cases hs
      simp at hx
    · rintro ⟨hn, s, hs, hx⟩
      have := (List.getElem?_eq_some_iff.1 hs).1
      simp at h
      omega

theorem length_resize (l : List (Finset ℕ)) (n : ℕ) : (resize l n).length = n := by
  simp [resize]
  omega

theorem mem_insertAt {l l' : List (Finset ℕ)} {sub b : ℕ} (h : insertAt l sub b = some l') (sub' x : ℕ) :
    (∃ s, l'[sub']? = some s ∧ x ∈ s) ↔ (∃ s, l[sub']? = some s ∧ x ∈ s) ∨ (sub' = sub ∧ x = b) := by
  unfold insertAt at h
  cases hs : l[sub]? with
  | none => rw [hs] at h; cases h
  | some s =>
    rw [hs] at h
    cases h
    have hlt := (List.getElem?_eq_some_iff.1 hs).1
    rw [List.getElem?_set]
    by_cases e : sub = sub'
    · subst e
      simp only [if_true, hlt, Option.some.injEq, exists_eq_left', Finset.mem_insert, hs, true_and]
      exact or_comm
    · simp [e, Ne.symm e]

theorem length_insertAt {l l' : List (Finset ℕ)} {sub b : ℕ} (h : insertAt l sub b = some l') : l'.length = l.length := by
  unfold insertAt at h
  cases hs : l[sub]? with
  | none => rw [hs] at h; cases h
  | some s => rw [hs] at h; cases h; simp

/-- What a list of sets contains after the calls `l` that add (`add`) and resize (`set`): at `sub` the ids added
at `sub`, except those added before the size was set to `sub` or less. -/
def Lists (add : ℕ → ℕ → Op C) (set : ℕ → Op C) (l : List (Op C)) (v : List (Finset ℕ)) : Prop :=
  (∀ sub x, (∃ s, getAt v sub = .ok s ∧ x ∈ s) ↔ ∃ l₁ l₂, l = l₁ ++ add sub x :: l₂ ∧ ∀ n, set n ∈ l₂ → sub < n) ∧
  (∀ sub, (∃ s, getAt v sub = .ok s) ∨ getAt v sub = .throws) ∧
  (∀ sub, (∃ s, getAt v sub = .ok s) ↔ sub < v.length) ∧
  (((∀ n, set n ∉ l) ∧ v.length = 1) ∨ ∃ l₁ n l₂, l = l₁ ++ set n :: l₂ ∧ (∀ n, set n ∉ l₂) ∧ v.length = n)

theorem getAt_ok {v : List (Finset ℕ)} {sub : ℕ} {s : Finset ℕ} : getAt v sub = .ok s ↔ v[sub]? = some s := by
  unfold getAt
  cases v[sub]? <;> simp

theorem lists_gen (proj : Obj P C → List (Finset ℕ)) (add : ℕ → ℕ → Op C) (set : ℕ → Op C)
    (hadd : ∀ b b' sub x, step b (add sub x) = .ok b' → insertAt (proj b) sub x = some (proj b'))
    (hset : ∀ b b' n, step b (set n) = .ok b' → proj b' = resize (proj b) n)
    (hother : ∀ b b' o, (∀ sub x, o ≠ add sub x) → (∀ n, o ≠ set n) → step b o = .ok b' → proj b' = proj b)
    (hinj : ∀ s x s' x', add s x = add s' x' ↔ s = s' ∧ x = x') (hseti : ∀ n n', set n = set n' ↔ n = n')
    (hne : ∀ s x n, add s x ≠ set n) (b₀ : Obj P C) (h0 : proj b₀ = [∅]) (l : List (Op C)) (b : Obj P C)
    (h : run b₀ l = .ok b) : Lists add set l (proj b) := by
  suffices H : (∀ sub x, (∃ s, (proj b)[sub]? = some s ∧ x ∈ s) ↔
      ∃ l₁ l₂, l = l₁ ++ add sub x :: l₂ ∧ ∀ n, set n ∈ l₂ → sub < n) ∧
      (((∀ n, set n ∉ l) ∧ (proj b).length = 1) ∨
        ∃ l₁ n l₂, l = l₁ ++ set n :: l₂ ∧ (∀ n, set n ∉ l₂) ∧ (proj b).length = n) by
    refine ⟨by simpa only [getAt_ok] using H.1, fun sub => ?_, fun sub => ?_, H.2⟩
    · unfold getAt
      cases (proj b)[sub]? <;> simp
    · simp only [getAt_ok]
      exact ⟨fun ⟨s, hs⟩ => (List.getElem?_eq_some_iff.1 hs).1, fun hs => ⟨_, List.getElem?_eq_getElem hs⟩⟩
  induction l using List.reverseRecOn generalizing b with
  | nil =>
    cases h
    rw [h0]
    refine ⟨fun sub x => ?_, Or.inl ⟨by simp, rfl⟩⟩
    constructor
    · rintro ⟨s, hs, hx⟩
      cases sub with
      | zero => cases hs; simp at hx
      | succ k => simp at hs
    · rintro ⟨l₁, l₂, e, -⟩
      simp at e
  | append_singleton l o ih =>
    rw [run_append] at h
    cases hr : run b₀ l with
    | throws => rw [hr] at h; cases h
    | undef => rw [hr] at h; cases h
    | ok b' =>
      rw [hr] at h
      simp only [run] at h
      have hstep : step b' o = .ok b := by
        cases hs : step b' o with
        | ok c => rw [hs] at h; exact h
        | throws => rw [hs] at h; cases h
        | undef => rw [hs] at h; cases h
      obtain ⟨ih1, ih2⟩ := ih b' hr
      have hsplit : ∀ sub x, (∃ l₁ l₂, l ++ [o] = l₁ ++ add sub x :: l₂ ∧ ∀ n, set n ∈ l₂ → sub < n) ↔
          ((∃ l₁ l₂, l = l₁ ++ add sub x :: l₂ ∧ ∀ n, set n ∈ l₂ → sub < n) ∧ ∀ n, o = set n → sub < n) ∨ o = add sub x := by
        intro sub x
        constructor
        · rintro ⟨l₁, l₂, e, hl⟩
          rcases List.eq_nil_or_concat' l₂ with rfl | ⟨l₃, o', rfl⟩
          · right
            exact (List.append_inj' e rfl).2 |> fun h => by simpa using h
          · left
            have e' : l ++ [o] = (l₁ ++ add sub x :: l₃) ++ [o'] := by rw [e]; simp
            obtain ⟨e1, e2⟩ := List.append_inj' e' rfl
            simp only [List.cons.injEq, and_true] at e2
            subst e2
            exact ⟨⟨l₁, l₃, e1, fun n hn => hl n (by simp [hn])⟩, fun n hn => hl n (by simp [hn])⟩
        · rintro (⟨⟨l₁, l₂, rfl, hl⟩, ho⟩ | rfl)
          · refine ⟨l₁, l₂ ++ [o], by simp, fun n hn => ?_⟩
            rcases List.mem_append.1 hn with hn | hn
            · exact hl n hn
            · exact ho n (List.mem_singleton.1 hn).symm
          · exact ⟨l, [], rfl, by simp⟩
      have hkeep : (∀ n, o ≠ set n) → (proj b).length = (proj b').length →
          (((∀ n, set n ∉ l ++ [o]) ∧ (proj b).length = 1) ∨
            ∃ l₁ n l₂, l ++ [o] = l₁ ++ set n :: l₂ ∧ (∀ n, set n ∉ l₂) ∧ (proj b).length = n) := by
        intro ho hlen
        rw [hlen]
        rcases ih2 with ⟨i1, i2⟩ | ⟨l₁, n, l₂, rfl, i1, i2⟩
        · left
          exact ⟨fun n => by simp [i1 n, Ne.symm (ho n)], i2⟩
        · right
          exact ⟨l₁, n, l₂ ++ [o], by simp, fun n => by simp [i1 n, Ne.symm (ho n)], i2⟩
      simp_rw [hsplit]
      by_cases h1 : ∃ s y, o = add s y
      · obtain ⟨s, y, rfl⟩ := h1
        have hi := hadd _ _ _ _ hstep
        refine ⟨fun sub x => ?_, hkeep (hne s y) (length_insertAt hi)⟩
        rw [mem_insertAt hi, ih1, hinj]
        have : (∀ n, add s y = set n → sub < n) := fun n hn => absurd hn (hne s y n)
        rw [and_iff_left this]
        exact or_congr Iff.rfl ⟨fun h => ⟨h.1.symm, h.2.symm⟩, fun h => ⟨h.1.symm, h.2.symm⟩⟩
      · push Not at h1
        by_cases h2 : ∃ n, o = set n
        · obtain ⟨n, rfl⟩ := h2
          have hi := hset _ _ _ hstep
          rw [hi]
          refine ⟨fun sub x => ?_, Or.inr ⟨l, n, [], rfl, by simp, length_resize _ _⟩⟩
          rw [mem_resize, ih1]
          simp only [hseti, (hne sub x n).symm, or_false]
          exact ⟨fun ⟨a, b⟩ => ⟨b, fun m hm => hm ▸ a⟩, fun ⟨a, b⟩ => ⟨b n rfl, a⟩⟩
        · push Not at h2
          have hi := hother _ _ _ h1 h2 hstep
          rw [hi] at hkeep ⊢
          refine ⟨fun sub x => ?_, hkeep h2 rfl⟩
          rw [ih1]
          simp [h1, h2]

/-- **C48**, lists. After every history of calls on a new block, the lists of near neighbours, of the interaction list and of
the non interaction list hold, at every sublevel, exactly the blocks inserted there and not dropped by a later smaller size;
other sublevels throw. -/
theorem C48_lists (level parent : ℕ) (pMin : P) (delta : ℝ) (l : List (Op C)) (b : Obj P C)
    (h : run (fresh level parent pMin delta) l = .ok b) :
    Lists Op.addNear Op.setNear l b.near ∧ Lists Op.addInt Op.setInt l b.inter ∧
    Lists Op.addNonInt Op.setNonInt l b.nonInter := by
  refine ⟨lists_gen (fun b => b.near) _ _ ?_ ?_ ?_ ?_ ?_ ?_ _ rfl l b h, lists_gen (fun b => b.inter) _ _ ?_ ?_ ?_ ?_ ?_ ?_ _ rfl l b h,
    lists_gen (fun b => b.nonInter) _ _ ?_ ?_ ?_ ?_ ?_ ?_ _ rfl l b h⟩
  all_goals first
    | (intro b b' sub x hs
       simp only [step] at hs
       split at hs
       · rename_i l hl
         cases hs
         exact hl
       · cases hs)
    | (intro b b' n hs; simp only [step] at hs; cases hs; rfl)
    | (intro b b' o h1 h2 hs
       cases o <;> simp only [step] at hs <;> first
         | (exact absurd rfl (h1 _ _))
         | (exact absurd rfl (h2 _))
         | (cases hs; rfl)
         | (split at hs <;> cases hs; rfl))
    | (intros; simp)

/-- **C48**, lists: adding at a sublevel that does not exist throws. -/
theorem C48_lists_throw (b : Obj P C) (sub x : ℕ) :
    (step b (.addNear sub x) = .throws ↔ b.near.length ≤ sub) ∧ (step b (.addInt sub x) = .throws ↔ b.inter.length ≤ sub) ∧
    (step b (.addNonInt sub x) = .throws ↔ b.nonInter.length ≤ sub) := by
  have key : ∀ l : List (Finset ℕ), insertAt l sub x = none ↔ l.length ≤ sub := by
    intro l
    unfold insertAt
    cases hs : l[sub]? with
    | none => simpa using hs
    | some s => have := (List.getElem?_eq_some_iff.1 hs).1; simp; omega
  simp only [← key]
  refine ⟨?_, ?_, ?_⟩ <;> simp only [step] <;> split <;> simp_all

/-- The node of a call `AddNode`. -/
def nodeOf : Op C → Option ℕ | .addNode n => some n | _ => none

open Classical in
/-- The quadrature point of a call `AddQuadPoint` for the cell `c`. -/
noncomputable def quadOf (c : C) : Op C → Option ℕ | .addQuad c' q => if c' = c then some q else none | _ => none

theorem run_nodes (l : List (Op C)) (h : Op.delNodes ∉ l) (b b' : Obj P C) (hr : run b l = .ok b') :
    b'.nodes = b.nodes ++ l.filterMap nodeOf := by
  induction l generalizing b with
  | nil => cases hr; simp
  | cons o l ih =>
    simp only [run] at hr
    simp only [List.mem_cons, not_or] at h
    cases hs : step b o with
    | throws => rw [hs] at hr; cases hr
    | undef => rw [hs] at hr; cases hr
    | ok b₁ =>
      rw [hs] at hr
      rw [ih h.2 b₁ hr]
      cases o <;> simp only [step] at hs <;> first
        | exact absurd rfl h.1
        | (cases hs; simp [nodeOf, List.filterMap_cons])
        | (split at hs <;> cases hs; simp [nodeOf, List.filterMap_cons])

theorem run_quads (c : C) (l : List (Op C)) (h : Op.delQuads ∉ l) (b b' : Obj P C) (hr : run b l = .ok b') :
    (b'.quads c).getD [] = (b.quads c).getD [] ++ l.filterMap (quadOf c) ∧
    ((b'.quads c).isSome ↔ (b.quads c).isSome ∨ l.filterMap (quadOf c) ≠ []) := by
  induction l generalizing b with
  | nil => cases hr; simp
  | cons o l ih =>
    simp only [run] at hr
    simp only [List.mem_cons, not_or] at h
    cases hs : step b o with
    | throws => rw [hs] at hr; cases hr
    | undef => rw [hs] at hr; cases hr
    | ok b₁ =>
      rw [hs] at hr
      obtain ⟨i1, i2⟩ := ih h.2 b₁ hr
      rw [i1, i2]
      cases o with
      | addQuad c' q =>
        simp only [step] at hs
        cases hs
        by_cases e : c' = c
        · subst e
          simp [quadOf]
        · simp [quadOf, e, Function.update, Ne.symm e]
      | delQuads => exact absurd rfl h.1
      | _ =>
        simp only [step] at hs
        first
          | (cases hs; simp [quadOf, List.filterMap_cons])
          | (split at hs <;> cases hs; simp [quadOf, List.filterMap_cons])

/-- **C48**, contents. After every history of calls on a new block, the block holds the nodes added since the last
deletion, in order, and for every cell the quadrature points added since the last deletion, in order. -/
theorem C48_contents (level parent : ℕ) (pMin : P) (delta : ℝ) (l₁ l₂ : List (Op C)) (b : Obj P C)
    (h : run (fresh level parent pMin delta) (l₁ ++ l₂) = .ok b) :
    (l₁ = [] ∨ (∃ l, l₁ = l ++ [.delNodes])) → Op.delNodes ∉ l₂ → b.nodes = l₂.filterMap nodeOf := by
  intro h1 h2
  rw [run_append] at h
  cases hr : run (fresh level parent pMin delta) l₁ with
  | throws => rw [hr] at h; cases h
  | undef => rw [hr] at h; cases h
  | ok b₁ =>
    rw [hr] at h
    rw [run_nodes l₂ h2 b₁ b h]
    rcases h1 with rfl | ⟨l, rfl⟩
    · cases hr; rfl
    · rw [run_append] at hr
      cases hr' : run (fresh level parent pMin delta) l with
      | throws => rw [hr'] at hr; cases hr
      | undef => rw [hr'] at hr; cases hr
      | ok b₂ => rw [hr'] at hr; cases hr; rfl

/-- **C48**, quadrature points. -/
theorem C48_quads (level parent : ℕ) (pMin : P) (delta : ℝ) (l₁ l₂ : List (Op C)) (b : Obj P C)
    (h : run (fresh level parent pMin delta) (l₁ ++ l₂) = .ok b) (c : C) :
    (l₁ = [] ∨ (∃ l, l₁ = l ++ [.delQuads])) → Op.delQuads ∉ l₂ →
      (b.quads c).getD [] = l₂.filterMap (quadOf c) ∧ (b.quads c = none ↔ l₂.filterMap (quadOf c) = []) := by
  intro h1 h2
  rw [run_append] at h
  cases hr : run (fresh level parent pMin delta) l₁ with
  | throws => rw [hr] at h; cases h
  | undef => rw [hr] at h; cases h
  | ok b₁ =>
    rw [hr] at h
    obtain ⟨e1, e2⟩ := run_quads c l₂ h2 b₁ b h
    have h0 : b₁.quads c = none := by
      rcases h1 with rfl | ⟨l, rfl⟩
      · cases hr; rfl
      · rw [run_append] at hr
        cases hr' : run (fresh level parent pMin delta) l with
        | throws => rw [hr'] at hr; cases hr
        | undef => rw [hr'] at hr; cases hr
        | ok b₂ => rw [hr'] at hr; cases hr; rfl
    rw [h0] at e1 e2
    refine ⟨by simpa using e1, ?_⟩
    rw [← Option.not_isSome_iff_eq_none, e2]
    simp

/-- Non-vacuity: a history in which a neighbour is dropped by a smaller size and a node is deleted. -/
example : ∃ b : Obj ℕ ℕ, run (fresh 0 0 0 1) [.addNode 4, .setNear 3, .addNear 2 7, .addNear 0 8, .delNodes, .setNear 1, .addNode 5, .setNear 3] = .ok b ∧
    b.nodes = [5] ∧ b.near = [{8}, ∅, ∅] :=
  ⟨_, rfl, rfl, rfl⟩

end PiBem.Block
