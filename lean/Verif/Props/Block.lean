import Verif.Octree.Block

/-!
# C48: copies of octree blocks
-/

namespace PiBem.Block

variable {P C : Type}

/-- Two blocks cannot be told apart by the reading member functions: level, parent, geometry, nodes, quadrature points, the
three families of lists, the number of children and their ids. -/
structure Same (a b : Obj P C) : Prop where
  level : a.level = b.level
  parent : a.parent = b.parent
  pMin : a.pMin = b.pMin
  delta : a.delta = b.delta
  nodes : a.nodes = b.nodes
  quads : a.quads = b.quads
  near : a.near = b.near
  inter : a.inter = b.inter
  nonInter : a.nonInter = b.nonInter
  numChildren : a.numChildren = b.numChildren
  children : ∀ i < a.numChildren, getChildId a i = getChildId b i

/-- Same outcome, and indistinguishable blocks if there is one. -/
def SameRes : Res (Obj P C) → Res (Obj P C) → Prop
  | .ok a, .ok b => Same a b
  | .throws, .throws => True
  | .undef, .undef => True
  | _, _ => False

/-- Blocks that exist during a program: created by a constructor and modified by member functions without undefined
behaviour. -/
def Reach (b : Obj P C) : Prop :=
  ∃ level parent pMin delta ops, run (fresh level parent pMin delta) ops = .ok b

theorem step_inv (b b' : Obj P C) (o : Op C) (h : step b o = .ok b')
    (hb : b.numChildren ≤ 8 ∧ ∀ i < b.numChildren, ∃ c, b.children i = some c) :
    b'.numChildren ≤ 8 ∧ ∀ i < b'.numChildren, ∃ c, b'.children i = some c := by
  cases o with
  | addChild c =>
    simp only [step] at h
    split_ifs at h with h8
    rw [Res.ok.injEq] at h
    subst h
    refine ⟨h8, fun i hi => ?_⟩
    by_cases e : i = b.numChildren
    · subst e; exact ⟨c, by simp⟩
    · simp only [Function.update_of_ne e]
      exact hb.2 i (by simp at hi; omega)
  | addNear s x => simp only [step] at h; split at h <;> simp at h; subst h; exact hb
  | addInt s x => simp only [step] at h; split at h <;> simp at h; subst h; exact hb
  | addNonInt s x => simp only [step] at h; split at h <;> simp at h; subst h; exact hb
  | _ => simp only [step, Res.ok.injEq] at h; subst h; exact hb

theorem run_inv (ops : List (Op C)) (b b' : Obj P C) (h : run b ops = .ok b')
    (hb : b.numChildren ≤ 8 ∧ ∀ i < b.numChildren, ∃ c, b.children i = some c) :
    b'.numChildren ≤ 8 ∧ ∀ i < b'.numChildren, ∃ c, b'.children i = some c := by
  induction ops generalizing b with
  | nil => simp [run] at h; subst h; exact hb
  | cons o l ih =>
    simp only [run] at h
    split at h
    · rename_i b1 h1
      exact ih b1 h (step_inv b b1 o h1 hb)
    · simp at h
    · simp at h

/-- In every block of a program there are at most 8 children and their ids can be read. -/
theorem reach_inv (b : Obj P C) (h : Reach b) :
    b.numChildren ≤ 8 ∧ ∀ i < b.numChildren, ∃ c, getChildId b i = .ok c := by
  obtain ⟨l, p, m, d, ops, h⟩ := h
  have := run_inv ops _ b h ⟨by simp [fresh], by simp [fresh]⟩
  refine ⟨this.1, fun i hi => ?_⟩
  obtain ⟨c, hc⟩ := this.2 i hi
  refine ⟨c, ?_⟩
  rw [getChildId, if_pos (by omega), hc]

theorem copyChildren_spec (dst src : ℕ → Option ℕ) (n : ℕ) (hn : n ≤ 8) :
    copyChildren dst src n = .ok (fun i => if i < n then src i else dst i) := by
  induction n with
  | zero => simp [copyChildren]
  | succ n ih =>
    simp only [copyChildren, ih (by omega)]
    rw [if_pos (by omega), Res.ok.injEq]
    funext i
    by_cases h : i = n
    · subst h; simp
    · rw [Function.update_of_ne h]
      by_cases h2 : i < n
      · rw [if_pos h2, if_pos (by omega)]
      · rw [if_neg h2, if_neg (by omega)]

theorem copyNodes_spec (dst src : List ℕ) : copyNodes dst src = dst ++ src := by
  unfold copyNodes
  induction src generalizing dst with
  | nil => simp
  | cons a l ih => rw [List.foldl_cons, ih]; simp

/-- **C48**, copy constructor. Every block of a program is copied without undefined behaviour and the copy cannot be told
apart from the original; moreover every later sequence of calls has the same outcome on both. -/
theorem C48_copy_constructor (b : Obj P C) (h : Reach b) :
    ∃ b', copyCtor b = .ok b' ∧ Same b' b ∧ ∀ ops, SameRes (run b' ops) (run b ops) := by
  have key : ∀ ops (a b : Obj P C), Same a b → SameRes (run a ops) (run b ops) := by
    intro ops
    induction ops with
    | nil => intro a b hab; exact hab
    | cons o l ih =>
      intro a b hab
      have hstep : SameRes (step a o) (step b o) := by
        obtain ⟨h1, h2, h3, h4, h5, h6, h7, h8, h9, h10, h11⟩ := hab
        cases o with
        | addChild c =>
          simp only [step]
          by_cases h : a.numChildren < 8
          · rw [if_pos h, if_pos (h10 ▸ h)]
            refine ⟨h1, h2, h3, h4, h5, h6, h7, h8, h9, by simp [h10], fun i hi => ?_⟩
            simp only [getChildId]
            by_cases e : i = a.numChildren
            · rw [← h10, e]; simp
            · rw [Function.update_of_ne e, Function.update_of_ne (h10 ▸ e)]
              exact h11 i (by simp at hi; omega)
          · rw [if_neg h, if_neg (h10 ▸ h)]; trivial
        | addNear s x =>
          simp only [step, h7]
          split
          · exact ⟨h1, h2, h3, h4, h5, h6, rfl, h8, h9, h10, h11⟩
          · trivial
        | addInt s x =>
          simp only [step, h8]
          split
          · exact ⟨h1, h2, h3, h4, h5, h6, h7, rfl, h9, h10, h11⟩
          · trivial
        | addNonInt s x =>
          simp only [step, h9]
          split
          · exact ⟨h1, h2, h3, h4, h5, h6, h7, h8, rfl, h10, h11⟩
          · trivial
        | addNode n => exact ⟨h1, h2, h3, h4, by simp [h5], h6, h7, h8, h9, h10, h11⟩
        | addQuad n => exact ⟨h1, h2, h3, h4, h5, by simp [h6], h7, h8, h9, h10, h11⟩
        | delNodes => exact ⟨h1, h2, h3, h4, rfl, h6, h7, h8, h9, h10, h11⟩
        | delQuads => exact ⟨h1, h2, h3, h4, h5, rfl, h7, h8, h9, h10, h11⟩
        | setNear n => exact ⟨h1, h2, h3, h4, h5, h6, by simp [h7], h8, h9, h10, h11⟩
        | setInt n => exact ⟨h1, h2, h3, h4, h5, h6, h7, by simp [h8], h9, h10, h11⟩
        | setNonInt n => exact ⟨h1, h2, h3, h4, h5, h6, h7, h8, by simp [h9], h10, h11⟩
      simp only [run]
      cases ha : step a o <;> cases hb : step b o <;> rw [ha, hb] at hstep <;> simp only [SameRes] at hstep ⊢
      exact ih _ _ hstep
  have hinv := reach_inv b h
  unfold copyCtor copyInto
  rw [copyChildren_spec _ _ _ hinv.1]
  refine ⟨_, rfl, ?_⟩
  have hs : Same (⟨b.level, b.parent, b.numChildren, fun i => if i < b.numChildren then b.children i else none,
      b.near, b.inter, b.nonInter, b.pMin, b.delta, copyNodes [] b.nodes, b.quads⟩ : Obj P C) b := by
    refine ⟨rfl, rfl, rfl, rfl, by simp [copyNodes_spec], rfl, rfl, rfl, rfl, rfl, fun i hi => ?_⟩
    simp only at hi
    simp [getChildId, hi]
  exact ⟨hs, fun ops => key ops _ _ hs⟩

/-- **C48**, `CopyContent` into another block. The copy is made without undefined behaviour; the target then holds its own
nodes followed by those of the source, everything else being as in the source. So the target cannot be told apart from
the source if and only if it had no nodes. -/
theorem C48_copy_content (t s : Obj P C) (hs : Reach s) :
    ∃ t', copyInto t s = .ok t' ∧ t'.nodes = t.nodes ++ s.nodes ∧ Same { t' with nodes := s.nodes } s ∧
      (Same t' s ↔ t.nodes = []) := by
  have hinv := reach_inv s hs
  unfold copyInto
  rw [copyChildren_spec _ _ _ hinv.1]
  refine ⟨_, rfl, copyNodes_spec _ _, ?_, ?_⟩
  · refine ⟨rfl, rfl, rfl, rfl, rfl, rfl, rfl, rfl, rfl, rfl, fun i hi => ?_⟩
    simp only at hi
    simp [getChildId, hi]
  · constructor
    · intro h
      have := h.nodes
      simp only [copyNodes_spec] at this
      simpa using this
    · intro h
      refine ⟨rfl, rfl, rfl, rfl, by simp [copyNodes_spec, h], rfl, rfl, rfl, rfl, rfl, fun i hi => ?_⟩
      simp only at hi
      simp [getChildId, hi]

/-- **C48**, `CopyContent` of a block into itself does not return if the block has nodes. -/
theorem C48_self_copy (l : List ℕ) :
    (∃ iters r, selfCopyNodes iters 0 l = some r) ↔ l = [] := by
  constructor
  · rintro ⟨iters, r, h⟩
    by_contra hne
    have gen : ∀ iters i (l : List ℕ), i < l.length → selfCopyNodes iters i l = none := by
      intro iters
      induction iters with
      | zero =>
        intro i l hi
        unfold selfCopyNodes
        rw [List.getElem?_eq_getElem hi]
      | succ k ih =>
        intro i l hi
        unfold selfCopyNodes
        rw [List.getElem?_eq_getElem hi]
        exact ih _ _ (by simp; omega)
    rw [gen iters 0 l (List.length_pos_iff.2 hne)] at h
    simp at h
  · rintro rfl
    exact ⟨0, [], by simp [selfCopyNodes]⟩

/-- **C48**, children. Every sequence of calls adding a ninth child is undefined; with at most eight, the ids are
read back in the order of insertion. -/
theorem C48_children (level parent : ℕ) (pMin : P) (delta : ℝ) (l : List ℕ) :
    (8 < l.length → run (fresh level parent pMin delta : Obj P C) (l.map Op.addChild) = .undef) ∧
    (l.length ≤ 8 → ∃ b, run (fresh level parent pMin delta : Obj P C) (l.map Op.addChild) = .ok b ∧
      b.numChildren = l.length ∧ ∀ i (hi : i < l.length), getChildId b i = .ok l[i]) := by
  have gen : ∀ (l : List ℕ) (b : Obj P C), b.numChildren ≤ 8 →
      (8 < b.numChildren + l.length → run b (l.map Op.addChild) = .undef) ∧
      (b.numChildren + l.length ≤ 8 → ∃ b', run b (l.map Op.addChild) = .ok b' ∧
        b'.numChildren = b.numChildren + l.length ∧
        (∀ i < b.numChildren, b'.children i = b.children i) ∧
        ∀ i (hi : i < l.length), b'.children (b.numChildren + i) = some l[i]) := by
    intro l
    induction l with
    | nil =>
      intro b hb
      refine ⟨by simp; omega, fun _ => ⟨b, rfl, rfl, fun _ _ => rfl, by simp⟩⟩
    | cons a t ih =>
      intro b hb
      simp only [List.map_cons, run, step, List.length_cons]
      by_cases h8 : b.numChildren < 8
      · rw [if_pos h8]
        obtain ⟨i1, i2⟩ := ih { b with children := Function.update b.children b.numChildren (some a),
                                        numChildren := b.numChildren + 1 } h8
        refine ⟨fun h => i1 (by simp; omega), fun h => ?_⟩
        obtain ⟨b', e1, e2, e3, e4⟩ := i2 (by simp; omega)
        refine ⟨b', e1, by simp at e2; omega, fun i hi => ?_, fun i hi => ?_⟩
        · rw [e3 i (by simp; omega)]
          simp only
          rw [Function.update_of_ne (by omega)]
        · cases i with
          | zero => rw [Nat.add_zero, e3 b.numChildren (by simp)]; simp
          | succ i =>
            have := e4 i (by simpa using hi)
            simp only at this
            rw [show b.numChildren + (i + 1) = b.numChildren + 1 + i by omega, this]
            rfl
      · rw [if_neg h8]
        exact ⟨fun _ => rfl, fun h => by omega⟩
  obtain ⟨g1, g2⟩ := gen l (fresh level parent pMin delta) (by simp [fresh])
  simp only [fresh, Nat.zero_add] at g1 g2
  refine ⟨g1, fun h => ?_⟩
  obtain ⟨b', e1, e2, _, e4⟩ := g2 h
  refine ⟨b', e1, e2, fun i hi => ?_⟩
  rw [getChildId, if_pos (by omega), e4 i hi]

/-- Non-vacuity: a block with two nodes and a child is reachable; copied into a block with a node it is told apart. -/
example : ∃ b : Obj ℕ ℕ, Reach b ∧ b.nodes = [4, 5] ∧ b.numChildren = 1 :=
  ⟨_, ⟨0, 0, 0, 1, [.addNode 4, .addNode 5, .addChild 7], rfl⟩, rfl, rfl⟩

end PiBem.Block
