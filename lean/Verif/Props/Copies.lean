import Verif.Expansion.Heap

/-!
# C19: copies of expansions

Specification: a store of values, where assignment copies a value. The theorem says that the heap program refines
it for every history without self-assignments and without copies of default constructed objects; the two
excluded cases are shown to go wrong.
-/

namespace PiBem.Expansion.Heap

variable {T α : Type}

/-! ## Specification: value semantics -/

/-- Value of an object: its data members and, unless default constructed, its coefficients. -/
abbrev Value (T α : Type) := T × Option (List α)

/-- One call on values; `none` if the call is not allowed: names must be fresh (constructors) or alive, the
source of a copy or of a modification must have coefficients, and an object is not assigned to itself. -/
def specStep (len : T → ℕ) (s : ℕ → Option (Value T α)) : Op T α → Option (ℕ → Option (Value T α))
  | .defaultCtor x t => if s x = none then some (Function.update s x (some (t, none))) else none
  | .ctor x t z =>
    if s x = none then some (Function.update s x (some (t, some (List.replicate (len t) z)))) else none
  | .copyCtor x y =>
    match s x, s y with
    | none, some (t, some c) => some (Function.update s x (some (t, some c)))
    | _, _ => none
  | .assign x y =>
    if x = y then none
    else match s x, s y with
      | some _, some (t, some c) => some (Function.update s x (some (t, some c)))
      | _, _ => none
  | .modify x y tg g =>
    match s x, s y with
    | some (t, some c), some (t', some c') =>
      some (Function.update s x (some (tg t t', some ((List.range c.length).map (g c c')))))
    | _, _ => none
  | .destroy x => if (s x).isSome then some (Function.update s x none) else none

def specRun (len : T → ℕ) (s : ℕ → Option (Value T α)) : List (Op T α) → Option (ℕ → Option (Value T α))
  | [] => some s
  | o :: os => (specStep len s o).bind (fun s' => specRun len s' os)

/-- The value that the user sees in object `x`: members and contents of the array (through `GetCoeffs`). -/
def State.value (s : State T α) (x : ℕ) : Option (Value T α) :=
  match s.objs x with
  | none => none
  | some ⟨t, none⟩ => some (t, none)
  | some ⟨t, some a⟩ =>
    match s.heap a with
    | none => none
    | some l => (readAll l).map (fun c => (t, some c))

/-! ## Invariant -/

/-- Modifications keep the length of the array (`Add*` never changes `p`). -/
def Op.keeps (len : T → ℕ) : Op T α → Prop
  | .modify _ _ tg _ => ∀ t t', len (tg t t') = len t
  | _ => True

structure Inv (len : T → ℕ) (s : State T α) : Prop where
  own : ∀ x y o o' a, s.objs x = some o → s.objs y = some o' → o.ptr = some a → o'.ptr = some a → x = y
  good : ∀ x o a, s.objs x = some o → o.ptr = some a →
    ∃ c : List α, s.heap a = some (c.map some) ∧ c.length = len o.tag
  fresh : ∀ a, s.next ≤ a → s.heap a = none

/-- No leak: every allocated array belongs to a live object. -/
def NoLeak (s : State T α) : Prop := ∀ a l, s.heap a = some l → ∃ x o, s.objs x = some o ∧ o.ptr = some a

theorem readAll_map (c : List α) : readAll (c.map some) = some c := by
  unfold readAll
  induction c with
  | nil => rfl
  | cons a l ih => simp only [List.map_cons, List.mapM_cons, ih]; rfl

theorem Inv.lt {len : T → ℕ} {s : State T α} (h : Inv len s) {a : ℕ} {l} (ha : s.heap a = some l) :
    a < s.next := by
  by_contra hc
  rw [h.fresh a (by omega)] at ha
  cases ha

theorem value_some {len : T → ℕ} {s : State T α} (h : Inv len s) {x : ℕ} {o : Obj T} (hx : s.objs x = some o) :
    (o.ptr = none ∧ s.value x = some (o.tag, none)) ∨
    ∃ a c, o.ptr = some a ∧ s.heap a = some (c.map some) ∧ c.length = len o.tag ∧
      s.value x = some (o.tag, some c) := by
  obtain ⟨t, p⟩ := o
  cases p with
  | none => left; refine ⟨rfl, ?_⟩; unfold State.value; rw [hx]
  | some a =>
    right
    obtain ⟨c, h1, h2⟩ := h.good x _ a hx rfl
    refine ⟨a, c, rfl, h1, h2, ?_⟩
    unfold State.value
    rw [hx]
    simp only [h1, readAll_map, Option.map_some]

theorem value_none {s : State T α} {len : T → ℕ} (h : Inv len s) {x : ℕ} (hx : s.value x = none) : s.objs x = none := by
  cases ho : s.objs x with
  | none => rfl
  | some o =>
    rcases value_some h ho with ⟨_, h2⟩ | ⟨a, c, _, _, _, h2⟩ <;> rw [hx] at h2 <;> cases h2

theorem value_eq_some {s : State T α} {len : T → ℕ} (h : Inv len s) {x : ℕ} {t : T} {c : List α}
    (hx : s.value x = some (t, some c)) :
    ∃ a, s.objs x = some ⟨t, some a⟩ ∧ s.heap a = some (c.map some) ∧ c.length = len t := by
  cases ho : s.objs x with
  | none => unfold State.value at hx; rw [ho] at hx; cases hx
  | some o =>
    rcases value_some h ho with ⟨_, h2⟩ | ⟨a, c', h1, h3, h4, h2⟩
    · rw [hx] at h2; cases h2
    · rw [hx] at h2
      have e := Option.some.inj h2
      simp only [Prod.mk.injEq, Option.some.injEq] at e
      obtain ⟨e1, e2⟩ := e
      subst e1 e2
      obtain ⟨t, p⟩ := o
      simp only at h1
      subst h1
      exact ⟨a, rfl, h3, h4⟩

/-- Updating one object (to one owning address `a` with contents `c`) and the heap only at addresses that no other
object owns. -/
theorem value_update {s s' : State T α} (x : ℕ)
    (v : Option (Value T α)) (hv : s'.value x = v)
    (ho : ∀ y, y ≠ x → s'.objs y = s.objs y)
    (hh : ∀ y o a, y ≠ x → s.objs y = some o → o.ptr = some a → s'.heap a = s.heap a) :
    s'.value = Function.update s.value x v := by
  funext y
  by_cases hy : y = x
  · subst hy; rw [hv, Function.update_self]
  · rw [Function.update_of_ne hy]
    unfold State.value
    rw [ho y hy]
    cases hso : s.objs y with
    | none => rfl
    | some o =>
      obtain ⟨t, p⟩ := o
      cases p with
      | none => rfl
      | some a => simp only [hh y _ a hy hso rfl]

theorem refine_alloc {len : T → ℕ} {s : State T α} (h : Inv len s) (x : ℕ) (t : T) (c : List α)
    (hc : c.length = len t) (H : ℕ → Option (List (Option α)))
    (hH : ∀ y o b, y ≠ x → s.objs y = some o → o.ptr = some b → H b = s.heap b)
    (hHf : ∀ b, s.next < b → H b = none) (hHn : H s.next = some (c.map some)) :
    let s' : State T α := ⟨Function.update s.objs x (some ⟨t, some s.next⟩), H, s.next + 1⟩
    Inv len s' ∧ s'.value = Function.update s.value x (some (t, some c)) := by
  intro s'
  have hne : ∀ y o b, y ≠ x → s.objs y = some o → o.ptr = some b → b ≠ s.next := by
    intro y o b hy ho hp
    obtain ⟨c', h1, _⟩ := h.good y o b ho hp
    exact Nat.ne_of_lt (h.lt h1)
  have hxo : s'.objs x = some ⟨t, some s.next⟩ := Function.update_self ..
  have hyo : ∀ y, y ≠ x → s'.objs y = s.objs y := fun y hy => Function.update_of_ne hy ..
  refine ⟨⟨?_, ?_, ?_⟩, ?_⟩
  · intro y z o o' b hy hz hp hp'
    by_cases hyx : y = x <;> by_cases hzx : z = x
    · rw [hyx, hzx]
    · exfalso
      subst hyx
      rw [hxo] at hy
      cases hy
      simp only [Option.some.injEq] at hp
      rw [hyo z hzx] at hz
      exact hne z o' b hzx hz hp' hp.symm
    · exfalso
      subst hzx
      rw [hxo] at hz
      cases hz
      simp only [Option.some.injEq] at hp'
      rw [hyo y hyx] at hy
      exact hne y o b hyx hy hp hp'.symm
    · rw [hyo y hyx] at hy
      rw [hyo z hzx] at hz
      exact h.own y z o o' b hy hz hp hp'
  · intro y o b hy hp
    by_cases hyx : y = x
    · subst hyx
      rw [hxo] at hy
      cases hy
      simp only [Option.some.injEq] at hp
      subst hp
      exact ⟨c, hHn, hc⟩
    · rw [hyo y hyx] at hy
      obtain ⟨c', h1, h2⟩ := h.good y o b hy hp
      exact ⟨c', by show H b = _; rw [hH y o b hyx hy hp, h1], h2⟩
  · intro b hb
    exact hHf b (by exact hb)
  · refine value_update x _ ?_ hyo ?_
    · unfold State.value
      rw [hxo]
      show (match H s.next with | none => none | some l => _) = _
      rw [hHn]
      simp only [readAll_map, Option.map_some]
    · intro y o b hy ho hp
      exact hH y o b hy ho hp

theorem step_refines (kind : Kind) (len : T → ℕ) (s : State T α) (op : Op T α) (v' : ℕ → Option (Value T α))
    (h : Inv len s) (hk : op.keeps len) (hs : specStep len s.value op = some v') :
    ∃ s', step kind len s op = some s' ∧ s'.value = v' ∧ Inv len s' ∧
      (kind = .multipole → NoLeak s → NoLeak s') := by
  cases op with
  | defaultCtor x t =>
    simp only [specStep] at hs
    split_ifs at hs with hx
    cases hs
    have ho := value_none h hx
    refine ⟨s.setObj x (some ⟨t, none⟩), ?_, ?_, ?_, ?_⟩
    · simp only [step, ho]; rfl
    · refine value_update x _ ?_ (fun y hy => Function.update_of_ne hy ..) (fun _ _ _ _ _ _ => rfl)
      unfold State.value State.setObj
      simp only [Function.update_self]
    · have key : ∀ y o a, (s.setObj x (some ⟨t, none⟩)).objs y = some o → o.ptr = some a → y ≠ x ∧ s.objs y = some o := by
        intro y o a hy hp
        by_cases hyx : y = x
        · subst hyx
          simp only [State.setObj, Function.update_self] at hy
          cases hy
          cases hp
        · simp only [State.setObj, Function.update_of_ne hyx] at hy
          exact ⟨hyx, hy⟩
      refine ⟨?_, ?_, h.fresh⟩
      · intro y z o o' a hy hz hp hp'
        exact h.own y z o o' a (key y o a hy hp).2 (key z o' a hz hp').2 hp hp'
      · intro y o a hy hp
        exact h.good y o a (key y o a hy hp).2 hp
    · intro _ hl a l ha
      obtain ⟨y, o, hy, hp⟩ := hl a l ha
      refine ⟨y, o, ?_, hp⟩
      have : y ≠ x := by rintro rfl; rw [ho] at hy; cases hy
      simp only [State.setObj, Function.update_of_ne this]
      exact hy
  | ctor x t z =>
    simp only [specStep] at hs
    split_ifs at hs with hx
    cases hs
    have ho := value_none h hx
    have r := refine_alloc h x t (List.replicate (len t) z) (by simp)
      (Function.update (Function.update s.heap s.next (some (List.replicate (len t) none))) s.next
        (some (List.replicate (len t) (some z))))
      (fun y o b _ hyo hp => by
        obtain ⟨c', h1, _⟩ := h.good y o b hyo hp
        have := Nat.ne_of_lt (h.lt h1)
        rw [Function.update_of_ne this, Function.update_of_ne this])
      (fun b hb => by
        have : b ≠ s.next := by omega
        rw [Function.update_of_ne this, Function.update_of_ne this]
        exact h.fresh b (by omega))
      (by rw [Function.update_self, List.map_replicate])
    refine ⟨_, by simp only [step, ho]; rfl, r.2, r.1, ?_⟩
    intro _ hl a l ha
    by_cases hax : a = s.next
    · exact ⟨x, ⟨t, some s.next⟩, Function.update_self .., by rw [hax]⟩
    · have ha' : s.heap a = some l := by
        simp only [State.setObj, State.alloc, Function.update_of_ne hax] at ha
        exact ha
      obtain ⟨y, o, hy, hp⟩ := hl a l ha'
      have : y ≠ x := by rintro rfl; rw [ho] at hy; cases hy
      exact ⟨y, o, by simp only [State.setObj, State.alloc, Function.update_of_ne this]; exact hy, hp⟩
  | copyCtor x y =>
    simp only [specStep] at hs
    split at hs
    · rename_i t c hx hy
      cases hs
      have ho := value_none h hx
      obtain ⟨a, h1, h2, h3⟩ := value_eq_some h hy
      have hal := h.lt h2
      have hne : a ≠ s.next := Nat.ne_of_lt hal
      have r := refine_alloc h x t c h3
        (Function.update (Function.update s.heap s.next (some (List.replicate (len t) none))) s.next
          (some (c.map some)))
        (fun y o b _ hyo hp => by
          obtain ⟨c', h1, _⟩ := h.good y o b hyo hp
          have := Nat.ne_of_lt (h.lt h1)
          rw [Function.update_of_ne this, Function.update_of_ne this])
        (fun b hb => by
          have : b ≠ s.next := by omega
          rw [Function.update_of_ne this, Function.update_of_ne this]
          exact h.fresh b (by omega))
        (by rw [Function.update_self])
      refine ⟨_, ?_, r.2, r.1, ?_⟩
      · simp only [step, ho, h1, State.alloc, State.copyCells, bind, Option.bind_some,
          Function.update_of_ne hne, h2, Function.update_self, List.length_map,
          List.length_replicate, h3, Nat.lt_irrefl, or_self, if_false, Option.isSome_none, Bool.false_eq_true]
        rw [List.take_of_length_le (by simp [h3]), List.drop_of_length_le (by simp), List.append_nil]
        rfl
      · intro _ hl b l hb
        by_cases hax : b = s.next
        · exact ⟨x, ⟨t, some s.next⟩, Function.update_self .., by rw [hax]⟩
        · have ha' : s.heap b = some l := by
            simp only [Function.update_of_ne hax] at hb
            exact hb
          obtain ⟨z, o, hz, hp⟩ := hl b l ha'
          have : z ≠ x := by rintro rfl; rw [ho] at hz; cases hz
          exact ⟨z, o, by simp only [Function.update_of_ne this]; exact hz, hp⟩
    · cases hs
  | assign x y =>
    simp only [specStep] at hs
    split_ifs at hs with hxy
    split at hs
    · rename_i vx t c hx hy
      cases hs
      obtain ⟨a, h1, h2, h3⟩ := value_eq_some h hy
      have hne : a ≠ s.next := Nat.ne_of_lt (h.lt h2)
      obtain ⟨me, hme⟩ : ∃ me, s.objs x = some me := by
        cases ho : s.objs x with
        | none => unfold State.value at hx; rw [ho] at hx; cases hx
        | some me => exact ⟨me, rfl⟩
      -- the heap after the optional deletion
      have hfree : ∃ s0 : State T α, s.dropOld kind me.ptr = some s0 ∧ s0.objs = s.objs ∧ s0.next = s.next ∧
          (∀ b, me.ptr ≠ some b → s0.heap b = s.heap b) ∧ (∀ b, s0.heap b = s.heap b ∨ s0.heap b = none) ∧
          (kind = .multipole → ∀ b, me.ptr = some b → s0.heap b = none) := by
        cases hp : me.ptr with
        | none =>
          refine ⟨s, ?_, rfl, rfl, fun _ _ => rfl, fun _ => Or.inl rfl, fun _ b hb => by cases hb⟩
          cases kind <;> rfl
        | some b =>
          cases kind with
          | localExp =>
            exact ⟨s, rfl, rfl, rfl, fun _ _ => rfl, fun _ => Or.inl rfl, fun hk => by cases hk⟩
          | multipole =>
            obtain ⟨c', g1, _⟩ := h.good x me b hme hp
            refine ⟨{ s with heap := Function.update s.heap b none }, ?_, rfl, rfl, ?_, ?_, ?_⟩
            · simp only [State.dropOld, State.free, g1]
            · intro b' hb'
              exact Function.update_of_ne (fun e => hb' (by rw [e])) ..
            · intro b'
              by_cases e : b' = b
              · right; rw [e]; exact Function.update_self ..
              · left; exact Function.update_of_ne e ..
            · intro _ b' hb'
              cases hb'
              exact Function.update_self ..
      obtain ⟨s0, e0, eo, en, e1, e2, e3⟩ := hfree
      have hma : me.ptr ≠ some a := by
        intro hp
        exact hxy (h.own x y me _ a hme h1 hp rfl)
      have r := refine_alloc h x t c h3
        (Function.update (Function.update s0.heap s.next (some (List.replicate (len t) none))) s.next
          (some (c.map some)))
        (fun z o b hz hzo hp => by
          obtain ⟨c', g1, _⟩ := h.good z o b hzo hp
          have := Nat.ne_of_lt (h.lt g1)
          rw [Function.update_of_ne this, Function.update_of_ne this]
          apply e1
          intro hb
          exact hz (h.own z x o me b hzo hme hp hb))
        (fun b hb => by
          have : b ≠ s.next := by omega
          rw [Function.update_of_ne this, Function.update_of_ne this]
          rcases e2 b with e | e
          · rw [e]; exact h.fresh b (by omega)
          · exact e)
        (by rw [Function.update_self])
      have hyx : y ≠ x := fun e => hxy e.symm
      refine ⟨_, ?_, r.2, r.1, ?_⟩
      · simp only [step, h1, hme, e0, bind, Option.bind_some, State.alloc, State.setObj, State.copyCells, en, eo,
          Function.update_of_ne hyx, h1, Function.update_of_ne hne, e1 a hma, h2, Function.update_self,
          List.length_map, List.length_replicate, h3, Nat.lt_irrefl, or_self, if_false]
        rw [List.take_of_length_le (by simp [h3]), List.drop_of_length_le (by simp), List.append_nil]
      · intro hkind hl b l hb
        by_cases hax : b = s.next
        · exact ⟨x, ⟨t, some s.next⟩, Function.update_self .., by rw [hax]⟩
        · have hb' : s0.heap b = some l := by
            simp only [Function.update_of_ne hax] at hb
            exact hb
          have hmb : me.ptr ≠ some b := by
            intro hp
            rw [e3 hkind b hp] at hb'
            cases hb'
          rw [e1 b hmb] at hb'
          obtain ⟨z, o, hz, hp⟩ := hl b l hb'
          have : z ≠ x := by
            rintro rfl
            rw [hme] at hz
            cases hz
            exact hmb hp
          exact ⟨z, o, by simp only [Function.update_of_ne this]; exact hz, hp⟩
    · cases hs
  | modify x y tg g =>
    simp only [specStep] at hs
    split at hs
    · rename_i t c t' c' hx hy
      cases hs
      obtain ⟨a, h1, h2, h3⟩ := value_eq_some h hx
      obtain ⟨b, g1, g2, g3⟩ := value_eq_some h hy
      let l' : List (Option α) := (List.range c.length).map (fun i => some (g c c' i))
      set s' : State T α := { s with heap := Function.update s.heap a (some l') }.setObj x
        (some ⟨tg t t', some a⟩) with hs'
      have hxo : s'.objs x = some ⟨tg t t', some a⟩ := Function.update_self ..
      have hyo : ∀ z, z ≠ x → s'.objs z = s.objs z := fun z hz => Function.update_of_ne hz ..
      have hha : s'.heap a = some (((List.range c.length).map (g c c')).map some) := by
        show Function.update s.heap a _ a = _
        rw [Function.update_self, List.map_map]
        rfl
      have hhb : ∀ z o b', z ≠ x → s.objs z = some o → o.ptr = some b' → s'.heap b' = s.heap b' := by
        intro z o b' hz hzo hp
        apply Function.update_of_ne
        rintro rfl
        exact hz (h.own z x o _ _ hzo h1 hp rfl)
      refine ⟨s', ?_, ?_, ⟨?_, ?_, ?_⟩, ?_⟩
      · simp only [step, h1, g1, bind, Option.bind_some, h2, g2, readAll_map, List.length_map]
        rfl
      · refine value_update x _ ?_ hyo hhb
        unfold State.value
        rw [hxo]
        simp only [hha, readAll_map, Option.map_some]
      · intro u w o o' b' hu hw hp hp'
        have tr : ∀ u o, s'.objs u = some o → o.ptr = some b' → ∃ o2, s.objs u = some o2 ∧ o2.ptr = some b' := by
          intro u o hu hp
          by_cases hux : u = x
          · subst hux
            rw [hxo] at hu
            cases hu
            exact ⟨_, h1, hp⟩
          · exact ⟨o, by rw [← hyo u hux]; exact hu, hp⟩
        obtain ⟨o2, k1, k2⟩ := tr u o hu hp
        obtain ⟨o3, k3, k4⟩ := tr w o' hw hp'
        exact h.own u w o2 o3 b' k1 k3 k2 k4
      · intro u o b' hu hp
        by_cases hux : u = x
        · subst hux
          rw [hxo] at hu
          cases hu
          simp only [Option.some.injEq] at hp
          subst hp
          exact ⟨_, hha, by rw [List.length_map, List.length_range, h3, hk]⟩
        · rw [hyo u hux] at hu
          rw [hhb u o b' hux hu hp]
          exact h.good u o b' hu hp
      · intro b' hb'
        have : s.heap b' = none := h.fresh b' hb'
        have hne : b' ≠ a := by rintro rfl; rw [this] at h2; cases h2
        show Function.update s.heap a _ b' = none
        rw [Function.update_of_ne hne]
        exact this
      · intro _ hl b' l hb'
        by_cases hba : b' = a
        · exact ⟨x, _, hxo, by rw [hba]⟩
        · have hb2 : s.heap b' = some l := by
            rw [← hb']
            exact (Function.update_of_ne hba ..).symm
          obtain ⟨z, o, hz, hp⟩ := hl b' l hb2
          by_cases hzx : z = x
          · subst hzx
            rw [h1] at hz
            cases hz
            simp only [Option.some.injEq] at hp
            exact absurd hp.symm hba
          · exact ⟨z, o, by rw [hyo z hzx]; exact hz, hp⟩
    · cases hs
  | destroy x =>
    simp only [specStep] at hs
    split_ifs at hs with hx
    cases hs
    obtain ⟨me, hme⟩ : ∃ me, s.objs x = some me := by
      cases ho : s.objs x with
      | none => unfold State.value at hx; rw [ho] at hx; cases hx
      | some me => exact ⟨me, rfl⟩
    have key : ∀ s' : State T α, s'.objs = Function.update s.objs x none → s'.next = s.next →
        (∀ b, me.ptr ≠ some b → s'.heap b = s.heap b) → (∀ b, me.ptr = some b → s'.heap b = none) →
        s'.value = Function.update s.value x none ∧ Inv len s' ∧ (NoLeak s → NoLeak s') := by
      intro s' ho hn hh hd
      have hxo : s'.objs x = none := by rw [ho]; exact Function.update_self ..
      have hyo : ∀ z, z ≠ x → s'.objs z = s.objs z := fun z hz => by rw [ho]; exact Function.update_of_ne hz ..
      have hne : ∀ z o, s'.objs z = some o → z ≠ x := by
        rintro z o hz rfl
        rw [hxo] at hz
        cases hz
      have hhb : ∀ z o b', z ≠ x → s.objs z = some o → o.ptr = some b' → s'.heap b' = s.heap b' := by
        intro z o b' hz hzo hp
        apply hh
        intro hb
        exact hz (h.own z x o me b' hzo hme hp hb)
      refine ⟨?_, ⟨?_, ?_, ?_⟩, ?_⟩
      · refine value_update x _ ?_ hyo hhb
        unfold State.value
        rw [hxo]
      · intro u w o o' b' hu hw hp hp'
        rw [hyo u (hne u o hu)] at hu
        rw [hyo w (hne w o' hw)] at hw
        exact h.own u w o o' b' hu hw hp hp'
      · intro u o b' hu hp
        have hu' := hne u o hu
        rw [hyo u hu'] at hu
        rw [hhb u o b' hu' hu hp]
        exact h.good u o b' hu hp
      · intro b hb
        rw [hn] at hb
        by_cases hm : me.ptr = some b
        · exact hd b hm
        · rw [hh b hm]; exact h.fresh b hb
      · intro hl b l hb
        have hm : me.ptr ≠ some b := by intro hm; rw [hd b hm] at hb; cases hb
        rw [hh b hm] at hb
        obtain ⟨z, o, hz, hp⟩ := hl b l hb
        have : z ≠ x := by
          rintro rfl
          rw [hme] at hz
          cases hz
          exact hm hp
        exact ⟨z, o, by rw [hyo z this]; exact hz, hp⟩
    cases hp : me.ptr with
    | none =>
      obtain ⟨k1, k2, k3⟩ := key (s.setObj x none) rfl rfl (fun _ _ => rfl) (fun b hb => by rw [hp] at hb; cases hb)
      exact ⟨_, by simp only [step, hme, bind, Option.bind_some, hp], k1, k2, fun _ => k3⟩
    | some a =>
      obtain ⟨c', g1, _⟩ := h.good x me a hme hp
      obtain ⟨k1, k2, k3⟩ := key ({ s with heap := Function.update s.heap a none }.setObj x none) rfl rfl
        (fun b hb => Function.update_of_ne (fun e => hb (by rw [hp, e])) ..)
        (fun b hb => by rw [hp] at hb; cases hb; exact Function.update_self ..)
      exact ⟨_, by simp only [step, hme, bind, Option.bind_some, hp, State.free, g1], k1, k2, fun _ => k3⟩

theorem run_refines (kind : Kind) (len : T → ℕ) (h : List (Op T α)) :
    ∀ (s : State T α) (v' : ℕ → Option (Value T α)), Inv len s → (∀ op ∈ h, op.keeps len) →
      specRun len s.value h = some v' →
      ∃ s', run kind len s h = some s' ∧ s'.value = v' ∧ Inv len s' ∧
        (kind = .multipole → NoLeak s → NoLeak s') := by
  induction h with
  | nil =>
    intro s v' hi _ hr
    simp only [specRun, Option.some.injEq] at hr
    exact ⟨s, rfl, hr, hi, fun _ hl => hl⟩
  | cons op ops ih =>
    intro s v' hi hk hr
    simp only [specRun] at hr
    cases h1 : specStep len s.value op with
    | none => rw [h1] at hr; cases hr
    | some v1 =>
      rw [h1, Option.bind_some] at hr
      obtain ⟨s1, e1, e2, e3, e4⟩ := step_refines kind len s op v1 hi (hk op (by simp)) h1
      rw [← e2] at hr
      obtain ⟨s2, f1, f2, f3, f4⟩ := ih s1 v' e3 (fun o ho => hk o (by simp [ho])) hr
      exact ⟨s2, by simp only [run, e1, Option.bind_some, f1], f2, f3, fun hm hl => f4 hm (e4 hm hl)⟩

/-! ## C19 -/

/-- **C19**, first half. For every history in which no object is assigned to itself and no copy is taken from a
default constructed object, the program has no undefined behaviour and every object has the value it has under value
semantics (a copy equals its source and later changes of one do not affect the other). Multipole expansions
moreover leak no array. -/
theorem C19_copies_are_values (kind : Kind) (len : T → ℕ) (h : List (Op T α)) (v : ℕ → Option (Value T α))
    (hk : ∀ op ∈ h, op.keeps len) (hv : specRun len (fun _ => none) h = some v) :
    ∃ s, run kind len State.init h = some s ∧ (∀ x, s.value x = v x) ∧
      (kind = .multipole → ∀ a l, s.heap a = some l → ∃ x o, s.objs x = some o ∧ o.ptr = some a) := by
  have hi : Inv len (State.init : State T α) :=
    ⟨fun x y o o' a hx => (nomatch hx), fun x o a hx => (nomatch hx), fun a _ => rfl⟩
  obtain ⟨s, h1, h2, _, h4⟩ := run_refines kind len h State.init v hi hk hv
  exact ⟨s, h1, fun x => by rw [h2], fun hm => h4 hm (fun a l ha => (nomatch ha))⟩

/-- Non-vacuity of C19: two multipole expansions of order 1 (3 coefficients), one assigned to the other, then
modified: the copy keeps the old value. -/
example :
    let h : List (Op ℕ ℕ) := [.ctor 0 1 0, .ctor 1 1 0, .modify 0 0 (fun t _ => t) (fun c _ i => c.getD i 0 + i),
      .assign 1 0, .modify 0 1 (fun t _ => t) (fun c c' i => c.getD i 0 + c'.getD i 0)]
    ((specRun (fun p => (p + 1) * (p + 2) / 2) (fun _ => none) h).map (fun v => (v 0, v 1))) =
      some (some (1, some [0, 2, 4]), some (1, some [0, 1, 2])) ∧
    ∀ op ∈ h, op.keeps (fun p => (p + 1) * (p + 2) / 2) := by
  refine ⟨by decide, ?_⟩
  intro op hop
  simp only [List.mem_cons, List.not_mem_nil, or_false] at hop
  rcases hop with rfl | rfl | rfl | rfl | rfl <;> simp [Op.keeps]

/-- **C19**, second half refuted: copying (constructing or assigning) from a default constructed expansion is
undefined behaviour (`memcpy` of one coefficient from NULL), for every order of the target. -/
theorem C19_copy_from_default_refuted (kind : Kind) (len : T → ℕ) (t t' : T) (z : α) :
    run kind len (State.init : State T α) [.defaultCtor 0 t, .copyCtor 1 0] = none ∧
    run kind len (State.init : State T α) [.defaultCtor 0 t, .ctor 1 t' z, .assign 1 0] = none := by
  cases kind <;> simp [run, step, State.init, State.setObj, State.alloc, State.copyCells, State.free, State.dropOld]

/-- **C19**, second half refuted: after `x = x` no coefficient of `x` can be read any more, whatever they were. -/
theorem C19_self_assignment_refuted (kind : Kind) (len : T → ℕ) (t : T) (z : α) (hl : 0 < len t)
    (tg : T → T → T) (g : List α → List α → ℕ → α) :
    (∃ s, run kind len (State.init : State T α) [.ctor 0 t z, .assign 0 0] = some s ∧ s.value 0 = none) ∧
    run kind len (State.init : State T α) [.ctor 0 t z, .assign 0 0, .modify 0 0 tg g] = none := by
  have hr : readAll (List.replicate (len t) (none : Option α)) = none := by
    obtain ⟨k, hk⟩ : ∃ k, len t = k + 1 := ⟨len t - 1, by omega⟩
    rw [hk, List.replicate_succ]
    rfl
  have hr2 : readAll (List.replicate (len t) (none : Option α) ++ []) = none := by rw [List.append_nil]; exact hr
  cases kind
  · refine ⟨⟨_, by simp [run, step, State.init, State.setObj, State.alloc, State.copyCells, State.free, State.dropOld]; rfl, ?_⟩, ?_⟩
    · simp [State.value, hr]
    · simp [run, step, State.init, State.setObj, State.alloc, State.copyCells, State.free, State.dropOld, hr]
  · refine ⟨⟨_, by simp [run, step, State.init, State.setObj, State.alloc, State.copyCells, State.free, State.dropOld]; rfl, ?_⟩, ?_⟩
    · simp [State.value, hr]
    · simp [run, step, State.init, State.setObj, State.alloc, State.copyCells, State.free, State.dropOld, hr]

/-- Assignments of local expansions leak: after assigning and destroying both objects an array is still
allocated (there is no `delete[]` in `LocalExpansion::operator=`). -/
theorem C19_local_assignment_leaks (len : T → ℕ) (t t' : T) (z z' : α) :
    ∃ s, run .localExp len (State.init : State T α)
      [.ctor 0 t z, .ctor 1 t' z', .assign 0 1, .destroy 0, .destroy 1] = some s ∧
      s.objs 0 = none ∧ s.objs 1 = none ∧ (s.heap 0).isSome := by
  refine ⟨_, by simp [run, step, State.init, State.setObj, State.alloc, State.copyCells, State.free, State.dropOld]; rfl, ?_, ?_, ?_⟩ <;>
    simp

end PiBem.Expansion.Heap
