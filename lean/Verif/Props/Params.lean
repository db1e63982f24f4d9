import Verif.App.ParamsSpec
import Mathlib.Data.List.TakeWhile
import Mathlib.Tactic.Ring
import Mathlib.Tactic.NormNum

/-!
# C106: the parameter file

For every parameter file: when it is accepted, and which value every member of the classes gets.
-/

namespace PiBem.App.Params

open PiBem.App

/-! ## Reading of the file -/

/-- The entries after a list of assignments. -/
def applyAll (db : List Entry) (A : List ((Path × String) × String)) : List Entry :=
  A.foldl (fun db a => setValue db a.1 a.2) db

def withValue (A : List ((Path × String) × String)) (e : Entry) : Entry :=
  { e with value := (lastValue A e.key).getD e.value }

theorem lastValue_cons (a : (Path × String) × String) (A : List ((Path × String) × String)) (k : Path × String) :
    lastValue (a :: A) k = (lastValue A k).or (if a.1 = k then some a.2 else none) := by
  unfold lastValue
  by_cases h : a.1 = k
  · simp only [List.filter_cons, h, decide_true, if_true]
    cases hl : (A.filter fun a => a.1 = k) with
    | nil => simp
    | cons b l => simp [List.getLast?_cons]
  · simp only [List.filter_cons, h, decide_false, if_false]
    simp

theorem applyAll_eq (A : List ((Path × String) × String)) (db : List Entry) : applyAll db A = db.map (withValue A) := by
  induction A generalizing db with
  | nil =>
    have : withValue [] = id := by funext e; simp [withValue, lastValue]
    simp [applyAll, this]
  | cons a A ih =>
    have : applyAll db (a :: A) = applyAll (setValue db a.1 a.2) A := rfl
    rw [this, ih, setValue, List.map_map]
    apply List.map_congr_left
    intro e _
    simp only [Function.comp_apply, withValue, lastValue_cons]
    by_cases h : e.key = a.1
    · have h' : a.1 = e.key := h.symm
      simp only [h, if_true]
      have hk : Entry.key { e with value := a.2 } = a.1 := h
      rw [hk]
      cases lastValue A a.1 <;> simp
    · have h' : ¬ a.1 = e.key := fun x => h x.symm
      simp only [h, h', if_false]
      cases lastValue A e.key <;> simp

theorem find_setValue (db : List Entry) (k k' : Path × String) (v : String) :
    (setValue db k v).find? (fun e => e.key = k') =
      (db.find? (fun e => e.key = k')).map fun e => if e.key = k then { e with value := v } else e := by
  unfold setValue
  rw [List.find?_map]
  congr 2
  funext e
  simp only [Function.comp_apply]
  by_cases h : e.key = k
  · rw [if_pos h]; rfl
  · rw [if_neg h]

/-- The subsection at the end of a file. -/
def endPath : Path → List Op → Path
  | p, [] => p
  | p, .enter s :: F => endPath (p ++ [s]) F
  | p, .leave :: F => endPath p.dropLast F
  | p, .declare _ _ _ :: F => endPath p F
  | p, .set _ _ :: F => endPath p F

def legal : Path → List Op → Prop
  | _, [] => True
  | p, .enter s :: F => legal (p ++ [s]) F
  | p, .leave :: F => p ≠ [] ∧ legal p.dropLast F
  | _, .declare _ _ _ :: _ => False
  | p, .set _ _ :: F => legal p F

theorem balanced_iff (F : List Op) (p : Path) : balanced p F ↔ legal p F ∧ endPath p F = [] := by
  induction F generalizing p with
  | nil => simp [balanced, legal, endPath]
  | cons o F ih =>
    cases o <;> simp [balanced, legal, endPath, ih, and_assoc]

/-- What a file needs. -/
def Fits (db : List Entry) (p : Path) (F : List Op) : Prop :=
  legal p F ∧ (∀ q ∈ visited p F, ∃ e ∈ db, q <+: e.path) ∧
    ∀ a ∈ assigns p F, ∃ e, db.find? (fun e => e.key = a.1) = some e ∧ e.pat.ok a.2 = true

theorem fits_set (db : List Entry) (k : Path × String) (v : String) (p : Path) (F : List Op) :
    Fits (setValue db k v) p F ↔ Fits db p F := by
  unfold Fits
  refine and_congr Iff.rfl (and_congr ?_ ?_)
  · refine forall₂_congr fun q _ => ?_
    unfold setValue
    simp only [List.mem_map, exists_exists_and_eq_and]
    refine exists_congr fun e => and_congr Iff.rfl ?_
    by_cases h : e.key = k <;> simp [h]
  · refine forall₂_congr fun a _ => ?_
    rw [find_setValue]
    cases db.find? (fun e => e.key = a.1) with
    | none => simp
    | some e => by_cases h : e.key = k <;> simp [h]

theorem fileExec_spec (F : List Op) (p : Path) (db : List Entry) :
    (Fits db p F → fileExec ⟨p, db⟩ F = some ⟨endPath p F, applyAll db (assigns p F)⟩) ∧
    (¬ Fits db p F → fileExec ⟨p, db⟩ F = none) := by
  induction F generalizing p db with
  | nil => simp [Fits, legal, visited, assigns, fileExec, endPath, applyAll]
  | cons o F ih =>
    cases o with
    | enter s =>
      have hany : (db.any (fun e => (p ++ [s]).isPrefixOf e.path)) = true ↔ ∃ e ∈ db, (p ++ [s]) <+: e.path := by
        simp only [List.any_eq_true, List.isPrefixOf_iff_prefix]
      have hF : Fits db p (.enter s :: F) ↔ (∃ e ∈ db, (p ++ [s]) <+: e.path) ∧ Fits db (p ++ [s]) F := by
        simp only [Fits, legal, visited, assigns, List.mem_cons, forall_eq_or_imp]
        tauto
      by_cases h : ∃ e ∈ db, (p ++ [s]) <+: e.path
      · have : fileExec ⟨p, db⟩ (.enter s :: F) = fileExec ⟨p ++ [s], db⟩ F := by
          simp only [fileExec, fileStep, if_pos (hany.2 h), Option.bind_some]
        rw [this, hF]
        exact ⟨fun hf => (ih _ _).1 hf.2, fun hf => (ih _ _).2 fun x => hf ⟨h, x⟩⟩
      · refine ⟨fun hf => absurd (hF.1 hf).1 h, fun _ => ?_⟩
        simp only [fileExec, fileStep, if_neg (fun x => h (hany.1 x)), Option.bind_none]
    | leave =>
      have hF : Fits db p (.leave :: F) ↔ p ≠ [] ∧ Fits db p.dropLast F := by
        simp only [Fits, legal, visited, assigns, and_assoc]
      by_cases h : p = []
      · refine ⟨fun hf => absurd h (hF.1 hf).1, fun _ => ?_⟩
        simp only [fileExec, fileStep, step, if_pos h, Option.bind_none]
      · have : fileExec ⟨p, db⟩ (.leave :: F) = fileExec ⟨p.dropLast, db⟩ F := by
          simp only [fileExec, fileStep, step, if_neg h, Option.bind_some]
        rw [this, hF]
        exact ⟨fun hf => (ih _ _).1 hf.2, fun hf => (ih _ _).2 fun x => hf ⟨h, x⟩⟩
    | declare n d q =>
      refine ⟨fun hf => absurd hf.1 (by simp [legal]), fun _ => ?_⟩
      simp only [fileExec, fileStep, Option.bind_none]
    | set n v =>
      have hF : Fits db p (.set n v :: F) ↔
          (∃ e, db.find? (fun e => e.key = (p, n)) = some e ∧ e.pat.ok v = true) ∧ Fits db p F := by
        simp only [Fits, legal, visited, assigns, List.mem_cons, forall_eq_or_imp]
        tauto
      by_cases h : ∃ e, db.find? (fun e => e.key = (p, n)) = some e ∧ e.pat.ok v = true
      · obtain ⟨e, he, hok⟩ := h
        have : fileExec ⟨p, db⟩ (.set n v :: F) = fileExec ⟨p, setValue db (p, n) v⟩ F := by
          simp only [fileExec, fileStep, step, he, if_pos hok, Option.bind_some]
        rw [this, hF]
        exact ⟨fun hf => (ih _ _).1 ((fits_set _ _ _ _ _).2 hf.2),
          fun hf => (ih _ _).2 fun x => hf ⟨⟨e, he, hok⟩, (fits_set _ _ _ _ _).1 x⟩⟩
      · refine ⟨fun hf => absurd (hF.1 hf).1 h, fun _ => ?_⟩
        cases he : db.find? (fun e => e.key = (p, n)) with
        | none => simp only [fileExec, fileStep, step, he, Option.bind_none]
        | some e =>
          have : ¬ e.pat.ok v = true := fun x => h ⟨e, he, x⟩
          simp only [fileExec, fileStep, step, he, if_neg this, Option.bind_none]

/-! ## The tables -/

set_option maxRecDepth 100000 in
theorem declared_eq (dim : ℕ) (hd : dim = 2 ∨ dim = 3) : declared dim = some ⟨[], entries dim⟩ := by
  rcases hd with rfl | rfl <;> decide

/-- Members read by a program, with the full subsection. -/
def resolve : Path → List ROp → Option (List Row)
  | _, [] => some []
  | p, .enter s :: os => resolve (p ++ [s]) os
  | p, .leave :: os => if p = [] then none else resolve p.dropLast os
  | p, .get k n m :: os => (resolve p os).map fun r => ⟨m, k, p, n⟩ :: r

set_option maxRecDepth 100000 in
theorem resolve_eq (dim : ℕ) (hd : dim = 2 ∨ dim = 3) : resolve [] (parseAll dim) = some (table dim) := by
  rcases hd with rfl | rfl <;> decide

/-- The pattern of an entry and the type of the member fit. -/
def compat : Kind → Pattern → Bool
  | .str, _ => true
  | .uint, .integer => true
  | .dbl, .double => true
  | .bool, .bool => true
  | _, _ => false

set_option maxRecDepth 100000 in
theorem table_compat (dim : ℕ) (hd : dim = 2 ∨ dim = 3) :
    ∀ r ∈ table dim, ∃ e ∈ entries dim, e.key = r.key ∧ compat r.kind e.pat = true := by
  rcases hd with rfl | rfl <;> decide

set_option maxRecDepth 100000 in
theorem entries_ok (dim : ℕ) (hd : dim = 2 ∨ dim = 3) :
    (∀ e ∈ entries dim, e.pat.ok e.value = true) ∧ ((entries dim).map Entry.key).Nodup ∧
      ((table dim).map Row.member).Nodup := by
  rcases hd with rfl | rfl <;> decide

attribute [local irreducible] entries table parseAll declared

theorem find_of_mem {db : List Entry} (hn : (db.map Entry.key).Nodup) {e : Entry} (he : e ∈ db) :
    db.find? (fun x => x.key = e.key) = some e := by
  induction db with
  | nil => simp at he
  | cons a db ih =>
    rw [List.map_cons, List.nodup_cons] at hn
    rcases List.mem_cons.1 he with rfl | he
    · simp
    · have : ¬ a.key = e.key := fun h => hn.1 (h ▸ List.mem_map_of_mem he)
      rw [List.find?_cons_of_neg (by simpa using this)]
      exact ih hn.2 he

theorem convert_ok {k : Kind} {p : Pattern} (h : compat k p = true) {s : String} (hs : p.ok s = true) :
    ∃ v, convert k s = some v ∧ Means k s v := by
  cases k with
  | str => exact ⟨_, rfl, rfl⟩
  | uint =>
    cases p <;> simp [compat] at h
    simp only [Pattern.ok, isInt] at hs
    cases hz : readInt s.toList with
    | none => simp [hz] at hs
    | some z =>
      simp only [hz, decide_eq_true_eq] at hs
      refine ⟨.uint (z % 2 ^ 32).toNat, by simp [convert, hz], z, _, hz, hs.1, hs.2, rfl, ?_, ?_⟩ <;> intro h0 <;> omega
  | dbl =>
    cases p <;> simp [compat] at h
    simp only [Pattern.ok] at hs
    exact ⟨.dbl s, by simp [convert, hs], hs, rfl⟩
  | bool =>
    cases p <;> simp [compat] at h
    simp only [Pattern.ok, decide_eq_true_eq] at hs
    rcases hs with rfl | rfl
    · exact ⟨.bool true, by simp [convert], .inl ⟨rfl, rfl⟩⟩
    · exact ⟨.bool false, by simp [convert], .inr ⟨rfl, rfl⟩⟩

theorem readAll_spec (db : List Entry) (ops : List ROp) (p : Path) (L : List Row) (hL : resolve p ops = some L)
    (Q : Row → Val → Prop)
    (h : ∀ r ∈ L, ∃ e v, db.find? (fun e => e.key = r.key) = some e ∧ convert r.kind e.value = some v ∧ Q r v) :
    ∃ c, readAll db p ops = some c ∧ List.Forall₂ (fun r x => x.1 = r.member ∧ Q r x.2) L c := by
  induction ops generalizing p L with
  | nil =>
    simp only [resolve, Option.some.injEq] at hL
    subst hL
    exact ⟨[], rfl, .nil⟩
  | cons o ops ih =>
    cases o with
    | enter s => exact ih _ _ hL h
    | leave =>
      simp only [resolve] at hL
      by_cases hp : p = []
      · simp [hp] at hL
      · rw [if_neg hp] at hL
        simp only [readAll, if_neg hp]
        exact ih _ _ hL h
    | get k n m =>
      simp only [resolve, Option.map_eq_some_iff] at hL
      obtain ⟨L', hL', rfl⟩ := hL
      obtain ⟨c, hc, hf⟩ := ih p L' hL' fun r hr => h r (List.mem_cons_of_mem _ hr)
      obtain ⟨e, v, he, hv, hq⟩ := h _ List.mem_cons_self
      refine ⟨(m, v) :: c, ?_, .cons ⟨rfl, hq⟩ hf⟩
      have he' : db.find? (fun e => e.key = (p, n)) = some e := he
      have hv' : convert k e.value = some v := hv
      unfold readAll
      rw [he']
      simp only [hv', hc, Option.bind_some, Option.map_some]

theorem fits_iff_valid (dim : ℕ) (hd : dim = 2 ∨ dim = 3) (F : List Op) :
    (Fits (entries dim) [] F ∧ endPath [] F = []) ↔ Valid dim F := by
  unfold Fits Valid
  rw [balanced_iff]
  have h : ∀ a : (Path × String) × String, (∃ e, (entries dim).find? (fun e => e.key = a.1) = some e ∧ e.pat.ok a.2 = true) ↔
      ∃ e ∈ entries dim, (e.path, e.name) = a.1 ∧ e.pat.ok a.2 = true := by
    intro a
    constructor
    · rintro ⟨e, he, hok⟩
      exact ⟨e, List.mem_of_find?_eq_some he, (of_decide_eq_true (List.find?_some (p := fun e : Entry => decide (e.key = a.1)) he) : e.key = a.1), hok⟩
    · rintro ⟨e, he, hk, hok⟩
      refine ⟨e, ?_, hok⟩
      rw [← hk]
      exact find_of_mem (entries_ok dim hd).2.1 he
  simp only [h]
  tauto

theorem lastValue_mem {A : List ((Path × String) × String)} {k : Path × String} {v : String} (h : lastValue A k = some v) :
    (k, v) ∈ A := by
  unfold lastValue at h
  simp only [Option.map_eq_some_iff] at h
  obtain ⟨a, ha, rfl⟩ := h
  have := List.mem_of_getLast? ha
  simp only [List.mem_filter, decide_eq_true_eq] at this
  rw [← this.2]
  exact this.1

theorem readBack (dim : ℕ) (hd : dim = 2 ∨ dim = 3) (F : List Op) (hv : Valid dim F) :
    ∃ c, initParams dim F = some c ∧
      List.Forall₂ (fun r x => x.1 = r.member ∧ ∃ s, valueAfter dim F r.key s ∧ Means r.kind s x.2) (table dim) c := by
  obtain ⟨hf, he⟩ := (fits_iff_valid dim hd F).2 hv
  have hp : parseInput ⟨[], entries dim⟩ F = some ⟨[], applyAll (entries dim) (assigns [] F)⟩ := by
    simp only [parseInput, (fileExec_spec F [] (entries dim)).1 hf, Option.bind_some, he, if_true]
  have hi : initParams dim F = readAll (applyAll (entries dim) (assigns [] F)) [] (parseAll dim) := by
    simp only [initParams, declared_eq dim hd, Option.bind_some, hp]
  rw [hi]
  refine readAll_spec _ _ _ _ (resolve_eq dim hd) (fun r v => ∃ s, valueAfter dim F r.key s ∧ Means r.kind s v) fun r hr => ?_
  obtain ⟨e, he, hk, hc⟩ := table_compat dim hd r hr
  have hok : e.pat.ok ((lastValue (assigns [] F) e.key).getD e.value) = true := by
    cases hl : lastValue (assigns [] F) e.key with
    | none => exact (entries_ok dim hd).1 e he
    | some v =>
      obtain ⟨e', he', hk', hok⟩ := hv.2.2 _ (lastValue_mem hl)
      have : e' = e := by
        have h1 := find_of_mem (entries_ok dim hd).2.1 he
        have h2 := find_of_mem (entries_ok dim hd).2.1 he'
        have hkk : e'.key = e.key := hk'
        rw [hkk, h1] at h2
        exact (Option.some.inj h2).symm
      rw [this] at hok
      exact hok
  obtain ⟨v, hv1, hv2⟩ := convert_ok hc hok
  refine ⟨withValue (assigns [] F) e, v, ?_, hv1, _, ⟨e, he, hk, rfl⟩, by rw [← hk]; exact hv2⟩
  rw [applyAll_eq, List.find?_map]
  have : ((fun x : Entry => decide (x.key = r.key)) ∘ withValue (assigns [] F)) = fun x : Entry => decide (x.key = e.key) := by
    funext x
    rw [hk]
    rfl
  rw [this, find_of_mem (entries_ok dim hd).2.1 he]
  rfl

/-- **C106**, which files are accepted: exactly those with balanced subsections, all of which exist, and with assignments to
existing entries and admissible values only. A misspelt name or a wrong value is never ignored. -/
theorem C106_accepted (dim : ℕ) (hd : dim = 2 ∨ dim = 3) (F : List Op) : (initParams dim F).isSome = true ↔ Valid dim F := by
  constructor
  · intro h
    by_contra hv
    rw [← fits_iff_valid dim hd] at hv
    have hi : initParams dim F = none := by
      simp only [initParams, declared_eq dim hd, Option.bind_some]
      by_cases hf : Fits (entries dim) [] F
      · have he : endPath [] F ≠ [] := fun x => hv ⟨hf, x⟩
        simp only [parseInput, (fileExec_spec F [] (entries dim)).1 hf, Option.bind_some, if_neg he, Option.bind_none]
      · simp only [parseInput, (fileExec_spec F [] (entries dim)).2 hf, Option.bind_none]
    rw [hi] at h
    simp at h
  · intro hv
    obtain ⟨c, hc, -⟩ := readBack dim hd F hv
    rw [hc]
    rfl

/-- **C106**, values. After an accepted file exactly the members of the table have been set, each once, to what the last
assignment to its entry says, or the default if there is none: texts as written, numbers of the accepted range, a negative integer
plus 2^32. -/
theorem C106_values (dim : ℕ) (hd : dim = 2 ∨ dim = 3) (F : List Op) (c : List (String × Val)) (h : initParams dim F = some c) :
    c.map Prod.fst = (table dim).map Row.member ∧ (c.map Prod.fst).Nodup ∧
    ∀ r ∈ table dim, ∀ v, (r.member, v) ∈ c ↔ ∃ s, valueAfter dim F r.key s ∧ Means r.kind s v := by
  have hv := (C106_accepted dim hd F).1 (by rw [h]; rfl)
  obtain ⟨c', hc', hf⟩ := readBack dim hd F hv
  rw [h] at hc'
  obtain rfl := Option.some.inj hc'
  have hm : c.map Prod.fst = (table dim).map Row.member := by
    have : ∀ (L : List Row) (c : List (String × Val)),
        List.Forall₂ (fun r x => x.1 = r.member ∧ ∃ s, valueAfter dim F r.key s ∧ Means r.kind s x.2) L c →
          c.map Prod.fst = L.map Row.member := by
      intro L c hf
      induction hf with
      | nil => rfl
      | cons hx _ ih => rw [List.map_cons, List.map_cons, hx.1, ih]
    exact this _ _ hf
  have hnd : (c.map Prod.fst).Nodup := by rw [hm]; exact (entries_ok dim hd).2.2
  have hval : ∀ k s s', valueAfter dim F k s → valueAfter dim F k s' → s = s' := by
    rintro k s s' ⟨e, he, hk, rfl⟩ ⟨e', he', hk', rfl⟩
    have h1 := find_of_mem (entries_ok dim hd).2.1 he
    have h2 := find_of_mem (entries_ok dim hd).2.1 he'
    have hkk : e'.key = e.key := hk'.trans hk.symm
    rw [hkk, h1] at h2
    rw [Option.some.inj h2]
  have hmean : ∀ k s v v', Means k s v → Means k s v' → v = v' := by
    intro k s v v' h1 h2
    cases k with
    | str => exact h1.trans h2.symm
    | uint =>
      obtain ⟨z, n, hz, -, -, rfl, a, b⟩ := h1
      obtain ⟨z', n', hz', -, -, rfl, a', b'⟩ := h2
      rw [hz] at hz'
      obtain rfl := Option.some.inj hz'
      congr 1
      rcases lt_or_ge z 0 with h0 | h0
      · have := b h0; have := b' h0; omega
      · have := a h0; have := a' h0; omega
    | dbl => exact h1.2.trans h2.2.symm
    | bool =>
      rcases h1 with ⟨rfl, rfl⟩ | ⟨rfl, rfl⟩ <;> rcases h2 with ⟨h2, rfl⟩ | ⟨h2, rfl⟩ <;> simp_all
  refine ⟨hm, hnd, fun r hr v => ?_⟩
  have hex : ∀ (L : List Row) (c : List (String × Val)),
      List.Forall₂ (fun r x => x.1 = r.member ∧ ∃ s, valueAfter dim F r.key s ∧ Means r.kind s x.2) L c → r ∈ L →
        ∃ x ∈ c, x.1 = r.member ∧ ∃ s, valueAfter dim F r.key s ∧ Means r.kind s x.2 := by
    intro L c hf
    induction hf with
    | nil => intro h; simp at h
    | cons hx _ ih =>
      intro h
      rcases List.mem_cons.1 h with rfl | h
      · exact ⟨_, List.mem_cons_self, hx⟩
      · obtain ⟨x, hx, hq⟩ := ih h
        exact ⟨x, List.mem_cons_of_mem _ hx, hq⟩
  obtain ⟨⟨m, w⟩, hx, hm', s, hs, hw⟩ := hex _ _ hf hr
  simp only at hm' hw
  subst hm'
  constructor
  · intro hin
    have : v = w := by
      have := List.inj_on_of_nodup_map hnd hin hx rfl
      exact (Prod.mk.inj this).2
    rw [this]
    exact ⟨s, hs, hw⟩
  · rintro ⟨s', hs', hv'⟩
    rw [hval _ _ _ hs hs'] at hw
    rw [hmean _ _ _ _ hv' hw]
    exact hx

/-- **C106**, what does not matter. Two accepted files that leave the same values in the entries of the table give the same
members: order of the assignments, repetitions, values overwritten later, and the functions of the other dimension have no effect. -/
theorem C106_irrelevant (dim : ℕ) (hd : dim = 2 ∨ dim = 3) (F G : List Op) (hF : Valid dim F) (hG : Valid dim G)
    (h : ∀ r ∈ table dim, ∀ s, valueAfter dim F r.key s ↔ valueAfter dim G r.key s) : initParams dim F = initParams dim G := by
  obtain ⟨c, hc, -⟩ := readBack dim hd F hF
  obtain ⟨c', hc', -⟩ := readBack dim hd G hG
  obtain ⟨m1, n1, v1⟩ := C106_values dim hd F c hc
  obtain ⟨m2, n2, v2⟩ := C106_values dim hd G c' hc'
  rw [hc, hc']
  congr 1
  have hsub : ∀ x ∈ c, x ∈ c' := by
    rintro ⟨m, v⟩ hx
    have : m ∈ (table dim).map Row.member := m1 ▸ List.mem_map_of_mem (f := Prod.fst) hx
    obtain ⟨r, hr, rfl⟩ := List.mem_map.1 this
    obtain ⟨s, hs, hm⟩ := (v1 r hr v).1 hx
    exact (v2 r hr v).2 ⟨s, (h r hr s).1 hs, hm⟩
  have hlen : c.length = c'.length := by
    have := congrArg List.length (m1.trans m2.symm)
    simpa using this
  refine List.ext_getElem hlen fun i h1 h2 => ?_
  have hi := hsub _ (List.getElem_mem h1)
  have hk : (c[i]).1 = (c'[i]).1 := by
    have h3 : (c.map Prod.fst)[i]? = (c'.map Prod.fst)[i]? := by rw [m1, m2]
    simpa [List.getElem?_map, h1, h2] using h3
  exact List.inj_on_of_nodup_map n2 hi (List.getElem_mem h2) hk

/-- **C106**, lists of ids: every accepted value of the two lists is read number by number, without overflow. -/
theorem C106_idlist (s : String) (h : Pattern.idList.ok s = true) :
    (Setup.splitStringList s.toList).map readNat = (Setup.parseIds s.toList).map some ∧ ∀ k ∈ Setup.parseIds s.toList, k < 2 ^ 31 := by
  simp only [Pattern.ok, List.all_eq_true, Option.any_eq_true] at h
  have key : ∀ t ∈ Setup.splitStringList s.toList, readNat t = some (Setup.readUnsigned t) ∧ Setup.readUnsigned t < 2 ^ 31 := by
    intro t ht
    obtain ⟨k, hk, hlt⟩ := h t ht
    simp only [decide_eq_true_eq] at hlt
    have hr := hk
    unfold readNat at hr
    split_ifs at hr with hc
    have hval := Option.some.inj hr
    have hdig : ∀ c ∈ t, c.isDigit = true := List.all_eq_true.1 hc.2
    have hws : t.dropWhile Char.isWhitespace = t := by
      cases t with
      | nil => rfl
      | cons c t =>
        have : c.isWhitespace = false := by
          have hd := hdig c List.mem_cons_self
          simp only [Char.isDigit, ge_iff_le, Bool.and_eq_true, decide_eq_true_eq] at hd
          have h48 : (48 : UInt32).toNat ≤ c.val.toNat := UInt32.le_iff_toNat_le.1 hd.1
          simp only [Char.isWhitespace, Bool.or_eq_false_iff, decide_eq_false_iff_not]
          refine ⟨⟨⟨?_, ?_⟩, ?_⟩, ?_⟩ <;> rintro rfl <;> simp at h48
        rw [List.dropWhile_cons, this]
        simp
    have htake : t.takeWhile Char.isDigit = t := List.takeWhile_eq_self_iff.2 hdig
    have : Setup.readUnsigned t = k := by
      unfold Setup.readUnsigned
      rw [hws, htake]
      have : t.foldl (fun v c => 10 * v + (c.toNat - 48)) 0 = k := hval
      rw [this]
      exact min_eq_left (by omega)
    rw [this]
    exact ⟨hk, hlt⟩
  constructor
  · unfold Setup.parseIds
    rw [List.map_map]
    exact List.map_congr_left fun t ht => (key t ht).1
  · intro k hk
    obtain ⟨t, ht, rfl⟩ := List.mem_map.1 hk
    exact (key t ht).2

/-- **C106**, quadrature rules. The dense matrices are computed with the rule of the parameter file, the fast multipole method
always with the rule of Gauss: they are the same if and only if the type is "gauss". For the types without an order the fast
multipole method has no quadrature point at all. -/
theorem C106_rules (type : String) (n : ℕ) (r : Rule) (h : directRule type n = some r) :
    fmaRule type n = some (.gauss n) ∧ (fmaRule type n = directRule type n ↔ type = "gauss") ∧
    (type ∈ ["midpoint", "milne", "simpson", "trapezoidal", "weddle"] → fmaRule type n = some (.gauss 0)) := by
  have hf : fmaRule type n = some (.gauss n) := by
    simp only [fmaRule]
    rw [show selector type n = some r from h]
    rfl
  have hs : selector type n = some r := h
  refine ⟨hf, ?_, fun ht => ?_⟩
  · rw [hf, h]
    unfold selector at hs
    constructor
    · intro hr
      rw [← hr] at hs
      by_contra hne
      rw [if_neg hne] at hs
      split_ifs at hs <;> simp at hs
    · intro hg
      rw [if_pos hg] at hs
      split_ifs at hs
      exact hs
  · rw [hf]
    have hn : n = 0 := by
      unfold selector at hs
      simp only [List.mem_cons, List.not_mem_nil, or_false] at ht
      rcases ht with rfl | rfl | rfl | rfl | rfl <;> simp at hs <;> exact hs.1
    rw [hn]

set_option maxRecDepth 100000 in
/-- A file with two assignments to one entry, one to a function of the other dimension, and a negative number of cycles; and
three files that are rejected. -/
theorem C106_example :
    (let F := [.enter "ComputationalDomain<3>", .set "Number of cycles" "4", .set "Number of cycles" "-1", .leave,
      .enter "BoundaryConditions<3>", .enter "Potential 2d", .set "Function expression" "x", .leave, .leave]
     Valid 3 F ∧ ∃ c, initParams 3 F = some c ∧ ("n_cycles", .uint (2 ^ 32 - 1)) ∈ c ∧
       ("potential.expression", .str "x+y+z") ∈ c ∧ ("scalar_fe_order", .uint 1) ∈ c) ∧
    initParams 3 [.enter "ComputationalDomain<3>", .set "Number of Cycles" "4", .leave] = none ∧
    initParams 3 [.enter "ComputationalDomain<2>", .leave] = none ∧
    initParams 3 [.enter "BEMProblem<3>", .set "Preconditioner" "Jacobi", .leave] = none := by
  refine ⟨?_, by decide +kernel, by decide +kernel, by decide +kernel⟩
  intro F
  have hs : initParams 3 F = some ((initParams 3 F).getD []) := by decide +kernel
  exact ⟨(C106_accepted 3 (.inr rfl) F).1 (by decide +kernel), _, hs, by decide +kernel, by decide +kernel, by decide +kernel⟩

end PiBem.App.Params
