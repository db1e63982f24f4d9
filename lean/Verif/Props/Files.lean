import Verif.App.Files

/-!
# Files written by a run, whatever the scheduling and wherever it stops (C103)
-/

namespace PiBem.App.Files

open PiBem.App

/-! ## Programs seen from one path -/

/-- What is put on `p` before the next opening of `p`. -/
def curPuts (p : String) : List Ev → Bytes
  | [] => []
  | .open q :: r => if q = p then [] else curPuts p r
  | .put q d :: r => if q = p then d ++ curPuts p r else curPuts p r
  | .flush _ :: r => curPuts p r
  | .close _ :: r => curPuts p r

/-- The contents put on `p`, one for each opening. -/
def phases (p : String) : List Ev → List Bytes
  | [] => []
  | .open q :: r => if q = p then curPuts p r :: phases p r else phases p r
  | .put _ _ :: r => phases p r
  | .flush _ :: r => phases p r
  | .close _ :: r => phases p r

/-- `p` is opened before it is used. -/
def Fresh (p : String) : List Ev → Prop
  | [] => True
  | .open q :: r => q = p ∨ Fresh p r
  | .put q _ :: r => q ≠ p ∧ Fresh p r
  | .flush q :: r => q ≠ p ∧ Fresh p r
  | .close q :: r => q ≠ p ∧ Fresh p r

/-- The stream on `p` is closed after the last use. -/
def Tidy (p : String) : List Ev → Prop
  | [] => True
  | .put q _ :: r => (q = p → Ev.close p ∈ r) ∧ Tidy p r
  | .open _ :: r => Tidy p r
  | .flush _ :: r => Tidy p r
  | .close _ :: r => Tidy p r

/-- Path of an operation. -/
def Ev.path : Ev → String
  | .open p => p
  | .put p _ => p
  | .flush p => p
  | .close p => p

/-- Effect of a step of one process as far as `p` is concerned. -/
inductive Eff (p : String) (fs : FS) (s : Proc) (fs' : FS) (s' : Proc) : Prop
  | other (h1 : fs' p = fs p) (h2 : s'.off p = s.off p) (h3 : s'.buf p = s.buf p)
      (h4 : s.rest = s'.rest ∨ ∃ e, s.rest = e :: s'.rest ∧ e.path ≠ p)
  | opens (h0 : s.rest = .open p :: s'.rest) (h1 : fs' p = some []) (h2 : s'.off p = 0) (h3 : s'.buf p = [])
  | puts (d : Bytes) (h0 : s.rest = .put p d :: s'.rest) (h1 : fs' p = fs p) (h2 : s'.off p = s.off p)
      (h3 : s'.buf p = s.buf p ++ d)
  | writes (d b : Bytes) (h0 : s.buf p = d ++ b) (h1 : fs' p = some (pwrite ((fs p).getD []) (s.off p) d))
      (h2 : s'.off p = s.off p + d.length) (h3 : s'.buf p = b)
      (h4 : (s.rest = s'.rest ∧ s.buf p ≠ []) ∨ ((s.rest = .flush p :: s'.rest ∨ s.rest = .close p :: s'.rest) ∧ b = []))

theorem eff_exec (p : String) (fs : FS) (s : Proc) (e : Ev) (r : List Ev) (h : s.rest = e :: r) :
    Eff p fs s (exec fs s e r).1 (exec fs s e r).2 := by
  by_cases hp : e.path = p
  · cases e with
    | «open» q =>
      obtain rfl : q = p := hp
      exact .opens h (by simp [exec]) (by simp [exec]) (by simp [exec])
    | put q d =>
      obtain rfl : q = p := hp
      exact .puts d h (by simp [exec]) (by simp [exec]) (by simp [exec])
    | flush q =>
      obtain rfl : q = p := hp
      exact .writes (s.buf q) [] (by simp) (by simp [exec]) (by simp [exec]) (by simp [exec]) (.inr ⟨.inl h, rfl⟩)
    | close q =>
      obtain rfl : q = p := hp
      exact .writes (s.buf q) [] (by simp) (by simp [exec]) (by simp [exec]) (by simp [exec]) (.inr ⟨.inr h, rfl⟩)
  · have hp' : p ≠ e.path := fun h => hp h.symm
    cases e <;>
      exact .other (by simp only [exec]; try exact Function.update_of_ne hp' _ _)
        (by simp only [exec]; try exact Function.update_of_ne hp' _ _)
        (by simp only [exec]; try exact Function.update_of_ne hp' _ _) (.inr ⟨_, h, hp⟩)

theorem eff_spill (p : String) (fs : FS) (s : Proc) (q : String) (k : ℕ) (h : s.buf q ≠ []) :
    Eff p fs s (spill fs s q k).1 (spill fs s q k).2 := by
  by_cases hp : q = p
  · subst hp
    exact .writes ((s.buf q).take k) ((s.buf q).drop k) (by simp) (by simp [spill]) (by simp [spill]) (by simp [spill])
      (.inl ⟨rfl, h⟩)
  · have hp' : p ≠ q := fun h => hp h.symm
    exact .other (by simp only [spill]; exact Function.update_of_ne hp' _ _)
      (by simp only [spill]; exact Function.update_of_ne hp' _ _)
      (by simp only [spill]; exact Function.update_of_ne hp' _ _) (.inl rfl)

/-- A step is the effect of one process. -/
theorem Step.eff {P : ℕ} {S S' : Sys P} (h : Step S S') (p : String) :
    ∃ i, Eff p S.fs (S.proc i) S'.fs (S'.proc i) ∧ ∀ j, j ≠ i → S'.proc j = S.proc j := by
  cases h with
  | exec i e r h =>
    refine ⟨i, ?_, fun j hj => by simp [Function.update_of_ne hj]⟩
    simpa using eff_exec p S.fs (S.proc i) e r h
  | spill i q k h =>
    refine ⟨i, ?_, fun j hj => by simp [Function.update_of_ne hj]⟩
    simpa using eff_spill p S.fs (S.proc i) q k h

/-! ## Positions of the streams -/

theorem pwrite_get (f : Bytes) (off : ℕ) (d : Bytes) (j : ℕ) :
    (pwrite f off d)[j]? = if j < off then (if j < f.length then f[j]? else some 0)
      else if j < off + d.length then d[j - off]? else f[j]? := by
  have hl : ((f ++ List.replicate (off - f.length) 0).take off).length = off := by
    simp; omega
  unfold pwrite
  by_cases h1 : j < off
  · rw [if_pos h1, List.append_assoc, List.getElem?_append_left (by omega), List.getElem?_take, if_pos h1]
    by_cases h2 : j < f.length
    · rw [if_pos h2, List.getElem?_append_left h2]
    · rw [if_neg h2, List.getElem?_append_right (by omega), List.getElem?_replicate, if_pos (by omega)]
  · rw [if_neg h1, List.append_assoc, List.getElem?_append_right (by omega), hl]
    by_cases h2 : j < off + d.length
    · rw [if_pos h2, List.getElem?_append_left (by omega)]
    · rw [if_neg h2, List.getElem?_append_right (by omega), List.getElem?_drop]
      congr 1; omega

theorem pwrite_length_le {f : Bytes} {off : ℕ} {d : Bytes} {n : ℕ} (h1 : f.length ≤ n) (h2 : off + d.length ≤ n) :
    (pwrite f off d).length ≤ n := by
  unfold pwrite
  simp
  omega

theorem pwrite_end (w d : Bytes) : pwrite w w.length d = w ++ d := by
  simp [pwrite]

/-- What is known about a process that executes `prog` and its stream on `p`: it has not been opened, or it is in a
phase. -/
def PInv (p : String) (prog : List Ev) (s : Proc) : Prop :=
  (s.buf p = [] ∧ Fresh p s.rest ∧ phases p s.rest = phases p prog) ∨
  ∃ w ph, w.length = s.off p ∧ phases p prog = ph ++ (w ++ s.buf p ++ curPuts p s.rest) :: phases p s.rest

theorem curPuts_skip {p : String} {e : Ev} (h : e.path ≠ p) (r : List Ev) : curPuts p (e :: r) = curPuts p r := by
  cases e <;> simp_all [curPuts, Ev.path]

theorem phases_skip {p : String} {e : Ev} (h : e.path ≠ p) (r : List Ev) : phases p (e :: r) = phases p r := by
  cases e <;> simp_all [phases, Ev.path]

theorem fresh_skip {p : String} {e : Ev} (h : e.path ≠ p) {r : List Ev} (hf : Fresh p (e :: r)) : Fresh p r := by
  cases e <;> simp_all [Fresh, Ev.path]

theorem PInv.step {p : String} {prog : List Ev} {fs fs' : FS} {s s' : Proc} (h : PInv p prog s)
    (he : Eff p fs s fs' s') : PInv p prog s' := by
  rcases h with ⟨hb, hf, hp⟩ | ⟨w, ph, hw, hp⟩
  · cases he with
    | other h1 h2 h3 h4 =>
      rcases h4 with h4 | ⟨e, h4, h5⟩
      · exact .inl ⟨h3 ▸ hb, h4 ▸ hf, h4 ▸ hp⟩
      · rw [h4] at hf hp
        exact .inl ⟨h3 ▸ hb, fresh_skip h5 hf, by rw [← hp, phases_skip h5]⟩
    | opens h0 h1 h2 h3 =>
      rw [h0] at hp
      exact .inr ⟨[], [], by simp [h2], by simp [← hp, phases, h3]⟩
    | puts d h0 h1 h2 h3 => rw [h0] at hf; exact absurd rfl hf.1
    | writes d b h0 h1 h2 h3 h4 =>
      rcases h4 with ⟨_, h4⟩ | ⟨h4 | h4, _⟩
      · exact absurd hb h4
      · rw [h4] at hf; exact absurd rfl hf.1
      · rw [h4] at hf; exact absurd rfl hf.1
  · right
    cases he with
    | other h1 h2 h3 h4 =>
      rcases h4 with h4 | ⟨e, h4, h5⟩
      · exact ⟨w, ph, by rw [h2, hw], by rw [h3, ← h4, hp]⟩
      · exact ⟨w, ph, by rw [h2, hw], by rw [h3, hp, h4, curPuts_skip h5, phases_skip h5]⟩
    | opens h0 h1 h2 h3 =>
      refine ⟨[], ph ++ [w ++ s.buf p], by simp [h2], ?_⟩
      rw [hp, h0, h3]; simp [curPuts, phases]
    | puts d h0 h1 h2 h3 =>
      refine ⟨w, ph, by rw [h2, hw], ?_⟩
      rw [hp, h0, h3]; simp [curPuts, phases]
    | writes d b h0 h1 h2 h3 h4 =>
      refine ⟨w ++ d, ph, by rw [h2, ← hw]; simp, ?_⟩
      rw [hp, h3, h0]
      rcases h4 with ⟨h4, _⟩ | ⟨h4 | h4, _⟩ <;> simp [h4, curPuts, phases]

variable {P : ℕ} {prog : Fin P → List Ev} {fs0 : FS} {S : Sys P}

theorem reach_pinv {p : String} (hprog : ∀ i, Fresh p (prog i)) (h : Reachable fs0 prog S) (i : Fin P) :
    PInv p (prog i) (S.proc i) := by
  induction h generalizing i with
  | refl => exact .inl ⟨rfl, hprog i, rfl⟩
  | tail _ hs ih =>
    obtain ⟨k, he, ho⟩ := hs.eff p
    by_cases hk : i = k
    · subst hk; exact (ih i).step he
    · rw [ho i hk]; exact ih i

/-- Buffers are empty at the end. -/
theorem reach_tidy {p : String} (hprog : ∀ i, Tidy p (prog i)) (h : Reachable fs0 prog S) (i : Fin P) :
    Tidy p (S.proc i).rest ∧ ((S.proc i).buf p = [] ∨ Ev.close p ∈ (S.proc i).rest) := by
  induction h generalizing i with
  | refl => exact ⟨hprog i, .inl rfl⟩
  | @tail S S' _ hs ih =>
    obtain ⟨k, he, ho⟩ := hs.eff p
    by_cases hk : i = k
    · subst hk
      obtain ⟨ht, hb⟩ := ih i
      cases he with
      | other h1 h2 h3 h4 =>
        rcases h4 with h4 | ⟨e, h4, h5⟩
        · rw [← h4, h3]; exact ⟨ht, hb⟩
        · rw [h4] at ht hb
          rw [h3]
          refine ⟨by cases e <;> simp_all [Tidy], hb.imp id fun hb => ?_⟩
          rcases List.mem_cons.1 hb with hb | hb
          · subst hb; exact absurd rfl h5
          · exact hb
      | opens h0 h1 h2 h3 => rw [h0] at ht; exact ⟨ht, .inl h3⟩
      | puts d h0 h1 h2 h3 => rw [h0] at ht; exact ⟨ht.2, .inr (ht.1 rfl)⟩
      | writes d b h0 h1 h2 h3 h4 =>
        rcases h4 with ⟨h4, h5⟩ | ⟨h4 | h4, h5⟩
        · rw [← h4]
          exact ⟨ht, hb.imp (fun hb => absurd hb h5) id⟩
        · rw [h4] at ht; exact ⟨ht, .inl (by rw [h3, h5])⟩
        · rw [h4] at ht; exact ⟨ht, .inl (by rw [h3, h5])⟩
    · rw [ho i hk]; exact ih i

/-! ## What can be in a file -/

/-- The stream on `p` of a process has not been opened. -/
def Closed (p : String) (s : Proc) : Prop := s.buf p = [] ∧ Fresh p s.rest

theorem Closed.other {p : String} {s s' : Proc} (h : Closed p s) (h3 : s'.buf p = s.buf p)
    (h4 : s.rest = s'.rest ∨ ∃ e, s.rest = e :: s'.rest ∧ e.path ≠ p) : Closed p s' := by
  refine ⟨h3 ▸ h.1, ?_⟩
  rcases h4 with h4 | ⟨e, h4, h5⟩
  · exact h4 ▸ h.2
  · exact fresh_skip h5 (h4 ▸ h.2)

/-- A process that puts data on `p`, or writes to `p`, has opened it. -/
theorem Closed.absurd_puts {p : String} {s s' : Proc} (h : Closed p s) {d : Bytes} (h0 : s.rest = .put p d :: s'.rest) :
    False := by
  have := h.2; rw [h0] at this; exact this.1 rfl

theorem Closed.absurd_writes {p : String} {s s' : Proc} (h : Closed p s) {b : Bytes}
    (h4 : (s.rest = s'.rest ∧ s.buf p ≠ []) ∨ ((s.rest = .flush p :: s'.rest ∨ s.rest = .close p :: s'.rest) ∧ b = [])) :
    False := by
  rcases h4 with ⟨_, h4⟩ | ⟨h4 | h4, _⟩
  · exact h4 h.1
  · have := h.2; rw [h4] at this; exact this.1 rfl
  · have := h.2; rw [h4] at this; exact this.1 rfl

theorem reach_bytes {p : String} (hprog : ∀ i, Fresh p (prog i)) (h : Reachable fs0 prog S) :
    (S.fs p = fs0 p ∧ ∀ i, Closed p (S.proc i)) ∨
    ((∃ i, phases p (prog i) ≠ []) ∧ ∃ f, S.fs p = some f ∧
      ∀ (j : ℕ) (b : UInt8), f[j]? = some b → b = 0 ∨ ∃ i, ∃ c ∈ phases p (prog i), c[j]? = some b) := by
  induction h with
  | refl => exact .inl ⟨rfl, fun i => ⟨rfl, hprog i⟩⟩
  | @tail S S' hr hs ih =>
    obtain ⟨k, he, ho⟩ := hs.eff p
    have hpi := reach_pinv hprog hr k
    rcases ih with ⟨hf, hc⟩ | ⟨hne, f, hf, hb⟩
    · cases he with
      | other h1 h2 h3 h4 =>
        refine .inl ⟨h1.trans hf, fun i => ?_⟩
        by_cases hi : i = k
        · subst hi; exact (hc i).other h3 h4
        · rw [ho i hi]; exact hc i
      | opens h0 h1 h2 h3 =>
        refine .inr ⟨⟨k, ?_⟩, [], h1, by simp⟩
        rcases hpi with ⟨_, _, hp⟩ | ⟨w, ph, _, hp⟩
        · rw [← hp, h0]; simp [phases]
        · rw [hp]; simp
      | puts d h0 h1 h2 h3 => exact ((hc k).absurd_puts h0).elim
      | writes d b h0 h1 h2 h3 h4 => exact ((hc k).absurd_writes h4).elim
    · refine .inr ⟨hne, ?_⟩
      cases he with
      | other h1 h2 h3 h4 => exact ⟨f, h1.trans hf, hb⟩
      | opens h0 h1 h2 h3 => exact ⟨[], h1, by simp⟩
      | puts d h0 h1 h2 h3 => exact ⟨f, h1.trans hf, hb⟩
      | writes d b h0 h1 h2 h3 h4 =>
        rw [hf] at h1
        refine ⟨_, h1, fun j x hx => ?_⟩
        rw [Option.getD_some, pwrite_get] at hx
        rcases hpi with ⟨hb1, hb2, _⟩ | ⟨w, ph, hw, hp⟩
        · exact (Closed.absurd_writes ⟨hb1, hb2⟩ h4).elim
        · split at hx
          · split at hx
            · exact hb j x hx
            · left; simpa using hx.symm
          · split at hx
            · right
              refine ⟨k, w ++ (S.proc k).buf p ++ curPuts p (S.proc k).rest, by rw [hp]; simp, ?_⟩
              rw [h0, List.append_assoc, List.append_assoc, List.getElem?_append_right (by omega),
                List.getElem?_append_left (by omega), hw, hx]
            · exact hb j x hx

/-- A file nobody writes is not changed. -/
theorem reach_untouched {p : String} (hprog : ∀ i, Fresh p (prog i)) (hn : ∀ i, phases p (prog i) = [])
    (h : Reachable fs0 prog S) : S.fs p = fs0 p := by
  rcases reach_bytes hprog h with h | ⟨⟨i, hi⟩, _⟩
  · exact h.1
  · exact absurd (hn i) hi

/-- A file written by one process only: unchanged, or exactly what has left the stream in the current phase. -/
theorem reach_single {p : String} (hprog : ∀ i, Fresh p (prog i)) (q : Fin P) (hq : ∀ i, i ≠ q → phases p (prog i) = [])
    (h : Reachable fs0 prog S) :
    (S.fs p = fs0 p ∧ Closed p (S.proc q) ∧ phases p (S.proc q).rest = phases p (prog q)) ∨
    ∃ w ph, S.fs p = some w ∧ w.length = (S.proc q).off p ∧
      phases p (prog q) = ph ++ (w ++ (S.proc q).buf p ++ curPuts p (S.proc q).rest) :: phases p (S.proc q).rest := by
  induction h with
  | refl => exact .inl ⟨rfl, ⟨rfl, hprog q⟩, rfl⟩
  | @tail S S' hr hs ih =>
    obtain ⟨k, he, ho⟩ := hs.eff p
    by_cases hk : k = q
    · subst hk
      rcases ih with ⟨hf, hc, hp⟩ | ⟨w, ph, hf, hw, hp⟩
      · cases he with
        | other h1 h2 h3 h4 =>
          refine .inl ⟨h1.trans hf, hc.other h3 h4, ?_⟩
          rcases h4 with h4 | ⟨e, h4, h5⟩
          · rw [← h4, hp]
          · rw [← hp, h4, phases_skip h5]
        | opens h0 h1 h2 h3 =>
          refine .inr ⟨[], [], h1, by simp [h2], ?_⟩
          rw [← hp, h0, h3]; simp [phases]
        | puts d h0 h1 h2 h3 => exact (hc.absurd_puts h0).elim
        | writes d b h0 h1 h2 h3 h4 => exact (hc.absurd_writes h4).elim
      · right
        cases he with
        | other h1 h2 h3 h4 =>
          refine ⟨w, ph, h1.trans hf, by rw [h2, hw], ?_⟩
          rcases h4 with h4 | ⟨e, h4, h5⟩
          · rw [h3, ← h4, hp]
          · rw [h3, hp, h4, curPuts_skip h5, phases_skip h5]
        | opens h0 h1 h2 h3 =>
          refine ⟨[], ph ++ [w ++ (S.proc k).buf p], h1, by simp [h2], ?_⟩
          rw [hp, h0, h3]; simp [curPuts, phases]
        | puts d h0 h1 h2 h3 =>
          refine ⟨w, ph, h1.trans hf, by rw [h2, hw], ?_⟩
          rw [hp, h0, h3]; simp [curPuts, phases]
        | writes d b h0 h1 h2 h3 h4 =>
          refine ⟨w ++ d, ph, ?_, by rw [h2, ← hw]; simp, ?_⟩
          · rw [h1, hf, Option.getD_some, ← hw, pwrite_end]
          · rw [hp, h3, h0]
            rcases h4 with ⟨h4, _⟩ | ⟨h4 | h4, _⟩ <;> simp [h4, curPuts, phases]
    · have hpi := reach_pinv hprog hr k
      have hz := hq k hk
      rw [ho q (fun h => hk h.symm)]
      have hcl : Closed p (S.proc k) ∧ phases p (S.proc k).rest = [] := by
        rcases hpi with ⟨h1, h2, h3⟩ | ⟨w, ph, _, hp⟩
        · exact ⟨⟨h1, h2⟩, h3.trans hz⟩
        · rw [hz] at hp; simp at hp
      have hfs : S'.fs p = S.fs p := by
        cases he with
        | other h1 h2 h3 h4 => exact h1
        | opens h0 h1 h2 h3 => have := hcl.2; rw [h0] at this; simp [phases] at this
        | puts d h0 h1 h2 h3 => exact h1
        | writes d b h0 h1 h2 h3 h4 => exact (hcl.1.absurd_writes h4).elim
      rw [hfs]
      exact ih

/-- Several processes write the file, each possibly several times: at the end it is the last content of all of them. -/
theorem reach_last {p : String} (hprog : ∀ i, Fresh p (prog i)) (C : Bytes)
    (hC : ∀ i, phases p (prog i) = [] ∨ (phases p (prog i)).getLast? = some C) (h : Reachable fs0 prog S) :
    (∃ i, phases p (S.proc i).rest ≠ []) ∨ (∀ i, phases p (prog i) = []) ∨
    ∃ q f, phases p (prog q) ≠ [] ∧ S.fs p = some f ∧ f.length ≤ C.length ∧
      ∀ j < (S.proc q).off p, f[j]? = C[j]? := by
  induction h with
  | refl =>
    by_cases hn : ∀ i, phases p (prog i) = []
    · exact .inr (.inl hn)
    · push Not at hn
      exact .inl hn
  | @tail S S' hr hs ih =>
    by_cases hn : ∃ i, phases p (S'.proc i).rest ≠ []
    · exact .inl hn
    push Not at hn
    right
    obtain ⟨k, he, ho⟩ := hs.eff p
    have hpi := reach_pinv hprog hr k
    -- an operation that does not open leaves the remaining phases
    by_cases hop : (S.proc k).rest = .open p :: (S'.proc k).rest
    · right
      refine ⟨k, [], ?_, ?_, by simp, ?_⟩
      · rcases hpi with ⟨_, _, hp⟩ | ⟨w, ph, _, hp⟩
        · rw [← hp, hop]; simp [phases]
        · rw [hp]; simp
      · cases he with
        | other h1 h2 h3 h4 =>
          rcases h4 with h4 | ⟨e, h4, h5⟩
          · rw [h4] at hop; have := congrArg List.length hop; simp at this
          · rw [hop] at h4; simp at h4; subst h4; exact absurd rfl h5
        | opens h0 h1 h2 h3 => exact h1
        | puts d h0 h1 h2 h3 => rw [hop] at h0; simp at h0
        | writes d b h0 h1 h2 h3 h4 =>
          rcases h4 with ⟨h4, _⟩ | ⟨h4 | h4, _⟩
          · rw [h4] at hop; have := congrArg List.length hop; simp at this
          · rw [hop] at h4; simp at h4
          · rw [hop] at h4; simp at h4
      · intro j hj
        exfalso
        cases he with
        | other h1 h2 h3 h4 =>
          rcases h4 with h4 | ⟨e, h4, h5⟩
          · rw [h4] at hop; have := congrArg List.length hop; simp at this
          · rw [hop] at h4; simp at h4; subst h4; exact absurd rfl h5
        | opens h0 h1 h2 h3 => rw [h2] at hj; omega
        | puts d h0 h1 h2 h3 => rw [hop] at h0; simp at h0
        | writes d b h0 h1 h2 h3 h4 =>
          rcases h4 with ⟨h4, _⟩ | ⟨h4 | h4, _⟩
          · rw [h4] at hop; have := congrArg List.length hop; simp at this
          · rw [hop] at h4; simp at h4
          · rw [hop] at h4; simp at h4
    have hph : phases p (S.proc k).rest = phases p (S'.proc k).rest := by
      cases he with
      | other h1 h2 h3 h4 =>
        rcases h4 with h4 | ⟨e, h4, h5⟩
        · rw [h4]
        · rw [h4, phases_skip h5]
      | opens h0 h1 h2 h3 => exact absurd h0 hop
      | puts d h0 h1 h2 h3 => rw [h0]; simp [phases]
      | writes d b h0 h1 h2 h3 h4 =>
        rcases h4 with ⟨h4, _⟩ | ⟨h4 | h4, _⟩ <;> rw [h4] <;> simp [phases]
    have hall : ∀ i, phases p (S.proc i).rest = [] := by
      intro i
      by_cases hi : i = k
      · subst hi; rw [hph]; exact hn i
      · rw [← ho i hi]; exact hn i
    rcases ih with ⟨i, hi⟩ | ih | ⟨q, f, hq, hf, hl, hj⟩
    · exact absurd (hall i) hi
    · exact .inl ih
    · right
      by_cases hw : ∃ d b, (S.proc k).buf p = d ++ b ∧ S'.fs p = some (pwrite ((S.fs p).getD []) ((S.proc k).off p) d) ∧
          (S'.proc k).off p = (S.proc k).off p + d.length ∧
          ((((S.proc k).rest = (S'.proc k).rest ∧ (S.proc k).buf p ≠ [])) ∨
            (((S.proc k).rest = .flush p :: (S'.proc k).rest ∨ (S.proc k).rest = .close p :: (S'.proc k).rest) ∧ b = []))
      · obtain ⟨d, b, h0, h1, h2, h4⟩ := hw
        rcases hpi with ⟨hb1, hb2, _⟩ | ⟨w, ph, hw, hp⟩
        · exact (Closed.absurd_writes ⟨hb1, hb2⟩ h4).elim
        have hCk : C = w ++ (d ++ (b ++ curPuts p (S.proc k).rest)) := by
          rcases hC k with h | h
          · rw [hp] at h; simp at h
          · rw [hp, hall k, List.getLast?_append_of_ne_nil _ (by simp), h0] at h
            simpa using h.symm
        have hlen : (S.proc k).off p + d.length ≤ C.length := by
          rw [hCk, ← hw]; simp
        rw [hf, Option.getD_some] at h1
        refine ⟨q, _, hq, h1, pwrite_length_le hl hlen, fun j hjq => ?_⟩
        have hd : ∀ j, (S.proc k).off p ≤ j → j < (S.proc k).off p + d.length → d[j - (S.proc k).off p]? = C[j]? := by
          intro j h1 h2
          rw [hCk, List.getElem?_append_right (by omega), List.getElem?_append_left (by omega), hw]
        rw [pwrite_get]
        by_cases hqk : q = k
        · subst hqk
          rw [h2] at hjq
          split
          · rename_i hlt
            have hj' := hj j hlt
            split
            · exact hj'
            · rename_i hge
              exfalso
              rw [List.getElem?_eq_none (by omega)] at hj'
              have := List.getElem?_eq_none_iff.1 hj'.symm
              omega
          · exact hd j (by omega) hjq
        · rw [ho q hqk] at hjq
          have hj' := hj j hjq
          split
          · split
            · exact hj'
            · rename_i hlt hge
              exfalso
              rw [List.getElem?_eq_none (by omega)] at hj'
              have := List.getElem?_eq_none_iff.1 hj'.symm
              omega
          · split
            · rename_i h3 h4
              exact hd j (by omega) h4
            · exact hj'
      · have hsame : S'.fs p = S.fs p ∧ (S'.proc k).off p = (S.proc k).off p := by
          cases he with
          | other h1 h2 h3 h4 => exact ⟨h1, h2⟩
          | opens h0 h1 h2 h3 => exact absurd h0 hop
          | puts d h0 h1 h2 h3 => exact ⟨h1, h2⟩
          | writes d b h0 h1 h2 h3 h4 => exact absurd ⟨d, b, h0, h1, h2, h4⟩ hw
        refine ⟨q, f, hq, hsame.1.trans hf, hl, fun j hjq => hj j ?_⟩
        by_cases hqk : q = k
        · subst hqk; rwa [hsame.2] at hjq
        · rwa [ho q hqk] at hjq

theorem done_last {p : String} (hprog : ∀ i, Fresh p (prog i)) (ht : ∀ i, Tidy p (prog i)) (C : Bytes)
    (hC : ∀ i, phases p (prog i) = [] ∨ (phases p (prog i)).getLast? = some C) (hne : ∃ i, phases p (prog i) ≠ [])
    (h : Reachable fs0 prog S) (hd : Done S) : S.fs p = some C := by
  rcases reach_last hprog C hC h with ⟨i, hi⟩ | hn | ⟨q, f, hq, hf, hl, hj⟩
  · rw [hd i] at hi; exact absurd rfl hi
  · obtain ⟨i, hi⟩ := hne; exact absurd (hn i) hi
  · rw [hf]
    congr 1
    have hb : (S.proc q).buf p = [] := by
      rcases (reach_tidy ht h q).2 with h | h
      · exact h
      · rw [hd q] at h; simp at h
    have hoff : (S.proc q).off p = C.length := by
      rcases reach_pinv hprog h q with ⟨_, _, h3⟩ | ⟨w, ph, hw, hp⟩
      · rw [hd q] at h3; exact absurd h3.symm hq
      · rcases hC q with h | h
        · exact absurd h hq
        · rw [hp, hd q, hb] at h
          simp [phases, curPuts] at h
          rw [← hw, h]
    rw [hoff] at hj
    apply List.ext_getElem?
    intro j
    by_cases hlt : j < C.length
    · exact hj j hlt
    · rw [List.getElem?_eq_none (by omega), List.getElem?_eq_none (by omega)]

/-! ## The programs of a run -/

theorem Fresh.curPuts {p : String} : ∀ {r : List Ev}, Fresh p r → curPuts p r = []
  | [], _ => rfl
  | .open q :: r, h => by
    simp only [Files.curPuts]
    split
    · rfl
    · exact Fresh.curPuts (h.resolve_left (by assumption))
  | .put q d :: r, h => by
    simp only [Files.curPuts, if_neg h.1]
    exact Fresh.curPuts h.2
  | .flush q :: r, h => Fresh.curPuts (r := r) h.2
  | .close q :: r, h => Fresh.curPuts (r := r) h.2

theorem curPuts_append {p : String} {b : List Ev} (hb : Fresh p b) : ∀ a, curPuts p (a ++ b) = curPuts p a
  | [] => by simpa [curPuts] using hb.curPuts
  | .open q :: a => by simp only [List.cons_append, curPuts, curPuts_append hb a]
  | .put q d :: a => by simp only [List.cons_append, curPuts, curPuts_append hb a]
  | .flush q :: a => by simp only [List.cons_append, curPuts, curPuts_append hb a]
  | .close q :: a => by simp only [List.cons_append, curPuts, curPuts_append hb a]

theorem phases_append {p : String} {b : List Ev} (hb : Fresh p b) : ∀ a, phases p (a ++ b) = phases p a ++ phases p b
  | [] => rfl
  | .open q :: a => by
    simp only [List.cons_append, phases, phases_append hb a, curPuts_append hb a]
    split <;> simp
  | .put q d :: a => by simp only [List.cons_append, phases, phases_append hb a]
  | .flush q :: a => by simp only [List.cons_append, phases, phases_append hb a]
  | .close q :: a => by simp only [List.cons_append, phases, phases_append hb a]

theorem fresh_append {p : String} {b : List Ev} (hb : Fresh p b) : ∀ {a}, Fresh p a → Fresh p (a ++ b)
  | [], _ => hb
  | .open q :: a, h => by
    rcases h with h | h
    · exact .inl h
    · exact .inr (fresh_append hb h)
  | .put q d :: a, h => ⟨h.1, fresh_append hb h.2⟩
  | .flush q :: a, h => ⟨h.1, fresh_append hb h.2⟩
  | .close q :: a, h => ⟨h.1, fresh_append hb h.2⟩

theorem tidy_append {p : String} {b : List Ev} (hb : Tidy p b) : ∀ {a}, Tidy p a → Tidy p (a ++ b)
  | [], _ => hb
  | .open q :: a, h => tidy_append (a := a) hb h
  | .put q d :: a, h => ⟨fun hq => List.mem_append_left _ (h.1 hq), tidy_append (a := a) hb h.2⟩
  | .flush q :: a, h => tidy_append (a := a) hb h
  | .close q :: a, h => tidy_append (a := a) hb h

variable {Mesh : Type} (K : Contents Mesh) (name : String) (me : ℕ)

theorem fresh_event (p : String) (M : Mesh) (e : Event) : Fresh p (eventEvs K name me M e).2 := by
  cases e <;> simp only [eventEvs] <;> (try split) <;>
    simp only [Fresh, refineEvs, updateEvs, errorEvs, outputEvs] <;> grind

theorem tidy_event (p : String) (M : Mesh) (e : Event) : Tidy p (eventEvs K name me M e).2 := by
  cases e <;> simp only [eventEvs] <;> (try split) <;>
    simp only [Tidy, refineEvs, updateEvs, errorEvs, outputEvs] <;> simp <;> grind

theorem fresh_update (p : String) (M : Mesh) : Fresh p (updateEvs K M) := by
  simp only [Fresh, updateEvs]; grind

theorem fresh_output (p : String) (M : Mesh) : Fresh p (outputEvs K name M) := by
  simp only [Fresh, outputEvs]; grind

theorem fresh_events (p : String) : ∀ (es : List Event) (M : Mesh), Fresh p (programEvs K name me M es)
  | [], _ => trivial
  | e :: es, M => fresh_append (fresh_events p es _) (fresh_event K name me p M e)

theorem tidy_events (p : String) : ∀ (es : List Event) (M : Mesh), Tidy p (programEvs K name me M es)
  | [], _ => trivial
  | e :: es, M => tidy_append (tidy_events p es _) (tidy_event K name me p M e)

/-- The mesh after a list of steps. -/
def meshAfter (M : Mesh) (es : List Event) : Mesh := es.foldl (fun M e => (eventEvs K name me M e).1) M

theorem programEvs_append : ∀ (a b : List Event) (M : Mesh),
    programEvs K name me M (a ++ b) = programEvs K name me M a ++ programEvs K name me (meshAfter K name me M a) b
  | [], _, _ => rfl
  | e :: a, b, M => by
    simp only [List.cons_append, programEvs, programEvs_append a b, List.append_assoc]
    rfl

/-- One local refinement cycle. -/
def cyc (M : Mesh) : Mesh := K.conformal (K.adapt M)

/-- `k` cycles followed by refinement. -/
def body : ℕ → List Event
  | 0 => []
  | k + 1 => body k ++ [.reinit, .solve, .adaptiveRefinement, .updateTriangulation]

theorem run_eq (g : Bool) (n pre : ℕ) :
    run g n pre = [.readDomain, .refine (if g then n else pre), .updateTriangulation] ++
      (body (if g then 0 else n) ++ [.reinit, .solve, .computeErrors, .output]) := by
  have hb : ∀ k m, k ≤ m → (List.range k).flatMap (cycleEvents false m) = body k := by
    intro k m
    induction k with
    | zero => intro _; rfl
    | succ k ih =>
      intro hk
      rw [List.range_succ, List.flatMap_append, ih (by omega)]
      have : k < m := by omega
      simp [cycleEvents, body, this]
  cases g
  · simp only [run, List.range_succ, List.flatMap_append, Bool.false_eq_true, if_false, hb n n le_rfl]
    simp [cycleEvents]
  · simp [run, cycleEvents, body]

theorem meshAfter_body (k : ℕ) (M : Mesh) : meshAfter K name me M (body k) = (cyc K)^[k] M := by
  induction k with
  | zero => rfl
  | succ k ih =>
    rw [Function.iterate_succ_apply', ← ih]
    simp [meshAfter, body, eventEvs, cyc]

theorem phases_events (p : String) (e : Event) (es : List Event) (M : Mesh) :
    phases p (programEvs K name me M (e :: es)) =
      phases p (eventEvs K name me M e).2 ++ phases p (programEvs K name me (eventEvs K name me M e).1 es) :=
  phases_append (fresh_events K name me p es _) _

theorem phases_events_append (p : String) (a b : List Event) (M : Mesh) :
    phases p (programEvs K name me M (a ++ b)) =
      phases p (programEvs K name me M a) ++ phases p (programEvs K name me (meshAfter K name me M a) b) := by
  rw [programEvs_append, phases_append (fresh_events K name me p _ _)]

/-- Contents of `p` written by `update_triangulation` and at the end. -/
theorem phases_body (p : String) (k : ℕ) (M : Mesh) :
    phases p (programEvs K name me M (body k)) =
      (List.range k).flatMap fun j => phases p (updateEvs K ((cyc K)^[j + 1] M)) := by
  induction k with
  | zero => rfl
  | succ k ih =>
    rw [body, phases_events_append, ih, List.range_succ, List.flatMap_append, meshAfter_body]
    congr 1
    simp only [phases_events, eventEvs, programEvs, phases, List.nil_append, List.append_nil]
    simp [Function.iterate_succ_apply', cyc]

theorem phases_program (p : String) (M : Mesh) (g : Bool) (n pre : ℕ) :
    phases p (program K name M g n pre me) =
      phases p (refineEvs K (K.refine (if g then n else pre) M)) ++
      ((List.range ((if g then 0 else n) + 1)).flatMap fun j =>
        phases p (updateEvs K ((cyc K)^[j] (K.conformal (K.refine (if g then n else pre) M))))) ++
      (if me = 0 then phases p (errorEvs K (lastMesh K M g n pre)) ++ phases p (outputEvs K name (lastMesh K M g n pre))
        else []) := by
  have hl : lastMesh K M g n pre =
      (cyc K)^[if g then 0 else n] (K.conformal (K.refine (if g then n else pre) M)) := by
    cases g <;> simp [lastMesh, cyc] <;> rfl
  rw [program, run_eq, phases_events_append, phases_events_append, phases_body, meshAfter_body]
  have h3 : meshAfter K name me M [.readDomain, .refine (if g then n else pre), .updateTriangulation] =
      K.conformal (K.refine (if g then n else pre) M) := rfl
  rw [h3, ← hl]
  rw [List.range_succ_eq_map, List.flatMap_cons, List.flatMap_map]
  by_cases hm : me = 0
  · simp [eventEvs, programEvs, hm, hl]
    rw [phases_append (fresh_update K p _), phases_append (fresh_output K name p _)]
    simp
  · simp [eventEvs, programEvs, phases, hm]
    rw [phases_append (fresh_update K p _)]
    simp

theorem length_scalarVtu : 19 ≤ (scalarVtu name).length := by
  have : "_scalar_results".length = 15 ∧ ".vtu".length = 4 := by decide
  simp only [scalarVtu, String.length_append]; omega

theorem length_vectorVtu : 19 ≤ (vectorVtu name).length := by
  have : "_vector_results".length = 15 ∧ ".vtu".length = 4 := by decide
  simp only [vectorVtu, String.length_append]; omega

theorem scalarVtu_ne (q : String) (h : q.length < 19) : scalarVtu name ≠ q := by
  rintro rfl; have := length_scalarVtu name; omega

theorem vectorVtu_ne (q : String) (h : q.length < 19) : vectorVtu name ≠ q := by
  rintro rfl; have := length_vectorVtu name; omega

theorem scalarVtu_ne_vectorVtu : scalarVtu name ≠ vectorVtu name := by
  intro h
  have := congrArg String.toList h
  simp [scalarVtu, vectorVtu] at this

/-- The six files of a run. -/
def runFiles : List String :=
  [meshInp, meshVtu, vectorErrorVtu, scalarErrorVtu, scalarVtu name, vectorVtu name]

/-- The names are different, whatever the name given by the user. -/
theorem runFiles_nodup : (runFiles name).Nodup := by
  have h1 := fun q h => (scalarVtu_ne name q h).symm
  have h2 := fun q h => (vectorVtu_ne name q h).symm
  have h3 := scalarVtu_ne_vectorVtu name
  simp only [runFiles, List.nodup_cons, List.mem_cons, List.not_mem_nil, or_false, not_or]
  refine ⟨⟨by decide, by decide, by decide, h1 _ (by decide), h2 _ (by decide)⟩,
    ⟨by decide, by decide, h1 _ (by decide), h2 _ (by decide)⟩, ⟨by decide, h1 _ (by decide), h2 _ (by decide)⟩,
    ⟨h1 _ (by decide), h2 _ (by decide)⟩, h3, by simp⟩

section contents

variable (M : Mesh) (g : Bool) (n pre : ℕ)

theorem flatMap_single {α β : Type} (l : List α) (f : α → β) : l.flatMap (fun a => [f a]) = l.map f := by
  induction l <;> simp_all

theorem phases_inp : phases meshInp (program K name M g n pre me) =
    K.ucd (K.refine (if g then n else pre) M) ::
      (List.range ((if g then 0 else n) + 1)).map fun j =>
        K.ucd ((cyc K)^[j] (K.conformal (K.refine (if g then n else pre) M))) := by
  have h1 := scalarVtu_ne name meshInp (by decide)
  have h2 := vectorVtu_ne name meshInp (by decide)
  rw [phases_program, ← flatMap_single]
  simp [phases, refineEvs, updateEvs, errorEvs, outputEvs, curPuts, h1, h2, show meshVtu ≠ meshInp by decide,
    show vectorErrorVtu ≠ meshInp by decide, show scalarErrorVtu ≠ meshInp by decide]

theorem phases_vtu : phases meshVtu (program K name M g n pre me) =
      (List.range ((if g then 0 else n) + 1)).map fun j =>
        K.vtu ((cyc K)^[j] (K.conformal (K.refine (if g then n else pre) M))) := by
  have h1 := scalarVtu_ne name meshVtu (by decide)
  have h2 := vectorVtu_ne name meshVtu (by decide)
  rw [phases_program, ← flatMap_single]
  simp [phases, refineEvs, updateEvs, errorEvs, outputEvs, curPuts, h1, h2, show meshInp ≠ meshVtu by decide,
    show vectorErrorVtu ≠ meshVtu by decide, show scalarErrorVtu ≠ meshVtu by decide]

theorem phases_vectorError : phases vectorErrorVtu (program K name M g n pre me) =
    if me = 0 then [K.vectorError (lastMesh K M g n pre)] else [] := by
  have h1 := scalarVtu_ne name vectorErrorVtu (by decide)
  have h2 := vectorVtu_ne name vectorErrorVtu (by decide)
  rw [phases_program]
  simp [phases, refineEvs, updateEvs, errorEvs, outputEvs, curPuts, h1, h2, show meshInp ≠ vectorErrorVtu by decide,
    show meshVtu ≠ vectorErrorVtu by decide, show scalarErrorVtu ≠ vectorErrorVtu by decide]

theorem phases_scalarError : phases scalarErrorVtu (program K name M g n pre me) =
    if me = 0 then [K.scalarError (lastMesh K M g n pre)] else [] := by
  have h1 := scalarVtu_ne name scalarErrorVtu (by decide)
  have h2 := vectorVtu_ne name scalarErrorVtu (by decide)
  rw [phases_program]
  simp [phases, refineEvs, updateEvs, errorEvs, outputEvs, curPuts, h1, h2, show meshInp ≠ scalarErrorVtu by decide,
    show meshVtu ≠ scalarErrorVtu by decide, show vectorErrorVtu ≠ scalarErrorVtu by decide]

theorem phases_scalar : phases (scalarVtu name) (program K name M g n pre me) =
    if me = 0 then [K.scalarResults (lastMesh K M g n pre)] else [] := by
  have h1 := fun q h => (scalarVtu_ne name q h).symm
  have h2 := (scalarVtu_ne_vectorVtu name).symm
  rw [phases_program]
  simp [phases, refineEvs, updateEvs, errorEvs, outputEvs, curPuts, h1 meshInp (by decide), h1 meshVtu (by decide),
    h1 vectorErrorVtu (by decide), h1 scalarErrorVtu (by decide), h2]

theorem phases_vector : phases (vectorVtu name) (program K name M g n pre me) =
    if me = 0 then [K.vectorResults (lastMesh K M g n pre)] else [] := by
  have h1 := fun q h => (vectorVtu_ne name q h).symm
  have h2 := scalarVtu_ne_vectorVtu name
  rw [phases_program]
  simp [phases, refineEvs, updateEvs, errorEvs, outputEvs, curPuts, h1 meshInp (by decide), h1 meshVtu (by decide),
    h1 vectorErrorVtu (by decide), h1 scalarErrorVtu (by decide), h2]

theorem phases_other {p : String} (hp : p ∉ runFiles name) : phases p (program K name M g n pre me) = [] := by
  simp only [runFiles, List.mem_cons, List.not_mem_nil, or_false, not_or] at hp
  obtain ⟨h1, h2, h3, h4, h5, h6⟩ := hp
  rw [phases_program]
  simp [phases, refineEvs, updateEvs, errorEvs, outputEvs, curPuts, Ne.symm h1, Ne.symm h2, Ne.symm h3, Ne.symm h4,
    Ne.symm h5, Ne.symm h6]

end contents

/-! ## Order of the files -/

theorem reach_suffix (h : Reachable fs0 prog S) (i : Fin P) : (S.proc i).rest <:+ prog i := by
  induction h generalizing i with
  | refl => exact List.suffix_rfl
  | tail _ hs ih =>
    cases hs with
    | exec k e r h =>
      by_cases hk : i = k
      · subst hk
        have := ih i
        rw [h] at this
        simp only [Function.update_self]
        refine List.IsSuffix.trans ?_ this
        cases e <;> exact List.suffix_cons _ _
      · simpa [Function.update_of_ne hk] using ih i
    | spill k q n h =>
      by_cases hk : i = k
      · subst hk; simpa [spill] using ih i
      · simpa [Function.update_of_ne hk] using ih i

/-- `p` is only closed. -/
def NoUse (p : String) (l : List Ev) : Prop := ∀ e ∈ l, e = .close p ∨ e.path ≠ p

theorem NoUse.curPuts {p : String} : ∀ {l : List Ev}, NoUse p l → curPuts p l = []
  | [], _ => rfl
  | e :: l, h => by
    have hl : NoUse p l := fun e he => h e (List.mem_cons_of_mem _ he)
    rcases h e List.mem_cons_self with rfl | he
    · simpa [Files.curPuts] using hl.curPuts
    · rw [curPuts_skip he]; exact hl.curPuts

theorem NoUse.phases {p : String} : ∀ {l : List Ev}, NoUse p l → phases p l = []
  | [], _ => rfl
  | e :: l, h => by
    have hl : NoUse p l := fun e he => h e (List.mem_cons_of_mem _ he)
    rcases h e List.mem_cons_self with rfl | he
    · simpa [Files.phases] using hl.phases
    · rw [phases_skip he]; exact hl.phases

theorem NoUse.suffix {p : String} {l l' : List Ev} (h : NoUse p l) (hs : l' <:+ l) : NoUse p l' :=
  fun e he => h e (hs.subset he)

theorem suffix_split {α : Type} {l A B : List α} {x : α} (h : l <:+ A ++ x :: B) :
    l <:+ B ∨ ∃ A', l = A' ++ x :: B := by
  obtain ⟨t, ht⟩ := h
  rcases List.append_eq_append_iff.1 ht with ⟨a, h1, h2⟩ | ⟨c, h1, h2⟩
  · exact .inr ⟨a, h2⟩
  · cases c with
    | nil => exact .inr ⟨[], by simpa using h2.symm⟩
    | cons y c =>
      simp only [List.cons_append, List.cons.injEq] at h2
      exact .inl ⟨c, h2.2.symm⟩

/-- After a flush and without further data the buffer is empty. -/
theorem reach_flushed {p : String} {q : Fin P} {A B : List Ev} (hA : prog q = A ++ .flush p :: B) (hB : NoUse p B)
    (h : Reachable fs0 prog S) : (S.proc q).rest <:+ B → (S.proc q).buf p = [] := by
  induction h with
  | refl => intro _; rfl
  | @tail S S' hr hs ih =>
    intro hsuf
    obtain ⟨k, he, ho⟩ := hs.eff p
    by_cases hk : q = k
    · subst hk
      have hpre := reach_suffix hr q
      rw [hA] at hpre
      have hcase := suffix_split hpre
      cases he with
      | other h1 h2 h3 h4 =>
        rw [h3]
        rcases hcase with h | ⟨A', h⟩
        · exact ih h
        · exfalso
          rcases h4 with h4 | ⟨e, h4, h5⟩
          · rw [← h4, h] at hsuf
            have := hsuf.length_le
            simp at this; omega
          · rw [h4] at h
            cases A' with
            | nil => simp at h; rw [h.1] at h5; exact h5 rfl
            | cons a A' =>
              simp at h
              rw [h.2] at hsuf
              have := hsuf.length_le
              simp at this; omega
      | opens h0 h1 h2 h3 => exact h3
      | puts d h0 h1 h2 h3 =>
        exfalso
        rcases hcase with h | ⟨A', h⟩
        · have := hB (.put p d) (h.subset (by rw [h0]; simp))
          simp [Ev.path] at this
        · rw [h0] at h
          cases A' with
          | nil => simp at h
          | cons a A' =>
            simp at h
            rw [h.2] at hsuf
            have := hsuf.length_le
            simp at this; omega
      | writes d b h0 h1 h2 h3 h4 =>
        rcases h4 with ⟨h4, _⟩ | ⟨_, h4⟩
        · rw [← h4] at hsuf
          have := ih hsuf
          rw [h0] at this
          rw [h3]; exact (List.append_eq_nil_iff.1 this).2
        · rw [h3, h4]
    · rw [ho q hk] at hsuf ⊢
      exact ih hsuf

/-- A file only process `q` writes, flushed before another one is opened, is complete when the other one has been
touched, or more generally when the rest of the program does not use it. -/
theorem reach_flush_complete {p : String} (hprog : ∀ i, Fresh p (prog i)) (q : Fin P)
    (hq : ∀ i, i ≠ q → phases p (prog i) = []) {A B : List Ev} (hA : prog q = A ++ .flush p :: B) (hB : NoUse p B)
    {c : Bytes} (hc : (phases p (prog q)).getLast? = some c) (h : Reachable fs0 prog S)
    (hs : (S.proc q).rest <:+ B) : S.fs p = some c := by
  have hr := hB.suffix hs
  rcases reach_single hprog q hq h with ⟨_, _, hp⟩ | ⟨w, ph, hf, _, hp⟩
  · rw [hr.phases] at hp; rw [← hp] at hc; simp at hc
  · rw [hp, hr.phases, hr.curPuts, reach_flushed hA hB h hs] at hc
    simp at hc
    rw [hf, hc]

/-- A file opened only once: if it has been touched, what precedes its opening has been executed. -/
theorem reach_touched {p : String} (hprog : ∀ i, Fresh p (prog i)) (q : Fin P)
    (hq : ∀ i, i ≠ q → phases p (prog i) = []) {A B : List Ev} (hA : prog q = A ++ .open p :: B)
    {c : Bytes} (hc : phases p (prog q) = [c]) (h : Reachable fs0 prog S) (hs : S.fs p ≠ fs0 p) :
    (S.proc q).rest <:+ B := by
  have hsuf := reach_suffix h q
  rw [hA] at hsuf
  rcases suffix_split hsuf with h' | ⟨A', h'⟩
  · exact h'
  · exfalso
    rcases reach_single hprog q hq h with ⟨hf, _, hp⟩ | ⟨w, ph, hf, _, hp⟩
    · exact hs hf
    · have hl := congrArg List.length hp
      have hpos : 0 < (phases p (S.proc q).rest).length := by
        rw [h']
        clear h' hsuf hp hl
        induction A' with
        | nil => simp [phases]
        | cons a A' ih =>
          cases a <;> simp only [List.cons_append, phases] <;> first | exact ih | (split <;> simp_all)
      rw [hc] at hl
      simp at hl
      omega

/-- A file opened only once whose opening has not been executed is unchanged. -/
theorem reach_untouched_yet {p : String} (hprog : ∀ i, Fresh p (prog i)) (q : Fin P)
    (hq : ∀ i, i ≠ q → phases p (prog i) = []) {c : Bytes} (hc : phases p (prog q) = [c]) (h : Reachable fs0 prog S)
    (hs : phases p (S.proc q).rest ≠ []) : S.fs p = fs0 p := by
  rcases reach_single hprog q hq h with ⟨hf, _, _⟩ | ⟨w, ph, _, _, hp⟩
  · exact hf
  · exfalso
    rw [hc] at hp
    have hl := congrArg List.length hp
    have := List.length_pos_iff.2 hs
    simp at hl
    omega

/-- Any process can execute the next part of its program, leaving the others where they are. -/
theorem reach_exec (i : Fin P) : ∀ (A B : List Ev) (S : Sys P), Reachable fs0 prog S → (S.proc i).rest = A ++ B →
    ∃ S', Reachable fs0 prog S' ∧ (S'.proc i).rest = B ∧ ∀ j, j ≠ i → S'.proc j = S.proc j
  | [], _, S, h, hr => ⟨S, h, hr, fun _ _ => rfl⟩
  | e :: A, B, S, h, hr => by
    have hs : Step S _ := .exec S i e (A ++ B) hr
    obtain ⟨S', h1, h2, h3⟩ := reach_exec i A B _ (h.tail hs) (by cases e <;> simp [exec])
    exact ⟨S', h1, h2, fun j hj => by rw [h3 j hj]; simp [Function.update_of_ne hj]⟩

/-- Whatever has happened, the processes that have not crashed can finish. -/
theorem reach_done (S : Sys P) (h : Reachable fs0 prog S) : ∃ S', Reachable fs0 prog S' ∧ Done S' := by
  have key : ∀ k ≤ P, ∃ S', Reachable fs0 prog S' ∧ ∀ i : Fin P, i.val < k → (S'.proc i).rest = [] := by
    intro k
    induction k with
    | zero => intro _; exact ⟨S, h, fun i hi => absurd hi (by omega)⟩
    | succ k ih =>
      intro hk
      obtain ⟨S1, h1, h2⟩ := ih (by omega)
      obtain ⟨S2, h3, h4, h5⟩ := reach_exec ⟨k, hk⟩ (S1.proc ⟨k, hk⟩).rest [] S1 h1 (by simp)
      refine ⟨S2, h3, fun i hi => ?_⟩
      by_cases he : i = ⟨k, hk⟩
      · rw [he]; exact h4
      · rw [h5 i he]
        refine h2 i ?_
        have : i.val ≠ k := fun h => he (Fin.ext h)
        omega
  obtain ⟨S', h1, h2⟩ := key P le_rfl
  exact ⟨S', h1, fun i => h2 i i.2⟩

/-! ## The theorems -/

theorem program_tail (M : Mesh) (g : Bool) (n pre : ℕ) : ∃ A, program K name M g n pre me =
    A ++ (updateEvs K (lastMesh K M g n pre) ++ if me = 0 then errorEvs K (lastMesh K M g n pre) ++
      outputEvs K name (lastMesh K M g n pre) else []) := by
  have hl : lastMesh K M g n pre =
      (cyc K)^[if g then 0 else n] (K.conformal (K.refine (if g then n else pre) M)) := by
    cases g <;> simp [lastMesh, cyc] <;> rfl
  rw [hl, program, run_eq, programEvs_append, programEvs_append, meshAfter_body]
  have h3 : meshAfter K name me M [.readDomain, .refine (if g then n else pre), .updateTriangulation] =
      K.conformal (K.refine (if g then n else pre) M) := rfl
  rw [h3]
  rcases (if g then 0 else n) with _ | k
  · by_cases hm : me = 0
    · exact ⟨refineEvs K (K.refine (if g then n else pre) M), by simp [programEvs, eventEvs, body, hm]⟩
    · exact ⟨refineEvs K (K.refine (if g then n else pre) M), by simp [programEvs, eventEvs, body, hm]⟩
  · rw [body, programEvs_append, meshAfter_body, Function.iterate_succ_apply']
    refine ⟨programEvs K name me M [.readDomain, .refine (if g then n else pre), .updateTriangulation] ++
      programEvs K name me (K.conformal (K.refine (if g then n else pre) M)) (body k), ?_⟩
    by_cases hm : me = 0 <;> simp [programEvs, eventEvs, hm, cyc]

section theorems

variable (M : Mesh) (g : Bool) (n pre : ℕ)

/-- The programs of the `P` processes of a run. -/
abbrev programs (P : ℕ) (i : Fin P) : List Ev := program K name M g n pre i

theorem phases_inp_last : (phases meshInp (program K name M g n pre me)).getLast? =
    some (K.ucd (lastMesh K M g n pre)) := by
  rw [phases_inp, List.range_succ, List.map_append, ← List.cons_append, List.getLast?_append_of_ne_nil _ (by simp)]
  cases g <;> simp [lastMesh, cyc] <;> rfl

theorem phases_vtu_last : (phases meshVtu (program K name M g n pre me)).getLast? =
    some (K.vtu (lastMesh K M g n pre)) := by
  rw [phases_vtu, List.range_succ, List.map_append, List.getLast?_append_of_ne_nil _ (by simp)]
  cases g <;> simp [lastMesh, cyc] <;> rfl

/-- A run that ends, with any number of processes, whatever the order in which the processes open, write and close the files
they share, and whatever was in the files before: both mesh files hold the mesh of the last solve, the error and result files the
results on that mesh, all complete; no other file has been touched. -/
theorem C103_complete_run {P : ℕ} (hP : 0 < P) {fs0 : FS} {S : Sys P}
    (h : Reachable fs0 (programs K name M g n pre P) S) (hd : Done S) :
    S.fs "meshResult.inp" = some (K.ucd (lastMesh K M g n pre)) ∧
    S.fs "mesh.vtu" = some (K.vtu (lastMesh K M g n pre)) ∧
    S.fs "vector_error.vtu" = some (K.vectorError (lastMesh K M g n pre)) ∧
    S.fs "scalar_error.vtu" = some (K.scalarError (lastMesh K M g n pre)) ∧
    S.fs (name ++ "_scalar_results" ++ ".vtu") = some (K.scalarResults (lastMesh K M g n pre)) ∧
    S.fs (name ++ "_vector_results" ++ ".vtu") = some (K.vectorResults (lastMesh K M g n pre)) ∧
    ∀ p, p ∉ ["meshResult.inp", "mesh.vtu", "vector_error.vtu", "scalar_error.vtu",
      name ++ "_scalar_results" ++ ".vtu", name ++ "_vector_results" ++ ".vtu"] → S.fs p = fs0 p := by
  have hf : ∀ p (i : Fin P), Fresh p (programs K name M g n pre P i) := fun p i => fresh_events K name i p _ _
  have ht : ∀ p (i : Fin P), Tidy p (programs K name M g n pre P i) := fun p i => tidy_events K name i p _ _
  have one : ∀ p C, (∀ me : ℕ, phases p (program K name M g n pre me) = if me = 0 then [C] else []) → S.fs p = some C := by
    intro p C hp
    refine done_last (hf p) (ht p) C (fun i => ?_) ⟨⟨0, hP⟩, ?_⟩ h hd
    · rw [programs, hp]
      by_cases hi : i.val = 0 <;> simp [hi]
    · rw [programs, hp]; simp
  refine ⟨?_, ?_, one _ _ fun me => phases_vectorError K name me M g n pre, one _ _ fun me => phases_scalarError K name me M g n pre,
    one _ _ fun me => phases_scalar K name me M g n pre, one _ _ fun me => phases_vector K name me M g n pre, fun p hp => ?_⟩
  · exact done_last (hf _) (ht _) _ (fun i => .inr (phases_inp_last K name i M g n pre))
      ⟨⟨0, hP⟩, fun h => by have := phases_inp_last K name 0 M g n pre; rw [show phases meshInp (program K name M g n pre 0) = [] from h] at this; simp at this⟩ h hd
  · exact done_last (hf _) (ht _) _ (fun i => .inr (phases_vtu_last K name i M g n pre))
      ⟨⟨0, hP⟩, fun h => by have := phases_vtu_last K name 0 M g n pre; rw [show phases meshVtu (program K name M g n pre 0) = [] from h] at this; simp at this⟩ h hd
  · exact reach_untouched (hf p) (fun i => phases_other K name i M g n pre hp) h

/-- From any state a run can be in it can go on to its end: the theorem above is about every run that is not stopped from
outside. -/
theorem C103_can_end {P : ℕ} {fs0 : FS} {S : Sys P} (h : Reachable fs0 (programs K name M g n pre P) S) :
    ∃ S', Relation.ReflTransGen Step S S' ∧ Done S' := by
  have key : ∀ k ≤ P, ∃ S', Relation.ReflTransGen Step S S' ∧ ∀ i : Fin P, i.val < k → (S'.proc i).rest = [] := by
    have ex : ∀ (i : Fin P) (A : List Ev) (T : Sys P), (T.proc i).rest = A →
        ∃ T', Relation.ReflTransGen Step T T' ∧ (T'.proc i).rest = [] ∧ ∀ j, j ≠ i → T'.proc j = T.proc j := by
      intro i A
      induction A with
      | nil => exact fun T hT => ⟨T, .refl, hT, fun _ _ => rfl⟩
      | cons e A ih =>
        intro T hT
        have hs : Step T _ := .exec T i e A hT
        obtain ⟨T', h1, h2, h3⟩ := ih ⟨(exec T.fs (T.proc i) e A).1, Function.update T.proc i (exec T.fs (T.proc i) e A).2⟩
          (by cases e <;> simp [exec])
        exact ⟨T', .head hs h1, h2, fun j hj => by rw [h3 j hj]; simp [Function.update_of_ne hj]⟩
    intro k
    induction k with
    | zero => intro _; exact ⟨S, .refl, fun i hi => absurd hi (by omega)⟩
    | succ k ih =>
      intro hk
      obtain ⟨S1, h1, h2⟩ := ih (by omega)
      obtain ⟨S2, h3, h4, h5⟩ := ex ⟨k, hk⟩ _ S1 rfl
      refine ⟨S2, h1.trans h3, fun i hi => ?_⟩
      by_cases he : i = ⟨k, hk⟩
      · rw [he]; exact h4
      · rw [h5 i he]
        refine h2 i ?_
        have : i.val ≠ k := fun h => he (Fin.ext h)
        omega
  obtain ⟨S', h1, h2⟩ := key P le_rfl
  exact ⟨S', h1, fun i => h2 i i.2⟩

theorem single_prefix {P : ℕ} {prog : Fin P → List Ev} {fs0 : FS} {S : Sys P} {p : String}
    (hprog : ∀ i, Fresh p (prog i)) (q : Fin P) (hq : ∀ i, i ≠ q → phases p (prog i) = [])
    (h : Reachable fs0 prog S) : S.fs p = fs0 p ∨ ∃ w, S.fs p = some w ∧ ∃ c ∈ phases p (prog q), w <+: c := by
  rcases reach_single hprog q hq h with ⟨hf, _⟩ | ⟨w, ph, hf, _, hp⟩
  · exact .inl hf
  · refine .inr ⟨w, hf, w ++ (S.proc q).buf p ++ curPuts p (S.proc q).rest, by rw [hp]; simp, ?_⟩
    rw [List.append_assoc]
    exact List.prefix_append _ _

/-- Wherever a run stops: each error or result file is as it was before the run or the beginning of what a complete run writes;
they are touched one after the other, each one when the preceding one is complete. -/
theorem C103_crash {P : ℕ} (hP : 0 < P) {fs0 : FS} {S : Sys P} (h : Reachable fs0 (programs K name M g n pre P) S) :
    let L := lastMesh K M g n pre
    let ve := "vector_error.vtu"
    let se := "scalar_error.vtu"
    let sc := name ++ "_scalar_results" ++ ".vtu"
    let ve' := name ++ "_vector_results" ++ ".vtu"
    (S.fs ve = fs0 ve ∨ ∃ w, S.fs ve = some w ∧ w <+: K.vectorError L) ∧
    (S.fs se = fs0 se ∨ ∃ w, S.fs se = some w ∧ w <+: K.scalarError L) ∧
    (S.fs sc = fs0 sc ∨ ∃ w, S.fs sc = some w ∧ w <+: K.scalarResults L) ∧
    (S.fs ve' = fs0 ve' ∨ ∃ w, S.fs ve' = some w ∧ w <+: K.vectorResults L) ∧
    (S.fs se ≠ fs0 se → S.fs ve = some (K.vectorError L)) ∧
    (S.fs sc ≠ fs0 sc → S.fs se = some (K.scalarError L) ∧ S.fs ve = some (K.vectorError L)) ∧
    (S.fs ve' ≠ fs0 ve' → S.fs sc = some (K.scalarResults L) ∧ S.fs se = some (K.scalarError L) ∧
      S.fs ve = some (K.vectorError L)) := by
  intro L ve se sc ve'
  have hf : ∀ p (i : Fin P), Fresh p (programs K name M g n pre P i) := fun p i => fresh_events K name i p _ _
  let q : Fin P := ⟨0, hP⟩
  have one : ∀ p C, (∀ me : ℕ, phases p (program K name M g n pre me) = if me = 0 then [C] else []) →
      (∀ i, i ≠ q → phases p (programs K name M g n pre P i) = []) ∧ phases p (programs K name M g n pre P q) = [C] := by
    intro p C hp
    refine ⟨fun i hi => ?_, by rw [programs, hp]; rfl⟩
    rw [programs, hp, if_neg]
    exact fun h => hi (Fin.ext h)
  have pre' : ∀ p C, (∀ me : ℕ, phases p (program K name M g n pre me) = if me = 0 then [C] else []) →
      S.fs p = fs0 p ∨ ∃ w, S.fs p = some w ∧ w <+: C := by
    intro p C hp
    obtain ⟨h1, h2⟩ := one p C hp
    rcases single_prefix (hf p) q h1 h with h | ⟨w, hw, c, hc, hwc⟩
    · exact .inl h
    · rw [h2] at hc
      simp at hc
      exact .inr ⟨w, hw, hc ▸ hwc⟩
  obtain ⟨A, hA⟩ := program_tail K name 0 M g n pre
  rw [if_pos rfl] at hA
  have pve := one _ _ fun me => phases_vectorError K name me M g n pre
  have pse := one _ _ fun me => phases_scalarError K name me M g n pre
  have psc := one _ _ fun me => phases_scalar K name me M g n pre
  have pve' := one _ _ fun me => phases_vector K name me M g n pre
  have n1 := scalarVtu_ne name
  have n2 := vectorVtu_ne name
  have n3 := scalarVtu_ne_vectorVtu name
  have c1 : S.fs se ≠ fs0 se → S.fs ve = some (K.vectorError L) := by
    intro hne
    have ht := reach_touched (hf se) q pse.1 (A := A ++ updateEvs K L ++
      [.open vectorErrorVtu, .put vectorErrorVtu (K.vectorError L), .flush vectorErrorVtu]) (B :=
      [.put scalarErrorVtu (K.scalarError L), .flush scalarErrorVtu, .close scalarErrorVtu, .close vectorErrorVtu] ++
        outputEvs K name L) (by rw [programs, hA]; simp [errorEvs]; rfl) pse.2 h hne
    refine reach_flush_complete (hf ve) q pve.1 (A := A ++ updateEvs K L ++
      [.open vectorErrorVtu, .put vectorErrorVtu (K.vectorError L)])
      (B := .open scalarErrorVtu :: [.put scalarErrorVtu (K.scalarError L), .flush scalarErrorVtu, .close scalarErrorVtu,
        .close vectorErrorVtu] ++ outputEvs K name L) (by rw [programs, hA]; simp [errorEvs]; rfl) ?_
      (congrArg List.getLast? pve.2) h (ht.trans (List.suffix_cons _ _))
    intro e he
    simp [outputEvs] at he
    have := n1 vectorErrorVtu (by decide)
    have := n2 vectorErrorVtu (by decide)
    have : scalarErrorVtu ≠ vectorErrorVtu := by decide
    rcases he with rfl | rfl | rfl | rfl | rfl | rfl | rfl | rfl | rfl | rfl | rfl | rfl | rfl <;>
      first | exact .inr (by simpa [Ev.path]) | exact .inl rfl
  have c2 : S.fs sc ≠ fs0 sc → S.fs se = some (K.scalarError L) ∧ S.fs ve = some (K.vectorError L) := by
    intro hne
    have ht := reach_touched (hf sc) q psc.1 (A := A ++ updateEvs K L ++ errorEvs K L) (B :=
      [.put (scalarVtu name) (K.scalarResults L), .flush (scalarVtu name),
        .open (vectorVtu name), .put (vectorVtu name) (K.vectorResults L), .flush (vectorVtu name),
        .close (vectorVtu name), .close (scalarVtu name)]) (by rw [programs, hA]; simp [outputEvs]; rfl) psc.2 h hne
    have m1 := n1 vectorErrorVtu (by decide)
    have m2 := n2 vectorErrorVtu (by decide)
    have m3 := n1 scalarErrorVtu (by decide)
    have m4 := n2 scalarErrorVtu (by decide)
    have m5 : scalarErrorVtu ≠ vectorErrorVtu := by decide
    constructor
    · refine reach_flush_complete (hf se) q pse.1 (A := A ++ updateEvs K L ++
        [.open vectorErrorVtu, .put vectorErrorVtu (K.vectorError L), .flush vectorErrorVtu,
          .open scalarErrorVtu, .put scalarErrorVtu (K.scalarError L)])
        (B := [.close scalarErrorVtu, .close vectorErrorVtu] ++ outputEvs K name L)
        (by rw [programs, hA]; simp [errorEvs]; rfl) ?_ (congrArg List.getLast? pse.2) h (ht.trans ?_)
      · intro e he
        simp [outputEvs] at he
        rcases he with rfl | rfl | rfl | rfl | rfl | rfl | rfl | rfl | rfl | rfl <;>
          first | exact .inr (by simpa [Ev.path]) | exact .inr m5.symm | exact .inl rfl
      · exact ⟨[.close scalarErrorVtu, .close vectorErrorVtu, .open (scalarVtu name)], by simp [outputEvs]⟩
    · refine reach_flush_complete (hf ve) q pve.1 (A := A ++ updateEvs K L ++
        [.open vectorErrorVtu, .put vectorErrorVtu (K.vectorError L)])
        (B := .open scalarErrorVtu :: [.put scalarErrorVtu (K.scalarError L), .flush scalarErrorVtu, .close scalarErrorVtu,
          .close vectorErrorVtu] ++ outputEvs K name L) (by rw [programs, hA]; simp [errorEvs]; rfl) ?_
        (congrArg List.getLast? pve.2) h (ht.trans ?_)
      · intro e he
        simp [outputEvs] at he
        rcases he with rfl | rfl | rfl | rfl | rfl | rfl | rfl | rfl | rfl | rfl | rfl | rfl | rfl <;>
          first | exact .inr (by simpa [Ev.path]) | exact .inl rfl
      · exact ⟨[.open scalarErrorVtu, .put scalarErrorVtu (K.scalarError L), .flush scalarErrorVtu, .close scalarErrorVtu,
          .close vectorErrorVtu, .open (scalarVtu name)], by simp [outputEvs]⟩
  have c3 : S.fs ve' ≠ fs0 ve' → S.fs sc = some (K.scalarResults L) := by
    intro hne
    have ht := reach_touched (hf ve') q pve'.1 (A := A ++ updateEvs K L ++ errorEvs K L ++
      [.open (scalarVtu name), .put (scalarVtu name) (K.scalarResults L), .flush (scalarVtu name)]) (B :=
      [.put (vectorVtu name) (K.vectorResults L), .flush (vectorVtu name), .close (vectorVtu name),
        .close (scalarVtu name)]) (by rw [programs, hA]; simp [outputEvs]; rfl) pve'.2 h hne
    refine reach_flush_complete (hf sc) q psc.1 (A := A ++ updateEvs K L ++ errorEvs K L ++
      [.open (scalarVtu name), .put (scalarVtu name) (K.scalarResults L)])
      (B := [.open (vectorVtu name), .put (vectorVtu name) (K.vectorResults L), .flush (vectorVtu name),
        .close (vectorVtu name), .close (scalarVtu name)]) (by rw [programs, hA]; simp [outputEvs]; rfl) ?_
      (congrArg List.getLast? psc.2) h (ht.trans (List.suffix_cons _ _))
    intro e he
    simp at he
    rcases he with rfl | rfl | rfl | rfl | rfl <;>
      first | exact .inr n3.symm | exact .inl rfl
  refine ⟨pre' _ _ fun me => phases_vectorError K name me M g n pre, pre' _ _ fun me => phases_scalarError K name me M g n pre,
    pre' _ _ fun me => phases_scalar K name me M g n pre, pre' _ _ fun me => phases_vector K name me M g n pre, c1, c2,
    fun hne => ⟨c3 hne, ?_⟩⟩
  by_cases hsc : S.fs sc = fs0 sc
  · -- the opening of the scalar results precedes
    have ht := reach_touched (hf ve') q pve'.1 (A := A ++ updateEvs K L ++ errorEvs K L ++
      [.open (scalarVtu name), .put (scalarVtu name) (K.scalarResults L), .flush (scalarVtu name)]) (B :=
      [.put (vectorVtu name) (K.vectorResults L), .flush (vectorVtu name), .close (vectorVtu name),
        .close (scalarVtu name)]) (by rw [programs, hA]; simp [outputEvs]; rfl) pve'.2 h hne
    have m1 := n1 vectorErrorVtu (by decide)
    have m2 := n2 vectorErrorVtu (by decide)
    have m3 := n1 scalarErrorVtu (by decide)
    have m4 := n2 scalarErrorVtu (by decide)
    have m5 : scalarErrorVtu ≠ vectorErrorVtu := by decide
    constructor
    · refine reach_flush_complete (hf se) q pse.1 (A := A ++ updateEvs K L ++
        [.open vectorErrorVtu, .put vectorErrorVtu (K.vectorError L), .flush vectorErrorVtu,
          .open scalarErrorVtu, .put scalarErrorVtu (K.scalarError L)])
        (B := [.close scalarErrorVtu, .close vectorErrorVtu] ++ outputEvs K name L)
        (by rw [programs, hA]; simp [errorEvs]; rfl) ?_ (congrArg List.getLast? pse.2) h (ht.trans ?_)
      · intro e he
        simp [outputEvs] at he
        rcases he with rfl | rfl | rfl | rfl | rfl | rfl | rfl | rfl | rfl | rfl <;>
          first | exact .inr (by simpa [Ev.path]) | exact .inr m5.symm | exact .inl rfl
      · exact ⟨[.close scalarErrorVtu, .close vectorErrorVtu, .open (scalarVtu name),
          .put (scalarVtu name) (K.scalarResults L), .flush (scalarVtu name), .open (vectorVtu name)], by simp [outputEvs]⟩
    · refine reach_flush_complete (hf ve) q pve.1 (A := A ++ updateEvs K L ++
        [.open vectorErrorVtu, .put vectorErrorVtu (K.vectorError L)])
        (B := .open scalarErrorVtu :: [.put scalarErrorVtu (K.scalarError L), .flush scalarErrorVtu, .close scalarErrorVtu,
          .close vectorErrorVtu] ++ outputEvs K name L) (by rw [programs, hA]; simp [errorEvs]; rfl) ?_
        (congrArg List.getLast? pve.2) h (ht.trans ?_)
      · intro e he
        simp [outputEvs] at he
        rcases he with rfl | rfl | rfl | rfl | rfl | rfl | rfl | rfl | rfl | rfl | rfl | rfl | rfl <;>
          first | exact .inr (by simpa [Ev.path]) | exact .inl rfl
      · exact ⟨[.open scalarErrorVtu, .put scalarErrorVtu (K.scalarError L), .flush scalarErrorVtu, .close scalarErrorVtu,
          .close vectorErrorVtu, .open (scalarVtu name),
          .put (scalarVtu name) (K.scalarResults L), .flush (scalarVtu name), .open (vectorVtu name)], by simp [outputEvs]⟩
  · exact c2 hsc

theorem runMesh_of_mem {f : Mesh → Bytes} {c : Bytes}
    (h : c ∈ (List.range ((if g then 0 else n) + 1)).map fun j =>
      f ((cyc K)^[j] (K.conformal (K.refine (if g then n else pre) M)))) : ∃ L, RunMesh K M g n pre L ∧ c = f L := by
  obtain ⟨j, hj, rfl⟩ := List.mem_map.1 h
  exact ⟨_, .cycle j (by have := List.mem_range.1 hj; omega), rfl⟩

theorem runMesh_inp {c : Bytes} (h : c ∈ phases meshInp (program K name M g n pre me)) :
    ∃ L, RunMesh K M g n pre L ∧ c = K.ucd L := by
  rw [phases_inp] at h
  rcases List.mem_cons.1 h with rfl | h
  · exact ⟨_, .refined, rfl⟩
  · exact runMesh_of_mem K M g n pre h

theorem runMesh_vtu {c : Bytes} (h : c ∈ phases meshVtu (program K name M g n pre me)) :
    ∃ L, RunMesh K M g n pre L ∧ c = K.vtu L := by
  rw [phases_vtu] at h
  exact runMesh_of_mem K M g n pre h

/-- Wherever a run stops: a mesh file is as before the run, or every byte of it is the byte at this place of the file of one of
the meshes of the run, or 0 in a place a process has left behind. -/
theorem C103_crash_mesh {P : ℕ} {fs0 : FS} {S : Sys P} (h : Reachable fs0 (programs K name M g n pre P) S) :
    (S.fs "meshResult.inp" = fs0 "meshResult.inp" ∨ ∃ f : Bytes, S.fs "meshResult.inp" = some f ∧
      ∀ (j : ℕ) (b : UInt8), f[j]? = some b → b = 0 ∨ ∃ L, RunMesh K M g n pre L ∧ (K.ucd L)[j]? = some b) ∧
    (S.fs "mesh.vtu" = fs0 "mesh.vtu" ∨ ∃ f : Bytes, S.fs "mesh.vtu" = some f ∧
      ∀ (j : ℕ) (b : UInt8), f[j]? = some b → b = 0 ∨ ∃ L, RunMesh K M g n pre L ∧ (K.vtu L)[j]? = some b) := by
  constructor
  · rcases reach_bytes (p := meshInp) (fun i => fresh_events K name i _ _ _) h with h | ⟨_, f, hf, hb⟩
    · exact .inl h.1
    · refine .inr ⟨f, hf, fun j b hjb => (hb j b hjb).imp id ?_⟩
      rintro ⟨i, c, hc, hcb⟩
      obtain ⟨L, hL, rfl⟩ := runMesh_inp K name i M g n pre hc
      exact ⟨L, hL, hcb⟩
  · rcases reach_bytes (p := meshVtu) (fun i => fresh_events K name i _ _ _) h with h | ⟨_, f, hf, hb⟩
    · exact .inl h.1
    · refine .inr ⟨f, hf, fun j b hjb => (hb j b hjb).imp id ?_⟩
      rintro ⟨i, c, hc, hcb⟩
      obtain ⟨L, hL, rfl⟩ := runMesh_vtu K name i M g n pre hc
      exact ⟨L, hL, hcb⟩

/-- With one process, wherever the run stops: a mesh file is as before the run or the beginning of the file of one of its
meshes; and as soon as one of the error or result files is touched, both are complete and those of the last mesh. -/
theorem C103_one_process {fs0 : FS} {S : Sys 1} (h : Reachable fs0 (programs K name M g n pre 1) S) :
    (S.fs "meshResult.inp" = fs0 "meshResult.inp" ∨ ∃ w, S.fs "meshResult.inp" = some w ∧
      ∃ L, RunMesh K M g n pre L ∧ w <+: K.ucd L) ∧
    (S.fs "mesh.vtu" = fs0 "mesh.vtu" ∨ ∃ w, S.fs "mesh.vtu" = some w ∧ ∃ L, RunMesh K M g n pre L ∧ w <+: K.vtu L) ∧
    (S.fs "vector_error.vtu" ≠ fs0 "vector_error.vtu" →
      S.fs "meshResult.inp" = some (K.ucd (lastMesh K M g n pre)) ∧ S.fs "mesh.vtu" = some (K.vtu (lastMesh K M g n pre))) := by
  have hf : ∀ p (i : Fin 1), Fresh p (programs K name M g n pre 1 i) := fun p i => fresh_events K name i p _ _
  have hq : ∀ p (i : Fin 1), i ≠ 0 → phases p (programs K name M g n pre 1 i) = [] :=
    fun p i hi => absurd (Subsingleton.elim i 0) hi
  refine ⟨?_, ?_, fun hne => ?_⟩
  · rcases single_prefix (hf meshInp) 0 (hq _) h with h | ⟨w, hw, c, hc, hwc⟩
    · exact .inl h
    · obtain ⟨L, hL, rfl⟩ := runMesh_inp K name 0 M g n pre hc
      exact .inr ⟨w, hw, L, hL, hwc⟩
  · rcases single_prefix (hf meshVtu) 0 (hq _) h with h | ⟨w, hw, c, hc, hwc⟩
    · exact .inl h
    · obtain ⟨L, hL, rfl⟩ := runMesh_vtu K name 0 M g n pre hc
      exact .inr ⟨w, hw, L, hL, hwc⟩
  · obtain ⟨A, hA⟩ := program_tail K name 0 M g n pre
    rw [if_pos rfl] at hA
    have hv : phases vectorErrorVtu (programs K name M g n pre 1 0) = [K.vectorError (lastMesh K M g n pre)] := by
      have := phases_vectorError K name 0 M g n pre
      rwa [if_pos rfl] at this
    have ht := reach_touched (hf vectorErrorVtu) 0 (hq _) (A := A ++ updateEvs K (lastMesh K M g n pre)) (B :=
      [.put vectorErrorVtu (K.vectorError (lastMesh K M g n pre)), .flush vectorErrorVtu,
        .open scalarErrorVtu, .put scalarErrorVtu (K.scalarError (lastMesh K M g n pre)), .flush scalarErrorVtu,
        .close scalarErrorVtu, .close vectorErrorVtu] ++ outputEvs K name (lastMesh K M g n pre))
      (by rw [programs, Fin.val_zero, hA]; simp [errorEvs]) hv h hne
    have m1 := fun q h => scalarVtu_ne name q h
    have m2 := fun q h => vectorVtu_ne name q h
    have m3 := m1 meshInp (by decide)
    have m4 := m2 meshInp (by decide)
    have m5 := m1 meshVtu (by decide)
    have m6 := m2 meshVtu (by decide)
    constructor
    · refine reach_flush_complete (hf meshInp) 0 (hq _) (A := A ++ [.open meshInp, .put meshInp (K.ucd (lastMesh K M g n pre))])
        (B := [.open meshVtu, .put meshVtu (K.vtu (lastMesh K M g n pre)), .flush meshVtu, .close meshVtu, .close meshInp] ++
          (errorEvs K (lastMesh K M g n pre) ++ outputEvs K name (lastMesh K M g n pre)))
        (by rw [programs, Fin.val_zero, hA]; simp [updateEvs]) ?_ (phases_inp_last K name 0 M g n pre) h (ht.trans ?_)
      · intro e he
        simp [outputEvs, errorEvs] at he
        have k1 : meshVtu ≠ meshInp := by decide
        have k2 : vectorErrorVtu ≠ meshInp := by decide
        have k3 : scalarErrorVtu ≠ meshInp := by decide
        rcases he with rfl | rfl | rfl | rfl | rfl | rfl | rfl | rfl | rfl | rfl | rfl | rfl | rfl | rfl | rfl | rfl | rfl |
          rfl | rfl | rfl | rfl <;> first | exact .inr (by simpa [Ev.path]) | exact .inl rfl
      · exact ⟨[.open meshVtu, .put meshVtu (K.vtu (lastMesh K M g n pre)), .flush meshVtu, .close meshVtu, .close meshInp,
          .open vectorErrorVtu], by simp [errorEvs]⟩
    · refine reach_flush_complete (hf meshVtu) 0 (hq _) (A := A ++ [.open meshInp, .put meshInp (K.ucd (lastMesh K M g n pre)),
          .flush meshInp, .open meshVtu, .put meshVtu (K.vtu (lastMesh K M g n pre))])
        (B := [.close meshVtu, .close meshInp] ++
          (errorEvs K (lastMesh K M g n pre) ++ outputEvs K name (lastMesh K M g n pre)))
        (by rw [programs, Fin.val_zero, hA]; simp [updateEvs]) ?_ (phases_vtu_last K name 0 M g n pre) h (ht.trans ?_)
      · intro e he
        simp [outputEvs, errorEvs] at he
        have k1 : meshInp ≠ meshVtu := by decide
        have k2 : vectorErrorVtu ≠ meshVtu := by decide
        have k3 : scalarErrorVtu ≠ meshVtu := by decide
        rcases he with rfl | rfl | rfl | rfl | rfl | rfl | rfl | rfl | rfl | rfl | rfl | rfl | rfl | rfl | rfl | rfl | rfl |
          rfl <;> first | exact .inr (by simpa [Ev.path]) | exact .inl rfl
      · exact ⟨[.close meshVtu, .close meshInp, .open vectorErrorVtu], by simp [errorEvs]⟩

/-- A run stopped before the end leaves the results of an earlier run beside the new mesh: for every run on one process there is
a stop with the mesh files of the last mesh and all error and result files untouched, and one with the scalar results new and the
vector results old. -/
theorem C103_stale (fs0 : FS) :
    (∃ S : Sys 1, Reachable fs0 (programs K name M g n pre 1) S ∧
      S.fs "meshResult.inp" = some (K.ucd (lastMesh K M g n pre)) ∧ S.fs "mesh.vtu" = some (K.vtu (lastMesh K M g n pre)) ∧
      S.fs "vector_error.vtu" = fs0 "vector_error.vtu" ∧ S.fs "scalar_error.vtu" = fs0 "scalar_error.vtu" ∧
      S.fs (name ++ "_scalar_results" ++ ".vtu") = fs0 (name ++ "_scalar_results" ++ ".vtu") ∧
      S.fs (name ++ "_vector_results" ++ ".vtu") = fs0 (name ++ "_vector_results" ++ ".vtu")) ∧
    ∃ S : Sys 1, Reachable fs0 (programs K name M g n pre 1) S ∧
      S.fs (name ++ "_scalar_results" ++ ".vtu") = some (K.scalarResults (lastMesh K M g n pre)) ∧
      S.fs (name ++ "_vector_results" ++ ".vtu") = fs0 (name ++ "_vector_results" ++ ".vtu") := by
  have hf : ∀ p (i : Fin 1), Fresh p (programs K name M g n pre 1 i) := fun p i => fresh_events K name i p _ _
  have hq : ∀ p (i : Fin 1), i ≠ 0 → phases p (programs K name M g n pre 1 i) = [] :=
    fun p i hi => absurd (Subsingleton.elim i 0) hi
  obtain ⟨A, hA⟩ := program_tail K name 0 M g n pre
  rw [if_pos rfl] at hA
  have q1 := phases_vectorError K name 0 M g n pre
  have q2 := phases_scalarError K name 0 M g n pre
  have q3 := phases_scalar K name 0 M g n pre
  have q4 := phases_vector K name 0 M g n pre
  rw [if_pos rfl] at q1 q2 q3 q4
  have m1 := fun q h => scalarVtu_ne name q h
  have m2 := fun q h => vectorVtu_ne name q h
  have n3 := scalarVtu_ne_vectorVtu name
  constructor
  · obtain ⟨S, hS, hr, -⟩ := reach_exec (fs0 := fs0) (prog := programs K name M g n pre 1) 0
      (A ++ updateEvs K (lastMesh K M g n pre)) (errorEvs K (lastMesh K M g n pre) ++ outputEvs K name (lastMesh K M g n pre))
      (start fs0 _) .refl (by change program K name M g n pre 0 = _; rw [hA]; simp)
    have un : ∀ p c, phases p (program K name M g n pre 0) = [c] →
        phases p (errorEvs K (lastMesh K M g n pre) ++ outputEvs K name (lastMesh K M g n pre)) ≠ [] → S.fs p = fs0 p := by
      intro p c hp hne
      exact reach_untouched_yet (hf p) 0 (hq p) hp hS (by rw [hr]; exact hne)
    refine ⟨S, hS, ?_, ?_, un _ _ q1 (by simp [errorEvs, phases, vectorErrorVtu]), un _ _ q2 ?_, un _ _ q3 ?_, un _ _ q4 ?_⟩
    · refine reach_flush_complete (hf meshInp) 0 (hq _) (A := A ++ [.open meshInp, .put meshInp (K.ucd (lastMesh K M g n pre))])
        (B := [.open meshVtu, .put meshVtu (K.vtu (lastMesh K M g n pre)), .flush meshVtu, .close meshVtu, .close meshInp] ++
          (errorEvs K (lastMesh K M g n pre) ++ outputEvs K name (lastMesh K M g n pre)))
        (by rw [programs, Fin.val_zero, hA]; simp [updateEvs]) ?_ (phases_inp_last K name 0 M g n pre) hS
        (by rw [hr]; exact List.suffix_append _ _)
      intro e he
      have m3 := m1 meshInp (by decide)
      have m4 := m2 meshInp (by decide)
      simp [outputEvs, errorEvs] at he
      have k1 : meshVtu ≠ meshInp := by decide
      have k2 : vectorErrorVtu ≠ meshInp := by decide
      have k3 : scalarErrorVtu ≠ meshInp := by decide
      rcases he with rfl | rfl | rfl | rfl | rfl | rfl | rfl | rfl | rfl | rfl | rfl | rfl | rfl | rfl | rfl | rfl | rfl |
        rfl | rfl | rfl | rfl <;> first | exact .inr (by simpa [Ev.path]) | exact .inl rfl
    · refine reach_flush_complete (hf meshVtu) 0 (hq _) (A := A ++ [.open meshInp, .put meshInp (K.ucd (lastMesh K M g n pre)),
          .flush meshInp, .open meshVtu, .put meshVtu (K.vtu (lastMesh K M g n pre))])
        (B := [.close meshVtu, .close meshInp] ++
          (errorEvs K (lastMesh K M g n pre) ++ outputEvs K name (lastMesh K M g n pre)))
        (by rw [programs, Fin.val_zero, hA]; simp [updateEvs]) ?_ (phases_vtu_last K name 0 M g n pre) hS
        (by rw [hr]; exact List.suffix_append _ _)
      intro e he
      have m5 := m1 meshVtu (by decide)
      have m6 := m2 meshVtu (by decide)
      simp [outputEvs, errorEvs] at he
      have k1 : meshInp ≠ meshVtu := by decide
      have k2 : vectorErrorVtu ≠ meshVtu := by decide
      have k3 : scalarErrorVtu ≠ meshVtu := by decide
      rcases he with rfl | rfl | rfl | rfl | rfl | rfl | rfl | rfl | rfl | rfl | rfl | rfl | rfl | rfl | rfl | rfl | rfl |
        rfl <;> first | exact .inr (by simpa [Ev.path]) | exact .inl rfl
    · rw [phases_append (fresh_output K name _ _)]
      have : phases "scalar_error.vtu" (errorEvs K (lastMesh K M g n pre)) ≠ [] := by
        simp [errorEvs, phases, scalarErrorVtu, vectorErrorVtu]
      simp [this]
    · rw [phases_append (fresh_output K name _ _)]; simp [outputEvs, phases, scalarVtu]
    · rw [phases_append (fresh_output K name _ _)]
      have : phases (vectorVtu name) (outputEvs K name (lastMesh K M g n pre)) ≠ [] := by
        simp [outputEvs, phases, n3]
      exact fun h => this (List.append_eq_nil_iff.1 h).2
  · obtain ⟨S, hS, hr, -⟩ := reach_exec (fs0 := fs0) (prog := programs K name M g n pre 1) 0
      (A ++ updateEvs K (lastMesh K M g n pre) ++ errorEvs K (lastMesh K M g n pre) ++
        [.open (scalarVtu name), .put (scalarVtu name) (K.scalarResults (lastMesh K M g n pre)), .flush (scalarVtu name)])
      [.open (vectorVtu name), .put (vectorVtu name) (K.vectorResults (lastMesh K M g n pre)), .flush (vectorVtu name),
        .close (vectorVtu name), .close (scalarVtu name)]
      (start fs0 _) .refl (by change program K name M g n pre 0 = _; rw [hA]; simp [outputEvs])
    refine ⟨S, hS, ?_, reach_untouched_yet (hf (vectorVtu name)) 0 (hq _) q4 hS (by rw [hr]; simp [phases, vectorVtu])⟩
    refine reach_flush_complete (hf (scalarVtu name)) 0 (hq _) (A := A ++ updateEvs K (lastMesh K M g n pre) ++
        errorEvs K (lastMesh K M g n pre) ++
        [.open (scalarVtu name), .put (scalarVtu name) (K.scalarResults (lastMesh K M g n pre))])
      (B := [.open (vectorVtu name), .put (vectorVtu name) (K.vectorResults (lastMesh K M g n pre)), .flush (vectorVtu name),
        .close (vectorVtu name), .close (scalarVtu name)]) (by rw [programs, Fin.val_zero, hA]; simp [outputEvs]) ?_
      (congrArg List.getLast? q3) hS (by rw [hr]; exact List.suffix_rfl)
    intro e he
    simp at he
    rcases he with rfl | rfl | rfl | rfl | rfl <;> first | exact .inr n3.symm | exact .inl rfl

/-- With two processes a stop can leave a mesh file that is the beginning of no version: one process has written the first `k`
bytes, the other one truncates the file, the first one goes on at its own position. -/
theorem C103_torn (fs0 : FS) (k : ℕ) (hk : k < (K.ucd (K.refine (if g then n else pre) M)).length) :
    ∃ S : Sys 2, Reachable fs0 (programs K name M g n pre 2) S ∧
      S.fs "meshResult.inp" = some (List.replicate k 0 ++ (K.ucd (K.refine (if g then n else pre) M)).drop k) := by
  set c := K.ucd (K.refine (if g then n else pre) M) with hc
  obtain ⟨r, hr⟩ : ∃ r : ℕ → List Ev, ∀ me, program K name M g n pre me =
      .open meshInp :: .put meshInp c :: .flush meshInp :: r me := by
    refine ⟨fun me => .close meshInp :: programEvs K name me (K.refine (if g then n else pre) M)
      ([.updateTriangulation] ++ (body (if g then 0 else n) ++ [.reinit, .solve, .computeErrors, .output])), fun me => ?_⟩
    rw [program, run_eq]
    simp [programEvs, eventEvs, refineEvs, hc]
  let S0 : Sys 2 := start fs0 (programs K name M g n pre 2)
  let S1 : Sys 2 := ⟨(exec S0.fs (S0.proc 0) (.open meshInp) (.put meshInp c :: .flush meshInp :: r 0)).1,
    Function.update S0.proc 0 (exec S0.fs (S0.proc 0) (.open meshInp) (.put meshInp c :: .flush meshInp :: r 0)).2⟩
  let S2 : Sys 2 := ⟨(exec S1.fs (S1.proc 0) (.put meshInp c) (.flush meshInp :: r 0)).1,
    Function.update S1.proc 0 (exec S1.fs (S1.proc 0) (.put meshInp c) (.flush meshInp :: r 0)).2⟩
  let S3 : Sys 2 := ⟨(spill S2.fs (S2.proc 0) meshInp k).1, Function.update S2.proc 0 (spill S2.fs (S2.proc 0) meshInp k).2⟩
  let S4 : Sys 2 := ⟨(exec S3.fs (S3.proc 1) (.open meshInp) (.put meshInp c :: .flush meshInp :: r 1)).1,
    Function.update S3.proc 1 (exec S3.fs (S3.proc 1) (.open meshInp) (.put meshInp c :: .flush meshInp :: r 1)).2⟩
  let S5 : Sys 2 := ⟨(exec S4.fs (S4.proc 0) (.flush meshInp) (r 0)).1,
    Function.update S4.proc 0 (exec S4.fs (S4.proc 0) (.flush meshInp) (r 0)).2⟩
  have hne : c ≠ [] := fun h => by rw [h] at hk; simp at hk
  have a1 : Step S0 S1 := .exec S0 0 _ _ (hr 0)
  have a2 : Step S1 S2 := .exec S1 0 _ _ (by simp [S1, exec])
  have a3 : Step S2 S3 := .spill S2 0 _ _ (by simp [S2, S1, exec, hne])
  have a4 : Step S3 S4 := .exec S3 1 _ _ (by simp [S3, S2, S1, S0, exec, start]; exact hr 1)
  have a5 : Step S4 S5 := .exec S4 0 _ _ (by simp [S4, S3, S2, S1, exec, spill])
  refine ⟨S5, ((((Relation.ReflTransGen.refl.tail a1).tail a2).tail a3).tail a4).tail a5, ?_⟩
  change S5.fs meshInp = _
  have hkl : min k c.length = k := by omega
  simp [S5, S4, S3, S2, S1, exec, spill, pwrite, hkl]

/-- A concrete run with one cycle of local refinement: all the contents differ, and a run on two processes ends with the six
files of the last mesh. -/
def exContents : Contents ℕ where
  refine l m := m + l
  conformal m := m + 10
  adapt m := 2 * m
  ucd m := [1, UInt8.ofNat m]
  vtu m := [2, UInt8.ofNat m]
  scalarError m := [3, UInt8.ofNat m]
  vectorError m := [4, UInt8.ofNat m]
  scalarResults m := [5, UInt8.ofNat m]
  vectorResults m := [6, UInt8.ofNat m]

theorem C103_example : ∃ S : Sys 2, Reachable (fun _ => some [7, 7, 7]) (programs exContents "out" 1 false 1 2 2) S ∧ Done S ∧
    S.fs "meshResult.inp" = some [1, 36] ∧ S.fs "mesh.vtu" = some [2, 36] ∧ S.fs "out_vector_results.vtu" = some [6, 36] ∧
    S.fs "other" = some [7, 7, 7] := by
  obtain ⟨S, h, hd⟩ := C103_can_end exContents "out" 1 false 1 2 (P := 2) (fs0 := fun _ => some [7, 7, 7]) .refl
  obtain ⟨h1, h2, -, -, -, h3, h4⟩ := C103_complete_run exContents "out" 1 false 1 2 (by norm_num) h hd
  exact ⟨S, h, hd, h1, h2, h3, h4 _ (by decide)⟩

end theorems

end PiBem.App.Files
