import Verif.Mpi.Sync
import Verif.Mpi.Run

/-!
# Rules for programs of processes in step

An abstract state says for every object which accesses may have been the last on a process: none, insertions, additions.
-/

set_option linter.unusedSectionVars false

noncomputable section

namespace PiBem.Mpi

/-- What is known about the last access to an object on any process. -/
inductive Abs
  | zero | ins | add | any
  deriving DecidableEq

/-- The actions described by `x`. -/
def Abs.has : Abs → Action → Prop
  | .zero, a => a = .zero
  | .ins, a => a = .zero ∨ a = .insert
  | .add, a => a = .zero ∨ a = .add
  | .any, _ => True

abbrev AbsSt := Obj → Abs

/-- `s` is described by `A` and has the variables `v`. -/
def In (A : AbsSt) (v : Vars) (s : St) : Prop := s.vars = v ∧ ∀ o, (A o).has (s.act o)

/-- `B` describes every state that `A` describes. -/
def Le (A B : AbsSt) : Prop := ∀ o a, (A o).has a → (B o).has a

theorem Le.refl (A : AbsSt) : Le A A := fun _ _ h => h

variable {n : ℕ} {T : (Fin n → Shape) → Prop} [Stuck T] {α β : Type}

/-- From states described by `A` with the same variables, the processes run in step to states described by `B` with the same
variables, with the same result. -/
def Tri (T : (Fin n → Shape) → Prop) (A : AbsSt) (m : Fin n → M α) (B : AbsSt) : Prop :=
  ∀ (v : Vars) (s : Fin n → St), (∀ p, In A v (s p)) →
    Sync T (fun r => ∃ a v', ∀ p, (r p).1 = a ∧ In B v' (r p).2) fun p => m p (s p)

theorem Tri.bind {A B C : AbsSt} {m : Fin n → M α} {f : Fin n → α → M β} (hm : Tri T A m B)
    (hf : ∀ a, Tri T B (fun p => f p a) C) : Tri T A (fun p => m p >>= f p) C := by
  intro v s hs
  refine Sync.bind (hm v s hs) ?_
  rintro r ⟨a, v', hr⟩
  have := hf a v' (fun p => (r p).2) fun p => (hr p).2
  simpa only [(hr _).1] using this

theorem Tri.seq {A B C : AbsSt} {m : Fin n → M α} {f : Fin n → M β} (hm : Tri T A m B) (hf : Tri T B f C) :
    Tri T A (fun p => m p >>= fun _ => f p) C := hm.bind fun _ => hf

theorem Tri.weaken {A A' B B' : AbsSt} {m : Fin n → M α} (h : Tri T A m B) (hA : Le A' A) (hB : Le B B') : Tri T A' m B' := by
  intro v s hs
  refine (h v s fun p => ⟨(hs p).1, fun o => hA o _ ((hs p).2 o)⟩).mono ?_
  rintro r ⟨a, v', hr⟩
  exact ⟨a, v', fun p => ⟨(hr p).1, (hr p).2.1, fun o => hB o _ ((hr p).2.2 o)⟩⟩

theorem Tri.pre {A A' B : AbsSt} {m : Fin n → M α} (h : Tri T A m B) (hA : Le A' A) : Tri T A' m B := h.weaken hA (Le.refl _)

theorem Tri.post {A B B' : AbsSt} {m : Fin n → M α} (h : Tri T A m B) (hB : Le B B') : Tri T A m B' := h.weaken (Le.refl _) hB

theorem Tri.pure (A : AbsSt) (a : α) : Tri T A (fun _ : Fin n => (Pure.pure a : M α)) A := fun v s hs =>
  .ret (fun p => (a, s p)) ⟨a, v, fun p => ⟨rfl, hs p⟩⟩

theorem Tri.call (A : AbsSt) (c : Call) (x : Fin n → Val) : Tri T A (fun p => call c (x p)) A := fun v s hs =>
  .coll c x (fun p r => .ret (r, s p)) fun r => .ret (fun p => (r, s p)) ⟨r, v, fun p => ⟨rfl, hs p⟩⟩

theorem Tri.sync (A : AbsSt) (c : Call) : Tri T A (fun _ : Fin n => sync c) A :=
  (Tri.call A c fun _ _ => 0).seq (Tri.pure A ())

theorem Tri.abort {A B : AbsSt} (h : T fun _ => .fail) : Tri T A (fun _ : Fin n => abort) B := fun _ _ _ => .stop _ h

theorem Tri.getVars (A : AbsSt) : Tri T A (fun _ : Fin n => getVars) A := fun v s hs =>
  .ret (fun p => ((s p).vars, s p)) ⟨v, v, fun p => ⟨(hs p).1, hs p⟩⟩

theorem Tri.setVars (A : AbsSt) (v : Vars) : Tri T A (fun _ : Fin n => setVars v) A := fun _ s hs =>
  .ret (fun p => ((), { s p with vars := v })) ⟨(), v, fun p => ⟨rfl, rfl, (hs p).2⟩⟩

theorem In.update {A : AbsSt} {v : Vars} {s : St} (h : In A v s) (o : Obj) {x : Abs} {a : Action} (ha : x.has a) :
    In (Function.update A o x) v { s with act := Function.update s.act o a } := by
  refine ⟨h.1, fun q => ?_⟩
  by_cases hq : q = o
  · subst hq; simpa using ha
  · simpa [Function.update_of_ne hq] using h.2 q

theorem Tri.setAct (A : AbsSt) (o : Obj) (a : Action) {x : Abs} (ha : x.has a) :
    Tri T A (fun _ : Fin n => setAct o a) (Function.update A o x) := fun v s hs =>
  .ret (fun p => ((), { s p with act := Function.update (s p).act o a })) ⟨(), v, fun p => ⟨rfl, (hs p).update o ha⟩⟩

theorem Tri.reinit (A : AbsSt) (o : Obj) : Tri T A (fun _ : Fin n => reinit o) (Function.update A o .zero) :=
  (Tri.sync A _).seq (Tri.setAct A o .zero rfl)

theorem Tri.assign (A : AbsSt) (o : Obj) : Tri T A (fun _ : Fin n => assign o) (Function.update A o .zero) :=
  (Tri.sync A _).seq (Tri.setAct A o .zero rfl)

/-- One process runs without communication. -/
def Silent (A : AbsSt) (m : M Unit) (B : AbsSt) : Prop := ∀ v s, In A v s → ∃ s', m s = .ret ((), s') ∧ In B v s'

theorem Tri.silent {A B : AbsSt} {m : Fin n → M Unit} (h : ∀ p, Silent A (m p) B) : Tri T A m B := by
  intro v s hs
  choose s' h1 h2 using fun p => h p v (s p) (hs p)
  have : (fun p => m p (s p)) = fun p => .ret ((), s' p) := funext h1
  rw [this]
  exact .ret (fun p => ((), s' p)) ⟨(), v, fun p => ⟨rfl, h2 p⟩⟩

theorem Silent.pure (A : AbsSt) : Silent A (Pure.pure ()) A := fun _ s hs => ⟨s, rfl, hs⟩

theorem Silent.seq {A B C : AbsSt} {m m' : M Unit} (h : Silent A m B) (h' : Silent B m' C) :
    Silent A (m >>= fun _ => m') C := by
  intro v s hs
  obtain ⟨s1, h1, h2⟩ := h v s hs
  obtain ⟨s2, h3, h4⟩ := h' v s1 h2
  refine ⟨s2, ?_, h4⟩
  change (m s).bind _ = _
  rw [h1]
  exact h3

theorem Silent.weaken {A A' B B' : AbsSt} {m : M Unit} (h : Silent A m B) (hA : Le A' A) (hB : Le B B') : Silent A' m B' := by
  intro v s hs
  obtain ⟨s1, h1, h2⟩ := h v s ⟨hs.1, fun o => hA o _ (hs.2 o)⟩
  exact ⟨s1, h1, h2.1, fun o => hB o _ (h2.2 o)⟩

theorem Silent.loop {ι : Type} {A : AbsSt} {l : List ι} {f : ι → M Unit} (h : ∀ x, Silent A (f x) A) : Silent A (loop l f) A := by
  induction l with
  | nil => exact Silent.pure A
  | cons x l ih => exact (h x).seq ih

theorem Silent.ite {A B : AbsSt} {c : Prop} [Decidable c] {m m' : M Unit} (h : Silent A m B) (h' : Silent A m' B) :
    Silent A (if c then m else m') B := by
  split <;> assumption

/-- A loop of collective operations. -/
theorem Tri.loop {ι : Type} {A : AbsSt} {l : List ι} {f : Fin n → ι → M Unit} (h : ∀ x ∈ l, Tri T A (fun p => f p x) A) :
    Tri T A (fun p => Mpi.loop l (f p)) A := by
  induction l with
  | nil => exact Tri.pure A ()
  | cons x l ih => exact (h x (by simp)).seq (ih fun y hy => h y (by simp [hy]))

/-- Insertion where insertions may have been the last. -/
theorem Silent.setEl {A : AbsSt} {o : Obj} (ho : A o = .ins) : Silent A (setEl o) A := by
  intro v s hs
  have h1 := hs.2 o
  rw [ho] at h1
  refine ⟨{ s with act := Function.update s.act o .insert }, ?_, ?_⟩
  · have : s.act o ≠ .add := by rcases h1 with h | h <;> simp [h]
    simp [Mpi.setEl, getAct, Bind.bind, Prog.bind, Mpi.setAct, this]
  · have := hs.update o (x := .ins) (a := .insert) (.inr rfl)
    rwa [Function.update_eq_self_iff.mpr ho.symm] at this

/-- Addition where additions may have been the last. -/
theorem Silent.addEl {A : AbsSt} {o : Obj} (ho : A o = .add) : Silent A (addEl o) A := by
  intro v s hs
  have h1 := hs.2 o
  rw [ho] at h1
  refine ⟨{ s with act := Function.update s.act o .add }, ?_, ?_⟩
  · have : s.act o ≠ .insert := by rcases h1 with h | h <;> simp [h]
    simp [Mpi.addEl, getAct, Bind.bind, Prog.bind, Mpi.setAct, this]
  · have := hs.update o (x := .add) (a := .add) (.inr rfl)
    rwa [Function.update_eq_self_iff.mpr ho.symm] at this

/-- `compress` in a mode that fits what is known. -/
theorem Tri.compress {A : AbsSt} {o : Obj} {op : Action} (ho : ∀ a, (A o).has a → a = .zero ∨ a = op) :
    Tri T A (fun _ : Fin n => compress o op) (Function.update A o .zero) := by
  intro v s hs
  have h : (fun p => Mpi.compress o op (s p)) = fun p =>
      (do Mpi.sync (.assemble o op); Mpi.setAct o .zero : M Unit) (s p) := by
    funext p
    have := ho _ ((hs p).2 o)
    simp [Mpi.compress, getAct, Bind.bind, Prog.bind, this]
  rw [h]
  exact ((Tri.sync A (.assemble o op)).seq (Tri.setAct A o .zero (x := .zero) rfl)) v s hs

theorem Tri.compress_ins {A : AbsSt} {o : Obj} (ho : A o = .ins ∨ A o = .zero) :
    Tri T A (fun _ : Fin n => Mpi.compress o .insert) (Function.update A o .zero) :=
  Tri.compress fun a ha => by
    rcases ho with h | h <;> rw [h] at ha <;> simp only [Abs.has] at ha <;> tauto

theorem Tri.compress_add {A : AbsSt} {o : Obj} (ho : A o = .add ∨ A o = .zero) :
    Tri T A (fun _ : Fin n => Mpi.compress o .add) (Function.update A o .zero) :=
  Tri.compress fun a ha => by
    rcases ho with h | h <;> rw [h] at ha <;> simp only [Abs.has] at ha <;> tauto

theorem Tri.ite {A B : AbsSt} {c : Prop} [Decidable c] {m m' : Fin n → M α} (h : c → Tri T A m B) (h' : ¬ c → Tri T A m' B) :
    Tri T A (fun p => if c then m p else m' p) B := by
  by_cases hc : c
  · simpa [hc] using h hc
  · simpa [hc] using h' hc

/-- The processes run in step until they are stuck. -/
def Dead (T : (Fin n → Shape) → Prop) (A : AbsSt) (m : Fin n → M α) : Prop :=
  ∀ (v : Vars) (s : Fin n → St), (∀ p, In A v (s p)) → Sync T (fun _ => False) fun p => m p (s p)

theorem Dead.bind {A : AbsSt} {m : Fin n → M α} {f : Fin n → α → M β} (hm : Dead T A m) : Dead T A (fun p => m p >>= f p) :=
  fun v s hs => Sync.bind (hm v s hs) fun _ h => h.elim

theorem Tri.dead {A B : AbsSt} {m : Fin n → M α} {f : Fin n → α → M β} (hm : Tri T A m B)
    (hf : ∀ a, Dead T B fun p => f p a) : Dead T A (fun p => m p >>= f p) := by
  intro v s hs
  refine Sync.bind (hm v s hs) ?_
  rintro r ⟨a, v', hr⟩
  have := hf a v' (fun p => (r p).2) fun p => (hr p).2
  simpa only [(hr _).1] using this

theorem Tri.deadSeq {A B : AbsSt} {m : Fin n → M α} {f : Fin n → M β} (hm : Tri T A m B)
    (hf : Dead T B f) : Dead T A (fun p => m p >>= fun _ => f p) := hm.dead fun _ => hf

end PiBem.Mpi
