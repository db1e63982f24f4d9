import Verif.WorkStream
import Mathlib.Data.Set.Basic
import Mathlib.Data.Fintype.Basic
import Mathlib.Data.List.FinRange
import Mathlib.Data.Set.Lattice

/-!
# Threads at the level of single memory accesses

`Verif.WorkStream` treats a call of a worker or of a copier, and an iteration of `tbb::parallel_for`, as indivisible.
Here a call is a program made of single reads and writes of shared locations, and an execution interleaves the accesses of
all the threads in any order (sequentially consistent memory).

* `ParRun`: `tbb::parallel_for` (bem_fma.cc:2185, 2280, 2635, 3195, 3451, 3537), any number of concurrent tasks.
* `CRun`: `WorkStream::run` of deal.II, any number of concurrent workers, at most one copier at a time, concurrent with the
  workers; copy data objects are recycled without being cleaned.

The main results are `ParRun.result` (the memory left by any interleaving is that of the tasks run one after the other) and
`CRun.exec` (any interleaving of the accesses ends like an execution of `WorkStream.Exec`, in which calls are indivisible),
for programs that respect a discipline (`Acc`) on the locations they access.
-/

namespace PiBem.Threads

open PiBem.WorkStream

variable {L : Type} [DecidableEq L] {V : L → Type} {β γ ι : Type}

/-- Contents of the shared memory; every location has its type. -/
abbrev Mem (V : L → Type) := (l : L) → V l

/-- A program of one thread: a tree of accesses to the shared memory, ending with a result. What a thread does on its own
variables is in the continuations. -/
inductive Prog (V : L → Type) (β : Type) : Type
  | ret (b : β) : Prog V β
  | read (l : L) (k : V l → Prog V β) : Prog V β
  | write (l : L) (v : V l) (k : Prog V β) : Prog V β

namespace Prog

/-- Sequential composition. -/
def bind : Prog V β → (β → Prog V γ) → Prog V γ
  | ret b, f => f b
  | read l k, f => read l fun v => (k v).bind f
  | write l v k, f => write l v (k.bind f)

instance : Monad (Prog V) where
  pure := ret
  bind := bind

/-- Read a location. -/
def get (l : L) : Prog V (V l) := read l ret

/-- Write a location. -/
def put (l : L) (v : V l) : Prog V Unit := write l v (ret ())

/-- The program run alone: result and final memory. -/
def exec : Prog V β → Mem V → β × Mem V
  | ret b, m => (b, m)
  | read l k, m => (k (m l)).exec m
  | write l v k, m => k.exec (Function.update m l v)

/-- One access of a thread. -/
inductive Step : Prog V β → Mem V → Prog V β → Mem V → Prop
  | read (l : L) (k : V l → Prog V β) (m : Mem V) : Step (.read l k) m (k (m l)) m
  | write (l : L) (v : V l) (k : Prog V β) (m : Mem V) : Step (.write l v k) m k (Function.update m l v)

/-- The next access is a write of location `l` with value `v`. -/
def NextWrite (p : Prog V β) (l : L) (v : V l) : Prop := ∃ k, p = .write l v k

/-- The next access is to location `l`. -/
def NextAccess (p : Prog V β) (l : L) : Prop := (∃ k, p = .read l k) ∨ ∃ v k, p = .write l v k

/-- Discipline of a thread. `R`: locations it may read and that nobody changes; `W`: locations it may read and write,
nobody else accesses them; `S` (part of `R`): locations it may also overwrite with the value they have. `Q` holds of the
result. Reads of `R` return what is in `m`, reads of `W` may return anything. -/
inductive Acc (m : Mem V) (S R W : Set L) (Q : β → Prop) : Prog V β → Prop
  | ret {b : β} : Q b → Acc m S R W Q (.ret b)
  | readR {l : L} {k : V l → Prog V β} : l ∈ R → Acc m S R W Q (k (m l)) → Acc m S R W Q (.read l k)
  | readW {l : L} {k : V l → Prog V β} : l ∈ W → (∀ v, Acc m S R W Q (k v)) → Acc m S R W Q (.read l k)
  | write {l : L} {v : V l} {k : Prog V β} : l ∈ W → Acc m S R W Q k → Acc m S R W Q (.write l v k)
  | silent {l : L} {v : V l} {k : Prog V β} : l ∈ S → l ∈ R → v = m l → Acc m S R W Q k →
      Acc m S R W Q (.write l v k)

end Prog

open Prog

section basic

omit [DecidableEq L] in
@[simp] theorem pure_eq (b : β) : (pure b : Prog V β) = .ret b := rfl

omit [DecidableEq L] in
@[simp] theorem bind_ret (b : β) (f : β → Prog V γ) : (Prog.ret b >>= f) = f b := rfl

omit [DecidableEq L] in
@[simp] theorem bind_read (l : L) (k : V l → Prog V β) (f : β → Prog V γ) :
    (Prog.read l k >>= f) = .read l fun v => k v >>= f := rfl

omit [DecidableEq L] in
@[simp] theorem bind_write (l : L) (v : V l) (k : Prog V β) (f : β → Prog V γ) :
    (Prog.write l v k >>= f) = .write l v (k >>= f) := rfl

omit [DecidableEq L] in
@[simp] theorem get_bind (l : L) (f : V l → Prog V γ) : (Prog.get l >>= f) = .read l f := rfl

omit [DecidableEq L] in
@[simp] theorem put_bind (l : L) (v : V l) (f : Unit → Prog V γ) : (Prog.put l v >>= f) = .write l v (f ()) := rfl

@[simp] theorem exec_ret (b : β) (m : Mem V) : (Prog.ret b : Prog V β).exec m = (b, m) := rfl

@[simp] theorem exec_read (l : L) (k : V l → Prog V β) (m : Mem V) : (Prog.read l k).exec m = (k (m l)).exec m := rfl

@[simp] theorem exec_write (l : L) (v : V l) (k : Prog V β) (m : Mem V) :
    (Prog.write l v k).exec m = k.exec (Function.update m l v) := rfl

@[simp] theorem exec_get (l : L) (m : Mem V) : (Prog.get l : Prog V (V l)).exec m = (m l, m) := rfl

@[simp] theorem exec_put (l : L) (v : V l) (m : Mem V) :
    (Prog.put l v : Prog V Unit).exec m = ((), Function.update m l v) := rfl

@[simp] theorem exec_bind (p : Prog V β) (f : β → Prog V γ) (m : Mem V) :
    (p >>= f).exec m = (f (p.exec m).1).exec (p.exec m).2 := by
  induction p generalizing m with
  | ret b => rfl
  | read l k ih => simp [ih]
  | write l v k ih => simp [ih]

theorem step_exec {p p' : Prog V β} {m m' : Mem V} (h : Step p m p' m') : p'.exec m' = p.exec m := by
  cases h <;> rfl

/-- `exec` of a loop, with an invariant on the memory. -/
theorem exec_foldlM_inv {α σ : Type} (f : σ → α → Prog V σ) (π : Mem V → γ) (g : σ × γ → α → σ × γ) (P : Mem V → Prop)
    (l : List α) (h : ∀ a ∈ l, ∀ s m, P m → P ((f s a).exec m).2 ∧ (((f s a).exec m).1, π ((f s a).exec m).2) = g (s, π m) a)
    (s : σ) (m : Mem V) (hm : P m) :
    P ((l.foldlM f s).exec m).2 ∧
      (((l.foldlM f s).exec m).1, π ((l.foldlM f s).exec m).2) = l.foldl g (s, π m) := by
  induction l generalizing s m with
  | nil => exact ⟨hm, rfl⟩
  | cons a t ih =>
    obtain ⟨h1, h2⟩ := h a (by simp) s m hm
    simp only [List.foldlM_cons, exec_bind, List.foldl_cons]
    rw [← h2]
    exact ih (fun b hb => h b (by simp [hb])) _ _ h1

/-- Loop that only reads. -/
theorem exec_foldlM_pure {α σ : Type} (f : σ → α → Prog V σ) (g : σ → α → σ) (m : Mem V) (l : List α)
    (h : ∀ a ∈ l, ∀ s, (f s a).exec m = (g s a, m)) (s : σ) : (l.foldlM f s).exec m = (l.foldl g s, m) := by
  induction l generalizing s with
  | nil => rfl
  | cons a t ih =>
    simp only [List.foldlM_cons, exec_bind, List.foldl_cons]
    rw [h a (by simp) s]
    exact ih (fun b hb => h b (by simp [hb])) _

/-- Loop of statements without result. -/
theorem exec_forM {α : Type} (f : α → Prog V Unit) (l : List α) (m : Mem V) :
    ((l.forM f).exec m).2 = l.foldl (fun m a => ((f a).exec m).2) m := by
  induction l generalizing m with
  | nil => rfl
  | cons a t ih =>
    show (((f a >>= fun _ => t.forM f)).exec m).2 = _
    rw [exec_bind, ih]; rfl

end basic

namespace Prog.Acc

variable {m m' : Mem V} {S R W : Set L} {Q Q' : β → Prop} {p p' : Prog V β}

omit [DecidableEq L] in
theorem mono (h : Acc m S R W Q p) (hQ : ∀ b, Q b → Q' b) : Acc m S R W Q' p := by
  induction h with
  | ret hb => exact .ret (hQ _ hb)
  | readR hl _ ih => exact .readR hl ih
  | readW hl _ ih => exact .readW hl ih
  | write hl _ ih => exact .write hl ih
  | silent hs hl hv _ ih => exact .silent hs hl hv ih

omit [DecidableEq L] in
theorem weaken {R' W' : Set L} (h : Acc m S R W Q p) (hR : R ⊆ R') (hW : W ⊆ W') : Acc m S R' W' Q p := by
  induction h with
  | ret hb => exact .ret hb
  | readR hl _ ih => exact .readR (hR hl) ih
  | readW hl _ ih => exact .readW (hW hl) ih
  | write hl _ ih => exact .write (hW hl) ih
  | silent hs hl hv _ ih => exact .silent hs (hR hl) hv ih

omit [DecidableEq L] in
theorem bind {Q2 : γ → Prop} {f : β → Prog V γ} (h : Acc m S R W Q p) (hf : ∀ b, Q b → Acc m S R W Q2 (f b)) :
    Acc m S R W Q2 (p >>= f) := by
  induction h with
  | ret hb => exact hf _ hb
  | readR hl _ ih => exact .readR hl ih
  | readW hl _ ih => exact .readW hl ih
  | write hl _ ih => exact .write hl ih
  | silent hs hl hv _ ih => exact .silent hs hl hv ih

omit [DecidableEq L] in
theorem congr (h : Acc m S R W Q p) (hm : ∀ l ∈ R, m' l = m l) : Acc m' S R W Q p := by
  induction h with
  | ret hb => exact .ret hb
  | @readR l k hl _ ih => exact .readR hl (by rw [hm l hl]; exact ih)
  | readW hl _ ih => exact .readW hl ih
  | write hl _ ih => exact .write hl ih
  | @silent l v k hs hl hv _ ih => exact .silent hs hl (by rw [hm l hl]; exact hv) ih

omit [DecidableEq L] in
theorem foldlM {α σ : Type} {P : σ → Prop} {f : σ → α → Prog V σ} {l : List α}
    (hf : ∀ a ∈ l, ∀ s, P s → Acc m S R W P (f s a)) {s : σ} (hs : P s) : Acc m S R W P (l.foldlM f s) := by
  induction l generalizing s with
  | nil => exact .ret hs
  | cons a t ih =>
    rw [List.foldlM_cons]
    exact (hf a (by simp) s hs).bind fun b hb => ih (fun c hc => hf c (by simp [hc])) hb

omit [DecidableEq L] in
theorem forM {α : Type} {f : α → Prog V Unit} {l : List α}
    (hf : ∀ a ∈ l, Acc m S R W (fun _ => True) (f a)) : Acc m S R W (fun _ => True) (l.forM f) := by
  induction l with
  | nil => exact .ret trivial
  | cons a t ih =>
    show Acc m S R W _ (f a >>= fun _ => t.forM f)
    exact (hf a (by simp)).bind fun _ _ => ih fun c hc => hf c (by simp [hc])

/-- What a disciplined program leaves unchanged, and its result. -/
theorem exec_frame (hd : Disjoint R W) (h : Acc m S R W Q p) :
    Q (p.exec m).1 ∧ ∀ l, l ∉ W → (p.exec m).2 l = m l := by
  have key : ∀ m1 : Mem V, (∀ l, l ∈ R → m1 l = m l) →
      Q (p.exec m1).1 ∧ ∀ l, l ∉ W → (p.exec m1).2 l = m1 l := by
    induction h with
    | ret hb => intro m1 _; exact ⟨hb, fun _ _ => rfl⟩
    | @readR l k hl _ ih => intro m1 h1; rw [exec_read, h1 l hl]; exact ih m1 h1
    | @readW l k hl _ ih => intro m1 h1; rw [exec_read]; exact ih _ m1 h1
    | @write l v k hl _ ih =>
      intro m1 h1
      have h2 : ∀ l' ∈ R, Function.update m1 l v l' = m l' := by
        intro l' hl'
        have : l' ≠ l := by rintro rfl; exact Set.disjoint_left.1 hd hl' hl
        rw [Function.update_of_ne this]; exact h1 l' hl'
      refine ⟨(ih _ h2).1, fun l' hl' => ?_⟩
      rw [exec_write, (ih _ h2).2 l' hl']
      exact Function.update_of_ne (by rintro rfl; exact hl' hl) _ _
    | @silent l v k _ hl hv _ ih =>
      intro m1 h1
      have : Function.update m1 l v = m1 := by rw [hv, ← h1 l hl, Function.update_eq_self]
      rw [exec_write, this]; exact ih m1 h1
  exact key m fun _ _ => rfl

/-- The result depends only on the locations of the discipline. -/
theorem exec_congr (hd : Disjoint R W) (h : Acc m S R W Q p) (hR : ∀ l ∈ R, m' l = m l) (hW : ∀ l ∈ W, m' l = m l) :
    (p.exec m').1 = (p.exec m).1 ∧ ∀ l ∈ W, (p.exec m').2 l = (p.exec m).2 l := by
  have key : ∀ m1 m2 : Mem V, (∀ l ∈ R, m1 l = m l) → (∀ l ∈ R, m2 l = m l) → (∀ l ∈ W, m2 l = m1 l) →
      (p.exec m2).1 = (p.exec m1).1 ∧ ∀ l ∈ W, (p.exec m2).2 l = (p.exec m1).2 l := by
    induction h with
    | ret hb => intro m1 m2 _ _ h3; exact ⟨rfl, h3⟩
    | @readR l k hl _ ih => intro m1 m2 h1 h2 h3; rw [exec_read, exec_read, h1 l hl, h2 l hl]; exact ih m1 m2 h1 h2 h3
    | @readW l k hl _ ih => intro m1 m2 h1 h2 h3; rw [exec_read, exec_read, h3 l hl]; exact ih _ m1 m2 h1 h2 h3
    | @write l v k hl _ ih =>
      intro m1 m2 h1 h2 h3
      have ne : ∀ l' ∈ R, l' ≠ l := by rintro l' hl' rfl; exact Set.disjoint_left.1 hd hl' hl
      refine ih _ _ (fun l' hl' => ?_) (fun l' hl' => ?_) (fun l' hl' => ?_)
      · rw [Function.update_of_ne (ne l' hl')]; exact h1 l' hl'
      · rw [Function.update_of_ne (ne l' hl')]; exact h2 l' hl'
      · by_cases e : l' = l
        · subst e; simp
        · rw [Function.update_of_ne e, Function.update_of_ne e]; exact h3 l' hl'
    | @silent l v k _ hl hv _ ih =>
      intro m1 m2 h1 h2 h3
      have e1 : Function.update m1 l v = m1 := by rw [hv, ← h1 l hl, Function.update_eq_self]
      have e2 : Function.update m2 l v = m2 := by rw [hv, ← h2 l hl, Function.update_eq_self]
      rw [exec_write, exec_write, e1, e2]; exact ih m1 m2 h1 h2 h3
  exact key m m' (fun _ _ => rfl) hR hW

/-- One access keeps the discipline and changes only locations of `W`. -/
theorem step (hd : Disjoint R W) (h : Acc m S R W Q p) (hs : Step p m p' m') :
    Acc m' S R W Q p' ∧ ∀ l, l ∉ W → m' l = m l := by
  cases hs with
  | read l k =>
    refine ⟨?_, fun _ _ => rfl⟩
    cases h with
    | readR hl h => exact h
    | readW hl h => exact h _
  | write l v k =>
    cases h with
    | write hl h =>
      have hu : ∀ l', l' ∉ W → Function.update m l v l' = m l' :=
        fun l' hl' => Function.update_of_ne (by rintro rfl; exact hl' hl) _ _
      exact ⟨h.congr fun l' hl' => hu l' (Set.disjoint_left.1 hd hl'), hu⟩
    | silent _ hl hv h =>
      have : Function.update m l v = m := by rw [hv, Function.update_eq_self]
      rw [this]; exact ⟨h, fun _ _ => rfl⟩

omit [DecidableEq L] in
/-- The next access of a disciplined program. -/
theorem next (h : Acc m S R W Q p) {l : L} (ha : p.NextAccess l) : l ∈ R ∨ l ∈ W := by
  rcases ha with ⟨k, rfl⟩ | ⟨v, k, rfl⟩
  · cases h with
    | readR hl _ => exact .inl hl
    | readW hl _ => exact .inr hl
  · cases h with
    | write hl _ => exact .inr hl
    | silent _ hl _ _ => exact .inl hl

omit [DecidableEq L] in
/-- The next write of a disciplined program. -/
theorem nextWrite (h : Acc m S R W Q p) {l : L} {v : V l} (ha : p.NextWrite l v) :
    l ∈ W ∨ l ∈ S ∧ l ∈ R ∧ v = m l := by
  obtain ⟨k, rfl⟩ := ha
  cases h with
  | write hl _ => exact .inl hl
  | silent hs hl hv _ => exact .inr ⟨hs, hl, hv⟩

end Prog.Acc

/-! ## `tbb::parallel_for` -/

section parfor

variable [DecidableEq ι]

/-- One access of one of the concurrent tasks. -/
inductive ParStep : (ι → Prog V Unit) × Mem V → (ι → Prog V Unit) × Mem V → Prop
  | mk (ps : ι → Prog V Unit) (m m' : Mem V) (i : ι) (p' : Prog V Unit) :
      Step (ps i) m p' m' → ParStep (ps, m) (Function.update ps i p', m')

/-- Configurations reached by concurrent tasks. -/
inductive ParReach : (ι → Prog V Unit) × Mem V → (ι → Prog V Unit) × Mem V → Prop
  | refl (c : (ι → Prog V Unit) × Mem V) : ParReach c c
  | tail {a b c : (ι → Prog V Unit) × Mem V} : ParReach a b → ParStep b c → ParReach a c

/-- Complete execution of concurrent tasks: all have ended. -/
def ParRun (ps : ι → Prog V Unit) (m m' : Mem V) : Prop := ∃ ps', ParReach (ps, m) (ps', m') ∧ ∀ i, ps' i = .ret ()

/-- Two tasks are about to access the location `l`, one of them to write it. -/
def Conflict (ps : ι → Prog V Unit) (l : L) : Prop :=
  ∃ i j, i ≠ j ∧ (∃ v, (ps i).NextWrite l v) ∧ (ps j).NextAccess l

variable {S R : Set L} {W : ι → Set L} {ps ps' : ι → Prog V Unit} {m m' : Mem V}

/-- Tasks with disjoint sets of written locations. -/
structure Tasks (S R : Set L) (W : ι → Set L) (ps : ι → Prog V Unit) (m : Mem V) : Prop where
  acc : ∀ i, (ps i).Acc m S R (W i) fun _ => True
  disj : ∀ i j, i ≠ j → Disjoint (W i) (W j)
  frozen : ∀ i, Disjoint R (W i)

theorem Tasks.step (h : Tasks S R W ps m) (hs : ParStep (ps, m) (ps', m')) :
    Tasks S R W ps' m' ∧ (∀ l, (∀ i, l ∉ W i) → m' l = m l) ∧
      ∀ i, ∀ l ∈ W i, ((ps' i).exec m').2 l = ((ps i).exec m).2 l := by
  cases hs with
  | mk _ _ _ i p' hs =>
    obtain ⟨ha, hf⟩ := (h.acc i).step (h.frozen i) hs
    have hR : ∀ l ∈ R, m' l = m l := fun l hl => hf l (Set.disjoint_left.1 (h.frozen i) hl)
    refine ⟨⟨fun j => ?_, h.disj, h.frozen⟩, fun l hl => hf l (hl i), fun j l hl => ?_⟩
    · by_cases e : j = i
      · subst e; simpa using ha
      · rw [Function.update_of_ne e]; exact (h.acc j).congr hR
    · by_cases e : j = i
      · subst e; rw [Function.update_self, step_exec hs]
      · rw [Function.update_of_ne e]
        exact ((h.acc j).exec_congr (h.frozen j) hR
          fun l hl => hf l (Set.disjoint_left.1 (h.disj j i e) hl)).2 l hl

theorem Tasks.reach (h : Tasks S R W ps m) (hr : ParReach (ps, m) (ps', m')) :
    Tasks S R W ps' m' ∧ (∀ l, (∀ i, l ∉ W i) → m' l = m l) ∧
      ∀ i, ∀ l ∈ W i, ((ps' i).exec m').2 l = ((ps i).exec m).2 l := by
  generalize hc : (ps', m') = c at hr
  induction hr generalizing ps' m' with
  | refl => obtain ⟨rfl, rfl⟩ := Prod.mk.inj hc; exact ⟨h, fun _ _ => rfl, fun _ _ _ => rfl⟩
  | @tail b c _ hs ih =>
    obtain ⟨h1, h2, h3⟩ := ih rfl
    subst hc
    obtain ⟨h1', h2', h3'⟩ := h1.step hs
    exact ⟨h1', fun l hl => (h2' l hl).trans (h2 l hl), fun i l hl => (h3' i l hl).trans (h3 i l hl)⟩

/-- Every interleaving leaves in the locations of a task what the task, run alone from the initial memory, would write there,
and changes nothing else. -/
theorem ParRun.result (h : Tasks S R W ps m) (hr : ParRun ps m m') :
    (∀ i, ∀ l ∈ W i, m' l = ((ps i).exec m).2 l) ∧ ∀ l, (∀ i, l ∉ W i) → m' l = m l := by
  obtain ⟨ps', hr, hd⟩ := hr
  obtain ⟨_, h2, h3⟩ := h.reach hr
  refine ⟨fun i l hl => ?_, h2⟩
  rw [← h3 i l hl, hd i]; rfl

/-- The same memory is left by the tasks run one after the other, in any order. -/
theorem ParRun.sequential (h : Tasks S R W ps m) (hr : ParRun ps m m') (order : List ι) (hn : order.Nodup)
    (ho : ∀ i, i ∈ order ∨ ps i = .ret ()) : m' = order.foldl (fun m i => ((ps i).exec m).2) m := by
  obtain ⟨h1, h2⟩ := hr.result h
  have key : ∀ order : List ι, order.Nodup → ∀ mm : Mem V,
      (∀ l ∈ R, mm l = m l) → (∀ i ∈ order, ∀ l ∈ W i, mm l = m l) →
      (∀ i ∈ order, ∀ l ∈ W i, (order.foldl (fun m i => ((ps i).exec m).2) mm) l = ((ps i).exec m).2 l) ∧
      ∀ l, (∀ i ∈ order, l ∉ W i) → (order.foldl (fun m i => ((ps i).exec m).2) mm) l = mm l := by
    intro order
    induction order with
    | nil => intro _ mm _ _; exact ⟨fun i hi => by simp at hi, fun _ _ => rfl⟩
    | cons a t ih =>
      intro hn mm hR hW
      rw [List.nodup_cons] at hn
      have hacc := (h.acc a).congr hR
      have hfr := (hacc.exec_frame (h.frozen a)).2
      obtain ⟨k1, k2⟩ := ih hn.2 ((ps a).exec mm).2
        (fun l hl => (hfr l (Set.disjoint_left.1 (h.frozen a) hl)).trans (hR l hl))
        (fun i hi l hl => (hfr l (Set.disjoint_left.1 (h.disj i a (by rintro rfl; exact hn.1 hi)) hl)).trans
          (hW i (by simp [hi]) l hl))
      refine ⟨fun i hi l hl => ?_, fun l hl => ?_⟩
      · rw [List.foldl_cons]
        rcases List.mem_cons.1 hi with rfl | hi
        · rw [k2 l fun j hj hlj => Set.disjoint_left.1 (h.disj i j (by rintro rfl; exact hn.1 hj)) hl hlj]
          exact ((h.acc i).exec_congr (h.frozen i) hR (hW i (by simp))).2 l hl
        · exact k1 i hi l hl
      · rw [List.foldl_cons, k2 l fun j hj => hl j (by simp [hj])]
        exact hfr l (hl a (by simp))
  obtain ⟨k1, k2⟩ := key order hn m (fun _ _ => rfl) (fun _ _ _ _ => rfl)
  funext l
  by_cases hl : ∃ i, l ∈ W i
  · obtain ⟨i, hi⟩ := hl
    rw [h1 i l hi]
    rcases ho i with ho | ho
    · exact (k1 i ho l hi).symm
    · rw [ho, exec_ret]
      by_cases hi' : i ∈ order
      · rw [k1 i hi' l hi, ho, exec_ret]
      · rw [k2 l fun j hj hlj => Set.disjoint_left.1 (h.disj i j (by rintro rfl; exact hi' hj)) hi hlj]
  · have hl' : ∀ i, l ∉ W i := fun i hi => hl ⟨i, hi⟩
    rw [h2 l hl', k2 l fun j _ => hl' j]

/-- Conflicting accesses of concurrent tasks are only to locations of `S`, and overwrite them with the value they have and
had at the beginning. -/
theorem ParReach.conflict (h : Tasks S R W ps m) (hr : ParReach (ps, m) (ps', m')) {l : L} (hc : Conflict ps' l) :
    l ∈ S ∧ ∀ i v, (ps' i).NextWrite l v → v = m' l ∧ v = m l := by
  obtain ⟨h', h2, _⟩ := h.reach hr
  obtain ⟨i, j, hij, ⟨v, hv⟩, hj⟩ := hc
  have hlR : l ∈ S ∧ l ∈ R := by
    rcases (h'.acc i).nextWrite hv with hw | ⟨hs, hl, _⟩
    · rcases (h'.acc j).next hj with hl | hl
      · exact absurd hw (Set.disjoint_left.1 (h.frozen i) hl)
      · exact absurd hl (Set.disjoint_left.1 (h.disj i j hij) hw)
    · exact ⟨hs, hl⟩
  refine ⟨hlR.1, fun a w hw => ?_⟩
  rcases (h'.acc a).nextWrite hw with hw' | ⟨_, _, hv'⟩
  · exact absurd hw' (Set.disjoint_left.1 (h.frozen a) hlR.2)
  · exact ⟨hv', hv'.trans (h2 l fun b => Set.disjoint_left.1 (h.frozen b) hlR.2)⟩

/-- A task can always be run to its end. -/
theorem ParReach.run_task (ps : ι → Prog V Unit) (m : Mem V) (i : ι) :
    ParReach (ps, m) (Function.update ps i (.ret ()), ((ps i).exec m).2) := by
  have key : ∀ (p : Prog V Unit) (m : Mem V), ParReach (Function.update ps i p, m)
      (Function.update ps i (.ret ()), (p.exec m).2) := by
    have trans : ∀ {a b c : (ι → Prog V Unit) × Mem V}, ParReach a b → ParReach b c → ParReach a c := by
      intro a b c h1 h2
      induction h2 with
      | refl => exact h1
      | tail _ hs ih => exact ih.tail hs
    intro p
    induction p with
    | ret b => intro m; exact .refl _
    | read l k ih =>
      intro m
      refine trans (ParReach.tail (.refl _) (ParStep.mk (Function.update ps i (.read l k)) m m i (k (m l))
        (by rw [Function.update_self]; exact .read l k m))) ?_
      rw [Function.update_idem]; exact ih _ m
    | write l v k ih =>
      intro m
      refine trans (ParReach.tail (.refl _) (ParStep.mk (Function.update ps i (.write l v k)) m _ i k
        (by rw [Function.update_self]; exact .write l v k m))) ?_
      rw [Function.update_idem]; exact ih _
  simpa using key (ps i) m

/-- Complete executions exist: the tasks one after the other. -/
theorem ParRun.exists (ps : ι → Prog V Unit) (m : Mem V) (order : List ι) (ho : ∀ i, i ∈ order ∨ ps i = .ret ()) :
    ∃ m', ParRun ps m m' := by
  have trans : ∀ {a b c : (ι → Prog V Unit) × Mem V}, ParReach a b → ParReach b c → ParReach a c := by
    intro a b c h1 h2
    induction h2 with
    | refl => exact h1
    | tail _ hs ih => exact ih.tail hs
  induction order generalizing ps m with
  | nil => exact ⟨m, ps, .refl _, fun i => by simpa using ho i⟩
  | cons a t ih =>
    obtain ⟨m', ps', h1, h2⟩ := ih (Function.update ps a (.ret ())) ((ps a).exec m).2 (fun i => by
      by_cases e : i = a
      · subst e; simp
      · rw [Function.update_of_ne e]
        rcases ho i with h | h
        · rcases List.mem_cons.1 h with h | h
          · exact absurd h e
          · exact .inl h
        · exact .inr h)
    exact ⟨m', ps', trans (ParReach.run_task ps m a) h1, h2⟩

end parfor

/-! ## `WorkStream::run` -/

section workstream

/-- A worker at work: the item, the recycled copy data object it was given (`none`: a fresh copy of the sample), and what it
has still to do. The first two are ghost fields. -/
structure Wk (V : L → Type) (ι β : Type) where
  item : ι
  src : Option β
  prog : Prog V β

/-- A configuration: items not yet started, workers at work, filled copy data objects, the copier at work with its copy data
object, copy data objects to be recycled, memory. -/
structure Cfg (V : L → Type) (ι β : Type) where
  pend : List ι
  wks : List (Wk V ι β)
  fl : List β
  cop : Option (β × Prog V Unit)
  free : List β
  mem : Mem V

variable (worker : ι → β → Prog V β) (copier : β → Prog V Unit) (sample : β)

/-- One step of `WorkStream::run`: a worker is started, makes one access, or ends; the copier is started on a filled copy
data object if none is at work, makes one access, or ends. -/
inductive CStep : Cfg V ι β → Cfg V ι β → Prop
  | start (p₁ p₂ : List ι) (i : ι) (wks : List (Wk V ι β)) (fl : List β) (cop : Option (β × Prog V Unit))
      (free : List β) (m : Mem V) :
      CStep ⟨p₁ ++ i :: p₂, wks, fl, cop, free, m⟩ ⟨p₁ ++ p₂, ⟨i, none, worker i sample⟩ :: wks, fl, cop, free, m⟩
  | reuse (p₁ p₂ : List ι) (i : ι) (wks : List (Wk V ι β)) (fl : List β) (cop : Option (β × Prog V Unit))
      (f₁ f₂ : List β) (b : β) (m : Mem V) :
      CStep ⟨p₁ ++ i :: p₂, wks, fl, cop, f₁ ++ b :: f₂, m⟩
        ⟨p₁ ++ p₂, ⟨i, some b, worker i b⟩ :: wks, fl, cop, f₁ ++ f₂, m⟩
  | access (pend : List ι) (w₁ w₂ : List (Wk V ι β)) (w : Wk V ι β) (p' : Prog V β) (fl : List β)
      (cop : Option (β × Prog V Unit)) (free : List β) (m m' : Mem V) : Step w.prog m p' m' →
      CStep ⟨pend, w₁ ++ w :: w₂, fl, cop, free, m⟩ ⟨pend, w₁ ++ { w with prog := p' } :: w₂, fl, cop, free, m'⟩
  | finish (pend : List ι) (w₁ w₂ : List (Wk V ι β)) (i : ι) (src : Option β) (b : β) (fl : List β)
      (cop : Option (β × Prog V Unit)) (free : List β) (m : Mem V) :
      CStep ⟨pend, w₁ ++ ⟨i, src, .ret b⟩ :: w₂, fl, cop, free, m⟩ ⟨pend, w₁ ++ w₂, b :: fl, cop, free, m⟩
  | copy (pend : List ι) (wks : List (Wk V ι β)) (f₁ f₂ : List β) (b : β) (free : List β) (m : Mem V) :
      CStep ⟨pend, wks, f₁ ++ b :: f₂, none, free, m⟩ ⟨pend, wks, f₁ ++ f₂, some (b, copier b), free, m⟩
  | copyAccess (pend : List ι) (wks : List (Wk V ι β)) (fl : List β) (b : β) (p p' : Prog V Unit) (free : List β)
      (m m' : Mem V) : Step p m p' m' →
      CStep ⟨pend, wks, fl, some (b, p), free, m⟩ ⟨pend, wks, fl, some (b, p'), free, m'⟩
  | copyFinish (pend : List ι) (wks : List (Wk V ι β)) (fl : List β) (b : β) (free : List β) (m : Mem V) :
      CStep ⟨pend, wks, fl, some (b, .ret ()), free, m⟩ ⟨pend, wks, fl, none, b :: free, m⟩

/-- Configurations reached. -/
inductive CReach : Cfg V ι β → Cfg V ι β → Prop
  | refl (c : Cfg V ι β) : CReach c c
  | tail {a b c : Cfg V ι β} : CReach a b → CStep worker copier sample b c → CReach a c

/-- The initial configuration. -/
def Cfg.init (l : List ι) (m : Mem V) : Cfg V ι β := ⟨l, [], [], none, [], m⟩

/-- A complete execution on the items `l`. -/
def CRun (l : List ι) (m m' : Mem V) : Prop :=
  ∃ free, CReach worker copier sample (Cfg.init l m) ⟨[], [], [], none, free, m'⟩

/-- The threads of a configuration are about to make conflicting accesses to `l`: two workers, or a worker and the
copier. -/
def CConflict (c : Cfg V ι β) (l : L) : Prop :=
  (∃ w₁ w w₂ w' w₃, c.wks = w₁ ++ w :: w₂ ++ w' :: w₃ ∧
    ((∃ v, w.prog.NextWrite l v) ∧ w'.prog.NextAccess l ∨ w.prog.NextAccess l ∧ ∃ v, w'.prog.NextWrite l v)) ∨
  (∃ w ∈ c.wks, ∃ b p, c.cop = some (b, p) ∧
    ((∃ v, w.prog.NextWrite l v) ∧ p.NextAccess l ∨ w.prog.NextAccess l ∧ ∃ v, p.NextWrite l v))

variable {worker copier sample} {S R Wc : Set L} {l : List ι} {m0 : Mem V}

/-- Workers only read locations that copiers never change (and may overwrite those of `S` with the value they have); copiers
write in `Wc`, apart from `S`. `Good` holds of the copy data objects filled by the workers. -/
structure Streams (worker : ι → β → Prog V β) (copier : β → Prog V Unit) (S R Wc : Set L) (Good : β → Prop) (l : List ι)
    (m0 : Mem V) : Prop where
  work : ∀ i ∈ l, ∀ b, (worker i b).Acc m0 S R ∅ Good
  copy : ∀ b, Good b → (copier b).Acc m0 S R Wc fun _ => True
  frozen : Disjoint R Wc

/-- Invariant of the configurations. -/
structure CInv (worker : ι → β → Prog V β) (copier : β → Prog V Unit) (sample : β) (S R Wc : Set L) (Good : β → Prop)
    (l : List ι) (m0 : Mem V) (c : Cfg V ι β) : Prop where
  pend : ∀ i ∈ c.pend, i ∈ l
  mem : ∀ x, x ∉ Wc → c.mem x = m0 x
  wks : ∀ w ∈ c.wks, w.item ∈ l ∧ w.prog.Acc m0 S R ∅ Good ∧
    (w.prog.exec m0).1 = ((worker w.item (w.src.getD sample)).exec m0).1
  fl : ∀ b ∈ c.fl, Good b
  cop : ∀ b p, c.cop = some (b, p) → p.Acc m0 S R Wc fun _ => True

variable {Good : β → Prop}

theorem Streams.init (m0 : Mem V) (l : List ι) : CInv worker copier sample S R Wc Good l m0 (Cfg.init l m0) where
  pend := fun i hi => hi
  mem := fun _ _ => rfl
  wks := fun w hw => by simp [Cfg.init] at hw
  fl := fun b hb => by simp [Cfg.init] at hb
  cop := fun b p h => by simp [Cfg.init] at h

/-- A worker leaves the memory as it is. -/
theorem worker_step {m : Mem V} {p p' : Prog V β} {m' : Mem V} (hm : ∀ x ∈ R, m x = m0 x) (h : p.Acc m0 S R ∅ Good)
    (hs : Step p m p' m') : m' = m ∧ p'.Acc m0 S R ∅ Good ∧ (p'.exec m0).1 = (p.exec m0).1 := by
  have hd : Disjoint R (∅ : Set L) := Set.disjoint_empty R
  have h1 := h.congr hm
  obtain ⟨h2, h3⟩ := h1.step hd hs
  have e : m' = m := funext fun x => h3 x (by simp)
  subst e
  refine ⟨rfl, h2.congr fun x hx => (hm x hx).symm, ?_⟩
  have a1 := (h2.exec_congr (m' := m0) hd (fun x hx => (hm x hx).symm) (fun x hx => by simp at hx)).1
  have a2 := (h1.exec_congr (m' := m0) hd (fun x hx => (hm x hx).symm) (fun x hx => by simp at hx)).1
  rw [a1, a2, step_exec hs]

theorem Streams.step (h : Streams worker copier S R Wc Good l m0) {c c' : Cfg V ι β}
    (hi : CInv worker copier sample S R Wc Good l m0 c) (hs : CStep worker copier sample c c') :
    CInv worker copier sample S R Wc Good l m0 c' := by
  have hmR : ∀ {c : Cfg V ι β}, CInv worker copier sample S R Wc Good l m0 c → ∀ x ∈ R, c.mem x = m0 x :=
    fun hi x hx => hi.mem x (Set.disjoint_left.1 h.frozen hx)
  cases hs with
  | start p1 p2 i wks fl cop free m =>
    have hil : i ∈ l := hi.pend i (by simp)
    refine ⟨fun j hj => hi.pend j (by simp at hj ⊢; tauto), hi.mem, fun w hw => ?_, hi.fl, hi.cop⟩
    rcases List.mem_cons.1 hw with rfl | hw
    · exact ⟨hil, h.work i hil sample, rfl⟩
    · exact hi.wks w hw
  | reuse p1 p2 i wks fl cop f1 f2 b m =>
    have hil : i ∈ l := hi.pend i (by simp)
    refine ⟨fun j hj => hi.pend j (by simp at hj ⊢; tauto), hi.mem, fun w hw => ?_, hi.fl, hi.cop⟩
    rcases List.mem_cons.1 hw with rfl | hw
    · exact ⟨hil, h.work i hil b, rfl⟩
    · exact hi.wks w hw
  | access pend w1 w2 w p' fl cop free m m' hs =>
    obtain ⟨a, b, e⟩ := hi.wks w (by simp)
    obtain ⟨rfl, h1, h2⟩ := worker_step (hmR hi) b hs
    refine ⟨hi.pend, hi.mem, fun w' hw' => ?_, hi.fl, hi.cop⟩
    simp only [List.mem_append, List.mem_cons] at hw'
    rcases hw' with hw' | rfl | hw'
    · exact hi.wks w' (by simp [hw'])
    · exact ⟨a, h1, h2.trans e⟩
    · exact hi.wks w' (by simp [hw'])
  | finish pend w1 w2 i src b fl cop free m =>
    refine ⟨hi.pend, hi.mem, fun w hw => hi.wks w (by simp at hw ⊢; tauto), fun b' hb' => ?_, hi.cop⟩
    rcases List.mem_cons.1 hb' with rfl | hb'
    · obtain ⟨_, hb, _⟩ := hi.wks ⟨i, src, .ret b'⟩ (by simp)
      cases hb with
      | ret hq => exact hq
    · exact hi.fl b' hb'
  | copy pend wks f1 f2 b free m =>
    refine ⟨hi.pend, hi.mem, hi.wks, fun b' hb' => hi.fl b' (by simp at hb' ⊢; tauto), fun b' p' hp => ?_⟩
    obtain ⟨rfl, rfl⟩ := Prod.mk.inj (Option.some.inj hp)
    exact h.copy _ (hi.fl _ (by simp))
  | copyAccess pend wks fl b p p' free m m' hs =>
    have ha := (hi.cop b p rfl).congr (hmR hi)
    obtain ⟨h1, h2⟩ := ha.step h.frozen hs
    refine ⟨hi.pend, fun x hx => (h2 x hx).trans (hi.mem x hx), hi.wks, hi.fl, fun b' q hq => ?_⟩
    obtain ⟨rfl, rfl⟩ := Prod.mk.inj (Option.some.inj hq)
    exact h1.congr fun x hx => by rw [h2 x (Set.disjoint_left.1 h.frozen hx), hmR hi x hx]
  | copyFinish pend wks fl b free m =>
    exact ⟨hi.pend, hi.mem, hi.wks, hi.fl, fun b' p hp => by simp at hp⟩

theorem Streams.reach (h : Streams worker copier S R Wc Good l m0) {c c' : Cfg V ι β}
    (hi : CInv worker copier sample S R Wc Good l m0 c) (hr : CReach worker copier sample c c') :
    CInv worker copier sample S R Wc Good l m0 c' := by
  induction hr with
  | refl => exact hi
  | tail _ hs ih => exact h.step ih hs

/-- Conflicting accesses are only to locations of `S`, and whoever is about to write one writes the value it has and had at
the beginning. -/
theorem CReach.conflict (h : Streams worker copier S R Wc Good l m0) {c : Cfg V ι β}
    (hr : CReach worker copier sample (Cfg.init l m0) c) {x : L} (hc : CConflict c x) :
    x ∈ S ∧ c.mem x = m0 x ∧ (∀ w ∈ c.wks, ∀ v, w.prog.NextWrite x v → v = m0 x) ∧
      ∀ b p, c.cop = some (b, p) → ∀ v, p.NextWrite x v → v = m0 x := by
  have hi := h.reach (Streams.init m0 l) hr
  have hw : ∀ w ∈ c.wks, ∀ v, w.prog.NextWrite x v → x ∈ S ∧ x ∈ R ∧ v = m0 x := fun w hw v hv => by
    rcases (hi.wks w hw).2.1.nextWrite hv with h | h
    · simp at h
    · exact h
  have ha : ∀ w ∈ c.wks, w.prog.NextAccess x → x ∈ R := fun w hw hv => by
    rcases (hi.wks w hw).2.1.next hv with h | h
    · exact h
    · simp at h
  have key : x ∈ S ∧ x ∈ R := by
    rcases hc with ⟨w1, w, w2, w', w3, e, hc⟩ | ⟨w, hwm, b, p, hp, hc⟩
    · rcases hc with ⟨⟨v, hv⟩, _⟩ | ⟨_, v, hv⟩
      · have := hw w (by rw [e]; simp) v hv; exact ⟨this.1, this.2.1⟩
      · have := hw w' (by rw [e]; simp) v hv; exact ⟨this.1, this.2.1⟩
    · rcases hc with ⟨⟨v, hv⟩, _⟩ | ⟨hr, v, hv⟩
      · have := hw w hwm v hv; exact ⟨this.1, this.2.1⟩
      · rcases (hi.cop b p hp).nextWrite hv with h' | h'
        · exact absurd h' (Set.disjoint_left.1 h.frozen (ha w hwm hr))
        · exact ⟨h'.1, h'.2.1⟩
  refine ⟨key.1, hi.mem x (Set.disjoint_left.1 h.frozen key.2), fun w hwm v hv => (hw w hwm v hv).2.2,
    fun b p hp v hv => ?_⟩
  rcases (hi.cop b p hp).nextWrite hv with h' | h'
  · exact absurd h' (Set.disjoint_left.1 h.frozen key.2)
  · exact h'.2.2

omit [DecidableEq L] in
/-- `WorkStream.Run` does not depend on the order of the three lists. -/
theorem run_perm {work : ι → Mem V → β → β} {copy : β → Mem V → Mem V} {pend pend' : List ι} {fl fl' free free' : List β}
    {s s' : Mem V} (h : Run work copy sample pend fl free s s') (h1 : pend.Perm pend') (h2 : fl.Perm fl')
    (h3 : free.Perm free') : Run work copy sample pend' fl' free' s s' := by
  have split : ∀ {α : Type} {l l1 l2 : List α} {a : α}, (l1 ++ a :: l2).Perm l →
      ∃ l1' l2', l = l1' ++ a :: l2' ∧ (l1 ++ l2).Perm (l1' ++ l2') := by
    intro α l l1 l2 a hp
    have ha : a ∈ l := hp.subset (by simp)
    obtain ⟨l1', l2', rfl⟩ := List.append_of_mem ha
    refine ⟨l1', l2', rfl, ?_⟩
    have := (List.perm_middle.symm.trans hp).trans List.perm_middle
    exact (List.perm_cons a).1 this
  induction h generalizing pend' fl' free' with
  | done free s =>
    rw [List.nil_perm.1 h1, List.nil_perm.1 h2]
    exact Run.done _ _
  | work p1 p2 i fl free free'' b s s' hb _ ih =>
    obtain ⟨p1', p2', rfl, hp⟩ := split h1
    rcases hb with ⟨rfl, rfl⟩ | ⟨f1, f2, rfl, rfl⟩
    · exact Run.work p1' p2' i fl' free' free' b s s' (.inl ⟨rfl, rfl⟩) (ih hp (h2.cons _) h3)
    · obtain ⟨f1', f2', rfl, hf⟩ := split h3
      exact Run.work p1' p2' i fl' _ (f1' ++ f2') b s s' (.inr ⟨f1', f2', rfl, rfl⟩) (ih hp (h2.cons _) hf)
  | copy pend f1 f2 b free s s' _ ih =>
    obtain ⟨f1', f2', rfl, hf⟩ := split h2
    exact Run.copy pend' f1' f2' b free' s s' (ih h1 hf (h3.cons _))

/-- The memory when the copier at work will have ended. -/
def afterCopier (cop : Option (β × Prog V Unit)) (m : Mem V) : Mem V := (cop.map fun q => (q.2.exec m).2).getD m

/-- The state of the model with indivisible calls corresponding to a configuration: workers at work have not started yet, the
copier at work has ended. -/
def Cfg.abs (c : Cfg V ι β) : List ι × List β × List β × Mem V :=
  (c.wks.map Wk.item ++ c.pend, c.fl, (c.cop.map Prod.fst).toList ++ (c.wks.filterMap Wk.src ++ c.free),
    afterCopier c.cop c.mem)

/-- Runs of the model with indivisible calls. -/
def AbsRun (worker : ι → β → Prog V β) (copier : β → Prog V Unit) (sample : β)
    (a : List ι × List β × List β × Mem V) (m' : Mem V) : Prop :=
  Run (fun i s b => ((worker i b).exec s).1) (fun b s => ((copier b).exec s).2) sample a.1 a.2.1 a.2.2.1 a.2.2.2 m'

theorem Streams.sim (h : Streams worker copier S R Wc Good l m0) {c c' : Cfg V ι β} {m' : Mem V}
    (hi : CInv worker copier sample S R Wc Good l m0 c) (hs : CStep worker copier sample c c')
    (hr : AbsRun worker copier sample c'.abs m') : AbsRun worker copier sample c.abs m' := by
  have hi' := h.step hi hs
  unfold AbsRun Cfg.abs at *
  cases hs with
  | start p1 p2 i wks fl cop free m =>
    refine run_perm hr ?_ (List.Perm.refl _) (by simp)
    simp only [List.map_cons, List.cons_append]
    exact (List.perm_middle (l₁ := wks.map Wk.item ++ p1) (a := i) (l₂ := p2) |>.symm |> fun q => by simpa using q)
  | reuse p1 p2 i wks fl cop f1 f2 b m =>
    refine run_perm hr ?_ (List.Perm.refl _) ?_
    · simp only [List.map_cons, List.cons_append]
      exact (List.perm_middle (l₁ := wks.map Wk.item ++ p1) (a := i) (l₂ := p2) |>.symm |> fun q => by simpa using q)
    · refine List.Perm.append_left _ ?_
      simp only [List.filterMap_cons_some (b := b) (f := Wk.src) (a := (⟨i, some b, worker i b⟩ : Wk V ι β)) rfl,
        List.cons_append]
      exact (List.perm_middle (l₁ := wks.filterMap Wk.src ++ f1) (a := b) (l₂ := f2) |>.symm |> fun q => by simpa using q)
  | access pend w1 w2 w p' fl cop free m m' hs =>
    have hmR : ∀ x ∈ R, m x = m0 x := fun x hx => hi.mem x (Set.disjoint_left.1 h.frozen hx)
    obtain ⟨rfl, _, _⟩ := worker_step hmR (hi.wks w (by simp)).2.1 hs
    simpa [List.filterMap_append, List.filterMap_cons] using hr
  | finish pend w1 w2 i src b fl cop free m =>
    obtain ⟨hil, hacc, he⟩ := hi.wks ⟨i, src, .ret b⟩ (by simp)
    have hmR : ∀ x ∈ R, m x = m0 x := fun x hx => hi.mem x (Set.disjoint_left.1 h.frozen hx)
    set s : Mem V := afterCopier cop m with hsdef
    have hsR : ∀ x ∈ R, s x = m0 x := by
      intro x hx
      rw [hsdef]
      rcases hcop : cop with _ | ⟨b', p⟩
      · exact hmR x hx
      ·
        have hx' : x ∉ Wc := Set.disjoint_left.1 h.frozen hx
        show (p.exec m).2 x = m0 x
        rw [(((hi.cop b' p hcop).congr hmR).exec_frame h.frozen).2 x hx']
        exact hi.mem x hx'
    have hb : b = ((worker i (src.getD sample)).exec s).1 := by
      have hd : Disjoint R (∅ : Set L) := Set.disjoint_empty R
      rw [((h.work i hil (src.getD sample)).exec_congr hd hsR (fun x hx => by simp at hx)).1]
      exact he
    have hwork := Run.work (work := fun i s b => ((worker i b).exec s).1) (copy := fun b s => ((copier b).exec s).2)
      (sample := sample) (w1.map Wk.item) (w2.map Wk.item ++ pend) i fl
      (src.toList ++ ((cop.map Prod.fst).toList ++ ((w1 ++ w2).filterMap Wk.src ++ free)))
      ((cop.map Prod.fst).toList ++ ((w1 ++ w2).filterMap Wk.src ++ free)) (src.getD sample) s m'
      (by
        cases src with
        | none => exact .inl ⟨rfl, rfl⟩
        | some b0 => exact .inr ⟨[], _, rfl, rfl⟩)
      (by
        rw [← hb]
        simpa [List.append_assoc] using hr)
    refine run_perm hwork ?_ (List.Perm.refl _) ?_
    · simp
    · cases src with
      | none => simp [List.filterMap_append]
      | some b0 =>
        have e : ((w1 ++ (⟨i, some b0, .ret b⟩ : Wk V ι β) :: w2).filterMap Wk.src) =
            w1.filterMap Wk.src ++ b0 :: w2.filterMap Wk.src := by simp [List.filterMap_append]
        have e2 : ((w1 ++ w2).filterMap Wk.src) = w1.filterMap Wk.src ++ w2.filterMap Wk.src := by simp
        show List.Perm (b0 :: _) ((cop.map Prod.fst).toList ++ (((w1 ++ (⟨i, some b0, .ret b⟩ : Wk V ι β) :: w2).filterMap
          Wk.src) ++ free))
        rw [e, e2]
        refine (List.perm_middle (l₁ := (cop.map Prod.fst).toList ++ w1.filterMap Wk.src) (a := b0)
          (l₂ := w2.filterMap Wk.src ++ free)).symm.trans ?_ |> fun q => by simpa [List.append_assoc] using q
        simp [List.append_assoc]
  | copy pend wks f1 f2 b free m =>
    exact Run.copy _ f1 f2 b _ _ _ hr
  | copyAccess pend wks fl b p p' free m m' hs =>
    simp only [afterCopier, Option.map_some, Option.getD_some, step_exec hs] at hr ⊢
    exact hr
  | copyFinish pend wks fl b free m =>
    refine run_perm hr (List.Perm.refl _) (List.Perm.refl _) ?_
    simp only [Option.map_none, Option.toList_none, List.nil_append, Option.map_some, Option.toList_some,
      List.cons_append]
    exact List.perm_middle

/-- Every interleaving of the accesses ends like an execution in which the calls of workers and copiers are indivisible. -/
theorem CRun.exec (h : Streams worker copier S R Wc Good l m0) {m' : Mem V} (hr : CRun worker copier sample l m0 m') :
    Exec (fun i s b => ((worker i b).exec s).1) (fun b s => ((copier b).exec s).2) sample l m0 m' := by
  obtain ⟨free, hr⟩ := hr
  have key : ∀ {c c' : Cfg V ι β}, CInv worker copier sample S R Wc Good l m0 c → CReach worker copier sample c c' →
      AbsRun worker copier sample c'.abs m' → AbsRun worker copier sample c.abs m' := by
    intro c c' hi hr
    induction hr with
    | refl => exact fun h => h
    | tail hr' hs ih => exact fun ha => ih (h.sim (h.reach hi hr') hs ha)
  have := key (Streams.init m0 l) hr (by
    unfold AbsRun Cfg.abs; exact Run.done _ _)
  simpa [AbsRun, Cfg.abs, Cfg.init, Exec, afterCopier] using this

theorem CReach.trans {a b c : Cfg V ι β} (h1 : CReach worker copier sample a b) (h2 : CReach worker copier sample b c) :
    CReach worker copier sample a c := by
  induction h2 with
  | refl => exact h1
  | tail _ hs ih => exact ih.tail hs

/-- Complete executions exist: one item after the other, with fresh copy data objects. -/
theorem CRun.exists (worker : ι → β → Prog V β) (copier : β → Prog V Unit) (sample : β) (l : List ι) (m : Mem V) :
    ∃ m', CRun worker copier sample l m m' := by
  have wrk : ∀ (i : ι) (pend : List ι) (free : List β) (p : Prog V β) (m : Mem V), CReach worker copier sample
      ⟨pend, [⟨i, none, p⟩], [], none, free, m⟩ ⟨pend, [⟨i, none, .ret (p.exec m).1⟩], [], none, free, (p.exec m).2⟩ := by
    intro i pend free p
    induction p with
    | ret b => intro m; exact .refl _
    | read l k ih =>
      intro m
      exact (CReach.refl _ |>.tail (CStep.access pend [] [] ⟨i, none, .read l k⟩ (k (m l)) [] none free m m
        (.read l k m))).trans (ih _ m)
    | write l v k ih =>
      intro m
      exact (CReach.refl _ |>.tail (CStep.access pend [] [] ⟨i, none, .write l v k⟩ k [] none free m _
        (.write l v k m))).trans (ih _)
  have cpy : ∀ (b : β) (pend : List ι) (free : List β) (p : Prog V Unit) (m : Mem V), CReach worker copier sample
      ⟨pend, [], [], some (b, p), free, m⟩ ⟨pend, [], [], some (b, .ret ()), free, (p.exec m).2⟩ := by
    intro b pend free p
    induction p with
    | ret b => intro m; exact .refl _
    | read l k ih =>
      intro m
      exact (CReach.refl _ |>.tail (CStep.copyAccess pend [] [] b _ (k (m l)) free m m (.read l k m))).trans (ih _ m)
    | write l v k ih =>
      intro m
      exact (CReach.refl _ |>.tail (CStep.copyAccess pend [] [] b _ k free m _ (.write l v k m))).trans (ih _)
  have key : ∀ (l : List ι) (free : List β) (m : Mem V), ∃ free' m', CReach worker copier sample
      ⟨l, [], [], none, free, m⟩ ⟨[], [], [], none, free', m'⟩ := by
    intro l
    induction l with
    | nil => intro free m; exact ⟨free, m, .refl _⟩
    | cons i t ih =>
      intro free m
      have h1 := (CReach.refl _ |>.tail (CStep.start (worker := worker) (copier := copier) (sample := sample)
        [] t i [] [] none free m)).trans (wrk i t free (worker i sample) m)
      have h2 := h1.tail (CStep.finish t [] [] i none _ [] none free _)
      have h3 := (h2.tail (CStep.copy t [] [] [] _ free _)).trans (cpy _ t free _ _)
      have h4 := h3.tail (CStep.copyFinish t [] [] _ free _)
      obtain ⟨f', m', h⟩ := ih _ _
      exact ⟨f', m', h4.trans h⟩
  obtain ⟨f, m', h⟩ := key l [] m
  exact ⟨m', f, h⟩

/-- What the execution leaves unchanged. -/
theorem CRun.frame (h : Streams worker copier S R Wc Good l m0) {m' : Mem V} (hr : CRun worker copier sample l m0 m')
    (x : L) (hx : x ∉ Wc) : m' x = m0 x := by
  obtain ⟨free, hr⟩ := hr
  exact (h.reach (Streams.init m0 l) hr).mem x hx

end workstream

/-- Executions of `WorkStream` seen through functions of the state and of the copy data. -/
theorem exec_map {σ σ' β' : Type} {work : ι → σ → β → β} {copy : β → σ → σ} {sample : β}
    {work' : ι → σ' → β' → β'} {copy' : β' → σ' → σ'} (πs : σ → σ') (πb : β → β') (P : σ → Prop) (Good : β → Prop)
    {l : List ι} (hg : ∀ i ∈ l, ∀ s b, P s → Good (work i s b))
    (hw : ∀ i ∈ l, ∀ s b, P s → πb (work i s b) = work' i (πs s) (πb b))
    (hc : ∀ b s, P s → Good b → P (copy b s) ∧ πs (copy b s) = copy' (πb b) (πs s)) {s s' : σ} (hs : P s)
    (h : Exec work copy sample l s s') : P s' ∧ Exec work' copy' (πb sample) l (πs s) (πs s') := by
  have key : ∀ {pend : List ι} {fl free : List β} {s s' : σ}, Run work copy sample pend fl free s s' →
      (∀ i ∈ pend, i ∈ l) → (∀ b ∈ fl, Good b) → P s →
      P s' ∧ Run work' copy' (πb sample) pend (fl.map πb) (free.map πb) (πs s) (πs s') := by
    intro pend fl free s s' h
    induction h with
    | done free s => intro _ _ hs; exact ⟨hs, Run.done _ _⟩
    | work p1 p2 i fl free free' b s s' hb _ ih =>
      intro hp hf hs
      have hil := hp i (by simp)
      obtain ⟨h1, h2⟩ := ih (fun j hj => hp j (by simp at hj ⊢; tauto)) (by
        intro b' hb'
        rcases List.mem_cons.1 hb' with rfl | hb'
        · exact hg i hil s b hs
        · exact hf b' hb') hs
      refine ⟨h1, Run.work p1 p2 i (fl.map πb) (free.map πb) (free'.map πb) (πb b) (πs s) (πs s') ?_ ?_⟩
      · rcases hb with ⟨rfl, rfl⟩ | ⟨f1, f2, rfl, rfl⟩
        · exact .inl ⟨rfl, rfl⟩
        · exact .inr ⟨f1.map πb, f2.map πb, by simp, by simp⟩
      · rw [← hw i hil s b hs]; simpa using h2
    | copy pend f1 f2 b free s s' _ ih =>
      intro hp hf hs
      obtain ⟨hP, e⟩ := hc b s hs (hf b (by simp))
      obtain ⟨h1, h2⟩ := ih hp (fun b' hb' => hf b' (by simp at hb' ⊢; tauto)) hP
      refine ⟨h1, ?_⟩
      rw [List.map_append, List.map_cons]
      refine Run.copy pend _ _ (πb b) _ _ _ ?_
      rw [← e]; simpa using h2
  exact key h (fun i hi => hi) (fun b hb => by simp at hb) hs

/-- Interleaved executions seen through functions of the memory and of the copy data. -/
theorem Streams.map {β' σ' : Type} {worker : ι → β → Prog V β} {copier : β → Prog V Unit} {sample : β} {S R Wc : Set L}
    {Good : β → Prop} {l : List ι} {m m' : Mem V} (h : Streams worker copier S R Wc Good l m)
    (πs : Mem V → σ') (πb : β → β') {work' : ι → σ' → β' → β'} {copy' : β' → σ' → σ'}
    (hw : ∀ i ∈ l, ∀ s b, (∀ x, x ∉ Wc → s x = m x) → πb ((worker i b).exec s).1 = work' i (πs s) (πb b))
    (hc : ∀ b s, (∀ x, x ∉ Wc → s x = m x) → Good b → πs ((copier b).exec s).2 = copy' (πb b) (πs s))
    (hr : CRun worker copier sample l m m') : Exec work' copy' (πb sample) l (πs m) (πs m') := by
  have hR : ∀ s : Mem V, (∀ x, x ∉ Wc → s x = m x) → ∀ x ∈ R, s x = m x :=
    fun s hs x hx => hs x (Set.disjoint_left.1 h.frozen hx)
  refine (exec_map πs πb (fun s => ∀ x, x ∉ Wc → s x = m x) Good (fun i hi s b hs => ?_) hw (fun b s hs hb => ⟨?_, hc b s hs hb⟩)
    (fun _ _ => rfl) (CRun.exec h hr)).2
  · exact (((h.work i hi b).congr (hR s hs)).exec_frame (Set.disjoint_empty _)).1
  · intro x hx
    rw [(((h.copy b hb).congr (hR s hs)).exec_frame h.frozen).2 x hx, hs x hx]

/-! ## Loops and phases -/

/-- The tasks of `tbb::parallel_for(blocked_range(..), body)`: the range `l` is split in consecutive chunks, each chunk is a
sequential loop. -/
def chunkTasks {α : Type} (body : α → Prog V Unit) (chunks : List (List α)) : Fin chunks.length → Prog V Unit :=
  fun i => (chunks.get i).forM body

section parfor

variable {α : Type} {body : α → Prog V Unit} {l : List α} {S R : Set L} {W : α → Set L} {m m' : Mem V}

/-- The iterations of a `parallel_for` write disjoint sets of locations. -/
structure Items (S R : Set L) (W : α → Set L) (body : α → Prog V Unit) (l : List α) (m : Mem V) : Prop where
  nodup : l.Nodup
  acc : ∀ a ∈ l, (body a).Acc m S R (W a) fun _ => True
  disj : ∀ a ∈ l, ∀ b ∈ l, a ≠ b → Disjoint (W a) (W b)
  frozen : ∀ a ∈ l, Disjoint R (W a)

omit [DecidableEq L] in
theorem Items.tasks (h : Items S R W body l m) {chunks : List (List α)} (hc : chunks.flatten = l) :
    Tasks S R (fun i : Fin chunks.length => ⋃ a ∈ chunks.get i, W a) (chunkTasks body chunks) m := by
  have hmem : ∀ (i : Fin chunks.length), ∀ a ∈ chunks.get i, a ∈ l := fun i a ha => by
    rw [← hc]; exact List.mem_flatten.2 ⟨_, List.get_mem _ _, ha⟩
  have hn := h.nodup
  rw [← hc, List.nodup_flatten] at hn
  refine ⟨fun i => ?_, fun i j hij => ?_, fun i => ?_⟩
  · refine Prog.Acc.forM fun a ha => (h.acc a (hmem i a ha)).weaken (fun _ hx => hx) ?_
    exact Set.subset_biUnion_of_mem (u := W) (show a ∈ {x | x ∈ chunks.get i} from ha)
  · rw [Set.disjoint_left]
    intro x hx hx'
    simp only [Set.mem_iUnion] at hx hx'
    obtain ⟨a, ha, hxa⟩ := hx
    obtain ⟨b, hb, hxb⟩ := hx'
    have hab : a ≠ b := by
      rintro rfl
      have key : ∀ i j : Fin chunks.length, i < j → a ∈ chunks.get i → a ∈ chunks.get j → False := fun i j hlt h1 h2 =>
        List.disjoint_left.1 (List.pairwise_iff_get.1 hn.2 i j hlt) h1 h2
      rcases lt_or_gt_of_ne hij with hlt | hlt
      · exact key i j hlt ha hb
      · exact key j i hlt hb ha
    exact Set.disjoint_left.1 (h.disj a (hmem i a ha) b (hmem j b hb) hab) hxa hxb
  · rw [Set.disjoint_left]
    intro x hx hx'
    simp only [Set.mem_iUnion] at hx'
    obtain ⟨a, ha, hxa⟩ := hx'
    exact Set.disjoint_left.1 (h.frozen a (hmem i a ha)) hx hxa

/-- Every interleaving of the chunks leaves the memory of the sequential loop. -/
theorem Items.result (h : Items S R W body l m) {chunks : List (List α)} (hc : chunks.flatten = l)
    (hr : ParRun (chunkTasks body chunks) m m') : m' = l.foldl (fun m a => ((body a).exec m).2) m := by
  rw [hr.sequential (h.tasks hc) (List.finRange chunks.length) (List.nodup_finRange _) fun i => .inl (List.mem_finRange i)]
  have : ∀ (cs : List (List α)) (m : Mem V), cs.foldl (fun m c => ((c.forM body).exec m).2) m =
      cs.flatten.foldl (fun m a => ((body a).exec m).2) m := by
    intro cs
    induction cs with
    | nil => intro m; rfl
    | cons c t ih => intro m; rw [List.foldl_cons, ih, exec_forM, List.flatten_cons, List.foldl_append]
  rw [← hc, ← this chunks m]
  conv_rhs => rw [← List.map_get_finRange chunks, List.foldl_map]
  rfl

end parfor

/-- A phase of a computation; the threads of different phases do not overlap. -/
inductive Phase (V : L → Type) : Type 1
  | seq (p : Prog V Unit)
  | par {α : Type} (body : α → Prog V Unit) (l : List α)
  | stream {ι β : Type} (worker : ι → β → Prog V β) (copier : β → Prog V Unit) (sample : β) (l : List ι)

namespace Phase

/-- Executions of a phase. -/
def Run : Phase V → Mem V → Mem V → Prop
  | seq p, m, m' => m' = (p.exec m).2
  | par body l, m, m' => ∃ chunks : List (List _), chunks.flatten = l ∧ ParRun (chunkTasks body chunks) m m'
  | stream worker copier sample l, m, m' => CRun worker copier sample l m m'

/-- In some execution of the phase from the memory `m`, two threads are about to access the location `x` and one of them to
write it. -/
def Conflict : Phase V → Mem V → L → Prop
  | seq _, _, _ => False
  | par body l, m, x => ∃ chunks : List (List _), chunks.flatten = l ∧
      ∃ ps m', ParReach (chunkTasks body chunks, m) (ps, m') ∧ Threads.Conflict ps x
  | stream worker copier sample l, m, x => ∃ c, CReach worker copier sample (Cfg.init l m) c ∧ CConflict c x

/-- As `Conflict`, and some thread is about to change the content of the location. -/
def Harm : Phase V → Mem V → L → Prop
  | seq _, _, _ => False
  | par body l, m, x => ∃ chunks : List (List _), chunks.flatten = l ∧
      ∃ ps m', ParReach (chunkTasks body chunks, m) (ps, m') ∧ Threads.Conflict ps x ∧
        ∃ i v, (ps i).NextWrite x v ∧ v ≠ m' x
  | stream worker copier sample l, m, x => ∃ c, CReach worker copier sample (Cfg.init l m) c ∧ CConflict c x ∧
      ((∃ w ∈ c.wks, ∃ v, w.prog.NextWrite x v ∧ v ≠ c.mem x) ∨
        ∃ b p, c.cop = some (b, p) ∧ ∃ v, p.NextWrite x v ∧ v ≠ c.mem x)

/-- Conflicts from the memory `m` are only on locations of `S` and harmless; the phase can end. -/
structure Ok (S : Set L) (ph : Phase V) (m : Mem V) : Prop where
  conflict : ∀ x, ph.Conflict m x → x ∈ S
  harm : ∀ x, ¬ ph.Harm m x
  ends : ∃ m', ph.Run m m'

theorem ok_seq (S : Set L) (p : Prog V Unit) (m : Mem V) : (seq p).Ok S m :=
  ⟨fun _ h => h.elim, fun _ h => h.elim, _, rfl⟩

theorem ok_par {α : Type} {S R : Set L} {W : α → Set L} {body : α → Prog V Unit} {l : List α} {m : Mem V}
    (h : Items S R W body l m) : (par body l).Ok S m where
  conflict := fun _ ⟨_, hc, _, _, hr, hx⟩ => (hr.conflict (h.tasks hc) hx).1
  harm := fun _ ⟨_, hc, _, _, hr, hx, i, v, hv, hne⟩ => hne ((hr.conflict (h.tasks hc) hx).2 i v hv).1
  ends := by
    obtain ⟨m', h⟩ := ParRun.exists (chunkTasks body [l]) m (List.finRange _) fun i => .inl (List.mem_finRange i)
    exact ⟨m', [l], by simp, h⟩

theorem ok_stream {ι β : Type} {worker : ι → β → Prog V β} {copier : β → Prog V Unit} {sample : β} {l : List ι}
    {S R Wc : Set L} {Good : β → Prop} {m : Mem V} (h : Streams worker copier S R Wc Good l m) :
    (stream worker copier sample l).Ok S m where
  conflict := fun _ ⟨_, hr, hx⟩ => (hr.conflict h hx).1
  harm := by
    rintro x ⟨c, hr, hx, ⟨w, hw, v, hv, hne⟩ | ⟨b, p, hp, v, hv, hne⟩⟩
    · obtain ⟨_, e, h1, _⟩ := hr.conflict h hx
      exact hne ((h1 w hw v hv).trans e.symm)
    · obtain ⟨_, e, _, h2⟩ := hr.conflict h hx
      exact hne ((h2 b p hp v hv).trans e.symm)
  ends := CRun.exists worker copier sample l m

/-- Executions of a sequence of phases. -/
inductive Runs : List (Phase V) → Mem V → Mem V → Prop
  | nil (m : Mem V) : Runs [] m m
  | cons {ph : Phase V} {phs : List (Phase V)} {m m' m'' : Mem V} : ph.Run m m' → Runs phs m' m'' → Runs (ph :: phs) m m''

/-- In some execution of the sequence from the memory `m`, two threads are about to make conflicting accesses to `x`. -/
def ConflictIn (phs : List (Phase V)) (m : Mem V) (x : L) : Prop :=
  ∃ p₁ ph p₂ m', phs = p₁ ++ ph :: p₂ ∧ Runs p₁ m m' ∧ ph.Conflict m' x

/-- As `ConflictIn`, and some thread is about to change the content of `x`. -/
def HarmIn (phs : List (Phase V)) (m : Mem V) (x : L) : Prop :=
  ∃ p₁ ph p₂ m', phs = p₁ ++ ph :: p₂ ∧ Runs p₁ m m' ∧ ph.Harm m' x

theorem Runs.append {a b : List (Phase V)} {m m' m'' : Mem V} (h1 : Runs a m m') (h2 : Runs b m' m'') :
    Runs (a ++ b) m m'' := by
  induction h1 with
  | nil => exact h2
  | cons h _ ih => exact .cons h (ih h2)

theorem Runs.split {a b : List (Phase V)} {m m'' : Mem V} (h : Runs (a ++ b) m m'') :
    ∃ m', Runs a m m' ∧ Runs b m' m'' := by
  induction a generalizing m with
  | nil => exact ⟨m, .nil m, h⟩
  | cons ph t ih =>
    cases h with
    | cons h1 h2 =>
      obtain ⟨m', h3, h4⟩ := ih h2
      exact ⟨m', .cons h1 h3, h4⟩

/-- All the phases are `Ok` in every execution. -/
inductive AllOk (S : Set L) : List (Phase V) → Mem V → (Mem V → Prop) → Prop
  | nil {m : Mem V} {Q : Mem V → Prop} : Q m → AllOk S [] m Q
  | cons {ph : Phase V} {phs : List (Phase V)} {m : Mem V} {Q : Mem V → Prop} : ph.Ok S m →
      (∀ m', ph.Run m m' → AllOk S phs m' Q) → AllOk S (ph :: phs) m Q

theorem AllOk.append {S : Set L} {a b : List (Phase V)} {m : Mem V} {Q Q' : Mem V → Prop} (h : AllOk S a m Q)
    (h' : ∀ m', Q m' → AllOk S b m' Q') : AllOk S (a ++ b) m Q' := by
  induction h with
  | nil hq => exact h' _ hq
  | cons h1 _ ih => exact .cons h1 fun m' hm' => ih m' hm' h'

theorem AllOk.mono {S : Set L} {a : List (Phase V)} {m : Mem V} {Q Q' : Mem V → Prop} (h : AllOk S a m Q)
    (h' : ∀ m', Q m' → Q' m') : AllOk S a m Q' := by
  induction h with
  | nil hq => exact .nil (h' _ hq)
  | cons h1 _ ih => exact .cons h1 fun m' hm' => ih m' hm' h'

theorem AllOk.post {S : Set L} {a : List (Phase V)} {m m' : Mem V} {Q : Mem V → Prop} (h : AllOk S a m Q)
    (hr : Runs a m m') : Q m' := by
  induction hr with
  | nil => cases h with | nil hq => exact hq
  | cons h1 _ ih => cases h with | cons _ h2 => exact ih (h2 _ h1)

theorem AllOk.ends {S : Set L} {a : List (Phase V)} {m : Mem V} {Q : Mem V → Prop} (h : AllOk S a m Q) :
    ∃ m', Runs a m m' := by
  induction h with
  | nil => exact ⟨_, .nil _⟩
  | cons h1 _ ih =>
    obtain ⟨m', hm'⟩ := h1.ends
    obtain ⟨m'', h⟩ := ih m' hm'
    exact ⟨m'', .cons hm' h⟩

theorem AllOk.ok {S : Set L} {a : List (Phase V)} {m : Mem V} {Q : Mem V → Prop} (h : AllOk S a m Q)
    {p₁ p₂ : List (Phase V)} {ph : Phase V} {m' : Mem V} (ha : a = p₁ ++ ph :: p₂) (hr : Runs p₁ m m') : ph.Ok S m' := by
  subst ha
  induction hr with
  | nil => cases h with | cons h1 _ => exact h1
  | cons h1 _ ih => cases h with | cons _ h2 => exact ih (h2 _ h1)

theorem AllOk.conflict {S : Set L} {a : List (Phase V)} {m : Mem V} {Q : Mem V → Prop} (h : AllOk S a m Q) {x : L}
    (hc : ConflictIn a m x) : x ∈ S := by
  obtain ⟨p1, ph, p2, m', e, hr, hx⟩ := hc
  exact (h.ok e hr).conflict x hx

theorem AllOk.harm {S : Set L} {a : List (Phase V)} {m : Mem V} {Q : Mem V → Prop} (h : AllOk S a m Q) (x : L) :
    ¬ HarmIn a m x := by
  rintro ⟨p1, ph, p2, m', e, hr, hx⟩
  exact (h.ok e hr).harm x hx

end Phase

end PiBem.Threads
