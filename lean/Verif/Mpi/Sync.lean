import Verif.Mpi.Spmd
import Mathlib.Order.WellFounded
import Mathlib.Order.RelClasses
import Mathlib.Data.Fintype.Basic
import Mathlib.Data.Fintype.Card
import Mathlib.Data.Finset.Card
import Mathlib.Tactic.Common

/-!
# Processes in step with each other

Programs that make the same calls whatever the answers are run to the end.
-/

namespace PiBem.Mpi

variable {κ ρ α β : Type} {n : ℕ}

/-- What a process is about to do. -/
inductive Shape
  | ret | fail | coll

/-- What a process is about to do. -/
def Prog.shape : Prog κ ρ α → Shape
  | .ret _ => .ret
  | .fail => .fail
  | .coll .. => .coll

/-- The processes make the same calls whatever the answers are, until all of them end, with results in `Q`, or `T` holds of what
they are about to do. -/
inductive Sync (T : (Fin n → Shape) → Prop) (Q : (Fin n → α) → Prop) : (Fin n → Prog κ ρ α) → Prop where
  | ret (a : Fin n → α) (h : Q a) : Sync T Q fun p => .ret (a p)
  | stop (m : Fin n → Prog κ ρ α) (h : T fun p => (m p).shape) : Sync T Q m
  | coll (c : κ) (x : Fin n → ρ) (k : Fin n → ρ → Prog κ ρ α) (h : ∀ r, Sync T Q fun p => k p r) :
      Sync T Q fun p => .coll c (x p) (k p)

/-- When the processes stop, none of them has ended, and one of them has failed. -/
class Stuck (T : (Fin n → Shape) → Prop) : Prop where
  out : ∀ sh, T sh → (∀ p, sh p ≠ .ret) ∧ ∃ p, sh p = .fail

theorem shape_bind {m : Prog κ ρ α} {f : α → Prog κ ρ β} (h : m.shape ≠ .ret) : (m.bind f).shape = m.shape := by
  cases m with
  | ret a => simp [Prog.shape] at h
  | fail => rfl
  | coll c x k => rfl

variable {T : (Fin n → Shape) → Prop}

theorem Sync.mono {Q R : (Fin n → α) → Prop} (hQ : ∀ a, Q a → R a) {m : Fin n → Prog κ ρ α} (h : Sync T Q m) : Sync T R m := by
  induction h with
  | ret a h => exact .ret a (hQ a h)
  | stop m h => exact .stop m h
  | coll c x k _ ih => exact .coll c x k ih

theorem Sync.bind [hT : Stuck T] {Q : (Fin n → α) → Prop} {R : (Fin n → β) → Prop} {m : Fin n → Prog κ ρ α}
    {f : Fin n → α → Prog κ ρ β} (h : Sync T Q m) (hf : ∀ a, Q a → Sync T R fun p => f p (a p)) :
    Sync T R fun p => (m p).bind (f p) := by
  induction h with
  | ret a h => exact hf a h
  | stop m h =>
    refine .stop _ ?_
    have : (fun p => ((m p).bind (f p)).shape) = fun p => (m p).shape := funext fun p => shape_bind ((hT.out _ h).1 p)
    rw [this]
    exact h
  | coll c x k _ ih => exact .coll c x (fun p r => (k p r).bind (f p)) ih

/-- The states reached while the processes are on their way to a call: some of them wait. -/
def Ok (T : (Fin n → Shape) → Prop) (Q : (Fin n → α) → Prop) (s : Sys κ ρ α n) : Prop := Sync T Q fun p => (s p).1

theorem Ok.step [hT : Stuck T] (hn : 0 < n) {Q : (Fin n → α) → Prop} {red : κ → (Fin n → ρ) → ρ} {s s' : Sys κ ρ α n}
    (h : Ok T Q s) (hs : Step red s s') : Ok T Q s' := by
  unfold Ok at *
  cases hs with
  | arrive p c x k hp =>
    have : (fun q => (Function.update s p (.coll c x k, true) q).1) = fun q => (s q).1 := by
      funext q
      by_cases hqp : q = p
      · subst hqp; simp [hp]
      · simp [Function.update_of_ne hqp]
    rw [this]
    exact h
  | complete c x k hall =>
    generalize hm : (fun p => (s p).1) = m at h
    have hm' : ∀ p, m p = .coll c (x p) (k p) := fun p => by subst hm; simp [hall p]
    cases h with
    | ret a h => exact absurd (hm' ⟨0, hn⟩) (by simp)
    | stop _ h =>
      obtain ⟨q, hq⟩ := (hT.out _ h).2
      rw [hm' q] at hq
      simp [Prog.shape] at hq
    | coll c' x' k' h =>
      have h' : ∀ p, k' p = k p := fun p => by
        have := hm' p
        simp only [Prog.coll.injEq] at this
        exact this.2.2
      have := h (red c x)
      simpa only [h'] using this

/-- Result of the processes. -/
def Final (T : (Fin n → Shape) → Prop) (Q : (Fin n → α) → Prop) (s : Sys κ ρ α n) : Prop :=
  (∃ a, Q a ∧ ∀ p, (s p).1 = .ret (a p)) ∨ T fun p => (s p).1.shape

theorem Ok.progress {Q : (Fin n → α) → Prop} {red : κ → (Fin n → ρ) → ρ} {s : Sys κ ρ α n} (h : Ok T Q s) :
    Final T Q s ∨ ∃ s', Step red s s' := by
  unfold Ok at h
  generalize hm : (fun p => (s p).1) = m at h
  have h1 : ∀ p, (s p).1 = m p := fun p => by rw [← hm]
  cases h with
  | ret a h => exact .inl (.inl ⟨a, h, h1⟩)
  | stop _ h => exact .inl (.inr (by simpa only [h1] using h))
  | coll c x k _ =>
    right
    by_cases hw : ∀ p, (s p).2 = true
    · exact ⟨_, .complete s c x k fun p => Prod.ext (h1 p) (hw p)⟩
    · push Not at hw
      obtain ⟨p, hp⟩ := hw
      exact ⟨_, .arrive s p c (x p) (k p) (Prod.ext (h1 p) (by simpa using hp))⟩

/-- Number of processes that are not waiting. -/
def running (s : Sys κ ρ α n) : ℕ := (Finset.univ.filter fun p => (s p).2 = false).card

theorem running_arrive {s : Sys κ ρ α n} {p : Fin n} {y : Prog κ ρ α} (h : (s p).2 = false) :
    running (Function.update s p (y, true)) < running s := by
  apply Finset.card_lt_card
  refine ⟨fun q hq => ?_, fun hsub => ?_⟩
  · simp only [Finset.mem_filter, Finset.mem_univ, true_and] at hq ⊢
    by_cases hqp : q = p
    · subst hqp; exact h
    · rwa [Function.update_of_ne hqp] at hq
  · have := hsub (show p ∈ _ by simp [h])
    simp at this

/-- Executions are finite if they are after the next call. -/
theorem acc_of (red : κ → (Fin n → ρ) → ρ) {m : Fin n → Prog κ ρ α}
    (ih : ∀ (c : κ) (x : Fin n → ρ) (k : Fin n → ρ → Prog κ ρ α), (∀ p, m p = .coll c (x p) (k p)) → ∀ r, ∀ s : Sys κ ρ α n, (∀ p, (s p).1 = k p r) →
      Acc (fun a b => Step red b a) s) : ∀ s : Sys κ ρ α n, (∀ p, (s p).1 = m p) → Acc (fun a b => Step red b a) s := by
  have key : ∀ N, ∀ s : Sys κ ρ α n, (∀ p, (s p).1 = m p) → running s = N → Acc (fun a b => Step red b a) s := by
    intro N
    induction N using Nat.strong_induction_on with
    | _ N ihN =>
      intro s hs hN
      refine Acc.intro _ fun s' hst => ?_
      cases hst with
      | arrive p c' x' k' hp =>
        refine ihN _ ?_ _ ?_ rfl
        · rw [← hN]; exact running_arrive (by rw [hp])
        · intro q
          by_cases hqp : q = p
          · subst hqp; rw [Function.update_self]; have := hs q; rw [hp] at this; exact this
          · rw [Function.update_of_ne hqp]; exact hs q
      | complete c' x' k' hall =>
        exact ih c' x' k' (fun p => by rw [← hs p, hall p]) (red c' x') _ fun p => rfl
  intro s hs
  exact key _ s hs rfl

/-- Executions of processes in step are finite. -/
theorem Sync.terminates [hT : Stuck T] {Q : (Fin n → α) → Prop} (red : κ → (Fin n → ρ) → ρ) (hn : 0 < n)
    {m : Fin n → Prog κ ρ α} (h : Sync T Q m) :
    ∀ s : Sys κ ρ α n, (∀ p, (s p).1 = m p) → Acc (fun a b => Step red b a) s := by
  induction h with
  | ret a h => exact acc_of red fun c x k hm => absurd (hm ⟨0, hn⟩) (by simp)
  | stop m h =>
    refine acc_of red fun c x k hm => ?_
    obtain ⟨q, hq⟩ := (hT.out _ h).2
    rw [hm q] at hq
    simp [Prog.shape] at hq
  | coll c x k _ ih =>
    refine acc_of red fun c' x' k' hm r s hs => ih r s fun p => ?_
    have := hm p
    simp only [Prog.coll.injEq] at this
    rw [hs p, ← this.2.2]

/-- Every execution is finite and can only end in a final state. -/
theorem Sync.ends [hT : Stuck T] {Q : (Fin n → α) → Prop} (red : κ → (Fin n → ρ) → ρ) (hn : 0 < n) {m : Fin n → Prog κ ρ α}
    (h : Sync T Q m) :
    (∀ s, Steps red (start m) s → Acc (fun a b => Step red b a) s) ∧
    (∀ s, Steps red (start m) s → (∀ s', ¬ Step red s s') → Final T Q s) ∧
    ∃ s, Steps red (start m) s ∧ ∀ s', ¬ Step red s s' := by
  have hok : ∀ s, Steps red (start m) s → Ok T Q s := by
    intro s hs
    induction hs with
    | refl => exact h
    | tail _ hst ih => exact ih.step hn hst
  have hacc : Acc (fun a b => Step red b a) (start m) := h.terminates red hn _ fun _ => rfl
  refine ⟨fun s hs => ?_, fun s hs hno => ?_, ?_⟩
  · clear hok
    induction hs with
    | refl => exact hacc
    | tail _ hst ih => exact ih.inv hst
  · rcases (hok s hs).progress (red := red) with hf | ⟨s', hs'⟩
    · exact hf
    · exact absurd hs' (hno s')
  · have : ∀ s, Acc (fun a b => Step red b a) s → Steps red (start m) s →
        ∃ s, Steps red (start m) s ∧ ∀ s', ¬ Step red s s' := by
      intro s ha
      induction ha with
      | intro s _ ih =>
        intro hs
        by_cases hno : ∀ s', ¬ Step red s s'
        · exact ⟨s, hs, hno⟩
        · push Not at hno
          obtain ⟨s', hs'⟩ := hno
          exact ih s' hs' (hs.tail hs')
    exact this _ hacc .refl

/-- All processes fail, which happens only if `F`. -/
def AllFail (F : Prop) (sh : Fin n → Shape) : Prop := F ∧ ∀ p, sh p = .fail

theorem allFail_stuck (hn : 0 < n) (F : Prop) : Stuck (AllFail (n := n) F) := ⟨fun sh h =>
  ⟨fun p => by rw [h.2 p]; simp, ⟨0, hn⟩, h.2 _⟩⟩

/-- A process fails while another one makes a call. -/
def Left (sh : Fin n → Shape) : Prop := (∀ p, sh p ≠ .ret) ∧ (∃ p, sh p = .fail) ∧ ∃ p, sh p = .coll

instance left_stuck : Stuck (Left (n := n)) := ⟨fun _ h => ⟨h.1, h.2.1⟩⟩

end PiBem.Mpi
