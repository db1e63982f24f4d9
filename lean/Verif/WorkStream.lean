import Mathlib.Data.Multiset.Basic
import Mathlib.Data.Multiset.MapFold
import Mathlib.Data.Multiset.AddSub
import Mathlib.Tactic.Common

/-!
# Model of `WorkStream::run` (deal.II) as used in bem_fma.cc

`WorkStream::run(begin, end, worker, copier, scratch, copy_data)` calls the worker once on each item
of the range, possibly concurrently, each call writing in a copy data object, then the copier once on
each filled copy data object; copiers never run at the same time. Copy data objects are copies of the
sample one and are reused without being cleaned.

The relation `Run` admits every interleaving of workers and copiers at the granularity of one call,
every order of the items and of the copiers, and every assignment of (fresh or recycled) copy data
objects. It is coarser than deal.II, which runs the copiers in the order of the items.
-/

namespace PiBem.WorkStream

variable {ι β σ : Type}

/-- `Run work copy sample pend fl free s s'`: from the shared state `s`, with items `pend` still to be
worked on, filled copy data `fl` waiting for the copier and recycled copy data `free`, the run may
end in the shared state `s'`. -/
inductive Run (work : ι → σ → β → β) (copy : β → σ → σ) (sample : β) :
    List ι → List β → List β → σ → σ → Prop
  | done (free : List β) (s : σ) : Run work copy sample [] [] free s s
  | work (pend₁ pend₂ : List ι) (i : ι) (fl free free' : List β) (b : β) (s s' : σ)
      (hb : b = sample ∧ free' = free ∨ ∃ f₁ f₂, free = f₁ ++ b :: f₂ ∧ free' = f₁ ++ f₂) :
      Run work copy sample (pend₁ ++ pend₂) (work i s b :: fl) free' s s' →
      Run work copy sample (pend₁ ++ i :: pend₂) fl free s s'
  | copy (pend : List ι) (fl₁ fl₂ : List β) (b : β) (free : List β) (s s' : σ) :
      Run work copy sample pend (fl₁ ++ fl₂) (b :: free) (copy b s) s' →
      Run work copy sample pend (fl₁ ++ b :: fl₂) free s s'

/-- A complete run on the items `l`. -/
def Exec (work : ι → σ → β → β) (copy : β → σ → σ) (sample : β) (l : List ι) (s s' : σ) : Prop :=
  Run work copy sample l [] [] s s'

variable {work : ι → σ → β → β} {copy : β → σ → σ} {sample : β}

/-- The sequential run, recycling nothing. -/
theorem exec_seq (l : List ι) (s : σ) :
    Exec work copy sample l s (l.foldl (fun s i => copy (work i s sample) s) s) := by
  have : ∀ (l : List ι) (free : List β) (s : σ), Run work copy sample l [] free s
      (l.foldl (fun s i => copy (work i s sample) s) s) := by
    intro l
    induction l with
    | nil => intro free s; exact Run.done free s
    | cons i t ih =>
      intro free s
      refine Run.work [] t i [] free free sample s _ (Or.inl ⟨rfl, rfl⟩) ?_
      refine Run.copy ([] ++ t) [] [] (work i s sample) free s _ ?_
      exact ih _ _
  exact this l [] s

theorem foldl_comm {eff : ι → σ → σ} (hc : ∀ i j s, eff i (eff j s) = eff j (eff i s))
    (l : List ι) (i : ι) (s : σ) :
    l.foldl (fun s i => eff i s) (eff i s) = eff i (l.foldl (fun s i => eff i s) s) := by
  induction l generalizing s with
  | nil => rfl
  | cons a t ih => simp only [List.foldl_cons]; rw [hc a i s, ih]

theorem foldl_middle {eff : ι → σ → σ} (hc : ∀ i j s, eff i (eff j s) = eff j (eff i s))
    (l₁ l₂ : List ι) (i : ι) (s : σ) :
    (l₁ ++ i :: l₂).foldl (fun s i => eff i s) s = (l₁ ++ l₂).foldl (fun s i => eff i s) (eff i s) := by
  rw [List.foldl_append, List.foldl_append, List.foldl_cons, ← foldl_comm hc l₁]

theorem foldl_perm {eff : ι → σ → σ} (hc : ∀ i j s, eff i (eff j s) = eff j (eff i s))
    {l l' : List ι} (h : l.Perm l') (s : σ) :
    l.foldl (fun s i => eff i s) s = l'.foldl (fun s i => eff i s) s := by
  induction h generalizing s with
  | nil => rfl
  | cons x _ ih => exact ih _
  | swap x y l => simp only [List.foldl_cons]; rw [hc]
  | trans _ _ ih1 ih2 => rw [ih1, ih2]

/-- If every worker, run on any shared state satisfying `P` and any recycled copy data, produces a
copy data whose copier performs `eff i`, if `P` is preserved by the effects and the effects commute,
then every run of `WorkStream` ends in the state reached by applying the effects in order. -/
theorem exec_eq {eff : ι → σ → σ} {P : σ → Prop} {l : List ι}
    (hw : ∀ i ∈ l, ∀ s b, P s → copy (work i s b) = eff i)
    (hP : ∀ i ∈ l, ∀ s, P s → P (eff i s))
    (hc : ∀ i j s, eff i (eff j s) = eff j (eff i s))
    {s s' : σ} (h : Exec work copy sample l s s') (hs : P s) :
    s' = l.foldl (fun s i => eff i s) s := by
  have key : ∀ (pend : List ι) (fl free : List β) (s s' : σ),
      Run work copy sample pend fl free s s' → (∀ i ∈ pend, i ∈ l) → P s →
      ∀ ids : List ι, (∀ i ∈ ids, i ∈ l) → fl.map copy = ids.map eff →
      s' = (ids ++ pend).foldl (fun s i => eff i s) s := by
    intro pend fl free s s' hr
    induction hr with
    | done free s =>
      intro _ _ ids _ hids
      have : ids = [] := by simpa using hids.symm
      subst this; rfl
    | work p1 p2 i fl free free' b s s' hb _ ih =>
      intro hp hPs ids hids hmap
      have hil : i ∈ l := hp i (by simp)
      have := ih (fun j hj => hp j (by simp at hj ⊢; tauto)) hPs (i :: ids)
        (by intro j hj; simp at hj; rcases hj with rfl | hj; exacts [hil, hids j hj])
        (by simp [hmap, hw i hil s b hPs])
      rw [this]
      refine (foldl_perm hc ?_ s)
      simp only [List.cons_append]
      rw [← List.append_assoc, ← List.append_assoc]
      exact List.perm_middle.symm
    | copy pend f1 f2 b free s s' _ ih =>
      intro hp hPs ids hids hmap
      rw [List.map_append, List.map_cons] at hmap
      obtain ⟨i1, i2', h12, h1, h2⟩ := List.map_eq_append_iff.1 hmap.symm
      obtain ⟨i, i2, h2', hi, h2''⟩ := List.map_eq_cons_iff.1 h2
      subst h12; subst h2'
      have hil : i ∈ l := hids i (by simp)
      have hPs' : P (copy b s) := by rw [← hi]; exact hP i hil s hPs
      have := ih hp hPs' (i1 ++ i2) (fun j hj => hids j (by simp at hj ⊢; tauto))
        (by simp [h1, h2''])
      rw [this, ← hi]
      rw [List.append_assoc, List.append_assoc, List.cons_append, foldl_middle hc]
  simpa using key l [] [] s s' h (fun i hi => hi) hs [] (by simp) (by simp)

end PiBem.WorkStream
