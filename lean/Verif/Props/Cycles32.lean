import Verif.App.Cycles32
import Verif.Props.Driver

/-!
# C93: number of cycles
-/

namespace PiBem.App

theorem body32_eq (g : Bool) (n i : UInt32) : body32 g n i = cycleEvents g n.toNat i.toNat := by
  unfold body32 cycleEvents
  simp only [UInt32.lt_iff_toNat_lt]

theorem succ_toNat {i : UInt32} (h : i.toNat < 2 ^ 32 - 1) : (i + 1).toNat = i.toNat + 1 := by
  rw [UInt32.toNat_add]
  simp only [UInt32.reduceToNat]
  omega

/-- Executions of the loop: one, unless the bound is the largest number. -/
theorem loop_iff (g : Bool) (n i : UInt32) (t : List Event) (hn : n.toNat < 2 ^ 32 - 1) :
    Loop g n i t ↔ t = (List.range' i.toNat (n.toNat + 1 - i.toNat)).flatMap (cycleEvents g n.toNat) := by
  have key : ∀ (m : ℕ) (i : UInt32) (t : List Event), n.toNat + 1 - i.toNat = m →
      (Loop g n i t ↔ t = (List.range' i.toNat m).flatMap (cycleEvents g n.toNat)) := by
    intro m
    induction m with
    | zero =>
      intro i t hm
      have hi : ¬ i ≤ n := by rw [UInt32.le_iff_toNat_le]; omega
      constructor
      · rintro (_ | ⟨_, t, h, -⟩)
        · rfl
        · exact absurd h hi
      · rintro rfl
        exact .stop i hi
    | succ m ih =>
      intro i t hm
      have hi : i ≤ n := by rw [UInt32.le_iff_toNat_le]; omega
      have hs : (i + 1).toNat = i.toNat + 1 := succ_toNat (by omega)
      have ih' := fun t => ih (i + 1) t (by omega)
      rw [hs] at ih'
      rw [List.range'_succ, List.flatMap_cons, ← body32_eq]
      constructor
      · rintro (⟨_, h⟩ | ⟨_, t, -, h⟩)
        · exact absurd hi h
        · rw [(ih' t).1 h]
      · rintro rfl
        exact .step i _ hi ((ih' _).2 rfl)
  exact key _ i t rfl

theorem no_loop (g : Bool) (n : UInt32) (hn : n.toNat = 2 ^ 32 - 1) (i : UInt32) (t : List Event) : ¬ Loop g n i t := by
  intro h
  induction h with
  | stop i hi =>
    apply hi
    rw [UInt32.le_iff_toNat_le, hn]
    have := i.toNat_lt
    omega
  | step _ _ _ _ ih => exact ih

theorem long_partial (g : Bool) (n : UInt32) (hn : n.toNat = 2 ^ 32 - 1) (m : ℕ) (i : UInt32) :
    ∃ t, Partial g n i t ∧ t.count .solve = m ∧ Event.output ∉ t := by
  induction m generalizing i with
  | zero => exact ⟨[], .here i, rfl, by simp⟩
  | succ m ih =>
    obtain ⟨t, ht, hc, ho⟩ := ih (i + 1)
    refine ⟨_, .step i t ?_ ht, ?_, ?_⟩
    · rw [UInt32.le_iff_toNat_le, hn]
      have := i.toNat_lt
      omega
    · rw [List.count_append, hc]
      unfold body32
      split_ifs <;> simp <;> omega
    · unfold body32
      split_ifs <;> simp [ho]

theorem toUnsigned_toNat (k : ℤ) : (toUnsigned k).toNat = (k % 2 ^ 32).toNat := by
  have := Int.emod_lt_of_pos k (show (0 : ℤ) < 2 ^ 32 by norm_num)
  have := Int.emod_nonneg k (show (2 ^ 32 : ℤ) ≠ 0 by norm_num)
  unfold toUnsigned UInt32.ofInt
  rw [UInt32.toNat_ofNat']
  omega

/-- **C93** (accepted values that are not negative). The run ends, with the steps described in C40. -/
theorem C93_nonnegative (g : Bool) (k pre : ℤ) (hk : Accepted k) (hpre : Accepted pre) (h0 : 0 ≤ k) (h1 : 0 ≤ pre) (ev : List Event) :
    Completes g k pre ev ↔ ev = run g k.toNat pre.toNat := by
  obtain ⟨-, hk⟩ := hk
  obtain ⟨-, hpre⟩ := hpre
  have e1 : (toUnsigned k).toNat = k.toNat := by rw [toUnsigned_toNat]; omega
  have e2 : (toUnsigned pre).toNat = pre.toNat := by rw [toUnsigned_toNat]; omega
  have e3 : (localCycles32 g (toUnsigned k)).toNat = if g then 0 else k.toNat := by
    unfold localCycles32
    cases g <;> simp [e1]
  unfold Completes
  have hl := fun t => loop_iff g (localCycles32 g (toUnsigned k)) 0 t (by rw [e3]; split_ifs <;> omega)
  simp only [hl, exists_eq_left, e3]
  unfold run prelude32
  rw [e1, e2]
  simp only [UInt32.reduceToNat, Nat.sub_zero, ← List.range_eq_range']

/-- **C93** (negative number of cycles, local refinement). `-1` cycles: the run never ends, it solves any number of problems and writes no result. -/
theorem C93_minus_one (pre : ℤ) : (∀ ev, ¬ Completes false (-1) pre ev) ∧
    ∀ m, ∃ ev, Reaches false (-1) pre ev ∧ ev.count .solve = m ∧ Event.output ∉ ev := by
  have hn : (localCycles32 false (toUnsigned (-1))).toNat = 2 ^ 32 - 1 := by
    unfold localCycles32
    rw [if_neg (by simp), toUnsigned_toNat]
    decide
  refine ⟨?_, fun m => ?_⟩
  · rintro ev ⟨t, ht, -⟩
    exact no_loop _ _ hn _ _ ht
  · obtain ⟨t, ht, hc, ho⟩ := long_partial false _ hn m 0
    refine ⟨_, ⟨t, ht, rfl⟩, ?_, ?_⟩
    · rw [List.count_append, hc]
      simp [prelude32]
    · simp [prelude32, ho]

/-- **C93** (negative number of cycles, local refinement). Below `-1` the run does `2 ^ 32 + k` cycles, more than two thousand million. -/
theorem C93_negative (k pre : ℤ) (hk : Accepted k) (hneg : k < -1) (ev : List Event) (h : Completes false k pre ev) :
    (ev.count .solve : ℤ) = 2 ^ 32 + k + 1 ∧ 2 ^ 31 < ev.count .solve := by
  obtain ⟨hk, -⟩ := hk
  have e1 : (toUnsigned k).toNat = (2 ^ 32 + k).toNat := by rw [toUnsigned_toNat]; omega
  obtain ⟨t, ht, rfl⟩ := h
  have e3 : (localCycles32 false (toUnsigned k)).toNat = (2 ^ 32 + k).toNat := by simp [localCycles32, e1]
  rw [loop_iff _ _ _ _ (by rw [e3]; omega), e3] at ht
  have hr : (prelude32 false (toUnsigned k) (toUnsigned pre) ++ t ++ [Event.computeErrors, Event.output]).count Event.solve =
      (run false (2 ^ 32 + k).toNat (toUnsigned pre).toNat).count .solve := by
    congr 1
    rw [ht]
    unfold run prelude32
    simp only [UInt32.reduceToNat, Nat.sub_zero, ← List.range_eq_range']
    simp
  rw [hr, (C40_driver _ _).2.2.1]
  omega

/-- **C93** (negative number of cycles, global refinement). The mesh is refined `2 ^ 32 + k` times before the only solve. -/
theorem C93_negative_global (k pre : ℤ) (hk : Accepted k) (hneg : k < 0) (ev : List Event) (h : Completes true k pre ev) :
    Event.refine (2 ^ 32 + k).toNat ∈ ev ∧ ev.count .solve = 1 := by
  obtain ⟨hk, -⟩ := hk
  have e1 : (toUnsigned k).toNat = (2 ^ 32 + k).toNat := by rw [toUnsigned_toNat]; omega
  obtain ⟨t, ht, rfl⟩ := h
  rw [loop_iff _ _ _ _ (by simp [localCycles32])] at ht
  subst ht
  constructor
  · simp [prelude32, e1]
  · simp [prelude32, localCycles32, cycleEvents]

/-- The default of the input file, and the smallest accepted value. -/
example : Accepted 2 ∧ Completes false 2 0 (run false 2 0) ∧ (run false 2 0).count .solve = 3 := by
  have h2 : Accepted 2 := by unfold Accepted; norm_num
  refine ⟨h2, (C93_nonnegative false 2 0 h2 (by unfold Accepted; norm_num) (by norm_num) le_rfl _).2 rfl, by decide⟩

/-- Runs with a negative number of cycles below `-1` end in the model; the smallest and the largest numbers the input file may contain are accepted, no others. -/
example : Accepted (-2 ^ 31) ∧ Accepted (2 ^ 31 - 1) ∧ ¬ Accepted (2 ^ 31) ∧ ¬ Accepted (-2 ^ 31 - 1) ∧ ∃ ev, Completes false (-2 ^ 31) 0 ev := by
  refine ⟨by unfold Accepted; norm_num, by unfold Accepted; norm_num, by unfold Accepted; norm_num, by unfold Accepted; norm_num, ?_⟩
  have e3 : (localCycles32 false (toUnsigned (-2 ^ 31))).toNat = 2 ^ 31 := by
    unfold localCycles32
    rw [if_neg (by simp), toUnsigned_toNat]
    decide
  exact ⟨_, _, (loop_iff false _ 0 _ (by rw [e3]; norm_num)).2 rfl, rfl⟩

end PiBem.App
