import Verif.App.Driver
import Mathlib.Data.List.Count

/-!
# C38, C39, C40: mapping, singular quadratures, driver
-/

namespace PiBem.App

/-! ## C40 -/

theorem run_global (nCycles pre : ℕ) : run true nCycles pre =
    [.readDomain, .refine nCycles, .updateTriangulation, .reinit, .solve, .computeErrors, .output] := by
  simp [run, cycleEvents, List.range_succ]

/-- The block executed before each solve but the first. -/
def refineAndSolve : List Event := [.adaptiveRefinement, .updateTriangulation, .reinit, .solve]

theorem cycles_shift (k : ℕ) : (List.range (k + 1)).flatMap (cycleEvents false k) =
    [Event.reinit, .solve] ++ (List.replicate k refineAndSolve).flatten := by
  have h : ∀ j, j ≤ k → (List.range j).flatMap (cycleEvents false k) ++ [Event.reinit, .solve] =
      [Event.reinit, .solve] ++ (List.replicate j refineAndSolve).flatten := by
    intro j
    induction j with
    | zero => intro _; simp
    | succ j ih =>
      intro hj
      have hc : cycleEvents false k j = [.reinit, .solve, .adaptiveRefinement, .updateTriangulation] := by
        simp [cycleEvents]; omega
      rw [List.range_succ, List.flatMap_append, List.flatMap_singleton, hc, List.replicate_succ',
        List.flatten_append, ← List.append_assoc _ _ [refineAndSolve].flatten, ← ih (by omega)]
      simp [refineAndSolve]
  have hl : cycleEvents false k k = [.reinit, .solve] := by simp [cycleEvents]
  rw [List.range_succ, List.flatMap_append, List.flatMap_singleton, hl, h k (le_refl k)]

theorem run_local (nCycles pre : ℕ) : run false nCycles pre =
    [.readDomain, .refine pre, .updateTriangulation, .reinit, .solve] ++
      (List.replicate nCycles refineAndSolve).flatten ++ [.computeErrors, .output] := by
  simp [run, cycles_shift]

/-- **C40**. For all options. Global refinement: the mesh is refined `n_cycles` times, then one solve. Local refinement:
the mesh is refined `pre_global_refinements` times, then there are `n_cycles + 1` solves, each but the first
immediately preceded by an adaptive refinement and an update of the triangulation. In both cases errors and
results are output exactly once, after the last solve. -/
theorem C40_driver (nCycles pre : ℕ) :
    run true nCycles pre =
      [.readDomain, .refine nCycles, .updateTriangulation, .reinit, .solve, .computeErrors, .output] ∧
    run false nCycles pre = [.readDomain, .refine pre, .updateTriangulation, .reinit, .solve] ++
      (List.replicate nCycles [Event.adaptiveRefinement, .updateTriangulation, .reinit, .solve]).flatten ++
      [.computeErrors, .output] ∧
    (run false nCycles pre).count .solve = nCycles + 1 ∧
    (run false nCycles pre).count .adaptiveRefinement = nCycles ∧
    (run false nCycles pre).count .output = 1 := by
  have key : ∀ (e : Event) (k : ℕ), ((List.replicate k refineAndSolve).flatten).count e =
      k * refineAndSolve.count e := by
    intro e k
    induction k with
    | zero => simp
    | succ k ih => rw [List.replicate_succ, List.flatten_cons, List.count_append, ih]; ring
  refine ⟨run_global _ _, run_local _ _, ?_, ?_, ?_⟩ <;> rw [run_local, List.count_append, List.count_append, key]
  · have h1 : refineAndSolve.count .solve = 1 := by decide
    have h2 : [Event.readDomain, .refine pre, .updateTriangulation, .reinit, .solve].count .solve = 1 := by
      simp
    have h3 : [Event.computeErrors, .output].count .solve = 0 := by decide
    rw [h1, h2, h3]; omega
  · have h1 : refineAndSolve.count .adaptiveRefinement = 1 := by decide
    have h2 : [Event.readDomain, .refine pre, .updateTriangulation, .reinit, .solve].count .adaptiveRefinement = 0 := by
      simp
    have h3 : [Event.computeErrors, .output].count .adaptiveRefinement = 0 := by decide
    rw [h1, h2, h3]; omega
  · have h1 : refineAndSolve.count .output = 0 := by decide
    have h2 : [Event.readDomain, .refine pre, .updateTriangulation, .reinit, .solve].count .output = 0 := by
      simp
    have h3 : [Event.computeErrors, .output].count .output = 1 := by decide
    rw [h1, h2, h3]; omega

/-- Non-vacuity of C40. -/
example : run false 1 2 = [.readDomain, .refine 2, .updateTriangulation, .reinit, .solve, .adaptiveRefinement,
    .updateTriangulation, .reinit, .solve, .computeErrors, .output] := by decide

/-! ## C38 -/

theorem mulAt_self (v : ℕ → ℝ) (k : ℕ) (a : ℝ) : mulAt v k a k = v k * a := by simp [mulAt]

theorem mulAt_of_ne (v : ℕ → ℝ) {k j : ℕ} (a : ℝ) (h : j ≠ k) : mulAt v k a j = v j := by simp [mulAt, h]

theorem scale_fold (dim n : ℕ) (hdim : dim = 2 ∨ dim = 3) (vo2s : ℕ → ℕ)
    (hinj : ∀ i < dim * n, ∀ j < dim * n, vo2s i = vo2s j → i = j) (S : Spheroid) (v : ℕ → ℝ) (m : ℕ) (hm : m ≤ n) :
    let w := (List.range m).foldl (scaleStep dim n vo2s S) v
    (∀ i < n, w (vo2s i) = if i < m then v (vo2s i) * S.x else v (vo2s i)) ∧
    (∀ i < n, w (vo2s (i + n)) = if i < m then v (vo2s (i + n)) * (S.y * if dim = 3 then S.z else 1)
      else v (vo2s (i + n))) ∧
    (dim = 3 → ∀ i < n, w (vo2s (i + 2 * n)) = v (vo2s (i + 2 * n))) := by
  have h2n : 2 * n ≤ dim * n := Nat.mul_le_mul_right n (by omega)
  induction m with
  | zero => simp
  | succ m ih =>
    have hlt : m < n := hm
    obtain ⟨e1, e2, e3⟩ := ih (by omega)
    rw [List.range_succ, List.foldl_append]
    simp only [List.foldl_cons, List.foldl_nil]
    set w := (List.range m).foldl (scaleStep dim n vo2s S) v
    have hne : ∀ a b, a < dim * n → b < dim * n → a ≠ b → vo2s a ≠ vo2s b :=
      fun a b ha hb hab h => hab (hinj a ha b hb h)
    -- value of one step at any position
    have step : ∀ k < dim * n, scaleStep dim n vo2s S w m (vo2s k) =
        if k = m then w (vo2s m) * S.x else if k = m + n then w (vo2s (m + n)) * (S.y * if dim = 3 then S.z else 1)
        else w (vo2s k) := by
      intro k hk
      have hm1 : m < dim * n := by omega
      have hm2 : m + n < dim * n := by omega
      have hmn : vo2s m ≠ vo2s (m + n) := hne _ _ hm1 hm2 (by omega)
      unfold scaleStep
      by_cases h1 : k = m
      · subst h1
        rw [if_pos rfl]
        split_ifs
        · rw [mulAt_of_ne _ _ hmn, mulAt_of_ne _ _ hmn, mulAt_self]
        · rw [mulAt_of_ne _ _ hmn, mulAt_self]
      · rw [if_neg h1]
        by_cases h2 : k = m + n
        · subst h2
          rw [if_pos rfl]
          split_ifs
          · rw [mulAt_self, mulAt_self, mulAt_of_ne _ _ hmn.symm]; ring
          · rw [mulAt_self, mulAt_of_ne _ _ hmn.symm]; ring
        · rw [if_neg h2]
          have a1 := hne k m hk hm1 h1
          have a2 := hne k (m + n) hk hm2 h2
          split_ifs
          · rw [mulAt_of_ne _ _ a2, mulAt_of_ne _ _ a2, mulAt_of_ne _ _ a1]
          · rw [mulAt_of_ne _ _ a2, mulAt_of_ne _ _ a1]
    refine ⟨fun i hi => ?_, fun i hi => ?_, fun h3 i hi => ?_⟩
    · rw [step i (by omega)]
      by_cases him : i = m
      · subst him
        rw [if_pos rfl, e1 i hi, if_neg (lt_irrefl i), if_pos (Nat.lt_succ_self i)]
      · rw [if_neg him, if_neg (by omega), e1 i hi]
        by_cases h : i < m
        · rw [if_pos h, if_pos (Nat.lt_succ_of_lt h)]
        · rw [if_neg h, if_neg (show ¬ i < m + 1 by omega)]
    · rw [step (i + n) (by omega), if_neg (by omega)]
      by_cases him : i = m
      · subst him
        rw [if_pos rfl, e2 i hi, if_neg (lt_irrefl i), if_pos (Nat.lt_succ_self i)]
      · rw [if_neg (by omega), e2 i hi]
        by_cases h : i < m
        · rw [if_pos h, if_pos (Nat.lt_succ_of_lt h)]
        · rw [if_neg h, if_neg (show ¬ i < m + 1 by omega)]
    · subst h3
      rw [step (i + 2 * n) (by omega), if_neg (by omega), if_neg (by omega), e3 rfl i hi]

/-- **C38**, what happens to the coordinates of node `i` of the mesh the first time the mapping is created with the FE
mapping and the spheroid option: in dimension 2 the point `(x, y)` becomes `(a x, b y)`; in dimension 3 the
point `(x, y, z)` becomes `(a x, b c y, z)`: the third factor is applied to the second coordinate. -/
theorem C38_spheroid (dim n : ℕ) (hdim : dim = 2 ∨ dim = 3) (vo2s : ℕ → ℕ)
    (hinj : ∀ i < dim * n, ∀ j < dim * n, vo2s i = vo2s j → i = j) (S : Spheroid) (hS : S.active = true)
    (positions : ℕ → ℝ) :
    ∃ s, mappingReinit dim .fe S n vo2s positions MapState.init = some s ∧ s.created = true ∧
      ∀ i < n, s.mapVector (vo2s i) = positions (vo2s i) * S.x ∧
        (dim = 2 → s.mapVector (vo2s (i + n)) = positions (vo2s (i + n)) * S.y) ∧
        (dim = 3 → s.mapVector (vo2s (i + n)) = positions (vo2s (i + n)) * (S.y * S.z) ∧
          s.mapVector (vo2s (i + 2 * n)) = positions (vo2s (i + 2 * n))) := by
  obtain ⟨e1, e2, e3⟩ := scale_fold dim n hdim vo2s hinj S positions n (le_refl n)
  refine ⟨_, by simp [mappingReinit, MapState.init, hS]; rfl, rfl, fun i hi => ⟨?_, fun h => ?_, fun h => ⟨?_, e3 h i hi⟩⟩⟩
  · simpa [hi] using e1 i hi
  · subst h; simpa [hi] using e2 i hi
  · subst h; simpa [hi] using e2 i hi

/-- **C38**, refutation: in dimension 3 there are a mesh and axes for which the mapped point is not `(a x, b y, c z)`. -/
theorem C38_refuted : ∃ (S : Spheroid) (positions : ℕ → ℝ) (s : MapState),
    S.active = true ∧ mappingReinit 3 .fe S 1 id positions MapState.init = some s ∧
      s.mapVector 1 ≠ positions 1 * S.y ∧ s.mapVector 2 ≠ positions 2 * S.z := by
  obtain ⟨s, h1, _, h2⟩ := C38_spheroid 3 1 (Or.inr rfl) id (fun i _ j _ h => h) ⟨true, 1, 1, 2⟩ rfl (fun _ => 1)
  refine ⟨_, _, s, rfl, h1, ?_, ?_⟩
  · have := ((h2 0 (by norm_num)).2.2 rfl).1
    simp only [id, Nat.zero_add, Nat.mul_one] at this
    rw [this]; norm_num
  · have := ((h2 0 (by norm_num)).2.2 rfl).2
    simp only [id, Nat.zero_add, Nat.mul_one] at this
    rw [this]; norm_num

/-- **C38**, later calls: once the mapping exists a new call (after a refinement) with the FE mapping replaces the
positions by the unscaled ones: the spheroid is lost. With another mapping type the first call with the spheroid option
accesses an empty vector (if the mesh has nodes). -/
theorem C38_later_calls (dim n : ℕ) (hn : 0 < dim * n) (vo2s : ℕ → ℕ) (S : Spheroid) (hS : S.active = true)
    (positions : ℕ → ℝ) :
    (∀ s : MapState, s.created = true →
      mappingReinit dim .fe S n vo2s positions s = some ⟨true, dim * n, positions⟩) ∧
    mappingReinit dim .q S n vo2s positions MapState.init = none := by
  refine ⟨fun s hs => ?_, ?_⟩
  · simp [mappingReinit, hs]
  · have h : ¬ dim * n ≤ 0 := by omega
    simp [mappingReinit, MapState.init, hS, h]

/-! ## C39 -/

/-- A sequence of calls: order, support points of the current element, index. -/
def quadHistory {P : Type} (l : List (ℕ × List P × ℕ)) : List (ℕ × P) :=
  l.foldl (fun cache q => (getSingularQuadrature cache q.1 q.2.1 q.2.2).1) []

/-- **C39**. After any sequence of calls the rules returned are those of the first call (with a non-empty element): they
are the ones requested if and only if order and support point agree with those of the first call. So they are right
in every run in which element and order never change, and wrong as soon as the order changes. -/
theorem C39_singular_quadrature {P : Type} (q0 : ℕ × List P × ℕ) (h0 : q0.2.1 ≠ []) (l : List (ℕ × List P × ℕ))
    (order : ℕ) (support : List P) (index : ℕ) :
    (getSingularQuadrature (quadHistory (q0 :: l)) order support index).2 =
      (q0.2.1[index]?).map (fun p => (q0.1, p)) ∧
    (index < support.length →
      ((getSingularQuadrature (quadHistory (q0 :: l)) order support index).2 =
          (support[index]?).map (fun p => (order, p)) ↔
        order = q0.1 ∧ q0.2.1[index]? = support[index]?)) := by
  have hc : quadHistory (q0 :: l) = q0.2.1.map (fun p => (q0.1, p)) := by
    have hne : (q0.2.1.map (fun p => (q0.1, p))).length ≠ 0 := by simpa using h0
    unfold quadHistory
    rw [List.foldl_cons]
    have h1 : (getSingularQuadrature [] q0.1 q0.2.1 q0.2.2).1 = q0.2.1.map (fun p => (q0.1, p)) := by
      simp [getSingularQuadrature]
    rw [h1]
    generalize q0.2.1.map (fun p => (q0.1, p)) = c at hne
    induction l with
    | nil => rfl
    | cons a t ih =>
      rw [List.foldl_cons]
      have : (getSingularQuadrature c a.1 a.2.1 a.2.2).1 = c := by
        unfold getSingularQuadrature
        rw [if_neg hne]
      rw [this, ih]
  have hr : (getSingularQuadrature (quadHistory (q0 :: l)) order support index).2 =
      (q0.2.1[index]?).map (fun p => (q0.1, p)) := by
    rw [hc]
    unfold getSingularQuadrature
    rw [if_neg (by simpa using h0)]
    simp
  refine ⟨hr, fun hi => ?_⟩
  rw [hr, List.getElem?_eq_getElem hi]
  cases h : q0.2.1[index]? with
  | none => simp
  | some p => simp [eq_comm]

/-- Non-vacuity of C39: the second call asks for order 7 and gets the rule of order 5. -/
example : (getSingularQuadrature (quadHistory [(5, ["a", "b"], 0)]) 7 ["a", "b"] 1).2 = some (5, "b") := by decide

end PiBem.App
