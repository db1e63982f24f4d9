import Verif.App.Domain
import Mathlib.Tactic.Linarith
import Mathlib.Data.List.Count
import Mathlib.Tactic.IntervalCases
import Mathlib.Algebra.Order.Field.Basic
import Mathlib.Tactic.NormNum

/-!
# C45, C46, C47, C50: computational domain
-/

namespace PiBem.App

/-! ## C45 -/

theorem refineLoop_spec {T : Type} (cycle : T → T × ℕ) (max : ℕ) (counter : ℕ) (t : T) :
    let r := refineLoop cycle max counter t
    r.2.length ≤ max ∧
    (∀ k, k + 1 < r.2.length → r.2[k]? ≠ some 0) ∧
    (r.2.length < max → (if r.2 = [] then counter = 0 else r.2.getLast? = some 0)) := by
  induction max generalizing counter t with
  | zero => simp [refineLoop]
  | succ n ih =>
    by_cases h0 : counter = 0
    · simp [refineLoop, h0]
    · have ih' := ih (cycle t).2 (cycle t).1
      simp only [refineLoop, if_neg h0]
      generalize hr : refineLoop cycle n (cycle t).2 (cycle t).1 = r at *
      obtain ⟨i1, i2, i3⟩ := ih'
      refine ⟨by simpa using i1, ?_, ?_⟩
      · intro k hk
        cases k with
        | zero =>
          simp only [List.length_cons] at hk
          have hne : (cycle t).2 ≠ 0 := by
            intro hz
            rw [hz] at hr
            have : r.2 = [] := by
              rw [← hr]; cases n <;> simp [refineLoop]
            rw [this] at hk
            simp at hk
          simpa using hne
        | succ k =>
          simp only [List.length_cons] at hk
          simpa using i2 k (by omega)
      · intro hl
        simp only [List.length_cons] at hl
        have := i3 (by omega)
        simp only [reduceCtorEq, if_false]
        split_ifs at this with he
        · rw [he, this]; rfl
        · cases hq : r.2 with
          | nil => exact absurd hq he
          | cons a l => rw [hq] at this; rw [List.getLast?_cons_cons]; exact this

/-- Start of the last cycle: the mesh on which the last cycle of a loop was executed. -/
def lastStart {T : Type} (cycle : T → T × ℕ) (k : ℕ) (t : T) : T := (fun t => (cycle t).1)^[k] t

theorem refineLoop_iterate {T : Type} (cycle : T → T × ℕ) (max : ℕ) (counter : ℕ) (t : T) :
    let r := refineLoop cycle max counter t
    r.1 = lastStart cycle r.2.length t ∧
    ∀ k, k < r.2.length → r.2[k]? = some (cycle (lastStart cycle k t)).2 := by
  induction max generalizing counter t with
  | zero => simp [refineLoop, lastStart]
  | succ n ih =>
    by_cases h0 : counter = 0
    · simp [refineLoop, h0, lastStart]
    · have ih' := ih (cycle t).2 (cycle t).1
      simp only [refineLoop, if_neg h0]
      generalize refineLoop cycle n (cycle t).2 (cycle t).1 = r at *
      obtain ⟨i1, i2⟩ := ih'
      refine ⟨?_, ?_⟩
      · rw [i1]; simp [lastStart, Function.iterate_succ_apply]
      · intro k hk
        cases k with
        | zero => simp [lastStart]
        | succ k =>
          simp only [List.length_cons] at hk
          have := i2 k (by omega)
          simp only [List.getElem?_cons_succ, lastStart, Function.iterate_succ_apply] at this ⊢
          exact this

/-- **C45**, both loops. For every body of the loop (every mesh, refinement and flagging criterion) and every maximum number
of cycles: at most that many cycles are executed, at least one if the maximum is positive, every cycle but the last
flagged some cell, and if fewer cycles than the maximum were executed the last one flagged no cell. -/
theorem C45_loops_bounded {T : Type} (cycle : T → T × ℕ) (max : ℕ) (t : T) :
    let counts := (refineLoop cycle max 1 t).2
    counts.length ≤ max ∧ (0 < max → 0 < counts.length) ∧
    (∀ k, k + 1 < counts.length → counts[k]? ≠ some 0) ∧
    (counts.length < max → counts.getLast? = some 0) := by
  obtain ⟨h1, h2, h3⟩ := refineLoop_spec cycle max 1 t
  intro counts
  have hpos : 0 < max → 0 < counts.length := by
    intro hm
    cases max with
    | zero => omega
    | succ n => simp [counts, refineLoop]
  refine ⟨h1, hpos, h2, fun hl => ?_⟩
  have := h3 hl
  split_ifs at this with he
  exact this

/-- The test on the aspect ratio, in words: the cell is flagged if its longest extent exceeds the prescribed multiple of the
shortest one, and is cut across the longest. -/
theorem aspectFlag_iff (r : ℝ) (c : ACell) :
    (aspectFlag r c = none ↔ max c.e0 c.e1 ≤ r * min c.e0 c.e1) ∧
    (aspectFlag r c = some 0 → c.e1 ≤ c.e0) ∧ (aspectFlag r c = some 1 → c.e0 < c.e1) := by
  unfold aspectFlag
  dsimp only
  by_cases h : c.e0 < c.e1
  · simp only [h, if_true]
    rw [max_eq_right h.le, min_eq_left h.le]
    simp
  · simp only [h, if_false]
    rw [max_eq_left (not_lt.1 h), min_eq_right (not_lt.1 h)]
    simp
    intro _; exact not_lt.1 h

/-- **C45**, aspect ratio. At most 10 cycles are executed; if fewer, then all cells of the mesh on which the last cycle
was executed have the prescribed aspect ratio, and the final mesh is that mesh after a refinement without flags (followed by
the restoration of conformity). -/
theorem C45_aspect_ratio (r : ℝ) (execute : List ACell → List (Option (Fin 2)) → List ACell) (t : List ACell) :
    (aspectLoop r execute t).2.length ≤ 10 ∧
    ((aspectLoop r execute t).2.length < 10 →
      ∃ last : List ACell, (∀ c ∈ last, max c.e0 c.e1 ≤ r * min c.e0 c.e1) ∧
        (aspectLoop r execute t).1 = execute last (last.map fun _ => none)) := by
  obtain ⟨h1, h2, _, h4⟩ := C45_loops_bounded (aspectCycle r execute) 10 t
  refine ⟨h1, fun hl => ?_⟩
  have hlast := h4 hl
  have hpos := h2 (by norm_num)
  obtain ⟨i1, i2⟩ := refineLoop_iterate (aspectCycle r execute) 10 1 t
  obtain ⟨n, hn⟩ : ∃ n, (refineLoop (aspectCycle r execute) 10 1 t).2.length = n + 1 := ⟨_, (Nat.succ_pred_eq_of_pos hpos).symm⟩
  have hn' := i2 n (by omega)
  rw [List.getLast?_eq_getElem?, hn] at hlast
  simp only [Nat.add_sub_cancel] at hlast
  rw [hlast] at hn'
  have hzero : (aspectCycle r execute (lastStart (aspectCycle r execute) n t)).2 = 0 := by
    simpa using hn'.symm
  set m := lastStart (aspectCycle r execute) n t with hm
  have hnone : ∀ c ∈ m, aspectFlag r c = none := by
    intro c hc
    simp only [aspectCycle, List.countP_eq_zero, List.mem_map] at hzero
    have := hzero (aspectFlag r c) ⟨c, hc, rfl⟩
    simpa using this
  refine ⟨m, fun c hc => (aspectFlag_iff r c).1.1 (hnone c hc), ?_⟩
  unfold aspectLoop
  rw [i1, hn, lastStart, Function.iterate_succ_apply', ← lastStart, ← hm]
  unfold aspectCycle
  dsimp only
  congr 1
  exact List.map_congr_left hnone

/-- **C45**, curvature: the number of cycles is at most the configured one, and cells smaller than ten times the tolerance
are never flagged, whatever their curvature. -/
theorem C45_curvature {T : Type} (cycle : T → T × ℕ) (maxCycles : ℕ) (t : T) (tolerance : ℝ) (c : KCell) :
    (refineLoop cycle maxCycles 1 t).2.length ≤ maxCycles ∧
    (c.diameter ≤ 10 * tolerance → ¬ curvatureFlag tolerance c) ∧
    (10 * tolerance < c.diameter → (curvatureFlag tolerance c ↔ c.target < c.diameter)) := by
  refine ⟨(C45_loops_bounded cycle maxCycles t).1, fun h hf => absurd hf.2 (not_lt.2 h), fun h => ?_⟩
  exact ⟨fun hf => hf.1, fun ht => ⟨ht, h⟩⟩

/-- Non-vacuity of C45: a cycle flagging 2, 1, 0 cells. -/
example : (refineLoop (fun t : ℕ => (t + 1, 2 - t)) 10 1 0).2 = [2, 1, 0] := by decide

/-! ## C46 -/

/-- **C46**. With `n` CAD surfaces: for the material ids `1 … n` the corresponding surface is used, for larger ids (up to
`2^31 - 1`) none; for the id `0` (and for ids from `2^31`, among them the invalid one) the vector is accessed out of
bounds. -/
theorem C46_surface_access (n material : ℕ) (hn : n < 2 ^ 31) (hm : material < 2 ^ 32) :
    (surfaceAccess n material = .outOfBounds ↔ material = 0 ∨ 2 ^ 31 ≤ material) ∧
    (∀ i, surfaceAccess n material = .surface i ↔ material = i + 1 ∧ i < n) ∧
    (surfaceAccess n material = .noSurface ↔ n < material ∧ material < 2 ^ 31) := by
  unfold surfaceAccess toInt32
  dsimp only
  refine ⟨?_, fun i => ?_, ?_⟩
  all_goals
    split_ifs <;> simp <;> first | done | omega

/-- **C46**, refutation: a cell with material id 0 accesses a surface that does not exist. -/
theorem C46_refuted : ∀ n, surfaceAccess n 0 = .outOfBounds := by
  intro n
  unfold surfaceAccess toInt32
  simp
  omega

/-! ## C47 -/

theorem foldl_update {V : Type} (g : ℕ → V) (off n : ℕ) (m : ℕ → V) (k : ℕ) :
    (List.range n).foldl (fun m i => Function.update m (off + i) (g i)) m k =
      if off ≤ k ∧ k < off + n then g (k - off) else m k := by
  induction n with
  | zero => rw [if_neg (by omega)]; rfl
  | succ n ih =>
    rw [List.range_succ, List.foldl_append]
    simp only [List.foldl_cons, List.foldl_nil]
    by_cases hk : k = off + n
    · subst hk
      simp
    · rw [Function.update_of_ne hk, ih]
      by_cases h1 : off ≤ k ∧ k < off + n
      · rw [if_pos h1, if_pos (by omega)]
      · rw [if_neg h1, if_neg (by omega)]

/-- **C47**. Content of the manifold ids for all numbers of surfaces and curves: the id `11 + j` is attached to the curve
`j`, the id `1 + i` to the surface `i` unless it is also the id of a curve. All surfaces keep their id if and only if
there are at most 10 of them or there is no curve. The destructor resets exactly these ids and `0`. -/
theorem C47_manifold_ids (nS nC : ℕ) (m : ℕ → Option Manifold) :
    (∀ j < nC, setManifolds nS nC m (11 + j) = some (.curve j)) ∧
    (∀ i < nS, ¬ (10 ≤ i ∧ i < 10 + nC) → setManifolds nS nC m (1 + i) = some (.surface i)) ∧
    ((∀ i < nS, setManifolds nS nC m (1 + i) = some (.surface i)) ↔ nS ≤ 10 ∨ nC = 0) ∧
    (∀ k, resetManifolds nS nC (setManifolds nS nC m) k =
      if k = 0 ∨ (1 ≤ k ∧ k < 1 + nS) ∨ (11 ≤ k ∧ k < 11 + nC) then none else m k) := by
  have hset : ∀ k, setManifolds nS nC m k = if 11 ≤ k ∧ k < 11 + nC then some (.curve (k - 11)) else
      if 1 ≤ k ∧ k < 1 + nS then some (.surface (k - 1)) else m k := by
    intro k
    unfold setManifolds
    rw [foldl_update (fun i => some (Manifold.curve i)) 11, foldl_update (fun i => some (Manifold.surface i)) 1]
  have hreset : ∀ (w : ℕ → Option Manifold) k, resetManifolds nS nC w k = if k = 0 then none else
      if 11 ≤ k ∧ k < 11 + nC then none else if 1 ≤ k ∧ k < 1 + nS then none else w k := by
    intro w k
    unfold resetManifolds
    by_cases h : k = 0
    · subst h; simp
    · rw [Function.update_of_ne h, if_neg h]
      rw [foldl_update (fun _ => none) 11, foldl_update (fun _ => none) 1]
  refine ⟨fun j hj => ?_, fun i hi h => ?_, ?_, fun k => ?_⟩
  · rw [hset, if_pos (by omega)]; simp
  · rw [hset, if_neg (by omega), if_pos (by omega)]; simp
  · constructor
    · intro h
      by_contra hc
      push Not at hc
      have := h 10 (by omega)
      rw [hset, if_pos (by omega)] at this
      simp at this
    · intro h i hi
      rw [hset, if_neg (by omega), if_pos (by omega)]; simp
  · rw [hreset, hset]
    split_ifs <;> first | rfl | omega

/-- **C47**, refutation: with 11 surfaces and one curve the surface 10 is not attached to any id. -/
theorem C47_refuted : ∃ nS nC i, i < nS ∧
    ∀ k, setManifolds nS nC (fun _ => none) k ≠ some (.surface i) := by
  refine ⟨11, 1, 10, by norm_num, fun k => ?_⟩
  unfold setManifolds
  rw [foldl_update (fun i => some (Manifold.curve i)) 11, foldl_update (fun i => some (Manifold.surface i)) 1]
  split_ifs with h1 h2
  · simp
  · simp; omega
  · simp

/-- **C47**, the files read are those before the first missing number. -/
theorem C47_files_read (file : ℕ → Bool) (n fuel : ℕ) (hfuel : n < fuel) (h : ∀ k, 1 ≤ k → k ≤ n → file k = true)
    (hn : file (n + 1) = false) : countFiles file fuel 1 = n := by
  have gen : ∀ d fuel ii, d < fuel → (∀ k, ii ≤ k → k < ii + d → file k = true) → file (ii + d) = false →
      countFiles file fuel ii = d := by
    intro d
    induction d with
    | zero =>
      intro fuel ii hf _ h2
      cases fuel with
      | zero => omega
      | succ fuel => simp [countFiles] at h2 ⊢; exact h2
    | succ d ih =>
      intro fuel ii hf h1 h2
      cases fuel with
      | zero => omega
      | succ fuel =>
        have e : file ii = true := h1 ii (le_refl _) (by omega)
        simp only [countFiles, e, if_true]
        rw [ih fuel (ii + 1) (by omega) (fun k a b => h1 k (by omega) (by omega))
          (by rw [show ii + 1 + d = ii + (d + 1) by omega]; exact h2)]
  exact gen n fuel 1 hfuel (fun k a b => h k a (by omega)) (by rw [Nat.add_comm]; exact hn)

/-! ## C50 -/

section Edges

variable {P : Type}

theorem mem_doubleVertices (dist : P → P → ℝ) (tol : ℝ) (M : EMesh P) (i j : ℕ) :
    j ∈ doubleVertices dist tol M i ↔ j < M.nVerts ∧ dist (M.pos i) (M.pos j) ≤ tol := by
  classical
  simp [doubleVertices]

/-- **C50**, double vertices. For every mesh and every distance: the doubles of a vertex are exactly the vertices within
the tolerance, without repetitions and in increasing order; every vertex is a double of itself and the relation is symmetric;
the test `size() == 1` holds exactly for the vertices with no other vertex within the tolerance. -/
theorem C50_double_vertices (dist : P → P → ℝ) (hsym : ∀ p q, dist p q = dist q p) (hrefl : ∀ p, dist p p = 0)
    (tol : ℝ) (htol : 0 ≤ tol) (M : EMesh P) (i : ℕ) (hi : i < M.nVerts) :
    (∀ j, j ∈ doubleVertices dist tol M i ↔ j < M.nVerts ∧ dist (M.pos i) (M.pos j) ≤ tol) ∧
    (doubleVertices dist tol M i).Pairwise (· < ·) ∧
    i ∈ doubleVertices dist tol M i ∧
    (∀ j < M.nVerts, j ∈ doubleVertices dist tol M i ↔ i ∈ doubleVertices dist tol M j) ∧
    ((doubleVertices dist tol M i).length = 1 ↔ ∀ j < M.nVerts, dist (M.pos i) (M.pos j) ≤ tol → j = i) := by
  have hmem := mem_doubleVertices dist tol M
  have hself : i ∈ doubleVertices dist tol M i := (hmem i i).2 ⟨hi, by rw [hrefl]; exact htol⟩
  have hpw : (doubleVertices dist tol M i).Pairwise (· < ·) := by
    classical
    exact List.Pairwise.filter _ List.pairwise_lt_range
  refine ⟨hmem i, hpw, hself, fun j hj => ?_, ?_, ?_⟩
  · rw [hmem, hmem, hsym]; simp [hi, hj]
  · intro h j hj hd
    obtain ⟨a, ha⟩ := List.length_eq_one_iff.1 h
    have h1 := (hmem i j).2 ⟨hj, hd⟩
    rw [ha] at h1 hself
    simp at h1 hself
    rw [h1, hself]
  · intro h
    have hall : ∀ j ∈ doubleVertices dist tol M i, j = i := fun j hj => h j ((hmem i j).1 hj).1 ((hmem i j).1 hj).2
    generalize doubleVertices dist tol M i = l at hall hself hpw
    match l with
    | [] => simp at hself
    | [a] => rfl
    | a :: b :: t =>
      have h1 := hall a (by simp)
      have h2 := hall b (by simp)
      rw [List.pairwise_cons] at hpw
      have := hpw.1 b (by simp)
      omega

theorem flagged_fold (origin : P) (dist : P → P → ℝ) (mid : P → P → P) (tol : ℝ) (M : EMesh P) (l : List ℕ)
    (r : List (ECell × ℕ)) :
    l.foldl (fun r i => r.bind fun l => (flaggedBy origin dist mid tol M i).map (l ++ ·)) (some r) = some [] →
      ∀ i ∈ l, flaggedBy origin dist mid tol M i = some [] := by
  induction l generalizing r with
  | nil => simp
  | cons a t ih =>
    intro h
    have hnone : ∀ t : List ℕ, t.foldl (fun r i => r.bind fun l => (flaggedBy origin dist mid tol M i).map (l ++ ·)) none =
        none := by
      intro t
      induction t with
      | nil => rfl
      | cons b t ih => simpa using ih
    have hgrow : ∀ (t : List ℕ) (r w : List (ECell × ℕ)),
        t.foldl (fun r i => r.bind fun l => (flaggedBy origin dist mid tol M i).map (l ++ ·)) (some r) = some w →
        r <+: w := by
      intro t
      induction t with
      | nil => intro r w h; simp at h; rw [h]; exact List.prefix_refl _
      | cons b t ih =>
        intro r w h
        rw [List.foldl_cons] at h
        cases hb : flaggedBy origin dist mid tol M b with
        | none => rw [hb] at h; simp only [Option.bind_some, Option.map_none] at h; rw [hnone] at h; simp at h
        | some x =>
          rw [hb] at h
          simp only [Option.bind_some, Option.map_some] at h
          exact (List.prefix_append r x).trans (ih _ _ h)
    rw [List.foldl_cons] at h
    cases ha : flaggedBy origin dist mid tol M a with
    | none => rw [ha] at h; simp only [Option.bind_some, Option.map_none] at h; rw [hnone] at h; simp at h
    | some x =>
      rw [ha] at h
      simp only [Option.bind_some, Option.map_some] at h
      have hp := hgrow _ _ _ h
      rw [List.prefix_nil, List.append_eq_nil_iff] at hp
      intro i hi
      rcases List.mem_cons.1 hi with rfl | hi
      · rw [ha, hp.2]
      · exact ih _ h i hi

theorem conformLoop_stopped (origin : P) (dist : P → P → ℝ) (mid : P → P → P) (tol : ℝ)
    (refine : EMesh P → List (ECell × ℕ) → EMesh P) (fuel : ℕ) (M M' : EMesh P)
    (h : conformLoop origin dist mid tol refine fuel M = .stopped M') : flagged origin dist mid tol M' = some [] := by
  induction fuel generalizing M with
  | zero => simp [conformLoop] at h
  | succ n ih =>
    unfold conformLoop at h
    split at h
    · simp at h
    · rename_i l hl
      split_ifs at h with he
      · rw [LoopResult.stopped.injEq] at h
        subst h
        rw [hl, List.isEmpty_iff.1 he]
      · exact ih _ h

/-- The two end points, other than the vertex `i`, of the boundary edges of the first two cells at `i`. -/
theorem edgeNodes_two (origin : P) (dist : P → P → ℝ) (tol : ℝ) (M : EMesh P) (i : ℕ) (c c' : ECell)
    (hc : vertToElems M i = [c, c']) (a b : P) (ha : otherEnd dist tol M i c = some a)
    (hb : otherEnd dist tol M i c' = some b) : edgeNodes origin dist tol M i = some (a, b) := by
  simp [edgeNodes, hc, ha, hb]

/-- **C50**, conformity. For every mesh and every refinement: if the loop stops, then in the final mesh, for every boundary
vertex `i` without double that belongs to exactly two cells, with boundary edges from `i` to `a` and from `i` to `b`, no
boundary edge of the mesh has its midpoint within the tolerance from the midpoint of `a` and `b` (that is, no edge of
the other side has `i` as hanging vertex). -/
theorem C50_conformity (origin : P) (dist : P → P → ℝ) (mid : P → P → P) (tol : ℝ)
    (refine : EMesh P → List (ECell × ℕ) → EMesh P) (fuel : ℕ) (M M' : EMesh P)
    (h : conformLoop origin dist mid tol refine fuel M = .stopped M')
    (i : ℕ) (hi : i < M'.nVerts) (hb : OnBoundary M' i) (hd : (doubleVertices dist tol M' i).length = 1)
    (c c' : ECell) (hc : vertToElems M' i = [c, c']) (a b : P) (ha : otherEnd dist tol M' i c = some a)
    (hb' : otherEnd dist tol M' i c' = some b) (e : ECell) (he : e ∈ M'.cells) (f : ℕ × ℕ × ℕ) (hf : f ∈ e.bfaces) :
    tol ≤ dist (mid a b) (mid (M'.pos f.2.1) (M'.pos f.2.2)) := by
  have h1 := conformLoop_stopped origin dist mid tol refine fuel M M' h
  have h2 := flagged_fold origin dist mid tol M' _ _ h1 i (by simpa using hi)
  unfold flaggedBy at h2
  rw [if_pos ⟨hb, hd⟩, edgeNodes_two origin dist tol M' i c c' hc a b ha hb'] at h2
  simp only [Option.map_some, Option.some.injEq, List.flatMap_eq_nil_iff] at h2
  have h3 := h2 e he
  rw [List.map_eq_nil_iff, List.filter_eq_nil_iff] at h3
  have := h3 f hf
  simpa using this

/-- **C50**, access: the vector of the two end points is accessed out of bounds exactly when a cell after the first two of
the list of the vertex has a boundary edge at the vertex. -/
theorem C50_out_of_bounds (origin : P) (dist : P → P → ℝ) (tol : ℝ) (M : EMesh P) (i : ℕ) :
    edgeNodes origin dist tol M i = none ↔
      ∃ k, 2 ≤ k ∧ ∃ c, (vertToElems M i)[k]? = some c ∧ (otherEnd dist tol M i c).isSome := by
  unfold edgeNodes
  dsimp only
  split_ifs with h
  · simp only [reduceCtorEq, false_iff]
    rintro ⟨k, hk, c, h1, h2⟩
    rw [List.all_eq_true] at h
    have hm : otherEnd dist tol M i c ∈ ((vertToElems M i).map (otherEnd dist tol M i)).drop 2 := by
      rw [List.mem_iff_getElem?]
      refine ⟨k - 2, ?_⟩
      rw [List.getElem?_drop, show 2 + (k - 2) = k by omega, List.getElem?_map, h1]
      rfl
    have := h _ hm
    rw [Option.isNone_iff_eq_none] at this
    rw [this] at h2
    simp at h2
  · simp only [true_iff]
    rw [List.all_eq_true] at h
    push Not at h
    obtain ⟨x, hx, hx2⟩ := h
    obtain ⟨k, hk⟩ := List.mem_iff_getElem?.1 hx
    rw [List.getElem?_drop, List.getElem?_map] at hk
    cases hc : (vertToElems M i)[2 + k]? with
    | none => rw [hc] at hk; simp at hk
    | some c =>
      rw [hc] at hk
      simp at hk
      refine ⟨2 + k, by omega, c, hc, ?_⟩
      rw [hk]
      cases x with
      | none => simp at hx2
      | some _ => rfl

end Edges

/-- Three cells around the boundary vertex 0: the first and the last have a boundary edge there. -/
def threeCells : EMesh ℝ := ⟨6, fun k => k,
  [⟨[0, 1, 2, 3], [(0, 0, 1)]⟩, ⟨[0, 3, 4], []⟩, ⟨[0, 4, 5], [(1, 5, 0)]⟩]⟩

/-- **C50**, refutation: a boundary vertex belonging to three cells makes the access out of bounds. -/
theorem C50_refuted : edgeNodes 0 (fun x y : ℝ => |x - y|) (1 / 10 ^ 7) threeCells 0 = none := by
  rw [C50_out_of_bounds]
  refine ⟨2, le_refl _, ⟨[0, 4, 5], [(1, 5, 0)]⟩, by simp [vertToElems, threeCells], ?_⟩
  simp [otherEnd, threeCells]
  norm_num

/-- Two cells with the boundary edges `0-1` and `0-2`. -/
def twoCells : EMesh ℝ := ⟨3, fun k => if k = 0 then 0 else if k = 1 then 1 else -1,
  [⟨[0, 1], [(0, 0, 1)]⟩, ⟨[0, 2], [(1, 2, 0)]⟩]⟩

/-- Non-vacuity of C50_conformity: the loop stops on `twoCells`, whose vertex 0 satisfies all the hypotheses. -/
example : conformLoop 0 (fun x y : ℝ => |x - y|) (fun x y => (x + y) / 2) (1 / 10 ^ 7)
      (fun M _ => M) 1 twoCells = .stopped twoCells ∧
    OnBoundary twoCells 0 ∧ (doubleVertices (fun x y : ℝ => |x - y|) (1 / 10 ^ 7) twoCells 0).length = 1 ∧
    vertToElems twoCells 0 = twoCells.cells ∧
    twoCells.cells.map (otherEnd (fun x y : ℝ => |x - y|) (1 / 10 ^ 7) twoCells 0) = [some 1, some (-1)] := by
  have e : ∀ i, i < 3 → (edgeNodes 0 (fun x y : ℝ => |x - y|) (1 / 10 ^ 7) twoCells i = some (1, -1) ∨
      edgeNodes 0 (fun x y : ℝ => |x - y|) (1 / 10 ^ 7) twoCells i = some (0, 0)) := by
    intro i hi
    interval_cases i <;> simp [edgeNodes, vertToElems, otherEnd, twoCells] <;> norm_num
  have f : ∀ i, i < 3 → flaggedBy 0 (fun x y : ℝ => |x - y|) (fun x y => (x + y) / 2) (1 / 10 ^ 7) twoCells i = some [] := by
    intro i hi
    unfold flaggedBy
    split_ifs
    · rcases e i hi with h | h <;> rw [h] <;> simp [twoCells] <;> norm_num
    · rfl
  refine ⟨?_, ?_, ?_, ?_, ?_⟩
  · simp only [conformLoop, flagged]
    have : twoCells.nVerts = 3 := rfl
    rw [this]
    simp only [List.range_succ, List.range_zero, List.nil_append, List.cons_append, List.foldl_cons, List.foldl_nil,
      Option.bind_some, f 0 (by norm_num), f 1 (by norm_num), f 2 (by norm_num), Option.map_some, List.append_nil,
      List.isEmpty_nil, if_true]
  · exact ⟨⟨[0, 1], [(0, 0, 1)]⟩, by simp [twoCells], by simp, (0, 0, 1), by simp, Or.inl rfl⟩
  · simp [doubleVertices, twoCells, List.range_succ, List.filter]
    norm_num
  · simp [vertToElems, twoCells]
  · simp [otherEnd, twoCells]
    norm_num

end PiBem.App
