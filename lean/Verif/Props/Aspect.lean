import Verif.App.Aspect
import Verif.Props.Domain
import Mathlib.Tactic.Positivity
import Mathlib.Tactic.FinCases
import Mathlib.Tactic.Ring
import Mathlib.Tactic.FieldSimp
import Mathlib.Algebra.BigOperators.Group.List.Basic

/-!
# C99: what the aspect ratio loop reaches on flat cells

`aspectLoop r flatExecute t`: the loop with the limit `r` on the mesh `t` of flat cells; `.1` is the final mesh, `.2` the
numbers of flagged cells.
-/

namespace PiBem.App

/-- Cell with positive extents. -/
def ACell.Pos (c : ACell) : Prop := 0 < c.e0 ∧ 0 < c.e1

/-- The cell respects the limit `r` on the aspect ratio. -/
def ACell.Within (r : ℝ) (c : ACell) : Prop := max c.e0 c.e1 ≤ r * min c.e0 c.e1

/-- What becomes of a cell in `n` cycles. -/
noncomputable def evolve (r : ℝ) : ℕ → ACell → List ACell
  | 0, c => [c]
  | n + 1, c => (cutCell c (aspectFlag r c)).flatMap (evolve r n)

theorem flat_cycle (r : ℝ) (t : List ACell) :
    (aspectCycle r flatExecute t).1 = t.flatMap fun c => cutCell c (aspectFlag r c) := by
  unfold aspectCycle flatExecute
  simp only [List.zipWith_map_right, List.flatMap_def]
  congr 1
  induction t with
  | nil => rfl
  | cons a t ih => simp

theorem evolve_fixed (r : ℝ) (n : ℕ) (c : ACell) (h : aspectFlag r c = none) : evolve r n c = [c] := by
  induction n with
  | zero => rfl
  | succ n ih => simp [evolve, h, cutCell, ih]

theorem loop_eq (r : ℝ) (n counter : ℕ) (t : List ACell) (hc : counter = 0 → ∀ c ∈ t, aspectFlag r c = none) :
    (refineLoop (aspectCycle r flatExecute) n counter t).1 = t.flatMap (evolve r n) := by
  induction n generalizing counter t with
  | zero => simp [refineLoop, evolve]
  | succ n ih =>
    unfold refineLoop
    split_ifs with h0
    · symm
      calc t.flatMap (evolve r (n + 1)) = t.flatMap fun c => [c] := by
            simp only [List.flatMap_def]
            congr 1
            exact List.map_congr_left fun c hm => evolve_fixed r _ c (hc h0 c hm)
        _ = t := by simp
    · simp only
      rw [ih, flat_cycle, List.flatMap_assoc]
      · rfl
      · intro hz c hm
        have hall : ∀ a ∈ t, aspectFlag r a = none := by
          intro a ha
          have : (t.map (aspectFlag r)).countP Option.isSome = 0 := hz
          rw [List.countP_eq_zero] at this
          have := this _ (List.mem_map_of_mem ha)
          simpa using this
        rw [flat_cycle, List.mem_flatMap] at hm
        obtain ⟨a, ha, hm⟩ := hm
        rw [hall a ha] at hm
        simp [cutCell] at hm
        rw [hm]; exact hall a ha

theorem aspectLoop_eq (r : ℝ) (t : List ACell) : (aspectLoop r flatExecute t).1 = t.flatMap (evolve r 10) :=
  loop_eq r 10 1 t (by simp)

theorem flag_none (r : ℝ) (c : ACell) : aspectFlag r c = none ↔ c.Within r := (aspectFlag_iff r c).1

/-- A cell that exceeds the limit becomes two equal cells. -/
theorem cut_shape (r : ℝ) (c : ACell) (h : ¬ c.Within r) :
    (c.e1 ≤ c.e0 ∧ cutCell c (aspectFlag r c) = [⟨c.e0 / 2, c.e1⟩, ⟨c.e0 / 2, c.e1⟩]) ∨
    (c.e0 < c.e1 ∧ cutCell c (aspectFlag r c) = [⟨c.e0, c.e1 / 2⟩, ⟨c.e0, c.e1 / 2⟩]) := by
  obtain ⟨h1, h2, h3⟩ := aspectFlag_iff r c
  rcases hf : aspectFlag r c with _ | d
  · exact absurd ((flag_none r c).1 hf) h
  · fin_cases d
    · exact .inl ⟨h2 hf, by simp [cutCell]⟩
    · exact .inr ⟨h3 hf, by simp [cutCell]⟩

/-- Generic form of the halving. -/
theorem evolve_succ (r : ℝ) (c : ACell) (h : ¬ c.Within r) :
    ∃ c' : ACell, (∀ n, evolve r (n + 1) c = evolve r n c' ++ evolve r n c') ∧
      ((c.e1 ≤ c.e0 ∧ c' = ⟨c.e0 / 2, c.e1⟩) ∨ (c.e0 < c.e1 ∧ c' = ⟨c.e0, c.e1 / 2⟩)) := by
  rcases cut_shape r c h with ⟨ha, hb⟩ | ⟨ha, hb⟩
  · exact ⟨_, fun n => by simp [evolve, hb], .inl ⟨ha, rfl⟩⟩
  · exact ⟨_, fun n => by simp [evolve, hb], .inr ⟨ha, rfl⟩⟩

theorem replicate_double {α : Type} (k : ℕ) (x : α) :
    List.replicate (2 ^ k) x ++ List.replicate (2 ^ k) x = List.replicate (2 ^ (k + 1)) x := by
  rw [← List.replicate_add, pow_succ, mul_two]

/-- Limits at least `√2`: the cell is cut as many times as needed. -/
theorem evolve_reached (r : ℝ) (hr : 0 < r) (h2 : 2 ≤ r ^ 2) (k n : ℕ) (hk : k ≤ n) (c : ACell) (hc : c.Pos)
    (h : max c.e0 c.e1 ≤ 2 ^ k * r * min c.e0 c.e1) (hl : ∀ j < k, 2 ^ j * r * min c.e0 c.e1 < max c.e0 c.e1) :
    ∃ s : ACell, evolve r n c = List.replicate (2 ^ k) s ∧ s.Within r ∧ s.Pos ∧ s.e0 * s.e1 * 2 ^ k = c.e0 * c.e1 := by
  induction k generalizing n c with
  | zero =>
    have hw : c.Within r := by unfold ACell.Within; linarith [h]
    exact ⟨c, by rw [evolve_fixed r n c ((flag_none r c).2 hw)]; rfl, hw, hc, by simp⟩
  | succ k ih =>
    obtain ⟨n, rfl⟩ : ∃ m, n = m + 1 := ⟨n - 1, by omega⟩
    have h1 : ¬ c.Within r := by
      have := hl 0 (by omega)
      unfold ACell.Within; simp only [pow_zero, one_mul] at this; exact not_le.2 this
    obtain ⟨hp0, hp1⟩ := hc
    have hr1 : 1 < r := by nlinarith
    obtain ⟨c', he, hcs⟩ := evolve_succ r c h1
    -- the new cell in terms of its longest and shortest extents
    have key : ∀ a b : ℝ, 0 < b → b ≤ a → r * b < a → a ≤ 2 ^ (k + 1) * r * b → (∀ j < k + 1, 2 ^ j * r * b < a) →
        max (a / 2) b ≤ 2 ^ k * r * min (a / 2) b ∧ ∀ j < k, 2 ^ j * r * min (a / 2) b < max (a / 2) b := by
      intro a b hb hab hrb hup hlo
      have hpk : (1 : ℝ) ≤ 2 ^ k := one_le_pow₀ (by norm_num)
      rcases le_total b (a / 2) with hx | hx
      · rw [max_eq_left hx, min_eq_right hx]
        refine ⟨by rw [pow_succ] at hup; linarith, fun j hj => ?_⟩
        have := hlo (j + 1) (by omega)
        rw [pow_succ] at this; linarith
      · rw [max_eq_right hx, min_eq_left hx]
        have h3 : b ≤ r * (a / 2) := by nlinarith
        refine ⟨le_trans h3 ?_, fun j hj => ?_⟩
        · have ha : 0 < a := by linarith
          have : 0 < r * (a / 2) := by positivity
          nlinarith
        · exfalso
          have := hlo 1 (by omega)
          rw [pow_one] at this
          nlinarith
    rcases hcs with ⟨hle, rfl⟩ | ⟨hle, rfl⟩
    · rw [max_eq_left hle, min_eq_right hle] at h hl
      obtain ⟨k1, k2⟩ := key c.e0 c.e1 hp1 hle (by simpa using hl 0 (by omega)) h hl
      obtain ⟨s, e1, e2, e3, e4⟩ := ih n (by omega) ⟨c.e0 / 2, c.e1⟩ ⟨by simpa using hp0, hp1⟩ k1 k2
      exact ⟨s, by rw [he, e1, replicate_double], e2, e3, by rw [pow_succ]; simp only at e4; linarith⟩
    · rw [max_eq_right hle.le, min_eq_left hle.le] at h hl
      obtain ⟨k1, k2⟩ := key c.e1 c.e0 hp0 hle.le (by simpa using hl 0 (by omega)) h hl
      rw [max_comm, min_comm] at k1
      obtain ⟨s, e1, e2, e3, e4⟩ := ih n (by omega) ⟨c.e0, c.e1 / 2⟩ ⟨hp0, by simpa using hp1⟩ k1
        (fun j hj => by rw [max_comm, min_comm]; exact k2 j hj)
      exact ⟨s, by rw [he, e1, replicate_double], e2, e3, by rw [pow_succ]; simp only at e4; linarith⟩

/-- **C99** (limits that can be met). With a limit of at least `√2` every cell whose aspect ratio is at most 1024 times the
limit is cut into `2 ^ k` equal cells within the limit, `k` being the least number of halvings that suffices; the other cells
are not involved, and every cell contributes its own area. -/
theorem C99_reached (r : ℝ) (hr : 0 < r) (h2 : 2 ≤ r ^ 2) (t : List ACell) (hpos : ∀ c ∈ t, c.Pos) (k : ACell → ℕ)
    (hk : ∀ c ∈ t, k c ≤ 10 ∧ max c.e0 c.e1 ≤ 2 ^ k c * r * min c.e0 c.e1 ∧
      ∀ j < k c, 2 ^ j * r * min c.e0 c.e1 < max c.e0 c.e1) :
    ∃ s : ACell → ACell, (aspectLoop r flatExecute t).1 = t.flatMap (fun c => List.replicate (2 ^ k c) (s c)) ∧
      ∀ c ∈ t, max (s c).e0 (s c).e1 ≤ r * min (s c).e0 (s c).e1 ∧ (s c).Pos ∧
        2 ^ k c * ((s c).e0 * (s c).e1) = c.e0 * c.e1 := by
  have hx : ∀ c : ACell, ∃ s : ACell, c ∈ t → evolve r 10 c = List.replicate (2 ^ k c) s ∧ s.Within r ∧ s.Pos ∧
      s.e0 * s.e1 * 2 ^ k c = c.e0 * c.e1 := by
    intro c
    by_cases hm : c ∈ t
    · obtain ⟨a, b, d⟩ := hk c hm
      obtain ⟨s, hs⟩ := evolve_reached r hr h2 (k c) 10 a c (hpos c hm) b d
      exact ⟨s, fun _ => hs⟩
    · exact ⟨c, fun h => absurd h hm⟩
  choose s hs using hx
  refine ⟨s, ?_, fun c hm => ⟨(hs c hm).2.1, (hs c hm).2.2.1, by rw [mul_comm]; exact (hs c hm).2.2.2⟩⟩
  rw [aspectLoop_eq]
  simp only [List.flatMap_def]
  congr 1
  exact List.map_congr_left fun c hm => (hs c hm).1

/-- **C99** (limits that cannot be met). With a limit below 1 (the input file accepts any number) every cell is cut in every
cycle: 1024 cells in place of each one, none of them within the limit. -/
theorem C99_unreachable (r : ℝ) (hr : r < 1) (t : List ACell) (hpos : ∀ c ∈ t, c.Pos) :
    (aspectLoop r flatExecute t).1.length = 1024 * t.length ∧
    ∀ c ∈ (aspectLoop r flatExecute t).1, r * min c.e0 c.e1 < max c.e0 c.e1 := by
  have hnot : ∀ c : ACell, c.Pos → r * min c.e0 c.e1 < max c.e0 c.e1 := by
    rintro c ⟨h0, h1⟩
    have : 0 < min c.e0 c.e1 := lt_min h0 h1
    have h3 : min c.e0 c.e1 ≤ max c.e0 c.e1 := min_le_max
    nlinarith
  have hev : ∀ n (c : ACell), c.Pos → (evolve r n c).length = 2 ^ n ∧ ∀ d ∈ evolve r n c, d.Pos := by
    intro n
    induction n with
    | zero => intro c hc; simp [evolve, hc]
    | succ n ih =>
      intro c hc
      obtain ⟨c', he, hcs⟩ := evolve_succ r c (not_le.2 (hnot c hc))
      have hp : c'.Pos := by
        rcases hcs with ⟨_, rfl⟩ | ⟨_, rfl⟩
        · exact ⟨by simpa using hc.1, hc.2⟩
        · exact ⟨hc.1, by simpa using hc.2⟩
      obtain ⟨i1, i2⟩ := ih c' hp
      rw [he]
      refine ⟨by rw [List.length_append, i1, pow_succ, mul_two], fun d hd => ?_⟩
      rcases List.mem_append.1 hd with h | h <;> exact i2 d h
  rw [aspectLoop_eq]
  constructor
  · induction t with
    | nil => rfl
    | cons a t ih =>
      rw [List.flatMap_cons, List.length_append, ih fun c hc => hpos c (by simp [hc]), (hev 10 a (hpos a (by simp))).1,
        List.length_cons]
      ring
  · intro c hm
    obtain ⟨a, ha, hm⟩ := List.mem_flatMap.1 hm
    exact hnot c ((hev 10 a (hpos a ha)).2 c hm)

theorem evolve_twice (r : ℝ) (c : ACell) (hc : c.Pos) (h1 : r * min c.e0 c.e1 < max c.e0 c.e1)
    (h2 : max c.e0 c.e1 < 2 * min c.e0 c.e1) (h3 : r * max c.e0 c.e1 < 2 * min c.e0 c.e1) (n : ℕ) :
    evolve r (2 * n) c = List.replicate (4 ^ n) ⟨c.e0 / 2 ^ n, c.e1 / 2 ^ n⟩ := by
  induction n generalizing c with
  | zero => simp [evolve]
  | succ n ih =>
    obtain ⟨hp0, hp1⟩ := hc
    obtain ⟨c', he, hcs⟩ := evolve_succ r c (not_le.2 h1)
    have fin : evolve r (2 * n + 1) c' =
        evolve r (2 * n) ⟨c.e0 / 2, c.e1 / 2⟩ ++ evolve r (2 * n) ⟨c.e0 / 2, c.e1 / 2⟩ := by
      rcases hcs with ⟨hle, rfl⟩ | ⟨hle, rfl⟩
      · rw [max_eq_left hle, min_eq_right hle] at h1 h2 h3
        have hn : ¬ ACell.Within r ⟨c.e0 / 2, c.e1⟩ := by
          unfold ACell.Within
          simp only
          rw [max_eq_right (by linarith), min_eq_left (by linarith)]
          linarith
        obtain ⟨c2, he2, hc2⟩ := evolve_succ r _ hn
        rcases hc2 with ⟨h, _⟩ | ⟨_, rfl⟩
        · simp only at h; linarith
        · exact he2 _
      · rw [max_eq_right hle.le, min_eq_left hle.le] at h1 h2 h3
        have hn : ¬ ACell.Within r ⟨c.e0, c.e1 / 2⟩ := by
          unfold ACell.Within
          simp only
          rw [max_eq_left (by linarith), min_eq_right (by linarith)]
          linarith
        obtain ⟨c2, he2, hc2⟩ := evolve_succ r _ hn
        rcases hc2 with ⟨_, rfl⟩ | ⟨h, _⟩
        · exact he2 _
        · simp only at h; linarith
    have hmax : max (c.e0 / 2) (c.e1 / 2) = max c.e0 c.e1 / 2 := (max_div_div_right (by norm_num) _ _)
    have hmin : min (c.e0 / 2) (c.e1 / 2) = min c.e0 c.e1 / 2 := (min_div_div_right (by norm_num) _ _)
    rw [show 2 * (n + 1) = 2 * n + 1 + 1 by ring, he, fin, ih ⟨c.e0 / 2, c.e1 / 2⟩ ⟨by simpa using hp0, by simpa using hp1⟩
      (by simp only [hmax, hmin]; linarith) (by simp only [hmax, hmin]; linarith) (by simp only [hmax, hmin]; linarith)]
    simp only [← List.replicate_add, div_div, ← pow_succ']
    congr 1
    rw [pow_succ]; ring

/-- **C99** (limits between 1 and `√2`). A cell with an aspect ratio above the limit `r`, but below 2 and below `2 / r`, is
cut alternately in the two directions in all the ten cycles, and the 1024 cells that replace it have the same aspect
ratio as before. -/
theorem C99_oscillates (r : ℝ) (t : List ACell) (hpos : ∀ c ∈ t, c.Pos)
    (h : ∀ c ∈ t, r * min c.e0 c.e1 < max c.e0 c.e1 ∧ max c.e0 c.e1 < 2 * min c.e0 c.e1 ∧
      r * max c.e0 c.e1 < 2 * min c.e0 c.e1) :
    (aspectLoop r flatExecute t).1 = t.flatMap fun c => List.replicate 1024 ⟨c.e0 / 32, c.e1 / 32⟩ := by
  rw [aspectLoop_eq]
  simp only [List.flatMap_def]
  congr 1
  refine List.map_congr_left fun c hm => ?_
  obtain ⟨a, b, d⟩ := h c hm
  have := evolve_twice r c (hpos c hm) a b d 5
  norm_num at this
  exact this

/-- **C99** (the threshold). If the limit is at least `√2` all the cells up to 1024 times the limit end within the limit;
for every positive smaller limit there is a cell, with an aspect ratio below 2, that does not. -/
theorem C99_threshold (r : ℝ) (hr : 0 < r) :
    2 ≤ r ^ 2 ↔ ∀ c : ACell, c.Pos → max c.e0 c.e1 ≤ 2 * min c.e0 c.e1 →
      ∀ d ∈ (aspectLoop r flatExecute [c]).1, max d.e0 d.e1 ≤ r * min d.e0 d.e1 := by
  constructor
  · intro h2 c hc hle d hd
    by_cases hw : c.Within r
    · rw [aspectLoop_eq, List.flatMap_singleton, evolve_fixed r 10 c ((flag_none r c).2 hw)] at hd
      simp at hd
      rw [hd]; exact hw
    · have hr1 : 1 < r := by nlinarith
      have hm : 0 < min c.e0 c.e1 := lt_min hc.1 hc.2
      obtain ⟨s, e1, e2, -⟩ := evolve_reached r hr h2 1 10 (by norm_num) c hc
        (by rw [pow_one]; nlinarith) (fun j hj => by
          obtain rfl : j = 0 := by omega
          simpa using not_le.1 hw)
      rw [aspectLoop_eq, List.flatMap_singleton, e1] at hd
      rw [(List.mem_replicate.1 hd).2]; exact e2
  · intro h
    by_contra hn
    rw [not_le] at hn
    rcases lt_or_ge r 1 with h1 | h1
    · have hc : ACell.Pos ⟨1, 1⟩ := ⟨one_pos, one_pos⟩
      obtain ⟨l1, l2⟩ := C99_unreachable r h1 [⟨1, 1⟩] (by simpa using hc)
      obtain ⟨d, hd⟩ := List.exists_mem_of_length_pos (l := (aspectLoop r flatExecute [⟨1, 1⟩]).1) (by rw [l1]; simp)
      exact absurd (h ⟨1, 1⟩ hc (by norm_num) d hd) (not_le.2 (l2 d hd))
    · -- an aspect ratio between `r` and `2 / r`
      have hlt : r < 2 / r := by rw [lt_div_iff₀ hr]; nlinarith
      set q := (r + 2 / r) / 2 with hq
      have q1 : r < q := by rw [hq]; linarith
      have q2 : q < 2 / r := by rw [hq]; linarith
      have q3 : r * q < 2 := by rw [lt_div_iff₀ hr] at q2; linarith
      have hqpos : 0 < q := by linarith
      have q4 : q < 2 := by nlinarith
      have hc : ACell.Pos ⟨q, 1⟩ := ⟨hqpos, one_pos⟩
      have hmx : max q 1 = q := max_eq_left (by linarith)
      have hmn : min q 1 = 1 := min_eq_right (by linarith)
      have e := C99_oscillates r [⟨q, 1⟩] (by simpa using hc) (by
        intro c hm
        simp only [List.mem_singleton] at hm
        subst hm
        simp only [hmx, hmn]
        exact ⟨by linarith, by linarith, by linarith⟩)
      have := h ⟨q, 1⟩ hc (by simp only [hmx, hmn]; linarith) ⟨q / 32, 1 / 32⟩ (by
          rw [e, List.flatMap_singleton]
          exact List.mem_replicate.2 ⟨by norm_num, rfl⟩)
      simp only at this
      rw [max_eq_left (by linarith), min_eq_right (by linarith)] at this
      linarith

/-- The default limit 3.5 (computational_domain.cc:85) on a mesh of a square and two long cells: 1, 4 and 2 cells. -/
theorem C99_example : ∃ s : ACell → ACell,
    (aspectLoop 3.5 flatExecute [⟨1, 1⟩, ⟨12, 1⟩, ⟨1, 4⟩]).1 =
      [s ⟨1, 1⟩, s ⟨12, 1⟩, s ⟨12, 1⟩, s ⟨12, 1⟩, s ⟨12, 1⟩, s ⟨1, 4⟩, s ⟨1, 4⟩] := by
  classical
  obtain ⟨s, hs, -⟩ := C99_reached 3.5 (by norm_num) (by norm_num) [⟨1, 1⟩, ⟨12, 1⟩, ⟨1, 4⟩]
    (by simp [ACell.Pos]) (fun c => if c.e0 = 12 then 2 else if c.e1 = 4 then 1 else 0) (by
      intro c hc
      simp only [List.mem_cons, List.not_mem_nil, or_false] at hc
      rcases hc with rfl | rfl | rfl
      · norm_num
      · refine ⟨by norm_num, by norm_num, fun j hj => ?_⟩
        norm_num at hj
        interval_cases j <;> norm_num
      · refine ⟨by norm_num, by norm_num, fun j hj => ?_⟩
        norm_num at hj
        subst hj; norm_num)
  refine ⟨s, ?_⟩
  rw [hs]
  norm_num [List.flatMap_cons, List.replicate]

end PiBem.App
