import Verif.App.NurbsCache
import Mathlib.Data.Nat.Digits.Lemmas
import Mathlib.Tactic.Linarith
import Mathlib.Tactic.IntervalCases
import Mathlib.Data.List.TakeWhile
import Mathlib.Tactic.FinCases

/-!
# C41: cached projections
-/

namespace PiBem.App

theorem intDigits_inj {n m : ℕ} (h : intDigits n = intDigits m) : n = m := by
  unfold intDigits at h
  split_ifs at h with h1 h2 h2
  · omega
  · have := congrArg List.reverse h
    rw [List.reverse_reverse] at this
    have l := Nat.getLast_digit_ne_zero 10 h2
    simp [← this] at l
  · have := congrArg List.reverse h
    rw [List.reverse_reverse] at this
    have l := Nat.getLast_digit_ne_zero 10 h1
    simp [this] at l
  · exact Nat.digits_inj_iff.1 (List.reverse_injective h)

theorem sixDigits_inj {n m : ℕ} (hn : n < 10 ^ 6) (hm : m < 10 ^ 6) (h : sixDigits n = sixDigits m) : n = m := by
  simp [sixDigits, List.range_succ] at h
  omega

theorem digit_inj : Function.Injective Sym.digit := fun a b h => by cases h; rfl

theorem sixDigits_length (n : ℕ) : (sixDigits n).length = 6 := by simp [sixDigits]

/-- Decoding: a block ends six characters after its first point. -/
theorem block_inj {s s' : List Sym} {f f' rest rest' : List Sym} (hs : Sym.dot ∉ s) (hs' : Sym.dot ∉ s')
    (hf : f.length = f'.length) (h : s ++ Sym.dot :: f ++ rest = s' ++ Sym.dot :: f' ++ rest') :
    s = s' ∧ f = f' ∧ rest = rest' := by
  induction s generalizing s' with
  | nil =>
    cases s' with
    | nil =>
      simp only [List.nil_append, List.cons_append, List.cons.injEq, true_and] at h
      obtain ⟨h1, h2⟩ := List.append_inj h hf
      exact ⟨rfl, h1, h2⟩
    | cons a t =>
      simp only [List.nil_append, List.cons_append, List.cons.injEq] at h
      exact absurd (by simp [← h.1]) hs'
  | cons a t ih =>
    cases s' with
    | nil =>
      simp only [List.nil_append, List.cons_append, List.cons.injEq] at h
      exact absurd (by simp [h.1]) hs
    | cons a' t' =>
      simp only [List.cons_append, List.cons.injEq] at h
      obtain ⟨h1, h2⟩ := h
      obtain ⟨e1, e2, e3⟩ := ih (fun h => hs (List.mem_cons_of_mem _ h)) (fun h => hs' (List.mem_cons_of_mem _ h))
        (by simpa using h2)
      exact ⟨by rw [h1, e1], e2, e3⟩

theorem toString6_append_inj {x y : ℚ} {rest rest' : List Sym}
    (h : toString6 x ++ rest = toString6 y ++ rest') :
    (x < 0 ↔ y < 0) ∧ roundHalfEven (|x| * 10 ^ 6) = roundHalfEven (|y| * 10 ^ 6) ∧ rest = rest' := by
  unfold toString6 at h
  dsimp only at h
  generalize roundHalfEven (|x| * 10 ^ 6) = n at *
  generalize roundHalfEven (|y| * 10 ^ 6) = m at *
  have hnd : ∀ (z : ℚ) (k : ℕ), Sym.dot ∉ (if z < 0 then [Sym.minus] else []) ++ (intDigits k).map Sym.digit := by
    intro z k
    split_ifs <;> simp
  obtain ⟨h1, h2, h3⟩ := block_inj (hnd x _) (hnd y _) (by simp [sixDigits_length]) h
  have hsign : (x < 0 ↔ y < 0) ∧ (intDigits (n / 10 ^ 6)).map Sym.digit = (intDigits (m / 10 ^ 6)).map Sym.digit := by
    have hh : ∀ k, ∃ d t, (intDigits k).map Sym.digit = Sym.digit d :: t := by
      intro k
      cases hk : intDigits k with
      | nil =>
        exfalso
        unfold intDigits at hk
        split_ifs at hk with h0
        rw [List.reverse_eq_nil_iff] at hk
        exact Nat.digits_ne_nil_iff_ne_zero.2 h0 hk
      | cons d t => exact ⟨d, t.map Sym.digit, rfl⟩
    obtain ⟨d, t, e⟩ := hh (n / 10 ^ 6)
    obtain ⟨d', t', e'⟩ := hh (m / 10 ^ 6)
    rw [e, e'] at h1 ⊢
    split_ifs at h1 with a b b
    · simp only [List.cons_append, List.nil_append, List.cons.injEq, true_and] at h1
      exact ⟨by simp [a, b], by rw [h1.1, h1.2]⟩
    · simp at h1
    · simp at h1
    · simp only [List.nil_append] at h1
      exact ⟨by simp [a, b], h1⟩
  have i1 : n / 10 ^ 6 = m / 10 ^ 6 := intDigits_inj (List.map_injective_iff.2 digit_inj hsign.2)
  have i2 : n % 10 ^ 6 = m % 10 ^ 6 := sixDigits_inj (Nat.mod_lt _ (by norm_num)) (Nat.mod_lt _ (by norm_num))
    (List.map_injective_iff.2 digit_inj h2)
  exact ⟨hsign.1, by omega, h3⟩

theorem round_close (y : ℚ) (hy : 0 ≤ y) : |y - roundHalfEven y| ≤ 1 / 2 := by
  have h1 := Nat.floor_le hy
  have h2 := Nat.lt_floor_add_one y
  unfold roundHalfEven
  dsimp only
  rw [abs_le]
  split_ifs <;> push_cast <;> constructor <;> linarith

/-- Two coordinates printed in the same way differ by at most `10^-6`. -/
theorem close_of_round {x y : ℚ} (hs : x < 0 ↔ y < 0)
    (hr : roundHalfEven (|x| * 10 ^ 6) = roundHalfEven (|y| * 10 ^ 6)) : |x - y| ≤ 1 / 10 ^ 6 := by
  have h1 := round_close (|x| * 10 ^ 6) (by positivity)
  have h2 := round_close (|y| * 10 ^ 6) (by positivity)
  rw [hr] at h1
  have h3 : |(|x| * 10 ^ 6) - (|y| * 10 ^ 6)| ≤ 1 := by
    rw [abs_le] at h1 h2 ⊢
    constructor <;> linarith [h1.1, h1.2, h2.1, h2.2]
  have e : |x - y| = |(|x| - |y|)| := by
    rcases lt_or_ge x 0 with hx | hx
    · have hy := hs.1 hx
      rw [abs_of_neg hx, abs_of_neg hy, ← abs_neg (x - y)]
      congr 1; ring
    · have hy : 0 ≤ y := not_lt.1 (fun h => absurd (hs.2 h) (not_lt.2 hx))
      rw [abs_of_nonneg hx, abs_of_nonneg hy]
  rw [e]
  have h4 : |(|x| - |y|)| * 10 ^ 6 ≤ 1 := by
    have : (|x| - |y|) * 10 ^ 6 = (|x| * 10 ^ 6) - (|y| * 10 ^ 6) := by ring
    rw [← this, abs_mul] at h3
    simpa using h3
  rw [le_div_iff₀ (by norm_num)]
  exact h4

/-- **C41**, the strings. The three numbers are concatenated without separators, but two points have the same string if
and only if the three coordinates are printed in the same way; then they differ by at most `10^-6`. -/
theorem C41_same_string (p q : SPoint) :
    (pointToString p = pointToString q ↔ ∀ i, toString6 (p i) = toString6 (q i)) ∧
    (pointToString p = pointToString q → ∀ i, |p i - q i| ≤ 1 / 10 ^ 6) := by
  have key : pointToString p = pointToString q → ∀ i, (p i < 0 ↔ q i < 0) ∧
      roundHalfEven (|p i| * 10 ^ 6) = roundHalfEven (|q i| * 10 ^ 6) := by
    intro h
    unfold pointToString at h
    rw [List.append_assoc, List.append_assoc] at h
    obtain ⟨a1, a2, a3⟩ := toString6_append_inj h
    obtain ⟨b1, b2, b3⟩ := toString6_append_inj a3
    obtain ⟨c1, c2, -⟩ := toString6_append_inj (x := p 2) (y := q 2) (rest := []) (rest' := []) (by simpa using b3)
    intro i
    fin_cases i
    · exact ⟨a1, a2⟩
    · exact ⟨b1, b2⟩
    · exact ⟨c1, c2⟩
  refine ⟨⟨fun h i => ?_, fun h => ?_⟩, fun h i => close_of_round (key h i).1 (key h i).2⟩
  · obtain ⟨h1, h2⟩ := key h i
    unfold toString6
    rw [h2]
    simp only [h1]
  · unfold pointToString
    rw [h 0, h 1, h 2]

variable {U : Type} (hash : List Sym → ℕ) (proj : SPoint → U)

theorem cacheAfter_eq (l : List SPoint) (k : ℕ) :
    cacheAfter hash proj l k = (l.find? (fun q => decide (hash (pointToString q) = k))).map proj := by
  have gen : ∀ (l : List SPoint) (c : ℕ → Option U),
      l.foldl (fun c p => (pullBack hash proj c p).1) c k =
        (c k).or ((l.find? (fun q => decide (hash (pointToString q) = k))).map proj) := by
    intro l
    induction l with
    | nil => intro c; simp
    | cons p t ih =>
      intro c
      rw [List.foldl_cons, ih]
      unfold pullBack
      by_cases hk : hash (pointToString p) = k
      · subst hk
        cases hc : c (hash (pointToString p)) with
        | some u => simp [hc]
        | none => simp
      · rw [List.find?_cons_of_neg (by simpa using hk)]
        cases hc : c (hash (pointToString p)) with
        | some u => rfl
        | none =>
          simp only
          rw [Function.update_of_ne (Ne.symm hk)]
  unfold cacheAfter
  rw [gen]
  simp

/-- **C41**. For every history of calls, every hash function and every projection: a call returns the projection of the
first point of the history (the point itself if there is none) whose string has the same hash. So a call with a
point for which no other point with the same hash was queried before returns its projection, and if the hash has no
collision on the strings of the history the result is always the projection of a queried point at distance at most
`10^-6` in each coordinate. -/
theorem C41_history (l : List SPoint) (p : SPoint) :
    (∃ q, q ∈ l ++ [p] ∧ hash (pointToString q) = hash (pointToString p) ∧
      (pullBack hash proj (cacheAfter hash proj l) p).2 = proj q ∧
      ((∀ a ∈ l, hash (pointToString a) = hash (pointToString p) → pointToString a = pointToString p) →
        ∀ i, |q i - p i| ≤ 1 / 10 ^ 6)) ∧
    ((∀ q ∈ l, hash (pointToString q) = hash (pointToString p) → q = p) →
      (pullBack hash proj (cacheAfter hash proj l) p).2 = proj p) := by
  have main : ∃ q, q ∈ l ++ [p] ∧ hash (pointToString q) = hash (pointToString p) ∧
      (pullBack hash proj (cacheAfter hash proj l) p).2 = proj q := by
    unfold pullBack
    rw [cacheAfter_eq]
    cases hf : l.find? (fun q => decide (hash (pointToString q) = hash (pointToString p))) with
    | none => exact ⟨p, by simp, rfl, rfl⟩
    | some q =>
      have h1 := List.find?_some hf
      have h2 := List.mem_of_find?_eq_some hf
      exact ⟨q, by simp [h2], by simpa using h1, rfl⟩
  obtain ⟨q, h1, h2, h3⟩ := main
  refine ⟨⟨q, h1, h2, h3, fun hcol => ?_⟩, fun hcol => ?_⟩
  · rcases List.mem_append.1 h1 with h | h
    · exact (C41_same_string q p).2 (hcol q h h2)
    · rw [List.mem_singleton] at h
      subst h
      intro i; simp
  · rcases List.mem_append.1 h1 with h | h
    · rw [h3, hcol q h h2]
    · rw [List.mem_singleton] at h
      rw [h3, h]

/-- **C41**, refutation: for every hash there are two points such that the second call returns the projection of the
first point and not of the second. -/
theorem C41_refuted : ∃ (p q : SPoint), p ≠ q ∧ ∀ (hash : List Sym → ℕ) (proj : SPoint → SPoint),
    (pullBack hash proj (cacheAfter hash proj [p]) q).2 = proj p := by
  refine ⟨fun _ => 0, fun _ => 1 / 10 ^ 7, fun h => ?_, fun hash proj => ?_⟩
  · have := congrFun h 0
    norm_num at this
  · have hs : pointToString (fun _ => 0) = pointToString (fun _ => 1 / 10 ^ 7) := by
      rw [(C41_same_string _ _).1]
      intro i
      unfold toString6 roundHalfEven
      have f0 : ⌊(|(0 : ℚ)| * 10 ^ 6)⌋₊ = 0 := by simp
      have f1 : ⌊(|(1 / 10 ^ 7 : ℚ)| * 10 ^ 6)⌋₊ = 0 := by
        rw [Nat.floor_eq_zero]; rw [abs_of_nonneg (by positivity)]; norm_num
      rw [f0, f1]
      rw [abs_of_nonneg (show (0 : ℚ) ≤ 1 / 10 ^ 7 by positivity)]
      norm_num
    unfold pullBack
    rw [cacheAfter_eq]
    have hfind : [(fun _ => 0 : SPoint)].find? (fun q => decide (hash (pointToString q) =
        hash (pointToString fun _ => 1 / 10 ^ 7))) = some (fun _ => 0) :=
      List.find?_cons_of_pos (by rw [hs]; simp)
    rw [hfind]
    rfl

end PiBem.App
