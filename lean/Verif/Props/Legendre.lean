import Verif.Legendre.Class
import Verif.Legendre.Correct

/-!
# C44: tabulated associated Legendre functions
-/

namespace PiBem.Legendre

theorem row_get (n m0 : ℕ) (c : List (ℕ × ℕ × ℕ)) (ps ds : List Prog) (h : checkRow n m0 c ps ds = true) (hm0 : m0 ≤ n + 1) :
    ∀ m, m0 ≤ m → m ≤ n → ∃ k r q p d, ps[m - m0]? = some p ∧ ds[m - m0]? = some d ∧
      checkVal n m k r q p = true ∧ checkDer n m k r q d = true ∧ checkEnd m k d = true := by
  induction c generalizing m0 ps ds with
  | nil =>
    intro m h1 h2
    cases ps <;> cases ds <;> simp [checkRow] at h
    omega
  | cons a c ih =>
    obtain ⟨k, r, q⟩ := a
    cases ps with
    | nil => cases ds <;> simp [checkRow] at h
    | cons p ps =>
      cases ds with
      | nil => simp [checkRow] at h
      | cons d ds =>
        simp only [checkRow, Bool.and_eq_true] at h
        obtain ⟨⟨⟨hv, hd⟩, he⟩, hr⟩ := h
        intro m h1 h2
        rcases Nat.eq_or_lt_of_le h1 with rfl | hlt
        · exact ⟨k, r, q, p, d, by simp, by simp, hv, hd, he⟩
        · obtain ⟨k', r', q', p', d', e1, e2, e3⟩ := ih (m0 + 1) ps ds hr (by omega) m (by omega) h2
          refine ⟨k', r', q', p', d', ?_, ?_, e3⟩
          · rw [show m - m0 = (m - (m0 + 1)) + 1 by omega, List.getElem?_cons_succ]; exact e1
          · rw [show m - m0 = (m - (m0 + 1)) + 1 by omega, List.getElem?_cons_succ]; exact e2

/-- All pointers are set, each to the function of its own degree and order. -/
theorem pointers_ok (n m : ℕ) (hn : n ≤ 20) (hm : m ≤ n) :
    pointer Table.valWires n m = some (some (n, m)) ∧ pointer Table.derWires n m = some (some (n, m)) := by
  have h : ∀ n : Fin 21, ∀ m : Fin 21, (m : ℕ) ≤ n →
      pointer Table.valWires n m = some (some (n.1, m.1)) ∧ pointer Table.derWires n m = some (some (n.1, m.1)) := by
    decide +kernel
  exact h ⟨n, by omega⟩ ⟨m, by omega⟩ hm

theorem functions (n m : ℕ) (hn : n ≤ 20) (hm : m ≤ n) : ∃ k r q p d,
    named Table.vals n m = some p ∧ named Table.ders n m = some d ∧
    checkVal n m k r q p = true ∧ checkDer n m k r q d = true ∧ checkEnd m k d = true := by
  obtain ⟨c, ps, ds, _, h2, h3, h4⟩ := Table.rows n (by omega)
  obtain ⟨k, r, q, p, d, e1, e2, e3⟩ := row_get n 0 c ps ds h4 (by omega) m (by omega) hm
  rw [Nat.sub_zero] at e1 e2
  exact ⟨k, r, q, p, d, by simp [named, h2, e1], by simp [named, h3, e2], e3⟩

/-- **C44**, values. For every degree `n ≤ 20`, order `m ≤ n` and argument in `[-1, 1]`, `GetAssLegFunSph` returns the
normalised associated Legendre function; for other degrees and orders the call is undefined. -/
theorem C44_values (n m : ℕ) (x : ℝ) :
    (n ≤ 20 → m ≤ n → -1 ≤ x → x ≤ 1 → getAssLegFunSph n m x = .val (assLeg n m x)) ∧
    (¬ (n ≤ 20 ∧ m ≤ n) → getAssLegFunSph n m x = .undef ∧ getAssLegFunSphDeriv n m x = .undef) := by
  constructor
  · intro hn hm h1 h2
    obtain ⟨k, r, q, p, d, e1, _, e3, _, _⟩ := functions n m hn hm
    simp only [getAssLegFunSph, callPtr, (pointers_ok n m hn hm).1, e1, checkVal_sound n m k r q p e3 x ⟨h1, h2⟩]
  · intro h
    have : ¬ (n < 21 ∧ m < n + 1) := by omega
    simp only [getAssLegFunSph, getAssLegFunSphDeriv, callPtr, pointer, if_neg this, and_self]

/-- **C44**, derivatives. For every degree `n ≤ 20`, order `m ≤ n` and argument in `(-1, 1)`, `GetAssLegFunSphDeriv` returns
the derivative of the normalised associated Legendre function. At the end points `±1` the result is not a number if and
only if `m = 1`. -/
theorem C44_derivatives (n m : ℕ) (hn : n ≤ 20) (hm : m ≤ n) :
    (∀ x : ℝ, -1 < x → x < 1 → ∃ v, getAssLegFunSphDeriv n m x = .val v ∧ HasDerivAt (assLeg n m) v x) ∧
    (∀ x : ℝ, x = 1 ∨ x = -1 → (getAssLegFunSphDeriv n m x = .nan ↔ m = 1)) := by
  obtain ⟨k, r, q, p, d, _, e2, _, e4, e5⟩ := functions n m hn hm
  constructor
  · intro x h1 h2
    obtain ⟨v, hv, hd⟩ := checkDer_sound n m k r q d e4 x ⟨h1, h2⟩
    refine ⟨v, ?_, hd⟩
    simp only [getAssLegFunSphDeriv, callPtr, (pointers_ok n m hn hm).2, e2, hv]
  · intro x hx
    rw [← checkEnd_sound m k d e5 x hx]
    simp only [getAssLegFunSphDeriv, callPtr, (pointers_ok n m hn hm).2, e2]
    cases runProg d x <;> simp

/-- **C44**, the loops: entry `i` of the output is the function of degree `m + i`, for `m ≤ m + i ≤ p`. -/
theorem C44_sequences (p m : ℕ) (hp : p ≤ 20) (x : ℝ) (h1 : -1 ≤ x) (h2 : x ≤ 1) :
    assLegFunSph p m x = (List.range (p + 1 - m)).map (fun i => (i, .val (assLeg (m + i) m x))) ∧
    (x ≠ -1 → x ≠ 1 → ∀ i < p + 1 - m, ∃ dv, (assLegFunSphDeriv p m x)[i]? =
      some (i, .val (assLeg (m + i) m x), .val dv) ∧ HasDerivAt (assLeg (m + i) m) dv x) := by
  constructor
  · unfold assLegFunSph
    apply List.map_congr_left
    intro i hi
    rw [List.mem_range] at hi
    rw [Nat.add_sub_cancel_left, (C44_values (m + i) m x).1 (by omega) (by omega) h1 h2]
  · intro h3 h4 i hi
    obtain ⟨v, hv, hd⟩ := (C44_derivatives (m + i) m (by omega) (by omega)).1 x (lt_of_le_of_ne h1 (Ne.symm h3))
      (lt_of_le_of_ne h2 h4)
    refine ⟨v, ?_, hd⟩
    unfold assLegFunSphDeriv
    rw [List.getElem?_map, List.getElem?_range hi]
    simp only [Option.map_some]
    rw [Nat.add_sub_cancel_left, hv, (C44_values (m + i) m x).1 (by omega) (by omega) h1 h2]

/-- Non-vacuity, and meaning of the specification on a case: `P_1^1` at `3/5` is `-(√2/2)(4/5)`. -/
example : getAssLegFunSph 1 1 (3 / 5) = .val (Real.sqrt (1 / 2) * -(4 / 5)) := by
  rw [(C44_values 1 1 (3 / 5)).1 (by norm_num) (by norm_num) (by norm_num) (by norm_num)]
  congr 1
  have e : legendreP 1 = Polynomial.X := by
    unfold legendreP
    simp only [Function.iterate_one, pow_one, Nat.factorial]
    rw [Polynomial.derivative_sub, Polynomial.derivative_X_pow]
    simp only [Polynomial.derivative_one, sub_zero]
    rw [← mul_assoc, ← Polynomial.C_mul]
    norm_num
  have s : Real.sqrt (16 / 25) = 4 / 5 := by
    rw [show (16 / 25 : ℝ) = (4 / 5) ^ 2 by norm_num]
    exact Real.sqrt_sq (by norm_num)
  unfold assLeg
  rw [e]
  norm_num [Nat.factorial, s]

end PiBem.Legendre
