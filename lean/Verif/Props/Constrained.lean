import Verif.Bem.Constrained
import Mathlib.Tactic.FinCases

/-!
# C22, C23, C24, C34: constrained operators
-/

namespace PiBem.Bem

variable {R : Type} {n : ℕ}

/-! ## Folds that update one entry at a time -/

theorem foldl_pointwise (f : (Fin n → R) → Fin n → Fin n → R) (g : Fin n → R → R)
    (hf : ∀ d i j, f d i j = if j = i then g i (d i) else d j) (l : List (Fin n)) (hl : l.Nodup) (d : Fin n → R)
    (j : Fin n) : l.foldl f d j = if j ∈ l then g j (d j) else d j := by
  induction l generalizing d with
  | nil => simp
  | cons a t ih =>
    rw [List.nodup_cons] at hl
    rw [List.foldl_cons, ih hl.2, hf]
    by_cases h1 : j ∈ t
    · have : j ≠ a := by rintro rfl; exact hl.1 h1
      simp [h1, this]
    · by_cases h2 : j = a
      · subst h2; simp [h1]
      · simp [h1, h2]

theorem foldl_pointwise_all (f : (Fin n → R) → Fin n → Fin n → R) (g : Fin n → R → R)
    (hf : ∀ d i j, f d i j = if j = i then g i (d i) else d j) (d : Fin n → R) (j : Fin n) :
    (List.finRange n).foldl f d j = g j (d j) := by
  rw [foldl_pointwise f g hf _ (List.nodup_finRange n)]
  simp

variable [CommRing R]

theorem entries_fold (entries : List (Fin n × R)) (x d : Fin n → R) (i j : Fin n) :
    entries.foldl (fun d e => Function.update d i (d i - e.2 * x e.1)) d j =
      if j = i then d i - (entries.map (fun e => e.2 * x e.1)).sum else d j := by
  induction entries generalizing d with
  | nil => simp only [List.foldl_nil, List.map_nil, List.sum_nil, sub_zero]; split_ifs with h <;> simp [h]
  | cons e t ih =>
    rw [List.foldl_cons, ih]
    by_cases h : j = i
    · subst h; simp only [if_true, Function.update_self, List.map_cons, List.sum_cons]; ring
    · simp [h]

/-- The specification of one row: the constraint for constrained indices, the equation of the matrix for the others. -/
def rowValue (A : (Fin n → R) → Fin n → R) (c : Constraints R n) (x : Fin n → R) (i : Fin n) : R :=
  match c i with
  | some (entries, _) => x i - (entries.map (fun e => e.2 * x e.1)).sum
  | none => A x i

theorem vmultLocal_eq (A : (Fin n → R) → Fin n → R) (c : Constraints R n) (own : Fin n → ℕ) (k : ℕ)
    (x : Fin n → R) (i : Fin n) :
    vmultLocal A c own k x i = if own i = k then rowValue A c x i else 0 := by
  unfold vmultLocal
  rw [foldl_pointwise_all (vmultStep c own k x)
    (fun i d => match c i with
      | some (entries, _) => if own i = k then x i - (entries.map (fun e => e.2 * x e.1)).sum else d
      | none => d)]
  · unfold rowValue
    cases h : c i with
    | none => rfl
    | some e => by_cases hk : own i = k <;> simp [hk]
  · intro d i j
    unfold vmultStep
    cases h : c i with
    | none => by_cases hj : j = i <;> simp [hj]
    | some e =>
      by_cases hk : own i = k
      · simp only [hk, if_true, entries_fold, Function.update_self]
        by_cases hj : j = i <;> simp [hj]
      · simp only [hk, if_false]
        by_cases hj : j = i <;> simp [hj]

theorem constrainedVmult_eq (procs : ℕ) (own : Fin n → ℕ) (A : (Fin n → R) → Fin n → R) (c : Constraints R n)
    (x : Fin n → R) (i : Fin n) : constrainedVmult procs own A c x i = rowValue A c x i := by
  unfold constrainedVmult compressAdd
  simp only []
  rw [vmultLocal_eq, if_pos rfl, Finset.sum_eq_zero, add_zero]
  intro k hk
  rw [vmultLocal_eq, if_neg]
  intro h
  exact (Finset.mem_erase.mp hk).1 h.symm

omit [CommRing R] in
theorem distributeRhs_eq (c : Constraints R n) (b : Fin n → R) (i : Fin n) :
    distributeRhs c b i = match c i with | some (_, g) => g | none => b i := by
  unfold distributeRhs
  rw [foldl_pointwise_all _ (fun i d => match c i with | some (_, g) => g | none => d)]
  intro d i j
  by_cases h : j = i
  · subst h; simp; cases c j <;> rfl
  · simp [h]

/-! ## C22, C23 -/

/-- **C22**. For every number of processes and partition, a vector solves the constrained system iff it satisfies all
the constraints `x_i = Σ c_ij x_j + g_i` and all the unconstrained equations `(A x)_i = b_i`. -/
theorem C22_constrained_solution (procs : ℕ) (own : Fin n → ℕ) (A : (Fin n → R) → Fin n → R)
    (c : Constraints R n) (x b : Fin n → R) :
    constrainedVmult procs own A c x = distributeRhs c b ↔
      (∀ i entries g, c i = some (entries, g) → x i = (entries.map (fun e => e.2 * x e.1)).sum + g) ∧
      (∀ i, c i = none → A x i = b i) := by
  constructor
  · intro h
    refine ⟨fun i entries g hc => ?_, fun i hc => ?_⟩
    · have := congrFun h i
      rw [constrainedVmult_eq, distributeRhs_eq, rowValue, hc] at this
      simp only at this
      rw [← this]; ring
    · have := congrFun h i
      rw [constrainedVmult_eq, distributeRhs_eq, rowValue, hc] at this
      exact this
  · rintro ⟨h1, h2⟩
    funext i
    rw [constrainedVmult_eq, distributeRhs_eq, rowValue]
    cases hc : c i with
    | none => exact h2 i hc
    | some e =>
      obtain ⟨entries, g⟩ := e
      simp only
      rw [h1 i entries g hc]; ring

/-- Non-vacuity of C22: `x = (3, 4)` solves the system with matrix the identity, second index constrained by
`x_1 = 1 * x_0 + 1`, right hand side `(3, 7)`. -/
example : constrainedVmult 2 (fun i => i.val) (fun x => x)
    (fun i : Fin 2 => if i = 1 then some ([(0, (1 : ℤ))], 1) else none) ![3, 4] =
    distributeRhs (fun i : Fin 2 => if i = 1 then some ([(0, (1 : ℤ))], 1) else none) ![3, 7] := by
  rw [C22_constrained_solution]
  refine ⟨?_, ?_⟩
  · intro i entries g h
    fin_cases i <;> simp_all
    obtain ⟨rfl, rfl⟩ := h
    simp
  · intro i h
    fin_cases i <;> simp_all

/-- **C23**. The result does not depend on the number of processes or on the partition, and the operator is linear
whenever the wrapped matrix is. -/
theorem C23_linear_and_partition_independent (A : (Fin n → R) → Fin n → R) (c : Constraints R n) :
    (∀ procs procs' own own' x, constrainedVmult procs own A c x = constrainedVmult procs' own' A c x) ∧
    ((∀ (a b : R) (x y : Fin n → R), A (a • x + b • y) = a • A x + b • A y) → ∀ procs own (a b : R) (x y : Fin n → R),
      constrainedVmult procs own A c (a • x + b • y) =
        a • constrainedVmult procs own A c x + b • constrainedVmult procs own A c y) := by
  refine ⟨fun procs procs' own own' x => ?_, fun hA procs own a b x y => ?_⟩
  · funext i; rw [constrainedVmult_eq, constrainedVmult_eq]
  · funext i
    show constrainedVmult procs own A c (a • x + b • y) i =
      a * constrainedVmult procs own A c x i + b * constrainedVmult procs own A c y i
    rw [constrainedVmult_eq, constrainedVmult_eq, constrainedVmult_eq]
    unfold rowValue
    cases hc : c i with
    | none => simp only [hA]; rfl
    | some e =>
      obtain ⟨entries, g⟩ := e
      have key : (entries.map (fun e => e.2 * (a • x + b • y) e.1)).sum =
          a * (entries.map (fun e => e.2 * x e.1)).sum + b * (entries.map (fun e => e.2 * y e.1)).sum := by
        clear hc
        induction entries with
        | nil => simp
        | cons e t ih =>
          rw [List.map_cons, List.sum_cons, ih, List.map_cons, List.sum_cons, List.map_cons, List.sum_cons]
          simp only [Pi.add_apply, Pi.smul_apply, smul_eq_mul]; ring
      simp only []
      rw [key]
      show a * x i + b * y i - _ = _
      ring

/-- Non-vacuity of C23: a linear matrix and a constraint whose row differs from the row of the matrix. -/
example : constrainedVmult 3 (fun i : Fin 2 => i.val) (fun x : Fin 2 → ℤ => fun _ => x 0 + x 1)
    (fun i => if i = 1 then some ([(0, 2)], 5) else none) ![1, 10] = ![11, 8] := by
  funext i
  rw [constrainedVmult_eq]
  fin_cases i <;> simp [rowValue]

/-! ## C24 -/

/-- Total coefficient of index `j` in the constraint of index `i`. -/
def coefOf (c : Constraints R n) (i j : Fin n) : R :=
  match c i with
  | some (entries, _) => (entries.map (fun e => if e.1 = j then e.2 else 0)).sum
  | none => 0

/-- Own contribution of an unconstrained index. -/
def ownPart (c : Constraints R n) (y : Fin n → R) (j : Fin n) : R := if c j = none then y j else 0

theorem tv_entries_fold (entries : List (Fin n × R)) (s : R) (d : Fin n → R) (j : Fin n) :
    entries.foldl (fun d e => Function.update d e.1 (d e.1 + s * e.2)) d j =
      d j + s * (entries.map (fun e => if e.1 = j then e.2 else 0)).sum := by
  induction entries generalizing d with
  | nil => simp
  | cons e t ih =>
    rw [List.foldl_cons, ih, List.map_cons, List.sum_cons]
    by_cases h : e.1 = j
    · subst h; simp only [Function.update_self, if_true]; ring
    · rw [Function.update_of_ne (Ne.symm h), if_neg h]; ring

theorem tvmultStep_eq (c : Constraints R n) (y d : Fin n → R) (i j : Fin n) :
    tvmultStep c y d i j = (if j = i then ownPart c y i else d j) + y i * coefOf c i j := by
  unfold tvmultStep ownPart coefOf
  cases h : c i with
  | none => by_cases hj : j = i <;> simp [hj]
  | some e =>
    simp only [tv_entries_fold]
    by_cases hj : j = i <;> simp [hj]

theorem tvmult_fold (c : Constraints R n) (y : Fin n → R) (l : List (Fin n)) (hl : l.Pairwise (· < ·))
    (d : Fin n → R) (j : Fin n) :
    l.foldl (tvmultStep c y) d j =
      if j ∈ l then ownPart c y j + (l.map (fun i => if j ≤ i then y i * coefOf c i j else 0)).sum
      else d j + (l.map (fun i => y i * coefOf c i j)).sum := by
  induction l generalizing d with
  | nil => simp
  | cons a t ih =>
    rw [List.pairwise_cons] at hl
    rw [List.foldl_cons, ih hl.2]
    by_cases h1 : j ∈ t
    · have hlt := hl.1 j h1
      have h2 : ¬ j ≤ a := not_le.mpr hlt
      simp [h1, h2]
    · by_cases h2 : j = a
      · subst h2
        simp only [h1, if_false, List.mem_cons, true_or, if_true, tvmultStep_eq, List.map_cons, le_refl,
          List.sum_cons]
        have : t.map (fun i => if j ≤ i then y i * coefOf c i j else 0) = t.map (fun i => y i * coefOf c i j) := by
          apply List.map_congr_left
          intro i hi
          rw [if_pos (le_of_lt (hl.1 i hi))]
        rw [this]; ring
      · simp only [h1, h2, if_false, List.mem_cons, or_self, tvmultStep_eq, List.map_cons, List.sum_cons]
        ring

theorem sum_finRange (f : Fin n → R) : ((List.finRange n).map f).sum = ∑ i, f i := by
  rw [← List.ofFn_eq_map, List.sum_ofFn]

/-- What `constraint_tvmult` computes: the contributions of constrained indices smaller than the target are lost
(overwritten when the loop reaches the target), and the result is added to the old content of `dst`. -/
theorem trueTvmult_eq (c : Constraints R n) (dst y : Fin n → R) (j : Fin n) :
    trueTvmult c dst y j = dst j + (ownPart c y j + ∑ i, if j ≤ i then y i * coefOf c i j else 0) := by
  unfold trueTvmult
  rw [tvmult_fold c y _ (List.sortedLT_finRange n).pairwise, if_pos (List.mem_finRange j), sum_finRange]

theorem true_entries_fold (entries : List (Fin n × R)) (x d : Fin n → R) (i j : Fin n) :
    entries.foldl (fun d e => Function.update d i (d i + x e.1 * e.2)) d j =
      if j = i then d i + (entries.map (fun e => x e.1 * e.2)).sum else d j := by
  induction entries generalizing d with
  | nil => simp only [List.foldl_nil, List.map_nil, List.sum_nil, add_zero]; split_ifs with h <;> simp [h]
  | cons e t ih =>
    rw [List.foldl_cons, ih]
    by_cases h : j = i
    · subst h; simp only [if_true, Function.update_self, List.map_cons, List.sum_cons]; ring
    · simp [h]

theorem entries_sum (entries : List (Fin n × R)) (x : Fin n → R) :
    (entries.map (fun e => x e.1 * e.2)).sum =
      ∑ j, x j * (entries.map (fun e => if e.1 = j then e.2 else 0)).sum := by
  induction entries with
  | nil => simp
  | cons e t ih =>
    simp only [List.map_cons, List.sum_cons, ih, mul_add, Finset.sum_add_distrib]
    congr 1
    simp

/-- What `constraint_vmult` computes. -/
theorem trueVmult_eq (c : Constraints R n) (dst x : Fin n → R) (i : Fin n) :
    trueVmult c dst x i = ownPart c x i + ∑ j, x j * coefOf c i j := by
  unfold trueVmult
  rw [foldl_pointwise_all _ (fun i _ => match c i with
      | some (entries, _) => (entries.map (fun e => x e.1 * e.2)).sum
      | none => x i)]
  · unfold ownPart coefOf
    cases h : c i with
    | none => simp
    | some e => simp [entries_sum]
  · intro d i j
    cases h : c i with
    | none =>
      by_cases hj : j = i
      · subst hj; simp
      · simp [hj]
    | some e =>
      simp only [true_entries_fold]
      by_cases hj : j = i <;> simp [hj]

/-- **C24** (refuted in general, exact condition). `constraint_tvmult` on a zero vector is the transpose of
`constraint_vmult` if and only if no constraint refers to an index with a larger number. -/
theorem C24_transpose_iff (c : Constraints R n) :
    (∀ x y : Fin n → R, ∑ i, trueVmult c x x i * y i = ∑ j, x j * trueTvmult c 0 y j) ↔
      ∀ i j, i < j → coefOf c i j = 0 := by
  have diff : ∀ x y : Fin n → R, ∑ i, trueVmult c x x i * y i - ∑ j, x j * trueTvmult c 0 y j =
      ∑ j, ∑ i, if i < j then x j * y i * coefOf c i j else 0 := by
    intro x y
    have e1 : ∑ i, trueVmult c x x i * y i =
        ∑ j, ownPart c x j * y j + ∑ j, ∑ i, x j * y i * coefOf c i j := by
      simp only [trueVmult_eq, add_mul, Finset.sum_add_distrib, Finset.sum_mul]
      congr 1
      rw [Finset.sum_comm]
      refine Finset.sum_congr rfl fun j _ => Finset.sum_congr rfl fun i _ => by ring
    have e2 : ∑ j, x j * trueTvmult c 0 y j =
        ∑ j, ownPart c x j * y j + ∑ j, ∑ i, if j ≤ i then x j * y i * coefOf c i j else 0 := by
      simp only [trueTvmult_eq, Pi.zero_apply, zero_add, mul_add, Finset.sum_add_distrib, Finset.mul_sum]
      congr 1
      · refine Finset.sum_congr rfl fun j _ => ?_
        unfold ownPart; split_ifs <;> ring
      · refine Finset.sum_congr rfl fun j _ => Finset.sum_congr rfl fun i _ => ?_
        split_ifs <;> ring
    rw [e1, e2, add_sub_add_left_eq_sub, ← Finset.sum_sub_distrib]
    refine Finset.sum_congr rfl fun j _ => ?_
    rw [← Finset.sum_sub_distrib]
    refine Finset.sum_congr rfl fun i _ => ?_
    by_cases h : i < j
    · simp [h, not_le.mpr h]
    · simp [h, not_lt.mp h]
  constructor
  · intro h i j hij
    have := diff (Pi.single j 1) (Pi.single i 1)
    rw [h, sub_self] at this
    rw [Finset.sum_eq_single j, Finset.sum_eq_single i] at this
    · simpa [hij] using this.symm
    · intro k _ hk; simp [hk]
    · simp
    · intro k _ hk; simp [hk]
    · simp
  · intro h x y
    have hz : (∑ j, ∑ i, if i < j then x j * y i * coefOf c i j else 0) = 0 := by
      refine Finset.sum_eq_zero fun j _ => Finset.sum_eq_zero fun i _ => ?_
      split_ifs with hij
      · rw [h i j hij, mul_zero]
      · rfl
    exact sub_eq_zero.mp ((diff x y).trans hz)

/-- **C24**, refutation: with `x_0 = x_1` (index 0 constrained to index 1) the transposed product is not the
transpose; numbering the two indices the other way round, it is. -/
theorem C24_transpose_refuted :
    (¬ ∀ x y : Fin 2 → ℤ, ∑ i, trueVmult (fun i => if i = 0 then some ([(1, 1)], 0) else none) x x i * y i =
      ∑ j, x j * trueTvmult (fun i => if i = 0 then some ([(1, 1)], 0) else none) 0 y j) ∧
    (∀ x y : Fin 2 → ℤ, ∑ i, trueVmult (fun i => if i = 1 then some ([(0, 1)], 0) else none) x x i * y i =
      ∑ j, x j * trueTvmult (fun i => if i = 1 then some ([(0, 1)], 0) else none) 0 y j) := by
  constructor
  · rw [C24_transpose_iff]
    intro h
    exact absurd (h 0 1 (by decide)) (by decide)
  · rw [C24_transpose_iff]
    decide

/-- The alternative operator accumulates on its output: calling `vmult` with an output vector that is not zero
returns the product plus the old content. -/
theorem C24_vmult_accumulates (A : (Fin n → R) → Fin n → R) (c : Constraints R n) (dst x : Fin n → R) (i : Fin n) :
    trueOperator A c dst x i = dst i + trueOperator A c 0 x i := by
  unfold trueOperator
  rw [trueTvmult_eq, trueTvmult_eq]
  simp

/-- What the alternative operator computes for an output vector that is not cleared and any matrix: the values of
constrained indices are first replaced by the combinations of the constraints, the matrix is applied, and the rows of
constrained indices are added to those they depend on (only the ones with a smaller number, see
`C24_transpose_iff`). -/
theorem C24_vmult_value (A : (Fin n → R) → Fin n → R) (c : Constraints R n) (dst x : Fin n → R) (j : Fin n) :
    trueOperator A c dst x j = dst j + ((if c j = none then
        A (fun i => match c i with | some (entries, _) => (entries.map (fun e => e.2 * x e.1)).sum | none => x i) j
        else 0) +
      ∑ i, if j ≤ i then
        A (fun i => match c i with | some (entries, _) => (entries.map (fun e => e.2 * x e.1)).sum | none => x i) i *
          coefOf c i j else 0) := by
  unfold trueOperator
  rw [trueTvmult_eq]
  have : trueVmult c x x = (fun i => match c i with
      | some (entries, _) => (entries.map (fun e => e.2 * x e.1)).sum | none => x i) := by
    funext i
    rw [trueVmult_eq]
    unfold ownPart coefOf
    cases h : c i with
    | none => simp
    | some e => simp [← entries_sum, mul_comm]
  rw [this]
  rfl

theorem finalise_entries (entries : List (Fin n × R)) (d : Fin n → R) (g : R) :
    entries.foldl (fun v e => v + d e.1 * e.2) g = (entries.map (fun e => e.2 * d e.1)).sum + g := by
  induction entries generalizing g with
  | nil => simp
  | cons e t ih => rw [List.foldl_cons, ih, List.map_cons, List.sum_cons]; ring

/-- `finalise`, for closed constraints (`close()` leaves only unconstrained indices in the entries). -/
theorem trueFinalise_eq (c : Constraints R n)
    (hclosed : ∀ i entries g, c i = some (entries, g) → ∀ e ∈ entries, c e.1 = none) (u : Fin n → R) (i : Fin n) :
    trueFinalise c u i = match c i with
      | some (entries, g) => (entries.map (fun e => e.2 * u e.1)).sum + g
      | none => u i := by
  have key : ∀ (l : List (Fin n)) (d : Fin n → R), (∀ j, c j = none → d j = u j) →
      (∀ j, c j = none → (l.foldl (fun d i => match c i with
        | some (entries, g) => Function.update d i (entries.foldl (fun v e => v + d e.1 * e.2) g)
        | none => d) d) j = u j) ∧
      ∀ j entries g, c j = some (entries, g) → (j ∈ l ∨ d j = (entries.map (fun e => e.2 * u e.1)).sum + g) →
        (l.foldl (fun d i => match c i with
        | some (entries, g) => Function.update d i (entries.foldl (fun v e => v + d e.1 * e.2) g)
        | none => d) d) j = (entries.map (fun e => e.2 * u e.1)).sum + g := by
    intro l
    induction l with
    | nil => intro d hd; refine ⟨fun j hj => hd j hj, fun j entries g hj h => ?_⟩; simpa using h
    | cons a t ih =>
      intro d hd
      rw [List.foldl_cons]
      cases ha : c a with
      | none =>
        obtain ⟨h1, h2⟩ := ih d hd
        refine ⟨h1, fun j entries g hj h => h2 j entries g hj ?_⟩
        rcases h with h | h
        · rcases List.mem_cons.mp h with rfl | h
          · rw [ha] at hj; exact absurd hj (by simp)
          · exact Or.inl h
        · exact Or.inr h
      | some e =>
        obtain ⟨ea, ga⟩ := e
        simp only []
        have hv : ea.foldl (fun v e => v + d e.1 * e.2) ga = (ea.map (fun e => e.2 * u e.1)).sum + ga := by
          rw [finalise_entries]
          congr 2
          apply List.map_congr_left
          intro e he
          rw [hd _ (hclosed a ea ga ha e he)]
        obtain ⟨h1, h2⟩ := ih (Function.update d a (ea.foldl (fun v e => v + d e.1 * e.2) ga)) (by
          intro j hj
          rw [Function.update_of_ne (by rintro rfl; rw [ha] at hj; exact absurd hj (by simp))]
          exact hd j hj)
        refine ⟨h1, fun j entries g hj h => h2 j entries g hj ?_⟩
        by_cases hja : j = a
        · subst hja
          rw [ha] at hj
          obtain ⟨rfl, rfl⟩ := Prod.mk.inj (Option.some.inj hj)
          exact Or.inr (by rw [Function.update_self, hv])
        · rw [Function.update_of_ne hja]
          rcases h with h | h
          · exact Or.inl ((List.mem_cons.mp h).resolve_left hja)
          · exact Or.inr h
  obtain ⟨h1, h2⟩ := key (List.finRange n) u (fun _ _ => rfl)
  unfold trueFinalise
  cases h : c i with
  | none => exact h1 i h
  | some e => exact h2 i e.1 e.2 h (Or.inl (List.mem_finRange i))

/-- **C24**, what solving with the alternative operator gives. For closed constraints that refer only to smaller
indices and a linear matrix: `x` solves `vmult x = distribute_rhs b` if and only if the finalised vector `u` satisfies
the condensed equations, that is, for every unconstrained index `j` the residual of row `j` plus the residuals of the
constrained rows weighted with their coefficient of `j` vanish; and `u` satisfies every constraint. -/
theorem C24_condensed_solution (A : (Fin n → R) → Fin n → R)
    (hA : ∀ x y : Fin n → R, A (x + y) = A x + A y) (hneg : ∀ x : Fin n → R, A (-x) = - A x) (c : Constraints R n)
    (hclosed : ∀ i entries g, c i = some (entries, g) → ∀ e ∈ entries, c e.1 = none)
    (hord : ∀ i entries g, c i = some (entries, g) → ∀ e ∈ entries, e.1 < i) (x b : Fin n → R) :
    (trueOperator A c 0 x = trueDistributeRhs A c b ↔
      ∀ j, c j = none →
        (A (trueFinalise c x) j - b j) + ∑ i, (A (trueFinalise c x) i - b i) * coefOf c i j = 0) ∧
    (∀ i entries g, c i = some (entries, g) →
      trueFinalise c x i = (entries.map (fun e => e.2 * trueFinalise c x e.1)).sum + g) ∧
    (∀ i, c i = none → trueFinalise c x i = x i) := by
  have hfin := trueFinalise_eq c hclosed x
  have hcoef : ∀ i j, ¬ j ≤ i → coefOf c i j = 0 := by
    intro i j hij
    unfold coefOf
    cases h : c i with
    | none => rfl
    | some e =>
      apply List.sum_eq_zero
      intro v hv
      obtain ⟨e', he', rfl⟩ := List.mem_map.mp hv
      rw [if_neg]
      rintro rfl
      exact hij (hord i e.1 e.2 h e' he').le
  have hcoefc : ∀ i j, c j ≠ none → coefOf c i j = 0 := by
    intro i j hj
    unfold coefOf
    cases h : c i with
    | none => rfl
    | some e =>
      apply List.sum_eq_zero
      intro v hv
      obtain ⟨e', he', rfl⟩ := List.mem_map.mp hv
      rw [if_neg]
      rintro rfl
      exact hj (hclosed i e.1 e.2 h e' he')
  have hall : ∀ (y : Fin n → R) (j : Fin n), (∑ i, if j ≤ i then y i * coefOf c i j else 0) =
      ∑ i, y i * coefOf c i j := by
    intro y j
    refine Finset.sum_congr rfl fun i _ => ?_
    split_ifs with h
    · rfl
    · rw [hcoef i j h, mul_zero]
  refine ⟨?_, ?_, ?_⟩
  · have hu : trueFinalise c x = trueVmult c x x - (fun i => - (match c i with | some (_, g) => g | none => 0)) := by
      funext i
      rw [hfin i, Pi.sub_apply, trueVmult_eq]
      unfold ownPart coefOf
      cases h : c i with
      | none => simp
      | some e => simp [← entries_sum, mul_comm]
    have hAu : ∀ i, A (trueFinalise c x) i = A (trueVmult c x x) i -
        A (fun i => - (match c i with | some (_, g) => g | none => 0)) i := by
      intro i
      rw [hu, sub_eq_add_neg, hA, hneg, Pi.add_apply, Pi.neg_apply, ← sub_eq_add_neg]
    have hrow : ∀ j, trueOperator A c 0 x j - trueDistributeRhs A c b j =
        ownPart c (fun i => A (trueFinalise c x) i - b i) j +
          ∑ i, (A (trueFinalise c x) i - b i) * coefOf c i j := by
      intro j
      have hd : trueDistributeRhs A c b = trueTvmult c (fun _ => 0)
          (fun i => b i + A (fun i => - (match c i with | some (_, g) => g | none => 0)) i) := rfl
      unfold trueOperator
      rw [hd, trueTvmult_eq, trueTvmult_eq, hall, hall]
      simp only [Pi.zero_apply, zero_add]
      have e1 : ∑ i, (A (trueFinalise c x) i - b i) * coefOf c i j =
          ∑ i, A (trueVmult c x x) i * coefOf c i j -
          ∑ i, (b i + A (fun i => - (match c i with | some (_, g) => g | none => 0)) i) * coefOf c i j := by
        rw [← Finset.sum_sub_distrib]
        refine Finset.sum_congr rfl fun i _ => ?_
        rw [hAu]; ring
      rw [e1]
      unfold ownPart
      by_cases h : c j = none
      · simp only [h, if_true, hAu]; ring
      · simp only [h, if_false]; ring
    constructor
    · intro h j hj
      have := hrow j
      rw [h, sub_self] at this
      rw [this]
      unfold ownPart
      rw [if_pos hj]
    · intro h
      funext j
      rw [← sub_eq_zero, hrow]
      by_cases hj : c j = none
      · rw [← h j hj]; unfold ownPart; rw [if_pos hj]
      · unfold ownPart
        rw [if_neg hj, Finset.sum_eq_zero, add_zero]
        intro i _
        rw [hcoefc i j hj, mul_zero]
  · intro i entries g h
    rw [hfin i, h]
    simp only []
    congr 2
    apply List.map_congr_left
    intro e he
    rw [hfin e.1, hclosed i entries g h e he]
  · intro i h
    rw [hfin i, h]

/-- Non-vacuity: index 1 constrained by `x_1 = 2 x_0 + 1`, matrix with rows `(1, 1)` and `(0, 3)`, right hand side
`(1, 3)`: `x_0 = 0` (the value of the constrained entry does not matter) solves the system, and `u = (0, 1)`. -/
example : trueOperator (R := ℤ) (n := 2) (fun x => ![x 0 + x 1, 3 * x 1])
    (fun i => if i = 1 then some ([(0, 2)], 1) else none) 0 ![0, 77] =
    trueDistributeRhs (fun x => ![x 0 + x 1, 3 * x 1])
      (fun i => if i = 1 then some ([(0, 2)], 1) else none) ![1, 3] := by
  decide

/-! ## C34 -/

theorem prec_fold (entries : List (Fin n × R)) (hnd : (entries.map Prod.fst).Nodup) (r : Fin n → R) (j : Fin n) :
    entries.foldl (fun r e => Function.update r e.1 e.2) r j =
      if j ∈ entries.map Prod.fst then (entries.map (fun e => if e.1 = j then e.2 else 0)).sum else r j := by
  induction entries generalizing r with
  | nil => simp
  | cons e t ih =>
    rw [List.map_cons, List.nodup_cons] at hnd
    rw [List.foldl_cons, ih hnd.2]
    by_cases h1 : j ∈ t.map Prod.fst
    · have : e.1 ≠ j := by rintro rfl; exact hnd.1 h1
      simp only [h1, if_true, List.map_cons, List.mem_cons, or_true, List.sum_cons, if_neg this, zero_add]
    · by_cases h2 : j = e.1
      · subst h2
        have hz : (t.map (fun e' : Fin n × R => if e'.1 = e.1 then e'.2 else 0)).sum = 0 := by
          apply List.sum_eq_zero
          intro v hv
          obtain ⟨e', he', rfl⟩ := List.mem_map.mp hv
          rw [if_neg]
          intro hc
          exact h1 (hc ▸ List.mem_map_of_mem he')
        simp [h1, hz]
      · have h2' : e.1 ≠ j := fun h => h2 h.symm
        rw [if_neg h1, Function.update_of_ne h2, if_neg]
        simp only [List.map_cons, List.mem_cons, not_or]
        exact ⟨h2, h1⟩

/-- **C34** (refuted, exact relation). In the row of a constrained index (entries with distinct indices, none the
index itself) the off-diagonal entries of the preconditioner are the opposite of those of the constrained
operator: rows agree iff all coefficients satisfy `a = -a`. -/
theorem C34_constrained_rows (procs : ℕ) (own : Fin n → ℕ) (A : (Fin n → R) → Fin n → R) (c : Constraints R n)
    (pat : Fin n → Fin n → Bool) (init : Fin n → Fin n → R) (dirichlet : Fin n → Bool) (alpha : Fin n → R)
    (i : Fin n) (entries : List (Fin n × R)) (g : R) (hc : c i = some (entries, g))
    (hnd : (entries.map Prod.fst).Nodup) (hself : i ∉ entries.map Prod.fst) (j : Fin n) :
    (j = i → precRow c pat init dirichlet alpha i j = 1 ∧
      constrainedVmult procs own A c (Pi.single j 1) i = 1) ∧
    (j ≠ i → precRow c pat init dirichlet alpha i j = coefOf c i j ∧
      constrainedVmult procs own A c (Pi.single j 1) i = - coefOf c i j) := by
  have hp : precRow c pat init dirichlet alpha i j = if j = i then 1 else coefOf c i j := by
    unfold precRow coefOf
    rw [hc]
    simp only [reduceCtorEq, and_false, if_false, add_zero, Function.update_eq_self]
    rw [prec_fold _ hnd]
    by_cases hj : j = i
    · subst hj; simp [hself]
    · rw [if_neg hj]
      split_ifs with hm
      · rfl
      · rw [Function.update_of_ne hj]
        symm
        apply List.sum_eq_zero
        intro v hv
        obtain ⟨e', he', rfl⟩ := List.mem_map.mp hv
        rw [if_neg]
        intro hcx
        exact hm (hcx ▸ List.mem_map_of_mem he')
  have ho : constrainedVmult procs own A c (Pi.single j 1) i = (if j = i then 1 else 0) - coefOf c i j := by
    rw [constrainedVmult_eq]
    unfold rowValue coefOf
    rw [hc]
    simp only
    congr 1
    · by_cases hj : j = i
      · subst hj; simp
      · simp [hj, Ne.symm hj]
    · congr 1
      apply List.map_congr_left
      intro e _
      by_cases he : e.1 = j
      · rw [he, Pi.single_eq_same, if_pos rfl, mul_one]
      · rw [Pi.single_eq_of_ne he, if_neg he, mul_zero]
  constructor
  · intro hj
    subst hj
    refine ⟨by rw [hp, if_pos rfl], ?_⟩
    rw [ho, if_pos rfl]
    have : coefOf c j j = 0 := by
      unfold coefOf
      rw [hc]
      apply List.sum_eq_zero
      intro v hv
      obtain ⟨e', he', rfl⟩ := List.mem_map.mp hv
      rw [if_neg]
      intro hcx
      exact hself (hcx ▸ List.mem_map_of_mem he')
    rw [this, sub_zero]
  · intro hj
    exact ⟨by rw [hp, if_neg hj], by rw [ho, if_neg hj, zero_sub]⟩

/-- **C34**, refutation on the constraint used for double Neumann nodes (`x_1 = x_0`). -/
theorem C34_refuted :
    precRow (fun i : Fin 2 => if i = 1 then some ([(0, (1 : ℤ))], 0) else none) (fun _ _ => true) (fun _ _ => 0)
      (fun _ => false) (fun _ => 1) 1 0 ≠
    constrainedVmult 1 (fun _ => 0) (fun x => x)
      (fun i : Fin 2 => if i = 1 then some ([(0, (1 : ℤ))], 0) else none) (Pi.single 0 1) 1 := by
  decide

omit [CommRing R] in
theorem pattern_fold (pat : Fin n → Bool) (init : Fin n → R) (l : List (Fin n)) (r : Fin n → R) (j : Fin n) :
    l.foldl (fun r j => if pat j then Function.update r j (init j) else r) r j =
      if j ∈ l ∧ pat j = true then init j else r j := by
  induction l generalizing r with
  | nil => simp
  | cons a l ih =>
    rw [List.foldl_cons, ih]
    by_cases hj : j ∈ l ∧ pat j = true
    · rw [if_pos hj, if_pos ⟨List.mem_cons_of_mem _ hj.1, hj.2⟩]
    · rw [if_neg hj]
      by_cases ha : j = a
      · subst ha
        by_cases hp : pat j = true <;> simp [hp]
      · by_cases hp : pat a = true <;> simp [hp, ha, hj]

/-- **C34**, unconstrained rows. The row of an unconstrained index is the near-field row on the sparsity pattern, plus
`alpha` on the diagonal exactly if the index is not a Dirichlet node. So, when the near-field entries are those of the
system operator, `-D_ij` in Dirichlet columns and `N_ij` in the others, the row is that of the operator on the
pattern. -/
theorem C34_unconstrained_rows (c : Constraints R n) (pat : Fin n → Fin n → Bool) (N D : Fin n → Fin n → R)
    (dirichlet : Fin n → Bool) (alpha : Fin n → R) (i : Fin n) (hc : c i = none) (hd : pat i i = true) (j : Fin n) :
    precRow c pat (fun i j => if dirichlet j then - D i j else N i j) dirichlet alpha i j =
      if pat i j then
        (if dirichlet j then - D i j else N i j + if i = j then alpha i else 0)
      else 0 := by
  unfold precRow
  rw [hc]
  by_cases hj : j = i
  · subst hj
    rw [Function.update_self]
    simp only
    rw [pattern_fold (pat j) (fun k => if dirichlet k then - D j k else N j k)]
    by_cases h : dirichlet j = true <;> simp [hd, h]
  · rw [Function.update_of_ne hj]
    simp only
    rw [pattern_fold (pat i) (fun k => if dirichlet k then - D i k else N i k)]
    simp [Ne.symm hj]

example : precRow (R := ℤ) (n := 3) (fun _ => none) (fun i j => decide (i = j ∨ j = 0))
    (fun i j => if j = 0 then -((10 * i.val + j.val : ℕ) : ℤ) else (100 * i.val + j.val : ℕ)) (fun j => decide (j = 0)) (fun _ => 7) 1 1 = 108 := by
  decide

end PiBem.Bem
