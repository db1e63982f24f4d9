import Verif.App.Errors
import Mathlib.Algebra.Order.BigOperators.Ring.Finset
import Mathlib.Tactic.Ring
import Mathlib.Tactic.Linarith

/-!
# Error report (C69)
-/

noncomputable section

namespace PiBem.App

variable {E : ErrInput}

/-- `original_to_sub_wise` and `vec_original_to_sub_wise` are permutations (C35). -/
structure ErrInput.WF (E : ErrInput) : Prop where
  o2s : ∀ j < E.n, ∃ i < E.n, E.o2s i = j
  o2s_inj : ∀ i < E.n, ∀ i' < E.n, E.o2s i = E.o2s i' → i = i'
  vo2s : ∀ k < E.dim * E.n, E.vo2s k < E.dim * E.n
  vo2s_surj : ∀ k < E.dim * E.n, ∃ i < E.dim * E.n, E.vo2s i = k
  vo2s_inj : ∀ i < E.dim * E.n, ∀ i' < E.dim * E.n, E.vo2s i = E.vo2s i' → i = i'

/-! ## Lemmas -/

theorem foldl_update_at {α : Type} (l : List α) (key : α → ℕ) (val : α → ℝ) (a : α) (ha : a ∈ l)
    (hk : ∀ b ∈ l, key b = key a → b = a) (v : ℕ → ℝ) :
    l.foldl (fun v b => Function.update v (key b) (val b)) v (key a) = val a := by
  induction l using List.reverseRecOn generalizing v with
  | nil => simp at ha
  | append_singleton l b ih =>
    rw [List.foldl_append, List.foldl_cons, List.foldl_nil]
    by_cases hb : key b = key a
    · have := hk b (by simp) hb
      subst this; simp
    · rw [Function.update_of_ne (Ne.symm hb)]
      have : a ∈ l := by
        rw [List.mem_append, List.mem_singleton] at ha
        rcases ha with h | h
        · exact h
        · exact absurd (by rw [h]) hb
      exact ih this (fun c hc => hk c (by simp [hc])) v

theorem foldl_foldl {α β : Type} (l : List α) (m : α → List β) (f : (ℕ → ℝ) → α → β → ℕ → ℝ) (v : ℕ → ℝ) :
    l.foldl (fun v a => (m a).foldl (fun v b => f v a b) v) v
      = (l.flatMap fun a => (m a).map fun b => (a, b)).foldl (fun v p => f v p.1 p.2) v := by
  induction l generalizing v with
  | nil => rfl
  | cons a l ih =>
    rw [List.foldl_cons, ih, List.flatMap_cons, List.foldl_append, List.foldl_map]

theorem linfty_spec (m : ℕ) (v : ℕ → ℝ) :
    (∀ i < m, |v i| ≤ linfty m v) ∧ ((∃ i < m, linfty m v = |v i|) ∨ linfty m v = 0) ∧ 0 ≤ linfty m v := by
  unfold linfty
  induction m with
  | zero => simp
  | succ m ih =>
    rw [List.range_succ, List.foldl_append, List.foldl_cons, List.foldl_nil]
    obtain ⟨h1, h2, h3⟩ := ih
    refine ⟨fun i hi => ?_, ?_, le_max_of_le_left h3⟩
    · by_cases him : i = m
      · subst him; exact le_max_right _ _
      · exact le_max_of_le_left (h1 i (by omega))
    · rcases max_choice ((List.range m).foldl (fun x i => max x |v i|) 0) |v m| with h | h
      · rw [h]
        rcases h2 with ⟨i, hi, e⟩ | e
        · exact Or.inl ⟨i, by omega, e⟩
        · exact Or.inr e
      · exact Or.inl ⟨m, by omega, h⟩

theorem l2_eq (m : ℕ) (v : ℕ → ℝ) : l2 m v = Real.sqrt (∑ i ∈ Finset.range m, v i ^ 2) := by
  unfold l2
  congr 1
  induction m with
  | zero => simp
  | succ m ih =>
    rw [List.range_succ, List.foldl_append, List.foldl_cons, List.foldl_nil, ih, Finset.sum_range_succ]; ring

/-! ## C69 -/

/-- C69, potential: the vector written to the file is the solution minus the exact potential, at every dof. -/
theorem C69_phi (i : ℕ) (hi : i < E.n) : phiNodeError E i = E.phi i - E.pot i := by
  unfold phiNodeError
  have h := foldl_update_at (List.range E.n) (fun i => i) E.pot i (List.mem_range.mpr hi) (fun b _ h => h) (fun _ => 0)
  simp only at h ⊢
  rw [h]; ring

/-- C69, gradient: at the place of component `d` of dof `j` of the vector there is the component of the recovered gradient
minus that of `wind` at the support point of `j`. The place is the image of `d * n + i`, where `i` is the original number of
`j`. -/
theorem C69_grad (hE : E.WF) (d : ℕ) (hd : d < E.dim) (i : ℕ) (hi : i < E.n) :
    gradNodeError E (E.vo2s (d * E.n + i)) = E.grad (E.vo2s (d * E.n + i)) - E.wind (E.o2s i) d := by
  unfold gradNodeError
  have hlt : ∀ d < E.dim, ∀ i < E.n, d * E.n + i < E.dim * E.n := by
    intro d hd i hi
    calc d * E.n + i < d * E.n + E.n := by omega
      _ = (d + 1) * E.n := by ring
      _ ≤ E.dim * E.n := Nat.mul_le_mul_right _ hd
  have h := foldl_update_at ((List.range E.dim).flatMap fun a => (List.range E.n).map fun b => (a, b))
    (fun p => E.vo2s (p.1 * E.n + p.2)) (fun p => E.wind (E.o2s p.2) p.1) (d, i) (by simp [hd, hi]) (by
      rintro ⟨a, b⟩ hab he
      simp at hab
      have h1 := hE.vo2s_inj _ (hlt a hab.1 b hab.2) _ (hlt d hd i hi) he
      have hb : b = i := by
        have := congrArg (· % E.n) h1
        simpa [Nat.mul_comm _ E.n, Nat.mul_add_mod, Nat.mod_eq_of_lt hab.2, Nat.mod_eq_of_lt hi] using this
      subst hb
      have hn : 0 < E.n := by omega
      have : a = d := Nat.eq_of_mul_eq_mul_right hn (by omega)
      rw [this]) (fun _ => 0)
  have hff := foldl_foldl (List.range E.dim) (fun _ => List.range E.n)
    (fun v d i => Function.update v (E.vo2s (d * E.n + i)) (E.wind (E.o2s i) d)) (fun _ => 0)
  simp only at h hff ⊢
  rw [hff, h]; ring

/-- C69, normal derivative: at every dof `o2s i` there is the solution minus `wind` times the recovered normal. -/
theorem C69_dphi (hE : E.WF) (i : ℕ) (hi : i < E.n) :
    dphiNodeError E (E.o2s i) = E.dphi (E.o2s i)
      - ∑ d ∈ Finset.range E.dim, E.normals (E.vo2s (i + d * E.n)) * E.wind (E.o2s i) d := by
  unfold dphiNodeError
  have inner : ∀ (m : ℕ) (v : ℕ → ℝ) (i' j : ℕ), (List.range m).foldl (fun (v : ℕ → ℝ) d =>
      Function.update v (E.o2s i') (v (E.o2s i') + E.normals (E.vo2s (i' + d * E.n)) * E.wind (E.o2s i') d)) v j
      = v j + if E.o2s i' = j then ∑ d ∈ Finset.range m, E.normals (E.vo2s (i' + d * E.n)) * E.wind (E.o2s i') d else 0 := by
    intro m v i' j
    induction m with
    | zero => simp
    | succ m ih =>
      rw [List.range_succ, List.foldl_append, List.foldl_cons, List.foldl_nil]
      by_cases h : E.o2s i' = j
      · subst h
        simp only [if_true] at ih ⊢
        rw [Function.update_self, ih, Finset.sum_range_succ]; ring
      · rw [Function.update_of_ne (Ne.symm h), ih]; simp [h]
  have outer : ∀ (m : ℕ), m ≤ E.n → (List.range m).foldl (fun (v : ℕ → ℝ) i => (List.range E.dim).foldl (fun v d =>
      Function.update v (E.o2s i) (v (E.o2s i) + E.normals (E.vo2s (i + d * E.n)) * E.wind (E.o2s i) d)) v)
      (fun _ => 0) (E.o2s i)
      = if i < m then ∑ d ∈ Finset.range E.dim, E.normals (E.vo2s (i + d * E.n)) * E.wind (E.o2s i) d else 0 := by
    intro m hm
    induction m with
    | zero => simp
    | succ m ih =>
      rw [List.range_succ, List.foldl_append, List.foldl_cons, List.foldl_nil, inner, ih (by omega)]
      by_cases him : i = m
      · subst him; simp
      · have : ¬ E.o2s m = E.o2s i := fun e => him (hE.o2s_inj _ (by omega) _ hi e).symm
        rw [if_neg this, add_zero]
        exact if_congr (by omega) rfl rfl
  have := outer E.n le_rfl
  simp only [hi, if_true] at this
  simp only
  rw [this]; ring

/-- C69: the maxima printed for the normal derivative and for the gradient are the largest absolute values of the nodal
errors. -/
theorem C69_maxima (hn : 0 < E.n) (hdim : 0 < E.dim) :
    (∀ j < E.n, |dphiNodeError E j| ≤ (report E).dphiLinf) ∧ (∃ j < E.n, (report E).dphiLinf = |dphiNodeError E j|) ∧
    (∀ k < E.dim * E.n, |gradNodeError E k| ≤ (report E).gradLinf) ∧
    (∃ k < E.dim * E.n, (report E).gradLinf = |gradNodeError E k|) := by
  have key : ∀ m, 0 < m → ∀ v, ∃ i < m, linfty m v = |v i| := by
    intro m hm v
    obtain ⟨h1, h2, h3⟩ := linfty_spec m v
    rcases h2 with h | h
    · exact h
    · exact ⟨0, hm, by have := h1 0 hm; rw [h] at this ⊢; exact (le_antisymm this (abs_nonneg _)).symm⟩
  exact ⟨(linfty_spec _ _).1, key _ hn _, (linfty_spec _ _).1, key _ (Nat.mul_pos hdim hn) _⟩

/-- C69: the three `L_2` numbers are the norms of the error functions on the surface, by the quadrature. -/
theorem C69_l2 (hj : ∀ c < E.nCells, ∀ q < E.nq, 0 ≤ E.jxw c q) :
    (report E).phiL2 = Real.sqrt (∑ c ∈ Finset.range E.nCells, ∑ q ∈ Finset.range E.nq,
      (valueAt (E.basis c q) E.phi - E.potQ c q) ^ 2 * E.jxw c q) ∧
    (report E).gradL2 = Real.sqrt (∑ c ∈ Finset.range E.nCells, ∑ q ∈ Finset.range E.nq,
      (∑ d ∈ Finset.range E.dim, (valueAt (E.vbasis c q d) E.grad - E.windQ c q d) ^ 2) * E.jxw c q) ∧
    (report E).dphiL2 = Real.sqrt (∑ c ∈ Finset.range E.nCells, ∑ q ∈ Finset.range E.nq,
      (valueAt (E.basis c q) (dphiNodeError E)) ^ 2 * E.jxw c q) := by
  have hq : ∀ c ∈ Finset.range E.nCells, ∀ q ∈ Finset.range E.nq, 0 ≤ E.jxw c q := fun c hc q hq =>
    hj c (Finset.mem_range.mp hc) q (Finset.mem_range.mp hq)
  unfold report
  simp only [l2_eq]
  refine ⟨?_, ?_, ?_⟩
  · congr 1
    refine Finset.sum_congr rfl fun c hc => ?_
    rw [cellError, Real.sq_sqrt (Finset.sum_nonneg fun q hq' => mul_nonneg (sq_nonneg _) (hq c hc q hq'))]
  · congr 1
    refine Finset.sum_congr rfl fun c hc => ?_
    rw [cellVecError, Real.sq_sqrt (Finset.sum_nonneg fun q hq' =>
      mul_nonneg (Finset.sum_nonneg fun d _ => sq_nonneg _) (hq c hc q hq'))]
  · congr 1
    refine Finset.sum_congr rfl fun c hc => ?_
    rw [cellError, Real.sq_sqrt (Finset.sum_nonneg fun q hq' => mul_nonneg (sq_nonneg _) (hq c hc q hq'))]
    simp

/-- C69: the number printed as "Phi Nodes error L_inf norm" is the largest of the `L²` errors of the cells. -/
theorem C69_phiLinf (hc : 0 < E.nCells) :
    (∀ c < E.nCells, Real.sqrt (∑ q ∈ Finset.range E.nq, (valueAt (E.basis c q) E.phi - E.potQ c q) ^ 2 * E.jxw c q)
      ≤ (report E).phiLinf) ∧
    ∃ c < E.nCells, (report E).phiLinf
      = Real.sqrt (∑ q ∈ Finset.range E.nq, (valueAt (E.basis c q) E.phi - E.potQ c q) ^ 2 * E.jxw c q) := by
  obtain ⟨h1, h2, h3⟩ := linfty_spec E.nCells (cellError E E.phi E.potQ)
  have habs : ∀ c, |cellError E E.phi E.potQ c| = cellError E E.phi E.potQ c := fun c => abs_of_nonneg (Real.sqrt_nonneg _)
  simp only [habs] at h1 h2
  refine ⟨h1, ?_⟩
  rcases h2 with h | h
  · exact h
  · refine ⟨0, hc, ?_⟩
    have h4 := h1 0 hc
    change linfty E.nCells (cellError E E.phi E.potQ) = cellError E E.phi E.potQ 0
    rw [h] at h4 ⊢
    exact (le_antisymm h4 (Real.sqrt_nonneg _)).symm

/-- C69: it is never larger than the `L_2` number printed next to it. -/
theorem C69_phiLinf_le : (report E).phiLinf ≤ (report E).phiL2 := by
  obtain ⟨_, h2, _⟩ := linfty_spec E.nCells (cellError E E.phi E.potQ)
  change linfty E.nCells (cellError E E.phi E.potQ) ≤ l2 E.nCells (cellError E E.phi E.potQ)
  rw [l2_eq]
  rcases h2 with ⟨c, hc, h⟩ | h
  · rw [h]
    refine Real.abs_le_sqrt ?_
    exact Finset.single_le_sum (f := fun i => cellError E E.phi E.potQ i ^ 2) (fun i _ => sq_nonneg _)
      (Finset.mem_range.mpr hc)
  · rw [h]; exact Real.sqrt_nonneg _

/-- A cell of area 1/4 with one dof. -/
def errExample : ErrInput :=
  { dim := 3, n := 1, phi := fun _ => 1, dphi := fun _ => 0, grad := fun _ => 0, normals := fun _ => 0
    pot := fun _ => 0, wind := fun _ _ => 0, o2s := id, vo2s := id, nCells := 1, nq := 1, jxw := fun _ _ => 1 / 4
    basis := fun _ _ => [(0, 1)], vbasis := fun _ _ d => [(d, 1)], potQ := fun _ _ => 0, windQ := fun _ _ _ => 0 }

/-- C69: it is not the maximum of the nodal errors. On a cell of area 1/4 where solution and potential differ by 1
everywhere, 1/2 is printed. -/
theorem C69_refuted : ∃ E : ErrInput, E.WF ∧ (∀ i < E.n, phiNodeError E i = 1) ∧ 0 < E.n ∧ (report E).phiLinf = 1 / 2 := by
  refine ⟨errExample, ⟨?_, ?_, ?_, ?_, ?_⟩, ?_, by simp [errExample], ?_⟩
  · intro j hj; exact ⟨j, hj, rfl⟩
  · intro i _ i' _ h; exact h
  · intro k hk; exact hk
  · intro k hk; exact ⟨k, hk, rfl⟩
  · intro i _ i' _ h; exact h
  · intro i hi; rw [C69_phi i hi]; simp [errExample]
  · obtain ⟨c, _, h⟩ := (C69_phiLinf (E := errExample) (by simp [errExample])).2
    rw [h]
    simp only [errExample, valueAt, List.map_cons, List.map_nil, List.sum_cons, List.sum_nil, Finset.sum_range_one]
    rw [show ((1 : ℝ) * 1 + 0 - 0) ^ 2 * (1 / 4) = (1 / 2) ^ 2 by norm_num]
    exact Real.sqrt_sq (by norm_num)

/-- Permutations that are not the identity meet the hypotheses. -/
example : ({ errExample with n := 2, o2s := fun i => 1 - i, vo2s := fun i => 5 - i } : ErrInput).WF := by
  refine ⟨fun j hj => ⟨1 - j, ?_, ?_⟩, fun i hi i' hi' h => ?_, fun k hk => ?_, fun k hk => ⟨5 - k, ?_, ?_⟩, fun i hi i' hi' h => ?_⟩ <;>
    simp only [errExample] at * <;> omega

end PiBem.App
