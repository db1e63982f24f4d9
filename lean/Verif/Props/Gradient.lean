import Verif.Expansion.Model
import Verif.Bem.Gradient
import Mathlib.Algebra.BigOperators.Fin
import Mathlib.Algebra.BigOperators.Ring.Finset
import Mathlib.Algebra.Order.BigOperators.Ring.Finset
import Mathlib.Data.List.GetD
import Mathlib.Tactic.Ring
import Mathlib.Tactic.Linarith
import Mathlib.Tactic.FieldSimp
import Mathlib.LinearAlgebra.FiniteDimensional.Lemmas

/-!
# Recovered gradients, surface gradients and normals (C67)
-/

noncomputable section

namespace PiBem.Grad

open PiBem.Expansion (V3)

variable {d : ℕ}

/-! ## Specification -/

/-- The finite element field with coefficients `v` at quadrature point `q` of a cell. -/
def field (comp : ℕ → Fin d) (C : Cell d) (v : ℕ → ℝ) (q : ℕ) : (Fin d → ℝ) :=
  fun k => ∑ i ∈ (Finset.range C.dofs.length).filter (fun i => comp i = k), v (C.dofs.getD i 0) * C.shape i q

/-- The `L²` product on the surface of two vector fields given at the quadrature points, by the quadrature of the code. -/
def inner (T : Mesh d) (f g : Cell d → ℕ → (Fin d → ℝ)) : ℝ :=
  ∑ c ∈ Finset.range T.nCells, ∑ q ∈ Finset.range (T.cell c).nq,
    (T.cell c).jxw q * ∑ k, f (T.cell c) q k * g (T.cell c) q k

/-- `v` satisfies the hanging node constraints: it is a continuous finite element field. -/
def Conforming (T : Mesh d) (v : ℕ → ℝ) : Prop :=
  ∀ r < T.nDofs, ∀ e, T.cs r = some e → v r = (e.map fun se => se.2 * v se.1).sum

/-- Dofs in range; the entries of constraints are unconstrained dofs; every cell belongs to a process. -/
structure Mesh.WF (T : Mesh d) (procs : ℕ) : Prop where
  dofs : ∀ c < T.nCells, ∀ g ∈ (T.cell c).dofs, g < T.nDofs
  entries : ∀ r < T.nDofs, ∀ e, T.cs r = some e → ∀ se ∈ e, se.1 < T.nDofs ∧ T.cs se.1 = none
  owned : ∀ c < T.nCells, (T.cell c).subdomain < procs

/-! ## Loops are sums -/

theorem foldl_matr {α : Type} (l : List α) (f : Matr → α → Matr) (g : α → ℝ) (r s : ℕ)
    (h : ∀ M, ∀ a ∈ l, f M a r s = M r s + g a) (M : Matr) : l.foldl f M r s = M r s + (l.map g).sum := by
  induction l generalizing M with
  | nil => simp
  | cons a l ih =>
    rw [List.foldl_cons, ih (fun M b hb => h M b (List.mem_cons_of_mem _ hb)), h M a List.mem_cons_self, List.map_cons,
      List.sum_cons, add_assoc]

theorem foldl_vec {α : Type} (l : List α) (f : (ℕ → ℝ) → α → ℕ → ℝ) (g : α → ℝ) (r : ℕ)
    (h : ∀ M, ∀ a ∈ l, f M a r = M r + g a) (M : ℕ → ℝ) : l.foldl f M r = M r + (l.map g).sum := by
  induction l generalizing M with
  | nil => simp
  | cons a l ih =>
    rw [List.foldl_cons, ih (fun M b hb => h M b (List.mem_cons_of_mem _ hb)), h M a List.mem_cons_self, List.map_cons,
      List.sum_cons, add_assoc]

theorem sum_range_list (n : ℕ) (g : ℕ → ℝ) : ((List.range n).map g).sum = ∑ i ∈ Finset.range n, g i := by
  induction n with
  | zero => simp
  | succ n ih => rw [List.range_succ, List.map_append, List.sum_append, ih, Finset.sum_range_succ]; simp

theorem range_matr (n : ℕ) (f : Matr → ℕ → Matr) (g : ℕ → ℝ) (r s : ℕ)
    (h : ∀ M, ∀ a < n, f M a r s = M r s + g a) (M : Matr) :
    (List.range n).foldl f M r s = M r s + ∑ i ∈ Finset.range n, g i := by
  rw [foldl_matr _ f g r s (fun M a ha => h M a (List.mem_range.mp ha)), sum_range_list]

theorem range_vec (n : ℕ) (f : (ℕ → ℝ) → ℕ → ℕ → ℝ) (g : ℕ → ℝ) (r : ℕ)
    (h : ∀ M, ∀ a < n, f M a r = M r + g a) (M : ℕ → ℝ) :
    (List.range n).foldl f M r = M r + ∑ i ∈ Finset.range n, g i := by
  rw [foldl_vec _ f g r (fun M a ha => h M a (List.mem_range.mp ha)), sum_range_list]

theorem add_apply (M : Matr) (i j r s : ℕ) (x : ℝ) :
    M.add i j x r s = M r s + if r = i ∧ s = j then x else 0 := by
  unfold Matr.add
  by_cases hr : r = i
  · subst hr
    by_cases hs : s = j
    · subst hs; simp
    · simp [hs]
  · simp [hr]

theorem vecAdd_apply (v : ℕ → ℝ) (i r : ℕ) (x : ℝ) : vecAdd v i x r = v r + if r = i then x else 0 := by
  unfold vecAdd
  by_cases hr : r = i
  · subst hr; simp
  · simp [hr]

/-! ## Local contributions -/

variable {T : Mesh d} {procs : ℕ}

theorem localMat_eq (comp : ℕ → Fin d) (C : Cell d) {i j : ℕ} (hi : i < C.dofs.length) (hj : j < C.dofs.length) :
    localMat comp C i j = if comp i = comp j then ∑ q ∈ Finset.range C.nq, C.shape i q * C.shape j q * C.jxw q else 0 := by
  unfold localMat
  rw [range_matr _ _ (fun q => if comp i = comp j then C.shape i q * C.shape j q * C.jxw q else 0)]
  · split_ifs <;> simp
  intro M q _
  rw [range_matr _ _ (fun a => if a = i then (if comp i = comp j then C.shape i q * C.shape j q * C.jxw q else 0) else 0)]
  · rw [Finset.sum_ite_eq' (Finset.range C.dofs.length) i]; simp [hi]
  intro M a _
  rw [range_matr _ _ (fun b => if b = j then (if a = i then
    (if comp i = comp j then C.shape i q * C.shape j q * C.jxw q else 0) else 0) else 0)]
  · rw [Finset.sum_ite_eq' (Finset.range C.dofs.length) j]; simp [hj]
  intro M b _
  by_cases h1 : a = i <;> by_cases h2 : b = j
  · subst h1; subst h2; by_cases h : comp a = comp b <;> simp [h, add_apply]
  · by_cases h : comp a = comp b <;> simp [h, h2, add_apply, Ne.symm h2]
  · by_cases h : comp a = comp b <;> simp [h, h1, add_apply, Ne.symm h1]
  · by_cases h : comp a = comp b <;> simp [h, h2, add_apply, Ne.symm h1]

theorem localRhs_eq (comp : ℕ → Fin d) (C : Cell d) (g : ℕ → (Fin d → ℝ)) {i : ℕ} (hi : i < C.dofs.length) :
    localRhs comp C g i = ∑ q ∈ Finset.range C.nq, C.shape i q * g q (comp i) * C.jxw q := by
  unfold localRhs
  rw [range_vec _ _ (fun q => C.shape i q * g q (comp i) * C.jxw q)]
  · simp
  intro M q _
  rw [range_vec _ _ (fun a => if a = i then C.shape i q * g q (comp i) * C.jxw q else 0)]
  · rw [Finset.sum_ite_eq' (Finset.range C.dofs.length) i]; simp [hi]
  intro M a _
  rw [vecAdd_apply]
  by_cases h1 : a = i
  · subst h1; simp
  · simp [h1, Ne.symm h1]

/-- Coefficient of unknown `r` in dof `g`. -/
def coef (cs : ℕ → Option (List (ℕ × ℝ))) (g r : ℕ) : ℝ :=
  ((resolve cs g).map fun ra => if r = ra.1 then ra.2 else 0).sum

theorem scatterMat_eq (cs : ℕ → Option (List (ℕ × ℝ))) (dofs : List ℕ) (A : Matr) (diag : ℕ → ℝ) (M : Matr) (r s : ℕ) :
    scatterMat cs dofs A diag M r s = M r s
      + (∑ i ∈ Finset.range dofs.length, ∑ j ∈ Finset.range dofs.length,
          coef cs (dofs.getD i 0) r * coef cs (dofs.getD j 0) s * A i j)
      + ∑ i ∈ Finset.range dofs.length, if (cs (dofs.getD i 0)).isSome ∧ r = dofs.getD i 0 ∧ s = dofs.getD i 0
          then diag i else 0 := by
  unfold scatterMat
  rw [range_matr _ _ (fun i => if (cs (dofs.getD i 0)).isSome ∧ r = dofs.getD i 0 ∧ s = dofs.getD i 0
          then diag i else 0)]
  · congr 1
    rw [range_matr _ _ (fun i => ∑ j ∈ Finset.range dofs.length,
          coef cs (dofs.getD i 0) r * coef cs (dofs.getD j 0) s * A i j)]
    intro M i _
    rw [range_matr _ _ (fun j => coef cs (dofs.getD i 0) r * coef cs (dofs.getD j 0) s * A i j)]
    intro M j _
    rw [foldl_matr _ _ (fun ra => (if r = ra.1 then ra.2 else 0) * (coef cs (dofs.getD j 0) s * A i j))]
    · rw [List.sum_map_mul_right, ← coef]; ring
    intro M ra _
    rw [foldl_matr _ _ (fun sb => (if s = sb.1 then sb.2 else 0) * ((if r = ra.1 then ra.2 else 0) * A i j))]
    · rw [List.sum_map_mul_right, ← coef]; ring
    intro M sb _
    rw [add_apply]
    by_cases h1 : r = ra.1 <;> by_cases h2 : s = sb.1 <;> simp [h1, h2]
    ring
  intro M i _
  by_cases h : (cs (dofs.getD i 0)).isSome
  · simp only [h, if_true, add_apply, true_and]
  · rw [if_neg h, if_neg (fun h' => h h'.1), add_zero]

theorem scatterRhs_eq (cs : ℕ → Option (List (ℕ × ℝ))) (dofs : List ℕ) (F b : ℕ → ℝ) (r : ℕ) :
    scatterRhs cs dofs F b r = b r + ∑ i ∈ Finset.range dofs.length, coef cs (dofs.getD i 0) r * F i := by
  unfold scatterRhs
  rw [range_vec _ _ (fun i => coef cs (dofs.getD i 0) r * F i)]
  intro M i _
  rw [foldl_vec _ _ (fun ra => (if r = ra.1 then ra.2 else 0) * F i)]
  · rw [List.sum_map_mul_right, coef]
  intro M ra _
  rw [vecAdd_apply]
  by_cases h1 : r = ra.1 <;> simp [h1]

/-- Contribution of cell `c` to the matrix. -/
def cellMat (T : Mesh d) (dg : Diag) (c r s : ℕ) : ℝ :=
  (∑ i ∈ Finset.range (T.cell c).dofs.length, ∑ j ∈ Finset.range (T.cell c).dofs.length,
      coef T.cs ((T.cell c).dofs.getD i 0) r * coef T.cs ((T.cell c).dofs.getD j 0) s * localMat T.comp (T.cell c) i j)
  + ∑ i ∈ Finset.range (T.cell c).dofs.length,
      if (T.cs ((T.cell c).dofs.getD i 0)).isSome ∧ r = (T.cell c).dofs.getD i 0 ∧ s = (T.cell c).dofs.getD i 0
        then dg c i else 0

theorem sum_procs (hT : T.WF procs) (X : ℕ → ℝ) :
    (∑ p ∈ Finset.range procs, ∑ c ∈ Finset.range T.nCells, if (T.cell c).subdomain = p then X c else 0)
      = ∑ c ∈ Finset.range T.nCells, X c := by
  rw [Finset.sum_comm]
  refine Finset.sum_congr rfl fun c hc => ?_
  rw [Finset.sum_ite_eq]
  simp [hT.owned c (Finset.mem_range.mp hc)]

theorem mat_eq (hT : T.WF procs) (dg : Diag) (r s : ℕ) :
    mat T dg procs r s = ∑ c ∈ Finset.range T.nCells, cellMat T dg c r s := by
  rw [mat, ← sum_procs hT]
  refine Finset.sum_congr rfl fun p _ => ?_
  unfold matOn
  rw [range_matr _ _ (fun c => if (T.cell c).subdomain = p then cellMat T dg c r s else 0)]
  · simp
  intro M c _
  by_cases h : (T.cell c).subdomain = p
  · simp only [h, if_true, scatterMat_eq, cellMat, add_assoc]
  · simp [h]

theorem rhs_eq (hT : T.WF procs) (g : Cell d → ℕ → (Fin d → ℝ)) (r : ℕ) :
    rhs T g procs r = ∑ c ∈ Finset.range T.nCells, ∑ i ∈ Finset.range (T.cell c).dofs.length,
      coef T.cs ((T.cell c).dofs.getD i 0) r * localRhs T.comp (T.cell c) (g (T.cell c)) i := by
  rw [rhs, ← sum_procs hT]
  refine Finset.sum_congr rfl fun p _ => ?_
  unfold rhsOn
  rw [range_vec _ _ (fun c => if (T.cell c).subdomain = p then ∑ i ∈ Finset.range (T.cell c).dofs.length,
      coef T.cs ((T.cell c).dofs.getD i 0) r * localRhs T.comp (T.cell c) (g (T.cell c)) i else 0)]
  · simp
  intro M c _
  by_cases h : (T.cell c).subdomain = p
  · simp only [h, if_true, scatterRhs_eq]
  · simp [h]

/-! ## Constraints -/

theorem foldl_dist (e : List (ℕ × ℝ)) (u : ℕ → ℝ) (x : ℝ) :
    e.foldl (fun x se => x + se.2 * u se.1) x = x + (e.map fun se => se.2 * u se.1).sum := by
  induction e generalizing x with
  | nil => simp
  | cons a l ih => rw [List.foldl_cons, ih, List.map_cons, List.sum_cons, add_assoc]

theorem resolve_range (hT : T.WF procs) {g : ℕ} (hg : g < T.nDofs) :
    ∀ ra ∈ resolve T.cs g, ra.1 < T.nDofs ∧ T.cs ra.1 = none := by
  intro ra hra
  unfold resolve at hra
  cases h : T.cs g with
  | none => rw [h] at hra; simp at hra; subst hra; exact ⟨hg, h⟩
  | some e => rw [h] at hra; exact hT.entries g hg e h ra hra

theorem list_sum_coef (l : List (ℕ × ℝ)) (n : ℕ) (h : ∀ ra ∈ l, ra.1 < n) (x : ℕ → ℝ) :
    ∑ r ∈ Finset.range n, (l.map fun ra => if r = ra.1 then ra.2 else 0).sum * x r
      = (l.map fun ra => ra.2 * x ra.1).sum := by
  induction l with
  | nil => simp
  | cons a l ih =>
    simp only [List.map_cons, List.sum_cons, add_mul, Finset.sum_add_distrib]
    rw [ih (fun ra hra => h ra (List.mem_cons_of_mem _ hra))]
    congr 1
    simp only [ite_mul, zero_mul]
    rw [Finset.sum_ite_eq']
    simp [h a List.mem_cons_self]

theorem sum_coef (hT : T.WF procs) {g : ℕ} (hg : g < T.nDofs) (x : ℕ → ℝ) :
    ∑ r ∈ Finset.range T.nDofs, coef T.cs g r * x r = ((resolve T.cs g).map fun ra => ra.2 * x ra.1).sum :=
  list_sum_coef _ _ (fun ra hra => (resolve_range hT hg ra hra).1) x

theorem coef_constrained (hT : T.WF procs) {g r : ℕ} (hg : g < T.nDofs) (hr : (T.cs r).isSome) : coef T.cs g r = 0 := by
  unfold coef
  apply List.sum_eq_zero
  intro x hx
  rw [List.mem_map] at hx
  obtain ⟨ra, hra, rfl⟩ := hx
  have := (resolve_range hT hg ra hra).2
  rw [if_neg]
  rintro rfl
  simp [this] at hr

theorem sum_coef_conforming (hT : T.WF procs) {w : ℕ → ℝ} (hw : Conforming T w) {g : ℕ} (hg : g < T.nDofs) :
    ∑ r ∈ Finset.range T.nDofs, coef T.cs g r * w r = w g := by
  rw [sum_coef hT hg]
  unfold resolve
  cases h : T.cs g with
  | none => simp
  | some e => simp only; rw [hw g hg e h]

theorem sum_coef_distribute (hT : T.WF procs) (u : ℕ → ℝ) {g : ℕ} (hg : g < T.nDofs) :
    ∑ r ∈ Finset.range T.nDofs, coef T.cs g r * u r = distribute T u g := by
  rw [sum_coef hT hg]
  unfold resolve distribute
  cases h : T.cs g with
  | none => simp
  | some e => simp only; rw [foldl_dist, zero_add]

theorem distribute_conforming (hT : T.WF procs) (u : ℕ → ℝ) : Conforming T (distribute T u) := by
  intro r hr e he
  have : distribute T u r = (e.map fun se => se.2 * u se.1).sum := by
    unfold distribute; rw [he]; simp only; rw [foldl_dist, zero_add]
  rw [this]
  congr 1
  refine List.map_congr_left fun se hse => ?_
  have := (hT.entries r hr e he se hse).2
  unfold distribute; rw [this]

theorem getD_lt {l : List ℕ} {n i : ℕ} (h : ∀ g ∈ l, g < n) (hi : i < l.length) : l.getD i 0 < n := by
  rw [List.getD_eq_getElem _ _ hi]; exact h _ (List.getElem_mem hi)

/-! ## The weak form -/

/-- `w` restricted to the unconstrained dofs. -/
def free (T : Mesh d) (w : ℕ → ℝ) (r : ℕ) : ℝ := if (T.cs r).isSome then 0 else w r

theorem sum_coef_free (hT : T.WF procs) {w : ℕ → ℝ} (hw : Conforming T w) {g : ℕ} (hg : g < T.nDofs) :
    ∑ r ∈ Finset.range T.nDofs, free T w r * coef T.cs g r = w g := by
  rw [← sum_coef_conforming hT hw hg]
  refine Finset.sum_congr rfl fun r _ => ?_
  unfold free
  split_ifs with h
  · rw [coef_constrained hT hg h]; ring
  · ring

theorem sum_mat (hT : T.WF procs) (dg : Diag) {w : ℕ → ℝ} (hw : Conforming T w) (u : ℕ → ℝ) :
    ∑ r ∈ Finset.range T.nDofs, free T w r * ∑ s ∈ Finset.range T.nDofs, mat T dg procs r s * u s
      = ∑ c ∈ Finset.range T.nCells, ∑ i ∈ Finset.range (T.cell c).dofs.length,
          ∑ j ∈ Finset.range (T.cell c).dofs.length,
          w ((T.cell c).dofs.getD i 0) * distribute T u ((T.cell c).dofs.getD j 0) * localMat T.comp (T.cell c) i j := by
  have h1 : ∀ r ∈ Finset.range T.nDofs, free T w r * ∑ s ∈ Finset.range T.nDofs, mat T dg procs r s * u s
      = ∑ c ∈ Finset.range T.nCells, ∑ i ∈ Finset.range (T.cell c).dofs.length,
          ∑ j ∈ Finset.range (T.cell c).dofs.length,
          (free T w r * coef T.cs ((T.cell c).dofs.getD i 0) r) * distribute T u ((T.cell c).dofs.getD j 0)
            * localMat T.comp (T.cell c) i j := by
    intro r _
    have h2 : ∀ s ∈ Finset.range T.nDofs, free T w r * (mat T dg procs r s * u s)
        = ∑ c ∈ Finset.range T.nCells, ∑ i ∈ Finset.range (T.cell c).dofs.length,
          ∑ j ∈ Finset.range (T.cell c).dofs.length,
          (coef T.cs ((T.cell c).dofs.getD j 0) s * u s) *
          ((free T w r * coef T.cs ((T.cell c).dofs.getD i 0) r) * localMat T.comp (T.cell c) i j) := by
      intro s _
      rw [mat_eq hT, Finset.sum_mul, Finset.mul_sum]
      refine Finset.sum_congr rfl fun c _ => ?_
      rw [cellMat]
      have h0 : free T w r * ((∑ i ∈ Finset.range (T.cell c).dofs.length,
          if (T.cs ((T.cell c).dofs.getD i 0)).isSome ∧ r = (T.cell c).dofs.getD i 0 ∧ s = (T.cell c).dofs.getD i 0
            then dg c i else 0)) = 0 := by
        unfold free
        split_ifs with h
        · ring
        · rw [Finset.sum_eq_zero, mul_zero]
          intro i _
          rw [if_neg]
          rintro ⟨ha, hb, _⟩
          rw [hb] at h; exact h ha
      rw [add_mul, mul_add, ← mul_assoc (free T w r) (∑ i ∈ _, _), ← mul_assoc (free T w r) (∑ i ∈ _, _), h0]
      rw [zero_mul, add_zero, Finset.mul_sum, Finset.sum_mul]
      refine Finset.sum_congr rfl fun i _ => ?_
      rw [Finset.mul_sum, Finset.sum_mul]
      refine Finset.sum_congr rfl fun j _ => ?_
      ring
    rw [Finset.mul_sum, Finset.sum_congr rfl h2, Finset.sum_comm]
    refine Finset.sum_congr rfl fun c hc => ?_
    rw [Finset.sum_comm]
    refine Finset.sum_congr rfl fun i _ => ?_
    rw [Finset.sum_comm]
    refine Finset.sum_congr rfl fun j hj => ?_
    rw [← Finset.sum_mul, sum_coef_distribute hT _
      (getD_lt (hT.dofs c (Finset.mem_range.mp hc)) (Finset.mem_range.mp hj))]
    ring
  rw [Finset.sum_congr rfl h1, Finset.sum_comm]
  refine Finset.sum_congr rfl fun c hc => ?_
  rw [Finset.sum_comm]
  refine Finset.sum_congr rfl fun i hi => ?_
  rw [Finset.sum_comm]
  refine Finset.sum_congr rfl fun j _ => ?_
  rw [← Finset.sum_mul, ← Finset.sum_mul, sum_coef_free hT hw
      (getD_lt (hT.dofs c (Finset.mem_range.mp hc)) (Finset.mem_range.mp hi))]

theorem sum_rhs (hT : T.WF procs) (g : Cell d → ℕ → (Fin d → ℝ)) {w : ℕ → ℝ} (hw : Conforming T w) :
    ∑ r ∈ Finset.range T.nDofs, free T w r * rhs T g procs r
      = ∑ c ∈ Finset.range T.nCells, ∑ i ∈ Finset.range (T.cell c).dofs.length,
          w ((T.cell c).dofs.getD i 0) * localRhs T.comp (T.cell c) (g (T.cell c)) i := by
  have h1 : ∀ r ∈ Finset.range T.nDofs, free T w r * rhs T g procs r
      = ∑ c ∈ Finset.range T.nCells, ∑ i ∈ Finset.range (T.cell c).dofs.length,
          (free T w r * coef T.cs ((T.cell c).dofs.getD i 0) r) * localRhs T.comp (T.cell c) (g (T.cell c)) i := by
    intro r _
    rw [rhs_eq hT, Finset.mul_sum]
    refine Finset.sum_congr rfl fun c _ => ?_
    rw [Finset.mul_sum]
    refine Finset.sum_congr rfl fun i _ => ?_
    ring
  rw [Finset.sum_congr rfl h1, Finset.sum_comm]
  refine Finset.sum_congr rfl fun c hc => ?_
  rw [Finset.sum_comm]
  refine Finset.sum_congr rfl fun i hi => ?_
  rw [← Finset.sum_mul, sum_coef_free hT hw
      (getD_lt (hT.dofs c (Finset.mem_range.mp hc)) (Finset.mem_range.mp hi))]

/-- Sum over pairs of dofs with equal components. -/
theorem sum_comp (n : ℕ) (comp : ℕ → Fin d) (x y : ℕ → ℝ) :
    ∑ k, (∑ i ∈ (Finset.range n).filter (fun i => comp i = k), x i) *
        (∑ j ∈ (Finset.range n).filter (fun j => comp j = k), y j)
      = ∑ i ∈ Finset.range n, ∑ j ∈ Finset.range n, if comp i = comp j then x i * y j else 0 := by
  simp only [Finset.sum_filter, Finset.sum_mul_sum]
  rw [Finset.sum_comm]
  refine Finset.sum_congr rfl fun i _ => ?_
  rw [Finset.sum_comm]
  refine Finset.sum_congr rfl fun j _ => ?_
  simp only [ite_mul, zero_mul, mul_ite, mul_zero]
  rw [Finset.sum_ite_eq]
  simp only [Finset.mem_univ, if_true]

theorem sum_comp_target (n : ℕ) (comp : ℕ → Fin d) (x : ℕ → ℝ) (g : (Fin d → ℝ)) :
    ∑ k, (∑ i ∈ (Finset.range n).filter (fun i => comp i = k), x i) * g k
      = ∑ i ∈ Finset.range n, x i * g (comp i) := by
  simp only [Finset.sum_filter, Finset.sum_mul]
  rw [Finset.sum_comm]
  refine Finset.sum_congr rfl fun i _ => ?_
  simp only [ite_mul, zero_mul]
  rw [Finset.sum_ite_eq]
  simp

theorem cell_mat (comp : ℕ → Fin d) (C : Cell d) (w v : ℕ → ℝ) :
    ∑ i ∈ Finset.range C.dofs.length, ∑ j ∈ Finset.range C.dofs.length,
        w (C.dofs.getD i 0) * v (C.dofs.getD j 0) * localMat comp C i j
      = ∑ q ∈ Finset.range C.nq, C.jxw q * ∑ k, field comp C w q k * field comp C v q k := by
  have h : ∀ q, ∑ k, field comp C w q k * field comp C v q k
      = ∑ i ∈ Finset.range C.dofs.length, ∑ j ∈ Finset.range C.dofs.length,
        if comp i = comp j then (w (C.dofs.getD i 0) * C.shape i q) * (v (C.dofs.getD j 0) * C.shape j q) else 0 :=
    fun q => sum_comp _ comp _ _
  simp only [h, Finset.mul_sum]
  rw [Finset.sum_comm (s := Finset.range C.nq)]
  refine Finset.sum_congr rfl fun i hi => ?_
  rw [Finset.sum_comm (s := Finset.range C.nq)]
  refine Finset.sum_congr rfl fun j hj => ?_
  rw [localMat_eq comp C (Finset.mem_range.mp hi) (Finset.mem_range.mp hj)]
  split_ifs with hc
  · rw [Finset.mul_sum]
    refine Finset.sum_congr rfl fun q _ => ?_
    ring
  · simp

theorem cell_rhs (comp : ℕ → Fin d) (C : Cell d) (w : ℕ → ℝ) (g : ℕ → (Fin d → ℝ)) :
    ∑ i ∈ Finset.range C.dofs.length, w (C.dofs.getD i 0) * localRhs comp C g i
      = ∑ q ∈ Finset.range C.nq, C.jxw q * ∑ k, field comp C w q k * g q k := by
  have h : ∀ q, ∑ k, field comp C w q k * g q k
      = ∑ i ∈ Finset.range C.dofs.length, (w (C.dofs.getD i 0) * C.shape i q) * g q (comp i) :=
    fun q => sum_comp_target _ comp _ _
  simp only [h, Finset.mul_sum]
  rw [Finset.sum_comm (s := Finset.range C.nq)]
  refine Finset.sum_congr rfl fun i hi => ?_
  rw [localRhs_eq comp C g (Finset.mem_range.mp hi), Finset.mul_sum]
  refine Finset.sum_congr rfl fun q _ => ?_
  ring

/-- The field of `v` as a vector field on the surface. -/
abbrev Mesh.field (T : Mesh d) (v : ℕ → ℝ) : Cell d → ℕ → (Fin d → ℝ) := fun C q => Grad.field T.comp C v q

theorem weak_form (hT : T.WF procs) {g : Cell d → ℕ → (Fin d → ℝ)} {dg : Diag} {u : ℕ → ℝ} (hu : Solves T g dg procs u)
    {w : ℕ → ℝ} (hw : Conforming T w) :
    inner T (T.field w) (T.field (distribute T u)) = inner T (T.field w) g := by
  have h := sum_mat hT dg hw u
  have h' := sum_rhs hT g hw
  rw [Finset.sum_congr rfl fun r hr => by rw [hu r (Finset.mem_range.mp hr)], h'] at h
  unfold inner
  simp only [← cell_mat, ← cell_rhs]
  exact h.symm

/-! ## C67: the recovered field is the `L²` projection -/

theorem inner_sub_left (f g h : Cell d → ℕ → (Fin d → ℝ)) : inner T (f - g) h = inner T f h - inner T g h := by
  unfold inner
  rw [← Finset.sum_sub_distrib]
  refine Finset.sum_congr rfl fun c _ => ?_
  rw [← Finset.sum_sub_distrib]
  refine Finset.sum_congr rfl fun q _ => ?_
  rw [← mul_sub, ← Finset.sum_sub_distrib]
  congr 1
  refine Finset.sum_congr rfl fun k _ => ?_
  simp only [Pi.sub_apply]; ring

theorem inner_comm (f g : Cell d → ℕ → (Fin d → ℝ)) : inner T f g = inner T g f := by
  unfold inner
  refine Finset.sum_congr rfl fun c _ => Finset.sum_congr rfl fun q _ => ?_
  congr 1
  exact Finset.sum_congr rfl fun k _ => mul_comm _ _

theorem inner_sub_right (f g h : Cell d → ℕ → (Fin d → ℝ)) : inner T h (f - g) = inner T h f - inner T h g := by
  rw [inner_comm, inner_sub_left, inner_comm f, inner_comm g]

theorem field_sub (v w : ℕ → ℝ) : T.field (v - w) = T.field v - T.field w := by
  funext C q k
  simp only [Mesh.field, field, Pi.sub_apply, sub_mul, Finset.sum_sub_distrib]

theorem conforming_sub {v w : ℕ → ℝ} (hv : Conforming T v) (hw : Conforming T w) : Conforming T (v - w) := by
  intro r hr e he
  rw [Pi.sub_apply, hv r hr e he, hw r hr e he]
  clear he
  induction e with
  | nil => simp
  | cons a l ih =>
    simp only [List.map_cons, List.sum_cons, Pi.sub_apply] at ih ⊢
    linarith

theorem inner_nonneg (hj : ∀ c < T.nCells, ∀ q < (T.cell c).nq, 0 ≤ (T.cell c).jxw q) (f : Cell d → ℕ → (Fin d → ℝ)) :
    0 ≤ inner T f f := by
  unfold inner
  refine Finset.sum_nonneg fun c hc => Finset.sum_nonneg fun q hq => ?_
  refine mul_nonneg (hj c (Finset.mem_range.mp hc) q (Finset.mem_range.mp hq)) ?_
  exact Finset.sum_nonneg fun k _ => mul_self_nonneg _

theorem inner_zero (hj : ∀ c < T.nCells, ∀ q < (T.cell c).nq, 0 < (T.cell c).jxw q) (f : Cell d → ℕ → (Fin d → ℝ))
    (h : inner T f f = 0) : ∀ c < T.nCells, ∀ q < (T.cell c).nq, f (T.cell c) q = 0 := by
  intro c hc q hq
  unfold inner at h
  have hq0 : ∀ c ∈ Finset.range T.nCells, ∀ q ∈ Finset.range (T.cell c).nq,
      0 ≤ (T.cell c).jxw q * ∑ k, f (T.cell c) q k * f (T.cell c) q k := fun c hc q hq =>
    mul_nonneg (hj c (Finset.mem_range.mp hc) q (Finset.mem_range.mp hq)).le (Finset.sum_nonneg fun k _ => mul_self_nonneg _)
  rw [Finset.sum_eq_zero_iff_of_nonneg fun c hc => Finset.sum_nonneg (hq0 c hc)] at h
  have h1 := h c (Finset.mem_range.mpr hc)
  rw [Finset.sum_eq_zero_iff_of_nonneg (hq0 c (Finset.mem_range.mpr hc))] at h1
  have h2 := (mul_eq_zero.mp (h1 q (Finset.mem_range.mpr hq))).resolve_left (hj c hc q hq).ne'
  rw [Finset.sum_eq_zero_iff_of_nonneg fun k _ => mul_self_nonneg _] at h2
  funext k
  exact mul_self_eq_zero.mp (h2 k (Finset.mem_univ k))

/-- The quadrature sees every continuous field: a field vanishing at all quadrature points has zero coefficients. -/
def Definite (T : Mesh d) : Prop :=
  ∀ z, Conforming T z → (∀ c < T.nCells, ∀ q < (T.cell c).nq, field T.comp (T.cell c) z q = 0) → ∀ r < T.nDofs, z r = 0

/-- C67. The result of the three functions is a continuous field, and its error is orthogonal to all continuous finite
element fields: `g` is the vector projected, whatever it is. -/
theorem C67_projection (hT : T.WF procs) {g : Cell d → ℕ → (Fin d → ℝ)} {dg : Diag} {u : ℕ → ℝ} (hu : Solves T g dg procs u) :
    Conforming T (distribute T u) ∧
    ∀ w, Conforming T w → inner T (T.field (distribute T u) - g) (T.field w) = 0 := by
  refine ⟨distribute_conforming hT u, fun w hw => ?_⟩
  rw [inner_comm, inner_sub_right, weak_form hT hu hw, sub_self]

/-- C67. No continuous finite element field is closer to `g` in the `L²` norm. -/
theorem C67_best (hT : T.WF procs) (hj : ∀ c < T.nCells, ∀ q < (T.cell c).nq, 0 ≤ (T.cell c).jxw q)
    {g : Cell d → ℕ → (Fin d → ℝ)} {dg : Diag} {u : ℕ → ℝ} (hu : Solves T g dg procs u) (w : ℕ → ℝ) (hw : Conforming T w) :
    inner T (T.field (distribute T u) - g) (T.field (distribute T u) - g) ≤ inner T (T.field w - g) (T.field w - g) := by
  obtain ⟨hv, ho⟩ := C67_projection hT hu
  set v := distribute T u
  have h1 := ho _ (conforming_sub hw hv)
  have h2 := inner_nonneg hj (T.field (w - v))
  have h3 : T.field w - g = T.field (w - v) + (T.field v - g) := by rw [field_sub]; abel
  have h4 : inner T (T.field w - g) (T.field w - g)
      = inner T (T.field (w - v)) (T.field (w - v)) + 2 * inner T (T.field v - g) (T.field (w - v))
        + inner T (T.field v - g) (T.field v - g) := by
    have e1 : T.field w - g = T.field (w - v) - (g - T.field v) := by rw [field_sub]; abel
    have e2 : T.field v - g = 0 - (g - T.field v) := by abel
    rw [e1, e2]
    simp only [inner_sub_left, inner_sub_right]
    rw [inner_comm (T.field (w - v)) g, inner_comm (T.field (w - v)) (T.field v)]
    have z1 : ∀ f, inner T 0 f = 0 := fun f => by simp [inner]
    have z2 : ∀ f, inner T f 0 = 0 := fun f => by simp [inner]
    rw [z1, z2, z1, z1, z2, z2]
    ring
  linarith

/-- C67. The projection is unique: whatever the processes, the partition, the numbers on the diagonal of the constrained rows
and the solution of the system, the result is the only continuous field with the orthogonality property. -/
theorem C67_unique (hT : T.WF procs) (hd : Definite T) (hj : ∀ c < T.nCells, ∀ q < (T.cell c).nq, 0 < (T.cell c).jxw q)
    {g : Cell d → ℕ → (Fin d → ℝ)} {dg : Diag} {u : ℕ → ℝ} (hu : Solves T g dg procs u) (v : ℕ → ℝ) (hv : Conforming T v)
    (ho : ∀ w, Conforming T w → inner T (T.field v - g) (T.field w) = 0) :
    ∀ r < T.nDofs, distribute T u r = v r := by
  obtain ⟨hv', ho'⟩ := C67_projection hT hu
  have h1 := ho _ (conforming_sub hv' hv)
  have h2 := ho' _ (conforming_sub hv' hv)
  have h3 : inner T (T.field (distribute T u - v)) (T.field (distribute T u - v)) = 0 := by
    nth_rewrite 1 [field_sub]
    rw [inner_sub_left] at h1 h2 ⊢
    linarith
  have h4 := hd _ (conforming_sub hv' hv) (inner_zero hj _ h3)
  intro r hr
  have := h4 r hr
  rw [Pi.sub_apply] at this
  linarith

/-- The same mesh with the cells given to the processes in another way. -/
def repartition (T : Mesh d) (σ : ℕ → ℕ) : Mesh d :=
  { T with cell := fun c => { T.cell c with subdomain := σ c } }

/-- C67. The assembled matrix and right hand side do not depend on the number of processes and on the partition of the
cells, for vectors `g` not depending on the partition. -/
theorem C67_partition (hT : T.WF procs) (σ : ℕ → ℕ) (procs' : ℕ) (hσ : ∀ c < T.nCells, σ c < procs') (dg : Diag)
    (g : Cell d → ℕ → (Fin d → ℝ)) (hg : ∀ C p, g { C with subdomain := p } = g C) (r s : ℕ) :
    mat (repartition T σ) dg procs' r s = mat T dg procs r s ∧ rhs (repartition T σ) g procs' r = rhs T g procs r := by
  have hT' : (repartition T σ).WF procs' := ⟨hT.dofs, hT.entries, hσ⟩
  rw [mat_eq hT', mat_eq hT, rhs_eq hT', rhs_eq hT]
  refine ⟨rfl, Finset.sum_congr rfl fun c _ => Finset.sum_congr rfl fun i _ => ?_⟩
  have : g ((repartition T σ).cell c) = g (T.cell c) := hg (T.cell c) (σ c)
  rw [this]; rfl

/-- The three projected vectors do not depend on the partition. -/
theorem targets_partition (phi dphi : ℕ → ℝ) (C : Cell d) (p : ℕ) :
    fullGrad phi dphi { C with subdomain := p } = fullGrad phi dphi C ∧
    surfGrad phi { C with subdomain := p } = surfGrad phi C ∧
    cellNormal { C with subdomain := p } = cellNormal C := ⟨rfl, rfl, rfl⟩

/-- C67. The mass matrix is symmetric. -/
theorem C67_symmetric (hT : T.WF procs) (dg : Diag) (r s : ℕ) : mat T dg procs r s = mat T dg procs s r := by
  rw [mat_eq hT, mat_eq hT]
  refine Finset.sum_congr rfl fun c _ => ?_
  unfold cellMat
  congr 1
  · rw [Finset.sum_comm]
    refine Finset.sum_congr rfl fun i hi => Finset.sum_congr rfl fun j hj => ?_
    rw [localMat_eq _ _ (Finset.mem_range.mp hi) (Finset.mem_range.mp hj),
      localMat_eq _ _ (Finset.mem_range.mp hj) (Finset.mem_range.mp hi)]
    have : (∑ q ∈ Finset.range (T.cell c).nq, (T.cell c).shape i q * (T.cell c).shape j q * (T.cell c).jxw q)
        = ∑ q ∈ Finset.range (T.cell c).nq, (T.cell c).shape j q * (T.cell c).shape i q * (T.cell c).jxw q :=
      Finset.sum_congr rfl fun q _ => by ring
    rw [this]
    by_cases h : T.comp i = T.comp j
    · rw [if_pos h, if_pos h.symm]; ring
    · rw [if_neg h, if_neg (Ne.symm h)]; ring
  · refine Finset.sum_congr rfl fun i _ => ?_
    exact if_congr (by rw [and_comm (a := r = _)]) rfl rfl

theorem mat_constrained (hT : T.WF procs) (dg : Diag) {r s : ℕ} (hr : (T.cs r).isSome) :
    mat T dg procs r s = ∑ c ∈ Finset.range T.nCells, ∑ i ∈ Finset.range (T.cell c).dofs.length,
      if r = (T.cell c).dofs.getD i 0 ∧ s = r then dg c i else 0 := by
  rw [mat_eq hT]
  refine Finset.sum_congr rfl fun c hc => ?_
  unfold cellMat
  rw [Finset.sum_eq_zero, zero_add]
  · refine Finset.sum_congr rfl fun i _ => if_congr ?_ rfl rfl
    constructor
    · rintro ⟨_, h1, h2⟩; exact ⟨h1, by rw [h1, h2]⟩
    · rintro ⟨h1, h2⟩; rw [← h1]; exact ⟨hr, rfl, h2⟩
  · intro i hi
    refine Finset.sum_eq_zero fun j _ => ?_
    rw [coef_constrained hT (getD_lt (hT.dofs c (Finset.mem_range.mp hc)) (Finset.mem_range.mp hi)) hr, zero_mul, zero_mul]

/-- C67. The system is regular: if the diagonal entries of the constrained rows are positive and constrained dofs belong to a
cell, then for every `g` the system has exactly one solution. -/
theorem C67_regular (hT : T.WF procs) (hd : Definite T)
    (hj : ∀ c < T.nCells, ∀ q < (T.cell c).nq, 0 < (T.cell c).jxw q) (dg : Diag)
    (hdg : ∀ c < T.nCells, ∀ i < (T.cell c).dofs.length, 0 < dg c i)
    (hc : ∀ r < T.nDofs, (T.cs r).isSome → ∃ c < T.nCells, r ∈ (T.cell c).dofs) (g : Cell d → ℕ → (Fin d → ℝ)) :
    ∃ u, Solves T g dg procs u ∧ ∀ u', Solves T g dg procs u' → ∀ r < T.nDofs, u' r = u r := by
  -- a solution with zero right hand side is zero
  have key : ∀ u : ℕ → ℝ, (∀ r < T.nDofs, ∑ s ∈ Finset.range T.nDofs, mat T dg procs r s * u s = 0) → ∀ r < T.nDofs, u r = 0 := by
    intro u hu
    have hu0 : Solves T (fun _ _ => 0) dg procs u := by
      intro r hr
      rw [hu r hr, rhs_eq hT]
      symm
      refine Finset.sum_eq_zero fun c _ => Finset.sum_eq_zero fun i hi => ?_
      rw [localRhs_eq _ _ _ (Finset.mem_range.mp hi)]
      simp
    have hz : ∀ r < T.nDofs, distribute T u r = 0 := by
      refine C67_unique hT hd hj hu0 0 (fun r _ e _ => by simp) fun w _ => ?_
      unfold inner
      refine Finset.sum_eq_zero fun c _ => Finset.sum_eq_zero fun q _ => ?_
      simp [field]
    intro r hr
    cases h : T.cs r with
    | none => have := hz r hr; unfold distribute at this; rw [h] at this; exact this
    | some e =>
      have hs : (T.cs r).isSome := by rw [h]; rfl
      have h1 := hu r hr
      rw [Finset.sum_eq_single r] at h1
      · obtain ⟨c, hc1, hc2⟩ := hc r hr hs
        rw [mat_constrained hT dg hs] at h1
        refine (mul_eq_zero.mp h1).resolve_left (ne_of_gt ?_)
        obtain ⟨i, hi, rfl⟩ := List.mem_iff_getElem.mp hc2
        refine Finset.sum_pos' (fun c' hc' => Finset.sum_nonneg fun i' hi' => ?_) ⟨c, Finset.mem_range.mpr hc1,
          Finset.sum_pos' (fun i' hi' => ?_) ⟨i, Finset.mem_range.mpr hi, ?_⟩⟩
        · split_ifs
          · exact (hdg c' (Finset.mem_range.mp hc') i' (Finset.mem_range.mp hi')).le
          · exact le_refl _
        · split_ifs
          · exact (hdg c hc1 i' (Finset.mem_range.mp hi')).le
          · exact le_refl _
        · rw [if_pos ⟨(List.getD_eq_getElem _ _ hi).symm, rfl⟩]; exact hdg c hc1 i hi
      · intro s _ hsr
        rw [mat_constrained hT dg hs, Finset.sum_eq_zero, zero_mul]
        intro c _
        exact Finset.sum_eq_zero fun i _ => if_neg fun h => hsr h.2
      · intro h; exact absurd (Finset.mem_range.mpr hr) h
  let L : (Fin T.nDofs → ℝ) →ₗ[ℝ] (Fin T.nDofs → ℝ) :=
    { toFun := fun x r => ∑ s : Fin T.nDofs, mat T dg procs r s * x s
      map_add' := fun x y => by funext r; simp [mul_add, Finset.sum_add_distrib]
      map_smul' := fun a x => by
        funext r; simp only [Pi.smul_apply, smul_eq_mul, RingHom.id_apply, Finset.mul_sum]
        exact Finset.sum_congr rfl fun s _ => by ring }
  let ext : (Fin T.nDofs → ℝ) → ℕ → ℝ := fun x s => if h : s < T.nDofs then x ⟨s, h⟩ else 0
  have hext : ∀ x : Fin T.nDofs → ℝ, ∀ r, ∑ s ∈ Finset.range T.nDofs, mat T dg procs r s * ext x s
      = ∑ s : Fin T.nDofs, mat T dg procs r s * x s := by
    intro x r
    rw [Finset.sum_range]
    refine Finset.sum_congr rfl fun s _ => ?_
    simp [ext]
  have hinj : Function.Injective L := by
    rw [← LinearMap.ker_eq_bot, LinearMap.ker_eq_bot']
    intro x hx
    have := key (ext x) fun r hr => by rw [hext]; exact congrFun hx ⟨r, hr⟩
    funext r
    have h1 := this r r.2
    simpa [ext] using h1
  obtain ⟨x, hx⟩ := (LinearMap.injective_iff_surjective.mp hinj) fun r => rhs T g procs r
  have hs : Solves T g dg procs (ext x) := by
    intro r hr
    rw [hext]; exact congrFun hx ⟨r, hr⟩
  refine ⟨ext x, hs, fun u' hu' r hr => ?_⟩
  have := key (fun r => u' r - ext x r) (fun r hr => by
    simp only [mul_sub, Finset.sum_sub_distrib]
    rw [hu' r hr, hs r hr, sub_self]) r hr
  linarith

/-- C67. A field that is in the finite element space is recovered without error. -/
theorem C67_reproduces (hT : T.WF procs) (hd : Definite T)
    (hj : ∀ c < T.nCells, ∀ q < (T.cell c).nq, 0 < (T.cell c).jxw q)
    {g : Cell d → ℕ → (Fin d → ℝ)} {dg : Diag} {u : ℕ → ℝ} (hu : Solves T g dg procs u) (w : ℕ → ℝ) (hw : Conforming T w)
    (hg : ∀ c < T.nCells, ∀ q < (T.cell c).nq, g (T.cell c) q = field T.comp (T.cell c) w q) :
    ∀ r < T.nDofs, distribute T u r = w r := by
  refine C67_unique hT hd hj hu w hw fun w' _ => ?_
  unfold inner
  refine Finset.sum_eq_zero fun c hc => Finset.sum_eq_zero fun q hq => ?_
  simp [hg c (Finset.mem_range.mp hc) q (Finset.mem_range.mp hq)]

/-- The vector element is made of equal scalar elements which contain the constants: `kind` is the component of a dof; shape
functions of a component sum to one; constraints relate dofs of the same component with coefficients of sum one. -/
structure Nodal (T : Mesh d) (kind : ℕ → Fin d) : Prop where
  comp : ∀ c < T.nCells, ∀ i < (T.cell c).dofs.length, kind ((T.cell c).dofs.getD i 0) = T.comp i
  unity : ∀ c < T.nCells, ∀ q < (T.cell c).nq, ∀ k,
    ∑ i ∈ (Finset.range (T.cell c).dofs.length).filter (fun i => T.comp i = k), (T.cell c).shape i q = 1
  same : ∀ r < T.nDofs, ∀ e, T.cs r = some e → (∀ se ∈ e, kind se.1 = kind r) ∧ (e.map Prod.snd).sum = 1

theorem const_conforming {kind : ℕ → Fin d} (hk : Nodal T kind) (a : (Fin d → ℝ)) : Conforming T fun r => a (kind r) := by
  intro r hr e he
  obtain ⟨h1, h2⟩ := hk.same r hr e he
  have : (e.map fun se => se.2 * a (kind se.1)) = e.map fun se => se.2 * a (kind r) :=
    List.map_congr_left fun se hse => by rw [h1 se hse]
  simp only [this]
  rw [List.sum_map_mul_right, h2, one_mul]

theorem const_field {kind : ℕ → Fin d} (hk : Nodal T kind) (a : (Fin d → ℝ)) {c q : ℕ} (hc : c < T.nCells)
    (hq : q < (T.cell c).nq) : field T.comp (T.cell c) (fun r => a (kind r)) q = a := by
  funext k
  unfold field
  rw [← mul_one (a k), ← hk.unity c hc q hq k, Finset.mul_sum]
  refine Finset.sum_congr rfl fun i hi => ?_
  rw [Finset.mem_filter, Finset.mem_range] at hi
  simp only [hk.comp c hc i hi.1, hi.2]

/-- C67, `compute_gradients`. On a surface with flat cells, a potential with constant gradient `a` is recovered without
error: its values at the dofs `X` are `b + a ⬝ X` and its normal derivatives on each cell are `a ⬝ n`. The hypotheses on the
scalar element say that its shape functions sum to one and that the surface gradients of the coordinates are the projections
on the tangent plane. -/
theorem C67_linear (hT : T.WF procs) (hd : Definite T) (hj : ∀ c < T.nCells, ∀ q < (T.cell c).nq, 0 < (T.cell c).jxw q)
    {kind : ℕ → Fin d} (hk : Nodal T kind) (X : ℕ → (Fin d → ℝ)) (a : (Fin d → ℝ)) (b : ℝ) {phi dphi : ℕ → ℝ}
    (hphi : ∀ i, phi i = b + ∑ k, a k * X i k)
    (hdphi : ∀ c < T.nCells, ∀ q < (T.cell c).nq, ∀ i ∈ (T.cell c).sdofs, dphi i = ∑ k, a k * (T.cell c).normal q k)
    (hone : ∀ c < T.nCells, ∀ q < (T.cell c).nq,
      ∑ j ∈ Finset.range (T.cell c).sdofs.length, (T.cell c).sshape j q = 1)
    (hgrad0 : ∀ c < T.nCells, ∀ q < (T.cell c).nq, ∀ l,
      ∑ j ∈ Finset.range (T.cell c).sdofs.length, (T.cell c).sgrad j q l = 0)
    (hgrad : ∀ c < T.nCells, ∀ q < (T.cell c).nq, ∀ k l,
      ∑ j ∈ Finset.range (T.cell c).sdofs.length, X ((T.cell c).sdofs.getD j 0) k * (T.cell c).sgrad j q l
        = (if k = l then 1 else 0) - (T.cell c).normal q k * (T.cell c).normal q l)
    {dg : Diag} {u : ℕ → ℝ} (hu : Solves T (fullGrad phi dphi) dg procs u) :
    ∀ r < T.nDofs, distribute T u r = a (kind r) := by
  refine C67_reproduces hT hd hj hu (fun r => a (kind r)) (const_conforming hk a) fun c hc q hq => ?_
  rw [const_field hk a hc hq]
  funext l
  have h1 : scalarValue (T.cell c) dphi q = ∑ k, a k * (T.cell c).normal q k := by
    unfold scalarValue
    rw [← mul_one (∑ k, a k * (T.cell c).normal q k), ← hone c hc q hq, Finset.mul_sum]
    refine Finset.sum_congr rfl fun j hj' => ?_
    rw [hdphi c hc q hq]
    rw [List.getD_eq_getElem _ _ (Finset.mem_range.mp hj')]
    exact List.getElem_mem _
  have h2 : scalarGrad (T.cell c) phi q l
      = ∑ k, a k * ((if k = l then 1 else 0) - (T.cell c).normal q k * (T.cell c).normal q l) := by
    unfold scalarGrad
    simp only [hphi, add_mul, Finset.sum_add_distrib, ← Finset.mul_sum, hgrad0 c hc q hq, mul_zero, zero_add]
    simp only [← hgrad c hc q hq, Finset.mul_sum, Finset.sum_mul]
    rw [Finset.sum_comm]
    refine Finset.sum_congr rfl fun k _ => Finset.sum_congr rfl fun j _ => by ring
  unfold fullGrad
  rw [h1, h2]
  simp only [mul_sub, Finset.sum_sub_distrib, mul_ite, mul_one, mul_zero, Finset.sum_ite_eq', Finset.mem_univ, if_true]
  rw [Finset.mul_sum]
  have : ∑ k, (T.cell c).normal q l * (a k * (T.cell c).normal q k)
      = ∑ k, a k * ((T.cell c).normal q k * (T.cell c).normal q l) := Finset.sum_congr rfl fun k _ => by ring
  rw [this]; ring

/-- C67, `compute_normals`. On a plane surface the normals are exact. -/
theorem C67_normals_plane (hT : T.WF procs) (hd : Definite T)
    (hj : ∀ c < T.nCells, ∀ q < (T.cell c).nq, 0 < (T.cell c).jxw q) {kind : ℕ → Fin d} (hk : Nodal T kind) (n : (Fin d → ℝ))
    (hn : ∀ c < T.nCells, ∀ q < (T.cell c).nq, (T.cell c).normal q = n) {dg : Diag} {u : ℕ → ℝ}
    (hu : Solves T cellNormal dg procs u) : ∀ r < T.nDofs, distribute T u r = n (kind r) :=
  C67_reproduces hT hd hj hu (fun r => n (kind r)) (const_conforming hk n) fun c hc q hq => by
    rw [const_field hk n hc hq]; exact hn c hc q hq

/-! ## Examples -/

/-- A cell with two nodes, two quadrature points and normal `n`; the nodes are `b`, `b + 1`, with dofs `3 b, ..., 3 b + 5`. -/
def exCell (p b : ℕ) (n : V3) : Cell 3 :=
  { subdomain := p, dofs := [3 * b, 3 * b + 1, 3 * b + 2, 3 * b + 3, 3 * b + 4, 3 * b + 5], nq := 2
    shape := fun i q => if i / 3 = q then 3 / 4 else 1 / 4
    jxw := fun _ => 1 / 2, normal := fun _ => n
    sdofs := [], sshape := fun _ _ => 0, sgrad := fun _ _ => 0 }

/-- Two cells on two processes with normals `e_x`, `e_y`; the node they share is a hanging node. -/
def exMesh : Mesh 3 :=
  { nCells := 2, nDofs := 9
    cell := fun c => if c = 0 then exCell 0 0 ![1, 0, 0] else exCell 1 1 ![0, 1, 0]
    comp := fun i => if i % 3 = 0 then 0 else if i % 3 = 1 then 1 else 2
    cs := fun r => if r = 3 then some [(0, 1 / 2), (6, 1 / 2)] else if r = 4 then some [(1, 1 / 2), (7, 1 / 2)]
      else if r = 5 then some [(2, 1 / 2), (8, 1 / 2)] else none }

theorem exMesh_wf : exMesh.WF 2 := by
  refine ⟨?_, ?_, ?_⟩
  · intro c hc g hg
    have hc' : c = 0 ∨ c = 1 := by change c < 2 at hc; omega
    change g < 9
    rcases hc' with rfl | rfl <;> simp [exMesh, exCell] at hg <;> omega
  · intro r hr e he se hse
    change r < 9 at hr
    simp only [exMesh] at he ⊢
    interval_cases r <;> simp at he <;> subst he <;> simp at hse <;> rcases hse with rfl | rfl <;> simp
  · intro c hc
    have hc' : c = 0 ∨ c = 1 := by change c < 2 at hc; omega
    rcases hc' with rfl | rfl <;> simp [exMesh, exCell]

theorem exMesh_conforming {v : ℕ → ℝ} : Conforming exMesh v ↔
    v 3 = (v 0 + v 6) / 2 ∧ v 4 = (v 1 + v 7) / 2 ∧ v 5 = (v 2 + v 8) / 2 := by
  constructor
  · intro h
    have h3 := h 3 (by decide) [(0, 1 / 2), (6, 1 / 2)] (by simp [exMesh])
    have h4 := h 4 (by decide) [(1, 1 / 2), (7, 1 / 2)] (by simp [exMesh])
    have h5 := h 5 (by decide) [(2, 1 / 2), (8, 1 / 2)] (by simp [exMesh])
    simp only [List.map_cons, List.map_nil, List.sum_cons, List.sum_nil] at h3 h4 h5
    exact ⟨by linarith, by linarith, by linarith⟩
  · rintro ⟨h3, h4, h5⟩ r hr e he
    change r < 9 at hr
    simp only [exMesh] at he
    interval_cases r <;> simp at he <;> subst he <;> simp only [List.map_cons, List.map_nil, List.sum_cons, List.sum_nil] <;>
      linarith

theorem exMesh_field (v : ℕ → ℝ) (c q : ℕ) (hc : c < 2) (hq : q < 2) : field exMesh.comp (exMesh.cell c) v q
    = fun k : Fin 3 => (if q = 0 then 3 / 4 else 1 / 4) * v (3 * c + k) + (if q = 0 then 1 / 4 else 3 / 4) * v (3 * c + 3 + k) := by
  funext k
  unfold field
  interval_cases c <;> interval_cases q <;> fin_cases k <;>
    simp [exMesh, exCell, Finset.sum_filter, Finset.sum_range_succ] <;> ring

theorem exMesh_definite : Definite exMesh := by
  intro z hz h r hr
  rw [exMesh_conforming] at hz
  have h1 := fun k => congrFun (h 0 (by decide) 0 (by decide)) k
  have h2 := fun k => congrFun (h 0 (by decide) 1 (by decide)) k
  have h3 := fun k => congrFun (h 1 (by decide) 0 (by decide)) k
  have h4 := fun k => congrFun (h 1 (by decide) 1 (by decide)) k
  simp only [exMesh_field z _ _ (by norm_num : 0 < 2) (by norm_num : 0 < 2),
    exMesh_field z _ _ (by norm_num : 0 < 2) (by norm_num : 1 < 2),
    exMesh_field z _ _ (by norm_num : 1 < 2) (by norm_num : 0 < 2),
    exMesh_field z _ _ (by norm_num : 1 < 2) (by norm_num : 1 < 2)] at h1 h2 h3 h4
  simp [Fin.forall_fin_succ] at h1 h2 h3 h4
  change r < 9 at hr
  obtain ⟨a1, a2, a3⟩ := h1
  obtain ⟨b1, b2, b3⟩ := h2
  obtain ⟨c1, c2, c3⟩ := h3
  obtain ⟨d1, d2, d3⟩ := h4
  interval_cases r <;> linarith

theorem exMesh_jxw : ∀ c < exMesh.nCells, ∀ q < (exMesh.cell c).nq, 0 < (exMesh.cell c).jxw q := by
  intro c _ q _
  simp only [exMesh]
  split_ifs <;> simp [exCell]

theorem exMesh_regular (g : Cell 3 → ℕ → V3) : ∃ u, Solves exMesh g (fun _ _ => 1) 2 u := by
  obtain ⟨u, hu, _⟩ := C67_regular exMesh_wf exMesh_definite exMesh_jxw (fun _ _ => 1) (fun _ _ _ _ => one_pos) (by
    intro r hr hs
    change r < 9 at hr
    refine ⟨0, by decide, ?_⟩
    simp only [exMesh] at hs
    interval_cases r <;> simp at hs <;> simp [exMesh, exCell]) g
  exact ⟨u, hu⟩

/-- Hypotheses of `C67_projection`, `C67_best`, `C67_unique`, `C67_regular`: a mesh with a hanging node. -/
example : exMesh.WF 2 ∧ Definite exMesh ∧ (∀ c < exMesh.nCells, ∀ q < (exMesh.cell c).nq, 0 < (exMesh.cell c).jxw q) ∧
    ∃ u, Solves exMesh cellNormal (fun _ _ => 1) 2 u :=
  ⟨exMesh_wf, exMesh_definite, exMesh_jxw, exMesh_regular _⟩

/-- C67, `compute_normals`. The recovered normals need not be unit vectors although all normals of the cells are, even if
the system is solved exactly: between two cells with normals `e_x` and `e_y` the normal at the common node is
`(1/2, 1/2, 0)`. -/
theorem C67_normals_refuted : ∃ (T : Mesh 3) (procs : ℕ), T.WF procs ∧ Definite T ∧
    (∀ c < T.nCells, ∀ q < (T.cell c).nq, 0 < (T.cell c).jxw q ∧ ∑ k, (T.cell c).normal q k ^ 2 = 1) ∧
    (∃ u, Solves T cellNormal (fun _ _ => 1) procs u) ∧
    ∀ u, Solves T cellNormal (fun _ _ => 1) procs u →
      distribute T u 3 = 1 / 2 ∧ distribute T u 4 = 1 / 2 ∧ distribute T u 5 = 0 := by
  refine ⟨exMesh, 2, exMesh_wf, exMesh_definite, fun c hc q hq => ⟨exMesh_jxw c hc q hq, ?_⟩, exMesh_regular _,
    fun u hu => ?_⟩
  · simp only [exMesh]
    split_ifs <;> simp [exCell, Fin.sum_univ_three]
  have := C67_unique exMesh_wf exMesh_definite exMesh_jxw hu
    (fun r => if r = 0 then 13 / 10 else if r = 1 then -3 / 10 else if r = 3 then 1 / 2 else if r = 4 then 1 / 2
      else if r = 6 then -3 / 10 else if r = 7 then 13 / 10 else 0)
    (by rw [exMesh_conforming]; norm_num) (by
    intro w hw
    rw [exMesh_conforming] at hw
    obtain ⟨h3, h4, h5⟩ := hw
    have hin : ∀ f g : Cell 3 → ℕ → V3, inner exMesh f g = ∑ c ∈ Finset.range 2, ∑ q ∈ Finset.range 2,
        1 / 2 * ∑ k, f (exMesh.cell c) q k * g (exMesh.cell c) q k := by
      intro f g
      unfold inner
      refine Finset.sum_congr rfl fun c hc => ?_
      have hc' : c = 0 ∨ c = 1 := by
        have : c < 2 := Finset.mem_range.mp hc
        omega
      rcases hc' with rfl | rfl <;> rfl
    rw [hin]
    simp only [Finset.sum_range_succ, Finset.sum_range_zero, Mesh.field, Pi.sub_apply,
      exMesh_field _ _ _ (by norm_num : 0 < 2) (by norm_num : 0 < 2),
      exMesh_field _ _ _ (by norm_num : 0 < 2) (by norm_num : 1 < 2),
      exMesh_field _ _ _ (by norm_num : 1 < 2) (by norm_num : 0 < 2),
      exMesh_field _ _ _ (by norm_num : 1 < 2) (by norm_num : 1 < 2)]
    simp [Fin.sum_univ_three, exMesh, exCell, cellNormal, h3, h4, h5]
    ring)
  exact ⟨by rw [this 3 (by decide)]; norm_num, by rw [this 4 (by decide)]; norm_num, by rw [this 5 (by decide)]; norm_num⟩

/-- A unit square with edges `t`, `s`, normal `n`, piecewise constant vector element, bilinear scalar element with nodes
`4 b, ..., 4 b + 3`, one quadrature point. -/
def flatCell (b : ℕ) (t s n : V3) : Cell 3 :=
  { subdomain := b, dofs := [3 * b, 3 * b + 1, 3 * b + 2], nq := 1, shape := fun _ _ => 1, jxw := fun _ => 1
    normal := fun _ => n, sdofs := [4 * b, 4 * b + 1, 4 * b + 2, 4 * b + 3], sshape := fun _ _ => 1 / 4
    sgrad := fun j _ k => (if j = 1 ∨ j = 3 then 1 / 2 else -1 / 2) * t k + (if j = 2 ∨ j = 3 then 1 / 2 else -1 / 2) * s k }

/-- Two unit squares, in the planes `z = 0` and `y = 0`, with the common edge on the axis `x`. -/
def flatMesh : Mesh 3 :=
  { nCells := 2, nDofs := 6
    cell := fun c => if c = 0 then flatCell 0 ![1, 0, 0] ![0, 1, 0] ![0, 0, 1] else flatCell 1 ![1, 0, 0] ![0, 0, 1] ![0, 1, 0]
    comp := fun i => if i = 0 then 0 else if i = 1 then 1 else 2
    cs := fun _ => none }

/-- Positions of the nodes; the nodes of the common edge are double nodes. -/
def flatX (i : ℕ) : V3 :=
  (if i % 2 = 1 then ![1, 0, 0] else 0) + (if i = 2 ∨ i = 3 then ![0, 1, 0] else if i = 6 ∨ i = 7 then ![0, 0, 1] else 0)

/-- Hypotheses of `C67_linear` for the potential `1 + 2 x - y + 3 z`; the result is its gradient at all dofs. -/
example (u : ℕ → ℝ) (hu : Solves flatMesh (fullGrad (fun i => 1 + ∑ k, (![2, -1, 3] : V3) k * flatX i k)
      (fun i => if i < 4 then 3 else -1)) (fun _ _ => 1) 2 u) :
    ∀ r < 6, distribute flatMesh u r = if r % 3 = 0 then 2 else if r % 3 = 1 then -1 else 3 := by
  have hc2 : ∀ c, c < flatMesh.nCells → c = 0 ∨ c = 1 := fun c hc => by
    have : c < 2 := hc
    omega
  have hT : flatMesh.WF 2 := by
    refine ⟨fun c hc g hg => ?_, fun r _ e he => by simp [flatMesh] at he, fun c hc => ?_⟩
    · change g < 6
      rcases hc2 c hc with rfl | rfl <;> simp [flatMesh, flatCell] at hg <;> omega
    · rcases hc2 c hc with rfl | rfl <;> simp [flatMesh, flatCell]
  have hd : Definite flatMesh := by
    intro z _ h r hr
    change r < 6 at hr
    have h0 := fun k => congrFun (h 0 (by decide) 0 (by decide)) k
    have h1 := fun k => congrFun (h 1 (by decide) 0 (by decide)) k
    simp [field, flatMesh, flatCell, Fin.forall_fin_succ, Finset.sum_filter, Finset.sum_range_succ] at h0 h1
    obtain ⟨a, b, c⟩ := h0
    obtain ⟨a', b', c'⟩ := h1
    interval_cases r <;> assumption
  have hk : Nodal flatMesh (fun r => if r % 3 = 0 then 0 else if r % 3 = 1 then 1 else 2) := by
    refine ⟨fun c hc i hi => ?_, fun c hc q hq k => ?_, fun r _ e he => by simp [flatMesh] at he⟩
    · have hi3 : i < 3 := by rcases hc2 c hc with rfl | rfl <;> simpa [flatMesh, flatCell] using hi
      rcases hc2 c hc with rfl | rfl <;> interval_cases i <;> simp [flatMesh, flatCell]
    · rcases hc2 c hc with rfl | rfl <;> fin_cases k <;> simp [flatMesh, flatCell] <;> decide
  have h := C67_linear hT hd (fun c hc q _ => by rcases hc2 c hc with rfl | rfl <;> simp [flatMesh, flatCell]) hk flatX
    ![2, -1, 3] 1 (fun i => rfl) (fun c hc q _ i hi => by
      rcases hc2 c hc with rfl | rfl <;> simp [flatMesh, flatCell] at hi <;>
        rcases hi with rfl | rfl | rfl | rfl <;> simp [flatMesh, flatCell, Fin.sum_univ_three])
    (fun c hc q _ => by
      rcases hc2 c hc with rfl | rfl <;> simp [flatMesh, flatCell])
    (fun c hc q _ l => by
      rcases hc2 c hc with rfl | rfl <;> fin_cases l <;>
        simp [flatMesh, flatCell, Finset.sum_range_succ] <;> norm_num)
    (fun c hc q _ k l => by
      rcases hc2 c hc with rfl | rfl <;> fin_cases k <;> fin_cases l <;>
        simp [flatMesh, flatCell, Finset.sum_range_succ, flatX] <;> norm_num) hu
  intro r hr
  rw [h r hr]
  interval_cases r <;> simp

end PiBem.Grad
