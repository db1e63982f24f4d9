import Verif.Bem.Assemble
import Verif.Props.Product

/-!
# Dense matrices and their product (C64)
-/

noncomputable section

namespace PiBem.Bem

open PiBem.Octree PiBem.Expansion PiBem.Fmm

open Classical in
/-- Specification: the integral of the kernel of node `i` times the `j`-th shape function of cell `c`. If a local dof of
the cell is a double of `i`, the first such dof selects the singular quadrature; otherwise the regular quadrature. -/
def cellIntegral (inp : Input 3) (D : Data) (S : SingRule) (ker : Ker) (i c j : ℕ) : ℝ :=
  if h : ∃ s, s < (inp.cellDofs c).length ∧ (inp.cellDofs c).getD s 0 ∈ inp.doubles i then
    ((S c (Nat.find h)).map fun P => kernelValue ker (toV (inp.pos i)) P.pos P.normal * P.shape j * P.jxw).sum
  else ∑ q ∈ Finset.range inp.nq,
    kernelValue ker (toV (inp.pos i)) (toV (inp.qpos (c, q))) (D.normal (c, q)) * D.shape (c, q) j * D.jxw (c, q)

/-! ## Auxiliary facts -/

variable {inp : Input 3} {D : Data} {S : SingRule} {ker : Ker}

theorem singTerm_eq (i j : ℕ) (P : SingPoint) :
    singTerm inp ker i j P = kernelValue ker (toV (inp.pos i)) P.pos P.normal * P.shape j * P.jxw := by
  have hrev : rho (P.pos - toV (inp.pos i)) = rho (toV (inp.pos i) - P.pos) := rho_sub_comm _ _
  cases ker with
  | single =>
    simp only [singTerm, Kernel.kernels3, kernelValue, norm_eq_rho, hrev, rho_eq_sqrt]
    congr 3
    ring
  | double =>
    simp only [singTerm, Kernel.kernels3, kernelValue, norm_eq_rho, hrev, ← rho_eq_sqrt]
    congr 2
    rw [Fin.sum_univ_three]
    simp only [dot, Pi.sub_apply]
    generalize rho (toV (inp.pos i) - P.pos) = r
    by_cases hr : r = 0
    · simp [hr]
    · have := Real.pi_ne_zero
      field_simp
      ring

theorem foldl_add_sum {α : Type} (l : List α) (f : α → ℝ) (x : ℝ) :
    l.foldl (fun x a => x + f a) x = x + (l.map f).sum := by
  induction l generalizing x with
  | nil => simp
  | cons a l ih => rw [List.foldl_cons, ih, List.map_cons, List.sum_cons, add_assoc]

theorem singularIndex_some {i c s : ℕ} (h : singularIndex inp i c = some s) :
    s < (inp.cellDofs c).length ∧ (inp.cellDofs c).getD s 0 ∈ inp.doubles i ∧
      ∀ s' < s, (inp.cellDofs c).getD s' 0 ∉ inp.doubles i := by
  unfold singularIndex at h
  rw [List.findIdx?_eq_some_iff_getElem] at h
  obtain ⟨hs, h1, h2⟩ := h
  refine ⟨hs, ?_, fun s' hs' => ?_⟩
  · rw [List.getD_eq_getElem _ _ hs]; simpa using h1
  · rw [List.getD_eq_getElem _ _ (hs'.trans hs)]; simpa using h2 s' hs'

theorem singularIndex_none {i c : ℕ} (h : singularIndex inp i c = none) :
    ¬ ∃ s, s < (inp.cellDofs c).length ∧ (inp.cellDofs c).getD s 0 ∈ inp.doubles i := by
  unfold singularIndex at h
  rw [List.findIdx?_eq_none_iff] at h
  rintro ⟨s, hs, h1⟩
  rw [List.getD_eq_getElem _ _ hs] at h1
  have := h _ (List.getElem_mem hs)
  simp [h1] at this

open Classical in
theorem find_eq {i c s : ℕ} (h : singularIndex inp i c = some s)
    (h' : ∃ s, s < (inp.cellDofs c).length ∧ (inp.cellDofs c).getD s 0 ∈ inp.doubles i) : Nat.find h' = s := by
  obtain ⟨h1, h2, h3⟩ := singularIndex_some h
  rw [Nat.find_eq_iff]
  exact ⟨⟨h1, h2⟩, fun n hn hx => h3 n hn hx.2⟩

theorem localRow_eq (i c j : ℕ) : localRow inp D S ker i c j = cellIntegral inp D S ker i c j := by
  unfold localRow cellIntegral
  cases h : singularIndex inp i c with
  | none =>
    rw [dif_neg (singularIndex_none h)]
    simp only [foldl_add_sum, zero_add]
    rw [sum_range_list]
    exact Finset.sum_congr rfl fun q _ => kernel_spec i (c, q) j
  | some s =>
    have h' : ∃ s, s < (inp.cellDofs c).length ∧ (inp.cellDofs c).getD s 0 ∈ inp.doubles i :=
      ⟨s, (singularIndex_some h).1, (singularIndex_some h).2.1⟩
    rw [dif_pos h', find_eq h h']
    simp only [foldl_add_sum, zero_add, singTerm_eq]

/-- sums of additions to a row -/
theorem foldl_add_row (l : List ℕ) (i : ℕ) (col : ℕ → ℕ) (x : ℕ → ℝ) (M : Matr) (r k : ℕ) :
    l.foldl (fun M j => M.add i (col j) (x j)) M r k =
      M r k + if r = i then (l.map fun j => if col j = k then x j else 0).sum else 0 := by
  induction l generalizing M with
  | nil => simp
  | cons j l ih =>
    rw [List.foldl_cons, ih, List.map_cons, List.sum_cons]
    unfold Matr.add
    by_cases hr : r = i
    · subst hr
      simp only [Function.update_self, if_true]
      by_cases hk : k = col j
      · subst hk; simp [add_assoc]
      · rw [Function.update_of_ne hk, if_neg (Ne.symm hk), zero_add]
    · rw [Function.update_of_ne hr, if_neg hr, if_neg hr]

/-- contribution of a cell to an entry -/
def cellEntry (inp : Input 3) (D : Data) (S : SingRule) (ker : Ker) (i c k : ℕ) : ℝ :=
  ∑ j ∈ Finset.range (inp.cellDofs c).length,
    if (inp.cellDofs c).getD j 0 = k then cellIntegral inp D S ker i c j else 0

theorem addCellRow_apply (c : ℕ) (M : Matr) (i r k : ℕ) :
    addCellRow inp D S ker c M i r k = M r k + if r = i then cellEntry inp D S ker i c k else 0 := by
  unfold addCellRow cellEntry
  rw [foldl_add_row, sum_range_list]
  simp only [localRow_eq]

theorem foldl_rows (own : ℕ → Bool) (c : ℕ) (l : List ℕ) (hl : l.Nodup) (M : Matr) (r k : ℕ) :
    l.foldl (fun M i => if own i then addCellRow inp D S ker c M i else M) M r k =
      M r k + if r ∈ l ∧ own r then cellEntry inp D S ker r c k else 0 := by
  induction l generalizing M with
  | nil => simp
  | cons i l ih =>
    rw [List.foldl_cons, ih (List.nodup_cons.1 hl).2]
    have hi := (List.nodup_cons.1 hl).1
    by_cases ho : own i
    · simp only [ho, if_true, addCellRow_apply]
      by_cases hr : r = i
      · subst hr; simp [hi, ho]
      · simp [hr]
    · simp only [ho, Bool.false_eq_true, if_false]
      by_cases hr : r = i
      · subst hr; simp [hi, ho]
      · simp [hr]

theorem foldl_cells (own : ℕ → Bool) (l : List ℕ) (M : Matr) (r k : ℕ) :
    l.foldl (fun M c => (List.range inp.nDofs).foldl
      (fun M i => if own i then addCellRow inp D S ker c M i else M) M) M r k =
      M r k + (l.map fun c => if r < inp.nDofs ∧ own r then cellEntry inp D S ker r c k else 0).sum := by
  induction l generalizing M with
  | nil => simp
  | cons c l ih =>
    rw [List.foldl_cons, ih, foldl_rows _ _ _ List.nodup_range, List.map_cons, List.sum_cons]
    simp only [List.mem_range, add_assoc]

/-! ## C64 -/

/-- **C64** (entries). Row of an owned node of the dense matrices: the entry of column `k` is the sum over the cells and
over the local dofs with global index `k` of the integral of the kernel times the shape function. -/
theorem C64_dense_entry (inp : Input 3) (D : Data) (S : SingRule) (ker : Ker) (own : ℕ → Bool) (i : ℕ)
    (hi : i < inp.nDofs) (ho : own i = true) (k : ℕ) :
    assemble inp D S ker own i k = ∑ c ∈ Finset.range inp.nCells, ∑ j ∈ Finset.range (inp.cellDofs c).length,
      if (inp.cellDofs c).getD j 0 = k then cellIntegral inp D S ker i c j else 0 := by
  unfold assemble
  rw [foldl_cells, sum_range_list, zero_add]
  exact Finset.sum_congr rfl fun c _ => by rw [if_pos ⟨hi, ho⟩]; rfl

/-- **C64** (ownership). Rows of nodes of other processes stay zero. -/
theorem C64_dense_other_rows (inp : Input 3) (D : Data) (S : SingRule) (ker : Ker) (own : ℕ → Bool) (i : ℕ)
    (ho : own i = false) (k : ℕ) : assemble inp D S ker own i k = 0 := by
  unfold assemble
  rw [foldl_cells, sum_range_list, zero_add]
  exact Finset.sum_eq_zero fun c _ => by rw [if_neg (by simp [ho])]

/-- **C64** (partition). Summing the matrices of the processes gives the same matrix for all partitions of the rows: the
one of a single process. -/
theorem C64_partition (inp : Input 3) (D : Data) (S : SingRule) (ker : Ker) (procs : ℕ) (owner : ℕ → ℕ)
    (hown : ∀ i, owner i < procs) (i k : ℕ) :
    ∑ p ∈ Finset.range procs, assemble inp D S ker (fun i => decide (owner i = p)) i k =
      assemble inp D S ker (fun _ => true) i k := by
  have h : ∀ own, assemble inp D S ker own i k =
      if i < inp.nDofs ∧ own i then ∑ c ∈ Finset.range inp.nCells, cellEntry inp D S ker i c k else 0 := by
    intro own
    unfold assemble
    rw [foldl_cells, sum_range_list, zero_add]
    split_ifs <;> simp
  simp only [h]
  by_cases hi : i < inp.nDofs
  · simp only [hi, true_and, decide_eq_true_eq, if_true]
    rw [Finset.sum_ite_eq, if_pos (Finset.mem_range.2 (hown i))]
  · simp [hi]

theorem directProduct_withSing (ker : Ker) (i : ℕ) :
    directProduct inp (withSing inp D S ker) ker i = ∑ c ∈ Finset.range inp.nCells,
      ∑ j ∈ Finset.range (inp.cellDofs c).length, D.sol ((inp.cellDofs c).getD j 0) * cellIntegral inp D S ker i c j := by
  unfold directProduct
  refine Finset.sum_congr rfl fun c _ => Finset.sum_congr rfl fun j _ => ?_
  have hiff : (∃ k ∈ inp.cellDofs c, k ∈ inp.doubles i) ↔
      ∃ s, s < (inp.cellDofs c).length ∧ (inp.cellDofs c).getD s 0 ∈ inp.doubles i := by
    constructor
    · rintro ⟨k, hk, h⟩
      obtain ⟨s, hs, rfl⟩ := List.mem_iff_getElem.1 hk
      exact ⟨s, hs, by rw [List.getD_eq_getElem _ _ hs]; exact h⟩
    · rintro ⟨s, hs, h⟩
      rw [List.getD_eq_getElem _ _ hs] at h
      exact ⟨_, List.getElem_mem hs, h⟩
  show D.sol _ * _ = _
  congr 1
  rw [← localRow_eq]
  unfold localRow
  cases h : singularIndex inp i c with
  | none =>
    rw [if_neg (fun hx => singularIndex_none h (hiff.1 hx))]
    simp only [foldl_add_sum, zero_add]
    rw [sum_range_list]
    exact Finset.sum_congr rfl fun q _ => (kernel_spec i (c, q) j).symm
  | some s =>
    rw [if_pos (hiff.2 ⟨s, (singularIndex_some h).1, (singularIndex_some h).2.1⟩)]
    simp only [withSing, fmaSing, h]

/-- **C64** (product). The product of the dense matrix with a vector is the sum over the cells of the integrals times the
values of the vector at the dofs of the cells: the product without expansions to which C63 compares the fast multipole
one. -/
theorem C64_dense_product (inp : Input 3) (D : Data) (S : SingRule) (ker : Ker) (own : ℕ → Bool) (i : ℕ)
    (hi : i < inp.nDofs) (ho : own i = true) (hdof : ∀ c k, c < inp.nCells → k ∈ inp.cellDofs c → k < inp.nDofs) :
    denseProduct inp (assemble inp D S ker own) D.sol i = directProduct inp (withSing inp D S ker) ker i := by
  unfold denseProduct
  simp only [C64_dense_entry inp D S ker own i hi ho, Finset.sum_mul]
  rw [Finset.sum_comm, directProduct_withSing]
  refine Finset.sum_congr rfl fun c hc => ?_
  rw [Finset.sum_comm]
  refine Finset.sum_congr rfl fun j hj => ?_
  have hk : (inp.cellDofs c).getD j 0 < inp.nDofs := by
    rw [List.getD_eq_getElem _ _ (Finset.mem_range.1 hj)]
    exact hdof c _ (Finset.mem_range.1 hc) (List.getElem_mem _)
  simp only [ite_mul, zero_mul]
  rw [Finset.sum_ite_eq, if_pos (Finset.mem_range.2 hk), mul_comm]

/-- Specification: how much the two families of singular quadratures differ on the cells of node `i`, weighted by the
vector. -/
def singularGap (inp : Input 3) (D : Data) (S S' : SingRule) (ker : Ker) (i : ℕ) : ℝ :=
  ∑ c ∈ Finset.range inp.nCells, ∑ j ∈ Finset.range (inp.cellDofs c).length,
    |D.sol ((inp.cellDofs c).getD j 0)| * |cellIntegral inp D S ker i c j - cellIntegral inp D S' ker i c j|

/-- with the same singular quadratures there is no gap -/
theorem singularGap_self (i : ℕ) : singularGap inp D S S ker i = 0 := by simp [singularGap]

/-- on cells not containing the node (nor its doubles) there is no gap, whatever the singular quadratures -/
theorem cellIntegral_regular {S' : SingRule} {i c : ℕ} (j : ℕ) (h : ∀ k ∈ inp.cellDofs c, k ∉ inp.doubles i) :
    cellIntegral inp D S ker i c j = cellIntegral inp D S' ker i c j := by
  have : ¬ ∃ s, s < (inp.cellDofs c).length ∧ (inp.cellDofs c).getD s 0 ∈ inp.doubles i := by
    rintro ⟨s, hs, h1⟩
    rw [List.getD_eq_getElem _ _ hs] at h1
    exact h _ (List.getElem_mem hs) h1
  unfold cellIntegral
  rw [dif_neg this, dif_neg this]

/-- **C64** (the two methods). For every mesh, every vector, every execution of the fast multipole product and all
partitions, the difference between the fast multipole product and the product with the dense matrix is at most the
truncation error of C63 plus the difference of the singular quadratures used by the two methods (`QTelles` versus
`QSplit(QDuffy)`) on the cells containing the node. Hypotheses as in C63. -/
theorem C64_methods_agree (inp : Input 3) (D : Data) (S S' : SingRule) (ker : Ker) (hlev : 1 ≤ inp.levels)
    (hnq : 0 < inp.nq) (hself : ∀ i, i < inp.nDofs → i ∈ inp.doubles i)
    (hdof : ∀ c k, c < inp.nCells → k ∈ inp.cellDofs c → k < inp.nDofs) (hp : D.p ≤ 10)
    (hroot : ∀ c q a, c < inp.nCells → q < inp.nq → |inp.qpos (c, q) a| ≤ 11 / 10 * maxCoor inp)
    (hn : ∀ q, rho (D.normal q) = 1) (hside : (12 / 10 : ℝ) * 1e-7 ≤ side inp)
    (hreg : Regular inp D ker (build inp))
    (hnode : ∀ b ∈ (build inp).childless, ∀ i ∈ ((build inp).blocks b).nodes,
      inp.pos i ≠ centre ((build inp).blocks b))
    (own own' : ℕ → Bool) (out : ℕ → ℝ) (hx : NFmmExec inp (withSing inp D S ker) ker (build inp) own out)
    (i : ℕ) (hi : i < inp.nDofs) (ho : own i = true) (ho' : own' i = true) :
    |out i - denseProduct inp (assemble inp D S' ker own') D.sol i| ≤
      sourceMass inp D i * truncation ker D.p (side inp) + singularGap inp D S S' ker i := by
  have h1 := C63_product_error inp (withSing inp D S ker) ker hlev hnq hself hp hroot hn hside hreg hnode own out hx i hi ho
  have h2 : |directProduct inp (withSing inp D S ker) ker i - denseProduct inp (assemble inp D S' ker own') D.sol i| ≤
      singularGap inp D S S' ker i := by
    rw [C64_dense_product inp D S' ker own' i hi ho' hdof, directProduct_withSing, directProduct_withSing,
      ← Finset.sum_sub_distrib]
    unfold singularGap
    refine (Finset.abs_sum_le_sum_abs _ _).trans (Finset.sum_le_sum fun c _ => ?_)
    rw [← Finset.sum_sub_distrib]
    refine (Finset.abs_sum_le_sum_abs _ _).trans (Finset.sum_le_sum fun j _ => ?_)
    rw [← mul_sub, abs_mul]
  have h3 : sourceMass inp (withSing inp D S ker) i = sourceMass inp D i := rfl
  rw [h3] at h1
  calc _ = |(out i - directProduct inp (withSing inp D S ker) ker i) +
        (directProduct inp (withSing inp D S ker) ker i - denseProduct inp (assemble inp D S' ker own') D.sol i)| := by
        congr 1; ring
    _ ≤ _ := (abs_add_le _ _).trans (add_le_add h1 h2)

/-! ### A concrete case: the cube -/

/-- one singular point for each local dof -/
def cubeRule : SingRule := fun c s => [⟨![1, s, c + 2], ![1, 0, 0], fun j => j, 1⟩]

example (own own' : ℕ → Bool) (ho : own 2 = true) (ho' : own' 2 = true) (ker : Ker) (out : ℕ → ℝ)
    (hx : NFmmExec (cubeInput 3 0) (withSing (cubeInput 3 0) cubeData cubeRule ker) ker (build (cubeInput 3 0)) own out) :
    |out 2 - denseProduct (cubeInput 3 0) (assemble (cubeInput 3 0) cubeData cubeRule ker own') cubeData.sol 2| ≤
      sourceMass (cubeInput 3 0) cubeData 2 * truncation ker 6 (22 / 80) := by
  have hd : ∀ c, c < 6 → ∀ k ∈ (cubeInput 3 0).cellDofs c, k < 8 := by decide +kernel
  rw [C64_dense_product (cubeInput 3 0) cubeData cubeRule ker own' 2 (by decide) ho' (fun c k hc => hd c hc k)]
  exact cube_product_error own ho ker _ out hx

end PiBem.Bem
