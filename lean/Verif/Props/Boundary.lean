import Verif.Bem.Boundary
import Verif.Props.Nodes

/-!
# C36, C37: boundary data and final shift
-/

namespace PiBem.Bem

variable {n d : ℕ}

/-! ## C36 -/

/-- Specification: datum that a cell of material `mat` prescribes at node `i`: the potential on Dirichlet cells, the
normal component of the wind on Neumann cells, zero on the others. -/
noncomputable def datum (B : BoundaryData n d) (mat : ℕ) (i : Fin n) : ℝ :=
  if mat ∈ B.dirichletIds then B.potential i else if mat ∈ B.neumannIds then dot (B.wind i) (B.normal i) else 0

/-- Materials of the cells containing a node, in mesh order. -/
def materialsAt (cells : List (BCell n)) (i : Fin n) : List ℕ :=
  (cells.filter (fun c => decide (i ∈ c.dofs))).map (fun c => c.material)

theorem prepareDof_eq (B : BoundaryData n d) (mat : ℕ) (v : BemVectors n) (i : Fin n) :
    prepareDof B mat v i =
      ⟨if mat ∈ B.dirichletIds then Function.update v.phi i (B.potential i) else v.phi,
       if mat ∈ B.dirichletIds then v.dphi else Function.update v.dphi i (datum B mat i),
       Function.update v.tmpRhs i (datum B mat i)⟩ := by
  have h1 : (B.dirichletIds.any (fun k => mat == k)) = true ↔ mat ∈ B.dirichletIds := by simp
  have h2 : (B.neumannIds.any (fun k => mat == k)) = true ↔ mat ∈ B.neumannIds := by simp
  unfold prepareDof datum
  by_cases hd : mat ∈ B.dirichletIds
  · rw [if_pos (h1.mpr hd)]; simp [hd]
  · rw [if_neg (fun h => hd (h1.mp h))]
    by_cases hn : mat ∈ B.neumannIds
    · rw [if_pos (h2.mpr hn)]; simp [hd, hn]
    · rw [if_neg (fun h => hn (h2.mp h))]; simp [hd, hn]

theorem prepare_cell (B : BoundaryData n d) (own : Fin n → ℕ) (proc mat : ℕ) (l : List (Fin n)) (v : BemVectors n)
    (i : Fin n) (hi : own i = proc) :
    let v' := l.foldl (fun v i => if own i = proc then prepareDof B mat v i else v) v
    v'.phi i = (if i ∈ l ∧ mat ∈ B.dirichletIds then B.potential i else v.phi i) ∧
    v'.dphi i = (if i ∈ l ∧ mat ∉ B.dirichletIds then datum B mat i else v.dphi i) ∧
    v'.tmpRhs i = (if i ∈ l then datum B mat i else v.tmpRhs i) := by
  induction l generalizing v with
  | nil => simp
  | cons a t ih =>
    simp only [List.foldl_cons]
    obtain ⟨e1, e2, e3⟩ := ih (if own a = proc then prepareDof B mat v a else v)
    rw [e1, e2, e3]
    by_cases hia : i = a
    · subst hia
      rw [if_pos hi, prepareDof_eq]
      by_cases hd : mat ∈ B.dirichletIds <;> by_cases ht : i ∈ t <;> simp [hd, ht]
    · have hne : a ≠ i := Ne.symm hia
      by_cases ha : own a = proc
      · rw [if_pos ha, prepareDof_eq]
        by_cases hd : mat ∈ B.dirichletIds <;> by_cases ht : i ∈ t <;> simp [hd, ht, hia]
      · rw [if_neg ha]; simp [hia]

/-- The content of the three vectors in terms of the materials around the node. -/
theorem prepare_eq (B : BoundaryData n d) (cells : List (BCell n)) (own : Fin n → ℕ) (i : Fin n) :
    (prepareBemVectors B cells own).phi i =
      (if ∃ m ∈ materialsAt cells i, m ∈ B.dirichletIds then B.potential i else 0) ∧
    (prepareBemVectors B cells own).dphi i =
      (((materialsAt cells i).filter (fun m => decide (m ∉ B.dirichletIds))).getLast?.map
        (fun m => datum B m i)).getD 0 ∧
    (prepareBemVectors B cells own).tmpRhs i = ((materialsAt cells i).getLast?.map (fun m => datum B m i)).getD 0 := by
  unfold prepareBemVectors prepareLocal
  simp only
  generalize hz : (⟨fun _ => 0, fun _ => 0, fun _ => 0⟩ : BemVectors n) = z
  have key : ∀ (cells : List (BCell n)),
      let v := cells.foldl (fun v cell => cell.dofs.foldl
        (fun v j => if own j = own i then prepareDof B cell.material v j else v) v) z
      v.phi i = (if ∃ m ∈ materialsAt cells i, m ∈ B.dirichletIds then B.potential i else 0) ∧
      v.dphi i = (((materialsAt cells i).filter (fun m => decide (m ∉ B.dirichletIds))).getLast?.map
        (fun m => datum B m i)).getD 0 ∧
      v.tmpRhs i = ((materialsAt cells i).getLast?.map (fun m => datum B m i)).getD 0 := by
    intro cells
    induction cells using List.reverseRecOn with
    | nil => subst hz; simp [materialsAt]
    | append_singleton t a ih =>
      simp only [List.foldl_append, List.foldl_cons, List.foldl_nil] at ih ⊢
      obtain ⟨i1, i2, i3⟩ := ih
      obtain ⟨e1, e2, e3⟩ := prepare_cell B own (own i) a.material a.dofs
        (t.foldl (fun v cell => cell.dofs.foldl
          (fun v j => if own j = own i then prepareDof B cell.material v j else v) v) z) i rfl
      rw [e1, e2, e3, i1, i2, i3]
      by_cases ha : i ∈ a.dofs
      · have hm : materialsAt (t ++ [a]) i = materialsAt t i ++ [a.material] := by
          simp [materialsAt, List.filter_append, ha]
        rw [hm]
        by_cases hd : a.material ∈ B.dirichletIds
        · refine ⟨?_, ?_, ?_⟩
          · rw [if_pos ⟨ha, hd⟩, if_pos ⟨a.material, by simp, hd⟩]
          · simp [ha, hd, List.filter_append]
          · simp [ha]
        · refine ⟨?_, ?_, ?_⟩
          · simp [ha, hd, or_and_right, exists_or]
          · simp [ha, hd, List.filter_append]
          · simp [ha]
      · have hm : materialsAt (t ++ [a]) i = materialsAt t i := by
          simp [materialsAt, List.filter_append, ha]
        rw [hm]
        simp [ha]
  exact key cells

/-- **C36**. If all the cells containing a node have the same Dirichlet/non-Dirichlet type and prescribe the same
datum there, the vectors handed to the solver do not depend on the order of the cells nor on the partition: on a
Dirichlet node `phi` and the right hand side datum are the potential (and `dphi_dn` is zero), on the others
`dphi_dn` and the datum are the prescribed normal derivative (and `phi` is zero). -/
theorem C36_consistent_data (B : BoundaryData n d) (cells : List (BCell n)) (own : Fin n → ℕ) (i : Fin n)
    (c : BCell n) (hc : c ∈ cells) (hic : i ∈ c.dofs)
    (hsame : ∀ c' ∈ cells, i ∈ c'.dofs → (c'.isDirichlet B.dirichletIds ↔ c.isDirichlet B.dirichletIds) ∧
      datum B c'.material i = datum B c.material i) :
    let v := prepareBemVectors B cells own
    (c.isDirichlet B.dirichletIds → v.phi i = B.potential i ∧ v.tmpRhs i = B.potential i ∧ v.dphi i = 0) ∧
    (¬ c.isDirichlet B.dirichletIds → v.phi i = 0 ∧ v.tmpRhs i = datum B c.material i ∧
      v.dphi i = datum B c.material i) := by
  intro v
  obtain ⟨e1, e2, e3⟩ := prepare_eq B cells own i
  have hmem : ∀ m, m ∈ materialsAt cells i ↔ ∃ c' ∈ cells, i ∈ c'.dofs ∧ c'.material = m := by
    intro m
    simp only [materialsAt, List.mem_map, List.mem_filter, decide_eq_true_eq]
    constructor
    · rintro ⟨c', ⟨h1, h2⟩, h3⟩; exact ⟨c', h1, h2, h3⟩
    · rintro ⟨c', h1, h2, h3⟩; exact ⟨c', ⟨h1, h2⟩, h3⟩
  have hcm : c.material ∈ materialsAt cells i := (hmem _).mpr ⟨c, hc, hic, rfl⟩
  have hall : ∀ m ∈ materialsAt cells i, (m ∈ B.dirichletIds ↔ c.material ∈ B.dirichletIds) ∧
      datum B m i = datum B c.material i := by
    intro m hm
    obtain ⟨c', h1, h2, rfl⟩ := (hmem m).mp hm
    exact hsame c' h1 h2
  have last : ∀ (l : List ℕ), c.material ∈ l → (∀ m ∈ l, datum B m i = datum B c.material i) →
      (l.getLast?.map (fun m => datum B m i)).getD 0 = datum B c.material i := by
    intro l hl hd
    have hne : l ≠ [] := by rintro rfl; simp at hl
    rw [List.getLast?_eq_some_getLast hne]
    exact hd _ (List.getLast_mem hne)
  refine ⟨fun hd => ?_, fun hd => ?_⟩
  · have hdat : datum B c.material i = B.potential i := by unfold datum; rw [if_pos (show c.material ∈ B.dirichletIds from hd)]
    refine ⟨?_, ?_, ?_⟩
    · rw [e1, if_pos ⟨_, hcm, hd⟩]
    · rw [e3, last _ hcm (fun m hm => (hall m hm).2), hdat]
    · rw [e2]
      have : (materialsAt cells i).filter (fun m => decide (m ∉ B.dirichletIds)) = [] := by
        rw [List.filter_eq_nil_iff]
        intro m hm
        simpa using (hall m hm).1.mpr hd
      rw [this]; rfl
  · refine ⟨?_, ?_, ?_⟩
    · rw [e1, if_neg]
      rintro ⟨m, hm, hmd⟩
      exact hd ((hall m hm).1.mp hmd)
    · rw [e3, last _ hcm (fun m hm => (hall m hm).2)]
    · rw [e2, last]
      · rw [List.mem_filter]; exact ⟨hcm, by simpa [BCell.isDirichlet] using hd⟩
      · intro m hm; exact (hall m (List.mem_of_mem_filter hm)).2

/-- **C36** together with the classification of the nodes (C29): under the same condition at every node the data
satisfy the hypotheses of `C25_after_solve`: `phi` is the datum on Dirichlet nodes, `dphi_dn` on the others. -/
theorem C36_data_for_solver (B : BoundaryData n d) (cells : List (BCell n)) (own : Fin n → ℕ)
    (hown : ∀ i, ∃ c ∈ cells, c.subdomain = own i ∧ i ∈ c.dofs)
    (hsame : ∀ c ∈ cells, ∀ c' ∈ cells, ∀ i, i ∈ c.dofs → i ∈ c'.dofs →
      (c'.isDirichlet B.dirichletIds ↔ c.isDirichlet B.dirichletIds) ∧
      datum B c'.material i = datum B c.material i) (i : Fin n) :
    (dirichletNodes B.dirichletIds cells own i = 1 →
      (prepareBemVectors B cells own).phi i = (prepareBemVectors B cells own).tmpRhs i) ∧
    (dirichletNodes B.dirichletIds cells own i ≠ 1 →
      (prepareBemVectors B cells own).dphi i = (prepareBemVectors B cells own).tmpRhs i) := by
  obtain ⟨c, hc, h1, h2⟩ := hown i
  have hcons := C36_consistent_data B cells own i c hc h2 (fun c' hc' h => hsame c hc c' hc' i h2 h)
  have hiff : dirichletNodes B.dirichletIds cells own i = 1 ↔ c.isDirichlet B.dirichletIds := by
    rw [(C29_complementary B.dirichletIds cells own i).2]
    constructor
    · rintro ⟨c', hc', _, h4, h5⟩
      exact (hsame c hc c' hc' i h2 h5).1.mp h4
    · intro h; exact ⟨c, hc, h1, h, h2⟩
  refine ⟨fun h => ?_, fun h => ?_⟩
  · obtain ⟨a, b, _⟩ := hcons.1 (hiff.mp h)
    rw [a, b]
  · obtain ⟨_, b, e⟩ := hcons.2 (fun hd => h (hiff.mpr hd))
    rw [b, e]

/-- Non-vacuity of C36: a Dirichlet and a Neumann cell with different nodes. -/
example :
    let B : BoundaryData 2 1 := ⟨![5, 6], fun _ _ => 2, fun _ _ => 1, [7], [8]⟩
    let cells : List (BCell 2) := [⟨0, 7, [0]⟩, ⟨0, 8, [1]⟩]
    (prepareBemVectors B cells (fun _ => 0)).phi 0 = 5 ∧ (prepareBemVectors B cells (fun _ => 0)).dphi 1 = 2 := by
  intro B cells
  refine ⟨?_, ?_⟩
  · refine ((C36_consistent_data B cells (fun _ => 0) 0 ⟨0, 7, [0]⟩ (by simp [cells]) (by simp) ?_).1
      (by simp [BCell.isDirichlet, B])).1.trans (by simp [B])
    intro c' hc' h
    simp only [cells, List.mem_cons, List.not_mem_nil, or_false] at hc'
    rcases hc' with rfl | rfl
    · exact ⟨Iff.rfl, rfl⟩
    · simp at h
  · refine ((C36_consistent_data B cells (fun _ => 0) 1 ⟨0, 8, [1]⟩ (by simp [cells]) (by simp) ?_).2
      (by simp [BCell.isDirichlet, B])).2.2.trans (by simp [B, datum, dot])
    intro c' hc' h
    simp only [cells, List.mem_cons, List.not_mem_nil, or_false] at hc'
    rcases hc' with rfl | rfl
    · simp at h
    · exact ⟨Iff.rfl, rfl⟩

/-- **C36**, refutation for nodes shared by cells of different type: the datum is the one of the last cell. With a
Dirichlet cell before a Neumann cell the shared node is a Dirichlet node whose datum, used as potential by the
solver, is the normal derivative of the other cell; exchanging the order of the cells changes the datum. -/
theorem C36_shared_node_refuted :
    ∃ (B : BoundaryData 1 1) (c c' : BCell 1),
      dirichletNodes B.dirichletIds [c, c'] (fun _ => 0) 0 = 1 ∧
      (prepareBemVectors B [c, c'] (fun _ => 0)).phi 0 = B.potential 0 ∧
      (prepareBemVectors B [c, c'] (fun _ => 0)).tmpRhs 0 = dot (B.wind 0) (B.normal 0) ∧
      (prepareBemVectors B [c', c] (fun _ => 0)).tmpRhs 0 = B.potential 0 ∧
      dot (B.wind 0) (B.normal 0) ≠ B.potential 0 := by
  refine ⟨⟨fun _ => 5, fun _ _ => 2, fun _ _ => 1, [7], [8]⟩, ⟨0, 7, [0]⟩, ⟨0, 8, [0]⟩, ?_, ?_, ?_, ?_, ?_⟩
  · rw [(C29_complementary _ _ _ _).2]
    exact ⟨⟨0, 7, [0]⟩, by simp, rfl, by simp [BCell.isDirichlet], by simp⟩
  · rw [(prepare_eq _ _ _ _).1]; simp [materialsAt]
  · rw [(prepare_eq _ _ _ _).2.2]; simp [materialsAt, datum]
  · rw [(prepare_eq _ _ _ _).2.2]; simp [materialsAt, datum]
  · simp [dot]

/-! ## C37 -/

/-- **C37**. In a pure Neumann problem, if process 0 owns at least one dof, the shifted potential equals the exact
potential at the first dof of process 0, all differences of the potential are unchanged, and the boundary integral
equation holds after the shift at exactly the nodes where it held before (`alpha` as computed, C27). If process 0
owns no dof the behaviour is undefined. With a Dirichlet boundary nothing is changed. -/
theorem C37_final_shift (potential phi : Vec n) (own : Fin n → ℕ) :
    finalShift true potential own phi = some phi ∧
    (finalShift false potential own phi = none ↔ ∀ i, own i ≠ 0) ∧
    ∀ phi', finalShift false potential own phi = some phi' →
      (∃ i0, own i0 = 0 ∧ (∀ j, own j = 0 → i0 ≤ j) ∧ phi' i0 = potential i0) ∧
      (∀ i j, phi' i - phi' j = phi i - phi j) ∧
      ∀ (N D : Mat n) (alpha dphi : Vec n), (∀ i, alpha i + ∑ j, N i j = 0) →
        ∀ i, BIE N D alpha phi' dphi i ↔ BIE N D alpha phi dphi i := by
  refine ⟨by simp [finalShift], ?_, ?_⟩
  · unfold finalShift
    cases h : (List.finRange n).find? (fun i => own i == 0) with
    | none =>
      simp only [Bool.false_eq_true, if_false, true_iff]
      intro i hi
      rw [List.find?_eq_none] at h
      exact h i (List.mem_finRange i) (by simp [hi])
    | some i0 =>
      simp only [Bool.false_eq_true, if_false, reduceCtorEq, false_iff]
      have := List.find?_some h
      intro hn
      exact hn i0 (by simpa using this)
  · intro phi' h
    unfold finalShift at h
    cases hf : (List.finRange n).find? (fun i => own i == 0) with
    | none => rw [hf] at h; simp at h
    | some i0 =>
      rw [hf] at h
      simp only [Bool.false_eq_true, if_false, Option.some.injEq] at h
      subst h
      refine ⟨⟨i0, by simpa using List.find?_some hf, fun j hj => ?_, by simp [vectorShift]⟩,
        fun i j => by simp [vectorShift], fun N D alpha dphi ha i => ?_⟩
      · rw [List.find?_eq_some_iff_append] at hf
        obtain ⟨_, l1, l2, hs, h1⟩ := hf
        by_contra hlt
        push Not at hlt
        have hjm : j ∈ l1 ++ i0 :: l2 := by rw [← hs]; exact List.mem_finRange j
        have hp : (l1 ++ i0 :: l2).Pairwise (· < ·) := by rw [← hs]; exact (List.sortedLT_finRange n).pairwise
        rcases List.mem_append.mp hjm with hj1 | hj2
        · have := h1 j hj1; simp [hj] at this
        · rcases List.mem_cons.mp hj2 with rfl | hj2
          · exact lt_irrefl _ hlt
          · have := (List.pairwise_cons.mp (List.pairwise_append.mp hp).2.1).1 j hj2
            exact lt_asymm this hlt
      · unfold BIE vectorShift
        have : ∑ j, N i j * (phi j + (potential i0 - phi i0)) =
            ∑ j, N i j * phi j + (∑ j, N i j) * (potential i0 - phi i0) := by
          simp only [mul_add, Finset.sum_add_distrib, ← Finset.sum_mul]
        rw [this]
        have h0 := ha i
        constructor <;> intro hb
        · linear_combination hb - (potential i0 - phi i0) * h0
        · linear_combination hb + (potential i0 - phi i0) * h0

/-- Non-vacuity of C37: process 0 owns only the second node. -/
example : finalShift false ![10, 20] (fun i : Fin 2 => if i = 0 then 1 else 0) ![1, 2] = some ![19, 20] := by
  have hf : (List.finRange 2).find? (fun i : Fin 2 => (if i = 0 then 1 else 0) == 0) = some 1 := by decide
  unfold finalShift
  rw [if_neg (by decide), hf]
  simp only [Option.some.injEq]
  funext i
  fin_cases i <;> simp [vectorShift] <;> norm_num

end PiBem.Bem
