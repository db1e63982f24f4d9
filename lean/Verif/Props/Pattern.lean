import Verif.Fmm.PatternFacts
import Verif.Octree.Example

/-!
# C71: sparsity patterns of the near field and of the preconditioner

`PatExec inp T own P`: some execution of the first half of `direct_integrals` on the process owning the rows `own`
ends with the pattern `P`. `DirectWriteExec inp T own M W`: some execution of the second half assembles the near field
`M` (the collection of the elementary integrals of each row) and calls `add` at the positions `W`. `FinalPatExec`: some
execution of the first loop of `FMA_preconditioner`. The executions include all the schedules of the threads and all
the reuses of buffers. An `add` or `set` outside of the pattern is an error of Trilinos.
-/

namespace PiBem.Fmm

open PiBem.Octree PiBem.WorkStream

/-- the cell an elementary integral is over -/
def Contr.cell : Contr → ℕ
  | .reg c _ => c
  | .sing c => c

theorem cellOf_eq : ∀ x, cellOf x = Contr.cell x
  | .reg _ _ => rfl
  | .sing _ => rfl

/-- **C71**. Whatever the schedules of the two phases, the positions at which the assembly of the near field adds
something are exactly those of the pattern built before, and a position `(i, j)` is in the pattern iff an integral over
a cell having the dof `j` is in the near field row of `i`: no entry is missing and none is superfluous. -/
theorem C71_pattern_exact (inp : Input 3) (hlev : 1 ≤ inp.levels) (own : ℕ → Bool) (P W : Pat)
    (M : ℕ → Multiset Contr) (hP : PatExec inp (build inp) own P) (hM : DirectWriteExec inp (build inp) own M W) :
    W = P ∧ ∀ i j, (i, j) ∈ P ↔ ∃ x ∈ M i, j ∈ inp.cellDofs x.cell := by
  have t := build_tree (Or.inr rfl) inp
  obtain ⟨h1, h2⟩ := directWriteExec_eq t hM
  have h3 := patExec_eq hP
  rw [patResult_eq (Or.inr rfl) t hlev] at h3
  refine ⟨h2.trans h3.symm, ?_⟩
  intro i j
  rw [h3, mem_writeResult, h1]
  simp only [cellOf_eq]

/-- **C71**. Only rows of nodes owned by the process are created, and they are those of a serial run. -/
theorem C71_pattern_rows (inp : Input 3) (hlev : 1 ≤ inp.levels) (own : ℕ → Bool) (P Pserial : Pat)
    (hP : PatExec inp (build inp) own P) (hS : PatExec inp (build inp) (fun _ => true) Pserial) (i j : ℕ) :
    ((i, j) ∈ P → i < inp.nDofs ∧ own i = true) ∧ (own i = true → ((i, j) ∈ P ↔ (i, j) ∈ Pserial)) := by
  have t := build_tree (Or.inr rfl) inp
  rw [patExec_eq hP, patExec_eq hS, patResult_eq (Or.inr rfl) t hlev, patResult_eq (Or.inr rfl) t hlev]
  refine ⟨writeResult_row t, fun ho => ?_⟩
  rw [writeResult_own own]
  simp [ho]

/-- **C71**. The row of an owned node has an entry for every dof of every cell containing the node or one of its
doubles; in particular the diagonal entry is there. -/
theorem C71_pattern_singular (inp : Input 3) (hlev : 1 ≤ inp.levels) (hnq : 0 < inp.nq)
    (own : ℕ → Bool) (P : Pat) (hP : PatExec inp (build inp) own P) (i c k j : ℕ) (hi : i < inp.nDofs)
    (ho : own i = true) (hc : c < inp.nCells) (hk : k ∈ inp.cellDofs c) (hki : k ∈ inp.doubles i)
    (hj : j ∈ inp.cellDofs c) : (i, j) ∈ P := by
  have t := build_tree (Or.inr rfl) inp
  rw [patExec_eq hP, patResult_eq (Or.inr rfl) t hlev]
  refine write_singular (Or.inr rfl) t hlev hnq hi ho hc ?_ hj
  unfold isSingular
  rw [List.any_eq_true]
  exact ⟨k, hk, decide_eq_true hki⟩

theorem C71_executions_exist (inp : Input 3) (own : ℕ → Bool) :
    (∃ P, PatExec inp (build inp) own P) ∧ ∃ M W, DirectWriteExec inp (build inp) own M W :=
  ⟨patExec_exists _ _ _, directWriteExec_exists _ _ _⟩

/-- nodes 0, 2 of the cube: the pattern of the process owning the even nodes has the positions (0, 0) and (2, 2), and
no row 1 -/
example : ∃ P M W, PatExec (cubeInput 3 0) (build (cubeInput 3 0)) (fun i => i % 2 = 0) P ∧
    DirectWriteExec (cubeInput 3 0) (build (cubeInput 3 0)) (fun i => i % 2 = 0) M W ∧ W = P ∧ (2, 2) ∈ P ∧
    ∀ j, (1, j) ∉ P := by
  obtain ⟨⟨P, hP⟩, M, W, hM⟩ := C71_executions_exist (cubeInput 3 0) (fun i => i % 2 = 0)
  obtain ⟨⟨Q, hQ⟩, _⟩ := C71_executions_exist (cubeInput 3 0) (fun _ => true)
  refine ⟨P, M, W, hP, hM, (C71_pattern_exact _ (by decide) _ _ _ _ hP hM).1, ?_, ?_⟩
  · exact C71_pattern_singular (cubeInput 3 0) (by decide) (by decide) _ P hP 2 0 2 2 (by decide) (by decide)
      (by decide) (by decide) (by decide) (by decide)
  · intro j hj
    have := ((C71_pattern_rows (cubeInput 3 0) (by decide) _ P Q hP hQ 1 j).1 hj).2
    simp at this

/-- **C71**. The pattern of the preconditioner: the row of an owned constrained node has the diagonal and the columns
of its constraint, the row of another owned node is the row of the near field pattern, there is no other row; whatever
the schedule and the reuse of the buffers (the row index of a recycled buffer is not reset). -/
theorem C71_final_pattern (inp : Input 3) (hlev : 1 ≤ inp.levels) (hdof : ∀ c, ∀ j ∈ inp.cellDofs c, j < inp.nDofs)
    (own : ℕ → Bool) (c : ℕ → Option (List ℕ)) (inv : ℕ) (P F : Pat) [DecidablePred (· ∈ P)]
    (hP : PatExec inp (build inp) own P) (hF : FinalPatExec inp.nDofs inv own c P F) (i j : ℕ) :
    (i, j) ∈ F ↔ i < inp.nDofs ∧ own i = true ∧
      ((∃ es, c i = some es ∧ (j = i ∨ j ∈ es)) ∨ (c i = none ∧ (i, j) ∈ P)) := by
  have t := build_tree (Or.inr rfl) inp
  rw [mem_finalPat hF]
  refine and_congr_right fun hi => and_congr_right fun ho => ?_
  rcases hc : c i with _ | es
  · simp only [reduceCtorEq, false_and, exists_false, true_and, false_or, and_iff_right_iff_imp]
    intro h
    rw [patExec_eq hP, patResult_eq (Or.inr rfl) t hlev, mem_writeResult] at h
    obtain ⟨x, _, hx⟩ := h
    exact hdof _ _ hx
  · simp

/-- **C71**. Every position set by the two `parallel_for` of `FMA_preconditioner` (the entries, then the diagonal of
every owned row) is in the pattern, and every position of the pattern is set by the first of them. -/
theorem C71_final_writes (inp : Input 3) (hlev : 1 ≤ inp.levels) (hnq : 0 < inp.nq)
    (hself : ∀ i, i < inp.nDofs → i ∈ inp.doubles i)
    (hcell : ∀ i, i < inp.nDofs → ∃ k, k < inp.nCells ∧ i ∈ inp.cellDofs k)
    (own : ℕ → Bool) (c : ℕ → Option (List ℕ)) (inv : ℕ) (P F : Pat) [DecidablePred (· ∈ P)]
    (hP : PatExec inp (build inp) own P) (hF : FinalPatExec inp.nDofs inv own c P F) :
    (∀ x, x ∈ F ↔ ∃ i, i < inp.nDofs ∧ x ∈ fillerWrites inp.nDofs own c P i) ∧
    ∀ i, i < inp.nDofs → ∀ x ∈ alphaWrites own i, x ∈ F := by
  constructor
  · rintro ⟨i, j⟩
    rw [mem_finalPat hF]
    unfold fillerWrites
    constructor
    · rintro ⟨hi, ho, h⟩
      refine ⟨i, hi, ?_⟩
      rw [if_pos ho]
      rcases hc : c i with _ | es
      · rw [hc] at h
        simpa using h
      · rw [hc] at h
        simpa using h
    · rintro ⟨k, hk, hx⟩
      split_ifs at hx with ho
      · rcases hc : c k with _ | es
        · rw [hc] at hx
          obtain ⟨j', hj', e⟩ := List.mem_map.1 hx
          obtain ⟨rfl, rfl⟩ := Prod.mk.inj e
          rw [hc]
          rw [List.mem_filter, List.mem_range, decide_eq_true_eq] at hj'
          exact ⟨hk, ho, hj'⟩
        · rw [hc] at hx
          rcases List.mem_cons.1 hx with e | hx
          · obtain ⟨rfl, rfl⟩ := Prod.mk.inj e
            rw [hc]; exact ⟨hk, ho, Or.inl rfl⟩
          · obtain ⟨j', hj', e⟩ := List.mem_map.1 hx
            obtain ⟨rfl, rfl⟩ := Prod.mk.inj e
            rw [hc]; exact ⟨hk, ho, Or.inr hj'⟩
      · simp at hx
  · intro i hi x hx
    unfold alphaWrites at hx
    split_ifs at hx with ho
    · rw [List.mem_singleton] at hx
      subst hx
      rw [mem_finalPat hF]
      refine ⟨hi, ho, ?_⟩
      rcases hc : c i with _ | es
      · obtain ⟨k, hk, hik⟩ := hcell i hi
        exact ⟨hi, C71_pattern_singular inp hlev hnq own P hP i k i i hi ho hk hik (hself i hi) hik⟩
      · exact Or.inl rfl
    · simp at hx

/-- with node 0 constrained to nodes 1 and 5 -/
example : ∃ (P : Pat) (_ : DecidablePred (· ∈ P)) (F : Pat), PatExec (cubeInput 3 0) (build (cubeInput 3 0)) (fun i => i % 2 = 0) P ∧
    FinalPatExec 8 4294967295 (fun i => i % 2 = 0) (fun i => if i = 0 then some [1, 5] else none) P F ∧
    (0, 0) ∈ F ∧ (0, 5) ∈ F ∧ (0, 2) ∉ F ∧ (2, 2) ∈ F := by
  classical
  obtain ⟨⟨P, hP⟩, _⟩ := C71_executions_exist (cubeInput 3 0) (fun i => i % 2 = 0)
  obtain ⟨F, hF⟩ := finalPat_exists 8 4294967295 (fun i => i % 2 = 0) (fun i => if i = 0 then some [1, 5] else none) P
  refine ⟨P, inferInstance, F, hP, hF, ?_⟩
  have key := C71_final_pattern (cubeInput 3 0) (by decide) (by
    intro c j hj
    simp only [cubeInput] at hj ⊢
    revert hj
    rcases c with _ | _ | _ | _ | _ | _ | c <;> simp <;> omega) _ _ _ P F hP hF
  refine ⟨(key 0 0).2 ?_, (key 0 5).2 ?_, fun h => ?_, (key 2 2).2 ?_⟩
  · exact ⟨by decide, by decide, Or.inl ⟨_, rfl, Or.inl rfl⟩⟩
  · exact ⟨by decide, by decide, Or.inl ⟨_, rfl, Or.inr (by decide)⟩⟩
  · have := ((key 0 2).1 h).2.2
    simp at this
  · exact ⟨by decide, by decide, Or.inr ⟨by decide,
      C71_pattern_singular (cubeInput 3 0) (by decide) (by decide) _ P hP 2 0 2 2 (by decide) (by decide)
        (by decide) (by decide) (by decide) (by decide)⟩⟩

/-- hypotheses of `C71_final_writes` on the cube -/
example (own : ℕ → Bool) : ∃ (P : Pat) (_ : DecidablePred (· ∈ P)) (F : Pat),
    PatExec (cubeInput 3 0) (build (cubeInput 3 0)) own P ∧
    FinalPatExec 8 0 own (fun i => if i = 0 then some [1, 5] else none) P F ∧
    ∀ i, i < 8 → own i = true → (i, i) ∈ F := by
  classical
  obtain ⟨⟨P, hP⟩, _⟩ := C71_executions_exist (cubeInput 3 0) own
  obtain ⟨F, hF⟩ := finalPat_exists 8 0 own (fun i => if i = 0 then some [1, 5] else none) P
  refine ⟨P, inferInstance, F, hP, hF, fun i hi ho => ?_⟩
  refine (C71_final_writes (cubeInput 3 0) (by decide) (by decide) (by simp [cubeInput]) ?_ own _ 0 P F hP hF).2 i hi
    (i, i) (by simp [alphaWrites, ho])
  intro k hk
  have hk' : k < 8 := hk
  by_cases h : k % 2 = 0
  · refine ⟨0, by decide, ?_⟩
    simp only [cubeInput]; simp; omega
  · refine ⟨1, by decide, ?_⟩
    simp only [cubeInput]; simp; omega

end PiBem.Fmm
