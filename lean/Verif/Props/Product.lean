import Verif.Fmm.NumericDesc

/-!
# The numbers produced by the fast multipole product (C63)

`NFmmExec` (Verif.Fmm.Numeric) contains all the executions of the fast multipole product with the real expansions of the
program, for all schedules of the threads, all reuses of copy data and all ownerships of the rows. The specification below
uses only the data of the mesh.
-/

noncomputable section

namespace PiBem.Fmm

open PiBem.Octree PiBem.WorkStream PiBem.Expansion
open PiBem.Harmonic (rho_nonneg)

/-! ## Specification -/

/-- Value of the kernel for the node `x` and the point `y` with unit normal `n`: `1 / (4 π |x - y|)`, and its derivative
with respect to `y` in the direction of the normal, `(x - y) · n / (4 π |x - y|^3)`. -/
def kernelValue (ker : Ker) (x y n : V3) : ℝ :=
  let r := Real.sqrt (∑ a, (x a - y a) ^ 2)
  match ker with
  | .single => 1 / (4 * Real.pi * r)
  | .double => (∑ a, (x a - y a) * n a) / (4 * Real.pi * r ^ 3)

/-- The entry of node `i` of the product computed without expansions: for each cell and each local dof the value of the
vector times the integral, by the singular quadrature if the node (or one of its doubles) belongs to the cell, by the
regular quadrature otherwise. -/
def directProduct (inp : Input 3) (D : Data) (ker : Ker) (i : ℕ) : ℝ :=
  ∑ c ∈ Finset.range inp.nCells, ∑ j ∈ Finset.range (inp.cellDofs c).length,
    D.sol ((inp.cellDofs c).getD j 0) *
      (if ∃ k ∈ inp.cellDofs c, k ∈ inp.doubles i then D.sing i c j
       else ∑ q ∈ Finset.range inp.nq,
        kernelValue ker (toV (inp.pos i)) (toV (inp.qpos (c, q))) (D.normal (c, q)) * D.shape (c, q) j * D.jxw (c, q))

/-- Factor of the error of expansions truncated at order `p` when the finest blocks have side `δ`. -/
def truncation (ker : Ker) (p : ℕ) (δ : ℝ) : ℝ :=
  match ker with
  | .single => (Real.sqrt 3 / 2) ^ (p + 1) / ((2 - Real.sqrt 3) * δ)
  | .double => (Real.sqrt 3 / 2) ^ p * (p + 1 - p * (Real.sqrt 3 / 2)) / ((2 - Real.sqrt 3) * δ) ^ 2

/-- Sum of the absolute values of the sources of the cells not containing the node. -/
def sourceMass (inp : Input 3) (D : Data) (i : ℕ) : ℝ :=
  ∑ c ∈ Finset.range inp.nCells, if ∃ k ∈ inp.cellDofs c, k ∈ inp.doubles i then 0 else
    ∑ q ∈ Finset.range inp.nq, ∑ j ∈ Finset.range (inp.cellDofs c).length,
      |D.shape (c, q) j * D.jxw (c, q) / (4 * Real.pi) * D.sol ((inp.cellDofs c).getD j 0)|

/-! ## Auxiliary facts -/

variable {inp : Input 3} {D : Data} {ker : Ker}

theorem rho_eq_sqrt (x y : V3) : rho (x - y) = Real.sqrt (∑ a, (x a - y a) ^ 2) := by
  unfold rho
  rw [Fin.sum_univ_three]
  congr 1

theorem kernel_spec (i : ℕ) (q : ℕ × ℕ) (j : ℕ) :
    regEntry inp D ker i q j =
      kernelValue ker (toV (inp.pos i)) (toV (inp.qpos q)) (D.normal q) * D.shape q j * D.jxw q := by
  have hrev : rho (toV (inp.qpos q) - toV (inp.pos i)) = rho (toV (inp.pos i) - toV (inp.qpos q)) := rho_sub_comm _ _
  cases ker with
  | single =>
    simp only [regEntry, Kernel.kernels3, kernelValue, norm_eq_rho, hrev, rho_eq_sqrt]
    congr 3
    ring
  | double =>
    simp only [regEntry, Kernel.kernels3, kernelValue, norm_eq_rho, hrev, ← rho_eq_sqrt]
    congr 2
    rw [Fin.sum_univ_three]
    simp only [dot, Pi.sub_apply]
    generalize rho (toV (inp.pos i) - toV (inp.qpos q)) = r
    by_cases hr : r = 0
    · simp [hr]
    · have := Real.pi_ne_zero
      field_simp
      ring

theorem bnd_eq (hn : ∀ q, rho (D.normal q) = 1) (hs0 : 0 < side inp) (q : ℕ × ℕ) :
    bnd inp D ker q = (∑ j ∈ Finset.range (inp.cellDofs q.1).length,
      |D.shape q j * D.jxw q / (4 * Real.pi) * D.sol ((inp.cellDofs q.1).getD j 0)|) * truncation ker D.p (side inp) := by
  unfold bnd srcs
  rw [List.map_map, sum_range_list, Finset.sum_mul]
  refine Finset.sum_congr rfl fun j _ => ?_
  have e2 : Real.sqrt 3 * side inp / (2 * side inp) = Real.sqrt 3 / 2 := by field_simp
  have hver : rho (versor (D.normal q)) = 1 := by
    have : versor (D.normal q) = D.normal q := by funext k; simp [versor, hn]
    rw [this, hn]
  have hg : 2 * side inp - Real.sqrt 3 * side inp = (2 - Real.sqrt 3) * side inp := by ring
  have hs : D.sol ((inp.cellDofs q.1).getD j 0) * (D.shape q j * D.jxw q / 4 / Real.pi) =
      D.shape q j * D.jxw q / (4 * Real.pi) * D.sol ((inp.cellDofs q.1).getD j 0) := by rw [div_div]; ring
  cases ker with
  | single =>
    simp only [Function.comp_apply, src0, Source.scale, sb, Source.bound, truncation, solAt, e2, hg]
    rw [← hs, mul_div_assoc, mul_comm (D.sol _)]
  | double =>
    simp only [Function.comp_apply, src0, Source.scale, sb, Source.bound, truncation, solAt, e2, hg, hver]
    rw [← hs, mul_comm (D.sol _)]
    ring

theorem truncation_nonneg (ker : Ker) (p : ℕ) {δ : ℝ} (h : 0 < δ) : 0 ≤ truncation ker p δ := by
  have h1 := sqrt3_lt
  have h2 := sqrt3_gt
  have h3 : (0 : ℝ) < 2 - Real.sqrt 3 := by linarith
  cases ker with
  | single => unfold truncation; positivity
  | double =>
    unfold truncation
    have : (0 : ℝ) ≤ p + 1 - p * (Real.sqrt 3 / 2) := by
      have : (p : ℝ) * (Real.sqrt 3 / 2) ≤ p * 1 := mul_le_mul_of_nonneg_left (by linarith) (Nat.cast_nonneg _)
      linarith
    positivity

/-! ## C63 -/

/-- **C63**. In every execution of the fast multipole product the entry of an owned node differs from the one computed
without expansions at most by the sum of the absolute values of the sources times `truncation`, a factor decreasing like
`(√3/2)^p`. Hypotheses: at least one level; the nodes are their own doubles; truncation order at most 10 (the table of
Legendre functions stops at degree 20); quadrature points inside the root box; unit normals; finest blocks with side at
least `1.2e-7` (below, centres are identified by the program); quadrature points and nodes not at the places where the
program divides by zero (centres of the leaves; for the normal derivative, the vertical axes through them). -/
theorem C63_product_error (inp : Input 3) (D : Data) (ker : Ker) (hlev : 1 ≤ inp.levels) (hnq : 0 < inp.nq)
    (hself : ∀ i, i < inp.nDofs → i ∈ inp.doubles i) (hp : D.p ≤ 10)
    (hroot : ∀ c q a, c < inp.nCells → q < inp.nq → |inp.qpos (c, q) a| ≤ 11 / 10 * maxCoor inp)
    (hn : ∀ q, rho (D.normal q) = 1) (hside : (12 / 10 : ℝ) * 1e-7 ≤ side inp)
    (hreg : Regular inp D ker (build inp))
    (_hnode : ∀ b ∈ (build inp).childless, ∀ i ∈ ((build inp).blocks b).nodes,
      inp.pos i ≠ centre ((build inp).blocks b))
    (own : ℕ → Bool) (out : ℕ → ℝ) (hx : NFmmExec inp D ker (build inp) own out)
    (i : ℕ) (hi : i < inp.nDofs) (ho : own i = true) :
    |out i - directProduct inp D ker i| ≤ sourceMass inp D i * truncation ker D.p (side inp) := by
  have t : Octree.Tree inp (build inp) := build_tree (Or.inr rfl) inp
  have hs0 : 0 < side inp := lt_of_lt_of_le (by norm_num) hside
  have hfar := far_of_side hside
  obtain ⟨M, E, mult, s, order, hM, hE, hA, hD, hord, rfl⟩ := hx
  obtain ⟨E', hE', hErel⟩ := momentsExec_sim (by omega) hreg hE
  obtain ⟨mult', hA', hmrel⟩ := ascendExec_sim (by omega) t hfar hE' hErel hA
  obtain ⟨s', hD', hdrel⟩ := descendExec_sim hlev hroot hn hs0 hp hfar hmrel
    (fun b hb => (C10_upward_pass inp E' mult' hE' hA' b hb).1) own _ hD
  have hnear := evalLeaves_sim (T := build inp) own _ hdrel.1 order _ _ hdrel.2 i
  set F := order.foldl (fun p b => evalLeaf (build inp) own s'.loc b p) s'.prod i with hF
  set o := order.foldl (fun p b => nEvalLeaf inp (build inp) own s.loc b p) s.prod i with ho'
  have habs : FmmExec inp (build inp) own (fun i => M i + ((order.foldl (fun p b => evalLeaf (build inp) own s'.loc b p)
      s'.prod) i).map fun q => Contr.reg q.1 q.2) := ⟨M, E', mult', s', order, hM, hE', hA', hD', hord, rfl⟩
  have h1 := C06_value (val inp D ker i) inp hlev hnq hself own _ habs i hi ho
  have h2 := C06_value (fun c => match c with | .reg c q => bnd inp D ker (c, q) | .sing _ => 0) inp hlev hnq hself own _
    habs i hi ho
  simp only [Multiset.map_add, Multiset.sum_add, Multiset.map_map, ← hF] at h1 h2
  have hbnd : ∀ q, 0 ≤ bnd inp D ker q := by
    intro q
    rw [bnd_eq hn hs0]
    exact mul_nonneg (Finset.sum_nonneg fun _ _ => abs_nonneg _) (truncation_nonneg _ _ hs0)
  have hspec : directProduct inp D ker i = ∑ c ∈ Finset.range inp.nCells,
      if ∃ j ∈ inp.cellDofs c, j ∈ inp.doubles i then val inp D ker i (Contr.sing c)
      else ∑ q ∈ Finset.range inp.nq, val inp D ker i (Contr.reg c q) := by
    unfold directProduct
    refine Finset.sum_congr rfl fun c _ => ?_
    split_ifs
    · exact Finset.sum_congr rfl fun j _ => mul_comm _ _
    · simp only [val, cellDot]
      rw [Finset.sum_comm]
      refine Finset.sum_congr rfl fun j _ => ?_
      rw [Finset.mul_sum]
      refine Finset.sum_congr rfl fun q _ => ?_
      rw [kernel_spec, mul_comm]
  have hmass : sourceMass inp D i * truncation ker D.p (side inp) = ∑ c ∈ Finset.range inp.nCells,
      if ∃ j ∈ inp.cellDofs c, j ∈ inp.doubles i then 0 else ∑ q ∈ Finset.range inp.nq, bnd inp D ker (c, q) := by
    unfold sourceMass
    rw [Finset.sum_mul]
    refine Finset.sum_congr rfl fun c _ => ?_
    split_ifs
    · rw [zero_mul]
    · rw [Finset.sum_mul]
      exact Finset.sum_congr rfl fun q _ => (bnd_eq hn hs0 (c, q)).symm
  rw [hspec, hmass, ← h1, ← h2]
  have h3 : 0 ≤ ((M i).map fun c => match c with | .reg c q => bnd inp D ker (c, q) | .sing _ => 0).sum := by
    refine Multiset.sum_nonneg ?_
    intro x hx
    rw [Multiset.mem_map] at hx
    obtain ⟨c, _, rfl⟩ := hx
    cases c with
    | reg c q => exact hbnd _
    | sing c => exact le_refl _
  have h4 : |(F.map (kv inp D ker i)).sum - (o - direct inp D ker M i)| ≤ (F.map (bnd inp D ker)).sum := hnear
  have e1 : ((F.map (val inp D ker i ∘ fun q => Contr.reg q.1 q.2)).sum : ℝ) = (F.map (kv inp D ker i)).sum := rfl
  have e2 : (F.map ((fun c => match c with | .reg c q => bnd inp D ker (c, q) | .sing _ => 0) ∘
      fun q => Contr.reg q.1 q.2)).sum = (F.map (bnd inp D ker)).sum := rfl
  rw [e1, e2]
  have e3 : o - (((M i).map (val inp D ker i)).sum + (F.map (kv inp D ker i)).sum) =
      -((F.map (kv inp D ker i)).sum - (o - direct inp D ker M i)) := by unfold direct; ring
  rw [e3, abs_neg]
  linarith

/-- executions exist for every input -/
theorem C63_executions_exist (inp : Input 3) (D : Data) (ker : Ker) (T : St 3) (own : ℕ → Bool) :
    ∃ out, NFmmExec inp D ker T own out := by
  obtain ⟨M, hM⟩ := directExec_exists inp T own
  have hE : NMomentsExec inp D ker T _ := exec_seq T.childless _
  obtain ⟨m, hm⟩ := levels_exists (R := fun l => Exec (nWorkerAscend D T) nCopierAscend ⟨0, Exp.new D.p 0⟩ (T.levelIds l))
    (fun _ _ => ⟨_, exec_seq _ _⟩) (List.range' 1 inp.levels).reverse
    (T.childless.foldl (fun m b => nLeafMult inp D T _ b m) fun b => Exp.new D.p (ctr T b))
  obtain ⟨s, hs⟩ := levels_exists (R := fun l => Exec (nWorkerDescend inp D T own m) nCopierDescend
    ⟨0, Exp.new D.p 0, [], []⟩ (T.dofsFilled l)) (fun _ _ => ⟨_, exec_seq _ _⟩) (List.range' 1 inp.levels)
    ⟨fun b => Exp.new D.p (ctr T b), direct inp D ker M⟩
  exact ⟨_, M, _, m, s, T.childless, hM, hE, ⟨T.childless, List.Perm.refl _, hm⟩, hs, List.Perm.refl _, rfl⟩

/-! ### A concrete case -/

/-- Data on the cube: order 6, four shape functions 1/4, outward normals. -/
def cubeData : Data where
  p := 6
  shape := fun _ _ => 1 / 4
  jxw := fun _ => 4
  normal := fun q => toV ((cubeInput 3 0).qpos q)
  sing := fun i c j => i + c + j
  sol := fun i => i

theorem cube_maxCoor : maxCoor (cubeInput 3 0) = 1 := by decide +kernel

/-- no coordinate of the centre of a block of the cube below the root is 0, 1 or -1 -/
theorem cube_centre {b : ℕ} (hb : b ∈ (build (cubeInput 3 0)).childless) (a : Fin 3) :
    centre ((build (cubeInput 3 0)).blocks b) a ≠ 0 ∧ |centre ((build (cubeInput 3 0)).blocks b) a| ≠ 1 := by
  have t := build_tree (Or.inr rfl) (cubeInput 3 0)
  have hbc := (t.chl b).1 hb
  have hle := t.lev_le b hbc.1
  have h0 : 1 ≤ ((build (cubeInput 3 0)).blocks b).level := by
    rcases hbc.2 with h | h
    · rw [t.links.level_eq h.1 hbc.1]; omega
    · rw [h]; decide
  have hl3 : (cubeInput 3 0).levels = 3 := rfl
  rw [hl3] at hle
  unfold centre
  rw [t.pMin_eq hbc.1, t.delta_eq hbc.1, cube_maxCoor]
  set l := ((build (cubeInput 3 0)).blocks b).level
  set k := coord (build (cubeInput 3 0)) b a
  have hs : sideAt (cubeInput 3 0) l = 22 / 10 / 2 ^ l := by unfold sideAt; rw [cube_maxCoor]; norm_num
  rw [hs]
  have key : ∀ z : ℤ, (z = 0 ∨ z = 10 ∨ z = -10) →
      -(11 / 10 : ℚ) * 1 + 22 / 10 / 2 ^ l * (k : ℚ) + 22 / 10 / 2 ^ l / 2 ≠ z / 10 := by
    intro z hz h
    have h2 : (-11 * 2 ^ l + 22 * k + 11 : ℚ) = z * 2 ^ l := by
      have : (2 : ℚ) ^ l ≠ 0 := by positivity
      field_simp at h
      linarith
    have h3 : (-11 * 2 ^ l + 22 * (k : ℤ) + 11 : ℤ) = z * 2 ^ l := by exact_mod_cast h2
    obtain ⟨m, hm⟩ : ∃ m : ℕ, l = m + 1 := ⟨l - 1, by omega⟩
    rw [hm, pow_succ] at h3
    rcases hz with rfl | rfl | rfl <;> omega
  constructor
  · have := key 0 (by simp); simpa using this
  · intro h
    rcases (abs_eq (by norm_num)).1 h with h | h
    · exact key 10 (by simp) (by rw [h]; norm_num)
    · exact key (-10) (by simp) (by rw [h]; norm_num)

/-- C63 on the cube, with any singular entries -/
theorem cube_product_error (own : ℕ → Bool) (ho : own 2 = true) (ker : Ker) (sing : ℕ → ℕ → ℕ → ℝ) (out : ℕ → ℝ)
    (hx : NFmmExec (cubeInput 3 0) { cubeData with sing := sing } ker (build (cubeInput 3 0)) own out) :
    |out 2 - directProduct (cubeInput 3 0) { cubeData with sing := sing } ker 2| ≤
      sourceMass (cubeInput 3 0) cubeData 2 * truncation ker 6 (22 / 80) := by
  have hside : side (cubeInput 3 0) = 22 / 80 := by
    unfold side sideAt; rw [cube_maxCoor]; norm_num [cubeInput]
  have hq : ∀ q : ℕ × ℕ, (cubeInput 3 0).qpos q = ![-1, 0, 0] ∨ (cubeInput 3 0).qpos q = ![1, 0, 0] ∨
      (cubeInput 3 0).qpos q = ![0, -1, 0] ∨ (cubeInput 3 0).qpos q = ![0, 1, 0] ∨
      (cubeInput 3 0).qpos q = ![0, 0, -1] ∨ (cubeInput 3 0).qpos q = ![0, 0, 1] := by
    rintro ⟨c, q⟩
    rcases c with _ | _ | _ | _ | _ | c <;> simp [cubeInput]
  have hunit : ∀ q, rho (cubeData.normal q) = 1 := by
    intro q
    rcases hq q with h | h | h | h | h | h <;> simp [cubeData, toV, rho, h]
  have h := C63_product_error (cubeInput 3 0) { cubeData with sing := sing } ker (by decide) (by decide) (by simp [cubeInput])
    (by simp [cubeData])
    (by
      intro c q a _ _
      rw [cube_maxCoor]
      rcases hq (c, q) with h | h | h | h | h | h <;> rw [h] <;> fin_cases a <;> simp <;> norm_num)
    hunit (by rw [hside]; norm_num)
    (by
      intro b hb q _
      have h0 := (cube_centre hb 0).1
      have h1 := (cube_centre hb 1).1
      have hne : ¬ ((cubeInput 3 0).qpos q 0 = centre ((build (cubeInput 3 0)).blocks b) 0 ∧
          (cubeInput 3 0).qpos q 1 = centre ((build (cubeInput 3 0)).blocks b) 1) := by
        rintro ⟨e0, e1⟩
        rw [← e0] at h0
        rw [← e1] at h1
        rcases hq q with h | h | h | h | h | h <;> simp [h] at h0 h1
      cases ker with
      | single => exact fun he => hne ⟨congrFun he 0, congrFun he 1⟩
      | double =>
        refine ⟨fun h => ?_, hne⟩
        have := hunit q
        rw [h] at this
        simp [rho] at this)
    (by
      intro b hb i _ he
      have h1 := (cube_centre hb 0).2
      rw [← he] at h1
      refine h1 ?_
      simp only [cubeInput, Matrix.cons_val_zero]
      split_ifs <;> simp)
    own out hx 2 (by decide) ho
  rw [hside] at h
  exact h

example (own : ℕ → Bool) (ho : own 2 = true) (ker : Ker) :
    (∃ out, NFmmExec (cubeInput 3 0) cubeData ker (build (cubeInput 3 0)) own out) ∧
    ∀ out, NFmmExec (cubeInput 3 0) cubeData ker (build (cubeInput 3 0)) own out →
      |out 2 - directProduct (cubeInput 3 0) cubeData ker 2| ≤
        sourceMass (cubeInput 3 0) cubeData 2 * truncation ker 6 (22 / 80) :=
  ⟨C63_executions_exist _ _ _ _ _, fun out hx => cube_product_error own ho ker cubeData.sing out hx⟩

end PiBem.Fmm
