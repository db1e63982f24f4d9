import Verif.Fmm.Pending
import Verif.Props.Linear

/-!
# C96: numbers computed for rows of other processes

In the descending phase of the fast multipole product every process adds numbers also to entries owned by other processes: a block with
at least one node of the process is treated for all its nodes. The theorems say that nothing of this reaches the results: the vectors after
`vmult`, `compute_rhs` and `compute_alpha` are, on every process, those of the model without processes (`Bem.vmult`, `Bem.computeRhs`,
product with one matrix), because the vectors holding the additions are never compressed.
-/

noncomputable section

namespace PiBem.Fmm

open PiBem.Octree PiBem.WorkStream PiBem.Expansion PiBem.Bem

variable {inp : Input 3} {D : Data} {C : Procs}

/-- The operator of the model without processes: the two matrices of the fast multipole product (C65) and the values of the owners. -/
def FEProblem.serial (inp : Input 3) (D : Data) (C : Procs) (P : FEProblem) : Problem inp.nDofs where
  neumannMatrix := fun i k => fmaMatrix inp D .double i k
  dirichletMatrix := fun i k => fmaMatrix inp D .single i k
  alpha := fun i => C.gather P.alpha i
  dirichletNodes := fun i => C.gather P.dirichletNodes i
  neumannNodes := fun i => C.gather P.neumannNodes i
  haveDirichletBc := P.haveDirichletBc
  method := .fma

/-! ## Auxiliary facts -/

theorem own_iff (p i : ℕ) : C.own p i = true ↔ C.owner i = p := by simp [Procs.own]

theorem gather_local (x : FEVec) (f : ℕ → ℕ → ℝ → ℝ) (i : ℕ) :
    C.gather (C.local x f) i = f (C.owner i) i (C.gather x i) := by
  simp [Procs.gather, Procs.local]

theorem local_other (x : FEVec) (f : ℕ → ℕ → ℝ → ℝ) {p i : ℕ} (h : C.owner i ≠ p) : C.local x f p i = x p i := by
  simp [Procs.local, h]

theorem gather_put (x : FEVec) (a : ℝ) (i : ℕ) : C.gather (C.put x a) i = a := gather_local _ _ _
theorem gather_add (x y : FEVec) (i : ℕ) : C.gather (C.add x y) i = C.gather x i + C.gather y i := gather_local _ _ _
theorem gather_mul (x : FEVec) (a : ℝ) (i : ℕ) : C.gather (C.mul x a) i = C.gather x i * a := gather_local _ _ _
theorem gather_scaleBy (x y : FEVec) (i : ℕ) : C.gather (C.scaleBy x y) i = C.gather x i * C.gather y i := gather_local _ _ _
theorem gather_shift (x : FEVec) (a : ℝ) (i : ℕ) : C.gather (C.shift x a) i = C.gather x i + a := gather_local _ _ _

theorem l2norm_eq (n : ℕ) (x : FEVec) : C.l2norm n x = Bem.l2norm (fun i : Fin n => C.gather x i) := by
  unfold Procs.l2norm Bem.l2norm
  rw [Finset.sum_range]

theorem products_gather (hown : ∀ i, C.owner i < C.procs) (hdof : ∀ c k, k ∈ inp.cellDofs c → k < inp.nDofs)
    {phi dphi oldN oldD newN newD : FEVec} (h : FmaProductsFE inp D C phi dphi oldN oldD newN newD) (i : ℕ) :
    C.gather newN i = ∑ k : Fin inp.nDofs, fmaMatrix inp D .double i k * C.gather phi k ∧
      C.gather newD i = ∑ k : Fin inp.nDofs, fmaMatrix inp D .single i k * C.gather dphi k := by
  obtain ⟨outN, outD, hN, hD, rfl, rfl⟩ := h
  have h1 := fma_eq hdof _ _ _ (hN _ (hown i)) i ((own_iff _ _).2 rfl)
  have h2 := fma_eq hdof _ _ _ (hD _ (hown i)) i ((own_iff _ _).2 rfl)
  rw [Finset.sum_range] at h1 h2
  simp only [Procs.gather, if_true]
  exact ⟨h1, h2⟩

/-! ## C96 -/

/-- **C96** (`vmult`). For every number of processes, every distribution of the dofs, every schedule of the threads on every process and
every pending content of the vectors involved: after `vmult` the owner of entry `i` holds the value of the operator without processes, plus
what other processes had pending in the output vector before the call (zero for the vectors of the linear solver: no call of `vmult`
leaves anything pending, second part). -/
theorem C96_vmult (inp : Input 3) (D : Data) (C : Procs) (P : FEProblem) (hown : ∀ i, C.owner i < C.procs)
    (hdof : ∀ c k, k ∈ inp.cellDofs c → k < inp.nDofs) (dst src dst' : FEVec) (h : VmultFE inp D C P dst src dst')
    (i : Fin inp.nDofs) :
    dst' (C.owner i) i = vmult (P.serial inp D C) (fun k => src (C.owner k) k) i +
      ∑ q ∈ (Finset.range C.procs).erase (C.owner i), dst q i ∧
    ∀ p, p ≠ C.owner i → dst' p i = 0 := by
  obtain ⟨N, Dm, hprod, rfl⟩ := h
  constructor
  · have hg := fun i => products_gather hown hdof hprod i
    have hN := fun i => (hg i).1
    have hDm := fun i => (hg i).2
    have hpend : ∀ q ∈ (Finset.range C.procs).erase (C.owner i),
        (if P.haveDirichletBc = true then
          C.add (C.add (C.mul (C.add (C.put dst 0) Dm) (-1)) N) (C.scaleBy (C.scaleBy (if P.haveDirichletBc = true then src
            else C.shift src (-C.l2norm inp.nDofs src)) P.neumannNodes) P.alpha)
        else C.shift (C.add (C.add (C.mul (C.add (C.put dst 0) Dm) (-1)) N) (C.scaleBy (C.scaleBy (if P.haveDirichletBc = true then src
            else C.shift src (-C.l2norm inp.nDofs src)) P.neumannNodes) P.alpha))
          (-C.l2norm inp.nDofs (C.add (C.add (C.mul (C.add (C.put dst 0) Dm) (-1)) N) (C.scaleBy (C.scaleBy
            (if P.haveDirichletBc = true then src else C.shift src (-C.l2norm inp.nDofs src)) P.neumannNodes) P.alpha)))) q i =
        dst q i := by
      intro q hq
      have hne : C.owner i ≠ q := (Finset.ne_of_mem_erase hq).symm
      split_ifs
      · simp only [Procs.add, Procs.mul, Procs.put, local_other _ _ hne]
      · simp only [Procs.shift, Procs.add, Procs.mul, Procs.put, local_other _ _ hne]
    simp only [Procs.compressAdd, if_true]
    rw [Finset.sum_congr rfl hpend]
    congr 1
    cases hb : P.haveDirichletBc
    · simp only [hb, Bool.false_eq_true, if_false] at hN hDm ⊢
      change C.gather (C.shift _ _) i = _
      rw [gather_shift, l2norm_eq]
      simp only [gather_add, gather_mul, gather_put, gather_scaleBy, gather_shift, hN, hDm, l2norm_eq, vmult, FEProblem.serial,
        Bem.scale, vectorShift, fmaProducts, matVmult, hb, Bool.false_eq_true, if_false]
      rfl
    · simp only [hb, if_true] at hN hDm ⊢
      change C.gather (C.add _ _) i = _
      simp only [gather_add, gather_mul, gather_put, gather_scaleBy, hN, hDm, vmult, FEProblem.serial,
        Bem.scale, fmaProducts, matVmult, hb, if_true]
      rfl
  · intro p hp
    simp [Procs.compressAdd, hp.symm]

/-- **C96** (`compute_rhs`). The owner of entry `i` holds the value of `compute_rhs` without processes; the pending content of the output
is unchanged, so nothing computed for rows of other processes is in it. -/
theorem C96_rhs (inp : Input 3) (D : Data) (C : Procs) (P : FEProblem) (hown : ∀ i, C.owner i < C.procs)
    (hdof : ∀ c k, k ∈ inp.cellDofs c → k < inp.nDofs) (dst src dst' : FEVec) (h : ComputeRhsFE inp D C P dst src dst')
    (i : Fin inp.nDofs) :
    dst' (C.owner i) i = computeRhs (P.serial inp D C) (fun k => dst (C.owner k) k) (fun k => src (C.owner k) k) i ∧
    ∀ p, p ≠ C.owner i → dst' p i = dst p i := by
  obtain ⟨N, Dm, hprod, rfl⟩ := h
  constructor
  · have hg := fun i => products_gather hown hdof hprod i
    have hN := fun i => (hg i).1
    have hDm := fun i => (hg i).2
    change C.gather (C.add _ _) i = _
    simp only [gather_add, gather_mul, gather_scaleBy, hN, hDm, computeRhs, FEProblem.serial, Bem.scale, fmaProducts, matVmult]
    rfl
  · intro p hp
    simp only [Procs.add, Procs.mul, local_other _ _ hp.symm]

/-- **C96** (`alpha`). After any number of solves on a mesh, whatever is pending in `alpha` (which is never compressed and keeps what the
earlier solves left), its value at every dof is the row of the fixed matrix of C65 applied to the vector with all entries -1. -/
theorem C96_alpha (inp : Input 3) (D : Data) (C : Procs) (hown : ∀ i, C.owner i < C.procs)
    (hdof : ∀ c k, k ∈ inp.cellDofs c → k < inp.nDofs) (a : FEVec) (h : AlphaHistory inp D C a) (i : Fin inp.nDofs) :
    a (C.owner i) i = -∑ k : Fin inp.nDofs, fmaMatrix inp D .double i k := by
  have key : ∀ x y : FEVec, AlphaFE inp D C x y → C.gather y i = -∑ k : Fin inp.nDofs, fmaMatrix inp D .double i k := by
    intro x y hxy
    obtain ⟨_, _, hp⟩ := hxy
    rw [(products_gather hown hdof hp i).1, ← Finset.sum_neg_distrib]
    refine Finset.sum_congr rfl fun k _ => ?_
    simp [Procs.gather]
  cases h with
  | first h => exact key _ _ h
  | next _ h => exact key _ _ h

/-! ### What is pending -/

/-- The multipole evaluations at node `i` of the smaller blocks, in the blocks with a node of the process. -/
def otherRow (inp : Input 3) (D : Data) (ker : Ker) (own : ℕ → Bool) (i : ℕ) (sol : ℕ → ℝ) : ℝ :=
  ((List.range' 1 inp.levels).map fun l => (((build inp).dofsFilled l).map fun k =>
    if i ∈ ((build inp).blocks k).nodes ∧ (∃ j ∈ ((build inp).blocks k).nodes, own j = true) then
      mpAll inp D.p (build inp) k i (multMap inp D ker (build inp) sol) else 0).sum).sum

theorem directResult_other {T : St 3} (own : ℕ → Bool) {i : ℕ} (ho : own i = false) : directResult inp T own i = 0 := by
  unfold directResult
  simp only [Pi.add_apply, list_sum_apply, List.map_map]
  rw [List.sum_eq_zero, List.sum_eq_zero, add_zero]
  · intro x hx
    obtain ⟨l, _, rfl⟩ := List.mem_map.1 hx
    simp only [Function.comp_apply, list_sum_apply, List.map_map]
    refine List.sum_eq_zero fun y hy => ?_
    obtain ⟨b, _, rfl⟩ := List.mem_map.1 hy
    simp [bigEff, ho]
  · intro x hx
    obtain ⟨b, _, rfl⟩ := List.mem_map.1 hx
    simp [leafEff, ho]

/-- every execution leaves the same number at a node the process does not own -/
theorem nFmmExec_other (own : ℕ → Bool) (ker : Ker) {out : ℕ → ℝ} (hx : NFmmExec inp D ker (build inp) own out) {i : ℕ}
    (ho : own i = false) : out i = otherRow inp D ker own i D.sol := by
  have t := build_tree (Or.inr rfl) inp
  obtain ⟨M, E, mult, s, order, hM, hE, hA, hD, hord, rfl⟩ := hx
  have hmult := ascend_lin t hE hA
  obtain ⟨L, hL, hloc, hprod⟩ := descend_lin t hmult hD
  rw [foldl_eff_add (fun b p => nEvalLeaf inp (build inp) own s.loc b p) (fun b => fun i =>
    if i ∈ ((build inp).blocks b).nodes ∧ own i = true then lEval codeTable (s.loc b) (toV (inp.pos i)) else 0) order
    (fun b hb p => nEvalLeaf_eq own s.loc (t.links.nodup ((t.chl b).1 (hord.mem_iff.1 hb)).1).1 p)]
  rw [Pi.add_apply, hprod, Pi.add_apply, list_sum_apply, list_sum_apply]
  have h0 : (List.map (fun f : ℕ → ℝ => f i) (order.map fun b => fun i =>
      if i ∈ ((build inp).blocks b).nodes ∧ own i = true then lEval codeTable (s.loc b) (toV (inp.pos i)) else 0)).sum = 0 := by
    refine List.sum_eq_zero fun x hx => ?_
    simp only [List.map_map, List.mem_map, Function.comp_apply] at hx
    obtain ⟨b, _, rfl⟩ := hx
    simp [ho]
  rw [h0, add_zero]
  unfold direct
  rw [directExec_eq t hM, directResult_other own ho]
  simp only [Multiset.map_zero, Multiset.sum_zero, zero_add]
  unfold otherRow
  rw [List.map_map]
  congr 1
  refine List.map_congr_left fun l _ => ?_
  rw [Function.comp_apply, list_sum_apply, List.map_map]
  congr 1
  refine List.map_congr_left fun k _ => ?_
  simp only [Function.comp_apply, lProdOf]
  have hon : onP (build inp) own k = true ↔ ∃ j ∈ ((build inp).blocks k).nodes, own j = true := by
    unfold onP; rw [List.any_eq_true]
  simp only [hon]

/-- **C96** (what is pending). For an entry the process does not own it computes the evaluations of the expansions of the smaller blocks
in the blocks that contain the node and also a node of the process, the same for all schedules; the additions of the solves of a run pile
up in `alpha`: after `m` solves `m` times those of one. -/
theorem C96_pending (inp : Input 3) (D : Data) (C : Procs) (a : FEVec) (h : AlphaHistory inp D C a) :
    ∃ m : ℕ, 1 ≤ m ∧ ∀ p i, p < C.procs → p ≠ C.owner i →
      a p i = m * otherRow inp D .double (C.own p) i (C.gather fun p i => if C.owner i = p then -1 else 0) := by
  have key : ∀ x y : FEVec, AlphaFE inp D C x y → ∀ p i, p < C.procs → p ≠ C.owner i → y p i = x p i +
      otherRow inp D .double (C.own p) i (C.gather fun p i => if C.owner i = p then -1 else 0) := by
    intro x y hxy p i hp hne
    obtain ⟨_, _, outN, _, hN, _, rfl, _⟩ := hxy
    have ho : C.own p i = false := by simp [Procs.own, hne.symm]
    simp only [if_neg hne.symm]
    rw [nFmmExec_other _ _ (hN p hp) ho]
    congr 1
    exact local_other _ _ hne.symm
  induction h with
  | first h =>
    refine ⟨1, le_refl _, fun p i hp hne => ?_⟩
    rw [key _ _ h p i hp hne]
    simp [feNew]
  | next _ h ih =>
    obtain ⟨m, hm, e⟩ := ih
    refine ⟨m + 1, by omega, fun p i hp hne => ?_⟩
    rw [key _ _ h p i hp hne, e p i hp hne]
    push_cast
    ring

/-! ### Non-vacuity -/

/-- executions exist for all vectors -/
theorem products_exist (inp : Input 3) (D : Data) (C : Procs) (phi dphi oldN oldD : FEVec) :
    ∃ newN newD, FmaProductsFE inp D C phi dphi oldN oldD newN newD := by
  choose outN hN using fun p => C63_executions_exist inp { D with sol := C.gather phi } .double (build inp) (C.own p)
  choose outD hD using fun p => C63_executions_exist inp { D with sol := C.gather dphi } .single (build inp) (C.own p)
  exact ⟨_, _, outN, outD, fun p _ => hN p, fun p _ => hD p, rfl, rfl⟩

/-- `vmult`, `compute_rhs` and `compute_alpha` have executions from every state, on every mesh with every distribution. -/
example (inp : Input 3) (D : Data) (C : Procs) (P : FEProblem) (dst src : FEVec) :
    (∃ dst', VmultFE inp D C P dst src dst') ∧ (∃ dst', ComputeRhsFE inp D C P dst src dst') ∧
      ∃ a a', AlphaHistory inp D C a ∧ AlphaFE inp D C a a' := by
  obtain ⟨_, _, h1⟩ := products_exist inp D C (C.scaleBy (if P.haveDirichletBc then src else C.shift src (-(C.l2norm inp.nDofs src)))
    P.neumannNodes) (C.scaleBy src P.dirichletNodes) feNew feNew
  obtain ⟨_, _, h2⟩ := products_exist inp D C (C.scaleBy src P.dirichletNodes) (C.scaleBy src P.neumannNodes) feNew feNew
  have h3 : ∀ x, ∃ y, AlphaFE inp D C x y := by
    intro x
    obtain ⟨N, Dm, h⟩ := products_exist inp D C (fun p i => if C.owner i = p then -1 else 0) feNew (C.put x 0) feNew
    exact ⟨N, feNew, Dm, h⟩
  obtain ⟨a, ha⟩ := h3 feNew
  obtain ⟨a', ha'⟩ := h3 a
  exact ⟨⟨_, _, _, h1, rfl⟩, ⟨_, _, _, h2, rfl⟩, a, a', .first ha, ha'⟩

/-- Six nodes on a line in pairs, as in `lineInput`: block 2 has two nodes and a smaller block in its second list. -/
def pairInput : Input 3 where
  nDofs := 6
  pos := fun i => match i with
    | 0 => ![-1, -1, -1] | 1 => ![-99 / 100, -1, -1] | 2 => ![-1 / 2, -1, -1] | 3 => ![-49 / 100, -1, -1]
    | 4 => ![-1 / 10, -1, -1] | _ => ![-9 / 100, -1, -1]
  nCells := 2
  nq := 1
  qpos := fun q => match q.1 with
    | 0 => ![-3 / 4, -1, -1] | _ => ![-1 / 10, -1, -1]
  cellDofs := fun c => match c with
    | 0 => [0, 1, 2, 3] | _ => [4, 5]
  doubles := fun i => {i}
  levels := 3
  maxNodes := 2

/-- The process owning node 0 does evaluate an expansion at node 1 of another process: both are in one block, of which a smaller block
with a quadrature point is a far one. -/
example : ∃ k b s, ((build pairInput).blocks k).nodes = [0, 1] ∧ b ∈ m2pSet pairInput (build pairInput) k s ∧
    s < numSub pairInput (build pairInput) k ∧ ((build pairInput).blocks b).qps = [(1, 0)] := by
  refine ⟨2, 5, 1, ?_⟩
  decide +kernel

end PiBem.Fmm
