import Verif.Props.Similar

/-!
# C85: a rigid motion does not change a run

Dense method, not only exact solves: the linear system, hence whatever the linear solver makes of it, is the same.
-/

noncomputable section

namespace PiBem.Bem

open PiBem.Octree PiBem.Fmm PiBem.Expansion

/-- The constraints of the double nodes depend on normals and surface gradients through scalar products only. -/
theorem constraints_congr {n d d' : ℕ} (N : NodeData n d) (N' : NodeData n d') (hd : N'.dirichlet = N.dirichlet) (ht : N'.tmpRhs = N.tmpRhs)
    (hg : N'.continuosGradient = N.continuosGradient) (hn : ∀ i j, dot (N'.normal i) (N'.normal j) = dot (N.normal i) (N.normal j))
    (hs : ∀ i j, dot (N'.surfGrad i) (N'.normal j) = dot (N.surfGrad i) (N.normal j)) (G : Fin n → Finset (Fin n)) (h : Hanging n) (fuel : ℕ)
    (order : List (Fin n)) : computeConstraints N' G h fuel order = computeConstraints N G h fuel order := by
  have h1 : ∀ i j, thisNormalGradient N' i j = thisNormalGradient N i j := by
    intro i j; unfold thisNormalGradient; rw [hn, hs, hs]
  have h2 : ∀ i j, otherNormalGradient N' i j = otherNormalGradient N i j := by
    intro i j; unfold otherNormalGradient; rw [hn, hs, hs]
  have h3 : ∀ i j, flatEdge N' i j = flatEdge N i j := by
    intro i j; unfold flatEdge; rw [hn]
  have h4 : ∀ i, dirichletDouble N' i = dirichletDouble N i := by
    intro i
    funext c it
    unfold dirichletDouble
    simp only [h1, h2, hd, ht, hg]
    by_cases hf : flatEdge N i it
    · simp only [hf, (h3 i it).symm ▸ hf, if_true]
    · simp only [hf, (h3 i it).symm ▸ hf, if_false]
  have h5 : leader N' = leader N := by
    funext s
    unfold leader
    simp only [hd]
  have h6 : doubleNodeConstraints N' G = doubleNodeConstraints N G := by
    unfold doubleNodeConstraints
    congr 1
    funext c i
    unfold constraintStep
    simp only [h4, h5, hd]
  unfold computeConstraints
  rw [h6]

/-- The result of a run depends on the matrices and on the constraints only. -/
theorem solveWith_congr {n d d' : ℕ} {N M N' M' : Mat n} (C : Setup n d) (C' : Setup n d') (hN : N' = N) (hM : M' = M)
    (h1 : C'.method = C.method) (h2 : C'.part = C.part) (h3 : C'.neumannNodes = C.neumannNodes) (h4 : C'.haveDirichletBc = C.haveDirichletBc)
    (h5 : C'.nodes.dirichlet = C.nodes.dirichlet) (h6 : C'.nodes.tmpRhs = C.nodes.tmpRhs)
    (h7 : computeConstraints C'.nodes C'.doubles C'.hanging C'.fuel C'.order = computeConstraints C.nodes C.doubles C.hanging C.fuel C.order)
    (gmres : (Vec n → Vec n) → Vec n → Vec n) (st : AlphaStatics) (phi0 dphi0 : Vec n) :
    solveWith N' M' C' gmres st phi0 dphi0 = solveWith N M C gmres st phi0 dphi0 := by
  subst hN hM
  have hA : ∀ (P : Problem n) (c : Constraints ℝ n), constrainedVmult C'.procs (fun i => C'.owner i) (vmult P) c =
      constrainedVmult C.procs (fun i => C.owner i) (vmult P) c := by
    intro P c
    funext x
    exact (C23_linear_and_partition_independent (vmult P) c).1 _ _ _ _ x
  unfold solveWith
  simp only [h1, h2, h3, h4, h5, h6, h7, hA]

variable {Q : Matrix (Fin 3) (Fin 3) ℝ} {b : Fin 3 → ℝ}

/-- Setups of a problem and of the problem moved rigidly: normals and surface gradients are turned, everything else is the same except for the
distribution of the dofs. -/
structure SetupMoved (Q : Matrix (Fin 3) (Fin 3) ℝ) {n : ℕ} (C C' : Setup n 3) : Prop where
  method : C.method = .direct
  method' : C'.method = .direct
  part : C'.part = C.part
  neumann : C'.neumannNodes = C.neumannNodes
  bc : C'.haveDirichletBc = C.haveDirichletBc
  dirichlet : C'.nodes.dirichlet = C.nodes.dirichlet
  data : C'.nodes.tmpRhs = C.nodes.tmpRhs
  normal : ∀ i, Turned Q (C.nodes.normal i) (C'.nodes.normal i)
  surfGrad : ∀ i, Turned Q (C.nodes.surfGrad i) (C'.nodes.surfGrad i)
  grad : C'.nodes.continuosGradient = C.nodes.continuosGradient
  doubles : C'.doubles = C.doubles
  hanging : C'.hanging = C.hanging
  fuel : C'.fuel = C.fuel
  order : C'.order = C.order

/-- **C85** (rigid motions, any run). Dense method: moving the surface rigidly changes nothing in the result of a run — potential,
normal derivatives, vector and residual of the linear solver, success or exception — for the same linear solver, exact or not, with or without Dirichlet nodes, double nodes
and hanging nodes, whatever the distribution of the dofs. -/
theorem C85_same_run (hQ : Q.transpose * Q = 1) {inp : Input 3} {pos' : ℕ → Octree.Pt 3} {qpos' : ℕ × ℕ → Octree.Pt 3} {D D' : Data}
    {S' S₁' : SingRule} (h : Similar Q 1 b inp (moveInput inp pos' qpos') D D' S' S₁') (S S₁ : SingRule)
    (C C' : Setup inp.nDofs 3) (hC : SetupMoved Q C C') (gmres : (Vec inp.nDofs → Vec inp.nDofs) → Vec inp.nDofs → Vec inp.nDofs)
    (st : AlphaStatics) (phi0 dphi0 : Vec inp.nDofs) :
    solve (moveInput inp pos' qpos') D' S₁ S₁' C' gmres st phi0 dphi0 = solve inp D S S' C gmres st phi0 dphi0 := by
  have hm : ∀ ker, solveMatrix (moveInput inp pos' qpos') D' S₁ S₁' C'.method C'.owner ker = solveMatrix inp D S S' C.method C.owner ker := by
    intro ker
    funext (i : Fin inp.nDofs) (k : Fin inp.nDofs)
    rw [hC.method, hC.method']
    obtain ⟨e1, e2⟩ := C85_matrices hQ one_pos h S S₁ C.owner C'.owner i k
    cases ker with
    | double => exact e1
    | single => rw [e2, one_mul]
  refine solveWith_congr C C' (hm .double) (hm .single) (hC.method'.trans hC.method.symm) hC.part hC.neumann hC.bc hC.dirichlet hC.data ?_ gmres st phi0 dphi0
  rw [hC.doubles, hC.hanging, hC.fuel, hC.order]
  exact constraints_congr C.nodes C'.nodes hC.dirichlet hC.data hC.grad (fun i j => turned_dot hQ (hC.normal i) (hC.normal j))
    (fun i j => turned_dot hQ (hC.surfGrad i) (hC.normal j)) _ _ _ _

/-- Hypotheses of `C85_same_run`: every problem, turned by `rot35` and translated; the setup with turned normals. -/
example (inp : Input 3) (D : Data) (S' : SingRule) (C : Setup inp.nDofs 3) (hm : C.method = .direct) :
    ∃ (pos' : ℕ → Octree.Pt 3) (qpos' : ℕ × ℕ → Octree.Pt 3) (D' : Data) (S₁' : SingRule) (Q : Matrix (Fin 3) (Fin 3) ℝ) (b : Fin 3 → ℝ)
      (C' : Setup inp.nDofs 3), Q.transpose * Q = 1 ∧ Q 0 0 = 3 / 5 ∧ Similar Q 1 b inp (moveInput inp pos' qpos') D D' S' S₁' ∧ SetupMoved Q C C' :=
  ⟨_, _, _, _, rot35.map fun q => (q : ℝ), toV ![1, 0, 0],
    { C with nodes := { C.nodes with normal := fun i a => ∑ e, (rot35 a e : ℝ) * C.nodes.normal i e
                                     surfGrad := fun i a => ∑ e, (rot35 a e : ℝ) * C.nodes.surfGrad i e } },
    rot35_orthogonal, by simp [rot35], by simpa using similar_moved rot35 1 ![1, 0, 0] inp D S',
    ⟨hm, hm, rfl, rfl, rfl, rfl, rfl, fun _ _ => rfl, fun _ _ => rfl, rfl, rfl, rfl, rfl, rfl⟩⟩

end PiBem.Bem
