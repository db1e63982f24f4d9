import Verif.Props.Exact

/-!
# C94: what the tolerance of the linear solver guarantees

`solve_system` (bem_problem.cc:1701-1760) calls GMRES of deal.II with left preconditioning, an absolute tolerance on the
preconditioned residual and the initial guess zero (line 1712; line 1744 adds zero times the right hand side).
-/

noncomputable section

namespace PiBem.Bem

open PiBem.Octree PiBem.Fmm PiBem.Expansion

variable {n d : ℕ}

/-! ## Specification -/

/-- Contract of `SolverGMRES::solve` of deal.II as called in bem_problem.cc:1706-1708, 1745 and 1753 (left preconditioner `T`, absolute tolerance `tol` of `SolverControl` on the euclidean
norm of the preconditioned residual, initial guess zero). Only what happens before the first iteration: the initial guess is returned if its preconditioned residual passes the test. Other
returns are described by `norm (T R.residual) ≤ tol`. -/
def StartsAtZero (T : Mat n) (tol : ℝ) (gmres : (Vec n → Vec n) → Vec n → Vec n) : Prop :=
  ∀ A b, A 0 = 0 → l2norm (matVmult T b) ≤ tol → gmres A b = 0

/-- The same problem with boundary data and surface gradients (which are computed from the data) multiplied by `s`: the same problem in other units. -/
def scaledData (s : ℝ) (C : Setup n d) : Setup n d :=
  { C with nodes := { C.nodes with tmpRhs := fun i => s * C.nodes.tmpRhs i, surfGrad := fun i k => s * C.nodes.surfGrad i k } }

/-! ## Residuals and conditions -/

theorem unknown_eq_sol {B : Finset (Fin n)} {C : Setup n d} {R : Solution n} (h1 : R.phi = merge B C.nodes.tmpRhs R.sol)
    (h2 : R.dphi = merge B R.sol C.nodes.tmpRhs) : unknown B R.phi R.dphi = R.sol := by
  funext i
  rw [h1, h2]
  unfold unknown merge
  split_ifs <;> rfl

/-- **C94** (conditions at constrained nodes). Whatever the linear solver and wherever it stopped: within the residual of each node there is a vector of unknowns,
equal to the result at the nodes without condition, that satisfies the conditions at the double nodes and at the hanging nodes exactly. -/
theorem C94_conditions (N M : Mat n) (C : Setup n d) (gmres : (Vec n → Vec n) → Vec n → Vec n) (l : List (ℕ × ℕ)) (st' : AlphaStatics)
    (phi0 dphi0 : Vec n) (R : Solution n) (h : solveWith N M C gmres (alphaHistory l) phi0 dphi0 = (st', some R))
    (B : Finset (Fin n)) (hd : ∀ i, C.nodes.dirichlet i = if i ∈ B then 1 else 0)
    (hn : ∀ i, C.neumannNodes i = if i ∈ B then 0 else 1) (hb : C.haveDirichletBc = true)
    (hphi : ∀ i ∈ B, phi0 i = C.nodes.tmpRhs i) (hdphi : ∀ i, i ∉ B → dphi0 i = C.nodes.tmpRhs i)
    (hrefl : ∀ i, i ∈ C.doubles i) (heq : ∀ i j, j ∈ C.doubles i → C.doubles j = C.doubles i) (hord : ∀ i, i ∈ C.order)
    (hsharp : C.nodes.continuosGradient = true → ∀ i ∈ B, ∀ j ∈ C.doubles i, j ∈ B → j ≠ i →
      dot (C.nodes.normal i) (C.nodes.normal j) ^ 2 ≠ 1) :
    ∃ y : Vec n, DoubleNodes C.nodes C.doubles y ∧ Interpolates C.hanging y ∧
      (∀ i, |y i - unknown B R.phi R.dphi i| ≤ |R.residual i|) ∧
      ∀ i, C.hanging i = none → ¬ ((i ∉ B ∧ ∃ j ∈ C.doubles i, j ∈ B) ∨ ((∀ j ∈ C.doubles i, j ∉ B) ∧ ∃ j ∈ C.doubles i, j < i) ∨
        (i ∈ B ∧ C.nodes.continuosGradient = true ∧ ∃ j ∈ C.doubles i, j ≠ i ∧ j ∈ B)) → y i = unknown B R.phi R.dphi i := by
  obtain ⟨c, hc, h1, h2, -, h4⟩ := solveWith_rows h B hd hn hb hphi hdphi
  rw [unknown_eq_sol h1 h2]
  have hd01 : ∀ i, C.nodes.dirichlet i = 0 ∨ C.nodes.dirichlet i = 1 := by
    intro i; rw [hd]; split_ifs <;> simp
  have hd1 : ∀ i, C.nodes.dirichlet i = 1 ↔ i ∈ B := by intro i; rw [hd]; split_ifs with hi <;> simp [hi]
  have hd0 : ∀ i, C.nodes.dirichlet i = 0 ↔ i ∉ B := by intro i; rw [hd]; split_ifs with hi <;> simp [hi]
  obtain ⟨hl, hdom, hfree⟩ := C75_constraints C.nodes C.doubles hrefl heq hd01 C.hanging C.fuel C.order hord hc
  have hfin := constraints_finite C.nodes C.doubles hrefl heq hd01
    (fun hg i j hi hj hjd hne => hsharp hg i ((hd1 i).1 hi) j hj ((hd1 j).1 hjd) hne) C.hanging C.fuel C.order hc
  let y : Vec n := fun i => if (c i).isSome then R.sol i + R.residual i else R.sol i
  have hy : LinesHold c y := by
    intro i es g hi
    obtain ⟨v, rfl⟩ := Option.isSome_iff_exists.1 (hfin i es g hi)
    refine ⟨v, rfl, ?_⟩
    have e : (es.map fun e => e.2 * y e.1) = es.map fun e => e.2 * R.sol e.1 :=
      List.map_congr_left fun e he => by simp [y, hfree i es _ hi e he]
    have h5 := h4 i es _ hi
    rw [Option.getD_some] at h5
    rw [e]
    simp only [y, hi, Option.isSome_some, if_true]
    linarith
  obtain ⟨u, v⟩ := (hl y).1 hy
  refine ⟨y, u, v, fun i => ?_, fun i hi hno => ?_⟩
  · simp only [y]
    split_ifs
    · rw [add_sub_cancel_left]
    · rw [sub_self, abs_zero]; exact abs_nonneg _
  · have : ¬ (c i).isSome := by
      rw [hdom i, hi]
      simp only [hd0, hd1]
      rintro (h | h)
      · simp at h
      · exact hno h
    simp only [y, if_neg this]

/-- **C94** (jump of the potential). With one Dirichlet datum per position, the potentials at two nodes at the same position differ at most by the two residuals, whatever the linear solver. -/
theorem C94_jump (N M : Mat n) (C : Setup n d) (gmres : (Vec n → Vec n) → Vec n → Vec n) (l : List (ℕ × ℕ)) (st' : AlphaStatics)
    (phi0 dphi0 : Vec n) (R : Solution n) (h : solveWith N M C gmres (alphaHistory l) phi0 dphi0 = (st', some R))
    (B : Finset (Fin n)) (hd : ∀ i, C.nodes.dirichlet i = if i ∈ B then 1 else 0)
    (hn : ∀ i, C.neumannNodes i = if i ∈ B then 0 else 1) (hb : C.haveDirichletBc = true)
    (hphi : ∀ i ∈ B, phi0 i = C.nodes.tmpRhs i) (hdphi : ∀ i, i ∉ B → dphi0 i = C.nodes.tmpRhs i)
    (hrefl : ∀ i, i ∈ C.doubles i) (heq : ∀ i j, j ∈ C.doubles i → C.doubles j = C.doubles i) (hord : ∀ i, i ∈ C.order)
    (hdata : Consistent C B) (i j : Fin n) (hj : j ∈ C.doubles i) : |R.phi j - R.phi i| ≤ |R.residual j| + |R.residual i| := by
  obtain ⟨hagree, hsharp⟩ := hdata
  obtain ⟨y, hy, -, hyr, -⟩ := C94_conditions N M C gmres l st' phi0 dphi0 R h B hd hn hb hphi hdphi hrefl heq hord
    fun hg i hi j hj hjB hne => (hsharp hg i hi j hj hjB hne).1
  obtain ⟨c, hc, h1, h2, -, -⟩ := solveWith_rows h B hd hn hb hphi hdphi
  rw [unknown_eq_sol h1 h2] at hyr
  have hd1 : ∀ i, C.nodes.dirichlet i = 1 ↔ i ∈ B := by intro i; rw [hd]; split_ifs with hi <;> simp [hi]
  have hd0 : ∀ i, C.nodes.dirichlet i = 0 ↔ i ∉ B := by intro i; rw [hd]; split_ifs with hi <;> simp [hi]
  have key : ∃ v, ∀ k ∈ C.doubles i, |R.phi k - v| ≤ |R.residual k| := by
    by_cases hB : ∃ k ∈ C.doubles i, C.nodes.dirichlet k = 1
    · obtain ⟨f, hf⟩ := exists_firstDirichlet C.nodes (C.doubles i) hB
      refine ⟨C.nodes.tmpRhs f, fun k hk => ?_⟩
      by_cases hkB : k ∈ B
      · have e : R.phi k = C.nodes.tmpRhs k := by rw [h1]; simp [merge, hkB]
        rw [e, hagree f ((hd1 f).1 hf.2.1) k (by rw [heq i f hf.1]; exact hk) hkB, sub_self, abs_zero]
        exact abs_nonneg _
      · have e : R.phi k = R.sol k := by rw [h1]; simp [merge, hkB]
        rw [e, ← hy.mixed k f ((hd0 k).2 hkB) (by rw [heq i k hk]; exact hf), abs_sub_comm]
        exact hyr k
    · push Not at hB
      have hB0 : ∀ k ∈ C.doubles i, C.nodes.dirichlet k = 0 := fun k hk => by
        rw [hd0]; exact fun h => hB k hk ((hd1 k).2 h)
      have hne : (C.doubles i).Nonempty := ⟨i, hrefl i⟩
      refine ⟨y ((C.doubles i).min' hne), fun k hk => ?_⟩
      have e : R.phi k = R.sol k := by rw [h1]; simp [merge, (hd0 k).1 (hB0 k hk)]
      rw [e, ← hy.neumann k _ (by rw [heq i k hk]; exact hB0) (by rw [heq i k hk]; exact Finset.min'_mem _ hne)
          (by rw [heq i k hk]; exact fun m hm => Finset.min'_le _ _ hm), abs_sub_comm]
      exact hyr k
  obtain ⟨v, hv⟩ := key
  have a := abs_le.1 (hv j hj)
  have b := abs_le.1 (hv i (hrefl i))
  rw [abs_le]
  constructor <;> linarith [a.1, a.2, b.1, b.2]

/-! ## The tolerance -/

/-- **C94** (tolerance). If the preconditioned residual passes the test of the solver and the preconditioner shrinks no vector by more than `p` (for the identity `p = 1`): the collocated
integral equations at the nodes without condition hold up to `p * tol`, and potentials at two nodes at the same position differ at most by `2 * p * tol`. Without
such a bound on the preconditioner the tolerance bounds neither. -/
theorem C94_tolerance (N M : Mat n) (C : Setup n d) (gmres : (Vec n → Vec n) → Vec n → Vec n) (l : List (ℕ × ℕ)) (st' : AlphaStatics)
    (phi0 dphi0 : Vec n) (R : Solution n) (h : solveWith N M C gmres (alphaHistory l) phi0 dphi0 = (st', some R))
    (B : Finset (Fin n)) (hd : ∀ i, C.nodes.dirichlet i = if i ∈ B then 1 else 0)
    (hn : ∀ i, C.neumannNodes i = if i ∈ B then 0 else 1) (hb : C.haveDirichletBc = true)
    (hphi : ∀ i ∈ B, phi0 i = C.nodes.tmpRhs i) (hdphi : ∀ i, i ∉ B → dphi0 i = C.nodes.tmpRhs i)
    (hrefl : ∀ i, i ∈ C.doubles i) (heq : ∀ i j, j ∈ C.doubles i → C.doubles j = C.doubles i) (hord : ∀ i, i ∈ C.order)
    (hdata : Consistent C B) (T : Mat n) (tol p : ℝ) (hp : 0 ≤ p) (hT : ∀ v, l2norm v ≤ p * l2norm (matVmult T v))
    (hstop : l2norm (matVmult T R.residual) ≤ tol) :
    (∀ i, C.hanging i = none → ¬ ((i ∉ B ∧ ∃ j ∈ C.doubles i, j ∈ B) ∨ ((∀ j ∈ C.doubles i, j ∉ B) ∧ ∃ j ∈ C.doubles i, j < i) ∨
        (i ∈ B ∧ C.nodes.continuosGradient = true ∧ ∃ j ∈ C.doubles i, j ≠ i ∧ j ∈ B)) →
      |eqResidual N M R.phi R.dphi i| ≤ p * tol) ∧
    ∀ i, ∀ j ∈ C.doubles i, |R.phi j - R.phi i| ≤ 2 * p * tol := by
  have hres : ∀ i, |R.residual i| ≤ p * tol := by
    intro i
    have e : |R.residual i| ≤ l2norm R.residual := by
      unfold l2norm
      rw [← Real.sqrt_sq_eq_abs]
      exact Real.sqrt_le_sqrt (Finset.single_le_sum (f := fun i => R.residual i ^ 2) (fun i _ => sq_nonneg _) (Finset.mem_univ i))
    exact e.trans ((hT _).trans (mul_le_mul_of_nonneg_left hstop hp))
  refine ⟨fun i hi hno => ?_, fun i j hj => ?_⟩
  · obtain ⟨c, hc, -, -, h3, -⟩ := solveWith_rows h B hd hn hb hphi hdphi
    have hd01 : ∀ i, C.nodes.dirichlet i = 0 ∨ C.nodes.dirichlet i = 1 := by
      intro i; rw [hd]; split_ifs <;> simp
    have hd1 : ∀ i, C.nodes.dirichlet i = 1 ↔ i ∈ B := by intro i; rw [hd]; split_ifs with hi <;> simp [hi]
    have hd0 : ∀ i, C.nodes.dirichlet i = 0 ↔ i ∉ B := by intro i; rw [hd]; split_ifs with hi <;> simp [hi]
    have hci : c i = none := by
      rw [← Option.not_isSome_iff_eq_none, (C75_constraints C.nodes C.doubles hrefl heq hd01 C.hanging C.fuel C.order hord hc).2.1 i, hi]
      simp only [hd0, hd1]
      rintro (h1 | h1)
      · simp at h1
      · exact hno h1
    unfold eqResidual
    rw [h3 i hci, abs_neg]
    exact hres i
  · have := C94_jump N M C gmres l st' phi0 dphi0 R h B hd hn hb hphi hdphi hrefl heq hord hdata i j hj
    linarith [hres i, hres j]

/-! ## Data in other units -/

theorem scaled_conditions {D : NodeData n d} {G : Fin n → Finset (Fin n)} {x : Vec n} (s : ℝ) (h : DoubleNodes D G x) :
    DoubleNodes { D with tmpRhs := fun i => s * D.tmpRhs i, surfGrad := fun i k => s * D.surfGrad i k } G fun i => s * x i := by
  have hdot : ∀ (v w : Fin d → ℝ), dot (fun k => s * v k) w = s * dot v w := by
    intro v w
    unfold dot
    rw [Finset.mul_sum]
    exact Finset.sum_congr rfl fun k _ => by ring
  refine ⟨fun i l hi hl => ?_, fun i l hi hl hm => ?_, fun hg i l hi hl hne => ?_, fun hg i m hi hm hne => ?_⟩
  · exact congrArg (s * ·) (h.mixed i l hi hl)
  · exact congrArg (s * ·) (h.neumann i l hi hl hm)
  · have e := h.follower hg i l hi hl hne
    unfold otherNormalGradient fdiv at e ⊢
    split_ifs at e ⊢
    · cases e
    · simp only [Option.map_some, Option.some.injEq] at e ⊢
      rw [← e, hdot, hdot]; ring
  · have e := h.first hg i m hi hm hne
    unfold thisNormalGradient fdiv at e ⊢
    split_ifs at e ⊢
    · cases e
    · simp only [Option.map_some, Option.some.injEq] at e ⊢
      rw [← e, hdot, hdot]; ring

/-- The right hand side of the system is proportional to the data. -/
theorem rhs_scaled (P : Problem n) (B : Finset (Fin n)) (hM : Masks P B) (hb : P.haveDirichletBc = true) (C : Setup n d) (s : ℝ)
    (hd : ∀ i, C.nodes.dirichlet i = if i ∈ B then 1 else 0)
    (hrefl : ∀ i, i ∈ C.doubles i) (heq : ∀ i j, j ∈ C.doubles i → C.doubles j = C.doubles i) (hord : ∀ i, i ∈ C.order)
    (hsharp : C.nodes.continuosGradient = true → ∀ i ∈ B, ∀ j ∈ C.doubles i, j ∈ B → j ≠ i →
      dot (C.nodes.normal i) (C.nodes.normal j) ^ 2 ≠ 1) {c c' : Lines n}
    (hc : computeConstraints C.nodes C.doubles C.hanging C.fuel C.order = some c)
    (hc' : computeConstraints (scaledData s C).nodes C.doubles C.hanging C.fuel C.order = some c') (i : Fin n) :
    distributeRhs (toConstraints c') (computeRhs P 0 (scaledData s C).nodes.tmpRhs) i =
      s * distributeRhs (toConstraints c) (computeRhs P 0 C.nodes.tmpRhs) i := by
  have hd01 : ∀ i, C.nodes.dirichlet i = 0 ∨ C.nodes.dirichlet i = 1 := by
    intro i; rw [hd]; split_ifs <;> simp
  have hd1 : ∀ i, C.nodes.dirichlet i = 1 ↔ i ∈ B := by intro i; rw [hd]; split_ifs with hi <;> simp [hi]
  obtain ⟨a1, a2, a3⟩ := C75_constraints C.nodes C.doubles hrefl heq hd01 C.hanging C.fuel C.order hord hc
  obtain ⟨b1, b2, b3⟩ := C75_constraints (scaledData s C).nodes C.doubles hrefl heq hd01 C.hanging C.fuel C.order hord hc'
  have hfin := constraints_finite C.nodes C.doubles hrefl heq hd01
    (fun hg i j hi hj hjd hne => hsharp hg i ((hd1 i).1 hi) j hj ((hd1 j).1 hjd) hne) C.hanging C.fuel C.order hc
  have hdom : ∀ i, (c' i).isSome ↔ (c i).isSome := fun i => (b2 i).trans (a2 i).symm
  let x : Vec n := fun i => match c i with
    | some (_, g) => g.getD 0
    | none => 0
  have hx0 : ∀ i, c i = none → x i = 0 := by
    intro i hi; simp only [x, hi]
  have hx : LinesHold c x := by
    intro i es g hi
    obtain ⟨v, rfl⟩ := Option.isSome_iff_exists.1 (hfin i es g hi)
    refine ⟨v, rfl, ?_⟩
    have e : (es.map fun e => e.2 * x e.1) = es.map fun _ => (0 : ℝ) :=
      List.map_congr_left fun e he => by rw [hx0 _ (a3 i es _ hi e he), mul_zero]
    rw [e]
    simp [x, hi]
  obtain ⟨u, v⟩ := (a1 x).1 hx
  have hx' : LinesHold c' fun i => s * x i := by
    refine (b1 _).2 ⟨scaled_conditions s u, fun i hs hh => ?_⟩
    simp only
    rw [v i hs hh, ← List.sum_map_mul_left]
    congr 1
    exact List.map_congr_left fun e _ => by ring
  rw [distributeRhs_eq, distributeRhs_eq]
  cases hci : c i with
  | none =>
    have hci' : c' i = none := by
      rw [← Option.not_isSome_iff_eq_none, hdom, hci]; simp
    have t1 : toConstraints c i = none := by simp [toConstraints, hci]
    have t2 : toConstraints c' i = none := by simp [toConstraints, hci']
    rw [t1, t2]
    simp only
    have r0 := row_residual P B hM hb 0 0 i
    have r1 := row_residual P B hM hb 0 C.nodes.tmpRhs i
    have r2 := row_residual P B hM hb 0 (scaledData s C).nodes.tmpRhs i
    have hv : vmult P 0 i = 0 := by
      rw [vmult_dirichlet_eq P hb]; simp
    have m1 : ∀ g : Vec n, merge B (fun i => s * g i) 0 = fun i => s * merge B g 0 i := by
      intro g; funext j; unfold merge; split_ifs <;> simp
    have m2 : ∀ g : Vec n, merge B 0 (fun i => s * g i) = fun i => s * merge B 0 g i := by
      intro g; funext j; unfold merge; split_ifs <;> simp
    have e1 : (scaledData s C).nodes.tmpRhs = fun i => s * C.nodes.tmpRhs i := rfl
    rw [e1, m1, m2, hv] at r2
    rw [hv] at r1
    have e2 : ∀ (A : Fin n → ℝ) (g : Vec n), ∑ j, A j * (s * g j) = s * ∑ j, A j * g j := by
      intro A g; rw [Finset.mul_sum]; exact Finset.sum_congr rfl fun j _ => by ring
    rw [e2, e2] at r2
    rw [e1]
    linear_combination s * r1 - r2
  | some p =>
    obtain ⟨es, g⟩ := p
    obtain ⟨⟨es', g'⟩, hci'⟩ := Option.isSome_iff_exists.1 ((hdom i).2 (by rw [hci]; rfl))
    have t1 : toConstraints c i = some (es, g.getD 0) := by simp [toConstraints, hci]
    have t2 : toConstraints c' i = some (es', g'.getD 0) := by simp [toConstraints, hci']
    rw [t1, t2]
    simp only
    obtain ⟨w, rfl, e⟩ := hx' i es' g' hci'
    have e3 : (es'.map fun e => e.2 * (s * x e.1)) = es'.map fun _ => (0 : ℝ) :=
      List.map_congr_left fun e he => by
        have : c e.1 = none := by
          rw [← Option.not_isSome_iff_eq_none, ← hdom, b3 i es' _ hci' e he]; simp
        rw [hx0 _ this]; ring
    simp only [e3] at e
    simp [x, hci] at e
    rw [Option.getD_some, ← e]

/-- **C94** (the tolerance is absolute). Data in other units: if the unit is large enough, that is if all data are multiplied by a small enough number, the program returns zero for all unknowns, the potential at the Neumann
nodes and the normal derivative at the Dirichlet nodes, whatever the geometry and the data. -/
theorem C94_small_data (N M : Mat n) (C : Setup n d) (T : Mat n) (tol : ℝ) (htol : 0 < tol) (gmres : (Vec n → Vec n) → Vec n → Vec n)
    (hgm : StartsAtZero T tol gmres) (l : List (ℕ × ℕ)) (st : AlphaStatics)
    (phi0 dphi0 : Vec n) (R : Solution n) (h : solveWith N M C gmres (alphaHistory l) phi0 dphi0 = (st, some R))
    (B : Finset (Fin n)) (hd : ∀ i, C.nodes.dirichlet i = if i ∈ B then 1 else 0)
    (hn : ∀ i, C.neumannNodes i = if i ∈ B then 0 else 1) (hb : C.haveDirichletBc = true)
    (hrefl : ∀ i, i ∈ C.doubles i) (heq : ∀ i j, j ∈ C.doubles i → C.doubles j = C.doubles i) (hord : ∀ i, i ∈ C.order)
    (hsharp : C.nodes.continuosGradient = true → ∀ i ∈ B, ∀ j ∈ C.doubles i, j ∈ B → j ≠ i →
      dot (C.nodes.normal i) (C.nodes.normal j) ^ 2 ≠ 1) :
    ∃ s₀ > 0, ∀ s, 0 < s → s ≤ s₀ → ∀ st' R', solveWith N M (scaledData s C) gmres (alphaHistory l) (fun i => s * phi0 i) (fun i => s * dphi0 i) = (st', some R') →
      (∀ i, i ∉ B → R'.phi i = 0) ∧ ∀ i ∈ B, R'.dphi i = 0 := by
  obtain ⟨alpha, c, ha, hc, -⟩ := solveWith_parts h
  set P : Problem n := ⟨N, M, alpha, C.nodes.dirichlet, C.neumannNodes, C.haveDirichletBc, C.method⟩ with hP
  have hM : Masks P B := ⟨hd, hn⟩
  set b := distributeRhs (toConstraints c) (computeRhs P 0 C.nodes.tmpRhs) with hbdef
  have hnn : 0 ≤ l2norm (matVmult T b) := Real.sqrt_nonneg _
  refine ⟨tol / (l2norm (matVmult T b) + 1), by positivity, fun s hs hs0 st' R' h' => ?_⟩
  unfold solveWith at h'
  simp only [Prod.mk.injEq] at h'
  obtain ⟨-, h'⟩ := h'
  obtain ⟨alpha', ha', h'⟩ := Option.bind_eq_some_iff.1 h'
  obtain ⟨c', hc', h'⟩ := Option.map_eq_some_iff.1 h'
  have haa : alpha' = alpha := by
    have : some alpha' = some alpha := ha'.symm.trans ha
    exact Option.some.inj this
  subst haa
  have hrhs : distributeRhs (toConstraints c') (computeRhs P 0 (scaledData s C).nodes.tmpRhs) = fun i => s * b i :=
    funext fun i => rhs_scaled P B hM hb C s hd hrefl heq hord hsharp hc hc' i
  have hzero : gmres (constrainedVmult C.procs (fun i => C.owner i) (vmult P) (toConstraints c')) (fun i => s * b i) = 0 := by
    refine hgm _ _ ?_ ?_
    · funext i
      rw [constrainedVmult_eq]
      unfold rowValue
      split
      · simp
      · rw [vmult_dirichlet_eq P hb]; simp
    · have e : matVmult T (fun i => s * b i) = fun i => s * matVmult T b i := by
        funext i
        unfold matVmult
        rw [Finset.mul_sum]
        exact Finset.sum_congr rfl fun j _ => by ring
      have e2 : l2norm (fun i => s * matVmult T b i) = s * l2norm (matVmult T b) := by
        unfold l2norm
        simp only [mul_pow]
        rw [← Finset.mul_sum, Real.sqrt_mul (sq_nonneg s), Real.sqrt_sq hs.le]
      rw [e, e2]
      rw [le_div_iff₀ (by positivity)] at hs0
      nlinarith
  have hsol : R'.sol = 0 := by
    have e : R'.sol = gmres (constrainedVmult C.procs (fun i => C.owner i) (vmult P) (toConstraints c'))
        (distributeRhs (toConstraints c') (computeRhs P 0 (scaledData s C).nodes.tmpRhs)) := by rw [← h']; rfl
    rw [e, hrhs, hzero]
  have hst : (R'.phi, R'.dphi) = storeSolution C.nodes.dirichlet R'.sol (fun i => s * phi0 i) (fun i => s * dphi0 i) := by
    rw [← h']
    rfl
  have hm := hst.trans (C26_prescribed_data_kept P B hM R'.sol (fun i => s * phi0 i) (fun i => s * dphi0 i))
  have m1 := congrArg Prod.fst hm
  have m2 := congrArg Prod.snd hm
  simp only at m1 m2
  refine ⟨fun i hi => ?_, fun i hi => ?_⟩
  · rw [m1, hsol]; simp [merge, hi]
  · rw [m2, hsol]; simp [merge, hi]

/-! ## The hypotheses are met -/

/-- An edge between a Dirichlet face (node 0, potential `s`) and a Neumann face (node 1). -/
def edgePair (s : ℝ) : Setup 2 3 where
  method := .direct
  owner := id
  procs := 2
  part := 2
  neumannNodes := ![0, 1]
  haveDirichletBc := true
  nodes := ⟨![1, 0], ![s, 0], fun i k => if i.val = k.val then 1 else 0, fun _ _ => 0, false⟩
  doubles := fun _ => Finset.univ
  hanging := fun _ => none
  fuel := 1
  order := List.finRange _

theorem edgePair_scaled (s : ℝ) : scaledData s (edgePair 1) = edgePair s := by
  have e : (fun i => s * (![1, 0] : Vec 2) i) = ![s, 0] := by funext i; fin_cases i <;> simp
  simp only [scaledData, edgePair, e, mul_zero]

/-- A linear solver that keeps the initial guess zero if it passes the test, and returns the right hand side otherwise. -/
def guessOrRhs (tol : ℝ) (_ : Vec 2 → Vec 2) (b : Vec 2) : Vec 2 :=
  open scoped Classical in if l2norm (matVmult (eye 2) b) ≤ tol then 0 else b

theorem guess_starts (tol : ℝ) : StartsAtZero (eye 2) tol (guessOrRhs tol) :=
  fun _ b _ h => by unfold guessOrRhs; rw [if_pos h]

theorem edgePair_masks (s : ℝ) : (∀ i, (edgePair s).nodes.dirichlet i = if i ∈ ({0} : Finset (Fin 2)) then 1 else 0) ∧
    ∀ i, (edgePair s).neumannNodes i = if i ∈ ({0} : Finset (Fin 2)) then 0 else 1 := by
  constructor <;> intro i <;> fin_cases i <;> simp [edgePair]

theorem edgePair_line (s : ℝ) (i : Fin 2) : doubleNodeConstraints (edgePair s).nodes (edgePair s).doubles i =
    if i = 1 then some ([], some s) else none := by
  have hd : ∀ i, (edgePair s).nodes.dirichlet i = 0 ∨ (edgePair s).nodes.dirichlet i = 1 := by
    intro i; fin_cases i <;> simp [edgePair]
  obtain ⟨h1, -, h3, -, -⟩ := C31_double_node_constraints (edgePair s).nodes (edgePair s).doubles (by simp [edgePair]) (by simp [edgePair]) hd i
  fin_cases i
  · rw [if_neg (by simp)]
    exact h3 (by simp [edgePair]) rfl
  · refine Eq.trans ?_ (if_pos rfl).symm
    exact h1 (by simp [edgePair]) 0 ⟨by simp [edgePair], by simp [edgePair], fun k _ _ => Fin.zero_le k⟩

theorem edgePair_solve (s : ℝ) (gmres : (Vec 2 → Vec 2) → Vec 2 → Vec 2) (phi0 dphi0 : Vec 2) :
    ∃ st X, solveWith (eye 2) (eye 2) (edgePair s) gmres (alphaHistory []) phi0 dphi0 = (st, some X) := by
  have hc : computeConstraints (edgePair s).nodes (edgePair s).doubles (edgePair s).hanging (edgePair s).fuel (edgePair s).order = some _ :=
    lines_no_entries _ _ (fun i es g h => by
      rw [edgePair_line] at h
      split_ifs at h
      cases h; rfl) _
  have ha : (alphaStaticsStep 2 (edgePair s).part (alphaHistory [])).part = (edgePair s).part := by
    simp [alphaHistory, alphaStaticsStep, AlphaStatics.init]
  unfold solveWith computeAlpha
  simp only [ha, if_true, Option.bind_some, hc, Option.map_some]
  exact ⟨_, _, rfl⟩

/-- At the edge of a Dirichlet face with a small enough potential `s ≠ 0` the program returns the potential 0 at the node of the Neumann face at the same position. -/
example : ∃ s : ℝ, s ≠ 0 ∧ ∃ st R, solveWith (eye 2) (eye 2) (edgePair s) (guessOrRhs 1e-10) (alphaHistory []) (fun _ => s) 0 = (st, some R) ∧
    R.phi 0 = s ∧ R.phi 1 = 0 := by
  obtain ⟨st, R, h⟩ := edgePair_solve 1 (guessOrRhs 1e-10) (fun _ => 1) 0
  obtain ⟨s, hs, hall⟩ := C94_small_data (eye 2) (eye 2) (edgePair 1) (eye 2) 1e-10 (by norm_num) _ (guess_starts _) [] st _ _ R h {0}
    (edgePair_masks 1).1 (edgePair_masks 1).2 rfl (by simp [edgePair]) (by simp [edgePair]) (by simp [edgePair]) (by simp [edgePair])
  obtain ⟨st', R', h'⟩ := edgePair_solve s (guessOrRhs 1e-10) (fun i => s * 1) (fun i => s * 0)
  have h2 := h'
  rw [← edgePair_scaled] at h2
  obtain ⟨z1, z2⟩ := hall s hs le_rfl st' R' h2
  obtain ⟨-, -, p1, -, -⟩ := solveWith_rows h' {0} (edgePair_masks s).1 (edgePair_masks s).2 rfl
    (fun i hi => by rw [Finset.mem_singleton.1 hi]; simp [edgePair]) (fun i hi => by
      fin_cases i
      · simp at hi
      · simp [edgePair])
  refine ⟨s, hs.ne', st', R', ?_, ?_, z1 1 (by simp)⟩
  · have e1 : (fun _ : Fin 2 => s) = fun i => s * 1 := by simp
    have e2 : (0 : Vec 2) = fun i => s * 0 := by funext i; simp
    rw [e1, e2]; exact h'
  · rw [p1]; simp [merge, edgePair]

/-- The hypotheses of `C94_tolerance`, with the identity as preconditioner. -/
example (s : ℝ) : (∀ v, l2norm v ≤ 1 * l2norm (matVmult (eye 2) v)) ∧ Consistent (edgePair s) {0} := by
  refine ⟨fun v => ?_, ?_, by simp [edgePair]⟩
  · have : matVmult (eye 2) v = v := by funext i; simp [matVmult, eye]
    rw [this, one_mul]
  · intro i hi j _ hj
    rw [Finset.mem_singleton.1 hi, Finset.mem_singleton.1 hj]

end PiBem.Bem
