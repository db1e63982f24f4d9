import Verif.Props.Solve
import Verif.Props.Boundary

/-!
# C79: what a pure Neumann solve returns
-/

noncomputable section

namespace PiBem.Bem

open PiBem.Octree PiBem.Fmm PiBem.Expansion

/-! ## Specification -/

/-- The double layer of the differences at node `i`, as the method multiplies: `Σ_k (φ_k - φ_i) N_ik`. -/
def methodDouble (inp : Input 3) (D : Data) (S S' : SingRule) (m : Method) (owner : ℕ → ℕ) (phi : Vec inp.nDofs) : Vec inp.nDofs :=
  fun i => ∑ k, solveMatrix inp D S S' m owner .double i k * (phi k - phi i)

/-- The single layer of the normal derivative at node `i`, as the method multiplies: `Σ_k M_ik (∂φ/∂n)_k`. -/
def methodSingle (inp : Input 3) (D : Data) (S S' : SingRule) (m : Method) (owner : ℕ → ℕ) (dphi : Vec inp.nDofs) : Vec inp.nDofs :=
  fun i => ∑ k, solveMatrix inp D S S' m owner .single i k * dphi k

/-! ## Rows -/

variable {d : ℕ}

theorem solve_rows_neumann {inp : Input 3} {D : Data} {S S' : SingRule} {C : Setup inp.nDofs d}
    {gmres : (Vec inp.nDofs → Vec inp.nDofs) → Vec inp.nDofs → Vec inp.nDofs} {l : List (ℕ × ℕ)} {st' : AlphaStatics}
    {phi0 dphi0 : Vec inp.nDofs} {R : Solution inp.nDofs}
    (h : solve inp D S S' C gmres (alphaHistory l) phi0 dphi0 = (st', some R))
    (hd : ∀ i, C.nodes.dirichlet i = 0) (hn : ∀ i, C.neumannNodes i = 1) (hb : C.haveDirichletBc = false) :
    ∃ c, computeConstraints C.nodes C.doubles C.hanging C.fuel C.order = some c ∧
      R.phi = R.sol ∧ R.dphi = dphi0 ∧
      ∀ i, c i = none → methodDouble inp D S S' C.method C.owner R.phi i -
        l2norm (methodDouble inp D S S' C.method C.owner R.phi) =
        methodSingle inp D S S' C.method C.owner C.nodes.tmpRhs i - R.residual i := by
  obtain ⟨alpha, c, ha, hc, hst, hres⟩ := solve_parts h
  have hal := (C27_constants l C.method C.part _ alpha ha).1
  set P : Problem inp.nDofs := ⟨solveMatrix inp D S S' C.method C.owner .double,
        solveMatrix inp D S S' C.method C.owner .single, alpha, C.nodes.dirichlet, C.neumannNodes, C.haveDirichletBc, C.method⟩
    with hP
  have hM : Masks P ∅ := ⟨by simp [hP, hd], by simp [hP, hn]⟩
  have hmerge := C26_prescribed_data_kept P ∅ hM R.sol phi0 dphi0
  have h1 : R.phi = R.sol := by
    have := congrArg Prod.fst (hst.trans hmerge)
    simp only at this
    rw [this]
    funext i; simp [merge]
  have h2 : R.dphi = dphi0 := by
    have := congrArg Prod.snd (hst.trans hmerge)
    simp only at this
    rw [this]
    funext i; simp [merge]
  refine ⟨c, hc, h1, h2, fun i hi => ?_⟩
  have hr := hres i
  rw [constrainedVmult_eq, distributeRhs_eq] at hr
  have htc : toConstraints c i = none := by simp [toConstraints, hi]
  unfold rowValue at hr
  rw [htc] at hr
  simp only at hr
  rw [C28_action P hM hb hal, computeRhs_eq] at hr
  have e : neumannOp P R.sol = methodDouble inp D S S' C.method C.owner R.phi := by
    funext i
    rw [h1]
    unfold neumannOp methodDouble
    simp only [mul_sub, Finset.sum_sub_distrib, ← Finset.sum_mul]
    have := hal i
    simp only [hP]
    linear_combination (R.sol i) * this
  rw [e] at hr
  simp only [hP, hd, hn, mul_zero, mul_one, zero_mul, Finset.sum_const_zero, Pi.zero_apply, ite_self] at hr
  unfold methodSingle
  linarith

/-- The nodes without constraint in a pure Neumann problem. -/
theorem unconstrained_neumann {n : ℕ} (D : NodeData n d) (G : Fin n → Finset (Fin n)) (hrefl : ∀ i, i ∈ G i)
    (heq : ∀ i j, j ∈ G i → G j = G i) (hd : ∀ i, D.dirichlet i = 0) (h : Hanging n) (fuel : ℕ)
    (order : List (Fin n)) (hord : ∀ i, i ∈ order) {c : Lines n} (hc : computeConstraints D G h fuel order = some c) (i : Fin n) :
    c i = none ↔ h i = none ∧ ∀ j ∈ G i, i ≤ j := by
  rw [← Option.not_isSome_iff_eq_none, (C75_constraints D G hrefl heq (fun i => Or.inl (hd i)) h fuel order hord hc).2.1 i,
    ← Option.not_isSome_iff_eq_none]
  simp only [hd, zero_ne_one, and_false, exists_false, false_or, or_false, implies_true, true_and, not_or,
    not_exists, not_and, not_lt]

/-! ## Geometry of the shift -/

theorem l2norm_sq' {n : ℕ} (v : Vec n) : l2norm v ^ 2 = ∑ i, v i ^ 2 :=
  Real.sq_sqrt (Finset.sum_nonneg fun _ _ => sq_nonneg _)

theorem l2norm_nonneg' {n : ℕ} (v : Vec n) : 0 ≤ l2norm v := Real.sqrt_nonneg _

/-- Values `z - ‖z‖` on a set `U` of rows: the sum is not positive and the values are almost constant. -/
theorem shifted_cone {n : ℕ} (z y : Vec n) (U : Finset (Fin n)) (hU : U.Nonempty) (hy : ∀ i ∈ U, y i = z i - l2norm z) :
    ∑ i ∈ U, y i ≤ 0 ∧ ((U.card : ℝ) - 1) * ∑ i ∈ U, y i ^ 2 ≤ (∑ i ∈ U, y i) ^ 2 := by
  set t := l2norm z with ht
  have ht0 : 0 ≤ t := l2norm_nonneg' z
  have hc1 : (1 : ℝ) ≤ U.card := by exact_mod_cast hU.card_pos
  have hle : ∑ i ∈ U, (y i + t) ^ 2 ≤ t ^ 2 := by
    rw [ht, l2norm_sq']
    calc ∑ i ∈ U, (y i + l2norm z) ^ 2 = ∑ i ∈ U, z i ^ 2 := Finset.sum_congr rfl fun i hi => by rw [hy i hi]; ring
      _ ≤ _ := Finset.sum_le_sum_of_subset_of_nonneg (Finset.subset_univ _) fun _ _ _ => sq_nonneg _
  have hexp : ∑ i ∈ U, (y i + t) ^ 2 = ∑ i ∈ U, y i ^ 2 + 2 * t * ∑ i ∈ U, y i + U.card * t ^ 2 := by
    simp only [add_sq, Finset.sum_add_distrib, Finset.sum_const, nsmul_eq_mul, Finset.mul_sum]
    congr 2
    exact Finset.sum_congr rfl fun i _ => by ring
  rw [hexp] at hle
  have hq : 0 ≤ ∑ i ∈ U, y i ^ 2 := Finset.sum_nonneg fun _ _ => sq_nonneg _
  set q := ∑ i ∈ U, y i ^ 2
  set s := ∑ i ∈ U, y i with hs
  set u : ℝ := (U.card : ℝ)
  have hnn : 0 ≤ (u - 1) * t ^ 2 := mul_nonneg (by linarith) (sq_nonneg t)
  have hs0 : s ≤ 0 := by
    by_contra hpos
    push Not at hpos
    have h1 : q + 2 * t * s ≤ 0 := by nlinarith
    have h2 : 0 ≤ 2 * t * s := by positivity
    have hq0 : q = 0 := by linarith
    have hz : ∀ i ∈ U, y i = 0 := by
      intro i hi
      have := (Finset.sum_eq_zero_iff_of_nonneg (fun i _ => sq_nonneg (y i))).1 hq0 i hi
      exact pow_eq_zero_iff (two_ne_zero) |>.1 this
    rw [hs, Finset.sum_eq_zero hz] at hpos
    exact lt_irrefl _ hpos
  refine ⟨hs0, ?_⟩
  -- discriminant of `(u-1) t² + 2 s t + q ≤ 0`
  nlinarith [sq_nonneg ((u - 1) * t + s), mul_le_mul_of_nonneg_left hle (by linarith : 0 ≤ u - 1)]

/-- Distance of a zero mean vector from the values of the previous lemma. -/
theorem cone_distance {n : ℕ} (b y : Vec n) (U : Finset (Fin n)) (hU : U.Nonempty) (hb : ∑ i ∈ U, b i = 0)
    (hy : ((U.card : ℝ) - 1) * ∑ i ∈ U, y i ^ 2 ≤ (∑ i ∈ U, y i) ^ 2) :
    (1 - 1 / (U.card : ℝ)) * ∑ i ∈ U, b i ^ 2 ≤ ∑ i ∈ U, (b i - y i) ^ 2 := by
  have hc1 : (1 : ℝ) ≤ U.card := by exact_mod_cast hU.card_pos
  set u : ℝ := (U.card : ℝ) with hu
  set m := (∑ i ∈ U, y i) / u with hm
  have hu0 : u ≠ 0 := by linarith
  have hsum : ∑ i ∈ U, y i = u * m := by rw [hm]; field_simp
  -- `w = y - m`
  have hw : ∑ i ∈ U, y i ^ 2 = ∑ i ∈ U, (y i - m) ^ 2 + u * m ^ 2 := by
    have : ∑ i ∈ U, (y i - m) ^ 2 = ∑ i ∈ U, y i ^ 2 - 2 * m * ∑ i ∈ U, y i + u * m ^ 2 := by
      simp only [sub_sq, Finset.sum_add_distrib, Finset.sum_sub_distrib, Finset.sum_const, nsmul_eq_mul, Finset.mul_sum, hu]
      congr 2
      exact Finset.sum_congr rfl fun i _ => by ring
    rw [this, hsum]; ring
  have hd : ∑ i ∈ U, (b i - y i) ^ 2 = ∑ i ∈ U, (b i - (y i - m)) ^ 2 + u * m ^ 2 := by
    have : ∑ i ∈ U, (b i - (y i - m)) ^ 2 = ∑ i ∈ U, (b i - y i) ^ 2 + 2 * m * ∑ i ∈ U, (b i - y i) + u * m ^ 2 := by
      have e : ∀ i ∈ U, (b i - (y i - m)) ^ 2 = (b i - y i) ^ 2 + 2 * m * (b i - y i) + m ^ 2 := fun i _ => by ring
      rw [Finset.sum_congr rfl e, Finset.sum_add_distrib, Finset.sum_add_distrib, Finset.sum_const, nsmul_eq_mul, ← Finset.mul_sum]
    rw [this, Finset.sum_sub_distrib, hb, hsum]; ring
  rw [hw, hsum] at hy
  have hy' : (u - 1) * ∑ i ∈ U, (y i - m) ^ 2 ≤ u * m ^ 2 := by nlinarith
  rw [hd]
  have key : (1 - 1 / u) * ∑ i ∈ U, b i ^ 2 ≤ ∑ i ∈ U, (b i - (y i - m)) ^ 2 + (u - 1) * ∑ i ∈ U, (y i - m) ^ 2 := by
    rw [Finset.mul_sum, Finset.mul_sum, ← Finset.sum_add_distrib]
    refine Finset.sum_le_sum fun i _ => ?_
    have : (b i - (y i - m)) ^ 2 + (u - 1) * (y i - m) ^ 2 - (1 - 1 / u) * b i ^ 2 = 1 / u * (b i - u * (y i - m)) ^ 2 := by
      field_simp; ring
    have h0 : 0 ≤ 1 / u * (b i - u * (y i - m)) ^ 2 := 
      mul_nonneg (div_nonneg zero_le_one (by linarith)) (sq_nonneg _)
    linarith
  linarith

/-! ## C79 -/

/-- **C79**. Pure Neumann problem, both methods, every history, linear solver and constraints: if `solve` returns, the normal derivative is the one
passed by the caller and there is one constant `t ≥ 0`, zero iff the double layer of the differences of the returned potential (as the method
computes it) vanishes at *all* nodes, such that at every node without constraint the boundary integral equation is violated by `t`, up to the residual
of the linear solver and the errors of the products. The same holds for the potential after the final shift of `solve_problem` (C37). -/
theorem C79_constant_defect (inp : Input 3) (D : Data) (S S' : SingRule) (C : Setup inp.nDofs d)
    (gmres : (Vec inp.nDofs → Vec inp.nDofs) → Vec inp.nDofs → Vec inp.nDofs) (l : List (ℕ × ℕ)) (st' : AlphaStatics)
    (phi0 dphi0 : Vec inp.nDofs) (R : Solution inp.nDofs)
    (h : solve inp D S S' C gmres (alphaHistory l) phi0 dphi0 = (st', some R))
    (hd : ∀ i, C.nodes.dirichlet i = 0) (hn : ∀ i, C.neumannNodes i = 1) (hb : C.haveDirichletBc = false)
    (hdphi : dphi0 = C.nodes.tmpRhs)
    (hdof : ∀ c k, k ∈ inp.cellDofs c → k < inp.nDofs) (hm : C.method = .fma → Admissible inp D)
    (hrefl : ∀ i, i ∈ C.doubles i) (heq : ∀ i j, j ∈ C.doubles i → C.doubles j = C.doubles i) (hord : ∀ i, i ∈ C.order)
    (potential phi' : Vec inp.nDofs) (own : Fin inp.nDofs → ℕ) (hs : finalShift false potential own R.phi = some phi') :
    R.dphi = C.nodes.tmpRhs ∧
    ∃ t, 0 ≤ t ∧ t ^ 2 = ∑ i, methodDouble inp D S S' C.method C.owner R.phi i ^ 2 ∧
      (t = 0 ↔ ∀ i, methodDouble inp D S S' C.method C.owner R.phi i = 0) ∧
      ∀ i, C.hanging i = none → (∀ j ∈ C.doubles i, i ≤ j) → ∀ phi, phi = R.phi ∨ phi = phi' →
        |bieResidual inp D S' phi R.dphi i - t| ≤ |R.residual i| +
          methodGap C.method inp D S S' .double (fun k => phi k - phi i) i + methodGap C.method inp D S S' .single R.dphi i := by
  obtain ⟨c, hc, h1, h2, h3⟩ := solve_rows_neumann h hd hn hb
  refine ⟨h2.trans hdphi, l2norm (methodDouble inp D S S' C.method C.owner R.phi), l2norm_nonneg' _, l2norm_sq' _, ?_, ?_⟩
  · rw [l2norm_zero_iff]
    exact ⟨fun h i => congrFun h i, fun h => funext h⟩
  · intro i hh hdbl phi hphi
    have hdiff : ∀ k, phi k - phi i = R.phi k - R.phi i := by
      intro k
      rcases hphi with rfl | rfl
      · rfl
      · exact ((C37_final_shift potential R.phi own).2.2 phi hs).2.1 k i
    have hci := (unconstrained_neumann C.nodes C.doubles hrefl heq hd C.hanging C.fuel C.order hord hc i).2 ⟨hh, hdbl⟩
    have hrow := h3 i hci
    have g1 := product_gap inp D S S' C.method C.owner .double hdof hm (fun k => R.phi k - R.phi i) i
    have g2 := product_gap inp D S S' C.method C.owner .single hdof hm R.dphi i
    rw [← h2.trans hdphi] at hrow
    unfold bieResidual
    simp only [hdiff]
    generalize l2norm (methodDouble inp D S S' C.method C.owner R.phi) = t at hrow ⊢
    unfold methodDouble methodSingle at hrow
    rw [abs_le] at g1 g2 ⊢
    have r1 := neg_abs_le (R.residual i)
    have r2 := le_abs_self (R.residual i)
    constructor <;> linarith [g1.1, g1.2, g2.1, g2.2]

/-- **C79**. Pure Neumann problem, both methods. Let `b` be the single layer of the prescribed normal derivative and `U` the set of nodes without constraint. Whatever the linear
solver returns: if the residual is zero on `U`, then `Σ_U b ≤ 0` and `(|U| - 1) Σ_U b² ≤ (Σ_U b)²` (`b` is almost a negative constant); if `Σ_U b = 0`, the
squared norm of the residual on `U` is at least `1 - 1/|U|` times the one of `b`, so that no linear solver reduces the initial residual (of
a zero initial guess) by more than this factor. -/
theorem C79_unsolvable (inp : Input 3) (D : Data) (S S' : SingRule) (C : Setup inp.nDofs d)
    (gmres : (Vec inp.nDofs → Vec inp.nDofs) → Vec inp.nDofs → Vec inp.nDofs) (l : List (ℕ × ℕ)) (st' : AlphaStatics)
    (phi0 dphi0 : Vec inp.nDofs) (R : Solution inp.nDofs)
    (h : solve inp D S S' C gmres (alphaHistory l) phi0 dphi0 = (st', some R))
    (hd : ∀ i, C.nodes.dirichlet i = 0) (hn : ∀ i, C.neumannNodes i = 1) (hb : C.haveDirichletBc = false)
    (hrefl : ∀ i, i ∈ C.doubles i) (heq : ∀ i j, j ∈ C.doubles i → C.doubles j = C.doubles i) (hord : ∀ i, i ∈ C.order)
    (U : Finset (Fin inp.nDofs)) (hU : ∀ i, i ∈ U ↔ C.hanging i = none ∧ ∀ j ∈ C.doubles i, i ≤ j) (hne : U.Nonempty) :
    let b := methodSingle inp D S S' C.method C.owner C.nodes.tmpRhs
    ((∀ i ∈ U, R.residual i = 0) →
      ∑ i ∈ U, b i ≤ 0 ∧ ((U.card : ℝ) - 1) * ∑ i ∈ U, b i ^ 2 ≤ (∑ i ∈ U, b i) ^ 2) ∧
    (∑ i ∈ U, b i = 0 → (1 - 1 / (U.card : ℝ)) * ∑ i ∈ U, b i ^ 2 ≤ ∑ i ∈ U, R.residual i ^ 2) := by
  intro b
  obtain ⟨c, hc, h1, h2, h3⟩ := solve_rows_neumann h hd hn hb
  have hrow : ∀ i ∈ U, b i - R.residual i = methodDouble inp D S S' C.method C.owner R.phi i -
      l2norm (methodDouble inp D S S' C.method C.owner R.phi) := by
    intro i hi
    exact (h3 i ((unconstrained_neumann C.nodes C.doubles hrefl heq hd C.hanging C.fuel C.order hord hc i).2 ((hU i).1 hi))).symm
  obtain ⟨k1, k2⟩ := shifted_cone _ (fun i => b i - R.residual i) U hne hrow
  refine ⟨fun hr => ?_, fun hz => ?_⟩
  · have e : ∀ i ∈ U, b i - R.residual i = b i := fun i hi => by rw [hr i hi, sub_zero]
    rw [Finset.sum_congr rfl e] at k1
    rw [Finset.sum_congr rfl e, Finset.sum_congr rfl fun i hi => by rw [e i hi]] at k2
    exact ⟨k1, k2⟩
  · have := cone_distance b _ U hne hz k2
    simpa using this

/-! ## Example: the cube -/

/-- A pure Neumann problem on the cube. -/
def cubeNeumann (m : Method) (procs : ℕ) (g : Vec 8) : Setup (cubeInput 3 0).nDofs 3 :=
  { cubeSetup m procs with
    neumannNodes := fun _ => 1
    haveDirichletBc := false
    nodes := ⟨fun _ => 0, g, fun _ => 0, fun _ => 0, false⟩ }

theorem cube_neumann_solve (S S' : SingRule) (m : Method) (procs : ℕ) (g : Vec 8) (gmres : (Vec 8 → Vec 8) → Vec 8 → Vec 8)
    (phi0 dphi0 : Vec 8) :
    ∃ st' R, solve (cubeInput 3 0) cubeData S S' (cubeNeumann m procs g) gmres (alphaHistory []) phi0 dphi0 = (st', some R) := by
  have hl := constraints_no_doubles (cubeNeumann m procs g).nodes (fun i => Or.inl rfl) (fun _ => none) (by simp) 1 (by simp)
    (List.finRange _)
  exact solve_some (by simp [alphaHistory, alphaStaticsStep, AlphaStatics.init, cubeInput]) hl

/-- the hypotheses of `C79_constant_defect` on the cube, fast multipole method -/
example (S S' : SingRule) (procs : ℕ) (g : Vec 8) (gmres : (Vec 8 → Vec 8) → Vec 8 → Vec 8) : ∃ st' R t,
    solve (cubeInput 3 0) cubeData S S' (cubeNeumann .fma procs g) gmres (alphaHistory []) (fun _ => 0) g = (st', some R) ∧ 0 ≤ t ∧
    ∀ i, |bieResidual (cubeInput 3 0) cubeData S' R.phi R.dphi i - t| ≤ |R.residual i| +
      methodGap .fma (cubeInput 3 0) cubeData S S' .double (fun k => R.phi k - R.phi i) i +
      methodGap .fma (cubeInput 3 0) cubeData S S' .single R.dphi i := by
  obtain ⟨st', R, h⟩ := cube_neumann_solve S S' .fma procs g gmres (fun _ => 0) g
  obtain ⟨phi', hs⟩ := Option.ne_none_iff_exists'.1
    (fun hno => ((C37_final_shift (fun _ => 0) R.phi (fun _ => 0)).2.1.1 hno) ⟨0, by decide⟩ rfl)
  obtain ⟨_, t, h0, _, _, h2⟩ := C79_constant_defect (cubeInput 3 0) cubeData S S' (cubeNeumann .fma procs g) gmres [] st' _ _ R h
    (fun _ => rfl) (fun _ => rfl) rfl rfl cube_dofs (fun _ => cube_admissible) (fun i => Finset.mem_singleton_self i)
    (fun i j hj => by rw [Finset.mem_singleton.1 hj]) (fun i => List.mem_finRange i) _ phi' _ hs
  exact ⟨st', R, t, h, h0, fun i => h2 i rfl (fun j hj => (Finset.mem_singleton.1 hj).ge) R.phi (Or.inl rfl)⟩

/-- the hypotheses of `C79_unsolvable` on the cube: there are prescribed normal derivatives with a non-zero `b` of zero mean, and then no linear solver
finds a solution -/
example (S : SingRule) (procs : ℕ) : ∃ g : Vec 8, ∀ gmres : (Vec 8 → Vec 8) → Vec 8 → Vec 8, ∃ st' R,
    solve (cubeInput 3 0) cubeData S nodeRule (cubeNeumann .direct procs g) gmres (alphaHistory []) (fun _ => 0) g = (st', some R) ∧
    0 < ∑ i, R.residual i ^ 2 := by
  have hM : ∀ (i k : Fin (cubeInput 3 0).nDofs), solveMatrix (cubeInput 3 0) cubeData S nodeRule .direct (fun i => i % procs) .single i k =
      surfaceIntegral (cubeInput 3 0) cubeData nodeRule .single i k := fun i k =>
    C64_dense_entry (cubeInput 3 0) cubeData nodeRule .single _ i i.isLt (by simp) k
  set b : Vec 8 → Vec 8 := fun g => methodSingle (cubeInput 3 0) cubeData S nodeRule .direct (fun i => i % procs) g with hbdef
  have hbval : ∀ g i, b g i = ∑ k : Fin 8, surfaceIntegral (cubeInput 3 0) cubeData nodeRule .single i k * g k := fun g i =>
    Finset.sum_congr rfl fun k _ => by rw [hM i k]
  have hinj : ∀ g, (∀ i, b g i = 0) → g = 0 := by
    intro g hg
    funext i
    have := diag_dominant _ (6 / (4 * Real.pi)) (by positivity) cube_row g 0 (fun i => by rw [← hbval, hg]; simp) i
    rw [mul_zero] at this
    exact abs_nonpos_iff.1 this
  -- a normal derivative with zero mean of `b`
  obtain ⟨g, hg0, hgs⟩ : ∃ g : Vec 8, g ≠ 0 ∧ ∑ i, b g i = 0 := by
    set w : Fin 8 → ℝ := fun k => ∑ i, surfaceIntegral (cubeInput 3 0) cubeData nodeRule .single (i : Fin 8) k
    have hsum : ∀ g, ∑ i, b g i = ∑ k, w k * g k := by
      intro g
      simp only [hbval]
      rw [Finset.sum_comm]
      exact Finset.sum_congr rfl fun k _ => by rw [← Finset.sum_mul]
    by_cases hw : w 0 = 0
    · refine ⟨Pi.single 0 1, fun h => ?_, ?_⟩
      · have := congrFun h 0
        simp at this
      · rw [hsum, Finset.sum_eq_single 0]
        · simp [hw]
        · intro k _ hk; simp [hk]
        · simp
    · refine ⟨fun k => if k = 0 then w 1 else if k = 1 then -(w 0) else 0, fun h => ?_, ?_⟩
      · have := congrFun h 1
        simp at this
        exact hw this
      · rw [hsum]
        rw [Finset.sum_eq_add (0 : Fin 8) 1 (by decide)]
        · simp; ring
        · intro k _ hk; simp [hk.1, hk.2]
        · simp
        · simp
  refine ⟨g, fun gmres => ?_⟩
  obtain ⟨st', R, h⟩ := cube_neumann_solve S nodeRule .direct procs g gmres (fun _ => 0) g
  refine ⟨st', R, h, ?_⟩
  have hk := (C79_unsolvable (cubeInput 3 0) cubeData S nodeRule (cubeNeumann .direct procs g) gmres [] st' _ _ R h
    (fun _ => rfl) (fun _ => rfl) rfl (fun i => Finset.mem_singleton_self i)
    (fun i j hj => by rw [Finset.mem_singleton.1 hj]) (fun i => List.mem_finRange i) Finset.univ
    (fun i => ⟨fun _ => ⟨rfl, fun j hj => (Finset.mem_singleton.1 hj).ge⟩, fun _ => Finset.mem_univ i⟩)
    ⟨(0 : Fin 8), Finset.mem_univ _⟩).2 hgs
  refine lt_of_lt_of_le ?_ hk
  have hcard : ((Finset.univ : Finset (Fin (cubeInput 3 0).nDofs)).card : ℝ) = 8 := by
    rw [Finset.card_univ, Fintype.card_fin]; rfl
  rw [hcard]
  refine mul_pos (by norm_num) ?_
  refine lt_of_le_of_ne (Finset.sum_nonneg fun _ _ => sq_nonneg _) fun h0 => hg0 (hinj g fun i => ?_)
  have := (Finset.sum_eq_zero_iff_of_nonneg (fun i _ => sq_nonneg _)).1 h0.symm i (Finset.mem_univ i)
  exact pow_eq_zero_iff (two_ne_zero) |>.1 this

end PiBem.Bem
