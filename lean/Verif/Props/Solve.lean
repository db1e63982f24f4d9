import Verif.Bem.Solve
import Verif.Props.Constants
import Verif.Props.Assemble
import Mathlib.LinearAlgebra.Basis.VectorSpace

/-!
# C77: what `BEMProblem::solve` returns
-/

noncomputable section

namespace PiBem.Bem

open PiBem.Octree PiBem.Fmm PiBem.Expansion

/-! ## Specification -/

/-- The integral of the kernel of node `i` times the shape function of dof `k` over the surface: sum over the cells. -/
def surfaceIntegral (inp : Input 3) (D : Data) (S' : SingRule) (ker : Ker) (i k : ℕ) : ℝ :=
  ∑ c ∈ Finset.range inp.nCells, ∑ j ∈ Finset.range (inp.cellDofs c).length,
    if (inp.cellDofs c).getD j 0 = k then cellIntegral inp D S' ker i c j else 0

/-- Residual of the boundary integral equation collocated at node `i`,
`Σ_k (φ_k - φ_i) ∫ N_k ∂G/∂n = Σ_k (∂φ/∂n)_k ∫ N_k G`: the equation for `φ - φ_i`, which vanishes at the node. -/
def bieResidual (inp : Input 3) (D : Data) (S' : SingRule) (phi dphi : Vec inp.nDofs) (i : Fin inp.nDofs) : ℝ :=
  (∑ k : Fin inp.nDofs, surfaceIntegral inp D S' .double i k * (phi k - phi i)) -
    ∑ k : Fin inp.nDofs, surfaceIntegral inp D S' .single i k * dphi k

/-- A vector as a function on all numbers. -/
def ext {n : ℕ} (x : Vec n) : ℕ → ℝ := fun k => if h : k < n then x ⟨k, h⟩ else 0

/-- Error of the product of the method with the vector `x`: none for the dense matrices; truncation of the expansions (C63) and difference of the
singular quadratures for the fast multipole method. -/
def methodGap (m : Method) (inp : Input 3) (D : Data) (S S' : SingRule) (ker : Ker) (x : Vec inp.nDofs) (i : ℕ) : ℝ :=
  match m with
  | .direct => 0
  | .fma => sourceMass inp { D with sol := ext x } i * truncation ker D.p (side inp) +
      singularGap inp { D with sol := ext x } S S' ker i

/-- The hypotheses of C63. -/
structure Admissible (inp : Input 3) (D : Data) : Prop where
  levels : 1 ≤ inp.levels
  nq : 0 < inp.nq
  self : ∀ i, i < inp.nDofs → i ∈ inp.doubles i
  order : D.p ≤ 10
  root : ∀ c q a, c < inp.nCells → q < inp.nq → |inp.qpos (c, q) a| ≤ 11 / 10 * maxCoor inp
  normal : ∀ q, rho (D.normal q) = 1
  side : (12 / 10 : ℝ) * 1e-7 ≤ side inp
  regular : ∀ ker, Regular inp D ker (build inp)
  nodes : ∀ b ∈ (build inp).childless, ∀ i ∈ ((build inp).blocks b).nodes, inp.pos i ≠ centre ((build inp).blocks b)

/-! ## Products -/

theorem ext_fin {n : ℕ} (x : Vec n) (i : Fin n) : ext x i = x i := by
  unfold ext; rw [dif_pos i.isLt]

theorem product_gap (inp : Input 3) (D : Data) (S S' : SingRule) (m : Method) (owner : ℕ → ℕ) (ker : Ker)
    (hdof : ∀ c k, k ∈ inp.cellDofs c → k < inp.nDofs) (hm : m = .fma → Admissible inp D)
    (x : Vec inp.nDofs) (i : Fin inp.nDofs) :
    |(∑ k, solveMatrix inp D S S' m owner ker i k * x k) - ∑ k : Fin inp.nDofs, surfaceIntegral inp D S' ker i k * x k| ≤
      methodGap m inp D S S' ker x i := by
  cases m with
  | direct =>
    have : ∀ k : Fin inp.nDofs, solveMatrix inp D S S' .direct owner ker i k = surfaceIntegral inp D S' ker i k := fun k =>
      C64_dense_entry inp D S' ker _ i i.isLt (by simp) k
    simp only [this, sub_self, abs_zero, methodGap, le_refl]
  | fma =>
    have A := hm rfl
    obtain ⟨out, hx⟩ := C63_executions_exist inp (withSing inp { D with sol := ext x } S ker) ker (build inp) (fun _ => true)
    have h := C64_methods_agree inp { D with sol := ext x } S S' ker A.levels A.nq A.self (fun c k _ h => hdof c k h) A.order
      A.root A.normal A.side (A.regular ker) A.nodes (fun _ => true) (fun _ => true) out hx i i.isLt rfl rfl
    have e1 : out i = ∑ k, solveMatrix inp D S S' .fma owner ker i k * x k := by
      rw [fma_eq (D := withSing inp D S ker) hdof (ext x) (fun _ => true) out hx i rfl, Finset.sum_range]
      exact Finset.sum_congr rfl fun k _ => by rw [ext_fin]; rfl
    have e2 : denseProduct inp (assemble inp { D with sol := ext x } S' ker fun _ => true) (ext x) i =
        ∑ k : Fin inp.nDofs, surfaceIntegral inp D S' ker i k * x k := by
      unfold denseProduct
      rw [Finset.sum_range]
      exact Finset.sum_congr rfl fun k _ => by
        rw [ext_fin, C64_dense_entry inp _ S' ker _ i i.isLt rfl k]; rfl
    rw [e1, e2] at h
    exact h

variable {d : ℕ}

/-! ## Finite values -/

theorem doubleLines_finite {n : ℕ} (D : NodeData n d) (G : Fin n → Finset (Fin n)) (hrefl : ∀ i, i ∈ G i)
    (heq : ∀ i j, j ∈ G i → G j = G i) (hd : ∀ i, D.dirichlet i = 0 ∨ D.dirichlet i = 1)
    (hsharp : D.continuosGradient = true → ∀ i j, D.dirichlet i = 1 → j ∈ G i → D.dirichlet j = 1 → j ≠ i →
      dot (D.normal i) (D.normal j) ^ 2 ≠ 1) (i : Fin n) (es : List (Fin n × ℝ)) (g : Option ℝ)
    (h : doubleNodeConstraints D G i = some (es, g)) : g.isSome := by
  obtain ⟨c1, c2, c3, c4, c5⟩ := C31_double_node_constraints D G hrefl heq hd i
  by_cases hex : ∃ j ∈ G i, D.dirichlet j = 1
  · obtain ⟨l, hl⟩ := exists_firstDirichlet D _ hex
    rcases hd i with hi | hi
    · rw [c1 hi l hl] at h; cases h; rfl
    · cases hg : D.continuosGradient with
      | false => rw [c3 hi hg] at h; cases h
      | true =>
        by_cases hil : i = l
        · subst hil
          classical
          have hne : ((G i).filter (fun j => D.dirichlet j = 1)).Nonempty := ⟨i, by simp [hrefl i, hi]⟩
          have hm := Finset.max'_mem _ hne
          rw [Finset.mem_filter] at hm
          rw [c5 hg hl _ ⟨hm.1, hm.2, fun k hk hkd => Finset.le_max' _ _ (by simp [hk, hkd])⟩] at h
          split_ifs at h with him
          cases h
          unfold thisNormalGradient fdiv
          rw [if_neg]
          · rfl
          · intro h0
            exact hsharp hg i _ hi hm.1 hm.2 him (by linarith)
        · rw [c4 hi hg l hl hil] at h; cases h
          unfold otherNormalGradient fdiv
          rw [if_neg]
          · rfl
          · intro h0
            exact hsharp hg l i hl.2.1 (by rw [heq i l hl.1]; exact hrefl i) hi hil (by linarith)
  · push Not at hex
    have hno : ∀ j ∈ G i, D.dirichlet j = 0 := fun j hj => (hd j).resolve_right (hex j hj)
    have hne : (G i).Nonempty := ⟨i, hrefl i⟩
    rw [c2 hno _ (Finset.min'_mem _ hne) (fun k hk => Finset.min'_le _ _ hk)] at h
    split_ifs at h
    cases h; rfl

theorem expandLine_finite {n : ℕ} {c : Lines n} (hc : ∀ j es g, c j = some (es, g) → g.isSome) {i : Fin n} (fuel : ℕ)
    (done todo : List (Fin n × ℝ)) (g : Option ℝ) (hg : g.isSome) {es' : List (Fin n × ℝ)} {g' : Option ℝ}
    (h : expandLine c i fuel done todo g = some (es', g')) : g'.isSome := by
  induction fuel generalizing done todo g with
  | zero => simp [expandLine] at h
  | succ fuel ih =>
    cases todo with
    | nil =>
      simp only [expandLine, Option.some.injEq, Prod.mk.injEq] at h
      rw [← h.2]; exact hg
    | cons e todo =>
      rw [expandLine] at h
      cases hce : c e.1 with
      | none =>
        rw [hce] at h
        exact ih _ _ _ hg h
      | some l =>
        obtain ⟨es, g1⟩ := l
        rw [hce] at h
        simp only at h
        split_ifs at h with hei
        have h1 := hc e.1 es g1 hce
        have hadd : (addInhom g g1 e.2).isSome := by
          obtain ⟨a, rfl⟩ := Option.isSome_iff_exists.1 hg
          obtain ⟨b, rfl⟩ := Option.isSome_iff_exists.1 h1
          rfl
        cases es with
        | nil => exact ih _ _ _ hadd h
        | cons f fs => exact ih _ _ _ hadd h

theorem constraints_finite {n : ℕ} (D : NodeData n d) (G : Fin n → Finset (Fin n)) (hrefl : ∀ i, i ∈ G i)
    (heq : ∀ i j, j ∈ G i → G j = G i) (hd : ∀ i, D.dirichlet i = 0 ∨ D.dirichlet i = 1)
    (hsharp : D.continuosGradient = true → ∀ i j, D.dirichlet i = 1 → j ∈ G i → D.dirichlet j = 1 → j ≠ i →
      dot (D.normal i) (D.normal j) ^ 2 ≠ 1) (h : Hanging n) (fuel : ℕ) (order : List (Fin n)) {c : Lines n}
    (hc : computeConstraints D G h fuel order = some c) (i : Fin n) (es : List (Fin n × ℝ)) (g : Option ℝ)
    (hi : c i = some (es, g)) : g.isSome := by
  unfold computeConstraints at hc
  obtain ⟨c1, hm, hcl⟩ := Option.bind_eq_some_iff.1 hc
  have h1 : ∀ i es g, c1 i = some (es, g) → g.isSome := by
    intro i es g h2
    unfold mergeLines at hm
    split_ifs at hm
    cases hm
    cases h3 : doubleNodeConstraints D G i with
    | none =>
      simp only [h3, Option.map_eq_some_iff] at h2
      obtain ⟨hs, _, he⟩ := h2
      cases he; rfl
    | some l =>
      obtain ⟨es', g'⟩ := l
      simp only [h3, Option.some.injEq, Prod.mk.injEq] at h2
      rw [← h2.2]
      exact doubleLines_finite D G hrefl heq hd hsharp i es' g' h3
  clear hm hc
  unfold closeLines at hcl
  induction order generalizing c1 with
  | nil =>
    have : c1 = c := by simpa using hcl
    subst this
    exact h1 i es g hi
  | cons a t ih =>
    rw [List.foldlM_cons] at hcl
    cases hca : c1 a with
    | none => rw [hca] at hcl; exact ih c1 hcl h1
    | some l =>
      obtain ⟨es1, g1⟩ := l
      rw [hca] at hcl
      cases hl : expandLine c1 a fuel [] es1 g1 with
      | none => simp [hl] at hcl
      | some l' =>
        obtain ⟨es', g'⟩ := l'
        simp only [hl, Option.map_some] at hcl
        refine ih _ hcl fun j es2 g2 hj => ?_
        by_cases hja : j = a
        · subst hja
          simp only [Function.update_self, Option.some.injEq, Prod.mk.injEq] at hj
          rw [← hj.2]
          exact expandLine_finite h1 fuel [] es1 g1 (h1 j es1 g1 hca) hl
        · rw [Function.update_of_ne hja] at hj
          exact h1 j es2 g2 hj

/-! ## C77 -/

/-- Parts of a successful call of `solve`, whatever the matrices. -/
theorem solveWith_parts {n : ℕ} {N M : Mat n} {C : Setup n d}
    {gmres : (Vec n → Vec n) → Vec n → Vec n} {st st' : AlphaStatics}
    {phi0 dphi0 : Vec n} {R : Solution n} (h : solveWith N M C gmres st phi0 dphi0 = (st', some R)) :
    ∃ alpha c, (computeAlpha C.method C.part N (fun _ => 0) st).2 = some alpha ∧
      computeConstraints C.nodes C.doubles C.hanging C.fuel C.order = some c ∧
      let P : Problem n := ⟨N,
        M, alpha, C.nodes.dirichlet, C.neumannNodes, C.haveDirichletBc, C.method⟩
      (R.phi, R.dphi) = storeSolution C.nodes.dirichlet R.sol phi0 dphi0 ∧
      ∀ i, R.residual i = distributeRhs (toConstraints c) (computeRhs P 0 C.nodes.tmpRhs) i -
        constrainedVmult C.procs (fun i => C.owner i) (vmult P) (toConstraints c) R.sol i := by
  unfold solveWith at h
  simp only [Prod.mk.injEq] at h
  obtain ⟨_, h⟩ := h
  obtain ⟨alpha, ha, h⟩ := Option.bind_eq_some_iff.1 h
  obtain ⟨c, hc, h⟩ := Option.map_eq_some_iff.1 h
  refine ⟨alpha, c, ha, hc, ?_⟩
  subst h
  exact ⟨rfl, fun i => rfl⟩

/-- The rows of the system in terms of the result. -/
theorem solveWith_rows {n : ℕ} {N M : Mat n} {C : Setup n d}
    {gmres : (Vec n → Vec n) → Vec n → Vec n} {l : List (ℕ × ℕ)} {st' : AlphaStatics}
    {phi0 dphi0 : Vec n} {R : Solution n}
    (h : solveWith N M C gmres (alphaHistory l) phi0 dphi0 = (st', some R))
    (B : Finset (Fin n)) (hd : ∀ i, C.nodes.dirichlet i = if i ∈ B then 1 else 0)
    (hn : ∀ i, C.neumannNodes i = if i ∈ B then 0 else 1) (hb : C.haveDirichletBc = true)
    (hphi : ∀ i ∈ B, phi0 i = C.nodes.tmpRhs i) (hdphi : ∀ i, i ∉ B → dphi0 i = C.nodes.tmpRhs i) :
    ∃ c, computeConstraints C.nodes C.doubles C.hanging C.fuel C.order = some c ∧
      R.phi = merge B C.nodes.tmpRhs R.sol ∧ R.dphi = merge B R.sol C.nodes.tmpRhs ∧
      (∀ i, c i = none → (∑ k, N i k * (R.phi k - R.phi i)) -
        ∑ k, M i k * R.dphi k = - R.residual i) ∧
      ∀ i es g, c i = some (es, g) → R.sol i = (es.map fun e => e.2 * R.sol e.1).sum + g.getD 0 - R.residual i := by
  obtain ⟨alpha, c, ha, hc, hst, hres⟩ := solveWith_parts h
  have hal := (C27_constants l C.method C.part _ alpha ha).1
  set P : Problem n := ⟨N,
        M, alpha, C.nodes.dirichlet, C.neumannNodes, C.haveDirichletBc, C.method⟩
    with hP
  have hM : Masks P B := ⟨hd, hn⟩
  have hmerge := C26_prescribed_data_kept P B hM R.sol phi0 dphi0
  have h1 : R.phi = merge B C.nodes.tmpRhs R.sol := by
    have := congrArg Prod.fst (hst.trans hmerge)
    simp only at this
    rw [this]
    funext i; unfold merge; split_ifs with hi
    · exact hphi i hi
    · rfl
  have h2 : R.dphi = merge B R.sol C.nodes.tmpRhs := by
    have := congrArg Prod.snd (hst.trans hmerge)
    simp only at this
    rw [this]
    funext i; unfold merge; split_ifs with hi
    · rfl
    · exact hdphi i hi
  refine ⟨c, hc, h1, h2, fun i hi => ?_, fun i es g hi => ?_⟩
  · have hr := hres i
    rw [constrainedVmult_eq, distributeRhs_eq] at hr
    have htc : toConstraints c i = none := by simp [toConstraints, hi]
    unfold rowValue at hr
    rw [htc] at hr
    simp only at hr
    have hrow := row_residual P B hM hb R.sol C.nodes.tmpRhs i
    rw [← h1, ← h2] at hrow
    have hai := hal i
    simp only [hP] at hrow hai hr ⊢
    have e : ∑ k, N i k * (R.phi k - R.phi i) =
        (∑ k, N i k * R.phi k) + alpha i * R.phi i := by
      simp only [mul_sub, Finset.sum_sub_distrib, ← Finset.sum_mul]
      linear_combination -(R.phi i) * hai
    rw [e, hr]
    linarith
  · have hr := hres i
    rw [constrainedVmult_eq, distributeRhs_eq] at hr
    have htc : toConstraints c i = some (es, g.getD 0) := by simp [toConstraints, hi]
    unfold rowValue at hr
    rw [htc] at hr
    simp only at hr
    linarith

/-- Parts of a successful call of `solve`. -/
theorem solve_parts {inp : Input 3} {D : Data} {S S' : SingRule} {C : Setup inp.nDofs d}
    {gmres : (Vec inp.nDofs → Vec inp.nDofs) → Vec inp.nDofs → Vec inp.nDofs} {st st' : AlphaStatics}
    {phi0 dphi0 : Vec inp.nDofs} {R : Solution inp.nDofs} (h : solve inp D S S' C gmres st phi0 dphi0 = (st', some R)) :
    ∃ alpha c, (computeAlpha C.method C.part (solveMatrix inp D S S' C.method C.owner .double) (fun _ => 0) st).2 = some alpha ∧
      computeConstraints C.nodes C.doubles C.hanging C.fuel C.order = some c ∧
      let P : Problem inp.nDofs := ⟨solveMatrix inp D S S' C.method C.owner .double,
        solveMatrix inp D S S' C.method C.owner .single, alpha, C.nodes.dirichlet, C.neumannNodes, C.haveDirichletBc, C.method⟩
      (R.phi, R.dphi) = storeSolution C.nodes.dirichlet R.sol phi0 dphi0 ∧
      ∀ i, R.residual i = distributeRhs (toConstraints c) (computeRhs P 0 C.nodes.tmpRhs) i -
        constrainedVmult C.procs (fun i => C.owner i) (vmult P) (toConstraints c) R.sol i :=
  solveWith_parts h

/-- The rows of the system in terms of the result. -/
theorem solve_rows {inp : Input 3} {D : Data} {S S' : SingRule} {C : Setup inp.nDofs d}
    {gmres : (Vec inp.nDofs → Vec inp.nDofs) → Vec inp.nDofs → Vec inp.nDofs} {l : List (ℕ × ℕ)} {st' : AlphaStatics}
    {phi0 dphi0 : Vec inp.nDofs} {R : Solution inp.nDofs}
    (h : solve inp D S S' C gmres (alphaHistory l) phi0 dphi0 = (st', some R))
    (B : Finset (Fin inp.nDofs)) (hd : ∀ i, C.nodes.dirichlet i = if i ∈ B then 1 else 0)
    (hn : ∀ i, C.neumannNodes i = if i ∈ B then 0 else 1) (hb : C.haveDirichletBc = true)
    (hphi : ∀ i ∈ B, phi0 i = C.nodes.tmpRhs i) (hdphi : ∀ i, i ∉ B → dphi0 i = C.nodes.tmpRhs i) :
    ∃ c, computeConstraints C.nodes C.doubles C.hanging C.fuel C.order = some c ∧
      R.phi = merge B C.nodes.tmpRhs R.sol ∧ R.dphi = merge B R.sol C.nodes.tmpRhs ∧
      (∀ i, c i = none → (∑ k, solveMatrix inp D S S' C.method C.owner .double i k * (R.phi k - R.phi i)) -
        ∑ k, solveMatrix inp D S S' C.method C.owner .single i k * R.dphi k = - R.residual i) ∧
      ∀ i es g, c i = some (es, g) → R.sol i = (es.map fun e => e.2 * R.sol e.1).sum + g.getD 0 - R.residual i :=
  solveWith_rows h B hd hn hb hphi hdphi

/-- **C77**. After every history of calls and for both methods, if `solve` returns: the prescribed data are untouched; at
every node without constraint the result satisfies the boundary integral equation collocated with the quadrature
formulas of the dense method, up to the residual with which the linear solver stopped and, for the fast multipole
method, the truncation error of the expansions and the difference of singular quadratures, for the vectors `φ - φ_i` and `∂φ/∂n`. No residual is
due to `alpha`, whatever its accuracy as a solid angle. -/
theorem C77_integral_equation (inp : Input 3) (D : Data) (S S' : SingRule) (C : Setup inp.nDofs d)
    (gmres : (Vec inp.nDofs → Vec inp.nDofs) → Vec inp.nDofs → Vec inp.nDofs) (l : List (ℕ × ℕ)) (st' : AlphaStatics)
    (phi0 dphi0 : Vec inp.nDofs) (R : Solution inp.nDofs)
    (h : solve inp D S S' C gmres (alphaHistory l) phi0 dphi0 = (st', some R))
    (B : Finset (Fin inp.nDofs)) (hd : ∀ i, C.nodes.dirichlet i = if i ∈ B then 1 else 0)
    (hn : ∀ i, C.neumannNodes i = if i ∈ B then 0 else 1) (hb : C.haveDirichletBc = true)
    (hphi : ∀ i ∈ B, phi0 i = C.nodes.tmpRhs i) (hdphi : ∀ i, i ∉ B → dphi0 i = C.nodes.tmpRhs i)
    (hdof : ∀ c k, k ∈ inp.cellDofs c → k < inp.nDofs) (hm : C.method = .fma → Admissible inp D)
    (hrefl : ∀ i, i ∈ C.doubles i) (heq : ∀ i j, j ∈ C.doubles i → C.doubles j = C.doubles i) (hord : ∀ i, i ∈ C.order) :
    (∀ i ∈ B, R.phi i = C.nodes.tmpRhs i) ∧ (∀ i, i ∉ B → R.dphi i = C.nodes.tmpRhs i) ∧
    ∀ i, C.hanging i = none → ¬ ((i ∉ B ∧ ∃ j ∈ C.doubles i, j ∈ B) ∨ ((∀ j ∈ C.doubles i, j ∉ B) ∧ ∃ j ∈ C.doubles i, j < i) ∨
        (i ∈ B ∧ C.nodes.continuosGradient = true ∧ ∃ j ∈ C.doubles i, j ≠ i ∧ j ∈ B)) →
      |bieResidual inp D S' R.phi R.dphi i| ≤ |R.residual i| +
        methodGap C.method inp D S S' .double (fun k => R.phi k - R.phi i) i + methodGap C.method inp D S S' .single R.dphi i := by
  obtain ⟨c, hc, h1, h2, h3, _⟩ := solve_rows h B hd hn hb hphi hdphi
  refine ⟨fun i hi => by rw [h1]; simp [merge, hi], fun i hi => by rw [h2]; simp [merge, hi], fun i hh hno => ?_⟩
  have hd01 : ∀ i, C.nodes.dirichlet i = 0 ∨ C.nodes.dirichlet i = 1 := by
    intro i; rw [hd]; split_ifs <;> simp
  have hd0 : ∀ i, C.nodes.dirichlet i = 0 ↔ i ∉ B := by intro i; rw [hd]; split_ifs with hi <;> simp [hi]
  have hd1 : ∀ i, C.nodes.dirichlet i = 1 ↔ i ∈ B := by intro i; rw [hd]; split_ifs with hi <;> simp [hi]
  have hci : c i = none := by
    rw [← Option.not_isSome_iff_eq_none, (C75_constraints C.nodes C.doubles hrefl heq hd01 C.hanging C.fuel C.order hord hc).2.1 i, hh]
    simp only [hd0, hd1]
    rintro (h1 | h1)
    · simp at h1
    · exact hno h1
  have hrow := h3 i hci
  have g1 := product_gap inp D S S' C.method C.owner .double hdof hm (fun k => R.phi k - R.phi i) i
  have g2 := product_gap inp D S S' C.method C.owner .single hdof hm R.dphi i
  unfold bieResidual
  rw [abs_le] at g1 g2 ⊢
  have r1 := neg_abs_le (R.residual i)
  have r2 := le_abs_self (R.residual i)
  constructor <;> linarith [g1.1, g1.2, g2.1, g2.2]

/-- **C77**, conditions at constrained nodes: if the residual is zero there and Dirichlet nodes coincide only at sharp edges, the result satisfies
the conditions at the double nodes and at the hanging nodes. -/
theorem C77_conditions (inp : Input 3) (D : Data) (S S' : SingRule) (C : Setup inp.nDofs d)
    (gmres : (Vec inp.nDofs → Vec inp.nDofs) → Vec inp.nDofs → Vec inp.nDofs) (l : List (ℕ × ℕ)) (st' : AlphaStatics)
    (phi0 dphi0 : Vec inp.nDofs) (R : Solution inp.nDofs)
    (h : solve inp D S S' C gmres (alphaHistory l) phi0 dphi0 = (st', some R))
    (B : Finset (Fin inp.nDofs)) (hd : ∀ i, C.nodes.dirichlet i = if i ∈ B then 1 else 0)
    (hn : ∀ i, C.neumannNodes i = if i ∈ B then 0 else 1) (hb : C.haveDirichletBc = true)
    (hphi : ∀ i ∈ B, phi0 i = C.nodes.tmpRhs i) (hdphi : ∀ i, i ∉ B → dphi0 i = C.nodes.tmpRhs i)
    (hrefl : ∀ i, i ∈ C.doubles i) (heq : ∀ i j, j ∈ C.doubles i → C.doubles j = C.doubles i) (hord : ∀ i, i ∈ C.order)
    (hsharp : C.nodes.continuosGradient = true → ∀ i ∈ B, ∀ j ∈ C.doubles i, j ∈ B → j ≠ i →
      dot (C.nodes.normal i) (C.nodes.normal j) ^ 2 ≠ 1)
    (hres : ∀ i, C.hanging i ≠ none ∨ (i ∉ B ∧ ∃ j ∈ C.doubles i, j ∈ B) ∨ ((∀ j ∈ C.doubles i, j ∉ B) ∧ ∃ j ∈ C.doubles i, j < i) ∨
        (i ∈ B ∧ C.nodes.continuosGradient = true ∧ ∃ j ∈ C.doubles i, j ≠ i ∧ j ∈ B) → R.residual i = 0) :
    DoubleNodes C.nodes C.doubles (unknown B R.phi R.dphi) ∧ Interpolates C.hanging (unknown B R.phi R.dphi) := by
  obtain ⟨c, hc, h1, h2, _, h4⟩ := solve_rows h B hd hn hb hphi hdphi
  have hd01 : ∀ i, C.nodes.dirichlet i = 0 ∨ C.nodes.dirichlet i = 1 := by
    intro i; rw [hd]; split_ifs <;> simp
  have hd1 : ∀ i, C.nodes.dirichlet i = 1 ↔ i ∈ B := by intro i; rw [hd]; split_ifs with hi <;> simp [hi]
  have hu : unknown B R.phi R.dphi = R.sol := by
    funext i
    rw [h1, h2]
    unfold unknown merge
    split_ifs <;> rfl
  rw [hu]
  refine ((C75_constraints C.nodes C.doubles hrefl heq hd01 C.hanging C.fuel C.order hord hc).1 R.sol).1 fun i es g hi => ?_
  have hf := constraints_finite C.nodes C.doubles hrefl heq hd01
    (fun hg i j hi hj hjd hne => hsharp hg i ((hd1 i).1 hi) j hj ((hd1 j).1 hjd) hne) C.hanging C.fuel C.order hc i es g hi
  obtain ⟨v, rfl⟩ := Option.isSome_iff_exists.1 hf
  have := h4 i es _ hi
  have hd0 : ∀ i, C.nodes.dirichlet i = 0 ↔ i ∉ B := by intro i; rw [hd]; split_ifs with hi <;> simp [hi]
  have hcon := ((C75_constraints C.nodes C.doubles hrefl heq hd01 C.hanging C.fuel C.order hord hc).2.1 i).1 (by rw [hi]; rfl)
  simp only [hd0, hd1, Option.isSome_iff_ne_none] at hcon
  rw [hres i hcon, sub_zero] at this
  exact ⟨v, rfl, this⟩

/-- The dense collocation system with constraints `c` and Dirichlet nodes `B`, homogeneous part: the unknown `x` is the normal derivative at
nodes of `B` and the potential at the others. -/
def homogeneousOperator (inp : Input 3) (D : Data) (S' : SingRule) (B : Finset (Fin inp.nDofs)) (c : Lines inp.nDofs)
    (x : Vec inp.nDofs) (i : Fin inp.nDofs) : ℝ :=
  match c i with
  | some (es, _) => x i - (es.map fun e => e.2 * x e.1).sum
  | none => bieResidual inp D S' (merge B 0 x) (merge B x 0) i

/-- **C77**, two calls of `solve` for the same problem, with any methods, partitions, linear solvers, histories: if the dense collocation system
is stable with constant `K`, potentials and normal derivatives of the two results differ at most by `K` times the largest sum of residuals of the linear solvers
and errors of the products. -/
theorem C77_two_results (inp : Input 3) (D : Data) (S S' : SingRule) (C₁ C₂ : Setup inp.nDofs d)
    (gmres₁ gmres₂ : (Vec inp.nDofs → Vec inp.nDofs) → Vec inp.nDofs → Vec inp.nDofs) (l₁ l₂ : List (ℕ × ℕ)) (st₁ st₂ : AlphaStatics)
    (phi0 dphi0 : Vec inp.nDofs) (R₁ R₂ : Solution inp.nDofs)
    (h₁ : solve inp D S S' C₁ gmres₁ (alphaHistory l₁) phi0 dphi0 = (st₁, some R₁))
    (h₂ : solve inp D S S' C₂ gmres₂ (alphaHistory l₂) phi0 dphi0 = (st₂, some R₂))
    (hnodes : C₂.nodes = C₁.nodes) (hdoubles : C₂.doubles = C₁.doubles) (hhang : C₂.hanging = C₁.hanging)
    (hfuel : C₂.fuel = C₁.fuel) (horder : C₂.order = C₁.order)
    (B : Finset (Fin inp.nDofs)) (hd : ∀ i, C₁.nodes.dirichlet i = if i ∈ B then 1 else 0)
    (hn₁ : ∀ i, C₁.neumannNodes i = if i ∈ B then 0 else 1) (hn₂ : ∀ i, C₂.neumannNodes i = if i ∈ B then 0 else 1)
    (hb₁ : C₁.haveDirichletBc = true) (hb₂ : C₂.haveDirichletBc = true)
    (hphi : ∀ i ∈ B, phi0 i = C₁.nodes.tmpRhs i) (hdphi : ∀ i, i ∉ B → dphi0 i = C₁.nodes.tmpRhs i)
    (hdof : ∀ c k, k ∈ inp.cellDofs c → k < inp.nDofs) (hadm : Admissible inp D) (K : ℝ)
    (hK : ∀ c, computeConstraints C₁.nodes C₁.doubles C₁.hanging C₁.fuel C₁.order = some c → ∀ (x : Vec inp.nDofs) (ε : ℝ),
      (∀ i, |homogeneousOperator inp D S' B c x i| ≤ ε) → ∀ i, |x i| ≤ K * ε) (ε : ℝ)
    (hε : ∀ i, |R₁.residual i| + |R₂.residual i| +
      (methodGap C₁.method inp D S S' .double (fun k => R₁.phi k - R₁.phi i) i + methodGap C₁.method inp D S S' .single R₁.dphi i) +
      (methodGap C₂.method inp D S S' .double (fun k => R₂.phi k - R₂.phi i) i + methodGap C₂.method inp D S S' .single R₂.dphi i) ≤ ε) :
    ∀ i, |R₁.phi i - R₂.phi i| ≤ K * ε ∧ |R₁.dphi i - R₂.dphi i| ≤ K * ε := by
  obtain ⟨c, hc, p1, q1, a1, b1⟩ := solve_rows h₁ B hd hn₁ hb₁ hphi hdphi
  obtain ⟨c', hc', p2, q2, a2, b2⟩ := solve_rows h₂ B (hnodes ▸ hd) hn₂ hb₂ (hnodes ▸ hphi) (hnodes ▸ hdphi)
  have hcc : c' = c := by
    rw [hnodes, hdoubles, hhang, hfuel, horder, hc] at hc'
    exact (Option.some.inj hc').symm
  subst hcc
  rw [hnodes] at p2 q2
  have gapnn : ∀ (m : Method) (ker : Ker) (x : Vec inp.nDofs) (i : Fin inp.nDofs), 0 ≤ methodGap m inp D S S' ker x i := by
    intro m ker x i
    exact le_trans (abs_nonneg _) (product_gap inp D S S' m (fun _ => 0) ker hdof (fun _ => hadm) x i)
  have key := hK c' hc (fun i => R₁.sol i - R₂.sol i) ε ?_
  · intro i
    have hi := key i
    have h0 : 0 ≤ K * ε := le_trans (abs_nonneg _) hi
    rw [p1, p2, q1, q2]
    unfold merge
    split_ifs with hB
    · simpa using ⟨h0, hi⟩
    · simpa using ⟨hi, h0⟩
  · intro i
    refine le_trans ?_ (hε i)
    have n1 := gapnn C₁.method .double (fun k => R₁.phi k - R₁.phi i) i
    have n2 := gapnn C₁.method .single R₁.dphi i
    have n3 := gapnn C₂.method .double (fun k => R₂.phi k - R₂.phi i) i
    have n4 := gapnn C₂.method .single R₂.dphi i
    unfold homogeneousOperator
    cases hci : c' i with
    | some e =>
      obtain ⟨es, g⟩ := e
      simp only
      have e1 := b1 i es g hci
      have e2 := b2 i es g hci
      have hs : (es.map fun e => e.2 * (R₁.sol e.1 - R₂.sol e.1)).sum =
          (es.map fun e => e.2 * R₁.sol e.1).sum - (es.map fun e => e.2 * R₂.sol e.1).sum := by
        clear e1 e2 hci
        induction es with
        | nil => simp
        | cons e t ih => simp only [List.map_cons, List.sum_cons, ih]; ring
      rw [hs]
      have : R₁.sol i - R₂.sol i - ((es.map fun e => e.2 * R₁.sol e.1).sum - (es.map fun e => e.2 * R₂.sol e.1).sum) =
          R₂.residual i - R₁.residual i := by linarith
      rw [this, abs_le]
      have r1 := neg_abs_le (R₁.residual i)
      have r2 := le_abs_self (R₁.residual i)
      have r3 := neg_abs_le (R₂.residual i)
      have r4 := le_abs_self (R₂.residual i)
      constructor <;> linarith
    | none =>
      simp only
      have e1 := a1 i hci
      have e2 := a2 i hci
      have g1 := product_gap inp D S S' C₁.method C₁.owner .double hdof (fun _ => hadm) (fun k => R₁.phi k - R₁.phi i) i
      have g2 := product_gap inp D S S' C₁.method C₁.owner .single hdof (fun _ => hadm) R₁.dphi i
      have g3 := product_gap inp D S S' C₂.method C₂.owner .double hdof (fun _ => hadm) (fun k => R₂.phi k - R₂.phi i) i
      have g4 := product_gap inp D S S' C₂.method C₂.owner .single hdof (fun _ => hadm) R₂.dphi i
      have m1 : merge B 0 (fun i => R₁.sol i - R₂.sol i) = fun k => R₁.phi k - R₂.phi k := by
        funext k; rw [p1, p2]; unfold merge; split_ifs <;> simp
      have m2 : merge B (fun i => R₁.sol i - R₂.sol i) 0 = fun k => R₁.dphi k - R₂.dphi k := by
        funext k; rw [q1, q2]; unfold merge; split_ifs <;> simp
      have hlin : bieResidual inp D S' (fun k => R₁.phi k - R₂.phi k) (fun k => R₁.dphi k - R₂.dphi k) i =
          bieResidual inp D S' R₁.phi R₁.dphi i - bieResidual inp D S' R₂.phi R₂.dphi i := by
        unfold bieResidual
        simp only [← Finset.sum_sub_distrib]
        exact Finset.sum_congr rfl fun k _ => by ring
      rw [m1, m2, hlin]
      unfold bieResidual
      rw [abs_le] at g1 g2 g3 g4 ⊢
      have r1 := neg_abs_le (R₁.residual i)
      have r2 := le_abs_self (R₁.residual i)
      have r3 := neg_abs_le (R₂.residual i)
      have r4 := le_abs_self (R₂.residual i)
      constructor <;> linarith [g1.1, g1.2, g2.1, g2.2, g3.1, g3.2, g4.1, g4.2]

/-- **C77**, partition. The linear system given to the solver, hence the result for one and the same linear solver, does not depend on the number of
processes and on the distribution of the dofs. -/
theorem C77_partition (inp : Input 3) (D : Data) (S S' : SingRule) (C : Setup inp.nDofs d) (owner : ℕ → ℕ) (procs : ℕ)
    (gmres : (Vec inp.nDofs → Vec inp.nDofs) → Vec inp.nDofs → Vec inp.nDofs) (st : AlphaStatics) (phi0 dphi0 : Vec inp.nDofs) :
    solve inp D S S' { C with owner := owner, procs := procs } gmres st phi0 dphi0 = solve inp D S S' C gmres st phi0 dphi0 := by
  have hM : ∀ ker, solveMatrix inp D S S' C.method owner ker = solveMatrix inp D S S' C.method C.owner ker := by
    intro ker
    funext i k
    unfold solveMatrix
    cases C.method with
    | fma => rfl
    | direct =>
      simp only
      rw [C64_dense_entry inp D S' ker _ i i.isLt (by simp) k, C64_dense_entry inp D S' ker _ i i.isLt (by simp) k]
  have hA : ∀ (P : Problem inp.nDofs) (c : Constraints ℝ inp.nDofs), constrainedVmult procs (fun i => owner i) (vmult P) c =
      constrainedVmult C.procs (fun i => C.owner i) (vmult P) c := by
    intro P c
    funext x
    exact (C23_linear_and_partition_independent (vmult P) c).1 _ _ _ _ x
  unfold solve solveWith
  simp only [hM, hA]

/-! ## Stability -/

theorem homogeneous_linear (inp : Input 3) (D : Data) (S' : SingRule) (B : Finset (Fin inp.nDofs)) (c : Lines inp.nDofs)
    (a b : ℝ) (x y : Vec inp.nDofs) (i : Fin inp.nDofs) :
    homogeneousOperator inp D S' B c (fun k => a * x k + b * y k) i =
      a * homogeneousOperator inp D S' B c x i + b * homogeneousOperator inp D S' B c y i := by
  unfold homogeneousOperator
  cases c i with
  | some e =>
    obtain ⟨es, g⟩ := e
    simp only
    have : (es.map fun e => e.2 * (a * x e.1 + b * y e.1)).sum =
        a * (es.map fun e => e.2 * x e.1).sum + b * (es.map fun e => e.2 * y e.1).sum := by
      induction es with
      | nil => simp
      | cons e t ih => simp only [List.map_cons, List.sum_cons, ih]; ring
    rw [this]; ring
  | none =>
    simp only
    have m1 : ∀ k, merge B 0 (fun k => a * x k + b * y k) k = a * merge B 0 x k + b * merge B 0 y k := by
      intro k; unfold merge; split_ifs <;> simp
    have m2 : ∀ k, merge B (fun k => a * x k + b * y k) 0 k = a * merge B x 0 k + b * merge B y 0 k := by
      intro k; unfold merge; split_ifs <;> simp
    unfold bieResidual
    simp only [m1, m2]
    rw [mul_sub, mul_sub, Finset.mul_sum, Finset.mul_sum, Finset.mul_sum, Finset.mul_sum,
      show ∀ p q r s : ℝ, p - q + (r - s) = (p + r) - (q + s) from fun p q r s => by ring,
      ← Finset.sum_add_distrib, ← Finset.sum_add_distrib]
    congr 1 <;> exact Finset.sum_congr rfl fun k _ => by ring

/-- A dense collocation system whose homogeneous problem has only the zero solution is stable with some constant. -/
theorem stable_of_injective (inp : Input 3) (D : Data) (S' : SingRule) (B : Finset (Fin inp.nDofs)) (c : Lines inp.nDofs)
    (hinj : ∀ x, (∀ i, homogeneousOperator inp D S' B c x i = 0) → x = 0) :
    ∃ K, ∀ (x : Vec inp.nDofs) (ε : ℝ), (∀ i, |homogeneousOperator inp D S' B c x i| ≤ ε) → ∀ i, |x i| ≤ K * ε := by
  let A : (Fin inp.nDofs → ℝ) →ₗ[ℝ] (Fin inp.nDofs → ℝ) :=
    { toFun := fun x i => homogeneousOperator inp D S' B c x i
      map_add' := fun x y => by
        funext i
        have := homogeneous_linear inp D S' B c 1 1 x y i
        simp only [one_mul] at this
        exact this
      map_smul' := fun a x => by
        funext i
        have := homogeneous_linear inp D S' B c a 0 x 0 i
        simp only [zero_mul, add_zero] at this
        exact this }
  have hker : LinearMap.ker A = ⊥ := by
    rw [LinearMap.ker_eq_bot']
    intro x hx
    exact hinj x fun i => congrFun hx i
  obtain ⟨L, hL⟩ := A.exists_leftInverse_of_injective hker
  refine ⟨∑ i, ∑ k, |L (Pi.single k 1) i|, fun x ε hx i => ?_⟩
  have e1 : x i = ∑ k, homogeneousOperator inp D S' B c x k * L (Pi.single k 1) i := by
    have h1 : L (A x) = x := LinearMap.congr_fun hL x
    have h2 : A x = ∑ k, (A x k) • (Pi.single k 1 : Fin inp.nDofs → ℝ) := by
      funext j
      simp [Finset.sum_apply, Pi.single_apply]
    rw [h2, map_sum] at h1
    have h3 := congrFun h1 i
    rw [Finset.sum_apply] at h3
    rw [← h3]
    exact Finset.sum_congr rfl fun k _ => by rw [map_smul]; rfl
  have h0 : 0 ≤ ε := le_trans (abs_nonneg _) (hx i)
  rw [e1]
  calc |∑ k, homogeneousOperator inp D S' B c x k * L (Pi.single k 1) i|
      ≤ ∑ k, |homogeneousOperator inp D S' B c x k * L (Pi.single k 1) i| := Finset.abs_sum_le_sum_abs _ _
    _ ≤ ∑ k, |L (Pi.single k 1) i| * ε := Finset.sum_le_sum fun k _ => by
        rw [abs_mul, mul_comm]
        exact mul_le_mul_of_nonneg_left (hx k) (abs_nonneg _)
    _ = (∑ k, |L (Pi.single k 1) i|) * ε := by rw [Finset.sum_mul]
    _ ≤ _ := mul_le_mul_of_nonneg_right
        (Finset.single_le_sum (f := fun i => ∑ k, |L (Pi.single k 1) i|)
          (fun i _ => Finset.sum_nonneg fun k _ => abs_nonneg _) (Finset.mem_univ i)) h0

/-! ## Example: the cube -/

theorem cube_admissible : Admissible (cubeInput 3 0) cubeData := by
  have hside : side (cubeInput 3 0) = 22 / 80 := by
    unfold side sideAt; rw [cube_maxCoor]; norm_num [cubeInput]
  have hq : ∀ q : ℕ × ℕ, (cubeInput 3 0).qpos q = ![-1, 0, 0] ∨ (cubeInput 3 0).qpos q = ![1, 0, 0] ∨
      (cubeInput 3 0).qpos q = ![0, -1, 0] ∨ (cubeInput 3 0).qpos q = ![0, 1, 0] ∨
      (cubeInput 3 0).qpos q = ![0, 0, -1] ∨ (cubeInput 3 0).qpos q = ![0, 0, 1] := by
    rintro ⟨c, q⟩
    rcases c with _ | _ | _ | _ | _ | c <;> simp [cubeInput]
  have hunit : ∀ q, rho (cubeData.normal q) = 1 := by
    intro q
    rcases hq q with h | h | h | h | h | h <;> simp [cubeData, toV, rho, h]
  refine ⟨by decide, by decide, by simp [cubeInput], by simp [cubeData], ?_, hunit, by rw [hside]; norm_num, ?_, ?_⟩
  · intro c q a _ _
    rw [cube_maxCoor]
    rcases hq (c, q) with h | h | h | h | h | h <;> rw [h] <;> fin_cases a <;> simp <;> norm_num
  · intro ker b hb q _
    have h0 := (cube_centre hb 0).1
    have h1 := (cube_centre hb 1).1
    have hne : ¬ ((cubeInput 3 0).qpos q 0 = centre ((build (cubeInput 3 0)).blocks b) 0 ∧
        (cubeInput 3 0).qpos q 1 = centre ((build (cubeInput 3 0)).blocks b) 1) := by
      rintro ⟨e0, e1⟩
      rw [← e0] at h0
      rw [← e1] at h1
      rcases hq q with h | h | h | h | h | h <;> simp [h] at h0 h1
    cases ker with
    | single => exact fun he => hne ⟨congrFun he 0, congrFun he 1⟩
    | double =>
      refine ⟨fun h => ?_, hne⟩
      have := hunit q
      rw [h] at this
      simp [rho] at this
  · intro b hb i _ he
    have h1 := (cube_centre hb 0).2
    rw [← he] at h1
    refine h1 ?_
    simp only [cubeInput, Matrix.cons_val_zero]
    split_ifs <;> simp

/-- A Dirichlet problem on the cube, for each method and number of processes, without double and hanging nodes. -/
def cubeSetup (m : Method) (procs : ℕ) : Setup (cubeInput 3 0).nDofs 3 where
  method := m
  owner := fun i => i % procs
  procs := procs
  part := procs
  neumannNodes := fun _ => 0
  haveDirichletBc := true
  nodes := ⟨fun _ => 1, fun i => i, fun _ => 0, fun _ => 0, false⟩
  doubles := fun i => {i}
  hanging := fun _ => none
  fuel := 1
  order := List.finRange _

theorem cube_lines (m : Method) (procs : ℕ) : computeConstraints (cubeSetup m procs).nodes (cubeSetup m procs).doubles
    (cubeSetup m procs).hanging (cubeSetup m procs).fuel (cubeSetup m procs).order = some fun _ => none := by
  have := constraints_no_doubles (cubeSetup m procs).nodes (fun i => Or.inr rfl) (fun _ => none) (by simp) 1 (by simp)
    (List.finRange _)
  exact this

theorem solve_some {inp : Input 3} {D : Data} {S S' : SingRule} {C : Setup inp.nDofs d}
    {gmres : (Vec inp.nDofs → Vec inp.nDofs) → Vec inp.nDofs → Vec inp.nDofs} {st : AlphaStatics}
    {phi0 dphi0 : Vec inp.nDofs} {c : Lines inp.nDofs}
    (ha : (alphaStaticsStep inp.nDofs C.part st).part = C.part)
    (hc : computeConstraints C.nodes C.doubles C.hanging C.fuel C.order = some c) :
    ∃ st' R, solve inp D S S' C gmres st phi0 dphi0 = (st', some R) := by
  unfold solve solveWith computeAlpha
  simp only [ha, if_true, Option.bind_some, hc, Option.map_some]
  exact ⟨_, _, rfl⟩

/-- `solve` succeeds in the first call. -/
theorem cube_solve (S S' : SingRule) (m : Method) (procs : ℕ) (gmres : (Vec 8 → Vec 8) → Vec 8 → Vec 8) (phi0 dphi0 : Vec 8) :
    ∃ st' R, solve (cubeInput 3 0) cubeData S S' (cubeSetup m procs) gmres (alphaHistory []) phi0 dphi0 = (st', some R) :=
  solve_some (by simp [alphaHistory, alphaStaticsStep, AlphaStatics.init, cubeInput]) (cube_lines m procs)

/-- the hypotheses of `C77_integral_equation` on the cube: fast multipole method, any number of processes, any linear solver -/
example (S S' : SingRule) (procs : ℕ) (gmres : (Vec 8 → Vec 8) → Vec 8 → Vec 8) : ∃ st' R,
    solve (cubeInput 3 0) cubeData S S' (cubeSetup .fma procs) gmres (alphaHistory []) (fun i => i) (fun _ => 0) = (st', some R) ∧
    (∀ i, R.phi i = i) ∧ ∀ i, |bieResidual (cubeInput 3 0) cubeData S' R.phi R.dphi i| ≤ |R.residual i| +
      methodGap .fma (cubeInput 3 0) cubeData S S' .double (fun k => R.phi k - R.phi i) i +
      methodGap .fma (cubeInput 3 0) cubeData S S' .single R.dphi i := by
  obtain ⟨st', R, h⟩ := cube_solve S S' .fma procs gmres (fun i => i) (fun _ => 0)
  have := C77_integral_equation (cubeInput 3 0) cubeData S S' (cubeSetup .fma procs) gmres [] st' _ _ R h Finset.univ
    (by intro i; simp [cubeSetup]) (by intro i; simp [cubeSetup]) rfl (fun i _ => rfl) (by simp) cube_dofs
    (fun _ => cube_admissible) (fun i => Finset.mem_singleton_self i)
    (fun i j hj => by rw [Finset.mem_singleton.1 hj]) (fun i => List.mem_finRange i)
  refine ⟨st', R, h, fun i => this.1 i (Finset.mem_univ i), fun i => this.2.2 i rfl ?_⟩
  rintro (⟨h1, _⟩ | ⟨h1, _⟩ | ⟨_, h1, _⟩)
  · exact h1 (Finset.mem_univ i)
  · exact h1 i (Finset.mem_singleton_self i) (Finset.mem_univ i)
  · simp [cubeSetup] at h1

/-- A singular quadrature on the cube: one point at distance one of the node, shape function of the node. -/
def nodeRule : SingRule := fun c s =>
  [⟨toV ((cubeInput 3 0).pos (((cubeInput 3 0).cellDofs c).getD s 0)) + ![1, 0, 0], ![1, 0, 0], fun j => if j = s then 1 else 0, 6⟩]

theorem diag_dominant {n : ℕ} (A : Fin n → Fin n → ℝ) (δ : ℝ) (hδ : 0 < δ)
    (hA : ∀ i, (∑ k ∈ Finset.univ.erase i, |A i k|) + δ ≤ A i i) (x : Vec n) (ε : ℝ) (hx : ∀ i, |∑ k, A i k * x k| ≤ ε)
    (i : Fin n) : |x i| ≤ 1 / δ * ε := by
  obtain ⟨m, _, hm⟩ := Finset.exists_max_image Finset.univ (fun i => |x i|) ⟨i, Finset.mem_univ i⟩
  refine le_trans (hm i (Finset.mem_univ i)) ?_
  have h1 := hx m
  rw [← Finset.add_sum_erase _ _ (Finset.mem_univ m)] at h1
  have h2 : |∑ k ∈ Finset.univ.erase m, A m k * x k| ≤ (∑ k ∈ Finset.univ.erase m, |A m k|) * |x m| := by
    rw [Finset.sum_mul]
    refine (Finset.abs_sum_le_sum_abs _ _).trans (Finset.sum_le_sum fun k _ => ?_)
    rw [abs_mul]
    exact mul_le_mul_of_nonneg_left (hm k (Finset.mem_univ k)) (abs_nonneg _)
  have hs : 0 ≤ ∑ k ∈ Finset.univ.erase m, |A m k| := Finset.sum_nonneg fun k _ => abs_nonneg _
  have h3 : A m m * |x m| = |A m m * x m| := by
    rw [abs_mul, abs_of_nonneg (a := A m m)]; linarith [hA m]
  have h4 : |A m m * x m| ≤ ε + |∑ k ∈ Finset.univ.erase m, A m k * x k| := by
    have := abs_sub (A m m * x m + ∑ k ∈ Finset.univ.erase m, A m k * x k) (∑ k ∈ Finset.univ.erase m, A m k * x k)
    rw [add_sub_cancel_right] at this
    linarith
  have h5 : δ * |x m| ≤ ε := by
    have := mul_le_mul_of_nonneg_right (hA m) (abs_nonneg (x m))
    rw [add_mul] at this
    linarith
  rw [one_div, ← div_eq_inv_mul, le_div_iff₀ hδ]
  linarith

theorem cube_distance (i c : ℕ) (hi : i < 8) (hc : c < 6) (h : ¬ i ∈ (cubeInput 3 0).cellDofs c) :
    1 ≤ ∑ a, (toV ((cubeInput 3 0).pos i) a - toV ((cubeInput 3 0).qpos (c, 0)) a) ^ 2 := by
  have h2 : (1 : ℚ) ≤ ∑ a, ((cubeInput 3 0).pos i a - (cubeInput 3 0).qpos (c, 0) a) ^ 2 := by
    have : ∀ i, i < 8 → ∀ c, c < 6 → ¬ i ∈ (cubeInput 3 0).cellDofs c →
        (1 : ℚ) ≤ ∑ a, ((cubeInput 3 0).pos i a - (cubeInput 3 0).qpos (c, 0) a) ^ 2 := by decide +kernel
    exact this i hi c hc h
  have h3 : ((1 : ℚ) : ℝ) ≤ ((∑ a, ((cubeInput 3 0).pos i a - (cubeInput 3 0).qpos (c, 0) a) ^ 2 : ℚ) : ℝ) := by exact_mod_cast h2
  push_cast at h3
  exact h3

theorem cube_single (i c j : ℕ) : cellIntegral (cubeInput 3 0) cubeData nodeRule .single i c j =
    if i ∈ (cubeInput 3 0).cellDofs c then if ((cubeInput 3 0).cellDofs c).idxOf i = j then 6 / (4 * Real.pi) else 0
    else 1 / (4 * Real.pi * Real.sqrt (∑ a, (toV ((cubeInput 3 0).pos i) a - toV ((cubeInput 3 0).qpos (c, 0)) a) ^ 2)) := by
  have hd : ∀ i, (cubeInput 3 0).doubles i = {i} := fun _ => rfl
  unfold cellIntegral
  by_cases h : i ∈ (cubeInput 3 0).cellDofs c
  · have hex : ∃ s, s < ((cubeInput 3 0).cellDofs c).length ∧ ((cubeInput 3 0).cellDofs c).getD s 0 ∈ (cubeInput 3 0).doubles i := by
      refine ⟨((cubeInput 3 0).cellDofs c).idxOf i, List.idxOf_lt_length_iff.2 h, ?_⟩
      rw [List.getD_eq_getElem _ _ (List.idxOf_lt_length_iff.2 h)]
      simp [hd]
    have hf : Nat.find hex = ((cubeInput 3 0).cellDofs c).idxOf i := by
      rw [Nat.find_eq_iff]
      refine ⟨⟨List.idxOf_lt_length_iff.2 h, ?_⟩, fun n hn => ?_⟩
      · rw [List.getD_eq_getElem _ _ (List.idxOf_lt_length_iff.2 h)]
        simp [hd]
      · rintro ⟨h1, h2⟩
        rw [List.getD_eq_getElem _ _ h1, hd, Finset.mem_singleton] at h2
        have := List.not_of_lt_findIdx (p := (· == i)) (xs := (cubeInput 3 0).cellDofs c) hn
        simp [h2] at this
    rw [dif_pos hex, if_pos h, hf]
    have hg : ((cubeInput 3 0).cellDofs c).getD (((cubeInput 3 0).cellDofs c).idxOf i) 0 = i := by
      rw [List.getD_eq_getElem _ _ (List.idxOf_lt_length_iff.2 h)]
      simp
    simp only [nodeRule, List.map_cons, List.map_nil, List.sum_cons, List.sum_nil, add_zero, hg, kernelValue]
    by_cases hj : ((cubeInput 3 0).cellDofs c).idxOf i = j
    · rw [if_pos hj, if_pos hj.symm]
      simp [Fin.sum_univ_three]
      ring
    · rw [if_neg hj, if_neg (fun h => hj h.symm)]
      simp
  · rw [dif_neg, if_neg h]
    · rw [show (cubeInput 3 0).nq = 1 from rfl, Finset.sum_range_one]
      simp only [kernelValue, cubeData]
      norm_num
      ring
    · rintro ⟨s, h1, h2⟩
      rw [List.getD_eq_getElem _ _ h1, hd, Finset.mem_singleton] at h2
      exact h (h2 ▸ List.getElem_mem h1)

theorem cube_row (i : Fin 8) : (∑ k ∈ Finset.univ.erase i, |surfaceIntegral (cubeInput 3 0) cubeData nodeRule .single i k|) +
    6 / (4 * Real.pi) ≤ surfaceIntegral (cubeInput 3 0) cubeData nodeRule .single i i := by
  have hpi : (0 : ℝ) < 1 / (4 * Real.pi) := by positivity
  have hlen : ∀ c, c < 6 → ((cubeInput 3 0).cellDofs c).length = 4 := by decide +kernel
  have hidx : ∀ (i : Fin 8) c, c < 6 → i.val ∈ (cubeInput 3 0).cellDofs c → ((cubeInput 3 0).cellDofs c).idxOf i.val < 4 := by decide +kernel
  have hidx' : ∀ (i : Fin 8) c, c < 6 → i.val ∈ (cubeInput 3 0).cellDofs c →
      ((cubeInput 3 0).cellDofs c).getD (((cubeInput 3 0).cellDofs c).idxOf i.val) 0 = i := by decide +kernel
  have hget : ∀ (i : Fin 8) c, c < 6 → i.val ∉ (cubeInput 3 0).cellDofs c → ∀ j, j < 4 → ((cubeInput 3 0).cellDofs c).getD j 0 ≠ i := by
    decide +kernel
  have hlt : ∀ c, c < 6 → ∀ j, j < 4 → ((cubeInput 3 0).cellDofs c).getD j 0 < 8 := by decide +kernel
  have hcount : ∀ i : Fin 8, (Finset.range 6).sum (fun c => if i.val ∈ (cubeInput 3 0).cellDofs c then (1 : ℤ) else 0) = 3 := by decide +kernel
  have hcount' : ∀ i : Fin 8, (Finset.range 6).sum (fun c => if i.val ∈ (cubeInput 3 0).cellDofs c then (0 : ℤ) else 4) = 12 := by decide +kernel
  -- contribution of a cell
  have hcell : ∀ c, c < 6 → ∀ k : Fin 8, (∑ j ∈ Finset.range ((cubeInput 3 0).cellDofs c).length,
      if ((cubeInput 3 0).cellDofs c).getD j 0 = k then cellIntegral (cubeInput 3 0) cubeData nodeRule .single i c j else 0) =
      if i.val ∈ (cubeInput 3 0).cellDofs c then if i = k then 6 / (4 * Real.pi) else 0
      else ∑ j ∈ Finset.range 4, if ((cubeInput 3 0).cellDofs c).getD j 0 = k then
        1 / (4 * Real.pi * Real.sqrt (∑ a, (toV ((cubeInput 3 0).pos i) a - toV ((cubeInput 3 0).qpos (c, 0)) a) ^ 2)) else 0 := by
    intro c hc k
    rw [hlen c hc]
    simp only [cube_single i c]
    split_ifs with h h2
    · subst h2
      rw [Finset.sum_eq_single (((cubeInput 3 0).cellDofs c).idxOf i.val)]
      · rw [if_pos (hidx' i c hc h), if_pos rfl]
      · intro j _ hj
        have hj' : ¬ ((cubeInput 3 0).cellDofs c).idxOf i.val = j := fun h => hj h.symm
        simp only [if_neg hj', ite_self]
      · intro h3; exact absurd (Finset.mem_range.2 (hidx i c hc h)) h3
    · refine Finset.sum_eq_zero fun j _ => ?_
      by_cases hj : ((cubeInput 3 0).cellDofs c).idxOf i.val = j
      · subst hj
        rw [hidx' i c hc h, if_neg (fun h => h2 (Fin.ext h))]
      · rw [if_neg hj]; simp
    · rfl
  have hnn : ∀ c, c < 6 → i.val ∉ (cubeInput 3 0).cellDofs c →
      0 ≤ 1 / (4 * Real.pi * Real.sqrt (∑ a, (toV ((cubeInput 3 0).pos i) a - toV ((cubeInput 3 0).qpos (c, 0)) a) ^ 2)) ∧
      1 / (4 * Real.pi * Real.sqrt (∑ a, (toV ((cubeInput 3 0).pos i) a - toV ((cubeInput 3 0).qpos (c, 0)) a) ^ 2)) ≤ 1 / (4 * Real.pi) := by
    intro c hc h
    have h1 := Real.one_le_sqrt.2 (cube_distance i c i.isLt hc h)
    have h4 : 0 < 4 * Real.pi := by positivity
    refine ⟨by positivity, one_div_le_one_div_of_le h4 ?_⟩
    nlinarith
  have hdiag : surfaceIntegral (cubeInput 3 0) cubeData nodeRule .single i i = 18 / (4 * Real.pi) := by
    unfold surfaceIntegral
    rw [show (cubeInput 3 0).nCells = 6 from rfl]
    have : ∀ c ∈ Finset.range 6, (∑ j ∈ Finset.range ((cubeInput 3 0).cellDofs c).length,
      if ((cubeInput 3 0).cellDofs c).getD j 0 = i then cellIntegral (cubeInput 3 0) cubeData nodeRule .single i c j else 0) =
        ((if i.val ∈ (cubeInput 3 0).cellDofs c then (1 : ℤ) else 0 : ℤ) : ℝ) * (6 / (4 * Real.pi)) := by
      intro c hc
      rw [hcell c (Finset.mem_range.1 hc) i, if_pos rfl]
      split_ifs with h
      · simp
      · rw [Finset.sum_eq_zero]
        · simp
        · intro j hj
          rw [if_neg (hget i c (Finset.mem_range.1 hc) h j (Finset.mem_range.1 hj))]
    rw [Finset.sum_congr rfl this, ← Finset.sum_mul, ← Int.cast_sum, hcount]
    push_cast; ring
  have hoff : (∑ k ∈ Finset.univ.erase i, |surfaceIntegral (cubeInput 3 0) cubeData nodeRule .single i k|) ≤ 12 / (4 * Real.pi) := by
    calc (∑ k ∈ Finset.univ.erase i, |surfaceIntegral (cubeInput 3 0) cubeData nodeRule .single i k|)
        ≤ ∑ k ∈ Finset.univ.erase i, ∑ c ∈ Finset.range 6, if i.val ∈ (cubeInput 3 0).cellDofs c then 0 else
            ∑ j ∈ Finset.range 4, if ((cubeInput 3 0).cellDofs c).getD j 0 = k then 1 / (4 * Real.pi) else 0 := by
          refine Finset.sum_le_sum fun k hk => ?_
          unfold surfaceIntegral
          rw [show (cubeInput 3 0).nCells = 6 from rfl]
          refine (Finset.abs_sum_le_sum_abs _ _).trans (Finset.sum_le_sum fun c hc => ?_)
          have hc := Finset.mem_range.1 hc
          rw [hcell c hc k]
          split_ifs with h h2
          · exact absurd h2.symm (Finset.ne_of_mem_erase hk)
          · simp
          · refine (Finset.abs_sum_le_sum_abs _ _).trans (Finset.sum_le_sum fun j _ => ?_)
            split_ifs
            · rw [abs_of_nonneg (hnn c hc h).1]; exact (hnn c hc h).2
            · simp
      _ ≤ ∑ c ∈ Finset.range 6, ((if i.val ∈ (cubeInput 3 0).cellDofs c then (0 : ℤ) else 4 : ℤ) : ℝ) * (1 / (4 * Real.pi)) := by
          rw [Finset.sum_comm]
          refine Finset.sum_le_sum fun c hc => ?_
          have hc := Finset.mem_range.1 hc
          split_ifs with h
          · simp
          · rw [Finset.sum_comm]
            have : ∀ j ∈ Finset.range 4, (∑ k ∈ Finset.univ.erase i,
                if ((cubeInput 3 0).cellDofs c).getD j 0 = k.val then 1 / (4 * Real.pi) else 0) ≤ 1 / (4 * Real.pi) := by
              intro j hj
              refine (Finset.sum_le_sum_of_subset_of_nonneg (Finset.erase_subset i Finset.univ) ?_).trans (le_of_eq ?_)
              · intro k _ _; split_ifs <;> simp [Real.pi_pos.le]
              · rw [Finset.sum_eq_single (⟨_, hlt c hc j (Finset.mem_range.1 hj)⟩ : Fin 8)]
                · simp
                · intro k _ hk
                  rw [if_neg (fun h => hk (Fin.ext h.symm))]
                · simp
            refine (Finset.sum_le_sum this).trans (le_of_eq ?_)
            simp
      _ = 12 / (4 * Real.pi) := by
          rw [← Finset.sum_mul, ← Int.cast_sum, hcount']
          push_cast; ring
  rw [hdiag]
  have : 18 / (4 * Real.pi) = 12 / (4 * Real.pi) + 6 / (4 * Real.pi) := by ring
  linarith

/-- the hypotheses of `C77_two_results` on the cube: the fast multipole method on three processes and the dense matrices on two -/
example (S : SingRule) (gmres₁ gmres₂ : (Vec 8 → Vec 8) → Vec 8 → Vec 8) : ∃ st₁ R₁ st₂ R₂,
    solve (cubeInput 3 0) cubeData S nodeRule (cubeSetup .fma 3) gmres₁ (alphaHistory []) (fun i => i) (fun _ => 0) = (st₁, some R₁) ∧
    solve (cubeInput 3 0) cubeData S nodeRule (cubeSetup .direct 2) gmres₂ (alphaHistory []) (fun i => i) (fun _ => 0) = (st₂, some R₂) ∧
    ∀ ε, (∀ i, |R₁.residual i| + |R₂.residual i| +
        (methodGap .fma (cubeInput 3 0) cubeData S nodeRule .double (fun k => R₁.phi k - R₁.phi i) i +
          methodGap .fma (cubeInput 3 0) cubeData S nodeRule .single R₁.dphi i) + (0 + 0) ≤ ε) →
      ∀ i, |R₁.dphi i - R₂.dphi i| ≤ 1 / (6 / (4 * Real.pi)) * ε := by
  obtain ⟨st₁, R₁, h₁⟩ := cube_solve S nodeRule .fma 3 gmres₁ (fun i => i) (fun _ => 0)
  obtain ⟨st₂, R₂, h₂⟩ := cube_solve S nodeRule .direct 2 gmres₂ (fun i => i) (fun _ => 0)
  refine ⟨st₁, R₁, st₂, R₂, h₁, h₂, fun ε hε i => ?_⟩
  refine (C77_two_results (cubeInput 3 0) cubeData S nodeRule (cubeSetup .fma 3) (cubeSetup .direct 2) gmres₁ gmres₂ [] [] st₁ st₂
    _ _ R₁ R₂ h₁ h₂ rfl rfl rfl rfl rfl Finset.univ (by intro i; simp [cubeSetup]) (by intro i; simp [cubeSetup])
    (by intro i; simp [cubeSetup]) rfl rfl (fun i _ => rfl) (by simp) cube_dofs cube_admissible _ ?_ ε hε i).2
  intro c hc x ε hx i
  rw [cube_lines] at hc
  cases hc
  refine diag_dominant _ (6 / (4 * Real.pi)) (by positivity) cube_row x ε (show ∀ i : Fin (cubeInput 3 0).nDofs, _ from fun i => ?_) i
  have := hx i
  simp only [homogeneousOperator, bieResidual] at this
  have m1 : merge Finset.univ 0 x = 0 := by funext k; simp [merge]
  have m2 : merge Finset.univ x 0 = x := by funext k; simp [merge]
  rw [m1, m2] at this
  simp at this
  exact this

/-- node 3 in the middle of nodes 1 and 2 -/
def midHanging : Hanging 8 := fun i => if i = 3 then some [(1, 1/2), (2, 1/2)] else none

theorem mid_closed : ∀ i hs, midHanging i = some hs → ∀ e ∈ hs, midHanging e.1 = none := by
  intro i hs h e he
  unfold midHanging at h
  split_ifs at h
  cases h
  simp only [List.mem_cons, List.not_mem_nil, or_false] at he
  rcases he with rfl | rfl <;> rfl

theorem mid_length : ∀ i hs, midHanging i = some hs → hs.length < 3 := by
  intro i hs h
  unfold midHanging at h
  split_ifs at h
  cases h
  simp

/-- a vector interpolated at node 3 -/
def midSol : Vec 8 := fun i => if i = 3 then 9/2 else if i = 1 then 4 else 5

/-- the hypotheses of `C77_conditions` on the cube with node 3 in the middle of nodes 1 and 2, the linear solver stopping with a residual
in the other rows -/
example (S S' : SingRule) (m : Method) : ∃ st' R, solve (cubeInput 3 0) cubeData S S'
      { cubeSetup m 2 with hanging := midHanging, fuel := 3 }
      (fun _ _ => midSol) (alphaHistory []) (fun i => i) (fun _ => 0) = (st', some R) ∧
    Interpolates midHanging (unknown Finset.univ R.phi R.dphi) := by
  set C : Setup (cubeInput 3 0).nDofs 3 :=
    { cubeSetup m 2 with hanging := midHanging, fuel := 3 } with hC
  have hl := constraints_no_doubles C.nodes (fun i => Or.inr rfl) midHanging mid_closed 3 mid_length
    (List.finRange (cubeInput 3 0).nDofs)
  obtain ⟨st', R, h⟩ := solve_some (D := cubeData) (S := S) (S' := S') (C := C)
    (gmres := fun _ _ => midSol) (st := alphaHistory []) (phi0 := fun i => i) (dphi0 := fun _ => 0)
    (by simp [alphaHistory, alphaStaticsStep, AlphaStatics.init, cubeInput]) hl
  refine ⟨st', R, h, ?_⟩
  refine (C77_conditions (cubeInput 3 0) cubeData S S' C _ [] st' _ _ R h Finset.univ
    (by intro i; simp [hC, cubeSetup]) (by intro i; simp [hC, cubeSetup]) rfl (fun i _ => rfl) (by simp)
    (fun i => Finset.mem_singleton_self i) (fun i j hj => by rw [Finset.mem_singleton.1 hj]) (fun i => List.mem_finRange i)
    (by intro h; simp [hC, cubeSetup] at h) ?_).2
  intro i hi
  have hi3 : i = (3 : Fin 8) := by
    rcases hi with h | ⟨h, _⟩ | ⟨h, _⟩ | ⟨_, h, _⟩
    · by_contra h3; exact h (if_neg h3)
    · exact absurd (Finset.mem_univ i) h
    · exact absurd (Finset.mem_univ i) (h i (Finset.mem_singleton_self i))
    · simp [hC, cubeSetup] at h
  obtain ⟨c, hc, _, _, _, hb⟩ := solve_rows h Finset.univ (by intro i; simp [hC, cubeSetup]) (by intro i; simp [hC, cubeSetup]) rfl
    (fun i _ => rfl) (by simp)
  have hsol : R.sol = midSol := by
    unfold solve solveWith at h
    simp only [Prod.mk.injEq] at h
    obtain ⟨_, h⟩ := h
    obtain ⟨alpha, ha, h⟩ := Option.bind_eq_some_iff.1 h
    obtain ⟨c, hc, h⟩ := Option.map_eq_some_iff.1 h
    rw [← h]
  have hc' : c = _ := Option.some.inj (hc.symm.trans hl)
  have := hb i [((1 : Fin 8), 1/2), ((2 : Fin 8), 1/2)] (some 0) (by rw [hc', hi3]; rfl)
  rw [hsol, hi3] at this
  rw [hi3]
  simp only [List.map_cons, List.map_nil, List.sum_cons, List.sum_nil, Option.getD_some] at this
  rw [show midSol 3 = 9/2 from if_pos rfl, show midSol 1 = 4 by simp [midSol], show midSol 2 = 5 by simp [midSol]] at this
  linarith

end PiBem.Bem
