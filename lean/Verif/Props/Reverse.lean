import Verif.Props.Units
import Verif.Props.Boundary
import Verif.Props.Gradient

/-!
# C111: reversing the normals of the surface

Two runs on the same surface, described with opposite normals (the other orientation of the cells).
-/

noncomputable section

namespace PiBem.Bem

open PiBem.Octree PiBem.Fmm PiBem.Expansion

/-- The same geometry with opposite normals: same nodes, quadrature points, shape values, areas, order of the expansions. -/
structure Reversed (D D' : Data) (S S' : SingRule) : Prop where
  p : D'.p = D.p
  shape : ∀ q, D'.shape q = D.shape q
  jxw : ∀ q, D'.jxw q = D.jxw q
  normal : ∀ q a, D'.normal q a = -D.normal q a
  sing : ∀ c j, List.Forall₂ (fun P P' : SingPoint => P'.pos = P.pos ∧ (∀ a, P'.normal a = -P.normal a) ∧ P'.shape = P.shape ∧ P'.jxw = P.jxw)
    (S c j) (S' c j)

/-- Sign by which the matrix of a kernel is multiplied when the normals are reversed. -/
def signOf : Ker → ℝ
  | .double => -1
  | .single => 1

theorem signOf_ne (ker : Ker) : signOf ker ≠ 0 := by cases ker <;> norm_num [signOf]

theorem kernelValue_reversed (ker : Ker) {x y n n' : V3} (hn : ∀ a, n' a = -n a) : kernelValue ker x y n' = signOf ker * kernelValue ker x y n := by
  cases ker with
  | single => simp [kernelValue, signOf]
  | double =>
    simp only [kernelValue, signOf, Fin.sum_univ_three, hn]
    ring

variable {inp : Input 3} {D D' : Data} {S S₁ S' S₁' : SingRule} {T : St 3} {ker : Ker}

/-! ## Dense method -/

theorem reversed_cellIntegral (h : Reversed D D' S' S₁') (ker : Ker) (i c j : ℕ) :
    cellIntegral inp D' S₁' ker i c j = signOf ker * cellIntegral inp D S' ker i c j := by
  unfold cellIntegral
  split_ifs with hex
  · have hl := h.sing c (Nat.find hex)
    generalize S₁' c (Nat.find hex) = l' at hl
    generalize S' c (Nat.find hex) = l at hl
    induction hl with
    | nil => simp
    | cons hp _ ih =>
      rw [List.map_cons, List.sum_cons, List.map_cons, List.sum_cons, mul_add, ih, hp.1, hp.2.2.1, hp.2.2.2, kernelValue_reversed ker hp.2.1]
      ring
  · rw [Finset.mul_sum]
    refine Finset.sum_congr rfl fun q _ => ?_
    rw [h.shape, h.jxw, kernelValue_reversed ker (h.normal (c, q))]
    ring

theorem dense_reversed (h : Reversed D D' S' S₁') (owner owner' : ℕ → ℕ) (ker : Ker) (i k : Fin inp.nDofs) :
    solveMatrix inp D' S₁ S₁' .direct owner' ker i k = signOf ker * solveMatrix inp D S S' .direct owner ker i k := by
  simp only [solveMatrix]
  rw [C64_dense_entry inp D' S₁' ker _ i i.isLt (by simp) k, C64_dense_entry inp D S' ker _ i i.isLt (by simp) k, Finset.mul_sum]
  refine Finset.sum_congr rfl fun c _ => ?_
  rw [Finset.mul_sum]
  refine Finset.sum_congr rfl fun j _ => ?_
  rw [reversed_cellIntegral h]
  split_ifs <;> simp

/-! ## Fast multipole method -/

theorem fmaSing_reversed (h : Reversed D D' S S₁) (ker : Ker) (i c j : ℕ) : fmaSing inp S₁ ker i c j = signOf ker * fmaSing inp S ker i c j := by
  unfold fmaSing
  cases singularIndex inp i c with
  | none => simp
  | some t =>
    have hl := h.sing c t
    have key : ∀ {l l' : List SingPoint},
        List.Forall₂ (fun P P' : SingPoint => P'.pos = P.pos ∧ (∀ a, P'.normal a = -P.normal a) ∧ P'.shape = P.shape ∧ P'.jxw = P.jxw) l l' → ∀ x : ℝ,
        l'.foldl (fun x P => x + singTerm inp ker i j P) (signOf ker * x) = signOf ker * l.foldl (fun x P => x + singTerm inp ker i j P) x := by
      intro l l' hl
      induction hl with
      | nil => intro x; rfl
      | cons hp _ ih =>
        intro x
        rw [List.foldl_cons, List.foldl_cons, ← ih, mul_add, singTerm_eq, singTerm_eq, hp.1, hp.2.2.1, hp.2.2.2, kernelValue_reversed ker hp.2.1]
        simp only [mul_assoc]
    have := key hl 0
    rwa [mul_zero] at this

theorem regEntry_reversed (h : Reversed D D' S S₁) (i : ℕ) (q : ℕ × ℕ) (j : ℕ) : regEntry inp D' ker i q j = signOf ker * regEntry inp D ker i q j := by
  have e : ∀ D : Data, regEntry inp D ker i q j = singTerm inp ker i j ⟨toV (inp.qpos q), D.normal q, D.shape q, D.jxw q⟩ := by
    intro D
    cases ker <;> rfl
  rw [e, e, singTerm_eq, singTerm_eq]
  simp only
  rw [h.shape, h.jxw, kernelValue_reversed ker (h.normal q)]
  simp only [mul_assoc]

theorem val_reversed (h : Reversed D D' S S₁) (i : ℕ) (x : Contr) (u : ℕ → ℝ) :
    valMap inp (withSing inp D' S₁ ker) ker i x u = signOf ker * valMap inp (withSing inp D S ker) ker i x u := by
  show val inp { withSing inp D' S₁ ker with sol := u } ker i x = _ * val inp { withSing inp D S ker with sol := u } ker i x
  cases x with
  | sing c =>
    unfold val cellDot
    rw [Finset.mul_sum]
    refine Finset.sum_congr rfl fun j _ => ?_
    show fmaSing inp S₁ ker i c j * _ = _ * (fmaSing inp S ker i c j * _)
    rw [fmaSing_reversed h, mul_assoc]
  | reg c q =>
    unfold val cellDot
    rw [Finset.mul_sum]
    refine Finset.sum_congr rfl fun j _ => ?_
    show regEntry inp D' ker i (c, q) j * _ = _ * (regEntry inp D ker i (c, q) j * _)
    rw [regEntry_reversed h, mul_assoc]

theorem normDerCoeff_reversed (L : Legendre) (s : ℝ) (v : V3) {n n' : V3} (hn : ∀ a, n' a = -n a) :
    normDerCoeff L s v n' = -normDerCoeff L s v n := by
  have hd : ∀ w : V3, Expansion.dot w (fun k => n' k / Real.sqrt (n' 0 ^ 2 + n' 1 ^ 2 + n' 2 ^ 2)) =
      -Expansion.dot w (fun k => n k / Real.sqrt (n 0 ^ 2 + n 1 ^ 2 + n 2 ^ 2)) := by
    intro w
    simp only [Expansion.dot, hn, neg_sq, neg_div, mul_neg]
    ring
  funext a m
  unfold normDerCoeff
  simp only [hd, Pi.neg_apply]
  rw [← neg_mul, ← mul_neg]
  congr 2
  apply Complex.ext
  · simp only [Complex.neg_re]; ring
  · simp only [Complex.neg_im]; ring

theorem nCellMoment_reversed (h : Reversed D D' S S₁) (b c j : ℕ) :
    (nCellMoment inp D' ker T b c j).coeff = signOf ker • (nCellMoment inp D ker T b c j).coeff := by
  let R : Exp → Exp → Prop := fun e e' => e'.p = e.p ∧ e'.center = e.center ∧ e'.coeff = signOf ker • e.coeff
  have hadd : ∀ (e e' : Exp) (z z' : Cf), R e e' → z' = signOf ker • z →
      R { e.addCoeffs z with isZero := false } { e'.addCoeffs z' with isZero := false } := by
    rintro e e' z z' ⟨h1, h2, h3⟩ hz
    refine ⟨h1, h2, ?_⟩
    show (e'.addCoeffs z').coeff = _ • (e.addCoeffs z).coeff
    rw [addCoeffs_coeff, addCoeffs_coeff, smul_add, h3, h1, hz, map_smul]
  have hstep : ∀ (q : ℕ × ℕ) (e e' : Exp), R e e' → R (elemAdd inp D ker e j q) (elemAdd inp D' ker e' j q) := by
    intro q e e' hR
    unfold elemAdd
    simp only [h.shape, h.jxw]
    cases ker with
    | single =>
      simp only [mAddSource]
      split_ifs
      · exact hR
      · refine hadd _ _ _ _ hR ?_
        rw [hR.2.1, signOf, one_smul]
    | double =>
      simp only [mAddNormDer]
      split_ifs
      · exact hR
      · refine hadd _ _ _ _ hR ?_
        rw [hR.2.1, signOf, neg_one_smul]
        exact normDerCoeff_reversed codeTable _ _ (h.normal q)
  have hfold : ∀ (l : List (ℕ × ℕ)) (e e' : Exp), R e e' →
      R (l.foldl (fun e q => elemAdd inp D ker e j q) e) (l.foldl (fun e q => elemAdd inp D' ker e j q) e') := by
    intro l
    induction l with
    | nil => intro e e' h; exact h
    | cons q l ih => intro e e' h; exact ih _ _ (hstep q e e' h)
  refine (hfold _ (Exp.new D.p (ctr T b)) (Exp.new D'.p (ctr T b)) ⟨h.p, rfl, ?_⟩).2.2
  show (0 : Cf) = signOf ker • (0 : Cf)
  rw [smul_zero]

theorem leafMap_reversed (h : Reversed D D' S S₁) (u : ℕ → ℝ) :
    leafMap inp (withSing inp D' S₁ ker) ker T u = signOf ker • leafMap inp (withSing inp D S ker) ker T u := by
  have hl : ∀ {ι : Type} (l : List ι) (g : ι → Cf), signOf ker • (l.map g).sum = (l.map fun c => signOf ker • g c).sum := by
    intro ι l g
    induction l with
    | nil => simp
    | cons a l ih => simp [ih]
  funext b
  show (if b ∈ T.childless then leafVal inp D' ker T b else 0) u = signOf ker • (if b ∈ T.childless then leafVal inp D ker T b else 0) u
  split_ifs
  · unfold leafVal
    rw [sum_lin, sum_lin, hl]
    refine congrArg List.sum (List.map_congr_left fun c _ => ?_)
    rw [sum_lin, sum_lin, hl]
    refine congrArg List.sum (List.map_congr_left fun j _ => ?_)
    show u _ • trunc D'.p (nCellMoment inp D' ker T b c j).coeff = signOf ker • (u _ • trunc D.p (nCellMoment inp D ker T b c j).coeff)
    rw [nCellMoment_reversed h, map_smul, h.p, smul_comm]
  · rw [LinearMap.zero_apply, smul_zero]

theorem rowMap_reversed (h : Reversed D D' S S₁) (i : ℕ) (u : ℕ → ℝ) :
    rowMap inp (withSing inp D' S₁ ker) ker T i u = signOf ker * rowMap inp (withSing inp D S ker) ker T i u := by
  have hp : (withSing inp D' S₁ ker).p = (withSing inp D S ker).p := h.p
  have hm : multMap inp (withSing inp D' S₁ ker) ker T u = signOf ker • multMap inp (withSing inp D S ker) ker T u := by
    funext b
    show multFn inp (withSing inp D' S₁ ker).p T b (leafMap inp (withSing inp D' S₁ ker) ker T u) =
      signOf ker • multFn inp (withSing inp D S ker).p T b (leafMap inp (withSing inp D S ker) ker T u)
    rw [leafMap_reversed h, map_smul, hp]
  have hd : directMap inp (withSing inp D' S₁ ker) ker T i u = signOf ker * directMap inp (withSing inp D S ker) ker T i u := by
    unfold directMap
    rw [sum_lin, sum_lin]
    exact list_mul_sum _ _ _ _ fun x _ => val_reversed h i x u
  rw [rowMap_parts, rowMap_parts, hd, hm, hp, map_smul, map_smul, smul_eq_mul, smul_eq_mul]
  ring

theorem fma_reversed (h : Reversed D D' S S₁) (owner owner' : ℕ → ℕ) (ker : Ker) (i k : Fin inp.nDofs) :
    solveMatrix inp D' S₁ S₁' .fma owner' ker i k = signOf ker * solveMatrix inp D S S' .fma owner ker i k :=
  rowMap_reversed h i _

/-! ## Matrices and solid angles -/

/-- **C111** (matrices). Reversing the normals changes the sign of the double layer matrix and does not change the single layer matrix; dense method
and fast multipole method, whatever the partitions. -/
theorem C111_matrices (h : Reversed D D' S S₁) (h' : Reversed D D' S' S₁') (m : Method) (owner owner' : ℕ → ℕ) (i k : Fin inp.nDofs) :
    solveMatrix inp D' S₁ S₁' m owner' .double i k = -solveMatrix inp D S S' m owner .double i k ∧
    solveMatrix inp D' S₁ S₁' m owner' .single i k = solveMatrix inp D S S' m owner .single i k := by
  have key : ∀ ker, solveMatrix inp D' S₁ S₁' m owner' ker i k = signOf ker * solveMatrix inp D S S' m owner ker i k := by
    intro ker
    cases m with
    | direct => exact dense_reversed h' owner owner' ker i k
    | fma => exact fma_reversed h owner owner' ker i k
  refine ⟨?_, ?_⟩
  · rw [key, signOf, neg_one_mul]
  · rw [key, signOf, one_mul]

/-- **C111** (product). Executions of the fast multipole product for the two orientations, with any schedules and any rows, of the same density: at every row
computed by both, the double layer has opposite values, the single layer the same value. -/
theorem C111_product (h : Reversed D D' S S₁) (hdof : ∀ c k, k ∈ inp.cellDofs c → k < inp.nDofs) (ker : Ker) (u : ℕ → ℝ)
    (own own' : ℕ → Bool) (out out' : ℕ → ℝ)
    (hx : NFmmExec inp { withSing inp D S ker with sol := u } ker (build inp) own out)
    (hx' : NFmmExec inp { withSing inp D' S₁ ker with sol := u } ker (build inp) own' out')
    (i : ℕ) (hi : own i = true) (hi' : own' i = true) :
    out' i = match ker with | .double => -out i | .single => out i := by
  have key : out' i = signOf ker * out i := by
    rw [fma_eq (D := withSing inp D S ker) hdof u own out hx i hi, fma_eq (D := withSing inp D' S₁ ker) hdof u own' out' hx' i hi', Finset.mul_sum]
    refine Finset.sum_congr rfl fun k _ => ?_
    rw [show fmaMatrix inp (withSing inp D' S₁ ker) ker i k = _ from rowMap_reversed h i _, mul_assoc]
    rfl
  rw [key]
  cases ker with
  | double => exact neg_one_mul _
  | single => exact one_mul _

/-- **C111** (solid angles). The diagonal coefficients `alpha` computed for the reversed normals are the opposite numbers. -/
theorem C111_alpha (h : Reversed D D' S S₁) (h' : Reversed D D' S' S₁') (m m' : Method) (owner owner' : ℕ → ℕ) (part : ℕ) (a a' : Vec inp.nDofs)
    (s : AlphaStatics) :
    (computeAlpha m' part (solveMatrix inp D' S₁ S₁' m owner' .double) a' s).2 =
      (computeAlpha m' part (solveMatrix inp D S S' m owner .double) a s).2.map fun v i => -v i := by
  have hv : ∀ x : Vec inp.nDofs, matVmult (solveMatrix inp D' S₁ S₁' m owner' .double) x =
      fun i => -matVmult (solveMatrix inp D S S' m owner .double) x i := by
    intro x
    funext i
    unfold matVmult
    rw [← Finset.sum_neg_distrib]
    refine Finset.sum_congr rfl fun k _ => ?_
    rw [(C111_matrices h h' m owner owner' i k).1, neg_mul]
  unfold computeAlpha
  simp only
  split_ifs
  · cases m' <;> simp only [Option.map_some, hv]
  · rfl

/-! ## Boundary data -/

variable {n d : ℕ}

/-- The boundary data read with opposite normals. -/
def reverseBoundary (B : BoundaryData n d) : BoundaryData n d := { B with normal := fun i a => -B.normal i a }

/-- **C111** (boundary data). With reversed normals the prescribed potentials are the same, the prescribed normal derivatives the opposite ones: at
a node all of whose cells are Dirichlet, and at one none of whose cells is. -/
theorem C111_boundary_data (B : BoundaryData n d) (cells : List (BCell n)) (own own' : Fin n → ℕ) (i : Fin n) :
    (prepareBemVectors (reverseBoundary B) cells own').phi i = (prepareBemVectors B cells own).phi i ∧
    (prepareBemVectors (reverseBoundary B) cells own').dphi i = -(prepareBemVectors B cells own).dphi i ∧
    ((∀ c ∈ cells, i ∈ c.dofs → c.material ∈ B.dirichletIds) →
      (prepareBemVectors (reverseBoundary B) cells own').tmpRhs i = (prepareBemVectors B cells own).tmpRhs i) ∧
    ((∀ c ∈ cells, i ∈ c.dofs → c.material ∉ B.dirichletIds) →
      (prepareBemVectors (reverseBoundary B) cells own').tmpRhs i = -(prepareBemVectors B cells own).tmpRhs i) := by
  obtain ⟨e1, e2, e3⟩ := prepare_eq (reverseBoundary B) cells own' i
  obtain ⟨f1, f2, f3⟩ := prepare_eq B cells own i
  have hd : ∀ m, m ∈ B.dirichletIds → datum (reverseBoundary B) m i = datum B m i := by
    intro m hm
    unfold datum
    rw [if_pos hm, if_pos (show m ∈ (reverseBoundary B).dirichletIds from hm)]
    rfl
  have hn : ∀ m, m ∉ B.dirichletIds → datum (reverseBoundary B) m i = -datum B m i := by
    intro m hm
    unfold datum
    rw [if_neg hm, if_neg (show m ∉ (reverseBoundary B).dirichletIds from hm)]
    by_cases h2 : m ∈ B.neumannIds
    · rw [if_pos h2, if_pos (show m ∈ (reverseBoundary B).neumannIds from h2)]
      unfold dot
      rw [← Finset.sum_neg_distrib]
      exact Finset.sum_congr rfl fun a _ => by simp [reverseBoundary]
    · rw [if_neg h2, if_neg (show m ∉ (reverseBoundary B).neumannIds from h2), neg_zero]
  have hmat : ∀ m ∈ materialsAt cells i, ∃ c ∈ cells, i ∈ c.dofs ∧ c.material = m := by
    intro m hm
    obtain ⟨c, hc, rfl⟩ := List.mem_map.1 hm
    obtain ⟨h1, h2⟩ := List.mem_filter.1 hc
    exact ⟨c, h1, of_decide_eq_true h2, rfl⟩
  refine ⟨?_, ?_, fun hall => ?_, fun hall => ?_⟩
  · rw [e1, f1]; rfl
  · rw [e2, f2]
    show (List.getLast? ((materialsAt cells i).filter fun m => decide (m ∉ B.dirichletIds)) |>.map _).getD 0 = _
    cases hg : ((materialsAt cells i).filter fun m => decide (m ∉ B.dirichletIds)).getLast? with
    | none => simp
    | some m =>
      have := List.mem_of_getLast? hg
      have := of_decide_eq_true (List.mem_filter.1 this).2
      simp only [Option.map_some, Option.getD_some]
      exact hn m this
  · rw [e3, f3]
    cases hg : (materialsAt cells i).getLast? with
    | none => simp
    | some m =>
      obtain ⟨c, hc, hi, rfl⟩ := hmat m (List.mem_of_getLast? hg)
      simp only [Option.map_some, Option.getD_some]
      exact hd _ (hall c hc hi)
  · rw [e3, f3]
    cases hg : (materialsAt cells i).getLast? with
    | none => simp
    | some m =>
      obtain ⟨c, hc, hi, rfl⟩ := hmat m (List.mem_of_getLast? hg)
      simp only [Option.map_some, Option.getD_some]
      exact hn _ (hall c hc hi)

/-! ## Results -/

/-- Two problems with opposite orientations: at Dirichlet nodes `B` the same potential, at the others opposite normal derivatives; opposite normals,
the same surface gradients, double nodes and options. Partition, number of processes and order of the constraints are unrelated. -/
structure SetupReversed {n : ℕ} (C C' : Setup n 3) (B : Finset (Fin n)) : Prop where
  method : C'.method = C.method
  dirichlet : ∀ i ∈ B, C'.nodes.tmpRhs i = C.nodes.tmpRhs i
  neumann : ∀ i, i ∉ B → C'.nodes.tmpRhs i = -C.nodes.tmpRhs i
  normal : ∀ i a, C'.nodes.normal i a = -C.nodes.normal i a
  surfGrad : ∀ i, C'.nodes.surfGrad i = C.nodes.surfGrad i
  grad : C'.nodes.continuosGradient = C.nodes.continuosGradient
  doubles : C'.doubles = C.doubles

theorem SetupReversed.similar {n : ℕ} {C C' : Setup n 3} {B : Finset (Fin n)} (h : SetupReversed C C' B) : SetupSimilar (-1) (-1) C C' B := by
  refine ⟨h.dirichlet, fun i hi => ?_, fun i a => ?_, fun i a => ?_, h.grad, h.doubles⟩
  · rw [h.neumann i hi]; ring
  · rw [h.normal]; simp [Matrix.one_apply]
  · rw [h.surfGrad]; simp [Matrix.one_apply, div_neg]

theorem minus_one_orthogonal : (-1 : Matrix (Fin 3) (Fin 3) ℝ).transpose * (-1) = 1 := by simp

theorem matrices_reversed (h : Reversed D D' S S₁) (h' : Reversed D D' S' S₁') {m m' : Method} (hm : m' = m) (owner owner' : ℕ → ℕ) :
    MatricesRelated (-1) (-1) (fun ker => solveMatrix inp D S S' m owner ker) (fun ker => solveMatrix inp D' S₁ S₁' m' owner' ker) := by
  intro i k
  subst hm
  obtain ⟨h1, h2⟩ := C111_matrices h h' m' owner owner' i k
  refine ⟨?_, ?_⟩
  · simp only [h1, neg_one_mul]
  · simp only [h2, neg_one_mul, neg_neg]

/-- **C111** (exactness). Both methods. Of two runs with opposite orientations holding the same potential and opposite normal derivatives, both are
exact or both are not. -/
theorem C111_exact (hr : Reversed D D' S S₁) (hr' : Reversed D D' S' S₁') (C C' : Setup inp.nDofs 3)
    (gmres gmres' : (Vec inp.nDofs → Vec inp.nDofs) → Vec inp.nDofs → Vec inp.nDofs)
    (l l' : List (ℕ × ℕ)) (st st' : AlphaStatics) (phi0 dphi0 phi0' dphi0' : Vec inp.nDofs) (X X' : Solution inp.nDofs)
    (h : solve inp D S S' C gmres (alphaHistory l) phi0 dphi0 = (st, some X))
    (h' : solve inp D' S₁ S₁' C' gmres' (alphaHistory l') phi0' dphi0' = (st', some X'))
    (B : Finset (Fin inp.nDofs)) (hC : SetupReversed C C' B)
    (hP : Posed inp C B phi0 dphi0) (hP' : Posed inp C' B phi0' dphi0')
    (hdata : Consistent C B) (hphi : ∀ i, X'.phi i = X.phi i) (hdphi : ∀ i, X'.dphi i = -X.dphi i) :
    (∀ i, X'.residual i = 0) ↔ ∀ i, X.residual i = 0 :=
  exact_of_related (Q := -1) (s := -1) (r := -1) (inp := inp) (pos' := inp.pos) (qpos' := inp.qpos) (by norm_num) minus_one_orthogonal (by norm_num)
    C C' gmres gmres' l l' st st' phi0 dphi0 phi0' dphi0' X X' h h' B hC.similar (matrices_reversed hr hr' hC.method C.owner C'.owner) hP hP' hdata hphi
    (fun i => by rw [hdphi]; ring)

/-- **C111** (results). Both methods. If the linear system of one run is regular, exact solves with opposite orientations, with any partitions, numbers of
processes and linear solvers, give the same potential at every node and opposite normal derivatives. -/
theorem C111_same_result (hr : Reversed D D' S S₁) (hr' : Reversed D D' S' S₁') (C C' : Setup inp.nDofs 3)
    (gmres gmres' : (Vec inp.nDofs → Vec inp.nDofs) → Vec inp.nDofs → Vec inp.nDofs)
    (l l' : List (ℕ × ℕ)) (st st' : AlphaStatics) (phi0 dphi0 phi0' dphi0' : Vec inp.nDofs) (X X' : Solution inp.nDofs)
    (h : solve inp D S S' C gmres (alphaHistory l) phi0 dphi0 = (st, some X))
    (h' : solve inp D' S₁ S₁' C' gmres' (alphaHistory l') phi0' dphi0' = (st', some X'))
    (B : Finset (Fin inp.nDofs)) (hC : SetupReversed C C' B)
    (hP : Posed inp C B phi0 dphi0) (hP' : Posed inp C' B phi0' dphi0')
    (hdata : Consistent C B) (hdet : Determined inp D S S' C (alphaHistory l) phi0 dphi0)
    (hX : ∀ i, X.residual i = 0) (hX' : ∀ i, X'.residual i = 0) (i : Fin inp.nDofs) :
    X'.phi i = X.phi i ∧ X'.dphi i = -X.dphi i := by
  obtain ⟨h1, h2⟩ := same_result_of_related (Q := -1) (s := -1) (r := -1) (inp := inp) (pos' := inp.pos) (qpos' := inp.qpos) (by norm_num)
    minus_one_orthogonal (by norm_num) C C' gmres gmres' l l' st st' phi0 dphi0 phi0' dphi0' X X' h h' B hC.similar
    (matrices_reversed hr hr' hC.method C.owner C'.owner) hP hP' hdata hdet hX hX' i
  exact ⟨h1, by rw [h2]; ring⟩

/-! ## Examples -/

/-- Every surface can be described with opposite normals. -/
theorem reversed_of (D : Data) (S : SingRule) :
    Reversed D { D with normal := fun q a => -D.normal q a } S (fun c j => (S c j).map fun P => { P with normal := fun a => -P.normal a }) := by
  refine ⟨rfl, fun _ => rfl, fun _ => rfl, fun _ _ => rfl, fun c j => ?_⟩
  rw [List.forall₂_map_right_iff, List.forall₂_same]
  exact fun P _ => ⟨rfl, fun _ => rfl, rfl, rfl⟩

/-- The edge with opposite normals. -/
def edgeReversed : NodeData 2 3 where
  dirichlet := fun _ => 1
  tmpRhs := fun _ => 5
  normal := fun i a => -(edgeNodes id).normal i a
  surfGrad := (edgeNodes id).surfGrad
  continuosGradient := true

theorem edge_reversed (m : Method) (procs procs' : ℕ) :
    SetupReversed (pointSetup m procs (edgeNodes id)) (pointSetup m procs' edgeReversed) Finset.univ :=
  ⟨rfl, fun _ _ => rfl, fun i hi => absurd (Finset.mem_univ i) hi, fun _ _ => rfl, fun _ => rfl, rfl, rfl⟩

theorem edgeReversed_gradient {i j : Fin 2} (h : i ≠ j) : thisNormalGradient edgeReversed i j = some (if i = 0 then -7 else -3) := by
  have := similar_normalGradient minus_one_orthogonal (edge_reversed .fma 1 1).similar i j
  refine this.trans ?_
  show (thisNormalGradient (edgeNodes id) i j).map _ = _
  rw [edge_gradient (o := id) h, Option.map_some]
  congr 1
  by_cases hi : i = 0 <;> simp [hi, div_neg]

theorem edgeReversed_doubleNodes : DoubleNodes edgeReversed (fun _ => Finset.univ) (fun i => if i = 0 then -7 else -3) := by
  refine ⟨by simp [edgeReversed], ?_, ?_, ?_⟩
  · intro i l h; have := h i (Finset.mem_univ i); simp [edgeReversed] at this
  · intro _ i l _ hl hne
    rw [otherNormalGradient_eq, edgeReversed_gradient hne]
  · intro _ i l hi hl hne
    rw [edgeReversed_gradient (Ne.symm hne)]

/-- All hypotheses of `C111_same_result` hold for the edge, on one process, and the edge with opposite normals, on two; both methods. -/
example (D : Data) (S S' : SingRule) (m : Method) : ∃ (D' : Data) (S₁ S₁' : SingRule) (C C' : Setup 2 3) (st st' : AlphaStatics) (X X' : Solution 2)
    (gmres gmres' : (Vec 2 → Vec 2) → Vec 2 → Vec 2) (phi0 : Vec 2),
    Reversed D D' S S₁ ∧ Reversed D D' S' S₁' ∧ C.method = m ∧
    solve pointAt D S S' C gmres (alphaHistory []) phi0 0 = (st, some X) ∧
    solve pointAt D' S₁ S₁' C' gmres' (alphaHistory []) phi0 0 = (st', some X') ∧
    SetupReversed C C' Finset.univ ∧ Posed pointAt C Finset.univ phi0 0 ∧ Posed pointAt C' Finset.univ phi0 0 ∧
    Consistent C Finset.univ ∧ Determined pointAt D S S' C (alphaHistory []) phi0 0 ∧
    (∀ i, X.residual i = 0) ∧ (∀ i, X'.residual i = 0) ∧ X.dphi (0 : Fin 2) = 7 ∧ X'.dphi (0 : Fin 2) = -7 := by
  obtain ⟨st, X, e1, e2, e3⟩ := put_exact (pointInput 2 1).qpos (pos' := fun _ => ![1, 0, 0]) (n := 2) (fun _ _ => rfl) le_rfl D S S' m 1
    (edgeNodes id) (fun _ => rfl) rfl _ 0 (edge_doubleNodes Function.injective_id)
  obtain ⟨st', X', f1, f2, f3⟩ := put_exact (pointInput 2 1).qpos (pos' := fun _ => ![1, 0, 0]) (n := 2) (fun _ _ => rfl) le_rfl
    { D with normal := fun q a => -D.normal q a } (fun c j => (S c j).map fun P => { P with normal := fun a => -P.normal a })
    (fun c j => (S' c j).map fun P => { P with normal := fun a => -P.normal a }) m 2 edgeReversed (fun _ => rfl) rfl _ 0 edgeReversed_doubleNodes
  refine ⟨_, _, _, _, _, st, st', X, X', _, _, _, reversed_of D S, reversed_of D S', rfl, e1, f1, edge_reversed m 1 2,
    put_posed _ (fun _ _ => rfl) m 1 _ (fun _ => rfl) 0, put_posed _ (fun _ _ => rfl) m 2 _ (fun _ => rfl) 0,
    edge_consistent m 1 Function.injective_id, pointAt_determined D S S' m 1, e2, f2, ?_, ?_⟩
  · rw [e3]; simp
  · rw [f3]; simp

end PiBem.Bem

namespace PiBem.Grad

variable {d : ℕ}

/-- A cell with opposite normals. -/
def reverseCell (C : Cell d) : Cell d := { C with normal := fun q a => -C.normal q a }

/-- The mesh with opposite normals. -/
def reverseMesh (T : Mesh d) : Mesh d := { T with cell := fun c => reverseCell (T.cell c) }

variable {T : Mesh d} {procs : ℕ}

theorem reverseMesh_wf (hT : T.WF procs) : (reverseMesh T).WF procs := ⟨hT.dofs, hT.entries, hT.owned⟩

theorem reverse_mat (dg : Diag) : mat (reverseMesh T) dg procs = mat T dg procs := rfl

/-- **C111** (recovered normals). Exact solutions of the system of the recovered normals for the reversed surface are the opposite vectors, and the
recovered normals after the distribution of the constraints too. -/
theorem C111_normals (hT : T.WF procs) (dg : Diag) (u : ℕ → ℝ) :
    (Solves T cellNormal dg procs u ↔ Solves (reverseMesh T) cellNormal dg procs (-u)) ∧
    distribute (reverseMesh T) (-u) = -distribute T u := by
  constructor
  · have hl : ∀ c i, i < (T.cell c).dofs.length → localRhs T.comp (reverseCell (T.cell c)) (cellNormal (reverseCell (T.cell c))) i =
        -localRhs T.comp (T.cell c) (cellNormal (T.cell c)) i := by
      intro c i hi
      rw [localRhs_eq T.comp (T.cell c) _ hi, localRhs_eq T.comp (reverseCell (T.cell c)) _ hi, ← Finset.sum_neg_distrib]
      refine Finset.sum_congr rfl fun q _ => ?_
      show (T.cell c).shape i q * -(T.cell c).normal q (T.comp i) * (T.cell c).jxw q = -((T.cell c).shape i q * (T.cell c).normal q (T.comp i) * (T.cell c).jxw q)
      ring
    have hb : ∀ r, rhs (reverseMesh T) cellNormal procs r = -rhs T cellNormal procs r := by
      intro r
      rw [rhs_eq hT, rhs_eq (reverseMesh_wf hT), ← Finset.sum_neg_distrib]
      refine Finset.sum_congr rfl fun c _ => ?_
      rw [← Finset.sum_neg_distrib]
      refine Finset.sum_congr rfl fun i hi => ?_
      show coef T.cs ((T.cell c).dofs.getD i 0) r * localRhs T.comp (reverseCell (T.cell c)) (cellNormal (reverseCell (T.cell c))) i = _
      rw [hl c i (Finset.mem_range.1 hi), mul_neg]
    unfold Solves
    refine forall₂_congr fun r _ => ?_
    rw [hb, reverse_mat]
    show _ ↔ ∑ s ∈ Finset.range T.nDofs, _ = _
    simp only [Pi.neg_apply, mul_neg, Finset.sum_neg_distrib, neg_inj]
  · funext r
    show (match T.cs r with | none => (-u) r | some e => e.foldl (fun (x : ℝ) se => x + se.2 * (-u) se.1) 0 : ℝ) =
      -(match T.cs r with | none => u r | some e => e.foldl (fun (x : ℝ) se => x + se.2 * u se.1) 0 : ℝ)
    cases T.cs r with
    | none => rfl
    | some e =>
      simp only [foldl_dist]
      rw [zero_add, zero_add]
      induction e with
      | nil => simp
      | cons a e ih => rw [List.map_cons, List.map_cons, List.sum_cons, List.sum_cons, ih, Pi.neg_apply]; ring

/-- **C111** (recovered gradients). With the same potential and opposite normal derivatives, the system of the recovered gradients is the same for both
orientations; so is the one of the surface gradients. -/
theorem C111_gradients (hT : T.WF procs) (dg : Diag) (phi dphi u : ℕ → ℝ) :
    (Solves T (fullGrad phi dphi) dg procs u ↔ Solves (reverseMesh T) (fullGrad phi fun i => -dphi i) dg procs u) ∧
    (Solves T (surfGrad phi) dg procs u ↔ Solves (reverseMesh T) (surfGrad phi) dg procs u) := by
  have hg : ∀ C : Cell d, fullGrad phi (fun i => -dphi i) (reverseCell C) = fullGrad phi dphi C := by
    intro C
    funext q k
    show -C.normal q k * (∑ j ∈ Finset.range C.sdofs.length, -dphi (C.sdofs.getD j 0) * C.sshape j q) + scalarGrad C phi q k =
      C.normal q k * (∑ j ∈ Finset.range C.sdofs.length, dphi (C.sdofs.getD j 0) * C.sshape j q) + scalarGrad C phi q k
    simp only [neg_mul, Finset.sum_neg_distrib, mul_neg, neg_neg]
  have hb : ∀ r, rhs (reverseMesh T) (fullGrad phi fun i => -dphi i) procs r = rhs T (fullGrad phi dphi) procs r := by
    intro r
    rw [rhs_eq hT, rhs_eq (reverseMesh_wf hT)]
    refine Finset.sum_congr rfl fun c _ => Finset.sum_congr rfl fun i _ => ?_
    show coef T.cs ((T.cell c).dofs.getD i 0) r * localRhs T.comp (reverseCell (T.cell c)) (fullGrad phi (fun i => -dphi i) (reverseCell (T.cell c))) i = _
    rw [hg]
    rfl
  refine ⟨?_, Iff.rfl⟩
  unfold Solves
  refine forall₂_congr fun r _ => ?_
  rw [hb]
  exact Iff.rfl

/-- The two cells with normals `e_x` and `e_y`: the hypotheses hold and the recovered normal at the common node changes sign. -/
example : exMesh.WF 2 ∧ (∃ u, Solves exMesh cellNormal (fun _ _ => 1) 2 u) :=
  ⟨exMesh_wf, exMesh_regular _⟩

end PiBem.Grad
