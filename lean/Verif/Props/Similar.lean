import Verif.Props.Renumber

/-!
# C85: rigid motions and change of the unit of length

The dense method. Two problems on the same mesh topology whose geometries correspond under `x ↦ s·Qx + b`, with an orthogonal `Q`
and `s > 0`.
-/

noncomputable section

namespace PiBem.Bem

open PiBem.Octree PiBem.Fmm PiBem.Expansion

/-! ## Similar problems -/

/-- `y` is the image of the direction `x` under `Q`. -/
def Turned (Q : Matrix (Fin 3) (Fin 3) ℝ) (x y : Fin 3 → ℝ) : Prop := ∀ a, y a = ∑ e, Q a e * x e

/-- `y` is the image of the point `x` under the similarity. -/
def Moved (Q : Matrix (Fin 3) (Fin 3) ℝ) (s : ℝ) (b : Fin 3 → ℝ) (x y : Fin 3 → ℝ) : Prop :=
  ∀ a, y a = s * ∑ e, Q a e * x e + b a

/-- The same mesh with other positions of nodes and quadrature points. -/
def moveInput (inp : Input 3) (pos' : ℕ → Octree.Pt 3) (qpos' : ℕ × ℕ → Octree.Pt 3) : Input 3 := { inp with pos := pos', qpos := qpos' }

/-- Points of quadratures: moved positions, turned normals, the same shape values, areas multiplied by `s²`. -/
def PointSimilar (Q : Matrix (Fin 3) (Fin 3) ℝ) (s : ℝ) (b : Fin 3 → ℝ) (P P' : SingPoint) : Prop :=
  Moved Q s b P.pos P'.pos ∧ Turned Q P.normal P'.normal ∧ P'.shape = P.shape ∧ P'.jxw = s ^ 2 * P.jxw

/-- Similar geometries: nodes, quadrature points and singular quadratures correspond under the similarity. -/
structure Similar (Q : Matrix (Fin 3) (Fin 3) ℝ) (s : ℝ) (b : Fin 3 → ℝ) (inp inp' : Input 3) (D D' : Data) (S S' : SingRule) :
    Prop where
  pos : ∀ i, Moved Q s b (toV (inp.pos i)) (toV (inp'.pos i))
  qpos : ∀ q, Moved Q s b (toV (inp.qpos q)) (toV (inp'.qpos q))
  normal : ∀ q, Turned Q (D.normal q) (D'.normal q)
  shape : ∀ q, D'.shape q = D.shape q
  jxw : ∀ q, D'.jxw q = s ^ 2 * D.jxw q
  sing : ∀ c j, List.Forall₂ (PointSimilar Q s b) (S c j) (S' c j)

variable {Q : Matrix (Fin 3) (Fin 3) ℝ} {s : ℝ} {b : Fin 3 → ℝ}

/-- Scalar products are preserved by an orthogonal matrix. -/
theorem turned_dot (hQ : Q.transpose * Q = 1) {x y x' y' : Fin 3 → ℝ} (hx : Turned Q x x') (hy : Turned Q y y') :
    ∑ a, x' a * y' a = ∑ a, x a * y a := by
  have e : ∀ i j, _ := fun i j => congrFun (congrFun hQ i) j
  have e00 := e 0 0; have e01 := e 0 1; have e02 := e 0 2
  have e11 := e 1 1; have e12 := e 1 2; have e22 := e 2 2
  simp [Matrix.mul_apply, Fin.sum_univ_three] at e00 e01 e02 e11 e12 e22
  simp only [Turned, Fin.sum_univ_three] at hx hy
  simp only [Fin.sum_univ_three, hx, hy]
  linear_combination x 0 * y 0 * e00 + x 1 * y 1 * e11 + x 2 * y 2 * e22 + (x 0 * y 1 + x 1 * y 0) * e01 +
    (x 0 * y 2 + x 2 * y 0) * e02 + (x 1 * y 2 + x 2 * y 1) * e12

/-- The kernels under a similarity: the double layer is divided by `s²`, the single layer by `s`. -/
theorem kernelValue_moved (hQ : Q.transpose * Q = 1) (hs : 0 < s) {x y n x' y' n' : V3} (hx : Moved Q s b x x') (hy : Moved Q s b y y')
    (hn : Turned Q n n') :
    kernelValue .double x' y' n' = kernelValue .double x y n / s ^ 2 ∧ kernelValue .single x' y' n' = kernelValue .single x y n / s := by
  have ht : Turned Q (fun e => s * (x e - y e)) (fun e => x' e - y' e) := by
    intro a
    have h1 := hx a
    have h2 := hy a
    simp only [Fin.sum_univ_three] at h1 h2 ⊢
    rw [h1, h2]
    ring
  have hr : Real.sqrt (∑ a, (x' a - y' a) ^ 2) = s * Real.sqrt (∑ a, (x a - y a) ^ 2) := by
    have : ∑ a, (x' a - y' a) ^ 2 = s ^ 2 * ∑ a, (x a - y a) ^ 2 := by
      have := turned_dot hQ ht ht
      rw [Finset.mul_sum]
      simp only [Fin.sum_univ_three] at this ⊢
      linear_combination this
    rw [this, Real.sqrt_mul (by positivity), Real.sqrt_sq hs.le]
  have hd : ∑ a, (x' a - y' a) * n' a = s * ∑ a, (x a - y a) * n a := by
    have := turned_dot hQ ht hn
    rw [this, Finset.mul_sum]
    exact Finset.sum_congr rfl fun a _ => by ring
  constructor
  · simp only [kernelValue]
    rw [hd, hr]
    rcases eq_or_ne (Real.sqrt (∑ a, (x a - y a) ^ 2)) 0 with h0 | h0
    · rw [h0]; simp
    · have hpi := Real.pi_ne_zero
      field_simp
  · simp only [kernelValue]
    rw [hr]
    rcases eq_or_ne (Real.sqrt (∑ a, (x a - y a) ^ 2)) 0 with h0 | h0
    · rw [h0]; simp
    · have hpi := Real.pi_ne_zero
      field_simp

/-- Power of the scale by which the matrix of a kernel is multiplied. -/
def scaleOf (s : ℝ) : Ker → ℝ
  | .double => 1
  | .single => s

theorem term_moved (hQ : Q.transpose * Q = 1) (hs : 0 < s) (ker : Ker) {x y n x' y' n' : V3} (hx : Moved Q s b x x') (hy : Moved Q s b y y')
    (hn : Turned Q n n') (v w w' : ℝ) (hw : w' = s ^ 2 * w) :
    kernelValue ker x' y' n' * v * w' = scaleOf s ker * (kernelValue ker x y n * v * w) := by
  obtain ⟨h1, h2⟩ := kernelValue_moved hQ hs hx hy hn
  cases ker with
  | double => rw [h1, hw, scaleOf]; field_simp
  | single => rw [h2, hw, scaleOf]; field_simp

variable {inp : Input 3} {pos' : ℕ → Octree.Pt 3} {qpos' : ℕ × ℕ → Octree.Pt 3} {D D' : Data} {S S' S₁ S₁' : SingRule}

theorem similar_cellIntegral (hQ : Q.transpose * Q = 1) (hs : 0 < s) (h : Similar Q s b inp (moveInput inp pos' qpos') D D' S' S₁')
    (ker : Ker) (i c j : ℕ) :
    cellIntegral (moveInput inp pos' qpos') D' S₁' ker i c j = scaleOf s ker * cellIntegral inp D S' ker i c j := by
  unfold cellIntegral
  show (if h : ∃ s, s < (inp.cellDofs c).length ∧ (inp.cellDofs c).getD s 0 ∈ inp.doubles i then _ else _) = _
  split_ifs with hex
  · have hl := h.sing c (Nat.find hex)
    show ((S₁' c (Nat.find hex)).map fun P => kernelValue ker (toV ((moveInput inp pos' qpos').pos i)) P.pos P.normal * P.shape j * P.jxw).sum = _
    generalize S₁' c (Nat.find hex) = l' at hl
    generalize S' c (Nat.find hex) = l at hl
    induction hl with
    | nil => simp
    | cons hp _ ih =>
      rw [List.map_cons, List.sum_cons, List.map_cons, List.sum_cons, mul_add, ih, hp.2.2.1,
        term_moved hQ hs ker (h.pos i) hp.1 hp.2.1 _ _ _ hp.2.2.2]
  · rw [Finset.mul_sum]
    refine Finset.sum_congr rfl fun q _ => ?_
    rw [h.shape, term_moved hQ hs ker (h.pos i) (h.qpos (c, q)) (h.normal (c, q)) _ _ _ (h.jxw (c, q))]

/-- **C85** (matrices). Dense method: the double layer matrix is the same for similar geometries, the single layer matrix is
multiplied by the ratio of the lengths; whatever the partitions. -/
theorem C85_matrices (hQ : Q.transpose * Q = 1) (hs : 0 < s) (h : Similar Q s b inp (moveInput inp pos' qpos') D D' S' S₁')
    (S S₁ : SingRule) (owner owner' : ℕ → ℕ) (i k : Fin inp.nDofs) :
    solveMatrix (moveInput inp pos' qpos') D' S₁ S₁' .direct owner' .double i k = solveMatrix inp D S S' .direct owner .double i k ∧
    solveMatrix (moveInput inp pos' qpos') D' S₁ S₁' .direct owner' .single i k = s * solveMatrix inp D S S' .direct owner .single i k := by
  have key : ∀ ker, solveMatrix (moveInput inp pos' qpos') D' S₁ S₁' .direct owner' ker i k =
      scaleOf s ker * solveMatrix inp D S S' .direct owner ker i k := by
    intro ker
    simp only [solveMatrix]
    rw [C64_dense_entry (moveInput inp pos' qpos') D' S₁' ker _ i i.isLt (by simp) k, C64_dense_entry inp D S' ker _ i i.isLt (by simp) k, Finset.mul_sum]
    refine Finset.sum_congr rfl fun c _ => ?_
    rw [Finset.mul_sum]
    refine Finset.sum_congr rfl fun j _ => ?_
    rw [similar_cellIntegral hQ hs h]
    show (if (inp.cellDofs c).getD j 0 = k then _ else _) = _
    split_ifs <;> simp
  refine ⟨?_, key .single⟩
  rw [key, scaleOf, one_mul]

/-! ## Results -/

variable {d : ℕ}

/-- Boundary conditions of similar problems: the same potential at Dirichlet nodes `B`, normal derivatives divided by the ratio of
the lengths at the others, turned normals, turned and rescaled surface gradients, the same double nodes and options. Partition,
number of processes and order of the constraints are unrelated. -/
structure SetupSimilar (Q : Matrix (Fin 3) (Fin 3) ℝ) (s : ℝ) {n : ℕ} (C C' : Setup n 3) (B : Finset (Fin n)) : Prop where
  dirichlet : ∀ i ∈ B, C'.nodes.tmpRhs i = C.nodes.tmpRhs i
  neumann : ∀ i, i ∉ B → C'.nodes.tmpRhs i = C.nodes.tmpRhs i / s
  normal : ∀ i, Turned Q (C.nodes.normal i) (C'.nodes.normal i)
  surfGrad : ∀ i, Turned Q (fun a => C.nodes.surfGrad i a / s) (C'.nodes.surfGrad i)
  grad : C'.nodes.continuosGradient = C.nodes.continuosGradient
  doubles : C'.doubles = C.doubles

theorem similar_normalGradient (hQ : Q.transpose * Q = 1) {n : ℕ} {C C' : Setup n 3} {B : Finset (Fin n)} (hC : SetupSimilar Q s C C' B)
    (i j : Fin n) : thisNormalGradient C'.nodes i j = (thisNormalGradient C.nodes i j).map (· / s) := by
  have h1 : dot (C'.nodes.normal i) (C'.nodes.normal j) = dot (C.nodes.normal i) (C.nodes.normal j) :=
    turned_dot hQ (hC.normal i) (hC.normal j)
  have h2 : ∀ i j, dot (C'.nodes.surfGrad i) (C'.nodes.normal j) = dot (C.nodes.surfGrad i) (C.nodes.normal j) / s := by
    intro i j
    unfold dot
    rw [turned_dot hQ (hC.surfGrad i) (hC.normal j), Finset.sum_div]
    exact Finset.sum_congr rfl fun a _ => by ring
  unfold thisNormalGradient
  rw [h1, h2, h2]
  unfold fdiv
  split_ifs
  · rfl
  · simp only [Option.map_some]
    congr 1
    ring

theorem Consistent.similar (hQ : Q.transpose * Q = 1) {n : ℕ} {C C' : Setup n 3} {B : Finset (Fin n)} (hC : SetupSimilar Q s C C' B)
    (h : Consistent C B) : Consistent C' B := by
  constructor
  · intro i hi j hj hjB
    rw [hC.dirichlet i hi, hC.dirichlet j hjB]
    exact h.agree i hi j (hC.doubles ▸ hj) hjB
  · intro hg i hi j hj hjB hne
    rw [hC.doubles] at hj ⊢
    have h1 : dot (C'.nodes.normal i) (C'.nodes.normal j) = dot (C.nodes.normal i) (C.nodes.normal j) :=
      turned_dot hQ (hC.normal i) (hC.normal j)
    rw [h1]
    obtain ⟨h2, h3⟩ := h.sharp (hC.grad ▸ hg) i hi j hj hjB hne
    refine ⟨h2, fun k hk hkB hki => ?_⟩
    rw [similar_normalGradient hQ hC, similar_normalGradient hQ hC, h3 k (hC.doubles ▸ hk) hkB hki]

/-- The matrices of two runs are related: the double layer is multiplied by `r`, the single layer by `r` and by the ratio `s` of the lengths. -/
def MatricesRelated (r s : ℝ) {n : ℕ} (A A' : Ker → Mat n) : Prop :=
  ∀ i k, A' .double i k = r * A .double i k ∧ A' .single i k = r * (s * A .single i k)

/-- The matrices of two runs are related as those of similar problems: the same double layer, the single layer multiplied by `s`. -/
def MatricesSimilar (s : ℝ) {n : ℕ} (A A' : Ker → Mat n) : Prop := ∀ i k, A' .double i k = A .double i k ∧ A' .single i k = s * A .single i k

theorem MatricesSimilar.related {n : ℕ} {A A' : Ker → Mat n} (h : MatricesSimilar s A A') : MatricesRelated 1 s A A' :=
  fun i k => ⟨by rw [one_mul, (h i k).1], by rw [one_mul, (h i k).2]⟩

theorem exact_of_related {r : ℝ} (hr : r ≠ 0) (hQ : Q.transpose * Q = 1) (hs : s ≠ 0)
    (C C' : Setup inp.nDofs 3) (gmres gmres' : (Vec inp.nDofs → Vec inp.nDofs) → Vec inp.nDofs → Vec inp.nDofs)
    (l l' : List (ℕ × ℕ)) (st st' : AlphaStatics) (phi0 dphi0 phi0' dphi0' : Vec inp.nDofs) (X X' : Solution inp.nDofs)
    (h : solve inp D S S' C gmres (alphaHistory l) phi0 dphi0 = (st, some X))
    (h' : solve (moveInput inp pos' qpos') D' S₁ S₁' C' gmres' (alphaHistory l') phi0' dphi0' = (st', some X'))
    (B : Finset (Fin inp.nDofs)) (hC : SetupSimilar Q s C C' B)
    (hM : MatricesRelated r s (fun ker => solveMatrix inp D S S' C.method C.owner ker)
      (fun ker => solveMatrix (moveInput inp pos' qpos') D' S₁ S₁' C'.method C'.owner ker))
    (hP : Posed inp C B phi0 dphi0) (hP' : Posed (moveInput inp pos' qpos') C' B phi0' dphi0')
    (hdata : Consistent C B) (hphi : ∀ i, X'.phi i = X.phi i) (hdphi : ∀ i, X'.dphi i = X.dphi i / s) :
    (∀ i, X'.residual i = 0) ↔ ∀ i, X.residual i = 0 := by
  have hdata' := hdata.similar hQ hC
  rw [C82_exact_solutions inp D S S' C gmres l st phi0 dphi0 X h B hP hdata.sharp hdata.agree]
  refine (C82_exact_solutions (moveInput inp pos' qpos') D' S₁ S₁' C' gmres' l' st' phi0' dphi0' X' h' B hP' hdata'.sharp hdata'.agree).trans ?_
  have hG : ∀ i, GradientNode C' B i ↔ GradientNode C B i := by
    intro i
    unfold GradientNode
    rw [hC.grad, hC.doubles]
  have hres : ∀ i : Fin inp.nDofs, methodResidual (moveInput inp pos' qpos') D' S₁ S₁' C'.method C'.owner X'.phi X'.dphi i =
      r * methodResidual inp D S S' C.method C.owner X.phi X.dphi i := by
    intro i
    unfold methodResidual
    rw [mul_sub, Finset.mul_sum, Finset.mul_sum]
    refine congrArg₂ (· - ·) (Finset.sum_congr rfl fun (k : Fin inp.nDofs) _ => ?_) (Finset.sum_congr rfl fun (k : Fin inp.nDofs) _ => ?_)
    · have e1 := (hM i k).1
      have e2 := hphi k
      have e3 := hphi i
      dsimp only at e1
      rw [e1, e2, e3, mul_assoc]
    · have e1 := (hM i k).2
      have e2 := hdphi k
      dsimp only at e1
      rw [e1, e2]
      field_simp
  refine and_congr ?_ (and_congr ?_ ?_)
  · refine forall_congr' fun (i : Fin inp.nDofs) => ?_
    exact imp_congr (not_congr (hG i)) (by rw [show _ = _ from hres i, mul_eq_zero, or_iff_right hr])
  · rw [hC.doubles]
    refine forall_congr' fun (i : Fin inp.nDofs) => forall₂_congr fun (j : Fin inp.nDofs) _ => ?_
    have e1 := hphi j
    have e2 := hphi i
    rw [e1, e2]
  · rw [hC.grad, hC.doubles]
    refine forall_congr' fun _ => forall₂_congr fun (i : Fin inp.nDofs) _ => forall₂_congr fun (j : Fin inp.nDofs) _ =>
      forall₂_congr fun _ _ => ?_
    have e1 := similar_normalGradient hQ hC i j
    have e2 := hdphi i
    show (@thisNormalGradient inp.nDofs 3 C'.nodes i j = some (X'.dphi i)) ↔ _
    rw [e1, e2]
    cases thisNormalGradient C.nodes i j with
    | none => simp
    | some g =>
      simp only [Option.map_some, Option.some.injEq]
      exact div_left_inj' hs

theorem exact_of_matrices (hQ : Q.transpose * Q = 1) (hs : 0 < s)
    (C C' : Setup inp.nDofs 3) (gmres gmres' : (Vec inp.nDofs → Vec inp.nDofs) → Vec inp.nDofs → Vec inp.nDofs)
    (l l' : List (ℕ × ℕ)) (st st' : AlphaStatics) (phi0 dphi0 phi0' dphi0' : Vec inp.nDofs) (X X' : Solution inp.nDofs)
    (h : solve inp D S S' C gmres (alphaHistory l) phi0 dphi0 = (st, some X))
    (h' : solve (moveInput inp pos' qpos') D' S₁ S₁' C' gmres' (alphaHistory l') phi0' dphi0' = (st', some X'))
    (B : Finset (Fin inp.nDofs)) (hC : SetupSimilar Q s C C' B)
    (hM : MatricesSimilar s (fun ker => solveMatrix inp D S S' C.method C.owner ker)
      (fun ker => solveMatrix (moveInput inp pos' qpos') D' S₁ S₁' C'.method C'.owner ker))
    (hP : Posed inp C B phi0 dphi0) (hP' : Posed (moveInput inp pos' qpos') C' B phi0' dphi0')
    (hdata : Consistent C B) (hphi : ∀ i, X'.phi i = X.phi i) (hdphi : ∀ i, X'.dphi i = X.dphi i / s) :
    (∀ i, X'.residual i = 0) ↔ ∀ i, X.residual i = 0 :=
  exact_of_related one_ne_zero hQ hs.ne' C C' gmres gmres' l l' st st' phi0 dphi0 phi0' dphi0' X X' h h' B hC hM.related hP hP' hdata hphi hdphi

/-- **C85** (exactness). Dense method. Of two runs on similar problems holding the same potential, and normal derivatives
related by the ratio of the lengths, both are exact or both are not. -/
theorem C85_exact (hQ : Q.transpose * Q = 1) (hs : 0 < s) (hsim : Similar Q s b inp (moveInput inp pos' qpos') D D' S' S₁')
    (C C' : Setup inp.nDofs 3) (gmres gmres' : (Vec inp.nDofs → Vec inp.nDofs) → Vec inp.nDofs → Vec inp.nDofs)
    (l l' : List (ℕ × ℕ)) (st st' : AlphaStatics) (phi0 dphi0 phi0' dphi0' : Vec inp.nDofs) (X X' : Solution inp.nDofs)
    (h : solve inp D S S' C gmres (alphaHistory l) phi0 dphi0 = (st, some X))
    (h' : solve (moveInput inp pos' qpos') D' S₁ S₁' C' gmres' (alphaHistory l') phi0' dphi0' = (st', some X'))
    (B : Finset (Fin inp.nDofs)) (hC : SetupSimilar Q s C C' B) (hm : C.method = .direct) (hm' : C'.method = .direct)
    (hP : Posed inp C B phi0 dphi0) (hP' : Posed (moveInput inp pos' qpos') C' B phi0' dphi0')
    (hdata : Consistent C B) (hphi : ∀ i, X'.phi i = X.phi i) (hdphi : ∀ i, X'.dphi i = X.dphi i / s) :
    (∀ i, X'.residual i = 0) ↔ ∀ i, X.residual i = 0 := by
  refine exact_of_matrices hQ hs C C' gmres gmres' l l' st st' phi0 dphi0 phi0' dphi0' X X' h h' B hC ?_ hP hP' hdata hphi hdphi
  rw [hm, hm']
  exact C85_matrices hQ hs hsim S S₁ C.owner C'.owner

theorem same_result_of_related {r : ℝ} (hr : r ≠ 0) (hQ : Q.transpose * Q = 1) (hs : s ≠ 0)
    (C C' : Setup inp.nDofs 3) (gmres gmres' : (Vec inp.nDofs → Vec inp.nDofs) → Vec inp.nDofs → Vec inp.nDofs)
    (l l' : List (ℕ × ℕ)) (st st' : AlphaStatics) (phi0 dphi0 phi0' dphi0' : Vec inp.nDofs) (X X' : Solution inp.nDofs)
    (h : solve inp D S S' C gmres (alphaHistory l) phi0 dphi0 = (st, some X))
    (h' : solve (moveInput inp pos' qpos') D' S₁ S₁' C' gmres' (alphaHistory l') phi0' dphi0' = (st', some X'))
    (B : Finset (Fin inp.nDofs)) (hC : SetupSimilar Q s C C' B)
    (hM : MatricesRelated r s (fun ker => solveMatrix inp D S S' C.method C.owner ker)
      (fun ker => solveMatrix (moveInput inp pos' qpos') D' S₁ S₁' C'.method C'.owner ker))
    (hP : Posed inp C B phi0 dphi0) (hP' : Posed (moveInput inp pos' qpos') C' B phi0' dphi0')
    (hdata : Consistent C B) (hdet : Determined inp D S S' C (alphaHistory l) phi0 dphi0)
    (hX : ∀ i, X.residual i = 0) (hX' : ∀ i, X'.residual i = 0) (i : Fin inp.nDofs) :
    X'.phi i = X.phi i ∧ X'.dphi i = X.dphi i / s := by
  obtain ⟨Y, hY, hsol⟩ := solve_any h (fun i => if i ∈ B then s * X'.sol i else X'.sol i)
  obtain ⟨-, -, p1, p2, -⟩ := solve_rows hY B hP.dirichlet hP.neumann hP.bc hP.phi hP.dphi
  obtain ⟨-, -, q1, q2, -⟩ := solve_rows h' B hP'.dirichlet hP'.neumann hP'.bc hP'.phi hP'.dphi
  replace q1 : X'.phi = @merge inp.nDofs B C'.nodes.tmpRhs X'.sol := q1
  replace q2 : X'.dphi = @merge inp.nDofs B X'.sol C'.nodes.tmpRhs := q2
  have e1 : ∀ i, X'.phi i = Y.phi i := by
    intro i
    rw [p1, q1]
    by_cases hi : i ∈ B
    · simp only [merge, hi, if_true, hC.dirichlet i hi]
    · simp only [merge, hi, if_false, hsol]
  have e2 : ∀ i, X'.dphi i = Y.dphi i / s := by
    intro i
    rw [p2, q2]
    by_cases hi : i ∈ B
    · simp only [merge, hi, if_true, hsol]
      field_simp
    · simp only [merge, hi, if_false, hC.neumann i hi]
  have hres := (exact_of_related hr hQ hs C C' _ gmres' l l' st st' phi0 dphi0 phi0' dphi0' Y X' hY h' B hC hM hP hP' hdata e1 e2).1 hX'
  obtain ⟨f1, f2⟩ := hdet _ _ _ _ Y X hY h hres hX
  rw [e1, e2, f1, f2]
  exact ⟨rfl, rfl⟩

theorem same_result_of_matrices (hQ : Q.transpose * Q = 1) (hs : 0 < s)
    (C C' : Setup inp.nDofs 3) (gmres gmres' : (Vec inp.nDofs → Vec inp.nDofs) → Vec inp.nDofs → Vec inp.nDofs)
    (l l' : List (ℕ × ℕ)) (st st' : AlphaStatics) (phi0 dphi0 phi0' dphi0' : Vec inp.nDofs) (X X' : Solution inp.nDofs)
    (h : solve inp D S S' C gmres (alphaHistory l) phi0 dphi0 = (st, some X))
    (h' : solve (moveInput inp pos' qpos') D' S₁ S₁' C' gmres' (alphaHistory l') phi0' dphi0' = (st', some X'))
    (B : Finset (Fin inp.nDofs)) (hC : SetupSimilar Q s C C' B)
    (hM : MatricesSimilar s (fun ker => solveMatrix inp D S S' C.method C.owner ker)
      (fun ker => solveMatrix (moveInput inp pos' qpos') D' S₁ S₁' C'.method C'.owner ker))
    (hP : Posed inp C B phi0 dphi0) (hP' : Posed (moveInput inp pos' qpos') C' B phi0' dphi0')
    (hdata : Consistent C B) (hdet : Determined inp D S S' C (alphaHistory l) phi0 dphi0)
    (hX : ∀ i, X.residual i = 0) (hX' : ∀ i, X'.residual i = 0) (i : Fin inp.nDofs) :
    X'.phi i = X.phi i ∧ X'.dphi i = X.dphi i / s :=
  same_result_of_related one_ne_zero hQ hs.ne' C C' gmres gmres' l l' st st' phi0 dphi0 phi0' dphi0' X X' h h' B hC hM.related hP hP' hdata hdet hX hX' i

/-- **C85** (results). Dense method. If the linear system of one run is regular, exact solves of two similar problems, with any
partitions, numbers of processes and linear solvers, give the same potential at every node, and normal derivatives divided by
the ratio of the lengths. -/
theorem C85_same_result (hQ : Q.transpose * Q = 1) (hs : 0 < s) (hsim : Similar Q s b inp (moveInput inp pos' qpos') D D' S' S₁')
    (C C' : Setup inp.nDofs 3) (gmres gmres' : (Vec inp.nDofs → Vec inp.nDofs) → Vec inp.nDofs → Vec inp.nDofs)
    (l l' : List (ℕ × ℕ)) (st st' : AlphaStatics) (phi0 dphi0 phi0' dphi0' : Vec inp.nDofs) (X X' : Solution inp.nDofs)
    (h : solve inp D S S' C gmres (alphaHistory l) phi0 dphi0 = (st, some X))
    (h' : solve (moveInput inp pos' qpos') D' S₁ S₁' C' gmres' (alphaHistory l') phi0' dphi0' = (st', some X'))
    (B : Finset (Fin inp.nDofs)) (hC : SetupSimilar Q s C C' B) (hm : C.method = .direct) (hm' : C'.method = .direct)
    (hP : Posed inp C B phi0 dphi0) (hP' : Posed (moveInput inp pos' qpos') C' B phi0' dphi0')
    (hdata : Consistent C B) (hdet : Determined inp D S S' C (alphaHistory l) phi0 dphi0)
    (hX : ∀ i, X.residual i = 0) (hX' : ∀ i, X'.residual i = 0) (i : Fin inp.nDofs) :
    X'.phi i = X.phi i ∧ X'.dphi i = X.dphi i / s := by
  refine same_result_of_matrices hQ hs C C' gmres gmres' l l' st st' phi0 dphi0 phi0' dphi0' X X' h h' B hC ?_ hP hP' hdata hdet hX hX' i
  rw [hm, hm']
  exact C85_matrices hQ hs hsim S S₁ C.owner C'.owner

/-! ## Double nodes -/

theorem moved_pdist (hQ : Q.transpose * Q = 1) (hs : 0 < s) {x y x' y' : Fin 3 → ℝ} (hx : Moved Q s b x x') (hy : Moved Q s b y y') :
    pdist x' y' = s * pdist x y := by
  have ht : Turned Q (fun e => s * (x e - y e)) (fun e => x' e - y' e) := by
    intro a
    have h1 := hx a
    have h2 := hy a
    simp only [Fin.sum_univ_three] at h1 h2 ⊢
    rw [h1, h2]
    ring
  unfold pdist
  have : ∑ a, (x' a - y' a) ^ 2 = s ^ 2 * ∑ a, (x a - y a) ^ 2 := by
    have := turned_dot hQ ht ht
    rw [Finset.mul_sum]
    simp only [Fin.sum_univ_three] at this ⊢
    linear_combination this
  rw [this, Real.sqrt_mul (by positivity), Real.sqrt_sq hs.le]

/-- **C85** (double nodes). The double nodes of the moved surface are those of the original one for a tolerance divided by the ratio of the
lengths; in particular rigid motions do not change the double nodes. -/
theorem C85_double_nodes (hQ : Q.transpose * Q = 1) (hs : 0 < s) {n : ℕ} (tol : ℝ) (edge : List (Fin n)) {pts pts' : Fin n → Fin 3 → ℝ}
    (h : ∀ i, Moved Q s b (pts i) (pts' i)) :
    doubleNodes tol edge pts' = doubleNodes (tol / s) edge pts ∧ (s = 1 → doubleNodes tol edge pts' = doubleNodes tol edge pts) := by
  have key : doubleNodes tol edge pts' = doubleNodes (tol / s) edge pts := by
    funext i
    ext j
    rw [mem_doubleNodes, mem_doubleNodes, moved_pdist hQ hs (h i) (h j), lt_div_iff₀' hs]
  exact ⟨key, fun h1 => by rw [key, h1, div_one]⟩

/-- **C85** (unit of length, refuted). The tolerance `1e-10` is absolute: any two edge nodes at different positions become double nodes of each
other in a larger unit of length, although they are not in a smaller one. -/
theorem C85_units_refuted {n : ℕ} (edge : List (Fin n)) (pts : Fin n → Fin 3 → ℝ) (i j : Fin n) (hi : i ∈ edge) (hj : j ∈ edge)
    (hne : pts i ≠ pts j) : ∃ s s' : ℝ, 0 < s ∧ 0 < s' ∧
      j ∈ doubleNodes 1e-10 edge (fun k a => s * pts k a) i ∧ j ∉ doubleNodes 1e-10 edge (fun k a => s' * pts k a) i := by
  have hm : ∀ (s : ℝ) (k : Fin n), Moved 1 s 0 (pts k) (fun a => s * pts k a) := by
    intro s k a
    simp [Matrix.one_apply]
  have hij : j ≠ i := fun h => hne (by rw [h])
  have hpos : 0 < pdist (pts i) (pts j) := by
    refine Real.sqrt_pos.2 ?_
    obtain ⟨a, ha⟩ := Function.ne_iff.1 hne
    exact Finset.sum_pos' (fun _ _ => sq_nonneg _) ⟨a, Finset.mem_univ a, by have := sub_ne_zero.2 ha; positivity⟩
  have key : ∀ s : ℝ, 0 < s → (j ∈ doubleNodes 1e-10 edge (fun k a => s * pts k a) i ↔ s * pdist (pts i) (pts j) < 1e-10) := by
    intro s hs
    rw [mem_doubleNodes, moved_pdist (by simp) hs (hm s i) (hm s j)]
    constructor
    · rintro (h | h)
      · exact absurd h hij
      · exact h.2.2
    · exact fun h => Or.inr ⟨hi, hj, h⟩
  refine ⟨1e-11 / pdist (pts i) (pts j), 1 / pdist (pts i) (pts j), by positivity, by positivity, ?_, ?_⟩
  · rw [key _ (by positivity), div_mul_cancel₀ _ hpos.ne']
    norm_num
  · rw [key _ (by positivity), div_mul_cancel₀ _ hpos.ne']
    norm_num

/-! ## Every problem has moved copies -/

/-- The normals and areas of the moved surface. -/
def movedData (Q : Matrix (Fin 3) (Fin 3) ℝ) (s : ℝ) (D : Data) : Data :=
  { D with normal := fun q a => ∑ e, Q a e * D.normal q e, jxw := fun q => s ^ 2 * D.jxw q }

/-- The singular quadratures of the moved surface. -/
def movedRule (Q : Matrix (Fin 3) (Fin 3) ℝ) (s : ℝ) (b : Fin 3 → ℝ) (S : SingRule) : SingRule :=
  fun c j => (S c j).map fun P => { pos := fun a => s * ∑ e, Q a e * P.pos e + b a, normal := fun a => ∑ e, Q a e * P.normal e,
                                    shape := P.shape, jxw := s ^ 2 * P.jxw }

/-- The rational point `x` moved by a rational similarity. -/
def movedPt (R : Matrix (Fin 3) (Fin 3) ℚ) (t : ℚ) (b : Octree.Pt 3) (x : Octree.Pt 3) : Octree.Pt 3 := fun a => t * ∑ e, R a e * x e + b a

theorem movedPt_moved (R : Matrix (Fin 3) (Fin 3) ℚ) (t : ℚ) (b x : Octree.Pt 3) :
    Moved (R.map fun q => (q : ℝ)) t (toV b) (toV x) (toV (movedPt R t b x)) := by
  intro a
  simp [toV, movedPt, Matrix.map_apply, Fin.sum_univ_three]

theorem similar_moved (R : Matrix (Fin 3) (Fin 3) ℚ) (t : ℚ) (b : Octree.Pt 3) (inp : Input 3) (D : Data) (S : SingRule) :
    Similar (R.map fun q => (q : ℝ)) t (toV b) inp
      (moveInput inp (fun i => movedPt R t b (inp.pos i)) (fun q => movedPt R t b (inp.qpos q))) D
      (movedData (R.map fun q => (q : ℝ)) t D) S (movedRule (R.map fun q => (q : ℝ)) t (toV b) S) := by
  refine ⟨fun i => movedPt_moved R t b _, fun q => movedPt_moved R t b _, fun q a => rfl, fun q => rfl, fun q => rfl, fun c j => ?_⟩
  unfold movedRule
  rw [List.forall₂_map_right_iff, List.forall₂_same]
  exact fun P _ => ⟨fun a => rfl, fun a => rfl, rfl, rfl⟩

/-- Rotation with entries 3/5, 4/5. -/
def rot35 : Matrix (Fin 3) (Fin 3) ℚ := !![3 / 5, -4 / 5, 0; 4 / 5, 3 / 5, 0; 0, 0, 1]

theorem rot35_orthogonal : (rot35.map fun q => (q : ℝ)).transpose * (rot35.map fun q => (q : ℝ)) = 1 := by
  ext i j
  fin_cases i <;> fin_cases j <;> simp [rot35, Matrix.mul_apply, Fin.sum_univ_three] <;> norm_num

/-- The edge of `edgeNodes`, rotated and twice as large. -/
def edgeMoved : NodeData 2 3 where
  dirichlet := fun _ => 1
  tmpRhs := fun _ => 5
  normal := fun i a => ∑ e, (rot35 a e : ℝ) * (edgeNodes id).normal i e
  surfGrad := fun i a => ∑ e, (rot35 a e : ℝ) * ((edgeNodes id).surfGrad i e / 2)
  continuosGradient := true

theorem edge_similar (m : Method) (procs procs' : ℕ) : SetupSimilar (rot35.map fun q => (q : ℝ)) 2 (pointSetup m procs (edgeNodes id))
    (pointSetup m procs' edgeMoved) Finset.univ :=
  ⟨fun _ _ => rfl, fun i hi => absurd (Finset.mem_univ i) hi, fun _ _ => rfl, fun _ _ => rfl, rfl, rfl⟩

theorem put_posed {pos' : ℕ → Octree.Pt 3} (qpos' : ℕ × ℕ → Octree.Pt 3) {n : ℕ} (hpos : ∀ i j, pos' i = pos' j) (m : Method) (procs : ℕ) (N : NodeData n 3)
    (hN : ∀ i, N.dirichlet i = 1) (dphi0 : Vec n) :
    Posed (moveInput (pointInput n 1) pos' qpos')
      (pointSetup m procs N) Finset.univ N.tmpRhs dphi0 where
  dirichlet := fun i => by rw [if_pos (Finset.mem_univ i)]; exact hN i
  neumann := fun i => by rw [if_pos (Finset.mem_univ i)]; rfl
  bc := rfl
  phi := fun _ _ => rfl
  dphi := fun i hi => absurd (Finset.mem_univ i) hi
  refl := fun i => Finset.mem_univ i
  eq := fun _ _ _ => rfl
  coincide := fun i j _ => ⟨hpos _ _, rfl⟩
  hanging := fun _ => rfl
  order := fun i => List.mem_finRange i

theorem put_exact {pos' : ℕ → Octree.Pt 3} (qpos' : ℕ × ℕ → Octree.Pt 3) {n : ℕ} (hpos : ∀ i j, pos' i = pos' j) (hn : 2 ≤ n) (D : Data) (S S' : SingRule) (m : Method)
    (procs : ℕ) (N : NodeData n 3) (hN : ∀ i, N.dirichlet i = 1) (hg : N.continuosGradient = true) (x dphi0 : Vec n)
    (hx : DoubleNodes N (fun _ => Finset.univ) x) :
    ∃ st, ∃ X : Solution n, solve (moveInput (pointInput n 1) pos' qpos') D S S' (pointSetup m procs N) (fun _ _ => x) (alphaHistory []) N.tmpRhs dphi0 =
      (st, some X) ∧ (∀ i, X.residual i = 0) ∧ X.dphi = x := by
  have hP := put_posed qpos' hpos m procs N hN dphi0
  obtain ⟨st, X0, h0⟩ := solve_some (inp := moveInput (pointInput n 1) pos' qpos') (D := D) (S := S) (S' := S') (C := pointSetup m procs N) (gmres := fun _ _ => x)
      (st := alphaHistory []) (phi0 := N.tmpRhs) (dphi0 := dphi0)
      (by
        have : 0 ≠ n := by omega
        simp [alphaHistory, alphaStaticsStep, AlphaStatics.init, pointInput, moveInput, pointSetup, this]) (point_lines m procs N hN)
  obtain ⟨X, h, hsol⟩ := solve_any h0 x
  obtain ⟨c, hc, h1, h2, h3, h4⟩ := solve_rows h Finset.univ hP.dirichlet hP.neumann hP.bc hP.phi hP.dphi
  obtain ⟨hl, hdom, -⟩ := C75_constraints N (fun _ => Finset.univ) (by simp) (by simp) (fun i => Or.inr (hN i))
    (fun _ => none) 1 (List.finRange n) (fun i => List.mem_finRange i) hc
  have hlines := (hl x).2 ⟨hx, fun i hs hi => by cases hi⟩
  refine ⟨st, X, h, fun (i : Fin n) => ?_, ?_⟩
  · have hci : (c i).isSome := by
      refine (hdom i).2 ?_
      right; right; right
      refine ⟨hN i, hg, ?_⟩
      have : Nontrivial (Fin n) := Fin.nontrivial_iff_two_le.2 hn
      obtain ⟨j, hj⟩ := exists_ne i
      exact ⟨j, Finset.mem_univ j, hj, hN j⟩
    obtain ⟨⟨es, g⟩, hi⟩ := Option.isSome_iff_exists.1 hci
    obtain ⟨v, hv, e⟩ := hlines i es g hi
    have := h4 i es g hi
    rw [hsol, hv, Option.getD_some] at this
    have key : ∀ {a s r : ℝ}, a = s → a = s - r → r = 0 := by intro a s r h1 h2; linarith
    exact key e this
  · rw [h2, hsol]
    funext (i : Fin n)
    exact if_pos (Finset.mem_univ i)

theorem moved_posed (R : Matrix (Fin 3) (Fin 3) ℚ) (t : ℚ) (b : Octree.Pt 3) {n : ℕ} (m : Method) (procs : ℕ) (N : NodeData n 3)
    (hN : ∀ i, N.dirichlet i = 1) (dphi0 : Vec n) :
    Posed (moveInput (pointInput n 1) (fun i => movedPt R t b ((pointInput n 1).pos i)) (fun q => movedPt R t b ((pointInput n 1).qpos q)))
      (pointSetup m procs N) Finset.univ N.tmpRhs dphi0 :=
  put_posed _ (fun _ _ => rfl) m procs N hN dphi0

theorem moved_exact (R : Matrix (Fin 3) (Fin 3) ℚ) (t : ℚ) (b : Octree.Pt 3) {n : ℕ} (hn : 2 ≤ n) (D : Data) (S S' : SingRule) (m : Method)
    (procs : ℕ) (N : NodeData n 3) (hN : ∀ i, N.dirichlet i = 1) (hg : N.continuosGradient = true) (x dphi0 : Vec n)
    (hx : DoubleNodes N (fun _ => Finset.univ) x) :
    ∃ st, ∃ X : Solution n, solve (moveInput (pointInput n 1) (fun i => movedPt R t b ((pointInput n 1).pos i))
        (fun q => movedPt R t b ((pointInput n 1).qpos q))) D S S' (pointSetup m procs N) (fun _ _ => x) (alphaHistory []) N.tmpRhs dphi0 =
      (st, some X) ∧ (∀ i, X.residual i = 0) ∧ X.dphi = x :=
  put_exact _ (fun _ _ => rfl) hn D S S' m procs N hN hg x dphi0 hx

theorem edgeMoved_gradient {i j : Fin 2} (h : i ≠ j) : thisNormalGradient edgeMoved i j = some (if i = 0 then 7 / 2 else 3 / 2) := by
  have := similar_normalGradient rot35_orthogonal (edge_similar .direct 1 1) i j
  refine this.trans ?_
  show (thisNormalGradient (edgeNodes id) i j).map _ = _
  rw [edge_gradient (o := id) h, Option.map_some]
  congr 1
  by_cases hi : i = 0 <;> simp [hi]

theorem edgeMoved_doubleNodes : DoubleNodes edgeMoved (fun _ => Finset.univ) (fun i => if i = 0 then 7 / 2 else 3 / 2) := by
  refine ⟨by simp [edgeMoved], ?_, ?_, ?_⟩
  · intro i l h; have := h i (Finset.mem_univ i); simp [edgeMoved] at this
  · intro _ i l _ hl hne
    rw [otherNormalGradient_eq, edgeMoved_gradient hne]
  · intro _ i l hi hl hne
    rw [edgeMoved_gradient (Ne.symm hne)]

/-- All hypotheses of `C85_same_result` hold for the edge, on one process, and its image, rotated and twice as large, on two. -/
example (D : Data) (S S' S₁ : SingRule) : ∃ (pos' : ℕ → Octree.Pt 3) (qpos' : ℕ × ℕ → Octree.Pt 3) (D' : Data) (S₁' : SingRule)
    (Q : Matrix (Fin 3) (Fin 3) ℝ) (b : Fin 3 → ℝ) (C C' : Setup 2 3) (st st' : AlphaStatics) (X X' : Solution 2)
    (gmres gmres' : (Vec 2 → Vec 2) → Vec 2 → Vec 2) (phi0 : Vec 2),
    Q.transpose * Q = 1 ∧ Similar Q 2 b (pointInput 2 1) (moveInput (pointInput 2 1) pos' qpos') D D' S' S₁' ∧
    solve (pointInput 2 1) D S S' C gmres (alphaHistory []) phi0 0 = (st, some X) ∧
    solve (moveInput (pointInput 2 1) pos' qpos') D' S₁ S₁' C' gmres' (alphaHistory []) phi0 0 = (st', some X') ∧
    SetupSimilar Q 2 C C' Finset.univ ∧ C.method = .direct ∧ C'.method = .direct ∧ Posed (pointInput 2 1) C Finset.univ phi0 0 ∧
    Posed (moveInput (pointInput 2 1) pos' qpos') C' Finset.univ phi0 0 ∧
    Consistent C Finset.univ ∧ Determined (pointInput 2 1) D S S' C (alphaHistory []) phi0 0 ∧
    (∀ i, X.residual i = 0) ∧ (∀ i, X'.residual i = 0) ∧ X.dphi (0 : Fin 2) = 7 ∧ X'.dphi (0 : Fin 2) = 7 / 2 := by
  obtain ⟨st, X, e1, e2, e3⟩ := point_exact (σ := 1) le_rfl D S S' .direct 1 (edgeNodes id) (fun _ => rfl) rfl _ 0
    (edge_doubleNodes Function.injective_id)
  obtain ⟨st', X', f1, f2, f3⟩ := moved_exact rot35 2 ![1, 0, 0] le_rfl (movedData (rot35.map fun q => (q : ℝ)) (2 : ℚ) D) S₁
    (movedRule (rot35.map fun q => (q : ℝ)) (2 : ℚ) (toV ![1, 0, 0]) S') .direct 2 edgeMoved (fun _ => rfl) rfl _ 0 edgeMoved_doubleNodes
  refine ⟨_, _, _, _, rot35.map fun q => (q : ℝ), toV ![1, 0, 0], _, _, st, st', X, X', _, _, _, rot35_orthogonal, ?_, e1, f1,
    edge_similar .direct 1 2, rfl, rfl, point_posed .direct 1 _ (fun _ => rfl) 0, moved_posed rot35 2 _ .direct 2 _ (fun _ => rfl) 0,
    edge_consistent .direct 1 Function.injective_id, edge_determined D S S' .direct 1 Function.injective_id 0, e2, f2, ?_, ?_⟩
  · have := similar_moved rot35 2 ![1, 0, 0] (pointInput 2 1) D S'
    rwa [show (((2 : ℚ) : ℝ)) = 2 by norm_num] at this ⊢
  · rw [e3]; simp
  · rw [f3]; simp

end PiBem.Bem
