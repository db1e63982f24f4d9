import Verif.Bem.Plane
import Verif.Props.Motion
import Mathlib.Analysis.SpecialFunctions.Log.Basic

/-!
# C86: the dense method in dimension 2
-/

noncomputable section

namespace PiBem.Bem.Plane

open PiBem.Fmm (Ker)

/-! ## Specification -/

/-- The kernels of the plane: `-log r / 2π` and its derivative in the direction `n` at `y`. -/
def greenValue (ker : Ker) (x y n : V2) : ℝ :=
  let r := Real.sqrt (∑ a, (x a - y a) ^ 2)
  match ker with
  | .single => -Real.log r / (2 * Real.pi)
  | .double => (∑ a, (x a - y a) * n a) / (2 * Real.pi * r ^ 2)

open Classical in
/-- The quadrature of node `i` on cell `c`: if a local dof of the cell is a double of `i`, the first such dof selects the singular quadrature;
otherwise the regular one. -/
def ruleOf (K : Curve) (i c : ℕ) : List QPoint :=
  if h : ∃ s, s < (K.cellDofs c).length ∧ (K.cellDofs c).getD s 0 ∈ K.doubles i then K.sing c (Nat.find h) else K.quad c

/-- Integral over the curve of `f` times the shape function of node `k`, with the quadratures of node `i`. -/
def curveIntegral (K : Curve) (i k : ℕ) (f : QPoint → ℝ) : ℝ :=
  ∑ c ∈ Finset.range K.nCells, ∑ j ∈ Finset.range (K.cellDofs c).length,
    if (K.cellDofs c).getD j 0 = k then ((ruleOf K i c).map fun P => f P * P.shape j * P.jxw).sum else 0

/-- Layer potential at node `i` of the shape function of node `k`. -/
def layer (K : Curve) (ker : Ker) (i k : ℕ) : ℝ := curveIntegral K i k fun P => greenValue ker (K.pos i) P.pos P.normal

/-- Integral of the shape function of node `k`, with the quadratures of node `i`. -/
def moment (K : Curve) (i k : ℕ) : ℝ := curveIntegral K i k fun _ => 1

/-- Flux through the curve, with the quadratures of node `i`. -/
def flux (K : Curve) (dphi : Vec K.nDofs) (i : ℕ) : ℝ := ∑ k : Fin K.nDofs, moment K i k * dphi k

/-- Residual at node `i` of the boundary integral equation: double layer of `φ - φ_i` minus single layer of `∂φ/∂n`. -/
def bieResidual (K : Curve) (phi dphi : Vec K.nDofs) (i : Fin K.nDofs) : ℝ :=
  (∑ k : Fin K.nDofs, layer K .double i k * (phi k - phi i)) - ∑ k : Fin K.nDofs, layer K .single i k * dphi k

/-! ## Entries -/

variable {K : Curve}

theorem term_eq (ker : Ker) (i j : ℕ) (P : QPoint) : term K ker i j P = greenValue ker (K.pos i) P.pos P.normal * P.shape j * P.jxw := by
  have hn : Kernel.norm (fun a => P.pos a - K.pos i a) = Real.sqrt (∑ a, (K.pos i a - P.pos a) ^ 2) := by
    unfold Kernel.norm Kernel.square
    congr 1
    exact Finset.sum_congr rfl fun a _ => by ring
  cases ker with
  | single => simp only [term, Kernel.kernels2, greenValue, hn]
  | double =>
    simp only [term, Kernel.kernels2, greenValue, hn]
    congr 2
    generalize Real.sqrt (∑ a, (K.pos i a - P.pos a) ^ 2) = r
    rw [Fin.sum_univ_two]
    rcases eq_or_ne r 0 with h | h
    · simp [h]
    · have := Real.pi_ne_zero
      field_simp
      ring

theorem localRow_eq (ker : Ker) (i c j : ℕ) :
    localRow K ker i c j = ((ruleOf K i c).map fun P => greenValue ker (K.pos i) P.pos P.normal * P.shape j * P.jxw).sum := by
  unfold localRow ruleOf
  cases h : singularIndex K i c with
  | none =>
    unfold singularIndex at h
    rw [List.findIdx?_eq_none_iff] at h
    rw [dif_neg]
    · simp only [foldl_add_sum, zero_add, term_eq]
    · rintro ⟨s, hs, h1⟩
      rw [List.getD_eq_getElem _ _ hs] at h1
      have := h _ (List.getElem_mem hs)
      simp [h1] at this
  | some s =>
    unfold singularIndex at h
    rw [List.findIdx?_eq_some_iff_getElem] at h
    obtain ⟨hs, h1, h2⟩ := h
    have hex : ∃ s, s < (K.cellDofs c).length ∧ (K.cellDofs c).getD s 0 ∈ K.doubles i :=
      ⟨s, hs, by rw [List.getD_eq_getElem _ _ hs]; simpa using h1⟩
    have hf : Nat.find hex = s := by
      rw [Nat.find_eq_iff]
      refine ⟨⟨hs, by rw [List.getD_eq_getElem _ _ hs]; simpa using h1⟩, fun s' hs' hx => ?_⟩
      have := h2 s' hs'
      rw [List.getD_eq_getElem _ _ (hs'.trans hs)] at hx
      simp [hx.2] at this
    rw [dif_pos hex, hf]
    simp only [foldl_add_sum, zero_add, term_eq]

/-- contribution of a cell to an entry -/
def cellEntry (K : Curve) (ker : Ker) (i c k : ℕ) : ℝ :=
  ∑ j ∈ Finset.range (K.cellDofs c).length, if (K.cellDofs c).getD j 0 = k then
    ((ruleOf K i c).map fun P => greenValue ker (K.pos i) P.pos P.normal * P.shape j * P.jxw).sum else 0

theorem addCellRow_apply (ker : Ker) (c : ℕ) (M : Matr) (i r k : ℕ) :
    addCellRow K ker c M i r k = M r k + if r = i then cellEntry K ker i c k else 0 := by
  unfold addCellRow cellEntry
  rw [foldl_add_row, Fmm.sum_range_list]
  simp only [localRow_eq]

theorem foldl_rows (ker : Ker) (own : ℕ → Bool) (c : ℕ) (l : List ℕ) (hl : l.Nodup) (M : Matr) (r k : ℕ) :
    l.foldl (fun M i => if own i then addCellRow K ker c M i else M) M r k =
      M r k + if r ∈ l ∧ own r then cellEntry K ker r c k else 0 := by
  induction l generalizing M with
  | nil => simp
  | cons i l ih =>
    rw [List.foldl_cons, ih (List.nodup_cons.1 hl).2]
    have hi := (List.nodup_cons.1 hl).1
    by_cases ho : own i
    · simp only [ho, if_true, addCellRow_apply]
      by_cases hr : r = i
      · subst hr; simp [hi, ho]
      · simp [hr]
    · simp only [ho, Bool.false_eq_true, if_false]
      by_cases hr : r = i
      · subst hr; simp [hi, ho]
      · simp [hr]

theorem foldl_cells (ker : Ker) (own : ℕ → Bool) (l : List ℕ) (M : Matr) (r k : ℕ) :
    l.foldl (fun M c => (List.range K.nDofs).foldl
      (fun M i => if own i then addCellRow K ker c M i else M) M) M r k =
      M r k + (l.map fun c => if r < K.nDofs ∧ own r then cellEntry K ker r c k else 0).sum := by
  induction l generalizing M with
  | nil => simp
  | cons c l ih =>
    rw [List.foldl_cons, ih, foldl_rows _ _ _ _ List.nodup_range, List.map_cons, List.sum_cons]
    simp only [List.mem_range, add_assoc]

/-- **C86** (entries). Dimension 2: row `i` of the two matrices holds the layer potentials at node `i`, on the process owning the node; other rows stay zero. -/
theorem C86_entry (K : Curve) (ker : Ker) (own : ℕ → Bool) (i k : ℕ) :
    assemble K ker own i k = if i < K.nDofs ∧ own i then layer K ker i k else 0 := by
  unfold assemble
  rw [foldl_cells, Fmm.sum_range_list, zero_add]
  split_ifs with h
  · rfl
  · simp

theorem planeMatrix_eq (K : Curve) (owner : ℕ → ℕ) (ker : Ker) (i k : Fin K.nDofs) : planeMatrix K owner ker i k = layer K ker i k := by
  unfold planeMatrix
  rw [C86_entry, if_pos ⟨i.isLt, by simp⟩]

/-- **C86** (partition). The result of a run does not depend on the number of processes and on the distribution of the dofs. -/
theorem C86_partition (K : Curve) (C : Setup K.nDofs 2) (owner : ℕ → ℕ) (procs : ℕ)
    (gmres : (Vec K.nDofs → Vec K.nDofs) → Vec K.nDofs → Vec K.nDofs) (st : AlphaStatics) (phi0 dphi0 : Vec K.nDofs) :
    solve K { C with owner := owner, procs := procs } gmres st phi0 dphi0 = solve K C gmres st phi0 dphi0 := by
  have hM : ∀ ker, planeMatrix K owner ker = planeMatrix K C.owner ker := by
    intro ker
    funext i k
    rw [planeMatrix_eq, planeMatrix_eq]
  unfold solve
  show (match C.method with | .direct => _ | .fma => _) = (match C.method with | .direct => _ | .fma => _)
  have h := solveWith_congr C { C with owner := owner, procs := procs } (hM .double) (hM .single) rfl rfl rfl rfl rfl rfl rfl gmres st phi0 dphi0
  split
  · exact h
  · rfl

/-! ## The integral equation -/

/-- **C86** (no fast multipole method). In dimension 2 the fast multipole method always ends with an exception and changes nothing. -/
theorem C86_no_fma (K : Curve) (C : Setup K.nDofs 2) (hm : C.method = .fma)
    (gmres : (Vec K.nDofs → Vec K.nDofs) → Vec K.nDofs → Vec K.nDofs) (st : AlphaStatics) (phi0 dphi0 : Vec K.nDofs) :
    solve K C gmres st phi0 dphi0 = (st, none) := by
  unfold solve
  rw [hm]

theorem solve_direct {C : Setup K.nDofs 2} {gmres : (Vec K.nDofs → Vec K.nDofs) → Vec K.nDofs → Vec K.nDofs} {st st' : AlphaStatics}
    {phi0 dphi0 : Vec K.nDofs} {R : Solution K.nDofs} (h : solve K C gmres st phi0 dphi0 = (st', some R)) :
    solveWith (planeMatrix K C.owner .double) (planeMatrix K C.owner .single) C gmres st phi0 dphi0 = (st', some R) := by
  unfold solve at h
  cases hm : C.method with
  | fma => rw [hm] at h; simp at h
  | direct => rw [hm] at h; exact h

/-- **C86** (integral equation). After every history of calls, if `solve` returns: the prescribed data are untouched and, at every node without constraint,
the residual of the collocated boundary integral equation is that of the linear solver. -/
theorem C86_integral_equation (K : Curve) (C : Setup K.nDofs 2)
    (gmres : (Vec K.nDofs → Vec K.nDofs) → Vec K.nDofs → Vec K.nDofs) (l : List (ℕ × ℕ)) (st' : AlphaStatics)
    (phi0 dphi0 : Vec K.nDofs) (R : Solution K.nDofs) (h : solve K C gmres (alphaHistory l) phi0 dphi0 = (st', some R))
    (B : Finset (Fin K.nDofs)) (hd : ∀ i, C.nodes.dirichlet i = if i ∈ B then 1 else 0)
    (hn : ∀ i, C.neumannNodes i = if i ∈ B then 0 else 1) (hb : C.haveDirichletBc = true)
    (hphi : ∀ i ∈ B, phi0 i = C.nodes.tmpRhs i) (hdphi : ∀ i, i ∉ B → dphi0 i = C.nodes.tmpRhs i)
    (hrefl : ∀ i, i ∈ C.doubles i) (heq : ∀ i j, j ∈ C.doubles i → C.doubles j = C.doubles i) (hord : ∀ i, i ∈ C.order) :
    (∀ i ∈ B, R.phi i = C.nodes.tmpRhs i) ∧ (∀ i, i ∉ B → R.dphi i = C.nodes.tmpRhs i) ∧
    ∀ i, C.hanging i = none → ¬ ((i ∉ B ∧ ∃ j ∈ C.doubles i, j ∈ B) ∨ ((∀ j ∈ C.doubles i, j ∉ B) ∧ ∃ j ∈ C.doubles i, j < i) ∨
        (i ∈ B ∧ C.nodes.continuosGradient = true ∧ ∃ j ∈ C.doubles i, j ≠ i ∧ j ∈ B)) →
      bieResidual K R.phi R.dphi i = -R.residual i := by
  obtain ⟨c, hc, h1, h2, h3, _⟩ := solveWith_rows (solve_direct h) B hd hn hb hphi hdphi
  refine ⟨fun i hi => by rw [h1]; simp [merge, hi], fun i hi => by rw [h2]; simp [merge, hi], fun i hh hno => ?_⟩
  have hd01 : ∀ i, C.nodes.dirichlet i = 0 ∨ C.nodes.dirichlet i = 1 := by
    intro i; rw [hd]; split_ifs <;> simp
  have hd0 : ∀ i, C.nodes.dirichlet i = 0 ↔ i ∉ B := by intro i; rw [hd]; split_ifs with hi <;> simp [hi]
  have hd1 : ∀ i, C.nodes.dirichlet i = 1 ↔ i ∈ B := by intro i; rw [hd]; split_ifs with hi <;> simp [hi]
  have hci : c i = none := by
    rw [← Option.not_isSome_iff_eq_none, (C75_constraints C.nodes C.doubles hrefl heq hd01 C.hanging C.fuel C.order hord hc).2.1 i, hh]
    simp only [hd0, hd1]
    rintro (h1 | h1)
    · simp at h1
    · exact hno h1
  have hrow := h3 i hci
  simp only [planeMatrix_eq] at hrow
  exact hrow

/-! ## Rigid motions and unit of length -/

/-- `y` is the image of the direction `x` under `Q`. -/
def Turned2 (Q : Matrix (Fin 2) (Fin 2) ℝ) (x y : V2) : Prop := ∀ a, y a = ∑ e, Q a e * x e

/-- `y` is the image of the point `x` under `x ↦ s·Qx + b`. -/
def Moved2 (Q : Matrix (Fin 2) (Fin 2) ℝ) (s : ℝ) (b : V2) (x y : V2) : Prop := ∀ a, y a = s * ∑ e, Q a e * x e + b a

/-- Quadrature points: moved positions, turned normals, the same shape values, lengths multiplied by `s`. -/
def QMoved (Q : Matrix (Fin 2) (Fin 2) ℝ) (s : ℝ) (b : V2) (P P' : QPoint) : Prop :=
  Moved2 Q s b P.pos P'.pos ∧ Turned2 Q P.normal P'.normal ∧ P'.shape = P.shape ∧ P'.jxw = s * P.jxw

/-- `K` with other positions and quadratures. -/
def withGeometry (K : Curve) (pos : ℕ → V2) (quad : ℕ → List QPoint) (sing : ℕ → ℕ → List QPoint) : Curve :=
  { K with pos := pos, quad := quad, sing := sing }

/-- `K'`, the curve `K` with other positions and quadratures, is its image under the similarity. -/
structure CurveMoved (Q : Matrix (Fin 2) (Fin 2) ℝ) (s : ℝ) (b : V2) (K : Curve) (pos : ℕ → V2) (quad : ℕ → List QPoint)
    (sing : ℕ → ℕ → List QPoint) : Prop where
  pos : ∀ i, Moved2 Q s b (K.pos i) (pos i)
  quad : ∀ c, List.Forall₂ (QMoved Q s b) (K.quad c) (quad c)
  sing : ∀ c j, List.Forall₂ (QMoved Q s b) (K.sing c j) (sing c j)

/-- No quadrature point used for a node lies on it. -/
def Apart (K : Curve) : Prop := ∀ i c, ∀ P ∈ ruleOf K i c, P.pos ≠ K.pos i

variable {Q : Matrix (Fin 2) (Fin 2) ℝ} {s : ℝ} {b : V2} {pos : ℕ → V2} {quad : ℕ → List QPoint} {sing : ℕ → ℕ → List QPoint}

theorem turned2_dot (hQ : Q.transpose * Q = 1) {x y x' y' : V2} (hx : Turned2 Q x x') (hy : Turned2 Q y y') :
    ∑ a, x' a * y' a = ∑ a, x a * y a := by
  have e : ∀ i j, _ := fun i j => congrFun (congrFun hQ i) j
  have e00 := e 0 0; have e01 := e 0 1; have e11 := e 1 1
  simp [Matrix.mul_apply, Fin.sum_univ_two] at e00 e01 e11
  simp only [Turned2, Fin.sum_univ_two] at hx hy
  simp only [Fin.sum_univ_two, hx, hy]
  linear_combination x 0 * y 0 * e00 + x 1 * y 1 * e11 + (x 0 * y 1 + x 1 * y 0) * e01

theorem moved2_dist (hQ : Q.transpose * Q = 1) (hs : 0 < s) {x y x' y' : V2} (hx : Moved2 Q s b x x') (hy : Moved2 Q s b y y') :
    Real.sqrt (∑ a, (x' a - y' a) ^ 2) = s * Real.sqrt (∑ a, (x a - y a) ^ 2) := by
  have ht : Turned2 Q (fun e => s * (x e - y e)) (fun e => x' e - y' e) := by
    intro a
    have h1 := hx a
    have h2 := hy a
    simp only [Fin.sum_univ_two] at h1 h2 ⊢
    rw [h1, h2]
    ring
  have : ∑ a, (x' a - y' a) ^ 2 = s ^ 2 * ∑ a, (x a - y a) ^ 2 := by
    have := turned2_dot hQ ht ht
    rw [Finset.mul_sum]
    simp only [Fin.sum_univ_two] at this ⊢
    linear_combination this
  rw [this, Real.sqrt_mul (by positivity), Real.sqrt_sq hs.le]

theorem dist_pos {x y : V2} (h : y ≠ x) : 0 < Real.sqrt (∑ a, (x a - y a) ^ 2) := by
  refine Real.sqrt_pos.2 ?_
  obtain ⟨a, ha⟩ := Function.ne_iff.1 h
  exact Finset.sum_pos' (fun _ _ => sq_nonneg _) ⟨a, Finset.mem_univ a, by have := sub_ne_zero.2 (Ne.symm ha); positivity⟩

/-- The kernels under a similarity: the double layer is divided by `s`, to the single layer `-log s / 2π` is added. -/
theorem greenValue_moved (hQ : Q.transpose * Q = 1) (hs : 0 < s) {x y n x' y' n' : V2} (hx : Moved2 Q s b x x') (hy : Moved2 Q s b y y')
    (hn : Turned2 Q n n') (hne : y ≠ x) :
    greenValue .double x' y' n' = greenValue .double x y n / s ∧
      greenValue .single x' y' n' = greenValue .single x y n - Real.log s / (2 * Real.pi) := by
  have ht : Turned2 Q (fun e => s * (x e - y e)) (fun e => x' e - y' e) := by
    intro a
    have h1 := hx a
    have h2 := hy a
    simp only [Fin.sum_univ_two] at h1 h2 ⊢
    rw [h1, h2]
    ring
  have hr := moved2_dist hQ hs hx hy
  have hp := dist_pos hne
  have hd : ∑ a, (x' a - y' a) * n' a = s * ∑ a, (x a - y a) * n a := by
    have := turned2_dot hQ ht hn
    rw [this, Finset.mul_sum]
    exact Finset.sum_congr rfl fun a _ => by ring
  constructor
  · simp only [greenValue]
    rw [hd, hr]
    have hpi := Real.pi_ne_zero
    field_simp
  · simp only [greenValue]
    rw [hr, Real.log_mul hs.ne' hp.ne']
    ring

theorem rule_moved (h : CurveMoved Q s b K pos quad sing) (i c : ℕ) :
    List.Forall₂ (QMoved Q s b) (ruleOf K i c) (ruleOf (withGeometry K pos quad sing) i c) := by
  unfold ruleOf
  show List.Forall₂ _ (if h : ∃ s, s < (K.cellDofs c).length ∧ (K.cellDofs c).getD s 0 ∈ K.doubles i then _ else _)
    (if h : ∃ s, s < (K.cellDofs c).length ∧ (K.cellDofs c).getD s 0 ∈ K.doubles i then _ else _)
  split_ifs with hex
  · exact h.sing c _
  · exact h.quad c

theorem integral_moved (h : CurveMoved Q s b K pos quad sing) (i k : ℕ) {f f' : QPoint → ℝ} (κ : ℝ)
    (hf : ∀ c, ∀ P ∈ ruleOf K i c, ∀ P', QMoved Q s b P P' → f' P' * s = κ * f P) :
    curveIntegral (withGeometry K pos quad sing) i k f' = κ * curveIntegral K i k f := by
  unfold curveIntegral
  rw [Finset.mul_sum]
  refine Finset.sum_congr rfl fun c _ => ?_
  rw [Finset.mul_sum]
  refine Finset.sum_congr rfl fun j _ => ?_
  show (if (K.cellDofs c).getD j 0 = k then _ else _) = _
  split_ifs
  · have hl := rule_moved h i c
    have hc := hf c
    generalize ruleOf K i c = l at hl hc
    generalize ruleOf (withGeometry K pos quad sing) i c = l' at hl
    induction hl with
    | nil => simp
    | @cons P P' _ _ hp _ ih =>
      rw [List.map_cons, List.sum_cons, List.map_cons, List.sum_cons, mul_add, ih fun P hP => hc P (List.mem_cons_of_mem _ hP)]
      have := hc P List.mem_cons_self P' hp
      rw [hp.2.2.1, hp.2.2.2]
      linear_combination (P.shape j * P.jxw) * this
  · rw [mul_zero]

/-- **C86** (unit of length, matrices). Under `x ↦ s·Qx + b` the double layer matrix is the same; the single layer matrix is multiplied by `s` and
changed by `-s·log s / 2π` times the integrals of the shape functions. -/
theorem C86_units (hQ : Q.transpose * Q = 1) (hs : 0 < s) (h : CurveMoved Q s b K pos quad sing) (ha : Apart K) (owner owner' : ℕ → ℕ)
    (i k : Fin K.nDofs) :
    planeMatrix (withGeometry K pos quad sing) owner' .double i k = planeMatrix K owner .double i k ∧
    planeMatrix (withGeometry K pos quad sing) owner' .single i k =
      s * (planeMatrix K owner .single i k - Real.log s / (2 * Real.pi) * moment K i k) := by
  have e1 := planeMatrix_eq (withGeometry K pos quad sing) owner' .double i k
  have e2 := planeMatrix_eq (withGeometry K pos quad sing) owner' .single i k
  rw [e1, e2, planeMatrix_eq, planeMatrix_eq]
  constructor
  · unfold layer
    rw [integral_moved h i k 1 (f := fun P => greenValue .double (K.pos i) P.pos P.normal), one_mul]
    intro c P hP P' hp
    show greenValue .double (pos i) P'.pos P'.normal * s = _
    rw [(greenValue_moved hQ hs (h.pos i) hp.1 hp.2.1 (ha i c P hP)).1]
    field_simp
  · unfold layer moment
    have e3 : curveIntegral (withGeometry K pos quad sing) i k (fun P => greenValue .single ((withGeometry K pos quad sing).pos i) P.pos P.normal) =
        s * curveIntegral K i k (fun P => greenValue .single (K.pos i) P.pos P.normal - Real.log s / (2 * Real.pi)) := by
      refine integral_moved h i k s fun c P hP P' hp => ?_
      show greenValue .single (pos i) P'.pos P'.normal * s = _
      rw [(greenValue_moved hQ hs (h.pos i) hp.1 hp.2.1 (ha i c P hP)).2]
      ring
    rw [e3]
    congr 1
    unfold curveIntegral
    rw [Finset.mul_sum, ← Finset.sum_sub_distrib]
    refine Finset.sum_congr rfl fun c _ => ?_
    rw [Finset.mul_sum, ← Finset.sum_sub_distrib]
    refine Finset.sum_congr rfl fun j _ => ?_
    split_ifs
    · generalize ruleOf K i c = l
      induction l with
      | nil => simp
      | cons P l ih => simp only [List.map_cons, List.sum_cons, ih]; ring
    · simp

/-- **C86** (unit of length, equation). With the same potential and normal derivatives divided by `s`, the residual of the integral equation of the scaled curve
differs from the original one by `log s / 2π` times the flux: data and results carry over to another unit of length iff the flux is zero. -/
theorem C86_units_equation (hQ : Q.transpose * Q = 1) (hs : 0 < s) (h : CurveMoved Q s b K pos quad sing) (ha : Apart K)
    (phi dphi : Vec K.nDofs) (i : Fin K.nDofs) :
    bieResidual (withGeometry K pos quad sing) phi (fun k => dphi k / s) i =
      bieResidual K phi dphi i + Real.log s / (2 * Real.pi) * flux K dphi i ∧
    (bieResidual (withGeometry K pos quad sing) phi (fun k => dphi k / s) i = bieResidual K phi dphi i ↔ s = 1 ∨ flux K dphi i = 0) := by
  have e1 : ∀ k : Fin K.nDofs, layer (withGeometry K pos quad sing) .double i k = layer K .double i k := fun k => by
    have := (C86_units hQ hs h ha id id i k).1
    rwa [show _ = _ from planeMatrix_eq (withGeometry K pos quad sing) id .double i k, planeMatrix_eq] at this
  have e2 : ∀ k : Fin K.nDofs, layer (withGeometry K pos quad sing) .single i k =
      s * (layer K .single i k - Real.log s / (2 * Real.pi) * moment K i k) := fun k => by
    have := (C86_units hQ hs h ha id id i k).2
    rwa [show _ = _ from planeMatrix_eq (withGeometry K pos quad sing) id .single i k, planeMatrix_eq] at this
  have key : bieResidual (withGeometry K pos quad sing) phi (fun k => dphi k / s) i =
      bieResidual K phi dphi i + Real.log s / (2 * Real.pi) * flux K dphi i := by
    unfold bieResidual flux
    show (∑ k : Fin K.nDofs, layer (withGeometry K pos quad sing) .double i k * (phi k - phi i)) -
      ∑ k : Fin K.nDofs, layer (withGeometry K pos quad sing) .single i k * (dphi k / s) = _
    have e3 : ∑ k : Fin K.nDofs, layer (withGeometry K pos quad sing) .single i k * (dphi k / s) =
        (∑ k : Fin K.nDofs, layer K .single i k * dphi k) - Real.log s / (2 * Real.pi) * ∑ k : Fin K.nDofs, moment K i k * dphi k := by
      rw [Finset.mul_sum, ← Finset.sum_sub_distrib]
      refine Finset.sum_congr rfl fun k _ => ?_
      rw [e2]
      field_simp
    rw [e3]
    simp only [e1]
    ring
  refine ⟨key, ?_⟩
  rw [key]
  have hpi := Real.pi_ne_zero
  constructor
  · intro he
    have : Real.log s / (2 * Real.pi) * flux K dphi i = 0 := by linarith
    rcases mul_eq_zero.1 this with h0 | h0
    · left
      have hl : Real.log s = 0 := by
        rcases div_eq_zero_iff.1 h0 with h | h
        · exact h
        · exact absurd h (by positivity)
      exact Real.eq_one_of_pos_of_log_eq_zero hs hl
    · exact Or.inr h0
  · rintro (rfl | h0)
    · simp
    · rw [h0]; simp

/-- Setups of a problem and of the problem moved rigidly: normals and surface gradients are turned, everything else is the same except for the
distribution of the dofs. -/
structure SetupMoved2 (Q : Matrix (Fin 2) (Fin 2) ℝ) {n : ℕ} (C C' : Setup n 2) : Prop where
  method : C'.method = C.method
  part : C'.part = C.part
  neumann : C'.neumannNodes = C.neumannNodes
  bc : C'.haveDirichletBc = C.haveDirichletBc
  dirichlet : C'.nodes.dirichlet = C.nodes.dirichlet
  data : C'.nodes.tmpRhs = C.nodes.tmpRhs
  normal : ∀ i, Turned2 Q (C.nodes.normal i) (C'.nodes.normal i)
  surfGrad : ∀ i, Turned2 Q (C.nodes.surfGrad i) (C'.nodes.surfGrad i)
  grad : C'.nodes.continuosGradient = C.nodes.continuosGradient
  doubles : C'.doubles = C.doubles
  hanging : C'.hanging = C.hanging
  fuel : C'.fuel = C.fuel
  order : C'.order = C.order

/-- **C86** (rigid motions). Moving the curve rigidly changes nothing in the result of a run, whatever the linear solver and the distribution of the dofs. -/
theorem C86_motion (hQ : Q.transpose * Q = 1) (h : CurveMoved Q 1 b K pos quad sing) (ha : Apart K) (C C' : Setup K.nDofs 2) (hC : SetupMoved2 Q C C')
    (gmres : (Vec K.nDofs → Vec K.nDofs) → Vec K.nDofs → Vec K.nDofs) (st : AlphaStatics) (phi0 dphi0 : Vec K.nDofs) :
    solve (withGeometry K pos quad sing) C' gmres st phi0 dphi0 = solve K C gmres st phi0 dphi0 := by
  have hM : ∀ ker, planeMatrix (withGeometry K pos quad sing) C'.owner ker = planeMatrix K C.owner ker := by
    intro ker
    funext (i : Fin K.nDofs) (k : Fin K.nDofs)
    have := C86_units hQ one_pos h ha C.owner C'.owner i k
    cases ker with
    | double => exact this.1
    | single => rw [this.2]; simp
  have hc : computeConstraints C'.nodes C'.doubles C'.hanging C'.fuel C'.order = computeConstraints C.nodes C.doubles C.hanging C.fuel C.order := by
    rw [hC.doubles, hC.hanging, hC.fuel, hC.order]
    exact constraints_congr C.nodes C'.nodes hC.dirichlet hC.data hC.grad (fun i j => turned2_dot hQ (hC.normal i) (hC.normal j))
      (fun i j => turned2_dot hQ (hC.surfGrad i) (hC.normal j)) _ _ _ _
  have hs := solveWith_congr C C' (hM .double) (hM .single) hC.method hC.part hC.neumann hC.bc hC.dirichlet hC.data hc gmres st phi0 dphi0
  unfold solve
  rw [hC.method]
  cases C.method
  · exact hs
  · rfl

/-- **C86** (degenerate scale). If some density `z` has single layer potential one at every node and nonzero total charge `m`, then scaled by `exp(2π/m)` the curve has a nonzero
density with zero potential at every node: there the normal derivatives are not determined by the equations from the potential. -/
theorem C86_degenerate_scale (hQ : Q.transpose * Q = 1) (z : Vec K.nDofs) (hz : ∀ i : Fin K.nDofs, ∑ k : Fin K.nDofs, layer K .single i k * z k = 1)
    {m : ℝ} (hm : m ≠ 0) (hc : ∀ i : Fin K.nDofs, flux K z i = m) (h : CurveMoved Q (Real.exp (2 * Real.pi / m)) b K pos quad sing) (ha : Apart K) :
    (∀ i : Fin K.nDofs, ∑ k : Fin K.nDofs, layer (withGeometry K pos quad sing) .single i k * z k = 0) ∧
    ∀ (phi dphi : Vec K.nDofs) (t : ℝ) (i : Fin K.nDofs), bieResidual (withGeometry K pos quad sing) phi (fun k => dphi k + t * z k) i =
      bieResidual (withGeometry K pos quad sing) phi dphi i := by
  have e2 : ∀ i k : Fin K.nDofs, layer (withGeometry K pos quad sing) .single i k =
      Real.exp (2 * Real.pi / m) * (layer K .single i k - 1 / m * moment K i k) := fun i k => by
    have := (C86_units hQ (Real.exp_pos _) h ha id id i k).2
    rw [show _ = _ from planeMatrix_eq (withGeometry K pos quad sing) id .single i k, planeMatrix_eq, Real.log_exp] at this
    rw [this]
    have hpi := Real.pi_ne_zero
    congr 3
    field_simp
  have key : ∀ i : Fin K.nDofs, ∑ k : Fin K.nDofs, layer (withGeometry K pos quad sing) .single i k * z k = 0 := by
    intro i
    have : ∑ k : Fin K.nDofs, layer (withGeometry K pos quad sing) .single i k * z k =
        Real.exp (2 * Real.pi / m) * ((∑ k : Fin K.nDofs, layer K .single i k * z k) - 1 / m * flux K z i) := by
      unfold flux
      rw [Finset.mul_sum, ← Finset.sum_sub_distrib, Finset.mul_sum]
      refine Finset.sum_congr rfl fun k _ => ?_
      rw [e2]
      ring
    rw [this, hz, hc, one_div, inv_mul_cancel₀ hm, sub_self, mul_zero]
  refine ⟨key, fun phi dphi t i => ?_⟩
  unfold bieResidual
  show _ - ∑ k : Fin K.nDofs, layer (withGeometry K pos quad sing) .single i k * (dphi k + t * z k) = _
  have : ∑ k : Fin K.nDofs, layer (withGeometry K pos quad sing) .single i k * (dphi k + t * z k) =
      (∑ k : Fin K.nDofs, layer (withGeometry K pos quad sing) .single i k * dphi k) + t * ∑ k : Fin K.nDofs, layer (withGeometry K pos quad sing) .single i k * z k := by
    rw [Finset.mul_sum, ← Finset.sum_add_distrib]
    exact Finset.sum_congr rfl fun k _ => by ring
  rw [this, key, mul_zero, add_zero]
  rfl

/-! ## Concrete cases -/

/-- The image of a quadrature point. -/
def movePoint (Q : Matrix (Fin 2) (Fin 2) ℝ) (s : ℝ) (b : V2) (P : QPoint) : QPoint :=
  ⟨fun a => s * ∑ e, Q a e * P.pos e + b a, fun a => ∑ e, Q a e * P.normal e, P.shape, s * P.jxw⟩

/-- Every curve has an image under every similarity. -/
theorem curve_moved (Q : Matrix (Fin 2) (Fin 2) ℝ) (s : ℝ) (b : V2) (K : Curve) :
    CurveMoved Q s b K (fun i a => s * ∑ e, Q a e * K.pos i e + b a) (fun c => (K.quad c).map (movePoint Q s b))
      (fun c j => (K.sing c j).map (movePoint Q s b)) := by
  have : ∀ l : List QPoint, List.Forall₂ (QMoved Q s b) l (l.map (movePoint Q s b)) := by
    intro l
    induction l with
    | nil => exact .nil
    | cons P l ih => exact .cons ⟨fun _ => rfl, fun _ => rfl, rfl, rfl⟩ ih
  exact ⟨fun i a => rfl, fun c => this _, fun c j => this _⟩

/-- Two elements of length one, one dof each, one quadrature point each; the singular point is at distance `exp(-2π)` from the node. -/
def twoElements : Curve where
  nDofs := 2
  pos i := ![i, 0]
  nCells := 2
  cellDofs c := [c]
  quad c := [⟨![c, 0], ![0, 1], fun _ => 1, 1⟩]
  sing c _ := [⟨![c, Real.exp (-(2 * Real.pi))], ![0, 1], fun _ => 1, 1⟩]
  doubles i := {i}

theorem ruleOf_two (i c : ℕ) : ruleOf twoElements i c = if c = i then twoElements.sing c 0 else twoElements.quad c := by
  unfold ruleOf
  by_cases h : c = i
  · rw [dif_pos ⟨0, by simp [twoElements, h]⟩, if_pos h]
    rfl
  · rw [dif_neg, if_neg h]
    rintro ⟨s, hs, h1⟩
    simp only [twoElements, List.length_singleton, Nat.lt_one_iff] at hs
    subst hs
    simp [twoElements, h] at h1

theorem twoElements_apart : Apart twoElements := by
  intro i c P hP he
  rw [ruleOf_two] at hP
  split_ifs at hP with h
  · simp only [twoElements, List.mem_singleton] at hP
    subst hP
    have := congrFun he 1
    simp [twoElements] at this
  · simp only [twoElements, List.mem_singleton] at hP
    subst hP
    have := congrFun he 0
    simp [twoElements] at this
    exact h this

theorem two_layer (i k : Fin 2) : layer twoElements .single i k = if i = k then 1 else 0 := by
  unfold layer curveIntegral
  simp only [ruleOf_two]
  fin_cases i <;> fin_cases k <;>
    simp [twoElements, greenValue, Real.sqrt_sq (Real.exp_pos _).le]

theorem two_moment (i k : Fin 2) : moment twoElements i k = 1 := by
  unfold moment curveIntegral
  simp only [ruleOf_two]
  fin_cases i <;> fin_cases k <;> simp [twoElements]

/-- Hypotheses of `C86_degenerate_scale` (hence of `C86_units`): two elements, total charge two, scale `exp π`. -/
example : (∀ i : Fin 2, ∑ k : Fin 2, layer twoElements .single i k * (1 : ℝ) = 1) ∧ (∀ i : Fin 2, flux twoElements (fun _ => 1) i = 2) ∧ Apart twoElements ∧
    ∃ pos quad sing, CurveMoved 1 (Real.exp (2 * Real.pi / 2)) 0 twoElements pos quad sing := by
  refine ⟨fun i => ?_, fun i => ?_, twoElements_apart, _, _, _, curve_moved _ _ _ _⟩
  · simp [two_layer]
  · show ∑ k : Fin 2, moment twoElements i k * (1 : ℝ) = 2
    simp [two_moment]

/-- Hypotheses of `C86_motion`: every setup on the two elements, turned by a right angle. -/
example (C : Setup 2 2) : ∃ (Q : Matrix (Fin 2) (Fin 2) ℝ) (pos : _) (quad : _) (sing : _) (C' : Setup 2 2), Q.transpose * Q = 1 ∧ Q ≠ 1 ∧
    CurveMoved Q 1 ![5, 7] twoElements pos quad sing ∧ SetupMoved2 Q C C' := by
  refine ⟨!![0, -1; 1, 0], _, _, _, { C with nodes := { C.nodes with
      normal := fun i a => ∑ e, (!![0, -1; 1, 0] : Matrix (Fin 2) (Fin 2) ℝ) a e * C.nodes.normal i e
      surfGrad := fun i a => ∑ e, (!![0, -1; 1, 0] : Matrix (Fin 2) (Fin 2) ℝ) a e * C.nodes.surfGrad i e } }, ?_, ?_, curve_moved _ _ _ _,
    ⟨rfl, rfl, rfl, rfl, rfl, rfl, fun _ _ => rfl, fun _ _ => rfl, rfl, rfl, rfl, rfl, rfl⟩⟩
  · ext i j
    fin_cases i <;> fin_cases j <;> simp [Matrix.mul_apply, Fin.sum_univ_two]
  · intro h
    have := congrFun (congrFun h 0) 0
    simp at this

theorem solveWith_some {n d : ℕ} (N M : Mat n) {C : Setup n d} (gmres : (Vec n → Vec n) → Vec n → Vec n) {st : AlphaStatics}
    (phi0 dphi0 : Vec n) {c : Lines n} (ha : (alphaStaticsStep n C.part st).part = C.part)
    (hc : computeConstraints C.nodes C.doubles C.hanging C.fuel C.order = some c) :
    ∃ st' R, solveWith N M C gmres st phi0 dphi0 = (st', some R) := by
  unfold solveWith computeAlpha
  simp only [ha, if_true, Option.bind_some, hc, Option.map_some]
  exact ⟨_, _, rfl⟩

/-- Setup on the two elements: node 0 Dirichlet, node 1 Neumann, two processes. -/
def twoSetup : Setup 2 2 where
  method := .direct
  owner := id
  procs := 2
  part := 2
  neumannNodes := ![0, 1]
  haveDirichletBc := true
  nodes := ⟨![1, 0], ![3, 4], fun _ => 0, fun _ => 0, false⟩
  doubles := fun i => {i}
  hanging := fun _ => none
  fuel := 1
  order := List.finRange _

/-- Hypotheses of `C86_integral_equation`: every linear solver. -/
example (gmres : (Vec 2 → Vec 2) → Vec 2 → Vec 2) : ∃ st' R, solve twoElements twoSetup gmres (alphaHistory []) ![3, 0] ![0, 4] = (st', some R) ∧
    R.phi (0 : Fin 2) = 3 ∧ R.dphi (1 : Fin 2) = 4 ∧ ∀ i, bieResidual twoElements R.phi R.dphi i = -R.residual i := by
  have hl : computeConstraints twoSetup.nodes twoSetup.doubles twoSetup.hanging twoSetup.fuel twoSetup.order = some fun _ => none :=
    constraints_no_doubles twoSetup.nodes (by intro i; fin_cases i <;> simp [twoSetup]) (fun _ => none) (by simp) 1 (by simp) (List.finRange _)
  have hs : ∃ st' R, solve twoElements twoSetup gmres (alphaHistory []) ![3, 0] ![0, 4] = (st', some R) :=
    solveWith_some (planeMatrix twoElements twoSetup.owner .double) (planeMatrix twoElements twoSetup.owner .single) gmres _ _
      (by simp [alphaHistory, alphaStaticsStep, AlphaStatics.init, twoElements]) hl
  obtain ⟨st', R, h⟩ := hs
  have e1 : ∀ i : Fin 2, twoSetup.nodes.dirichlet i = if i ∈ ({0} : Finset (Fin 2)) then 1 else 0 := by
    intro i; fin_cases i <;> simp [twoSetup]
  have e2 : ∀ i : Fin 2, twoSetup.neumannNodes i = if i ∈ ({0} : Finset (Fin 2)) then 0 else 1 := by
    intro i; fin_cases i <;> simp [twoSetup]
  have e3 : ∀ i : Fin 2, i ∉ ({0} : Finset (Fin 2)) → ![0, 4] i = twoSetup.nodes.tmpRhs i := by
    intro i; fin_cases i <;> simp [twoSetup]
  have := C86_integral_equation twoElements twoSetup gmres [] st' _ _ R h ({0} : Finset (Fin 2)) e1 e2 rfl
    (by intro i hi; rw [Finset.mem_singleton.1 hi]; rfl) e3
    (fun i => Finset.mem_singleton_self i) (fun i j hj => by rw [Finset.mem_singleton.1 hj]) (fun i => List.mem_finRange i)
  refine ⟨st', R, h, this.1 (0 : Fin 2) (Finset.mem_singleton_self _), this.2.1 (1 : Fin 2) (Finset.notMem_singleton.2 (by decide : (1 : Fin 2) ≠ 0)),
    fun i => this.2.2 i rfl ?_⟩
  rintro (⟨h1, j, h2, h3⟩ | ⟨_, j, h2, h3⟩ | ⟨_, h1, _⟩)
  · rw [Finset.mem_singleton.1 h2] at h3; exact h1 h3
  · rw [Finset.mem_singleton.1 h2] at h3; exact lt_irrefl _ h3
  · simp [twoSetup] at h1

end PiBem.Bem.Plane
