import Verif.Props.SymmetricPlane
import Verif.Props.ConvexHanging
import Verif.Props.Reverse

/-!
# C85 with hanging nodes

Rigid motions and the unit of length on meshes with hanging nodes. At hanging nodes the program interpolates the unknowns of the linear system; at Dirichlet nodes these are normal
derivatives, which depend on the unit of length, at Neumann nodes potentials, which do not.
-/

noncomputable section

namespace PiBem.Bem

open PiBem.Octree PiBem.Fmm PiBem.Expansion

variable {n d : ℕ}

/-- Two linear problems related as those of similar surfaces, `s` the ratio of the lengths, `r` the ratio of the double layer matrices: the same kinds of nodes, the same potential at
Dirichlet nodes `B`, normal derivatives divided by `s` at the others, the same angles between normals, the same double nodes and the same hanging nodes. -/
structure UnitsH (r s : ℝ) (N M N' M' : Mat n) (C C' : Setup n d) (B : Finset (Fin n)) : Prop where
  double : ∀ i k, N' i k = r * N i k
  single : ∀ i k, M' i k = r * (s * M i k)
  dirichlet : ∀ i ∈ B, C'.nodes.tmpRhs i = C.nodes.tmpRhs i
  neumann : ∀ i, i ∉ B → C'.nodes.tmpRhs i = C.nodes.tmpRhs i / s
  normal : ∀ i j, dot (C'.nodes.normal i) (C'.nodes.normal j) = dot (C.nodes.normal i) (C.nodes.normal j)
  surfGrad : ∀ i j, dot (C'.nodes.surfGrad i) (C'.nodes.normal j) = dot (C.nodes.surfGrad i) (C.nodes.normal j) / s
  grad : C'.nodes.continuosGradient = C.nodes.continuosGradient
  doubles : C'.doubles = C.doubles
  hanging : C'.hanging = C.hanging

/-- The part of the interpolation at a hanging node that refers to nodes of the other kind: to Dirichlet nodes from a Neumann node, to Neumann nodes from a Dirichlet node. -/
def otherKind (B : Finset (Fin n)) (u : Vec n) (i : Fin n) (es : List (Fin n × ℝ)) : ℝ :=
  (es.map fun e => if (e.1 ∈ B ↔ i ∈ B) then 0 else e.2 * u e.1).sum

/-- Hanging nodes lie between nodes of their own kind. -/
def SameKind (C : Setup n d) (B : Finset (Fin n)) : Prop := ∀ i es, C.hanging i = some es → ∀ e ∈ es, (e.1 ∈ B ↔ i ∈ B)

variable {r s : ℝ} {N M N' M' : Mat n} {C C' : Setup n d} {B : Finset (Fin n)}

theorem UnitsH.gradient (hC : UnitsH r s N M N' M' C C' B) (i j : Fin n) : thisNormalGradient C'.nodes i j = (thisNormalGradient C.nodes i j).map (· / s) := by
  unfold thisNormalGradient
  rw [hC.normal, hC.surfGrad, hC.surfGrad]
  unfold fdiv
  split_ifs
  · rfl
  · simp only [Option.map_some]
    congr 1
    ring

theorem UnitsH.consistent (hC : UnitsH r s N M N' M' C C' B) (h : Consistent C B) : Consistent C' B := by
  constructor
  · intro i hi j hj hjB
    rw [hC.dirichlet i hi, hC.dirichlet j hjB]
    exact h.agree i hi j (hC.doubles ▸ hj) hjB
  · intro hg i hi j hj hjB hne
    rw [hC.doubles] at hj ⊢
    rw [hC.normal]
    obtain ⟨h2, h3⟩ := h.sharp (hC.grad ▸ hg) i hi j hj hjB hne
    refine ⟨h2, fun k hk hkB hki => ?_⟩
    rw [hC.gradient, hC.gradient, h3 k (hC.doubles ▸ hk) hkB hki]

/-- interpolation of the unknowns in the other unit -/
theorem units_interpolation (i : Fin n) (es : List (Fin n × ℝ)) (u u' : Vec n) (hu : ∀ k, u' k = if k ∈ B then u k / s else u k) :
    (es.map fun e => e.2 * u' e.1).sum =
      if i ∈ B then (es.map fun e => e.2 * u e.1).sum / s + otherKind B u i es * (1 - 1 / s)
      else (es.map fun e => e.2 * u e.1).sum - otherKind B u i es * (1 - 1 / s) := by
  unfold otherKind
  by_cases hi : i ∈ B
  · simp only [hi, if_true, iff_true]
    induction es with
    | nil => simp
    | cons a l ih =>
      rw [List.map_cons, List.sum_cons, ih, hu]
      simp only [List.map_cons, List.sum_cons]
      split_ifs <;> ring
  · simp only [hi, if_false, iff_false]
    induction es with
    | nil => simp
    | cons a l ih =>
      rw [List.map_cons, List.sum_cons, ih, hu]
      simp only [List.map_cons, List.sum_cons, ite_not]
      split_ifs <;> ring

/-- **C85** (hanging nodes, exactness). Of two runs, on meshes with hanging nodes, that hold the same potential, and normal derivatives related by the ratio `s` of the lengths, if one is exact the other is
if and only if no interpolation at a hanging node refers to nodes of the other kind, or what it takes from them sums to zero, or the unit of length is the same. -/
theorem C85_hanging_units (hr : r ≠ 0) (hs : s ≠ 0) (hC : UnitsH r s N M N' M' C C' B) (gmres gmres' : (Vec n → Vec n) → Vec n → Vec n) (l l' : List (ℕ × ℕ))
    (st st' : AlphaStatics) (phi0 dphi0 phi0' dphi0' : Vec n) (X X' : Solution n)
    (h : solveWith N M C gmres (alphaHistory l) phi0 dphi0 = (st, some X)) (h' : solveWith N' M' C' gmres' (alphaHistory l') phi0' dphi0' = (st', some X'))
    (hP : PosedH N M C B phi0 dphi0) (hP' : PosedH N' M' C' B phi0' dphi0') (hdata : Consistent C B)
    (hphi : ∀ i, X'.phi i = X.phi i) (hdphi : ∀ i, X'.dphi i = X.dphi i / s) (hX : ∀ i, X.residual i = 0) :
    (∀ i, X'.residual i = 0) ↔ s = 1 ∨ ∀ i es, C.hanging i = some es → otherKind B (unknown B X.phi X.dphi) i es = 0 := by
  rw [C91_exact_solutions N M C gmres l st phi0 dphi0 X h B hP hdata] at hX
  rw [C91_exact_solutions N' M' C' gmres' l' st' phi0' dphi0' X' h' B hP' (hC.consistent hdata)]
  obtain ⟨x1, x2, x3, x4⟩ := hX
  have hG : ∀ i, GradientNode C' B i ↔ GradientNode C B i := by
    intro i
    unfold GradientNode
    rw [hC.grad, hC.doubles]
  have heqn : ∀ i, eqResidual N' M' X'.phi X'.dphi i = r * eqResidual N M X.phi X.dphi i := by
    intro i
    unfold eqResidual
    rw [mul_sub, Finset.mul_sum, Finset.mul_sum]
    refine congrArg₂ (· - ·) (Finset.sum_congr rfl fun k _ => ?_) (Finset.sum_congr rfl fun k _ => ?_)
    · rw [hC.double, hphi, hphi]; ring
    · rw [hC.single, hdphi]; field_simp
  have hun : ∀ k, unknown B X'.phi X'.dphi k = if k ∈ B then unknown B X.phi X.dphi k / s else unknown B X.phi X.dphi k := by
    intro k
    unfold unknown merge
    simp only [hphi, hdphi]
    split_ifs <;> rfl
  have y1 : ∀ i, C'.hanging i = none → ¬ GradientNode C' B i → eqResidual N' M' X'.phi X'.dphi i = 0 := by
    intro i hi hg
    rw [heqn, x1 i (hC.hanging ▸ hi) (fun g => hg ((hG i).2 g)), mul_zero]
  have y2 : ∀ i, ∀ j ∈ C'.doubles i, X'.phi j = X'.phi i := by
    intro i j hj
    rw [hphi, hphi]
    exact x2 i j (hC.doubles ▸ hj)
  have y3 : C'.nodes.continuosGradient = true → ∀ i ∈ B, ∀ j ∈ C'.doubles i, j ∈ B → j ≠ i → thisNormalGradient C'.nodes i j = some (X'.dphi i) := by
    intro hg i hi j hj hjB hne
    rw [hC.gradient, x3 (hC.grad ▸ hg) i hi j (hC.doubles ▸ hj) hjB hne, hdphi]
    rfl
  have hone : (1 - 1 / s = 0) ↔ s = 1 := by
    rw [sub_eq_zero, eq_div_iff hs, one_mul]
  have y4 : ∀ i es, C.hanging i = some es → (unknown B X'.phi X'.dphi i = (es.map fun e => e.2 * unknown B X'.phi X'.dphi e.1).sum ↔
      s = 1 ∨ otherKind B (unknown B X.phi X.dphi) i es = 0) := by
    intro i es hes
    rw [units_interpolation i es _ _ hun, hun, ← x4 i es hes, ← hone]
    split_ifs
    · rw [left_eq_add, mul_eq_zero, or_comm]
    · rw [eq_comm, sub_eq_self, mul_eq_zero, or_comm]
  rw [hC.hanging]
  refine Iff.trans ⟨fun y => y.2.2.2, fun y => ⟨by rw [← hC.hanging]; exact y1, y2, y3, y⟩⟩ ?_
  constructor
  · intro y
    by_cases h1 : s = 1
    · exact Or.inl h1
    · exact Or.inr fun i es hes => ((y4 i es hes).1 (y i es hes)).resolve_left h1
  · rintro y i es hes
    exact (y4 i es hes).2 (y.imp_right fun y => y i es hes)

theorem SameKind.zero (hk : SameKind C B) (u : Vec n) (i : Fin n) (es : List (Fin n × ℝ)) (hes : C.hanging i = some es) : otherKind B u i es = 0 := by
  unfold otherKind
  refine List.sum_eq_zero fun x hx => ?_
  obtain ⟨e, he, rfl⟩ := List.mem_map.1 hx
  exact if_pos (hk i es hes e he)

/-- **C85** (hanging nodes, results). If the unit of length is the same or hanging nodes lie between nodes of their own kind, exact solves of related problems, the linear system of the first of which is regular,
give the same potential at every node and normal derivatives divided by the ratio of the lengths. -/
theorem C85_hanging (hr : r ≠ 0) (hs : s ≠ 0) (hC : UnitsH r s N M N' M' C C' B) (gmres gmres' : (Vec n → Vec n) → Vec n → Vec n) (l l' : List (ℕ × ℕ))
    (st st' : AlphaStatics) (phi0 dphi0 phi0' dphi0' : Vec n) (X X' : Solution n)
    (h : solveWith N M C gmres (alphaHistory l) phi0 dphi0 = (st, some X)) (h' : solveWith N' M' C' gmres' (alphaHistory l') phi0' dphi0' = (st', some X'))
    (hP : PosedH N M C B phi0 dphi0) (hP' : PosedH N' M' C' B phi0' dphi0') (hdata : Consistent C B) (hk : s = 1 ∨ SameKind C B)
    (hdet : DeterminedH N M C (alphaHistory l) phi0 dphi0) (hX : ∀ i, X.residual i = 0) (hX' : ∀ i, X'.residual i = 0) (i : Fin n) :
    X'.phi i = X.phi i ∧ X'.dphi i = X.dphi i / s := by
  obtain ⟨Y, hY, hsol⟩ := solveWith_any h (fun i => if i ∈ B then s * X'.sol i else X'.sol i)
  obtain ⟨-, -, p1, p2, -⟩ := solveWith_rows hY B hP.dirichlet hP.neumann hP.bc hP.phi hP.dphi
  obtain ⟨-, -, q1, q2, -⟩ := solveWith_rows h' B hP'.dirichlet hP'.neumann hP'.bc hP'.phi hP'.dphi
  have e1 : ∀ i, X'.phi i = Y.phi i := by
    intro i
    rw [p1, q1]
    by_cases hi : i ∈ B
    · simp only [merge, hi, if_true, hC.dirichlet i hi]
    · simp only [merge, hi, if_false, hsol]
  have e2 : ∀ i, X'.dphi i = Y.dphi i / s := by
    intro i
    rw [p2, q2]
    by_cases hi : i ∈ B
    · simp only [merge, hi, if_true, hsol]
      field_simp
    · simp only [merge, hi, if_false, hC.neumann i hi]
  have hback : UnitsH r⁻¹ s⁻¹ N' M' N M C' C B :=
    { double := fun i k => by rw [hC.double]; field_simp
      single := fun i k => by rw [hC.single]; field_simp
      dirichlet := fun i hi => (hC.dirichlet i hi).symm
      neumann := fun i hi => by rw [hC.neumann i hi]; field_simp
      normal := fun i j => (hC.normal i j).symm
      surfGrad := fun i j => by rw [hC.surfGrad]; field_simp
      grad := hC.grad.symm, doubles := hC.doubles.symm, hanging := hC.hanging.symm }
  have hres := (C85_hanging_units (inv_ne_zero hr) (inv_ne_zero hs) hback gmres' _ l' l st' st phi0' dphi0' phi0 dphi0 X' Y h' hY hP' hP (hC.consistent hdata)
    (fun i => (e1 i).symm) (fun i => by rw [e2]; field_simp) hX').2
    (hk.imp (fun h => by rw [h, inv_one]) fun hk i es hes => by
      have := hk.zero (unknown B X'.phi X'.dphi) i es (hC.hanging ▸ hes)
      exact this)
  obtain ⟨f1, f2⟩ := hdet _ _ _ _ Y X hY h hres hX
  rw [e1, e2, f1, f2]
  exact ⟨rfl, rfl⟩

/-- **C85** (hanging nodes, dimension 3). The dense method on similar surfaces fulfils the hypotheses of `C85_hanging`. -/
theorem C85_hanging_dimension3 {inp : Input 3} {D D' : Data} {S S' S₁ S₁' : SingRule} {pos' : ℕ → Octree.Pt 3} {qpos' : ℕ × ℕ → Octree.Pt 3}
    {Q : Matrix (Fin 3) (Fin 3) ℝ} {b : Fin 3 → ℝ} (hQ : Q.transpose * Q = 1) (hs : 0 < s)
    (hsim : Similar Q s b inp (moveInput inp pos' qpos') D D' S' S₁') (C C' : Setup inp.nDofs 3) (B : Finset (Fin inp.nDofs)) (hC : SetupSimilar Q s C C' B)
    (hm : C.method = .direct) (hm' : C'.method = .direct) (hh : C'.hanging = C.hanging) :
    UnitsH 1 s (solveMatrix inp D S S' C.method C.owner .double) (solveMatrix inp D S S' C.method C.owner .single)
      (solveMatrix (moveInput inp pos' qpos') D' S₁ S₁' C'.method C'.owner .double) (solveMatrix (moveInput inp pos' qpos') D' S₁ S₁' C'.method C'.owner .single) C C' B := by
  have hM := C85_matrices hQ hs hsim S S₁ C.owner C'.owner
  rw [hm, hm']
  refine ⟨fun i k => by rw [one_mul]; exact (hM i k).1, fun i k => by rw [one_mul]; exact (hM i k).2, hC.dirichlet, hC.neumann, fun i j => ?_, fun i j => ?_, hC.grad, hC.doubles, hh⟩
  · exact turned_dot hQ (hC.normal i) (hC.normal j)
  · unfold dot
    rw [turned_dot hQ (hC.surfGrad i) (hC.normal j), Finset.sum_div]
    exact Finset.sum_congr rfl fun a _ => by ring

/-- **C111** (hanging nodes). Both methods. On meshes with hanging nodes problems with opposite orientations fulfil the hypotheses of `C85_hanging` with the ratio -1. -/
theorem C111_hanging_related {inp : Input 3} {D D' : Data} {S S' S₁ S₁' : SingRule} (hr : Reversed D D' S S₁) (hr' : Reversed D D' S' S₁') (C C' : Setup inp.nDofs 3)
    (B : Finset (Fin inp.nDofs)) (hC : SetupReversed C C' B) (hh : C'.hanging = C.hanging) :
    UnitsH (-1) (-1) (solveMatrix inp D S S' C.method C.owner .double) (solveMatrix inp D S S' C.method C.owner .single)
      (solveMatrix inp D' S₁ S₁' C'.method C'.owner .double) (solveMatrix inp D' S₁ S₁' C'.method C'.owner .single) C C' B := by
  have hM := matrices_reversed (inp := inp) hr hr' hC.method C.owner C'.owner
  have hS := hC.similar
  refine ⟨fun i k => (hM i k).1, fun i k => (hM i k).2, hS.dirichlet, hS.neumann, fun i j => ?_, fun i j => ?_, hS.grad, hS.doubles, hh⟩
  · exact turned_dot minus_one_orthogonal (hS.normal i) (hS.normal j)
  · unfold dot
    rw [turned_dot minus_one_orthogonal (hS.surfGrad i) (hS.normal j), Finset.sum_div]
    exact Finset.sum_congr rfl fun a _ => by ring

/-- **C111** (hanging nodes, results). Both methods. If hanging nodes lie between nodes of their own kind, exact solves with opposite orientations give the same potential and opposite normal derivatives. -/
theorem C111_hanging {inp : Input 3} {D D' : Data} {S S' S₁ S₁' : SingRule} (hr : Reversed D D' S S₁) (hr' : Reversed D D' S' S₁') (C C' : Setup inp.nDofs 3)
    (gmres gmres' : (Vec inp.nDofs → Vec inp.nDofs) → Vec inp.nDofs → Vec inp.nDofs)
    (l l' : List (ℕ × ℕ)) (st st' : AlphaStatics) (phi0 dphi0 phi0' dphi0' : Vec inp.nDofs) (X X' : Solution inp.nDofs)
    (h : solve inp D S S' C gmres (alphaHistory l) phi0 dphi0 = (st, some X))
    (h' : solve inp D' S₁ S₁' C' gmres' (alphaHistory l') phi0' dphi0' = (st', some X'))
    (B : Finset (Fin inp.nDofs)) (hC : SetupReversed C C' B) (hh : C'.hanging = C.hanging)
    (hP : PosedH (solveMatrix inp D S S' C.method C.owner .double) (solveMatrix inp D S S' C.method C.owner .single) C B phi0 dphi0)
    (hP' : PosedH (solveMatrix inp D' S₁ S₁' C'.method C'.owner .double) (solveMatrix inp D' S₁ S₁' C'.method C'.owner .single) C' B phi0' dphi0')
    (hdata : Consistent C B) (hk : SameKind C B) (hdet : Determined inp D S S' C (alphaHistory l) phi0 dphi0)
    (hX : ∀ i, X.residual i = 0) (hX' : ∀ i, X'.residual i = 0) (i : Fin inp.nDofs) : X'.phi i = X.phi i ∧ X'.dphi i = -X.dphi i := by
  obtain ⟨h1, h2⟩ := C85_hanging (by norm_num) (by norm_num) (C111_hanging_related hr hr' C C' B hC hh) gmres gmres' l l' st st' phi0 dphi0 phi0' dphi0' X X' h h' hP hP' hdata
    (Or.inr hk) hdet hX hX' i
  exact ⟨h1, by rw [h2]; ring⟩

/-! ## A hanging node between nodes of the other kind -/

/-- Two nodes: node 0 Dirichlet with potential `t`, node 1 Neumann with normal derivative 0, hanging, with weight `w` of node 0. -/
def pairSetup (t w : ℝ) (procs : ℕ) : Setup 2 3 where
  method := .direct
  owner := fun i => i % procs
  procs := procs
  part := procs
  neumannNodes := fun i => if i ∈ ({0} : Finset (Fin 2)) then 0 else 1
  haveDirichletBc := true
  nodes := ⟨fun i => if i ∈ ({0} : Finset (Fin 2)) then 1 else 0, fun i => if i = 0 then t else 0, fun _ => 0, fun _ => 0, false⟩
  doubles := fun i => {i}
  hanging := fun i => if i = 1 then some [(0, w)] else none
  fuel := 2
  order := List.finRange 2

/-- Data of the pair. -/
def pairData (t : ℝ) : Vec 2 := fun i => if i = 0 then t else 0

theorem pair_posed (N M : Mat 2) (t w : ℝ) (procs : ℕ) : PosedH N M (pairSetup t w procs) {0} (pairData t) (pairData t) where
  dirichlet := fun _ => rfl
  neumann := fun _ => rfl
  bc := rfl
  phi := fun _ _ => rfl
  dphi := fun _ _ => rfl
  refl := fun i => Finset.mem_singleton_self i
  eq := fun i j hj => by rw [Finset.mem_singleton.1 hj]
  rows := fun i j hj k => by rw [Finset.mem_singleton.1 hj]; exact ⟨rfl, rfl⟩
  alone := fun i _ j hj => Finset.mem_singleton.1 hj
  order := fun i => List.mem_finRange i

theorem pair_consistent (t w : ℝ) (procs : ℕ) : Consistent (pairSetup t w procs) {0} :=
  ⟨fun i hi j _ hj => by rw [Finset.mem_singleton.1 hi, Finset.mem_singleton.1 hj], fun h => by cases h⟩

theorem pair_exact (N M : Mat 2) (t w : ℝ) (procs : ℕ) (gmres : (Vec 2 → Vec 2) → Vec 2 → Vec 2) (st : AlphaStatics) (X : Solution 2)
    (h : solveWith N M (pairSetup t w procs) gmres (alphaHistory []) (pairData t) (pairData t) = (st, some X)) :
    X.phi 0 = t ∧ X.dphi 1 = 0 ∧ ((∀ i, X.residual i = 0) ↔ N 0 1 * (X.phi 1 - t) = M 0 0 * X.dphi 0 ∧ X.phi 1 = w * X.dphi 0) := by
  have hP := pair_posed N M t w procs
  obtain ⟨-, -, p, q, -⟩ := solveWith_rows h {0} hP.dirichlet hP.neumann hP.bc hP.phi hP.dphi
  have h0 : X.phi 0 = t := by rw [p]; simp [merge, pairSetup]
  have h1 : X.dphi 1 = 0 := by rw [q]; simp [merge, pairSetup]
  refine ⟨h0, h1, ?_⟩
  rw [C91_exact_solutions N M _ gmres [] st _ _ X h {0} hP (pair_consistent t w procs)]
  constructor
  · rintro ⟨a, -, -, c⟩
    have a0 := a 0 rfl (fun g => by cases g.1)
    have c1 := c 1 [(0, w)] rfl
    unfold eqResidual at a0
    simp only [Fin.sum_univ_two, h0, h1] at a0
    simp only [unknown, merge, List.map_cons, List.map_nil, List.sum_cons, List.sum_nil] at c1
    simp at c1
    exact ⟨by linarith, c1⟩
  · rintro ⟨e1, e2⟩
    refine ⟨fun i hi _ => ?_, fun i j hj => by rw [Finset.mem_singleton.1 hj], fun hg => Bool.noConfusion hg, fun i es hes => ?_⟩
    · have : i = 0 := by
        by_contra hne
        have hi1 : i = 1 := by omega
        subst hi1
        cases hi
      subst this
      unfold eqResidual
      simp only [Fin.sum_univ_two, h0, h1]
      linarith
    · by_cases hi : i = 1
      · subst hi
        cases hes
        simp [unknown, merge, e2]
      · have hi0 : i = 0 := by omega
        subst hi0
        cases hes

theorem pair_some (N M : Mat 2) (t w : ℝ) (procs : ℕ) (x : Vec 2) : ∃ (gmres : (Vec 2 → Vec 2) → Vec 2 → Vec 2) (st : AlphaStatics) (X : Solution 2),
    solveWith N M (pairSetup t w procs) gmres (alphaHistory []) (pairData t) (pairData t) = (st, some X) ∧ X.dphi 0 = x 0 ∧ X.phi 1 = x 1 := by
  have hl := constraints_no_doubles (pairSetup t w procs).nodes (fun i => by show (if _ then _ else _) = _ ∨ (if _ then _ else _) = _; split_ifs <;> simp)
    (pairSetup t w procs).hanging (fun i hs hes e he => by
      simp only [pairSetup] at hes ⊢
      split_ifs at hes
      cases hes
      rw [List.mem_singleton.1 he]
      rfl) 2 (fun i hs hes => by
      simp only [pairSetup] at hes
      split_ifs at hes
      cases hes
      simp) (List.finRange 2)
  obtain ⟨st, X0, h0⟩ := Plane.solveWith_some N M (C := pairSetup t w procs) (fun _ _ => (0 : Vec 2)) (st := alphaHistory []) (pairData t) (pairData t)
    (by simp [alphaHistory, alphaStaticsStep, AlphaStatics.init, pairSetup]) hl
  obtain ⟨X, h, hsol⟩ := solveWith_any h0 x
  have hP := pair_posed N M t w procs
  obtain ⟨-, -, p, q, -⟩ := solveWith_rows h {0} hP.dirichlet hP.neumann hP.bc hP.phi hP.dphi
  refine ⟨_, st, X, h, ?_, ?_⟩
  · rw [q, hsol]; simp [merge]
  · rw [p, hsol]; simp [merge]

/-- **C85** (hanging nodes, refuted). At a Neumann hanging node next to a Dirichlet node the program interpolates the potential from a normal derivative: on a surface with two nodes, with matrices of the signs of
convex surfaces, the problem is regular in both units, but in another unit of length the exact result has another potential at the hanging node. -/
theorem C85_hanging_units_refuted {N M : Mat 2} (hN : N 0 1 < 0) (hM : 0 < M 0 0) {t w : ℝ} (ht : t ≠ 0) (hw : 0 < w) {s : ℝ} (hs : 0 < s) (hs1 : s ≠ 1) (procs : ℕ) :
    ∃ (gmres gmres' : (Vec 2 → Vec 2) → Vec 2 → Vec 2) (st st' : AlphaStatics) (X X' : Solution 2),
      solveWith N M (pairSetup t w procs) gmres (alphaHistory []) (pairData t) (pairData t) = (st, some X) ∧
      solveWith N (fun i k => s * M i k) (pairSetup t w procs) gmres' (alphaHistory []) (pairData t) (pairData t) = (st', some X') ∧
      UnitsH 1 s N M N (fun i k => s * M i k) (pairSetup t w procs) (pairSetup t w procs) {0} ∧
      DeterminedH N M (pairSetup t w procs) (alphaHistory []) (pairData t) (pairData t) ∧
      DeterminedH N (fun i k => s * M i k) (pairSetup t w procs) (alphaHistory []) (pairData t) (pairData t) ∧
      (∀ i, X.residual i = 0) ∧ (∀ i, X'.residual i = 0) ∧ X'.phi 1 ≠ X.phi 1 := by
  have hdet : ∀ v : ℝ, 0 < v → DeterminedH N (fun i k => v * M i k) (pairSetup t w procs) (alphaHistory []) (pairData t) (pairData t) := by
    intro v hv g₁ g₂ st₁ st₂ X₁ X₂ h₁ h₂ r₁ r₂
    obtain ⟨a1, a2, a3⟩ := pair_exact _ _ t w procs g₁ st₁ X₁ h₁
    obtain ⟨b1, b2, b3⟩ := pair_exact _ _ t w procs g₂ st₂ X₂ h₂
    obtain ⟨a4, a5⟩ := a3.1 r₁
    obtain ⟨b4, b5⟩ := b3.1 r₂
    have hne : N 0 1 * w - v * M 0 0 ≠ 0 := by nlinarith [mul_pos hv hM, mul_pos_of_neg_of_neg hN (neg_neg_of_pos hw)]
    have e : (N 0 1 * w - v * M 0 0) * (X₁.dphi 0 - X₂.dphi 0) = 0 := by
      rw [a5] at a4
      rw [b5] at b4
      linear_combination a4 - b4
    have e0 := (mul_eq_zero.1 e).resolve_left hne
    have d0 : X₁.dphi 0 = X₂.dphi 0 := by linarith
    constructor <;> funext i <;> fin_cases i
    · exact a1.trans b1.symm
    · show X₁.phi 1 = X₂.phi 1
      rw [a5, b5, d0]
    · exact d0
    · exact a2.trans b2.symm
  have hex : ∀ v : ℝ, 0 < v → ∃ (gmres : (Vec 2 → Vec 2) → Vec 2 → Vec 2) (st : AlphaStatics) (X : Solution 2),
      solveWith N (fun i k => v * M i k) (pairSetup t w procs) gmres (alphaHistory []) (pairData t) (pairData t) = (st, some X) ∧ (∀ i, X.residual i = 0) ∧
      (N 0 1 * w - v * M 0 0) * X.phi 1 = w * (N 0 1 * t) := by
    intro v hv
    have hne : N 0 1 * w - v * M 0 0 ≠ 0 := by nlinarith [mul_pos hv hM, mul_pos_of_neg_of_neg hN (neg_neg_of_pos hw)]
    obtain ⟨g, st, X, h, q, p⟩ := pair_some N (fun i k => v * M i k) t w procs
      ![N 0 1 * t / (N 0 1 * w - v * M 0 0), w * (N 0 1 * t / (N 0 1 * w - v * M 0 0))]
    simp only [Matrix.cons_val_zero, Matrix.cons_val_one] at q p
    refine ⟨g, st, X, h, (pair_exact _ _ t w procs g st X h).2.2.2 ⟨?_, by rw [p, q]⟩, ?_⟩
    · rw [p, q]
      field_simp
      ring
    · rw [p]
      field_simp
  obtain ⟨g, st, X, h, rX, eX⟩ := hex 1 one_pos
  obtain ⟨g', st', X', h', rX', eX'⟩ := hex s hs
  have e1 : (fun i k => (1 : ℝ) * M i k) = M := by funext i k; exact one_mul _
  have d1 := hdet 1 one_pos
  rw [e1] at h d1
  refine ⟨g, g', st, st', X, X', h, h', ⟨fun i k => (one_mul _).symm, fun i k => (one_mul _).symm, fun _ _ => rfl, fun i hi => ?_, fun _ _ => rfl, fun i j => ?_, rfl, rfl, rfl⟩,
    d1, hdet s hs, rX, rX', fun he => ?_⟩
  · have hi0 : i ≠ 0 := fun h0 => hi (Finset.mem_singleton.2 h0)
    simp [pairSetup, hi0]
  · simp [pairSetup, dot]
  · rw [he] at eX'
    have hz : (s - 1) * M 0 0 * X.phi 1 = 0 := by linear_combination eX - eX'
    have hz' : X.phi 1 = 0 := (mul_eq_zero.1 hz).resolve_left (mul_ne_zero (sub_ne_zero.2 hs1) hM.ne')
    rw [hz', mul_zero] at eX
    exact mul_ne_zero hw.ne' (mul_ne_zero hN.ne ht) eX.symm

/-! ## The hypotheses are met -/

theorem cubeHang_posed (N M : Mat 8) (procs : ℕ) (g : Vec 8) : PosedH N M (cubeHang procs g) ({7} : Finset (Fin 8)) g g where
  dirichlet := fun _ => rfl
  neumann := fun _ => rfl
  bc := rfl
  phi := fun _ _ => rfl
  dphi := fun _ _ => rfl
  refl := fun i => Finset.mem_singleton_self i
  eq := fun i j hj => by rw [Finset.mem_singleton.1 hj]
  rows := fun i j hj k => by rw [Finset.mem_singleton.1 hj]; exact ⟨rfl, rfl⟩
  alone := fun i _ j hj => Finset.mem_singleton.1 hj
  order := fun i => List.mem_finRange i

theorem cubeHang_consistent (procs : ℕ) (g : Vec 8) : Consistent (cubeHang procs g) ({7} : Finset (Fin 8)) :=
  ⟨fun i hi j _ hj => by rw [Finset.mem_singleton.1 hi, Finset.mem_singleton.1 hj], fun h => Bool.noConfusion h⟩

theorem cubeHang_same (procs : ℕ) (g : Vec 8) : SameKind (cubeHang procs g) ({7} : Finset (Fin 8)) := fun i es hes e he =>
  ⟨fun h => absurd h ((mid_same i es hes).2 e he), fun h => absurd h (mid_same i es hes).1⟩

theorem cubeHang_connected (procs : ℕ) (g : Vec 8) (i k : Fin 8) :
    Relation.ReflTransGen (PassesTo (cubeInput 3 0) cubeData faceRule (cubeHang procs g)) i k := by
  have free : ∀ i k : Fin 8, i ≠ 3 → Relation.ReflTransGen (PassesTo (cubeInput 3 0) cubeData faceRule (cubeHang procs g)) i k := by
    intro i k hi
    by_cases hk : i = k
    · rw [hk]; exact .refl
    · refine .single ?_
      have hn : (cubeHang procs g).hanging i = none := if_neg hi
      unfold PassesTo
      rw [hn]
      exact cube_sees hk
  by_cases hi : i = 3
  · subst hi
    refine .head (b := (1 : Fin 8)) ?_ (free 1 k (by decide))
    have hn : (cubeHang procs g).hanging (3 : Fin 8) = some [((1 : Fin 8), (1 / 2 : ℝ)), ((2 : Fin 8), (1 / 2 : ℝ))] :=
      show midHanging 3 = _ by simp [midHanging]
    unfold PassesTo
    rw [hn]
    exact List.mem_cons_self ..
  · exact free i k hi

/-- All hypotheses of `C85_hanging` and `C85_hanging_dimension3` hold for the cube with a hanging node and its image, rotated and twice as large, for every datum and all numbers of processes. -/
example (S S₁ : SingRule) (procs procs' : ℕ) (g : Vec 8) : ∃ (pos' : ℕ → Octree.Pt 3) (qpos' : ℕ × ℕ → Octree.Pt 3) (D' : Data) (S₁' : SingRule)
    (Q : Matrix (Fin 3) (Fin 3) ℝ) (b : Fin 3 → ℝ) (g' : Vec 8) (gmres gmres' : (Vec 8 → Vec 8) → Vec 8 → Vec 8) (st st' : AlphaStatics) (X X' : Solution 8),
    Q.transpose * Q = 1 ∧ Similar Q 2 b (cubeInput 3 0) (moveInput (cubeInput 3 0) pos' qpos') cubeData D' faceRule S₁' ∧
    SetupSimilar Q 2 (cubeHang procs g) (cubeHang procs' g') ({7} : Finset (Fin 8)) ∧
    solve (cubeInput 3 0) cubeData S faceRule (cubeHang procs g) gmres (alphaHistory []) g g = (st, some X) ∧
    solve (moveInput (cubeInput 3 0) pos' qpos') D' S₁ S₁' (cubeHang procs' g') gmres' (alphaHistory []) g' g' = (st', some X') ∧
    (∀ i, X.residual i = 0) ∧ (∀ i, X'.residual i = 0) ∧
    Determined (cubeInput 3 0) cubeData S faceRule (cubeHang procs g) (alphaHistory []) g g ∧ ∀ i, X'.phi i = X.phi i ∧ X'.dphi i = X.dphi i / 2 := by
  obtain ⟨g', hg'⟩ : ∃ g' : Vec 8, g' = fun i => if i ∈ ({7} : Finset (Fin 8)) then g i else g i / 2 := ⟨_, rfl⟩
  have lines : ∀ (procs : ℕ) (g : Vec 8), _ := fun procs g => constraints_no_doubles (n := 8) (d := 3) (cubeHang procs g).nodes
    (fun i => by show (if _ then _ else _) = _ ∨ (if _ then _ else _) = _; split_ifs <;> simp) midHanging mid_closed 3 mid_length (List.finRange 8)
  obtain ⟨st0, X0, h0⟩ := solve_some (inp := cubeInput 3 0) (D := cubeData) (S := S) (S' := faceRule) (C := cubeHang procs g)
    (gmres := fun _ _ => (0 : Vec 8)) (st := alphaHistory []) (phi0 := g) (dphi0 := g)
    (by simp [alphaHistory, alphaStaticsStep, AlphaStatics.init, cubeInput]) (lines procs g)
  obtain ⟨⟨gm, st, X, h, rX⟩, hdet⟩ := C114_convex_hanging (S := S) cube_convex cube_apart (cubeHang procs g) rfl (cubeHang_connected procs g) [] g g (7 : Fin 8)
    (cubeHang_posed _ _ procs g) ⟨mid_weights, mid_total, mid_same⟩ ⟨_, st0, X0, h0⟩
  have hQ := rot35_orthogonal
  have hsim := similar_moved rot35 2 ![1, 0, 0] (cubeInput 3 0) cubeData faceRule
  rw [show (((2 : ℚ) : ℝ)) = 2 by norm_num] at hsim
  have hC : SetupSimilar (rot35.map fun q => (q : ℝ)) 2 (cubeHang procs g) (cubeHang procs' g') ({7} : Finset (Fin 8)) := by
    refine ⟨fun (i : Fin 8) hi => ?_, fun (i : Fin 8) hi => ?_, fun i a => ?_, fun i a => ?_, rfl, rfl⟩
    · show g' i = g i
      rw [hg']; exact if_pos hi
    · show g' i = g i / 2
      rw [hg']; exact if_neg hi
    · simp [cubeHang, cubeSetup]
    · simp [cubeHang, cubeSetup]
  obtain ⟨st1, X1, h1⟩ := solve_some (inp := moveInput (cubeInput 3 0) (fun i => movedPt rot35 2 ![1, 0, 0] ((cubeInput 3 0).pos i))
      (fun q => movedPt rot35 2 ![1, 0, 0] ((cubeInput 3 0).qpos q))) (D := movedData (rot35.map fun q => (q : ℝ)) 2 cubeData) (S := S₁)
    (S' := movedRule (rot35.map fun q => (q : ℝ)) 2 (toV ![1, 0, 0]) faceRule) (C := cubeHang procs' g')
    (gmres := fun _ _ => (0 : Vec 8)) (st := alphaHistory []) (phi0 := g') (dphi0 := g')
    (by simp [alphaHistory, alphaStaticsStep, AlphaStatics.init, cubeInput, moveInput]) (lines procs' g')
  have hU := C85_hanging_dimension3 (S := S) (S₁ := S₁) hQ two_pos hsim (cubeHang procs g) (cubeHang procs' g') ({7} : Finset (Fin 8)) hC rfl rfl rfl
  obtain ⟨X', h', hsol⟩ := solve_any h1 (fun (i : Fin 8) => if i ∈ ({7} : Finset (Fin 8)) then X.sol i / 2 else X.sol i)
  have hP := cubeHang_posed (solveMatrix (cubeInput 3 0) cubeData S faceRule (cubeHang procs g).method (cubeHang procs g).owner .double)
    (solveMatrix (cubeInput 3 0) cubeData S faceRule (cubeHang procs g).method (cubeHang procs g).owner .single) procs g
  have hP' : ∀ N M : Mat 8, PosedH N M (cubeHang procs' g') ({7} : Finset (Fin 8)) g' g' := fun N M => cubeHang_posed N M procs' g'
  obtain ⟨-, -, p, q, -⟩ := solve_rows h ({7} : Finset (Fin 8)) hP.dirichlet hP.neumann hP.bc hP.phi hP.dphi
  obtain ⟨-, -, p', q', -⟩ := solve_rows h' ({7} : Finset (Fin 8)) (hP' 0 0).dirichlet (hP' 0 0).neumann (hP' 0 0).bc (hP' 0 0).phi (hP' 0 0).dphi
  have hphi : ∀ i, X'.phi i = X.phi i := by
    intro (i : Fin 8)
    rw [p, p', hsol]
    by_cases hi : i ∈ ({7} : Finset (Fin 8))
    · exact (if_pos hi).trans ((hC.dirichlet i hi).trans (if_pos hi).symm)
    · exact (if_neg hi).trans ((if_neg hi).trans (if_neg hi).symm)
  have hdphi : ∀ i, X'.dphi i = X.dphi i / 2 := by
    intro (i : Fin 8)
    rw [q, q', hsol]
    by_cases hi : i ∈ ({7} : Finset (Fin 8))
    · exact (if_pos hi).trans ((if_pos hi).trans (congrArg (· / 2) (if_pos hi).symm))
    · exact (if_neg hi).trans ((hC.neumann i hi).trans (congrArg (· / 2) (if_neg hi).symm))
  have rX' := (C85_hanging_units one_ne_zero two_ne_zero hU gm _ [] [] st _ g g g' g' X X' h h' hP (hP' _ _) (cubeHang_consistent procs g) hphi hdphi rX).2
    (Or.inr fun i es hes => (cubeHang_same procs g).zero _ i es hes)
  exact ⟨_, _, _, _, _, _, g', gm, _, st, _, X, X', hQ, hsim, hC, h, h', rX, rX', hdet, fun i => ⟨hphi i, hdphi i⟩⟩

end PiBem.Bem
