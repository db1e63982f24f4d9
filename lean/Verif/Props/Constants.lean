import Verif.Props.Hanging
import Verif.Props.Gradient

/-!
# C75 (hanging nodes between Dirichlet and Neumann cells), C76 (constant potentials, superposition)
-/

namespace PiBem.Bem

variable {n d : ℕ}

theorem vmult_unknown (P : Problem n) (S : Finset (Fin n)) (hS : Masks P S) (hb : P.haveDirichletBc = true) (x g : Vec n)
    (i : Fin n) : vmult P x i = computeRhs P 0 g i ↔
      BIE P.neumannMatrix P.dirichletMatrix P.alpha (merge S g x) (merge S x g) i := by
  have := row_residual P S hS hb x g i
  unfold BIE
  constructor <;> intro h <;> linarith

/-- **C76**. Let the data be those of the constant potential `k`: value `k` at the Dirichlet nodes, normal derivative zero
at the others. If at each hanging node and at the ends of its edge the same quantity is unknown, the surface
gradient of the data is zero at the Dirichlet nodes and (with continuous gradients) Dirichlet nodes coincide only at sharp edges, then
potential `k` and normal derivative zero solve exactly the linear system of both methods, whatever mesh, quadrature, matrices and
partition: `alpha` is the one of `compute_alpha`. If the system has one solution, this is what the solver returns. -/
theorem C76_constants (P : Problem n) (S : Finset (Fin n)) (hS : Masks P S) (hb : P.haveDirichletBc = true)
    (halpha : ∀ i, P.alpha i + ∑ j, P.neumannMatrix i j = 0)
    (D : NodeData n d) (hD : D.dirichlet = P.dirichletNodes) (G : Fin n → Finset (Fin n)) (hrefl : ∀ i, i ∈ G i)
    (heq : ∀ i j, j ∈ G i → G j = G i) (h : Hanging n) (fuel : ℕ) (order : List (Fin n)) (hord : ∀ i, i ∈ order)
    {c : Lines n} (hc : computeConstraints D G h fuel order = some c) (k : ℝ)
    (hdata : ∀ i, D.tmpRhs i = if i ∈ S then k else 0)
    (hgrad : ∀ i ∈ S, D.surfGrad i = 0)
    (hsharp : D.continuosGradient = true → ∀ i ∈ S, ∀ j ∈ G i, j ∈ S → j ≠ i → dot (D.normal i) (D.normal j) ^ 2 ≠ 1)
    (hsame : ∀ i hs, h i = some hs → ∀ e ∈ hs, e.1 ∈ S ↔ i ∈ S)
    (hone : ∀ i hs, h i = some hs → (hs.map Prod.snd).sum = 1) (procs : ℕ) (own : Fin n → ℕ) :
    let x : Vec n := fun i => if i ∈ S then 0 else k
    constrainedVmult procs own (vmult P) (toConstraints c) x = distributeRhs (toConstraints c) (computeRhs P 0 D.tmpRhs) ∧
    ((∀ y z : Vec n, constrainedVmult procs own (vmult P) (toConstraints c) y = constrainedVmult procs own (vmult P) (toConstraints c) z →
        y = z) →
      ∀ sol phi0 dphi0 : Vec n, (∀ i ∈ S, phi0 i = k) → (∀ i, i ∉ S → dphi0 i = 0) →
        constrainedVmult procs own (vmult P) (toConstraints c) sol = distributeRhs (toConstraints c) (computeRhs P 0 D.tmpRhs) →
        storeSolution P.dirichletNodes sol phi0 dphi0 = (fun _ => k, fun _ => 0)) := by
  intro x
  have hdir : ∀ i, D.dirichlet i = if i ∈ S then 1 else 0 := fun i => by rw [hD]; exact hS.dirichlet i
  have hd : ∀ i, D.dirichlet i = 0 ∨ D.dirichlet i = 1 := by
    intro i; rw [hdir]; split_ifs <;> simp
  have hd0 : ∀ i, D.dirichlet i = 0 ↔ i ∉ S := by intro i; rw [hdir]; split_ifs with hi <;> simp [hi]
  have hd1 : ∀ i, D.dirichlet i = 1 ↔ i ∈ S := by intro i; rw [hdir]; split_ifs with hi <;> simp [hi]
  obtain ⟨c1, _, _⟩ := C75_constraints D G hrefl heq hd h fuel order hord hc
  have hdot : ∀ v : Fin d → ℝ, dot (0 : Fin d → ℝ) v = 0 := fun v => by simp [dot]
  have hlines : LinesHold c x := by
    refine (c1 x).2 ⟨⟨fun i l hi hl => ?_, fun i l hi hl _ => ?_, fun hg i l hi hl hne => ?_, fun hg i m hi hm hne => ?_⟩,
      fun i hs hh => ?_⟩
    · have hiS := (hd0 i).1 hi
      have hlS := (hd1 l).1 hl.2.1
      simp [x, hiS, hdata, hlS]
    · have hiS := (hd0 i).1 (hi i (hrefl i))
      have hlS := (hd0 l).1 (hi l hl)
      simp [x, hiS, hlS]
    · have hiS := (hd1 i).1 hi
      have hlS := (hd1 l).1 hl.2.1
      have hsh := hsharp hg l hlS i (by rw [heq i l hl.1]; exact hrefl i) hiS hne
      unfold otherNormalGradient fdiv
      rw [if_neg (fun h0 => hsh (by linarith)), hgrad l hlS, hgrad i hiS]
      simp [x, hiS, hdot]
    · have hiS := (hd1 i).1 hi.2.1
      have hmS := (hd1 m).1 hm.2.1
      have hsh := hsharp hg i hiS m hm.1 hmS hne
      unfold thisNormalGradient fdiv
      rw [if_neg (fun h0 => hsh (by linarith)), hgrad i hiS, hgrad m hmS]
      simp [x, hiS, hdot]
    · have hsm := hsame i hs hh
      by_cases hiS : i ∈ S
      · have : (hs.map fun e => e.2 * x e.1) = hs.map fun _ => (0 : ℝ) :=
          List.map_congr_left fun e he => by simp [x, (hsm e he).2 hiS]
        rw [this]
        simp [x, hiS]
      · have : (hs.map fun e => e.2 * x e.1) = hs.map fun e => e.2 * k :=
          List.map_congr_left fun e he => by simp [x, (hsm e he).not.2 hiS]
        rw [this, List.sum_map_mul_right]
        have h1 := hone i hs hh
        rw [h1]
        simp [x, hiS]
  have hsol : constrainedVmult procs own (vmult P) (toConstraints c) x =
      distributeRhs (toConstraints c) (computeRhs P 0 D.tmpRhs) := by
    refine (C22_constrained_solution procs own (vmult P) _ x _).2 ⟨fun i es g hci => ?_, fun i _ => ?_⟩
    · simp only [toConstraints, Option.map_eq_some_iff] at hci
      obtain ⟨⟨es', g'⟩, hce, he⟩ := hci
      cases he
      obtain ⟨v, hv, e⟩ := hlines i es' g' hce
      rw [hv]; exact e
    · rw [vmult_unknown P S hS hb]
      have m1 : merge S D.tmpRhs x = fun _ => k := by
        funext j; unfold merge; split_ifs with hj <;> simp [hdata, x, hj]
      have m2 : merge S x D.tmpRhs = fun _ => 0 := by
        funext j; unfold merge; split_ifs with hj <;> simp [hdata, x, hj]
      rw [m1, m2]
      unfold BIE
      rw [← Finset.sum_mul, ← add_mul, halpha]
      simp
  refine ⟨hsol, fun hinj sol phi0 dphi0 hp hdp hs => ?_⟩
  have hx : sol = x := hinj sol x (hs.trans hsol.symm)
  rw [C26_prescribed_data_kept P S hS, hx]
  refine Prod.ext ?_ ?_ <;> funext j <;> unfold merge <;> dsimp only <;> split_ifs with hj
  · exact hp j hj
  · simp [x, hj]
  · simp [x, hj]
  · exact hdp j hj

/-- **C76**, necessity. If a hanging node is a Neumann node and the ends of its edge are Dirichlet nodes (a coarse Dirichlet cell next to
refined Neumann cells), the constant potential `k ≠ 0` does not solve the system, whatever the matrices: the program makes the
potential at the node equal to the mean of the normal derivatives. -/
theorem C76_constants_fail (P : Problem n) (S : Finset (Fin n)) (D : NodeData n d)
    (hdir : ∀ i, D.dirichlet i = if i ∈ S then 1 else 0) (G : Fin n → Finset (Fin n)) (hrefl : ∀ i, i ∈ G i)
    (heq : ∀ i j, j ∈ G i → G j = G i) (h : Hanging n) (fuel : ℕ) (order : List (Fin n)) (hord : ∀ i, i ∈ order)
    {c : Lines n} (hc : computeConstraints D G h fuel order = some c)
    (hfin : ∀ i es g, c i = some (es, g) → g.isSome) (k : ℝ) (hk : k ≠ 0)
    (i : Fin n) (hs : List (Fin n × ℝ)) (hh : h i = some hs) (hi : i ∉ S) (he : ∀ e ∈ hs, e.1 ∈ S) (procs : ℕ) (own : Fin n → ℕ) :
    constrainedVmult procs own (vmult P) (toConstraints c) (fun i => if i ∈ S then 0 else k) ≠
      distributeRhs (toConstraints c) (computeRhs P 0 D.tmpRhs) := by
  intro hsol
  have hd : ∀ i, D.dirichlet i = 0 ∨ D.dirichlet i = 1 := by
    intro i; rw [hdir]; split_ifs <;> simp
  obtain ⟨s1, _⟩ := (C22_constrained_solution procs own (vmult P) _ _ _).mp hsol
  obtain ⟨c1, _, _⟩ := C75_constraints D G hrefl heq hd h fuel order hord hc
  have hlines : LinesHold c (fun i => if i ∈ S then 0 else k) := by
    intro i es g hci
    obtain ⟨v, hv⟩ := Option.isSome_iff_exists.1 (hfin i es g hci)
    subst hv
    exact ⟨v, rfl, s1 i es v (by simp [toConstraints, hci])⟩
  have := ((c1 _).1 hlines).2 i hs hh
  have h0 : (hs.map fun e => e.2 * if e.1 ∈ S then 0 else k) = hs.map fun _ => (0 : ℝ) :=
    List.map_congr_left fun e hes => by simp [he e hes]
  rw [h0] at this
  simp [hi] at this
  exact hk this

/-- **C76**, superposition. Solutions for data `g₁`, `g₂` (boundary data and the surface gradients computed from them) combine to
solutions for the combined data. -/
theorem C76_superposition (P : Problem n) (S : Finset (Fin n)) (hS : Masks P S) (hb : P.haveDirichletBc = true)
    (D D₁ D₂ : NodeData n d) (hD : D.dirichlet = P.dirichletNodes) (h1 : D₁.dirichlet = D.dirichlet) (h2 : D₂.dirichlet = D.dirichlet)
    (n1 : D₁.normal = D.normal) (n2 : D₂.normal = D.normal) (g1 : D₁.continuosGradient = D.continuosGradient)
    (g2 : D₂.continuosGradient = D.continuosGradient) (a b : ℝ)
    (hrhs : ∀ i, D.tmpRhs i = a * D₁.tmpRhs i + b * D₂.tmpRhs i)
    (hgrad : ∀ i k, D.surfGrad i k = a * D₁.surfGrad i k + b * D₂.surfGrad i k)
    (G : Fin n → Finset (Fin n)) (hrefl : ∀ i, i ∈ G i) (heq : ∀ i j, j ∈ G i → G j = G i) (h : Hanging n) (fuel : ℕ)
    (order : List (Fin n)) (hord : ∀ i, i ∈ order) {c c₁ c₂ : Lines n} (hc : computeConstraints D G h fuel order = some c)
    (hc₁ : computeConstraints D₁ G h fuel order = some c₁) (hc₂ : computeConstraints D₂ G h fuel order = some c₂)
    (hfin₁ : ∀ i es g, c₁ i = some (es, g) → g.isSome) (hfin₂ : ∀ i es g, c₂ i = some (es, g) → g.isSome)
    (procs : ℕ) (own : Fin n → ℕ) (x₁ x₂ : Vec n)
    (hx₁ : constrainedVmult procs own (vmult P) (toConstraints c₁) x₁ = distributeRhs (toConstraints c₁) (computeRhs P 0 D₁.tmpRhs))
    (hx₂ : constrainedVmult procs own (vmult P) (toConstraints c₂) x₂ = distributeRhs (toConstraints c₂) (computeRhs P 0 D₂.tmpRhs)) :
    constrainedVmult procs own (vmult P) (toConstraints c) (fun i => a * x₁ i + b * x₂ i) =
      distributeRhs (toConstraints c) (computeRhs P 0 D.tmpRhs) := by
  have hdir : ∀ i, D.dirichlet i = if i ∈ S then 1 else 0 := fun i => by rw [hD]; exact hS.dirichlet i
  have hd : ∀ i, D.dirichlet i = 0 ∨ D.dirichlet i = 1 := by
    intro i; rw [hdir]; split_ifs <;> simp
  obtain ⟨a1, a2, a3⟩ := C75_constraints D G hrefl heq hd h fuel order hord hc
  obtain ⟨b1, b2, _⟩ := C75_constraints D₁ G hrefl heq (h1 ▸ hd) h fuel order hord hc₁
  obtain ⟨d1, d2, _⟩ := C75_constraints D₂ G hrefl heq (h2 ▸ hd) h fuel order hord hc₂
  obtain ⟨s1, t1⟩ := (C22_constrained_solution procs own (vmult P) _ _ _).mp hx₁
  obtain ⟨s2, t2⟩ := (C22_constrained_solution procs own (vmult P) _ _ _).mp hx₂
  have hl : ∀ {c : Lines n} {x : Vec n}, (∀ i es g, c i = some (es, g) → g.isSome) →
      (∀ i es g, toConstraints c i = some (es, g) → x i = (es.map fun e => e.2 * x e.1).sum + g) → LinesHold c x := by
    intro c x hf hs i es g hci
    obtain ⟨v, hv⟩ := Option.isSome_iff_exists.1 (hf i es g hci)
    subst hv
    exact ⟨v, rfl, hs i es v (by simp [toConstraints, hci])⟩
  obtain ⟨u1, v1⟩ := (b1 x₁).1 (hl hfin₁ s1)
  obtain ⟨u2, v2⟩ := (d1 x₂).1 (hl hfin₂ s2)
  have first_iff : ∀ {E : NodeData n d}, E.dirichlet = D.dirichlet → ∀ (g : Finset (Fin n)) l,
      IsFirstDirichlet E g l ↔ IsFirstDirichlet D g l := by
    intro E hE g l; unfold IsFirstDirichlet; rw [hE]
  have last_iff : ∀ {E : NodeData n d}, E.dirichlet = D.dirichlet → ∀ (g : Finset (Fin n)) l,
      IsLastDirichlet E g l ↔ IsLastDirichlet D g l := by
    intro E hE g l; unfold IsLastDirichlet; rw [hE]
  have hdot : ∀ i v, dot (D.surfGrad i) v = a * dot (D₁.surfGrad i) v + b * dot (D₂.surfGrad i) v := by
    intro i v
    unfold dot
    rw [Finset.mul_sum, Finset.mul_sum, ← Finset.sum_add_distrib]
    exact Finset.sum_congr rfl fun k _ => by rw [hgrad]; ring
  have hlines : LinesHold c fun i => a * x₁ i + b * x₂ i := by
    refine (a1 _).2 ⟨⟨fun i l hi hl => ?_, fun i l hi hl hm => ?_, fun hg i l hi hl hne => ?_, fun hg i m hi hm hne => ?_⟩,
      fun i hs hh => ?_⟩
    · rw [hrhs, u1.mixed i l (by rw [h1]; exact hi) ((first_iff h1 _ _).2 hl),
        u2.mixed i l (by rw [h2]; exact hi) ((first_iff h2 _ _).2 hl)]
    · simp only [u1.neumann i l (by rw [h1]; exact hi) hl hm, u2.neumann i l (by rw [h2]; exact hi) hl hm]
    · have e1 := u1.follower (g1.trans hg) i l (by rw [h1]; exact hi) ((first_iff h1 _ _).2 hl) hne
      have e2 := u2.follower (g2.trans hg) i l (by rw [h2]; exact hi) ((first_iff h2 _ _).2 hl) hne
      unfold otherNormalGradient fdiv at e1 e2 ⊢
      rw [n1] at e1
      rw [n2] at e2
      split_ifs at e1 e2 ⊢ with hz
      · cases e1
      · simp only [Option.map_some, Option.some.injEq] at e1 e2 ⊢
        rw [← e1, ← e2, hdot, hdot]; ring
    · have e1 := u1.first (g1.trans hg) i m ((first_iff h1 _ _).2 hi) ((last_iff h1 _ _).2 hm) hne
      have e2 := u2.first (g2.trans hg) i m ((first_iff h2 _ _).2 hi) ((last_iff h2 _ _).2 hm) hne
      unfold thisNormalGradient fdiv at e1 e2 ⊢
      rw [n1] at e1
      rw [n2] at e2
      split_ifs at e1 e2 ⊢ with hz
      · cases e1
      · simp only [Option.map_some, Option.some.injEq] at e1 e2 ⊢
        rw [← e1, ← e2, hdot, hdot]; ring
    · simp only [v1 i hs hh, v2 i hs hh]
      rw [← List.sum_map_mul_left, ← List.sum_map_mul_left, ← List.sum_map_add]
      congr 1
      exact List.map_congr_left fun e _ => by ring
  refine (C22_constrained_solution procs own (vmult P) _ _ _).2 ⟨fun i es g hci => ?_, fun i hci => ?_⟩
  · simp only [toConstraints, Option.map_eq_some_iff] at hci
    obtain ⟨⟨es', g'⟩, hce, he⟩ := hci
    cases he
    obtain ⟨v, hv, e⟩ := hlines i es' g' hce
    rw [hv]; exact e
  · have hcn : c i = none := by simpa [toConstraints] using hci
    have hc1 : c₁ i = none := by
      rw [← Option.not_isSome_iff_eq_none, b2 i, h1, g1, ← a2 i, hcn]; simp
    have hc2 : c₂ i = none := by
      rw [← Option.not_isSome_iff_eq_none, d2 i, h2, g2, ← a2 i, hcn]; simp
    have r1 := (vmult_unknown P S hS hb _ _ i).1 (t1 i (by simp [toConstraints, hc1]))
    have r2 := (vmult_unknown P S hS hb _ _ i).1 (t2 i (by simp [toConstraints, hc2]))
    rw [vmult_unknown P S hS hb]
    have m1 : merge S D.tmpRhs (fun i => a * x₁ i + b * x₂ i) =
        fun j => a * merge S D₁.tmpRhs x₁ j + b * merge S D₂.tmpRhs x₂ j := by
      funext j; unfold merge; split_ifs <;> simp [hrhs]
    have m2 : merge S (fun i => a * x₁ i + b * x₂ i) D.tmpRhs =
        fun j => a * merge S x₁ D₁.tmpRhs j + b * merge S x₂ D₂.tmpRhs j := by
      funext j; unfold merge; split_ifs <;> simp [hrhs]
    unfold BIE at r1 r2 ⊢
    have lin : ∀ (M : Fin n → ℝ) (y z : Vec n), ∑ j, M j * (a * y j + b * z j) = a * ∑ j, M j * y j + b * ∑ j, M j * z j := by
      intro M y z
      rw [Finset.mul_sum, Finset.mul_sum, ← Finset.sum_add_distrib]
      exact Finset.sum_congr rfl fun j _ => by ring
    rw [m1, m2, lin, lin]
    linear_combination a * r1 + b * r2

/-! ### Examples -/

/-- Three nodes: 0 and 1 on a Dirichlet cell, 2 on two Neumann cells, in the middle of the edge of the Dirichlet cell. -/
def mixedCells : List (BCell 3) := [⟨0, 1, [0, 1]⟩, ⟨0, 2, [0, 2]⟩, ⟨0, 2, [2, 1]⟩]

noncomputable def mixedProblem : Problem 3 where
  neumannMatrix := fun i j => if i = j then -1 else 0
  dirichletMatrix := fun i j => if i = j then 1 else 0
  alpha := fun _ => 1
  dirichletNodes := dirichletNodes [1] mixedCells (fun _ => 0)
  neumannNodes := neumannNodes [1] mixedCells (fun _ => 0)
  haveDirichletBc := true
  method := .direct

theorem mixed_masks : Masks mixedProblem {0, 1} := by
  have key : ∀ i : Fin 3, (∃ c ∈ mixedCells, c.subdomain = 0 ∧ c.isDirichlet [1] ∧ i ∈ c.dofs) ↔ i ∈ ({0, 1} : Finset (Fin 3)) := by
    unfold BCell.isDirichlet mixedCells; decide
  refine ⟨fun i => ?_, fun i => ?_⟩ <;>
  · obtain ⟨h1, h2⟩ := C29_complementary [1] mixedCells (fun _ : Fin 3 => 0) i
    change dirichletNodes [1] mixedCells (fun _ => 0) i = 1 ↔ _ at h2
    rw [key i] at h2
    rcases h1 with ⟨a, b⟩ | ⟨a, b⟩
    · simp only [mixedProblem, a, b, if_pos (h2.1 a)]
    · have : i ∉ ({0, 1} : Finset (Fin 3)) := fun hi => by rw [h2.2 hi] at a; norm_num at a
      simp only [mixedProblem, a, b, if_neg this]

noncomputable def mixedData : NodeData 3 2 :=
  ⟨mixedProblem.dirichletNodes, fun i => if i ∈ ({0, 1} : Finset (Fin 3)) then 1 else 0, fun _ => ![1, 0], fun _ => 0, true⟩

theorem mixed_constraints (fuel : ℕ) (hf : 2 < fuel) (order : List (Fin 3)) :
    computeConstraints mixedData (fun i => {i}) midpoint fuel order = some fun i => (midpoint i).map fun hs => (hs, some 0) :=
  constraints_no_doubles _ (fun i => by
    have := mixed_masks.dirichlet i
    simp only [mixedData]
    rw [this]; split_ifs <;> simp) midpoint midpoint_closed fuel
    (fun i hs hh => lt_of_lt_of_le (midpoint_length i hs hh) hf) order

/-- **C75**, refutation of the interpolation of the potential at all hanging nodes: the potential is prescribed equal to 1 on the coarse Dirichlet
cell, whose edge has the hanging node 2 of the Neumann cells, and the normal derivative is prescribed equal to zero there. The potential 1 satisfies the integral equation
at all nodes, with normal derivative zero. The system has one solution, and it gives potential 0 at node 2. -/
theorem C75_mixed_refuted : ∃ (P : Problem 3) (S : Finset (Fin 3)) (D : NodeData 3 2) (h : Hanging 3) (c : Lines 3),
    Masks P S ∧ P.haveDirichletBc = true ∧ D.dirichlet = P.dirichletNodes ∧ h 2 = some [(0, 1 / 2), (1, 1 / 2)] ∧
    (∀ fuel, 2 < fuel → ∀ order, computeConstraints D (fun i => {i}) h fuel order = some c) ∧
    (∀ i, BIE P.neumannMatrix P.dirichletMatrix P.alpha (fun _ => 1) (fun _ => 0) i) ∧
    (∀ i, D.tmpRhs i = if i ∈ S then 1 else 0) ∧
    (∃ sol, constrainedVmult 1 (fun _ => 0) (vmult P) (toConstraints c) sol =
      distributeRhs (toConstraints c) (computeRhs P 0 D.tmpRhs)) ∧
    ∀ sol, constrainedVmult 1 (fun _ => 0) (vmult P) (toConstraints c) sol =
        distributeRhs (toConstraints c) (computeRhs P 0 D.tmpRhs) →
      storeSolution P.dirichletNodes sol (fun i => if i ∈ S then 1 else 0) (fun _ => 0) = (![1, 1, 0], fun _ => 0) := by
  refine ⟨mixedProblem, {0, 1}, mixedData, midpoint, fun i => (midpoint i).map fun hs => (hs, some 0), mixed_masks, rfl, rfl,
    by simp [midpoint], fun fuel hf order => mixed_constraints fuel hf order, fun i => ?_, fun i => rfl, ?_⟩
  · fin_cases i <;> simp [BIE, mixedProblem]
  have hiff : ∀ sol, constrainedVmult 1 (fun _ => 0) (vmult mixedProblem)
        (toConstraints fun i => (midpoint i).map fun hs => (hs, some 0)) sol =
      distributeRhs (toConstraints fun i => (midpoint i).map fun hs => (hs, some 0))
        (computeRhs mixedProblem 0 mixedData.tmpRhs) ↔ sol = fun _ => 0 := by
    intro sol
    rw [C22_constrained_solution]
    have hrow : ∀ i : Fin 3, i ∈ ({0, 1} : Finset (Fin 3)) →
        (vmult mixedProblem sol i = computeRhs mixedProblem 0 mixedData.tmpRhs i ↔ sol i = 0) := by
      intro i hi
      rw [vmult_unknown _ _ mixed_masks rfl]
      fin_cases i <;> simp [BIE, mixedProblem, merge, mixedData, Fin.sum_univ_three] at hi ⊢ <;> exact eq_comm
    constructor
    · rintro ⟨h1, h2⟩
      have e0 := (hrow 0 (by decide)).1 (h2 0 (by simp [toConstraints, midpoint]))
      have e1 := (hrow 1 (by decide)).1 (h2 1 (by simp [toConstraints, midpoint]))
      have e2 := h1 2 [(0, 1 / 2), (1, 1 / 2)] 0 (by simp [toConstraints, midpoint])
      simp [e0, e1] at e2
      funext i
      fin_cases i <;> assumption
    · rintro rfl
      refine ⟨fun i es g hc => ?_, fun i hc => ?_⟩
      · fin_cases i <;> simp [toConstraints, midpoint] at hc
        obtain ⟨rfl, rfl⟩ := hc
        simp
      · refine (hrow i ?_).2 rfl
        fin_cases i <;> simp [toConstraints, midpoint] at hc ⊢
  refine ⟨⟨fun _ => 0, (hiff _).2 rfl⟩, fun sol hs => ?_⟩
  rw [(hiff sol).1 hs, C26_prescribed_data_kept _ _ mixed_masks]
  refine Prod.ext ?_ ?_ <;> funext j <;> fin_cases j <;> simp [merge]

/-- The hypotheses of `C76_constants` hold for a mesh with a hanging node between Neumann cells. -/
example :
    let cells : List (BCell 3) := [⟨0, 2, [0, 1]⟩, ⟨0, 2, [0, 2]⟩, ⟨0, 2, [2, 1]⟩]
    let P : Problem 3 := ⟨fun i j => if i = j then -2 else 1 / 2, fun i j => if i = j then 1 else 0, fun _ => 1,
      dirichletNodes [1] cells (fun _ => 0), neumannNodes [1] cells (fun _ => 0), true, .fma⟩
    let D : NodeData 3 2 := ⟨P.dirichletNodes, fun _ => 0, fun _ => ![1, 0], fun _ => 0, true⟩
    ∃ c, computeConstraints D (fun i => {i}) midpoint 3 (List.finRange 3) = some c ∧
      constrainedVmult 2 (fun i => i.val % 2) (vmult P) (toConstraints c) (fun _ => 5) =
        distributeRhs (toConstraints c) (computeRhs P 0 D.tmpRhs) := by
  intro cells P D
  have hno : ∀ i : Fin 3, ¬ ∃ c ∈ cells, c.subdomain = 0 ∧ c.isDirichlet [1] ∧ i ∈ c.dofs := by
    simp only [cells]; unfold BCell.isDirichlet; decide
  have hm : Masks P ∅ := by
    refine ⟨fun i => ?_, fun i => ?_⟩ <;>
    · obtain ⟨h1, h2⟩ := C29_complementary [1] cells (fun _ : Fin 3 => 0) i
      rcases h1 with ⟨a, b⟩ | ⟨a, b⟩
      · exact absurd (h2.1 a) (hno i)
      · simp [P, a, b]
  have hc := constraints_no_doubles D (fun i => Or.inl (by simpa using hm.dirichlet i)) midpoint midpoint_closed 3
    midpoint_length (List.finRange 3)
  refine ⟨_, hc, ?_⟩
  have := (C76_constants P ∅ hm rfl (fun i => by fin_cases i <;> simp [P, Fin.sum_univ_three] <;> norm_num) D rfl (fun i => {i}) (by simp) (by simp)
    midpoint 3 (List.finRange 3) (fun i => List.mem_finRange i) hc 5 (by simp [D]) (by simp) (by simp) (by simp)
    (fun i hs hh => by
      unfold midpoint at hh
      split_ifs at hh
      cases hh
      norm_num) 2 (fun i => i.val % 2)).1
  simpa using this

end PiBem.Bem

namespace PiBem.Grad

open PiBem.Expansion (V3)

variable {d : ℕ} {T : Mesh d} {procs : ℕ}

/-- **C76**, the surface gradients used at the edges: if the data have one value on each cell (as those of a constant potential, when no cell
has both Dirichlet and Neumann dofs), the surface gradient the program computes from them is zero. -/
theorem C76_surface_gradients (hT : T.WF procs) (hd : Definite T)
    (hj : ∀ c < T.nCells, ∀ q < (T.cell c).nq, 0 < (T.cell c).jxw q)
    (hz : ∀ c < T.nCells, ∀ q < (T.cell c).nq, ∀ k, ∑ j ∈ Finset.range (T.cell c).sdofs.length, (T.cell c).sgrad j q k = 0)
    (data : ℕ → ℝ) (hdata : ∀ c < T.nCells, ∀ i ∈ (T.cell c).sdofs, ∀ j ∈ (T.cell c).sdofs, data i = data j)
    {dg : Diag} {u : ℕ → ℝ} (hu : Solves T (surfGrad data) dg procs u) :
    ∀ r < T.nDofs, distribute T u r = 0 := by
  refine C67_reproduces hT hd hj hu (fun _ => 0) ?_ fun c hc q hq => ?_
  · intro r _ e _
    simp
  · have h0 : field T.comp (T.cell c) (fun _ => 0) q = 0 := by
      funext k; simp [field]
    rw [h0]
    funext k
    unfold surfGrad scalarGrad
    cases hl : (T.cell c).sdofs with
    | nil => simp
    | cons a t =>
      have : ∀ j ∈ Finset.range (a :: t).length, data ((a :: t).getD j 0) * (T.cell c).sgrad j q k = data a * (T.cell c).sgrad j q k := by
        intro j hj
        have hjl : j < (a :: t).length := Finset.mem_range.1 hj
        rw [hdata c hc ((a :: t).getD j 0) (by
          rw [hl, List.getD_eq_getElem _ _ hjl]; exact List.getElem_mem _) a (by rw [hl]; simp)]
      rw [Finset.sum_congr rfl this, ← Finset.mul_sum]
      have := hz c hc q hq k
      rw [hl] at this
      rw [this]; simp

/-- Two flat cells with data 7 and 0. -/
example (u : ℕ → ℝ) (hu : Solves flatMesh (surfGrad fun i => if i < 4 then 7 else 0) (fun _ _ => 1) 2 u) :
    ∀ r < 6, distribute flatMesh u r = 0 := by
  have hc2 : ∀ c, c < flatMesh.nCells → c = 0 ∨ c = 1 := fun c hc => by
    have : c < 2 := hc
    omega
  have hT : flatMesh.WF 2 := by
    refine ⟨fun c hc g hg => ?_, fun r _ e he => by simp [flatMesh] at he, fun c hc => ?_⟩
    · change g < 6
      rcases hc2 c hc with rfl | rfl <;> simp [flatMesh, flatCell] at hg <;> omega
    · rcases hc2 c hc with rfl | rfl <;> simp [flatMesh, flatCell]
  have hd : Definite flatMesh := by
    intro z _ h r hr
    change r < 6 at hr
    have h0 := fun k => congrFun (h 0 (by decide) 0 (by decide)) k
    have h1 := fun k => congrFun (h 1 (by decide) 0 (by decide)) k
    simp [field, flatMesh, flatCell, Fin.forall_fin_succ, Finset.sum_filter, Finset.sum_range_succ] at h0 h1
    obtain ⟨a, b, c⟩ := h0
    obtain ⟨a', b', c'⟩ := h1
    interval_cases r <;> assumption
  refine C76_surface_gradients hT hd (fun c hc q _ => by rcases hc2 c hc with rfl | rfl <;> simp [flatMesh, flatCell])
    (fun c hc q _ l => ?_) _ (fun c hc i hi j hj => ?_) hu
  · rcases hc2 c hc with rfl | rfl <;> fin_cases l <;> simp [flatMesh, flatCell, Finset.sum_range_succ] <;> norm_num
  · rcases hc2 c hc with rfl | rfl <;> simp [flatMesh, flatCell] at hi hj <;>
      rcases hi with rfl | rfl | rfl | rfl <;> rcases hj with rfl | rfl | rfl | rfl <;> rfl

end PiBem.Grad
