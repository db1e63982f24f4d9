import Verif.Props.Convex
import Verif.Props.Exact

/-!
# C112 in dimension 2: convex curves

The maximum principle and the uniqueness up to constants use the double layer only; its kernel has one sign on a convex curve in the plane too.
-/

noncomputable section

namespace PiBem.Bem.Plane

open PiBem.Fmm (Ker)

/-! ## Specification -/

/-- Height of node `i` under the tangent at the point `P`. -/
def depth (K : Curve) (i : ℕ) (P : QPoint) : ℝ := ∑ a, (P.pos a - K.pos i a) * P.normal a

/-- All nodes lie on the inner side of the tangents at the quadrature points used for them; shape functions and lengths are not negative. -/
structure ConvexCurve (K : Curve) : Prop where
  inside : ∀ i c, i < K.nDofs → c < K.nCells → ∀ P ∈ ruleOf K i c, 0 ≤ depth K i P
  length : ∀ i c, i < K.nDofs → c < K.nCells → ∀ P ∈ ruleOf K i c, 0 ≤ P.jxw
  shape : ∀ i c, i < K.nDofs → c < K.nCells → ∀ P ∈ ruleOf K i c, ∀ j < (K.cellDofs c).length, 0 ≤ P.shape j

/-- From node `i` one sees node `k`: some cell of `k` has a quadrature point whose tangent does not pass through node `i`. -/
def Sees (K : Curve) (i k : ℕ) : Prop :=
  ∃ c < K.nCells, ∃ j < (K.cellDofs c).length, (K.cellDofs c).getD j 0 = k ∧ ∃ P ∈ ruleOf K i c, 0 < P.shape j ∧ 0 < P.jxw ∧ 0 < depth K i P

/-- From every node one reaches every other one by seeing. -/
def Connected (K : Curve) : Prop := ∀ i k : Fin K.nDofs, Relation.ReflTransGen (fun a b : Fin K.nDofs => Sees K a b) i k

/-! ## Matrices with entries that are not positive -/

section Matrices

variable {n : ℕ} {N : Mat n}

theorem diff_at_max (hN : ∀ i k, N i k ≤ 0) (phi : Vec n) (i : Fin n) (hi : ∀ k, phi k ≤ phi i) :
    0 ≤ ∑ k, N i k * (phi k - phi i) ∧ (∑ k, N i k * (phi k - phi i) = 0 → ∀ k, N i k < 0 → phi k = phi i) := by
  have hterm : ∀ k ∈ Finset.univ, 0 ≤ N i k * (phi k - phi i) := fun k _ => mul_nonneg_of_nonpos_of_nonpos (hN i k) (by linarith [hi k])
  refine ⟨Finset.sum_nonneg hterm, fun h0 k hk => ?_⟩
  have := (Finset.sum_eq_zero_iff_of_nonneg hterm).1 h0 k (Finset.mem_univ k)
  rcases mul_eq_zero.1 this with h1 | h1 <;> linarith

theorem constant_of_diff (hN : ∀ i k, N i k ≤ 0) (hcon : ∀ i k, Relation.ReflTransGen (fun a b => N a b < 0) i k) (phi : Vec n)
    (h0 : ∀ i, ∑ k, N i k * (phi k - phi i) ≤ 0) (i k : Fin n) : phi i = phi k := by
  obtain ⟨m, _, hm⟩ := Finset.exists_max_image Finset.univ phi ⟨i, Finset.mem_univ i⟩
  have hreach : ∀ k, Relation.ReflTransGen (fun a b => N a b < 0) m k → phi k = phi m := by
    intro k hk
    induction hk with
    | refl => rfl
    | tail _ hs ih =>
      rename_i a b _
      have hmax : ∀ k, phi k ≤ phi a := fun k => by rw [ih]; exact hm k (Finset.mem_univ k)
      obtain ⟨h1, h2⟩ := diff_at_max hN phi a hmax
      rw [h2 (le_antisymm (h0 a) h1) b hs, ih]
  rw [hreach i (hcon m i), hreach k (hcon m k)]

end Matrices

/-! ## Signs of the entries -/

variable {K : Curve}

theorem green_double (i : ℕ) (P : QPoint) : greenValue .double (K.pos i) P.pos P.normal =
    -(depth K i P / (2 * Real.pi * Real.sqrt (∑ a, (K.pos i a - P.pos a) ^ 2) ^ 2)) := by
  simp only [greenValue, depth]
  rw [← neg_div, ← Finset.sum_neg_distrib]
  congr 1
  exact Finset.sum_congr rfl fun a _ => by ring

theorem green_nonpos {i : ℕ} {P : QPoint} (h : 0 ≤ depth K i P) : greenValue .double (K.pos i) P.pos P.normal ≤ 0 := by
  rw [green_double]
  have := Real.pi_pos
  have : 0 ≤ depth K i P / (2 * Real.pi * Real.sqrt (∑ a, (K.pos i a - P.pos a) ^ 2) ^ 2) := by positivity
  linarith

theorem green_neg {i : ℕ} {P : QPoint} : greenValue .double (K.pos i) P.pos P.normal < 0 ↔ 0 < depth K i P := by
  have hpi := Real.pi_pos
  constructor
  · intro h
    by_contra hn
    rw [green_double] at h
    have : depth K i P / (2 * Real.pi * Real.sqrt (∑ a, (K.pos i a - P.pos a) ^ 2) ^ 2) ≤ 0 := div_nonpos_of_nonpos_of_nonneg (not_lt.1 hn) (by positivity)
    linarith
  · intro h
    have hne : P.pos ≠ K.pos i := by
      intro he
      have : depth K i P = 0 := by simp [depth, he]
      linarith
    rw [green_double]
    have hr := dist_pos hne
    have : 0 < depth K i P / (2 * Real.pi * Real.sqrt (∑ a, (K.pos i a - P.pos a) ^ 2) ^ 2) := by positivity
    linarith

theorem layer_sign (h : ConvexCurve K) {i : ℕ} (hi : i < K.nDofs) (k : ℕ) : layer K .double i k ≤ 0 ∧ (layer K .double i k < 0 ↔ Sees K i k) := by
  have hterm : ∀ c < K.nCells, ∀ j < (K.cellDofs c).length, ∀ P ∈ ruleOf K i c,
      greenValue .double (K.pos i) P.pos P.normal * P.shape j * P.jxw ≤ 0 := by
    intro c hc j hj P hP
    exact mul_nonpos_of_nonpos_of_nonneg (mul_nonpos_of_nonpos_of_nonneg (green_nonpos (h.inside i c hi hc P hP)) (h.shape i c hi hc P hP j hj))
      (h.length i c hi hc P hP)
  have hcell : ∀ c < K.nCells, ∀ j < (K.cellDofs c).length,
      ((ruleOf K i c).map fun P => greenValue .double (K.pos i) P.pos P.normal * P.shape j * P.jxw).sum ≤ 0 ∧
      (((ruleOf K i c).map fun P => greenValue .double (K.pos i) P.pos P.normal * P.shape j * P.jxw).sum < 0 ↔
        ∃ P ∈ ruleOf K i c, 0 < P.shape j ∧ 0 < P.jxw ∧ 0 < depth K i P) := by
    intro c hc j hj
    obtain ⟨h1, h2⟩ := list_sum_sign _ _ (hterm c hc j hj)
    refine ⟨h1, h2.trans (exists_congr fun P => and_congr_right fun hP => ?_)⟩
    have e1 := green_nonpos (h.inside i c hi hc P hP)
    have e2 := h.length i c hi hc P hP
    have e3 := h.shape i c hi hc P hP j hj
    rw [← green_neg]
    constructor
    · intro hlt
      have a1 : P.jxw ≠ 0 := fun h0 => by simp [h0] at hlt
      have a2 : P.shape j ≠ 0 := fun h0 => by simp [h0] at hlt
      have a3 : greenValue .double (K.pos i) P.pos P.normal ≠ 0 := fun h0 => by simp [h0] at hlt
      exact ⟨lt_of_le_of_ne e3 a2.symm, lt_of_le_of_ne e2 a1.symm, lt_of_le_of_ne e1 a3⟩
    · rintro ⟨h1, h2, h3⟩
      exact mul_neg_of_neg_of_pos (mul_neg_of_neg_of_pos h3 h1) h2
  unfold layer curveIntegral
  have hin : ∀ c ∈ Finset.range K.nCells, (∑ j ∈ Finset.range (K.cellDofs c).length,
      if (K.cellDofs c).getD j 0 = k then ((ruleOf K i c).map fun P => greenValue .double (K.pos i) P.pos P.normal * P.shape j * P.jxw).sum else 0) ≤ 0 ∧
      ((∑ j ∈ Finset.range (K.cellDofs c).length,
        if (K.cellDofs c).getD j 0 = k then ((ruleOf K i c).map fun P => greenValue .double (K.pos i) P.pos P.normal * P.shape j * P.jxw).sum else 0) < 0 ↔
        ∃ j < (K.cellDofs c).length, (K.cellDofs c).getD j 0 = k ∧ ∃ P ∈ ruleOf K i c, 0 < P.shape j ∧ 0 < P.jxw ∧ 0 < depth K i P) := by
    intro c hc
    have hc := Finset.mem_range.1 hc
    obtain ⟨h1, h2⟩ := finset_sum_sign (Finset.range (K.cellDofs c).length)
      (fun j => if (K.cellDofs c).getD j 0 = k then ((ruleOf K i c).map fun P => greenValue .double (K.pos i) P.pos P.normal * P.shape j * P.jxw).sum else 0) (by
        intro j hj
        split_ifs
        · exact (hcell c hc j (Finset.mem_range.1 hj)).1
        · exact le_rfl)
    refine ⟨h1, h2.trans ⟨?_, ?_⟩⟩
    · rintro ⟨j, hj, hlt⟩
      split_ifs at hlt with he
      · exact ⟨j, Finset.mem_range.1 hj, he, (hcell c hc j (Finset.mem_range.1 hj)).2.1 hlt⟩
      · exact absurd hlt (lt_irrefl 0)
    · rintro ⟨j, hj, he, hP⟩
      exact ⟨j, Finset.mem_range.2 hj, by rw [if_pos he]; exact (hcell c hc j hj).2.2 hP⟩
  obtain ⟨h1, h2⟩ := finset_sum_sign (Finset.range K.nCells) _ fun c hc => (hin c hc).1
  refine ⟨h1, h2.trans ⟨?_, ?_⟩⟩
  · rintro ⟨c, hc, hlt⟩
    exact ⟨c, Finset.mem_range.1 hc, (hin c hc).2.1 hlt⟩
  · rintro ⟨c, hc, hP⟩
    exact ⟨c, Finset.mem_range.2 hc, (hin c (Finset.mem_range.2 hc)).2.2 hP⟩

/-- **C112** (dimension 2, signs). On a convex curve all entries of the double layer matrix are negative or zero, not zero exactly when from the node of the row one sees the node
of the column; the computed `alpha` is positive or zero, zero exactly at nodes from which nothing is seen. -/
theorem C112_plane_signs (h : ConvexCurve K) (owner : ℕ → ℕ) (i : Fin K.nDofs) :
    (∀ k : Fin K.nDofs, planeMatrix K owner .double i k ≤ 0 ∧ (planeMatrix K owner .double i k < 0 ↔ Sees K i k)) ∧
    ∀ (l : List (ℕ × ℕ)) (part : ℕ) (a alpha : Vec K.nDofs),
      (computeAlpha .direct part (planeMatrix K owner .double) a (alphaHistory l)).2 = some alpha →
      0 ≤ alpha i ∧ (0 < alpha i ↔ ∃ k : Fin K.nDofs, Sees K i k) ∧
      alpha i + planeMatrix K owner .double i i = ∑ k ∈ Finset.univ.erase i, |planeMatrix K owner .double i k| := by
  have hs : ∀ k : Fin K.nDofs, planeMatrix K owner .double i k ≤ 0 ∧ (planeMatrix K owner .double i k < 0 ↔ Sees K i k) := by
    intro k
    rw [planeMatrix_eq]
    exact layer_sign h i.isLt k
  refine ⟨hs, fun l part a alpha ha => ?_⟩
  have hsum : alpha i = -∑ k, planeMatrix K owner .double i k := by
    have := (C27_constants l .direct part _ alpha ha).1 i
    linarith
  obtain ⟨h1, h2⟩ := finset_sum_sign Finset.univ (fun k : Fin K.nDofs => planeMatrix K owner .double i k) fun k _ => (hs k).1
  refine ⟨by rw [hsum]; linarith, ?_, ?_⟩
  · rw [hsum, Left.neg_pos_iff, h2]
    constructor
    · rintro ⟨k, _, hk⟩; exact ⟨k, (hs k).2.1 hk⟩
    · rintro ⟨k, hk⟩; exact ⟨k, Finset.mem_univ k, (hs k).2.2 hk⟩
  · rw [hsum, ← Finset.add_sum_erase _ _ (Finset.mem_univ i)]
    rw [Finset.sum_congr rfl fun k _ => abs_of_nonpos (hs k).1, Finset.sum_neg_distrib]
    ring

/-- The equation at a node without gradient constraint in an exact solution. -/
theorem exact_row {C : Setup K.nDofs 2} {gmres : (Vec K.nDofs → Vec K.nDofs) → Vec K.nDofs → Vec K.nDofs} {l : List (ℕ × ℕ)} {st : AlphaStatics}
    {phi0 dphi0 : Vec K.nDofs} {X : Solution K.nDofs} (h : solve K C gmres (alphaHistory l) phi0 dphi0 = (st, some X))
    {B : Finset (Fin K.nDofs)} (hP : PosedH (planeMatrix K C.owner .double) (planeMatrix K C.owner .single) C B phi0 dphi0)
    (hfree : ∀ i, C.hanging i = none) (hdata : Consistent C B) (hX : ∀ i, X.residual i = 0) {i : Fin K.nDofs} (hg : ¬ GradientNode C B i) :
    ∑ k : Fin K.nDofs, layer K .double i k * (X.phi k - X.phi i) = ∑ k : Fin K.nDofs, layer K .single i k * X.dphi k := by
  have := ((C91_exact_solutions _ _ C gmres l st phi0 dphi0 X (solve_direct h) B hP hdata).1 hX).1 i (hfree i) hg
  unfold eqResidual at this
  simp only [planeMatrix_eq] at this
  linarith

/-- **C112** (dimension 2, maxima). On a convex curve, at a node where an exact solution has its largest potential the single layer of the normal derivatives is not negative, where
it has its smallest one it is not positive. -/
theorem C112_plane_maximum (hK : ConvexCurve K) (C : Setup K.nDofs 2) (gmres : (Vec K.nDofs → Vec K.nDofs) → Vec K.nDofs → Vec K.nDofs)
    (l : List (ℕ × ℕ)) (st : AlphaStatics) (phi0 dphi0 : Vec K.nDofs) (X : Solution K.nDofs)
    (h : solve K C gmres (alphaHistory l) phi0 dphi0 = (st, some X))
    (B : Finset (Fin K.nDofs)) (hP : PosedH (planeMatrix K C.owner .double) (planeMatrix K C.owner .single) C B phi0 dphi0)
    (hfree : ∀ i, C.hanging i = none) (hdata : Consistent C B) (hX : ∀ i, X.residual i = 0) (i : Fin K.nDofs) (hg : ¬ GradientNode C B i) :
    ((∀ k, X.phi k ≤ X.phi i) → 0 ≤ ∑ k : Fin K.nDofs, layer K .single i k * X.dphi k) ∧
    ((∀ k, X.phi i ≤ X.phi k) → ∑ k : Fin K.nDofs, layer K .single i k * X.dphi k ≤ 0) := by
  have hN : ∀ i k : Fin K.nDofs, layer K .double i k ≤ 0 := fun i k => (layer_sign hK i.isLt k).1
  rw [← exact_row h hP hfree hdata hX hg]
  refine ⟨fun hi => (diff_at_max (N := fun i k => layer K .double i k) hN X.phi i hi).1, fun hi => ?_⟩
  have := (diff_at_max (N := fun i k => layer K .double i k) hN (fun k => -X.phi k) i fun k => by simpa using hi k).1
  have e : ∑ k : Fin K.nDofs, layer K .double i k * (-X.phi k - -X.phi i) = -∑ k : Fin K.nDofs, layer K .double i k * (X.phi k - X.phi i) := by
    rw [← Finset.sum_neg_distrib]
    exact Finset.sum_congr rfl fun k _ => by ring
  rw [e] at this
  linarith

/-- **C112** (dimension 2, uniqueness). On a connected convex curve two exact solutions with the same normal derivatives, whatever the types of the nodes, the boundary data, the linear solvers and the numbers of
processes, have potentials that differ by one constant. -/
theorem C112_plane_unique (hK : ConvexCurve K) (hcon : Connected K) (C C' : Setup K.nDofs 2)
    (gmres gmres' : (Vec K.nDofs → Vec K.nDofs) → Vec K.nDofs → Vec K.nDofs)
    (l l' : List (ℕ × ℕ)) (st st' : AlphaStatics) (phi0 dphi0 phi0' dphi0' : Vec K.nDofs) (X X' : Solution K.nDofs)
    (h : solve K C gmres (alphaHistory l) phi0 dphi0 = (st, some X)) (h' : solve K C' gmres' (alphaHistory l') phi0' dphi0' = (st', some X'))
    (B B' : Finset (Fin K.nDofs)) (hP : PosedH (planeMatrix K C.owner .double) (planeMatrix K C.owner .single) C B phi0 dphi0)
    (hP' : PosedH (planeMatrix K C'.owner .double) (planeMatrix K C'.owner .single) C' B' phi0' dphi0')
    (hfree : ∀ i, C.hanging i = none) (hfree' : ∀ i, C'.hanging i = none) (hdata : Consistent C B) (hdata' : Consistent C' B')
    (hg : ∀ i, ¬ GradientNode C B i) (hg' : ∀ i, ¬ GradientNode C' B' i)
    (hX : ∀ i, X.residual i = 0) (hX' : ∀ i, X'.residual i = 0) (hdphi : ∀ i, X'.dphi i = X.dphi i) :
    ∃ t, ∀ i, X'.phi i = X.phi i + t := by
  have hN : ∀ i k : Fin K.nDofs, layer K .double i k ≤ 0 := fun i k => (layer_sign hK i.isLt k).1
  have hz : ∀ i : Fin K.nDofs, ∑ k : Fin K.nDofs, layer K .double i k * ((X'.phi k - X.phi k) - (X'.phi i - X.phi i)) ≤ 0 := by
    intro i
    refine le_of_eq ?_
    have e := exact_row h hP hfree hdata hX (hg i)
    have e' := exact_row h' hP' hfree' hdata' hX' (hg' i)
    simp only [hdphi] at e'
    have : ∑ k : Fin K.nDofs, layer K .double i k * (X'.phi k - X'.phi i) - ∑ k : Fin K.nDofs, layer K .double i k * (X.phi k - X.phi i) = 0 := by
      rw [e, e', sub_self]
    rw [← this, ← Finset.sum_sub_distrib]
    exact Finset.sum_congr rfl fun k _ => by ring
  have hc := constant_of_diff (N := fun i k : Fin K.nDofs => layer K .double i k) hN (fun i k => Relation.ReflTransGen.mono (fun (a b : Fin K.nDofs) hab => (layer_sign hK a.isLt b).2.2 hab) _ _ (hcon i k))
    (fun k => X'.phi k - X.phi k) hz
  rcases isEmpty_or_nonempty (Fin K.nDofs) with hE | ⟨⟨i0⟩⟩
  · exact ⟨0, fun i => (hE.false i).elim⟩
  · exact ⟨X'.phi i0 - X.phi i0, fun i => by linarith [hc i i0]⟩

/-! ## Example: two facing elements -/

/-- Two facing elements of length one, one dof each, outer normals; the singular point is at distance `exp(-2π)` from the node. -/
def facing : Curve where
  nDofs := 2
  pos i := ![i, 0]
  nCells := 2
  cellDofs c := [c]
  quad c := [⟨![c, 0], ![2 * c - 1, 0], fun _ => 1, 1⟩]
  sing c _ := [⟨![c, Real.exp (-(2 * Real.pi))], ![2 * c - 1, 0], fun _ => 1, 1⟩]
  doubles i := {i}

theorem ruleOf_facing (i c : ℕ) : ruleOf facing i c = if c = i then facing.sing c 0 else facing.quad c := by
  unfold ruleOf
  by_cases h : c = i
  · rw [dif_pos ⟨0, by simp [facing, h]⟩, if_pos h]
    rfl
  · rw [dif_neg, if_neg h]
    rintro ⟨s, hs, h1⟩
    simp only [facing, List.length_singleton, Nat.lt_one_iff] at hs
    subst hs
    simp [facing, h] at h1

theorem facing_points {i c : ℕ} {P : QPoint} (hi : i < 2) (hc : c < 2) (hP : P ∈ ruleOf facing i c) :
    depth facing i P = (if c = i then 0 else 1) ∧ P.jxw = 1 ∧ ∀ j, P.shape j = 1 := by
  rw [ruleOf_facing] at hP
  split_ifs at hP ⊢ with h
  · simp only [facing, List.mem_singleton] at hP
    subst hP
    simp [depth, facing, h]
  · simp only [facing, List.mem_singleton] at hP
    subst hP
    refine ⟨?_, rfl, fun _ => rfl⟩
    interval_cases i <;> interval_cases c <;> simp [depth, facing] at h ⊢
    norm_num

theorem facing_convex : ConvexCurve facing := by
  refine ⟨fun i c hi hc P hP => ?_, fun i c hi hc P hP => ?_, fun i c hi hc P hP j _ => ?_⟩
  · rw [(facing_points hi hc hP).1]; split_ifs <;> norm_num
  · rw [(facing_points hi hc hP).2.1]; norm_num
  · rw [(facing_points hi hc hP).2.2]; norm_num

theorem facing_connected : Connected facing := by
  intro i k
  by_cases h : i = k
  · rw [h]
  · have hne : k.val ≠ i.val := fun he => h (Fin.ext he.symm)
    have hm : (⟨![(k.val : ℝ), 0], ![2 * k.val - 1, 0], fun _ => 1, 1⟩ : QPoint) ∈ ruleOf facing i k := by
      rw [ruleOf_facing, if_neg hne]
      exact List.mem_singleton_self _
    obtain ⟨h1, -, -⟩ := facing_points i.isLt k.isLt hm
    rw [if_neg hne] at h1
    exact .single ⟨k, k.isLt, 0, by simp [facing], rfl, _, hm, one_pos, one_pos, by rw [h1]; norm_num⟩

theorem facing_layer (i k : Fin 2) : layer facing .single i k = if i = k then 1 else 0 := by
  unfold layer curveIntegral
  simp only [ruleOf_facing]
  fin_cases i <;> fin_cases k <;>
    simp [facing, greenValue, Real.sqrt_sq (Real.exp_pos _).le]

/-- Dirichlet problem on the facing elements. -/
def facingSetup (procs : ℕ) (g : Vec 2) : Setup 2 2 where
  method := .direct
  owner := fun i => i % procs
  procs := procs
  part := procs
  neumannNodes := fun _ => 0
  haveDirichletBc := true
  nodes := ⟨fun _ => 1, g, fun _ => 0, fun _ => 0, false⟩
  doubles := fun i => {i}
  hanging := fun _ => none
  fuel := 1
  order := List.finRange _

theorem facing_posed (procs : ℕ) (g dphi0 : Vec 2) :
    PosedH (planeMatrix facing (facingSetup procs g).owner .double) (planeMatrix facing (facingSetup procs g).owner .single) (facingSetup procs g) Finset.univ g dphi0 := by
  refine ⟨by simp [facingSetup], by simp [facingSetup], rfl, fun _ _ => rfl, fun i hi => absurd (Finset.mem_univ i) hi,
    fun i => Finset.mem_singleton_self i, ?_, ?_, ?_, fun i => List.mem_finRange i⟩
  · intro i j hj; rw [Finset.mem_singleton.1 hj]
  · intro i j hj k; rw [Finset.mem_singleton.1 hj]; exact ⟨rfl, rfl⟩
  · intro i _ j hj; exact Finset.mem_singleton.1 hj

theorem facing_consistent (procs : ℕ) (g : Vec 2) : Consistent (facingSetup procs g) Finset.univ :=
  ⟨fun i _ j hj _ => by rw [Finset.mem_singleton.1 hj], fun h => by simp [facingSetup] at h⟩

theorem solveWith_sol {n d : ℕ} (N M : Mat n) {C : Setup n d} {st : AlphaStatics} (phi0 dphi0 : Vec n) {c : Lines n} (x : Vec n)
    (ha : (alphaStaticsStep n C.part st).part = C.part) (hc : computeConstraints C.nodes C.doubles C.hanging C.fuel C.order = some c) :
    ∃ st' R, solveWith N M C (fun _ _ => x) st phi0 dphi0 = (st', some R) ∧ R.sol = x := by
  unfold solveWith computeAlpha
  simp only [ha, if_true, Option.bind_some, hc, Option.map_some]
  exact ⟨_, _, rfl, rfl⟩

theorem facing_exact (procs : ℕ) (g : Vec 2) : ∃ (gmres : (Vec 2 → Vec 2) → Vec 2 → Vec 2) (st : AlphaStatics) (X : Solution 2),
    solve facing (facingSetup procs g) gmres (alphaHistory []) g (fun _ => 0) = (st, some X) ∧ (∀ i, X.residual i = 0) ∧ (∀ i, X.phi i = g i) ∧
    ∀ i : Fin 2, X.dphi i = ∑ k : Fin 2, layer facing .double i k * (g k - g i) := by
  set v : Vec 2 := fun i => ∑ k : Fin 2, layer facing .double i k * (g k - g i) with hv
  have hl : computeConstraints (facingSetup procs g).nodes (facingSetup procs g).doubles (facingSetup procs g).hanging (facingSetup procs g).fuel
      (facingSetup procs g).order = some fun _ => none :=
    constraints_no_doubles (facingSetup procs g).nodes (fun i => Or.inr rfl) (fun _ => none) (by simp) 1 (by simp) (List.finRange _)
  have ha : (alphaStaticsStep 2 (facingSetup procs g).part (alphaHistory [])).part = (facingSetup procs g).part := by
    simp [alphaHistory, alphaStaticsStep, AlphaStatics.init]
  obtain ⟨st, X, h, hsol⟩ : ∃ st X, solveWith (planeMatrix facing (facingSetup procs g).owner .double) (planeMatrix facing (facingSetup procs g).owner .single)
      (facingSetup procs g) (fun _ _ => v) (alphaHistory []) g (fun _ => 0) = (st, some X) ∧ X.sol = v :=
    solveWith_sol (n := facing.nDofs) _ _ _ _ v ha hl
  have hP := facing_posed procs g (fun _ => 0)
  have hc := facing_consistent procs g
  obtain ⟨c, -, h1, h2, -, -⟩ := solveWith_rows h Finset.univ hP.dirichlet hP.neumann hP.bc hP.phi hP.dphi
  have hphi : ∀ i, X.phi i = g i := fun i => by rw [h1]; simp [merge, facingSetup]
  have hdphi : ∀ i, X.dphi i = v i := fun i => by rw [h2, hsol]; simp [merge]
  refine ⟨fun _ _ => v, st, X, h, (C91_exact_solutions _ _ _ _ _ _ _ _ X h Finset.univ hP hc).2 ⟨?_, ?_, ?_, ?_⟩, hphi, hdphi⟩
  · intro i _ _
    unfold eqResidual
    have e1 : ∀ i k : Fin 2, planeMatrix facing (facingSetup procs g).owner .single i k = if i = k then 1 else 0 := fun i k =>
      (planeMatrix_eq facing _ .single i k).trans (facing_layer i k)
    have e2 : ∀ i k : Fin 2, planeMatrix facing (facingSetup procs g).owner .double i k = layer facing .double i k := fun i k =>
      planeMatrix_eq facing _ .double i k
    have : ∑ k : Fin 2, planeMatrix facing (facingSetup procs g).owner .double i k * (X.phi k - X.phi i) =
        ∑ k : Fin 2, planeMatrix facing (facingSetup procs g).owner .single i k * X.dphi k := by
      have a1 : ∑ k : Fin 2, planeMatrix facing (facingSetup procs g).owner .double i k * (X.phi k - X.phi i) = v i :=
        Finset.sum_congr rfl fun k _ => by
          rw [show X.phi k = g k from hphi k, show X.phi i = g i from hphi i]
          exact congrArg (· * (g k - g i)) (e2 i k)
      have a2 : ∀ i : Fin 2, ∑ k : Fin 2, planeMatrix facing (facingSetup procs g).owner .single i k * X.dphi k = v i := fun i =>
        (Finset.sum_congr rfl fun k _ => (congrArg₂ (· * ·) (e1 i k) (hdphi k) : _ = (if i = k then 1 else 0) * v k)).trans (by simp)
      exact a1.trans (a2 i).symm
    exact sub_eq_zero.2 this
  · intro i j hj; rw [Finset.mem_singleton.1 hj]
  · intro hcg; simp [facingSetup] at hcg
  · intro i es hi; simp [facingSetup] at hi

/-- the hypotheses of `C112_plane_maximum` and `C112_plane_unique` -/
example (procs procs' : ℕ) : ∃ (gmres gmres' : (Vec 2 → Vec 2) → Vec 2 → Vec 2) (st st' : AlphaStatics) (X X' : Solution 2),
    solve facing (facingSetup procs ![3, 7]) gmres (alphaHistory []) ![3, 7] (fun _ => 0) = (st, some X) ∧
    solve facing (facingSetup procs' ![8, 12]) gmres' (alphaHistory []) ![8, 12] (fun _ => 0) = (st', some X') ∧
    0 ≤ ∑ k : Fin 2, layer facing .single (1 : Fin 2) k * X.dphi k ∧ ∃ t, ∀ i, X'.phi i = X.phi i + t := by
  obtain ⟨gmres, st, X, h, hr, hp, hd⟩ := facing_exact procs ![3, 7]
  obtain ⟨gmres', st', X', h', hr', hp', hd'⟩ := facing_exact procs' ![8, 12]
  have hg : ∀ procs g i, ¬ GradientNode (facingSetup procs g) Finset.univ i := fun procs g i hg => by simp [GradientNode, facingSetup] at hg
  refine ⟨gmres, gmres', st, st', X, X', h, h', ?_, ?_⟩
  · refine (C112_plane_maximum facing_convex (facingSetup procs ![3, 7]) gmres [] st _ _ X h Finset.univ (facing_posed procs _ _) (fun _ => rfl)
      (facing_consistent procs _) hr (1 : Fin 2) (hg _ _ _)).1 fun (k : Fin 2) => ?_
    refine (hp k).trans_le (le_trans ?_ (hp 1).ge)
    fin_cases k
    · simp; norm_num
    · simp
  · refine C112_plane_unique facing_convex facing_connected (facingSetup procs ![3, 7]) (facingSetup procs' ![8, 12]) gmres gmres' [] [] st st' _ _ _ _ X X' h h'
      Finset.univ Finset.univ (facing_posed procs _ _) (facing_posed procs' _ _) (fun _ => rfl) (fun _ => rfl) (facing_consistent procs _) (facing_consistent procs' _)
      (hg _ _) (hg _ _) hr hr' fun (i : Fin 2) => ?_
    rw [hd i, hd' i]
    fin_cases i <;> simp [Fin.sum_univ_two] <;> norm_num

end PiBem.Bem.Plane
