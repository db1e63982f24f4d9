import Verif.Props.Reverse
import Verif.Props.SolveNeumann

/-!
# C112: convex surfaces

The dense method on surfaces all of whose nodes lie on the inner side of the tangent planes at the quadrature points.
-/

noncomputable section

namespace PiBem.Bem

open PiBem.Octree PiBem.Fmm PiBem.Expansion

/-! ## Specification -/

open Classical in
/-- Quadrature points used for node `i` on cell `c`: the singular quadrature of the first vertex of the cell at the position of the node, if there is one,
the regular quadrature otherwise. -/
def usedPoints (inp : Input 3) (D : Data) (S' : SingRule) (i c : ℕ) : List SingPoint :=
  if h : ∃ s, s < (inp.cellDofs c).length ∧ (inp.cellDofs c).getD s 0 ∈ inp.doubles i then S' c (Nat.find h)
  else (List.range inp.nq).map fun q => ⟨toV (inp.qpos (c, q)), D.normal (c, q), D.shape (c, q), D.jxw (c, q)⟩

/-- Height of node `i` under the tangent plane at the point `P`. -/
def depth (inp : Input 3) (i : ℕ) (P : SingPoint) : ℝ := ∑ a, (P.pos a - toV (inp.pos i) a) * P.normal a

/-- All nodes lie on the inner side of the tangent planes at the quadrature points used for them; shape functions and areas are not negative. -/
structure ConvexSurface (inp : Input 3) (D : Data) (S' : SingRule) : Prop where
  inside : ∀ i c, i < inp.nDofs → c < inp.nCells → ∀ P ∈ usedPoints inp D S' i c, 0 ≤ depth inp i P
  area : ∀ i c, i < inp.nDofs → c < inp.nCells → ∀ P ∈ usedPoints inp D S' i c, 0 ≤ P.jxw
  shape : ∀ i c, i < inp.nDofs → c < inp.nCells → ∀ P ∈ usedPoints inp D S' i c, ∀ j < (inp.cellDofs c).length, 0 ≤ P.shape j

/-- From node `i` one sees node `k`: some cell of `k` has a quadrature point whose tangent plane does not pass through node `i`. -/
def Sees (inp : Input 3) (D : Data) (S' : SingRule) (i k : ℕ) : Prop :=
  ∃ c < inp.nCells, ∃ j < (inp.cellDofs c).length, (inp.cellDofs c).getD j 0 = k ∧
    ∃ P ∈ usedPoints inp D S' i c, 0 < P.shape j ∧ 0 < P.jxw ∧ 0 < depth inp i P

/-- Some cell of node `k` has a quadrature point that is not at the position of node `i`. -/
def Separate (inp : Input 3) (D : Data) (S' : SingRule) (i k : ℕ) : Prop :=
  ∃ c < inp.nCells, ∃ j < (inp.cellDofs c).length, (inp.cellDofs c).getD j 0 = k ∧
    ∃ P ∈ usedPoints inp D S' i c, 0 < P.shape j ∧ 0 < P.jxw ∧ P.pos ≠ toV (inp.pos i)

/-- From every node one reaches every other one by seeing. -/
def Connected (inp : Input 3) (D : Data) (S' : SingRule) : Prop :=
  ∀ i k : Fin inp.nDofs, Relation.ReflTransGen (fun a b : Fin inp.nDofs => Sees inp D S' a b) i k

/-! ## Signs of the entries -/

variable {inp : Input 3} {D : Data} {S S' : SingRule}

theorem cellIntegral_points (ker : Ker) (i c j : ℕ) : cellIntegral inp D S' ker i c j =
    ((usedPoints inp D S' i c).map fun P => kernelValue ker (toV (inp.pos i)) P.pos P.normal * P.shape j * P.jxw).sum := by
  unfold cellIntegral usedPoints
  split_ifs with h
  · rfl
  · rw [List.map_map, ← sum_range_list]
    rfl

theorem kernel_double (i : ℕ) (P : SingPoint) : kernelValue .double (toV (inp.pos i)) P.pos P.normal =
    -(depth inp i P / (4 * Real.pi * Real.sqrt (∑ a, (toV (inp.pos i) a - P.pos a) ^ 2) ^ 3)) := by
  simp only [kernelValue, depth]
  rw [← neg_div, ← Finset.sum_neg_distrib]
  congr 1
  exact Finset.sum_congr rfl fun a _ => by ring

theorem double_nonpos {i : ℕ} {P : SingPoint} (h : 0 ≤ depth inp i P) : kernelValue .double (toV (inp.pos i)) P.pos P.normal ≤ 0 := by
  rw [kernel_double]
  have := Real.pi_pos
  have : 0 ≤ depth inp i P / (4 * Real.pi * Real.sqrt (∑ a, (toV (inp.pos i) a - P.pos a) ^ 2) ^ 3) := by positivity
  linarith

theorem pos_of_ne {x y : V3} (h : y ≠ x) : 0 < Real.sqrt (∑ a, (x a - y a) ^ 2) := by
  refine Real.sqrt_pos.2 ?_
  obtain ⟨a, ha⟩ := Function.ne_iff.1 h
  exact Finset.sum_pos' (fun _ _ => sq_nonneg _) ⟨a, Finset.mem_univ a, by have := sub_ne_zero.2 (Ne.symm ha); positivity⟩

theorem double_neg {i : ℕ} {P : SingPoint} : kernelValue .double (toV (inp.pos i)) P.pos P.normal < 0 ↔ 0 < depth inp i P := by
  constructor
  · intro h
    by_contra hn
    have h0 := not_lt.1 hn
    rw [kernel_double] at h
    have := Real.pi_pos
    have : depth inp i P / (4 * Real.pi * Real.sqrt (∑ a, (toV (inp.pos i) a - P.pos a) ^ 2) ^ 3) ≤ 0 := div_nonpos_of_nonpos_of_nonneg h0 (by positivity)
    linarith
  · intro h
    have hne : P.pos ≠ toV (inp.pos i) := by
      intro he
      have : depth inp i P = 0 := by simp [depth, he]
      linarith
    rw [kernel_double]
    have := Real.pi_pos
    have hr := pos_of_ne hne
    have : 0 < depth inp i P / (4 * Real.pi * Real.sqrt (∑ a, (toV (inp.pos i) a - P.pos a) ^ 2) ^ 3) := by positivity
    linarith

theorem single_nonneg (i : ℕ) (P : SingPoint) : 0 ≤ kernelValue .single (toV (inp.pos i)) P.pos P.normal := by
  simp only [kernelValue]
  have := Real.pi_pos
  positivity

theorem single_pos {i : ℕ} {P : SingPoint} (h : P.pos ≠ toV (inp.pos i)) : 0 < kernelValue .single (toV (inp.pos i)) P.pos P.normal := by
  have hr := pos_of_ne h
  have := Real.pi_pos
  simp only [kernelValue]
  positivity

/-- sum of terms of one sign -/
theorem list_sum_sign {ι : Type} (l : List ι) (f : ι → ℝ) (h : ∀ x ∈ l, f x ≤ 0) : (l.map f).sum ≤ 0 ∧ ((l.map f).sum < 0 ↔ ∃ x ∈ l, f x < 0) := by
  induction l with
  | nil => simp
  | cons a l ih =>
    obtain ⟨h1, h2⟩ := ih fun x hx => h x (List.mem_cons_of_mem _ hx)
    have ha := h a (List.mem_cons_self ..)
    rw [List.map_cons, List.sum_cons]
    refine ⟨by linarith, ?_⟩
    constructor
    · intro hlt
      by_cases h0 : f a < 0
      · exact ⟨a, List.mem_cons_self .., h0⟩
      · obtain ⟨x, hx, hx'⟩ := h2.1 (by linarith)
        exact ⟨x, List.mem_cons_of_mem _ hx, hx'⟩
    · rintro ⟨x, hx, hx'⟩
      rcases List.mem_cons.1 hx with rfl | hx
      · linarith
      · have := h2.2 ⟨x, hx, hx'⟩
        linarith

theorem finset_sum_sign {ι : Type} (s : Finset ι) (f : ι → ℝ) (h : ∀ x ∈ s, f x ≤ 0) : s.sum f ≤ 0 ∧ (s.sum f < 0 ↔ ∃ x ∈ s, f x < 0) := by
  refine ⟨Finset.sum_nonpos h, fun hlt => ?_, fun ⟨x, hx, hx'⟩ => Finset.sum_neg' h ⟨x, hx, hx'⟩⟩
  by_contra hn
  push Not at hn
  have : s.sum f = 0 := Finset.sum_eq_zero fun x hx => le_antisymm (h x hx) (hn x hx)
  linarith

theorem double_entry_sign (h : ConvexSurface inp D S') {i : ℕ} (hi : i < inp.nDofs) (k : ℕ) :
    surfaceIntegral inp D S' .double i k ≤ 0 ∧ (surfaceIntegral inp D S' .double i k < 0 ↔ Sees inp D S' i k) := by
  have hterm : ∀ c < inp.nCells, ∀ j < (inp.cellDofs c).length, ∀ P ∈ usedPoints inp D S' i c,
      kernelValue .double (toV (inp.pos i)) P.pos P.normal * P.shape j * P.jxw ≤ 0 := by
    intro c hc j hj P hP
    have h1 := double_nonpos (h.inside i c hi hc P hP)
    have h2 := h.area i c hi hc P hP
    have h3 := h.shape i c hi hc P hP j hj
    exact mul_nonpos_of_nonpos_of_nonneg (mul_nonpos_of_nonpos_of_nonneg h1 h3) h2
  have hcell : ∀ c < inp.nCells, ∀ j < (inp.cellDofs c).length, cellIntegral inp D S' .double i c j ≤ 0 ∧
      (cellIntegral inp D S' .double i c j < 0 ↔ ∃ P ∈ usedPoints inp D S' i c, 0 < P.shape j ∧ 0 < P.jxw ∧ 0 < depth inp i P) := by
    intro c hc j hj
    rw [cellIntegral_points]
    obtain ⟨h1, h2⟩ := list_sum_sign _ _ (hterm c hc j hj)
    refine ⟨h1, h2.trans (exists_congr fun P => and_congr_right fun hP => ?_)⟩
    have e1 := double_nonpos (h.inside i c hi hc P hP)
    have e2 := h.area i c hi hc P hP
    have e3 := h.shape i c hi hc P hP j hj
    rw [← double_neg]
    constructor
    · intro hlt
      have a1 : P.jxw ≠ 0 := fun h0 => by simp [h0] at hlt
      have a2 : P.shape j ≠ 0 := fun h0 => by simp [h0] at hlt
      have a3 : kernelValue .double (toV (inp.pos i)) P.pos P.normal ≠ 0 := fun h0 => by simp [h0] at hlt
      exact ⟨lt_of_le_of_ne e3 a2.symm, lt_of_le_of_ne e2 a1.symm, lt_of_le_of_ne e1 a3⟩
    · rintro ⟨h1, h2, h3⟩
      exact mul_neg_of_neg_of_pos (mul_neg_of_neg_of_pos h3 h1) h2
  unfold surfaceIntegral
  have hin : ∀ c ∈ Finset.range inp.nCells, (∑ j ∈ Finset.range (inp.cellDofs c).length,
      if (inp.cellDofs c).getD j 0 = k then cellIntegral inp D S' .double i c j else 0) ≤ 0 ∧
      ((∑ j ∈ Finset.range (inp.cellDofs c).length, if (inp.cellDofs c).getD j 0 = k then cellIntegral inp D S' .double i c j else 0) < 0 ↔
        ∃ j < (inp.cellDofs c).length, (inp.cellDofs c).getD j 0 = k ∧ cellIntegral inp D S' .double i c j < 0) := by
    intro c hc
    obtain ⟨h1, h2⟩ := finset_sum_sign (Finset.range (inp.cellDofs c).length)
      (fun j => if (inp.cellDofs c).getD j 0 = k then cellIntegral inp D S' .double i c j else 0) (by
        intro j hj
        split_ifs
        · exact (hcell c (Finset.mem_range.1 hc) j (Finset.mem_range.1 hj)).1
        · exact le_rfl)
    refine ⟨h1, h2.trans ⟨?_, ?_⟩⟩
    · rintro ⟨j, hj, hlt⟩
      split_ifs at hlt with he
      · exact ⟨j, Finset.mem_range.1 hj, he, hlt⟩
      · exact absurd hlt (lt_irrefl 0)
    · rintro ⟨j, hj, he, hlt⟩
      exact ⟨j, Finset.mem_range.2 hj, by rw [if_pos he]; exact hlt⟩
  obtain ⟨h1, h2⟩ := finset_sum_sign (Finset.range inp.nCells) _ fun c hc => (hin c hc).1
  refine ⟨h1, h2.trans ⟨?_, ?_⟩⟩
  · rintro ⟨c, hc, hlt⟩
    obtain ⟨j, hj, he, hlt⟩ := (hin c hc).2.1 hlt
    exact ⟨c, Finset.mem_range.1 hc, j, hj, he, (hcell c (Finset.mem_range.1 hc) j hj).2.1 hlt⟩
  · rintro ⟨c, hc, j, hj, he, hP⟩
    exact ⟨c, Finset.mem_range.2 hc, (hin c (Finset.mem_range.2 hc)).2.2 ⟨j, hj, he, (hcell c hc j hj).2.2 hP⟩⟩

theorem single_entry_sign (h : ConvexSurface inp D S') {i : ℕ} (hi : i < inp.nDofs) (k : ℕ) :
    0 ≤ surfaceIntegral inp D S' .single i k ∧ (Separate inp D S' i k → 0 < surfaceIntegral inp D S' .single i k) := by
  have hcell : ∀ c < inp.nCells, ∀ j < (inp.cellDofs c).length, 0 ≤ cellIntegral inp D S' .single i c j := by
    intro c hc j hj
    rw [cellIntegral_points]
    refine List.sum_nonneg fun x hx => ?_
    obtain ⟨P, hP, rfl⟩ := List.mem_map.1 hx
    have h1 := single_nonneg (inp := inp) i P
    have h2 := h.area i c hi hc P hP
    have h3 := h.shape i c hi hc P hP j hj
    positivity
  have hif : ∀ c ∈ Finset.range inp.nCells, ∀ j ∈ Finset.range (inp.cellDofs c).length,
      0 ≤ if (inp.cellDofs c).getD j 0 = k then cellIntegral inp D S' .single i c j else 0 := by
    intro c hc j hj
    split_ifs
    · exact hcell c (Finset.mem_range.1 hc) j (Finset.mem_range.1 hj)
    · exact le_rfl
  unfold surfaceIntegral
  refine ⟨Finset.sum_nonneg fun c hc => Finset.sum_nonneg fun j hj => hif c hc j hj, ?_⟩
  rintro ⟨c, hc, j, hj, he, P, hP, p1, p2, p3⟩
  refine Finset.sum_pos' (fun c hc => Finset.sum_nonneg fun j hj => hif c hc j hj) ⟨c, Finset.mem_range.2 hc, ?_⟩
  refine Finset.sum_pos' (hif c (Finset.mem_range.2 hc)) ⟨j, Finset.mem_range.2 hj, ?_⟩
  rw [if_pos he, cellIntegral_points]
  have hneg := (list_sum_sign (usedPoints inp D S' i c) (fun P => -(kernelValue .single (toV (inp.pos i)) P.pos P.normal * P.shape j * P.jxw)) (by
    intro P hP
    have h1 := single_nonneg (inp := inp) i P
    have h2 := h.area i c hi hc P hP
    have h3 := h.shape i c hi hc P hP j hj
    have : 0 ≤ kernelValue .single (toV (inp.pos i)) P.pos P.normal * P.shape j * P.jxw := by positivity
    linarith)).2.2 ⟨P, hP, by
      have h1 := single_pos (inp := inp) p3
      have : 0 < kernelValue .single (toV (inp.pos i)) P.pos P.normal * P.shape j * P.jxw := by positivity
      linarith⟩
  have hs : ((usedPoints inp D S' i c).map fun P => -(kernelValue .single (toV (inp.pos i)) P.pos P.normal * P.shape j * P.jxw)).sum =
      -((usedPoints inp D S' i c).map fun P => kernelValue .single (toV (inp.pos i)) P.pos P.normal * P.shape j * P.jxw).sum := by
    induction usedPoints inp D S' i c with
    | nil => simp
    | cons a l ih => rw [List.map_cons, List.sum_cons, ih, List.map_cons, List.sum_cons]; ring
  rw [hs] at hneg
  linarith

theorem dense_entry (owner : ℕ → ℕ) (ker : Ker) (i k : Fin inp.nDofs) :
    solveMatrix inp D S S' .direct owner ker i k = surfaceIntegral inp D S' ker i k :=
  C64_dense_entry inp D S' ker _ i i.isLt (by simp) k

/-- **C112** (signs). On a convex surface all entries of the dense double layer matrix are negative or zero, and an entry is not zero exactly when from the node of the row
one sees the node of the column; all entries of the single layer matrix are positive or zero. -/
theorem C112_signs (h : ConvexSurface inp D S') (S : SingRule) (owner : ℕ → ℕ) (i k : Fin inp.nDofs) :
    solveMatrix inp D S S' .direct owner .double i k ≤ 0 ∧ (solveMatrix inp D S S' .direct owner .double i k < 0 ↔ Sees inp D S' i k) ∧
    0 ≤ solveMatrix inp D S S' .direct owner .single i k ∧ (Separate inp D S' i k → 0 < solveMatrix inp D S S' .direct owner .single i k) := by
  simp only [dense_entry]
  exact ⟨(double_entry_sign h i.isLt k).1, (double_entry_sign h i.isLt k).2, single_entry_sign h i.isLt k⟩

/-- **C112** (solid angles). On a convex surface the coefficients `alpha` computed by the program are positive or zero, zero exactly at nodes from which nothing is seen, and
the matrix `alpha + N` of the potential is diagonally dominant: the diagonal entry is the sum of the absolute values of the others. -/
theorem C112_alpha (h : ConvexSurface inp D S') (S : SingRule) (owner : ℕ → ℕ) (l : List (ℕ × ℕ)) (part : ℕ) (a alpha : Vec inp.nDofs)
    (ha : (computeAlpha .direct part (solveMatrix inp D S S' .direct owner .double) a (alphaHistory l)).2 = some alpha) (i : Fin inp.nDofs) :
    0 ≤ alpha i ∧ (0 < alpha i ↔ ∃ k : Fin inp.nDofs, Sees inp D S' i k) ∧
    alpha i + solveMatrix inp D S S' .direct owner .double i i =
      ∑ k ∈ Finset.univ.erase i, |solveMatrix inp D S S' .direct owner .double i k| := by
  have hsum : alpha i = -∑ k, solveMatrix inp D S S' .direct owner .double i k := by
    have hs := (C27_constants l .direct part _ alpha ha).1 i
    linarith
  obtain ⟨h1, h2⟩ := finset_sum_sign Finset.univ (fun k : Fin inp.nDofs => solveMatrix inp D S S' .direct owner .double i k)
    fun k _ => (C112_signs h S owner i k).1
  refine ⟨by rw [hsum]; linarith, ?_, ?_⟩
  · rw [hsum, Left.neg_pos_iff, h2]
    constructor
    · rintro ⟨k, _, hk⟩; exact ⟨k, (C112_signs h S owner i k).2.1.1 hk⟩
    · rintro ⟨k, hk⟩; exact ⟨k, Finset.mem_univ k, (C112_signs h S owner i k).2.1.2 hk⟩
  · rw [hsum, ← Finset.add_sum_erase _ _ (Finset.mem_univ i)]
    rw [Finset.sum_congr rfl fun k _ => abs_of_nonpos (C112_signs h S owner i k).1, Finset.sum_neg_distrib]
    ring

/-! ## Solutions -/

variable {d : ℕ}

/-- At a maximum of the potential the double layer of the differences is not negative, and zero only if the seen nodes have the same potential. -/
theorem double_at_max (h : ConvexSurface inp D S') (S : SingRule) (owner : ℕ → ℕ) (phi : Vec inp.nDofs) (i : Fin inp.nDofs) (hi : ∀ k, phi k ≤ phi i) :
    0 ≤ methodDouble inp D S S' .direct owner phi i ∧
    (methodDouble inp D S S' .direct owner phi i = 0 → ∀ k : Fin inp.nDofs, Sees inp D S' i k → phi k = phi i) := by
  have hterm : ∀ k ∈ Finset.univ, 0 ≤ solveMatrix inp D S S' .direct owner .double i k * (phi k - phi i) := fun k _ =>
    mul_nonneg_of_nonpos_of_nonpos (C112_signs h S owner i k).1 (by linarith [hi k])
  refine ⟨Finset.sum_nonneg hterm, fun h0 k hk => ?_⟩
  have := (Finset.sum_eq_zero_iff_of_nonneg hterm).1 h0 k (Finset.mem_univ k)
  have hn := (C112_signs h S owner i k).2.1.2 hk
  rcases mul_eq_zero.1 this with h1 | h1
  · linarith
  · linarith

/-- If the double layer of the differences vanishes at every node, the potential is constant. -/
theorem constant_of_double (h : ConvexSurface inp D S') (hcon : Connected inp D S') (S : SingRule) (owner : ℕ → ℕ) (phi : Vec inp.nDofs)
    (h0 : ∀ i, methodDouble inp D S S' .direct owner phi i ≤ 0) (i k : Fin inp.nDofs) : phi i = phi k := by
  obtain ⟨m, _, hm⟩ := Finset.exists_max_image Finset.univ phi ⟨i, Finset.mem_univ i⟩
  have hreach : ∀ k, Relation.ReflTransGen (fun a b : Fin inp.nDofs => Sees inp D S' a b) m k → phi k = phi m := by
    intro k hk
    induction hk with
    | refl => rfl
    | tail _ hs ih =>
      rename_i a b _
      have hmax : ∀ k, phi k ≤ phi a := fun k => by rw [ih]; exact hm k (Finset.mem_univ k)
      obtain ⟨h1, h2⟩ := double_at_max h S owner phi a hmax
      rw [h2 (le_antisymm (h0 a) h1) b hs, ih]
  rw [hreach i (hcon m i), hreach k (hcon m k)]

theorem constant_double (S : SingRule) (m : Method) (owner : ℕ → ℕ) (phi : Vec inp.nDofs) (hc : ∀ i k, phi i = phi k) (i : Fin inp.nDofs) :
    methodDouble inp D S S' m owner phi i = 0 :=
  Finset.sum_eq_zero fun k _ => by rw [hc k i, sub_self, mul_zero]

/-- **C112** (maxima). On a convex surface, at a node where an exact solution has its largest potential the single layer of the normal derivatives is not negative, where it has
its smallest one it is not positive (except at nodes whose equation is replaced by the continuity of the gradient). -/
theorem C112_maximum (hK : ConvexSurface inp D S') (C : Setup inp.nDofs d) (hm : C.method = .direct)
    (gmres : (Vec inp.nDofs → Vec inp.nDofs) → Vec inp.nDofs → Vec inp.nDofs) (l : List (ℕ × ℕ)) (st : AlphaStatics)
    (phi0 dphi0 : Vec inp.nDofs) (X : Solution inp.nDofs)
    (h : solve inp D S S' C gmres (alphaHistory l) phi0 dphi0 = (st, some X))
    (B : Finset (Fin inp.nDofs)) (hP : Posed inp C B phi0 dphi0) (hdata : Consistent C B) (hX : ∀ i, X.residual i = 0)
    (i : Fin inp.nDofs) (hg : ¬ GradientNode C B i) :
    ((∀ k, X.phi k ≤ X.phi i) → 0 ≤ methodSingle inp D S S' .direct C.owner X.dphi i) ∧
    ((∀ k, X.phi i ≤ X.phi k) → methodSingle inp D S S' .direct C.owner X.dphi i ≤ 0) := by
  have heq := ((C82_exact_solutions inp D S S' C gmres l st phi0 dphi0 X h B hP hdata.sharp hdata.agree).1 hX).1 i hg
  rw [hm] at heq
  have he : methodSingle inp D S S' .direct C.owner X.dphi i = methodDouble inp D S S' .direct C.owner X.phi i := by
    unfold methodResidual at heq
    unfold methodSingle methodDouble
    linarith
  rw [he]
  refine ⟨fun hi => (double_at_max hK S C.owner X.phi i hi).1, fun hi => ?_⟩
  have := (double_at_max hK S C.owner (fun k => -X.phi k) i fun k => by simpa using hi k).1
  have e : methodDouble inp D S S' .direct C.owner (fun k => -X.phi k) i = -methodDouble inp D S S' .direct C.owner X.phi i := by
    unfold methodDouble
    rw [← Finset.sum_neg_distrib]
    exact Finset.sum_congr rfl fun k _ => by ring
  rw [e] at this
  linarith

/-- **C112** (uniqueness). On a connected convex surface two exact solutions with the same normal derivatives, whatever the types of the nodes and the boundary data, the linear solvers and
the numbers of processes, have potentials that differ by one constant. -/
theorem C112_unique (hK : ConvexSurface inp D S') (hcon : Connected inp D S') (C C' : Setup inp.nDofs d) (hm : C.method = .direct) (hm' : C'.method = .direct)
    (gmres gmres' : (Vec inp.nDofs → Vec inp.nDofs) → Vec inp.nDofs → Vec inp.nDofs) (l l' : List (ℕ × ℕ)) (st st' : AlphaStatics)
    (phi0 dphi0 phi0' dphi0' : Vec inp.nDofs) (X X' : Solution inp.nDofs)
    (h : solve inp D S S' C gmres (alphaHistory l) phi0 dphi0 = (st, some X))
    (h' : solve inp D S S' C' gmres' (alphaHistory l') phi0' dphi0' = (st', some X'))
    (B B' : Finset (Fin inp.nDofs)) (hP : Posed inp C B phi0 dphi0) (hP' : Posed inp C' B' phi0' dphi0')
    (hdata : Consistent C B) (hdata' : Consistent C' B') (hg : ∀ i, ¬ GradientNode C B i) (hg' : ∀ i, ¬ GradientNode C' B' i)
    (hX : ∀ i, X.residual i = 0) (hX' : ∀ i, X'.residual i = 0) (hdphi : ∀ i, X'.dphi i = X.dphi i) :
    ∃ t, ∀ i, X'.phi i = X.phi i + t := by
  have e := fun i => ((C82_exact_solutions inp D S S' C gmres l st phi0 dphi0 X h B hP hdata.sharp hdata.agree).1 hX).1 i (hg i)
  have e' := fun i => ((C82_exact_solutions inp D S S' C' gmres' l' st' phi0' dphi0' X' h' B' hP' hdata'.sharp hdata'.agree).1 hX').1 i (hg' i)
  simp only [hm, hm', methodResidual, hdphi, dense_entry] at e e'
  have hz : ∀ i, methodDouble inp D S S' .direct C.owner (fun k => X'.phi k - X.phi k) i ≤ 0 := by
    intro i
    refine le_of_eq ?_
    have e3 : ∑ k : Fin inp.nDofs, surfaceIntegral inp D S' .double i k * (X'.phi k - X'.phi i) - ∑ k : Fin inp.nDofs, surfaceIntegral inp D S' .double i k * (X.phi k - X.phi i) = 0 := by
      linarith [e i, e' i]
    rw [← e3, ← Finset.sum_sub_distrib]
    unfold methodDouble
    exact Finset.sum_congr rfl fun k _ => by rw [dense_entry]; ring
  have hc := constant_of_double hK hcon S C.owner _ hz
  rcases isEmpty_or_nonempty (Fin inp.nDofs) with hE | ⟨⟨i0⟩⟩
  · exact ⟨0, fun i => (hE.false i).elim⟩
  · exact ⟨X'.phi i0 - X.phi i0, fun i => by linarith [hc i i0]⟩

/-- **C112** (fluxes). On a connected convex surface whose quadrature points are not at the nodes an exact solution whose normal derivatives all have the same sign, at Dirichlet and Neumann nodes, has zero normal derivatives and constant potential. -/
theorem C112_flux (hK : ConvexSurface inp D S') (hcon : Connected inp D S') (hap : ∀ i k : Fin inp.nDofs, Separate inp D S' i k)
    (C : Setup inp.nDofs d) (hm : C.method = .direct)
    (gmres : (Vec inp.nDofs → Vec inp.nDofs) → Vec inp.nDofs → Vec inp.nDofs) (l : List (ℕ × ℕ)) (st : AlphaStatics)
    (phi0 dphi0 : Vec inp.nDofs) (X : Solution inp.nDofs)
    (h : solve inp D S S' C gmres (alphaHistory l) phi0 dphi0 = (st, some X))
    (B : Finset (Fin inp.nDofs)) (hP : Posed inp C B phi0 dphi0) (hdata : Consistent C B) (hg : ∀ i, ¬ GradientNode C B i)
    (hX : ∀ i, X.residual i = 0) (hs : (∀ i, 0 ≤ X.dphi i) ∨ ∀ i, X.dphi i ≤ 0) :
    (∀ i, X.dphi i = 0) ∧ ∀ i k, X.phi i = X.phi k := by
  have hmax := fun i => C112_maximum hK C hm gmres l st phi0 dphi0 X h B hP hdata hX i (hg i)
  have heq : ∀ i, methodSingle inp D S S' .direct C.owner X.dphi i = methodDouble inp D S S' .direct C.owner X.phi i := by
    intro i
    have := ((C82_exact_solutions inp D S S' C gmres l st phi0 dphi0 X h B hP hdata.sharp hdata.agree).1 hX).1 i (hg i)
    rw [hm] at this
    unfold methodResidual at this
    unfold methodSingle methodDouble
    linarith
  have hzero : ∀ i, X.dphi i = 0 := by
    intro i
    have hpos : ∀ j k, 0 < solveMatrix inp D S S' .direct C.owner .single j k := fun j k => (C112_signs hK S C.owner j k).2.2.2 (hap j k)
    rcases hs with hs | hs
    · obtain ⟨m, _, hm⟩ := Finset.exists_min_image Finset.univ X.phi ⟨i, Finset.mem_univ i⟩
      have h1 := (hmax m).2 fun k => hm k (Finset.mem_univ k)
      have hterm : ∀ k ∈ Finset.univ, 0 ≤ solveMatrix inp D S S' .direct C.owner .single m k * X.dphi k := fun k _ => mul_nonneg (hpos m k).le (hs k)
      have h2 := (Finset.sum_eq_zero_iff_of_nonneg hterm).1 (le_antisymm h1 (Finset.sum_nonneg hterm)) i (Finset.mem_univ i)
      exact (mul_eq_zero.1 h2).resolve_left (hpos m i).ne'
    · obtain ⟨m, _, hm⟩ := Finset.exists_max_image Finset.univ X.phi ⟨i, Finset.mem_univ i⟩
      have h1 := (hmax m).1 fun k => hm k (Finset.mem_univ k)
      have hterm : ∀ k ∈ Finset.univ, solveMatrix inp D S S' .direct C.owner .single m k * X.dphi k ≤ 0 := fun k _ =>
        mul_nonpos_of_nonneg_of_nonpos (hpos m k).le (hs k)
      have h2 := (Finset.sum_eq_zero_iff_of_nonpos hterm).1 (le_antisymm (Finset.sum_nonpos hterm) h1) i (Finset.mem_univ i)
      exact (mul_eq_zero.1 h2).resolve_left (hpos m i).ne'
  refine ⟨hzero, constant_of_double hK hcon S C.owner X.phi fun i => ?_⟩
  rw [← heq]
  unfold methodSingle
  simp [hzero]

/-- **C112** (comparison). On a connected convex surface whose quadrature points are not at the nodes, of two exact solutions (any types of nodes, data, linear solvers, numbers of processes) none has larger normal derivatives than the
other: if the normal derivatives of one are at every node not larger than those of the other, they are equal, and the potentials differ by one constant. -/
theorem C112_comparison (hK : ConvexSurface inp D S') (hcon : Connected inp D S') (hap : ∀ i k : Fin inp.nDofs, Separate inp D S' i k)
    (C C' : Setup inp.nDofs d) (hm : C.method = .direct) (hm' : C'.method = .direct)
    (gmres gmres' : (Vec inp.nDofs → Vec inp.nDofs) → Vec inp.nDofs → Vec inp.nDofs) (l l' : List (ℕ × ℕ)) (st st' : AlphaStatics)
    (phi0 dphi0 phi0' dphi0' : Vec inp.nDofs) (X X' : Solution inp.nDofs)
    (h : solve inp D S S' C gmres (alphaHistory l) phi0 dphi0 = (st, some X))
    (h' : solve inp D S S' C' gmres' (alphaHistory l') phi0' dphi0' = (st', some X'))
    (B B' : Finset (Fin inp.nDofs)) (hP : Posed inp C B phi0 dphi0) (hP' : Posed inp C' B' phi0' dphi0')
    (hdata : Consistent C B) (hdata' : Consistent C' B') (hg : ∀ i, ¬ GradientNode C B i) (hg' : ∀ i, ¬ GradientNode C' B' i)
    (hX : ∀ i, X.residual i = 0) (hX' : ∀ i, X'.residual i = 0) (hle : ∀ i, X.dphi i ≤ X'.dphi i) :
    (∀ i, X'.dphi i = X.dphi i) ∧ ∃ t, ∀ i, X'.phi i = X.phi i + t := by
  have e := fun i => ((C82_exact_solutions inp D S S' C gmres l st phi0 dphi0 X h B hP hdata.sharp hdata.agree).1 hX).1 i (hg i)
  have e' := fun i => ((C82_exact_solutions inp D S S' C' gmres' l' st' phi0' dphi0' X' h' B' hP' hdata'.sharp hdata'.agree).1 hX').1 i (hg' i)
  simp only [hm, hm', methodResidual, dense_entry] at e e'
  have hpos : ∀ j k, 0 < solveMatrix inp D S S' .direct C.owner .single j k := fun j k => (C112_signs hK S C.owner j k).2.2.2 (hap j k)
  have hsum : ∀ i, methodDouble inp D S S' .direct C.owner (fun k => X.phi k - X'.phi k) i =
      -∑ k, solveMatrix inp D S S' .direct C.owner .single i k * (X'.dphi k - X.dphi k) := by
    intro i
    unfold methodDouble
    simp only [dense_entry]
    have e3 : ∑ k : Fin inp.nDofs, surfaceIntegral inp D S' .double i k * (X.phi k - X'.phi k - (X.phi i - X'.phi i)) =
        ∑ k : Fin inp.nDofs, surfaceIntegral inp D S' .double i k * (X.phi k - X.phi i) -
          ∑ k : Fin inp.nDofs, surfaceIntegral inp D S' .double i k * (X'.phi k - X'.phi i) := by
      rw [← Finset.sum_sub_distrib]
      exact Finset.sum_congr rfl fun k _ => by ring
    have e4 : ∑ k : Fin inp.nDofs, surfaceIntegral inp D S' .single i k * (X'.dphi k - X.dphi k) =
        ∑ k : Fin inp.nDofs, surfaceIntegral inp D S' .single i k * X'.dphi k - ∑ k : Fin inp.nDofs, surfaceIntegral inp D S' .single i k * X.dphi k := by
      rw [← Finset.sum_sub_distrib]
      exact Finset.sum_congr rfl fun k _ => by ring
    rw [e3, e4]
    linarith [e i, e' i]
  have heq : ∀ i, X'.dphi i = X.dphi i := by
    intro i
    obtain ⟨m, _, hmax⟩ := Finset.exists_max_image Finset.univ (fun k => X.phi k - X'.phi k) ⟨i, Finset.mem_univ i⟩
    have h1 := (double_at_max hK S C.owner (fun k => X.phi k - X'.phi k) m fun k => hmax k (Finset.mem_univ k)).1
    rw [hsum] at h1
    have hterm : ∀ k ∈ Finset.univ, 0 ≤ solveMatrix inp D S S' .direct C.owner .single m k * (X'.dphi k - X.dphi k) := fun k _ =>
      mul_nonneg (hpos m k).le (by linarith [hle k])
    have h2 := (Finset.sum_eq_zero_iff_of_nonneg hterm).1 (le_antisymm (by linarith) (Finset.sum_nonneg hterm)) i (Finset.mem_univ i)
    have := (mul_eq_zero.1 h2).resolve_left (hpos m i).ne'
    linarith
  exact ⟨heq, C112_unique hK hcon C C' hm hm' gmres gmres' l l' st st' phi0 dphi0 phi0' dphi0' X X' h h' B B' hP hP' hdata hdata' hg hg' hX hX' heq⟩

/-- **C112** (one Dirichlet node). On a connected convex surface whose quadrature points are not at the nodes, the linear system of a problem with exactly one Dirichlet node is regular: two exact solutions agree. -/
theorem C112_one_dirichlet (hK : ConvexSurface inp D S') (hcon : Connected inp D S') (hap : ∀ i k : Fin inp.nDofs, Separate inp D S' i k)
    (C : Setup inp.nDofs d) (hm : C.method = .direct) (l : List (ℕ × ℕ)) (phi0 dphi0 : Vec inp.nDofs)
    (b : Fin inp.nDofs) (hP : Posed inp C {b} phi0 dphi0) : Determined inp D S S' C (alphaHistory l) phi0 dphi0 := by
  intro g₁ g₂ st₁ st₂ X₁ X₂ h₁ h₂ r₁ r₂
  have hc : Consistent C {b} := by
    refine ⟨fun i hi j _ hj => by rw [Finset.mem_singleton.1 hi, Finset.mem_singleton.1 hj], fun _ i hi j _ hj hne => ?_⟩
    exact absurd ((Finset.mem_singleton.1 hj).trans (Finset.mem_singleton.1 hi).symm) hne
  have hg : ∀ i, ¬ GradientNode C {b} i := by
    rintro i ⟨-, j, -, k, -, hj, hk, hne⟩
    exact hne ((Finset.mem_singleton.1 hj).trans (Finset.mem_singleton.1 hk).symm)
  obtain ⟨-, -, p₁, q₁, -⟩ := solve_rows h₁ {b} hP.dirichlet hP.neumann hP.bc hP.phi hP.dphi
  obtain ⟨-, -, p₂, q₂, -⟩ := solve_rows h₂ {b} hP.dirichlet hP.neumann hP.bc hP.phi hP.dphi
  have hoff : ∀ i, i ≠ b → X₁.dphi i = X₂.dphi i := by
    intro i hi
    rw [q₁, q₂]
    simp [merge, hi]
  have hb : X₁.phi b = X₂.phi b := by
    rw [p₁, p₂]
    simp [merge]
  have key : (∀ i, X₂.dphi i = X₁.dphi i) ∧ ∃ t, ∀ i, X₂.phi i = X₁.phi i + t := by
    rcases le_total (X₁.dphi b) (X₂.dphi b) with hle | hle
    · refine C112_comparison hK hcon hap C C hm hm g₁ g₂ l l st₁ st₂ phi0 dphi0 phi0 dphi0 X₁ X₂ h₁ h₂ {b} {b} hP hP hc hc hg hg r₁ r₂ fun i => ?_
      by_cases hi : i = b
      · rw [hi]; exact hle
      · exact (hoff i hi).le
    · obtain ⟨k1, t, k2⟩ := C112_comparison hK hcon hap C C hm hm g₂ g₁ l l st₂ st₁ phi0 dphi0 phi0 dphi0 X₂ X₁ h₂ h₁ {b} {b} hP hP hc hc hg hg r₂ r₁ fun i => by
        by_cases hi : i = b
        · rw [hi]; exact hle
        · exact (hoff i hi).ge
      exact ⟨fun i => (k1 i).symm, -t, fun i => by rw [k2 i]; ring⟩
  obtain ⟨k1, t, k2⟩ := key
  have ht : t = 0 := by have := k2 b; rw [hb] at this; linarith
  exact ⟨funext fun i => by rw [k2 i, ht, add_zero], funext fun i => (k1 i).symm⟩

/-- **C112** (pure Neumann problems). On a connected convex surface a pure Neumann solve with zero residual satisfies the boundary integral equation (at all nodes without double or hanging node) only if it returns
a constant potential; in all other cases the equation is violated by the same positive constant at all these nodes. -/
theorem C112_neumann (hK : ConvexSurface inp D S') (hcon : Connected inp D S') (C : Setup inp.nDofs d) (hm : C.method = .direct)
    (gmres : (Vec inp.nDofs → Vec inp.nDofs) → Vec inp.nDofs → Vec inp.nDofs) (l : List (ℕ × ℕ)) (st : AlphaStatics)
    (phi0 dphi0 : Vec inp.nDofs) (X : Solution inp.nDofs)
    (h : solve inp D S S' C gmres (alphaHistory l) phi0 dphi0 = (st, some X))
    (hd : ∀ i, C.nodes.dirichlet i = 0) (hn : ∀ i, C.neumannNodes i = 1) (hb : C.haveDirichletBc = false)
    (hdphi : dphi0 = C.nodes.tmpRhs) (hrefl : ∀ i, i ∈ C.doubles i) (heq : ∀ i j, j ∈ C.doubles i → C.doubles j = C.doubles i) (hord : ∀ i, i ∈ C.order) :
    X.dphi = C.nodes.tmpRhs ∧ ∃ t, 0 ≤ t ∧ (t = 0 ↔ ∀ i k, X.phi i = X.phi k) ∧
      ∀ i, C.hanging i = none → (∀ j ∈ C.doubles i, i ≤ j) → X.residual i = 0 → bieResidual inp D S' X.phi X.dphi i = t := by
  obtain ⟨c, hc, h1, h2, h3⟩ := solve_rows_neumann h hd hn hb
  rw [hm] at h3
  refine ⟨h2.trans hdphi, l2norm (methodDouble inp D S S' .direct C.owner X.phi), l2norm_nonneg' _, ?_, ?_⟩
  · rw [l2norm_zero_iff]
    exact ⟨fun h0 => constant_of_double hK hcon S C.owner X.phi fun i => (congrFun h0 i).le,
      fun hcst => funext fun i => constant_double S .direct C.owner X.phi hcst i⟩
  · intro i hh hdbl hr
    have hci := (unconstrained_neumann C.nodes C.doubles hrefl heq hd C.hanging C.fuel C.order hord hc i).2 ⟨hh, hdbl⟩
    have hrow := h3 i hci
    rw [← methodResidual_direct inp D S S' C.owner]
    rw [hr, ← h2.trans hdphi] at hrow
    unfold methodResidual
    generalize l2norm (methodDouble inp D S S' .direct C.owner X.phi) = t at hrow ⊢
    unfold methodDouble methodSingle at hrow
    linarith

/-! ## Example: the cube -/

/-- A singular quadrature on the cube: one point in the face, at distance one of the node, with the outer normal of the face. -/
def faceRule : SingRule := fun c s =>
  [⟨toV fun a => (cubeInput 3 0).pos (((cubeInput 3 0).cellDofs c).getD s 0) a -
      if a.val = (c / 2 + 1) % 3 then (cubeInput 3 0).pos (((cubeInput 3 0).cellDofs c).getD s 0) a else 0,
    toV ((cubeInput 3 0).qpos (c, 0)), fun j => if j = s then 1 else 0, 6⟩]

/-- Quadrature points of the cube with rational coordinates: position and normal. -/
def cubeUsed (i c : ℕ) : (Fin 3 → ℚ) × (Fin 3 → ℚ) :=
  if i ∈ (cubeInput 3 0).cellDofs c then (fun a => (cubeInput 3 0).pos i a - if a.val = (c / 2 + 1) % 3 then (cubeInput 3 0).pos i a else 0, (cubeInput 3 0).qpos (c, 0))
  else ((cubeInput 3 0).qpos (c, 0), (cubeInput 3 0).qpos (c, 0))

theorem cube_used (i c : ℕ) : usedPoints (cubeInput 3 0) cubeData faceRule i c = [⟨toV (cubeUsed i c).1, toV (cubeUsed i c).2,
    if i ∈ (cubeInput 3 0).cellDofs c then fun j => if j = ((cubeInput 3 0).cellDofs c).idxOf i then 1 else 0 else fun _ => 1 / 4,
    if i ∈ (cubeInput 3 0).cellDofs c then 6 else 4⟩] := by
  have hd : ∀ i, (cubeInput 3 0).doubles i = {i} := fun _ => rfl
  unfold usedPoints
  by_cases h : i ∈ (cubeInput 3 0).cellDofs c
  · have hex : ∃ s, s < ((cubeInput 3 0).cellDofs c).length ∧ ((cubeInput 3 0).cellDofs c).getD s 0 ∈ (cubeInput 3 0).doubles i := by
      refine ⟨((cubeInput 3 0).cellDofs c).idxOf i, List.idxOf_lt_length_iff.2 h, ?_⟩
      rw [List.getD_eq_getElem _ _ (List.idxOf_lt_length_iff.2 h)]
      simp [hd]
    have hf : Nat.find hex = ((cubeInput 3 0).cellDofs c).idxOf i := by
      rw [Nat.find_eq_iff]
      refine ⟨⟨List.idxOf_lt_length_iff.2 h, ?_⟩, fun n hn => ?_⟩
      · rw [List.getD_eq_getElem _ _ (List.idxOf_lt_length_iff.2 h)]
        simp [hd]
      · rintro ⟨h1, h2⟩
        rw [List.getD_eq_getElem _ _ h1, hd, Finset.mem_singleton] at h2
        have := List.not_of_lt_findIdx (p := (· == i)) (xs := (cubeInput 3 0).cellDofs c) hn
        simp [h2] at this
    have hg : ((cubeInput 3 0).cellDofs c).getD (((cubeInput 3 0).cellDofs c).idxOf i) 0 = i := by
      rw [List.getD_eq_getElem _ _ (List.idxOf_lt_length_iff.2 h)]
      simp
    rw [dif_pos hex, hf]
    simp only [faceRule, hg, cubeUsed, if_pos h]
  · rw [dif_neg]
    · simp only [cubeUsed, if_neg h]
      rfl
    · rintro ⟨s, h1, h2⟩
      rw [List.getD_eq_getElem _ _ h1, hd, Finset.mem_singleton] at h2
      exact h (h2 ▸ List.getElem_mem h1)

theorem cube_depth (i : ℕ) (p m : Fin 3 → ℚ) (f : ℕ → ℝ) (w : ℝ) : depth (cubeInput 3 0) i ⟨toV p, toV m, f, w⟩ =
    ((∑ a, (p a - (cubeInput 3 0).pos i a) * m a : ℚ) : ℝ) := by
  unfold depth toV
  push_cast
  rfl

theorem cube_convex : ConvexSurface (cubeInput 3 0) cubeData faceRule := by
  refine ⟨fun i c hi hc P hP => ?_, fun i c hi hc P hP => ?_, fun i c hi hc P hP j _ => ?_⟩
  · rw [cube_used, List.mem_singleton] at hP
    rw [hP, cube_depth]
    have : ∀ i, i < 8 → ∀ c, c < 6 → (0 : ℚ) ≤ ∑ a, ((cubeUsed i c).1 a - (cubeInput 3 0).pos i a) * (cubeUsed i c).2 a := by decide +kernel
    exact_mod_cast this i hi c hc
  · rw [cube_used, List.mem_singleton] at hP
    rw [hP]
    dsimp only
    split_ifs <;> norm_num
  · rw [cube_used, List.mem_singleton] at hP
    rw [hP]
    dsimp only
    split_ifs
    · dsimp only
      split_ifs <;> norm_num
    · norm_num

theorem cube_far : ∀ i k : Fin 8, i ≠ k → ∃ c, c < 6 ∧ i.val ∉ (cubeInput 3 0).cellDofs c ∧ ∃ j, j < ((cubeInput 3 0).cellDofs c).length ∧
    ((cubeInput 3 0).cellDofs c).getD j 0 = k.val ∧
    (0 : ℚ) < ∑ a, ((cubeUsed i c).1 a - (cubeInput 3 0).pos i a) * (cubeUsed i c).2 a := by decide +kernel

theorem cube_sees {i k : Fin 8} (h : i ≠ k) : Sees (cubeInput 3 0) cubeData faceRule i k := by
  obtain ⟨c, hc, hi, j, hj, hk, hpos⟩ := cube_far i k h
  refine ⟨c, hc, j, hj, hk, _, by rw [cube_used]; exact List.mem_singleton_self _, ?_, ?_, ?_⟩
  · simp only [if_neg hi]; norm_num
  · simp only [if_neg hi]; norm_num
  · rw [cube_depth]; exact_mod_cast hpos

theorem cube_connected : Connected (cubeInput 3 0) cubeData faceRule := by
  intro i k
  by_cases h : i = k
  · rw [h]
  · exact .single (cube_sees (i := i) (k := k) h)

theorem cube_near : ∀ i : Fin 8, ∃ c, c < 6 ∧ i.val ∈ (cubeInput 3 0).cellDofs c ∧
    ((cubeInput 3 0).cellDofs c).getD (((cubeInput 3 0).cellDofs c).idxOf i.val) 0 = i.val ∧
    ((cubeInput 3 0).cellDofs c).idxOf i.val < ((cubeInput 3 0).cellDofs c).length ∧
    (cubeUsed i c).1 ≠ (cubeInput 3 0).pos i := by decide +kernel

theorem toV_inj {p q : Fin 3 → ℚ} (h : p ≠ q) : toV p ≠ toV q := fun he => h (funext fun a => by have := congrFun he a; simpa [toV] using this)

theorem cube_apart (i k : Fin (cubeInput 3 0).nDofs) : Separate (cubeInput 3 0) cubeData faceRule i k := by
  by_cases h : i = k
  · subst h
    obtain ⟨c, hc, hi, hk, hj, hne⟩ := cube_near i
    refine ⟨c, hc, _, hj, hk, _, by rw [cube_used]; exact List.mem_singleton_self _, ?_, ?_, toV_inj hne⟩
    · simp only [if_pos hi]; norm_num
    · simp only [if_pos hi]; norm_num
  · obtain ⟨c, hc, j, hj, hk, P, hP, h1, h2, h3⟩ := cube_sees (i := i) (k := k) h
    exact ⟨c, hc, j, hj, hk, P, hP, h1, h2, fun he => by simp [depth, he] at h3⟩

theorem cube_face_node (i : Fin 8) (c j : ℕ) : cellIntegral (cubeInput 3 0) cubeData faceRule .single i c j =
    cellIntegral (cubeInput 3 0) cubeData nodeRule .single i c j := by
  rw [cube_single, cellIntegral_points, cube_used]
  simp only [List.map_cons, List.map_nil, List.sum_cons, List.sum_nil, add_zero, kernelValue]
  by_cases h : i.val ∈ (cubeInput 3 0).cellDofs c
  · have h1 : (∑ a, (toV ((cubeInput 3 0).pos i) a - toV (cubeUsed i c).1 a) ^ 2) = 1 := by
      have hr : ((∑ a, ((cubeInput 3 0).pos i a - (cubeUsed i c).1 a) ^ 2 : ℚ) : ℝ) = 1 := by
        have h2 : (∑ a, ((cubeInput 3 0).pos i a - (cubeUsed i c).1 a) ^ 2 : ℚ) = 1 := by
          simp only [cubeUsed, if_pos h]
          have : ∀ i : Fin 8, ∀ r, r < 3 → (∑ a : Fin 3, ((cubeInput 3 0).pos i a - ((cubeInput 3 0).pos i a - if a.val = r then (cubeInput 3 0).pos i a else 0)) ^ 2 : ℚ) = 1 := by
            decide +kernel
          exact this i _ (Nat.mod_lt _ (by norm_num))
        rw [h2]; norm_num
      rw [← hr]
      unfold toV
      push_cast
      rfl
    simp only [h1, if_pos h]
    by_cases hj : ((cubeInput 3 0).cellDofs c).idxOf i.val = j
    · rw [if_pos hj, if_pos hj.symm]; norm_num; ring
    · rw [if_neg hj, if_neg (Ne.symm hj)]; norm_num
  · simp only [if_neg h, cubeUsed]
    norm_num
    ring

theorem cube_row_face (i : Fin 8) : (∑ k ∈ Finset.univ.erase i, |surfaceIntegral (cubeInput 3 0) cubeData faceRule .single i k|) +
    6 / (4 * Real.pi) ≤ surfaceIntegral (cubeInput 3 0) cubeData faceRule .single i i := by
  have h : ∀ k, surfaceIntegral (cubeInput 3 0) cubeData faceRule .single i k = surfaceIntegral (cubeInput 3 0) cubeData nodeRule .single i k := by
    intro k
    unfold surfaceIntegral
    simp only [cube_face_node]
  simp only [h]
  exact cube_row i

/-- A Dirichlet problem on the cube with the prescribed potential `g`. -/
def cubeDirichlet (procs : ℕ) (g : Vec 8) : Setup (cubeInput 3 0).nDofs 3 :=
  { cubeSetup .direct procs with nodes := ⟨fun _ => 1, g, fun _ => 0, fun _ => 0, false⟩ }

theorem cubeDirichlet_posed (procs : ℕ) (g dphi0 : Vec 8) : Posed (cubeInput 3 0) (cubeDirichlet procs g) Finset.univ g dphi0 where
  dirichlet := by intro i; simp [cubeDirichlet]
  neumann := by intro i; simp [cubeDirichlet, cubeSetup]
  bc := rfl
  phi := fun _ _ => rfl
  dphi := fun i hi => absurd (Finset.mem_univ i) hi
  refl := fun i => Finset.mem_singleton_self i
  eq := fun i j hj => by rw [Finset.mem_singleton.1 hj]
  coincide := fun i j hj => by rw [Finset.mem_singleton.1 hj]; exact ⟨rfl, rfl⟩
  hanging := fun _ => rfl
  order := fun i => List.mem_finRange i

theorem cubeDirichlet_consistent (procs : ℕ) (g : Vec 8) : Consistent (cubeDirichlet procs g) Finset.univ :=
  ⟨fun i _ j hj _ => by rw [Finset.mem_singleton.1 hj], fun h => by simp [cubeDirichlet] at h⟩

theorem cube_injective (x : Vec 8) (hx : ∀ i : Fin 8, ∑ k : Fin 8, surfaceIntegral (cubeInput 3 0) cubeData faceRule .single i k * x k = 0) : x = 0 := by
  funext i
  have := diag_dominant (fun i k : Fin 8 => surfaceIntegral (cubeInput 3 0) cubeData faceRule .single i k) (6 / (4 * Real.pi)) (by positivity)
    cube_row_face x 0 (fun i => by rw [hx i, abs_zero]) i
  rw [mul_zero] at this
  exact abs_nonpos_iff.1 this

/-- For every prescribed potential there is an exact run. -/
theorem cube_exact (S : SingRule) (procs : ℕ) (g : Vec 8) : ∃ (gmres : (Vec 8 → Vec 8) → Vec 8 → Vec 8) (st : AlphaStatics) (X : Solution 8),
    solve (cubeInput 3 0) cubeData S faceRule (cubeDirichlet procs g) gmres (alphaHistory []) g (fun _ => 0) = (st, some X) ∧
    (∀ i, X.residual i = 0) ∧ (∀ i, X.phi i = g i) ∧
    ∀ i : Fin 8, ∑ k : Fin 8, surfaceIntegral (cubeInput 3 0) cubeData faceRule .single i k * X.dphi k =
      ∑ k : Fin 8, surfaceIntegral (cubeInput 3 0) cubeData faceRule .double i k * (g k - g i) := by
  set M : Fin 8 → Fin 8 → ℝ := fun i k => surfaceIntegral (cubeInput 3 0) cubeData faceRule .single i k with hM
  have hinj : Function.Injective (Matrix.toLin' (Matrix.of M)) := by
    rw [injective_iff_map_eq_zero]
    intro x hx
    refine cube_injective x fun i => ?_
    have := congrFun hx i
    simpa only [Matrix.toLin'_apply, Matrix.mulVec, dotProduct, Matrix.of_apply, Pi.zero_apply] using this
  obtain ⟨v, hv⟩ := LinearMap.injective_iff_surjective.1 hinj fun i => ∑ k : Fin 8, surfaceIntegral (cubeInput 3 0) cubeData faceRule .double i k * (g k - g i)
  have hv' : ∀ i : Fin 8, ∑ k : Fin 8, M i k * v k = ∑ k : Fin 8, surfaceIntegral (cubeInput 3 0) cubeData faceRule .double i k * (g k - g i) := by
    intro i
    have := congrFun hv i
    simpa only [Matrix.toLin'_apply, Matrix.mulVec, dotProduct, Matrix.of_apply] using this
  have hl := constraints_no_doubles (cubeDirichlet procs g).nodes (fun i => Or.inr rfl) (fun _ => none) (by simp) 1 (by simp) (List.finRange _)
  obtain ⟨st, X0, h0⟩ := solve_some (inp := cubeInput 3 0) (D := cubeData) (S := S) (S' := faceRule) (C := cubeDirichlet procs g)
    (gmres := fun _ _ => v) (st := alphaHistory []) (phi0 := g) (dphi0 := fun _ => 0)
    (by simp [alphaHistory, alphaStaticsStep, AlphaStatics.init, cubeInput]) hl
  obtain ⟨X, h, hsol⟩ := solve_any h0 v
  have hP := cubeDirichlet_posed procs g (fun _ => 0)
  have hc := cubeDirichlet_consistent procs g
  obtain ⟨c, -, h1, h2, -, -⟩ := solve_rows h Finset.univ hP.dirichlet hP.neumann hP.bc hP.phi hP.dphi
  have hphi : ∀ i, X.phi i = g i := fun i => by rw [h1]; simp [merge, cubeDirichlet]
  have hdphi : ∀ i, X.dphi i = v i := fun i => by rw [h2, hsol]; simp [merge]
  refine ⟨_, st, X, h, (C82_exact_solutions _ _ _ _ _ _ _ _ _ _ X h Finset.univ hP hc.sharp hc.agree).2 ⟨?_, ?_, ?_⟩, hphi, fun i => ?_⟩
  · intro i _
    rw [show (cubeDirichlet procs g).method = .direct from rfl]
    simp only [methodResidual, dense_entry, hphi, hdphi]
    exact sub_eq_zero.2 (hv' i).symm
  · intro i j hj
    rw [Finset.mem_singleton.1 hj]
  · intro hcg
    simp [cubeDirichlet] at hcg
  · rw [← hv' i]
    exact Finset.sum_congr rfl fun k _ => by rw [hdphi k]

/-- the hypotheses of `C112_signs` and `C112_alpha` on the cube: every node sees every other one, and the coefficients `alpha` are positive -/
example (S : SingRule) (owner : ℕ → ℕ) : ∃ alpha : Vec (cubeInput 3 0).nDofs,
    (computeAlpha .direct 1 (solveMatrix (cubeInput 3 0) cubeData S faceRule .direct owner .double) 0 (alphaHistory [])).2 = some alpha ∧ ∀ i, 0 < alpha i := by
  obtain ⟨alpha, ha⟩ : ∃ alpha, (computeAlpha .direct 1 (solveMatrix (cubeInput 3 0) cubeData S faceRule .direct owner .double) 0 (alphaHistory [])).2 =
      some alpha := by
    simp [computeAlpha, alphaHistory, alphaStaticsStep, AlphaStatics.init, cubeInput]
  refine ⟨alpha, ha, fun i => ((C112_alpha cube_convex S owner [] 1 0 alpha ha i).2.1).2 ?_⟩
  obtain ⟨k, hk⟩ : ∃ k : Fin 8, i ≠ k := by
    have : ∀ i : Fin 8, ∃ k : Fin 8, i ≠ k := by decide
    exact this i
  exact ⟨k, cube_sees hk⟩

/-- the hypotheses of `C112_maximum` and `C112_unique` on the cube: Dirichlet problems with prescribed potentials `i` and `i + 5` -/
example (S : SingRule) (procs procs' : ℕ) : ∃ (gmres gmres' : (Vec 8 → Vec 8) → Vec 8 → Vec 8) (st st' : AlphaStatics) (X X' : Solution 8),
    solve (cubeInput 3 0) cubeData S faceRule (cubeDirichlet procs fun i => i) gmres (alphaHistory []) (fun i => i) (fun _ => 0) = (st, some X) ∧
    solve (cubeInput 3 0) cubeData S faceRule (cubeDirichlet procs' fun i => i + 5) gmres' (alphaHistory []) (fun i => i + 5) (fun _ => 0) = (st', some X') ∧
    (∀ i, X'.dphi i = X.dphi i) ∧
    0 ≤ methodSingle (cubeInput 3 0) cubeData S faceRule .direct (cubeDirichlet procs fun i => i).owner X.dphi (7 : Fin 8) := by
  obtain ⟨gmres, st, X, h, hr, hp, e⟩ := cube_exact S procs fun i => i
  obtain ⟨gmres', st', X', h', hr', hp', e'⟩ := cube_exact S procs' fun i => i + 5
  refine ⟨gmres, gmres', st, st', X, X', h, h', ?_, ?_⟩
  · have hd := cube_injective (fun k => X'.dphi k - X.dphi k) fun i => by
      simp only [mul_sub, Finset.sum_sub_distrib]
      have a := e i
      have b := e' i
      simp only [add_sub_add_right_eq_sub] at b
      exact sub_eq_zero.2 (b.trans a.symm)
    exact fun i => sub_eq_zero.1 (congrFun hd i)
  refine (C112_maximum cube_convex (cubeDirichlet procs fun i => i) rfl gmres [] st _ _ X h Finset.univ (cubeDirichlet_posed procs _ _)
    (cubeDirichlet_consistent procs _) hr (7 : Fin 8) (fun hg => by simp [GradientNode, cubeDirichlet] at hg)).1 fun k => ?_
  refine (hp k).trans_le (le_trans ?_ (hp 7).ge)
  have := k.isLt
  have h8 : (k : ℕ) ≤ 7 := by have h : (k : ℕ) < 8 := this; omega
  exact_mod_cast h8

/-- the hypotheses of `C112_unique` on the cube: the two runs of the previous example -/
example (S : SingRule) (procs procs' : ℕ) (gmres gmres' : (Vec 8 → Vec 8) → Vec 8 → Vec 8) (st st' : AlphaStatics) (X X' : Solution 8)
    (h : solve (cubeInput 3 0) cubeData S faceRule (cubeDirichlet procs fun i => i) gmres (alphaHistory []) (fun i => i) (fun _ => 0) = (st, some X))
    (h' : solve (cubeInput 3 0) cubeData S faceRule (cubeDirichlet procs' fun i => i + 5) gmres' (alphaHistory []) (fun i => i + 5) (fun _ => 0) = (st', some X'))
    (hr : ∀ i, X.residual i = 0) (hr' : ∀ i, X'.residual i = 0) (hd : ∀ i, X'.dphi i = X.dphi i) : ∃ t, ∀ i, X'.phi i = X.phi i + t :=
  C112_unique cube_convex cube_connected (cubeDirichlet procs fun i => i) (cubeDirichlet procs' fun i => i + 5) rfl rfl gmres gmres' [] [] st st' _ _ _ _ X X' h h'
    Finset.univ Finset.univ (cubeDirichlet_posed procs _ _) (cubeDirichlet_posed procs' _ _) (cubeDirichlet_consistent procs _)
    (cubeDirichlet_consistent procs' _) (fun i hg => by simp [GradientNode, cubeDirichlet] at hg) (fun i hg => by simp [GradientNode, cubeDirichlet] at hg)
    hr hr' hd

/-- the hypotheses of `C112_flux` on the cube, except the one on the sign: the run with prescribed potential `i` has normal derivatives of both signs -/
example (S : SingRule) (procs : ℕ) : ∃ (gmres : (Vec 8 → Vec 8) → Vec 8 → Vec 8) (st : AlphaStatics) (X : Solution 8),
    solve (cubeInput 3 0) cubeData S faceRule (cubeDirichlet procs fun i => i) gmres (alphaHistory []) (fun i => i) (fun _ => 0) = (st, some X) ∧
    (∃ i, X.dphi i < 0) ∧ ∃ i, 0 < X.dphi i := by
  obtain ⟨gmres, st, X, h, hr, hp, -⟩ := cube_exact S procs fun i => i
  have key : ¬ ((∀ i, 0 ≤ X.dphi i) ∨ ∀ i, X.dphi i ≤ 0) := fun hs => by
    have := (C112_flux cube_convex cube_connected cube_apart (cubeDirichlet procs fun i => i) rfl gmres [] st _ _ X h Finset.univ
      (cubeDirichlet_posed procs _ _) (cubeDirichlet_consistent procs _) (fun i hg => by simp [GradientNode, cubeDirichlet] at hg) hr hs).2 (0 : Fin 8) (1 : Fin 8)
    have := (hp 0).symm.trans (this.trans (hp 1))
    simp at this
  push Not at key
  exact ⟨gmres, st, X, h, key⟩

/-- the hypotheses of `C112_flux` on the cube: a constant potential -/
example (S : SingRule) (procs : ℕ) : ∃ (gmres : (Vec 8 → Vec 8) → Vec 8 → Vec 8) (st : AlphaStatics) (X : Solution 8),
    solve (cubeInput 3 0) cubeData S faceRule (cubeDirichlet procs fun _ => 4) gmres (alphaHistory []) (fun _ => 4) (fun _ => 0) = (st, some X) ∧
    (∀ i, X.residual i = 0) ∧ ∀ i, X.dphi i ≤ 0 := by
  obtain ⟨gmres, st, X, h, hr, hp, e⟩ := cube_exact S procs fun _ => 4
  have hd := cube_injective X.dphi fun i => (e i).trans (by simp)
  exact ⟨gmres, st, X, h, hr, fun i => (congrFun hd i).le⟩

/-- the hypotheses of `C112_neumann` on the cube: pure Neumann, every linear solver -/
example (S : SingRule) (procs : ℕ) (g : Vec 8) (gmres : (Vec 8 → Vec 8) → Vec 8 → Vec 8) : ∃ (st : AlphaStatics) (X : Solution 8) (t : ℝ),
    solve (cubeInput 3 0) cubeData S faceRule (cubeNeumann .direct procs g) gmres (alphaHistory []) (fun _ => 0) g = (st, some X) ∧
    0 ≤ t ∧ (t = 0 ↔ ∀ i k, X.phi i = X.phi k) ∧ ∀ i, X.residual i = 0 → bieResidual (cubeInput 3 0) cubeData faceRule X.phi X.dphi i = t := by
  obtain ⟨st, X, h⟩ := cube_neumann_solve S faceRule .direct procs g gmres (fun _ => 0) g
  obtain ⟨-, t, h0, h1, h2⟩ := C112_neumann cube_convex cube_connected (cubeNeumann .direct procs g) rfl gmres [] st _ _ X h (fun _ => rfl) (fun _ => rfl) rfl rfl
    (fun i => Finset.mem_singleton_self i) (fun i j hj => by rw [Finset.mem_singleton.1 hj]) (fun i => List.mem_finRange i)
  exact ⟨st, X, t, h, h0, h1, fun i => h2 i rfl (fun j hj => (Finset.mem_singleton.1 hj).ge)⟩

/-- the hypotheses of `C112_one_dirichlet` on the cube: node 3 Dirichlet, the others Neumann; there are runs -/
example (S : SingRule) (procs : ℕ) (g : Vec 8) (gmres : (Vec 8 → Vec 8) → Vec 8 → Vec 8) : ∃ (C : Setup (cubeInput 3 0).nDofs 3) (st : AlphaStatics) (X : Solution 8),
    solve (cubeInput 3 0) cubeData S faceRule C gmres (alphaHistory []) g g = (st, some X) ∧
    C.nodes.dirichlet (0 : Fin 8) = 0 ∧ C.nodes.dirichlet (3 : Fin 8) = 1 ∧ Determined (cubeInput 3 0) cubeData S faceRule C (alphaHistory []) g g := by
  have hl := constraints_no_doubles (n := 8) (d := 3) ⟨fun i => if i ∈ ({3} : Finset (Fin 8)) then 1 else 0, g, fun _ => 0, fun _ => 0, false⟩
    (fun i => by dsimp only; split_ifs <;> simp) (fun _ => none) (by simp) 1 (by simp) (List.finRange 8)
  obtain ⟨st, X, h⟩ := solve_some (inp := cubeInput 3 0) (D := cubeData) (S := S) (S' := faceRule)
    (C := { cubeSetup .direct procs with
      neumannNodes := fun (i : Fin 8) => if i ∈ ({3} : Finset (Fin 8)) then 0 else 1
      nodes := ⟨fun (i : Fin 8) => if i ∈ ({3} : Finset (Fin 8)) then 1 else 0, g, fun _ => 0, fun _ => 0, false⟩ })
    (gmres := gmres) (st := alphaHistory []) (phi0 := g) (dphi0 := g)
    (by simp [alphaHistory, alphaStaticsStep, AlphaStatics.init, cubeInput]) hl
  refine ⟨_, st, X, h, by simp, by simp, C112_one_dirichlet cube_convex cube_connected cube_apart _ rfl [] _ _ (3 : Fin 8)
    { dirichlet := fun _ => rfl, neumann := fun _ => rfl, bc := rfl, phi := fun _ _ => rfl, dphi := fun _ _ => rfl
      refl := fun i => Finset.mem_singleton_self i, eq := fun i j hj => by rw [Finset.mem_singleton.1 hj]
      coincide := fun i j hj => by rw [Finset.mem_singleton.1 hj]; exact ⟨rfl, rfl⟩
      hanging := fun _ => rfl, order := fun i => List.mem_finRange i }⟩

end PiBem.Bem
