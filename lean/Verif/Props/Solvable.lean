import Verif.Props.Exact
import Verif.Props.Convex
import Verif.Props.SymmetricPlane

/-!
C114: when the boundary value problem the program sets up has exactly one solution, for every data.
-/

namespace PiBem.Bem

open PiBem.Octree PiBem.Expansion PiBem.Fmm

variable {n d : ℕ}

/-- Two configurations of the same problem, on any partitions, that differ in the prescribed values only (potentials, normal derivatives, surface gradients). -/
structure OnlyData (C C' : Setup n d) : Prop where
  neumann : C'.neumannNodes = C.neumannNodes
  bc : C'.haveDirichletBc = C.haveDirichletBc
  dirichlet : C'.nodes.dirichlet = C.nodes.dirichlet
  normal : C'.nodes.normal = C.nodes.normal
  gradient : C'.nodes.continuosGradient = C.nodes.continuosGradient
  doubles : C'.doubles = C.doubles
  hanging : C'.hanging = C.hanging
  fuel : C'.fuel = C.fuel
  order : C'.order = C.order

theorem OnlyData.rfl (C : Setup n d) : OnlyData C C := ⟨Eq.refl _, Eq.refl _, Eq.refl _, Eq.refl _, Eq.refl _, Eq.refl _, Eq.refl _, Eq.refl _, Eq.refl _⟩

/-- The problem has a Dirichlet node, the vectors passed by the caller contain the data, and no condition is written for Dirichlet nodes with parallel normals
(where it is not finite, see C32). -/
structure DataOf (C : Setup n d) (B : Finset (Fin n)) (phi0 dphi0 : Vec n) : Prop where
  dirichlet : ∀ i, C.nodes.dirichlet i = if i ∈ B then 1 else 0
  neumann : ∀ i, C.neumannNodes i = if i ∈ B then 0 else 1
  bc : C.haveDirichletBc = true
  phi : ∀ i ∈ B, phi0 i = C.nodes.tmpRhs i
  dphi : ∀ i, i ∉ B → dphi0 i = C.nodes.tmpRhs i
  sharp : C.nodes.continuosGradient = true → ∀ i ∈ B, ∀ j ∈ C.doubles i, j ∈ B → j ≠ i → dot (C.nodes.normal i) (C.nodes.normal j) ^ 2 ≠ 1

/-- The run ends without exception, for some (equivalently, every) linear solver. -/
def Runs (N M : Mat n) (C : Setup n d) (st : AlphaStatics) (phi0 dphi0 : Vec n) : Prop :=
  ∃ gmres st' X, solveWith N M C gmres st phi0 dphi0 = (st', some X)

/-- Some linear solver solves the linear system of the run exactly. -/
def Solvable (N M : Mat n) (C : Setup n d) (st : AlphaStatics) (phi0 dphi0 : Vec n) : Prop :=
  ∃ gmres st' X, solveWith N M C gmres st phi0 dphi0 = (st', some X) ∧ ∀ i, X.residual i = 0

/-- The same configuration with all data zero. -/
def zeroData (C : Setup n d) : Setup n d := { C with nodes := { C.nodes with tmpRhs := 0, surfGrad := fun _ _ => 0 } }

/-- With zero data only the zero potential and normal derivative solve the system exactly. -/
def OnlyZero (N M : Mat n) (C : Setup n d) (st : AlphaStatics) : Prop :=
  ∀ gmres st' X, solveWith N M (zeroData C) gmres st 0 0 = (st', some X) → (∀ i, X.residual i = 0) → X.phi = 0 ∧ X.dphi = 0

/-! ## The entries of the constraints do not depend on the data -/

/-- The same dofs are constrained, with the same entries. -/
def SameEntries (c c' : Lines n) : Prop := ∀ i, (c i).map Prod.fst = (c' i).map Prod.fst

theorem same_cases {c c' : Lines n} (h : SameEntries c c') (i : Fin n) :
    (c i = none ∧ c' i = none) ∨ ∃ es g g', c i = some (es, g) ∧ c' i = some (es, g') := by
  have hi := h i
  cases h1 : c i with
  | none =>
    rw [h1] at hi
    cases h2 : c' i with
    | none => exact .inl ⟨rfl, rfl⟩
    | some x => rw [h2] at hi; simp at hi
  | some x =>
    rw [h1] at hi
    cases h2 : c' i with
    | none => rw [h2] at hi; simp at hi
    | some y =>
      rw [h2] at hi
      simp only [Option.map_some, Option.some.injEq] at hi
      refine .inr ⟨x.1, x.2, y.2, rfl, ?_⟩
      rw [hi]

theorem same_update {c c' : Lines n} (h : SameEntries c c') (i : Fin n) (es : List (Fin n × ℝ)) (g g' : Option ℝ) :
    SameEntries (Function.update c i (some (es, g))) (Function.update c' i (some (es, g'))) := by
  intro k
  by_cases hk : k = i
  · subst hk; simp
  · simpa [Function.update_of_ne hk] using h k

theorem same_addLine {c c' : Lines n} (h : SameEntries c c') (i : Fin n) : SameEntries (addLine c i) (addLine c' i) := by
  unfold addLine
  rcases same_cases h i with ⟨h1, h2⟩ | ⟨es, g, g', h1, h2⟩
  · simp only [h1, h2]; exact same_update h _ _ _ _
  · simp only [h1, h2]; exact h

theorem same_addEntry {c c' : Lines n} (h : SameEntries c c') (i j : Fin n) (v : ℝ) : SameEntries (addEntry c i j v) (addEntry c' i j v) := by
  unfold addEntry
  rcases same_cases h i with ⟨h1, h2⟩ | ⟨es, g, g', h1, h2⟩
  · simp only [h1, h2]; exact h
  · simp only [h1, h2]
    split_ifs
    · exact h
    · exact same_update h _ _ _ _

theorem same_setInhom {c c' : Lines n} (h : SameEntries c c') (i : Fin n) (v v' : Option ℝ) : SameEntries (setInhom c i v) (setInhom c' i v') := by
  unfold setInhom
  rcases same_cases h i with ⟨h1, h2⟩ | ⟨es, g, g', h1, h2⟩
  · simp only [h1, h2]; exact h
  · simp only [h1, h2]; exact same_update h _ _ _ _

theorem same_foldl {ι : Type} (f f' : Lines n → ι → Lines n) (hf : ∀ c c' a, SameEntries c c' → SameEntries (f c a) (f' c' a)) (l : List ι) :
    ∀ c c', SameEntries c c' → SameEntries (l.foldl f c) (l.foldl f' c') := by
  induction l with
  | nil => exact fun _ _ h => h
  | cons a l ih => exact fun c c' h => ih _ _ (hf c c' a h)

theorem same_doubles {D D' : NodeData n d} (h1 : D'.dirichlet = D.dirichlet) (h2 : D'.normal = D.normal)
    (h3 : D'.continuosGradient = D.continuosGradient) (G : Fin n → Finset (Fin n)) :
    SameEntries (doubleNodeConstraints D G) (doubleNodeConstraints D' G) := by
  unfold doubleNodeConstraints
  refine same_foldl _ _ (fun c c' i h => ?_) _ _ _ fun _ => rfl
  have hB : ∀ c c' j, SameEntries c c' → SameEntries (dirichletDouble D i c j) (dirichletDouble D' i c' j) := by
    intro c c' j h
    unfold dirichletDouble flatEdge
    rw [h1, h2, h3]
    split_ifs
    · exact same_addEntry (same_addLine h _) _ _ _
    · exact same_setInhom (same_addLine (same_setInhom (same_addLine (same_addLine h _) _) _ _ _) _) _ _ _
    · exact h
    · exact same_setInhom (same_addLine h _) _ _ _
  have hA : ∀ c c' (j : Fin n), SameEntries c c' → SameEntries (addEntry (addLine c j) j i 1) (addEntry (addLine c' j) j i 1) :=
    fun c c' j h => same_addEntry (same_addLine h _) _ _ _
  unfold constraintStep leader
  rw [h1]
  split_ifs
  all_goals
    first
    | exact h
    | exact same_foldl _ _ hA _ _ _ h
    | exact same_foldl _ _ hB _ _ _ h
    | exact same_foldl _ _ hA _ _ _ (same_foldl _ _ hB _ _ _ h)

/-- Two results, both missing or both there with the same entries. -/
def SameResult : Option (Lines n) → Option (Lines n) → Prop
  | none, none => True
  | some c, some c' => SameEntries c c'
  | _, _ => False

theorem same_merge {c c' : Lines n} (h : SameEntries c c') (H : Hanging n) : SameResult (mergeLines c H) (mergeLines c' H) := by
  unfold mergeLines
  have hs : ∀ i, (c' i).isSome = (c i).isSome := by
    intro i
    rcases same_cases h i with ⟨h1, h2⟩ | ⟨es, g, g', h1, h2⟩ <;> simp [h1, h2]
  simp only [hs]
  split_ifs
  · trivial
  · intro i
    rcases same_cases h i with ⟨h1, h2⟩ | ⟨es, g, g', h1, h2⟩ <;> simp [h1, h2]

theorem same_expand {c c' : Lines n} (h : SameEntries c c') (i : Fin n) (fuel : ℕ) : ∀ (done todo : List (Fin n × ℝ)) (g g' : Option ℝ),
    (expandLine c i fuel done todo g).map Prod.fst = (expandLine c' i fuel done todo g').map Prod.fst := by
  induction fuel with
  | zero => intro _ _ _ _; rfl
  | succ fuel ih =>
    intro done todo g g'
    cases todo with
    | nil => rfl
    | cons e todo =>
      unfold expandLine
      rcases same_cases h e.1 with ⟨h1, h2⟩ | ⟨es, v, v', h1, h2⟩
      · simp only [h1, h2]; exact ih _ _ _ _
      · simp only [h1, h2]
        split_ifs
        · rfl
        · cases es with
          | nil => exact ih _ _ _ _
          | cons f fs => exact ih _ _ _ _

theorem same_close (fuel : ℕ) (order : List (Fin n)) : ∀ {c c' : Lines n}, SameEntries c c' → SameResult (closeLines fuel order c) (closeLines fuel order c') := by
  induction order with
  | nil => exact fun h => h
  | cons a l ih =>
    intro c c' h
    unfold closeLines at ih ⊢
    rw [List.foldlM_cons, List.foldlM_cons]
    rcases same_cases h a with ⟨h1, h2⟩ | ⟨es, g, g', h1, h2⟩
    · simp only [h1, h2, Option.bind_eq_bind, Option.bind_some]; exact ih h
    · simp only [h1, h2]
      have he := same_expand h a fuel [] es g g'
      cases e1 : expandLine c a fuel [] es g with
      | none =>
        rw [e1] at he
        cases e2 : expandLine c' a fuel [] es g' with
        | none => trivial
        | some y => rw [e2] at he; simp at he
      | some x =>
        rw [e1] at he
        cases e2 : expandLine c' a fuel [] es g' with
        | none => rw [e2] at he; simp at he
        | some y =>
          rw [e2] at he
          simp only [Option.map_some, Option.some.injEq] at he
          simp only [Option.map_some, Option.bind_eq_bind, Option.bind_some]
          refine ih ?_
          obtain ⟨x1, x2⟩ := x
          obtain ⟨y1, y2⟩ := y
          cases he
          exact same_update h _ _ _ _

theorem same_constraints {C C' : Setup n d} (h : OnlyData C C') :
    SameResult (computeConstraints C.nodes C.doubles C.hanging C.fuel C.order) (computeConstraints C'.nodes C'.doubles C'.hanging C'.fuel C'.order) := by
  rw [h.doubles, h.hanging, h.fuel, h.order]
  unfold computeConstraints
  have hm := same_merge (same_doubles h.dirichlet h.normal h.gradient C.doubles) C.hanging
  cases e1 : mergeLines (doubleNodeConstraints C.nodes C.doubles) C.hanging with
  | none =>
    rw [e1] at hm
    cases e2 : mergeLines (doubleNodeConstraints C'.nodes C.doubles) C.hanging with
    | none => trivial
    | some y => rw [e2] at hm; exact hm.elim
  | some x =>
    rw [e1] at hm
    cases e2 : mergeLines (doubleNodeConstraints C'.nodes C.doubles) C.hanging with
    | none => rw [e2] at hm; exact hm.elim
    | some y =>
      rw [e2] at hm
      exact same_close _ _ hm

/-! ## Zero data give zero inhomogeneities -/

/-- No inhomogeneity. -/
def NoInhom (c : Lines n) : Prop := ∀ i es g, c i = some (es, g) → g.getD 0 = 0

theorem noInhom_update {c : Lines n} (h : NoInhom c) (i : Fin n) (es : List (Fin n × ℝ)) (g : Option ℝ) (hg : g.getD 0 = 0) :
    NoInhom (Function.update c i (some (es, g))) := by
  intro k es' g' hk
  by_cases hki : k = i
  · subst hki; simp at hk; rw [← hk.2]; exact hg
  · rw [Function.update_of_ne hki] at hk; exact h k es' g' hk

theorem noInhom_addLine {c : Lines n} (h : NoInhom c) (i : Fin n) : NoInhom (addLine c i) := by
  unfold addLine
  split
  · exact h
  · exact noInhom_update h _ _ _ rfl

theorem noInhom_addEntry {c : Lines n} (h : NoInhom c) (i j : Fin n) (v : ℝ) : NoInhom (addEntry c i j v) := by
  unfold addEntry
  split
  · rename_i es g he
    split_ifs
    · exact h
    · exact noInhom_update h _ _ _ (h _ _ _ he)
  · exact h

theorem noInhom_setInhom {c : Lines n} (h : NoInhom c) (i : Fin n) (v : Option ℝ) (hv : v.getD 0 = 0) : NoInhom (setInhom c i v) := by
  unfold setInhom
  split
  · exact noInhom_update h _ _ _ hv
  · exact h

theorem noInhom_foldl {ι : Type} (f : Lines n → ι → Lines n) (hf : ∀ c a, NoInhom c → NoInhom (f c a)) (l : List ι) :
    ∀ c, NoInhom c → NoInhom (l.foldl f c) := by
  induction l with
  | nil => exact fun _ h => h
  | cons a l ih => exact fun c h => ih _ (hf c a h)

theorem noInhom_doubles {D : NodeData n d} (h1 : D.tmpRhs = 0) (h2 : D.surfGrad = fun _ _ => 0) (G : Fin n → Finset (Fin n)) :
    NoInhom (doubleNodeConstraints D G) := by
  have hz : ∀ v : Fin d → ℝ, dot (fun _ => 0) v = 0 := by intro v; simp [dot]
  have g1 : ∀ i j, (thisNormalGradient D i j).getD 0 = 0 := by
    intro i j
    unfold thisNormalGradient
    rw [h2]
    simp only [hz]
    cases fdiv 1 (1 - dot (D.normal i) (D.normal j) ^ 2) <;> simp
  have g2 : ∀ i j, (otherNormalGradient D i j).getD 0 = 0 := by
    intro i j
    unfold otherNormalGradient
    rw [h2]
    simp only [hz]
    cases fdiv 1 (1 - dot (D.normal i) (D.normal j) ^ 2) <;> simp
  unfold doubleNodeConstraints
  refine noInhom_foldl _ (fun c i h => ?_) _ _ fun i es g hi => by simp at hi
  have hB : ∀ c j, NoInhom c → NoInhom (dirichletDouble D i c j) := by
    intro c j h
    unfold dirichletDouble
    split_ifs
    · exact noInhom_addEntry (noInhom_addLine h _) _ _ _
    · exact noInhom_setInhom (noInhom_addLine (noInhom_setInhom (noInhom_addLine (noInhom_addLine h _) _) _ _ (g1 _ _)) _) _ _ (g2 _ _)
    · exact h
    · exact noInhom_setInhom (noInhom_addLine h _) _ _ (by simp [h1])
  have hA : ∀ c (j : Fin n), NoInhom c → NoInhom (addEntry (addLine c j) j i 1) := fun c j h => noInhom_addEntry (noInhom_addLine h _) _ _ _
  unfold constraintStep
  split_ifs
  all_goals
    first
    | exact h
    | exact noInhom_foldl _ hA _ _ h
    | exact noInhom_foldl _ hB _ _ h
    | exact noInhom_foldl _ hA _ _ (noInhom_foldl _ hB _ _ h)

theorem noInhom_expand {c : Lines n} (h : NoInhom c) (i : Fin n) (fuel : ℕ) : ∀ (done todo : List (Fin n × ℝ)) (g : Option ℝ),
    g.getD 0 = 0 → ∀ es g', expandLine c i fuel done todo g = some (es, g') → g'.getD 0 = 0 := by
  have hadd : ∀ (g g' : Option ℝ) (w : ℝ), g.getD 0 = 0 → g'.getD 0 = 0 → (addInhom g g' w).getD 0 = 0 := by
    intro g g' w h1 h2
    unfold addInhom
    cases g with
    | none => rfl
    | some x =>
      cases g' with
      | none => rfl
      | some y => simp at h1 h2; simp [h1, h2]
  induction fuel with
  | zero => intro done todo g hg es g' he; simp [expandLine] at he
  | succ fuel ih =>
    intro done todo g hg es g' he
    cases todo with
    | nil => simp [expandLine] at he; rw [← he.2]; exact hg
    | cons e todo =>
      unfold expandLine at he
      cases hc : c e.1 with
      | none => rw [hc] at he; exact ih _ _ _ hg _ _ he
      | some x =>
        obtain ⟨l, v⟩ := x
        rw [hc] at he
        simp only at he
        split_ifs at he
        cases l with
        | nil => exact ih _ _ _ (hadd _ _ _ hg (h _ _ _ hc)) _ _ he
        | cons f fs => exact ih _ _ _ (hadd _ _ _ hg (h _ _ _ hc)) _ _ he

theorem noInhom_close (fuel : ℕ) (order : List (Fin n)) : ∀ {c c' : Lines n}, NoInhom c → closeLines fuel order c = some c' → NoInhom c' := by
  induction order with
  | nil => intro c c' h he; cases he; exact h
  | cons a l ih =>
    intro c c' h he
    unfold closeLines at ih he
    rw [List.foldlM_cons] at he
    cases hc : c a with
    | none => simp only [hc, Option.bind_eq_bind, Option.bind_some] at he; exact ih h he
    | some x =>
      obtain ⟨es, g⟩ := x
      simp only [hc] at he
      cases e1 : expandLine c a fuel [] es g with
      | none => rw [e1] at he; simp at he
      | some y =>
        rw [e1] at he
        simp only [Option.map_some, Option.bind_eq_bind, Option.bind_some] at he
        exact ih (noInhom_update h a y.1 y.2 (noInhom_expand h a fuel [] es g (h _ _ _ hc) _ _ e1)) he

theorem noInhom_constraints {D : NodeData n d} (h1 : D.tmpRhs = 0) (h2 : D.surfGrad = fun _ _ => 0) (G : Fin n → Finset (Fin n)) (H : Hanging n)
    (fuel : ℕ) (order : List (Fin n)) {c : Lines n} (hc : computeConstraints D G H fuel order = some c) : NoInhom c := by
  unfold computeConstraints at hc
  obtain ⟨c1, hm, hcl⟩ := Option.bind_eq_some_iff.1 hc
  refine noInhom_close fuel order ?_ hcl
  have h0 := noInhom_doubles h1 h2 G
  unfold mergeLines at hm
  split_ifs at hm
  cases hm
  intro i es g hi
  cases hd : doubleNodeConstraints D G i with
  | some x =>
    obtain ⟨es', g'⟩ := x
    simp only [hd, Option.some.injEq, Prod.mk.injEq] at hi
    rw [← hi.2]
    exact h0 _ _ _ hd
  | none =>
    simp only [hd, Option.map_eq_some_iff] at hi
    obtain ⟨hs, -, he⟩ := hi
    cases he
    rfl

/-! ## The linear system -/

/-- Homogeneous part of the linear system. -/
noncomputable def homPart (N M : Mat n) (B : Finset (Fin n)) (c : Lines n) (x : Vec n) (i : Fin n) : ℝ :=
  match c i with
  | some (es, _) => x i - (es.map fun e => e.2 * x e.1).sum
  | none => (∑ k, N i k * (merge B 0 x k - merge B 0 x i)) - ∑ k, M i k * merge B x 0 k

/-- Right hand side. -/
noncomputable def dataPart (N M : Mat n) (B : Finset (Fin n)) (c : Lines n) (data : Vec n) (i : Fin n) : ℝ :=
  match c i with
  | some (_, g) => g.getD 0
  | none => -((∑ k, N i k * (merge B data 0 k - merge B data 0 i)) - ∑ k, M i k * merge B 0 data k)

theorem homPart_same (N M : Mat n) (B : Finset (Fin n)) {c c' : Lines n} (h : SameEntries c c') : homPart N M B c' = homPart N M B c := by
  funext x i
  unfold homPart
  rcases same_cases h i with ⟨h1, h2⟩ | ⟨es, g, g', h1, h2⟩ <;> simp only [h1, h2]

theorem homPart_linear (N M : Mat n) (B : Finset (Fin n)) (c : Lines n) : ∃ L : Vec n →ₗ[ℝ] Vec n, ∀ x, L x = homPart N M B c x := by
  have m1 : ∀ (x y : Vec n), merge B 0 (x + y) = merge B 0 x + merge B 0 y := by
    intro x y; funext k; simp only [merge, Pi.add_apply]; split_ifs <;> simp
  have m2 : ∀ (x y : Vec n), merge B (x + y) 0 = merge B x 0 + merge B y 0 := by
    intro x y; funext k; simp only [merge, Pi.add_apply]; split_ifs <;> simp
  have s1 : ∀ (t : ℝ) (x : Vec n), merge B 0 (t • x) = t • merge B 0 x := by
    intro t x; funext k; simp only [merge, Pi.smul_apply]; split_ifs <;> simp
  have s2 : ∀ (t : ℝ) (x : Vec n), merge B (t • x) 0 = t • merge B x 0 := by
    intro t x; funext k; simp only [merge, Pi.smul_apply]; split_ifs <;> simp
  refine ⟨⟨⟨homPart N M B c, fun x y => ?_⟩, fun t x => ?_⟩, fun x => rfl⟩
  · funext i
    simp only [homPart, Pi.add_apply]
    split
    · rename_i es g _
      have : (es.map fun e => e.2 * (x e.1 + y e.1)).sum = (es.map fun e => e.2 * x e.1).sum + (es.map fun e => e.2 * y e.1).sum := by
        rw [← List.sum_map_add]; congr 1; exact List.map_congr_left fun e _ => by ring
      rw [this]; ring
    · rw [m1, m2]
      simp only [Pi.add_apply]
      have e1 : ∑ k, N i k * (merge B 0 x k + merge B 0 y k - (merge B 0 x i + merge B 0 y i)) =
          (∑ k, N i k * (merge B 0 x k - merge B 0 x i)) + ∑ k, N i k * (merge B 0 y k - merge B 0 y i) := by
        rw [← Finset.sum_add_distrib]; exact Finset.sum_congr rfl fun k _ => by ring
      have e2 : ∑ k, M i k * (merge B x 0 k + merge B y 0 k) = (∑ k, M i k * merge B x 0 k) + ∑ k, M i k * merge B y 0 k := by
        rw [← Finset.sum_add_distrib]; exact Finset.sum_congr rfl fun k _ => by ring
      rw [e1, e2]; ring
  · funext i
    simp only [homPart, RingHom.id_apply, Pi.smul_apply, smul_eq_mul]
    split
    · rename_i es g _
      have : (es.map fun e => e.2 * (t * x e.1)).sum = t * (es.map fun e => e.2 * x e.1).sum := by
        rw [← List.sum_map_mul_left]; congr 1; exact List.map_congr_left fun e _ => by ring
      rw [this]; ring
    · rw [s1, s2]
      simp only [Pi.smul_apply, smul_eq_mul]
      have e1 : ∑ k, N i k * (t * merge B 0 x k - t * merge B 0 x i) = t * ∑ k, N i k * (merge B 0 x k - merge B 0 x i) := by
        rw [Finset.mul_sum]; exact Finset.sum_congr rfl fun k _ => by ring
      have e2 : ∑ k, M i k * (t * merge B x 0 k) = t * ∑ k, M i k * merge B x 0 k := by
        rw [Finset.mul_sum]; exact Finset.sum_congr rfl fun k _ => by ring
      rw [e1, e2]; ring

theorem run_system {N M : Mat n} {C : Setup n d} {gmres : (Vec n → Vec n) → Vec n → Vec n} {l : List (ℕ × ℕ)} {st : AlphaStatics} {phi0 dphi0 : Vec n}
    {X : Solution n} {B : Finset (Fin n)} (hD : DataOf C B phi0 dphi0) (h : solveWith N M C gmres (alphaHistory l) phi0 dphi0 = (st, some X)) :
    ∃ c, computeConstraints C.nodes C.doubles C.hanging C.fuel C.order = some c ∧ X.phi = merge B C.nodes.tmpRhs X.sol ∧ X.dphi = merge B X.sol C.nodes.tmpRhs ∧
      ∀ i, X.residual i = dataPart N M B c C.nodes.tmpRhs i - homPart N M B c X.sol i := by
  obtain ⟨c, hc, h1, h2, h3, h4⟩ := solveWith_rows h B hD.dirichlet hD.neumann hD.bc hD.phi hD.dphi
  refine ⟨c, hc, h1, h2, fun i => ?_⟩
  unfold dataPart homPart
  cases hi : c i with
  | some x =>
    obtain ⟨es, g⟩ := x
    have := h4 i es g hi
    simp only
    linarith
  | none =>
    have := h3 i hi
    simp only
    have e1 : ∑ k, N i k * (X.phi k - X.phi i) = (∑ k, N i k * (merge B C.nodes.tmpRhs 0 k - merge B C.nodes.tmpRhs 0 i)) +
        ∑ k, N i k * (merge B 0 X.sol k - merge B 0 X.sol i) := by
      rw [← Finset.sum_add_distrib, h1]
      refine Finset.sum_congr rfl fun k _ => ?_
      have : ∀ k, merge B C.nodes.tmpRhs X.sol k = merge B C.nodes.tmpRhs 0 k + merge B 0 X.sol k := by
        intro k; simp only [merge]; split_ifs <;> simp
      rw [this k, this i]; ring
    have e2 : ∑ k, M i k * X.dphi k = (∑ k, M i k * merge B 0 C.nodes.tmpRhs k) + ∑ k, M i k * merge B X.sol 0 k := by
      rw [← Finset.sum_add_distrib, h2]
      refine Finset.sum_congr rfl fun k _ => ?_
      have : merge B X.sol C.nodes.tmpRhs k = merge B 0 C.nodes.tmpRhs k + merge B X.sol 0 k := by
        simp only [merge]; split_ifs <;> simp
      rw [this]; ring
    linarith

theorem zero_only (C : Setup n d) : OnlyData C (zeroData C) := ⟨rfl, rfl, rfl, rfl, rfl, rfl, rfl, rfl, rfl⟩

theorem zero_data {C : Setup n d} {B : Finset (Fin n)} {phi0 dphi0 : Vec n} (h : DataOf C B phi0 dphi0) : DataOf (zeroData C) B 0 0 :=
  ⟨h.dirichlet, h.neumann, h.bc, fun _ _ => rfl, fun _ _ => rfl, h.sharp⟩

theorem run_alpha {N M : Mat n} {C : Setup n d} {gmres : (Vec n → Vec n) → Vec n → Vec n} {st st' : AlphaStatics} {phi0 dphi0 : Vec n}
    {X : Solution n} (h : solveWith N M C gmres st phi0 dphi0 = (st', some X)) : (alphaStaticsStep n C.part st).part = C.part := by
  unfold solveWith computeAlpha at h
  by_contra hne
  simp [hne] at h

/-- The run with zero data ends if the run with other data does. -/
theorem zero_runs {N M : Mat n} {C : Setup n d} {st : AlphaStatics} {phi0 dphi0 : Vec n} (h : Runs N M C st phi0 dphi0) (x : Vec n) :
    ∃ st' Y, solveWith N M (zeroData C) (fun _ _ => x) st 0 0 = (st', some Y) ∧ Y.sol = x := by
  obtain ⟨g, st', X, h⟩ := h
  have ha := run_alpha h
  have hs := same_constraints (zero_only C)
  unfold solveWith at h
  simp only [Prod.mk.injEq] at h
  obtain ⟨-, h⟩ := h
  obtain ⟨alpha, -, h⟩ := Option.bind_eq_some_iff.1 h
  obtain ⟨c, hc, -⟩ := Option.map_eq_some_iff.1 h
  rw [hc] at hs
  cases hz : computeConstraints (zeroData C).nodes (zeroData C).doubles (zeroData C).hanging (zeroData C).fuel (zeroData C).order with
  | none => rw [hz] at hs; exact hs.elim
  | some c' =>
    obtain ⟨st1, Y, hY⟩ := Plane.solveWith_some N M (C := zeroData C) (fun _ _ => x) (st := st) 0 0 ha hz
    obtain ⟨Z, hZ, e⟩ := solveWith_any hY x
    exact ⟨st1, Z, hZ, e⟩

/-- Exactness of the runs of one configuration, whatever the data, depends on one linear operator. -/
theorem common_operator {N M : Mat n} {C : Setup n d} (B : Finset (Fin n)) {phi0 dphi0 : Vec n}
    {st : AlphaStatics} (hr : Runs N M C st phi0 dphi0) :
    ∃ L : Vec n →ₗ[ℝ] Vec n, ∀ (C' : Setup n d) (phi0' dphi0' : Vec n), OnlyData C C' → DataOf C' B phi0' dphi0' →
      ∃ b : Vec n, (C'.nodes.tmpRhs = 0 → C'.nodes.surfGrad = (fun _ _ => 0) → b = 0) ∧ ∀ gmres l st' X, solveWith N M C' gmres (alphaHistory l) phi0' dphi0' = (st', some X) →
        X.phi = merge B C'.nodes.tmpRhs X.sol ∧ X.dphi = merge B X.sol C'.nodes.tmpRhs ∧ ∀ i, X.residual i = b i - L X.sol i := by
  obtain ⟨g, st', X, h⟩ := hr
  unfold solveWith at h
  simp only [Prod.mk.injEq] at h
  obtain ⟨-, h⟩ := h
  obtain ⟨alpha, -, h⟩ := Option.bind_eq_some_iff.1 h
  obtain ⟨c, hc, -⟩ := Option.map_eq_some_iff.1 h
  obtain ⟨L, hL⟩ := homPart_linear N M B c
  refine ⟨L, fun C' phi0' dphi0' hO hD' => ?_⟩
  have hs := same_constraints hO
  rw [hc] at hs
  cases hz : computeConstraints C'.nodes C'.doubles C'.hanging C'.fuel C'.order with
  | none => rw [hz] at hs; exact hs.elim
  | some c' =>
    rw [hz] at hs
    refine ⟨dataPart N M B c' C'.nodes.tmpRhs, fun h0 h1 => ?_, fun gmres l st' X h => ?_⟩
    · have hn := noInhom_constraints h0 h1 _ _ _ _ hz
      funext i
      unfold dataPart
      cases hi : c' i with
      | some x => obtain ⟨es, g⟩ := x; exact hn i es g hi
      | none => rw [h0]; simp [merge]
    · obtain ⟨c'', hc'', h1, h2, h3⟩ := run_system hD' h
      rw [hz] at hc''
      cases hc''
      refine ⟨h1, h2, fun i => ?_⟩
      rw [h3, homPart_same N M B hs, hL]

/-! ## Solvability -/

/-- **C114** (all data). Hanging nodes, double nodes, both methods, dimensions 2 and 3. If with zero data only the zero potential and normal derivative solve the linear system exactly,
then with any other data, on any partition and after any history of solves, the system has a solution and the potential and normal derivative are determined. -/
theorem C114_every_data {N M : Mat n} {C C' : Setup n d} {B : Finset (Fin n)} {phi0 dphi0 phi0' dphi0' : Vec n} (hD : DataOf C B phi0 dphi0)
    (hD' : DataOf C' B phi0' dphi0') (hO : OnlyData C C') (l l' : List (ℕ × ℕ)) (hr : Runs N M C (alphaHistory l) phi0 dphi0)
    (hr' : Runs N M C' (alphaHistory l') phi0' dphi0') (hz : OnlyZero N M C (alphaHistory l)) :
    Solvable N M C' (alphaHistory l') phi0' dphi0' ∧ DeterminedH N M C' (alphaHistory l') phi0' dphi0' := by
  obtain ⟨L, hL⟩ := common_operator B hr
  obtain ⟨b0, hb0, h0⟩ := hL _ 0 0 (zero_only C) (zero_data hD)
  obtain ⟨b, -, h1⟩ := hL _ _ _ hO hD'
  have e0 := hb0 rfl rfl
  have hinj : Function.Injective L := by
    rw [injective_iff_map_eq_zero]
    intro x hx
    obtain ⟨st, Y, hY, hs⟩ := zero_runs hr x
    obtain ⟨p1, p2, p3⟩ := h0 _ _ _ _ hY
    obtain ⟨q1, q2⟩ := hz _ _ _ hY fun i => by rw [p3, hs, hx, e0]; simp
    rw [p1] at q1
    rw [p2] at q2
    rw [← hs]
    funext i
    have a1 := congrFun q1 i
    have a2 := congrFun q2 i
    simp only [merge] at a1 a2
    by_cases hi : i ∈ B
    · simpa [hi] using a2
    · simpa [hi] using a1
  refine ⟨?_, fun g1 g2 s1 s2 X1 X2 x1 x2 r1 r2 => ?_⟩
  · obtain ⟨g, st, X, h⟩ := hr'
    obtain ⟨x, hx⟩ := LinearMap.injective_iff_surjective.1 hinj b
    obtain ⟨Y, hY, hs⟩ := solveWith_any h x
    exact ⟨_, _, Y, hY, fun i => by rw [(h1 _ _ _ _ hY).2.2, hs, hx, sub_self]⟩
  · obtain ⟨a1, a2, a3⟩ := h1 _ _ _ _ x1
    obtain ⟨c1, c2, c3⟩ := h1 _ _ _ _ x2
    have : X1.sol = X2.sol := hinj (by
      funext i
      have u := a3 i
      have v := c3 i
      rw [r1] at u
      rw [r2] at v
      linarith)
    rw [a1, a2, c1, c2, this]
    exact ⟨rfl, rfl⟩

/-- **C114** (one datum decides). The system has a solution, with determined potential and normal derivative, for one datum, exactly if zero data have the zero solution only. Zero data
always have that one. -/
theorem C114_one_datum {N M : Mat n} {C : Setup n d} {B : Finset (Fin n)} {phi0 dphi0 : Vec n} (hD : DataOf C B phi0 dphi0) (l : List (ℕ × ℕ))
    (hr : Runs N M C (alphaHistory l) phi0 dphi0) :
    (OnlyZero N M C (alphaHistory l) ↔ Solvable N M C (alphaHistory l) phi0 dphi0 ∧ DeterminedH N M C (alphaHistory l) phi0 dphi0) ∧
    ∃ gmres st X, solveWith N M (zeroData C) gmres (alphaHistory l) 0 0 = (st, some X) ∧ (∀ i, X.residual i = 0) ∧ X.phi = 0 ∧ X.dphi = 0 := by
  obtain ⟨L, hL⟩ := common_operator B hr
  obtain ⟨b0, hb0, h0⟩ := hL _ 0 0 (zero_only C) (zero_data hD)
  have e0 := hb0 rfl rfl
  refine ⟨⟨fun hz => C114_every_data hD hD (OnlyData.rfl C) l l hr hr hz, ?_⟩, ?_⟩
  · rintro ⟨⟨g, st, X, hX, rX⟩, hdet⟩ g' st' Z hZ rZ
    obtain ⟨b, -, h1⟩ := hL _ _ _ (OnlyData.rfl C) hD
    obtain ⟨Y, hY, hs⟩ := solveWith_any hX (X.sol + Z.sol)
    obtain ⟨x1, x2, x3⟩ := h1 _ _ _ _ hX
    obtain ⟨y1, y2, y3⟩ := h1 _ _ _ _ hY
    obtain ⟨z1, z2, z3⟩ := h0 _ _ _ _ hZ
    obtain ⟨d1, d2⟩ := hdet _ _ _ _ _ _ hX hY rX fun i => by
      have u := x3 i
      have v := z3 i
      rw [rX] at u
      rw [rZ, e0] at v
      rw [y3, hs, map_add]
      simp only [Pi.add_apply, Pi.zero_apply] at v ⊢
      linarith
    rw [x1, y1, hs] at d1
    rw [x2, y2, hs] at d2
    rw [z1, z2]
    constructor
    · funext i
      have := congrFun d1 i
      simp only [merge, zeroData, Pi.zero_apply, Pi.add_apply] at this ⊢
      split_ifs at this ⊢ <;> linarith
    · funext i
      have := congrFun d2 i
      simp only [merge, zeroData, Pi.zero_apply, Pi.add_apply] at this ⊢
      split_ifs at this ⊢ <;> linarith
  · obtain ⟨st, Y, hY, hs⟩ := zero_runs hr 0
    obtain ⟨p1, p2, p3⟩ := h0 _ _ _ _ hY
    refine ⟨_, _, Y, hY, fun i => by rw [p3, hs, e0, map_zero, sub_self], ?_, ?_⟩
    · rw [p1, hs]; funext i; simp [merge, zeroData]
    · rw [p2, hs]; funext i; simp [merge, zeroData]

/-- **C114** (otherwise). If zero data have another solution, then for every data the system has no solution or one for every number `t`, differing by `t` times that solution. -/
theorem C114_otherwise {N M : Mat n} {C : Setup n d} {B : Finset (Fin n)} {phi0 dphi0 : Vec n} (hD : DataOf C B phi0 dphi0) (l : List (ℕ × ℕ))
    {gmres gz : (Vec n → Vec n) → Vec n → Vec n} {st sz : AlphaStatics} {X Z : Solution n}
    (hX : solveWith N M C gmres (alphaHistory l) phi0 dphi0 = (st, some X)) (rX : ∀ i, X.residual i = 0)
    (hZ : solveWith N M (zeroData C) gz (alphaHistory l) 0 0 = (sz, some Z)) (rZ : ∀ i, Z.residual i = 0) (t : ℝ) :
    ∃ g st' Y, solveWith N M C g (alphaHistory l) phi0 dphi0 = (st', some Y) ∧ (∀ i, Y.residual i = 0) ∧
      (∀ i, Y.phi i = X.phi i + t * Z.phi i) ∧ ∀ i, Y.dphi i = X.dphi i + t * Z.dphi i := by
  obtain ⟨L, hL⟩ := common_operator B ⟨_, _, _, hX⟩
  obtain ⟨b0, hb0, h0⟩ := hL _ 0 0 (zero_only C) (zero_data hD)
  have e0 := hb0 rfl rfl
  obtain ⟨b, -, h1⟩ := hL _ _ _ (OnlyData.rfl C) hD
  obtain ⟨Y, hY, hs⟩ := solveWith_any hX (X.sol + t • Z.sol)
  obtain ⟨x1, x2, x3⟩ := h1 _ _ _ _ hX
  obtain ⟨y1, y2, y3⟩ := h1 _ _ _ _ hY
  obtain ⟨z1, z2, z3⟩ := h0 _ _ _ _ hZ
  refine ⟨_, _, Y, hY, fun i => ?_, fun i => ?_, fun i => ?_⟩
  · have u := x3 i
    have v := z3 i
    rw [rX] at u
    rw [rZ, e0] at v
    rw [y3, hs, map_add, map_smul]
    simp only [Pi.add_apply, Pi.smul_apply, Pi.zero_apply, smul_eq_mul] at v ⊢
    have : L Z.sol i = 0 := by linarith
    rw [this]; linarith
  · rw [y1, x1, z1, hs]
    simp only [merge, zeroData, Pi.zero_apply, Pi.add_apply, Pi.smul_apply, smul_eq_mul]
    split_ifs <;> ring
  · rw [y2, x2, z2, hs]
    simp only [merge, zeroData, Pi.zero_apply, Pi.add_apply, Pi.smul_apply, smul_eq_mul]
    split_ifs <;> ring

/-- **C114** (convex surfaces). Dense method, dimension 3, conforming mesh of a connected convex surface, quadrature points not at the nodes: a problem with exactly one Dirichlet node has, for every
datum, an exact solution, and its potential and normal derivative are determined. -/
theorem C114_convex {inp : Input 3} {D : Data} {S S' : SingRule} (hK : ConvexSurface inp D S') (hcon : Connected inp D S')
    (hap : ∀ i k : Fin inp.nDofs, Separate inp D S' i k) (C : Setup inp.nDofs d) (hm : C.method = .direct) (l : List (ℕ × ℕ)) (phi0 dphi0 : Vec inp.nDofs)
    (b : Fin inp.nDofs) (hP : Posed inp C {b} phi0 dphi0)
    (hr : ∃ gmres st X, solve inp D S S' C gmres (alphaHistory l) phi0 dphi0 = (st, some X)) :
    (∃ gmres st X, solve inp D S S' C gmres (alphaHistory l) phi0 dphi0 = (st, some X) ∧ ∀ i, X.residual i = 0) ∧
    Determined inp D S S' C (alphaHistory l) phi0 dphi0 := by
  have hD : DataOf C {b} phi0 dphi0 := ⟨hP.dirichlet, hP.neumann, hP.bc, hP.phi, hP.dphi, fun _ i hi j _ hj hne =>
    absurd ((Finset.mem_singleton.1 hj).trans (Finset.mem_singleton.1 hi).symm) hne⟩
  have hz : Posed inp (zeroData C) {b} 0 0 :=
    { dirichlet := hP.dirichlet, neumann := hP.neumann, bc := hP.bc, phi := fun _ _ => rfl, dphi := fun _ _ => rfl
      refl := hP.refl, eq := hP.eq, coincide := hP.coincide, hanging := hP.hanging, order := hP.order }
  have hdet : Determined inp D S S' (zeroData C) (alphaHistory l) 0 0 := C112_one_dirichlet hK hcon hap (zeroData C) hm l 0 0 b hz
  obtain ⟨g0, s0, X0, h0, r0, p0, q0⟩ := (C114_one_datum hD l hr).2
  have honly : OnlyZero (solveMatrix inp D S S' C.method C.owner .double) (solveMatrix inp D S S' C.method C.owner .single) C (alphaHistory l) := by
    intro g st X h r
    obtain ⟨e1, e2⟩ := hdet g g0 st s0 X X0 h h0 r r0
    exact ⟨e1.trans p0, e2.trans q0⟩
  exact C114_every_data hD hD (OnlyData.rfl C) l l hr hr honly

/-! ## The hypotheses are met -/

theorem hangOdd_solved : Solvable (ones 3) (eye 3) hangOdd (alphaHistory []) hangOdd.nodes.tmpRhs 0 := by
  obtain ⟨c, hc⟩ : ∃ c, computeConstraints hangOdd.nodes hangOdd.doubles hangOdd.hanging hangOdd.fuel hangOdd.order = some c :=
    ⟨_, constraints_no_doubles hangOdd.nodes (fun i => Or.inr rfl) hangOdd.hanging hang_closed 4 hang_length _⟩
  obtain ⟨st, X0, h0⟩ := Plane.solveWith_some (ones 3) (eye 3) (C := hangOdd) (fun _ _ => 0) (st := alphaHistory []) (phi0 := hangOdd.nodes.tmpRhs) (dphi0 := 0)
    (by simp [alphaHistory, alphaStaticsStep, AlphaStatics.init, hangOdd, hangSetup]) hc
  obtain ⟨X, h, hsol⟩ := solveWith_any h0 ![-3, 3, 0]
  obtain ⟨-, e2, hx⟩ := hangOdd_exact _ _ _ h
  exact ⟨_, st, X, h, hx.2 (e2.trans hsol)⟩

theorem hangOdd_data : DataOf hangOdd Finset.univ hangOdd.nodes.tmpRhs 0 :=
  ⟨hangOdd_posed.dirichlet, hangOdd_posed.neumann, hangOdd_posed.bc, hangOdd_posed.phi, hangOdd_posed.dphi, fun h => by simp [hangOdd] at h⟩

/-- `C114_one_datum` with a hanging node: two opposite potentials are solved in exactly one way, so zero data are; hence, by `C114_every_data`, all other data, on any number of processes. -/
example (v : Vec 3) (procs : ℕ) : ∃ C : Setup 3 3, C.nodes.tmpRhs = v ∧ C.procs = procs ∧ C.hanging = hangOdd.hanging ∧
    Solvable (ones 3) (eye 3) C (alphaHistory []) v 0 ∧ DeterminedH (ones 3) (eye 3) C (alphaHistory []) v 0 := by
  obtain ⟨g, st, X, hX, rX⟩ := hangOdd_solved
  have hz := (C114_one_datum hangOdd_data [] ⟨g, st, X, hX⟩).1.2 ⟨hangOdd_solved, hangOdd_determined⟩
  let C : Setup 3 3 := { hangOdd with procs := procs, nodes := ⟨fun _ => 1, v, fun _ => 0, fun _ => 0, false⟩ }
  have hO : OnlyData hangOdd C := ⟨rfl, rfl, rfl, rfl, rfl, rfl, rfl, rfl, rfl⟩
  have hc := constraints_no_doubles C.nodes (fun i => Or.inr rfl) C.hanging hang_closed 4 hang_length C.order
  obtain ⟨st', X', h'⟩ := Plane.solveWith_some (ones 3) (eye 3) (C := C) (fun _ _ => 0) (st := alphaHistory []) (phi0 := v) (dphi0 := 0)
    (by simp [alphaHistory, alphaStaticsStep, AlphaStatics.init, C, hangOdd, hangSetup]) hc
  exact ⟨C, rfl, rfl, rfl, C114_every_data hangOdd_data (C' := C) (phi0' := v) (dphi0' := 0)
    ⟨by simp [C], by simp [C, hangOdd, hangSetup], rfl, fun _ _ => rfl, by simp, by simp [C]⟩ hO [] [] ⟨_, _, _, hX⟩ ⟨_, _, _, h'⟩ hz⟩

/-- the hypotheses of `C114_convex` on the cube: node 3 Dirichlet, the others Neumann, every datum -/
example (S : SingRule) (procs : ℕ) (g : Vec 8) : ∃ (C : Setup (cubeInput 3 0).nDofs 3) (gmres : (Vec 8 → Vec 8) → Vec 8 → Vec 8) (st : AlphaStatics) (X : Solution 8),
    solve (cubeInput 3 0) cubeData S faceRule C gmres (alphaHistory []) g g = (st, some X) ∧ (∀ i, X.residual i = 0) ∧
    X.phi (3 : Fin 8) = g 3 ∧ X.dphi (0 : Fin 8) = g 0 := by
  let C : Setup (cubeInput 3 0).nDofs 3 := { cubeSetup .direct procs with
      neumannNodes := fun (i : Fin 8) => if i ∈ ({3} : Finset (Fin 8)) then 0 else 1
      nodes := ⟨fun (i : Fin 8) => if i ∈ ({3} : Finset (Fin 8)) then 1 else 0, g, fun _ => 0, fun _ => 0, false⟩ }
  have hl := constraints_no_doubles (n := 8) (d := 3) ⟨fun i => if i ∈ ({3} : Finset (Fin 8)) then 1 else 0, g, fun _ => 0, fun _ => 0, false⟩
    (fun i => by dsimp only; split_ifs <;> simp) (fun _ => none) (by simp) 1 (by simp) (List.finRange 8)
  obtain ⟨st, X, h⟩ := solve_some (inp := cubeInput 3 0) (D := cubeData) (S := S) (S' := faceRule) (C := C)
    (gmres := fun _ _ => (0 : Vec 8)) (st := alphaHistory []) (phi0 := g) (dphi0 := g)
    (by simp [C, alphaHistory, alphaStaticsStep, AlphaStatics.init, cubeInput]) hl
  obtain ⟨⟨gm, st', Y, hY, rY⟩, -⟩ := C114_convex (S := S) cube_convex cube_connected cube_apart C rfl [] g g (3 : Fin 8)
    { dirichlet := fun _ => rfl, neumann := fun _ => rfl, bc := rfl, phi := fun _ _ => rfl, dphi := fun _ _ => rfl
      refl := fun i => Finset.mem_singleton_self i, eq := fun i j hj => by rw [Finset.mem_singleton.1 hj]
      coincide := fun i j hj => by rw [Finset.mem_singleton.1 hj]; exact ⟨rfl, rfl⟩
      hanging := fun _ => rfl, order := fun i => List.mem_finRange i } ⟨_, st, X, h⟩
  obtain ⟨-, -, p, q, -⟩ := solve_rows hY ({(3 : Fin 8)} : Finset (Fin 8)) (fun _ => rfl) (fun _ => rfl) rfl (fun _ _ => rfl) (fun _ _ => rfl)
  refine ⟨C, gm, st', Y, hY, rY, ?_, ?_⟩
  · rw [p]; exact if_pos (Finset.mem_singleton_self (3 : Fin 8))
  · rw [q]; exact if_neg (show ¬ ((0 : Fin 8) ∈ ({3} : Finset (Fin 8))) by decide)

end PiBem.Bem
