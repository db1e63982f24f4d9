import Verif.Props.Balance

/-!
# C115 with hanging nodes, for any two matrices with the signs of convex surfaces
-/

noncomputable section

namespace PiBem.Bem

open PiBem.Octree PiBem.Fmm PiBem.Expansion

variable {n d : ℕ}

/-- The potential `phi` at hanging nodes is interpolated. -/
def Interpolated (C : Setup n d) (phi : Vec n) : Prop := ∀ i es, C.hanging i = some es → phi i = (es.map fun e => e.2 * phi e.1).sum

/-- Weights `w` of the equations at nodes that do not hang, with sum one, and `m` of the normal derivatives, such that for all normal derivatives and all potentials that are interpolated at hanging nodes
the weighted residuals of the boundary integral equation at the nodes that do not hang sum to minus the weighted sum of the normal derivatives. -/
structure BalanceH (N M : Mat n) (C : Setup n d) (w m : Vec n) : Prop where
  rows : ∀ i, C.hanging i = none → 0 < w i
  hang : ∀ i, C.hanging i ≠ none → w i = 0
  total : ∑ i, w i = 1
  nodes : ∀ k, 0 < m k
  balance : ∀ phi dphi : Vec n, Interpolated C phi → ∑ i, w i * eqResidual N M phi dphi i = -∑ k, m k * dphi k

/-- The matrix whose rows at hanging nodes are minus the weights of the interpolation. -/
def hangMatrix (N : Mat n) (C : Setup n d) : Mat n := fun i k =>
  match C.hanging i with
  | none => N i k
  | some es => -(es.map fun e => if e.1 = k then e.2 else 0).sum

theorem list_sum_fin (es : List (Fin n × ℝ)) (f : Fin n → ℝ) : ∑ k, (es.map fun e => if e.1 = k then e.2 else 0).sum * f k = (es.map fun e => e.2 * f e.1).sum := by
  induction es with
  | nil => simp
  | cons a l ih => simp only [List.map_cons, List.sum_cons, add_mul, Finset.sum_add_distrib, ih]; simp

theorem hangMatrix_nonpos {N : Mat n} {C : Setup n d} (hN : ∀ i k, N i k ≤ 0) (hH : MeanValues C ∅) (i k : Fin n) : hangMatrix N C i k ≤ 0 := by
  unfold hangMatrix
  cases hi : C.hanging i with
  | none => exact hN i k
  | some es =>
    refine neg_nonpos.2 (List.sum_nonneg fun x hx => ?_)
    obtain ⟨e, he, rfl⟩ := List.mem_map.1 hx
    split_ifs
    · exact (hH.weights i es hi e he).le
    · exact le_rfl

theorem hangMatrix_linked {N : Mat n} {C : Setup n d} (hH : MeanValues C ∅) (hcon : ∀ i k, Relation.ReflTransGen (Passes N C) i k) : Linked (hangMatrix N C) := by
  intro i k
  refine Relation.ReflTransGen.mono (r := Passes N C) (fun a b hab => ?_) i k (hcon i k)
  unfold Passes at hab
  unfold hangMatrix
  cases ha : C.hanging a with
  | none => rw [ha] at hab; exact hab
  | some es =>
    rw [ha] at hab
    obtain ⟨e, he, hb⟩ := List.mem_map.1 hab
    refine neg_neg_of_pos ?_
    have hs := list_sum_sign es (fun e => -(if e.1 = b then e.2 else 0)) fun x hx => by
      split_ifs
      · exact neg_nonpos.2 (hH.weights a es ha x hx).le
      · simp
    have hlt := hs.2.2 ⟨e, he, by rw [if_pos hb]; exact neg_neg_of_pos (hH.weights a es ha e he)⟩
    have hneg : (es.map fun e => -(if e.1 = b then e.2 else 0)).sum = -(es.map fun e => if e.1 = b then e.2 else 0).sum := by
      clear hs hlt he hab ha
      induction es with
      | nil => simp
      | cons x l ih => simp only [List.map_cons, List.sum_cons, ih]; ring
    linarith

theorem hang_differences {N : Mat n} {C : Setup n d} (hH : MeanValues C ∅) (phi : Vec n) (i : Fin n) :
    (C.hanging i = none → differences (hangMatrix N C) phi i = differences N phi i) ∧
    ∀ es, C.hanging i = some es → differences (hangMatrix N C) phi i = phi i - (es.map fun e => e.2 * phi e.1).sum := by
  constructor
  · intro h
    unfold differences hangMatrix
    simp only [h]
  · intro es h
    unfold differences hangMatrix
    simp only [h]
    have h1 := list_sum_fin es fun k => phi k - phi i
    have h2 : (es.map fun e => e.2 * (phi e.1 - phi i)).sum = (es.map fun e => e.2 * phi e.1).sum - (es.map Prod.snd).sum * phi i := by
      clear h1 h
      induction es with
      | nil => simp
      | cons x l ih => simp only [List.map_cons, List.sum_cons, ih]; ring
    rw [hH.total i es h, one_mul] at h2
    simp only [neg_mul, Finset.sum_neg_distrib]
    rw [h1, h2]
    ring

/-- **C115** (hanging nodes). If the double layer entries are not positive and the single layer entries positive, hanging nodes are mean values, and from every node the value of the potential passes on to every other one,
there are balancing weights. They depend on the matrices and on the hanging nodes only. -/
theorem C115_hanging {N M : Mat n} {C : Setup n d} (hN : ∀ i k, N i k ≤ 0) (hM : ∀ i k, 0 < M i k) (hH : MeanValues C ∅)
    (hcon : ∀ i k, Relation.ReflTransGen (Passes N C) i k) (b : Fin n) (hb : C.hanging b = none) : ∃ w m, BalanceH N M C w m := by
  obtain ⟨v, hv, -, hr⟩ := (rowWeights_unique (hangMatrix_nonpos hN hH) (hangMatrix_linked hH hcon) b.pos).1
  set u : Vec n := fun i => if C.hanging i = none then v i else 0 with hu
  have u0 : ∀ i, 0 ≤ u i := fun i => by simp only [hu]; split_ifs; exacts [(hv i).le, le_rfl]
  have ub : 0 < u b := by simp only [hu, if_pos hb]; exact hv b
  have us : 0 < ∑ i, u i := Finset.sum_pos' (fun i _ => u0 i) ⟨b, Finset.mem_univ b, ub⟩
  refine ⟨fun i => u i / ∑ j, u j, fun k => ∑ i, u i / (∑ j, u j) * M i k, fun i hi => ?_, fun i hi => ?_, ?_, fun k => ?_, fun phi dphi hphi => ?_⟩
  · refine div_pos ?_ us
    simp only [hu, if_pos hi]
    exact hv i
  · simp only [hu, if_neg hi, zero_div]
  · rw [← Finset.sum_div, div_self us.ne']
  · exact Finset.sum_pos' (fun i _ => mul_nonneg (div_nonneg (u0 i) us.le) (hM i k).le) ⟨b, Finset.mem_univ b, mul_pos (div_pos ub us) (hM b k)⟩
  · have h1 : ∑ i, u i * differences N phi i = 0 := by
      rw [← hr.differences phi]
      refine Finset.sum_congr rfl fun i _ => ?_
      cases hi : C.hanging i with
      | none => simp only [hu, if_pos hi]; rw [(hang_differences hH phi i).1 hi]
      | some es =>
        have : ¬ C.hanging i = none := by rw [hi]; simp
        simp only [hu, if_neg this]
        rw [(hang_differences hH phi i).2 es hi, hphi i es hi, sub_self, mul_zero, zero_mul]
    have gen : ∀ c : Vec n, ∑ k, (∑ i, c i * M i k) * dphi k = ∑ i, c i * ∑ k, M i k * dphi k := fun c => by
      simp only [Finset.sum_mul, Finset.mul_sum]
      rw [Finset.sum_comm]
      exact Finset.sum_congr rfl fun i _ => Finset.sum_congr rfl fun k _ => by ring
    have e := gen fun i => u i / ∑ j, u j
    beta_reduce at e
    rw [e]
    have h2 : ∑ i, u i / (∑ j, u j) * differences N phi i = 0 := by
      have : ∀ i, u i / (∑ j, u j) * differences N phi i = (u i * differences N phi i) / ∑ j, u j := fun i => by ring
      simp only [this, ← Finset.sum_div, h1, zero_div]
    have h3 : ∀ i, u i / (∑ j, u j) * eqResidual N M phi dphi i = u i / (∑ j, u j) * differences N phi i - u i / (∑ j, u j) * ∑ k, M i k * dphi k := fun i => by
      unfold eqResidual differences; ring
    simp only [h3, Finset.sum_sub_distrib, h2, zero_sub]

/-- **C115** (hanging nodes, compatibility). Normal derivatives fulfil the boundary integral equation at all nodes that do not hang together with some potential that is interpolated at the hanging ones if and only if
their weighted sum is zero; the potential is determined up to a constant. -/
theorem C115_hanging_compatible {N M : Mat n} {C : Setup n d} (hN : ∀ i k, N i k ≤ 0) (hH : MeanValues C ∅) (hcon : ∀ i k, Relation.ReflTransGen (Passes N C) i k)
    {w m : Vec n} (h : BalanceH N M C w m) (dphi : Vec n) :
    ((∃ phi, Interpolated C phi ∧ ∀ i, C.hanging i = none → eqResidual N M phi dphi i = 0) ↔ ∑ k, m k * dphi k = 0) ∧
    ∀ phi phi', Interpolated C phi → Interpolated C phi' → (∀ i, C.hanging i = none → eqResidual N M phi dphi i = 0) →
      (∀ i, C.hanging i = none → eqResidual N M phi' dphi i = 0) → ∃ t, ∀ i, phi' i = phi i + t := by
  have hpos : 0 < n := by
    by_contra h0
    have hn : n = 0 := by omega
    subst hn
    simpa using h.total
  have hNN := hangMatrix_nonpos hN hH
  have hL := hangMatrix_linked hH hcon
  have sumzero : ∀ phi, (∀ i, C.hanging i = none → eqResidual N M phi dphi i = 0) → ∑ i, w i * eqResidual N M phi dphi i = 0 := fun phi hp =>
    Finset.sum_eq_zero fun i _ => by
      by_cases hi : C.hanging i = none
      · rw [hp i hi, mul_zero]
      · rw [h.hang i hi, zero_mul]
  refine ⟨⟨?_, fun hz => ?_⟩, fun phi phi' hi hi' hp hp' => ?_⟩
  · rintro ⟨phi, hi, hp⟩
    have := h.balance phi dphi hi
    rw [sumzero phi hp] at this
    linarith
  · obtain ⟨v, hv, -, hr⟩ := (rowWeights_unique hNN hL hpos).1
    have hv0 : v ≠ 0 := fun e => by have := hv ⟨0, hpos⟩; rw [e] at this; exact lt_irrefl _ this
    -- the equation has a solution after a correction by a multiple of the right hand side one at the nodes that do not hang
    let y : Vec n := fun i => if C.hanging i = none then ∑ k, M i k * dphi k else 0
    let o : Vec n := fun i => if C.hanging i = none then 1 else 0
    have ho : 0 < ∑ i, v i * o i := by
      obtain ⟨b, hb⟩ : ∃ b, C.hanging b = none := by
        by_contra hne
        push Not at hne
        have := h.total
        rw [Finset.sum_eq_zero fun i _ => h.hang i (hne i)] at this
        exact zero_ne_one this
      refine Finset.sum_pos' (fun i _ => mul_nonneg (hv i).le ?_) ⟨b, Finset.mem_univ b, ?_⟩
      · simp only [o]; split_ifs <;> norm_num
      · simp only [o, if_pos hb, mul_one]; exact hv b
    obtain ⟨phi, hphi⟩ := (differences_range hNN hL hv0 hr fun i => y i - (∑ j, v j * y j) / (∑ j, v j * o j) * o i).2 (by
      have : ∀ i, v i * (y i - (∑ j, v j * y j) / (∑ j, v j * o j) * o i) = v i * y i - (∑ j, v j * y j) / (∑ j, v j * o j) * (v i * o i) := fun i => by ring
      simp only [this, Finset.sum_sub_distrib, ← Finset.mul_sum]
      rw [div_mul_cancel₀ _ ho.ne', sub_self])
    set t := (∑ j, v j * y j) / (∑ j, v j * o j) with ht
    have hint : Interpolated C phi := fun i es hes => by
      have := hphi i
      have hne : ¬ C.hanging i = none := by rw [hes]; simp
      rw [(hang_differences hH phi i).2 es hes] at this
      simp only [y, o, if_neg hne, mul_zero, sub_zero] at this
      linarith
    have hres : ∀ i, C.hanging i = none → eqResidual N M phi dphi i = -t := fun i hi => by
      have := hphi i
      rw [(hang_differences hH phi i).1 hi] at this
      simp only [y, o, if_pos hi, mul_one] at this
      unfold differences at this
      unfold eqResidual
      linarith
    have hb := h.balance phi dphi hint
    have hs : ∑ i, w i * eqResidual N M phi dphi i = -t := by
      have : ∀ i, w i * eqResidual N M phi dphi i = w i * -t := fun i => by
        by_cases hi : C.hanging i = none
        · rw [hres i hi]
        · rw [h.hang i hi, zero_mul, zero_mul]
      simp only [this, ← Finset.sum_mul, h.total, one_mul]
    rw [hs, hz, neg_zero, neg_eq_zero] at hb
    exact ⟨phi, hint, fun i hi => by rw [hres i hi, hb, neg_zero]⟩
  · have hz : ∀ i, differences (hangMatrix N C) (fun k => phi' k - phi k) i = 0 := by
      intro i
      have lin : differences (hangMatrix N C) (fun k => phi' k - phi k) i = differences (hangMatrix N C) phi' i - differences (hangMatrix N C) phi i := by
        unfold differences
        rw [← Finset.sum_sub_distrib]
        exact Finset.sum_congr rfl fun k _ => by ring
      rw [lin]
      cases hc : C.hanging i with
      | none =>
        rw [(hang_differences hH phi i).1 hc, (hang_differences hH phi' i).1 hc]
        have a := hp i hc
        have a' := hp' i hc
        unfold eqResidual at a a'
        unfold differences
        linarith
      | some es =>
        rw [(hang_differences hH phi i).2 es hc, (hang_differences hH phi' i).2 es hc, hi i es hc, hi' i es hc, sub_self, sub_self, sub_self]
    refine ⟨phi' ⟨0, hpos⟩ - phi ⟨0, hpos⟩, fun i => ?_⟩
    have := constant_of_differences hNN hL hz i ⟨0, hpos⟩
    linarith

/-- **C115** (hanging nodes, uniqueness). The ratios of the weights of the normal derivatives are determined. -/
theorem C115_hanging_unique {N M : Mat n} {C : Setup n d} (hN : ∀ i k, N i k ≤ 0) (hH : MeanValues C ∅) (hcon : ∀ i k, Relation.ReflTransGen (Passes N C) i k)
    {w m w' m' : Vec n} (h : BalanceH N M C w m) (h' : BalanceH N M C w' m') (j k : Fin n) : m' j / m' k = m j / m k := by
  by_cases hjk : j = k
  · rw [hjk, div_self (h.nodes k).ne', div_self (h'.nodes k).ne']
  have sum : ∀ a : Vec n, ∑ x, a x * (Pi.single j (m k) - Pi.single k (m j) : Vec n) x = a j * m k - a k * m j := by
    intro a
    simp only [Pi.sub_apply, mul_sub, Finset.sum_sub_distrib]
    simp [Pi.single_apply]
  have h1 : ∑ x, m x * (Pi.single j (m k) - Pi.single k (m j) : Vec n) x = 0 := by rw [sum]; ring
  have h2 := (C115_hanging_compatible hN hH hcon h' _).1.1 ((C115_hanging_compatible hN hH hcon h _).1.2 h1)
  rw [sum] at h2
  rw [div_eq_div_iff (h'.nodes k).ne' (h.nodes k).ne']
  linarith

/-- **C115** (hanging nodes, solves). Every exact solve of a problem with Dirichlet nodes, the hanging nodes and those they lie between not among them, returns normal derivatives whose weighted sum is zero. -/
theorem C115_hanging_solve {N M : Mat n} {C : Setup n d} {w m : Vec n} (hB : BalanceH N M C w m)
    (gmres : (Vec n → Vec n) → Vec n → Vec n) (l : List (ℕ × ℕ)) (st : AlphaStatics) (phi0 dphi0 : Vec n) (X : Solution n)
    (h : solveWith N M C gmres (alphaHistory l) phi0 dphi0 = (st, some X))
    (B : Finset (Fin n)) (hP : PosedH N M C B phi0 dphi0) (hH : MeanValues C B) (hdata : Consistent C B) (hg : ∀ i, ¬ GradientNode C B i)
    (hX : ∀ i, X.residual i = 0) : ∑ k, m k * X.dphi k = 0 := by
  obtain ⟨a, -, -, c⟩ := (C91_exact_solutions N M C gmres l st phi0 dphi0 X h B hP hdata).1 hX
  have un : ∀ k, k ∉ B → unknown B X.phi X.dphi k = X.phi k := by
    intro k hk
    unfold unknown merge
    rw [if_neg hk]
  have hint : Interpolated C X.phi := fun i es hes => by
    obtain ⟨hiB, heB⟩ := hH.same i es hes
    have := c i es hes
    rw [un i hiB, List.map_congr_left fun e he => by rw [un _ (heB e he)]] at this
    exact this
  have hb := hB.balance X.phi X.dphi hint
  rw [Finset.sum_eq_zero fun i _ => ?_] at hb
  · linarith
  · by_cases hi : C.hanging i = none
    · rw [a i hi (hg i), mul_zero]
    · rw [hB.hang i hi, zero_mul]

/-- **C115** (convex surfaces with hanging nodes). Dense method, dimension 3: the surface and the hanging nodes alone determine weights that balance the normal derivatives, and every exact solve of a problem with
Dirichlet nodes returns normal derivatives whose weighted sum is zero. -/
theorem C115_convex_hanging {inp : Input 3} {D : Data} {S S' : SingRule} (hK : ConvexSurface inp D S') (hap : ∀ i k : Fin inp.nDofs, Separate inp D S' i k)
    (C : Setup inp.nDofs d) (hH : MeanValues C ∅) (hcon : ∀ i k, Relation.ReflTransGen (PassesTo inp D S' C) i k)
    (b : Fin inp.nDofs) (hb : C.hanging b = none) :
    ∃ w m, BalanceH (solveMatrix inp D S S' .direct C.owner .double) (solveMatrix inp D S S' .direct C.owner .single) C w m ∧
      ∀ C' : Setup inp.nDofs d, C'.method = .direct → C'.owner = C.owner → C'.hanging = C.hanging →
        ∀ gmres l st phi0 dphi0 X, solve inp D S S' C' gmres (alphaHistory l) phi0 dphi0 = (st, some X) →
        ∀ B, PosedH (solveMatrix inp D S S' C'.method C'.owner .double) (solveMatrix inp D S S' C'.method C'.owner .single) C' B phi0 dphi0 →
        (∀ i es, C'.hanging i = some es → i ∉ B ∧ ∀ e ∈ es, e.1 ∉ B) → Consistent C' B → (∀ i, ¬ GradientNode C' B i) → (∀ i, X.residual i = 0) →
        ∑ k, m k * X.dphi k = 0 := by
  have hN : ∀ i k, solveMatrix inp D S S' .direct C.owner .double i k ≤ 0 := fun i k => (C112_signs hK S C.owner i k).1
  have hM : ∀ i k, 0 < solveMatrix inp D S S' .direct C.owner .single i k := fun i k => (C112_signs hK S C.owner i k).2.2.2 (hap i k)
  have hcon' : ∀ i k, Relation.ReflTransGen (Passes (solveMatrix inp D S S' .direct C.owner .double) C) i k := fun i k => by
    refine Relation.ReflTransGen.mono (r := PassesTo inp D S' C) (fun a c hac => ?_) i k (hcon i k)
    unfold PassesTo at hac
    unfold Passes
    cases hi : C.hanging a with
    | none => rw [hi] at hac; exact (C112_signs hK S C.owner a c).2.1.2 hac
    | some es => rw [hi] at hac; exact hac
  obtain ⟨w, m, hB⟩ := C115_hanging hN hM hH hcon' b hb
  refine ⟨w, m, hB, fun C' hm ho hh gmres l st phi0 dphi0 X h B hP hs hdata hg hX => ?_⟩
  have hB' : BalanceH (solveMatrix inp D S S' C'.method C'.owner .double) (solveMatrix inp D S S' C'.method C'.owner .single) C' w m := by
    rw [hm, ho]
    exact ⟨fun i hi => hB.rows i (by rw [← hh]; exact hi), fun i hi => hB.hang i (by rw [← hh]; exact hi), hB.total, hB.nodes,
      fun phi dphi hi => hB.balance phi dphi fun i es hes => hi i es (by rw [hh]; exact hes)⟩
  exact C115_hanging_solve hB' gmres l st phi0 dphi0 X h B hP
    ⟨fun i es hes => hH.weights i es (by rw [← hh]; exact hes), fun i es hes => hH.total i es (by rw [← hh]; exact hes), hs⟩ hdata hg hX

/-- **C115** (hanging nodes, one Dirichlet node). With one Dirichlet node the normal derivative returned there by an exact solve is minus the weighted sum of the given ones divided by the weight of the node. -/
theorem C115_hanging_one_dirichlet {N M : Mat n} {C : Setup n d} {w m : Vec n} (hB : BalanceH N M C w m)
    (gmres : (Vec n → Vec n) → Vec n → Vec n) (l : List (ℕ × ℕ)) (st : AlphaStatics) (phi0 dphi0 : Vec n) (X : Solution n)
    (h : solveWith N M C gmres (alphaHistory l) phi0 dphi0 = (st, some X))
    (b : Fin n) (hP : PosedH N M C {b} phi0 dphi0) (hH : MeanValues C {b}) (hX : ∀ i, X.residual i = 0) :
    X.dphi b = -(∑ k ∈ Finset.univ.erase b, m k * C.nodes.tmpRhs k) / m b := by
  have hc : Consistent C {b} := by
    refine ⟨fun i hi j _ hj => by rw [Finset.mem_singleton.1 hi, Finset.mem_singleton.1 hj], fun _ i hi j _ hj hne => ?_⟩
    exact absurd ((Finset.mem_singleton.1 hj).trans (Finset.mem_singleton.1 hi).symm) hne
  have hg : ∀ i, ¬ GradientNode C {b} i := by
    rintro i ⟨-, j, -, k, -, hj, hk, hne⟩
    exact hne ((Finset.mem_singleton.1 hj).trans (Finset.mem_singleton.1 hk).symm)
  have h0 := C115_hanging_solve hB gmres l st phi0 dphi0 X h {b} hP hH hc hg hX
  obtain ⟨-, -, -, q, -⟩ := solveWith_rows h {b} hP.dirichlet hP.neumann hP.bc hP.phi hP.dphi
  rw [← Finset.add_sum_erase _ _ (Finset.mem_univ b)] at h0
  rw [Finset.sum_congr rfl fun k hk => by
    have : k ∉ ({b} : Finset (Fin n)) := fun h => (Finset.ne_of_mem_erase hk) (Finset.mem_singleton.1 h)
    show m k * X.dphi k = m k * C.nodes.tmpRhs k
    rw [q]
    simp only [merge, this, if_false]] at h0
  rw [eq_div_iff (hB.nodes b).ne']
  linarith

/-! ## The hypotheses are met -/

theorem cubeHang_passes (procs : ℕ) (g : Vec 8) : ∀ i k : Fin 8, Relation.ReflTransGen (PassesTo (cubeInput 3 0) cubeData faceRule (cubeHang procs g)) i k := by
    have free : ∀ i k : Fin 8, i ≠ 3 → Relation.ReflTransGen (PassesTo (cubeInput 3 0) cubeData faceRule (cubeHang procs g)) i k := by
      intro i k hi
      by_cases hk : i = k
      · rw [hk]; exact .refl
      · refine .single ?_
        have hn : (cubeHang procs g).hanging i = none := if_neg hi
        unfold PassesTo
        rw [hn]
        exact cube_sees hk
    intro i k
    by_cases hi : i = 3
    · subst hi
      refine .head (b := (1 : Fin 8)) ?_ (free 1 k (by decide))
      have hn : (cubeHang procs g).hanging (3 : Fin 8) = some [((1 : Fin 8), (1 / 2 : ℝ)), ((2 : Fin 8), (1 / 2 : ℝ))] :=
        show midHanging 3 = _ by simp [midHanging]
      unfold PassesTo
      rw [hn]
      exact List.mem_cons_self ..
    · exact free i k hi

/-- the cube with node 3 hanging between nodes 1 and 2, node 7 Dirichlet: for every datum there is an exact solve, the weights do not depend on the datum, and the normal derivatives balance -/
example (S : SingRule) (procs : ℕ) : ∃ m : Vec 8, (∀ k, 0 < m k) ∧ ∀ g : Vec 8, ∃ (gmres : (Vec 8 → Vec 8) → Vec 8 → Vec 8) (st : AlphaStatics) (X : Solution 8),
    solve (cubeInput 3 0) cubeData S faceRule (cubeHang procs g) gmres (alphaHistory []) g g = (st, some X) ∧ (∀ i, X.residual i = 0) ∧ ∑ k, m k * X.dphi k = 0 := by
  obtain ⟨w, m, hB, hall⟩ := C115_convex_hanging (S := S) cube_convex cube_apart (cubeHang procs 0) ⟨mid_weights, mid_total, fun i es hes => by simp⟩
    (cubeHang_passes procs 0) (0 : Fin 8) (show midHanging 0 = none by simp [midHanging])
  refine ⟨m, hB.nodes, fun g => ?_⟩
  have hl := constraints_no_doubles (n := 8) (d := 3) (cubeHang procs g).nodes
    (fun i => by show (if _ then _ else _) = _ ∨ (if _ then _ else _) = _; split_ifs <;> simp) midHanging mid_closed 3 mid_length (List.finRange 8)
  obtain ⟨st, X, h⟩ := solve_some (inp := cubeInput 3 0) (D := cubeData) (S := S) (S' := faceRule) (C := cubeHang procs g)
    (gmres := fun _ _ => (0 : Vec 8)) (st := alphaHistory []) (phi0 := g) (dphi0 := g)
    (by simp [alphaHistory, alphaStaticsStep, AlphaStatics.init, cubeInput]) hl
  have hP : PosedH (solveMatrix (cubeInput 3 0) cubeData S faceRule (cubeHang procs g).method (cubeHang procs g).owner .double)
      (solveMatrix (cubeInput 3 0) cubeData S faceRule (cubeHang procs g).method (cubeHang procs g).owner .single) (cubeHang procs g) ({7} : Finset (Fin 8)) g g :=
    { dirichlet := fun _ => rfl, neumann := fun _ => rfl, bc := rfl, phi := fun _ _ => rfl, dphi := fun _ _ => rfl
      refl := fun i => Finset.mem_singleton_self i, eq := fun i j hj => by rw [Finset.mem_singleton.1 hj]
      rows := fun i j hj k => by rw [Finset.mem_singleton.1 hj]; exact ⟨rfl, rfl⟩
      alone := fun i _ j hj => Finset.mem_singleton.1 hj, order := fun i => List.mem_finRange i }
  obtain ⟨⟨gm, st', Y, hY, rY⟩, -⟩ := C114_convex_hanging (S := S) cube_convex cube_apart (cubeHang procs g) rfl (cubeHang_passes procs g) [] g g (7 : Fin 8)
    hP ⟨mid_weights, mid_total, mid_same⟩ ⟨_, st, X, h⟩
  refine ⟨gm, st', Y, hY, rY, hall (cubeHang procs g) rfl rfl rfl gm [] st' g g Y hY ({(7 : Fin 8)} : Finset (Fin 8)) hP mid_same ?_ ?_ rY⟩
  · refine ⟨fun i hi j _ hj => by rw [Finset.mem_singleton.1 hi, Finset.mem_singleton.1 hj], fun _ i hi j _ hj hne => ?_⟩
    exact absurd ((Finset.mem_singleton.1 hj).trans (Finset.mem_singleton.1 hi).symm) hne
  · rintro i ⟨-, j, -, k, -, hj, hk, hne⟩
    exact hne ((Finset.mem_singleton.1 hj).trans (Finset.mem_singleton.1 hk).symm)

end PiBem.Bem
