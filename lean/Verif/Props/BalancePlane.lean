import Verif.Props.Balance

/-!
# C115 in dimension 2: convex curves
-/

noncomputable section

namespace PiBem.Bem.Plane

open PiBem.Fmm (Ker)

variable {K : Curve}

/-- Weights `w` of the equations, with sum one, and `m` of the normal derivatives, such that for all potentials and normal derivatives, exact or not, the weighted residuals of the boundary integral equation
sum to minus the weighted sum of the normal derivatives. -/
structure PlaneBalance (K : Curve) (w m : Vec K.nDofs) : Prop where
  rows : ∀ i, 0 < w i
  total : ∑ i, w i = 1
  balance : ∀ phi dphi : Vec K.nDofs, ∑ i : Fin K.nDofs, w i * ((∑ k : Fin K.nDofs, layer K .double i k * (phi k - phi i)) - ∑ k : Fin K.nDofs, layer K .single i k * dphi k) =
    -∑ k, m k * dphi k

theorem plane_linked (hK : ConvexCurve K) (hcon : Connected K) :
    (∀ i k : Fin K.nDofs, layer K .double i k ≤ 0) ∧ Linked fun i k : Fin K.nDofs => layer K .double i k :=
  ⟨fun i k => (layer_sign hK i.isLt k).1, fun i k => Relation.ReflTransGen.mono (fun (a b : Fin K.nDofs) hab => (layer_sign hK a.isLt b).2.2 hab) i k (hcon i k)⟩

theorem plane_residuals (w phi dphi : Vec K.nDofs) :
    ∑ i : Fin K.nDofs, w i * ((∑ k : Fin K.nDofs, layer K .double i k * (phi k - phi i)) - ∑ k : Fin K.nDofs, layer K .single i k * dphi k) =
    ∑ i, w i * differences (fun i k : Fin K.nDofs => layer K .double i k) phi i - ∑ k : Fin K.nDofs, (∑ i : Fin K.nDofs, w i * layer K .single i k) * dphi k := by
  have e : ∑ k : Fin K.nDofs, (∑ i : Fin K.nDofs, w i * layer K .single i k) * dphi k =
      ∑ i : Fin K.nDofs, w i * ∑ k : Fin K.nDofs, layer K .single i k * dphi k := by
    simp only [Finset.sum_mul, Finset.mul_sum]
    rw [Finset.sum_comm]
    exact Finset.sum_congr rfl fun i _ => Finset.sum_congr rfl fun k _ => by ring
  rw [e, ← Finset.sum_sub_distrib]
  exact Finset.sum_congr rfl fun i _ => by unfold differences; ring

theorem PlaneBalance.weights {w m : Vec K.nDofs} (h : PlaneBalance K w m) :
    RowWeights (fun i k : Fin K.nDofs => layer K .double i k) w ∧ ∀ k : Fin K.nDofs, m k = ∑ i : Fin K.nDofs, w i * layer K .single i k := by
  constructor
  · refine RowWeights.of_differences fun phi => ?_
    have := h.balance phi 0
    rw [plane_residuals] at this
    simpa using this
  · intro k
    have := h.balance 0 (Pi.single k 1)
    rw [plane_residuals] at this
    have e0 : ∑ i, w i * differences (fun i k : Fin K.nDofs => layer K .double i k) 0 i = 0 := by simp [differences]
    rw [e0, zero_sub, neg_inj] at this
    simpa [Pi.single_apply] using this.symm

/-- **C115** (dimension 2). On a connected convex curve there are balancing weights, and they are determined by the curve. -/
theorem C115_plane_balance (hK : ConvexCurve K) (hcon : Connected K) (hn : 0 < K.nDofs) :
    (∃ w m, PlaneBalance K w m) ∧ ∀ w m w' m', PlaneBalance K w m → PlaneBalance K w' m' → w' = w ∧ m' = m := by
  obtain ⟨hN, hL⟩ := plane_linked hK hcon
  constructor
  · obtain ⟨w, hw, hs, h⟩ := (rowWeights_unique hN hL hn).1
    refine ⟨w, fun k => ∑ i : Fin K.nDofs, w i * layer K .single i k, hw, hs, fun phi dphi => ?_⟩
    rw [plane_residuals, h.differences, zero_sub]
  · intro w m w' m' h h'
    have e := (rowWeights_unique hN hL hn).2 w w' h.total h'.total h.weights.1 h'.weights.1
    exact ⟨e, funext fun k => by rw [h.weights.2, h'.weights.2, e]⟩

/-- **C115** (dimension 2, compatibility). Normal derivatives fulfil the boundary integral equation at all nodes together with some potential if and only if their weighted sum is zero; the potential is determined up to a constant. -/
theorem C115_plane_compatible (hK : ConvexCurve K) (hcon : Connected K) {w m : Vec K.nDofs} (h : PlaneBalance K w m) (dphi : Vec K.nDofs) :
    ((∃ phi : Vec K.nDofs, ∀ i : Fin K.nDofs, ∑ k : Fin K.nDofs, layer K .double i k * (phi k - phi i) = ∑ k : Fin K.nDofs, layer K .single i k * dphi k) ↔ ∑ k, m k * dphi k = 0) ∧
    ∀ phi phi' : Vec K.nDofs, (∀ i : Fin K.nDofs, ∑ k : Fin K.nDofs, layer K .double i k * (phi k - phi i) = ∑ k : Fin K.nDofs, layer K .single i k * dphi k) →
      (∀ i : Fin K.nDofs, ∑ k : Fin K.nDofs, layer K .double i k * (phi' k - phi' i) = ∑ k : Fin K.nDofs, layer K .single i k * dphi k) → ∃ t, ∀ i, phi' i = phi i + t := by
  obtain ⟨hN, hL⟩ := plane_linked hK hcon
  have hpos : 0 < K.nDofs := by
    by_contra h0
    have hE : IsEmpty (Fin K.nDofs) := ⟨fun i => absurd i.isLt (by omega)⟩
    have := h.total
    rw [Finset.univ_eq_empty, Finset.sum_empty] at this
    exact zero_ne_one this
  have hw : w ≠ 0 := fun h0 => by have := h.rows ⟨0, hpos⟩; rw [h0] at this; exact lt_irrefl _ this
  constructor
  · refine (differences_range hN hL hw h.weights.1 fun i => ∑ k : Fin K.nDofs, layer K .single i k * dphi k).trans ?_
    have hb := h.balance 0 dphi
    have e : ∀ i : Fin K.nDofs, w i * ((∑ k : Fin K.nDofs, layer K .double i k * ((0 : Vec K.nDofs) k - (0 : Vec K.nDofs) i)) - ∑ k : Fin K.nDofs, layer K .single i k * dphi k) =
        -(w i * ∑ k : Fin K.nDofs, layer K .single i k * dphi k) := fun i => by simp
    rw [Finset.sum_congr rfl fun i _ => e i, Finset.sum_neg_distrib, neg_inj] at hb
    rw [hb]
  · intro phi phi' hp hp'
    have hz : ∀ i, differences (fun i k : Fin K.nDofs => layer K .double i k) (fun k => phi' k - phi k) i = 0 := by
      intro i
      have : differences (fun i k : Fin K.nDofs => layer K .double i k) (fun k => phi' k - phi k) i =
          (∑ k : Fin K.nDofs, layer K .double i k * (phi' k - phi' i)) - ∑ k : Fin K.nDofs, layer K .double i k * (phi k - phi i) := by
        unfold differences
        rw [← Finset.sum_sub_distrib]
        exact Finset.sum_congr rfl fun k _ => by ring
      rw [this, hp i, hp' i, sub_self]
    refine ⟨phi' ⟨0, hpos⟩ - phi ⟨0, hpos⟩, fun i => ?_⟩
    have := constant_of_differences hN hL hz i ⟨0, hpos⟩
    linarith

/-- **C115** (dimension 2, solves). Every exact solve of a problem with Dirichlet nodes on a conforming mesh returns normal derivatives whose weighted sum is zero. -/
theorem C115_plane_solve {w m : Vec K.nDofs} (hB : PlaneBalance K w m) (C : Setup K.nDofs 2) (gmres : (Vec K.nDofs → Vec K.nDofs) → Vec K.nDofs → Vec K.nDofs)
    (l : List (ℕ × ℕ)) (st : AlphaStatics) (phi0 dphi0 : Vec K.nDofs) (X : Solution K.nDofs)
    (h : solve K C gmres (alphaHistory l) phi0 dphi0 = (st, some X))
    (B : Finset (Fin K.nDofs)) (hP : PosedH (planeMatrix K C.owner .double) (planeMatrix K C.owner .single) C B phi0 dphi0)
    (hfree : ∀ i, C.hanging i = none) (hdata : Consistent C B) (hg : ∀ i, ¬ GradientNode C B i) (hX : ∀ i, X.residual i = 0) : ∑ k, m k * X.dphi k = 0 := by
  have := hB.balance X.phi X.dphi
  rw [Finset.sum_eq_zero fun i _ => by rw [exact_row h hP hfree hdata hX (hg i), sub_self, mul_zero]] at this
  linarith

/-- **C115** (dimension 2, small curves). If no quadrature point is further than one from a node, the weights of the normal derivatives are not negative. -/
theorem C115_plane_small (hK : ConvexCurve K) {w m : Vec K.nDofs} (hB : PlaneBalance K w m)
    (hnear : ∀ i c, i < K.nDofs → c < K.nCells → ∀ P ∈ ruleOf K i c, Real.sqrt (∑ a, (K.pos i a - P.pos a) ^ 2) ≤ 1) (k : Fin K.nDofs) : 0 ≤ m k := by
  rw [hB.weights.2]
  refine Finset.sum_nonneg fun i _ => mul_nonneg (hB.rows i).le ?_
  unfold layer curveIntegral
  refine Finset.sum_nonneg fun c hc => Finset.sum_nonneg fun j hj => ?_
  split_ifs
  · refine List.sum_nonneg fun x hx => ?_
    obtain ⟨P, hP, rfl⟩ := List.mem_map.1 hx
    refine mul_nonneg (mul_nonneg ?_ (hK.shape i c i.isLt (Finset.mem_range.1 hc) P hP j (Finset.mem_range.1 hj))) (hK.length i c i.isLt (Finset.mem_range.1 hc) P hP)
    unfold greenValue
    have hl := Real.log_nonpos (Real.sqrt_nonneg _) (hnear i c i.isLt (Finset.mem_range.1 hc) P hP)
    have := Real.pi_pos
    exact div_nonneg (neg_nonneg.2 hl) (by positivity)
  · exact le_rfl

/-- the hypotheses of `C115_plane_balance` and `C115_plane_solve` on two facing elements -/
example (procs : ℕ) : ∃ w m, PlaneBalance facing w m ∧ ∃ (gmres : (Vec 2 → Vec 2) → Vec 2 → Vec 2) (st : AlphaStatics) (X : Solution 2),
    solve facing (facingSetup procs ![3, 7]) gmres (alphaHistory []) ![3, 7] (fun _ => 0) = (st, some X) ∧ ∑ k, m k * X.dphi k = 0 := by
  obtain ⟨w, m, hB⟩ := (C115_plane_balance facing_convex facing_connected (by decide)).1
  obtain ⟨gmres, st, X, h, hr, -⟩ := facing_exact procs ![3, 7]
  exact ⟨w, m, hB, gmres, st, X, h, C115_plane_solve hB (facingSetup procs ![3, 7]) gmres [] st _ _ X h Finset.univ (facing_posed procs _ _) (fun _ => rfl)
    (facing_consistent procs _) (fun i hg => by simp [GradientNode, facingSetup] at hg) hr⟩

/-- the hypotheses of `C115_plane_small` on two facing elements -/
example (w m : Vec 2) (hB : PlaneBalance facing w m) : ∀ k, 0 ≤ m k := by
  refine C115_plane_small facing_convex hB fun i c hi hc P hP => ?_
  rw [ruleOf_facing] at hP
  have hi' : i = 0 ∨ i = 1 := by have : i < 2 := hi; omega
  have hc' : c = 0 ∨ c = 1 := by have : c < 2 := hc; omega
  have he : 0 < Real.exp (-(2 * Real.pi)) := Real.exp_pos _
  have he1 : Real.exp (-(2 * Real.pi)) ≤ 1 := Real.exp_le_one_iff.2 (by have := Real.pi_pos; linarith)
  rw [Real.sqrt_le_one]
  rcases hi' with rfl | rfl <;> rcases hc' with rfl | rfl <;> simp [facing] at hP <;> subst hP <;> simp [facing, Fin.sum_univ_two] <;> exact Real.pi_pos.le

end PiBem.Bem.Plane
