import Verif.Props.FreeWedge

/-!
# Free coefficients at convex polyhedral corners (C66)
-/

noncomputable section

namespace PiBem.Bem

open PiBem.Expansion (V3 rho dot)
open PiBem.Harmonic (rho_nonneg rho_sq rho_eq_zero)
open MeasureTheory

/-- Specification: part of a small ball around the node (of the sphere of directions) that is in the domain `K`. -/
def cornerFraction (K : Set V3) : ℝ := volume.real (K ∩ unitBall) / volume.real unitBall

/-- Specification: `3/(4π)` times the integral of `ω ωᵀ` over the directions `ω` in the domain, a cone `K`: this is five times the mean
over the unit ball of `x xᵀ` on `K` (the integral of `r⁴` over the radii is `1/5`). -/
def cornerTensor (K : Set V3) (i j : Fin 3) : ℝ := 5 / volume.real unitBall * ∫ x in K ∩ unitBall, x i * x j

theorem ballInt_one (K : Set V3) : ballInt (fun _ => 1) K = volume.real (K ∩ unitBall) := by
  simp [ballInt]

theorem wedge_one (a b : V3) (ha : rho a = 1) (hb : rho b = 1) (hab : cross a b ≠ 0) :
    ballInt (fun _ => 1) (inner a ∩ inner b) = 2 / 3 * (Real.pi - Real.arccos (dot a b)) := by
  obtain ⟨e, β, hf, h0, h1, rfl, rfl, h2⟩ := exists_wedge a b ha hb hab
  rw [wedge_volume hf h0 h1, ← h2]

theorem wedge_two (a b : V3) (ha : rho a = 1) (hb : rho b = 1) (hab : cross a b ≠ 0) (i j : Fin 3) :
    ballInt (fun x => x i * x j) (inner a ∩ inner b) =
      4 * Real.pi / 15 * ((if i = j then (Real.pi - Real.arccos (dot a b)) / (2 * Real.pi) else 0) - 1 / (2 * Real.pi) * edgeTerm a b i j) := by
  obtain ⟨e, β, hf, h0, h1, rfl, rfl, h2⟩ := exists_wedge a b ha hb hab
  have hs := Real.sin_pos_of_pos_of_lt_pi h0 h1
  rw [wedge_moment hf h0 h1, ← h2, wedgeTensor_eq hf, wedge_edgeTerm hf, abs_of_pos hs]
  congr 1
  have : Real.sin β ^ 2 / Real.sin β = Real.sin β := by field_simp
  rw [this]
  ring

theorem rho_e (a : Fin 3) : rho (Pi.single a 1 : V3) = 1 := by
  unfold rho; fin_cases a <;> simp

theorem cross_e : cross (Pi.single 0 1 : V3) (Pi.single 1 1) ≠ 0 ∧ cross (Pi.single 0 1 : V3) (-Pi.single 1 1) ≠ 0 := by
  constructor <;> intro h <;> have := congrFun h 2 <;> simp [cross] at this

theorem single_ne (a : Fin 3) : (Pi.single a 1 : V3) ≠ 0 := by simp

theorem rho_neg' (v : V3) : rho (-v) = rho v := by unfold rho; simp

theorem dot_e : dot (Pi.single 0 1 : V3) (Pi.single 1 1) = 0 ∧ dot (Pi.single 0 1 : V3) (-Pi.single 1 1) = 0 := by simp [dot]

theorem ball_vol : ballInt (fun _ => 1) Set.univ = 4 * Real.pi / 3 := by
  have h := wedge_flip (g := fun _ => 1) continuous_const (fun _ => rfl) (Pi.single 0 1) (Pi.single 1 1) (single_ne 0) (single_ne 1)
  rw [wedge_one _ _ (rho_e 0) (rho_e 1) cross_e.1, wedge_one _ _ (rho_e 0) (by rw [rho_neg', rho_e]) cross_e.2, dot_e.1, dot_e.2,
    Real.arccos_zero] at h
  linarith

theorem ball_mom (i j : Fin 3) : ballInt (fun x => x i * x j) Set.univ = if i = j then 4 * Real.pi / 15 else 0 := by
  have h := wedge_flip (g := fun x => x i * x j) (by fun_prop) (fun x => by simp) (Pi.single 0 1) (Pi.single 1 1) (single_ne 0) (single_ne 1)
  rw [wedge_two _ _ (rho_e 0) (rho_e 1) cross_e.1, wedge_two _ _ (rho_e 0) (by rw [rho_neg', rho_e]) cross_e.2, dot_e.1, dot_e.2,
    Real.arccos_zero] at h
  have e : edgeTerm (Pi.single 0 1 : V3) (-Pi.single 1 1) i j = -edgeTerm (Pi.single 0 1 : V3) (Pi.single 1 1) i j := by
    have hr : rho (cross (Pi.single 0 1 : V3) (-Pi.single 1 1)) = rho (cross (Pi.single 0 1 : V3) (Pi.single 1 1)) := by
      unfold rho cross; simp
    unfold edgeTerm
    rw [hr, dot_e.1, dot_e.2]
    simp only [Pi.neg_apply]
    ring
  rw [e] at h
  have hpi := Real.pi_ne_zero
  split_ifs at h ⊢ <;> field_simp at h ⊢ <;> linarith

theorem ball_real : volume.real unitBall = 4 * Real.pi / 3 := by
  rw [← ball_vol, ballInt_one, Set.univ_inter]

theorem cornerFraction_eq (K : Set V3) : cornerFraction K = 3 / (4 * Real.pi) * ballInt (fun _ => 1) K := by
  rw [cornerFraction, ball_real, ballInt_one]
  have hpi := Real.pi_ne_zero
  field_simp

theorem cornerTensor_eq (K : Set V3) (i j : Fin 3) : cornerTensor K i j = 15 / (4 * Real.pi) * ballInt (fun x => x i * x j) K := by
  rw [cornerTensor, ball_real, ballInt]
  have hpi := Real.pi_ne_zero
  field_simp
  ring

/-! ## Determinants -/

theorem det_cyc (a b c : V3) : det3 a b c = det3 b c a := by
  simp only [det3, dot, cross, Matrix.cons_val_zero, Matrix.cons_val_one, Matrix.cons_val]; ring

theorem det_swap (a b c : V3) : det3 a b c = -det3 a c b := by
  simp only [det3, dot, cross, Matrix.cons_val_zero, Matrix.cons_val_one, Matrix.cons_val]; ring

theorem det_same (a b : V3) : det3 a b b = 0 ∧ det3 b a b = 0 ∧ det3 b b a = 0 := by
  simp only [det3, dot, cross, Matrix.cons_val_zero, Matrix.cons_val_one, Matrix.cons_val]
  refine ⟨by ring, by ring, by ring⟩

theorem cross_ne_of_det {a b c : V3} (h : det3 a b c ≠ 0) : cross b c ≠ 0 := fun h0 => h (by rw [det3, h0]; simp [dot])

/-- Consecutive normals of a convex corner: all the others are on one side. -/
theorem consec {n : ℕ → V3} {k : ℕ} (hc : ConvexOrder n k) {i m : ℕ} (hi : i + 1 < k) (hm : m < k) :
    0 ≤ det3 (n m) (n i) (n (i + 1)) ∧ (m ≠ i → m ≠ i + 1 → 0 < det3 (n m) (n i) (n (i + 1))) := by
  rcases lt_trichotomy m i with h | rfl | h
  · have := hc m i (i + 1) h (by omega) hi
    exact ⟨this.le, fun _ _ => this⟩
  · exact ⟨(det_same _ _).2.2.ge, fun h => absurd rfl h⟩
  · rcases Nat.lt_or_ge (i + 1) m with h2 | h2
    · have := hc i (i + 1) m (by omega) h2 hm
      rw [det_cyc]
      exact ⟨this.le, fun _ _ => this⟩
    · obtain rfl : m = i + 1 := by omega
      exact ⟨(det_same _ _).2.1.ge, fun _ h => absurd rfl h⟩

theorem cross_consec {n : ℕ → V3} {k : ℕ} (hk : 3 ≤ k) (hc : ConvexOrder n k) {i : ℕ} (hi : i + 1 < k) : cross (n (i + 1)) (n i) ≠ 0 := by
  have : ∃ m, m < k ∧ m ≠ i ∧ m ≠ i + 1 := by
    rcases Nat.eq_zero_or_pos i with rfl | h
    · exact ⟨2, by omega, by omega, by omega⟩
    · exact ⟨0, by omega, by omega, by omega⟩
  obtain ⟨m, hm, h1, h2⟩ := this
  have := (consec hc hi hm).2 h1 h2
  rw [det_swap] at this
  exact cross_ne_of_det (a := n m) (by linarith [this] : det3 (n m) (n (i + 1)) (n i) < 0).ne

/-- The formulas of the program on the ordered normals of a convex corner. -/
theorem corner_formulas {n : ℕ → V3} {k : ℕ} (hk : 3 ≤ k) (hu : ∀ i < k, rho (n i) = 1) (hc : ConvexOrder n k) :
    geomAlpha ((List.range k).map n) = cornerFraction (corner n k) ∧
    ∀ i j, cMatrix ((List.range k).map n) i j = cornerTensor (corner n k) i j := by
  obtain ⟨m, rfl⟩ : ∃ m, k = m + 1 + 2 := ⟨k - 3, by omega⟩
  -- outside the corner the sequence does not matter
  set n' : ℕ → V3 := fun i => if i < m + 1 + 2 then n i else Pi.single 0 1 with hn'
  have hnn : ∀ i, i < m + 1 + 2 → n' i = n i := fun i hi => by simp [hn', hi]
  have hne : ∀ i, n' i ≠ 0 := by
    intro i h0
    by_cases hi : i < m + 1 + 2
    · have := hu i hi
      rw [← hnn i hi, h0, rho_zero] at this
      norm_num at this
    · simp only [hn', hi, if_false] at h0
      exact single_ne 0 h0
  have hc' : ConvexOrder n' (m + 1 + 2) := fun i j l h1 h2 h3 => by
    rw [hnn i (by omega), hnn j (by omega), hnn l h3]; exact hc i j l h1 h2 h3
  have hcorner : corner n' (m + 1 + 2) = corner n (m + 1 + 2) := by
    ext x; simp only [corner, Set.mem_ofPred_eq]
    exact forall_congr' fun i => imp_congr_right fun hi => by rw [hnn i hi]
  have hmap : (List.range (m + 1 + 2)).map n = (List.range (m + 1 + 2)).map n' :=
    List.map_congr_left fun i hi => (hnn i (List.mem_range.mp hi)).symm
  have hu' : ∀ i < m + 1 + 2, rho (n' i) = 1 := fun i hi => by rw [hnn i hi]; exact hu i hi
  rw [hmap, ← hcorner]
  clear_value n'
  have hlen : ((List.range (m + 1 + 2)).map n').length = m + 1 + 2 := by simp
  have hget : ∀ i, i < m + 1 + 2 → ((List.range (m + 1 + 2)).map n').getD i 0 = n' i := by
    intro i hi
    rw [List.getD_eq_getElem _ _ (by rw [hlen]; exact hi)]; simp
  have hx : ∀ i, i + 1 < m + 1 + 2 → cross (n' (i + 1)) (n' i) ≠ 0 := fun i hi => cross_consec hk hc' hi
  have hx0 : cross (n' 0) (n' (m + 1 + 1)) ≠ 0 := by
    have h1 := hc' 0 1 (m + 1 + 1) (by omega) (by omega) (by omega)
    rw [det_cyc, det_swap] at h1
    exact cross_ne_of_det (a := n' 1) (by linarith : det3 (n' 1) (n' 0) (n' (m + 1 + 1)) < 0).ne
  have hcyc : ∀ (f : V3 → V3 → ℝ), ∑ i ∈ Finset.range (m + 1 + 2), f (((List.range (m + 1 + 2)).map n').getD i 0)
      (((List.range (m + 1 + 2)).map n').getD (prevIdx (m + 1 + 2) i) 0) =
      ∑ i ∈ Finset.range (m + 1 + 1), f (n' (i + 1)) (n' i) + f (n' 0) (n' (m + 1 + 1)) := by
    intro f
    rw [Finset.sum_range_succ']
    congr 1
    · refine Finset.sum_congr rfl fun i hi => ?_
      rw [Finset.mem_range] at hi
      rw [prevIdx_succ hi, hget _ (by omega), hget _ (by omega)]
    · rw [prevIdx_zero, hget _ (by omega), hget _ (by omega)]
  have hpi := Real.pi_ne_zero
  have hpp := Real.pi_pos
  have halpha : geomAlpha ((List.range (m + 1 + 2)).map n') = cornerFraction (corner n' (m + 1 + 2)) := by
    rw [(C66_alpha _).2 (by rw [hlen]; omega), hlen, cornerFraction_eq, corner_int continuous_const (fun _ => rfl) n' hne (m + 1) hc',
      hcyc fun a b => Real.arccos (dot a b), wedge_one _ _ (hu' _ (by omega)) (hu' _ (by omega)) hx0, ball_vol]
    rw [Finset.sum_congr rfl fun i hi => wedge_one _ _ (hu' _ (by rw [Finset.mem_range] at hi; omega))
      (hu' _ (by rw [Finset.mem_range] at hi; omega)) (hx i (by rw [Finset.mem_range] at hi; omega))]
    rw [← Finset.mul_sum, Finset.sum_sub_distrib, Finset.sum_const, Finset.card_range, nsmul_eq_mul]
    push_cast
    field_simp
    ring
  refine ⟨halpha, fun i j => ?_⟩
  rw [C66_tensor _ (by
    intro v hv
    obtain ⟨q, hq, rfl⟩ := List.mem_map.mp hv
    exact hu' q (List.mem_range.mp hq)) (by rw [hlen]; omega), hlen, hcyc fun a b => edgeTerm a b i j, cornerTensor_eq,
    corner_int (by fun_prop) (fun x => by simp) n' hne (m + 1) hc', wedge_two _ _ (hu' _ (by omega)) (hu' _ (by omega)) hx0, ball_mom]
  rw [Finset.sum_congr rfl fun q hq => wedge_two _ _ (hu' _ (by rw [Finset.mem_range] at hq; omega))
      (hu' _ (by rw [Finset.mem_range] at hq; omega)) (hx q (by rw [Finset.mem_range] at hq; omega)) i j]
  rw [(C66_alpha _).2 (by rw [hlen]; omega), hlen, hcyc fun a b => Real.arccos (dot a b)]
  rw [← Finset.mul_sum, Finset.sum_sub_distrib, ← Finset.mul_sum]
  by_cases hij : i = j
  · simp only [hij, if_true]
    rw [← Finset.sum_div, Finset.sum_sub_distrib, Finset.sum_const, Finset.card_range, nsmul_eq_mul]
    push_cast
    field_simp
    ring
  · simp only [hij, if_false, Finset.sum_const_zero]
    push_cast
    field_simp
    ring

/-! ## The order found by the program -/

theorem fold_dot (U : List V3) (c : ℝ) (s v : V3) :
    dot (U.foldl (fun s u => s + fun d => u d * c) s) v = dot s v + c * (U.map fun u => dot u v).sum := by
  induction U generalizing s with
  | nil => simp
  | cons u U ih =>
    rw [List.foldl_cons, ih, List.map_cons, List.sum_cons]
    simp only [dot, Pi.add_apply]
    ring

theorem dot_zero_left (v : V3) : dot (0 : V3) v = 0 := by simp [dot]

/-- The average normal is a positive multiple of the sum of the normals, if the sum is not zero. -/
theorem avg_pos (U : List V3) (v0 : V3) (h0 : 0 < (U.map fun u => dot u v0).sum) :
    averageNormal U ≠ 0 ∧ ∃ c > 0, ∀ v, dot (averageNormal U) v = c * (U.map fun u => dot u v).sum := by
  set s := U.foldl (fun s u => s + fun d => u d * (1 / (U.length : ℝ))) 0 with hs
  have hlen : 0 < (U.length : ℝ) := by
    rcases U with _ | ⟨u, U⟩
    · simp at h0
    · simp; positivity
  have hd : ∀ v, dot s v = 1 / (U.length : ℝ) * (U.map fun u => dot u v).sum := by
    intro v; rw [hs, fold_dot]; simp [dot]
  have hs0 : s ≠ 0 := by
    intro h
    have := hd v0
    rw [h] at this
    have h2 : 0 < 1 / (U.length : ℝ) * (U.map fun u => dot u v0).sum := by positivity
    rw [dot_zero_left] at this
    linarith
  have hr : 0 < rho s := lt_of_le_of_ne (rho_nonneg _) fun h => hs0 (rho_eq_zero.1 h.symm)
  have ha : ∀ d, averageNormal U d = s d / rho s := fun d => rfl
  have hdot : ∀ v, dot (averageNormal U) v = 1 / (U.length : ℝ) / rho s * (U.map fun u => dot u v).sum := by
    intro v
    have : dot (averageNormal U) v = dot s v / rho s := by simp only [dot, ha]; ring
    rw [this, hd]; ring
  refine ⟨fun h => ?_, 1 / (U.length : ℝ) / rho s, by positivity, hdot⟩
  have := hdot v0
  rw [h] at this
  have h2 : 0 < 1 / (U.length : ℝ) / rho s * (U.map fun u => dot u v0).sum := by positivity
  rw [dot_zero_left] at this
  linarith

theorem pick_unique (avg prev : V3) (R : List (V3 × V3)) (p0 : ℕ) (hp0 : p0 < R.length)
    (hq : 0 < dot avg (cross prev (R.getD p0 (0, 0)).2))
    (hmin : ∀ p < R.length, p ≠ p0 → 0 < dot avg (cross prev (R.getD p (0, 0)).2) →
      Real.arccos (dot prev (R.getD p0 (0, 0)).2) < Real.arccos (dot prev (R.getD p (0, 0)).2)) :
    pickIndex avg prev R = p0 := by
  classical
  let A : ℕ → ℝ := fun p => Real.arccos (dot prev (R.getD p (0, 0)).2)
  have hA : A p0 < 100 := by
    have := Real.arccos_le_pi (dot prev (R.getD p0 (0, 0)).2)
    have := Real.pi_le_four
    show Real.arccos _ < 100
    linarith
  have key : ∀ m, m ≤ R.length → let s := (List.range m).foldl (fun (s : ℝ × ℕ) p =>
      let q := (R.getD p (0, 0)).2
      let quadrant := dot avg (cross prev q)
      let sorter := Real.arccos (dot prev q)
      if quadrant > 0 ∧ sorter < s.1 then (sorter, p) else s) (100, 0)
      (m ≤ p0 → A p0 < s.1) ∧ (p0 < m → s = (A p0, p0)) := by
    intro m
    induction m with
    | zero => intro _; exact ⟨fun _ => hA, fun h => absurd h (Nat.not_lt_zero _)⟩
    | succ m ih =>
      intro hm
      obtain ⟨i1, i2⟩ := ih (by omega)
      simp only [List.range_succ, List.foldl_append, List.foldl_cons, List.foldl_nil]
      set s := (List.range m).foldl (fun (s : ℝ × ℕ) p =>
        if dot avg (cross prev (R.getD p (0, 0)).2) > 0 ∧ Real.arccos (dot prev (R.getD p (0, 0)).2) < s.1
        then (Real.arccos (dot prev (R.getD p (0, 0)).2), p) else s) (100, 0) with hs
      refine ⟨fun h => ?_, fun h => ?_⟩
      · split
        · rename_i hc
          exact hmin m (by omega) (by omega) hc.1
        · exact i1 (by omega)
      · rcases Nat.lt_succ_iff_lt_or_eq.mp h with h | rfl
        · rw [i2 h]
          rw [if_neg]
          rintro ⟨h1, h2⟩
          exact absurd h2 (not_lt.mpr (hmin m (by omega) (by omega) h1).le)
        · rw [if_pos ⟨hq, i1 (le_refl _)⟩]
  have := (key R.length (le_refl _)).2 hp0
  exact congrArg Prod.snd this

theorem proj_eq {a n : V3} (d : Fin 3) : projected a n d = (n d - dot a n * a d) / rho (perp a n) := by
  show perp a n d / rho (perp a n) = _
  rw [perp_eq]

/-- The determinants with the average normal have the signs of those of the projections. -/
theorem proj_det (a x y : V3) : det3 a (projected a x) (projected a y) = det3 a x y / (rho (perp a x) * rho (perp a y)) := by
  simp only [det3, dot, cross, proj_eq, Matrix.cons_val_zero, Matrix.cons_val_one, Matrix.cons_val]
  ring

theorem perp_ne {a x y : V3} (h : det3 a x y ≠ 0) : 0 < rho (perp a x) ∧ 0 < rho (perp a y) := by
  refine ⟨lt_of_le_of_ne (rho_nonneg _) fun h0 => h ?_, lt_of_le_of_ne (rho_nonneg _) fun h0 => h ?_⟩
  · have h1 := rho_eq_zero.1 h0.symm
    have h2 : ∀ d, x d = dot a x * a d := fun d => by have := congrFun h1 d; rw [perp_eq] at this; simpa [sub_eq_zero] using this
    have : x = fun d => dot a x * a d := funext h2
    rw [this]
    simp only [det3, dot, cross, Matrix.cons_val_zero, Matrix.cons_val_one, Matrix.cons_val]
    ring
  · have h1 := rho_eq_zero.1 h0.symm
    have h2 : ∀ d, y d = dot a y * a d := fun d => by have := congrFun h1 d; rw [perp_eq] at this; simpa [sub_eq_zero] using this
    have : y = fun d => dot a y * a d := funext h2
    rw [this]
    simp only [det3, dot, cross, Matrix.cons_val_zero, Matrix.cons_val_one, Matrix.cons_val]
    ring

theorem proj_unit {a x : V3} (h : 0 < rho (perp a x)) : dot (projected a x) (projected a x) = 1 := by
  have : projected a x = fun d => perp a x d / rho (perp a x) := rfl
  rw [this]
  have h2 := rho_sq (perp a x)
  simp only [dot]
  field_simp
  linarith

theorem proj_orth {a x : V3} (ha : dot a a = 1) : dot a (projected a x) = 0 := by
  have e : dot a (projected a x) = (dot a x - dot a x * dot a a) / rho (perp a x) := by
    simp only [dot, proj_eq]
    ring
  rw [e, ha, mul_one, sub_self, zero_div]

/-- Angles in a half plane: the turn decides. -/
theorem angle_lt {a p q r : V3} (ha : dot a a = 1) (hp : dot p p = 1) (hq : dot q q = 1) (hr : dot r r = 1) (ap : dot a p = 0) (aq : dot a q = 0)
    (ar : dot a r = 0) (h1 : 0 < det3 a p q) (h2 : 0 < det3 a p r) (h3 : 0 < det3 a q r) : Real.arccos (dot p q) < Real.arccos (dot p r) := by
  have lag : ∀ u v : V3, dot a u = 0 → dot a v = 0 → det3 a u v ^ 2 = dot u u * dot v v - dot u v ^ 2 := by
    intro u v hu hv
    have : det3 a u v ^ 2 = dot a a * (dot u u * dot v v - dot u v ^ 2) - dot u u * dot a v ^ 2 - dot v v * dot a u ^ 2 +
        2 * dot a u * dot a v * dot u v := by
      simp only [det3, dot, cross, Matrix.cons_val_zero, Matrix.cons_val_one, Matrix.cons_val]
      ring
    rw [this, ha, hu, hv]; ring
  have cs1 := lag p q ap aq
  have cs2 := lag p r ap ar
  rw [hp, hq] at cs1
  rw [hp, hr] at cs2
  have turn : dot p q * det3 a p r - dot p r * det3 a p q = det3 a q r := by
    have : dot p q * det3 a p r - dot p r * det3 a p q = dot p p * det3 a q r - dot a p * det3 p q r := by
      simp only [det3, dot, cross, Matrix.cons_val_zero, Matrix.cons_val_one, Matrix.cons_val]
      ring
    rw [this, hp, ap]; ring
  set c := dot p q
  set c' := dot p r
  set s := det3 a p q
  set s' := det3 a p r
  have hlt : c' < c := by
    by_contra hle
    push Not at hle
    rcases le_or_gt 0 c with h0 | h0
    · have : s' ≤ s := by nlinarith
      nlinarith
    · rcases le_or_gt 0 c' with h4 | h4
      · nlinarith
      · have : s ≤ s' := by nlinarith
        nlinarith
  exact Real.arccos_lt_arccos (by nlinarith) hlt (by nlinarith)

/-- The averages of the normals are strictly inside. -/
theorem avg_consec {n : ℕ → V3} {k : ℕ} (hk : 3 ≤ k) (hc : ConvexOrder n k) {U : List V3} (hU : U.Perm ((List.range k).map n)) {i : ℕ} (hi : i + 1 < k) :
    0 < (U.map fun u => dot u (cross (n i) (n (i + 1)))).sum := by
  have : ∃ m, m < k ∧ m ≠ i ∧ m ≠ i + 1 := by
    rcases Nat.eq_zero_or_pos i with rfl | h
    · exact ⟨2, by omega, by omega, by omega⟩
    · exact ⟨0, by omega, by omega, by omega⟩
  obtain ⟨m, hm, h1, h2⟩ := this
  rw [(hU.map _).sum_eq, List.map_map, sum_list_range]
  refine Finset.sum_pos' (fun q hq => (consec hc hi (Finset.mem_range.mp hq)).1) ⟨m, Finset.mem_range.mpr hm, (consec hc hi hm).2 h1 h2⟩

theorem avg_det {n : ℕ → V3} {k : ℕ} (hk : 3 ≤ k) (hc : ConvexOrder n k) {U : List V3} (hU : U.Perm ((List.range k).map n)) :
    averageNormal U ≠ 0 ∧ ∀ i, i + 1 < k → 0 < det3 (averageNormal U) (n i) (n (i + 1)) := by
  have h0 := avg_consec hk hc hU (i := 0) (by omega)
  obtain ⟨h1, c, hc0, h2⟩ := avg_pos U _ h0
  refine ⟨h1, fun i hi => ?_⟩
  rw [det3, h2]
  exact mul_pos hc0 (avg_consec hk hc hU hi)

/-- Among the later normals in the half plane, the next one comes first. -/
theorem next_first {n : ℕ → V3} {k : ℕ} (hc : ConvexOrder n k) {a : V3} (ha : ∀ i, i + 1 < k → 0 < det3 a (n i) (n (i + 1))) {i j : ℕ}
    (hij : i + 1 < j) (hj : j < k) (h : 0 < det3 a (n i) (n j)) : 0 < det3 a (n (i + 1)) (n j) := by
  by_contra hle
  push Not at hle
  obtain ⟨q, rfl⟩ : ∃ q, j = q + 1 := ⟨j - 1, by omega⟩
  have p1 := (consec hc (i := q) (m := i) hj (by omega)).1
  have p2 := (consec hc (i := q) (m := i + 1) hj (by omega)).1
  have p3 := ha q hj
  have p4 := hc i (i + 1) (q + 1) (by omega) (by omega) hj
  have id : det3 (n i) (n q) (n (q + 1)) * -det3 a (n (i + 1)) (n (q + 1)) + det3 (n (i + 1)) (n q) (n (q + 1)) * det3 a (n i) (n (q + 1)) +
      det3 a (n q) (n (q + 1)) * det3 (n i) (n (i + 1)) (n (q + 1)) = 0 := by
    simp only [det3, dot, cross, Matrix.cons_val_zero, Matrix.cons_val_one, Matrix.cons_val]
    ring
  nlinarith [mul_nonneg p1 (neg_nonneg.mpr hle), mul_nonneg p2 h.le, mul_pos p3 p4]

theorem orderLoop_convex {n : ℕ → V3} {k : ℕ} (hc : ConvexOrder n k) (hinj : ∀ i < k, ∀ j < k, n i = n j → i = j) {a : V3} (ha1 : dot a a = 1)
    (ha : ∀ i, i + 1 < k → 0 < det3 a (n i) (n (i + 1))) (m : ℕ) :
    ∀ i, i + 1 + m = k → ∀ R : List V3, R.Perm ((List.range' (i + 1) m).map n) →
      orderLoop a m (projected a (n i)) (R.map fun v => (v, projected a v)) = (List.range' (i + 1) m).map n := by
  induction m with
  | zero => intro i _ R _; rfl
  | succ m ih =>
    intro i hik R hR
    have hlen : R.length = m + 1 := by rw [hR.length_eq]; simp
    set R' := R.map fun v => (v, projected a v) with hR'
    have hlen' : R'.length = R.length := by simp [hR']
    have hget : ∀ p, (hp : p < R.length) → R'.getD p (0, 0) = (R[p], projected a R[p]) := by
      intro p hp
      rw [List.getD_eq_getElem _ _ (by rw [hlen']; exact hp)]
      simp [hR']
    have hnd : R.Nodup := by
      rw [hR.nodup_iff, List.nodup_map_iff_inj_on List.nodup_range']
      intro x hx y hy he
      rw [List.mem_range'_1] at hx hy
      exact hinj x (by omega) y (by omega) he
    obtain ⟨p0, hp0, hp0'⟩ := List.mem_iff_getElem.1 (hR.mem_iff.2 (List.mem_map.2 ⟨i + 1, by rw [List.mem_range'_1]; omega, rfl⟩))
    have hd0 : 0 < det3 a (n i) (n (i + 1)) := ha i (by omega)
    have hpick : pickIndex a (projected a (n i)) R' = p0 := by
      refine pick_unique _ _ _ _ (by rw [hlen']; exact hp0) ?_ ?_
      · rw [hget p0 hp0, hp0']
        show 0 < det3 a _ _
        rw [proj_det]
        have := perp_ne hd0.ne'
        exact div_pos hd0 (mul_pos this.1 this.2)
      · intro p hp hpp hq
        rw [hlen'] at hp
        rw [hget p hp] at hq ⊢
        rw [hget p0 hp0, hp0']
        obtain ⟨j, hj, hj'⟩ := List.mem_map.1 (hR.mem_iff.1 (List.getElem_mem hp))
        rw [List.mem_range'_1] at hj
        have hj1 : j ≠ i + 1 := by
          rintro rfl
          rw [← hp0'] at hj'
          exact hpp ((List.Nodup.getElem_inj_iff hnd).1 hj'.symm)
        rw [← hj'] at hq ⊢
        change 0 < det3 a _ _ at hq
        have hdj : 0 < det3 a (n i) (n j) := by
          rw [proj_det] at hq
          by_contra hle
          push Not at hle
          exact absurd hq (not_lt.mpr (div_nonpos_of_nonpos_of_nonneg hle (mul_nonneg (rho_nonneg _) (rho_nonneg _))))
        have hd1 := next_first hc ha (i := i) (j := j) (by omega) (by omega) hdj
        have q1 := perp_ne hd0.ne'
        have q2 := perp_ne hdj.ne'
        refine angle_lt ha1 (proj_unit q1.1) (proj_unit q1.2) (proj_unit q2.2) (proj_orth ha1) (proj_orth ha1) (proj_orth ha1) ?_ hq ?_
        · rw [proj_det]; exact div_pos hd0 (mul_pos q1.1 q1.2)
        · rw [proj_det]; exact div_pos hd1 (mul_pos q1.2 q2.2)
    unfold orderLoop
    rw [hpick]
    simp only [hget p0 hp0, hp0']
    rw [List.range'_succ, List.map_cons]
    congr 1
    have herase : R'.eraseIdx p0 = (R.eraseIdx p0).map fun v => (v, projected a v) := by rw [hR', List.eraseIdx_map]
    rw [herase]
    refine ih (i + 1) (by omega) _ ?_
    have hperm : (R[p0] :: R.eraseIdx p0).Perm (n (i + 1) :: (List.range' (i + 1 + 1) m).map n) := by
      refine (List.getElem_cons_eraseIdx_perm hp0).trans (hR.trans ?_)
      rw [List.range'_succ, List.map_cons]
    rw [hp0'] at hperm
    exact (List.perm_cons _).1 hperm

/-- Rotating the sequence of the faces. -/
theorem convex_rotate {n : ℕ → V3} {k : ℕ} (hc : ConvexOrder n k) (t : ℕ) (ht : t < k) : ConvexOrder (fun i => n ((i + t) % k)) k := by
  intro i j l hij hjl hl
  have hmod : ∀ x, x < k → (x + t) % k = if x + t < k then x + t else x + t - k := by
    intro x hx
    split
    · rename_i h; exact Nat.mod_eq_of_lt h
    · rename_i h; rw [Nat.mod_eq_sub_mod (by omega), Nat.mod_eq_of_lt (by omega)]
  simp only [hmod i (by omega), hmod j (by omega), hmod l hl]
  by_cases h1 : l + t < k
  · rw [if_pos (by omega), if_pos (by omega), if_pos h1]
    exact hc _ _ _ (by omega) (by omega) (by omega)
  · by_cases h2 : j + t < k
    · rw [if_pos (by omega), if_pos h2, if_neg h1, ← det_cyc]
      exact hc _ _ _ (by omega) (by omega) (by omega)
    · by_cases h3 : i + t < k
      · rw [if_pos h3, if_neg h2, if_neg h1, det_cyc]
        exact hc _ _ _ (by omega) (by omega) (by omega)
      · rw [if_neg h3, if_neg h2, if_neg h1]
        exact hc _ _ _ (by omega) (by omega) (by omega)

theorem rotate_mem (n : ℕ → V3) {k : ℕ} (t : ℕ) (P : V3 → Prop) : (∀ i < k, P (n ((i + t) % k))) ↔ ∀ i < k, P (n i) := by
  constructor
  · intro h i hi
    have := h ((i + k * t - t) % k) (Nat.mod_lt _ (by omega))
    have e : ((i + k * t - t) % k + t) % k = i := by
      rw [Nat.mod_add_mod]
      have : t ≤ k * t := Nat.le_mul_of_pos_left _ (by omega)
      rw [show i + k * t - t + t = i + k * t by omega, Nat.add_mul_mod_self_left, Nat.mod_eq_of_lt hi]
    rwa [e] at this
  · intro h i hi
    exact h _ (Nat.mod_lt _ (by omega))

/-- A node at a convex corner of the domain: the normals `n 0, …, n (k-1)` of the `k ≥ 3` faces that meet there, in order around the
corner, as unit vectors; every three of them, in this order, are positively oriented. -/
structure ConvexCorner (n : ℕ → V3) (k : ℕ) : Prop where
  three : 3 ≤ k
  unit : ∀ i < k, rho (n i) = 1
  order : ConvexOrder n k

theorem convex_inj {n : ℕ → V3} {k : ℕ} (h : ConvexCorner n k) : ∀ i < k, ∀ j < k, n i = n j → i = j := by
  have key : ∀ i j, i < j → j < k → n i ≠ n j := by
    intro i j hij hj he
    have h3 := h.three
    by_cases h1 : 0 < i
    · have := h.order 0 i j h1 hij hj
      rw [he, (det_same _ _).1] at this
      exact lt_irrefl _ this
    · by_cases h2 : j + 1 < k
      · have := h.order i j (j + 1) hij (by omega) h2
        rw [he, (det_same _ _).2.2] at this
        exact lt_irrefl _ this
      · have := h.order i (i + 1) j (by omega) (by omega) hj
        rw [he, (det_same _ _).2.1] at this
        exact lt_irrefl _ this
  intro i hi j hj he
  rcases lt_trichotomy i j with h1 | h1 | h1
  · exact absurd he (key i j h1 hj)
  · exact h1
  · exact absurd he.symm (key j i h1 hi)

/-- The normals kept are those of the faces. -/
theorem unique_perm {n : ℕ → V3} {k : ℕ} (h : ConvexCorner n k) (hsep : ∀ i < k, ∀ j < k, i ≠ j → 1e-5 ≤ rho (n i - n j)) (L : List V3)
    (hL : ∀ v, v ∈ L ↔ ∃ i < k, v = n i) : (uniqueNormals L).Perm ((List.range k).map n) := by
  obtain ⟨h1, h2, h3⟩ := C66_unique_normals L
  have hnd : (uniqueNormals L).Nodup := by
    refine h3.imp fun {u v} huv he => ?_
    rw [he, sub_self, rho_zero] at huv
    norm_num at huv
  have hnd' : ((List.range k).map n).Nodup := by
    rw [List.nodup_map_iff_inj_on List.nodup_range]
    intro x hx y hy he
    exact convex_inj h x (List.mem_range.mp hx) y (List.mem_range.mp hy) he
  rw [List.perm_ext_iff_of_nodup hnd hnd']
  intro v
  rw [List.mem_map]
  constructor
  · intro hv
    obtain ⟨i, hi, rfl⟩ := (hL v).1 (h1 v hv)
    exact ⟨i, List.mem_range.mpr hi, rfl⟩
  · rintro ⟨i, hi, rfl⟩
    rw [List.mem_range] at hi
    obtain ⟨u, hu, hr⟩ := h2 (n i) ((hL _).2 ⟨i, hi, rfl⟩)
    obtain ⟨j, hj, rfl⟩ := (hL u).1 (h1 u hu)
    by_cases hij : i = j
    · rw [hij]; exact hu
    · exact absurd hr (not_lt.mpr (hsep i hi j hj hij))

/-- **C66** (convex corners). At a node where any number `k ≥ 3` of flat faces meet in a convex corner of the domain (normals of different
faces at least `1e-5` apart), in whatever order and multiplicity the normals of the cells are collected, `hyp_alpha` is the fraction of the
directions inside the domain and the tensor is `3/(4π)` times the integral of `ω ωᵀ` on the directions inside the domain. -/
theorem C66_convex_corner (n : ℕ → V3) (k : ℕ) (h : ConvexCorner n k) (hsep : ∀ i < k, ∀ j < k, i ≠ j → 1e-5 ≤ rho (n i - n j))
    (L : List V3) (hL : ∀ v, v ∈ L ↔ ∃ i < k, v = n i) :
    freeCoeffs L = (cornerFraction {x | ∀ i < k, dot x (n i) < 0}, cornerTensor {x | ∀ i < k, dot x (n i) < 0}) := by
  have hU := unique_perm h hsep L hL
  have hk := h.three
  -- start from the first normal kept
  obtain ⟨u, R, hur⟩ : ∃ u R, uniqueNormals L = u :: R := by
    cases hx : uniqueNormals L with
    | nil => have := hU.length_eq; rw [hx] at this; simp at this; omega
    | cons u R => exact ⟨u, R, rfl⟩
  obtain ⟨t, ht, htu⟩ := List.mem_map.1 (hU.mem_iff.1 (by rw [hur]; simp : u ∈ uniqueNormals L))
  rw [List.mem_range] at ht
  set n' : ℕ → V3 := fun i => n ((i + t) % k) with hn'
  have hcorner : {x : V3 | ∀ i < k, dot x (n i) < 0} = corner n' k := by
    ext x
    simp only [corner, Set.mem_ofPred_eq, hn']
    exact (rotate_mem n t fun v => dot x v < 0).symm
  have h' : ConvexCorner n' k := ⟨hk, fun i hi => h.unit _ (Nat.mod_lt _ (by omega)), convex_rotate h.order t ht⟩
  have hn0 : n' 0 = u := by simp only [hn', Nat.zero_add, Nat.mod_eq_of_lt ht, htu]
  have hsep' : ∀ i < k, ∀ j < k, i ≠ j → 1e-5 ≤ rho (n' i - n' j) := by
    intro i hi j hj hij
    refine hsep _ (Nat.mod_lt _ (by omega)) _ (Nat.mod_lt _ (by omega)) fun he => hij ?_
    exact convex_inj h' i hi j hj (by simp only [hn', he])
  have hL' : ∀ v, v ∈ L ↔ ∃ i < k, v = n' i := by
    intro v
    rw [hL]
    have := rotate_mem n (k := k) t fun w => v ≠ w
    constructor
    · rintro ⟨i, hi, he⟩
      by_contra hno
      push Not at hno
      exact this.1 (fun i hi => hno i hi) i hi he
    · rintro ⟨i, hi, he⟩
      exact ⟨_, Nat.mod_lt _ (by omega), he⟩
  have hU' := unique_perm h' hsep' L hL'
  obtain ⟨ha0, ha⟩ := avg_det hk h'.order hU'
  have hord : orderedNormals (uniqueNormals L) = (List.range k).map n' := by
    have ha1 := avg_unit _ ha0
    rw [hur] at hU' ha ha1 ⊢
    obtain ⟨m, rfl⟩ : ∃ m, k = m + 1 := ⟨k - 1, by omega⟩
    have hRp : R.Perm ((List.range' (0 + 1) m).map n') := by
      rw [List.range_eq_range', List.range'_succ, List.map_cons, hn0] at hU'
      exact (List.perm_cons _).1 hU'
    have hRl : R.length = m := by rw [hRp.length_eq]; simp
    have := orderLoop_convex h'.order (convex_inj h') ha1 ha m 0 (by omega) R hRp
    rw [hn0] at this
    rw [orderedNormals, hRl, this, List.range_eq_range', List.range'_succ, List.map_cons, hn0]
  obtain ⟨f1, f2⟩ := corner_formulas hk h'.unit h'.order
  rw [hcorner]
  unfold freeCoeffs
  simp only [hord]
  rw [f1]
  congr 1
  funext i j
  exact f2 i j

/-- **C66** (concave corners). At a node where the domain is the complement of a convex corner the values are those of the corner
outside the domain: `hyp_alpha` is one minus the fraction of the directions inside the domain and the tensor is the identity minus the integral
on the directions inside the domain. `n`: the normals pointing out of the corner that is not in the domain. -/
theorem C66_concave_corner (n : ℕ → V3) (k : ℕ) (h : ConvexCorner n k) (hsep : ∀ i < k, ∀ j < k, i ≠ j → 1e-5 ≤ rho (n i - n j))
    (L : List V3) (hL : ∀ v, v ∈ L ↔ ∃ i < k, v = -n i) :
    freeCoeffs L = (1 - cornerFraction {x | ∀ i < k, dot x (n i) < 0}ᶜ,
      fun i j => (if i = j then 1 else 0) - cornerTensor {x | ∀ i < k, dot x (n i) < 0}ᶜ i j) := by
  have hk := h.three
  set n' : ℕ → V3 := fun i => -n (k - 1 - i) with hn'
  have h' : ConvexCorner n' k := by
    refine ⟨hk, fun i hi => ?_, fun i j l hij hjl hl => ?_⟩
    · simp only [hn', rho_neg']; exact h.unit _ (by omega)
    · have := h.order (k - 1 - l) (k - 1 - j) (k - 1 - i) (by omega) (by omega) (by omega)
      have e : det3 (n' i) (n' j) (n' l) = det3 (n (k - 1 - l)) (n (k - 1 - j)) (n (k - 1 - i)) := by
        simp only [hn', det3, dot, cross, Pi.neg_apply, Matrix.cons_val_zero, Matrix.cons_val_one, Matrix.cons_val]
        ring
      rw [e]; exact this
  have hsep' : ∀ i < k, ∀ j < k, i ≠ j → 1e-5 ≤ rho (n' i - n' j) := by
    intro i hi j hj hij
    have := hsep (k - 1 - j) (by omega) (k - 1 - i) (by omega) (by omega)
    have e : n' i - n' j = n (k - 1 - j) - n (k - 1 - i) := by simp only [hn']; abel
    rw [e]; exact this
  have hL' : ∀ v, v ∈ L ↔ ∃ i < k, v = n' i := by
    intro v
    rw [hL]
    constructor
    · rintro ⟨i, hi, rfl⟩
      exact ⟨k - 1 - i, by omega, by simp only [hn']; rw [show k - 1 - (k - 1 - i) = i by omega]⟩
    · rintro ⟨i, hi, rfl⟩
      exact ⟨k - 1 - i, by omega, rfl⟩
  rw [C66_convex_corner n' k h' hsep' L hL']
  have hset : {x : V3 | ∀ i < k, dot x (n' i) < 0} = -{x : V3 | ∀ i < k, dot x (n i) < 0} := by
    ext x
    simp only [Set.mem_ofPred_eq, Set.mem_neg, hn']
    constructor
    · intro hx i hi
      have := hx (k - 1 - i) (by omega)
      rw [show k - 1 - (k - 1 - i) = i by omega] at this
      simp only [dot, Pi.neg_apply] at this ⊢
      linarith
    · intro hx i hi
      have := hx (k - 1 - i) (by omega)
      simp only [dot, Pi.neg_apply] at this ⊢
      linarith
  have hm : MeasurableSet {x : V3 | ∀ i < k, dot x (n i) < 0} := meas_corner n k
  have hcompl : ∀ g : V3 → ℝ, Continuous g → ballInt g Set.univ =
      ballInt g {x : V3 | ∀ i < k, dot x (n i) < 0} + ballInt g {x : V3 | ∀ i < k, dot x (n i) < 0}ᶜ := by
    intro g hg
    unfold ballInt
    have hd : Disjoint ({x : V3 | ∀ i < k, dot x (n i) < 0} ∩ unitBall) ({x : V3 | ∀ i < k, dot x (n i) < 0}ᶜ ∩ unitBall) :=
      Set.disjoint_left.mpr fun x hx hx' => hx'.1 hx.1
    rw [← setIntegral_union hd (hm.compl.inter meas_ball) (ball_int hg _) (ball_int hg _), ← Set.union_inter_distrib_right, Set.union_compl_self]
  have hpi := Real.pi_ne_zero
  rw [hset]
  have e1 : cornerFraction (-{x : V3 | ∀ i < k, dot x (n i) < 0}) = 1 - cornerFraction {x | ∀ i < k, dot x (n i) < 0}ᶜ := by
    have := hcompl (fun _ => 1) continuous_const
    rw [ball_vol] at this
    rw [cornerFraction_eq, cornerFraction_eq, ballInt_neg (fun _ => rfl)]
    field_simp
    linarith
  have e2 : ∀ i j, cornerTensor (-{x : V3 | ∀ i < k, dot x (n i) < 0}) i j =
      (if i = j then 1 else 0) - cornerTensor {x | ∀ i < k, dot x (n i) < 0}ᶜ i j := by
    intro i j
    have := hcompl (fun x => x i * x j) (by fun_prop)
    rw [ball_mom] at this
    rw [cornerTensor_eq, cornerTensor_eq, ballInt_neg (fun x => by simp)]
    split_ifs at this ⊢ <;> field_simp <;> linarith
  rw [e1]
  congr 1
  funext i j
  exact e2 i j

/-- **C66**, refutation. The free coefficients of nodes at concave corners are never the ones of the domain: `hyp_alpha` is always too small. -/
theorem C66_concave_refuted (n : ℕ → V3) (k : ℕ) (h : ConvexCorner n k) (hsep : ∀ i < k, ∀ j < k, i ≠ j → 1e-5 ≤ rho (n i - n j))
    (L : List V3) (hL : ∀ v, v ∈ L ↔ ∃ i < k, v = -n i) : (freeCoeffs L).1 < cornerFraction {x | ∀ i < k, dot x (n i) < 0}ᶜ := by
  have hk := h.three
  have hx := cross_consec hk h.order (i := 0) (by omega)
  rw [C66_concave_corner n k h hsep L hL]
  have hle : volume.real ({x : V3 | ∀ i < k, dot x (n i) < 0} ∩ unitBall) ≤ volume.real (inner (n 1) ∩ inner (n 0) ∩ unitBall) := by
    refine measureReal_mono ?_ ?_
    · rintro x ⟨h1, h2⟩
      exact ⟨⟨h1 1 (by omega), h1 0 (by omega)⟩, h2⟩
    · refine ((measure_mono (Set.inter_subset_right.trans ball_subset)).trans_lt ?_).ne
      exact isCompact_Icc.measure_lt_top
  rw [← ballInt_one (inner (n 1) ∩ inner (n 0)), wedge_one _ _ (h.unit 1 (by omega)) (h.unit 0 (by omega)) hx] at hle
  have hcs : dot (n 1) (n 0) < 1 := by
    have h1 := rho_cross (n 1) (n 0)
    rw [dot_self, dot_self, h.unit 1 (by omega), h.unit 0 (by omega)] at h1
    have h2 : 0 < rho (cross (n 1) (n 0)) := lt_of_le_of_ne (rho_nonneg _) fun h => hx (rho_eq_zero.1 h.symm)
    nlinarith
  have hac := Real.arccos_pos.mpr hcs
  have hpp := Real.pi_pos
  have hfin : volume unitBall ≠ ⊤ := ((measure_mono ball_subset).trans_lt isCompact_Icc.measure_lt_top).ne
  have hc : volume.real ({x : V3 | ∀ i < k, dot x (n i) < 0}ᶜ ∩ unitBall) =
      volume.real unitBall - volume.real ({x : V3 | ∀ i < k, dot x (n i) < 0} ∩ unitBall) := by
    have e : {x : V3 | ∀ i < k, dot x (n i) < 0}ᶜ ∩ unitBall = unitBall \ ({x : V3 | ∀ i < k, dot x (n i) < 0} ∩ unitBall) := by
      ext x; simp only [Set.mem_inter_iff, Set.mem_compl_iff, Set.mem_sdiff]; tauto
    rw [e]
    exact measureReal_sdiff Set.inter_subset_right ((meas_corner n k).inter meas_ball) hfin
  have : 1 / 2 < cornerFraction {x : V3 | ∀ i < k, dot x (n i) < 0}ᶜ := by
    rw [cornerFraction, hc, ball_real, lt_div_iff₀ (by positivity)]
    linarith
  show 1 - _ < _
  linarith

/-- Non-vacuity: the corner of a cube, where `hyp_alpha` is `1/8`. -/
theorem C66_cube_corner : ∃ n : ℕ → V3, ConvexCorner n 3 ∧ (∀ i < 3, ∀ j < 3, i ≠ j → (1e-5 : ℝ) ≤ rho (n i - n j)) ∧
    (freeCoeffs [n 0, n 1, n 2]).1 = 1 / 8 := by
  let n : ℕ → V3 := fun i => if i = 0 then ![1, 0, 0] else if i = 1 then ![0, 1, 0] else ![0, 0, 1]
  have hu : ∀ i < 3, rho (n i) = 1 := by
    intro i hi; interval_cases i <;> simp [n, rho]
  have hc : ConvexOrder n 3 := by
    intro i j l h1 h2 h3
    obtain ⟨rfl, rfl, rfl⟩ : i = 0 ∧ j = 1 ∧ l = 2 := by omega
    simp [n, det3, dot, cross]
  have hs : ∀ i < 3, ∀ j < 3, i ≠ j → (1e-5 : ℝ) ≤ rho (n i - n j) := by
    intro i hi j hj hij
    have h1 : (1e-5 : ℝ) ≤ Real.sqrt (1 + 1) := Real.le_sqrt_of_sq_le (by norm_num)
    interval_cases i <;> interval_cases j <;> simp [n, rho] at hij ⊢ <;> norm_num at h1 ⊢ <;> linarith
  refine ⟨n, ⟨le_refl _, hu, hc⟩, hs, ?_⟩
  have hL : ∀ v, v ∈ [n 0, n 1, n 2] ↔ ∃ i < 3, v = n i := by
    intro v
    simp only [List.mem_cons, List.not_mem_nil, or_false]
    constructor
    · rintro (rfl | rfl | rfl) <;> [exact ⟨0, by omega, rfl⟩; exact ⟨1, by omega, rfl⟩; exact ⟨2, by omega, rfl⟩]
    · rintro ⟨i, hi, rfl⟩
      interval_cases i <;> simp
  rw [C66_convex_corner n 3 ⟨le_refl _, hu, hc⟩ hs _ hL]
  have := (corner_formulas (le_refl 3) hu hc).1
  change _ = cornerFraction {x | ∀ i < 3, dot x (n i) < 0} at this
  rw [← this, (C66_alpha _).2 (by simp)]
  have hpi := Real.pi_ne_zero
  simp [Finset.sum_range_succ, prevIdx, n, dot, List.range_succ]
  field_simp
  norm_num

end PiBem.Bem
