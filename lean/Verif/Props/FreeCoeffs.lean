import Verif.Bem.FreeCoeffs
import Verif.Harmonic.Rodrigues
import Mathlib.Analysis.SpecialFunctions.Integrals.Basic
import Mathlib.Data.List.GetD
import Mathlib.LinearAlgebra.Matrix.NonsingularInverse

/-!
# Free coefficients of the hypersingular equation (C66)
-/

noncomputable section

namespace PiBem.Bem

open PiBem.Expansion (V3 rho dot)
open PiBem.Harmonic (rho_nonneg rho_sq rho_eq_zero)

theorem sum_list_range (n : ℕ) (f : ℕ → ℝ) : ((List.range n).map f).sum = ∑ k ∈ Finset.range n, f k := by
  induction n with
  | zero => simp
  | succ n ih => rw [List.range_succ, List.map_append, List.sum_append, ih, Finset.sum_range_succ]; simp

theorem foldl_sub (l : List ℕ) (f : ℕ → ℝ) (a : ℝ) : l.foldl (fun a k => a - f k) a = a - (l.map f).sum := by
  induction l generalizing a with
  | nil => simp
  | cons k l ih => rw [List.foldl_cons, ih, List.map_cons, List.sum_cons]; ring

/-! ## Unique normals -/

theorem rho_zero : rho (0 : V3) = 0 := rho_eq_zero.2 rfl

theorem foldl_unique (L U : List V3) (hU : U.Pairwise fun u v => 1e-5 ≤ rho (v - u)) :
    (∀ u ∈ L.foldl uniqueStep U, u ∈ U ∨ u ∈ L) ∧ (∀ u ∈ U, u ∈ L.foldl uniqueStep U) ∧
    (∀ n ∈ L, ∃ u ∈ L.foldl uniqueStep U, rho (n - u) < 1e-5) ∧
    (L.foldl uniqueStep U).Pairwise fun u v => 1e-5 ≤ rho (v - u) := by
  induction L generalizing U with
  | nil => simpa using hU
  | cons n L ih =>
    rw [List.foldl_cons]
    by_cases h : ∃ u ∈ U, rho (n - u) < 1e-5
    · have e : uniqueStep U n = U := by unfold uniqueStep; rw [if_pos h]
      rw [e]
      obtain ⟨h1, h2, h3, h4⟩ := ih U hU
      refine ⟨fun u hu => ?_, h2, fun m hm => ?_, h4⟩
      · rcases h1 u hu with h | h
        · exact Or.inl h
        · exact Or.inr (List.mem_cons_of_mem _ h)
      · rcases List.mem_cons.1 hm with rfl | hm
        · obtain ⟨u, hu, hr⟩ := h; exact ⟨u, h2 u hu, hr⟩
        · exact h3 m hm
    · have e : uniqueStep U n = U ++ [n] := by unfold uniqueStep; rw [if_neg h]
      rw [e]
      push Not at h
      obtain ⟨h1, h2, h3, h4⟩ := ih (U ++ [n]) (by
        rw [List.pairwise_append]
        exact ⟨hU, List.pairwise_singleton _ _, fun a ha b hb => by
          rw [List.mem_singleton] at hb; subst hb; exact h a ha⟩)
      refine ⟨fun u hu => ?_, fun u hu => h2 u (List.mem_append_left _ hu), fun m hm => ?_, h4⟩
      · rcases h1 u hu with h | h
        · rcases List.mem_append.1 h with h | h
          · exact Or.inl h
          · exact Or.inr (by simp [List.mem_singleton.1 h])
        · exact Or.inr (List.mem_cons_of_mem _ h)
      · rcases List.mem_cons.1 hm with rfl | hm
        · exact ⟨m, h2 m (by simp), by rw [sub_self, rho_zero]; norm_num⟩
        · exact h3 m hm

/-- **C66** (unique normals). The normals kept at a node are normals of its cells, any two of them are at least `1e-5`
apart, and every normal of the node is within `1e-5` of one of them. -/
theorem C66_unique_normals (L : List V3) :
    (∀ u ∈ uniqueNormals L, u ∈ L) ∧ (∀ n ∈ L, ∃ u ∈ uniqueNormals L, rho (n - u) < 1e-5) ∧
    (uniqueNormals L).Pairwise fun u v => 1e-5 ≤ rho (v - u) := by
  obtain ⟨h1, _, h3, h4⟩ := foldl_unique L [] List.Pairwise.nil
  exact ⟨fun u hu => (h1 u hu).resolve_left (by simp), h3, h4⟩

/-- if the normals are equal or separated, the unique ones are the distinct ones -/
theorem unique_of_separated {L : List V3} (h : ∀ n ∈ L, ∀ m ∈ L, n = m ∨ 1e-5 ≤ rho (n - m)) :
    (uniqueNormals L).Nodup ∧ ∀ n, n ∈ uniqueNormals L ↔ n ∈ L := by
  obtain ⟨h1, h2, h3⟩ := C66_unique_normals L
  refine ⟨h3.imp fun {u v} huv he => ?_, fun n => ⟨h1 n, fun hn => ?_⟩⟩
  · rw [he, sub_self, rho_zero] at huv; norm_num at huv
  · obtain ⟨u, hu, hr⟩ := h2 n hn
    rcases h n hn u (h1 u hu) with rfl | h
    · exact hu
    · linarith

/-! ## Order -/

theorem pickIndex_lt (avg prev : V3) {R : List (V3 × V3)} (hR : R ≠ []) : pickIndex avg prev R < R.length := by
  unfold pickIndex
  have key : ∀ (l : List ℕ) (s : ℝ × ℕ), (∀ p ∈ l, p < R.length) → s.2 < R.length →
      (l.foldl (fun (s : ℝ × ℕ) p => if dot avg (cross prev (R.getD p (0, 0)).2) > 0 ∧
        Real.arccos (dot prev (R.getD p (0, 0)).2) < s.1 then (Real.arccos (dot prev (R.getD p (0, 0)).2), p) else s) s).2 <
        R.length := by
    intro l
    induction l with
    | nil => intro s _ h; exact h
    | cons p l ih =>
      intro s hl hs
      rw [List.foldl_cons]
      refine ih _ (fun p hp => hl p (by simp [hp])) ?_
      split_ifs
      · exact hl p (by simp)
      · exact hs
  exact key _ _ (fun p hp => List.mem_range.1 hp) (List.length_pos_iff.2 hR)

theorem orderLoop_perm (avg : V3) (m : ℕ) : ∀ (prev : V3) (R : List (V3 × V3)), R.length = m →
    (orderLoop avg m prev R).Perm (R.map Prod.fst) := by
  induction m with
  | zero => intro prev R h; rw [List.length_eq_zero_iff.1 h]; exact List.Perm.refl _
  | succ m ih =>
    intro prev R h
    have hk := pickIndex_lt avg prev (R := R) (by rintro rfl; simp at h)
    unfold orderLoop
    set k := pickIndex avg prev R
    have hl : (R.eraseIdx k).length = m := by rw [List.length_eraseIdx_of_lt hk]; omega
    refine ((ih _ _ hl).cons _).trans ?_
    have h2 : R.Perm (R[k] :: R.eraseIdx k) := (List.getElem_cons_eraseIdx_perm hk).symm
    have h3 := (h2.map Prod.fst).symm
    rw [List.map_cons] at h3
    rw [List.getD_eq_getElem _ _ hk]
    exact h3

/-- **C66** (order). The loop ordering the normals ends, and the ordered normals are a permutation of the unique ones
starting with the first. -/
theorem C66_order (U : List V3) :
    (orderedNormals U).Perm U ∧ (orderedNormals U).head? = U.head? := by
  cases U with
  | nil => exact ⟨List.Perm.refl _, rfl⟩
  | cons u R =>
    refine ⟨?_, rfl⟩
    unfold orderedNormals
    refine List.Perm.cons u ?_
    have := orderLoop_perm (averageNormal (u :: R)) R.length (projected (averageNormal (u :: R)) u)
      (R.map fun n => (n, projected (averageNormal (u :: R)) n)) (by simp)
    rw [List.map_map] at this
    simpa [Function.comp_def] using this

/-! ## Closed forms -/

/-- index of the previous normal in the cyclic order -/
def prevIdx (N k : ℕ) : ℕ := (k + N - 1) % N

/-- Specification: contribution to the tensor of an edge between faces with unit normals `a` and `b`:
`(cos θ (a aᵀ + b bᵀ) - (a bᵀ + b aᵀ)) / |a × b|`, `cos θ = a · b`. -/
def edgeTerm (a b : V3) (i j : Fin 3) : ℝ :=
  (dot a b * (a i * a j + b i * b j) - (a i * b j + b i * a j)) / rho (cross a b)

theorem prevIdx_zero {m : ℕ} : prevIdx (m + 1) 0 = m := by
  unfold prevIdx; rw [Nat.zero_add, Nat.add_sub_cancel, Nat.mod_eq_of_lt (Nat.lt_succ_self m)]

theorem prevIdx_succ {m k : ℕ} (h : k < m) : prevIdx (m + 1) (k + 1) = k := by
  unfold prevIdx
  rw [show k + 1 + (m + 1) - 1 = k + (m + 1) by omega, Nat.add_mod_right, Nat.mod_eq_of_lt (by omega)]

/-- **C66** (free coefficient). With more than one normal `hyp_alpha` is `(2 π - Σ θ) / (4 π)`, `θ` the angles between
cyclically consecutive normals. With one normal it is 1/2. -/
theorem C66_alpha (O : List V3) :
    (O.length = 1 → geomAlpha O = 1 / 2) ∧
    (1 < O.length → geomAlpha O =
      (2 * Real.pi - ∑ k ∈ Finset.range O.length, Real.arccos (dot (O.getD k 0) (O.getD (prevIdx O.length k) 0))) /
        (4 * Real.pi)) := by
  constructor
  · intro h
    unfold geomAlpha
    rw [h]
    simp only [gt_iff_lt, lt_irrefl, if_false]
    have := Real.pi_ne_zero
    field_simp
    norm_num
  · intro h
    obtain ⟨m, hm⟩ : ∃ m, O.length = m + 1 := ⟨O.length - 1, by omega⟩
    unfold geomAlpha
    simp only [gt_iff_lt, h, if_true]
    rw [hm, Finset.sum_range_succ', prevIdx_zero, Nat.add_sub_cancel]
    have hsum : ((List.range' 1 m).map fun k => Real.arccos (dot (O.getD k 0) (O.getD (k - 1) 0))).sum =
        ∑ k ∈ Finset.range m, Real.arccos (dot (O.getD (k + 1) 0) (O.getD (prevIdx (m + 1) (k + 1)) 0)) := by
      rw [List.range'_eq_map_range, List.map_map, sum_list_range]
      refine Finset.sum_congr rfl fun k hk => ?_
      simp only [Function.comp_apply]
      rw [prevIdx_succ (Finset.mem_range.1 hk), Nat.add_comm 1 k, Nat.add_sub_cancel]
    rw [foldl_sub, hsum]
    have : dot (O.getD m 0) (O.getD 0 0) = dot (O.getD 0 0) (O.getD m 0) := by unfold dot; ring
    rw [this]
    ring

theorem cross_unit (v w : V3) (i : Fin 3) : cross (unit v) w i = cross v w i / rho v := by
  fin_cases i <;> simp [cross, unit] <;> ring

theorem cross_sub_left (u v w : V3) (i : Fin 3) : cross (u - v) w i = cross u w i - cross v w i := by
  fin_cases i <;> simp [cross] <;> ring

theorem cross_dot (u w : V3) : ∑ i, cross u w i * w i = 0 := by
  rw [Fin.sum_univ_three]; simp [cross]; ring

theorem cross_cross_right (a b : V3) (i : Fin 3) : cross (cross a b) b i = dot a b * b i - dot b b * a i := by
  fin_cases i <;> simp [cross, dot] <;> ring

theorem cross_cross_left (a b : V3) (i : Fin 3) : cross (cross a b) a i = dot a a * b i - dot a b * a i := by
  fin_cases i <;> simp [cross, dot] <;> ring

theorem dot_self (a : V3) : dot a a = rho a ^ 2 := by rw [rho_sq]; unfold dot; ring

theorem cMatrix_sum {O : List V3} (h : 1 < O.length) (i j : Fin 3) :
    cMatrix O i j = (if i = j then geomAlpha O else 0) - 1 / 4 / Real.pi * ∑ k ∈ Finset.range O.length,
      cross (tangent O (k + 1) - tangent O k) (O.getD k 0) i * O.getD k 0 j := by
  unfold cMatrix
  simp only [gt_iff_lt, h, if_true]
  rw [foldl_sub, sum_list_range, Finset.mul_sum]

/-- **C66** (trace). For every set of normals, the trace of the tensor is three times `hyp_alpha`. -/
theorem C66_trace (O : List V3) : ∑ i, cMatrix O i i = 3 * geomAlpha O := by
  by_cases h : 1 < O.length
  · simp only [cMatrix_sum h, if_true, Finset.sum_sub_distrib, ← Finset.mul_sum]
    rw [Finset.sum_comm]
    simp only [cross_dot, Finset.sum_const_zero, mul_zero, sub_zero]
    simp
  · have : ∀ i, cMatrix O i i = geomAlpha O := by
      intro i; unfold cMatrix; simp only [gt_iff_lt, h, if_false, if_true]
    simp [this]

/-- **C66** (tensor). For unit normals the tensor is `hyp_alpha` times the identity minus `1 / (4 π)` times the sum of the
contributions of the edges between cyclically consecutive faces. -/
theorem C66_tensor (O : List V3) (hu : ∀ n ∈ O, rho n = 1) (h : 1 < O.length) (i j : Fin 3) :
    cMatrix O i j = (if i = j then geomAlpha O else 0) - 1 / (4 * Real.pi) *
      ∑ k ∈ Finset.range O.length, edgeTerm (O.getD k 0) (O.getD (prevIdx O.length k) 0) i j := by
  rw [cMatrix_sum h]
  congr 1
  rw [div_div]
  congr 1
  obtain ⟨m, hm⟩ : ∃ m, O.length = m + 1 := ⟨O.length - 1, by omega⟩
  simp only [cross_sub_left, sub_mul, Finset.sum_sub_distrib]
  have hshift : ∑ k ∈ Finset.range O.length, cross (tangent O (k + 1)) (O.getD k 0) i * O.getD k 0 j =
      ∑ k ∈ Finset.range O.length, cross (tangent O k) (O.getD (prevIdx O.length k) 0) i *
        O.getD (prevIdx O.length k) 0 j := by
    rw [hm, Finset.sum_range_succ, Finset.sum_range_succ', prevIdx_zero]
    congr 1
    · exact Finset.sum_congr rfl fun k hk => by rw [prevIdx_succ (Finset.mem_range.1 hk)]
    · have : tangent O (m + 1) = tangent O 0 := by unfold tangent; simp [hm]
      rw [this]
  rw [hshift, ← Finset.sum_sub_distrib]
  refine Finset.sum_congr rfl fun k hk => ?_
  have hk := Finset.mem_range.1 hk
  have ht : tangent O k = unit (cross (O.getD k 0) (O.getD (prevIdx O.length k) 0)) := by
    unfold tangent
    rcases k with _ | k
    · simp only [true_or, if_true]; rw [hm, prevIdx_zero, Nat.add_sub_cancel]
    · have : ¬ (k + 1 = 0 ∨ k + 1 = O.length) := by omega
      simp only [if_neg this]
      rw [hm] at hk ⊢
      rw [prevIdx_succ (by omega), Nat.add_sub_cancel]
  have hpk : prevIdx O.length k < O.length := Nat.mod_lt _ (by omega)
  have u1 : dot (O.getD k 0) (O.getD k 0) = 1 := by
    rw [dot_self, List.getD_eq_getElem _ _ hk, hu _ (List.getElem_mem _)]; norm_num
  have u2 : dot (O.getD (prevIdx O.length k) 0) (O.getD (prevIdx O.length k) 0) = 1 := by
    rw [dot_self, List.getD_eq_getElem _ _ hpk, hu _ (List.getElem_mem _)]; norm_num
  rw [ht, cross_unit, cross_unit, cross_cross_left, cross_cross_right, u1, u2]
  unfold edgeTerm
  ring

/-- **C66** (symmetry). For unit normals the tensor is symmetric. -/
theorem C66_symmetric (O : List V3) (hu : ∀ n ∈ O, rho n = 1) (i j : Fin 3) : cMatrix O i j = cMatrix O j i := by
  by_cases h : 1 < O.length
  · rw [C66_tensor O hu h, C66_tensor O hu h]
    congr 1
    · by_cases hij : i = j
      · subst hij; rfl
      · rw [if_neg hij, if_neg (Ne.symm hij)]
    · congr 1
      refine Finset.sum_congr rfl fun k _ => ?_
      unfold edgeTerm
      ring
  · unfold cMatrix
    simp only [gt_iff_lt, h, if_false]
    by_cases hij : i = j
    · subst hij; rfl
    · rw [if_neg hij, if_neg (Ne.symm hij)]

/-! ## Smooth nodes -/

/-- **C66** (smooth nodes). If all the normals of a node are within `1e-5` of the first, `hyp_alpha` is 1/2 and the tensor
is half the identity. -/
theorem C66_smooth (n : V3) (L : List V3) (h : ∀ m ∈ L, rho (m - n) < 1e-5) :
    freeCoeffs (n :: L) = (1 / 2, fun i j => if i = j then 1 / 2 else 0) := by
  have hU : uniqueNormals (n :: L) = [n] := by
    unfold uniqueNormals
    rw [List.foldl_cons]
    have : uniqueStep [] n = [n] := by unfold uniqueStep; simp
    rw [this]
    induction L with
    | nil => rfl
    | cons m L ih =>
      rw [List.foldl_cons]
      have : uniqueStep [n] m = [n] := by
        unfold uniqueStep; rw [if_pos ⟨n, by simp, h m (by simp)⟩]
      rw [this]
      exact ih fun m hm => h m (by simp [hm])
  have hO : orderedNormals [n] = [n] := rfl
  unfold freeCoeffs
  rw [hU, hO]
  have ha := (C66_alpha [n]).1 rfl
  refine Prod.ext ha ?_
  funext i j
  show cMatrix [n] i j = _
  unfold cMatrix
  simp only [List.length_singleton, gt_iff_lt, lt_irrefl, if_false, ha]

/-! ## At most three normals: the order does not matter -/

theorem vdot_comm (a b : V3) : dot a b = dot b a := by unfold dot; ring

theorem rho_cross_comm (a b : V3) : rho (cross a b) = rho (cross b a) := by
  unfold rho cross; congr 1; simp; ring

theorem edgeTerm_comm (a b : V3) (i j : Fin 3) : edgeTerm a b i j = edgeTerm b a i j := by
  unfold edgeTerm; rw [vdot_comm a b, rho_cross_comm a b]; ring

theorem alpha_two (a b : V3) : geomAlpha [a, b] = (2 * Real.pi - 2 * Real.arccos (dot a b)) / (4 * Real.pi) := by
  rw [(C66_alpha [a, b]).2 (by simp)]
  simp only [List.length_cons, List.length_nil, Nat.zero_add, Finset.sum_range_succ, Finset.sum_range_zero]
  rw [show prevIdx (1 + 1) 0 = 1 from rfl, show prevIdx (1 + 1) 1 = 0 from rfl]
  simp only [List.getD_cons_zero, List.getD_cons_succ]
  rw [vdot_comm b a]; ring_nf

theorem alpha_three (a b c : V3) : geomAlpha [a, b, c] =
    (2 * Real.pi - (Real.arccos (dot a b) + Real.arccos (dot b c) + Real.arccos (dot a c))) / (4 * Real.pi) := by
  rw [(C66_alpha [a, b, c]).2 (by simp)]
  simp only [List.length_cons, List.length_nil, Nat.zero_add, Finset.sum_range_succ, Finset.sum_range_zero]
  rw [show prevIdx (1 + 1 + 1) 0 = 2 from rfl, show prevIdx (1 + 1 + 1) 1 = 0 from rfl,
    show prevIdx (1 + 1 + 1) (1 + 1) = 1 from rfl]
  simp only [List.getD_cons_zero, List.getD_cons_succ]
  rw [vdot_comm b a, vdot_comm c b]; ring_nf

theorem tensor_two {a b : V3} (ha : rho a = 1) (hb : rho b = 1) (i j : Fin 3) : cMatrix [a, b] i j =
    (if i = j then geomAlpha [a, b] else 0) - 1 / (2 * Real.pi) * edgeTerm a b i j := by
  rw [C66_tensor [a, b] (by simp [ha, hb]) (by simp)]
  simp only [List.length_cons, List.length_nil, Nat.zero_add, Finset.sum_range_succ, Finset.sum_range_zero]
  rw [show prevIdx (1 + 1) 0 = 1 from rfl, show prevIdx (1 + 1) 1 = 0 from rfl]
  simp only [List.getD_cons_zero, List.getD_cons_succ]
  rw [edgeTerm_comm b a]
  have := Real.pi_ne_zero
  field_simp
  ring

theorem tensor_three {a b c : V3} (ha : rho a = 1) (hb : rho b = 1) (hc : rho c = 1) (i j : Fin 3) :
    cMatrix [a, b, c] i j = (if i = j then geomAlpha [a, b, c] else 0) -
      1 / (4 * Real.pi) * (edgeTerm a b i j + edgeTerm b c i j + edgeTerm a c i j) := by
  rw [C66_tensor [a, b, c] (by simp [ha, hb, hc]) (by simp)]
  simp only [List.length_cons, List.length_nil, Nat.zero_add, Finset.sum_range_succ, Finset.sum_range_zero]
  rw [show prevIdx (1 + 1 + 1) 0 = 2 from rfl, show prevIdx (1 + 1 + 1) 1 = 0 from rfl,
    show prevIdx (1 + 1 + 1) (1 + 1) = 1 from rfl]
  simp only [List.getD_cons_zero, List.getD_cons_succ]
  rw [edgeTerm_comm b a, edgeTerm_comm c b]; ring

theorem perm_two {a b : V3} {O : List V3} (h : O.Perm [a, b]) : O = [a, b] ∨ O = [b, a] := by
  have hl := h.length_eq
  match O, hl with
  | [x, y], _ =>
    have hx : x = a ∨ x = b := by have := h.mem_iff.1 (show x ∈ [x, y] by simp); simpa using this
    rcases hx with rfl | rfl
    · have := List.perm_singleton.1 ((List.perm_cons x).1 h); simp at this; exact Or.inl (by rw [this])
    · have h2 := h.trans (List.Perm.swap x a [])
      have := List.perm_singleton.1 ((List.perm_cons x).1 h2); simp at this; exact Or.inr (by rw [this])

theorem perm_three {a b c : V3} {O : List V3} (h : O.Perm [a, b, c]) :
    O = [a, b, c] ∨ O = [a, c, b] ∨ O = [b, a, c] ∨ O = [b, c, a] ∨ O = [c, a, b] ∨ O = [c, b, a] := by
  have hl := h.length_eq
  match O, hl with
  | x :: O', _ =>
    have hx : x = a ∨ x = b ∨ x = c := by have := h.mem_iff.1 (show x ∈ x :: O' by simp); simpa using this
    rcases hx with rfl | rfl | rfl
    · rcases perm_two ((List.perm_cons x).1 h) with e | e <;> rw [e] <;> simp
    · rcases perm_two ((List.perm_cons x).1 (h.trans (List.Perm.swap x a [c]))) with e | e <;> rw [e] <;> simp
    · have h2 : [a, b, x].Perm [x, a, b] := (List.perm_append_comm (l₁ := [a, b]) (l₂ := [x]))
      rcases perm_two ((List.perm_cons x).1 (h.trans h2)) with e | e <;> rw [e] <;> simp

theorem coeffs_perm {O O' : List V3} (h : O.Perm O') (hlen : O'.length ≤ 3) (hu : ∀ n ∈ O', rho n = 1) :
    geomAlpha O = geomAlpha O' ∧ cMatrix O = cMatrix O' := by
  match O', hlen with
  | [], _ => rw [List.perm_nil.1 h]; exact ⟨rfl, rfl⟩
  | [a], _ => rw [List.perm_singleton.1 h]; exact ⟨rfl, rfl⟩
  | [a, b], _ =>
    have ha := hu a (by simp)
    have hb := hu b (by simp)
    rcases perm_two h with rfl | rfl
    · exact ⟨rfl, rfl⟩
    · have e : geomAlpha [b, a] = geomAlpha [a, b] := by rw [alpha_two, alpha_two, vdot_comm]
      refine ⟨e, ?_⟩
      funext i j
      rw [tensor_two ha hb, tensor_two hb ha, e, edgeTerm_comm a b]
  | [a, b, c], _ =>
    have ha := hu a (by simp)
    have hb := hu b (by simp)
    have hc := hu c (by simp)
    have e : geomAlpha O = geomAlpha [a, b, c] := by
      rcases perm_three h with rfl | rfl | rfl | rfl | rfl | rfl <;> simp only [alpha_three] <;>
        simp only [vdot_comm b a, vdot_comm c b, vdot_comm c a] <;> ring
    refine ⟨e, ?_⟩
    funext i j
    have e2 : ∀ x y z : V3, rho x = 1 → rho y = 1 → rho z = 1 → O = [x, y, z] → cMatrix O i j =
        (if i = j then geomAlpha [a, b, c] else 0) -
          1 / (4 * Real.pi) * (edgeTerm x y i j + edgeTerm y z i j + edgeTerm x z i j) := by
      intro x y z hx hy hz hO
      rw [← e, hO, tensor_three hx hy hz]
    rw [tensor_three ha hb hc]
    rcases perm_three h with h | h | h | h | h | h <;> rw [e2 _ _ _ (by assumption) (by assumption) (by assumption) h] <;>
      simp only [edgeTerm_comm b a, edgeTerm_comm c b, edgeTerm_comm c a] <;> ring

/-- **C66** (order of the cells). If at a node the normals are unit vectors, equal or at least `1e-5` apart, and at most
three of them are distinct, then the free coefficients depend only on the set of the normals: not on the order in which the
cells are visited nor on how many cells share a face. -/
theorem C66_set (L L' : List V3) (hu : ∀ n ∈ L, rho n = 1) (hsep : ∀ n ∈ L, ∀ m ∈ L, n = m ∨ 1e-5 ≤ rho (n - m))
    (hset : ∀ n, n ∈ L' ↔ n ∈ L) (hlen : (uniqueNormals L).length ≤ 3) : freeCoeffs L' = freeCoeffs L := by
  obtain ⟨h1, h2⟩ := unique_of_separated hsep
  obtain ⟨h3, h4⟩ := unique_of_separated (L := L') fun n hn m hm => hsep n ((hset n).1 hn) m ((hset m).1 hm)
  have hp : (uniqueNormals L').Perm (uniqueNormals L) :=
    (List.perm_ext_iff_of_nodup h3 h1).2 fun n => by rw [h2, h4, hset]
  have hO : (orderedNormals (uniqueNormals L')).Perm (orderedNormals (uniqueNormals L)) :=
    ((C66_order _).1.trans hp).trans (C66_order _).1.symm
  have := coeffs_perm hO (by rw [(C66_order _).1.length_eq]; exact hlen)
    (fun n hn => hu n ((h2 n).1 ((C66_order _).1.mem_iff.1 hn)))
  exact Prod.ext this.1 this.2

/-! ## Edges -/

/-- Three orthonormal vectors. -/
def Frame (e : Fin 3 → V3) : Prop := ∀ a b, dot (e a) (e b) = if a = b then 1 else 0

/-- Specification: the direction with longitude `φ` and colatitude `θ` in the frame `e`. -/
def direction (e : Fin 3 → V3) (φ θ : ℝ) : V3 := fun i =>
  Real.sin θ * Real.cos φ * e 0 i + Real.sin θ * Real.sin φ * e 1 i + Real.cos θ * e 2 i

/-- Specification: fraction of the unit sphere seen inside a wedge of angle `β`. -/
def wedgeFraction (β : ℝ) : ℝ :=
  1 / (4 * Real.pi) * ∫ _φ in (0 : ℝ)..β, ∫ θ in (0 : ℝ)..Real.pi, Real.sin θ

/-- Specification: free tensor of the gradient equation, `3/(4π)` times the integral of `ω ωᵀ` on the directions of the
wedge of angle `β` (limit of the integrals on small spheres inside the domain). -/
def wedgeTensor (e : Fin 3 → V3) (β : ℝ) (i j : Fin 3) : ℝ :=
  3 / (4 * Real.pi) * ∫ φ in (0 : ℝ)..β, ∫ θ in (0 : ℝ)..Real.pi,
    direction e φ θ i * direction e φ θ j * Real.sin θ

/-- Outward normals of the two faces of the wedge. -/
def wedgeNormal0 (e : Fin 3 → V3) : V3 := fun i => -e 1 i
def wedgeNormal1 (e : Fin 3 → V3) (β : ℝ) : V3 := fun i => -Real.sin β * e 0 i + Real.cos β * e 1 i

theorem frame_complete {e : Fin 3 → V3} (h : Frame e) (i j : Fin 3) :
    e 0 i * e 0 j + e 1 i * e 1 j + e 2 i * e 2 j = if i = j then 1 else 0 := by
  set Q : Matrix (Fin 3) (Fin 3) ℝ := Matrix.of e with hQ
  have h1 : Q * Q.transpose = 1 := by
    ext a b
    rw [Matrix.mul_apply, Fin.sum_univ_three, Matrix.one_apply]
    exact h a b
  have h2 : Q.transpose * Q = 1 := mul_eq_one_comm.1 h1
  have := congrFun (congrFun h2 i) j
  rw [Matrix.mul_apply, Fin.sum_univ_three, Matrix.one_apply] at this
  exact this

theorem wedge_dot {e : Fin 3 → V3} (h : Frame e) (x y z x' y' z' : ℝ) :
    dot (fun i => x * e 0 i + y * e 1 i + z * e 2 i) (fun i => x' * e 0 i + y' * e 1 i + z' * e 2 i) =
      x * x' + y * y' + z * z' := by
  have h00 := h 0 0; have h01 := h 0 1; have h02 := h 0 2
  have h10 := h 1 0; have h11 := h 1 1; have h12 := h 1 2
  have h20 := h 2 0; have h21 := h 2 1; have h22 := h 2 2
  simp [dot] at h00 h01 h02 h10 h11 h12 h20 h21 h22
  simp only [dot]
  linear_combination x * x' * h00 + x * y' * h01 + x * z' * h02 + y * x' * h10 + y * y' * h11 + y * z' * h12 +
    z * x' * h20 + z * y' * h21 + z * z' * h22

theorem rho_of_dot {a : V3} (h : dot a a = 1) : rho a = 1 := by
  have := dot_self a
  rw [h] at this
  have h0 := rho_nonneg a
  nlinarith

theorem rho_cross (a b : V3) : rho (cross a b) ^ 2 = dot a a * dot b b - dot a b ^ 2 := by
  rw [rho_sq]; simp [cross, dot]; ring

theorem wedge_n0 {e : Fin 3 → V3} (h : Frame e) : rho (wedgeNormal0 e) = 1 := by
  refine rho_of_dot ?_
  have := wedge_dot h 0 (-1) 0 0 (-1) 0
  unfold wedgeNormal0
  simpa using this

theorem wedge_n1 {e : Fin 3 → V3} (h : Frame e) (β : ℝ) : rho (wedgeNormal1 e β) = 1 := by
  refine rho_of_dot ?_
  have := wedge_dot h (-Real.sin β) (Real.cos β) 0 (-Real.sin β) (Real.cos β) 0
  have h2 := Real.sin_sq_add_cos_sq β
  simp only [zero_mul, add_zero] at this
  unfold wedgeNormal1
  rw [this]; nlinarith

theorem wedge_n0n1 {e : Fin 3 → V3} (h : Frame e) (β : ℝ) : dot (wedgeNormal0 e) (wedgeNormal1 e β) = -Real.cos β := by
  have := wedge_dot h 0 (-1) 0 (-Real.sin β) (Real.cos β) 0
  simp only [zero_mul, add_zero, zero_add, neg_one_mul] at this
  exact this

theorem wedge_cross {e : Fin 3 → V3} (h : Frame e) (β : ℝ) :
    rho (cross (wedgeNormal0 e) (wedgeNormal1 e β)) = |Real.sin β| := by
  have h1 := rho_cross (wedgeNormal0 e) (wedgeNormal1 e β)
  rw [dot_self, dot_self, wedge_n0 h, wedge_n1 h, wedge_n0n1 h] at h1
  have h2 : rho (cross (wedgeNormal0 e) (wedgeNormal1 e β)) ^ 2 = Real.sin β ^ 2 := by
    rw [h1]; have := Real.sin_sq_add_cos_sq β; nlinarith
  rw [← abs_of_nonneg (rho_nonneg (cross _ _))]
  exact (sq_eq_sq_iff_abs_eq_abs _ _).1 h2

theorem wedgeFraction_eq (β : ℝ) : wedgeFraction β = β / (2 * Real.pi) := by
  unfold wedgeFraction
  have : ∫ θ in (0 : ℝ)..Real.pi, Real.sin θ = 2 := by simp; norm_num
  simp only [this, intervalIntegral.integral_const, sub_zero, smul_eq_mul]
  have := Real.pi_ne_zero
  field_simp
  ring

theorem wedgeTensor_eq {e : Fin 3 → V3} (h : Frame e) (β : ℝ) (i j : Fin 3) :
    wedgeTensor e β i j = (if i = j then β / (2 * Real.pi) else 0) + 1 / (2 * Real.pi) *
      (Real.sin β * Real.cos β * (e 0 i * e 0 j - e 1 i * e 1 j) + Real.sin β ^ 2 * (e 0 i * e 1 j + e 1 i * e 0 j)) := by
  have hin : ∀ φ : ℝ, ∫ θ in (0 : ℝ)..Real.pi, direction e φ θ i * direction e φ θ j * Real.sin θ =
      4 / 3 * (Real.cos φ ^ 2 * (e 0 i * e 0 j) + Real.sin φ ^ 2 * (e 1 i * e 1 j) +
        Real.sin φ * Real.cos φ * (e 0 i * e 1 j + e 1 i * e 0 j)) + 2 / 3 * (e 2 i * e 2 j) := by
    intro φ
    set A := Real.cos φ * e 0 i + Real.sin φ * e 1 i with hA
    set B := Real.cos φ * e 0 j + Real.sin φ * e 1 j with hB
    have hd : ∀ θ, HasDerivAt (fun θ : ℝ => A * B * (Real.cos θ ^ 3 / 3 - Real.cos θ) +
        (A * e 2 j + e 2 i * B) * (Real.sin θ ^ 3 / 3) + e 2 i * e 2 j * (-(Real.cos θ ^ 3) / 3))
        (direction e φ θ i * direction e φ θ j * Real.sin θ) θ := by
      intro θ
      have hc := Real.hasDerivAt_cos θ
      have hs := Real.hasDerivAt_sin θ
      have h1 := ((hc.pow 3).div_const 3).sub hc
      have h2 := (hs.pow 3).div_const 3
      have h3 := ((hc.pow 3).neg).div_const 3
      have h4 := ((h1.const_mul (A * B)).add (h2.const_mul (A * e 2 j + e 2 i * B))).add (h3.const_mul (e 2 i * e 2 j))
      refine HasDerivAt.congr_deriv h4 (Eq.symm ?_)
      show (Real.sin θ * Real.cos φ * e 0 i + Real.sin θ * Real.sin φ * e 1 i + Real.cos θ * e 2 i) *
        (Real.sin θ * Real.cos φ * e 0 j + Real.sin θ * Real.sin φ * e 1 j + Real.cos θ * e 2 j) * Real.sin θ = _
      have := Real.sin_sq_add_cos_sq θ
      have hs3 : Real.cos θ ^ 2 = 1 - Real.sin θ ^ 2 := by linarith
      have e1 : Real.sin θ * Real.cos φ * e 0 i + Real.sin θ * Real.sin φ * e 1 i + Real.cos θ * e 2 i =
          Real.sin θ * A + Real.cos θ * e 2 i := by rw [hA]; ring
      have e2 : Real.sin θ * Real.cos φ * e 0 j + Real.sin θ * Real.sin φ * e 1 j + Real.cos θ * e 2 j =
          Real.sin θ * B + Real.cos θ * e 2 j := by rw [hB]; ring
      rw [e1, e2]
      norm_num
      linear_combination (A * B * Real.sin θ) * hs3
    rw [intervalIntegral.integral_eq_sub_of_hasDerivAt (fun θ _ => hd θ)]
    · rw [Real.cos_pi, Real.sin_pi, Real.cos_zero, Real.sin_zero]
      rw [hA, hB]; ring
    · apply Continuous.intervalIntegrable
      unfold direction
      fun_prop
  unfold wedgeTensor
  simp only [hin]
  have hd : ∀ φ, HasDerivAt (fun φ : ℝ => 4 / 3 * ((φ / 2 + Real.sin φ * Real.cos φ / 2) * (e 0 i * e 0 j) +
      (φ / 2 - Real.sin φ * Real.cos φ / 2) * (e 1 i * e 1 j) +
      Real.sin φ ^ 2 / 2 * (e 0 i * e 1 j + e 1 i * e 0 j)) + 2 / 3 * (e 2 i * e 2 j) * φ)
      (4 / 3 * (Real.cos φ ^ 2 * (e 0 i * e 0 j) + Real.sin φ ^ 2 * (e 1 i * e 1 j) +
        Real.sin φ * Real.cos φ * (e 0 i * e 1 j + e 1 i * e 0 j)) + 2 / 3 * (e 2 i * e 2 j)) φ := by
    intro φ
    have hc := Real.hasDerivAt_cos φ
    have hs := Real.hasDerivAt_sin φ
    have hi := hasDerivAt_id φ
    have h1 := ((hi.div_const 2).add ((hs.mul hc).div_const 2)).mul_const (e 0 i * e 0 j)
    have h2 := ((hi.div_const 2).sub ((hs.mul hc).div_const 2)).mul_const (e 1 i * e 1 j)
    have h3 := ((hs.pow 2).div_const 2).mul_const (e 0 i * e 1 j + e 1 i * e 0 j)
    have h4 := (((h1.add h2).add h3).const_mul (4 / 3 : ℝ)).add (hi.const_mul ((2 / 3 : ℝ) * (e 2 i * e 2 j)))
    refine HasDerivAt.congr_deriv h4 (Eq.symm ?_)
    have := Real.sin_sq_add_cos_sq φ
    push_cast
    linear_combination (2 / 3 * (e 0 i * e 0 j) + 2 / 3 * (e 1 i * e 1 j)) * this
  rw [intervalIntegral.integral_eq_sub_of_hasDerivAt (fun φ _ => hd φ)
    (Continuous.intervalIntegrable (by fun_prop) _ _)]
  have hf := frame_complete h i j
  have hpi := Real.pi_ne_zero
  have hz : (if i = j then β / (2 * Real.pi) else 0) = β / (2 * Real.pi) * (if i = j then 1 else 0) := by
    split_ifs <;> ring
  rw [hz, ← hf, Real.sin_zero, Real.cos_zero]
  field_simp
  ring

theorem wedge_edgeTerm {e : Fin 3 → V3} (h : Frame e) (β : ℝ) (i j : Fin 3) :
    edgeTerm (wedgeNormal0 e) (wedgeNormal1 e β) i j =
      -(Real.sin β ^ 2 / |Real.sin β|) * (Real.cos β * (e 0 i * e 0 j - e 1 i * e 1 j) +
        Real.sin β * (e 0 i * e 1 j + e 1 i * e 0 j)) := by
  unfold edgeTerm
  rw [wedge_n0n1 h, wedge_cross h]
  simp only [wedgeNormal0, wedgeNormal1]
  have hs : Real.sin β ^ 2 = 1 - Real.cos β ^ 2 := by have := Real.sin_sq_add_cos_sq β; linarith
  rw [neg_mul (Real.sin β ^ 2 / _), div_mul_eq_mul_div, ← neg_div]
  congr 1
  linear_combination (-(Real.cos β * (e 1 i * e 1 j)) + Real.sin β * (e 0 i * e 1 j + e 1 i * e 0 j)) * hs

/-- normals of a wedge as a list of normals of a node -/
def WedgeNode (e : Fin 3 → V3) (β : ℝ) (L : List V3) : Prop :=
  ∀ n, n ∈ L ↔ n = wedgeNormal0 e ∨ n = wedgeNormal1 e β

theorem wedge_coeffs {e : Fin 3 → V3} (h : Frame e) {β : ℝ} (hsep : 1e-5 ≤ rho (wedgeNormal0 e - wedgeNormal1 e β))
    {L : List V3} (hL : WedgeNode e β L) :
    freeCoeffs L = (geomAlpha [wedgeNormal0 e, wedgeNormal1 e β], cMatrix [wedgeNormal0 e, wedgeNormal1 e β]) := by
  have hcomm : rho (wedgeNormal1 e β - wedgeNormal0 e) = rho (wedgeNormal0 e - wedgeNormal1 e β) := by
    unfold rho; congr 1; simp; ring
  have hs : ∀ n ∈ L, ∀ m ∈ L, n = m ∨ 1e-5 ≤ rho (n - m) := by
    intro n hn m hm
    rcases (hL n).1 hn with rfl | rfl <;> rcases (hL m).1 hm with rfl | rfl
    · exact Or.inl rfl
    · exact Or.inr hsep
    · exact Or.inr (by rw [hcomm]; exact hsep)
    · exact Or.inl rfl
  have hne : wedgeNormal0 e ≠ wedgeNormal1 e β := by
    intro he; rw [he, sub_self, rho_zero] at hsep; norm_num at hsep
  obtain ⟨h1, h2⟩ := unique_of_separated hs
  have hp : (uniqueNormals L).Perm [wedgeNormal0 e, wedgeNormal1 e β] :=
    (List.perm_ext_iff_of_nodup h1 (by simp [hne])).2 fun n => by rw [h2, hL]; simp
  have := coeffs_perm ((C66_order _).1.trans hp) (by simp) (by
    intro n hn
    simp at hn
    rcases hn with rfl | rfl
    · exact wedge_n0 h
    · exact wedge_n1 h β)
  exact Prod.ext this.1 this.2

/-- inside a convex wedge both products with the outward normals are negative; inside a reentrant one at least one is -/
theorem wedge_inside {e : Fin 3 → V3} (h : Frame e) {β φ θ : ℝ} (hφ : 0 < φ) (hφ' : φ < β) (hθ : 0 < θ)
    (hθ' : θ < Real.pi) :
    (β < Real.pi → dot (direction e φ θ) (wedgeNormal0 e) < 0 ∧ dot (direction e φ θ) (wedgeNormal1 e β) < 0) ∧
    (Real.pi < β → β < 2 * Real.pi →
      dot (direction e φ θ) (wedgeNormal0 e) < 0 ∨ dot (direction e φ θ) (wedgeNormal1 e β) < 0) := by
  have hs := Real.sin_pos_of_pos_of_lt_pi hθ hθ'
  have d0 : dot (direction e φ θ) (wedgeNormal0 e) = -(Real.sin θ * Real.sin φ) := by
    have := wedge_dot h (Real.sin θ * Real.cos φ) (Real.sin θ * Real.sin φ) (Real.cos θ) 0 (-1) 0
    simp only [zero_mul, mul_zero, add_zero, zero_add, neg_one_mul, mul_neg, mul_one] at this
    exact this
  have d1 : dot (direction e φ θ) (wedgeNormal1 e β) = -(Real.sin θ * Real.sin (β - φ)) := by
    have := wedge_dot h (Real.sin θ * Real.cos φ) (Real.sin θ * Real.sin φ) (Real.cos θ) (-Real.sin β) (Real.cos β) 0
    simp only [zero_mul, mul_zero, add_zero] at this
    rw [Real.sin_sub]
    unfold direction wedgeNormal1
    rw [this]; ring
  rw [d0, d1]
  constructor
  · intro hβ
    exact ⟨neg_lt_zero.2 (mul_pos hs (Real.sin_pos_of_pos_of_lt_pi hφ (by linarith))),
      neg_lt_zero.2 (mul_pos hs (Real.sin_pos_of_pos_of_lt_pi (by linarith) (by linarith)))⟩
  · intro hβ hβ'
    by_cases hc : φ < Real.pi
    · exact Or.inl (neg_lt_zero.2 (mul_pos hs (Real.sin_pos_of_pos_of_lt_pi hφ hc)))
    · exact Or.inr (neg_lt_zero.2 (mul_pos hs (Real.sin_pos_of_pos_of_lt_pi (by linarith) (by push Not at hc; linarith))))

/-- **C66** (convex edges). At a node of a straight edge with inner angle `β < π` (normals at least `1e-5` apart),
`hyp_alpha` is the fraction of the sphere inside the domain and the tensor is `3/(4π)` times the integral of `ω ωᵀ` on the
directions inside the domain. -/
theorem C66_convex_edge (e : Fin 3 → V3) (h : Frame e) (β : ℝ) (h0 : 0 < β) (h1 : β < Real.pi)
    (hsep : 1e-5 ≤ rho (wedgeNormal0 e - wedgeNormal1 e β)) (L : List V3) (hL : WedgeNode e β L) :
    freeCoeffs L = (wedgeFraction β, wedgeTensor e β) := by
  rw [wedge_coeffs h hsep hL]
  have ha : geomAlpha [wedgeNormal0 e, wedgeNormal1 e β] = β / (2 * Real.pi) := by
    rw [alpha_two, wedge_n0n1 h, ← Real.cos_pi_sub, Real.arccos_cos (by linarith) (by linarith)]
    have := Real.pi_ne_zero
    field_simp
    ring
  refine Prod.ext (by rw [ha, wedgeFraction_eq]) ?_
  funext i j
  show cMatrix [wedgeNormal0 e, wedgeNormal1 e β] i j = wedgeTensor e β i j
  have hs := Real.sin_pos_of_pos_of_lt_pi h0 h1
  rw [tensor_two (wedge_n0 h) (wedge_n1 h β), ha, wedgeTensor_eq h, wedge_edgeTerm h, abs_of_pos hs, sub_eq_add_neg]
  congr 1
  rw [pow_two, mul_div_assoc, div_self hs.ne']
  ring

/-- **C66** (reentrant edges). At a node of a straight edge with inner angle `β > π` the values are those of the
complementary wedge, outside the domain: `hyp_alpha` is one minus the fraction inside the domain and the tensor is the
identity minus the integral on the directions inside the domain. -/
theorem C66_reentrant_edge (e : Fin 3 → V3) (h : Frame e) (β : ℝ) (h0 : Real.pi < β) (h1 : β < 2 * Real.pi)
    (hsep : 1e-5 ≤ rho (wedgeNormal0 e - wedgeNormal1 e β)) (L : List V3) (hL : WedgeNode e β L) :
    freeCoeffs L = (1 - wedgeFraction β, fun i j => (if i = j then 1 else 0) - wedgeTensor e β i j) := by
  rw [wedge_coeffs h hsep hL]
  have hpi := Real.pi_ne_zero
  have ha : geomAlpha [wedgeNormal0 e, wedgeNormal1 e β] = 1 - β / (2 * Real.pi) := by
    rw [alpha_two, wedge_n0n1 h, ← Real.cos_sub_pi, Real.arccos_cos (by linarith) (by linarith)]
    field_simp
    ring
  refine Prod.ext (by rw [ha, wedgeFraction_eq]) ?_
  funext i j
  show cMatrix [wedgeNormal0 e, wedgeNormal1 e β] i j = (if i = j then 1 else 0) - wedgeTensor e β i j
  have hs : Real.sin β < 0 := by
    have : Real.sin (β - Real.pi) = -Real.sin β := Real.sin_sub_pi β
    have h2 := Real.sin_pos_of_pos_of_lt_pi (x := β - Real.pi) (by linarith) (by linarith)
    linarith
  rw [tensor_two (wedge_n0 h) (wedge_n1 h β), ha, wedgeTensor_eq h, wedge_edgeTerm h, abs_of_neg hs]
  have e1 : Real.sin β ^ 2 / -Real.sin β = -Real.sin β := by
    rw [div_neg, pow_two, mul_div_assoc, div_self hs.ne, mul_one]
  rw [e1]
  split_ifs <;> ring

/-- **C66**, refutation. The free coefficients of nodes on reentrant edges are never the ones of the domain. -/
theorem C66_reentrant_refuted (e : Fin 3 → V3) (h : Frame e) (β : ℝ) (h0 : Real.pi < β) (h1 : β < 2 * Real.pi)
    (hsep : 1e-5 ≤ rho (wedgeNormal0 e - wedgeNormal1 e β)) (L : List V3) (hL : WedgeNode e β L) :
    (freeCoeffs L).1 < wedgeFraction β := by
  rw [C66_reentrant_edge e h β h0 h1 hsep L hL, wedgeFraction_eq]
  have : 1 / 2 < β / (2 * Real.pi) := by
    rw [lt_div_iff₀ (by positivity)]; linarith
  show 1 - _ < _
  linarith

/-! ## From the mesh to the coefficients of a node -/

/-- **C66** (normals of a node). The normals used for dof `i` are exactly the normals of the cells at those of their
support points that have `i` among their doubles. -/
theorem C66_node_normals (nCells : ℕ) (cellDofs : ℕ → List ℕ) (doubles : ℕ → Finset ℕ) (normal : ℕ → ℕ → V3) (i : ℕ)
    (v : V3) : v ∈ nodeNormals nCells cellDofs doubles normal i ↔
      ∃ c < nCells, ∃ j, ∃ h : j < (cellDofs c).length, i ∈ doubles ((cellDofs c)[j]) ∧ v = normal c j := by
  unfold nodeNormals
  simp only [List.mem_flatMap, List.mem_range]
  constructor
  · rintro ⟨c, hc, j, hj, hm⟩
    rw [List.getD_eq_getElem _ _ hj] at hm
    split_ifs at hm with hi
    · exact ⟨c, hc, j, hj, hi, by simpa using hm⟩
    · simp at hm
  · rintro ⟨c, hc, j, hj, hi, rfl⟩
    refine ⟨c, hc, j, hj, ?_⟩
    rw [List.getD_eq_getElem _ _ hj, if_pos hi]
    simp

/-- **C66** (coefficients of a smooth node). If some cell touches the node and the normals of all the cells touching it (or
one of its doubles) agree there within `1e-5`, `hyp_alpha` is 1/2 and the tensor half the identity. -/
theorem C66_smooth_node (nCells : ℕ) (cellDofs : ℕ → List ℕ) (doubles : ℕ → Finset ℕ) (normal : ℕ → ℕ → V3) (i : ℕ)
    (hex : ∃ c < nCells, ∃ j, ∃ h : j < (cellDofs c).length, i ∈ doubles ((cellDofs c)[j]))
    (hagree : ∀ c < nCells, ∀ j, ∀ h : j < (cellDofs c).length, i ∈ doubles ((cellDofs c)[j]) →
      ∀ c' < nCells, ∀ j', ∀ h' : j' < (cellDofs c').length, i ∈ doubles ((cellDofs c')[j']) →
        rho (normal c j - normal c' j') < 1e-5) :
    freeCoeffs (nodeNormals nCells cellDofs doubles normal i) = (1 / 2, fun i j => if i = j then 1 / 2 else 0) := by
  have hm := C66_node_normals nCells cellDofs doubles normal i
  obtain ⟨c, hc, j, hj, hi⟩ := hex
  have hmem := (hm (normal c j)).2 ⟨c, hc, j, hj, hi, rfl⟩
  cases hL : nodeNormals nCells cellDofs doubles normal i with
  | nil => rw [hL] at hmem; simp at hmem
  | cons n L =>
    apply C66_smooth
    intro m hmL
    obtain ⟨c1, hc1, j1, hj1, hi1, rfl⟩ := (hm m).1 (by rw [hL]; exact List.mem_cons_of_mem _ hmL)
    obtain ⟨c2, hc2, j2, hj2, hi2, rfl⟩ := (hm n).1 (by rw [hL]; exact List.mem_cons_self)
    exact hagree c1 hc1 j1 hj1 hi1 c2 hc2 j2 hj2 hi2

/-- **C66** (coefficients of a node of a convex edge). If the cells touching the node or one of its doubles are those of
the two faces of a wedge of inner angle `β < π`, and both faces have such a cell, the coefficients are those of the wedge. -/
theorem C66_convex_edge_node (nCells : ℕ) (cellDofs : ℕ → List ℕ) (doubles : ℕ → Finset ℕ) (normal : ℕ → ℕ → V3) (i : ℕ)
    (e : Fin 3 → V3) (h : Frame e) (β : ℝ) (h0 : 0 < β) (h1 : β < Real.pi)
    (hsep : 1e-5 ≤ rho (wedgeNormal0 e - wedgeNormal1 e β))
    (hex0 : ∃ c < nCells, ∃ j, ∃ h : j < (cellDofs c).length, i ∈ doubles ((cellDofs c)[j]) ∧ normal c j = wedgeNormal0 e)
    (hex1 : ∃ c < nCells, ∃ j, ∃ h : j < (cellDofs c).length, i ∈ doubles ((cellDofs c)[j]) ∧ normal c j = wedgeNormal1 e β)
    (hall : ∀ c < nCells, ∀ j, ∀ h : j < (cellDofs c).length, i ∈ doubles ((cellDofs c)[j]) →
      normal c j = wedgeNormal0 e ∨ normal c j = wedgeNormal1 e β) :
    freeCoeffs (nodeNormals nCells cellDofs doubles normal i) = (wedgeFraction β, wedgeTensor e β) := by
  refine C66_convex_edge e h β h0 h1 hsep _ fun n => ?_
  rw [C66_node_normals]
  constructor
  · rintro ⟨c, hc, j, hj, hi, rfl⟩
    exact hall c hc j hj hi
  · rintro (rfl | rfl)
    · obtain ⟨c, hc, j, hj, hi, hn⟩ := hex0
      exact ⟨c, hc, j, hj, hi, hn.symm⟩
    · obtain ⟨c, hc, j, hj, hi, hn⟩ := hex1
      exact ⟨c, hc, j, hj, hi, hn.symm⟩

/-- **C66** (double nodes). Two dofs that are doubles of the same dofs get the same coefficients. -/
theorem C66_doubles_share (nCells : ℕ) (cellDofs : ℕ → List ℕ) (doubles : ℕ → Finset ℕ) (normal : ℕ → ℕ → V3) (i k : ℕ)
    (h : ∀ g, i ∈ doubles g ↔ k ∈ doubles g) :
    nodeNormals nCells cellDofs doubles normal i = nodeNormals nCells cellDofs doubles normal k ∧
    freeCoeffs (nodeNormals nCells cellDofs doubles normal i) =
      freeCoeffs (nodeNormals nCells cellDofs doubles normal k) := by
  have : nodeNormals nCells cellDofs doubles normal i = nodeNormals nCells cellDofs doubles normal k := by
    unfold nodeNormals
    simp only [h]
  exact ⟨this, by rw [this]⟩

/-- Non-vacuity: two cells sharing a sharp edge by double nodes 1 and 2. Dof 1 gets the normal of both cells, dof 0 only
that of its own. -/
example : nodeNormals 2 (fun c => if c = 0 then [0, 1] else [2, 3])
      (fun g => if g = 1 ∨ g = 2 then {1, 2} else {g}) (fun c _ => fun _ => (c : ℝ)) 1 = [fun _ => ((0 : ℕ) : ℝ), fun _ => ((1 : ℕ) : ℝ)] ∧
    freeCoeffs (nodeNormals 2 (fun c => if c = 0 then [0, 1] else [2, 3])
      (fun g => if g = 1 ∨ g = 2 then {1, 2} else {g}) (fun c _ => fun _ => (c : ℝ)) 0) =
        (1 / 2, fun i j => if i = j then 1 / 2 else 0) := by
  constructor
  · unfold nodeNormals
    simp [List.range_succ]
  · apply C66_smooth_node
    · exact ⟨0, by norm_num, 0, by simp, by simp⟩
    · intro c hc j hj hi c' hc' j' hj' hi'
      have key : ∀ c < 2, ∀ j, ∀ h : j < (if c = 0 then [0, 1] else [2, 3] : List ℕ).length,
          0 ∈ (fun g : ℕ => if g = 1 ∨ g = 2 then ({1, 2} : Finset ℕ) else {g}) ((if c = 0 then [0, 1] else [2, 3] : List ℕ)[j]) →
          c = 0 := by
        intro c hc j h hi
        by_contra hne
        simp only [hne, if_false] at h hi
        have : j = 0 ∨ j = 1 := by simp at h; omega
        rcases this with rfl | rfl <;> simp at hi
      rw [key c hc j hj hi, key c' hc' j' hj' hi', sub_self, rho_zero]
      norm_num

end PiBem.Bem
