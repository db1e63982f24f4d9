import Verif.Bem.PlaneFree
import Verif.Props.FreeCoeffs

/-!
# C87: free coefficients in dimension 2
-/

noncomputable section

namespace PiBem.Bem.Plane

/-! ## Specification -/

/-- Two orthonormal vectors. -/
def Frame2 (e : Fin 2 → V2) : Prop := ∀ a b, ∑ d, e a d * e b d = if a = b then 1 else 0

/-- The direction at angle `φ` from the first vector. -/
def direction2 (e : Fin 2 → V2) (φ : ℝ) : V2 := fun i => Real.cos φ * e 0 i + Real.sin φ * e 1 i

/-- Outward normals of the two sides of a corner of inner angle `β`: the domain is at the angles between 0 and `β`. -/
def cornerNormal0 (e : Fin 2 → V2) : V2 := fun i => -e 1 i
def cornerNormal1 (e : Fin 2 → V2) (β : ℝ) : V2 := fun i => -Real.sin β * e 0 i + Real.cos β * e 1 i

/-- Fraction of the unit circle inside the corner. -/
def cornerFraction (β : ℝ) : ℝ := 1 / (2 * Real.pi) * ∫ _φ in (0 : ℝ)..β, (1 : ℝ)

/-- Free tensor of the gradient equation: `1/π` times the integral of `ω ωᵀ` on the directions inside the corner. -/
def cornerTensor (e : Fin 2 → V2) (β : ℝ) (i j : Fin 2) : ℝ :=
  1 / Real.pi * ∫ φ in (0 : ℝ)..β, direction2 e φ i * direction2 e φ j

/-- The normals of a node are those of the two sides of a corner. -/
def CornerNode (e : Fin 2 → V2) (β : ℝ) (L : List V2) : Prop := ∀ n, n ∈ L ↔ n = cornerNormal0 e ∨ n = cornerNormal1 e β

/-! ## Normals -/

theorem norm2_zero : Kernel.norm (0 : V2) = 0 := by simp [Kernel.norm, Kernel.square]

theorem norm2_comm (a b : V2) : Kernel.norm (a - b) = Kernel.norm (b - a) := by
  unfold Kernel.norm Kernel.square
  congr 1
  exact Finset.sum_congr rfl fun d _ => by simp only [Pi.sub_apply]; ring

theorem foldl_unique2 (L U : List V2) (hU : U.Pairwise fun u v => 1e-5 ≤ Kernel.norm (v - u)) :
    (∀ u ∈ L.foldl uniqueStep2 U, u ∈ U ∨ u ∈ L) ∧ (∀ u ∈ U, u ∈ L.foldl uniqueStep2 U) ∧
    (∀ n ∈ L, ∃ u ∈ L.foldl uniqueStep2 U, Kernel.norm (n - u) < 1e-5) ∧
    (L.foldl uniqueStep2 U).Pairwise fun u v => 1e-5 ≤ Kernel.norm (v - u) := by
  induction L generalizing U with
  | nil => simpa using hU
  | cons n L ih =>
    rw [List.foldl_cons]
    by_cases h : ∃ u ∈ U, Kernel.norm (n - u) < 1e-5
    · have e : uniqueStep2 U n = U := by unfold uniqueStep2; rw [if_pos h]
      rw [e]
      obtain ⟨h1, h2, h3, h4⟩ := ih U hU
      refine ⟨fun u hu => ?_, h2, fun m hm => ?_, h4⟩
      · rcases h1 u hu with h | h
        · exact Or.inl h
        · exact Or.inr (List.mem_cons_of_mem _ h)
      · rcases List.mem_cons.1 hm with rfl | hm
        · obtain ⟨u, hu, hr⟩ := h; exact ⟨u, h2 u hu, hr⟩
        · exact h3 m hm
    · have e : uniqueStep2 U n = U ++ [n] := by unfold uniqueStep2; rw [if_neg h]
      rw [e]
      push Not at h
      obtain ⟨h1, h2, h3, h4⟩ := ih (U ++ [n]) (by
        rw [List.pairwise_append]
        exact ⟨hU, List.pairwise_singleton _ _, fun a ha b hb => by
          rw [List.mem_singleton] at hb; subst hb; exact h a ha⟩)
      refine ⟨fun u hu => ?_, fun u hu => h2 u (List.mem_append_left _ hu), fun m hm => ?_, h4⟩
      · rcases h1 u hu with h | h
        · rcases List.mem_append.1 h with h | h
          · exact Or.inl h
          · exact Or.inr (by simp [List.mem_singleton.1 h])
        · exact Or.inr (List.mem_cons_of_mem _ h)
      · rcases List.mem_cons.1 hm with rfl | hm
        · exact ⟨m, h2 m (by simp), by rw [sub_self, norm2_zero]; norm_num⟩
        · exact h3 m hm

/-- **C87** (normals kept). They are normals of the node, at least `1e-5` apart, and every normal of the node is within `1e-5` of one of them; the loop that should order
them changes nothing. -/
theorem C87_normals (L : List V2) :
    (∀ u ∈ uniqueNormals2 L, u ∈ L) ∧ (∀ n ∈ L, ∃ u ∈ uniqueNormals2 L, Kernel.norm (n - u) < 1e-5) ∧
    ((uniqueNormals2 L).Pairwise fun u v => 1e-5 ≤ Kernel.norm (v - u)) ∧ orderedNormals2 (uniqueNormals2 L) = uniqueNormals2 L := by
  obtain ⟨h1, _, h3, h4⟩ := foldl_unique2 L [] List.Pairwise.nil
  refine ⟨fun u hu => (h1 u hu).resolve_left (by simp), h3, h4, ?_⟩
  have : ∀ R : List V2, orderLoop2 R.length R = R := by
    intro R
    induction R with
    | nil => rfl
    | cons u R ih => simp only [List.length_cons, orderLoop2, List.getD_cons_zero, List.eraseIdx_cons_zero, ih]
  cases uniqueNormals2 L with
  | nil => rfl
  | cons u R => show u :: orderLoop2 R.length R = _; rw [this]

/-- **C87** (tensor). For every list of normals the tensor is `hyp_alpha` times the identity. -/
theorem C87_tensor (L : List V2) (i j : Fin 2) : (freeCoeffs2 L).2 i j = if i = j then (freeCoeffs2 L).1 else 0 := by
  unfold freeCoeffs2
  generalize orderedNormals2 (uniqueNormals2 L) = O
  show cMatrix2 O i j = if i = j then geomAlpha2 O else 0
  unfold cMatrix2
  have : ∀ (l : List ℕ) (c : ℝ), l.foldl (fun c k => c - (((1 : ℤ) / (2 : ℤ) : ℤ) : ℝ) / Real.pi * (tangent2 O k i * (O.getD k 0) j)) c = c := by
    intro l
    induction l with
    | nil => intro c; rfl
    | cons k l ih =>
      intro c
      rw [List.foldl_cons, ih]
      have : (1 : ℤ) / 2 = 0 := by decide
      rw [this]
      simp
  simp only [this, ite_self]

/-- **C87** (smooth nodes). If all the normals of a node are within `1e-5` of the first, `hyp_alpha` is the fraction of a half plane and the tensor its tensor. -/
theorem C87_smooth (n : V2) (L : List V2) (h : ∀ m ∈ L, Kernel.norm (m - n) < 1e-5) :
    freeCoeffs2 (n :: L) = (1 / 2, fun i j => if i = j then 1 / 2 else 0) := by
  have hU : uniqueNormals2 (n :: L) = [n] := by
    unfold uniqueNormals2
    rw [List.foldl_cons]
    have : uniqueStep2 [] n = [n] := by unfold uniqueStep2; simp
    rw [this]
    induction L with
    | nil => rfl
    | cons m L ih =>
      rw [List.foldl_cons]
      have : uniqueStep2 [n] m = [n] := by
        unfold uniqueStep2; rw [if_pos ⟨n, by simp, h m (by simp)⟩]
      rw [this]
      exact ih fun m hm => h m (by simp [hm])
  have ha : (freeCoeffs2 (n :: L)).1 = 1 / 2 := by
    show geomAlpha2 (orderedNormals2 (uniqueNormals2 (n :: L))) = 1 / 2
    rw [(C87_normals _).2.2.2, hU]
    have := Real.pi_ne_zero
    simp [geomAlpha2]
    field_simp
    norm_num
  refine Prod.ext ha ?_
  funext i j
  rw [C87_tensor, ha]

/-! ## Corners -/

theorem dot2_comm (a b : V2) : dot2 a b = dot2 b a := Finset.sum_congr rfl fun _ _ => mul_comm _ _

theorem alpha2_two (a b : V2) : geomAlpha2 [a, b] = (2 * Real.pi - 2 * Real.arccos (dot2 a b)) / (4 * Real.pi) := by
  simp [geomAlpha2, List.range'_succ]
  rw [dot2_comm b a]
  ring

theorem corner_dot {e : Fin 2 → V2} (h : Frame2 e) (β : ℝ) : dot2 (cornerNormal0 e) (cornerNormal1 e β) = -Real.cos β := by
  have h10 := h 1 0; have h11 := h 1 1
  simp only [Fin.sum_univ_two, if_true, one_ne_zero, if_false] at h10 h11
  simp only [dot2, cornerNormal0, cornerNormal1, Fin.sum_univ_two]
  linear_combination Real.sin β * h10 - Real.cos β * h11

theorem corner_alpha {e : Fin 2 → V2} (h : Frame2 e) {β : ℝ} (hsep : 1e-5 ≤ Kernel.norm (cornerNormal0 e - cornerNormal1 e β)) {L : List V2}
    (hL : CornerNode e β L) : (freeCoeffs2 L).1 = (2 * Real.pi - 2 * Real.arccos (-Real.cos β)) / (4 * Real.pi) := by
  have hne : cornerNormal0 e ≠ cornerNormal1 e β := by
    intro he; rw [he, sub_self, norm2_zero] at hsep; norm_num at hsep
  obtain ⟨h1, h2, h3, h4⟩ := C87_normals L
  have hmem : ∀ n, n ∈ uniqueNormals2 L ↔ n ∈ [cornerNormal0 e, cornerNormal1 e β] := by
    intro n
    constructor
    · intro hn
      simpa using (hL n).1 (h1 n hn)
    · intro hn
      have hnL : n ∈ L := (hL n).2 (by simpa using hn)
      obtain ⟨u, hu, hr⟩ := h2 n hnL
      have hu' := (hL u).1 (h1 u hu)
      simp only [List.mem_cons, List.not_mem_nil, or_false] at hn
      rcases hn with rfl | rfl <;> rcases hu' with rfl | rfl
      · exact hu
      · linarith
      · rw [norm2_comm] at hr; linarith
      · exact hu
  have hnd : (uniqueNormals2 L).Nodup := h3.imp fun {u v} huv he => by rw [he, sub_self, norm2_zero] at huv; norm_num at huv
  have hp : (uniqueNormals2 L).Perm [cornerNormal0 e, cornerNormal1 e β] := (List.perm_ext_iff_of_nodup hnd (by simp [hne])).2 hmem
  have : uniqueNormals2 L = [cornerNormal0 e, cornerNormal1 e β] ∨ uniqueNormals2 L = [cornerNormal1 e β, cornerNormal0 e] := by
    have hl := hp.length_eq
    match hu : uniqueNormals2 L, hl with
    | [x, y], _ =>
      rw [hu] at hmem hnd
      have hx := (hmem x).1 (by simp)
      have hy := (hmem y).1 (by simp)
      have hxy : x ≠ y := by simpa using hnd
      simp only [List.mem_cons, List.not_mem_nil, or_false] at hx hy
      rcases hx with rfl | rfl <;> rcases hy with rfl | rfl
      · exact absurd rfl hxy
      · exact Or.inl rfl
      · exact Or.inr rfl
      · exact absurd rfl hxy
  show geomAlpha2 (orderedNormals2 (uniqueNormals2 L)) = _
  rw [h4]
  rcases this with h' | h'
  · rw [h', alpha2_two, corner_dot h]
  · rw [h', alpha2_two, dot2_comm, corner_dot h]

theorem cornerFraction_eq (β : ℝ) : cornerFraction β = β / (2 * Real.pi) := by
  unfold cornerFraction
  simp
  ring

/-- **C87** (corners, `hyp_alpha`). At a corner of inner angle `β` it is the fraction of the circle inside the domain if the corner is convex, the fraction outside if it
is reentrant. -/
theorem C87_corner (e : Fin 2 → V2) (h : Frame2 e) (β : ℝ) (hsep : 1e-5 ≤ Kernel.norm (cornerNormal0 e - cornerNormal1 e β)) (L : List V2)
    (hL : CornerNode e β L) :
    (0 < β → β < Real.pi → (freeCoeffs2 L).1 = cornerFraction β) ∧
    (Real.pi < β → β < 2 * Real.pi → (freeCoeffs2 L).1 = 1 - cornerFraction β ∧ (freeCoeffs2 L).1 < cornerFraction β) := by
  have hpi := Real.pi_pos
  have hpi' := Real.pi_ne_zero
  rw [corner_alpha h hsep hL, cornerFraction_eq]
  constructor
  · intro h0 h1
    rw [← Real.cos_pi_sub, Real.arccos_cos (by linarith) (by linarith)]
    field_simp
    ring
  · intro h0 h1
    have e1 : (2 * Real.pi - 2 * Real.arccos (-Real.cos β)) / (4 * Real.pi) = 1 - β / (2 * Real.pi) := by
      rw [← Real.cos_sub_pi, Real.arccos_cos (by linarith) (by linarith)]
      field_simp
      ring
    refine ⟨e1, ?_⟩
    rw [e1]
    have : 1 / 2 < β / (2 * Real.pi) := by rw [lt_div_iff₀ (by positivity)]; linarith
    linarith

theorem cornerTensor_eq (e : Fin 2 → V2) (β : ℝ) (i j : Fin 2) :
    cornerTensor e β i j = 1 / (2 * Real.pi) * (β * (e 0 i * e 0 j + e 1 i * e 1 j) +
      Real.sin β * Real.cos β * (e 0 i * e 0 j - e 1 i * e 1 j) + Real.sin β ^ 2 * (e 0 i * e 1 j + e 1 i * e 0 j)) := by
  have hd : ∀ φ : ℝ, HasDerivAt (fun φ : ℝ => 1 / 2 * (φ * (e 0 i * e 0 j + e 1 i * e 1 j) +
      Real.sin φ * Real.cos φ * (e 0 i * e 0 j - e 1 i * e 1 j) + Real.sin φ ^ 2 * (e 0 i * e 1 j + e 1 i * e 0 j)))
      (direction2 e φ i * direction2 e φ j) φ := by
    intro φ
    have hc := Real.hasDerivAt_cos φ
    have hs := Real.hasDerivAt_sin φ
    have := ((((hasDerivAt_id φ).mul_const (e 0 i * e 0 j + e 1 i * e 1 j)).add ((hs.mul hc).mul_const (e 0 i * e 0 j - e 1 i * e 1 j))).add
      ((hs.pow 2).mul_const (e 0 i * e 1 j + e 1 i * e 0 j))).const_mul (1 / 2)
    refine (this.congr_deriv ?_)
    have h2 := Real.sin_sq_add_cos_sq φ
    simp only [direction2]
    push_cast
    linear_combination (-(1 / 2) * (e 0 i * e 0 j + e 1 i * e 1 j)) * h2
  unfold cornerTensor
  rw [intervalIntegral.integral_eq_sub_of_hasDerivAt (fun φ _ => hd φ) (Continuous.intervalIntegrable (by unfold direction2; fun_prop) _ _)]
  simp
  ring

/-- **C87** (corners, tensor). The tensor of the gradient equation at a corner is `hyp_alpha` times the identity at no corner: the tensor computed is wrong at
every corner, convex or reentrant (in fact from no list of normals is the tensor of a corner obtained). -/
theorem C87_tensor_refuted (e : Fin 2 → V2) (h : Frame2 e) (β : ℝ) (h0 : 0 < β) (h1 : β < 2 * Real.pi) (hne : β ≠ Real.pi)
    (L : List V2) : (freeCoeffs2 L).2 ≠ cornerTensor e β := by
  intro heq
  have hpi := Real.pi_pos
  have hs : Real.sin β ≠ 0 := by
    intro hs
    rcases lt_or_gt_of_ne hne with hlt | hgt
    · exact absurd hs (Real.sin_pos_of_pos_of_lt_pi h0 hlt).ne'
    · have := Real.sin_pos_of_pos_of_lt_pi (x := β - Real.pi) (by linarith) (by linarith)
      rw [Real.sin_sub_pi, hs] at this
      simp at this
  -- the quadratic form of the tensor on the two vectors of the frame, and the mixed one
  have h00 := h 0 0; have h01 := h 0 1; have h11 := h 1 1
  simp only [Fin.sum_univ_two, if_true, zero_ne_one, if_false] at h00 h01 h11
  have hij : ∀ i j, (if i = j then (freeCoeffs2 L).1 else 0) = cornerTensor e β i j := fun i j => by
    rw [← C87_tensor]; exact congrFun (congrFun heq i) j
  have t00 := hij 0 0; have t01 := hij 0 1; have t10 := hij 1 0; have t11 := hij 1 1
  simp only [if_true, zero_ne_one, one_ne_zero, if_false, cornerTensor_eq] at t00 t01 t10 t11
  set α := (freeCoeffs2 L).1
  set k := 1 / (2 * Real.pi) with hk
  have hk0 : k ≠ 0 := by positivity
  -- form (e0, e1): k sin²β = 0
  have hmix : k * Real.sin β ^ 2 = 0 := by
    linear_combination -(e 0 0 * e 1 0 * t00 + e 0 0 * e 1 1 * t01 + e 0 1 * e 1 0 * t10 + e 0 1 * e 1 1 * t11) +
      (α - k * (β * (e 0 0 * e 0 0 + e 0 1 * e 0 1 + (e 1 0 * e 1 0 + e 1 1 * e 1 1)) +
        Real.sin β * Real.cos β * (e 0 0 * e 0 0 + e 0 1 * e 0 1 - (e 1 0 * e 1 0 + e 1 1 * e 1 1)) +
        Real.sin β ^ 2 * (e 0 0 * e 1 0 + e 0 1 * e 1 1))) * h01 -
      k * Real.sin β ^ 2 * (e 1 0 * e 1 0 + e 1 1 * e 1 1) * h00 - k * Real.sin β ^ 2 * h11
  rcases mul_eq_zero.1 hmix with h | h
  · exact hk0 h
  · exact hs (pow_eq_zero_iff (two_ne_zero) |>.1 h)

/-- **C87** (vector `b`). It is zero at every node, whatever the curve: no exception is thrown. -/
theorem C87_b (nCells : ℕ) (cellDofs : ℕ → List ℕ) (doubles : ℕ → Finset ℕ) (own : ℕ → Bool) (d : Fin 2) (i : ℕ) :
    freeB2 nCells cellDofs doubles own d i = 0 := by
  unfold freeB2 freeB freeTermB2
  have h1 : ∀ (l : List ℕ) (B : ℕ → ℝ), l.foldl (fun B i => Function.update B i (B i + 0)) B = B := by
    intro l
    induction l with
    | nil => intro B; rfl
    | cons k l ih => intro B; rw [List.foldl_cons, ih]; simp
  have h2 : ∀ (l : List ℕ) (B : ℕ → ℝ), l.foldl (fun B _ => B) B = B := by
    intro l
    induction l with
    | nil => intro B; rfl
    | cons k l ih => intro B; rw [List.foldl_cons, ih]
  simp only [h1, ite_self, h2]

/-! ## Concrete cases -/

/-- the axes -/
def axes : Fin 2 → V2 := ![![1, 0], ![0, 1]]

theorem axes_frame : Frame2 axes := by
  intro a b
  fin_cases a <;> fin_cases b <;> simp [axes]

/-- Hypotheses of `C87_corner` and `C87_tensor_refuted`: the corner of a square, and a reentrant one. -/
example : ∃ β, 0 < β ∧ β < Real.pi ∧ 1e-5 ≤ Kernel.norm (cornerNormal0 axes - cornerNormal1 axes β) ∧
    CornerNode axes β (nodeNormals2 2 (fun c => if c = 0 then [0, 1] else [2, 3]) (fun g => if g = 1 ∨ g = 2 then {1, 2} else {g})
      (fun c _ => if c = 0 then cornerNormal0 axes else cornerNormal1 axes β) 1) := by
  refine ⟨Real.pi / 2, by positivity, by have := Real.pi_pos; linarith, ?_, fun n => ?_⟩
  · unfold Kernel.norm Kernel.square
    refine Real.le_sqrt_of_sq_le ?_
    simp [cornerNormal0, cornerNormal1, axes, Fin.sum_univ_two]
    norm_num
  · unfold nodeNormals2
    simp [List.range_succ]

example : ∃ β, Real.pi < β ∧ β < 2 * Real.pi ∧ 1e-5 ≤ Kernel.norm (cornerNormal0 axes - cornerNormal1 axes β) ∧
    CornerNode axes β [cornerNormal0 axes, cornerNormal1 axes β] := by
  refine ⟨Real.pi / 2 + Real.pi, by have := Real.pi_pos; linarith, by have := Real.pi_pos; linarith, ?_, fun n => by simp⟩
  unfold Kernel.norm Kernel.square
  refine Real.le_sqrt_of_sq_le ?_
  simp [cornerNormal0, cornerNormal1, axes, Fin.sum_univ_two, Real.sin_add_pi, Real.cos_add_pi]
  norm_num

end PiBem.Bem.Plane
