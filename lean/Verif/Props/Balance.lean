import Verif.Props.ConvexHanging
import Verif.Props.ConvexPlane
import Mathlib.LinearAlgebra.Matrix.ToLinearEquiv
import Mathlib.LinearAlgebra.FiniteDimensional.Lemmas

/-!
# C115: balance of the normal derivatives on convex surfaces

The discrete form of Gauss's law. On a connected convex surface there are positive weights, one for each node, that depend on the surface only, such that the weighted sum of the normal derivatives of
every exact solution is zero; and normal derivatives are those of an exact solution exactly if their weighted sum is zero.
-/

noncomputable section

namespace PiBem.Bem

open PiBem.Octree PiBem.Fmm PiBem.Expansion

variable {n d : ℕ}

/-! ## Matrices without positive entries -/

/-- double layer of the differences -/
def differences (N : Mat n) (phi : Vec n) (i : Fin n) : ℝ := ∑ k, N i k * (phi k - phi i)

/-- `w` weights the rows such that the weighted sum of the double layers of the differences vanishes. -/
def RowWeights (N : Mat n) (w : Vec n) : Prop := ∀ k, ∑ i, w i * N i k = w k * ∑ j, N k j

theorem RowWeights.differences {N : Mat n} {w : Vec n} (h : RowWeights N w) (phi : Vec n) : ∑ i, w i * PiBem.Bem.differences N phi i = 0 := by
  have h1 : ∑ i, w i * PiBem.Bem.differences N phi i = ∑ k, phi k * (∑ i, w i * N i k) - ∑ i, phi i * (w i * ∑ j, N i j) := by
    unfold PiBem.Bem.differences
    have e : ∑ k, phi k * (∑ i, w i * N i k) = ∑ i, ∑ k, w i * (N i k * phi k) := by
      rw [Finset.sum_comm]
      refine Finset.sum_congr rfl fun k _ => ?_
      rw [Finset.mul_sum]
      exact Finset.sum_congr rfl fun i _ => by ring
    rw [e, ← Finset.sum_sub_distrib]
    refine Finset.sum_congr rfl fun i _ => ?_
    rw [Finset.mul_sum, Finset.mul_sum, Finset.mul_sum, ← Finset.sum_sub_distrib]
    exact Finset.sum_congr rfl fun k _ => by ring
  rw [h1, ← Finset.sum_sub_distrib]
  exact Finset.sum_eq_zero fun k _ => by rw [h k, sub_self]

theorem RowWeights.of_differences {N : Mat n} {w : Vec n} (h : ∀ phi, ∑ i, w i * PiBem.Bem.differences N phi i = 0) : RowWeights N w := by
  intro k
  have h1 := h (Pi.single k 1)
  have h2 : ∀ i, w i * PiBem.Bem.differences N (Pi.single k 1) i = w i * N i k - (if i = k then w k * ∑ j, N k j else 0) := by
    intro i
    unfold PiBem.Bem.differences
    have : ∑ j, N i j * ((Pi.single k 1 : Vec n) j - (Pi.single k 1 : Vec n) i) = N i k - (∑ j, N i j) * (Pi.single k 1 : Vec n) i := by
      simp only [mul_sub, Finset.sum_sub_distrib, Finset.sum_mul]
      congr 1
      simp [Pi.single_apply]
    rw [this]
    by_cases hi : i = k
    · subst hi; simp; ring
    · simp [hi]
  rw [Finset.sum_congr rfl fun i _ => h2 i, Finset.sum_sub_distrib, Finset.sum_ite_eq' Finset.univ k, if_pos (Finset.mem_univ k)] at h1
  linarith

theorem rowWeights_exist (N : Mat n) (hn : 0 < n) : ∃ w : Vec n, w ≠ 0 ∧ RowWeights N w := by
  let A : Matrix (Fin n) (Fin n) ℝ := fun i k => N i k - if i = k then ∑ j, N i j else 0
  have hA : A.mulVec (fun _ => 1) = 0 := by
    funext i
    simp only [Matrix.mulVec, dotProduct, A, mul_one, Finset.sum_sub_distrib, Finset.sum_ite_eq, Finset.mem_univ, if_true, sub_self, Pi.zero_apply]
  have hdet : A.det = 0 := Matrix.exists_mulVec_eq_zero_iff.1 ⟨fun _ => 1, fun h => by simpa using congrFun h ⟨0, hn⟩, hA⟩
  obtain ⟨w, hw, h⟩ := Matrix.exists_vecMul_eq_zero_iff.2 hdet
  refine ⟨w, hw, fun k => ?_⟩
  have hk := congrFun h k
  simp only [Matrix.vecMul, dotProduct, A, mul_sub, Finset.sum_sub_distrib, mul_ite, mul_zero, Finset.sum_ite_eq', Finset.mem_univ, if_true, Pi.zero_apply] at hk
  linarith

theorem RowWeights.abs {N : Mat n} (hN : ∀ i k, N i k ≤ 0) {w : Vec n} (h : RowWeights N w) : RowWeights N fun i => |w i| := by
  have hle : ∀ k ∈ Finset.univ, |w k| * ∑ j, -N k j ≤ ∑ i, |w i| * -N i k := by
    intro k _
    have h1 : |w k| * ∑ j, -N k j = |w k * ∑ j, N k j| := by
      rw [abs_mul, Finset.sum_neg_distrib, abs_of_nonpos (Finset.sum_nonpos fun j _ => hN k j)]
    rw [h1, ← h k]
    refine (Finset.abs_sum_le_sum_abs _ _).trans (le_of_eq (Finset.sum_congr rfl fun i _ => ?_))
    rw [abs_mul, abs_of_nonpos (hN i k)]
  have hsum : ∑ k, |w k| * ∑ j, -N k j = ∑ k, ∑ i, |w i| * -N i k := by
    rw [Finset.sum_comm]
    exact Finset.sum_congr rfl fun i _ => by rw [Finset.mul_sum]
  intro k
  have := (Finset.sum_eq_sum_iff_of_le hle).1 hsum k (Finset.mem_univ k)
  simp only [mul_neg, Finset.sum_neg_distrib, neg_inj] at this
  exact this.symm

/-- From every row one reaches every column by entries that are not zero. -/
def Linked (N : Mat n) : Prop := ∀ i k, Relation.ReflTransGen (fun a b => N a b < 0) i k

theorem RowWeights.zero {N : Mat n} (hN : ∀ i k, N i k ≤ 0) (hL : Linked N) {v : Vec n} (hv : ∀ i, 0 ≤ v i) (h : RowWeights N v) {k : Fin n} (hk : v k = 0) : v = 0 := by
  funext i
  have hr := hL i k
  induction hr using Relation.ReflTransGen.head_induction_on with
  | refl => exact hk
  | head hab _ ih =>
    rename_i a b _
    have hb : ∑ i, v i * N i b = 0 := by rw [h b, show v b = 0 from ih, zero_mul]
    have := (Finset.sum_eq_zero_iff_of_nonpos fun i _ => mul_nonpos_of_nonneg_of_nonpos (hv i) (hN i b)).1 hb a (Finset.mem_univ a)
    exact (mul_eq_zero.1 this).resolve_right hab.ne

theorem RowWeights.pos {N : Mat n} (hN : ∀ i k, N i k ≤ 0) (hL : Linked N) {w : Vec n} (hw : w ≠ 0) (h : RowWeights N w) (k : Fin n) : w k ≠ 0 := by
  intro hk
  have := (h.abs hN).zero hN hL (fun i => abs_nonneg _) (k := k) (by simp [hk])
  exact hw (funext fun i => by simpa using congrFun this i)

/-- There is exactly one choice of weights with sum one, and they are positive. -/
theorem rowWeights_unique {N : Mat n} (hN : ∀ i k, N i k ≤ 0) (hL : Linked N) (hn : 0 < n) :
    (∃ w : Vec n, (∀ i, 0 < w i) ∧ ∑ i, w i = 1 ∧ RowWeights N w) ∧ ∀ w w' : Vec n, ∑ i, w i = 1 → ∑ i, w' i = 1 → RowWeights N w → RowWeights N w' → w' = w := by
  constructor
  · obtain ⟨w, hw, h⟩ := rowWeights_exist N hn
    have hpos : ∀ i, 0 < |w i| := fun i => abs_pos.2 (h.pos hN hL hw i)
    have hs : 0 < ∑ i, |w i| := Finset.sum_pos (fun i _ => hpos i) ⟨⟨0, hn⟩, Finset.mem_univ _⟩
    refine ⟨fun i => |w i| / ∑ i, |w i|, fun i => div_pos (hpos i) hs, by rw [← Finset.sum_div, div_self hs.ne'], fun k => ?_⟩
    have := h.abs hN k
    simp only [div_mul_eq_mul_div, ← Finset.sum_div, this]
  · intro w w' s s' h h'
    let i0 : Fin n := ⟨0, hn⟩
    have hw : w ≠ 0 := by rintro rfl; simp at s
    have h0 := h.pos hN hL hw i0
    let v : Vec n := fun i => w' i - w' i0 / w i0 * w i
    have hv : RowWeights N v := by
      intro k
      simp only [v, sub_mul, Finset.sum_sub_distrib, mul_assoc, ← Finset.mul_sum]
      rw [h k, h' k]
    have hz : v = 0 := by
      by_contra hne
      exact hv.pos hN hL hne i0 (by simp only [v]; field_simp; ring)
    have he : ∀ i, w' i = w' i0 / w i0 * w i := fun i => by
      have := congrFun hz i
      simp only [v, Pi.zero_apply] at this
      linarith
    have ht : w' i0 / w i0 = 1 := by
      have : ∑ i, w' i = w' i0 / w i0 * ∑ i, w i := by
        rw [Finset.mul_sum]; exact Finset.sum_congr rfl fun i _ => he i
      rw [s, s', mul_one] at this
      exact this.symm
    funext i
    rw [he i, ht, one_mul]

/-- If the double layer of the differences vanishes, the potential is constant. -/
theorem constant_of_differences {N : Mat n} (hN : ∀ i k, N i k ≤ 0) (hL : Linked N) {phi : Vec n} (h : ∀ i, differences N phi i = 0) (i k : Fin n) : phi i = phi k := by
  obtain ⟨m, _, hm⟩ := Finset.exists_max_image Finset.univ phi ⟨i, Finset.mem_univ i⟩
  have hreach : ∀ k, phi k = phi m := by
    intro k
    have hk := hL m k
    induction hk with
    | refl => rfl
    | tail _ hab ih =>
      rename_i a b _
      have hz := (Finset.sum_eq_zero_iff_of_nonneg fun k _ => mul_nonneg_of_nonpos_of_nonpos (hN a k) (by rw [ih]; linarith [hm k (Finset.mem_univ k)])).1 (h a) b (Finset.mem_univ b)
      have := (mul_eq_zero.1 hz).resolve_left hab.ne
      linarith
  rw [hreach i, hreach k]

/-- The differences of potentials reach exactly the vectors with weighted sum zero. -/
theorem differences_range {N : Mat n} (hN : ∀ i k, N i k ≤ 0) (hL : Linked N) {w : Vec n} (hw : w ≠ 0) (h : RowWeights N w) (y : Vec n) :
    (∃ phi, ∀ i, differences N phi i = y i) ↔ ∑ i, w i * y i = 0 := by
  constructor
  · rintro ⟨phi, hphi⟩
    rw [← h.differences phi]
    exact Finset.sum_congr rfl fun i _ => by rw [hphi]
  · intro hy
    let L : Vec n →ₗ[ℝ] Vec n :=
      { toFun := fun phi i => differences N phi i
        map_add' := fun a b => by
          funext i
          simp only [differences, Pi.add_apply, ← Finset.sum_add_distrib]
          exact Finset.sum_congr rfl fun k _ => by ring
        map_smul' := fun t a => by
          funext i
          simp only [differences, Pi.smul_apply, smul_eq_mul, RingHom.id_apply, Finset.mul_sum]
          exact Finset.sum_congr rfl fun k _ => by ring }
    let F : Vec n →ₗ[ℝ] ℝ :=
      { toFun := fun y => ∑ i, w i * y i
        map_add' := fun a b => by
          simp only [Pi.add_apply, ← Finset.sum_add_distrib]
          exact Finset.sum_congr rfl fun k _ => by ring
        map_smul' := fun t a => by
          simp only [Pi.smul_apply, smul_eq_mul, RingHom.id_apply, Finset.mul_sum]
          exact Finset.sum_congr rfl fun k _ => by ring }
    obtain ⟨i0, hi0⟩ := Function.ne_iff.1 hw
    have hkerL : LinearMap.ker L = Submodule.span ℝ {(fun _ => 1 : Vec n)} := by
      ext phi
      rw [LinearMap.mem_ker, Submodule.mem_span_singleton]
      constructor
      · intro h0
        refine ⟨phi i0, ?_⟩
        funext k
        simp only [Pi.smul_apply, smul_eq_mul, mul_one]
        exact constant_of_differences hN hL (fun i => congrFun h0 i) i0 k
      · rintro ⟨t, rfl⟩
        funext i
        change differences N _ i = 0
        unfold differences
        simp
    have h1 : Module.finrank ℝ (LinearMap.ker L) = 1 := by
      rw [hkerL]
      exact finrank_span_singleton fun h0 => by simpa using congrFun h0 i0
    have h2 := L.finrank_range_add_finrank_ker
    have h3 := F.finrank_range_add_finrank_ker
    have hF : LinearMap.range F = ⊤ := by
      rw [LinearMap.range_eq_top]
      intro t
      refine ⟨Pi.single i0 (t / w i0), ?_⟩
      change ∑ i, w i * (Pi.single i0 (t / w i0) : Vec n) i = t
      rw [Finset.sum_eq_single i0]
      · rw [Pi.single_eq_same]
        have : w i0 ≠ 0 := hi0
        field_simp
      · intro b _ hb
        rw [Pi.single_eq_of_ne hb, mul_zero]
      · intro hn
        exact absurd (Finset.mem_univ i0) hn
    rw [hF, finrank_top, Module.finrank_self] at h3
    have hle : LinearMap.range L ≤ LinearMap.ker F := by
      rintro _ ⟨phi, rfl⟩
      exact h.differences phi
    have heq := Submodule.eq_of_le_of_finrank_eq hle (by omega)
    have hmem : y ∈ LinearMap.range L := by
      rw [heq]
      exact hy
    obtain ⟨phi, hphi⟩ := hmem
    exact ⟨phi, fun i => congrFun hphi i⟩

/-! ## Surfaces -/

/-- Weights `w` of the equations, with sum one, and `m` of the normal derivatives, such that for all potentials and normal derivatives, exact or not, the weighted residuals of the boundary integral equation
sum to minus the weighted sum of the normal derivatives: the potential drops out. -/
structure Balance (inp : Input 3) (D : Data) (S' : SingRule) (w m : Vec inp.nDofs) : Prop where
  rows : ∀ i, 0 < w i
  total : ∑ i, w i = 1
  nodes : ∀ k, 0 < m k
  balance : ∀ phi dphi : Vec inp.nDofs, ∑ i, w i * bieResidual inp D S' phi dphi i = -∑ k, m k * dphi k

variable {inp : Input 3} {D : Data} {S S' : SingRule}

theorem weighted_residual (w phi dphi : Vec inp.nDofs) : ∑ i, w i * bieResidual inp D S' phi dphi i =
    ∑ i, w i * differences (fun i k : Fin inp.nDofs => surfaceIntegral inp D S' .double i k) phi i - ∑ k : Fin inp.nDofs, (∑ i : Fin inp.nDofs, w i * surfaceIntegral inp D S' .single i k) * dphi k := by
  have e : ∑ k : Fin inp.nDofs, (∑ i : Fin inp.nDofs, w i * surfaceIntegral inp D S' .single i k) * dphi k =
      ∑ i : Fin inp.nDofs, w i * ∑ k : Fin inp.nDofs, surfaceIntegral inp D S' .single i k * dphi k := by
    simp only [Finset.sum_mul, Finset.mul_sum]
    rw [Finset.sum_comm]
    exact Finset.sum_congr rfl fun i _ => Finset.sum_congr rfl fun k _ => by ring
  rw [e, ← Finset.sum_sub_distrib]
  exact Finset.sum_congr rfl fun i _ => by unfold bieResidual differences; ring

theorem convex_matrix (hK : ConvexSurface inp D S') (hcon : Connected inp D S') :
    (∀ i k : Fin inp.nDofs, surfaceIntegral inp D S' .double i k ≤ 0) ∧ Linked fun i k : Fin inp.nDofs => surfaceIntegral inp D S' .double i k :=
  ⟨fun i k => (double_entry_sign hK i.isLt k).1, fun i k => Relation.ReflTransGen.mono (fun (a b : Fin inp.nDofs) hab => (double_entry_sign hK a.isLt b).2.2 hab) i k (hcon i k)⟩

theorem Balance.weights {w m : Vec inp.nDofs} (h : Balance inp D S' w m) :
    RowWeights (fun i k : Fin inp.nDofs => surfaceIntegral inp D S' .double i k) w ∧ ∀ k : Fin inp.nDofs, m k = ∑ i : Fin inp.nDofs, w i * surfaceIntegral inp D S' .single i k := by
  constructor
  · refine RowWeights.of_differences fun phi => ?_
    have := h.balance phi 0
    rw [weighted_residual] at this
    simpa using this
  · intro k
    have := h.balance 0 (Pi.single k 1)
    rw [weighted_residual] at this
    have e0 : ∑ i, w i * differences (fun i k : Fin inp.nDofs => surfaceIntegral inp D S' .double i k) 0 i = 0 := by simp [differences]
    rw [e0, zero_sub, neg_inj] at this
    simpa [Pi.single_apply] using this.symm

/-- **C115** (balance). On a connected convex surface whose quadrature points are not at the nodes there are weights, positive at every node, that balance the normal derivatives. -/
theorem C115_balance (hK : ConvexSurface inp D S') (hcon : Connected inp D S') (hap : ∀ i k : Fin inp.nDofs, Separate inp D S' i k) (hn : 0 < inp.nDofs) :
    ∃ w m, Balance inp D S' w m := by
  obtain ⟨hN, hL⟩ := convex_matrix hK hcon
  obtain ⟨w, hw, hs, h⟩ := (rowWeights_unique hN hL hn).1
  refine ⟨w, fun k => ∑ i : Fin inp.nDofs, w i * surfaceIntegral inp D S' .single i k, hw, hs, fun k => ?_, fun phi dphi => ?_⟩
  · exact Finset.sum_pos (fun i _ => mul_pos (hw i) ((single_entry_sign hK i.isLt k).2 (hap i k))) ⟨⟨0, hn⟩, Finset.mem_univ _⟩
  · rw [weighted_residual, h.differences, zero_sub]

/-- **C115** (uniqueness). The weights are determined by the surface. -/
theorem C115_unique (hK : ConvexSurface inp D S') (hcon : Connected inp D S') (hn : 0 < inp.nDofs) {w m w' m' : Vec inp.nDofs}
    (h : Balance inp D S' w m) (h' : Balance inp D S' w' m') : w' = w ∧ m' = m := by
  obtain ⟨hN, hL⟩ := convex_matrix hK hcon
  have e := (rowWeights_unique hN hL hn).2 w w' h.total h'.total h.weights.1 h'.weights.1
  exact ⟨e, funext fun k => by rw [h.weights.2, h'.weights.2, e]⟩

/-- **C115** (compatibility). Normal derivatives fulfil the boundary integral equation at all nodes together with some potential if and only if their weighted sum is zero; the potential is determined up to a constant. -/
theorem C115_compatible (hK : ConvexSurface inp D S') (hcon : Connected inp D S') (hn : 0 < inp.nDofs) {w m : Vec inp.nDofs} (h : Balance inp D S' w m) (dphi : Vec inp.nDofs) :
    ((∃ phi, ∀ i, bieResidual inp D S' phi dphi i = 0) ↔ ∑ k, m k * dphi k = 0) ∧
    ∀ phi phi', (∀ i, bieResidual inp D S' phi dphi i = 0) → (∀ i, bieResidual inp D S' phi' dphi i = 0) → ∃ t, ∀ i, phi' i = phi i + t := by
  obtain ⟨hN, hL⟩ := convex_matrix hK hcon
  have hw : w ≠ 0 := fun h0 => by have := h.rows ⟨0, hn⟩; rw [h0] at this; exact lt_irrefl _ this
  constructor
  · constructor
    · rintro ⟨phi, hphi⟩
      have := h.balance phi dphi
      rw [Finset.sum_eq_zero fun i _ => by rw [hphi i, mul_zero]] at this
      linarith
    · intro h0
      obtain ⟨phi, hphi⟩ := (differences_range hN hL hw h.weights.1 fun i => ∑ k : Fin inp.nDofs, surfaceIntegral inp D S' .single i k * dphi k).2 (by
        have := h.balance 0 dphi
        have e : ∀ i, bieResidual inp D S' 0 dphi i = -∑ k : Fin inp.nDofs, surfaceIntegral inp D S' .single i k * dphi k := fun i => by simp [bieResidual]
        rw [h0] at this
        simp only [e, mul_neg, Finset.sum_neg_distrib, neg_zero, neg_eq_zero] at this
        exact this)
      refine ⟨phi, fun i => ?_⟩
      have := hphi i
      unfold differences at this
      unfold bieResidual
      rw [this, sub_self]
  · intro phi phi' hphi hphi'
    have hz : ∀ i, differences (fun i k : Fin inp.nDofs => surfaceIntegral inp D S' .double i k) (fun k => phi' k - phi k) i = 0 := by
      intro i
      have a := hphi i
      have b := hphi' i
      unfold bieResidual at a b
      have : differences (fun i k : Fin inp.nDofs => surfaceIntegral inp D S' .double i k) (fun k => phi' k - phi k) i =
          ∑ k : Fin inp.nDofs, surfaceIntegral inp D S' .double i k * (phi' k - phi' i) - ∑ k : Fin inp.nDofs, surfaceIntegral inp D S' .double i k * (phi k - phi i) := by
        unfold differences
        rw [← Finset.sum_sub_distrib]
        exact Finset.sum_congr rfl fun k _ => by ring
      rw [this]
      linarith
    refine ⟨phi' ⟨0, hn⟩ - phi ⟨0, hn⟩, fun i => ?_⟩
    have := constant_of_differences hN hL hz i ⟨0, hn⟩
    linarith

/-- **C115** (tolerance). If the boundary integral equation holds up to `ε` at every node, the weighted sum of the normal derivatives is at most `ε`. -/
theorem C115_tolerance {w m : Vec inp.nDofs} (h : Balance inp D S' w m) (phi dphi : Vec inp.nDofs) (ε : ℝ) (he : ∀ i, |bieResidual inp D S' phi dphi i| ≤ ε) :
    |∑ k, m k * dphi k| ≤ ε := by
  have h1 : ∑ k, m k * dphi k = -∑ i, w i * bieResidual inp D S' phi dphi i := by rw [h.balance, neg_neg]
  rw [h1, abs_neg]
  refine (Finset.abs_sum_le_sum_abs _ _).trans ?_
  calc ∑ i, |w i * bieResidual inp D S' phi dphi i| ≤ ∑ i, w i * ε :=
        Finset.sum_le_sum fun i _ => by rw [abs_mul, abs_of_pos (h.rows i)]; exact mul_le_mul_of_nonneg_left (he i) (h.rows i).le
    _ = ε := by rw [← Finset.sum_mul, h.total, one_mul]

/-- **C115** (solves). Dense method. Every exact solve of a problem with Dirichlet nodes, whatever the data, the kinds of the nodes, the partition and the linear solver, returns normal derivatives whose weighted sum is zero. -/
theorem C115_solve {w m : Vec inp.nDofs} (hB : Balance inp D S' w m) (C : Setup inp.nDofs d) (hm : C.method = .direct)
    (gmres : (Vec inp.nDofs → Vec inp.nDofs) → Vec inp.nDofs → Vec inp.nDofs) (l : List (ℕ × ℕ)) (st : AlphaStatics)
    (phi0 dphi0 : Vec inp.nDofs) (X : Solution inp.nDofs)
    (h : solve inp D S S' C gmres (alphaHistory l) phi0 dphi0 = (st, some X))
    (B : Finset (Fin inp.nDofs)) (hP : Posed inp C B phi0 dphi0) (hdata : Consistent C B) (hg : ∀ i, ¬ GradientNode C B i)
    (hX : ∀ i, X.residual i = 0) : ∑ k, m k * X.dphi k = 0 := by
  have heq : ∀ i, bieResidual inp D S' X.phi X.dphi i = 0 := by
    intro i
    have := ((C82_exact_solutions inp D S S' C gmres l st phi0 dphi0 X h B hP hdata.sharp hdata.agree).1 hX).1 i (hg i)
    rwa [hm, methodResidual_direct] at this
  have := hB.balance X.phi X.dphi
  rw [Finset.sum_eq_zero fun i _ => by rw [heq i, mul_zero]] at this
  linarith

/-- **C115** (one Dirichlet node). With one Dirichlet node the normal derivative returned there by an exact solve is minus the weighted sum of the given ones divided by the weight of the node: it does not depend on the given potential. -/
theorem C115_one_dirichlet {w m : Vec inp.nDofs} (hB : Balance inp D S' w m) (C : Setup inp.nDofs d) (hm : C.method = .direct)
    (gmres : (Vec inp.nDofs → Vec inp.nDofs) → Vec inp.nDofs → Vec inp.nDofs) (l : List (ℕ × ℕ)) (st : AlphaStatics)
    (phi0 dphi0 : Vec inp.nDofs) (X : Solution inp.nDofs)
    (h : solve inp D S S' C gmres (alphaHistory l) phi0 dphi0 = (st, some X))
    (b : Fin inp.nDofs) (hP : Posed inp C {b} phi0 dphi0) (hX : ∀ i, X.residual i = 0) :
    X.dphi b = -(∑ k ∈ Finset.univ.erase b, m k * C.nodes.tmpRhs k) / m b := by
  have hc : Consistent C {b} := by
    constructor
    · intro i hi j _ hj
      rw [Finset.mem_singleton.1 hi, Finset.mem_singleton.1 hj]
    · intro _ i hi j _ hj hne
      exact absurd ((Finset.mem_singleton.1 hj).trans (Finset.mem_singleton.1 hi).symm) hne
  have hg : ∀ i, ¬ GradientNode C {b} i := by
    rintro i ⟨-, j, _, k, _, hj, hk, hne⟩
    exact hne ((Finset.mem_singleton.1 hj).trans (Finset.mem_singleton.1 hk).symm)
  have h0 := C115_solve hB C hm gmres l st phi0 dphi0 X h {b} hP hc hg hX
  obtain ⟨-, -, -, p2, -⟩ := solve_rows h {b} hP.dirichlet hP.neumann hP.bc hP.phi hP.dphi
  rw [← Finset.add_sum_erase _ _ (Finset.mem_univ b)] at h0
  have e : ∑ k ∈ Finset.univ.erase b, m k * X.dphi k = ∑ k ∈ Finset.univ.erase b, m k * C.nodes.tmpRhs k := by
    refine Finset.sum_congr rfl fun k hk => ?_
    have : k ∉ ({b} : Finset (Fin inp.nDofs)) := fun h => (Finset.ne_of_mem_erase hk) (Finset.mem_singleton.1 h)
    rw [p2]
    simp only [merge, this, if_false]
  rw [e] at h0
  rw [eq_div_iff (hB.nodes b).ne']
  linarith

/-- **C115** (pure Neumann problems). In a pure Neumann solve without residual the weighted sum of the given normal derivatives is not positive, and if it is zero the single layer of the given normal derivatives vanishes at every node. -/
theorem C115_neumann (hK : ConvexSurface inp D S') (hcon : Connected inp D S') {w m : Vec inp.nDofs} (hB : Balance inp D S' w m) (C : Setup inp.nDofs d) (hm : C.method = .direct)
    (gmres : (Vec inp.nDofs → Vec inp.nDofs) → Vec inp.nDofs → Vec inp.nDofs) (l : List (ℕ × ℕ)) (st : AlphaStatics)
    (phi0 dphi0 : Vec inp.nDofs) (X : Solution inp.nDofs)
    (h : solve inp D S S' C gmres (alphaHistory l) phi0 dphi0 = (st, some X))
    (hd : ∀ i, C.nodes.dirichlet i = 0) (hn : ∀ i, C.neumannNodes i = 1) (hb : C.haveDirichletBc = false)
    (hdphi : dphi0 = C.nodes.tmpRhs) (hdbl : ∀ i, C.doubles i = {i}) (hhang : ∀ i, C.hanging i = none) (hord : ∀ i, i ∈ C.order) (hX : ∀ i, X.residual i = 0) :
    ∑ k, m k * C.nodes.tmpRhs k ≤ 0 ∧
    (∑ k, m k * C.nodes.tmpRhs k = 0 → ∀ i : Fin inp.nDofs, ∑ k : Fin inp.nDofs, surfaceIntegral inp D S' .single i k * C.nodes.tmpRhs k = 0) := by
  obtain ⟨e1, t, ht, hc, hres⟩ := C112_neumann hK hcon C hm gmres l st phi0 dphi0 X h hd hn hb hdphi (fun i => by rw [hdbl]; exact Finset.mem_singleton_self i)
    (fun i j hj => by rw [hdbl] at hj; rw [Finset.mem_singleton.1 hj]) hord
  have hr : ∀ i, bieResidual inp D S' X.phi X.dphi i = t := fun i => hres i (hhang i) (fun j hj => by rw [hdbl] at hj; rw [Finset.mem_singleton.1 hj]) (hX i)
  have hsum := hB.balance X.phi X.dphi
  simp only [hr] at hsum
  rw [← Finset.sum_mul, hB.total, one_mul, e1] at hsum
  refine ⟨by linarith, fun h0 i => ?_⟩
  have t0 : t = 0 := by linarith
  have hcst := hc.1 t0
  have := hr i
  unfold bieResidual at this
  rw [Finset.sum_eq_zero fun k _ => by rw [hcst k i, sub_self, mul_zero], t0, e1] at this
  linarith

/-! ## The hypotheses are met -/

/-- the weights of the cube -/
example : ∃ w m, Balance (cubeInput 3 0) cubeData faceRule w m := C115_balance cube_convex cube_connected cube_apart (by decide)

/-- the hypotheses of `C115_solve` and `C115_compatible` on the cube: the normal derivatives of the solve with prescribed potential `i` balance, and those of a source on every node fulfil the equation with no potential -/
example (S : SingRule) (procs : ℕ) : ∃ w m, Balance (cubeInput 3 0) cubeData faceRule w m ∧
    (∃ (gmres : (Vec 8 → Vec 8) → Vec 8 → Vec 8) (st : AlphaStatics) (X : Solution 8),
      solve (cubeInput 3 0) cubeData S faceRule (cubeDirichlet procs fun i => i) gmres (alphaHistory []) (fun i => i) (fun _ => 0) = (st, some X) ∧
      ∑ k : Fin 8, m k * X.dphi k = 0) ∧
    ¬ ∃ phi, ∀ i, bieResidual (cubeInput 3 0) cubeData faceRule phi (fun _ => 1) i = 0 := by
  obtain ⟨w, m, hB⟩ := C115_balance cube_convex cube_connected cube_apart (by decide)
  obtain ⟨gmres, st, X, h, hr, -⟩ := cube_exact S procs fun i => i
  refine ⟨w, m, hB, ⟨gmres, st, X, h, ?_⟩, fun hp => ?_⟩
  · exact C115_solve hB (cubeDirichlet procs fun i => i) rfl gmres [] st _ _ X h Finset.univ (cubeDirichlet_posed procs _ _) (cubeDirichlet_consistent procs _)
      (fun i hg => by simp [GradientNode, cubeDirichlet] at hg) hr
  · have h0 := (C115_compatible cube_convex cube_connected (by decide) hB fun _ => 1).1.1 hp
    have : 0 < ∑ k, m k * (1 : ℝ) := Finset.sum_pos (fun k _ => by rw [mul_one]; exact hB.nodes k) ⟨(0 : Fin 8), Finset.mem_univ _⟩
    exact this.ne' h0

/-- the hypotheses of `C115_one_dirichlet` on the cube: the potential prescribed at node 3, normal derivatives 1 at the others, and the normal derivative at node 3 is negative -/
example (S : SingRule) (procs : ℕ) : ∃ (C : Setup (cubeInput 3 0).nDofs 3) (gmres : (Vec 8 → Vec 8) → Vec 8 → Vec 8) (st : AlphaStatics) (X : Solution 8),
    solve (cubeInput 3 0) cubeData S faceRule C gmres (alphaHistory []) (fun _ => 1) (fun _ => 1) = (st, some X) ∧ (∀ i, X.residual i = 0) ∧ X.dphi (3 : Fin 8) < 0 := by
  let C : Setup (cubeInput 3 0).nDofs 3 := { cubeSetup .direct procs with
      neumannNodes := fun (i : Fin 8) => if i ∈ ({3} : Finset (Fin 8)) then 0 else 1
      nodes := ⟨fun (i : Fin 8) => if i ∈ ({3} : Finset (Fin 8)) then 1 else 0, fun _ => 1, fun _ => 0, fun _ => 0, false⟩ }
  have hl := constraints_no_doubles (n := 8) (d := 3) ⟨fun i => if i ∈ ({3} : Finset (Fin 8)) then 1 else 0, fun _ => 1, fun _ => 0, fun _ => 0, false⟩
    (fun i => by dsimp only; split_ifs <;> simp) (fun _ => none) (by simp) 1 (by simp) (List.finRange 8)
  obtain ⟨st, X, h⟩ := solve_some (inp := cubeInput 3 0) (D := cubeData) (S := S) (S' := faceRule) (C := C)
    (gmres := fun _ _ => (0 : Vec 8)) (st := alphaHistory []) (phi0 := fun _ => 1) (dphi0 := fun _ => 1)
    (by simp [C, alphaHistory, alphaStaticsStep, AlphaStatics.init, cubeInput]) hl
  have hP : Posed (cubeInput 3 0) C ({3} : Finset (Fin 8)) (fun _ => 1) (fun _ => 1) :=
    { dirichlet := fun _ => rfl, neumann := fun _ => rfl, bc := rfl, phi := fun _ _ => rfl, dphi := fun _ _ => rfl
      refl := fun i => Finset.mem_singleton_self i, eq := fun i j hj => by rw [Finset.mem_singleton.1 hj]
      coincide := fun i j hj => by rw [Finset.mem_singleton.1 hj]; exact ⟨rfl, rfl⟩
      hanging := fun _ => rfl, order := fun i => List.mem_finRange i }
  obtain ⟨⟨gm, st', Y, hY, rY⟩, -⟩ := C114_convex (S := S) cube_convex cube_connected cube_apart C rfl [] (fun _ => 1) (fun _ => 1) (3 : Fin 8) hP ⟨_, st, X, h⟩
  obtain ⟨w, m, hB⟩ := C115_balance cube_convex cube_connected cube_apart (by decide)
  refine ⟨C, gm, st', Y, hY, rY, ?_⟩
  rw [C115_one_dirichlet hB C rfl gm [] st' _ _ Y hY (3 : Fin 8) hP rY]
  refine div_neg_of_neg_of_pos (neg_neg_of_pos (Finset.sum_pos (fun k _ => ?_) ⟨(0 : Fin 8), ?_⟩)) (hB.nodes _)
  · change 0 < m k * 1
    rw [mul_one]
    exact hB.nodes k
  · exact Finset.mem_erase.2 ⟨(by decide : (0 : Fin 8) ≠ 3), Finset.mem_univ _⟩

end PiBem.Bem
