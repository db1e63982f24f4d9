import Verif.Fmm.Numeric
import Verif.Props.Flags
import Mathlib.LinearAlgebra.Pi

/-! Every operation on expansions adds a real linear function of the coefficients of its argument (helper lemmas). -/

noncomputable section

namespace PiBem.Fmm

open PiBem.Octree PiBem.WorkStream PiBem.Expansion

/-- coefficients -/
abbrev Cf := ℕ → ℕ → ℂ

/-- coefficients up to order `p` -/
def trunc (p : ℕ) : Cf →ₗ[ℝ] Cf where
  toFun z n m := if n ≤ p ∧ m ≤ n then z n m else 0
  map_add' z w := by
    funext n m; simp only [Pi.add_apply]; split_ifs <;> simp
  map_smul' a z := by
    funext n m; simp only [Pi.smul_apply, RingHom.id_apply]; split_ifs <;> simp

theorem addCoeffs_coeff (e : Exp) (z : Cf) : (e.addCoeffs z).coeff = e.coeff + trunc e.p z := by
  funext n m
  simp only [Exp.addCoeffs, trunc, LinearMap.coe_mk, AddHom.coe_mk, Pi.add_apply]
  split_ifs <;> simp

theorem signedCoeff_add (c c' : Cf) (n : ℕ) (k : ℤ) :
    signedCoeff (c + c') n k = signedCoeff c n k + signedCoeff c' n k := by
  apply Complex.ext <;> simp [signedCoeff] <;> ring

theorem signedCoeff_smul (a : ℝ) (c : Cf) (n : ℕ) (k : ℤ) : signedCoeff (a • c) n k = a * signedCoeff c n k := by
  apply Complex.ext <;> simp [signedCoeff] <;> ring

theorem conjCoeff_add (c c' : Cf) (n : ℕ) (k : ℤ) : conjCoeff (c + c') n k = conjCoeff c n k + conjCoeff c' n k := by
  unfold conjCoeff
  split_ifs
  · apply Complex.ext <;> simp; ring
  · rfl

theorem conjCoeff_smul (a : ℝ) (c : Cf) (n : ℕ) (k : ℤ) : conjCoeff (a • c) n k = a * conjCoeff c n k := by
  unfold conjCoeff
  split_ifs
  · apply Complex.ext <;> simp
  · simp

/-- `m2mCoeff` -/
def m2mMap (L : Legendre) (v : V3) : Cf →ₗ[ℝ] Cf where
  toFun c := m2mCoeff L c v
  map_add' c c' := by
    funext n m
    simp only [m2mCoeff, Pi.add_apply, signedCoeff_add, ← Finset.sum_add_distrib]
    refine Finset.sum_congr rfl fun nn _ => Finset.sum_congr rfl fun mm _ => ?_
    split_ifs <;> ring
  map_smul' a c := by
    funext n m
    simp only [m2mCoeff, Pi.smul_apply, signedCoeff_smul, Finset.smul_sum, RingHom.id_apply]
    refine Finset.sum_congr rfl fun nn _ => Finset.sum_congr rfl fun mm _ => ?_
    split_ifs
    · simp
    · rw [Complex.real_smul]; ring

/-- `l2lCoeff` -/
def l2lMap (L : Legendre) (p : ℕ) (v : V3) : Cf →ₗ[ℝ] Cf where
  toFun c := l2lCoeff L p c v
  map_add' c c' := by
    funext n m
    simp only [l2lCoeff, Pi.add_apply, signedCoeff_add, ← Finset.sum_add_distrib]
    refine Finset.sum_congr rfl fun nn _ => Finset.sum_congr rfl fun mm _ => ?_
    split_ifs <;> ring
  map_smul' a c := by
    funext n m
    simp only [l2lCoeff, Pi.smul_apply, signedCoeff_smul, Finset.smul_sum, RingHom.id_apply]
    refine Finset.sum_congr rfl fun nn _ => Finset.sum_congr rfl fun mm _ => ?_
    split_ifs
    · simp
    · rw [Complex.real_smul]; ring

/-- `m2lCoeff` -/
def m2lMap (L : Legendre) (p : ℕ) (v : V3) : Cf →ₗ[ℝ] Cf where
  toFun c := m2lCoeff L p c v
  map_add' c c' := by
    funext n m
    simp only [m2lCoeff, Pi.add_apply, conjCoeff_add, ← Finset.sum_add_distrib]
    refine Finset.sum_congr rfl fun nn _ => Finset.sum_congr rfl fun mm _ => ?_
    ring
  map_smul' a c := by
    funext n m
    simp only [m2lCoeff, Pi.smul_apply, conjCoeff_smul, Finset.smul_sum, RingHom.id_apply]
    refine Finset.sum_congr rfl fun nn _ => Finset.sum_congr rfl fun mm _ => ?_
    rw [Complex.real_smul]; ring

/-- `MultipoleExpansion::Evaluate` as a function of the coefficients -/
def mEvalMap (L : Legendre) (p : ℕ) (ctr x : V3) : Cf →ₗ[ℝ] ℝ where
  toFun c := mEvalFull L ⟨p, ctr, c, false⟩ x
  map_add' c c' := by
    simp only [mEvalFull, Pi.add_apply, ← Complex.add_re, ← Finset.sum_add_distrib]
    congr 1
    refine Finset.sum_congr rfl fun n _ => ?_
    rw [add_mul, add_add_add_comm, ← Finset.sum_add_distrib]
    congr 1
    exact Finset.sum_congr rfl fun m _ => by ring
  map_smul' a c := by
    simp only [mEvalFull, Pi.smul_apply, RingHom.id_apply, smul_eq_mul, ← Complex.re_ofReal_mul, Finset.mul_sum]
    congr 1
    refine Finset.sum_congr rfl fun n _ => ?_
    rw [mul_add, Finset.mul_sum, Complex.real_smul]
    congr 1
    · ring
    · exact Finset.sum_congr rfl fun m _ => by rw [Complex.real_smul]; ring

/-- `LocalExpansion::Evaluate` as a function of the coefficients -/
def lEvalMap (L : Legendre) (p : ℕ) (ctr x : V3) : Cf →ₗ[ℝ] ℝ where
  toFun c := lEvalFull L ⟨p, ctr, c, false⟩ x
  map_add' c c' := by
    simp only [lEvalFull, Pi.add_apply, ← Complex.add_re, ← Finset.sum_add_distrib]
    congr 1
    refine Finset.sum_congr rfl fun n _ => ?_
    rw [add_mul, add_add_add_comm, ← Finset.sum_add_distrib]
    congr 1
    exact Finset.sum_congr rfl fun m _ => by ring
  map_smul' a c := by
    simp only [lEvalFull, Pi.smul_apply, RingHom.id_apply, smul_eq_mul, ← Complex.re_ofReal_mul, Finset.mul_sum]
    congr 1
    refine Finset.sum_congr rfl fun n _ => ?_
    rw [mul_add, Finset.mul_sum, Complex.real_smul]
    congr 1
    · ring
    · exact Finset.sum_congr rfl fun m _ => by rw [Complex.real_smul]; ring

/-- order, centre, meaningful flag and coefficients of an expansion -/
def Abs (p : ℕ) (c : V3) (e : Exp) (a : Cf) : Prop := e.p = p ∧ e.center = c ∧ Sound e ∧ e.coeff = a

theorem Abs.new (p : ℕ) (c : V3) : Abs p c (Exp.new p c) 0 := ⟨rfl, rfl, fun _ _ _ => rfl, rfl⟩

theorem Abs.coeff_zero {p : ℕ} {c : V3} {e : Exp} {a : Cf} (h : Abs p c e a) (hz : e.isZero = true) : a = 0 := by
  rw [← h.2.2.2]; funext n m; exact h.2.2.1 hz n m

theorem Abs.add {p : ℕ} {c : V3} {e : Exp} {a : Cf} (h : Abs p c e a) (z : Cf) :
    Abs p c { e.addCoeffs z with isZero := false } (a + trunc p z) := by
  refine ⟨h.1, h.2.1, fun h => by simp at h, ?_⟩
  show (e.addCoeffs z).coeff = _
  rw [addCoeffs_coeff, h.2.2.2, h.1]

theorem abs_mAddScaled {p : ℕ} {c c' : V3} {e o : Exp} {a b : Cf} (h : Abs p c e a) (ho : Abs p c' o b) (s : ℝ) :
    Abs p c (mAddScaled e o s) (a + s • trunc p b) := by
  unfold mAddScaled
  split_ifs with hz
  · have : s • trunc p b = 0 := by
      rcases hz with hz | hz
      · rw [ho.coeff_zero hz]; simp
      · rw [hz]; simp
    rw [this, add_zero]; exact h
  · have := h.add (fun n m => o.coeff n m * s)
    have e1 : (fun n m => o.coeff n m * (s : ℂ)) = s • b := by
      funext n m
      rw [ho.2.2.2]
      simp only [Pi.smul_apply]
      rw [Complex.real_smul, mul_comm]
    rw [e1, map_smul] at this
    rw [e1]
    exact this

theorem abs_elemAdd {inp : Input 3} {D : Data} {ker : Ker} {p : ℕ} {c : V3} {e : Exp} {a : Cf} (h : Abs p c e a) (j : ℕ)
    (q : ℕ × ℕ) : ∃ a', Abs p c (elemAdd inp D ker e j q) a' := by
  unfold elemAdd
  cases ker with
  | single =>
    simp only [mAddSource]
    split_ifs
    · exact ⟨a, h⟩
    · exact ⟨_, h.add _⟩
  | double =>
    simp only [mAddNormDer]
    split_ifs
    · exact ⟨a, h⟩
    · exact ⟨_, h.add _⟩

theorem abs_nCellMoment (inp : Input 3) (D : Data) (ker : Ker) (T : St 3) (b c j : ℕ) :
    Abs D.p (ctr T b) (nCellMoment inp D ker T b c j) (nCellMoment inp D ker T b c j).coeff := by
  unfold nCellMoment
  have : ∀ (l : List (ℕ × ℕ)) (e : Exp) (a : Cf), Abs D.p (ctr T b) e a →
      ∃ a', Abs D.p (ctr T b) (l.foldl (fun e q => elemAdd inp D ker e j q) e) a' := by
    intro l
    induction l with
    | nil => intro e a h; exact ⟨a, h⟩
    | cons q l ih =>
      intro e a h
      obtain ⟨a', h'⟩ := abs_elemAdd (inp := inp) (D := D) (ker := ker) h j q
      exact ih _ _ h'
  obtain ⟨a', h'⟩ := this _ _ _ (Abs.new _ _)
  exact ⟨h'.1, h'.2.1, h'.2.2.1, rfl⟩

/-- translation of a multipole expansion from centre `c'` to centre `c` -/
def tM (p : ℕ) (c' c : V3) : Cf →ₗ[ℝ] Cf :=
  (trunc p).comp (if 1e-7 < rho (c' - c) then m2mMap codeTable (c' - c) else LinearMap.id)

/-- translation of a local expansion -/
def tL (p : ℕ) (c' c : V3) : Cf →ₗ[ℝ] Cf :=
  (trunc p).comp (if 1e-7 < rho (c' - c) then l2lMap codeTable p (c' - c) else LinearMap.id)

/-- conversion -/
def tML (p : ℕ) (c' c : V3) : Cf →ₗ[ℝ] Cf := (trunc p).comp (m2lMap codeTable p (c' - c))

theorem abs_mAddChild {p : ℕ} {c c' : V3} {e o : Exp} {a b : Cf} (h : Abs p c e a) (ho : Abs p c' o b) :
    Abs p c (mAddChild codeTable e o) (a + tM p c' c b) := by
  unfold mAddChild tM
  rw [h.2.1, ho.2.1]
  split_ifs with hz h1 h2
  · rw [ho.coeff_zero hz, map_zero, add_zero]
    refine ⟨h.1, rfl, fun hh => h.2.2.1 ?_, h.2.2.2⟩
    simpa [hz] using hh
  · rw [ho.coeff_zero hz, map_zero, add_zero]
    refine ⟨h.1, rfl, fun hh => h.2.2.1 ?_, h.2.2.2⟩
    simpa [hz] using hh
  · have := h.add (m2mCoeff codeTable o.coeff (c' - c))
    rw [ho.2.2.2] at this ⊢
    exact this
  · have := h.add o.coeff
    rw [ho.2.2.2] at this ⊢
    exact this

theorem abs_lAddParent {p : ℕ} {c c' : V3} {e o : Exp} {a b : Cf} (h : Abs p c e a) (ho : Abs p c' o b) :
    Abs p c (lAddParent codeTable e o) (a + tL p c' c b) := by
  unfold lAddParent tL
  rw [h.2.1, ho.2.1]
  split_ifs with hz h1 h2
  · rw [ho.coeff_zero hz, map_zero, add_zero]; exact h
  · rw [ho.coeff_zero hz, map_zero, add_zero]; exact h
  · have := h.add (l2lCoeff codeTable e.p o.coeff (c' - c))
    rw [ho.2.2.2, h.1] at this
    rw [ho.2.2.2, h.1]
    exact this
  · have := h.add o.coeff
    rw [ho.2.2.2] at this ⊢
    exact this

theorem abs_lAddMultipole {p : ℕ} {c c' : V3} {e o : Exp} {a b : Cf} (h : Abs p c e a) (ho : Abs p c' o b) :
    Abs p c (lAddMultipole codeTable e o) (a + tML p c' c b) := by
  unfold lAddMultipole tML
  rw [h.2.1, ho.2.1]
  split_ifs with hz
  · rw [ho.coeff_zero hz, map_zero, add_zero]; exact h
  · have := h.add (m2lCoeff codeTable e.p o.coeff (c' - c))
    rw [ho.2.2.2, h.1] at this
    rw [ho.2.2.2, h.1]
    exact this

theorem abs_mEval {p : ℕ} {c : V3} {e : Exp} {a : Cf} (h : Abs p c e a) (x : V3) :
    mEval codeTable e x = mEvalMap codeTable p c x a := by
  unfold mEval
  split_ifs with hz
  · rw [h.coeff_zero hz, map_zero]
  · obtain ⟨rfl, rfl, -, rfl⟩ := h; rfl

theorem abs_lEval {p : ℕ} {c : V3} {e : Exp} {a : Cf} (h : Abs p c e a) (x : V3) :
    lEval codeTable e x = lEvalMap codeTable p c x a := by
  unfold lEval
  split_ifs with hz
  · rw [h.coeff_zero hz, map_zero]
  · obtain ⟨rfl, rfl, -, rfl⟩ := h; rfl

theorem rho_self_sub (c : V3) : ¬ (1e-7 : ℝ) < rho (c - c) := by
  have : rho (c - c) = 0 := by simp [rho]
  rw [this]; norm_num

theorem tM_same (p : ℕ) (c : V3) : tM p c c = trunc p := by
  unfold tM; rw [if_neg (rho_self_sub c), LinearMap.comp_id]

theorem tL_same (p : ℕ) (c : V3) : tL p c c = trunc p := by
  unfold tL; rw [if_neg (rho_self_sub c), LinearMap.comp_id]

end PiBem.Fmm
