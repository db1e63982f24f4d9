import Verif.Props.Lookups
import Verif.Expansion.Model

/-!
# C20: the accesses are those of the operations

The operations of `Expansion/Model` look at nothing but the entries listed in `Expansion/Lookups`: with two sets of tables and
coefficients that agree there, the results are the same.
-/

set_option linter.unusedSectionVars false

noncomputable section

namespace PiBem.Expansion.Lookups

open Complex

/-- What the operations read: the tables of Legendre functions, `A_n_m`, the translation coefficients, the coefficients of the
expansion and of the argument. -/
structure Tables where
  leg : Legendre
  anm : ℕ → ℕ → ℝ
  l2l : ℕ → ℕ → ℕ → ℤ → ℝ
  m2l : ℕ → ℕ → ℕ → ℤ → ℝ
  own : ℕ → ℕ → ℂ
  other : ℕ → ℕ → ℂ

/-- The entry read by an access is the same. -/
def Access.Same (t t' : Tables) : Access → Prop
  | .own n m => t.own n m = t'.own n m
  | .other n m => t.other n m = t'.other n m
  | .leg n m => t.leg.fn n m = t'.leg.fn n m
  | .legDer n m => t.leg.der n m = t'.leg.der n m
  | .anm n m => t.anm n m = t'.anm n m
  | .l2l n m nn mm => t.l2l n m nn mm = t'.l2l n m nn mm
  | .m2l n m nn mm => t.m2l n m nn mm = t'.m2l n m nn mm

/-- `t` and `t'` agree on the accesses of `l`. -/
def Agree (l : List Access) (t t' : Tables) : Prop := ∀ a ∈ l, a.Same t t'

/-- `m2mCoeff` with the matrix `A_n_m` as an argument (multipole_expansion.cc:209-245). -/
def m2mWith (t : Tables) (v : V3) (n m : ℕ) : ℂ :=
  ∑ nn ∈ Finset.range (n + 1), ∑ mm ∈ Finset.Icc (-(nn : ℤ)) nn,
    if ((m : ℤ) - mm).natAbs > n - nn then 0
    else
      let realFact := t.leg.fn nn mm.natAbs (cosA v) * rho v ^ nn * t.anm nn mm.natAbs *
          t.anm (n - nn) ((m : ℤ) - mm).natAbs / t.anm n m *
          iPowRe ((m : ℤ) - mm.natAbs - ((m : ℤ) - mm).natAbs)
      (realFact : ℂ) * (signedCoeff t.other (n - nn) ((m : ℤ) - mm) * cis (-mm * beta v))

/-- `l2lCoeff` with the table as an argument (local_expansion.cc:128-158). -/
def l2lWith (t : Tables) (p : ℕ) (v : V3) (n m : ℕ) : ℂ :=
  ∑ nn ∈ Finset.Icc n p, ∑ mm ∈ Finset.Icc (-(nn : ℤ)) nn,
    if (mm - m).natAbs > nn - n then 0
    else
      let realFact := t.leg.fn (nn - n) (mm - m).natAbs (cosA v) * rho v ^ (nn - n) * t.l2l n m nn mm
      signedCoeff t.other nn mm *
        (⟨Real.cos ((mm - m) * beta v), Real.sin ((mm - m) * beta v)⟩ : ℂ) * (realFact : ℂ)

/-- `m2lCoeff` with the table as an argument (local_expansion.cc:203-240). -/
def m2lWith (t : Tables) (p : ℕ) (v : V3) (n m : ℕ) : ℂ :=
  ∑ nn ∈ Finset.range (p + 1), ∑ mm ∈ Finset.Icc (-(nn : ℤ)) nn,
    let realFact := t.leg.fn (nn + n) (mm - m).natAbs (cosA v) * rho v ^ (-(n : ℤ) - nn - 1) * t.m2l n m nn mm
    conjCoeff t.other nn mm *
      (⟨Real.cos ((mm - m) * beta v), Real.sin ((mm - m) * beta v)⟩ : ℂ) * (realFact : ℂ)

/-- `l2lTable` with `A_n_m` as an argument (local_expansion.h:178-212). -/
def l2lTableWith (t : Tables) (n m nn : ℕ) (mm : ℤ) : ℝ :=
  t.anm (nn - n) (mm - m).natAbs / t.anm nn mm.natAbs * t.anm n m *
    (iPowRe ((mm.natAbs : ℤ) - (mm - m).natAbs - m) * (-1) ^ (nn + n))

/-- `m2lTable` with `A_n_m` as an argument (local_expansion.h:137-175). -/
def m2lTableWith (t : Tables) (n m nn : ℕ) (mm : ℤ) : ℝ :=
  t.anm nn mm.natAbs / t.anm (n + nn) ((m : ℤ) - mm).natAbs * t.anm n m *
    (iPowRe ((((m : ℤ) - mm).natAbs : ℤ) - m - mm.natAbs) / (-1) ^ nn)

/-- Tables of the program. -/
def code (L : Legendre) (own other : ℕ → ℕ → ℂ) : Tables := ⟨L, Anm, l2lTable, m2lTable, own, other⟩

/-- With the tables of the program these are the functions of the model. -/
theorem with_code (L : Legendre) (own c : ℕ → ℕ → ℂ) :
    m2mWith (code L own c) = m2mCoeff L c ∧ (∀ p, l2lWith (code L own c) p = l2lCoeff L p c) ∧
    (∀ p, m2lWith (code L own c) p = m2lCoeff L p c) ∧ l2lTableWith (code L own c) = l2lTable ∧
    m2lTableWith (code L own c) = m2lTable := ⟨rfl, fun _ => rfl, fun _ => rfl, rfl, rfl⟩

variable {t t' : Tables} {p : ℕ}

theorem Agree.tri {f : ℕ → ℕ → List Access} (h : Agree (triLoop p f) t t') {n m : ℕ} (hn : n ≤ p) (hm : m ≤ n) :
    Agree (f n m) t t' := fun a ha => h a (mem_triLoop.mpr ⟨n, m, hn, hm, ha⟩)

/-- Two expansions with coefficients changed agree if the changes agree in the triangle. -/
theorem addCoeffs_congr (e : Exp) {z z' : ℕ → ℕ → ℂ} (h : ∀ n m, n ≤ e.p → m ≤ n → z n m = z' n m) :
    e.addCoeffs z = e.addCoeffs z' := by
  simp only [Exp.addCoeffs, Exp.mk.injEq, true_and, and_true]
  funext n m
  split_ifs with hc
  · rw [h n m hc.1 hc.2]
  · rfl

theorem signed_congr {c c' : ℕ → ℕ → ℂ} {n : ℕ} {k : ℤ} (h : c n k.natAbs = c' n k.natAbs) : signedCoeff c n k = signedCoeff c' n k := by
  simp only [signedCoeff, h]

theorem conj_congr {c c' : ℕ → ℕ → ℂ} {n : ℕ} {k : ℤ} (h : c n k.natAbs = c' n k.natAbs) : conjCoeff c n k = conjCoeff c' n k := by
  simp only [conjCoeff, h]

theorem m2m_congr (h : Agree (mChild p) t t') (v : V3) {n m : ℕ} (hn : n ≤ p) (hm : m ≤ n) : m2mWith t v n m = m2mWith t' v n m := by
  have hf := h.tri hn hm
  unfold m2mWith
  refine Finset.sum_congr rfl fun nn hnn => Finset.sum_congr rfl fun mm hmm => ?_
  rw [Finset.mem_range] at hnn
  rw [Finset.mem_Icc] at hmm
  split_ifs with hc
  · rfl
  · have ha : ∀ a ∈ ([.other (n - nn) ((m : ℤ) - mm).natAbs, .leg nn mm.natAbs, .anm nn mm.natAbs,
        .anm (n - nn) ((m : ℤ) - mm).natAbs, .anm n m] : List Access), a.Same t t' := fun a ha => hf a (by
      refine List.mem_append_left _ (List.mem_flatMap.mpr ⟨nn, List.mem_range.mpr hnn, mem_symLoop.mpr ⟨mm, hmm.1, hmm.2, ?_⟩⟩)
      rw [if_neg hc]
      exact ha)
    simp only [List.forall_mem_cons, Access.Same] at ha
    obtain ⟨h1, h2, h3, h4, h5, _⟩ := ha
    rw [h2, h3, h4, h5, signed_congr h1]

theorem l2l_congr (h : Agree (lParent p) t t') (v : V3) {n m : ℕ} (hn : n ≤ p) (hm : m ≤ n) : l2lWith t p v n m = l2lWith t' p v n m := by
  have hf := h.tri hn hm
  unfold l2lWith
  refine Finset.sum_congr rfl fun nn hnn => Finset.sum_congr rfl fun mm hmm => ?_
  rw [Finset.mem_Icc] at hnn hmm
  split_ifs with hc
  · rfl
  · have e : n + (nn - n) = nn := by omega
    have ha : ∀ a ∈ ([.other nn mm.natAbs, .leg (nn - n) (mm - m).natAbs, .l2l n m nn mm] : List Access), a.Same t t' := fun a ha => hf a (by
      refine List.mem_append_left _ (List.mem_flatMap.mpr ⟨nn - n, List.mem_range.mpr (by omega), mem_symLoop.mpr ⟨mm, ?_, ?_, ?_⟩⟩)
      · rw [e]; exact hmm.1
      · rw [e]; exact hmm.2
      · rw [if_neg hc, e]
        exact ha)
    simp only [List.forall_mem_cons, Access.Same] at ha
    obtain ⟨h1, h2, h3, _⟩ := ha
    rw [h2, h3, signed_congr h1]

theorem m2l_congr (h : Agree (lMultipole p) t t') (v : V3) {n m : ℕ} (hn : n ≤ p) (hm : m ≤ n) : m2lWith t p v n m = m2lWith t' p v n m := by
  have hf := h.tri hn hm
  unfold m2lWith
  refine Finset.sum_congr rfl fun nn hnn => Finset.sum_congr rfl fun mm hmm => ?_
  rw [Finset.mem_range] at hnn
  rw [Finset.mem_Icc] at hmm
  have ha : ∀ a ∈ ([.other nn mm.natAbs, .leg (nn + n) (mm - m).natAbs, .m2l n m nn mm] : List Access), a.Same t t' := fun a ha => hf a (by
    exact List.mem_append_left _ (List.mem_flatMap.mpr ⟨nn, List.mem_range.mpr hnn, mem_symLoop.mpr ⟨mm, hmm.1, hmm.2, ha⟩⟩))
  simp only [List.forall_mem_cons, Access.Same] at ha
  obtain ⟨h1, h2, h3, _⟩ := ha
  rw [h2, h3, conj_congr h1]

/-- **C20, accesses of the multipole operations.** For every order, expansion and argument, each operation of a multipole
expansion of order `p` gives the same result with any two tables of Legendre functions and derivatives, and any two arguments, that
agree on the accesses listed for it. -/
theorem C20_multipole_footprint (e o : Exp) (L L' : Legendre) (c c' : ℕ → ℕ → ℂ) (s : ℝ) (x normal : V3) :
    (Agree (mScaled e.p) (code L e.coeff c) (code L' e.coeff c') →
      mAddScaled e { o with coeff := c } s = mAddScaled e { o with coeff := c' } s) ∧
    (Agree (mSource e.p) (code L e.coeff c) (code L' e.coeff c') → mAddSource L e s x = mAddSource L' e s x) ∧
    (Agree (mNormDer e.p) (code L e.coeff c) (code L' e.coeff c') → mAddNormDer L e s x normal = mAddNormDer L' e s x normal) ∧
    (Agree (mChild e.p) (code L e.coeff c) (code L' e.coeff c') →
      mAddChild L e { o with coeff := c } = mAddChild L' e { o with coeff := c' }) ∧
    (Agree (mEvaluate e.p) (code L c e.coeff) (code L' c' e.coeff) →
      mEval L { e with coeff := c } x = mEval L' { e with coeff := c' } x) := by
  refine ⟨fun h => ?_, fun h => ?_, fun h => ?_, fun h => ?_, fun h => ?_⟩
  · unfold mAddScaled
    split_ifs with hc
    · rfl
    · rw [addCoeffs_congr e fun n m hn hm => ?_]
      have : c n m = c' n m := h.tri hn hm (.other n m) (by simp)
      simp only [this]
  · unfold mAddSource
    split_ifs with hc
    · rfl
    · rw [addCoeffs_congr e fun n m hn hm => ?_]
      have : L.fn n m = L'.fn n m := h.tri hn hm (.leg n m) (by simp)
      simp only [sourceCoeff, this]
  · unfold mAddNormDer
    split_ifs with hc
    · rfl
    · rw [addCoeffs_congr e fun n m hn hm => ?_]
      have h1 : L.fn n m = L'.fn n m := h.tri hn hm (.leg n m) (by simp)
      have h2 : L.der n m = L'.der n m := h.tri hn hm (.legDer n m) (by simp)
      simp only [normDerCoeff, h1, h2]
  · unfold mAddChild
    simp only
    split_ifs with hc hr
    · rfl
    · rw [addCoeffs_congr e fun n m hn hm => ?_]
      exact m2m_congr h _ hn hm
    · rw [addCoeffs_congr e fun n m hn hm => ?_]
      refine h.tri hn hm (.other n m) (List.mem_append_left _ (List.mem_flatMap.mpr ⟨0, by simp, mem_symLoop.mpr ⟨0, by simp, by simp, ?_⟩⟩))
      rw [if_neg (by simpa using hm)]
      simp
  · unfold mEval
    simp only
    split_ifs with hc
    · rfl
    · unfold mEvalFull
      simp only
      congr 1
      refine Finset.sum_congr rfl fun n hn => ?_
      rw [Finset.mem_range] at hn
      have h1 : ∀ m, m ≤ n → L.fn n m = L'.fn n m := fun m hm => h.tri (by omega) hm (.leg n m) (by simp)
      have h2 : ∀ m, m ≤ n → c n m = c' n m := fun m hm => h.tri (by omega) hm (.own n m) (by simp)
      rw [h1 0 (by omega), h2 0 (by omega)]
      congr 1
      refine Finset.sum_congr rfl fun m hm => ?_
      rw [Finset.mem_Icc] at hm
      rw [h1 m hm.2, h2 m hm.2]

/-- **C20, accesses of the local operations.** The same for the operations of a local expansion; here the translation
coefficients are arguments as well (`l2lWith`, `m2lWith`, which are the functions of the model with the tables of the program). -/
theorem C20_local_footprint (e o : Exp) (L L' : Legendre) (c c' : ℕ → ℕ → ℂ) (x : V3) :
    (Agree (lParent e.p) (code L e.coeff c) (code L' e.coeff c') →
      lAddParent L e { o with coeff := c } = lAddParent L' e { o with coeff := c' }) ∧
    (Agree (lMultipole e.p) (code L e.coeff c) (code L' e.coeff c') →
      lAddMultipole L e { o with coeff := c } = lAddMultipole L' e { o with coeff := c' }) ∧
    (Agree (lEvaluate e.p) (code L c e.coeff) (code L' c' e.coeff) →
      lEval L { e with coeff := c } x = lEval L' { e with coeff := c' } x) := by
  refine ⟨fun h => ?_, fun h => ?_, fun h => ?_⟩
  · unfold lAddParent
    simp only
    split_ifs with hc hr
    · rfl
    · rw [addCoeffs_congr e fun n m hn hm => ?_]
      exact l2l_congr h _ hn hm
    · rw [addCoeffs_congr e fun n m hn hm => ?_]
      refine h.tri hn hm (.other n m) (List.mem_append_left _ (List.mem_flatMap.mpr ⟨0, List.mem_range.mpr (by omega), mem_symLoop.mpr ⟨m, by omega, by omega, ?_⟩⟩))
      rw [if_neg (by simp)]
      simp
  · unfold lAddMultipole
    simp only
    split_ifs with hc
    · rfl
    · rw [addCoeffs_congr e fun n m hn hm => ?_]
      exact m2l_congr h _ hn hm
  · unfold lEval
    simp only
    split_ifs with hc
    · rfl
    · unfold lEvalFull
      simp only
      congr 1
      refine Finset.sum_congr rfl fun n hn => ?_
      rw [Finset.mem_range] at hn
      have h1 : ∀ m, m ≤ n → L.fn n m = L'.fn n m := fun m hm => h.tri (by omega) hm (.leg n m) (by simp)
      have h2 : ∀ m, m ≤ n → c n m = c' n m := fun m hm => h.tri (by omega) hm (.own n m) (by simp)
      rw [h1 0 (by omega), h2 0 (by omega)]
      congr 1
      refine Finset.sum_congr rfl fun m hm => ?_
      rw [Finset.mem_Icc] at hm
      rw [h1 m hm.2, h2 m hm.2]

/-- **C20, accesses to the precomputed tables.** The translations with the tables as arguments, which with the tables of the program
are those of the model, depend on the listed entries only; so do the entries of the two tables on the matrix `A_n_m`. -/
theorem C20_table_footprint (L : Legendre) (own c : ℕ → ℕ → ℂ) :
    (m2mWith (code L own c) = m2mCoeff L c ∧ (∀ p, l2lWith (code L own c) p = l2lCoeff L p c) ∧
      (∀ p, m2lWith (code L own c) p = m2lCoeff L p c) ∧ l2lTableWith (code L own c) = l2lTable ∧ m2lTableWith (code L own c) = m2lTable) ∧
    ∀ (t t' : Tables) (p : ℕ) (v : V3), ∀ n ≤ p, ∀ m ≤ n,
      (Agree (mChild p) t t' → m2mWith t v n m = m2mWith t' v n m) ∧
      (Agree (lParent p) t t' → l2lWith t p v n m = l2lWith t' p v n m) ∧
      (Agree (lMultipole p) t t' → m2lWith t p v n m = m2lWith t' p v n m) ∧
      (Agree (l2lBuild p) t t' → ∀ nn, n ≤ nn → nn ≤ p → ∀ mm : ℤ, -(nn : ℤ) ≤ mm → mm ≤ nn →
        l2lTableWith t n m nn mm = l2lTableWith t' n m nn mm) ∧
      (Agree (m2lBuild p) t t' → ∀ nn, nn ≤ p → ∀ mm : ℤ, -(nn : ℤ) ≤ mm → mm ≤ nn →
        m2lTableWith t n m nn mm = m2lTableWith t' n m nn mm) := by
  refine ⟨with_code L own c, fun t t' p v n hn m hm => ⟨fun h => m2m_congr h v hn hm, fun h => l2l_congr h v hn hm,
    fun h => m2l_congr h v hn hm, fun h nn h1 h2 mm h3 h4 => ?_, fun h nn h2 mm h3 h4 => ?_⟩⟩
  · have e : n + (nn - n) = nn := by omega
    have ha : ∀ a ∈ ([.anm (nn - n) (mm - m).natAbs, .anm nn mm.natAbs, .anm n m] : List Access), a.Same t t' := fun a ha =>
      h.tri hn hm a (List.mem_flatMap.mpr ⟨nn - n, List.mem_range.mpr (by omega), mem_symLoop.mpr ⟨mm, by rw [e]; exact h3,
        by rw [e]; exact h4, by rw [e]; exact ha⟩⟩)
    simp only [List.forall_mem_cons, Access.Same] at ha
    obtain ⟨h1, h2, h3, _⟩ := ha
    simp only [l2lTableWith, h1, h2, h3]
  · have ha : ∀ a ∈ ([.anm nn mm.natAbs, .anm (n + nn) ((m : ℤ) - mm).natAbs, .anm n m] : List Access), a.Same t t' := fun a ha =>
      h.tri hn hm a (List.mem_flatMap.mpr ⟨nn, List.mem_range.mpr (by omega), mem_symLoop.mpr ⟨mm, h3, h4, ha⟩⟩)
    simp only [List.forall_mem_cons, Access.Same] at ha
    obtain ⟨h1, h2, h3, _⟩ := ha
    simp only [m2lTableWith, h1, h2, h3]

/-- The unit vector of the third axis. -/
def up : V3 := ![0, 0, 1]

/-- A table of Legendre functions that vanish but for the one of degree `q` and order `0`, which is `x`. -/
def spike (q : ℕ) (x : ℝ) : Legendre := ⟨fun n m _ => if n = q ∧ m = 0 then x else 0, fun _ _ _ => 0⟩

theorem rho_up : rho up = 1 := by simp [rho, up]

/-- **C20, the bounds are attained.** For every order the last rows that the bounds of C20 are about are read: the result of
`Evaluate` depends on the Legendre function of degree `p`, that of the conversion to a local expansion on the one of degree `2p`. -/
theorem C20_reads (p : ℕ) :
    (∃ e : Exp, e.p = p ∧ ∃ x, mEval (spike p 0) e x ≠ mEval (spike p 1) e x) ∧
    ∃ e o : Exp, e.p = p ∧ o.p = p ∧ lAddMultipole (spike (p + p) 0) e o ≠ lAddMultipole (spike (p + p) 1) e o := by
  constructor
  · refine ⟨⟨p, 0, fun n m => if n = p ∧ m = 0 then 1 else 0, false⟩, rfl, up, ?_⟩
    have hv : ∀ x : ℝ, mEval (spike p x) ⟨p, 0, fun n m => if n = p ∧ m = 0 then 1 else 0, false⟩ up = x := by
      intro x
      simp only [mEval, mEvalFull, Bool.false_eq_true, if_false, sub_zero, rho_up, one_zpow, mul_one, spike]
      rw [Finset.sum_eq_single p]
      · rw [Finset.sum_eq_zero]
        · simp
        · intro m hm
          rw [Finset.mem_Icc] at hm
          have : m ≠ 0 := by omega
          simp [this]
      · intro n _ hn
        simp [hn]
      · intro h
        simp at h
    rw [hv, hv]
    norm_num
  · refine ⟨Exp.new p 0, ⟨p, up, fun n m => if n = p ∧ m = 0 then 1 else 0, false⟩, rfl, rfl, fun h => ?_⟩
    have hv : ∀ x : ℝ, m2lCoeff (spike (p + p) x) p (fun n m => if n = p ∧ m = 0 then 1 else 0) up p 0 = ((x * m2lTable p 0 p 0 : ℝ) : ℂ) := by
      intro x
      simp only [m2lCoeff, rho_up, one_zpow, mul_one, spike]
      rw [Finset.sum_eq_single p]
      · rw [Finset.sum_eq_single 0]
        · simp [conjCoeff, Complex.ext_iff]
        · intro mm _ hmm
          have : mm.natAbs ≠ 0 := by omega
          simp [this]
        · intro h
          simp at h
      · intro n _ hn
        simp [hn]
      · intro h
        simp at h
    have h2 := congrArg (fun e : Exp => e.coeff p 0) h
    simp only [lAddMultipole, Bool.false_eq_true, if_false, Exp.addCoeffs, Exp.new, sub_zero, hv, le_refl, zero_le, and_self, if_true,
      zero_mul, one_mul, Complex.ofReal_zero, zero_add] at h2
    have hA : ∀ n m : ℕ, Anm n m ≠ 0 := fun n m => by
      unfold Anm
      positivity
    have h3 : m2lTable p 0 p 0 ≠ 0 := by
      simp only [m2lTable, iPowRe]
      simp [hA]
    exact h3 (by exact_mod_cast h2.symm)

end PiBem.Expansion.Lookups
