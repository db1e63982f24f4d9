import Verif.Expansion.Model
import Mathlib.Tactic.Ring
import Mathlib.Tactic.NormNum
import Mathlib.Tactic.FieldSimp
import Mathlib.Tactic.Linarith

/-!
# C21: the `is_zero` shortcut is sound

Histories of all the operations of the two classes that the program uses, on any number of expansions,
compared with a run in which no operation looks at the flag.
-/

noncomputable section

namespace PiBem.Expansion

/-! ## Specification: the operations without the shortcut -/

def mAddScaledFull (e o : Exp) (sol : ℝ) : Exp := e.addCoeffs (fun n m => o.coeff n m * sol)

def mAddSourceFull (L : Legendre) (e : Exp) (s : ℝ) (x : V3) : Exp :=
  e.addCoeffs (sourceCoeff L s (x - e.center))

def mAddNormDerFull (L : Legendre) (e : Exp) (s : ℝ) (x normal : V3) : Exp :=
  e.addCoeffs (normDerCoeff L s (x - e.center) normal)

def mAddChildFull (L : Legendre) (e o : Exp) : Exp :=
  if 1e-7 < rho (o.center - e.center) then e.addCoeffs (m2mCoeff L o.coeff (o.center - e.center))
  else e.addCoeffs o.coeff

def lAddParentFull (L : Legendre) (e o : Exp) : Exp :=
  if 1e-7 < rho (o.center - e.center) then e.addCoeffs (l2lCoeff L e.p o.coeff (o.center - e.center))
  else e.addCoeffs o.coeff

def lAddMultipoleFull (L : Legendre) (e o : Exp) : Exp :=
  e.addCoeffs (m2lCoeff L e.p o.coeff (o.center - e.center))

/-- One call on a store of multipole (`false`) and local (`true`) expansions. -/
inductive Call
  | new (kind : Bool) (i p : ℕ) (c : V3)
  | copy (kind : Bool) (i j : ℕ)
  | setCenter (kind : Bool) (i : ℕ) (c : V3)
  | mScaled (i j : ℕ) (s : ℝ)
  | mSource (i : ℕ) (s : ℝ) (x : V3)
  | mNormDer (i : ℕ) (s : ℝ) (x normal : V3)
  | mChild (i j : ℕ)
  | lParent (i j : ℕ)
  | lMultipole (i j : ℕ)

/-- The expansions of the program: `st kind i`. -/
abbrev Store := Bool → ℕ → Exp

def Store.put (st : Store) (kind : Bool) (i : ℕ) (e : Exp) : Store :=
  fun k j => if k = kind ∧ j = i then e else st k j

/-- A call executed by the program. -/
def call (L : Legendre) (st : Store) : Call → Store
  | .new k i p c => st.put k i (Exp.new p c)
  | .copy k i j => st.put k i (st k j)
  | .setCenter k i c => st.put k i { st k i with center := c }
  | .mScaled i j s => st.put false i (mAddScaled (st false i) (st false j) s)
  | .mSource i s x => st.put false i (mAddSource L (st false i) s x)
  | .mNormDer i s x nr => st.put false i (mAddNormDer L (st false i) s x nr)
  | .mChild i j => st.put false i (mAddChild L (st false i) (st false j))
  | .lParent i j => st.put true i (lAddParent L (st true i) (st true j))
  | .lMultipole i j => st.put true i (lAddMultipole L (st true i) (st false j))

/-- The same call without looking at flags. -/
def callFull (L : Legendre) (st : Store) : Call → Store
  | .new k i p c => st.put k i (Exp.new p c)
  | .copy k i j => st.put k i (st k j)
  | .setCenter k i c => st.put k i { st k i with center := c }
  | .mScaled i j s => st.put false i (mAddScaledFull (st false i) (st false j) s)
  | .mSource i s x => st.put false i (mAddSourceFull L (st false i) s x)
  | .mNormDer i s x nr => st.put false i (mAddNormDerFull L (st false i) s x nr)
  | .mChild i j => st.put false i (mAddChildFull L (st false i) (st false j))
  | .lParent i j => st.put true i (lAddParentFull L (st true i) (st true j))
  | .lMultipole i j => st.put true i (lAddMultipoleFull L (st true i) (st false j))

/-- All the expansions just constructed. -/
def Store.init : Store := fun _ _ => Exp.new 0 0

/-! ## Lemmas -/

/-- Flag sound, and nothing outside the triangle. -/
def Sound (e : Exp) : Prop := e.isZero = true → ∀ n m, e.coeff n m = 0

def Same (e f : Exp) : Prop := e.p = f.p ∧ e.center = f.center ∧ e.coeff = f.coeff

theorem addCoeffs_zero (e : Exp) (z : ℕ → ℕ → ℂ) (hz : ∀ n m, z n m = 0) : (e.addCoeffs z).coeff = e.coeff := by
  funext n m
  simp [Exp.addCoeffs, hz]

theorem signedCoeff_zero {c : ℕ → ℕ → ℂ} (h : ∀ n m, c n m = 0) (n : ℕ) (k : ℤ) : signedCoeff c n k = 0 := by
  simp [signedCoeff, h, Complex.ext_iff]

theorem conjCoeff_zero {c : ℕ → ℕ → ℂ} (h : ∀ n m, c n m = 0) (n : ℕ) (k : ℤ) : conjCoeff c n k = 0 := by
  simp [conjCoeff, h, Complex.ext_iff]

theorem m2m_zero (L : Legendre) {c : ℕ → ℕ → ℂ} (h : ∀ n m, c n m = 0) (v : V3) (n m : ℕ) :
    m2mCoeff L c v n m = 0 := by
  simp [m2mCoeff, signedCoeff_zero h]

theorem l2l_zero (L : Legendre) (p : ℕ) {c : ℕ → ℕ → ℂ} (h : ∀ n m, c n m = 0) (v : V3) (n m : ℕ) :
    l2lCoeff L p c v n m = 0 := by
  simp [l2lCoeff, signedCoeff_zero h]

theorem m2l_zero (L : Legendre) (p : ℕ) {c : ℕ → ℕ → ℂ} (h : ∀ n m, c n m = 0) (v : V3) (n m : ℕ) :
    m2lCoeff L p c v n m = 0 := by
  simp [m2lCoeff, conjCoeff_zero h]

theorem source_zero (L : Legendre) (v : V3) (n m : ℕ) : sourceCoeff L 0 v n m = 0 := by
  simp [sourceCoeff]

theorem normDer_zero (L : Legendre) (v nr : V3) (n m : ℕ) : normDerCoeff L 0 v nr n m = 0 := by
  simp [normDerCoeff]

theorem same_addCoeffs {e f : Exp} (h : Same e f) {z w : ℕ → ℕ → ℂ} (hz : z = w) (b : Bool) :
    Same { e.addCoeffs z with isZero := b } (f.addCoeffs w) := by
  obtain ⟨h1, h2, h3⟩ := h
  subst hz
  refine ⟨h1, h2, ?_⟩
  funext n m
  simp only [Exp.addCoeffs, h1, h3]

theorem same_skip {e f : Exp} (h : Same e f) {w : ℕ → ℕ → ℂ} (hz : ∀ n m, w n m = 0) (b : Bool) :
    Same { e with isZero := b } (f.addCoeffs w) :=
  ⟨h.1, h.2.1, by rw [addCoeffs_zero _ _ hz]; exact h.2.2⟩

theorem step_sound (L : Legendre) (st : Store) (hs : ∀ k i, Sound (st k i)) (c : Call) (k : Bool) (i : ℕ) :
    Sound (call L st c k i) := by
  have f : ∀ (e : Exp) (z), Sound { e.addCoeffs z with isZero := false } := fun e z h => by simp at h
  cases c <;> simp only [call, Store.put] <;> split_ifs <;> try exact hs _ _
  · intro _ n m; rfl
  · unfold mAddScaled; split_ifs; exacts [hs _ _, f _ _]
  · unfold mAddSource; split_ifs; exacts [hs _ _, f _ _]
  · unfold mAddNormDer; split_ifs; exacts [hs _ _, f _ _]
  · unfold mAddChild
    split_ifs with h
    · intro hz
      simp only [h, Bool.and_true] at hz
      exact hs _ _ hz
    · exact f _ _
    · exact f _ _
  · unfold lAddParent; split_ifs; exacts [hs _ _, f _ _, f _ _]
  · unfold lAddMultipole; split_ifs; exacts [hs _ _, f _ _]

theorem step_same (L : Legendre) (st su : Store) (hs : ∀ k i, Sound (st k i)) (hr : ∀ k i, Same (st k i) (su k i))
    (c : Call) (k : Bool) (i : ℕ) : Same (call L st c k i) (callFull L su c k i) := by
  cases c <;> simp only [call, callFull, Store.put] <;> split_ifs <;> try exact hr _ _
  · exact ⟨rfl, rfl, rfl⟩
  · exact ⟨(hr _ _).1, rfl, (hr _ _).2.2⟩
  · rename_i a b s _
    unfold mAddScaled mAddScaledFull
    split_ifs with h
    · refine same_skip (hr _ _) (fun n m => ?_) _
      rcases h with h | h
      · rw [← (hr false b).2.2, hs false b h]; simp
      · simp [h]
    · exact same_addCoeffs (hr _ _) (by rw [(hr false b).2.2]) _
  · unfold mAddSource mAddSourceFull
    split_ifs with h
    · exact same_skip (hr _ _) (fun n m => by rw [h]; exact source_zero _ _ _ _) _
    · exact same_addCoeffs (hr _ _) (by rw [(hr false _).2.1]) _
  · unfold mAddNormDer mAddNormDerFull
    split_ifs with h
    · exact same_skip (hr _ _) (fun n m => by rw [h]; exact normDer_zero _ _ _ _ _) _
    · exact same_addCoeffs (hr _ _) (by rw [(hr false _).2.1]) _
  · rename_i a b _
    unfold mAddChild mAddChildFull
    rw [← (hr false b).2.1, ← (hr false a).2.1]
    split_ifs with h h2
    · exact same_skip (hr _ _) (fun n m => by rw [← (hr false b).2.2]; exact m2m_zero L (hs false b h) _ _ _) _
    · exact same_skip (hr _ _) (fun n m => by rw [← (hr false b).2.2]; exact hs false b h _ _) _
    · exact same_addCoeffs (hr _ _) (by rw [(hr false b).2.2]) _
    · exact same_addCoeffs (hr _ _) (hr false b).2.2 _
  · rename_i a b _
    unfold lAddParent lAddParentFull
    rw [← (hr true b).2.1, ← (hr true a).2.1]
    split_ifs with h h2
    · exact same_skip (hr _ _) (fun n m => by rw [← (hr true b).2.2]; exact l2l_zero L _ (hs true b h) _ _ _) _
    · exact same_skip (hr _ _) (fun n m => by rw [← (hr true b).2.2]; exact hs true b h _ _) _
    · exact same_addCoeffs (hr _ _) (by rw [(hr true b).2.2, (hr true a).1]) _
    · exact same_addCoeffs (hr _ _) (hr true b).2.2 _
  · rename_i a b _
    unfold lAddMultipole lAddMultipoleFull
    rw [← (hr false b).2.1, ← (hr true a).2.1]
    split_ifs with h
    · exact same_skip (hr _ _) (fun n m => by rw [← (hr false b).2.2]; exact m2l_zero L _ (hs false b h) _ _ _) _
    · exact same_addCoeffs (hr _ _) (by rw [(hr false b).2.2, (hr true a).1]) _

theorem mEvalFull_zero (L : Legendre) (e : Exp) (x : V3) (h : ∀ n m, e.coeff n m = 0) : mEvalFull L e x = 0 := by
  simp [mEvalFull, h]

theorem lEvalFull_zero (L : Legendre) (e : Exp) (x : V3) (h : ∀ n m, e.coeff n m = 0) : lEvalFull L e x = 0 := by
  simp [lEvalFull, h]

/-! ## C21 -/

/-- **C21**. After any history of calls: a flagged expansion has only zero coefficients; every expansion has the
order, centre and coefficients it has if no call ever looks at the flags; and both `Evaluate` return the value of
the full sum. -/
theorem C21_zero_flag (L : Legendre) (h : List Call) (k : Bool) (i : ℕ) :
    let st := h.foldl (call L) Store.init
    let su := h.foldl (callFull L) Store.init
    ((st k i).isZero = true → ∀ n m, (st k i).coeff n m = 0) ∧
    (st k i).p = (su k i).p ∧ (st k i).center = (su k i).center ∧ (st k i).coeff = (su k i).coeff ∧
    (∀ x, mEval L (st k i) x = mEvalFull L (su k i) x) ∧
    (∀ x, lEval L (st k i) x = lEvalFull L (su k i) x) := by
  have key : ∀ (h : List Call) (st su : Store), (∀ k i, Sound (st k i)) → (∀ k i, Same (st k i) (su k i)) →
      (∀ k i, Sound (h.foldl (call L) st k i)) ∧
      (∀ k i, Same (h.foldl (call L) st k i) (h.foldl (callFull L) su k i)) := by
    intro h
    induction h with
    | nil => intro st su h1 h2; exact ⟨h1, h2⟩
    | cons c h ih =>
      intro st su h1 h2
      exact ih _ _ (step_sound L st h1 c) (step_same L st su h1 h2 c)
  obtain ⟨h1, h2⟩ := key h Store.init Store.init (fun k i _ n m => rfl) (fun k i => ⟨rfl, rfl, rfl⟩)
  obtain ⟨e1, e2, e3⟩ := h2 k i
  refine ⟨h1 k i, e1, e2, e3, fun x => ?_, fun x => ?_⟩
  · unfold mEval
    split_ifs with hz
    · exact (mEvalFull_zero L _ x (fun n m => by rw [← e3]; exact h1 k i hz n m)).symm
    · unfold mEvalFull; rw [e1, e2, e3]
  · unfold lEval
    split_ifs with hz
    · exact (lEvalFull_zero L _ x (fun n m => by rw [← e3]; exact h1 k i hz n m)).symm
    · unfold lEvalFull; rw [e1, e2, e3]

/-- Non-vacuity of C21: a history in which one expansion receives a source (unflagged, a non-zero coefficient)
and another receives only a zero source and a zero child (flagged). -/
example (L : Legendre) (hL : L.fn 0 0 1 = 1) :
    let st := [Call.new false 0 3 0, Call.new false 1 3 0, Call.mSource 0 2 ![0, 0, 1],
      Call.mSource 1 0 ![0, 0, 1], Call.new false 2 3 ![1, 0, 0], Call.mChild 1 2].foldl (call L) Store.init
    (st false 0).isZero = false ∧ (st false 0).coeff 0 0 = 2 ∧ (st false 1).isZero = true := by
  have hr : rho ![(0 : ℝ), 0, 1] = 1 := by simp [rho]
  have hc : cosA ![(0 : ℝ), 0, 1] = 1 := by simp [cosA, hr]
  simp [call, Store.put, mAddSource, mAddChild, Exp.new, Exp.addCoeffs, sourceCoeff, hc, hL, cis]

/-- `LocalExpansion::Add(real, imag)` (local_expansion.cc:82-103), not called by the program: the positions it
updates are `(n, n+m)` and `(n, n-m)`. For every order `p ≥ 1` it writes outside the array of coefficients, at
position `p(p+1)/2 + 2p`. -/
theorem C21_add_vectors_out_of_bounds (p : ℕ) (hp : 1 ≤ p) :
    ∃ m n, m < p + 1 ∧ m ≤ n ∧ n < p + 1 ∧ (p + 1) * (p + 2) / 2 ≤ n * (n + 1) / 2 + (n + m) := by
  refine ⟨p, p, by omega, le_refl _, by omega, ?_⟩
  have : (p + 1) * (p + 2) = p * (p + 1) + (p + 1) * 2 := by ring
  rw [this, Nat.add_mul_div_right _ _ (by norm_num)]
  omega

/-- The flag after `LocalExpansion::Add(real, imag)` on an order 0 expansion (local_expansion.cc:87-102: the
coefficient is added twice, once conjugated, and the flag is cleared only if `norm(a) > 1e-20`). -/
def lAddVectors0 (e : Exp) (re im : ℝ) : Exp :=
  let a : ℂ := ⟨re, im⟩
  { e with
    coeff := fun n m => if n = 0 ∧ m = 0 then e.coeff 0 0 + a + (starRingEnd ℂ) a else e.coeff n m
    isZero := if Complex.normSq a > 1e-20 then false else e.isZero }

/-- With that method the flag is not sound even for order 0. -/
theorem C21_add_vectors_flag_refuted :
    ∃ re im : ℝ, (lAddVectors0 (Exp.new 0 0) re im).isZero = true ∧
      (lAddVectors0 (Exp.new 0 0) re im).coeff 0 0 ≠ 0 := by
  refine ⟨1e-11, 0, ?_, ?_⟩
  · have : ¬ Complex.normSq (⟨1e-11, 0⟩ : ℂ) > 1e-20 := by
      simp only [Complex.normSq_mk]; norm_num
    simp [lAddVectors0, Exp.new]
    norm_num
  · simp only [lAddVectors0, Exp.new]
    intro h
    have := congrArg Complex.re h
    simp at this
    norm_num at this

end PiBem.Expansion
