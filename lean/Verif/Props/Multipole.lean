import Verif.Harmonic.Bounds
import Verif.Harmonic.NormDer
import Verif.Props.Legendre

/-!
# C57-C62: what expansions contain and approximate

The specification is `Verif.Expansion.Potential`: sources, their potential, their moments, `IsMultipole`. The table of
Legendre functions is the one of the code (`codeTable`). Division by zero gives NaN in the program: the hypotheses
`x ≠ centre` and "off the vertical axis" exclude exactly those calls.
-/

noncomputable section

namespace PiBem.Expansion

open PiBem.Legendre PiBem.Harmonic

/-- The functions of `AssLegFunction` as used by the expansions (`GetAssLegFunSph`, `GetAssLegFunSphDeriv`,
ass_leg_function.cc:521-536). -/
def codeTable : Legendre where
  fn n m x := match getAssLegFunSph n m x with | .val v => v | _ => 0
  der n m x := match getAssLegFunSphDeriv n m x with | .val v => v | _ => 0

theorem codeTable_ok : IsTable codeTable where
  fn n m x hn hm h1 h2 := by simp only [codeTable, (C44_values n m x).1 hn hm h1 h2]
  der n m x hn hm h1 h2 := by
    obtain ⟨v, hv, hd⟩ := (C44_derivatives n m hn hm).1 x h1 h2
    simpa only [codeTable, hv] using hd

/-! ## Helper lemmas -/

theorem moment_append (S T : List Source) (c : V3) (n m : ℕ) : moment (S ++ T) c n m = moment S c n m + moment T c n m := by
  simp [moment]

theorem potential_append (S T : List Source) (x : V3) : potential (S ++ T) x = potential S x + potential T x := by
  simp [potential]

theorem isMultipole_add {e : Exp} {S T : List Source} {z : ℕ → ℕ → ℂ} (h : IsMultipole e S)
    (hz : ∀ n m, m ≤ n → n ≤ e.p → z n m = moment T e.center n m) :
    IsMultipole { e.addCoeffs z with isZero := false } (S ++ T) := by
  refine ⟨fun n m hm hn => ?_, fun h => by simp at h⟩
  have hn' : n ≤ e.p := hn
  simp only [Exp.addCoeffs]
  rw [if_pos ⟨hn', hm⟩, h.1 n m hm hn', hz n m hm hn', moment_append]

theorem isMultipole_same {e : Exp} {S T : List Source} (h : IsMultipole e S)
    (hz : ∀ n m, m ≤ n → n ≤ e.p → moment T e.center n m = 0) : IsMultipole e (S ++ T) :=
  ⟨fun n m hm hn => by rw [h.1 n m hm hn, moment_append, hz n m hm hn, add_zero], h.2⟩

/-! ## C57 -/

/-- A new multipole expansion contains no source. -/
theorem C57_new (p : ℕ) (c : V3) : IsMultipole (Exp.new p c) [] :=
  ⟨fun _ _ _ _ => by simp [Exp.new, moment], fun _ _ _ => rfl⟩

/-- **C57**: `Add(strength, point)` adds a charge. -/
theorem C57_add_source (e : Exp) (S : List Source) (h : IsMultipole e S) (hp : e.p ≤ 20) (q : ℝ) (x : V3)
    (_hx : x ≠ e.center) : IsMultipole (mAddSource codeTable e q x) (S ++ [.charge q x]) := by
  unfold mAddSource
  split_ifs with hq
  · subst hq
    exact isMultipole_same h fun n m _ _ => by simp [moment, Source.moment]
  · refine isMultipole_add h fun n m hm hn => ?_
    simp only [moment, List.map_cons, List.map_nil, List.sum_cons, List.sum_nil, add_zero, Source.moment, sourceCoeff]
    rw [codeTable_ok.fn n m _ (by omega) hm (abs_cosA _).1 (abs_cosA _).2]
    push_cast; ring

/-- The source with its strength multiplied. -/
def Source.scale (a : ℝ) : Source → Source
  | .charge q y => .charge (a * q) y
  | .dipole q y d => .dipole (a * q) y d

theorem moment_scale (a : ℝ) (S : List Source) (c : V3) (n m : ℕ) :
    moment (S.map (Source.scale a)) c n m = a * moment S c n m := by
  induction S with
  | nil => simp [moment]
  | cons s S ih =>
    simp only [moment, List.map_cons, List.sum_cons] at *
    rw [ih, mul_add]
    congr 1
    cases s <;> simp only [Source.scale, Source.moment] <;> push_cast <;> ring

theorem potential_scale (a : ℝ) (S : List Source) (x : V3) : potential (S.map (Source.scale a)) x = a * potential S x := by
  induction S with
  | nil => simp [potential]
  | cons s S ih =>
    simp only [potential, List.map_cons, List.sum_cons] at *
    rw [ih, mul_add]
    congr 1
    cases s <;> simp only [Source.scale, Source.potential] <;> ring

/-- **C57**: `Add(multipole, sol)` adds the sources of the argument with their strength multiplied. -/
theorem C57_add_scaled (e o : Exp) (S T : List Source) (h : IsMultipole e S) (ho : IsMultipole o T) (hp : o.p = e.p)
    (hc : o.center = e.center) (a : ℝ) : IsMultipole (mAddScaled e o a) (S ++ T.map (Source.scale a)) := by
  unfold mAddScaled
  split_ifs with hz
  · refine isMultipole_same h fun n m hm hn => ?_
    rw [moment_scale]
    rcases hz with hz | hz
    · rw [← hc, ← ho.1 n m hm (by omega), ho.2 hz, mul_zero]
    · rw [hz]; simp
  · refine isMultipole_add h fun n m hm hn => ?_
    rw [moment_scale, ho.1 n m hm (by omega), hc, mul_comm]

example : ∃ e, IsMultipole e [.charge 2 ![0, 0, 1]] ∧ e.p = 6 ∧ e.center = 0 :=
  ⟨_, C57_add_source (Exp.new 6 0) [] (C57_new 6 0) (by simp [Exp.new]) 2 ![0, 0, 1]
    (fun h => by have := congrFun h 2; simp [Exp.new] at this), by simp [mAddSource, Exp.addCoeffs, Exp.new],
    by simp [mAddSource, Exp.addCoeffs, Exp.new]⟩

/-! ## C58 -/

/-- The unit normal computed by the code. -/
def versor (normal : V3) : V3 := fun k => normal k / rho normal

/-- **C58**: `AddNormDer(strength, point, normal)` adds a dipole in the direction of the normal, if the point is not on
the vertical line through the centre. -/
theorem C58_add_normal_derivative (e : Exp) (S : List Source) (h : IsMultipole e S) (hp : e.p ≤ 20) (q : ℝ) (x normal : V3)
    (_hn : normal ≠ 0) (hx : ¬ (x 0 = e.center 0 ∧ x 1 = e.center 1)) :
    IsMultipole (mAddNormDer codeTable e q x normal) (S ++ [.dipole q x (versor normal)]) := by
  unfold mAddNormDer
  split_ifs with hq
  · subst hq
    exact isMultipole_same h fun n m _ _ => by simp [moment, Source.moment]
  · refine isMultipole_add h fun n m hm hn => ?_
    have hu : uc (x - e.center) ≠ 0 := by
      intro h0
      have h1 := congrArg Complex.re h0
      have h2 := congrArg Complex.im h0
      simp only [uc, Pi.sub_apply, Complex.zero_re, Complex.zero_im] at h1 h2
      exact hx ⟨by linarith, by linarith⟩
    obtain ⟨D, hD, hd⟩ := normDer_hasDerivAt (v := x - e.center) (d := versor normal) codeTable codeTable_ok hu n m (by omega)
      hm q normal rfl
    simp only [moment, List.map_cons, List.map_nil, List.sum_cons, List.sum_nil, add_zero, Source.moment]
    rw [hD]
    congr 1
    have e1 : (fun t : ℝ => ((rho (x + t • versor normal - e.center) ^ n * assLeg n m (cosA (x + t • versor normal - e.center)) : ℝ) : ℂ) *
        cis (-m * beta (x + t • versor normal - e.center))) = fun t : ℝ => ((rho (x - e.center + t • versor normal) ^ n *
          assLeg n m (cosA (x - e.center + t • versor normal)) : ℝ) : ℂ) * cis (-m * beta (x - e.center + t • versor normal)) := by
      funext t
      rw [show x + t • versor normal - e.center = x - e.center + t • versor normal by abel]
    rw [e1, hd.deriv]

example : IsMultipole (mAddNormDer codeTable (Exp.new 6 0) 3 ![1, 0, 1] ![0, 2, 0]) [.dipole 3 ![1, 0, 1] (versor ![0, 2, 0])] :=
  C58_add_normal_derivative (Exp.new 6 0) [] (C57_new 6 0) (by simp [Exp.new]) 3 ![1, 0, 1] ![0, 2, 0]
    (fun h => by have := congrFun h 1; simp at this) (by simp [Exp.new])

/-! ## C59 -/

/-- **C59**: `Add(other)` translates: the result contains the sources of both expansions, exactly, if the centres are
farther than `1e-7` or coincide. -/
theorem C59_translation_exact (e o : Exp) (S T : List Source) (h : IsMultipole e S) (ho : IsMultipole o T) (hpo : o.p = e.p)
    (hp : e.p ≤ 20) (hc : 1e-7 < rho (o.center - e.center) ∨ o.center = e.center) :
    IsMultipole (mAddChild codeTable e o) (S ++ T) := by
  unfold mAddChild
  split_ifs with hz hd
  · have h1 : { e with isZero := e.isZero && o.isZero } = e := by rw [hz, Bool.and_true]
    rw [h1]
    refine isMultipole_same h fun n m hm hn => ?_
    have hz2 : ∀ n, n ≤ e.p → lpoly T o.center n = 0 := by
      intro n hn
      have hs := sym_lpoly T o.center n
      have hco : ∀ m, m ≤ n → (lpoly T o.center n).coeff (n + m) = 0 := by
        intro m hm
        have h2 := ho.1 n m hm (by omega)
        rw [ho.2 hz, moment_list_eq _ _ _ _ hm] at h2
        have hW : (W n m : ℂ) ≠ 0 := by exact_mod_cast (W_pos n m).ne'
        have := (mul_eq_zero.mp h2.symm).resolve_left hW
        simpa using this
      ext k
      rw [Polynomial.coeff_zero]
      rcases le_or_gt k (2 * n) with hk | hk
      · rcases le_or_gt n k with hnk | hnk
        · have := hco (k - n) (by omega)
          rwa [show n + (k - n) = k by omega] at this
        · have h3 := hs.conj k hk
          have := hco (n - k) (by omega)
          rw [show n + (n - k) = 2 * n - k by omega] at this
          rw [this, mul_zero] at h3
          simpa using h3
      · exact Polynomial.coeff_eq_zero_of_natDegree_lt (lt_of_le_of_lt hs.1 hk)
    rw [moment_list_eq _ _ _ _ hm, lpoly_translate T e.center o.center n]
    rw [Finset.sum_eq_zero]
    · simp
    · intro j hj
      rw [hz2 (n - j) (by omega), mul_zero]
  · refine isMultipole_add h fun n m hm hn => ?_
    rw [m2m_eq codeTable codeTable_ok o.coeff (fun k => lpoly T o.center k) _ n m (by omega) hm
      (fun k _ => sym_lpoly T _ k) (fun k hk m hm => by rw [ho.1 k m hm (by omega), moment_list_eq _ _ _ _ hm])]
    rw [moment_list_eq _ _ _ _ hm, ← lpoly_translate]
  · have hc' : o.center = e.center := hc.resolve_left hd
    refine isMultipole_add h fun n m hm hn => ?_
    rw [ho.1 n m hm (by omega), hc']

example : ∃ e, IsMultipole (mAddChild codeTable (Exp.new 6 ![5, 0, 0]) e) [.charge 2 ![0, 0, 1]] := by
  refine ⟨_, C59_translation_exact (Exp.new 6 ![5, 0, 0]) _ [] _ (C57_new _ _)
    (C57_add_source (Exp.new 6 0) [] (C57_new 6 0) (by simp [Exp.new]) 2 ![0, 0, 1]
      (fun h => by have := congrFun h 2; simp [Exp.new] at this)) ?_ (by simp [Exp.new]) (Or.inl ?_)⟩
  · simp [mAddSource, Exp.addCoeffs, Exp.new]
  · have h1 : (mAddSource codeTable (Exp.new 6 0) 2 ![0, 0, 1]).center - (Exp.new 6 ![5, 0, 0]).center = -![5, 0, 0] := by
      simp [mAddSource, Exp.addCoeffs, Exp.new]
    rw [h1, rho_neg]
    have : rho ![5, 0, 0] = 5 := by
      rw [rho, show ((![5, 0, 0] : V3) 0 ^ 2 + (![5, 0, 0] : V3) 1 ^ 2 + (![5, 0, 0] : V3) 2 ^ 2) = 5 ^ 2 by simp]
      exact Real.sqrt_sq (by norm_num)
    rw [this]; norm_num

/-! ## Histories -/

/-- The calls that add something to a multipole expansion. The arguments of the last two are expansions with their
sources. -/
inductive MOp
  | source (q : ℝ) (x : V3)
  | normDer (q : ℝ) (x normal : V3)
  | scaled (o : Exp) (T : List Source) (a : ℝ)
  | child (o : Exp) (T : List Source)

/-- The call as executed by the code. -/
def MOp.run (e : Exp) : MOp → Exp
  | .source q x => mAddSource codeTable e q x
  | .normDer q x normal => mAddNormDer codeTable e q x normal
  | .scaled o _ a => mAddScaled e o a
  | .child o _ => mAddChild codeTable e o

/-- The sources the call is meant to add. -/
def MOp.sources : MOp → List Source
  | .source q x => [.charge q x]
  | .normDer q x normal => [.dipole q x (versor normal)]
  | .scaled _ T a => T.map (Source.scale a)
  | .child _ T => T

/-- The conditions on the call, for an expansion of order `p` and centre `c`. -/
def MOp.Ok (p : ℕ) (c : V3) : MOp → Prop
  | .source _ x => x ≠ c
  | .normDer _ x normal => normal ≠ 0 ∧ ¬ (x 0 = c 0 ∧ x 1 = c 1)
  | .scaled o T _ => IsMultipole o T ∧ o.p = p ∧ o.center = c
  | .child o T => IsMultipole o T ∧ o.p = p ∧ (1e-7 < rho (o.center - c) ∨ o.center = c)

theorem MOp.run_frame (e : Exp) (o : MOp) : (o.run e).p = e.p ∧ (o.run e).center = e.center := by
  cases o <;> simp only [MOp.run, mAddSource, mAddNormDer, mAddScaled, mAddChild, Exp.addCoeffs] <;> split_ifs <;>
    exact ⟨rfl, rfl⟩

/-- **C57-C59** for every history: after any sequence of calls the expansion contains exactly the sources added. -/
theorem C57_history (p : ℕ) (c : V3) (hp : p ≤ 20) (ops : List MOp) (hok : ∀ o ∈ ops, o.Ok p c) :
    IsMultipole (ops.foldl MOp.run (Exp.new p c)) (ops.flatMap MOp.sources) := by
  have key : ∀ (ops : List MOp) (e : Exp) (S : List Source), IsMultipole e S → e.p = p → e.center = c →
      (∀ o ∈ ops, o.Ok p c) → IsMultipole (ops.foldl MOp.run e) (S ++ ops.flatMap MOp.sources) := by
    intro ops
    induction ops with
    | nil => intro e S h _ _ _; simpa using h
    | cons o ops ih =>
      intro e S h he hec hok
      have ho := hok o (by simp)
      have h1 : IsMultipole (o.run e) (S ++ o.sources) := by
        cases o with
        | source q x => exact C57_add_source e S h (by omega) q x (by rw [hec]; exact ho)
        | normDer q x nn => exact C58_add_normal_derivative e S h (by omega) q x nn ho.1 (by rw [hec]; exact ho.2)
        | scaled o T a => exact C57_add_scaled e o S T h ho.1 (by rw [he]; exact ho.2.1) (by rw [hec]; exact ho.2.2) a
        | child o T =>
          exact C59_translation_exact e o S T h ho.1 (by rw [he]; exact ho.2.1) (by omega) (by rw [hec]; exact ho.2.2)
      have := ih (o.run e) (S ++ o.sources) h1 (by rw [(o.run_frame e).1, he]) (by rw [(o.run_frame e).2, hec])
        (fun o' h' => hok o' (by simp [h']))
      simpa using this
  simpa using key ops (Exp.new p c) [] (C57_new p c) rfl rfl hok

example : ∃ ops : List MOp, ops.length = 2 ∧ ∀ o ∈ ops, o.Ok 6 0 := by
  refine ⟨[.source 2 ![0, 0, 1], .normDer 1 ![1, 0, 0] ![0, 0, 3]], rfl, ?_⟩
  simp only [List.mem_cons, List.not_mem_nil, or_false, forall_eq_or_imp, forall_eq, MOp.Ok]
  refine ⟨fun h => by have := congrFun h 2; simp at this, fun h => by have := congrFun h 2; simp at this, by simp⟩

/-! ## C60 -/

/-- **C60**: the value of a multipole expansion outside the sphere of its sources differs from the potential of the
sources at most by the geometric bound. -/
theorem C60_evaluation_error (e : Exp) (S : List Source) (h : IsMultipole e S) (hp : e.p ≤ 20) (x : V3)
    (hx : x ≠ e.center) (hS : ∀ s ∈ S, rho (s.pos - e.center) < rho (x - e.center)) :
    |potential S x - mEval codeTable e x| ≤
      (S.map fun s => s.bound e.p (rho (x - e.center)) (rho (s.pos - e.center))).sum := by
  have hf : mEvalFull codeTable e x = (S.map fun s => ∑ n ∈ Finset.range (e.p + 1), (fld n (x - e.center) (spoly e.center n s)).re).sum := by
    rw [mEval_eq codeTable codeTable_ok e x hp hx (fun n => lpoly S e.center n) (fun n _ => sym_lpoly S _ n)
      (fun n m hn hm => by rw [h.1 n m hm hn, moment_list_eq _ _ _ _ hm]), ← sum_list_comm]
    refine Finset.sum_congr rfl fun n _ => ?_
    have := fld_lpoly_mul n (x - e.center) e.center S n 1
    simpa using this
  have h2 : mEval codeTable e x = mEvalFull codeTable e x := by
    unfold mEval
    split_ifs with hz
    · simp only [mEvalFull, h.2 hz]; simp
    · rfl
  rw [h2, hf, potential]
  exact abs_sum_sub_le S _ _ _ fun s hs => source_multipole s e.center x e.p (hS s hs)

example : ∃ e, |potential [.charge 2 ![0, 0, 1]] ![0, 0, 4] - mEval codeTable e ![0, 0, 4]| ≤ 2 * (1 / 4) ^ 7 / 3 := by
  have hr : ∀ a : ℝ, 0 ≤ a → rho (![0, 0, a] - 0) = a := by
    intro a ha
    rw [sub_zero, rho, show ((![0, 0, a] : V3) 0 ^ 2 + (![0, 0, a] : V3) 1 ^ 2 + (![0, 0, a] : V3) 2 ^ 2) = a ^ 2 by simp]
    exact Real.sqrt_sq ha
  have hc : (mAddSource codeTable (Exp.new 6 0) 2 ![0, 0, 1]).center = 0 := by simp [mAddSource, Exp.addCoeffs, Exp.new]
  have hpp : (mAddSource codeTable (Exp.new 6 0) 2 ![0, 0, 1]).p = 6 := by simp [mAddSource, Exp.addCoeffs, Exp.new]
  have h := C60_evaluation_error _ _ (C57_add_source (Exp.new 6 0) [] (C57_new 6 0) (by simp [Exp.new]) 2 ![0, 0, 1]
      (fun h => by have := congrFun h 2; simp [Exp.new] at this)) (by rw [hpp]; norm_num) ![0, 0, 4]
      (by rw [hc]; intro h; have := congrFun h 2; simp at this)
      (by rw [hc]; simp only [List.nil_append, List.mem_singleton, forall_eq, Source.pos]
          rw [hr 1 (by norm_num), hr 4 (by norm_num)]; norm_num)
  refine ⟨_, h.trans ?_⟩
  rw [hc, hpp]
  simp only [List.nil_append, List.map_cons, List.map_nil, List.sum_cons, List.sum_nil, Source.bound, Source.pos, add_zero]
  rw [hr 1 (by norm_num), hr 4 (by norm_num)]
  norm_num

/-! ## C61 -/

/-- A local expansion marked zero has zero coefficients. Kept by every operation (`C61_zero_flag`). -/
def ZeroOk (e : Exp) : Prop := e.isZero = true → ∀ n m, e.coeff n m = 0

theorem lEval_eq_full (L : Legendre) (e : Exp) (h : ZeroOk e) (x : V3) : lEval L e x = lEvalFull L e x := by
  unfold lEval
  split_ifs with hz
  · simp only [lEvalFull, h hz]; simp
  · rfl

/-- New local expansions, and results of the two `Add` operations, never have the zero flag with nonzero coefficients. -/
theorem C61_zero_flag (L : Legendre) (p : ℕ) (c : V3) (e o : Exp) (h : ZeroOk e) :
    ZeroOk (Exp.new p c) ∧ ZeroOk (lAddParent L e o) ∧ ZeroOk (lAddMultipole L e o) := by
  refine ⟨fun _ _ _ => rfl, ?_, ?_⟩
  · unfold lAddParent
    split_ifs
    · exact h
    · intro hz; simp at hz
    · intro hz; simp at hz
  · unfold lAddMultipole
    split_ifs
    · exact h
    · intro hz; simp at hz

theorem lEval_add_parent (e o : Exp) (he : ZeroOk e) (ho : ZeroOk o) (hpo : o.p = e.p) (hp : e.p ≤ 20)
    (hc : 1e-7 < rho (o.center - e.center) ∨ o.center = e.center) (x : V3) :
    lEval codeTable (lAddParent codeTable e o) x = lEval codeTable e x + lEval codeTable o x := by
  rw [lEval_eq_full _ _ (C61_zero_flag codeTable 0 0 e o he).2.1, lEval_eq_full _ _ he]
  unfold lAddParent
  split_ifs with hz hd
  · rw [lEval, if_pos hz, add_zero]
  · rw [lEvalFull_add, l2l_exact codeTable codeTable_ok e o hpo hp, lEval_eq_full _ _ ho]
  · have hc' := hc.resolve_left hd
    rw [lEvalFull_add, lEval_eq_full _ _ ho]
    congr 1
    simp only [lEvalFull, hc', hpo]

/-- **C61**: `Add(other)` of a local expansion is exact: the value of the result, anywhere, is the sum of the values of
the two expansions, if the centres are farther than `1e-7` or coincide. -/
theorem C61_translation_exact (e o : Exp) (he : ZeroOk e) (ho : ZeroOk o) (hpo : o.p = e.p) (hp : e.p ≤ 20)
    (hc : 1e-7 < rho (o.center - e.center) ∨ o.center = e.center) (x : V3) (_hx : x ≠ e.center) (_hx' : x ≠ o.center) :
    lEval codeTable (lAddParent codeTable e o) x = lEval codeTable e x + lEval codeTable o x :=
  lEval_add_parent e o he ho hpo hp hc x

example : ∃ e o : Exp, ZeroOk e ∧ ZeroOk o ∧ o.p = e.p ∧ e.p ≤ 10 ∧ 1e-7 < rho (o.center - e.center) ∧ o.isZero = false := by
  refine ⟨Exp.new 6 0, ⟨6, ![5, 0, 0], fun _ _ => 1, false⟩, fun _ _ _ => rfl, fun h => by simp at h, rfl, by simp [Exp.new], ?_, rfl⟩
  have : rho (![5, 0, 0] - (Exp.new 6 0).center) = 5 := by
    rw [rho, show (((![5, 0, 0] : V3) - (Exp.new 6 0).center) 0 ^ 2 + ((![5, 0, 0] : V3) - (Exp.new 6 0).center) 1 ^ 2 +
      ((![5, 0, 0] : V3) - (Exp.new 6 0).center) 2 ^ 2) = 5 ^ 2 by simp [Exp.new]]
    exact Real.sqrt_sq (by norm_num)
  simp only [this]; norm_num

/-! ## C62 -/

theorem lEval_add_multipole (e o : Exp) (S : List Source) (he : ZeroOk e) (ho : IsMultipole o S) (hpo : o.p = e.p)
    (hp : e.p ≤ 10) (x : V3) (hc : o.center ≠ e.center)
    (hS : ∀ s ∈ S, rho (s.pos - o.center) + rho (x - e.center) < rho (o.center - e.center)) :
    |lEval codeTable e x + potential S x - lEval codeTable (lAddMultipole codeTable e o) x| ≤
      (S.map fun s => s.bound e.p (rho (o.center - e.center)) (rho (s.pos - o.center) + rho (x - e.center))).sum := by
  have hv : o.center - e.center ≠ 0 := sub_ne_zero.mpr hc
  -- the value added by the conversion of the coefficients
  have hconv : lEvalFull codeTable { e with coeff := m2lCoeff codeTable e.p o.coeff (o.center - e.center) } x =
      (S.map fun s => ∑ n ∈ Finset.range (e.p + 1), ∑ j ∈ Finset.range (e.p + 1),
        (-1) ^ j * (fld (j + n) (o.center - e.center) (spoly o.center j s * Qd n (x - e.center))).re).sum := by
    rw [m2l_eval codeTable codeTable_ok e o.coeff (fun k => lpoly S o.center k) _ hv (by omega) (fun k _ => sym_lpoly S _ k)
      (fun k hk m hm => by rw [ho.1 k m hm (by omega), moment_list_eq _ _ _ _ hm])]
    rw [← sum_list_comm]
    refine Finset.sum_congr rfl fun n _ => ?_
    rw [← sum_list_comm]
    refine Finset.sum_congr rfl fun j _ => ?_
    rw [fld_lpoly_mul, List.sum_map_mul_left]
  have hadd : lEval codeTable (lAddMultipole codeTable e o) x = lEval codeTable e x +
      lEvalFull codeTable { e with coeff := m2lCoeff codeTable e.p o.coeff (o.center - e.center) } x := by
    rw [lEval_eq_full _ _ (C61_zero_flag codeTable 0 0 e o he).2.2, lEval_eq_full _ _ he]
    unfold lAddMultipole
    split_ifs with hz
    · have hz0 : lEvalFull codeTable { e with coeff := m2lCoeff codeTable e.p o.coeff (o.center - e.center) } x = 0 := by
        have h0 : m2lCoeff codeTable e.p o.coeff (o.center - e.center) = fun _ _ => 0 := by
          funext n m
          rw [m2lCoeff]
          refine Finset.sum_eq_zero fun nn _ => Finset.sum_eq_zero fun mm _ => ?_
          have : conjCoeff o.coeff nn mm = 0 := by
            simp only [conjCoeff, ho.2 hz]
            split_ifs
            · apply Complex.ext <;> simp
            · rfl
          simp only [this, zero_mul]
        simp only [h0, lEvalFull]; simp
      rw [hz0, add_zero]
    · rw [lEvalFull_add]
  rw [hadd, hconv, show ∀ a b c : ℝ, a + b - (a + c) = b - c by intros; ring, potential]
  exact abs_sum_sub_le S _ _ _ fun s hs => source_local s o.center e.center x e.p (hS s hs)

/-- **C62**: converting a multipole expansion into a local one adds the potential of its sources, up to the geometric
bound, at every point nearer to the centre than the sources. -/
theorem C62_conversion_error (e o : Exp) (S : List Source) (he : ZeroOk e) (ho : IsMultipole o S) (hpo : o.p = e.p)
    (hp : e.p ≤ 10) (x : V3) (_hx : x ≠ e.center) (hc : o.center ≠ e.center)
    (hS : ∀ s ∈ S, rho (s.pos - o.center) + rho (x - e.center) < rho (o.center - e.center)) :
    |lEval codeTable e x + potential S x - lEval codeTable (lAddMultipole codeTable e o) x| ≤
      (S.map fun s => s.bound e.p (rho (o.center - e.center)) (rho (s.pos - o.center) + rho (x - e.center))).sum :=
  lEval_add_multipole e o S he ho hpo hp x hc hS

example : ∃ (e o : Exp) (S : List Source), ZeroOk e ∧ IsMultipole o S ∧ S ≠ [] ∧ o.p = e.p ∧ e.p ≤ 10 ∧
    o.center ≠ e.center ∧ ∀ s ∈ S, rho (s.pos - o.center) + rho (![0, 0, 1] - e.center) < rho (o.center - e.center) := by
  have hr : ∀ a : ℝ, 0 ≤ a → rho ![0, 0, a] = a := by
    intro a ha
    rw [rho, show ((![0, 0, a] : V3) 0 ^ 2 + (![0, 0, a] : V3) 1 ^ 2 + (![0, 0, a] : V3) 2 ^ 2) = a ^ 2 by simp]
    exact Real.sqrt_sq ha
  have hc : (mAddSource codeTable (Exp.new 6 ![0, 0, 5]) 2 ![0, 0, 6]).center = ![0, 0, 5] := by
    simp [mAddSource, Exp.addCoeffs, Exp.new]
  refine ⟨Exp.new 6 0, _, _, fun _ _ _ => rfl, C57_add_source (Exp.new 6 ![0, 0, 5]) [] (C57_new 6 _) (by simp [Exp.new]) 2 ![0, 0, 6]
      (fun h => by have := congrFun h 2; simp [Exp.new] at this), by simp, by simp [mAddSource, Exp.addCoeffs, Exp.new],
      by simp [Exp.new], ?_, ?_⟩
  · rw [hc]; intro h; have := congrFun h 2; simp [Exp.new] at this
  · rw [hc]
    simp only [List.nil_append, List.mem_singleton, forall_eq, Source.pos]
    have e1 : (![0, 0, 6] - ![0, 0, 5] : V3) = ![0, 0, 1] := by ext i; fin_cases i <;> simp <;> norm_num
    have e2 : (![0, 0, 1] - (Exp.new 6 0).center : V3) = ![0, 0, 1] := by simp [Exp.new]
    have e3 : (![0, 0, 5] - (Exp.new 6 0).center : V3) = ![0, 0, 5] := by simp [Exp.new]
    rw [e1, e2, e3, hr 1 (by norm_num), hr 5 (by norm_num)]; norm_num

end PiBem.Expansion
