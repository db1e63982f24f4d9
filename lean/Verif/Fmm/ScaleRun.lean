import Verif.Fmm.Scale
import Verif.Props.Similar

/-!
# The fast multipole product in another unit of length (helper lemmas for C108)
-/

noncomputable section

namespace PiBem.Fmm

open PiBem.Octree PiBem.Expansion PiBem.Bem

/-- The data of the product in the other unit: areas multiplied by `s²`, singular entries by the scale of the kernel. -/
structure Rescaled (s : ℝ) (ker : Ker) (D D' : Data) : Prop where
  p : D'.p = D.p
  shape : ∀ q, D'.shape q = D.shape q
  normal : ∀ q, D'.normal q = D.normal q
  jxw : ∀ q, D'.jxw q = s ^ 2 * D.jxw q
  sing : ∀ i c j, D'.sing i c j = scaleOf s ker * D.sing i c j

/-- scale of the moments -/
def momScale (s : ℝ) : Ker → ℝ
  | .single => s ^ 2
  | .double => s

variable {f : ℚ} {inp : Input 3} {D D' : Data} {ker : Ker} {T : St 3}

theorem toV_scaled (f : ℚ) (x : Pt 3) : toV (fun a => f * x a) = (f : ℝ) • toV x := by
  funext a
  simp [toV]

theorem ctr_scaled (f : ℚ) (T : St 3) (b : ℕ) : ctr (T.scaled f) b = (f : ℝ) • ctr T b := by
  unfold ctr
  rw [← toV_scaled]
  congr 1
  funext a
  show f * (T.blocks b).pMin a + f * (T.blocks b).delta / 2 = f * ((T.blocks b).pMin a + (T.blocks b).delta / 2)
  ring

theorem moved_one (s : ℝ) (x : V3) : Moved 1 s 0 x (s • x) := by
  intro a
  simp [Matrix.one_apply]

theorem turned_one (x : V3) : Turned 1 x x := by
  intro a
  simp [Matrix.one_apply]

theorem regEntry_scaled (hf : 0 < f) (h : Rescaled (f : ℝ) ker D D') (i : ℕ) (q : ℕ × ℕ) (j : ℕ) :
    regEntry (scaleBy f inp) D' ker i q j = scaleOf (f : ℝ) ker * regEntry inp D ker i q j := by
  have e : ∀ (inp : Input 3) (D : Data), regEntry inp D ker i q j =
      singTerm inp ker i j ⟨toV (inp.qpos q), D.normal q, D.shape q, D.jxw q⟩ := by
    intro inp D
    cases ker <;> rfl
  have hs : (0 : ℝ) < f := by exact_mod_cast hf
  rw [e, e, singTerm_eq, singTerm_eq]
  simp only
  rw [h.shape, h.normal]
  refine term_moved (Q := 1) (b := 0) (by simp) hs ker ?_ ?_ (turned_one _) _ _ _ (h.jxw q)
  · rw [show (scaleBy f inp).pos i = fun a => f * inp.pos i a from rfl, toV_scaled]; exact moved_one _ _
  · rw [show (scaleBy f inp).qpos q = fun a => f * inp.qpos q a from rfl, toV_scaled]; exact moved_one _ _

theorem val_scaled (hf : 0 < f) (h : Rescaled (f : ℝ) ker D D') (i : ℕ) (x : Contr) (u : ℕ → ℝ) :
    valMap (scaleBy f inp) D' ker i x u = scaleOf (f : ℝ) ker * valMap inp D ker i x u := by
  show val (scaleBy f inp) { D' with sol := u } ker i x = _ * val inp { D with sol := u } ker i x
  cases x with
  | sing c =>
    unfold val cellDot
    rw [Finset.mul_sum]
    refine Finset.sum_congr rfl fun j _ => ?_
    show D'.sing i c j * _ = _ * (D.sing i c j * _)
    rw [h.sing, mul_assoc]
    rfl
  | reg c q =>
    unfold val cellDot
    rw [Finset.mul_sum]
    refine Finset.sum_congr rfl fun j _ => ?_
    rw [regEntry_scaled (D := { D with sol := u }) (D' := { D' with sol := u }) hf ⟨h.p, h.shape, h.normal, h.jxw, h.sing⟩, mul_assoc]
    rfl

/-! ## Moments -/

theorem nCellMoment_scaled (hf : 0 < f) (h : Rescaled (f : ℝ) ker D D') (b c j : ℕ) :
    (nCellMoment (scaleBy f inp) D' ker (T.scaled f) b c j).coeff =
      momScale (f : ℝ) ker • wM (f : ℝ) (nCellMoment inp D ker T b c j).coeff := by
  have hs : (0 : ℝ) < f := by exact_mod_cast hf
  let R : Exp → Exp → Prop := fun e e' => e'.p = e.p ∧ e'.center = (f : ℝ) • e.center ∧ e'.coeff = momScale (f : ℝ) ker • wM (f : ℝ) e.coeff
  have hadd : ∀ (e e' : Exp) (z z' : Cf), R e e' → z' = momScale (f : ℝ) ker • wM (f : ℝ) z →
      R { e.addCoeffs z with isZero := false } { e'.addCoeffs z' with isZero := false } := by
    rintro e e' z z' ⟨h1, h2, h3⟩ hz
    refine ⟨h1, h2, ?_⟩
    show (e'.addCoeffs z').coeff = _ • wM _ (e.addCoeffs z).coeff
    rw [addCoeffs_coeff, addCoeffs_coeff, map_add, smul_add, h3, h1, hz, map_smul, trunc_wM]
  have hstep : ∀ (q : ℕ × ℕ) (e e' : Exp), R e e' → R (elemAdd inp D ker e j q) (elemAdd (scaleBy f inp) D' ker e' j q) := by
    intro q e e' hR
    have hq : D'.shape q j * D'.jxw q / 4 / Real.pi = (f : ℝ) ^ 2 * (D.shape q j * D.jxw q / 4 / Real.pi) := by
      rw [h.shape, h.jxw]; ring
    have h0 : (f : ℝ) ^ 2 * (D.shape q j * D.jxw q / 4 / Real.pi) = 0 ↔ D.shape q j * D.jxw q / 4 / Real.pi = 0 := by
      rw [mul_eq_zero]
      exact or_iff_right (by positivity)
    have hv : toV ((scaleBy f inp).qpos q) - e'.center = (f : ℝ) • (toV (inp.qpos q) - e.center) := by
      rw [show (scaleBy f inp).qpos q = fun a => f * inp.qpos q a from rfl, toV_scaled, hR.2.1, smul_sub]
    unfold elemAdd
    simp only [hq, h.normal]
    cases ker with
    | single =>
      simp only [mAddSource, h0]
      split_ifs
      · exact hR
      · refine hadd _ _ _ _ hR ?_
        rw [hv]
        exact sourceCoeff_scaled hs codeTable _ _
    | double =>
      simp only [mAddNormDer, h0]
      split_ifs
      · exact hR
      · refine hadd _ _ _ _ hR ?_
        rw [hv]
        exact normDerCoeff_scaled hs codeTable _ _ _
  have hfold : ∀ (l : List (ℕ × ℕ)) (e e' : Exp), R e e' →
      R (l.foldl (fun e q => elemAdd inp D ker e j q) e) (l.foldl (fun e q => elemAdd (scaleBy f inp) D' ker e j q) e') := by
    intro l
    induction l with
    | nil => intro e e' h; exact h
    | cons q l ih => intro e e' h; exact ih _ _ (hstep q e e' h)
  refine (hfold _ (Exp.new D.p (ctr T b)) (Exp.new D'.p (ctr (T.scaled f) b)) ⟨h.p, ctr_scaled f T b, ?_⟩).2.2
  funext n m
  show (0 : ℂ) = momScale (f : ℝ) ker • wM (f : ℝ) (0 : Cf) n m
  rw [map_zero]
  simp

/-- `wM` on all the blocks -/
def allM (s : ℝ) (m : ℕ → Cf) : ℕ → Cf := fun b => wM s (m b)

theorem leafMap_scaled (hf : 0 < f) (h : Rescaled (f : ℝ) ker D D') (u : ℕ → ℝ) :
    leafMap (scaleBy f inp) D' ker (T.scaled f) u = momScale (f : ℝ) ker • allM (f : ℝ) (leafMap inp D ker T u) := by
  funext b
  show (if b ∈ T.childless then leafVal (scaleBy f inp) D' ker (T.scaled f) b else 0) u =
    momScale (f : ℝ) ker • wM (f : ℝ) ((if b ∈ T.childless then leafVal inp D ker T b else 0) u)
  split_ifs
  · have hl : ∀ {ι : Type} (l : List ι) (g : ι → Cf), momScale (f : ℝ) ker • wM (f : ℝ) (l.map g).sum =
        (l.map fun c => momScale (f : ℝ) ker • wM (f : ℝ) (g c)).sum := by
      intro ι l g
      induction l with
      | nil => simp
      | cons a l ih => simp [ih]
    unfold leafVal
    rw [sum_lin, sum_lin, hl]
    refine congrArg List.sum (List.map_congr_left fun c _ => ?_)
    rw [sum_lin, sum_lin, hl]
    refine congrArg List.sum (List.map_congr_left fun j _ => ?_)
    show u _ • trunc D'.p (nCellMoment (scaleBy f inp) D' ker (T.scaled f) b c j).coeff =
      momScale (f : ℝ) ker • wM (f : ℝ) (u _ • trunc D.p (nCellMoment inp D ker T b c j).coeff)
    rw [nCellMoment_scaled hf h, map_smul, trunc_wM, map_smul, h.p, smul_comm]
    rfl
  · rw [LinearMap.zero_apply, map_zero, smul_zero]

/-! ## Translations -/

variable {p : ℕ} {s : ℝ}

theorem tM_scaled (hs : 0 < s) {c' c : V3} (h1 : 1e-7 < rho (c' - c)) (h2 : 1e-7 < rho (s • c' - s • c)) (a : Cf) :
    tM p (s • c') (s • c) (wM s a) = wM s (tM p c' c a) := by
  unfold tM
  rw [if_pos h1, if_pos h2]
  show trunc p (m2mCoeff codeTable (wM s a) (s • c' - s • c)) = wM s (trunc p (m2mCoeff codeTable a (c' - c)))
  rw [← smul_sub, m2m_scaled hs, trunc_wM]

theorem tL_scaled (hs : 0 < s) {c' c : V3} (h1 : 1e-7 < rho (c' - c)) (h2 : 1e-7 < rho (s • c' - s • c)) (a : Cf) :
    tL p (s • c') (s • c) (wL s a) = wL s (tL p c' c a) := by
  unfold tL
  rw [if_pos h1, if_pos h2]
  show trunc p (l2lCoeff codeTable p (wL s a) (s • c' - s • c)) = wL s (trunc p (l2lCoeff codeTable p a (c' - c)))
  rw [← smul_sub, l2l_scaled hs, trunc_wL]

theorem tML_scaled (hs : 0 < s) (c' c : V3) (a : Cf) : tML p (s • c') (s • c) (wM s a) = wL s (tML p c' c a) := by
  unfold tML
  show trunc p (m2lCoeff codeTable p (wM s a) (s • c' - s • c)) = wL s (trunc p (m2lCoeff codeTable p a (c' - c)))
  rw [← smul_sub, m2l_scaled hs, trunc_wL]

/-! ## Ascending phase -/

theorem multAt_scaled (hf : 0 < f) (t : Octree.Tree inp T) (hfar : Far T) (hfar' : Far (T.scaled f)) (m : ℕ → Cf) :
    ∀ n b, (T.blocks b).level + n ≤ inp.levels →
      multAt p (T.scaled f) n b (allM (f : ℝ) m) = wM (f : ℝ) (multAt p T n b m) := by
  have hs : (0 : ℝ) < f := by exact_mod_cast hf
  intro n
  induction n with
  | zero => intro b _; rfl
  | succ n ih =>
    intro b hb
    rw [multAt, multAt, LinearMap.add_apply, LinearMap.add_apply, map_add, sum_lin, sum_lin]
    have hl : ∀ (l : List ℕ) (g : ℕ → Cf), wM (f : ℝ) (l.map g).sum = (l.map fun c => wM (f : ℝ) (g c)).sum := by
      intro l g
      induction l with
      | nil => simp
      | cons a l ih => simp [ih]
    rw [hl]
    refine congrArg₂ (· + ·) rfl (congrArg List.sum ?_)
    show (kids T b).map _ = (kids T b).map _
    refine List.map_congr_left fun c hc => ?_
    have hc' := List.mem_filter.1 hc
    rw [t.mem_levelIds (by omega)] at hc'
    have h0 : 0 < c := by
      rcases Nat.eq_zero_or_pos c with h0 | h0
      · have := hc'.1.2
        rw [h0, t.links.root_level] at this
        omega
      · exact h0
    show trunc p (tM p (ctr (T.scaled f) c) (ctr (T.scaled f) (T.blocks c).parent) (multAt p (T.scaled f) n c (allM (f : ℝ) m))) =
      wM (f : ℝ) (trunc p (tM p (ctr T c) (ctr T (T.blocks c).parent) (multAt p T n c m)))
    have h2 := hfar' c h0 hc'.1.1
    rw [show ((T.scaled f).blocks c).parent = (T.blocks c).parent from rfl, ctr_scaled, ctr_scaled] at h2
    rw [ih c (by omega), ctr_scaled, ctr_scaled, tM_scaled hs (hfar c h0 hc'.1.1) h2, trunc_wM]

theorem multFn_scaled (hf : 0 < f) (t : Octree.Tree inp T) (hfar : Far T) (hfar' : Far (T.scaled f)) (m : ℕ → Cf) (b : ℕ) :
    multFn (scaleBy f inp) p (T.scaled f) b (allM (f : ℝ) m) = wM (f : ℝ) (multFn inp p T b m) := by
  unfold multFn
  show (if b < T.count then multAt p (T.scaled f) (inp.levels - (T.blocks b).level) b else LinearMap.proj b) _ = _
  split_ifs with hb
  · exact multAt_scaled hf t hfar hfar' m _ b (by have := t.lev_le b hb; omega)
  · rfl

theorem multMap_scaled (hf : 0 < f) (t : Octree.Tree inp T) (hfar : Far T) (hfar' : Far (T.scaled f)) (h : Rescaled (f : ℝ) ker D D')
    (u : ℕ → ℝ) : multMap (scaleBy f inp) D' ker (T.scaled f) u = momScale (f : ℝ) ker • allM (f : ℝ) (multMap inp D ker T u) := by
  funext b
  show multFn (scaleBy f inp) D'.p (T.scaled f) b (leafMap (scaleBy f inp) D' ker (T.scaled f) u) =
    momScale (f : ℝ) ker • wM (f : ℝ) (multFn inp D.p T b (leafMap inp D ker T u))
  rw [leafMap_scaled hf h, map_smul, h.p, multFn_scaled hf t hfar hfar']

/-! ## Descending phase -/

/-- the lists of blocks are the same in the two units -/
def SameLists (f : ℚ) (inp : Input 3) (T : St 3) : Prop :=
  intList (scaleBy f inp) (T.scaled f) = intList inp T ∧ nonIntList (scaleBy f inp) (T.scaled f) = nonIntList inp T

theorem mlAll_scaled (hf : 0 < f) (hl : SameLists f inp T) (m : ℕ → Cf) (k : ℕ) :
    mlAll (scaleBy f inp) p (T.scaled f) k (allM (f : ℝ) m) = wL (f : ℝ) (mlAll inp p T k m) := by
  have hs : (0 : ℝ) < f := by exact_mod_cast hf
  have hset : ∀ sub, m2lSet (scaleBy f inp) (T.scaled f) k sub = m2lSet inp T k sub := by
    intro sub
    unfold m2lSet
    rw [hl.2]
    rfl
  unfold mlAll
  simp only [LinearMap.sum_apply, map_sum, LinearMap.comp_apply, LinearMap.proj_apply, hset]
  refine Finset.sum_congr rfl fun sub _ => Finset.sum_congr rfl fun b _ => ?_
  show tML p (ctr (T.scaled f) b) (ctr (T.scaled f) k) (wM (f : ℝ) (m b)) = _
  rw [ctr_scaled, ctr_scaled, tML_scaled hs]

theorem mpAll_scaled (hf : 0 < f) (hl : SameLists f inp T) (m : ℕ → Cf) (k i : ℕ) :
    mpAll (scaleBy f inp) p (T.scaled f) k i (allM (f : ℝ) m) = (f : ℝ)⁻¹ * mpAll inp p T k i m := by
  have hs : (0 : ℝ) < f := by exact_mod_cast hf
  have hset : ∀ sub, m2pSet (scaleBy f inp) (T.scaled f) k sub = m2pSet inp T k sub := by
    intro sub
    unfold m2pSet
    rw [hl.2]
    rfl
  unfold mpAll
  simp only [LinearMap.sum_apply, LinearMap.comp_apply, LinearMap.proj_apply, hset, Finset.mul_sum]
  refine Finset.sum_congr rfl fun sub _ => Finset.sum_congr rfl fun b _ => ?_
  show mEvalMap codeTable p (ctr (T.scaled f) b) (toV fun a => f * inp.pos i a) (wM (f : ℝ) (m b)) = _
  rw [ctr_scaled, toV_scaled, mEval_scaled hs]

theorem locAt_scaled (hf : 0 < f) (t : Octree.Tree inp T) (hfar : Far T) (hfar' : Far (T.scaled f)) (hl : SameLists f inp T) (m : ℕ → Cf) :
    ∀ n k, locAt (scaleBy f inp) p (T.scaled f) n k (allM (f : ℝ) m) = wL (f : ℝ) (locAt inp p T n k m) := by
  have hs : (0 : ℝ) < f := by exact_mod_cast hf
  intro n
  induction n with
  | zero => intro k; rw [locAt, locAt]; simp
  | succ n ih =>
    intro k
    rw [locAt, locAt]
    show (if k ∈ T.dofsFilled (n + 1) then _ else (0 : (ℕ → Cf) →ₗ[ℝ] Cf)) (allM (f : ℝ) m) = _
    split_ifs with hk
    · have hk' := (t.dfil _ k).1 hk
      have h2 := hfar' k hk'.1 hk'.2.1
      have h1 := hfar k hk'.1 hk'.2.1
      rw [show ((T.scaled f).blocks k).parent = (T.blocks k).parent from rfl, ctr_scaled, ctr_scaled] at h2
      have hrev : ∀ x y : V3, rho (x - y) = rho (y - x) := by
        intro x y
        unfold rho
        congr 1
        simp only [Pi.sub_apply]
        ring
      rw [hrev] at h1 h2
      show trunc p (tL p (ctr (T.scaled f) (T.blocks k).parent) (ctr (T.scaled f) k)
          (locAt (scaleBy f inp) p (T.scaled f) n (T.blocks k).parent (allM (f : ℝ) m)) + mlAll (scaleBy f inp) p (T.scaled f) k (allM (f : ℝ) m)) =
        wL (f : ℝ) (trunc p (tL p (ctr T (T.blocks k).parent) (ctr T k) (locAt inp p T n (T.blocks k).parent m) + mlAll inp p T k m))
      rw [ih, mlAll_scaled hf hl, ctr_scaled, ctr_scaled, tL_scaled hs h1 h2, ← map_add, trunc_wL]
    · rw [LinearMap.zero_apply, LinearMap.zero_apply, map_zero]

/-! ## The product -/

theorem directMap_scaled (hf : 0 < f) (hl : SameLists f inp T) (h : Rescaled (f : ℝ) ker D D') (i : ℕ) (u : ℕ → ℝ) :
    directMap (scaleBy f inp) D' ker (T.scaled f) i u = scaleOf (f : ℝ) ker * directMap inp D ker T i u := by
  have hres : directResult (scaleBy f inp) (T.scaled f) (fun _ => true) = directResult inp T (fun _ => true) := by
    have h1 : leafEff (scaleBy f inp) (T.scaled f) (fun _ => true) = leafEff inp T (fun _ => true) := by
      funext b i
      unfold leafEff
      rw [hl.1]
      rfl
    have h2 : ∀ l, bigEff (scaleBy f inp) (T.scaled f) (fun _ => true) l = bigEff inp T (fun _ => true) l := by
      intro l
      funext b i
      unfold bigEff bigSet
      rw [hl.2]
      rfl
    unfold directResult
    simp only [h1, h2]
    rfl
  unfold directMap
  rw [hres, sum_lin, sum_lin]
  generalize (directResult inp T (fun _ => true) i).toList = l
  induction l with
  | nil => simp
  | cons x l ih => rw [List.map_cons, List.map_cons, List.sum_cons, List.sum_cons, ih, val_scaled hf h, mul_add]

/-- multipole expansions evaluated at the node `i` -/
def farMp (inp : Input 3) (p : ℕ) (T : St 3) (i : ℕ) : (ℕ → Cf) →ₗ[ℝ] ℝ :=
  ((List.range' 1 inp.levels).map fun l => ((T.dofsFilled l).map fun k =>
    if i ∈ (T.blocks k).nodes then mpAll inp p T k i else 0).sum).sum

/-- local expansions evaluated at the node `i` -/
def farLoc (inp : Input 3) (p : ℕ) (T : St 3) (i : ℕ) : (ℕ → Cf) →ₗ[ℝ] ℝ :=
  (T.childless.map fun b => if i ∈ (T.blocks b).nodes then
    (lEvalMap codeTable p (ctr T b) (toV (inp.pos i))).comp (locAt inp p T (T.blocks b).level b) else 0).sum

theorem rowMap_parts (i : ℕ) (u : ℕ → ℝ) : rowMap inp D ker T i u =
    directMap inp D ker T i u + (farMp inp D.p T i (multMap inp D ker T u) + farLoc inp D.p T i (multMap inp D ker T u)) := rfl

theorem list_mul_sum {ι : Type} (c : ℝ) (l : List ι) (g h : ι → ℝ) (hgh : ∀ x ∈ l, g x = c * h x) : (l.map g).sum = c * (l.map h).sum := by
  induction l with
  | nil => simp
  | cons x l ih =>
    rw [List.map_cons, List.map_cons, List.sum_cons, List.sum_cons, hgh x (List.mem_cons_self ..),
      ih fun y hy => hgh y (List.mem_cons_of_mem _ hy), mul_add]

theorem farMp_scaled (hf : 0 < f) (hl : SameLists f inp T) (m : ℕ → Cf) (i : ℕ) :
    farMp (scaleBy f inp) p (T.scaled f) i (allM (f : ℝ) m) = (f : ℝ)⁻¹ * farMp inp p T i m := by
  unfold farMp
  rw [sum_lin, sum_lin]
  refine list_mul_sum _ _ _ _ fun l _ => ?_
  rw [sum_lin, sum_lin]
  refine list_mul_sum _ _ _ _ fun k _ => ?_
  by_cases hk : i ∈ (T.blocks k).nodes
  · rw [if_pos hk, if_pos (show i ∈ ((T.scaled f).blocks k).nodes from hk)]
    exact mpAll_scaled hf hl m k i
  · rw [if_neg hk, if_neg (show i ∉ ((T.scaled f).blocks k).nodes from hk)]
    simp

theorem farLoc_scaled (hf : 0 < f) (t : Octree.Tree inp T) (hfar : Far T) (hfar' : Far (T.scaled f)) (hl : SameLists f inp T)
    (m : ℕ → Cf) (i : ℕ) :
    farLoc (scaleBy f inp) p (T.scaled f) i (allM (f : ℝ) m) = (f : ℝ)⁻¹ * farLoc inp p T i m := by
  have hs : (0 : ℝ) < f := by exact_mod_cast hf
  unfold farLoc
  rw [sum_lin, sum_lin]
  refine list_mul_sum _ _ _ _ fun b _ => ?_
  by_cases hb : i ∈ (T.blocks b).nodes
  · rw [if_pos hb, if_pos (show i ∈ ((T.scaled f).blocks b).nodes from hb), LinearMap.comp_apply, LinearMap.comp_apply]
    show lEvalMap codeTable p (ctr (T.scaled f) b) (toV fun a => f * inp.pos i a)
      (locAt (scaleBy f inp) p (T.scaled f) (T.blocks b).level b (allM (f : ℝ) m)) = _
    rw [locAt_scaled hf t hfar hfar' hl, ctr_scaled, toV_scaled, lEval_scaled hs]
  · rw [if_neg hb, if_neg (show i ∉ ((T.scaled f).blocks b).nodes from hb)]
    simp

theorem momScale_inv {s : ℝ} (hs : 0 < s) (ker : Ker) : momScale s ker * s⁻¹ = scaleOf s ker := by
  cases ker
  · simp only [momScale, scaleOf]; field_simp
  · simp only [momScale, scaleOf]; field_simp

theorem rowMap_scaled (hf : 0 < f) (t : Octree.Tree inp T) (hfar : Far T) (hfar' : Far (T.scaled f)) (hl : SameLists f inp T)
    (h : Rescaled (f : ℝ) ker D D') (i : ℕ) (u : ℕ → ℝ) :
    rowMap (scaleBy f inp) D' ker (T.scaled f) i u = scaleOf (f : ℝ) ker * rowMap inp D ker T i u := by
  have hs : (0 : ℝ) < f := by exact_mod_cast hf
  rw [rowMap_parts, rowMap_parts, directMap_scaled hf hl h, multMap_scaled hf t hfar hfar' h, h.p]
  generalize multMap inp D ker T u = m
  rw [map_smul, map_smul, farMp_scaled hf hl, farLoc_scaled hf t hfar hfar' hl, smul_eq_mul, smul_eq_mul, ← momScale_inv hs ker]
  ring

end PiBem.Fmm
