import Verif.Fmm.LinearRun

/-! The executions with expansions are simulated by the runs on coefficients: the product is a linear function of the vector
(helper lemmas). -/

noncomputable section

namespace PiBem.Fmm

open PiBem.Octree PiBem.WorkStream PiBem.Expansion

variable {inp : Input 3} {D : Data} {ker : Ker} {T : St 3}

/-! ## Moments -/

theorem moments_lin (t : Octree.Tree inp T) {E : NMoments} (h : NMomentsExec inp D ker T E) {b c : ℕ}
    (hb : b ∈ T.childless) (hc : c ∈ blockCells inp T b) (j : ℕ) :
    ((E b).getD fun _ _ => Exp.new D.p (ctr T b)) c j = nCellMoment inp D ker T b c j := by
  set Rel : NMoments → Moments → Prop := fun E E' => ∀ b, Option.Rel (fun (v : ℕ → ℕ → Exp) (v' : ℕ → Multiset (ℕ × ℕ)) =>
    ∀ c, v' c ≠ 0 → v c = nCellMoment inp D ker T b c) (E b) (E' b) with hRel
  have hsim : ∃ E', MomentsExec inp T E' ∧ Rel E E' := by
    refine exec_sim Rel Rel Rel (fun _ => Option.Rel.none) (fun _ _ h => h) ?_ ?_ h (fun _ => Option.Rel.none)
    · intro b _ s s' buf buf' _ hbuf
      unfold nWorkerMoments workerMoments
      generalize blockCells inp T b = l
      induction l generalizing buf buf' with
      | nil => exact hbuf
      | cons c l ih =>
        refine ih _ _ ?_
        intro b1
        beta_reduce
        by_cases hbb : b1 = b
        · subst hbb
          rw [Function.update_self, Function.update_self]
          refine Option.Rel.some fun c1 hc1 => ?_
          by_cases hcc : c1 = c
          · subst hcc; rw [Function.update_self]
          · rw [Function.update_of_ne hcc] at hc1 ⊢
            have := hbuf b1
            revert this hc1
            rcases buf b1 with _ | v <;> rcases buf' b1 with _ | v' <;> intro hc1 this
            · simp at hc1
            · cases this
            · cases this
            · cases this with
              | some h => exact h c1 hc1
        · rw [Function.update_of_ne hbb, Function.update_of_ne hbb]
          exact hbuf b1
    · intro buf buf' s s' hb hs b
      unfold nCopierMoments copierMoments
      have h1 := hs b
      have h2 := hb b
      revert h1 h2
      rcases s b with _ | v <;> rcases s' b with _ | v' <;> intro h1 h2
      · simpa using h2
      · cases h1
      · cases h1
      · simpa using h1
  obtain ⟨E', hE', hR⟩ := hsim
  have hlt := ((t.chl b).1 hb).1
  obtain ⟨q, hq, hqc⟩ := (mem_blockCells t hlt c).1 hc
  have hne : (T.blocks b).qps ≠ [] := List.ne_nil_of_mem hq
  have hR := hR b
  rw [momentsExec_eq t hE'] at hR
  simp only [hb, hne, ne_eq, not_false_eq_true, and_self, if_true] at hR
  revert hR
  rcases E b with _ | v <;> intro hR
  · cases hR
  · cases hR with
    | some h =>
      have h0 : cellMoment T b c ≠ 0 := by
        intro h0
        have : q ∈ cellMoment T b c := by
          unfold cellMoment
          rw [Multiset.mem_coe, List.mem_filter]
          exact ⟨hq, by simpa using hqc⟩
        rw [h0] at this
        simp at this
      rw [Option.getD_some, h c h0]

/-! ## Leaves -/

/-- relation of the expansions of the blocks with their coefficients -/
def MAbs (p : ℕ) (T : St 3) (m : ℕ → Exp) (a : ℕ → Cf) : Prop := ∀ b, Abs p (ctr T b) (m b) (a b)

/-- coefficients of a leaf: linear in the vector -/
def leafVal (inp : Input 3) (D : Data) (ker : Ker) (T : St 3) (b : ℕ) : (ℕ → ℝ) →ₗ[ℝ] Cf :=
  ((blockCells inp T b).map fun c => ((List.range (inp.cellDofs c).length).map fun j =>
    ((LinearMap.toSpanSingleton ℝ Cf (trunc D.p (nCellMoment inp D ker T b c j).coeff)).comp
      (LinearMap.proj ((inp.cellDofs c).getD j 0)))).sum).sum

theorem nLeafMult_lin (t : Octree.Tree inp T) {E : NMoments} (h : NMomentsExec inp D ker T E) {b : ℕ}
    (hb : b ∈ T.childless) {m : ℕ → Exp} {a : ℕ → Cf} (hm : MAbs D.p T m a) :
    MAbs D.p T (nLeafMult inp D T E b m) (a + at1 b (leafVal inp D ker T b D.sol)) := by
  have hcell : ∀ c ∈ blockCells inp T b, ∀ (e : Exp) (x : Cf), Abs D.p (ctr T b) e x →
      Abs D.p (ctr T b) (nLeafCell inp D T E b c e) (x + ((List.range (inp.cellDofs c).length).map fun j =>
        D.sol ((inp.cellDofs c).getD j 0) • trunc D.p (nCellMoment inp D ker T b c j).coeff).sum) := by
    intro c hc e x hex
    unfold nLeafCell
    generalize (List.range (inp.cellDofs c).length) = l
    induction l generalizing e x with
    | nil => simpa using hex
    | cons j l ih =>
      rw [List.foldl_cons, List.map_cons, List.sum_cons, ← add_assoc]
      refine ih _ _ ?_
      have := abs_nCellMoment inp D ker T b c j
      rw [moments_lin t h hb hc]
      exact abs_mAddScaled hex this _
  have key : ∀ (l : List ℕ), (∀ c ∈ l, c ∈ blockCells inp T b) → ∀ (m : ℕ → Exp) (a : ℕ → Cf), MAbs D.p T m a →
      MAbs D.p T (l.foldl (fun m c => Function.update m b (nLeafCell inp D T E b c (m b))) m)
        (a + at1 b (l.map fun c => ((List.range (inp.cellDofs c).length).map fun j =>
          D.sol ((inp.cellDofs c).getD j 0) • trunc D.p (nCellMoment inp D ker T b c j).coeff).sum).sum) := by
    intro l
    induction l with
    | nil =>
      intro _ m a hm b1
      simpa [at1] using hm b1
    | cons c l ih =>
      intro hl m a hm
      rw [List.foldl_cons, List.map_cons, List.sum_cons]
      have h1 : MAbs D.p T (Function.update m b (nLeafCell inp D T E b c (m b)))
          (a + at1 b ((List.range (inp.cellDofs c).length).map fun j =>
            D.sol ((inp.cellDofs c).getD j 0) • trunc D.p (nCellMoment inp D ker T b c j).coeff).sum) := by
        intro b1
        by_cases hbb : b1 = b
        · subst hbb
          rw [Function.update_self, Pi.add_apply, at1, if_pos rfl]
          exact hcell c (hl c (by simp)) _ _ (hm b1)
        · rw [Function.update_of_ne hbb, Pi.add_apply, at1, if_neg hbb, add_zero]
          exact hm b1
      have := ih (fun c hc => hl c (by simp [hc])) _ _ h1
      intro b1
      have := this b1
      simp only [Pi.add_apply, at1] at this ⊢
      split_ifs at this ⊢
      · rw [← add_assoc]; exact this
      · simpa using this
  have := key (blockCells inp T b) (fun _ h => h) m a hm
  unfold nLeafMult leafVal
  convert this using 4
  rw [sum_lin]
  congr 1
  refine List.map_congr_left fun c _ => ?_
  rw [sum_lin]
  rfl

/-- coefficients after the leaves -/
def leafMap (inp : Input 3) (D : Data) (ker : Ker) (T : St 3) : (ℕ → ℝ) →ₗ[ℝ] (ℕ → Cf) :=
  LinearMap.pi fun b => if b ∈ T.childless then leafVal inp D ker T b else 0

theorem leaves_lin (t : Octree.Tree inp T) {E : NMoments} (h : NMomentsExec inp D ker T E) {order : List ℕ}
    (ho : order.Perm T.childless) :
    MAbs D.p T (order.foldl (fun m b => nLeafMult inp D T E b m) fun b => Exp.new D.p (ctr T b))
      (leafMap inp D ker T D.sol) := by
  have key : ∀ (l : List ℕ), (∀ b ∈ l, b ∈ T.childless) → ∀ (m : ℕ → Exp) (a : ℕ → Cf), MAbs D.p T m a →
      MAbs D.p T (l.foldl (fun m b => nLeafMult inp D T E b m) m)
        (a + (l.map fun b => at1 b (leafVal inp D ker T b D.sol)).sum) := by
    intro l
    induction l with
    | nil => intro _ m a hm; simpa using hm
    | cons b l ih =>
      intro hl m a hm
      rw [List.foldl_cons, List.map_cons, List.sum_cons, ← add_assoc]
      exact ih (fun b hb => hl b (by simp [hb])) _ _ (nLeafMult_lin t h (hl b (by simp)) hm)
  have := key order (fun b hb => ho.mem_iff.1 hb) _ 0 (fun b => Abs.new D.p (ctr T b))
  intro b
  have := this b
  rw [Pi.add_apply, Pi.zero_apply, zero_add, sum_at1 _ (ho.nodup_iff.2 t.chlnd)] at this
  convert this using 1
  simp only [leafMap, LinearMap.pi_apply, ho.mem_iff]
  split_ifs <;> rfl

/-! ## Ascending phase -/

/-- coefficients of all the blocks -/
def multMap (inp : Input 3) (D : Data) (ker : Ker) (T : St 3) : (ℕ → ℝ) →ₗ[ℝ] (ℕ → Cf) :=
  (LinearMap.pi fun b => multFn inp D.p T b).comp (leafMap inp D ker T)

theorem ascend_lin (t : Octree.Tree inp T) {E : NMoments} (h : NMomentsExec inp D ker T E) {mult : ℕ → Exp}
    (hA : NAscendExec inp D T E mult) : MAbs D.p T mult (multMap inp D ker T D.sol) := by
  obtain ⟨order, ho, hL⟩ := hA
  have hsim : ∃ a', Levels (fun l => Exec (lWorkerAscend D.p T) (lCopierAscend D.p) ⟨0, 0⟩ (T.levelIds l))
      (List.range' 1 inp.levels).reverse (leafMap inp D ker T D.sol) a' ∧ MAbs D.p T mult a' := by
    refine levels_sim (MAbs D.p T) _ ?_ hL (leaves_lin t h ho)
    intro l _ s s1 s' hx hs
    refine exec_sim (MAbs D.p T) (fun _ _ => True) (fun (buf : NABuf) (buf' : LABuf) => buf.parentId = buf'.parentId ∧
      Abs D.p (ctr T buf'.parentId) buf.expn buf'.expn) trivial (fun _ _ _ => trivial) ?_ ?_ hx hs
    · intro b _ m a _ _ hm _
      refine ⟨rfl, ?_⟩
      have hpar := hm (T.blocks b).parent
      have := abs_mAddChild (Abs.new D.p (m (T.blocks b).parent).center) (hm b)
      rw [hpar.2.1, zero_add] at this
      simp only [nWorkerAscend, lWorkerAscend]
      rw [hpar.2.1]
      exact this
    · rintro ⟨i, e⟩ ⟨i', x⟩ m a ⟨hii, he⟩ hm
      simp only at hii he
      subst hii
      intro b
      unfold nCopierAscend lCopierAscend
      by_cases hbb : b = i
      · subst hbb
        simp only [Function.update_self]
        have := abs_mAddChild (hm b) he
        rw [tM_same] at this
        exact this
      · simp only [Function.update_of_ne hbb]
        exact hm b
  obtain ⟨a', h1, h2⟩ := hsim
  intro b
  have h3 := h2 b
  rw [lAscend_eq t h1 b] at h3
  exact h3

/-! ## Descending phase -/

theorem sum_sort (S : Finset ℕ) {A : Type} [AddCommMonoid A] (f : ℕ → A) :
    ((S.sort (· ≤ ·)).map f).sum = ∑ b ∈ S, f b := by
  rw [← List.sum_toFinset _ (Finset.sort_nodup _ _), Finset.sort_toFinset]

theorem fold_m2l_lin {mult : ℕ → Exp} {a : ℕ → Cf} (hm : MAbs D.p T mult a) {k : ℕ} {e : Exp} {x : Cf}
    (he : Abs D.p (ctr T k) e x) :
    Abs D.p (ctr T k) ((List.range (numSub inp T k)).foldl (fun e sub =>
      ((m2lSet inp T k sub).sort (· ≤ ·)).foldl (fun e b => lAddMultipole codeTable e (mult b)) e) e)
      (x + mlAll inp D.p T k a) := by
  have hin : ∀ (l : List ℕ) (e : Exp) (x : Cf), Abs D.p (ctr T k) e x →
      Abs D.p (ctr T k) (l.foldl (fun e b => lAddMultipole codeTable e (mult b)) e)
        (x + (l.map fun b => tML D.p (ctr T b) (ctr T k) (a b)).sum) := by
    intro l
    induction l with
    | nil => intro e x h; simpa using h
    | cons b l ih =>
      intro e x h
      rw [List.foldl_cons, List.map_cons, List.sum_cons, ← add_assoc]
      exact ih _ _ (abs_lAddMultipole h (hm b))
  have hout : ∀ (l : List ℕ) (e : Exp) (x : Cf), Abs D.p (ctr T k) e x →
      Abs D.p (ctr T k) (l.foldl (fun e sub =>
        ((m2lSet inp T k sub).sort (· ≤ ·)).foldl (fun e b => lAddMultipole codeTable e (mult b)) e) e)
        (x + (l.map fun sub => ∑ b ∈ m2lSet inp T k sub, tML D.p (ctr T b) (ctr T k) (a b)).sum) := by
    intro l
    induction l with
    | nil => intro e x h; simpa using h
    | cons sub l ih =>
      intro e x h
      rw [List.foldl_cons, List.map_cons, List.sum_cons, ← add_assoc]
      refine ih _ _ ?_
      have := hin ((m2lSet inp T k sub).sort (· ≤ ·)) e x h
      rw [sum_sort] at this
      exact this
  have := hout (List.range (numSub inp T k)) e x he
  rw [sum_range_list] at this
  convert this using 2
  simp [mlAll]

theorem descend_lin (t : Octree.Tree inp T) {own : ℕ → Bool} {mult : ℕ → Exp} {a : ℕ → Cf}
    (hm : MAbs D.p T mult a) {base : ℕ → ℝ} {s : NDSt} (h : NDescendExec inp D T own mult base s) :
    ∃ L : ℕ → Cf, MAbs D.p T s.loc L ∧
      (∀ k, k < T.count → onP T own k = true → L k = locAt inp D.p T (T.blocks k).level k a) ∧
      s.prod = base + ((List.range' 1 inp.levels).map
        fun l => ((T.dofsFilled l).map (lProdOf inp D.p T own a)).sum).sum := by
  set Rs : NDSt → LDSt → Prop := fun s s' => MAbs D.p T s.loc s'.loc ∧ s.prod = s'.prod with hRs
  have hsim : ∃ s', Levels (fun l => Exec (lWorkerDescend inp D.p T own a) (lCopierDescend D.p) ⟨0, 0, [], []⟩
      (T.dofsFilled l)) (List.range' 1 inp.levels) ⟨fun _ => 0, base⟩ s' ∧ Rs s s' := by
    refine levels_sim Rs _ ?_ h ⟨fun b => Abs.new _ _, rfl⟩
    intro l _ s s1 s' hx hs
    refine exec_sim Rs (fun _ _ => True) (fun (buf : NDescBuf) (buf' : LDescBuf) => buf.blockId = buf'.blockId ∧
      Abs D.p (ctr T buf'.blockId) buf.expn buf'.expn ∧ buf.nodes = buf'.nodes ∧ buf.contr = buf'.contr)
      trivial (fun _ _ _ => trivial) ?_ ?_ hx hs
    · intro k _ s s' _ _ hs _
      refine ⟨rfl, ?_, rfl, ?_⟩
      · have hk := hs.1 k
        have hpar := hs.1 (T.blocks k).parent
        simp only [nWorkerDescend, lWorkerDescend]
        rw [hk.2.1]
        by_cases ho : (T.blocks k).nodes.any own = true
        · rw [if_pos ho, if_pos (show onP T own k = true from ho)]
          have h1 := abs_lAddParent (Abs.new D.p (ctr T k)) hpar
          rw [zero_add] at h1
          exact fold_m2l_lin (inp := inp) hm h1
        · rw [if_neg ho, if_neg (show ¬ onP T own k = true from ho)]
          exact Abs.new _ _
      · simp only [nWorkerDescend, lWorkerDescend]
        refine List.map_congr_left fun i _ => ?_
        by_cases ho : (T.blocks k).nodes.any own = true
        · rw [if_pos ho, if_pos (show onP T own k = true from ho)]
          simp only [mpAll, LinearMap.sum_apply, LinearMap.comp_apply, LinearMap.proj_apply]
          refine Finset.sum_congr rfl fun sub _ => Finset.sum_congr rfl fun b _ => ?_
          exact abs_mEval (hm b) _
        · rw [if_neg ho, if_neg (show ¬ onP T own k = true from ho)]
    · rintro ⟨i, e, n, c⟩ ⟨i', x, n', c'⟩ s s' ⟨h1, h2, h3, h4⟩ hs
      simp only at h1 h2 h3 h4
      subst h1 h3 h4
      refine ⟨?_, ?_⟩
      · intro b
        unfold nCopierDescend lCopierDescend
        by_cases hbb : b = i
        · subst hbb
          simp only [Function.update_self]
          have := abs_lAddParent (hs.1 b) h2
          rw [tL_same] at this
          exact this
        · simp only [Function.update_of_ne hbb]
          exact hs.1 b
      · unfold nCopierDescend lCopierDescend
        rw [hs.2]
  obtain ⟨s', h1, h2⟩ := hsim
  obtain ⟨h3, h4⟩ := lDescend_eq t h1
  exact ⟨s'.loc, h2.1, h3, by rw [h2.2, h4]⟩

/-! ## The product -/

theorem nEvalLeaf_eq (own : ℕ → Bool) (loc : ℕ → Exp) {b : ℕ} (hn : (T.blocks b).nodes.Nodup) (p : ℕ → ℝ) :
    nEvalLeaf inp T own loc b p = p + fun i =>
      if i ∈ (T.blocks b).nodes ∧ own i = true then lEval codeTable (loc b) (toV (inp.pos i)) else 0 := by
  unfold nEvalLeaf
  have : ∀ (l : List ℕ) p, l.foldl (fun p i =>
      if own i then Function.update p i (p i + lEval codeTable (loc b) (toV (inp.pos i))) else p) p =
      p + (l.map fun j => at1 j (if own j then lEval codeTable (loc b) (toV (inp.pos j)) else 0)).sum := by
    intro l
    induction l with
    | nil => intro p; simp
    | cons a l ih =>
      intro p
      simp only [List.foldl_cons, List.map_cons, List.sum_cons]
      rw [ih]
      split_ifs
      · rw [update_add, add_assoc]
      · have : at1 a (0 : ℝ) = 0 := by funext j; simp [at1]
        rw [this, zero_add]
  rw [this]
  congr 1
  funext i
  rw [sum_at1 _ hn (fun j => if own j then lEval codeTable (loc b) (toV (inp.pos j)) else 0)]
  by_cases h1 : i ∈ (T.blocks b).nodes <;> by_cases h2 : own i = true <;> simp [h1, h2]

/-- value of an elementary contribution as a function of the vector -/
def valMap (inp : Input 3) (D : Data) (ker : Ker) (i : ℕ) (x : Contr) : (ℕ → ℝ) →ₗ[ℝ] ℝ where
  toFun sol := val inp { D with sol := sol } ker i x
  map_add' u v := by
    cases x <;> simp only [val, cellDot, Pi.add_apply, mul_add, Finset.sum_add_distrib] <;> rfl
  map_smul' r u := by
    cases x <;> simp only [val, cellDot, Pi.smul_apply, smul_eq_mul, RingHom.id_apply, Finset.mul_sum] <;>
      exact Finset.sum_congr rfl fun j _ => by first | (rw [mul_left_comm]; done) | (rw [mul_left_comm]; rfl)

/-- direct part of row `i` -/
def directMap (inp : Input 3) (D : Data) (ker : Ker) (T : St 3) (i : ℕ) : (ℕ → ℝ) →ₗ[ℝ] ℝ :=
  ((directResult inp T (fun _ => true) i).toList.map (valMap inp D ker i)).sum

/-- the row of node `i` of the product -/
def rowMap (inp : Input 3) (D : Data) (ker : Ker) (T : St 3) (i : ℕ) : (ℕ → ℝ) →ₗ[ℝ] ℝ :=
  directMap inp D ker T i +
  (((List.range' 1 inp.levels).map fun l => ((T.dofsFilled l).map fun k =>
    if i ∈ (T.blocks k).nodes then mpAll inp D.p T k i else 0).sum).sum +
  (T.childless.map fun b => if i ∈ (T.blocks b).nodes then
    (lEvalMap codeTable D.p (ctr T b) (toV (inp.pos i))).comp (locAt inp D.p T (T.blocks b).level b) else 0).sum).comp
    (multMap inp D ker T)

theorem directResult_own (own : ℕ → Bool) {i : ℕ} (ho : own i = true) :
    directResult inp T own i = directResult inp T (fun _ => true) i := by
  unfold directResult
  simp only [Pi.add_apply, list_sum_apply, List.map_map]
  congr 2
  · refine List.map_congr_left fun b _ => ?_
    simp [leafEff, ho]
  · refine List.map_congr_left fun l _ => ?_
    simp only [Function.comp_apply, list_sum_apply, List.map_map]
    congr 1
    refine List.map_congr_left fun b _ => ?_
    simp [bigEff, ho]

/-- every execution computes the rows `rowMap` -/
theorem nFmmExec_eq (t : Octree.Tree inp T) {own : ℕ → Bool} {out : ℕ → ℝ} (hx : NFmmExec inp D ker T own out) {i : ℕ}
    (ho : own i = true) : out i = rowMap inp D ker T i D.sol := by
  obtain ⟨M, E, mult, s, order, hM, hE, hA, hD, hord, rfl⟩ := hx
  have hmult := ascend_lin t hE hA
  obtain ⟨L, hL, hloc, hprod⟩ := descend_lin t hmult hD
  set a := multMap inp D ker T D.sol with ha
  have hon : ∀ k, i ∈ (T.blocks k).nodes → onP T own k = true := by
    intro k hk
    unfold onP
    rw [List.any_eq_true]
    exact ⟨i, hk, ho⟩
  rw [foldl_eff_add (fun b p => nEvalLeaf inp T own s.loc b p) (fun b => fun i =>
    if i ∈ (T.blocks b).nodes ∧ own i = true then lEval codeTable (s.loc b) (toV (inp.pos i)) else 0) order
    (fun b hb p => nEvalLeaf_eq own s.loc (t.links.nodup ((t.chl b).1 (hord.mem_iff.1 hb)).1).1 p)]
  rw [Pi.add_apply, hprod, Pi.add_apply, list_sum_apply, list_sum_apply, rowMap, LinearMap.add_apply, LinearMap.comp_apply,
    LinearMap.add_apply, ← ha, add_assoc]
  congr 1
  · unfold direct directMap
    rw [directExec_eq t hM, directResult_own own ho, sum_lin]
    conv_lhs => rw [← Multiset.coe_toList (directResult inp T (fun _ => true) i)]
    rw [Multiset.map_coe, Multiset.sum_coe]
    rfl
  · congr 1
    · rw [sum_lin, List.map_map]
      congr 1
      refine List.map_congr_left fun l _ => ?_
      rw [Function.comp_apply, list_sum_apply, sum_lin, List.map_map]
      congr 1
      refine List.map_congr_left fun k _ => ?_
      simp only [Function.comp_apply, lProdOf]
      by_cases hk : i ∈ (T.blocks k).nodes
      · simp [hk, hon k hk]
      · simp [hk]
    · rw [sum_lin, List.map_map, ((hord.map _).sum_eq)]
      congr 1
      refine List.map_congr_left fun b hb => ?_
      simp only [Function.comp_apply, ho, and_true]
      by_cases hk : i ∈ (T.blocks b).nodes
      · rw [if_pos hk, if_pos hk, abs_lEval (hL b), hloc b ((t.chl b).1 hb).1 (hon b hk)]
        rfl
      · rw [if_neg hk, if_neg hk]; rfl

end PiBem.Fmm
