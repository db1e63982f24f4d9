import Verif.Fmm.ThreadsExec
import Verif.Fmm.Linear

/-! The setup phases of `Verif.Fmm.Threads` (helper lemmas). -/

noncomputable section

namespace PiBem.Fmm

open PiBem.Octree PiBem.WorkStream PiBem.Expansion PiBem.Threads

variable {inp : Input 3} {D : Data} {T : St 3} {own : ℕ → Bool}

/-- A loop on levels. -/
theorem allOk_levels {S : Set Loc} {σ : Type} (Inv : σ → FMem → Prop) (R : ℕ → σ → σ → Prop) (f : ℕ → Phase Val)
    (ls : List ℕ) (h : ∀ l ∈ ls, ∀ s m, Inv s m → (f l).Ok S m ∧ ∀ m', (f l).Run m m' → ∃ s', R l s s' ∧ Inv s' m')
    {s : σ} {m : FMem} (hs : Inv s m) :
    Phase.AllOk S (ls.map f) m fun m' => ∃ s', Levels R ls s s' ∧ Inv s' m' := by
  induction ls generalizing s m with
  | nil => exact .nil ⟨s, .nil s, hs⟩
  | cons l t ih =>
    obtain ⟨h1, h2⟩ := h l (by simp) s m hs
    refine .cons h1 fun m' hm' => ?_
    obtain ⟨s', hR, hs'⟩ := h2 m' hm'
    refine (ih (fun l hl => h l (by simp [hl])) hs').mono ?_
    rintro m'' ⟨s'', hL, hs''⟩
    exact ⟨s'', .cons hR hL, hs''⟩

theorem levels_all {κ σ : Type} {R : κ → ℕ → σ → σ → Prop} {ls : List ℕ} {s s' : κ → σ}
    (h : Levels (fun l s s' => ∀ k, R k l (s k) (s' k)) ls s s') (k : κ) : Levels (R k) ls (s k) (s' k) := by
  induction h with
  | nil => exact .nil _
  | cons h1 _ ih => exact .cons (h1 k) ih

theorem foldl_fam {κ σ α : Type} (G : κ → σ → α → σ) (l : List α) (s : κ → σ) :
    l.foldl (fun s a k => G k (s k) a) s = fun k => l.foldl (G k) (s k) := by
  induction l generalizing s with
  | nil => rfl
  | cons a t ih => simp only [List.foldl_cons]; rw [ih]

/-! ## Projections -/

/-- The rows of the matrices. -/
def matOf (inp : Input 3) (m : FMem) (i : ℕ) : Multiset Contr := if i < inp.nDofs then m (.mat i) else 0

/-- The table of the expansions of the elements. -/
def elemOf (m : FMem) (k : Ker) : NMoments := fun b => if b ∈ m (.elemKeys k) then some (m (.elem k b)) else none

/-! ## Initial values -/

theorem initial_exec (m : FMem) :
    let m' := ((initial inp).exec m).2
    m' .quadKeys = Finset.range inp.nCells ∧ matOf inp m' = (fun _ => 0) ∧ ∀ k, m' (.elemKeys k) = ∅ := by
  intro m'
  have key1 : ∀ (l : List ℕ) (m : FMem),
      (l.foldl (fun m c => ((Prog.read (V := Val) .quadKeys fun s : Finset ℕ =>
        Prog.write (V := Val) .quadKeys (insert c s : Finset ℕ) (.ret ())).exec m).2) m) .quadKeys =
        m .quadKeys ∪ l.toFinset := by
    intro l
    induction l with
    | nil => intro m; simp
    | cons a t ih =>
      intro m
      rw [List.foldl_cons, ih]
      simp only [exec_read, exec_write, exec_ret, Function.update_self, List.toFinset_cons]
      ext x; simp
  have key2 : ∀ (l : List ℕ) (m : FMem),
      (∀ i, (l.foldl (fun m i => ((Prog.put (V := Val) (.mat i) (0 : Multiset Contr)).exec m).2) m) (.mat i) =
        if i ∈ l then 0 else m (.mat i)) ∧
      (l.foldl (fun m i => ((Prog.put (V := Val) (.mat i) (0 : Multiset Contr)).exec m).2) m) .quadKeys = m .quadKeys := by
    intro l
    induction l with
    | nil => intro m; simp
    | cons a t ih =>
      intro m
      rw [List.foldl_cons]
      obtain ⟨h1, h2⟩ := ih (((Prog.put (V := Val) (.mat a) (0 : Multiset Contr)).exec m).2)
      refine ⟨fun i => ?_, ?_⟩
      · rw [h1, exec_put]
        by_cases e : i = a
        · subst e; simp
        · have : Loc.mat i ≠ .mat a := by simpa using e
          simp only [Function.update_of_ne this, List.mem_cons, e, false_or]
      · rw [h2, exec_put]; dsimp only; rw [Function.update_of_ne (by simp)]
  set m1 : FMem := Function.update m .quadKeys (∅ : Finset ℕ) with hm1
  set m2 : FMem := (List.range inp.nCells).foldl (fun m c => ((Prog.read (V := Val) .quadKeys fun s : Finset ℕ =>
        Prog.write (V := Val) .quadKeys (insert c s : Finset ℕ) (.ret ())).exec m).2) m1 with hm2
  set m3 : FMem := (List.range inp.nDofs).foldl (fun m i => ((Prog.put (V := Val) (.mat i) (0 : Multiset Contr)).exec m).2) m2
    with hm3
  have e : m' = Function.update (Function.update m3 (.elemKeys .double) (∅ : Finset ℕ)) (.elemKeys .single) (∅ : Finset ℕ) := by
    show ((initial inp).exec m).2 = _
    unfold initial
    rw [put_bind, exec_write, exec_bind, exec_forM, exec_bind, exec_forM]
    rfl
  rw [e]
  refine ⟨?_, ?_, fun k => ?_⟩
  · rw [Function.update_of_ne (by simp), Function.update_of_ne (by simp), hm3, (key2 _ m2).2, hm2, key1]
    rw [hm1, Function.update_self]
    ext x; simp
  · funext i
    unfold matOf
    split_ifs with h
    · rw [Function.update_of_ne (by simp), Function.update_of_ne (by simp), hm3, (key2 _ m2).1, if_pos (by simpa using h)]
    · rfl
  · cases k
    · exact Function.update_self _ _ _
    · rw [Function.update_of_ne (by simp)]; exact Function.update_self _ _ _

/-! ## Direct part -/

/-- The rows, written by the copier. -/
def matLocs : Set Loc := {l | ∃ i, l = .mat i}

/-- The keys of the quadrature data, read by the workers. -/
def quadLocs : Set Loc := {.quadKeys}

/-- The rows of the copy data exist. -/
def DGood (inp : Input 3) (buf : DBuf) : Prop := ∀ i ∈ buf.nodeIndex, i < inp.nDofs

theorem workerLeaf_nodes {b : ℕ} {s : ℕ → Multiset Contr} {buf : DBuf} :
    ∀ i ∈ (workerLeaf inp T own b s buf).nodeIndex, i ∈ (T.blocks b).nodes := by
  unfold workerLeaf
  have key2 : ∀ (l : List ℕ) (r : ℕ → ℕ × List Contr) (buf : DBuf),
      (l.foldl (fun buf c => buf.pushRow (r c)) buf).nodeIndex = buf.nodeIndex := by
    intro l r
    induction l with
    | nil => intro buf; rfl
    | cons a t ih => intro buf; rw [List.foldl_cons, ih]; rfl
  have key : ∀ (l : List ℕ) (N : List ℕ), (∀ i ∈ l, i ∈ N) → ∀ buf : DBuf, (∀ i ∈ buf.nodeIndex, i ∈ N) →
      ∀ i ∈ (l.foldl (fun buf i => if own i then
        (directCells inp T (intList inp T b (numSub inp T b - 1))).foldl (fun buf c => buf.pushRow
          (c, leafRow inp T (intList inp T b (numSub inp T b - 1)) i c)) (buf.pushNode i)
        else buf) buf).nodeIndex, i ∈ N := by
    intro l N
    induction l with
    | nil => intro _ buf h; exact h
    | cons a t ih =>
      intro hl buf h
      rw [List.foldl_cons]
      refine ih (fun i hi => hl i (by simp [hi])) _ ?_
      split_ifs
      · rw [key2]
        intro i hi
        simp only [DBuf.pushNode, List.mem_append, List.mem_singleton] at hi
        rcases hi with hi | rfl
        · exact h i hi
        · exact hl _ (by simp)
      · exact h
  exact key _ _ (fun i hi => hi) _ (by simp [DBuf.reset])

theorem workerBig_nodes {level b : ℕ} {s : ℕ → Multiset Contr} {buf : DBuf} :
    ∀ i ∈ (workerBig inp T own level b s buf).nodeIndex, i ∈ (T.blocks b).nodes := by
  unfold workerBig
  have key2 : ∀ (l : List ℕ) (r : ℕ → ℕ × List Contr) (buf : DBuf),
      (l.foldl (fun buf c => buf.pushRow (r c)) buf).nodeIndex = buf.nodeIndex := by
    intro l r
    induction l with
    | nil => intro buf; rfl
    | cons a t ih => intro buf; rw [List.foldl_cons, ih]; rfl
  have key : ∀ (l : List ℕ) (N : List ℕ), (∀ i ∈ l, i ∈ N) → ∀ buf : DBuf, (∀ i ∈ buf.nodeIndex, i ∈ N) →
      ∀ i ∈ (l.foldl (fun buf i =>
        let buf := buf.pushNode i
        if own i then
          (directCells inp T (bigSet inp T (T.startLevel level) b)).foldl (fun buf c => buf.pushRow
            (c, bigRow inp T (bigSet inp T (T.startLevel level) b) c)) buf
        else buf) buf).nodeIndex, i ∈ N := by
    intro l N
    induction l with
    | nil => intro _ buf h; exact h
    | cons a t ih =>
      intro hl buf h
      rw [List.foldl_cons]
      refine ih (fun i hi => hl i (by simp [hi])) _ ?_
      have hN : ∀ i ∈ (buf.pushNode a).nodeIndex, i ∈ N := by
        intro i hi
        simp only [DBuf.pushNode, List.mem_append, List.mem_singleton] at hi
        rcases hi with hi | rfl
        · exact h i hi
        · exact hl _ (by simp)
      simp only
      split_ifs
      · rw [key2]; exact hN
      · exact hN
  exact key _ _ (fun i hi => hi) _ (by simp [DBuf.reset])

theorem copierDirect_exec {buf : DBuf} (hb : DGood inp buf) (m : FMem) :
    matOf inp ((tCopierDirect buf).exec m).2 = copierDirect buf (matOf inp m) := by
  unfold tCopierDirect copierDirect
  rw [exec_forM]
  refine (foldl_proj (matOf inp) _ _ (fun _ => True) _ (fun ii hii s _ => ⟨trivial, ?_⟩) m trivial).2
  rw [exec_forM]
  refine (foldl_proj (matOf inp) _ _ (fun _ => True) _ (fun kk _ s _ => ⟨trivial, ?_⟩) s trivial).2
  have hii' : ii < buf.nodeIndex.length := List.mem_range.1 hii
  have hi : buf.nodeIndex.getD ii 0 < inp.nDofs := by
    rw [List.getD_eq_getElem _ _ hii']; exact hb _ (List.getElem_mem _)
  simp only [get_bind, exec_read, exec_put]
  unfold addRow
  funext j
  by_cases e : j = buf.nodeIndex.getD ii 0
  · subst e
    rw [Function.update_self]
    unfold matOf
    rw [if_pos hi, if_pos hi, Function.update_self]
  · rw [Function.update_of_ne e]
    unfold matOf
    rw [Function.update_of_ne (by simpa using e)]

theorem acc_atQuad {m : FMem} {S W : Set Loc} : atQuad.Acc m S quadLocs W fun _ => True :=
  .readR rfl (.ret trivial)

theorem acc_lookupQuad {m : FMem} {S W : Set Loc} {c : ℕ} (hc : c ∈ m .quadKeys) :
    (lookupQuad c).Acc m S quadLocs W fun _ => True := by
  unfold lookupQuad
  refine (acc_getR (l := .quadKeys) (R := quadLocs) rfl).bind fun s hs => ?_
  subst hs
  rw [if_pos hc]
  exact .ret trivial

theorem acc_copierDirect {m : FMem} {S R : Set Loc} (buf : DBuf) :
    (tCopierDirect buf).Acc m S R matLocs fun _ => True :=
  Prog.Acc.forM fun _ _ => Prog.Acc.forM fun _ _ => (acc_getW (W := matLocs) ⟨_, rfl⟩).bind fun _ _ => acc_put (W := matLocs) ⟨_, rfl⟩

theorem disj_quad_mat : Disjoint quadLocs matLocs := by
  rw [Set.disjoint_left]
  rintro l h ⟨i, rfl⟩
  cases h

theorem streams_leaf (t : Tree inp T) (m : FMem) : Streams (tWorkerLeaf inp T own) tCopierDirect unsync quadLocs matLocs
    (DGood inp) T.childless m where
  work := fun b hb buf => by
    unfold tWorkerLeaf
    refine Prog.Acc.bind (Q := fun _ => True) (Prog.Acc.forM fun i _ => ?_) fun _ _ => .ret fun i hi => ?_
    · split_ifs
      · exact Prog.Acc.forM fun _ _ => acc_atQuad
      · exact .ret trivial
    · have := mem_root_of_mem t.links ((t.chl b).1 hb).1 (x := .inl i) (workerLeaf_nodes i hi)
      simpa [rootBlock, Block.Mem] using this
  copy := fun b _ => acc_copierDirect b
  frozen := disj_quad_mat

theorem streams_big (t : Tree inp T) {m : FMem} (hm : m .quadKeys = Finset.range inp.nCells) (l : ℕ) :
    Streams (tWorkerBig inp T own l) tCopierDirect unsync quadLocs matLocs (DGood inp) (T.dofsFilled l) m where
  work := fun b hb buf => by
    unfold tWorkerBig
    refine Prog.Acc.bind (Q := fun _ => True) (Prog.Acc.forM fun i _ => ?_) fun _ _ => .ret fun i hi => ?_
    · split_ifs
      · refine Prog.Acc.forM fun c hc => acc_lookupQuad ?_
        rw [hm, Finset.mem_range]
        exact List.mem_range.1 (List.mem_filter.1 hc).1
      · exact .ret trivial
    · have := mem_root_of_mem t.links ((t.dfil l b).1 hb).2.1 (x := .inl i) (workerBig_nodes i hi)
      simpa [rootBlock, Block.Mem] using this
  copy := fun b _ => acc_copierDirect b
  frozen := disj_quad_mat

theorem not_mat {l : Loc} (h : ∀ i, l ≠ .mat i) : l ∉ matLocs := fun ⟨i, hi⟩ => h i hi

theorem leaf_step (t : Tree inp T) {m m' : FMem}
    (hr : (Phase.stream (tWorkerLeaf inp T own) tCopierDirect DBuf.empty T.childless).Run m m') :
    (∀ x, x ∉ matLocs → m' x = m x) ∧
      Exec (workerLeaf inp T own) copierDirect DBuf.empty T.childless (matOf inp m) (matOf inp m') :=
  ⟨CRun.frame (streams_leaf t m) hr, (streams_leaf t m).map (matOf inp) id
    (fun i _ s b _ => by unfold tWorkerLeaf; rw [exec_bind]; rfl)
    (fun b s _ hb => copierDirect_exec hb s) hr⟩

theorem big_step (t : Tree inp T) {m m' : FMem} (hm : m .quadKeys = Finset.range inp.nCells) (l : ℕ)
    (hr : (Phase.stream (tWorkerBig inp T own l) tCopierDirect DBuf.empty (T.dofsFilled l)).Run m m') :
    (∀ x, x ∉ matLocs → m' x = m x) ∧
      Exec (workerBig inp T own l) copierDirect DBuf.empty (T.dofsFilled l) (matOf inp m) (matOf inp m') :=
  ⟨CRun.frame (streams_big t hm l) hr, (streams_big t hm l).map (matOf inp) id
    (fun i _ s b _ => by unfold tWorkerBig; rw [exec_bind]; rfl)
    (fun b s _ hb => copierDirect_exec hb s) hr⟩

/-! ## Moments -/

/-- The table of the expansions of the elements, written by the copier. -/
def elemLocs : Set Loc := {l | (∃ k, l = .elemKeys k) ∨ ∃ k b, l = .elem k b}

theorem look_store (l : List (ℕ × (ℕ → ℕ → Exp))) (b : ℕ) (v : ℕ → ℕ → Exp) :
    look (store l b v) = Function.update (look l) b (some v) := by
  funext b'
  unfold look store
  by_cases e : b' = b
  · subst e; simp
  · rw [Function.update_of_ne e]
    have hne : b ≠ b' := fun h => e h.symm
    rw [List.find?_cons]
    simp only [hne, decide_false]
    congr 1
    induction l with
    | nil => rfl
    | cons a t ih =>
      by_cases h1 : a.1 = b
      · have h2 : a.1 ≠ b' := by rw [h1]; exact hne
        simp only [List.filter_cons, h1, ne_eq, not_true_eq_false, decide_false, List.find?_cons]
        simpa [hne] using ih
      · simp only [List.filter_cons, ne_eq, h1, not_false_eq_true, decide_true, if_true, List.find?_cons]
        split
        · rfl
        · exact ih

theorem workerMoments_exec (b : ℕ) (buf : MBuf) (m : FMem) :
    ((tWorkerMoments inp D T b buf).exec m).2 = m ∧
    ∀ k s, look (((tWorkerMoments inp D T b buf).exec m).1 k) = nWorkerMoments inp D k T b s (look (buf k)) := by
  unfold tWorkerMoments
  rw [exec_foldlM_pure _ (fun (buf : MBuf) c => fun k => store (buf k) b (Function.update ((look (buf k) b).getD fun _ _ =>
    Exp.new D.p (ctr T b)) c (nCellMoment inp D k T b c))) m _ (fun c _ s => by unfold atQuad; rfl)]
  refine ⟨rfl, fun k s => ?_⟩
  unfold nWorkerMoments
  exact (foldl_proj (fun buf : MBuf => look (buf k)) _ _ (fun _ => True) _ (fun c _ buf _ =>
    ⟨trivial, look_store _ _ _⟩) buf trivial).2

theorem insertAll_exec (k : Ker) (l : List (ℕ × (ℕ → ℕ → Exp))) (m : FMem) :
    elemOf ((insertAll k l).exec m).2 k = (fun b => (elemOf m k b).or (look l b)) ∧
    ∀ k', k' ≠ k → elemOf ((insertAll k l).exec m).2 k' = elemOf m k' := by
  unfold insertAll
  rw [exec_forM]
  have hf : ∀ (m : FMem) (a : ℕ × (ℕ → ℕ → Exp)), ((Prog.get (V := Val) (.elemKeys k) >>= fun s : Finset ℕ =>
      if a.1 ∈ s then pure () else do
        Prog.put (V := Val) (.elemKeys k) (insert a.1 s : Finset ℕ)
        Prog.put (V := Val) (.elem k a.1) (a.2 : ℕ → ℕ → Exp)).exec m).2 = if a.1 ∈ m (.elemKeys k) then m else
        Function.update (Function.update m (.elemKeys k) (insert a.1 (m (.elemKeys k)) : Finset ℕ)) (.elem k a.1) a.2 := by
    intro m a
    rw [get_bind, exec_read]
    split_ifs <;> rfl
  simp only [hf]
  induction l generalizing m with
  | nil =>
    refine ⟨?_, fun _ _ => rfl⟩
    funext b; simp [look]
  | cons a t ih =>
    rw [List.foldl_cons]
    by_cases h : a.1 ∈ m (.elemKeys k)
    · rw [if_pos h]
      obtain ⟨h1, h2⟩ := ih m
      refine ⟨h1.trans ?_, h2⟩
      funext b
      unfold look
      rw [List.find?_cons]
      by_cases e : a.1 = b
      · subst e
        have : elemOf m k a.1 = some (m (.elem k a.1)) := if_pos h
        rw [this]; rfl
      · simp [e]
    · rw [if_neg h]
      obtain ⟨h1, h2⟩ := ih (Function.update
          (Function.update m (.elemKeys k) (insert a.1 (m (.elemKeys k)) : Finset ℕ)) (.elem k a.1) a.2)
      refine ⟨h1.trans ?_, fun k' hk' => (h2 k' hk').trans ?_⟩
      · funext b
        have hk : (Function.update (Function.update m (.elemKeys k) (insert a.1 (m (.elemKeys k)) : Finset ℕ)) (.elem k a.1)
          a.2 : FMem) (.elemKeys k) = insert a.1 (m (.elemKeys k)) := by
          rw [Function.update_of_ne (by simp)]; exact Function.update_self _ _ _
        unfold look
        rw [List.find?_cons]
        by_cases e : a.1 = b
        · subst e
          have h3 : elemOf m k a.1 = none := if_neg h
          have h4 : elemOf (Function.update (Function.update m (.elemKeys k) (insert a.1 (m (.elemKeys k)) : Finset ℕ))
            (.elem k a.1) a.2) k a.1 = some a.2 := by
            unfold elemOf
            rw [hk, if_pos (by simp)]
            exact congrArg some (Function.update_self _ _ _)
          rw [h3, h4]; simp
        · have h4 : elemOf (Function.update (Function.update m (.elemKeys k) (insert a.1 (m (.elemKeys k)) : Finset ℕ))
            (.elem k a.1) a.2) k b = elemOf m k b := by
            unfold elemOf
            rw [hk]
            have hne : b ≠ a.1 := fun h => e h.symm
            have : (Function.update (Function.update m (.elemKeys k) (insert a.1 (m (.elemKeys k)) : Finset ℕ)) (.elem k a.1)
              a.2 : FMem) (.elem k b) = m (.elem k b) := by
              rw [Function.update_of_ne (by simpa using hne), Function.update_of_ne (by simp)]
            rw [this]
            simp only [Finset.mem_insert, hne, false_or]
          rw [h4]
          simp [e]
      · funext b
        unfold elemOf
        have h3 : (Function.update (Function.update m (.elemKeys k) (insert a.1 (m (.elemKeys k)) : Finset ℕ)) (.elem k a.1)
          a.2 : FMem) (.elemKeys k') = m (.elemKeys k') := by
          rw [Function.update_of_ne (by simp), Function.update_of_ne (by simpa using hk')]
        have h4 : (Function.update (Function.update m (.elemKeys k) (insert a.1 (m (.elemKeys k)) : Finset ℕ)) (.elem k a.1)
          a.2 : FMem) (.elem k' b) = m (.elem k' b) := by
          rw [Function.update_of_ne (by simp [hk']), Function.update_of_ne (by simp)]
        rw [h3, h4]

theorem copierMoments_exec (buf : MBuf) (m : FMem) (k : Ker) :
    elemOf ((tCopierMoments buf).exec m).2 k = nCopierMoments (look (buf k)) (elemOf m k) := by
  unfold tCopierMoments nCopierMoments
  rw [exec_bind]
  cases k
  · rw [(insertAll_exec .single _ _).1, (insertAll_exec .double _ _).2 .single (by simp)]
  · rw [(insertAll_exec .single _ _).2 .double (by simp), (insertAll_exec .double _ _).1]

theorem acc_insertAll {m : FMem} {S R : Set Loc} (k : Ker) (l : List (ℕ × (ℕ → ℕ → Exp))) :
    (insertAll k l).Acc m S R elemLocs fun _ => True := by
  refine Prog.Acc.forM fun x _ => (acc_getW (.inl ⟨k, rfl⟩)).bind fun s _ => ?_
  split_ifs
  · exact .ret trivial
  · exact (acc_put (.inl ⟨k, rfl⟩)).bind fun _ _ => acc_put (.inr ⟨k, _, rfl⟩)

theorem streams_moments (m : FMem) : Streams (tWorkerMoments inp D T) tCopierMoments unsync quadLocs elemLocs
    (fun _ => True) T.childless m where
  work := fun b _ buf => by
    unfold tWorkerMoments
    exact Prog.Acc.foldlM (P := fun _ => True) (fun _ _ _ _ => acc_atQuad.bind fun _ _ => .ret trivial) trivial
  copy := fun b _ => (acc_insertAll _ _).bind fun _ _ => acc_insertAll _ _
  frozen := by
    rw [Set.disjoint_left]
    rintro l h h'
    cases h
    rcases h' with ⟨k, h⟩ | ⟨k, b, h⟩ <;> cases h

theorem moments_step {m m' : FMem}
    (hr : (Phase.stream (tWorkerMoments inp D T) tCopierMoments (fun _ => []) T.childless).Run m m') :
    (∀ x, x ∉ elemLocs → m' x = m x) ∧ ∀ k, Exec (nWorkerMoments inp D k T) nCopierMoments (fun _ => none) T.childless
      (elemOf m k) (elemOf m' k) :=
  ⟨CRun.frame (streams_moments m) hr, fun k => (streams_moments m).map (fun m => elemOf m k) (fun buf => look (buf k))
    (fun i _ s b _ => (workerMoments_exec i b s).2 k _) (fun b s _ _ => copierMoments_exec b s k) hr⟩

/-- The blocks with quadrature points are in the table. -/
theorem moments_key {k : Ker} (t : Octree.Tree inp T) {E : NMoments} (h : NMomentsExec inp D k T E) {b : ℕ}
    (hb : b ∈ T.childless) (hc : blockCells inp T b ≠ []) : ∃ v, E b = some v := by
  set Rel : NMoments → Moments → Prop := fun E E' => ∀ b, (E b).isSome = (E' b).isSome with hRel
  have hsim : ∃ E', MomentsExec inp T E' ∧ Rel E E' := by
    refine exec_sim Rel Rel Rel (fun _ => rfl) (fun _ _ h => h) ?_ ?_ h (fun _ => rfl)
    · intro b _ s s' buf buf' _ hbuf
      unfold nWorkerMoments workerMoments
      generalize blockCells inp T b = l
      induction l generalizing buf buf' with
      | nil => exact hbuf
      | cons c l ih =>
        refine ih _ _ ?_
        intro b1
        by_cases hbb : b1 = b
        · subst hbb; simp
        · simp only [Function.update_of_ne hbb]; exact hbuf b1
    · intro buf buf' s s' hb hs b
      unfold nCopierMoments copierMoments
      rw [Option.isSome_or, Option.isSome_or, hs b, hb b]
  obtain ⟨E', hE', hR⟩ := hsim
  have hlt := ((t.chl b).1 hb).1
  have hne : (T.blocks b).qps ≠ [] := fun h => hc ((blockCells_nil t hlt).2 h)
  have hR := hR b
  rw [momentsExec_eq t hE'] at hR
  simp only [hb, hne, ne_eq, not_false_eq_true, and_self, if_true, Option.isSome_some] at hR
  exact Option.isSome_iff_exists.1 hR

/-! ## All the setup -/

/-- The memory after the setup. -/
def Ready (inp : Input 3) (M : ℕ → Multiset Contr) (E : Ker → NMoments) (m : FMem) : Prop :=
  matOf inp m = M ∧ ∀ k, elemOf m k = E k

theorem setup_ok (t : Tree inp T) (m : FMem) :
    Phase.AllOk unsync (setupPhases inp D T own) m fun m' => ∃ M E, DirectExec inp T own M ∧
      (∀ k, NMomentsExec inp D k T (E k)) ∧ Ready inp M E m' := by
  unfold setupPhases
  rw [List.append_assoc]
  refine Phase.AllOk.append (Q := fun m' => Exec (workerLeaf inp T own) copierDirect DBuf.empty T.childless (fun _ => 0)
    (matOf inp m') ∧ m' .quadKeys = Finset.range inp.nCells ∧ ∀ k, m' (.elemKeys k) = ∅) ?_ ?_
  · refine .cons (Phase.ok_seq _ _ _) fun m1 h1 => .cons (Phase.ok_stream (streams_leaf t m1)) fun m2 h2 => .nil ?_
    obtain ⟨i1, i2, i3⟩ := initial_exec (inp := inp) m
    have h1 : m1 = ((initial inp).exec m).2 := h1
    rw [← h1] at i1 i2 i3
    obtain ⟨f, e⟩ := leaf_step t h2
    rw [i2] at e
    exact ⟨e, by rw [f _ (not_mat (by simp)), i1], fun k => by rw [f _ (not_mat (by simp)), i3]⟩
  · rintro m1 ⟨e1, q1, k1⟩
    refine Phase.AllOk.append (Q := fun m' => ∃ M, Levels (fun l => Exec (workerBig inp T own l) copierDirect DBuf.empty
      (T.dofsFilled l)) (List.range' 1 inp.levels) (matOf inp m1) M ∧ matOf inp m' = M ∧
      m' .quadKeys = Finset.range inp.nCells ∧ ∀ k, m' (.elemKeys k) = ∅) ?_ ?_
    · refine allOk_levels (fun M m' => matOf inp m' = M ∧ m' .quadKeys = Finset.range inp.nCells ∧
        ∀ k, m' (.elemKeys k) = ∅) _ _ _ ?_ ⟨rfl, q1, k1⟩
      rintro l _ M m2 ⟨rfl, q2, k2⟩
      refine ⟨Phase.ok_stream (streams_big t q2 l), fun m3 h3 => ?_⟩
      obtain ⟨f, e⟩ := big_step t q2 l h3
      exact ⟨_, e, rfl, by rw [f _ (not_mat (by simp)), q2], fun k => by rw [f _ (not_mat (by simp)), k2]⟩
    · rintro m2 ⟨M, hL, rfl, q2, k2⟩
      refine .cons (Phase.ok_stream (streams_moments m2)) fun m3 h3 => .nil ?_
      obtain ⟨f, e⟩ := moments_step h3
      refine ⟨matOf inp m3, elemOf m3, ⟨matOf inp m1, e1, ?_⟩, fun k => ?_, rfl, fun _ => rfl⟩
      · have : matOf inp m3 = matOf inp m2 := by
          funext i
          unfold matOf
          rw [f (.mat i) (by rintro (⟨k, h⟩ | ⟨k, b, h⟩) <;> cases h)]
        rw [this]; exact hL
      · have : elemOf m2 k = fun _ => none := by
          funext b; unfold elemOf; rw [k2 k]; simp
        have e := e k
        rw [this] at e
        exact e

end PiBem.Fmm
