import Verif.Fmm.ThreadsUp
import Verif.Fmm.NumericDesc
import Verif.Props.Octree

/-! The descending phases of `Verif.Fmm.Threads` (helper lemmas). -/

noncomputable section

namespace PiBem.Fmm

open PiBem.Octree PiBem.WorkStream PiBem.Expansion PiBem.Threads

variable {inp : Input 3} {D : Data} {T : St 3} {own : ℕ → Bool} {vals : Ker → ℕ → ℝ}

/-- The product vectors. -/
def outOf (inp : Input 3) (m : FMem) (k : Ker) (i : ℕ) : ℝ := if i < inp.nDofs then m (.prod k i) else 0

/-- Entries of the product vectors. -/
def prodLocs : Set Loc := {l | ∃ k i, l = .prod k i}

theorem prod_not_whole {k : Ker} {i : ℕ} {o : EObj} : Loc.prod k i ∉ whole o := by
  rintro (h | h | ⟨_, _, h⟩) <;> cases h

/-! ## Direct part -/

theorem vmult_exec (m : FMem) :
    (∀ k i, i < inp.nDofs → ((tVmult inp D vals).exec m).2 (.prod k i) =
      direct inp { D with sol := vals k } k (matOf inp m) i) ∧
    ∀ l, l ∉ prodLocs → ((tVmult inp D vals).exec m).2 l = m l := by
  have key : ∀ (k : Ker) (l : List ℕ) (m : FMem), (∀ i ∈ l, i < inp.nDofs) →
      (∀ i, i ∈ l → (l.foldl (fun m i => ((Prog.read (V := Val) (.mat i) fun v : Multiset Contr => Prog.write (V := Val)
        (.prod k i) ((v.map (val inp { D with sol := vals k } k i)).sum : ℝ) (.ret ())).exec m).2) m) (.prod k i) =
        direct inp { D with sol := vals k } k (matOf inp m) i) ∧
      ∀ x, (∀ i, x = .prod k i → i ∉ l) → (l.foldl (fun m i => ((Prog.read (V := Val) (.mat i) fun v : Multiset Contr =>
        Prog.write (V := Val) (.prod k i) ((v.map (val inp { D with sol := vals k } k i)).sum : ℝ) (.ret ())).exec m).2) m) x =
        m x := by
    intro k l
    induction l with
    | nil => intro m _; exact ⟨fun i hi => by simp at hi, fun _ _ => rfl⟩
    | cons a t ih =>
      intro m hl
      simp only [List.foldl_cons, exec_read, exec_write, exec_ret]
      set m1 : FMem := Function.update m (.prod k a) (((m (.mat a)).map (val inp { D with sol := vals k } k a)).sum : ℝ) with hm1
      obtain ⟨h1, h2⟩ := ih m1 (fun i hi => hl i (by simp [hi]))
      have hmat : matOf inp m1 = matOf inp m := by
        funext i; unfold matOf; rw [hm1, Function.update_of_ne (by simp)]
      simp only [exec_read, exec_write, exec_ret] at h1 h2
      refine ⟨fun i hi => ?_, fun x hx => ?_⟩
      · by_cases hit : i ∈ t
        · rw [h1 i hit, hmat]
        · have : i = a := (List.mem_cons.1 hi).resolve_right hit
          subst this
          rw [h2 _ (by rintro j h; injection h with _ h; subst h; exact hit), hm1, Function.update_self]
          unfold direct matOf
          rw [if_pos (hl i (by simp))]
      · rw [h2 x fun i hi h => hx i hi (by simp [h]), hm1, Function.update_of_ne]
        rintro rfl
        exact hx a rfl (by simp)
  have e : ((tVmult inp D vals).exec m).2 = (List.range inp.nDofs).foldl (fun m i => ((Prog.read (V := Val) (.mat i) fun v :
      Multiset Contr => Prog.write (V := Val) (.prod .single i) ((v.map (val inp { D with sol := vals .single } .single i)).sum :
        ℝ) (.ret ())).exec m).2) ((List.range inp.nDofs).foldl (fun m i => ((Prog.read (V := Val) (.mat i) fun v :
      Multiset Contr => Prog.write (V := Val) (.prod .double i) ((v.map (val inp { D with sol := vals .double } .double i)).sum :
        ℝ) (.ret ())).exec m).2) m) := by
    unfold tVmult
    rw [exec_forM]
    simp only [List.foldl_cons, List.foldl_nil]
    rw [exec_forM, exec_forM]
    rfl
  rw [e]
  have hr : ∀ i ∈ List.range inp.nDofs, i < inp.nDofs := fun i hi => List.mem_range.1 hi
  obtain ⟨d1, d2⟩ := key .double (List.range inp.nDofs) m hr
  set m1 := (List.range inp.nDofs).foldl (fun m i => ((Prog.read (V := Val) (.mat i) fun v :
      Multiset Contr => Prog.write (V := Val) (.prod .double i) ((v.map (val inp { D with sol := vals .double } .double i)).sum :
        ℝ) (.ret ())).exec m).2) m
  obtain ⟨s1, s2⟩ := key .single (List.range inp.nDofs) m1 hr
  have hmat : matOf inp m1 = matOf inp m := by
    funext i; unfold matOf; rw [d2 (.mat i) (by simp)]
  refine ⟨fun k i hi => ?_, fun l hl => ?_⟩
  · cases k
    · rw [s1 i (List.mem_range.2 hi), hmat]
    · rw [s2 _ (by simp), d1 i (List.mem_range.2 hi)]
  · rw [s2 l fun i h => (hl ⟨_, _, h⟩).elim, d2 l fun i h => (hl ⟨_, _, h⟩).elim]

/-! ## New local expansions -/

/-- The static table. -/
def tabLocs : Set Loc := {.tabP, .tabPtr}

theorem acc_self {m : FMem} {R W : Set Loc} (h : tabLocs ⊆ R) : selfAssign.Acc m unsync R W fun _ => True :=
  acc_selfAssign (.inl rfl) (h (.inl rfl)) (.inr (.inl rfl)) (h (.inr rfl))

theorem items_local (m : FMem) : Items unsync tabLocs (pairW EObj.loc) (tLocalCreate D T) (List.range T.count) m where
  nodup := List.nodup_range
  acc := fun b _ => by
    have h : ∀ k, (putNew (.loc k b) D.p (ctr T b)).Acc m unsync tabLocs (pairW EObj.loc b) fun _ => True :=
      fun k => acc_putNew' (show whole (.loc k b) ⊆ pairW EObj.loc b from fun _ h => ⟨k, h⟩) _ _
    exact (acc_self subset_rfl).bind fun _ _ => (h _).bind fun _ _ => (acc_self subset_rfl).bind fun _ _ => h _
  disj := fun a _ b _ hab => by
    rw [Set.disjoint_left]
    rintro l ⟨k, h⟩ ⟨k', h'⟩
    exact whole_disj (fun e => hab (by injection e)) h h'
  frozen := fun b _ => by
    rw [Set.disjoint_left]
    rintro l (rfl | rfl) ⟨k', h | h | ⟨_, _, h⟩⟩ <;> cases h

theorem local_step {m m' : FMem} (hr : (Phase.par (tLocalCreate D T) (List.range T.count)).Run m m') :
    (∀ k, expOf D T (.loc k) m' = fun b => Exp.new D.p (ctr T b)) ∧
    ∀ l, (∀ k b, l ∉ whole (.loc k b)) → m' l = m l := by
  obtain ⟨chunks, hc, hr⟩ := hr
  rw [(items_local m).result hc hr]
  have e : (fun (m : FMem) (a : ℕ) => (Prog.exec (tLocalCreate D T a) m).2) = fun m b =>
      ((putNew (.loc .single b) D.p (ctr T b)).exec ((putNew (.loc .double b) D.p (ctr T b)).exec m).2).2 := by
    funext m b; unfold tLocalCreate; rw [exec_bind, exec_bind, exec_bind, selfAssign_exec, selfAssign_exec]
  rw [e]
  exact new_all (o := EObj.loc) (fun k k' b b' h => by injection h with h1 h2; exact ⟨h1, h2⟩) m

/-! ## Levels -/

/-- Locations read by the workers of level `l`. -/
def downR (T : St 3) (l : ℕ) : Set Loc :=
  {x | x ∈ unsync ∨ (∃ k b, x = .head (.loc k b)) ∨ (∃ k b, x ∈ whole (.mul k b)) ∨
    ∃ k b, (T.blocks b).level + 1 = l ∧ x ∈ body (.loc k b)}

/-- Locations written by the copier. -/
def downW (T : St 3) (l : ℕ) : Set Loc :=
  {x | (∃ k b, (T.blocks b).level = l ∧ x ∈ body (.loc k b)) ∨ x ∈ prodLocs}

/-- The copy data are for a block of the level. -/
def DescGood (inp : Input 3) (T : St 3) (l : ℕ) (buf : TDescBuf) : Prop :=
  buf.blockId < T.count ∧ (T.blocks buf.blockId).level = l ∧ (∀ i ∈ buf.nodes, i < inp.nDofs) ∧
    ∀ k, (buf.contr k).length = buf.nodes.length

theorem acc_addMultipole {m : FMem} {W : Set Loc} {l : ℕ} (e : Exp) (k : Ker) (b : ℕ) :
    (tAddMultipole e (.mul k b)).Acc m unsync (downR T l) W fun _ => True := by
  unfold tAddMultipole
  refine (acc_readExp' (R := downR T l) fun x hx => .inr (.inr (.inl ⟨k, b, hx⟩))).bind fun x _ => ?_
  split_ifs
  · exact .ret trivial
  · exact (acc_getR (R := downR T l) (.inl (.inl rfl))).bind fun _ _ =>
      (acc_getR (R := downR T l) (.inl (.inr (.inl rfl)))).bind fun _ _ => .ret trivial

theorem acc_timer {m : FMem} {W : Set Loc} {l : ℕ} :
    (Prog.put (V := Val) .timer ()).Acc m unsync (downR T l) W fun _ => True :=
  .silent (.inr (.inr rfl)) (.inl (.inr (.inr rfl))) rfl (.ret trivial)

theorem acc_workerDescend {m : FMem} {l k : ℕ} {buf : TDescBuf} (hk : k < T.count)
    (hl : (T.blocks k).level = l) (hp : (T.blocks (T.blocks k).parent).level + 1 = l)
    (hn : ∀ i ∈ (T.blocks k).nodes, i < inp.nDofs) :
    (tWorkerDescend inp D T own k buf).Acc m unsync (downR T l) ∅ (DescGood inp T l) := by
  have self : selfAssign.Acc m unsync (downR T l) ∅ fun _ => True := acc_self (by
    rintro x (rfl | rfl)
    · exact .inl (.inl rfl)
    · exact .inl (.inr (.inl rfl)))
  have rmul : ∀ kk b, (readExp (.mul kk b)).Acc m unsync (downR T l) ∅ fun _ => True := fun kk b =>
    acc_readExp' fun x hx => .inr (.inr (.inl ⟨kk, b, hx⟩))
  have rpar : ∀ kk, (readExp (.loc kk (T.blocks k).parent)).Acc m unsync (downR T l) ∅ fun _ => True := fun kk =>
    acc_readExp' (by
      rintro x (rfl | hx)
      · exact .inr (.inl ⟨_, _, rfl⟩)
      · exact .inr (.inr (.inr ⟨_, _, hp, hx⟩)))
  unfold tWorkerDescend
  refine (acc_getR (R := downR T l) (.inr (.inl ⟨_, _, rfl⟩))).bind fun h _ => self.bind fun _ _ => self.bind fun _ _ => ?_
  split_ifs
  · refine (rpar _).bind fun p1 _ => (rpar _).bind fun p2 _ => ?_
    refine Prog.Acc.bind (Q := fun s : DLoc => ∀ kk, (s.contr kk).length = (T.blocks k).nodes.length) ?_ fun s hs =>
      .ret ⟨hk, hl, hn, hs⟩
    refine Prog.Acc.foldlM (fun sub _ s hs => ?_) fun kk => by simp
    refine Prog.Acc.bind (Q := fun s : DLoc => ∀ kk, (s.contr kk).length = (T.blocks k).nodes.length) ?_ fun s hs => ?_
    · refine Prog.Acc.foldlM (fun b _ s hs => ?_) hs
      unfold tM2L
      exact (acc_addMultipole _ _ _).bind fun _ _ => (acc_addMultipole _ _ _).bind fun _ _ => .ret hs
    · refine Prog.Acc.foldlM (fun b _ s hs => ?_) hs
      unfold tM2P
      refine acc_timer.bind fun _ _ => (rmul _ _).bind fun _ _ => (rmul _ _).bind fun _ _ => acc_timer.bind fun _ _ =>
        .ret fun kk => ?_
      cases kk <;> simp [hs]
  · exact .ret ⟨hk, hl, hn, fun kk => by simp⟩

theorem acc_addProd {m : FMem} {S R W : Set Loc} {k : Ker} {i : ℕ} (h : Loc.prod k i ∈ W) (x : ℝ) :
    (addProd k i x).Acc m S R W fun _ => True :=
  (acc_getW h).bind fun _ _ => acc_put h

theorem streams_down (t : Tree inp T) {l : ℕ} (hl : 1 ≤ l) (m : FMem) :
    Streams (tWorkerDescend inp D T own) tCopierDescend unsync (downR T l) (downW T l) (DescGood inp T l)
      (T.dofsFilled l) m where
  work := fun b hb buf => by
    obtain ⟨_, h2, h3, _⟩ := (t.dfil l b).1 hb
    refine acc_workerDescend h2 h3 (by rw [(t.parent_level h2 (by omega)).2.1, h3]) fun i hi => ?_
    have := mem_root_of_mem t.links h2 (x := .inl i) hi
    simpa [rootBlock, Block.Mem] using this
  copy := fun buf hb => by
    have h : ∀ k e, (addParentTo (.loc k buf.blockId) e).Acc m unsync (downR T l) (downW T l) fun _ => True := by
      intro k e
      have h1 : Loc.head (.loc k buf.blockId) ∈ downR T l := .inr (.inl ⟨k, _, rfl⟩)
      have h2 : Loc.zero (.loc k buf.blockId) ∈ downW T l := .inl ⟨k, _, hb.2.1, .inl rfl⟩
      have h3 : ∀ n i, Loc.coeff (.loc k buf.blockId) n i ∈ downW T l := fun n i =>
        .inl ⟨k, _, hb.2.1, .inr ⟨n, i, rfl⟩⟩
      exact acc_addParentTo (.inl h1) h2 h3 e
    have hp : ∀ k i, Loc.prod k i ∈ downW T l := fun k i => .inr ⟨k, i, rfl⟩
    exact (h _ _).bind fun _ _ => (h _ _).bind fun _ _ => Prog.Acc.forM fun x _ =>
      (acc_addProd (hp _ _) _).bind fun _ _ => acc_addProd (hp _ _) _
  frozen := by
    rw [Set.disjoint_left]
    rintro x hx (⟨k', b', hb', hx'⟩ | ⟨k', i', rfl⟩)
    · rcases hx with hx | ⟨k, b, rfl⟩ | ⟨k, b, hx⟩ | ⟨k, b, hb, hx⟩
      · rcases hx with rfl | rfl | rfl <;> rcases hx' with h | ⟨_, _, h⟩ <;> cases h
      · exact head_body hx'
      · exact whole_disj (o := .mul k b) (o' := .loc k' b') (by simp) hx (.inr hx')
      · refine body_disj (fun e => ?_) hx hx'
        injection e with _ e
        subst e; omega
    · rcases hx with hx | ⟨k, b, h⟩ | ⟨k, b, hx⟩ | ⟨k, b, hb, hx⟩
      · rcases hx with h | h | h <;> cases h
      · cases h
      · exact prod_not_whole hx
      · exact prod_not_whole (.inr hx)

theorem addMultipole_exec (e : Exp) (o : EObj) (m : FMem) :
    (tAddMultipole e o).exec m = (lAddMultipole codeTable e (getExp m o), m) := by
  unfold tAddMultipole
  rw [exec_bind, readExp_exec]
  dsimp only
  split_ifs with h
  · rw [pure_eq, exec_ret]
    congr 1
    rw [view_isZero] at h
    unfold lAddMultipole
    rw [if_pos h]
  · simp only [get_bind, exec_read, pure_eq, exec_ret, view_lAddMultipole]

theorem timer_exec (m : FMem) : (Prog.put (V := Val) .timer ()).exec m = ((), m) := by
  rw [exec_put]
  congr 1
  exact Function.update_eq_self _ _

/-- Copy data of one kernel. -/
def descBuf (k : Ker) (buf : TDescBuf) : NDescBuf := ⟨buf.blockId, buf.expn k, buf.nodes, buf.contr k⟩

theorem m2l_exec (s : DLoc) (b : ℕ) (m : FMem) : (tM2L s b).exec m =
    (⟨fun k => lAddMultipole codeTable (s.expn k) (getExp m (.mul k b)), s.contr⟩, m) := by
  unfold tM2L
  simp only [exec_bind, addMultipole_exec, pure_eq, exec_ret]
  congr 2
  funext k
  cases k <;> rfl

theorem m2p_exec (nodes : List ℕ) (s : DLoc) (b : ℕ) (m : FMem) : (tM2P inp nodes s b).exec m =
    (⟨s.expn, fun k => List.zipWith (fun i x => x + mEval codeTable (getExp m (.mul k b)) (toV (inp.pos i))) nodes
      (s.contr k)⟩, m) := by
  unfold tM2P
  simp only [exec_bind, timer_exec, readExp_exec, view_mEval, pure_eq, exec_ret]
  congr 2
  funext k
  cases k <;> rfl

theorem zipWith_map_add (nodes : List ℕ) (f g : ℕ → ℝ) :
    List.zipWith (fun i x => x + g i) nodes (nodes.map f) = nodes.map fun i => f i + g i := by
  induction nodes with
  | nil => rfl
  | cons a t ih => simp [ih]

theorem sum_sort_foldl (S : Finset ℕ) (g : ℕ → ℝ) (x : ℝ) : (S.sort (· ≤ ·)).foldl (fun x b => x + g b) x = x + ∑ b ∈ S, g b := by
  have key : ∀ (l : List ℕ) (x : ℝ), l.foldl (fun x b => x + g b) x = x + (l.map g).sum := by
    intro l
    induction l with
    | nil => intro x; simp
    | cons a t ih => intro x; rw [List.foldl_cons, ih, List.map_cons, List.sum_cons]; ring
  rw [key]
  congr 1
  exact sum_sort S g

theorem workerDescend_exec (k : ℕ) (buf : TDescBuf) (m : FMem) (hk : k < T.count) (hp : (T.blocks k).parent < T.count)
    (hlt : ∀ s b, b ∈ nonIntList inp T k s → b < T.count) (kk : Ker) (mult : ℕ → Exp)
    (hmult : ∀ b, b < T.count → mult b = getExp m (.mul kk b)) (x : NDescBuf) (prod : ℕ → ℝ)
    (hc : (getExp m (.loc .double k)).center = (getExp m (.loc kk k)).center) :
    descBuf kk ((tWorkerDescend inp D T own k buf).exec m).1 =
      nWorkerDescend inp D T own mult k ⟨expOf D T (.loc kk) m, prod⟩ x := by
  unfold tWorkerDescend nWorkerDescend
  rw [get_bind, exec_read]
  simp only [exec_bind, selfAssign_exec]
  have hdum : expOf D T (.loc kk) m k = getExp m (.loc kk k) := expOf_lt hk
  rw [hdum, ← hc]
  have hcen : (getExp m (.loc .double k)).center = (m (.head (.loc .double k))).2 := rfl
  rw [hcen]
  set dummy := Exp.new D.p (m (.head (.loc .double k))).2 with hdummy
  have hpar : expOf D T (.loc kk) m (T.blocks k).parent = getExp m (.loc kk (T.blocks k).parent) := expOf_lt hp
  by_cases hon : (T.blocks k).nodes.any own = true
  · rw [if_pos hon]
    simp only [hon, if_true, exec_bind, readExp_exec, pure_eq, exec_ret, hpar]
    suffices H : ∀ s0 : DLoc, s0.expn kk = lAddParent codeTable dummy (getExp m (.loc kk (T.blocks k).parent)) →
        s0.contr kk = ((T.blocks k).nodes.map fun _ => 0) → ∀ r, r = (((List.range (numSub inp T k)).foldlM
          (fun (s : DLoc) sub => (do
            let s ← ((m2lSet inp T k sub).sort (· ≤ ·)).foldlM tM2L s
            ((m2pSet inp T k sub).sort (· ≤ ·)).foldlM (tM2P inp (T.blocks k).nodes) s : P DLoc)) s0).exec m).1 →
        descBuf kk ⟨k, r.expn, (T.blocks k).nodes, r.contr⟩ = ⟨k, (List.range (numSub inp T k)).foldl (fun e sub =>
          ((m2lSet inp T k sub).sort (· ≤ ·)).foldl (fun e b => lAddMultipole codeTable e (mult b)) e)
          (lAddParent codeTable dummy (getExp m (.loc kk (T.blocks k).parent))), (T.blocks k).nodes,
          (T.blocks k).nodes.map fun i => ∑ sub ∈ Finset.range (numSub inp T k), ∑ b ∈ m2pSet inp T k sub,
            mEval codeTable (mult b) (toV (inp.pos i))⟩ by
      exact H _ (by cases kk <;> simp only [view_lAddParent]) rfl _ rfl
    intro s0 e0 c0 r hr
    have hfold := exec_foldlM_pure (V := Val) (fun (s : DLoc) sub => (do
        let s ← ((m2lSet inp T k sub).sort (· ≤ ·)).foldlM tM2L s
        ((m2pSet inp T k sub).sort (· ≤ ·)).foldlM (tM2P inp (T.blocks k).nodes) s : P DLoc))
      (fun s sub => ((m2pSet inp T k sub).sort (· ≤ ·)).foldl (fun s b => ⟨s.expn, fun k' => List.zipWith (fun i x =>
          x + mEval codeTable (getExp m (.mul k' b)) (toV (inp.pos i))) (T.blocks k).nodes (s.contr k')⟩)
        (((m2lSet inp T k sub).sort (· ≤ ·)).foldl (fun (s : DLoc) b => ⟨fun k' => lAddMultipole codeTable (s.expn k')
          (getExp m (.mul k' b)), s.contr⟩) s)) m (List.range (numSub inp T k)) (fun sub _ s => by
        rw [exec_bind, exec_foldlM_pure _ _ m _ (fun b _ s => m2l_exec s b m),
          exec_foldlM_pure _ _ m _ (fun b _ s => m2p_exec (T.blocks k).nodes s b m)]) s0
    rw [hfold] at hr
    subst hr
    unfold descBuf
    simp only [NDescBuf.mk.injEq, true_and]
    -- the two parts of the copy data
    have hsplit := foldl_proj (fun s : DLoc => (s.expn kk, s.contr kk)) (fun s sub =>
      ((m2pSet inp T k sub).sort (· ≤ ·)).foldl (fun s b => ⟨s.expn, fun k' => List.zipWith (fun i x =>
          x + mEval codeTable (getExp m (.mul k' b)) (toV (inp.pos i))) (T.blocks k).nodes (s.contr k')⟩)
        (((m2lSet inp T k sub).sort (· ≤ ·)).foldl (fun (s : DLoc) b => ⟨fun k' => lAddMultipole codeTable (s.expn k')
          (getExp m (.mul k' b)), s.contr⟩) s))
      (fun (s : Exp × List ℝ) sub => (((m2lSet inp T k sub).sort (· ≤ ·)).foldl (fun e b => lAddMultipole codeTable e (mult b)) s.1,
        ((m2pSet inp T k sub).sort (· ≤ ·)).foldl (fun c b => List.zipWith (fun i x =>
          x + mEval codeTable (mult b) (toV (inp.pos i))) (T.blocks k).nodes c) s.2)) (fun _ => True)
      (List.range (numSub inp T k)) (fun sub _ s _ => ⟨trivial, ?_⟩) s0 trivial
    · obtain ⟨_, h⟩ := hsplit
      have hfst : ∀ (l : List ℕ) (a : Exp × List ℝ), l.foldl (fun (s : Exp × List ℝ) sub =>
          (((m2lSet inp T k sub).sort (· ≤ ·)).foldl (fun e b => lAddMultipole codeTable e (mult b)) s.1,
          ((m2pSet inp T k sub).sort (· ≤ ·)).foldl (fun c b => List.zipWith (fun i x =>
            x + mEval codeTable (mult b) (toV (inp.pos i))) (T.blocks k).nodes c) s.2)) a =
          (l.foldl (fun e sub => ((m2lSet inp T k sub).sort (· ≤ ·)).foldl (fun e b => lAddMultipole codeTable e (mult b)) e) a.1,
          l.foldl (fun c sub => ((m2pSet inp T k sub).sort (· ≤ ·)).foldl (fun c b => List.zipWith (fun i x =>
            x + mEval codeTable (mult b) (toV (inp.pos i))) (T.blocks k).nodes c) c) a.2) := by
        intro l
        induction l with
        | nil => intro a; rfl
        | cons a t ih => intro b; simp only [List.foldl_cons]; rw [ih]
      rw [hfst] at h
      obtain ⟨h1, h2⟩ := Prod.ext_iff.1 h
      refine ⟨by rw [← e0]; exact h1, h2.trans ?_⟩
      dsimp only
      rw [c0]
      have hzip : ∀ (l : List ℕ) (f : ℕ → ℝ), l.foldl (fun c b => List.zipWith (fun i x =>
          x + mEval codeTable (mult b) (toV (inp.pos i))) (T.blocks k).nodes c) ((T.blocks k).nodes.map f) =
          (T.blocks k).nodes.map fun i => l.foldl (fun x b => x + mEval codeTable (mult b) (toV (inp.pos i))) (f i) := by
        intro l
        induction l with
        | nil => intro f; rfl
        | cons b t ih => intro f; rw [List.foldl_cons, zipWith_map_add, ih]; rfl
      have hall : ∀ (n : ℕ) (f : ℕ → ℝ), (List.range n).foldl (fun c sub => ((m2pSet inp T k sub).sort (· ≤ ·)).foldl
          (fun c b => List.zipWith (fun i x => x + mEval codeTable (mult b) (toV (inp.pos i))) (T.blocks k).nodes c) c)
          ((T.blocks k).nodes.map f) = (T.blocks k).nodes.map fun i => f i + ∑ sub ∈ Finset.range n, ∑ b ∈ m2pSet inp T k sub,
            mEval codeTable (mult b) (toV (inp.pos i)) := by
        intro n
        induction n with
        | zero => intro f; simp
        | succ n ih =>
          intro f
          rw [List.range_succ, List.foldl_append, ih, List.foldl_cons, List.foldl_nil, hzip]
          refine List.map_congr_left fun i _ => ?_
          rw [sum_sort_foldl, Finset.sum_range_succ, add_assoc]
      have := hall (numSub inp T k) fun _ => 0
      simp only [zero_add] at this
      exact this
    · have hm2p : ∀ (l : List ℕ) (s : DLoc), (∀ b ∈ l, b < T.count) → (fun s : DLoc => (s.expn kk, s.contr kk)) (l.foldl
          (fun s b => ⟨s.expn, fun k' => List.zipWith (fun i x => x + mEval codeTable (getExp m (.mul k' b)) (toV (inp.pos i)))
            (T.blocks k).nodes (s.contr k')⟩) s) = (s.expn kk, l.foldl (fun c b => List.zipWith (fun i x =>
          x + mEval codeTable (mult b) (toV (inp.pos i))) (T.blocks k).nodes c) (s.contr kk)) := by
        intro l
        induction l with
        | nil => intro s _; rfl
        | cons b t ih =>
          intro s hb
          rw [List.foldl_cons, List.foldl_cons, ih _ fun b hb' => hb b (by simp [hb']), hmult b (hb b (by simp))]
      have hm2l : ∀ (l : List ℕ) (s : DLoc), (∀ b ∈ l, b < T.count) → (fun s : DLoc => (s.expn kk, s.contr kk)) (l.foldl
          (fun (s : DLoc) b => ⟨fun k' => lAddMultipole codeTable (s.expn k') (getExp m (.mul k' b)), s.contr⟩) s) =
          (l.foldl (fun e b => lAddMultipole codeTable e (mult b)) (s.expn kk), s.contr kk) := by
        intro l
        induction l with
        | nil => intro s _; rfl
        | cons b t ih =>
          intro s hb
          rw [List.foldl_cons, List.foldl_cons, ih _ fun b hb' => hb b (by simp [hb']), hmult b (hb b (by simp))]
      refine (hm2p ((m2pSet inp T k sub).sort (· ≤ ·)) _
        fun b hb => hlt sub b (Finset.mem_filter.1 ((Finset.mem_sort _).1 hb)).1).trans ?_
      obtain ⟨g1, g2⟩ := Prod.ext_iff.1 (hm2l ((m2lSet inp T k sub).sort (· ≤ ·)) s
        fun b hb => hlt sub b (Finset.mem_filter.1 ((Finset.mem_sort _).1 hb)).1)
      dsimp only at g1 g2
      rw [g1, g2]
  · rw [if_neg hon]
    simp only [hon]
    rfl

theorem addProd_exec (k : Ker) {i : ℕ} (hi : i < inp.nDofs) (x : ℝ) (m : FMem) (k' : Ker) :
    outOf inp ((addProd k i x).exec m).2 k' =
      if k' = k then Function.update (outOf inp m k) i (outOf inp m k i + x) else outOf inp m k' := by
  unfold addProd
  rw [get_bind, exec_read, exec_put]
  dsimp only
  split_ifs with h
  · subst h
    funext j
    by_cases e : j = i
    · subst e; rw [Function.update_self]; unfold outOf; rw [if_pos hi, if_pos hi, Function.update_self]
    · rw [Function.update_of_ne e]; unfold outOf; rw [Function.update_of_ne (by simpa using e)]
  · funext j
    unfold outOf
    rw [Function.update_of_ne (by simp [h])]

theorem addProd_frame (k : Ker) (i : ℕ) (x : ℝ) (m : FMem) {l : Loc} (hl : l ∉ prodLocs) :
    ((addProd k i x).exec m).2 l = m l := by
  unfold addProd
  rw [get_bind, exec_read, exec_put]
  exact Function.update_of_ne (fun h => hl ⟨_, _, h⟩) _ _

theorem outOf_body {m m' : FMem} {x : EObj} (h : ∀ l, l ∉ body x → m' l = m l) (k : Ker) : outOf inp m' k = outOf inp m k := by
  funext i
  unfold outOf
  rw [h _ fun h => prod_not_whole (.inr h)]

theorem zip_fst {α β γ : Type} (l : List α) (a : List β) (b : List γ) (h : a.length = b.length) :
    (l.zip (a.zip b)).map (fun x => (x.1, x.2.1)) = l.zip a := by
  induction l generalizing a b with
  | nil => rfl
  | cons x t ih =>
    cases a with
    | nil => simp
    | cons y a =>
      cases b with
      | nil => simp at h
      | cons z b => simp at h; simp [ih a b h]

theorem zip_snd {α β γ : Type} (l : List α) (a : List β) (b : List γ) (h : a.length = b.length) :
    (l.zip (a.zip b)).map (fun x => (x.1, x.2.2)) = l.zip b := by
  induction l generalizing a b with
  | nil => rfl
  | cons x t ih =>
    cases a with
    | nil =>
      cases b with
      | nil => simp
      | cons z b => simp at h
    | cons y a =>
      cases b with
      | nil => simp at h
      | cons z b => simp at h; simp [ih a b h]

theorem copierDescend_exec {buf : TDescBuf} {l : ℕ} (hb : DescGood inp T l buf) (m : FMem) (k : Ker) :
    (⟨expOf D T (.loc k) ((tCopierDescend buf).exec m).2, outOf inp ((tCopierDescend buf).exec m).2 k⟩ : NDSt) =
      nCopierDescend (descBuf k buf) ⟨expOf D T (.loc k) m, outOf inp m k⟩ := by
  unfold tCopierDescend nCopierDescend
  rw [exec_bind, exec_bind, exec_forM]
  obtain ⟨h1, h2⟩ := addParentTo_exec (.loc .double buf.blockId) (buf.expn .double) m
  set m1 := ((addParentTo (.loc .double buf.blockId) (buf.expn .double)).exec m).2
  obtain ⟨h3, h4⟩ := addParentTo_exec (.loc .single buf.blockId) (buf.expn .single) m1
  set m2 := ((addParentTo (.loc .single buf.blockId) (buf.expn .single)).exec m1).2
  have hloop := foldl_proj (fun (s : FMem) (k : Ker) => outOf inp s k) (fun m a => ((addProd .single a.1 a.2.1 >>= fun _ =>
      addProd .double a.1 a.2.2).exec m).2)
    (fun (p : Ker → ℕ → ℝ) (x : ℕ × ℝ × ℝ) k => Function.update (p k) x.1 (p k x.1 + (if k = .single then x.2.1 else x.2.2)))
    (fun s => ∀ x, x ∉ prodLocs → s x = m2 x) (buf.nodes.zip ((buf.contr .single).zip (buf.contr .double)))
    (fun a ha s hs => ?_) m2 fun _ _ => rfl
  · obtain ⟨f, e⟩ := hloop
    have hloc : expOf D T (.loc k) ((buf.nodes.zip ((buf.contr .single).zip (buf.contr .double))).foldl (fun m a =>
        ((addProd .single a.1 a.2.1 >>= fun _ => addProd .double a.1 a.2.2).exec m).2) m2) = expOf D T (.loc k) m2 :=
      expOf_congr fun b _ l hl => f l (by rintro ⟨k, i, rfl⟩; exact prod_not_whole hl)
    have hout := congrFun e k
    rw [foldl_fam (fun (k : Ker) (p : ℕ → ℝ) (x : ℕ × ℝ × ℝ) => Function.update p x.1
      (p x.1 + (if k = .single then x.2.1 else x.2.2)))] at hout
    dsimp only at hout
    rw [outOf_body h4, outOf_body h2] at hout
    simp only [NDSt.mk.injEq]
    refine ⟨hloc.trans ?_, hout.trans ?_⟩
    · unfold descBuf
      simp only
      rw [expOf_lt hb.1]
      cases k
      · rw [expOf_body (loc_inj .single) hb.1 h3 h4, expOf_other (by simp) h2]
        have : getExp m1 (.loc .single buf.blockId) = getExp m (.loc .single buf.blockId) :=
          getExp_congr (h2 _ head_body) fun l hl => h2 l (body_disj (by simp) hl)
        rw [this]
      · rw [expOf_other (by simp) h4, expOf_body (loc_inj .double) hb.1 h1 h2]
    · unfold descBuf
      dsimp only
      have hlen : (buf.contr .single).length = (buf.contr .double).length := by rw [hb.2.2.2, hb.2.2.2]
      cases k
      · rw [← zip_fst buf.nodes (buf.contr .single) (buf.contr .double) hlen, List.foldl_map]
        rfl
      · rw [← zip_snd buf.nodes (buf.contr .single) (buf.contr .double) hlen, List.foldl_map]
        rfl
  · have hi : a.1 < inp.nDofs := hb.2.2.1 a.1 (List.of_mem_zip (a := a.1) (b := a.2) ha).1
    rw [exec_bind]
    refine ⟨fun x hx => by rw [addProd_frame _ _ _ _ hx, addProd_frame _ _ _ _ hx, hs x hx], ?_⟩
    funext k
    rw [addProd_exec .double hi]
    cases k
    · rw [if_neg (by simp), addProd_exec .single hi]
      simp
    · rw [if_pos rfl, addProd_exec .single hi]
      simp

/-- The centres of the local expansions. -/
def Centres (T : St 3) (m : FMem) : Prop := ∀ k b, b < T.count → (m (.head (.loc k b)) : ℕ × V3).2 = ctr T b

/-- What a level of the descending phase does not change. -/
def DownFrame (m m' : FMem) : Prop := ∀ x, (∀ k b, x ∉ body (.loc k b)) → x ∉ prodLocs → m' x = m x

theorem down_step (t : Tree inp T) (hlev : 1 ≤ inp.levels) {l : ℕ} (hl : 1 ≤ l) {m m' : FMem} (hc : Centres T m)
    (hr : (Phase.stream (tWorkerDescend inp D T own) tCopierDescend ⟨0, fun _ => Exp.new D.p 0, [], fun _ => []⟩
      (T.dofsFilled l)).Run m m') :
    DownFrame m m' ∧ ∀ k, Exec (nWorkerDescend inp D T own (expOf D T (.mul k) m)) nCopierDescend ⟨0, Exp.new D.p 0, [], []⟩
      (T.dofsFilled l) ⟨expOf D T (.loc k) m, outOf inp m k⟩ ⟨expOf D T (.loc k) m', outOf inp m' k⟩ := by
  have hs := streams_down (own := own) (D := D) t hl m
  refine ⟨fun x h1 h2 => CRun.frame hs hr x ?_, fun k => ?_⟩
  · rintro (⟨k, b, _, h⟩ | h)
    · exact h1 k b h
    · exact h2 h
  · refine hs.map (fun m => (⟨expOf D T (.loc k) m, outOf inp m k⟩ : NDSt)) (descBuf k) (fun i hi s b hagr => ?_)
      (fun b s _ hb => copierDescend_exec hb s k) hr
    obtain ⟨_, h2, h3, _⟩ := (t.dfil l i).1 hi
    have hcs : Centres T s := fun k b hb => by
      rw [hagr _ ?_]
      · exact hc k b hb
      · rintro (⟨_, _, _, h⟩ | ⟨_, _, h⟩)
        · exact head_body h
        · cases h
    refine workerDescend_exec i b s h2 (t.parent_level h2 (by omega)).1 (fun sub b hb => m2l_lt t hlev h2 hb) k _ (fun b hb => ?_)
      _ _ ((hcs .double i h2).trans (hcs k i h2).symm)
    rw [expOf_lt hb]
    have hag : ∀ x, x ∈ whole (.mul k b) → m x = s x := fun x hx => (hagr x (by
      rintro (⟨_, _, _, h⟩ | ⟨_, _, h⟩)
      · exact whole_disj (by simp) hx (.inr h)
      · subst h; exact prod_not_whole hx)).symm
    exact getExp_congr (hag _ (.inl rfl)) fun x hx => hag x (.inr hx)

/-! ## Evaluation -/

/-- Locations written for leaf `b`. -/
def evalW (T : St 3) (b : ℕ) : Set Loc := {l | ∃ k, ∃ i ∈ (T.blocks b).nodes, l = .prod k i}

/-- Locations read. -/
def evalR : Set Loc := {l | ∃ k b, l ∈ whole (.loc k b)}

theorem items_eval (m : FMem) :
    Items unsync evalR (evalW (build inp)) (tEval inp (build inp) own) (build inp).childless m where
  nodup := (build_tree (Or.inr rfl) inp).chlnd
  acc := fun b _ => Prog.Acc.forM fun i hi => by
    split_ifs
    · have h : ∀ k, (tEvalAt inp b i k).Acc m unsync evalR (evalW (build inp) b) fun _ => True := fun k =>
        (acc_readExp' (show whole (.loc k b) ⊆ evalR from fun x hx => ⟨k, b, hx⟩)).bind fun _ _ =>
          acc_addProd (show Loc.prod k i ∈ evalW (build inp) b from ⟨k, i, hi, rfl⟩) _
      exact (h _).bind fun _ _ => h _
    · exact .ret trivial
  disj := fun a ha b hb hab => by
    rw [Set.disjoint_left]
    rintro l ⟨k, i, hi, rfl⟩ ⟨k', i', hi', h⟩
    injection h with _ h
    subst h
    have hp := C01_leaves_partition (Or.inr rfl) inp
    have hlt : i < inp.nDofs := (hp.2.2.2.1 a ((hp.2.2.2.2.1 a ha).1)).2.2.1 i hi
    obtain ⟨c, _, hc⟩ := hp.1 i hlt
    exact hab ((hc a ⟨ha, hi⟩).trans (hc b ⟨hb, hi'⟩).symm)
  frozen := fun b _ => by
    rw [Set.disjoint_left]
    rintro l ⟨k, b', h⟩ ⟨k', i, _, rfl⟩
    exact prod_not_whole h

theorem eval_step {m m' : FMem} (hr : (Phase.par (tEval inp (build inp) own) (build inp).childless).Run m m') :
    (∀ k, outOf inp m' k = (build inp).childless.foldl (fun p b => nEvalLeaf inp (build inp) own
      (expOf D (build inp) (.loc k) m) b p) (outOf inp m k)) ∧ ∀ l, l ∉ prodLocs → m' l = m l := by
  obtain ⟨chunks, hc, hr⟩ := hr
  rw [(items_eval m).result hc hr]
  have t := build_tree (Or.inr rfl) inp
  have key := foldl_proj (fun (s : FMem) k => outOf inp s k) (fun m a => (Prog.exec (tEval inp (build inp) own a) m).2)
    (fun (p : Ker → ℕ → ℝ) b k => nEvalLeaf inp (build inp) own (expOf D (build inp) (.loc k) m) b (p k))
    (fun s => ∀ l, l ∉ prodLocs → s l = m l) (build inp).childless (fun b hb s hs => ?_) m fun _ _ => rfl
  · refine ⟨fun k => ?_, key.1⟩
    have := congrFun key.2 k
    rw [foldl_fam (fun k (p : ℕ → ℝ) b => nEvalLeaf inp (build inp) own (expOf D (build inp) (.loc k) m) b p)] at this
    exact this
  · have hlt := ((t.chl b).1 hb).1
    unfold tEval
    rw [exec_forM]
    have inner := foldl_proj (fun (s : FMem) k => outOf inp s k) (fun m i => (Prog.exec (if own i = true then do
        tEvalAt inp b i .single
        tEvalAt inp b i .double
      else pure ()) m).2)
      (fun (p : Ker → ℕ → ℝ) i k => if own i then Function.update (p k) i (p k i + lEval codeTable
        (expOf D (build inp) (.loc k) m b) (toV (inp.pos i))) else p k) (fun s => ∀ l, l ∉ prodLocs → s l = m l)
      ((build inp).blocks b).nodes (fun i hi s hs => ?_) s hs
    · refine ⟨inner.1, inner.2.trans ?_⟩
      rw [foldl_fam (fun k (p : ℕ → ℝ) i => if own i then Function.update p i (p i + lEval codeTable
        (expOf D (build inp) (.loc k) m b) (toV (inp.pos i))) else p)]
      rfl
    · have hi' : i < inp.nDofs := by
        have := mem_root_of_mem t.links hlt (x := .inl i) hi
        simpa [rootBlock, Block.Mem] using this
      by_cases ho : own i = true
      · simp only [ho, if_true]
        have hread : ∀ (s : FMem), (∀ l, l ∉ prodLocs → s l = m l) → ∀ k, (tEvalAt inp b i k).exec s = (addProd k i
            (lEval codeTable (expOf D (build inp) (.loc k) m b) (toV (inp.pos i)))).exec s := by
          intro s hs k
          unfold tEvalAt
          rw [exec_bind, readExp_exec]
          dsimp only
          rw [view_lEval, expOf_lt hlt]
          have : getExp s (.loc k b) = getExp m (.loc k b) :=
            getExp_congr (hs _ (by rintro ⟨_, _, h⟩; cases h)) fun l hl => hs l (by
              rintro ⟨_, _, rfl⟩; exact prod_not_whole (.inr hl))
          rw [this]
        rw [exec_bind, hread s hs]
        have hs1 : ∀ l, l ∉ prodLocs → ((addProd .single i (lEval codeTable (expOf D (build inp) (.loc .single) m b)
            (toV (inp.pos i)))).exec s).2 l = m l := fun l hl => by rw [addProd_frame _ _ _ _ hl, hs l hl]
        rw [hread _ hs1]
        refine ⟨fun l hl => by rw [addProd_frame _ _ _ _ hl, hs1 l hl], ?_⟩
        funext k
        rw [addProd_exec .double hi']
        cases k
        · rw [if_neg (by simp), addProd_exec .single hi', if_pos rfl]
        · rw [if_pos rfl, addProd_exec .single hi', if_neg (by simp)]
      · simp only [ho]
        exact ⟨hs, rfl⟩

/-! ## The whole descending phase -/

theorem descend_ok (hlev : 1 ≤ inp.levels) (m : FMem) :
    Phase.AllOk unsync (descendPhases inp D (build inp) own vals) m fun m' =>
      (∀ l, l ∉ prodLocs → (∀ k b, l ∉ whole (.loc k b)) → m' l = m l) ∧
      ∀ k, ∃ s : NDSt, NDescendExec inp { D with sol := vals k } (build inp) own (expOf D (build inp) (.mul k) m)
        (direct inp { D with sol := vals k } k (matOf inp m)) s ∧
        outOf inp m' k = (build inp).childless.foldl (fun p b => nEvalLeaf inp (build inp) own s.loc b p) s.prod := by
  have t := build_tree (Or.inr rfl) inp
  set T := build inp with hT
  unfold descendPhases
  rw [List.append_assoc]
  refine Phase.AllOk.append (Q := fun m' => (∀ l, l ∉ prodLocs → (∀ k b, l ∉ whole (.loc k b)) → m' l = m l) ∧ Centres T m' ∧
    ∀ k, expOf D T (.loc k) m' = (fun b => Exp.new D.p (ctr T b)) ∧
      outOf inp m' k = direct inp { D with sol := vals k } k (matOf inp m)) ?_ ?_
  · refine .cons (Phase.ok_seq _ _ _) fun m1 h1 => .cons (Phase.ok_par (items_local m1)) fun m2 h2 => .nil ?_
    have h1 : m1 = ((tVmult inp D vals).exec m).2 := h1
    obtain ⟨v1, v2⟩ := vmult_exec (inp := inp) (D := D) (vals := vals) m
    rw [← h1] at v1 v2
    obtain ⟨n1, n2⟩ := local_step h2
    refine ⟨fun l hl hl' => by rw [n2 l hl', v2 l hl], fun k b hb => ?_, fun k => ⟨n1 k, ?_⟩⟩
    · have := congrArg Exp.center (congrFun (n1 k) b)
      rw [expOf_lt hb] at this
      exact this
    · funext i
      unfold outOf
      rw [n2 _ fun k b => prod_not_whole]
      split_ifs with hi
      · exact v1 k i hi
      · unfold direct matOf
        rw [if_neg hi]
        simp
  · rintro m1 ⟨f1, c1, e1⟩
    refine Phase.AllOk.append (Q := fun m' => (∀ l, l ∉ prodLocs → (∀ k b, l ∉ whole (.loc k b)) → m' l = m l) ∧
      ∀ k, NDescendExec inp { D with sol := vals k } T own (expOf D T (.mul k) m)
        (direct inp { D with sol := vals k } k (matOf inp m)) ⟨expOf D T (.loc k) m', outOf inp m' k⟩) ?_ ?_
    · refine (allOk_levels (fun (s : Ker → NDSt) m' => (∀ l, l ∉ prodLocs → (∀ k b, l ∉ whole (.loc k b)) → m' l = m l) ∧
        Centres T m' ∧ ∀ k, s k = ⟨expOf D T (.loc k) m', outOf inp m' k⟩)
        (fun l s s' => ∀ k, Exec (nWorkerDescend inp D T own (expOf D T (.mul k) m)) nCopierDescend ⟨0, Exp.new D.p 0, [], []⟩
          (T.dofsFilled l) (s k) (s' k)) _
        (List.range' 1 inp.levels) ?_ (s := fun k => ⟨expOf D T (.loc k) m1, outOf inp m1 k⟩) ⟨f1, c1, fun _ => rfl⟩).mono ?_
      · rintro l hl s m2 ⟨f2, c2, hs⟩
        rw [List.mem_range'_1] at hl
        refine ⟨Phase.ok_stream (streams_down t hl.1 m2), fun m3 h3 => ?_⟩
        obtain ⟨f3, e⟩ := down_step t hlev hl.1 c2 h3
        refine ⟨fun k => ⟨expOf D T (.loc k) m3, outOf inp m3 k⟩, fun k => ?_, fun x hx hx' => ?_, fun k b hb => ?_, fun _ => rfl⟩
        · have hmul : expOf D T (.mul k) m2 = expOf D T (.mul k) m := expOf_congr fun b _ x hx =>
            f2 x (by rintro ⟨_, _, rfl⟩; exact prod_not_whole hx) fun k' b' => whole_disj (by simp) hx
          have e := e k
          rw [hmul] at e
          rw [hs k]; exact e
        · rw [f3 x (fun k b h => hx' k b (.inr h)) hx, f2 x hx hx']
        · rw [f3 _ (fun k b => head_body) (by rintro ⟨_, _, h⟩; cases h)]
          exact c2 k b hb
      · rintro m2 ⟨s, hL, f2, _, hs⟩
        refine ⟨f2, fun k => ?_⟩
        have := levels_all (R := fun k l s s' => Exec (nWorkerDescend inp D T own (expOf D T (.mul k) m)) nCopierDescend
          ⟨0, Exp.new D.p 0, [], []⟩ (T.dofsFilled l) s s') hL k
        rw [hs k, (e1 k).1, (e1 k).2] at this
        exact this
    · rintro m2 ⟨f2, e2⟩
      refine .cons (Phase.ok_par (items_eval m2)) fun m3 h3 => .nil ?_
      obtain ⟨e3, f3⟩ := eval_step (D := D) h3
      exact ⟨fun l hl hl' => by rw [f3 l hl, f2 l hl hl'], fun k => ⟨_, e2 k, e3 k⟩⟩

end PiBem.Fmm
