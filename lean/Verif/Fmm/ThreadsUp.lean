import Verif.Fmm.ThreadsSetup

/-! The ascending phases of `Verif.Fmm.Threads` (helper lemmas). -/

noncomputable section

namespace PiBem.Fmm

open PiBem.Octree PiBem.WorkStream PiBem.Expansion PiBem.Threads

variable {inp : Input 3} {D : Data} {T : St 3} {own : ℕ → Bool} {vals : Ker → ℕ → ℝ}

/-! ## Families of expansions -/

/-- All the locations of an expansion. -/
def whole (o : EObj) : Set Loc := {l | l = .head o ∨ l ∈ body o}

theorem body_disj {o o' : EObj} (h : o ≠ o') {l : Loc} (hl : l ∈ body o) : l ∉ body o' := by
  rcases hl with rfl | ⟨n, k, rfl⟩
  · rintro (h' | ⟨n', k', h'⟩)
    · injection h' with h'; exact h h'
    · cases h'
  · rintro (h' | ⟨n', k', h'⟩)
    · cases h'
    · injection h' with h'; exact h h'

theorem head_body {o o' : EObj} : Loc.head o ∉ body o' := by
  rintro (h' | ⟨n', k', h'⟩) <;> cases h'

/-- The expansions of the blocks; out of range, the new ones. -/
def expOf (D : Data) (T : St 3) (o : ℕ → EObj) (m : FMem) (b : ℕ) : Exp :=
  if b < T.count then getExp m (o b) else Exp.new D.p (ctr T b)

theorem expOf_lt {o : ℕ → EObj} {m : FMem} {b : ℕ} (hb : b < T.count) : expOf D T o m b = getExp m (o b) := if_pos hb

theorem expOf_congr {o : ℕ → EObj} {m m' : FMem} (h : ∀ b, b < T.count → ∀ l ∈ whole (o b), m' l = m l) :
    expOf D T o m' = expOf D T o m := by
  funext b
  unfold expOf
  split_ifs with hb
  · exact getExp_congr (h b hb _ (.inl rfl)) fun l hl => h b hb l (.inr hl)
  · rfl

theorem expOf_update {o : ℕ → EObj} {m m' : FMem} {b : ℕ} {e : Exp} (hb : b < T.count)
    (he : getExp m' (o b) = e) (h : ∀ b', b' ≠ b → ∀ l ∈ whole (o b'), m' l = m l) :
    expOf D T o m' = Function.update (expOf D T o m) b e := by
  funext b'
  by_cases hbb : b' = b
  · subst hbb; rw [Function.update_self, expOf_lt hb, he]
  · rw [Function.update_of_ne hbb]
    unfold expOf
    split_ifs
    · exact getExp_congr (h b' hbb _ (.inl rfl)) fun l hl => h b' hbb l (.inr hl)
    · rfl

theorem mul_inj (k : Ker) : Function.Injective (EObj.mul k) := fun a b h => by injection h
theorem loc_inj (k : Ker) : Function.Injective (EObj.loc k) := fun a b h => by injection h

/-- A change of the body of one expansion. -/
theorem expOf_body {o : ℕ → EObj} (ho : Function.Injective o) {m m' : FMem} {b : ℕ} (hb : b < T.count) {e : Exp}
    (he : getExp m' (o b) = e) (h : ∀ l, l ∉ body (o b) → m' l = m l) :
    expOf D T o m' = Function.update (expOf D T o m) b e :=
  expOf_update hb he fun b' hbb l hl => h l (by
    rcases hl with rfl | hl
    · exact head_body
    · exact body_disj (fun h => hbb (ho h)) hl)

theorem expOf_other {o : ℕ → EObj} {x : EObj} (ho : ∀ b, o b ≠ x) {m m' : FMem} (h : ∀ l, l ∉ body x → m' l = m l) :
    expOf D T o m' = expOf D T o m :=
  expOf_congr fun b _ l hl => h l (by
    rcases hl with rfl | hl
    · exact head_body
    · exact body_disj (ho b) hl)

/-! ## New expansions -/

/-- The two expansions of block `b`. -/
def pairW (o : Ker → ℕ → EObj) (b : ℕ) : Set Loc := {l | ∃ k, l ∈ whole (o k b)}

theorem whole_disj {o o' : EObj} (h : o ≠ o') {l : Loc} (hl : l ∈ whole o) : l ∉ whole o' := by
  rcases hl with rfl | hl
  · rintro (h' | h')
    · injection h' with h'; exact h h'
    · exact head_body h'
  · rintro (h' | h')
    · subst h'; exact head_body hl
    · exact body_disj h hl h'

theorem acc_putNew' {m : FMem} {S R W : Set Loc} {o : EObj} (h : whole o ⊆ W) (p : ℕ) (c : V3) :
    (putNew o p c).Acc m S R W fun _ => True :=
  acc_putNew (h (.inl rfl)) (h (.inr (.inl rfl))) (fun n k => h (.inr (.inr ⟨n, k, rfl⟩))) p c

theorem putNew_frame (o : EObj) (p : ℕ) (c : V3) (m : FMem) {l : Loc} (hl : l ∉ whole o) :
    ((putNew o p c).exec m).2 l = m l :=
  (putNew_exec o p c m).2 l (fun h => hl (.inl h)) fun h => hl (.inr h)

/-- A loop that writes the two new expansions of each block. -/
theorem new_all {o : Ker → ℕ → EObj} (ho : ∀ k k' b b', o k b = o k' b' → k = k' ∧ b = b') (m : FMem) :
    (∀ k, expOf D T (o k) ((List.range T.count).foldl (fun m b => ((putNew (o .single b) D.p (ctr T b)).exec
      ((putNew (o .double b) D.p (ctr T b)).exec m).2).2) m) = fun b => Exp.new D.p (ctr T b)) ∧
    ∀ l, (∀ k b, l ∉ whole (o k b)) → ((List.range T.count).foldl (fun m b => ((putNew (o .single b) D.p (ctr T b)).exec
      ((putNew (o .double b) D.p (ctr T b)).exec m).2).2) m) l = m l := by
  have key : ∀ (l : List ℕ) (m : FMem), (∀ k b, (b ∈ l ∨ getExp m (o k b) = Exp.new D.p (ctr T b)) →
      getExp (l.foldl (fun m b => ((putNew (o .single b) D.p (ctr T b)).exec
        ((putNew (o .double b) D.p (ctr T b)).exec m).2).2) m) (o k b) = Exp.new D.p (ctr T b)) ∧
      ∀ x, (∀ k b, x ∉ whole (o k b)) → (l.foldl (fun m b => ((putNew (o .single b) D.p (ctr T b)).exec
        ((putNew (o .double b) D.p (ctr T b)).exec m).2).2) m) x = m x := by
    intro l
    induction l with
    | nil => intro m; exact ⟨fun k b h => h.resolve_left (by simp), fun _ _ => rfl⟩
    | cons a t ih =>
      intro m
      simp only [List.foldl_cons]
      set m1 := ((putNew (o .double a) D.p (ctr T a)).exec m).2 with hm1
      set m2 := ((putNew (o .single a) D.p (ctr T a)).exec m1).2 with hm2
      obtain ⟨h1, h2⟩ := ih m2
      have frame : ∀ x, (∀ k, x ∉ whole (o k a)) → m2 x = m x := fun x hx => by
        rw [hm2, putNew_frame _ _ _ _ (hx _), hm1, putNew_frame _ _ _ _ (hx _)]
      have new : ∀ k, getExp m2 (o k a) = Exp.new D.p (ctr T a) := by
        intro k
        cases k
        · exact (putNew_exec _ _ _ _).1
        · have hne : o .double a ≠ o .single a := fun h => by have := (ho _ _ _ _ h).1; cases this
          have : getExp m2 (o .double a) = getExp m1 (o .double a) := by
            refine getExp_congr (putNew_frame _ _ _ _ (whole_disj hne (.inl rfl)))
              fun l hl => putNew_frame _ _ _ _ (whole_disj hne (.inr hl))
          rw [this]; exact (putNew_exec _ _ _ _).1
      refine ⟨fun k b h => h1 k b ?_, fun x hx => (h2 x hx).trans (frame x fun k => hx k a)⟩
      by_cases e : b = a
      · subst e; exact .inr (new k)
      · rcases h with h | h
        · exact .inl ((List.mem_cons.1 h).resolve_left e)
        · refine .inr ?_
          rw [← h]
          have hne : ∀ k', o k b ≠ o k' a := fun k' h => e (ho _ _ _ _ h).2
          exact getExp_congr (frame _ fun k' => whole_disj (hne k') (.inl rfl))
            fun l hl => frame l fun k' => whole_disj (hne k') (.inr hl)
  obtain ⟨h1, h2⟩ := key (List.range T.count) m
  refine ⟨fun k => ?_, h2⟩
  funext b
  unfold expOf
  split_ifs with hb
  · exact h1 k b (.inl (List.mem_range.2 hb))
  · rfl

theorem items_create (m : FMem) : Items unsync ∅ (pairW EObj.mul) (tCreate D T) (List.range T.count) m where
  nodup := List.nodup_range
  acc := fun b _ => by
    have h : ∀ k, (putNew (.mul k b) D.p (ctr T b)).Acc m unsync ∅ (pairW EObj.mul b) fun _ => True :=
      fun k => acc_putNew' (show whole (.mul k b) ⊆ pairW EObj.mul b from fun _ h => ⟨k, h⟩) _ _
    exact (h _).bind fun _ _ => h _
  disj := fun a _ b _ hab => by
    rw [Set.disjoint_left]
    rintro l ⟨k, h⟩ ⟨k', h'⟩
    exact whole_disj (fun e => hab (by injection e)) h h'
  frozen := fun _ _ => Set.empty_disjoint _

theorem create_step {m m' : FMem} (hr : (Phase.par (tCreate D T) (List.range T.count)).Run m m') :
    (∀ k, expOf D T (.mul k) m' = fun b => Exp.new D.p (ctr T b)) ∧
    ∀ l, (∀ k b, l ∉ whole (.mul k b)) → m' l = m l := by
  obtain ⟨chunks, hc, hr⟩ := hr
  rw [(items_create m).result hc hr]
  have e : (fun (m : FMem) (a : ℕ) => (Prog.exec (tCreate D T a) m).2) = fun m b => ((putNew (.mul .single b) D.p (ctr T b)).exec
      ((putNew (.mul .double b) D.p (ctr T b)).exec m).2).2 := by
    funext m b; unfold tCreate; rw [exec_bind]
  rw [e]
  exact new_all (o := EObj.mul) (fun k k' b b' h => by injection h with h1 h2; exact ⟨h1, h2⟩) m

/-! ## Leaves -/

/-- Locations read in the loop on the leaves. -/
def leafR : Set Loc := {l | (∃ k b, l = .head (.mul k b)) ∨ l ∈ elemLocs}

/-- Locations written for leaf `b`. -/
def leafW (b : ℕ) : Set Loc := {l | ∃ k, l ∈ body (.mul k b)}

/-- The entries of the table are there. -/
def Keys (inp : Input 3) (T : St 3) (m : FMem) : Prop :=
  ∀ k, ∀ b ∈ T.childless, blockCells inp T b ≠ [] → b ∈ m (.elemKeys k)

theorem acc_leafAdd {m : FMem} {b c j : ℕ} {k : Ker} (hb : b ∈ m (.elemKeys k)) :
    (tLeafAdd inp vals b c j k).Acc m unsync leafR (leafW b) fun _ => True := by
  unfold tLeafAdd lookupElem
  refine Prog.Acc.bind (Q := fun _ => True) ?_ fun v _ => ?_
  · refine (acc_getR (R := leafR) (.inr (.inl ⟨k, rfl⟩))).bind fun s hs => ?_
    subst hs
    rw [if_pos hb]
    exact (acc_getR (R := leafR) (.inr (.inr ⟨k, b, rfl⟩))).mono fun _ _ => trivial
  · have h1 : Loc.head (.mul k b) ∈ leafR := .inl ⟨k, b, rfl⟩
    have h2 : Loc.zero (.mul k b) ∈ leafW b := ⟨k, .inl rfl⟩
    have h3 : ∀ n i, Loc.coeff (.mul k b) n i ∈ leafW b := fun n i => ⟨k, .inr ⟨n, i, rfl⟩⟩
    exact acc_addScaledTo (.inl h1) h2 h3 _ _

theorem items_leaf (t : Tree inp T) {m : FMem} (hk : Keys inp T m) :
    Items unsync leafR leafW (tLeaf inp T vals) T.childless m where
  nodup := t.chlnd
  acc := fun b hb => Prog.Acc.forM fun c hc => Prog.Acc.forM fun j _ =>
    have h := fun k => hk k b hb (List.ne_nil_of_mem hc)
    (acc_leafAdd (h _)).bind fun _ _ => acc_leafAdd (h _)
  disj := fun a _ b _ hab => by
    rw [Set.disjoint_left]
    rintro l ⟨k, h⟩ ⟨k', h'⟩
    exact body_disj (fun e => hab (by injection e)) h h'
  frozen := fun b _ => by
    rw [Set.disjoint_left]
    rintro l (⟨k, b', rfl⟩ | h) ⟨k', h'⟩
    · exact head_body h'
    · rcases h with ⟨k, rfl⟩ | ⟨k, b', rfl⟩ <;> rcases h' with h' | ⟨_, _, h'⟩ <;> cases h'

theorem leafAdd_exec {m : FMem} {b c j : ℕ} {k : Ker} (hb : b ∈ m (.elemKeys k)) :
    getExp ((tLeafAdd inp vals b c j k).exec m).2 (.mul k b) = mAddScaled (getExp m (.mul k b))
      ((m (.elem k b) : ℕ → ℕ → Exp) c j) (vals k ((inp.cellDofs c).getD j 0)) ∧
    ∀ l, l ∉ body (.mul k b) → ((tLeafAdd inp vals b c j k).exec m).2 l = m l := by
  unfold tLeafAdd
  rw [exec_bind]
  have : (lookupElem k b).exec m = (m (.elem k b), m) := by
    unfold lookupElem
    rw [get_bind, exec_read, if_pos hb, exec_get]
  rw [this]
  exact addScaledTo_exec _ _ _ _

theorem tLeaf_exec {m : FMem} {b : ℕ} {E : Ker → NMoments} (hE : ∀ k, elemOf m k = E k)
    (hb : blockCells inp T b ≠ [] → ∀ k, b ∈ m (.elemKeys k)) :
    (∀ l, l ∉ leafW b → ((tLeaf inp T vals b).exec m).2 l = m l) ∧
    ∀ k, getExp ((tLeaf inp T vals b).exec m).2 (.mul k b) =
      (blockCells inp T b).foldl (fun e c => nLeafCell inp { D with sol := vals k } T (E k) b c e) (getExp m (.mul k b)) := by
  set Inv : FMem → Prop := fun s => ∀ l, l ∉ leafW b → s l = m l with hInv
  have nb : ∀ l, l ∉ leafW b → ∀ k, l ∉ body (.mul k b) := fun l hl k h => hl ⟨k, h⟩
  have key : Inv ((tLeaf inp T vals b).exec m).2 ∧ (fun k => getExp ((tLeaf inp T vals b).exec m).2 (.mul k b)) =
      (blockCells inp T b).foldl (fun (s : Ker → Exp) c k => nLeafCell inp { D with sol := vals k } T (E k) b c (s k))
        fun k => getExp m (.mul k b) := by
    unfold tLeaf
    rw [exec_forM]
    refine foldl_proj (fun s k => getExp s (.mul k b)) _ _ Inv _ (fun c hc s hs => ?_) m fun _ _ => rfl
    have hne := List.ne_nil_of_mem hc
    rw [exec_forM]
    have inner := foldl_proj (fun (s : FMem) (k : Ker) => getExp s (.mul k b)) (fun m a =>
        ((tLeafAdd inp vals b c a .single >>= fun _ => tLeafAdd inp vals b c a .double).exec m).2)
      (fun (s : Ker → Exp) j k => mAddScaled (s k) (((E k b).getD fun _ _ => Exp.new D.p (ctr T b)) c j)
        (vals k ((inp.cellDofs c).getD j 0))) Inv (List.range (inp.cellDofs c).length) (fun j _ s hs => ?_) s hs
    · refine ⟨inner.1, inner.2.trans ?_⟩
      rw [foldl_fam (fun k e j => mAddScaled e (((E k b).getD fun _ _ => Exp.new D.p (ctr T b)) c j)
        (vals k ((inp.cellDofs c).getD j 0)))]
      rfl
    · have hkey : ∀ (s : FMem), Inv s → ∀ k, b ∈ s (.elemKeys k) ∧ (E k b) = some (s (.elem k b)) := by
        intro s hs k
        have e1 := hs (.elemKeys k) (by rintro ⟨k', h | ⟨_, _, h⟩⟩ <;> cases h)
        have e2 := hs (.elem k b) (by rintro ⟨k', h | ⟨_, _, h⟩⟩ <;> cases h)
        refine ⟨by rw [e1]; exact hb hne k, ?_⟩
        rw [e2, ← hE k]; exact if_pos (hb hne k)
      rw [exec_bind]
      obtain ⟨a1, a2⟩ := leafAdd_exec (inp := inp) (vals := vals) (c := c) (j := j) (hkey s hs .single).1
      set s1 := ((tLeafAdd inp vals b c j .single).exec s).2 with hs1
      have hs1' : Inv s1 := fun l hl => (a2 l (nb l hl _)).trans (hs l hl)
      obtain ⟨b1, b2⟩ := leafAdd_exec (inp := inp) (vals := vals) (c := c) (j := j) (hkey s1 hs1' .double).1
      set s2 := ((tLeafAdd inp vals b c j .double).exec s1).2 with hs2
      refine ⟨fun l hl => (b2 l (nb l hl _)).trans (hs1' l hl), ?_⟩
      funext k
      have hds : EObj.mul .double b ≠ .mul .single b := by simp
      cases k
      · have : getExp s2 (.mul .single b) = getExp s1 (.mul .single b) :=
          getExp_congr (b2 _ head_body) fun l hl => b2 l (body_disj hds.symm hl)
        rw [(hkey s hs .single).2]
        exact this.trans a1
      · have : getExp s1 (.mul .double b) = getExp s (.mul .double b) :=
          getExp_congr (a2 _ head_body) fun l hl => a2 l (body_disj hds hl)
        rw [(hkey s1 hs1' .double).2]
        exact b1.trans (by rw [this]; rfl)
  refine ⟨key.1, fun k => ?_⟩
  have := congrFun key.2 k
  rw [foldl_fam (fun k e c => nLeafCell inp { D with sol := vals k } T (E k) b c e)] at this
  exact this

theorem nLeafMult_eq {D : Data} {E : NMoments} (b : ℕ) (mult : ℕ → Exp) : nLeafMult inp D T E b mult =
    Function.update mult b ((blockCells inp T b).foldl (fun e c => nLeafCell inp D T E b c e) (mult b)) := by
  unfold nLeafMult
  generalize blockCells inp T b = l
  induction l generalizing mult with
  | nil => simp
  | cons c t ih => rw [List.foldl_cons, ih]; simp

theorem leaves_step (t : Tree inp T) {m m' : FMem} (hk : Keys inp T m)
    (hr : (Phase.par (tLeaf inp T vals) T.childless).Run m m') :
    (∀ k, expOf D T (.mul k) m' = T.childless.foldl (fun s b => nLeafMult inp { D with sol := vals k } T (elemOf m k) b s)
      (expOf D T (.mul k) m)) ∧
    ∀ l, (∀ k b, l ∉ body (.mul k b)) → m' l = m l := by
  obtain ⟨chunks, hc, hr⟩ := hr
  rw [(items_leaf t hk).result hc hr]
  set Inv : FMem → Prop := fun s => ∀ l, (∀ k b, l ∉ body (.mul k b)) → s l = m l with hInv
  have key := foldl_proj (fun (s : FMem) k => expOf D T (.mul k) s) (fun m a => (Prog.exec (tLeaf inp T vals a) m).2)
    (fun (s : Ker → ℕ → Exp) b k => nLeafMult inp { D with sol := vals k } T (elemOf m k) b (s k)) Inv T.childless
    (fun b hb s hs => ?_) m fun _ _ => rfl
  · refine ⟨fun k => ?_, key.1⟩
    have := congrFun key.2 k
    rw [foldl_fam (fun k (s : ℕ → Exp) b => nLeafMult inp { D with sol := vals k } T (elemOf m k) b s)] at this
    exact this
  · have hkeys : ∀ k, s (.elemKeys k) = m (.elemKeys k) := fun k => hs _ (by rintro _ _ (h | ⟨_, _, h⟩) <;> cases h)
    have hE : ∀ k, elemOf s k = elemOf m k := by
      intro k
      funext b
      unfold elemOf
      rw [hkeys, hs (.elem k b) (by rintro _ _ (h | ⟨_, _, h⟩) <;> cases h)]
    obtain ⟨h1, h2⟩ := tLeaf_exec (D := D) (vals := vals) hE (b := b) (T := T) (inp := inp)
      (fun hne k => by rw [hkeys]; exact hk k b hb hne)
    have hlt := ((t.chl b).1 hb).1
    refine ⟨fun l hl => (h1 l fun ⟨k, h⟩ => hl k b h).trans (hs l hl), ?_⟩
    funext k
    rw [nLeafMult_eq]
    dsimp only
    rw [expOf_lt hlt]
    refine expOf_update hlt (h2 k) fun b' hb' l hl => h1 l ?_
    rintro ⟨k', h⟩
    rcases hl with rfl | hl
    · exact head_body h
    · exact body_disj (fun e => hb' (by injection e)) hl h

/-! ## Levels -/

/-- Locations read while the expansions of level `l` are added to those of level `l-1`. -/
def upR (T : St 3) (l : ℕ) : Set Loc :=
  {x | (∃ k b, x = .head (.mul k b)) ∨ ∃ k b, (T.blocks b).level = l ∧ x ∈ body (.mul k b)}

/-- Locations written. -/
def upW (T : St 3) (l : ℕ) : Set Loc := {x | ∃ k b, (T.blocks b).level + 1 = l ∧ x ∈ body (.mul k b)}

/-- The parent is a block of the upper level. -/
def AGood (T : St 3) (l : ℕ) (buf : TABuf) : Prop := buf.parentId < T.count ∧ (T.blocks buf.parentId).level + 1 = l

theorem workerAscend_exec (b : ℕ) (buf : TABuf) (m : FMem) (hb : b < T.count) (hp : (T.blocks b).parent < T.count) (k : Ker)
    (x : NABuf) : let r := (tWorkerAscend D T b buf).exec m
    (⟨r.1.parentId, r.1.expn k⟩ : NABuf) = nWorkerAscend D T b (expOf D T (.mul k) m) x := by
  unfold tWorkerAscend nWorkerAscend
  simp only [get_bind, exec_read, exec_bind, readExp_exec, pure_eq, exec_ret]
  rw [expOf_lt hb, expOf_lt hp]
  cases k
  · simp only [view_mAddChild]; rfl
  · simp only [view_mAddChild]; rfl

theorem copierAscend_exec (buf : TABuf) (m : FMem) (hp : buf.parentId < T.count) (k : Ker) :
    expOf D T (.mul k) ((tCopierAscend buf).exec m).2 =
      nCopierAscend ⟨buf.parentId, buf.expn k⟩ (expOf D T (.mul k) m) := by
  unfold tCopierAscend nCopierAscend
  rw [exec_bind]
  simp only
  rw [expOf_lt hp]
  obtain ⟨h1, h2⟩ := addChildTo_exec (.mul .double buf.parentId) (buf.expn .double) m
  set m1 := ((addChildTo (.mul .double buf.parentId) (buf.expn .double)).exec m).2
  obtain ⟨h3, h4⟩ := addChildTo_exec (.mul .single buf.parentId) (buf.expn .single) m1
  cases k
  · rw [expOf_body (mul_inj .single) hp h3 h4, expOf_other (by simp) h2]
    have : getExp m1 (.mul .single buf.parentId) = getExp m (.mul .single buf.parentId) :=
      getExp_congr (h2 _ head_body) fun l hl => h2 l (body_disj (by simp) hl)
    rw [this]
  · rw [expOf_other (by simp) h4, expOf_body (mul_inj .double) hp h1 h2]

theorem acc_readExp' {m : FMem} {S R W : Set Loc} {o : EObj} (h : whole o ⊆ R) : (readExp o).Acc m S R W fun _ => True :=
  acc_readExp (h (.inl rfl)) (h (.inr (.inl rfl))) fun n k => h (.inr (.inr ⟨n, k, rfl⟩))

theorem streams_up (t : Tree inp T) {l : ℕ} (hl : 1 ≤ l) (hl' : l ≤ inp.levels) (m : FMem) :
    Streams (tWorkerAscend D T) tCopierAscend unsync (upR T l) (upW T l) (AGood T l) (T.levelIds l) m where
  work := fun b hb buf => by
    rw [t.mem_levelIds hl'] at hb
    obtain ⟨p1, p2, _⟩ := t.parent_level hb.1 (by omega)
    have hw : ∀ k, whole (.mul k b) ⊆ upR T l := by
      rintro k x (rfl | h)
      · exact .inl ⟨k, b, rfl⟩
      · exact .inr ⟨k, b, hb.2, h⟩
    unfold tWorkerAscend
    refine (acc_getR (R := upR T l) (.inl ⟨_, _, rfl⟩)).bind fun _ _ => (acc_getR (R := upR T l) (.inl ⟨_, _, rfl⟩)).bind
      fun _ _ => (acc_readExp' (hw _)).bind fun _ _ => (acc_readExp' (hw _)).bind fun _ _ => .ret ⟨p1, ?_⟩
    rw [p2, hb.2]
  copy := fun buf hb => by
    have h : ∀ k e, (addChildTo (.mul k buf.parentId) e).Acc m unsync (upR T l) (upW T l) fun _ => True := by
      intro k e
      have h1 : Loc.head (.mul k buf.parentId) ∈ upR T l := .inl ⟨k, _, rfl⟩
      have h2 : Loc.zero (.mul k buf.parentId) ∈ upW T l := ⟨k, _, hb.2, .inl rfl⟩
      have h3 : ∀ n i, Loc.coeff (.mul k buf.parentId) n i ∈ upW T l := fun n i => ⟨k, _, hb.2, .inr ⟨n, i, rfl⟩⟩
      exact acc_addChildTo (.inl h1) h2 h3 e
    exact (h _ _).bind fun _ _ => h _ _
  frozen := by
    rw [Set.disjoint_left]
    rintro x (⟨k, b, rfl⟩ | ⟨k, b, hb, hx⟩) ⟨k', b', hb', hx'⟩
    · exact head_body hx'
    · refine body_disj (fun e => ?_) hx hx'
      injection e with _ e
      subst e; omega

theorem up_step (t : Tree inp T) {l : ℕ} (hl : 1 ≤ l) (hl' : l ≤ inp.levels) {m m' : FMem}
    (hr : (Phase.stream (tWorkerAscend D T) tCopierAscend ⟨0, fun _ => Exp.new D.p 0⟩ (T.levelIds l)).Run m m') :
    (∀ x, (∀ k b, x ∉ body (.mul k b)) → m' x = m x) ∧ ∀ k, Exec (nWorkerAscend D T) nCopierAscend ⟨0, Exp.new D.p 0⟩
      (T.levelIds l) (expOf D T (.mul k) m) (expOf D T (.mul k) m') :=
  ⟨fun x hx => CRun.frame (streams_up t hl hl' m) hr x fun ⟨k, b, _, h⟩ => hx k b h, fun k =>
    (streams_up t hl hl' m).map (fun m => expOf D T (.mul k) m) (fun buf => (⟨buf.parentId, buf.expn k⟩ : NABuf))
      (fun i hi s b _ => by
        rw [t.mem_levelIds hl'] at hi
        exact workerAscend_exec i b s hi.1 (t.parent_level hi.1 (by omega)).1 k _)
      (fun b s _ hb => copierAscend_exec b s hb.1 k) hr⟩

/-- What the ascending phase does not change. -/
def UpFrame (m m' : FMem) : Prop := ∀ l, (∀ k b, l ∉ whole (.mul k b)) → m' l = m l

theorem ascend_ok (t : Tree inp T) {m : FMem} (hk : Keys inp T m) :
    Phase.AllOk unsync (ascendPhases inp D T vals) m fun m' => UpFrame m m' ∧
      ∀ k, NAscendExec inp { D with sol := vals k } T (elemOf m k) (expOf D T (.mul k) m') := by
  unfold ascendPhases
  refine Phase.AllOk.append (Q := fun m' => UpFrame m m' ∧ ∀ k, expOf D T (.mul k) m' = T.childless.foldl (fun s b =>
    nLeafMult inp { D with sol := vals k } T (elemOf m k) b s) fun b => Exp.new D.p (ctr T b)) ?_ ?_
  · refine .cons (Phase.ok_par (items_create m)) fun m1 h1 => ?_
    obtain ⟨n1, f1⟩ := create_step h1
    have hkeys : ∀ k, m1 (.elemKeys k) = m (.elemKeys k) := fun k =>
      f1 _ (by rintro _ _ (h | h | ⟨_, _, h⟩) <;> cases h)
    have hE : ∀ k, elemOf m1 k = elemOf m k := by
      intro k
      funext b
      unfold elemOf
      rw [hkeys, f1 (.elem k b) (by rintro _ _ (h | h | ⟨_, _, h⟩) <;> cases h)]
    have hk1 : Keys inp T m1 := fun k b hb hc => by rw [hkeys]; exact hk k b hb hc
    refine .cons (Phase.ok_par (items_leaf t hk1)) fun m2 h2 => .nil ?_
    obtain ⟨n2, f2⟩ := leaves_step (D := D) t hk1 h2
    refine ⟨fun l hl => (f2 l fun k b h => hl k b (.inr h)).trans (f1 l hl), fun k => ?_⟩
    rw [n2, n1, hE]
  · rintro m1 ⟨f1, n1⟩
    refine (allOk_levels (fun (s : Ker → ℕ → Exp) m' => UpFrame m m' ∧ ∀ k, s k = expOf D T (.mul k) m')
      (fun l s s' => ∀ k, Exec (nWorkerAscend D T) nCopierAscend ⟨0, Exp.new D.p 0⟩ (T.levelIds l) (s k) (s' k)) _
      (List.range' 1 inp.levels).reverse ?_ (s := fun k => expOf D T (.mul k) m1) ⟨f1, fun _ => rfl⟩).mono ?_
    · rintro l hl s m2 ⟨f2, hs⟩
      rw [List.mem_reverse, List.mem_range'_1] at hl
      refine ⟨Phase.ok_stream (streams_up t hl.1 (by omega) m2), fun m3 h3 => ?_⟩
      obtain ⟨f3, e⟩ := up_step t hl.1 (by omega) h3
      exact ⟨fun k => expOf D T (.mul k) m3, fun k => by rw [hs k]; exact e k,
        fun x hx => (f3 x fun k b h => hx k b (.inr h)).trans (f2 x hx), fun _ => rfl⟩
    · rintro m2 ⟨s, hL, f2, hs⟩
      refine ⟨f2, fun k => ⟨T.childless, List.Perm.refl _, ?_⟩⟩
      have := levels_all (R := fun _ l s s' => Exec (nWorkerAscend D T) nCopierAscend ⟨0, Exp.new D.p 0⟩ (T.levelIds l) s s')
        hL k
      rw [hs k, n1 k] at this
      exact this

end PiBem.Fmm
