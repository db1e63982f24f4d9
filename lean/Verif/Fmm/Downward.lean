import Verif.Fmm.Upward

/-! Facts on the descending phase and on the whole product (helper lemmas). -/

namespace PiBem.Fmm

open PiBem.Octree PiBem.WorkStream

variable {d : ℕ} {inp : Input d} {T : St d}

/-- conversions of block `k` -/
def m2lAll (inp : Input d) (T : St d) (mult : ℕ → Multiset (ℕ × ℕ)) (k : ℕ) : Multiset (ℕ × ℕ) :=
  ∑ sub ∈ Finset.range (numSub inp T k), gather mult (m2lSet inp T k sub)

def m2pAll (inp : Input d) (T : St d) (mult : ℕ → Multiset (ℕ × ℕ)) (k : ℕ) : Multiset (ℕ × ℕ) :=
  ∑ sub ∈ Finset.range (numSub inp T k), gather mult (m2pSet inp T k sub)

def onP (T : St d) (own : ℕ → Bool) (k : ℕ) : Bool := (T.blocks k).nodes.any own

def expnOf (inp : Input d) (T : St d) (own : ℕ → Bool) (mult L : ℕ → Multiset (ℕ × ℕ)) (k : ℕ) :
    Multiset (ℕ × ℕ) :=
  if onP T own k then L (T.blocks k).parent + m2lAll inp T mult k else 0

/-- contributions to the nodes of block `k` -/
def prodOf (inp : Input d) (T : St d) (own : ℕ → Bool) (mult : ℕ → Multiset (ℕ × ℕ)) (k : ℕ) :
    ℕ → Multiset (ℕ × ℕ) := fun i =>
  if i ∈ (T.blocks k).nodes ∧ onP T own k = true then m2pAll inp T mult k else 0

theorem copierDescend_eq {own : ℕ → Bool} {mult : ℕ → Multiset (ℕ × ℕ)} {k : ℕ} {s : DSt}
    (hn : (T.blocks k).nodes.Nodup) (buf : DescBuf) :
    copierDescend (workerDescend inp T own mult k s buf) = fun s' =>
      ⟨s'.loc + at1 k (expnOf inp T own mult s.loc k), s'.prod + prodOf inp T own mult k⟩ := by
  funext s'
  unfold copierDescend workerDescend
  simp only [DSt.mk.injEq]
  constructor
  · rw [update_add]
    unfold expnOf onP m2lAll
    split_ifs <;> simp
  · rw [List.zip_map_right, List.foldl_map]
    have e : ∀ (v : Multiset (ℕ × ℕ)) (l : List ℕ) (p : ℕ → Multiset (ℕ × ℕ)),
        (l.zip l).foldl (fun x y => Function.update x (Prod.map id (fun _ => v) y).1
          (x (Prod.map id (fun _ => v) y).1 + (Prod.map id (fun _ => v) y).2)) p =
        p + (l.map fun j => at1 j v).sum := by
      intro v l
      induction l with
      | nil => intro p; simp
      | cons a l ih =>
        intro p
        simp only [List.zip_cons_cons, List.foldl_cons, List.map_cons, List.sum_cons]
        rw [ih]
        simp only [Prod.map_apply, id_eq]
        rw [update_add, add_assoc]
    rw [e]
    congr 1
    funext i
    rw [sum_at1 _ hn (fun _ => _)]
    unfold prodOf onP m2pAll
    by_cases h1 : i ∈ (T.blocks k).nodes <;> by_cases h2 : (T.blocks k).nodes.any own = true <;>
      simp [h1, h2]

/-- one level of the descending phase -/
theorem descend_level (t : Tree inp T) {own : ℕ → Bool} {mult : ℕ → Multiset (ℕ × ℕ)} {l : ℕ}
    (hl : 1 ≤ l) {s s' : DSt}
    (h : Exec (workerDescend inp T own mult) copierDescend ⟨0, 0, [], []⟩ (T.dofsFilled l) s s') :
    s'.loc = s.loc + ((T.dofsFilled l).map fun k => at1 k (expnOf inp T own mult s.loc k)).sum ∧
    s'.prod = s.prod + ((T.dofsFilled l).map (prodOf inp T own mult)).sum := by
  classical
  have hmem := fun b => t.dfil l b
  have hpar : ∀ b ∈ T.dofsFilled l, ∀ b' ∈ T.dofsFilled l, (T.blocks b).parent ≠ b' := by
    intro b hb b' hb' he
    rw [hmem] at hb hb'
    have := t.parent_level hb.2.1 (by omega)
    rw [he] at this; omega
  have hex : ∀ (b : ℕ) (L L' : ℕ → Multiset (ℕ × ℕ)),
      L (T.blocks b).parent = L' (T.blocks b).parent →
      expnOf inp T own mult L b = expnOf inp T own mult L' b := by
    intro b L L' h; unfold expnOf; rw [h]
  have := exec_eq (eff := fun k s' => (⟨s'.loc + at1 k (expnOf inp T own mult s.loc k),
      s'.prod + prodOf inp T own mult k⟩ : DSt))
    (P := fun s' => ∀ b ∈ T.dofsFilled l, s'.loc (T.blocks b).parent = s.loc (T.blocks b).parent)
    (l := T.dofsFilled l)
    (by
      intro b hb s' buf hs
      rw [copierDescend_eq (t.links.nodup ((hmem b).1 hb).2.1).1]
      rw [hex b _ _ (hs b hb)])
    (by
      intro b hb s' hs b' hb'
      simp only [Pi.add_apply]
      rw [hs b' hb', at1, if_neg (hpar b' hb' b hb), add_zero])
    (by
      intro i j s
      simp only [DSt.mk.injEq]
      exact ⟨add_right_comm _ _ _, add_right_comm _ _ _⟩)
    h (fun _ _ => rfl)
  rw [this]
  clear this h hpar hmem
  generalize hs : s.loc = L
  have : ∀ (ks : List ℕ) (s0 : DSt),
      (ks.foldl (fun s' k => (⟨s'.loc + at1 k (expnOf inp T own mult L k),
        s'.prod + prodOf inp T own mult k⟩ : DSt)) s0).loc =
        s0.loc + (ks.map fun k => at1 k (expnOf inp T own mult L k)).sum ∧
      (ks.foldl (fun s' k => (⟨s'.loc + at1 k (expnOf inp T own mult L k),
        s'.prod + prodOf inp T own mult k⟩ : DSt)) s0).prod =
        s0.prod + (ks.map (prodOf inp T own mult)).sum := by
    intro ks
    induction ks with
    | nil => intro s0; simp
    | cons k ks ih =>
      intro s0
      simp only [List.foldl_cons, List.map_cons, List.sum_cons]
      rw [(ih _).1, (ih _).2]
      exact ⟨add_assoc _ _ _, add_assoc _ _ _⟩
  have h2 := this (T.dofsFilled l) s
  rw [hs] at h2
  exact h2

theorem descendExec_eq (t : Tree inp T) {own : ℕ → Bool} {mult : ℕ → Multiset (ℕ × ℕ)} {s' : DSt}
    (h : DescendExec inp T own mult s') :
    (∀ l k, 1 ≤ l → l ≤ inp.levels → k ∈ T.dofsFilled l → onP T own k = true →
      s'.loc k = s'.loc (T.blocks k).parent + m2lAll inp T mult k) ∧
    s'.loc 0 = 0 ∧
    s'.prod = ((List.range' 1 inp.levels).map
      fun l => ((T.dofsFilled l).map (prodOf inp T own mult)).sum).sum := by
  have key : ∀ n m, 1 ≤ m → ∀ (s s' : DSt),
      Levels (fun l => Exec (workerDescend inp T own mult) copierDescend ⟨0, 0, [], []⟩
        (T.dofsFilled l)) (List.range' m n) s s' →
      (∀ k, k < T.count → m ≤ (T.blocks k).level → s.loc k = 0) →
      (∀ k, k < T.count → (T.blocks k).level < m → s'.loc k = s.loc k) ∧
      (∀ l k, m ≤ l → l < m + n → k ∈ T.dofsFilled l → onP T own k = true →
        s'.loc k = s'.loc (T.blocks k).parent + m2lAll inp T mult k) ∧
      s'.prod = s.prod + ((List.range' m n).map
        fun l => ((T.dofsFilled l).map (prodOf inp T own mult)).sum).sum := by
    intro n
    induction n with
    | zero =>
      intro m _ s s' hlv _
      simp only [List.range'_zero] at hlv
      cases hlv
      refine ⟨fun _ _ _ => rfl, fun l k h1 h2 => by omega, by simp⟩
    | succ n ih =>
      intro m hm s s' hlv hz
      rw [List.range'_succ] at hlv ⊢
      cases hlv with
      | @cons _ _ _ s1 _ hx hlv =>
      obtain ⟨e1, e2⟩ := descend_level t hm hx
      have hoff : ∀ k, k < T.count → (T.blocks k).level ≠ m → s1.loc k = s.loc k := by
        intro k hk hne
        rw [e1, Pi.add_apply, sum_at1 _ (t.dfilnd m), if_neg, add_zero]
        rw [t.dfil]; omega
      obtain ⟨i1, i2, i3⟩ := ih (m + 1) (by omega) s1 s' hlv
        (fun k hk hle => by rw [hoff k hk (by omega)]; exact hz k hk (by omega))
      refine ⟨?_, ?_, ?_⟩
      · intro k hk hlt
        rw [i1 k hk (by omega), hoff k hk (by omega)]
      · intro l k h1 h2 hk ho
        rcases Nat.lt_or_ge m l with h3 | h3
        · exact i2 l k h3 (by omega) hk ho
        · have hlm : l = m := by omega
          subst hlm
          have hk' := (t.dfil l k).1 hk
          have hp := t.parent_level hk'.2.1 (by omega)
          rw [i1 k hk'.2.1 (by omega), i1 _ hp.1 (by omega), hoff _ hp.1 (by omega), e1,
            Pi.add_apply, sum_at1 _ (t.dfilnd l), if_pos hk, hz k hk'.2.1 (by omega), zero_add]
          unfold expnOf
          rw [if_pos ho]
      · rw [i3, e2, List.map_cons, List.sum_cons, add_assoc]
  obtain ⟨k1, k2, k3⟩ := key inp.levels 1 (le_refl _) _ s' h (fun _ _ _ => rfl)
  refine ⟨fun l k h1 h2 => k2 l k h1 (by omega), ?_, ?_⟩
  · rw [k1 0 t.links.pos (by rw [t.links.root_level]; omega)]
  · rw [k3]
    have : (fun _ => 0 : ℕ → Multiset (ℕ × ℕ)) = 0 := rfl
    rw [this, zero_add]

theorem descendExec_exists (inp : Input d) (T : St d) (own : ℕ → Bool)
    (mult : ℕ → Multiset (ℕ × ℕ)) : ∃ s, DescendExec inp T own mult s :=
  levels_exists (R := fun l => Exec (workerDescend inp T own mult) copierDescend
    ⟨0, 0, [], []⟩ (T.dofsFilled l)) (fun _ _ => ⟨_, exec_seq _ _⟩) _ _

theorem fmmExec_exists (inp : Input d) (T : St d) (own : ℕ → Bool) : ∃ out, FmmExec inp T own out := by
  obtain ⟨M, hM⟩ := directExec_exists inp T own
  obtain ⟨E, hE⟩ := momentsExec_exists inp T
  obtain ⟨m, hm⟩ := ascendExec_exists inp T E
  obtain ⟨s, hs⟩ := descendExec_exists inp T own m
  exact ⟨_, M, E, m, s, T.childless, hM, hE, hm, hs, List.Perm.refl _, rfl⟩

theorem evalLeaf_eq (own : ℕ → Bool) (loc : ℕ → Multiset (ℕ × ℕ)) {b : ℕ}
    (hn : (T.blocks b).nodes.Nodup) (p : ℕ → Multiset (ℕ × ℕ)) :
    evalLeaf T own loc b p = p + fun i =>
      if i ∈ (T.blocks b).nodes ∧ own i = true then loc b else 0 := by
  unfold evalLeaf
  have : ∀ (l : List ℕ) p, l.foldl (fun p i =>
      if own i then Function.update p i (p i + loc b) else p) p =
      p + (l.map fun j => at1 j (if own j then loc b else 0)).sum := by
    intro l
    induction l with
    | nil => intro p; simp
    | cons a l ih =>
      intro p
      simp only [List.foldl_cons, List.map_cons, List.sum_cons]
      rw [ih]
      split_ifs
      · rw [update_add, add_assoc]
      · have : at1 a (0 : Multiset (ℕ × ℕ)) = 0 := by funext j; simp [at1]
        rw [this, zero_add]
  rw [this]
  congr 1
  funext i
  rw [sum_at1 _ hn (fun j => if own j then loc b else 0)]
  by_cases h1 : i ∈ (T.blocks b).nodes <;> by_cases h2 : own i = true <;> simp [h1, h2]

/-! ### sums over the ancestors of a node -/

theorem list_sum_apply {A : Type} [AddCommMonoid A] (l : List (ℕ → A)) (i : ℕ) :
    l.sum i = (l.map fun f => f i).sum := by
  induction l with
  | nil => rfl
  | cons a t ih => simp [ih]

theorem sum_single {A : Type} [AddCommMonoid A] {l : List ℕ} (hn : l.Nodup) {k : ℕ} (hk : k ∈ l)
    {g : ℕ → A} (h : ∀ j ∈ l, j ≠ k → g j = 0) : (l.map g).sum = g k := by
  induction l with
  | nil => simp at hk
  | cons a t ih =>
    rw [List.nodup_cons] at hn
    rw [List.map_cons, List.sum_cons]
    rcases List.mem_cons.1 hk with rfl | hk
    · have : (t.map g).sum = 0 := by
        apply List.sum_eq_zero
        intro x hx
        rw [List.mem_map] at hx
        obtain ⟨j, hj, rfl⟩ := hx
        exact h j (by simp [hj]) (fun e => hn.1 (e ▸ hj))
      rw [this, add_zero]
    · rw [h a (by simp) (fun e => hn.1 (e ▸ hk)), zero_add]
      exact ih hn.2 hk (fun j hj hne => h j (by simp [hj]) hne)

/-- the node belongs to a block of the level -/
def ancSum {A : Type} [AddCommMonoid A] (T : St d) (i : ℕ) (g : ℕ → A) (l : ℕ) : A :=
  ((T.dofsFilled l).map fun k => if i ∈ (T.blocks k).nodes then g k else 0).sum

theorem mem_dofsFilled (t : Tree inp T) (hs : ∀ i, i < inp.nDofs → i ∈ inp.doubles i) {k : ℕ}
    (h0 : 0 < k) (hk : k < T.count) {i : ℕ} (hi : i ∈ (T.blocks k).nodes) :
    k ∈ T.dofsFilled (T.blocks k).level := by
  rw [t.dfil]
  refine ⟨h0, hk, rfl, ?_⟩
  have hlt : i < inp.nDofs := by
    have := mem_root_of_mem t.links hk (x := .inl i) hi
    simpa [rootBlock, Block.Mem] using this
  unfold blockNumNodes
  have hpos : (0 : ℚ) < 1 / ((inp.doubles i).card : ℚ) := by
    have : 0 < (inp.doubles i).card := Finset.card_pos.2 ⟨i, hs i hlt⟩
    positivity
  refine lt_of_lt_of_le hpos ?_
  refine List.single_le_sum ?_ _ (List.mem_map.2 ⟨i, hi, rfl⟩)
  intro x hx
  rw [List.mem_map] at hx
  obtain ⟨j, _, rfl⟩ := hx
  positivity

theorem ancSum_level {A : Type} [AddCommMonoid A] (t : Tree inp T)
    (hs : ∀ i, i < inp.nDofs → i ∈ inp.doubles i) {k : ℕ}
    (h0 : 0 < k) (hk : k < T.count) {i : ℕ} (hi : i ∈ (T.blocks k).nodes) (g : ℕ → A) :
    ancSum T i g (T.blocks k).level = g k := by
  unfold ancSum
  rw [sum_single (t.dfilnd _) (mem_dofsFilled t hs h0 hk hi), if_pos hi]
  intro j hj hne
  rw [if_neg]
  intro hij
  have hj' := (t.dfil _ j).1 hj
  exact hne (t.links.same_level_unique hj'.2.1 hk hj'.2.2.1 (x := .inl i) hij hi)

theorem ancSum_deep {A : Type} [AddCommMonoid A] (t : Tree inp T) {b : ℕ} (hb : b ∈ T.childless)
    {i : ℕ} (hi : i ∈ (T.blocks b).nodes) (g : ℕ → A) {l : ℕ} (hl : (T.blocks b).level < l) :
    ancSum T i g l = 0 := by
  unfold ancSum
  apply List.sum_eq_zero
  intro x hx
  rw [List.mem_map] at hx
  obtain ⟨j, hj, rfl⟩ := hx
  rw [if_neg]
  intro hij
  have hj' := (t.dfil _ j).1 hj
  obtain ⟨c, hc, _⟩ := t.links.desc_child ((t.chl b).1 hb).1 hj'.2.1 (by omega) (x := .inl i) hi hij
  rw [(t.childless_children hb).2] at hc
  simp at hc

theorem sum_anc_leaf {A : Type} [AddCommMonoid A] (t : Tree inp T) {b : ℕ} (hb : b ∈ T.childless)
    {i : ℕ} (hi : i ∈ (T.blocks b).nodes) (g : ℕ → A) :
    ((List.range' 1 inp.levels).map (ancSum T i g)).sum =
      ((List.range' 1 (T.blocks b).level).map (ancSum T i g)).sum := by
  have hle := t.lev_le b ((t.chl b).1 hb).1
  have : List.range' 1 inp.levels = List.range' 1 (T.blocks b).level ++
      List.range' (1 + (T.blocks b).level) (inp.levels - (T.blocks b).level) := by
    rw [List.range'_append_1]; congr 1; omega
  rw [this, List.map_append, List.sum_append]
  have h0 : ((List.range' (1 + (T.blocks b).level) (inp.levels - (T.blocks b).level)).map
      (ancSum T i g)).sum = 0 := by
    apply List.sum_eq_zero
    intro x hx
    rw [List.mem_map] at hx
    obtain ⟨l, hl, rfl⟩ := hx
    rw [List.mem_range'_1] at hl
    exact ancSum_deep t hb hi g (by omega)
  rw [h0, add_zero]

end PiBem.Fmm
