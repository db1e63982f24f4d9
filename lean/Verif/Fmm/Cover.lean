import Verif.Fmm.Downward

/-! Every source reaches every node once (helper lemmas). -/

namespace PiBem.Fmm

open PiBem.Octree PiBem.WorkStream

variable {d : ℕ} {inp : Input d} {T : St d}

theorem levelOf_eq (t : Tree inp T) {k : ℕ} (hk : k < T.count) :
    levelOf inp T k = (T.blocks k).level := by
  unfold levelOf
  have hle := t.lev_le k hk
  have hiff : ∀ l, l ≤ inp.levels → ((decide (T.startLevel l ≤ k) && decide (k ≤ T.endLevel l)) = true ↔
      l = (T.blocks k).level) := by
    intro l hl
    rw [Bool.and_eq_true, decide_eq_true_eq, decide_eq_true_eq, ← t.rng l hl]
    constructor
    · rintro ⟨_, h⟩; exact h.symm
    · intro h; exact ⟨hk, h.symm⟩
  have : (List.range (inp.levels + 1)).find? (fun l =>
      decide (T.startLevel l ≤ k) && decide (k ≤ T.endLevel l)) = some (T.blocks k).level := by
    rw [List.find?_eq_some_iff_append]
    refine ⟨(hiff _ hle).2 rfl, List.range (T.blocks k).level,
      List.range' ((T.blocks k).level + 1) (inp.levels - (T.blocks k).level), ?_, ?_⟩
    · rw [List.range_eq_range', List.range_eq_range', ← List.range'_succ]
      have := List.range'_append_1 (s := 0) (m := (T.blocks k).level)
        (n := inp.levels - (T.blocks k).level + 1)
      rw [Nat.zero_add] at this
      rw [this]; congr 1; omega
    · intro l hl
      rw [List.mem_range] at hl
      have := hiff l (by omega)
      simp only [Bool.not_eq_true']
      by_contra hc
      have := this.1 (by simpa using hc)
      omega
  rw [this]; rfl

/-- blocks of the non interaction lists treated directly, at one sublevel -/
def bigSub (inp : Input d) (T : St d) (k s : ℕ) : Finset ℕ :=
  (nonIntList inp T k s).filter (· < T.startLevel (T.blocks k).level)

theorem srcs_filter_split (t : Tree inp T) {k : ℕ} (hk : k < T.count) (s : ℕ) :
    Tree.srcs T (nonIntList inp T k s) = Tree.srcs T (bigSub inp T k s) +
      Tree.srcs T (m2lSet inp T k s) + Tree.srcs T (m2pSet inp T k s) := by
  unfold bigSub m2lSet m2pSet
  rw [levelOf_eq t hk]
  have hle := t.lev_le k hk
  have hse : T.startLevel (T.blocks k).level ≤ T.endLevel (T.blocks k).level := by
    have := (t.rng _ hle k).1 ⟨hk, rfl⟩; omega
  unfold Tree.srcs
  rw [Finset.sum_filter, Finset.sum_filter, Finset.sum_filter, ← Finset.sum_add_distrib,
    ← Finset.sum_add_distrib]
  refine Finset.sum_congr rfl ?_
  intro b _
  rcases Nat.lt_or_ge b (T.startLevel (T.blocks k).level) with h1 | h1
  · rw [if_pos h1, if_neg (by omega), if_neg (by omega)]; simp
  · rcases Nat.lt_or_ge (T.endLevel (T.blocks k).level) b with h2 | h2
    · rw [if_neg (by omega), if_neg (by omega), if_pos h2]; simp
    · rw [if_neg (by omega), if_pos ⟨h1, h2⟩, if_neg (by omega)]; simp

/-- sources of the bigger blocks treated directly -/
def bigSrcs (inp : Input d) (T : St d) (k : ℕ) : Multiset (ℕ × ℕ) :=
  ∑ s ∈ Finset.range (numSub inp T k), Tree.srcs T (bigSub inp T k s)

theorem gather_eq (hd : d = 2 ∨ d = 3) (t : Tree inp T) (h : 1 ≤ inp.levels)
    {mult : ℕ → Multiset (ℕ × ℕ)}
    (hm : ∀ b, b < T.count → mult b = ((T.blocks b).qps : Multiset (ℕ × ℕ)))
    {k s : ℕ} (hk : k < T.count) {S : Finset ℕ} (hS : S ⊆ nonIntList inp T k s) :
    gather mult S = Tree.srcs T S := by
  unfold gather Tree.srcs
  refine Finset.sum_congr rfl ?_
  intro b hb
  refine hm b ?_
  have hbn := hS hb
  have h1 : 2 ≤ (T.blocks k).level ∧ s < numSub inp T k := by
    by_contra hh
    unfold nonIntList at hbn
    rw [if_neg hh] at hbn
    simp at hbn
  rw [Tree.nonInt_eq h1.1 h1.2, Finset.mem_sdiff, Tree.mem_refine] at hbn
  have hok : ∀ p ∈ Tree.prevList inp T k s, p < T.count := by
    intro p hp
    unfold Tree.prevList at hp
    split_ifs at hp with hs0
    · have hpar := t.parent_level hk (by omega)
      exact (t.okSet_int hd h hpar.1 (by omega) (Tree.numSub_pos _) p hp).2.1
    · exact (t.okSet_int hd h hk (by omega) (by omega) p hp).2.1
  rcases hbn.1 with h2 | ⟨p, hp, _, hc⟩
  · exact hok b h2.1
  · exact (t.links.chi p (hok p hp) b hc).2.1

theorem far_split (hd : d = 2 ∨ d = 3) (t : Tree inp T) (h : 1 ≤ inp.levels)
    {mult : ℕ → Multiset (ℕ × ℕ)}
    (hm : ∀ b, b < T.count → mult b = ((T.blocks b).qps : Multiset (ℕ × ℕ)))
    {k : ℕ} (hk : k < T.count) :
    Tree.farSrcs inp T k = bigSrcs inp T k + m2lAll inp T mult k + m2pAll inp T mult k := by
  unfold Tree.farSrcs bigSrcs m2lAll m2pAll
  rw [← Finset.sum_add_distrib, ← Finset.sum_add_distrib]
  refine Finset.sum_congr rfl ?_
  intro s _
  rw [srcs_filter_split t hk, 
    gather_eq hd t h hm hk (S := m2lSet inp T k s) (Finset.filter_subset _ _),
    gather_eq hd t h hm hk (S := m2pSet inp T k s) (Finset.filter_subset _ _)]

/-- the near field of a block and everything taken by it and its ancestors cover all sources -/
theorem cover (hd : d = 2 ∨ d = 3) (t : Tree inp T) (h : 1 ≤ inp.levels)
    (hs : ∀ i, i < inp.nDofs → i ∈ inp.doubles i) {mult : ℕ → Multiset (ℕ × ℕ)}
    (hm : ∀ b, b < T.count → mult b = ((T.blocks b).qps : Multiset (ℕ × ℕ)))
    {own : ℕ → Bool} {ds : DSt} (hds : DescendExec inp T own mult ds) {i : ℕ} (ho : own i = true)
    (n : ℕ) : ∀ k, 0 < k → k < T.count → (T.blocks k).level = n + 1 → i ∈ (T.blocks k).nodes →
    Tree.srcs T (intList inp T k (numSub inp T k - 1)) + ds.loc k +
      ((List.range' 1 (n + 1)).map (ancSum T i (bigSrcs inp T))).sum +
      ((List.range' 1 (n + 1)).map (ancSum T i (m2pAll inp T mult))).sum =
      (allQps inp : Multiset (ℕ × ℕ)) := by
  obtain ⟨hloc, hloc0, _⟩ := descendExec_eq t hds
  induction n with
  | zero =>
    intro k h0 hk hl hi
    have hlv : (T.blocks k).level = 1 := by omega
    have hns : numSub inp T k = 1 := by unfold numSub; rw [if_neg]; omega
    have hfar := far_split hd t h hm hk
    rw [Tree.far_level1 (by omega)] at hfar
    have hz := hfar.symm
    rw [add_eq_zero, add_eq_zero] at hz
    have hdf := mem_dofsFilled t hs h0 hk hi
    have hon : onP T own k = true := List.any_eq_true.2 ⟨i, hi, ho⟩
    have hp := t.parent_level hk (by omega)
    have hp0 : (T.blocks k).parent = 0 := by
      rcases Nat.eq_zero_or_pos (T.blocks k).parent with hpp | hpp
      · exact hpp
      · have := t.links.level_pos hpp hp.1; omega
    have hlk := hloc _ k (by omega) (by omega) hdf hon
    rw [hp0, hloc0, hz.1.2, add_zero] at hlk
    have e1 : List.range' 1 (0 + 1) = [1] := rfl
    have a1 : ∀ g : ℕ → Multiset (ℕ × ℕ), ancSum T i g 1 = g k := by
      intro g
      have := ancSum_level t hs h0 hk hi g
      rwa [hlv] at this
    rw [hns, hlk, e1]
    simp only [List.map_cons, List.map_nil, List.sum_cons, List.sum_nil, add_zero, a1, hz.1.1, hz.2]
    rw [t.intList_level1 h hk hlv, t.srcs_level1 hd h]
  | succ n ih =>
    intro k h0 hk hl hi
    have hp := t.parent_level hk (by omega)
    have hp0 : 0 < (T.blocks k).parent := t.pos_of_level (by omega)
    have hip : i ∈ (T.blocks (T.blocks k).parent).nodes :=
      t.mem_parent_of_child hp.1 hp.2.2 (x := .inl i) hi
    have hI := ih _ hp0 hp.1 (by omega) hip
    have hnsp : numSub inp T (T.blocks k).parent = 1 := by
      unfold numSub
      rw [if_neg]
      rintro ⟨hleaf, _⟩
      have := (Tree.isLeaf_iff _).1 hleaf
      rw [this] at hp
      simp at hp
    rw [hnsp] at hI
    have hnf := t.near_far hd h hk (by omega)
    rw [far_split hd t h hm hk] at hnf
    have hdf := mem_dofsFilled t hs h0 hk hi
    have hon : onP T own k = true := List.any_eq_true.2 ⟨i, hi, ho⟩
    have hle := t.lev_le k hk
    have hlk := hloc _ k (by omega) hle hdf hon
    have a1 : ∀ g : ℕ → Multiset (ℕ × ℕ), ancSum T i g (1 + (n + 1)) = g k := by
      intro g
      have := ancSum_level t hs h0 hk hi g
      rw [hl] at this
      rwa [Nat.add_comm]
    rw [hlk, ← hI]
    have hr : List.range' 1 (n + 1 + 1) = List.range' 1 (n + 1) ++ [1 + (n + 1)] := by
      rw [List.range'_concat]; simp
    rw [hr]
    simp only [List.map_append, List.sum_append, List.map_cons, List.map_nil, List.sum_cons,
      List.sum_nil, add_zero, a1]
    rw [Nat.sub_self, ← hnf]
    abel

/-! ### the rows -/

/-- quadrature points in the blocks of `S` -/
def pts (inp : Input d) (T : St d) (S : Finset ℕ) : List (ℕ × ℕ) :=
  (allQps inp).filter fun q => hasQp T S q.1 q.2

theorem pts_eq (S : Finset ℕ) : pts inp T S = (List.range inp.nCells).flatMap fun c =>
    ((List.range inp.nq).filter fun q => hasQp T S c q).map fun q => (c, q) := by
  unfold pts allQps
  rw [List.filter_flatMap]
  congr 1
  funext c
  rw [List.filter_map]
  rfl

theorem sum_flatMap {α β : Type} (l : List α) (f : α → List β) :
    (l.map fun c => (f c : Multiset β)).sum = ((l.flatMap f : List β) : Multiset β) := by
  induction l with
  | nil => rfl
  | cons a t ih => rw [List.map_cons, List.sum_cons, ih, List.flatMap_cons, Multiset.coe_add]

theorem flatMap_filter {α β : Type} (l : List α) (p : α → Bool) (f : α → List β)
    (h : ∀ a, p a = false → f a = []) : (l.filter p).flatMap f = l.flatMap f := by
  induction l with
  | nil => rfl
  | cons a t ih =>
    by_cases hp : p a = true
    · rw [List.filter_cons_of_pos hp, List.flatMap_cons, List.flatMap_cons, ih]
    · rw [List.filter_cons_of_neg hp, List.flatMap_cons, ih, h a (by simpa using hp)]; rfl

theorem rowSum_big (S : Finset ℕ) : rowSum inp T S (bigRow inp T S) =
    ((pts inp T S).map fun q => Contr.reg q.1 q.2 : List Contr) := by
  unfold rowSum
  rw [sum_flatMap, directCells, flatMap_filter]
  · rw [pts_eq, List.map_flatMap]
    congr 2
    funext c
    rw [List.map_map]; rfl
  · intro c hc
    unfold bigRow
    have : (List.range inp.nq).filter (fun q => hasQp T S c q) = [] := by
      rw [List.filter_eq_nil_iff]
      intro q hq
      rw [List.any_eq_false] at hc
      exact hc q hq
    rw [this]; rfl

theorem mem_pts (S : Finset ℕ) (q : ℕ × ℕ) :
    q ∈ pts inp T S ↔ q ∈ allQps inp ∧ ∃ b ∈ S, q ∈ (T.blocks b).qps := by
  unfold pts hasQp
  rw [List.mem_filter, decide_eq_true_eq]

theorem nodup_pts (S : Finset ℕ) : (pts inp T S).Nodup := (nodup_allQps inp).filter _

theorem pts_srcs (t : Tree inp T) {S : Finset ℕ} (hn : (Tree.srcs T S).Nodup)
    (hS : ∀ b ∈ S, b < T.count) : (pts inp T S : Multiset (ℕ × ℕ)) = Tree.srcs T S := by
  refine (Multiset.Nodup.ext (Multiset.coe_nodup.2 (nodup_pts S)) hn).2 ?_
  intro q
  rw [Multiset.mem_coe, mem_pts, Tree.mem_srcs]
  constructor
  · exact fun hh => hh.2
  · rintro ⟨b, hb, hq⟩
    exact ⟨mem_root_of_mem t.links (hS b hb) (x := .inr q) hq, b, hb, hq⟩

/-- everything that reaches the node from the far field is a sub-collection of the sources -/
theorem pts_bigSet (t : Tree inp T) {k : ℕ} (hn : (bigSrcs inp T k).Nodup)
    (hS : ∀ s, ∀ b ∈ bigSub inp T k s, b < T.count) :
    (pts inp T (bigSet inp T (T.startLevel (T.blocks k).level) k) : Multiset (ℕ × ℕ)) =
      bigSrcs inp T k := by
  refine (Multiset.Nodup.ext (Multiset.coe_nodup.2 (nodup_pts _)) hn).2 ?_
  intro q
  rw [Multiset.mem_coe, mem_pts]
  unfold bigSrcs
  rw [Multiset.mem_sum]
  constructor
  · rintro ⟨_, b, hb, hq⟩
    unfold bigSet at hb
    rw [Finset.mem_biUnion] at hb
    obtain ⟨s, hs, hb⟩ := hb
    exact ⟨s, hs, Tree.mem_srcs.2 ⟨b, hb, hq⟩⟩
  · rintro ⟨s, hs, hq⟩
    obtain ⟨b, hb, hq⟩ := Tree.mem_srcs.1 hq
    refine ⟨mem_root_of_mem t.links (hS s b hb) (x := .inr q) hq, b, ?_, hq⟩
    unfold bigSet
    rw [Finset.mem_biUnion]
    exact ⟨s, hs, hb⟩

/-- C09: the cells of the node are in the innermost interaction list of its leaf -/
theorem sing_near (hd : d = 2 ∨ d = 3) (t : Tree inp T) (h : 1 ≤ inp.levels) {b : ℕ}
    (hb : b ∈ T.childless) {i : ℕ} (hi : i ∈ (T.blocks b).nodes) {c q : ℕ} (hc : c < inp.nCells)
    (hq : q < inp.nq) (hsing : isSingular inp i c = true) :
    ∃ e ∈ intList inp T b (numSub inp T b - 1), (c, q) ∈ (T.blocks e).qps := by
  have hbt := (t.chl b).1 hb
  have hqa : (c, q) ∈ allQps inp := (mem_allQps _ _).2 ⟨hc, hq⟩
  have hl1 : 1 ≤ (T.blocks b).level := by
    rcases hbt.2 with h2 | h2
    · exact t.links.level_pos h2.1 hbt.1
    · omega
  rcases Nat.lt_or_ge 1 (T.blocks b).level with h2 | h2
  · have hp := Tree.numSub_pos (inp := inp) (T := T) b
    have hle := t.numSub_level hbt.1 (s := numSub inp T b - 1) (by omega)
    obtain ⟨b1, b2, _⟩ := t.qpb_get hqa hle
    refine ⟨_, ?_, b2⟩
    rw [t.intList_eq h hbt.1 h2 (by omega), Finset.mem_union]
    right
    rw [Tree.mem_singBlocks]
    unfold isSingular at hsing
    rw [List.any_eq_true] at hsing
    obtain ⟨j, hj, hj'⟩ := hsing
    exact ⟨i, hi, j, of_decide_eq_true hj', c, hc, Or.inl hj, q, hq, rfl⟩
  · have hlv : (T.blocks b).level = 1 := by omega
    have hns : numSub inp T b = 1 := by unfold numSub; rw [if_neg]; omega
    rw [hns, Nat.sub_self, t.intList_level1 h hbt.1 hlv]
    have : (c, q) ∈ Tree.srcs T (T.levelIds 1).toFinset := by
      rw [t.srcs_level1 hd h]; exact hqa
    exact Tree.mem_srcs.1 this

/-- the row of a direct assembly without octree -/
def directRow (inp : Input d) (i : ℕ) : Multiset Contr :=
  ((List.range inp.nCells).flatMap fun c => if isSingular inp i c then [Contr.sing c]
    else (List.range inp.nq).map (Contr.reg c) : List Contr)

theorem fmm_row (hd : d = 2 ∨ d = 3) (t : Tree inp T) (h : 1 ≤ inp.levels) (hnq : 0 < inp.nq)
    (hs : ∀ i, i < inp.nDofs → i ∈ inp.doubles i) {own : ℕ → Bool} {out : ℕ → Multiset Contr}
    (hx : FmmExec inp T own out) {i : ℕ} (hi : i < inp.nDofs) (ho : own i = true) :
    out i = directRow inp i := by
  obtain ⟨M, E, mult, ds, order, hM, hE, hA, hds, hord, rfl⟩ := hx
  have hm : ∀ b, b < T.count → mult b = ((T.blocks b).qps : Multiset (ℕ × ℕ)) :=
    fun b hb => ascendExec_eq hd t hE hA hb
  -- the leaf of the node
  obtain ⟨b, hb, hib⟩ : ∃ b ∈ T.childless, i ∈ (T.blocks b).nodes := by
    obtain ⟨b, hb, hm⟩ := t.exists_leaf hd t.links.pos (x := .inl i) ((t.mem_root _).2
      (by simpa [rootBlock, Block.Mem] using hi))
    exact ⟨b, hb, hm⟩
  have hbt := (t.chl b).1 hb
  have hl1 : 1 ≤ (T.blocks b).level := by
    rcases hbt.2 with h2 | h2
    · exact t.links.level_pos h2.1 hbt.1
    · omega
  have hb0 := t.pos_of_level hl1
  have hcov := cover hd t h hs hm hds ho ((T.blocks b).level - 1) b hb0 hbt.1 (by omega) hib
  rw [Nat.sub_add_cancel hl1] at hcov
  -- direct part
  have hD : M i = rowSum inp T (intList inp T b (numSub inp T b - 1))
      (leafRow inp T (intList inp T b (numSub inp T b - 1)) i) +
      ((List.range' 1 (T.blocks b).level).map (ancSum T i (fun k =>
        rowSum inp T (bigSet inp T (T.startLevel (T.blocks k).level) k)
          (bigRow inp T (bigSet inp T (T.startLevel (T.blocks k).level) k))))).sum := by
    rw [directExec_eq t hM]
    unfold directResult
    rw [Pi.add_apply]
    congr 1
    · rw [list_sum_apply, List.map_map, sum_single t.chlnd hb]
      · simp [leafEff, hib, ho]
      · intro j hj hne
        simp only [Function.comp_apply, leafEff]
        rw [if_neg]
        rintro ⟨hij, _⟩
        exact hne (t.leaf_unique' hj hb (x := .inl i) hij hib)
    · rw [list_sum_apply, List.map_map, ← sum_anc_leaf t hb hib]
      congr 1
      refine List.map_congr_left ?_
      intro l _
      simp only [Function.comp_apply]
      rw [list_sum_apply, List.map_map]
      unfold ancSum
      congr 1
      refine List.map_congr_left ?_
      intro k hk
      have hkl := ((t.dfil l k).1 hk).2.2.1
      simp only [Function.comp_apply, bigEff, ho, and_true, hkl]
  -- expansions part
  have hP : (order.foldl (fun p b => evalLeaf T own ds.loc b p) ds.prod) i =
      ((List.range' 1 (T.blocks b).level).map (ancSum T i (m2pAll inp T mult))).sum + ds.loc b := by
    rw [foldl_eff_add (fun b p => evalLeaf T own ds.loc b p)
      (fun b => fun i => if i ∈ (T.blocks b).nodes ∧ own i = true then ds.loc b else 0) order
      (fun b hb p => evalLeaf_eq own ds.loc
        (t.links.nodup ((t.chl b).1 (hord.mem_iff.1 hb)).1).1 p)]
    rw [Pi.add_apply]
    congr 1
    · rw [(descendExec_eq t hds).2.2, list_sum_apply, List.map_map, ← sum_anc_leaf t hb hib]
      congr 1
      refine List.map_congr_left ?_
      intro l _
      simp only [Function.comp_apply]
      rw [list_sum_apply, List.map_map]
      unfold ancSum
      congr 1
      refine List.map_congr_left ?_
      intro k _
      simp only [Function.comp_apply, prodOf]
      by_cases hik : i ∈ (T.blocks k).nodes
      · have : onP T own k = true := List.any_eq_true.2 ⟨i, hik, ho⟩
        simp [hik, this]
      · simp [hik]
    · rw [list_sum_apply, List.map_map, sum_single (hord.nodup_iff.2 t.chlnd) (hord.mem_iff.2 hb)]
      · simp [hib, ho]
      · intro j hj hne
        simp only [Function.comp_apply]
        rw [if_neg]
        rintro ⟨hij, _⟩
        exact hne (t.leaf_unique' (hord.mem_iff.1 hj) hb (x := .inl i) hij hib)
  -- nodup of all the parts
  have hnd : ((allQps inp : List (ℕ × ℕ)) : Multiset (ℕ × ℕ)).Nodup :=
    Multiset.coe_nodup.2 (nodup_allQps inp)
  set S := intList inp T b (numSub inp T b - 1) with hSdef
  set B := ((List.range' 1 (T.blocks b).level).map (ancSum T i (bigSrcs inp T))).sum with hB
  set P := ((List.range' 1 (T.blocks b).level).map (ancSum T i (m2pAll inp T mult))).sum with hPdef
  have hpS : (pts inp T S : Multiset (ℕ × ℕ)) = Tree.srcs T S := by
    have hok := t.okSet_int hd h hbt.1 hl1 (s := numSub inp T b - 1)
      (by have := Tree.numSub_pos (inp := inp) (T := T) b; omega)
    exact pts_srcs t (t.nodup_srcs hok) (fun e he => (hok e he).2.1)
  have hF : ds.loc b + B + P = ((allQps inp).filter fun q => !hasQp T S q.1 q.2 : List (ℕ × ℕ)) := by
    have e1 : (pts inp T S : Multiset (ℕ × ℕ)) +
        (((allQps inp).filter fun q => !hasQp T S q.1 q.2 : List (ℕ × ℕ)) : Multiset (ℕ × ℕ)) =
        (allQps inp : Multiset (ℕ × ℕ)) := by
      unfold pts
      rw [Multiset.coe_add, Multiset.coe_eq_coe]
      exact List.filter_append_perm _ _
    have e2 : (pts inp T S : Multiset (ℕ × ℕ)) + (ds.loc b + B + P) =
        (allQps inp : Multiset (ℕ × ℕ)) := by
      rw [hpS, ← hcov]; abel
    exact add_left_cancel (e2.trans e1.symm)
  -- big blocks as sources
  have hbig : ((List.range' 1 (T.blocks b).level).map (ancSum T i (fun k =>
        rowSum inp T (bigSet inp T (T.startLevel (T.blocks k).level) k)
          (bigRow inp T (bigSet inp T (T.startLevel (T.blocks k).level) k))))).sum =
      B.map fun q => Contr.reg q.1 q.2 := by
    have hBle : B ≤ (allQps inp : Multiset (ℕ × ℕ)) := by
      rw [← hcov]
      refine le_trans (Multiset.le_add_left B (Tree.srcs T S + ds.loc b)) ?_
      exact Multiset.le_add_right _ _
    have hmap : ∀ (l : List (Multiset (ℕ × ℕ))), (l.sum).map (fun q => Contr.reg q.1 q.2) =
        (l.map fun m => m.map fun q => Contr.reg q.1 q.2).sum := by
      intro l
      induction l with
      | nil => rfl
      | cons a l ih => rw [List.sum_cons, Multiset.map_add, ih, List.map_cons, List.sum_cons]
    rw [hB, hmap, List.map_map]
    congr 1
    refine List.map_congr_left ?_
    intro l hl
    simp only [Function.comp_apply]
    have hA : ancSum T i (bigSrcs inp T) l ≤ B := by
      rw [hB]
      exact List.single_le_sum (fun _ _ => Multiset.zero_le _) _ (List.mem_map.2 ⟨l, hl, rfl⟩)
    unfold ancSum at hA ⊢
    rw [hmap, List.map_map]
    congr 1
    refine List.map_congr_left ?_
    intro k hk
    simp only [Function.comp_apply]
    split_ifs with hik
    · rw [rowSum_big]
      have hk' := (t.dfil l k).1 hk
      have hle : bigSrcs inp T k ≤ (allQps inp : Multiset (ℕ × ℕ)) := by
        refine le_trans ?_ (le_trans hA hBle)
        refine le_trans (le_of_eq ?_) (List.single_le_sum (fun _ _ => Multiset.zero_le _) _
          (List.mem_map.2 ⟨k, hk, rfl⟩))
        rw [if_pos hik]
      have hlt : ∀ s, ∀ e ∈ bigSub inp T k s, e < T.count := by
        intro s e he
        unfold bigSub at he
        rw [Finset.mem_filter] at he
        have h1 := (t.rng _ (t.lev_le k hk'.2.1) k).1 ⟨hk'.2.1, rfl⟩
        omega
      have := pts_bigSet t (Multiset.nodup_of_le hle hnd) hlt
      rw [← this]; rfl
    · rfl
  show M i + Multiset.map _ _ = _
  rw [hP, hD, hbig, add_assoc, ← Multiset.map_add,
    show B + (P + ds.loc b) = ds.loc b + B + P by abel, hF]
  -- the row
  unfold rowSum
  rw [sum_flatMap]
  unfold directCells directRow
  rw [Multiset.map_coe, Multiset.coe_add, Multiset.coe_eq_coe]
  have e3 : ((allQps inp).filter fun q => !hasQp T S q.1 q.2).map (fun q => Contr.reg q.1 q.2) =
      (List.range inp.nCells).flatMap fun c =>
        ((List.range inp.nq).filter fun q => !hasQp T S c q).map (Contr.reg c) := by
    unfold allQps
    rw [List.filter_flatMap, List.map_flatMap]
    congr 1
    funext c
    rw [List.filter_map, List.map_map]
    rfl
  rw [e3]
  have e4 : ∀ l : List ℕ, (∀ c ∈ l, c < inp.nCells) → List.Perm
      ((l.filter fun c => (List.range inp.nq).any fun q => hasQp T S c q).flatMap (leafRow inp T S i) ++
        l.flatMap fun c => ((List.range inp.nq).filter fun q => !hasQp T S c q).map (Contr.reg c))
      (l.flatMap fun c => if isSingular inp i c then [Contr.sing c]
        else (List.range inp.nq).map (Contr.reg c)) := by
    intro l
    induction l with
    | nil => intro _; simp
    | cons c l ih =>
      intro hl
      have hI := ih (fun c' hc' => hl c' (by simp [hc']))
      have hc := hl c (by simp)
      have hone : List.Perm ((if ((List.range inp.nq).any fun q => hasQp T S c q) = true then
          leafRow inp T S i c else []) ++
          ((List.range inp.nq).filter fun q => !hasQp T S c q).map (Contr.reg c))
          (if isSingular inp i c then [Contr.sing c] else (List.range inp.nq).map (Contr.reg c)) := by
        by_cases hsg : isSingular inp i c = true
        · have hall : ∀ q < inp.nq, hasQp T S c q = true := by
            intro q hq
            unfold hasQp
            rw [decide_eq_true_eq]
            exact sing_near hd t h hb hib hc hq hsg
          have h1 : ((List.range inp.nq).any fun q => hasQp T S c q) = true :=
            List.any_eq_true.2 ⟨0, List.mem_range.2 hnq, hall 0 hnq⟩
          have h2 : (List.range inp.nq).filter (fun q => !hasQp T S c q) = [] := by
            rw [List.filter_eq_nil_iff]
            intro q hq
            rw [hall q (List.mem_range.1 hq)]; simp
          rw [if_pos h1, h2, leafRow, if_pos hsg, if_pos hsg]; simp
        · rw [if_neg hsg, leafRow, if_neg hsg]
          have h3 : (if ((List.range inp.nq).any fun q => hasQp T S c q) = true then
              ((List.range inp.nq).filter fun q => hasQp T S c q).map (Contr.reg c) else []) =
              ((List.range inp.nq).filter fun q => hasQp T S c q).map (Contr.reg c) := by
            split_ifs with hany
            · rfl
            · rw [Bool.not_eq_true, List.any_eq_false] at hany
              have : (List.range inp.nq).filter (fun q => hasQp T S c q) = [] := by
                rw [List.filter_eq_nil_iff]; exact hany
              rw [this]; rfl
          rw [h3, ← List.map_append]
          exact (List.filter_append_perm _ _).map _
      rw [List.flatMap_cons, List.flatMap_cons]
      have hcons : (List.filter (fun c => (List.range inp.nq).any fun q => hasQp T S c q)
          (c :: l)).flatMap (leafRow inp T S i) =
          (if ((List.range inp.nq).any fun q => hasQp T S c q) = true then
          leafRow inp T S i c else []) ++ (List.filter (fun c => (List.range inp.nq).any
            fun q => hasQp T S c q) l).flatMap (leafRow inp T S i) := by
        split_ifs with hany
        · rw [List.filter_cons_of_pos (p := fun c => (List.range inp.nq).any fun q => hasQp T S c q) hany,
            List.flatMap_cons]
        · rw [List.filter_cons_of_neg (p := fun c => (List.range inp.nq).any fun q => hasQp T S c q) hany]
          rfl
      rw [hcons]
      refine List.Perm.trans ?_ (hone.append hI)
      rw [List.append_assoc, List.append_assoc]
      refine List.Perm.append_left _ ?_
      rw [← List.append_assoc, ← List.append_assoc]
      exact List.perm_append_comm.append_right _
  exact e4 _ (fun c hc => List.mem_range.1 hc)

end PiBem.Fmm
