import Verif.Octree.Near
import Verif.Fmm.Cost
import Verif.Props.Geometry
import Verif.Props.Octree
import Verif.Props.SmallDomain

/-!
# Cost of the fast multipole product (C107)
-/

namespace PiBem.Octree.Tree

variable {d : ℕ} {inp : Input d} {T : St d}

theorem level_of_nonInt {k s b : ℕ} (hb : b ∈ nonIntList inp T k s) : 2 ≤ (T.blocks k).level ∧ s < numSub inp T k := by
  by_contra hh
  unfold nonIntList at hb
  rw [if_neg hh] at hb
  simp at hb

/-- a block of a non interaction list of its own level comes from the list of the parent -/
theorem nonInt_child (hd : d = 2 ∨ d = 3) (t : Tree inp T) (h : 1 ≤ inp.levels) {k s b : ℕ} (hk : k < T.count)
    (hb : b ∈ nonIntList inp T k s) (hlv : (T.blocks b).level = (T.blocks k).level + s) :
    b < T.count ∧ (T.blocks b).parent ∈ prevList inp T k s ∧ T.isLeaf (T.blocks b).parent = false := by
  have h1 := level_of_nonInt hb
  obtain ⟨b0, b1, -⟩ := t.nonInt_level hd h hk h1.1 h1.2 hb
  refine ⟨b1, ?_⟩
  rw [nonInt_eq h1.1 h1.2, Finset.mem_sdiff, mem_refine] at hb
  have ok : OkSet T ((T.blocks k).level + s - 1) (prevList inp T k s) := by
    unfold prevList
    rcases s with _ | s
    · rw [if_pos rfl]
      have hp := t.parent_level hk (by omega)
      have := t.okSet_int hd h hp.1 (by omega) (numSub_pos (inp := inp) (T := T) (T.blocks k).parent)
      rwa [show (T.blocks (T.blocks k).parent).level + 0 = (T.blocks k).level + 0 - 1 by omega] at this
    · rw [if_neg (by omega)]
      have := t.okSet_int hd h hk (by omega) (s := s) (by omega)
      rwa [show (T.blocks k).level + s = (T.blocks k).level + (s + 1) - 1 by omega] at this
  rcases hb.1 with ⟨h2, -⟩ | ⟨p, hp, hpl, hc⟩
  · have := (ok b h2).2.2
    omega
  · have hcc := t.links.chi p (ok p hp).2.1 b hc
    rw [hcc.2.2]
    exact ⟨hp, hpl⟩

end PiBem.Octree.Tree

namespace PiBem.Fmm

open PiBem.Octree PiBem.Octree.Tree

variable {d : ℕ} {inp : Input d} {T : St d}

/-- The finest boxes are larger than the tolerance of the neighbour tests, and the cells around a node are smaller than them. -/
structure Resolved (inp : Input d) : Prop where
  /-- the sides of the finest boxes exceed `TOLL` -/
  toll : 1 / 1000 < 22 / 10 * maxCoor inp / 2 ^ inp.levels
  /-- the quadrature points are in the root box -/
  root : ∀ c q a, c < inp.nCells → q < inp.nq → |inp.qpos (c, q) a| ≤ 11 / 10 * maxCoor inp
  /-- the quadrature points of the cells of a node or of its doubles are closer to it than the side of the finest boxes, along each axis -/
  cell : ∀ i p c q a, i < inp.nDofs → p ∈ inp.doubles i → c < inp.nCells → (p ∈ inp.cellDofs c ∨ c ∈ inp.oldElems p) → q < inp.nq →
    |inp.qpos (c, q) a - inp.pos i a| < 22 / 10 * maxCoor inp / 2 ^ inp.levels

theorem meetInt (hR : Resolved inp) (hd : d = 2 ∨ d = 3) (t : Octree.Tree inp T) (h : 1 ≤ inp.levels) {k : ℕ} (hk : k < T.count)
    (hl : 1 ≤ (T.blocks k).level) {s : ℕ} (hs : s < numSub inp T k) {b : ℕ} (hb : b ∈ intList inp T k s) : Meet T inp.levels k b :=
  t.meet_int hd h hR.toll hR.root hR.cell hk hl hs hb

theorem card_int (hR : Resolved inp) (hd : d = 2 ∨ d = 3) (t : Octree.Tree inp T) (h : 1 ≤ inp.levels) {k : ℕ} (hk : k < T.count)
    (hl : 1 ≤ (T.blocks k).level) : (intList inp T k 0).card ≤ 3 ^ d := by
  refine t.card_meet hd (B := k) rfl _ fun b hb => ?_
  obtain ⟨-, h1, h2⟩ := t.okSet_int hd h hk hl (numSub_pos _) b hb
  refine ⟨h1, ?_, h2⟩
  refine meet_level ?_ le_rfl (t.lev_le k hk) (meetInt hR hd t h hk hl (numSub_pos _) hb).symm
  omega

theorem m2l_level (hd : d = 2 ∨ d = 3) (t : Octree.Tree inp T) (h : 1 ≤ inp.levels) {k s b : ℕ} (hk : k < T.count)
    (hb : b ∈ m2lSet inp T k s) : s = 0 ∧ b ∈ nonIntList inp T k 0 ∧ (T.blocks b).level = (T.blocks k).level ∧ b < T.count := by
  unfold m2lSet at hb
  rw [Finset.mem_filter, levelOf_eq t hk] at hb
  obtain ⟨hbn, hrange⟩ := hb
  have h1 := level_of_nonInt hbn
  have hlv := (t.rng _ (t.lev_le k hk) b).2 hrange
  obtain ⟨_, _, h4⟩ := t.nonInt_level hd h hk h1.1 h1.2 hbn
  have hs0 : s = 0 := by
    rcases h4 with h4 | h4
    · have := hlv.2; omega
    · exact h4.1
  subst hs0
  exact ⟨rfl, hbn, hlv.2, hlv.1⟩

theorem card_m2l (hR : Resolved inp) (hd : d = 2 ∨ d = 3) (t : Octree.Tree inp T) (h : 1 ≤ inp.levels) {k : ℕ} (hk : k < T.count) :
    (m2lSet inp T k 0).card ≤ 6 ^ d - 3 ^ d := by
  obtain ⟨p, hp⟩ : ∃ p, p = (T.blocks k).parent := ⟨_, rfl⟩
  let c : ℕ → Fin d → ℤ := fun b a => coord T b a - 2 * coord T p a
  have key : ∀ b ∈ m2lSet inp T k 0, 2 ≤ (T.blocks k).level ∧ b < T.count ∧ (T.blocks b).level = (T.blocks k).level ∧
      c b ∈ Fintype.piFinset (fun _ : Fin d => Finset.Icc (-2 : ℤ) 3) \
        Fintype.piFinset (fun a : Fin d => Finset.Icc (bit T k a - 1) (bit T k a + 1)) := by
    intro b hb
    obtain ⟨-, hbn, hlv, hbc⟩ := m2l_level hd t h hk hb
    have h1 := level_of_nonInt hbn
    have hk0 := t.pos_of_level (k := k) (by omega)
    have hb0 := t.pos_of_level (k := b) (by omega)
    have hpk := t.parent_level hk (by omega)
    have hpb := t.parent_level hbc (by omega)
    rw [← hp] at hpk
    refine ⟨h1.1, hbc, hlv, ?_⟩
    rw [Finset.mem_sdiff, Fintype.mem_piFinset, Fintype.mem_piFinset]
    constructor
    · intro a
      obtain ⟨-, h2, -⟩ := t.nonInt_child hd h hk hbn (by omega)
      have h3 : (T.blocks b).parent ∈ intList inp T p 0 := hp ▸ h2
      have h4 := meetInt hR hd t h hpk.1 (by omega) (numSub_pos _) h3
      have h5 := meet_level (L := (T.blocks p).level) le_rfl (by omega) (t.lev_le p hpk.1) h4 a
      unfold lo hi at h5
      rw [show (T.blocks p).level - (T.blocks (T.blocks b).parent).level = 0 by omega, Nat.sub_self] at h5
      simp only [pow_zero, one_mul] at h5
      have r := bit_range (T := T) b a
      have e := t.coord_succ hb0 hbc a
      rw [Finset.mem_Icc]
      show -2 ≤ coord T b a - 2 * coord T p a ∧ coord T b a - 2 * coord T p a ≤ 3
      omega
    · intro hcon
      rw [nonInt_eq h1.1 h1.2, Finset.mem_sdiff] at hbn
      refine hbn.2 (t.nn_sub_int h hk (by omega) h1.2 (t.nn_complete hd h ((T.blocks k).level - 1) k b hk hbc (by omega) (by omega) ?_))
      intro a
      have h2 := hcon a
      rw [Finset.mem_Icc] at h2
      have h3 : bit T k a - 1 ≤ coord T b a - 2 * coord T p a ∧ coord T b a - 2 * coord T p a ≤ bit T k a + 1 := h2
      have e := t.coord_succ hk0 hk a
      rw [← hp] at e
      rw [pow_zero, one_mul, one_mul]
      omega
  have hinj : Set.InjOn c (m2lSet inp T k 0 : Set ℕ) := by
    intro b hb b' hb' hbb
    obtain ⟨-, h1, h2, -⟩ := key b hb
    obtain ⟨-, h1', h2', -⟩ := key b' hb'
    refine t.coord_inj hd _ b b' h1 h1' rfl (by omega) fun a => ?_
    have := congrFun hbb a
    have e : coord T b a - 2 * coord T p a = coord T b' a - 2 * coord T p a := this
    omega
  refine (Finset.card_le_card_of_injOn c (fun b hb => (key b hb).2.2.2) hinj).trans_eq ?_
  rw [Finset.card_sdiff_of_subset, Fintype.card_piFinset, Fintype.card_piFinset]
  · simp only [Int.card_Icc, Finset.prod_const, Finset.card_univ, Fintype.card_fin]
    congr 1
    rw [Finset.prod_congr rfl (g := fun _ => 3) fun a _ => by
      rw [show bit T k a + 1 + 1 - (bit T k a - 1) = 3 by ring]; rfl]
    simp
  · intro z hz
    rw [Fintype.mem_piFinset] at hz ⊢
    intro a
    have := hz a
    have r := bit_range (T := T) k a
    rw [Finset.mem_Icc] at this ⊢
    omega

theorem m2p_facts (hR : Resolved inp) (hd : d = 2 ∨ d = 3) (t : Octree.Tree inp T) (h : 1 ≤ inp.levels) {k s b : ℕ} (hk : k < T.count)
    (hb : b ∈ m2pSet inp T k s) : s = (T.blocks b).level - (T.blocks k).level ∧ b < T.count ∧ (T.blocks b).parent < T.count ∧
      Meet T (T.blocks (T.blocks b).parent).level k (T.blocks b).parent ∧ (T.blocks k).level ≤ (T.blocks (T.blocks b).parent).level ∧
      T.isLeaf k = true ∧ k ≠ (T.blocks b).parent := by
  unfold m2pSet at hb
  rw [Finset.mem_filter, levelOf_eq t hk] at hb
  obtain ⟨hbn, hrange⟩ := hb
  have h1 := level_of_nonInt hbn
  obtain ⟨hb0, hbc, h4⟩ := t.nonInt_level hd h hk h1.1 h1.2 hbn
  have hle := t.lev_le k hk
  have r1 := (t.rng _ hle k).1 ⟨hk, rfl⟩
  have hmono := t.links.mono k b (by omega) hbc
  have hlv : (T.blocks b).level = (T.blocks k).level + s := by
    rcases h4 with h4 | h4 <;> omega
  have hs : s ≠ 0 := by
    rintro rfl
    have := (t.rng _ hle b).1 ⟨hbc, by omega⟩
    omega
  obtain ⟨s', rfl⟩ : ∃ s', s = s' + 1 := ⟨s - 1, by omega⟩
  obtain ⟨-, h5, h6⟩ := t.nonInt_child hd h hk hbn hlv
  have h5' : (T.blocks b).parent ∈ intList inp T k s' := by simpa [prevList] using h5
  have hpb := t.parent_level hbc (by omega)
  have hleaf := (numSub_gt_one h1.2).1
  refine ⟨by omega, hbc, hpb.1, ?_, by omega, hleaf, ?_⟩
  · exact meet_level (by omega) le_rfl (t.lev_le _ hpb.1) (meetInt hR hd t h hk (by omega) (by omega) h5')
  · intro he
    rw [← he, hleaf] at h6
    exact absurd h6 (by simp)

theorem big_facts (hR : Resolved inp) (hd : d = 2 ∨ d = 3) (t : Octree.Tree inp T) (h : 1 ≤ inp.levels) {k : ℕ} (hk : k < T.count)
    (hl : 1 ≤ (T.blocks k).level) : (bigSet inp T (T.startLevel (T.blocks k).level) k).card + 1 ≤ 3 ^ d := by
  have hpk := t.parent_level hk hl
  refine t.card_meet_leaves hd hpk.1 rfl _ fun b hb => ?_
  unfold bigSet at hb
  rw [Finset.mem_biUnion] at hb
  obtain ⟨s, -, hb⟩ := hb
  rw [Finset.mem_filter] at hb
  obtain ⟨hbn, hlt⟩ := hb
  have h1 := level_of_nonInt hbn
  obtain ⟨hb0, hbc, h4⟩ := t.nonInt_level hd h hk h1.1 h1.2 hbn
  have r1 := (t.rng _ (t.lev_le k hk) k).1 ⟨hk, rfl⟩
  have hmono := t.links.mono b k (by omega) hk
  have hne : (T.blocks b).level ≠ (T.blocks k).level := fun he => by
    have := (t.rng _ (t.lev_le k hk) b).1 ⟨hbc, he⟩
    omega
  obtain ⟨rfl, hlb, hleaf⟩ : s = 0 ∧ (T.blocks b).level < (T.blocks k).level ∧ T.isLeaf b = true := by
    rcases h4 with h4 | h4
    · omega
    · exact h4
  rw [nonInt_eq h1.1 h1.2, Finset.mem_sdiff, mem_refine] at hbn
  have hmem : b ∈ intList inp T (T.blocks k).parent 0 := by
    rcases hbn.1 with h2 | ⟨p, hp, hpl, hc⟩
    · exact h2.1
    · exfalso
      have ok := t.okSet_int hd h hpk.1 (by omega) (numSub_pos _) p hp
      have hcc := t.links.chi p ok.2.1 b hc
      have e := t.links.level_eq hb0 hbc
      rw [hcc.2.2] at e
      rcases ok.2.2 with h3 | h3
      · omega
      · rw [hpl] at h3; exact absurd h3.2 (by simp)
  refine ⟨hbc, ?_, by omega, hleaf, ?_⟩
  · exact meet_level (by omega) le_rfl (t.lev_le _ hpk.1) (meetInt hR hd t h hpk.1 (by omega) (numSub_pos _) hmem).symm
  · rintro rfl
    have hch := hpk.2.2
    rw [(isLeaf_iff _).1 hleaf] at hch
    simp at hch

theorem sum_le_range (l : List ℕ) (hn : l.Nodup) (N : ℕ) (hl : ∀ k ∈ l, k < N) (f : ℕ → ℕ) :
    (l.map f).sum ≤ ∑ k ∈ Finset.range N, if k ∈ l then f k else 0 := by
  rw [← Finset.sum_filter, ← List.sum_toFinset f hn]
  refine Finset.sum_le_sum_of_subset ?_
  intro k hk
  rw [List.mem_toFinset] at hk
  rw [Finset.mem_filter, Finset.mem_range]
  exact ⟨hl k hk, hk⟩

theorem descendBlocks_facts (t : Octree.Tree inp T) : (descendBlocks inp T).Nodup ∧
    ∀ k ∈ descendBlocks inp T, k < T.count ∧ 1 ≤ (T.blocks k).level := by
  constructor
  · unfold descendBlocks
    rw [List.nodup_flatMap]
    refine ⟨fun l _ => t.dfilnd l, ?_⟩
    refine (List.nodup_range' (s := 1) (n := inp.levels)).imp ?_
    intro a b hab x hxa hxb
    rw [t.dfil] at hxa hxb
    exact hab (hxa.2.2.1.symm.trans hxb.2.2.1)
  · intro k hk
    unfold descendBlocks at hk
    rw [List.mem_flatMap] at hk
    obtain ⟨l, hl, hk⟩ := hk
    rw [t.dfil] at hk
    rw [List.mem_range'_1] at hl
    exact ⟨hk.2.1, by omega⟩

theorem conversions_le (hR : Resolved inp) (hd : d = 2 ∨ d = 3) (t : Octree.Tree inp T) (h : 1 ≤ inp.levels) :
    conversions inp T ≤ (6 ^ d - 3 ^ d) * T.count := by
  obtain ⟨hn, hm⟩ := descendBlocks_facts t
  refine (sum_le_range _ hn T.count (fun k hk => (hm k hk).1) _).trans ?_
  rw [mul_comm, ← smul_eq_mul]
  conv_rhs => rw [← Finset.card_range T.count]
  refine Finset.sum_le_card_nsmul _ _ _ fun k hk => ?_
  rw [Finset.mem_range] at hk
  split_ifs with hkd
  · rw [Finset.sum_eq_single_of_mem 0 (Finset.mem_range.2 (numSub_pos _))]
    · exact card_m2l hR hd t h hk
    · intro s _ hs
      rw [Finset.card_eq_zero, Finset.eq_empty_iff_forall_notMem]
      exact fun b hb => hs (m2l_level hd t h hk hb).1
  · exact Nat.zero_le _

theorem evaluations_le (hR : Resolved inp) (hd : d = 2 ∨ d = 3) (t : Octree.Tree inp T) (h : 1 ≤ inp.levels) :
    evaluations inp T ≤ (3 ^ d - 1) * T.count := by
  classical
  obtain ⟨hn, hm⟩ := descendBlocks_facts t
  refine (sum_le_range _ hn T.count (fun k hk => (hm k hk).1) _).trans ?_
  -- each expansion is evaluated once for each leaf of its set
  have hsum : ∀ k ∈ Finset.range T.count, (if k ∈ descendBlocks inp T then
      ∑ s ∈ Finset.range (numSub inp T k), (m2pSet inp T k s).card else 0) ≤
      ∑ b ∈ Finset.range T.count, if ∃ s, b ∈ m2pSet inp T k s then 1 else 0 := by
    intro k hk
    rw [Finset.mem_range] at hk
    split_ifs
    · rw [← Finset.card_biUnion]
      · rw [← Finset.card_filter]
        refine Finset.card_le_card fun b hb => ?_
        rw [Finset.mem_biUnion] at hb
        obtain ⟨s, -, hb⟩ := hb
        rw [Finset.mem_filter, Finset.mem_range]
        exact ⟨(m2p_facts hR hd t h hk hb).2.1, s, hb⟩
      · intro s _ s' _ hss
        rw [Function.onFun, Finset.disjoint_left]
        intro b hb hb'
        exact hss ((m2p_facts hR hd t h hk hb).1.trans (m2p_facts hR hd t h hk hb').1.symm)
    · exact Nat.zero_le _
  refine (Finset.sum_le_sum hsum).trans ?_
  rw [Finset.sum_comm, mul_comm, ← smul_eq_mul]
  conv_rhs => rw [← Finset.card_range T.count]
  refine Finset.sum_le_card_nsmul _ _ _ fun b hb => ?_
  rw [← Finset.card_filter]
  by_cases hne : ((Finset.range T.count).filter fun k => ∃ s, b ∈ m2pSet inp T k s) = ∅
  · rw [hne]; exact Nat.zero_le _
  · obtain ⟨k₀, hk₀⟩ := Finset.nonempty_iff_ne_empty.2 hne
    rw [Finset.mem_filter, Finset.mem_range] at hk₀
    obtain ⟨hk₀, s₀, hs₀⟩ := hk₀
    have hpb := (m2p_facts hR hd t h hk₀ hs₀).2.2.1
    have := t.card_meet_leaves hd hpb rfl ((Finset.range T.count).filter fun k => ∃ s, b ∈ m2pSet inp T k s) fun k hk => by
      rw [Finset.mem_filter, Finset.mem_range] at hk
      obtain ⟨hk, s, hs⟩ := hk
      obtain ⟨-, -, -, h1, h2, h3, h4⟩ := m2p_facts hR hd t h hk hs
      exact ⟨hk, h1, h2, h3, h4⟩
    omega

theorem bigPairs_le (hR : Resolved inp) (hd : d = 2 ∨ d = 3) (t : Octree.Tree inp T) (h : 1 ≤ inp.levels) :
    bigPairs inp T ≤ (3 ^ d - 1) * T.count := by
  obtain ⟨hn, hm⟩ := descendBlocks_facts t
  have e : bigPairs inp T = ((descendBlocks inp T).map fun k => (bigSet inp T (T.startLevel (T.blocks k).level) k).card).sum := by
    unfold bigPairs descendBlocks
    rw [List.map_flatMap, List.flatMap_def, List.sum_flatten, List.map_map]
    congr 1
    refine List.map_congr_left fun l _ => ?_
    show _ = (List.map _ _).sum
    congr 1
    refine List.map_congr_left fun k hk => ?_
    rw [t.dfil] at hk
    rw [hk.2.2.1]
  rw [e]
  refine (sum_le_range _ hn T.count (fun k hk => (hm k hk).1) _).trans ?_
  rw [mul_comm, ← smul_eq_mul]
  conv_rhs => rw [← Finset.card_range T.count]
  refine Finset.sum_le_card_nsmul _ _ _ fun k hk => ?_
  rw [Finset.mem_range] at hk
  split_ifs with hkd
  · have := big_facts hR hd t h hk (hm k hkd).2
    omega
  · exact Nat.zero_le _

theorem nearPairs_le (hR : Resolved inp) (hd : d = 2 ∨ d = 3) (t : Octree.Tree inp T) (h : 1 ≤ inp.levels) :
    nearPairs inp T ≤ (2 * 3 ^ d - 1) * T.count := by
  have hleaf : ∀ k ∈ T.childless, k < T.count ∧ 1 ≤ (T.blocks k).level ∧ T.isLeaf k = true := by
    intro k hk
    have h1 := (t.chl k).1 hk
    refine ⟨h1.1, ?_, (isLeaf_iff k).2 (t.childless_children hk).2⟩
    rcases h1.2 with h2 | h2
    · exact t.links.level_pos h2.1 h1.1
    · omega
  refine (sum_le_range _ t.chlnd T.count (fun k hk => (hleaf k hk).1) _).trans ?_
  let S : ℕ → Finset ℕ := fun k => if k ∈ T.childless then intList inp T k (numSub inp T k - 1) else ∅
  have facts : ∀ k b, b ∈ S k → k < T.count ∧ T.isLeaf k = true ∧ b < T.count ∧ Meet T inp.levels k b ∧
      ((T.blocks b).level ≤ (T.blocks k).level → (T.blocks b).level = (T.blocks k).level ∨ T.isLeaf b = true) := by
    intro k b hb
    simp only [S] at hb
    split_ifs at hb with hk
    · obtain ⟨k1, k2, k3⟩ := hleaf k hk
      have hs := numSub_pos (inp := inp) (T := T) k
      obtain ⟨-, b1, b2⟩ := t.okSet_int hd h k1 k2 (by omega) b hb
      refine ⟨k1, k3, b1, meetInt hR hd t h k1 k2 (by omega) hb, fun hle => ?_⟩
      rcases b2 with b2 | b2
      · left; omega
      · exact .inr b2.2
    · simp at hb
  have hsplit : ∀ k ∈ Finset.range T.count, (if k ∈ T.childless then (intList inp T k (numSub inp T k - 1)).card else 0) ≤
      3 ^ d + ∑ b ∈ Finset.range T.count, if b ∈ S k ∧ (T.blocks k).level < (T.blocks b).level then 1 else 0 := by
    intro k hk
    rw [Finset.mem_range] at hk
    have e : (if k ∈ T.childless then (intList inp T k (numSub inp T k - 1)).card else 0) = (S k).card := by
      simp only [S]; split_ifs <;> simp
    rw [e, ← Finset.card_filter_add_card_filter_not (fun b => (T.blocks b).level ≤ (T.blocks k).level)]
    refine Nat.add_le_add ?_ ?_
    · refine t.card_meet hd (B := k) rfl _ fun b hb => ?_
      rw [Finset.mem_filter] at hb
      obtain ⟨-, -, h1, h2, h3⟩ := facts k b hb.1
      refine ⟨h1, meet_level hb.2 le_rfl (t.lev_le k hk) h2.symm, ?_⟩
      rcases Nat.lt_or_eq_of_le hb.2 with h4 | h4
      · refine .inr ⟨h4, ?_⟩
        rcases h3 hb.2 with h5 | h5
        · omega
        · exact h5
      · exact .inl h4
    · rw [← Finset.card_filter]
      refine Finset.card_le_card fun b hb => ?_
      rw [Finset.mem_filter] at hb ⊢
      exact ⟨Finset.mem_range.2 (facts k b hb.1).2.2.1, hb.1, by omega⟩
  refine (Finset.sum_le_sum hsplit).trans ?_
  rw [Finset.sum_add_distrib, Finset.sum_const, Finset.card_range, smul_eq_mul, Finset.sum_comm]
  have hsmall : ∀ b ∈ Finset.range T.count, (∑ k ∈ Finset.range T.count,
      if b ∈ S k ∧ (T.blocks k).level < (T.blocks b).level then 1 else 0) ≤ 3 ^ d - 1 := by
    intro b hb
    rw [Finset.mem_range] at hb
    rw [← Finset.card_filter]
    have := t.card_meet_leaves hd hb rfl ((Finset.range T.count).filter fun k => b ∈ S k ∧ (T.blocks k).level < (T.blocks b).level)
      fun k hk => by
        rw [Finset.mem_filter, Finset.mem_range] at hk
        obtain ⟨k1, k2, -, k4, -⟩ := facts k b hk.2.1
        refine ⟨k1, meet_level (by omega) le_rfl (t.lev_le b hb) k4, by omega, k2, ?_⟩
        rintro rfl
        omega
    omega
  have := Finset.sum_le_card_nsmul _ _ _ hsmall
  rw [Finset.card_range, smul_eq_mul] at this
  have hp : 1 ≤ 3 ^ d := Nat.one_le_pow _ _ (by norm_num)
  calc _ ≤ T.count * 3 ^ d + T.count * (3 ^ d - 1) := Nat.add_le_add_left this _
    _ = _ := by rw [← Nat.mul_add, mul_comm]; congr 1; omega

/-! ## C107 -/

/-- **C107** (one block). On a resolved mesh the interaction list of a block has at most `3^d` blocks, at most `6^d - 3^d` expansions are converted to its
local expansion, and at most `3^d - 1` bigger blocks are integrated directly for it: 27, 189 and 26 in dimension 3. -/
theorem C107_one_block (hd : d = 2 ∨ d = 3) (inp : Input d) (hlev : 1 ≤ inp.levels) (hR : Resolved inp) (k : ℕ)
    (hk : k < (build inp).count) (hl : 1 ≤ ((build inp).blocks k).level) :
    let T := build inp
    (intList inp T k 0).card ≤ 3 ^ d ∧
    (∑ s ∈ Finset.range (numSub inp T k), (m2lSet inp T k s).card) ≤ 6 ^ d - 3 ^ d ∧
    (bigSet inp T (T.startLevel (T.blocks k).level) k).card ≤ 3 ^ d - 1 := by
  intro T
  have t : Octree.Tree inp T := build_tree hd inp
  refine ⟨card_int hR hd t hlev hk hl, ?_, ?_⟩
  · rw [Finset.sum_eq_single_of_mem 0 (Finset.mem_range.2 (numSub_pos _))]
    · exact card_m2l hR hd t hlev hk
    · intro s _ hs
      rw [Finset.card_eq_zero, Finset.eq_empty_iff_forall_notMem]
      exact fun b hb => hs (m2l_level hd t hlev hk hb).1
  · have := big_facts hR hd t hlev hk hl
    omega

/-- **C107** (one product). The operations between two blocks of one product are at most a constant times the number of blocks. -/
theorem C107_product (hd : d = 2 ∨ d = 3) (inp : Input d) (hlev : 1 ≤ inp.levels) (hR : Resolved inp) :
    let T := build inp
    conversions inp T ≤ (6 ^ d - 3 ^ d) * T.count ∧ evaluations inp T ≤ (3 ^ d - 1) * T.count ∧
    bigPairs inp T ≤ (3 ^ d - 1) * T.count ∧ nearPairs inp T ≤ (2 * 3 ^ d - 1) * T.count := by
  intro T
  have t : Octree.Tree inp T := build_tree hd inp
  exact ⟨conversions_le hR hd t hlev, evaluations_le hR hd t hlev, bigPairs_le hR hd t hlev, nearPairs_le hR hd t hlev⟩

/-- **C107** (linear cost). In dimension 3, with `L` levels, `m` nodes per leaf and `W` distinct positions of nodes, the operations between two blocks of
one product are at most `294 (9 + 8 (L - 1) W / (m + 1/2))`. -/
theorem C107_linear (inp : Input 3) (hlev : 1 ≤ inp.levels) (hR : Resolved inp) :
    let T := build inp
    let W : ℚ := ∑ i ∈ Finset.range inp.nDofs, 1 / ((inp.doubles i).card : ℚ)
    ((conversions inp T + evaluations inp T + bigPairs inp T + nearPairs inp T : ℕ) : ℚ) ≤
      294 * (9 + 8 * (inp.levels - 1 : ℕ) * (W / (inp.maxNodes + 1 / 2))) := by
  intro T W
  obtain ⟨h1, h2, h3, h4⟩ := C107_product (Or.inr rfl) inp hlev hR
  have hc := (C11_block_table_sufficient (Or.inr rfl) inp hlev).1
  have hs : conversions inp T + evaluations inp T + bigPairs inp T + nearPairs inp T ≤ 294 * T.count := by
    norm_num at h1 h2 h3 h4
    have e1 : conversions inp T ≤ 189 * T.count := h1
    have e2 : evaluations inp T ≤ 26 * T.count := h2
    have e3 : bigPairs inp T ≤ 26 * T.count := h3
    have e4 : nearPairs inp T ≤ 53 * T.count := h4
    omega
  have hq : ((conversions inp T + evaluations inp T + bigPairs inp T + nearPairs inp T : ℕ) : ℚ) ≤ 294 * (T.count : ℚ) := by
    exact_mod_cast hs
  have hc' : (T.count : ℚ) ≤ 1 + 2 ^ 3 + 2 ^ 3 * (inp.levels - 1 : ℕ) * (W / (inp.maxNodes + 1 / 2)) := hc
  linarith

/-- **C107** (evaluations at nodes). If at most `D` nodes share a position, the expansions evaluated at single nodes are at most `D (m + 1/2)` for each of the
`26` blocks of `C107_product`. -/
theorem C107_node_evaluations (hd : d = 2 ∨ d = 3) (inp : Input d) (hlev : 1 ≤ inp.levels) (hR : Resolved inp) (D : ℕ)
    (hD : ∀ i, i < inp.nDofs → 1 ≤ (inp.doubles i).card ∧ (inp.doubles i).card ≤ D) :
    let T := build inp
    2 * nodeEvaluations inp T ≤ D * (2 * inp.maxNodes + 1) * ((3 ^ d - 1) * T.count) := by
  intro T
  have t : Octree.Tree inp T := build_tree hd inp
  refine le_trans ?_ (Nat.mul_le_mul_left _ (evaluations_le hR hd t hlev))
  unfold nodeEvaluations evaluations
  rw [← List.sum_map_mul_left, ← List.sum_map_mul_left]
  refine List.sum_le_sum fun k hk => ?_
  have hkc := ((descendBlocks_facts t).2 k hk).1
  rw [← mul_assoc]
  by_cases h0 : (∑ s ∈ Finset.range (numSub inp T k), (m2pSet inp T k s).card) = 0
  · rw [h0, mul_zero, mul_zero]
  refine Nat.mul_le_mul_right _ ?_
  obtain ⟨s, -, hs⟩ := Finset.exists_ne_zero_of_sum_ne_zero h0
  obtain ⟨b, hb⟩ := Finset.nonempty_iff_ne_empty.2 (fun h => hs (Finset.card_eq_zero.2 h))
  obtain ⟨-, h1, -, -, h2, h3, -⟩ := m2p_facts hR hd t hlev hkc hb
  have hb1 : 1 ≤ (T.blocks b).level := by
    by_contra hcon
    have hb0 : b = 0 := by
      by_contra hne
      have := t.links.level_pos (Nat.pos_of_ne_zero hne) h1
      omega
    have := level_of_nonInt (Finset.mem_of_mem_filter _ hb)
    rw [hb0] at h2
    have hp0 : (T.blocks 0).parent = 0 := by
      have := t.links.root.parent
      simpa [rootBlock] using this
    rw [hp0, t.links.root_level] at h2
    omega
  have hpb := t.parent_level h1 hb1
  have hlk := t.lev_le b h1
  have hk0 : 0 < k := by
    have := level_of_nonInt (Finset.mem_of_mem_filter _ hb)
    exact t.pos_of_level (by omega)
  have hcap := (C03_leaf_capacity hd inp).2.1 k ((t.isLeaf_childless hd hk0 hkc).1 h3)
    (show (T.blocks k).level < inp.levels by omega)
  have hw : ((T.blocks k).nodes.map fun i => (1 : ℚ) / ((inp.doubles i).card : ℚ)).sum < inp.maxNodes + 1 / 2 := by
    have := Int.lt_floor_add_one (((T.blocks k).nodes.map fun i => (1 : ℚ) / ((inp.doubles i).card : ℚ)).sum + 1 / 2)
    have h5 : (⌊((T.blocks k).nodes.map fun i => (1 : ℚ) / ((inp.doubles i).card : ℚ)).sum + 1 / 2⌋ : ℚ) ≤ inp.maxNodes := by
      exact_mod_cast hcap
    linarith
  have hlow : ∀ l : List ℕ, (∀ i ∈ l, i < inp.nDofs) →
      (l.length : ℚ) ≤ D * (l.map fun i => (1 : ℚ) / ((inp.doubles i).card : ℚ)).sum := by
    intro l hl
    induction l with
    | nil => simp
    | cons i l ih =>
      obtain ⟨d1, d2⟩ := hD i (hl i List.mem_cons_self)
      have := ih fun j hj => hl j (List.mem_cons_of_mem _ hj)
      rw [List.length_cons, List.map_cons, List.sum_cons, mul_add]
      push_cast
      have hpos : (0 : ℚ) < (inp.doubles i).card := by exact_mod_cast d1
      have : (1 : ℚ) ≤ D * (1 / ((inp.doubles i).card : ℚ)) := by
        rw [mul_one_div, le_div_iff₀ hpos, one_mul]
        exact_mod_cast d2
      linarith
  have h6 := hlow (T.blocks k).nodes fun i hi => by
    have := mem_root_of_mem t.links hkc (x := .inl i) hi
    simpa [Block.Mem, rootBlock] using this
  have h7 : (2 * (T.blocks k).nodes.length : ℚ) ≤ D * (2 * inp.maxNodes + 1) := by
    have hD0 : (0 : ℚ) ≤ D := Nat.cast_nonneg _
    have := mul_le_mul_of_nonneg_left hw.le hD0
    linarith
  exact_mod_cast h7

/-- **C107** (without resolution). In a domain with coordinates at most `1/2200` (see C88) every leaf of level at least 2 is integrated directly with all the
leaves: the direct pairs grow like the square of the number of leaves. -/
theorem C107_unresolved (inp : Input 3) (hlev : 1 ≤ inp.levels) (hsmall : ∀ i a, i < inp.nDofs → |inp.pos i a| ≤ 1 / 2200) :
    let T := build inp
    (T.childless.filter fun k => decide (2 ≤ (T.blocks k).level)).length * T.childless.length ≤ nearPairs inp T := by
  intro T
  have hd : (3 : ℕ) = 2 ∨ (3 : ℕ) = 3 := Or.inr rfl
  have t : Octree.Tree inp T := build_tree hd inp
  have hm : 22 / 10 * maxCoor inp ≤ toll := by
    have := maxCoor_le inp (by norm_num : (0 : ℚ) ≤ 1 / 2200) hsmall
    unfold toll
    linarith
  have hadj : ∀ k b, k < T.count → b < T.count → adj 3 (T.blocks k) (T.blocks b) = true := fun k b hk hb => t.adj_small hd hm hk hb
  have hleaf : ∀ k ∈ T.childless, k < T.count ∧ 1 ≤ (T.blocks k).level ∧ T.isLeaf k = true := by
    intro k hk
    have h1 := (t.chl k).1 hk
    refine ⟨h1.1, ?_, (isLeaf_iff k).2 (t.childless_children hk).2⟩
    rcases h1.2 with h2 | h2
    · exact t.links.level_pos h2.1 h1.1
    · omega
  have hall : ∀ k ∈ T.childless, 2 ≤ (T.blocks k).level → T.childless.length ≤ (intList inp T k (numSub inp T k - 1)).card := by
    intro k hk h2
    obtain ⟨k1, -, k3⟩ := hleaf k hk
    rw [← List.toFinset_card_of_nodup t.chlnd]
    refine Finset.card_le_card fun b hb => ?_
    rw [List.mem_toFinset] at hb
    obtain ⟨b1, b2, b3⟩ := hleaf b hb
    have hns : numSub inp T k = inp.levels - (T.blocks k).level + 1 := by unfold numSub; rw [if_pos ⟨k3, h2⟩]
    have stays : ∀ n s, s + n < numSub inp T k → b ∈ intList inp T k s → b ∈ intList inp T k (s + n) := by
      intro n
      induction n with
      | zero => intro s _ h; exact h
      | succ n ih =>
        intro s hs h
        exact t.leaf_stays hd hlev k1 (by omega) (ih s (by omega) h) b3
    have hlb := t.lev_le b b1
    have hlk := t.lev_le k k1
    rcases Nat.lt_or_ge (T.blocks b).level (T.blocks k).level with h | h
    · have h4 := t.nn_all hadj hlev ((T.blocks k).level - 1) k b k1 b1 (by omega) b2 (.inr ⟨by omega, b3⟩)
      have := stays (numSub inp T k - 1) 0 (by omega) (t.nn_sub_int hlev k1 (by omega) (by omega) h4)
      rwa [Nat.zero_add] at this
    · have hs : (T.blocks b).level - (T.blocks k).level < numSub inp T k := by omega
      have h4 := t.nn_all_sub hadj hlev k1 (by omega) _ hs b b1 (by omega)
      have := stays (numSub inp T k - 1 - ((T.blocks b).level - (T.blocks k).level)) _ (by omega)
        (t.nn_sub_int hlev k1 (by omega) hs h4)
      rwa [show (T.blocks b).level - (T.blocks k).level + (numSub inp T k - 1 - ((T.blocks b).level - (T.blocks k).level)) =
        numSub inp T k - 1 by omega] at this
  have hsum : ∀ l : List ℕ, (∀ k ∈ l, k ∈ T.childless) →
      (l.filter fun k => decide (2 ≤ (T.blocks k).level)).length * T.childless.length ≤
        (l.map fun k => (intList inp T k (numSub inp T k - 1)).card).sum := by
    intro l hl
    induction l with
    | nil => simp
    | cons k l ih =>
      have := ih fun j hj => hl j (List.mem_cons_of_mem _ hj)
      rw [List.map_cons, List.sum_cons, List.filter_cons]
      split_ifs with h
      · rw [List.length_cons, Nat.succ_mul]
        have := hall k (hl k List.mem_cons_self) (by simpa using h)
        omega
      · omega
  exact hsum _ fun k hk => hk

/-- The hypotheses are met by four nodes on a line, two levels: there are conversions. -/
theorem C107_example : Resolved line4Input ∧ 1 ≤ line4Input.levels ∧ 0 < conversions line4Input (build line4Input) ∧
    (∀ i, i < line4Input.nDofs → 1 ≤ (line4Input.doubles i).card ∧ (line4Input.doubles i).card ≤ 1) := by
  have hm : maxCoor line4Input = 1 := by decide +kernel
  refine ⟨⟨?_, ?_, ?_⟩, by decide, by decide +kernel, by decide⟩
  · rw [hm]; norm_num [line4Input]
  · rw [hm]
    have : ∀ c, c < 4 → ∀ a, |line4Input.qpos (c, 0) a| ≤ 11 / 10 * 1 := by decide +kernel
    intro c q a hc hq
    have hq0 : q = 0 := by have : q < 1 := hq; omega
    subst hq0
    exact this c hc a
  · rw [hm]
    have : ∀ i, i < 4 → ∀ a, |line4Input.qpos (i, 0) a - line4Input.pos i a| < 22 / 10 * 1 / 2 ^ 2 := by decide +kernel
    intro i p c q a hi hp hc hpc hq
    have hq0 : q = 0 := by have : q < 1 := hq; omega
    have hpi : p = i := by simpa [line4Input] using hp
    have hci : p = c := by
      rcases hpc with h | h
      · simpa [line4Input] using h
      · simp [line4Input] at h
    subst hq0 hpi hci
    exact this p hi a

end PiBem.Fmm
