import Verif.Octree.Geometry
import Mathlib.Data.Int.Interval
import Mathlib.Data.Fintype.BigOperators

/-! Grid coordinates of the blocks and counting of the blocks next to a block (helper lemmas). -/

namespace PiBem.Octree

variable {d : ℕ} {inp : Input d} {T : St d}

/-- lower end of a block in units of the side of the blocks of level `L` -/
def lo (T : St d) (L k : ℕ) (a : Fin d) : ℤ := 2 ^ (L - (T.blocks k).level) * coord T k a

/-- upper end -/
def hi (T : St d) (L k : ℕ) (a : Fin d) : ℤ := 2 ^ (L - (T.blocks k).level) * (coord T k a + 1)

/-- the closed boxes have a point in common, in terms of the coordinates of level `L` -/
def Meet (T : St d) (L k b : ℕ) : Prop := ∀ a, lo T L k a ≤ hi T L b a ∧ lo T L b a ≤ hi T L k a

theorem Meet.symm {L k b : ℕ} (h : Meet T L k b) : Meet T L b k := fun a => (h a).symm

namespace Tree

theorem lo_hi (t : Tree inp T) {k L : ℕ} (hk : k < T.count) (hl : (T.blocks k).level ≤ L) (a : Fin d) :
    (T.blocks k).pMin a = -(11 / 10) * maxCoor inp + sideAt inp L * (lo T L k a : ℚ) ∧
    (T.blocks k).pMax a = -(11 / 10) * maxCoor inp + sideAt inp L * (hi T L k a : ℚ) := by
  rw [t.pMin_eq hk, t.pMax_eq hk]
  have := sideAt_add (inp := inp) (T.blocks k).level (L - (T.blocks k).level)
  rw [Nat.add_sub_cancel' hl] at this
  rw [this]
  unfold lo hi
  push_cast
  constructor <;> ring

/-- boxes closer than a side of level `L` meet -/
theorem meet_of_close (t : Tree inp T) {k b L : ℕ} (hk : k < T.count) (hb : b < T.count)
    (hlk : (T.blocks k).level ≤ L) (hlb : (T.blocks b).level ≤ L)
    (h : ∀ a, (T.blocks k).pMin a - (T.blocks b).pMax a < sideAt inp L ∧
      (T.blocks b).pMin a - (T.blocks k).pMax a < sideAt inp L) : Meet T L k b := by
  intro a
  obtain ⟨k1, k2⟩ := t.lo_hi hk hlk a
  obtain ⟨b1, b2⟩ := t.lo_hi hb hlb a
  obtain ⟨h1, h2⟩ := h a
  rw [k1, b2] at h1
  rw [b1, k2] at h2
  have hs := sideAt_nonneg inp L
  have key : ∀ x y : ℤ, sideAt inp L * (x : ℚ) - sideAt inp L * (y : ℚ) < sideAt inp L → x ≤ y := by
    intro x y hxy
    by_contra hc
    have : (y : ℚ) + 1 ≤ x := by exact_mod_cast (by omega : y + 1 ≤ x)
    have := mul_le_mul_of_nonneg_left this hs
    linarith
  exact ⟨key _ _ (by linarith), key _ _ (by linarith)⟩

/-- meeting does not depend on the level of the coordinates -/
theorem meet_level {k b L M : ℕ} (hlk : (T.blocks k).level ≤ L) (hlb : (T.blocks b).level ≤ L) (hLM : L ≤ M)
    (h : Meet T M k b) : Meet T L k b := by
  intro a
  have hp : (0 : ℤ) < 2 ^ (M - L) := by positivity
  have e : ∀ j, (T.blocks j).level ≤ L → lo T M j a = 2 ^ (M - L) * lo T L j a ∧ hi T M j a = 2 ^ (M - L) * hi T L j a := by
    intro j hj
    unfold lo hi
    rw [show M - (T.blocks j).level = (M - L) + (L - (T.blocks j).level) by omega, pow_add]
    constructor <;> ring
  have h1 := h a
  rw [(e k hlk).1, (e k hlk).2, (e b hlb).1, (e b hlb).2] at h1
  exact ⟨le_of_mul_le_mul_left h1.1 hp, le_of_mul_le_mul_left h1.2 hp⟩

/-- two blocks over one box of level `L` are equal if the bigger one is a leaf or they have the same level -/
theorem eq_of_cell (hd : d = 2 ∨ d = 3) (t : Tree inp T) {k b L : ℕ} (hk : k < T.count) (hb : b < T.count)
    (hlb : (T.blocks b).level ≤ L)
    (hle : (T.blocks k).level ≤ (T.blocks b).level)
    (hleaf : (T.blocks k).level = (T.blocks b).level ∨ T.isLeaf k = true) (z : Fin d → ℤ)
    (hzk : ∀ a, lo T L k a ≤ z a ∧ z a < hi T L k a) (hzb : ∀ a, lo T L b a ≤ z a ∧ z a < hi T L b a) : k = b := by
  obtain ⟨s, hs⟩ : ∃ s, (T.blocks k).level + s = (T.blocks b).level := ⟨_, Nat.add_sub_cancel' hle⟩
  have hanc : anc T s b = k := by
    by_contra hne
    obtain ⟨a, ha⟩ := t.sep_axis hd hk hb hs hne
    have h1 := hzk a
    have h2 := hzb a
    unfold lo hi at h1 h2
    rw [show L - (T.blocks k).level = (L - (T.blocks b).level) + s by omega, pow_add] at h1
    have hp : (0 : ℤ) < 2 ^ (L - (T.blocks b).level) := by positivity
    rcases ha with ha | ha
    · have := mul_le_mul_of_nonneg_left ha hp.le
      nlinarith [h1.2, h2.1]
    · have := mul_le_mul_of_nonneg_left ha hp.le
      nlinarith [h1.1, h2.2]
  rcases Nat.eq_zero_or_pos s with h0 | h0
  · subst h0; exact hanc.symm
  · rcases hleaf with h | h
    · omega
    · exact absurd hanc (t.anc_ne h h0 hb (by omega))

/-- a box of level `L` next to `B` and inside a block of level at most `L` that meets `B` -/
theorem exists_cell {k B L : ℕ} (hB : (T.blocks B).level = L) (h : Meet T L k B) :
    ∃ e : Fin d → ℤ, (∀ a, e a ∈ Finset.Icc (-1 : ℤ) 1) ∧
      ∀ a, lo T L k a ≤ coord T B a + e a ∧ coord T B a + e a < hi T L k a := by
  have hlt : ∀ a, lo T L k a < hi T L k a := fun a => by
    unfold lo hi
    have : (0 : ℤ) < 2 ^ (L - (T.blocks k).level) := by positivity
    linarith [mul_add (2 ^ (L - (T.blocks k).level) : ℤ) (coord T k a) 1]
  have hm : ∀ a, lo T L k a ≤ coord T B a + 1 ∧ coord T B a ≤ hi T L k a := fun a => by
    have := h a
    unfold lo hi at this ⊢
    rw [hB, Nat.sub_self, pow_zero, one_mul, one_mul] at this
    exact this
  refine ⟨fun a => max (lo T L k a) (min (coord T B a) (hi T L k a - 1)) - coord T B a, fun a => ?_, fun a => ?_⟩
  · have := hlt a; have := hm a
    rw [Finset.mem_Icc]; dsimp only; omega
  · have := hlt a; have := hm a
    dsimp only; omega

/-- the blocks of a set meeting `B`, of its level or bigger leaves, are at most `3^d` -/
theorem card_meet (hd : d = 2 ∨ d = 3) (t : Tree inp T) {B L : ℕ} (hB : (T.blocks B).level = L) (S : Finset ℕ)
    (hS : ∀ k ∈ S, k < T.count ∧ Meet T L k B ∧ ((T.blocks k).level = L ∨ ((T.blocks k).level < L ∧ T.isLeaf k = true))) :
    S.card ≤ 3 ^ d := by
  choose e he hc using fun k (hk : k ∈ S) => exists_cell (T := T) hB (hS k hk).2.1
  have hinj : Set.InjOn (fun k => if h : k ∈ S then e k h else fun _ => 0) (S : Set ℕ) := by
    intro k hk b hb hkb
    simp only [Finset.mem_coe] at hk hb
    simp only [hk, hb, dif_pos] at hkb
    have ck := hc k hk
    have cb := hc b hb
    rw [← hkb] at cb
    obtain ⟨k1, -, k3⟩ := hS k hk
    obtain ⟨b1, -, b3⟩ := hS b hb
    rcases Nat.le_total (T.blocks k).level (T.blocks b).level with hle | hle
    · refine t.eq_of_cell hd k1 b1 (by omega) hle ?_ _ ck cb
      rcases k3 with k3 | k3
      · left; omega
      · exact .inr k3.2
    · refine (t.eq_of_cell hd b1 k1 (by omega) hle ?_ _ cb ck).symm
      rcases b3 with b3 | b3
      · left; omega
      · exact .inr b3.2
  have hmaps : ∀ k ∈ S, (fun k => if h : k ∈ S then e k h else fun _ => 0) k ∈
      Fintype.piFinset (fun _ : Fin d => Finset.Icc (-1 : ℤ) 1) := by
    intro k hk
    simp only [hk, dif_pos, Fintype.mem_piFinset]
    exact he k hk
  refine (Finset.card_le_card_of_injOn _ hmaps hinj).trans_eq ?_
  rw [Fintype.card_piFinset]
  simp

/-- at most `3^d - 1` bigger leaves meet a subdivided block -/
theorem card_meet_leaves (hd : d = 2 ∨ d = 3) (t : Tree inp T) {B L : ℕ} (hb : B < T.count) (hB : (T.blocks B).level = L) (S : Finset ℕ)
    (hS : ∀ k ∈ S, k < T.count ∧ Meet T L k B ∧ (T.blocks k).level ≤ L ∧ T.isLeaf k = true ∧ k ≠ B) :
    S.card + 1 ≤ 3 ^ d := by
  by_cases hBS : B ∈ S
  · exact absurd rfl (hS B hBS).2.2.2.2
  rw [← Finset.card_insert_of_notMem hBS]
  refine t.card_meet hd hB _ fun k hk => ?_
  rcases Finset.mem_insert.1 hk with rfl | hk
  · refine ⟨hb, fun a => ?_, .inl hB⟩
    have : (0 : ℤ) ≤ 2 ^ (L - (T.blocks k).level) := by positivity
    unfold lo hi
    rw [mul_add]
    constructor <;> linarith
  · obtain ⟨h1, h2, h3, h4, -⟩ := hS k hk
    refine ⟨h1, h2, ?_⟩
    rcases Nat.lt_or_eq_of_le h3 with h | h
    · exact .inr ⟨h, h4⟩
    · exact .inl h

/-! ### the lists only hold blocks meeting the block -/

/-- the test for the neighbours is exact when the finest side exceeds the tolerance -/
theorem meet_of_adj (hd : d = 2 ∨ d = 3) (t : Tree inp T) (htoll : toll < sideAt inp inp.levels) {k b : ℕ} (hk : k < T.count)
    (hb : b < T.count) (h : adj d (T.blocks k) (T.blocks b) = true) : Meet T inp.levels k b := by
  refine t.meet_of_close hk hb (t.lev_le k hk) (t.lev_le b hb) fun a => ?_
  have := overlap_of_adj hd (t.delta_nonneg hk) (t.delta_nonneg hb) h a
  unfold overlapAx at this
  rw [Bool.and_eq_true, decide_eq_true_eq, decide_eq_true_eq] at this
  constructor <;> linarith [this.1, this.2]

theorem meet_self (L k : ℕ) : Meet T L k k := fun a => by
  have : (0 : ℤ) ≤ 2 ^ (L - (T.blocks k).level) := by positivity
  unfold lo hi
  rw [mul_add]
  constructor <;> linarith

theorem meet_nn (hd : d = 2 ∨ d = 3) (t : Tree inp T) (h : 1 ≤ inp.levels) (htoll : toll < sideAt inp inp.levels) {k : ℕ}
    (hk : k < T.count) (hl : 1 ≤ (T.blocks k).level) :
    ∀ s, s < numSub inp T k → ∀ b ∈ nearNeigh inp T k s, Meet T inp.levels k b := by
  have lev1 : ∀ k b, k < T.count → b < T.count → (T.blocks k).level = 1 → (T.blocks b).level = 1 → Meet T inp.levels k b := by
    intro k b hk hb h1 h2 a
    have c : ∀ j, j < T.count → (T.blocks j).level = 1 → 0 ≤ coord T j a ∧ coord T j a ≤ 1 := by
      intro j hj hj1
      have h0 := t.pos_of_level (k := j) (by omega)
      have hp := t.parent_level hj (by omega)
      have hroot : (T.blocks j).parent = 0 := by
        by_contra hne
        have := t.links.level_pos (Nat.pos_of_ne_zero hne) hp.1
        omega
      rw [t.coord_succ h0 hj, hroot, coord_root]
      have := bit_range (T := T) j a
      omega
    have := c k hk h1
    have := c b hb h2
    unfold lo hi
    rw [h1, h2]
    have hp : (0 : ℤ) ≤ 2 ^ (inp.levels - 1) := by positivity
    constructor <;> exact mul_le_mul_of_nonneg_left (by omega) hp
  intro s
  induction s with
  | zero =>
    intro _ b hb
    rcases Nat.lt_or_ge 1 (T.blocks k).level with h2 | h2
    · have hbc := (t.okSet_nn_zero h hk hl b hb).2.1
      rw [t.nearNeigh_zero h hk h2, mem_nnFirst] at hb
      rcases hb with rfl | hb
      · exact meet_self _ _
      · exact t.meet_of_adj hd htoll hk hbc hb.1
    · have hl1 : (T.blocks k).level = 1 := by omega
      rw [(t.nearNeigh_table h).2 k hk hl1, if_pos rfl, List.mem_toFinset, t.mem_levelIds h] at hb
      exact lev1 k b hk hb.1 hl1 hb.2
  | succ s ih =>
    intro hs b hb
    have hbc := (t.okSet_nn h hk hl hs b hb).2.1
    rw [t.nearNeigh_succ h hk (numSub_gt_one hs).2.1 hs, mem_nnNext] at hb
    rcases hb with hb | hb
    · exact ih (by omega) b hb.1
    · exact t.meet_of_adj hd htoll hk hbc hb.1

theorem meet_sing (hd : d = 2 ∨ d = 3) (t : Tree inp T)
    (hroot : ∀ c q a, c < inp.nCells → q < inp.nq → |inp.qpos (c, q) a| ≤ 11 / 10 * maxCoor inp)
    (hcell : ∀ i p c q a, i < inp.nDofs → p ∈ inp.doubles i → c < inp.nCells → (p ∈ inp.cellDofs c ∨ c ∈ inp.oldElems p) → q < inp.nq →
      |inp.qpos (c, q) a - inp.pos i a| < sideAt inp inp.levels) {k : ℕ}
    (hk : k < T.count) {s : ℕ} (hl : (T.blocks k).level + s ≤ inp.levels) {b : ℕ} (hb : b ∈ singBlocks inp T k s) :
    Meet T inp.levels k b := by
  rw [mem_singBlocks] at hb
  obtain ⟨i, hi, p, hp, c, hc, hpc, j, hj, rfl⟩ := hb
  obtain ⟨b1, b2, -⟩ := t.qpb_get ((mem_allQps inp (c, j)).2 ⟨hc, hj⟩) hl
  set b := (T.qpb (c, j)).getD ((T.blocks k).level + s) 0
  have hi' : i < inp.nDofs := by
    have := mem_root_of_mem t.links hk (x := .inl i) hi
    simpa [Block.Mem, rootBlock] using this
  refine t.meet_of_close hk b1 (t.lev_le k hk) (t.lev_le b b1) fun a => ?_
  have x1 := t.item_in_box hd (x := .inl i) (fun a' => by
    have h5 := abs_le_maxCoor inp hi' a'
    have h6 := maxCoor_nonneg inp
    show |inp.pos i a'| ≤ _
    linarith) k hk hi a
  have x2 := t.item_in_box hd (x := .inr (c, j)) (fun a' => hroot c j a' hc hj) b b1 b2 a
  have h3 := abs_lt.1 (hcell i p c j a hi' hp hc hpc hj)
  have y1 : (T.blocks k).pMin a ≤ inp.pos i a ∧ inp.pos i a ≤ (T.blocks k).pMax a := x1
  have y2 : (T.blocks b).pMin a ≤ inp.qpos (c, j) a ∧ inp.qpos (c, j) a ≤ (T.blocks b).pMax a := x2
  constructor <;> linarith [h3.1, h3.2, y1.1, y1.2, y2.1, y2.2]

theorem meet_int (hd : d = 2 ∨ d = 3) (t : Tree inp T) (h : 1 ≤ inp.levels) (htoll : toll < sideAt inp inp.levels)
    (hroot : ∀ c q a, c < inp.nCells → q < inp.nq → |inp.qpos (c, q) a| ≤ 11 / 10 * maxCoor inp)
    (hcell : ∀ i p c q a, i < inp.nDofs → p ∈ inp.doubles i → c < inp.nCells → (p ∈ inp.cellDofs c ∨ c ∈ inp.oldElems p) → q < inp.nq →
      |inp.qpos (c, q) a - inp.pos i a| < sideAt inp inp.levels) {k : ℕ}
    (hk : k < T.count) (hl : 1 ≤ (T.blocks k).level) {s : ℕ} (hs : s < numSub inp T k) {b : ℕ} (hb : b ∈ intList inp T k s) :
    Meet T inp.levels k b := by
  rcases Nat.lt_or_ge 1 (T.blocks k).level with h2 | h2
  · rw [t.intList_eq h hk h2 hs, Finset.mem_union] at hb
    rcases hb with hb | hb
    · exact t.meet_nn hd h htoll hk hl s hs b hb
    · exact t.meet_sing hd hroot hcell hk (t.numSub_level hk hs) hb
  · have hl1 : (T.blocks k).level = 1 := by omega
    have hn : numSub inp T k = 1 := by unfold numSub; rw [if_neg]; omega
    have hs0 : s = 0 := by omega
    subst hs0
    rw [t.intList_level1 h hk hl1] at hb
    refine t.meet_nn hd h htoll hk hl 0 hs b ?_
    rw [(t.nearNeigh_table h).2 k hk hl1, if_pos rfl]
    exact hb

end Tree
end PiBem.Octree
