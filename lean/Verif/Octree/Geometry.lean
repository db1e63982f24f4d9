import Verif.Octree.ListFacts
import Mathlib.Tactic.Linarith
import Mathlib.Tactic.Positivity
import Mathlib.Tactic.Ring
import Mathlib.Algebra.Order.Group.Unbundled.Int

/-! Geometry of the blocks (helper lemmas): integer coordinates, separation, completeness of the near
neighbours lists. -/

namespace PiBem.Octree

variable {d : ℕ} {inp : Input d} {T : St d}

/-- 0/1 offset of a block in its parent -/
def bit (T : St d) (k : ℕ) (a : Fin d) : ℤ :=
  if ((octants d).getD (T.blocks k).oct (fun _ => false)) a then 1 else 0

theorem bit_range (k : ℕ) (a : Fin d) : 0 ≤ bit T k a ∧ bit T k a ≤ 1 := by
  unfold bit; split_ifs <;> omega

/-- integer coordinates of the corner of a block, in units of its side -/
def coord (T : St d) (k : ℕ) : Fin d → ℤ :=
  if h : (T.blocks k).parent < k then fun a => 2 * coord T (T.blocks k).parent a + bit T k a
  else fun _ => 0
termination_by k

namespace Tree

theorem coord_root (T : St d) (a : Fin d) : coord T 0 a = 0 := by
  unfold coord; rw [dif_neg (by omega)]

theorem coord_succ (t : Tree inp T) {k : ℕ} (h0 : 0 < k) (hk : k < T.count) (a : Fin d) :
    coord T k a = 2 * coord T (T.blocks k).parent a + bit T k a := by
  conv_lhs => unfold coord
  rw [dif_pos (t.links.par k h0 hk).1]

theorem delta_eq (t : Tree inp T) {k : ℕ} (hk : k < T.count) :
    (T.blocks k).delta = sideAt inp (T.blocks k).level := by
  rcases Nat.eq_zero_or_pos k with rfl | h0
  · rw [t.links.root.delta, t.links.root.level]; simp [rootBlock, sideAt]
  · rw [(t.links.kid k h0 hk).delta, (t.links.kid k h0 hk).level]; rfl

theorem sideAt_succ (l : ℕ) : sideAt inp l = 2 * sideAt inp (l + 1) := by
  unfold sideAt; rw [pow_succ]; field_simp

theorem sideAt_add (l s : ℕ) : sideAt inp l = 2 ^ s * sideAt inp (l + s) := by
  unfold sideAt; rw [pow_add]; field_simp

theorem maxCoor_nonneg (inp : Input d) : 0 ≤ maxCoor inp := by
  unfold maxCoor
  have h2 : ∀ (g : Fin d → ℚ) (l : List (Fin d)) (m : ℚ), 0 ≤ m →
      0 ≤ l.foldl (fun m a => max m |g a|) m := by
    intro g l
    induction l with
    | nil => intro m hm; exact hm
    | cons a l ih => intro m hm; exact ih _ (le_max_of_le_left hm)
  have h1 : ∀ (l : List ℕ) (m : ℚ), 0 ≤ m → 0 ≤ l.foldl (fun m i =>
      (List.finRange d).foldl (fun m a => max m |inp.pos i a|) m) m := by
    intro l
    induction l with
    | nil => intro m hm; exact hm
    | cons a l ih => intro m hm; exact ih _ (h2 _ _ _ hm)
  exact h1 _ _ (le_refl _)

theorem sideAt_nonneg (inp : Input d) (l : ℕ) : 0 ≤ sideAt inp l := by
  unfold sideAt
  have := maxCoor_nonneg inp
  positivity

theorem pMin_eq (t : Tree inp T) {k : ℕ} (hk : k < T.count) (a : Fin d) :
    (T.blocks k).pMin a = -(11 / 10) * maxCoor inp +
      sideAt inp (T.blocks k).level * (coord T k a : ℚ) := by
  induction k using Nat.strong_induction_on with
  | _ k ih =>
    rcases Nat.eq_zero_or_pos k with rfl | h0
    · rw [t.links.root.pMin, coord_root T]; simp [rootBlock]
    · have hp := t.links.par k h0 hk
      have := ih _ hp.1 (by omega)
      have hl := t.links.level_eq h0 hk
      have hkid := t.links.kid k h0 hk
      rw [hkid.pMin]
      show childPMin _ _ _ a = _
      unfold childPMin
      rw [this, t.coord_succ h0 hk, hl, sideAt_succ]
      unfold bit
      split_ifs <;> push_cast <;> ring

theorem pMax_eq (t : Tree inp T) {k : ℕ} (hk : k < T.count) (a : Fin d) :
    (T.blocks k).pMax a = -(11 / 10) * maxCoor inp +
      sideAt inp (T.blocks k).level * ((coord T k a : ℚ) + 1) := by
  unfold Block.pMax; rw [t.pMin_eq hk, t.delta_eq hk]; ring

theorem coord_inj (hd : d = 2 ∨ d = 3) (t : Tree inp T) :
    ∀ n, ∀ k b, k < T.count → b < T.count → (T.blocks k).level = n → (T.blocks b).level = n →
    (∀ a, coord T k a = coord T b a) → k = b := by
  intro n
  have hroot : ∀ k, k < T.count → (T.blocks k).level = 0 → k = 0 := by
    intro k hk hl
    rcases Nat.eq_zero_or_pos k with h | h
    · exact h
    · have := t.links.level_pos h hk; omega
  induction n with
  | zero =>
    intro k b hk hb h1 h2 _
    rw [hroot k hk h1, hroot b hb h2]
  | succ n ih =>
    intro k b hk hb h1 h2 hc
    have k0 := t.pos_of_level (k := k) (by omega)
    have b0 := t.pos_of_level (k := b) (by omega)
    have hpk := t.parent_level hk (by omega)
    have hpb := t.parent_level hb (by omega)
    have hbits : ∀ a, coord T (T.blocks k).parent a = coord T (T.blocks b).parent a ∧
        bit T k a = bit T b a := by
      intro a
      have := hc a
      rw [t.coord_succ k0 hk, t.coord_succ b0 hb] at this
      have r1 := bit_range (T := T) k a
      have r2 := bit_range (T := T) b a
      omega
    have hpar := ih _ _ hpk.1 hpb.1 (by omega) (by omega) (fun a => (hbits a).1)
    have hoct : (T.blocks k).oct = (T.blocks b).oct := by
      refine octants_inj hd (t.links.octlt k k0 hk) (t.links.octlt b b0 hb) ?_
      funext a
      have := (hbits a).2
      unfold bit at this
      split_ifs at this with e1 e2 e2
      · rw [e1, e2]
      · omega
      · omega
      · rw [Bool.not_eq_true] at e1 e2; rw [e1, e2]
    have hcb : b ∈ (T.blocks (T.blocks k).parent).children := by rw [hpar]; exact hpb.2.2
    exact t.links.octinj _ hpk.1 k hpk.2.2 b hcb hoct

/-- ancestors -/
def anc (T : St d) : ℕ → ℕ → ℕ
  | 0, b => b
  | s + 1, b => anc T s (T.blocks b).parent

theorem anc_spec (t : Tree inp T) : ∀ s b, b < T.count → s ≤ (T.blocks b).level →
    anc T s b < T.count ∧ (T.blocks (anc T s b)).level + s = (T.blocks b).level ∧
    (∀ a, 2 ^ s * coord T (anc T s b) a ≤ coord T b a ∧
      coord T b a + 1 ≤ 2 ^ s * (coord T (anc T s b) a + 1)) := by
  intro s
  induction s with
  | zero => intro b hb _; simp [anc, hb]
  | succ s ih =>
    intro b hb hl
    have hp := t.parent_level hb (by omega)
    obtain ⟨h1, h2, h3⟩ := ih _ hp.1 (by omega)
    refine ⟨h1, by show (T.blocks (anc T s (T.blocks b).parent)).level + (s + 1) = _; omega, ?_⟩
    intro a
    show 2 ^ (s + 1) * coord T (anc T s (T.blocks b).parent) a ≤ _ ∧
      _ ≤ 2 ^ (s + 1) * (coord T (anc T s (T.blocks b).parent) a + 1)
    have := h3 a
    rw [t.coord_succ (t.pos_of_level (by omega)) hb a, pow_succ]
    have r := bit_range (T := T) b a
    constructor
    · have h4 := this.1
      nlinarith
    · have h4 := this.2
      nlinarith

/-- a block different from the ancestor of `b` at its level is on one side of `b` -/
theorem sep_axis (hd : d = 2 ∨ d = 3) (t : Tree inp T) {k b s : ℕ} (hk : k < T.count)
    (hb : b < T.count) (hl : (T.blocks k).level + s = (T.blocks b).level) (hne : anc T s b ≠ k) :
    ∃ a, 2 ^ s * (coord T k a + 1) ≤ coord T b a ∨ coord T b a + 1 ≤ 2 ^ s * coord T k a := by
  obtain ⟨h1, h2, h3⟩ := t.anc_spec s b hb (by omega)
  by_contra hcon
  push Not at hcon
  refine hne (t.coord_inj hd _ _ _ h1 hk rfl (by omega) ?_)
  intro a
  have h4 := h3 a
  have h5 := hcon a
  have hpos : (0 : ℤ) < 2 ^ s := by positivity
  have u1 : 2 ^ s * coord T (anc T s b) a < 2 ^ s * (coord T k a + 1) := by linarith
  have u2 : 2 ^ s * coord T k a < 2 ^ s * (coord T (anc T s b) a + 1) := by linarith
  have v1 := lt_of_mul_lt_mul_left u1 hpos.le
  have v2 := lt_of_mul_lt_mul_left u2 hpos.le
  omega

end Tree

/-! ### the neighbour test -/

theorem adj_of (hd : d = 2 ∨ d = 3) {b1 b2 : Block d} {a : Fin d} (h1 : touchAx b1 b2 a = true)
    (h2 : ∀ a', overlapAx b1 b2 a' = true) : adj d b1 b2 = true := by
  rcases hd with rfl | rfl
  · simp only [adj, adj2]
    have : a = 0 ∨ a = 1 := by omega
    rcases this with rfl | rfl <;> simp [h1, h2]
  · simp only [adj, adj3]
    have : a = 0 ∨ a = 1 ∨ a = 2 := by omega
    rcases this with rfl | rfl | rfl <;> simp [h1, h2]

theorem overlap_of_touch {b1 b2 : Block d} (hd1 : 0 ≤ b1.delta) (hd2 : 0 ≤ b2.delta) {a : Fin d}
    (h : touchAx b1 b2 a = true) : overlapAx b1 b2 a = true := by
  unfold touchAx at h
  unfold overlapAx
  rw [Bool.or_eq_true, decide_eq_true_eq, decide_eq_true_eq, abs_le, abs_le] at h
  rw [Bool.and_eq_true, decide_eq_true_eq, decide_eq_true_eq]
  unfold Block.pMax at h ⊢
  have : (0 : ℚ) ≤ toll := by unfold toll; norm_num
  rcases h with h | h
  · constructor <;> linarith [h.1, h.2]
  · constructor <;> linarith [h.1, h.2]

theorem overlap_of_adj (hd : d = 2 ∨ d = 3) {b1 b2 : Block d} (hd1 : 0 ≤ b1.delta)
    (hd2 : 0 ≤ b2.delta) (h : adj d b1 b2 = true) (a : Fin d) : overlapAx b1 b2 a = true := by
  have ht : ∀ a, touchAx b1 b2 a = true → overlapAx b1 b2 a = true :=
    fun a => overlap_of_touch hd1 hd2
  rcases hd with rfl | rfl
  · simp only [adj, adj2, Bool.or_eq_true, Bool.and_eq_true] at h
    have : a = 0 ∨ a = 1 := by omega
    rcases this with rfl | rfl <;> rcases h with h | h <;> first | exact h.2 | exact ht _ h.1
  · simp only [adj, adj3, Bool.or_eq_true, Bool.and_eq_true] at h
    have : a = 0 ∨ a = 1 ∨ a = 2 := by omega
    rcases this with rfl | rfl | rfl <;> rcases h with (h | h) | h <;>
      first | exact h.2 | exact h.1.2 | exact ht _ h.1.1

namespace Tree

/-- boxes on the two sides of a plane that touch pass the test -/
theorem adj_of_touch (hd : d = 2 ∨ d = 3) {b1 b2 : Block d}
    (hsep : ∃ a, b1.pMax a ≤ b2.pMin a ∨ b2.pMax a ≤ b1.pMin a)
    (hov : ∀ a, b1.pMin a ≤ b2.pMax a ∧ b2.pMin a ≤ b1.pMax a) : adj d b1 b2 = true := by
  have h0 : (0 : ℚ) ≤ toll := by unfold toll; norm_num
  obtain ⟨a, ha⟩ := hsep
  refine adj_of hd (a := a) ?_ ?_
  · unfold touchAx
    rw [Bool.or_eq_true, decide_eq_true_eq, decide_eq_true_eq]
    rcases ha with ha | ha
    · right
      have : b1.pMax a - b2.pMin a = 0 := by linarith [(hov a).2]
      rw [this]; simpa using h0
    · left
      have : b1.pMin a - b2.pMax a = 0 := by linarith [(hov a).1]
      rw [this]; simpa using h0
  · intro a'
    unfold overlapAx
    rw [Bool.and_eq_true, decide_eq_true_eq, decide_eq_true_eq]
    exact ⟨by linarith [(hov a').1], by linarith [(hov a').2]⟩

/-- the boxes `k` and `b` touch, in terms of the coordinates -/
def Touch (T : St d) (s k b : ℕ) : Prop :=
  ∀ a, 2 ^ s * coord T k a ≤ coord T b a + 1 ∧ coord T b a ≤ 2 ^ s * (coord T k a + 1)

theorem box_coord (t : Tree inp T) {k b s : ℕ} (hk : k < T.count)
    (hb : b < T.count) (hl : (T.blocks k).level + s = (T.blocks b).level) (a : Fin d) :
    (T.blocks k).pMin a = -(11 / 10) * maxCoor inp +
      (T.blocks b).delta * ((2 ^ s * coord T k a : ℤ) : ℚ) ∧
    (T.blocks k).pMax a = -(11 / 10) * maxCoor inp +
      (T.blocks b).delta * ((2 ^ s * (coord T k a + 1) : ℤ) : ℚ) ∧
    (T.blocks b).pMin a = -(11 / 10) * maxCoor inp +
      (T.blocks b).delta * ((coord T b a : ℤ) : ℚ) ∧
    (T.blocks b).pMax a = -(11 / 10) * maxCoor inp +
      (T.blocks b).delta * ((coord T b a + 1 : ℤ) : ℚ) := by
  rw [t.pMin_eq hk, t.pMax_eq hk, t.pMin_eq hb, t.pMax_eq hb, t.delta_eq hb]
  have := sideAt_add (inp := inp) (T.blocks k).level s
  rw [hl] at this
  rw [this]
  push_cast
  refine ⟨by ring, by ring, by ring, by ring⟩

theorem delta_nonneg (t : Tree inp T) {k : ℕ} (hk : k < T.count) : 0 ≤ (T.blocks k).delta := by
  rw [t.delta_eq hk]; exact sideAt_nonneg _ _

theorem adj_of_Touch (hd : d = 2 ∨ d = 3) (t : Tree inp T) {k b s : ℕ} (hk : k < T.count)
    (hb : b < T.count) (hl : (T.blocks k).level + s = (T.blocks b).level) (hne : anc T s b ≠ k)
    (ht : Touch T s k b) : adj d (T.blocks k) (T.blocks b) = true := by
  have hδ := t.delta_nonneg hb
  have mono : ∀ x y : ℤ, x ≤ y → -(11 / 10) * maxCoor inp + (T.blocks b).delta * (x : ℚ) ≤
      -(11 / 10) * maxCoor inp + (T.blocks b).delta * (y : ℚ) := by
    intro x y hxy
    have : (x : ℚ) ≤ y := by exact_mod_cast hxy
    have := mul_le_mul_of_nonneg_left this hδ
    linarith
  refine adj_of_touch hd ?_ ?_
  · obtain ⟨a, ha⟩ := t.sep_axis hd hk hb hl hne
    obtain ⟨c1, c2, c3, c4⟩ := t.box_coord hk hb hl a
    refine ⟨a, ?_⟩
    rw [c1, c2, c3, c4]
    rcases ha with ha | ha
    · exact Or.inl (mono _ _ ha)
    · exact Or.inr (mono _ _ ha)
  · intro a
    obtain ⟨c1, c2, c3, c4⟩ := t.box_coord hk hb hl a
    rw [c1, c2, c3, c4]
    exact ⟨mono _ _ (ht a).1, mono _ _ (ht a).2⟩

theorem touch_parent (t : Tree inp T) {k b : ℕ} (hk : k < T.count) (hb : b < T.count)
    (hl : (T.blocks k).level = (T.blocks b).level) (h1 : 1 ≤ (T.blocks k).level)
    (ht : Touch T 0 k b) : Touch T 0 (T.blocks k).parent (T.blocks b).parent := by
  intro a
  have := ht a
  rw [t.coord_succ (t.pos_of_level h1) hk, t.coord_succ (t.pos_of_level (by omega)) hb] at this
  have r1 := bit_range (T := T) k a
  have r2 := bit_range (T := T) b a
  simp only [pow_zero, one_mul] at this ⊢
  omega

/-- same level blocks that touch are near neighbours -/
theorem nn_complete (hd : d = 2 ∨ d = 3) (t : Tree inp T) (h : 1 ≤ inp.levels) :
    ∀ n, ∀ k b, k < T.count → b < T.count → (T.blocks k).level = n + 1 →
    (T.blocks b).level = n + 1 → Touch T 0 k b → b ∈ nearNeigh inp T k 0 := by
  intro n
  induction n with
  | zero =>
    intro k b hk hb h1 h2 _
    rw [(t.nearNeigh_table h).2 k hk h1, if_pos rfl, List.mem_toFinset, t.mem_levelIds h]
    exact ⟨hb, h2⟩
  | succ n ih =>
    intro k b hk hb h1 h2 ht
    rw [t.nearNeigh_zero h hk (by omega), mem_nnFirst]
    by_cases hbk : b = k
    · exact Or.inl hbk
    · right
      have hpk := t.parent_level hk (by omega)
      have hpb := t.parent_level hb (by omega)
      refine ⟨t.adj_of_Touch hd hk hb (s := 0) (by omega) hbk ht, ?_⟩
      exact mem_refine_child (ih _ _ hpk.1 hpb.1 (by omega) (by omega)
        (t.touch_parent hk hb (by omega) (by omega) ht)) hpb.2.2

/-- the ancestors of a touching block touch -/
theorem touch_up (t : Tree inp T) {k b s : ℕ} (hb : b < T.count) (hl : 1 ≤ (T.blocks b).level)
    (ht : Touch T (s + 1) k b) : Touch T s k (T.blocks b).parent := by
  intro a
  have := ht a
  rw [t.coord_succ (t.pos_of_level hl) hb, pow_succ] at this
  have r := bit_range (T := T) b a
  constructor
  · have h1 := this.1
    have : 2 ^ s * coord T k a * 2 ≤ 2 * coord T (T.blocks b).parent a + 2 := by
      have e : 2 ^ s * 2 * coord T k a = 2 ^ s * coord T k a * 2 := by ring
      linarith [r.2]
    omega
  · have h1 := this.2
    have : 2 * coord T (T.blocks b).parent a ≤ 2 ^ s * (coord T k a + 1) * 2 := by
      have e : 2 ^ s * 2 * (coord T k a + 1) = 2 ^ s * (coord T k a + 1) * 2 := by ring
      linarith [r.1]
    omega

theorem anc_ne (t : Tree inp T) {k b s : ℕ} (hleaf : T.isLeaf k = true) (hs : 0 < s)
    (hb : b < T.count) (hl : s ≤ (T.blocks b).level) : anc T s b ≠ k := by
  have key : ∀ s b, b < T.count → s + 1 ≤ (T.blocks b).level →
      (T.blocks (anc T (s + 1) b)).children ≠ [] := by
    intro s
    induction s with
    | zero =>
      intro b hb hl
      have hp := t.parent_level hb (by omega)
      show (T.blocks (T.blocks b).parent).children ≠ []
      intro h; rw [h] at hp; simp at hp
    | succ s ih =>
      intro b hb hl
      have hp := t.parent_level hb (by omega)
      exact ih _ hp.1 (by omega)
  intro he
  obtain ⟨s', rfl⟩ : ∃ s', s = s' + 1 := ⟨s - 1, by omega⟩
  have := key s' b hb hl
  rw [he] at this
  exact this ((isLeaf_iff k).1 hleaf)

/-- smaller blocks that touch a leaf are near neighbours of the sublevel -/
theorem nn_complete_sub (hd : d = 2 ∨ d = 3) (t : Tree inp T) (h : 1 ≤ inp.levels) {k : ℕ}
    (hk : k < T.count) (hl1 : 1 ≤ (T.blocks k).level) :
    ∀ s, s < numSub inp T k → ∀ b, b < T.count → (T.blocks k).level + s = (T.blocks b).level →
    Touch T s k b → b ∈ nearNeigh inp T k s := by
  intro s
  induction s with
  | zero =>
    intro _ b hb hl ht
    exact t.nn_complete hd h ((T.blocks k).level - 1) k b hk hb (by omega) (by omega) ht
  | succ s ih =>
    intro hs b hb hl ht
    have hls := numSub_gt_one hs
    have hpb := t.parent_level hb (by omega)
    rw [t.nearNeigh_succ h hk hls.2.1 hs, mem_nnNext]
    right
    refine ⟨t.adj_of_Touch hd hk hb hl (t.anc_ne hls.1 (by omega) hb (by omega)) ht,
      (T.blocks b).parent, ih (by omega) _ hpb.1 (by omega) (t.touch_up hb (by omega) ht), hpb.2.2⟩

/-- a block that is not a near neighbour is separated along some axis by at least one (small) side -/
theorem not_nn_gap (hd : d = 2 ∨ d = 3) (t : Tree inp T) (h : 1 ≤ inp.levels) {k : ℕ}
    (hk : k < T.count) (hl1 : 1 ≤ (T.blocks k).level) {s : ℕ} (hs : s < numSub inp T k) {b : ℕ}
    (hb : b < T.count) (hl : (T.blocks k).level + s = (T.blocks b).level)
    (hn : b ∉ nearNeigh inp T k s) :
    ∃ a, (T.blocks b).pMax a + (T.blocks b).delta ≤ (T.blocks k).pMin a ∨
      (T.blocks k).pMax a + (T.blocks b).delta ≤ (T.blocks b).pMin a := by
  have hnt : ¬ Touch T s k b := fun ht => hn (t.nn_complete_sub hd h hk hl1 s hs b hb hl ht)
  unfold Touch at hnt
  push Not at hnt
  obtain ⟨a, ha⟩ := hnt
  have hδ := t.delta_nonneg hb
  have mono : ∀ x y : ℤ, x + 1 ≤ y → -(11 / 10) * maxCoor inp + (T.blocks b).delta * (x : ℚ) +
      (T.blocks b).delta ≤ -(11 / 10) * maxCoor inp + (T.blocks b).delta * (y : ℚ) := by
    intro x y hxy
    have : (x : ℚ) + 1 ≤ y := by exact_mod_cast hxy
    have := mul_le_mul_of_nonneg_left this hδ
    linarith
  obtain ⟨c1, c2, c3, c4⟩ := t.box_coord hk hb hl a
  refine ⟨a, ?_⟩
  rw [c1, c2, c3, c4]
  by_cases h1 : 2 ^ s * coord T k a ≤ coord T b a + 1
  · right; exact mono _ _ (by have := ha h1; omega)
  · left; exact mono _ _ (by omega)

/-- the leaves of a list stay in the next one -/
theorem leaf_stays (hd : d = 2 ∨ d = 3) (t : Tree inp T) (h : 1 ≤ inp.levels) {k : ℕ}
    (hk : k < T.count) {s : ℕ} (hs : s + 1 < numSub inp T k) {b : ℕ}
    (hb : b ∈ intList inp T k s) (hleaf : T.isLeaf b = true) : b ∈ intList inp T k (s + 1) := by
  have hls := numSub_gt_one hs
  rw [t.intList_eq h hk hls.2.1 hs, Finset.mem_union]
  rw [t.intList_eq h hk hls.2.1 (by omega), Finset.mem_union] at hb
  rcases hb with hb | hb
  · left
    rw [t.nearNeigh_succ h hk hls.2.1 hs, mem_nnNext]
    exact Or.inl ⟨hb, hleaf⟩
  · right
    rw [mem_singBlocks] at hb ⊢
    obtain ⟨i, hi, p, hp, c, hc, hpc, j, hj, rfl⟩ := hb
    refine ⟨i, hi, p, hp, c, hc, hpc, j, hj, ?_⟩
    have hq : (c, j) ∈ allQps inp := (mem_allQps _ _).2 ⟨hc, hj⟩
    have hsucc := t.qpb_succ hd hq (l := (T.blocks k).level + s) (by omega) (by omega)
      (S := {(T.qpb (c, j)).getD ((T.blocks k).level + s) 0}) (Finset.mem_singleton_self _)
    rw [mem_refine] at hsucc
    rcases hsucc with h1 | ⟨p', hp', hl', _⟩
    · rw [Finset.mem_singleton] at h1; exact h1.1
    · rw [Finset.mem_singleton] at hp'
      rw [hp', hleaf] at hl'
      exact absurd hl' (by simp)

/-- members of the non interaction lists of the inner sublevels have exactly that level -/
theorem nonInt_level (hd : d = 2 ∨ d = 3) (t : Tree inp T) (h : 1 ≤ inp.levels) {k : ℕ}
    (hk : k < T.count) (hl2 : 2 ≤ (T.blocks k).level) {s : ℕ} (hs : s < numSub inp T k) {b : ℕ}
    (hb : b ∈ nonIntList inp T k s) :
    0 < b ∧ b < T.count ∧ ((T.blocks b).level = (T.blocks k).level + s ∨
      (s = 0 ∧ (T.blocks b).level < (T.blocks k).level ∧ T.isLeaf b = true)) := by
  rw [nonInt_eq hl2 hs, Finset.mem_sdiff] at hb
  have hok : OkSet T ((T.blocks k).level + s) (refine T (prevList inp T k s)) := by
    unfold prevList
    rcases s with _ | s
    · rw [if_pos rfl]
      have hp := t.parent_level hk (by omega)
      have := t.okSet_refine (t.okSet_int hd h hp.1 (by omega) (numSub_pos _))
      rwa [show (T.blocks (T.blocks k).parent).level + 0 + 1 = (T.blocks k).level + 0 by omega] at this
    · rw [if_neg (by omega)]
      exact t.okSet_refine (t.okSet_int hd h hk (by omega) (s := s) (by omega))
  obtain ⟨h0, h1, h2⟩ := hok b hb.1
  refine ⟨h0, h1, ?_⟩
  rcases h2 with h2 | h2
  · exact Or.inl h2
  · rcases s with _ | s
    · exact Or.inr ⟨rfl, h2.1, h2.2⟩
    · exfalso
      rw [mem_refine] at hb
      rcases hb.1 with ⟨h3, _⟩ | ⟨p, hp, hpl, hc⟩
      · have : prevList inp T k (s + 1) = intList inp T k s := by simp [prevList]
        rw [this] at h3
        exact hb.2 (t.leaf_stays hd h hk hs h3 h2.2)
      · -- a child of a subdivided block of the previous list
        have : prevList inp T k (s + 1) = intList inp T k s := by simp [prevList]
        rw [this] at hp
        obtain ⟨p0, p1, p2⟩ := t.okSet_int hd h hk (by omega) (s := s) (by omega) p hp
        have hcc := t.links.chi p p1 b hc
        have hlb := t.links.level_eq h0 h1
        rw [hcc.2.2] at hlb
        rcases p2 with p2 | p2
        · omega
        · rw [hpl] at p2; exact absurd p2.2 (by simp)

/-! ### items are inside the boxes -/

theorem abs_le_maxCoor (inp : Input d) {i : ℕ} (hi : i < inp.nDofs) (a : Fin d) :
    |inp.pos i a| ≤ maxCoor inp := by
  unfold maxCoor
  have g1 : ∀ (g : Fin d → ℚ) (l : List (Fin d)) (m : ℚ),
      m ≤ l.foldl (fun m a => max m |g a|) m ∧
      ∀ a ∈ l, |g a| ≤ l.foldl (fun m a => max m |g a|) m := by
    intro g l
    induction l with
    | nil => intro m; simp
    | cons b l ih =>
      intro m
      obtain ⟨h1, h2⟩ := ih (max m |g b|)
      refine ⟨le_trans (le_max_left _ _) h1, ?_⟩
      intro a ha
      rcases List.mem_cons.1 ha with rfl | ha
      · exact le_trans (le_max_right _ _) h1
      · exact h2 a ha
  have g2 : ∀ (l : List ℕ) (m : ℚ),
      m ≤ l.foldl (fun m i => (List.finRange d).foldl (fun m a => max m |inp.pos i a|) m) m ∧
      ∀ i ∈ l, ∀ a, |inp.pos i a| ≤
        l.foldl (fun m i => (List.finRange d).foldl (fun m a => max m |inp.pos i a|) m) m := by
    intro l
    induction l with
    | nil => intro m; simp
    | cons b l ih =>
      intro m
      obtain ⟨h1, h2⟩ := ih ((List.finRange d).foldl (fun m a => max m |inp.pos b a|) m)
      have h3 := g1 (inp.pos b) (List.finRange d) m
      refine ⟨le_trans h3.1 h1, ?_⟩
      intro i hi a
      rcases List.mem_cons.1 hi with rfl | hi
      · exact le_trans (h3.2 a (List.mem_finRange a)) h1
      · exact h2 i hi a
  exact (g2 (List.range inp.nDofs) 0).2 i (List.mem_range.2 hi) a

/-- an item inside the root box is inside every block containing it -/
theorem item_in_box (hd : d = 2 ∨ d = 3) (t : Tree inp T) {x : Item}
    (hx : ∀ a, |ipos inp x a| ≤ 11 / 10 * maxCoor inp) :
    ∀ k, k < T.count → (T.blocks k).Mem x → ∀ a,
      (T.blocks k).pMin a ≤ ipos inp x a ∧ ipos inp x a ≤ (T.blocks k).pMax a := by
  intro k
  induction k using Nat.strong_induction_on with
  | _ k ih =>
    intro hk hm a
    rcases Nat.eq_zero_or_pos k with rfl | h0
    · have := hx a
      rw [abs_le] at this
      unfold Block.pMax
      rw [t.links.root.pMin, t.links.root.delta]
      simp only [rootBlock]
      constructor <;> linarith [this.1, this.2]
    · have hp := t.links.par k h0 hk
      have hkid := t.links.kid k h0 hk
      have hmk := (hkid.mem x).1 hm
      unfold kidOf at hmk
      rw [mem_mkChild] at hmk
      have hI := ih _ hp.1 (by omega) hmk.1 a
      have hoct := octant_childIdx hd (T.blocks (T.blocks k).parent).pMin
        (sideAt inp ((T.blocks (T.blocks k).parent).level + 1)) (ipos inp x) a
      rw [hmk.2] at hoct
      unfold Block.pMax at hI ⊢
      rw [t.delta_eq (by omega : (T.blocks k).parent < T.count), sideAt_succ] at hI
      rw [hkid.pMin, hkid.delta]
      simp only [kidOf, mkChild, childPMin]
      rw [hoct]
      by_cases hlt : (T.blocks (T.blocks k).parent).pMin a +
          sideAt inp ((T.blocks (T.blocks k).parent).level + 1) < ipos inp x a
      · simp only [hlt, decide_true, if_true]
        constructor <;> linarith [hI.1, hI.2]
      · simp only [hlt, decide_false, Bool.false_eq_true, if_false, add_zero]
        constructor <;> linarith [hI.1, hI.2]

end Tree
end PiBem.Octree
