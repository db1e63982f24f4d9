import Verif.Octree.Geometry
import Verif.Fmm.Cover
import Verif.Octree.Example
import Mathlib.Algebra.BigOperators.Fin

/-!
# Geometric properties of the lists (C07, C08, C13)

`T = build inp` is the tree of an arbitrary input. `m2lSet inp T k s` (`m2pSet inp T k s`) are the
blocks whose multipole expansion is converted in the local expansion of block `k` (evaluated at the
nodes of `k`) by the product at sublevel `s`.
-/

namespace PiBem.Fmm

open PiBem.Octree

variable {d : ℕ}

/-- centre of a block -/
def centre (b : Block d) (a : Fin d) : ℚ := b.pMin a + b.delta / 2

/-- square of the distance -/
def dist2 (x y : Fin 3 → ℚ) : ℚ := ∑ a, (x a - y a) ^ 2

/-- closed box of a block -/
def InBox (b : Block d) (x : Pt d) : Prop := ∀ a, b.pMin a ≤ x a ∧ x a ≤ b.pMin a + b.delta

/-! ## C07 -/

/-- **C07**. If the expansion of block `b` is converted into the local expansion of block `k`, the two
blocks are different, have the same level and side, and along some axis the distance between the two
boxes is at least one side. -/
theorem C07_m2l_separated (hd : d = 2 ∨ d = 3) (inp : Input d) (hlev : 1 ≤ inp.levels) (k s b : ℕ)
    (hk : k < (build inp).count) (hb : b ∈ m2lSet inp (build inp) k s) :
    let T := build inp
    b ≠ k ∧ (T.blocks b).level = (T.blocks k).level ∧ (T.blocks b).delta = (T.blocks k).delta ∧
    ∃ a, (T.blocks b).pMin a + (T.blocks b).delta + (T.blocks k).delta ≤ (T.blocks k).pMin a ∨
      (T.blocks k).pMin a + (T.blocks k).delta + (T.blocks k).delta ≤ (T.blocks b).pMin a := by
  intro T
  have t : Octree.Tree inp T := build_tree hd inp
  unfold m2lSet at hb
  rw [Finset.mem_filter, levelOf_eq t hk] at hb
  obtain ⟨hbn, hrange⟩ := hb
  have h1 : 2 ≤ (T.blocks k).level ∧ s < numSub inp T k := by
    by_contra hh
    unfold nonIntList at hbn
    rw [if_neg hh] at hbn
    simp at hbn
  have hlv := (t.rng _ (t.lev_le k hk) b).2 hrange
  obtain ⟨_, _, h4⟩ := t.nonInt_level hd hlev hk h1.1 h1.2 hbn
  have hs0 : s = 0 := by
    rcases h4 with h4 | h4
    · have := hlv.2; omega
    · exact h4.1
  subst hs0
  have hbn' := hbn
  rw [Tree.nonInt_eq h1.1 h1.2, Finset.mem_sdiff] at hbn'
  have hnn : b ∉ nearNeigh inp T k 0 := fun h =>
    hbn'.2 (t.nn_sub_int hlev hk (by omega) h1.2 h)
  have hδ : (T.blocks b).delta = (T.blocks k).delta := by
    rw [t.delta_eq hk, t.delta_eq hlv.1, hlv.2]
  refine ⟨?_, hlv.2, hδ, ?_⟩
  · rintro rfl
    exact hnn (t.self_mem_nn hlev hk (by omega))
  · obtain ⟨a, ha⟩ := t.not_nn_gap hd hlev hk (by omega) h1.2 hlv.1 (by rw [hlv.2]; rfl) hnn
    unfold Block.pMax at ha
    rw [hδ] at ha
    exact ⟨a, by rw [hδ]; exact ha⟩

example : 6 ∈ m2lSet line4Input (build line4Input) 3 0 ∧ 3 < (build line4Input).count := by
  decide +kernel

/-! ## C08 -/

/-- **C08**. If the expansion of block `b` is evaluated at the nodes of block `k`, each node of `k` is
at distance at least `3/2` sides of `b` from the centre of `b`, along some axis and hence in norm,
and each quadrature point of `b` (if the quadrature points are in the root box) is at distance at most
`sqrt(3)/2` sides from it. -/
theorem C08_m2p_outside_ball (inp : Input 3) (hlev : 1 ≤ inp.levels)
    (hroot : ∀ c q a, c < inp.nCells → q < inp.nq → |inp.qpos (c, q) a| ≤ 11 / 10 * maxCoor inp)
    (k s b : ℕ) (hk : k < (build inp).count) (hb : b ∈ m2pSet inp (build inp) k s) :
    let T := build inp
    let δ := (T.blocks b).delta
    (∀ i ∈ (T.blocks k).nodes, dist2 (inp.pos i) (centre (T.blocks b)) ≥ (3 / 2 * δ) ^ 2) ∧
    (∀ q ∈ (T.blocks b).qps, dist2 (inp.qpos q) (centre (T.blocks b)) ≤ 3 / 4 * δ ^ 2) := by
  intro T δ
  have hd : (3 : ℕ) = 2 ∨ (3 : ℕ) = 3 := Or.inr rfl
  have t : Octree.Tree inp T := build_tree hd inp
  unfold m2pSet at hb
  rw [Finset.mem_filter, levelOf_eq t hk] at hb
  obtain ⟨hbn, hrange⟩ := hb
  have h1 : 2 ≤ (T.blocks k).level ∧ s < numSub inp T k := by
    by_contra hh
    unfold nonIntList at hbn
    rw [if_neg hh] at hbn
    simp at hbn
  obtain ⟨hb0, hbc, h4⟩ := t.nonInt_level hd hlev hk h1.1 h1.2 hbn
  have hle := t.lev_le k hk
  have hlv : (T.blocks b).level = (T.blocks k).level + s := by
    rcases h4 with h4 | h4
    · exact h4
    · exfalso
      have hle' := t.lev_le b hbc
      have r1 := (t.rng _ hle k).1 ⟨hk, rfl⟩
      have hrange' : T.endLevel (T.blocks k).level < b := hrange
      have hmono := t.links.mono k b (by omega) hbc
      omega
  have hδ0 : 0 ≤ δ := t.delta_nonneg hbc
  have hbn' := hbn
  rw [Tree.nonInt_eq h1.1 h1.2, Finset.mem_sdiff] at hbn'
  have hnn : b ∉ nearNeigh inp T k s := fun h =>
    hbn'.2 (t.nn_sub_int hlev hk (by omega) h1.2 h)
  obtain ⟨a, ha⟩ := t.not_nn_gap hd hlev hk (by omega) h1.2 hbc hlv.symm hnn
  refine ⟨?_, ?_⟩
  · intro i hi
    have hi' : i < inp.nDofs := by
      have := mem_root_of_mem t.links hk (x := .inl i) hi
      simpa [Block.Mem, rootBlock] using this
    have hbox := t.item_in_box hd (x := .inl i) (by
      intro a'
      have h5 := Tree.abs_le_maxCoor inp hi' a'
      have h6 := Tree.maxCoor_nonneg inp
      show |inp.pos i a'| ≤ _
      linarith) k hk hi a
    have hbox' : (T.blocks k).pMin a ≤ inp.pos i a ∧ inp.pos i a ≤ (T.blocks k).pMax a := hbox
    have hone : (3 / 2 * δ) ^ 2 ≤ (inp.pos i a - centre (T.blocks b) a) ^ 2 := by
      unfold centre
      unfold Block.pMax at ha hbox'
      have hd' : δ = (T.blocks b).delta := rfl
      rw [← hd'] at ha ⊢
      rcases ha with ha | ha
      · have h7 : 3 / 2 * δ ≤ inp.pos i a - ((T.blocks b).pMin a + δ / 2) := by linarith [hbox'.1]
        exact pow_le_pow_left₀ (by positivity) h7 2
      · have h7 : 3 / 2 * δ ≤ -(inp.pos i a - ((T.blocks b).pMin a + δ / 2)) := by linarith [hbox'.2]
        have := pow_le_pow_left₀ (by positivity) h7 2
        rwa [neg_sq] at this
    refine le_trans hone ?_
    unfold dist2
    exact Finset.single_le_sum (f := fun a => (inp.pos i a - centre (T.blocks b) a) ^ 2)
      (fun a _ => sq_nonneg _) (Finset.mem_univ a)
  · intro q hq
    have hqa := (mem_allQps inp q).1 (mem_root_of_mem t.links hbc (x := .inr q) hq)
    have hbox := t.item_in_box hd (x := .inr q) (fun a' => hroot q.1 q.2 a' hqa.1 hqa.2) b hbc hq
    have hax : ∀ a, (inp.qpos q a - centre (T.blocks b) a) ^ 2 ≤ δ ^ 2 / 4 := by
      intro a
      have h5 : (T.blocks b).pMin a ≤ inp.qpos q a ∧
        inp.qpos q a ≤ (T.blocks b).pMin a + (T.blocks b).delta := hbox a
      have hd' : δ = (T.blocks b).delta := rfl
      unfold centre
      rw [← hd'] at h5 ⊢
      have : |inp.qpos q a - ((T.blocks b).pMin a + δ / 2)| ≤ δ / 2 := by
        rw [abs_le]; constructor <;> linarith [h5.1, h5.2]
      have h6 := pow_le_pow_left₀ (abs_nonneg _) this 2
      rw [sq_abs] at h6
      linarith [h6, show (δ / 2) ^ 2 = δ ^ 2 / 4 by ring]
    unfold dist2
    rw [Fin.sum_univ_three]
    linarith [hax 0, hax 1, hax 2]

example : 5 ∈ m2pSet lineInput (build lineInput) 2 1 ∧ 2 < (build lineInput).count ∧
    ((build lineInput).blocks 2).nodes = [0] ∧ ((build lineInput).blocks 5).qps = [(1, 0)] ∧
    ∀ c < lineInput.nCells, ∀ q < lineInput.nq, ∀ a, |lineInput.qpos (c, q) a| ≤
      11 / 10 * maxCoor lineInput := by
  decide +kernel

/-! ## C13 -/

/-- the boxes of two blocks share a point -/
def Touching (b1 b2 : Block d) : Prop := ∃ x, InBox b1 x ∧ InBox b2 x

/-- **C13**. Two different blocks of the tree that are both leaves, or have the same level, and whose
boxes share a point pass the test used to fill the near neighbours lists. -/
theorem C13_touching_blocks_pass (hd : d = 2 ∨ d = 3) (inp : Input d)
    (k b : ℕ) (hk : k < (build inp).count) (hb : b < (build inp).count) (hne : k ≠ b)
    (hkb : (k ∈ (build inp).childless ∧ b ∈ (build inp).childless) ∨
      ((build inp).blocks k).level = ((build inp).blocks b).level)
    (ht : Touching ((build inp).blocks k) ((build inp).blocks b)) :
    adj d ((build inp).blocks k) ((build inp).blocks b) = true ∧
    adj d ((build inp).blocks b) ((build inp).blocks k) = true := by
  have t : Octree.Tree inp (build inp) := build_tree hd inp
  set T := build inp
  -- the boxes are on two sides of a plane
  have hsep : ∀ k b, k < T.count → b < T.count → k ≠ b → (T.blocks k).level ≤ (T.blocks b).level →
      ((k ∈ T.childless ∧ b ∈ T.childless) ∨ (T.blocks k).level = (T.blocks b).level) →
      ∃ a, (T.blocks k).pMax a ≤ (T.blocks b).pMin a ∨ (T.blocks b).pMax a ≤ (T.blocks k).pMin a := by
    intro k b hk hb hne hle hkb
    obtain ⟨s, hs⟩ : ∃ s, (T.blocks k).level + s = (T.blocks b).level := ⟨_, Nat.add_sub_cancel' hle⟩
    have hanc : Tree.anc T s b ≠ k := by
      rcases Nat.eq_zero_or_pos s with h0 | h0
      · subst h0; exact fun h => hne h.symm
      · rcases hkb with h | h
        · refine t.anc_ne ?_ h0 hb (by omega)
          exact (Tree.isLeaf_iff k).2 (t.childless_children h.1).2
        · omega
    obtain ⟨a, ha⟩ := t.sep_axis hd hk hb hs hanc
    obtain ⟨c1, c2, c3, c4⟩ := t.box_coord hk hb hs a
    have hδ := t.delta_nonneg hb
    refine ⟨a, ?_⟩
    rw [c1, c2, c3, c4]
    have mono : ∀ x y : ℤ, x ≤ y → -(11 / 10) * maxCoor inp + (T.blocks b).delta * (x : ℚ) ≤
        -(11 / 10) * maxCoor inp + (T.blocks b).delta * (y : ℚ) := by
      intro x y hxy
      have : (x : ℚ) ≤ y := by exact_mod_cast hxy
      have := mul_le_mul_of_nonneg_left this hδ
      linarith
    rcases ha with ha | ha
    · exact Or.inl (mono _ _ ha)
    · exact Or.inr (mono _ _ ha)
  have hS : ∃ a, (T.blocks k).pMax a ≤ (T.blocks b).pMin a ∨
      (T.blocks b).pMax a ≤ (T.blocks k).pMin a := by
    rcases Nat.le_total (T.blocks k).level (T.blocks b).level with hle | hle
    · exact hsep k b hk hb hne hle hkb
    · obtain ⟨a, ha⟩ := hsep b k hb hk hne.symm hle
        (hkb.elim (fun h => Or.inl ⟨h.2, h.1⟩) (fun h => Or.inr h.symm))
      exact ⟨a, ha.symm⟩
  obtain ⟨x, hx1, hx2⟩ := ht
  have hov : ∀ a, (T.blocks k).pMin a ≤ (T.blocks b).pMax a ∧
      (T.blocks b).pMin a ≤ (T.blocks k).pMax a := by
    intro a
    exact ⟨le_trans (hx1 a).1 (hx2 a).2, le_trans (hx2 a).1 (hx1 a).2⟩
  refine ⟨Tree.adj_of_touch hd hS hov, Tree.adj_of_touch hd ?_ (fun a => (hov a).symm)⟩
  obtain ⟨a, ha⟩ := hS
  exact ⟨a, ha.symm⟩

example : Touching ((build lineInput).blocks 2) ((build lineInput).blocks 3) ∧
    ((build lineInput).blocks 2).level = ((build lineInput).blocks 3).level ∧
    3 < (build lineInput).count := by
  refine ⟨⟨![-11 / 20, -11 / 10, -11 / 10], ?_, ?_⟩, ?_⟩
  · unfold InBox; decide +kernel
  · unfold InBox; decide +kernel
  · decide +kernel

example : Touching ((build lineInput).blocks 2) ((build lineInput).blocks 4) ∧
    2 ∈ (build lineInput).childless ∧ 4 ∈ (build lineInput).childless ∧
    adj 3 ((build lineInput).blocks 2) ((build lineInput).blocks 4) = true ∧
    adj 3 ((build lineInput).blocks 2) ((build lineInput).blocks 5) = false := by
  refine ⟨⟨![-11 / 20, -11 / 10, -11 / 10], ?_, ?_⟩, ?_⟩
  · unfold InBox; decide +kernel
  · unfold InBox; decide +kernel
  · decide +kernel

/-- **C13**. Boxes passing the test are not farther than the tolerance `0.001` along any axis. -/
theorem C13_passing_blocks_close (hd : d = 2 ∨ d = 3) (b1 b2 : Block d) (h1 : 0 ≤ b1.delta)
    (h2 : 0 ≤ b2.delta) (h : adj d b1 b2 = true) (a : Fin d) :
    b1.pMin a - (b2.pMin a + b2.delta) ≤ 1 / 1000 ∧ b2.pMin a - (b1.pMin a + b1.delta) ≤ 1 / 1000 := by
  have := overlap_of_adj hd h1 h2 h a
  unfold overlapAx at this
  rw [Bool.and_eq_true, decide_eq_true_eq, decide_eq_true_eq] at this
  unfold Block.pMax toll at this
  constructor <;> linarith [this.1, this.2]

end PiBem.Fmm
