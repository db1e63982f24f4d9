import Verif.Props.SmallDomain
import Verif.Octree.Near

/-!
# C109: position of the surface with respect to the origin

The root block of the octree is a cube around the origin, not around the surface.
-/

noncomputable section

namespace PiBem.Fmm

open PiBem.Octree PiBem.Bem

variable {d : ℕ}

/-- The coordinates of any two nodes or quadrature points of the mesh differ by at most `w`. -/
def Extent (w : ℚ) (inp : Input d) : Prop :=
  (∀ i j a, i < inp.nDofs → j < inp.nDofs → |inp.pos i a - inp.pos j a| ≤ w) ∧
  (∀ i c q a, i < inp.nDofs → c < inp.nCells → q < inp.nq → |inp.pos i a - inp.qpos (c, q) a| ≤ w) ∧
  ∀ c q c' q' a, c < inp.nCells → q < inp.nq → c' < inp.nCells → q' < inp.nq → |inp.qpos (c, q) a - inp.qpos (c', q') a| ≤ w

/-- The same mesh displaced by `t`. -/
def displace (t : Pt d) (inp : Input d) : Input d :=
  { inp with pos := fun i a => inp.pos i a + t a, qpos := fun q a => inp.qpos q a + t a }

variable {inp : Input d} {w : ℚ}

/-- an item of the root block -/
theorem item_range {x : Item} (hx : (rootBlock inp).Mem x) :
    match x with | .inl i => i < inp.nDofs | .inr q => q.1 < inp.nCells ∧ q.2 < inp.nq := by
  cases x with
  | inl i => simpa [Block.Mem, rootBlock] using hx
  | inr q => exact (mem_allQps inp q).1 hx

theorem extent_items (h : Extent w inp) {x y : Item} (hx : (rootBlock inp).Mem x) (hy : (rootBlock inp).Mem y) (a : Fin d) :
    |ipos inp x a - ipos inp y a| ≤ w := by
  have h1 := item_range hx
  have h2 := item_range hy
  cases x with
  | inl i => cases y with
    | inl j => exact h.1 i j a h1 h2
    | inr q => exact h.2.1 i q.1 q.2 a h1 h2.1 h2.2
  | inr q => cases y with
    | inl j => rw [abs_sub_comm]; exact h.2.1 j q.1 q.2 a h2 h1.1 h1.2
    | inr q' => exact h.2.2 q.1 q.2 q'.1 q'.2 a h1.1 h1.2 h2.1 h2.2

/-- quadrature points are in the root block if they are close to a node -/
theorem items_in_root (hn : 0 < inp.nDofs) (h : Extent w inp) (hw : w ≤ 1 / 10 * maxCoor inp) {x : Item} (hx : (rootBlock inp).Mem x) (a : Fin d) :
    |ipos inp x a| ≤ 11 / 10 * maxCoor inp := by
  have h0 := Tree.abs_le_maxCoor inp hn a
  have h1 := extent_items h hx (y := .inl 0) (by simpa [Block.Mem, rootBlock] using hn) a
  have : |ipos inp x a| ≤ |ipos inp x a - ipos inp (.inl 0) a| + |ipos inp (.inl 0) a| := by
    have := abs_add_le (ipos inp x a - ipos inp (.inl 0) a) (ipos inp (.inl 0) a)
    rwa [sub_add_cancel] at this
  have h2 : ipos inp (.inl 0) a = inp.pos 0 a := rfl
  rw [h2] at this h1
  linarith

theorem sideAt_le (inp : Input d) {l L : ℕ} (h : l ≤ L) : sideAt inp L ≤ sideAt inp l := by
  have := Tree.sideAt_add (inp := inp) l (L - l)
  rw [Nat.add_sub_cancel' h] at this
  have h1 : (1 : ℚ) ≤ 2 ^ (L - l) := one_le_pow₀ (by norm_num)
  have h2 := Tree.sideAt_nonneg inp L
  nlinarith

/-- blocks that are not near neighbours hold points farther than a side -/
theorem gap_points (hd : d = 2 ∨ d = 3) (hn : 0 < inp.nDofs) (h : Extent w inp) (hw : w ≤ 1 / 10 * maxCoor inp)
    {k b : ℕ} (hk : k < (build inp).count) (hk0 : 0 < k) (hb : b < (build inp).count) (hb0 : 0 < b) {δ : ℚ}
    (hg : ∃ a, ((build inp).blocks b).pMax a + δ ≤ ((build inp).blocks k).pMin a ∨
      ((build inp).blocks k).pMax a + δ ≤ ((build inp).blocks b).pMin a) : δ ≤ w := by
  have t := build_tree hd inp
  obtain ⟨x, hx⟩ := t.links.ne k hk0 hk
  obtain ⟨y, hy⟩ := t.links.ne b hb0 hb
  have rx := mem_root_of_mem t.links hk hx
  have ry := mem_root_of_mem t.links hb hy
  obtain ⟨a, ha⟩ := hg
  have h1 := t.item_in_box hd (fun a => items_in_root hn h hw rx a) k hk hx a
  have h2 := t.item_in_box hd (fun a => items_in_root hn h hw ry a) b hb hy a
  have h3 := extent_items h rx ry a
  rw [abs_le] at h3
  rcases ha with ha | ha <;> linarith [h1.1, h1.2, h2.1, h2.2]

theorem nearest_of_extent (hd : d = 2 ∨ d = 3) (hlev : 1 ≤ inp.levels) (hn : 0 < inp.nDofs) (h : Extent w inp) (hw : w ≤ 1 / 10 * maxCoor inp)
    (hfar : w < 22 / 10 * maxCoor inp / 2 ^ inp.levels) {k : ℕ} (hk : k < (build inp).count) (s b : ℕ)
    (hb : b ∈ nonIntList inp (build inp) k s) :
    ((build inp).blocks b).level ≠ ((build inp).blocks k).level + s := by
  intro hlv
  have t := build_tree hd inp
  have h1 : 2 ≤ ((build inp).blocks k).level ∧ s < numSub inp (build inp) k := by
    by_contra hh
    unfold nonIntList at hb
    rw [if_neg hh] at hb
    simp at hb
  obtain ⟨hb0, hbc, -⟩ := t.nonInt_level hd hlev hk h1.1 h1.2 hb
  rw [Tree.nonInt_eq h1.1 h1.2, Finset.mem_sdiff] at hb
  have hnn : b ∉ nearNeigh inp (build inp) k s := fun h => hb.2 (t.nn_sub_int hlev hk (by omega) h1.2 h)
  have hg := t.not_nn_gap hd hlev hk (by omega) h1.2 hbc hlv.symm hnn
  have := gap_points hd hn h hw hk (t.pos_of_level (by omega)) hbc hb0 hg
  rw [t.delta_eq hbc] at this
  have h2 := sideAt_le inp (t.lev_le b hbc)
  unfold sideAt at this h2
  linarith

/-- **C109** (no expansion is used). Let the surface be smaller than the finest boxes, whose side is `2.2 M / 2^L` where `M` is the
greatest coordinate, in absolute value, and `L` the number of levels. Then no multipole expansion is converted or evaluated, in dimension 2 and 3. -/
theorem C109_no_expansions (hd : d = 2 ∨ d = 3) (inp : Input d) (hlev : 1 ≤ inp.levels) (hn : 0 < inp.nDofs) (w : ℚ) (h : Extent w inp)
    (hw : w ≤ 1 / 10 * maxCoor inp) (hfar : w < 22 / 10 * maxCoor inp / 2 ^ inp.levels) (k s : ℕ) (hk : k < (build inp).count) :
    m2lSet inp (build inp) k s = ∅ ∧ m2pSet inp (build inp) k s = ∅ := by
  have t := build_tree hd inp
  have key : ∀ b ∈ nonIntList inp (build inp) k s, ((build inp).blocks b).level < ((build inp).blocks k).level ∧ b < (build inp).count := by
    intro b hb
    have h0 := nearest_of_extent hd hlev hn h hw hfar hk s b hb
    have h1 : 2 ≤ ((build inp).blocks k).level ∧ s < numSub inp (build inp) k := by
      by_contra hh
      unfold nonIntList at hb
      rw [if_neg hh] at hb
      simp at hb
    obtain ⟨-, hbc, h4⟩ := t.nonInt_level hd hlev hk h1.1 h1.2 hb
    rcases h4 with h4 | h4
    · exact absurd h4 h0
    · exact ⟨h4.2.1, hbc⟩
  have hle := t.lev_le k hk
  constructor
  · rw [Finset.eq_empty_iff_forall_notMem]
    intro b hb
    unfold m2lSet at hb
    rw [Finset.mem_filter, levelOf_eq t hk] at hb
    have := (t.rng _ hle b).2 hb.2
    have := (key b hb.1).1
    omega
  · rw [Finset.eq_empty_iff_forall_notMem]
    intro b hb
    unfold m2pSet at hb
    rw [Finset.mem_filter, levelOf_eq t hk] at hb
    obtain ⟨h1, h2⟩ := key b hb.1
    have r1 := (t.rng _ hle k).1 ⟨hk, rfl⟩
    have h3 := hb.2
    have hmono := t.links.mono k b (by omega) h2
    omega

/-- **C109** (few blocks). At every level whose boxes are larger than the surface there are at most `2^d` blocks. -/
theorem C109_few_blocks (hd : d = 2 ∨ d = 3) (inp : Input d) (hn : 0 < inp.nDofs) (w : ℚ) (h : Extent w inp)
    (hw : w ≤ 1 / 10 * maxCoor inp) (l : ℕ) (hl : l ≤ inp.levels) (hfar : w < 22 / 10 * maxCoor inp / 2 ^ l) :
    ((Finset.range (build inp).count).filter fun k => ((build inp).blocks k).level = l).card ≤ 2 ^ d := by
  have t := build_tree hd inp
  rcases Nat.eq_zero_or_pos l with rfl | hl0
  · refine le_trans (Finset.card_le_one.2 ?_) Nat.one_le_two_pow
    intro k hk b hb
    rw [Finset.mem_filter, Finset.mem_range] at hk hb
    have e : ∀ k, k < (build inp).count → ((build inp).blocks k).level = 0 → k = 0 := by
      intro k hk h0
      by_contra hne
      have := t.links.level_pos (by omega) hk
      omega
    rw [e k hk.1 hk.2, e b hb.1 hb.2]
  · have hinj : Set.InjOn (fun k (a : Fin d) => decide (coord (build inp) k a % 2 = 0))
        ((Finset.range (build inp).count).filter fun k => ((build inp).blocks k).level = l : Finset ℕ) := by
      intro k hk b hb heq
      rw [Finset.mem_coe, Finset.mem_filter, Finset.mem_range] at hk hb
      have hk0 : 0 < k := t.pos_of_level (by omega)
      have hb0 : 0 < b := t.pos_of_level (by omega)
      have hs := Tree.sideAt_nonneg inp l
      have hclose : ∀ a, coord (build inp) k a < coord (build inp) b a + 2 ∧ coord (build inp) b a < coord (build inp) k a + 2 := by
        intro a
        have hfar' : w < sideAt inp l := hfar
        constructor
        · by_contra hc
          have h1 : (coord (build inp) b a : ℚ) + 2 ≤ coord (build inp) k a := by exact_mod_cast not_lt.1 hc
          have := mul_le_mul_of_nonneg_left h1 hs
          have := gap_points hd hn h hw hk.1 hk0 hb.1 hb0 (δ := sideAt inp l) ⟨a, .inl (by
            rw [t.pMax_eq hb.1, t.pMin_eq hk.1, hk.2, hb.2]; linarith)⟩
          linarith
        · by_contra hc
          have h1 : (coord (build inp) k a : ℚ) + 2 ≤ coord (build inp) b a := by exact_mod_cast not_lt.1 hc
          have := mul_le_mul_of_nonneg_left h1 hs
          have := gap_points hd hn h hw hk.1 hk0 hb.1 hb0 (δ := sideAt inp l) ⟨a, .inr (by
            rw [t.pMax_eq hk.1, t.pMin_eq hb.1, hk.2, hb.2]; linarith)⟩
          linarith
      refine t.coord_inj hd l k b hk.1 hb.1 hk.2 hb.2 fun a => ?_
      have h1 := hclose a
      have h2 := congrFun heq a
      simp only [decide_eq_decide] at h2
      omega
    have := Finset.card_le_card_of_injOn (t := Finset.univ) _ (fun k _ => Finset.mem_univ _) hinj
    simpa using this

/-- **C109** (product). In dimension 3 the fast multipole product is then the sum of all the direct interactions. -/
theorem C109_product (inp : Input 3) (D : Data) (ker : Ker) (hlev : 1 ≤ inp.levels) (hnq : 0 < inp.nq)
    (hself : ∀ i, i < inp.nDofs → i ∈ inp.doubles i) (w : ℚ) (h : Extent w inp)
    (hw : w ≤ 1 / 10 * maxCoor inp) (hfar : w < 22 / 10 * maxCoor inp / 2 ^ inp.levels)
    (own : ℕ → Bool) (out : ℕ → ℝ) (hx : NFmmExec inp D ker (build inp) own out)
    (i : ℕ) (hi : i < inp.nDofs) (ho : own i = true) : out i = directProduct inp D ker i :=
  exact_of_nothingFar inp D ker hlev hnq hself
    (fun k hk s => C109_no_expansions (.inr rfl) inp hlev (by omega) w h hw hfar k s hk) own out hx i hi ho

theorem extent_displace (t : Pt d) (h : Extent w inp) : Extent w (displace t inp) := by
  refine ⟨fun i j a hi hj => ?_, fun i c q a hi hc hq => ?_, fun c q c' q' a h1 h2 h3 h4 => ?_⟩
  · show |inp.pos i a + t a - (inp.pos j a + t a)| ≤ w
    rw [add_sub_add_right_eq_sub]; exact h.1 i j a hi hj
  · show |inp.pos i a + t a - (inp.qpos (c, q) a + t a)| ≤ w
    rw [add_sub_add_right_eq_sub]; exact h.2.1 i c q a hi hc hq
  · show |inp.qpos (c, q) a + t a - (inp.qpos (c', q') a + t a)| ≤ w
    rw [add_sub_add_right_eq_sub]; exact h.2.2 c q c' q' a h1 h2 h3 h4

/-- greatest coordinate of a displaced mesh -/
theorem maxCoor_displace (t : Pt d) (a : Fin d) (hn : 0 < inp.nDofs) : |t a| - maxCoor inp ≤ maxCoor (displace t inp) := by
  have h1 := Tree.abs_le_maxCoor inp hn a
  have h2 := Tree.abs_le_maxCoor (displace t inp) (i := 0) hn a
  have h2' : |inp.pos 0 a + t a| ≤ maxCoor (displace t inp) := h2
  have := abs_sub_abs_le_abs_sub (t a) (-inp.pos 0 a)
  rw [abs_neg, sub_neg_eq_add, add_comm (t a)] at this
  linarith

/-- **C109** (displacement). Whatever the mesh and the number of levels, displacing the surface far enough makes the fast multipole product the
direct one: with `M` the greatest coordinate and `w` the extent of the surface, by any vector with a component of at least `M + (10 + 2^L) w`, if `w > 0`. -/
theorem C109_displacement (inp : Input 3) (D : Data) (ker : Ker) (hlev : 1 ≤ inp.levels) (hnq : 0 < inp.nq)
    (hself : ∀ i, i < inp.nDofs → i ∈ inp.doubles i) (w : ℚ) (hw0 : 0 < w) (h : Extent w inp) (t : Pt 3) (a : Fin 3)
    (ht : maxCoor inp + (10 + 2 ^ inp.levels) * w ≤ |t a|)
    (own : ℕ → Bool) (out : ℕ → ℝ) (hx : NFmmExec (displace t inp) D ker (build (displace t inp)) own out)
    (i : ℕ) (hi : i < inp.nDofs) (ho : own i = true) : out i = directProduct (displace t inp) D ker i := by
  have hm := maxCoor_displace (inp := inp) t a (by omega)
  have hp : (0 : ℚ) < 2 ^ inp.levels := by positivity
  have hpw := mul_pos hp hw0
  refine C109_product (displace t inp) D ker hlev hnq hself w (extent_displace t h) ?_ ?_ own out hx i hi ho
  · linarith
  · show w < 22 / 10 * maxCoor (displace t inp) / 2 ^ inp.levels
    rw [lt_div_iff₀ hp]
    linarith

theorem line4_extent : Extent 2 line4Input := by
  refine ⟨?_, ?_, ?_⟩
  · intro i j a hi hj
    have hi' : i < 4 := hi
    have hj' : j < 4 := hj
    revert a
    interval_cases i <;> interval_cases j <;> decide +kernel
  · intro i c q a hi hc hq
    have hi' : i < 4 := hi
    have hc' : c < 4 := hc
    obtain rfl : q = 0 := by have : q < 1 := hq; omega
    revert a
    interval_cases i <;> interval_cases c <;> decide +kernel
  · intro c q c' q' a hc hq hc' hq'
    have h1 : c < 4 := hc
    have h2 : c' < 4 := hc'
    obtain rfl : q = 0 := by have : q < 1 := hq; omega
    obtain rfl : q' = 0 := by have : q' < 1 := hq'; omega
    revert a
    interval_cases c <;> interval_cases c' <;> decide +kernel

/-- Hypotheses of `C109_displacement`, of `C109_no_expansions` and of `C109_few_blocks` for the displaced mesh. -/
example : Extent 2 line4Input ∧ 1 ≤ line4Input.levels ∧ 0 < line4Input.nq ∧ 0 < line4Input.nDofs ∧
    (∀ i, i < line4Input.nDofs → i ∈ line4Input.doubles i) ∧ maxCoor line4Input + (10 + 2 ^ line4Input.levels) * 2 ≤ |(40 : ℚ)| ∧
    2 ≤ 1 / 10 * maxCoor (displace (fun _ => 40) line4Input) ∧
    2 < 22 / 10 * maxCoor (displace (fun _ => 40) line4Input) / 2 ^ line4Input.levels :=
  ⟨line4_extent, by decide, by decide, by decide, fun i _ => Finset.mem_singleton_self i, by decide +kernel, by decide +kernel, by decide +kernel⟩

/-- **C109** (position matters). There is a mesh for which expansions are used and, displaced, are not. -/
theorem C109_depends_on_position : ∃ (inp : Input 3) (t : Pt 3),
    (∃ k b, k < (build inp).count ∧ b ∈ m2lSet inp (build inp) k 0) ∧ 2 ≤ (build (displace t inp)).count ∧
    ∀ k s, k < (build (displace t inp)).count →
      m2lSet (displace t inp) (build (displace t inp)) k s = ∅ ∧ m2pSet (displace t inp) (build (displace t inp)) k s = ∅ := by
  refine ⟨line4Input, fun _ => 40, ⟨3, 6, by decide +kernel⟩, by decide +kernel, fun k s hk => ?_⟩
  exact C109_no_expansions (.inr rfl) _ (by decide) (by decide) 2 (extent_displace _ line4_extent) (by decide +kernel) (by decide +kernel) k s hk

end PiBem.Fmm
