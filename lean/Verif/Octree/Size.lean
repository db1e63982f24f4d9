import Verif.Octree.Tree
import Mathlib.Algebra.Order.BigOperators.Group.Finset
import Mathlib.Combinatorics.Pigeonhole
import Mathlib.Algebra.Order.BigOperators.Ring.Finset

/-! Bound on the number of blocks (helper lemmas). -/

namespace PiBem.Octree

variable {d : ℕ} {inp : Input d} {T : St d}

/-- number of distinct points -/
def weight (inp : Input d) : ℚ := ∑ i ∈ Finset.range inp.nDofs, 1 / ((inp.doubles i).card : ℚ)

def blocksAt (T : St d) (l : ℕ) : Finset ℕ := (Finset.range T.count).filter fun b => (T.blocks b).level = l

theorem blockNumNodes_eq (t : Tree inp T) {b : ℕ} (hb : b < T.count) :
    blockNumNodes inp (T.blocks b) = ∑ i ∈ (T.blocks b).nodes.toFinset, 1 / ((inp.doubles i).card : ℚ) := by
  unfold blockNumNodes
  rw [List.sum_toFinset _ (t.links.nodup hb).1]

theorem big_weight {b : Block d} (h : Big inp b) : (inp.maxNodes : ℚ) + 1 / 2 ≤ blockNumNodes inp b := by
  unfold Big roundUp at h
  have h1 : ((inp.maxNodes + 1 : ℤ) : ℚ) ≤ blockNumNodes inp b + 1 / 2 := by
    rw [← Int.le_floor]; omega
  push_cast at h1
  linarith

theorem card_big (t : Tree inp T) {l : ℕ} (hl : 1 ≤ l) :
    (((T.parentList l).toFinset.card : ℕ) : ℚ) * (inp.maxNodes + 1 / 2) ≤ weight inp := by
  set P := (T.parentList l).toFinset with hP
  have hmem : ∀ b ∈ P, b < T.count ∧ (T.blocks b).level = l ∧ Big inp (T.blocks b) := by
    intro b hb
    rw [hP, List.mem_toFinset, t.par] at hb
    refine ⟨hb.1, hb.2.1, ?_⟩
    rcases hb.2.2 with rfl | h
    · have := t.links.root_level; omega
    · exact h
  have h1 : ((P.card : ℕ) : ℚ) * (inp.maxNodes + 1 / 2) ≤ ∑ b ∈ P, blockNumNodes inp (T.blocks b) := by
    rw [← nsmul_eq_mul]
    exact Finset.card_nsmul_le_sum _ _ _ fun b hb => big_weight (hmem b hb).2.2
  refine h1.trans ?_
  rw [Finset.sum_congr rfl fun b hb => blockNumNodes_eq t (hmem b hb).1]
  rw [← Finset.sum_biUnion]
  · unfold weight
    refine Finset.sum_le_sum_of_subset_of_nonneg ?_ (fun _ _ _ => by positivity)
    intro i hi
    rw [Finset.mem_biUnion] at hi
    obtain ⟨b, hb, hi⟩ := hi
    have := mem_root_of_mem t.links (hmem b hb).1 (x := .inl i) (List.mem_toFinset.1 hi)
    simpa [rootBlock, Block.Mem] using this
  · intro b hb b' hb' hne
    rw [Function.onFun, Finset.disjoint_left]
    intro i hi hi'
    have h2 := hmem b hb
    have h3 := hmem b' hb'
    exact hne (t.links.same_level_unique h2.1 h3.1 (h2.2.1.trans h3.2.1.symm) (x := .inl i)
      (List.mem_toFinset.1 hi) (List.mem_toFinset.1 hi'))

theorem card_blocksAt_succ (t : Tree inp T) (l : ℕ) :
    (blocksAt T (l + 1)).card ≤ 2 ^ d * (T.parentList l).toFinset.card := by
  refine Finset.card_le_mul_card_image_of_maps_to (f := fun b => (T.blocks b).parent) ?_ _ ?_
  · intro b hb
    rw [blocksAt, Finset.mem_filter, Finset.mem_range] at hb
    have h0 : 0 < b := by
      rcases Nat.eq_zero_or_pos b with rfl | h
      · rw [t.links.root_level] at hb; omega
      · exact h
    have hp := t.links.par b h0 hb.1
    have hl := t.links.level_eq h0 hb.1
    rw [List.mem_toFinset, t.par]
    refine ⟨by omega, by omega, ?_⟩
    by_contra hc
    push Not at hc
    have := t.leaf (T.blocks b).parent (by omega) (Or.inr ⟨by omega, hc.2⟩)
    rw [this] at hp
    simp at hp
  · intro p hp
    rw [List.mem_toFinset, t.par] at hp
    have h1 : (blocksAt T (l + 1)).filter (fun b => (T.blocks b).parent = p) ⊆ (T.blocks p).children.toFinset := by
      intro b hb
      rw [Finset.mem_filter, blocksAt, Finset.mem_filter, Finset.mem_range] at hb
      have h0 : 0 < b := by
        rcases Nat.eq_zero_or_pos b with rfl | h
        · rw [t.links.root_level] at hb; omega
        · exact h
      have := (t.links.par b h0 hb.1.1).2
      rw [hb.2] at this
      exact List.mem_toFinset.2 this
    exact (Finset.card_le_card h1).trans ((List.toFinset_card_le _).trans (t.children_length hp.1))

theorem count_eq_sum (t : Tree inp T) : T.count = ∑ l ∈ Finset.range (inp.levels + 1), (blocksAt T l).card := by
  have h := Finset.card_eq_sum_card_fiberwise (s := Finset.range T.count) (t := Finset.range (inp.levels + 1))
    (f := fun b => (T.blocks b).level) (by
      intro b hb
      have := t.lev_le b (Finset.mem_range.1 hb)
      simp only [Finset.coe_range, Set.mem_Iio]; omega)
  rw [Finset.card_range] at h
  exact h

theorem count_le (t : Tree inp T) (hlev : 1 ≤ inp.levels) :
    (T.count : ℚ) ≤ 1 + 2 ^ d + 2 ^ d * (inp.levels - 1 : ℕ) * (weight inp / (inp.maxNodes + 1 / 2)) := by
  have hpos : (0 : ℚ) < inp.maxNodes + 1 / 2 := by positivity
  rw [count_eq_sum t]
  obtain ⟨n, hn⟩ : ∃ n, inp.levels = n + 1 := ⟨inp.levels - 1, by omega⟩
  rw [hn, Finset.sum_range_succ', Finset.sum_range_succ', Nat.add_sub_cancel]
  push_cast
  have h0 : (blocksAt T 0).card ≤ 1 := by
    rw [Finset.card_le_one]
    intro a ha b hb
    rw [blocksAt, Finset.mem_filter, Finset.mem_range] at ha hb
    have h1 : a = 0 := by
      by_contra h; have := t.links.level_pos (by omega) ha.1; omega
    have h2 : b = 0 := by
      by_contra h; have := t.links.level_pos (by omega) hb.1; omega
    omega
  have h1 : (blocksAt T (0 + 1)).card ≤ 2 ^ d := by
    refine (card_blocksAt_succ t 0).trans ?_
    have : (T.parentList 0).toFinset.card ≤ 1 := by
      rw [Finset.card_le_one]
      intro a ha b hb
      rw [List.mem_toFinset, t.par] at ha hb
      have h1 : a = 0 := by
        by_contra h; have := t.links.level_pos (by omega) ha.1; omega
      have h2 : b = 0 := by
        by_contra h; have := t.links.level_pos (by omega) hb.1; omega
      omega
    calc 2 ^ d * (T.parentList 0).toFinset.card ≤ 2 ^ d * 1 := Nat.mul_le_mul_left _ this
      _ = 2 ^ d := by ring
  have h2 : ∀ l ∈ Finset.range n, ((blocksAt T (l + 1 + 1)).card : ℚ) ≤ 2 ^ d * (weight inp / (inp.maxNodes + 1 / 2)) := by
    intro l _
    have h3 : ((blocksAt T (l + 1 + 1)).card : ℚ) ≤ 2 ^ d * ((T.parentList (l + 1)).toFinset.card : ℚ) := by
      exact_mod_cast card_blocksAt_succ t (l + 1)
    refine h3.trans ?_
    have := card_big t (l := l + 1) (by omega)
    exact mul_le_mul_of_nonneg_left ((le_div_iff₀ hpos).2 this) (by positivity)
  have h3 := Finset.sum_le_card_nsmul _ _ _ h2
  rw [Finset.card_range, nsmul_eq_mul] at h3
  have h0' : ((blocksAt T 0).card : ℚ) ≤ 1 := by exact_mod_cast h0
  have h1' : ((blocksAt T (0 + 1)).card : ℚ) ≤ 2 ^ d := by exact_mod_cast h1
  linarith

end PiBem.Octree
