import Verif.Fmm.Params
import Verif.Props.SmallDomain
import Verif.Props.Octree
import Verif.Props.Lookups

/-!
# C97: octree and expansion parameters: what every accepted value does

All the integers that fit in an `int` are accepted for the number of levels, the number of nodes per block and the truncation order;
negative ones become numbers of at least `2^31`.
-/

noncomputable section

namespace PiBem.Octree

variable {d : ℕ} {inp : Input d} {T : St d}

/-- a list without repetitions of numbers below `n`, each counting at most one, counts at most `n` -/
theorem weight_le (inp : Input d) (b : Block d) (hnd : b.nodes.Nodup) (hlt : ∀ i ∈ b.nodes, i < inp.nDofs) :
    blockNumNodes inp b ≤ inp.nDofs := by
  unfold blockNumNodes
  have h1 : ∀ x ∈ b.nodes.map fun i => 1 / ((inp.doubles i).card : ℚ), x ≤ (1 : ℚ) := by
    intro x hx
    rw [List.mem_map] at hx
    obtain ⟨i, _, rfl⟩ := hx
    rcases Nat.eq_zero_or_pos (inp.doubles i).card with h | h
    · rw [h]; norm_num
    · have h' : (1 : ℚ) ≤ ((inp.doubles i).card : ℚ) := by exact_mod_cast h
      exact (div_le_one (by linarith)).2 h'
  have h2 := List.sum_le_card_nsmul _ _ h1
  rw [List.length_map, nsmul_eq_mul, mul_one] at h2
  have h3 : b.nodes.length ≤ inp.nDofs := by
    have := (List.subperm_of_subset hnd (l₂ := List.range inp.nDofs) fun i hi => List.mem_range.2 (hlt i hi)).length_le
    simpa using this
  have h4 : (b.nodes.length : ℚ) ≤ inp.nDofs := by exact_mod_cast h3
  linarith

/-- with at least as many nodes allowed in a block as there are, only the root is subdivided -/
theorem level_le_one (hd : d = 2 ∨ d = 3) (inp : Input d) (hmax : inp.nDofs ≤ inp.maxNodes) (k : ℕ)
    (hk : k < (build inp).count) : ((build inp).blocks k).level ≤ 1 := by
  have t := build_tree hd inp
  by_contra hl
  have h0 : 0 < k := by
    rcases Nat.eq_zero_or_pos k with rfl | h
    · rw [t.links.root_level] at hl; omega
    · exact h
  have hp := t.links.par k h0 hk
  have hpl := t.links.parent_lt h0 hk
  have hlev := t.links.level_eq h0 hk
  have hp0 : 0 < ((build inp).blocks k).parent := by
    rcases Nat.eq_zero_or_pos ((build inp).blocks k).parent with h | h
    · rw [h, t.links.root_level] at hlev; omega
    · exact h
  have hb := (C03_leaf_capacity hd inp).2.2.1 _ hp0 hpl (List.ne_nil_of_mem hp.2)
  have hw := weight_le inp ((build inp).blocks ((build inp).blocks k).parent) (t.links.nodup hpl).1 (by
    intro i hi
    have := mem_root_of_mem t.links hpl (x := .inl i) hi
    simpa [Block.Mem, rootBlock] using this)
  have hf : weightedNodes inp ((build inp).blocks ((build inp).blocks k).parent) ≤ inp.nDofs := by
    unfold weightedNodes
    have h1 : (⌊(((build inp).blocks ((build inp).blocks k).parent).nodes.map
        fun i => (1 : ℚ) / ((inp.doubles i).card : ℚ)).sum + 1 / 2⌋ : ℤ) < inp.nDofs + 1 := by
      rw [Int.floor_lt]
      unfold blockNumNodes at hw
      push_cast
      linarith
    omega
  have : (inp.nDofs : ℤ) ≤ inp.maxNodes := by exact_mod_cast hmax
  omega

end PiBem.Octree

namespace PiBem.Fmm

open PiBem.Octree PiBem.Expansion PiBem.Expansion.Lookups

theorem asUnsigned_nonneg {v : ℤ} (h : acceptedInt v) (h0 : 0 ≤ v) : (asUnsigned v : ℤ) = v := by
  unfold acceptedInt at h
  unfold asUnsigned
  omega

theorem asUnsigned_neg {v : ℤ} (h : acceptedInt v) (h0 : v < 0) : (asUnsigned v : ℤ) = 2 ^ 32 + v := by
  unfold acceptedInt at h
  unfold asUnsigned
  omega

/-- **C97** (nodes per block). For every accepted file whose number of nodes per block is negative or at least the number of nodes of the
mesh (a mesh of at most `2^31` nodes), with any positive number of levels and any order: no expansion is ever used, every execution of the
fast multipole product gives exactly the product without expansions. -/
theorem C97_no_expansions (F : FmaFile) (hF : F.accepted) (hlev : 1 ≤ F.levels) (inp : Input 3) (hn : inp.nDofs ≤ 2 ^ 31)
    (hv : F.nodes < 0 ∨ (inp.nDofs : ℤ) ≤ F.nodes)
    (D : Data) (ker : Ker) (hnq : 0 < inp.nq) (hself : ∀ i, i < inp.nDofs → i ∈ inp.doubles i)
    (own : ℕ → Bool) (out : ℕ → ℝ)
    (hx : NFmmExec (withParams inp (parseFma F)) D ker (build (withParams inp (parseFma F))) own out)
    (i : ℕ) (hi : i < inp.nDofs) (ho : own i = true) : out i = directProduct inp D ker i := by
  have hmax : inp.nDofs ≤ asUnsigned F.nodes := by
    rcases hv with h | h
    · have := asUnsigned_neg hF.2.1 h
      have := hF.2.1.1
      omega
    · have := asUnsigned_nonneg hF.2.1 (by omega)
      omega
  have hl : 1 ≤ asUnsigned F.levels := by
    have := asUnsigned_nonneg hF.1 (by omega)
    omega
  have h := exact_of_nothingFar (withParams inp (parseFma F)) D ker hl hnq hself (nothingFar_of_nonInt ?_) own out hx i hi ho
  · rw [h]; rfl
  · intro k hk s
    have := level_le_one (Or.inr rfl) (withParams inp (parseFma F)) hmax k hk
    unfold nonIntList
    rw [if_neg (by omega)]

/-- **C97** (no node per block). With the value 0 every block below the root holding a node that counts for at least one half (duplicates
count together as one) is subdivided down to the last level. -/
theorem C97_zero_nodes (F : FmaFile) (hF : F.accepted) (h0 : F.nodes = 0) (inp : Input 3) (b : ℕ) :
    let T := build (withParams inp (parseFma F))
    b ∈ T.childless → ((T.blocks b).level : ℤ) < (asUnsigned F.levels : ℤ) →
      ((T.blocks b).nodes.map fun i => (1 : ℚ) / ((inp.doubles i).card : ℚ)).sum < 1 / 2 := by
  intro T hb hl
  have h := (C03_leaf_capacity (Or.inr rfl) (withParams inp (parseFma F))).2.1 b hb (by exact_mod_cast hl)
  have e : ((withParams inp (parseFma F)).maxNodes : ℤ) = 0 := by
    have := asUnsigned_nonneg hF.2.1 (by omega)
    show (asUnsigned F.nodes : ℤ) = 0
    omega
  rw [e] at h
  unfold weightedNodes at h
  have h2 := Int.lt_floor_add_one ((List.map (fun i => (1 : ℚ) / (((withParams inp (parseFma F)).doubles i).card : ℚ))
    (T.blocks b).nodes).sum + 1 / 2)
  have h3 : ((⌊(List.map (fun i => (1 : ℚ) / (((withParams inp (parseFma F)).doubles i).card : ℚ))
    (T.blocks b).nodes).sum + 1 / 2⌋ : ℤ) : ℚ) ≤ 0 := by exact_mod_cast h
  have h4 : ((List.map (fun i => (1 : ℚ) / (((withParams inp (parseFma F)).doubles i).card : ℚ))
    (T.blocks b).nodes).sum + 1 / 2) < 1 := by linarith
  have : (List.map (fun i => (1 : ℚ) / (((withParams inp (parseFma F)).doubles i).card : ℚ)) (T.blocks b).nodes).sum < 1 / 2 := by
    linarith
  exact this

/-- **C97** (levels). For an accepted number of levels `v`: if `v ≥ 1`, the tables by level have the `v + 1` entries used by the
construction and the loop runs over the levels `1..v`; with 0 the table of blocks has no entry for any mesh (the root block is written
outside it); with -1 the tables by level have no entry (`parentList[0]` is written outside); below -1 the tables by level have more than
`2^31` entries. No value is rejected. -/
theorem C97_levels (F : FmaFile) (hF : F.accepted) :
    (1 ≤ F.levels → (levelTable (parseFma F) : ℤ) = F.levels + 1 ∧ (levelLoop (parseFma F) : ℤ) = F.levels) ∧
    (F.levels = 0 → ∀ nCells nq, blockTable (parseFma F) nCells nq = 0) ∧
    (F.levels = -1 → levelTable (parseFma F) = 0) ∧
    (F.levels < -1 → 2 ^ 31 < levelTable (parseFma F)) := by
  have h := hF.1
  unfold acceptedInt at h
  refine ⟨fun h1 => ?_, fun h1 nCells nq => ?_, fun h1 => ?_, fun h1 => ?_⟩
  · have e := asUnsigned_nonneg hF.1 (by omega)
    unfold levelLoop levelTable parseFma
    simp only
    omega
  · have e := asUnsigned_nonneg hF.1 (by omega)
    have e' : asUnsigned F.levels = 0 := by omega
    simp [blockTable, parseFma, e']
  · unfold levelTable parseFma asUnsigned
    simp [h1]
  · have e := asUnsigned_neg hF.1 (by omega)
    unfold levelTable parseFma
    simp only
    omega

/-- **C97** (size of the table of blocks). In 32 bit arithmetic the table may be smaller than the product of levels, cells and quadrature
points; it has that size exactly when the product is below `2^32`, and then the construction stays inside it iff the number of blocks
fits. -/
theorem C97_block_table (F : FmaFile) (inp : Input 3) :
    let inp' := withParams inp (parseFma F)
    blockTable (parseFma F) inp.nCells inp.nq ≤ inp'.levels * inp.nCells * inp.nq ∧
    (blockTable (parseFma F) inp.nCells inp.nq = inp'.levels * inp.nCells * inp.nq ↔
      inp'.levels * inp.nCells * inp.nq < 2 ^ 32) ∧
    (inp'.levels * inp.nCells * inp.nq < 2 ^ 32 →
      ((build inp').oob = false ↔ (build inp').count ≤ blockTable (parseFma F) inp.nCells inp.nq)) := by
  intro inp'
  have e : blockTable (parseFma F) inp.nCells inp.nq = inp'.levels * inp.nCells * inp.nq % 2 ^ 32 := by
    unfold blockTable
    rw [Nat.mod_mul_mod]
    rfl
  rw [e]
  refine ⟨Nat.mod_le _ _, ⟨fun h => ?_, fun h => Nat.mod_eq_of_lt h⟩, fun h => ?_⟩
  · rw [← h]; exact Nat.mod_lt _ (by norm_num)
  · rw [Nat.mod_eq_of_lt h, ← Bool.not_eq_true, C11_block_table_iff (Or.inr rfl) inp', not_lt]
    exact Iff.rfl

/-- **C97** (truncation order). Among the accepted orders exactly `0..10` keep all the lookups of the local expansions inside the tables,
exactly `0..20` those of the multipole expansions; negative orders become numbers of at least `2^31`. -/
theorem C97_order (F : FmaFile) (hF : F.accepted) :
    ((∀ l ∈ localOps (parseFma F).order, ∀ a ∈ l, a.inside (parseFma F).order (parseFma F).order) ↔
      0 ≤ F.order ∧ F.order ≤ 10) ∧
    ((∀ l ∈ multipoleOps (parseFma F).order, ∀ a ∈ l, a.inside (parseFma F).order (parseFma F).order) ↔
      0 ≤ F.order ∧ F.order ≤ 20) := by
  have h := hF.2.2
  unfold acceptedInt at h
  have e : (parseFma F).order = asUnsigned F.order := rfl
  rw [(C20_orders _).1, (C20_orders _).2, e]
  rcases lt_or_ge F.order 0 with h0 | h0
  · have := asUnsigned_neg hF.2.2 h0
    omega
  · have := asUnsigned_nonneg hF.2.2 h0
    omega

/-! ### Non-vacuity -/

/-- the default values -/
example : (⟨10, 20, 6⟩ : FmaFile).accepted ∧ parseFma ⟨10, 20, 6⟩ = ⟨10, 20, 6⟩ := by
  refine ⟨⟨?_, ?_, ?_⟩, ?_⟩ <;> simp [acceptedInt, parseFma, asUnsigned]

/-- A file with -1 nodes per block and ten levels, on the cube: the hypotheses of `C97_no_expansions` hold and the product runs. -/
example : ∃ F : FmaFile, F.accepted ∧ 1 ≤ F.levels ∧ F.nodes < 0 ∧ (parseFma F).maxNodes = 2 ^ 32 - 1 ∧
    (cubeInput 1 1).nDofs ≤ 2 ^ 31 ∧ 0 < (cubeInput 1 1).nq ∧ ∀ D ker own, ∃ out,
      NFmmExec (withParams (cubeInput 1 1) (parseFma F)) D ker (build (withParams (cubeInput 1 1) (parseFma F))) own out := by
  refine ⟨⟨10, -1, 6⟩, ⟨?_, ?_, ?_⟩, by decide, by decide, ?_, by decide, by decide, fun D ker own => C63_executions_exist _ _ _ _ _⟩
  · simp [acceptedInt]
  · simp [acceptedInt]
  · simp [acceptedInt]
  · simp [parseFma, asUnsigned]

/-- A wrapped table: 2^28 levels on 4 cells with 4 quadrature points give no entry at all. -/
example : acceptedInt (2 ^ 28) ∧ blockTable (parseFma ⟨2 ^ 28, 20, 6⟩) 4 4 = 0 := by
  refine ⟨?_, ?_⟩
  · simp [acceptedInt]
  · simp [blockTable, parseFma, asUnsigned]

end PiBem.Fmm
