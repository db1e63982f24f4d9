import Verif.Props.Assemble

/-!
# Expansions and the unit of length (C88)

The tests for the neighbours of a block compare lengths with the constant `TOLL = 0.001` (bem_fma.cc:1), whatever the
size of the domain. In a root cube of side at most `TOLL` all the blocks are neighbours.
-/

noncomputable section

namespace PiBem.Octree

variable {d : ℕ} {inp : Input d} {T : St d}

theorem maxCoor_le (inp : Input d) {M : ℚ} (hM : 0 ≤ M) (h : ∀ i a, i < inp.nDofs → |inp.pos i a| ≤ M) :
    maxCoor inp ≤ M := by
  unfold maxCoor
  have h2 : ∀ (g : Fin d → ℚ), (∀ a, |g a| ≤ M) → ∀ (l : List (Fin d)) (m : ℚ), m ≤ M →
      l.foldl (fun m a => max m |g a|) m ≤ M := by
    intro g hg l
    induction l with
    | nil => intro m hm; exact hm
    | cons a l ih => intro m hm; exact ih _ (max_le hm (hg a))
  have h1 : ∀ (l : List ℕ), (∀ i ∈ l, i < inp.nDofs) → ∀ (m : ℚ), m ≤ M → l.foldl (fun m i =>
      (List.finRange d).foldl (fun m a => max m |inp.pos i a|) m) m ≤ M := by
    intro l
    induction l with
    | nil => intro _ m hm; exact hm
    | cons a l ih =>
      intro hl m hm
      exact ih (fun i hi => hl i (by simp [hi])) _ (h2 _ (fun b => h a b (hl a (by simp))) _ _ hm)
  exact h1 _ (fun i hi => List.mem_range.1 hi) _ hM

namespace Tree

theorem coord_range (t : Tree inp T) (k : ℕ) (hk : k < T.count) (a : Fin d) :
    0 ≤ coord T k a ∧ coord T k a + 1 ≤ 2 ^ (T.blocks k).level := by
  induction k using Nat.strong_induction_on with
  | _ k ih =>
    rcases Nat.eq_zero_or_pos k with rfl | h0
    · rw [coord_root, t.links.root_level]; simp
    · have hp := t.links.par k h0 hk
      have h := ih _ hp.1 (t.links.parent_lt h0 hk)
      have r := bit_range (T := T) k a
      rw [t.coord_succ h0 hk, t.links.level_eq h0 hk, pow_succ]
      constructor <;> linarith [h.1, h.2]

/-- the blocks are in the root cube -/
theorem box_in_root (t : Tree inp T) {k : ℕ} (hk : k < T.count) (a : Fin d) :
    -(11 / 10) * maxCoor inp ≤ (T.blocks k).pMin a ∧ (T.blocks k).pMin a ≤ (T.blocks k).pMax a ∧
      (T.blocks k).pMax a ≤ 11 / 10 * maxCoor inp := by
  have h := t.coord_range k hk a
  have hs := sideAt_nonneg inp (T.blocks k).level
  have hδ := t.delta_nonneg hk
  have e := sideAt_add (inp := inp) 0 (T.blocks k).level
  have e0 : sideAt inp 0 = 22 / 10 * maxCoor inp := by unfold sideAt; simp
  rw [zero_add, e0] at e
  have h1 : (0 : ℚ) ≤ coord T k a := by exact_mod_cast h.1
  have h2 : (coord T k a : ℚ) + 1 ≤ 2 ^ (T.blocks k).level := by exact_mod_cast h.2
  have h3 := mul_le_mul_of_nonneg_left h2 hs
  have h4 := mul_nonneg hs h1
  refine ⟨?_, ?_, ?_⟩
  · rw [t.pMin_eq hk]; linarith
  · unfold Block.pMax; linarith
  · rw [t.pMax_eq hk]; nlinarith

/-- in a small root cube all the blocks pass the neighbour test -/
theorem adj_small (hd : d = 2 ∨ d = 3) (t : Tree inp T) (hsmall : 22 / 10 * maxCoor inp ≤ toll) {k b : ℕ}
    (hk : k < T.count) (hb : b < T.count) : adj d (T.blocks k) (T.blocks b) = true := by
  have h0 : 0 < d := by omega
  have h := fun a => t.box_in_root hk a
  have h' := fun a => t.box_in_root hb a
  refine adj_of hd (a := ⟨0, h0⟩) ?_ ?_
  · unfold touchAx
    rw [Bool.or_eq_true, decide_eq_true_eq]
    left
    have h1 := h ⟨0, h0⟩
    have h2 := h' ⟨0, h0⟩
    rw [abs_le]
    constructor <;> linarith [h1.1, h1.2.1, h1.2.2, h2.1, h2.2.1, h2.2.2]
  · intro a
    unfold overlapAx
    rw [Bool.and_eq_true, decide_eq_true_eq, decide_eq_true_eq]
    have h1 := h a
    have h2 := h' a
    constructor <;> linarith [h1.1, h1.2.1, h1.2.2, h2.1, h2.2.1, h2.2.2]

variable (hadj : ∀ k b, k < T.count → b < T.count → adj d (T.blocks k) (T.blocks b) = true)

include hadj

theorem nn_all (t : Tree inp T) (h : 1 ≤ inp.levels) :
    ∀ n, ∀ k b, k < T.count → b < T.count → (T.blocks k).level = n + 1 → 1 ≤ (T.blocks b).level →
    ((T.blocks b).level = n + 1 ∨ ((T.blocks b).level < n + 1 ∧ T.isLeaf b = true)) → b ∈ nearNeigh inp T k 0 := by
  intro n
  induction n with
  | zero =>
    intro k b hk hb h1 hb1 h2
    rw [(t.nearNeigh_table h).2 k hk h1, if_pos rfl, List.mem_toFinset, t.mem_levelIds h]
    exact ⟨hb, by omega⟩
  | succ n ih =>
    intro k b hk hb h1 hb1 h2
    rw [t.nearNeigh_zero h hk (by omega), mem_nnFirst]
    refine Or.inr ⟨hadj k b hk hb, ?_⟩
    have hpk := t.parent_level hk (by omega)
    rcases h2 with h2 | h2
    · have hpb := t.parent_level hb (by omega)
      exact mem_refine_child (ih _ _ hpk.1 hpb.1 (by omega) (by omega) (Or.inl (by omega))) hpb.2.2
    · rw [mem_refine]
      refine Or.inl ⟨ih _ _ hpk.1 hb (by omega) hb1 ?_, h2.2⟩
      rcases Nat.lt_or_ge (T.blocks b).level (n + 1) with h3 | h3
      · exact Or.inr ⟨h3, h2.2⟩
      · exact Or.inl (by omega)

theorem nn_all_sub (t : Tree inp T) (h : 1 ≤ inp.levels) {k : ℕ}
    (hk : k < T.count) (hl1 : 1 ≤ (T.blocks k).level) :
    ∀ s, s < numSub inp T k → ∀ b, b < T.count → (T.blocks k).level + s = (T.blocks b).level →
    b ∈ nearNeigh inp T k s := by
  intro s
  induction s with
  | zero =>
    intro _ b hb hl
    exact t.nn_all hadj h ((T.blocks k).level - 1) k b hk hb (by omega) (by omega) (Or.inl (by omega))
  | succ s ih =>
    intro hs b hb hl
    have hls := numSub_gt_one hs
    have hpb := t.parent_level hb (by omega)
    rw [t.nearNeigh_succ h hk hls.2.1 hs, mem_nnNext]
    exact Or.inr ⟨hadj k b hk hb, (T.blocks b).parent, ih (by omega) _ hpb.1 (by omega), hpb.2.2⟩

/-- if all the blocks are neighbours nothing is far -/
theorem nonInt_empty (hd : d = 2 ∨ d = 3) (t : Tree inp T) (h : 1 ≤ inp.levels) {k : ℕ} (hk : k < T.count) (s : ℕ) :
    nonIntList inp T k s = ∅ := by
  rw [Finset.eq_empty_iff_forall_notMem]
  intro b hb
  have h1 : 2 ≤ (T.blocks k).level ∧ s < numSub inp T k := by
    by_contra hh
    unfold nonIntList at hb
    rw [if_neg hh] at hb
    simp at hb
  obtain ⟨hb0, hbc, hbl⟩ := t.nonInt_level hd h hk h1.1 h1.2 hb
  have hb1 : 1 ≤ (T.blocks b).level := by rw [t.links.level_eq hb0 hbc]; omega
  rw [nonInt_eq h1.1 h1.2, Finset.mem_sdiff, t.intList_eq h hk h1.1 h1.2, Finset.mem_union] at hb
  refine hb.2 (Or.inl ?_)
  rcases hbl with hbl | ⟨rfl, hbl⟩
  · exact t.nn_all_sub hadj h hk (by omega) s h1.2 b hbc hbl.symm
  · exact t.nn_all hadj h ((T.blocks k).level - 1) k b hk hbc (by omega) hb1 (Or.inr ⟨by omega, hbl.2⟩)

end Tree

end PiBem.Octree

namespace PiBem.Fmm

open PiBem.Octree PiBem.WorkStream PiBem.Expansion PiBem.Bem

variable {inp : Input 3} {D : Data} {ker : Ker} {T : St 3}

/-- No block is far from another one: no expansion is converted or evaluated. -/
def NothingFar (inp : Input 3) : Prop :=
  ∀ k, k < (build inp).count → ∀ s, m2lSet inp (build inp) k s = ∅ ∧ m2pSet inp (build inp) k s = ∅

theorem nothingFar_of_nonInt (h : ∀ k, k < (build inp).count → ∀ s, nonIntList inp (build inp) k s = ∅) :
    NothingFar inp := by
  intro k hk s
  simp [m2lSet, m2pSet, h k hk s]

theorem foldl_zip_zero {A : Type} [AddMonoid A] (l : List (ℕ × A)) (p : ℕ → A) (h : ∀ x ∈ l, x.2 = 0) :
    l.foldl (fun p x => Function.update p x.1 (p x.1 + x.2)) p = p := by
  induction l with
  | nil => rfl
  | cons x l ih =>
    rw [List.foldl_cons, h x (by simp), add_zero, Function.update_eq_self]
    exact ih fun y hy => h y (by simp [hy])

/-- nothing has been added by the expansions, in both models -/
def Quiet (base : ℕ → ℝ) (s : NDSt) (s' : DSt) : Prop :=
  (∀ b, (s.loc b).isZero = true) ∧ s.prod = base ∧ (∀ b, s'.loc b = 0) ∧ ∀ i, s'.prod i = 0

theorem quiet_exec (hfar : NothingFar inp) (own : ℕ → Bool) (mult : ℕ → Exp) (mult' : ℕ → Multiset (ℕ × ℕ)) (base : ℕ → ℝ)
    {s : NDSt} (hx : NDescendExec inp D (build inp) own mult base s) :
    ∃ s', DescendExec inp (build inp) own mult' s' ∧ Quiet base s s' := by
  have t : Octree.Tree inp (build inp) := build_tree (Or.inr rfl) inp
  refine levels_sim (R' := fun l => Exec (workerDescend inp (build inp) own mult') copierDescend ⟨0, 0, [], []⟩
    ((build inp).dofsFilled l)) (Quiet base) (List.range' 1 inp.levels) ?_ hx
    ⟨fun b => rfl, rfl, fun _ => rfl, fun _ => rfl⟩
  intro l hl s s1 s' hx hs
  refine exec_sim (Quiet base) (fun _ _ => True) (fun b b' => b.expn.isZero = true ∧ (∀ x ∈ b.nodes.zip b.contr, x.2 = 0) ∧
    b'.expn = 0 ∧ ∀ x ∈ b'.nodes.zip b'.contr, x.2 = 0) trivial (fun _ _ _ => trivial) ?_ ?_ hx hs
  · intro k hk s s' _ _ hs _
    rw [t.dfil] at hk
    have hk' := hk.2.1
    have e1 : ∀ sub, m2lSet inp (build inp) k sub = ∅ := fun sub => (hfar k hk' sub).1
    have e2 : ∀ sub, m2pSet inp (build inp) k sub = ∅ := fun sub => (hfar k hk' sub).2
    have hz : ∀ {A : Type} [AddMonoid A] (l : List ℕ) (f : ℕ → A), (∀ i, f i = 0) → ∀ x ∈ l.zip (l.map f), x.2 = 0 := by
      intro A _ l f hf x hx
      have := (List.of_mem_zip hx).2
      rw [List.mem_map] at this
      obtain ⟨i, _, h⟩ := this
      rw [← h, hf]
    refine ⟨?_, ?_, ?_, ?_⟩
    · unfold nWorkerDescend
      simp only [e1, Finset.sort_empty, List.foldl_nil]
      have hfold : ∀ (l : List ℕ) (e : Exp), l.foldl (fun e _ => e) e = e := by
        intro l e; induction l with
        | nil => rfl
        | cons _ _ ih => exact ih
      rw [hfold]
      unfold lAddParent
      rw [if_pos (hs.1 _)]
      split_ifs <;> rfl
    · unfold nWorkerDescend
      exact hz _ _ fun i => by simp [e2]
    · unfold workerDescend
      simp [e1, gather, hs.2.2.1]
    · unfold workerDescend
      exact hz _ _ fun i => by simp [e2, gather]
  · intro b b' s s' hb hs
    refine ⟨?_, ?_, ?_, ?_⟩
    · intro k
      unfold nCopierDescend
      simp only
      by_cases hk : k = b.blockId
      · subst hk
        rw [Function.update_self]
        unfold lAddParent
        rw [if_pos hb.1]
        exact hs.1 _
      · rw [Function.update_of_ne hk]; exact hs.1 k
    · unfold nCopierDescend
      simp only
      rw [foldl_zip_zero _ _ hb.2.1]
      exact hs.2.1
    · intro k
      unfold copierDescend
      simp only
      by_cases hk : k = b'.blockId
      · subst hk
        rw [Function.update_self, hs.2.2.1, hb.2.2.1, add_zero]
      · rw [Function.update_of_ne hk]; exact hs.2.2.1 k
    · intro i
      unfold copierDescend
      simp only
      rw [foldl_zip_zero _ _ hb.2.2.2]
      exact hs.2.2.2 i

theorem quiet_leaves (own : ℕ → Bool) (loc : ℕ → Exp) (loc' : ℕ → Multiset (ℕ × ℕ)) (h : ∀ b, (loc b).isZero = true)
    (h' : ∀ b, loc' b = 0) (order : List ℕ) (p : ℕ → ℝ) (p' : ℕ → Multiset (ℕ × ℕ)) :
    order.foldl (fun p b => nEvalLeaf inp T own loc b p) p = p ∧
      order.foldl (fun p b => evalLeaf T own loc' b p) p' = p' := by
  have e1 : ∀ b p, nEvalLeaf inp T own loc b p = p := by
    intro b p
    unfold nEvalLeaf
    generalize (T.blocks b).nodes = l
    induction l generalizing p with
    | nil => rfl
    | cons i l ih =>
      rw [List.foldl_cons]
      have : lEval codeTable (loc b) (toV (inp.pos i)) = 0 := by unfold lEval; rw [if_pos (h b)]
      rw [this, add_zero, Function.update_eq_self, ite_self]
      exact ih p
  have e2 : ∀ b p, evalLeaf T own loc' b p = p := by
    intro b p
    unfold evalLeaf
    generalize (T.blocks b).nodes = l
    induction l generalizing p with
    | nil => rfl
    | cons i l ih =>
      rw [List.foldl_cons, h' b, add_zero, Function.update_eq_self, ite_self]
      rw [h' b] at ih
      exact ih p
  constructor
  · induction order generalizing p with
    | nil => rfl
    | cons b l ih => rw [List.foldl_cons, e1]; exact ih p
  · induction order generalizing p' with
    | nil => rfl
    | cons b l ih => rw [List.foldl_cons, e2]; exact ih p'

theorem directProduct_val (i : ℕ) : directProduct inp D ker i = ∑ c ∈ Finset.range inp.nCells,
      if ∃ j ∈ inp.cellDofs c, j ∈ inp.doubles i then val inp D ker i (Contr.sing c)
      else ∑ q ∈ Finset.range inp.nq, val inp D ker i (Contr.reg c q) := by
  unfold directProduct
  refine Finset.sum_congr rfl fun c _ => ?_
  split_ifs
  · exact Finset.sum_congr rfl fun j _ => mul_comm _ _
  · simp only [val, cellDot]
    rw [Finset.sum_comm]
    refine Finset.sum_congr rfl fun j _ => ?_
    rw [Finset.mul_sum]
    refine Finset.sum_congr rfl fun q _ => ?_
    rw [kernel_spec, mul_comm]

theorem exact_of_nothingFar (inp : Input 3) (D : Data) (ker : Ker) (hlev : 1 ≤ inp.levels) (hnq : 0 < inp.nq)
    (hself : ∀ i, i < inp.nDofs → i ∈ inp.doubles i) (hfar : NothingFar inp)
    (own : ℕ → Bool) (out : ℕ → ℝ) (hx : NFmmExec inp D ker (build inp) own out)
    (i : ℕ) (hi : i < inp.nDofs) (ho : own i = true) : out i = directProduct inp D ker i := by
  obtain ⟨M, E, mult, s, order, hM, hE, hA, hD, hord, rfl⟩ := hx
  obtain ⟨E', hE'⟩ := momentsExec_exists inp (build inp)
  obtain ⟨mult', hA'⟩ := ascendExec_exists inp (build inp) E'
  obtain ⟨s', hD', hq⟩ := quiet_exec hfar own mult mult' _ hD
  have hl := quiet_leaves (inp := inp) (T := build inp) own s.loc s'.loc hq.1 hq.2.2.1 order s.prod s'.prod
  have h1 := C06_value (val inp D ker i) inp hlev hnq hself own _
    ⟨M, E', mult', s', order, hM, hE', hA', hD', hord, rfl⟩ i hi ho
  rw [hl.2, hq.2.2.2] at h1
  simp only [Multiset.map_zero, add_zero] at h1
  rw [hl.1, hq.2.1, directProduct_val, ← h1]
  rfl

/-- **C88**. When the coordinates of the nodes are all at most `1/2200` in absolute value (the root cube has side at most
`0.001`), every execution of the fast multipole product gives for an owned node exactly the product without expansions,
for every truncation order, every quadrature and every normal. -/
theorem C88_small_domain_exact (inp : Input 3) (D : Data) (ker : Ker) (hlev : 1 ≤ inp.levels) (hnq : 0 < inp.nq)
    (hself : ∀ i, i < inp.nDofs → i ∈ inp.doubles i)
    (hsmall : ∀ i a, i < inp.nDofs → |inp.pos i a| ≤ 1 / 2200)
    (own : ℕ → Bool) (out : ℕ → ℝ) (hx : NFmmExec inp D ker (build inp) own out)
    (i : ℕ) (hi : i < inp.nDofs) (ho : own i = true) : out i = directProduct inp D ker i := by
  have hm : 22 / 10 * maxCoor inp ≤ toll := by
    have := maxCoor_le inp (by norm_num : (0 : ℚ) ≤ 1 / 2200) hsmall
    unfold toll
    linarith
  have t : Octree.Tree inp (build inp) := build_tree (Or.inr rfl) inp
  refine exact_of_nothingFar inp D ker hlev hnq hself (nothingFar_of_nonInt ?_) own out hx i hi ho
  exact fun k hk s => t.nonInt_empty (fun k b hk hb => t.adj_small (Or.inr rfl) hm hk hb) (Or.inr rfl) hlev hk s

/-- **C88** (both methods). In such a domain the product of the fast multipole method and the product with the matrices
assembled by the direct method coincide exactly, when the singular quadratures are the same. -/
theorem C88_methods_coincide (inp : Input 3) (D : Data) (S : SingRule) (ker : Ker) (hlev : 1 ≤ inp.levels)
    (hnq : 0 < inp.nq) (hself : ∀ i, i < inp.nDofs → i ∈ inp.doubles i)
    (hdof : ∀ c k, c < inp.nCells → k ∈ inp.cellDofs c → k < inp.nDofs)
    (hsmall : ∀ i a, i < inp.nDofs → |inp.pos i a| ≤ 1 / 2200)
    (own own' : ℕ → Bool) (out : ℕ → ℝ) (hx : NFmmExec inp (withSing inp D S ker) ker (build inp) own out)
    (i : ℕ) (hi : i < inp.nDofs) (ho : own i = true) (ho' : own' i = true) :
    out i = denseProduct inp (assemble inp D S ker own') D.sol i := by
  rw [C64_dense_product inp D S ker own' i hi ho' hdof]
  exact C88_small_domain_exact inp _ ker hlev hnq hself hsmall own out hx i hi ho

/-- **C88** (one level). The same with a single octree level, whatever the size of the domain. -/
theorem C88_one_level_exact (inp : Input 3) (D : Data) (ker : Ker) (hlev : inp.levels = 1) (hnq : 0 < inp.nq)
    (hself : ∀ i, i < inp.nDofs → i ∈ inp.doubles i)
    (own : ℕ → Bool) (out : ℕ → ℝ) (hx : NFmmExec inp D ker (build inp) own out)
    (i : ℕ) (hi : i < inp.nDofs) (ho : own i = true) : out i = directProduct inp D ker i := by
  refine exact_of_nothingFar inp D ker (by omega) hnq hself (nothingFar_of_nonInt ?_) own out hx i hi ho
  intro k hk s
  have := (build_tree (Or.inr rfl) inp).lev_le k hk
  unfold nonIntList
  rw [if_neg (by omega)]

/-- The same mesh in another unit of length: all coordinates multiplied by `f`. -/
def scaleInput (f : ℚ) (inp : Input 3) : Input 3 :=
  { inp with pos := fun i a => f * inp.pos i a, qpos := fun q a => f * inp.qpos q a }

/-- **C88** (the unit matters). The same mesh uses expansions in one unit of length and not in another one. -/
theorem C88_depends_on_unit : ∃ inp : Input 3,
    (∃ k b, k < (build inp).count ∧ b ∈ m2lSet inp (build inp) k 0) ∧
    ∀ k s, k < (build (scaleInput (1 / 2200) inp)).count →
      m2lSet (scaleInput (1 / 2200) inp) (build (scaleInput (1 / 2200) inp)) k s = ∅ ∧
      m2pSet (scaleInput (1 / 2200) inp) (build (scaleInput (1 / 2200) inp)) k s = ∅ := by
  refine ⟨line4Input, ⟨3, 6, by decide +kernel⟩, ?_⟩
  have hm : 22 / 10 * maxCoor (scaleInput (1 / 2200) line4Input) ≤ toll := by decide +kernel
  have t := build_tree (Or.inr rfl) (scaleInput (1 / 2200) line4Input)
  intro k s hk
  exact nothingFar_of_nonInt (fun k hk s => t.nonInt_empty (fun k b hk hb => t.adj_small (Or.inr rfl) hm hk hb)
    (Or.inr rfl) (by decide) hk s) k hk s

/-- the cube in the small unit meets the hypotheses, with order 6 and three levels -/
example (own : ℕ → Bool) (ho : own 2 = true) (ker : Ker) :
    (∃ out, NFmmExec (scaleInput (1 / 2200) (cubeInput 3 0)) cubeData ker (build (scaleInput (1 / 2200) (cubeInput 3 0)))
      own out) ∧
    ∀ out, NFmmExec (scaleInput (1 / 2200) (cubeInput 3 0)) cubeData ker
      (build (scaleInput (1 / 2200) (cubeInput 3 0))) own out →
      out 2 = directProduct (scaleInput (1 / 2200) (cubeInput 3 0)) cubeData ker 2 := by
  refine ⟨C63_executions_exist _ _ _ _ _, fun out hx => ?_⟩
  refine C88_small_domain_exact _ _ _ (by decide) (by decide) (by simp [scaleInput, cubeInput]) ?_ own out hx 2
    (by decide) ho
  intro i a _
  simp only [scaleInput, cubeInput]
  fin_cases a <;> simp only [Fin.zero_eta, Fin.mk_one, Fin.reduceFinMk, Matrix.cons_val_zero, Matrix.cons_val_one,
    Matrix.cons_val] <;> split_ifs <;> norm_num

end PiBem.Fmm
