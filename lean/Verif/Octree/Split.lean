import Verif.Octree.Inv

/-! Consequences of the structural invariant and effect of splitting one block (helper lemmas). -/

namespace PiBem.Octree

variable {d : ℕ} {inp : Input d} {st : St d}

namespace Links

theorem level_eq (h : Links inp st) {i : ℕ} (hi0 : 0 < i) (hi : i < st.count) :
    (st.blocks i).level = (st.blocks (st.blocks i).parent).level + 1 :=
  (h.kid i hi0 hi).level

theorem root_level (h : Links inp st) : (st.blocks 0).level = 0 := h.root.level

theorem parent_lt (h : Links inp st) {i : ℕ} (hi0 : 0 < i) (hi : i < st.count) :
    (st.blocks i).parent < st.count := by
  have := (h.par i hi0 hi).1; omega

theorem mem_iff (h : Links inp st) {i : ℕ} (hi0 : 0 < i) (hi : i < st.count) (x : Item) :
    (st.blocks i).Mem x ↔ (st.blocks (st.blocks i).parent).Mem x ∧
      childIdx d (st.blocks (st.blocks i).parent).pMin
        (sideAt inp ((st.blocks (st.blocks i).parent).level + 1)) (ipos inp x) =
          (st.blocks i).oct := by
  rw [(h.kid i hi0 hi).mem]; exact mem_mkChild _ _ _ _ _ _ _

theorem level_pos (h : Links inp st) {i : ℕ} (hi0 : 0 < i) (hi : i < st.count) :
    0 < (st.blocks i).level := by rw [h.level_eq hi0 hi]; omega

theorem delta_eq (h : Links inp st) {i : ℕ} (hi : i < st.count) :
    (st.blocks i).delta = sideAt inp (st.blocks i).level := by
  rcases Nat.eq_zero_or_pos i with rfl | hi0
  · rw [h.root.delta, h.root.level]; simp [rootBlock, sideAt]
  · rw [(h.kid i hi0 hi).delta, (h.kid i hi0 hi).level]; rfl

theorem nodup (h : Links inp st) {i : ℕ} (hi : i < st.count) :
    (st.blocks i).nodes.Nodup ∧ (st.blocks i).qps.Nodup := by
  induction i using Nat.strong_induction_on with
  | _ i ih =>
    rcases Nat.eq_zero_or_pos i with rfl | hi0
    · rw [h.root.nodes, h.root.qps]
      exact ⟨List.nodup_range, nodup_allQps inp⟩
    · have hp := h.par i hi0 hi
      have := ih _ hp.1 (h.parent_lt hi0 hi)
      rw [(h.kid i hi0 hi).nodes, (h.kid i hi0 hi).qps]
      exact ⟨this.1.filter _, this.2.filter _⟩

theorem same_level_unique (h : Links inp st) {i j : ℕ} (hi : i < st.count) (hj : j < st.count)
    (hl : (st.blocks i).level = (st.blocks j).level) {x : Item}
    (hxi : (st.blocks i).Mem x) (hxj : (st.blocks j).Mem x) : i = j := by
  induction i using Nat.strong_induction_on generalizing j with
  | _ i ih =>
    rcases Nat.eq_zero_or_pos i with rfl | hi0
    · rcases Nat.eq_zero_or_pos j with rfl | hj0
      · rfl
      · have := h.level_pos hj0 hj; rw [h.root_level] at hl; omega
    · rcases Nat.eq_zero_or_pos j with rfl | hj0
      · have := h.level_pos hi0 hi; rw [h.root_level] at hl; omega
      · have h1 := (h.mem_iff hi0 hi x).1 hxi
        have h2 := (h.mem_iff hj0 hj x).1 hxj
        have hp : (st.blocks i).parent = (st.blocks j).parent := by
          refine ih _ (h.par i hi0 hi).1 (h.parent_lt hi0 hi) (h.parent_lt hj0 hj) ?_ h1.1 h2.1
          have := h.level_eq hi0 hi; have := h.level_eq hj0 hj; omega
        have hci := (h.par i hi0 hi).2
        have hcj := (h.par j hj0 hj).2
        rw [← hp] at hcj
        refine h.octinj _ (h.parent_lt hi0 hi) i hci j hcj ?_
        rw [← h1.2, ← h2.2, hp]

theorem desc_child (h : Links inp st) {i j : ℕ} (hi : i < st.count) (hj : j < st.count)
    (hl : (st.blocks i).level < (st.blocks j).level) {x : Item}
    (hxi : (st.blocks i).Mem x) (hxj : (st.blocks j).Mem x) :
    ∃ c ∈ (st.blocks i).children, (st.blocks c).Mem x := by
  induction j using Nat.strong_induction_on with
  | _ j ih =>
    have hj0 : 0 < j := by
      rcases Nat.eq_zero_or_pos j with rfl | hj0
      · rw [h.root_level] at hl; omega
      · exact hj0
    have hm := (h.mem_iff hj0 hj x).1 hxj
    have hle := h.level_eq hj0 hj
    have hp := h.par j hj0 hj
    rcases Nat.lt_or_ge (st.blocks i).level (st.blocks (st.blocks j).parent).level with hlt | hge
    · exact ih _ hp.1 (h.parent_lt hj0 hj) hlt hm.1
    · have : i = (st.blocks j).parent :=
        h.same_level_unique hi (h.parent_lt hj0 hj) (by omega) hxi hm.1
      rw [this]
      exact ⟨j, hp.2, hxj⟩

theorem leaf_unique (h : Links inp st) {i j : ℕ} (hi : i < st.count) (hj : j < st.count)
    (ci : (st.blocks i).children = []) (cj : (st.blocks j).children = []) {x : Item}
    (hxi : (st.blocks i).Mem x) (hxj : (st.blocks j).Mem x) : i = j := by
  rcases Nat.lt_trichotomy (st.blocks i).level (st.blocks j).level with hl | hl | hl
  · obtain ⟨c, hc, _⟩ := h.desc_child hi hj hl hxi hxj
    rw [ci] at hc; simp at hc
  · exact h.same_level_unique hi hj hl hxi hxj
  · obtain ⟨c, hc, _⟩ := h.desc_child hj hi hl hxj hxi
    rw [cj] at hc; simp at hc

end Links

/-- all the octants of block `i` containing something have a block -/
def Complete (inp : Input d) (st : St d) (i : ℕ) : Prop :=
  ∀ j, j < 2 ^ d → (∃ x, (kidOf inp st i j).Mem x) →
    ∃ c ∈ (st.blocks i).children, (st.blocks c).oct = j

/-- effect of adding the first `k` children of `jj` -/
structure SplitSpec (inp : Input d) (st : St d) (jj k : ℕ) (st' : St d) : Prop where
  links : Links inp st'
  le : st.count ≤ st'.count
  core : ∀ i, i < st.count → SameCore (st.blocks i) (st'.blocks i)
  oth : ∀ i, i < st.count → i ≠ jj → st'.blocks i = st.blocks i
  chl : (st'.blocks jj).children = List.range' st.count (st'.count - st.count)
  new : ∀ c, st.count ≤ c → c < st'.count →
    st'.blocks c = kidOf inp st jj (st'.blocks c).oct ∧ (st'.blocks c).oct < k
  comp : ∀ j, j < k → (∃ x, (kidOf inp st jj j).Mem x) →
    ∃ c ∈ (st'.blocks jj).children, (st'.blocks c).oct = j
  qin : ∀ q, q ∈ (st.blocks jj).qps →
    childIdx d (st.blocks jj).pMin (sideAt inp ((st.blocks jj).level + 1)) (inp.qpos q) < k →
    ∃ c ∈ (st'.blocks jj).children, q ∈ (st'.blocks c).qps ∧ st'.qpb q = st.qpb q ++ [c]
  qout : ∀ q, ¬ (q ∈ (st.blocks jj).qps ∧
    childIdx d (st.blocks jj).pMin (sideAt inp ((st.blocks jj).level + 1)) (inp.qpos q) < k) →
    st'.qpb q = st.qpb q
  dofb : ∀ i, st'.dofb i = st.dofb i ++
    if i ∈ (st.blocks jj).nodes then List.replicate (st'.count - st.count) jj else []
  frame : st'.startLevel = st.startLevel ∧ st'.endLevel = st.endLevel ∧
    st'.parentList = st.parentList ∧ st'.childless = st.childless ∧
    st'.dofsFilled = st.dofsFilled ∧ st'.qpsFilled = st.qpsFilled ∧ st'.cap = st.cap

theorem splitSpec_fold (h : Links inp st) {jj : ℕ} (hjj : jj < st.count)
    (hc : (st.blocks jj).children = [])
    (hlev : ∀ i, i < st.count → (st.blocks i).level ≤ (st.blocks jj).level + 1)
    (k : ℕ) (hk : k ≤ 2 ^ d) :
    SplitSpec inp st jj k
      ((List.range k).foldl (fun s j => addChild jj s (kidOf inp st jj j)) st) := by
  induction k with
  | zero =>
    simp only [List.range_zero, List.foldl_nil]
    refine ⟨h, le_refl _, fun i _ => SameCore.refl _, fun _ _ _ => rfl, by simp [hc], ?_, ?_, ?_,
      fun _ _ => rfl, by simp, by simp⟩
    · intro c hc1 hc2; omega
    · intro j hj; omega
    · intro q _ hq; omega
  | succ k ih =>
    have S := ih (by omega)
    rw [List.range_succ, List.foldl_append, List.foldl_cons, List.foldl_nil]
    set s := (List.range k).foldl (fun s j => addChild jj s (kidOf inp st jj j)) st with hs
    have hkid : kidOf inp s jj k = kidOf inp st jj k := kidOf_congr (S.core jj hjj)
    have hjs : jj < s.count := lt_of_lt_of_le hjj S.le
    have hnd : (kidOf inp st jj k).qps.Nodup := (h.nodup hjj).2.filter _
    have hmemq : ∀ q, q ∈ (kidOf inp st jj k).qps ↔ q ∈ (st.blocks jj).qps ∧
        childIdx d (st.blocks jj).pMin (sideAt inp ((st.blocks jj).level + 1)) (inp.qpos q) = k := by
      intro q; exact mem_mkChild inp _ _ _ _ _ (.inr q)
    have hoct : ∀ c ∈ (s.blocks jj).children, (s.blocks c).oct < k := by
      intro c hcc
      rw [S.chl, List.mem_range'_1] at hcc
      exact (S.new c hcc.1 (by omega)).2
    have hlevs : ∀ i, i < s.count → (s.blocks i).level ≤ (s.blocks jj).level + 1 := by
      intro i hi
      rw [(S.core jj hjj).level]
      rcases Nat.lt_or_ge i st.count with hi' | hi'
      · rw [(S.core i hi').level]; exact hlev i hi'
      · rw [(S.new i hi' hi).1]; exact le_refl _
    have hL : Links inp (addChild jj s (kidOf inp st jj k)) := by
      rw [← hkid]; exact S.links.addChild_kid hjs (by omega) hlevs hoct
    by_cases hne : ∃ x, (kidOf inp st jj k).Mem x
    · set s' := addChild jj s (kidOf inp st jj k) with hs'
      have hcnt : s'.count = s.count + 1 := addChild_count hne
      have hnew : s'.blocks s.count = kidOf inp st jj k := addChild_new hne
      have hpar : s'.blocks jj =
          { s.blocks jj with children := (s.blocks jj).children ++ [s.count] } :=
        addChild_parent hne hjs
      have hchl : (s'.blocks jj).children = (s.blocks jj).children ++ [s.count] := by rw [hpar]
      have hoth : ∀ i, i < s.count → i ≠ jj → s'.blocks i = s.blocks i :=
        fun i hi hij => addChild_other i hi hij
      have hcore : ∀ i, i < s.count → SameCore (s.blocks i) (s'.blocks i) :=
        fun i hi => addChild_core i hi
      have hle := S.le
      have hqpb : s'.qpb = pushAll s.qpb (kidOf inp st jj k).qps s.count 1 := by
        rw [hs']; unfold addChild; rw [if_pos ((nonempty_iff _).2 hne)]
      have hdofb : s'.dofb = pushAll s.dofb (s.blocks jj).nodes jj 1 := by
        rw [hs']; unfold addChild; rw [if_pos ((nonempty_iff _).2 hne)]
      refine ⟨hL, by omega, ?_, ?_, ?_, ?_, ?_, ?_, ?_, ?_, ?_⟩
      · intro i hi
        exact (S.core i hi).trans (hcore i (by omega))
      · intro i hi hij
        rw [hoth i (by omega) hij, S.oth i hi hij]
      · rw [hchl, S.chl, hcnt]
        have : s.count + 1 - st.count = (s.count - st.count) + 1 := by omega
        rw [this, List.range'_concat]
        congr 2; omega
      · intro c hc1 hc2
        rcases Nat.lt_or_ge c s.count with hc' | hc'
        · rw [hoth c hc' (by omega)]
          have := S.new c hc1 hc'
          exact ⟨this.1, by omega⟩
        · have : c = s.count := by omega
          subst this; rw [hnew]
          exact ⟨rfl, Nat.lt_succ_self k⟩
      · intro j hj hjne
        rw [hchl]
        rcases Nat.lt_or_ge j k with hjk | hjk
        · obtain ⟨c, hcm, hco⟩ := S.comp j hjk hjne
          have hcs := (S.links.chi jj hjs c hcm).2.1
          exact ⟨c, by simp [hcm], by rw [(hcore c hcs).oct]; exact hco⟩
        · have : j = k := by omega
          subst this
          exact ⟨s.count, by simp, by rw [hnew]; rfl⟩
      · intro q hq hqk
        rw [hchl, hqpb, pushAll_apply _ _ _ _ hnd]
        by_cases hqe : childIdx d (st.blocks jj).pMin (sideAt inp ((st.blocks jj).level + 1))
            (inp.qpos q) = k
        · have hin : q ∈ (kidOf inp st jj k).qps := (hmemq q).2 ⟨hq, hqe⟩
          refine ⟨s.count, by simp, by rw [hnew]; exact hin, ?_⟩
          rw [if_pos hin, S.qout q (by rw [hqe]; omega)]
          rfl
        · have hnin : q ∉ (kidOf inp st jj k).qps := fun hh => hqe ((hmemq q).1 hh).2
          obtain ⟨c, hcm, hcq, hcp⟩ := S.qin q hq (by omega)
          have hcs := (S.links.chi jj hjs c hcm).2.1
          refine ⟨c, by simp [hcm], by rw [(hcore c hcs).qps]; exact hcq, ?_⟩
          rw [if_neg hnin, hcp]
      · intro q hq
        have hnin : q ∉ (kidOf inp st jj k).qps := by
          intro hh
          have := (hmemq q).1 hh
          exact hq ⟨this.1, by omega⟩
        rw [hqpb, pushAll_apply _ _ _ _ hnd, if_neg hnin]
        exact S.qout q (fun hh => hq ⟨hh.1, by omega⟩)
      · intro i
        rw [hdofb, pushAll_apply _ _ _ _ (S.links.nodup hjs).1, (S.core jj hjj).nodes, S.dofb i, hcnt]
        have : s.count + 1 - st.count = (s.count - st.count) + 1 := by omega
        split_ifs with hi
        · rw [this, List.append_assoc, List.replicate_append_replicate]
        · rfl
      · have hf : s'.startLevel = s.startLevel ∧ s'.endLevel = s.endLevel ∧
          s'.parentList = s.parentList ∧ s'.childless = s.childless ∧
          s'.dofsFilled = s.dofsFilled ∧ s'.qpsFilled = s.qpsFilled ∧ s'.cap = s.cap := by
          rw [hs']; unfold addChild; rw [if_pos ((nonempty_iff _).2 hne)]; simp
        obtain ⟨f1, f2, f3, f4, f5, f6, f7⟩ := S.frame
        obtain ⟨g1, g2, g3, g4, g5, g6, g7⟩ := hf
        exact ⟨g1.trans f1, g2.trans f2, g3.trans f3, g4.trans f4, g5.trans f5, g6.trans f6,
          g7.trans f7⟩
    · rw [addChild_of_empty hne]
      refine ⟨S.links, S.le, S.core, S.oth, S.chl, ?_, ?_, ?_, ?_, S.dofb, S.frame⟩
      · intro c hc1 hc2
        have := S.new c hc1 hc2
        exact ⟨this.1, by omega⟩
      · intro j hj hjne
        rcases Nat.lt_or_ge j k with hjk | hjk
        · exact S.comp j hjk hjne
        · have : j = k := by omega
          subst this; exact absurd hjne hne
      · intro q hq hqk
        refine S.qin q hq ?_
        rcases Nat.lt_or_ge (childIdx d (st.blocks jj).pMin (sideAt inp ((st.blocks jj).level + 1))
            (inp.qpos q)) k with h1 | h1
        · exact h1
        · exact absurd ⟨.inr q, (hmemq q).2 ⟨hq, by omega⟩⟩ hne
      · intro q hq
        exact S.qout q (fun hh => hq ⟨hh.1, by omega⟩)

theorem splitBlock_spec (h : Links inp st) {jj : ℕ} (hjj : jj < st.count)
    (hc : (st.blocks jj).children = [])
    (hlev : ∀ i, i < st.count → (st.blocks i).level ≤ (st.blocks jj).level + 1) :
    SplitSpec inp st jj (2 ^ d)
      (splitBlock inp ((st.blocks jj).level + 1) (sideAt inp ((st.blocks jj).level + 1)) st jj) :=
  splitSpec_fold h hjj hc hlev (2 ^ d) (le_refl _)

end PiBem.Octree
