import Verif.Octree.Tree

/-! Exact content of `dof_to_block` (helper lemmas). -/

namespace PiBem.Octree

variable {d : ℕ} {inp : Input d} {st : St d}

instance (inp : Input d) (b : Block d) : Decidable (Big inp b) := by unfold Big; infer_instance

/-- number of entries `e` of `dof_to_block[i]` -/
def dofCnt (inp : Input d) (s : St d) (i e : ℕ) : ℕ :=
  (if i < inp.nDofs ∧ e = 0 then 1 else 0) +
    if e < s.count ∧ i ∈ (s.blocks e).nodes then
      (s.blocks e).children.length + (if e ∈ s.childless then inp.levels - (s.blocks e).level else 0)
    else 0

theorem count_flatMap_ite (ps : List ℕ) (hn : ps.Nodup) (P : ℕ → Prop) [DecidablePred P] (f : ℕ → ℕ) (e : ℕ) :
    (ps.flatMap fun j => if P j then List.replicate (f j) j else []).count e = if e ∈ ps ∧ P e then f e else 0 := by
  induction ps with
  | nil => simp
  | cons a t ih =>
    rw [List.nodup_cons] at hn
    rw [List.flatMap_cons, List.count_append, ih hn.2]
    by_cases hae : e = a
    · subst hae
      by_cases hP : P e <;> simp [hP, hn.1]
    · have h1 : (if P a then List.replicate (f a) a else []).count e = 0 := by
        rw [List.count_eq_zero]
        split_ifs
        · intro h; exact hae (List.eq_of_mem_replicate h)
        · simp
      rw [h1, zero_add]
      simp [hae]

theorem mem_flatMap_ite {ps : List ℕ} {P : ℕ → Prop} [DecidablePred P] {f : ℕ → ℕ} {e : ℕ}
    (h : e ∈ ps.flatMap fun j => if P j then List.replicate (f j) j else []) : e ∈ ps ∧ P e := by
  rw [List.mem_flatMap] at h
  obtain ⟨j, hj, hm⟩ := h
  split_ifs at hm with hP
  · have := List.eq_of_mem_replicate hm
    subst this; exact ⟨hj, hP⟩
  · simp at hm

theorem flatMap_congr' {α β : Type} {l : List α} {f g : α → List β} (h : ∀ a ∈ l, f a = g a) :
    l.flatMap f = l.flatMap g := by
  induction l with
  | nil => rfl
  | cons a t ih =>
    rw [List.flatMap_cons, List.flatMap_cons, h a (by simp), ih fun b hb => h b (by simp [hb])]

theorem split_dofb (hd : d = 2 ∨ d = 3) {lev : ℕ} {st0 : St d}
    (hlev : ∀ i, i < st0.count → (st0.blocks i).level ≤ lev)
    (hclb : ∀ b ∈ st0.childless, b < st0.count) (ps : List ℕ) :
    ∀ (done : List ℕ) (s : St d), SplitPhase inp (lev + 1) st0 done s →
    (∀ j ∈ ps, j < st0.count ∧ (st0.blocks j).children = [] ∧ (st0.blocks j).level = lev ∧
      j ∉ st0.childless) → (done ++ ps).Nodup →
    (∀ i, s.dofb i = st0.dofb i ++ done.flatMap fun j =>
      if i ∈ (st0.blocks j).nodes then List.replicate (s.blocks j).children.length j else []) →
    let t := ps.foldl (splitBlock inp (lev + 1) (sideAt inp (lev + 1))) s
    ∀ i, t.dofb i = st0.dofb i ++ (done ++ ps).flatMap fun j =>
      if i ∈ (st0.blocks j).nodes then List.replicate (t.blocks j).children.length j else [] := by
  induction ps with
  | nil => intro done s S _ _ h; simpa using h
  | cons a t ih =>
    intro done s S hps hnd hdof
    have ha := hps a (by simp)
    have hnot : a ∉ done := by
      intro h
      rw [List.nodup_append] at hnd
      exact hnd.2.2 a h a (by simp) rfl
    have S' := S.step hd ha.1 hnot ha.2.1 ha.2.2.1 ha.2.2.2 hclb hlev
    have hjs : a < s.count := lt_of_lt_of_le ha.1 S.le
    have hbj : s.blocks a = st0.blocks a := S.unt a ha.1 hnot
    have hlj : (s.blocks a).level = lev := by rw [hbj]; exact ha.2.2.1
    have P := splitBlock_spec S.links hjs (by rw [hbj]; exact ha.2.1) (by
      intro i hi
      rcases Nat.lt_or_ge i st0.count with h1 | h1
      · have := hlev i h1; rw [(S.core i h1).level]; omega
      · rw [(S.new i h1 hi).1]; omega)
    rw [hlj] at P
    have h2 := ih (done ++ [a]) _ S' (fun j hj => hps j (by simp [hj])) (by simpa using hnd) (by
      intro i
      rw [P.dofb, hdof, List.flatMap_append, List.append_assoc]
      congr 2
      · refine flatMap_congr' fun j hj => ?_
        rw [P.oth j (lt_of_lt_of_le (S.cmp j hj).1 S.le) (fun h => hnot (h ▸ hj))]
      · simp only [List.flatMap_cons, List.flatMap_nil, List.append_nil]
        rw [P.chl, List.length_range', hbj])
    simpa using h2

theorem classify_dofb {lev : ℕ} {s0 : St d} (h0 : Links inp s0) (ps : List ℕ) :
    ∀ (s : St d), s.blocks = s0.blocks → (∀ b ∈ ps, b < s0.count) →
    (ps.foldl (classify inp lev) s).blocks = s0.blocks ∧
    ∀ i, (ps.foldl (classify inp lev) s).dofb i = s.dofb i ++ ps.flatMap fun b =>
      if i ∈ (s0.blocks b).nodes ∧ ¬ Big inp (s0.blocks b) then List.replicate (inp.levels - lev) b else [] := by
  induction ps with
  | nil => intro s h _; simp [h]
  | cons b ps ih =>
    intro s hs hb
    have hbs : (classify inp lev s b).blocks = s0.blocks ∧ ∀ i, (classify inp lev s b).dofb i = s.dofb i ++
        if i ∈ (s0.blocks b).nodes ∧ ¬ Big inp (s0.blocks b) then List.replicate (inp.levels - lev) b else [] := by
      have hnd := (h0.nodup (hb b (by simp))).1
      unfold classify
      simp only [hs]
      by_cases hB : Big inp (s0.blocks b)
      · have hnle : ¬ roundUp (blockNumNodes inp (s0.blocks b)) ≤ (inp.maxNodes : ℤ) := by unfold Big at hB; omega
        rw [if_neg hnle]
        exact ⟨rfl, fun i => by simp [hB]⟩
      · have hle : roundUp (blockNumNodes inp (s0.blocks b)) ≤ (inp.maxNodes : ℤ) := by unfold Big at hB; omega
        rw [if_pos hle]
        refine ⟨rfl, fun i => ?_⟩
        simp only
        rw [pushAll_apply _ _ _ _ hnd]
        split_ifs <;> simp_all
    obtain ⟨h1, h2⟩ := ih _ hbs.1 (fun a ha => hb a (by simp [ha]))
    refine ⟨h1, fun i => ?_⟩
    rw [List.foldl_cons, h2, hbs.2, List.flatMap_cons, List.append_assoc]

/-- invariant of `dof_to_block` -/
def DofInv (inp : Input d) (s : St d) : Prop :=
  ∀ i, (s.dofb i).Pairwise (· ≤ ·) ∧ ∀ e, (s.dofb i).count e = dofCnt inp s i e

theorem dofInv_init : DofInv inp (initSt inp) := by
  intro i
  unfold dofCnt
  simp only [initSt, rootBlock]
  by_cases hi : i < inp.nDofs
  · refine ⟨by simp [hi], fun e => ?_⟩
    by_cases he : e = 0
    · subst he; simp [hi]
    · have : ¬ 0 = e := fun h => he h.symm
      simp [hi, he, this]
  · simp [hi]

theorem pairwise_append_level (h : Links inp st) {lev i : ℕ} {l l' : List ℕ} (hl : l.Pairwise (· ≤ ·))
    (h1 : ∀ e ∈ l, e < st.count ∧ i ∈ (st.blocks e).nodes ∧ (st.blocks e).level ≤ lev)
    (h2 : ∀ e ∈ l', e < st.count ∧ i ∈ (st.blocks e).nodes ∧ (st.blocks e).level = lev) :
    (l ++ l').Pairwise (· ≤ ·) := by
  have hle : ∀ e e', (e < st.count ∧ i ∈ (st.blocks e).nodes ∧ (st.blocks e).level ≤ lev) →
      (e' < st.count ∧ i ∈ (st.blocks e').nodes ∧ (st.blocks e').level = lev) → e ≤ e' := by
    intro e e' ⟨a1, a2, a3⟩ ⟨b1, b2, b3⟩
    rcases Nat.lt_or_ge e' e with hlt | hge
    · have := h.mono e' e hlt.le a1
      exact (h.same_level_unique a1 b1 (by omega) (x := .inl i) a2 b2).le
    · exact hge
  rw [List.pairwise_append]
  refine ⟨hl, ?_, fun a ha b hb => hle a b (h1 a ha) (h2 b hb)⟩
  refine List.pairwise_iff_forall_sublist.2 fun {a b} hab => ?_
  have ha := h2 a (hab.subset (by simp))
  have hb := h2 b (hab.subset (by simp))
  exact hle a b ⟨ha.1, ha.2.1, ha.2.2.le⟩ hb

set_option maxHeartbeats 1000000 in
theorem dofInv_step (hd : d = 2 ∨ d = 3) {lev : ℕ} (hL : lev + 1 ≤ inp.levels)
    (I : LevInv inp lev st) (H : DofInv inp st) : DofInv inp (levelStep inp (lev + 1) st) := by
  have I' := levInv_step hd hL I
  have hclb : ∀ b ∈ st.childless, b < st.count := fun b hb => ((I.chl b).1 hb).2.1
  have S0 : SplitPhase inp (lev + 1) st [] st := by
    refine ⟨I.links, le_refl _, fun _ _ => SameCore.refl _, fun _ _ _ => rfl, ?_, by simp, I.qok,
      I.qnone, I.dok, by simp, by simp⟩
    intro c h1 h2; omega
  have hps : ∀ j ∈ st.parentList lev, j < st.count ∧ (st.blocks j).children = [] ∧ (st.blocks j).level = lev ∧
      j ∉ st.childless := by
    intro j hj
    obtain ⟨h1, h2, h3⟩ := (I.par lev j).1 hj
    refine ⟨h1, I.leaf j h1 (Or.inl h2), h2, ?_⟩
    rw [I.chl]; rintro ⟨h4, _, h5⟩
    rcases h3 with h3 | h3
    · omega
    · exact h5 h3
  have S := SplitPhase.fold hd I.lev_le hclb (st.parentList lev) [] st S0 hps (by simpa using I.parnd lev)
  have hsd := split_dofb hd I.lev_le hclb (st.parentList lev) [] st S0 hps (by simpa using I.parnd lev)
    (by intro i; simp)
  simp only [List.nil_append] at S hsd
  obtain ⟨g1, g2, g3, g4, g5, g6, g7⟩ := S.frame
  have hle : st.count ≤ ((st.parentList lev).foldl (splitBlock inp (lev + 1) (sideAt inp (lev + 1))) st).count := S.le
  have hend : ((st.parentList lev).foldl (splitBlock inp (lev + 1) (sideAt inp (lev + 1))) st).endLevel lev + 1 = st.count := by
    rw [g2]; exact I.last
  have hLS := S.links
  revert I'
  unfold levelStep
  simp only [Nat.add_sub_cancel]
  rw [show (22 / 10 * maxCoor inp / 2 ^ (lev + 1) : ℚ) = sideAt inp (lev + 1) from rfl]
  rw [hend]
  set s1 := (st.parentList lev).foldl (splitBlock inp (lev + 1) (sideAt inp (lev + 1))) st with hs1
  set s2 : St d := { s1 with
    startLevel := Function.update s1.startLevel (lev + 1) st.count
    endLevel := Function.update s1.endLevel (lev + 1) (s1.count - 1) } with hs2
  intro I'
  have hL2 : Links inp s2 := S.links.casesOn (fun a b c e f g h i j k => ⟨a, b, c, e, f, g, h, i, j, k⟩)
  obtain ⟨hb, hcd⟩ := classify_dofb (lev := lev + 1) hL2 (List.range' st.count (s1.count - st.count)) s2 rfl (by
    intro b hb; rw [List.mem_range'_1] at hb; show b < s1.count; omega)
  have hcnt : ∀ (l : List ℕ) (s : St d), (l.foldl (classify inp (lev + 1)) s).count = s.count := by
    intro l
    induction l with
    | nil => intro s; rfl
    | cons a l ih => intro s; rw [List.foldl_cons, ih]; unfold classify; simp only; split_ifs <;> rfl
  have hrc := hcnt (List.range' st.count (s1.count - st.count)) s2
  set r := (List.range' st.count (s1.count - st.count)).foldl (classify inp (lev + 1)) s2 with hr
  have hrb : r.blocks = s1.blocks := hb
  have hrc' : r.count = s1.count := hrc
  intro i
  have hdi : r.dofb i = (st.dofb i ++ (st.parentList lev).flatMap fun j =>
      if i ∈ (st.blocks j).nodes then List.replicate (s1.blocks j).children.length j else []) ++
      (List.range' st.count (s1.count - st.count)).flatMap fun b =>
        if i ∈ (s1.blocks b).nodes ∧ ¬ Big inp (s1.blocks b) then List.replicate (inp.levels - (lev + 1)) b else [] := by
    rw [hcd i]
    show s1.dofb i ++ _ = _
    rw [hsd i]
  constructor
  · rw [hdi]
    refine pairwise_append_level (lev := lev + 1) (i := i) hLS (pairwise_append_level (lev := lev) (i := i) hLS (H i).1 ?_ ?_) ?_ ?_
    · intro e he
      have h1 := I.dok i e he
      have hc := S.core e h1.1
      exact ⟨by omega, by rw [hc.nodes]; exact h1.2, by rw [hc.level]; exact I.lev_le e h1.1⟩
    · intro e he
      have h1 := mem_flatMap_ite he
      have h2 := (I.par lev e).1 h1.1
      have hc := S.core e h2.1
      exact ⟨by omega, by rw [hc.nodes]; exact h1.2, by rw [hc.level]; exact h2.2.1⟩
    · intro e he
      rw [List.mem_append] at he
      rcases he with he | he
      · have h1 := I.dok i e he
        have hc := S.core e h1.1
        exact ⟨by omega, by rw [hc.nodes]; exact h1.2, by rw [hc.level]; exact (I.lev_le e h1.1).trans (by omega)⟩
      · have h1 := mem_flatMap_ite he
        have h2 := (I.par lev e).1 h1.1
        have hc := S.core e h2.1
        exact ⟨by omega, by rw [hc.nodes]; exact h1.2, by rw [hc.level]; omega⟩
    · intro e he
      have h1 := mem_flatMap_ite he
      have h2 := List.mem_range'_1.1 h1.1
      exact ⟨by omega, h1.2.1, (S.new e h2.1 (by omega)).1⟩
  · intro e
    rw [hdi, List.count_append, List.count_append, (H i).2 e, count_flatMap_ite _ (I.parnd lev),
      count_flatMap_ite _ List.nodup_range']
    unfold dofCnt
    simp only [hrb, hrc', List.mem_range'_1, I'.chl e, I.chl e]
    rcases Nat.lt_or_ge e st.count with he | he
    · have hc := S.core e he
      have hnb : ¬ (st.count ≤ e ∧ e < st.count + (s1.count - st.count)) := by omega
      have hbig : Big inp (s1.blocks e) ↔ Big inp (st.blocks e) := hc.big
      simp only [hc.nodes, hc.level, hbig]
      by_cases hi : i ∈ (st.blocks e).nodes
      · have h1 : e < s1.count := by omega
        by_cases hp : e ∈ st.parentList lev
        · have hch := (hps e hp).2.1
          simp only [hi, he, h1, hp, hch, hnb, and_true, if_true, if_false, true_and, false_and,
            List.length_nil, add_zero, zero_add]
          rw [add_assoc, Nat.add_comm (if 0 < e ∧ ¬ Big inp (st.blocks e) then inp.levels - (st.blocks e).level else 0)]
        · simp only [S.unt e he hp]
          simp only [hi, he, h1, hp, hnb, and_true, if_true, if_false, false_and, add_zero]
      · simp [hi]
    · have h0 : ¬ e = 0 := by have := I.links.pos; omega
      have hnp : e ∉ st.parentList lev := fun h => by have := (hps e h).1; omega
      by_cases hec : e < s1.count
      · have hnew := S.new e he hec
        have hin : st.count ≤ e ∧ e < st.count + (s1.count - st.count) := by omega
        have hne : ¬ e < st.count := by omega
        have h0' : 0 < e := by omega
        simp only [hnew.1, hnew.2]
        by_cases hi : i ∈ (s1.blocks e).nodes
        · by_cases hB : Big inp (s1.blocks e) <;> simp [hi, hec, hin, hne, h0', hnp, hB, h0]
        · simp [hi, hne, hnp]
      · have hin : ¬ (st.count ≤ e ∧ e < st.count + (s1.count - st.count)) := by omega
        have hne : ¬ e < st.count := by omega
        simp [hec, hin, hne, hnp]

theorem dofInv_build (hd : d = 2 ∨ d = 3) (inp : Input d) : DofInv inp (build inp) := by
  have h : ∀ k, k ≤ inp.levels → DofInv inp (buildTo inp k) := by
    intro k
    induction k with
    | zero => intro _; exact dofInv_init
    | succ k ih => intro hk; exact dofInv_step hd hk (levInv_buildTo hd k (by omega)) (ih (by omega))
  have I := levInv_buildTo (inp := inp) hd inp.levels (le_refl _)
  intro i
  obtain ⟨h1, h2⟩ := h inp.levels (le_refl _) i
  refine ⟨h1, fun e => ?_⟩
  show ((buildTo inp inp.levels).dofb i).count e = _
  rw [h2 e]
  unfold dofCnt
  show _ = _ + if e < (buildTo inp inp.levels).count ∧ i ∈ ((buildTo inp inp.levels).blocks e).nodes then
    ((buildTo inp inp.levels).blocks e).children.length + (if e ∈ (buildTo inp inp.levels).childless ++
      (buildTo inp inp.levels).parentList inp.levels then inp.levels - ((buildTo inp inp.levels).blocks e).level else 0) else 0
  congr 1
  by_cases he : e ∈ (buildTo inp inp.levels).childless
  · simp [he]
  · by_cases hp : e ∈ (buildTo inp inp.levels).parentList inp.levels
    · have := ((I.par _ e).1 hp).2.1
      simp [this]
    · simp [he, hp]

end PiBem.Octree
