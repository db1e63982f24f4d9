import Verif.Octree.Split

/-! The invariant of the loop on levels (helper lemmas). -/

namespace PiBem.Octree

variable {d : ℕ} {inp : Input d} {st : St d}

/-- too many nodes: the block is subdivided if it is not at the last level -/
def Big (inp : Input d) (b : Block d) : Prop :=
  (inp.maxNodes : ℤ) < roundUp (blockNumNodes inp b)

theorem SameCore.big {b b' : Block d} (h : SameCore b b') : Big inp b' ↔ Big inp b := by
  unfold Big blockNumNodes; rw [h.nodes]

/-- `quad_point_to_block` of `q` is right in state `st` -/
structure QOK (inp : Input d) (st : St d) (q : ℕ × ℕ) : Prop where
  leaf : ∃ b, b < st.count ∧ q ∈ (st.blocks b).qps ∧ (st.blocks b).children = [] ∧
    (st.qpb q).length = if b ∈ st.childless then inp.levels + 1 else (st.blocks b).level + 1
  ent : ∀ l e, (st.qpb q)[l]? = some e → e < st.count ∧ q ∈ (st.blocks e).qps ∧
    ((st.blocks e).level = l ∨ ((st.blocks e).level < l ∧ e ∈ st.childless))

/-- `dof_to_block` contains only blocks containing the dof -/
def DOK (st : St d) : Prop :=
  ∀ i, ∀ e ∈ st.dofb i, e < st.count ∧ i ∈ (st.blocks e).nodes

theorem kid_complete_congr {st st' : St d} {i : ℕ} (hi : i < st.count) (h : Links inp st)
    (hb : st'.blocks i = st.blocks i) (hc : ∀ i, i < st.count → SameCore (st.blocks i) (st'.blocks i))
    (hC : Complete inp st i) : Complete inp st' i := by
  intro j hj hne
  rw [kidOf_congr (hc i hi)] at hne
  obtain ⟨c, hcm, hco⟩ := hC j hj hne
  refine ⟨c, by rw [hb]; exact hcm, ?_⟩
  rw [(hc c (h.chi i hi c hcm).2.1).oct]; exact hco

theorem QOK.congr {st st' : St d} {q : ℕ × ℕ} (h : QOK inp st q) (hb : st'.blocks = st.blocks)
    (hc : st'.count = st.count) (hl : st'.childless = st.childless) (hq : st'.qpb = st.qpb) :
    QOK inp st' q := by
  constructor
  · rw [hb, hc, hl, hq]; exact h.leaf
  · rw [hb, hc, hl, hq]; exact h.ent

/-- state of the table after splitting the blocks `done` -/
structure SplitPhase (inp : Input d) (lev : ℕ) (st0 : St d) (done : List ℕ) (st : St d) : Prop where
  links : Links inp st
  le : st0.count ≤ st.count
  core : ∀ i, i < st0.count → SameCore (st0.blocks i) (st.blocks i)
  unt : ∀ i, i < st0.count → i ∉ done → st.blocks i = st0.blocks i
  new : ∀ c, st0.count ≤ c → c < st.count → (st.blocks c).level = lev ∧ (st.blocks c).children = []
  cmp : ∀ i ∈ done, i < st0.count ∧ Complete inp st i
  qok : ∀ q ∈ allQps inp, QOK inp st q
  qnone : ∀ q, q ∉ allQps inp → st.qpb q = []
  dok : DOK st
  frame : st.startLevel = st0.startLevel ∧ st.endLevel = st0.endLevel ∧
    st.parentList = st0.parentList ∧ st.childless = st0.childless ∧
    st.dofsFilled = st0.dofsFilled ∧ st.qpsFilled = st0.qpsFilled ∧ st.cap = st0.cap
  oob : st.oob = true ↔ (st0.oob = true ∨ (st0.cap < st.count ∧ st0.count < st.count))

theorem mem_root_of_mem (h : Links inp st) {i : ℕ} (hi : i < st.count) {x : Item}
    (hx : (st.blocks i).Mem x) : (rootBlock inp).Mem x := by
  induction i using Nat.strong_induction_on with
  | _ i ih =>
    rcases Nat.eq_zero_or_pos i with rfl | hi0
    · exact (h.root.mem x).1 hx
    · exact ih _ (h.par i hi0 hi).1 (h.parent_lt hi0 hi) ((h.mem_iff hi0 hi x).1 hx).1

theorem addChild_oob {jj : ℕ} {c : Block d} :
    ((addChild jj st c).oob = true ↔
      (st.oob = true ∨ (st.cap < (addChild jj st c).count ∧ st.count < (addChild jj st c).count)))
    ∧ (addChild jj st c).cap = st.cap ∧ st.count ≤ (addChild jj st c).count := by
  unfold addChild
  split_ifs
  · simp [Nat.lt_succ_iff]
  · simp

theorem fold_oob {jj : ℕ} (f : ℕ → Block d) (l : List ℕ) (st : St d) :
    let st' := l.foldl (fun s j => addChild jj s (f j)) st
    (st'.oob = true ↔ (st.oob = true ∨ (st.cap < st'.count ∧ st.count < st'.count)))
      ∧ st'.cap = st.cap ∧ st.count ≤ st'.count := by
  induction l generalizing st with
  | nil => simp
  | cons a t ih =>
    simp only [List.foldl_cons]
    have h1 := addChild_oob (st := st) (jj := jj) (c := f a)
    have h2 := ih (addChild jj st (f a))
    simp only at h2
    set s1 := addChild jj st (f a)
    set s2 := t.foldl (fun s j => addChild jj s (f j)) s1
    obtain ⟨h1a, h1b, h1c⟩ := h1
    obtain ⟨h2a, h2b, h2c⟩ := h2
    refine ⟨?_, by rw [h2b, h1b], by omega⟩
    rw [h2a, h1a, h1b]
    constructor
    · rintro ((h | h) | h)
      · exact Or.inl h
      · right; omega
      · right; omega
    · rintro (h | h)
      · exact Or.inl (Or.inl h)
      · by_cases hc : st.count < s1.count
        · by_cases hc2 : s1.count < s2.count
          · right; omega
          · left; right; omega
        · right; omega

theorem SplitPhase.step (hd : d = 2 ∨ d = 3) {lev : ℕ} {st0 : St d} {done : List ℕ} {s : St d}
    (S : SplitPhase inp (lev + 1) st0 done s) {jj : ℕ} (hjj : jj < st0.count) (hnd : jj ∉ done)
    (hch : (st0.blocks jj).children = []) (hl : (st0.blocks jj).level = lev)
    (hcl : jj ∉ st0.childless) (hclb : ∀ b ∈ st0.childless, b < st0.count)
    (hlev : ∀ i, i < st0.count → (st0.blocks i).level ≤ lev) :
    SplitPhase inp (lev + 1) st0 (done ++ [jj])
      (splitBlock inp (lev + 1) (sideAt inp (lev + 1)) s jj) := by
  have hjs : jj < s.count := lt_of_lt_of_le hjj S.le
  have hbj : s.blocks jj = st0.blocks jj := S.unt jj hjj hnd
  have hlj : (s.blocks jj).level = lev := by rw [hbj]; exact hl
  have hcj : (s.blocks jj).children = [] := by rw [hbj]; exact hch
  have hlevs : ∀ i, i < s.count → (s.blocks i).level ≤ (s.blocks jj).level + 1 := by
    intro i hi
    rcases Nat.lt_or_ge i st0.count with h1 | h1
    · have := hlev i h1; rw [(S.core i h1).level]; omega
    · rw [(S.new i h1 hi).1]; omega
  have P := splitBlock_spec S.links hjs hcj hlevs
  rw [hlj] at P
  have hoob := fold_oob (jj := jj)
    (fun j => mkChild inp (lev + 1) (sideAt inp (lev + 1)) jj (s.blocks jj) j)
    (List.range (2 ^ d)) s
  simp only at hoob
  change (((splitBlock inp (lev + 1) (sideAt inp (lev + 1)) s jj).oob = true ↔ _) ∧ _) at hoob
  set t := splitBlock inp (lev + 1) (sideAt inp (lev + 1)) s jj with ht
  have hcnt : t = (List.range (2 ^ d)).foldl (fun s' j => addChild jj s' ((fun j => mkChild inp (lev + 1) (sideAt inp (lev + 1)) jj (s.blocks jj) j) j)) s := rfl
  rw [← hcnt] at hoob
  obtain ⟨f1, f2, f3, f4, f5, f6, f7⟩ := P.frame
  obtain ⟨g1, g2, g3, g4, g5, g6, g7⟩ := S.frame
  have hle : s.count ≤ t.count := P.le
  refine ⟨P.links, le_trans S.le P.le, ?_, ?_, ?_, ?_, ?_, ?_, ?_,
    ⟨f1.trans g1, f2.trans g2, f3.trans g3, f4.trans g4, f5.trans g5, f6.trans g6, f7.trans g7⟩, ?_⟩
  · intro i hi
    exact (S.core i hi).trans (P.core i (lt_of_lt_of_le hi S.le))
  · intro i hi hin
    simp only [List.mem_append, List.mem_singleton, not_or] at hin
    rw [P.oth i (lt_of_lt_of_le hi S.le) hin.2, S.unt i hi hin.1]
  · intro c hc1 hc2
    rcases Nat.lt_or_ge c s.count with h1 | h1
    · rw [P.oth c h1 (by omega)]; exact S.new c hc1 h1
    · rw [(P.new c h1 hc2).1]
      exact ⟨by simp [kidOf, mkChild, hlj], rfl⟩
  · intro i hi
    simp only [List.mem_append, List.mem_singleton] at hi
    by_cases hij : i = jj
    · subst hij
      refine ⟨hjj, ?_⟩
      intro j hj hne
      rw [kidOf_congr (P.core i hjs)] at hne
      exact P.comp j hj hne
    · have hid : i ∈ done := by tauto
      have hi0 := (S.cmp i hid).1
      have hic : i < s.count := lt_of_lt_of_le hi0 S.le
      exact ⟨hi0, kid_complete_congr hic S.links (P.oth i hic hij) P.core (S.cmp i hid).2⟩
  · intro q hq
    have Q := S.qok q hq
    by_cases hqj : q ∈ (s.blocks jj).qps
    · obtain ⟨c, hcm, hcq, hcp⟩ := P.qin q hqj (by rw [hlj]; exact childIdx_lt hd _ _ _)
      have hcr : s.count ≤ c ∧ c < t.count := by
        rw [P.chl, List.mem_range'_1] at hcm; omega
      have hcb := P.new c hcr.1 hcr.2
      -- the leaf of q is jj
      obtain ⟨b, hb, hbq, hbc, hblen⟩ := Q.leaf
      have hbj' : b = jj := S.links.leaf_unique hb hjs hbc hcj (x := .inr q) hbq hqj
      subst hbj'
      have hncl : b ∉ s.childless := by rw [g4]; exact hcl
      rw [if_neg hncl, hlj] at hblen
      have hlc : (t.blocks c).level = lev + 1 := by rw [hcb.1]; simp [kidOf, mkChild, hlj]
      refine ⟨⟨c, hcr.2, hcq, by rw [hcb.1]; rfl, ?_⟩, ?_⟩
      · rw [hcp, List.length_append, hblen, hlc, if_neg]; · simp
        rw [f4]
        intro hmem
        rw [g4] at hmem
        have := hclb c hmem
        have := S.le
        omega
      · intro l e he
        rw [hcp] at he
        rcases Nat.lt_or_ge l (s.qpb q).length with hll | hll
        · rw [List.getElem?_append_left hll] at he
          obtain ⟨e1, e2, e3⟩ := Q.ent l e he
          have hcore := P.core e e1
          rw [hcore.qps, hcore.level, f4]
          exact ⟨by omega, e2, e3⟩
        · rw [List.getElem?_append_right hll] at he
          have hl0 : l = lev + 1 := by
            by_contra hne
            have : l - (s.qpb q).length ≠ 0 := by omega
            rw [List.getElem?_eq_none] at he
            · simp at he
            · simp; omega
          subst hl0
          rw [hblen] at he
          simp at he
          subst he
          exact ⟨hcr.2, hcq, Or.inl hlc⟩
    · have hqe : t.qpb q = s.qpb q := P.qout q (fun hh => hqj hh.1)
      constructor
      · obtain ⟨b, hb, hbq, hbc, hblen⟩ := Q.leaf
        have hbne : b ≠ jj := by rintro rfl; exact hqj hbq
        refine ⟨b, by omega, ?_, ?_, ?_⟩
        · rw [P.oth b hb hbne]; exact hbq
        · rw [P.oth b hb hbne]; exact hbc
        · rw [hqe, P.oth b hb hbne, f4]; exact hblen
      · intro l e he
        rw [hqe] at he
        obtain ⟨e1, e2, e3⟩ := Q.ent l e he
        have hcore := P.core e e1
        rw [hcore.qps, hcore.level, f4]
        exact ⟨by omega, e2, e3⟩
  · intro q hq
    rw [P.qout q, S.qnone q hq]
    rintro ⟨h1, _⟩
    exact hq (mem_root_of_mem S.links hjs (x := .inr q) h1)
  · intro i e he
    rw [P.dofb] at he
    rw [List.mem_append] at he
    rcases he with he | he
    · have := S.dok i e he
      rw [(P.core e this.1).nodes]
      exact ⟨by omega, this.2⟩
    · split_ifs at he with hi
      · have : e = jj := List.eq_of_mem_replicate he
        subst this
        rw [(P.core e hjs).nodes]
        exact ⟨by omega, hi⟩
      · simp at he
  · rw [hoob.1, S.oob, g7]
    have := S.le
    constructor
    · rintro ((h | h) | h)
      · exact Or.inl h
      · right; omega
      · right; omega
    · rintro (h | h)
      · exact Or.inl (Or.inl h)
      · by_cases hc : st0.count < s.count
        · by_cases hc2 : s.count < t.count
          · right; omega
          · left; right; omega
        · right; omega

theorem SplitPhase.fold (hd : d = 2 ∨ d = 3) {lev : ℕ} {st0 : St d}
    (hlev : ∀ i, i < st0.count → (st0.blocks i).level ≤ lev)
    (hclb : ∀ b ∈ st0.childless, b < st0.count) (ps : List ℕ) :
    ∀ (done : List ℕ) (s : St d), SplitPhase inp (lev + 1) st0 done s →
    (∀ j ∈ ps, j < st0.count ∧ (st0.blocks j).children = [] ∧ (st0.blocks j).level = lev ∧
      j ∉ st0.childless) → (done ++ ps).Nodup →
    SplitPhase inp (lev + 1) st0 (done ++ ps)
      (ps.foldl (splitBlock inp (lev + 1) (sideAt inp (lev + 1))) s) := by
  induction ps with
  | nil => intro done s S _ _; simpa using S
  | cons a t ih =>
    intro done s S hps hnd
    have ha := hps a (by simp)
    have hnot : a ∉ done := by
      intro h
      rw [List.nodup_append] at hnd
      exact hnd.2.2 a h a (by simp) rfl
    have := S.step hd ha.1 hnot ha.2.1 ha.2.2.1 ha.2.2.2 hclb hlev
    have h2 := ih (done ++ [a]) _ this (fun j hj => hps j (by simp [hj])) (by simpa using hnd)
    simpa using h2

/-- The invariant at the end of the iteration `lev` of the loop on levels. -/
structure LevInv (inp : Input d) (lev : ℕ) (st : St d) : Prop where
  links : Links inp st
  lev_le : ∀ b, b < st.count → (st.blocks b).level ≤ lev
  cmp : ∀ b, b < st.count → (st.blocks b).level < lev → (b = 0 ∨ Big inp (st.blocks b)) →
    Complete inp st b
  leaf : ∀ b, b < st.count → ((st.blocks b).level = lev ∨ (0 < b ∧ ¬ Big inp (st.blocks b))) →
    (st.blocks b).children = []
  chl : ∀ b, b ∈ st.childless ↔ 0 < b ∧ b < st.count ∧ ¬ Big inp (st.blocks b)
  chlnd : st.childless.Nodup
  par : ∀ l b, b ∈ st.parentList l ↔
    b < st.count ∧ (st.blocks b).level = l ∧ (b = 0 ∨ Big inp (st.blocks b))
  parnd : ∀ l, (st.parentList l).Nodup
  rng : ∀ l, l ≤ lev → ∀ b, (b < st.count ∧ (st.blocks b).level = l ↔
    st.startLevel l ≤ b ∧ b ≤ st.endLevel l)
  last : st.endLevel lev + 1 = st.count
  dfil : ∀ l b, b ∈ st.dofsFilled l ↔
    0 < b ∧ b < st.count ∧ (st.blocks b).level = l ∧ 0 < blockNumNodes inp (st.blocks b)
  dfilnd : ∀ l, (st.dofsFilled l).Nodup
  qfil : ∀ l b, b ∈ st.qpsFilled l ↔
    0 < b ∧ b < st.count ∧ (st.blocks b).level = l ∧ (st.blocks b).qps ≠ []
  qfilnd : ∀ l, (st.qpsFilled l).Nodup
  qok : ∀ q ∈ allQps inp, QOK inp st q
  qnone : ∀ q, q ∉ allQps inp → st.qpb q = []
  dok : DOK st
  cap : st.cap = inp.levels * inp.nCells * inp.nq
  oob : st.oob = true ↔ st.cap < st.count

theorem levInv_init : LevInv inp 0 (initSt inp) := by
  have hL : Links inp (initSt inp) := by
    refine ⟨by simp [initSt], rfl, ?_, ?_, ?_, ?_, ?_, ?_, ?_, ?_⟩ <;>
      simp only [initSt, rootBlock] <;> intros <;> first | omega | simp_all
  refine ⟨hL, ?_, ?_, ?_, ?_, ?_, ?_, ?_, ?_, ?_, ?_, ?_, ?_, ?_, ?_, ?_, ?_, rfl, ?_⟩
  · intro b _; simp [initSt, rootBlock]
  · intro b _ h; simp [initSt, rootBlock] at h
  · intro b _ _; simp [initSt, rootBlock]
  · intro b; simp [initSt]; omega
  · simp [initSt]
  · intro l b
    simp only [initSt, rootBlock]
    by_cases hl : l = 0
    · subst hl; simp; intro h; left; exact h
    · simp [hl]; intro _ h; exact absurd h.symm hl
  · intro l; simp only [initSt]; split_ifs <;> simp
  · intro l hl b
    have : l = 0 := by omega
    subst this
    simp [initSt, rootBlock]
  · simp [initSt]
  · intro l b; simp [initSt]; intros; omega
  · intro l; simp [initSt]
  · intro l b; simp [initSt]; intros; omega
  · intro l; simp [initSt]
  · intro q hq
    constructor
    · exact ⟨0, by simp [initSt], by simpa [initSt, rootBlock] using hq,
        by simp [initSt, rootBlock], by simp [initSt, rootBlock, hq]⟩
    · intro l e he
      simp only [initSt, hq, if_true] at he
      have hl : l = 0 ∧ e = 0 := by
        rcases l with _ | l
        · simpa using he.symm
        · simp at he
      obtain ⟨rfl, rfl⟩ := hl
      refine ⟨by simp [initSt], by simpa [initSt, rootBlock] using hq, Or.inl ?_⟩
      simp [initSt, rootBlock]
  · intro q hq; simp [initSt, hq]
  · intro i e he
    simp only [initSt] at he ⊢
    split_ifs at he with hi
    · simp at he; subst he; simp [rootBlock, hi]
    · simp at he
  · simp only [initSt, decide_eq_true_eq]; omega

/-- Invariant of the loop classifying the blocks of level `lev`: `done` is the list of the blocks
already classified. -/
structure ClsInv (inp : Input d) (lev : ℕ) (s0 : St d) (done : List ℕ) (st : St d) : Prop where
  blocks : st.blocks = s0.blocks
  count : st.count = s0.count
  start : st.startLevel = s0.startLevel
  fin : st.endLevel = s0.endLevel
  cap : st.cap = s0.cap
  oob : st.oob = s0.oob
  chl : ∀ b, b ∈ st.childless ↔ b ∈ s0.childless ∨ (b ∈ done ∧ ¬ Big inp (s0.blocks b))
  chlnd : st.childless.Nodup
  par : ∀ l b, b ∈ st.parentList l ↔
    b ∈ s0.parentList l ∨ (b ∈ done ∧ l = lev ∧ Big inp (s0.blocks b))
  parnd : ∀ l, (st.parentList l).Nodup
  dfil : ∀ l b, b ∈ st.dofsFilled l ↔
    b ∈ s0.dofsFilled l ∨ (b ∈ done ∧ l = lev ∧ 0 < blockNumNodes inp (s0.blocks b))
  dfilnd : ∀ l, (st.dofsFilled l).Nodup
  qfil : ∀ l b, b ∈ st.qpsFilled l ↔
    b ∈ s0.qpsFilled l ∨ (b ∈ done ∧ l = lev ∧ (s0.blocks b).qps ≠ [])
  qfilnd : ∀ l, (st.qpsFilled l).Nodup
  qok : ∀ q ∈ allQps inp, QOK inp st q
  qnone : ∀ q, q ∉ allQps inp → st.qpb q = []
  dok : DOK st

theorem mem_update_append {f : ℕ → List ℕ} {lev b l a : ℕ} :
    a ∈ Function.update f lev (f lev ++ [b]) l ↔ a ∈ f l ∨ (a = b ∧ l = lev) := by
  by_cases h : l = lev
  · subst h; simp
  · simp [h]

theorem nodup_update_append {f : ℕ → List ℕ} {lev b l : ℕ} (h : ∀ l, (f l).Nodup)
    (hb : b ∉ f lev) : (Function.update f lev (f lev ++ [b]) l).Nodup := by
  by_cases hl : l = lev
  · subst hl
    simp only [Function.update_self]
    rw [List.nodup_append]
    refine ⟨h l, by simp, ?_⟩
    intro x hx y hy hxy
    simp at hy; subst hy; subst hxy; exact hb hx
  · simp [hl, h l]

set_option maxHeartbeats 1000000 in
theorem ClsInv.step {lev : ℕ} {s0 : St d} (h0 : Links inp s0) {done : List ℕ} {s : St d}
    (C : ClsInv inp lev s0 done s) {b : ℕ} (hb : b < s0.count) (hbd : b ∉ done)
    (hlev : (s0.blocks b).level = lev) (hL : lev ≤ inp.levels)
    (hchi : (s0.blocks b).children = [])
    (hn1 : b ∉ s0.childless) (hn2 : b ∉ s0.parentList lev) (hn3 : b ∉ s0.dofsFilled lev)
    (hn4 : b ∉ s0.qpsFilled lev) :
    ClsInv inp lev s0 (done ++ [b]) (classify inp lev s b) := by
  have hnd := h0.nodup hb
  have hbs : s.blocks b = s0.blocks b := by rw [C.blocks]
  have hc1 : b ∉ s.childless := by rw [C.chl]; tauto
  have hc2 : b ∉ s.parentList lev := by rw [C.par]; tauto
  have hc3 : b ∉ s.dofsFilled lev := by rw [C.dfil]; tauto
  have hc4 : b ∉ s.qpsFilled lev := by rw [C.qfil]; tauto
  have hqlen : 0 < (s0.blocks b).qps.length ↔ (s0.blocks b).qps ≠ [] := by
    rw [List.length_pos_iff]
  have hdf : ∀ (f : ℕ → List ℕ), f = s.dofsFilled → ∀ l a,
      a ∈ (if 0 < blockNumNodes inp (s0.blocks b) then
        Function.update f lev (f lev ++ [b]) else f) l ↔
      a ∈ s0.dofsFilled l ∨ (a ∈ done ++ [b] ∧ l = lev ∧ 0 < blockNumNodes inp (s0.blocks a)) := by
    rintro f rfl l a
    split_ifs with h
    · rw [mem_update_append, C.dfil]
      simp only [List.mem_append, List.mem_singleton]
      constructor
      · rintro ((h1 | h1) | ⟨rfl, h1⟩)
        · exact Or.inl h1
        · tauto
        · right; exact ⟨Or.inr rfl, h1, h⟩
      · rintro (h1 | ⟨h1 | rfl, h2, h3⟩) <;> tauto
    · rw [C.dfil]
      simp only [List.mem_append, List.mem_singleton]
      constructor
      · tauto
      · rintro (h1 | ⟨h1 | rfl, h2, h3⟩) <;> tauto
  have hdfn : ∀ (f : ℕ → List ℕ), f = s.dofsFilled → ∀ l,
      ((if 0 < blockNumNodes inp (s0.blocks b) then
        Function.update f lev (f lev ++ [b]) else f) l).Nodup := by
    rintro f rfl l
    split_ifs with h
    · exact nodup_update_append C.dfilnd hc3
    · exact C.dfilnd l
  have hqf : ∀ (f : ℕ → List ℕ), f = s.qpsFilled → ∀ l a,
      a ∈ (if 0 < (s0.blocks b).qps.length then
        Function.update f lev (f lev ++ [b]) else f) l ↔
      a ∈ s0.qpsFilled l ∨ (a ∈ done ++ [b] ∧ l = lev ∧ (s0.blocks a).qps ≠ []) := by
    rintro f rfl l a
    split_ifs with h <;> rw [hqlen] at h
    · rw [mem_update_append, C.qfil]
      simp only [List.mem_append, List.mem_singleton]
      constructor
      · rintro ((h1 | h1) | ⟨rfl, h1⟩)
        · exact Or.inl h1
        · tauto
        · right; exact ⟨Or.inr rfl, h1, h⟩
      · rintro (h1 | ⟨h1 | rfl, h2, h3⟩) <;> tauto
    · rw [C.qfil]
      simp only [List.mem_append, List.mem_singleton]
      constructor
      · tauto
      · rintro (h1 | ⟨h1 | rfl, h2, h3⟩) <;> tauto
  have hqfn : ∀ (f : ℕ → List ℕ), f = s.qpsFilled → ∀ l,
      ((if 0 < (s0.blocks b).qps.length then
        Function.update f lev (f lev ++ [b]) else f) l).Nodup := by
    rintro f rfl l
    split_ifs with h
    · exact nodup_update_append C.qfilnd hc4
    · exact C.qfilnd l
  by_cases hbig : Big inp (s0.blocks b)
  · have hnle : ¬ roundUp (blockNumNodes inp (s0.blocks b)) ≤ (inp.maxNodes : ℤ) := by
      unfold Big at hbig; omega
    unfold classify
    simp only [hbs, if_neg hnle]
    refine ⟨C.blocks, C.count, C.start, C.fin, C.cap, C.oob, ?_, C.chlnd, ?_, ?_,
      hdf _ rfl, hdfn _ rfl, hqf _ rfl, hqfn _ rfl, ?_, C.qnone, ?_⟩
    · intro a; simp only [C.chl, List.mem_append, List.mem_singleton]
      constructor
      · tauto
      · rintro (h | ⟨h | rfl, h1⟩) <;> tauto
    · intro l a
      simp only [mem_update_append, C.par, List.mem_append, List.mem_singleton]
      constructor
      · rintro ((h | h) | ⟨rfl, h⟩) <;> tauto
      · rintro (h | ⟨h | rfl, h1⟩) <;> tauto
    · intro l; exact nodup_update_append C.parnd hc2
    · intro q hq; exact (C.qok q hq).congr rfl rfl rfl rfl
    · exact C.dok
  · have hle : roundUp (blockNumNodes inp (s0.blocks b)) ≤ (inp.maxNodes : ℤ) := by
      unfold Big at hbig; omega
    unfold classify
    simp only [hbs, if_pos hle]
    refine ⟨C.blocks, C.count, C.start, C.fin, C.cap, C.oob, ?_, ?_, ?_, C.parnd,
      hdf _ rfl, hdfn _ rfl, hqf _ rfl, hqfn _ rfl, ?_, ?_, ?_⟩
    · intro a; simp only [C.chl, List.mem_append, List.mem_singleton]
      constructor
      · rintro ((h | h) | rfl) <;> tauto
      · rintro (h | ⟨h | rfl, h1⟩) <;> tauto
    · show (s.childless ++ [b]).Nodup
      rw [List.nodup_append]
      refine ⟨C.chlnd, by simp, ?_⟩
      intro x hx y hy hxy
      simp at hy; subst hy; subst hxy; exact hc1 hx
    · intro l a
      simp only [C.par, List.mem_append, List.mem_singleton]
      constructor
      · tauto
      · rintro (h | ⟨h | rfl, h1⟩) <;> tauto
    · intro q hq
      have Q := C.qok q hq
      by_cases hqb : q ∈ (s0.blocks b).qps
      · have hp : pushAll s.qpb (s0.blocks b).qps b (inp.levels - lev) q =
            s.qpb q ++ List.replicate (inp.levels - lev) b := by
          rw [pushAll_apply _ _ _ _ hnd.2, if_pos hqb]
        obtain ⟨e, he, heq, hec, helen⟩ := Q.leaf
        rw [C.count] at he
        rw [C.blocks] at heq hec helen
        have heb : e = b := h0.leaf_unique he hb hec hchi (x := .inr q) heq hqb
        subst heb
        rw [if_neg hc1, hlev] at helen
        constructor
        · refine ⟨e, ?_, ?_, ?_, ?_⟩
          · show e < s.count; rw [C.count]; exact he
          · show q ∈ (s.blocks e).qps; rw [C.blocks]; exact heq
          · show (s.blocks e).children = []; rw [C.blocks]; exact hec
          · show (pushAll s.qpb (s0.blocks e).qps e (inp.levels - lev) q).length = _
            rw [hp, List.length_append, helen, List.length_replicate, if_pos (by simp)]
            omega
        · intro l f hf
          change (pushAll s.qpb (s0.blocks e).qps e (inp.levels - lev) q)[l]? = some f at hf
          rw [hp] at hf
          rcases Nat.lt_or_ge l (s.qpb q).length with hll | hll
          · rw [List.getElem?_append_left hll] at hf
            obtain ⟨e1, e2, e3⟩ := Q.ent l f hf
            refine ⟨e1, e2, ?_⟩
            show _ ∨ (_ ∧ f ∈ s.childless ++ [e])
            rcases e3 with e3 | e3
            · exact Or.inl e3
            · exact Or.inr ⟨e3.1, by simp [e3.2]⟩
          · rw [List.getElem?_append_right hll] at hf
            have hfe : f = e := by
              have := List.mem_of_getElem? hf
              exact List.eq_of_mem_replicate this
            subst hfe
            refine ⟨?_, ?_, ?_⟩
            · show f < s.count; rw [C.count]; exact he
            · show q ∈ (s.blocks f).qps; rw [C.blocks]; exact heq
            · right
              show (s.blocks f).level < l ∧ f ∈ s.childless ++ [f]
              rw [C.blocks]
              exact ⟨by omega, by simp⟩
      · have hp : pushAll s.qpb (s0.blocks b).qps b (inp.levels - lev) q = s.qpb q := by
          rw [pushAll_apply _ _ _ _ hnd.2, if_neg hqb]
        constructor
        · obtain ⟨e, he, heq, hec, helen⟩ := Q.leaf
          refine ⟨e, he, heq, hec, ?_⟩
          show (pushAll s.qpb (s0.blocks b).qps b (inp.levels - lev) q).length =
            if e ∈ s.childless ++ [b] then _ else _
          have heb : e ≠ b := by rintro rfl; rw [hbs] at heq; exact hqb heq
          rw [hp, helen]
          simp [heb]
        · intro l f hf
          change (pushAll s.qpb (s0.blocks b).qps b (inp.levels - lev) q)[l]? = some f at hf
          rw [hp] at hf
          obtain ⟨e1, e2, e3⟩ := Q.ent l f hf
          refine ⟨e1, e2, ?_⟩
          show _ ∨ (_ ∧ f ∈ s.childless ++ [b])
          rcases e3 with e3 | e3
          · exact Or.inl e3
          · exact Or.inr ⟨e3.1, by simp [e3.2]⟩
    · intro q hq
      show pushAll s.qpb (s0.blocks b).qps b (inp.levels - lev) q = []
      rw [pushAll_apply _ _ _ _ hnd.2, if_neg, C.qnone q hq]
      intro hh
      exact hq (mem_root_of_mem h0 hb (x := .inr q) hh)
    · intro i e he
      change e ∈ pushAll s.dofb (s0.blocks b).nodes b (inp.levels - lev) i at he
      rw [pushAll_apply _ _ _ _ hnd.1] at he
      split_ifs at he with hi
      · rw [List.mem_append] at he
        rcases he with he | he
        · exact C.dok i e he
        · have := List.eq_of_mem_replicate he
          subst this
          refine ⟨?_, ?_⟩
          · show e < s.count; rw [C.count]; exact hb
          · show i ∈ (s.blocks e).nodes; rw [hbs]; exact hi
      · exact C.dok i e he

theorem ClsInv.fold {lev : ℕ} {s0 : St d} (h0 : Links inp s0) (hL : lev ≤ inp.levels)
    (ps : List ℕ) : ∀ (done : List ℕ) (s : St d), ClsInv inp lev s0 done s →
    (∀ b ∈ ps, b < s0.count ∧ (s0.blocks b).level = lev ∧ (s0.blocks b).children = [] ∧
      b ∉ s0.childless ∧ b ∉ s0.parentList lev ∧ b ∉ s0.dofsFilled lev ∧ b ∉ s0.qpsFilled lev) →
    (done ++ ps).Nodup →
    ClsInv inp lev s0 (done ++ ps) (ps.foldl (classify inp lev) s) := by
  induction ps with
  | nil => intro done s S _ _; simpa using S
  | cons a t ih =>
    intro done s S hps hnd
    obtain ⟨h1, h2, h3, h4, h5, h6, h7⟩ := hps a (by simp)
    have hnot : a ∉ done := by
      intro h
      rw [List.nodup_append] at hnd
      exact hnd.2.2 a h a (by simp) rfl
    have := S.step h0 h1 hnot h2 hL h3 h4 h5 h6 h7
    have h2 := ih (done ++ [a]) _ this (fun j hj => hps j (by simp [hj])) (by simpa using hnd)
    simpa using h2

set_option maxHeartbeats 1000000 in
theorem levInv_step (hd : d = 2 ∨ d = 3) {lev : ℕ} (hL : lev + 1 ≤ inp.levels)
    (I : LevInv inp lev st) : LevInv inp (lev + 1) (levelStep inp (lev + 1) st) := by
  have hclb : ∀ b ∈ st.childless, b < st.count := fun b hb => ((I.chl b).1 hb).2.1
  have S0 : SplitPhase inp (lev + 1) st [] st := by
    refine ⟨I.links, le_refl _, fun _ _ => SameCore.refl _, fun _ _ _ => rfl, ?_, by simp, I.qok,
      I.qnone, I.dok, by simp, by simp⟩
    intro c h1 h2; omega
  have S := SplitPhase.fold hd I.lev_le hclb (st.parentList lev) [] st S0 (by
    intro j hj
    obtain ⟨h1, h2, h3⟩ := (I.par lev j).1 hj
    refine ⟨h1, I.leaf j h1 (Or.inl h2), h2, ?_⟩
    rw [I.chl]; rintro ⟨h4, _, h5⟩
    rcases h3 with h3 | h3
    · omega
    · exact h5 h3) (by simpa using I.parnd lev)
  simp only [List.nil_append] at S
  unfold levelStep
  simp only [Nat.add_sub_cancel]
  rw [show (22 / 10 * maxCoor inp / 2 ^ (lev + 1) : ℚ) = sideAt inp (lev + 1) from rfl]
  set s1 := (st.parentList lev).foldl (splitBlock inp (lev + 1) (sideAt inp (lev + 1))) st with hs1
  obtain ⟨g1, g2, g3, g4, g5, g6, g7⟩ := S.frame
  have hs : s1.endLevel lev + 1 = st.count := by rw [g2]; exact I.last
  set s2 : St d := { s1 with
    startLevel := Function.update s1.startLevel (lev + 1) (s1.endLevel lev + 1)
    endLevel := Function.update s1.endLevel (lev + 1) (s1.count - 1) } with hs2
  have hL2 : Links inp s2 := S.links.casesOn (fun a b c e f g h i j k => ⟨a, b, c, e, f, g, h, i, j, k⟩)
  rw [hs]
  have hcpos := I.links.pos
  have hle : st.count ≤ s1.count := S.le
  have hold : ∀ b, b < st.count → SameCore (st.blocks b) (s1.blocks b) := S.core
  have C0 : ClsInv inp (lev + 1) s2 [] s2 := by
    refine ⟨rfl, rfl, rfl, rfl, rfl, rfl, by simp, ?_, by simp, ?_, by simp, ?_, by simp, ?_, ?_,
      S.qnone, S.dok⟩
    · show s1.childless.Nodup; rw [g4]; exact I.chlnd
    · intro l; show (s1.parentList l).Nodup; rw [g3]; exact I.parnd l
    · intro l; show (s1.dofsFilled l).Nodup; rw [g5]; exact I.dfilnd l
    · intro l; show (s1.qpsFilled l).Nodup; rw [g6]; exact I.qfilnd l
    · intro q hq; exact (S.qok q hq).congr rfl rfl rfl rfl
  have C := ClsInv.fold hL2 hL (List.range' st.count (s1.count - st.count)) [] s2 C0 (by
    intro b hb
    rw [List.mem_range'_1] at hb
    have hbn := S.new b hb.1 (by omega)
    refine ⟨by show b < s1.count; omega, hbn.1, hbn.2, ?_, ?_, ?_, ?_⟩
    · show b ∉ s1.childless; rw [g4]; intro h; have := hclb b h; omega
    · show b ∉ s1.parentList _; rw [g3, I.par]; omega
    · show b ∉ s1.dofsFilled _; rw [g5, I.dfil]; omega
    · show b ∉ s1.qpsFilled _; rw [g6, I.qfil]; omega) (by simpa using List.nodup_range')
  simp only [List.nil_append] at C
  set r := (List.range' st.count (s1.count - st.count)).foldl (classify inp (lev + 1)) s2 with hr
  have hrb : r.blocks = s1.blocks := C.blocks
  have hrc : r.count = s1.count := C.count
  have hdone : ∀ b, b ∈ List.range' st.count (s1.count - st.count) ↔ st.count ≤ b ∧ b < s1.count := by
    intro b; rw [List.mem_range'_1]; omega
  have hLr : Links inp r := by
    have h := S.links
    constructor
    · rw [hrc]; exact h.pos
    · rw [hrb]; exact h.root
    · rw [hrb, hrc]; exact h.par
    · rw [hrb, hrc]; exact h.chi
    · rw [hrb, hrc]; exact h.inc
    · intro i h0 hi
      rw [hrc] at hi
      have := h.kid i h0 hi
      unfold kidOf at this ⊢
      rw [hrb]; exact this
    · rw [hrb, hrc]; exact h.octlt
    · rw [hrb, hrc]; exact h.ne
    · rw [hrb, hrc]; exact h.octinj
    · rw [hrb, hrc]; exact h.mono
  have hcompl : ∀ b, Complete inp s1 b → Complete inp r b := by
    intro b h
    unfold Complete kidOf at h ⊢
    rw [hrb]; exact h
  refine ⟨hLr, ?_, ?_, ?_, ?_, C.chlnd, ?_, C.parnd, ?_, ?_, ?_, C.dfilnd, ?_, C.qfilnd, C.qok,
    C.qnone, C.dok, ?_, ?_⟩
  · intro b hb
    rw [hrc] at hb; rw [hrb]
    rcases Nat.lt_or_ge b st.count with h1 | h1
    · rw [(hold b h1).level]; have := I.lev_le b h1; omega
    · rw [(S.new b h1 hb).1]
  · intro b hb hl hB
    rw [hrc] at hb
    apply hcompl
    rw [hrb] at hl hB
    have h1 : b < st.count := by
      by_contra h
      rw [(S.new b (by omega) hb).1] at hl; omega
    rw [(hold b h1).level] at hl
    rw [(hold b h1).big] at hB
    by_cases hin : b ∈ st.parentList lev
    · exact (S.cmp b hin).2
    · have hl2 : (st.blocks b).level < lev := by
        by_contra h
        exact hin ((I.par lev b).2 ⟨h1, by omega, hB⟩)
      exact kid_complete_congr h1 I.links (S.unt b h1 hin) hold (I.cmp b h1 hl2 hB)
  · intro b hb hcond
    rw [hrc] at hb; rw [hrb] at hcond ⊢
    rcases Nat.lt_or_ge b st.count with h1 | h1
    · rw [(hold b h1).level, (hold b h1).big] at hcond
      have hlb := I.lev_le b h1
      have hcond' : 0 < b ∧ ¬ Big inp (st.blocks b) := by
        rcases hcond with h | h
        · omega
        · exact h
      have hin : b ∉ st.parentList lev := by
        rw [I.par]; rintro ⟨_, _, h | h⟩
        · omega
        · exact hcond'.2 h
      rw [S.unt b h1 hin]
      exact I.leaf b h1 (Or.inr hcond')
    · exact (S.new b h1 hb).2
  · intro b
    rw [C.chl, hrc, hrb, hdone]
    change (b ∈ s1.childless ∨ _ ∧ ¬ Big inp (s1.blocks b)) ↔ _
    rw [g4, I.chl]
    rcases Nat.lt_or_ge b st.count with h1 | h1
    · rw [(hold b h1).big]
      constructor
      · rintro (⟨h2, h3, h4⟩ | h)
        · exact ⟨h2, by omega, h4⟩
        · omega
      · rintro ⟨h2, h3, h4⟩; exact Or.inl ⟨h2, h1, h4⟩
    · constructor
      · rintro (⟨h2, h3, h4⟩ | ⟨h2, h3⟩)
        · omega
        · exact ⟨by omega, h2.2, h3⟩
      · rintro ⟨h2, h3, h4⟩; exact Or.inr ⟨⟨h1, h3⟩, h4⟩
  · intro l b
    rw [C.par, hrc, hrb, hdone]
    change (b ∈ s1.parentList l ∨ _ ∧ l = lev + 1 ∧ Big inp (s1.blocks b)) ↔ _
    rw [g3, I.par]
    rcases Nat.lt_or_ge b st.count with h1 | h1
    · rw [(hold b h1).big, (hold b h1).level]
      constructor
      · rintro (⟨h2, h3, h4⟩ | h)
        · exact ⟨by omega, h3, h4⟩
        · omega
      · rintro ⟨h2, h3, h4⟩; exact Or.inl ⟨h1, h3, h4⟩
    · constructor
      · rintro (⟨h2, h3, h4⟩ | ⟨h2, h3, h4⟩)
        · omega
        · exact ⟨h2.2, by rw [(S.new b h1 h2.2).1, h3], Or.inr h4⟩
      · rintro ⟨h2, h3, h4⟩
        rw [(S.new b h1 h2).1] at h3
        refine Or.inr ⟨⟨h1, h2⟩, h3.symm, ?_⟩
        rcases h4 with h4 | h4
        · omega
        · exact h4
  · intro l hl b
    rw [hrc, hrb, C.start, C.fin]
    change _ ↔ Function.update s1.startLevel (lev + 1) (s1.endLevel lev + 1) l ≤ b ∧
      b ≤ Function.update s1.endLevel (lev + 1) (s1.count - 1) l
    by_cases hll : l = lev + 1
    · subst hll
      simp only [Function.update_self, hs]
      constructor
      · rintro ⟨h1, h2⟩
        refine ⟨?_, by omega⟩
        by_contra h
        rw [(hold b (by omega)).level] at h2
        have := I.lev_le b (by omega); omega
      · rintro ⟨h1, h2⟩
        exact ⟨by omega, (S.new b h1 (by omega)).1⟩
    · simp only [Function.update_of_ne hll, g1, g2]
      rw [← I.rng l (by omega) b]
      constructor
      · rintro ⟨h1, h2⟩
        have h3 : b < st.count := by
          by_contra h
          rw [(S.new b (by omega) h1).1] at h2; omega
        rw [(hold b h3).level] at h2
        exact ⟨h3, h2⟩
      · rintro ⟨h1, h2⟩
        exact ⟨by omega, by rw [(hold b h1).level]; exact h2⟩
  · rw [C.fin, hrc]
    change Function.update s1.endLevel (lev + 1) (s1.count - 1) (lev + 1) + 1 = _
    simp; omega
  · intro l b
    rw [C.dfil, hrc, hrb, hdone]
    change (b ∈ s1.dofsFilled l ∨ _ ∧ l = lev + 1 ∧ 0 < blockNumNodes inp (s1.blocks b)) ↔ _
    rw [g5, I.dfil]
    rcases Nat.lt_or_ge b st.count with h1 | h1
    · rw [(hold b h1).level]
      have : blockNumNodes inp (s1.blocks b) = blockNumNodes inp (st.blocks b) := by
        unfold blockNumNodes; rw [(hold b h1).nodes]
      rw [this]
      constructor
      · rintro (⟨h2, h3, h4⟩ | h)
        · exact ⟨h2, by omega, h4⟩
        · omega
      · rintro ⟨h2, h3, h4⟩; exact Or.inl ⟨h2, h1, h4⟩
    · constructor
      · rintro (⟨h2, h3, h4⟩ | ⟨h2, h3, h4⟩)
        · omega
        · exact ⟨by omega, h2.2, by rw [(S.new b h1 h2.2).1, h3], h4⟩
      · rintro ⟨h2, h3, h4, h5⟩
        rw [(S.new b h1 h3).1] at h4
        exact Or.inr ⟨⟨h1, h3⟩, h4.symm, h5⟩
  · intro l b
    rw [C.qfil, hrc, hrb, hdone]
    change (b ∈ s1.qpsFilled l ∨ _ ∧ l = lev + 1 ∧ (s1.blocks b).qps ≠ []) ↔ _
    rw [g6, I.qfil]
    rcases Nat.lt_or_ge b st.count with h1 | h1
    · rw [(hold b h1).level, (hold b h1).qps]
      constructor
      · rintro (⟨h2, h3, h4⟩ | h)
        · exact ⟨h2, by omega, h4⟩
        · omega
      · rintro ⟨h2, h3, h4⟩; exact Or.inl ⟨h2, h1, h4⟩
    · constructor
      · rintro (⟨h2, h3, h4⟩ | ⟨h2, h3, h4⟩)
        · omega
        · exact ⟨by omega, h2.2, by rw [(S.new b h1 h2.2).1, h3], h4⟩
      · rintro ⟨h2, h3, h4, h5⟩
        rw [(S.new b h1 h3).1] at h4
        exact Or.inr ⟨⟨h1, h3⟩, h4.symm, h5⟩
  · rw [C.cap]; show s1.cap = _; rw [g7]; exact I.cap
  · rw [C.oob, C.cap, hrc]
    show s1.oob = true ↔ s1.cap < s1.count
    rw [S.oob, I.oob, g7]
    omega

theorem levInv_buildTo (hd : d = 2 ∨ d = 3) (k : ℕ) (hk : k ≤ inp.levels) :
    LevInv inp k (buildTo inp k) := by
  induction k with
  | zero => exact levInv_init
  | succ k ih => exact levInv_step hd hk (ih (by omega))

end PiBem.Octree
