import Verif.Fmm.Direct

/-! Facts on the moments and on the ascending phase (helper lemmas). -/

namespace PiBem.Fmm

open PiBem.Octree PiBem.WorkStream

variable {d : ℕ} {inp : Input d} {T : St d}

theorem cell_lt (t : Tree inp T) {b : ℕ} (hb : b < T.count) {q : ℕ × ℕ}
    (hq : q ∈ (T.blocks b).qps) : q.1 < inp.nCells ∧ q.2 < inp.nq := by
  have := mem_root_of_mem t.links hb (x := .inr q) hq
  exact (mem_allQps inp q).1 this

theorem mem_blockCells (t : Tree inp T) {b : ℕ} (hb : b < T.count) (c : ℕ) :
    c ∈ blockCells inp T b ↔ ∃ q ∈ (T.blocks b).qps, q.1 = c := by
  unfold blockCells
  simp only [List.mem_filter, List.mem_range, List.any_eq_true, decide_eq_true_eq]
  constructor
  · rintro ⟨_, h⟩; exact h
  · rintro ⟨q, hq, rfl⟩; exact ⟨(cell_lt t hb hq).1, q, hq, rfl⟩

theorem blockCells_nil (t : Tree inp T) {b : ℕ} (hb : b < T.count) :
    blockCells inp T b = [] ↔ (T.blocks b).qps = [] := by
  constructor
  · intro h
    rcases hq : (T.blocks b).qps with _ | ⟨q, l⟩
    · rfl
    · have : q.1 ∈ blockCells inp T b := (mem_blockCells t hb _).2 ⟨q, by rw [hq]; simp, rfl⟩
      rw [h] at this; simp at this
  · intro h; unfold blockCells; rw [h]; simp

theorem cellMoment_zero (t : Tree inp T) {b : ℕ} (hb : b < T.count) {c : ℕ}
    (hc : c ∉ blockCells inp T b) : cellMoment T b c = 0 := by
  unfold cellMoment
  rw [Multiset.coe_eq_zero, List.filter_eq_nil_iff]
  intro q hq
  rw [mem_blockCells t hb] at hc
  simp only [decide_eq_true_eq]
  intro h; exact hc ⟨q, hq, h⟩

theorem workerMoments_other {b b' : ℕ} (hne : b' ≠ b) (s buf : Moments) :
    workerMoments inp T b s buf b' = buf b' := by
  unfold workerMoments
  generalize blockCells inp T b = l
  induction l generalizing buf with
  | nil => rfl
  | cons c l ih => simp only [List.foldl_cons]; rw [ih, Function.update_of_ne hne]

theorem foldl_moment (b : ℕ) (m : ℕ → Multiset (ℕ × ℕ)) (l : List ℕ) (buf : Moments)
    (hl : l ≠ []) :
    l.foldl (fun buf c => Function.update buf b
      (some (Function.update ((buf b).getD fun _ => 0) c (m c)))) buf b =
      some fun c => if c ∈ l then m c else ((buf b).getD fun _ => 0) c := by
  induction l generalizing buf with
  | nil => exact absurd rfl hl
  | cons c l ih =>
    simp only [List.foldl_cons]
    by_cases h : l = []
    · subst h
      simp only [List.foldl_nil, Function.update_self, List.mem_singleton]
      congr 1
      funext x
      by_cases hx : x = c
      · subst hx; simp
      · simp [hx]
    · rw [ih _ h]
      simp only [Function.update_self, Option.getD_some, List.mem_cons]
      congr 1
      funext x
      by_cases hx : x ∈ l
      · simp [hx]
      · by_cases hxc : x = c
        · subst hxc; simp [hx]
        · simp [hx, hxc]

/-- a table with only correct entries -/
def GoodM (T : St d) (m : Moments) : Prop :=
  ∀ b v, m b = some v → b ∈ T.childless ∧ (T.blocks b).qps ≠ [] ∧ v = cellMoment T b

theorem goodM_worker (t : Tree inp T) {b : ℕ} (hb : b ∈ T.childless) {s buf : Moments}
    (h : GoodM T buf) : GoodM T (workerMoments inp T b s buf) ∧
      ((T.blocks b).qps ≠ [] → workerMoments inp T b s buf b ≠ none) := by
  have hlt := ((t.chl b).1 hb).1
  by_cases hq : (T.blocks b).qps = []
  · have : workerMoments inp T b s buf = buf := by
      unfold workerMoments; rw [(blockCells_nil t hlt).2 hq]; rfl
    rw [this]; exact ⟨h, fun h' => absurd hq h'⟩
  · have hne : blockCells inp T b ≠ [] := fun h' => hq ((blockCells_nil t hlt).1 h')
    have e := foldl_moment b (cellMoment T b) (blockCells inp T b) buf hne
    have e' : workerMoments inp T b s buf b = some (cellMoment T b) := by
      unfold workerMoments
      rw [e]
      congr 1
      funext c
      split_ifs with hc
      · rfl
      · rcases hbuf : buf b with _ | v
        · simp [cellMoment_zero t hlt hc]
        · simp [(h b v hbuf).2.2]
    refine ⟨?_, fun _ => by rw [e']; simp⟩
    intro b' v hv
    by_cases hbb : b' = b
    · subst hbb
      rw [e'] at hv
      exact ⟨hb, hq, (Option.some.inj hv).symm⟩
    · rw [workerMoments_other hbb] at hv
      exact h b' v hv

theorem momentsExec_eq (t : Tree inp T) {E : Moments} (h : MomentsExec inp T E) :
    E = fun b => if b ∈ T.childless ∧ (T.blocks b).qps ≠ [] then some (cellMoment T b) else none := by
  have key : ∀ (pend : List ℕ) (fl free : List Moments) (s s' : Moments),
      Run (workerMoments inp T) copierMoments (fun _ => none) pend fl free s s' →
      (∀ i ∈ pend, i ∈ T.childless) → (∀ m ∈ fl, GoodM T m) → (∀ m ∈ free, GoodM T m) → GoodM T s →
      (∀ b ∈ T.childless, (T.blocks b).qps ≠ [] → b ∈ pend ∨ (∃ m ∈ fl, m b ≠ none) ∨ s b ≠ none) →
      GoodM T s' ∧ ∀ b ∈ T.childless, (T.blocks b).qps ≠ [] → s' b ≠ none := by
    intro pend fl free s s' hr
    induction hr with
    | done free s =>
      intro _ _ _ hs hall
      refine ⟨hs, fun b hb hq => ?_⟩
      rcases hall b hb hq with h | ⟨m, hm, _⟩ | h
      · simp at h
      · simp at hm
      · exact h
    | work p1 p2 i fl free free' buf s s' hb _ ih =>
      intro hp hfl hfree hs hall
      have hi : i ∈ T.childless := hp i (by simp)
      have hbuf : GoodM T buf ∧ ∀ m ∈ free', GoodM T m := by
        rcases hb with ⟨rfl, rfl⟩ | ⟨f1, f2, rfl, rfl⟩
        · exact ⟨fun b v hv => by simp at hv, hfree⟩
        · exact ⟨hfree _ (by simp), fun m hm => hfree m (by simp at hm ⊢; tauto)⟩
      have hg := goodM_worker t hi (s := s) hbuf.1
      refine ih (fun j hj => hp j (by simp at hj ⊢; tauto)) ?_ hbuf.2 hs ?_
      · intro m hm
        rcases List.mem_cons.1 hm with rfl | hm
        exacts [hg.1, hfl m hm]
      · intro b hb' hq
        rcases hall b hb' hq with h | ⟨m, hm, hmb⟩ | h
        · by_cases hbi : b = i
          · subst hbi
            exact Or.inr (Or.inl ⟨_, List.mem_cons_self, hg.2 hq⟩)
          · left; simp at h ⊢; tauto
        · exact Or.inr (Or.inl ⟨m, by simp [hm], hmb⟩)
        · exact Or.inr (Or.inr h)
    | copy pend f1 f2 buf free s s' _ ih =>
      intro hp hfl hfree hs hall
      have hbuf : GoodM T buf := hfl buf (by simp)
      refine ih hp (fun m hm => hfl m (by simp at hm ⊢; tauto)) ?_ ?_ ?_
      · intro m hm
        rcases List.mem_cons.1 hm with rfl | hm
        exacts [hbuf, hfree m hm]
      · intro b v hv
        unfold copierMoments at hv
        rcases hsb : s b with _ | w
        · rw [hsb] at hv; simp at hv; exact hbuf b v hv
        · rw [hsb] at hv; simp at hv; exact hs b v (by rw [hsb, hv])
      · intro b hb' hq
        unfold copierMoments
        rcases hall b hb' hq with h | ⟨m, hm, hmb⟩ | h
        · exact Or.inl h
        · rcases List.mem_append.1 hm with hm | hm
          · exact Or.inr (Or.inl ⟨m, by simp [hm], hmb⟩)
          · rcases List.mem_cons.1 hm with rfl | hm
            · right; right
              rcases hsb : s b with _ | w
              · simpa using hmb
              · simp
            · exact Or.inr (Or.inl ⟨m, by simp [hm], hmb⟩)
        · right; right
          rcases hsb : s b with _ | w
          · exact absurd hsb h
          · simp
  obtain ⟨h1, h2⟩ := key _ _ _ _ _ h (fun i hi => hi) (by simp) (by simp)
    (fun b v hv => by simp at hv) (fun b hb _ => Or.inl hb)
  funext b
  split_ifs with hb
  · rcases hE : E b with _ | v
    · exact absurd hE (h2 b hb.1 hb.2)
    · rw [(h1 b v hE).2.2]
  · rcases hE : E b with _ | v
    · rfl
    · exact absurd ⟨(h1 b v hE).1, (h1 b v hE).2.1⟩ hb

/-! ### ascending phase -/

theorem foldl_update_add {A ι : Type} [AddCommMonoid A] (b : ℕ) (f : ι → A) (l : List ι)
    (m : ℕ → A) : l.foldl (fun m c => Function.update m b (m b + f c)) m =
      m + at1 b (l.map f).sum := by
  induction l generalizing m with
  | nil => funext j; simp [at1]
  | cons c l ih =>
    simp only [List.foldl_cons, List.map_cons, List.sum_cons]
    rw [ih, update_add]
    funext j
    simp only [Pi.add_apply, at1]
    split_ifs <;> simp [add_assoc]

/-- the cells of a list of quadrature points regroup it -/
theorem sum_cellMoment (l : List (ℕ × ℕ)) (cells : List ℕ) (hn : cells.Nodup)
    (h : ∀ q ∈ l, q.1 ∈ cells) :
    (cells.map fun c => ((l.filter fun q => decide (q.1 = c) : List (ℕ × ℕ)) :
      Multiset (ℕ × ℕ))).sum = (l : Multiset (ℕ × ℕ)) := by
  induction l with
  | nil => simp
  | cons q l ih =>
    have hl := ih (fun q' hq' => h q' (by simp [hq']))
    have : (cells.map fun c => (((q :: l).filter fun q => decide (q.1 = c) : List (ℕ × ℕ)) :
      Multiset (ℕ × ℕ))) = (cells.map fun c => (if c = q.1 then ({q} : Multiset (ℕ × ℕ)) else 0) +
        ((l.filter fun q => decide (q.1 = c) : List (ℕ × ℕ)) : Multiset (ℕ × ℕ))) := by
      refine List.map_congr_left ?_
      intro c _
      by_cases hc : q.1 = c
      · rw [List.filter_cons_of_pos (by simpa using hc), if_pos hc.symm]; rfl
      · rw [List.filter_cons_of_neg (by simpa using hc), if_neg (Ne.symm hc), zero_add]
    rw [this, List.sum_map_add, hl]
    have h1 : (cells.map fun c => if c = q.1 then ({q} : Multiset (ℕ × ℕ)) else 0).sum = {q} := by
      have hq := h q (by simp)
      clear this ih hl h
      induction cells with
      | nil => simp at hq
      | cons a cs ih =>
        rw [List.nodup_cons] at hn
        rw [List.map_cons, List.sum_cons]
        by_cases ha : a = q.1
        · rw [if_pos ha]
          have : (cs.map fun c => if c = q.1 then ({q} : Multiset (ℕ × ℕ)) else 0).sum = 0 := by
            apply List.sum_eq_zero
            intro x hx
            rw [List.mem_map] at hx
            obtain ⟨c, hc, rfl⟩ := hx
            rw [if_neg]
            rintro rfl
            exact hn.1 (ha ▸ hc)
          rw [this, add_zero]
        · rw [if_neg ha, zero_add]
          exact ih hn.2 (by rcases List.mem_cons.1 hq with h | h; exacts [absurd h.symm ha, h])
    rw [h1]; rfl

theorem leafMult_eq (t : Tree inp T) {E : Moments} (hE : MomentsExec inp T E) {b : ℕ}
    (hb : b ∈ T.childless) (m : ℕ → Multiset (ℕ × ℕ)) :
    leafMult inp T E b m = m + at1 b ((T.blocks b).qps : Multiset (ℕ × ℕ)) := by
  have hlt := ((t.chl b).1 hb).1
  unfold leafMult
  rw [foldl_update_add]
  congr 2
  rw [momentsExec_eq t hE]
  by_cases hq : (T.blocks b).qps = []
  · rw [(blockCells_nil t hlt).2 hq, hq]; rfl
  · simp only [hb, hq, ne_eq, not_false_eq_true, and_self, if_true, Option.getD_some]
    refine sum_cellMoment _ _ ?_ ?_
    · exact List.nodup_range.filter _
    · intro q hq'; exact (mem_blockCells t hlt _).2 ⟨q, hq', rfl⟩

theorem foldl_eff_add {A ι : Type} [AddCommMonoid A] (f : ι → A → A) (e : ι → A) (l : List ι)
    (h : ∀ i ∈ l, ∀ m, f i m = m + e i) (m : A) : l.foldl (fun m i => f i m) m = m + (l.map e).sum := by
  induction l generalizing m with
  | nil => simp
  | cons a t ih =>
    simp only [List.foldl_cons, List.map_cons, List.sum_cons]
    rw [ih (fun i hi => h i (by simp [hi])), h a (by simp), add_assoc]

theorem leaves_mult (t : Tree inp T) {E : Moments} (hE : MomentsExec inp T E) {order : List ℕ}
    (ho : order.Perm T.childless) (b : ℕ) :
    order.foldl (fun m b => leafMult inp T E b m) (fun _ => 0) b =
      if b ∈ T.childless then ((T.blocks b).qps : Multiset (ℕ × ℕ)) else 0 := by
  rw [foldl_eff_add (fun b m => leafMult inp T E b m)
    (fun b => at1 b ((T.blocks b).qps : Multiset (ℕ × ℕ))) order
    (fun b hb m => leafMult_eq t hE (ho.mem_iff.1 hb) m)]
  rw [Pi.add_apply, sum_at1 _ (ho.nodup_iff.2 t.chlnd)]
  simp [ho.mem_iff]

/-- one level of the ascending phase -/
theorem ascend_level (t : Tree inp T) {l : ℕ} (hl : 1 ≤ l) (hl' : l ≤ inp.levels)
    {m m' : ℕ → Multiset (ℕ × ℕ)} (h : Exec (workerAscend T) copierAscend ⟨0, 0⟩ (T.levelIds l) m m') :
    m' = m + ((T.levelIds l).map fun b => at1 (T.blocks b).parent (m b)).sum := by
  have hmem := fun b => t.mem_levelIds hl' b
  have hpar : ∀ b ∈ T.levelIds l, ∀ b' ∈ T.levelIds l, (T.blocks b).parent ≠ b' := by
    intro b hb b' hb' he
    rw [hmem] at hb hb'
    have := t.parent_level hb.1 (by omega)
    rw [he] at this; omega
  have := exec_eq (eff := fun b s => if b ∈ T.levelIds l then s + at1 (T.blocks b).parent (m b) else s)
    (P := fun s => ∀ b ∈ T.levelIds l, s b = m b) (l := T.levelIds l)
    (by
      intro b hb s buf hs
      funext s'
      unfold copierAscend workerAscend
      simp only [hb, if_true, zero_add]
      rw [update_add, hs b hb])
    (by
      intro b hb s hs b' hb'
      simp only [hb, if_true, Pi.add_apply]
      rw [hs b' hb', at1, if_neg (fun h => hpar b hb b' hb' h.symm), add_zero])
    (by
      intro i j s
      show (if i ∈ T.levelIds l then _ else _) = (if j ∈ T.levelIds l then _ else _)
      by_cases h1 : i ∈ T.levelIds l <;> by_cases h2 : j ∈ T.levelIds l <;>
        (simp only [h1, h2, if_true, if_false]; try exact add_right_comm _ _ _))
    h (fun _ _ => rfl)
  rw [this, foldl_eff_add _ (fun b => at1 (T.blocks b).parent (m b))]
  intro b hb m
  simp [hb]

theorem sum_at1_apply {A : Type} [AddCommMonoid A] (l : List ℕ) (p : ℕ → ℕ) (f : ℕ → A) (i : ℕ) :
    ((l.map fun j => at1 (p j) (f j)).sum) i =
      ((l.filter fun j => decide (p j = i)).map f).sum := by
  induction l with
  | nil => simp
  | cons a t ih =>
    rw [List.map_cons, List.sum_cons, Pi.add_apply, ih]
    by_cases h : p a = i
    · rw [List.filter_cons_of_pos (by simpa using h)]; simp [at1, h]
    · rw [List.filter_cons_of_neg (by simpa using h)]; simp [at1, Ne.symm h]

/-- the children of a subdivided block regroup its quadrature points -/
theorem qps_children (hd : d = 2 ∨ d = 3) (t : Tree inp T) {b : ℕ} (hb : b < T.count)
    (hc : b ∉ T.childless) {l : List ℕ} (hl : l.Nodup)
    (hm : ∀ c, c ∈ l ↔ c ∈ (T.blocks b).children) :
    (l.map fun c => ((T.blocks c).qps : Multiset (ℕ × ℕ))).sum =
      ((T.blocks b).qps : Multiset (ℕ × ℕ)) := by
  classical
  have hsum : (l.map fun c => ((T.blocks c).qps : Multiset (ℕ × ℕ))).sum =
      Tree.srcs T l.toFinset := by
    unfold Tree.srcs
    rw [List.sum_toFinset _ hl]
  have hok : OkSet T ((T.blocks b).level + 1) l.toFinset := by
    intro c hcm
    rw [List.mem_toFinset, hm] at hcm
    have h1 := t.links.chi b hb c hcm
    refine ⟨by omega, h1.2.1, Or.inl ?_⟩
    rw [t.links.level_eq (by omega) h1.2.1, h1.2.2]
  rw [hsum]
  refine (Multiset.Nodup.ext (t.nodup_srcs hok) (Multiset.coe_nodup.2 (t.links.nodup hb).2)).2 ?_
  intro q
  rw [Tree.mem_srcs, Multiset.mem_coe]
  constructor
  · rintro ⟨c, hcm, hq⟩
    rw [List.mem_toFinset, hm] at hcm
    exact t.mem_parent_of_child hb hcm (x := .inr q) hq
  · intro hq
    obtain ⟨c, h1, h2⟩ := t.child_of_mem hd hb hc (x := .inr q) hq
    exact ⟨c, by rw [List.mem_toFinset, hm]; exact h1, h2⟩

theorem ascendExec_eq (hd : d = 2 ∨ d = 3) (t : Tree inp T) {E : Moments}
    (hE : MomentsExec inp T E) {mult : ℕ → Multiset (ℕ × ℕ)} (h : AscendExec inp T E mult)
    {b : ℕ} (hb : b < T.count) : mult b = ((T.blocks b).qps : Multiset (ℕ × ℕ)) := by
  obtain ⟨order, ho, hlev⟩ := h
  -- after the levels above `k` the blocks of level at least `k` are complete
  have key : ∀ n, n ≤ inp.levels → ∀ (m m' : ℕ → Multiset (ℕ × ℕ)),
      Levels (fun l => Exec (workerAscend T) copierAscend ⟨0, 0⟩ (T.levelIds l))
        (List.range' 1 n).reverse m m' →
      (∀ b, b < T.count → n ≤ (T.blocks b).level → m b = ((T.blocks b).qps : Multiset (ℕ × ℕ))) →
      (∀ b, b < T.count → (T.blocks b).level < n →
        m b = if b ∈ T.childless then ((T.blocks b).qps : Multiset (ℕ × ℕ)) else 0) →
      ∀ b, b < T.count → m' b = ((T.blocks b).qps : Multiset (ℕ × ℕ)) := by
    intro n
    induction n with
    | zero =>
      intro _ m m' hlv h1 _ b hb
      simp only [List.range'_zero, List.reverse_nil] at hlv
      cases hlv
      exact h1 b hb (Nat.zero_le _)
    | succ n ih =>
      intro hn m m' hlv h1 h2
      have hr : (List.range' 1 (n + 1)).reverse = (n + 1) :: (List.range' 1 n).reverse := by
        rw [List.range'_concat, List.reverse_append]; simp [add_comm]
      rw [hr] at hlv
      cases hlv with
      | @cons _ _ _ m1 _ hx hlv =>
      have e := ascend_level t (by omega) hn hx
      have hids := fun b => t.mem_levelIds hn b
      have hval : ∀ b, m1 b = m b + (((T.levelIds (n + 1)).filter
          fun j => decide ((T.blocks j).parent = b)).map fun c =>
            ((T.blocks c).qps : Multiset (ℕ × ℕ))).sum := by
        intro b
        rw [e, Pi.add_apply, sum_at1_apply]
        congr 2
        refine List.map_congr_left ?_
        intro c hc
        rw [List.mem_filter, hids] at hc
        exact h1 c hc.1.1 (by omega)
      have hchild : ∀ b, b < T.count → ∀ c, c ∈ (T.levelIds (n + 1)).filter
          (fun j => decide ((T.blocks j).parent = b)) ↔
          (T.blocks b).level = n ∧ c ∈ (T.blocks b).children := by
        intro b hb c
        rw [List.mem_filter, hids]
        simp only [decide_eq_true_eq]
        constructor
        · rintro ⟨⟨h3, h4⟩, rfl⟩
          have := t.parent_level h3 (by omega)
          exact ⟨by omega, this.2.2⟩
        · rintro ⟨h3, h4⟩
          have := t.links.chi b hb c h4
          refine ⟨⟨this.2.1, ?_⟩, this.2.2⟩
          rw [t.links.level_eq (by omega) this.2.1, this.2.2, h3]
      refine ih (by omega) m1 m' hlv ?_ ?_
      · intro b hb hle
        rw [hval]
        rcases Nat.lt_or_ge n (T.blocks b).level with h3 | h3
        · have : (T.levelIds (n + 1)).filter (fun j => decide ((T.blocks j).parent = b)) = [] := by
            rw [List.eq_nil_iff_forall_not_mem]
            intro c hc
            rw [hchild b hb] at hc; omega
          rw [this, h1 b hb (by omega)]; simp
        · have hlv' : (T.blocks b).level = n := by omega
          rw [h2 b hb (by omega)]
          split_ifs with hcl
          · have : (T.levelIds (n + 1)).filter (fun j => decide ((T.blocks j).parent = b)) = [] := by
              rw [List.eq_nil_iff_forall_not_mem]
              intro c hc
              rw [hchild b hb, (t.childless_children hcl).2] at hc
              simp at hc
            rw [this]; simp
          · rw [zero_add]
            refine qps_children hd t hb hcl ?_ ?_
            · exact List.Nodup.filter _ List.nodup_range'
            · intro c; rw [hchild b hb]; simp [hlv']
      · intro b hb hlt
        rw [hval]
        have : (T.levelIds (n + 1)).filter (fun j => decide ((T.blocks j).parent = b)) = [] := by
          rw [List.eq_nil_iff_forall_not_mem]
          intro c hc
          rw [hchild b hb] at hc; omega
        rw [this, h2 b hb (by omega)]; simp
  refine key inp.levels (le_refl _) _ mult hlev ?_ ?_ b hb
  · intro b hb hle
    rw [leaves_mult t hE ho, if_pos]
    rw [t.chl]
    exact ⟨hb, Or.inr (le_antisymm (t.lev_le b hb) hle)⟩
  · intro b hb _
    exact leaves_mult t hE ho b

theorem momentsExec_exists (inp : Input d) (T : St d) : ∃ E, MomentsExec inp T E :=
  ⟨_, exec_seq _ _⟩

theorem ascendExec_exists (inp : Input d) (T : St d) (E : Moments) :
    ∃ mult, AscendExec inp T E mult := by
  obtain ⟨m, hm⟩ := levels_exists (R := fun l => Exec (workerAscend T) copierAscend
    ⟨0, 0⟩ (T.levelIds l)) (fun l s => ⟨_, exec_seq _ _⟩) (List.range' 1 inp.levels).reverse
    (T.childless.foldl (fun m b => leafMult inp T E b m) fun _ => 0)
  exact ⟨m, T.childless, List.Perm.refl _, hm⟩

end PiBem.Fmm
