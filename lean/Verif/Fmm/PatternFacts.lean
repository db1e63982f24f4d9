import Verif.Fmm.Pattern

/-! Facts on the sparsity patterns (helper lemmas). -/

namespace PiBem.Fmm

open PiBem.Octree PiBem.WorkStream

variable {d : ℕ} {inp : Input d} {T : St d}

theorem foldl_union {α β : Type} (l : List α) (e : α → Set β) (s : Set β) :
    l.foldl (fun s i => s ∪ e i) s = s ∪ {x | ∃ i ∈ l, x ∈ e i} := by
  induction l generalizing s with
  | nil => simp
  | cons a t ih =>
    rw [List.foldl_cons, ih]
    ext x; simp only [Set.mem_union, Set.mem_ofPred_eq, List.mem_cons, exists_eq_or_imp]; tauto

/-- a run whose copiers add a fixed set for each item -/
theorem exec_union {ι β α : Type} {work : ι → Set α → β → β} {copy : β → Set α → Set α}
    {sample : β} {e : ι → Set α} {l : List ι}
    (hw : ∀ i ∈ l, ∀ s b, copy (work i s b) = fun s => s ∪ e i) {s s' : Set α}
    (h : Exec work copy sample l s s') : s' = s ∪ {x | ∃ i ∈ l, x ∈ e i} := by
  have := exec_eq (eff := fun i s => s ∪ e i) (P := fun _ => True) (l := l)
    (fun i hi s b _ => hw i hi s b) (fun _ _ _ _ => trivial)
    (fun i j s => by rw [Set.union_assoc, Set.union_assoc, Set.union_comm (e j)]) h trivial
  rw [this, foldl_union]

theorem levels_union {α : Type} {R : ℕ → Set α → Set α → Prop} {e : ℕ → Set α} {ls : List ℕ}
    (hR : ∀ l ∈ ls, ∀ s s', R l s s' → s' = s ∪ e l) {s s' : Set α} (h : Levels R ls s s') :
    s' = s ∪ {x | ∃ l ∈ ls, x ∈ e l} := by
  induction h with
  | nil => simp
  | cons h1 _ ih =>
    rw [ih (fun l hl => hR l (by simp [hl])), hR _ (by simp) _ _ h1]
    ext x; simp only [Set.mem_union, Set.mem_ofPred_eq, List.mem_cons, exists_eq_or_imp]; tauto

theorem foldl_insert {α β : Type} (l : List α) (f : α → β) (s : Set β) :
    l.foldl (fun s j => insert (f j) s) s = s ∪ {x | ∃ j ∈ l, x = f j} := by
  have : (fun (s : Set β) j => insert (f j) s) = fun s j => s ∪ {f j} := by
    funext s j; rw [Set.union_singleton]
  rw [this, foldl_union]; rfl

/-! ### construction -/

/-- the buffer of a list of (row, columns) -/
def fillP (es : List (ℕ × List ℕ)) : PBuf := ⟨es.map fun e => e.1, es.map fun e => e.2⟩

theorem copierPat_fill (es : List (ℕ × List ℕ)) (P : Pat) :
    copierPat (fillP es) P = P ∪ {x | ∃ e ∈ es, x.1 = e.1 ∧ x.2 ∈ e.2} := by
  unfold copierPat fillP
  simp only [List.length_map]
  rw [foldl_range_getElem es _ (fun P e => P ∪ {x | x.1 = e.1 ∧ x.2 ∈ e.2})]
  · rw [foldl_union]; rfl
  · intro ii hi s
    have h1 : (es.map fun e => e.1).getD ii 0 = es[ii].1 := by
      simp [List.getD_eq_getElem?_getD, hi]
    have h2 : (es.map fun e => e.2).getD ii [] = es[ii].2 := by
      simp [List.getD_eq_getElem?_getD, hi]
    rw [h1, h2, foldl_insert]
    congr 1
    ext ⟨a, b⟩
    simp only [Set.mem_ofPred_eq, Prod.mk.injEq]
    constructor
    · rintro ⟨j, hj, rfl, rfl⟩; exact ⟨rfl, hj⟩
    · rintro ⟨rfl, h⟩; exact ⟨b, h, rfl, rfl⟩

theorem foldl_push (own : ℕ → Bool) (cols : List ℕ) (l : List ℕ) (es : List (ℕ × List ℕ)) :
    l.foldl (fun buf i => if own i then buf.push i cols else buf) (fillP es) =
      fillP (es ++ (l.filter own).map fun i => (i, cols)) := by
  induction l generalizing es with
  | nil => simp
  | cons a t ih =>
    rw [List.foldl_cons]
    by_cases h : own a = true
    · rw [if_pos h, List.filter_cons_of_pos h]
      have : (fillP es).push a cols = fillP (es ++ [(a, cols)]) := by
        simp [fillP, PBuf.push]
      rw [this, ih]; simp
    · rw [if_neg h, List.filter_cons_of_neg h, ih]

theorem reset_fill (buf : PBuf) : buf.reset = fillP [] := rfl

/-- positions of the owned nodes of a block and the dofs of the cells in `S` -/
def patOf (inp : Input d) (T : St d) (own : ℕ → Bool) (b : ℕ) (S : Finset ℕ) : Pat :=
  {x | x.1 ∈ (T.blocks b).nodes ∧ own x.1 = true ∧ x.2 ∈ directNodes inp T S}

theorem copier_patLeaf (own : ℕ → Bool) (b : ℕ) (s : Pat) (buf : PBuf) :
    copierPat (workerPatLeaf inp T own b s buf) =
      fun P => P ∪ patOf inp T own b (intList inp T b (numSub inp T b - 1)) := by
  funext P
  unfold workerPatLeaf
  simp only
  split_ifs with h
  · rw [reset_fill, foldl_push, copierPat_fill]
    congr 1
    ext ⟨i, j⟩
    simp only [List.nil_append, List.mem_map, List.mem_filter, Set.mem_ofPred_eq, patOf]
    constructor
    · rintro ⟨e, ⟨k, ⟨h1, h2⟩, rfl⟩, rfl, h4⟩; exact ⟨h1, h2, h4⟩
    · rintro ⟨h1, h2, h3⟩; exact ⟨_, ⟨i, ⟨h1, h2⟩, rfl⟩, rfl, h3⟩
  · have h0 : (T.blocks b).nodes = [] := by
      rcases hn : (T.blocks b).nodes with _ | ⟨a, l⟩
      · rfl
      · rw [hn] at h; simp at h
    rw [reset_fill, copierPat_fill]
    congr 1
    ext x; simp [patOf, h0]

theorem foldl_levels_push (own : ℕ → Bool) (cols : ℕ → List ℕ) (l subs : List ℕ) (es : List (ℕ × List ℕ)) :
    subs.foldl (fun buf s => l.foldl (fun buf i => if own i then buf.push i (cols s) else buf) buf) (fillP es) =
      fillP (es ++ subs.flatMap fun s => (l.filter own).map fun i => (i, cols s)) := by
  induction subs generalizing es with
  | nil => simp
  | cons a t ih => rw [List.foldl_cons, foldl_push, ih]; simp

theorem mem_directNodes {S : Finset ℕ} {j : ℕ} :
    j ∈ directNodes inp T S ↔ ∃ b ∈ S, ∃ c ∈ blockCells inp T b, j ∈ inp.cellDofs c := by
  unfold directNodes
  rw [Finset.mem_sort, Finset.mem_biUnion]
  simp

theorem copier_patLevel (own : ℕ → Bool) (level b : ℕ) (s : Pat) (buf : PBuf) :
    copierPat (workerPatLevel inp T own level b s buf) =
      fun P => P ∪ patOf inp T own b (bigSet inp T (T.startLevel level) b) := by
  funext P
  unfold workerPatLevel
  simp only
  split_ifs with h
  · rw [reset_fill, foldl_levels_push, copierPat_fill]
    congr 1
    ext ⟨i, j⟩
    simp only [List.nil_append, List.mem_flatMap, List.mem_map, List.mem_filter, Set.mem_ofPred_eq, patOf,
      List.mem_range, mem_directNodes, bigSet, Finset.mem_biUnion, Finset.mem_range]
    constructor
    · rintro ⟨e, ⟨sub, hs, k, ⟨h1, h2⟩, rfl⟩, rfl, h4⟩
      rw [mem_directNodes] at h4
      obtain ⟨e, he, h5⟩ := h4
      exact ⟨h1, h2, e, ⟨sub, hs, he⟩, h5⟩
    · rintro ⟨h1, h2, e, ⟨sub, hs, he⟩, h5⟩
      exact ⟨_, ⟨sub, hs, i, ⟨h1, h2⟩, rfl⟩, rfl, mem_directNodes.2 ⟨e, he, h5⟩⟩
  · have h0 : (T.blocks b).nodes = [] := by
      rcases hn : (T.blocks b).nodes with _ | ⟨a, l⟩
      · rfl
      · rw [hn] at h; simp at h
    rw [reset_fill, copierPat_fill]
    congr 1
    ext x; simp [patOf, h0]

/-- the pattern of any execution -/
def patResult (inp : Input d) (T : St d) (own : ℕ → Bool) : Pat :=
  {x | ∃ b ∈ T.childless, x ∈ patOf inp T own b (intList inp T b (numSub inp T b - 1))} ∪
    {x | ∃ l ∈ List.range' 1 inp.levels, ∃ b ∈ T.dofsFilled l, x ∈ patOf inp T own b (bigSet inp T (T.startLevel l) b)}

theorem patExec_eq {own : ℕ → Bool} {P : Pat} (h : PatExec inp T own P) : P = patResult inp T own := by
  obtain ⟨P1, h1, h2⟩ := h
  have e1 := exec_union (fun b _ s buf => copier_patLeaf own b s buf) h1
  have e2 := levels_union (e := fun l => {x | ∃ b ∈ T.dofsFilled l, x ∈ patOf inp T own b (bigSet inp T (T.startLevel l) b)})
    (fun l _ s s' hx => exec_union (fun b _ s buf => copier_patLevel own l b s buf) hx) h2
  rw [e2, e1, Set.empty_union]; rfl

theorem patExec_exists (inp : Input d) (T : St d) (own : ℕ → Bool) : ∃ P, PatExec inp T own P := by
  obtain ⟨M, hM⟩ := levels_exists (R := fun l => Exec (workerPatLevel inp T own l) copierPat
    PBuf.empty (T.dofsFilled l)) (fun l s => ⟨_, exec_seq _ _⟩) (List.range' 1 inp.levels)
    (T.childless.foldl (fun s i => copierPat (workerPatLeaf inp T own i s PBuf.empty) s) ∅)
  exact ⟨M, _, exec_seq _ _, hM⟩

/-! ### positions written -/

theorem copierWrites_fill (es : List Entry) (W : Pat) :
    copierWrites inp (fill es) W = W ∪ {x | ∃ e ∈ es, x.1 = e.1 ∧ ∃ r ∈ e.2, x.2 ∈ inp.cellDofs r.1} := by
  rw [fill_eq]
  unfold copierWrites
  simp only [List.length_map]
  rw [foldl_range_getElem es _ (fun W e => W ∪ {x | x.1 = e.1 ∧ ∃ r ∈ e.2, x.2 ∈ inp.cellDofs r.1})]
  · rw [foldl_union]; rfl
  · intro ii hi W
    have h1 : ((List.range es.length).map fun ii => (total (es.take ii)).length).getD ii 0 =
        (total (es.take ii)).length := by
      simp [List.getD_eq_getElem?_getD, hi]
    have hsplit : es = es.take ii ++ [es[ii]] ++ es.drop (ii + 1) := by
      rw [List.take_append_getElem, List.take_append_drop]
    have htot : total es = total (es.take ii) ++ es[ii].2 ++ total (es.drop (ii + 1)) := by
      conv_lhs => rw [hsplit]
      unfold total
      rw [List.flatMap_append, List.flatMap_append, List.flatMap_singleton]
    have h2 : (if ii < es.length - 1 then
        ((List.range es.length).map fun ii => (total (es.take ii)).length).getD (ii + 1) 0
        else (total es).length) = (total (es.take ii)).length + es[ii].2.length := by
      split_ifs with h
      · have : ii + 1 < es.length := by omega
        have e : total (es.take (ii + 1)) = total (es.take ii) ++ es[ii].2 := by
          rw [← List.take_append_getElem hi]; unfold total
          rw [List.flatMap_append, List.flatMap_singleton]
        simp [List.getD_eq_getElem?_getD, this, e]
      · have : es.drop (ii + 1) = [] := List.drop_eq_nil_of_le (by omega)
        rw [htot, this]; simp [total]
    simp only [h1, h2, Nat.add_sub_cancel_left]
    have h3 : (es.map fun e => e.1).getD ii 0 = es[ii].1 := by
      simp [List.getD_eq_getElem?_getD, hi]
    rw [h3]
    have h4 := map_getD_segment (total (es.take ii)) es[ii].2 (total (es.drop (ii + 1))) (0, [])
    rw [← htot] at h4
    have h5 : es[ii].2.foldl (fun W r => (inp.cellDofs r.1).foldl (fun W j => insert (es[ii].1, j) W) W) W =
        W ∪ {x | x.1 = es[ii].1 ∧ ∃ r ∈ es[ii].2, x.2 ∈ inp.cellDofs r.1} := by
      have : (fun (W : Pat) (r : ℕ × List Contr) => (inp.cellDofs r.1).foldl (fun W j => insert (es[ii].1, j) W) W) =
          fun W r => W ∪ {x | x.1 = es[ii].1 ∧ x.2 ∈ inp.cellDofs r.1} := by
        funext W r
        rw [foldl_insert]
        congr 1
        ext ⟨a, b⟩
        simp only [Set.mem_ofPred_eq, Prod.mk.injEq]
        constructor
        · rintro ⟨j, hj, rfl, rfl⟩; exact ⟨rfl, hj⟩
        · rintro ⟨rfl, h⟩; exact ⟨b, h, rfl, rfl⟩
      rw [this, foldl_union]
      congr 1
      ext x
      simp only [Set.mem_ofPred_eq]
      constructor
      · rintro ⟨r, hr, h6, h7⟩; exact ⟨h6, r, hr, h7⟩
      · rintro ⟨h6, r, hr, h7⟩; exact ⟨r, hr, h6, h7⟩
    conv_lhs at h5 => rw [← h4]
    rw [List.foldl_map] at h5
    exact h5

/-- positions of the owned nodes of a block and the dofs of the direct cells of `S` -/
def writeOf (inp : Input d) (T : St d) (own : ℕ → Bool) (b : ℕ) (S : Finset ℕ) : Pat :=
  {x | x.1 ∈ (T.blocks b).nodes ∧ own x.1 = true ∧ ∃ c ∈ directCells inp T S, x.2 ∈ inp.cellDofs c}

theorem writes_leaf (own : ℕ → Bool) (b : ℕ) (s : ℕ → Multiset Contr) (buf : DBuf) (W : Pat) :
    copierWrites inp (workerLeaf inp T own b s buf) W =
      W ∪ writeOf inp T own b (intList inp T b (numSub inp T b - 1)) := by
  rw [workerLeaf_fill, copierWrites_fill]
  congr 1
  ext ⟨i, j⟩
  simp only [List.mem_map, List.mem_filter, Set.mem_ofPred_eq, writeOf, rowsOf]
  constructor
  · rintro ⟨e, ⟨k, ⟨h1, h2⟩, rfl⟩, rfl, r, hr, h4⟩
    obtain ⟨c, hc, rfl⟩ := List.mem_map.1 hr
    exact ⟨h1, h2, c, hc, h4⟩
  · rintro ⟨h1, h2, c, hc, h4⟩
    exact ⟨_, ⟨i, ⟨h1, h2⟩, rfl⟩, rfl, _, List.mem_map.2 ⟨c, hc, rfl⟩, h4⟩

theorem writes_big (own : ℕ → Bool) (level b : ℕ) (s : ℕ → Multiset Contr) (buf : DBuf) (W : Pat) :
    copierWrites inp (workerBig inp T own level b s buf) W =
      W ∪ writeOf inp T own b (bigSet inp T (T.startLevel level) b) := by
  rw [workerBig_fill, copierWrites_fill]
  congr 1
  ext ⟨i, j⟩
  simp only [List.mem_map, Set.mem_ofPred_eq, writeOf, rowsOf]
  constructor
  · rintro ⟨e, ⟨k, h1, rfl⟩, rfl, r, hr, h4⟩
    simp only at hr h4 ⊢
    split_ifs at hr with h2
    · obtain ⟨c, hc, rfl⟩ := List.mem_map.1 hr
      exact ⟨h1, h2, c, hc, h4⟩
    · simp at hr
  · rintro ⟨h1, h2, c, hc, h4⟩
    refine ⟨_, ⟨i, h1, rfl⟩, rfl, ?_⟩
    simp only [h2, if_true]
    exact ⟨_, List.mem_map.2 ⟨c, hc, rfl⟩, h4⟩

theorem foldl_pair {ι A α : Type} [AddCommMonoid A] (l : List ι) (e : ι → A) (w : ι → Set α) (s : A × Set α) :
    l.foldl (fun s i => (s.1 + e i, s.2 ∪ w i)) s = (s.1 + (l.map e).sum, s.2 ∪ {x | ∃ i ∈ l, x ∈ w i}) := by
  induction l generalizing s with
  | nil => simp
  | cons a t ih =>
    rw [List.foldl_cons, ih]
    refine Prod.ext ?_ ?_
    · simp [add_assoc]
    · ext x; simp only [Set.mem_union, Set.mem_ofPred_eq, List.mem_cons, exists_eq_or_imp]; tauto

theorem exec_pair {ι β A α : Type} [AddCommMonoid A] {work : ι → A × Set α → β → β}
    {copy : β → A × Set α → A × Set α} {sample : β} {e : ι → A} {w : ι → Set α} {l : List ι}
    (hw : ∀ i ∈ l, ∀ s b, copy (work i s b) = fun s => (s.1 + e i, s.2 ∪ w i)) {s s' : A × Set α}
    (h : Exec work copy sample l s s') : s' = (s.1 + (l.map e).sum, s.2 ∪ {x | ∃ i ∈ l, x ∈ w i}) := by
  have := exec_eq (eff := fun i s => (s.1 + e i, s.2 ∪ w i)) (P := fun _ => True) (l := l)
    (fun i hi s b _ => hw i hi s b) (fun _ _ _ _ => trivial)
    (fun i j s => by
      refine Prod.ext (add_right_comm _ _ _) ?_
      show s.2 ∪ w j ∪ w i = s.2 ∪ w i ∪ w j
      rw [Set.union_assoc, Set.union_assoc, Set.union_comm (w j)]) h trivial
  rw [this, foldl_pair]

theorem levels_pair {A α : Type} [AddCommMonoid A] {R : ℕ → A × Set α → A × Set α → Prop} {e : ℕ → A} {w : ℕ → Set α}
    {ls : List ℕ} (hR : ∀ l ∈ ls, ∀ s s', R l s s' → s' = (s.1 + e l, s.2 ∪ w l)) {s s' : A × Set α}
    (h : Levels R ls s s') : s' = (s.1 + (ls.map e).sum, s.2 ∪ {x | ∃ l ∈ ls, x ∈ w l}) := by
  induction h with
  | nil => simp
  | cons h1 _ ih =>
    rw [ih (fun l hl => hR l (by simp [hl])), hR _ (by simp) _ _ h1]
    refine Prod.ext ?_ ?_
    · simp [add_assoc]
    · ext x; simp only [Set.mem_union, Set.mem_ofPred_eq, List.mem_cons, exists_eq_or_imp]; tauto

/-- the positions written in any execution -/
def writeResult (inp : Input d) (T : St d) (own : ℕ → Bool) : Pat :=
  {x | ∃ b ∈ T.childless, x ∈ writeOf inp T own b (intList inp T b (numSub inp T b - 1))} ∪
    {x | ∃ l ∈ List.range' 1 inp.levels, ∃ b ∈ T.dofsFilled l, x ∈ writeOf inp T own b (bigSet inp T (T.startLevel l) b)}

theorem directWriteExec_eq (t : Tree inp T) {own : ℕ → Bool} {M : ℕ → Multiset Contr} {W : Pat}
    (h : DirectWriteExec inp T own M W) : M = directResult inp T own ∧ W = writeResult inp T own := by
  obtain ⟨x, h1, h2⟩ := h
  have e1 := exec_pair (e := leafEff inp T own)
    (w := fun b => writeOf inp T own b (intList inp T b (numSub inp T b - 1))) (fun b hb s buf => by
      funext s'
      refine Prod.ext ?_ (writes_leaf own b s.1 buf s'.2)
      exact congrFun (copier_leaf own (t.links.nodup ((t.chl b).1 hb).1).1 s.1 buf) s'.1) h1
  have e2 := levels_pair (e := fun l => ((T.dofsFilled l).map (bigEff inp T own l)).sum)
    (w := fun l => {x | ∃ b ∈ T.dofsFilled l, x ∈ writeOf inp T own b (bigSet inp T (T.startLevel l) b)})
    (fun l _ s s' hx => exec_pair (e := bigEff inp T own l)
      (w := fun b => writeOf inp T own b (bigSet inp T (T.startLevel l) b)) (fun b hb s buf => by
        funext s'
        refine Prod.ext ?_ (writes_big own l b s.1 buf s'.2)
        exact congrFun (copier_big own (t.links.nodup ((t.dfil l b).1 hb).2.1).1 s.1 buf) s'.1) hx) h2
  subst e1
  have hM : M = _ := congrArg Prod.fst e2
  have hW : W = _ := congrArg Prod.snd e2
  refine ⟨?_, ?_⟩
  · rw [hM]
    unfold directResult
    have : (fun _ => 0 : ℕ → Multiset Contr) = 0 := rfl
    simp only [this, zero_add]
  · rw [hW]; simp only [Set.empty_union]; rfl

theorem directWriteExec_exists (inp : Input d) (T : St d) (own : ℕ → Bool) :
    ∃ M W, DirectWriteExec inp T own M W := by
  obtain ⟨M, hM⟩ := levels_exists (R := fun l =>
    Exec (fun b (s : (ℕ → Multiset Contr) × Pat) buf => workerBig inp T own l b s.1 buf)
      (fun buf s => (copierDirect buf s.1, copierWrites inp buf s.2)) DBuf.empty (T.dofsFilled l))
    (fun l s => ⟨_, exec_seq _ _⟩) (List.range' 1 inp.levels)
    (T.childless.foldl (fun s i => (copierDirect (workerLeaf inp T own i s.1 DBuf.empty) s.1,
      copierWrites inp (workerLeaf inp T own i s.1 DBuf.empty) s.2)) (fun _ => 0, ∅))
  exact ⟨M.1, M.2, _, exec_seq _ _, hM⟩

/-! ### comparison -/

theorem mem_directCells_iff (t : Tree inp T) {S : Finset ℕ} (hS : ∀ b ∈ S, b < T.count) {c : ℕ} :
    c ∈ directCells inp T S ↔ ∃ b ∈ S, c ∈ blockCells inp T b := by
  unfold directCells blockCells hasQp
  simp only [List.mem_filter, List.mem_range, List.any_eq_true, decide_eq_true_eq]
  constructor
  · rintro ⟨hc, q, hq, b, hb, hm⟩
    exact ⟨b, hb, hc, (c, q), hm, rfl⟩
  · rintro ⟨b, hb, hc, ⟨c', q⟩, hm, rfl⟩
    have := mem_root_of_mem t.links (hS b hb) (x := .inr (c', q)) hm
    exact ⟨hc, q, ((mem_allQps _ _).1 this).2, b, hb, hm⟩

theorem patOf_eq (t : Tree inp T) (own : ℕ → Bool) (b : ℕ) {S : Finset ℕ} (hS : ∀ b ∈ S, b < T.count) :
    patOf inp T own b S = writeOf inp T own b S := by
  ext ⟨i, j⟩
  simp only [patOf, writeOf, Set.mem_ofPred_eq, mem_directNodes]
  constructor
  · rintro ⟨h1, h2, e, he, c, hc, hj⟩
    exact ⟨h1, h2, c, (mem_directCells_iff t hS).2 ⟨e, he, hc⟩, hj⟩
  · rintro ⟨h1, h2, c, hc, hj⟩
    obtain ⟨e, he, hc⟩ := (mem_directCells_iff t hS).1 hc
    exact ⟨h1, h2, e, he, c, hc, hj⟩

end PiBem.Fmm

namespace PiBem.Fmm

open PiBem.Octree PiBem.WorkStream

variable {d : ℕ} {inp : Input d} {T : St d}

theorem leaf_level_pos (t : Tree inp T) (h : 1 ≤ inp.levels) {b : ℕ} (hb : b ∈ T.childless) :
    b < T.count ∧ 1 ≤ (T.blocks b).level := by
  have hbt := (t.chl b).1 hb
  refine ⟨hbt.1, ?_⟩
  rcases hbt.2 with h2 | h2
  · exact t.links.level_pos h2.1 hbt.1
  · omega

theorem intList_count (hd : d = 2 ∨ d = 3) (t : Tree inp T) (h : 1 ≤ inp.levels) {b : ℕ} (hb : b ∈ T.childless) :
    ∀ e ∈ intList inp T b (numSub inp T b - 1), e < T.count := by
  obtain ⟨h1, h2⟩ := leaf_level_pos t h hb
  have hp := Tree.numSub_pos (inp := inp) (T := T) b
  exact fun e he => (t.okSet_int hd h h1 h2 (s := numSub inp T b - 1) (by omega) e he).2.1

theorem bigSet_count (t : Tree inp T) {l b : ℕ} (hb : b ∈ T.dofsFilled l) :
    ∀ e ∈ bigSet inp T (T.startLevel l) b, e < T.count := by
  intro e he
  unfold bigSet at he
  rw [Finset.mem_biUnion] at he
  obtain ⟨s, _, he⟩ := he
  rw [Finset.mem_filter] at he
  have hk' := (t.dfil l b).1 hb
  have h1 := (t.rng _ (t.lev_le b hk'.2.1) b).1 ⟨hk'.2.1, rfl⟩
  have hl : (T.blocks b).level = l := hk'.2.2.1
  rw [hl] at h1
  omega

theorem patResult_eq (hd : d = 2 ∨ d = 3) (t : Tree inp T) (h : 1 ≤ inp.levels) (own : ℕ → Bool) :
    patResult inp T own = writeResult inp T own := by
  unfold patResult writeResult
  congr 1
  · ext x
    refine exists_congr fun b => and_congr_right fun hb => ?_
    rw [patOf_eq t own b (intList_count hd t h hb)]
  · ext x
    refine exists_congr fun l => and_congr_right fun _ => exists_congr fun b => and_congr_right fun hb => ?_
    rw [patOf_eq t own b (bigSet_count t hb)]

theorem mem_list_sum {ι : Type} (l : List ι) (f : ι → ℕ → Multiset Contr) (i : ℕ) (x : Contr) :
    x ∈ (l.map f).sum i ↔ ∃ b ∈ l, x ∈ f b i := by
  induction l with
  | nil => simp
  | cons a t ih => rw [List.map_cons, List.sum_cons, Pi.add_apply, Multiset.mem_add, ih]; simp

theorem mem_rowSum (S : Finset ℕ) (row : ℕ → List Contr) (x : Contr) :
    x ∈ rowSum inp T S row ↔ ∃ c ∈ directCells inp T S, x ∈ row c := by
  unfold rowSum
  rw [sum_flatMap, Multiset.mem_coe, List.mem_flatMap]

theorem mem_leafEff (own : ℕ → Bool) (b i : ℕ) (x : Contr) : x ∈ leafEff inp T own b i ↔
    i ∈ (T.blocks b).nodes ∧ own i = true ∧ ∃ c ∈ directCells inp T (intList inp T b (numSub inp T b - 1)),
      x ∈ leafRow inp T (intList inp T b (numSub inp T b - 1)) i c := by
  unfold leafEff
  split_ifs with h
  · rw [mem_rowSum]; tauto
  · simp only [Multiset.notMem_zero, false_iff]; tauto

theorem mem_bigEff (own : ℕ → Bool) (l b i : ℕ) (x : Contr) : x ∈ bigEff inp T own l b i ↔
    i ∈ (T.blocks b).nodes ∧ own i = true ∧ ∃ c ∈ directCells inp T (bigSet inp T (T.startLevel l) b),
      x ∈ bigRow inp T (bigSet inp T (T.startLevel l) b) c := by
  unfold bigEff
  split_ifs with h
  · rw [mem_rowSum]; tauto
  · simp only [Multiset.notMem_zero, false_iff]; tauto

theorem mem_directResult (own : ℕ → Bool) (i : ℕ) (x : Contr) : x ∈ directResult inp T own i ↔
    (∃ b ∈ T.childless, x ∈ leafEff inp T own b i) ∨
    ∃ l ∈ List.range' 1 inp.levels, ∃ b ∈ T.dofsFilled l, x ∈ bigEff inp T own l b i := by
  unfold directResult
  rw [Pi.add_apply, Multiset.mem_add, mem_list_sum, mem_list_sum]
  simp only [mem_list_sum]

/-- the cell of a contribution -/
def cellOf : Contr → ℕ
  | .reg c _ => c
  | .sing c => c

theorem bigRow_cell {S : Finset ℕ} {c : ℕ} {x : Contr} (h : x ∈ bigRow inp T S c) : cellOf x = c := by
  unfold bigRow at h
  obtain ⟨q, _, rfl⟩ := List.mem_map.1 h; rfl

theorem leafRow_cell {S : Finset ℕ} {i c : ℕ} {x : Contr} (h : x ∈ leafRow inp T S i c) : cellOf x = c := by
  unfold leafRow at h
  split_ifs at h
  · rw [List.mem_singleton] at h; subst h; rfl
  · exact bigRow_cell h

theorem bigRow_ne {S : Finset ℕ} {c : ℕ} (h : c ∈ directCells inp T S) : ∃ x, x ∈ bigRow inp T S c := by
  unfold directCells at h
  rw [List.mem_filter, List.any_eq_true] at h
  obtain ⟨_, q, hq, h2⟩ := h
  exact ⟨.reg c q, List.mem_map.2 ⟨q, List.mem_filter.2 ⟨hq, h2⟩, rfl⟩⟩

theorem leafRow_ne {S : Finset ℕ} {i c : ℕ} (h : c ∈ directCells inp T S) : ∃ x, x ∈ leafRow inp T S i c := by
  unfold leafRow
  split_ifs
  · exact ⟨_, List.mem_singleton.2 rfl⟩
  · exact bigRow_ne h

/-- a position is written iff a contribution of a cell with that dof is in the row -/
theorem mem_writeResult (own : ℕ → Bool) (i j : ℕ) :
    (i, j) ∈ writeResult inp T own ↔ ∃ x ∈ directResult inp T own i, j ∈ inp.cellDofs (cellOf x) := by
  unfold writeResult
  simp only [Set.mem_union, Set.mem_ofPred_eq, writeOf]
  constructor
  · rintro (⟨b, hb, h1, h2, c, hc, hj⟩ | ⟨l, hl, b, hb, h1, h2, c, hc, hj⟩)
    · obtain ⟨x, hx⟩ := leafRow_ne (i := i) hc
      exact ⟨x, (mem_directResult _ _ _).2 (Or.inl ⟨b, hb, (mem_leafEff _ _ _ _).2 ⟨h1, h2, c, hc, hx⟩⟩),
        by rwa [leafRow_cell hx]⟩
    · obtain ⟨x, hx⟩ := bigRow_ne hc
      exact ⟨x, (mem_directResult _ _ _).2 (Or.inr ⟨l, hl, b, hb, (mem_bigEff _ _ _ _ _).2 ⟨h1, h2, c, hc, hx⟩⟩),
        by rwa [bigRow_cell hx]⟩
  · rintro ⟨x, hx, hj⟩
    rcases (mem_directResult _ _ _).1 hx with ⟨b, hb, h⟩ | ⟨l, hl, b, hb, h⟩
    · obtain ⟨h1, h2, c, hc, h3⟩ := (mem_leafEff _ _ _ _).1 h
      exact Or.inl ⟨b, hb, h1, h2, c, hc, by rwa [leafRow_cell h3] at hj⟩
    · obtain ⟨h1, h2, c, hc, h3⟩ := (mem_bigEff _ _ _ _ _).1 h
      exact Or.inr ⟨l, hl, b, hb, h1, h2, c, hc, by rwa [bigRow_cell h3] at hj⟩

/-- cells of the node or of a double are written -/
theorem write_singular (hd : d = 2 ∨ d = 3) (t : Tree inp T) (h : 1 ≤ inp.levels) (hnq : 0 < inp.nq) {own : ℕ → Bool}
    {i c j : ℕ} (hi : i < inp.nDofs) (ho : own i = true) (hc : c < inp.nCells)
    (hs : isSingular inp i c = true) (hj : j ∈ inp.cellDofs c) : (i, j) ∈ writeResult inp T own := by
  obtain ⟨b, hb, hib⟩ : ∃ b ∈ T.childless, i ∈ (T.blocks b).nodes := by
    obtain ⟨b, hb, hm⟩ := t.exists_leaf hd t.links.pos (x := .inl i) ((t.mem_root _).2
      (by simpa [rootBlock, Block.Mem] using hi))
    exact ⟨b, hb, hm⟩
  obtain ⟨e, he, hq⟩ := sing_near hd t h hb hib hc hnq hs
  left
  refine ⟨b, hb, hib, ho, c, ?_, hj⟩
  unfold directCells hasQp
  rw [List.mem_filter, List.any_eq_true]
  exact ⟨List.mem_range.2 hc, 0, List.mem_range.2 hnq, decide_eq_true ⟨e, he, hq⟩⟩

theorem nodes_lt (t : Tree inp T) {b i : ℕ} (hb : b < T.count) (hi : i ∈ (T.blocks b).nodes) : i < inp.nDofs := by
  have := mem_root_of_mem t.links hb (x := .inl i) hi
  simpa [rootBlock, Block.Mem] using this

theorem writeResult_row (t : Tree inp T) {own : ℕ → Bool} {i j : ℕ} (h : (i, j) ∈ writeResult inp T own) :
    i < inp.nDofs ∧ own i = true := by
  rcases h with ⟨b, hb, h1, h2, _⟩ | ⟨l, hl, b, hb, h1, h2, _⟩
  · exact ⟨nodes_lt t ((t.chl b).1 hb).1 h1, h2⟩
  · exact ⟨nodes_lt t ((t.dfil l b).1 hb).2.1 h1, h2⟩

theorem writeResult_own (own : ℕ → Bool) (i j : ℕ) :
    (i, j) ∈ writeResult inp T own ↔ own i = true ∧ (i, j) ∈ writeResult inp T fun _ => true := by
  unfold writeResult writeOf
  simp only [Set.mem_union, Set.mem_ofPred_eq]
  constructor
  · rintro (⟨b, hb, h1, h2, h3⟩ | ⟨l, hl, b, hb, h1, h2, h3⟩)
    · exact ⟨h2, Or.inl ⟨b, hb, h1, trivial, h3⟩⟩
    · exact ⟨h2, Or.inr ⟨l, hl, b, hb, h1, trivial, h3⟩⟩
  · rintro ⟨h2, (⟨b, hb, h1, _, h3⟩ | ⟨l, hl, b, hb, h1, _, h3⟩)⟩
    · exact Or.inl ⟨b, hb, h1, h2, h3⟩
    · exact Or.inr ⟨l, hl, b, hb, h1, h2, h3⟩

/-! ### the final pattern -/

/-- effect of one index -/
def precEff (n : ℕ) (own : ℕ → Bool) (c : ℕ → Option (List ℕ)) (P : Pat) (i : ℕ) : Pat :=
  {x | own i = true ∧ x.1 = i ∧ match c i with
    | some entries => x.2 = i ∨ x.2 ∈ entries
    | none => x.2 < n ∧ (i, x.2) ∈ P}

theorem copier_prec (n : ℕ) (own : ℕ → Bool) (c : ℕ → Option (List ℕ)) (P : Pat) [DecidablePred (· ∈ P)] (i : ℕ)
    (s : Pat) (buf : FBuf) :
    copierPrec own (workerPrec n own c P i s buf) = fun F => F ∪ precEff n own c P i := by
  funext F
  unfold copierPrec workerPrec precEff
  by_cases h : own i = true
  · simp only [h, if_true, foldl_insert]
    congr 1
    ext ⟨a, b⟩
    rcases hc : c i with _ | entries
    · simp only [List.mem_filter, List.mem_range, decide_eq_true_eq, Set.mem_ofPred_eq, Prod.mk.injEq, true_and]
      constructor
      · rintro ⟨j, ⟨h1, h2⟩, rfl, rfl⟩; exact ⟨rfl, h1, h2⟩
      · rintro ⟨rfl, h1, h2⟩; exact ⟨b, ⟨h1, h2⟩, rfl, rfl⟩
    · simp only [List.mem_cons, Set.mem_ofPred_eq, Prod.mk.injEq, true_and]
      constructor
      · rintro ⟨j, h1, rfl, rfl⟩; exact ⟨rfl, h1⟩
      · rintro ⟨rfl, h1⟩; exact ⟨b, h1, rfl, rfl⟩
  · simp [h]

theorem finalPat_eq {n inv : ℕ} {own : ℕ → Bool} {c : ℕ → Option (List ℕ)} {P : Pat} [DecidablePred (· ∈ P)] {F : Pat}
    (h : FinalPatExec n inv own c P F) : F = {x | ∃ i ∈ List.range n, x ∈ precEff n own c P i} := by
  have := exec_union (fun i _ s buf => copier_prec n own c P i s buf) h
  rw [this, Set.empty_union]

theorem finalPat_exists (n inv : ℕ) (own : ℕ → Bool) (c : ℕ → Option (List ℕ)) (P : Pat) [DecidablePred (· ∈ P)] :
    ∃ F, FinalPatExec n inv own c P F := ⟨_, exec_seq _ _⟩

theorem mem_finalPat {n inv : ℕ} {own : ℕ → Bool} {c : ℕ → Option (List ℕ)} {P : Pat} [DecidablePred (· ∈ P)] {F : Pat}
    (h : FinalPatExec n inv own c P F) (i j : ℕ) : (i, j) ∈ F ↔ i < n ∧ own i = true ∧ match c i with
      | some entries => j = i ∨ j ∈ entries
      | none => j < n ∧ (i, j) ∈ P := by
  rw [finalPat_eq h]
  simp only [precEff, Set.mem_ofPred_eq, List.mem_range]
  constructor
  · rintro ⟨k, h1, h2, rfl, h3⟩; exact ⟨h1, h2, h3⟩
  · rintro ⟨h1, h2, h3⟩; exact ⟨i, h1, h2, rfl, h3⟩

end PiBem.Fmm
