import Verif.Fmm.Model
import Verif.Octree.ListFacts
import Mathlib.Algebra.BigOperators.Group.List.Basic
import Mathlib.Algebra.BigOperators.Pi

/-! Facts on the direct part (helper lemmas). -/

namespace PiBem.Fmm

open PiBem.Octree PiBem.WorkStream

variable {d : ℕ} {inp : Input d} {T : St d}

/-- a run whose copiers add a fixed quantity for each item -/
theorem exec_add {ι β A : Type} [AddCommMonoid A] {work : ι → A → β → β} {copy : β → A → A}
    {sample : β} {e : ι → A} {l : List ι}
    (hw : ∀ i ∈ l, ∀ s b, copy (work i s b) = fun s => s + e i) {s s' : A}
    (h : Exec work copy sample l s s') : s' = s + (l.map e).sum := by
  have := exec_eq (eff := fun i s => s + e i) (P := fun _ => True) (l := l)
    (fun i hi s b _ => hw i hi s b) (fun _ _ _ _ => trivial)
    (fun i j s => add_right_comm s (e j) (e i)) h trivial
  rw [this]
  clear hw h this
  induction l generalizing s with
  | nil => simp
  | cons a t ih => simp only [List.foldl_cons, List.map_cons, List.sum_cons]; rw [ih, add_assoc]

/-- quantity `x` at `i`, zero elsewhere -/
def at1 {A : Type} [Zero A] (i : ℕ) (x : A) : ℕ → A := fun j => if j = i then x else 0

theorem update_add {A : Type} [AddZeroClass A] (M : ℕ → A) (i : ℕ) (x : A) :
    Function.update M i (M i + x) = M + at1 i x := by
  funext j
  by_cases h : j = i
  · subst h; simp [at1]
  · simp [at1, h]

/-- rows attributed to node `i` by a list of (node, rows) -/
abbrev Entry := ℕ × List (ℕ × List Contr)

def entrySum (e : Entry) : ℕ → Multiset Contr := at1 e.1 (e.2.map fun r => (r.2 : Multiset Contr)).sum

def pushEntry (b : DBuf) (e : Entry) : DBuf := e.2.foldl DBuf.pushRow (b.pushNode e.1)

def fill (es : List Entry) : DBuf := es.foldl pushEntry DBuf.empty

theorem foldl_pushRow (rs : List (ℕ × List Contr)) (b : DBuf) :
    rs.foldl DBuf.pushRow b =
      { b with rows := b.rows ++ rs, helper := b.helper + rs.length } := by
  induction rs generalizing b with
  | nil => simp
  | cons r t ih =>
    simp only [List.foldl_cons]; rw [ih]
    simp [DBuf.pushRow]; omega

def total (es : List Entry) : List (ℕ × List Contr) := es.flatMap fun e => e.2

theorem fill_eq (es : List Entry) : fill es =
    ⟨es.map fun e => e.1, (List.range es.length).map fun ii => (total (es.take ii)).length,
      total es, (total es).length⟩ := by
  induction es using List.reverseRecOn with
  | nil => rfl
  | append_singleton t e ih =>
    unfold fill at ih ⊢
    rw [List.foldl_append, ih, List.foldl_cons, List.foldl_nil]
    unfold pushEntry
    rw [foldl_pushRow]
    simp only [DBuf.pushNode, List.map_append, List.map_cons, List.map_nil, List.length_append,
      List.length_cons, List.length_nil, total, List.flatMap_append, List.flatMap_cons,
      List.flatMap_nil, List.append_nil, zero_add]
    rw [List.range_succ, List.map_append]
    simp only [DBuf.mk.injEq, true_and, and_true]
    congr 1
    · refine List.map_congr_left ?_
      intro ii hii
      rw [List.mem_range] at hii
      rw [List.take_append_of_le_length (by omega)]
    · simp

theorem map_getD_segment {α : Type} (a b c : List α) (x : α) :
    (List.range' a.length b.length).map (fun k => (a ++ b ++ c).getD k x) = b := by
  apply List.ext_getElem
  · simp
  · intro n h1 h2
    simp at h1
    simp [List.getD_eq_getElem?_getD, List.getElem?_append, h1]

theorem foldl_addRow (i : ℕ) (rs : List (ℕ × List Contr)) (M : ℕ → Multiset Contr) :
    rs.foldl (fun M r => addRow i r M) M =
      M + at1 i (rs.map fun r => (r.2 : Multiset Contr)).sum := by
  induction rs generalizing M with
  | nil => funext j; simp [at1]
  | cons r t ih =>
    simp only [List.foldl_cons]; rw [ih]
    unfold addRow
    rw [update_add]
    funext j
    simp only [Pi.add_apply, at1, List.map_cons, List.sum_cons]
    split_ifs <;> simp [add_assoc]

theorem foldl_range_getElem {α σ : Type} (l : List α) (g : σ → ℕ → σ) (f : σ → α → σ)
    (h : ∀ ii (hi : ii < l.length) s, g s ii = f s l[ii]) (s : σ) :
    (List.range l.length).foldl g s = l.foldl f s := by
  induction l using List.reverseRecOn generalizing s with
  | nil => rfl
  | append_singleton t e ih =>
    rw [List.length_append, List.length_singleton, List.range_succ, List.foldl_append,
      List.foldl_append, ih]
    · simp only [List.foldl_cons, List.foldl_nil]
      rw [h t.length (by simp)]; simp
    · intro ii hi s
      rw [h ii (by simp; omega)]
      simp [hi]

/-- the copier adds to each row the entries computed for it -/
theorem copierDirect_fill (es : List Entry) (M : ℕ → Multiset Contr) :
    copierDirect (fill es) M = M + (es.map entrySum).sum := by
  rw [fill_eq]
  unfold copierDirect
  simp only [List.length_map]
  rw [foldl_range_getElem es _ (fun M e => M + entrySum e)]
  · induction es generalizing M with
    | nil => simp
    | cons e t ih => simp only [List.foldl_cons, List.map_cons, List.sum_cons]; rw [ih, add_assoc]
  · intro ii hi M
    have h1 : ((List.range es.length).map fun ii => (total (es.take ii)).length).getD ii 0 =
        (total (es.take ii)).length := by
      simp [List.getD_eq_getElem?_getD, hi]
    have hsplit : es = es.take ii ++ [es[ii]] ++ es.drop (ii + 1) := by
      rw [List.take_append_getElem, List.take_append_drop]
    have htot : total es = total (es.take ii) ++ es[ii].2 ++ total (es.drop (ii + 1)) := by
      conv_lhs => rw [hsplit]
      unfold total
      rw [List.flatMap_append, List.flatMap_append, List.flatMap_singleton]
    have h2 : (if ii < es.length - 1 then
        ((List.range es.length).map fun ii => (total (es.take ii)).length).getD (ii + 1) 0
        else (total es).length) = (total (es.take ii)).length + es[ii].2.length := by
      split_ifs with h
      · have : ii + 1 < es.length := by omega
        have e : total (es.take (ii + 1)) = total (es.take ii) ++ es[ii].2 := by
          rw [← List.take_append_getElem hi]; unfold total
          rw [List.flatMap_append, List.flatMap_singleton]
        simp [List.getD_eq_getElem?_getD, this, e]
      · have : es.drop (ii + 1) = [] := List.drop_eq_nil_of_le (by omega)
        rw [htot, this]; simp [total]
    simp only [h1, h2, Nat.add_sub_cancel_left]
    have h3 : (es.map fun e => e.1).getD ii 0 = es[ii].1 := by
      simp [List.getD_eq_getElem?_getD, hi]
    rw [h3]
    have h4 := map_getD_segment (total (es.take ii)) es[ii].2 (total (es.drop (ii + 1))) (0, [])
    rw [← htot] at h4
    have h5 := foldl_addRow es[ii].1 es[ii].2 M
    conv_lhs at h5 => rw [← h4]
    rw [List.foldl_map] at h5
    rw [h5]; rfl

/-! ### the two workers -/

/-- rows of node `i` -/
def rowsOf (inp : Input d) (T : St d) (S : Finset ℕ) (row : ℕ → List Contr) :
    List (ℕ × List Contr) := (directCells inp T S).map fun c => (c, row c)

theorem foldl_cells (l : List ℕ) (row : ℕ → List Contr) (b : DBuf) :
    l.foldl (fun buf c => buf.pushRow (c, row c)) b =
      (l.map fun c => (c, row c)).foldl DBuf.pushRow b := by
  rw [List.foldl_map]

theorem workerLeaf_fill (own : ℕ → Bool) (b : ℕ) (s : ℕ → Multiset Contr) (buf : DBuf) :
    workerLeaf inp T own b s buf = fill (((T.blocks b).nodes.filter own).map fun i =>
      (i, rowsOf inp T (intList inp T b (numSub inp T b - 1))
        (leafRow inp T (intList inp T b (numSub inp T b - 1)) i))) := by
  unfold workerLeaf fill
  have : buf.reset = DBuf.empty := rfl
  rw [this]
  generalize intList inp T b (numSub inp T b - 1) = S
  generalize DBuf.empty = b0
  generalize (T.blocks b).nodes = l
  induction l generalizing b0 with
  | nil => rfl
  | cons i t ih =>
    simp only [List.foldl_cons]
    rw [ih]
    by_cases h : own i = true
    · rw [List.filter_cons_of_pos h, List.map_cons, List.foldl_cons, if_pos h]
      rw [foldl_cells]; rfl
    · rw [List.filter_cons_of_neg h, if_neg h]

theorem workerBig_fill (own : ℕ → Bool) (level b : ℕ) (s : ℕ → Multiset Contr) (buf : DBuf) :
    workerBig inp T own level b s buf = fill ((T.blocks b).nodes.map fun i =>
      (i, if own i then rowsOf inp T (bigSet inp T (T.startLevel level) b)
        (bigRow inp T (bigSet inp T (T.startLevel level) b)) else [])) := by
  unfold workerBig fill
  have : buf.reset = DBuf.empty := rfl
  rw [this]
  generalize bigSet inp T (T.startLevel level) b = S
  generalize DBuf.empty = b0
  generalize (T.blocks b).nodes = l
  induction l generalizing b0 with
  | nil => rfl
  | cons i t ih =>
    simp only [List.foldl_cons, List.map_cons]
    rw [ih]
    by_cases h : own i = true
    · simp only [if_pos h]
      rw [foldl_cells]; rfl
    · simp only [if_neg h]; rfl

/-- what the rows of `rowsOf` add -/
def rowSum (inp : Input d) (T : St d) (S : Finset ℕ) (row : ℕ → List Contr) : Multiset Contr :=
  ((directCells inp T S).map fun c => (row c : Multiset Contr)).sum

theorem sum_at1 {A : Type} [AddCommMonoid A] (l : List ℕ) (hn : l.Nodup) (f : ℕ → A) (i : ℕ) :
    ((l.map fun j => at1 j (f j)).sum) i = if i ∈ l then f i else 0 := by
  induction l with
  | nil => simp
  | cons a t ih =>
    rw [List.nodup_cons] at hn
    rw [List.map_cons, List.sum_cons, Pi.add_apply, ih hn.2]
    by_cases h : i = a
    · subst h; simp [at1, hn.1]
    · simp [at1, h]

/-- effect of a childless block -/
def leafEff (inp : Input d) (T : St d) (own : ℕ → Bool) (b : ℕ) : ℕ → Multiset Contr := fun i =>
  if i ∈ (T.blocks b).nodes ∧ own i = true then
    rowSum inp T (intList inp T b (numSub inp T b - 1))
      (leafRow inp T (intList inp T b (numSub inp T b - 1)) i) else 0

def bigEff (inp : Input d) (T : St d) (own : ℕ → Bool) (level b : ℕ) : ℕ → Multiset Contr := fun i =>
  if i ∈ (T.blocks b).nodes ∧ own i = true then
    rowSum inp T (bigSet inp T (T.startLevel level) b)
      (bigRow inp T (bigSet inp T (T.startLevel level) b)) else 0

theorem copier_leaf (own : ℕ → Bool) {b : ℕ} (hn : (T.blocks b).nodes.Nodup)
    (s : ℕ → Multiset Contr) (buf : DBuf) :
    copierDirect (workerLeaf inp T own b s buf) = fun M => M + leafEff inp T own b := by
  funext M
  rw [workerLeaf_fill, copierDirect_fill]
  congr 1
  funext i
  rw [List.map_map]
  simp only [entrySum, Function.comp_def, rowsOf, List.map_map]
  rw [sum_at1 _ (hn.filter _)]
  unfold leafEff rowSum
  simp [List.mem_filter]

theorem copier_big (own : ℕ → Bool) {level b : ℕ} (hn : (T.blocks b).nodes.Nodup)
    (s : ℕ → Multiset Contr) (buf : DBuf) :
    copierDirect (workerBig inp T own level b s buf) = fun M => M + bigEff inp T own level b := by
  funext M
  rw [workerBig_fill, copierDirect_fill]
  congr 1
  funext i
  rw [List.map_map]
  simp only [entrySum, Function.comp_def]
  rw [sum_at1 _ hn]
  unfold bigEff rowSum rowsOf
  by_cases h1 : i ∈ (T.blocks b).nodes <;> by_cases h2 : own i = true <;>
    simp [h1, h2, Function.comp_def]

theorem levels_add {A : Type} [AddCommMonoid A] {R : ℕ → A → A → Prop} {e : ℕ → A} {ls : List ℕ}
    (hR : ∀ l ∈ ls, ∀ s s', R l s s' → s' = s + e l) {s s' : A} (h : Levels R ls s s') :
    s' = s + (ls.map e).sum := by
  induction h with
  | nil => simp
  | cons h1 _ ih =>
    rw [List.map_cons, List.sum_cons, ih (fun l hl => hR l (by simp [hl])), hR _ (by simp) _ _ h1,
      add_assoc]

/-- the assembled matrix -/
def directResult (inp : Input d) (T : St d) (own : ℕ → Bool) : ℕ → Multiset Contr :=
  (T.childless.map (leafEff inp T own)).sum +
    ((List.range' 1 inp.levels).map fun l => ((T.dofsFilled l).map (bigEff inp T own l)).sum).sum

theorem directExec_eq (t : Tree inp T) {own : ℕ → Bool} {M : ℕ → Multiset Contr}
    (h : DirectExec inp T own M) : M = directResult inp T own := by
  obtain ⟨M1, h1, h2⟩ := h
  have e1 := exec_add (e := leafEff inp T own) (fun b hb s buf =>
    copier_leaf own (t.links.nodup ((t.chl b).1 hb).1).1 s buf) h1
  have e2 := levels_add (e := fun l => ((T.dofsFilled l).map (bigEff inp T own l)).sum)
    (fun l _ s s' hx => exec_add (e := bigEff inp T own l) (fun b hb s buf =>
      copier_big own (t.links.nodup ((t.dfil l b).1 hb).2.1).1 s buf) hx) h2
  rw [e2, e1]
  unfold directResult
  have : (fun _ => 0 : ℕ → Multiset Contr) = 0 := rfl
  rw [this, zero_add]

theorem levels_exists {σ : Type} {R : ℕ → σ → σ → Prop} (hR : ∀ l s, ∃ s', R l s s') (ls : List ℕ)
    (s : σ) : ∃ s', Levels R ls s s' := by
  induction ls generalizing s with
  | nil => exact ⟨s, .nil s⟩
  | cons l t ih =>
    obtain ⟨s1, h1⟩ := hR l s
    obtain ⟨s2, h2⟩ := ih s1
    exact ⟨s2, .cons h1 h2⟩

theorem directExec_exists (inp : Input d) (T : St d) (own : ℕ → Bool) :
    ∃ M, DirectExec inp T own M := by
  obtain ⟨M, hM⟩ := levels_exists (R := fun l => Exec (workerBig inp T own l) copierDirect
    DBuf.empty (T.dofsFilled l)) (fun l s => ⟨_, exec_seq _ _⟩) (List.range' 1 inp.levels)
    (T.childless.foldl (fun s i => copierDirect (workerLeaf inp T own i s DBuf.empty) s) fun _ => 0)
  exact ⟨M, _, exec_seq _ _, hM⟩

end PiBem.Fmm
