import Verif.Fmm.Rounding
import Verif.Props.Fmm
import Mathlib.Algebra.BigOperators.Ring.Finset

/-!
# C100: rounding errors in the assembly and in the products
-/

noncomputable section

namespace PiBem.WorkStream

variable {ι β σ : Type} {work : ι → σ → β → β} {copy : β → σ → σ} {sample : β}

/-- If what the copier does with the output of a worker depends on the item only, a run applies the effects of the items in
some order. -/
theorem exec_order {eff : ι → σ → σ} {l : List ι} (hw : ∀ i ∈ l, ∀ s b, copy (work i s b) = eff i) {s s' : σ}
    (h : Exec work copy sample l s s') : ∃ l' : List ι, l'.Perm l ∧ s' = l'.foldl (fun s i => eff i s) s := by
  have key : ∀ (pend : List ι) (fl free : List β) (s s' : σ), Run work copy sample pend fl free s s' →
      (∀ i ∈ pend, i ∈ l) → ∀ ids : List ι, fl.map copy = ids.map eff →
      ∃ l' : List ι, l'.Perm (ids ++ pend) ∧ s' = l'.foldl (fun s i => eff i s) s := by
    intro pend fl free s s' hr
    induction hr with
    | done free s =>
      intro _ ids hids
      have : ids = [] := by simpa using hids.symm
      subst this; exact ⟨[], .nil, rfl⟩
    | work p1 p2 i fl free free' b s s' hb _ ih =>
      intro hp ids hmap
      have hil : i ∈ l := hp i (by simp)
      obtain ⟨l', h1, h2⟩ := ih (fun j hj => hp j (by simp at hj ⊢; tauto)) (i :: ids) (by simp [hmap, hw i hil s b])
      refine ⟨l', h1.trans ?_, h2⟩
      simp only [List.cons_append]
      rw [← List.append_assoc, ← List.append_assoc]
      exact List.perm_middle.symm
    | copy pend f1 f2 b free s s' _ ih =>
      intro hp ids hmap
      rw [List.map_append, List.map_cons] at hmap
      obtain ⟨i1, i2', h12, h1, h2⟩ := List.map_eq_append_iff.1 hmap.symm
      obtain ⟨i, i2, h2', hi, h2''⟩ := List.map_eq_cons_iff.1 h2
      subst h12; subst h2'
      obtain ⟨l', e1, e2⟩ := ih hp (i1 ++ i2) (by simp [h1, h2''])
      refine ⟨i :: l', ?_, by rw [List.foldl_cons, hi]; exact e2⟩
      rw [List.append_assoc] at e1 ⊢
      exact (e1.cons i).trans List.perm_middle.symm
  obtain ⟨l', h1, h2⟩ := key l [] [] s s' h (fun i hi => hi) [] rfl
  exact ⟨l', by simpa using h1, h2⟩

end PiBem.WorkStream

namespace PiBem.Fmm

open PiBem.Octree PiBem.WorkStream PiBem.Rounding

variable {u : ℝ} (F : Fl u) (Q : FlData) (inp : Input 3)

/-- The copier on a filled buffer: the rows in order. -/
theorem copierWith_fill {σ : Type} (add : ℕ → ℕ × List Contr → σ → σ) (es : List Entry) (M : σ) :
    copierWith add (fill es) M = es.foldl (fun M e => e.2.foldl (fun M r => add e.1 r M) M) M := by
  rw [fill_eq]
  unfold copierWith
  simp only [List.length_map]
  rw [foldl_range_getElem es _ (fun M e => e.2.foldl (fun M r => add e.1 r M) M)]
  intro ii hi M
  have h1 : ((List.range es.length).map fun ii => (total (es.take ii)).length).getD ii 0 =
      (total (es.take ii)).length := by
    simp [List.getD_eq_getElem?_getD, hi]
  have hsplit : es = es.take ii ++ [es[ii]] ++ es.drop (ii + 1) := by
    rw [List.take_append_getElem, List.take_append_drop]
  have htot : total es = total (es.take ii) ++ es[ii].2 ++ total (es.drop (ii + 1)) := by
    conv_lhs => rw [hsplit]
    unfold total
    rw [List.flatMap_append, List.flatMap_append, List.flatMap_singleton]
  have h2 : (if ii < es.length - 1 then
      ((List.range es.length).map fun ii => (total (es.take ii)).length).getD (ii + 1) 0
      else (total es).length) = (total (es.take ii)).length + es[ii].2.length := by
    split_ifs with h
    · have : ii + 1 < es.length := by omega
      have e : total (es.take (ii + 1)) = total (es.take ii) ++ es[ii].2 := by
        rw [← List.take_append_getElem hi]; unfold total
        rw [List.flatMap_append, List.flatMap_singleton]
      simp [List.getD_eq_getElem?_getD, this, e]
    · have : es.drop (ii + 1) = [] := List.drop_eq_nil_of_le (by omega)
      rw [htot, this]; simp [total]
  simp only [h1, h2, Nat.add_sub_cancel_left]
  have h3 : (es.map fun e => e.1).getD ii 0 = es[ii].1 := by
    simp [List.getD_eq_getElem?_getD, hi]
  rw [h3]
  have h4 := map_getD_segment (total (es.take ii)) es[ii].2 (total (es.drop (ii + 1))) (0, [])
  rw [← htot] at h4
  conv_rhs => rw [← h4]
  rw [List.foldl_map]

/-! ## One row -/

/-- Value of a term. -/
def termVal (t : ℝ × ℝ × ℝ) : ℝ := t.1 * t.2.1 * t.2.2

theorem rowFl_near (i j : ℕ) (l : List Contr) :
    Near u (2 + (l.flatMap (terms Q i j)).length) ((l.flatMap (terms Q i j)).map termVal).sum
      ((l.flatMap (terms Q i j)).map fun t => |termVal t|).sum (rowFl F Q i l j) := by
  have h := near_loop F (l.flatMap (terms Q i j)) termVal (fun t => |termVal t|)
    (fun t => F.fl (F.fl (t.1 * t.2.1) * t.2.2)) (m := 2) (n := 2) (x := 0) (A := 0) (y := 0) le_rfl (by
      rintro ⟨a, b, c⟩ -
      have h1 := ((near_self (u := u) a).mul F (near_self b)).mul F (near_self c)
      simp only [termVal, abs_mul]
      exact h1) (near_zero.mono F.nonneg (by omega))
  rw [zero_add, zero_add] at h
  exact h

theorem addRowFl_entry (i : ℕ) (r : ℕ × List Contr) (M : ℕ → ℕ → ℝ) (k : ℕ) :
    addRowFl F Q inp i r M i k = (localsOf inp r.1 k).foldl (fun s j => F.fl (s + rowFl F Q i r.2 j)) (M i k) := by
  unfold addRowFl localsOf
  generalize List.range (inp.cellDofs r.1).length = js
  induction js generalizing M with
  | nil => rfl
  | cons j t ih =>
    rw [List.foldl_cons, ih]
    by_cases h : (inp.cellDofs r.1).getD j 0 = k
    · rw [List.filter_cons_of_pos (by simpa using h), List.foldl_cons]
      simp only [Function.update_self, h]
    · rw [List.filter_cons_of_neg (by simpa using h)]
      simp only [Function.update_self]
      rw [Function.update_of_ne (Ne.symm h)]

theorem addRowFl_other (i : ℕ) (r : ℕ × List Contr) (M : ℕ → ℕ → ℝ) (i' : ℕ) (hi : i' ≠ i) :
    addRowFl F Q inp i r M i' = M i' := by
  unfold addRowFl
  generalize List.range (inp.cellDofs r.1).length = js
  induction js generalizing M with
  | nil => rfl
  | cons j t ih => rw [List.foldl_cons, ih, Function.update_of_ne hi]

theorem sum_exchange {α β : Type} (f : α → β → ℝ) (l : List α) (m : List β) :
    (m.map fun b => (l.map fun a => f a b).sum).sum = (l.map fun a => (m.map fun b => f a b).sum).sum := by
  induction l with
  | nil => simp
  | cons a t ih => simp [List.sum_map_add, ih]

/-- Exact value of the additions of a row. -/
theorem row_exact (f : ℝ → ℝ) (i k c : ℕ) (l : List Contr) (hl : ∀ x ∈ l, x.cellOf = c) :
    ((localsOf inp c k).map fun j => ((l.flatMap (terms Q i j)).map fun t => f (termVal t)).sum).sum =
      (l.map (entryOf Q inp f i k)).sum := by
  have h1 : ∀ j, ((l.flatMap (terms Q i j)).map fun t => f (termVal t)).sum =
      (l.map fun x => ((terms Q i j x).map fun t => f (termVal t)).sum).sum := by
    intro j
    induction l with
    | nil => rfl
    | cons a t ih =>
      rw [List.flatMap_cons, List.map_append, List.sum_append, List.map_cons, List.sum_cons,
        ih fun x hx => hl x (by simp [hx])]
  simp only [h1]
  rw [sum_exchange]
  congr 1
  refine List.map_congr_left fun x hx => ?_
  unfold entryOf
  rw [hl x hx]
  rfl

/-! ## The ledger -/

/-- The numbers of a contribution to an entry. -/
def cnt (k : ℕ) (x : Contr) : ℕ := (localsOf inp x.cellOf k).length

/-- The computed matrix `M` approximates the contributions `L`. -/
def Inv (u : ℝ) (B : ℕ) (L : ℕ → Multiset Contr) (M : ℕ → ℕ → ℝ) : Prop :=
  ∀ i k, Near u (B + 2 + ((L i).map (cnt inp k)).sum) ((L i).map (entryOf Q inp (fun x => x) i k)).sum
    ((L i).map (entryOf Q inp (fun x => |x|) i k)).sum (M i k)

/-- Rows the workers produce: not empty, of one cell, with at most `B` points. -/
def GoodRow (B : ℕ) (i : ℕ) (r : ℕ × List Contr) : Prop :=
  r.2 ≠ [] ∧ (∀ x ∈ r.2, x.cellOf = r.1) ∧ ∀ j, (r.2.flatMap (terms Q i j)).length ≤ B

theorem inv_row {B i : ℕ} {r : ℕ × List Contr} (hr : GoodRow Q B i r) {L : ℕ → Multiset Contr} {M : ℕ → ℕ → ℝ}
    (h : Inv Q inp u B L M) : Inv Q inp u B (addRow i r L) (addRowFl F Q inp i r M) := by
  intro i' k
  by_cases hi : i' = i
  · subst hi
    rw [addRowFl_entry]
    unfold addRow
    simp only [Function.update_self, Multiset.map_add, Multiset.sum_add, Multiset.map_coe, Multiset.sum_coe]
    obtain ⟨h1, h2, h3⟩ := hr
    have hl := near_loop F (localsOf inp r.1 k) (fun j => ((r.2.flatMap (terms Q i' j)).map termVal).sum)
      (fun j => ((r.2.flatMap (terms Q i' j)).map fun t => |termVal t|).sum) (fun j => rowFl F Q i' r.2 j)
      (m := B + 2) (by omega) (fun j _ => (rowFl_near F Q i' j r.2).mono F.nonneg (by have := h3 j; omega)) (h i' k)
    have e1 := row_exact Q inp (fun x => x) i' k r.1 r.2 h2
    have e2 := row_exact Q inp (fun x => |x|) i' k r.1 r.2 h2
    have e3 : (r.2.map (cnt inp k)).sum = r.2.length * (localsOf inp r.1 k).length := by
      rw [List.map_congr_left (g := fun _ => (localsOf inp r.1 k).length) (fun x hx => by unfold cnt; rw [h2 x hx])]
      simp
    rw [← e1, ← e2, e3]
    refine hl.mono F.nonneg ?_
    have : 1 ≤ r.2.length := by
      rcases hx : r.2 with _ | _
      · exact absurd hx h1
      · simp
    have := Nat.mul_le_mul_right (localsOf inp r.1 k).length this
    rw [one_mul] at this
    rw [add_assoc (B + 2)]
    exact Nat.add_le_add_left (Nat.add_le_add_left this _) _
  · rw [addRowFl_other F Q inp i r M i' hi]
    unfold addRow
    rw [Function.update_of_ne hi]
    exact h i' k

theorem copierWith_addRow : copierWith addRow = copierDirect := rfl

theorem inv_fill {B : ℕ} {es : List Entry} (he : ∀ e ∈ es, ∀ r ∈ e.2, GoodRow Q B e.1 r) {L : ℕ → Multiset Contr}
    {M : ℕ → ℕ → ℝ} (h : Inv Q inp u B L M) :
    Inv Q inp u B (copierDirect (fill es) L) (copierWith (addRowFl F Q inp) (fill es) M) := by
  rw [← copierWith_addRow, copierWith_fill, copierWith_fill]
  induction es generalizing L M with
  | nil => exact h
  | cons e t ih =>
    rw [List.foldl_cons, List.foldl_cons]
    refine ih (fun e' h' => he e' (by simp [h'])) ?_
    have hrow := he e (by simp)
    revert hrow
    generalize e.2 = rs
    intro hrow
    induction rs generalizing L M with
    | nil => exact h
    | cons r rs ih2 =>
      rw [List.foldl_cons, List.foldl_cons]
      exact ih2 (inv_row F Q inp (hrow r (by simp)) h) (fun r' h' => hrow r' (by simp [h']))

/-! ## Runs -/

variable {Q inp} {T : St 3} {own : ℕ → Bool} {B : ℕ}

theorem mem_directCells {S : Finset ℕ} {c : ℕ} (h : c ∈ directCells inp T S) :
    ((List.range inp.nq).filter fun q => hasQp T S c q) ≠ [] := by
  unfold directCells at h
  rw [List.mem_filter, List.any_eq_true] at h
  obtain ⟨q, h1, h2⟩ := h.2
  intro hn
  have : q ∈ ((List.range inp.nq).filter fun q => hasQp T S c q) := List.mem_filter.2 ⟨h1, h2⟩
  rw [hn] at this
  simp at this

theorem good_reg (hB : inp.nq ≤ B) {i c : ℕ} {l : List ℕ} (hl : l ≠ []) (hlen : l.length ≤ inp.nq) :
    GoodRow Q B i (c, l.map (Contr.reg c)) := by
  refine ⟨by simpa using hl, ?_, fun j => ?_⟩
  · intro x hx
    obtain ⟨q, _, rfl⟩ := List.mem_map.1 hx
    rfl
  · rw [List.flatMap_map]
    simp only [terms]
    rw [List.length_flatMap]
    simp only [List.length_cons, List.length_nil, zero_add]
    rw [List.map_const', List.sum_replicate]
    simp
    omega

theorem good_sing (hS : ∀ i c, (Q.sing i c).length ≤ B) {i c : ℕ} : GoodRow Q B i (c, [Contr.sing c]) :=
  ⟨by simp, by simp [Contr.cellOf], fun j => by simpa [terms] using hS i c⟩

theorem good_big (hB : inp.nq ≤ B) {S : Finset ℕ} {i : ℕ} : ∀ r ∈ rowsOf inp T S (bigRow inp T S), GoodRow Q B i r := by
  intro r hr
  unfold rowsOf at hr
  obtain ⟨c, hc, rfl⟩ := List.mem_map.1 hr
  exact good_reg hB (mem_directCells hc) (le_trans (List.length_filter_le _ _) (by simp))

theorem good_leaf (hB : inp.nq ≤ B) (hS : ∀ i c, (Q.sing i c).length ≤ B) {S : Finset ℕ} {i : ℕ} :
    ∀ r ∈ rowsOf inp T S (leafRow inp T S i), GoodRow Q B i r := by
  intro r hr
  unfold rowsOf at hr
  obtain ⟨c, hc, rfl⟩ := List.mem_map.1 hr
  unfold leafRow
  split_ifs
  · exact good_sing hS
  · exact good_reg hB (mem_directCells hc) (le_trans (List.length_filter_le _ _) (by simp))

/-- A phase: the ledger and the computed matrix. -/
theorem phase_inv {w : ℕ → DBuf → DBuf} {es : ℕ → List Entry} {e : ℕ → ℕ → Multiset Contr} {l : List ℕ}
    (hw : ∀ b ∈ l, ∀ buf, w b buf = fill (es b)) (hg : ∀ b ∈ l, ∀ x ∈ es b, ∀ r ∈ x.2, GoodRow Q B x.1 r)
    (he : ∀ b ∈ l, ∀ L, copierDirect (fill (es b)) L = L + e b) {L : ℕ → Multiset Contr} {M M' : ℕ → ℕ → ℝ}
    (h : Inv Q inp u B L M) (hx : Exec (fun b _ => w b) (copierWith (addRowFl F Q inp)) DBuf.empty l M M') :
    Inv Q inp u B (L + (l.map e).sum) M' := by
  obtain ⟨l', hp, rfl⟩ := exec_order (eff := fun b => copierWith (addRowFl F Q inp) (fill (es b)))
    (fun b hb s buf => by rw [hw b hb buf]) hx
  rw [show (l.map e).sum = (l'.map e).sum from ((hp.map e).sum_eq).symm]
  have hm : ∀ b ∈ l', b ∈ l := fun b hb => hp.subset hb
  clear hp hx
  induction l' generalizing L M with
  | nil => simpa using h
  | cons b t ih =>
    rw [List.foldl_cons, List.map_cons, List.sum_cons, ← add_assoc, ← he b (hm b (by simp))]
    exact ih (inv_fill F Q inp (hg b (hm b (by simp))) h) fun b' hb' => hm b' (by simp [hb'])

/-- The near field matrix approximates the contributions of `directResult`. -/
theorem near_inv (t : Tree inp T) (hB : inp.nq ≤ B) (hS : ∀ i c, (Q.sing i c).length ≤ B) {M : ℕ → ℕ → ℝ}
    (h : NearFlExec F Q inp T own M) : Inv Q inp u B (directResult inp T own) M := by
  obtain ⟨M1, h1, h2⟩ := h
  have i0 : Inv Q inp u B (fun _ => 0) fun _ _ => 0 := by
    intro i k
    simp only [Multiset.map_zero, Multiset.sum_zero]
    exact near_zero.mono F.nonneg (by omega)
  have i1 := phase_inv F (e := leafEff inp T own) (fun b _ buf => workerLeaf_fill own b _ buf) (fun b hb x hx r hr => by
      obtain ⟨i, _, rfl⟩ := List.mem_map.1 hx
      exact good_leaf hB hS r hr)
    (fun b hb L => by
      rw [← workerLeaf_fill own b (fun _ => 0) DBuf.empty]
      exact congrFun (copier_leaf own (t.links.nodup ((t.chl b).1 hb).1).1 _ _) L) i0 h1
  have key : ∀ ls : List ℕ, ∀ {L : ℕ → Multiset Contr} {M1 M2 : ℕ → ℕ → ℝ}, Inv Q inp u B L M1 →
      Levels (fun l => Exec (fun b _ => workerBig inp T own l b fun _ => 0) (copierWith (addRowFl F Q inp)) DBuf.empty
        (T.dofsFilled l)) ls M1 M2 →
      Inv Q inp u B (L + (ls.map fun l => ((T.dofsFilled l).map (bigEff inp T own l)).sum).sum) M2 := by
    intro ls
    induction ls with
    | nil => intro L M1 M2 h hl; cases hl; simpa using h
    | cons l ls ih =>
      intro L M1 M2 h hl
      cases hl with
      | cons ha hb =>
        rw [List.map_cons, List.sum_cons, ← add_assoc]
        refine ih (phase_inv F (e := bigEff inp T own l) (fun b _ buf => workerBig_fill own l b _ buf)
          (fun b hb x hx r hr => ?_) (fun b hb L => ?_) h ha) hb
        · obtain ⟨i, _, rfl⟩ := List.mem_map.1 hx
          simp only at hr
          split_ifs at hr
          · exact good_big hB r hr
          · simp at hr
        · rw [← workerBig_fill own l b (fun _ => 0) DBuf.empty]
          exact congrFun (copier_big own (t.links.nodup ((t.dfil l b).1 hb).2.1).1 _ _) L
  have i2 := key _ i1 h2
  have e0 : (fun _ => 0 : ℕ → Multiset Contr) = 0 := rfl
  rw [e0, zero_add] at i2
  exact i2

/-! ## Dense matrices -/

theorem good_dense (hnq : 0 < inp.nq) (hB : inp.nq ≤ B) (hS : ∀ i c, (Q.sing i c).length ≤ B) (i c : ℕ) :
    GoodRow Q B i (c, denseRow inp i c) := by
  unfold denseRow
  split_ifs
  · exact good_sing hS
  · exact good_reg hB (by simp; omega) (by simp)

theorem dense_inv (hnq : 0 < inp.nq) (hB : inp.nq ≤ B) (hS : ∀ i c, (Q.sing i c).length ≤ B) :
    ∃ L : ℕ → Multiset Contr, (∀ i, i < inp.nDofs → own i = true → L i = directRow inp i) ∧
      Inv Q inp u B L (denseFl F Q inp own) := by
  -- the ledger after the cells `cs`
  have rows : ∀ (c : ℕ) (is : List ℕ), is.Nodup → ∀ (L : ℕ → Multiset Contr) (M : ℕ → ℕ → ℝ), Inv Q inp u B L M →
      ∃ L', (∀ i, L' i = if i ∈ is ∧ own i = true then L i + (denseRow inp i c : Multiset Contr) else L i) ∧
        Inv Q inp u B L' (is.foldl (fun M i => if own i then addRowFl F Q inp i (c, denseRow inp i c) M else M) M) := by
    intro c is
    induction is with
    | nil => intro _ L M h; exact ⟨L, by simp, h⟩
    | cons a t ih =>
      intro hn L M h
      rw [List.nodup_cons] at hn
      rw [List.foldl_cons]
      by_cases ho : own a = true
      · rw [if_pos ho]
        obtain ⟨L', e1, e2⟩ := ih hn.2 _ _ (inv_row F Q inp (good_dense (i := a) (c := c) hnq hB hS) h)
        refine ⟨L', fun i => ?_, e2⟩
        rw [e1 i]
        by_cases hi : i = a
        · subst hi
          rw [if_neg (by simp [hn.1]), if_pos (by simp [ho])]
          simp [addRow]
        · unfold addRow
          rw [Function.update_of_ne hi]
          simp [hi]
      · rw [if_neg ho]
        obtain ⟨L', e1, e2⟩ := ih hn.2 _ _ h
        refine ⟨L', fun i => ?_, e2⟩
        rw [e1 i]
        by_cases hi : i = a
        · subst hi; simp [ho]
        · simp [hi]
  have cells : ∀ (cs : List ℕ) (L : ℕ → Multiset Contr) (M : ℕ → ℕ → ℝ), Inv Q inp u B L M →
      ∃ L', (∀ i, i < inp.nDofs → own i = true → L' i = L i + (cs.flatMap (denseRow inp i) : List Contr)) ∧
        Inv Q inp u B L' (cs.foldl (fun M c => (List.range inp.nDofs).foldl (fun M i =>
          if own i then addRowFl F Q inp i (c, denseRow inp i c) M else M) M) M) := by
    intro cs
    induction cs with
    | nil => intro L M h; exact ⟨L, by simp, h⟩
    | cons c t ih =>
      intro L M h
      rw [List.foldl_cons]
      obtain ⟨L1, e1, e2⟩ := rows c (List.range inp.nDofs) List.nodup_range L M h
      obtain ⟨L2, f1, f2⟩ := ih L1 _ e2
      refine ⟨L2, fun i hi ho => ?_, f2⟩
      rw [f1 i hi ho, e1 i, if_pos ⟨by simpa using hi, ho⟩, List.flatMap_cons, ← Multiset.coe_add, add_assoc]
  obtain ⟨L, e1, e2⟩ := cells (List.range inp.nCells) (fun _ => 0) (fun _ _ => 0) (by
    intro i k
    simp only [Multiset.map_zero, Multiset.sum_zero]
    exact near_zero.mono F.nonneg (by omega))
  refine ⟨L, fun i hi ho => ?_, e2⟩
  rw [e1 i hi ho, zero_add]
  rfl

/-! ## The theorems -/

/-- Sum of the absolute values of all the terms of the entry `(i,k)` of the dense matrix: singular quadratures for the cells
that have node `i` or a double of it, regular points for the others. -/
def absEntry (Q : FlData) (inp : Input 3) (i k : ℕ) : ℝ :=
  ∑ c ∈ Finset.range inp.nCells, ∑ j ∈ Finset.range (inp.cellDofs c).length, if (inp.cellDofs c).getD j 0 = k then
    (if ∃ j ∈ inp.cellDofs c, j ∈ inp.doubles i then ((Q.sing i c).map fun p => |p.1 * p.2.1 j * p.2.2|).sum
    else ∑ q ∈ Finset.range inp.nq, |Q.kern i (c, q) * Q.shape (c, q) j * Q.jxw (c, q)|) else 0

/-- Number of pairs of a cell and one of its local dofs that is dof `k`. -/
def valence (inp : Input 3) (k : ℕ) : ℕ :=
  ∑ c ∈ Finset.range inp.nCells, ((Finset.range (inp.cellDofs c).length).filter fun j => (inp.cellDofs c).getD j 0 = k).card

theorem sum_locals {A : Type} [AddCommMonoid A] (inp : Input 3) (c k : ℕ) (f : ℕ → A) :
    ((localsOf inp c k).map f).sum = ∑ j ∈ Finset.range (inp.cellDofs c).length, if (inp.cellDofs c).getD j 0 = k then f j else 0 := by
  unfold localsOf
  rw [← sum_range_list]
  generalize List.range (inp.cellDofs c).length = js
  induction js with
  | nil => rfl
  | cons a t ih =>
    by_cases h : (inp.cellDofs c).getD a 0 = k
    · rw [List.filter_cons_of_pos (by simpa using h), List.map_cons, List.sum_cons, ih, List.map_cons, List.sum_cons, if_pos h]
    · rw [List.filter_cons_of_neg (by simpa using h), ih, List.map_cons, List.sum_cons, if_neg h, zero_add]

theorem spec_sum {A : Type} [AddCommMonoid A] (inp : Input 3) (i : ℕ) (g : Contr → A) :
    ((specRow inp i).map g).sum = ∑ c ∈ Finset.range inp.nCells,
      if ∃ j ∈ inp.cellDofs c, j ∈ inp.doubles i then g (.sing c) else ∑ q ∈ Finset.range inp.nq, g (.reg c q) := by
  unfold specRow
  let F : Multiset Contr →+ A :=
    { toFun := fun m => (m.map g).sum
      map_zero' := by simp
      map_add' := fun a b => by simp }
  show F (∑ c ∈ Finset.range inp.nCells, _) = _
  rw [map_sum]
  refine Finset.sum_congr rfl fun c _ => ?_
  split_ifs
  · show (Multiset.map g {Contr.sing c}).sum = _
    simp
  · rw [map_sum]
    refine Finset.sum_congr rfl fun q _ => ?_
    show (Multiset.map g {Contr.reg c q}).sum = _
    simp

theorem spec_abs (Q : FlData) (inp : Input 3) (i k : ℕ) :
    ((specRow inp i).map (entryOf Q inp (fun x => |x|) i k)).sum = absEntry Q inp i k := by
  rw [spec_sum]
  unfold absEntry
  refine Finset.sum_congr rfl fun c _ => ?_
  split_ifs with h
  · unfold entryOf
    simp only [Contr.cellOf]
    rw [sum_locals]
    refine Finset.sum_congr rfl fun j _ => ?_
    split_ifs
    · simp only [terms, List.map_map, Function.comp_def]
    · rfl
  · unfold entryOf
    simp only [Contr.cellOf, sum_locals]
    rw [Finset.sum_comm]
    refine Finset.sum_congr rfl fun j _ => ?_
    split_ifs
    · simp only [terms, List.map_cons, List.map_nil, List.sum_cons, List.sum_nil, add_zero]
    · simp

theorem spec_cnt (hnq : 0 < inp.nq) (i k : ℕ) : ((specRow inp i).map (cnt inp k)).sum ≤ inp.nq * valence inp k := by
  rw [spec_sum]
  unfold valence
  rw [Finset.mul_sum]
  refine Finset.sum_le_sum fun c _ => ?_
  have hc : (localsOf inp c k).length = ((Finset.range (inp.cellDofs c).length).filter fun j => (inp.cellDofs c).getD j 0 = k).card := by
    have := sum_locals inp c k (fun _ => (1 : ℕ))
    rw [List.map_const', List.sum_replicate, Finset.sum_ite, Finset.sum_const_zero, Finset.sum_const] at this
    simpa using this
  split_ifs
  · simp only [cnt, Contr.cellOf]
    rw [hc]
    exact Nat.le_mul_of_pos_left _ hnq
  · simp only [cnt, Contr.cellOf]
    rw [hc]
    simp

/-- Part of the contributions of the whole row. -/
theorem inv_near {L : ℕ → Multiset Contr} {M : ℕ → ℕ → ℝ} (hnq : 0 < inp.nq) (h : Inv Q inp u B L M) (hu : 0 ≤ u) {i : ℕ}
    (hle : L i ≤ specRow inp i) (k : ℕ) :
    Near u (B + 2 + inp.nq * valence inp k) ((L i).map (entryOf Q inp (fun x => x) i k)).sum (absEntry Q inp i k) (M i k) := by
  obtain ⟨R, hR⟩ := Multiset.le_iff_exists_add.1 hle
  have hpos : 0 ≤ (R.map (entryOf Q inp (fun x => |x|) i k)).sum := by
    refine Multiset.sum_nonneg fun x hx => ?_
    obtain ⟨y, _, rfl⟩ := Multiset.mem_map.1 hx
    unfold entryOf
    refine List.sum_nonneg fun z hz => ?_
    obtain ⟨j, _, rfl⟩ := List.mem_map.1 hz
    refine List.sum_nonneg fun z hz => ?_
    obtain ⟨t, _, rfl⟩ := List.mem_map.1 hz
    exact abs_nonneg _
  have hA : ((L i).map (entryOf Q inp (fun x => |x|) i k)).sum ≤ absEntry Q inp i k := by
    rw [← spec_abs, hR, Multiset.map_add, Multiset.sum_add]
    linarith
  have hn : ((L i).map (cnt inp k)).sum ≤ inp.nq * valence inp k := by
    refine le_trans ?_ (spec_cnt hnq i k)
    rw [hR, Multiset.map_add, Multiset.sum_add]
    exact Nat.le_add_right _ _
  have h1 := (h i k).mono hu (Nat.add_le_add_left hn (B + 2))
  refine ⟨le_trans h1.1 hA, le_trans h1.2 (mul_le_mul_of_nonneg_left hA ?_)⟩
  have := one_le_pow' hu (B + 2 + inp.nq * valence inp k)
  linarith

theorem direct_le_spec (hlev : 1 ≤ inp.levels) (hnq : 0 < inp.nq) (hself : ∀ i, i < inp.nDofs → i ∈ inp.doubles i) {i : ℕ}
    (hi : i < inp.nDofs) (ho : own i = true) : directResult inp (build inp) own i ≤ specRow inp i := by
  obtain ⟨out, hx⟩ := C06_executions_exist inp own
  have h := C06_every_interaction_once inp hlev hnq hself own out hx i hi ho
  obtain ⟨M, E, mult, s, order, hM, -, -, -, -, rfl⟩ := hx
  rw [← h, ← directExec_eq (build_tree (Or.inr rfl) inp) hM]
  exact Multiset.le_add_right _ _

/-- The same contributions whatever the process that owns the row. -/
theorem direct_own {own own' : ℕ → Bool} {i : ℕ} (h : own i = own' i) :
    directResult inp T own i = directResult inp T own' i := by
  have e1 : ∀ b, leafEff inp T own b i = leafEff inp T own' b i := fun b => by unfold leafEff; rw [h]
  have e2 : ∀ l b, bigEff inp T own l b i = bigEff inp T own' l b i := fun l b => by unfold bigEff; rw [h]
  have es : ∀ (l : List ℕ) (f g : ℕ → ℕ → Multiset Contr), (∀ b, f b i = g b i) → (l.map f).sum i = (l.map g).sum i := by
    intro l f g hfg
    induction l with
    | nil => rfl
    | cons a t ih => rw [List.map_cons, List.sum_cons, List.map_cons, List.sum_cons, Pi.add_apply, Pi.add_apply, ih, hfg]
  unfold directResult
  rw [Pi.add_apply, Pi.add_apply, es _ _ _ e1]
  congr 1
  exact es _ _ _ fun l => es _ _ _ (e2 l)

/-- **C100** (near field). Any execution of the assembly of a near field matrix, with any number of threads, any order of the
blocks and any distribution of the rows, gives in the owned rows the exact entries up to
`((1 + u) ^ n - 1)` times the sum of the absolute values of the terms of the entry of the dense matrix, where `n` is the number of points of a quadrature rule,
plus 2, plus the number of quadrature points of the cells around the dof of the column. The exact entries are those of any
execution without rounding. -/
theorem C100_near_field (hlev : 1 ≤ inp.levels) (hnq : 0 < inp.nq) (hself : ∀ i, i < inp.nDofs → i ∈ inp.doubles i)
    (hB : inp.nq ≤ B) (hS : ∀ i c, (Q.sing i c).length ≤ B) (own own' : ℕ → Bool) (M M' : ℕ → ℕ → ℝ)
    (h : NearFlExec F Q inp (build inp) own M) (h' : NearFlExec Fl.exact Q inp (build inp) own' M') (i k : ℕ)
    (hi : i < inp.nDofs) (ho : own i = true) (ho' : own' i = true) :
    |M i k - M' i k| ≤ ((1 + u) ^ (B + 2 + inp.nq * valence inp k) - 1) * absEntry Q inp i k := by
  have t := build_tree (Or.inr rfl) inp
  have a := inv_near hnq (near_inv F t hB hS h) F.nonneg (direct_le_spec hlev hnq hself hi ho) k
  have b := inv_near hnq (near_inv Fl.exact t hB hS h') le_rfl (direct_le_spec hlev hnq hself hi ho') k
  rw [direct_own (ho'.trans ho.symm)] at b
  have e : M' i k = ((directResult inp (build inp) own i).map (entryOf Q inp (fun x => x) i k)).sum := by
    have := b.2
    rw [add_zero, one_pow, sub_self, zero_mul] at this
    exact sub_eq_zero.1 (abs_eq_zero.1 (le_antisymm this (abs_nonneg _)))
  rw [e]
  exact a.2

/-- **C100** (reproducibility). Two runs, with different schedules, numbers of threads, distributions of the rows, roundings. -/
theorem C100_two_runs (F F' : Fl u) (hlev : 1 ≤ inp.levels) (hnq : 0 < inp.nq)
    (hself : ∀ i, i < inp.nDofs → i ∈ inp.doubles i) (hB : inp.nq ≤ B) (hS : ∀ i c, (Q.sing i c).length ≤ B)
    (own own' : ℕ → Bool) (M M' : ℕ → ℕ → ℝ) (h : NearFlExec F Q inp (build inp) own M)
    (h' : NearFlExec F' Q inp (build inp) own' M') (i k : ℕ) (hi : i < inp.nDofs) (ho : own i = true) (ho' : own' i = true) :
    |M i k - M' i k| ≤ 2 * ((1 + u) ^ (B + 2 + inp.nq * valence inp k) - 1) * absEntry Q inp i k := by
  have t := build_tree (Or.inr rfl) inp
  have a := inv_near hnq (near_inv F t hB hS h) F.nonneg (direct_le_spec hlev hnq hself hi ho) k
  have b := inv_near hnq (near_inv F' t hB hS h') F.nonneg (direct_le_spec hlev hnq hself hi ho') k
  rw [direct_own (ho'.trans ho.symm)] at b
  have := a.compare b
  linarith

/-- **C100** (executions exist). -/
theorem C100_exists (F : Fl u) (Q : FlData) (inp : Input 3) (own : ℕ → Bool) :
    ∃ M, NearFlExec F Q inp (build inp) own M := by
  obtain ⟨M, hM⟩ := levels_exists (R := fun l => Exec (fun b _ => workerBig inp (build inp) own l b fun _ => 0)
    (copierWith (addRowFl F Q inp)) DBuf.empty ((build inp).dofsFilled l)) (fun l s => ⟨_, exec_seq _ _⟩)
    (List.range' 1 inp.levels) _
  exact ⟨M, _, exec_seq _ _, hM⟩

/-- **C100** (dense matrices). The same for the dense assembly; the exact entries are the sums of the terms. -/
theorem C100_dense (hnq : 0 < inp.nq) (hB : inp.nq ≤ B) (hS : ∀ i c, (Q.sing i c).length ≤ B) (own : ℕ → Bool) (i k : ℕ)
    (hi : i < inp.nDofs) (ho : own i = true) :
    |denseFl F Q inp own i k - ∑ c ∈ Finset.range inp.nCells, ∑ j ∈ Finset.range (inp.cellDofs c).length,
      (if (inp.cellDofs c).getD j 0 = k then
        (if ∃ j ∈ inp.cellDofs c, j ∈ inp.doubles i then ((Q.sing i c).map fun p => p.1 * p.2.1 j * p.2.2).sum
        else ∑ q ∈ Finset.range inp.nq, Q.kern i (c, q) * Q.shape (c, q) j * Q.jxw (c, q)) else 0)| ≤
      ((1 + u) ^ (B + 2 + inp.nq * valence inp k) - 1) * absEntry Q inp i k := by
  obtain ⟨L, hL, h⟩ := dense_inv F (own := own) hnq hB hS
  have e := (hL i hi ho).trans (specRow_eq inp i)
  have a := inv_near hnq h F.nonneg (le_of_eq e) k
  rw [e, spec_sum] at a
  refine le_trans (le_of_eq ?_) a.2
  congr 2
  refine Finset.sum_congr rfl fun c _ => ?_
  split_ifs with h
  · unfold entryOf
    simp only [Contr.cellOf]
    rw [sum_locals]
    refine Finset.sum_congr rfl fun j _ => ?_
    split_ifs
    · simp only [terms, List.map_map, Function.comp_def]
    · rfl
  · unfold entryOf
    simp only [Contr.cellOf, sum_locals]
    rw [Finset.sum_comm]
    refine Finset.sum_congr rfl fun j _ => ?_
    split_ifs
    · simp only [terms, List.map_cons, List.map_nil, List.sum_cons, List.sum_nil, add_zero]
    · simp

/-! ## Products -/

theorem prod_near (cols : List ℕ) (M : ℕ → ℕ → ℝ) (v : ℕ → ℝ) (i : ℕ) :
    Near u (1 + cols.length) (cols.map fun k => M i k * v k).sum (cols.map fun k => |M i k * v k|).sum (prodFl F cols M v i) := by
  have h := near_loop F cols (fun k => M i k * v k) (fun k => |M i k * v k|) (fun k => F.fl (M i k * v k)) (m := 1) (n := 1)
    (x := 0) (A := 0) (y := 0) le_rfl (fun k _ => by
      have := (near_self (u := u) (M i k)).mul F (near_self (v k))
      rw [abs_mul]; exact this) (near_zero.mono F.nonneg (by omega))
  rw [zero_add, zero_add] at h
  exact h

theorem sum_cols {cols : List ℕ} {n : ℕ} (hc : cols.Perm (List.range n)) (f : ℕ → ℝ) :
    (cols.map f).sum = ∑ k ∈ Finset.range n, f k := by
  rw [(hc.map f).sum_eq, sum_range_list]

/-- **C100** (products). Entry `i` of the computed operator for the potential `phi` and the normal derivative `dphi`, the
columns of each product being taken in any order. -/
theorem C100_product (colsN colsD : List ℕ) (n : ℕ) (hN : colsN.Perm (List.range n)) (hD : colsD.Perm (List.range n))
    (N D : ℕ → ℕ → ℝ) (alpha phi dphi : ℕ → ℝ) (i : ℕ) :
    |vmultFl F colsN colsD N D alpha phi dphi i -
      (alpha i * phi i + ∑ k ∈ Finset.range n, N i k * phi k - ∑ k ∈ Finset.range n, D i k * dphi k)| ≤
    ((1 + u) ^ (n + 4) - 1) * (|alpha i * phi i| + ∑ k ∈ Finset.range n, |N i k * phi k| +
      ∑ k ∈ Finset.range n, |D i k * dphi k|) := by
  have hlN : colsN.length = n := by rw [hN.length_eq, List.length_range]
  have hlD : colsD.length = n := by rw [hD.length_eq, List.length_range]
  have a1 := (prod_near F colsD D dphi i).mul F (near_self (-1))
  have a2 := (a1.add F ((prod_near F colsN N phi i).mono F.nonneg (by omega))).add F
    (((near_self (u := u) (phi i)).mul F (near_self (alpha i))).mono F.nonneg (by omega))
  rw [sum_cols hN, sum_cols hD, sum_cols hN, sum_cols hD, hlD] at a2
  have := a2.2
  rw [abs_neg, abs_one, mul_one, ← abs_mul] at this
  unfold vmultFl
  refine le_trans (le_of_eq ?_) (le_trans this (le_of_eq ?_))
  · congr 1
    ring
  · rw [show 1 + n + 0 + 1 + 1 + 1 = n + 4 by omega, mul_comm (phi i)]
    ring

/-- **C100** (constants). With the free coefficients computed from the same matrix, a constant potential with zero normal
derivative is annihilated up to rounding: a bound with the absolute values of the entries of the row. -/
theorem C100_constants (cols colsN colsD : List ℕ) (n : ℕ) (hc : cols.Perm (List.range n)) (hN : colsN.Perm (List.range n))
    (hD : colsD.Perm (List.range n)) (N D : ℕ → ℕ → ℝ) (a : ℝ) (i : ℕ) :
    |vmultFl F colsN colsD N D (alphaFl F cols N) (fun _ => a) (fun _ => 0) i| ≤
      2 * ((1 + u) ^ (2 * n + 5) - 1) * |a| * ∑ k ∈ Finset.range n, |N i k| := by
  have hlN : colsN.length = n := by rw [hN.length_eq, List.length_range]
  have hlD : colsD.length = n := by rw [hD.length_eq, List.length_range]
  have hlc : cols.length = n := by rw [hc.length_eq, List.length_range]
  have al := prod_near F cols N (fun _ => -1) i
  have a1 := (prod_near F colsD D (fun _ => 0) i).mul F (near_self (-1))
  have a2 := (a1.add F ((prod_near F colsN N (fun _ => a) i).mono F.nonneg (by omega))).mono
    (m := 2 * n + 4) F.nonneg (by omega)
  have a3 := a2.add F (((near_self (u := u) a).mul F al).mono (m := 2 * n + 4) F.nonneg (by omega))
  have := a3.2
  rw [sum_cols hN, sum_cols hN, sum_cols hc, sum_cols hc, sum_cols hD, sum_cols hD] at this
  unfold vmultFl alphaFl
  refine le_trans (le_of_eq ?_) (le_trans this (le_of_eq ?_))
  · congr 1
    simp only [mul_zero, Finset.sum_const_zero, mul_neg, mul_one, Finset.sum_neg_distrib, ← Finset.sum_mul]
    ring
  · simp only [mul_zero, abs_zero, Finset.sum_const_zero, abs_mul, abs_neg, abs_one, mul_one, zero_add, ← Finset.sum_mul]
    ring

/-! ## A concrete case -/

/-- A rounding that is wrong by one part in a thousand. -/
def flSample : Fl (1 / 1000) := ⟨fun x => x * (1 + 1 / 1000), fun x => by
  rw [show x * (1 + 1 / 1000) - x = 1 / 1000 * x by ring, abs_mul, abs_of_pos (by norm_num)]⟩

/-- Data of the cube with 8 subdivided blocks: all kernel values are 1, singular quadratures have 4 points. -/
def flCube : FlData := ⟨fun _ _ => 1, fun _ _ => 1 / 4, fun _ => 1, fun _ _ => List.replicate 4 (1, fun _ => 1 / 4, 1)⟩

/-- The hypotheses are met; every dof of the cube belongs to 3 cells. -/
theorem C100_example (own : ℕ → Bool) (ho : own 2 = true) :
    ∃ M, NearFlExec flSample flCube (cubeInput 3 0) (build (cubeInput 3 0)) own M ∧
      ∀ M', NearFlExec Fl.exact flCube (cubeInput 3 0) (build (cubeInput 3 0)) own M' →
        ∀ k, |M 2 k - M' 2 k| ≤ ((1 + 1 / 1000) ^ (4 + 2 + (cubeInput 3 0).nq * valence (cubeInput 3 0) k) - 1) *
          absEntry flCube (cubeInput 3 0) 2 k := by
  obtain ⟨M, hM⟩ := C100_exists flSample flCube (cubeInput 3 0) own
  exact ⟨M, hM, fun M' h' k => C100_near_field flSample (by decide) (by decide) (by simp [cubeInput]) (by decide)
    (by simp [flCube]) own own M M' hM h' 2 k (by decide) ho ho⟩

end PiBem.Fmm
