import Verif.Fmm.NumericDown

/-! The downward pass with numbers: simulation by the abstract one, with the error (helper lemmas). -/

noncomputable section

namespace PiBem.Fmm

open PiBem.Octree PiBem.WorkStream PiBem.Expansion
open PiBem.Harmonic (rho_nonneg rho_sq rho_neg rho_eq_zero)

variable {inp : Input 3} {D : Data} {ker : Ker} {T : St 3}

/-- `x` is the sum of the contributions of the points `A` to node `i`, up to their bounds -/
def Near (inp : Input 3) (D : Data) (ker : Ker) (i : ℕ) (x : ℝ) (A : Multiset (ℕ × ℕ)) : Prop :=
  |(A.map (kv inp D ker i)).sum - x| ≤ (A.map (bnd inp D ker)).sum

theorem Near.zero (i : ℕ) : Near inp D ker i 0 0 := by simp [Near]

theorem Near.add {i : ℕ} {x y : ℝ} {A B : Multiset (ℕ × ℕ)} (h : Near inp D ker i x A) (h' : Near inp D ker i y B) :
    Near inp D ker i (x + y) (A + B) := by
  unfold Near at *
  rw [Multiset.map_add, Multiset.sum_add, Multiset.map_add, Multiset.sum_add,
    show ∀ a b c d : ℝ, a + b - (c + d) = a - c + (b - d) by intros; ring]
  exact (abs_add_le _ _).trans (add_le_add h h')

theorem Near.sum {ι : Type} {i : ℕ} (S : Finset ι) (f : ι → ℝ) (g : ι → Multiset (ℕ × ℕ))
    (h : ∀ b ∈ S, Near inp D ker i (f b) (g b)) : Near inp D ker i (∑ b ∈ S, f b) (∑ b ∈ S, g b) := by
  classical
  induction S using Finset.induction_on with
  | empty => simpa using Near.zero i
  | insert a S ha ih =>
    rw [Finset.sum_insert ha, Finset.sum_insert ha]
    exact (h a (by simp)).add (ih fun b hb => h b (by simp [hb]))

theorem mem_zip_self {α : Type} (l : List α) {i j : α} (h : (i, j) ∈ l.zip l) : i = j ∧ i ∈ l := by
  induction l with
  | nil => simp at h
  | cons a l ih =>
    rw [List.zip_cons_cons, List.mem_cons] at h
    rcases h with h | h
    · rw [Prod.mk.injEq] at h
      exact ⟨h.1.trans h.2.symm, by simp [h.1]⟩
    · have := ih h
      exact ⟨this.1, by simp [this.2]⟩

/-- state relation of the descending phase -/
def DRel (inp : Input 3) (D : Data) (ker : Ker) (T : St 3) (base : ℕ → ℝ) (s : NDSt) (s' : DSt) : Prop :=
  (∀ b, LocRel inp D ker T b (s.loc b) (s'.loc b)) ∧ ∀ i, Near inp D ker i (s.prod i - base i) (s'.prod i)

/-- relation of the filled copy data -/
def DBRel (inp : Input 3) (D : Data) (ker : Ker) (T : St 3) (b : NDescBuf) (b' : DescBuf) : Prop :=
  b.blockId = b'.blockId ∧ b.nodes = b'.nodes ∧ LocRel inp D ker T b'.blockId b.expn b'.expn ∧
    List.Forall₂ (fun x y => x.1 = y.1 ∧ Near inp D ker x.1 x.2 y.2) (b.nodes.zip b.contr) (b'.nodes.zip b'.contr)

theorem mem_parent_nodes (t : Octree.Tree inp T) {k : ℕ} (h0 : 0 < k) (hk : k < T.count) {i : ℕ}
    (hi : i ∈ (T.blocks k).nodes) : i ∈ (T.blocks (T.blocks k).parent).nodes := by
  have hp := t.links.par k h0 hk
  exact t.mem_parent_of_child (by omega) hp.2 (x := .inl i) hi

theorem m2l_lt (t : Octree.Tree inp T) (hlev : 1 ≤ inp.levels) {k s b : ℕ} (hk : k < T.count)
    (hb : b ∈ nonIntList inp T k s) : b < T.count := by
  have h1 : 2 ≤ (T.blocks k).level ∧ s < numSub inp T k := by
    by_contra hh
    unfold nonIntList at hb
    rw [if_neg hh] at hb
    simp at hb
  exact (t.nonInt_level (Or.inr rfl) hlev hk h1.1 h1.2 hb).2.1

variable (hlev : 1 ≤ inp.levels) (hroot : InRoot inp) (hn : ∀ q, rho (D.normal q) = 1)
    (hs0 : 0 < side inp) (hp : D.p ≤ 10) (hfar : Far (build inp))
    {mult : ℕ → Exp} {mult' : ℕ → Multiset (ℕ × ℕ)} (hm : MultRel inp D ker (build inp) mult mult')
    (hm' : ∀ b, b < (build inp).count → mult' b = (((build inp).blocks b).qps : Multiset (ℕ × ℕ)))

include hlev hroot hn hs0 hp hm hm'

theorem fold_m2l {k : ℕ} (hk : k < (build inp).count) (sub : ℕ) (l : List ℕ)
    (hl : ∀ b ∈ l, b ∈ m2lSet inp (build inp) k sub) {e : Exp} {A : Multiset (ℕ × ℕ)}
    (h : LocRel inp D ker (build inp) k e A) :
    LocRel inp D ker (build inp) k (l.foldl (fun e b => lAddMultipole codeTable e (mult b)) e) (A + (l.map mult').sum) := by
  induction l generalizing e A with
  | nil => simpa using h
  | cons b l ih =>
    have hb := hl b (by simp)
    have hbc : b < (build inp).count :=
      m2l_lt (build_tree (Or.inr rfl) inp) hlev hk (Finset.mem_filter.1 hb).1
    have hmb := hm b
    rw [hm' b hbc] at hmb
    have := ih (fun b hb => hl b (by simp [hb])) (h.addMultipole hlev hroot hn hs0 hp hk hb hbc hmb)
    rw [List.map_cons, List.sum_cons, ← add_assoc, hm' b hbc]
    exact this

theorem fold_subs {k : ℕ} (hk : k < (build inp).count) (l : List ℕ) {e : Exp} {A : Multiset (ℕ × ℕ)}
    (h : LocRel inp D ker (build inp) k e A) :
    LocRel inp D ker (build inp) k (l.foldl (fun e sub =>
      ((m2lSet inp (build inp) k sub).sort (· ≤ ·)).foldl (fun e b => lAddMultipole codeTable e (mult b)) e) e)
      (A + (l.map fun sub => gather mult' (m2lSet inp (build inp) k sub)).sum) := by
  induction l generalizing e A with
  | nil => simpa using h
  | cons sub l ih =>
    rw [List.map_cons, List.sum_cons, ← add_assoc]
    refine ih ?_
    have := fold_m2l hlev hroot hn hs0 hp hm hm' hk sub ((m2lSet inp (build inp) k sub).sort (· ≤ ·))
      (fun b hb => (Finset.mem_sort _).1 hb) h
    have e : (((m2lSet inp (build inp) k sub).sort (· ≤ ·)).map mult').sum = gather mult' (m2lSet inp (build inp) k sub) := by
      unfold gather
      rw [← Finset.sum_map_toList]
      exact ((Finset.sort_perm_toList _ _).map _).sum_eq
    rw [e] at this
    exact this

include hfar

theorem descendExec_sim (own : ℕ → Bool) (base : ℕ → ℝ) {s : NDSt} (hx : NDescendExec inp D (build inp) own mult base s) :
    ∃ s', DescendExec inp (build inp) own mult' s' ∧ DRel inp D ker (build inp) base s s' := by
  have t : Octree.Tree inp (build inp) := build_tree (Or.inr rfl) inp
  refine levels_sim (R' := fun l => Exec (workerDescend inp (build inp) own mult') copierDescend ⟨0, 0, [], []⟩
    ((build inp).dofsFilled l)) (DRel inp D ker (build inp) base) (List.range' 1 inp.levels) ?_ hx
    ⟨fun b => LocRel.new b, fun i => by simpa using Near.zero i⟩
  intro l hl s s1 s' hx hs
  rw [List.mem_range'_1] at hl
  refine exec_sim (DRel inp D ker (build inp) base) (fun _ _ => True) (DBRel inp D ker (build inp)) trivial
    (fun _ _ _ => trivial) ?_ ?_ hx hs
  · intro k hk s s' _ _ hs _
    rw [t.dfil] at hk
    obtain ⟨hk0, hkc, hkl, _⟩ := hk
    refine ⟨rfl, rfl, ?_, ?_⟩
    · unfold nWorkerDescend workerDescend
      simp only
      have hnew : LocRel inp D ker (build inp) k (Exp.new D.p (s.loc k).center) 0 := by
        rw [(hs.1 k).center]; exact LocRel.new k
      split_ifs with ho
      · have hpar := hs.1 ((build inp).blocks k).parent
        have h1 := hnew.addParent (by omega : D.p ≤ 20) hpar.zero hpar.p (Or.inl (by
          rw [hpar.center, hnew.center, rho_sub_comm]
          exact hfar k hk0 hkc)) (fun i hi => hpar.err i (mem_parent_nodes t hk0 hkc hi))
        have h2 := fold_subs hlev hroot hn hs0 hp hm hm' hkc (List.range (numSub inp (build inp) k)) h1
        rw [sum_range_list] at h2
        exact h2
      · exact hnew
    · unfold nWorkerDescend workerDescend
      simp only
      rw [List.zip_map_right, List.zip_map_right, List.forall₂_map_left_iff, List.forall₂_map_right_iff, List.forall₂_same]
      rintro ⟨i, j⟩ hij
      have hij' : i = j ∧ i ∈ ((build inp).blocks k).nodes := by
        exact mem_zip_self _ hij
      obtain ⟨rfl, hi⟩ := hij'
      refine ⟨rfl, ?_⟩
      simp only [Prod.map_apply, id_eq]
      split_ifs with ho
      · refine Near.sum _ _ _ fun sub _ => ?_
        refine Near.sum _ _ _ fun b hb => ?_
        have hbc : b < (build inp).count := m2l_lt t hlev hkc (Finset.mem_filter.1 hb).1
        have hmb := hm b
        rw [hm' b hbc] at hmb ⊢
        exact mEval_error hlev hroot hn hs0 (by omega) hkc hb hbc hmb hi
      · exact Near.zero i
  · rintro ⟨k, e, nodes, contr⟩ ⟨k', A, nodes', contr'⟩ s s' ⟨h1, h2, h3, h4⟩ hs
    simp only at h1 h2 h3 h4
    subst h1 h2
    refine ⟨?_, ?_⟩
    · intro b
      unfold nCopierDescend copierDescend
      simp only
      by_cases hb : b = k
      · subst hb
        rw [Function.update_self, Function.update_self]
        refine (hs.1 b).addParent (by omega : D.p ≤ 20) h3.zero h3.p (Or.inr ?_) h3.err
        rw [h3.center, (hs.1 b).center]
      · rw [Function.update_of_ne hb, Function.update_of_ne hb]
        exact hs.1 b
    · unfold nCopierDescend copierDescend
      simp only
      have key : ∀ (l : List (ℕ × ℝ)) (l' : List (ℕ × Multiset (ℕ × ℕ))),
          List.Forall₂ (fun x y => x.1 = y.1 ∧ Near inp D ker x.1 x.2 y.2) l l' →
          ∀ (p : ℕ → ℝ) (p' : ℕ → Multiset (ℕ × ℕ)), (∀ i, Near inp D ker i (p i - base i) (p' i)) →
          ∀ i, Near inp D ker i
            (l.foldl (fun p x => Function.update p x.1 (p x.1 + x.2)) p i - base i)
            (l'.foldl (fun p x => Function.update p x.1 (p x.1 + x.2)) p' i) := by
        intro l l' h
        induction h with
        | nil => intro p p' h; exact h
        | @cons x y l l' hxy _ ih =>
          intro p p' hp
          refine ih _ _ ?_
          obtain ⟨i0, x⟩ := x
          obtain ⟨i1, y⟩ := y
          obtain ⟨h1, h2⟩ := hxy
          simp only at h1 h2
          subst h1
          intro i
          beta_reduce
          simp only
          by_cases hi : i = i0
          · subst hi
            rw [Function.update_self, Function.update_self, add_sub_right_comm]
            exact (hp i).add h2
          · rw [Function.update_of_ne hi, Function.update_of_ne hi]
            exact hp i
      exact key _ _ h4 _ _ hs.2

omit hlev hroot hn hs0 hp hfar hm hm'

theorem evalLeaves_sim (own : ℕ → Bool) (base : ℕ → ℝ) {loc : ℕ → Exp} {loc' : ℕ → Multiset (ℕ × ℕ)}
    (hloc : ∀ b, LocRel inp D ker T b (loc b) (loc' b)) (order : List ℕ) :
    ∀ (p : ℕ → ℝ) (p' : ℕ → Multiset (ℕ × ℕ)), (∀ i, Near inp D ker i (p i - base i) (p' i)) →
      ∀ i, Near inp D ker i (order.foldl (fun p b => nEvalLeaf inp T own loc b p) p i - base i)
        (order.foldl (fun p b => evalLeaf T own loc' b p) p' i) := by
  induction order with
  | nil => intro p p' h; exact h
  | cons b order ih =>
    intro p p' hp
    refine ih _ _ ?_
    unfold nEvalLeaf evalLeaf
    have key : ∀ (l : List ℕ), (∀ i ∈ l, i ∈ (T.blocks b).nodes) → ∀ (p : ℕ → ℝ) (p' : ℕ → Multiset (ℕ × ℕ)),
        (∀ i, Near inp D ker i (p i - base i) (p' i)) → ∀ i, Near inp D ker i
        (l.foldl (fun p i => if own i then Function.update p i (p i + lEval codeTable (loc b) (toV (inp.pos i))) else p) p i
          - base i)
        (l.foldl (fun p i => if own i then Function.update p i (p i + loc' b) else p) p' i) := by
      intro l
      induction l with
      | nil => intro _ p p' h; exact h
      | cons j l ih2 =>
        intro hl p p' hp
        refine ih2 (fun i hi => hl i (by simp [hi])) _ _ ?_
        intro i
        beta_reduce
        split_ifs with ho
        · by_cases hi : i = j
          · subst hi
            rw [Function.update_self, Function.update_self, add_sub_right_comm]
            exact (hp i).add ((hloc b).err i (hl i (by simp)))
          · rw [Function.update_of_ne hi, Function.update_of_ne hi]
            exact hp i
        · exact hp i
    exact key _ (fun _ h => h) _ _ hp

theorem far_of_side (h : (12 / 10 : ℝ) * 1e-7 ≤ side inp) : Far (build inp) := by
  have t : Octree.Tree inp (build inp) := build_tree (Or.inr rfl) inp
  intro b hb0 hbc
  set T := build inp with hT
  have hpar := t.links.par b hb0 hbc
  have hk := t.links.kid b hb0 hbc
  have hδ : (T.blocks (T.blocks b).parent).delta = 2 * (T.blocks b).delta := by
    rw [t.delta_eq (by omega), t.delta_eq hbc, hk.level]
    exact Tree.sideAt_succ _
  have hax : ∀ a, (centre (T.blocks b) a - centre (T.blocks (T.blocks b).parent) a) ^ 2 = (T.blocks b).delta ^ 2 / 4 := by
    intro a
    unfold centre
    have hd : (T.blocks b).delta = sideAt inp ((T.blocks (T.blocks b).parent).level + 1) := by rw [hk.delta]; rfl
    rw [hk.pMin, hδ, hd]
    simp only [kidOf, mkChild, childPMin]
    split_ifs <;> ring
  have hd2 : dist2 (centre (T.blocks b)) (centre (T.blocks (T.blocks b).parent)) = 3 / 4 * (T.blocks b).delta ^ 2 := by
    unfold dist2
    rw [Fin.sum_univ_three, hax, hax, hax]; ring
  have h1 := rho_toV (centre (T.blocks b)) (centre (T.blocks (T.blocks b).parent))
  rw [hd2] at h1
  push_cast at h1
  have h2 := side_le t hbc
  have h3 := rho_nonneg (toV (centre (T.blocks b)) - toV (centre (T.blocks (T.blocks b).parent)))
  show (1e-7 : ℝ) < rho (toV (centre (T.blocks b)) - toV (centre (T.blocks (T.blocks b).parent)))
  have h4 : (12 / 10 : ℝ) * 1e-7 ≤ (((T.blocks b).delta : ℚ) : ℝ) := h.trans h2
  by_contra hc
  push Not at hc
  have h5 := pow_le_pow_left₀ h3 hc 2
  rw [h1] at h5
  have h6 := pow_le_pow_left₀ (by norm_num) h4 2
  norm_num at h5 h6
  linarith

end PiBem.Fmm
