import Verif.Fmm.LinearOps
import Verif.Fmm.NumericDesc

/-! The runs on the coefficients of the expansions: closed form of their results (helper lemmas). -/

noncomputable section

namespace PiBem.Fmm

open PiBem.Octree PiBem.WorkStream PiBem.Expansion

theorem sum_lin {ι V W : Type} [AddCommGroup V] [Module ℝ V] [AddCommGroup W] [Module ℝ W] (l : List ι)
    (f : ι → V →ₗ[ℝ] W) (x : V) : (l.map f).sum x = (l.map fun c => f c x).sum := by
  induction l with
  | nil => simp
  | cons a l ih => simp [ih]

variable (inp : Input 3) (p : ℕ) (T : St 3)

/-! ## Ascending phase -/

/-- buffer of the ascending phase -/
structure LABuf where
  parentId : ℕ
  expn : Cf

def lWorkerAscend (b : ℕ) (m : ℕ → Cf) (_ : LABuf) : LABuf :=
  ⟨(T.blocks b).parent, tM p (ctr T b) (ctr T (T.blocks b).parent) (m b)⟩

def lCopierAscend (buf : LABuf) (m : ℕ → Cf) : ℕ → Cf :=
  Function.update m buf.parentId (m buf.parentId + trunc p buf.expn)

/-- what a block gives to its parent -/
def up (b : ℕ) : Cf →ₗ[ℝ] Cf := (trunc p).comp (tM p (ctr T b) (ctr T (T.blocks b).parent))

/-- children found by the loop on a level -/
def kids (b : ℕ) : List ℕ := (T.levelIds ((T.blocks b).level + 1)).filter fun c => decide ((T.blocks c).parent = b)

def multAt : ℕ → ℕ → ((ℕ → Cf) →ₗ[ℝ] Cf)
  | 0, b => LinearMap.proj b
  | n + 1, b => LinearMap.proj b + ((kids T b).map fun c => (up p T c).comp (multAt n c)).sum

/-- the final expansion of a block as a function of the ones of the leaves -/
def multFn (b : ℕ) : (ℕ → Cf) →ₗ[ℝ] Cf :=
  if b < T.count then multAt p T (inp.levels - (T.blocks b).level) b else LinearMap.proj b

variable {inp p T}

theorem lAscend_level (t : Octree.Tree inp T) {l : ℕ} (hl : 1 ≤ l) (hl' : l ≤ inp.levels) {m m' : ℕ → Cf} {s0 : LABuf}
    (h : Exec (lWorkerAscend p T) (lCopierAscend p) s0 (T.levelIds l) m m') :
    m' = m + ((T.levelIds l).map fun b => at1 (T.blocks b).parent (up p T b (m b))).sum := by
  have hmem := fun b => t.mem_levelIds hl' b
  have hpar : ∀ b ∈ T.levelIds l, ∀ b' ∈ T.levelIds l, (T.blocks b).parent ≠ b' := by
    intro b hb b' hb' he
    rw [hmem] at hb hb'
    have := t.parent_level hb.1 (by omega)
    rw [he] at this; omega
  have := exec_eq (eff := fun b s => if b ∈ T.levelIds l then s + at1 (T.blocks b).parent (up p T b (m b)) else s)
    (P := fun s => ∀ b ∈ T.levelIds l, s b = m b) (l := T.levelIds l)
    (by
      intro b hb s buf hs
      funext s'
      unfold lCopierAscend lWorkerAscend
      simp only [hb, if_true]
      rw [update_add, hs b hb]
      rfl)
    (by
      intro b hb s hs b' hb'
      simp only [hb, if_true, Pi.add_apply]
      rw [hs b' hb', at1, if_neg (fun h => hpar b hb b' hb' h.symm), add_zero])
    (by
      intro i j s
      show (if i ∈ T.levelIds l then _ else _) = (if j ∈ T.levelIds l then _ else _)
      by_cases h1 : i ∈ T.levelIds l <;> by_cases h2 : j ∈ T.levelIds l <;>
        (simp only [h1, h2, if_true, if_false]; try exact add_right_comm _ _ _))
    h (fun _ _ => rfl)
  rw [this, foldl_eff_add _ (fun b => at1 (T.blocks b).parent (up p T b (m b)))]
  intro b hb m
  simp [hb]

theorem lAscend_eq (t : Octree.Tree inp T) {s0 : LABuf} {m0 mult : ℕ → Cf}
    (h : Levels (fun l => Exec (lWorkerAscend p T) (lCopierAscend p) s0 (T.levelIds l)) (List.range' 1 inp.levels).reverse
      m0 mult) (b : ℕ) : mult b = multFn inp p T b m0 := by
  have key : ∀ n, n ≤ inp.levels → ∀ (m m' : ℕ → Cf),
      Levels (fun l => Exec (lWorkerAscend p T) (lCopierAscend p) s0 (T.levelIds l)) (List.range' 1 n).reverse m m' →
      (∀ b, b < T.count → n ≤ (T.blocks b).level → m b = multFn inp p T b m0) →
      (∀ b, b < T.count → (T.blocks b).level < n → m b = m0 b) → (∀ b, ¬ b < T.count → m b = m0 b) →
      ∀ b, m' b = multFn inp p T b m0 := by
    intro n
    induction n with
    | zero =>
      intro _ m m' hlv h1 _ h3 b
      simp only [List.range'_zero, List.reverse_nil] at hlv
      cases hlv
      by_cases hb : b < T.count
      · exact h1 b hb (Nat.zero_le _)
      · rw [h3 b hb]; unfold multFn; rw [if_neg hb]; rfl
    | succ n ih =>
      intro hn m m' hlv h1 h2 h3
      have hr : (List.range' 1 (n + 1)).reverse = (n + 1) :: (List.range' 1 n).reverse := by
        rw [List.range'_concat, List.reverse_append]; simp [add_comm]
      rw [hr] at hlv
      cases hlv with
      | @cons _ _ _ m1 _ hx hlv =>
      have e := lAscend_level t (by omega) hn hx
      have hids := fun b => t.mem_levelIds hn b
      have hval : ∀ b, m1 b = m b + (((T.levelIds (n + 1)).filter fun j => decide ((T.blocks j).parent = b)).map
          fun c => up p T c (multFn inp p T c m0)).sum := by
        intro b
        rw [e, Pi.add_apply, sum_at1_apply]
        congr 2
        refine List.map_congr_left ?_
        intro c hc
        rw [List.mem_filter, hids] at hc
        rw [h1 c hc.1.1 (by omega)]
      have hempty : ∀ b, ¬ (b < T.count ∧ (T.blocks b).level = n) →
          (T.levelIds (n + 1)).filter (fun j => decide ((T.blocks j).parent = b)) = [] := by
        intro b hb
        rw [List.eq_nil_iff_forall_not_mem]
        intro c hc
        rw [List.mem_filter, hids] at hc
        simp only [decide_eq_true_eq] at hc
        obtain ⟨⟨h4, h5⟩, rfl⟩ := hc
        have := t.parent_level h4 (by omega)
        exact hb ⟨this.1, by omega⟩
      refine ih (by omega) m1 m' hlv ?_ ?_ ?_
      · intro b hb hle
        rw [hval]
        by_cases h4 : (T.blocks b).level = n
        · rw [h2 b hb (by omega)]
          have hk : kids T b = (T.levelIds (n + 1)).filter fun j => decide ((T.blocks j).parent = b) := by
            unfold kids; rw [h4]
          have hlv' : inp.levels - (T.blocks b).level = (inp.levels - (n + 1)) + 1 := by omega
          conv_rhs => rw [multFn, if_pos hb, hlv', multAt, LinearMap.add_apply, sum_lin, hk]
          congr 2
          refine List.map_congr_left ?_
          intro c hc
          rw [List.mem_filter, hids] at hc
          rw [multFn, if_pos hc.1.1, hc.1.2]
          rfl
        · rw [hempty b (fun h => h4 h.2), h1 b hb (by omega)]; simp
      · intro b hb hlt
        rw [hval, hempty b (by omega), h2 b hb (by omega)]; simp
      · intro b hb
        rw [hval, hempty b (fun h => hb h.1), h3 b hb]; simp
  refine key inp.levels (le_refl _) _ mult h ?_ (fun _ _ _ => rfl) (fun _ _ => rfl) b
  intro b hb hle
  have : inp.levels - (T.blocks b).level = 0 := by omega
  rw [multFn, if_pos hb, this]; rfl

/-! ## Descending phase -/

structure LDSt where
  loc : ℕ → Cf
  prod : ℕ → ℝ

structure LDescBuf where
  blockId : ℕ
  expn : Cf
  nodes : List ℕ
  contr : List ℝ

variable (inp p T)

/-- conversions of block `k` -/
def mlAll (k : ℕ) : (ℕ → Cf) →ₗ[ℝ] Cf :=
  ∑ sub ∈ Finset.range (numSub inp T k), ∑ b ∈ m2lSet inp T k sub, (tML p (ctr T b) (ctr T k)).comp (LinearMap.proj b)

/-- evaluations of block `k` at node `i` -/
def mpAll (k i : ℕ) : (ℕ → Cf) →ₗ[ℝ] ℝ :=
  ∑ sub ∈ Finset.range (numSub inp T k), ∑ b ∈ m2pSet inp T k sub,
    (mEvalMap codeTable p (ctr T b) (toV (inp.pos i))).comp (LinearMap.proj b)

def lWorkerDescend (own : ℕ → Bool) (mult : ℕ → Cf) (k : ℕ) (s : LDSt) (_ : LDescBuf) : LDescBuf where
  blockId := k
  expn := if onP T own k then tL p (ctr T (T.blocks k).parent) (ctr T k) (s.loc (T.blocks k).parent) + mlAll inp p T k mult
    else 0
  nodes := (T.blocks k).nodes
  contr := (T.blocks k).nodes.map fun i => if onP T own k then mpAll inp p T k i mult else 0

def lCopierDescend (buf : LDescBuf) (s : LDSt) : LDSt where
  loc := Function.update s.loc buf.blockId (s.loc buf.blockId + trunc p buf.expn)
  prod := (buf.nodes.zip buf.contr).foldl (fun p x => Function.update p x.1 (p x.1 + x.2)) s.prod

def lExpnOf (own : ℕ → Bool) (mult L : ℕ → Cf) (k : ℕ) : Cf :=
  trunc p (if onP T own k then tL p (ctr T (T.blocks k).parent) (ctr T k) (L (T.blocks k).parent) + mlAll inp p T k mult
    else 0)

def lProdOf (own : ℕ → Bool) (mult : ℕ → Cf) (k : ℕ) : ℕ → ℝ := fun i =>
  if i ∈ (T.blocks k).nodes ∧ onP T own k = true then mpAll inp p T k i mult else 0

variable {inp p T}

theorem zip_foldl_add {A : Type} [AddCommMonoid A] (v : ℕ → A) (l : List ℕ) (q : ℕ → A) :
    (l.zip (l.map v)).foldl (fun x y => Function.update x y.1 (x y.1 + y.2)) q = q + (l.map fun j => at1 j (v j)).sum := by
  induction l generalizing q with
  | nil => simp
  | cons a l ih =>
    simp only [List.map_cons, List.zip_cons_cons, List.foldl_cons, List.sum_cons]
    rw [ih, update_add, add_assoc]

theorem lCopierDescend_eq {own : ℕ → Bool} {mult : ℕ → Cf} {k : ℕ} {s : LDSt}
    (hn : (T.blocks k).nodes.Nodup) (buf : LDescBuf) :
    lCopierDescend p (lWorkerDescend inp p T own mult k s buf) = fun s' =>
      ⟨s'.loc + at1 k (lExpnOf inp p T own mult s.loc k), s'.prod + lProdOf inp p T own mult k⟩ := by
  funext s'
  unfold lCopierDescend lWorkerDescend
  simp only [LDSt.mk.injEq]
  constructor
  · rw [update_add]; rfl
  · rw [zip_foldl_add]
    congr 1
    funext i
    rw [sum_at1 _ hn]
    unfold lProdOf
    by_cases h1 : i ∈ (T.blocks k).nodes <;> by_cases h2 : onP T own k = true <;> simp [h1, h2]

theorem lDescend_level (t : Octree.Tree inp T) {own : ℕ → Bool} {mult : ℕ → Cf} {l : ℕ} (hl : 1 ≤ l) {s s' : LDSt}
    {s0 : LDescBuf}
    (h : Exec (lWorkerDescend inp p T own mult) (lCopierDescend p) s0 (T.dofsFilled l) s s') :
    s'.loc = s.loc + ((T.dofsFilled l).map fun k => at1 k (lExpnOf inp p T own mult s.loc k)).sum ∧
    s'.prod = s.prod + ((T.dofsFilled l).map (lProdOf inp p T own mult)).sum := by
  classical
  have hmem := fun b => t.dfil l b
  have hpar : ∀ b ∈ T.dofsFilled l, ∀ b' ∈ T.dofsFilled l, (T.blocks b).parent ≠ b' := by
    intro b hb b' hb' he
    rw [hmem] at hb hb'
    have := t.parent_level hb.2.1 (by omega)
    rw [he] at this; omega
  have hex : ∀ (b : ℕ) (L L' : ℕ → Cf), L (T.blocks b).parent = L' (T.blocks b).parent →
      lExpnOf inp p T own mult L b = lExpnOf inp p T own mult L' b := by
    intro b L L' h; unfold lExpnOf; rw [h]
  have := exec_eq (eff := fun k s' => (⟨s'.loc + at1 k (lExpnOf inp p T own mult s.loc k),
      s'.prod + lProdOf inp p T own mult k⟩ : LDSt))
    (P := fun s' => ∀ b ∈ T.dofsFilled l, s'.loc (T.blocks b).parent = s.loc (T.blocks b).parent)
    (l := T.dofsFilled l)
    (by
      intro b hb s' buf hs
      rw [lCopierDescend_eq (t.links.nodup ((hmem b).1 hb).2.1).1]
      rw [hex b _ _ (hs b hb)])
    (by
      intro b hb s' hs b' hb'
      simp only [Pi.add_apply]
      rw [hs b' hb', at1, if_neg (hpar b' hb' b hb), add_zero])
    (by
      intro i j s
      simp only [LDSt.mk.injEq]
      exact ⟨add_right_comm _ _ _, add_right_comm _ _ _⟩)
    h (fun _ _ => rfl)
  rw [this]
  clear this h hpar hmem
  generalize hs : s.loc = L
  have : ∀ (ks : List ℕ) (s0 : LDSt),
      (ks.foldl (fun s' k => (⟨s'.loc + at1 k (lExpnOf inp p T own mult L k),
        s'.prod + lProdOf inp p T own mult k⟩ : LDSt)) s0).loc =
        s0.loc + (ks.map fun k => at1 k (lExpnOf inp p T own mult L k)).sum ∧
      (ks.foldl (fun s' k => (⟨s'.loc + at1 k (lExpnOf inp p T own mult L k),
        s'.prod + lProdOf inp p T own mult k⟩ : LDSt)) s0).prod =
        s0.prod + (ks.map (lProdOf inp p T own mult)).sum := by
    intro ks
    induction ks with
    | nil => intro s0; simp
    | cons k ks ih =>
      intro s0
      simp only [List.foldl_cons, List.map_cons, List.sum_cons]
      rw [(ih _).1, (ih _).2]
      exact ⟨add_assoc _ _ _, add_assoc _ _ _⟩
  have h2 := this (T.dofsFilled l) s
  rw [hs] at h2
  exact h2

variable (inp p T) in
def locAt : ℕ → ℕ → ((ℕ → Cf) →ₗ[ℝ] Cf)
  | 0, _ => 0
  | n + 1, k => if k ∈ T.dofsFilled (n + 1) then
      (trunc p).comp ((tL p (ctr T (T.blocks k).parent) (ctr T k)).comp (locAt n (T.blocks k).parent) + mlAll inp p T k)
    else 0

theorem onP_parent (t : Octree.Tree inp T) {own : ℕ → Bool} {k : ℕ} (h0 : 0 < k) (hk : k < T.count)
    (h : onP T own k = true) : onP T own (T.blocks k).parent = true := by
  unfold onP at *
  rw [List.any_eq_true] at *
  obtain ⟨i, hi, ho⟩ := h
  exact ⟨i, mem_parent_nodes t h0 hk hi, ho⟩

theorem lDescend_eq (t : Octree.Tree inp T) {own : ℕ → Bool} {mult : ℕ → Cf} {s' : LDSt} {s0 : LDescBuf} {base : ℕ → ℝ}
    (h : Levels (fun l => Exec (lWorkerDescend inp p T own mult) (lCopierDescend p) s0 (T.dofsFilled l))
      (List.range' 1 inp.levels) ⟨fun _ => 0, base⟩ s') :
    (∀ k, k < T.count → onP T own k = true → s'.loc k = locAt inp p T (T.blocks k).level k mult) ∧
    s'.prod = base + ((List.range' 1 inp.levels).map
      fun l => ((T.dofsFilled l).map (lProdOf inp p T own mult)).sum).sum := by
  have key : ∀ n m, 1 ≤ m → ∀ (s s' : LDSt),
      Levels (fun l => Exec (lWorkerDescend inp p T own mult) (lCopierDescend p) s0 (T.dofsFilled l))
        (List.range' m n) s s' →
      (∀ k, k < T.count → m ≤ (T.blocks k).level → s.loc k = 0) →
      (∀ k, k < T.count → (T.blocks k).level < m → s'.loc k = s.loc k) ∧
      (∀ l k, m ≤ l → l < m + n → k ∈ T.dofsFilled l → onP T own k = true → s'.loc k =
        trunc p (tL p (ctr T (T.blocks k).parent) (ctr T k) (s'.loc (T.blocks k).parent) + mlAll inp p T k mult)) ∧
      (∀ k, k ∉ T.dofsFilled (T.blocks k).level → s'.loc k = s.loc k) ∧
      s'.prod = s.prod + ((List.range' m n).map
        fun l => ((T.dofsFilled l).map (lProdOf inp p T own mult)).sum).sum := by
    intro n
    induction n with
    | zero =>
      intro m _ s s' hlv _
      simp only [List.range'_zero] at hlv
      cases hlv
      refine ⟨fun _ _ _ => rfl, fun l k h1 h2 => by omega, fun _ _ => rfl, by simp⟩
    | succ n ih =>
      intro m hm s s' hlv hz
      rw [List.range'_succ] at hlv ⊢
      cases hlv with
      | @cons _ _ _ s1 _ hx hlv =>
      obtain ⟨e1, e2⟩ := lDescend_level t hm hx
      have hoff' : ∀ k, k ∉ T.dofsFilled m → s1.loc k = s.loc k := by
        intro k hk
        rw [e1, Pi.add_apply, sum_at1 _ (t.dfilnd m), if_neg hk, add_zero]
      have hoff : ∀ k, k < T.count → (T.blocks k).level ≠ m → s1.loc k = s.loc k := by
        intro k hk hne
        refine hoff' k ?_
        rw [t.dfil]; omega
      obtain ⟨i1, i2, i2', i3⟩ := ih (m + 1) (by omega) s1 s' hlv
        (fun k hk hle => by rw [hoff k hk (by omega)]; exact hz k hk (by omega))
      refine ⟨?_, ?_, ?_, ?_⟩
      · intro k hk hlt
        rw [i1 k hk (by omega), hoff k hk (by omega)]
      · intro l k h1 h2 hk ho
        rcases Nat.lt_or_ge m l with h3 | h3
        · exact i2 l k h3 (by omega) hk ho
        · have hlm : l = m := by omega
          subst hlm
          have hk' := (t.dfil l k).1 hk
          have hp := t.parent_level hk'.2.1 (by omega)
          rw [i1 k hk'.2.1 (by omega), i1 _ hp.1 (by omega), hoff _ hp.1 (by omega), e1,
            Pi.add_apply, sum_at1 _ (t.dfilnd l), if_pos hk, hz k hk'.2.1 (by omega), zero_add]
          unfold lExpnOf
          rw [if_pos ho]
      · intro k hk
        rw [i2' k hk, hoff']
        intro hkm
        have hkm' := (t.dfil m k).1 hkm
        rw [hkm'.2.2.1] at hk
        exact hk hkm
      · rw [i3, e2, List.map_cons, List.sum_cons, add_assoc]
  obtain ⟨k1, k2, k2', k3⟩ := key inp.levels 1 (le_refl _) _ s' h (fun _ _ _ => rfl)
  refine ⟨?_, k3⟩
  have : ∀ n k, (T.blocks k).level = n → k < T.count → onP T own k = true → s'.loc k = locAt inp p T n k mult := by
    intro n
    induction n with
    | zero =>
      intro k hkn hk _
      rw [k1 k hk (by omega)]
      rfl
    | succ n ih =>
      intro k hkn hk ho
      by_cases hkd : k ∈ T.dofsFilled (n + 1)
      · have hle := t.lev_le k hk
        have hp := t.parent_level hk (by omega)
        have h0 : 0 < k := ((t.dfil _ k).1 hkd).1
        rw [k2 (n + 1) k (by omega) (by omega) hkd ho, ih _ (by omega) hp.1 (onP_parent t h0 hk ho), locAt, if_pos hkd]
        rfl
      · rw [locAt, if_neg hkd, k2' k (by rw [hkn]; exact hkd)]
        rfl
  exact fun k hk ho => this _ k rfl hk ho

end PiBem.Fmm
