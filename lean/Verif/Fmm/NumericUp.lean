import Verif.Fmm.Numeric

/-! The upward pass with numbers contains the moments of the sources (helper lemmas). -/

noncomputable section

namespace PiBem.Fmm

open PiBem.Octree PiBem.WorkStream PiBem.Expansion

/-! ## Simulation -/

theorem forall₂_append {α β : Type} {R : α → β → Prop} (l1 l2 : List α) :
    ∀ {u : List β}, List.Forall₂ R (l1 ++ l2) u → ∃ u1 u2, List.Forall₂ R l1 u1 ∧ List.Forall₂ R l2 u2 ∧ u = u1 ++ u2 := by
  induction l1 with
  | nil => intro u h; exact ⟨[], u, List.Forall₂.nil, h, rfl⟩
  | cons a l1 ih =>
    intro u h
    cases h with
    | @cons _ b _ u h1 h2 =>
    obtain ⟨u1, u2, a1, a2, rfl⟩ := ih h2
    exact ⟨b :: u1, u2, List.Forall₂.cons h1 a1, a2, rfl⟩

/-- Two runs with related workers and copiers: every run of the first is matched by a run of the second with the same
schedule. `Rf` relates recycled copy data, `Rb` filled ones. -/
theorem run_sim {ι β σ β' σ' : Type} {work : ι → σ → β → β} {copy : β → σ → σ} {sample : β}
    {work' : ι → σ' → β' → β'} {copy' : β' → σ' → σ'} {sample' : β'} {l : List ι}
    (Rs : σ → σ' → Prop) (Rf Rb : β → β' → Prop) (hsam : Rf sample sample') (hbf : ∀ b b', Rb b b' → Rf b b')
    (hw : ∀ i ∈ l, ∀ s s' b b', Rs s s' → Rf b b' → Rb (work i s b) (work' i s' b'))
    (hc : ∀ b b' s s', Rb b b' → Rs s s' → Rs (copy b s) (copy' b' s'))
    {pend : List ι} {fl free : List β} {s t : σ} (h : Run work copy sample pend fl free s t) :
    (∀ i ∈ pend, i ∈ l) → ∀ fl' free' s', List.Forall₂ Rb fl fl' → List.Forall₂ Rf free free' → Rs s s' →
      ∃ t', Run work' copy' sample' pend fl' free' s' t' ∧ Rs t t' := by
  induction h with
  | done free s =>
    intro _ fl' free' s' hfl hfree hs
    cases hfl
    exact ⟨s', Run.done free' s', hs⟩
  | work p1 p2 i fl free free1 b s t hb _ ih =>
    intro hp fl' free' s' hfl hfree hs
    have hil : i ∈ l := hp i (by simp)
    have hp' : ∀ j ∈ p1 ++ p2, j ∈ l := fun j hj => hp j (by simp at hj ⊢; tauto)
    rcases hb with ⟨rfl, rfl⟩ | ⟨f1, f2, rfl, rfl⟩
    · obtain ⟨t', ht, hr⟩ := ih hp' (work' i s' sample' :: fl') free' s'
        (List.Forall₂.cons (hw i hil _ _ _ _ hs hsam) hfl) hfree hs
      exact ⟨t', Run.work p1 p2 i fl' free' free' sample' s' t' (Or.inl ⟨rfl, rfl⟩) ht, hr⟩
    · obtain ⟨u1, u2, h1, h2, rfl⟩ : ∃ u1 u2, List.Forall₂ Rf f1 u1 ∧ List.Forall₂ Rf (b :: f2) u2 ∧ free' = u1 ++ u2 :=
        forall₂_append f1 (b :: f2) hfree
      cases h2 with
      | @cons _ b' _ u2 hbb h2 =>
      obtain ⟨t', ht, hr⟩ := ih hp' (work' i s' b' :: fl') (u1 ++ u2) s'
        (List.Forall₂.cons (hw i hil _ _ _ _ hs hbb) hfl) (List.rel_append h1 h2) hs
      exact ⟨t', Run.work p1 p2 i fl' (u1 ++ b' :: u2) (u1 ++ u2) b' s' t' (Or.inr ⟨u1, u2, rfl, rfl⟩) ht, hr⟩
  | copy pend f1 f2 b free s t _ ih =>
    intro hp fl' free' s' hfl hfree hs
    obtain ⟨u1, u2, h1, h2, rfl⟩ : ∃ u1 u2, List.Forall₂ Rb f1 u1 ∧ List.Forall₂ Rb (b :: f2) u2 ∧ fl' = u1 ++ u2 :=
      forall₂_append f1 (b :: f2) hfl
    cases h2 with
    | @cons _ b' _ u2 hbb h2 =>
    obtain ⟨t', ht, hr⟩ := ih hp (u1 ++ u2) (b' :: free') (copy' b' s') (List.rel_append h1 h2)
      (List.Forall₂.cons (hbf _ _ hbb) hfree) (hc _ _ _ _ hbb hs)
    exact ⟨t', Run.copy pend u1 u2 b' free' s' t' ht, hr⟩

theorem exec_sim {ι β σ β' σ' : Type} {work : ι → σ → β → β} {copy : β → σ → σ} {sample : β}
    {work' : ι → σ' → β' → β'} {copy' : β' → σ' → σ'} {sample' : β'} {l : List ι}
    (Rs : σ → σ' → Prop) (Rf Rb : β → β' → Prop) (hsam : Rf sample sample') (hbf : ∀ b b', Rb b b' → Rf b b')
    (hw : ∀ i ∈ l, ∀ s s' b b', Rs s s' → Rf b b' → Rb (work i s b) (work' i s' b'))
    (hc : ∀ b b' s s', Rb b b' → Rs s s' → Rs (copy b s) (copy' b' s'))
    {s t : σ} (h : Exec work copy sample l s t) {s' : σ'} (hs : Rs s s') :
    ∃ t', Exec work' copy' sample' l s' t' ∧ Rs t t' :=
  run_sim Rs Rf Rb hsam hbf hw hc h (fun _ hi => hi) [] [] s' List.Forall₂.nil List.Forall₂.nil hs

theorem levels_sim {σ σ' : Type} {R : ℕ → σ → σ → Prop} {R' : ℕ → σ' → σ' → Prop} (Rs : σ → σ' → Prop) (ls : List ℕ)
    (hR : ∀ l ∈ ls, ∀ s t s', R l s t → Rs s s' → ∃ t', R' l s' t' ∧ Rs t t') :
    ∀ {s t s'}, Levels R ls s t → Rs s s' → ∃ t', Levels R' ls s' t' ∧ Rs t t' := by
  induction ls with
  | nil => intro s t s' h hs; cases h; exact ⟨s', Levels.nil s', hs⟩
  | cons l ls ih =>
    intro s t s' h hs
    cases h with
    | @cons _ _ _ s1 _ h1 h2 =>
    obtain ⟨t1, a1, a2⟩ := hR l (by simp) _ _ _ h1 hs
    obtain ⟨t2, b1, b2⟩ := ih (fun l hl => hR l (by simp [hl])) h2 a2
    exact ⟨t2, Levels.cons a1 b1, b2⟩

/-! ## Sources -/

variable (inp : Input 3) (D : Data) (ker : Ker)

/-- source of quadrature point `q` for local dof `j`, for the value 1 of the vector -/
def src0 (j : ℕ) (q : ℕ × ℕ) : Source :=
  match ker with
  | .single => .charge (D.shape q j * D.jxw q / 4 / Real.pi) (toV (inp.qpos q))
  | .double => .dipole (D.shape q j * D.jxw q / 4 / Real.pi) (toV (inp.qpos q)) (versor (D.normal q))

/-- value of the vector at local dof `j` of cell `c` -/
def solAt (c j : ℕ) : ℝ := D.sol ((inp.cellDofs c).getD j 0)

/-- sources of a quadrature point -/
def srcs (q : ℕ × ℕ) : List Source :=
  (List.range (inp.cellDofs q.1).length).map fun j => (src0 inp D ker j q).scale (solAt inp D q.1 j)

/-- sources of a collection of quadrature points -/
def MS (A : Multiset (ℕ × ℕ)) : List Source := A.toList.flatMap (srcs inp D ker)

theorem sum_map_flatMap {α β : Type} {M : Type*} [AddCommMonoid M] (l : List α) (f : α → List β) (g : β → M) :
    ((l.flatMap f).map g).sum = (l.map fun a => ((f a).map g).sum).sum := by
  induction l with
  | nil => rfl
  | cons a l ih => simp [ih]

theorem sum_map_MS {M : Type*} [AddCommMonoid M] (A : Multiset (ℕ × ℕ)) (g : Source → M) :
    ((MS inp D ker A).map g).sum = (A.map fun q => ((srcs inp D ker q).map g).sum).sum := by
  rw [MS, sum_map_flatMap]
  conv_rhs => rw [← Multiset.coe_toList A]
  rw [Multiset.map_coe, Multiset.sum_coe]

theorem moment_MS (A : Multiset (ℕ × ℕ)) (c : V3) (n m : ℕ) :
    moment (MS inp D ker A) c n m = (A.map fun q => moment (srcs inp D ker q) c n m).sum :=
  sum_map_MS inp D ker A _

theorem isMultipole_congr {e : Exp} {S S' : List Source} (h : IsMultipole e S)
    (hS : ∀ n m, moment S e.center n m = moment S' e.center n m) : IsMultipole e S' :=
  ⟨fun n m hm hn => by rw [h.1 n m hm hn, hS], h.2⟩

theorem list_sum_comm {α β M : Type*} [AddCommMonoid M] (l : List α) (l' : List β) (f : α → β → M) :
    (l.map fun a => (l'.map fun b => f a b).sum).sum = (l'.map fun b => (l.map fun a => f a b).sum).sum := by
  induction l with
  | nil => simp
  | cons a l ih => simp [ih, List.sum_map_add]

/-- what the points of the leaves must satisfy for the moments to be defined (no division by zero) -/
def Regular (T : St 3) : Prop :=
  ∀ b ∈ T.childless, ∀ q ∈ (T.blocks b).qps,
    match ker with
    | .single => inp.qpos q ≠ centre (T.blocks b)
    | .double => D.normal q ≠ 0 ∧ ¬ (inp.qpos q 0 = centre (T.blocks b) 0 ∧ inp.qpos q 1 = centre (T.blocks b) 1)

/-- an expansion of the block containing the sources `S` -/
def MRel (T : St 3) (b : ℕ) (e : Exp) (S : List Source) : Prop :=
  e.p = D.p ∧ e.center = ctr T b ∧ IsMultipole e S

theorem toV_inj {x y : Pt 3} (h : toV x = toV y) : x = y := by
  funext a
  have := congrFun h a
  simpa [toV] using this

variable {inp D ker}
variable {T : St 3}

theorem MRel.new (b : ℕ) : MRel D T b (Exp.new D.p (ctr T b)) [] := ⟨rfl, rfl, C57_new _ _⟩

theorem elemAdd_rel (hp : D.p ≤ 20) (hreg : Regular inp D ker T) {b : ℕ} (hb : b ∈ T.childless) {q : ℕ × ℕ}
    (hq : q ∈ (T.blocks b).qps) {e : Exp} {S : List Source} (h : MRel D T b e S) (j : ℕ) :
    MRel D T b (elemAdd inp D ker e j q) (S ++ [src0 inp D ker j q]) := by
  obtain ⟨h1, h2, h3⟩ := h
  have hr := hreg b hb q hq
  have hfr : (elemAdd inp D ker e j q).p = e.p ∧ (elemAdd inp D ker e j q).center = e.center := by
    cases ker with
    | single => exact MOp.run_frame e (.source _ _)
    | double => exact MOp.run_frame e (.normDer _ _ _)
  refine ⟨hfr.1.trans h1, hfr.2.trans h2, ?_⟩
  cases ker with
  | single =>
    refine C57_add_source e S h3 (by omega) _ _ ?_
    rw [h2]
    exact fun h => hr (toV_inj h)
  | double =>
    refine C58_add_normal_derivative e S h3 (by omega) _ _ _ hr.1 ?_
    rw [h2]
    rintro ⟨c0, c1⟩
    refine hr.2 ⟨?_, ?_⟩
    · simpa [ctr, toV] using c0
    · simpa [ctr, toV] using c1

theorem foldl_elemAdd (hp : D.p ≤ 20) (hreg : Regular inp D ker T) {b : ℕ} (hb : b ∈ T.childless) (j : ℕ)
    (l : List (ℕ × ℕ)) (hl : ∀ q ∈ l, q ∈ (T.blocks b).qps) {e : Exp} {S : List Source} (h : MRel D T b e S) :
    MRel D T b (l.foldl (fun e q => elemAdd inp D ker e j q) e) (S ++ l.map (src0 inp D ker j)) := by
  induction l generalizing e S with
  | nil => simpa using h
  | cons q l ih =>
    have := ih (fun q hq => hl q (by simp [hq])) (elemAdd_rel hp hreg hb (hl q (by simp)) h j)
    simpa using this

/-- relation of the element moments: the expansion of cell `c`, local dof `j`, contains one source per point -/
def ElRel (inp : Input 3) (D : Data) (ker : Ker) (T : St 3) (b : ℕ) (v : ℕ → ℕ → Exp) (v' : ℕ → Multiset (ℕ × ℕ)) : Prop :=
  ∀ c j, MRel D T b (v c j) ((v' c).toList.map (src0 inp D ker j))

theorem nCellMoment_rel (hp : D.p ≤ 20) (hreg : Regular inp D ker T) {b : ℕ} (hb : b ∈ T.childless) (c j : ℕ) :
    MRel D T b (nCellMoment inp D ker T b c j) ((cellMoment T b c).toList.map (src0 inp D ker j)) := by
  have h := foldl_elemAdd (ker := ker) (inp := inp) hp hreg hb j ((T.blocks b).qps.filter fun q => decide (q.1 = c))
    (fun q hq => (List.mem_filter.1 hq).1) (MRel.new (D := D) (T := T) b)
  refine ⟨h.1, h.2.1, isMultipole_congr h.2.2 fun n m => ?_⟩
  have hperm : List.Perm (((T.blocks b).qps.filter fun q => decide (q.1 = c))) (cellMoment T b c).toList := by
    rw [← Multiset.coe_eq_coe, Multiset.coe_toList]; rfl
  simp only [List.nil_append, moment]
  exact ((hperm.map _).map _).sum_eq

/-- relation of the maps of moments -/
def MomRel (inp : Input 3) (D : Data) (ker : Ker) (T : St 3) (E : NMoments) (E' : Moments) : Prop :=
  ∀ b, Option.Rel (ElRel inp D ker T b) (E b) (E' b)

theorem momRel_getD {E : NMoments} {E' : Moments} (h : MomRel inp D ker T E E') (b : ℕ) :
    ElRel inp D ker T b ((E b).getD fun _ _ => Exp.new D.p (ctr T b)) ((E' b).getD fun _ => 0) := by
  have := h b
  revert this
  rcases E b with _ | v <;> rcases E' b with _ | v' <;> intro this
  · intro c j; simpa using MRel.new (D := D) (T := T) b
  · cases this
  · cases this
  · cases this with
    | some h => exact h

theorem momentsExec_sim (hp : D.p ≤ 20) (hreg : Regular inp D ker T) {E : NMoments}
    (h : NMomentsExec inp D ker T E) : ∃ E', MomentsExec inp T E' ∧ MomRel inp D ker T E E' := by
  refine exec_sim (MomRel inp D ker T) (MomRel inp D ker T) (MomRel inp D ker T) (fun _ => Option.Rel.none)
    (fun _ _ h => h) ?_ ?_ h (fun _ => Option.Rel.none)
  · intro b hb s s' buf buf' _ hbuf
    unfold nWorkerMoments workerMoments
    have : ∀ (l : List ℕ) (buf : NMoments) (buf' : Moments), MomRel inp D ker T buf buf' →
        MomRel inp D ker T (l.foldl (fun buf c => Function.update buf b (some (Function.update
          ((buf b).getD fun _ _ => Exp.new D.p (ctr T b)) c (nCellMoment inp D ker T b c)))) buf)
        (l.foldl (fun buf c => Function.update buf b (some (Function.update ((buf b).getD fun _ => 0) c
          (cellMoment T b c)))) buf') := by
      intro l
      induction l with
      | nil => intro buf buf' h; exact h
      | cons c l ih =>
        intro buf buf' h
        refine ih _ _ ?_
        intro b1
        beta_reduce
        by_cases hbb : b1 = b
        · subst hbb
          rw [Function.update_self, Function.update_self]
          refine Option.Rel.some fun c1 j => ?_
          by_cases hcc : c1 = c
          · subst hcc
            rw [Function.update_self, Function.update_self]
            exact nCellMoment_rel hp hreg hb c1 j
          · rw [Function.update_of_ne hcc, Function.update_of_ne hcc]
            exact momRel_getD h b1 c1 j
        · rw [Function.update_of_ne hbb, Function.update_of_ne hbb]
          exact h b1
    exact this _ _ _ hbuf
  · intro buf buf' s s' hb hs b
    unfold nCopierMoments copierMoments
    have h1 := hs b
    have h2 := hb b
    revert h1 h2
    rcases s b with _ | v <;> rcases s' b with _ | v' <;> intro h1 h2
    · simpa using h2
    · cases h1
    · cases h1
    · simpa using h1

/-! ## Ascending phase -/

theorem MRel.congr {b : ℕ} {e : Exp} {S S' : List Source} (h : MRel D T b e S)
    (hS : ∀ c n m, moment S c n m = moment S' c n m) : MRel D T b e S' :=
  ⟨h.1, h.2.1, isMultipole_congr h.2.2 fun n m => hS _ n m⟩

/-- relation of the block expansions -/
def MultRel (inp : Input 3) (D : Data) (ker : Ker) (T : St 3) (m : ℕ → Exp) (m' : ℕ → Multiset (ℕ × ℕ)) : Prop :=
  ∀ b, MRel D T b (m b) (MS inp D ker (m' b))

theorem MS_add (A B : Multiset (ℕ × ℕ)) (c : V3) (n m : ℕ) :
    moment (MS inp D ker A ++ MS inp D ker B) c n m = moment (MS inp D ker (A + B)) c n m := by
  rw [moment_append, moment_MS, moment_MS, moment_MS, Multiset.map_add, Multiset.sum_add]

theorem nLeafCell_rel {E : NMoments} {E' : Moments} (h : MomRel inp D ker T E E') {b c : ℕ} {e : Exp}
    {A : Multiset (ℕ × ℕ)} (he : MRel D T b e (MS inp D ker A)) (hc : ∀ q ∈ ((E' b).getD fun _ => 0) c, q.1 = c) :
    MRel D T b (nLeafCell inp D T E b c e) (MS inp D ker (A + ((E' b).getD fun _ => 0) c)) := by
  have hE := momRel_getD h b
  set v := (E b).getD fun _ _ => Exp.new D.p (ctr T b) with hv
  set B := ((E' b).getD fun _ => 0) c with hB
  have key : ∀ (l : List ℕ) (e : Exp) (S : List Source), MRel D T b e S →
      MRel D T b (l.foldl (fun e j => mAddScaled e (v c j) (D.sol ((inp.cellDofs c).getD j 0))) e)
        (S ++ l.flatMap fun j => (B.toList.map (src0 inp D ker j)).map (Source.scale (solAt inp D c j))) := by
    intro l
    induction l with
    | nil => intro e S h; simpa using h
    | cons j l ih =>
      intro e S h
      have hj := hE c j
      have hfr := MOp.run_frame e (.scaled (v c j) [] (D.sol ((inp.cellDofs c).getD j 0)))
      have h1 : MRel D T b (mAddScaled e (v c j) (D.sol ((inp.cellDofs c).getD j 0)))
          (S ++ (B.toList.map (src0 inp D ker j)).map (Source.scale (solAt inp D c j))) :=
        ⟨hfr.1.trans h.1, hfr.2.trans h.2.1, C57_add_scaled e _ S _ h.2.2 hj.2.2 (hj.1.trans h.1.symm)
          (hj.2.1.trans h.2.1.symm) _⟩
      have := ih _ _ h1
      simpa using this
  refine (key _ e _ he).congr fun cc n m => ?_
  rw [← MS_add, moment_append, moment_append]
  congr 1
  rw [moment_MS]
  have h1 : ∀ q ∈ B, moment (srcs inp D ker q) cc n m = ((List.range (inp.cellDofs c).length).map fun j =>
      ((src0 inp D ker j q).scale (solAt inp D c j)).moment cc n m).sum := by
    intro q hq
    rw [srcs, hc q hq, moment, List.map_map]; rfl
  rw [Multiset.map_congr rfl h1]
  conv_rhs => rw [← Multiset.coe_toList B]
  rw [Multiset.map_coe, Multiset.sum_coe, moment, sum_map_flatMap, list_sum_comm]
  simp only [List.map_map]
  rfl

theorem cellMoment_getD (t : Octree.Tree inp T) {E' : Moments} (hE : MomentsExec inp T E') (b c : ℕ) :
    ∀ q ∈ ((E' b).getD fun _ => 0) c, q.1 = c := by
  intro q hq
  rw [momentsExec_eq t hE] at hq
  simp only at hq
  split_ifs at hq
  · simp only [Option.getD_some, cellMoment, Multiset.mem_coe, List.mem_filter, decide_eq_true_eq] at hq
    exact hq.2
  · simp at hq

theorem leaves_sim (t : Octree.Tree inp T) {E : NMoments} {E' : Moments} (hE : MomentsExec inp T E')
    (h : MomRel inp D ker T E E') (order : List ℕ) {m : ℕ → Exp} {m' : ℕ → Multiset (ℕ × ℕ)}
    (hm : MultRel inp D ker T m m') :
    MultRel inp D ker T (order.foldl (fun m b => nLeafMult inp D T E b m) m)
      (order.foldl (fun m b => leafMult inp T E' b m) m') := by
  induction order generalizing m m' with
  | nil => exact hm
  | cons b order ih =>
    refine ih ?_
    show MultRel inp D ker T ((blockCells inp T b).foldl (fun m c => Function.update m b (nLeafCell inp D T E b c (m b))) m)
      ((blockCells inp T b).foldl (fun m c => Function.update m b (m b + ((E' b).getD fun _ => 0) c)) m')
    generalize blockCells inp T b = l
    induction l generalizing m m' with
    | nil => exact hm
    | cons c l ih2 =>
      refine ih2 ?_
      intro b1
      beta_reduce
      by_cases hbb : b1 = b
      · subst hbb
        rw [Function.update_self, Function.update_self]
        exact nLeafCell_rel h (hm b1) (cellMoment_getD t hE b1 c)
      · rw [Function.update_of_ne hbb, Function.update_of_ne hbb]
        exact hm b1

/-- centres of a block and of its parent are never so near that the translation is skipped -/
def Far (T : St 3) : Prop :=
  ∀ b, 0 < b → b < T.count → 1e-7 < rho (ctr T b - ctr T (T.blocks b).parent)

theorem ascendExec_sim (hp : D.p ≤ 20) (t : Octree.Tree inp T) (hfar : Far T) {E : NMoments} {E' : Moments}
    (hE : MomentsExec inp T E') (h : MomRel inp D ker T E E') {mult : ℕ → Exp} (hA : NAscendExec inp D T E mult) :
    ∃ mult', AscendExec inp T E' mult' ∧ MultRel inp D ker T mult mult' := by
  obtain ⟨order, ho, hL⟩ := hA
  have h0 : MultRel inp D ker T (fun b => Exp.new D.p (ctr T b)) (fun _ => 0) := by
    intro b; simpa [MS] using MRel.new (D := D) (T := T) b
  have hstep : ∀ l ∈ (List.range' 1 inp.levels).reverse, ∀ (s s1 : ℕ → Exp) (s' : ℕ → Multiset (ℕ × ℕ)),
      Exec (nWorkerAscend D T) nCopierAscend ⟨0, Exp.new D.p 0⟩ (T.levelIds l) s s1 → MultRel inp D ker T s s' →
      ∃ t', Exec (workerAscend T) copierAscend ⟨0, 0⟩ (T.levelIds l) s' t' ∧ MultRel inp D ker T s1 t' := by
    intro l hl s s1 s' hx hs
    rw [List.mem_reverse, List.mem_range'_1] at hl
    refine exec_sim (MultRel inp D ker T) (fun _ _ => True) (fun buf buf' => buf.parentId = buf'.parentId ∧
      MRel D T buf'.parentId buf.expn (MS inp D ker buf'.expn)) trivial (fun _ _ _ => trivial) ?_ ?_ hx hs
    · intro b hb m m' _ _ hm _
      rw [t.mem_levelIds (by omega)] at hb
      have hb0 : 0 < b := Octree.Tree.pos_of_level t (by omega)
      have hpar := hm (T.blocks b).parent
      have hbm := hm b
      refine ⟨rfl, ?_⟩
      have hfr := MOp.run_frame (Exp.new D.p (m (T.blocks b).parent).center) (.child (m b) [])
      refine ⟨hfr.1, hfr.2.trans hpar.2.1, ?_⟩
      have h3 := C59_translation_exact (Exp.new D.p (m (T.blocks b).parent).center) (m b) [] _ (C57_new _ _) hbm.2.2
        hbm.1 hp (Or.inl (by
          show _ < rho ((m b).center - (m (T.blocks b).parent).center)
          rw [hpar.2.1, hbm.2.1]; exact hfar b hb0 hb.1))
      simpa [workerAscend, nWorkerAscend] using h3
    · rintro ⟨i, e⟩ ⟨i', A⟩ m m' ⟨hii, he⟩ hm
      simp only at hii he
      subst hii
      intro b
      unfold nCopierAscend copierAscend
      by_cases hbb : b = i
      · subst hbb
        rw [Function.update_self, Function.update_self]
        have hb := hm b
        have hfr := MOp.run_frame (m b) (.child e [])
        have h3 := C59_translation_exact (m b) e _ _ hb.2.2 he.2.2 (he.1.trans hb.1.symm) (by rw [hb.1]; exact hp)
          (Or.inr (he.2.1.trans hb.2.1.symm))
        exact (show MRel D T b _ _ from ⟨hfr.1.trans hb.1, hfr.2.trans hb.2.1, h3⟩).congr fun c n k => MS_add _ _ c n k
      · rw [Function.update_of_ne hbb, Function.update_of_ne hbb]
        exact hm b
  obtain ⟨t', h1, h2⟩ := levels_sim (R' := fun l => Exec (workerAscend T) copierAscend ⟨0, 0⟩ (T.levelIds l))
    (MultRel inp D ker T) (List.range' 1 inp.levels).reverse hstep hL (leaves_sim t hE h order h0)
  exact ⟨t', ⟨order, ho, h1⟩, h2⟩

end PiBem.Fmm
