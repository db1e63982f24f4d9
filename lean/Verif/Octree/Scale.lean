import Verif.Octree.Lists
import Mathlib.Tactic.Ring
import Mathlib.Tactic.Linarith
import Mathlib.Tactic.Positivity
import Mathlib.Tactic.FieldSimp

/-!
# Octree in another unit of length (helper lemmas for C108)
-/

namespace PiBem.Octree

variable {d : ℕ}

/-- The same mesh with all the lengths multiplied by `f`. -/
def scaleBy (f : ℚ) (inp : Input d) : Input d :=
  { inp with pos := fun i a => f * inp.pos i a, qpos := fun q a => f * inp.qpos q a }

/-- The same block with all the lengths multiplied by `f`. -/
def Block.scaled (f : ℚ) (b : Block d) : Block d := { b with pMin := fun a => f * b.pMin a, delta := f * b.delta }

/-- The same tree with all the lengths multiplied by `f`. -/
def St.scaled (f : ℚ) (T : St d) : St d := { T with blocks := fun k => (T.blocks k).scaled f }

variable {f : ℚ}

theorem maxCoor_scaled (hf : 0 < f) (inp : Input d) : maxCoor (scaleBy f inp) = f * maxCoor inp := by
  unfold maxCoor
  have hin : ∀ (i : ℕ) (l : List (Fin d)) (m : ℚ), l.foldl (fun m a => max m |f * inp.pos i a|) (f * m) =
      f * l.foldl (fun m a => max m |inp.pos i a|) m := by
    intro i l
    induction l with
    | nil => intro m; rfl
    | cons a l ih =>
      intro m
      rw [List.foldl_cons, List.foldl_cons, ← ih, abs_mul, abs_of_pos hf, mul_max_of_nonneg _ _ hf.le]
  have hout : ∀ (l : List ℕ) (m : ℚ), l.foldl (fun m i => (List.finRange d).foldl (fun m a => max m |f * inp.pos i a|) m) (f * m) =
      f * l.foldl (fun m i => (List.finRange d).foldl (fun m a => max m |inp.pos i a|) m) m := by
    intro l
    induction l with
    | nil => intro m; rfl
    | cons i l ih => intro m; rw [List.foldl_cons, List.foldl_cons, hin, ih]
  have := hout (List.range inp.nDofs) 0
  rw [mul_zero] at this
  exact this

theorem childIdx_scaled (hf : 0 < f) (p x : Pt d) (δ : ℚ) :
    childIdx d (fun a => f * p a) (f * δ) (fun a => f * x a) = childIdx d p δ x := by
  have key : ∀ a b : ℚ, f * a ≤ f * b + f * δ ↔ a ≤ b + δ := by
    intro a b
    rw [← mul_add]
    exact mul_le_mul_iff_of_pos_left hf
  match d, p, x with
  | 0, _, _ => rfl
  | 1, _, _ => rfl
  | 2, p, x => simp only [childIdx, childIdx2, key]
  | 3, p, x => simp only [childIdx, childIdx3, key]
  | _ + 4, _, _ => rfl

theorem mkChild_scaled (hf : 0 < f) (inp : Input d) (level : ℕ) (δ : ℚ) (jj : ℕ) (b : Block d) (j : ℕ) :
    mkChild (scaleBy f inp) level (f * δ) jj (b.scaled f) j = (mkChild inp level δ jj b j).scaled f := by
  unfold mkChild Block.scaled scaleBy childPMin
  simp only [Block.mk.injEq, true_and, and_true, childIdx_scaled hf]
  funext a
  rw [mul_add, mul_ite, mul_zero]

theorem addChild_scaled (jj : ℕ) (st : St d) (c : Block d) : addChild jj (st.scaled f) (c.scaled f) = (addChild jj st c).scaled f := by
  unfold addChild
  show (if 0 < c.nodes.length + c.qps.length then _ else _) = _
  split_ifs
  · simp only [St.scaled, St.mk.injEq, true_and]
    refine ⟨?_, rfl, rfl, rfl⟩
    funext k
    simp only [Function.update_apply]
    split_ifs <;> rfl
  · rfl

theorem splitBlock_scaled (hf : 0 < f) (inp : Input d) (level : ℕ) (δ : ℚ) (st : St d) (jj : ℕ) :
    splitBlock (scaleBy f inp) level (f * δ) (st.scaled f) jj = (splitBlock inp level δ st jj).scaled f := by
  unfold splitBlock
  refine List.foldl_hom (St.scaled f) fun s j => ?_
  rw [← addChild_scaled, ← mkChild_scaled hf]
  rfl

theorem classify_scaled (inp : Input d) (level : ℕ) (st : St d) (jj : ℕ) :
    classify (scaleBy f inp) level (st.scaled f) jj = (classify inp level st jj).scaled f := by
  unfold classify
  simp only
  show (St.mk _ _ _ _ _ _ _ _ _ _ _ _ : St d) = _
  have e : blockNumNodes (scaleBy f inp) ((st.scaled f).blocks jj) = blockNumNodes inp (st.blocks jj) := rfl
  simp only [e]
  by_cases h1 : roundUp (blockNumNodes inp (st.blocks jj)) ≤ (inp.maxNodes : ℤ)
  · rw [if_pos h1, if_pos (show roundUp (blockNumNodes inp (st.blocks jj)) ≤ ((scaleBy f inp).maxNodes : ℤ) from h1)]
    rfl
  · rw [if_neg h1, if_neg (show ¬ roundUp (blockNumNodes inp (st.blocks jj)) ≤ ((scaleBy f inp).maxNodes : ℤ) from h1)]
    rfl

theorem levelStep_scaled (hf : 0 < f) (inp : Input d) (level : ℕ) (st : St d) :
    levelStep (scaleBy f inp) level (st.scaled f) = (levelStep inp level st).scaled f := by
  unfold levelStep
  simp only
  rw [show 22 / 10 * maxCoor (scaleBy f inp) / 2 ^ level = f * (22 / 10 * maxCoor inp / 2 ^ level) by
    rw [maxCoor_scaled hf]; ring]
  have h1 : ((st.scaled f).parentList (level - 1)).foldl (splitBlock (scaleBy f inp) level (f * (22 / 10 * maxCoor inp / 2 ^ level))) (st.scaled f) =
      ((st.parentList (level - 1)).foldl (splitBlock inp level (22 / 10 * maxCoor inp / 2 ^ level)) st).scaled f :=
    List.foldl_hom (St.scaled f) fun s j => splitBlock_scaled hf inp level _ s j
  rw [h1]
  generalize (st.parentList (level - 1)).foldl (splitBlock inp level (22 / 10 * maxCoor inp / 2 ^ level)) st = st1
  exact List.foldl_hom (St.scaled f) (init := { st1 with
    startLevel := Function.update st1.startLevel level (st1.endLevel (level - 1) + 1)
    endLevel := Function.update st1.endLevel level (st1.count - 1) }) fun s j => classify_scaled inp level s j

theorem buildTo_scaled (hf : 0 < f) (inp : Input d) (n : ℕ) : buildTo (scaleBy f inp) n = (buildTo inp n).scaled f := by
  induction n with
  | zero =>
    show initSt (scaleBy f inp) = (initSt inp).scaled f
    have hr : rootBlock (scaleBy f inp) = (rootBlock inp).scaled f := by
      unfold rootBlock Block.scaled
      rw [maxCoor_scaled hf]
      simp only [Block.mk.injEq, true_and]
      refine ⟨?_, ?_, rfl, ?_⟩
      · funext a; ring
      · ring
      · exact ⟨rfl, trivial⟩
    unfold initSt St.scaled
    simp only [hr]
    rfl
  | succ n ih => rw [buildTo, buildTo, ih, levelStep_scaled hf]

/-- the tree of the scaled mesh is the scaled tree -/
theorem build_scaled (hf : 0 < f) (inp : Input d) : build (scaleBy f inp) = (build inp).scaled f := by
  unfold build
  rw [show (scaleBy f inp).levels = inp.levels from rfl, buildTo_scaled hf]
  rfl

/-! ## Grid of the finest boxes -/

/-- side of the finest boxes -/
def finest (inp : Input d) : ℚ := 22 / 10 * maxCoor inp / 2 ^ inp.levels

/-- the block is a union of boxes of the finest grid -/
def OnGrid (inp : Input d) (b : Block d) : Prop :=
  (∀ a, ∃ n : ℤ, b.pMin a = -(11 / 10) * maxCoor inp + finest inp * n) ∧ ∃ m : ℤ, b.delta = finest inp * m

theorem onGrid_build (inp : Input d) (k : ℕ) : OnGrid inp ((build inp).blocks k) := by
  have hadd : ∀ (jj : ℕ) (st : St d) (c : Block d), (∀ k, OnGrid inp (st.blocks k)) → OnGrid inp c →
      ∀ k, OnGrid inp ((addChild jj st c).blocks k) := by
    intro jj st c h hc k
    unfold addChild
    split_ifs
    · simp only [Function.update_apply]
      split_ifs
      · exact hc
      · exact h jj
      · exact h k
    · exact h k
  have hside : ∀ l, l ≤ inp.levels → 22 / 10 * maxCoor inp / 2 ^ l = finest inp * ((2 ^ (inp.levels - l) : ℕ) : ℤ) := by
    intro l hl
    unfold finest
    have e : (2 : ℚ) ^ inp.levels = 2 ^ (inp.levels - l) * 2 ^ l := by rw [← pow_add, Nat.sub_add_cancel hl]
    rw [e]
    push_cast
    field_simp
  have hchild : ∀ l, l ≤ inp.levels → ∀ jj (b : Block d) j, OnGrid inp b → OnGrid inp (mkChild inp l (22 / 10 * maxCoor inp / 2 ^ l) jj b j) := by
    intro l hl jj b j hb
    refine ⟨fun a => ?_, _, hside l hl⟩
    obtain ⟨n, hn⟩ := hb.1 a
    show ∃ n : ℤ, childPMin b.pMin _ j a = _
    unfold childPMin
    rw [hn, hside l hl]
    split_ifs
    · exact ⟨n + (2 ^ (inp.levels - l) : ℕ), by push_cast; ring⟩
    · exact ⟨n, by ring⟩
  have hfold : ∀ {α : Type} (g : St d → α → St d) (l : List α), (∀ s x, x ∈ l → (∀ k, OnGrid inp (s.blocks k)) → ∀ k, OnGrid inp ((g s x).blocks k)) →
      ∀ s, (∀ k, OnGrid inp (s.blocks k)) → ∀ k, OnGrid inp ((l.foldl g s).blocks k) := by
    intro α g l
    induction l with
    | nil => intro _ s h; exact h
    | cons x l ih =>
      intro hg s h
      rw [List.foldl_cons]
      exact ih (fun s y hy => hg s y (List.mem_cons_of_mem _ hy)) _ (hg s x List.mem_cons_self h)
  have hlevel : ∀ n, n ≤ inp.levels → ∀ k, OnGrid inp ((buildTo inp n).blocks k) := by
    intro n
    induction n with
    | zero =>
      intro _ k
      refine ⟨fun a => ⟨0, ?_⟩, ((2 ^ inp.levels : ℕ) : ℤ), ?_⟩
      · show -(11 / 10) * maxCoor inp = _
        push_cast; ring
      · have := hside 0 (Nat.zero_le _)
        rw [pow_zero, div_one, Nat.sub_zero] at this
        exact this
    | succ n ih =>
      intro hn
      rw [buildTo, levelStep]
      refine hfold _ _ ?_ _ ?_
      · intro s x _ h k
        unfold classify
        simp only
        split_ifs <;> exact h k
      · refine hfold _ _ ?_ _ (ih (by omega))
        intro s x _ h
        unfold splitBlock
        refine hfold _ _ ?_ _ h
        intro s' j _ h'
        exact hadd _ _ _ h' (hchild _ hn _ _ _ (h x))
  exact hlevel _ le_rfl k

theorem sign_scaled {δ : ℚ} (hf : 0 < f) (h1 : toll < δ) (h2 : toll < f * δ) (n : ℤ) :
    (f * (δ * n) ≤ toll ↔ δ * n ≤ toll) ∧ (|f * (δ * n)| ≤ toll ↔ |δ * n| ≤ toll) := by
  have h0 : (0 : ℚ) < toll := by unfold toll; norm_num
  have hδ : 0 < δ := h0.trans h1
  have key : ∀ ε : ℚ, toll < ε → ∀ n : ℤ, ε * n ≤ toll ↔ n ≤ 0 := by
    intro ε hε n
    have hε0 : 0 < ε := h0.trans hε
    constructor
    · intro h
      by_contra hn
      have : (1 : ℚ) ≤ n := by exact_mod_cast (show (1 : ℤ) ≤ n by omega)
      nlinarith
    · intro h
      have : (n : ℚ) ≤ 0 := by exact_mod_cast h
      nlinarith
  rw [← mul_assoc]
  refine ⟨by rw [key _ h2, key _ h1], ?_⟩
  rw [abs_mul (f * δ), abs_mul δ, abs_of_pos (show 0 < f * δ by positivity), abs_of_pos hδ, ← Int.cast_abs]
  rw [key _ h2, key _ h1]

/-- on the grid the neighbour tests do not depend on the unit of length -/
theorem adj_scaled {inp : Input d} (hf : 0 < f) (h1 : toll < finest inp) (h2 : toll < f * finest inp) {b b' : Block d}
    (hb : OnGrid inp b) (hb' : OnGrid inp b') : adj d (b.scaled f) (b'.scaled f) = adj d b b' := by
  have e1 : ∀ {x y : Block d}, OnGrid inp x → OnGrid inp y → ∀ a, ∃ n : ℤ, x.pMin a - y.pMax a = finest inp * n := by
    intro x y hx hy a
    obtain ⟨n, hn⟩ := hx.1 a
    obtain ⟨n', hn'⟩ := hy.1 a
    obtain ⟨m, hm⟩ := hy.2
    exact ⟨n - n' - m, by unfold Block.pMax; rw [hn, hn', hm]; push_cast; ring⟩
  have ht : ∀ a, touchAx (b.scaled f) (b'.scaled f) a = touchAx b b' a := by
    intro a
    obtain ⟨n, hn⟩ := e1 hb hb' a
    obtain ⟨n', hn'⟩ := e1 hb' hb a
    unfold touchAx
    congr 1
    · rw [decide_eq_decide, hn, ← (sign_scaled hf h1 h2 n).2, ← hn]
      show |f * b.pMin a - (f * b'.pMin a + f * b'.delta)| ≤ toll ↔ _
      rw [← mul_add, ← mul_sub]
      exact Iff.rfl
    · rw [decide_eq_decide, abs_sub_comm, abs_sub_comm (b.pMax a), hn', ← (sign_scaled hf h1 h2 n').2, ← hn']
      show |f * b'.pMin a - (f * b.pMin a + f * b.delta)| ≤ toll ↔ _
      rw [← mul_add, ← mul_sub]
      exact Iff.rfl
  have ho : ∀ a, overlapAx (b.scaled f) (b'.scaled f) a = overlapAx b b' a := by
    intro a
    obtain ⟨n, hn⟩ := e1 hb hb' a
    obtain ⟨n', hn'⟩ := e1 hb' hb a
    unfold overlapAx
    congr 1
    · rw [decide_eq_decide, sub_le_comm, sub_le_comm (a := b.pMin a), hn, ← (sign_scaled hf h1 h2 n).1, ← hn]
      show f * b.pMin a - (f * b'.pMin a + f * b'.delta) ≤ toll ↔ _
      rw [← mul_add, ← mul_sub]
      exact Iff.rfl
    · rw [decide_eq_decide, ge_iff_le, ge_iff_le, add_comm, ← sub_le_iff_le_add, add_comm (b.pMax a), ← sub_le_iff_le_add, hn',
        ← (sign_scaled hf h1 h2 n').1, ← hn']
      show f * b'.pMin a - (f * b.pMin a + f * b.delta) ≤ toll ↔ _
      rw [← mul_add, ← mul_sub]
      exact Iff.rfl
  match d, b, b', ht, ho with
  | 0, _, _, _, _ => rfl
  | 1, _, _, _, _ => rfl
  | 2, b, b', ht, ho => simp only [adj, adj2, ht, ho]
  | 3, b, b', ht, ho => simp only [adj, adj3, ht, ho]
  | _ + 4, _, _, _, _ => rfl

/-! ## Lists -/

variable {inp : Input d} {T : St d}

theorem nearNeigh_scaled (hadj : ∀ k b, adj d ((T.blocks k).scaled f) ((T.blocks b).scaled f) = adj d (T.blocks k) (T.blocks b)) :
    nearNeigh (scaleBy f inp) (T.scaled f) = nearNeigh inp T := by
  have h1 : ∀ k S, nnFirst (T.scaled f) k S = nnFirst T k S := by
    intro k S
    unfold nnFirst
    simp only [St.scaled, hadj]
    rfl
  have h2 : ∀ k S, nnNext (T.scaled f) k S = nnNext T k S := by
    intro k S
    unfold nnNext
    simp only [St.scaled, hadj]
    rfl
  have h3 : ∀ k S s, nnSub (T.scaled f) k S s = nnSub T k S s := by
    intro k S s
    induction s with
    | zero => rfl
    | succ s ih => rw [nnSub, nnSub, ih, h2]
  have h4 : nnStep (scaleBy f inp) (T.scaled f) = nnStep inp T := by
    funext k g s
    unfold nnStep
    rw [h3, h1]
    rfl
  unfold nearNeigh
  rw [h4]
  rfl

theorem intList_scaled (hadj : ∀ k b, adj d ((T.blocks k).scaled f) ((T.blocks b).scaled f) = adj d (T.blocks k) (T.blocks b)) :
    intList (scaleBy f inp) (T.scaled f) = intList inp T := by
  funext k s
  unfold intList
  rw [nearNeigh_scaled hadj]
  rfl

theorem nonIntList_scaled (hadj : ∀ k b, adj d ((T.blocks k).scaled f) ((T.blocks b).scaled f) = adj d (T.blocks k) (T.blocks b)) :
    nonIntList (scaleBy f inp) (T.scaled f) = nonIntList inp T := by
  funext k s
  unfold nonIntList
  rw [intList_scaled hadj]
  rfl

end PiBem.Octree
