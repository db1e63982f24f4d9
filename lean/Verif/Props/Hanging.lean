import Verif.Bem.Hanging
import Verif.Props.Nodes

/-!
# C75: hanging nodes
-/

namespace PiBem.Bem

variable {n d : ℕ}

/-! ## Specification -/

/-- `x` satisfies the line `x_i = Σ coefficients · x + g`; a line with a value that is not finite has no solution. -/
def LineHolds (x : Vec n) (i : Fin n) (es : List (Fin n × ℝ)) (g : Option ℝ) : Prop :=
  ∃ v, g = some v ∧ x i = (es.map fun e => e.2 * x e.1).sum + v

/-- `x` satisfies all the lines. -/
def LinesHold (c : Lines n) (x : Vec n) : Prop := ∀ i es g, c i = some (es, g) → LineHolds x i es g

/-- The value at every hanging node is the interpolation of the values at the ends of the edge. -/
def Interpolates (h : Hanging n) (x : Vec n) : Prop := ∀ i hs, h i = some hs → x i = (hs.map fun e => e.2 * x e.1).sum

/-! ## merge -/

theorem foldEntries_value {h : Hanging n} {x : Vec n} (hx : Interpolates h x) (es : List (Fin n × ℝ)) :
    ((foldEntries h es).map fun e => e.2 * x e.1).sum = (es.map fun e => e.2 * x e.1).sum := by
  unfold foldEntries
  induction es with
  | nil => rfl
  | cons e t ih =>
    rw [List.flatMap_cons, List.map_append, List.sum_append, ih, List.map_cons, List.sum_cons]
    congr 1
    cases he : h e.1 with
    | none => simp
    | some hs =>
      simp only [List.map_map]
      rw [hx e.1 hs he, ← List.sum_map_mul_left]
      congr 1
      refine List.map_congr_left fun f _ => ?_
      simp only [Function.comp_apply]; ring

theorem mergeLines_spec {c c' : Lines n} {h : Hanging n} (hm : mergeLines c h = some c') (x : Vec n) :
    LinesHold c' x ↔ LinesHold c x ∧ Interpolates h x := by
  unfold mergeLines at hm
  split_ifs at hm with hex
  push Not at hex
  cases hm
  have hi : ∀ i hs, h i = some hs → c i = none := by
    intro i hs hh
    by_contra hne
    exact hex i (Option.isSome_iff_ne_none.2 hne) (by rw [hh]; rfl)
  constructor
  · intro hx
    have hI : Interpolates h x := by
      intro i hs hh
      obtain ⟨v, hv, e⟩ := hx i hs (some 0) (by simp only [hi i hs hh, hh, Option.map_some])
      cases hv
      rw [e, add_zero]
    refine ⟨fun i es g hc => ?_, hI⟩
    obtain ⟨v, hv, e⟩ := hx i (foldEntries h es) g (by simp only [hc])
    exact ⟨v, hv, by rw [e, foldEntries_value hI]⟩
  · rintro ⟨hx, hI⟩ i es g hc
    simp only at hc
    cases h1 : c i with
    | none =>
      rw [h1] at hc
      simp only [Option.map_eq_some_iff] at hc
      obtain ⟨hs, hh, he⟩ := hc
      cases he
      exact ⟨0, rfl, by rw [hI i _ hh, add_zero]⟩
    | some l =>
      rw [h1] at hc
      obtain ⟨es', g'⟩ := l
      simp only [Option.some.injEq, Prod.mk.injEq] at hc
      obtain ⟨rfl, rfl⟩ := hc
      obtain ⟨v, hv, e⟩ := hx i es' g' h1
      exact ⟨v, hv, by rw [e, foldEntries_value hI]⟩

theorem mergeLines_dom {c c' : Lines n} {h : Hanging n} (hm : mergeLines c h = some c') (i : Fin n) :
    (c' i).isSome ↔ (c i).isSome ∨ (h i).isSome := by
  unfold mergeLines at hm
  split_ifs at hm
  cases hm
  cases h1 : c i <;> cases h2 : h i <;> simp [h1, h2]

/-! ## close -/

theorem addInhom_some {g g' : Option ℝ} {w v : ℝ} : addInhom g g' w = some v ↔ ∃ a b, g = some a ∧ g' = some b ∧ v = a + b * w := by
  unfold addInhom
  cases g <;> cases g' <;> simp [eq_comm]

/-- The line of `i` may be replaced by its expansion if the other lines hold. -/
theorem expandLine_spec {c : Lines n} {i : Fin n} {x : Vec n} (hx : ∀ j es g, j ≠ i → c j = some (es, g) → LineHolds x j es g)
    (fuel : ℕ) (done todo : List (Fin n × ℝ)) (g : Option ℝ) {es' : List (Fin n × ℝ)} {g' : Option ℝ}
    (h : expandLine c i fuel done todo g = some (es', g')) :
    (LineHolds x i es' g' ↔ LineHolds x i (done ++ todo) g) := by
  induction fuel generalizing done todo g with
  | zero => simp [expandLine] at h
  | succ fuel ih =>
    cases todo with
    | nil =>
      simp only [expandLine, Option.some.injEq, Prod.mk.injEq] at h
      obtain ⟨rfl, rfl⟩ := h
      simp
    | cons e todo =>
      rw [expandLine] at h
      cases hc : c e.1 with
      | none =>
        rw [hc] at h
        rw [ih _ _ _ h, List.append_assoc, List.singleton_append]
      | some l =>
        obtain ⟨es, g1⟩ := l
        rw [hc] at h
        simp only at h
        split_ifs at h with hei
        obtain ⟨v1, hv1, e1⟩ := hx e.1 es g1 hei hc
        have key : ∀ todo' : List (Fin n × ℝ),
            ((todo'.map fun f => f.2 * x f.1).sum = (todo.map fun f => f.2 * x f.1).sum + e.2 * (es.map fun f => f.2 * x f.1).sum) →
            (LineHolds x i (done ++ todo') (addInhom g g1 e.2) ↔ LineHolds x i (done ++ e :: todo) g) := by
          intro todo' ht
          unfold LineHolds
          simp only [List.map_append, List.sum_append, List.map_cons, List.sum_cons, ht, e1]
          constructor
          · rintro ⟨v, hv, he⟩
            obtain ⟨a, b, ha, hb, rfl⟩ := addInhom_some.1 hv
            rw [hv1] at hb; cases hb
            exact ⟨a, ha, by rw [he]; ring⟩
          · rintro ⟨v, hv, he⟩
            exact ⟨v + v1 * e.2, addInhom_some.2 ⟨v, v1, hv, hv1, rfl⟩, by rw [he]; ring⟩
        have hmul : ∀ l : List (Fin n × ℝ), ((l.map fun f => (f.1, f.2 * e.2)).map fun f => f.2 * x f.1).sum =
            e.2 * (l.map fun f => f.2 * x f.1).sum := by
          intro l
          rw [List.map_map, ← List.sum_map_mul_left]
          congr 1
          exact List.map_congr_left fun f _ => by simp only [Function.comp_apply]; ring
        cases es with
        | nil =>
          simp only at h
          rw [ih _ _ _ h]
          exact key todo (by simp)
        | cons f fs =>
          simp only at h
          rw [ih _ _ _ h]
          refine key _ ?_
          rw [List.cons_append, List.map_cons, List.sum_cons, List.map_append, List.sum_append, hmul, List.map_cons, List.sum_cons]
          ring

theorem expandLine_free {c : Lines n} {i : Fin n} (fuel : ℕ) (done todo : List (Fin n × ℝ)) (g : Option ℝ)
    {es' : List (Fin n × ℝ)} {g' : Option ℝ} (h : expandLine c i fuel done todo g = some (es', g'))
    (hd : ∀ e ∈ done, c e.1 = none) : ∀ e ∈ es', c e.1 = none := by
  induction fuel generalizing done todo g with
  | zero => simp [expandLine] at h
  | succ fuel ih =>
    cases todo with
    | nil =>
      simp only [expandLine, Option.some.injEq, Prod.mk.injEq] at h
      obtain ⟨rfl, rfl⟩ := h
      exact hd
    | cons e todo =>
      rw [expandLine] at h
      cases hc : c e.1 with
      | none =>
        rw [hc] at h
        refine ih _ _ _ h fun f hf => ?_
        rcases List.mem_append.1 hf with hf | hf
        · exact hd f hf
        · rw [List.mem_singleton.1 hf]; exact hc
      | some l =>
        obtain ⟨es, g1⟩ := l
        rw [hc] at h
        simp only at h
        split_ifs at h with hei
        cases es with
        | nil => exact ih _ _ _ h hd
        | cons f fs => exact ih _ _ _ h hd

theorem closeLines_spec (fuel : ℕ) (order : List (Fin n)) {c c' : Lines n} (h : closeLines fuel order c = some c') :
    (∀ i, (c' i).isSome ↔ (c i).isSome) ∧ (∀ x, LinesHold c' x ↔ LinesHold c x) ∧
    (∀ i, i ∈ order ∨ (∀ es g, c i = some (es, g) → ∀ e ∈ es, c e.1 = none) →
      ∀ es g, c' i = some (es, g) → ∀ e ∈ es, c' e.1 = none) := by
  induction order generalizing c with
  | nil =>
    have hcc : c = c' := by simpa [closeLines] using h
    subst hcc
    exact ⟨fun _ => Iff.rfl, fun _ => Iff.rfl, fun i hi => hi.resolve_left (by simp)⟩
  | cons a t ih =>
    unfold closeLines at h
    rw [List.foldlM_cons] at h
    cases hca : c a with
    | none =>
      rw [hca] at h
      obtain ⟨i1, i2, i3⟩ := ih (c := c) h
      refine ⟨i1, i2, fun i hi => ?_⟩
      by_cases hia : i = a
      · subst hia
        intro es g hc
        have := (i1 i).1 (by rw [hc]; rfl)
        rw [hca] at this; simp at this
      · exact i3 i (hi.imp (fun hm => (List.mem_cons.1 hm).resolve_left hia) id)
    | some l =>
      obtain ⟨es, g⟩ := l
      rw [hca] at h
      cases hl : expandLine c a fuel [] es g with
      | none => simp [hl] at h
      | some l' =>
        obtain ⟨es', g'⟩ := l'
        simp only [hl, Option.map_some] at h
        obtain ⟨i1, i2, i3⟩ := ih (c := Function.update c a (some (es', g'))) h
        have hdom : ∀ j, (Function.update c a (some (es', g')) j).isSome ↔ (c j).isSome := by
          intro j
          by_cases hj : j = a
          · subst hj; simp [hca]
          · simp [hj]
        have hnone : ∀ j, Function.update c a (some (es', g')) j = none ↔ c j = none := by
          intro j
          have := hdom j
          cases h1 : Function.update c a (some (es', g')) j <;> cases h2 : c j <;> simp_all
        refine ⟨fun i => (i1 i).trans (hdom i), fun x => (i2 x).trans ?_, fun i hi => ?_⟩
        · constructor
          · intro hx
            have hother : ∀ j es1 g1, j ≠ a → c j = some (es1, g1) → LineHolds x j es1 g1 := fun j es1 g1 hj hc =>
              hx j es1 g1 (by simp [hj, hc])
            intro j es1 g1 hc
            by_cases hj : j = a
            · subst hj
              rw [hca] at hc; cases hc
              have h1 := hx j es' g' (by simp)
              simpa using (expandLine_spec hother fuel [] es g hl).1 h1
            · exact hother j es1 g1 hj hc
          · intro hx
            have hother : ∀ j es1 g1, j ≠ a → c j = some (es1, g1) → LineHolds x j es1 g1 := fun j es1 g1 _ hc => hx j es1 g1 hc
            intro j es1 g1 hc
            by_cases hj : j = a
            · subst hj
              simp only [Function.update_self, Option.some.injEq, Prod.mk.injEq] at hc
              obtain ⟨rfl, rfl⟩ := hc
              exact (expandLine_spec hother fuel [] es g hl).2 (by simpa using hx j es g hca)
            · rw [Function.update_of_ne hj] at hc
              exact hx j es1 g1 hc
        · refine i3 i ?_
          by_cases hia : i = a
          · subst hia
            refine Or.inr fun es1 g1 hc e he => ?_
            simp only [Function.update_self, Option.some.injEq, Prod.mk.injEq] at hc
            obtain ⟨rfl, rfl⟩ := hc
            exact (hnone _).2 (expandLine_free fuel [] es g hl (by simp) e he)
          · refine hi.imp (fun hm => (List.mem_cons.1 hm).resolve_left hia) fun hf es1 g1 hc e he => ?_
            rw [Function.update_of_ne hia] at hc
            exact (hnone _).2 (hf es1 g1 hc e he)

/-! ### Termination -/

theorem expandLine_mono {c : Lines n} {i : Fin n} (fuel fuel' : ℕ) (hf : fuel ≤ fuel') (done todo : List (Fin n × ℝ))
    (g : Option ℝ) {r : List (Fin n × ℝ) × Option ℝ} (h : expandLine c i fuel done todo g = some r) :
    expandLine c i fuel' done todo g = some r := by
  induction fuel generalizing fuel' done todo g with
  | zero => simp [expandLine] at h
  | succ fuel ih =>
    obtain ⟨f', rfl⟩ : ∃ f', fuel' = f' + 1 := ⟨fuel' - 1, by omega⟩
    have hf : fuel ≤ f' := by omega
    cases todo with
    | nil => exact h
    | cons e todo =>
      rw [expandLine] at h ⊢
      cases hc : c e.1 with
      | none => rw [hc] at h; exact ih f' hf _ _ _ h
      | some l =>
        obtain ⟨es, g1⟩ := l
        rw [hc] at h
        simp only at h ⊢
        split_ifs at h with hei
        rw [if_neg hei]
        cases es with
        | nil => exact ih f' hf _ _ _ h
        | cons f fs => exact ih f' hf _ _ _ h

/-- Entries of the expansion of a line come after the line in an order compatible with the constraints. -/
theorem expandLine_rank {c : Lines n} {rank : Fin n → ℕ} (hr : ∀ i es g, c i = some (es, g) → ∀ e ∈ es, rank e.1 < rank i)
    {i : Fin n} (fuel : ℕ) (done todo : List (Fin n × ℝ)) (g : Option ℝ) {es' : List (Fin n × ℝ)} {g' : Option ℝ}
    (h : expandLine c i fuel done todo g = some (es', g')) (hd : ∀ e ∈ done ++ todo, rank e.1 < rank i) :
    ∀ e ∈ es', rank e.1 < rank i := by
  induction fuel generalizing done todo g with
  | zero => simp [expandLine] at h
  | succ fuel ih =>
    cases todo with
    | nil =>
      simp only [expandLine, Option.some.injEq, Prod.mk.injEq] at h
      obtain ⟨rfl, rfl⟩ := h
      simpa using hd
    | cons e todo =>
      rw [expandLine] at h
      cases hc : c e.1 with
      | none => rw [hc] at h; exact ih _ _ _ h (by simpa using hd)
      | some l =>
        obtain ⟨es, g1⟩ := l
        rw [hc] at h
        simp only at h
        split_ifs at h with hei
        have he : rank e.1 < rank i := hd e (by simp)
        have hes := hr e.1 es g1 hc
        cases es with
        | nil => exact ih _ _ _ h fun f hf => hd f (by simp at hf ⊢; tauto)
        | cons f fs =>
          refine ih _ _ _ h fun f' hf' => ?_
          simp only [List.cons_append, List.mem_append, List.mem_cons, List.mem_map] at hf'
          rcases hf' with hf' | rfl | hf' | ⟨f'', hf'', rfl⟩
          · exact hd f' (by simp [hf'])
          · exact lt_trans (hes f (by simp)) he
          · exact hd f' (by simp [hf'])
          · exact lt_trans (hes f'' (by simp [hf''])) he

theorem expandLine_ends {c : Lines n} {rank : Fin n → ℕ} (hr : ∀ i es g, c i = some (es, g) → ∀ e ∈ es, rank e.1 < rank i)
    (M : ℕ) (hM : ∀ i es g, c i = some (es, g) → es.length ≤ M) {i : Fin n} (fuel : ℕ) (done todo : List (Fin n × ℝ))
    (g : Option ℝ) (hd : ∀ e ∈ todo, rank e.1 < rank i)
    (hw : (todo.map fun e => (M + 1) ^ rank e.1).sum < fuel) : ∃ r, expandLine c i fuel done todo g = some r := by
  induction fuel generalizing done todo g with
  | zero => simp at hw
  | succ fuel ih =>
    cases todo with
    | nil => exact ⟨_, rfl⟩
    | cons e todo =>
      rw [expandLine]
      rw [List.map_cons, List.sum_cons] at hw
      have hpos : 0 < (M + 1) ^ rank e.1 := by positivity
      have hd' : ∀ e ∈ todo, rank e.1 < rank i := fun f hf => hd f (by simp [hf])
      cases hc : c e.1 with
      | none => exact ih _ _ _ hd' (by omega)
      | some l =>
        obtain ⟨es, g1⟩ := l
        have he : rank e.1 < rank i := hd e (by simp)
        have hei : e.1 ≠ i := fun h => by rw [h] at he; omega
        simp only [if_neg hei]
        have hes := hr e.1 es g1 hc
        cases es with
        | nil => exact ih _ _ _ hd' (by omega)
        | cons f fs =>
          have hlen := hM e.1 _ _ hc
          rw [List.length_cons] at hlen
          have hlt : rank f.1 < rank e.1 := hes f (by simp)
          obtain ⟨r, hrk⟩ : ∃ r, rank e.1 = r + 1 := ⟨rank e.1 - 1, by omega⟩
          have hle : ∀ f' ∈ f :: fs, (M + 1) ^ rank f'.1 ≤ (M + 1) ^ r := fun f' hf' =>
            Nat.pow_le_pow_right (by omega) (by have := hes f' hf'; omega)
          have hsum : ((f :: fs).map fun f' => (M + 1) ^ rank f'.1).sum ≤ M * (M + 1) ^ r := by
            refine le_trans (List.sum_le_card_nsmul _ ((M + 1) ^ r) ?_) ?_
            · intro v hv
              obtain ⟨f', hf', rfl⟩ := List.mem_map.1 hv
              exact hle f' hf'
            · rw [List.length_map, List.length_cons, smul_eq_mul]
              exact Nat.mul_le_mul_right _ hlen
          refine ih _ _ _ ?_ ?_
          · intro f' hf'
            simp only [List.cons_append, List.mem_cons, List.mem_append, List.mem_map] at hf'
            rcases hf' with rfl | hf' | ⟨f'', hf'', rfl⟩
            · exact lt_trans hlt he
            · exact hd' f' hf'
            · exact lt_trans (hes f'' (by simp [hf''])) he
          · have hcomp : ((fs.map fun f' => (f'.1, f'.2 * e.2)).map fun e => (M + 1) ^ rank e.1).sum =
                (fs.map fun f' => (M + 1) ^ rank f'.1).sum := by rw [List.map_map]; rfl
            rw [List.cons_append, List.map_cons, List.sum_cons, List.map_append, List.sum_append, hcomp]
            rw [List.map_cons, List.sum_cons] at hsum
            rw [hrk] at hw hpos
            rw [pow_succ] at hw hpos
            have : 0 < (M + 1) ^ r := by positivity
            nlinarith

/-- **C75**, `close()` ends if the constraints have no cycles. -/
theorem closeLines_ends {c : Lines n} {rank : Fin n → ℕ}
    (hr : ∀ i es g, c i = some (es, g) → ∀ e ∈ es, rank e.1 < rank i) (order : List (Fin n)) :
    ∃ fuel c', closeLines fuel order c = some c' := by
  have mono : ∀ (order : List (Fin n)) (c c' : Lines n) (fuel fuel' : ℕ), fuel ≤ fuel' → closeLines fuel order c = some c' →
      closeLines fuel' order c = some c' := by
    intro order
    induction order with
    | nil => intro c c' fuel fuel' _ h; simpa [closeLines] using h
    | cons a t ih =>
      intro c c' fuel fuel' hf h
      unfold closeLines at h ⊢
      rw [List.foldlM_cons] at h ⊢
      cases hca : c a with
      | none => rw [hca] at h; exact ih c c' fuel fuel' hf h
      | some l =>
        obtain ⟨es, g⟩ := l
        rw [hca] at h
        cases hl : expandLine c a fuel [] es g with
        | none => simp [hl] at h
        | some l' =>
          have hl' := expandLine_mono fuel fuel' hf [] es g hl
          simp only [hl, Option.map_some] at h
          simp only [hl', Option.map_some]
          exact ih _ c' fuel fuel' hf h
  induction order generalizing c with
  | nil => exact ⟨0, c, rfl⟩
  | cons a t ih =>
    cases hca : c a with
    | none =>
      obtain ⟨fuel, c', h⟩ := ih hr
      refine ⟨fuel, c', ?_⟩
      unfold closeLines at h ⊢
      rw [List.foldlM_cons, hca]
      exact h
    | some l =>
      obtain ⟨es, g⟩ := l
      obtain ⟨M, hM⟩ : ∃ M, ∀ i es g, c i = some (es, g) → es.length ≤ M := by
        refine ⟨∑ i, ((c i).map fun l => l.1.length).getD 0, fun i es g hc => ?_⟩
        have := Finset.single_le_sum (f := fun i => ((c i).map fun l => l.1.length).getD 0) (fun _ _ => Nat.zero_le _)
          (Finset.mem_univ i)
        simpa [hc] using this
      obtain ⟨l', hl⟩ := expandLine_ends hr M hM (i := a) _ [] es g (hr a es g hca) (Nat.lt_succ_self _)
      obtain ⟨es', g'⟩ := l'
      have hr' : ∀ i es g, Function.update c a (some (es', g')) i = some (es, g) → ∀ e ∈ es, rank e.1 < rank i := by
        intro i es1 g1 hc
        by_cases hia : i = a
        · subst hia
          simp only [Function.update_self, Option.some.injEq, Prod.mk.injEq] at hc
          obtain ⟨rfl, rfl⟩ := hc
          exact expandLine_rank hr _ [] es g hl (by simpa using hr i es g hca)
        · rw [Function.update_of_ne hia] at hc
          exact hr i es1 g1 hc
      obtain ⟨fuel, c', h⟩ := ih hr'
      refine ⟨max fuel ((es.map fun e => (M + 1) ^ rank e.1).sum + 1), c', ?_⟩
      have h1 := mono t _ c' fuel _ (le_max_left _ ((es.map fun e => (M + 1) ^ rank e.1).sum + 1)) h
      have h2 := expandLine_mono _ _ (le_max_right fuel ((es.map fun e => (M + 1) ^ rank e.1).sum + 1)) [] es g hl
      unfold closeLines at h1 ⊢
      rw [List.foldlM_cons, hca]
      simp only [h2, Option.map_some]
      exact h1

/-! ## Double nodes -/

/-- Specification of the conditions at double nodes, `G i` the dofs at the position of `i`: a Neumann node next to Dirichlet ones
takes the datum of the first of them; Neumann nodes have equal unknowns; with continuous gradients the normal derivatives at
two or more Dirichlet nodes are those computed from normals and surface gradients. -/
structure DoubleNodes (D : NodeData n d) (G : Fin n → Finset (Fin n)) (x : Vec n) : Prop where
  mixed : ∀ i l, D.dirichlet i = 0 → IsFirstDirichlet D (G i) l → x i = D.tmpRhs l
  neumann : ∀ i l, (∀ j ∈ G i, D.dirichlet j = 0) → l ∈ G i → (∀ j ∈ G i, l ≤ j) → x i = x l
  follower : D.continuosGradient = true → ∀ i l, D.dirichlet i = 1 → IsFirstDirichlet D (G i) l → i ≠ l →
    otherNormalGradient D l i = some (x i)
  first : D.continuosGradient = true → ∀ i m, IsFirstDirichlet D (G i) i → IsLastDirichlet D (G i) m → m ≠ i →
    thisNormalGradient D i m = some (x i)

theorem doubleLines_iff (D : NodeData n d) (G : Fin n → Finset (Fin n)) (hrefl : ∀ i, i ∈ G i)
    (heq : ∀ i j, j ∈ G i → G j = G i) (hd : ∀ i, D.dirichlet i = 0 ∨ D.dirichlet i = 1) (x : Vec n) :
    LinesHold (doubleNodeConstraints D G) x ↔ DoubleNodes D G x := by
  have C := C31_double_node_constraints D G hrefl heq hd
  constructor
  · intro hx
    refine ⟨fun i l hi hl => ?_, fun i l hi hl hm => ?_, fun hg i l hi hl hne => ?_, fun hg i m hi hm hne => ?_⟩
    · obtain ⟨v, hv, e⟩ := hx i _ _ ((C i).1 hi l hl)
      cases hv; simpa using e
    · have h1 := (C i).2.1 hi l hl hm
      by_cases hil : i = l
      · rw [hil]
      · rw [if_neg hil] at h1
        obtain ⟨v, hv, e⟩ := hx i _ _ h1
        cases hv; simpa using e
    · obtain ⟨v, hv, e⟩ := hx i _ _ ((C i).2.2.2.1 hi hg l hl hne)
      rw [hv, e]; simp
    · have h1 := (C i).2.2.2.2 hg hi m hm
      rw [if_neg hne] at h1
      obtain ⟨v, hv, e⟩ := hx i _ _ h1
      rw [hv, e]; simp
  · intro hx i es g hc
    by_cases hex : ∃ j ∈ G i, D.dirichlet j = 1
    · obtain ⟨l, hl⟩ := exists_firstDirichlet D (G i) hex
      rcases hd i with hi | hi
      · rw [(C i).1 hi l hl] at hc
        cases hc
        exact ⟨_, rfl, by simpa using hx.mixed i l hi hl⟩
      · cases hg : D.continuosGradient with
        | false => rw [(C i).2.2.1 hi hg] at hc; cases hc
        | true =>
          by_cases hil : i = l
          · subst hil
            classical
            have hne : ((G i).filter (fun j => D.dirichlet j = 1)).Nonempty := ⟨i, by simp [hrefl i, hi]⟩
            have hm := Finset.max'_mem _ hne
            rw [Finset.mem_filter] at hm
            have hlast : IsLastDirichlet D (G i) (((G i).filter (fun j => D.dirichlet j = 1)).max' hne) :=
              ⟨hm.1, hm.2, fun k hk hkd => Finset.le_max' _ _ (by simp [hk, hkd])⟩
            rw [(C i).2.2.2.2 hg hl _ hlast] at hc
            split_ifs at hc with hmi
            cases hc
            exact ⟨x i, hx.first hg i _ hl hlast hmi, by simp⟩
          · rw [(C i).2.2.2.1 hi hg l hl hil] at hc
            cases hc
            exact ⟨x i, hx.follower hg i l hi hl hil, by simp⟩
    · push Not at hex
      have hno : ∀ j ∈ G i, D.dirichlet j = 0 := fun j hj => (hd j).resolve_right (hex j hj)
      have hne : (G i).Nonempty := ⟨i, hrefl i⟩
      have h1 := (C i).2.1 hno ((G i).min' hne) (Finset.min'_mem _ _) (fun k hk => Finset.min'_le _ _ hk)
      rw [h1] at hc
      split_ifs at hc
      cases hc
      exact ⟨0, rfl, by simpa using hx.neumann i _ hno (Finset.min'_mem _ hne) (fun k hk => Finset.min'_le _ _ hk)⟩

/-- The dofs with a line. -/
theorem doubleLines_dom (D : NodeData n d) (G : Fin n → Finset (Fin n)) (hrefl : ∀ i, i ∈ G i)
    (heq : ∀ i j, j ∈ G i → G j = G i) (hd : ∀ i, D.dirichlet i = 0 ∨ D.dirichlet i = 1) (i : Fin n) :
    (doubleNodeConstraints D G i).isSome ↔
      (D.dirichlet i = 0 ∧ ∃ j ∈ G i, D.dirichlet j = 1) ∨
      ((∀ j ∈ G i, D.dirichlet j = 0) ∧ ∃ j ∈ G i, j < i) ∨
      (D.dirichlet i = 1 ∧ D.continuosGradient = true ∧ ∃ j ∈ G i, j ≠ i ∧ D.dirichlet j = 1) := by
  have C := C31_double_node_constraints D G hrefl heq hd i
  by_cases hex : ∃ j ∈ G i, D.dirichlet j = 1
  · have hno : ¬ ∀ j ∈ G i, D.dirichlet j = 0 := by
      rintro h
      obtain ⟨j, hj, h1⟩ := hex
      rw [h j hj] at h1; norm_num at h1
    obtain ⟨l, hl⟩ := exists_firstDirichlet D (G i) hex
    rcases hd i with hi | hi
    · rw [C.1 hi l hl]
      simp [hi, hex]
    · cases hg : D.continuosGradient with
      | false =>
        rw [C.2.2.1 hi hg]
        simp [hi, hno]
      | true =>
        by_cases hil : i = l
        · subst hil
          classical
          have hne : ((G i).filter (fun j => D.dirichlet j = 1)).Nonempty := ⟨i, by simp [hrefl i, hi]⟩
          have hm := Finset.max'_mem _ hne
          rw [Finset.mem_filter] at hm
          have hlast : IsLastDirichlet D (G i) (((G i).filter (fun j => D.dirichlet j = 1)).max' hne) :=
            ⟨hm.1, hm.2, fun k hk hkd => Finset.le_max' _ _ (by simp [hk, hkd])⟩
          rw [C.2.2.2.2 hg hl _ hlast]
          simp only [hi, hno, false_and, false_or, true_and, one_ne_zero]
          split_ifs with hmi
          · simp only [Option.isSome_none, Bool.false_eq_true, false_iff]
            rintro ⟨j, hj, hji, hjd⟩
            have h1 := hlast.2.2 j hj hjd
            rw [hmi] at h1
            exact hji (le_antisymm h1 (hl.2.2 j hj hjd))
          · simp only [Option.isSome_some, true_iff]
            exact ⟨_, hm.1, hmi, hm.2⟩
        · rw [C.2.2.2.1 hi hg l hl hil]
          simp only [Option.isSome_some, hi, true_and, true_iff]
          exact Or.inr (Or.inr ⟨l, hl.1, fun h => hil h.symm, hl.2.1⟩)
  · have hno : ∀ j ∈ G i, D.dirichlet j = 0 := by
      push Not at hex
      exact fun j hj => (hd j).resolve_right (hex j hj)
    have hne : (G i).Nonempty := ⟨i, hrefl i⟩
    rw [C.2.1 hno ((G i).min' hne) (Finset.min'_mem _ _) (fun k hk => Finset.min'_le _ _ hk)]
    have h0 := hno i (hrefl i)
    simp only [hex, and_false, false_or, h0, zero_ne_one, false_and, or_false]
    split_ifs with him
    · simp only [Option.isSome_none, Bool.false_eq_true, false_iff]
      rintro ⟨_, j, hj, hji⟩
      have := Finset.min'_le _ _ hj
      rw [← him] at this
      exact absurd hji (not_lt.2 this)
    · simp only [Option.isSome_some, true_iff]
      exact ⟨hno, _, Finset.min'_mem _ hne, lt_of_le_of_ne (Finset.min'_le _ _ (hrefl i)) (Ne.symm him)⟩

/-! ## C75 -/

/-- **C75**. If `compute_constraints` succeeds, a vector of unknowns satisfies the constraints of the solver iff it satisfies the
conditions at the double nodes and the interpolation conditions at the hanging nodes; the constrained dofs are those with
one of the two conditions; the entries of all constraints are unconstrained dofs. -/
theorem C75_constraints (D : NodeData n d) (G : Fin n → Finset (Fin n)) (hrefl : ∀ i, i ∈ G i)
    (heq : ∀ i j, j ∈ G i → G j = G i) (hd : ∀ i, D.dirichlet i = 0 ∨ D.dirichlet i = 1) (h : Hanging n) (fuel : ℕ)
    (order : List (Fin n)) (hord : ∀ i, i ∈ order) {c : Lines n} (hc : computeConstraints D G h fuel order = some c) :
    (∀ x, LinesHold c x ↔ DoubleNodes D G x ∧ Interpolates h x) ∧
    (∀ i, (c i).isSome ↔ (h i).isSome ∨ (D.dirichlet i = 0 ∧ ∃ j ∈ G i, D.dirichlet j = 1) ∨
      ((∀ j ∈ G i, D.dirichlet j = 0) ∧ ∃ j ∈ G i, j < i) ∨
      (D.dirichlet i = 1 ∧ D.continuosGradient = true ∧ ∃ j ∈ G i, j ≠ i ∧ D.dirichlet j = 1)) ∧
    (∀ i es g, c i = some (es, g) → ∀ e ∈ es, c e.1 = none) := by
  unfold computeConstraints at hc
  cases hm : mergeLines (doubleNodeConstraints D G) h with
  | none => simp [hm] at hc
  | some c1 =>
    rw [hm, Option.bind_some] at hc
    obtain ⟨h1, h2, h3⟩ := closeLines_spec fuel order hc
    refine ⟨fun x => ?_, fun i => ?_, fun i => h3 i (Or.inl (hord i))⟩
    · rw [h2, mergeLines_spec hm, doubleLines_iff D G hrefl heq hd]
    · rw [h1, mergeLines_dom hm, doubleLines_dom D G hrefl heq hd, or_comm]

/-- **C75**. The program stops with an exception when a hanging node has also a condition as a double node, and only then if
there is an order of the dofs such that each condition refers to preceding ones. -/
theorem C75_exception (D : NodeData n d) (G : Fin n → Finset (Fin n)) (hrefl : ∀ i, i ∈ G i)
    (heq : ∀ i j, j ∈ G i → G j = G i) (hd : ∀ i, D.dirichlet i = 0 ∨ D.dirichlet i = 1) (h : Hanging n)
    (order : List (Fin n)) :
    let conflict := ∃ i, (h i).isSome ∧ ((D.dirichlet i = 0 ∧ ∃ j ∈ G i, D.dirichlet j = 1) ∨
      ((∀ j ∈ G i, D.dirichlet j = 0) ∧ ∃ j ∈ G i, j < i) ∨
      (D.dirichlet i = 1 ∧ D.continuosGradient = true ∧ ∃ j ∈ G i, j ≠ i ∧ D.dirichlet j = 1))
    (conflict → ∀ fuel, computeConstraints D G h fuel order = none) ∧
    (¬ conflict → ∀ rank : Fin n → ℕ, (∀ i hs, h i = some hs → ∀ e ∈ hs, rank e.1 < rank i) →
      (∀ i es g, doubleNodeConstraints D G i = some (es, g) → ∀ e ∈ es, rank e.1 < rank i) →
      ∃ fuel c, computeConstraints D G h fuel order = some c) := by
  intro conflict
  have hiff : conflict ↔ ∃ i, (doubleNodeConstraints D G i).isSome ∧ (h i).isSome := by
    refine exists_congr fun i => ?_
    rw [doubleLines_dom D G hrefl heq hd, and_comm]
  constructor
  · intro hcf fuel
    unfold computeConstraints mergeLines
    rw [if_pos (hiff.1 hcf)]
    rfl
  · intro hcf rank hr1 hr2
    rw [hiff] at hcf
    unfold computeConstraints mergeLines
    rw [if_neg hcf]
    simp only [Option.bind_some]
    refine closeLines_ends (rank := rank) ?_ order
    intro i es g hc e he
    cases h1 : doubleNodeConstraints D G i with
    | none =>
      rw [h1] at hc
      simp only [Option.map_eq_some_iff] at hc
      obtain ⟨hs, hh, hee⟩ := hc
      cases hee
      exact hr1 i _ hh e he
    | some l =>
      rw [h1] at hc
      obtain ⟨es', g'⟩ := l
      simp only [Option.some.injEq, Prod.mk.injEq] at hc
      obtain ⟨rfl, rfl⟩ := hc
      unfold foldEntries at he
      obtain ⟨f, hf, he⟩ := List.mem_flatMap.1 he
      have hfr := hr2 i _ _ h1 f hf
      cases hh : h f.1 with
      | none => rw [hh] at he; rw [List.mem_singleton.1 he]; exact hfr
      | some hs =>
        rw [hh] at he
        obtain ⟨f', hf', rfl⟩ := List.mem_map.1 he
        exact lt_trans (hr1 f.1 hs hh f' hf') hfr

/-- The unknown at every node after `solve_system`: the normal derivative at Dirichlet nodes, the potential at the others. -/
def unknown (S : Finset (Fin n)) (phi dphi : Vec n) : Vec n := merge S dphi phi

/-- **C75**, after an exact solve with Dirichlet nodes `S` and data `tmpRhs`: the boundary integral equation holds at every dof
which is neither hanging nor constrained as a double node; the conditions at the double nodes hold; the unknowns, and not
the potential or the normal derivative, are interpolated at the hanging nodes: the potential is if the node and the ends
are Neumann nodes, the normal derivative if they are Dirichlet nodes. -/
theorem C75_after_solve (P : Problem n) (S : Finset (Fin n)) (hS : Masks P S) (hb : P.haveDirichletBc = true)
    (D : NodeData n d) (hD : D.dirichlet = P.dirichletNodes) (G : Fin n → Finset (Fin n)) (hrefl : ∀ i, i ∈ G i)
    (heq : ∀ i j, j ∈ G i → G j = G i) (h : Hanging n) (fuel : ℕ) (order : List (Fin n)) (hord : ∀ i, i ∈ order)
    {c : Lines n} (hc : computeConstraints D G h fuel order = some c)
    (hfin : ∀ i es g, c i = some (es, g) → g.isSome) (procs : ℕ) (own : Fin n → ℕ) (sol phi0 dphi0 : Vec n)
    (hphi : ∀ i ∈ S, phi0 i = D.tmpRhs i) (hdphi : ∀ i, i ∉ S → dphi0 i = D.tmpRhs i)
    (hsol : constrainedVmult procs own (vmult P) (toConstraints c) sol = distributeRhs (toConstraints c) (computeRhs P 0 D.tmpRhs)) :
    let phi := (storeSolution P.dirichletNodes sol phi0 dphi0).1
    let dphi := (storeSolution P.dirichletNodes sol phi0 dphi0).2
    (∀ i, h i = none → ¬ ((i ∉ S ∧ ∃ j ∈ G i, j ∈ S) ∨ ((∀ j ∈ G i, j ∉ S) ∧ ∃ j ∈ G i, j < i) ∨
      (i ∈ S ∧ D.continuosGradient = true ∧ ∃ j ∈ G i, j ≠ i ∧ j ∈ S)) →
      BIE P.neumannMatrix P.dirichletMatrix P.alpha phi dphi i) ∧
    DoubleNodes D G (unknown S phi dphi) ∧
    Interpolates h (unknown S phi dphi) ∧
    (∀ i hs, h i = some hs → i ∉ S → (∀ e ∈ hs, e.1 ∉ S) → phi i = (hs.map fun e => e.2 * phi e.1).sum) ∧
    (∀ i hs, h i = some hs → i ∈ S → (∀ e ∈ hs, e.1 ∈ S) → dphi i = (hs.map fun e => e.2 * dphi e.1).sum) := by
  intro phi dphi
  have hdir : ∀ i, D.dirichlet i = if i ∈ S then 1 else 0 := fun i => by rw [hD]; exact hS.dirichlet i
  have hd : ∀ i, D.dirichlet i = 0 ∨ D.dirichlet i = 1 := by
    intro i; rw [hdir]; split_ifs <;> simp
  have hd0 : ∀ i, D.dirichlet i = 0 ↔ i ∉ S := by intro i; rw [hdir]; split_ifs with hi <;> simp [hi]
  have hd1 : ∀ i, D.dirichlet i = 1 ↔ i ∈ S := by intro i; rw [hdir]; split_ifs with hi <;> simp [hi]
  obtain ⟨c1, c2, c3⟩ := C75_constraints D G hrefl heq hd h fuel order hord hc
  obtain ⟨b1, _⟩ := C25_after_solve P S hS hb procs own (toConstraints c) D.tmpRhs sol phi0 dphi0 hphi hdphi hsol
  obtain ⟨s1, _⟩ := (C22_constrained_solution procs own (vmult P) _ sol _).mp hsol
  have hstore : phi = merge S phi0 sol ∧ dphi = merge S sol dphi0 := by
    have := C26_prescribed_data_kept P S hS sol phi0 dphi0
    exact ⟨congrArg Prod.fst this, congrArg Prod.snd this⟩
  have hu : unknown S phi dphi = sol := by
    funext i
    rw [hstore.1, hstore.2]
    unfold unknown merge
    split_ifs <;> rfl
  have hlines : LinesHold c sol := by
    intro i es g hci
    obtain ⟨v, hv⟩ := Option.isSome_iff_exists.1 (hfin i es g hci)
    subst hv
    exact ⟨v, rfl, s1 i es v (by simp [toConstraints, hci])⟩
  obtain ⟨l1, l2⟩ := (c1 sol).1 hlines
  refine ⟨fun i hi hno => b1 i ?_, hu ▸ l1, hu ▸ l2, fun i hs hh hiS hall => ?_, fun i hs hh hiS hall => ?_⟩
  · have : c i = none := by
      rw [← Option.not_isSome_iff_eq_none, c2 i, hi]
      simp only [hd0, hd1]
      rintro (h1 | h1)
      · simp at h1
      · exact hno h1
    simp [toConstraints, this]
  · have := l2 i hs hh
    have e : ∀ j, j ∉ S → phi j = sol j := fun j hj => by rw [hstore.1]; simp [merge, hj]
    rw [e i hiS, this]
    congr 1
    exact List.map_congr_left fun f hf => by rw [e f.1 (hall f hf)]
  · have := l2 i hs hh
    have e : ∀ j, j ∈ S → dphi j = sol j := fun j hj => by rw [hstore.2]; simp [merge, hj]
    rw [e i hiS, this]
    congr 1
    exact List.map_congr_left fun f hf => by rw [e f.1 (hall f hf)]

/-- **C75**. If the double nodes are those on the boundary faces of the mesh (C30) and no hanging node is on a boundary face, then
`compute_constraints` succeeds. -/
theorem C75_succeeds (tol : ℝ) (htol : 0 < tol) (edge : List (Fin n)) (pts : Fin n → Fin d → ℝ)
    (hsep : ∀ i ∈ edge, ∀ j ∈ edge, pdist (pts i) (pts j) < tol → pts i = pts j)
    (D : NodeData n d) (hd : ∀ i, D.dirichlet i = 0 ∨ D.dirichlet i = 1) (h : Hanging n)
    (hclosed : ∀ i hs, h i = some hs → ∀ e ∈ hs, h e.1 = none) (hedge : ∀ i ∈ edge, h i = none) (order : List (Fin n)) :
    ∃ fuel c, computeConstraints D (doubleNodes tol edge pts) h fuel order = some c := by
  obtain ⟨g1, _, g3, g4⟩ := C30_double_nodes tol htol edge pts
  have heq := g4 hsep
  have halone : ∀ i, (h i).isSome → ∀ j ∈ doubleNodes tol edge pts i, j = i := by
    intro i hi j hj
    rcases (g3 i j).1 hj with rfl | ⟨h1, _⟩
    · rfl
    · rw [hedge i h1] at hi; simp at hi
  refine (C75_exception D _ g1 heq hd h order).2 ?_
    (fun i => if (h i).isSome then 2 else if (doubleNodeConstraints D (doubleNodes tol edge pts) i).isSome then 1 else 0) ?_ ?_
  · rintro ⟨i, hi, h1⟩
    have hal := halone i hi
    rcases h1 with ⟨h0, j, hj, h1⟩ | ⟨_, j, hj, h1⟩ | ⟨_, _, j, hj, h1, _⟩
    · rw [hal j hj, h0] at h1; norm_num at h1
    · rw [hal j hj] at h1; exact lt_irrefl _ h1
    · exact h1 (hal j hj)
  · intro i hs hh e he
    have h1 := hclosed i hs hh e he
    simp only [hh, h1, Option.isSome_some, Option.isSome_none, if_true, Bool.false_eq_true, if_false]
    split_ifs <;> norm_num
  · intro i es g hc e he
    have h1 := C31_no_chains D _ g1 heq hd i es g hc e he
    have h2 : h e.1 = none := by
      by_contra hne
      have hal := halone e.1 (Option.isSome_iff_ne_none.2 hne)
      -- the entry belongs to the group of `i`
      obtain ⟨c1, c2, c3, c4, c5⟩ := C31_double_node_constraints D _ g1 heq hd i
      have hmem : e.1 ∈ doubleNodes tol edge pts i := by
        by_cases hex : ∃ j ∈ doubleNodes tol edge pts i, D.dirichlet j = 1
        · exfalso
          obtain ⟨l, hl⟩ := exists_firstDirichlet D _ hex
          rcases hd i with hi | hi
          · rw [c1 hi l hl] at hc; cases hc; simp at he
          · cases hg : D.continuosGradient with
            | false => rw [c3 hi hg] at hc; cases hc
            | true =>
              by_cases hil : i = l
              · subst hil
                classical
                have hne : ((doubleNodes tol edge pts i).filter (fun j => D.dirichlet j = 1)).Nonempty :=
                  ⟨i, by simp [g1 i, hi]⟩
                have hm := Finset.max'_mem _ hne
                rw [Finset.mem_filter] at hm
                rw [c5 hg hl _ ⟨hm.1, hm.2, fun k hk hkd => Finset.le_max' _ _ (by simp [hk, hkd])⟩] at hc
                split_ifs at hc
                cases hc; simp at he
              · rw [c4 hi hg l hl hil] at hc; cases hc; simp at he
        · push Not at hex
          have hno : ∀ j ∈ doubleNodes tol edge pts i, D.dirichlet j = 0 := fun j hj => (hd j).resolve_right (hex j hj)
          have hne : (doubleNodes tol edge pts i).Nonempty := ⟨i, g1 i⟩
          rw [c2 hno _ (Finset.min'_mem _ hne) (fun k hk => Finset.min'_le _ _ hk)] at hc
          split_ifs at hc
          cases hc
          rw [List.mem_singleton.1 he]
          exact Finset.min'_mem _ hne
      have hie : i = e.1 := hal i (by rw [heq i e.1 hmem]; exact g1 i)
      rw [← hie, hc] at h1
      cases h1
    simp only [h1, h2, hc, Option.isSome_none, Bool.false_eq_true, if_false, Option.isSome_some, if_true]
    split_ifs <;> norm_num

/-! ### Ghost entries -/

theorem mem_constrCpuSet (c : Lines n) (own : Fin n → ℕ) (proc : ℕ) (j : Fin n) :
    j ∈ constrCpuSet c own proc ↔ own j = proc ∨ ∃ i es g, own i = proc ∧ c i = some (es, g) ∧ ∃ w, (j, w) ∈ es := by
  have inner : ∀ (es : List (Fin n × ℝ)) (s : Finset (Fin n)),
      j ∈ es.foldl (fun s e => insert e.1 s) s ↔ j ∈ s ∨ ∃ w, (j, w) ∈ es := by
    intro es
    induction es with
    | nil => intro s; simp
    | cons e t ih =>
      intro s
      obtain ⟨a, b⟩ := e
      rw [List.foldl_cons, ih, Finset.mem_insert]
      simp only [List.mem_cons, Prod.mk.injEq]
      constructor
      · rintro ((rfl | h) | ⟨w, h⟩)
        · exact Or.inr ⟨b, Or.inl ⟨rfl, rfl⟩⟩
        · exact Or.inl h
        · exact Or.inr ⟨w, Or.inr h⟩
      · rintro (h | ⟨w, ⟨rfl, _⟩ | h⟩)
        · exact Or.inl (Or.inr h)
        · exact Or.inl (Or.inl rfl)
        · exact Or.inr ⟨w, h⟩
  have hstep : ∀ (s : Finset (Fin n)) (a : Fin n), j ∈ constrCpuStep c own proc s a ↔
      j ∈ s ∨ own a = proc ∧ (j = a ∨ ∃ es g, c a = some (es, g) ∧ ∃ w, (j, w) ∈ es) := by
    intro s a
    unfold constrCpuStep
    split_ifs with ho
    · cases hc : c a with
      | none => simp [ho, or_comm]
      | some l =>
        obtain ⟨es, g⟩ := l
        simp only [inner, Finset.mem_insert, ho, true_and, Option.some.injEq, Prod.mk.injEq]
        constructor
        · rintro ((h | h) | h)
          · exact Or.inr (Or.inl h)
          · exact Or.inl h
          · exact Or.inr (Or.inr ⟨es, g, ⟨rfl, rfl⟩, h⟩)
        · rintro (h | h | ⟨es', g', ⟨rfl, rfl⟩, h⟩)
          · exact Or.inl (Or.inr h)
          · exact Or.inl (Or.inl h)
          · exact Or.inr h
    · simp [ho]
  have outer : ∀ (l : List (Fin n)) (s : Finset (Fin n)), j ∈ l.foldl (constrCpuStep c own proc) s ↔
      j ∈ s ∨ ∃ i ∈ l, own i = proc ∧ (j = i ∨ ∃ es g, c i = some (es, g) ∧ ∃ w, (j, w) ∈ es) := by
    intro l
    induction l with
    | nil => intro s; simp
    | cons a t ih =>
      intro s
      rw [List.foldl_cons, ih, hstep, or_assoc]
      simp only [List.mem_cons, exists_eq_or_imp]
  unfold constrCpuSet
  rw [outer]
  simp only [Finset.notMem_empty, false_or, List.mem_finRange, true_and]
  constructor
  · rintro ⟨i, ho, rfl | ⟨es, g, hc, hw⟩⟩
    · exact Or.inl ho
    · exact Or.inr ⟨i, es, g, ho, hc, hw⟩
  · rintro (ho | ⟨i, es, g, ho, hc, hw⟩)
    · exact ⟨j, ho, Or.inl rfl⟩
    · exact ⟨i, ho, Or.inr ⟨es, g, hc, hw⟩⟩

/-- **C75**. The index set of a process contains its dofs and the entries of the constraints of its dofs, nothing else; with it
the constrained operator never reads an entry which the process does not have, and computes what it would compute with
the whole vector. -/
theorem C75_ghosts (c : Lines n) (own : Fin n → ℕ) (k : ℕ) :
    (∀ j, j ∈ constrCpuSet c own k ↔ own j = k ∨ ∃ i es g, own i = k ∧ c i = some (es, g) ∧ ∃ w, (j, w) ∈ es) ∧
    ∀ (A : Vec n → Vec n) (src : Vec n),
      ghostVmult A (toConstraints c) own k (constrCpuSet c own k) src = some (vmultLocal A (toConstraints c) own k src) := by
  refine ⟨mem_constrCpuSet c own k, fun A src => ?_⟩
  have step : ∀ (dst : LocalVec ℝ n) (i : Fin n), ghostStep (toConstraints c) own k (constrCpuSet c own k) src dst i =
      some (vmultStep (toConstraints c) own k src dst i) := by
    intro dst i
    unfold ghostStep vmultStep
    cases hc : c i with
    | none => simp [toConstraints, hc]
    | some l =>
      obtain ⟨es, g⟩ := l
      have htc : toConstraints c i = some (es, g.getD 0) := by simp [toConstraints, hc]
      rw [htc]
      simp only
      split_ifs with ho
      · have hin : ∀ e ∈ es, e.1 ∈ constrCpuSet c own k := fun e he =>
          (mem_constrCpuSet c own k e.1).2 (Or.inr ⟨i, es, g, ho, hc, e.2, he⟩)
        clear hc htc
        generalize Function.update dst i (dst i + (src i - dst i)) = dst'
        induction es generalizing dst' with
        | nil => rfl
        | cons e t ih =>
          rw [List.foldlM_cons, List.foldl_cons, if_pos (hin e (by simp))]
          exact ih (fun e he => hin e (by simp [he])) _
      · rfl
  unfold ghostVmult vmultLocal
  generalize (fun i => if own i = k then A src i else 0) = dst
  generalize List.finRange n = l
  induction l generalizing dst with
  | nil => rfl
  | cons a t ih =>
    rw [List.foldlM_cons, step, List.foldl_cons]
    exact ih _

/-! ### Examples -/

theorem expandLine_done {c : Lines n} {i : Fin n} (todo : List (Fin n × ℝ)) (hf : ∀ e ∈ todo, c e.1 = none) (fuel : ℕ)
    (hl : todo.length < fuel) (done : List (Fin n × ℝ)) (g : Option ℝ) :
    expandLine c i fuel done todo g = some (done ++ todo, g) := by
  induction todo generalizing fuel done with
  | nil =>
    cases fuel with
    | zero => simp at hl
    | succ k => simp [expandLine]
  | cons e t ih =>
    cases fuel with
    | zero => simp at hl
    | succ k =>
      rw [expandLine, hf e (by simp)]
      simp only
      rw [ih (fun e he => hf e (by simp [he])) k (by simp at hl; omega)]
      simp

/-- Without double nodes the constraints are those of the hanging nodes. -/
theorem constraints_no_doubles (D : NodeData n d) (hd : ∀ i, D.dirichlet i = 0 ∨ D.dirichlet i = 1) (h : Hanging n)
    (hclosed : ∀ i hs, h i = some hs → ∀ e ∈ hs, h e.1 = none) (fuel : ℕ) (hlen : ∀ i hs, h i = some hs → hs.length < fuel)
    (order : List (Fin n)) :
    computeConstraints D (fun i => {i}) h fuel order = some fun i => (h i).map fun hs => (hs, some 0) := by
  have hnone : ∀ i, doubleNodeConstraints D (fun i => {i}) i = none := by
    intro i
    rw [← Option.not_isSome_iff_eq_none, doubleLines_dom D _ (by simp) (by simp) hd]
    rintro (⟨h0, j, hj, h1⟩ | ⟨_, j, hj, h1⟩ | ⟨_, _, j, hj, h1, _⟩)
    · rw [Finset.mem_singleton.1 hj, h0] at h1; norm_num at h1
    · rw [Finset.mem_singleton.1 hj] at h1; exact lt_irrefl _ h1
    · exact h1 (Finset.mem_singleton.1 hj)
  unfold computeConstraints mergeLines
  rw [if_neg (by simp [hnone])]
  simp only [hnone, Option.bind_some]
  unfold closeLines
  induction order with
  | nil => rfl
  | cons a t ih =>
    rw [List.foldlM_cons]
    cases ha : h a with
    | none => simpa [ha] using ih
    | some hs =>
      have : expandLine (fun i => (h i).map fun hs => (hs, some (0 : ℝ))) a fuel [] hs (some 0) = some ([] ++ hs, some 0) :=
        expandLine_done hs (fun e he => by simp [hclosed a hs ha e he]) fuel (hlen a hs ha) [] (some 0)
      simp only [ha, Option.map_some, this, List.nil_append]
      have hupd : Function.update (fun i => (h i).map fun hs => (hs, some (0 : ℝ))) a (some (hs, some 0)) =
          fun i => (h i).map fun hs => (hs, some (0 : ℝ)) := by
        funext j
        by_cases hj : j = a
        · subst hj; simp [ha]
        · simp [hj]
      rw [hupd]
      exact ih

/-- The midpoint of the edge with ends 0 and 1 is the hanging node 2. -/
noncomputable def midpoint : Hanging 3 := fun i => if i = 2 then some [(0, 1 / 2), (1, 1 / 2)] else none

theorem midpoint_closed : ∀ i hs, midpoint i = some hs → ∀ e ∈ hs, midpoint e.1 = none := by
  intro i hs hh e he
  unfold midpoint at hh
  split_ifs at hh with hi
  cases hh
  simp only [List.mem_cons, List.not_mem_nil, or_false] at he
  rcases he with rfl | rfl <;> simp [midpoint]

theorem midpoint_length : ∀ i hs, midpoint i = some hs → hs.length < 3 := by
  intro i hs hh
  unfold midpoint at hh
  split_ifs at hh with hi
  cases hh
  simp

/-- The hypotheses of the theorems above hold for a mesh with a hanging node: double nodes 0, 1 and hanging node 2 in the middle of
the edge between 0 and 3; the unknown at 2 is the mean of those at 3 and at 0, which follows 1. -/
example :
    let G : Fin 4 → Finset (Fin 4) := fun i => if i = 0 ∨ i = 1 then {0, 1} else {i}
    let D : NodeData 4 2 := ⟨fun _ => 0, fun _ => 0, fun _ => ![1, 0], fun _ => ![0, 0], true⟩
    let h : Hanging 4 := fun i => if i = 2 then some [(1, 1 / 2), (3, 1 / 2)] else none
    ∃ fuel c, computeConstraints D G h fuel (List.finRange 4) = some c ∧
      ∀ x, LinesHold c x ↔ x 1 = x 0 ∧ x 2 = (x 0 + x 3) / 2 := by
  intro G D h
  have hr : ∀ i, i ∈ G i := by decide
  have he : ∀ i j, j ∈ G i → G j = G i := by decide
  have hd : ∀ i, D.dirichlet i = 0 ∨ D.dirichlet i = 1 := fun i => Or.inl rfl
  have hds : ∀ i es g, doubleNodeConstraints D G i = some (es, g) → i = 1 ∧ es = [(0, 1)] := by
    intro i es g hc
    have hm : ∀ i : Fin 4, ∃ m, m ∈ G i ∧ (∀ k ∈ G i, m ≤ k) ∧ (m = i ∨ (i = 1 ∧ m = 0)) := by decide
    obtain ⟨m, m1, m2, m3⟩ := hm i
    rw [(C31_double_node_constraints D G hr he hd i).2.1 (fun j _ => rfl) m m1 m2] at hc
    split_ifs at hc with him
    simp only [Option.some.injEq, Prod.mk.injEq] at hc
    rcases m3 with rfl | ⟨rfl, rfl⟩
    · exact absurd rfl him
    · exact ⟨rfl, hc.1.symm⟩
  obtain ⟨fuel, c, hc⟩ := (C75_exception D G hr he hd h (List.finRange 4)).2
    (by
      rintro ⟨i, hi, h1⟩
      have hi2 : i = 2 := by
        by_contra hne; simp [h, hne] at hi
      subst hi2
      rcases h1 with ⟨_, j, _, h1⟩ | ⟨_, j, hj, h1⟩ | ⟨h1, _⟩
      · simp [D] at h1
      · have : j = 2 := by simpa [G] using hj
        subst this; exact lt_irrefl _ h1
      · simp [D] at h1) ![0, 1, 2, 0]
    (by
      intro i hs hh e hes
      simp only [h] at hh
      split_ifs at hh with hi
      cases hh; subst hi
      simp only [List.mem_cons, List.not_mem_nil, or_false] at hes
      rcases hes with rfl | rfl <;> simp)
    (by
      intro i es g hc e hes
      obtain ⟨rfl, rfl⟩ := hds i es g hc
      rw [List.mem_singleton.1 hes]; simp)
  refine ⟨fuel, c, hc, fun x => ?_⟩
  rw [(C75_constraints D G hr he hd h fuel _ (fun i => List.mem_finRange i) hc).1 x]
  constructor
  · rintro ⟨a1, a2⟩
    have h1 : x 1 = x 0 := a1.neumann 1 0 (fun j _ => rfl) (by decide) (by decide)
    have h2 := a2 2 _ (by simp [h]; rfl)
    simp at h2
    exact ⟨h1, by rw [h2, h1]; ring⟩
  · rintro ⟨h1, h2⟩
    refine ⟨⟨fun i l _ hl => ?_, fun i l _ hl hm => ?_, fun _ i l hi => ?_, fun _ i m hi => ?_⟩, fun i hs hh => ?_⟩
    · have := hl.2.1; simp [D] at this
    · have key : ∀ i l : Fin 4, l ∈ G i → (∀ k ∈ G i, l ≤ k) → l = i ∨ (i = 1 ∧ l = 0) := by decide
      rcases key i l hl hm with rfl | ⟨rfl, rfl⟩
      · rfl
      · exact h1
    · simp [D] at hi
    · have := hi.2.1; simp [D] at this
    · simp only [h] at hh
      split_ifs at hh with hi
      cases hh; subst hi
      simp [h1, h2]; ring

/-- An exception: a hanging node which is also a double node. -/
example :
    let G : Fin 3 → Finset (Fin 3) := fun i => if i = 1 ∨ i = 2 then {1, 2} else {i}
    let D : NodeData 3 2 := ⟨fun _ => 0, fun _ => 0, fun _ => ![1, 0], fun _ => ![0, 0], true⟩
    ∀ fuel order, computeConstraints D G midpoint fuel order = none := by
  intro G D fuel order
  refine (C75_exception D G (by decide) (by decide) (fun i => Or.inl rfl) midpoint order).1 ⟨2, by simp [midpoint], Or.inr (Or.inl ?_)⟩ fuel
  exact ⟨fun j _ => rfl, 1, by decide, by decide⟩

end PiBem.Bem
