import Verif.App.TwoSides
import Verif.Props.Domain
import Mathlib.Tactic.Ring
import Mathlib.Tactic.FieldSimp
import Mathlib.Tactic.Positivity
import Mathlib.Data.List.GetD

/-!
# C80: conformity restored along a doubled edge
-/

namespace PiBem.App

/-! ## Specification -/

/-- An edge bisected uniformly `d` times. -/
def uniform : ℕ → Sub
  | 0 => .leaf
  | d + 1 => .node (uniform d) (uniform d)

/-- Wherever only one of the two sides is bisected, this part of the edge is bisected uniformly. -/
def Restorable : Sub → Sub → Prop
  | .leaf, T => ∃ d, T = uniform d
  | S, .leaf => ∃ d, S = uniform d
  | .node l r, .node l' r' => Restorable l l' ∧ Restorable r r'

/-- `S` is obtained from `U` by bisecting some of its edges once. -/
def Refined : Sub → Sub → Prop
  | .leaf, S => S = .leaf ∨ S = .node .leaf .leaf
  | .node _ _, .leaf => False
  | .node l r, .node l' r' => Refined l l' ∧ Refined r r'

/-- `S` is obtained from `U` by bisecting some of its edges once and by joining some pairs of edges obtained by the last bisection. -/
def Adapted : Sub → Sub → Prop
  | .leaf, S => S = .leaf ∨ S = .node .leaf .leaf
  | .node l r, .leaf => l = .leaf ∧ r = .leaf
  | .node l r, .node l' r' => Adapted l l' ∧ Adapted r r'

/-! ## Vertices of a side -/

/-- `a` and `b` are consecutive vertices. -/
def Next (V : List ℝ) (a b : ℝ) : Prop := a ∈ V ∧ b ∈ V ∧ a < b ∧ ∀ z ∈ V, z ≤ a ∨ b ≤ z

theorem pts_head (T : Sub) (x y : ℝ) : ∃ t, T.pts x y = x :: t := by
  induction T generalizing x y with
  | leaf => exact ⟨[], rfl⟩
  | node l r ihl ihr =>
    obtain ⟨t, ht⟩ := ihl x ((x + y) / 2)
    exact ⟨t ++ r.pts ((x + y) / 2) y, by simp [Sub.pts, ht]⟩

theorem mem_pts (T : Sub) (x y : ℝ) (h : x < y) : (∀ z ∈ T.pts x y, x ≤ z ∧ z < y) ∧ (T.pts x y).Pairwise (· < ·) := by
  induction T generalizing x y with
  | leaf => simp [Sub.pts, h]
  | node l r ihl ihr =>
    obtain ⟨a1, a2⟩ := ihl x ((x + y) / 2) (by linarith)
    obtain ⟨b1, b2⟩ := ihr ((x + y) / 2) y (by linarith)
    refine ⟨fun z hz => ?_, ?_⟩
    · rcases List.mem_append.1 hz with hz | hz
      · have := a1 z hz; constructor <;> linarith
      · have := b1 z hz; constructor <;> linarith
    · refine List.pairwise_append.2 ⟨a2, b2, fun a ha b hb => ?_⟩
      linarith [(a1 a ha).2, (b1 b hb).1]

theorem side_sorted (T : Sub) (x y : ℝ) (h : x < y) : (T.side x y).Pairwise (· < ·) := by
  obtain ⟨a, b⟩ := mem_pts T x y h
  refine List.pairwise_append.2 ⟨b, by simp, fun u hu v hv => ?_⟩
  simp only [List.mem_singleton] at hv
  rw [hv]
  exact (a u hu).2

theorem mem_side_bounds {T : Sub} {x y z : ℝ} (h : x < y) (hz : z ∈ T.side x y) : x ≤ z ∧ z ≤ y := by
  rcases List.mem_append.1 hz with hz | hz
  · have := (mem_pts T x y h).1 z hz
    exact ⟨this.1, this.2.le⟩
  · simp only [List.mem_singleton] at hz
    rw [hz]; exact ⟨h.le, le_refl _⟩

theorem left_mem (T : Sub) (x y : ℝ) : x ∈ T.side x y := by
  obtain ⟨t, ht⟩ := pts_head T x y
  simp [Sub.side, ht]

theorem right_mem (T : Sub) (x y : ℝ) : y ∈ T.side x y := by simp [Sub.side]

theorem mem_side_node {l r : Sub} {x y z : ℝ} : z ∈ (Sub.node l r).side x y ↔
    z ∈ l.side x ((x + y) / 2) ∨ z ∈ r.side ((x + y) / 2) y := by
  have := left_mem r ((x + y) / 2) y
  simp only [Sub.side, Sub.pts, List.mem_append, List.mem_singleton] at this ⊢
  constructor
  · tauto
  · rintro ((h | h) | h)
    · exact Or.inl (Or.inl h)
    · rw [h]
      rcases this with h | h
      · exact Or.inl (Or.inr h)
      · exact Or.inr h
    · tauto

theorem next_node {l r : Sub} {x y a b : ℝ} (h : x < y) : Next ((Sub.node l r).side x y) a b ↔
    Next (l.side x ((x + y) / 2)) a b ∨ Next (r.side ((x + y) / 2) y) a b := by
  have hm1 : x < (x + y) / 2 := by linarith
  have hm2 : (x + y) / 2 < y := by linarith
  have bl : ∀ z ∈ l.side x ((x + y) / 2), x ≤ z ∧ z ≤ (x + y) / 2 := fun z hz => mem_side_bounds hm1 hz
  have br : ∀ z ∈ r.side ((x + y) / 2) y, (x + y) / 2 ≤ z ∧ z ≤ y := fun z hz => mem_side_bounds hm2 hz
  have ml := right_mem l x ((x + y) / 2)
  have mr := left_mem r ((x + y) / 2) y
  constructor
  · rintro ⟨ha, hb, hab, hz⟩
    rw [mem_side_node] at ha hb
    have hz' : ∀ z, z ∈ l.side x ((x + y) / 2) ∨ z ∈ r.side ((x + y) / 2) y → z ≤ a ∨ b ≤ z := fun z h => hz z (mem_side_node.2 h)
    rcases hz' _ (Or.inl ml) with hm | hm
    · right
      refine ⟨?_, ?_, hab, fun z h => hz' z (Or.inr h)⟩
      · rcases ha with ha | ha
        · have : a = (x + y) / 2 := le_antisymm (bl a ha).2 hm
          rw [this]; exact mr
        · exact ha
      · rcases hb with hb | hb
        · have := (bl b hb).2; exact absurd hab (by linarith)
        · exact hb
    · left
      refine ⟨?_, ?_, hab, fun z h => hz' z (Or.inl h)⟩
      · rcases ha with ha | ha
        · exact ha
        · have := (br a ha).1; exact absurd hab (by linarith)
      · rcases hb with hb | hb
        · exact hb
        · have : b = (x + y) / 2 := le_antisymm hm (br b hb).1
          rw [this]; exact ml
  · rintro (⟨ha, hb, hab, hz⟩ | ⟨ha, hb, hab, hz⟩)
    · refine ⟨mem_side_node.2 (Or.inl ha), mem_side_node.2 (Or.inl hb), hab, fun z h => ?_⟩
      rcases mem_side_node.1 h with h | h
      · exact hz z h
      · right; exact le_trans (bl b hb).2 (br z h).1
    · refine ⟨mem_side_node.2 (Or.inr ha), mem_side_node.2 (Or.inr hb), hab, fun z h => ?_⟩
      rcases mem_side_node.1 h with h | h
      · left; exact le_trans (bl z h).2 (br a ha).1
      · exact hz z h

theorem next_leaf {x y a b : ℝ} (h : x < y) : Next (Sub.leaf.side x y) a b ↔ a = x ∧ b = y := by
  unfold Next
  simp only [Sub.side, Sub.pts, List.singleton_append, List.mem_cons, List.not_mem_nil, or_false]
  constructor
  · rintro ⟨ha | ha, hb | hb, hab, _⟩
    · linarith
    · exact ⟨ha, hb⟩
    · linarith
    · linarith
  · rintro ⟨rfl, rfl⟩
    refine ⟨Or.inl rfl, Or.inr rfl, h, ?_⟩
    rintro z (rfl | rfl)
    · exact Or.inl (le_refl _)
    · exact Or.inr (le_refl _)

theorem next_index {p : List ℝ} (hp : p.Pairwise (· < ·)) {a b : ℝ} :
    Next p a b ↔ ∃ k, k + 1 < p.length ∧ p.getD k 0 = a ∧ p.getD (k + 1) 0 = b := by
  rw [List.pairwise_iff_getElem] at hp
  constructor
  · rintro ⟨ha, hb, hab, hz⟩
    obtain ⟨k, hk, rfl⟩ := List.getElem_of_mem ha
    obtain ⟨j, hj, rfl⟩ := List.getElem_of_mem hb
    have hkj : k < j := by
      by_contra hc
      rcases Nat.lt_or_ge j k with h | h
      · exact absurd (hp j k hj hk h) (by linarith)
      · have : j = k := by omega
        subst this; exact lt_irrefl _ hab
    have : j = k + 1 := by
      by_contra hne
      have h1 : k + 1 < j := by omega
      rcases hz p[k + 1] (List.getElem_mem _) with h | h
      · exact absurd (hp k (k + 1) hk (by omega) (by omega)) (by linarith)
      · exact absurd (hp (k + 1) j (by omega) hj h1) (by linarith)
    subst this
    exact ⟨k, hj, List.getD_eq_getElem _ _ hk, List.getD_eq_getElem _ _ hj⟩
  · rintro ⟨k, hk, rfl, rfl⟩
    rw [List.getD_eq_getElem _ _ (show k < p.length by omega), List.getD_eq_getElem _ _ hk]
    refine ⟨List.getElem_mem _, List.getElem_mem _, hp k (k + 1) _ _ (by omega), fun z hz => ?_⟩
    obtain ⟨j, hj, rfl⟩ := List.getElem_of_mem hz
    rcases Nat.lt_trichotomy j k with h | h | h
    · exact Or.inl (hp j k hj _ h).le
    · subst h; exact Or.inl (le_refl _)
    · right
      rcases Nat.lt_or_ge (k + 1) j with h2 | h2
      · exact (hp (k + 1) j _ hj h2).le
      · have : j = k + 1 := by omega
        subst this; exact le_refl _

/-! ## One pass on the mesh -/

/-- A vertex of `p` not in `q` whose neighbours have sum `s`. -/
def Trip (p q : List ℝ) (s : ℝ) : Prop := ∃ a i b, Next p a i ∧ Next p i b ∧ i ∉ q ∧ a + b = s

theorem foldl_bind (f : ℕ → Option (List (ECell × ℕ))) (g : ℕ → List (ECell × ℕ)) (l : List ℕ) (hf : ∀ i ∈ l, f i = some (g i))
    (r : List (ECell × ℕ)) :
    l.foldl (fun r i => r.bind fun l => (f i).map (l ++ ·)) (some r) = some (r ++ l.flatMap g) := by
  induction l generalizing r with
  | nil => simp
  | cons a t ih =>
    rw [List.foldl_cons, hf a (by simp)]
    simp only [Option.bind_some, Option.map_some]
    rw [ih (fun i hi => hf i (by simp [hi]))]
    simp

section Pass

variable {p q : List ℝ} {tol : ℝ}

theorem pos_left {k : ℕ} (hk : k < p.length) : (twoSides p q).pos k = p.getD k 0 := by
  simp only [twoSides]
  rw [List.getD_append _ _ _ _ hk]

theorem pos_right {k : ℕ} : (twoSides p q).pos (p.length + k) = q.getD k 0 := by
  simp only [twoSides]
  rw [List.getD_append_right _ _ _ _ (by omega)]
  congr 1; omega

theorem filter_range_pair (n i : ℕ) (hi : 0 < i) (hn : i < n) :
    (List.range n).filter (fun k => decide (i = k ∨ i = k + 1)) = [i - 1, i] := by
  induction n with
  | zero => omega
  | succ n ih =>
    rw [List.range_succ, List.filter_append]
    rcases Nat.lt_or_ge i n with h | h
    · rw [ih h]
      simp only [List.filter_cons, List.filter_nil]
      rw [if_neg (by simp; omega)]
      rfl
    · have : i = n := by omega
      subst this
      have h0 : (List.range i).filter (fun k => decide (i = k ∨ i = k + 1)) = [i - 1] := by
        obtain ⟨m, rfl⟩ := Nat.exists_eq_succ_of_ne_zero hi.ne'
        rw [List.range_succ, List.filter_append]
        have : (List.range m).filter (fun k => decide (m + 1 = k ∨ m + 1 = k + 1)) = [] := by
          rw [List.filter_eq_nil_iff]
          intro k hk
          have := List.mem_range.1 hk
          simp; omega
        simp only [Nat.succ_eq_add_one] at this ⊢
        rw [this]
        simp
      rw [h0]
      simp

theorem elems_left {i : ℕ} (h0 : 0 < i) (h1 : i + 1 < p.length) :
    vertToElems (twoSides p q) i = [cellOf (i - 1), cellOf i] := by
  unfold vertToElems twoSides
  simp only [List.filter_append, List.filter_map, Function.comp_def, cellOf, List.mem_cons, List.not_mem_nil, or_false]
  rw [filter_range_pair _ i h0 (by omega)]
  have : (List.range (q.length - 1)).filter (fun k => decide (i = p.length + k ∨ i = p.length + k + 1)) = [] := by
    rw [List.filter_eq_nil_iff]
    intro k _
    simp; omega
  rw [this]
  simp [cellOf]

theorem elems_right {i : ℕ} (h0 : 0 < i) (h1 : i + 1 < q.length) :
    vertToElems (twoSides p q) (p.length + i) = [cellOf (p.length + i - 1), cellOf (p.length + i)] := by
  unfold vertToElems twoSides
  simp only [List.filter_append, List.filter_map, Function.comp_def, cellOf, List.mem_cons, List.not_mem_nil, or_false]
  have e : (List.range (q.length - 1)).filter (fun k => decide (p.length + i = p.length + k ∨ p.length + i = p.length + k + 1)) =
      (List.range (q.length - 1)).filter (fun k => decide (i = k ∨ i = k + 1)) := by
    refine List.filter_congr fun k _ => ?_
    rw [decide_eq_decide]
    omega
  rw [e, filter_range_pair _ i h0 (by omega)]
  have : (List.range (p.length - 1)).filter (fun k => decide (p.length + i = k ∨ p.length + i = k + 1)) = [] := by
    rw [List.filter_eq_nil_iff]
    intro k hk
    have := List.mem_range.1 hk
    simp; omega
  rw [this]
  simp
  omega

theorem otherEnd_left (htol : 0 < tol) {M : EMesh ℝ} {i : ℕ} (h : tol ≤ |M.pos (i + 1) - M.pos i|) :
    otherEnd (fun a b => |a - b|) tol M (i + 1) (cellOf i) = some (M.pos i) := by
  simp [otherEnd, cellOf, htol, not_lt.2 h]

theorem otherEnd_right (htol : 0 < tol) {M : EMesh ℝ} {i : ℕ} :
    otherEnd (fun a b => |a - b|) tol M i (cellOf i) = some (M.pos (i + 1)) := by
  simp [otherEnd, cellOf, htol]

/-- The cells of the mesh. -/
theorem mem_cells {c : ECell} : c ∈ (twoSides p q).cells ↔
    ∃ k, c = cellOf k ∧ (k + 1 < p.length ∨ p.length ≤ k ∧ k + 1 < p.length + q.length) := by
  simp only [twoSides, List.mem_append, List.mem_map, List.mem_range]
  constructor
  · rintro (⟨k, hk, rfl⟩ | ⟨k, hk, rfl⟩)
    · exact ⟨k, rfl, Or.inl (by omega)⟩
    · exact ⟨p.length + k, rfl, Or.inr (by omega)⟩
  · rintro ⟨k, rfl, h | h⟩
    · exact Or.inl ⟨k, by omega, rfl⟩
    · exact Or.inr ⟨k - p.length, by omega, by congr 1; omega⟩

/-- Distances between vertices, and between midpoints, are zero or larger than the tolerance. -/
structure Separated (p q : List ℝ) (tol : ℝ) : Prop where
  pos : 0 < tol
  points : ∀ s t, (s ∈ p ∨ s ∈ q) → (t ∈ p ∨ t ∈ q) → s ≠ t → tol < |s - t|
  mids : ∀ a b u v, (a ∈ p ∨ a ∈ q) → (b ∈ p ∨ b ∈ q) → (u ∈ p ∨ u ∈ q) → (v ∈ p ∨ v ∈ q) → a + b ≠ u + v →
    tol ≤ |(a + b) / 2 - (u + v) / 2|

theorem pos_mem {k : ℕ} (hk : k < (twoSides p q).nVerts) : (twoSides p q).pos k ∈ p ∨ (twoSides p q).pos k ∈ q := by
  have hk' : k < (p ++ q).length := by rw [List.length_append]; exact hk
  rw [← List.mem_append]
  simp only [twoSides]
  rw [List.getD_eq_getElem _ _ hk']
  exact List.getElem_mem _

theorem onBoundary {i : ℕ} (hp : 2 ≤ p.length) (hq : 2 ≤ q.length) (hi : i < (twoSides p q).nVerts) :
    OnBoundary (twoSides p q) i := by
  have hi' : i < p.length + q.length := hi
  by_cases h1 : i + 1 < p.length ∨ p.length ≤ i ∧ i + 1 < p.length + q.length
  · exact ⟨cellOf i, mem_cells.2 ⟨i, rfl, h1⟩, by simp [cellOf], (0, i, i + 1), by simp [cellOf], Or.inl rfl⟩
  · push Not at h1
    refine ⟨cellOf (i - 1), mem_cells.2 ⟨i - 1, rfl, ?_⟩, ?_, (0, i - 1, i - 1 + 1), by simp [cellOf], Or.inr ?_⟩
    · by_cases h2 : i < p.length
      · left; omega
      · right; have := h1.2 (by omega); omega
    · simp only [cellOf, List.mem_cons, List.not_mem_nil, or_false]; omega
    · show (twoSides p q).pos (i - 1 + 1) = _
      congr 1; omega

/-- Vertices without double. -/
theorem single_left (S : Separated p q tol) (hp : p.Pairwise (· < ·)) {i : ℕ} (hi : i < p.length) :
    (doubleVertices (fun a b => |a - b|) tol (twoSides p q) i).length = 1 ↔ p.getD i 0 ∉ q := by
  rw [(C50_double_vertices (fun a b : ℝ => |a - b|) (fun a b => abs_sub_comm a b) (fun a => by simp) tol S.pos.le (twoSides p q) i
    (by show i < p.length + q.length; omega)).2.2.2.2]
  rw [pos_left hi]
  have hmem : p.getD i 0 ∈ p := by rw [List.getD_eq_getElem _ _ hi]; exact List.getElem_mem _
  rw [List.pairwise_iff_getElem] at hp
  constructor
  · intro h hq
    obtain ⟨j, hj, he⟩ := List.getElem_of_mem hq
    have := h (p.length + j) (by show p.length + j < p.length + q.length; omega) (by
      rw [pos_right, List.getD_eq_getElem _ _ hj, he]; simp [S.pos.le])
    omega
  · intro h j hj hd
    have heq : (twoSides p q).pos j = p.getD i 0 := by
      by_contra hne
      have := S.points _ _ (Or.inl hmem) (pos_mem hj) (Ne.symm hne)
      linarith
    by_cases hjp : j < p.length
    · rw [pos_left hjp, List.getD_eq_getElem _ _ hjp, List.getD_eq_getElem _ _ hi] at heq
      rcases Nat.lt_trichotomy j i with h1 | h1 | h1
      · exact absurd (hp j i hjp hi h1) (by linarith)
      · exact h1
      · exact absurd (hp i j hi hjp h1) (by linarith)
    · exfalso
      have hj' : j < p.length + q.length := hj
      obtain ⟨k, rfl⟩ : ∃ k, j = p.length + k := ⟨j - p.length, by omega⟩
      rw [pos_right] at heq
      refine h ?_
      rw [← heq, List.getD_eq_getElem _ _ (by omega)]
      exact List.getElem_mem _

theorem single_right (S : Separated p q tol) (hq : q.Pairwise (· < ·)) {i : ℕ} (hi : i < q.length) :
    (doubleVertices (fun a b => |a - b|) tol (twoSides p q) (p.length + i)).length = 1 ↔ q.getD i 0 ∉ p := by
  rw [(C50_double_vertices (fun a b : ℝ => |a - b|) (fun a b => abs_sub_comm a b) (fun a => by simp) tol S.pos.le (twoSides p q)
    (p.length + i) (by show p.length + i < p.length + q.length; omega)).2.2.2.2]
  rw [pos_right]
  have hmem : q.getD i 0 ∈ q := by rw [List.getD_eq_getElem _ _ hi]; exact List.getElem_mem _
  rw [List.pairwise_iff_getElem] at hq
  constructor
  · intro h hq
    obtain ⟨j, hj, he⟩ := List.getElem_of_mem hq
    have := h j (by show j < p.length + q.length; omega) (by
      rw [pos_left hj, List.getD_eq_getElem _ _ hj, he]; simp [S.pos.le])
    omega
  · intro h j hj hd
    have heq : (twoSides p q).pos j = q.getD i 0 := by
      by_contra hne
      have := S.points _ _ (Or.inr hmem) (pos_mem hj) (Ne.symm hne)
      linarith
    by_cases hjp : j < p.length
    · exfalso
      rw [pos_left hjp] at heq
      refine h ?_
      rw [← heq, List.getD_eq_getElem _ _ hjp]
      exact List.getElem_mem _
    · have hj' : j < p.length + q.length := hj
      obtain ⟨k, rfl⟩ : ∃ k, j = p.length + k := ⟨j - p.length, by omega⟩
      have hk : k < q.length := by omega
      rw [pos_right, List.getD_eq_getElem _ _ hk, List.getD_eq_getElem _ _ hi] at heq
      rcases Nat.lt_trichotomy k i with h1 | h1 | h1
      · exact absurd (hq k i hk hi h1) (by linarith)
      · rw [h1]
      · exact absurd (hq i k hi hk h1) (by linarith)

/-- Faces flagged because of a vertex with given neighbours. -/
theorem mem_flags (S : Separated p q tol) {a b : ℝ} (ha : a ∈ p ∨ a ∈ q) (hb : b ∈ p ∨ b ∈ q) (c : ECell) (f : ℕ) :
    (c, f) ∈ (twoSides p q).cells.flatMap (fun c => (c.bfaces.filter (fun g =>
      decide (|(a + b) / 2 - ((twoSides p q).pos g.2.1 + (twoSides p q).pos g.2.2) / 2| < tol))).map (fun g => (c, g.1))) ↔
    f = 0 ∧ ∃ k, c = cellOf k ∧ (k + 1 < p.length ∨ p.length ≤ k ∧ k + 1 < p.length + q.length) ∧
      a + b = (twoSides p q).pos k + (twoSides p q).pos (k + 1) := by
  simp only [List.mem_flatMap, List.mem_map, List.mem_filter, decide_eq_true_eq, Prod.mk.injEq]
  constructor
  · rintro ⟨c', hc', g, ⟨hg, hlt⟩, rfl, rfl⟩
    obtain ⟨k, rfl, hk⟩ := mem_cells.1 hc'
    simp only [cellOf, List.mem_cons, List.not_mem_nil, or_false] at hg
    subst hg
    refine ⟨rfl, k, rfl, hk, ?_⟩
    by_contra hne
    have := S.mids a b _ _ ha hb (pos_mem (p := p) (q := q) (k := k) (by show k < p.length + q.length; omega))
      (pos_mem (p := p) (q := q) (k := k + 1) (by show k + 1 < p.length + q.length; omega)) hne
    simp only at hlt
    linarith
  · rintro ⟨rfl, k, rfl, hk, he⟩
    refine ⟨cellOf k, mem_cells.2 ⟨k, rfl, hk⟩, (0, k, k + 1), ⟨by simp [cellOf], ?_⟩, rfl, rfl⟩
    simp only [he, sub_self, abs_zero]
    exact S.pos

theorem next_tol (S : Separated p q tol) {k : ℕ} (hp : p.Pairwise (· < ·)) (hk : k + 1 < p.length) :
    tol ≤ |p.getD (k + 1) 0 - p.getD k 0| := by
  have hn := (next_index hp).2 ⟨k, hk, rfl, rfl⟩
  exact (S.points _ _ (Or.inl hn.2.1) (Or.inl hn.1) (ne_of_gt hn.2.2.1)).le

/-- Flags of an interior vertex without double. -/
theorem flaggedBy_left (S : Separated p q tol) (hp : p.Pairwise (· < ·)) (hpl : 2 ≤ p.length) (hql : 2 ≤ q.length) {i : ℕ}
    (h0 : 0 < i) (h1 : i + 1 < p.length) (hd : p.getD i 0 ∉ q) :
    ∃ l, flaggedBy 0 (fun a b => |a - b|) (fun a b => (a + b) / 2) tol (twoSides p q) i = some l ∧ ∀ c f, (c, f) ∈ l ↔
      f = 0 ∧ ∃ k, c = cellOf k ∧ (k + 1 < p.length ∨ p.length ≤ k ∧ k + 1 < p.length + q.length) ∧
        p.getD (i - 1) 0 + p.getD (i + 1) 0 = (twoSides p q).pos k + (twoSides p q).pos (k + 1) := by
  have hmem : ∀ j, j < p.length → p.getD j 0 ∈ p := fun j hj => by
    rw [List.getD_eq_getElem _ _ hj]; exact List.getElem_mem _
  obtain ⟨j, rfl⟩ : ∃ j, i = j + 1 := ⟨i - 1, by omega⟩
  have e1 : otherEnd (fun a b : ℝ => |a - b|) tol (twoSides p q) (j + 1) (cellOf (j + 1 - 1)) = some (p.getD j 0) := by
    rw [Nat.add_sub_cancel, otherEnd_left S.pos, pos_left (by omega)]
    rw [pos_left (by omega), pos_left (by omega)]
    exact next_tol S hp (by omega)
  have e2 : otherEnd (fun a b : ℝ => |a - b|) tol (twoSides p q) (j + 1) (cellOf (j + 1)) = some (p.getD (j + 1 + 1) 0) := by
    rw [otherEnd_right S.pos, pos_left (by omega)]
  have e := edgeNodes_two 0 (fun a b : ℝ => |a - b|) tol (twoSides p q) (j + 1) _ _ (elems_left h0 h1) _ _ e1 e2
  unfold flaggedBy
  rw [if_pos ⟨onBoundary hpl hql (by show j + 1 < p.length + q.length; omega), (single_left S hp (by omega)).2 hd⟩, e]
  simp only [Option.map_some]
  exact ⟨_, rfl, fun c f => mem_flags S (Or.inl (hmem j (by omega))) (Or.inl (hmem (j + 1 + 1) (by omega))) c f⟩

theorem flaggedBy_right (S : Separated p q tol) (hq : q.Pairwise (· < ·)) (hpl : 2 ≤ p.length) (hql : 2 ≤ q.length) {i : ℕ}
    (h0 : 0 < i) (h1 : i + 1 < q.length) (hd : q.getD i 0 ∉ p) :
    ∃ l, flaggedBy 0 (fun a b => |a - b|) (fun a b => (a + b) / 2) tol (twoSides p q) (p.length + i) = some l ∧ ∀ c f, (c, f) ∈ l ↔
      f = 0 ∧ ∃ k, c = cellOf k ∧ (k + 1 < p.length ∨ p.length ≤ k ∧ k + 1 < p.length + q.length) ∧
        q.getD (i - 1) 0 + q.getD (i + 1) 0 = (twoSides p q).pos k + (twoSides p q).pos (k + 1) := by
  have hmem : ∀ j, j < q.length → q.getD j 0 ∈ q := fun j hj => by
    rw [List.getD_eq_getElem _ _ hj]; exact List.getElem_mem _
  have S' : Separated q p tol := ⟨S.pos, fun s t hs ht => S.points s t hs.symm ht.symm,
    fun a b u v ha hb hu hv => S.mids a b u v ha.symm hb.symm hu.symm hv.symm⟩
  obtain ⟨j, rfl⟩ : ∃ j, i = j + 1 := ⟨i - 1, by omega⟩
  have e1 : otherEnd (fun a b : ℝ => |a - b|) tol (twoSides p q) (p.length + (j + 1)) (cellOf (p.length + (j + 1) - 1)) =
      some (q.getD j 0) := by
    rw [show p.length + (j + 1) = p.length + j + 1 by omega, Nat.add_sub_cancel, otherEnd_left S.pos, pos_right]
    rw [show p.length + j + 1 = p.length + (j + 1) by omega, pos_right, pos_right]
    exact next_tol S' hq (by omega)
  have e2 : otherEnd (fun a b : ℝ => |a - b|) tol (twoSides p q) (p.length + (j + 1)) (cellOf (p.length + (j + 1))) =
      some (q.getD (j + 1 + 1) 0) := by
    rw [otherEnd_right S.pos, show p.length + (j + 1) + 1 = p.length + (j + 1 + 1) by omega, pos_right]
  have e := edgeNodes_two 0 (fun a b : ℝ => |a - b|) tol (twoSides p q) (p.length + (j + 1)) _ _ (elems_right h0 h1) _ _ e1 e2
  unfold flaggedBy
  rw [if_pos ⟨onBoundary hpl hql (by show p.length + (j + 1) < p.length + q.length; omega), (single_right S hq (by omega)).2 hd⟩, e]
  simp only [Option.map_some]
  exact ⟨_, rfl, fun c f => mem_flags S (Or.inr (hmem j (by omega))) (Or.inr (hmem (j + 1 + 1) (by omega))) c f⟩

/-- The faces flagged in one pass. -/
theorem pass_flags (S : Separated p q tol) (hp : p.Pairwise (· < ·)) (hq : q.Pairwise (· < ·)) (hpl : 2 ≤ p.length) (hql : 2 ≤ q.length)
    (hfirst : p.getD 0 0 = q.getD 0 0) (hlast : p.getD (p.length - 1) 0 = q.getD (q.length - 1) 0) :
    ∃ l, flagged 0 (fun a b => |a - b|) (fun a b => (a + b) / 2) tol (twoSides p q) = some l ∧ ∀ c f, (c, f) ∈ l ↔
      f = 0 ∧ ∃ k, c = cellOf k ∧ (k + 1 < p.length ∨ p.length ≤ k ∧ k + 1 < p.length + q.length) ∧
        (Trip p q ((twoSides p q).pos k + (twoSides p q).pos (k + 1)) ∨ Trip q p ((twoSides p q).pos k + (twoSides p q).pos (k + 1))) := by
  have memp : ∀ j, j < p.length → p.getD j 0 ∈ p := fun j hj => by
    rw [List.getD_eq_getElem _ _ hj]; exact List.getElem_mem _
  have memq : ∀ j, j < q.length → q.getD j 0 ∈ q := fun j hj => by
    rw [List.getD_eq_getElem _ _ hj]; exact List.getElem_mem _
  have hnone : ∀ i, ¬ (doubleVertices (fun a b => |a - b|) tol (twoSides p q) i).length = 1 →
      flaggedBy 0 (fun a b => |a - b|) (fun a b => (a + b) / 2) tol (twoSides p q) i = some [] := by
    intro i h
    unfold flaggedBy
    rw [if_neg (fun hh => h hh.2)]
  -- flags of a vertex
  set V : ℕ → ℝ → Prop := fun i s =>
    (0 < i ∧ i + 1 < p.length ∧ p.getD i 0 ∉ q ∧ p.getD (i - 1) 0 + p.getD (i + 1) 0 = s) ∨
    (∃ j, i = p.length + j ∧ 0 < j ∧ j + 1 < q.length ∧ q.getD j 0 ∉ p ∧ q.getD (j - 1) 0 + q.getD (j + 1) 0 = s) with hV
  have hex : ∀ i, i < (twoSides p q).nVerts → ∃ l, flaggedBy 0 (fun a b => |a - b|) (fun a b => (a + b) / 2) tol (twoSides p q) i = some l ∧
      ∀ c f, (c, f) ∈ l ↔ f = 0 ∧ ∃ k, c = cellOf k ∧ (k + 1 < p.length ∨ p.length ≤ k ∧ k + 1 < p.length + q.length) ∧
        V i ((twoSides p q).pos k + (twoSides p q).pos (k + 1)) := by
    intro i hi
    have hi' : i < p.length + q.length := hi
    by_cases hip : i < p.length
    · by_cases hd : p.getD i 0 ∈ q
      · refine ⟨[], hnone i (fun h => (single_left S hp hip).1 h hd), fun c f => ?_⟩
        simp only [List.not_mem_nil, false_iff]
        rintro ⟨_, k, _, _, ⟨_, _, h, _⟩ | ⟨j, hj, _⟩⟩
        · exact h hd
        · omega
      · have h0 : 0 < i := by
          by_contra h
          have : i = 0 := by omega
          subst this
          rw [hfirst] at hd
          exact hd (memq 0 (by omega))
        have h1 : i + 1 < p.length := by
          by_contra h
          have : i = p.length - 1 := by omega
          subst this
          rw [hlast] at hd
          exact hd (memq _ (by omega))
        obtain ⟨l, hl, hm⟩ := flaggedBy_left S hp hpl hql h0 h1 hd
        refine ⟨l, hl, fun c f => ?_⟩
        rw [hm]
        refine and_congr_right fun _ => exists_congr fun k => and_congr_right fun _ => and_congr_right fun _ => ?_
        constructor
        · intro h; exact Or.inl ⟨h0, h1, hd, h⟩
        · rintro (⟨_, _, _, h⟩ | ⟨j, hj, _⟩)
          · exact h
          · omega
    · obtain ⟨j, rfl⟩ : ∃ j, i = p.length + j := ⟨i - p.length, by omega⟩
      have hj : j < q.length := by omega
      by_cases hd : q.getD j 0 ∈ p
      · refine ⟨[], hnone _ (fun h => (single_right S hq hj).1 h hd), fun c f => ?_⟩
        simp only [List.not_mem_nil, false_iff]
        rintro ⟨_, k, _, _, ⟨_, h, _⟩ | ⟨j', hj', _, _, h, _⟩⟩
        · omega
        · have : j' = j := by omega
          subst this; exact h hd
      · have h0 : 0 < j := by
          by_contra h
          have : j = 0 := by omega
          subst this
          rw [← hfirst] at hd
          exact hd (memp 0 (by omega))
        have h1 : j + 1 < q.length := by
          by_contra h
          have : j = q.length - 1 := by omega
          subst this
          rw [← hlast] at hd
          exact hd (memp _ (by omega))
        obtain ⟨l, hl, hm⟩ := flaggedBy_right S hq hpl hql h0 h1 hd
        refine ⟨l, hl, fun c f => ?_⟩
        rw [hm]
        refine and_congr_right fun _ => exists_congr fun k => and_congr_right fun _ => and_congr_right fun _ => ?_
        constructor
        · intro h; exact Or.inr ⟨j, rfl, h0, h1, hd, h⟩
        · rintro (⟨_, h, _⟩ | ⟨j', hj', _, _, _, h⟩)
          · omega
          · have : j' = j := by omega
            subst this; exact h
  choose! g hg1 hg2 using hex
  refine ⟨[] ++ (List.range (twoSides p q).nVerts).flatMap g, foldl_bind _ g _ (fun i hi => hg1 i (List.mem_range.1 hi)) [], fun c f => ?_⟩
  simp only [List.nil_append, List.mem_flatMap, List.mem_range]
  -- the triples
  have htrip : ∀ s, (∃ i, i < (twoSides p q).nVerts ∧ V i s) ↔ Trip p q s ∨ Trip q p s := by
    intro s
    constructor
    · rintro ⟨i, hi, ⟨h0, h1, hd, h⟩ | ⟨j, rfl, h0, h1, hd, h⟩⟩
      · left
        refine ⟨_, p.getD i 0, _, (next_index hp).2 ⟨i - 1, by omega, rfl, ?_⟩, (next_index hp).2 ⟨i, h1, rfl, rfl⟩, hd, h⟩
        congr 1; omega
      · right
        refine ⟨_, q.getD j 0, _, (next_index hq).2 ⟨j - 1, by omega, rfl, ?_⟩, (next_index hq).2 ⟨j, h1, rfl, rfl⟩, hd, h⟩
        congr 1; omega
    · rintro (⟨a, i, b, h1, h2, hd, h⟩ | ⟨a, i, b, h1, h2, hd, h⟩)
      · obtain ⟨k, hk, rfl, rfl⟩ := (next_index hp).1 h1
        obtain ⟨j, hj, e1, rfl⟩ := (next_index hp).1 h2
        have : j = k + 1 := by
          have hp' := List.pairwise_iff_getElem.1 hp
          rw [List.getD_eq_getElem _ _ (show j < p.length by omega), List.getD_eq_getElem _ _ hk] at e1
          rcases Nat.lt_trichotomy j (k + 1) with h | h | h
          · exact absurd (hp' j (k + 1) (by omega) hk h) (by linarith)
          · exact h
          · exact absurd (hp' (k + 1) j hk (by omega) h) (by linarith)
        subst this
        exact ⟨k + 1, by show k + 1 < p.length + q.length; omega, Or.inl ⟨by omega, hj, hd, by simpa using h⟩⟩
      · obtain ⟨k, hk, rfl, rfl⟩ := (next_index hq).1 h1
        obtain ⟨j, hj, e1, rfl⟩ := (next_index hq).1 h2
        have : j = k + 1 := by
          have hq' := List.pairwise_iff_getElem.1 hq
          rw [List.getD_eq_getElem _ _ (show j < q.length by omega), List.getD_eq_getElem _ _ hk] at e1
          rcases Nat.lt_trichotomy j (k + 1) with h | h | h
          · exact absurd (hq' j (k + 1) (by omega) hk h) (by linarith)
          · exact h
          · exact absurd (hq' (k + 1) j hk (by omega) h) (by linarith)
        subst this
        exact ⟨p.length + (k + 1), by show p.length + (k + 1) < p.length + q.length; omega,
          Or.inr ⟨k + 1, rfl, by omega, hj, hd, by simpa using h⟩⟩
  constructor
  · rintro ⟨i, hi, h⟩
    obtain ⟨hf, k, hc, hk, hv⟩ := (hg2 i hi c f).1 h
    exact ⟨hf, k, hc, hk, (htrip _).1 ⟨i, hi, hv⟩⟩
  · rintro ⟨hf, k, hc, hk, ht⟩
    obtain ⟨i, hi, hv⟩ := (htrip _).2 ht
    exact ⟨i, hi, (hg2 i hi c f).2 ⟨hf, k, hc, hk, hv⟩⟩

end Pass

/-! ## One pass on the bisections -/

/-- Bisections of the last edge, of the first edge. -/
def Sub.rs : Sub → ℕ
  | .leaf => 0
  | .node _ r => r.rs + 1

def Sub.ls : Sub → ℕ
  | .leaf => 0
  | .node l _ => l.ls + 1

theorem next_last (T : Sub) {x y a : ℝ} (h : x < y) : Next (T.side x y) a y ↔ a = y - (y - x) / 2 ^ T.rs := by
  induction T generalizing x with
  | leaf => rw [next_leaf h]; simp [Sub.rs]
  | node l r _ ih =>
    rw [next_node h]
    have h2 : (x + y) / 2 < y := by linarith
    have hl : ¬ Next (l.side x ((x + y) / 2)) a y := fun hn => by
      have := (mem_side_bounds (by linarith) hn.2.1).2; linarith
    rw [or_iff_right hl, ih h2]
    simp only [Sub.rs, pow_succ]
    have : (y - (x + y) / 2) / 2 ^ r.rs = (y - x) / (2 ^ r.rs * 2) := by field_simp; ring
    rw [this]

theorem next_first (T : Sub) {x y b : ℝ} (h : x < y) : Next (T.side x y) x b ↔ b = x + (y - x) / 2 ^ T.ls := by
  induction T generalizing y with
  | leaf => rw [next_leaf h]; simp [Sub.ls]
  | node l r ih _ =>
    rw [next_node h]
    have h2 : x < (x + y) / 2 := by linarith
    have hr : ¬ Next (r.side ((x + y) / 2) y) x b := fun hn => by
      have := (mem_side_bounds (by linarith) hn.1).1; linarith
    rw [or_iff_left hr, ih h2]
    simp only [Sub.ls, pow_succ]
    have : ((x + y) / 2 - x) / 2 ^ l.ls = (y - x) / (2 ^ l.ls * 2) := by field_simp; ring
    rw [this]

theorem trip_leaf {x y : ℝ} (h : x < y) (q : List ℝ) (s : ℝ) : ¬ Trip (Sub.leaf.side x y) q s := by
  rintro ⟨a, i, b, h1, h2, _⟩
  rw [next_leaf h] at h1 h2
  linarith [h1.2, h2.1]

theorem trip_over_leaf {l r : Sub} {x y : ℝ} (h : x < y) :
    Trip ((Sub.node l r).side x y) (Sub.leaf.side x y) (x + y) ↔ l.rs = r.ls := by
  have hm1 : x < (x + y) / 2 := by linarith
  have hm2 : (x + y) / 2 < y := by linarith
  have hdiv : ∀ c : ℕ, 0 < (y - x) / 2 ^ c := fun c => by have : 0 < y - x := by linarith
                                                          positivity
  constructor
  · rintro ⟨a, i, b, h1, h2, hi, hs⟩
    rw [next_node h] at h1 h2
    rcases h1 with h1 | h1
    · rcases h2 with h2 | h2
      · have := (mem_side_bounds hm1 h2.2.1).2
        have := h1.2.2.1
        have := h2.2.2.1
        linarith
      · have e1 := (mem_side_bounds hm1 h1.2.1).2
        have e2 := (mem_side_bounds hm2 h2.1).1
        have e : i = (x + y) / 2 := le_antisymm e1 e2
        subst e
        rw [next_last l hm1] at h1
        rw [next_first r hm2] at h2
        rw [h1, h2] at hs
        have e3 : ((x + y) / 2 - x) / 2 ^ l.rs = (y - (x + y) / 2) / 2 ^ r.ls := by linarith
        have e4 : (x + y) / 2 - x = y - (x + y) / 2 := by ring
        rw [e4] at e3
        have hne : y - (x + y) / 2 ≠ 0 := by linarith
        have e5 : (2 : ℝ) ^ r.ls = 2 ^ l.rs := by
          have p1 : (0 : ℝ) < 2 ^ l.rs := by positivity
          have p2 : (0 : ℝ) < 2 ^ r.ls := by positivity
          rw [div_eq_div_iff p1.ne' p2.ne'] at e3
          exact mul_left_cancel₀ hne e3
        exact (pow_right_injective₀ (by norm_num : (0 : ℝ) < 2) (by norm_num) e5).symm
    · have k1 := (mem_side_bounds hm2 h1.1).1
      have k2 := h1.2.2.1
      rcases h2 with h2 | h2
      · have := (mem_side_bounds hm1 h2.1).2; linarith
      · have := h2.2.2.1; linarith
  · intro he
    refine ⟨_, (x + y) / 2, _, (next_node h).2 (Or.inl ((next_last l hm1).2 rfl)), (next_node h).2 (Or.inr ((next_first r hm2).2 rfl)), ?_, ?_⟩
    · simp only [Sub.side, Sub.pts, List.singleton_append, List.mem_cons, List.not_mem_nil, or_false, not_or]
      constructor <;> intro hc <;> linarith
    · rw [he]
      have e4 : (x + y) / 2 - x = y - (x + y) / 2 := by ring
      rw [e4]; ring

theorem trip_bounds {T : Sub} {x y s : ℝ} {q : List ℝ} (h : x < y) (ht : Trip (T.side x y) q s) : x + x < s ∧ s < y + y := by
  obtain ⟨a, i, b, h1, h2, _, hs⟩ := ht
  have a1 := mem_side_bounds h h1.1
  have a2 := mem_side_bounds h h2.2.1
  have := h1.2.2.1
  have := h2.2.2.1
  constructor <;> linarith

theorem trip_node {l r l' r' : Sub} {x y s : ℝ} (h : x < y) :
    Trip ((Sub.node l r).side x y) ((Sub.node l' r').side x y) s ↔
      Trip (l.side x ((x + y) / 2)) (l'.side x ((x + y) / 2)) s ∨ Trip (r.side ((x + y) / 2) y) (r'.side ((x + y) / 2) y) s := by
  have hm1 : x < (x + y) / 2 := by linarith
  have hm2 : (x + y) / 2 < y := by linarith
  constructor
  · rintro ⟨a, i, b, h1, h2, hi, hs⟩
    rw [mem_side_node, not_or] at hi
    rw [next_node h] at h1 h2
    rcases h1 with h1 | h1
    · rcases h2 with h2 | h2
      · exact Or.inl ⟨a, i, b, h1, h2, hi.1, hs⟩
      · exfalso
        have e : i = (x + y) / 2 := le_antisymm (mem_side_bounds hm1 h1.2.1).2 (mem_side_bounds hm2 h2.1).1
        rw [e] at hi
        exact hi.1 (right_mem _ _ _)
    · rcases h2 with h2 | h2
      · exfalso
        have := (mem_side_bounds hm2 h1.1).1
        have := (mem_side_bounds hm1 h2.2.1).2
        have := h1.2.2.1
        have := h2.2.2.1
        linarith
      · exact Or.inr ⟨a, i, b, h1, h2, hi.2, hs⟩
  · rintro (⟨a, i, b, h1, h2, hi, hs⟩ | ⟨a, i, b, h1, h2, hi, hs⟩)
    · refine ⟨a, i, b, (next_node h).2 (Or.inl h1), (next_node h).2 (Or.inl h2), ?_, hs⟩
      rw [mem_side_node, not_or]
      refine ⟨hi, fun hr => ?_⟩
      have e : i = (x + y) / 2 := le_antisymm (mem_side_bounds hm1 h1.2.1).2 (mem_side_bounds hm2 hr).1
      rw [e] at hi
      exact hi (right_mem _ _ _)
    · refine ⟨a, i, b, (next_node h).2 (Or.inr h1), (next_node h).2 (Or.inr h2), ?_, hs⟩
      rw [mem_side_node, not_or]
      refine ⟨fun hl => ?_, hi⟩
      have e : i = (x + y) / 2 := le_antisymm (mem_side_bounds hm1 hl).2 (mem_side_bounds hm2 h1.2.1).1
      rw [e] at hi
      exact hi (left_mem _ _ _)

/-- A side does not flag its own edges. -/
theorem trip_self {q p : List ℝ} {u v : ℝ} (hn : Next q u v) : ¬ Trip q p (u + v) := by
  rintro ⟨a, i, b, h1, h2, _, hs⟩
  have ab := h1.2.2.1
  have bc := h2.2.2.1
  have uv := hn.2.2.1
  rcases h1.2.2.2 u hn.1 with e1 | e1
  · rcases h1.2.2.2 v hn.2.1 with e2 | e2
    · linarith
    · -- u ≤ a, i ≤ v
      rcases hn.2.2.2 i h1.2.1 with e3 | e3
      · linarith
      · have : v = i := le_antisymm e3 e2
        subst this
        rcases hn.2.2.2 a h1.1 with e4 | e4
        · linarith
        · linarith
  · -- i ≤ u
    rcases h2.2.2.2 v hn.2.1 with e2 | e2
    · linarith
    · rcases hn.2.2.2 b h2.2.1 with e3 | e3
      · linarith
      · have : v = b := le_antisymm e3 e2
        subst this
        linarith

/-- Bisection of the leaves selected by their end points. -/
noncomputable def splitBy (F : ℝ → ℝ → Prop) : Sub → ℝ → ℝ → Sub
  | .leaf, x, y => by classical exact if F x y then .node .leaf .leaf else .leaf
  | .node l r, x, y => .node (splitBy F l x ((x + y) / 2)) (splitBy F r ((x + y) / 2) y)

theorem splitBy_congr {F G : ℝ → ℝ → Prop} (T : Sub) {x y : ℝ} (h : x < y) (hFG : ∀ u v, Next (T.side x y) u v → (F u v ↔ G u v)) :
    splitBy F T x y = splitBy G T x y := by
  induction T generalizing x y with
  | leaf =>
    have := hFG x y ((next_leaf h).2 ⟨rfl, rfl⟩)
    simp only [splitBy]
    by_cases hF : F x y
    · rw [if_pos hF, if_pos (this.1 hF)]
    · rw [if_neg hF, if_neg fun hG => hF (this.2 hG)]
  | node l r ihl ihr =>
    simp only [splitBy]
    rw [ihl (by linarith) fun u v hn => hFG u v ((next_node h).2 (Or.inl hn)),
      ihr (by linarith) fun u v hn => hFG u v ((next_node h).2 (Or.inr hn))]

theorem splitBy_eq_self {F : ℝ → ℝ → Prop} (T : Sub) {x y : ℝ} (h : x < y) :
    splitBy F T x y = T ↔ ∀ u v, Next (T.side x y) u v → ¬ F u v := by
  induction T generalizing x y with
  | leaf =>
    simp only [splitBy, next_leaf h]
    constructor
    · rintro h1 u v ⟨rfl, rfl⟩ hF
      rw [if_pos hF] at h1
      cases h1
    · intro h1
      rw [if_neg (h1 x y ⟨rfl, rfl⟩)]
  | node l r ihl ihr =>
    simp only [splitBy, Sub.node.injEq]
    rw [ihl (by linarith), ihr (by linarith)]
    simp only [next_node h]
    constructor
    · rintro ⟨a, b⟩ u v (hn | hn)
      · exact a u v hn
      · exact b u v hn
    · exact fun hh => ⟨fun u v hn => hh u v (Or.inl hn), fun u v hn => hh u v (Or.inr hn)⟩

theorem bisect_eq {flags : ECell → Prop} {F : ℝ → ℝ → Prop} (T : Sub) (x y : ℝ) (k : ℕ)
    (hF : ∀ j, j + 1 < (T.side x y).length → (flags (cellOf (k + j)) ↔ F ((T.side x y).getD j 0) ((T.side x y).getD (j + 1) 0))) :
    bisect flags T k = (splitBy F T x y, (T.pts x y).length) := by
  induction T generalizing x y k with
  | leaf =>
    have := hF 0 (by simp [Sub.side, Sub.pts])
    simp only [Sub.side, Sub.pts, List.singleton_append, List.getD_cons_zero, List.getD_cons_succ, Nat.add_zero] at this
    simp only [bisect, splitBy, Sub.pts, List.length_singleton]
    by_cases hG : F x y
    · rw [if_pos hG, if_pos (this.2 hG)]
    · rw [if_neg hG, if_neg fun hh => hG (this.1 hh)]
  | node l r ihl ihr =>
    obtain ⟨t, ht⟩ := pts_head r ((x + y) / 2) y
    have side_eq : (Sub.node l r).side x y = l.side x ((x + y) / 2) ++ (t ++ [y]) := by
      simp [Sub.side, Sub.pts, ht]
    have side_eq' : (Sub.node l r).side x y = l.pts x ((x + y) / 2) ++ r.side ((x + y) / 2) y := by
      simp [Sub.side, Sub.pts]
    have hl := ihl x ((x + y) / 2) k fun j hj => by
      have := hF j (by rw [side_eq, List.length_append]; omega)
      rw [side_eq, List.getD_append _ _ _ _ (by omega), List.getD_append _ _ _ _ hj] at this
      exact this
    have hr := ihr ((x + y) / 2) y (k + (l.pts x ((x + y) / 2)).length) fun j hj => by
      have := hF ((l.pts x ((x + y) / 2)).length + j) (by rw [side_eq', List.length_append]; omega)
      rw [side_eq', List.getD_append_right _ _ _ _ (by omega), List.getD_append_right _ _ _ _ (by omega)] at this
      rw [Nat.add_sub_cancel_left, show (l.pts x ((x + y) / 2)).length + j + 1 - (l.pts x ((x + y) / 2)).length = j + 1 by omega,
        ← Nat.add_assoc] at this
      exact this
    simp only [bisect, hl, hr, splitBy, Sub.pts, List.length_append]

/-- One pass, seen from one side `T`, the other being `S`. -/
def step : Sub → Sub → Sub
  | .leaf, T => T
  | .node l r, .leaf => if l.rs = r.ls then .node .leaf .leaf else .leaf
  | .node l r, .node l' r' => .node (step l l') (step r r')

theorem step_eq (S T : Sub) {x y : ℝ} (h : x < y) :
    splitBy (fun u v => Trip (S.side x y) (T.side x y) (u + v)) T x y = step S T := by
  induction S generalizing T x y with
  | leaf =>
    rw [(splitBy_eq_self T h).2 fun u v _ => trip_leaf h _ _]
    cases T <;> rfl
  | node l r ihl ihr =>
    cases T with
    | leaf => simp only [splitBy, step, trip_over_leaf h]
    | node l' r' =>
      have hm1 : x < (x + y) / 2 := by linarith
      have hm2 : (x + y) / 2 < y := by linarith
      simp only [splitBy, step]
      rw [← ihl l' hm1, ← ihr r' hm2]
      congr 1
      · refine splitBy_congr l' hm1 fun u v hn => ?_
        rw [trip_node h]
        refine or_iff_left fun ht => ?_
        have := (trip_bounds hm2 ht).1
        have := (mem_side_bounds hm1 hn.1).2
        have := (mem_side_bounds hm1 hn.2.1).2
        linarith
      · refine splitBy_congr r' hm2 fun u v hn => ?_
        rw [trip_node h]
        refine or_iff_right fun ht => ?_
        have := (trip_bounds hm1 ht).2
        have := (mem_side_bounds hm2 hn.1).1
        have := (mem_side_bounds hm2 hn.2.1).1
        linarith

/-! ## Tolerance -/

theorem on_grid (T : Sub) {x y : ℝ} {D : ℕ} (hD : T.depth ≤ D) {z : ℝ} (hz : z ∈ T.side x y) :
    ∃ n : ℤ, z = x + (y - x) / 2 ^ D * n := by
  induction T generalizing x y D with
  | leaf =>
    simp only [Sub.side, Sub.pts, List.singleton_append, List.mem_cons, List.not_mem_nil, or_false] at hz
    rcases hz with rfl | rfl
    · exact ⟨0, by simp⟩
    · refine ⟨2 ^ D, ?_⟩
      push_cast
      rw [div_mul_cancel₀ _ (by positivity)]
      ring
  | node l r ihl ihr =>
    simp only [Sub.depth] at hD
    obtain ⟨E, rfl⟩ : ∃ E, D = E + 1 := ⟨D - 1, by omega⟩
    rcases mem_side_node.1 hz with hz | hz
    · obtain ⟨n, hn⟩ := ihl (show l.depth ≤ E by omega) hz
      refine ⟨n, ?_⟩
      rw [hn, pow_succ]
      field_simp
      ring
    · obtain ⟨n, hn⟩ := ihr (show r.depth ≤ E by omega) hz
      refine ⟨n + 2 ^ E, ?_⟩
      rw [hn, pow_succ]
      push_cast
      field_simp
      ring

theorem separated (S T : Sub) {x y tol : ℝ} {D : ℕ} (hS : S.depth ≤ D) (hT : T.depth ≤ D) (h0 : 0 < tol)
    (htol : tol * 2 ^ (D + 1) < y - x) : Separated (S.side x y) (T.side x y) tol := by
  have grid : ∀ z, (z ∈ S.side x y ∨ z ∈ T.side x y) → ∃ n : ℤ, z = x + (y - x) / 2 ^ D * n := by
    rintro z (hz | hz)
    · exact on_grid S hS hz
    · exact on_grid T hT hz
  have hg : tol < (y - x) / 2 ^ D / 2 := by
    rw [div_div, lt_div_iff₀ (by positivity), ← pow_succ]
    exact htol
  set g := (y - x) / 2 ^ D
  have big : ∀ n : ℤ, n ≠ 0 → g ≤ |g * n| := by
    intro n hn
    rw [abs_mul, abs_of_pos (by linarith : 0 < g)]
    have : (1 : ℝ) ≤ |(n : ℝ)| := by
      rw [← Int.cast_abs]
      exact_mod_cast Int.one_le_abs hn
    nlinarith
  refine ⟨h0, fun s t hs ht hne => ?_, fun a b u v ha hb hu hv hne => ?_⟩
  · obtain ⟨n, rfl⟩ := grid s hs
    obtain ⟨m, rfl⟩ := grid t ht
    have e : x + g * n - (x + g * m) = g * ((n - m : ℤ) : ℝ) := by push_cast; ring
    rw [e]
    have := big (n - m) (fun h => hne (by rw [sub_eq_zero.1 h]))
    linarith
  · obtain ⟨n1, rfl⟩ := grid a ha
    obtain ⟨n2, rfl⟩ := grid b hb
    obtain ⟨n3, rfl⟩ := grid u hu
    obtain ⟨n4, rfl⟩ := grid v hv
    have e : (x + g * n1 + (x + g * n2)) / 2 - (x + g * n3 + (x + g * n4)) / 2 = g * ((n1 + n2 - n3 - n4 : ℤ) : ℝ) / 2 := by
      push_cast; ring
    rw [e, abs_div, abs_of_pos (by norm_num : (0 : ℝ) < 2)]
    have := big (n1 + n2 - n3 - n4) (fun h => hne (by
      have : (n1 : ℝ) + n2 = n3 + n4 := by
        have : n1 + n2 = n3 + n4 := by omega
        exact_mod_cast this
      have h3 := congrArg (g * ·) this
      simp only [mul_add] at h3
      linarith))
    linarith

theorem depth_step (S T : Sub) : (step S T).depth ≤ max S.depth T.depth := by
  induction S generalizing T with
  | leaf => simp [step]
  | node l r ihl ihr =>
    cases T with
    | leaf =>
      simp only [step]
      split_ifs <;> simp [Sub.depth]
    | node l' r' =>
      have := ihl l'
      have := ihr r'
      simp only [step, Sub.depth]
      omega

/-- One pass of the loop. -/
theorem restore_succ (S T : Sub) {x y tol : ℝ} {D : ℕ} (hS : S.depth ≤ D) (hT : T.depth ≤ D) (h0 : 0 < tol)
    (htol : tol * 2 ^ (D + 1) < y - x) (fuel : ℕ) :
    restore tol x y (fuel + 1) S T =
      if step T S = S ∧ step S T = T then .stopped S T else restore tol x y fuel (step T S) (step S T) := by
  have hxy : x < y := by have : (0 : ℝ) < tol * 2 ^ (D + 1) := by positivity
                         linarith
  have hSep := separated S T hS hT h0 htol
  have len : ∀ T : Sub, 2 ≤ (T.side x y).length := fun T => by
    obtain ⟨t, ht⟩ := pts_head T x y
    simp [Sub.side, ht]
  have first : ∀ T : Sub, (T.side x y).getD 0 0 = x := fun T => by
    obtain ⟨t, ht⟩ := pts_head T x y
    simp [Sub.side, ht]
  have last : ∀ T : Sub, (T.side x y).getD ((T.side x y).length - 1) 0 = y := fun T => by
    simp [Sub.side]
  obtain ⟨l, hl, hmem⟩ := pass_flags hSep (side_sorted S x y hxy) (side_sorted T x y hxy) (len S) (len T)
    ((first S).trans (first T).symm) ((last S).trans (last T).symm)
  set p := S.side x y with hp
  set q := T.side x y with hq
  have sp : p.Pairwise (· < ·) := side_sorted S x y hxy
  have sq : q.Pairwise (· < ·) := side_sorted T x y hxy
  have cell_inj : ∀ k k', cellOf k = cellOf k' → k = k' := fun k k' h => by
    simp [cellOf] at h; omega
  have flagS : ∀ j, j + 1 < p.length → ((∃ f, (cellOf (0 + j), f) ∈ l) ↔ Trip q p (p.getD j 0 + p.getD (j + 1) 0)) := by
    intro j hj
    have hn : Next p (p.getD j 0) (p.getD (j + 1) 0) := (next_index sp).2 ⟨j, hj, rfl, rfl⟩
    simp only [hmem]
    constructor
    · rintro ⟨f, _, k, hk, _, ht⟩
      have := cell_inj _ _ hk
      rw [Nat.zero_add] at this
      subst this
      rw [pos_left (by omega), pos_left hj] at ht
      exact ht.resolve_left (trip_self hn)
    · intro ht
      exact ⟨0, rfl, 0 + j, rfl, Or.inl (by omega), Or.inr (by rw [Nat.zero_add, pos_left (by omega), pos_left hj]; exact ht)⟩
  have flagT : ∀ j, j + 1 < q.length → ((∃ f, (cellOf (p.length + j), f) ∈ l) ↔ Trip p q (q.getD j 0 + q.getD (j + 1) 0)) := by
    intro j hj
    have hn : Next q (q.getD j 0) (q.getD (j + 1) 0) := (next_index sq).2 ⟨j, hj, rfl, rfl⟩
    simp only [hmem]
    constructor
    · rintro ⟨f, _, k, hk, _, ht⟩
      have := cell_inj _ _ hk
      subst this
      rw [show p.length + j + 1 = p.length + (j + 1) by omega, pos_right, pos_right] at ht
      exact ht.resolve_right (trip_self hn)
    · intro ht
      exact ⟨0, rfl, p.length + j, rfl, Or.inr (by omega), Or.inl (by
        rw [show p.length + j + 1 = p.length + (j + 1) by omega, pos_right, pos_right]; exact ht)⟩
  have bS : (bisect (fun c => ∃ f, (c, f) ∈ l) S 0).1 = step T S := by
    rw [bisect_eq (F := fun u v => Trip q p (u + v)) S x y 0 flagS]
    exact step_eq T S hxy
  have bT : (bisect (fun c => ∃ f, (c, f) ∈ l) T p.length).1 = step S T := by
    rw [bisect_eq (F := fun u v => Trip p q (u + v)) T x y p.length flagT]
    exact step_eq S T hxy
  have hempty : l.isEmpty = true ↔ step T S = S ∧ step S T = T := by
    rw [← step_eq T S hxy, ← step_eq S T hxy, splitBy_eq_self S hxy, splitBy_eq_self T hxy, List.isEmpty_iff]
    constructor
    · intro hnil
      refine ⟨fun u v hn ht => ?_, fun u v hn ht => ?_⟩
      · obtain ⟨j, hj, rfl, rfl⟩ := (next_index sp).1 hn
        obtain ⟨f, hf⟩ := (flagS j hj).2 ht
        rw [hnil] at hf; simp at hf
      · obtain ⟨j, hj, rfl, rfl⟩ := (next_index sq).1 hn
        obtain ⟨f, hf⟩ := (flagT j hj).2 ht
        rw [hnil] at hf; simp at hf
    · rintro ⟨h1, h2⟩
      rw [List.eq_nil_iff_forall_not_mem]
      rintro ⟨c, f⟩ hc
      obtain ⟨_, k, rfl, hk, _⟩ := (hmem c f).1 hc
      rcases hk with hk | hk
      · exact h1 _ _ ((next_index sp).2 ⟨k, hk, rfl, rfl⟩) ((flagS k hk).1 ⟨f, by rw [Nat.zero_add]; exact hc⟩)
      · obtain ⟨j, rfl⟩ : ∃ j, k = p.length + j := ⟨k - p.length, by omega⟩
        have hj : j + 1 < q.length := by omega
        exact h2 _ _ ((next_index sq).2 ⟨j, hj, rfl, rfl⟩) ((flagT j hj).1 ⟨f, hc⟩)
  rw [restore, hl]
  simp only [← hp, bS, bT, hempty]

/-! ## The loop -/

def Sub.leaves : Sub → ℕ
  | .leaf => 1
  | .node l r => l.leaves + r.leaves

def union : Sub → Sub → Sub
  | .leaf, T => T
  | S, .leaf => S
  | .node l r, .node l' r' => .node (union l l') (union r r')

theorem leaves_pos (T : Sub) : 1 ≤ T.leaves := by
  induction T with
  | leaf => simp [Sub.leaves]
  | node l r ihl ihr => simp only [Sub.leaves]; omega

theorem leaves_step (S T : Sub) : T.leaves ≤ (step S T).leaves ∧ (step S T ≠ T → T.leaves < (step S T).leaves) := by
  induction S generalizing T with
  | leaf => cases T <;> simp [step]
  | node l r ihl ihr =>
    cases T with
    | leaf => simp only [step]; split_ifs <;> simp [Sub.leaves]
    | node l' r' =>
      have h1 := ihl l'
      have h2 := ihr r'
      simp only [step, Sub.leaves]
      refine ⟨by omega, fun hne => ?_⟩
      by_cases e1 : step l l' = l'
      · by_cases e2 : step r r' = r'
        · rw [e1, e2] at hne; exact absurd rfl hne
        · have := h2.2 e2; omega
      · have := h1.2 e1; omega

theorem union_leaves (S T : Sub) : S.leaves ≤ (union S T).leaves ∧ T.leaves ≤ (union S T).leaves := by
  induction S generalizing T with
  | leaf => have := leaves_pos T; cases T <;> simp_all [union, Sub.leaves]
  | node l r ihl ihr =>
    cases T with
    | leaf => have := leaves_pos (Sub.node l r); simp_all [union, Sub.leaves]
    | node l' r' =>
      have := ihl l'
      have := ihr r'
      simp only [union, Sub.leaves]
      omega

theorem union_leaf (S : Sub) : union S .leaf = S := by cases S <;> rfl

theorem step_leaf (T : Sub) : step .leaf T = T := by cases T <;> rfl

theorem union_step (S T : Sub) : union (step T S) (step S T) = union S T := by
  induction S generalizing T with
  | leaf =>
    cases T with
    | leaf => rfl
    | node l' r' =>
      simp only [step]
      split_ifs
      · simp [union]
      · rfl
  | node l r ihl ihr =>
    cases T with
    | leaf =>
      simp only [step]
      split_ifs
      · simp only [union, union_leaf]
      · rfl
    | node l' r' => simp only [step, union, ihl, ihr]

theorem uniform_spines (d : ℕ) : (uniform d).rs = d ∧ (uniform d).ls = d := by
  induction d with
  | zero => exact ⟨rfl, rfl⟩
  | succ d ih => simp only [uniform, Sub.rs, Sub.ls]; omega

theorem node_uniform (l r : Sub) : (∃ d, Sub.node l r = uniform d) ↔ ((∃ d, l = uniform d) ∧ ∃ d, r = uniform d) ∧ l.rs = r.ls := by
  constructor
  · rintro ⟨d, hd⟩
    cases d with
    | zero => cases hd
    | succ d =>
      simp only [uniform, Sub.node.injEq] at hd
      obtain ⟨rfl, rfl⟩ := hd
      exact ⟨⟨⟨d, rfl⟩, ⟨d, rfl⟩⟩, (uniform_spines d).1.trans (uniform_spines d).2.symm⟩
  · rintro ⟨⟨⟨d, rfl⟩, ⟨e, rfl⟩⟩, h⟩
    rw [(uniform_spines d).1, (uniform_spines e).2] at h
    subst h
    exact ⟨d + 1, rfl⟩

theorem restorable_leaf (S : Sub) : Restorable S .leaf ↔ ∃ d, S = uniform d := by
  cases S with
  | leaf => simp only [Restorable]
  | node l r => rfl

theorem restorable_step (S T : Sub) : Restorable (step T S) (step S T) ↔ Restorable S T := by
  induction S generalizing T with
  | leaf =>
    cases T with
    | leaf => rfl
    | node l' r' =>
      simp only [step]
      split_ifs with h
      · simp only [Restorable]
        rw [node_uniform]
        exact ⟨fun hh => ⟨hh, h⟩, fun hh => hh.1⟩
      · rfl
  | node l r ihl ihr =>
    cases T with
    | leaf =>
      simp only [step]
      split_ifs with h
      · simp only [Restorable, restorable_leaf]
        rw [node_uniform]
        exact ⟨fun hh => ⟨hh, h⟩, fun hh => hh.1⟩
      · rfl
    | node l' r' => simp only [step, Restorable, ihl, ihr]

theorem stopped_iff (S T : Sub) (h1 : step T S = S) (h2 : step S T = T) : S = T ↔ Restorable S T := by
  induction S generalizing T with
  | leaf =>
    cases T with
    | leaf => simp only [Restorable, true_iff]; exact ⟨0, rfl⟩
    | node l' r' =>
      simp only [step] at h1
      split_ifs at h1 with h
      simp only [Restorable, reduceCtorEq, false_iff]
      rw [node_uniform]
      exact fun hh => h hh.2
  | node l r ihl ihr =>
    cases T with
    | leaf =>
      simp only [step] at h2
      split_ifs at h2 with h
      simp only [restorable_leaf, reduceCtorEq, false_iff]
      rw [node_uniform]
      exact fun hh => h hh.2
    | node l' r' =>
      simp only [step, Sub.node.injEq] at h1 h2 ⊢
      simp only [Restorable]
      rw [ihl l' h1.1 h2.1, ihr r' h1.2 h2.2]

theorem side_leaf_subset (T : Sub) (x y : ℝ) : ∀ z ∈ Sub.leaf.side x y, z ∈ T.side x y := by
  intro z hz
  simp only [Sub.side, Sub.pts, List.singleton_append, List.mem_cons, List.not_mem_nil, or_false] at hz
  rcases hz with rfl | rfl
  · exact left_mem _ _ _
  · exact right_mem _ _ _

theorem mem_union (S T : Sub) (x y z : ℝ) : z ∈ (union S T).side x y ↔ z ∈ S.side x y ∨ z ∈ T.side x y := by
  induction S generalizing T x y with
  | leaf => exact ⟨Or.inr, fun h => h.elim (side_leaf_subset T x y z) id⟩
  | node l r ihl ihr =>
    cases T with
    | leaf => exact ⟨Or.inl, fun h => h.elim id (side_leaf_subset _ x y z)⟩
    | node l' r' =>
      simp only [union, mem_side_node, ihl, ihr]
      tauto

theorem side_step (S T : Sub) {x y : ℝ} : ∀ z ∈ T.side x y, z ∈ (step S T).side x y := by
  induction S generalizing T x y with
  | leaf => intro z hz; rwa [step_leaf]
  | node l r ihl ihr =>
    cases T with
    | leaf => exact side_leaf_subset _ x y
    | node l' r' =>
      intro z hz
      simp only [step, mem_side_node] at hz ⊢
      exact hz.imp (ihl l' z) (ihr r' z)

/-- **C80**. For all bisections of the two sides of an edge longer than `2^(D+1)` times the tolerance, `D` the depth of the bisections: the loop
stops, never accesses out of bounds, keeps all vertices, adds only vertices which the other side has had, and the two sides have the same vertices at the end iff wherever only one of
them was bisected it was bisected uniformly. -/
theorem C80_conformity (S T : Sub) (x y tol : ℝ) (D : ℕ) (hS : S.depth ≤ D) (hT : T.depth ≤ D) (h0 : 0 < tol)
    (htol : tol * 2 ^ (D + 1) < y - x) :
    ∃ fuel S' T', restore tol x y fuel S T = .stopped S' T' ∧
      (∀ z ∈ S.side x y, z ∈ S'.side x y) ∧ (∀ z ∈ T.side x y, z ∈ T'.side x y) ∧
      (∀ z, z ∈ S'.side x y ∨ z ∈ T'.side x y → z ∈ S.side x y ∨ z ∈ T.side x y) ∧
      ((S'.side x y = T'.side x y) ↔ Restorable S T) := by
  have hxy : x < y := by have : (0 : ℝ) < tol * 2 ^ (D + 1) := by positivity
                         linarith
  obtain ⟨n, hn⟩ : ∃ n, 2 * (union S T).leaves ≤ n + S.leaves + T.leaves := ⟨2 * (union S T).leaves, by omega⟩
  suffices h : ∃ fuel S' T', restore tol x y fuel S T = .stopped S' T' ∧ ((∀ z ∈ S.side x y, z ∈ S'.side x y) ∧ (∀ z ∈ T.side x y, z ∈ T'.side x y) ∧
      union S' T' = union S T) ∧ (S' = T' ↔ Restorable S T) by
    obtain ⟨fuel, S', T', a, ⟨b1, b2, b⟩, c⟩ := h
    refine ⟨fuel, S', T', a, b1, b2, fun z hz => by rwa [← mem_union, b, mem_union] at hz, ?_⟩
    rw [← c]
    refine ⟨fun he => ?_, fun he => by rw [he]⟩
    -- a bisection is determined by its vertices
    have inj : ∀ (S T : Sub) (x y : ℝ), x < y → S.side x y = T.side x y → S = T := by
      intro S
      induction S with
      | leaf =>
        intro T x y h he
        cases T with
        | leaf => rfl
        | node l r =>
          exfalso
          have : (x + y) / 2 ∈ Sub.leaf.side x y := by rw [he]; exact mem_side_node.2 (Or.inl (right_mem _ _ _))
          simp only [Sub.side, Sub.pts, List.singleton_append, List.mem_cons, List.not_mem_nil, or_false] at this
          rcases this with h1 | h1 <;> linarith
      | node l r ihl ihr =>
        intro T x y h he
        cases T with
        | leaf =>
          exfalso
          have : (x + y) / 2 ∈ Sub.leaf.side x y := by rw [← he]; exact mem_side_node.2 (Or.inl (right_mem _ _ _))
          simp only [Sub.side, Sub.pts, List.singleton_append, List.mem_cons, List.not_mem_nil, or_false] at this
          rcases this with h1 | h1 <;> linarith
        | node l' r' =>
          have hm1 : x < (x + y) / 2 := by linarith
          have hm2 : (x + y) / 2 < y := by linarith
          have hf : ∀ (l r : Sub), ((Sub.node l r).side x y).filter (fun z => decide (z < (x + y) / 2)) = l.pts x ((x + y) / 2) := by
            intro l r
            have e : (Sub.node l r).side x y = l.pts x ((x + y) / 2) ++ r.side ((x + y) / 2) y := by simp [Sub.side, Sub.pts]
            rw [e, List.filter_append, List.filter_eq_self.2, List.filter_eq_nil_iff.2, List.append_nil]
            · intro z hz
              have := (mem_side_bounds hm2 hz).1
              simp only [decide_eq_true_eq]; linarith
            · intro z hz
              have := ((mem_pts l x _ hm1).1 z hz).2
              simpa using this
          have hl : l.pts x ((x + y) / 2) = l'.pts x ((x + y) / 2) := by rw [← hf l r, he, hf]
          have e : ∀ l r : Sub, (Sub.node l r).side x y = l.pts x ((x + y) / 2) ++ r.side ((x + y) / 2) y := by
            intro l r; simp [Sub.side, Sub.pts]
          rw [e, e, hl] at he
          rw [ihl l' x _ hm1 (by simp [Sub.side, hl]), ihr r' _ y hm2 (List.append_cancel_left he)]
    exact inj S' T' x y hxy he
  induction n generalizing S T with
  | zero =>
    have h1 := union_leaves S T
    have e1 : step T S = S := by
      by_contra hc
      have := (leaves_step T S).2 hc
      have h2 := union_leaves (step T S) (step S T)
      rw [union_step] at h2
      omega
    have e2 : step S T = T := by
      by_contra hc
      have := (leaves_step S T).2 hc
      have h2 := union_leaves (step T S) (step S T)
      rw [union_step] at h2
      omega
    refine ⟨1, S, T, ?_, ⟨fun _ h => h, fun _ h => h, rfl⟩, stopped_iff S T e1 e2⟩
    rw [restore_succ S T hS hT h0 htol, if_pos ⟨e1, e2⟩]
  | succ n ih =>
    by_cases hst : step T S = S ∧ step S T = T
    · refine ⟨1, S, T, ?_, ⟨fun _ h => h, fun _ h => h, rfl⟩, stopped_iff S T hst.1 hst.2⟩
      rw [restore_succ S T hS hT h0 htol, if_pos hst]
    · have hlt : S.leaves + T.leaves < (step T S).leaves + (step S T).leaves := by
        have a := leaves_step T S
        have b := leaves_step S T
        by_cases e1 : step T S = S
        · have e2 : step S T ≠ T := fun e2 => hst ⟨e1, e2⟩
          have := b.2 e2; omega
        · have := a.2 e1; omega
      obtain ⟨fuel, S', T', h1, h2, h3⟩ := ih (step T S) (step S T) (by have := depth_step T S; omega) (by have := depth_step S T; omega)
        (by rw [union_step]; omega)
      refine ⟨fuel + 1, S', T', ?_, ⟨fun z hz => h2.1 z (side_step T S z hz), fun z hz => h2.2.1 z (side_step S T z hz), h2.2.2.trans (union_step S T)⟩,
        h3.trans (restorable_step S T)⟩
      rw [restore_succ S T hS hT h0 htol, if_neg hst, h1]

/-- **C80**, refinement only: if both sides had the same vertices and some edges of both have been bisected once, the loop restores conformity. -/
theorem C80_after_refinement (U S T : Sub) (hS : Refined U S) (hT : Refined U T) (x y tol : ℝ) (D : ℕ) (hU : U.depth + 1 ≤ D) (h0 : 0 < tol)
    (htol : tol * 2 ^ (D + 1) < y - x) :
    ∃ fuel S' T', restore tol x y fuel S T = .stopped S' T' ∧ S'.side x y = T'.side x y := by
  have hdepth : ∀ U S : Sub, Refined U S → S.depth ≤ U.depth + 1 := by
    intro U
    induction U with
    | leaf => rintro S (rfl | rfl) <;> simp [Sub.depth]
    | node l r ihl ihr =>
      intro S hS
      cases S with
      | leaf => exact hS.elim
      | node l' r' =>
        have := ihl l' hS.1
        have := ihr r' hS.2
        simp only [Sub.depth]; omega
  have hres : ∀ U S T : Sub, Refined U S → Refined U T → Restorable S T := by
    intro U
    induction U with
    | leaf =>
      rintro S T (rfl | rfl) (rfl | rfl)
      · exact ⟨0, rfl⟩
      · exact ⟨1, rfl⟩
      · exact ⟨1, rfl⟩
      · exact ⟨⟨0, rfl⟩, ⟨0, rfl⟩⟩
    | node l r ihl ihr =>
      intro S T hS hT
      cases S with
      | leaf => exact hS.elim
      | node a b =>
        cases T with
        | leaf => exact hT.elim
        | node a' b' => exact ⟨ihl a a' hS.1 hT.1, ihr b b' hS.2 hT.2⟩
  obtain ⟨fuel, S', T', h1, _, _, _, h3⟩ := C80_conformity S T x y tol D (by have := hdepth U S hS; omega) (by have := hdepth U T hT; omega) h0 htol
  exact ⟨fuel, S', T', h1, h3.2 (hres U S T hS hT)⟩

/-- **C80**, refutation for cycles with coarsening: starting from two equal sides bisected once, if a cycle joins the two edges of one side and bisects only one of the
two edges of the other, the loop stops at once and leaves two vertices of the second side without double, on every edge and for every
small tolerance. -/
theorem C80_coarsening_refuted (x y tol : ℝ) (h0 : 0 < tol) (htol : tol * 8 < y - x) :
    let U := Sub.node .leaf .leaf
    let S := Sub.leaf
    let T := Sub.node (.node .leaf .leaf) .leaf
    Adapted U S ∧ Adapted U T ∧ restore tol x y 1 S T = .stopped S T ∧
      (x + y) / 2 ∈ T.side x y ∧ (x + y) / 2 ∉ S.side x y := by
  intro U S T
  have hxy : x < y := by linarith
  refine ⟨⟨rfl, rfl⟩, ⟨Or.inr rfl, Or.inl rfl⟩, ?_, ?_, ?_⟩
  · rw [restore_succ S T (D := 2) (by decide) (by decide) h0 (by norm_num; linarith), if_pos ⟨by decide, by decide⟩]
  · exact mem_side_node.2 (Or.inl (right_mem _ _ _))
  · simp only [S, Sub.side, Sub.pts, List.singleton_append, List.mem_cons, List.not_mem_nil, or_false, not_or]
    constructor <;> intro hc <;> linarith

/-- the hypotheses of `C80_conformity` with the tolerance of the program and an edge of length 1: a side bisected uniformly three times, the other not at all;
conformity is restored -/
example : ∃ fuel S' T', restore (1 / 10 ^ 7) 0 1 fuel (uniform 3) .leaf = .stopped S' T' ∧ S'.side 0 1 = T'.side 0 1 := by
  obtain ⟨fuel, S', T', h1, _, _, _, h3⟩ := C80_conformity (uniform 3) .leaf 0 1 (1 / 10 ^ 7) 3 (by decide) (by decide) (by norm_num) (by norm_num)
  exact ⟨fuel, S', T', h1, h3.2 ⟨3, rfl⟩⟩

/-- a case in which it is not -/
example : ¬ Restorable (Sub.node (.node .leaf .leaf) .leaf) .leaf := by
  rw [restorable_leaf, node_uniform]
  rintro ⟨_, h⟩
  exact absurd h (by decide)

/-- the hypotheses of `C80_after_refinement`: one side bisected in the first half, the other in the second -/
example : ∃ fuel S' T', restore (1 / 10 ^ 7) 0 1 fuel (.node (.node .leaf .leaf) .leaf) (.node .leaf (.node .leaf .leaf)) = .stopped S' T' ∧
    S'.side 0 1 = T'.side 0 1 :=
  C80_after_refinement (.node .leaf .leaf) (.node (.node .leaf .leaf) .leaf) (.node .leaf (.node .leaf .leaf)) ⟨Or.inr rfl, Or.inl rfl⟩ ⟨Or.inl rfl, Or.inr rfl⟩ 0 1 (1 / 10 ^ 7) 2 (by decide)
    (by norm_num) (by norm_num)

end PiBem.App
