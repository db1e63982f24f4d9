import Verif.Bem.Nodes
import Verif.Props.Operator
import Mathlib.Analysis.InnerProductSpace.PiL2

/-!
# C29, C30, C31, C32, C35, C54: nodes, double nodes and their constraints
-/

namespace PiBem.Bem

variable {n d : ℕ}

/-! ## C29 -/

theorem classify_dofs (l : List (Fin n)) (s : Classif n) :
    l.foldl (fun (s : Classif n) i =>
      { s with dir := Function.update s.dir i 1, neu := Function.update s.neu i 0 }) s =
    ⟨fun i => if i ∈ l then 1 else s.dir i, fun i => if i ∈ l then 0 else s.neu i, s.helper⟩ := by
  induction l generalizing s with
  | nil => simp
  | cons a t ih =>
    rw [List.foldl_cons, ih]
    congr 1 <;> funext i <;> by_cases h1 : i ∈ t <;> by_cases h2 : i = a <;> simp [h1, h2]

/-- Specification: the cell has one of the Dirichlet ids. -/
def BCell.isDirichlet (ids : List ℕ) (cell : BCell n) : Prop := cell.material ∈ ids

theorem classify_fold (ids : List ℕ) (proc : ℕ) (cells : List (BCell n)) (s : Classif n) (i : Fin n) :
    (cells.foldl (classifyCell ids proc) s).dir i =
      (open Classical in if ∃ c ∈ cells, c.subdomain = proc ∧ c.isDirichlet ids ∧ i ∈ c.dofs then 1 else s.dir i) ∧
    (cells.foldl (classifyCell ids proc) s).neu i =
      (open Classical in if ∃ c ∈ cells, c.subdomain = proc ∧ c.isDirichlet ids ∧ i ∈ c.dofs then 0 else s.neu i) ∧
    (cells.foldl (classifyCell ids proc) s).helper =
      (open Classical in if ∃ c ∈ cells, c.subdomain = proc ∧ c.isDirichlet ids then 1 else s.helper) := by
  classical
  induction cells generalizing s with
  | nil => simp
  | cons a t ih =>
    rw [List.foldl_cons]
    obtain ⟨e1, e2, e3⟩ := ih (classifyCell ids proc s a)
    rw [e1, e2, e3]
    have hany : (ids.any (fun d => d == a.material)) = true ↔ a.isDirichlet ids := by
      simp [BCell.isDirichlet]
    unfold classifyCell
    by_cases hs : a.subdomain = proc
    · by_cases hd : a.isDirichlet ids
      · simp only [hs, if_true, hany.mpr hd, classify_dofs, List.mem_cons, exists_eq_or_imp, hd, true_and]
        refine ⟨?_, ?_, by simp⟩ <;> by_cases h1 : i ∈ a.dofs <;> simp [h1]
      · have hf : (ids.any (fun d => d == a.material)) = false := by
          rw [Bool.eq_false_iff]; exact fun h => hd (hany.mp h)
        simp [hs, hf, hd]
    · simp [hs]

/-- **C29**. For every mesh, list of ids and partition: each node is exactly one of Dirichlet and Neumann, and it is
Dirichlet iff a Dirichlet cell of the process owning the node contains it. -/
theorem C29_complementary (ids : List ℕ) (cells : List (BCell n)) (own : Fin n → ℕ) (i : Fin n) :
    ((dirichletNodes ids cells own i = 1 ∧ neumannNodes ids cells own i = 0) ∨
      (dirichletNodes ids cells own i = 0 ∧ neumannNodes ids cells own i = 1)) ∧
    (dirichletNodes ids cells own i = 1 ↔
      ∃ c ∈ cells, c.subdomain = own i ∧ c.isDirichlet ids ∧ i ∈ c.dofs) := by
  obtain ⟨e1, e2, _⟩ := classify_fold ids (own i) cells ⟨fun _ => 0, vectorShift (fun _ => 0) 1, 0⟩ i
  unfold dirichletNodes neumannNodes classifyLocal
  rw [e1, e2]
  split_ifs with h
  · exact ⟨Or.inl ⟨rfl, rfl⟩, by simp [h]⟩
  · exact ⟨Or.inr ⟨rfl, by simp [vectorShift]⟩, by simp [h]⟩

/-- **C29**, partition independence. If the owner of every node has a cell containing it, and no node is shared by a
Dirichlet and a non-Dirichlet cell (the meshes on which materials meet at double nodes), a node is Dirichlet iff it
belongs to a cell with a Dirichlet id: the classification does not depend on the partition. The flag
`have_dirichlet_bc` never depends on it. -/
theorem C29_partition_independent (ids : List ℕ) (cells : List (BCell n)) (own : Fin n → ℕ) (procs : ℕ)
    (hown : ∀ i, ∃ c ∈ cells, c.subdomain = own i ∧ i ∈ c.dofs)
    (hproc : ∀ c ∈ cells, c.subdomain < procs)
    (hsep : ∀ c ∈ cells, ∀ c' ∈ cells, ∀ i, i ∈ c.dofs → i ∈ c'.dofs → (c.isDirichlet ids ↔ c'.isDirichlet ids)) :
    (∀ i, dirichletNodes ids cells own i = 1 ↔ ∃ c ∈ cells, c.isDirichlet ids ∧ i ∈ c.dofs) ∧
    (haveDirichlet ids cells procs = true ↔ ∃ c ∈ cells, c.isDirichlet ids) := by
  classical
  refine ⟨fun i => ?_, ?_⟩
  · rw [(C29_complementary ids cells own i).2]
    constructor
    · rintro ⟨c, hc, _, h2, h3⟩; exact ⟨c, hc, h2, h3⟩
    · rintro ⟨c, hc, h2, h3⟩
      obtain ⟨c', hc', e1, e2⟩ := hown i
      exact ⟨c', hc', e1, (hsep c hc c' hc' i h3 e2).mp h2, e2⟩
  · unfold haveDirichlet
    rw [decide_eq_true_eq, Finset.lt_sup_iff]
    constructor
    · rintro ⟨p, _, hp⟩
      unfold classifyLocal at hp
      by_cases hn : Nonempty (Fin n)
      · obtain ⟨i⟩ := hn
        rw [(classify_fold ids p cells _ i).2.2] at hp
        split_ifs at hp with h
        · obtain ⟨c, hc, _, h2⟩ := h; exact ⟨c, hc, h2⟩
        · simp at hp
      · by_contra hno
        push Not at hno
        have : ∀ (l : List (BCell n)) (s : Classif n), (∀ c ∈ l, ¬ c.isDirichlet ids) →
            (l.foldl (classifyCell ids p) s).helper = s.helper := by
          intro l
          induction l with
          | nil => intro s _; rfl
          | cons a t ih =>
            intro s hl
            rw [List.foldl_cons, ih _ (fun c hc => hl c (List.mem_cons_of_mem _ hc))]
            have : (ids.any (fun d => d == a.material)) = false := by
              rw [Bool.eq_false_iff]
              intro h
              exact hl a List.mem_cons_self (by simpa [BCell.isDirichlet] using h)
            unfold classifyCell
            simp [this]
        rw [this cells _ hno] at hp
        simp at hp
    · rintro ⟨c, hc, h⟩
      refine ⟨c.subdomain, Finset.mem_range.mpr (hproc c hc), ?_⟩
      have : ∀ (l : List (BCell n)) (s : Classif n), (c ∈ l ∨ 0 < s.helper) →
          0 < (l.foldl (classifyCell ids c.subdomain) s).helper := by
        intro l
        induction l with
        | nil => intro s hs; simpa using hs
        | cons a t ih =>
          intro s hs
          rw [List.foldl_cons]
          apply ih
          by_cases hct : c ∈ t
          · exact Or.inl hct
          · right
            by_cases hca : c = a
            · subst hca
              have : (ids.any (fun d => d == c.material)) = true := by simpa [BCell.isDirichlet] using h
              simp [classifyCell, this]
            · have h0 : 0 < s.helper := by
                rcases hs with hs | hs
                · rw [List.mem_cons] at hs; tauto
                · exact hs
              unfold classifyCell
              split_ifs
              · simp
              · exact h0
              · exact h0
      exact this cells _ (Or.inl hc)

/-- Non-vacuity of `C29_partition_independent`: two cells with distinct nodes on two processes. -/
example :
    let cells : List (BCell 4) := [⟨0, 7, [0, 1]⟩, ⟨1, 8, [2, 3]⟩]
    let own : Fin 4 → ℕ := fun i => if i.val < 2 then 0 else 1
    (∀ i, ∃ c ∈ cells, c.subdomain = own i ∧ i ∈ c.dofs) ∧ (∀ c ∈ cells, c.subdomain < 2) ∧
    (∀ c ∈ cells, ∀ c' ∈ cells, ∀ i, i ∈ c.dofs → i ∈ c'.dofs →
      (c.isDirichlet [7] ↔ c'.isDirichlet [7])) ∧ (∃ c ∈ cells, c.isDirichlet [7]) := by
  refine ⟨?_, ?_, ?_, ?_⟩
  · decide
  · decide
  · unfold BCell.isDirichlet; decide
  · unfold BCell.isDirichlet; decide

/-- **C29**, refutation in general: a node shared by a Dirichlet cell of process 0 and a Neumann cell of process 1,
owned by process 1, is Neumann, although it is Dirichlet when one process owns everything. -/
theorem C29_partition_refuted :
    ∃ (cells cells' : List (BCell 3)) (own own' : Fin 3 → ℕ) (i : Fin 3),
      cells'.map (fun c => (c.material, c.dofs)) = cells.map (fun c => (c.material, c.dofs)) ∧
      (∀ i, ∃ c ∈ cells, c.subdomain = own i ∧ i ∈ c.dofs) ∧
      (∀ i, ∃ c ∈ cells', c.subdomain = own' i ∧ i ∈ c.dofs) ∧
      dirichletNodes [7] cells own i = 1 ∧ dirichletNodes [7] cells' own' i = 0 := by
  refine ⟨[⟨0, 7, [0, 1]⟩, ⟨0, 8, [1, 2]⟩], [⟨0, 7, [0, 1]⟩, ⟨1, 8, [1, 2]⟩], fun _ => 0,
    fun i => if i = 0 then 0 else 1, 1, rfl, by decide, by decide, ?_, ?_⟩
  · rw [(C29_complementary _ _ _ _).2]; unfold BCell.isDirichlet; decide
  · rcases (C29_complementary [7] [⟨0, 7, [0, 1]⟩, ⟨1, 8, [1, 2]⟩] (fun i : Fin 3 => if i = 0 then 0 else 1) 1).1
      with h | h
    · have := (C29_complementary [7] [⟨0, 7, [0, 1]⟩, ⟨1, 8, [1, 2]⟩]
        (fun i : Fin 3 => if i = 0 then 0 else 1) 1).2.mp h.1
      revert this
      unfold BCell.isDirichlet
      decide
    · exact h.1

/-- The masks computed by the classification satisfy the hypothesis `Masks` of C25, C26, C28 and C53. -/
theorem C29_masks (ids : List ℕ) (cells : List (BCell n)) (own : Fin n → ℕ) (N D : Mat n) (alpha : Vec n) (b : Bool)
    (m : Method) :
    Masks ⟨N, D, alpha, dirichletNodes ids cells own, neumannNodes ids cells own, b, m⟩
      (open Classical in Finset.univ.filter (fun i => dirichletNodes ids cells own i = 1)) := by
  classical
  constructor <;> intro i <;> simp only [Finset.mem_filter, Finset.mem_univ, true_and] <;>
    rcases (C29_complementary ids cells own i).1 with ⟨h1, h2⟩ | ⟨h1, h2⟩ <;> simp [h1, h2]

/-! ## C30 -/

theorem doubleNodes_init : (List.finRange n).foldl
    (fun (s : Fin n → Finset (Fin n)) i => Function.update s i (insert i (s i))) (fun _ => ∅) = fun i => {i} := by
  funext i
  rw [foldl_pointwise_all _ (fun i s => insert i s)]
  · rfl
  · intro s i j
    by_cases h : j = i
    · subst h; simp
    · simp [h]

theorem mem_doubleNodes (tol : ℝ) (edge : List (Fin n)) (pts : Fin n → Fin d → ℝ) (i j : Fin n) :
    j ∈ doubleNodes tol edge pts i ↔ j = i ∨ (i ∈ edge ∧ j ∈ edge ∧ pdist (pts i) (pts j) < tol) := by
  classical
  unfold doubleNodes
  rw [doubleNodes_init]
  have inner : ∀ (a : Fin n) (l : List (Fin n)) (s : Fin n → Finset (Fin n)) (i j : Fin n),
      j ∈ l.foldl (fun s j => if pdist (pts a) (pts j) < tol then Function.update s a (insert j (s a)) else s) s i ↔
        j ∈ s i ∨ (i = a ∧ j ∈ l ∧ pdist (pts i) (pts j) < tol) := by
    intro a l
    induction l with
    | nil => intro s i j; simp
    | cons b t ih =>
      intro s i j
      rw [List.foldl_cons, ih]
      by_cases hb : pdist (pts a) (pts b) < tol
      · rw [if_pos hb]
        by_cases hi : i = a
        · subst hi
          simp only [Function.update_self, Finset.mem_insert, List.mem_cons, true_and]
          constructor
          · rintro ((rfl | h) | ⟨h1, h2⟩)
            · exact Or.inr ⟨Or.inl rfl, hb⟩
            · exact Or.inl h
            · exact Or.inr ⟨Or.inr h1, h2⟩
          · rintro (h | ⟨rfl | h1, h2⟩)
            · exact Or.inl (Or.inr h)
            · exact Or.inl (Or.inl rfl)
            · exact Or.inr ⟨h1, h2⟩
        · simp [hi]
      · rw [if_neg hb]
        constructor
        · rintro (h | ⟨h1, h2, h3⟩)
          · exact Or.inl h
          · exact Or.inr ⟨h1, List.mem_cons_of_mem _ h2, h3⟩
        · rintro (h | ⟨h1, h2, h3⟩)
          · exact Or.inl h
          · rcases List.mem_cons.mp h2 with rfl | h2
            · subst h1; exact absurd h3 hb
            · exact Or.inr ⟨h1, h2, h3⟩
  have outer : ∀ (l : List (Fin n)) (s : Fin n → Finset (Fin n)) (i j : Fin n),
      j ∈ l.foldl (fun s i => edge.foldl (fun s j =>
        if pdist (pts i) (pts j) < tol then Function.update s i (insert j (s i)) else s) s) s i ↔
        j ∈ s i ∨ (i ∈ l ∧ j ∈ edge ∧ pdist (pts i) (pts j) < tol) := by
    intro l
    induction l with
    | nil => intro s i j; simp
    | cons b t ih =>
      intro s i j
      rw [List.foldl_cons, ih, inner]
      simp only [List.mem_cons]
      constructor
      · rintro ((h | ⟨h1, h2, h3⟩) | ⟨h1, h2, h3⟩)
        · exact Or.inl h
        · exact Or.inr ⟨Or.inl h1, h2, h3⟩
        · exact Or.inr ⟨Or.inr h1, h2, h3⟩
      · rintro (h | ⟨h1 | h1, h2, h3⟩)
        · exact Or.inl (Or.inl h)
        · exact Or.inl (Or.inr ⟨h1, h2, h3⟩)
        · exact Or.inr ⟨h1, h2, h3⟩
  rw [outer]
  simp

theorem pdist_comm (x y : Fin d → ℝ) : pdist x y = pdist y x := by
  unfold pdist
  congr 1
  exact Finset.sum_congr rfl fun k _ => by ring

/-- **C30**. For every mesh, positions and tolerance: every node is in its own set; the relation is symmetric; the
set of a node consists of itself and the boundary-face nodes closer than the tolerance; if no two boundary-face nodes
have a distance in `(0, tol)` it is an equivalence whose classes are the sets. -/
theorem C30_double_nodes (tol : ℝ) (htol : 0 < tol) (edge : List (Fin n)) (pts : Fin n → Fin d → ℝ) :
    (∀ i, i ∈ doubleNodes tol edge pts i) ∧
    (∀ i j, j ∈ doubleNodes tol edge pts i → i ∈ doubleNodes tol edge pts j) ∧
    (∀ i j, j ∈ doubleNodes tol edge pts i ↔ j = i ∨ (i ∈ edge ∧ j ∈ edge ∧ pdist (pts i) (pts j) < tol)) ∧
    ((∀ i ∈ edge, ∀ j ∈ edge, pdist (pts i) (pts j) < tol → pts i = pts j) →
      ∀ i j, j ∈ doubleNodes tol edge pts i → doubleNodes tol edge pts j = doubleNodes tol edge pts i) := by
  have hzero : ∀ x : Fin d → ℝ, pdist x x < tol := by
    intro x; simp [pdist, htol]
  refine ⟨fun i => (mem_doubleNodes _ _ _ _ _).mpr (Or.inl rfl), fun i j h => ?_,
    fun i j => mem_doubleNodes _ _ _ _ _, fun hsep i j h => ?_⟩
  · rw [mem_doubleNodes] at h ⊢
    rcases h with rfl | ⟨h1, h2, h3⟩
    · exact Or.inl rfl
    · exact Or.inr ⟨h2, h1, by rwa [pdist_comm]⟩
  · rw [mem_doubleNodes] at h
    rcases h with rfl | ⟨h1, h2, h3⟩
    · rfl
    · have hp := hsep i h1 j h2 h3
      ext k
      rw [mem_doubleNodes, mem_doubleNodes]
      constructor
      · rintro (rfl | ⟨_, h5, h6⟩)
        · exact Or.inr ⟨h1, h2, h3⟩
        · exact Or.inr ⟨h1, h5, by rw [hp]; exact h6⟩
      · rintro (rfl | ⟨_, h5, h6⟩)
        · exact Or.inr ⟨h2, h1, by rwa [pdist_comm]⟩
        · exact Or.inr ⟨h2, h5, by rw [← hp]; exact h6⟩

/-- **C30**, necessity of the separation: with the tolerance `1e-10` of the program, three nodes in a row at mutual
distance `0.6e-10` are not related transitively. -/
theorem C30_not_transitive :
    ∃ pts : Fin 3 → Fin 1 → ℝ,
      (1 : Fin 3) ∈ doubleNodes 1e-10 [0, 1, 2] pts 0 ∧ (2 : Fin 3) ∈ doubleNodes 1e-10 [0, 1, 2] pts 1 ∧
      (2 : Fin 3) ∉ doubleNodes 1e-10 [0, 1, 2] pts 0 := by
  have hd : ∀ x y : ℝ, pdist (fun _ : Fin 1 => x) (fun _ => y) = |x - y| := by
    intro x y; simp [pdist, Real.sqrt_sq_eq_abs]
  refine ⟨fun i _ => i.val * 0.6e-10, ?_, ?_, ?_⟩ <;> rw [mem_doubleNodes] <;>
    simp only [hd, List.mem_cons, List.not_mem_nil, or_false]
  · right; refine ⟨by decide, by decide, ?_⟩; norm_num [abs_lt]
  · right; refine ⟨by decide, by decide, ?_⟩; norm_num [abs_lt]
  · rintro (h | ⟨_, _, h⟩)
    · exact absurd h (by decide)
    · revert h; norm_num [abs_lt]

/-- Non-vacuity of C30: two coincident nodes and a third one far away satisfy the separation hypothesis, and the
first two are double nodes of each other. -/
example :
    let pts : Fin 3 → Fin 1 → ℝ := ![![0], ![0], ![1]]
    (∀ i ∈ [0, 1, 2], ∀ j ∈ [0, 1, 2], pdist (pts i) (pts j) < 1e-10 → pts i = pts j) ∧
    1 ∈ doubleNodes 1e-10 [0, 1, 2] pts 0 ∧ 2 ∉ doubleNodes 1e-10 [0, 1, 2] pts 0 := by
  intro pts
  refine ⟨?_, ?_, ?_⟩
  · intro i _ j _
    fin_cases i <;> fin_cases j <;> simp [pts, pdist] <;> norm_num
  · rw [mem_doubleNodes]; right; simp [pts, pdist]; norm_num
  · rw [mem_doubleNodes]
    rintro (h | ⟨_, _, h⟩)
    · exact absurd h (by decide)
    · revert h; simp [pts, pdist]; norm_num

/-! ## C32, C54: double Dirichlet nodes -/

/-- **C32**. The condition selecting the treatment of flat edges is false for every pair of nodes: the branch that
would set the two normal derivatives equal is never executed. -/
theorem C32_dead_branch (D : NodeData n d) (i it : Fin n) : ¬ flatEdge D i it := by
  unfold flatEdge fltNaN fdiv
  by_cases h : dot (D.normal i) (D.normal it) = 0
  · simp [h]
  · simp only [h, if_false, div_self h]
    norm_num

/-- **C32**, consequence: on a flat edge (unit normals equal or opposite), if continuous gradients are requested, the
values imposed on both normal derivatives are not finite. -/
theorem C32_flat_edge_not_finite (D : NodeData n d) (i it : Fin n) (h1 : dot (D.normal i) (D.normal i) = 1)
    (h2 : D.normal it = D.normal i ∨ D.normal it = -(D.normal i)) :
    thisNormalGradient D i it = none ∧ otherNormalGradient D i it = none := by
  have : dot (D.normal i) (D.normal it) ^ 2 = 1 := by
    rcases h2 with h | h
    · rw [h, h1]; norm_num
    · have : dot (D.normal i) (D.normal it) = -1 := by
        rw [h, ← h1]; simp [dot]
      rw [this]; norm_num
  simp [thisNormalGradient, otherNormalGradient, fdiv, this]

/-- Specification: tangential part of a gradient on a surface with unit normal `ν`. -/
def tangential (g ν : Fin d → ℝ) : Fin d → ℝ := fun k => g k - dot g ν * ν k

theorem dot_tangential (g ν μ : Fin d → ℝ) : dot (tangential g ν) μ = dot g μ - dot g ν * dot ν μ := by
  have : dot g ν * dot ν μ = ∑ k, dot g ν * (ν k * μ k) := by rw [← Finset.mul_sum]; rfl
  rw [this]
  unfold tangential
  show ∑ k, _ = (∑ k, _) - _
  rw [← Finset.sum_sub_distrib]
  exact Finset.sum_congr rfl fun k _ => by ring

theorem dot_comm (x y : Fin d → ℝ) : dot x y = dot y x :=
  Finset.sum_congr rfl fun k _ => by ring

/-- **C54**. On a sharp edge (normals not parallel) if the surface gradients at the two coincident Dirichlet nodes are
the tangential parts of a common gradient `g`, the imposed values are exactly its two normal derivatives. -/
theorem C54_sharp_edge_exact (D : NodeData n d) (i it : Fin n) (g : Fin d → ℝ)
    (hs : dot (D.normal i) (D.normal it) ^ 2 ≠ 1)
    (hi : D.surfGrad i = tangential g (D.normal i)) (hit : D.surfGrad it = tangential g (D.normal it)) :
    thisNormalGradient D i it = some (dot g (D.normal i)) ∧
    otherNormalGradient D i it = some (dot g (D.normal it)) := by
  have hne : 1 - dot (D.normal i) (D.normal it) ^ 2 ≠ 0 := fun h => hs (sub_eq_zero.mp h).symm
  unfold thisNormalGradient otherNormalGradient fdiv
  rw [if_neg hne, hi, hit]
  simp only [dot_tangential, Option.map_some, Option.some.injEq, dot_comm (D.normal it) (D.normal i)]
  set c := dot (D.normal i) (D.normal it)
  constructor <;> field_simp <;> ring

/-- Non-vacuity of C54: a right angle with `g = (1, 2)`, where both values are non-zero. -/
example :
    let D : NodeData 2 2 := ⟨fun _ => 1, fun _ => 0, ![![1, 0], ![0, 1]], ![![0, 2], ![1, 0]], true⟩
    thisNormalGradient D 0 1 = some 1 ∧ otherNormalGradient D 0 1 = some 2 := by
  intro D
  have := C54_sharp_edge_exact D 0 1 ![1, 2] (by simp [D, dot])
    (by funext k; fin_cases k <;> simp [D, tangential, dot])
    (by funext k; fin_cases k <;> simp [D, tangential, dot])
  simpa [D, dot] using this

/-! ## C31 -/

/-- Specification: `l` is the smallest Dirichlet node of the group `G`. -/
def IsFirstDirichlet (D : NodeData n d) (G : Finset (Fin n)) (l : Fin n) : Prop :=
  l ∈ G ∧ D.dirichlet l = 1 ∧ ∀ j ∈ G, D.dirichlet j = 1 → l ≤ j

/-- Specification: `l` is the largest Dirichlet node of the group `G`. -/
def IsLastDirichlet (D : NodeData n d) (G : Finset (Fin n)) (l : Fin n) : Prop :=
  l ∈ G ∧ D.dirichlet l = 1 ∧ ∀ j ∈ G, D.dirichlet j = 1 → j ≤ l

theorem leader_dirichlet (D : NodeData n d) (G : Finset (Fin n)) (l : Fin n) (h : IsFirstDirichlet D G l) :
    leader D G = some l := by
  classical
  unfold leader
  have : (G.sort (· ≤ ·)).find? (fun j => decide (D.dirichlet j = 1)) = some l := by
    have hs : (G.sort (· ≤ ·)).Pairwise (· ≤ ·) := Finset.pairwise_sort G (· ≤ ·)
    have hm : ∀ j, j ∈ G.sort (· ≤ ·) ↔ j ∈ G := fun j => Finset.mem_sort (· ≤ ·)
    have hl := (hm l).mpr h.1
    have hmin : ∀ j ∈ G.sort (· ≤ ·), D.dirichlet j = 1 → l ≤ j := fun j hj => h.2.2 j ((hm j).mp hj)
    clear hm
    have hd := h.2.1
    clear h
    generalize G.sort (· ≤ ·) = L at hs hl hmin
    induction L with
    | nil => simp at hl
    | cons a t ih =>
      rw [List.pairwise_cons] at hs
      by_cases ha : D.dirichlet a = 1
      · have : l = a := by
          apply le_antisymm (hmin a List.mem_cons_self ha)
          rcases List.mem_cons.mp hl with rfl | h
          · exact le_refl _
          · exact hs.1 l h
        subst this
        simp [ha]
      · have hla : l ≠ a := by rintro rfl; exact ha hd
        rw [List.find?_cons_of_neg (by simp [ha])]
        exact ih hs.2 (by simpa [hla] using hl) (fun j hj => hmin j (List.mem_cons_of_mem _ hj))
  rw [this]

theorem leader_neumann (D : NodeData n d) (G : Finset (Fin n)) (l : Fin n) (hl : l ∈ G) (hmin : ∀ j ∈ G, l ≤ j)
    (hno : ∀ j ∈ G, D.dirichlet j ≠ 1) : leader D G = some l := by
  classical
  unfold leader
  have : (G.sort (· ≤ ·)).find? (fun j => decide (D.dirichlet j = 1)) = none := by
    rw [List.find?_eq_none]
    intro j hj
    simpa using hno j ((Finset.mem_sort (· ≤ ·)).mp hj)
  rw [this]
  have hs : (G.sort (· ≤ ·)).Pairwise (· ≤ ·) := Finset.pairwise_sort G (· ≤ ·)
  have hl' : l ∈ G.sort (· ≤ ·) := (Finset.mem_sort (· ≤ ·)).mpr hl
  have hmin' : ∀ j ∈ G.sort (· ≤ ·), l ≤ j := fun j hj => hmin j ((Finset.mem_sort (· ≤ ·)).mp hj)
  cases hc : G.sort (· ≤ ·) with
  | nil => rw [hc] at hl'; simp at hl'
  | cons a t =>
    rw [hc] at hs hl' hmin'
    rw [List.pairwise_cons] at hs
    simp only [List.head?_cons, Option.some.injEq]
    apply le_antisymm _ (hmin' a List.mem_cons_self)
    rcases List.mem_cons.mp hl' with rfl | h
    · exact le_refl _
    · exact hs.1 l h

theorem exists_firstDirichlet (D : NodeData n d) (G : Finset (Fin n)) (h : ∃ j ∈ G, D.dirichlet j = 1) :
    ∃ l, IsFirstDirichlet D G l := by
  classical
  obtain ⟨j, hj, hd⟩ := h
  have hne : (G.filter (fun j => D.dirichlet j = 1)).Nonempty := ⟨j, by simp [hj, hd]⟩
  refine ⟨(G.filter (fun j => D.dirichlet j = 1)).min' hne, ?_⟩
  · have := Finset.min'_mem _ hne
    rw [Finset.mem_filter] at this
    exact ⟨this.1, this.2, fun k hk hkd => Finset.min'_le _ _ (by simp [hk, hkd])⟩

/-! ### Effect of the elementary operations -/

theorem addLine_of_ne (c : Lines n) {i j : Fin n} (h : j ≠ i) : addLine c i j = c j := by
  unfold addLine; cases c i <;> simp [h]

theorem addLine_self (c : Lines n) (i : Fin n) : addLine c i i = some ((c i).getD ([], some 0)) := by
  unfold addLine; cases h : c i <;> simp [h]

theorem addEntry_of_ne (c : Lines n) {i j : Fin n} (k : Fin n) (v : ℝ) (h : j ≠ i) : addEntry c i k v j = c j := by
  unfold addEntry
  cases c i with
  | none => rfl
  | some e => simp only; split_ifs <;> simp [h]

theorem setInhom_of_ne (c : Lines n) {i j : Fin n} (v : Option ℝ) (h : j ≠ i) : setInhom c i v j = c j := by
  unfold setInhom; cases c i <;> simp [h]

theorem setInhom_self (c : Lines n) (i : Fin n) (v : Option ℝ) : setInhom c i v i = (c i).map (fun e => (e.1, v)) := by
  unfold setInhom; cases h : c i <;> simp [h]

theorem dirichletDouble_of_ne (D : NodeData n d) (i : Fin n) (c : Lines n) (it j : Fin n) (h1 : j ≠ it)
    (h2 : j ≠ i) : dirichletDouble D i c it j = c j := by
  unfold dirichletDouble
  rw [if_neg (C32_dead_branch D i it)]
  split_ifs
  · simp only [setInhom_of_ne _ _ h1, addLine_of_ne _ h1, setInhom_of_ne _ _ h2, addLine_of_ne _ h2]
  · rfl
  · rw [setInhom_of_ne _ _ h1, addLine_of_ne _ h1]

theorem dirichletDouble_it (D : NodeData n d) (i : Fin n) (c : Lines n) (it : Fin n) (h : it ≠ i)
    (hc : c it = none) : dirichletDouble D i c it it =
      if D.dirichlet it = 1 then (if D.continuosGradient then some ([], otherNormalGradient D i it) else none)
      else some ([], some (D.tmpRhs i)) := by
  unfold dirichletDouble
  rw [if_neg (C32_dead_branch D i it)]
  split_ifs
  · simp only [setInhom_self, addLine_self, setInhom_of_ne _ _ h, addLine_of_ne _ h, hc]
    rfl
  · exact hc
  · simp only [setInhom_self, addLine_self, hc]; rfl

theorem dirichletDouble_i (D : NodeData n d) (i : Fin n) (c : Lines n) (it : Fin n) (h : it ≠ i)
    (hc : c i = none ∨ ∃ g, c i = some ([], g)) : dirichletDouble D i c it i =
      if D.dirichlet it = 1 ∧ D.continuosGradient = true then some ([], thisNormalGradient D i it) else c i := by
  unfold dirichletDouble
  rw [if_neg (C32_dead_branch D i it)]
  by_cases h1 : D.dirichlet it = 1
  · by_cases h2 : D.continuosGradient = true
    · rw [if_pos h1, if_pos h2, if_pos ⟨h1, h2⟩]
      simp only [setInhom_of_ne _ _ h.symm, addLine_of_ne _ h.symm, setInhom_self, addLine_self]
      rcases hc with hc | ⟨g, hc⟩ <;> rw [hc] <;> rfl
    · rw [if_pos h1, if_neg h2, if_neg (fun h => h2 h.2)]
  · rw [if_neg h1, if_neg (fun h => h1 h.1), setInhom_of_ne _ _ h.symm, addLine_of_ne _ h.symm]

theorem dirichlet_fold_other (D : NodeData n d) (i : Fin n) (l : List (Fin n)) (hl : l.Nodup) (hi : i ∉ l)
    (c : Lines n) (j : Fin n) (hj : j ≠ i) (hc : c j = none) :
    l.foldl (dirichletDouble D i) c j = if j ∈ l then
      (if D.dirichlet j = 1 then (if D.continuosGradient then some ([], otherNormalGradient D i j) else none)
      else some ([], some (D.tmpRhs i))) else none := by
  have keep : ∀ (t : List (Fin n)) (c : Lines n), j ∉ t → t.foldl (dirichletDouble D i) c j = c j := by
    intro t
    induction t with
    | nil => intro c _; rfl
    | cons b t ih =>
      intro c hb
      rw [List.mem_cons, not_or] at hb
      rw [List.foldl_cons, ih _ hb.2, dirichletDouble_of_ne D i c b j hb.1 hj]
  induction l generalizing c with
  | nil => simpa using hc
  | cons a t ih =>
    rw [List.nodup_cons] at hl
    rw [List.mem_cons, not_or] at hi
    rw [List.foldl_cons]
    by_cases ha : j = a
    · subst ha
      rw [keep t _ hl.1, dirichletDouble_it D i c j hj hc, if_pos List.mem_cons_self]
    · rw [ih hl.2 hi.2 _ (by rw [dirichletDouble_of_ne D i c a j ha hj, hc])]
      simp [ha]

theorem dirichlet_fold_leader (D : NodeData n d) (i : Fin n) (l : List (Fin n)) (hi : i ∉ l)
    (hs : l.Pairwise (· ≤ ·)) (c : Lines n) (hc : c i = none) :
    ((D.continuosGradient = false ∨ ∀ j ∈ l, D.dirichlet j ≠ 1) → l.foldl (dirichletDouble D i) c i = none) ∧
    (D.continuosGradient = true → ∀ m ∈ l, D.dirichlet m = 1 → (∀ j ∈ l, D.dirichlet j = 1 → j ≤ m) →
      l.foldl (dirichletDouble D i) c i = some ([], thisNormalGradient D i m)) := by
  have inv : ∀ (t : List (Fin n)) (c : Lines n), i ∉ t → (c i = none ∨ ∃ g, c i = some ([], g)) →
      ((t.foldl (dirichletDouble D i) c) i = none ∨ ∃ g, (t.foldl (dirichletDouble D i) c) i = some ([], g)) ∧
      ((D.continuosGradient = false ∨ ∀ j ∈ t, D.dirichlet j ≠ 1) → t.foldl (dirichletDouble D i) c i = c i) := by
    intro t
    induction t with
    | nil => intro c _ h; exact ⟨h, fun _ => rfl⟩
    | cons b t ih =>
      intro c hb h
      rw [List.mem_cons, not_or] at hb
      have hstep := dirichletDouble_i D i c b (Ne.symm hb.1) h
      have h' : dirichletDouble D i c b i = none ∨ ∃ g, dirichletDouble D i c b i = some ([], g) := by
        rw [hstep]; split_ifs
        · exact Or.inr ⟨_, rfl⟩
        · exact h
      obtain ⟨r1, r2⟩ := ih (dirichletDouble D i c b) hb.2 h'
      refine ⟨r1, fun hno => ?_⟩
      rw [List.foldl_cons, r2 (hno.imp id (fun h j hj => h j (List.mem_cons_of_mem _ hj))), hstep, if_neg]
      rintro ⟨e1, e2⟩
      rcases hno with hno | hno
      · rw [hno] at e2; exact absurd e2 (by decide)
      · exact hno b List.mem_cons_self e1
  refine ⟨fun hno => by rw [(inv l c hi (Or.inl hc)).2 hno, hc], fun hg m hm hmd hmax => ?_⟩
  obtain ⟨l1, l2, rfl⟩ := List.append_of_mem hm
  have hi1 : i ∉ l1 := fun h => hi (List.mem_append.mpr (Or.inl h))
  have hi2 : i ∉ m :: l2 := fun h => hi (List.mem_append.mpr (Or.inr h))
  rw [List.foldl_append, List.foldl_cons]
  have h1 := (inv l1 c hi1 (Or.inl hc)).1
  rw [List.mem_cons, not_or] at hi2
  have h2 := dirichletDouble_i D i (l1.foldl (dirichletDouble D i) c) m (Ne.symm hi2.1) h1
  rw [if_pos ⟨hmd, hg⟩] at h2
  -- the elements after `m` that are Dirichlet are equal to `m`
  have after : ∀ (t : List (Fin n)) (c : Lines n), i ∉ t → (∀ j ∈ t, D.dirichlet j = 1 → j = m) →
      c i = some ([], thisNormalGradient D i m) →
      t.foldl (dirichletDouble D i) c i = some ([], thisNormalGradient D i m) := by
    intro t
    induction t with
    | nil => intro c _ _ h; exact h
    | cons b t ih =>
      intro c hb ht h
      rw [List.mem_cons, not_or] at hb
      rw [List.foldl_cons]
      apply ih _ hb.2 (fun j hj => ht j (List.mem_cons_of_mem _ hj))
      rw [dirichletDouble_i D i c b (Ne.symm hb.1) (Or.inr ⟨_, h⟩)]
      split_ifs with he
      · rw [ht b List.mem_cons_self he.1]
      · exact h
  apply after l2 _ hi2.2 _ h2
  intro j hj hjd
  apply le_antisymm
  · exact hmax j (by simp [hj]) hjd
  · rw [List.pairwise_append] at hs
    exact (List.pairwise_cons.mp hs.2.1).1 j hj

theorem neumann_fold (i : Fin n) (l : List (Fin n)) (hl : l.Nodup) (c : Lines n) (j : Fin n)
    (hc : c j = none) :
    l.foldl (fun c it => addEntry (addLine c it) it i 1) c j = if j ∈ l then some ([(i, 1)], some 0) else none := by
  have hf : ∀ (c : Lines n) (it j : Fin n), addEntry (addLine c it) it i 1 j =
      if j = it then (fun (e : Option (List (Fin n × ℝ) × Option ℝ)) =>
        (addEntry (fun _ => some (e.getD ([], some 0))) it i 1) it) (c it) else c j := by
    intro c it j
    by_cases h : j = it
    · subst h
      simp only [if_true]
      unfold addEntry
      rw [addLine_self]
      simp only
      split_ifs
      · exact addLine_self c j
      · simp
    · rw [if_neg h, addEntry_of_ne _ _ _ h, addLine_of_ne _ h]
  rw [foldl_pointwise _ (fun it e => (addEntry (fun _ => some (e.getD ([], some 0))) it i 1) it) hf l hl c j, hc]
  simp [addEntry]

/-! ### The loop -/

section loop

variable (D : NodeData n d) (G : Fin n → Finset (Fin n))

theorem constraintStep_outside (c : Lines n) (i j : Fin n) (hij : i ∈ G i) (hj : j ∉ G i) :
    constraintStep D G c i j = c j := by
  classical
  have hji : j ≠ i := by rintro rfl; exact hj hij
  have hns : ∀ it, it ∈ ((G i).erase i).sort (· ≤ ·) → j ≠ it := by
    rintro it hit rfl
    rw [Finset.mem_sort, Finset.mem_erase] at hit
    exact hj hit.2
  have k1 : ∀ (l : List (Fin n)) (c : Lines n), (∀ it ∈ l, j ≠ it) → l.foldl (dirichletDouble D i) c j = c j := by
    intro l
    induction l with
    | nil => intro c _; rfl
    | cons b t ih =>
      intro c hb
      rw [List.foldl_cons, ih _ (fun it h => hb it (List.mem_cons_of_mem _ h)),
        dirichletDouble_of_ne D i c b j (hb b List.mem_cons_self) hji]
  have k2 : ∀ (l : List (Fin n)) (c : Lines n), (∀ it ∈ l, j ≠ it) →
      l.foldl (fun c it => addEntry (addLine c it) it i 1) c j = c j := by
    intro l
    induction l with
    | nil => intro c _; rfl
    | cons b t ih =>
      intro c hb
      rw [List.foldl_cons, ih _ (fun it h => hb it (List.mem_cons_of_mem _ h)),
        addEntry_of_ne _ _ _ (hb b List.mem_cons_self), addLine_of_ne _ (hb b List.mem_cons_self)]
  unfold constraintStep
  split_ifs <;> simp only [k1 _ _ hns, k2 _ _ hns]

variable (hrefl : ∀ i, i ∈ G i) (heq : ∀ i j, j ∈ G i → G j = G i)

include hrefl heq

/-- The line of a node is written only when the loop visits the leader of its group. -/
theorem line_only_at_leader (k l : Fin n) (hl : leader D (G k) = some l) (i : Fin n) (hil : i ≠ l)
    (c : Lines n) : constraintStep D G c i k = c k := by
  by_cases hk : k ∈ G i
  · have : leader D (G i) ≠ some i := by
      rw [← heq i k hk, hl]
      intro h
      exact hil (Option.some.inj h).symm
    unfold constraintStep
    rw [if_neg this]
  · exact constraintStep_outside D G c i k (hrefl i) hk

/-- The final line of a node is what the step of the leader writes on a group without lines. -/
theorem final_line (k l : Fin n) (hlG : l ∈ G k) (hl : leader D (G k) = some l) :
    ∃ c : Lines n, (∀ j ∈ G k, c j = none) ∧ doubleNodeConstraints D G k = constraintStep D G c l k := by
  have keep : ∀ (t : List (Fin n)) (c : Lines n) (j : Fin n), j ∈ G k → l ∉ t →
      t.foldl (constraintStep D G) c j = c j := by
    intro t
    induction t with
    | nil => intro c j _ _; rfl
    | cons b t ih =>
      intro c j hj hb
      rw [List.mem_cons, not_or] at hb
      rw [List.foldl_cons, ih _ j hj hb.2,
        line_only_at_leader D G hrefl heq j l (by rw [heq k j hj, hl]) b (Ne.symm hb.1)]
  have hmem : l ∈ List.finRange n := List.mem_finRange l
  have hnd : (List.finRange n).Nodup := List.nodup_finRange n
  obtain ⟨l1, l2, hsplit⟩ := List.append_of_mem hmem
  have hnd' := hnd
  rw [hsplit, List.nodup_append] at hnd'
  have hl1 : l ∉ l1 := fun h => hnd'.2.2 l h l List.mem_cons_self rfl
  have hl2 : l ∉ l2 := (List.nodup_cons.mp hnd'.2.1).1
  refine ⟨l1.foldl (constraintStep D G) (fun _ => none), fun j hj => keep l1 _ j hj hl1, ?_⟩
  unfold doubleNodeConstraints
  rw [hsplit, List.foldl_append, List.foldl_cons, keep l2 _ k (hrefl k) hl2]

/-- **C31**. Let the double node sets be the classes of an equivalence (C30) and the mask take the values 0 and 1
(C29). Then after the double node loop of `compute_constraints`, for every node `i` with group `G i`:
* if the group has Dirichlet nodes, a Neumann node is constrained to the datum of the first Dirichlet node;
* in a group without Dirichlet nodes every node but the first is constrained to be equal to the first one, and the
  first one is not constrained;
* Dirichlet nodes are not constrained if continuous gradients are not requested; if they are, each Dirichlet
  node but the first gets the normal gradient computed from the pair (first, itself), and the first one the
  normal gradient computed from the pair (itself, last Dirichlet node), unless it is alone. -/
theorem C31_double_node_constraints (hd : ∀ i, D.dirichlet i = 0 ∨ D.dirichlet i = 1) (i : Fin n) :
    (D.dirichlet i = 0 → ∀ l, IsFirstDirichlet D (G i) l →
      doubleNodeConstraints D G i = some ([], some (D.tmpRhs l))) ∧
    ((∀ j ∈ G i, D.dirichlet j = 0) → ∀ l ∈ G i, (∀ j ∈ G i, l ≤ j) →
      doubleNodeConstraints D G i = if i = l then none else some ([(l, 1)], some 0)) ∧
    (D.dirichlet i = 1 → D.continuosGradient = false → doubleNodeConstraints D G i = none) ∧
    (D.dirichlet i = 1 → D.continuosGradient = true → ∀ l, IsFirstDirichlet D (G i) l → i ≠ l →
      doubleNodeConstraints D G i = some ([], otherNormalGradient D l i)) ∧
    (D.continuosGradient = true → IsFirstDirichlet D (G i) i → ∀ m, IsLastDirichlet D (G i) m →
      doubleNodeConstraints D G i = if m = i then none else some ([], thisNormalGradient D i m)) := by
  classical
  have hsort : ∀ l j, j ∈ ((G l).erase l).sort (· ≤ ·) ↔ j ≠ l ∧ j ∈ G l := by
    intro l j; rw [Finset.mem_sort, Finset.mem_erase]
  -- value of the line of `i` when the leader is the first Dirichlet node `l`
  have dir : ∀ l, IsFirstDirichlet D (G i) l → ∃ c : Lines n, (∀ j ∈ G i, c j = none) ∧
      doubleNodeConstraints D G i = (((G l).erase l).sort (· ≤ ·)).foldl (dirichletDouble D l) c i := by
    intro l hl
    obtain ⟨c, hc, he⟩ := final_line D G hrefl heq i l hl.1 (leader_dirichlet D _ l hl)
    refine ⟨c, hc, he.trans ?_⟩
    have hll : leader D (G l) = some l := by rw [heq i l hl.1]; exact leader_dirichlet D _ l hl
    unfold constraintStep
    rw [if_pos hll, if_pos hl.2.1, if_neg (by rw [hl.2.1]; norm_num)]
  have other : ∀ l, IsFirstDirichlet D (G i) l → i ≠ l → doubleNodeConstraints D G i =
      if D.dirichlet i = 1 then (if D.continuosGradient then some ([], otherNormalGradient D l i) else none)
      else some ([], some (D.tmpRhs l)) := by
    intro l hl hil
    obtain ⟨c, hc, he⟩ := dir l hl
    rw [he, dirichlet_fold_other D l _ (Finset.sort_nodup _ _) (by simp) c i hil (hc i (hrefl i)), if_pos]
    rw [hsort, heq i l hl.1]
    exact ⟨hil, hrefl i⟩
  refine ⟨fun h0 l hl => ?_, fun hno l hl hmin => ?_, fun h1 hg => ?_, fun h1 hg l hl hil => ?_, fun hg hl m hm => ?_⟩
  · have hil : i ≠ l := by rintro rfl; rw [hl.2.1] at h0; norm_num at h0
    rw [other l hl hil, if_neg (by rw [h0]; norm_num)]
  · have hlead : leader D (G i) = some l :=
      leader_neumann D _ l hl hmin (fun j hj => by rw [hno j hj]; norm_num)
    obtain ⟨c, hc, he⟩ := final_line D G hrefl heq i l hl hlead
    rw [he]
    unfold constraintStep
    rw [if_pos (by rw [heq i l hl]; exact hlead), if_pos (hno l hl), if_neg (by rw [hno l hl]; norm_num),
      neumann_fold l _ (Finset.sort_nodup _ _) c i (hc i (hrefl i))]
    by_cases hil : i = l
    · subst hil; simp
    · rw [if_pos, if_neg hil]
      rw [hsort, heq i l hl]; exact ⟨hil, hrefl i⟩
  · obtain ⟨l, hl⟩ := exists_firstDirichlet D (G i) ⟨i, hrefl i, h1⟩
    by_cases hil : i = l
    · subst hil
      obtain ⟨c, hc, he⟩ := dir i hl
      rw [he]
      exact (dirichlet_fold_leader D i _ (by simp) (Finset.pairwise_sort _ _) c (hc i (hrefl i))).1 (Or.inl hg)
    · rw [other l hl hil, if_pos h1, hg]; rfl
  · rw [other l hl hil, if_pos h1, if_pos hg]
  · obtain ⟨c, hc, he⟩ := dir i hl
    rw [he]
    have hf := dirichlet_fold_leader D i (((G i).erase i).sort (· ≤ ·)) (by simp) (Finset.pairwise_sort _ _) c
      (hc i (hrefl i))
    by_cases hmi : m = i
    · rw [if_pos hmi]
      apply hf.1
      right
      intro j hj hjd
      rw [hsort] at hj
      subst hmi
      exact hj.1 (le_antisymm (hm.2.2 j hj.2 hjd) (hl.2.2 j hj.2 hjd))
    · rw [if_neg hmi]
      apply hf.2 hg m ((hsort i m).mpr ⟨hmi, hm.1⟩) hm.2.1
      intro j hj hjd
      rw [hsort] at hj
      exact hm.2.2 j hj.2 hjd

end loop

/-- The lines as constraints for the constrained operator (all inhomogeneities finite); no line refers to a
constrained node (`C31_no_chains`), so `close()` has nothing to resolve. -/
def toConstraints (c : Lines n) : Constraints ℝ n := fun i => (c i).map (fun e => (e.1, e.2.getD 0))

/-- The entries of the double node constraints refer only to unconstrained nodes. -/
theorem C31_no_chains (D : NodeData n d) (G : Fin n → Finset (Fin n)) (hrefl : ∀ i, i ∈ G i)
    (heq : ∀ i j, j ∈ G i → G j = G i) (hd : ∀ i, D.dirichlet i = 0 ∨ D.dirichlet i = 1) (i : Fin n)
    (es : List (Fin n × ℝ)) (g : Option ℝ) (h : doubleNodeConstraints D G i = some (es, g)) :
    ∀ e ∈ es, doubleNodeConstraints D G e.1 = none := by
  obtain ⟨h1, h2, h3, h4, h5⟩ := C31_double_node_constraints D G hrefl heq hd i
  by_cases hex : ∃ j ∈ G i, D.dirichlet j = 1
  · obtain ⟨l, hl⟩ := exists_firstDirichlet D (G i) hex
    have : es = [] := by
      rcases hd i with hi | hi
      · rw [h1 hi l hl] at h; cases h; rfl
      · cases hg : D.continuosGradient with
        | false => rw [h3 hi hg] at h; cases h
        | true =>
          by_cases hil : i = l
          · subst hil
            classical
            have hne : ((G i).filter (fun j => D.dirichlet j = 1)).Nonempty := ⟨i, by simp [hrefl i, hi]⟩
            have hm := Finset.max'_mem _ hne
            rw [Finset.mem_filter] at hm
            rw [h5 hg hl _ ⟨hm.1, hm.2, fun k hk hkd => Finset.le_max' _ _ (by simp [hk, hkd])⟩] at h
            split_ifs at h
            cases h; rfl
          · rw [h4 hi hg l hl hil] at h; cases h; rfl
    rw [this]; simp
  · push Not at hex
    have hno : ∀ j ∈ G i, D.dirichlet j = 0 := fun j hj => (hd j).resolve_right (hex j hj)
    have hne : (G i).Nonempty := ⟨i, hrefl i⟩
    have hl := Finset.min'_mem (G i) hne
    have hmin : ∀ j ∈ G i, (G i).min' hne ≤ j := fun j hj => Finset.min'_le _ _ hj
    rw [h2 hno _ hl hmin] at h
    split_ifs at h with hil
    cases h
    intro e he
    rw [List.mem_singleton] at he
    subst he
    have e2 := (C31_double_node_constraints D G hrefl heq hd ((G i).min' hne)).2.1
    rw [heq i _ hl] at e2
    simp only
    rw [e2 hno _ hl hmin, if_pos rfl]

/-- **C31**, consequence for the solution. With the double node constraints (no hanging nodes), if the Dirichlet data
agree on coincident Dirichlet nodes, then after an exact solve the potential takes the same value on all the nodes of
every group. -/
theorem C31_potential_single_valued (P : Problem n) (S : Finset (Fin n)) (hS : Masks P S)
    (D : NodeData n d) (hD : D.dirichlet = P.dirichletNodes) (G : Fin n → Finset (Fin n)) (hrefl : ∀ i, i ∈ G i)
    (heq : ∀ i j, j ∈ G i → G j = G i) (procs : ℕ) (own : Fin n → ℕ) (sol phi dphi : Vec n)
    (hphi : ∀ i ∈ S, phi i = D.tmpRhs i)
    (hagree : ∀ i ∈ S, ∀ j ∈ S, j ∈ G i → D.tmpRhs j = D.tmpRhs i)
    (hsol : constrainedVmult procs own (vmult P) (toConstraints (doubleNodeConstraints D G)) sol =
      distributeRhs (toConstraints (doubleNodeConstraints D G)) (computeRhs P 0 D.tmpRhs)) :
    ∀ i j, j ∈ G i → (storeSolution P.dirichletNodes sol phi dphi).1 j =
      (storeSolution P.dirichletNodes sol phi dphi).1 i := by
  have hd : ∀ i, D.dirichlet i = 0 ∨ D.dirichlet i = 1 := by
    intro i; rw [hD, hS.dirichlet]; split_ifs <;> simp
  have hdS : ∀ i, D.dirichlet i = 1 ↔ i ∈ S := by
    intro i; rw [hD, hS.dirichlet]; split_ifs with h <;> simp [h]
  have hd0 : ∀ i, D.dirichlet i = 0 ↔ i ∉ S := by
    intro i; rw [hD, hS.dirichlet]; split_ifs with h <;> simp [h]
  obtain ⟨h1, _⟩ := (C22_constrained_solution procs own (vmult P) _ sol _).mp hsol
  rw [C26_prescribed_data_kept P S hS]
  -- common value of a group
  have key : ∀ i, ∃ v, ∀ j ∈ G i, merge S phi sol j = v := by
    intro i
    by_cases hex : ∃ j ∈ G i, D.dirichlet j = 1
    · obtain ⟨l, hl⟩ := exists_firstDirichlet D (G i) hex
      refine ⟨D.tmpRhs l, fun j hj => ?_⟩
      unfold merge
      split_ifs with hjS
      · rw [hphi j hjS]
        refine hagree l ((hdS l).mp hl.2.1) j hjS ?_
        rw [heq i l hl.1]; exact hj
      · have hc := (C31_double_node_constraints D G hrefl heq hd j).1 ((hd0 j).mpr hjS) l
          (by rw [heq i j hj]; exact hl)
        have := h1 j [] (D.tmpRhs l) (by simp [toConstraints, hc])
        simpa using this
    · push Not at hex
      have hno : ∀ j ∈ G i, D.dirichlet j = 0 := fun j hj => (hd j).resolve_right (hex j hj)
      have hne : (G i).Nonempty := ⟨i, hrefl i⟩
      refine ⟨sol ((G i).min' hne), fun j hj => ?_⟩
      have hjS : j ∉ S := (hd0 j).mp (hno j hj)
      unfold merge
      rw [if_neg hjS]
      have hc := (C31_double_node_constraints D G hrefl heq hd j).2.1 (by rw [heq i j hj]; exact hno)
        ((G i).min' hne) (by rw [heq i j hj]; exact Finset.min'_mem _ _)
        (by rw [heq i j hj]; exact fun k hk => Finset.min'_le _ _ hk)
      by_cases hjl : j = (G i).min' hne
      · rw [← hjl]
      · rw [if_neg hjl] at hc
        have := h1 j [((G i).min' hne, 1)] 0 (by simp [toConstraints, hc])
        simpa using this
  intro i j hj
  obtain ⟨v, hv⟩ := key i
  exact (hv j hj).trans (hv i (hrefl i)).symm

/-- Non-vacuity of C31: nodes 0 (Neumann), 1 and 2 (Dirichlet) coincide; node 3 is alone. The groups form an
equivalence, node 0 is constrained to the datum of node 1, and with continuous gradients node 1 gets the value
computed from the pair (1, 2). -/
example :
    let G : Fin 4 → Finset (Fin 4) := fun i => if i = 3 then {3} else {0, 1, 2}
    let D : NodeData 4 2 := ⟨![0, 1, 1, 0], ![7, 5, 5, 9], ![![1, 0], ![1, 0], ![0, 1], ![1, 0]],
      fun _ => ![0, 0], true⟩
    (∀ i, i ∈ G i) ∧ (∀ i j, j ∈ G i → G j = G i) ∧
    doubleNodeConstraints D G 0 = some ([], some 5) ∧ doubleNodeConstraints D G 1 = some ([], some 0) ∧
    doubleNodeConstraints D G 3 = none := by
  intro G D
  have hr : ∀ i, i ∈ G i := by decide
  have he : ∀ i j, j ∈ G i → G j = G i := by decide
  have hd : ∀ i, D.dirichlet i = 0 ∨ D.dirichlet i = 1 := by
    intro i; fin_cases i <;> simp [D]
  have hfirst : IsFirstDirichlet D (G 0) 1 := by
    refine ⟨by decide, by simp [D], fun j hj hjd => ?_⟩
    fin_cases j <;> simp [D, G] at hj hjd ⊢
  refine ⟨hr, he, ?_, ?_, ?_⟩
  · rw [(C31_double_node_constraints D G hr he hd 0).1 (by simp [D]) 1 hfirst]; simp [D]
  · rw [(C31_double_node_constraints D G hr he hd 1).2.2.2.2 rfl hfirst 2 ?_, if_neg (by decide)]
    · simp [thisNormalGradient, D, dot, fdiv]
    · refine ⟨by decide, by simp [D], fun j hj hjd => ?_⟩
      fin_cases j <;> simp [D, G] at hj hjd ⊢
  · rw [(C31_double_node_constraints D G hr he hd 3).2.1 ?_ 3 (by decide) (by decide), if_pos rfl]
    intro j hj
    fin_cases j <;> simp [D, G] at hj ⊢

/-! ## C35 -/

theorem reordering_fold (nDofs : ℕ) (o2s vo2s : ℕ → ℕ) (l : List ℕ) (hl : l.Nodup)
    (h1 : ∀ i ∈ l, ∀ j ∈ l, i < nDofs → j < nDofs → o2s i = o2s j → i = j)
    (h2 : ∀ i ∈ l, ∀ j ∈ l, vo2s i = vo2s j → i = j) (r : (ℕ → ℕ) × (ℕ → ℕ)) :
    let r' := l.foldl (fun (r : (ℕ → ℕ) × (ℕ → ℕ)) i =>
      (if i < nDofs then Function.update r.1 (o2s i) i else r.1, Function.update r.2 (vo2s i) i)) r
    (∀ i ∈ l, i < nDofs → r'.1 (o2s i) = i) ∧ (∀ i ∈ l, r'.2 (vo2s i) = i) ∧
    (∀ k, (∀ i ∈ l, i < nDofs → o2s i ≠ k) → r'.1 k = r.1 k) ∧ (∀ k, (∀ i ∈ l, vo2s i ≠ k) → r'.2 k = r.2 k) := by
  induction l generalizing r with
  | nil => simp
  | cons a t ih =>
    rw [List.nodup_cons] at hl
    simp only [List.foldl_cons]
    obtain ⟨e1, e2, e3, e4⟩ := ih hl.2 (fun i hi j hj => h1 i (List.mem_cons_of_mem _ hi) j (List.mem_cons_of_mem _ hj))
      (fun i hi j hj => h2 i (List.mem_cons_of_mem _ hi) j (List.mem_cons_of_mem _ hj))
      (if a < nDofs then Function.update r.1 (o2s a) a else r.1, Function.update r.2 (vo2s a) a)
    refine ⟨fun i hi hin => ?_, fun i hi => ?_, fun k hk => ?_, fun k hk => ?_⟩
    · by_cases hit : i ∈ t
      · exact e1 i hit hin
      · have hia : i = a := by simpa [hit] using hi
        subst hia
        rw [e3 (o2s i)]
        · simp [hin]
        · intro j hj hjn hc
          have := h1 j (List.mem_cons_of_mem _ hj) i List.mem_cons_self hjn hin hc
          subst this; exact hit hj
    · by_cases hit : i ∈ t
      · exact e2 i hit
      · have hia : i = a := by simpa [hit] using hi
        subst hia
        rw [e4 (vo2s i)]
        · simp
        · intro j hj hc
          have := h2 j (List.mem_cons_of_mem _ hj) i List.mem_cons_self hc
          subst this; exact hit hj
    · rw [e3 k (fun i hi => hk i (List.mem_cons_of_mem _ hi))]
      by_cases ha : a < nDofs
      · simp only [ha, if_true]
        rw [Function.update_of_ne (Ne.symm (hk a List.mem_cons_self ha))]
      · simp [ha]
    · rw [e4 k (fun i hi => hk i (List.mem_cons_of_mem _ hi))]
      simp only
      rw [Function.update_of_ne (Ne.symm (hk a List.mem_cons_self))]

/-- **C35**. If the numberings returned by the renumbering routine are permutations of the `nDofs` scalar and the
`dim * nDofs` vector dofs, the computed arrays are their inverses; and the position of component `k` of the node
quantity of dof `i` is inside the vector and different for different pairs `(i, k)`. -/
theorem C35_reordering (nDofs dim : ℕ) (hdim : 0 < dim) (o2s vo2s : ℕ → ℕ)
    (ho : ∀ i < nDofs, o2s i < nDofs) (hoi : ∀ i < nDofs, ∀ j < nDofs, o2s i = o2s j → i = j)
    (hv : ∀ i < dim * nDofs, vo2s i < dim * nDofs)
    (hvi : ∀ i < dim * nDofs, ∀ j < dim * nDofs, vo2s i = vo2s j → i = j) :
    let r := reorderingVectors nDofs (dim * nDofs) o2s vo2s
    (∀ i < nDofs, r.1 (o2s i) = i) ∧ (∀ i < nDofs, r.1 i < nDofs ∧ o2s (r.1 i) = i) ∧
    (∀ i < dim * nDofs, r.2 (vo2s i) = i) ∧ (∀ i < dim * nDofs, r.2 i < dim * nDofs ∧ vo2s (r.2 i) = i) ∧
    (∀ i < nDofs, ∀ k < dim, vecIndex (dim * nDofs) dim r.1 vo2s i k < dim * nDofs) ∧
    (∀ i < nDofs, ∀ k < dim, ∀ i' < nDofs, ∀ k' < dim,
      vecIndex (dim * nDofs) dim r.1 vo2s i k = vecIndex (dim * nDofs) dim r.1 vo2s i' k' → i = i' ∧ k = k') := by
  intro r
  obtain ⟨e1, e2, _, _⟩ := reordering_fold nDofs o2s vo2s (List.range (dim * nDofs)) List.nodup_range
    (fun i _ j _ hi hj => hoi i hi j hj)
    (fun i hi j hj => hvi i (List.mem_range.mp hi) j (List.mem_range.mp hj)) (fun _ => 0, fun _ => 0)
  have hle : nDofs ≤ dim * nDofs := Nat.le_mul_of_pos_left _ hdim
  have r1 : ∀ i < nDofs, r.1 (o2s i) = i := fun i hi => e1 i (List.mem_range.mpr (by omega)) hi
  have r2 : ∀ i < dim * nDofs, r.2 (vo2s i) = i := fun i hi => e2 i (List.mem_range.mpr hi)
  -- injective self-maps of an initial segment are surjective
  have surj : ∀ (N : ℕ) (f : ℕ → ℕ), (∀ i < N, f i < N) → (∀ i < N, ∀ j < N, f i = f j → i = j) →
      ∀ k < N, ∃ i < N, f i = k := by
    intro N f h1 h2 k hk
    have hinj : Function.Injective (fun i : Fin N => (⟨f i, h1 i i.isLt⟩ : Fin N)) := by
      intro i j hij
      exact Fin.ext (h2 i i.isLt j j.isLt (congrArg Fin.val hij))
    obtain ⟨i, hi⟩ := (Finite.injective_iff_surjective.mp hinj) ⟨k, hk⟩
    exact ⟨i, i.isLt, congrArg Fin.val hi⟩
  have r1' : ∀ i < nDofs, r.1 i < nDofs ∧ o2s (r.1 i) = i := by
    intro i hi
    obtain ⟨j, hj, rfl⟩ := surj nDofs o2s ho hoi i hi
    rw [r1 j hj]; exact ⟨hj, rfl⟩
  have hdiv : dim * nDofs / dim = nDofs := Nat.mul_div_cancel_left _ hdim
  have hpos : ∀ i < nDofs, ∀ k < dim, nDofs * k + r.1 i < dim * nDofs := by
    intro i hi k hk
    have := (r1' i hi).1
    calc nDofs * k + r.1 i < nDofs * k + nDofs := by omega
      _ = nDofs * (k + 1) := by ring
      _ ≤ nDofs * dim := Nat.mul_le_mul_left _ hk
      _ = dim * nDofs := Nat.mul_comm _ _
  refine ⟨r1, r1', r2, ?_, fun i hi k hk => ?_, fun i hi k hk i' hi' k' hk' h => ?_⟩
  · intro i hi
    obtain ⟨j, hj, rfl⟩ := surj (dim * nDofs) vo2s hv hvi i hi
    rw [r2 j hj]; exact ⟨hj, rfl⟩
  · unfold vecIndex; rw [hdiv]; exact hv _ (hpos i hi k hk)
  · unfold vecIndex at h
    rw [hdiv] at h
    have h' := hvi _ (hpos i hi k hk) _ (hpos i' hi' k' hk') h
    have a := (r1' i hi)
    have b := (r1' i' hi')
    have hk2 : k = k' := by
      have e1 : (nDofs * k + r.1 i) / nDofs = k := by
        rw [Nat.mul_add_div (by omega), Nat.div_eq_of_lt a.1]; rfl
      have e2 : (nDofs * k' + r.1 i') / nDofs = k' := by
        rw [Nat.mul_add_div (by omega), Nat.div_eq_of_lt b.1]; rfl
      rw [← e1, ← e2, h']
    subst hk2
    refine ⟨?_, rfl⟩
    have : r.1 i = r.1 i' := by omega
    rw [← a.2, ← b.2, this]

/-- Non-vacuity of C35: the cyclic permutation of three dofs in dimension 2. -/
example : (∀ i < 3, (i + 1) % 3 < 3) ∧ (∀ i < 3, ∀ j < 3, (i + 1) % 3 = (j + 1) % 3 → i = j) ∧
    (reorderingVectors 3 6 (fun i => (i + 1) % 3) (fun i => (i + 2) % 6)).1 0 = 2 := by
  refine ⟨by decide, by decide, by decide⟩

end PiBem.Bem
