import Verif.App.ManyEdges
import Verif.Props.TwoSides
import Mathlib.Algebra.BigOperators.Fin
import Mathlib.Tactic.FinCases
import Mathlib.Algebra.Order.BigOperators.Group.Finset

/-!
# C80 on whole meshes

The loop restoring conformity on a mesh with any number of doubled edges, cells at corners of several edges, and any additional refinement done by
the library.
-/

namespace PiBem.App

theorem once_iff (U S : Sub) : BisectedOnce U S ↔ Refined U S := by
  induction U generalizing S with
  | leaf => rfl
  | node l r ihl ihr =>
    cases S with
    | leaf => rfl
    | node a b => simp only [BisectedOnce, Refined, ihl, ihr]

/-- `B` has all bisections of `A`. -/
def Finer : Sub → Sub → Prop
  | .leaf, _ => True
  | .node _ _, .leaf => False
  | .node l r, .node l' r' => Finer l l' ∧ Finer r r'

theorem finer_of_side {A B : Sub} {x y : ℝ} (h : x < y) (hs : ∀ z ∈ A.side x y, z ∈ B.side x y) : Finer A B := by
  induction A generalizing B x y with
  | leaf => trivial
  | node l r ihl ihr =>
    have hm : (x + y) / 2 ∈ (Sub.node l r).side x y := mem_side_node.2 (Or.inl (right_mem _ _ _))
    cases B with
    | leaf =>
      have := hs _ hm
      simp only [Sub.side, Sub.pts, List.singleton_append, List.mem_cons, List.not_mem_nil, or_false] at this
      rcases this with h1 | h1 <;> exfalso <;> linarith
    | node l' r' =>
      constructor
      · refine ihl (x := x) (y := (x + y) / 2) (by linarith) fun z hz => ?_
        rcases mem_side_node.1 (hs z (mem_side_node.2 (Or.inl hz))) with h1 | h1
        · exact h1
        · have a := (mem_side_bounds (by linarith) hz).2
          have b := (mem_side_bounds (by linarith) h1).1
          rw [le_antisymm a b]
          exact right_mem _ _ _
      · refine ihr (x := (x + y) / 2) (y := y) (by linarith) fun z hz => ?_
        rcases mem_side_node.1 (hs z (mem_side_node.2 (Or.inr hz))) with h1 | h1
        · have a := (mem_side_bounds (by linarith) hz).1
          have b := (mem_side_bounds (by linarith) h1).2
          rw [le_antisymm b a]
          exact left_mem _ _ _
        · exact h1

theorem finer_antisymm {A B : Sub} (h : Finer A B) (h' : Finer B A) : A = B := by
  induction A generalizing B with
  | leaf => cases B with
    | leaf => rfl
    | node l r => exact h'.elim
  | node l r ihl ihr => cases B with
    | leaf => exact h.elim
    | node l' r' => rw [ihl h.1 h'.1, ihr h.2 h'.2]

theorem side_injective {A B : Sub} {x y : ℝ} (h : x < y) (hs : A.side x y = B.side x y) : A = B :=
  finer_antisymm (finer_of_side h fun z hz => hs ▸ hz) (finer_of_side h fun z hz => hs ▸ hz)

/-- One pass on an edge in terms of trees. -/
theorem restore_one {e : DEdge} {tol : ℝ} {D : ℕ} (hS : e.S.depth ≤ D) (hT : e.T.depth ≤ D) (h0 : 0 < tol)
    (htol : tol * 2 ^ (D + 1) < e.y - e.x) :
    (e.Quiet tol ↔ step e.T e.S = e.S ∧ step e.S e.T = e.T) ∧
    (¬ e.Quiet tol → restore tol e.x e.y 1 e.S e.T = .running (step e.T e.S) (step e.S e.T)) := by
  have h := restore_succ e.S e.T hS hT h0 htol 0
  by_cases hq : step e.T e.S = e.S ∧ step e.S e.T = e.T
  · rw [if_pos hq] at h
    exact ⟨⟨fun _ => hq, fun _ => h⟩, fun hn => absurd h hn⟩
  · rw [if_neg hq] at h
    refine ⟨⟨fun hc => ?_, fun hc => absurd hc hq⟩, fun _ => h⟩
    unfold DEdge.Quiet at hc
    rw [h] at hc
    simp [restore] at hc

/-- What a pass does to an edge, in terms of trees. -/
theorem pass_trees {e e' : DEdge} {tol : ℝ} {D : ℕ} (hS : e.S.depth ≤ D) (hT : e.T.depth ≤ D) (h0 : 0 < tol)
    (htol : tol * 2 ^ (D + 1) < e.y - e.x) (h : PassEdge tol e e') :
    Refined e.S e'.S ∧ Refined e.T e'.T ∧ Finer (step e.T e.S) e'.S ∧ Finer (step e.S e.T) e'.T := by
  have hxy : e.x < e.y := by
    have : (0 : ℝ) < tol * 2 ^ (D + 1) := by positivity
    linarith
  have h1 := (once_iff _ _).1 h.onceS
  have h2 := (once_iff _ _).1 h.onceT
  have hr := restore_one hS hT h0 htol
  have fin : ∀ U S : Sub, Refined U S → Finer U S := by
    intro U
    induction U with
    | leaf => intro S _; trivial
    | node l r ihl ihr => intro S hS; cases S with
      | leaf => exact hS.elim
      | node a b => exact ⟨ihl a hS.1, ihr b hS.2⟩
  refine ⟨h1, h2, ?_⟩
  by_cases hq : e.Quiet tol
  · obtain ⟨q1, q2⟩ := hr.1.1 hq
    rw [q1, q2]
    exact ⟨fin _ _ h1, fin _ _ h2⟩
  · rcases h.flagged with hc | ⟨S₁, T₁, hrun, hs, ht⟩
    · exact absurd hc hq
    · rw [hr.2 hq] at hrun
      simp only [TwoSidesResult.running.injEq] at hrun
      rw [hrun.1, hrun.2]
      exact ⟨finer_of_side hxy hs, finer_of_side hxy ht⟩

theorem finer_leaves {A B : Sub} (h : Finer A B) : A.leaves ≤ B.leaves ∧ (A ≠ B → A.leaves < B.leaves) := by
  induction A generalizing B with
  | leaf => cases B with
    | leaf => simp
    | node l r =>
      have := leaves_pos l
      have := leaves_pos r
      simp only [Sub.leaves]
      exact ⟨by omega, fun _ => by omega⟩
  | node l r ihl ihr => cases B with
    | leaf => exact h.elim
    | node l' r' =>
      have a := ihl h.1
      have b := ihr h.2
      simp only [Sub.leaves]
      refine ⟨by omega, fun hne => ?_⟩
      by_cases e : l = l'
      · have : r ≠ r' := fun x => hne (by rw [e, x])
        have := b.2 this
        omega
      · have := a.2 e
        omega

theorem leaves_le (T : Sub) {D : ℕ} (h : T.depth ≤ D) : T.leaves ≤ 2 ^ D := by
  induction T generalizing D with
  | leaf => exact Nat.one_le_two_pow
  | node l r ihl ihr =>
    simp only [Sub.depth] at h
    obtain ⟨d, rfl⟩ : ∃ d, D = d + 1 := ⟨D - 1, by omega⟩
    have := ihl (D := d) (by omega)
    have := ihr (D := d) (by omega)
    simp only [Sub.leaves, pow_succ]
    omega

/-- Number of edges of the mesh on doubled edges. -/
def pieces {n : ℕ} (E : Fin n → DEdge) : ℕ := ∑ k, ((E k).S.leaves + (E k).T.leaves)

section mesh

variable {n : ℕ} {tol : ℝ} {D : ℕ}

/-- Every edge is long enough for its bisections: at least one coarse edge of length 1 with the tolerance of the program for `D ≤ 22`. -/
def Sized (tol : ℝ) (D : ℕ) (E : Fin n → DEdge) : Prop :=
  ∀ k, (E k).S.depth ≤ D ∧ (E k).T.depth ≤ D ∧ tol * 2 ^ (D + 1) < (E k).y - (E k).x

theorem sized_pass {E E' : Fin n → DEdge} (hE : Sized tol D E) (h : MeshPass tol D E E') : Sized tol D E' := fun k =>
  ⟨(h.bound k).1, (h.bound k).2, by rw [(h.edge k).hx, (h.edge k).hy]; exact (hE k).2.2⟩

theorem pieces_pass (h0 : 0 < tol) {E E' : Fin n → DEdge} (hE : Sized tol D E) (h : MeshPass tol D E E') : pieces E < pieces E' := by
  have key : ∀ k, (E k).S.leaves ≤ (E' k).S.leaves ∧ (E k).T.leaves ≤ (E' k).T.leaves ∧
      (¬ (E k).Quiet tol → (E k).S.leaves + (E k).T.leaves < (E' k).S.leaves + (E' k).T.leaves) := by
    intro k
    obtain ⟨hS, hT, ht⟩ := hE k
    obtain ⟨-, -, h3, h4⟩ := pass_trees hS hT h0 ht (h.edge k)
    have a := leaves_step (E k).T (E k).S
    have b := leaves_step (E k).S (E k).T
    have c := (finer_leaves h3).1
    have d := (finer_leaves h4).1
    refine ⟨by omega, by omega, fun hq => ?_⟩
    rw [(restore_one hS hT h0 ht).1, not_and_or] at hq
    rcases hq with hq | hq
    · have := a.2 hq; omega
    · have := b.2 hq; omega
  obtain ⟨k, hk⟩ := h.found
  exact Finset.sum_lt_sum (fun i _ => by have := key i; omega) ⟨k, Finset.mem_univ _, (key k).2.2 hk⟩

theorem pieces_le {E : Fin n → DEdge} (hE : Sized tol D E) : pieces E ≤ n * 2 ^ (D + 1) := by
  have : ∀ k, (E k).S.leaves + (E k).T.leaves ≤ 2 ^ (D + 1) := fun k => by
    have a := leaves_le _ (hE k).1
    have b := leaves_le _ (hE k).2.1
    rw [pow_succ]; omega
  calc pieces E ≤ ∑ _k : Fin n, 2 ^ (D + 1) := Finset.sum_le_sum fun k _ => this k
    _ = n * 2 ^ (D + 1) := by simp

/-- **C80**, whole meshes: the loop ends. On every mesh with any number of doubled edges, whatever cells are at their corners and whatever else the
library refines, the number of passes is at most that of the edges the mesh can have on doubled edges minus that it has; and if something is
flagged, the flagged edges can be bisected without exceeding the bound `D` (no pass is stuck). -/
theorem C80_mesh_ends (h0 : 0 < tol) (E : Fin n → DEdge) (hE : Sized tol D E) :
    (∀ N E', Passes tol D N E E' → N + pieces E ≤ n * 2 ^ (D + 1)) ∧
    (∀ N E', Passes tol D N E E' → (∀ k, (E' k).Quiet tol) ∨ ∃ E'', MeshPass tol D E' E'') ∧
    ¬ ∃ seq : ℕ → Fin n → DEdge, seq 0 = E ∧ ∀ t, MeshPass tol D (seq t) (seq (t + 1)) := by
  have sized : ∀ N E E', Sized tol D E → Passes (n := n) tol D N E E' → Sized tol D E' ∧ N + pieces E ≤ pieces E' := by
    intro N E E' hE h
    induction h with
    | refl E => exact ⟨hE, by omega⟩
    | step N E E' E'' h hs ih =>
      have := pieces_pass h0 hE h
      obtain ⟨a, b⟩ := ih (sized_pass hE h)
      exact ⟨a, by omega⟩
  have first : ∀ N E', Passes tol D N E E' → N + pieces E ≤ n * 2 ^ (D + 1) := fun N E' h => by
    obtain ⟨a, b⟩ := sized N E E' hE h
    exact b.trans (pieces_le a)
  refine ⟨first, fun N E' h => ?_, ?_⟩
  · obtain ⟨hE', -⟩ := sized N E E' hE h
    by_cases hq : ∀ k, (E' k).Quiet tol
    · exact .inl hq
    · push Not at hq
      refine .inr ⟨fun k => ⟨(E' k).x, (E' k).y, step (E' k).T (E' k).S, step (E' k).S (E' k).T⟩, hq, fun k => ?_, fun k => ?_⟩
      · obtain ⟨hS, hT, ht⟩ := hE' k
        have ref : ∀ S T : Sub, Refined T (step S T) := by
          intro S
          induction S with
          | leaf =>
            intro T
            rw [step_leaf]
            induction T with
            | leaf => exact .inl rfl
            | node l r ihl ihr => exact ⟨ihl, ihr⟩
          | node l r ihl ihr =>
            intro T
            cases T with
            | leaf =>
              simp only [step]
              split_ifs
              · exact .inr rfl
              · exact .inl rfl
            | node l' r' => exact ⟨ihl l', ihr r'⟩
        refine ⟨rfl, rfl, (once_iff _ _).2 (ref _ _), (once_iff _ _).2 (ref _ _), ?_⟩
        by_cases hk : (E' k).Quiet tol
        · exact .inl hk
        · exact .inr ⟨_, _, (restore_one hS hT h0 ht).2 hk, fun z hz => hz, fun z hz => hz⟩
      · obtain ⟨hS, hT, -⟩ := hE' k
        have a := depth_step (E' k).T (E' k).S
        have b := depth_step (E' k).S (E' k).T
        exact ⟨by simp only; omega, by simp only; omega⟩
  · rintro ⟨seq, rfl, hseq⟩
    have : ∀ N t, Passes tol D N (seq t) (seq (t + N)) := by
      intro N
      induction N with
      | zero => exact fun t => .refl _
      | succ N ih =>
        intro t
        have := ih (t + 1)
        rw [show t + 1 + N = t + (N + 1) by omega] at this
        exact .step N _ _ _ (hseq t) this
    have h1 := first (n * 2 ^ (D + 1) + 1) _ (by simpa using this (n * 2 ^ (D + 1) + 1) 0)
    omega

/-- Wherever only one side is bisected, it is bisected once. -/
def OneOff : Sub → Sub → Prop
  | .leaf, T => T = .leaf ∨ T = .node .leaf .leaf
  | S, .leaf => S = .node .leaf .leaf
  | .node l r, .node l' r' => OneOff l l' ∧ OneOff r r'

theorem oneOff_symm {S T : Sub} (h : OneOff S T) : OneOff T S := by
  induction S generalizing T with
  | leaf =>
    rcases h with rfl | rfl
    · exact .inl rfl
    · rfl
  | node l r ihl ihr => cases T with
    | leaf => exact .inr h
    | node l' r' => exact ⟨ihl h.1, ihr h.2⟩

theorem oneOff_restorable {S T : Sub} (h : OneOff S T) : Restorable S T := by
  induction S generalizing T with
  | leaf =>
    rcases h with rfl | rfl
    · exact ⟨0, rfl⟩
    · exact ⟨1, rfl⟩
  | node l r ihl ihr => cases T with
    | leaf => exact ⟨1, h⟩
    | node l' r' => exact ⟨ihl h.1, ihr h.2⟩

theorem oneOff_refined {U S T : Sub} (hS : Refined U S) (hT : Refined U T) : OneOff S T := by
  induction U generalizing S T with
  | leaf =>
    rcases hS with rfl | rfl <;> rcases hT with rfl | rfl
    · exact .inl rfl
    · exact .inr rfl
    · rfl
    · exact ⟨.inl rfl, .inl rfl⟩
  | node l r ihl ihr => cases S with
    | leaf => exact hS.elim
    | node a b => cases T with
      | leaf => exact hT.elim
      | node a' b' => exact ⟨ihl hS.1 hT.1, ihr hS.2 hT.2⟩

theorem oneOff_pass {S T S' T' : Sub} (h : OneOff S T) (hS : Refined S S') (hT : Refined T T') (fS : Finer (step T S) S')
    (fT : Finer (step S T) T') : OneOff S' T' := by
  have leafNode : ∀ S' T', Refined .leaf S' → Refined (.node .leaf .leaf) T' → Finer (step (.node .leaf .leaf) .leaf) S' → OneOff S' T' := by
    intro S' T' hS hT fS
    have hst : step (.node .leaf .leaf) .leaf = .node .leaf .leaf := by simp [step, Sub.rs, Sub.ls]
    rw [hst] at fS
    rcases hS with rfl | rfl
    · exact fS.elim
    · cases T' with
      | leaf => exact hT.elim
      | node a b => exact ⟨hT.1, hT.2⟩
  induction S generalizing T S' T' with
  | leaf =>
    rcases h with rfl | rfl
    · exact oneOff_refined hS hT
    · exact leafNode S' T' hS hT fS
  | node l r ihl ihr => cases T with
    | leaf =>
      have h' : Sub.node l r = .node .leaf .leaf := h
      rw [h'] at hS fT
      exact oneOff_symm (leafNode T' S' hT hS fT)
    | node l' r' => cases S' with
      | leaf => exact hS.elim
      | node a b => cases T' with
        | leaf => exact hT.elim
        | node a' b' => exact ⟨ihl h.1 hS.1 hT.1 fS.1 fT.1, ihr h.2 hS.2 hT.2 fS.2 fT.2⟩

/-- **C80**, whole meshes: cycles that only refine. If the two sides of every doubled edge have the same vertices, a cycle bisects some edges of any
sides once, and the loop then runs until nothing is flagged, the two sides of every doubled edge have the same vertices again, also where
the passes and the smoothing of the library have bisected further edges. -/
theorem C80_mesh_conforming (h0 : 0 < tol) (U E E' : Fin n → DEdge) (N : ℕ)
    (hU : ∀ k, (U k).S.side (U k).x (U k).y = (U k).T.side (U k).x (U k).y)
    (hc : ∀ k, (E k).x = (U k).x ∧ (E k).y = (U k).y ∧ BisectedOnce (U k).S (E k).S ∧ BisectedOnce (U k).T (E k).T)
    (hE : Sized tol D E) (h : Passes tol D N E E') (hq : ∀ k, (E' k).Quiet tol) :
    ∀ k, (E' k).S.side (E' k).x (E' k).y = (E' k).T.side (E' k).x (E' k).y := by
  have hxy : ∀ E : Fin n → DEdge, Sized tol D E → ∀ k, (E k).x < (E k).y := fun E hE k => by
    have : (0 : ℝ) < tol * 2 ^ (D + 1) := by positivity
    have := (hE k).2.2
    linarith
  have start : ∀ k, OneOff (E k).S (E k).T := fun k => by
    obtain ⟨ex, ey, a, b⟩ := hc k
    have hlt := hxy E hE k
    rw [ex, ey] at hlt
    have : (U k).S = (U k).T := side_injective hlt (hU k)
    rw [← this] at b
    exact oneOff_refined ((once_iff _ _).1 a) ((once_iff _ _).1 b)
  have run : Sized tol D E' ∧ ∀ k, OneOff (E' k).S (E' k).T := by
    clear hc hU hq
    induction h with
    | refl E => exact ⟨hE, start⟩
    | step N E E' E'' hp hs ih =>
      refine ih (sized_pass hE hp) fun k => ?_
      obtain ⟨hS, hT, ht⟩ := hE k
      obtain ⟨a, b, c, d⟩ := pass_trees hS hT h0 ht (hp.edge k)
      exact oneOff_pass (start k) a b c d
  intro k
  obtain ⟨hS, hT, ht⟩ := run.1 k
  obtain ⟨q1, q2⟩ := (restore_one hS hT h0 ht).1.1 (hq k)
  rw [(stopped_iff _ _ q1 q2).2 (oneOff_restorable (run.2 k))]

end mesh

/-- Two doubled edges with a common corner cell: the first side of the first edge is bisected, the flagged cell of the second side is also at the second
edge, where it bisects one side; a second pass restores the second edge. -/
theorem C80_mesh_example :
    let b := Sub.node .leaf .leaf
    let E₀ : Fin 2 → DEdge := fun _ => ⟨0, 1, .leaf, .leaf⟩
    let E₁ : Fin 2 → DEdge := ![⟨0, 1, b, .leaf⟩, ⟨0, 1, .leaf, .leaf⟩]
    let E₂ : Fin 2 → DEdge := ![⟨0, 1, b, b⟩, ⟨0, 1, b, .leaf⟩]
    let E₃ : Fin 2 → DEdge := ![⟨0, 1, b, b⟩, ⟨0, 1, b, b⟩]
    Sized (1 / 10 ^ 7) 1 E₁ ∧ (∀ k, BisectedOnce (E₀ k).S (E₁ k).S ∧ BisectedOnce (E₀ k).T (E₁ k).T) ∧
      Passes (1 / 10 ^ 7) 1 2 E₁ E₃ ∧ ¬ (∀ k, (E₂ k).Quiet (1 / 10 ^ 7)) ∧ ∀ k, (E₃ k).Quiet (1 / 10 ^ 7) := by
  intro b E₀ E₁ E₂ E₃
  have h0 : (0 : ℝ) < 1 / 10 ^ 7 := by norm_num
  have ht : (1 / 10 ^ 7 : ℝ) * 2 ^ (1 + 1) < 1 - 0 := by norm_num
  have hb : b.depth ≤ 1 := by decide
  have hl : Sub.leaf.depth ≤ 1 := by decide
  have q : ∀ S T : Sub, S.depth ≤ 1 → T.depth ≤ 1 → ((⟨0, 1, S, T⟩ : DEdge).Quiet (1 / 10 ^ 7) ↔ step T S = S ∧ step S T = T) ∧
      (¬ (⟨0, 1, S, T⟩ : DEdge).Quiet (1 / 10 ^ 7) → restore (1 / 10 ^ 7) 0 1 1 S T = .running (step T S) (step S T)) := fun S T hS hT =>
    restore_one (e := ⟨0, 1, S, T⟩) hS hT h0 ht
  have qll : (⟨0, 1, .leaf, .leaf⟩ : DEdge).Quiet (1 / 10 ^ 7) := (q _ _ hl hl).1.2 ⟨rfl, rfl⟩
  have qbb : (⟨0, 1, b, b⟩ : DEdge).Quiet (1 / 10 ^ 7) := (q _ _ hb hb).1.2 ⟨by decide, by decide⟩
  have qbl : ¬ (⟨0, 1, b, .leaf⟩ : DEdge).Quiet (1 / 10 ^ 7) := fun h => absurd ((q _ _ hb hl).1.1 h).2 (by decide)
  have rbl := (q _ _ hb hl).2 qbl
  have s1 : step .leaf b = b := by decide
  have s2 : step b .leaf = b := by decide
  rw [s1, s2] at rbl
  have once : ∀ S T : Sub, (S, T) ∈ [(Sub.leaf, Sub.leaf), (Sub.leaf, b), (b, b)] → BisectedOnce S T := by
    intro S T h
    simp only [List.mem_cons, Prod.mk.injEq, List.not_mem_nil, or_false] at h
    rcases h with ⟨rfl, rfl⟩ | ⟨rfl, rfl⟩ | ⟨rfl, rfl⟩
    · exact .inl rfl
    · exact .inr rfl
    · exact ⟨.inl rfl, .inl rfl⟩
  refine ⟨?_, ?_, ?_, ?_, ?_⟩
  · intro k
    fin_cases k
    · exact ⟨hb, hl, ht⟩
    · exact ⟨hl, hl, ht⟩
  · intro k
    fin_cases k
    · exact ⟨once _ _ (by simp [E₀, E₁]), once _ _ (by simp [E₀, E₁])⟩
    · exact ⟨once _ _ (by simp [E₀, E₁]), once _ _ (by simp [E₀, E₁])⟩
  · refine .step 1 E₁ E₂ E₃ ⟨⟨0, qbl⟩, fun k => ?_, fun k => ?_⟩ (.step 0 E₂ E₃ E₃ ⟨⟨1, qbl⟩, fun k => ?_, fun k => ?_⟩ (.refl _))
    · fin_cases k
      · exact ⟨rfl, rfl, once b b (by simp), once .leaf b (by simp), .inr ⟨b, b, rbl, fun z hz => hz, fun z hz => hz⟩⟩
      · exact ⟨rfl, rfl, once .leaf b (by simp), once .leaf .leaf (by simp), .inl qll⟩
    · fin_cases k
      · exact ⟨hb, hb⟩
      · exact ⟨hb, hl⟩
    · fin_cases k
      · exact ⟨rfl, rfl, once b b (by simp), once b b (by simp), .inl qbb⟩
      · exact ⟨rfl, rfl, once b b (by simp), once .leaf b (by simp), .inr ⟨b, b, rbl, fun z hz => hz, fun z hz => hz⟩⟩
    · fin_cases k
      · exact ⟨hb, hb⟩
      · exact ⟨hb, hb⟩
  · exact fun h => qbl (h 1)
  · intro k
    fin_cases k
    · exact qbb
    · exact qbb

end PiBem.App
