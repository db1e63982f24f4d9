import Verif.Octree.Model
import Mathlib.Tactic.Linarith
import Mathlib.Tactic.Push
import Mathlib.Tactic.FinCases
import Mathlib.Tactic.IntervalCases
import Mathlib.Data.List.Nodup
import Mathlib.Data.Fintype.Pi

/-! Helper lemmas on the octree model: child selection, `pushAll`, items. -/

namespace PiBem.Octree

variable {d : ℕ}

theorem childIdx_lt (hd : d = 2 ∨ d = 3) (p : Pt d) (δ : ℚ) (x : Pt d) :
    childIdx d p δ x < 2 ^ d := by
  rcases hd with rfl | rfl
  · simp only [childIdx, childIdx2]; split_ifs <;> decide
  · simp only [childIdx, childIdx3]; split_ifs <;> decide

/-- The selected child is the one on the side of the splitting planes where the point is. -/
theorem octant_childIdx (hd : d = 2 ∨ d = 3) (p : Pt d) (δ : ℚ) (x : Pt d) (a : Fin d) :
    ((octants d).getD (childIdx d p δ x) (fun _ => false)) a = decide (p a + δ < x a) := by
  rcases hd with rfl | rfl
  · revert a
    rw [Fin.forall_fin_two]
    simp only [childIdx, childIdx2]
    split_ifs with h1 h0 h0 <;> simp_all [octants]
  · revert a
    rw [Fin.forall_fin_succ, Fin.forall_fin_two]
    simp only [childIdx, childIdx3]
    split_ifs with h2 h1 h0 h0 h1 h0 h0 <;> simp_all [octants]

theorem octants_inj (hd : d = 2 ∨ d = 3) {j k : ℕ} (hj : j < 2 ^ d) (hk : k < 2 ^ d)
    (h : (octants d).getD j (fun _ => false) = (octants d).getD k (fun _ => false)) : j = k := by
  rcases hd with rfl | rfl
  · have : ∀ j < 2 ^ 2, ∀ k < 2 ^ 2, (octants 2).getD j (fun _ => false) =
      (octants 2).getD k (fun _ => false) → j = k := by decide
    exact this j hj k hk h
  · have : ∀ j < 2 ^ 3, ∀ k < 2 ^ 3, (octants 3).getD j (fun _ => false) =
      (octants 3).getD k (fun _ => false) → j = k := by decide
    exact this j hj k hk h

theorem pushAll_apply {κ : Type} [DecidableEq κ] (m : κ → List ℕ) (keys : List κ) (v r : ℕ)
    (hn : keys.Nodup) (k : κ) :
    pushAll m keys v r k = if k ∈ keys then m k ++ List.replicate r v else m k := by
  unfold pushAll
  induction keys generalizing m with
  | nil => simp
  | cons a t ih =>
    rw [List.nodup_cons] at hn
    simp only [List.foldl_cons]
    rw [ih _ hn.2]
    by_cases hka : k = a
    · subst hka; simp [hn.1]
    · simp [hka]

/-- Nodes and quadrature points treated uniformly. -/
abbrev Item := ℕ ⊕ (ℕ × ℕ)

/-- membership of an item in a block -/
def Block.Mem (x : Item) (b : Block d) : Prop :=
  match x with
  | .inl i => i ∈ b.nodes
  | .inr q => q ∈ b.qps

/-- position of an item -/
def ipos (inp : Input d) : Item → Pt d
  | .inl i => inp.pos i
  | .inr q => inp.qpos q

theorem mem_mkChild (inp : Input d) (level : ℕ) (δ : ℚ) (jj : ℕ) (b : Block d) (j : ℕ) (x : Item) :
    (mkChild inp level δ jj b j).Mem x ↔ b.Mem x ∧ childIdx d b.pMin δ (ipos inp x) = j := by
  cases x <;> simp [Block.Mem, mkChild, ipos]

theorem nonempty_iff (b : Block d) : 0 < b.nodes.length + b.qps.length ↔ ∃ x, b.Mem x := by
  constructor
  · intro h
    rcases Nat.eq_zero_or_pos b.nodes.length with h0 | h0
    · have : 0 < b.qps.length := by omega
      obtain ⟨q, hq⟩ := List.exists_mem_of_length_pos this
      exact ⟨.inr q, hq⟩
    · obtain ⟨q, hq⟩ := List.exists_mem_of_length_pos h0
      exact ⟨.inl q, hq⟩
  · rintro ⟨x | x, hx⟩
    · have := List.length_pos_of_mem (show x ∈ b.nodes from hx); omega
    · have := List.length_pos_of_mem (show x ∈ b.qps from hx); omega

theorem nodup_allQps (inp : Input d) : (allQps inp).Nodup := by
  unfold allQps
  rw [List.nodup_flatMap]
  refine ⟨fun c _ => (List.nodup_range).map (fun a b h => by simpa using h), ?_⟩
  refine (List.nodup_range).imp ?_
  intro a b hab
  simp only [Function.onFun, List.disjoint_left, List.mem_map]
  rintro x ⟨q, _, rfl⟩ ⟨q', _, h⟩
  exact hab (by simpa using (congrArg Prod.fst h).symm)

theorem mem_allQps (inp : Input d) (q : ℕ × ℕ) :
    q ∈ allQps inp ↔ q.1 < inp.nCells ∧ q.2 < inp.nq := by
  obtain ⟨c, q⟩ := q
  simp [allQps]

end PiBem.Octree
