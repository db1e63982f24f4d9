import Verif.Expansion.Lookups

/-!
# C20: truncation orders and table bounds
-/

namespace PiBem.Expansion.Lookups

/-- The operations on multipole expansions. -/
def multipoleOps (p : ℕ) : List (List Access) := [mScaled p, mSource p, mNormDer p, mChild p, mEvaluate p]

/-- The operations on local expansions. -/
def localOps (p : ℕ) : List (List Access) := [lParent p, lMultipole p, lEvaluate p]

theorem multipole_inside {p : ℕ} (hp : p ≤ 20) {l : List Access} (hl : l ∈ multipoleOps p) {a : Access}
    (ha : a ∈ l) : a.inside p p := by
  simp only [multipoleOps, List.mem_cons, List.not_mem_nil, or_false] at hl
  rcases hl with rfl | rfl | rfl | rfl | rfl
  · obtain ⟨n, m, hn, hm, h⟩ := mem_triLoop.mp ha
    simp only [List.mem_cons, List.not_mem_nil, or_false] at h
    rcases h with rfl | rfl <;> exact ⟨hn, hm⟩
  · obtain ⟨n, m, hn, hm, h⟩ := mem_triLoop.mp ha
    simp only [List.mem_cons, List.not_mem_nil, or_false] at h
    rcases h with rfl | rfl <;> simp only [Access.inside] <;> omega
  · obtain ⟨n, m, hn, hm, h⟩ := mem_triLoop.mp ha
    simp only [List.mem_cons, List.not_mem_nil, or_false] at h
    rcases h with rfl | rfl | rfl <;> simp only [Access.inside] <;> omega
  · obtain ⟨n, m, hn, hm, h⟩ := mem_triLoop.mp ha
    simp only [List.mem_append, List.mem_flatMap, List.mem_range, mem_symLoop, List.mem_cons,
      List.not_mem_nil, or_false] at h
    rcases h with ⟨nn, hnn, mm, h1, h2, h⟩ | rfl
    · split_ifs at h with hc
      · simp at h
      · simp only [List.mem_cons, List.not_mem_nil, or_false] at h
        rcases h with rfl | rfl | rfl | rfl | rfl <;> simp only [Access.inside] <;> omega
    · exact ⟨hn, hm⟩
  · obtain ⟨n, m, hn, hm, h⟩ := mem_triLoop.mp ha
    simp only [List.mem_cons, List.not_mem_nil, or_false] at h
    rcases h with rfl | rfl <;> simp only [Access.inside] <;> omega

theorem local_inside {p : ℕ} (hp : p ≤ 10) {l : List Access} (hl : l ∈ localOps p) {a : Access}
    (ha : a ∈ l) : a.inside p p := by
  simp only [localOps, List.mem_cons, List.not_mem_nil, or_false] at hl
  rcases hl with rfl | rfl | rfl
  · obtain ⟨n, m, hn, hm, h⟩ := mem_triLoop.mp ha
    simp only [List.mem_append, List.mem_flatMap, List.mem_range, mem_symLoop, List.mem_cons,
      List.not_mem_nil, or_false] at h
    rcases h with ⟨k, hk, mm, h1, h2, h⟩ | rfl
    · split_ifs at h with hc
      · simp at h
      · simp only [List.mem_cons, List.not_mem_nil, or_false] at h
        rcases h with rfl | rfl | rfl <;> simp only [Access.inside] <;> omega
    · exact ⟨hn, hm⟩
  · obtain ⟨n, m, hn, hm, h⟩ := mem_triLoop.mp ha
    simp only [List.mem_append, List.mem_flatMap, List.mem_range, mem_symLoop, List.mem_cons,
      List.not_mem_nil, or_false] at h
    rcases h with ⟨nn, hk, mm, h1, h2, h⟩ | rfl
    · rcases h with rfl | rfl | rfl <;> simp only [Access.inside] <;> omega
    · exact ⟨hn, hm⟩
  · obtain ⟨n, m, hn, hm, h⟩ := mem_triLoop.mp ha
    simp only [List.mem_cons, List.not_mem_nil, or_false] at h
    rcases h with rfl | rfl <;> simp only [Access.inside] <;> omega

/-- **C20**. With expansions of a common order `p`, the operations on multipole expansions make only accesses inside
the arrays exactly when `p ≤ 20`; those on local expansions exactly when `p ≤ 10`. So the program is safe for
truncation orders up to 10 and every larger one makes it read outside a table. -/
theorem C20_orders (p : ℕ) :
    ((∀ l ∈ multipoleOps p, ∀ a ∈ l, a.inside p p) ↔ p ≤ 20) ∧
    ((∀ l ∈ localOps p, ∀ a ∈ l, a.inside p p) ↔ p ≤ 10) := by
  refine ⟨⟨fun h => ?_, fun hp l hl a ha => multipole_inside hp hl ha⟩,
    ⟨fun h => ?_, fun hp l hl a ha => local_inside hp hl ha⟩⟩
  · have := h (mEvaluate p) (by simp [multipoleOps]) (.leg p 0)
      (mem_triLoop.mpr ⟨p, 0, le_refl _, by omega, by simp⟩)
    simp only [Access.inside] at this
    omega
  · have := h (lMultipole p) (by simp [localOps]) (.leg (p + p) 0)
      (mem_triLoop.mpr ⟨p, 0, le_refl _, by omega, by
        simp only [List.mem_append, List.mem_flatMap, List.mem_range, mem_symLoop]
        exact Or.inl ⟨p, by omega, 0, by omega, by omega, by simp⟩⟩)
    simp only [Access.inside] at this
    omega

/-- **C20**, construction of the translation tables (order 10): the matrix `A_n_m` is only read inside. -/
theorem C20_tables_build (a : Access) (ha : a ∈ m2lBuild 10 ∨ a ∈ l2lBuild 10) : a.inside 10 10 := by
  rcases ha with ha | ha
  · obtain ⟨n, m, hn, hm, h⟩ := mem_triLoop.mp ha
    simp only [List.mem_flatMap, List.mem_range, mem_symLoop, List.mem_cons, List.not_mem_nil, or_false] at h
    obtain ⟨nn, hk, mm, h1, h2, h⟩ := h
    rcases h with rfl | rfl | rfl <;> simp only [Access.inside] <;> omega
  · obtain ⟨n, m, hn, hm, h⟩ := mem_triLoop.mp ha
    simp only [List.mem_flatMap, List.mem_range, mem_symLoop, List.mem_cons, List.not_mem_nil, or_false] at h
    obtain ⟨nn, hk, mm, h1, h2, h⟩ := h
    rcases h with rfl | rfl | rfl <;> simp only [Access.inside] <;> omega

/-- Non-vacuity of C20: the loops do make accesses, up to the last row of the tables. -/
example : Access.leg 20 0 ∈ lMultipole 10 ∧ Access.m2l 10 0 10 0 ∈ lMultipole 10 ∧
    Access.l2l 10 0 10 0 ∈ lParent 10 := by
  refine ⟨?_, ?_, ?_⟩
  · refine mem_triLoop.mpr ⟨10, 0, le_refl _, by omega, ?_⟩
    simp only [List.mem_append, List.mem_flatMap, List.mem_range, mem_symLoop]
    exact Or.inl ⟨10, by omega, 0, by omega, by omega, by simp⟩
  · refine mem_triLoop.mpr ⟨10, 0, le_refl _, by omega, ?_⟩
    simp only [List.mem_append, List.mem_flatMap, List.mem_range, mem_symLoop]
    exact Or.inl ⟨10, by omega, 0, by omega, by omega, by simp⟩
  · refine mem_triLoop.mpr ⟨10, 0, le_refl _, by omega, ?_⟩
    simp only [List.mem_append, List.mem_flatMap, List.mem_range, mem_symLoop]
    exact Or.inl ⟨0, by omega, 0, by omega, by omega, by simp⟩

end PiBem.Expansion.Lookups
