import Verif.Bem.Elements
import Verif.Props.Ownership
import Verif.Props.Boundary
import Mathlib.Data.Finset.Card
import Mathlib.Tactic.Ring
import Mathlib.Tactic.Linarith

/-!
# C102: elements of different order for scalars and vectors
-/

namespace PiBem.Bem

variable {α : Type} [DecidableEq α]

theorem visit_append (acc l l' : List α) : visit acc (l ++ l') = visit (visit acc l) l' := List.foldl_append

theorem visit_prefix (acc l : List α) : acc <+: visit acc l := by
  induction l generalizing acc with
  | nil => exact List.prefix_refl _
  | cons x l ih =>
    rw [visit, List.foldl_cons]
    split
    · exact ih acc
    · exact (List.prefix_append _ _).trans (ih _)

theorem visit_known (acc l : List α) (h : ∀ x ∈ l, x ∈ acc) : visit acc l = acc := by
  induction l with
  | nil => rfl
  | cons x l ih =>
    rw [visit, List.foldl_cons, if_pos (h x (by simp))]
    exact ih fun y hy => h y (by simp [hy])

theorem visit_new (acc l : List α) (hl : l.Nodup) (h : ∀ x ∈ l, x ∉ acc) : visit acc l = acc ++ l := by
  induction l generalizing acc with
  | nil => simp [visit]
  | cons x l ih =>
    rw [visit, List.foldl_cons, if_neg (h x (by simp))]
    rw [List.nodup_cons] at hl
    have := ih (acc ++ [x]) hl.2 fun y hy => by
      simp only [List.mem_append, List.mem_singleton, not_or]
      exact ⟨h y (by simp [hy]), fun e => hl.1 (e ▸ hy)⟩
    simpa [visit] using this

theorem visit_nodup (acc l : List α) (h : acc.Nodup) : (visit acc l).Nodup := by
  induction l generalizing acc with
  | nil => exact h
  | cons x l ih =>
    rw [visit, List.foldl_cons]
    split
    · exact ih acc h
    · rename_i hx
      refine ih _ ?_
      rw [List.nodup_append]
      exact ⟨h, by simp, fun a ha b hb e => hx (by simp at hb; rw [← hb, ← e]; exact ha)⟩

theorem visit_mem (acc l : List α) (x : α) : x ∈ visit acc l ↔ x ∈ acc ∨ x ∈ l := by
  induction l generalizing acc with
  | nil => simp [visit]
  | cons y l ih =>
    rw [visit, List.foldl_cons]
    change x ∈ visit _ l ↔ _
    rw [ih]
    split
    · rename_i hy
      simp only [List.mem_cons]
      constructor
      · rintro (h | h) <;> simp [h]
      · rintro (h | h | h)
        · exact .inl h
        · exact .inl (h ▸ hy)
        · exact .inr h
    · simp only [List.mem_append, List.mem_cons, List.not_mem_nil, or_false]
      tauto

variable (G : ECells)

theorem cellNodes_length (hG : G.WF) (k c : ℕ) (hk : 1 ≤ k) : (cellNodes G k c).length = (k + 1) ^ G.dm := by
  obtain ⟨j, rfl⟩ : ∃ j, k = j + 1 := ⟨k - 1, by omega⟩
  simp only [cellNodes, List.length_append, List.length_map, List.length_flatMap, List.length_range, List.map_const', List.sum_replicate,
    hG.vlen, hG.llen, Nat.add_sub_cancel, smul_eq_mul]
  rcases hG.dim with h | h <;> simp [h] <;> ring

theorem cellNodes_nodup (hG : G.WF) (k c : ℕ) : (cellNodes G k c).Nodup := by
  rw [cellNodes, List.nodup_append, List.nodup_append]
  refine ⟨⟨(hG.vnodup c).map fun a b h => by simpa using h, ?_, ?_⟩, ?_, ?_⟩
  · rw [List.nodup_flatMap]
    refine ⟨fun l _ => List.nodup_range.map fun a b h => by simpa using h, ?_⟩
    refine (hG.lnodup c).imp fun {a b} hab => ?_
    simp only [Function.onFun, List.disjoint_left, List.mem_map, List.mem_range]
    rintro x ⟨i, _, rfl⟩ ⟨j, _, h⟩
    simp only [ENode.line.injEq] at h
    exact hab h.1.symm
  · intro a ha b hb e
    simp only [List.mem_map] at ha
    simp only [List.mem_flatMap, List.mem_map] at hb
    obtain ⟨v, _, rfl⟩ := ha
    obtain ⟨l, _, j, _, rfl⟩ := hb
    simp at e
  · exact List.nodup_range.map fun a b h => by simpa using h
  · intro a ha b hb e
    simp only [List.mem_map] at hb
    obtain ⟨j, _, rfl⟩ := hb
    subst e
    simp only [List.mem_append, List.mem_map, List.mem_flatMap] at ha
    rcases ha with ⟨v, _, h⟩ | ⟨l, _, i, _, h⟩ <;> simp at h

theorem vertex_mem (k c v : ℕ) : ENode.vertex v ∈ cellNodes G k c ↔ v ∈ G.vertices c := by
  simp [cellNodes]

/-- The first vertex of the second cell that is not in the first one. -/
def NewVertex (w : ℕ) : Prop := 2 ≤ G.nCells ∧ ∃ pre post, G.vertices 1 = pre ++ w :: post ∧ (∀ v ∈ pre, v ∈ G.vertices 0) ∧ w ∉ G.vertices 0

theorem numbering_nodup (k : ℕ) : (numbering G k).Nodup := visit_nodup _ _ List.nodup_nil

theorem numbering_start (hG : G.WF) (k w : ℕ) (hw : NewVertex G w) :
    cellNodes G k 0 ++ [ENode.vertex w] <+: numbering G k := by
  obtain ⟨h2, pre, post, hv, hpre, hwn⟩ := hw
  obtain ⟨n, hn⟩ : ∃ n, G.nCells = n + 2 := ⟨G.nCells - 2, by omega⟩
  have e : (List.range G.nCells).flatMap (cellNodes G k) = cellNodes G k 0 ++ (pre.map ENode.vertex ++ ([ENode.vertex w] ++ (post.map ENode.vertex ++
      ((G.lines 1).flatMap (fun l => (List.range (k - 1)).map (.line l)) ++ (List.range ((k - 1) ^ G.dm)).map (.inner 1)) ++
      (List.range n).flatMap fun c => cellNodes G k (c + 2)))) := by
    rw [hn, List.range_succ_eq_map, List.range_succ_eq_map]
    simp only [List.flatMap_cons, List.map_cons, List.map_map, List.flatMap_map]
    have : cellNodes G k (0 + 1) = pre.map ENode.vertex ++ ([ENode.vertex w] ++ (post.map ENode.vertex ++
      ((G.lines 1).flatMap (fun l => (List.range (k - 1)).map (.line l)) ++ (List.range ((k - 1) ^ G.dm)).map (.inner 1)))) := by
      simp [cellNodes, hv]
    rw [show Nat.succ 0 = 0 + 1 from rfl, this]
    simp
  rw [numbering, e, visit_append, visit_append, visit_append]
  rw [visit_new [] _ (cellNodes_nodup G hG k 0) (by simp), List.nil_append]
  rw [visit_known (cellNodes G k 0) (pre.map ENode.vertex) (by
    intro x hx
    simp only [List.mem_map] at hx
    obtain ⟨v, hv', rfl⟩ := hx
    exact (vertex_mem G k 0 v).mpr (hpre v hv'))]
  rw [visit_new (cellNodes G k 0) [ENode.vertex w] (by simp) (by simpa [vertex_mem] using hwn)]
  exact visit_prefix _ _

/-- The number of the new vertex. -/
theorem new_number (hG : G.WF) (k w : ℕ) (hk : 1 ≤ k) (hw : NewVertex G w) :
    (numbering G k)[(k + 1) ^ G.dm]? = some (.vertex w) := by
  obtain ⟨t, ht⟩ := numbering_start G hG k w hw
  rw [← ht, List.append_assoc, List.getElem?_append_right (by rw [cellNodes_length G hG k 0 hk]), cellNodes_length G hG k 0 hk]
  simp

theorem dm_pos (hG : G.WF) : G.dm ≠ 0 := by rcases hG.dim with h | h <;> omega

theorem nNodes_card (k : ℕ) : nNodes G k = ((List.range G.nCells).flatMap (cellNodes G k)).toFinset.card := by
  rw [nNodes, ← List.toFinset_card_of_nodup (numbering_nodup G k)]
  congr 1
  ext x
  simp [numbering, visit_mem]

theorem nNodes_lt (hG : G.WF) (hc : 0 < G.nCells) {k k' : ℕ} (hk : 1 ≤ k) (h : k < k') : nNodes G k < nNodes G k' := by
  rw [nNodes_card, nNodes_card]
  apply Finset.card_lt_card
  have hp : (k - 1) ^ G.dm < (k' - 1) ^ G.dm := Nat.pow_lt_pow_left (by omega) (dm_pos G hG)
  rw [Finset.ssubset_iff_of_subset]
  · refine ⟨.inner 0 ((k - 1) ^ G.dm), ?_, ?_⟩
    · simp only [List.mem_toFinset, List.mem_flatMap, List.mem_range]
      exact ⟨0, hc, by simp [cellNodes, hp]⟩
    · simp [cellNodes]
  · intro x
    simp only [List.mem_toFinset, List.mem_flatMap, List.mem_range]
    rintro ⟨c, hc, hx⟩
    refine ⟨c, hc, ?_⟩
    simp only [cellNodes, List.mem_append, List.mem_map, List.mem_flatMap, List.mem_range] at hx ⊢
    rcases hx with (hx | ⟨l, hl, j, hj, rfl⟩) | ⟨j, hj, rfl⟩
    · exact .inl (.inl hx)
    · exact .inl (.inr ⟨l, hl, j, by omega, rfl⟩)
    · exact .inr ⟨j, by omega, rfl⟩

variable {G}

/-- The renumberings by subdomains are permutations of the `ns` scalar and of the `nGrad` vector dofs. -/
structure Renumbering (ns nGrad : ℕ) (o2s vo2s : ℕ → ℕ) : Prop where
  ho : ∀ i < ns, o2s i < ns
  hoi : ∀ i < ns, ∀ j < ns, o2s i = o2s j → i = j
  hv : ∀ i < nGrad, vo2s i < nGrad
  hvi : ∀ i < nGrad, ∀ j < nGrad, vo2s i = vo2s j → i = j

/-- Number before `subdomain_wise` of the scalar dof `i`, as computed by the program. -/
def origOf (G : ECells) (ks kv dim : ℕ) (o2s vo2s : ℕ → ℕ) : ℕ → ℕ :=
  (reorderingVectors (nNodes G ks) (dim * nNodes G kv) o2s vo2s).1

theorem origOf_o2s {ks kv dim : ℕ} {o2s vo2s : ℕ → ℕ} (R : Renumbering (nNodes G ks) (dim * nNodes G kv) o2s vo2s) (m : ℕ)
    (h1 : m < nNodes G ks) (h2 : m < dim * nNodes G kv) : origOf G ks kv dim o2s vo2s (o2s m) = m :=
  (reordering_fold (nNodes G ks) o2s vo2s (List.range (dim * nNodes G kv)) List.nodup_range
    (fun i _ j _ hi hj => R.hoi i hi j hj)
    (fun i hi j hj => R.hvi i (List.mem_range.mp hi) j (List.mem_range.mp hj)) (fun _ => 0, fun _ => 0)).1 m (List.mem_range.mpr h2) h1

/-- The node with number `m` for scalars reads the vector of the node with number `m` for vectors. -/
theorem readAt_node {ks kv dim : ℕ} (hdim : 0 < dim) {o2s vo2s : ℕ → ℕ}
    (R : Renumbering (nNodes G ks) (dim * nNodes G kv) o2s vo2s) (f : ENode → ℕ → ℝ) (x : ℕ → ℝ) (hx : IsField G kv dim vo2s f x)
    (m : ℕ) (hm : m < nNodes G ks) (hm' : m < nNodes G kv) (d : ℕ) (hd : d < dim) :
    readAt G kv dim (origOf G ks kv dim o2s vo2s) vo2s x (o2s m) d = f ((numbering G kv)[m]'hm') d := by
  rw [readAt, vecIndex, Nat.mul_div_cancel_left _ hdim, origOf_o2s R m hm (lt_of_lt_of_le hm' (Nat.le_mul_of_pos_left _ hdim))]
  exact hx d hd m hm'

/-- **C102**, equal orders. If both elements have the same order, the vector read at a scalar dof is the one at its node. -/
theorem C102_same (k dim : ℕ) (hdim : 0 < dim) (o2s vo2s : ℕ → ℕ) (R : Renumbering (nNodes G k) (dim * nNodes G k) o2s vo2s)
    (f : ENode → ℕ → ℝ) (x : ℕ → ℝ) (hx : IsField G k dim vo2s f x) (m : ℕ) (hm : m < nNodes G k) (d : ℕ) (hd : d < dim) :
    readAt G k dim (origOf G k k dim o2s vo2s) vo2s x (o2s m) d = f ((numbering G k)[m]'hm) d :=
  readAt_node hdim R f x hx m hm hm d hd

/-- **C102**, vectors of higher order. If the order `kv` of the vectors is higher than the order `ks` of the scalars, the dof of
the first vertex `w` of the second cell which is not in the first reads, for every vector field, every component of it at one and
the same other node: a node of the first cell that is not a vertex (while `w` is not in the first cell). -/
theorem C102_higher (hG : G.WF) (ks kv dim w : ℕ) (hk : 1 ≤ ks) (hlt : ks < kv) (hdim : 0 < dim) (hw : NewVertex G w)
    (o2s vo2s : ℕ → ℕ) (R : Renumbering (nNodes G ks) (dim * nNodes G kv) o2s vo2s) :
    ∃ m, (numbering G ks)[m]? = some (.vertex w) ∧ ENode.vertex w ∉ cellNodes G kv 0 ∧
      ∃ p ∈ cellNodes G kv 0, (∀ v, p ≠ .vertex v) ∧ ∀ f x, IsField G kv dim vo2s f x → ∀ d < dim,
        readAt G kv dim (origOf G ks kv dim o2s vo2s) vo2s x (o2s m) d = f p d := by
  have hnum := new_number G hG ks w hk hw
  have hm : (ks + 1) ^ G.dm < nNodes G ks := (List.getElem?_eq_some_iff.mp hnum).1
  have hpow : (ks + 1) ^ G.dm < (kv + 1) ^ G.dm := Nat.pow_lt_pow_left (by omega) (dm_pos G hG)
  have hlen := cellNodes_length G hG kv 0 (by omega)
  have h0 : (ks + 1) ^ G.dm < (cellNodes G kv 0).length := by rw [hlen]; exact hpow
  have hm' : (ks + 1) ^ G.dm < nNodes G kv := lt_trans hm (nNodes_lt G hG (by have := hw.1; omega) hk hlt)
  have hget : (numbering G kv)[(ks + 1) ^ G.dm]'hm' = (cellNodes G kv 0)[(ks + 1) ^ G.dm]'h0 := by
    obtain ⟨t, ht⟩ := numbering_start G hG kv w hw
    have : (numbering G kv)[(ks + 1) ^ G.dm]? = (cellNodes G kv 0)[(ks + 1) ^ G.dm]? := by
      rw [← ht, List.append_assoc, List.getElem?_append_left h0]
    rw [List.getElem?_eq_getElem hm', List.getElem?_eq_getElem h0] at this
    exact Option.some.inj this
  refine ⟨(ks + 1) ^ G.dm, hnum, ?_, (numbering G kv)[(ks + 1) ^ G.dm]'hm', ?_, ?_, fun f x hx d hd => readAt_node hdim R f x hx _ hm hm' d hd⟩
  · rw [vertex_mem]
    obtain ⟨_, _, _, _, _, h⟩ := hw
    exact h
  · rw [hget]; exact List.getElem_mem h0
  · intro v hv
    rw [hget] at hv
    have hge : 2 ^ G.dm ≤ (ks + 1) ^ G.dm := Nat.pow_le_pow_left (by omega) _
    have hvl : ((G.vertices 0).map ENode.vertex).length ≤ (ks + 1) ^ G.dm := by rw [List.length_map, hG.vlen]; exact hge
    have h2 : (cellNodes G kv 0)[(ks + 1) ^ G.dm]? = some (.vertex v) := by rw [List.getElem?_eq_getElem h0, hv]
    rw [cellNodes, List.append_assoc, List.getElem?_append_right hvl] at h2
    have := List.mem_of_getElem? h2
    simp at this

/-- **C102**, vectors of lower order. If the order of the vectors is lower than the order of the scalars, there are scalar dofs at
which reading the last component of a vector uses a number that is not the number of a vector dof: the program reads outside the table
`vec_original_to_sub_wise`, which has `dim * nNodes` entries. This holds for all the nodes with numbers from `nNodes kv` on that are in
the table of the scalar numbers. -/
theorem C102_lower (hG : G.WF) (hc : 0 < G.nCells) (ks kv dim : ℕ) (hk : 1 ≤ kv) (hlt : kv < ks) (hdim : 2 ≤ dim)
    (o2s vo2s : ℕ → ℕ) (R : Renumbering (nNodes G ks) (dim * nNodes G kv) o2s vo2s) :
    (∃ m, nNodes G kv ≤ m ∧ m < nNodes G ks ∧ m < dim * nNodes G kv) ∧
    ∀ m, nNodes G kv ≤ m → m < nNodes G ks → m < dim * nNodes G kv → o2s m < nNodes G ks ∧
      dim * nNodes G kv ≤ dim * nNodes G kv / dim * (dim - 1) + origOf G ks kv dim o2s vo2s (o2s m) := by
  have hpos : 0 < nNodes G kv := by
    rw [nNodes_card, Finset.card_pos]
    have hne : cellNodes G kv 0 ≠ [] := by
      intro h
      have := cellNodes_length G hG kv 0 hk
      rw [h, List.length_nil] at this
      exact absurd this.symm (by positivity)
    obtain ⟨y, hy⟩ := List.exists_mem_of_ne_nil _ hne
    exact ⟨y, by simp only [List.mem_toFinset, List.mem_flatMap, List.mem_range]; exact ⟨0, hc, hy⟩⟩
  refine ⟨⟨nNodes G kv, le_refl _, nNodes_lt G hG hc hk hlt, by nlinarith⟩, fun m h1 h2 h3 => ⟨R.ho m h2, ?_⟩⟩
  rw [origOf_o2s R m h2 h3, Nat.mul_div_cancel_left _ (by omega)]
  obtain ⟨e, rfl⟩ : ∃ e, dim = e + 1 := ⟨dim - 1, by omega⟩
  rw [Nat.add_sub_cancel]
  nlinarith

/-- **C102**, ownership. If the order of the vectors is higher, there are vector dofs which no process owns: all the components of the
nodes with numbers from `nNodes ks` on. (The vectors are distributed among the processes by these sets.) -/
theorem C102_unowned (hG : G.WF) (hc : 0 < G.nCells) (ks kv dim : ℕ) (hk : 1 ≤ ks) (hlt : ks < kv) (hdim : 0 < dim)
    (o2s vo2s : ℕ → ℕ) (R : Renumbering (nNodes G ks) (dim * nNodes G kv) o2s vo2s) (assoc : ℕ → ℕ) :
    nNodes G ks < nNodes G kv ∧ ∀ m, nNodes G ks ≤ m → m < nNodes G kv → ∀ d < dim, vo2s (nNodes G kv * d + m) < dim * nNodes G kv ∧
      ∀ proc, vo2s (nNodes G kv * d + m) ∉
        (cpuSets (nNodes G ks) (dim * nNodes G kv) dim assoc (origOf G ks kv dim o2s vo2s) vo2s proc).2 := by
  have hlt' := nNodes_lt G hG hc hk hlt
  refine ⟨hlt', fun m h1 h2 d hd => ?_⟩
  have hb : ∀ q < nNodes G kv, ∀ e < dim, nNodes G kv * e + q < dim * nNodes G kv := by
    intro q hq e he
    calc nNodes G kv * e + q < nNodes G kv * e + nNodes G kv := by omega
      _ = nNodes G kv * (e + 1) := by ring
      _ ≤ nNodes G kv * dim := Nat.mul_le_mul_left _ he
      _ = dim * nNodes G kv := Nat.mul_comm _ _
  refine ⟨R.hv _ (hb m h2 d hd), fun proc hmem => ?_⟩
  obtain ⟨i, hi, -, k, hkd, he⟩ := (mem_cpuSets _ _ _ _ _ _ _ _).2.mp hmem
  rw [vecIndex, Nat.mul_div_cancel_left _ hdim] at he
  -- `i` is the image of a number
  have hsurj : ∃ j, j < nNodes G ks ∧ o2s j = i := by
    have hinj : Function.Injective (fun i : Fin (nNodes G ks) => (⟨o2s i, R.ho i i.isLt⟩ : Fin (nNodes G ks))) := by
      intro i j hij
      exact Fin.ext (R.hoi i i.isLt j j.isLt (congrArg Fin.val hij))
    obtain ⟨j, hj⟩ := (Finite.injective_iff_surjective.mp hinj) ⟨i, hi⟩
    exact ⟨j, j.isLt, congrArg Fin.val hj⟩
  obtain ⟨j, hj, rfl⟩ := hsurj
  have hjv : j < nNodes G kv := by omega
  rw [origOf_o2s R j hj (lt_of_lt_of_le hjv (Nat.le_mul_of_pos_left _ hdim))] at he
  have he' := R.hvi _ (hb m h2 d hd) _ (hb j hjv k hkd) he
  have : m % nNodes G kv = j % nNodes G kv := by
    have := congrArg (· % nNodes G kv) he'
    simpa [Nat.mul_add_mod] using this
  rw [Nat.mod_eq_of_lt h2, Nat.mod_eq_of_lt hjv] at this
  omega

/-- **C102**, prescribed data. With vectors of higher order, the Neumann datum that the program prescribes at the vertex `w` is the wind
at `w` times the normal at another node, one of the first cell. `x`: the nodal values of the normals `f`. -/
theorem C102_data (hG : G.WF) (ks kv dim w : ℕ) (hk : 1 ≤ ks) (hlt : ks < kv) (hdim : 0 < dim) (hw : NewVertex G w)
    (o2s vo2s : ℕ → ℕ) (R : Renumbering (nNodes G ks) (dim * nNodes G kv) o2s vo2s) :
    ∃ i : Fin (nNodes G ks), ∃ p ∈ cellNodes G kv 0, (∀ v, p ≠ .vertex v) ∧ (∃ m, o2s m = i ∧ (numbering G ks)[m]? = some (.vertex w)) ∧
      ∀ (f : ENode → ℕ → ℝ) (x : ℕ → ℝ), IsField G kv dim vo2s f x → ∀ (B : BoundaryData (nNodes G ks) dim),
      (∀ j d, B.normal j d = readAt G kv dim (origOf G ks kv dim o2s vo2s) vo2s x j d) → ∀ (cells : List (BCell (nNodes G ks)))
      (own : Fin (nNodes G ks) → ℕ), (∃ c ∈ cells, i ∈ c.dofs) →
      (∀ c ∈ cells, i ∈ c.dofs → c.material ∉ B.dirichletIds ∧ c.material ∈ B.neumannIds) →
      (prepareBemVectors B cells own).dphi i = ∑ d, B.wind i d * f p d := by
  obtain ⟨m, hm, -, p, hp, hpv, hread⟩ := C102_higher hG ks kv dim w hk hlt hdim hw o2s vo2s R
  have hml : m < nNodes G ks := (List.getElem?_eq_some_iff.mp hm).1
  refine ⟨⟨o2s m, R.ho m hml⟩, p, hp, hpv, ⟨m, rfl, hm⟩, fun f x hx B hB cells own ⟨c, hc, hic⟩ hall => ?_⟩
  have hn : ∀ c ∈ cells, (⟨o2s m, R.ho m hml⟩ : Fin (nNodes G ks)) ∈ c.dofs → ¬ c.isDirichlet B.dirichletIds ∧
      datum B c.material ⟨o2s m, R.ho m hml⟩ = ∑ d, B.wind ⟨o2s m, R.ho m hml⟩ d * f p d := by
    intro c hc hi
    obtain ⟨h1, h2⟩ := hall c hc hi
    refine ⟨by simpa [BCell.isDirichlet] using h1, ?_⟩
    rw [datum]
    simp only [h1, h2, if_true, if_false, dot]
    refine Finset.sum_congr rfl fun d _ => ?_
    rw [hB, ← hread f x hx d d.isLt]
  have := (C36_consistent_data B cells own ⟨o2s m, R.ho m hml⟩ c hc hic fun c' hc' hi' =>
    ⟨by simp [(hn c' hc' hi').1, (hn c hc hic).1], by rw [(hn c' hc' hi').2, (hn c hc hic).2]⟩).2 (hn c hc hic).1
  rw [this.2.2, (hn c hc hic).2]

/-- Two squares with a common edge. -/
def twoSquares : ECells := ⟨2, 2, fun c => if c = 0 then [0, 1, 2, 3] else [1, 4, 3, 5], fun c => if c = 0 then [0, 1, 2, 3] else [1, 4, 5, 6]⟩

theorem twoSquares_wf : twoSquares.WF := by
  refine ⟨.inr rfl, fun c => ?_, fun c => ?_, fun c => ?_, fun c => ?_⟩ <;> by_cases h : c = 0 <;> simp [twoSquares, h]

/-- Non-vacuity of C102: two squares with a common edge, linear elements for the scalars and quadratic ones for the vectors. All the
hypotheses hold. If the normal is `e_z` on the nodes of the first square and `e_x` on the others and the wind is `e_x`, the datum prescribed at
vertex `4` is `0` instead of `1`. -/
theorem C102_example : NewVertex twoSquares 4 ∧ nNodes twoSquares 1 = 6 ∧ nNodes twoSquares 2 = 15 ∧
    Renumbering (nNodes twoSquares 1) (3 * nNodes twoSquares 2) id id ∧
    let f : ENode → ℕ → ℝ := fun q d => if q ∈ cellNodes twoSquares 2 0 then (if d = 2 then 1 else 0) else (if d = 0 then 1 else 0)
    (∃ x, IsField twoSquares 2 3 id f x) ∧ (∑ d : Fin 3, (if d = 0 then 1 else 0) * f (.vertex 4) d = 1) ∧
    ∀ p ∈ cellNodes twoSquares 2 0, ∑ d : Fin 3, (if d = 0 then 1 else 0) * f p d = 0 := by
  refine ⟨⟨le_refl _, [1], [3, 5], rfl, by simp [twoSquares], by simp [twoSquares]⟩, by decide, by decide,
    ⟨fun i h => h, fun i _ j _ h => h, fun i h => h, fun i _ j _ h => h⟩, ?_⟩
  intro f
  have h15 : nNodes twoSquares 2 = 15 := by decide
  refine ⟨⟨fun j => f ((numbering twoSquares 2).getD (j % 15) (.vertex 0)) (j / 15), fun d hd m hm => ?_⟩, ?_, fun p hp => ?_⟩
  · simp only [id]
    rw [h15, Nat.mul_add_mod, Nat.mul_add_div (by omega), Nat.mod_eq_of_lt (by omega), Nat.div_eq_of_lt (by omega), Nat.add_zero,
      List.getD_eq_getElem?_getD, List.getElem?_eq_getElem hm, Option.getD_some]
  · have : ENode.vertex 4 ∉ cellNodes twoSquares 2 0 := by rw [vertex_mem]; simp [twoSquares]
    simp [f, this]
  · simp [f, hp, Fin.sum_univ_three]

end PiBem.Bem
