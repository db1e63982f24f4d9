import Verif.App.Setup
import Verif.Props.Domain
import Verif.Props.Boundary
import Verif.Props.Nodes
import Mathlib.Data.Nat.Digits.Defs

/-!
# From the parameter file to boundary conditions and geometry (C104, C105)
-/

namespace PiBem.App.Setup

open PiBem.App

/-! ## Lists of ids -/

/-- `ds` is a decimal number with value `n`, possibly with leading zeros. -/
def Decimal (n : ℕ) (ds : List Char) : Prop :=
  ds ≠ [] ∧ (∀ c ∈ ds, c.isDigit = true) ∧ Nat.ofDigits 10 (ds.reverse.map fun c => c.toNat - 48) = n

/-- `s` is a decimal number with spaces around it. -/
def Elem (n : ℕ) (s : List Char) : Prop :=
  ∃ a ds b, s = List.replicate a ' ' ++ ds ++ List.replicate b ' ' ∧ Decimal n ds

/-- `s` is a list of numbers separated by commas, with any number of spaces around the numbers. -/
def Written : List ℕ → List Char → Prop
  | [], s => ∃ a, s = List.replicate a ' '
  | [n], s => Elem n s
  | n :: m :: l, s => ∃ e t, s = e ++ ',' :: t ∧ Elem n e ∧ Written (m :: l) t

theorem takeWhile_all {α : Type} {p : α → Bool} {l : List α} (h : ∀ a ∈ l, p a = true) : l.takeWhile p = l := by
  have := List.takeWhile_append_of_pos (l₂ := []) h
  simpa using this

theorem dropWhile_all {α : Type} {p : α → Bool} {l : List α} (h : ∀ a ∈ l, p a = true) : l.dropWhile p = [] := by
  have := List.dropWhile_append_of_pos (l₂ := []) h
  simpa using this

theorem digit_props {c : Char} (h : c.isDigit = true) : c ≠ ' ' ∧ c ≠ ',' ∧ c.isWhitespace = false := by
  refine ⟨?_, ?_, ?_⟩
  · rintro rfl; simp at h
  · rintro rfl; simp at h
  · by_contra hw
    simp only [Bool.not_eq_false, Char.isWhitespace, Bool.or_eq_true, decide_eq_true_eq] at hw
    rcases hw with ((rfl | rfl) | rfl) | rfl <;> simp at h

theorem foldl_value (ds : List Char) : ∀ v, ds.foldl (fun v c => 10 * v + (c.toNat - 48)) v =
    Nat.ofDigits 10 (ds.reverse.map fun c => c.toNat - 48) + 10 ^ ds.length * v := by
  induction ds with
  | nil => intro v; simp
  | cons c ds ih =>
    intro v
    rw [List.foldl_cons, ih]
    simp only [List.reverse_cons, List.map_append, List.map_cons, List.map_nil, Nat.ofDigits_append, Nat.ofDigits_singleton,
      List.length_map, List.length_reverse, List.length_cons]
    ring

theorem readUnsigned_decimal {n : ℕ} {ds : List Char} (h : Decimal n ds) (hn : n < 2 ^ 32) : readUnsigned ds = n := by
  obtain ⟨hne, hd, hv⟩ := h
  have h1 : ds.dropWhile Char.isWhitespace = ds := by
    cases ds with
    | nil => rfl
    | cons c ds => simp [(digit_props (hd c (by simp))).2.2]
  have h2 : ds.takeWhile Char.isDigit = ds := takeWhile_all hd
  rw [readUnsigned, h1, h2, foldl_value, hv]
  simp only [mul_zero, add_zero]
  omega

theorem trimLeft_spaces (a : ℕ) (s : List Char) : trimLeft (List.replicate a ' ' ++ s) = trimLeft s := by
  induction a with
  | zero => rfl
  | succ a ih => rw [List.replicate_succ]; simpa [trimLeft] using ih

theorem trimLeft_digits {ds : List Char} (hne : ds ≠ []) (hd : ∀ c ∈ ds, c.isDigit = true) (s : List Char) :
    trimLeft (ds ++ s) = ds ++ s := by
  cases ds with
  | nil => exact absurd rfl hne
  | cons c ds => simp [trimLeft, (digit_props (hd c (by simp))).1]

theorem trimRight_digits {ds : List Char} (hne : ds ≠ []) (hd : ∀ c ∈ ds, c.isDigit = true) (b : ℕ) (s : List Char) :
    trimRight (s ++ ds ++ List.replicate b ' ') = s ++ ds := by
  unfold trimRight
  rw [List.reverse_append, List.reverse_replicate, trimLeft_spaces, List.reverse_append,
    trimLeft_digits (by simpa using hne) (by simpa using hd)]
  simp

theorem trim_elem {n : ℕ} {s : List Char} (h : Elem n s) : ∃ ds, Decimal n ds ∧ trimRight (trimLeft s) = ds := by
  obtain ⟨a, ds, b, rfl, hd⟩ := h
  refine ⟨ds, hd, ?_⟩
  rw [List.append_assoc, trimLeft_spaces, trimLeft_digits hd.1 hd.2.1]
  simpa using trimRight_digits hd.1 hd.2.1 b []

theorem elem_no_comma {n : ℕ} {s : List Char} (h : Elem n s) : ∀ c ∈ s, c ≠ ',' := by
  obtain ⟨a, ds, b, rfl, hd⟩ := h
  intro c hc
  simp only [List.mem_append, List.mem_replicate] at hc
  rcases hc with (⟨_, rfl⟩ | hc) | ⟨_, rfl⟩
  · decide
  · exact (digit_props (hd.2.1 c hc)).2.1
  · decide

theorem elem_ne_nil {n : ℕ} {s : List Char} (h : Elem n s) : s ≠ [] := by
  obtain ⟨a, ds, b, rfl, hd⟩ := h
  have := hd.1
  simp [this]

/-- Removing the spaces at the end leaves a written list. -/
theorem written_trimRight : ∀ {l : List ℕ} {s : List Char}, Written l s → Written l (trimRight s) ∧
    (l ≠ [] → ∀ t, trimRight (t ++ s) = t ++ trimRight s)
  | [], s, h => by
    obtain ⟨a, rfl⟩ := h
    refine ⟨⟨0, ?_⟩, fun h => absurd rfl h⟩
    have := trimLeft_spaces a []
    simp only [List.append_nil] at this
    simp [trimRight, trimLeft]
  | [n], s, h => by
    obtain ⟨a, ds, b, rfl, hd⟩ := h
    have key : ∀ t, trimRight (t ++ (List.replicate a ' ' ++ ds ++ List.replicate b ' ')) = t ++ (List.replicate a ' ' ++ ds) := by
      intro t
      rw [← List.append_assoc, ← List.append_assoc, trimRight_digits hd.1 hd.2.1, List.append_assoc]
    have k0 := key []
    simp only [List.nil_append] at k0
    exact ⟨⟨a, ds, 0, by rw [k0]; simp, hd⟩, fun _ t => by rw [key, k0]⟩
  | n :: m :: l, s, h => by
    obtain ⟨e, t, rfl, he, ht⟩ := h
    obtain ⟨h1, h2⟩ := written_trimRight ht
    have h3 := h2 (by simp)
    have key : ∀ u, trimRight (u ++ (e ++ ',' :: t)) = u ++ (e ++ ',' :: trimRight t) := by
      intro u
      have := h3 (u ++ e ++ [','])
      simpa using this
    have k0 := key []
    simp only [List.nil_append] at k0
    exact ⟨⟨e, trimRight t, k0, he, h1⟩, fun _ u => by rw [key, k0]⟩

theorem splitLoop_written : ∀ {l : List ℕ} {s : List Char} (fuel : ℕ), Written l s → (l = [] → s = []) →
    s.length < fuel → (∀ n ∈ l, n < 2 ^ 32) → (splitLoop fuel s).map readUnsigned = l
  | [], s, fuel, _, h0, _, _ => by
    rw [h0 rfl]
    cases fuel <;> rfl
  | [n], s, 0, _, _, hf, _ => by omega
  | n :: m :: l, s, 0, _, _, hf, _ => by omega
  | [n], s, fuel + 1, h, _, hf, hn => by
    have hne := elem_ne_nil h
    obtain ⟨ds, hd, ht⟩ := trim_elem h
    have h1 : s.takeWhile (· != ',') = s := takeWhile_all (by simpa using elem_no_comma h)
    have h2 : s.dropWhile (· != ',') = [] := dropWhile_all (by simpa using elem_no_comma h)
    have : splitLoop (fuel + 1) s = trimRight (trimLeft (s.takeWhile (· != ','))) ::
        splitLoop fuel ((s.dropWhile (· != ',')).drop 1) := by
      cases s with
      | nil => exact absurd rfl hne
      | cons c s => rfl
    rw [this, h1, h2, ht]
    have h3 : splitLoop fuel (([] : List Char).drop 1) = [] := by cases fuel <;> rfl
    rw [h3]
    simp [readUnsigned_decimal hd (hn n (by simp))]
  | n :: m :: l, s, fuel + 1, h, _, hf, hn => by
    obtain ⟨e, t, rfl, he, ht⟩ := h
    obtain ⟨ds, hd, htr⟩ := trim_elem he
    have hcom := elem_no_comma he
    have h1 : (e ++ ',' :: t).takeWhile (· != ',') = e := by
      rw [List.takeWhile_append_of_pos (by simpa using hcom)]; simp
    have h2 : (e ++ ',' :: t).dropWhile (· != ',') = ',' :: t := by
      rw [List.dropWhile_append_of_pos (by simpa using hcom)]; simp
    have hs : splitLoop (fuel + 1) (e ++ ',' :: t) = trimRight (trimLeft ((e ++ ',' :: t).takeWhile (· != ','))) ::
        splitLoop fuel (((e ++ ',' :: t).dropWhile (· != ',')).drop 1) := by
      cases hx : e ++ ',' :: t with
      | nil => simp at hx
      | cons c s => rfl
    rw [hs, h1, h2, htr]
    simp only [List.length_append, List.length_cons] at hf
    have := splitLoop_written fuel ht (by simp) (by omega) (fun k hk => hn k (List.mem_cons_of_mem _ hk))
    simp [readUnsigned_decimal hd (hn n (by simp)), this]

theorem trimRight_length_le (s : List Char) : (trimRight s).length ≤ s.length := by
  unfold trimRight trimLeft
  simpa using (List.dropWhile_suffix (l := s.reverse) (· == ' ')).length_le

/-- **C104**, lists in the parameter file. Every list of numbers below 2^32 separated by commas is read as written, whatever
spaces surround the numbers and whatever leading zeros they have; blanks only give the empty list. -/
theorem C104_ids (l : List ℕ) (s : List Char) (h : Written l s) (hl : ∀ n ∈ l, n < 2 ^ 32) : parseIds s = l := by
  obtain ⟨h1, -⟩ := written_trimRight h
  refine splitLoop_written _ h1 ?_ (by have := trimRight_length_le s; omega) hl
  rintro rfl
  obtain ⟨a, rfl⟩ := h
  have := trimLeft_spaces a []
  simp only [List.append_nil] at this
  simp [trimRight, trimLeft]

section boundary

open PiBem.Bem

variable {n d : ℕ}

/-- Boundary data with the ids of two strings of the parameter file. -/
noncomputable def withIds (B : BoundaryData n d) (sD sN : List Char) : BoundaryData n d :=
  { B with dirichletIds := parseIds sD, neumannIds := parseIds sN }

theorem prepareDof_congr {B B' : BoundaryData n d} (hp : B'.potential = B.potential) (hw : B'.wind = B.wind)
    (hn : B'.normal = B.normal) {mat : ℕ} (hD : mat ∈ B'.dirichletIds ↔ mat ∈ B.dirichletIds)
    (hN : mat ∉ B.dirichletIds → (mat ∈ B'.neumannIds ↔ mat ∈ B.neumannIds)) (v : BemVectors n) (i : Fin n) :
    prepareDof B' mat v i = prepareDof B mat v i := by
  rw [prepareDof_eq, prepareDof_eq]
  have hd : datum B' mat i = datum B mat i := by
    unfold datum
    rw [hp, hw, hn]
    by_cases h : mat ∈ B.dirichletIds
    · rw [if_pos (hD.2 h), if_pos h]
    · rw [if_neg (fun h' => h (hD.1 h')), if_neg h]
      by_cases h2 : mat ∈ B.neumannIds
      · rw [if_pos ((hN h).2 h2), if_pos h2]
      · rw [if_neg (fun h' => h2 ((hN h).1 h')), if_neg h2]
  by_cases h : mat ∈ B.dirichletIds
  · simp [h, hD.2 h, hd, hp]
  · have h' : mat ∉ B'.dirichletIds := fun x => h (hD.1 x)
    simp [h, h', hd]

/-- **C104**, meaning of the lists. For every pair of lists written in the parameter file: a node all of whose cells have a
material of the first list gets the potential; if none has, but all are in the second list, the normal component of the wind; if all
are in neither list, zero flux. A material in both lists is Dirichlet. -/
theorem C104_conditions (B : BoundaryData n d) (cells : List (BCell n)) (own : Fin n → ℕ) (lD lN : List ℕ)
    (sD sN : List Char) (hD : Written lD sD) (hN : Written lN sN) (bD : ∀ k ∈ lD, k < 2 ^ 32) (bN : ∀ k ∈ lN, k < 2 ^ 32)
    (hown : ∀ i, ∃ c ∈ cells, c.subdomain = own i ∧ i ∈ c.dofs) (i : Fin n) :
    let v := prepareBemVectors (withIds B sD sN) cells own
    ((∀ c ∈ cells, i ∈ c.dofs → c.material ∈ lD) →
      dirichletNodes (parseIds sD) cells own i = 1 ∧ v.phi i = B.potential i ∧ v.tmpRhs i = B.potential i) ∧
    ((∀ c ∈ cells, i ∈ c.dofs → c.material ∉ lD ∧ c.material ∈ lN) →
      dirichletNodes (parseIds sD) cells own i = 0 ∧ v.dphi i = dot (B.wind i) (B.normal i) ∧
        v.tmpRhs i = dot (B.wind i) (B.normal i)) ∧
    ((∀ c ∈ cells, i ∈ c.dofs → c.material ∉ lD ∧ c.material ∉ lN) →
      dirichletNodes (parseIds sD) cells own i = 0 ∧ v.dphi i = 0 ∧ v.tmpRhs i = 0) := by
  have eD := C104_ids lD sD hD bD
  have eN := C104_ids lN sN hN bN
  obtain ⟨c, hc, hco, hci⟩ := hown i
  have cls := C29_complementary (parseIds sD) cells own i
  have isD : ∀ c : BCell n, c.isDirichlet (parseIds sD) ↔ c.material ∈ lD := by
    intro c
    rw [eD]; exact Iff.rfl
  have isD' : ∀ c : BCell n, c.isDirichlet (withIds B sD sN).dirichletIds ↔ c.material ∈ lD := isD
  have dat : ∀ m, datum (withIds B sD sN) m i =
      if m ∈ lD then B.potential i else if m ∈ lN then dot (B.wind i) (B.normal i) else 0 := by
    intro m
    simp only [datum, withIds, eD, eN]
  refine ⟨fun h => ?_, fun h => ?_, fun h => ?_⟩
  · have key := (C36_consistent_data (withIds B sD sN) cells own i c hc hci (fun c' hc' hi' => ⟨by
        rw [isD', isD']; exact ⟨fun _ => h c hc hci, fun _ => h c' hc' hi'⟩, by
        rw [dat, dat, if_pos (h c hc hci), if_pos (h c' hc' hi')]⟩)).1 ((isD' c).2 (h c hc hci))
    exact ⟨cls.2.2 ⟨c, hc, hco, (isD c).2 (h c hc hci), hci⟩, key.1, key.2.1⟩
  · have hz : dirichletNodes (parseIds sD) cells own i = 0 := by
      rcases cls.1 with h1 | h1
      · obtain ⟨c', hc', _, hd', hi'⟩ := cls.2.1 h1.1
        exact absurd ((isD c').1 hd') (h c' hc' hi').1
      · exact h1.1
    have key := (C36_consistent_data (withIds B sD sN) cells own i c hc hci (fun c' hc' hi' => ⟨by
        rw [isD', isD']; exact ⟨fun x => absurd x (h c' hc' hi').1, fun x => absurd x (h c hc hci).1⟩, by
        rw [dat, dat, if_neg (h c hc hci).1, if_neg (h c' hc' hi').1, if_pos (h c hc hci).2, if_pos (h c' hc' hi').2]⟩)).2
        (fun x => (h c hc hci).1 ((isD' c).1 x))
    rw [dat, if_neg (h c hc hci).1, if_pos (h c hc hci).2] at key
    exact ⟨hz, key.2.2, key.2.1⟩
  · have hz : dirichletNodes (parseIds sD) cells own i = 0 := by
      rcases cls.1 with h1 | h1
      · obtain ⟨c', hc', _, hd', hi'⟩ := cls.2.1 h1.1
        exact absurd ((isD c').1 hd') (h c' hc' hi').1
      · exact h1.1
    have key := (C36_consistent_data (withIds B sD sN) cells own i c hc hci (fun c' hc' hi' => ⟨by
        rw [isD', isD']; exact ⟨fun x => absurd x (h c' hc' hi').1, fun x => absurd x (h c hc hci).1⟩, by
        rw [dat, dat, if_neg (h c hc hci).1, if_neg (h c' hc' hi').1, if_neg (h c hc hci).2, if_neg (h c' hc' hi').2]⟩)).2
        (fun x => (h c hc hci).1 ((isD' c).1 x))
    rw [dat, if_neg (h c hc hci).1, if_neg (h c hc hci).2] at key
    exact ⟨hz, key.2.2, key.2.1⟩

/-- **C104**, only the sets matter. Two parameter files whose first lists contain the same ids, in any order and with any
repetitions, and whose second lists contain the same ids apart from those of the first list, give the same classification of the
nodes, the same flag for the existence of a Dirichlet boundary and the same data. -/
theorem C104_sets (B : BoundaryData n d) (cells : List (BCell n)) (own : Fin n → ℕ) (procs : ℕ) (sD sN sD' sN' : List Char)
    (hD : ∀ k, k ∈ parseIds sD' ↔ k ∈ parseIds sD)
    (hN : ∀ k, k ∉ parseIds sD → (k ∈ parseIds sN' ↔ k ∈ parseIds sN)) :
    dirichletNodes (parseIds sD') cells own = dirichletNodes (parseIds sD) cells own ∧
    neumannNodes (parseIds sD') cells own = neumannNodes (parseIds sD) cells own ∧
    haveDirichlet (parseIds sD') cells procs = haveDirichlet (parseIds sD) cells procs ∧
    prepareBemVectors (withIds B sD' sN') cells own = prepareBemVectors (withIds B sD sN) cells own := by
  have isD : ∀ c : BCell n, c.isDirichlet (parseIds sD') = c.isDirichlet (parseIds sD) := fun c => propext (hD _)
  have cls : ∀ i, dirichletNodes (parseIds sD') cells own i = dirichletNodes (parseIds sD) cells own i ∧
      neumannNodes (parseIds sD') cells own i = neumannNodes (parseIds sD) cells own i := by
    intro i
    have h1 := C29_complementary (parseIds sD') cells own i
    have h2 := C29_complementary (parseIds sD) cells own i
    have h3 : dirichletNodes (parseIds sD') cells own i = 1 ↔ dirichletNodes (parseIds sD) cells own i = 1 := by
      rw [h1.2, h2.2]
      simp only [isD]
    rcases h1.1 with ⟨a, b⟩ | ⟨a, b⟩
    · rcases h2.1 with ⟨a', b'⟩ | ⟨a', b'⟩
      · exact ⟨by rw [a, a'], by rw [b, b']⟩
      · rw [h3.1 a] at a'; simp at a'
    · rcases h2.1 with ⟨a', b'⟩ | ⟨a', b'⟩
      · rw [h3.2 a'] at a; simp at a
      · exact ⟨by rw [a, a'], by rw [b, b']⟩
  refine ⟨funext fun i => (cls i).1, funext fun i => (cls i).2, ?_, ?_⟩
  · have hany : ∀ c : BCell n, (parseIds sD').any (fun d => d == c.material) = (parseIds sD).any (fun d => d == c.material) := by
      intro c
      rw [Bool.eq_iff_iff]
      simpa using hD c.material
    have hcell : ∀ proc, classifyCell (n := n) (parseIds sD') proc = classifyCell (parseIds sD) proc := by
      intro proc
      funext s c
      simp only [classifyCell, hany]
    have hloc : ∀ p, (classifyLocal (parseIds sD') cells p).helper = (classifyLocal (parseIds sD) cells p).helper := by
      intro p
      simp only [classifyLocal, hcell]
    unfold haveDirichlet
    rw [funext hloc]
  · have hp : ∀ proc, prepareLocal (withIds B sD' sN') cells own proc = prepareLocal (withIds B sD sN) cells own proc := by
      intro proc
      have hdof : ∀ mat v i, prepareDof (withIds B sD' sN') mat v i = prepareDof (withIds B sD sN) mat v i := fun mat v i =>
        prepareDof_congr (B := withIds B sD sN) (B' := withIds B sD' sN') rfl rfl rfl (hD mat) (hN mat) v i
      simp only [prepareLocal, hdof]
    simp only [prepareBemVectors, hp]

end boundary

/-- The default lists, with blanks. -/
theorem C104_example : parseIds "1,110,110".toList = [1, 110, 110] ∧ parseIds " 1 ,0110,  110 ".toList = [1, 110, 110] ∧
    Written [1, 110, 110] " 1 ,0110,  110 ".toList ∧ parseIds "  ".toList = [] := by
  refine ⟨by decide, by decide, ?_, by decide⟩
  refine ⟨" 1 ".toList, "0110,  110 ".toList, by decide, ⟨1, "1".toList, 1, by decide, by decide, by decide, by decide⟩, ?_⟩
  refine ⟨"0110".toList, "  110 ".toList, by decide, ⟨0, "0110".toList, 0, by decide, by decide, by decide, by decide⟩, ?_⟩
  exact ⟨2, "110".toList, 1, by decide, by decide, by decide, by decide⟩

/-! ## CAD files and geometry -/

/-- **C105**, files. For every directory: the loop ends if and only if some number from 1 on has no readable file; it has then read
exactly the files 1, ..., k where k + 1 is the first number without one. Files after a gap are ignored. -/
theorem C105_files (good : String → Prop) (path kind : String) :
    ((∃ r, CadLoop good path kind 1 [] r) ↔ ∃ i, 1 ≤ i ∧ ¬ good (cadFile path kind i)) ∧
    ∀ r, CadLoop good path kind 1 [] r ↔
      ∃ k, r = (List.range k).map (· + 1) ∧ (∀ i, 1 ≤ i → i ≤ k → good (cadFile path kind i)) ∧
        ¬ good (cadFile path kind (k + 1)) := by
  have fwd : ∀ ii acc r, CadLoop good path kind ii acc r →
      ∃ k, r = acc ++ (List.range k).map (· + ii) ∧ (∀ i, ii ≤ i → i < ii + k → good (cadFile path kind i)) ∧
        ¬ good (cadFile path kind (ii + k)) := by
    intro ii acc r h
    induction h with
    | stop ii acc h => exact ⟨0, by simp, fun i h1 h2 => by omega, h⟩
    | next ii acc r h _ ih =>
      obtain ⟨k, hr, hg, hb⟩ := ih
      refine ⟨k + 1, ?_, fun i h1 h2 => ?_, by rw [show ii + (k + 1) = ii + 1 + k by ring]; exact hb⟩
      · rw [hr, List.range_succ_eq_map]
        simp only [List.append_assoc, List.map_cons, List.map_map, zero_add, List.singleton_append]
        congr 2
        apply List.map_congr_left
        intro a _
        simp only [Function.comp_apply, Nat.succ_eq_add_one]
        ring
      · rcases Nat.eq_or_lt_of_le h1 with rfl | h1
        · exact h
        · exact hg i h1 (by omega)
  have bwd : ∀ k ii acc, (∀ i, ii ≤ i → i < ii + k → good (cadFile path kind i)) → ¬ good (cadFile path kind (ii + k)) →
      CadLoop good path kind ii acc (acc ++ (List.range k).map (· + ii)) := by
    intro k
    induction k with
    | zero => intro ii acc _ hb; simpa using CadLoop.stop ii acc hb
    | succ k ih =>
      intro ii acc hg hb
      refine .next ii acc _ (hg ii le_rfl (by omega)) ?_
      have := ih (ii + 1) (acc ++ [ii]) (fun i h1 h2 => hg i (by omega) (by omega))
        (by rw [show ii + 1 + k = ii + (k + 1) by ring]; exact hb)
      have he : acc ++ [ii] ++ (List.range k).map (· + (ii + 1)) = acc ++ (List.range (k + 1)).map (· + ii) := by
        rw [List.range_succ_eq_map]
        simp only [List.append_assoc, List.map_cons, List.map_map, zero_add, List.singleton_append]
        congr 2
        apply List.map_congr_left
        intro a _
        simp only [Function.comp_apply, Nat.succ_eq_add_one]
        ring
      rwa [he] at this
  have main : ∀ r, CadLoop good path kind 1 [] r ↔
      ∃ k, r = (List.range k).map (· + 1) ∧ (∀ i, 1 ≤ i → i ≤ k → good (cadFile path kind i)) ∧
        ¬ good (cadFile path kind (k + 1)) := by
    intro r
    constructor
    · intro h
      obtain ⟨k, hr, hg, hb⟩ := fwd 1 [] r h
      exact ⟨k, by simpa using hr, fun i h1 h2 => hg i h1 (by omega), by rwa [Nat.add_comm] at hb⟩
    · rintro ⟨k, rfl, hg, hb⟩
      have := bwd k 1 [] (fun i h1 h2 => hg i h1 (by omega)) (by rwa [Nat.add_comm])
      simpa using this
  refine ⟨⟨?_, ?_⟩, main⟩
  · rintro ⟨r, hr⟩
    obtain ⟨k, -, -, hb⟩ := (main r).1 hr
    exact ⟨k + 1, by omega, hb⟩
  · intro h
    classical
    have h' : ∃ i, ¬ good (cadFile path kind (i + 1)) := by
      obtain ⟨i, h1, h2⟩ := h
      exact ⟨i - 1, by rwa [Nat.sub_add_cancel h1]⟩
    refine ⟨_, (main _).2 ⟨Nat.find h', rfl, fun i h1 h2 => ?_, Nat.find_spec h'⟩⟩
    have := Nat.find_min h' (m := i - 1) (by omega)
    rw [Nat.sub_add_cancel h1] at this
    exact not_not.1 this

/-- **C105**, tolerance. The tolerance of the projectors is the given ratio times the largest tolerance of all shapes; with no shape
it is 0. -/
theorem C105_tolerance (ratio : ℝ) (surfaces curves : List ℝ) (h : ∀ t ∈ surfaces ++ curves, 0 ≤ t) :
    ∃ t, projTol ratio surfaces curves = ratio * t ∧ (∀ x ∈ surfaces ++ curves, x ≤ t) ∧
      (surfaces ++ curves ≠ [] → t ∈ surfaces ++ curves) ∧ (surfaces ++ curves = [] → t = 0) := by
  have key : ∀ (l : List ℝ) (a : ℝ), (∀ x ∈ l, x ≤ l.foldl max a) ∧ a ≤ l.foldl max a ∧ (l.foldl max a = a ∨ l.foldl max a ∈ l) := by
    intro l
    induction l with
    | nil => intro a; simp
    | cons y l ih =>
      intro a
      obtain ⟨h1, h2, h3⟩ := ih (max a y)
      refine ⟨fun x hx => ?_, le_trans (le_max_left _ _) h2, ?_⟩
      · rcases List.mem_cons.1 hx with rfl | hx
        · exact le_trans (le_max_right _ _) h2
        · exact h1 x hx
      · rw [List.foldl_cons]
        rcases h3 with h3 | h3
        · rw [h3]
          rcases max_choice a y with h | h
          · exact .inl h
          · exact .inr (by rw [h]; exact List.mem_cons_self)
        · exact .inr (List.mem_cons_of_mem _ h3)
  refine ⟨maxTol surfaces curves, rfl, ?_, ?_, ?_⟩
  · unfold maxTol
    rw [← List.foldl_append]
    exact (key _ 0).1
  · unfold maxTol
    rw [← List.foldl_append]
    intro hne
    rcases (key (surfaces ++ curves) 0).2.2 with h0 | h0
    · rw [h0]
      obtain ⟨x, hx⟩ := List.exists_mem_of_ne_nil _ hne
      have h1 := (key (surfaces ++ curves) 0).1 x hx
      rw [h0] at h1
      rw [← le_antisymm h1 (h x hx)]
      exact hx
    · exact h0
  · intro he
    unfold maxTol
    rw [← List.foldl_append, he]
    rfl

/-- **C105**, geometry. With one of the three names of the grids of the sphere and the circle every new vertex is put on the sphere,
whatever ids the file contains and whatever CAD files there are. With any other name (also another path to the same file) it is put
on the curve or surface of its id if CAD is used, and on no curved surface otherwise. -/
theorem C105_geometry {Obj : Type} (name : String) (ids : Obj → ℕ) (cad : Bool) (nS nC : ℕ) (o : Obj) :
    (name ∈ ["../grids/coarse_sphere", "../grids/coarse_sphere_double_nodes", "../grids/circle"] →
      placeOf name ids cad nS nC o = .sphere ∧ (readDomain name ids).2 = true) ∧
    (name ∉ ["../grids/coarse_sphere", "../grids/coarse_sphere_double_nodes", "../grids/circle"] →
      (readDomain name ids).2 = false ∧
      placeOf name ids cad nS nC o =
        if cad = true ∧ 11 ≤ ids o ∧ ids o < 11 + nC then .cad (.curve (ids o - 11))
        else if cad = true ∧ 1 ≤ ids o ∧ ids o < 1 + nS then .cad (.surface (ids o - 1)) else .flat) := by
  have hset : ∀ k, setManifolds nS nC (fun _ => none) k = if 11 ≤ k ∧ k < 11 + nC then some (.curve (k - 11)) else
      if 1 ≤ k ∧ k < 1 + nS then some (.surface (k - 1)) else none := by
    intro k
    unfold setManifolds
    rw [foldl_update (fun i => some (Manifold.curve i)) 11, foldl_update (fun i => some (Manifold.surface i)) 1]
  have hmem : name ∈ ["../grids/coarse_sphere", "../grids/coarse_sphere_double_nodes", "../grids/circle"] ↔
      (name = "../grids/coarse_sphere" ∨ name = "../grids/coarse_sphere_double_nodes" ∨ name = "../grids/circle") := by
    simp
  rw [hmem]
  constructor
  · intro h
    cases cad <;> simp [placeOf, readDomain, h, hset]
  · intro h
    refine ⟨by simp only [readDomain, if_neg h], ?_⟩
    simp only [placeOf, readDomain, if_neg h]
    cases cad
    · simp
    · simp only [if_true, hset, true_and, Bool.false_and]
      split_ifs <;> simp_all

/-- The hypotheses are met and the cases differ. -/
theorem C105_example :
    CadLoop (fun f => f ∈ ["./Color_1.iges", "./Color_2.iges", "./Color_4.iges"]) "./" "Color" 1 [] [1, 2] ∧
    placeOf "../grids/coarse_sphere" (fun _ : Unit => 12) true 3 2 () = .sphere ∧
    placeOf "grids/coarse_sphere" (fun _ : Unit => 12) true 3 2 () = .cad (.curve 1) ∧
    placeOf "grids/coarse_sphere" (fun _ : Unit => 0) true 3 2 () = .flat := by
  refine ⟨((C105_files _ _ _).2 _).2 ⟨2, by decide, ?_, by decide⟩, by decide, by decide, by decide⟩
  intro i h1 h2
  interval_cases i <;> decide

end PiBem.App.Setup
