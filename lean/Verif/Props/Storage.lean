import Verif.Expansion.Storage

/-!
# C16, C17, C18: storage of the coefficients
-/

namespace PiBem.Expansion

/-! ## C16 -/

/-- The coefficients of an expansion of order `p`: `0 ≤ m ≤ n ≤ p`. -/
def triPairs (p : UInt32) : Set (UInt32 × UInt32) := {c | c.2 ≤ c.1 ∧ c.1 ≤ p}

theorem tri_le {p n : UInt32} (h : (p.toNat + 1) * (p.toNat + 2) < 2 ^ 32) (hn : n.toNat ≤ p.toNat) :
    (n.toNat + 1) * (n.toNat + 2) < 2 ^ 32 :=
  lt_of_le_of_lt (Nat.mul_le_mul (by omega) (by omega)) h

/-- **C16**, positions. For every order `p ≤ 65534` the coefficients `(n,m)`, `0 ≤ m ≤ n ≤ p` are in
bijection with the positions of the allocated array. -/
theorem C16_positions (p : UInt32) (hp : p.toNat ≤ 65534) :
    Set.BijOn (fun c : UInt32 × UInt32 => (triIndex c.1 c.2).toNat) (triPairs p)
      {i | i < (triSize p).toNat} := by
  have h : (p.toNat + 1) * (p.toNat + 2) < 2 ^ 32 :=
    lt_of_le_of_lt (Nat.mul_le_mul (by omega : _ ≤ 65535) (by omega : _ ≤ 65536)) (by norm_num)
  refine ⟨?_, ?_, ?_⟩
  · rintro ⟨n, m⟩ ⟨hm, hn⟩
    have hm' := UInt32.le_iff_toNat_le.mp hm
    have hn' := UInt32.le_iff_toNat_le.mp hn
    simp only [Set.mem_ofPred_eq]
    rw [triIndex_toNat (tri_le h hn') hm', triSize_toNat h]
    exact tri_lt hm' (Nat.lt_succ_of_le hn')
  · rintro ⟨n, m⟩ ⟨hm, hn⟩ ⟨n', m'⟩ ⟨hm2, hn2⟩ he
    have a1 := UInt32.le_iff_toNat_le.mp hm
    have a2 := UInt32.le_iff_toNat_le.mp hn
    have a3 := UInt32.le_iff_toNat_le.mp hm2
    have a4 := UInt32.le_iff_toNat_le.mp hn2
    simp only at he a1 a2 a3 a4
    rw [triIndex_toNat (tri_le h a2) a1, triIndex_toNat (tri_le h a4) a3] at he
    obtain ⟨r1, r2⟩ := tri_inj a1 a3 he
    exact Prod.ext (UInt32.toNat_inj.mp r1) (UInt32.toNat_inj.mp r2)
  · intro i hi
    simp only [Set.mem_ofPred_eq] at hi
    rw [triSize_toNat h] at hi
    obtain ⟨n, m, hm, hnm⟩ := tri_surj i
    have hn : n ≤ p.toNat := by
      by_contra hc
      have := tri_mono (show p.toNat + 1 ≤ n by omega)
      have e : (p.toNat + 1) * (p.toNat + 1 + 1) / 2 = (p.toNat + 1) * (p.toNat + 2) / 2 := rfl
      omega
    have en : (UInt32.ofNat n).toNat = n := by
      rw [UInt32.toNat_ofNat']; exact Nat.mod_eq_of_lt (by omega)
    have em : (UInt32.ofNat m).toNat = m := by
      rw [UInt32.toNat_ofNat']; exact Nat.mod_eq_of_lt (by omega)
    refine ⟨(UInt32.ofNat n, UInt32.ofNat m), ⟨?_, ?_⟩, ?_⟩
    · exact UInt32.le_iff_toNat_le.mpr (by simp only [en, em]; exact hm)
    · exact UInt32.le_iff_toNat_le.mpr (by simp only [en]; exact hn)
    · simp only
      rw [triIndex_toNat (by rw [en]; exact lt_of_le_of_lt (Nat.mul_le_mul (by omega) (by omega)) h)
        (by rw [en, em]; exact hm), en, em]
      exact hnm

/-- **C16**, behaviour. In an array of the allocated length, every coefficient can be read and written;
what is written at `(n,m)` is read back at `(n,m)` and no other coefficient changes; `AddToCoeff` adds. -/
theorem C16_read_write {α : Type} [Add α] (p : UInt32) (hp : p.toNat ≤ 65534) (a : List α)
    (ha : a.length = (triSize p).toNat) (n m : UInt32) (hnm : (n, m) ∈ triPairs p) (v : α) :
    (∃ old, triGet a n m = some old ∧
      (∃ b, triAdd a n m v = some b ∧ b.length = a.length ∧
        ∀ n' m', (n', m') ∈ triPairs p →
          triGet b n' m' = if n' = n ∧ m' = m then some (old + v) else triGet a n' m')) ∧
    (∃ b, triSet a n m v = some b ∧ b.length = a.length ∧
        ∀ n' m', (n', m') ∈ triPairs p →
          triGet b n' m' = if n' = n ∧ m' = m then some v else triGet a n' m') := by
  have hb := C16_positions p hp
  have hin : (triIndex n m).toNat < a.length := by
    have h0 := hb.mapsTo hnm
    simp only [Set.mem_ofPred_eq] at h0
    rw [ha]; exact h0
  have key : ∀ (w : α) (b : List α), memSet a (triIndex n m) w = some b → ∀ n' m', (n', m') ∈ triPairs p →
      triGet b n' m' = if n' = n ∧ m' = m then some w else triGet a n' m' := by
    intro w b hs n' m' h'
    unfold triGet
    rw [memGet_set hs]
    by_cases hc : n' = n ∧ m' = m
    · rw [if_pos hc, if_pos (by rw [hc.1, hc.2])]
    · rw [if_neg hc, if_neg]
      intro he
      have := hb.2.1 h' hnm (by simp only; rw [he])
      simp only [Prod.mk.injEq] at this
      exact hc this
  refine ⟨⟨a[(triIndex n m).toNat], memGet_isSome hin, a.set (triIndex n m).toNat
      (a[(triIndex n m).toNat] + v), ?_, by simp, ?_⟩, ⟨a.set (triIndex n m).toNat v, ?_, by simp, ?_⟩⟩
  · unfold triAdd
    rw [memGet_isSome hin]
    exact memSet_isSome hin
  · exact key _ _ (memSet_isSome hin)
  · exact memSet_isSome hin
  · exact key _ _ (memSet_isSome hin)

/-- **C16**, construction. The array of a new expansion of every order `p ≤ 65534` has as many elements as there are coefficients, every
coefficient is in it and is zero. -/
theorem C16_new {α : Type} (zero : α) (p : UInt32) (hp : p.toNat ≤ 65534) :
    (triNew zero p).length = (p.toNat + 1) * (p.toNat + 2) / 2 ∧
      ∀ n m, m ≤ n → n ≤ p → triGet (triNew zero p) n m = some zero := by
  have h : (p.toNat + 1) * (p.toNat + 2) < 2 ^ 32 :=
    lt_of_le_of_lt (Nat.mul_le_mul (by omega : _ ≤ 65535) (by omega : _ ≤ 65536)) (by norm_num)
  have hl : (triNew zero p).length = (triSize p).toNat := by
    unfold triNew; rw [List.length_replicate]
  refine ⟨by rw [hl, triSize_toNat h], fun n m hm hn => ?_⟩
  have hin : (triIndex n m).toNat < (triNew zero p).length := by
    have h0 := (C16_positions p hp).mapsTo (show (n, m) ∈ triPairs p from ⟨hm, hn⟩)
    simp only [Set.mem_ofPred_eq] at h0
    rw [hl]; exact h0
  unfold triGet
  rw [memGet_isSome hin]
  congr 1
  exact List.eq_of_mem_replicate (List.getElem_mem hin)

/-- The bound of C16 is sharp: at order 65535 the product `(p+1)*(p+2)` overflows and the array is too
short even for coefficient `(p,0)`. -/
theorem C16_overflow : triGet (triNew (0 : ℕ) 65535) 65535 0 = none := by
  unfold triGet memGet
  rw [List.getElem?_eq_none_iff]
  unfold triNew
  rw [List.length_replicate]
  decide

/-- Non-vacuity of C16: order 10, coefficient (7,3). -/
example : triGet ((triSet (triNew (0 : ℕ) 10) 7 3 5).getD []) 7 3 = some 5 ∧
    triGet ((triSet (triNew (0 : ℕ) 10) 7 3 5).getD []) 7 4 = some 0 ∧
    ((7 : UInt32), (3 : UInt32)) ∈ triPairs 10 := by
  refine ⟨by decide, by decide, ?_, ?_⟩ <;> decide

/-! ## C17 -/

/-- The coefficients of the conversion table of order `p`: `0 ≤ m ≤ n ≤ p`, `0 ≤ nn ≤ p`, `|mm| ≤ nn`. -/
def quadCoeffs (p : UInt32) : Set (UInt32 × UInt32 × UInt32 × ℤ) :=
  {c | c.2.1 ≤ c.1 ∧ c.1 ≤ p ∧ c.2.2.1 ≤ p ∧ |c.2.2.2| ≤ c.2.2.1.toNat}

theorem quad_bound {p : UInt32} (hp : p.toNat ≤ 254) : (p.toNat + 1) ^ 3 * (p.toNat + 2) < 2 ^ 32 :=
  lt_of_le_of_lt (Nat.mul_le_mul (Nat.pow_le_pow_left (by omega : _ ≤ 255) 3) (by omega : _ ≤ 256))
    (by norm_num)

/-- **C17**, positions. For every order `p ≤ 254` the quadruples of indices (with `mm` negative too,
converted to `unsigned int` by the call) are in bijection with the positions of the allocated table. -/
theorem C17_positions (p : UInt32) (hp : p.toNat ≤ 254) :
    Set.BijOn (fun c : UInt32 × UInt32 × UInt32 × ℤ => (quadIndex p c.1 c.2.1 c.2.2.1 (toU32 c.2.2.2)).toNat)
      (quadCoeffs p) {i | i < (quadSize p).toNat} := by
  have h := quad_bound hp
  refine ⟨?_, ?_, ?_⟩
  · rintro ⟨n, m, nn, mm⟩ ⟨hm, hn, hnn, hmm⟩
    have a1 := UInt32.le_iff_toNat_le.mp hm
    have a2 := UInt32.le_iff_toNat_le.mp hn
    have a3 := UInt32.le_iff_toNat_le.mp hnn
    obtain ⟨a4, a5⟩ := abs_le.mp hmm
    simp only at a1 a2 a3 a4 a5
    simp only [Set.mem_ofPred_eq]
    have e := quadIndex_toNat h a2 a1 a3 a4 a5
    have l := (quadPos_lt a2 a1 a3 a4 a5).2
    rw [← e, ] at l
    rw [quadSize_toNat h]
    exact_mod_cast l
  · rintro ⟨n, m, nn, mm⟩ ⟨hm, hn, hnn, hmm⟩ ⟨n', m', nn', mm'⟩ ⟨hm', hn', hnn', hmm'⟩ he
    have a1 := UInt32.le_iff_toNat_le.mp hm
    have a2 := UInt32.le_iff_toNat_le.mp hn
    have a3 := UInt32.le_iff_toNat_le.mp hnn
    obtain ⟨a4, a5⟩ := abs_le.mp hmm
    have b1 := UInt32.le_iff_toNat_le.mp hm'
    have b2 := UInt32.le_iff_toNat_le.mp hn'
    have b3 := UInt32.le_iff_toNat_le.mp hnn'
    obtain ⟨b4, b5⟩ := abs_le.mp hmm'
    simp only at a1 a2 a3 a4 a5 b1 b2 b3 b4 b5 he
    have he' : quadPos p.toNat n.toNat m.toNat nn.toNat mm = quadPos p.toNat n'.toNat m'.toNat nn'.toNat mm' := by
      rw [← quadIndex_toNat h a2 a1 a3 a4 a5, ← quadIndex_toNat h b2 b1 b3 b4 b5, he]
    obtain ⟨r1, r2, r3, r4⟩ := quadPos_inj a1 a3 a4 a5 b1 b3 b4 b5 he'
    rw [UInt32.toNat_inj.mp r1, UInt32.toNat_inj.mp r2, UInt32.toNat_inj.mp r3, r4]
  · intro i hi
    simp only [Set.mem_ofPred_eq] at hi
    rw [quadSize_toNat h] at hi
    obtain ⟨n, m, nn, mm, hn, hm, hnn, h1, h2, hx⟩ := quadPos_surj hi
    have cast : ∀ k : ℕ, k ≤ p.toNat → (UInt32.ofNat k).toNat = k := by
      intro k hk
      rw [UInt32.toNat_ofNat']; exact Nat.mod_eq_of_lt (by omega)
    have en := cast n hn
    have em := cast m (by omega)
    have ek := cast nn hnn
    refine ⟨(UInt32.ofNat n, UInt32.ofNat m, UInt32.ofNat nn, mm), ⟨?_, ?_, ?_, ?_⟩, ?_⟩
    · exact UInt32.le_iff_toNat_le.mpr (by simp only [en, em]; exact hm)
    · exact UInt32.le_iff_toNat_le.mpr (by simp only [en]; exact hn)
    · exact UInt32.le_iff_toNat_le.mpr (by simp only [ek]; exact hnn)
    · simp only [ek]; exact abs_le.mpr ⟨h1, h2⟩
    · have e := quadIndex_toNat (p := p) (n := UInt32.ofNat n) (m := UInt32.ofNat m) (nn := UInt32.ofNat nn)
        (mm := mm) h (by rw [en]; exact hn) (by rw [en, em]; exact hm) (by rw [ek]; exact hnn)
        (by rw [ek]; exact h1) (by rw [ek]; exact h2)
      rw [en, em, ek, hx] at e
      exact_mod_cast e

/-- **C17**, behaviour: in a table of the allocated length every coefficient can be read and written, and
writing one coefficient changes exactly that one. -/
theorem C17_read_write {α : Type} (p : UInt32) (hp : p.toNat ≤ 254) (a : List α)
    (ha : a.length = (quadSize p).toNat) (n m nn : UInt32) (mm : ℤ) (hc : (n, m, nn, mm) ∈ quadCoeffs p)
    (v : α) :
    (quadGet p a n m nn mm).isSome ∧
    ∃ b, quadSet p a n m nn mm v = some b ∧ b.length = a.length ∧
      ∀ n' m' nn' mm', (n', m', nn', mm') ∈ quadCoeffs p →
        quadGet p b n' m' nn' mm' =
          if (n', m', nn', mm') = (n, m, nn, mm) then some v else quadGet p a n' m' nn' mm' := by
  have hb := C17_positions p hp
  have hin : (quadIndex p n m nn (toU32 mm)).toNat < a.length := by
    have h0 := hb.mapsTo hc
    simp only [Set.mem_ofPred_eq] at h0
    rw [ha]; exact h0
  refine ⟨?_, a.set (quadIndex p n m nn (toU32 mm)).toNat v, memSet_isSome hin, by simp, ?_⟩
  · unfold quadGet; rw [memGet_isSome hin]; rfl
  · intro n' m' nn' mm' h'
    unfold quadGet
    rw [memGet_set (memSet_isSome hin)]
    by_cases he : (n', m', nn', mm') = (n, m, nn, mm)
    · rw [if_pos he]
      simp only [Prod.mk.injEq] at he
      obtain ⟨r1, r2, r3, r4⟩ := he
      rw [if_pos (by rw [r1, r2, r3, r4])]
    · rw [if_neg he, if_neg]
      intro hi
      exact he (hb.2.1 h' hc (by simp only; rw [hi]))

/-- The bound of C17 is sharp: at order 255 the size of the table overflows and the access to coefficient
`(255, 0, 0, 0)` is outside the allocated memory. -/
theorem C17_overflow (a : List ℕ) (ha : a.length = (quadSize 255).toNat) :
    quadGet 255 a 100 0 0 0 = none := by
  unfold quadGet memGet
  rw [List.getElem?_eq_none_iff, ha]
  decide

/-- Non-vacuity of C17: the table of order 10 used by the program, a negative `mm`. -/
example : ((10 : UInt32), (4 : UInt32), (7 : UInt32), (-7 : ℤ)) ∈ quadCoeffs 10 ∧
    (quadIndex 10 10 4 7 (toU32 (-7))).toNat = 7188 ∧ (quadSize 10).toNat = 7986 := by
  refine ⟨⟨by decide, by decide, by decide, by decide⟩, by decide, by decide⟩

/-! ## C18 -/

theorem coeffCopy_prefix {β : Type} (p : UInt32) (fresh src : List β) (k : ℕ)
    (hk : 8 * (k + 1) ≤ (quadSize p).toNat) (hs : 8 * (quadSize p).toNat ≤ src.length) :
    doubleAt (coeffCopy p fresh src) k = doubleAt src k := by
  unfold doubleAt coeffCopy memcpy
  set N := (quadSize p).toNat
  apply List.ext_getElem?
  intro i
  by_cases hi : i < 8
  · rw [List.getElem?_take_of_lt hi, List.getElem?_take_of_lt hi, List.getElem?_drop, List.getElem?_drop,
      List.getElem?_append_left (by rw [List.length_take]; omega), List.getElem?_take_of_lt (by omega)]
  · rw [List.getElem?_eq_none (by rw [List.length_take]; omega),
      List.getElem?_eq_none (by rw [List.length_take]; omega)]

theorem coeffCopy_suffix {β : Type} (p : UInt32) (fresh src : List β) (k : ℕ)
    (hk : (quadSize p).toNat ≤ 8 * k) (hs : 8 * (quadSize p).toNat ≤ src.length) :
    doubleAt (coeffCopy p fresh src) k = doubleAt fresh k := by
  unfold doubleAt coeffCopy memcpy
  set N := (quadSize p).toNat
  have hl : (src.take N).length = N := by rw [List.length_take]; omega
  rw [List.drop_append, List.drop_eq_nil_of_le (by omega), List.nil_append, hl, List.drop_drop]
  congr 2
  omega

/-- **C18** (refutation and exact content). The copy constructor copies one eighth of the table: an entry
whose bytes end within the first `N` bytes (`N` the number of entries) equals the original one, an entry
beginning after them is indeterminate memory; hence for every order and every original there is a content
of the fresh memory for which the copy differs from the original. -/
theorem C18_copy_keeps_prefix {β : Type} [Nontrivial β] (p : UInt32) (hp : p.toNat ≤ 254) (src : List β)
    (hs : src.length = 8 * (quadSize p).toNat) :
    (∀ fresh : List β, ∀ k, 8 * (k + 1) ≤ (quadSize p).toNat →
      doubleAt (coeffCopy p fresh src) k = doubleAt src k) ∧
    (∀ fresh : List β, ∀ k, (quadSize p).toNat ≤ 8 * k →
      doubleAt (coeffCopy p fresh src) k = doubleAt fresh k) ∧
    ∃ fresh : List β, fresh.length = src.length ∧ coeffCopy p fresh src ≠ src := by
  refine ⟨fun fresh k hk => coeffCopy_prefix p fresh src k hk hs.ge,
    fun fresh k hk => coeffCopy_suffix p fresh src k hk hs.ge, ?_⟩
  have hpos : 0 < (quadSize p).toNat := by
    rw [quadSize_toNat (quad_bound hp)]
    apply Nat.mul_pos (by positivity)
    have : 2 ≤ (p.toNat + 1) * (p.toNat + 2) := by nlinarith
    omega
  set N := (quadSize p).toNat with hN
  obtain ⟨b, hb⟩ := exists_ne (src[N]'(by omega))
  refine ⟨List.replicate src.length b, by simp, ?_⟩
  intro he
  have h1 : (coeffCopy p (List.replicate src.length b) src)[N]? = some b := by
    unfold coeffCopy memcpy
    rw [← hN, List.getElem?_append_right (by rw [List.length_take]; omega), List.getElem?_drop,
      List.getElem?_replicate, if_pos (by rw [List.length_take]; omega)]
  rw [he, List.getElem?_eq_getElem (by omega)] at h1
  exact hb (Option.some.inj h1).symm

/-- Non-vacuity of C18: for the order 10 of the program entries 0..997 are copied, entries 999..7985 are not. -/
example : (quadSize 10).toNat = 7986 ∧ 8 * (997 + 1) ≤ (quadSize 10).toNat ∧
    (quadSize 10).toNat ≤ 8 * 999 ∧ (10 : UInt32).toNat ≤ 254 := by
  refine ⟨by decide, by decide, by decide, by decide⟩

end PiBem.Expansion
