import Mathlib.Data.Finset.Card
import Mathlib.Data.Finset.Sigma
import Mathlib.Data.Nat.Choose.Basic
import Mathlib.Algebra.BigOperators.Intervals
import Mathlib.Tactic.Ring
import Mathlib.Tactic.Linarith
import Mathlib.Tactic.NormNum
import Mathlib.Tactic.IntervalCases
import Mathlib.Data.Set.Function

/-!
# Storage of the coefficients of the expansions

`MultipoleExpansion`, `LocalExpansion` keep the coefficients `(n,m)`, `0 ≤ m ≤ n ≤ p` in a flat array;
`LocalExpansionCoeff` keeps the four index table of the multipole-to-local conversion in a flat array.
Indices are `unsigned int`, i.e. arithmetic modulo `2^32` (`UInt32`). An access outside the array is
undefined behaviour: `none`.
-/

namespace PiBem.Expansion

/-! ## Flat memory -/

/-- Reading an element of a heap array: out of bounds is undefined behaviour. -/
def memGet {α : Type} (a : List α) (i : UInt32) : Option α := a[i.toNat]?

/-- Writing an element of a heap array: out of bounds is undefined behaviour. -/
def memSet {α : Type} (a : List α) (i : UInt32) (v : α) : Option (List α) :=
  if i.toNat < a.length then some (a.set i.toNat v) else none

/-! ## Triangular arrays -/

/-- Position of coefficient `(n,m)`: multipole_expansion.h:98, 104, 110 and local_expansion.h:90, 96, 102,
`(n) * (n + 1) / 2 + m` in `unsigned int`. -/
def triIndex (n m : UInt32) : UInt32 := n * (n + 1) / 2 + m

/-- Length of the array allocated by the constructors: multipole_expansion.cc:31, 42, 59,
local_expansion.cc:38, 51, 72, `(p + 1) * (p + 2) / 2`. -/
def triSize (p : UInt32) : UInt32 := (p + 1) * (p + 2) / 2

/-- Memory of a freshly constructed expansion (multipole_expansion.cc:31-33, local_expansion.cc:38-40). -/
def triNew {α : Type} (zero : α) (p : UInt32) : List α := List.replicate (triSize p).toNat zero

/-- `GetCoeff` (multipole_expansion.h:95-99, local_expansion.h:87-91). -/
def triGet {α : Type} (a : List α) (n m : UInt32) : Option α := memGet a (triIndex n m)

/-- `SetCoeff` (multipole_expansion.h:101-105, local_expansion.h:93-97). -/
def triSet {α : Type} (a : List α) (n m : UInt32) (v : α) : Option (List α) := memSet a (triIndex n m) v

/-- `AddToCoeff` (multipole_expansion.h:107-111, local_expansion.h:99-103). -/
def triAdd {α : Type} [Add α] (a : List α) (n m : UInt32) (v : α) : Option (List α) := do
  let old ← memGet a (triIndex n m)
  memSet a (triIndex n m) (old + v)

/-! ## Four index table -/

/-- Conversion `int → unsigned int` made when a (possibly negative) `mm` is passed to `get`/`set`
(local_expansion.h:160, local_expansion.cc:220, 234): reduction modulo `2^32`. -/
def toU32 (z : ℤ) : UInt32 := UInt32.ofNat (z % 2 ^ 32).toNat

/-- `getNNOffset` (local_expansion_coeff.cc:66-70). -/
def nnOffset (nn : UInt32) : UInt32 := nn * nn

/-- `getMOffset` (local_expansion_coeff.cc:72-76). -/
def mOffset (p m : UInt32) : UInt32 := (p + 1) * (p + 1) * m

/-- `getNOffset` (local_expansion_coeff.cc:78-82). -/
def nOffset (p n : UInt32) : UInt32 := ((p + 1) * (p + 1) * (n + 1) * n) / 2

/-- Index used by `get` and `set` (local_expansion_coeff.cc:53, 63). -/
def quadIndex (p n m nn mm : UInt32) : UInt32 := (mm + nn) + nnOffset nn + mOffset p m + nOffset p n

/-- `getNumberOfElements` (local_expansion_coeff.cc:41-45) and allocation (26, 32). -/
def quadSize (p : UInt32) : UInt32 := (p + 1) * (p + 1) * (p + 1) * (p + 2) / 2

/-- `LocalExpansionCoeff::get` (local_expansion_coeff.cc:47-54). -/
def quadGet {α : Type} (p : UInt32) (a : List α) (n m nn : UInt32) (mm : ℤ) : Option α :=
  memGet a (quadIndex p n m nn (toU32 mm))

/-- `LocalExpansionCoeff::set` (local_expansion_coeff.cc:56-64). -/
def quadSet {α : Type} (p : UInt32) (a : List α) (n m nn : UInt32) (mm : ℤ) (v : α) : Option (List α) :=
  memSet a (quadIndex p n m nn (toU32 mm)) v

/-! ## Copy of the four index table -/

/-- `memcpy(dst, src, k)` on byte arrays: the first `k` bytes of `dst` become those of `src`. -/
def memcpy {β : Type} (dst src : List β) (k : ℕ) : List β := src.take k ++ dst.drop k

/-- The bytes of the table built by the copy constructor (local_expansion_coeff.cc:29-34) from the bytes
`src` of the original. `fresh` is the (indeterminate) content of the memory returned by `new double[N]`,
`8 * N` bytes. The last argument of `memcpy` is `getNumberOfElements()`, not multiplied by `sizeof(double)`. -/
def coeffCopy {β : Type} (p : UInt32) (fresh src : List β) : List β := memcpy fresh src (quadSize p).toNat

/-- The bytes of the `k`-th double of a byte array. -/
def doubleAt {β : Type} (bytes : List β) (k : ℕ) : List β := (bytes.drop (8 * k)).take 8

/-! ## Arithmetic of the indices -/

theorem toNat_one' : (1 : UInt32).toNat = 1 := rfl
theorem toNat_two' : (2 : UInt32).toNat = 2 := rfl

theorem tri_succ (n : ℕ) : (n + 1) * (n + 1 + 1) / 2 = n * (n + 1) / 2 + (n + 1) := by
  have : (n + 1) * (n + 1 + 1) = n * (n + 1) + (n + 1) * 2 := by ring
  rw [this, Nat.add_mul_div_right _ _ (by norm_num)]

theorem tri_mono {a b : ℕ} (h : a ≤ b) : a * (a + 1) / 2 ≤ b * (b + 1) / 2 :=
  Nat.div_le_div_right (Nat.mul_le_mul h (by omega))

theorem tri_lt {n m k : ℕ} (hm : m ≤ n) (h : n < k) : n * (n + 1) / 2 + m < k * (k + 1) / 2 := by
  have h1 := tri_mono (show n + 1 ≤ k from h)
  have h2 := tri_succ n
  have h3 : (n + 1) * (n + 1 + 1) / 2 ≤ k * (k + 1) / 2 := h1
  omega

theorem tri_surj (N : ℕ) : ∃ n m, m ≤ n ∧ n * (n + 1) / 2 + m = N := by
  induction N with
  | zero => exact ⟨0, 0, le_refl _, rfl⟩
  | succ N ih =>
    obtain ⟨n, m, hm, h⟩ := ih
    by_cases hc : m = n
    · refine ⟨n + 1, 0, by omega, ?_⟩
      rw [tri_succ]; omega
    · exact ⟨n, m + 1, by omega, by omega⟩

theorem tri_inj {n m n' m' : ℕ} (hm : m ≤ n) (hm' : m' ≤ n')
    (h : n * (n + 1) / 2 + m = n' * (n' + 1) / 2 + m') : n = n' ∧ m = m' := by
  rcases lt_trichotomy n n' with hl | he | hl
  · have := tri_lt hm hl; omega
  · subst he; exact ⟨rfl, by omega⟩
  · have := tri_lt hm' hl; omega

theorem u32_succ {p : UInt32} (h : p.toNat + 1 < 2 ^ 32) : (p + 1).toNat = p.toNat + 1 := by
  rw [UInt32.toNat_add, toNat_one', Nat.mod_eq_of_lt h]

theorem triIndex_toNat {n m : UInt32} (h : (n.toNat + 1) * (n.toNat + 2) < 2 ^ 32) (hm : m.toNat ≤ n.toNat) :
    (triIndex n m).toNat = n.toNat * (n.toNat + 1) / 2 + m.toNat := by
  have h0 : n.toNat + 1 < 2 ^ 32 := by nlinarith
  have h1 : n.toNat * (n.toNat + 1) < 2 ^ 32 := by nlinarith
  unfold triIndex
  rw [UInt32.toNat_add, UInt32.toNat_div, UInt32.toNat_mul, u32_succ h0, toNat_two',
    Nat.mod_eq_of_lt h1, Nat.mod_eq_of_lt]
  have h2 := tri_lt hm (Nat.lt_succ_self n.toNat)
  have h3 : n.toNat.succ * (n.toNat.succ + 1) / 2 ≤ (n.toNat + 1) * (n.toNat + 2) :=
    Nat.div_le_self _ _
  omega

theorem triSize_toNat {p : UInt32} (h : (p.toNat + 1) * (p.toNat + 2) < 2 ^ 32) :
    (triSize p).toNat = (p.toNat + 1) * (p.toNat + 2) / 2 := by
  have h0 : p.toNat + 2 < 2 ^ 32 := by nlinarith
  unfold triSize
  rw [UInt32.toNat_div, UInt32.toNat_mul, UInt32.toNat_add, UInt32.toNat_add, toNat_one', toNat_two',
    Nat.mod_eq_of_lt (by omega : p.toNat + 1 < 2 ^ 32), Nat.mod_eq_of_lt h0, Nat.mod_eq_of_lt h]

theorem toU32_add {nn : UInt32} {mm : ℤ} (h1 : -(nn.toNat : ℤ) ≤ mm) (h2 : mm ≤ nn.toNat)
    (h : 2 * nn.toNat < 2 ^ 32) : ((toU32 mm + nn).toNat : ℤ) = mm + nn.toNat := by
  have hlt := Int.emod_lt_of_pos mm (by norm_num : (0 : ℤ) < 2 ^ 32)
  have hge := Int.emod_nonneg mm (by norm_num : (2 ^ 32 : ℤ) ≠ 0)
  have e : (toU32 mm).toNat = (mm % 2 ^ 32).toNat := by
    unfold toU32
    rw [UInt32.toNat_ofNat']
    exact Nat.mod_eq_of_lt (by omega)
  rw [UInt32.toNat_add, e]
  omega

/-- The value of the index as a natural number. -/
def quadPos (p n m nn : ℕ) (mm : ℤ) : ℤ :=
  (p + 1 : ℤ) ^ 2 * ((n * (n + 1) / 2 + m : ℕ) : ℤ) + (nn : ℤ) ^ 2 + nn + mm

theorem even_tri (n : ℕ) : 2 * (n * (n + 1) / 2) = n * (n + 1) := by
  have := Nat.even_mul_succ_self n
  obtain ⟨k, hk⟩ := this
  omega

theorem quadIndex_toNat {p n m nn : UInt32} {mm : ℤ}
    (h : (p.toNat + 1) ^ 3 * (p.toNat + 2) < 2 ^ 32) (hn : n.toNat ≤ p.toNat) (hm : m.toNat ≤ n.toNat)
    (hnn : nn.toNat ≤ p.toNat) (h1 : -(nn.toNat : ℤ) ≤ mm) (h2 : mm ≤ nn.toNat) :
    ((quadIndex p n m nn (toU32 mm)).toNat : ℤ) = quadPos p.toNat n.toNat m.toNat nn.toNat mm := by
  set P := p.toNat with hP
  set N := n.toNat with hN
  set M := m.toNat with hM
  set K := nn.toNat with hK
  have hPP : (P + 1) * (P + 1) ≤ (P + 1) ^ 3 * (P + 2) := by
    have : 1 ≤ (P + 1) * (P + 2) := Nat.mul_pos (by omega) (by omega)
    calc (P + 1) * (P + 1) = (P + 1) * (P + 1) * 1 := by ring
      _ ≤ (P + 1) * (P + 1) * ((P + 1) * (P + 2)) := Nat.mul_le_mul_left _ this
      _ = _ := by ring
  have hP1 : P + 1 < 2 ^ 32 := by nlinarith
  have hK2 : 2 * K < 2 ^ 32 := by nlinarith
  have hs : ((toU32 mm + nn).toNat : ℤ) = mm + K := toU32_add h1 h2 hK2
  have hsn : (toU32 mm + nn).toNat = (mm + K).toNat := by omega
  have hp1 : (p + 1).toNat = P + 1 := u32_succ hP1
  have hn1 : (n + 1).toNat = N + 1 := u32_succ (by omega)
  have hpp : ((p + 1) * (p + 1)).toNat = (P + 1) * (P + 1) := by
    rw [UInt32.toNat_mul, hp1, Nat.mod_eq_of_lt (by omega)]
  have hmb : (P + 1) * (P + 1) * M ≤ (P + 1) ^ 3 * (P + 2) := by
    have : M ≤ (P + 1) * (P + 2) := by nlinarith
    calc (P + 1) * (P + 1) * M ≤ (P + 1) * (P + 1) * ((P + 1) * (P + 2)) := Nat.mul_le_mul_left _ this
      _ = _ := by ring
  have hmo : (mOffset p m).toNat = (P + 1) * (P + 1) * M := by
    unfold mOffset
    rw [UInt32.toNat_mul, hpp, ← hM, Nat.mod_eq_of_lt (lt_of_le_of_lt hmb h)]
  have hnb : (P + 1) * (P + 1) * (N + 1) * N ≤ (P + 1) ^ 3 * (P + 2) := by
    have : (N + 1) * N ≤ (P + 1) * (P + 2) := Nat.mul_le_mul (by omega) (by omega)
    calc (P + 1) * (P + 1) * (N + 1) * N = (P + 1) * (P + 1) * ((N + 1) * N) := by ring
      _ ≤ (P + 1) * (P + 1) * ((P + 1) * (P + 2)) := Nat.mul_le_mul_left _ this
      _ = _ := by ring
  have hnb' : (P + 1) * (P + 1) * (N + 1) ≤ (P + 1) ^ 3 * (P + 2) := by
    have : (N + 1) ≤ (P + 1) * (P + 2) := by nlinarith
    calc (P + 1) * (P + 1) * (N + 1) ≤ (P + 1) * (P + 1) * ((P + 1) * (P + 2)) := Nat.mul_le_mul_left _ this
      _ = _ := by ring
  have hno : (nOffset p n).toNat = (P + 1) * (P + 1) * (N * (N + 1) / 2) := by
    unfold nOffset
    rw [UInt32.toNat_div, UInt32.toNat_mul, UInt32.toNat_mul, hpp, hn1, ← hN,
      Nat.mod_eq_of_lt (lt_of_le_of_lt hnb' h), Nat.mod_eq_of_lt (lt_of_le_of_lt hnb h), toNat_two']
    have e := even_tri N
    have : (P + 1) * (P + 1) * (N + 1) * N = 2 * ((P + 1) * (P + 1) * (N * (N + 1) / 2)) := by
      calc (P + 1) * (P + 1) * (N + 1) * N = (P + 1) * (P + 1) * (N * (N + 1)) := by ring
        _ = (P + 1) * (P + 1) * (2 * (N * (N + 1) / 2)) := by rw [e]
        _ = _ := by ring
    rw [this, Nat.mul_div_cancel_left _ (by norm_num)]
  have hko : (nnOffset nn).toNat = K * K := by
    unfold nnOffset
    rw [UInt32.toNat_mul, ← hK, Nat.mod_eq_of_lt]
    have : K * K ≤ (P + 1) * (P + 1) := Nat.mul_le_mul (by omega) (by omega)
    omega
  -- bound of the sum
  have hx : (mm + K).toNat + K * K < (P + 1) * (P + 1) := by
    have a1 : (mm + K).toNat ≤ 2 * K := by omega
    nlinarith
  have hy : N * (N + 1) / 2 + M < (P + 1) * (P + 2) := by
    have := tri_lt hm (Nat.lt_succ_self N)
    have h3 : N.succ * (N.succ + 1) / 2 ≤ (N + 1) * (N + 2) := Nat.div_le_self _ _
    have : (N + 1) * (N + 2) ≤ (P + 1) * (P + 2) := Nat.mul_le_mul (by omega) (by omega)
    omega
  have htot : (mm + K).toNat + K * K + (P + 1) * (P + 1) * M + (P + 1) * (P + 1) * (N * (N + 1) / 2)
      < 2 ^ 32 := by
    have : (P + 1) * (P + 1) * (N * (N + 1) / 2 + M) + (P + 1) * (P + 1) ≤ (P + 1) * (P + 1) * ((P + 1) * (P + 2)) := by
      calc _ = (P + 1) * (P + 1) * (N * (N + 1) / 2 + M + 1) := by ring
        _ ≤ _ := Nat.mul_le_mul_left _ hy
    have e : (P + 1) * (P + 1) * ((P + 1) * (P + 2)) = (P + 1) ^ 3 * (P + 2) := by ring
    have e2 : (P + 1) * (P + 1) * (N * (N + 1) / 2 + M) =
      (P + 1) * (P + 1) * (N * (N + 1) / 2) + (P + 1) * (P + 1) * M := by ring
    omega
  unfold quadIndex
  rw [UInt32.toNat_add, UInt32.toNat_add, UInt32.toNat_add, hsn, hko, hmo, hno, Nat.mod_eq_of_lt (by omega),
    Nat.mod_eq_of_lt (by omega), Nat.mod_eq_of_lt (by omega)]
  unfold quadPos
  have hpos : (0 : ℤ) ≤ mm + K := by omega
  push_cast [Int.toNat_of_nonneg hpos]
  ring

theorem quadSize_toNat {p : UInt32} (h : (p.toNat + 1) ^ 3 * (p.toNat + 2) < 2 ^ 32) :
    (quadSize p).toNat = (p.toNat + 1) ^ 2 * ((p.toNat + 1) * (p.toNat + 2) / 2) := by
  set P := p.toNat with hP
  have k2 : (P + 1) * (P + 1) ≤ (P + 1) ^ 3 * (P + 2) := by
    have : 1 ≤ (P + 1) * (P + 2) := Nat.mul_pos (by omega) (by omega)
    calc (P + 1) * (P + 1) = (P + 1) * (P + 1) * 1 := by ring
      _ ≤ (P + 1) * (P + 1) * ((P + 1) * (P + 2)) := Nat.mul_le_mul_left _ this
      _ = _ := by ring
  have k3 : (P + 1) * (P + 1) * (P + 1) ≤ (P + 1) ^ 3 * (P + 2) := by
    have : P + 1 ≤ (P + 1) * (P + 2) := by nlinarith
    calc (P + 1) * (P + 1) * (P + 1) ≤ (P + 1) * (P + 1) * ((P + 1) * (P + 2)) := Nat.mul_le_mul_left _ this
      _ = _ := by ring
  have hP2 : P + 2 < 2 ^ 32 := by nlinarith
  have e4 : (P + 1) * (P + 1) * (P + 1) * (P + 2) = (P + 1) ^ 3 * (P + 2) := by ring
  unfold quadSize
  rw [UInt32.toNat_div, UInt32.toNat_mul, UInt32.toNat_mul, UInt32.toNat_mul, UInt32.toNat_add,
    UInt32.toNat_add, toNat_one', toNat_two', ← hP, Nat.mod_eq_of_lt (by omega : P + 1 < 2 ^ 32),
    Nat.mod_eq_of_lt hP2, Nat.mod_eq_of_lt (by omega : (P + 1) * (P + 1) < 2 ^ 32),
    Nat.mod_eq_of_lt (lt_of_le_of_lt k3 h), Nat.mod_eq_of_lt (by rw [e4]; exact h)]
  have e := even_tri (P + 1)
  have : (P + 1) * (P + 1) * (P + 1) * (P + 2) = 2 * ((P + 1) ^ 2 * ((P + 1) * (P + 2) / 2)) := by
    calc _ = (P + 1) ^ 2 * ((P + 1) * (P + 1 + 1)) := by ring
      _ = (P + 1) ^ 2 * (2 * ((P + 1) * (P + 1 + 1) / 2)) := by rw [e]
      _ = _ := by ring
  rw [this, Nat.mul_div_cancel_left _ (by norm_num)]

theorem quadPos_lt {p n m nn : ℕ} {mm : ℤ} (hn : n ≤ p) (hm : m ≤ n) (hnn : nn ≤ p)
    (h1 : -(nn : ℤ) ≤ mm) (h2 : mm ≤ nn) :
    0 ≤ quadPos p n m nn mm ∧ quadPos p n m nn mm < (p + 1) ^ 2 * ((p + 1) * (p + 2) / 2 : ℕ) := by
  have ht : n * (n + 1) / 2 + m + 1 ≤ (p + 1) * (p + 2) / 2 := tri_lt hm (by omega)
  unfold quadPos
  have hk : (0 : ℤ) ≤ (nn : ℤ) ^ 2 + nn + mm := by nlinarith
  have hk2 : (nn : ℤ) ^ 2 + nn + mm < (p + 1) ^ 2 := by
    have : (nn : ℤ) ≤ p := by exact_mod_cast hnn
    nlinarith
  constructor
  · have : (0 : ℤ) ≤ (p + 1 : ℤ) ^ 2 * ((n * (n + 1) / 2 + m : ℕ) : ℤ) := by positivity
    linarith
  · have : ((n * (n + 1) / 2 + m : ℕ) : ℤ) + 1 ≤ ((p + 1) * (p + 2) / 2 : ℕ) := by exact_mod_cast ht
    have h3 : (p + 1 : ℤ) ^ 2 * (((n * (n + 1) / 2 + m : ℕ) : ℤ) + 1) ≤
        (p + 1 : ℤ) ^ 2 * ((p + 1) * (p + 2) / 2 : ℕ) :=
      mul_le_mul_of_nonneg_left this (by positivity)
    nlinarith

theorem sq_block_inj {a b : ℕ} {x y : ℤ} (hx : -(a : ℤ) ≤ x) (hx' : x ≤ a) (hy : -(b : ℤ) ≤ y) (hy' : y ≤ b)
    (h : (a : ℤ) ^ 2 + a + x = (b : ℤ) ^ 2 + b + y) : a = b ∧ x = y := by
  rcases lt_trichotomy a b with hl | he | hl
  · have : (a : ℤ) + 1 ≤ b := by exact_mod_cast hl
    nlinarith
  · subst he; exact ⟨rfl, by linarith⟩
  · have : (b : ℤ) + 1 ≤ a := by exact_mod_cast hl
    nlinarith

theorem quadPos_inj {p n m nn n' m' nn' : ℕ} {mm mm' : ℤ} (hm : m ≤ n) (hnn : nn ≤ p)
    (h1 : -(nn : ℤ) ≤ mm) (h2 : mm ≤ nn) (hm' : m' ≤ n') (hnn' : nn' ≤ p)
    (h1' : -(nn' : ℤ) ≤ mm') (h2' : mm' ≤ nn') (h : quadPos p n m nn mm = quadPos p n' m' nn' mm') :
    n = n' ∧ m = m' ∧ nn = nn' ∧ mm = mm' := by
  unfold quadPos at h
  have b : ∀ k : ℕ, ∀ z : ℤ, k ≤ p → -(k : ℤ) ≤ z → z ≤ k →
      0 ≤ (k : ℤ) ^ 2 + k + z ∧ (k : ℤ) ^ 2 + k + z < (p + 1) ^ 2 := by
    intro k z hk a1 a2
    have : (k : ℤ) ≤ p := by exact_mod_cast hk
    constructor <;> nlinarith
  obtain ⟨b1, b2⟩ := b nn mm hnn h1 h2
  obtain ⟨b1', b2'⟩ := b nn' mm' hnn' h1' h2'
  have hq : ((n * (n + 1) / 2 + m : ℕ) : ℤ) = ((n' * (n' + 1) / 2 + m' : ℕ) : ℤ) := by
    have e1 := Int.add_mul_ediv_left ((nn : ℤ) ^ 2 + nn + mm) ((n * (n + 1) / 2 + m : ℕ) : ℤ)
      (show ((p : ℤ) + 1) ^ 2 ≠ 0 by positivity)
    have e2 := Int.add_mul_ediv_left ((nn' : ℤ) ^ 2 + nn' + mm') ((n' * (n' + 1) / 2 + m' : ℕ) : ℤ)
      (show ((p : ℤ) + 1) ^ 2 ≠ 0 by positivity)
    rw [Int.ediv_eq_zero_of_lt b1 b2, zero_add] at e1
    rw [Int.ediv_eq_zero_of_lt b1' b2', zero_add] at e2
    rw [← e1, ← e2]
    congr 1
    linarith
  obtain ⟨r1, r2⟩ := tri_inj hm hm' (by exact_mod_cast hq)
  rw [hq] at h
  obtain ⟨r3, r4⟩ := sq_block_inj h1 h2 h1' h2' (by linarith)
  exact ⟨r1, r2, r3, r4⟩

theorem quadPos_surj {p : ℕ} {x : ℕ} (hx : x < (p + 1) ^ 2 * ((p + 1) * (p + 2) / 2)) :
    ∃ n m nn : ℕ, ∃ mm : ℤ, n ≤ p ∧ m ≤ n ∧ nn ≤ p ∧ -(nn : ℤ) ≤ mm ∧ mm ≤ nn ∧
      quadPos p n m nn mm = x := by
  obtain ⟨n, m, hm, h⟩ := tri_surj (x / (p + 1) ^ 2)
  set r := x % (p + 1) ^ 2 with hr
  have hr' : r < (p + 1) ^ 2 := Nat.mod_lt _ (by positivity)
  have hq : x / (p + 1) ^ 2 < (p + 1) * (p + 2) / 2 := Nat.div_lt_of_lt_mul hx
  have hn : n ≤ p := by
    by_contra hc
    have := tri_mono (show p + 1 ≤ n by omega)
    have e : (p + 1) * (p + 1 + 1) / 2 = (p + 1) * (p + 2) / 2 := rfl
    omega
  set k := Nat.sqrt r with hk
  have s1 := Nat.sqrt_le' r
  have s2 := Nat.lt_succ_sqrt' r
  rw [← hk] at s1 s2
  have hkp : k ≤ p := by
    by_contra hc
    have : (p + 1) ^ 2 ≤ k ^ 2 := Nat.pow_le_pow_left (by omega) 2
    omega
  refine ⟨n, m, k, (r : ℤ) - k ^ 2 - k, hn, hm, hkp, ?_, ?_, ?_⟩
  · have : (k : ℤ) ^ 2 ≤ r := by exact_mod_cast s1
    linarith
  · have : (r : ℤ) < (k + 1) ^ 2 := by exact_mod_cast s2
    nlinarith
  · unfold quadPos
    rw [h]
    have := Nat.div_add_mod x ((p + 1) ^ 2)
    rw [← hr] at this
    have t : ((p + 1 : ℤ)) ^ 2 * ((x / (p + 1) ^ 2 : ℕ) : ℤ) + r = x := by exact_mod_cast this
    linarith

/-! ## Memory lemmas -/

theorem memGet_set {α : Type} {a b : List α} {i j : UInt32} {v : α} (h : memSet a i v = some b) :
    memGet b j = if j = i then some v else memGet a j := by
  unfold memSet at h
  split_ifs at h with hi
  cases h
  unfold memGet
  split_ifs with hj
  · subst hj; simp [hi]
  · rw [List.getElem?_set_ne]
    intro hc
    exact hj (UInt32.toNat_inj.mp hc.symm)

theorem memSet_isSome {α : Type} {a : List α} {i : UInt32} {v : α} (h : i.toNat < a.length) :
    memSet a i v = some (a.set i.toNat v) := if_pos h

theorem memGet_isSome {α : Type} {a : List α} {i : UInt32} (h : i.toNat < a.length) :
    memGet a i = some a[i.toNat] := by
  unfold memGet; exact List.getElem?_eq_getElem h

end PiBem.Expansion
