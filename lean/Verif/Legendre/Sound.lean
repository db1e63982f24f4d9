import Verif.Legendre.Check
import Mathlib.Tactic.Ring
import Mathlib.Tactic.FieldSimp
import Mathlib.Tactic.Linarith
import Mathlib.Tactic.Positivity
import Mathlib.Tactic.LinearCombination

/-!
# Soundness of the symbolic evaluation
-/

namespace PiBem.Legendre

/-- Value of a polynomial. -/
noncomputable def peval (x : ℝ) : Poly → ℝ
  | [] => 0
  | a :: p => (a : ℝ) + x * peval x p

theorem peval_padd (x : ℝ) (p q : Poly) : peval x (padd p q) = peval x p + peval x q := by
  induction p generalizing q with
  | nil => simp [padd, peval]
  | cons a p ih =>
    cases q with
    | nil => simp [padd, peval]
    | cons b q => simp only [padd, peval, ih]; push_cast; ring

theorem peval_pscale (x : ℝ) (c : ℤ) (p : Poly) : peval x (pscale c p) = c * peval x p := by
  induction p with
  | nil => simp [pscale, peval]
  | cons a p ih => simp only [pscale, peval, ih]; push_cast; ring

theorem peval_pmul (x : ℝ) (p q : Poly) : peval x (pmul p q) = peval x p * peval x q := by
  induction p with
  | nil => simp [pmul, peval]
  | cons a p ih =>
    simp only [pmul]
    split_ifs with h
    · have : ∀ r, peval x (pshift r) = x * peval x r := by
        intro r
        cases r <;> simp [peval, pshift]
      rw [this, ih, h]; simp [peval]; ring
    · rw [peval_padd, peval_pscale]
      simp only [peval, ih]; push_cast; ring

theorem peval_pw (x : ℝ) : peval x pw = 1 - x ^ 2 := by simp [pw, peval]; ring

theorem peval_pmulW (x : ℝ) (n : ℕ) (p : Poly) : peval x (pmulW n p) = (1 - x ^ 2) ^ n * peval x p := by
  induction n generalizing p with
  | zero => simp [pmulW]
  | succ n ih => rw [pmulW, ih, peval_pmul, peval_pw]; ring

theorem peval_pzero (x : ℝ) (p : Poly) (h : pzero p = true) : peval x p = 0 := by
  induction p with
  | nil => rfl
  | cons a p ih =>
    simp only [pzero, Bool.and_eq_true, beq_iff_eq] at h
    simp [peval, ih h.2, h.1]

theorem peval_peq (x : ℝ) (p q : Poly) (h : peq p q = true) : peval x p = peval x q := by
  induction p generalizing q with
  | nil => simp only [peq] at h; rw [peval_pzero x q h]; rfl
  | cons a p ih =>
    cases q with
    | nil => simp only [peq] at h; rw [peval_pzero x _ h]; rfl
    | cons b q =>
      simp only [peq, Bool.and_eq_true, beq_iff_eq] at h
      simp only [peval, ih q h.2, h.1]

theorem peval_dscale (x : ℝ) (d : ℤ) (p : Poly) : peval x (dscale d p) = d * peval x p := by
  unfold dscale
  split_ifs with h
  · simp [h]
  · rw [peval_pscale]

/-- `√(1 - x²)`. -/
noncomputable def sx (x : ℝ) : ℝ := Real.sqrt (1 - x ^ 2)

theorem sx_sq {x : ℝ} (hx : x ∈ Set.Icc (-1 : ℝ) 1) : sx x ^ 2 = 1 - x ^ 2 :=
  Real.sq_sqrt (by have := hx.1; have := hx.2; nlinarith)

theorem sx_lower {x : ℝ} (hx : x ∈ Set.Icc (-1 : ℝ) 1) {i j : ℕ} (hij : i ≤ j) (hp : i % 2 = j % 2) :
    sx x ^ j = sx x ^ i * (1 - x ^ 2) ^ ((j - i) / 2) := by
  rw [← sx_sq hx, ← pow_mul, ← pow_add]
  congr 1
  omega

/-- Meaning of a symbolic value. -/
noncomputable def den (k : ℕ) (x : ℝ) (u : NF) : ℝ :=
  Real.sqrt k ^ u.a * sx x ^ u.j * peval x u.p / (u.d * sx x ^ u.e)

/-- Conditions under which a symbolic value is meaningful. -/
def Good (x : ℝ) (u : NF) : Prop := u.d ≠ 0 ∧ (u.e ≠ 0 → sx x ≠ 0)

theorem Good.se {x : ℝ} {u : NF} (h : Good x u) : sx x ^ u.e ≠ 0 := by
  by_cases he : u.e = 0
  · simp [he]
  · exact pow_ne_zero _ (h.2 he)

theorem Good.dr {x : ℝ} {u : NF} (h : Good x u) : (u.d : ℝ) ≠ 0 := by exact_mod_cast h.1

theorem den_mul (k : ℕ) (x : ℝ) (u v : NF) (hu : Good x u) (hv : Good x v) :
    Good x (mulNF u v) ∧ den k x (mulNF u v) = den k x u * den k x v := by
  refine ⟨⟨mul_ne_zero hu.1 hv.1, ?_⟩, ?_⟩
  · intro h
    simp only [mulNF] at h
    by_cases h1 : u.e = 0
    · exact hv.2 (by omega)
    · exact hu.2 h1
  · have := hu.se; have := hv.se; have := hu.dr; have := hv.dr
    simp only [den, mulNF, peval_pmul, pow_add]
    push_cast
    rw [div_mul_div_comm]
    congr 1 <;> ring

theorem den_neg (k : ℕ) (x : ℝ) (u : NF) (hu : Good x u) : Good x (negNF u) ∧ den k x (negNF u) = -den k x u := by
  refine ⟨hu, ?_⟩
  simp only [den, negNF, peval_pscale]
  push_cast
  ring

theorem den_addAligned (k : ℕ) {x : ℝ} (hx : x ∈ Set.Icc (-1 : ℝ) 1) (u v w : NF) (pu pv : Poly) (ju jv : ℕ) (d : ℤ)
    (e : ℕ) (hd : d ≠ 0) (he : e ≠ 0 → sx x ≠ 0) (h : addAligned u v pu pv ju jv d e = .ok w) :
    Good x w ∧ den k x w = (Real.sqrt k ^ u.a * sx x ^ ju * peval x pu + Real.sqrt k ^ v.a * sx x ^ jv * peval x pv) /
      (d * sx x ^ e) := by
  unfold addAligned at h
  split_ifs at h with h1 h2
  · rw [Sym.ok.injEq] at h
    subst h
    refine ⟨⟨hd, he⟩, ?_⟩
    simp only [den, peval_padd, peval_pmulW]
    rw [sx_lower hx h2 h1.2, h1.1]
    congr 1
    ring
  · rw [Sym.ok.injEq] at h
    subst h
    refine ⟨⟨hd, he⟩, ?_⟩
    simp only [den, peval_padd, peval_pmulW]
    rw [sx_lower hx (Nat.le_of_not_le h2) h1.2.symm, h1.1]
    congr 1
    ring

theorem den_add (k : ℕ) {x : ℝ} (hx : x ∈ Set.Icc (-1 : ℝ) 1) (u v w : NF) (hu : Good x u) (hv : Good x v)
    (h : addNF u v = .ok w) : Good x w ∧ den k x w = den k x u + den k x v := by
  have hue := hu.se; have hve := hv.se; have hud := hu.dr; have hvd := hv.dr
  have he : max u.e v.e ≠ 0 → sx x ≠ 0 := by
    intro h
    by_cases h1 : u.e = 0
    · exact hv.2 (by omega)
    · exact hu.2 h1
  have hsplit : ∀ a : ℕ, a ≤ max u.e v.e → sx x ^ (max u.e v.e) = sx x ^ (max u.e v.e - a) * sx x ^ a := by
    intro a ha
    rw [← pow_add]
    congr 1
    omega
  have e1 := hsplit u.e (le_max_left _ _)
  have e2 := hsplit v.e (le_max_right _ _)
  have hse : sx x ^ (max u.e v.e) ≠ 0 := by
    by_cases h0 : max u.e v.e = 0
    · simp [h0]
    · exact pow_ne_zero _ (he h0)
  have q1 : den k x u = Real.sqrt k ^ u.a * sx x ^ (u.j + (max u.e v.e - u.e)) * peval x u.p /
      (u.d * sx x ^ (max u.e v.e)) := by
    rw [e1, pow_add, den]
    have : sx x ^ (max u.e v.e - u.e) ≠ 0 := by intro hz; rw [e1, hz] at hse; simp at hse
    field_simp
  have q2 : den k x v = Real.sqrt k ^ v.a * sx x ^ (v.j + (max u.e v.e - v.e)) * peval x v.p /
      (v.d * sx x ^ (max u.e v.e)) := by
    rw [e2, pow_add, den]
    have : sx x ^ (max u.e v.e - v.e) ≠ 0 := by intro hz; rw [e2, hz] at hse; simp at hse
    field_simp
  unfold addNF at h
  dsimp only at h
  split_ifs at h with hdd
  · obtain ⟨g, hg⟩ := den_addAligned k hx u v w _ _ _ _ _ _ hu.1 he h
    refine ⟨g, ?_⟩
    rw [hg, q1, q2, ← hdd]
    rw [← add_div]
  · obtain ⟨g, hg⟩ := den_addAligned k hx u v w _ _ _ _ _ _ (mul_ne_zero hu.1 hv.1) he h
    refine ⟨g, ?_⟩
    rw [hg, q1, q2, peval_pscale, peval_pscale]
    push_cast
    field_simp

theorem den_div (k : ℕ) {x : ℝ} (closed : Bool) (hc : closed = true ∨ sx x ≠ 0) (u v w : NF)
    (hu : Good x u) (hv : Good x v) (h : divNF closed u v = .ok w) :
    Good x w ∧ den k x v ≠ 0 ∧ den k x w = den k x u / den k x v := by
  unfold divNF at h
  have hue := hu.se; have hud := hu.dr; have hvd := hv.dr
  split at h
  · rename_i c hp
    split_ifs at h with h1 h2 h3
    · rw [Sym.ok.injEq] at h
      subst h
      have hcr : (c : ℝ) ≠ 0 := by exact_mod_cast h1.1
      refine ⟨⟨mul_ne_zero hu.1 h1.1, hu.2⟩, ?_, ?_⟩
      · simp [den, hp, peval, h1, h2, hvd]
      · have := peval_dscale x v.d u.p
        simp only [den, hp, peval, h1.2.1, h1.2.2, h2, this, pow_zero, mul_zero, add_zero]
        push_cast
        field_simp
    · rw [Sym.ok.injEq] at h
      subst h
      have hs : sx x ≠ 0 := by
        rcases hc with h | h
        · exact absurd h h3
        · exact h
      have hcr : (c : ℝ) ≠ 0 := by exact_mod_cast h1.1
      refine ⟨⟨mul_ne_zero hu.1 h1.1, fun _ => hs⟩, ?_, ?_⟩
      · simp [den, hp, peval, h1, hvd, hs]
      · have := peval_dscale x v.d u.p
        simp only [den, hp, peval, h1.2.1, h1.2.2, this, pow_zero, pow_add, mul_zero, add_zero]
        push_cast
        field_simp
  · simp at h

/-- A division reported as `dz` is a division by zero where `s = 0`. -/
theorem den_div_dz (k : ℕ) {x : ℝ} (hs : sx x = 0) (u v : NF) (h : divNF true u v = .dz) : den k x v = 0 := by
  unfold divNF at h
  split at h
  · split_ifs at h with h1 h2
    simp [den, hs, h2]
  · simp at h

theorem den_sqrt (k : ℕ) {x : ℝ} (hx : x ∈ Set.Icc (-1 : ℝ) 1) (u w : NF) (h : sqrtNF k u = .ok w) :
    Good x w ∧ 0 ≤ den k x u ∧ den k x w = Real.sqrt (den k x u) := by
  unfold sqrtNF at h
  split_ifs at h with h1 h2 h3
  · rw [Sym.ok.injEq] at h
    subst h
    refine ⟨⟨one_ne_zero, by simp⟩, ?_, ?_⟩
    · simp [den, h1, h2, peval]
    · simp [den, h1, h2, peval]
  · rw [Sym.ok.injEq] at h
    subst h
    have : den k x u = 1 - x ^ 2 := by
      simp [den, h1, h3, peval_pw]
    have h0 : 0 ≤ 1 - x ^ 2 := by have := hx.1; have := hx.2; nlinarith
    refine ⟨⟨one_ne_zero, by simp⟩, this ▸ h0, ?_⟩
    rw [this]
    simp [den, peval, sx]

/-- The symbolic environment describes the environment. -/
def EnvOk (k : ℕ) (x : ℝ) (senv : List (ℕ × NF)) (env : Env) : Prop :=
  ∀ i u, lookup i senv = some u → Good x u ∧ lookup i env = some (den k x u)

theorem symEx_sound (k : ℕ) {x : ℝ} (hx : x ∈ Set.Icc (-1 : ℝ) 1) (closed : Bool) (hc : closed = true ∨ sx x ≠ 0)
    (senv : List (ℕ × NF)) (env : Env) (henv : EnvOk k x senv env) (e : Ex) (u : NF)
    (h : symEx closed k senv e = .ok u) : Good x u ∧ evalEx x env e = some (den k x u) := by
  induction e generalizing u with
  | num c =>
    simp only [symEx, Sym.ok.injEq] at h; subst h
    exact ⟨⟨one_ne_zero, by simp⟩, by simp [evalEx, den, peval]⟩
  | x =>
    simp only [symEx, Sym.ok.injEq] at h; subst h
    exact ⟨⟨one_ne_zero, by simp⟩, by simp [evalEx, den, peval]⟩
  | t i =>
    simp only [symEx] at h
    split at h
    · rename_i v hv
      rw [Sym.ok.injEq] at h; subst h
      exact henv i v hv
    · simp at h
  | add a b iha ihb =>
    simp only [symEx, Sym.bind] at h
    split at h
    · rename_i u1 h1
      split at h
      · rename_i u2 h2
        obtain ⟨g1, e1⟩ := iha u1 h1
        obtain ⟨g2, e2⟩ := ihb u2 h2
        obtain ⟨g, hd⟩ := den_add k hx u1 u2 u g1 g2 h
        exact ⟨g, by simp only [evalEx, e1, e2, hd]⟩
      all_goals simp at h
    all_goals simp at h
  | sub a b iha ihb =>
    simp only [symEx, Sym.bind] at h
    split at h
    · rename_i u1 h1
      split at h
      · rename_i u2 h2
        obtain ⟨g1, e1⟩ := iha u1 h1
        obtain ⟨g2, e2⟩ := ihb u2 h2
        obtain ⟨gn, hn⟩ := den_neg k x u2 g2
        obtain ⟨g, hd⟩ := den_add k hx u1 (negNF u2) u g1 gn h
        exact ⟨g, by simp only [evalEx, e1, e2, hd, hn, sub_eq_add_neg]⟩
      all_goals simp at h
    all_goals simp at h
  | mul a b iha ihb =>
    simp only [symEx, Sym.bind] at h
    split at h
    · rename_i u1 h1
      split at h
      · rename_i u2 h2
        obtain ⟨g1, e1⟩ := iha u1 h1
        obtain ⟨g2, e2⟩ := ihb u2 h2
        rw [Sym.ok.injEq] at h; subst h
        obtain ⟨g, hd⟩ := den_mul k x u1 u2 g1 g2
        exact ⟨g, by simp only [evalEx, e1, e2, hd]⟩
      all_goals simp at h
    all_goals simp at h
  | div a b iha ihb =>
    simp only [symEx, Sym.bind] at h
    split at h
    · rename_i u1 h1
      split at h
      · rename_i u2 h2
        obtain ⟨g1, e1⟩ := iha u1 h1
        obtain ⟨g2, e2⟩ := ihb u2 h2
        obtain ⟨g, hne, hd⟩ := den_div k closed hc u1 u2 u g1 g2 h
        refine ⟨g, ?_⟩
        simp only [evalEx, e1, e2, hd]
        rw [if_neg hne]
      all_goals simp at h
    all_goals simp at h
  | neg a iha =>
    simp only [symEx, Sym.bind] at h
    split at h
    · rename_i u1 h1
      obtain ⟨g1, e1⟩ := iha u1 h1
      rw [Sym.ok.injEq] at h; subst h
      obtain ⟨g, hd⟩ := den_neg k x u1 g1
      exact ⟨g, by simp only [evalEx, e1, hd]⟩
    all_goals simp at h
  | sqrt a iha =>
    simp only [symEx, Sym.bind] at h
    split at h
    · rename_i u1 h1
      obtain ⟨g1, e1⟩ := iha u1 h1
      obtain ⟨g, h0, hd⟩ := den_sqrt k hx u1 u h
      refine ⟨g, ?_⟩
      simp only [evalEx, e1, hd]
      rw [if_neg (not_lt.2 h0)]
    all_goals simp at h
  | sq a iha =>
    simp only [symEx, Sym.bind] at h
    split at h
    · rename_i u1 h1
      obtain ⟨g1, e1⟩ := iha u1 h1
      rw [Sym.ok.injEq] at h; subst h
      obtain ⟨g, hd⟩ := den_mul k x u1 u1 g1 g1
      exact ⟨g, by simp only [evalEx, e1, hd, pow_two]⟩
    all_goals simp at h

/-- An expression reported as `dz` has no value where `s = 0`. -/
theorem symEx_dz (k : ℕ) {x : ℝ} (hx : x ∈ Set.Icc (-1 : ℝ) 1) (hs : sx x = 0)
    (senv : List (ℕ × NF)) (env : Env) (henv : EnvOk k x senv env) (e : Ex)
    (h : symEx true k senv e = .dz) : evalEx x env e = none := by
  have two : ∀ (a b : Ex) (f : NF → NF → Sym) (_ : symEx true k senv a = .dz → evalEx x env a = none)
      (_ : symEx true k senv b = .dz → evalEx x env b = none),
      ((symEx true k senv a).bind fun u => (symEx true k senv b).bind fun v => f u v) = .dz →
      evalEx x env a = none ∨ evalEx x env b = none ∨
        ∃ u v, symEx true k senv a = .ok u ∧ symEx true k senv b = .ok v ∧ f u v = .dz := by
    intro a b f ia ib hh
    cases ha : symEx true k senv a with
    | ok u =>
      rw [ha] at hh
      cases hb : symEx true k senv b with
      | ok v => rw [hb] at hh; exact Or.inr (Or.inr ⟨u, v, rfl, rfl, hh⟩)
      | dz => exact Or.inr (Or.inl (ib hb))
      | fail => rw [hb] at hh; simp [Sym.bind] at hh
    | dz => exact Or.inl (ia ha)
    | fail => rw [ha] at hh; simp [Sym.bind] at hh
  have one : ∀ (a : Ex) (f : NF → Sym) (_ : symEx true k senv a = .dz → evalEx x env a = none) (_ : ∀ u, f u ≠ .dz),
      (symEx true k senv a).bind f = .dz → evalEx x env a = none := by
    intro a f ia hf hh
    cases ha : symEx true k senv a with
    | ok u => rw [ha] at hh; exact absurd hh (hf u)
    | dz => exact ia ha
    | fail => rw [ha] at hh; simp [Sym.bind] at hh
  have nal : ∀ u v pu pv ju jv d e, addAligned u v pu pv ju jv d e ≠ .dz := by
    intro u v pu pv ju jv d e
    unfold addAligned
    split_ifs <;> simp
  have nadd : ∀ u v, addNF u v ≠ .dz := by
    intro u v
    unfold addNF
    dsimp only
    split_ifs
    · exact nal _ _ _ _ _ _ _ _
    · exact nal _ _ _ _ _ _ _ _
  induction e with
  | num c => simp [symEx] at h
  | x => simp [symEx] at h
  | t i => simp only [symEx] at h; split at h <;> simp at h
  | add a b iha ihb =>
    rcases two a b (fun u v => addNF u v) iha ihb h with h1 | h1 | ⟨u, v, _, _, h3⟩
    · simp [evalEx, h1]
    · simp only [evalEx, h1]; cases evalEx x env a <;> rfl
    · exact absurd h3 (nadd _ _)
  | sub a b iha ihb =>
    rcases two a b (fun u v => addNF u (negNF v)) iha ihb h with h1 | h1 | ⟨u, v, _, _, h3⟩
    · simp [evalEx, h1]
    · simp only [evalEx, h1]; cases evalEx x env a <;> rfl
    · exact absurd h3 (nadd _ _)
  | mul a b iha ihb =>
    rcases two a b (fun u v => .ok (mulNF u v)) iha ihb h with h1 | h1 | ⟨u, v, _, _, h3⟩
    · simp [evalEx, h1]
    · simp only [evalEx, h1]; cases evalEx x env a <;> rfl
    · simp at h3
  | div a b iha ihb =>
    rcases two a b (fun u v => divNF true u v) iha ihb h with h1 | h1 | ⟨u, v, _, h2, h3⟩
    · simp [evalEx, h1]
    · simp only [evalEx, h1]; cases evalEx x env a <;> rfl
    · obtain ⟨_, e2⟩ := symEx_sound k hx true (Or.inl rfl) senv env henv b v h2
      have := den_div_dz k hs u v h3
      simp only [evalEx, e2]
      cases evalEx x env a with
      | none => rfl
      | some w => simp [this]
  | neg a iha =>
    have := one a (fun u => .ok (negNF u)) iha (by simp) h
    simp [evalEx, this]
  | sqrt a iha =>
    have := one a (fun u => sqrtNF k u) iha (by intro u; unfold sqrtNF; split_ifs <;> simp) h
    simp [evalEx, this]
  | sq a iha =>
    have := one a (fun u => .ok (mulNF u u)) iha (by simp) h
    simp [evalEx, this]

theorem EnvOk.cons {k : ℕ} {x : ℝ} {senv : List (ℕ × NF)} {env : Env} (h : EnvOk k x senv env) (i : ℕ) (u : NF)
    (g : Good x u) : EnvOk k x ((i, u) :: senv) ((i, den k x u) :: env) := by
  intro j w hw
  simp only [lookup] at hw ⊢
  by_cases hj : j = i
  · rw [if_pos hj, Option.some.injEq] at hw
    subst hw
    exact ⟨g, by rw [if_pos hj]⟩
  · rw [if_neg hj] at hw ⊢
    exact h j w hw

theorem symBody_sound (k : ℕ) {x : ℝ} (hx : x ∈ Set.Icc (-1 : ℝ) 1) (closed : Bool) (hc : closed = true ∨ sx x ≠ 0)
    (ret : Ex) (l : List (ℕ × Ex)) (senv : List (ℕ × NF)) (env : Env) (henv : EnvOk k x senv env) :
    (∀ u, symBody closed k ret l senv = .ok u → Good x u ∧
      (match runBody x l env with | some env => evalEx x env ret | none => none) = some (den k x u)) ∧
    (closed = true → sx x = 0 → symBody closed k ret l senv = .dz →
      (match runBody x l env with | some env => evalEx x env ret | none => none) = none) := by
  induction l generalizing senv env with
  | nil =>
    simp only [symBody, runBody]
    exact ⟨fun u hu => symEx_sound k hx closed hc senv env henv ret u hu,
      fun hcl hs hd => by subst hcl; exact symEx_dz k hx hs senv env henv ret hd⟩
  | cons a l ih =>
    obtain ⟨i, e⟩ := a
    simp only [symBody, runBody]
    cases he : symEx closed k senv e with
    | ok v =>
      obtain ⟨g, hv⟩ := symEx_sound k hx closed hc senv env henv e v he
      simp only [hv]
      exact ih _ _ (henv.cons i v g)
    | dz =>
      refine ⟨by simp, fun hcl hs _ => ?_⟩
      subst hcl
      rw [symEx_dz k hx hs senv env henv e he]
    | fail => simp

/-- Soundness for programs. -/
theorem symProg_sound (k : ℕ) {x : ℝ} (hx : x ∈ Set.Icc (-1 : ℝ) 1) (closed : Bool) (hc : closed = true ∨ sx x ≠ 0)
    (p : Prog) (u : NF) (h : symProg closed k p = .ok u) : Good x u ∧ runProg p x = some (den k x u) :=
  (symBody_sound k hx closed hc p.ret p.body [] [] (by intro i u h; simp [lookup] at h)).1 u h

theorem symProg_dz (k : ℕ) {x : ℝ} (hx : x ∈ Set.Icc (-1 : ℝ) 1) (hs : sx x = 0)
    (p : Prog) (h : symProg true k p = .dz) : runProg p x = none :=
  (symBody_sound k hx true (Or.inl rfl) p.ret p.body [] [] (by intro i u h; simp [lookup] at h)).2 rfl hs h

/-- Comparison of symbolic values. -/
theorem nfEq_sound (k : ℕ) {x : ℝ} (hx : x ∈ Set.Icc (-1 : ℝ) 1) (u v : NF) (hu : Good x u) (hv : Good x v)
    (ha : Real.sqrt k ^ u.a = Real.sqrt k ^ v.a) (h : nfEq u v = true) : den k x u = den k x v := by
  have hue := hu.se; have hve := hv.se; have hud := hu.dr; have hvd := hv.dr
  unfold nfEq at h
  simp only [Bool.and_eq_true, beq_iff_eq] at h
  obtain ⟨hpar, h⟩ := h
  have key : sx x ^ (u.j + v.e) * (v.d * peval x u.p) = sx x ^ (v.j + u.e) * (u.d * peval x v.p) := by
    split_ifs at h with hle
    · have := peval_peq x _ _ h
      rw [peval_pscale, peval_pmulW, peval_pscale] at this
      rw [sx_lower hx hle hpar, this]
      ring
    · have := peval_peq x _ _ h
      rw [peval_pscale, peval_pmulW, peval_pscale] at this
      rw [sx_lower hx (Nat.le_of_not_le hle) hpar.symm, ← this]
      ring
  unfold den
  rw [ha, div_eq_div_iff (mul_ne_zero hud hue) (mul_ne_zero hvd hve)]
  rw [pow_add, pow_add] at key
  linear_combination (Real.sqrt k ^ v.a) * key

end PiBem.Legendre
