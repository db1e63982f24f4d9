import Verif.Kernel.Taylor
import Mathlib.Analysis.Calculus.MeanValue
import Mathlib.Analysis.Normed.Group.Bounded

/-!
# First order expansions at `0+`, uniform in a parameter

`TayU f a b`: `f θ ρ = a θ + b θ ρ + O(ρ²)` for `ρ → 0+` uniformly in `θ`, with bounded `a` and `b`.
-/

namespace PiBem.Kernel

open Asymptotics Filter Topology

/-- The filter of the uniform expansions. -/
abbrev LU : Filter (ℝ × ℝ) := (⊤ : Filter ℝ) ×ˢ 𝓝[>] (0 : ℝ)

def Bdd (a : ℝ → ℝ) : Prop := ∃ M, ∀ t, |a t| ≤ M

/-- `f θ ρ = a θ + b θ ρ + O(ρ²)` for `ρ → 0+`, uniformly in `θ`. -/
def TayU (f : ℝ → ℝ → ℝ) (a b : ℝ → ℝ) : Prop :=
  Bdd a ∧ Bdd b ∧ (fun p : ℝ × ℝ => f p.1 p.2 - (a p.1 + b p.1 * p.2)) =O[LU] fun p => p.2 ^ 2

theorem eventually_LU {P : ℝ × ℝ → Prop} :
    (∀ᶠ p in LU, P p) ↔ ∃ δ : ℝ, 0 < δ ∧ ∀ t r, 0 < r → r < δ → P (t, r) := by
  have hb : LU.HasBasis (fun i : Unit × ℝ => True ∧ 0 < i.2) fun i => Set.univ ×ˢ Set.Ioo 0 i.2 :=
    (hasBasis_top (α := ℝ)).prod (nhdsGT_basis (0 : ℝ))
  rw [hb.eventually_iff]
  constructor
  · rintro ⟨⟨_, δ⟩, ⟨-, h⟩, h'⟩
    exact ⟨δ, h, fun t r h0 h1 => h' (x := (t, r)) ⟨trivial, h0, h1⟩⟩
  · rintro ⟨δ, h, h'⟩
    exact ⟨((), δ), ⟨trivial, h⟩, fun p hp => h' p.1 p.2 hp.2.1 hp.2.2⟩

theorem isBigO_LU {f g : ℝ × ℝ → ℝ} :
    f =O[LU] g ↔ ∃ C δ : ℝ, 0 < δ ∧ ∀ t r, 0 < r → r < δ → |f (t, r)| ≤ C * |g (t, r)| := by
  rw [isBigO_iff]
  constructor
  · rintro ⟨C, h⟩
    rw [eventually_LU] at h
    obtain ⟨δ, h0, h⟩ := h
    exact ⟨C, δ, h0, h⟩
  · rintro ⟨C, δ, h0, h⟩
    exact ⟨C, eventually_LU.2 ⟨δ, h0, h⟩⟩

theorem snd_tendsto : Tendsto (fun p : ℝ × ℝ => p.2) LU (𝓝 0) :=
  rho_tendsto.comp tendsto_snd

theorem snd_isBigO_one (k : ℕ) : (fun p : ℝ × ℝ => p.2 ^ k) =O[LU] fun _ => (1 : ℝ) :=
  (snd_tendsto.pow k).isBigO_one ℝ

theorem Bdd.isBigO {a : ℝ → ℝ} (h : Bdd a) : (fun p : ℝ × ℝ => a p.1) =O[LU] fun _ => (1 : ℝ) := by
  obtain ⟨M, h⟩ := h
  exact IsBigO.of_bound M (Eventually.of_forall fun p => by simpa using h p.1)

theorem Bdd.const (c : ℝ) : Bdd fun _ => c := ⟨|c|, fun _ => le_refl _⟩

theorem Bdd.add {a b : ℝ → ℝ} (ha : Bdd a) (hb : Bdd b) : Bdd fun t => a t + b t := by
  obtain ⟨M, h⟩ := ha; obtain ⟨M', h'⟩ := hb
  exact ⟨M + M', fun t => (abs_add_le _ _).trans (add_le_add (h t) (h' t))⟩

theorem Bdd.neg {a : ℝ → ℝ} (ha : Bdd a) : Bdd fun t => -a t := by
  obtain ⟨M, h⟩ := ha
  exact ⟨M, fun t => by rw [abs_neg]; exact h t⟩

theorem Bdd.sub {a b : ℝ → ℝ} (ha : Bdd a) (hb : Bdd b) : Bdd fun t => a t - b t := by
  obtain ⟨M, h⟩ := ha.add hb.neg
  exact ⟨M, fun t => by show |a t - b t| ≤ M; rw [sub_eq_add_neg]; exact h t⟩

theorem Bdd.mul {a b : ℝ → ℝ} (ha : Bdd a) (hb : Bdd b) : Bdd fun t => a t * b t := by
  obtain ⟨M, h⟩ := ha; obtain ⟨M', h'⟩ := hb
  exact ⟨M * M', fun t => by rw [abs_mul]; exact mul_le_mul (h t) (h' t) (abs_nonneg _) ((abs_nonneg _).trans (h t))⟩

theorem Bdd.inv {a : ℝ → ℝ} {m : ℝ} (hm : 0 < m) (ha : ∀ t, m ≤ a t) : Bdd fun t => (a t)⁻¹ :=
  ⟨m⁻¹, fun t => by
    rw [abs_inv, abs_of_pos (hm.trans_le (ha t))]; exact inv_anti₀ hm (ha t)⟩

theorem Bdd.cos : Bdd Real.cos := ⟨1, Real.abs_cos_le_one⟩
theorem Bdd.sin : Bdd Real.sin := ⟨1, Real.abs_sin_le_one⟩

theorem Bdd.congr {a b : ℝ → ℝ} (h : Bdd a) (e : ∀ t, a t = b t) : Bdd b := by
  obtain ⟨M, h⟩ := h
  exact ⟨M, fun t => by rw [← e]; exact h t⟩

theorem TayU.isBigO_one {f : ℝ → ℝ → ℝ} {a b : ℝ → ℝ} (h : TayU f a b) :
    (fun p : ℝ × ℝ => f p.1 p.2) =O[LU] fun _ => (1 : ℝ) := by
  have h1 := h.2.2.trans (snd_isBigO_one 2)
  have h2 : (fun p : ℝ × ℝ => b p.1 * p.2) =O[LU] fun _ => (1 : ℝ) := by
    simpa using h.2.1.isBigO.mul (snd_isBigO_one 1)
  refine (h1.add (h.1.isBigO.add h2)).congr_left fun p => ?_
  ring

theorem TayU.const (a : ℝ) : TayU (fun _ _ => a) (fun _ => a) (fun _ => 0) := by
  refine ⟨Bdd.const _, Bdd.const _, ?_⟩
  simp only [zero_mul, add_zero, sub_self]
  exact isBigO_zero _ _

theorem TayU.id : TayU (fun _ r => r) (fun _ => 0) (fun _ => 1) := by
  refine ⟨Bdd.const _, Bdd.const _, ?_⟩
  simp only [zero_add, one_mul, sub_self]
  exact isBigO_zero _ _

theorem TayU.add {f g : ℝ → ℝ → ℝ} {a b c d : ℝ → ℝ} (hf : TayU f a b) (hg : TayU g c d) :
    TayU (fun t r => f t r + g t r) (fun t => a t + c t) (fun t => b t + d t) := by
  refine ⟨hf.1.add hg.1, hf.2.1.add hg.2.1, (hf.2.2.add hg.2.2).congr_left fun r => ?_⟩
  ring

theorem TayU.neg {f : ℝ → ℝ → ℝ} {a b : ℝ → ℝ} (hf : TayU f a b) :
    TayU (fun t r => -f t r) (fun t => -a t) (fun t => -b t) := by
  refine ⟨hf.1.neg, hf.2.1.neg, hf.2.2.neg_left.congr_left fun r => ?_⟩
  ring

theorem TayU.sub {f g : ℝ → ℝ → ℝ} {a b c d : ℝ → ℝ} (hf : TayU f a b) (hg : TayU g c d) :
    TayU (fun t r => f t r - g t r) (fun t => a t - c t) (fun t => b t - d t) := by
  refine ⟨hf.1.sub hg.1, hf.2.1.sub hg.2.1, (hf.2.2.sub hg.2.2).congr_left fun r => ?_⟩
  ring

theorem TayU.mul {f g : ℝ → ℝ → ℝ} {a b c d : ℝ → ℝ} (hf : TayU f a b) (hg : TayU g c d) :
    TayU (fun t r => f t r * g t r) (fun t => a t * c t) (fun t => a t * d t + b t * c t) := by
  refine ⟨hf.1.mul hg.1, (hf.1.mul hg.2.1).add (hf.2.1.mul hg.1), ?_⟩
  have h1 : (fun p : ℝ × ℝ => (f p.1 p.2 - (a p.1 + b p.1 * p.2)) * g p.1 p.2) =O[LU] fun p => p.2 ^ 2 := by
    simpa using hf.2.2.mul hg.isBigO_one
  have hlin : (fun p : ℝ × ℝ => a p.1 + b p.1 * p.2) =O[LU] fun _ => (1 : ℝ) := by
    refine hf.1.isBigO.add ?_
    simpa using hf.2.1.isBigO.mul (snd_isBigO_one 1)
  have h2 : (fun p : ℝ × ℝ => (a p.1 + b p.1 * p.2) * (g p.1 p.2 - (c p.1 + d p.1 * p.2))) =O[LU] fun p => p.2 ^ 2 := by
    simpa using hlin.mul hg.2.2
  have h3 : (fun p : ℝ × ℝ => (b p.1 * d p.1) * p.2 ^ 2) =O[LU] fun p => p.2 ^ 2 := by
    simpa using (hf.2.1.mul hg.2.1).isBigO.mul (isBigO_refl (fun p : ℝ × ℝ => p.2 ^ 2) LU)
  refine ((h1.add h2).add h3).congr_left fun p => ?_
  ring

theorem snd_pos : ∀ᶠ p : ℝ × ℝ in LU, 0 < p.2 := eventually_LU.2 ⟨1, one_pos, fun _ _ h _ => h⟩

theorem TayU.congr' {f g : ℝ → ℝ → ℝ} {a b : ℝ → ℝ} (h : TayU f a b) (he : ∀ t, ∀ r > 0, f t r = g t r) : TayU g a b := by
  refine ⟨h.1, h.2.1, h.2.2.congr' ?_ (EventuallyEq.refl _ _)⟩
  filter_upwards [snd_pos] with p hp
  rw [he p.1 p.2 hp]

theorem TayU.coef {f : ℝ → ℝ → ℝ} {a b a' b' : ℝ → ℝ} (h : TayU f a b) (h1 : ∀ t, a t = a' t) (h2 : ∀ t, b t = b' t) :
    TayU f a' b' := by
  rw [← funext h1, ← funext h2]; exact h

theorem TayU.lower {f : ℝ → ℝ → ℝ} {a b : ℝ → ℝ} (h : TayU f a b) {m : ℝ} (hm : 0 < m) (ha : ∀ t, m ≤ a t) :
    ∀ᶠ p : ℝ × ℝ in LU, m / 2 ≤ f p.1 p.2 := by
  have h1 : (fun p : ℝ × ℝ => f p.1 p.2 - a p.1) =O[LU] fun p => p.2 := by
    have a1 : (fun p : ℝ × ℝ => f p.1 p.2 - (a p.1 + b p.1 * p.2)) =O[LU] fun p => p.2 := by
      refine h.2.2.trans ?_
      have := (isBigO_refl (fun p : ℝ × ℝ => p.2) LU).mul (snd_isBigO_one 1)
      simpa [pow_two] using this
    have a2 : (fun p : ℝ × ℝ => b p.1 * p.2) =O[LU] fun p => p.2 := by
      simpa using h.2.1.isBigO.mul (isBigO_refl (fun p : ℝ × ℝ => p.2) LU)
    refine (a1.add a2).congr_left fun p => ?_
    ring
  have h2 := h1.trans_tendsto snd_tendsto
  have h3 := h2.eventually (Ioi_mem_nhds (show (-(m / 2)) < 0 by linarith))
  filter_upwards [h3] with p hp
  have := ha p.1
  have hp : -(m / 2) < f p.1 p.2 - a p.1 := hp
  linarith

theorem TayU.inv {f : ℝ → ℝ → ℝ} {a b : ℝ → ℝ} (h : TayU f a b) {m : ℝ} (hm : 0 < m) (ha : ∀ t, m ≤ a t) :
    TayU (fun t r => (f t r)⁻¹) (fun t => (a t)⁻¹) (fun t => -b t / a t ^ 2) := by
  have hl := h.lower hm ha
  have hlin : TayU (fun t r => a t - b t * r) a (fun t => -b t) := by
    refine ⟨h.1, h.2.1.neg, (isBigO_zero (E' := ℝ) (fun p : ℝ × ℝ => p.2 ^ 2) LU).congr_left fun p => ?_⟩
    ring
  have hinv : (fun p : ℝ × ℝ => (f p.1 p.2)⁻¹) =O[LU] fun _ => (1 : ℝ) := by
    refine IsBigO.of_bound ((m / 2)⁻¹) ?_
    filter_upwards [hl] with p hp
    have : 0 < f p.1 p.2 := (half_pos hm).trans_le hp
    rw [Real.norm_eq_abs, abs_inv, abs_of_pos this, norm_one, mul_one]
    exact inv_anti₀ (half_pos hm) hp
  have hbi := Bdd.inv hm ha
  refine ⟨hbi, (h.2.1.neg.mul (hbi.mul hbi)).congr fun t => ?_, ?_⟩
  · rw [div_eq_mul_inv, pow_two, mul_inv]
  · have h1 := (h.mul hlin).2.2
    have h2 := ((h1.mul hinv).mul ((hbi.mul hbi).neg.isBigO))
    simp only [mul_one] at h2
    refine h2.congr' ?_ (EventuallyEq.refl _ _)
    filter_upwards [hl] with p hp
    have hf : f p.1 p.2 ≠ 0 := ((half_pos hm).trans_le hp).ne'
    have ha' : a p.1 ≠ 0 := (hm.trans_le (ha p.1)).ne'
    field_simp
    ring

theorem TayU.sqrt {f : ℝ → ℝ → ℝ} {a b : ℝ → ℝ} (h : TayU f a b) {m : ℝ} (hm : 0 < m) (ha : ∀ t, m ≤ a t) :
    TayU (fun t r => Real.sqrt (f t r)) (fun t => Real.sqrt (a t)) (fun t => b t / (2 * Real.sqrt (a t))) := by
  have hl := h.lower hm ha
  have hsm : ∀ t, Real.sqrt m ≤ Real.sqrt (a t) := fun t => Real.sqrt_le_sqrt (ha t)
  have hs0 : 0 < Real.sqrt m := Real.sqrt_pos.2 hm
  have hb1 : Bdd fun t => Real.sqrt (a t) := by
    obtain ⟨M, hM⟩ := h.1
    refine ⟨Real.sqrt M, fun t => ?_⟩
    rw [abs_of_nonneg (Real.sqrt_nonneg _)]
    exact Real.sqrt_le_sqrt ((le_abs_self _).trans (hM t))
  have hbi := Bdd.inv hs0 hsm
  have hb2 : Bdd fun t => b t / (2 * Real.sqrt (a t)) := by
    refine (h.2.1.mul ((Bdd.const (1 / 2)).mul hbi)).congr fun t => ?_
    have := (hs0.trans_le (hsm t)).ne'
    field_simp
  refine ⟨hb1, hb2, ?_⟩
  -- lower bound of the denominator
  have hsmall : Tendsto (fun p : ℝ × ℝ => b p.1 / (2 * Real.sqrt (a p.1)) * p.2) LU (𝓝 0) := by
    have : (fun p : ℝ × ℝ => b p.1 / (2 * Real.sqrt (a p.1)) * p.2) =O[LU] fun p => p.2 := by
      simpa using hb2.isBigO.mul (isBigO_refl (fun p : ℝ × ℝ => p.2) LU)
    exact this.trans_tendsto snd_tendsto
  have hden : ∀ᶠ p : ℝ × ℝ in LU,
      Real.sqrt m / 2 ≤ Real.sqrt (f p.1 p.2) + (Real.sqrt (a p.1) + b p.1 / (2 * Real.sqrt (a p.1)) * p.2) := by
    filter_upwards [hsmall.eventually (Ioi_mem_nhds (show (-(Real.sqrt m / 2)) < 0 by linarith))] with p hp
    have h1 := hsm p.1
    have h2 := Real.sqrt_nonneg (f p.1 p.2)
    have hp : -(Real.sqrt m / 2) < b p.1 / (2 * Real.sqrt (a p.1)) * p.2 := hp
    linarith
  have hinv : (fun p : ℝ × ℝ => (Real.sqrt (f p.1 p.2) + (Real.sqrt (a p.1) + b p.1 / (2 * Real.sqrt (a p.1)) * p.2))⁻¹)
      =O[LU] fun _ => (1 : ℝ) := by
    refine IsBigO.of_bound ((Real.sqrt m / 2)⁻¹) ?_
    filter_upwards [hden] with p hp
    rw [Real.norm_eq_abs, abs_inv, abs_of_pos ((half_pos hs0).trans_le hp), norm_one, mul_one]
    exact inv_anti₀ (half_pos hs0) hp
  have h3 : (fun p : ℝ × ℝ => (-(b p.1 / (2 * Real.sqrt (a p.1))) * (b p.1 / (2 * Real.sqrt (a p.1)))) * p.2 ^ 2)
      =O[LU] fun p => p.2 ^ 2 := by
    simpa using (hb2.neg.mul hb2).isBigO.mul (isBigO_refl (fun p : ℝ × ℝ => p.2 ^ 2) LU)
  have h4 := (h.2.2.add h3).mul hinv
  simp only [mul_one] at h4
  refine h4.congr' ?_ (EventuallyEq.refl _ _)
  filter_upwards [hl, hden] with p hp hn
  have hf : 0 < f p.1 p.2 := (half_pos hm).trans_le hp
  have e1 : Real.sqrt (f p.1 p.2) * Real.sqrt (f p.1 p.2) = f p.1 p.2 := Real.mul_self_sqrt hf.le
  have e2 : Real.sqrt (a p.1) * Real.sqrt (a p.1) = a p.1 := Real.mul_self_sqrt (hm.le.trans (ha p.1))
  have hs := (hs0.trans_le (hsm p.1)).ne'
  rw [← div_eq_mul_inv, div_eq_iff ((half_pos hs0).trans_le hn).ne']
  have e3 : 2 * (b p.1 / (2 * Real.sqrt (a p.1))) * Real.sqrt (a p.1) = b p.1 := by field_simp
  linear_combination (-1) * e1 + e2 + p.2 * e3

/-- Bound of a function by its derivative, uniform in the parameter. -/
theorem deriv_step {G G' : ℝ → ℝ → ℝ} {C : ℝ} {k : ℕ} (hd : ∀ t r, HasDerivAt (G t) (G' t r) r) (h0 : ∀ t, G t 0 = 0)
    (hb : ∀ t r, 0 ≤ r → r ≤ 1 → |G' t r| ≤ C * r ^ k) : ∀ t r, 0 ≤ r → r ≤ 1 → |G t r| ≤ C * r ^ (k + 1) := by
  intro t r hr0 hr1
  have hC : 0 ≤ C := by
    have := (abs_nonneg _).trans (hb 0 1 zero_le_one le_rfl)
    simpa using this
  have h := (convex_Icc (0 : ℝ) r).norm_image_sub_le_of_norm_hasDerivWithin_le (f := G t) (f' := G' t) (C := C * r ^ k)
    (fun s _ => (hd t s).hasDerivWithinAt) (fun s hs => ?_) (x := 0) (y := r) ⟨le_rfl, hr0⟩ ⟨hr0, le_rfl⟩
  · rw [h0, sub_zero, sub_zero, Real.norm_eq_abs, Real.norm_eq_abs, abs_of_nonneg hr0] at h
    rw [pow_succ, ← mul_assoc]
    exact h
  · refine (hb t s hs.1 (hs.2.trans hr1)).trans ?_
    exact mul_le_mul_of_nonneg_left (pow_le_pow_left₀ hs.1 hs.2 k) hC

end PiBem.Kernel
