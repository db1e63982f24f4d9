import Verif.Props.FreeCoeffs

/-!
# Free coefficients: angular order of the normals and the vector `b` (C66)
-/

noncomputable section

namespace PiBem.Bem

open PiBem.Expansion (V3 rho dot)
open PiBem.Harmonic (rho_nonneg rho_sq rho_eq_zero)

/-! ## Angular order -/

/-- The vector of the plane of `f` and `g` with angle `φ`. -/
def atAngle (f g : V3) (φ : ℝ) : V3 := fun d => Real.cos φ * f d + Real.sin φ * g d

/-- `f`, `g`, `a` orthonormal and right handed. -/
structure RightFrame (f g a : V3) : Prop where
  ff : dot f f = 1
  gg : dot g g = 1
  fg : dot f g = 0
  cr : cross f g = a

theorem rf_quadrant {f g a : V3} (h : RightFrame f g a) (ha : dot a a = 1) (x y : ℝ) :
    dot a (cross (atAngle f g x) (atAngle f g y)) = Real.sin (y - x) := by
  have hc : ∀ d, cross (atAngle f g x) (atAngle f g y) d = Real.sin (y - x) * a d := by
    intro d
    rw [← h.cr, Real.sin_sub]
    fin_cases d <;> simp [cross, atAngle] <;> ring
  have : cross (atAngle f g x) (atAngle f g y) = fun d => Real.sin (y - x) * a d := funext hc
  rw [this]
  simp only [dot] at ha ⊢
  linear_combination Real.sin (y - x) * ha

theorem rf_dot {f g a : V3} (h : RightFrame f g a) (x y : ℝ) :
    dot (atAngle f g x) (atAngle f g y) = Real.cos (y - x) := by
  have h1 := h.ff; have h2 := h.gg; have h3 := h.fg
  rw [Real.cos_sub]
  simp only [dot, atAngle] at h1 h2 h3 ⊢
  linear_combination Real.cos x * Real.cos y * h1 + Real.sin x * Real.sin y * h2 +
    (Real.cos x * Real.sin y + Real.sin x * Real.cos y) * h3

/-- State of the loop choosing the next normal after the first `p` candidates. -/
def PickInv (x : ℝ) (ang : ℕ → ℝ) (p : ℕ) (s : ℝ × ℕ) : Prop :=
  (s = (100, 0) ∧ ∀ q, q < p → ¬ ang q < x + Real.pi) ∨
  (s.2 < p ∧ ang s.2 < x + Real.pi ∧ s.1 = ang s.2 - x ∧ ∀ q, q < p → ang s.2 ≤ ang q)

theorem pick_min {f g a : V3} (h : RightFrame f g a) (ha : dot a a = 1) {x : ℝ} {R : List (V3 × V3)} {ang : ℕ → ℝ}
    (hang : ∀ p, p < R.length → (R.getD p (0, 0)).2 = atAngle f g (ang p) ∧ x < ang p ∧ ang p < x + 2 * Real.pi)
    (hgap : ∃ p, p < R.length ∧ ang p < x + Real.pi) :
    pickIndex a (atAngle f g x) R < R.length ∧
      ∀ q, q < R.length → ang (pickIndex a (atAngle f g x) R) ≤ ang q := by
  have hpi := Real.pi_pos
  have step : ∀ p, p < R.length → ∀ s, PickInv x ang p s → PickInv x ang (p + 1)
      (open Classical in if dot a (cross (atAngle f g x) (R.getD p (0, 0)).2) > 0 ∧
        Real.arccos (dot (atAngle f g x) (R.getD p (0, 0)).2) < s.1
        then (Real.arccos (dot (atAngle f g x) (R.getD p (0, 0)).2), p) else s) := by
      intro p hp s ih
      obtain ⟨h1, h2, h3⟩ := hang p hp
      rw [h1, rf_quadrant h ha, rf_dot h]
      by_cases hc : ang p < x + Real.pi
      · have hq : Real.sin (ang p - x) > 0 := Real.sin_pos_of_pos_of_lt_pi (by linarith) (by linarith)
        have hs : Real.arccos (Real.cos (ang p - x)) = ang p - x := Real.arccos_cos (by linarith) (by linarith)
        rw [hs]
        rcases ih with ⟨rfl, hno⟩ | ⟨i1, i2, i3, i4⟩
        · rw [if_pos ⟨hq, by have := Real.pi_le_four; show ang p - x < 100; linarith⟩]
          refine Or.inr ⟨Nat.lt_succ_self p, hc, rfl, fun q hq => ?_⟩
          rcases Nat.lt_succ_iff_lt_or_eq.1 hq with hq | rfl
          · have := hno q hq; push Not at this; exact le_trans hc.le this
          · exact le_refl _
        · by_cases hlt : ang p - x < s.1
          · rw [if_pos ⟨hq, hlt⟩]
            refine Or.inr ⟨Nat.lt_succ_self p, hc, rfl, fun q hq => ?_⟩
            rcases Nat.lt_succ_iff_lt_or_eq.1 hq with hq | rfl
            · have := i4 q hq; rw [i3] at hlt; show ang p ≤ ang q; linarith
            · exact le_refl _
          · rw [if_neg fun hx => hlt hx.2]
            refine Or.inr ⟨Nat.lt_succ_of_lt i1, i2, i3, fun q hq => ?_⟩
            rcases Nat.lt_succ_iff_lt_or_eq.1 hq with hq | rfl
            · exact i4 q hq
            · rw [i3] at hlt; linarith
      · have hq : ¬ Real.sin (ang p - x) > 0 := by
          push Not at hc
          have : Real.sin (ang p - x - Real.pi) = -Real.sin (ang p - x) := Real.sin_sub_pi _
          have h5 := Real.sin_nonneg_of_nonneg_of_le_pi (x := ang p - x - Real.pi) (by linarith) (by linarith)
          linarith
        rw [if_neg fun hx => hq hx.1]
        rcases ih with ⟨rfl, hno⟩ | ⟨i1, i2, i3, i4⟩
        · refine Or.inl ⟨rfl, fun q hq => ?_⟩
          rcases Nat.lt_succ_iff_lt_or_eq.1 hq with hq | rfl
          · exact hno q hq
          · exact hc
        · refine Or.inr ⟨Nat.lt_succ_of_lt i1, i2, i3, fun q hq => ?_⟩
          rcases Nat.lt_succ_iff_lt_or_eq.1 hq with hq | rfl
          · exact i4 q hq
          · push Not at hc; linarith
  have key : ∀ p, p ≤ R.length → PickInv x ang p ((List.range p).foldl (fun (s : ℝ × ℕ) p =>
      let q := (R.getD p (0, 0)).2
      let quadrant := dot a (cross (atAngle f g x) q)
      let sorter := Real.arccos (dot (atAngle f g x) q)
      open Classical in if quadrant > 0 ∧ sorter < s.1 then (sorter, p) else s) (100, 0)) := by
    intro p
    induction p with
    | zero => intro _; exact Or.inl ⟨rfl, fun q hq => absurd hq (Nat.not_lt_zero q)⟩
    | succ p ih =>
      intro hp
      rw [List.range_succ, List.foldl_append, List.foldl_cons, List.foldl_nil]
      exact step p (by omega) _ (ih (by omega))
  have hk := key R.length (le_refl _)
  have e : ((List.range R.length).foldl (fun (s : ℝ × ℕ) p =>
      let q := (R.getD p (0, 0)).2
      let quadrant := dot a (cross (atAngle f g x) q)
      let sorter := Real.arccos (dot (atAngle f g x) q)
      open Classical in if quadrant > 0 ∧ sorter < s.1 then (sorter, p) else s) (100, 0)).2 =
      pickIndex a (atAngle f g x) R := rfl
  obtain ⟨p, hp, hp'⟩ := hgap
  rcases hk with ⟨_, hno⟩ | ⟨h1, h2, h3, h4⟩
  · exact absurd hp' (hno p hp)
  · rw [e] at h1 h4
    exact ⟨h1, h4⟩

/-- sortedness of the loop: `U` are all the normals, `φ` their angles -/
theorem orderLoop_sorted {f g a : V3} (h : RightFrame f g a) (ha : dot a a = 1) (φ : V3 → ℝ) (pr : V3 → V3) (U : List V3)
    (hpr : ∀ n ∈ U, pr n = atAngle f g (φ n))
    (hgap : ∀ x ∈ U, ∀ y ∈ U, φ x < φ y → ∃ z ∈ U, φ x < φ z ∧ φ z < φ x + Real.pi)
    (hspan : ∀ x ∈ U, ∀ y ∈ U, φ y < φ x + 2 * Real.pi) (hinj : ∀ x ∈ U, ∀ y ∈ U, φ x = φ y → x = y) (m : ℕ) :
    ∀ (x : V3) (R : List V3), R.length = m → x ∈ U → R.Nodup → (∀ n, n ∈ R ↔ n ∈ U ∧ φ x < φ n) →
      (x :: orderLoop a m (pr x) (R.map fun n => (n, pr n))).Pairwise (fun n n' => φ n < φ n') := by
  induction m with
  | zero => intro x R _ _ _ _; exact List.pairwise_singleton _ _
  | succ m ih =>
    intro x R hlen hx hnd hR
    unfold orderLoop
    set R' := R.map fun n => (n, pr n) with hR'
    have hlen' : R'.length = R.length := by simp [hR']
    have hget : ∀ p, (hp : p < R.length) → R'.getD p (0, 0) = (R[p], pr R[p]) := by
      intro p hp
      rw [List.getD_eq_getElem _ _ (by rw [hlen']; exact hp)]
      simp [hR']
    have hmemR : ∀ p, (hp : p < R.length) → R[p] ∈ U ∧ φ x < φ R[p] := fun p hp => (hR _).1 (List.getElem_mem hp)
    obtain ⟨y, hy⟩ : ∃ y, y ∈ R := by
      cases R with
      | nil => simp at hlen
      | cons y _ => exact ⟨y, by simp⟩
    obtain ⟨z, hz, hz1, hz2⟩ := hgap x hx y ((hR y).1 hy).1 ((hR y).1 hy).2
    obtain ⟨pz, hpz, hpz'⟩ := List.mem_iff_getElem.1 ((hR z).2 ⟨hz, hz1⟩)
    set ang : ℕ → ℝ := fun p => φ (R.getD p 0) with hang
    have hangp : ∀ p, (hp : p < R.length) → ang p = φ R[p] := by
      intro p hp; simp only [hang]; rw [List.getD_eq_getElem _ _ hp]
    have hmin := pick_min (R := R') h ha (x := φ x) (ang := ang)
      (by
        intro p hp
        rw [hlen'] at hp
        rw [hget p hp, hangp p hp]
        exact ⟨hpr _ (hmemR p hp).1, (hmemR p hp).2, hspan x hx _ (hmemR p hp).1⟩)
      ⟨pz, by rw [hlen']; exact hpz, by rw [hangp pz hpz, hpz']; exact hz2⟩
    rw [← hpr x hx] at hmin
    set k := pickIndex a (pr x) R' with hk
    obtain ⟨hkl, hkm⟩ := hmin
    rw [hlen'] at hkl
    have hx' := hget k hkl
    show (x :: (R'.getD k (0, 0)).1 :: orderLoop a m (R'.getD k (0, 0)).2 (R'.eraseIdx k)).Pairwise _
    rw [hx']
    have herase : R'.eraseIdx k = (R.eraseIdx k).map fun n => (n, pr n) := by rw [hR', List.eraseIdx_map]
    rw [herase]
    have hle : ∀ n ∈ R, φ R[k] ≤ φ n := by
      intro n hn
      obtain ⟨q, hq, rfl⟩ := List.mem_iff_getElem.1 hn
      have := hkm q (by rw [hlen']; exact hq)
      rwa [hangp k hkl, hangp q hq] at this
    have hperm : R.Perm (R[k] :: R.eraseIdx k) := (List.getElem_cons_eraseIdx_perm hkl).symm
    have hnd' : (R[k] :: R.eraseIdx k).Nodup := hperm.nodup_iff.1 hnd
    have hR2 : ∀ n, n ∈ R.eraseIdx k ↔ n ∈ U ∧ φ R[k] < φ n := by
      intro n
      constructor
      · intro hn
        have hnR : n ∈ R := hperm.mem_iff.2 (List.mem_cons_of_mem _ hn)
        refine ⟨((hR n).1 hnR).1, lt_of_le_of_ne (hle n hnR) fun he => ?_⟩
        have := hinj _ (hmemR k hkl).1 n ((hR n).1 hnR).1 he
        rw [this] at hnd'
        exact (List.nodup_cons.1 hnd').1 hn
      · rintro ⟨hnU, hlt⟩
        have hnR : n ∈ R := (hR n).2 ⟨hnU, lt_trans (hmemR k hkl).2 hlt⟩
        rcases List.mem_cons.1 (hperm.mem_iff.1 hnR) with he | he
        · rw [he] at hlt; exact absurd hlt (lt_irrefl _)
        · exact he
    have hrest := ih R[k] (R.eraseIdx k) (by rw [List.length_eraseIdx_of_lt hkl]; omega) (hmemR k hkl).1
      (List.nodup_cons.1 hnd').2 hR2
    refine List.Pairwise.cons ?_ hrest
    intro n hn
    rcases List.mem_cons.1 hn with rfl | hn
    · exact (hmemR k hkl).2
    · exact lt_trans (hmemR k hkl).2 (List.rel_of_pairwise_cons hrest hn)

/-! ### The average normal balances the projections -/

/-- component of `n` orthogonal to `a` -/
def perp (a n : V3) : V3 := fun d => ∑ e, (-1 * (a d * a e) + if d = e then 1 else 0) * n e

theorem perp_eq (a n : V3) (d : Fin 3) : perp a n d = n d - dot a n * a d := by
  unfold perp dot
  rw [Fin.sum_univ_three]
  fin_cases d <;> simp <;> ring

theorem sum_dot (U : List V3) (v : V3) : dot (U.foldl (fun s u => s + u) 0) v = (U.map fun u => dot u v).sum := by
  have key : ∀ (U : List V3) (s : V3), dot (U.foldl (fun s u => s + u) s) v = dot s v + (U.map fun u => dot u v).sum := by
    intro U
    induction U with
    | nil => intro s; simp
    | cons u U ih =>
      intro s
      rw [List.foldl_cons, ih, List.map_cons, List.sum_cons]
      simp only [dot, Pi.add_apply]
      ring
  rw [key]
  simp [dot]

/-- the sum of the normals is a multiple of the average normal -/
theorem average_sum (U : List V3) (hne : averageNormal U ≠ 0) :
    ∃ c : ℝ, ∀ v, (U.map fun u => dot u v).sum = c * dot (averageNormal U) v := by
  set s := U.foldl (fun s u => s + fun d => u d * (1 / (U.length : ℝ))) 0 with hs
  have hlen : (U.length : ℝ) ≠ 0 := by
    intro h0
    apply hne
    have : U = [] := List.length_eq_zero_iff.1 (by exact_mod_cast h0)
    subst this
    funext d
    simp [averageNormal, unit, Expansion.rho]
  have key : ∀ (V : List V3) (c : ℝ) (s : V3), V.foldl (fun s u => s + fun d => u d * c) s =
      s + fun d => (V.foldl (fun s u => s + u) (0 : V3)) d * c := by
    intro V c
    have aux : ∀ (V : List V3) (t : V3), V.foldl (fun s u => s + u) t = t + V.foldl (fun s u => s + u) (0 : V3) := by
      intro V
      induction V with
      | nil => intro t; simp
      | cons u V ih => intro t; rw [List.foldl_cons, ih, List.foldl_cons, ih (0 + u)]; rw [zero_add, add_assoc]
    induction V with
    | nil => intro s; simp; rfl
    | cons u V ih =>
      intro s
      rw [List.foldl_cons, ih, List.foldl_cons, aux V (0 + u), zero_add]
      funext d
      simp only [Pi.add_apply]
      ring
  have hr : rho s ≠ 0 := by
    intro h0
    apply hne
    funext d
    show s d / rho s = 0
    rw [h0, div_zero]
  refine ⟨U.length * rho s, fun v => ?_⟩
  rw [← sum_dot]
  have h1 : ∀ d, s d = (U.foldl (fun s u => s + u) (0 : V3)) d * (1 / (U.length : ℝ)) := by
    intro d; rw [hs, key]; simp
  have h2 : ∀ d, averageNormal U d = s d / rho s := fun d => rfl
  simp only [dot, h2, h1]
  field_simp

theorem avg_unit (U : List V3) (hne : averageNormal U ≠ 0) :
    dot (averageNormal U) (averageNormal U) = 1 := by
  set s := U.foldl (fun s u => s + fun d => u d * (1 / (U.length : ℝ))) 0 with hs
  have hr : rho s ≠ 0 := by
    intro h0
    apply hne
    funext d
    show s d / rho s = 0
    rw [h0, div_zero]
  have h2 : ∀ d, averageNormal U d = s d / rho s := fun d => rfl
  simp only [dot, h2]
  have := rho_sq s
  field_simp
  linarith

theorem list_sum_nonpos (l : List ℝ) (h : ∀ y ∈ l, y ≤ 0) : l.sum ≤ 0 := by
  induction l with
  | nil => simp
  | cons x l ih =>
    rw [List.sum_cons]
    have := ih fun y hy => h y (by simp [hy])
    have := h x (by simp)
    linarith

/-- **C66** (angular order). Let the unique normals of a node have a non-zero average, let `φ` be the angles of their
projections on the plane orthogonal to the average (counterclockwise, starting from the first normal), all different and
not all on a line. Then the ordered normals are sorted by increasing angle: cyclically consecutive normals in the formulas
of `hyp_alpha` and of the tensor are angularly consecutive. -/
theorem C66_angular_order (u : V3) (R : List V3) (f g : V3) (φ : V3 → ℝ) (hnd : (u :: R).Nodup)
    (hne : averageNormal (u :: R) ≠ 0) (h : RightFrame f g (averageNormal (u :: R)))
    (hpr : ∀ n ∈ u :: R, projected (averageNormal (u :: R)) n = atAngle f g (φ n))
    (hR : ∀ n ∈ R, φ u < φ n ∧ φ n < φ u + 2 * Real.pi) (hinj : ∀ n ∈ R, ∀ m ∈ R, φ n = φ m → n = m)
    (hline : ∃ n ∈ u :: R, Real.sin (φ n - φ u) ≠ 0) :
    (orderedNormals (u :: R)).Pairwise fun n m => φ n < φ m := by
  set U := u :: R with hU
  set a := averageNormal U with ha
  have ha1 := avg_unit U hne
  have hpi := Real.pi_pos
  have hspan0 : ∀ n ∈ U, φ u ≤ φ n ∧ φ n < φ u + 2 * Real.pi := by
    intro n hn
    rcases List.mem_cons.1 hn with rfl | hn
    · exact ⟨le_refl _, by linarith⟩
    · exact ⟨(hR n hn).1.le, (hR n hn).2⟩
  have hinj' : ∀ x ∈ U, ∀ y ∈ U, φ x = φ y → x = y := by
    intro x hx y hy he
    rcases List.mem_cons.1 hx with e | hx1 <;> rcases List.mem_cons.1 hy with e' | hy1
    · rw [e, e']
    · have := (hR y hy1).1; rw [← he, e] at this; exact absurd this (lt_irrefl _)
    · have := (hR x hx1).1; rw [he, e'] at this; exact absurd this (lt_irrefl _)
    · exact hinj x hx1 y hy1 he
  -- projections: positive multiples of the unit vectors
  have hfa : dot f a = 0 := by rw [← h.cr]; simp [dot, cross]; ring
  have hga : dot g a = 0 := by rw [← h.cr]; simp [dot, cross]; ring
  have hproj : ∀ n ∈ U, ∃ r : ℝ, 0 < r ∧ ∀ d, perp a n d = r * atAngle f g (φ n) d := by
    intro n hn
    have h1 := hpr n hn
    refine ⟨rho (perp a n), ?_, fun d => ?_⟩
    · refine lt_of_le_of_ne (rho_nonneg _) fun h0 => ?_
      have hz : atAngle f g (φ n) = 0 := by
        rw [← h1]; funext d
        show perp a n d / rho (perp a n) = 0
        rw [← h0, div_zero]
      have h2 := rf_dot h (φ n) (φ n)
      rw [hz, sub_self, Real.cos_zero] at h2
      simp [dot] at h2
    · have h2 := congrFun h1 d
      change perp a n d / rho (perp a n) = _ at h2
      have h3 : rho (perp a n) ≠ 0 := by
        intro h0
        have hz : atAngle f g (φ n) = 0 := by
          rw [← h1]; funext d
          show perp a n d / rho (perp a n) = 0
          rw [h0, div_zero]
        have h2 := rf_dot h (φ n) (φ n)
        rw [hz, sub_self, Real.cos_zero] at h2
        simp [dot] at h2
      rw [← h2]; field_simp
  -- balance along the vector orthogonal to the direction with angle x
  obtain ⟨c, hc⟩ := average_sum U hne
  have hbal : ∀ x : ℝ, ∃ r : V3 → ℝ, (∀ n ∈ U, 0 < r n) ∧ (U.map fun n => r n * Real.sin (φ n - x)).sum = 0 := by
    intro x
    choose! r hr0 hr using hproj
    refine ⟨r, hr0, ?_⟩
    set w : V3 := atAngle f g (x + Real.pi / 2) with hw
    have hwa : dot a w = 0 := by
      have : dot a w = Real.cos (x + Real.pi / 2) * dot f a + Real.sin (x + Real.pi / 2) * dot g a := by
        simp only [dot, hw, atAngle]; ring
      rw [this, hfa, hga]; ring
    have h1 : ∀ n ∈ U, r n * Real.sin (φ n - x) = dot n w := by
      intro n hn
      have h2 : dot (perp a n) w = dot n w := by
        have : dot (perp a n) w = dot n w - dot a n * dot a w := by
          simp only [dot, perp_eq]; ring
        rw [this, hwa]; ring
      rw [← h2]
      have h3 : dot (perp a n) w = r n * dot (atAngle f g (φ n)) w := by
        simp only [dot, hr n hn]; ring
      rw [h3, hw, rf_dot h]
      congr 1
      rw [show x + Real.pi / 2 - φ n = Real.pi / 2 - (φ n - x) by ring, Real.cos_pi_div_two_sub]
    rw [List.map_congr_left h1, hc, hwa, mul_zero]
  -- from a normal there is another one in the next half turn
  have hhalf : ∀ x ∈ U, ∃ z ∈ U, 0 < Real.sin (φ z - φ x) := by
    intro x hx
    by_contra hno
    push Not at hno
    obtain ⟨r, hr0, hr⟩ := hbal (φ x)
    have hall : ∀ n ∈ U, Real.sin (φ n - φ x) = 0 := by
      intro n hn
      by_contra hne'
      have hlt : Real.sin (φ n - φ x) < 0 := lt_of_le_of_ne (hno n hn) hne'
      have : (U.map fun n => r n * Real.sin (φ n - φ x)).sum < 0 := by
        obtain ⟨l1, l2, hsplit⟩ := List.append_of_mem hn
        rw [hsplit, List.map_append, List.map_cons, List.sum_append, List.sum_cons]
        have h1 : (l1.map fun n => r n * Real.sin (φ n - φ x)).sum ≤ 0 := by
          refine list_sum_nonpos _ fun y hy => ?_
          obtain ⟨n', hn', rfl⟩ := List.mem_map.1 hy
          have hm : n' ∈ U := by rw [hsplit]; simp [hn']
          exact mul_nonpos_of_nonneg_of_nonpos (hr0 n' hm).le (hno n' hm)
        have h2 : (l2.map fun n => r n * Real.sin (φ n - φ x)).sum ≤ 0 := by
          refine list_sum_nonpos _ fun y hy => ?_
          obtain ⟨n', hn', rfl⟩ := List.mem_map.1 hy
          have hm : n' ∈ U := by rw [hsplit]; simp [hn']
          exact mul_nonpos_of_nonneg_of_nonpos (hr0 n' hm).le (hno n' hm)
        have h3 := mul_neg_of_pos_of_neg (hr0 n hn) hlt
        linarith
      linarith
    obtain ⟨n, hn, hn'⟩ := hline
    apply hn'
    have e1 := hall n hn
    have e2 := hall u (by simp [hU])
    have : φ n - φ u = (φ n - φ x) - (φ u - φ x) := by ring
    rw [this, Real.sin_sub, e1, e2]; ring
  have hgap : ∀ x ∈ U, ∀ y ∈ U, φ x < φ y → ∃ z ∈ U, φ x < φ z ∧ φ z < φ x + Real.pi := by
    intro x hx y hy hxy
    by_contra hno
    push Not at hno
    obtain ⟨z, hz, hs⟩ := hhalf x hx
    have b1 := hspan0 x hx
    have b2 := hspan0 y hy
    have b3 := hspan0 z hz
    rcases lt_trichotomy (φ x) (φ z) with hlt | heq | hgt
    · have h1 := hno z hz hlt
      have : Real.sin (φ z - φ x - Real.pi) = -Real.sin (φ z - φ x) := Real.sin_sub_pi _
      have h5 := Real.sin_nonneg_of_nonneg_of_le_pi (x := φ z - φ x - Real.pi) (by linarith) (by linarith)
      linarith
    · rw [heq, sub_self, Real.sin_zero] at hs; exact absurd hs (lt_irrefl _)
    · by_cases h2 : φ x - φ z < Real.pi
      · have h5 := Real.sin_pos_of_pos_of_lt_pi (x := φ x - φ z) (by linarith) h2
        have : Real.sin (φ z - φ x) = -Real.sin (φ x - φ z) := by rw [← Real.sin_neg]; congr 1; ring
        linarith
      · push Not at h2
        have h3 := hno y hy hxy
        linarith
  have hspan : ∀ x ∈ U, ∀ y ∈ U, φ y < φ x + 2 * Real.pi := by
    intro x hx y hy
    have b1 := hspan0 x hx
    have b2 := hspan0 y hy
    linarith
  have := orderLoop_sorted h ha1 φ (projected a) U hpr hgap hspan hinj' R.length u R rfl (by simp [hU])
    (List.nodup_cons.1 hnd).2 (by
      intro n
      constructor
      · intro hn; exact ⟨by simp [hU, hn], (hR n hn).1⟩
      · rintro ⟨hn, hlt⟩
        rcases List.mem_cons.1 hn with rfl | hn
        · exact absurd hlt (lt_irrefl _)
        · exact hn)
  exact this

/-! ### A concrete case: the apex of a pyramid, faces visited as opposite pairs -/

/-- normals of the pyramid in the order of the cells -/
def pyramid : List V3 := [![3 / 5, 0, 4 / 5], ![-3 / 5, 0, 4 / 5], ![0, 3 / 5, 4 / 5], ![0, -3 / 5, 4 / 5]]

open Classical in
/-- their angles -/
def pyramidAngle (n : V3) : ℝ :=
  if 0 < n 0 then 0 else if n 0 < 0 then Real.pi else if 0 < n 1 then Real.pi / 2 else 3 * Real.pi / 2

theorem pyramid_average : averageNormal pyramid = ![0, 0, 1] := by
  have h : pyramid.foldl (fun s u => s + fun d => u d * (1 / (pyramid.length : ℝ))) 0 = ![0, 0, 4 / 5] := by
    funext d; fin_cases d <;> simp [pyramid] <;> norm_num
  unfold averageNormal
  rw [h]
  have hr : rho ![0, 0, 4 / 5] = 4 / 5 := by
    unfold rho
    rw [show ((![0, 0, 4 / 5] : V3) 0 ^ 2 + (![0, 0, 4 / 5] : V3) 1 ^ 2 + (![0, 0, 4 / 5] : V3) 2 ^ 2) = (4 / 5) ^ 2 by simp]
    exact Real.sqrt_sq (by norm_num)
  funext d
  unfold unit
  rw [hr]
  fin_cases d <;> simp

theorem pyramid_projected (x y : ℝ) (h : x ^ 2 + y ^ 2 = (3 / 5) ^ 2) :
    projected ![0, 0, 1] ![x, y, 4 / 5] = ![x / (3 / 5), y / (3 / 5), 0] := by
  have hp : (fun d => ∑ e, (-1 * ((![0, 0, 1] : V3) d * (![0, 0, 1] : V3) e) + if d = e then 1 else 0) *
      (![x, y, 4 / 5] : V3) e) = ![x, y, 0] := by
    funext d
    rw [Fin.sum_univ_three]
    fin_cases d <;> simp
  unfold projected
  rw [hp]
  have hr : rho ![x, y, 0] = 3 / 5 := by
    unfold rho
    rw [show ((![x, y, 0] : V3) 0 ^ 2 + (![x, y, 0] : V3) 1 ^ 2 + (![x, y, 0] : V3) 2 ^ 2) = (3 / 5) ^ 2 by simp [← h]]
    exact Real.sqrt_sq (by norm_num)
  funext d
  unfold unit
  rw [hr]
  fin_cases d <;> simp

example : (orderedNormals pyramid).Pairwise fun n m => pyramidAngle n < pyramidAngle m := by
  have hpi := Real.pi_pos
  have a0 : pyramidAngle ![3 / 5, 0, 4 / 5] = 0 := by simp [pyramidAngle]
  have a1 : pyramidAngle ![-3 / 5, 0, 4 / 5] = Real.pi := by norm_num [pyramidAngle]
  have a2 : pyramidAngle ![0, 3 / 5, 4 / 5] = Real.pi / 2 := by simp [pyramidAngle]
  have a3 : pyramidAngle ![0, -3 / 5, 4 / 5] = 3 * Real.pi / 2 := by norm_num [pyramidAngle]
  refine C66_angular_order ![3 / 5, 0, 4 / 5] _ ![1, 0, 0] ![0, 1, 0] pyramidAngle ?_ ?_ ?_ ?_ ?_ ?_ ?_
  · refine List.Nodup.of_map pyramidAngle ?_
    simp only [List.map_cons, List.map_nil, a0, a1, a2, a3, List.nodup_cons, List.mem_cons, List.not_mem_nil, or_false,
      not_or, not_false_eq_true, List.nodup_nil, and_true]
    refine ⟨⟨?_, ?_, ?_⟩, ⟨?_, ?_⟩, ?_⟩ <;> intro h <;> linarith
  · show averageNormal pyramid ≠ 0
    rw [pyramid_average]
    intro h
    have := congrFun h 2
    simp at this
  · show RightFrame _ _ (averageNormal pyramid)
    rw [pyramid_average]
    refine ⟨by simp [dot], by simp [dot], by simp [dot], ?_⟩
    funext d; fin_cases d <;> simp [cross]
  · intro n hn
    show projected (averageNormal pyramid) n = _
    rw [pyramid_average]
    simp only [List.mem_cons, List.not_mem_nil, or_false] at hn
    have c3 : Real.cos (3 * Real.pi / 2) = 0 := by
      rw [show 3 * Real.pi / 2 = Real.pi / 2 + Real.pi by ring, Real.cos_add_pi, Real.cos_pi_div_two, neg_zero]
    have s3 : Real.sin (3 * Real.pi / 2) = -1 := by
      rw [show 3 * Real.pi / 2 = Real.pi / 2 + Real.pi by ring, Real.sin_add_pi, Real.sin_pi_div_two]
    rcases hn with rfl | rfl | rfl | rfl
    · rw [a0, pyramid_projected _ _ (by norm_num)]
      funext d; fin_cases d <;> simp [atAngle]
    · rw [a1, pyramid_projected _ _ (by norm_num)]
      funext d; fin_cases d <;> simp [atAngle]; norm_num
    · rw [a2, pyramid_projected _ _ (by norm_num)]
      funext d; fin_cases d <;> simp [atAngle]
    · rw [a3, pyramid_projected _ _ (by norm_num)]
      funext d; fin_cases d <;> simp [atAngle, c3, s3]; norm_num
  · intro n hn
    simp only [List.mem_cons, List.not_mem_nil, or_false] at hn
    rcases hn with rfl | rfl | rfl <;> simp only [a0, a1, a2, a3] <;> constructor <;> linarith
  · intro n hn m hm h
    simp only [List.mem_cons, List.not_mem_nil, or_false] at hn hm
    rcases hn with rfl | rfl | rfl <;> rcases hm with rfl | rfl | rfl <;> first | rfl | (simp only [a1, a2, a3] at h; linarith)
  · refine ⟨![0, 3 / 5, 4 / 5], by simp, ?_⟩
    rw [a2, a0, sub_zero, Real.sin_pi_div_two]
    norm_num

/-! ## Concrete edges -/

/-- the coordinate frame -/
def axes : Fin 3 → V3 := fun a i => if a = i then 1 else 0

theorem axes_frame : Frame axes := by
  intro a b
  fin_cases a <;> fin_cases b <;> simp [dot, axes]

/-- a right angle: `hyp_alpha = 1/4` -/
example (L : List V3) (hL : WedgeNode axes (Real.pi / 2) L) : (freeCoeffs L).1 = 1 / 4 ∧ (freeCoeffs L).2 0 1 = 1 / (2 * Real.pi) := by
  have hpi := Real.pi_pos
  have hsep : (1e-5 : ℝ) ≤ rho (wedgeNormal0 axes - wedgeNormal1 axes (Real.pi / 2)) := by
    unfold rho
    refine Real.le_sqrt_of_sq_le ?_
    simp [wedgeNormal0, wedgeNormal1, axes]
    norm_num
  rw [C66_convex_edge axes axes_frame (Real.pi / 2) (by linarith) (by linarith) hsep L hL]
  refine ⟨?_, ?_⟩
  · show wedgeFraction _ = _
    rw [wedgeFraction_eq]; field_simp; norm_num
  · show wedgeTensor _ _ 0 1 = _
    rw [wedgeTensor_eq axes_frame]; simp [axes]

/-- a reentrant right angle: `hyp_alpha = 1/4` instead of 3/4 -/
example (L : List V3) (hL : WedgeNode axes (3 * Real.pi / 2) L) :
    (freeCoeffs L).1 = 1 / 4 ∧ wedgeFraction (3 * Real.pi / 2) = 3 / 4 := by
  have hpi := Real.pi_pos
  have c3 : Real.cos (3 * Real.pi / 2) = 0 := by
    rw [show 3 * Real.pi / 2 = Real.pi / 2 + Real.pi by ring, Real.cos_add_pi, Real.cos_pi_div_two, neg_zero]
  have s3 : Real.sin (3 * Real.pi / 2) = -1 := by
    rw [show 3 * Real.pi / 2 = Real.pi / 2 + Real.pi by ring, Real.sin_add_pi, Real.sin_pi_div_two]
  have hsep : (1e-5 : ℝ) ≤ rho (wedgeNormal0 axes - wedgeNormal1 axes (3 * Real.pi / 2)) := by
    unfold rho
    refine Real.le_sqrt_of_sq_le ?_
    simp [wedgeNormal0, wedgeNormal1, axes, c3, s3]
    norm_num
  have hw : wedgeFraction (3 * Real.pi / 2) = 3 / 4 := by rw [wedgeFraction_eq]; field_simp; norm_num
  rw [C66_reentrant_edge axes axes_frame (3 * Real.pi / 2) (by linarith) (by linarith) hsep L hL, hw]
  exact ⟨by norm_num, rfl⟩

/-- the corner of a cube, with the three faces: `hyp_alpha = 1/8` and trace 3/8; not on a smooth surface -/
example : geomAlpha [![1, 0, 0], ![0, 1, 0], ![0, 0, 1]] = 1 / 8 ∧
    ∑ i, cMatrix [![1, 0, 0], ![0, 1, 0], ![0, 0, 1]] i i = 3 / 8 := by
  have h : geomAlpha [![1, 0, 0], ![0, 1, 0], ![0, 0, 1]] = 1 / 8 := by
    rw [alpha_three]
    simp [dot]
    have := Real.pi_ne_zero
    field_simp
    norm_num
  exact ⟨h, by rw [C66_trace, h]; norm_num⟩

/-! ## The vector `b` -/

theorem foldl_upd (l : List ℕ) (hl : l.Nodup) (x : ℝ) (B : ℕ → ℝ) (i : ℕ) :
    l.foldl (fun B i => Function.update B i (B i + x)) B i = B i + if i ∈ l then x else 0 := by
  induction l generalizing B with
  | nil => simp
  | cons a l ih =>
    rw [List.foldl_cons, ih (List.nodup_cons.1 hl).2]
    have ha := (List.nodup_cons.1 hl).1
    by_cases h : i = a
    · subst h; simp [ha]
    · simp [h]

theorem foldl_add_fun {A : Type} (l : List A) (step : (ℕ → ℝ) → A → (ℕ → ℝ)) (f : A → ℝ) (i : ℕ)
    (h : ∀ B x, step B x i = B i + f x) (B : ℕ → ℝ) : l.foldl step B i = B i + (l.map f).sum := by
  induction l generalizing B with
  | nil => simp
  | cons a l ih => rw [List.foldl_cons, ih, h, List.map_cons, List.sum_cons, add_assoc]

theorem freeB_eq (nCells : ℕ) (cellDofs : ℕ → List ℕ) (doubles : ℕ → Finset ℕ) (b : ℕ → ℕ → ℝ) (own : ℕ → Bool) (i : ℕ) :
    freeB nCells cellDofs doubles b own i = ∑ c ∈ Finset.range nCells, ∑ j ∈ Finset.range (cellDofs c).length,
      if own ((cellDofs c).getD j 0) = true ∧ i ∈ doubles ((cellDofs c).getD j 0) then b c j else 0 := by
  unfold freeB
  rw [foldl_add_fun _ _ (fun c => ∑ j ∈ Finset.range (cellDofs c).length,
    if own ((cellDofs c).getD j 0) = true ∧ i ∈ doubles ((cellDofs c).getD j 0) then b c j else 0) i, sum_list_range, zero_add]
  intro B c
  rw [foldl_add_fun _ _ (fun j =>
    if own ((cellDofs c).getD j 0) = true ∧ i ∈ doubles ((cellDofs c).getD j 0) then b c j else 0) i, sum_list_range]
  intro B j
  by_cases ho : own ((cellDofs c).getD j 0) = true
  · simp only [ho, if_true, true_and]
    rw [foldl_upd _ (Finset.sort_nodup _ _)]
    simp
  · rw [if_neg ho, if_neg (fun h => ho h.1), add_zero]

/-- **C66** (vector `b`). After adding the contributions of all processes, entry `i` of `b` is the sum over the cells and
the local dofs having `i` among their doubles of the integrals of `evaluate_free_term_b`: the same for all partitions, and
the same for all nodes with the same doubles. -/
theorem C66_free_b (nCells : ℕ) (cellDofs : ℕ → List ℕ) (doubles : ℕ → Finset ℕ) (b : ℕ → ℕ → ℝ) (procs : ℕ)
    (owner : ℕ → ℕ) (hown : ∀ i, owner i < procs) (i : ℕ) :
    ∑ p ∈ Finset.range procs, freeB nCells cellDofs doubles b (fun g => decide (owner g = p)) i =
      ∑ c ∈ Finset.range nCells, ∑ j ∈ Finset.range (cellDofs c).length,
        if i ∈ doubles ((cellDofs c).getD j 0) then b c j else 0 := by
  simp only [freeB_eq, decide_eq_true_eq]
  rw [Finset.sum_comm]
  refine Finset.sum_congr rfl fun c _ => ?_
  rw [Finset.sum_comm]
  refine Finset.sum_congr rfl fun j _ => ?_
  by_cases hi : i ∈ doubles ((cellDofs c).getD j 0)
  · simp only [hi, and_true, if_true]
    rw [Finset.sum_ite_eq, if_pos (Finset.mem_range.2 (hown _))]
  · simp only [hi, and_false, if_false, Finset.sum_const_zero]

/-- two cells with double nodes 1 and 2, on two processes: both get the two contributions -/
example : ∑ p ∈ Finset.range 2, freeB 2 (fun c => if c = 0 then [0, 1] else [2, 3])
    (fun g => if g = 1 ∨ g = 2 then {1, 2} else {g}) (fun c j => 10 * c + j + 1) (fun g => decide (g % 2 = p)) 1 = 13 := by
  rw [C66_free_b _ _ _ _ 2 (fun g => g % 2) (fun i => Nat.mod_lt _ (by norm_num))]
  norm_num [Finset.sum_range_succ]

end PiBem.Bem
