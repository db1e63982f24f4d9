import Verif.Fmm.NumericUp

/-! The downward pass with numbers (helper lemmas): geometry, kernels, error of the local expansions. -/

noncomputable section

namespace PiBem.Fmm

open PiBem.Octree PiBem.WorkStream PiBem.Expansion
open PiBem.Harmonic (rho_nonneg rho_sq rho_neg rho_eq_zero hasDerivAt_rho bound_mono bound_mono')

/-! ## Kernels -/

theorem dipole_potential {x y : Expansion.V3} (h : x ≠ y) (d : Expansion.V3) :
    deriv (fun t : ℝ => 1 / rho (x - (y + t • d))) 0 = dot (x - y) d / rho (x - y) ^ 3 := by
  have hv : x - y ≠ 0 := sub_ne_zero.mpr h
  have h0 : rho (x - y) ≠ 0 := fun h0 => hv (rho_eq_zero.mp h0)
  have h1 := hasDerivAt_rho (v := x - y) (d := -d) hv
  have e : (fun t : ℝ => 1 / rho (x - (y + t • d))) = fun t : ℝ => (rho (x - y + t • (-d)))⁻¹ := by
    funext t
    rw [one_div, show x - (y + t • d) = x - y + t • (-d) by simp; abel]
  have h2 := h1.inv (by simpa using h0)
  have h3 : (fun t : ℝ => rho (x - y + t • (-d)))⁻¹ = fun t : ℝ => (rho (x - y + t • (-d)))⁻¹ := rfl
  rw [h3] at h2
  rw [e, h2.deriv]
  have hd : dot (x - y) (-d) = -dot (x - y) d := by simp [dot]; ring
  rw [hd]
  simp only [zero_smul, add_zero]
  field_simp

theorem norm_eq_rho (v : Expansion.V3) : Kernel.norm v = rho v := by
  unfold Kernel.norm Kernel.square rho
  rw [Fin.sum_univ_three]; congr 1; ring

variable {inp : Input 3} {D : Data} {ker : Ker} {T : St 3}

/-- contribution of a regular quadrature point -/
def kv (inp : Input 3) (D : Data) (ker : Ker) (i : ℕ) (q : ℕ × ℕ) : ℝ := val inp D ker i (.reg q.1 q.2)

theorem kv_eq (hn : ∀ q, rho (D.normal q) = 1) {i : ℕ} {q : ℕ × ℕ} (h : toV (inp.pos i) ≠ toV (inp.qpos q)) :
    kv inp D ker i q = potential (srcs inp D ker q) (toV (inp.pos i)) := by
  set x := toV (inp.pos i) with hx
  set y := toV (inp.qpos q) with hy
  have h0 : rho (x - y) ≠ 0 := fun h0 => h (sub_eq_zero.mp (rho_eq_zero.mp h0))
  have hrev : rho (y - x) = rho (x - y) := by rw [← rho_neg]; congr 1; abel
  unfold kv val cellDot potential srcs
  rw [List.map_map, sum_range_list]
  refine Finset.sum_congr rfl fun j _ => ?_
  cases ker with
  | single =>
    simp only [regEntry, Kernel.kernels3, Function.comp_apply, src0, Source.scale, Source.potential, solAt, ← hx, ← hy,
      norm_eq_rho, hrev]
    field_simp
  | double =>
    have hver : versor (D.normal q) = D.normal q := by funext k; simp [versor, hn]
    have hdot : dot (fun a => (y - x) a / (-4 * Real.pi * (rho (x - y) * rho (x - y)) * rho (x - y))) (D.normal q) =
        dot (x - y) (D.normal q) / (4 * Real.pi * rho (x - y) ^ 3) := by
      simp only [dot, Pi.sub_apply]; field_simp; ring
    simp only [regEntry, Kernel.kernels3, Function.comp_apply, src0, Source.scale, Source.potential, solAt, ← hx, ← hy,
      norm_eq_rho, hrev]
    rw [dipole_potential h, hver, hdot]
    field_simp

/-! ## Geometry -/

theorem rho_toV (x y : Pt 3) : rho (toV x - toV y) ^ 2 = ((dist2 x y : ℚ) : ℝ) := by
  rw [rho_sq]
  simp [toV, dist2, Fin.sum_univ_three]

theorem rho_le_of {x y : Pt 3} {a : ℚ} (h : dist2 x y ≤ 3 / 4 * a ^ 2) (ha : 0 ≤ a) :
    rho (toV x - toV y) ≤ Real.sqrt 3 / 2 * a := by
  have h1 : rho (toV x - toV y) ^ 2 ≤ (Real.sqrt 3 / 2 * a) ^ 2 := by
    rw [rho_toV, mul_pow, div_pow, Real.sq_sqrt (by norm_num)]
    have : ((dist2 x y : ℚ) : ℝ) ≤ ((3 / 4 * a ^ 2 : ℚ) : ℝ) := by exact_mod_cast h
    push_cast at this
    linarith
  exact le_of_sq_le_sq₀ h1 (by positivity)
where
  le_of_sq_le_sq₀ {u v : ℝ} (h : u ^ 2 ≤ v ^ 2) (hv : 0 ≤ v) : u ≤ v := by
    exact (abs_le_of_sq_le_sq' h hv).2

theorem le_rho_of {x y : Pt 3} {a : ℚ} (h : a ^ 2 ≤ dist2 x y) : (a : ℝ) ≤ rho (toV x - toV y) := by
  have h1 : (a : ℝ) ^ 2 ≤ rho (toV x - toV y) ^ 2 := by
    rw [rho_toV]; exact_mod_cast h
  exact (abs_le_of_sq_le_sq' h1 (rho_nonneg _)).2

/-- finest side -/
def side (inp : Input 3) : ℝ := ((sideAt inp inp.levels : ℚ) : ℝ)

theorem side_le (t : Octree.Tree inp T) {b : ℕ} (hb : b < T.count) : side inp ≤ (((T.blocks b).delta : ℚ) : ℝ) := by
  have h1 := t.delta_eq hb
  have h2 := t.lev_le b hb
  have h3 := Tree.sideAt_add (inp := inp) (T.blocks b).level (inp.levels - (T.blocks b).level)
  rw [Nat.add_sub_cancel' h2] at h3
  have h4 := Tree.sideAt_nonneg inp inp.levels
  have h5 : (1 : ℚ) ≤ 2 ^ (inp.levels - (T.blocks b).level) := one_le_pow₀ (by norm_num)
  have : sideAt inp inp.levels ≤ (T.blocks b).delta := by rw [h1, h3]; nlinarith
  unfold side; exact_mod_cast this

theorem box_dist {b : Block 3} {x : Pt 3} (h : ∀ a, b.pMin a ≤ x a ∧ x a ≤ b.pMax a) :
    dist2 x (centre b) ≤ 3 / 4 * b.delta ^ 2 := by
  have hax : ∀ a, (x a - centre b a) ^ 2 ≤ b.delta ^ 2 / 4 := by
    intro a
    have h5 := h a
    unfold centre
    unfold Block.pMax at h5
    have : |x a - (b.pMin a + b.delta / 2)| ≤ b.delta / 2 := by
      rw [abs_le]; constructor <;> linarith [h5.1, h5.2]
    have h6 := pow_le_pow_left₀ (abs_nonneg _) this 2
    rw [sq_abs] at h6
    linarith [h6, show (b.delta / 2) ^ 2 = b.delta ^ 2 / 4 by ring]
  unfold dist2
  rw [Fin.sum_univ_three]
  linarith [hax 0, hax 1, hax 2]

theorem node_dist (t : Octree.Tree inp T) {k i : ℕ} (hk : k < T.count) (hi : i ∈ (T.blocks k).nodes) :
    rho (toV (inp.pos i) - ctr T k) ≤ Real.sqrt 3 / 2 * (((T.blocks k).delta : ℚ) : ℝ) := by
  refine rho_le_of (box_dist ?_) (t.delta_nonneg hk)
  have hi' : i < inp.nDofs := by
    have := mem_root_of_mem t.links hk (x := .inl i) hi
    simpa [Block.Mem, rootBlock] using this
  exact t.item_in_box (Or.inr rfl) (x := .inl i) (by
    intro a'
    have h5 := Tree.abs_le_maxCoor inp hi' a'
    have h6 := Tree.maxCoor_nonneg inp
    show |inp.pos i a'| ≤ _
    linarith) k hk hi

/-- quadrature points inside the root box -/
def InRoot (inp : Input 3) : Prop :=
  ∀ c q a, c < inp.nCells → q < inp.nq → |inp.qpos (c, q) a| ≤ 11 / 10 * maxCoor inp

theorem qp_dist (t : Octree.Tree inp T) (hroot : InRoot inp) {b : ℕ} {q : ℕ × ℕ} (hb : b < T.count)
    (hq : q ∈ (T.blocks b).qps) :
    rho (toV (inp.qpos q) - ctr T b) ≤ Real.sqrt 3 / 2 * (((T.blocks b).delta : ℚ) : ℝ) := by
  refine rho_le_of (box_dist ?_) (t.delta_nonneg hb)
  have hqa := (mem_allQps inp q).1 (mem_root_of_mem t.links hb (x := .inr q) hq)
  exact t.item_in_box (Or.inr rfl) (x := .inr q) (fun a' => hroot q.1 q.2 a' hqa.1 hqa.2) b hb hq

theorem sqrt3_lt : Real.sqrt 3 < 7 / 4 := by
  rw [show (7 / 4 : ℝ) = Real.sqrt ((7 / 4) ^ 2) by rw [Real.sqrt_sq (by norm_num)]]
  exact Real.sqrt_lt_sqrt (by norm_num) (by norm_num)

theorem sqrt3_gt : 1 < Real.sqrt 3 := by
  rw [show (1 : ℝ) = Real.sqrt 1 by simp]
  exact Real.sqrt_lt_sqrt (by norm_num) (by norm_num)

/-- the bound for a source -/
def sb (inp : Input 3) (D : Data) (s : Source) : ℝ := s.bound D.p (2 * side inp) (Real.sqrt 3 * side inp)

/-- the bound for a quadrature point -/
def bnd (inp : Input 3) (D : Data) (ker : Ker) (q : ℕ × ℕ) : ℝ := ((srcs inp D ker q).map (sb inp D)).sum

theorem mem_srcs_pos {q : ℕ × ℕ} {s : Source} (hs : s ∈ srcs inp D ker q) : s.pos = toV (inp.qpos q) := by
  unfold srcs at hs
  rw [List.mem_map] at hs
  obtain ⟨j, _, rfl⟩ := hs
  cases ker <;> simp [src0, Source.scale, Source.pos]

theorem bound_le_of (hs0 : 0 < side inp) (s : Source) {Dd r δ : ℝ} (hδ : side inp ≤ δ) (hr : 0 ≤ r)
    (hD : 2 * δ ≤ Dd) (hr' : r ≤ Real.sqrt 3 * δ) : s.bound D.p Dd r ≤ sb inp D s := by
  have h1 := sqrt3_lt
  have h2 := sqrt3_gt
  have hδ0 : 0 < δ := lt_of_lt_of_le hs0 hδ
  refine (bound_mono s D.p hr hr' (D' := 2 * δ) (by nlinarith) hD).trans ?_
  have e1 : Real.sqrt 3 * δ / (2 * δ) = Real.sqrt 3 / 2 := by field_simp
  have e2 : Real.sqrt 3 * side inp / (2 * side inp) = Real.sqrt 3 / 2 := by field_simp
  refine bound_mono' s D.p ?_ ?_ ?_ ?_ ?_
  · rw [e1]; positivity
  · rw [e1, e2]
  · rw [e2]; linarith
  · nlinarith
  · nlinarith

theorem bound_le_of' (hs0 : 0 < side inp) (s : Source) {Dd r δ : ℝ} (hδ : side inp ≤ δ) (hr : 0 ≤ r)
    (hD : 3 / 2 * δ ≤ Dd) (hr' : r ≤ Real.sqrt 3 / 2 * δ) : s.bound D.p Dd r ≤ sb inp D s := by
  have h1 := sqrt3_lt
  have h2 := sqrt3_gt
  have hδ0 : 0 < δ := lt_of_lt_of_le hs0 hδ
  refine (bound_mono s D.p hr hr' (D' := 3 / 2 * δ) (by nlinarith) hD).trans ?_
  have e1 : Real.sqrt 3 / 2 * δ / (3 / 2 * δ) = Real.sqrt 3 / 3 := by field_simp
  have e2 : Real.sqrt 3 * side inp / (2 * side inp) = Real.sqrt 3 / 2 := by field_simp
  refine bound_mono' s D.p ?_ ?_ ?_ ?_ ?_
  · rw [e1]; positivity
  · rw [e1, e2]; linarith
  · rw [e2]; linarith
  · nlinarith
  · nlinarith

/-- `a` and `b` differ at most by the sum of the bounds -/
theorem sum_MS_le (A : Multiset (ℕ × ℕ)) (f : Source → ℝ)
    (h : ∀ q ∈ A, ∀ s ∈ srcs inp D ker q, f s ≤ sb inp D s) :
    ((MS inp D ker A).map f).sum ≤ (A.map (bnd inp D ker)).sum := by
  rw [sum_map_MS]
  refine Multiset.sum_map_le_sum_map _ _ fun q hq => ?_
  exact List.sum_le_sum fun s hs => h q hq s hs

theorem potential_MS (A : Multiset (ℕ × ℕ)) (x : Expansion.V3) :
    potential (MS inp D ker A) x = (A.map fun q => potential (srcs inp D ker q) x).sum :=
  sum_map_MS inp D ker A _

/-! ## Error of local expansions -/

/-- the local expansion approximates, at the nodes of block `k`, the contributions of the points `A` -/
structure LocRel (inp : Input 3) (D : Data) (ker : Ker) (T : St 3) (k : ℕ) (e : Exp) (A : Multiset (ℕ × ℕ)) : Prop where
  p : e.p = D.p
  center : e.center = ctr T k
  zero : ZeroOk e
  err : ∀ i ∈ (T.blocks k).nodes,
    |(A.map (kv inp D ker i)).sum - lEval codeTable e (toV (inp.pos i))| ≤ (A.map (bnd inp D ker)).sum

theorem LocRel.new (k : ℕ) : LocRel inp D ker T k (Exp.new D.p (ctr T k)) 0 :=
  ⟨rfl, rfl, fun _ _ _ => rfl, fun i _ => by simp [lEval, Exp.new]⟩

theorem lAddParent_frame (e o : Exp) : (lAddParent codeTable e o).p = e.p ∧ (lAddParent codeTable e o).center = e.center := by
  unfold lAddParent Exp.addCoeffs; split_ifs <;> exact ⟨rfl, rfl⟩

theorem lAddMultipole_frame (e o : Exp) :
    (lAddMultipole codeTable e o).p = e.p ∧ (lAddMultipole codeTable e o).center = e.center := by
  unfold lAddMultipole Exp.addCoeffs; split_ifs <;> exact ⟨rfl, rfl⟩

/-- adding a local expansion that is right at the nodes of the block -/
theorem LocRel.addParent (hp : D.p ≤ 20) {k : ℕ} {e o : Exp} {A B : Multiset (ℕ × ℕ)} (h : LocRel inp D ker T k e A)
    (hz : ZeroOk o) (hop : o.p = D.p) (hc : 1e-7 < rho (o.center - e.center) ∨ o.center = e.center)
    (ho : ∀ i ∈ (T.blocks k).nodes,
      |(B.map (kv inp D ker i)).sum - lEval codeTable o (toV (inp.pos i))| ≤ (B.map (bnd inp D ker)).sum) :
    LocRel inp D ker T k (lAddParent codeTable e o) (A + B) := by
  have hf := lAddParent_frame e o
  refine ⟨hf.1.trans h.p, hf.2.trans h.center, (C61_zero_flag codeTable 0 0 e o h.zero).2.1, fun i hi => ?_⟩
  rw [lEval_add_parent e o h.zero hz (hop.trans h.p.symm) (by rw [h.p]; exact hp) hc]
  rw [Multiset.map_add, Multiset.sum_add, Multiset.map_add, Multiset.sum_add]
  have h1 := h.err i hi
  have h2 := ho i hi
  have := abs_add_le ((A.map (kv inp D ker i)).sum - lEval codeTable e (toV (inp.pos i)))
    ((B.map (kv inp D ker i)).sum - lEval codeTable o (toV (inp.pos i)))
  rw [show ∀ a b c d : ℝ, a + b - (c + d) = a - c + (b - d) by intros; ring]
  linarith

theorem rho_sub_comm (v w : Expansion.V3) : rho (v - w) = rho (w - v) := by
  rw [← rho_neg]; congr 1; abel

theorem LocRel.addMultipole (hlev : 1 ≤ inp.levels) (hroot : InRoot inp) (hn : ∀ q, rho (D.normal q) = 1)
    (hs0 : 0 < side inp) (hp : D.p ≤ 10) {k sub b : ℕ} (hk : k < (build inp).count)
    (hb : b ∈ m2lSet inp (build inp) k sub) (hbc : b < (build inp).count) {e o : Exp} {A : Multiset (ℕ × ℕ)}
    (h : LocRel inp D ker (build inp) k e A)
    (ho : MRel D (build inp) b o (MS inp D ker (((build inp).blocks b).qps : Multiset (ℕ × ℕ)))) :
    LocRel inp D ker (build inp) k (lAddMultipole codeTable e o) (A + (((build inp).blocks b).qps : Multiset (ℕ × ℕ))) := by
  set T := build inp with hT
  have t : Octree.Tree inp T := build_tree (Or.inr rfl) inp
  obtain ⟨_, _, hδ, a, ha⟩ := C07_m2l_separated (Or.inr rfl) inp hlev k sub b hk hb
  set δ : ℝ := (((T.blocks k).delta : ℚ) : ℝ) with hδd
  have hsδ : side inp ≤ δ := side_le t hk
  have hδ0 : 0 < δ := lt_of_lt_of_le hs0 hsδ
  have h3 := sqrt3_lt
  -- distance of the centres
  have hD : 2 * δ ≤ rho (ctr T b - ctr T k) := by
    have : (2 * (T.blocks k).delta) ^ 2 ≤ dist2 (centre (T.blocks b)) (centre (T.blocks k)) := by
      have h0 := t.delta_nonneg hk
      have hone : (2 * (T.blocks k).delta) ^ 2 ≤ (centre (T.blocks b) a - centre (T.blocks k) a) ^ 2 := by
        unfold centre
        rw [hδ] at ha ⊢
        rcases ha with ha | ha
        · have h7 : 2 * (T.blocks k).delta ≤ -((T.blocks b).pMin a + (T.blocks k).delta / 2 -
              ((T.blocks k).pMin a + (T.blocks k).delta / 2)) := by linarith
          have := pow_le_pow_left₀ (by positivity) h7 2
          rwa [neg_sq] at this
        · have h7 : 2 * (T.blocks k).delta ≤ ((T.blocks b).pMin a + (T.blocks k).delta / 2 -
              ((T.blocks k).pMin a + (T.blocks k).delta / 2)) := by linarith
          exact pow_le_pow_left₀ (by positivity) h7 2
      refine hone.trans ?_
      exact Finset.single_le_sum (f := fun a => (centre (T.blocks b) a - centre (T.blocks k) a) ^ 2)
        (fun a _ => sq_nonneg _) (Finset.mem_univ a)
    have h4 := le_rho_of this
    push_cast at h4
    exact h4
  have hr : ∀ i ∈ (T.blocks k).nodes, ∀ q ∈ (T.blocks b).qps,
      rho (toV (inp.qpos q) - ctr T b) + rho (toV (inp.pos i) - ctr T k) ≤ Real.sqrt 3 * δ := by
    intro i hi q hq
    have h4 := node_dist t hk hi
    have h5 := qp_dist t hroot hbc hq
    rw [hδ] at h5
    linarith
  have hfr := lAddMultipole_frame e o
  refine ⟨hfr.1.trans h.p, hfr.2.trans h.center, (C61_zero_flag codeTable 0 0 e o h.zero).2.2, fun i hi => ?_⟩
  have hcc : o.center - e.center = ctr T b - ctr T k := by rw [h.center, ho.2.1]
  have hpos : ∀ s ∈ MS inp D ker ((T.blocks b).qps : Multiset (ℕ × ℕ)), ∃ q ∈ (T.blocks b).qps, s ∈ srcs inp D ker q := by
    intro s hs
    rw [MS, List.mem_flatMap] at hs
    obtain ⟨q, hq, hs⟩ := hs
    exact ⟨q, by simpa using hq, hs⟩
  have hmain := lEval_add_multipole e o _ h.zero ho.2.2 (ho.1.trans h.p.symm) (by rw [h.p]; exact hp) (toV (inp.pos i))
    (by
      intro h0
      have : rho (o.center - e.center) = 0 := by rw [h0, sub_self]; simp [rho]
      rw [hcc] at this
      linarith)
    (by
      intro s hs
      obtain ⟨q, hq, hs⟩ := hpos s hs
      rw [hcc, mem_srcs_pos hs, h.center, ho.2.1]
      have := hr i hi q hq
      nlinarith)
  rw [h.p] at hmain
  have hle := sum_MS_le (inp := inp) (D := D) (ker := ker) ((T.blocks b).qps : Multiset (ℕ × ℕ))
    (fun s => s.bound D.p (rho (o.center - e.center)) (rho (s.pos - o.center) + rho (toV (inp.pos i) - e.center)))
    (fun q hq s hs => by
      rw [hcc, mem_srcs_pos hs, h.center, ho.2.1]
      exact bound_le_of hs0 s hsδ (add_nonneg (rho_nonneg _) (rho_nonneg _)) hD (hr i hi q hq))
  have hval : (((T.blocks b).qps : Multiset (ℕ × ℕ)).map (kv inp D ker i)).sum =
      potential (MS inp D ker ((T.blocks b).qps : Multiset (ℕ × ℕ))) (toV (inp.pos i)) := by
    rw [potential_MS]
    congr 1
    refine Multiset.map_congr rfl fun q hq => kv_eq hn ?_
    intro hxy
    have h4 := hr i hi q hq
    rw [← hxy] at h4
    have h5 := PiBem.Harmonic.rho_add_le (ctr T b - toV (inp.pos i)) (toV (inp.pos i) - ctr T k)
    rw [sub_add_sub_cancel, rho_sub_comm (ctr T b) (toV (inp.pos i))] at h5
    nlinarith
  rw [Multiset.map_add, Multiset.sum_add, Multiset.map_add, Multiset.sum_add, hval]
  have h1 := h.err i hi
  have h2 := hmain.trans hle
  have := abs_add_le ((A.map (kv inp D ker i)).sum - lEval codeTable e (toV (inp.pos i)))
    (lEval codeTable e (toV (inp.pos i)) + potential (MS inp D ker ((T.blocks b).qps : Multiset (ℕ × ℕ))) (toV (inp.pos i)) -
      lEval codeTable (lAddMultipole codeTable e o) (toV (inp.pos i)))
  rw [show ∀ a b c d : ℝ, a - b + (b + c - d) = a + c - d by intros; ring] at this
  linarith

/-- evaluation of a multipole expansion at the nodes of a block -/
theorem mEval_error (hlev : 1 ≤ inp.levels) (hroot : InRoot inp) (hn : ∀ q, rho (D.normal q) = 1)
    (hs0 : 0 < side inp) (hp : D.p ≤ 20) {k sub b : ℕ} (hk : k < (build inp).count)
    (hb : b ∈ m2pSet inp (build inp) k sub) (hbc : b < (build inp).count) {o : Exp}
    (ho : MRel D (build inp) b o (MS inp D ker (((build inp).blocks b).qps : Multiset (ℕ × ℕ))))
    {i : ℕ} (hi : i ∈ ((build inp).blocks k).nodes) :
    |((((build inp).blocks b).qps : Multiset (ℕ × ℕ)).map (kv inp D ker i)).sum - mEval codeTable o (toV (inp.pos i))| ≤
      ((((build inp).blocks b).qps : Multiset (ℕ × ℕ)).map (bnd inp D ker)).sum := by
  set T := build inp with hT
  have t : Octree.Tree inp T := build_tree (Or.inr rfl) inp
  obtain ⟨hd1, hd2⟩ := C08_m2p_outside_ball inp hlev hroot k sub b hk hb
  set δ : ℝ := (((T.blocks b).delta : ℚ) : ℝ) with hδd
  have hsδ : side inp ≤ δ := side_le t hbc
  have hδ0 : 0 < δ := lt_of_lt_of_le hs0 hsδ
  have h3 := sqrt3_lt
  have hD : 3 / 2 * δ ≤ rho (toV (inp.pos i) - ctr T b) := by
    have h4 := le_rho_of (hd1 i hi)
    push_cast at h4
    exact h4
  have hr : ∀ q ∈ (T.blocks b).qps, rho (toV (inp.qpos q) - ctr T b) ≤ Real.sqrt 3 / 2 * δ :=
    fun q hq => qp_dist t hroot hbc hq
  have hpos : ∀ s ∈ MS inp D ker ((T.blocks b).qps : Multiset (ℕ × ℕ)), ∃ q ∈ (T.blocks b).qps, s ∈ srcs inp D ker q := by
    intro s hs
    rw [MS, List.mem_flatMap] at hs
    obtain ⟨q, hq, hs⟩ := hs
    exact ⟨q, by simpa using hq, hs⟩
  have hmain := C60_evaluation_error o _ ho.2.2 (by rw [ho.1]; exact hp) (toV (inp.pos i))
    (by
      rw [ho.2.1]
      intro h0
      rw [h0, sub_self] at hD
      have : rho (0 : Expansion.V3) = 0 := by simp [rho]
      linarith)
    (by
      intro s hs
      obtain ⟨q, hq, hs⟩ := hpos s hs
      rw [mem_srcs_pos hs, ho.2.1]
      have := hr q hq
      nlinarith)
  rw [ho.1] at hmain
  have hle := sum_MS_le (inp := inp) (D := D) (ker := ker) ((T.blocks b).qps : Multiset (ℕ × ℕ))
    (fun s => s.bound D.p (rho (toV (inp.pos i) - o.center)) (rho (s.pos - o.center)))
    (fun q hq s hs => by
      rw [mem_srcs_pos hs, ho.2.1]
      exact bound_le_of' hs0 s hsδ (rho_nonneg _) hD (hr q hq))
  have hval : (((T.blocks b).qps : Multiset (ℕ × ℕ)).map (kv inp D ker i)).sum =
      potential (MS inp D ker ((T.blocks b).qps : Multiset (ℕ × ℕ))) (toV (inp.pos i)) := by
    rw [potential_MS]
    congr 1
    refine Multiset.map_congr rfl fun q hq => kv_eq hn ?_
    intro hxy
    have h4 := hr q hq
    rw [← hxy] at h4
    nlinarith
  rw [hval]
  exact hmain.trans hle

end PiBem.Fmm
