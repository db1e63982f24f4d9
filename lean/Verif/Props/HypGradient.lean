import Verif.Bem.HypGradient
import Verif.Props.Assemble
import Verif.Props.Kernel
import Verif.Props.FreeCoeffs
import Verif.Props.Nodes

/-!
# Gradients from the hypersingular equation (C68)
-/

noncomputable section

namespace PiBem.Bem

open PiBem.Octree PiBem.Expansion PiBem.Fmm

/-! ## Specification -/

/-- Derivative of the kernel with respect to the `k`-th coordinate of the node. -/
def kernelDx (ker : Ker) (x y n : V3) (k : Fin 3) : ℝ :=
  deriv (fun t => kernelValue ker (Function.update x k t) y n) (x k)

open Classical in
/-- Contribution of cell `c` to the right hand side of the hypersingular equation of dof `i`, component `k`: the integral of
`∂φ/∂n ∇G - φ ∇ ∂G/∂n`, the gradients with respect to the node. If a local dof of the cell is a double of `i`, the first
one selects the integrals of the singular cells. -/
def hypSpec (inp : Input 3) (D : Data) (h : HypData) (i c : ℕ) (k : Fin 3) : ℝ :=
  ∑ j ∈ Finset.range (inp.cellDofs c).length,
    (h.dphi ((inp.cellDofs c).getD j 0) *
      (if e : ∃ s, s < (inp.cellDofs c).length ∧ (inp.cellDofs c).getD s 0 ∈ inp.doubles i then h.Wk c (Nat.find e) j k
        else ∑ q ∈ Finset.range inp.nq,
          kernelDx .single (toV (inp.pos i)) (toV (inp.qpos (c, q))) (D.normal (c, q)) k * D.shape (c, q) j * D.jxw (c, q))
    - h.phi ((inp.cellDofs c).getD j 0) *
      (if e : ∃ s, s < (inp.cellDofs c).length ∧ (inp.cellDofs c).getD s 0 ∈ inp.doubles i then h.Vk c (Nat.find e) j k
        else ∑ q ∈ Finset.range inp.nq,
          kernelDx .double (toV (inp.pos i)) (toV (inp.qpos (c, q))) (D.normal (c, q)) k * D.shape (c, q) j * D.jxw (c, q)))

/-! ## Kernels -/

theorem kernelValue_single_green (x y n : V3) : kernelValue .single x y n = (Kernel.kernelsH3 (y - x)).2.2 := by
  simp only [kernelValue, Kernel.kernelsH3, norm_eq_rho, rho_sub_comm y x, rho_eq_sqrt]
  ring

theorem kernelValue_double_D (x y n : V3) :
    kernelValue .double x y n = -∑ e, (Kernel.kernelsH3 (y - x)).2.1 e * n e := by
  simp only [kernelValue, Kernel.kernelsH3, norm_eq_rho, rho_sub_comm y x, ← rho_eq_sqrt]
  simp only [Fin.sum_univ_three, Pi.sub_apply]
  ring

theorem sub_update (x y : V3) (k : Fin 3) (t : ℝ) :
    y - Function.update x k t = Function.update (y - x) k (y k - t) := by
  funext e
  by_cases h : e = k
  · subst h; simp
  · simp [h]

theorem hasDeriv_of_partial {f : V3 → ℝ} {f' : ℝ} {x y : V3} {k : Fin 3} (h : Kernel.HasPartial f f' (y - x) k) :
    HasDerivAt (fun t => f (y - Function.update x k t)) (-f') (x k) := by
  simp only [sub_update]
  unfold Kernel.HasPartial at h
  have h2 : HasDerivAt (fun t : ℝ => y k - t) (-1) (x k) := by
    simpa using (hasDerivAt_id (x k)).const_sub (y k)
  have h3 : HasDerivAt (fun t => f (Function.update (y - x) k t)) f' ((fun t => y k - t) (x k)) := h
  have h4 := h3.comp (x k) h2
  rw [mul_neg_one] at h4
  exact h4

/-- C68. The numbers `D` and `H n` are the derivatives of the two kernels with respect to the position of the node. -/
theorem C68_kernels (x y n : V3) (hxy : y ≠ x) (k : Fin 3) :
    (Kernel.kernelsH3 (y - x)).2.1 k = kernelDx .single x y n k ∧
    ∑ e, (Kernel.kernelsH3 (y - x)).1 k e * n e = kernelDx .double x y n k := by
  have hR : y - x ≠ 0 := sub_ne_zero.mpr hxy
  obtain ⟨h1, h2, _, h4, h5, _⟩ := Kernel.C42_kernels_with_hessian.2 (y - x) hR
  have hg : ∀ R : V3, (Kernel.kernelsH3 R).2.2 = Kernel.green3 R := by
    intro R
    simp only [Kernel.green3_eq R]
    rfl
  constructor
  · unfold kernelDx
    have : (fun t => kernelValue .single (Function.update x k t) y n)
        = fun t => Kernel.green3 (y - Function.update x k t) := by
      funext t; rw [kernelValue_single_green, hg]
    rw [this, (hasDeriv_of_partial (h2 k)).deriv, neg_neg]
  · unfold kernelDx
    have : (fun t => kernelValue .double (Function.update x k t) y n)
        = fun t => -∑ e, (Kernel.kernelsH3 (y - Function.update x k t)).2.1 e * n e := by
      funext t; rw [kernelValue_double_D]
    rw [this]
    have hd : HasDerivAt (fun t => -∑ e, (Kernel.kernelsH3 (y - Function.update x k t)).2.1 e * n e)
        (-∑ e, -(Kernel.kernelsH3 (y - x)).1 k e * n e) (x k) := by
      refine HasDerivAt.fun_neg (HasDerivAt.fun_sum fun e _ => ?_)
      exact (hasDeriv_of_partial (h4 k e)).mul_const (n e)
    rw [hd.deriv]
    simp

/-! ## Integrals -/

theorem foldl_v3 {α : Type} (l : List α) (f : V3 → α → V3) (g : α → V3) (h : ∀ I, ∀ a ∈ l, f I a = I + g a) (I : V3) :
    l.foldl f I = I + (l.map g).sum := by
  induction l generalizing I with
  | nil => simp
  | cons a l ih =>
    rw [List.foldl_cons, ih (fun M b hb => h M b (List.mem_cons_of_mem _ hb)), h I a List.mem_cons_self, List.map_cons,
      List.sum_cons, add_assoc]

theorem list_range_sum (n : ℕ) (g : ℕ → V3) (k : Fin 3) :
    ((List.range n).map g).sum k = ∑ i ∈ Finset.range n, g i k := by
  induction n with
  | zero => simp
  | succ n ih => rw [List.range_succ, List.map_append, List.sum_append, Pi.add_apply, ih, Finset.sum_range_succ]; simp

theorem range_v3 (n : ℕ) (f : V3 → ℕ → V3) (g : ℕ → V3) (h : ∀ I, ∀ a < n, f I a = I + g a) (I : V3) (k : Fin 3) :
    (List.range n).foldl f I k = I k + ∑ i ∈ Finset.range n, g i k := by
  rw [foldl_v3 _ f g (fun M a ha => h M a (List.mem_range.mp ha)), Pi.add_apply, list_range_sum]

theorem hypIntegral_eq (inp : Input 3) (D : Data) (h : HypData) (i c : ℕ)
    (hreg : singularIndex inp i c = none → ∀ q < inp.nq, toV (inp.qpos (c, q)) ≠ toV (inp.pos i)) (k : Fin 3) :
    hypIntegral inp D h i c k = hypSpec inp D h i c k := by
  unfold hypIntegral hypSpec
  cases hs : singularIndex inp i c with
  | none =>
    have hno := singularIndex_none hs
    simp only [hno, dif_neg, not_false_eq_true]
    rw [range_v3 _ _ (fun q k => ∑ j ∈ Finset.range (inp.cellDofs c).length,
      (-h.phi ((inp.cellDofs c).getD j 0) * (∑ e, (Kernel.kernelsH3 (toV (inp.qpos (c, q)) - toV (inp.pos i))).1 k e *
        D.normal (c, q) e) * D.shape (c, q) j * D.jxw (c, q)
          + h.dphi ((inp.cellDofs c).getD j 0) * (Kernel.kernelsH3 (toV (inp.qpos (c, q)) - toV (inp.pos i))).2.1 k *
            D.shape (c, q) j * D.jxw (c, q)))]
    · simp only [Pi.zero_apply, zero_add]
      rw [Finset.sum_comm]
      refine Finset.sum_congr rfl fun j _ => ?_
      rw [Finset.mul_sum, Finset.mul_sum, ← Finset.sum_sub_distrib]
      refine Finset.sum_congr rfl fun q hq => ?_
      obtain ⟨e1, e2⟩ := C68_kernels (toV (inp.pos i)) (toV (inp.qpos (c, q))) (D.normal (c, q))
        (hreg hs q (Finset.mem_range.mp hq)) k
      rw [e1, e2]; ring
    · intro I q _
      funext k
      rw [range_v3]
      · rfl
      · intro I j _; rfl
  | some s =>
    have hsome := singularIndex_some hs
    have hex : ∃ s, s < (inp.cellDofs c).length ∧ (inp.cellDofs c).getD s 0 ∈ inp.doubles i := ⟨s, hsome.1, hsome.2.1⟩
    have hfind : ∀ inst : DecidablePred fun s => s < (inp.cellDofs c).length ∧ (inp.cellDofs c).getD s 0 ∈ inp.doubles i,
        @Nat.find _ inst hex = s := fun inst => by
      rw [Nat.find_eq_iff]
      exact ⟨⟨hsome.1, hsome.2.1⟩, fun m hm hx => hsome.2.2 m hm hx.2⟩
    simp only [hex, dif_pos, hfind]
    rw [Pi.add_apply, Pi.zero_apply, zero_add, Pi.add_apply,
      range_v3 _ _ (fun j k => h.dphi ((inp.cellDofs c).getD j 0) * h.Wk c s j k) (fun _ _ _ => rfl),
      range_v3 _ _ (fun j k => -h.phi ((inp.cellDofs c).getD j 0) * h.Vk c s j k) (fun _ _ _ => rfl)]
    simp only [Pi.zero_apply, zero_add]
    rw [← Finset.sum_add_distrib]
    refine Finset.sum_congr rfl fun j _ => ?_
    ring

/-! ## The vector -/

/-- Different dofs and components have different places in the vector (C35 proves it of the arrays the program builds). -/
def Distinct (inp : Input 3) (h : HypData) : Prop :=
  ∀ i < inp.nDofs, ∀ d, ∀ i' < inp.nDofs, ∀ d', hypIndex inp h i d = hypIndex inp h i' d' → i = i' ∧ d = d'

variable {inp : Input 3} {h : HypData}

theorem addVec_at (hd : Distinct inp h) {i i' : ℕ} (hi : i < inp.nDofs) (hi' : i' < inp.nDofs) (I : V3) (v : ℕ → ℝ)
    (d : Fin 3) :
    addVec inp h i I v (hypIndex inp h i' d) = v (hypIndex inp h i' d) + if i = i' then I d else 0 := by
  have hne : ∀ a b : Fin 3, a ≠ b → hypIndex inp h i a ≠ hypIndex inp h i b := fun a b hab e =>
    hab (hd i hi a i hi b e).2
  unfold addVec
  by_cases hii : i = i'
  · subst hii
    simp only [if_true]
    fin_cases d <;> simp [hne]
  · have hn : ∀ a, hypIndex inp h i' d ≠ hypIndex inp h i a := fun a e => hii (hd i' hi' d i hi a e).1.symm
    simp [Function.update_apply, hn, hii]

theorem setVec_at (hd : Distinct inp h) {i i' : ℕ} (hi : i < inp.nDofs) (hi' : i' < inp.nDofs) (I : V3) (v : ℕ → ℝ)
    (d : Fin 3) :
    setVec inp h i I v (hypIndex inp h i' d) = if i = i' then I d else v (hypIndex inp h i' d) := by
  have hne : ∀ a b : Fin 3, a ≠ b → hypIndex inp h i a ≠ hypIndex inp h i b := fun a b hab e =>
    hab (hd i hi a i hi b e).2
  unfold setVec
  by_cases hii : i = i'
  · subst hii
    simp only [if_true]
    fin_cases d <;> simp [hne]
  · have hn : ∀ a, hypIndex inp h i' d ≠ hypIndex inp h i a := fun a e => hii (hd i' hi' d i hi a e).1.symm
    simp [hn, hii]

theorem foldl_at {α : Type} (l : List α) (f : (ℕ → ℝ) → α → ℕ → ℝ) (g : α → ℝ) (r : ℕ)
    (h : ∀ M, ∀ a ∈ l, f M a r = M r + g a) (M : ℕ → ℝ) : l.foldl f M r = M r + (l.map g).sum := by
  induction l generalizing M with
  | nil => simp
  | cons a l ih =>
    rw [List.foldl_cons, ih (fun M b hb => h M b (List.mem_cons_of_mem _ hb)), h M a List.mem_cons_self, List.map_cons,
      List.sum_cons, add_assoc]

theorem list_range_sum' (n : ℕ) (g : ℕ → ℝ) : ((List.range n).map g).sum = ∑ i ∈ Finset.range n, g i := by
  induction n with
  | zero => simp
  | succ n ih => rw [List.range_succ, List.map_append, List.sum_append, ih, Finset.sum_range_succ]; simp

theorem hypIntegrals_at (hd : Distinct inp h) (D : Data) (own : ℕ → Bool) {i : ℕ} (hi : i < inp.nDofs)
    (d : Fin 3) : hypIntegrals inp D h own (hypIndex inp h i d)
      = if own i then ∑ c ∈ Finset.range inp.nCells, hypIntegral inp D h i c d else 0 := by
  unfold hypIntegrals
  rw [foldl_at _ _ (fun c => if own i then hypIntegral inp D h i c d else 0), list_range_sum']
  · split_ifs <;> simp
  intro M c _
  rw [foldl_at _ _ (fun i' => if i' = i then (if own i then hypIntegral inp D h i c d else 0) else 0), list_range_sum',
    Finset.sum_ite_eq' (Finset.range inp.nDofs) i]
  · simp [hi]
  intro M i' hi'
  have hi' := List.mem_range.mp hi'
  by_cases ho : own i'
  · rw [if_pos ho, addVec_at hd hi' hi]
    by_cases hii : i' = i
    · subst hii; simp [ho]
    · simp [hii]
  · rw [if_neg ho]
    by_cases hii : i' = i
    · subst hii; simp [ho]
    · simp [hii]

theorem fold_hypStep (hd : Distinct inp h) (own : ℕ → Bool) (v : ℕ → ℝ) {i : ℕ} (hi : i < inp.nDofs) (ho : own i)
    (n : ℕ) (hn : n ≤ inp.nDofs) (d : Fin 3) :
    (List.range n).foldl (fun v i => if own i then hypStep inp h i v else v) v (hypIndex inp h i d)
      = if i < n then ((h.C i)⁻¹.mulVec fun e => v (hypIndex inp h i e) + -h.b i e * h.phi i) d
        else v (hypIndex inp h i d) := by
  induction n generalizing d with
  | zero => simp
  | succ n ih =>
    rw [List.range_succ, List.foldl_append, List.foldl_cons, List.foldl_nil]
    have ih' := fun d => ih (by omega) d
    set w := (List.range n).foldl (fun v i => if own i then hypStep inp h i v else v) v
    by_cases hin : i = n
    · subst hin
      simp only [lt_irrefl, if_false] at ih'
      rw [if_pos ho, if_pos (by omega)]
      unfold hypStep
      rw [setVec_at hd hi hi, if_pos rfl]
      simp only [ih']
    · have : (if own n then hypStep inp h n w else w) (hypIndex inp h i d) = w (hypIndex inp h i d) := by
        split_ifs
        · unfold hypStep
          rw [setVec_at hd (by omega) hi, if_neg (Ne.symm hin)]
        · rfl
      rw [this, ih' d]
      by_cases hlt : i < n
      · rw [if_pos hlt, if_pos (by omega)]
      · rw [if_neg hlt, if_neg (by omega)]

theorem hypGradients_at (hd : Distinct inp h) (D : Data) (own : ℕ → Bool) {i : ℕ} (hi : i < inp.nDofs) (ho : own i)
    (d : Fin 3) : hypGradients inp D h own (hypIndex inp h i d)
      = ((h.C i)⁻¹.mulVec fun e =>
          (∑ c ∈ Finset.range inp.nCells, hypIntegral inp D h i c e) + -h.b i e * h.phi i) d := by
  unfold hypGradients
  rw [fold_hypStep hd own _ hi ho _ le_rfl, if_pos hi]
  simp only [hypIntegrals_at hd D own hi, ho, if_true]

/-! ## C68 -/

/-- No quadrature point of a cell without doubles of node `i` is at the node. -/
def Apart (inp : Input 3) (i : ℕ) : Prop :=
  ∀ c < inp.nCells, (∀ s < (inp.cellDofs c).length, (inp.cellDofs c).getD s 0 ∉ inp.doubles i) →
    ∀ q < inp.nq, toV (inp.qpos (c, q)) ≠ toV (inp.pos i)

theorem hypIntegral_sum (D : Data) {i : ℕ} (ha : Apart inp i) (k : Fin 3) :
    ∑ c ∈ Finset.range inp.nCells, hypIntegral inp D h i c k = ∑ c ∈ Finset.range inp.nCells, hypSpec inp D h i c k :=
  Finset.sum_congr rfl fun c hc => hypIntegral_eq inp D h i c
    (fun hs => ha c (Finset.mem_range.mp hc) (fun s hs' hm => singularIndex_none hs ⟨s, hs', hm⟩)) k

/-- C68. At every dof of the process the three numbers stored satisfy the hypersingular equation
`C ∇φ + b φ = ∫ (∂φ/∂n ∇G - φ ∇∂G/∂n)`, whatever the other dofs and processes. -/
theorem C68_equation (hd : Distinct inp h) (D : Data) (own : ℕ → Bool) {i : ℕ} (hi : i < inp.nDofs) (ho : own i)
    (ha : Apart inp i) (hdet : (h.C i).det ≠ 0) (k : Fin 3) :
    ∑ e, h.C i k e * hypGradients inp D h own (hypIndex inp h i e) + h.b i k * h.phi i
      = ∑ c ∈ Finset.range inp.nCells, hypSpec inp D h i c k := by
  simp only [hypGradients_at hd D own hi ho, hypIntegral_sum D ha]
  have h1 : ∀ x : V3, ∑ e, h.C i k e * ((h.C i)⁻¹.mulVec x) e = x k := by
    intro x
    have : (h.C i).mulVec ((h.C i)⁻¹.mulVec x) = x := by
      rw [Matrix.mulVec_mulVec, Matrix.mul_nonsing_inv _ (isUnit_iff_ne_zero.mpr hdet), Matrix.one_mulVec]
    exact congrFun this k
  rw [h1]; ring

/-- C68. The values do not depend on the partition of the dofs among the processes. -/
theorem C68_partition (hd : Distinct inp h) (D : Data) (own own' : ℕ → Bool) {i : ℕ} (hi : i < inp.nDofs) (ho : own i)
    (ho' : own' i) (d : Fin 3) :
    hypGradients inp D h own (hypIndex inp h i d) = hypGradients inp D h own' (hypIndex inp h i d) := by
  rw [hypGradients_at hd D own hi ho, hypGradients_at hd D own' hi ho']

/-- C68. At a smooth node, where all normals differ by less than `1e-5` and the free coefficients are those of
`compute_hypersingular_free_coeffs`, the gradient is twice the right hand side minus `b φ`. -/
theorem C68_smooth (hd : Distinct inp h) (D : Data) (own : ℕ → Bool) {i : ℕ} (hi : i < inp.nDofs) (ho : own i)
    (ha : Apart inp i) (n : V3) (L : List V3) (hn : ∀ m ∈ L, rho (m - n) < 1e-5)
    (hC : h.C i = Matrix.of (freeCoeffs (n :: L)).2) (k : Fin 3) :
    hypGradients inp D h own (hypIndex inp h i k)
      = 2 * (∑ c ∈ Finset.range inp.nCells, hypSpec inp D h i c k - h.b i k * h.phi i) := by
  rw [C66_smooth n L hn] at hC
  have hC' : ∀ k e, h.C i k e = if k = e then 1 / 2 else 0 := fun k e => by rw [hC]; rfl
  have hdet : (h.C i).det ≠ 0 := by
    rw [Matrix.det_fin_three]
    simp only [hC']
    norm_num [Fin.ext_iff]
  have := C68_equation hd D own hi ho ha hdet k
  simp only [hC', ite_mul, zero_mul, Finset.sum_ite_eq, Finset.mem_univ, if_true] at this
  linarith

/-- C68. The gradient is linear in the potential and its normal derivative together. -/
theorem C68_linear (hd : Distinct inp h) (D : Data) (own : ℕ → Bool) {i : ℕ} (hi : i < inp.nDofs) (ho : own i)
    (ha : Apart inp i) (x y : ℝ) (p₁ p₂ w₁ w₂ : ℕ → ℝ) (d : Fin 3) :
    hypGradients inp D { h with phi := fun j => x * p₁ j + y * p₂ j, dphi := fun j => x * w₁ j + y * w₂ j } own
        (hypIndex inp h i d)
      = x * hypGradients inp D { h with phi := p₁, dphi := w₁ } own (hypIndex inp h i d)
        + y * hypGradients inp D { h with phi := p₂, dphi := w₂ } own (hypIndex inp h i d) := by
  have e : ∀ p w, hypGradients inp D { h with phi := p, dphi := w } own (hypIndex inp h i d)
      = ((h.C i)⁻¹.mulVec fun k => (∑ c ∈ Finset.range inp.nCells, hypSpec inp D { h with phi := p, dphi := w } i c k)
          + -h.b i k * p i) d := fun p w => by
    have h1 := hypGradients_at (h := { h with phi := p, dphi := w }) hd D own hi ho d
    simp only [hypIntegral_sum (h := { h with phi := p, dphi := w }) D ha] at h1
    exact h1
  rw [e, e, e]
  have h3 : (fun k => (∑ c ∈ Finset.range inp.nCells, hypSpec inp D
        { h with phi := fun j => x * p₁ j + y * p₂ j, dphi := fun j => x * w₁ j + y * w₂ j } i c k)
        + -h.b i k * (x * p₁ i + y * p₂ i))
      = x • (fun k => (∑ c ∈ Finset.range inp.nCells, hypSpec inp D { h with phi := p₁, dphi := w₁ } i c k)
        + -h.b i k * p₁ i)
      + y • (fun k => (∑ c ∈ Finset.range inp.nCells, hypSpec inp D { h with phi := p₂, dphi := w₂ } i c k)
        + -h.b i k * p₂ i) := by
    funext k
    simp only [Pi.add_apply, Pi.smul_apply, smul_eq_mul, mul_add, Finset.mul_sum]
    have : ∀ c ∈ Finset.range inp.nCells, hypSpec inp D
        { h with phi := fun j => x * p₁ j + y * p₂ j, dphi := fun j => x * w₁ j + y * w₂ j } i c k
        = x * hypSpec inp D { h with phi := p₁, dphi := w₁ } i c k
          + y * hypSpec inp D { h with phi := p₂, dphi := w₂ } i c k := by
      intro c _
      unfold hypSpec
      rw [Finset.mul_sum, Finset.mul_sum, ← Finset.sum_add_distrib]
      refine Finset.sum_congr rfl fun j _ => ?_
      ring
    rw [Finset.sum_congr rfl this, Finset.sum_add_distrib]
    ring
  rw [h3, Matrix.mulVec_add, Matrix.mulVec_smul, Matrix.mulVec_smul]
  rfl

/-- The arrays built by `compute_reordering_vectors` satisfy `Distinct`. -/
theorem C68_distinct (o2s : ℕ → ℕ)
    (ho : ∀ i < inp.nDofs, o2s i < inp.nDofs) (hoi : ∀ i < inp.nDofs, ∀ j < inp.nDofs, o2s i = o2s j → i = j)
    (hv : ∀ i < 3 * inp.nDofs, h.vo2s i < 3 * inp.nDofs)
    (hvi : ∀ i < 3 * inp.nDofs, ∀ j < 3 * inp.nDofs, h.vo2s i = h.vo2s j → i = j)
    (hs : h.s2o = (reorderingVectors inp.nDofs (3 * inp.nDofs) o2s h.vo2s).1) : Distinct inp h := by
  obtain ⟨_, _, _, _, _, h6⟩ := C35_reordering inp.nDofs 3 (by norm_num) o2s h.vo2s ho hoi hv hvi
  intro i hi d i' hi' d' he
  have key : ∀ i (d : Fin 3), hypIndex inp h i d
      = vecIndex (3 * inp.nDofs) 3 (reorderingVectors inp.nDofs (3 * inp.nDofs) o2s h.vo2s).1 h.vo2s i d := by
    intro i d
    unfold hypIndex vecIndex
    rw [hs, Nat.mul_div_cancel_left _ (by norm_num : 0 < 3)]
    congr 1; ring
  rw [key, key] at he
  obtain ⟨a, b⟩ := h6 i hi d d.2 i' hi' d' d'.2 he
  exact ⟨a, Fin.ext b⟩

/-- Two cells with one dof each, on two processes; numbering by dofs reversed. -/
def hypInput : Input 3 :=
  { nDofs := 2, pos := fun i => ![i, 0, 0], nCells := 2, nq := 1, qpos := fun q => ![q.1, 1, 0]
    cellDofs := fun c => [c], doubles := fun i => {i}, levels := 1, maxNodes := 1 }

/-- Data of a case where all dofs are smooth. -/
def hypExample : HypData :=
  { phi := fun i => i, dphi := fun _ => 1, Vk := fun _ _ _ => 0, Wk := fun _ _ _ => fun _ => 1
    C := fun _ => Matrix.of (freeCoeffs [![0, 0, 1], ![0, 0, 1]]).2, b := fun _ => 0, s2o := fun i => 1 - i, vo2s := fun i => 5 - i }

/-- Hypotheses of `C68_equation` and `C68_smooth`. -/
example : Distinct hypInput hypExample ∧ (∀ i < 2, Apart hypInput i) ∧ (∀ i, (hypExample.C i).det ≠ 0) ∧
    (∀ m ∈ [(![0, 0, 1] : V3)], rho (m - ![0, 0, 1]) < 1e-5) := by
  have hn : ∀ m ∈ [(![0, 0, 1] : V3)], rho (m - ![0, 0, 1]) < 1e-5 := by
    intro m hm
    rw [List.mem_singleton] at hm
    subst hm
    rw [sub_self]
    have : rho (0 : V3) = 0 := by unfold rho; simp
    rw [this]; norm_num
  refine ⟨?_, ?_, ?_, hn⟩
  · intro i hi d i' hi' d' he
    simp only [hypInput] at hi hi'
    simp only [hypIndex, hypExample, hypInput] at he
    have h1 := d.2
    have h2 := d'.2
    refine ⟨?_, Fin.ext ?_⟩ <;> omega
  · intro i hi c hc hs q hq he
    have := congrFun he 1
    simp [toV, hypInput] at this
  · intro i
    have : hypExample.C i = Matrix.of fun i j => if i = j then 1 / 2 else 0 := by
      unfold hypExample
      simp only
      rw [C66_smooth _ _ hn]
    rw [this, Matrix.det_fin_three]
    simp only [Matrix.of_apply]
    norm_num [Fin.ext_iff]

end PiBem.Bem
