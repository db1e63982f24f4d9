import Verif.Bem.Operator
import Verif.Props.Constrained
import Mathlib.Algebra.Order.Chebyshev

/-!
# C25, C26, C27, C28, C33, C51, C52, C53: the linear system of the boundary element method
-/

namespace PiBem.Bem

variable {n : ℕ}

/-! ## Specification -/

/-- The discrete boundary integral equation at node `i`: `alpha_i phi_i + Σ_j N_ij phi_j = Σ_j D_ij dphi_j`. -/
def BIE (N D : Mat n) (alpha phi dphi : Vec n) (i : Fin n) : Prop :=
  alpha i * phi i + ∑ j, N i j * phi j = ∑ j, D i j * dphi j

/-- The masks of a problem are the indicator vectors of a set `S` of Dirichlet nodes and of its complement
(established by C29). -/
structure Masks (P : Problem n) (S : Finset (Fin n)) : Prop where
  dirichlet : ∀ i, P.dirichletNodes i = if i ∈ S then 1 else 0
  neumann : ∀ i, P.neumannNodes i = if i ∈ S then 0 else 1

/-- Value at every node when the entries in `S` come from `a` and the others from `b`. -/
def merge (S : Finset (Fin n)) (a b : Vec n) : Vec n := fun i => if i ∈ S then a i else b i

/-! ## What the two functions compute -/

theorem vmult_dirichlet_eq (P : Problem n) (h : P.haveDirichletBc = true) (x : Vec n) (i : Fin n) :
    vmult P x i = -(∑ j, P.dirichletMatrix i j * (x j * P.dirichletNodes j)) +
      ∑ j, P.neumannMatrix i j * (x j * P.neumannNodes j) + x i * P.neumannNodes i * P.alpha i := by
  unfold vmult
  cases hm : P.method <;> simp [h, matVmult, scale, fmaProducts]

theorem computeRhs_eq (P : Problem n) (dst g : Vec n) (i : Fin n) :
    computeRhs P dst g i = -(if P.method = .fma then dst i else 0) -
      (∑ j, P.neumannMatrix i j * (g j * P.dirichletNodes j) + g i * P.dirichletNodes i * P.alpha i) +
      ∑ j, P.dirichletMatrix i j * (g j * P.neumannNodes j) := by
  unfold computeRhs
  cases hm : P.method <;> simp [matVmult, scale, fmaProducts] <;> ring

/-- Row by row, `vmult` minus `compute_rhs` is the residual of the boundary integral equation for the merged data. -/
theorem row_residual (P : Problem n) (S : Finset (Fin n)) (hS : Masks P S) (h : P.haveDirichletBc = true)
    (x g : Vec n) (i : Fin n) :
    vmult P x i - computeRhs P 0 g i =
      (P.alpha i * merge S g x i + ∑ j, P.neumannMatrix i j * merge S g x j) -
        ∑ j, P.dirichletMatrix i j * merge S x g j := by
  have eN : ∑ j, P.neumannMatrix i j * merge S g x j =
      ∑ j, P.neumannMatrix i j * (x j * P.neumannNodes j) +
        ∑ j, P.neumannMatrix i j * (g j * P.dirichletNodes j) := by
    rw [← Finset.sum_add_distrib]
    refine Finset.sum_congr rfl fun j _ => ?_
    rw [hS.dirichlet, hS.neumann]; unfold merge; split_ifs <;> ring
  have eD : ∑ j, P.dirichletMatrix i j * merge S x g j =
      ∑ j, P.dirichletMatrix i j * (x j * P.dirichletNodes j) +
        ∑ j, P.dirichletMatrix i j * (g j * P.neumannNodes j) := by
    rw [← Finset.sum_add_distrib]
    refine Finset.sum_congr rfl fun j _ => ?_
    rw [hS.dirichlet, hS.neumann]; unfold merge; split_ifs <;> ring
  have ea : P.alpha i * merge S g x i =
      x i * P.neumannNodes i * P.alpha i + g i * P.dirichletNodes i * P.alpha i := by
    rw [hS.dirichlet, hS.neumann]; unfold merge; split_ifs <;> ring
  rw [vmult_dirichlet_eq P h, computeRhs_eq, eN, eD, ea]
  simp only [Pi.zero_apply, ite_self, neg_zero]
  ring

/-! ## C25 -/

/-- **C25**. With at least one Dirichlet cell, for both solution methods: `x` solves the linear system with data `g`
iff the boundary integral equation holds at every node, for the potential and normal derivative obtained by merging:
on Dirichlet nodes the potential is the datum and the normal derivative the unknown, on the others conversely. -/
theorem C25_system_is_bie (P : Problem n) (S : Finset (Fin n)) (hS : Masks P S)
    (h : P.haveDirichletBc = true) (x g : Vec n) :
    vmult P x = computeRhs P 0 g ↔
      ∀ i, BIE P.neumannMatrix P.dirichletMatrix P.alpha (merge S g x) (merge S x g) i := by
  constructor
  · intro he i
    have := row_residual P S hS h x g i
    rw [he, sub_self] at this
    exact (sub_eq_zero.mp this.symm)
  · intro he
    funext i
    have := row_residual P S hS h x g i
    rw [he i, sub_self] at this
    exact sub_eq_zero.mp this

/-- Non-vacuity of C25: one Dirichlet and one Neumann node, unknown `x = (2, 3)`, data `g = (5, 7)`; both sides
hold. -/
example :
    let P : Problem 2 := ⟨fun i j => if i = j then 1 else 2, fun i j => if i = j then (if i = 0 then 2 else 3) else 1,
      ![0, -7/3], fun i => if i = 0 then 1 else 0, fun i => if i = 0 then 0 else 1, true, .direct⟩
    Masks P {0} ∧ vmult P ![2, 3] ≠ 0 ∧
      ((vmult P ![2, 3] = computeRhs P 0 ![5, 7]) ↔
        ∀ i, BIE P.neumannMatrix P.dirichletMatrix P.alpha ![5, 3] ![2, 7] i) := by
  intro P
  have hm : Masks P {0} := ⟨fun i => by simp [P], fun i => by simp [P]⟩
  refine ⟨hm, ?_, ?_⟩
  · intro h
    have := congrFun h 0
    rw [vmult_dirichlet_eq P rfl] at this
    simp [P, Fin.sum_univ_two] at this
    norm_num at this
  · rw [C25_system_is_bie P {0} hm rfl]
    have e1 : merge {(0 : Fin 2)} ![(5 : ℝ), 7] ![2, 3] = ![5, 3] := by
      funext i; fin_cases i <;> simp [merge]
    have e2 : merge {(0 : Fin 2)} ![(2 : ℝ), 3] ![5, 7] = ![2, 7] := by
      funext i; fin_cases i <;> simp [merge]
    rw [e1, e2]

/-! ## C26 -/

theorem storeSolution_eq (dn sol phi dphi : Vec n) :
    storeSolution dn sol phi dphi =
      (fun i => if dn i = 0 then sol i else phi i, fun i => if dn i = 0 then dphi i else sol i) := by
  have key : ∀ (l : List (Fin n)) (o : Vec n × Vec n),
      l.foldl (fun (o : Vec n × Vec n) i =>
        if dn i = 0 then (Function.update o.1 i (sol i), o.2)
        else (o.1, Function.update o.2 i (sol i))) o =
      (fun i => if i ∈ l ∧ dn i = 0 then sol i else o.1 i, fun i => if i ∈ l ∧ dn i ≠ 0 then sol i else o.2 i) := by
    intro l
    induction l with
    | nil => intro o; simp
    | cons a t ih =>
      intro o
      rw [List.foldl_cons, ih]
      by_cases ha : dn a = 0
      · simp only [ha, if_true]
        refine Prod.ext ?_ ?_
        · funext i
          by_cases hi : i = a
          · subst hi; simp [ha]
          · simp [hi]
        · funext i
          by_cases hi : i = a
          · subst hi; simp [ha]
          · simp [hi]
      · simp only [ha, if_false]
        refine Prod.ext ?_ ?_
        · funext i
          by_cases hi : i = a
          · subst hi; simp [ha]
          · simp [hi]
        · funext i
          by_cases hi : i = a
          · subst hi; simp [ha]
          · simp [hi]
  unfold storeSolution
  rw [key]
  refine Prod.ext ?_ ?_
  · funext i; simp
  · funext i; by_cases h : dn i = 0 <;> simp [h]

/-- **C26**. After solving, the potential is unchanged on Dirichlet nodes and equal to the solution on the others;
the normal derivative is unchanged on Neumann nodes and equal to the solution on Dirichlet nodes. -/
theorem C26_prescribed_data_kept (P : Problem n) (S : Finset (Fin n)) (hS : Masks P S) (sol phi dphi : Vec n) :
    storeSolution P.dirichletNodes sol phi dphi = (merge S phi sol, merge S sol dphi) := by
  rw [storeSolution_eq]
  refine Prod.ext ?_ ?_ <;> funext i <;> simp only [hS.dirichlet, merge] <;> split_ifs <;> simp_all

/-- Non-vacuity of C26: both kinds of nodes. -/
example : storeSolution (fun i : Fin 2 => if i = 0 then 1 else 0) ![10, 20] ![1, 2] ![3, 4] =
    (![1, 20], ![10, 4]) := by
  rw [storeSolution_eq]
  refine Prod.ext ?_ ?_ <;> funext i <;> fin_cases i <;> simp

/-- **C25 and C26 together with the constraints (C22)**. If the iterative solver returns an exact solution of the
constrained system for data `tmpRhs`, and the caller has put the data in `phi` on Dirichlet nodes and in `dphi_dn` on
Neumann nodes, then after `solve_system` the boundary integral equation holds at every unconstrained node and the
unknown satisfies its constraint at every constrained node. -/
theorem C25_after_solve (P : Problem n) (S : Finset (Fin n)) (hS : Masks P S) (h : P.haveDirichletBc = true)
    (procs : ℕ) (own : Fin n → ℕ) (c : Constraints ℝ n) (tmpRhs sol phi dphi : Vec n)
    (hphi : ∀ i ∈ S, phi i = tmpRhs i) (hdphi : ∀ i, i ∉ S → dphi i = tmpRhs i)
    (hsol : constrainedVmult procs own (vmult P) c sol = distributeRhs c (computeRhs P 0 tmpRhs)) :
    (∀ i, c i = none → BIE P.neumannMatrix P.dirichletMatrix P.alpha
      (storeSolution P.dirichletNodes sol phi dphi).1 (storeSolution P.dirichletNodes sol phi dphi).2 i) ∧
    (∀ i entries g, c i = some (entries, g) →
      (if i ∈ S then (storeSolution P.dirichletNodes sol phi dphi).2 i
        else (storeSolution P.dirichletNodes sol phi dphi).1 i) =
        (entries.map (fun e => e.2 * sol e.1)).sum + g) := by
  obtain ⟨h1, h2⟩ := (C22_constrained_solution procs own (vmult P) c sol _).mp hsol
  have e1 : merge S phi sol = merge S tmpRhs sol := by
    funext i; unfold merge; split_ifs with hi
    · exact hphi i hi
    · rfl
  have e2 : merge S sol dphi = merge S sol tmpRhs := by
    funext i; unfold merge; split_ifs with hi
    · rfl
    · exact hdphi i hi
  rw [C26_prescribed_data_kept P S hS]
  refine ⟨fun i hi => ?_, fun i entries g hc => ?_⟩
  · simp only [e1, e2]
    have := row_residual P S hS h sol tmpRhs i
    rw [h2 i hi, sub_self] at this
    exact sub_eq_zero.mp this.symm
  · have := h1 i entries g hc
    simp only [merge]
    split_ifs <;> exact this

/-- Non-vacuity of `C25_after_solve`: two nodes, one Dirichlet (potential 1), one Neumann constrained to the
potential 1 by the double node constraint; the exact solution is `(0, 1)`. -/
example :
    let P : Problem 2 := ⟨fun _ _ => 1, fun i j => if i = j then 1 else 0, fun _ => -2,
      fun i => if i = 0 then 1 else 0, fun i => if i = 0 then 0 else 1, true, .fma⟩
    let c : Constraints ℝ 2 := fun i => if i = 1 then some ([], 1) else none
    Masks P {0} ∧ constrainedVmult 1 (fun _ => 0) (vmult P) c ![0, 1] = distributeRhs c (computeRhs P 0 ![1, 5]) := by
  intro P c
  refine ⟨⟨fun i => by simp [P], fun i => by simp [P]⟩, ?_⟩
  rw [C22_constrained_solution]
  refine ⟨fun i entries g hc => ?_, fun i hc => ?_⟩
  · fin_cases i
    · simp [c] at hc
    · simp only [c] at hc
      simp at hc
      obtain ⟨rfl, rfl⟩ := hc
      simp
  · fin_cases i
    · show vmult P ![0, 1] 0 = computeRhs P 0 ![1, 5] 0
      rw [vmult_dirichlet_eq P rfl, computeRhs_eq]
      simp [P, Fin.sum_univ_two]
      norm_num
    · simp [c] at hc

/-! ## C27, C51: compute_alpha -/

/-- A history of calls of `compute_alpha`: size and partition of each problem. -/
noncomputable def alphaHistory (l : List (ℕ × ℕ)) : AlphaStatics :=
  l.foldl (fun s q => (computeAlpha (n := q.1) .direct q.2 (fun _ _ => 0) (fun _ => 0) s).1) AlphaStatics.init

/-- Specification: size and partition at the last call in which the size changed. -/
def lastChange (l : List (ℕ × ℕ)) : ℕ × ℕ := l.foldl (fun s q => if s.1 = q.1 then s else q) (0, 0)

theorem alphaStatics_invariant (l : List (ℕ × ℕ)) :
    (∀ i, i < (alphaHistory l).size → (alphaHistory l).ones i = -1) ∧
      ((alphaHistory l).size, (alphaHistory l).part) = lastChange l := by
  have key : ∀ (l : List (ℕ × ℕ)) (s : AlphaStatics) (q : ℕ × ℕ), (∀ i, i < s.size → s.ones i = -1) →
      (s.size, s.part) = q →
      let s' := l.foldl (fun s q => (computeAlpha (n := q.1) .direct q.2 (fun _ _ => 0) (fun _ => 0) s).1) s
      (∀ i, i < s'.size → s'.ones i = -1) ∧
        (s'.size, s'.part) = l.foldl (fun s q => if s.1 = q.1 then s else q) q := by
    intro l
    induction l with
    | nil => intro s q h1 h2; exact ⟨h1, h2⟩
    | cons a t ih =>
      intro s q h1 h2
      simp only [List.foldl_cons]
      have e : ∀ N o, (computeAlpha (n := a.1) .direct a.2 N o s).1 = alphaStaticsStep a.1 a.2 s := fun _ _ => rfl
      rw [e]
      subst h2
      by_cases hc : s.size = a.1
      · have es : alphaStaticsStep a.1 a.2 s = s := by simp [alphaStaticsStep, hc]
        rw [es]
        exact ih s _ h1 (by simp [hc])
      · have es : alphaStaticsStep a.1 a.2 s = ⟨a.1, fun _ => 0 + (-1), a.2⟩ := by simp [alphaStaticsStep, hc]
        rw [es]
        exact ih _ _ (fun i _ => by simp) (by simp [hc])
  exact key l AlphaStatics.init (0, 0) (fun i hi => absurd hi (Nat.not_lt_zero i)) rfl

/-- **C27**. Whatever the previous calls (of any sizes and partitions), if `compute_alpha` succeeds, with any old
content of `alpha`, then `alpha_i + Σ_j N_ij = 0` at every node, for both methods; so a constant potential with zero normal
derivative satisfies the boundary integral equation exactly. -/
theorem C27_constants (l : List (ℕ × ℕ)) (m : Method) (part : ℕ) (N : Mat n) {old : Vec n} (alpha : Vec n)
    (h : (computeAlpha m part N old (alphaHistory l)).2 = some alpha) :
    (∀ i, alpha i + ∑ j, N i j = 0) ∧
    ∀ (D : Mat n) (k : ℝ) (i : Fin n), BIE N D alpha (fun _ => k) (fun _ => 0) i := by
  have h1 : ∀ i, alpha i + ∑ j, N i j = 0 := by
    have ho := (alphaStatics_invariant l).1
    generalize alphaHistory l = s at h ho
    have ho' : ∀ i : Fin n, (alphaStaticsStep n part s).ones i = -1 := by
      intro i
      unfold alphaStaticsStep
      split_ifs with hc
      · simp
      · exact ho i (by have := i.isLt; push Not at hc; omega)
    intro i
    unfold computeAlpha at h
    simp only [ho'] at h
    split_ifs at h
    rw [← Option.some.inj h]
    cases m <;> simp [matVmult]
  refine ⟨h1, fun D k i => ?_⟩
  unfold BIE
  rw [← Finset.sum_mul, ← add_mul, h1 i]
  simp

/-- **C51**. `compute_alpha` fails (the constant vector has an old partition) exactly when the partition changed
since the last call in which the number of dofs changed. In particular it succeeds if the number of dofs is new or
the partition never changes; and it fails after repartitioning the same number of dofs. -/
theorem C51_alpha_statics (l : List (ℕ × ℕ)) (m : Method) (part : ℕ) (N : Mat n) (old : Vec n) :
    ((computeAlpha m part N old (alphaHistory l)).2 = none ↔ (lastChange l).1 = n ∧ (lastChange l).2 ≠ part) ∧
    (computeAlpha (n := 4) m 1 (fun _ _ => 1) (fun _ => 0) (alphaHistory [(4, 0)])).2 = none := by
  have key : ∀ (n : ℕ) (N : Mat n) (old : Vec n) (part : ℕ) (l : List (ℕ × ℕ)),
      (computeAlpha m part N old (alphaHistory l)).2 = none ↔ (lastChange l).1 = n ∧ (lastChange l).2 ≠ part := by
    intro n N old part l
    rw [← (alphaStatics_invariant l).2]
    generalize alphaHistory l = s
    unfold computeAlpha alphaStaticsStep
    by_cases hs : s.size = n
    · by_cases hp : s.part = part <;> simp [hs, hp]
    · simp [hs]
  exact ⟨key n N old part l, (key 4 _ _ 1 _).mpr (by decide)⟩

/-- Non-vacuity of C27: a second call on a different mesh succeeds. -/
example : (computeAlpha .fma 3 (fun i j : Fin 2 => (i.val + j.val + 1 : ℝ)) (fun _ => 0) (alphaHistory [(4, 0), (4, 1)])).2.isSome := by
  rw [Option.isSome_iff_ne_none, ne_eq, (C51_alpha_statics _ _ _ _ _).1]
  decide

/-! ## C28: pure Neumann problems -/

theorem l2norm_zero_iff (v : Vec n) : l2norm v = 0 ↔ v = 0 := by
  unfold l2norm
  rw [Real.sqrt_eq_zero (Finset.sum_nonneg fun i _ => sq_nonneg _),
    Finset.sum_eq_zero_iff_of_nonneg (fun i _ => sq_nonneg _)]
  constructor
  · intro h; funext i; simpa using h i (Finset.mem_univ i)
  · rintro rfl i _; simp

theorem l2norm_smul (a : ℝ) (v : Vec n) : l2norm (fun i => a * v i) = |a| * l2norm v := by
  unfold l2norm
  have : ∑ i, (a * v i) ^ 2 = a ^ 2 * ∑ i, v i ^ 2 := by
    rw [Finset.mul_sum]; exact Finset.sum_congr rfl fun i _ => by ring
  rw [this, Real.sqrt_mul (sq_nonneg a), Real.sqrt_sq_eq_abs]

/-- The operator `(N + alpha) x` of a pure Neumann problem. -/
noncomputable def neumannOp (P : Problem n) (x : Vec n) : Vec n :=
  fun i => ∑ j, P.neumannMatrix i j * x j + P.alpha i * x i

/-- **C28**, exact action. In a pure Neumann problem, with `alpha` computed by `compute_alpha`, `vmult x` is
`A x - ‖A x‖₂ (1,…,1)`, with `A = N + alpha`: the shift of the input has no effect, the one of the output subtracts
the norm of the result. -/
theorem C28_action (P : Problem n) (hS : Masks P ∅) (h : P.haveDirichletBc = false)
    (halpha : ∀ i, P.alpha i + ∑ j, P.neumannMatrix i j = 0) (x : Vec n) (i : Fin n) :
    vmult P x i = neumannOp P x i - l2norm (neumannOp P x) := by
  have hd : ∀ i, P.dirichletNodes i = 0 := fun i => by simp [hS.dirichlet]
  have hn : ∀ i, P.neumannNodes i = 1 := fun i => by simp [hS.neumann]
  have hshift : ∀ (s : ℝ) (i : Fin n), ∑ j, P.neumannMatrix i j * (x j + s) + (x i + s) * P.alpha i =
      neumannOp P x i := by
    intro s i
    unfold neumannOp
    simp only [mul_add, Finset.sum_add_distrib, ← Finset.sum_mul]
    have := halpha i
    linear_combination s * this
  unfold vmult
  cases P.method <;>
    simp [h, hd, hn, matVmult, scale, vectorShift, fmaProducts, hshift, sub_eq_add_neg]

/-- **C28**, consequences. In a pure Neumann problem with at least one node `vmult` is additive, or odd, only if
the operator is identically zero; it is positively homogeneous; with at least two nodes its result is zero, or has
zero mean, only on the kernel of the operator (the shift does not produce a zero-mean vector). -/
theorem C28_not_linear (P : Problem n) (hn : 0 < n) (hS : Masks P ∅) (h : P.haveDirichletBc = false)
    (halpha : ∀ i, P.alpha i + ∑ j, P.neumannMatrix i j = 0) :
    ((∀ x y : Vec n, vmult P (x + y) = vmult P x + vmult P y) ↔ ∀ x, neumannOp P x = 0) ∧
    (∀ x : Vec n, vmult P (-x) = -(vmult P x) ↔ neumannOp P x = 0) ∧
    (∀ (a : ℝ) (x : Vec n), 0 ≤ a → vmult P (fun i => a * x i) = fun i => a * vmult P x i) ∧
    (2 ≤ n → ∀ x : Vec n, (∑ i, vmult P x i = 0 ↔ neumannOp P x = 0) ∧ (vmult P x = 0 ↔ neumannOp P x = 0)) := by
  have act := C28_action P hS h halpha
  have hlin : ∀ (a : ℝ) (x : Vec n), neumannOp P (fun i => a * x i) = fun i => a * neumannOp P x i := by
    intro a x; funext i; unfold neumannOp
    rw [mul_add, Finset.mul_sum]
    congr 1
    · exact Finset.sum_congr rfl fun j _ => by ring
    · ring
  have hneg : ∀ x : Vec n, neumannOp P (-x) = fun i => (-1) * neumannOp P x i := by
    intro x; rw [← hlin]; congr 1; funext i; simp
  have hodd : ∀ x : Vec n, vmult P (-x) = -(vmult P x) ↔ neumannOp P x = 0 := by
    intro x
    constructor
    · intro he
      have := congrFun he ⟨0, hn⟩
      rw [Pi.neg_apply, act, act, hneg, l2norm_smul] at this
      simp at this
      rw [← l2norm_zero_iff]
      linarith
    · intro he
      funext i
      rw [Pi.neg_apply, act, act, hneg, l2norm_smul, (l2norm_zero_iff _).mpr he, he]
      simp
  have hzero : neumannOp P (0 : Vec n) = 0 := by funext i; simp [neumannOp]
  have hv0 : vmult P (0 : Vec n) = 0 := by
    funext i; rw [act, hzero, (l2norm_zero_iff _).mpr rfl]; simp
  refine ⟨⟨fun hadd x => ?_, fun hz x y => ?_⟩, hodd, fun a x ha => ?_, fun h2 x => ?_⟩
  · rw [← hodd]
    have := hadd x (-x)
    rw [add_neg_cancel, hv0] at this
    exact (eq_neg_of_add_eq_zero_right this.symm)
  · have hall : ∀ x, vmult P x = 0 := by
      intro x; funext i; rw [act, hz, (l2norm_zero_iff _).mpr rfl]; simp
    rw [hall, hall, hall]; simp
  · funext i
    rw [act, act, hlin, l2norm_smul, abs_of_nonneg ha]; ring
  · have hsum : ∑ i, vmult P x i = 0 ↔ neumannOp P x = 0 := by
      set y := neumannOp P x with hy
      have e : ∑ i, vmult P x i = ∑ i, y i - n * l2norm y := by
        simp only [act, ← hy, Finset.sum_sub_distrib, Finset.sum_const, Finset.card_univ, Fintype.card_fin,
          nsmul_eq_mul]
      rw [e]
      constructor
      · intro hs
        have hcs := sq_sum_le_card_mul_sum_sq (s := Finset.univ) (f := y)
        rw [Finset.card_univ, Fintype.card_fin, sub_eq_zero.mp hs] at hcs
        have hq : l2norm y ^ 2 = ∑ i, y i ^ 2 :=
          Real.sq_sqrt (Finset.sum_nonneg fun i _ => sq_nonneg _)
        rw [← hq] at hcs
        have hn2 : (2 : ℝ) ≤ n := by exact_mod_cast h2
        rw [← l2norm_zero_iff]
        have hnn : 0 ≤ l2norm y ^ 2 := sq_nonneg _
        have : l2norm y ^ 2 = 0 := by nlinarith
        exact pow_eq_zero_iff (two_ne_zero) |>.mp this
      · intro h0
        rw [(l2norm_zero_iff _).mpr h0, h0]; simp
    refine ⟨hsum, fun h0 => hsum.mp (by rw [h0]; simp), fun h0 => ?_⟩
    funext i
    rw [act, (l2norm_zero_iff _).mpr h0, h0]; simp

/-- Non-vacuity of C28: a pure Neumann problem with two nodes and a non-zero operator, so `vmult` is not linear. -/
example :
    let P : Problem 2 := ⟨fun i j => if i = j then 0 else -1, fun _ _ => 0, fun _ => 1, fun _ => 0, fun _ => 1,
      false, .direct⟩
    Masks P ∅ ∧ (∀ i, P.alpha i + ∑ j, P.neumannMatrix i j = 0) ∧ neumannOp P ![1, 0] ≠ 0 := by
  intro P
  refine ⟨⟨fun i => by simp [P], fun i => by simp [P]⟩, fun i => ?_, fun h => ?_⟩
  · fin_cases i <;> simp [P, Fin.sum_univ_two]
  · have := congrFun h 0
    simp [P, neumannOp, Fin.sum_univ_two] at this

/-! ## C52: the right hand side and the old content of its output -/

/-- **C52**. `compute_rhs` overwrites its output with the direct method, but with the multipole method the
opposite of the old content is left in the result: the two methods agree for every data iff the output is zero
before the call. -/
theorem C52_rhs_output (P : Problem n) (dst : Vec n) :
    (P.method = .direct → ∀ g, computeRhs P dst g = computeRhs P 0 g) ∧
    (P.method = .fma → ∀ g, computeRhs P dst g = computeRhs P 0 g - dst) ∧
    (P.method = .fma → ((∀ g, computeRhs P dst g = computeRhs { P with method := .direct } dst g) ↔ dst = 0)) := by
  have hf : P.method = .fma → ∀ g, computeRhs P dst g = computeRhs P 0 g - dst := by
    intro h g; funext i
    rw [Pi.sub_apply, computeRhs_eq, computeRhs_eq, h]; simp; ring
  refine ⟨fun h g => ?_, hf, fun h => ?_⟩
  · funext i; rw [computeRhs_eq, computeRhs_eq, h]; simp
  · have hd : ∀ g, computeRhs { P with method := .direct } dst g = computeRhs P 0 g := by
      intro g; funext i; rw [computeRhs_eq, computeRhs_eq]; simp
    constructor
    · intro he
      have := he 0
      rw [hd, hf h, sub_eq_self] at this
      exact this
    · rintro rfl g
      rw [hd]

/-! ## C33: the band -/

theorem bandStart_toNat (i band : UInt32) : (bandStart i band).toNat = i.toNat - band.toNat / 2 := by
  unfold bandStart
  have h2 : (band / 2).toNat = band.toNat / 2 := by simp
  split_ifs with h
  · have h' : (band / 2).toNat < i.toNat := UInt32.lt_iff_toNat_lt.mp h
    rw [UInt32.toNat_sub_of_le _ _ (UInt32.le_iff_toNat_le.mpr h'.le), h2]
  · have h' : ¬ (band / 2).toNat < i.toNat := fun hc => h (UInt32.lt_iff_toNat_lt.mpr hc)
    rw [h2] at h'
    simp; omega

theorem bandEnd_toNat (i band size : UInt32) (ho : i.toNat + band.toNat / 2 < 2 ^ 32) :
    (bandEnd i band size).toNat = min (i.toNat + band.toNat / 2) size.toNat := by
  have h2 : (i + band / 2).toNat = i.toNat + band.toNat / 2 := by
    rw [UInt32.toNat_add]
    simp only [UInt32.toNat_div, UInt32.reduceToNat]
    omega
  have hd : bandEnd i band size = if i + band / 2 ≤ size then i + band / 2 else size := rfl
  rw [hd]
  split_ifs with h
  · have := UInt32.le_iff_toNat_le.mp h
    omega
  · have : ¬ (i + band / 2).toNat ≤ size.toNat := fun hc => h (UInt32.le_iff_toNat_le.mpr hc)
    omega

theorem mem_bandCols (i band size : UInt32) (ho : i.toNat + band.toNat / 2 < 2 ^ 32) (j : ℕ) :
    j ∈ bandCols i band size ↔ i.toNat - band.toNat / 2 ≤ j ∧ j < i.toNat + band.toNat / 2 ∧ j < size.toNat := by
  unfold bandCols
  rw [List.mem_filter, List.mem_range, bandEnd_toNat i band size ho, bandStart_toNat]
  simp only [decide_eq_true_eq, lt_min_iff]
  tauto

/-- **C33**. For every size, row and bandwidth (without 32 bit overflow of `i + band/2`): every visited column is
valid and visited once; the columns are those of the half-open interval `[i - band/2, i + band/2)`; the diagonal is
visited iff `band ≥ 2`; the pattern is structurally symmetric iff `band < 2` or no two indices have distance
`band/2`: for `band ≥ 2` and more than `band/2` rows the column `i - band/2` is visited but `i + band/2` is not. -/
theorem C33_band (size band : UInt32) (ho : size.toNat + band.toNat / 2 < 2 ^ 32) :
    (∀ i : UInt32, i < size →
      (∀ j ∈ bandCols i band size, j < size.toNat) ∧ (bandCols i band size).Nodup ∧
      (∀ j, j < size.toNat →
        (j ∈ bandCols i band size ↔ (i.toNat : ℤ) - band.toNat / 2 ≤ j ∧ (j : ℤ) < i.toNat + band.toNat / 2)) ∧
      (i.toNat ∈ bandCols i band size ↔ 2 ≤ band.toNat)) ∧
    ((∀ i j : UInt32, i < size → j < size → (j.toNat ∈ bandCols i band size ↔ i.toNat ∈ bandCols j band size)) ↔
      band.toNat < 2 ∨ size.toNat ≤ band.toNat / 2) := by
  have hov : ∀ i : UInt32, i < size → i.toNat + band.toNat / 2 < 2 ^ 32 := fun i hi => by
    have := UInt32.lt_iff_toNat_lt.mp hi; omega
  refine ⟨fun i hi => ?_, ?_⟩
  · have hi' := UInt32.lt_iff_toNat_lt.mp hi
    refine ⟨fun j hj => ((mem_bandCols i band size (hov i hi) j).mp hj).2.2, ?_, fun j hj => ?_, ?_⟩
    · exact (List.nodup_range).filter _
    · rw [mem_bandCols i band size (hov i hi) j]; omega
    · rw [mem_bandCols i band size (hov i hi)]; omega
  · constructor
    · intro h
      by_contra hc
      push Not at hc
      have hlt : (band / 2).toNat = band.toNat / 2 := by simp
      have hz : (0 : UInt32) < size := UInt32.lt_iff_toNat_lt.mpr (by simp; omega)
      have hb : band / 2 < size := UInt32.lt_iff_toNat_lt.mpr (by rw [hlt]; exact hc.2)
      have := h 0 (band / 2) hz hb
      rw [mem_bandCols _ _ _ (hov _ hz), mem_bandCols _ _ _ (hov _ hb), hlt] at this
      simp only [UInt32.toNat_zero] at this
      omega
    · intro h i j hi hj
      rw [mem_bandCols _ _ _ (hov _ hi), mem_bandCols _ _ _ (hov _ hj)]
      have := UInt32.lt_iff_toNat_lt.mp hi
      have := UInt32.lt_iff_toNat_lt.mp hj
      omega

/-- Non-vacuity of C33 with the bandwidth 100 of the program: in row 60 of a matrix of size 200 column 10 is
visited, column 110 is not, and in row 110 column 60 is visited. -/
example : (200 : UInt32).toNat + (100 : UInt32).toNat / 2 < 2 ^ 32 ∧ 10 ∈ bandCols 60 100 200 ∧
    110 ∉ bandCols 60 100 200 ∧ 60 ∈ bandCols 110 100 200 := by
  refine ⟨by decide, ?_, ?_, ?_⟩ <;> rw [mem_bandCols _ _ _ (by decide)] <;> decide

/-! ## C53: entries of the band preconditioner -/

/-- Entry `(i, j)` of `band_system`: sum of the values added there. -/
noncomputable def bandEntry (P : Problem n) (c : Constraints ℝ n) (band : UInt32) (i j : Fin n) : ℝ :=
  ((bandRow P c band i).map (fun e => if e.1 = j then e.2 else 0)).sum

/-- Entry `(i, j)` of the system operator: `-D_ij` in the *columns* of Dirichlet nodes, `N_ij + δ_ij alpha_i` in the
others. -/
noncomputable def systemEntry (P : Problem n) (i j : Fin n) : ℝ := vmult P (Pi.single j 1) i

theorem systemEntry_eq (P : Problem n) (S : Finset (Fin n)) (hS : Masks P S) (h : P.haveDirichletBc = true)
    (i j : Fin n) : systemEntry P i j =
      if j ∈ S then -(P.dirichletMatrix i j) else P.neumannMatrix i j + if i = j then P.alpha i else 0 := by
  unfold systemEntry
  rw [vmult_dirichlet_eq P h, Finset.sum_eq_single j, Finset.sum_eq_single j]
  · rw [hS.dirichlet, hS.neumann]
    by_cases hij : i = j
    · subst hij; by_cases hj : i ∈ S <;> simp [hj, hS.neumann]
    · rw [Pi.single_eq_of_ne hij]; by_cases hj : j ∈ S <;> simp [hj, hij]
  · intro b _ hb; simp [hb]
  · simp
  · intro b _ hb; simp [hb]
  · simp

theorem flatMap_entry_sum (l : List (Fin n)) (hl : l.Nodup) (f : Fin n → List (Fin n × ℝ))
    (hf : ∀ k, ∀ e ∈ f k, e.1 = k) (j : Fin n) :
    ((l.flatMap f).map (fun e => if e.1 = j then e.2 else 0)).sum =
      if j ∈ l then ((f j).map (fun e => e.2)).sum else 0 := by
  induction l with
  | nil => simp
  | cons a t ih =>
    rw [List.nodup_cons] at hl
    rw [List.flatMap_cons, List.map_append, List.sum_append, ih hl.2]
    by_cases ha : a = j
    · subst ha
      have : (f a).map (fun e => if e.1 = a then e.2 else 0) = (f a).map (fun e => e.2) :=
        List.map_congr_left fun e he => by rw [if_pos (hf a e he)]
      rw [this]; simp [hl.1]
    · have : ((f a).map (fun e => if e.1 = j then e.2 else 0)).sum = 0 := by
        apply List.sum_eq_zero
        intro v hv
        obtain ⟨e, he, rfl⟩ := List.mem_map.mp hv
        rw [if_neg]; rw [hf a e he]; exact ha
      rw [this]; simp [Ne.symm ha]

/-- **C53**. Inside the band, the row of an unconstrained node of the preconditioner of the direct solver is the row
of the system operator in the columns of the nodes of the same type (Dirichlet or Neumann) as the row. In a column of
the other type it has the entry of the other matrix: it coincides there with the operator iff `N_ij = -D_ij`.
Outside the band it is zero; the row of a constrained node is the identity row. -/
theorem C53_band_entries (P : Problem n) (S : Finset (Fin n)) (hS : Masks P S) (h : P.haveDirichletBc = true)
    (c : Constraints ℝ n) (band : UInt32) (ho : n + band.toNat / 2 < 2 ^ 32) (i j : Fin n) :
    (c i ≠ none → bandEntry P c band i j = if j = i then 1 else 0) ∧
    (c i = none → ¬ (i.val - band.toNat / 2 ≤ j.val ∧ j.val < i.val + band.toNat / 2) → bandEntry P c band i j = 0) ∧
    (c i = none → i.val - band.toNat / 2 ≤ j.val → j.val < i.val + band.toNat / 2 →
      ((i ∈ S ↔ j ∈ S) → bandEntry P c band i j = systemEntry P i j) ∧
      (¬ (i ∈ S ↔ j ∈ S) →
        (bandEntry P c band i j = systemEntry P i j ↔ P.neumannMatrix i j = -(P.dirichletMatrix i j)))) := by
  set cols := (List.finRange n).filter
    (fun j => decide (j.val ∈ bandCols (UInt32.ofNat i) band (UInt32.ofNat n))) with hcols
  have hnd : cols.Nodup := (List.nodup_finRange n).filter _
  have hmem : j ∈ cols ↔ i.val - band.toNat / 2 ≤ j.val ∧ j.val < i.val + band.toNat / 2 := by
    rw [hcols, List.mem_filter]
    have hj := j.isLt
    have hi := i.isLt
    have ei : (UInt32.ofNat i).toNat = i.val := by simp; omega
    have en : (UInt32.ofNat n).toNat = n := by simp; omega
    simp only [List.mem_finRange, true_and, decide_eq_true_eq]
    rw [mem_bandCols _ _ _ (by rw [ei]; omega), ei, en]
    omega
  set f : Fin n → List (Fin n × ℝ) := fun j =>
    if (c i).isSome then [] else
    if P.dirichletNodes i = 0 then
      [(j, P.neumannMatrix i j)] ++ (if i = j then [(j, P.alpha i)] else [])
    else [(j, -(P.dirichletMatrix i j))] with hf
  have hfk : ∀ k, ∀ e ∈ f k, e.1 = k := by
    intro k e he
    simp only [hf] at he
    split_ifs at he <;> simp at he
    · rcases he with rfl | rfl <;> rfl
    · rw [he]
    · rw [he]
  have hval : bandEntry P c band i j =
      (if (c i).isSome then (if i = j then 1 else 0) else 0) + if j ∈ cols then ((f j).map (fun e => e.2)).sum else 0 := by
    unfold bandEntry bandRow
    rw [List.map_append, List.sum_append]
    congr 1
    · split_ifs <;> simp_all
    · exact flatMap_entry_sum cols hnd f hfk j
  refine ⟨fun hc => ?_, fun hc hout => ?_, fun hc h1 h2 => ?_⟩
  · obtain ⟨e, he⟩ := Option.ne_none_iff_exists'.mp hc
    rw [hval]
    have : f j = [] := by simp [hf, he]
    rw [this, he]
    by_cases hij : i = j
    · subst hij; simp
    · simp [hij, Ne.symm hij]
  · rw [hval, hc, if_neg (fun hm => hout (hmem.mp hm))]; simp
  · have hin : j ∈ cols := hmem.mpr ⟨h1, h2⟩
    have hv : bandEntry P c band i j =
        if i ∈ S then -(P.dirichletMatrix i j) else P.neumannMatrix i j + if i = j then P.alpha i else 0 := by
      rw [hval, if_pos hin]
      simp only [hf, hc, hS.dirichlet]
      by_cases hi : i ∈ S
      · simp [hi]
      · by_cases hij : i = j
        · subst hij; simp [hi]
        · simp [hi, hij]
    rw [hv, systemEntry_eq P S hS h]
    refine ⟨fun hs => ?_, fun hs => ?_⟩
    · by_cases hj : j ∈ S
      · rw [if_pos hj, if_pos (hs.mpr hj)]
      · rw [if_neg hj, if_neg (fun hi => hj (hs.mp hi))]
    · have hij : i ≠ j := by rintro rfl; exact hs Iff.rfl
      by_cases hj : j ∈ S
      · have hi : i ∉ S := fun hi => hs ⟨fun _ => hj, fun _ => hi⟩
        rw [if_pos hj, if_neg hi, if_neg hij, add_zero]
      · have hi : i ∈ S := by by_contra hi; exact hs ⟨fun a => absurd a hi, fun a => absurd a hj⟩
        rw [if_neg hj, if_pos hi, if_neg hij, add_zero]
        exact eq_comm

/-- Non-vacuity of C53: a row of a Neumann node and the column of a Dirichlet node, inside the band, where the two
matrices differ. -/
example :
    let P : Problem 2 := ⟨fun _ _ => 1, fun _ _ => 2, fun _ => -2, fun i => if i = 0 then 1 else 0,
      fun i => if i = 0 then 0 else 1, true, .direct⟩
    bandEntry P (fun _ => none) 100 1 0 ≠ systemEntry P 1 0 ∧
      bandEntry P (fun _ => none) 100 1 1 = systemEntry P 1 1 := by
  intro P
  have hm : Masks P {0} := ⟨fun i => by simp [P], fun i => by simp [P]⟩
  have h0 := C53_band_entries P {0} hm rfl (fun _ => none) 100 (by decide) 1 0
  have h1 := C53_band_entries P {0} hm rfl (fun _ => none) 100 (by decide) 1 1
  refine ⟨?_, (h1.2.2 rfl (by decide) (by decide)).1 Iff.rfl⟩
  rw [ne_eq, (h0.2.2 rfl (by decide) (by decide)).2 (by simp)]
  simp [P]
  norm_num

end PiBem.Bem
