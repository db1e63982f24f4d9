import Verif.Props.Balance
import Verif.Props.Tolerance

/-!
# C115: balance of the normal derivatives when the linear solver stops at its tolerance
-/

noncomputable section

namespace PiBem.Bem

open PiBem.Octree PiBem.Fmm PiBem.Expansion

variable {d : ℕ} {inp : Input 3} {D : Data} {S S' : SingRule}

/-- **C115** (solves up to a tolerance). Dense method. If the preconditioned residual passes the test of the solver and the preconditioner shrinks no vector by more than `p` (for the identity `p = 1`), the weighted sum of the returned
normal derivatives is at most `p * tol` times one plus twice the weighted mean of the coefficients `alpha`; without double nodes it is at most `p * tol`. -/
theorem C115_stops {w m : Vec inp.nDofs} (hB : Balance inp D S' w m) (C : Setup inp.nDofs d) (hm : C.method = .direct)
    (gmres : (Vec inp.nDofs → Vec inp.nDofs) → Vec inp.nDofs → Vec inp.nDofs) (l : List (ℕ × ℕ)) (st : AlphaStatics)
    (phi0 dphi0 : Vec inp.nDofs) (X : Solution inp.nDofs)
    (h : solve inp D S S' C gmres (alphaHistory l) phi0 dphi0 = (st, some X))
    (B : Finset (Fin inp.nDofs)) (hP : Posed inp C B phi0 dphi0) (hdata : Consistent C B) (hg : ∀ i, ¬ GradientNode C B i)
    (T : Mat inp.nDofs) (tol p : ℝ) (hp : 0 ≤ p) (hT : ∀ v, l2norm v ≤ p * l2norm (matVmult T v)) (hstop : l2norm (matVmult T X.residual) ≤ tol) :
    |∑ k, m k * X.dphi k| ≤ (1 + 2 * ∑ i : Fin inp.nDofs, w i * |∑ k : Fin inp.nDofs, surfaceIntegral inp D S' .double i k|) * (p * tol) ∧
    ((∀ i, C.doubles i = {i}) → |∑ k, m k * X.dphi k| ≤ p * tol) := by
  obtain ⟨h1, h2⟩ := C94_tolerance _ _ C gmres l st phi0 dphi0 X h B hP.dirichlet hP.neumann hP.bc hP.phi hP.dphi hP.refl hP.eq hP.order hdata T tol p hp hT hstop
  have hent : ∀ (ker : Ker) (i k : Fin inp.nDofs), solveMatrix inp D S S' C.method C.owner ker i k = surfaceIntegral inp D S' ker i k := by
    rw [hm]; exact fun ker i k => C64_dense_entry inp D S' ker _ i i.isLt (by simp) k
  have hpt : 0 ≤ p * tol := mul_nonneg hp ((Real.sqrt_nonneg _).trans hstop)
  have free : ∀ i, ¬ ((i ∉ B ∧ ∃ j ∈ C.doubles i, j ∈ B) ∨ ((∀ j ∈ C.doubles i, j ∉ B) ∧ ∃ j ∈ C.doubles i, j < i) ∨
        (i ∈ B ∧ C.nodes.continuosGradient = true ∧ ∃ j ∈ C.doubles i, j ≠ i ∧ j ∈ B)) → |bieResidual inp D S' X.phi X.dphi i| ≤ p * tol := by
    intro i hi
    have := h1 i (hP.hanging i) hi
    unfold eqResidual at this
    simp only [hent] at this
    exact this
  have lead : ∀ i, ∃ j ∈ C.doubles i, |bieResidual inp D S' X.phi X.dphi j| ≤ p * tol := by
    intro i
    by_cases hD : ∃ j ∈ C.doubles i, j ∈ B
    · obtain ⟨j, hj, hjB⟩ := hD
      refine ⟨j, hj, free j ?_⟩
      rintro (⟨hn, -⟩ | ⟨hn, -⟩ | ⟨-, hcg, k, hk, hne, hkB⟩)
      · exact hn hjB
      · exact hn j (hP.refl j) hjB
      · exact hg j ⟨hcg, j, hP.refl j, k, hk, hjB, hkB, hne.symm⟩
    · push Not at hD
      have hne : (C.doubles i).Nonempty := ⟨i, hP.refl i⟩
      have hmem := Finset.min'_mem _ hne
      refine ⟨_, hmem, free _ ?_⟩
      rintro (⟨-, k, hk, hkB⟩ | ⟨-, k, hk, hlt⟩ | ⟨hb, -⟩)
      · rw [hP.eq i _ hmem] at hk; exact hD k hk hkB
      · rw [hP.eq i _ hmem] at hk; exact absurd (Finset.min'_le _ _ hk) (not_le.2 hlt)
      · exact hD _ hmem hb
  have bound : ∀ i, |bieResidual inp D S' X.phi X.dphi i| ≤ p * tol + |∑ k : Fin inp.nDofs, surfaceIntegral inp D S' .double i k| * (2 * p * tol) := by
    intro i
    obtain ⟨j, hj, hr⟩ := lead i
    have e := residual_coincide D S S' .direct C.owner X.phi X.dphi (hP.coincide i j hj)
    rw [methodResidual_direct, methodResidual_direct] at e
    have hent' : ∀ k : Fin inp.nDofs, solveMatrix inp D S S' .direct C.owner .double i k = surfaceIntegral inp D S' .double i k := by
      intro k; rw [← hent, hm]
    simp only [hent'] at e
    have e' : bieResidual inp D S' X.phi X.dphi i = bieResidual inp D S' X.phi X.dphi j +
        (∑ k : Fin inp.nDofs, surfaceIntegral inp D S' .double i k) * (X.phi j - X.phi i) := by linarith
    rw [e']
    refine (abs_add_le _ _).trans (add_le_add hr ?_)
    rw [abs_mul]
    exact mul_le_mul_of_nonneg_left (h2 i j hj) (abs_nonneg _)
  have hsum : |∑ k, m k * X.dphi k| ≤ ∑ i, w i * |bieResidual inp D S' X.phi X.dphi i| := by
    rw [← abs_neg, ← hB.balance X.phi X.dphi]
    refine (Finset.abs_sum_le_sum_abs _ _).trans (le_of_eq (Finset.sum_congr rfl fun i _ => ?_))
    rw [abs_mul, abs_of_pos (hB.rows i)]
  refine ⟨hsum.trans ?_, fun hdbl => C115_tolerance hB X.phi X.dphi _ fun i => ?_⟩
  · calc ∑ i, w i * |bieResidual inp D S' X.phi X.dphi i|
        ≤ ∑ i : Fin inp.nDofs, w i * (p * tol + |∑ k : Fin inp.nDofs, surfaceIntegral inp D S' .double i k| * (2 * p * tol)) :=
          Finset.sum_le_sum fun i _ => mul_le_mul_of_nonneg_left (bound i) (hB.rows i).le
      _ = (∑ i, w i) * (p * tol) + (∑ i : Fin inp.nDofs, w i * |∑ k : Fin inp.nDofs, surfaceIntegral inp D S' .double i k|) * (2 * p * tol) := by
          rw [Finset.sum_mul, Finset.sum_mul, ← Finset.sum_add_distrib]
          exact Finset.sum_congr rfl fun i _ => by ring
      _ = _ := by rw [hB.total]; ring
  · obtain ⟨j, hj, hr⟩ := lead i
    rw [hdbl] at hj
    rwa [Finset.mem_singleton.1 hj] at hr

/-- **C115** (one Dirichlet node, tolerance). Without double nodes the normal derivative returned at the only Dirichlet node is `p * tol` over its weight close to the one of the exact solution. -/
theorem C115_stops_one_dirichlet {w m : Vec inp.nDofs} (hB : Balance inp D S' w m) (C : Setup inp.nDofs d) (hm : C.method = .direct)
    (gmres : (Vec inp.nDofs → Vec inp.nDofs) → Vec inp.nDofs → Vec inp.nDofs) (l : List (ℕ × ℕ)) (st : AlphaStatics)
    (phi0 dphi0 : Vec inp.nDofs) (X : Solution inp.nDofs)
    (h : solve inp D S S' C gmres (alphaHistory l) phi0 dphi0 = (st, some X))
    (b : Fin inp.nDofs) (hP : Posed inp C {b} phi0 dphi0) (hdbl : ∀ i, C.doubles i = {i})
    (T : Mat inp.nDofs) (tol p : ℝ) (hp : 0 ≤ p) (hT : ∀ v, l2norm v ≤ p * l2norm (matVmult T v)) (hstop : l2norm (matVmult T X.residual) ≤ tol) :
    |X.dphi b - -(∑ k ∈ Finset.univ.erase b, m k * C.nodes.tmpRhs k) / m b| ≤ p * tol / m b := by
  have hc : Consistent C {b} := by
    refine ⟨fun i hi j _ hj => by rw [Finset.mem_singleton.1 hi, Finset.mem_singleton.1 hj], fun _ i hi j _ hj hne => ?_⟩
    exact absurd ((Finset.mem_singleton.1 hj).trans (Finset.mem_singleton.1 hi).symm) hne
  have hg : ∀ i, ¬ GradientNode C {b} i := by
    rintro i ⟨-, j, -, k, -, hj, hk, hne⟩
    exact hne ((Finset.mem_singleton.1 hj).trans (Finset.mem_singleton.1 hk).symm)
  have h0 := (C115_stops hB C hm gmres l st phi0 dphi0 X h {b} hP hc hg T tol p hp hT hstop).2 hdbl
  obtain ⟨-, -, -, q, -⟩ := solve_rows h {b} hP.dirichlet hP.neumann hP.bc hP.phi hP.dphi
  rw [← Finset.add_sum_erase _ _ (Finset.mem_univ b)] at h0
  rw [Finset.sum_congr rfl fun k hk => by
    have : k ∉ ({b} : Finset (Fin inp.nDofs)) := fun h => (Finset.ne_of_mem_erase hk) (Finset.mem_singleton.1 h)
    show m k * X.dphi k = m k * C.nodes.tmpRhs k
    rw [q]
    simp only [merge, this, if_false]] at h0
  have hmb := hB.nodes b
  have e : X.dphi b - -(∑ k ∈ Finset.univ.erase b, m k * C.nodes.tmpRhs k) / m b = (m b * X.dphi b + ∑ k ∈ Finset.univ.erase b, m k * C.nodes.tmpRhs k) / m b := by
    field_simp
    ring
  rw [e, abs_div, abs_of_pos hmb]
  exact div_le_div_of_nonneg_right h0 hmb.le

/-- **C115** (conservation). In an exact solve the weighted sum of the normal derivatives returned at the Dirichlet nodes is minus the weighted sum of those given at the Neumann nodes; where the latter are zero,
the returned ones are all zero or have both signs. -/
theorem C115_conservation {w m : Vec inp.nDofs} (hB : Balance inp D S' w m) (C : Setup inp.nDofs d) (hm : C.method = .direct)
    (gmres : (Vec inp.nDofs → Vec inp.nDofs) → Vec inp.nDofs → Vec inp.nDofs) (l : List (ℕ × ℕ)) (st : AlphaStatics)
    (phi0 dphi0 : Vec inp.nDofs) (X : Solution inp.nDofs)
    (h : solve inp D S S' C gmres (alphaHistory l) phi0 dphi0 = (st, some X))
    (B : Finset (Fin inp.nDofs)) (hP : Posed inp C B phi0 dphi0) (hdata : Consistent C B) (hg : ∀ i, ¬ GradientNode C B i)
    (hX : ∀ i, X.residual i = 0) :
    ∑ k ∈ B, m k * X.dphi k = -∑ k ∈ Bᶜ, m k * C.nodes.tmpRhs k ∧
    ((∀ k, k ∉ B → C.nodes.tmpRhs k = 0) → (∀ k, X.dphi k = 0) ∨ (∃ k ∈ B, X.dphi k < 0) ∧ ∃ k ∈ B, 0 < X.dphi k) := by
  have h0 := C115_solve hB C hm gmres l st phi0 dphi0 X h B hP hdata hg hX
  obtain ⟨-, -, -, q, -⟩ := solve_rows h B hP.dirichlet hP.neumann hP.bc hP.phi hP.dphi
  have hoff : ∀ k, k ∉ B → X.dphi k = C.nodes.tmpRhs k := fun k hk => by rw [q]; simp [merge, hk]
  refine ⟨?_, fun hz => ?_⟩
  · rw [← Finset.sum_add_sum_compl B] at h0
    rw [Finset.sum_congr (rfl : Bᶜ = Bᶜ) fun k hk => by rw [hoff k (Finset.mem_compl.1 hk)]] at h0
    linarith
  · by_cases hall : ∀ k, X.dphi k = 0
    · exact Or.inl hall
    · right
      push Not at hall
      obtain ⟨k, hk⟩ := hall
      have inB : ∀ k, X.dphi k ≠ 0 → k ∈ B := fun k hk => by
        by_contra hn
        exact hk ((hoff k hn).trans (hz k hn))
      have mpos := hB.nodes
      constructor
      · by_contra hneg
        push Not at hneg
        have hge : ∀ k, 0 ≤ X.dphi k := fun k => by
          by_cases hkB : k ∈ B
          · exact hneg k hkB
          · rw [hoff k hkB, hz k hkB]
        have := (Finset.sum_eq_zero_iff_of_nonneg fun k _ => mul_nonneg (mpos k).le (hge k)).1 h0 k (Finset.mem_univ k)
        exact hk ((mul_eq_zero.1 this).resolve_left (mpos k).ne')
      · by_contra hpos
        push Not at hpos
        have hle : ∀ k, X.dphi k ≤ 0 := fun k => by
          by_cases hkB : k ∈ B
          · exact hpos k hkB
          · rw [hoff k hkB, hz k hkB]
        have := (Finset.sum_eq_zero_iff_of_nonpos fun k _ => mul_nonpos_of_nonneg_of_nonpos (mpos k).le (hle k)).1 h0 k (Finset.mem_univ k)
        exact hk ((mul_eq_zero.1 this).resolve_left (mpos k).ne')

/-- **C115** (pure Neumann problems, when they can be solved). Without double nodes, on a connected convex surface, a pure Neumann problem has an exact solution exactly if the weighted sum of the given normal derivatives is
minus the euclidean norm of the difference between their single layer and this sum; so almost never, and for compatible data, with weighted sum zero, only if their single layer vanishes. The potential is determined up to a constant. -/
theorem C115_neumann_iff (hK : ConvexSurface inp D S') (hcon : Connected inp D S') {w m : Vec inp.nDofs} (hB : Balance inp D S' w m) (hpos : 0 < inp.nDofs)
    (C : Setup inp.nDofs d) (hm : C.method = .direct) (l : List (ℕ × ℕ)) (phi0 dphi0 : Vec inp.nDofs)
    (hr : ∃ gmres st X, solve inp D S S' C gmres (alphaHistory l) phi0 dphi0 = (st, some X))
    (hd : ∀ i, C.nodes.dirichlet i = 0) (hn : ∀ i, C.neumannNodes i = 1) (hb : C.haveDirichletBc = false)
    (hdbl : ∀ i, C.doubles i = {i}) (hhang : ∀ i, C.hanging i = none) (hord : ∀ i, i ∈ C.order) :
    ((∃ gmres st X, solve inp D S S' C gmres (alphaHistory l) phi0 dphi0 = (st, some X) ∧ ∀ i, X.residual i = 0) ↔
      l2norm (fun i : Fin inp.nDofs => (∑ k : Fin inp.nDofs, surfaceIntegral inp D S' .single i k * C.nodes.tmpRhs k) - ∑ k, m k * C.nodes.tmpRhs k) = -∑ k, m k * C.nodes.tmpRhs k) ∧
    ∀ gmres gmres' st st' X X', solve inp D S S' C gmres (alphaHistory l) phi0 dphi0 = (st, some X) → solve inp D S S' C gmres' (alphaHistory l) phi0 dphi0 = (st', some X') →
      (∀ i, X.residual i = 0) → (∀ i, X'.residual i = 0) → ∃ t, ∀ i, X'.phi i = X.phi i + t := by
  obtain ⟨hN, hL⟩ := convex_matrix hK hcon
  have hent : ∀ (ker : Ker) (i k : Fin inp.nDofs), solveMatrix inp D S S' C.method C.owner ker i k = surfaceIntegral inp D S' ker i k := by
    rw [hm]; exact fun ker i k => C64_dense_entry inp D S' ker _ i i.isLt (by simp) k
  have hMD : ∀ phi, methodDouble inp D S S' C.method C.owner phi = differences (fun i k : Fin inp.nDofs => surfaceIntegral inp D S' .double i k) phi := fun phi => by
    funext i
    unfold methodDouble differences
    simp only [hent]
  set b : Vec inp.nDofs := fun i => ∑ k : Fin inp.nDofs, surfaceIntegral inp D S' .single i k * C.nodes.tmpRhs k with hbdef
  have hMS : methodSingle inp D S S' C.method C.owner C.nodes.tmpRhs = b := by
    funext i
    unfold methodSingle
    simp only [hent, hbdef]
  set s := ∑ k, m k * C.nodes.tmpRhs k with hs
  have hwb : ∑ i, w i * b i = s := by
    have := hB.balance 0 C.nodes.tmpRhs
    have e : ∀ i : Fin inp.nDofs, w i * bieResidual inp D S' 0 C.nodes.tmpRhs i = -(w i * b i) := fun i => by
      unfold bieResidual
      simp [hbdef]
    rw [Finset.sum_congr rfl fun i _ => e i, Finset.sum_neg_distrib, neg_inj] at this
    exact this
  have rows : ∀ gmres st X, solve inp D S S' C gmres (alphaHistory l) phi0 dphi0 = (st, some X) →
      X.phi = X.sol ∧ ∀ i, differences (fun i k : Fin inp.nDofs => surfaceIntegral inp D S' .double i k) X.phi i -
        l2norm (differences (fun i k : Fin inp.nDofs => surfaceIntegral inp D S' .double i k) X.phi) = b i - X.residual i := by
    intro gmres st X h
    obtain ⟨c, hc, h1, -, h3⟩ := solve_rows_neumann h hd hn hb
    rw [hMD, hMS] at h3
    refine ⟨h1, fun i => h3 i ?_⟩
    exact (unconstrained_neumann C.nodes C.doubles (fun i => by rw [hdbl]; exact Finset.mem_singleton_self i)
      (fun i j hj => by rw [hdbl] at hj; rw [Finset.mem_singleton.1 hj]) hd C.hanging C.fuel C.order hord hc i).2
      ⟨hhang i, fun j hj => by rw [hdbl] at hj; rw [Finset.mem_singleton.1 hj]⟩
  have exact_diff : ∀ gmres st X, solve inp D S S' C gmres (alphaHistory l) phi0 dphi0 = (st, some X) → (∀ i, X.residual i = 0) →
      (∀ i, differences (fun i k : Fin inp.nDofs => surfaceIntegral inp D S' .double i k) X.phi i = b i - s) ∧
      l2norm (differences (fun i k : Fin inp.nDofs => surfaceIntegral inp D S' .double i k) X.phi) = -s := by
    intro gmres st X h hX
    have hrow := (rows gmres st X h).2
    set t := l2norm (differences (fun i k : Fin inp.nDofs => surfaceIntegral inp D S' .double i k) X.phi) with ht
    have hrow' : ∀ i, differences (fun i k : Fin inp.nDofs => surfaceIntegral inp D S' .double i k) X.phi i = b i + t := fun i => by
      have := hrow i
      rw [hX i] at this
      linarith
    have h0 := hB.weights.1.differences X.phi
    rw [Finset.sum_congr rfl fun i _ => by rw [hrow' i, mul_add], Finset.sum_add_distrib, ← Finset.sum_mul, hB.total, one_mul, hwb] at h0
    have e : t = -s := by linarith
    exact ⟨fun i => by rw [hrow' i, e]; ring, e⟩
  refine ⟨⟨?_, fun hnorm => ?_⟩, fun gmres gmres' st st' X X' h h' hX hX' => ?_⟩
  · rintro ⟨gmres, st, X, h, hX⟩
    obtain ⟨h1, h2⟩ := exact_diff gmres st X h hX
    rw [← h2, ← funext h1]
  · have hw : w ≠ 0 := fun h0 => by have := hB.rows ⟨0, hpos⟩; rw [h0] at this; exact lt_irrefl _ this
    obtain ⟨phi, hphi⟩ := (differences_range hN hL hw hB.weights.1 fun i => b i - s).2 (by
      simp only [mul_sub, Finset.sum_sub_distrib, ← Finset.sum_mul]
      rw [hwb, hB.total, one_mul, sub_self])
    obtain ⟨gmres, st, X, h⟩ := hr
    obtain ⟨Y, hY, hsol⟩ := solve_any h phi
    obtain ⟨h1, h2⟩ := rows _ st Y hY
    refine ⟨_, st, Y, hY, fun i => ?_⟩
    have := h2 i
    rw [h1, hsol, funext hphi, hnorm] at this
    linarith
  · have e1 := (exact_diff gmres st X h hX).1
    have e2 := (exact_diff gmres' st' X' h' hX').1
    have hz : ∀ i, differences (fun i k : Fin inp.nDofs => surfaceIntegral inp D S' .double i k) (fun k => X'.phi k - X.phi k) i = 0 := by
      intro i
      have : differences (fun i k : Fin inp.nDofs => surfaceIntegral inp D S' .double i k) (fun k => X'.phi k - X.phi k) i =
          differences (fun i k : Fin inp.nDofs => surfaceIntegral inp D S' .double i k) X'.phi i - differences (fun i k : Fin inp.nDofs => surfaceIntegral inp D S' .double i k) X.phi i := by
        unfold differences
        rw [← Finset.sum_sub_distrib]
        exact Finset.sum_congr rfl fun k _ => by ring
      rw [this, e1, e2, sub_self]
    refine ⟨X'.phi ⟨0, hpos⟩ - X.phi ⟨0, hpos⟩, fun i => ?_⟩
    have := constant_of_differences hN hL hz i ⟨0, hpos⟩
    linarith

/-- **C115** (both methods). In an exact solve by either method the weighted sum of the normal derivatives is at most the weighted mean of the errors of the products of the method (zero for dense matrices; truncation of the
expansions and difference of the singular quadratures for the fast multipole method): the fast multipole method violates the balance of the surface by the errors of its products only. -/
theorem C115_method {w m : Vec inp.nDofs} (hB : Balance inp D S' w m) (C : Setup inp.nDofs d)
    (gmres : (Vec inp.nDofs → Vec inp.nDofs) → Vec inp.nDofs → Vec inp.nDofs) (l : List (ℕ × ℕ)) (st : AlphaStatics)
    (phi0 dphi0 : Vec inp.nDofs) (X : Solution inp.nDofs)
    (h : solve inp D S S' C gmres (alphaHistory l) phi0 dphi0 = (st, some X))
    (B : Finset (Fin inp.nDofs)) (hP : Posed inp C B phi0 dphi0) (hdata : Consistent C B) (hg : ∀ i, ¬ GradientNode C B i)
    (hdof : ∀ c k, k ∈ inp.cellDofs c → k < inp.nDofs) (hm : C.method = .fma → Admissible inp D)
    (hX : ∀ i, X.residual i = 0) :
    |∑ k, m k * X.dphi k| ≤ ∑ i : Fin inp.nDofs, w i *
      (methodGap C.method inp D S S' .double (fun k => X.phi k - X.phi i) i + methodGap C.method inp D S S' .single X.dphi i) := by
  have bound : ∀ i : Fin inp.nDofs, |bieResidual inp D S' X.phi X.dphi i| ≤
      methodGap C.method inp D S S' .double (fun k => X.phi k - X.phi i) i + methodGap C.method inp D S S' .single X.dphi i := by
    intro i
    have h0 := ((C82_exact_solutions inp D S S' C gmres l st phi0 dphi0 X h B hP hdata.sharp hdata.agree).1 hX).1 i (hg i)
    have g1 := product_gap inp D S S' C.method C.owner .double hdof hm (fun k => X.phi k - X.phi i) i
    have g2 := product_gap inp D S S' C.method C.owner .single hdof hm X.dphi i
    unfold methodResidual at h0
    unfold bieResidual
    rw [abs_le] at g1 g2 ⊢
    constructor <;> linarith [g1.1, g1.2, g2.1, g2.2]
  rw [← abs_neg, ← hB.balance X.phi X.dphi]
  refine (Finset.abs_sum_le_sum_abs _ _).trans (Finset.sum_le_sum fun i _ => ?_)
  rw [abs_mul, abs_of_pos (hB.rows i)]
  exact mul_le_mul_of_nonneg_left (bound i) (hB.rows i).le

/-- the hypotheses of `C115_stops` on the cube, for every linear solver that stops at its tolerance and every potential: the identity as preconditioner -/
example (S : SingRule) (procs : ℕ) (g : Vec 8) (gmres : (Vec 8 → Vec 8) → Vec 8 → Vec 8) (tol : ℝ) : ∃ w m, Balance (cubeInput 3 0) cubeData faceRule w m ∧
    ∃ (st : AlphaStatics) (X : Solution 8), solve (cubeInput 3 0) cubeData S faceRule (cubeDirichlet procs g) gmres (alphaHistory []) g (fun _ => 0) = (st, some X) ∧
      (l2norm X.residual ≤ tol → |∑ k, m k * X.dphi k| ≤ tol) := by
  obtain ⟨w, m, hB⟩ := C115_balance cube_convex cube_connected cube_apart (by decide)
  have hl := constraints_no_doubles (cubeDirichlet procs g).nodes (fun i => Or.inr rfl) (fun _ => none) (by simp) 1 (by simp) (List.finRange _)
  obtain ⟨st, X, h⟩ := solve_some (inp := cubeInput 3 0) (D := cubeData) (S := S) (S' := faceRule) (C := cubeDirichlet procs g)
    (gmres := gmres) (st := alphaHistory []) (phi0 := g) (dphi0 := fun _ => 0)
    (by simp [alphaHistory, alphaStaticsStep, AlphaStatics.init, cubeInput]) hl
  refine ⟨w, m, hB, st, X, h, fun ht => ?_⟩
  have he : ∀ v : Vec 8, matVmult (eye 8) v = v := fun v => by funext i; simp [matVmult, eye]
  have := (C115_stops hB (cubeDirichlet procs g) rfl gmres [] st _ _ X h Finset.univ (cubeDirichlet_posed procs _ _) (cubeDirichlet_consistent procs _)
    (fun i hg => by simp [GradientNode, cubeDirichlet] at hg) (eye 8) tol 1 zero_le_one (fun v => le_of_eq (by rw [one_mul]; exact (congrArg l2norm (he v)).symm))
    ((congrArg l2norm (he X.residual)).trans_le ht)).2 fun i => rfl
  rwa [one_mul] at this

/-- the hypotheses of `C115_conservation` on the cube: every potential gives normal derivatives that are all zero or of both signs -/
example (S : SingRule) (procs : ℕ) (g : Vec 8) : ∃ (gmres : (Vec 8 → Vec 8) → Vec 8 → Vec 8) (st : AlphaStatics) (X : Solution 8),
    solve (cubeInput 3 0) cubeData S faceRule (cubeDirichlet procs g) gmres (alphaHistory []) g (fun _ => 0) = (st, some X) ∧ (∀ i, X.phi i = g i) ∧
    ((∀ k, X.dphi k = 0) ∨ (∃ k, X.dphi k < 0) ∧ ∃ k, 0 < X.dphi k) := by
  obtain ⟨w, m, hB⟩ := C115_balance cube_convex cube_connected cube_apart (by decide)
  obtain ⟨gmres, st, X, h, hr, hp, -⟩ := cube_exact S procs g
  refine ⟨gmres, st, X, h, hp, ?_⟩
  have := (C115_conservation hB (cubeDirichlet procs g) rfl gmres [] st _ _ X h Finset.univ (cubeDirichlet_posed procs _ _) (cubeDirichlet_consistent procs _)
    (fun i hg => by simp [GradientNode, cubeDirichlet] at hg) hr).2 fun k hk => absurd (Finset.mem_univ k) hk
  exact this.imp id fun ⟨⟨k, _, hk⟩, j, _, hj⟩ => ⟨⟨k, hk⟩, j, hj⟩

/-- the hypotheses of `C115_neumann_iff` on the cube: with zero normal derivatives there is an exact solution; with all other normal derivatives that are compatible (weighted sum zero, so that the equation has solutions) there is none -/
example (S : SingRule) (procs : ℕ) : ∃ w m, Balance (cubeInput 3 0) cubeData faceRule w m ∧
    (∃ gmres st X, solve (cubeInput 3 0) cubeData S faceRule (cubeNeumann .direct procs 0) gmres (alphaHistory []) (fun _ => 0) 0 = (st, some X) ∧ ∀ i, X.residual i = 0) ∧
    ∀ g : Vec 8, g ≠ 0 → ∑ k, m k * g k = 0 → (∃ phi, ∀ i, bieResidual (cubeInput 3 0) cubeData faceRule phi g i = 0) ∧
      ¬ ∃ gmres st X, solve (cubeInput 3 0) cubeData S faceRule (cubeNeumann .direct procs g) gmres (alphaHistory []) (fun _ => 0) g = (st, some X) ∧ ∀ i, X.residual i = 0 := by
  obtain ⟨w, m, hB⟩ := C115_balance cube_convex cube_connected cube_apart (by decide)
  have key : ∀ g : Vec 8, (∃ gmres st X, solve (cubeInput 3 0) cubeData S faceRule (cubeNeumann .direct procs g) gmres (alphaHistory []) (fun _ => 0) g = (st, some X) ∧ ∀ i, X.residual i = 0) ↔
      l2norm (fun i : Fin 8 => (∑ k : Fin 8, surfaceIntegral (cubeInput 3 0) cubeData faceRule .single i k * g k) - ∑ k, m k * g k) = -∑ k, m k * g k := fun g => by
    obtain ⟨st, X, h⟩ := cube_neumann_solve S faceRule .direct procs g (fun _ _ => 0) (fun _ => 0) g
    exact (C115_neumann_iff cube_convex cube_connected hB (by decide) (cubeNeumann .direct procs g) rfl [] (fun _ => 0) g ⟨_, st, X, h⟩ (fun _ => rfl) (fun _ => rfl) rfl
      (fun _ => rfl) (fun _ => rfl) (fun i => List.mem_finRange i)).1
  refine ⟨w, m, hB, (key 0).2 ?_, fun g hg hz => ⟨(C115_compatible cube_convex cube_connected (by decide) hB g).1.2 hz, fun hex => hg (cube_injective g ?_)⟩⟩
  · have e1 : ∑ k, m k * (0 : Vec 8) k = 0 := Finset.sum_eq_zero fun k _ => mul_zero (m k)
    rw [e1]
    simp [l2norm]
  · have := (key g).1 hex
    rw [hz] at this
    simp only [sub_zero, neg_zero] at this
    exact fun i => congrFun ((l2norm_zero_iff _).1 this) i

/-- the hypotheses of `C115_method` on the cube: every exact solve of a Dirichlet problem by the fast multipole method -/
example (S : SingRule) (procs : ℕ) (g : Vec 8) : ∃ w m, Balance (cubeInput 3 0) cubeData faceRule w m ∧
    ∀ (gmres : (Vec 8 → Vec 8) → Vec 8 → Vec 8) (st : AlphaStatics) (X : Solution 8),
    solve (cubeInput 3 0) cubeData S faceRule { cubeDirichlet procs g with method := .fma } gmres (alphaHistory []) g (fun _ => 0) = (st, some X) → (∀ i, X.residual i = 0) →
    |∑ k, m k * X.dphi k| ≤ ∑ i : Fin 8, w i * (methodGap .fma (cubeInput 3 0) cubeData S faceRule .double (fun k => X.phi k - X.phi i) i + methodGap .fma (cubeInput 3 0) cubeData S faceRule .single X.dphi i) := by
  obtain ⟨w, m, hB⟩ := C115_balance cube_convex cube_connected cube_apart (by decide)
  refine ⟨w, m, hB, fun gmres st X h hX => ?_⟩
  have hP := cubeDirichlet_posed procs g (fun _ => 0)
  have hc := cubeDirichlet_consistent procs g
  exact C115_method hB { cubeDirichlet procs g with method := .fma } gmres [] st _ _ X h Finset.univ
    ⟨hP.dirichlet, hP.neumann, hP.bc, hP.phi, hP.dphi, hP.refl, hP.eq, hP.coincide, hP.hanging, hP.order⟩ ⟨hc.agree, hc.sharp⟩
    (fun i hg => by simp [GradientNode, cubeDirichlet] at hg) cube_dofs (fun _ => cube_admissible) hX

end PiBem.Bem
