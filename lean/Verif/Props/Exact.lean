import Verif.Props.Renumber
import Verif.Props.Plane

/-!
# C91: exact solves on meshes with hanging nodes, in dimension 2 and 3

C82 (what an exact solve returns) and C83 (independence of the numbering) on meshes with hanging nodes, for any
matrices with equal rows at double nodes: dense and fast multipole method in dimension 3, dense method in dimension 2.
-/

noncomputable section

namespace PiBem.Bem

open PiBem.Octree PiBem.Fmm PiBem.Expansion

variable {n n' d : ℕ}

/-- A problem with Dirichlet nodes `B`: `phi0`, `dphi0` hold the prescribed values, double nodes carry the same equations, hanging nodes are not double nodes (they
are if a hanging node lies on the boundary of a face: see C75). -/
structure PosedH (N M : Mat n) (C : Setup n d) (B : Finset (Fin n)) (phi0 dphi0 : Vec n) : Prop where
  dirichlet : ∀ i, C.nodes.dirichlet i = if i ∈ B then 1 else 0
  neumann : ∀ i, C.neumannNodes i = if i ∈ B then 0 else 1
  bc : C.haveDirichletBc = true
  phi : ∀ i ∈ B, phi0 i = C.nodes.tmpRhs i
  dphi : ∀ i, i ∉ B → dphi0 i = C.nodes.tmpRhs i
  refl : ∀ i, i ∈ C.doubles i
  eq : ∀ i j, j ∈ C.doubles i → C.doubles j = C.doubles i
  rows : ∀ i j, j ∈ C.doubles i → ∀ k, N j k = N i k ∧ M j k = M i k
  alone : ∀ i, C.hanging i ≠ none → ∀ j ∈ C.doubles i, j = i
  order : ∀ i, i ∈ C.order

/-- Residual of the collocated boundary integral equation with matrices `N`, `M`. -/
def eqResidual (N M : Mat n) (phi dphi : Vec n) (i : Fin n) : ℝ := (∑ k, N i k * (phi k - phi i)) - ∑ k, M i k * dphi k

/-- **C91** (what an exact solve returns). The linear system is solved exactly iff the boundary integral equation holds at every node, constrained as a double node or not, that is neither hanging nor
at a position with two Dirichlet nodes (option on gradients on), the potential has one value at every position, the normal derivatives at two
Dirichlet nodes at one position are those of the vector with the given surface gradients, and at each hanging node the unknown (normal
derivative at Dirichlet nodes, potential at Neumann nodes) is the interpolation of the unknowns its constraint refers to. -/
theorem C91_exact_solutions (N M : Mat n) (C : Setup n d) (gmres : (Vec n → Vec n) → Vec n → Vec n) (l : List (ℕ × ℕ)) (st' : AlphaStatics)
    (phi0 dphi0 : Vec n) (R : Solution n) (h : solveWith N M C gmres (alphaHistory l) phi0 dphi0 = (st', some R))
    (B : Finset (Fin n)) (hP : PosedH N M C B phi0 dphi0) (hdata : Consistent C B) :
    (∀ i, R.residual i = 0) ↔
      (∀ i, C.hanging i = none → ¬ GradientNode C B i → eqResidual N M R.phi R.dphi i = 0) ∧
      (∀ i, ∀ j ∈ C.doubles i, R.phi j = R.phi i) ∧
      (C.nodes.continuosGradient = true → ∀ i ∈ B, ∀ j ∈ C.doubles i, j ∈ B → j ≠ i →
        thisNormalGradient C.nodes i j = some (R.dphi i)) ∧
      ∀ i es, C.hanging i = some es → unknown B R.phi R.dphi i = (es.map fun e => e.2 * unknown B R.phi R.dphi e.1).sum := by
  obtain ⟨hagree, hsharp⟩ := hdata
  obtain ⟨c, hc, h1, h2, h3, h4⟩ := solveWith_rows h B hP.dirichlet hP.neumann hP.bc hP.phi hP.dphi
  have hu : unknown B R.phi R.dphi = R.sol := by
    funext i
    rw [h1, h2]
    unfold unknown merge
    split_ifs <;> rfl
  rw [hu]
  have hd01 : ∀ i, C.nodes.dirichlet i = 0 ∨ C.nodes.dirichlet i = 1 := by
    intro i; rw [hP.dirichlet]; split_ifs <;> simp
  have hd1 : ∀ i, C.nodes.dirichlet i = 1 ↔ i ∈ B := by intro i; rw [hP.dirichlet]; split_ifs with hi <;> simp [hi]
  have hd0 : ∀ i, C.nodes.dirichlet i = 0 ↔ i ∉ B := by intro i; rw [hP.dirichlet]; split_ifs with hi <;> simp [hi]
  obtain ⟨hl, hdom, -⟩ := C75_constraints C.nodes C.doubles hP.refl hP.eq hd01 C.hanging C.fuel C.order hP.order hc
  have hfin := constraints_finite C.nodes C.doubles hP.refl hP.eq hd01
    (fun hg i j hi hj hjd hne => (hsharp hg i ((hd1 i).1 hi) j hj ((hd1 j).1 hjd) hne).1) C.hanging C.fuel C.order hc
  have hcoin : ∀ i j, j ∈ C.doubles i → eqResidual N M R.phi R.dphi i - eqResidual N M R.phi R.dphi j =
      (∑ k, N i k) * (R.phi j - R.phi i) := by
    intro i j hj
    unfold eqResidual
    simp only [(hP.rows i j hj _).1, (hP.rows i j hj _).2, mul_sub, Finset.sum_sub_distrib, ← Finset.sum_mul]
    ring
  -- nodes without constraint
  have free : ∀ j, C.hanging j = none → (j ∉ B → (∀ k ∈ C.doubles j, k ∉ B) ∧ ∀ k ∈ C.doubles j, j ≤ k) →
      (j ∈ B → ¬ GradientNode C B j) → c j = none := by
    intro j hjh hj hjB
    by_contra hcj
    rcases (hdom j).1 (Option.isSome_iff_ne_none.2 hcj) with h' | ⟨h5, k, hk, h6⟩ | ⟨h5, k, hk, h6⟩ | ⟨h5, h6, k, hk, h7, h8⟩
    · rw [hjh] at h'; cases h'
    · exact (hj ((hd0 j).1 h5)).1 k hk ((hd1 k).1 h6)
    · exact absurd ((hj ((hd0 j).1 (h5 j (hP.refl j)))).2 k hk) (not_le.2 h6)
    · exact hjB ((hd1 j).1 h5) ⟨h6, k, hk, j, hP.refl j, (hd1 k).1 h8, (hd1 j).1 h5, h7⟩
  have hgroup : ∀ i j, j ∈ C.doubles i → (GradientNode C B j ↔ GradientNode C B i) := by
    intro i j hj
    unfold GradientNode
    rw [hP.eq i j hj]
  have hnh : ∀ i j, j ∈ C.doubles i → C.hanging i = none → C.hanging j = none := by
    intro i j hj hi
    by_contra hne
    have := hP.alone j hne i (by rw [hP.eq i j hj]; exact hP.refl i)
    rw [← this] at hne
    exact hne hi
  have hfree : ∀ i, C.hanging i = none → ¬ GradientNode C B i → ∃ j ∈ C.doubles i, c j = none := by
    intro i hih hi
    by_cases hB : ∃ j ∈ C.doubles i, j ∈ B
    · obtain ⟨j, hj, hjB⟩ := hB
      exact ⟨j, hj, free j (hnh i j hj hih) (fun hn => absurd hjB hn) fun _ => by rwa [hgroup i j hj]⟩
    · push Not at hB
      have hne : (C.doubles i).Nonempty := ⟨i, hP.refl i⟩
      have hm := Finset.min'_mem _ hne
      refine ⟨(C.doubles i).min' hne, hm, free _ (hnh i _ hm hih) (fun _ => ?_) fun h => absurd h (hB _ hm)⟩
      rw [hP.eq i _ hm]
      exact ⟨hB, fun k hk => Finset.min'_le _ _ hk⟩
  have hphiB : ∀ i ∈ B, R.phi i = C.nodes.tmpRhs i := by intro i hi; rw [h1]; simp [merge, hi]
  have hphiN : ∀ i, i ∉ B → R.phi i = R.sol i := by intro i hi; rw [h1]; simp [merge, hi]
  have hdphiB : ∀ i ∈ B, R.dphi i = R.sol i := by intro i hi; rw [h2]; simp [merge, hi]
  have hfirst : ∀ i l, IsFirstDirichlet C.nodes (C.doubles i) l → l ∈ C.doubles i ∧ l ∈ B :=
    fun i l hl => ⟨hl.1, (hd1 l).1 hl.2.1⟩
  constructor
  · intro hres
    have hlines : LinesHold c R.sol := by
      intro i es g hi
      obtain ⟨v, rfl⟩ := Option.isSome_iff_exists.1 (hfin i es g hi)
      exact ⟨v, rfl, by have := h4 i es _ hi; rw [hres i, sub_zero] at this; exact this⟩
    obtain ⟨hdn, hint⟩ := (hl R.sol).1 hlines
    have hval : ∀ i, ∃ v, ∀ j ∈ C.doubles i, R.phi j = v := by
      intro i
      by_cases hB : ∃ j ∈ C.doubles i, C.nodes.dirichlet j = 1
      · obtain ⟨f, hf⟩ := exists_firstDirichlet C.nodes (C.doubles i) hB
        obtain ⟨hf1, hf2⟩ := hfirst i f hf
        refine ⟨C.nodes.tmpRhs f, fun j hj => ?_⟩
        by_cases hjB : j ∈ B
        · rw [hphiB j hjB]
          exact hagree f hf2 j (by rw [hP.eq i f hf1]; exact hj) hjB
        · rw [hphiN j hjB]
          exact hdn.mixed j f ((hd0 j).2 hjB) (by rw [hP.eq i j hj]; exact hf)
      · push Not at hB
        have hB0 : ∀ j ∈ C.doubles i, C.nodes.dirichlet j = 0 := fun j hj => (hd01 j).resolve_right (hB j hj)
        have hne : (C.doubles i).Nonempty := ⟨i, hP.refl i⟩
        refine ⟨R.sol ((C.doubles i).min' hne), fun j hj => ?_⟩
        rw [hphiN j ((hd0 j).1 (hB0 j hj))]
        exact hdn.neumann j _ (by rw [hP.eq i j hj]; exact hB0) (by rw [hP.eq i j hj]; exact Finset.min'_mem _ hne)
          (by rw [hP.eq i j hj]; exact fun k hk => Finset.min'_le _ _ hk)
    have hsingle : ∀ i, ∀ j ∈ C.doubles i, R.phi j = R.phi i := by
      intro i j hj
      obtain ⟨v, hv⟩ := hval i
      rw [hv j hj, hv i (hP.refl i)]
    refine ⟨fun i hih hi => ?_, hsingle, fun hg i hi j hj hjB hne => ?_, hint⟩
    · obtain ⟨j, hj, hcj⟩ := hfree i hih hi
      have e := hcoin i j hj
      have e2 : eqResidual N M R.phi R.dphi j = 0 := by
        have := h3 j hcj
        rw [hres j, neg_zero] at this
        exact this
      rw [hsingle i j hj, sub_self, mul_zero, e2, sub_zero] at e
      exact e
    · have hall := (hsharp hg i hi j hj hjB hne).2
      rw [hdphiB i hi]
      obtain ⟨f, hf⟩ := exists_firstDirichlet C.nodes (C.doubles i) ⟨i, hP.refl i, (hd1 i).2 hi⟩
      by_cases hfi : f = i
      · subst hfi
        obtain ⟨m, hm⟩ := exists_lastDirichlet C.nodes (C.doubles f) ⟨f, hP.refl f, (hd1 f).2 hi⟩
        have hmf : m ≠ f := by
          rintro rfl
          exact hne (le_antisymm (hm.2.2 j hj ((hd1 j).2 hjB)) (hf.2.2 j hj ((hd1 j).2 hjB)))
        rw [← hall m hm.1 ((hd1 m).1 hm.2.1) hmf]
        exact hdn.first hg f m hf hm hmf
      · obtain ⟨hf1, hf2⟩ := hfirst i f hf
        rw [← hall f hf1 hf2 hfi, ← otherNormalGradient_eq]
        exact hdn.follower hg i f ((hd1 i).2 hi) hf (Ne.symm hfi)
  · rintro ⟨heqn, hsingle, hgr, hint⟩ i
    cases hci : c i with
    | none =>
      have := h3 i hci
      have hih : C.hanging i = none := by
        by_contra hne
        have := (hdom i).2 (Or.inl (Option.isSome_iff_ne_none.2 hne))
        rw [hci] at this; cases this
      have hG : ¬ GradientNode C B i := by
        rintro ⟨hg, j, hj, k, hk, hjB, hkB, hjk⟩
        have : (c i).isSome := by
          rw [hdom]
          by_cases hiB : i ∈ B
          · right; right; right
            refine ⟨(hd1 i).2 hiB, hg, ?_⟩
            by_cases hji : j = i
            · exact ⟨k, hk, fun h => hjk (hji.trans h.symm), (hd1 k).2 hkB⟩
            · exact ⟨j, hj, hji, (hd1 j).2 hjB⟩
          · right; left
            exact ⟨(hd0 i).2 hiB, j, hj, (hd1 j).2 hjB⟩
        rw [hci] at this; cases this
      have e := heqn i hih hG
      unfold eqResidual at e
      linarith
    | some p =>
      obtain ⟨es, g⟩ := p
      have hlines : LinesHold c R.sol := by
        refine (hl R.sol).2 ⟨⟨fun i l hi hl => ?_, fun i l hi hli hm => ?_, fun hg i l hi hl hne => ?_, fun hg i m hi hm hne => ?_⟩, hint⟩
        · obtain ⟨hf1, hf2⟩ := hfirst i l hl
          rw [← hphiN i ((hd0 i).1 hi), ← hphiB l hf2, hsingle i l hf1]
        · rw [← hphiN i ((hd0 i).1 (hi i (hP.refl i))), ← hphiN l ((hd0 l).1 (hi l hli)), hsingle i l hli]
        · obtain ⟨hf1, hf2⟩ := hfirst i l hl
          have hiB := (hd1 i).1 hi
          rw [otherNormalGradient_eq, hgr hg i hiB l hf1 hf2 (Ne.symm hne), hdphiB i hiB]
        · have hiB := (hd1 i).1 hi.2.1
          rw [hgr hg i hiB m hm.1 ((hd1 m).1 hm.2.1) hne, hdphiB i hiB]
      obtain ⟨v, hv, e⟩ := hlines i es g hci
      have := h4 i es g hci
      rw [hv, Option.getD_some] at this
      linarith

/-! ## Two numberings -/

/-- Matrices, boundary conditions, data, normals, surface gradients, double nodes and hanging nodes of a renumbered problem; `e` renames the dofs. The entries of
the constraint of a hanging node may come in another order; partition, number of processes and order of the constraints are unrelated. -/
structure RenumberedH (e : Fin n ≃ Fin n') (N M : Mat n) (N' M' : Mat n') (C : Setup n d) (C' : Setup n' d) : Prop where
  double : ∀ i k, N' (e i) (e k) = N i k
  single : ∀ i k, M' (e i) (e k) = M i k
  tmpRhs : ∀ i, C'.nodes.tmpRhs (e i) = C.nodes.tmpRhs i
  normal : ∀ i, C'.nodes.normal (e i) = C.nodes.normal i
  surfGrad : ∀ i, C'.nodes.surfGrad (e i) = C.nodes.surfGrad i
  grad : C'.nodes.continuosGradient = C.nodes.continuosGradient
  doubles : ∀ i, C'.doubles (e i) = (C.doubles i).image e
  free : ∀ i, C.hanging i = none → C'.hanging (e i) = none
  hanging : ∀ i es, C.hanging i = some es → ∃ es', C'.hanging (e i) = some es' ∧ es'.Perm (es.map fun x => (e x.1, x.2))

variable {e : Fin n ≃ Fin n'} {N M : Mat n} {N' M' : Mat n'} {C : Setup n d} {C' : Setup n' d}

theorem RenumberedH.consistent (hC : RenumberedH e N M N' M' C C') {B : Finset (Fin n)} (h : Consistent C B) :
    Consistent C' (B.image e) := by
  have hinj := e.injective
  constructor
  · intro i' hi' j' hj' hjB'
    obtain ⟨i, hi, rfl⟩ := Finset.mem_image.1 hi'
    rw [hC.doubles] at hj'
    obtain ⟨j, hj, rfl⟩ := Finset.mem_image.1 hj'
    rw [hC.tmpRhs, hC.tmpRhs]
    exact h.agree i hi j hj (hinj.mem_finset_image.1 hjB')
  · intro hg i' hi' j' hj' hjB' hne
    obtain ⟨i, hi, rfl⟩ := Finset.mem_image.1 hi'
    rw [hC.doubles] at hj'
    obtain ⟨j, hj, rfl⟩ := Finset.mem_image.1 hj'
    obtain ⟨h1, h2⟩ := h.sharp (hC.grad ▸ hg) i hi j hj (hinj.mem_finset_image.1 hjB') (fun h => hne (h ▸ rfl))
    refine ⟨by rwa [hC.normal, hC.normal], fun k' hk' hkB' hne' => ?_⟩
    rw [hC.doubles] at hk'
    obtain ⟨k, hk, rfl⟩ := Finset.mem_image.1 hk'
    have := h2 k hk (hinj.mem_finset_image.1 hkB') (fun h => hne' (h ▸ rfl))
    unfold thisNormalGradient at this ⊢
    simpa only [hC.normal, hC.surfGrad] using this

/-- **C91** (numberings, exactness). The results of two runs with different numberings that hold the same values are both exact or both not, on
meshes with hanging nodes. -/
theorem C91_renumbered_exact (hC : RenumberedH e N M N' M' C C') (gmres : (Vec n → Vec n) → Vec n → Vec n)
    (gmres' : (Vec n' → Vec n') → Vec n' → Vec n') (l l' : List (ℕ × ℕ)) (st st' : AlphaStatics) (phi0 dphi0 : Vec n) (phi0' dphi0' : Vec n')
    (X : Solution n) (X' : Solution n') (h : solveWith N M C gmres (alphaHistory l) phi0 dphi0 = (st, some X))
    (h' : solveWith N' M' C' gmres' (alphaHistory l') phi0' dphi0' = (st', some X'))
    (B : Finset (Fin n)) (hP : PosedH N M C B phi0 dphi0) (hP' : PosedH N' M' C' (B.image e) phi0' dphi0') (hdata : Consistent C B)
    (hphi : ∀ i, X'.phi (e i) = X.phi i) (hdphi : ∀ i, X'.dphi (e i) = X.dphi i) :
    (∀ i, X'.residual i = 0) ↔ ∀ i, X.residual i = 0 := by
  have hinj := e.injective
  have hsur := e.surjective
  have hdata' := hC.consistent hdata
  rw [C91_exact_solutions N M C gmres l st phi0 dphi0 X h B hP hdata,
    C91_exact_solutions N' M' C' gmres' l' st' phi0' dphi0' X' h' _ hP' hdata']
  have hG : ∀ i, GradientNode C' (B.image e) (e i) ↔ GradientNode C B i := by
    intro i
    unfold GradientNode
    rw [hC.grad, hC.doubles]
    simp only [Finset.mem_image, exists_exists_and_eq_and, hinj.eq_iff, exists_eq_right, hinj.ne_iff]
  have hgr : ∀ i j, thisNormalGradient C'.nodes (e i) (e j) = thisNormalGradient C.nodes i j := by
    intro i j
    unfold thisNormalGradient
    rw [hC.normal, hC.normal, hC.surfGrad, hC.surfGrad]
  have hhang : ∀ i, C'.hanging (e i) = none ↔ C.hanging i = none := by
    intro i
    refine ⟨fun h => ?_, hC.free i⟩
    by_contra hne
    obtain ⟨es, hes⟩ := Option.ne_none_iff_exists'.1 hne
    obtain ⟨es', hes', -⟩ := hC.hanging i es hes
    rw [h] at hes'
    cases hes'
  have heqn : ∀ i, eqResidual N' M' X'.phi X'.dphi (e i) = eqResidual N M X.phi X.dphi i := by
    intro i
    unfold eqResidual
    rw [← Function.Bijective.sum_comp e.bijective fun k => N' (e i) k * (X'.phi k - X'.phi (e i)),
      ← Function.Bijective.sum_comp e.bijective fun k => M' (e i) k * X'.dphi k]
    simp only [hC.double, hC.single, hphi, hdphi]
  have hun : ∀ i, unknown (B.image e) X'.phi X'.dphi (e i) = unknown B X.phi X.dphi i := by
    intro i
    unfold unknown merge
    simp only [hinj.mem_finset_image, hphi, hdphi]
  have hsum : ∀ (es : List (Fin n × ℝ)) (es' : List (Fin n' × ℝ)), es'.Perm (es.map fun x => (e x.1, x.2)) →
      (es'.map fun x => x.2 * unknown (B.image e) X'.phi X'.dphi x.1).sum = (es.map fun x => x.2 * unknown B X.phi X.dphi x.1).sum := by
    intro es es' hp
    rw [(hp.map _).sum_eq, List.map_map]
    congr 1
    refine List.map_congr_left fun x _ => ?_
    simp only [Function.comp, hun]
  refine and_congr ?_ (and_congr ?_ (and_congr ?_ ?_))
  · rw [hsur.forall]
    refine forall_congr' fun i => ?_
    rw [hG, hhang, heqn]
  · rw [hsur.forall]
    refine forall_congr' fun i => ?_
    rw [hC.doubles, Finset.forall_mem_image, hphi]
    exact forall₂_congr fun j _ => by rw [hphi]
  · rw [hC.grad]
    refine forall_congr' fun _ => ?_
    rw [Finset.forall_mem_image]
    refine forall₂_congr fun i _ => ?_
    rw [hC.doubles, Finset.forall_mem_image]
    refine forall₂_congr fun j _ => ?_
    rw [hinj.mem_finset_image, hinj.ne_iff, hgr, hdphi]
  · rw [hsur.forall]
    refine forall_congr' fun i => ?_
    rw [hun]
    constructor
    · intro hx es hes
      obtain ⟨es', hes', hp⟩ := hC.hanging i es hes
      rw [hx es' hes', hsum es es' hp]
    · intro hx es' hes'
      obtain ⟨es, hes⟩ := Option.ne_none_iff_exists'.1 (show C.hanging i ≠ none by
        rw [ne_eq, ← hhang, hes']
        simp)
      obtain ⟨es'', hes'', hp⟩ := hC.hanging i es hes
      rw [hes'', Option.some.injEq] at hes'
      subst hes'
      rw [hx es hes, hsum es es'' hp]

/-- `solveWith` with another linear solver. -/
theorem solveWith_any {gmres : (Vec n → Vec n) → Vec n → Vec n} {st0 st : AlphaStatics}
    {phi0 dphi0 : Vec n} {X : Solution n} (h : solveWith N M C gmres st0 phi0 dphi0 = (st, some X)) (x : Vec n) :
    ∃ Y, solveWith N M C (fun _ _ => x) st0 phi0 dphi0 = (st, some Y) ∧ Y.sol = x := by
  unfold solveWith at h ⊢
  simp only [Prod.mk.injEq] at h ⊢
  obtain ⟨hst, h⟩ := h
  obtain ⟨alpha, ha, h⟩ := Option.bind_eq_some_iff.1 h
  obtain ⟨c, hc, h⟩ := Option.map_eq_some_iff.1 h
  simp only [ha, Option.bind_some, hc, Option.map_some]
  exact ⟨_, ⟨hst, rfl⟩, rfl⟩

/-- The linear system has at most one solution: any two exact results are equal. -/
def DeterminedH (N M : Mat n) (C : Setup n d) (st0 : AlphaStatics) (phi0 dphi0 : Vec n) : Prop :=
  ∀ gmres₁ gmres₂ st₁ st₂ X₁ X₂, solveWith N M C gmres₁ st0 phi0 dphi0 = (st₁, some X₁) →
    solveWith N M C gmres₂ st0 phi0 dphi0 = (st₂, some X₂) → (∀ i, X₁.residual i = 0) → (∀ i, X₂.residual i = 0) →
    X₁.phi = X₂.phi ∧ X₁.dphi = X₂.dphi

/-- **C91** (numberings, results). If the linear system of one run is regular, exact solves of two runs with different
numberings, partitions, numbers of processes and linear solvers give the same potential and the same normal derivative at every node, on
meshes with hanging nodes. -/
theorem C91_same_result (hC : RenumberedH e N M N' M' C C') (gmres : (Vec n → Vec n) → Vec n → Vec n)
    (gmres' : (Vec n' → Vec n') → Vec n' → Vec n') (l l' : List (ℕ × ℕ)) (st st' : AlphaStatics) (phi0 dphi0 : Vec n) (phi0' dphi0' : Vec n')
    (X : Solution n) (X' : Solution n') (h : solveWith N M C gmres (alphaHistory l) phi0 dphi0 = (st, some X))
    (h' : solveWith N' M' C' gmres' (alphaHistory l') phi0' dphi0' = (st', some X'))
    (B : Finset (Fin n)) (hP : PosedH N M C B phi0 dphi0) (hP' : PosedH N' M' C' (B.image e) phi0' dphi0') (hdata : Consistent C B)
    (hdet : DeterminedH N M C (alphaHistory l) phi0 dphi0)
    (hX : ∀ i, X.residual i = 0) (hX' : ∀ i, X'.residual i = 0) (i : Fin n) :
    X'.phi (e i) = X.phi i ∧ X'.dphi (e i) = X.dphi i := by
  obtain ⟨Y, hY, hsol⟩ := solveWith_any h (fun i => X'.sol (e i))
  obtain ⟨-, -, p1, p2, -⟩ := solveWith_rows hY B hP.dirichlet hP.neumann hP.bc hP.phi hP.dphi
  obtain ⟨-, -, q1, q2, -⟩ := solveWith_rows h' _ hP'.dirichlet hP'.neumann hP'.bc hP'.phi hP'.dphi
  have hinj := e.injective
  have e1 : ∀ i, X'.phi (e i) = Y.phi i := by
    intro i
    rw [p1, q1]
    simp only [merge, hinj.mem_finset_image, hC.tmpRhs, hsol]
  have e2 : ∀ i, X'.dphi (e i) = Y.dphi i := by
    intro i
    rw [p2, q2]
    simp only [merge, hinj.mem_finset_image, hC.tmpRhs, hsol]
  have hres := (C91_renumbered_exact hC _ gmres' l l' st st' phi0 dphi0 phi0' dphi0' Y X' hY h' B hP hP' hdata e1 e2).1 hX'
  obtain ⟨f1, f2⟩ := hdet _ _ _ _ Y X hY h hres hX
  rw [e1, e2, f1, f2]
  exact ⟨rfl, rfl⟩

/-! ## Dimension 3 -/

section
variable {σ : Equiv.Perm ℕ} {inp inp' : Input 3}

/-- The renumbering of the dofs of a problem. -/
def renumEquiv (R : Renumbered σ inp inp') : Fin inp.nDofs ≃ Fin inp'.nDofs :=
  Equiv.ofBijective (renum R) ⟨renum_injective R, renum_surjective R⟩

/-- **C91** (dimension 3, both methods). Groups of double nodes at the same position carry the same equations. -/
theorem C91_rows3 (inp : Input 3) (D : Data) (S S' : SingRule) (C : Setup inp.nDofs d)
    (h : ∀ i j, j ∈ C.doubles i → Coincide inp i j) : ∀ i j, j ∈ C.doubles i → ∀ k,
      solveMatrix inp D S S' C.method C.owner .double j k = solveMatrix inp D S S' C.method C.owner .double i k ∧
      solveMatrix inp D S S' C.method C.owner .single j k = solveMatrix inp D S S' C.method C.owner .single i k :=
  fun i j hj k => ⟨(C82_same_rows inp D S S' C.method C.owner .double i j (h i j hj) k).symm,
    (C82_same_rows inp D S S' C.method C.owner .single i j (h i j hj) k).symm⟩

/-- **C91** (dimension 3, both methods). Two runs on the same mesh with different numberings, partitions and numbers of processes fulfil the hypotheses of
`C91_same_result`. -/
theorem C91_dimension3 (R : Renumbered σ inp inp') (D : Data) (S S' : SingRule) {C : Setup inp.nDofs d} {C' : Setup inp'.nDofs d}
    (hC : SetupRenumbered R C C') (free : ∀ i, C.hanging i = none → C'.hanging (renum R i) = none)
    (hanging : ∀ i es, C.hanging i = some es → ∃ es', C'.hanging (renum R i) = some es' ∧ es'.Perm (es.map fun x => (renum R x.1, x.2))) :
    RenumberedH (renumEquiv R) (solveMatrix inp D S S' C.method C.owner .double) (solveMatrix inp D S S' C.method C.owner .single)
      (solveMatrix inp' D S S' C'.method C'.owner .double) (solveMatrix inp' D S S' C'.method C'.owner .single) C C' := by
  refine ⟨fun i k => ?_, fun i k => ?_, hC.tmpRhs, hC.normal, hC.surfGrad, hC.grad, hC.doubles, free, hanging⟩
  · rw [hC.method]; exact C83_matrices R D S S' C.method C.owner C'.owner .double i k
  · rw [hC.method]; exact C83_matrices R D S S' C.method C.owner C'.owner .single i k

end

/-! ## Dimension 2 -/

namespace Plane

/-- The curve with dof `i` renamed `σ i`. -/
structure CurveRenumbered (σ : Equiv.Perm ℕ) (K K' : Curve) : Prop where
  nDofs : K'.nDofs = K.nDofs
  bound : ∀ i, σ i < K.nDofs ↔ i < K.nDofs
  pos : ∀ i, K'.pos (σ i) = K.pos i
  nCells : K'.nCells = K.nCells
  cellDofs : ∀ c, K'.cellDofs c = (K.cellDofs c).map σ
  quad : K'.quad = K.quad
  sing : K'.sing = K.sing
  doubles : ∀ i, K'.doubles (σ i) = (K.doubles i).image σ

variable {σ : Equiv.Perm ℕ} {K K' : Curve}

/-- The renumbering of the dofs of a curve. -/
def curveEquiv (R : CurveRenumbered σ K K') : Fin K.nDofs ≃ Fin K'.nDofs where
  toFun i := ⟨σ i, by rw [R.nDofs]; exact (R.bound i).2 i.isLt⟩
  invFun i := ⟨σ.symm i, by rw [← R.bound, σ.apply_symm_apply, ← R.nDofs]; exact i.isLt⟩
  left_inv i := by simp
  right_inv i := by simp

theorem renumber_rule (R : CurveRenumbered σ K K') (i c : ℕ) : ruleOf K' (σ i) c = ruleOf K i c := by
  classical
  have hs : ∀ s, (s < (K'.cellDofs c).length ∧ (K'.cellDofs c).getD s 0 ∈ K'.doubles (σ i)) ↔
      (s < (K.cellDofs c).length ∧ (K.cellDofs c).getD s 0 ∈ K.doubles i) := by
    intro s
    rw [R.cellDofs, List.length_map, R.doubles]
    refine and_congr_right fun h => ?_
    rw [getD_map _ h, σ.injective.mem_finset_image]
  unfold ruleOf
  by_cases hex : ∃ s, s < (K.cellDofs c).length ∧ (K.cellDofs c).getD s 0 ∈ K.doubles i
  · have hex' : ∃ s, s < (K'.cellDofs c).length ∧ (K'.cellDofs c).getD s 0 ∈ K'.doubles (σ i) := (exists_congr hs).2 hex
    rw [dif_pos hex, dif_pos hex', R.sing]
    congr 1
    exact Nat.find_congr' (fun {s} => hs s)
  · rw [dif_neg hex, dif_neg (fun h => hex ((exists_congr hs).1 h)), R.quad]

theorem renumber_layer (R : CurveRenumbered σ K K') (ker : Ker) (i k : ℕ) : layer K' ker (σ i) (σ k) = layer K ker i k := by
  unfold layer curveIntegral
  rw [R.nCells]
  refine Finset.sum_congr rfl fun c _ => ?_
  rw [R.cellDofs, List.length_map]
  refine Finset.sum_congr rfl fun j hj => ?_
  rw [getD_map _ (Finset.mem_range.1 hj), renumber_rule R, R.pos]
  simp only [σ.injective.eq_iff]

/-- **C91** (dimension 2). The two matrices of a renumbered curve are the renumbered matrices, for any partitions. -/
theorem C91_matrices2 (R : CurveRenumbered σ K K') (owner owner' : ℕ → ℕ) (ker : Ker) (i k : Fin K.nDofs) :
    planeMatrix K' owner' ker (curveEquiv R i) (curveEquiv R k) = planeMatrix K owner ker i k := by
  rw [planeMatrix_eq, planeMatrix_eq]
  exact renumber_layer R ker i k

/-- **C91** (dimension 2). Nodes at the same position with the same double nodes carry the same equations. -/
theorem C91_rows2 (K : Curve) (owner : ℕ → ℕ) (ker : Ker) (i j : Fin K.nDofs) (hp : K.pos i = K.pos j) (hd : K.doubles i = K.doubles j)
    (k : Fin K.nDofs) : planeMatrix K owner ker i k = planeMatrix K owner ker j k := by
  rw [planeMatrix_eq, planeMatrix_eq]
  unfold layer curveIntegral ruleOf
  rw [hp, hd]

/-- **C91** (dimension 2, results). Exact solves of two runs on the same curve with different numberings, partitions, numbers of processes and
linear solvers give the same potential and the same normal derivative at every node, if the linear system of one of them is regular. -/
theorem C91_plane (R : CurveRenumbered σ K K') (C : Setup K.nDofs 2) (C' : Setup K'.nDofs 2)
    (tmpRhs : ∀ i, C'.nodes.tmpRhs (curveEquiv R i) = C.nodes.tmpRhs i)
    (normal : ∀ i, C'.nodes.normal (curveEquiv R i) = C.nodes.normal i)
    (surfGrad : ∀ i, C'.nodes.surfGrad (curveEquiv R i) = C.nodes.surfGrad i)
    (grad : C'.nodes.continuosGradient = C.nodes.continuosGradient)
    (doubles : ∀ i, C'.doubles (curveEquiv R i) = (C.doubles i).image (curveEquiv R))
    (free : ∀ i, C.hanging i = none) (free' : ∀ i, C'.hanging i = none)
    (gmres : (Vec K.nDofs → Vec K.nDofs) → Vec K.nDofs → Vec K.nDofs)
    (gmres' : (Vec K'.nDofs → Vec K'.nDofs) → Vec K'.nDofs → Vec K'.nDofs)
    (l l' : List (ℕ × ℕ)) (st st' : AlphaStatics) (phi0 dphi0 : Vec K.nDofs) (phi0' dphi0' : Vec K'.nDofs)
    (X : Solution K.nDofs) (X' : Solution K'.nDofs)
    (h : solve K C gmres (alphaHistory l) phi0 dphi0 = (st, some X))
    (h' : solve K' C' gmres' (alphaHistory l') phi0' dphi0' = (st', some X'))
    (B : Finset (Fin K.nDofs))
    (hP : PosedH (planeMatrix K C.owner .double) (planeMatrix K C.owner .single) C B phi0 dphi0)
    (hP' : PosedH (planeMatrix K' C'.owner .double) (planeMatrix K' C'.owner .single) C' (B.image (curveEquiv R)) phi0' dphi0')
    (hdata : Consistent C B)
    (hdet : DeterminedH (planeMatrix K C.owner .double) (planeMatrix K C.owner .single) C (alphaHistory l) phi0 dphi0)
    (hX : ∀ i, X.residual i = 0) (hX' : ∀ i, X'.residual i = 0) (i : Fin K.nDofs) :
    X'.phi (curveEquiv R i) = X.phi i ∧ X'.dphi (curveEquiv R i) = X.dphi i := by
  refine C91_same_result ⟨fun i k => C91_matrices2 R _ _ _ i k, fun i k => C91_matrices2 R _ _ _ i k, tmpRhs, normal, surfGrad, grad, doubles,
    fun i _ => free' _, fun i es hi => by rw [free i] at hi; cases hi⟩ gmres gmres' l l' st st' phi0 dphi0 phi0' dphi0' X X' ?_ ?_ B hP hP' hdata hdet
    hX hX' i
  · exact solve_direct h
  · exact solve_direct h'

end Plane

/-! ## The hypotheses are met -/

/-- Dirichlet nodes 0 and 1 and a hanging node 2 between them. -/
def hangSetup : Setup 3 3 where
  method := .direct
  owner := id
  procs := 2
  part := 2
  neumannNodes := fun _ => 0
  haveDirichletBc := true
  nodes := ⟨fun _ => 1, ![1, 2, 3 / 2], fun _ => 0, fun _ => 0, false⟩
  doubles := fun i => {i}
  hanging := fun i => if i = 2 then some [(0, 1 / 2), (1, 1 / 2)] else none
  fuel := 4
  order := List.finRange _

/-- The same problem with nodes 0 and 2 exchanged, on one process, with the entries in another order. -/
def hangSetup' : Setup 3 3 where
  method := .direct
  owner := fun _ => 0
  procs := 1
  part := 1
  neumannNodes := fun _ => 0
  haveDirichletBc := true
  nodes := ⟨fun _ => 1, ![3 / 2, 2, 1], fun _ => 0, fun _ => 0, false⟩
  doubles := fun i => {i}
  hanging := fun i => if i = 0 then some [(1, 1 / 2), (2, 1 / 2)] else none
  fuel := 4
  order := List.finRange _

/-- The identity matrix. -/
def eye (n : ℕ) : Mat n := fun i k => if i = k then 1 else 0

theorem hang_posed : PosedH (eye 3) (eye 3) hangSetup Finset.univ hangSetup.nodes.tmpRhs 0 := by
  refine ⟨by simp [hangSetup], by simp [hangSetup], rfl, fun _ _ => rfl, by simp, by simp [hangSetup], ?_, ?_, ?_, by simp [hangSetup]⟩
  · intro i j hj; rw [Finset.mem_singleton.1 hj]
  · intro i j hj; rw [Finset.mem_singleton.1 hj]; simp
  · intro i _ j hj; exact Finset.mem_singleton.1 hj

theorem hang_consistent : Consistent hangSetup Finset.univ := by
  refine ⟨?_, by simp [hangSetup]⟩
  intro i _ j hj _; rw [Finset.mem_singleton.1 hj]

theorem hang_determined : DeterminedH (eye 3) (eye 3) hangSetup (alphaHistory []) hangSetup.nodes.tmpRhs 0 := by
  have key : ∀ gmres st (X : Solution 3), solveWith (eye 3) (eye 3) hangSetup gmres (alphaHistory []) hangSetup.nodes.tmpRhs 0 = (st, some X) →
      (∀ i, X.residual i = 0) → X.phi = hangSetup.nodes.tmpRhs ∧ X.dphi = 0 := by
    intro gmres st X h hX
    obtain ⟨-, -, p1, p2, -⟩ := solveWith_rows h Finset.univ hang_posed.dirichlet hang_posed.neumann hang_posed.bc hang_posed.phi hang_posed.dphi
    obtain ⟨h1, -, -, h4⟩ := (C91_exact_solutions _ _ hangSetup gmres [] st _ _ X h _ hang_posed hang_consistent).1 hX
    have e : ∀ i, eqResidual (eye 3) (eye 3) X.phi X.dphi i = - X.dphi i := by
      intro i
      simp [eqResidual, eye]
    have g0 : ∀ i, ¬ GradientNode hangSetup Finset.univ i := by
      rintro i ⟨h, -⟩
      simp [hangSetup] at h
    have d0 := h1 0 (by simp [hangSetup]) (g0 _)
    have d1 := h1 1 (by simp [hangSetup]) (g0 _)
    rw [e] at d0 d1
    have d2 := h4 2 _ rfl
    simp only [unknown, merge, Finset.mem_univ, if_true, List.map_cons, List.map_nil, List.sum_cons, List.sum_nil] at d2
    constructor
    · rw [p1]; funext i; simp [merge]
    · funext i
      fin_cases i
      · show X.dphi 0 = 0; linarith
      · show X.dphi 1 = 0; linarith
      · show X.dphi 2 = 0; linarith
  intro g1 g2 s1 s2 X1 X2 h1 h2 r1 r2
  obtain ⟨a1, a2⟩ := key _ _ _ h1 r1
  obtain ⟨b1, b2⟩ := key _ _ _ h2 r2
  exact ⟨a1.trans b1.symm, a2.trans b2.symm⟩

example : RenumberedH (Equiv.swap 0 2) (eye 3) (eye 3) (eye 3) (eye 3) hangSetup hangSetup' ∧ hangSetup.hanging 2 ≠ none := by
  refine ⟨⟨?_, ?_, ?_, fun _ => rfl, fun _ => rfl, rfl, ?_, ?_, ?_⟩, by simp [hangSetup]⟩
  · intro i k; simp [eye]
  · intro i k; simp [eye]
  · intro i; fin_cases i <;> simp [hangSetup, hangSetup', Equiv.swap_apply_def]
  · intro i; simp [hangSetup, hangSetup']
  · intro i; fin_cases i <;> simp [hangSetup, hangSetup', Equiv.swap_apply_def]
  · intro i es hes
    have hi : i = 2 := by by_contra hne; simp [hangSetup, hne] at hes
    subst hi
    simp only [hangSetup, if_true, Option.some.injEq] at hes
    subst hes
    refine ⟨[(1, 1 / 2), (2, 1 / 2)], by simp [hangSetup'], ?_⟩
    simp only [List.map_cons, List.map_nil, Equiv.swap_apply_left]
    have : (Equiv.swap (0 : Fin 3) 2) 1 = 1 := by decide
    rw [this]
    exact List.Perm.swap _ _ _

end PiBem.Bem
