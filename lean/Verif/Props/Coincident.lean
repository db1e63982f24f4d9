import Verif.Props.Solve

/-!
# Equations of coincident nodes (C82)

Double nodes have the same position and the same set of doubles. For both methods the rows of the matrices at two such
nodes are equal, so the equation collocated at one of them is the one collocated at the other. Consequences for what an
exact solve returns, and for edges between Dirichlet faces when the option on continuous gradients is off.
-/

noncomputable section

namespace PiBem.Bem

open PiBem.Octree PiBem.Fmm PiBem.Expansion

/-! ## Equal rows -/

/-- Two nodes at the same place: same position, same doubles. -/
def Coincide (inp : Input 3) (i j : ℕ) : Prop := inp.pos i = inp.pos j ∧ inp.doubles i = inp.doubles j

variable {inp : Input 3} {D : Data} {S S' : SingRule} {ker : Ker} {i j : ℕ}

/-- Coincident nodes are in the same blocks of the octree. -/
theorem coincide_blocks {T : St 3} (t : Octree.Tree inp T) (hp : inp.pos i = inp.pos j) (hi : i < inp.nDofs) (hj : j < inp.nDofs) :
    ∀ b, b < T.count → (i ∈ (T.blocks b).nodes ↔ j ∈ (T.blocks b).nodes) := by
  intro b
  induction b using Nat.strong_induction_on with
  | _ b ih =>
    intro hb
    rcases Nat.eq_zero_or_pos b with rfl | h0
    · rw [t.links.root.nodes]
      simp [rootBlock, hi, hj]
    · have h1 := t.links.mem_iff h0 hb (.inl i)
      have h2 := t.links.mem_iff h0 hb (.inl j)
      simp only [Block.Mem, ipos] at h1 h2
      rw [h1, h2, hp, ih _ (t.links.par b h0 hb).1 (t.links.parent_lt h0 hb)]

theorem coincide_singularIndex (h : Coincide inp i j) (c : ℕ) : singularIndex inp i c = singularIndex inp j c := by
  unfold singularIndex; rw [h.2]

theorem coincide_singTerm (h : Coincide inp i j) (s : ℕ) (P : SingPoint) : singTerm inp ker i s P = singTerm inp ker j s P := by
  unfold singTerm; rw [h.1]

theorem coincide_fmaRow (h : Coincide inp i j) (hi : i < inp.nDofs) (hj : j < inp.nDofs) :
    rowMap inp (withSing inp D S ker) ker (build inp) i = rowMap inp (withSing inp D S ker) ker (build inp) j := by
  have t := build_tree (Or.inr rfl) inp
  have hb := coincide_blocks t h.1 hi hj
  have hchl : ∀ b ∈ (build inp).childless, (i ∈ ((build inp).blocks b).nodes ↔ j ∈ ((build inp).blocks b).nodes) :=
    fun b hc => hb b ((t.chl b).1 hc).1
  have hfil : ∀ l, ∀ b ∈ (build inp).dofsFilled l, (i ∈ ((build inp).blocks b).nodes ↔ j ∈ ((build inp).blocks b).nodes) :=
    fun l b hc => hb b ((t.dfil l b).1 hc).2.1
  have hval : valMap inp (withSing inp D S ker) ker i = valMap inp (withSing inp D S ker) ker j := by
    funext x
    ext1 sol
    show val inp { withSing inp D S ker with sol := sol } ker i x = val inp { withSing inp D S ker with sol := sol } ker j x
    cases x with
    | reg c q => simp only [val, cellDot, regEntry, h.1]
    | sing c =>
      simp only [val, cellDot, withSing, fmaSing, coincide_singularIndex h, coincide_singTerm h]
  have hdir : directResult inp (build inp) (fun _ => true) i = directResult inp (build inp) (fun _ => true) j := by
    unfold directResult
    rw [Pi.add_apply, Pi.add_apply]
    have hls : ∀ (l : List (ℕ → Multiset Contr)) (k : ℕ), l.sum k = (l.map fun f => f k).sum := by
      intro l k
      induction l with
      | nil => rfl
      | cons a l ih => simp [ih]
    have hrow : ∀ B, leafRow inp (build inp) B i = leafRow inp (build inp) B j := by
      intro B; funext c
      have : isSingular inp i c = isSingular inp j c := by unfold isSingular; rw [h.2]
      simp only [leafRow, this]
    congr 1
    · rw [hls, hls, List.map_map, List.map_map]
      refine congrArg List.sum (List.map_congr_left fun b hc => ?_)
      simp only [Function.comp, leafEff, hchl b hc, hrow]
    · rw [hls, hls, List.map_map, List.map_map]
      refine congrArg List.sum (List.map_congr_left fun l hl => ?_)
      simp only [Function.comp]
      rw [hls, hls, List.map_map, List.map_map]
      refine congrArg List.sum (List.map_congr_left fun b hc => ?_)
      simp only [Function.comp, bigEff, hfil l b hc]
  unfold rowMap directMap
  rw [hval, hdir]
  congr 2
  congr 1
  · refine congrArg List.sum (List.map_congr_left fun l hl => ?_)
    refine congrArg List.sum (List.map_congr_left fun b hc => ?_)
    simp only [hfil l b hc, mpAll, h.1]
  · refine congrArg List.sum (List.map_congr_left fun b hc => ?_)
    simp only [hchl b hc, h.1]

theorem coincide_cellIntegral (h : Coincide inp i j) (c s : ℕ) : cellIntegral inp D S' ker i c s = cellIntegral inp D S' ker j c s := by
  unfold cellIntegral
  simp only [h.1, h.2]

/-- **C82** (one equation). The rows of both matrices, for both methods, are the same at coincident nodes. -/
theorem C82_same_rows (inp : Input 3) (D : Data) (S S' : SingRule) (m : Method) (owner : ℕ → ℕ) (ker : Ker)
    (i j : Fin inp.nDofs) (h : Coincide inp i j) (k : Fin inp.nDofs) :
    solveMatrix inp D S S' m owner ker i k = solveMatrix inp D S S' m owner ker j k := by
  cases m with
  | direct =>
    simp only [solveMatrix]
    rw [C64_dense_entry inp D S' ker _ i i.isLt (by simp) k, C64_dense_entry inp D S' ker _ j j.isLt (by simp) k]
    simp only [coincide_cellIntegral h]
  | fma =>
    simp only [solveMatrix, fmaMatrix]
    rw [coincide_fmaRow h i.isLt j.isLt]

/-! ## What an exact solve returns -/

/-- Residual at node `i` of the boundary integral equation with the matrices of the method,
`Σ_k N_ik (φ_k - φ_i) = Σ_k M_ik (∂φ/∂n)_k`; for the dense method it is `bieResidual`. -/
def methodResidual (inp : Input 3) (D : Data) (S S' : SingRule) (m : Method) (owner : ℕ → ℕ) (phi dphi : Vec inp.nDofs)
    (i : Fin inp.nDofs) : ℝ :=
  (∑ k, solveMatrix inp D S S' m owner .double i k * (phi k - phi i)) - ∑ k, solveMatrix inp D S S' m owner .single i k * dphi k

theorem methodResidual_direct (inp : Input 3) (D : Data) (S S' : SingRule) (owner : ℕ → ℕ) (phi dphi : Vec inp.nDofs)
    (i : Fin inp.nDofs) : methodResidual inp D S S' .direct owner phi dphi i = bieResidual inp D S' phi dphi i := by
  have : ∀ (ker : Ker) (k : Fin inp.nDofs), solveMatrix inp D S S' .direct owner ker i k = surfaceIntegral inp D S' ker i k :=
    fun ker k => C64_dense_entry inp D S' ker _ i i.isLt (by simp) k
  simp only [methodResidual, bieResidual, this]

variable {d : ℕ}

/-- A problem with Dirichlet nodes `B`, without hanging nodes, whose groups of double nodes are groups of coincident nodes; `phi0`, `dphi0`
hold the prescribed values. -/
structure Posed (inp : Input 3) (C : Setup inp.nDofs d) (B : Finset (Fin inp.nDofs)) (phi0 dphi0 : Vec inp.nDofs) : Prop where
  dirichlet : ∀ i, C.nodes.dirichlet i = if i ∈ B then 1 else 0
  neumann : ∀ i, C.neumannNodes i = if i ∈ B then 0 else 1
  bc : C.haveDirichletBc = true
  phi : ∀ i ∈ B, phi0 i = C.nodes.tmpRhs i
  dphi : ∀ i, i ∉ B → dphi0 i = C.nodes.tmpRhs i
  refl : ∀ i, i ∈ C.doubles i
  eq : ∀ i j, j ∈ C.doubles i → C.doubles j = C.doubles i
  coincide : ∀ i j, j ∈ C.doubles i → Coincide inp i j
  hanging : ∀ i, C.hanging i = none
  order : ∀ i, i ∈ C.order

theorem residual_coincide {inp : Input 3} (D : Data) (S S' : SingRule) (m : Method) (owner : ℕ → ℕ) (phi dphi : Vec inp.nDofs)
    {i j : Fin inp.nDofs} (h : Coincide inp i j) :
    methodResidual inp D S S' m owner phi dphi i - methodResidual inp D S S' m owner phi dphi j =
      (∑ k, solveMatrix inp D S S' m owner .double i k) * (phi j - phi i) := by
  unfold methodResidual
  simp only [← C82_same_rows inp D S S' m owner _ i j h, mul_sub, Finset.sum_sub_distrib, ← Finset.sum_mul]
  ring

theorem otherNormalGradient_eq {n : ℕ} (N : NodeData n d) (i j : Fin n) :
    otherNormalGradient N j i = thisNormalGradient N i j := by
  unfold otherNormalGradient thisNormalGradient
  rw [dot_comm (N.normal j) (N.normal i)]

theorem exists_lastDirichlet {n : ℕ} (D : NodeData n d) (G : Finset (Fin n)) (h : ∃ j ∈ G, D.dirichlet j = 1) :
    ∃ l, IsLastDirichlet D G l := by
  classical
  obtain ⟨j, hj, hd⟩ := h
  have hne : (G.filter (fun j => D.dirichlet j = 1)).Nonempty := ⟨j, by simp [hj, hd]⟩
  refine ⟨(G.filter (fun j => D.dirichlet j = 1)).max' hne, ?_⟩
  have := Finset.max'_mem _ hne
  rw [Finset.mem_filter] at this
  exact ⟨this.1, this.2, fun k hk hkd => Finset.le_max' _ _ (by simp [hk, hkd])⟩

/-- The position of node `i` has two Dirichlet nodes, and the option on continuous gradients is on: the normal derivatives
there are prescribed by the conditions on the gradient. -/
def GradientNode {n : ℕ} (C : Setup n d) (B : Finset (Fin n)) (i : Fin n) : Prop :=
  C.nodes.continuosGradient = true ∧ ∃ j ∈ C.doubles i, ∃ k ∈ C.doubles i, j ∈ B ∧ k ∈ B ∧ j ≠ k

/-- **C82** (what an exact solve returns). With one Dirichlet datum per position and, when the option on continuous gradients is on, normals of the Dirichlet nodes
at one position that are not parallel and a normal derivative at each of them that does not depend on which of the others it is computed with (so with at most two Dirichlet nodes per position, and
with any number of them if the surface gradients are those of one vector: C92), for both methods: the linear system is solved exactly iff
the boundary integral equation holds at *every* node, constrained or not, of the positions with at most one Dirichlet node,
the potential has one value at every
position, and the normal derivatives at two Dirichlet nodes at one position are those of the vector with the given surface
gradients. -/
theorem C82_exact_solutions (inp : Input 3) (D : Data) (S S' : SingRule) (C : Setup inp.nDofs d)
    (gmres : (Vec inp.nDofs → Vec inp.nDofs) → Vec inp.nDofs → Vec inp.nDofs) (l : List (ℕ × ℕ)) (st' : AlphaStatics)
    (phi0 dphi0 : Vec inp.nDofs) (R : Solution inp.nDofs)
    (h : solve inp D S S' C gmres (alphaHistory l) phi0 dphi0 = (st', some R))
    (B : Finset (Fin inp.nDofs)) (hP : Posed inp C B phi0 dphi0)
    (hsharp : C.nodes.continuosGradient = true → ∀ i ∈ B, ∀ j ∈ C.doubles i, j ∈ B → j ≠ i →
      dot (C.nodes.normal i) (C.nodes.normal j) ^ 2 ≠ 1 ∧ ∀ k ∈ C.doubles i, k ∈ B → k ≠ i →
        thisNormalGradient C.nodes i k = thisNormalGradient C.nodes i j)
    (hagree : ∀ i ∈ B, ∀ j ∈ C.doubles i, j ∈ B → C.nodes.tmpRhs j = C.nodes.tmpRhs i) :
    (∀ i, R.residual i = 0) ↔
      (∀ i, ¬ GradientNode C B i → methodResidual inp D S S' C.method C.owner R.phi R.dphi i = 0) ∧
      (∀ i, ∀ j ∈ C.doubles i, R.phi j = R.phi i) ∧
      (C.nodes.continuosGradient = true → ∀ i ∈ B, ∀ j ∈ C.doubles i, j ∈ B → j ≠ i →
        thisNormalGradient C.nodes i j = some (R.dphi i)) := by
  obtain ⟨c, hc, h1, h2, h3, h4⟩ := solve_rows h B hP.dirichlet hP.neumann hP.bc hP.phi hP.dphi
  have hd01 : ∀ i, C.nodes.dirichlet i = 0 ∨ C.nodes.dirichlet i = 1 := by
    intro i; rw [hP.dirichlet]; split_ifs <;> simp
  have hd1 : ∀ i, C.nodes.dirichlet i = 1 ↔ i ∈ B := by intro i; rw [hP.dirichlet]; split_ifs with hi <;> simp [hi]
  have hd0 : ∀ i, C.nodes.dirichlet i = 0 ↔ i ∉ B := by intro i; rw [hP.dirichlet]; split_ifs with hi <;> simp [hi]
  obtain ⟨hl, hdom, -⟩ := C75_constraints C.nodes C.doubles hP.refl hP.eq hd01 C.hanging C.fuel C.order hP.order hc
  have hfin := constraints_finite C.nodes C.doubles hP.refl hP.eq hd01
    (fun hg i j hi hj hjd hne => (hsharp hg i ((hd1 i).1 hi) j hj ((hd1 j).1 hjd) hne).1) C.hanging C.fuel C.order hc
  -- nodes without constraint
  have free : ∀ j, (j ∉ B → (∀ k ∈ C.doubles j, k ∉ B) ∧ ∀ k ∈ C.doubles j, j ≤ k) → (j ∈ B → ¬ GradientNode C B j) → c j = none := by
    intro j hj hjB
    by_contra hcj
    rcases (hdom j).1 (Option.isSome_iff_ne_none.2 hcj) with h' | ⟨h5, k, hk, h6⟩ | ⟨h5, k, hk, h6⟩ | ⟨h5, h6, k, hk, h7, h8⟩
    · rw [hP.hanging j] at h'; cases h'
    · exact (hj ((hd0 j).1 h5)).1 k hk ((hd1 k).1 h6)
    · exact absurd ((hj ((hd0 j).1 (h5 j (hP.refl j)))).2 k hk) (not_le.2 h6)
    · exact hjB ((hd1 j).1 h5) ⟨h6, k, hk, j, hP.refl j, (hd1 k).1 h8, (hd1 j).1 h5, h7⟩
  have hgroup : ∀ i j, j ∈ C.doubles i → (GradientNode C B j ↔ GradientNode C B i) := by
    intro i j hj
    unfold GradientNode
    rw [hP.eq i j hj]
  have hfree : ∀ i, ¬ GradientNode C B i → ∃ j ∈ C.doubles i, c j = none := by
    intro i hi
    by_cases hB : ∃ j ∈ C.doubles i, j ∈ B
    · obtain ⟨j, hj, hjB⟩ := hB
      exact ⟨j, hj, free j (fun hn => absurd hjB hn) fun _ => by rwa [hgroup i j hj]⟩
    · push Not at hB
      have hne : (C.doubles i).Nonempty := ⟨i, hP.refl i⟩
      have hm := Finset.min'_mem _ hne
      refine ⟨(C.doubles i).min' hne, hm, free _ (fun _ => ?_) fun h => absurd h (hB _ hm)⟩
      rw [hP.eq i _ hm]
      exact ⟨hB, fun k hk => Finset.min'_le _ _ hk⟩
  have hphiB : ∀ i ∈ B, R.phi i = C.nodes.tmpRhs i := by intro i hi; rw [h1]; simp [merge, hi]
  have hphiN : ∀ i, i ∉ B → R.phi i = R.sol i := by intro i hi; rw [h1]; simp [merge, hi]
  have hdphiB : ∀ i ∈ B, R.dphi i = R.sol i := by intro i hi; rw [h2]; simp [merge, hi]
  have hfirst : ∀ i l, IsFirstDirichlet C.nodes (C.doubles i) l → l ∈ C.doubles i ∧ l ∈ B :=
    fun i l hl => ⟨hl.1, (hd1 l).1 hl.2.1⟩
  constructor
  · intro hres
    have hlines : LinesHold c R.sol := by
      intro i es g hi
      obtain ⟨v, rfl⟩ := Option.isSome_iff_exists.1 (hfin i es g hi)
      exact ⟨v, rfl, by have := h4 i es _ hi; rw [hres i, sub_zero] at this; exact this⟩
    obtain ⟨hdn, -⟩ := (hl R.sol).1 hlines
    have hval : ∀ i, ∃ v, ∀ j ∈ C.doubles i, R.phi j = v := by
      intro i
      by_cases hB : ∃ j ∈ C.doubles i, C.nodes.dirichlet j = 1
      · obtain ⟨f, hf⟩ := exists_firstDirichlet C.nodes (C.doubles i) hB
        obtain ⟨hf1, hf2⟩ := hfirst i f hf
        refine ⟨C.nodes.tmpRhs f, fun j hj => ?_⟩
        by_cases hjB : j ∈ B
        · rw [hphiB j hjB]
          exact hagree f hf2 j (by rw [hP.eq i f hf1]; exact hj) hjB
        · rw [hphiN j hjB]
          exact hdn.mixed j f ((hd0 j).2 hjB) (by rw [hP.eq i j hj]; exact hf)
      · push Not at hB
        have hB0 : ∀ j ∈ C.doubles i, C.nodes.dirichlet j = 0 := fun j hj => (hd01 j).resolve_right (hB j hj)
        have hne : (C.doubles i).Nonempty := ⟨i, hP.refl i⟩
        refine ⟨R.sol ((C.doubles i).min' hne), fun j hj => ?_⟩
        rw [hphiN j ((hd0 j).1 (hB0 j hj))]
        exact hdn.neumann j _ (by rw [hP.eq i j hj]; exact hB0) (by rw [hP.eq i j hj]; exact Finset.min'_mem _ hne)
          (by rw [hP.eq i j hj]; exact fun k hk => Finset.min'_le _ _ hk)
    have hsingle : ∀ i, ∀ j ∈ C.doubles i, R.phi j = R.phi i := by
      intro i j hj
      obtain ⟨v, hv⟩ := hval i
      rw [hv j hj, hv i (hP.refl i)]
    refine ⟨fun i hi => ?_, hsingle, fun hg i hi j hj hjB hne => ?_⟩
    · obtain ⟨j, hj, hcj⟩ := hfree i hi
      have e := residual_coincide D S S' C.method C.owner R.phi R.dphi (hP.coincide i j hj)
      have e2 : methodResidual inp D S S' C.method C.owner R.phi R.dphi j = 0 := by
        have := h3 j hcj
        rw [hres j, neg_zero] at this
        exact this
      rw [hsingle i j hj, sub_self, mul_zero, e2, sub_zero] at e
      exact e
    · have hall := (hsharp hg i hi j hj hjB hne).2
      rw [hdphiB i hi]
      obtain ⟨f, hf⟩ := exists_firstDirichlet C.nodes (C.doubles i) ⟨i, hP.refl i, (hd1 i).2 hi⟩
      by_cases hfi : f = i
      · subst hfi
        obtain ⟨m, hm⟩ := exists_lastDirichlet C.nodes (C.doubles f) ⟨f, hP.refl f, (hd1 f).2 hi⟩
        have hmf : m ≠ f := by
          rintro rfl
          exact hne (le_antisymm (hm.2.2 j hj ((hd1 j).2 hjB)) (hf.2.2 j hj ((hd1 j).2 hjB)))
        rw [← hall m hm.1 ((hd1 m).1 hm.2.1) hmf]
        exact hdn.first hg f m hf hm hmf
      · obtain ⟨hf1, hf2⟩ := hfirst i f hf
        rw [← hall f hf1 hf2 hfi, ← otherNormalGradient_eq]
        exact hdn.follower hg i f ((hd1 i).2 hi) hf (Ne.symm hfi)
  · rintro ⟨heqn, hsingle, hgr⟩ i
    cases hci : c i with
    | none =>
      have := h3 i hci
      have hG : ¬ GradientNode C B i := by
        rintro ⟨hg, j, hj, k, hk, hjB, hkB, hjk⟩
        have : (c i).isSome := by
          rw [hdom]
          by_cases hiB : i ∈ B
          · right; right; right
            refine ⟨(hd1 i).2 hiB, hg, ?_⟩
            by_cases hji : j = i
            · exact ⟨k, hk, fun h => hjk (hji.trans h.symm), (hd1 k).2 hkB⟩
            · exact ⟨j, hj, hji, (hd1 j).2 hjB⟩
          · right; left
            exact ⟨(hd0 i).2 hiB, j, hj, (hd1 j).2 hjB⟩
        rw [hci] at this; cases this
      have e := heqn i hG
      unfold methodResidual at e
      linarith
    | some p =>
      obtain ⟨es, g⟩ := p
      have hlines : LinesHold c R.sol := by
        refine (hl R.sol).2 ⟨⟨fun i l hi hl => ?_, fun i l hi hli hm => ?_, fun hg i l hi hl hne => ?_, fun hg i m hi hm hne => ?_⟩,
          fun i hs hi => by rw [hP.hanging i] at hi; cases hi⟩
        · obtain ⟨hf1, hf2⟩ := hfirst i l hl
          rw [← hphiN i ((hd0 i).1 hi), ← hphiB l hf2, hsingle i l hf1]
        · rw [← hphiN i ((hd0 i).1 (hi i (hP.refl i))), ← hphiN l ((hd0 l).1 (hi l hli)), hsingle i l hli]
        · obtain ⟨hf1, hf2⟩ := hfirst i l hl
          have hiB := (hd1 i).1 hi
          rw [otherNormalGradient_eq, hgr hg i hiB l hf1 hf2 (Ne.symm hne), hdphiB i hiB]
        · have hiB := (hd1 i).1 hi.2.1
          rw [hgr hg i hiB m hm.1 ((hd1 m).1 hm.2.1) hne, hdphiB i hiB]
      obtain ⟨v, hv, e⟩ := hlines i es g hci
      have := h4 i es g hci
      rw [hv, Option.getD_some] at this
      linarith

/-- **C82** (the case without conditions on gradients: option off, or no two Dirichlet nodes at one position). The linear system is solved exactly iff
the boundary integral equation holds at *every* node, constrained or not, and the potential has one value at every
position. -/
theorem C82_every_node (inp : Input 3) (D : Data) (S S' : SingRule) (C : Setup inp.nDofs d)
    (gmres : (Vec inp.nDofs → Vec inp.nDofs) → Vec inp.nDofs → Vec inp.nDofs) (l : List (ℕ × ℕ)) (st' : AlphaStatics)
    (phi0 dphi0 : Vec inp.nDofs) (R : Solution inp.nDofs)
    (h : solve inp D S S' C gmres (alphaHistory l) phi0 dphi0 = (st', some R))
    (B : Finset (Fin inp.nDofs)) (hP : Posed inp C B phi0 dphi0)
    (hgrad : C.nodes.continuosGradient = false ∨ ∀ i ∈ B, ∀ j ∈ C.doubles i, j ∈ B → j = i)
    (hagree : ∀ i ∈ B, ∀ j ∈ C.doubles i, j ∈ B → C.nodes.tmpRhs j = C.nodes.tmpRhs i) :
    (∀ i, R.residual i = 0) ↔ (∀ i, methodResidual inp D S S' C.method C.owner R.phi R.dphi i = 0) ∧
      ∀ i, ∀ j ∈ C.doubles i, R.phi j = R.phi i := by
  have hno : C.nodes.continuosGradient = true → ∀ i ∈ B, ∀ j ∈ C.doubles i, j ∈ B → j ≠ i → False := by
    intro hg i hi j hj hjB hne
    rcases hgrad with hg' | hu
    · rw [hg] at hg'; cases hg'
    · exact hne (hu i hi j hj hjB)
  have hG : ∀ i, ¬ GradientNode C B i := by
    rintro i ⟨hg, j, hj, k, hk, hjB, hkB, hjk⟩
    exact hno hg k hkB j (by rw [hP.eq i k hk]; exact hj) hjB hjk
  rw [C82_exact_solutions inp D S S' C gmres l st' phi0 dphi0 R h B hP
    (fun hg i hi j hj hjB hne => (hno hg i hi j hj hjB hne).elim) hagree]
  constructor
  · rintro ⟨h1, h2, -⟩
    exact ⟨fun i => h1 i (hG i), h2⟩
  · rintro ⟨h1, h2⟩
    exact ⟨fun i _ => h1 i, h2, fun hg i hi j hj hjB hne => (hno hg i hi j hj hjB hne).elim⟩

/-! ## Two Dirichlet nodes at the same position -/

/-- **C82** (data). If the option on continuous gradients is off, the residuals at two coincident Dirichlet nodes differ by
the difference of the data times the row sum of the double layer matrix: with different data the linear system has no solution. -/
theorem C82_different_data (inp : Input 3) (D : Data) (S S' : SingRule) (C : Setup inp.nDofs d)
    (gmres : (Vec inp.nDofs → Vec inp.nDofs) → Vec inp.nDofs → Vec inp.nDofs) (l : List (ℕ × ℕ)) (st' : AlphaStatics)
    (phi0 dphi0 : Vec inp.nDofs) (R : Solution inp.nDofs)
    (h : solve inp D S S' C gmres (alphaHistory l) phi0 dphi0 = (st', some R))
    (B : Finset (Fin inp.nDofs)) (hP : Posed inp C B phi0 dphi0) (hgrad : C.nodes.continuosGradient = false)
    (i j : Fin inp.nDofs) (hi : i ∈ B) (hj : j ∈ B) (hij : j ∈ C.doubles i) :
    R.residual i - R.residual j =
      (∑ k, solveMatrix inp D S S' C.method C.owner .double i k) * (C.nodes.tmpRhs i - C.nodes.tmpRhs j) := by
  obtain ⟨c, hc, h1, h2, h3, h4⟩ := solve_rows h B hP.dirichlet hP.neumann hP.bc hP.phi hP.dphi
  have hd01 : ∀ i, C.nodes.dirichlet i = 0 ∨ C.nodes.dirichlet i = 1 := by
    intro i; rw [hP.dirichlet]; split_ifs <;> simp
  obtain ⟨hl, hdom, -⟩ := C75_constraints C.nodes C.doubles hP.refl hP.eq hd01 C.hanging C.fuel C.order hP.order hc
  have free : ∀ j ∈ B, c j = none := by
    intro j hj
    have hj1 : C.nodes.dirichlet j = 1 := by rw [hP.dirichlet, if_pos hj]
    by_contra hcj
    rcases (hdom j).1 (Option.isSome_iff_ne_none.2 hcj) with h' | ⟨h5, -⟩ | ⟨h5, -⟩ | ⟨-, h6, -⟩
    · rw [hP.hanging j] at h'; cases h'
    · rw [hj1] at h5; norm_num at h5
    · have := h5 j (hP.refl j); rw [hj1] at this; norm_num at this
    · rw [hgrad] at h6; cases h6
  have e := residual_coincide D S S' C.method C.owner R.phi R.dphi (hP.coincide i j hij)
  have e1 : methodResidual inp D S S' C.method C.owner R.phi R.dphi i = - R.residual i := h3 i (free i hi)
  have e2 : methodResidual inp D S S' C.method C.owner R.phi R.dphi j = - R.residual j := h3 j (free j hj)
  have p1 : R.phi i = C.nodes.tmpRhs i := by rw [h1]; simp [merge, hi]
  have p2 : R.phi j = C.nodes.tmpRhs j := by rw [h1]; simp [merge, hj]
  rw [e1, e2, p1, p2] at e
  linear_combination -e

theorem vmult_lin {n : ℕ} (P : Problem n) (hb : P.haveDirichletBc = true) (a b : ℝ) (x y : Vec n) :
    vmult P (a • x + b • y) = a • vmult P x + b • vmult P y := by
  funext i
  rw [Pi.add_apply, Pi.smul_apply, Pi.smul_apply, vmult_dirichlet_eq P hb, vmult_dirichlet_eq P hb, vmult_dirichlet_eq P hb]
  have h : ∀ (M : Mat n) (w : Vec n), ∑ j, M i j * ((a • x + b • y) j * w j) =
      a * ∑ j, M i j * (x j * w j) + b * ∑ j, M i j * (y j * w j) := by
    intro M w
    rw [Finset.mul_sum, Finset.mul_sum, ← Finset.sum_add_distrib]
    exact Finset.sum_congr rfl fun j _ => by simp only [Pi.add_apply, Pi.smul_apply, smul_eq_mul]; ring
  rw [h, h]
  simp only [Pi.add_apply, Pi.smul_apply, smul_eq_mul]
  ring

/-- **C82** (no uniqueness). If the option on continuous gradients is off and two different Dirichlet nodes coincide, what `solve` returns is not
determined by its residual: there is a vector `z ≠ 0` such that adding any multiple of it to the result of the linear
solver leaves the residual as it is. -/
theorem C82_not_unique (inp : Input 3) (D : Data) (S S' : SingRule) (C : Setup inp.nDofs d)
    (gmres : (Vec inp.nDofs → Vec inp.nDofs) → Vec inp.nDofs → Vec inp.nDofs) (l : List (ℕ × ℕ)) (st' : AlphaStatics)
    (phi0 dphi0 : Vec inp.nDofs) (R : Solution inp.nDofs)
    (h : solve inp D S S' C gmres (alphaHistory l) phi0 dphi0 = (st', some R))
    (B : Finset (Fin inp.nDofs)) (hP : Posed inp C B phi0 dphi0) (hgrad : C.nodes.continuosGradient = false)
    (i j : Fin inp.nDofs) (hne : i ≠ j) (hi : i ∈ B) (hj : j ∈ B) (hij : j ∈ C.doubles i) :
    ∃ z : Vec inp.nDofs, z ≠ 0 ∧ ∀ t : ℝ, ∃ R' : Solution inp.nDofs,
      solve inp D S S' C (fun _ _ => R.sol + t • z) (alphaHistory l) phi0 dphi0 = (st', some R') ∧
      R'.sol = R.sol + t • z ∧ R'.residual = R.residual := by
  unfold solve solveWith at h
  simp only [Prod.mk.injEq] at h
  obtain ⟨hst, h⟩ := h
  obtain ⟨alpha, ha, h⟩ := Option.bind_eq_some_iff.1 h
  obtain ⟨c, hc, h⟩ := Option.map_eq_some_iff.1 h
  set P : Problem inp.nDofs := ⟨solveMatrix inp D S S' C.method C.owner .double,
        solveMatrix inp D S S' C.method C.owner .single, alpha, C.nodes.dirichlet, C.neumannNodes, C.haveDirichletBc, C.method⟩
    with hPr
  have hd01 : ∀ i, C.nodes.dirichlet i = 0 ∨ C.nodes.dirichlet i = 1 := by
    intro i; rw [hP.dirichlet]; split_ifs <;> simp
  obtain ⟨-, hdom, -⟩ := C75_constraints C.nodes C.doubles hP.refl hP.eq hd01 C.hanging C.fuel C.order hP.order hc
  have free : ∀ j ∈ B, c j = none := by
    intro j hj
    have hj1 : C.nodes.dirichlet j = 1 := by rw [hP.dirichlet, if_pos hj]
    by_contra hcj
    rcases (hdom j).1 (Option.isSome_iff_ne_none.2 hcj) with h' | ⟨h5, -⟩ | ⟨h5, -⟩ | ⟨-, h6, -⟩
    · rw [hP.hanging j] at h'; cases h'
    · rw [hj1] at h5; norm_num at h5
    · have := h5 j (hP.refl j); rw [hj1] at this; norm_num at this
    · rw [hgrad] at h6; cases h6
  have hlin := (C23_linear_and_partition_independent (vmult P) (toConstraints c)).2 (vmult_lin P hP.bc) C.procs (fun i => C.owner i)
  let L : Vec inp.nDofs →ₗ[ℝ] Vec inp.nDofs :=
    { toFun := constrainedVmult C.procs (fun i => C.owner i) (vmult P) (toConstraints c)
      map_add' := fun x y => by have := hlin 1 1 x y; simpa using this
      map_smul' := fun a x => by have := hlin a 0 x 0; simpa using this }
  have hrow : ∀ x, L x i = L x j := by
    intro x
    have e : ∀ k ∈ B, L x k = (∑ m, P.neumannMatrix k m * (x m * P.neumannNodes m)) - ∑ m, P.dirichletMatrix k m * (x m * P.dirichletNodes m) := by
      intro k hk
      show constrainedVmult C.procs (fun i => C.owner i) (vmult P) (toConstraints c) x k = _
      have htc : toConstraints c k = none := by simp [toConstraints, free k hk]
      rw [constrainedVmult_eq]
      unfold rowValue
      rw [htc]
      simp only
      rw [vmult_dirichlet_eq P hP.bc]
      have : P.neumannNodes k = 0 := by show C.neumannNodes k = 0; rw [hP.neumann, if_pos hk]
      rw [this]
      ring
    rw [e i hi, e j hj]
    simp only [hPr, C82_same_rows inp D S S' C.method C.owner _ i j (hP.coincide i j hij)]
  have hns : ¬ Function.Surjective L := by
    intro hs
    obtain ⟨x, hx⟩ := hs (Pi.single i 1)
    have h1 := hrow x
    rw [hx, Pi.single_eq_same, Pi.single_eq_of_ne hne.symm] at h1
    norm_num at h1
  have hni : ¬ Function.Injective L := fun hinj => hns (LinearMap.injective_iff_surjective.1 hinj)
  rw [← LinearMap.ker_eq_bot, Submodule.eq_bot_iff] at hni
  push Not at hni
  obtain ⟨z, hz, hz0⟩ := hni
  refine ⟨z, hz0, fun t => ?_⟩
  have hsolve : solve inp D S S' C (fun _ _ => R.sol + t • z) (alphaHistory l) phi0 dphi0 = (st', some
      ⟨(storeSolution C.nodes.dirichlet (R.sol + t • z) phi0 dphi0).1, (storeSolution C.nodes.dirichlet (R.sol + t • z) phi0 dphi0).2,
        R.sol + t • z, fun i => distributeRhs (toConstraints c) (computeRhs P 0 C.nodes.tmpRhs) i - L (R.sol + t • z) i⟩) := by
    unfold solve solveWith
    rw [Prod.mk.injEq]
    refine ⟨hst, ?_⟩
    simp only [ha, Option.bind_some, hc, Option.map_some]
    rfl
  refine ⟨_, hsolve, rfl, ?_⟩
  have : L (R.sol + t • z) = L R.sol := by rw [map_add, map_smul, LinearMap.mem_ker.1 hz, smul_zero, add_zero]
  rw [this]
  conv_rhs => rw [← h]
  funext k
  have hs : R.sol = gmres (constrainedVmult C.procs (fun i => C.owner i) (vmult P) (toConstraints c))
      (distributeRhs (toConstraints c) (computeRhs P 0 C.nodes.tmpRhs)) := by rw [← h]
  show _ - L R.sol k = _
  rw [hs]
  rfl

/-! ## A concrete case: two cells with one dof each, at the same position -/

/-- Two cells with one dof each, both at the origin. -/
def twoInput : Input 3 where
  nDofs := 2
  pos := fun _ => 0
  nCells := 2
  nq := 1
  qpos := fun q => ![q.1 + 1, 0, 0]
  cellDofs := fun c => [c]
  doubles := fun _ => {0, 1}
  levels := 1
  maxNodes := 4
  oldElems := fun _ => []

/-- Both nodes are Dirichlet nodes, with data `g`. -/
def twoSetup (m : Method) (g : Fin 2 → ℝ) : Setup twoInput.nDofs 3 where
  method := m
  owner := fun _ => 0
  procs := 1
  part := 1
  neumannNodes := fun _ => 0
  haveDirichletBc := true
  nodes := ⟨fun _ => 1, g, fun _ => 0, fun _ => 0, false⟩
  doubles := fun _ => Finset.univ
  hanging := fun _ => none
  fuel := 1
  order := List.finRange _

theorem two_lines (m : Method) (g : Fin 2 → ℝ) : computeConstraints (twoSetup m g).nodes (twoSetup m g).doubles
    (twoSetup m g).hanging (twoSetup m g).fuel (twoSetup m g).order = some fun _ => none := by
  have hnone : ∀ i, doubleNodeConstraints (twoSetup m g).nodes (twoSetup m g).doubles i = none := by
    intro i
    rw [← Option.not_isSome_iff_eq_none, doubleLines_dom (twoSetup m g).nodes _ (by simp [twoSetup]) (by simp [twoSetup])
      (by simp [twoSetup])]
    rintro (⟨h0, -⟩ | ⟨h0, -⟩ | ⟨_, h0, -⟩)
    · simp [twoSetup] at h0
    · have := h0 i (by simp [twoSetup]); simp [twoSetup] at this
    · simp [twoSetup] at h0
  have hh : ∀ i, (twoSetup m g).hanging i = none := fun _ => rfl
  unfold computeConstraints mergeLines
  rw [if_neg (by simp [hnone])]
  simp only [hnone, hh, Option.bind_some, Option.map_none]
  unfold closeLines
  generalize (twoSetup m g).order = l
  induction l with
  | nil => rfl
  | cons a t ih => rw [List.foldlM_cons]; exact ih

theorem two_solve (D : Data) (S S' : SingRule) (m : Method) (g : Fin 2 → ℝ) (gmres : (Vec 2 → Vec 2) → Vec 2 → Vec 2)
    (phi0 dphi0 : Vec 2) :
    ∃ st' R, solve twoInput D S S' (twoSetup m g) gmres (alphaHistory []) phi0 dphi0 = (st', some R) :=
  solve_some (by simp [alphaHistory, alphaStaticsStep, AlphaStatics.init, twoInput, twoSetup]) (two_lines m g)

theorem two_posed (m : Method) (g : Fin 2 → ℝ) : Posed twoInput (twoSetup m g) Finset.univ g 0 where
  dirichlet := by simp [twoSetup]
  neumann := by simp [twoSetup]
  bc := rfl
  phi := fun _ _ => rfl
  dphi := by simp
  refl := by simp [twoSetup]
  eq := by simp [twoSetup]
  coincide := fun i j _ => ⟨rfl, rfl⟩
  hanging := fun _ => rfl
  order := fun i => List.mem_finRange i

/-- the hypotheses of `C82_every_node`, `C82_different_data` and `C82_not_unique`: two cells meeting at the origin, both with
Dirichlet data, for both methods and any linear solver -/
example (D : Data) (S S' : SingRule) (m : Method) (gmres : (Vec 2 → Vec 2) → Vec 2 → Vec 2) :
    (∃ st' R, solve twoInput D S S' (twoSetup m fun _ => 1) gmres (alphaHistory []) (fun _ => 1) 0 = (st', some R) ∧
      ((∀ i, R.residual i = 0) ↔ (∀ i, methodResidual twoInput D S S' m (fun _ => 0) R.phi R.dphi i = 0) ∧
        ∀ i j, R.phi j = R.phi i)) ∧
    (∃ st', ∃ R : Solution 2, solve twoInput D S S' (twoSetup m fun i => i) gmres (alphaHistory []) (fun i => i) 0 = (st', some R) ∧
      R.residual 1 - R.residual 0 = (∑ k, solveMatrix twoInput D S S' m (fun _ => 0) .double (1 : Fin 2) k) ∧
      ∃ z : Vec 2, z ≠ 0 ∧ ∀ t : ℝ, ∃ R' : Solution 2,
        solve twoInput D S S' (twoSetup m fun i => i) (fun _ _ => R.sol + t • z) (alphaHistory []) (fun i => i) 0 = (st', some R') ∧
        R'.sol = R.sol + t • z ∧ R'.residual = R.residual) := by
  constructor
  · obtain ⟨st', R, h⟩ := two_solve D S S' m (fun _ => 1) gmres (fun _ => 1) 0
    refine ⟨st', R, h, ?_⟩
    have := C82_every_node twoInput D S S' (twoSetup m fun _ => 1) gmres [] st' _ _ R h Finset.univ (two_posed m _) (Or.inl rfl)
      (fun _ _ _ _ _ => rfl)
    rw [this]
    exact and_congr_right fun _ => ⟨fun h i j => h i j (Finset.mem_univ j), fun h i j _ => h i j⟩
  · obtain ⟨st', R, h⟩ := two_solve D S S' m (fun i => i) gmres (fun i => i) 0
    have e := C82_different_data twoInput D S S' (twoSetup m fun i => i) gmres [] st' _ _ R h Finset.univ (two_posed m _) rfl
      (1 : Fin 2) (0 : Fin 2) (Finset.mem_univ _) (Finset.mem_univ _) (Finset.mem_univ _)
    refine ⟨st', R, h, ?_, C82_not_unique twoInput D S S' (twoSetup m fun i => i) gmres [] st' _ _ R h Finset.univ (two_posed m _) rfl
      (1 : Fin 2) (0 : Fin 2) (show (1 : Fin 2) ≠ 0 by decide) (Finset.mem_univ _) (Finset.mem_univ _) (Finset.mem_univ _)⟩
    rw [e]
    simp [twoSetup]

/-- the hypothesis of `C82_same_rows`: the two nodes of the example -/
example : Coincide twoInput 0 1 := ⟨rfl, rfl⟩

end PiBem.Bem
