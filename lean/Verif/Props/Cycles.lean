import Verif.Bem.Cycles
import Verif.Props.History
import Verif.Props.Driver
import Verif.Props.Solve

/-!
# C81: what a cycle of a run gets from the earlier cycles
-/

noncomputable section

namespace PiBem.Bem

open PiBem.Octree PiBem.Fmm PiBem.App PiBem.Expansion

/-! ## The lists determine the product -/

section
variable {inp inp' : Input 3} {T : St 3}

theorem rowMap_congr (o : ℕ → List ℕ) (hi : ∀ k s, intList { inp with oldElems := o } T k s = intList inp T k s)
    (hn : ∀ k s, nonIntList { inp with oldElems := o } T k s = nonIntList inp T k s) (D : Data) (ker : Ker) (i : ℕ) :
    rowMap { inp with oldElems := o } D ker T i = rowMap inp D ker T i := by
  have hl : ∀ k s, m2lSet { inp with oldElems := o } T k s = m2lSet inp T k s := by
    intro k s; unfold m2lSet; rw [hn]; rfl
  have hp : ∀ k s, m2pSet { inp with oldElems := o } T k s = m2pSet inp T k s := by
    intro k s; unfold m2pSet; rw [hn]; rfl
  have hml : ∀ k, mlAll { inp with oldElems := o } D.p T k = mlAll inp D.p T k := by
    intro k; unfold mlAll; simp only [hl]; rfl
  have hmp : ∀ k i, mpAll { inp with oldElems := o } D.p T k i = mpAll inp D.p T k i := by
    intro k i; unfold mpAll; simp only [hp]; rfl
  have hloc : ∀ n k, locAt { inp with oldElems := o } D.p T n k = locAt inp D.p T n k := by
    intro n
    induction n with
    | zero => intro k; rfl
    | succ n ih => intro k; unfold locAt; rw [ih, hml]
  have hbig : ∀ s k, bigSet { inp with oldElems := o } T s k = bigSet inp T s k := by
    intro s k; unfold bigSet; simp only [hn]; rfl
  have hle : leafEff { inp with oldElems := o } T (fun _ => true) = leafEff inp T (fun _ => true) := by
    funext b i; unfold leafEff; rw [hi]; rfl
  have hbe : bigEff { inp with oldElems := o } T (fun _ => true) = bigEff inp T (fun _ => true) := by
    funext l b i; unfold bigEff; rw [hbig]; rfl
  have hdir : directResult { inp with oldElems := o } T (fun _ => true) = directResult inp T (fun _ => true) := by
    unfold directResult; rw [hle, hbe]
  have h1 : directMap { inp with oldElems := o } D ker T i = directMap inp D ker T i := by
    unfold directMap; rw [hdir]; rfl
  have h2 : multMap { inp with oldElems := o } D ker T = multMap inp D ker T := rfl
  unfold rowMap
  rw [h1, h2]
  simp only [hmp, hloc]

end

theorem fmaMatrix_congr (inp : Input 3) (hist : List Mesh) (M : Mesh)
    (h : ∀ M' ∈ hist, ∀ c ∈ M'.active, c ∈ M.active → M'.dofs c = M.dofs c) (D : Data) (ker : Ker) (i k : ℕ) :
    fmaMatrix (callInput inp hist M) D ker i k = fmaMatrix (callInput inp [] M) D ker i k := by
  obtain ⟨hb, _, _, h4⟩ := C73_lists inp hist M
  have hl := h4 h
  unfold fmaMatrix
  rw [hb]
  rw [hb] at hl
  have := rowMap_congr (inp := callInput inp [] M) (T := build (callInput inp [] M)) (callInput inp hist M).oldElems
    (fun k s => (hl k s).1) (fun k s => (hl k s).2) D ker i
  exact congrArg (fun f : (ℕ → ℝ) →ₗ[ℝ] ℝ => f (Pi.single k 1)) this

/-! ## `solve` as a function of the matrices -/

variable {P : Type} {d : ℕ}

/-- the second half of `solve` -/
def solveAfterAlpha {n : ℕ} (N M : Mat n) (C : Setup n d) (gmres : (Vec n → Vec n) → Vec n → Vec n) (alpha : Option (Vec n))
    (phi0 dphi0 : Vec n) : Option (Solution n) :=
  alpha.bind fun alpha =>
    let P : Problem n := ⟨N, M, alpha, C.nodes.dirichlet, C.neumannNodes, C.haveDirichletBc, C.method⟩
    let systemRhs := computeRhs P 0 C.nodes.tmpRhs
    (computeConstraints C.nodes C.doubles C.hanging C.fuel C.order).map fun c =>
      let cc := constrainedVmult C.procs (fun i => C.owner i) (vmult P) (toConstraints c)
      let systemRhs := distributeRhs (toConstraints c) systemRhs
      let sol := gmres cc systemRhs
      let out := storeSolution C.nodes.dirichlet sol phi0 dphi0
      ⟨out.1, out.2, sol, fun i => systemRhs i - cc sol i⟩

theorem solve_eq_with (inp : Input 3) (D : Data) (S S' : SingRule) (C : Setup inp.nDofs d)
    (gmres : (Vec inp.nDofs → Vec inp.nDofs) → Vec inp.nDofs → Vec inp.nDofs) (st : AlphaStatics)
    (phi0 dphi0 : Vec inp.nDofs) : solve inp D S S' C gmres st phi0 dphi0 =
      (alphaStaticsStep inp.nDofs C.part st, solveAfterAlpha (solveMatrix inp D S S' C.method C.owner .double)
        (solveMatrix inp D S S' C.method C.owner .single) C gmres
        (computeAlpha C.method C.part (solveMatrix inp D S S' C.method C.owner .double) (fun _ => 0) st).2 phi0 dphi0) := rfl

theorem alphaHistory_snoc (l : List (ℕ × ℕ)) (q : ℕ × ℕ) :
    alphaHistory (l ++ [q]) = alphaStaticsStep q.1 q.2 (alphaHistory l) := by
  unfold alphaHistory
  rw [List.foldl_append]
  rfl

/-- `alpha` after a history, compared with the first call. -/
theorem alpha_history {n : ℕ} (hn : 0 < n) (l : List (ℕ × ℕ)) (m : Method) (part : ℕ) (N : Mat n) :
    (computeAlpha m part N (fun _ => 0) (alphaHistory l)).2 =
      if (lastChange l).1 = n ∧ (lastChange l).2 ≠ part then none
      else (computeAlpha m part N (fun _ => 0) AlphaStatics.init).2 := by
  obtain ⟨ho, hq⟩ := alphaStatics_invariant l
  rw [← hq]
  generalize alphaHistory l = s at ho
  have hne : AlphaStatics.init.size ≠ n := by unfold AlphaStatics.init; simp; omega
  unfold computeAlpha alphaStaticsStep
  rw [if_pos hne]
  by_cases hs : s.size = n
  · rw [if_neg (not_not.2 hs)]
    have hones : ∀ i : Fin n, s.ones i = 0 + (-1) := by
      intro i; rw [ho i (by rw [hs]; exact i.isLt)]; ring
    simp only [hones]
    by_cases hp : s.part = part <;> simp [hs, hp]
  · rw [if_pos hs]
    simp [hs]

theorem solveAfterAlpha_history {n : ℕ} (hn : 0 < n) {N M N' M' : Mat n} (hN : N = N') (hM : M = M') (C : Setup n d)
    (gmres : (Vec n → Vec n) → Vec n → Vec n) (l : List (ℕ × ℕ)) (m : Method) (part : ℕ) (phi0 dphi0 : Vec n) :
    solveAfterAlpha N M C gmres (computeAlpha m part N (fun _ => 0) (alphaHistory l)).2 phi0 dphi0 =
      if (lastChange l).1 = n ∧ (lastChange l).2 ≠ part then none
      else solveAfterAlpha N' M' C gmres (computeAlpha m part N' (fun _ => 0) AlphaStatics.init).2 phi0 dphi0 := by
  subst hN hM
  rw [alpha_history hn]
  split_ifs <;> rfl

/-! ## The state after some cycles -/

/-- What the earlier cycles leave. -/
structure After (p : RunParams P) (Ls : List (Level P d)) (s : RunState P) : Prop where
  alpha : s.alpha = alphaHistory (Ls.map fun L => (L.n, L.part))
  elems : p.method = .fma → s.elems = elemsAfter (Ls.map fun L => L.mesh)
  quads : s.quads = [] ∨ s.quads = p.support.map fun x => (p.order, x)
  created : Ls ≠ [] → s.map.created = true

theorem mappingReinit_created {dim : ℕ} {mt : MappingType} {S : Spheroid} {n : ℕ} {vo2s : ℕ → ℕ} {pos : ℕ → ℝ} {s s' : MapState}
    (h : mappingReinit dim mt S n vo2s pos s = some s') : s'.created = true := by
  unfold mappingReinit at h
  cases mt <;> (simp only [] at h; split_ifs at h <;> simp_all <;> rw [← h])

theorem after_run (p : RunParams P) (Ls : List (Level P d)) (s : RunState P)
    (h : runCycles p RunState.init Ls = some s) : After p Ls s := by
  induction Ls using List.reverseRecOn generalizing s with
  | nil =>
    have : s = RunState.init := by simpa [runCycles] using h.symm
    subst this
    exact ⟨rfl, fun _ => rfl, Or.inl rfl, fun h => absurd rfl h⟩
  | append_singleton Ls L ih =>
    unfold runCycles at h
    rw [List.foldlM_append] at h
    cases hs : runCycles p RunState.init Ls with
    | none => unfold runCycles at hs; rw [hs] at h; simp at h
    | some s1 =>
      have a := ih s1 hs
      unfold runCycles at hs
      rw [hs] at h
      simp only [List.foldlM_cons, List.foldlM_nil, Option.bind_eq_bind, Option.bind_some, Option.pure_def] at h
      rw [Option.bind_eq_some_iff] at h
      obtain ⟨s2, h2, h3⟩ := h
      simp only [Option.some.injEq] at h3
      subst h3
      rw [Option.map_eq_some_iff] at h2
      obtain ⟨R, hR, h2⟩ := h2
      unfold cycle at hR h2
      cases hm : mappingReinit 3 p.mappingType p.spheroid L.n L.vo2s L.positions s1.map with
      | none => rw [hm] at hR; simp at hR
      | some ms =>
        rw [hm] at h2
        subst h2
        refine ⟨?_, ?_, ?_, fun _ => mappingReinit_created hm⟩
        · simp only []
          rw [List.map_append, List.map_singleton, alphaHistory_snoc, ← a.alpha]
          rfl
        · intro hf
          simp only [hf, if_true]
          rw [a.elems hf, List.map_append, List.map_singleton]
          unfold elemsAfter
          rw [List.foldl_append]
          rfl
        · cases hm : p.method with
          | fma => simpa using a.quads
          | direct =>
            simp only [if_true, getSingularQuadrature]
            rcases a.quads with hq | hq
            · rw [hq]; simp
            · split_ifs
              · exact Or.inr rfl
              · exact Or.inr hq

theorem same_rules (p : RunParams P) {Ls : List (Level P d)} {s : RunState P} (a : After p Ls s) (i : ℕ) :
    (getSingularQuadrature s.quads p.order p.support i).2 =
      (getSingularQuadrature (RunState.init (P := P)).quads p.order p.support i).2 := by
  unfold getSingularQuadrature RunState.init
  rcases a.quads with hq | hq
  · rw [hq]
  · simp only [List.length_nil, if_true]
    split_ifs with h
    · rfl
    · rw [hq]

/-! ## C81 -/

theorem assemble_old (inp : Input 3) (o : ℕ → List ℕ) (D : Data) (S : SingRule) (ker : Ker) (own : ℕ → Bool) :
    assemble { inp with oldElems := o } D S ker own = assemble inp D S ker own := rfl

theorem level_matrix (p : RunParams P) (L : Level P d) (g : Geometry P L.n d) (hist : List Mesh)
    (hmesh : p.method = .direct ∨ ∀ M' ∈ hist, ∀ c ∈ M'.active, c ∈ L.mesh.active → M'.dofs c = L.mesh.dofs c)
    (e : ℕ → List ℕ) (he : p.method = .fma → e = elemsAfter hist) (D : Data) (S S' : SingRule) (owner : ℕ → ℕ) (ker : Ker) :
    (solveMatrix (levelInput p L g e) D S S' p.method owner ker : Mat L.n) =
      solveMatrix (levelInput p L g fun _ => []) D S S' p.method owner ker := by
  funext i k
  cases hm : p.method with
  | direct => rfl
  | fma =>
    have hmesh := hmesh.resolve_left (by rw [hm]; simp)
    rw [he hm]
    exact fmaMatrix_congr (levelInput p L g fun _ => []) hist L.mesh hmesh (withSing (levelInput p L g fun _ => []) D S ker) ker i k

/-- **C81**. In a run without spheroid, the result of the cycle on mesh `L` after any sequence of cycles that went through is
the result of a new run on `L` alone, except that it is an exception when the last change of the number of dofs was to
the number of `L` with another partition. For the fast multipole method this needs that cells active in an earlier
cycle that still are have kept their dofs. -/
theorem C81_history (p : RunParams P) (Ls : List (Level P d)) (s : RunState P) (hrun : runCycles p RunState.init Ls = some s)
    (L : Level P d) (hn : 0 < L.n) (hsph : p.spheroid.active = false)
    (hmesh : p.method = .direct ∨ ∀ L' ∈ Ls, ∀ c ∈ L'.mesh.active, c ∈ L.mesh.active → L'.mesh.dofs c = L.mesh.dofs c) :
    (cycle p s L).2 =
      if (lastChange (Ls.map fun L => (L.n, L.part))).1 = L.n ∧ (lastChange (Ls.map fun L => (L.n, L.part))).2 ≠ L.part
      then none else (cycle p RunState.init L).2 := by
  have a := after_run p Ls s hrun
  have hmap : ∀ ms : MapState, ∃ ms', mappingReinit 3 p.mappingType p.spheroid L.n L.vo2s L.positions ms = some ms' ∧
      (p.mappingType = .fe → ms'.mapVector = L.positions) := by
    intro ms
    unfold mappingReinit
    rw [hsph]
    by_cases hf : p.mappingType = .fe
    · simp only [hf, if_true]
      by_cases hc : ms.created = true <;> simp [hc]
    · simp only [hf, if_false]
      by_cases hc : ms.created = true <;> simp [hc]
  obtain ⟨m1, h1, h1'⟩ := hmap s.map
  obtain ⟨m2, h2, h2'⟩ := hmap (RunState.init (P := P)).map
  have hg : (if p.mappingType = .fe then some m1.mapVector else none) = if p.mappingType = .fe then some m2.mapVector else none := by
    split_ifs with hf
    · rw [h1' hf, h2' hf]
    · rfl
  have hmesh' : p.method = .direct ∨ ∀ M' ∈ Ls.map (fun L => L.mesh), ∀ c ∈ M'.active, c ∈ L.mesh.active →
      M'.dofs c = L.mesh.dofs c := by
    refine hmesh.imp id fun h M' hM => ?_
    obtain ⟨L', hL', rfl⟩ := List.mem_map.1 hM
    exact h L' hL'
  unfold cycle
  rw [h1, h2]
  simp only []
  rw [hg]
  simp only [same_rules p a]
  rw [a.alpha]
  generalize L.geom (if p.mappingType = .fe then some m2.mapVector else none) = g
  have hM := fun ker => level_matrix p L g _ hmesh' s.elems a.elems g.data g.fmaRule
    (g.denseRule (List.map (fun i => (getSingularQuadrature (RunState.init (P := P)).quads p.order p.support i).2)
      (List.range p.support.length))) g.setup.owner ker
  exact solveAfterAlpha_history hn (hM .double) (hM .single) { g.setup with method := p.method, part := L.part } L.gmres
    (Ls.map fun L => (L.n, L.part)) p.method L.part g.phi0 g.dphi0

theorem lastChange_mem (l : List (ℕ × ℕ)) : lastChange l = (0, 0) ∨ lastChange l ∈ l := by
  induction l using List.reverseRecOn with
  | nil => exact Or.inl rfl
  | append_singleton l q ih =>
    have : lastChange (l ++ [q]) = if (lastChange l).1 = q.1 then lastChange l else q := by
      unfold lastChange; rw [List.foldl_append]; rfl
    rw [this]
    split_ifs
    · exact ih.imp id fun h => List.mem_append_left _ h
    · exact Or.inr (by simp)

/-- **C81**, refinement: if the number of dofs of the mesh is different from those of all the earlier cycles, or all the
cycles have the same partition label (one process), the result is that of a new run. -/
theorem C81_new_run (p : RunParams P) (Ls : List (Level P d)) (s : RunState P) (hrun : runCycles p RunState.init Ls = some s)
    (L : Level P d) (hn : 0 < L.n) (hsph : p.spheroid.active = false)
    (hmesh : p.method = .direct ∨ ∀ L' ∈ Ls, ∀ c ∈ L'.mesh.active, c ∈ L.mesh.active → L'.mesh.dofs c = L.mesh.dofs c)
    (hpart : (∀ L' ∈ Ls, L'.n ≠ L.n) ∨ ∀ L' ∈ Ls, L'.part = L.part) :
    (cycle p s L).2 = (cycle p RunState.init L).2 := by
  rw [C81_history p Ls s hrun L hn hsph hmesh, if_neg]
  rintro ⟨h1, h2⟩
  rcases lastChange_mem (Ls.map fun L => (L.n, L.part)) with h | h
  · rw [h] at h1; simp only at h1; omega
  · obtain ⟨L', hL', he⟩ := List.mem_map.1 h
    rw [← he] at h1 h2
    rcases hpart with hp | hp
    · exact hp L' hL' h1
    · exact h2 (hp L' hL')

/-- **C81**, fast multipole method on any sequence of meshes: the products of the matrices of the cycle and of a new run
differ at most by twice the error of the method (C63, C64). -/
theorem C81_gap (p : RunParams P) (L : Level P d) (g : Geometry P L.n d) (e : ℕ → List ℕ) (D : Data) (S S' : SingRule)
    (owner : ℕ → ℕ) (hdof : ∀ c k, k ∈ L.mesh.dofs c → k < L.n) (h1 : Admissible (levelInput p L g e) D)
    (h2 : Admissible (levelInput p L g fun _ => []) D) (ker : Ker) (x : Vec L.n) (i : Fin L.n) :
    |(∑ k, (solveMatrix (levelInput p L g e) D S S' .fma owner ker : Mat L.n) i k * x k) -
      ∑ k, (solveMatrix (levelInput p L g fun _ => []) D S S' .fma owner ker : Mat L.n) i k * x k| ≤
      2 * methodGap .fma (levelInput p L g fun _ => []) D S S' ker x i := by
  have a := product_gap (levelInput p L g e) D S S' .fma owner ker (fun c k h => hdof _ k h) (fun _ => h1) x i
  have b := product_gap (levelInput p L g fun _ => []) D S S' .fma owner ker (fun c k h => hdof _ k h) (fun _ => h2) x i
  have key : ∀ A B I G : ℝ, |A - I| ≤ G → |B - I| ≤ G → |A - B| ≤ 2 * G := by
    intro A B I G h1 h2
    rw [abs_le] at h1 h2 ⊢
    constructor <;> linarith [h1.1, h1.2, h2.1, h2.2]
  exact key _ _ _ _ a b

/-! ## Non-vacuity and what does not hold -/

/-- The cube as a mesh of a run, partition `part`; the Dirichlet datum is the position vector seen by the mapping. -/
def cubeLevel (part : ℕ) : Level Unit 3 where
  n := 8
  part := part
  mesh := ⟨List.range 6, (cubeInput 3 0).cellDofs⟩
  nq := (cubeInput 3 0).nq
  vo2s := id
  positions := fun i => i
  geom := fun v => ⟨(cubeInput 3 0).pos, (cubeInput 3 0).qpos, (cubeInput 3 0).doubles, cubeData, nodeRule, fun _ => nodeRule,
    cubeSetup .direct 1, fun i => (v.getD fun _ => 0) i, fun _ => 0⟩
  gmres := fun _ b => b

/-- Parameters of the runs on the cube, with the axes `(2, 1, 1)` if the spheroid is active. -/
def cubeRun (m : Method) (active : Bool) : RunParams Unit := ⟨m, .fe, ⟨active, 2, 1, 1⟩, 5, [()], 3, 0⟩

theorem cube_cycle (m : Method) (active : Bool) (s : RunState Unit) (part : ℕ) (ms : MapState)
    (hm : mappingReinit 3 .fe ⟨active, 2, 1, 1⟩ 8 id (fun i => i) s.map = some ms)
    (ha : (alphaStaticsStep 8 part s.alpha).part = part) :
    ∃ s' R, cycle (cubeRun m active) s (cubeLevel part) = (s', some R) ∧ s'.map = ms ∧ s'.alpha = alphaStaticsStep 8 part s.alpha ∧
      ∀ i : Fin 8, R.phi i = ms.mapVector i := by
  unfold cycle
  have hm' : mappingReinit 3 (cubeRun m active).mappingType (cubeRun m active).spheroid (cubeLevel part).n (cubeLevel part).vo2s
      (cubeLevel part).positions s.map = some ms := hm
  rw [hm']
  simp only []
  have hif : (if (cubeRun m active).mappingType = .fe then some ms.mapVector else none) = some ms.mapVector := rfl
  rw [hif]
  obtain ⟨st', R, hR⟩ := solve_some (d := 3)
    (inp := levelInput (cubeRun m active) (cubeLevel part) ((cubeLevel part).geom (some ms.mapVector)) s.elems)
    (D := cubeData) (S := nodeRule) (S' := nodeRule)
    (C := { cubeSetup .direct 1 with method := m, part := part }) (gmres := fun _ b => b) (st := s.alpha)
    (phi0 := fun i => ms.mapVector i) (dphi0 := fun _ => 0) (c := fun _ => none) ha (cube_lines .direct 1)
  refine ⟨_, R, congrArg (Prod.mk _) (congrArg Prod.snd hR), rfl, rfl, fun i => ?_⟩
  obtain ⟨_, _, _, _, hst, _⟩ := solve_parts hR
  have := congrArg Prod.fst hst
  simp only at this
  have hs : ∀ (l : List (Fin 8)) (o : Vec 8 × Vec 8), (l.foldl (fun (o : Vec 8 × Vec 8) i =>
      if (1 : ℝ) = 0 then (Function.update o.1 i (R.sol i), o.2) else (o.1, Function.update o.2 i (R.sol i))) o).1 = o.1 := by
    intro l
    induction l with
    | nil => intro o; rfl
    | cons a l ih => intro o; rw [List.foldl_cons, ih]; simp
  rw [this]
  exact congrFun (hs (List.finRange 8) _) i

/-- Non-vacuity of C81: the second cycle on the cube goes through and has the result of the first, for both methods. -/
example (m : Method) : ∃ s, runCycles (cubeRun m false) RunState.init [cubeLevel 1] = some s ∧
    (cycle (cubeRun m false) s (cubeLevel 1)).2 = (cycle (cubeRun m false) RunState.init (cubeLevel 1)).2 ∧
    (cycle (cubeRun m false) s (cubeLevel 1)).2.isSome = true := by
  obtain ⟨s, R, h, -, -, -⟩ := cube_cycle m false RunState.init 1 ⟨true, 24, fun i => i⟩
    (by simp [mappingReinit, RunState.init, MapState.init]) (by simp [alphaStaticsStep, RunState.init, AlphaStatics.init])
  have hr : runCycles (cubeRun m false) RunState.init [cubeLevel 1] = some s := by
    simp [runCycles, h]
  have := C81_new_run (cubeRun m false) [cubeLevel 1] s hr (cubeLevel 1) (by simp [cubeLevel]) rfl
    (Or.inr (by intro L' hL' c _ _; rw [List.mem_singleton.1 hL'])) (Or.inr (by intro L' hL'; rw [List.mem_singleton.1 hL']))
  refine ⟨s, hr, this, ?_⟩
  rw [this, h]
  rfl

/-- **C81**, what does not hold: with the spheroid option two cycles on the same mesh, with the same partition, have different
results, as the second works on the mesh without the axes. -/
theorem C81_spheroid_refuted (m : Method) : ∃ s R R', runCycles (cubeRun m true) RunState.init [cubeLevel 1] = some s ∧
    (cycle (cubeRun m true) RunState.init (cubeLevel 1)).2 = some R ∧ (cycle (cubeRun m true) s (cubeLevel 1)).2 = some R' ∧
    R.phi (1 : Fin 8) = 2 ∧ R'.phi (1 : Fin 8) = 1 := by
  obtain ⟨ms, hm, hc, hv⟩ := C38_spheroid 3 8 (Or.inr rfl) id (fun i _ j _ h => h) ⟨true, 2, 1, 1⟩ rfl (fun i => (i : ℝ))
  obtain ⟨s, R, h, hs, hsa, hR⟩ := cube_cycle m true RunState.init 1 ms hm
    (by simp [alphaStaticsStep, RunState.init, AlphaStatics.init])
  have hr : runCycles (cubeRun m true) RunState.init [cubeLevel 1] = some s := by
    simp [runCycles, h]
  obtain ⟨s', R', h', -, -, hR'⟩ := cube_cycle m true s 1 ⟨true, 3 * 8, fun i => (i : ℝ)⟩
    ((C38_later_calls 3 8 (by norm_num) id ⟨true, 2, 1, 1⟩ rfl (fun i => (i : ℝ))).1 s.map (by rw [hs]; exact hc))
    (by rw [hsa]; simp [alphaStaticsStep, RunState.init, AlphaStatics.init])
  refine ⟨s, R, R', hr, by rw [h], by rw [h'], ?_, ?_⟩
  · rw [hR]
    have := (hv 1 (by norm_num)).1
    simpa using this
  · rw [hR']
    simp

/-- **C81**, what does not hold: a cycle after a new partition of the same number of dofs fails, although a new run on that
mesh and partition goes through. -/
theorem C81_partition_refuted (m : Method) : ∃ s, runCycles (cubeRun m false) RunState.init [cubeLevel 1] = some s ∧
    (cycle (cubeRun m false) s (cubeLevel 2)).2 = none ∧
    (cycle (cubeRun m false) RunState.init (cubeLevel 2)).2.isSome = true := by
  obtain ⟨s, R, h, -, -, -⟩ := cube_cycle m false RunState.init 1 ⟨true, 24, fun i => i⟩
    (by simp [mappingReinit, RunState.init, MapState.init]) (by simp [alphaStaticsStep, RunState.init, AlphaStatics.init])
  obtain ⟨s2, R2, h2, -, -, -⟩ := cube_cycle m false RunState.init 2 ⟨true, 24, fun i => i⟩
    (by simp [mappingReinit, RunState.init, MapState.init]) (by simp [alphaStaticsStep, RunState.init, AlphaStatics.init])
  have hr : runCycles (cubeRun m false) RunState.init [cubeLevel 1] = some s := by
    simp [runCycles, h]
  refine ⟨s, hr, ?_, by rw [h2]; rfl⟩
  rw [C81_history (cubeRun m false) [cubeLevel 1] s hr (cubeLevel 2) (by simp [cubeLevel]) rfl
    (Or.inr (by intro L' hL' c _ _; rw [List.mem_singleton.1 hL']; rfl)), if_pos]
  simp [lastChange, cubeLevel]

end PiBem.Bem
