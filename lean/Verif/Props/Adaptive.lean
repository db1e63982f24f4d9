import Verif.Bem.Adaptive
import Verif.Props.Cycles
import Verif.Props.Exact

/-!
# C95: runs with local refinement
-/

noncomputable section

namespace PiBem.Bem

open PiBem.Octree PiBem.Fmm PiBem.App PiBem.Expansion

variable {T P : Type} {d : ℕ}

/-! ## Specification -/

/-- Values of a vector at all naturals. -/
def extend {n : ℕ} (v : Vec n) : ℕ → ℝ := fun i => if h : i < n then v ⟨i, h⟩ else 0

/-- The mesh following `t`: estimates from the result of a run started on `t`, marks, refinement, conformity of the edges. No processes appear but as an argument of the
library. -/
def nextMesh (lib : Library T P d) (p : RunParams P) (procs : ℕ) (top bottom : ℝ) (t : T) : Option T :=
  (cycle p RunState.init (lib.level procs t)).2.map fun R =>
    lib.conform (lib.execute t (lib.mark (lib.nCells t) (lib.kelly procs t (extend R.phi)) top bottom))

/-- The `k`-th mesh obtained from `t0` by single runs. -/
def meshAt (lib : Library T P d) (p : RunParams P) (procs : ℕ) (top bottom : ℝ) (t0 : T) : ℕ → Option T
  | 0 => some t0
  | k + 1 => (meshAt lib p procs top bottom t0 k).bind (nextMesh lib p procs top bottom)

/-! ## One process or many -/

theorem gather_distribute (lib : Library T P d) (procs : ℕ) [NeZero procs] (t : T) (v : Vec (lib.level procs t).n) :
    lib.kelly procs t (gather (lib.owner procs t) (distribute procs (lib.owner procs t) v)) = lib.kelly procs t (extend v) := by
  refine lib.kelly_local procs t _ _ fun i hi => ?_
  simp [gather, distribute, extend, hi]

/-- A pass of the loop on equal meshes. -/
theorem loopBody_equal (lib : Library T P d) (p : RunParams P) (procs : ℕ) [NeZero procs] (top bottom : ℝ) (refine : Bool) (t : T) (st : RunState P) :
    loopBody lib p procs top bottom refine ⟨fun _ => t, st⟩ =
      (cycle p st (lib.level procs t)).2.map fun R =>
        (⟨fun _ => if refine then lib.conform (lib.execute t (lib.mark (lib.nCells t) (lib.kelly procs t (extend R.phi)) top bottom)) else t,
          (cycle p st (lib.level procs t)).1⟩, ⟨t, R⟩) := by
  unfold loopBody
  simp only [forall_const, if_true]
  congr 1
  funext R
  cases refine
  · rfl
  · simp only [if_true, adaptiveRefinement, gather_distribute]

theorem runLoop_replicated (lib : Library T P d) (p : RunParams P) (procs : ℕ) [NeZero procs] (top bottom : ℝ) (k : ℕ) (t : T) (st : RunState P)
    (x : Machine T P procs × Outcome lib procs) (h : runLoop lib p procs top bottom k ⟨fun _ => t, st⟩ = some x) :
    ∀ r, x.1.mesh r = x.2.mesh := by
  induction k generalizing t st with
  | zero =>
    rw [runLoop, loopBody_equal] at h
    obtain ⟨R, -, rfl⟩ := Option.map_eq_some_iff.1 h
    intro r; rfl
  | succ k ih =>
    rw [runLoop, loopBody_equal] at h
    obtain ⟨y, hy, h⟩ := Option.bind_eq_some_iff.1 h
    obtain ⟨R, -, rfl⟩ := Option.map_eq_some_iff.1 hy
    exact ih _ _ h

/-- **C95** (replication). Whatever the number of cycles and of processes, whenever a run goes through all the processes hold the same mesh at its end, and it is the mesh of the
result. -/
theorem C95_replicated (lib : Library T P d) (p : RunParams P) (procs : ℕ) [NeZero procs] (top bottom : ℝ) (k : ℕ) (t0 : T)
    (x : Machine T P procs × Outcome lib procs) (h : adaptiveRun lib p procs top bottom k t0 = some x) :
    ∀ r, x.1.mesh r = x.2.mesh :=
  runLoop_replicated lib p procs top bottom k t0 _ x h

/-- The run of a program with one copy of the mesh, which never compares copies nor distributes vectors. -/
def oneCopyRun (lib : Library T P d) (p : RunParams P) (procs : ℕ) (top bottom : ℝ) : ℕ → T → RunState P → Option (Outcome lib procs)
  | 0, t, st => (cycle p st (lib.level procs t)).2.map fun R => ⟨t, R⟩
  | k + 1, t, st => (cycle p st (lib.level procs t)).2.bind fun R => oneCopyRun lib p procs top bottom k
      (lib.conform (lib.execute t (lib.mark (lib.nCells t) (lib.kelly procs t (extend R.phi)) top bottom))) (cycle p st (lib.level procs t)).1

/-- **C95** (replication). The run of all the processes, each with its copy of the mesh and its part of the potential, is the run with one copy: the copies are
never different when a collective operation is entered, also with the spheroid option and on any sequence of meshes. -/
theorem C95_one_copy (lib : Library T P d) (p : RunParams P) (procs : ℕ) [NeZero procs] (top bottom : ℝ) (k : ℕ) (t0 : T) :
    (adaptiveRun lib p procs top bottom k t0).map (·.2) = oneCopyRun lib p procs top bottom k t0 RunState.init := by
  have key : ∀ k t st, (runLoop lib p procs top bottom k ⟨fun _ => t, st⟩).map (·.2) = oneCopyRun lib p procs top bottom k t st := by
    intro k
    induction k with
    | zero =>
      intro t st
      rw [runLoop, loopBody_equal, oneCopyRun]
      simp [Function.comp_def]
    | succ k ih =>
      intro t st
      rw [runLoop, loopBody_equal, oneCopyRun]
      cases hR : (cycle p st (lib.level procs t)).2 with
      | none => rfl
      | some R => simpa using ih _ _
  exact key k t0 _

/-! ## The run and new runs -/

theorem meshAt_shift (lib : Library T P d) (p : RunParams P) (procs : ℕ) (top bottom : ℝ) (t0 : T) (k : ℕ) :
    meshAt lib p procs top bottom t0 (k + 1) = (nextMesh lib p procs top bottom t0).bind fun t => meshAt lib p procs top bottom t k := by
  induction k with
  | zero =>
    simp only [meshAt, Option.bind_some]
    cases nextMesh lib p procs top bottom t0 <;> rfl
  | succ k ih =>
    rw [meshAt, ih]
    cases nextMesh lib p procs top bottom t0 <;> rfl

/-- What two meshes of one run have to do with each other for the later one to be independent of the former (C81): other number of dofs or same
partition; fast multipole method: cells active in both have the same dofs. -/
def Unrelated (lib : Library T P d) (p : RunParams P) (procs : ℕ) (t t' : T) : Prop :=
  ((lib.level procs t).n ≠ (lib.level procs t').n ∨ (lib.level procs t).part = (lib.level procs t').part) ∧
  (p.method = .direct ∨ ∀ c ∈ (lib.level procs t).mesh.active, c ∈ (lib.level procs t').mesh.active →
    (lib.level procs t).mesh.dofs c = (lib.level procs t').mesh.dofs c)

theorem cycle_after (lib : Library T P d) (p : RunParams P) (procs : ℕ) (hsph : p.spheroid.active = false) (ts : List T) (st : RunState P)
    (hrun : runCycles p RunState.init (ts.map (lib.level procs)) = some st) (t : T) (hn : 0 < (lib.level procs t).n)
    (hrel : ∀ t' ∈ ts, Unrelated lib p procs t' t) :
    (cycle p st (lib.level procs t)).2 = (cycle p RunState.init (lib.level procs t)).2 := by
  rw [C81_history p _ st hrun _ hn hsph, if_neg]
  · rintro ⟨h1, h2⟩
    rcases lastChange_mem ((ts.map (lib.level procs)).map fun L => (L.n, L.part)) with h | h
    · rw [h] at h1; simp only at h1; omega
    · obtain ⟨L', hL', he⟩ := List.mem_map.1 h
      obtain ⟨t', ht', rfl⟩ := List.mem_map.1 hL'
      rw [← he] at h1 h2
      rcases (hrel t' ht').1 with hp | hp
      · exact hp h1
      · exact h2 hp
  · by_cases hd : p.method = .direct
    · exact Or.inl hd
    · refine Or.inr fun L' hL' => ?_
      obtain ⟨t', ht', rfl⟩ := List.mem_map.1 hL'
      exact (hrel t' ht').2.resolve_left hd

theorem runLoop_new (lib : Library T P d) (p : RunParams P) (procs : ℕ) [NeZero procs] (top bottom : ℝ) (hsph : p.spheroid.active = false)
    (hn : ∀ t, 0 < (lib.level procs t).n) (k : ℕ) (t : T) (ts : List T) (st : RunState P)
    (hrun : runCycles p RunState.init (ts.map (lib.level procs)) = some st)
    (hold : ∀ t' ∈ ts, ∀ j ≤ k, ∀ u, meshAt lib p procs top bottom t j = some u → Unrelated lib p procs t' u)
    (hnew : ∀ i j u v, i < j → j ≤ k → meshAt lib p procs top bottom t i = some u → meshAt lib p procs top bottom t j = some v → Unrelated lib p procs u v) :
    (runLoop lib p procs top bottom k ⟨fun _ => t, st⟩).map (·.2) =
      (meshAt lib p procs top bottom t k).bind fun u => (cycle p RunState.init (lib.level procs u)).2.map fun R => ⟨u, R⟩ := by
  induction k generalizing t ts st with
  | zero =>
    rw [runLoop, loopBody_equal, cycle_after lib p procs hsph ts st hrun t (hn t) fun t' ht' => hold t' ht' 0 (le_refl _) t rfl]
    simp [meshAt, Function.comp_def]
  | succ k ih =>
    have hc := cycle_after lib p procs hsph ts st hrun t (hn t) fun t' ht' => hold t' ht' 0 (Nat.zero_le _) t rfl
    rw [runLoop, loopBody_equal, meshAt_shift]
    unfold nextMesh
    rw [← hc]
    cases hR : (cycle p st (lib.level procs t)).2 with
    | none => rfl
    | some R =>
      have hnext : nextMesh lib p procs top bottom t =
          some (lib.conform (lib.execute t (lib.mark (lib.nCells t) (lib.kelly procs t (extend R.phi)) top bottom))) := by
        unfold nextMesh
        rw [← hc, hR]
        rfl
      simp only [Option.map_some, Option.bind_some, if_true]
      refine ih _ (ts ++ [t]) _ ?_ ?_ ?_
      · unfold runCycles at hrun ⊢
        rw [List.map_append, List.foldlM_append, hrun]
        simp [hR]
      · intro t' ht' j hj u hu
        have hu' : meshAt lib p procs top bottom t (j + 1) = some u := by rw [meshAt_shift, hnext]; exact hu
        rcases List.mem_append.1 ht' with h | h
        · exact hold t' h (j + 1) (by omega) u hu'
        · rw [List.mem_singleton.1 h]
          exact hnew 0 (j + 1) t u (by omega) (by omega) rfl hu'
      · intro i j u v hij hj hu hv
        exact hnew (i + 1) (j + 1) u v (by omega) (by omega) (by rw [meshAt_shift, hnext]; exact hu) (by rw [meshAt_shift, hnext]; exact hv)

/-- **C95** (sequence of meshes). A run with `k` local refinement cycles goes through if and only if the new runs started separately on each of the meshes do, and its result is the one of a new run
on the last mesh, the mesh after `t` being determined by the result of a new run on `t`. -/
theorem C95_new_runs (lib : Library T P d) (p : RunParams P) (procs : ℕ) [NeZero procs] (top bottom : ℝ) (hsph : p.spheroid.active = false)
    (hn : ∀ t, 0 < (lib.level procs t).n) (k : ℕ) (t0 : T)
    (hrel : ∀ i j u v, i < j → j ≤ k → meshAt lib p procs top bottom t0 i = some u → meshAt lib p procs top bottom t0 j = some v →
      Unrelated lib p procs u v) :
    (adaptiveRun lib p procs top bottom k t0).map (·.2) =
      (meshAt lib p procs top bottom t0 k).bind fun t => (cycle p RunState.init (lib.level procs t)).2.map fun R => ⟨t, R⟩ :=
  runLoop_new lib p procs top bottom hsph hn k t0 [] RunState.init rfl (by simp) hrel

/-! ## Two numbers of processes -/

/-- Geometry seen by a new run. -/
def newGeometry (p : RunParams P) (L : Level P d) : Geometry P L.n d := L.geom (if p.mappingType = .fe then some L.positions else none)

/-- Matrices of a new run. -/
def newMatrix (p : RunParams P) (L : Level P d) (ker : Ker) : Mat L.n :=
  solveMatrix (levelInput p L (newGeometry p L) fun _ => []) (newGeometry p L).data (newGeometry p L).fmaRule
    ((newGeometry p L).denseRule ((List.range p.support.length).map fun i => (getSingularQuadrature [] p.order p.support i).2)) p.method
    (newGeometry p L).setup.owner ker

/-- Setup of a new run. -/
def newSetup (p : RunParams P) (L : Level P d) : Setup L.n d := { (newGeometry p L).setup with method := p.method, part := L.part }

theorem cycle_new (p : RunParams P) (hsph : p.spheroid.active = false) (L : Level P d) : (cycle p RunState.init L).2 =
    (solveWith (newMatrix p L .double) (newMatrix p L .single) (newSetup p L) L.gmres AlphaStatics.init (newGeometry p L).phi0 (newGeometry p L).dphi0).2 := by
  have hmap : ∃ ms', mappingReinit 3 p.mappingType p.spheroid L.n L.vo2s L.positions (RunState.init (P := P)).map = some ms' ∧
      (p.mappingType = .fe → ms'.mapVector = L.positions) := by
    unfold mappingReinit
    rw [hsph]
    by_cases hf : p.mappingType = .fe <;> simp [hf, RunState.init, MapState.init]
  obtain ⟨ms, h1, h2⟩ := hmap
  have hg : (if p.mappingType = .fe then some ms.mapVector else none) = if p.mappingType = .fe then some L.positions else none := by
    split_ifs with hf
    · rw [h2 hf]
    · rfl
  unfold cycle
  rw [h1]
  simp only []
  rw [hg]
  rfl

/-- The two levels of a mesh with `procs` and `procs'` processes are one problem up to the numbering `e` of the dofs; both linear solvers solve exactly, the system is regular, and the
estimates depend on the values at the nodes and not on their numbers. -/
structure SameProblem (lib : Library T P d) (p : RunParams P) (procs procs' : ℕ) (t : T)
    (e : Fin (lib.level procs t).n ≃ Fin (lib.level procs' t).n) (B : Finset (Fin (lib.level procs t).n)) : Prop where
  renumbered : RenumberedH e (newMatrix p (lib.level procs t) .double) (newMatrix p (lib.level procs t) .single)
    (newMatrix p (lib.level procs' t) .double) (newMatrix p (lib.level procs' t) .single) (newSetup p (lib.level procs t)) (newSetup p (lib.level procs' t))
  posed : PosedH (newMatrix p (lib.level procs t) .double) (newMatrix p (lib.level procs t) .single) (newSetup p (lib.level procs t)) B
    (newGeometry p (lib.level procs t)).phi0 (newGeometry p (lib.level procs t)).dphi0
  posed' : PosedH (newMatrix p (lib.level procs' t) .double) (newMatrix p (lib.level procs' t) .single) (newSetup p (lib.level procs' t)) (B.image e)
    (newGeometry p (lib.level procs' t)).phi0 (newGeometry p (lib.level procs' t)).dphi0
  data : Consistent (newSetup p (lib.level procs t)) B
  regular : DeterminedH (newMatrix p (lib.level procs t) .double) (newMatrix p (lib.level procs t) .single) (newSetup p (lib.level procs t)) AlphaStatics.init
    (newGeometry p (lib.level procs t)).phi0 (newGeometry p (lib.level procs t)).dphi0
  exact : ∀ R, (cycle p RunState.init (lib.level procs t)).2 = some R → ∀ i, R.residual i = 0
  exact' : ∀ R, (cycle p RunState.init (lib.level procs' t)).2 = some R → ∀ i, R.residual i = 0
  kelly : ∀ v v', (∀ i : Fin (lib.level procs t).n, v' (e i) = v i) → lib.kelly procs' t v' = lib.kelly procs t v

theorem SameProblem.result {lib : Library T P d} {p : RunParams P} (hsph : p.spheroid.active = false) {procs procs' : ℕ} {t : T}
    {e : Fin (lib.level procs t).n ≃ Fin (lib.level procs' t).n} {B : Finset (Fin (lib.level procs t).n)} (h : SameProblem lib p procs procs' t e B)
    {R : Solution (lib.level procs t).n} {R' : Solution (lib.level procs' t).n}
    (hR : (cycle p RunState.init (lib.level procs t)).2 = some R) (hR' : (cycle p RunState.init (lib.level procs' t)).2 = some R') (i : Fin (lib.level procs t).n) :
    R'.phi (e i) = R.phi i ∧ R'.dphi (e i) = R.dphi i := by
  have e1 := h.exact R hR
  have e2 := h.exact' R' hR'
  rw [cycle_new p hsph] at hR hR'
  exact C91_same_result h.renumbered _ _ [] [] _ _ _ _ _ _ R R' (Prod.ext rfl hR) (Prod.ext rfl hR') B h.posed h.posed' h.data h.regular e1 e2 i

theorem SameProblem.next {lib : Library T P d} {p : RunParams P} (hsph : p.spheroid.active = false) {procs procs' : ℕ} {t : T}
    {e : Fin (lib.level procs t).n ≃ Fin (lib.level procs' t).n} {B : Finset (Fin (lib.level procs t).n)} (h : SameProblem lib p procs procs' t e B)
    (top bottom : ℝ) {u u' : T} (hu : nextMesh lib p procs top bottom t = some u) (hu' : nextMesh lib p procs' top bottom t = some u') : u' = u := by
  unfold nextMesh at hu hu'
  obtain ⟨R, hR, rfl⟩ := Option.map_eq_some_iff.1 hu
  obtain ⟨R', hR', rfl⟩ := Option.map_eq_some_iff.1 hu'
  rw [h.kelly (extend R.phi) (extend R'.phi)]
  intro i
  have := (h.result hsph hR hR' i).1
  simpa [extend] using this

/-- **C95** (number of processes). Two runs with any numbers of processes and of cycles, started on the same mesh with exact linear solvers, work on the same
sequence of meshes and return the same potential and the same normal derivative at every node, whatever the partitions and numberings. -/
theorem C95_processes (lib : Library T P d) (p : RunParams P) (procs procs' : ℕ) [NeZero procs] [NeZero procs'] (top bottom : ℝ) (hsph : p.spheroid.active = false)
    (hn : ∀ t, 0 < (lib.level procs t).n) (hn' : ∀ t, 0 < (lib.level procs' t).n) (k : ℕ) (t0 : T)
    (hrel : ∀ i j u v, i < j → j ≤ k → meshAt lib p procs top bottom t0 i = some u → meshAt lib p procs top bottom t0 j = some v →
      Unrelated lib p procs u v)
    (hrel' : ∀ i j u v, i < j → j ≤ k → meshAt lib p procs' top bottom t0 i = some u → meshAt lib p procs' top bottom t0 j = some v →
      Unrelated lib p procs' u v)
    (e : ∀ t, Fin (lib.level procs t).n ≃ Fin (lib.level procs' t).n) (B : ∀ t, Finset (Fin (lib.level procs t).n))
    (hsame : ∀ j ≤ k, ∀ t, meshAt lib p procs top bottom t0 j = some t → SameProblem lib p procs procs' t (e t) (B t))
    (x : Machine T P procs × Outcome lib procs) (x' : Machine T P procs' × Outcome lib procs')
    (hx : adaptiveRun lib p procs top bottom k t0 = some x) (hx' : adaptiveRun lib p procs' top bottom k t0 = some x') :
    (∀ r r', x'.1.mesh r' = x.1.mesh r) ∧ ∃ h : x'.2.mesh = x.2.mesh, ∀ i,
      x'.2.sol.phi (h ▸ e x.2.mesh i) = x.2.sol.phi i ∧ x'.2.sol.dphi (h ▸ e x.2.mesh i) = x.2.sol.dphi i := by
  have hm : ∀ j ≤ k, ∀ u u', meshAt lib p procs top bottom t0 j = some u → meshAt lib p procs' top bottom t0 j = some u' → u' = u := by
    intro j
    induction j with
    | zero =>
      intro _ u u' hu hu'
      simp only [meshAt, Option.some.injEq] at hu hu'
      rw [← hu, ← hu']
    | succ j ih =>
      intro hj u u' hu hu'
      obtain ⟨v, hv, hu⟩ := Option.bind_eq_some_iff.1 hu
      obtain ⟨v', hv', hu'⟩ := Option.bind_eq_some_iff.1 hu'
      have := ih (by omega) v v' hv hv'
      subst this
      exact (hsame j (by omega) _ hv).next hsph top bottom hu hu'
  have r1 := C95_replicated lib p procs top bottom k t0 x hx
  have r2 := C95_replicated lib p procs' top bottom k t0 x' hx'
  have n1 := C95_new_runs lib p procs top bottom hsph hn k t0 hrel
  have n2 := C95_new_runs lib p procs' top bottom hsph hn' k t0 hrel'
  obtain ⟨m, t, sol⟩ := x
  obtain ⟨m', t', sol'⟩ := x'
  rw [hx, Option.map_some, eq_comm, Option.bind_eq_some_iff] at n1
  rw [hx', Option.map_some, eq_comm, Option.bind_eq_some_iff] at n2
  obtain ⟨u, hu, n1⟩ := n1
  obtain ⟨u', hu', n2⟩ := n2
  obtain ⟨R, hR, n1⟩ := Option.map_eq_some_iff.1 n1
  obtain ⟨R', hR', n2⟩ := Option.map_eq_some_iff.1 n2
  obtain ⟨rfl, n1⟩ := Outcome.mk.inj n1
  obtain ⟨rfl, n2⟩ := Outcome.mk.inj n2
  have := hm k (le_refl k) _ _ hu hu'
  subst this
  obtain rfl := eq_of_heq n1
  obtain rfl := eq_of_heq n2
  exact ⟨fun r r' => by rw [r1, r2], rfl, (hsame k (le_refl k) _ hu).result hsph hR hR'⟩

/-! ## Inexact solves -/

/-- What the library documents of `refine_and_coarsen_fixed_number`, as far as it is used here: if `k` cells have positive estimates larger than all the others, with `k` the integer part
of the number of cells times the fraction to be refined, exactly these are marked to be refined; if this integer is 0 none is. -/
structure FixedNumber (mark : ℕ → (ℕ → ℝ) → ℝ → ℝ → ℕ → Bool × Bool) : Prop where
  top : ∀ (N : ℕ) (e : ℕ → ℝ) (top bottom : ℝ) (A : Finset ℕ), A ⊆ Finset.range N → A.card = ⌊top * N⌋₊ → (∀ a ∈ A, 0 < e a) → (∀ a ∈ A, ∀ b ∈ Finset.range N \ A, e b < e a) →
    ∀ c < N, (mark N e top bottom c).1 = decide (c ∈ A)
  none : ∀ (N : ℕ) (e : ℕ → ℝ) (top bottom : ℝ), ⌊top * N⌋₊ = 0 → ∀ c < N, (mark N e top bottom c).1 = false

/-- **C95** (marks). If two runs have estimates that differ by at most `δ` in every cell, and in one of them the estimates of the cells to be refined are larger than those of the others by
more than `2δ` and larger than `δ`, both mark the same cells. -/
theorem C95_marks_stable (mark : ℕ → (ℕ → ℝ) → ℝ → ℝ → ℕ → Bool × Bool) (hm : FixedNumber mark) (N : ℕ) (top bottom δ : ℝ) (hδ : 0 ≤ δ) (e e' : ℕ → ℝ)
    (h : ∀ c < N, |e' c - e c| ≤ δ) (A : Finset ℕ) (hA : A ⊆ Finset.range N) (hk : A.card = ⌊top * N⌋₊) (hpos : ∀ a ∈ A, δ < e a)
    (hgap : ∀ a ∈ A, ∀ b ∈ Finset.range N \ A, e b + 2 * δ < e a) :
    ∀ c < N, (mark N e' top bottom c).1 = decide (c ∈ A) ∧ (mark N e top bottom c).1 = decide (c ∈ A) := by
  have hN : ∀ a ∈ A, a < N := fun a ha => Finset.mem_range.1 (hA ha)
  intro c hc
  constructor
  · refine hm.top N e' top bottom A hA hk (fun a ha => ?_) (fun a ha b hb => ?_) c hc
    · have := (abs_le.1 (h a (hN a ha))).1
      linarith [hpos a ha]
    · have h1 := (abs_le.1 (h a (hN a ha))).1
      have h2 := (abs_le.1 (h b (Finset.mem_range.1 (Finset.mem_sdiff.1 hb).1))).2
      linarith [hgap a ha b hb]
  · exact hm.top N e top bottom A hA hk (fun a ha => by linarith [hpos a ha]) (fun a ha b hb => by linarith [hgap a ha b hb]) c hc

/-- **C95** (what does not hold). However close the estimates of two runs are, they may mark different cells: the sequence of meshes does depend on the number of processes if the linear systems
are not solved exactly. -/
theorem C95_marks_refuted (mark : ℕ → (ℕ → ℝ) → ℝ → ℝ → ℕ → Bool × Bool) (hm : FixedNumber mark) (δ : ℝ) (hδ : 0 < δ) :
    ∃ (N : ℕ) (top : ℝ) (e e' : ℕ → ℝ), 0 < top ∧ top < 1 ∧ (∀ c, 0 < e c ∧ 0 < e' c) ∧ (∀ c, |e' c - e c| ≤ δ) ∧
      ∀ bottom, ∃ c < N, (mark N e top bottom c).1 ≠ (mark N e' top bottom c).1 := by
  refine ⟨2, 1 / 2, fun c => if c = 0 then 1 + δ else 1, fun c => if c = 0 then 1 else 1 + δ, by norm_num, by norm_num, fun c => ?_, fun c => ?_, fun bottom =>
    ⟨0, by norm_num, ?_⟩⟩
  · simp only []
    constructor <;> split_ifs <;> linarith
  · simp only []
    split_ifs <;> simp [abs_of_pos hδ]
  · have hk : ⌊(1 / 2 : ℝ) * (2 : ℕ)⌋₊ = 1 := by norm_num
    rw [hm.top 2 _ _ bottom {0} (by decide) (by rw [hk]; rfl) (by simp; linarith) (by
        intro a ha b hb
        have ha : a = 0 := by simpa using ha
        have hb : b ≠ 0 := by simp at hb; exact hb.2
        simp [ha, hb, hδ]) 0 (by norm_num),
      hm.top 2 _ _ bottom {1} (by decide) (by rw [hk]; rfl) (by simp; linarith) (by
        intro a ha b hb
        have ha : a = 1 := by simpa using ha
        have hb : b = 0 := by simp at hb; omega
        simp [ha, hb, hδ]) 0 (by norm_num)]
    simp

/-! ## The hypotheses are met -/

/-- A choice of the cells to be refined. -/
def markTop (N : ℕ) (e : ℕ → ℝ) (top _bottom : ℝ) (c : ℕ) : Bool × Bool :=
  (open Classical in decide (0 < e c ∧ ((Finset.range N).filter fun b => e c < e b).card < ⌊top * N⌋₊), false)

theorem markTop_fixedNumber : FixedNumber markTop := by
  constructor
  · intro N e top bottom A hA hk hpos hgap c hc
    simp only [markTop]
    rw [← hk, decide_eq_decide]
    constructor
    · rintro ⟨-, h⟩
      by_contra hcA
      refine absurd h (not_lt.2 (Finset.card_le_card fun a ha => ?_))
      exact Finset.mem_filter.2 ⟨hA ha, hgap a ha c (Finset.mem_sdiff.2 ⟨Finset.mem_range.2 hc, hcA⟩)⟩
    · intro hcA
      refine ⟨hpos c hcA, Finset.card_lt_card ⟨fun b hb => ?_, fun h => ?_⟩⟩
      · obtain ⟨hb, hlt⟩ := Finset.mem_filter.1 hb
        by_contra hbA
        exact absurd (hgap c hcA b (Finset.mem_sdiff.2 ⟨hb, hbA⟩)) (not_lt.2 hlt.le)
      · exact lt_irrefl _ (Finset.mem_filter.1 (h hcA)).2
  · intro N e top bottom hk c _
    simp [markTop, hk]

/-- Numbering of two dofs, exchanged if there are two processes. -/
def edgeSwap (procs : ℕ) : Equiv.Perm ℕ := if procs = 2 then Equiv.swap 0 1 else 1

/-- The same for the indices of vectors. -/
def edgeOrder (procs : ℕ) : Equiv.Perm (Fin 2) := if procs = 2 then Equiv.swap 0 1 else 1

/-- The edge of C83 as a mesh of a run. -/
def edgeLevel (D : Data) (S S' : SingRule) (m : Method) (procs : ℕ) : Level Unit 3 where
  n := 2
  part := procs
  mesh := ⟨[0, 1], fun c => [edgeSwap procs c]⟩
  nq := 1
  vo2s := id
  positions := 0
  geom := fun _ => ⟨fun _ => 0, fun q => ![q.1 + 1, 0, 0], fun _ => Finset.range 2, D, S, fun _ => S', pointSetup m procs (edgeNodes (edgeOrder procs)),
    fun _ => 5, 0⟩
  gmres := fun _ _ i => if edgeOrder procs i = 0 then 7 else 3

/-- Meshes are numbers, cell 1 has the larger estimate. -/
def edgeLibrary (D : Data) (S S' : SingRule) (m : Method) : Library ℕ Unit 3 where
  level := fun procs _ => edgeLevel D S S' m procs
  owner := fun procs _ _ i => ⟨i % procs, Nat.mod_lt _ (Nat.pos_of_ne_zero (NeZero.ne procs))⟩
  nCells := fun _ => 2
  kelly := fun procs _ v c => if c < 2 then |v (edgeSwap procs c)| * (c + 1) else 0
  kelly_local := by
    intro procs t v v' h
    funext c
    by_cases hc : c < 2
    · simp only [hc, if_true]
      rw [h]
      show edgeSwap procs c < 2
      unfold edgeSwap
      split_ifs
      · interval_cases c <;> simp
      · simpa using hc
    · simp [hc]
  mark := markTop
  execute := fun t flags => if (flags 1).1 = true ∧ (flags 0).1 = false then t + 1 else t
  conform := fun t => 2 * t

def edgeRun (m : Method) : RunParams Unit := ⟨m, .q, ⟨false, 1, 1, 1⟩, 5, [()], 1, 4⟩

theorem edge_posed (D : Data) (S S' : SingRule) (m : Method) (procs : ℕ) :
    PosedH (newMatrix (edgeRun m) (edgeLevel D S S' m procs) .double) (newMatrix (edgeRun m) (edgeLevel D S S' m procs) .single)
      (newSetup (edgeRun m) (edgeLevel D S S' m procs)) Finset.univ (fun _ => 5) 0 where
  dirichlet := fun i => (if_pos (Finset.mem_univ i)).symm
  neumann := fun i => (if_pos (Finset.mem_univ i)).symm
  bc := rfl
  phi := fun _ _ => rfl
  dphi := by simp
  refl := fun i => Finset.mem_univ _
  eq := fun i j _ => rfl
  rows := C91_rows3 (levelInput (edgeRun m) (edgeLevel D S S' m procs) (newGeometry (edgeRun m) (edgeLevel D S S' m procs)) fun _ => []) D S S'
    (newSetup (edgeRun m) (edgeLevel D S S' m procs)) fun i j _ => ⟨rfl, rfl⟩
  alone := fun i h => absurd rfl h
  order := fun i => List.mem_finRange i

theorem edge_consistent' (D : Data) (S S' : SingRule) (m : Method) (procs : ℕ) :
    Consistent (newSetup (edgeRun m) (edgeLevel D S S' m procs)) Finset.univ :=
  edge_consistent m procs (edgeOrder procs).injective

/-- Exact results on the edge. -/
theorem edge_exact (D : Data) (S S' : SingRule) (m : Method) (procs : ℕ) (gmres : (Vec 2 → Vec 2) → Vec 2 → Vec 2) (st : AlphaStatics) (X : Solution 2)
    (h : solveWith (newMatrix (edgeRun m) (edgeLevel D S S' m procs) .double) (newMatrix (edgeRun m) (edgeLevel D S S' m procs) .single)
      (newSetup (edgeRun m) (edgeLevel D S S' m procs)) gmres (alphaHistory []) (fun _ => 5) 0 = (st, some X)) :
    X.phi = (fun _ => 5) ∧ ((∀ i, X.residual i = 0) ↔ X.dphi = fun i => if edgeOrder procs i = 0 then 7 else 3) := by
  have hP := edge_posed D S S' m procs
  have hphi : X.phi = fun _ => 5 := by
    obtain ⟨-, -, p1, -⟩ := solveWith_rows h Finset.univ hP.dirichlet hP.neumann hP.bc hP.phi hP.dphi
    rw [p1]
    funext i
    exact if_pos (Finset.mem_univ i)
  have hex : ∀ i : Fin 2, ∃ j : Fin 2, j ≠ i := by
    have : Nontrivial (Fin 2) := Fin.nontrivial_iff_two_le.2 le_rfl
    exact fun i => exists_ne i
  have hg : ∀ i : Fin 2, GradientNode (newSetup (edgeRun m) (edgeLevel D S S' m procs)) Finset.univ i := by
    intro i
    obtain ⟨j, hj⟩ := hex i
    exact ⟨rfl, i, Finset.mem_univ _, j, Finset.mem_univ _, Finset.mem_univ _, Finset.mem_univ _, hj.symm⟩
  refine ⟨hphi, ?_⟩
  rw [C91_exact_solutions _ _ _ gmres [] st _ _ X h _ hP (edge_consistent' D S S' m procs)]
  constructor
  · rintro ⟨-, -, h3, -⟩
    funext i
    obtain ⟨j, hj⟩ := hex i
    have := h3 rfl i (Finset.mem_univ i) j (Finset.mem_univ j) (Finset.mem_univ j) hj
    rw [← Option.some.injEq, ← this]
    exact (edge_gradient ((edgeOrder procs).injective.ne hj.symm))
  · intro hd
    refine ⟨fun i _ h => absurd (hg i) h, fun i j _ => by rw [hphi], fun _ i _ j _ _ hj => ?_, fun i es h => by cases h⟩
    rw [hd]
    exact (edge_gradient ((edgeOrder procs).injective.ne hj.symm))

theorem edge_cycle (D : Data) (S S' : SingRule) (m : Method) (procs : ℕ) :
    ∃ R, (cycle (edgeRun m) RunState.init (edgeLevel D S S' m procs)).2 = some R ∧ R.phi = (fun _ => 5) ∧
      (R.dphi = fun i => if edgeOrder procs i = 0 then 7 else 3) ∧ ∀ i, R.residual i = 0 := by
  rw [cycle_new _ rfl]
  obtain ⟨st, X0, h0⟩ := Plane.solveWith_some (newMatrix (edgeRun m) (edgeLevel D S S' m procs) .double) (newMatrix (edgeRun m) (edgeLevel D S S' m procs) .single)
    (C := newSetup (edgeRun m) (edgeLevel D S S' m procs)) (edgeLevel D S S' m procs).gmres (st := alphaHistory []) (fun _ => 5) 0
    (by simp [alphaHistory, alphaStaticsStep, AlphaStatics.init, edgeLevel, newSetup])
    (point_lines m procs (edgeNodes (edgeOrder procs)) fun _ => rfl)
  obtain ⟨X, h, hsol⟩ := solveWith_any h0 (fun i => if edgeOrder procs i = 0 then 7 else 3)
  have hP := edge_posed D S S' m procs
  obtain ⟨-, -, -, p2, -⟩ := solveWith_rows h Finset.univ hP.dirichlet hP.neumann hP.bc hP.phi hP.dphi
  have hd : X.dphi = fun i => if edgeOrder procs i = 0 then 7 else 3 := by
    rw [p2, hsol]
    funext i
    exact if_pos (Finset.mem_univ i)
  obtain ⟨e1, e2⟩ := edge_exact D S S' m procs _ st X h
  exact ⟨X, congrArg Prod.snd h, e1, hd, e2.2 hd⟩

theorem edge_determined' (D : Data) (S S' : SingRule) (m : Method) (procs : ℕ) :
    DeterminedH (newMatrix (edgeRun m) (edgeLevel D S S' m procs) .double) (newMatrix (edgeRun m) (edgeLevel D S S' m procs) .single)
      (newSetup (edgeRun m) (edgeLevel D S S' m procs)) AlphaStatics.init (fun _ => 5) 0 := by
  intro g₁ g₂ st₁ st₂ X₁ X₂ h₁ h₂ r₁ r₂
  obtain ⟨a1, a2⟩ := edge_exact D S S' m procs _ st₁ X₁ h₁
  obtain ⟨b1, b2⟩ := edge_exact D S S' m procs _ st₂ X₂ h₂
  exact ⟨a1.trans b1.symm, (a2.1 r₁).trans (b2.1 r₂).symm⟩

theorem edgeSwap_bound (procs i : ℕ) : edgeSwap procs i < 2 ↔ i < 2 := by
  unfold edgeSwap
  split_ifs
  · rcases eq_or_ne i 0 with rfl | h1
    · simp
    · rcases eq_or_ne i 1 with rfl | h2
      · simp
      · rw [Equiv.swap_apply_of_ne_of_ne h1 h2]
  · simp

theorem edge_renumbered (D : Data) (S S' : SingRule) (m : Method) (procs : ℕ) :
    Renumbered (edgeSwap procs) (levelInput (edgeRun m) (edgeLevel D S S' m 1) (newGeometry (edgeRun m) (edgeLevel D S S' m 1)) fun _ => [])
      (levelInput (edgeRun m) (edgeLevel D S S' m procs) (newGeometry (edgeRun m) (edgeLevel D S S' m procs)) fun _ => []) := by
  refine ⟨rfl, edgeSwap_bound procs, fun _ => rfl, rfl, rfl, rfl, fun c => ?_, fun i => ?_, rfl, rfl, fun _ => rfl⟩
  · simp [levelInput, edgeLevel, edgeSwap]
  · ext j
    simp only [levelInput, newGeometry, edgeLevel, Finset.mem_range, Finset.mem_image]
    exact ⟨fun h => ⟨(edgeSwap procs).symm j, by rw [← edgeSwap_bound procs]; simpa using h, by simp⟩, fun ⟨k, hk, e⟩ => e ▸ (edgeSwap_bound procs k).2 hk⟩

theorem edge_same (D : Data) (S S' : SingRule) (m : Method) (t : ℕ) :
    SameProblem (edgeLibrary D S S' m) (edgeRun m) 1 2 t (renumEquiv (edge_renumbered D S S' m 2)) Finset.univ := by
  have hsw : ∀ i : Fin 2, edgeOrder 2 (renum (edge_renumbered D S S' m 2) i) = i := by
    intro i
    fin_cases i <;> rfl
  refine ⟨C91_dimension3 (C := newSetup (edgeRun m) (edgeLevel D S S' m 1)) (C' := newSetup (edgeRun m) (edgeLevel D S S' m 2)) (edge_renumbered D S S' m 2) D S S' ⟨rfl, fun _ => rfl, fun i => ?_, fun i => ?_, rfl, fun i => ?_⟩ (fun _ _ => rfl) (fun i es h => by cases h),
    edge_posed D S S' m 1, ?_, edge_consistent' D S S' m 1, edge_determined' D S S' m 1, ?_, ?_, ?_⟩
  · exact congrArg (fun k : Fin 2 => if k = 0 then (![1, 0, 0] : Fin 3 → ℝ) else ![0, 1, 0]) (hsw i)
  · exact congrArg (fun k : Fin 2 => if k = 0 then (![0, 3, 0] : Fin 3 → ℝ) else ![7, 0, 0]) (hsw i)
  · exact (Finset.image_univ_of_surjective (renum_surjective (edge_renumbered D S S' m 2))).symm
  · have hu : Finset.univ.image (renumEquiv (edge_renumbered D S S' m 2)) = Finset.univ :=
      Finset.image_univ_of_surjective (renumEquiv (edge_renumbered D S S' m 2)).surjective
    have := edge_posed D S S' m 2
    exact Eq.mp (congrArg (fun B => PosedH (newMatrix (edgeRun m) (edgeLevel D S S' m 2) .double) (newMatrix (edgeRun m) (edgeLevel D S S' m 2) .single)
      (newSetup (edgeRun m) (edgeLevel D S S' m 2)) B (fun _ => 5) 0) hu.symm) this
  · intro R hR
    obtain ⟨R0, h0, -, -, hr⟩ := edge_cycle D S S' m 1
    rw [show (cycle (edgeRun m) RunState.init ((edgeLibrary D S S' m).level 1 t)).2 = some R0 from h0] at hR
    cases hR
    exact hr
  · intro R hR
    obtain ⟨R0, h0, -, -, hr⟩ := edge_cycle D S S' m 2
    rw [show (cycle (edgeRun m) RunState.init ((edgeLibrary D S S' m).level 2 t)).2 = some R0 from h0] at hR
    cases hR
    exact hr
  · intro v v' h
    funext c
    simp only [edgeLibrary]
    split_ifs with hc
    · have := h ⟨c, hc⟩
      rw [show v' (edgeSwap 2 c) = v c from this]
      simp [edgeSwap]
    · rfl

theorem edge_next (D : Data) (S S' : SingRule) (m : Method) (procs : ℕ) (bottom : ℝ) (t : ℕ) :
    nextMesh (edgeLibrary D S S' m) (edgeRun m) procs (1 / 2) bottom t = some (2 * (t + 1)) := by
  obtain ⟨R, hR, hphi, -, -⟩ := edge_cycle D S S' m procs
  refine (congrArg (Option.map _) hR).trans ?_
  have hk : ∀ c < 2, (edgeLibrary D S S' m).kelly procs t (extend R.phi) c = 5 * (c + 1) := by
    intro c hc
    show (if c < 2 then |extend R.phi (edgeSwap procs c)| * ((c : ℝ) + 1) else 0) = 5 * (c + 1)
    rw [if_pos hc, hphi]
    have : edgeSwap procs c < (edgeLevel D S S' m procs).n := (edgeSwap_bound procs c).2 hc
    simp [extend, this]
  have hf : ⌊(1 / 2 : ℝ) * (2 : ℕ)⌋₊ = 1 := by norm_num
  have hm : ∀ c < 2, (markTop 2 ((edgeLibrary D S S' m).kelly procs t (extend R.phi)) (1 / 2) bottom c).1 = decide (c ∈ ({1} : Finset ℕ)) := by
    refine markTop_fixedNumber.top 2 _ (1 / 2) bottom {1} (by decide) (by rw [hf]; rfl) ?_ ?_
    · intro a ha
      rw [Finset.mem_singleton.1 ha, hk 1 (by norm_num)]
      norm_num
    · intro a ha b hb
      have hb : b = 0 := by simp at hb; omega
      rw [Finset.mem_singleton.1 ha, hb, hk 1 (by norm_num), hk 0 (by norm_num)]
      norm_num
  have h0 := hm 0 (by norm_num)
  have h1 := hm 1 (by norm_num)
  have hif : ∀ a b : Bool, a = true → b = false → (if a = true ∧ b = false then t + 1 else t) = t + 1 := by
    rintro _ _ rfl rfl; rfl
  exact congrArg (fun x => some (2 * x)) (hif _ _ (h1.trans (by decide)) (h0.trans (by decide)))

theorem edge_meshAt (D : Data) (S S' : SingRule) (m : Method) (procs : ℕ) (bottom : ℝ) (t0 k : ℕ) :
    ∃ t, t0 + k ≤ t ∧ meshAt (edgeLibrary D S S' m) (edgeRun m) procs (1 / 2) bottom t0 k = some t := by
  induction k with
  | zero => exact ⟨t0, le_refl _, rfl⟩
  | succ k ih =>
    obtain ⟨t, h1, h2⟩ := ih
    refine ⟨2 * (t + 1), by omega, ?_⟩
    rw [meshAt, h2, Option.bind_some, edge_next D S S' m procs]

theorem edge_unrelated (D : Data) (S S' : SingRule) (m : Method) (procs u v : ℕ) : Unrelated (edgeLibrary D S S' m) (edgeRun m) procs u v :=
  ⟨Or.inr rfl, Or.inr fun _ _ _ => rfl⟩

/-- Non-vacuity of C95: on the edge, runs of any number of cycles on one and on two processes, with exchanged dofs, go through, the mesh changes in every cycle, and C95 applies to them. -/
example (D : Data) (S S' : SingRule) (m : Method) (bottom : ℝ) (k t0 : ℕ) :
    ∃ x x', adaptiveRun (edgeLibrary D S S' m) (edgeRun m) 1 (1 / 2) bottom k t0 = some x ∧
      adaptiveRun (edgeLibrary D S S' m) (edgeRun m) 2 (1 / 2) bottom k t0 = some x' ∧ t0 + k ≤ x.2.mesh ∧
      (∀ r r', x'.1.mesh r' = x.1.mesh r) ∧ (renumEquiv (edge_renumbered D S S' m 2) (0 : Fin 2) : ℕ) = 1 := by
  have hrun : ∀ procs [NeZero procs], ∃ x, adaptiveRun (edgeLibrary D S S' m) (edgeRun m) procs (1 / 2) bottom k t0 = some x ∧
      t0 + k ≤ x.2.mesh := by
    intro procs _
    have h := C95_new_runs (edgeLibrary D S S' m) (edgeRun m) procs (1 / 2) bottom rfl (fun _ => Nat.zero_lt_two) k t0
      (fun _ _ u v _ _ _ _ => edge_unrelated D S S' m procs u v)
    obtain ⟨t, ht, hm⟩ := edge_meshAt D S S' m procs bottom t0 k
    obtain ⟨R, hR, -⟩ := edge_cycle D S S' m procs
    rw [hm, Option.bind_some] at h
    replace h := h.trans (congrArg (Option.map _) hR)
    obtain ⟨x, hx, hx'⟩ := Option.map_eq_some_iff.1 h
    exact ⟨x, hx, by rw [hx']; exact ht⟩
  obtain ⟨x, hx, ht⟩ := hrun 1
  obtain ⟨x', hx', -⟩ := hrun 2
  refine ⟨x, x', hx, hx', ht, ?_, rfl⟩
  exact (C95_processes (edgeLibrary D S S' m) (edgeRun m) 1 2 (1 / 2) bottom rfl (fun _ => Nat.zero_lt_two) (fun _ => Nat.zero_lt_two) k t0
    (fun _ _ u v _ _ _ _ => edge_unrelated D S S' m 1 u v) (fun _ _ u v _ _ _ _ => edge_unrelated D S S' m 2 u v)
    (fun _ => renumEquiv (edge_renumbered D S S' m 2)) (fun _ => Finset.univ) (fun _ _ t _ => edge_same D S S' m t) x x' hx hx').1

/-- Non-vacuity of the theorem on marks: estimates 1, 4, 2 and 9/8, 4, 2, a third of the cells. -/
example : (markTop 3 (fun c => if c = 0 then 1 else if c = 1 then 4 else 2) (1 / 3) 0 1).1 = true ∧
    (markTop 3 (fun c => if c = 0 then 9 / 8 else if c = 1 then 4 else 2) (1 / 3) 0 1).1 = true := by
  have := C95_marks_stable markTop markTop_fixedNumber 3 (1 / 3) 0 (1 / 8) (by norm_num) (fun c => if c = 0 then 1 else if c = 1 then 4 else 2)
    (fun c => if c = 0 then 9 / 8 else if c = 1 then 4 else 2) (by
      intro c _
      split_ifs <;> norm_num [abs_of_pos]) {1} (by decide) (by norm_num) (by simp; norm_num) (by
      intro a ha b hb
      have ha : a = 1 := by simpa using ha
      have hb : b = 0 ∨ b = 2 := by
        simp at hb
        omega
      rcases hb with rfl | rfl <;> simp [ha] <;> norm_num) 1 (by norm_num)
  exact ⟨this.2, this.1⟩

end PiBem.Bem
