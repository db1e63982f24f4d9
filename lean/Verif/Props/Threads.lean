import Verif.Fmm.ThreadsDown
import Verif.Props.Linear

/-!
# Theorems: C98, threads at the level of single memory accesses

`Phase.Runs (allPhases inp D (build inp) own vs) m m'`: from the memory `m` the setup and then the products with the vectors of
the list `vs` end with the memory `m'`, for some interleaving of the single reads and writes of all the threads of every
`WorkStream::run` and `tbb::parallel_for` (any number of threads, any order of items, any chunks, copy data objects recycled).
`ConflictIn`: in some execution two threads are about to access the same location and one of them to write it. `HarmIn`: and
a thread is about to change what the location contains.
-/

noncomputable section

namespace PiBem.Fmm

open PiBem.Octree PiBem.WorkStream PiBem.Expansion PiBem.Threads PiBem.Threads.Phase

variable {inp : Input 3} {D : Data} {own : ℕ → Bool}

theorem ready_keys {T : St 3} (t : Tree inp T) {M : ℕ → Multiset Contr} {E : Ker → NMoments} {m : FMem} (h : Ready inp M E m)
    (hE : ∀ k, NMomentsExec inp D k T (E k)) : Keys inp T m := by
  intro k b hb hc
  obtain ⟨v, hv⟩ := moments_key t (hE k) hb hc
  rw [← h.2 k] at hv
  unfold elemOf at hv
  by_contra hn
  rw [if_neg hn] at hv
  cases hv

theorem product_ok (hlev : 1 ≤ inp.levels) (v : Ker → ℕ → ℝ) {M : ℕ → Multiset Contr} {E : Ker → NMoments} {m : FMem}
    (h : Ready inp M E m) (hM : DirectExec inp (build inp) own M) (hE : ∀ k, NMomentsExec inp D k (build inp) (E k)) :
    AllOk unsync (productPhases inp D (build inp) own v) m fun m' => Ready inp M E m' ∧ ∀ k, ∃ out,
      NFmmExec inp { D with sol := v k } k (build inp) own out ∧ ∀ i, i < inp.nDofs → m' (.prod k i) = out i := by
  have t := build_tree (Or.inr rfl) inp
  have hready : ∀ {m m' : FMem}, Ready inp M E m → (∀ i, m' (.mat i) = m (.mat i)) → (∀ k, m' (.elemKeys k) = m (.elemKeys k)) →
      (∀ k b, m' (.elem k b) = m (.elem k b)) → Ready inp M E m' := by
    intro m m' h h1 h2 h3
    refine ⟨?_, fun k => ?_⟩
    · rw [← h.1]; funext i; unfold matOf; rw [h1]
    · rw [← h.2 k]; funext b; unfold elemOf; rw [h2, h3]
  unfold productPhases
  refine AllOk.append (ascend_ok t (vals := v) (D := D) (ready_keys t h hE)) ?_
  rintro m1 ⟨f1, e1⟩
  have hr1 : Ready inp M E m1 := hready h (fun i => f1 _ (by rintro _ _ (h | h | ⟨_, _, h⟩) <;> cases h))
    (fun k => f1 _ (by rintro _ _ (h | h | ⟨_, _, h⟩) <;> cases h))
    (fun k b => f1 _ (by rintro _ _ (h | h | ⟨_, _, h⟩) <;> cases h))
  refine (descend_ok hlev m1).mono ?_
  rintro m2 ⟨f2, e2⟩
  refine ⟨hready hr1 (fun i => f2 _ (by rintro ⟨_, _, h⟩; cases h) (by rintro _ _ (h | h | ⟨_, _, h⟩) <;> cases h))
    (fun k => f2 _ (by rintro ⟨_, _, h⟩; cases h) (by rintro _ _ (h | h | ⟨_, _, h⟩) <;> cases h))
    (fun k b => f2 _ (by rintro ⟨_, _, h⟩; cases h) (by rintro _ _ (h | h | ⟨_, _, h⟩) <;> cases h)), fun k => ?_⟩
  obtain ⟨s, hs, ho⟩ := e2 k
  refine ⟨outOf inp m2 k, ⟨M, E k, expOf D (build inp) (.mul k) m1, s, (build inp).childless, hM, hE k, ?_, ?_,
    List.Perm.refl _, ho⟩, fun i hi => (if_pos hi).symm⟩
  · rw [← h.2 k]; exact e1 k
  · rw [← hr1.1]; exact hs

theorem all_ok (hlev : 1 ≤ inp.levels) (vs : List (Ker → ℕ → ℝ)) (m : FMem) :
    AllOk unsync (allPhases inp D (build inp) own vs) m fun m' => ∀ v ∈ vs.getLast?, ∀ k, ∃ out,
      NFmmExec inp { D with sol := v k } k (build inp) own out ∧ ∀ i, i < inp.nDofs → m' (.prod k i) = out i := by
  unfold allPhases
  refine AllOk.append (setup_ok (build_tree (Or.inr rfl) inp) m) ?_
  rintro m1 ⟨M, E, hM, hE, hr⟩
  induction vs generalizing m1 with
  | nil => exact .nil (by simp)
  | cons v t ih =>
    rw [List.flatMap_cons]
    refine AllOk.append (product_ok hlev v hr hM hE) ?_
    rintro m2 ⟨hr2, e2⟩
    rcases t with _ | ⟨w, t⟩
    · refine .nil fun u hu => ?_
      simp only [List.getLast?_singleton, Option.mem_def, Option.some.injEq] at hu
      subst hu; exact e2
    · refine (ih m2 hr2).mono fun m3 h3 u hu => h3 u ?_
      rw [List.getLast?_cons_cons] at hu
      exact hu

/-- **C98** (results). Whatever was computed before, the product with the vectors `v` leaves in the two product vectors, for
every interleaving of the single memory accesses of all the threads, the result of an execution in which the calls of workers
and copiers and the iterations of the parallel loops are indivisible. -/
theorem C98_interleaving (hlev : 1 ≤ inp.levels) (vs : List (Ker → ℕ → ℝ)) (v : Ker → ℕ → ℝ) (m m' : FMem)
    (hr : Runs (allPhases inp D (build inp) own (vs ++ [v])) m m') (k : Ker) :
    ∃ out, NFmmExec inp { D with sol := v k } k (build inp) own out ∧ ∀ i, i < inp.nDofs → m' (.prod k i) = out i :=
  (all_ok hlev (vs ++ [v]) m).post hr v (by simp) k

/-- **C98** (no race but on three locations). In no execution two threads are about to make conflicting accesses to a location
other than the two members of the static `LocalExpansion::mExp_to_lExp_Coeff` and the timer of the descending phase; and in
every conflict the threads that write are about to write what the location contains. -/
theorem C98_conflicts (hlev : 1 ≤ inp.levels) (vs : List (Ker → ℕ → ℝ)) (m : FMem) (x : Loc) :
    (ConflictIn (allPhases inp D (build inp) own vs) m x → x = .tabP ∨ x = .tabPtr ∨ x = .timer) ∧
    ¬ HarmIn (allPhases inp D (build inp) own vs) m x :=
  ⟨fun h => (all_ok hlev vs m).conflict h, (all_ok hlev vs m).harm x⟩

/-- **C98** (executions exist). -/
theorem C98_ends (hlev : 1 ≤ inp.levels) (vs : List (Ker → ℕ → ℝ)) (m : FMem) :
    ∃ m', Runs (allPhases inp D (build inp) own vs) m m' := (all_ok hlev vs m).ends

/-- **C98** (one matrix). There is one matrix for each kernel such that every product of every sequence of products, for every
interleaving, contains its product with the vector in the owned rows: the memory accesses of the threads do not influence the
result, nor do the previous products and the initial contents of the memory. -/
theorem C98_fixed_matrix (hlev : 1 ≤ inp.levels) (hdof : ∀ c k, k ∈ inp.cellDofs c → k < inp.nDofs) :
    ∃ K : Ker → ℕ → ℕ → ℝ, ∀ (own : ℕ → Bool) (vs : List (Ker → ℕ → ℝ)) (v : Ker → ℕ → ℝ) (m m' : FMem),
      Runs (allPhases inp D (build inp) own (vs ++ [v])) m m' → ∀ k i, i < inp.nDofs → own i = true →
      m' (.prod k i) = ∑ j ∈ Finset.range inp.nDofs, K k i j * v k j := by
  refine ⟨fun k => fmaMatrix inp D k, fun own vs v m m' hr k i hi ho => ?_⟩
  obtain ⟨out, hx, he⟩ := C98_interleaving hlev vs v m m' hr k
  rw [he i hi]
  exact fma_eq hdof (v k) own out hx i ho

/-! ## The races -/

theorem local_race {T : St 3} (hc : 2 ≤ T.count) (m : FMem) :
    (Phase.par (tLocalCreate D T) (List.range T.count)).Conflict m .tabP := by
  obtain ⟨n, hn⟩ : ∃ n, T.count = n + 2 := ⟨T.count - 2, by omega⟩
  set rest := (List.range (n + 1)).map Nat.succ with hrest
  have hr : List.range T.count = 0 :: rest := by rw [hn, List.range_succ_eq_map]
  have hcr : [[0], rest].flatten = List.range T.count := by rw [hr]; simp
  refine ⟨[[0], rest], hcr, ?_⟩
  -- the first task has read the member, the second one has not started
  have h0 : chunkTasks (tLocalCreate D T) [[0], rest] (0 : Fin 2) = .read (V := Val) .tabP fun p : ℕ =>
      .write .tabP p ((do
        let a : ℕ ← Prog.get (V := Val) .tabPtr
        Prog.put (V := Val) .tabPtr a
        putNew (.loc .double 0) D.p (ctr T 0)
        selfAssign
        putNew (.loc .single 0) D.p (ctr T 0) : P Unit) >>= fun _ => pure ()) := rfl
  have h1 : ∃ k, chunkTasks (tLocalCreate D T) [[0], rest] (1 : Fin 2) = .read (V := Val) .tabP k := by
    have : rest = 1 :: ((List.range n).map Nat.succ).map Nat.succ := by
      rw [hrest, List.range_succ_eq_map, List.map_cons]
    refine ⟨fun p : ℕ => .write .tabP p ((do
        let a : ℕ ← Prog.get (V := Val) .tabPtr
        Prog.put (V := Val) .tabPtr a
        putNew (.loc .double 1) D.p (ctr T 1)
        selfAssign
        putNew (.loc .single 1) D.p (ctr T 1) : P Unit) >>= fun _ =>
          (((List.range n).map Nat.succ).map Nat.succ).forM (tLocalCreate D T)), ?_⟩
    show (rest.forM (tLocalCreate D T)) = _
    rw [this]
    rfl
  refine ⟨_, m, (ParReach.refl _).tail (ParStep.mk _ m m (0 : Fin 2) _ (by rw [h0]; exact Prog.Step.read _ _ _)), 0, 1,
    by simp, ⟨m .tabP, ?_⟩, ?_⟩
  · rw [Function.update_self]
    exact ⟨_, rfl⟩
  · rw [Function.update_of_ne (by simp)]
    obtain ⟨k, hk⟩ := h1
    exact .inl ⟨k, hk⟩

/-- **C98** (there is a race). If there are at least two blocks, in every product some execution reaches a point where a thread
is about to write the static table of `LocalExpansion` and another one to read it: strictly speaking the program has a data
race. -/
theorem C98_race (hlev : 1 ≤ inp.levels) (hc : 2 ≤ (build inp).count) (vs : List (Ker → ℕ → ℝ)) (v : Ker → ℕ → ℝ) (m : FMem) :
    ConflictIn (allPhases inp D (build inp) own (vs ++ [v])) m .tabP := by
  set pre := setupPhases inp D (build inp) own ++ vs.flatMap (productPhases inp D (build inp) own) ++
    ascendPhases inp D (build inp) v ++ [.seq (tVmult inp D v)] with hpre
  set post := (List.range' 1 inp.levels).map (fun l => Phase.stream (tWorkerDescend inp D (build inp) own) tCopierDescend
    ⟨0, fun _ => Exp.new D.p 0, [], fun _ => []⟩ ((build inp).dofsFilled l)) ++
    [.par (tEval inp (build inp) own) (build inp).childless] with hpost
  have e : allPhases inp D (build inp) own (vs ++ [v]) =
      pre ++ .par (tLocalCreate D (build inp)) (List.range (build inp).count) :: post := by
    have e1 : productPhases inp D (build inp) own v = ascendPhases inp D (build inp) v ++ (.seq (tVmult inp D v) ::
        .par (tLocalCreate D (build inp)) (List.range (build inp).count) :: post) := rfl
    unfold allPhases
    rw [hpre, List.flatMap_append, List.flatMap_singleton, e1]
    simp only [List.append_assoc, List.cons_append, List.nil_append]
  obtain ⟨m', hr⟩ := C98_ends (D := D) (own := own) hlev (vs ++ [v]) m
  rw [e] at hr
  obtain ⟨m1, h1, _⟩ := hr.split
  exact ⟨pre, _, post, m1, e, h1, local_race hc m1⟩

/-! ## A concrete case -/

/-- The hypotheses hold for a cube with 3 levels of subdivision. -/
theorem C98_example (own : ℕ → Bool) (v w : Ker → ℕ → ℝ) (m : FMem) :
    1 ≤ (cubeInput 3 0).levels ∧ 2 ≤ (build (cubeInput 3 0)).count ∧
    (∀ c k, k ∈ (cubeInput 3 0).cellDofs c → k < (cubeInput 3 0).nDofs) ∧
    ∃ m', Runs (allPhases (cubeInput 3 0) cubeData (build (cubeInput 3 0)) own [v, w]) m m' := by
  refine ⟨by decide, by decide +kernel, cube_dofs, C98_ends (by decide) _ m⟩

end PiBem.Fmm
