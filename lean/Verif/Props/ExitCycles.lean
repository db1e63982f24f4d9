import Verif.Props.Exit

/-!
# C101, C110 without hypotheses on the meshes of later cycles

The meshes after the first are determined by the answers the processes get. Which processes own no dof may change from cycle to cycle.
-/

set_option linter.unusedSectionVars false

noncomputable section

namespace PiBem.Mpi

section
variable {κ ρ α β : Type} {n : ℕ} {T : (Fin n → Shape) → Prop}

/-- The processes make the same calls, with the answers given by `red`, until all of them end, with results in `Q`, or `T` holds of what they are about to do. -/
inductive Along (red : κ → (Fin n → ρ) → ρ) (T : (Fin n → Shape) → Prop) (Q : (Fin n → α) → Prop) : (Fin n → Prog κ ρ α) → Prop where
  | ret (a : Fin n → α) (h : Q a) : Along red T Q fun p => .ret (a p)
  | stop (m : Fin n → Prog κ ρ α) (h : T fun p => (m p).shape) : Along red T Q m
  | coll (c : κ) (x : Fin n → ρ) (k : Fin n → ρ → Prog κ ρ α) (h : Along red T Q fun p => k p (red c x)) :
      Along red T Q fun p => .coll c (x p) (k p)

theorem Sync.along {Q : (Fin n → α) → Prop} {m : Fin n → Prog κ ρ α} (h : Sync T Q m) (red : κ → (Fin n → ρ) → ρ) : Along red T Q m := by
  induction h with
  | ret a h => exact .ret a h
  | stop m h => exact .stop m h
  | coll c x k _ ih => exact .coll c x k (ih _)

theorem Along.bind [hT : Stuck T] {red : κ → (Fin n → ρ) → ρ} {Q : (Fin n → α) → Prop} {R : (Fin n → β) → Prop} {m : Fin n → Prog κ ρ α}
    {f : Fin n → α → Prog κ ρ β} (h : Along red T Q m) (hf : ∀ a, Q a → Along red T R fun p => f p (a p)) :
    Along red T R fun p => (m p).bind (f p) := by
  induction h with
  | ret a h => exact hf a h
  | stop m h =>
    refine .stop _ ?_
    have : (fun p => ((m p).bind (f p)).shape) = fun p => (m p).shape := funext fun p => shape_bind ((hT.out _ h).1 p)
    rw [this]
    exact h
  | coll c x k _ ih => exact .coll c x (fun p r => (k p r).bind (f p)) ih

/-- All processes reach their call and get the answer. -/
theorem steps_call (red : κ → (Fin n → ρ) → ρ) (c : κ) (x : Fin n → ρ) (k : Fin n → ρ → Prog κ ρ α) :
    Steps red (start fun p => .coll c (x p) (k p)) (start fun p => k p (red c x)) := by
  have key : ∀ S : Finset (Fin n), Steps red (start fun p => Prog.coll c (x p) (k p)) fun p => (Prog.coll c (x p) (k p), decide (p ∈ S)) := by
    intro S
    induction S using Finset.induction_on with
    | empty =>
      have : (fun p : Fin n => (Prog.coll c (x p) (k p), decide (p ∈ (∅ : Finset (Fin n))))) = start fun p => Prog.coll c (x p) (k p) := by
        funext p; simp [start]
      rw [this]
    | insert q S hq ih =>
      refine ih.tail ?_
      have h := Step.arrive (red := red) (fun p => (Prog.coll c (x p) (k p), decide (p ∈ S))) q c (x q) (k q) (by simp [hq])
      convert h using 1
      funext p
      by_cases hp : p = q
      · subst hp; simp
      · rw [Function.update_of_ne hp]; simp [hp]
  refine (key Finset.univ).tail ?_
  exact Step.complete (red := red) _ c x k fun p => by simp

/-- There is an execution to a final state. -/
theorem Along.reach [hT : Stuck T] {red : κ → (Fin n → ρ) → ρ} (hn : 0 < n) {Q : (Fin n → α) → Prop} {m : Fin n → Prog κ ρ α} (h : Along red T Q m) :
    ∃ s, Steps red (start m) s ∧ (∀ s', ¬ Step red s s') ∧ Final T Q s := by
  induction h with
  | ret a h =>
    have := (Sync.ret (T := T) (κ := κ) (ρ := ρ) a h).ends red hn
    obtain ⟨s, h1, h2⟩ := this.2.2
    exact ⟨s, h1, h2, this.2.1 s h1 h2⟩
  | stop m h =>
    have := (Sync.stop (Q := Q) m h).ends red hn
    obtain ⟨s, h1, h2⟩ := this.2.2
    exact ⟨s, h1, h2, this.2.1 s h1 h2⟩
  | coll c x k _ ih =>
    obtain ⟨s, h1, h2⟩ := ih
    exact ⟨s, (steps_call red c x k).trans h1, h2⟩

/-- Every execution that cannot go on is in this state. -/
theorem Along.final [hT : Stuck T] {red : κ → (Fin n → ρ) → ρ} (hn : 0 < n) {Q : (Fin n → α) → Prop} {m : Fin n → Prog κ ρ α} (h : Along red T Q m)
    (s : Sys κ ρ α n) (hs : Steps red (start m) s) (hno : ∀ s', ¬ Step red s s') : Final T Q s := by
  obtain ⟨s0, h1, h2, h3⟩ := h.reach hn
  rwa [final_unique hn hs h1 hno h2]

end

variable {n : ℕ} {T : (Fin n → Shape) → Prop} [Stuck T] (cfg : Config) (red : Call → (Fin n → Val) → Val)

/-- The mesh of cycle `j` of a run from mesh `g` on `n` processes that get the answers `red`. -/
def meshAt (g : Mesh) : ℕ → Mesh
  | 0 => g
  | j + 1 => meshAt (cfg.refine g (red (.localize .phi) fun p => cfg.part (.localize .phi) p)) j

/-- Number of refinements of a run. -/
def lastCycle : ℕ := if cfg.globalRefinement then 0 else cfg.nCycles

/-- The triples of `Tri` for the given answers. -/
def TriA {α : Type} (T : (Fin n → Shape) → Prop) (A : AbsSt) (m : Fin n → M α) (B : AbsSt) (R : α → Prop) : Prop :=
  ∀ (v : Vars) (s : Fin n → St), (∀ p, In A v (s p)) →
    Along red T (fun r => ∃ a v', R a ∧ ∀ p, (r p).1 = a ∧ In B v' (r p).2) fun p => m p (s p)

/-- The processes get stuck, for the given answers. -/
def DeadA {α : Type} (T : (Fin n → Shape) → Prop) (A : AbsSt) (m : Fin n → M α) : Prop :=
  ∀ (v : Vars) (s : Fin n → St), (∀ p, In A v (s p)) → Along red T (fun _ => False) fun p => m p (s p)

variable {cfg red}

theorem Dead.along {α : Type} {A : AbsSt} {m : Fin n → M α} (h : Dead T A m) : DeadA red T A m := fun v s hs => (h v s hs).along red

theorem Tri.andA {α β : Type} {A B C : AbsSt} {R : β → Prop} {m : Fin n → M α} {f : Fin n → α → M β} (hm : Tri T A m B)
    (hf : ∀ a, TriA red T B (fun p => f p a) C R) : TriA red T A (fun p => m p >>= f p) C R := by
  intro v s hs
  refine Along.bind ((hm v s hs).along red) ?_
  rintro r ⟨a, v', hr⟩
  have := hf a v' (fun p => (r p).2) fun p => (hr p).2
  simpa only [(hr _).1] using this

theorem Tri.deadA {α β : Type} {A B : AbsSt} {m : Fin n → M α} {f : Fin n → α → M β} (hm : Tri T A m B)
    (hf : ∀ a, DeadA red T B fun p => f p a) : DeadA red T A (fun p => m p >>= f p) := by
  intro v s hs
  refine Along.bind ((hm v s hs).along red) ?_
  rintro r ⟨a, v', hr⟩
  have := hf a v' (fun p => (r p).2) fun p => (hr p).2
  simpa only [(hr _).1] using this

theorem TriA.dead {α β : Type} {A B : AbsSt} {R : α → Prop} {m : Fin n → M α} {f : Fin n → α → M β} (hm : TriA red T A m B R)
    (hf : ∀ a, R a → DeadA red T B fun p => f p a) : DeadA red T A (fun p => m p >>= f p) := by
  intro v s hs
  refine Along.bind (hm v s hs) ?_
  rintro r ⟨a, v', ha, hr⟩
  have := hf a ha v' (fun p => (r p).2) fun p => (hr p).2
  simpa only [(hr _).1] using this

theorem TriA.bind {α β : Type} {A B C : AbsSt} {R : α → Prop} {m : Fin n → M α} {f : Fin n → α → M β} (hm : TriA red T A m B R)
    (hf : ∀ a, R a → Tri T B (fun p => f p a) C) : TriA red T A (fun p => m p >>= f p) C fun _ => True := by
  intro v s hs
  refine Along.bind (hm v s hs) ?_
  rintro r ⟨a, v', ha, hr⟩
  have := (hf a ha v' (fun p => (r p).2) fun p => (hr p).2).along red
  simp only [(hr _).1]
  have mono : ∀ {Q R : (Fin n → β × St) → Prop} (_ : ∀ a, Q a → R a) {m : Fin n → Prog Call Val (β × St)}, Along red T Q m → Along red T R m := by
    intro Q R hQ m h
    induction h with
    | ret a h => exact .ret a (hQ a h)
    | stop m h => exact .stop m h
    | coll c x k _ ih => exact .coll c x k ih
  exact mono (fun _ ⟨b, w, h⟩ => ⟨b, w, trivial, h⟩) this

theorem DeadA.bind {α β : Type} {A : AbsSt} {m : Fin n → M α} {f : Fin n → α → M β} (hm : DeadA red T A m) : DeadA red T A (fun p => m p >>= f p) :=
  fun v s hs => Along.bind (hm v s hs) fun _ h => h.elim

/-- After a copy of the potential to all processes they go on with the given answer. -/
theorem deadA_call {β : Type} {A : AbsSt} (c : Call) (x : Fin n → Val) {f : Fin n → Val → M β} (hf : DeadA red T A fun p => f p (red c x)) :
    DeadA red T A fun p => call c (x p) >>= f p := fun v s hs =>
  Along.coll c x _ (hf v s hs)

theorem triA_call {β : Type} {A B : AbsSt} {R : β → Prop} (c : Call) (x : Fin n → Val) {f : Fin n → Val → M β} (hf : TriA red T A (fun p => f p (red c x)) B R) :
    TriA red T A (fun p => call c (x p) >>= f p) B R := fun v s hs =>
  Along.coll c x _ (hf v s hs)

variable (cfg red)

/-- All cycles are run if every process owns a dof in every one. -/
theorem cycles_full (hm : Method cfg ∨ T fun _ => .fail) (hc : ∀ w, Converges cfg w ∨ T fun _ => .fail) :
    ∀ (k : ℕ) (g : Mesh), (∀ j ≤ k, (meshAt cfg red g j).Full n) → TriA red T disc' (fun p : Fin n => cycles cfg p k g) disc' fun a => a = meshAt cfg red g k
  | 0, g, hg => (tri_reinit cfg g).andA fun _ => (tri_problem cfg g (hg 0 le_rfl) hm hc).andA fun _ => fun v s hs =>
      .ret (fun p => (g, s p)) ⟨g, v, rfl, fun p => ⟨rfl, hs p⟩⟩
  | k + 1, g, hg => (tri_reinit cfg g).andA fun _ => (tri_problem cfg g (hg 0 (Nat.zero_le _)) hm hc).andA fun _ =>
      triA_call _ _ (cycles_full hm hc k _ fun j hj => hg (j + 1) (by omega))

/-- A cycle is not left if its problem cannot be solved. -/
theorem cycles_dead (hm : Method cfg ∨ T fun _ => .fail) (hc : ∀ w, Converges cfg w ∨ T fun _ => .fail) :
    ∀ (k : ℕ) (g : Mesh) (j : ℕ), j ≤ k → (∀ i < j, (meshAt cfg red g i).Full n) → (Dead T disc' fun p : Fin n => solveProblem cfg (meshAt cfg red g j) p) →
      DeadA red T disc' (fun p : Fin n => cycles cfg p k g)
  | 0, g, j, hj, _, hd => by
    obtain rfl : j = 0 := by omega
    exact (tri_reinit cfg g).deadA fun _ => (Dead.along hd).bind
  | k + 1, g, 0, _, _, hd => (tri_reinit cfg g).deadA fun _ => (Dead.along hd).bind
  | k + 1, g, j + 1, hj, hf, hd => (tri_reinit cfg g).deadA fun _ => (tri_problem cfg g (hf 0 (Nat.succ_pos _)) hm hc).deadA fun _ =>
      deadA_call _ _ (cycles_dead hm hc k _ j (by omega) (fun i hi => hf (i + 1) (by omega)) hd)

/-- A process that owns no dof stops the problem of its cycle. -/
theorem dead_problem_idle (g : Mesh) (hq : ∃ q < n, g.own q = []) : Dead NoneEnded disc' fun p : Fin n => solveProblem cfg g p := by
  have := noneEnded_stuck (n := n)
  obtain ⟨q, hqn, hq⟩ := hq
  have hF : NoneEnded fun _ : Fin n => .fail := ⟨fun p => by simp, ⟨q, hqn⟩, rfl⟩
  have hm : Method cfg ∨ NoneEnded fun _ : Fin n => .fail := .inr hF
  have hc : ∀ w, Converges cfg w ∨ NoneEnded fun _ : Fin n => .fail := fun w => .inr hF
  refine dead_problem cfg g hF ?_
  unfold bemSolve
  refine (tri_assemble cfg g hm).deadSeq ?_
  unfold solveSystem
  refine Tri.deadSeq (tri_alpha cfg g hm) (Tri.deadSeq (tri_free cfg g) (Tri.deadSeq (tri_rhs cfg g hm)
    (Tri.deadSeq (tri_constraints cfg g (hc _)) (Tri.deadSeq (tri_distributeRhs g) (Tri.deadSeq (Tri.reinit _ _).fresh
    (Tri.deadSeq (tri_linear cfg g hm hc) ?_))))))
  intro v s hs
  have h : ∀ p : Fin n, (storeSolution g p (s p)).shape = if g.own p = [] then .fail else .coll := fun p => shape_store g p (hs p)
  refine .stop _ ⟨fun p => ?_, ⟨q, hqn⟩, (h _).trans (by simp [hq])⟩
  refine (h p).trans_ne ?_
  split <;> simp

/-- ... and leaves the others waiting, if they own a dof. -/
theorem left_problem (g : Mesh) (hq : ∃ q < n, g.own q = []) (hp : ∃ p < n, g.own p ≠ []) (hm : Method cfg)
    (hc : ∀ w, Converges cfg w) : Dead Left disc' fun p : Fin n => solveProblem cfg g p := by
  have hm' : Method cfg ∨ Left fun _ : Fin n => .fail := .inl hm
  have hc' : ∀ w, Converges cfg w ∨ Left fun _ : Fin n => .fail := fun w => .inl (hc w)
  unfold solveProblem bemSolve solveSystem
  exact tri_first.deadSeq ((tri_normals cfg g hc').deadSeq ((tri_prepare g).deadSeq (Dead.bind ((tri_assemble cfg g hm').deadSeq
    (Tri.deadSeq (tri_alpha cfg g hm') (Tri.deadSeq (tri_free cfg g) (Tri.deadSeq (tri_rhs cfg g hm')
      (Tri.deadSeq (tri_constraints cfg g (hc' _)) (Tri.deadSeq (tri_distributeRhs g) (Tri.deadSeq (Tri.reinit _ _).fresh
      (Tri.deadSeq (tri_linear cfg g hm' hc') (left_store g hq hp))))))))))))

theorem tri_rest (last : Mesh) (hc : ∀ w, Converges cfg w ∨ T fun _ => .fail) :
    Tri T disc' (fun p : Fin n => do computeErrors cfg last p; outputResults; sync .summary) disc' := by
  refine Tri.seq (B := disc') ?_ ?_
  · unfold computeErrors computeGradients
    have := tri_mass (n := n) cfg last .gradients (A := disc') (x := .grads) (rhs := .gradsRhs) (mat := .gradsMat) rfl rfl rfl (hc _)
    calls
  · unfold outputResults
    calls

/-- One of the processes owns no dof in the first of the cycles in which this happens. -/
theorem first_idle (g : Mesh) (K : ℕ) (h : ¬ ∀ j ≤ K, (meshAt cfg red g j).Full n) :
    ∃ j ≤ K, (∀ i < j, (meshAt cfg red g i).Full n) ∧ ∃ q < n, (meshAt cfg red g j).own q = [] := by
  classical
  push Not at h
  have hex : ∃ j, j ≤ K ∧ ¬ (meshAt cfg red g j).Full n := h
  obtain ⟨j, ⟨h1, h2⟩, hmin⟩ : ∃ j, (j ≤ K ∧ ¬ (meshAt cfg red g j).Full n) ∧ ∀ i < j, ¬ (i ≤ K ∧ ¬ (meshAt cfg red g i).Full n) :=
    ⟨Nat.find hex, Nat.find_spec hex, fun i hi => Nat.find_min hex hi⟩
  refine ⟨j, h1, fun i hi => ?_, ?_⟩
  · by_contra hne
    exact hmin i hi ⟨by omega, hne⟩
  · unfold Mesh.Full at h2
    push Not at h2
    exact h2

/-- Without hypotheses on the meshes the processes stay in step until they end or one has failed. -/
theorem tri_cycles_any (hn : 0 < n) : ∀ (k : ℕ) (g : Mesh), Tri NoneEnded disc' (fun p : Fin n => cycles cfg p k g) disc' := by
  have := noneEnded_stuck (n := n)
  have hF : NoneEnded fun _ : Fin n => .fail := ⟨fun p => by simp, ⟨0, hn⟩, rfl⟩
  have toTri : ∀ {α : Type} {A B : AbsSt} {m : Fin n → M α}, Dead NoneEnded A m → Tri NoneEnded A m B := fun h v s hs =>
    Sync.mono (fun _ h => h.elim) (h v s hs)
  intro k
  induction k with
  | zero =>
    intro g
    by_cases hg : g.Full n
    · exact (tri_reinit cfg g).seq ((tri_problem cfg g hg (.inr hF) fun _ => .inr hF).seq (Tri.pure _ g))
    · unfold Mesh.Full at hg
      push Not at hg
      exact toTri ((tri_reinit cfg g).deadSeq (dead_problem_idle cfg g hg).bind)
  | succ k ih =>
    intro g
    by_cases hg : g.Full n
    · exact (tri_reinit cfg g).seq ((tri_problem cfg g hg (.inr hF) fun _ => .inr hF).seq ((Tri.call _ _ _).bind fun r => ih _))
    · unfold Mesh.Full at hg
      push Not at hg
      exact toTri ((tri_reinit cfg g).deadSeq (dead_problem_idle cfg g hg).bind)

/-- The first cycle is not left if the method is not available or one of the solves before the gradients does not converge. -/
theorem dead_first (g : Mesh) (hF : T fun _ => .fail) (h : ¬ Method cfg ∨ ∃ w, w ≠ .gradients ∧ Diverges cfg w) :
    Dead T disc' fun p : Fin n => run cfg g p := by
  have hm : Method cfg ∨ T fun _ : Fin n => .fail := .inr hF
  have hc : ∀ w, Converges cfg w ∨ T fun _ : Fin n => .fail := fun w => .inr hF
  rcases h with h | ⟨w, hw, hd⟩
  · simp only [Method, not_or] at h
    refine dead_cycles cfg g (dead_problem cfg g hF ?_)
    unfold bemSolve
    exact (dead_either (fun hd => absurd hd h.1) fun _ => (dead_needs3d cfg hF h.2).bind).bind
  · cases w with
    | normals =>
      refine dead_cycles cfg g ?_
      unfold solveProblem computeNormals
      exact tri_first.deadSeq (((Tri.reinit _ _).fresh.deadSeq (dead_mass cfg g _ rfl rfl hF hd)).bind)
    | surface =>
      refine dead_cycles cfg g (dead_problem cfg g hF ?_)
      unfold bemSolve
      refine (tri_assemble cfg g hm).deadSeq ?_
      unfold solveSystem computeConstraints computeSurfaceGradients
      refine Tri.deadSeq (tri_alpha cfg g hm) (Tri.deadSeq (tri_free cfg g) (Tri.deadSeq (tri_rhs cfg g hm) (Dead.bind (Dead.bind ?_))))
      exact (Tri.sync _ _).deadSeq ((Tri.reinit _ _).fresh.deadSeq (dead_mass cfg g _ rfl rfl hF hd))
    | system =>
      refine dead_cycles cfg g (dead_problem cfg g hF ?_)
      unfold bemSolve
      refine (tri_assemble cfg g hm).deadSeq ?_
      unfold solveSystem
      exact Tri.deadSeq (tri_alpha cfg g hm) (Tri.deadSeq (tri_free cfg g) (Tri.deadSeq (tri_rhs cfg g hm)
        (Tri.deadSeq (tri_constraints cfg g (hc _)) (Tri.deadSeq (tri_distributeRhs g) (Tri.deadSeq (Tri.reinit _ _).fresh
        (dead_linear cfg g hF hd).bind)))))
    | gradients => exact absurd rfl hw

/-! ## The statements -/

/-- **C110.** Without hypotheses on the meshes, the method or the solvers: every execution is finite, and at its end `main` has returned `0` on all processes, or it has returned `0` on none and
`1` on one of them. -/
theorem C110_all_or_none (n : ℕ) (hn : 0 < n) (cfg : Config) (g : Mesh) (red : Call → (Fin n → Val) → Val) (s : Sys Call Val (Unit × St) n)
    (hs : Steps red (start fun p => process cfg g p) s) :
    Acc (fun a b => Step red b a) s ∧ ((∀ s', ¬ Step red s s') →
      (∀ p, exitStatus (s p).1 = some 0) ∨ (∀ p, exitStatus (s p).1 ≠ some 0) ∧ ∃ p, exitStatus (s p).1 = some 1) := by
  have := noneEnded_stuck (n := n)
  have hF : NoneEnded fun _ : Fin n => .fail := ⟨fun p => by simp, ⟨0, hn⟩, rfl⟩
  have h : Tri NoneEnded disc' (fun p : Fin n => run cfg g p) disc' :=
    (tri_cycles_any cfg hn _ g).bind fun last => tri_rest cfg last fun _ => .inr hF
  have he := (h initial.vars (fun _ => initial) fun _ => in_initial _).ends red hn
  refine ⟨he.1 s hs, fun hno => ?_⟩
  rcases he.2.1 s hs hno with ⟨a, _, ha⟩ | ⟨h1, q, h2⟩
  · exact .inl fun p => by rw [ha p]; rfl
  · refine .inr ⟨fun p => ?_, q, ?_⟩
    · have hp : (s p).1.shape ≠ .ret := h1 p
      generalize (s p).1 = m at hp
      cases m <;> simp [Prog.shape] at hp <;> simp [exitStatus]
    · change (s q).1.shape = .fail at h2
      generalize (s q).1 = m at h2
      cases m <;> simp [Prog.shape] at h2
      rfl

/-- **C110.** If in some cycle a process owns no dof, `main` returns `0` on no process, whatever the method and the solvers do. -/
theorem C110_idle_cycle (n : ℕ) (cfg : Config) (g : Mesh) (red : Call → (Fin n → Val) → Val) (hq : ∃ j ≤ lastCycle cfg, ∃ q < n, (meshAt cfg red g j).own q = [])
    (s : Sys Call Val (Unit × St) n) (hs : Steps red (start fun p => process cfg g p) s) (hno : ∀ s', ¬ Step red s s') (p : Fin n) :
    exitStatus (s p).1 ≠ some 0 := by
  have hn : 0 < n := p.pos
  have := noneEnded_stuck (n := n)
  have hF : NoneEnded fun _ : Fin n => .fail := ⟨fun p => by simp, ⟨0, hn⟩, rfl⟩
  obtain ⟨j, hj, hfull, hidle⟩ := first_idle (n := n) cfg red g (lastCycle cfg) fun h => by
    obtain ⟨j, hj, q, hqn, hq⟩ := hq
    exact h j hj q hqn hq
  have h : DeadA red NoneEnded disc' fun p : Fin n => run cfg g p :=
    (cycles_dead cfg red (.inr hF) (fun _ => .inr hF) _ g j hj hfull (dead_problem_idle cfg _ hidle)).bind
  rcases (h initial.vars (fun _ => initial) fun _ => in_initial _).final hn s hs hno with ⟨a, ha, _⟩ | ⟨h1, _⟩
  · exact ha.elim
  · have hp : (s p).1.shape ≠ .ret := h1 p
    generalize (s p).1 = m at hp
    cases m <;> simp [Prog.shape] at hp <;> simp [exitStatus]

/-- **C101.** If every process owns a dof in each of the meshes of the run, no execution hangs, and at the end all processes have ended or all have failed; they have ended if the method is
available and the solvers converge within their limit. -/
theorem C101_meshes (n : ℕ) (hn : 0 < n) (cfg : Config) (g : Mesh) (red : Call → (Fin n → Val) → Val)
    (hg : ∀ j ≤ lastCycle cfg, ∀ q < n, (meshAt cfg red g j).own q ≠ []) (s : Sys Call Val (Unit × St) n)
    (hs : Steps red (start fun p => process cfg g p) s) :
    ¬ Deadlock red s ∧ ((∀ s', ¬ Step red s s') → ((∀ p, ∃ a, (s p).1 = .ret a) ∨ ∀ p, (s p).1 = .fail) ∧
      ((cfg.direct = true ∨ cfg.dim = 3) → (∀ w, Converges cfg w) → ∀ p, ∃ a, (s p).1 = .ret a)) := by
  have h : ∀ (F : Prop), ((cfg.direct = true ∨ cfg.dim = 3) ∧ (∀ w, Converges cfg w) ∨ F) → (∀ s', ¬ Step red s s') →
      (∀ p, ∃ a, (s p).1 = .ret a) ∨ F ∧ ∀ p, (s p).1 = .fail := by
    intro F hF hno
    have := allFail_stuck hn F
    have h1 : Method cfg ∨ AllFail (n := n) F fun _ => .fail := hF.imp (·.1) fun h => ⟨h, fun _ => rfl⟩
    have h2 : ∀ w, Converges cfg w ∨ AllFail (n := n) F fun _ => .fail := fun w => hF.imp (·.2 w) fun h => ⟨h, fun _ => rfl⟩
    have h3 : TriA red (AllFail F) disc' (fun p : Fin n => run cfg g p) disc' fun _ => True :=
      (cycles_full cfg red h1 h2 _ g hg).bind fun last _ => tri_rest cfg last h2
    rcases (h3 initial.vars (fun _ => initial) fun _ => in_initial _).final hn s hs hno with ⟨a, _, ha⟩ | ⟨hf, hf'⟩
    · exact .inl fun p => ⟨_, ha p⟩
    · refine .inr ⟨hf, fun p => ?_⟩
      have hp := hf' p
      change (s p).1.shape = .fail at hp
      generalize (s p).1 = m at hp
      cases m <;> simp [Prog.shape] at hp ⊢
  have key : (∀ s', ¬ Step red s s') → (∀ p, ∃ a, (s p).1 = .ret a) ∨ ∀ p, (s p).1 = .fail := fun hno =>
    (h True (.inr trivial) hno).imp_right (·.2)
  refine ⟨?_, fun hno => ⟨key hno, fun hm hc => (h False (.inl ⟨hm, hc⟩) hno).resolve_right fun h => h.1⟩⟩
  rintro ⟨hno, p, c, x, k, b, hp⟩
  rcases key hno with h | h
  · obtain ⟨a, ha⟩ := h p; rw [hp] at ha; simp at ha
  · have := h p; rw [hp] at this; simp at this

/-- **C110.** If the method is available and the solvers converge within their limit, a process returns `0` if and only if in every cycle every process owns a dof. -/
theorem C110_zero_iff (n : ℕ) (cfg : Config) (g : Mesh) (red : Call → (Fin n → Val) → Val) (hm : cfg.direct = true ∨ cfg.dim = 3) (hc : ∀ w, Converges cfg w)
    (s : Sys Call Val (Unit × St) n) (hs : Steps red (start fun p => process cfg g p) s) (hno : ∀ s', ¬ Step red s s') (p : Fin n) :
    exitStatus (s p).1 = some 0 ↔ ∀ j ≤ lastCycle cfg, ∀ q < n, (meshAt cfg red g j).own q ≠ [] := by
  constructor
  · intro h j hj q hq he
    exact C110_idle_cycle n cfg g red ⟨j, hj, q, hq, he⟩ s hs hno p h
  · intro h
    obtain ⟨a, ha⟩ := ((C101_meshes n p.pos cfg g red h s hs).2 hno).2 hm hc p
    rw [ha]; rfl

/-- **C101, processes without dofs.** If the method is available and the solvers converge, and in the first cycle in which a process owns no dof another one does, every execution ends in a state in which a
process has failed and another one waits for it for ever. -/
theorem C101_idle_cycle (n : ℕ) (cfg : Config) (g : Mesh) (red : Call → (Fin n → Val) → Val) (hm : cfg.direct = true ∨ cfg.dim = 3) (hc : ∀ w, Converges cfg w)
    (j : ℕ) (hj : j ≤ lastCycle cfg) (hfull : ∀ i < j, ∀ q < n, (meshAt cfg red g i).own q ≠ []) (hq : ∃ q < n, (meshAt cfg red g j).own q = [])
    (hp : ∃ p < n, (meshAt cfg red g j).own p ≠ []) (s : Sys Call Val (Unit × St) n) (hs : Steps red (start fun p => process cfg g p) s)
    (hno : ∀ s', ¬ Step red s s') : Deadlock red s ∧ ∃ q, (s q).1 = .fail := by
  have hn : 0 < n := by obtain ⟨q, h, _⟩ := hq; omega
  have h : DeadA red Left disc' fun p : Fin n => run cfg g p :=
    (cycles_dead cfg red (.inl hm) (fun w => .inl (hc w)) _ g j hj hfull (left_problem cfg _ hq hp hm hc)).bind
  rcases (h initial.vars (fun _ => initial) fun _ => in_initial _).final hn s hs hno with ⟨a, ha, _⟩ | ⟨_, ⟨q, hq⟩, ⟨p, hp⟩⟩
  · exact ha.elim
  · refine ⟨⟨hno, p, ?_⟩, q, ?_⟩
    · change (s p).1.shape = .coll at hp
      rcases hsp : s p with ⟨m, b⟩
      rw [hsp] at hp
      cases m with
      | ret a => simp [Prog.shape] at hp
      | fail => simp [Prog.shape] at hp
      | coll c x k => exact ⟨c, x, k, b, rfl⟩
    · change (s q).1.shape = .fail at hq
      generalize (s q).1 = m at hq
      cases m <;> simp [Prog.shape] at hq ⊢

/-- **C110.** If the method is not available in the dimension, or one of the solves cannot converge within the limit, `main` returns `0` on no process, whatever the meshes are. -/
theorem C110_not_solved (n : ℕ) (cfg : Config) (g : Mesh) (h : ¬ (cfg.direct = true ∨ cfg.dim = 3) ∨ ∃ w, Diverges cfg w) (red : Call → (Fin n → Val) → Val)
    (s : Sys Call Val (Unit × St) n) (hs : Steps red (start fun p => process cfg g p) s) (hno : ∀ s', ¬ Step red s s') (p : Fin n) :
    exitStatus (s p).1 ≠ some 0 := by
  by_cases hfull : ∀ j ≤ lastCycle cfg, ∀ q < n, (meshAt cfg red g j).own q ≠ []
  · have hn : 0 < n := p.pos
    have := allFail_stuck hn True
    have hF : AllFail (n := n) True fun _ => .fail := ⟨trivial, fun _ => rfl⟩
    have key : DeadA red (AllFail True) disc' fun p : Fin n => run cfg g p := by
      by_cases h' : ¬ Method cfg ∨ ∃ w, w ≠ .gradients ∧ Diverges cfg w
      · exact Dead.along (dead_first cfg g hF h')
      · rw [not_or, not_not] at h'
        obtain ⟨w, hd⟩ := h.resolve_left (not_not.2 h'.1)
        obtain rfl : w = .gradients := by_contra fun hw => h'.2 ⟨w, hw, hd⟩
        refine (cycles_full cfg red (.inr hF) (fun _ => .inr hF) _ g hfull).dead fun last _ => Dead.along (Dead.bind ?_)
        unfold computeErrors computeGradients
        refine Dead.bind (Tri.deadSeq (B := disc') (Tri.sync _ _) (Tri.deadSeq (B := disc') (Tri.sync _ _) (Tri.deadSeq (B := disc') ?_ ?_)))
        · exact (Tri.reinit _ _).fresh
        · exact dead_mass cfg last _ rfl rfl hF hd
    rcases (key initial.vars (fun _ => initial) fun _ => in_initial _).final hn s hs hno with ⟨a, ha, _⟩ | ⟨_, hf⟩
    · exact ha.elim
    · have hp : (s p).1.shape = .fail := hf p
      generalize (s p).1 = m at hp
      cases m <;> simp [Prog.shape] at hp
      simp [exitStatus]
  · push Not at hfull
    obtain ⟨j, hj, q, hq, he⟩ := hfull
    exact C110_idle_cycle n cfg g red ⟨j, hj, q, hq, he⟩ s hs hno p

/-- **C110.** So, without hypotheses on the meshes, one process that returns `0` says everything: all processes return `0`, every process owned a dof in every cycle, the method is available, and there
is no solve that cannot converge. -/
theorem C110_zero_says (n : ℕ) (cfg : Config) (g : Mesh) (red : Call → (Fin n → Val) → Val) (s : Sys Call Val (Unit × St) n)
    (hs : Steps red (start fun p => process cfg g p) s) (hno : ∀ s', ¬ Step red s s') (p : Fin n) (h0 : exitStatus (s p).1 = some 0) :
    (∀ q, exitStatus (s q).1 = some 0) ∧ (∀ j ≤ lastCycle cfg, ∀ q < n, (meshAt cfg red g j).own q ≠ []) ∧ (cfg.direct = true ∨ cfg.dim = 3) ∧
    ∀ w, ¬ Diverges cfg w := by
  refine ⟨?_, ?_, ?_, ?_⟩
  · exact ((C110_all_or_none n p.pos cfg g red s hs).2 hno).resolve_right fun h => h.1 p h0
  · intro j hj q hq he
    exact C110_idle_cycle n cfg g red ⟨j, hj, q, hq, he⟩ s hs hno p h0
  · by_contra h
    exact C110_not_solved n cfg g (.inl h) red s hs hno p h0
  · intro w h
    exact C110_not_solved n cfg g (.inr ⟨w, h⟩) red s hs hno p h0

/-- **C110.** With more processes than dofs in some cycle `main` returns `0` on no process. -/
theorem C110_more_processes (n : ℕ) (cfg : Config) (g : Mesh) (red : Call → (Fin n → Val) → Val) (j : ℕ) (hj : j ≤ lastCycle cfg)
    (hin : ∀ q < n, ∀ i ∈ (meshAt cfg red g j).own q, i < (meshAt cfg red g j).nDofs)
    (honce : ∀ q < n, ∀ r < n, ∀ i ∈ (meshAt cfg red g j).own q, i ∈ (meshAt cfg red g j).own r → q = r) (hmore : (meshAt cfg red g j).nDofs < n)
    (s : Sys Call Val (Unit × St) n) (hs : Steps red (start fun p => process cfg g p) s) (hno : ∀ s', ¬ Step red s s') (p : Fin n) :
    exitStatus (s p).1 ≠ some 0 := by
  refine C110_idle_cycle n cfg g red ⟨j, hj, ?_⟩ s hs hno p
  by_contra h
  push Not at h
  have hex : ∀ q : Fin n, ∃ i : Fin (meshAt cfg red g j).nDofs, i.1 ∈ (meshAt cfg red g j).own q := fun q => by
    obtain ⟨i, hi⟩ := List.exists_mem_of_ne_nil _ (h q q.2)
    exact ⟨⟨i, hin q q.2 i hi⟩, hi⟩
  choose f hf using hex
  have hinj : Function.Injective f := fun a b hab => Fin.ext (honce a a.2 b b.2 _ (hf a) (by rw [hab]; exact hf b))
  have := Fintype.card_le_of_injective f hinj
  simp only [Fintype.card_fin] at this
  omega

/-! ## A concrete case -/

/-- A finite execution ends. -/
theorem exists_final {κ ρ α : Type} {n : ℕ} (red : κ → (Fin n → ρ) → ρ) {s : Sys κ ρ α n} (h : Acc (fun a b => Step red b a) s) :
    ∃ s', Steps red s s' ∧ ∀ s'', ¬ Step red s' s'' := by
  induction h with
  | intro s _ ih =>
    by_cases h : ∃ s', Step red s s'
    · obtain ⟨s', h⟩ := h
      obtain ⟨t, ht, hno⟩ := ih s' h
      exact ⟨t, .head h ht, hno⟩
    · exact ⟨s, .refl, fun s' hs => h ⟨s', hs⟩⟩

/-- A run whose second mesh leaves the second process without dofs. -/
def exLater : Config := { exConfig true with refine := fun _ _ => exMesh false }

/-- Two processes with dofs at first: the run of `exLater`, with available method and converging solvers, ends with the second process having failed in the second cycle and the first waiting. -/
theorem C101_cycle_example (red : Call → (Fin 2 → Val) → Val) :
    ∃ s, Steps red (start fun p : Fin 2 => process exLater (exMesh true) p) s ∧ Deadlock red s ∧ (∃ q, (s q).1 = .fail) ∧
      ∀ p, exitStatus (s p).1 ≠ some 0 := by
  have hm : exLater.direct = true ∨ exLater.dim = 3 := .inl rfl
  have hc : ∀ w, Converges exLater w := by
    intro w
    refine ⟨by simp [exLater, exConfig], fun h hl => ?_⟩
    match h with
    | [] | [_] | [_, _] => simp [exLater, exConfig] at hl
    | _ :: _ :: _ :: _ => simp [exLater, exConfig]
  have h0 : ∀ i < 1, ∀ q < 2, (meshAt exLater red (exMesh true) i).own q ≠ [] := by
    intro i hi q hq
    obtain rfl : i = 0 := by omega
    simp only [meshAt, exMesh, if_true]
    split <;> simp
  have h1 : meshAt exLater red (exMesh true) 1 = exMesh false := rfl
  have hq : ∃ q < 2, (meshAt exLater red (exMesh true) 1).own q = [] := ⟨1, by simp, by rw [h1]; simp [exMesh]⟩
  have hp : ∃ p < 2, (meshAt exLater red (exMesh true) 1).own p ≠ [] := ⟨0, by simp, by rw [h1]; simp [exMesh]⟩
  have hacc := (C110_all_or_none 2 (by norm_num) exLater (exMesh true) red _ .refl).1
  obtain ⟨s, hs, hno⟩ : ∃ s, Steps red (start fun p : Fin 2 => process exLater (exMesh true) p) s ∧ ∀ s', ¬ Step red s s' := exists_final red hacc
  have h := C101_idle_cycle 2 exLater (exMesh true) red hm hc 1 (by decide) h0 hq hp s hs hno
  exact ⟨s, hs, h.1, h.2, C110_idle_cycle 2 exLater (exMesh true) red ⟨1, by decide, hq⟩ s hs hno⟩

/-- `C110_more_processes`: six dofs on seven processes. -/
example (red : Call → (Fin 7 → Val) → Val) : ∃ s, Steps red (start fun p : Fin 7 => process (exConfig true) (exMesh false) p) s ∧
    (∀ s', ¬ Step red s s') ∧ ∀ p, exitStatus (s p).1 ≠ some 0 := by
  obtain ⟨s, hs, hno⟩ := exists_final red (C110_all_or_none 7 (by norm_num) (exConfig true) (exMesh false) red _ .refl).1
  refine ⟨s, hs, hno, C110_more_processes 7 _ _ red 0 (Nat.zero_le _) ?_ ?_ (by change 6 < 7; norm_num) s hs hno⟩
  · intro q _ i hi
    change i ∈ (if q = 0 then List.range 6 else []) at hi
    split at hi
    · exact List.mem_range.1 hi
    · simp at hi
  · intro q _ r _ i hi hi'
    change i ∈ (if q = 0 then List.range 6 else []) at hi
    change i ∈ (if r = 0 then List.range 6 else []) at hi'
    split at hi
    · split at hi'
      · omega
      · simp at hi'
    · simp at hi

end PiBem.Mpi
