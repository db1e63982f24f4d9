import Verif.Props.Collectives

/-!
# C110: exit status

What `main` returns on every process, and when: the status does not depend on the schedule, it is the same on all processes, and it is
`0` exactly if the solves converge and the method is available.
-/

set_option linter.unusedSectionVars false

noncomputable section

namespace PiBem.Mpi

/-- What `main` returns (main.cc:18-69): the only handlers of the program are around everything `main` does; both return `1`, and
`0` is returned after them. A process that still waits in a call returns nothing. The printed messages are left out. -/
def exitStatus {κ ρ α : Type} : Prog κ ρ α → Option ℕ
  | .ret _ => some 0
  | .fail => some 1
  | .coll .. => none

/-! ## The schedule -/

section
variable {κ ρ α : Type} {n : ℕ}

theorem Step.diamond (hn : 0 < n) {red : κ → (Fin n → ρ) → ρ} {a b c : Sys κ ρ α n} (hb : Step red a b) (hc : Step red a c) :
    b = c ∨ ∃ d, Step red b d ∧ Step red c d := by
  cases hb with
  | arrive p c1 x1 k1 h1 =>
    cases hc with
    | arrive q c2 x2 k2 h2 =>
      by_cases hpq : p = q
      · subst hpq
        rw [h1] at h2
        simp only [Prod.mk.injEq, Prog.coll.injEq, and_true] at h2
        obtain ⟨rfl, rfl, rfl⟩ := h2
        exact .inl rfl
      · refine .inr ⟨_, .arrive _ q c2 x2 k2 (by rw [Function.update_of_ne (Ne.symm hpq)]; exact h2), ?_⟩
        rw [Function.update_comm hpq]
        exact .arrive _ p c1 x1 k1 (by rw [Function.update_of_ne hpq]; exact h1)
    | complete c2 x2 k2 h2 =>
      have := h2 p
      rw [h1] at this
      simp at this
  | complete c1 x1 k1 h1 =>
    cases hc with
    | arrive q c2 x2 k2 h2 =>
      have := h1 q
      rw [h2] at this
      simp at this
    | complete c2 x2 k2 h2 =>
      left
      have h : ∀ p, c1 = c2 ∧ x1 p = x2 p ∧ k1 p = k2 p := fun p => by
        have := (h1 p).symm.trans (h2 p)
        simpa using this
      have hx : x1 = x2 := funext fun p => (h p).2.1
      funext p
      rw [(h ⟨0, hn⟩).1, hx, (h p).2.2]

/-- Two executions that cannot go on have reached the same state, whatever the programs. -/
theorem final_unique (hn : 0 < n) {red : κ → (Fin n → ρ) → ρ} {a b c : Sys κ ρ α n} (hb : Steps red a b) (hc : Steps red a c)
    (hb' : ∀ d, ¬ Step red b d) (hc' : ∀ d, ¬ Step red c d) : b = c := by
  obtain ⟨d, h1, h2⟩ := Relation.church_rosser (r := Step (α := α) red) (fun a b c hb hc => by
    rcases hb.diamond hn hc with rfl | ⟨d, h1, h2⟩
    · exact ⟨_, .refl, .refl⟩
    · exact ⟨d, .single h1, .single h2⟩) hb hc
  have stay : ∀ {x : Sys κ ρ α n}, (∀ d, ¬ Step red x d) → Steps red x d → x = d := by
    intro x hx h
    rcases h.cases_head with h | ⟨y, hy, _⟩
    · exact h
    · exact absurd hy (hx y)
  rw [stay hb' h1, stay hc' h2]

end

variable {n : ℕ} {T : (Fin n → Shape) → Prop} [Stuck T] (cfg : Config)

/-- The solver does not converge within the limit, whatever the answers are. -/
def Diverges (which : Solve) : Prop := ∀ h : List Val, h.length < cfg.limit → cfg.strategy which h ≠ none

theorem dead_gmres {A : AbsSt} (which : Solve) {op : Fin n → M Unit} (hop : Tri T A op A) (prec : Obj)
    (hF : T fun _ => .fail) (hd : Diverges cfg which) :
    Dead T A (fun p => gmres cfg which p (op p) prec cfg.limit []) := by
  have key : ∀ (k : ℕ) (h : List Val), h.length + k = cfg.limit →
      Dead T A (fun p : Fin n => gmres cfg which p (op p) prec k h) := by
    intro k
    induction k with
    | zero => exact fun h hl v s hs => .stop _ hF
    | succ k ih =>
      intro h hl
      unfold gmres
      cases hst : cfg.strategy which h with
      | none => exact absurd hst (hd h (by omega))
      | some r =>
        cases r with
        | operator => exact hop.deadSeq (ih _ (by simp; omega))
        | preconditioner => exact (Tri.sync _ _).deadSeq (ih _ (by simp; omega))
        | dot => exact (Tri.call _ _ _).dead fun r => ih _ (by simp; omega)
  exact key _ _ (by simp)

theorem dead_mass (g : Mesh) (which : Solve) {x rhs mat : Obj} {A : AbsSt} (hr : A rhs = .add)
    (hmat : A mat = .add) (hF : T fun _ => .fail) (hd : Diverges cfg which) :
    Dead T A (fun p : Fin n => massSolve cfg g p which x rhs mat) := by
  unfold massSolve
  refine Tri.deadSeq (Tri.reinit _ _).fresh (Tri.deadSeq (Tri.reinit _ _).fresh (Tri.deadSeq (B := A) (Tri.silent fun p => ?_)
    (Tri.deadSeq (Tri.compress_add (.inl hmat)).fresh (Tri.deadSeq (Tri.compress_add (.inl hr)).fresh (Tri.deadSeq (Tri.sync _ _)
    (dead_gmres cfg which (Tri.sync _ _) mat hF hd).bind)))))
  exact Silent.loop fun c => Silent.ite (Silent.loop fun _ => (Silent.loop fun _ => Silent.addEl hmat).seq (Silent.addEl hr))
    (Silent.pure _)

theorem dead_needs3d {A : AbsSt} (hF : T fun _ => .fail) (h : cfg.dim ≠ 3) : Dead T A (fun _ : Fin n => needs3d cfg) := by
  unfold needs3d
  rw [if_neg h]
  exact fun v s hs => .stop _ hF

theorem dead_either {A : AbsSt} {c : Prop} [Decidable c] {m m' : Fin n → M Unit} (h : c → Dead T A m) (h' : ¬ c → Dead T A m') :
    Dead T A fun p => either c (m p) (m' p) := by
  by_cases hc : c
  · simpa [either, hc] using h hc
  · simpa [either, hc] using h' hc

theorem dead_linear (g : Mesh) (hF : T fun _ => .fail) (hd : Diverges cfg .system) :
    Dead T disc (fun p : Fin n => either cfg.direct (do
      assemblePreconditioner g p
      gmres cfg .system p (constrainedVmult cfg g p) .band cfg.limit []) do
      needs3d cfg
      fmaPreconditioner g p
      gmres cfg .system p (constrainedVmult cfg g p) .finalPrec cfg.limit []) := by
  have h1 := tri_constrained (n := n) (T := T) cfg g (.inr hF)
  refine dead_either (fun _ => (tri_band g).deadSeq (dead_gmres cfg _ h1 _ hF hd)) fun _ => ?_
  exact (tri_needs3d cfg (.inr hF)).deadSeq ((tri_fmaPrec g).deadSeq (dead_gmres cfg _ h1 _ hF hd))

/-- The first cycle cannot be left if its problem cannot be solved. -/
theorem dead_cycles (g : Mesh) (h : Dead T disc' fun p : Fin n => solveProblem cfg g p) : Dead T disc' fun p : Fin n => run cfg g p := by
  have h4 : ∀ k, Dead T disc' fun p : Fin n => cycles cfg p k g := by
    intro k
    cases k with
    | zero => exact (tri_reinit cfg g).deadSeq h.bind
    | succ k => exact (tri_reinit cfg g).deadSeq h.bind
  exact (h4 _).bind

theorem dead_problem (g : Mesh) (hF : T fun _ => .fail) (h : Dead T disc fun p : Fin n => bemSolve cfg g p) :
    Dead T disc' fun p : Fin n => solveProblem cfg g p := by
  unfold solveProblem
  exact tri_first.deadSeq ((tri_normals cfg g fun _ => .inr hF).deadSeq ((tri_prepare g).deadSeq h.bind))

theorem dead_run (g : Mesh) (hg : g.Full n) (hr : ∀ (g : Mesh) r, g.Full n → (cfg.refine g r).Full n) (hF : T fun _ => .fail)
    (h : ¬ Method cfg ∨ ∃ w, Diverges cfg w) : Dead T disc' fun p : Fin n => run cfg g p := by
  have hm : Method cfg ∨ T fun _ : Fin n => .fail := .inr hF
  have hc : ∀ w, Converges cfg w ∨ T fun _ : Fin n => .fail := fun w => .inr hF
  rcases h with h | ⟨w, hd⟩
  · simp only [Method, not_or] at h
    refine dead_cycles cfg g (dead_problem cfg g hF ?_)
    unfold bemSolve
    exact (dead_either (fun hd => absurd hd h.1) fun _ => (dead_needs3d cfg hF h.2).bind).bind
  · cases w with
    | normals =>
      refine dead_cycles cfg g ?_
      unfold solveProblem computeNormals
      exact tri_first.deadSeq (((Tri.reinit _ _).fresh.deadSeq (dead_mass cfg g _ rfl rfl hF hd)).bind)
    | surface =>
      refine dead_cycles cfg g (dead_problem cfg g hF ?_)
      unfold bemSolve
      refine (tri_assemble cfg g hm).deadSeq ?_
      unfold solveSystem computeConstraints computeSurfaceGradients
      refine Tri.deadSeq (tri_alpha cfg g hm) (Tri.deadSeq (tri_free cfg g) (Tri.deadSeq (tri_rhs cfg g hm) (Dead.bind (Dead.bind ?_))))
      exact (Tri.sync _ _).deadSeq ((Tri.reinit _ _).fresh.deadSeq (dead_mass cfg g _ rfl rfl hF hd))
    | system =>
      refine dead_cycles cfg g (dead_problem cfg g hF ?_)
      unfold bemSolve
      refine (tri_assemble cfg g hm).deadSeq ?_
      unfold solveSystem
      exact Tri.deadSeq (tri_alpha cfg g hm) (Tri.deadSeq (tri_free cfg g) (Tri.deadSeq (tri_rhs cfg g hm)
        (Tri.deadSeq (tri_constraints cfg g (hc _)) (Tri.deadSeq (tri_distributeRhs g) (Tri.deadSeq (Tri.reinit _ _).fresh
        (dead_linear cfg g hF hd).bind)))))
    | gradients =>
      unfold run
      refine Tri.dead (tri_cycles cfg hm hc hr _ g hg) fun last => Dead.bind ?_
      unfold computeErrors computeGradients
      refine Dead.bind (Tri.deadSeq (B := disc') (Tri.sync _ _) (Tri.deadSeq (B := disc') (Tri.sync _ _) (Tri.deadSeq (B := disc') ?_ ?_)))
      · exact (Tri.reinit _ _).fresh
      · exact dead_mass cfg last _ rfl rfl hF hd

/-- No process has ended and one has failed. -/
def NoneEnded (sh : Fin n → Shape) : Prop := (∀ p, sh p ≠ .ret) ∧ ∃ p, sh p = .fail

theorem noneEnded_stuck : Stuck (NoneEnded (n := n)) := ⟨fun _ h => h⟩

theorem dead_idle (g : Mesh) (hq : ∃ q < n, g.own q = []) : Dead NoneEnded disc' fun p : Fin n => run cfg g p := by
  have := noneEnded_stuck (n := n)
  obtain ⟨q, hqn, hq⟩ := hq
  have hF : NoneEnded fun _ : Fin n => .fail := ⟨fun p => by simp, ⟨q, hqn⟩, rfl⟩
  have hm : Method cfg ∨ NoneEnded fun _ : Fin n => .fail := .inr hF
  have hc : ∀ w, Converges cfg w ∨ NoneEnded fun _ : Fin n => .fail := fun w => .inr hF
  refine dead_cycles cfg g (dead_problem cfg g hF ?_)
  unfold bemSolve
  refine (tri_assemble cfg g hm).deadSeq ?_
  unfold solveSystem
  refine Tri.deadSeq (tri_alpha cfg g hm) (Tri.deadSeq (tri_free cfg g) (Tri.deadSeq (tri_rhs cfg g hm)
    (Tri.deadSeq (tri_constraints cfg g (hc _)) (Tri.deadSeq (tri_distributeRhs g) (Tri.deadSeq (Tri.reinit _ _).fresh
    (Tri.deadSeq (tri_linear cfg g hm hc) ?_))))))
  intro v s hs
  have h : ∀ p : Fin n, (storeSolution g p (s p)).shape = if g.own p = [] then .fail else .coll := fun p => shape_store g p (hs p)
  refine .stop _ ⟨fun p => ?_, ⟨q, hqn⟩, (h _).trans (by simp [hq])⟩
  refine (h p).trans_ne ?_
  split <;> simp

/-! ## The statements -/

/-- **C110.** The state in which an execution of the program ends, on all processes, and with it every exit status, does not depend
on the schedule: two executions that cannot go on are in the same state. No hypothesis on the mesh: this includes runs that hang. -/
theorem C110_schedule (hn : 0 < n) (g : Mesh) (red : Call → (Fin n → Val) → Val) (s s' : Sys Call Val (Unit × St) n)
    (hs : Steps red (start fun p => process cfg g p) s) (hs' : Steps red (start fun p => process cfg g p) s')
    (hno : ∀ t, ¬ Step red s t) (hno' : ∀ t, ¬ Step red s' t) : s = s' := final_unique hn hs hs' hno hno'

/-- **C110.** If every process owns a dof in every cycle, then at the end `main` has returned `0` on all processes or `1` on all. -/
theorem C110_same_status (n : ℕ) (hn : 0 < n) (cfg : Config) (g : Mesh) (hg : ∀ p < n, g.own p ≠ [])
    (hr : ∀ (g : Mesh) r, (∀ p < n, g.own p ≠ []) → ∀ p < n, (cfg.refine g r).own p ≠ [])
    (red : Call → (Fin n → Val) → Val) (s : Sys Call Val (Unit × St) n)
    (hs : Steps red (start fun p => process cfg g p) s) (hno : ∀ s', ¬ Step red s s') :
    (∀ p, exitStatus (s p).1 = some 0) ∨ ∀ p, exitStatus (s p).1 = some 1 := by
  rcases (C101_no_deadlock n hn cfg g hg hr red s hs).2.2 hno with h | h
  · refine .inl fun p => ?_
    obtain ⟨a, ha⟩ := h p
    rw [ha]; rfl
  · exact .inr fun p => by rw [h p]; rfl

/-- **C110.** It is `0` if the method is available in the dimension and the solvers converge within their limit. -/
theorem C110_success (n : ℕ) (hn : 0 < n) (cfg : Config) (g : Mesh) (hg : ∀ p < n, g.own p ≠ [])
    (hr : ∀ (g : Mesh) r, (∀ p < n, g.own p ≠ []) → ∀ p < n, (cfg.refine g r).own p ≠ [])
    (hm : cfg.direct = true ∨ cfg.dim = 3) (hc : ∀ w, Converges cfg w) (red : Call → (Fin n → Val) → Val)
    (s : Sys Call Val (Unit × St) n) (hs : Steps red (start fun p => process cfg g p) s) (hno : ∀ s', ¬ Step red s s') :
    ∀ p, exitStatus (s p).1 = some 0 := fun p => by
  obtain ⟨a, ha⟩ := C101_ends n hn cfg g hg hr hm hc red s hs hno p
  rw [ha]; rfl

/-- **C110.** It is `1`, on all processes and in every execution, if the method is not available in the dimension, or if one of the
solves (normals, surface gradients, gradients, linear system) does not converge within the limit. -/
theorem C110_failure (n : ℕ) (hn : 0 < n) (cfg : Config) (g : Mesh) (hg : ∀ p < n, g.own p ≠ [])
    (hr : ∀ (g : Mesh) r, (∀ p < n, g.own p ≠ []) → ∀ p < n, (cfg.refine g r).own p ≠ [])
    (h : ¬ (cfg.direct = true ∨ cfg.dim = 3) ∨ ∃ w, Diverges cfg w) (red : Call → (Fin n → Val) → Val)
    (s : Sys Call Val (Unit × St) n) (hs : Steps red (start fun p => process cfg g p) s) (hno : ∀ s', ¬ Step red s s') :
    ∀ p, exitStatus (s p).1 = some 1 := by
  have := allFail_stuck hn True
  have h := dead_run (n := n) (T := AllFail True) cfg g hg hr ⟨trivial, fun _ => rfl⟩ h initial.vars (fun _ => initial)
    fun _ => in_initial _
  rcases (h.ends red hn).2.1 s hs hno with ⟨a, ha, _⟩ | ⟨_, hf⟩
  · exact ha.elim
  · intro p
    have hp : (s p).1.shape = .fail := hf p
    generalize (s p).1 = m at hp
    cases m <;> simp [Prog.shape] at hp
    rfl

/-- **C110.** If a process owns no dof, `main` returns `0` on no process, whatever the method and the solvers do, and it returns `1` on
one of them. -/
theorem C110_idle (n : ℕ) (cfg : Config) (g : Mesh) (hq : ∃ q < n, g.own q = []) (red : Call → (Fin n → Val) → Val)
    (s : Sys Call Val (Unit × St) n) (hs : Steps red (start fun p => process cfg g p) s) :
    Acc (fun a b => Step red b a) s ∧
    ((∀ s', ¬ Step red s s') → (∀ p, exitStatus (s p).1 ≠ some 0) ∧ ∃ p, exitStatus (s p).1 = some 1) := by
  have hn : 0 < n := by obtain ⟨q, h, _⟩ := hq; omega
  have := noneEnded_stuck (n := n)
  have h := dead_idle (n := n) cfg g hq initial.vars (fun _ => initial) fun _ => in_initial _
  have he := h.ends red hn
  refine ⟨he.1 s hs, fun hno => ?_⟩
  rcases he.2.1 s hs hno with ⟨a, ha, _⟩ | ⟨h1, q, h2⟩
  · exact ha.elim
  · refine ⟨fun p => ?_, q, ?_⟩
    · have hp : (s p).1.shape ≠ .ret := h1 p
      generalize (s p).1 = m at hp
      cases m <;> simp [Prog.shape] at hp <;> simp [exitStatus]
    · change (s q).1.shape = .fail at h2
      generalize (s q).1 = m at h2
      cases m <;> simp [Prog.shape] at h2
      rfl

/-- **C110.** So one process that returns `0` says everything: all processes return `0`, every process owned a dof, the method is
available, and there is no solve that cannot converge. -/
theorem C110_zero_means (n : ℕ) (cfg : Config) (g : Mesh)
    (hr : ∀ (g : Mesh) r, (∀ p < n, g.own p ≠ []) → ∀ p < n, (cfg.refine g r).own p ≠ [])
    (red : Call → (Fin n → Val) → Val) (s : Sys Call Val (Unit × St) n)
    (hs : Steps red (start fun p => process cfg g p) s) (hno : ∀ s', ¬ Step red s s') (p : Fin n)
    (h0 : exitStatus (s p).1 = some 0) :
    (∀ q, exitStatus (s q).1 = some 0) ∧ (∀ q < n, g.own q ≠ []) ∧ (cfg.direct = true ∨ cfg.dim = 3) ∧ ∀ w, ¬ Diverges cfg w := by
  have hn : 0 < n := p.pos
  have hg : ∀ q < n, g.own q ≠ [] := by
    intro q hq he
    exact ((C110_idle n cfg g ⟨q, hq, he⟩ red s hs).2 hno).1 p h0
  have h1 : ¬ (¬ (cfg.direct = true ∨ cfg.dim = 3) ∨ ∃ w, Diverges cfg w) := by
    intro h
    have := C110_failure n hn cfg g hg hr h red s hs hno p
    rw [h0] at this
    simp at this
  rw [not_or, not_not, not_exists] at h1
  refine ⟨?_, hg, h1.1, h1.2⟩
  rcases C110_same_status n hn cfg g hg hr red s hs hno with h | h
  · exact h
  · have := h p
    rw [h0] at this
    simp at this

/-! ## A concrete case -/

/-- Two cells on two processes: with the solver of `exConfig` both return `0`, in dimension two with the fast multipole method
both return `1`, and with a solver that always asks for another product too. -/
theorem C110_example (red : Call → (Fin 2 → Val) → Val) :
    (∃ s, Steps red (start fun p : Fin 2 => process (exConfig false) (exMesh true) p) s ∧ (∀ s', ¬ Step red s s') ∧
      ∀ p, exitStatus (s p).1 = some 0) ∧
    (∃ s, Steps red (start fun p : Fin 2 => process { exConfig false with dim := 2 } (exMesh true) p) s ∧ (∀ s', ¬ Step red s s') ∧
      ∀ p, exitStatus (s p).1 = some 1) ∧
    ∃ s, Steps red (start fun p : Fin 2 => process { exConfig true with strategy := fun _ _ => some .operator } (exMesh true) p) s ∧
      (∀ s', ¬ Step red s s') ∧ ∀ p, exitStatus (s p).1 = some 1 := by
  have hg : ∀ p < 2, (exMesh true).own p ≠ [] := by
    intro p _
    simp only [exMesh, if_true]
    split <;> simp
  have he : ∀ cfg : Config, (∀ (g : Mesh) r, (∀ p < 2, g.own p ≠ []) → ∀ p < 2, (cfg.refine g r).own p ≠ []) →
      ∃ s, Steps red (start fun p : Fin 2 => process cfg (exMesh true) p) s ∧ ∀ s', ¬ Step red s s' := by
    intro cfg hr
    have := allFail_stuck (n := 2) (by norm_num) True
    have h := tri_run (n := 2) (T := AllFail True) cfg (exMesh true) hg (.inr ⟨trivial, fun _ => rfl⟩)
      (fun _ => .inr ⟨trivial, fun _ => rfl⟩) hr initial.vars (fun _ => initial) fun _ => in_initial _
    exact (h.ends red (by norm_num)).2.2
  refine ⟨?_, ?_, ?_⟩
  · obtain ⟨s, hs, hno, h⟩ := (C101_example false red).1
    refine ⟨s, hs, hno, fun p => ?_⟩
    obtain ⟨a, ha⟩ := h p
    rw [ha]; rfl
  · obtain ⟨s, hs, hno⟩ := he { exConfig false with dim := 2 } fun _ _ _ => hg
    exact ⟨s, hs, hno, C110_failure 2 (by norm_num) _ _ hg (fun _ _ _ => hg) (.inl (by simp [exConfig])) red s hs hno⟩
  · obtain ⟨s, hs, hno⟩ := he { exConfig true with strategy := fun _ _ => some .operator } fun _ _ _ => hg
    exact ⟨s, hs, hno, C110_failure 2 (by norm_num) _ _ hg (fun _ _ _ => hg) (.inr ⟨.system, fun h _ => by simp⟩) red s hs hno⟩

end PiBem.Mpi
