import Verif.Mpi.Rules

/-!
# C101: collective operations

The processes make the same collective calls in the same order: a run cannot hang, unless a process owns no dof.
-/

set_option linter.unusedSectionVars false

noncomputable section

namespace PiBem.Mpi

variable {n : ℕ} {T : (Fin n → Shape) → Prop} [Stuck T] (cfg : Config)

/-- Discipline of an object: which accesses are made between two assemblies. -/
def disc : AbsSt
  | .phi | .dphi | .tmpRhs | .dirichletNodes | .neumannNodes | .systemRhs | .hypAlpha | .cij _ | .normals | .surfGrads
  | .grads => .ins
  | .finalPrec => .any
  | _ => .add

/-- Between two solutions any access to the potential may have been the last. -/
def disc' : AbsSt := Function.update disc .phi .any

theorem Tri.fresh {A : AbsSt} {o : Obj} {m : Fin n → M Unit} (h : Tri T A m (Function.update A o .zero)) : Tri T A m A :=
  h.post fun q a ha => by
    by_cases hq : q = o
    · subst hq
      simp only [Function.update_self, Abs.has] at ha
      cases A q <;> simp [Abs.has, ha]
    · rwa [Function.update_of_ne hq] at ha

theorem Tri.onlyIf {A : AbsSt} {c : Prop} [Decidable c] {m : Fin n → M Unit} (h : Tri T A m A) :
    Tri T A (fun p => onlyIf c (m p)) A := Tri.ite (fun _ => h) fun _ => Tri.pure A ()

theorem Tri.either {A B : AbsSt} {c : Prop} [Decidable c] {m m' : Fin n → M Unit} (h : Tri T A m B)
    (h' : ¬ c → Tri T A m' B) : Tri T A (fun p => either c (m p) (m' p)) B := Tri.ite (fun _ => h) h'

theorem Silent.onlyIf {A : AbsSt} {c : Prop} [Decidable c] {m : M Unit} (h : Silent A m A) : Silent A (onlyIf c m) A :=
  Silent.ite h (Silent.pure A)

theorem Silent.keep {A : AbsSt} {m m' : M Unit} (h : Silent A m A) (h' : Silent A m' A) :
    Silent A (m >>= fun _ => m') A := h.seq h'

theorem Tri.keep {α β : Type} {A : AbsSt} {m : Fin n → M α} {f : Fin n → α → M β} (hm : Tri T A m A)
    (hf : ∀ a, Tri T A (fun p => f p a) A) : Tri T A (fun p => m p >>= f p) A := hm.bind hf

/-- Loops of element accesses. -/
macro "accesses" : tactic => `(tactic| repeat' first
  | exact Silent.pure _
  | exact Silent.setEl rfl
  | exact Silent.addEl rfl
  | refine Silent.onlyIf ?_
  | refine Silent.loop fun _ => ?_
  | refine Silent.ite ?_ ?_
  | refine Silent.keep ?_ ?_)

/-- Sequences of calls that keep the discipline. -/
macro "calls" : tactic => `(tactic| repeat' first
  | assumption
  | exact Tri.pure _ _
  | exact Tri.sync _ _
  | exact Tri.call _ _ _
  | exact Tri.getVars _
  | exact Tri.setVars _ _
  | exact (Tri.reinit _ _).fresh
  | exact (Tri.assign _ _).fresh
  | exact (Tri.compress_ins (.inl rfl)).fresh
  | exact (Tri.compress_add (.inl rfl)).fresh
  | (refine Tri.silent fun _ => ?_; accesses; done)
  | refine Tri.onlyIf ?_
  | refine Tri.loop fun _ _ => ?_
  | refine Tri.keep ?_ fun _ => ?_)

theorem tri_shift (g : Mesh) {o : Obj} {A : AbsSt} (ho : A o = .add) : Tri T A (fun p : Fin n => vectorShift g p o) A :=
  Tri.silent fun _ => Silent.loop fun _ => Silent.addEl ho

theorem tri_needs3d (h : cfg.dim = 3 ∨ T fun _ => .fail) : Tri T disc (fun _ : Fin n => needs3d cfg) disc :=
  Tri.ite (fun _ => Tri.pure _ _) fun hc => Tri.abort (h.resolve_left hc)

theorem tri_fma (g : Mesh) (x y : Obj) {px py : Obj} (hx : disc px = .add) (hy : disc py = .add) :
    Tri T disc (fun p : Fin n => fmaProduct g p x y px py) disc := by
  unfold fmaProduct
  calls
  exact Tri.silent fun _ => Silent.loop fun _ => (Silent.addEl hy).seq (Silent.addEl hx)

/-- The method is available: direct, or three dimensions. -/
abbrev Method : Prop := cfg.direct = true ∨ cfg.dim = 3

theorem method_dim (h : Method cfg ∨ T fun _ => .fail) (hd : ¬ cfg.direct = true) : cfg.dim = 3 ∨ T fun _ => .fail := by tauto

theorem tri_vmult (g : Mesh) (hm : Method cfg ∨ T fun _ => .fail) : Tri T disc (fun p : Fin n => vmult cfg g p) disc := by
  unfold vmult
  have h1 := tri_shift (n := n) (T := T) g (o := .servPhi) (A := disc) rfl
  have h2 := tri_shift (n := n) (T := T) g (o := .krylov) (A := disc) rfl
  calls
  refine Tri.either (by calls) fun hd => (tri_needs3d cfg (method_dim cfg hm hd)).seq (tri_fma g _ _ (by rfl) (by rfl))

theorem tri_constrained (g : Mesh) (hm : Method cfg ∨ T fun _ => .fail) : Tri T disc (fun p : Fin n => constrainedVmult cfg g p) disc := by
  unfold constrainedVmult
  have h1 := tri_vmult (n := n) cfg g hm
  calls

/-- The solver ends within the limit. -/
def Converges (which : Solve) : Prop := 0 < cfg.limit ∧ ∀ h : List Val, h.length + 1 = cfg.limit → cfg.strategy which h = none

theorem tri_gmres {A : AbsSt} (which : Solve) {op : Fin n → M Unit} (hop : Tri T A op A) (prec : Obj)
    (hc : Converges cfg which ∨ T fun _ => .fail) :
    Tri T A (fun p => gmres cfg which p (op p) prec cfg.limit []) A := by
  have key : ∀ (k : ℕ) (h : List Val), h.length + k = cfg.limit → (k = 0 → T fun _ => .fail) →
      Tri T A (fun p : Fin n => gmres cfg which p (op p) prec k h) A := by
    intro k
    induction k with
    | zero =>
      intro h hl hF
      exact Tri.abort (hF rfl)
    | succ k ih =>
      intro h hl _
      unfold gmres
      cases hst : cfg.strategy which h with
      | none => exact Tri.pure _ _
      | some r =>
        have hF : k = 0 → T fun _ => .fail := by
          rintro rfl
          rcases hc with ⟨_, hc⟩ | hF
          · rw [hc h hl] at hst; simp at hst
          · exact hF
        cases r with
        | operator => exact hop.seq (ih _ (by simp; omega) hF)
        | preconditioner => exact (Tri.sync _ _).seq (ih _ (by simp; omega) hF)
        | dot => exact (Tri.call _ _ _).bind fun r => ih _ (by simp; omega) hF
  exact key _ _ (by simp) fun h0 => hc.elim (fun h => absurd h0 h.1.ne') id

theorem tri_distribute (g : Mesh) {x : Obj} {A : AbsSt} (hx : A x = .ins) : Tri T A (fun p : Fin n => distribute g p x) A := by
  unfold distribute
  refine Tri.seq (Tri.sync _ _) (Tri.seq (Tri.silent fun _ => Silent.loop fun _ => Silent.setEl hx) ?_)
  exact (Tri.compress_ins (.inl hx)).fresh

theorem tri_mass (g : Mesh) (which : Solve) {x rhs mat : Obj} {A : AbsSt} (hx : A x = .ins) (hr : A rhs = .add)
    (hmat : A mat = .add) (hc : Converges cfg which ∨ T fun _ => .fail) :
    Tri T A (fun p : Fin n => massSolve cfg g p which x rhs mat) A := by
  unfold massSolve
  refine Tri.seq (Tri.reinit _ _).fresh (Tri.seq (Tri.reinit _ _).fresh (Tri.seq (Tri.silent fun p => ?_)
    (Tri.seq (Tri.compress_add (.inl hmat)).fresh (Tri.seq (Tri.compress_add (.inl hr)).fresh (Tri.seq (Tri.sync _ _)
    (Tri.seq (tri_gmres cfg which (Tri.sync _ _) mat hc) (tri_distribute g hx)))))))
  exact Silent.loop fun c => Silent.ite (Silent.loop fun _ => (Silent.loop fun _ => Silent.addEl hmat).seq (Silent.addEl hr))
    (Silent.pure _)

theorem tri_alpha (g : Mesh) (hm : Method cfg ∨ T fun _ => .fail) : Tri T disc (fun p : Fin n => computeAlpha cfg g p) disc := by
  unfold computeAlpha
  have h1 := tri_shift (n := n) (T := T) g (o := .ones) (A := disc) rfl
  calls
  exact Tri.either (Tri.sync _ _) fun hd => (tri_needs3d cfg (method_dim cfg hm hd)).seq (tri_fma g _ _ (by rfl) (by rfl))

theorem tri_free (g : Mesh) : Tri T disc (fun p : Fin n => computeFreeCoeffs cfg g p) disc := by
  unfold computeFreeCoeffs
  calls

theorem tri_rhs (g : Mesh) (hm : Method cfg ∨ T fun _ => .fail) : Tri T disc (fun p : Fin n => computeRhs cfg g p) disc := by
  unfold computeRhs
  calls
  exact Tri.either (by calls) fun hd => (tri_needs3d cfg (method_dim cfg hm hd)).seq (tri_fma g _ _ (by rfl) (by rfl))

theorem tri_constraints (g : Mesh) (hc : Converges cfg .surface ∨ T fun _ => .fail) :
    Tri T disc (fun p : Fin n => computeConstraints cfg g p) disc := by
  unfold computeConstraints computeSurfaceGradients
  have h1 := tri_mass (n := n) cfg g .surface (A := disc) (x := .surfGrads) (rhs := .surfRhs) (mat := .surfMat) rfl rfl rfl hc
  calls

theorem tri_distributeRhs (g : Mesh) : Tri T disc (fun p : Fin n => distributeRhs g p) disc := by
  unfold distributeRhs
  calls

theorem tri_band (g : Mesh) : Tri T disc (fun p : Fin n => assemblePreconditioner g p) disc := by
  unfold assemblePreconditioner
  refine Tri.bind (Tri.getVars _) fun v => Tri.seq (Tri.either (by calls) fun _ => (Tri.reinit _ _).fresh) ?_
  calls

theorem le_update {A : AbsSt} {o : Obj} {x y : Abs} (h : ∀ a, x.has a → y.has a) : Le (Function.update A o x) (Function.update A o y) := by
  intro q a ha
  by_cases hq : q = o
  · subst hq; simp only [Function.update_self] at ha ⊢; exact h a ha
  · rwa [Function.update_of_ne hq] at ha ⊢

theorem le_zero {A : AbsSt} {o : Obj} {y : Abs} : Le (Function.update A o .zero) (Function.update A o y) :=
  le_update fun a ha => by
    have : a = .zero := ha
    subst this; cases y <;> simp [Abs.has]

theorem Tri.reset {A : AbsSt} {o : Obj} {m : Fin n → M Unit} {x : Abs}
    (h : Tri T (Function.update A o x) m (Function.update (Function.update A o x) o .zero)) (y : Abs) :
    Tri T (Function.update A o x) m (Function.update A o y) := by
  rw [Function.update_idem] at h
  exact h.post le_zero

theorem tri_fmaPrec (g : Mesh) : Tri T disc (fun p : Fin n => fmaPreconditioner g p) disc := by
  unfold fmaPreconditioner
  have e : disc = Function.update disc .finalPrec .any := (Function.update_eq_self_iff.mpr rfl).symm
  refine Tri.seq (Tri.sync _ _) (Tri.seq (Tri.sync _ _) ?_)
  refine Tri.seq ((Tri.reinit disc _).post (le_zero (y := .ins))) ?_
  refine Tri.seq (Tri.silent fun p => Silent.loop fun i => Silent.ite ?_ (Silent.pure _)) ?_
  · split
    · exact (Silent.setEl (by simp)).seq (Silent.loop fun _ => Silent.setEl (by simp))
    · exact Silent.loop fun _ => Silent.setEl (by simp)
  refine Tri.seq (Tri.reset (Tri.compress_ins (.inl (by simp))) .add) ?_
  refine Tri.seq (Tri.silent fun p => Silent.loop fun i => Silent.ite (Silent.addEl (by simp)) (Silent.pure _)) ?_
  refine Tri.seq (Tri.reset (Tri.compress_add (.inl (by simp))) .zero) ?_
  refine Tri.seq (Tri.reset (Tri.compress_ins (.inr (by simp))) .any) ?_
  rw [← e]
  exact Tri.sync _ _

/-- Every process owns a dof. -/
def Mesh.Full (n : ℕ) (g : Mesh) : Prop := ∀ p < n, g.own p ≠ []

theorem tri_store (g : Mesh) (hg : g.Full n) :
    Tri T disc (fun p : Fin n => storeSolution g p) (Function.update disc .phi .zero) := by
  unfold storeSolution
  have e : (fun p : Fin n => onlyIf (g.own p = []) abort) = fun _ => (pure () : M Unit) := by
    funext p
    simp [onlyIf, hg p p.2]
  refine Tri.seq (by calls) ?_
  refine Tri.seq (e ▸ Tri.pure _ _) ?_
  refine Tri.seq (B := disc) (Tri.silent fun _ => Silent.setEl rfl) (Tri.seq (B := disc) (Tri.silent fun _ => Silent.setEl rfl) (Tri.seq (Tri.compress_ins (.inl rfl)) ?_))
  exact (Tri.compress_ins (.inl rfl)).fresh

theorem tri_linear (g : Mesh) (hm : Method cfg ∨ T fun _ => .fail) (hc : ∀ w, Converges cfg w ∨ T fun _ => .fail) :
    Tri T disc (fun p : Fin n => either cfg.direct (do
      assemblePreconditioner g p
      gmres cfg .system p (constrainedVmult cfg g p) .band cfg.limit []) do
      needs3d cfg
      fmaPreconditioner g p
      gmres cfg .system p (constrainedVmult cfg g p) .finalPrec cfg.limit []) disc := by
  have h1 := tri_constrained (n := n) cfg g hm
  refine Tri.either ((tri_band g).seq (tri_gmres cfg _ h1 _ (hc _))) fun hd => ?_
  exact (tri_needs3d cfg (method_dim cfg hm hd)).seq ((tri_fmaPrec g).seq (tri_gmres cfg _ h1 _ (hc _)))

theorem tri_assemble (g : Mesh) (hm : Method cfg ∨ T fun _ => .fail) :
    Tri T disc (fun p : Fin n => either cfg.direct (assembleSystem g p) do
      needs3d cfg
      directIntegrals g p) disc := by
  refine Tri.either ?_ fun hd => (tri_needs3d cfg (method_dim cfg hm hd)).seq ?_
  · unfold assembleSystem
    calls
  · unfold directIntegrals
    calls

theorem tri_first : Tri T disc' (fun _ : Fin n => Mpi.loop [.phi, .dphi, .tmpRhs] reinit) disc := by
  refine Tri.seq (B := disc) ?_ (by calls)
  have := (Tri.reinit (n := n) (T := T) disc' .phi).post (B' := disc) ?_
  · exact this
  · rw [disc', Function.update_idem]
    intro q a ha
    by_cases hq : q = .phi
    · subst hq; simp [Abs.has] at ha; simp [disc, Abs.has, ha]
    · rwa [Function.update_of_ne hq] at ha

theorem tri_normals (g : Mesh) (hc : ∀ w, Converges cfg w ∨ T fun _ => .fail) :
    Tri T disc (fun p : Fin n => computeNormals cfg g p) disc := by
  unfold computeNormals
  exact Tri.seq (Tri.reinit _ _).fresh (tri_mass cfg g _ rfl rfl rfl (hc _))

theorem tri_prepare (g : Mesh) : Tri T disc (fun p : Fin n => prepareVectors g p) disc := by
  unfold prepareVectors
  calls

theorem tri_system (g : Mesh) (hg : g.Full n) (hm : Method cfg ∨ T fun _ => .fail) (hc : ∀ w, Converges cfg w ∨ T fun _ => .fail) :
    Tri T disc (fun p : Fin n => solveSystem cfg g p) (Function.update disc .phi .zero) := by
  unfold solveSystem
  exact Tri.seq (tri_alpha cfg g hm) (Tri.seq (tri_free cfg g) (Tri.seq (tri_rhs cfg g hm)
    (Tri.seq (tri_constraints cfg g (hc _)) (Tri.seq (tri_distributeRhs g) (Tri.seq (Tri.reinit _ _).fresh
    (Tri.seq (tri_linear cfg g hm hc) (tri_store g hg)))))))

theorem tri_solve (g : Mesh) (hg : g.Full n) (hm : Method cfg ∨ T fun _ => .fail) (hc : ∀ w, Converges cfg w ∨ T fun _ => .fail) :
    Tri T disc (fun p : Fin n => bemSolve cfg g p) (Function.update disc .phi .zero) := by
  unfold bemSolve
  exact Tri.seq (tri_assemble cfg g hm) (tri_system cfg g hg hm hc)

theorem tri_problem (g : Mesh) (hg : g.Full n) (hm : Method cfg ∨ T fun _ => .fail) (hc : ∀ w, Converges cfg w ∨ T fun _ => .fail) :
    Tri T disc' (fun p : Fin n => solveProblem cfg g p) disc' := by
  unfold solveProblem
  refine tri_first.seq ((tri_normals cfg g hc).seq ((tri_prepare g).seq ((tri_solve cfg g hg hm hc).seq (Tri.bind (Tri.getVars _) fun v => ?_))))
  have e : (fun p : Fin n => onlyIf ((p : ℕ) = 0 ∧ g.own p = []) abort) = fun _ => (pure () : M Unit) := by
    funext p
    simp [onlyIf, hg p p.2]
  have h3 : Tri T (Function.update disc .phi .add) (fun p : Fin n => do
      onlyIf ((p : ℕ) = 0 ∧ g.own p = []) abort
      let _ ← call .bcast (cfg.part .bcast p)
      vectorShift g p .phi) (Function.update disc .phi .add) :=
    Tri.seq (e ▸ Tri.pure _ _) (Tri.seq (Tri.call _ _ _) (tri_shift g (by simp)))
  exact (Tri.onlyIf h3).weaken le_zero (le_update fun a _ => trivial)

theorem tri_reinit (g : Mesh) : Tri T disc' (fun p : Fin n => bemReinit cfg g p) disc' := by
  unfold bemReinit computeDirichlet
  calls

theorem tri_cycles (hm : Method cfg ∨ T fun _ => .fail) (hc : ∀ w, Converges cfg w ∨ T fun _ => .fail) (hr : ∀ (g : Mesh) r, g.Full n → (cfg.refine g r).Full n) :
    ∀ (k : ℕ) (g : Mesh), g.Full n → Tri T disc' (fun p : Fin n => cycles cfg p k g) disc'
  | 0, g, hg => (tri_reinit cfg g).seq ((tri_problem cfg g hg hm hc).seq (Tri.pure _ g))
  | k + 1, g, hg => (tri_reinit cfg g).seq ((tri_problem cfg g hg hm hc).seq ((Tri.call _ _ _).bind fun r =>
      tri_cycles hm hc hr k _ (hr g r hg)))

theorem tri_run (g : Mesh) (hg : g.Full n) (hm : Method cfg ∨ T fun _ => .fail) (hc : ∀ w, Converges cfg w ∨ T fun _ => .fail)
    (hr : ∀ (g : Mesh) r, g.Full n → (cfg.refine g r).Full n) : Tri T disc' (fun p : Fin n => run cfg g p) disc' := by
  unfold run
  refine Tri.bind (tri_cycles cfg hm hc hr _ g hg) fun last => Tri.seq (B := disc') ?_ ?_
  · unfold computeErrors computeGradients
    have := tri_mass (n := n) cfg last .gradients (A := disc') (x := .grads) (rhs := .gradsRhs) (mat := .gradsMat) rfl rfl rfl (hc _)
    calls
  · unfold outputResults
    calls

omit [Stuck T] in
theorem in_initial (A : AbsSt) : In A initial.vars initial := ⟨rfl, fun o => by simp only [initial]; cases A o <;> simp [Abs.has]⟩

/-- **C101.** A run of `Driver::run` on any number of processes, each of which owns a dof, with any mesh, boundary conditions,
method, solvers and answers: no execution hangs, none is infinite, and when nothing can happen any more all processes have
ended, or all of them have failed. -/
theorem C101_no_deadlock (n : ℕ) (hn : 0 < n) (cfg : Config) (g : Mesh) (hg : ∀ p < n, g.own p ≠ [])
    (hr : ∀ (g : Mesh) r, (∀ p < n, g.own p ≠ []) → ∀ p < n, (cfg.refine g r).own p ≠ [])
    (red : Call → (Fin n → Val) → Val) (s : Sys Call Val (Unit × St) n)
    (hs : Steps red (start fun p => process cfg g p) s) :
    ¬ Deadlock red s ∧ Acc (fun a b => Step red b a) s ∧
    ((∀ s', ¬ Step red s s') → (∀ p, ∃ a, (s p).1 = .ret a) ∨ ∀ p, (s p).1 = .fail) := by
  have := allFail_stuck hn True
  have h := tri_run (n := n) (T := AllFail True) cfg g hg (.inr ⟨trivial, fun _ => rfl⟩) (fun _ => .inr ⟨trivial, fun _ => rfl⟩)
    hr initial.vars (fun _ => initial) fun _ => in_initial _
  have he := h.ends red hn
  have key : (∀ s', ¬ Step red s s') → (∀ p, ∃ a, (s p).1 = .ret a) ∨ ∀ p, (s p).1 = .fail := by
    intro hno
    rcases he.2.1 s hs hno with ⟨a, _, ha⟩ | ⟨_, hf⟩
    · exact .inl fun p => ⟨_, ha p⟩
    · refine .inr fun p => ?_
      have hp := hf p
      change (s p).1.shape = .fail at hp
      generalize (s p).1 = m at hp
      cases m <;> simp [Prog.shape] at hp ⊢
  refine ⟨?_, he.1 s hs, key⟩
  rintro ⟨hno, p, c, x, k, b, hp⟩
  rcases key hno with h | h
  · obtain ⟨a, ha⟩ := h p; rw [hp] at ha; simp at ha
  · have := h p; rw [hp] at this; simp at this

/-- **C101.** If moreover the solvers converge within the limit and the method is available, all processes end. -/
theorem C101_ends (n : ℕ) (hn : 0 < n) (cfg : Config) (g : Mesh) (hg : ∀ p < n, g.own p ≠ [])
    (hr : ∀ (g : Mesh) r, (∀ p < n, g.own p ≠ []) → ∀ p < n, (cfg.refine g r).own p ≠ [])
    (hm : cfg.direct = true ∨ cfg.dim = 3) (hc : ∀ w, Converges cfg w) (red : Call → (Fin n → Val) → Val)
    (s : Sys Call Val (Unit × St) n) (hs : Steps red (start fun p => process cfg g p) s) (hno : ∀ s', ¬ Step red s s') :
    ∀ p, ∃ a, (s p).1 = .ret a := by
  have := allFail_stuck hn False
  have h := tri_run (n := n) (T := AllFail False) cfg g hg (.inl hm) (fun w => .inl (hc w))
    hr initial.vars (fun _ => initial) fun _ => in_initial _
  rcases (h.ends red hn).2.1 s hs hno with ⟨a, _, ha⟩ | ⟨hf, _⟩
  · exact fun p => ⟨_, ha p⟩
  · exact hf.elim

/-! ## A process without dofs -/

/-- Silent steps before a program. -/
theorem silent_then {A B : AbsSt} {m m' : M Unit} (h : Silent A m B) {v : Vars} {s : St} (hs : In A v s) :
    ∃ s', (m >>= fun _ => m') s = m' s' ∧ In B v s' := by
  obtain ⟨s', h1, h2⟩ := h v s hs
  refine ⟨s', ?_, h2⟩
  change (m s).bind _ = _
  rw [h1]
  rfl

theorem shape_store (g : Mesh) (p : ℕ) {v : Vars} {s : St} (hs : In disc v s) :
    (storeSolution g p s).shape = if g.own p = [] then .fail else .coll := by
  unfold storeSolution
  have h1 : Silent disc (Mpi.loop (List.range g.nDofs) fun i =>
    if i ∈ g.own p then if flag g p i then setEl .dphi else setEl .phi else pure ()) disc := by accesses
  obtain ⟨s1, e1, i1⟩ := silent_then h1 (m' := do
    onlyIf (g.own p = []) abort
    setEl .phi
    setEl .dphi
    compress .phi .insert
    compress .dphi .insert) hs
  rw [e1]
  by_cases ho : g.own p = []
  · simp [onlyIf, ho, abort, Bind.bind, Prog.bind, Prog.shape]
  · rw [if_neg ho]
    obtain ⟨s2, e2, i2⟩ := silent_then (A := disc) (B := disc) (m := onlyIf (g.own p = []) abort) (m' := do
      setEl .phi
      setEl .dphi
      compress .phi .insert
      compress .dphi .insert) (by rw [onlyIf, if_neg ho]; exact Silent.pure _) i1
    obtain ⟨s3, e3, i3⟩ := silent_then (A := disc) (B := disc) (m := setEl .phi) (m' := do
      setEl .dphi
      compress .phi .insert
      compress .dphi .insert) (Silent.setEl rfl) i2
    obtain ⟨s4, e4, i4⟩ := silent_then (A := disc) (B := disc) (m := setEl .dphi) (m' := do
      compress .phi .insert
      compress .dphi .insert) (Silent.setEl rfl) i3
    rw [e2, e3, e4]
    have := i4.2 .phi
    simp only [disc, Abs.has] at this
    simp [compress, getAct, Bind.bind, Prog.bind, this, sync, call, Prog.shape]

theorem left_store (g : Mesh) (hq : ∃ q < n, g.own q = []) (hp : ∃ p < n, g.own p ≠ []) :
    Dead Left disc fun p : Fin n => storeSolution g p := by
  intro v s hs
  have h : ∀ p : Fin n, (storeSolution g p (s p)).shape = if g.own p = [] then .fail else .coll := fun p => shape_store g p (hs p)
  refine .stop _ ⟨fun p => ?_, ?_, ?_⟩
  · refine (h p).trans_ne ?_
    split <;> simp
  · obtain ⟨q, hqn, hq⟩ := hq
    exact ⟨⟨q, hqn⟩, (h _).trans (by simp [hq])⟩
  · obtain ⟨p, hpn, hp⟩ := hp
    exact ⟨⟨p, hpn⟩, (h _).trans (by simp [hp])⟩

theorem left_run (g : Mesh) (hq : ∃ q < n, g.own q = []) (hp : ∃ p < n, g.own p ≠ []) (hm : Method cfg)
    (hc : ∀ w, Converges cfg w) : Dead Left disc' fun p : Fin n => run cfg g p := by
  have hm' : Method cfg ∨ Left fun _ : Fin n => .fail := .inl hm
  have hc' : ∀ w, Converges cfg w ∨ Left fun _ : Fin n => .fail := fun w => .inl (hc w)
  have h1 : Dead Left disc fun p : Fin n => solveSystem cfg g p := by
    unfold solveSystem
    exact Tri.deadSeq (tri_alpha cfg g hm') (Tri.deadSeq (tri_free cfg g) (Tri.deadSeq (tri_rhs cfg g hm')
      (Tri.deadSeq (tri_constraints cfg g (hc' _)) (Tri.deadSeq (tri_distributeRhs g) (Tri.deadSeq (Tri.reinit _ _).fresh
      (Tri.deadSeq (tri_linear cfg g hm' hc') (left_store g hq hp)))))))
  have h2 : Dead Left disc fun p : Fin n => bemSolve cfg g p := by
    unfold bemSolve
    exact Tri.deadSeq (tri_assemble cfg g hm') h1
  have h3 : Dead Left disc' fun p : Fin n => solveProblem cfg g p := by
    unfold solveProblem
    exact tri_first.deadSeq ((tri_normals cfg g hc').deadSeq ((tri_prepare g).deadSeq h2.bind))
  have h4 : ∀ k, Dead Left disc' fun p : Fin n => cycles cfg p k g := by
    intro k
    cases k with
    | zero => exact (tri_reinit cfg g).deadSeq h3.bind
    | succ k => exact (tri_reinit cfg g).deadSeq h3.bind
  exact (h4 _).bind

/-- **C101, processes without dofs.** If a process owns no dof while another one does, every execution ends in a state where
a process has failed and another one waits for it for ever. -/
theorem C101_idle_process (n : ℕ) (cfg : Config) (g : Mesh) (hq : ∃ q < n, g.own q = []) (hp : ∃ p < n, g.own p ≠ [])
    (hm : cfg.direct = true ∨ cfg.dim = 3) (hc : ∀ w, Converges cfg w) (red : Call → (Fin n → Val) → Val)
    (s : Sys Call Val (Unit × St) n) (hs : Steps red (start fun p => process cfg g p) s) :
    Acc (fun a b => Step red b a) s ∧
    ((∀ s', ¬ Step red s s') → Deadlock red s ∧ ∃ q, (s q).1 = .fail) := by
  have hn : 0 < n := by obtain ⟨q, h, _⟩ := hq; omega
  have h := left_run (n := n) cfg g hq hp hm hc initial.vars (fun _ => initial) fun _ => in_initial _
  have he := h.ends red hn
  refine ⟨he.1 s hs, fun hno => ?_⟩
  rcases he.2.1 s hs hno with ⟨a, ha, _⟩ | ⟨_, ⟨q, hq⟩, ⟨p, hp⟩⟩
  · exact ha.elim
  · refine ⟨⟨hno, p, ?_⟩, q, ?_⟩
    · change (s p).1.shape = .coll at hp
      rcases hsp : s p with ⟨m, b⟩
      rw [hsp] at hp
      cases m with
      | ret a => simp [Prog.shape] at hp
      | fail => simp [Prog.shape] at hp
      | coll c x k => exact ⟨c, x, k, b, rfl⟩
    · change (s q).1.shape = .fail at hq
      generalize (s q).1 = m at hq
      cases m <;> simp [Prog.shape] at hq ⊢

/-! ## A concrete case -/

/-- Two cells with four dofs each, two of them shared, on two processes; `full`: each process owns dofs, otherwise process 1 has none. -/
def exMesh (full : Bool) : Mesh where
  nDofs := 6
  nCells := 2
  sub c := c
  dofs c := if c = 0 then [0, 1, 2, 3] else [2, 3, 4, 5]
  vdofs c := if c = 0 then [0, 1, 2, 3] else [2, 3, 4, 5]
  dirichletCell c := c = 0
  neumannCell c := c = 1
  own p := if full then (if p = 0 then [0, 1, 2] else [3, 4, 5]) else if p = 0 then List.range 6 else []
  vlines _ := [2]
  doubles i := [i]
  entries i := if i = 3 then some [2] else none
  precRow i := [i]
  nearRows p := if p = 0 then [0, 1, 2, 0] else [3, 4, 5]
  farRows p := if p = 0 then [2, 1] else [5, 4, 3]

/-- Two refinements; a solver that multiplies, computes an inner product, preconditions and stops. -/
def exConfig (direct : Bool) : Config where
  direct := direct
  dim := 3
  globalRefinement := false
  nCycles := 2
  strategy _ h := match h with
    | [] => some .operator
    | [_] => some .dot
    | [_, r] => if r 0 < 1 then none else some .preconditioner
    | _ => none
  limit := 4
  partDot _ p _ := fun _ => p
  part _ p := fun _ => p
  refine _ _ := exMesh true

/-- What the calls of the library do to the communication: insertions after additions, and additions after insertions, are
collective; insertions after insertions are not; `compress` in the mode of the last access is collective, in the other mode it is an
error. So the theorems above are not about a library that forgives everything. -/
theorem C101_contract (o : Obj) (s : St) :
    (s.act o = .add → ∃ k, setEl o s = .coll (.assemble o .add) (fun _ => 0) k) ∧
    (s.act o = .insert → ∃ k, addEl o s = .coll (.assemble o .insert) (fun _ => 0) k) ∧
    (s.act o ≠ .add → ∃ s', setEl o s = .ret ((), s') ∧ s'.act o = .insert) ∧
    (s.act o ≠ .insert → ∃ s', addEl o s = .ret ((), s') ∧ s'.act o = .add) ∧
    (s.act o = .add → compress o .insert s = .fail) ∧
    (s.act o = .insert → compress o .add s = .fail) ∧
    (∀ op, s.act o = op → ∃ k, compress o op s = .coll (.assemble o op) (fun _ => 0) k) := by
  refine ⟨fun h => ?_, fun h => ?_, fun h => ?_, fun h => ?_, fun h => ?_, fun h => ?_, fun op h => ?_⟩
  · exact ⟨_, by simp only [setEl, getAct, bind, Prog.bind, h, if_true]; rfl⟩
  · exact ⟨_, by simp only [addEl, getAct, bind, Prog.bind, h, if_true]; rfl⟩
  · refine ⟨{ s with act := Function.update s.act o .insert }, ?_, by simp⟩
    change (if s.act o = .add then (sync (.assemble o .add) >>= fun _ => setAct o .insert) else setAct o .insert : M Unit) s = _
    split
    · contradiction
    · rfl
  · refine ⟨{ s with act := Function.update s.act o .add }, ?_, by simp⟩
    change (if s.act o = .insert then (sync (.assemble o .insert) >>= fun _ => setAct o .add) else setAct o .add : M Unit) s = _
    split
    · contradiction
    · rfl
  · simp [compress, getAct, bind, Prog.bind, h, abort]
  · simp [compress, getAct, bind, Prog.bind, h, abort]
  · refine ⟨fun _ => .ret ((), { s with act := Function.update s.act o .zero }), ?_⟩
    change (if s.act o = .zero ∨ s.act o = op then (sync (.assemble o op) >>= fun _ => setAct o .zero) else abort : M Unit) s = _
    split
    · rfl
    · rename_i hn
      exact absurd (.inr h) hn

/-- **C101** (Dirichlet dofs of a process). The dofs that a process takes for Dirichlet dofs are those of its own cells on a Dirichlet
boundary: a process whose neighbour has such a cell does not see it. -/
theorem C101_flag (g : Mesh) (p i : ℕ) :
    flag g p i = true ↔ ∃ c < g.nCells, g.sub c = p ∧ g.dirichletCell c = true ∧ i ∈ g.dofs c := by
  unfold flag
  simp only [List.any_eq_true, List.mem_range, Bool.and_eq_true, beq_iff_eq, List.contains_iff_mem, and_assoc]

/-- The hypotheses are met, with both methods, and an execution that cannot go on exists: with `exMesh true` both processes have
ended there, with `exMesh false` the second has failed while the first waits. -/
theorem C101_example (direct : Bool) (red : Call → (Fin 2 → Val) → Val) :
    (∃ s, Steps red (start fun p : Fin 2 => process (exConfig direct) (exMesh true) p) s ∧ (∀ s', ¬ Step red s s') ∧
      ∀ p, ∃ a, (s p).1 = .ret a) ∧
    ∃ s, Steps red (start fun p : Fin 2 => process (exConfig direct) (exMesh false) p) s ∧ Deadlock red s ∧ ∃ q, (s q).1 = .fail := by
  have hg : ∀ p < 2, (exMesh true).own p ≠ [] := by
    intro p _
    simp only [exMesh, if_true]
    split <;> simp
  have hc : ∀ w, Converges (exConfig direct) w := by
    intro w
    refine ⟨by simp [exConfig], fun h hl => ?_⟩
    match h, hl with
    | [_, _, _], _ => rfl
  have hm : (exConfig direct).direct = true ∨ (exConfig direct).dim = 3 := .inr rfl
  have hr : ∀ (g : Mesh) r, (∀ p < 2, g.own p ≠ []) → ∀ p < 2, ((exConfig direct).refine g r).own p ≠ [] := fun _ _ _ => hg
  have hq : ∃ q < 2, (exMesh false).own q = [] := ⟨1, by simp, by simp [exMesh]⟩
  have hp : ∃ p < 2, (exMesh false).own p ≠ [] := ⟨0, by simp, by simp [exMesh]⟩
  constructor
  · have := allFail_stuck (n := 2) (by norm_num) False
    have h := tri_run (n := 2) (T := AllFail False) (exConfig direct) (exMesh true) hg (.inl hm) (fun w => .inl (hc w))
      hr initial.vars (fun _ => initial) fun _ => in_initial _
    obtain ⟨s, hs, hno⟩ := (h.ends red (by norm_num)).2.2
    exact ⟨s, hs, hno, C101_ends 2 (by norm_num) _ _ hg hr hm hc red s hs hno⟩
  · have h := left_run (n := 2) (exConfig direct) (exMesh false) hq hp hm hc initial.vars (fun _ => initial) fun _ => in_initial _
    obtain ⟨s, hs, hno⟩ := (h.ends red (by norm_num)).2.2
    exact ⟨s, hs, (C101_idle_process 2 _ _ hq hp hm hc red s hs).2 hno⟩

end PiBem.Mpi
