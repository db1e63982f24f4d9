import Verif.Props.Tolerance
import Verif.Props.Solvable

/-!
# C94, C114: whether a solve returns does not depend on the data

Exceptions of a solve (vectors of different partitions, conflicting or cyclic constraints) depend on mesh, boundary kinds and normals only.
-/

namespace PiBem.Bem

variable {n d : ℕ}

theorem runs_iff {N M : Mat n} {C : Setup n d} {st : AlphaStatics} {phi0 dphi0 : Vec n} :
    Runs N M C st phi0 dphi0 ↔ (alphaStaticsStep n C.part st).part = C.part ∧ ∃ c, computeConstraints C.nodes C.doubles C.hanging C.fuel C.order = some c := by
  constructor
  · rintro ⟨g, st', X, h⟩
    obtain ⟨alpha, c, -, hc, -⟩ := solveWith_parts h
    exact ⟨run_alpha h, c, hc⟩
  · rintro ⟨ha, c, hc⟩
    obtain ⟨st', R, h⟩ := Plane.solveWith_some N M (fun _ x => x) phi0 dphi0 ha hc
    exact ⟨_, st', R, h⟩

/-- **C114.** If the solve of a problem returns for one set of data, it returns for all, with every linear solver, whatever the matrices and the method: exceptions come from the mesh, the kinds of
nodes, the normals and the partition only. -/
theorem C114_returns {N M N' M' : Mat n} {C C' : Setup n d} (hO : OnlyData C C') (hpart : C'.part = C.part) {st : AlphaStatics} {phi0 dphi0 : Vec n}
    (hr : Runs N M C st phi0 dphi0) (phi0' dphi0' : Vec n) (gmres : (Vec n → Vec n) → Vec n → Vec n) :
    ∃ st' X, solveWith N' M' C' gmres st phi0' dphi0' = (st', some X) := by
  obtain ⟨ha, c, hc⟩ := runs_iff.1 hr
  have hs := same_constraints hO
  rw [hc] at hs
  cases hz : computeConstraints C'.nodes C'.doubles C'.hanging C'.fuel C'.order with
  | none => rw [hz] at hs; exact hs.elim
  | some c' => exact Plane.solveWith_some N' M' gmres phi0' dphi0' (by rw [hpart]; exact ha) hz

/-- **C114.** If a solve returns for one set of data, and zero data have the zero solution only, then for all data of the same problem there is an exact solve, and only one result of exact solves. -/
theorem C114_all_data {N M : Mat n} {C : Setup n d} {B : Finset (Fin n)} {phi0 dphi0 : Vec n} (hD : DataOf C B phi0 dphi0) (l : List (ℕ × ℕ))
    (hr : Runs N M C (alphaHistory l) phi0 dphi0) (hz : OnlyZero N M C (alphaHistory l)) (C' : Setup n d) (hO : OnlyData C C') (hpart : C'.part = C.part)
    (phi0' dphi0' : Vec n) (hphi : ∀ i ∈ B, phi0' i = C'.nodes.tmpRhs i) (hdphi : ∀ i, i ∉ B → dphi0' i = C'.nodes.tmpRhs i) :
    Solvable N M C' (alphaHistory l) phi0' dphi0' ∧ DeterminedH N M C' (alphaHistory l) phi0' dphi0' := by
  have hD' : DataOf C' B phi0' dphi0' := ⟨by rw [hO.dirichlet]; exact hD.dirichlet, by rw [hO.neumann]; exact hD.neumann, by rw [hO.bc]; exact hD.bc, hphi, hdphi, by
    rw [hO.gradient, hO.doubles, hO.normal]; exact hD.sharp⟩
  have hr' : Runs N M C' (alphaHistory l) phi0' dphi0' := ⟨_, C114_returns hO hpart hr phi0' dphi0' fun _ x => x⟩
  exact C114_every_data hD hD' hO l l hr hr' hz

theorem scaled_only (s : ℝ) (C : Setup n d) : OnlyData C (scaledData s C) := ⟨rfl, rfl, rfl, rfl, rfl, rfl, rfl, rfl, rfl⟩

/-- **C94** (the tolerance is absolute). With data in a unit that is large enough the solve returns, and what it returns for the unknowns is zero. -/
theorem C94_small_data_zero (N M : Mat n) (C : Setup n d) (T : Mat n) (tol : ℝ) (htol : 0 < tol) (gmres : (Vec n → Vec n) → Vec n → Vec n)
    (hgm : StartsAtZero T tol gmres) (l : List (ℕ × ℕ)) (st : AlphaStatics)
    (phi0 dphi0 : Vec n) (R : Solution n) (h : solveWith N M C gmres (alphaHistory l) phi0 dphi0 = (st, some R))
    (B : Finset (Fin n)) (hd : ∀ i, C.nodes.dirichlet i = if i ∈ B then 1 else 0)
    (hn : ∀ i, C.neumannNodes i = if i ∈ B then 0 else 1) (hb : C.haveDirichletBc = true)
    (hrefl : ∀ i, i ∈ C.doubles i) (heq : ∀ i j, j ∈ C.doubles i → C.doubles j = C.doubles i) (hord : ∀ i, i ∈ C.order)
    (hsharp : C.nodes.continuosGradient = true → ∀ i ∈ B, ∀ j ∈ C.doubles i, j ∈ B → j ≠ i →
      dot (C.nodes.normal i) (C.nodes.normal j) ^ 2 ≠ 1) :
    ∃ s₀ > 0, ∀ s, 0 < s → s ≤ s₀ →
      ∃ st' R', solveWith N M (scaledData s C) gmres (alphaHistory l) (fun i => s * phi0 i) (fun i => s * dphi0 i) = (st', some R') ∧
        (∀ i, i ∉ B → R'.phi i = 0) ∧ ∀ i ∈ B, R'.dphi i = 0 := by
  obtain ⟨s₀, h0, hall⟩ := C94_small_data N M C T tol htol gmres hgm l st phi0 dphi0 R h B hd hn hb hrefl heq hord hsharp
  refine ⟨s₀, h0, fun s hs hle => ?_⟩
  obtain ⟨st', R', h'⟩ := C114_returns (N' := N) (M' := M) (scaled_only s C) rfl ⟨_, _, _, h⟩ (fun i => s * phi0 i) (fun i => s * dphi0 i) gmres
  exact ⟨st', R', h', hall s hs hle st' R' h'⟩

/-- `C114_all_data` with a hanging node: because two opposite potentials are solved in exactly one way, all potentials are. -/
example (v : Vec 3) : ∃ gmres st X, solveWith (ones 3) (eye 3) { hangOdd with nodes := { hangOdd.nodes with tmpRhs := v } } gmres (alphaHistory []) v 0 = (st, some X) ∧
    (∀ i, X.residual i = 0) ∧ ∀ i, X.phi i = v i := by
  obtain ⟨g, st, X, hX, -⟩ := hangOdd_solved
  have hz := (C114_one_datum hangOdd_data [] ⟨g, st, X, hX⟩).1.2 ⟨hangOdd_solved, hangOdd_determined⟩
  obtain ⟨⟨g', st', Y, hY, rY⟩, -⟩ := C114_all_data hangOdd_data [] ⟨g, st, X, hX⟩ hz { hangOdd with nodes := { hangOdd.nodes with tmpRhs := v } }
    ⟨rfl, rfl, rfl, rfl, rfl, rfl, rfl, rfl, rfl⟩ rfl v 0 (fun _ _ => rfl) (by simp)
  obtain ⟨-, -, p, -, -⟩ := solveWith_rows hY Finset.univ (hangOdd_data.dirichlet) (hangOdd_data.neumann) rfl (fun _ _ => rfl) (by simp)
  exact ⟨g', st', Y, hY, rY, fun i => by rw [p]; simp [merge]⟩

end PiBem.Bem
