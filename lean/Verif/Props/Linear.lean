import Verif.Fmm.Linear
import Verif.Props.Assemble
import Verif.Props.Operator

/-!
# The fast multipole product is one fixed matrix (C65)

`NFmmExec` contains all the executions of the fast multipole product with the expansions of the program: all schedules of
the threads, all reuses of copy data, all orders of the lists of blocks, all ownerships of the rows. Here they are proved to
compute, in exact arithmetic, the product with one matrix which depends only on the mesh: the iterative solver sees a linear
operator, the same in all iterations and on all partitions. No hypothesis on sizes of blocks, order of the expansions or
positions of the quadrature points is needed (unlike C63, about the distance from the product without expansions).
-/

noncomputable section

namespace PiBem.Fmm

open PiBem.Octree PiBem.WorkStream PiBem.Expansion PiBem.Bem

variable {inp : Input 3} {D : Data} {ker : Ker}

/-! ## Auxiliary facts -/

/-- a linear function of vectors indexed by all naturals which looks only at the entries below `n` -/
theorem linear_eq_sum (f : (ℕ → ℝ) →ₗ[ℝ] ℝ) (n : ℕ) (hf : ∀ u v : ℕ → ℝ, (∀ k, k < n → u k = v k) → f u = f v)
    (u : ℕ → ℝ) : f u = ∑ k ∈ Finset.range n, f (Pi.single k 1) * u k := by
  have h1 : f u = f (∑ k ∈ Finset.range n, u k • (Pi.single k (1 : ℝ) : ℕ → ℝ)) := by
    refine hf _ _ fun k hk => ?_
    rw [Finset.sum_apply, Finset.sum_eq_single k]
    · simp
    · intro b _ hb; simp [hb.symm]
    · intro h; exact absurd (Finset.mem_range.2 hk) h
  rw [h1, map_sum]
  exact Finset.sum_congr rfl fun k _ => by rw [map_smul, smul_eq_mul, mul_comm]

theorem leafMap_local {n : ℕ} (T : St 3) (hdof : ∀ c k, k ∈ inp.cellDofs c → k < n) {u v : ℕ → ℝ}
    (h : ∀ k, k < n → u k = v k) : leafMap inp D ker T u = leafMap inp D ker T v := by
  funext b
  simp only [leafMap, LinearMap.pi_apply]
  split_ifs
  · unfold leafVal
    rw [sum_lin, sum_lin]
    congr 1
    refine List.map_congr_left fun c _ => ?_
    rw [sum_lin, sum_lin]
    congr 1
    refine List.map_congr_left fun j hj => ?_
    have hj := List.mem_range.1 hj
    have : (inp.cellDofs c).getD j 0 < n := by
      rw [List.getD_eq_getElem _ _ hj]; exact hdof c _ (List.getElem_mem _)
    simp only [LinearMap.comp_apply, LinearMap.proj_apply, h _ this]
  · rfl

theorem rowMap_local {n : ℕ} (T : St 3) (hdof : ∀ c k, k ∈ inp.cellDofs c → k < n) (i : ℕ) (u v : ℕ → ℝ)
    (h : ∀ k, k < n → u k = v k) : rowMap inp D ker T i u = rowMap inp D ker T i v := by
  have hcell : ∀ c j, j < (inp.cellDofs c).length → u ((inp.cellDofs c).getD j 0) = v ((inp.cellDofs c).getD j 0) := by
    intro c j hj
    refine h _ ?_
    rw [List.getD_eq_getElem _ _ hj]; exact hdof c _ (List.getElem_mem _)
  unfold rowMap
  rw [LinearMap.add_apply, LinearMap.add_apply, LinearMap.comp_apply, LinearMap.comp_apply]
  congr 1
  · unfold directMap
    rw [sum_lin, sum_lin]
    congr 1
    refine List.map_congr_left fun x _ => ?_
    show val inp _ ker i x = val inp _ ker i x
    cases x with
    | sing c =>
      unfold val cellDot
      refine Finset.sum_congr rfl fun j hj => ?_
      show _ * u _ = _ * v _
      rw [hcell c j (Finset.mem_range.1 hj)]
    | reg c q =>
      unfold val cellDot
      refine Finset.sum_congr rfl fun j hj => ?_
      show _ * u _ = _ * v _
      rw [hcell c j (Finset.mem_range.1 hj)]; rfl
  · unfold multMap
    rw [LinearMap.comp_apply, LinearMap.comp_apply, leafMap_local T hdof h]

/-- The matrix of the fast multipole product: column `k` is the product with the `k`-th unit vector. -/
def fmaMatrix (inp : Input 3) (D : Data) (ker : Ker) (i k : ℕ) : ℝ :=
  rowMap inp D ker (build inp) i (Pi.single k 1)

theorem fma_eq (hdof : ∀ c k, k ∈ inp.cellDofs c → k < inp.nDofs) (sol : ℕ → ℝ) (own : ℕ → Bool) (out : ℕ → ℝ)
    (hx : NFmmExec inp { D with sol := sol } ker (build inp) own out) (i : ℕ) (ho : own i = true) :
    out i = ∑ k ∈ Finset.range inp.nDofs, fmaMatrix inp D ker i k * sol k := by
  rw [nFmmExec_eq (build_tree (Or.inr rfl) inp) hx ho]
  exact linear_eq_sum (rowMap inp D ker (build inp) i) inp.nDofs (fun u v h => rowMap_local _ hdof i u v h) sol

/-! ## C65 -/

/-- **C65** (one matrix). For every mesh there is one matrix `K` such that every execution of the fast multipole product,
for every vector, every schedule and every set of owned rows, leaves `Σ_k K_ik x_k` in row `i`. -/
theorem C65_fixed_matrix (inp : Input 3) (D : Data) (ker : Ker)
    (hdof : ∀ c k, k ∈ inp.cellDofs c → k < inp.nDofs) :
    ∃ K : ℕ → ℕ → ℝ, ∀ (x : ℕ → ℝ) (own : ℕ → Bool) (out : ℕ → ℝ),
      NFmmExec inp { D with sol := x } ker (build inp) own out →
      ∀ i, own i = true → out i = ∑ k ∈ Finset.range inp.nDofs, K i k * x k :=
  ⟨fmaMatrix inp D ker, fun x own out hx i ho => fma_eq hdof x own out hx i ho⟩

/-- **C65** (schedule and partition). Two executions with the same vector, with different schedules and on different
processes or partitions, leave exactly the same numbers in the rows owned in both. -/
theorem C65_deterministic (inp : Input 3) (D : Data) (ker : Ker) (own own' : ℕ → Bool) (out out' : ℕ → ℝ)
    (hx : NFmmExec inp D ker (build inp) own out) (hx' : NFmmExec inp D ker (build inp) own' out')
    (i : ℕ) (ho : own i = true) (ho' : own' i = true) : out i = out' i := by
  rw [nFmmExec_eq (build_tree (Or.inr rfl) inp) hx ho, nFmmExec_eq (build_tree (Or.inr rfl) inp) hx' ho']

/-- **C65** (linearity). The results of three executions with vectors `u`, `v`, `a u + b v`, with independent schedules and
ownerships, are related linearly. -/
theorem C65_linear (inp : Input 3) (D : Data) (ker : Ker) (u v : ℕ → ℝ) (a b : ℝ) (own : ℕ → Bool)
    (outU outV out : ℕ → ℝ) (hu : NFmmExec inp { D with sol := u } ker (build inp) own outU)
    (hv : NFmmExec inp { D with sol := v } ker (build inp) own outV)
    (h : NFmmExec inp { D with sol := fun k => a * u k + b * v k } ker (build inp) own out)
    (i : ℕ) (ho : own i = true) : out i = a * outU i + b * outV i := by
  have t := build_tree (Or.inr rfl) inp
  rw [nFmmExec_eq t hu ho, nFmmExec_eq t hv ho, nFmmExec_eq t h ho]
  have : (fun k => a * u k + b * v k) = a • u + b • v := rfl
  show rowMap inp D ker (build inp) i _ = _ * rowMap inp D ker (build inp) i u + _ * rowMap inp D ker (build inp) i v
  rw [this, map_add, map_smul, map_smul]
  rfl

/-- **C65** (constants). If `alpha` is computed by an execution of the product with the double layer for the vector with all
entries `-1` (`compute_alpha`), then for every execution with a constant vector the entry of the product plus `alpha` times
the constant is exactly zero: the truncation of the expansions cancels. -/
theorem C65_constants (inp : Input 3) (D : Data) (own own' : ℕ → Bool) (alpha out : ℕ → ℝ) (g : ℝ)
    (ha : NFmmExec inp { D with sol := fun _ => -1 } .double (build inp) own alpha)
    (hx : NFmmExec inp { D with sol := fun _ => g } .double (build inp) own' out)
    (i : ℕ) (ho : own i = true) (ho' : own' i = true) : out i + alpha i * g = 0 := by
  have t := build_tree (Or.inr rfl) inp
  rw [nFmmExec_eq t ha ho, nFmmExec_eq t hx ho']
  show rowMap inp D .double (build inp) i _ + rowMap inp D .double (build inp) i _ * g = 0
  have : (fun _ : ℕ => g) = (-g) • (fun _ : ℕ => (-1 : ℝ)) := by funext; simp
  rw [this, map_smul, smul_eq_mul]
  ring

/-- **C65** (the operator of the solver). In the model of `vmult`, `compute_rhs` and `compute_alpha`
(Verif.Bem.Operator), with the matrices of the problem equal to the two matrices of the fast multipole product, the
function `fmaProducts` gives exactly the numbers of all executions, each row taken from the process that owns it. The
theorems C22, C25, C27, C28 with `method = fma` are about those matrices. -/
theorem C65_operator (inp : Input 3) (D : Data) (hdof : ∀ c k, k ∈ inp.cellDofs c → k < inp.nDofs)
    (P : Problem inp.nDofs) (hN : ∀ i k, P.neumannMatrix i k = fmaMatrix inp D .double i k)
    (hD : ∀ i k, P.dirichletMatrix i k = fmaMatrix inp D .single i k)
    (phi dphi : ℕ → ℝ) (oldN oldD : Vec inp.nDofs) (owner : ℕ → ℕ) (outN outD : ℕ → ℕ → ℝ)
    (hxN : ∀ p, NFmmExec inp { D with sol := phi } .double (build inp) (fun i => decide (owner i = p)) (outN p))
    (hxD : ∀ p, NFmmExec inp { D with sol := dphi } .single (build inp) (fun i => decide (owner i = p)) (outD p)) :
    fmaProducts P (fun i => phi i) (fun i => dphi i) oldN oldD =
      (fun i : Fin inp.nDofs => outN (owner i) i, fun i : Fin inp.nDofs => outD (owner i) i) := by
  unfold fmaProducts matVmult
  refine Prod.ext ?_ ?_ <;> funext i <;> simp only [zero_add]
  · rw [fma_eq hdof phi _ _ (hxN (owner i)) i (by simp), Finset.sum_range]
    simp only [hN]
  · rw [fma_eq hdof dphi _ _ (hxD (owner i)) i (by simp), Finset.sum_range]
    simp only [hD]

/-- **C65** (entries). Each entry of the matrix of the fast multipole product differs from the entry of the dense matrix at
most by the truncation factor of C63 times the sources of the column in the cells not containing the node, plus the
difference of the singular quadratures. Hypotheses as in C63. -/
theorem C65_entries (inp : Input 3) (D : Data) (S S' : SingRule) (ker : Ker) (hlev : 1 ≤ inp.levels)
    (hnq : 0 < inp.nq) (hself : ∀ i, i < inp.nDofs → i ∈ inp.doubles i)
    (hdof : ∀ c k, k ∈ inp.cellDofs c → k < inp.nDofs) (hp : D.p ≤ 10)
    (hroot : ∀ c q a, c < inp.nCells → q < inp.nq → |inp.qpos (c, q) a| ≤ 11 / 10 * maxCoor inp)
    (hn : ∀ q, rho (D.normal q) = 1) (hside : (12 / 10 : ℝ) * 1e-7 ≤ side inp)
    (hreg : Regular inp D ker (build inp))
    (hnode : ∀ b ∈ (build inp).childless, ∀ i ∈ ((build inp).blocks b).nodes,
      inp.pos i ≠ centre ((build inp).blocks b)) (i k : ℕ) (hi : i < inp.nDofs) (hk : k < inp.nDofs) :
    |fmaMatrix inp (withSing inp D S ker) ker i k - assemble inp D S' ker (fun _ => true) i k| ≤
      sourceMass inp { D with sol := Pi.single k 1 } i * truncation ker D.p (side inp) +
        singularGap inp { D with sol := Pi.single k 1 } S S' ker i := by
  obtain ⟨out, hx⟩ := C63_executions_exist inp (withSing inp { D with sol := Pi.single k 1 } S ker) ker (build inp)
    (fun _ => true)
  have h := C64_methods_agree inp { D with sol := Pi.single k 1 } S S' ker hlev hnq hself (fun c k _ h => hdof c k h) hp
    hroot hn hside hreg hnode (fun _ => true) (fun _ => true) out hx i hi rfl rfl
  have h1 : out i = fmaMatrix inp (withSing inp D S ker) ker i k := by
    rw [nFmmExec_eq (build_tree (Or.inr rfl) inp) hx rfl]; rfl
  have h2 : denseProduct inp (assemble inp { D with sol := Pi.single k 1 } S' ker fun _ => true) (Pi.single k 1) i =
      assemble inp D S' ker (fun _ => true) i k := by
    unfold denseProduct
    rw [Finset.sum_eq_single k]
    · rw [Pi.single_eq_same, mul_one]
      rw [C64_dense_entry _ _ _ _ _ _ hi rfl, C64_dense_entry _ _ _ _ _ _ hi rfl]
      rfl
    · intro b _ hb; simp [hb]
    · intro h; exact absurd (Finset.mem_range.2 hk) h
  rw [← h1, ← h2]
  exact h

/-! ### A concrete case: the cube -/

/-- the dofs of the cells of the cube are below 8 -/
theorem cube_dofs : ∀ c k, k ∈ (cubeInput 3 0).cellDofs c → k < (cubeInput 3 0).nDofs := by
  intro c k hk
  rcases c with _ | _ | _ | _ | _ | c <;> simp [cubeInput] at hk ⊢ <;> omega

/-- executions for the hypotheses of C65 exist on the cube, and `alpha` cancels a constant -/
example (own : ℕ → Bool) (ho : own 2 = true) :
    ∃ alpha out, NFmmExec (cubeInput 3 0) { cubeData with sol := fun _ => -1 } .double (build (cubeInput 3 0)) own alpha ∧
      NFmmExec (cubeInput 3 0) { cubeData with sol := fun _ => 7 } .double (build (cubeInput 3 0)) own out ∧
      out 2 + alpha 2 * 7 = 0 := by
  obtain ⟨alpha, ha⟩ := C63_executions_exist (cubeInput 3 0) { cubeData with sol := fun _ => -1 } .double
    (build (cubeInput 3 0)) own
  obtain ⟨out, hx⟩ := C63_executions_exist (cubeInput 3 0) { cubeData with sol := fun _ => 7 } .double
    (build (cubeInput 3 0)) own
  exact ⟨alpha, out, ha, hx, C65_constants _ _ _ _ _ _ _ ha hx 2 ho ho⟩

/-- C65 on the cube: one matrix -/
example (ker : Ker) : ∃ K : ℕ → ℕ → ℝ, ∀ (x : ℕ → ℝ) (own : ℕ → Bool) (out : ℕ → ℝ),
    NFmmExec (cubeInput 3 0) { cubeData with sol := x } ker (build (cubeInput 3 0)) own out →
    ∀ i, own i = true → out i = ∑ k ∈ Finset.range 8, K i k * x k :=
  C65_fixed_matrix (cubeInput 3 0) cubeData ker cube_dofs

end PiBem.Fmm
