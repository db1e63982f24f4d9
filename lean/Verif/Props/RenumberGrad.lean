import Verif.Props.Exact
import Verif.Props.Edges

/-!
# C89: recovered normals, surface gradients and gradients under renumbering

`DoFRenumbering::subdomain_wise` renumbers the scalar and the vector degrees of freedom (bem_problem.cc:181-186), in different ways
for different partitions. `τ` is the renumbering of the vector dofs, `σ` the one of the scalar dofs.
-/

noncomputable section

namespace PiBem.Grad


/-- The cell after a renumbering: only the numbers of the dofs change; the subdomain is arbitrary. -/
structure CellRenumbered {dim : ℕ} (τ σ : Equiv.Perm ℕ) (C C' : Cell dim) : Prop where
  dofs : C'.dofs = C.dofs.map τ
  nq : C'.nq = C.nq
  shape : C'.shape = C.shape
  jxw : C'.jxw = C.jxw
  normal : C'.normal = C.normal
  sdofs : C'.sdofs = C.sdofs.map σ
  sshape : C'.sshape = C.sshape
  sgrad : C'.sgrad = C.sgrad

/-- The mesh after a renumbering; the entries of a constraint may come in another order. -/
structure MeshRenumbered {dim : ℕ} (τ σ : Equiv.Perm ℕ) (T T' : Mesh dim) : Prop where
  nCells : T'.nCells = T.nCells
  nDofs : T'.nDofs = T.nDofs
  bound : ∀ r, τ r < T.nDofs ↔ r < T.nDofs
  comp : T'.comp = T.comp
  cell : ∀ c < T.nCells, CellRenumbered τ σ (T.cell c) (T'.cell c)
  free : ∀ r < T.nDofs, T.cs r = none → T'.cs (τ r) = none
  constr : ∀ r < T.nDofs, ∀ e, T.cs r = some e → ∃ e', T'.cs (τ r) = some e' ∧ e'.Perm (e.map fun x => (τ x.1, x.2))

variable {dim : ℕ} {τ σ : Equiv.Perm ℕ} {T T' : Mesh dim} {procs procs' : ℕ}

theorem getD_perm (ρ : Equiv.Perm ℕ) (l : List ℕ) {j : ℕ} (hj : j < l.length) : (l.map ρ).getD j 0 = ρ (l.getD j 0) := by
  rw [List.getD_eq_getElem _ _ (by simpa using hj), List.getD_eq_getElem _ _ hj, List.getElem_map]

theorem renumber_field (h : MeshRenumbered τ σ T T') (w : ℕ → ℝ) {c : ℕ} (hc : c < T.nCells) (q : ℕ) :
    field T'.comp (T'.cell c) w q = field T.comp (T.cell c) (w ∘ τ) q := by
  have hcell := h.cell c hc
  funext k
  unfold field
  rw [h.comp, hcell.dofs, hcell.shape, List.length_map]
  refine Finset.sum_congr rfl fun i hi => ?_
  rw [getD_perm _ _ (Finset.mem_range.1 (Finset.mem_filter.1 hi).1)]
  rfl

theorem renumber_conforming (h : MeshRenumbered τ σ T T') (w : ℕ → ℝ) : Conforming T' w ↔ Conforming T (w ∘ τ) := by
  have key : ∀ (e e' : List (ℕ × ℝ)), e'.Perm (e.map fun x => (τ x.1, x.2)) →
      (e'.map fun se => se.2 * w se.1).sum = (e.map fun se => se.2 * (w ∘ τ) se.1).sum := by
    intro e e' hp
    rw [(hp.map _).sum_eq, List.map_map]
    rfl
  constructor
  · intro hw r hr e he
    obtain ⟨e', he', hp⟩ := h.constr r hr e he
    rw [Function.comp_apply, hw (τ r) (by rw [h.nDofs, h.bound]; exact hr) e' he', key e e' hp]
  · intro hw r' hr' e' he'
    obtain ⟨r, rfl⟩ := τ.surjective r'
    have hr : r < T.nDofs := by rwa [h.nDofs, h.bound] at hr'
    cases hc : T.cs r with
    | none => rw [h.free r hr hc] at he'; exact absurd he' (by simp)
    | some e =>
      obtain ⟨e'', he'', hp⟩ := h.constr r hr e hc
      rw [he'', Option.some.injEq] at he'
      subst he'
      rw [key e e'' hp]
      exact hw r hr e hc

/-- Projections of the same vectors are the same, at dofs that correspond. -/
theorem renumber_projection (h : MeshRenumbered τ σ T T') (hT : T.WF procs) (hT' : T'.WF procs') (hd : Definite T)
    (hj : ∀ c < T.nCells, ∀ q < (T.cell c).nq, 0 < (T.cell c).jxw q) {g g' : Cell dim → ℕ → Fin dim → ℝ}
    (hg : ∀ c < T.nCells, ∀ q < (T.cell c).nq, g' (T'.cell c) q = g (T.cell c) q)
    {dg dg' : Diag} {u u' : ℕ → ℝ} (hu : Solves T g dg procs u) (hu' : Solves T' g' dg' procs' u') :
    ∀ r < T.nDofs, distribute T' u' (τ r) = distribute T u r := by
  obtain ⟨hv', ho'⟩ := C67_projection hT' hu'
  intro r hr
  symm
  refine C67_unique hT hd hj hu (distribute T' u' ∘ τ) ((renumber_conforming h _).1 hv') (fun w hw => ?_) r hr
  have hw' : Conforming T' (w ∘ τ.symm) := by
    rw [renumber_conforming h]
    have : (w ∘ τ.symm) ∘ τ = w := by funext x; simp
    rwa [this]
  rw [← ho' _ hw']
  unfold inner
  rw [h.nCells]
  refine Finset.sum_congr rfl fun c hc => ?_
  have hc' := Finset.mem_range.1 hc
  have hcell := h.cell c hc'
  rw [hcell.nq, hcell.jxw]
  refine Finset.sum_congr rfl fun q hq => ?_
  congr 1
  refine Finset.sum_congr rfl fun k _ => ?_
  simp only [Mesh.field, Pi.sub_apply]
  rw [renumber_field h _ hc', renumber_field h _ hc', hg c hc' q (Finset.mem_range.1 hq)]
  have : (w ∘ τ.symm) ∘ τ = w := by funext x; simp
  rw [this]

theorem renumber_surfGrad (h : MeshRenumbered τ σ T T') {x x' : ℕ → ℝ} {c : ℕ} (hc : c < T.nCells)
    (hx : ∀ i ∈ (T.cell c).sdofs, x' (σ i) = x i) (q : ℕ) : scalarGrad (T'.cell c) x' q = scalarGrad (T.cell c) x q := by
  have hcell := h.cell c hc
  funext k
  unfold scalarGrad
  rw [hcell.sdofs, hcell.sgrad, List.length_map]
  refine Finset.sum_congr rfl fun j hj => ?_
  have hj := Finset.mem_range.1 hj
  rw [getD_perm _ _ hj, hx _ (by rw [List.getD_eq_getElem _ _ hj]; exact List.getElem_mem _)]

theorem renumber_value (h : MeshRenumbered τ σ T T') {x x' : ℕ → ℝ} {c : ℕ} (hc : c < T.nCells)
    (hx : ∀ i ∈ (T.cell c).sdofs, x' (σ i) = x i) (q : ℕ) : scalarValue (T'.cell c) x' q = scalarValue (T.cell c) x q := by
  have hcell := h.cell c hc
  unfold scalarValue
  rw [hcell.sdofs, hcell.sshape, List.length_map]
  refine Finset.sum_congr rfl fun j hj => ?_
  have hj := Finset.mem_range.1 hj
  rw [getD_perm _ _ hj, hx _ (by rw [List.getD_eq_getElem _ _ hj]; exact List.getElem_mem _)]

/-- **C89** (recovered fields). Normals, surface gradients and gradients recovered in two runs with different numberings, partitions and numbers of
processes are the same at dofs that correspond, if the scalar data are. -/
theorem C89_recovered (h : MeshRenumbered τ σ T T') (hT : T.WF procs) (hT' : T'.WF procs') (hd : Definite T)
    (hj : ∀ c < T.nCells, ∀ q < (T.cell c).nq, 0 < (T.cell c).jxw q) {phi dphi phi' dphi' : ℕ → ℝ}
    (hphi : ∀ c < T.nCells, ∀ i ∈ (T.cell c).sdofs, phi' (σ i) = phi i)
    (hdphi : ∀ c < T.nCells, ∀ i ∈ (T.cell c).sdofs, dphi' (σ i) = dphi i) {dg dg' : Diag} {u u' : ℕ → ℝ} :
    (Solves T cellNormal dg procs u → Solves T' cellNormal dg' procs' u' →
      ∀ r < T.nDofs, distribute T' u' (τ r) = distribute T u r) ∧
    (Solves T (surfGrad phi) dg procs u → Solves T' (surfGrad phi') dg' procs' u' →
      ∀ r < T.nDofs, distribute T' u' (τ r) = distribute T u r) ∧
    (Solves T (fullGrad phi dphi) dg procs u → Solves T' (fullGrad phi' dphi') dg' procs' u' →
      ∀ r < T.nDofs, distribute T' u' (τ r) = distribute T u r) := by
  refine ⟨?_, ?_, ?_⟩
  · refine renumber_projection h hT hT' hd hj fun c hc q _ => ?_
    unfold cellNormal
    rw [(h.cell c hc).normal]
  · exact renumber_projection h hT hT' hd hj fun c hc q _ => renumber_surfGrad h hc (hphi c hc) q
  · refine renumber_projection h hT hT' hd hj fun c hc q _ => ?_
    funext k
    unfold fullGrad
    rw [(h.cell c hc).normal, renumber_surfGrad h hc (hphi c hc) q, renumber_value h hc (hdphi c hc) q]

end PiBem.Grad

namespace PiBem.Bem

open PiBem.Octree PiBem.Fmm PiBem.Grad

/-- Two runs on the same mesh: from the common original numbering, scalar dofs are renumbered by `o2s` in the first run and `o2s'` in the
second one, vector dofs by `vo2s` and `vo2s'`. `σ` and `τ` translate the numbers of the first run to those of the second one. -/
structure TwoNumberings (n dim : ℕ) (o2s vo2s o2s' vo2s' : ℕ → ℕ) (σ τ : Equiv.Perm ℕ) : Prop where
  lt : ∀ i < n, o2s i < n
  inj : ∀ i < n, ∀ j < n, o2s i = o2s j → i = j
  vlt : ∀ i < dim * n, vo2s i < dim * n
  vinj : ∀ i < dim * n, ∀ j < dim * n, vo2s i = vo2s j → i = j
  lt' : ∀ i < n, o2s' i < n
  inj' : ∀ i < n, ∀ j < n, o2s' i = o2s' j → i = j
  vlt' : ∀ i < dim * n, vo2s' i < dim * n
  vinj' : ∀ i < dim * n, ∀ j < dim * n, vo2s' i = vo2s' j → i = j
  scalar : ∀ i < n, σ (o2s i) = o2s' i
  vector : ∀ i < dim * n, τ (vo2s i) = vo2s' i

/-- **C89** (positions). The component `k` of a vector quantity at scalar dof `i` is read at vector dofs that correspond. -/
theorem C89_positions {n dim : ℕ} (hdim : 0 < dim) {o2s vo2s o2s' vo2s' : ℕ → ℕ} {σ τ : Equiv.Perm ℕ}
    (N : TwoNumberings n dim o2s vo2s o2s' vo2s' σ τ) (i k : ℕ) (hi : i < n) (hk : k < dim) :
    vecIndex (dim * n) dim (reorderingVectors n (dim * n) o2s' vo2s').1 vo2s' (σ i) k =
      τ (vecIndex (dim * n) dim (reorderingVectors n (dim * n) o2s vo2s).1 vo2s i k) := by
  obtain ⟨-, a2, -, -, -, -⟩ := C35_reordering n dim hdim o2s vo2s N.lt N.inj N.vlt N.vinj
  obtain ⟨b1, -, -, -, -, -⟩ := C35_reordering n dim hdim o2s' vo2s' N.lt' N.inj' N.vlt' N.vinj'
  obtain ⟨c1, c2⟩ := a2 i hi
  set m := (reorderingVectors n (dim * n) o2s vo2s).1 i
  have e : (reorderingVectors n (dim * n) o2s' vo2s').1 (σ i) = m := by
    rw [← c2, N.scalar m c1, b1 m c1]
  unfold vecIndex
  rw [e, N.vector]
  rw [Nat.mul_div_cancel_left _ hdim]
  calc n * k + m < n * k + n := by omega
    _ = n * (k + 1) := by ring
    _ ≤ n * dim := Nat.mul_le_mul_left _ hk
    _ = dim * n := Nat.mul_comm _ _

variable {σ τ : Equiv.Perm ℕ} {inp inp' : Input 3} {dim : ℕ}

/-- The vector quantities of a run: normals and surface gradients recovered on the mesh `T` by `procs` processes and read at the nodes
(bem_problem.cc:1876-1880). `un` and `us` solve the two linear systems. -/
structure Recovered {n dim : ℕ} (C : Setup n dim) (T : Mesh dim) (o2s vo2s : ℕ → ℕ) (d : ℕ → ℝ) : Prop where
  wf : T.WF C.procs
  nDofs : T.nDofs = dim * n
  scalars : ∀ c < T.nCells, ∀ i ∈ (T.cell c).sdofs, i < n
  data : ∀ i, C.nodes.tmpRhs i = d i
  normal : ∃ dg un, Solves T cellNormal dg C.procs un ∧
    ∀ i k, C.nodes.normal i k = distribute T un (vecIndex (dim * n) dim (reorderingVectors n (dim * n) o2s vo2s).1 vo2s i k)
  surfGrad : ∃ dg us, Solves T (surfGrad d) dg C.procs us ∧
    ∀ i k, C.nodes.surfGrad i k = distribute T us (vecIndex (dim * n) dim (reorderingVectors n (dim * n) o2s vo2s).1 vo2s i k)

theorem vecIndex_lt {n : ℕ} {o2s vo2s o2s' vo2s' : ℕ → ℕ} (N : TwoNumberings n dim o2s vo2s o2s' vo2s' σ τ) {i : ℕ} (hi : i < n)
    (k : Fin dim) : vecIndex (dim * n) dim (reorderingVectors n (dim * n) o2s vo2s).1 vo2s i k < dim * n := by
  have hdim : 0 < dim := by have := k.isLt; omega
  obtain ⟨-, a2, -, -, -, -⟩ := C35_reordering n dim hdim o2s vo2s N.lt N.inj N.vlt N.vinj
  obtain ⟨c1, -⟩ := a2 i hi
  unfold vecIndex
  apply N.vlt
  rw [Nat.mul_div_cancel_left _ hdim]
  calc n * k.val + _ < n * k.val + n := by omega
    _ = n * (k.val + 1) := by ring
    _ ≤ n * dim := Nat.mul_le_mul_left _ k.isLt
    _ = dim * n := Nat.mul_comm _ _

/-- **C89** (what is read at the nodes). In any dimension: data, normals and surface gradients of two runs with different numberings, partitions
and numbers of processes are the same at nodes that correspond. `e` is the renumbering `σ` of the nodes. -/
theorem C89_nodes {n n' : ℕ} (hn : n' = n) {C : Setup n dim} {C' : Setup n' dim} (e : Fin n → Fin n') (he : ∀ i, (e i : ℕ) = σ i) {o2s vo2s o2s' vo2s' : ℕ → ℕ}
    (N : TwoNumberings n dim o2s vo2s o2s' vo2s' σ τ) {T T' : Mesh dim} (hM : MeshRenumbered τ σ T T') (hd : Definite T)
    (hj : ∀ c < T.nCells, ∀ q < (T.cell c).nq, 0 < (T.cell c).jxw q) {d d' : ℕ → ℝ}
    (hr : Recovered C T o2s vo2s d) (hr' : Recovered C' T' o2s' vo2s' d') (hdata : ∀ i < n, d' (σ i) = d i) (i : Fin n) :
    C'.nodes.tmpRhs (e i) = C.nodes.tmpRhs i ∧ C'.nodes.normal (e i) = C.nodes.normal i ∧
      C'.nodes.surfGrad (e i) = C.nodes.surfGrad i := by
  subst hn
  obtain ⟨dgn, un, sn, en⟩ := hr.normal
  obtain ⟨dgs, us, ss, es⟩ := hr.surfGrad
  obtain ⟨dgn', un', sn', en'⟩ := hr'.normal
  obtain ⟨dgs', us', ss', es'⟩ := hr'.surfGrad
  have hs : ∀ c < T.nCells, ∀ i ∈ (T.cell c).sdofs, d' (σ i) = d i := fun c hc i hi => hdata i (hr.scalars c hc i hi)
  obtain ⟨k1, -, -⟩ := C89_recovered hM hr.wf hr'.wf hd hj hs hs (dg := dgn) (dg' := dgn') (u := un) (u' := un')
  obtain ⟨-, k2, -⟩ := C89_recovered hM hr.wf hr'.wf hd hj hs hs (dg := dgs) (dg' := dgs') (u := us) (u' := us')
  have hpos : ∀ (k : Fin dim), vecIndex (dim * n') dim (reorderingVectors n' (dim * n') o2s' vo2s').1 vo2s'
      (e i : ℕ) k = τ (vecIndex (dim * n') dim (reorderingVectors n' (dim * n') o2s vo2s).1 vo2s i k) := by
    intro k
    rw [he]
    exact C89_positions (by have := k.isLt; omega) N i k i.isLt k.isLt
  refine ⟨?_, ?_, ?_⟩
  · rw [hr.data, hr'.data, he]
    exact hdata i i.isLt
  · funext k
    rw [en, en', hpos]
    exact k1 sn sn' _ (by rw [hr.nDofs]; exact vecIndex_lt N i.isLt k)
  · funext k
    rw [es, es', hpos]
    exact k2 ss ss' _ (by rw [hr.nDofs]; exact vecIndex_lt N i.isLt k)

/-- A solution vector as a function of the number of the dof. -/
def asFun {n : ℕ} (x : Vec n) : ℕ → ℝ := fun i => if h : i < n then x ⟨i, h⟩ else 0

/-- **C89** (gradients of solutions that correspond), any dimension. -/
theorem C89_gradient {n n' : ℕ} (hn : n' = n) {C : Setup n dim} {C' : Setup n' dim} (e : Fin n → Fin n') (he : ∀ i, (e i : ℕ) = σ i) {o2s vo2s o2s' vo2s' : ℕ → ℕ}
    (N : TwoNumberings n dim o2s vo2s o2s' vo2s' σ τ) {T T' : Mesh dim} (hM : MeshRenumbered τ σ T T') (hd : Definite T)
    (hj : ∀ c < T.nCells, ∀ q < (T.cell c).nq, 0 < (T.cell c).jxw q) {d d' : ℕ → ℝ}
    (hr : Recovered C T o2s vo2s d) (hr' : Recovered C' T' o2s' vo2s' d') {phi dphi : Vec n} {phi' dphi' : Vec n'}
    (hphi : ∀ i, phi' (e i) = phi i) (hdphi : ∀ i, dphi' (e i) = dphi i) {dg dg' : Diag} {ug ug' : ℕ → ℝ}
    (hg : Solves T (fullGrad (asFun phi) (asFun dphi)) dg C.procs ug)
    (hg' : Solves T' (fullGrad (asFun phi') (asFun dphi')) dg' C'.procs ug') (i : Fin n) (k : Fin dim) :
    distribute T' ug' (vecIndex (dim * n') dim (reorderingVectors n' (dim * n') o2s' vo2s').1 vo2s' (e i) k) =
      distribute T ug (vecIndex (dim * n) dim (reorderingVectors n (dim * n) o2s vo2s).1 vo2s i k) := by
  subst hn
  have ext : ∀ {x x' : Vec n'}, (∀ i, x' (e i) = x i) → ∀ c < T.nCells, ∀ i ∈ (T.cell c).sdofs, asFun x' (σ i) = asFun x i := by
    intro x x' hx c hc i hi
    have hi := hr.scalars c hc i hi
    have h1 := he ⟨i, hi⟩
    have hi' : σ i < n' := by rw [← h1]; exact (e ⟨i, hi⟩).isLt
    unfold asFun
    rw [dif_pos hi, dif_pos hi', ← hx]
    congr 1
    exact Fin.ext h1.symm
  have hpos : vecIndex (dim * n') dim (reorderingVectors n' (dim * n') o2s' vo2s').1 vo2s'
      (e i : ℕ) k = τ (vecIndex (dim * n') dim (reorderingVectors n' (dim * n') o2s vo2s).1 vo2s i k) := by
    rw [he]
    exact C89_positions (by have := k.isLt; omega) N i k i.isLt k.isLt
  rw [hpos]
  exact (C89_recovered hM hr.wf hr'.wf hd hj (ext hphi) (ext hdphi)).2.2 hg hg' _ (by rw [hr.nDofs]; exact vecIndex_lt N i.isLt k)

/-- **C89** (boundary data). Two runs with different numberings, partitions and numbers of processes, each with normals and surface gradients
that it recovered itself: the hypotheses of C83 on normals and surface gradients hold. -/
theorem C89_setup (R : Renumbered σ inp inp') (C : Setup inp.nDofs 3) (C' : Setup inp'.nDofs 3) {o2s vo2s o2s' vo2s' : ℕ → ℕ}
    (N : TwoNumberings inp.nDofs 3 o2s vo2s o2s' vo2s' σ τ) {T T' : Mesh 3} (hM : MeshRenumbered τ σ T T') (hd : Definite T)
    (hj : ∀ c < T.nCells, ∀ q < (T.cell c).nq, 0 < (T.cell c).jxw q) {d d' : ℕ → ℝ}
    (hr : Recovered C T o2s vo2s d) (hr' : Recovered C' T' o2s' vo2s' d')
    (hdata : ∀ i < inp.nDofs, d' (σ i) = d i)
    (method : C'.method = C.method) (grad : C'.nodes.continuosGradient = C.nodes.continuosGradient)
    (doubles : ∀ i, C'.doubles (renum R i) = (C.doubles i).image (renum R)) : SetupRenumbered R C C' := by
  have key := C89_nodes R.nDofs (renum R) (fun _ => rfl) N hM hd hj hr hr' hdata
  exact ⟨method, fun i => (key i).1, fun i => (key i).2.1, fun i => (key i).2.2, grad, doubles⟩

/-- **C89** (results). Whole runs: if the linear system of one run is regular, exact solves of two runs with different numberings, partitions and
numbers of processes, which recover normals and surface gradients on their own meshes, give the same potential and normal derivative at
every node, and the same recovered gradient of the solution at every node, component by component. Meshes with hanging nodes are included. -/
theorem C89_same_result (R : Renumbered σ inp inp') (D : Data) (S S' : SingRule) (C : Setup inp.nDofs 3) (C' : Setup inp'.nDofs 3)
    {o2s vo2s o2s' vo2s' : ℕ → ℕ} (N : TwoNumberings inp.nDofs 3 o2s vo2s o2s' vo2s' σ τ)
    {T T' : Mesh 3} (hM : MeshRenumbered τ σ T T') (hd : Definite T)
    (hj : ∀ c < T.nCells, ∀ q < (T.cell c).nq, 0 < (T.cell c).jxw q) {d d' : ℕ → ℝ}
    (hr : Recovered C T o2s vo2s d) (hr' : Recovered C' T' o2s' vo2s' d') (hdd : ∀ i < inp.nDofs, d' (σ i) = d i)
    (method : C'.method = C.method) (grad : C'.nodes.continuosGradient = C.nodes.continuosGradient)
    (doubles : ∀ i, C'.doubles (renum R i) = (C.doubles i).image (renum R))
    (free : ∀ i, C.hanging i = none → C'.hanging (renum R i) = none)
    (hanging : ∀ i es, C.hanging i = some es → ∃ es', C'.hanging (renum R i) = some es' ∧ es'.Perm (es.map fun x => (renum R x.1, x.2)))
    (gmres : (Vec inp.nDofs → Vec inp.nDofs) → Vec inp.nDofs → Vec inp.nDofs)
    (gmres' : (Vec inp'.nDofs → Vec inp'.nDofs) → Vec inp'.nDofs → Vec inp'.nDofs)
    (l l' : List (ℕ × ℕ)) (st st' : AlphaStatics) (phi0 dphi0 : Vec inp.nDofs) (phi0' dphi0' : Vec inp'.nDofs)
    (X : Solution inp.nDofs) (X' : Solution inp'.nDofs)
    (h : solve inp D S S' C gmres (alphaHistory l) phi0 dphi0 = (st, some X))
    (h' : solve inp' D S S' C' gmres' (alphaHistory l') phi0' dphi0' = (st', some X'))
    (B : Finset (Fin inp.nDofs))
    (hP : PosedH (solveMatrix inp D S S' C.method C.owner .double) (solveMatrix inp D S S' C.method C.owner .single) C B phi0 dphi0)
    (hP' : PosedH (solveMatrix inp' D S S' C'.method C'.owner .double) (solveMatrix inp' D S S' C'.method C'.owner .single) C'
      (B.image (renum R)) phi0' dphi0')
    (hdata : Consistent C B) 
    (hdet : DeterminedH (solveMatrix inp D S S' C.method C.owner .double) (solveMatrix inp D S S' C.method C.owner .single) C
      (alphaHistory l) phi0 dphi0)
    (hX : ∀ i, X.residual i = 0) (hX' : ∀ i, X'.residual i = 0) {dg dg' : Diag} {ug ug' : ℕ → ℝ}
    (hg : Solves T (fullGrad (asFun X.phi) (asFun X.dphi)) dg C.procs ug)
    (hg' : Solves T' (fullGrad (asFun X'.phi) (asFun X'.dphi)) dg' C'.procs ug') (i : Fin inp.nDofs) (k : Fin 3) :
    X'.phi (renum R i) = X.phi i ∧ X'.dphi (renum R i) = X.dphi i ∧
    distribute T' ug' (vecIndex (3 * inp'.nDofs) 3 (reorderingVectors inp'.nDofs (3 * inp'.nDofs) o2s' vo2s').1 vo2s' (renum R i) k) =
      distribute T ug (vecIndex (3 * inp.nDofs) 3 (reorderingVectors inp.nDofs (3 * inp.nDofs) o2s vo2s).1 vo2s i k) := by
  have hS := C89_setup R C C' N hM hd hj hr hr' hdd method grad doubles
  have key : ∀ i, X'.phi (renum R i) = X.phi i ∧ X'.dphi (renum R i) = X.dphi i :=
    C91_same_result (C91_dimension3 R D S S' hS free hanging) gmres gmres' l l' st st' phi0 dphi0 phi0' dphi0' X X' h h' B hP hP' hdata hdet hX hX'
  exact ⟨(key i).1, (key i).2, C89_gradient R.nDofs (renum R) (fun _ => rfl) N hM hd hj hr hr' (fun i => (key i).1) (fun i => (key i).2) hg hg' i k⟩

/-- **C89** (results, dimension 2). The same on a curve: normals, surface gradients and gradients recovered by the two runs are those of the
runs themselves. -/
theorem C89_plane {K K' : Plane.Curve} (R : Plane.CurveRenumbered σ K K') (C : Setup K.nDofs 2) (C' : Setup K'.nDofs 2)
    {o2s vo2s o2s' vo2s' : ℕ → ℕ} (N : TwoNumberings K.nDofs 2 o2s vo2s o2s' vo2s' σ τ)
    {T T' : Mesh 2} (hM : MeshRenumbered τ σ T T') (hd : Definite T)
    (hj : ∀ c < T.nCells, ∀ q < (T.cell c).nq, 0 < (T.cell c).jxw q) {d d' : ℕ → ℝ}
    (hr : Recovered C T o2s vo2s d) (hr' : Recovered C' T' o2s' vo2s' d') (hdd : ∀ i < K.nDofs, d' (σ i) = d i)
    (grad : C'.nodes.continuosGradient = C.nodes.continuosGradient)
    (doubles : ∀ i, C'.doubles (Plane.curveEquiv R i) = (C.doubles i).image (Plane.curveEquiv R))
    (free : ∀ i, C.hanging i = none) (free' : ∀ i, C'.hanging i = none)
    (gmres : (Vec K.nDofs → Vec K.nDofs) → Vec K.nDofs → Vec K.nDofs)
    (gmres' : (Vec K'.nDofs → Vec K'.nDofs) → Vec K'.nDofs → Vec K'.nDofs)
    (l l' : List (ℕ × ℕ)) (st st' : AlphaStatics) (phi0 dphi0 : Vec K.nDofs) (phi0' dphi0' : Vec K'.nDofs)
    (X : Solution K.nDofs) (X' : Solution K'.nDofs)
    (h : Plane.solve K C gmres (alphaHistory l) phi0 dphi0 = (st, some X))
    (h' : Plane.solve K' C' gmres' (alphaHistory l') phi0' dphi0' = (st', some X'))
    (B : Finset (Fin K.nDofs))
    (hP : PosedH (Plane.planeMatrix K C.owner .double) (Plane.planeMatrix K C.owner .single) C B phi0 dphi0)
    (hP' : PosedH (Plane.planeMatrix K' C'.owner .double) (Plane.planeMatrix K' C'.owner .single) C'
      (B.image (Plane.curveEquiv R)) phi0' dphi0')
    (hdata : Consistent C B)
    (hdet : DeterminedH (Plane.planeMatrix K C.owner .double) (Plane.planeMatrix K C.owner .single) C (alphaHistory l) phi0 dphi0)
    (hX : ∀ i, X.residual i = 0) (hX' : ∀ i, X'.residual i = 0) {dg dg' : Diag} {ug ug' : ℕ → ℝ}
    (hg : Solves T (fullGrad (asFun X.phi) (asFun X.dphi)) dg C.procs ug)
    (hg' : Solves T' (fullGrad (asFun X'.phi) (asFun X'.dphi)) dg' C'.procs ug') (i : Fin K.nDofs) (k : Fin 2) :
    X'.phi (Plane.curveEquiv R i) = X.phi i ∧ X'.dphi (Plane.curveEquiv R i) = X.dphi i ∧
    distribute T' ug' (vecIndex (2 * K'.nDofs) 2 (reorderingVectors K'.nDofs (2 * K'.nDofs) o2s' vo2s').1 vo2s' (Plane.curveEquiv R i) k) =
      distribute T ug (vecIndex (2 * K.nDofs) 2 (reorderingVectors K.nDofs (2 * K.nDofs) o2s vo2s).1 vo2s i k) := by
  have hn := C89_nodes R.nDofs (Plane.curveEquiv R) (fun _ => rfl) N hM hd hj hr hr' hdd
  have key : ∀ i, X'.phi (Plane.curveEquiv R i) = X.phi i ∧ X'.dphi (Plane.curveEquiv R i) = X.dphi i :=
    Plane.C91_plane R C C' (fun i => (hn i).1) (fun i => (hn i).2.1) (fun i => (hn i).2.2) grad doubles free free' gmres gmres' l l' st st'
      phi0 dphi0 phi0' dphi0' X X' h h' B hP hP' hdata hdet hX hX'
  exact ⟨(key i).1, (key i).2, C89_gradient R.nDofs (Plane.curveEquiv R) (fun _ => rfl) N hM hd hj hr hr' (fun i => (key i).1)
    (fun i => (key i).2) hg hg' i k⟩

/-! ## The hypotheses are met -/

/-- The mesh with vector dof `r` renamed `τ r` and scalar dof `i` renamed `σ i`. -/
def renumberMesh (τ σ : Equiv.Perm ℕ) (T : Mesh 3) : Mesh 3 :=
  { T with
    cell := fun c => { T.cell c with dofs := (T.cell c).dofs.map τ, sdofs := (T.cell c).sdofs.map σ }
    cs := fun r => (T.cs (τ.symm r)).map fun e => e.map fun x => (τ x.1, x.2) }

theorem renumbered_mesh (τ σ : Equiv.Perm ℕ) (T : Mesh 3) (hb : ∀ r, τ r < T.nDofs ↔ r < T.nDofs) :
    MeshRenumbered τ σ T (renumberMesh τ σ T) := by
  refine ⟨rfl, rfl, hb, rfl, fun c _ => ⟨rfl, rfl, rfl, rfl, rfl, rfl, rfl, rfl⟩, ?_, ?_⟩
  · intro r _ h
    simp [renumberMesh, h]
  · intro r _ e h
    exact ⟨_, by simp [renumberMesh, h], List.Perm.refl _⟩

/-- Renumbering keeps a mesh well formed. -/
theorem renumberMesh_wf (τ σ : Equiv.Perm ℕ) {T : Mesh 3} {procs : ℕ} (hb : ∀ r, τ r < T.nDofs ↔ r < T.nDofs) (h : T.WF procs) :
    (renumberMesh τ σ T).WF procs := by
  obtain ⟨h1, h2, h3⟩ := h
  refine ⟨?_, ?_, h3⟩
  · intro c hc g hg
    obtain ⟨g0, hg0, rfl⟩ := List.mem_map.1 hg
    exact (hb g0).2 (h1 c hc g0 hg0)
  · intro r hr e he se hse
    obtain ⟨r, rfl⟩ := τ.surjective r
    have hr : r < T.nDofs := (hb r).1 hr
    simp only [renumberMesh, Equiv.symm_apply_apply, Option.map_eq_some_iff] at he ⊢
    obtain ⟨e, he, rfl⟩ := he
    obtain ⟨x, hx, rfl⟩ := List.mem_map.1 hse
    obtain ⟨q1, q2⟩ := h2 r hr e he x hx
    exact ⟨(hb _).2 q1, by simp [q2]⟩

/-- Dofs 0 and 4 are exchanged; one node is free, the other one hanging, and the components differ. -/
example : let τ := Equiv.swap 0 4
    MeshRenumbered τ 1 exMesh (renumberMesh τ 1 exMesh) ∧ exMesh.WF 2 ∧ (renumberMesh τ 1 exMesh).WF 2 ∧ Definite exMesh ∧
    (∀ c < exMesh.nCells, ∀ q < (exMesh.cell c).nq, 0 < (exMesh.cell c).jxw q) ∧
    (∃ u, Solves exMesh cellNormal (fun _ _ => 1) 2 u) ∧ (renumberMesh τ 1 exMesh).cs 4 = none ∧
    exMesh.cs 4 ≠ none := by
  intro τ
  have hb : ∀ r, τ r < exMesh.nDofs ↔ r < exMesh.nDofs := by
    intro r
    change Equiv.swap 0 4 r < 9 ↔ r < 9
    rw [Equiv.swap_apply_def]
    split_ifs with h1 h2 <;> omega
  refine ⟨renumbered_mesh _ _ _ hb, exMesh_wf, renumberMesh_wf _ _ hb exMesh_wf, exMesh_definite, exMesh_jxw, exMesh_regular _, ?_, ?_⟩
  · have : τ.symm 4 = 0 := by simp [τ]
    simp only [renumberMesh, this]
    simp [exMesh]
  · simp [exMesh]

/-- Two nodes: the second run exchanges the nodes, and numbers the components of a node together. -/
example : ∃ σ τ : Equiv.Perm ℕ, TwoNumberings 2 3 id id (fun i => 1 - i) (fun i => 3 * (1 - i % 2) + i / 2) σ τ := by
  have hv : Function.Bijective fun i : ℕ => if i < 6 then 3 * (1 - i % 2) + i / 2 else i := by
    constructor
    · intro i j h
      dsimp only at h
      split_ifs at h <;> omega
    · intro j
      by_cases hj : j < 6
      · exact ⟨2 * (j % 3) + (1 - j / 3), by dsimp only; split_ifs <;> omega⟩
      · exact ⟨j, by dsimp only; split_ifs; rfl⟩
  refine ⟨Equiv.swap 0 1, Equiv.ofBijective _ hv, ?_⟩
  constructor <;> (try dsimp only [id]) <;> intros <;> try omega
  · rename_i i hi
    have : i = 0 ∨ i = 1 := by omega
    rcases this with rfl | rfl <;> simp
  · rename_i i hi
    show (if i < 6 then _ else _) = _
    rw [if_pos (by omega)]

/-- Any boundary data on three nodes can be completed with the normals and surface gradients recovered on `exMesh`. -/
example (C : Setup 3 3) (hp : C.procs = 2) : ∃ normal surfGrad, Recovered
    { C with nodes := { C.nodes with normal := normal, surfGrad := surfGrad } } exMesh id id (asFun C.nodes.tmpRhs) := by
  obtain ⟨un, hn⟩ := exMesh_regular cellNormal
  obtain ⟨us, hs⟩ := exMesh_regular (PiBem.Grad.surfGrad (asFun C.nodes.tmpRhs))
  refine ⟨_, _, ⟨by rw [hp]; exact exMesh_wf, rfl, ?_, ?_, ⟨_, un, by rw [hp]; exact hn, fun i k => rfl⟩,
    ⟨_, us, by rw [hp]; exact hs, fun i k => rfl⟩⟩⟩
  · intro c hc i hi
    have hc' : c = 0 ∨ c = 1 := by change c < 2 at hc; omega
    rcases hc' with rfl | rfl <;> simp [exMesh, exCell] at hi
  · intro i
    simp [asFun]

/-- The same in dimension 2, on two sides of a square. -/
example (C : Setup 4 2) (hp : C.procs = 2) : ∃ normal surfGrad, Recovered
    { C with nodes := { C.nodes with normal := normal, surfGrad := surfGrad } } sidesMesh id id (asFun C.nodes.tmpRhs) := by
  obtain ⟨un, hn⟩ := sides_regular cellNormal
  obtain ⟨us, hs⟩ := sides_regular (PiBem.Grad.surfGrad (asFun C.nodes.tmpRhs))
  refine ⟨_, _, ⟨by rw [hp]; exact sides_wf, rfl, ?_, ?_, ⟨_, un, by rw [hp]; exact hn, fun i k => rfl⟩,
    ⟨_, us, by rw [hp]; exact hs, fun i k => rfl⟩⟩⟩
  · intro c hc i hi
    have hc : c < 2 := hc
    simp only [sidesMesh, List.mem_map, List.mem_range] at hi
    obtain ⟨a, ha, rfl⟩ := hi
    omega
  · intro i
    simp [asFun]

end PiBem.Bem
