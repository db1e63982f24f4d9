import Verif.Props.Gradient
import Mathlib.LinearAlgebra.Matrix.Notation
import Mathlib.Algebra.BigOperators.Field

/-!
# C85: recovered gradients, surface gradients and normals of similar surfaces
-/

noncomputable section

namespace PiBem.Grad


/-- The vector element is made of equal scalar elements, one for each component: `kind r` is the component of dof `r` and `mate r e` the dof of
component `e` at the same place; `lmate` is the same for the numbers of dofs on a cell. -/
structure Vectorial {d : ℕ} (T : Mesh d) (kind : ℕ → Fin d) (mate lmate : ℕ → Fin d → ℕ) : Prop where
  comp : ∀ c < T.nCells, ∀ i < (T.cell c).dofs.length, kind ((T.cell c).dofs.getD i 0) = T.comp i
  bound : ∀ c < T.nCells, ∀ i < (T.cell c).dofs.length, ∀ e, lmate i e < (T.cell c).dofs.length
  lcomp : ∀ c < T.nCells, ∀ i < (T.cell c).dofs.length, ∀ e, T.comp (lmate i e) = e
  back : ∀ c < T.nCells, ∀ i < (T.cell c).dofs.length, ∀ e, lmate (lmate i e) (T.comp i) = i
  dof : ∀ c < T.nCells, ∀ i < (T.cell c).dofs.length, ∀ e,
    (T.cell c).dofs.getD (lmate i e) 0 = mate ((T.cell c).dofs.getD i 0) e
  shape : ∀ c < T.nCells, ∀ i < (T.cell c).dofs.length, ∀ e, ∀ q < (T.cell c).nq, (T.cell c).shape (lmate i e) q = (T.cell c).shape i q
  constr : ∀ r < T.nDofs, ∀ es, T.cs r = some es →
    ∀ e, mate r e < T.nDofs ∧ T.cs (mate r e) = some (es.map fun se => (mate se.1 e, se.2)) ∧ ∀ se ∈ es, kind se.1 = kind r

/-- A field of coefficients turned node by node: at every node the vector `w` is replaced by `Q w`. -/
def turn {d : ℕ} (kind : ℕ → Fin d) (mate : ℕ → Fin d → ℕ) (Q : Matrix (Fin d) (Fin d) ℝ) (w : ℕ → ℝ) : ℕ → ℝ :=
  fun r => ∑ e, Q (kind r) e * w (mate r e)

variable {d : ℕ} {T : Mesh d} {kind : ℕ → Fin d} {mate lmate : ℕ → Fin d → ℕ} {Q : Matrix (Fin d) (Fin d) ℝ}

theorem turn_field (hV : Vectorial T kind mate lmate) (w : ℕ → ℝ) {c q : ℕ} (hc : c < T.nCells) (hq : q < (T.cell c).nq) (k : Fin d) :
    field T.comp (T.cell c) (turn kind mate Q w) q k = ∑ e, Q k e * field T.comp (T.cell c) w q e := by
  unfold field turn
  simp only [Finset.mul_sum, Finset.sum_mul]
  rw [Finset.sum_comm]
  refine Finset.sum_congr rfl fun e _ => ?_
  refine Finset.sum_bij' (fun i _ => lmate i e) (fun i _ => lmate i k) ?_ ?_ ?_ ?_ ?_
  · intro i hi
    rw [Finset.mem_filter, Finset.mem_range] at hi ⊢
    exact ⟨hV.bound c hc i hi.1 e, hV.lcomp c hc i hi.1 e⟩
  · intro i hi
    rw [Finset.mem_filter, Finset.mem_range] at hi ⊢
    exact ⟨hV.bound c hc i hi.1 k, hV.lcomp c hc i hi.1 k⟩
  · intro i hi
    rw [Finset.mem_filter, Finset.mem_range] at hi
    have := hV.back c hc i hi.1 e
    rwa [hi.2] at this
  · intro i hi
    rw [Finset.mem_filter, Finset.mem_range] at hi
    have := hV.back c hc i hi.1 k
    rwa [hi.2] at this
  · intro i hi
    rw [Finset.mem_filter, Finset.mem_range] at hi
    rw [hV.comp c hc i hi.1, hi.2, hV.dof c hc i hi.1, hV.shape c hc i hi.1 e q hq, mul_assoc]

theorem turn_conforming (hV : Vectorial T kind mate lmate) {w : ℕ → ℝ} (hw : Conforming T w) : Conforming T (turn kind mate Q w) := by
  intro r hr es hes
  have key : ∀ e, w (mate r e) = (es.map fun se => se.2 * w (mate se.1 e)).sum := by
    intro e
    obtain ⟨h1, h2, -⟩ := hV.constr r hr es hes e
    rw [hw _ h1 _ h2, List.map_map]
    rfl
  have hk := (hV.constr r hr es hes (kind r)).2.2
  have hterm : (es.map fun se => se.2 * turn kind mate Q w se.1) =
      es.map fun se => ∑ e, Q (kind r) e * (se.2 * w (mate se.1 e)) := by
    refine List.map_congr_left fun se hse => ?_
    unfold turn
    rw [hk se hse, Finset.mul_sum]
    exact Finset.sum_congr rfl fun e _ => by ring
  rw [hterm]
  unfold turn
  simp only [key]
  clear hterm hk key hes
  induction es with
  | nil => simp
  | cons a l ih =>
    simp only [List.map_cons, List.sum_cons]
    rw [← ih, ← Finset.sum_add_distrib]
    exact Finset.sum_congr rfl fun e _ => by ring

/-- The cell of a surface moved by `x ↦ s·Qx + b`: areas, normals and surface gradients of the shape functions change, the subdomain is
arbitrary. -/
structure CellSimilar {d : ℕ} (Q : Matrix (Fin d) (Fin d) ℝ) (s : ℝ) (C C' : Cell d) : Prop where
  dofs : C'.dofs = C.dofs
  nq : C'.nq = C.nq
  shape : C'.shape = C.shape
  sdofs : C'.sdofs = C.sdofs
  sshape : C'.sshape = C.sshape
  jxw : ∀ q, C'.jxw q = s ^ (d - 1) * C.jxw q
  normal : ∀ q a, C'.normal q a = ∑ e, Q a e * C.normal q e
  sgrad : ∀ j q a, C'.sgrad j q a = (∑ e, Q a e * C.sgrad j q e) / s

/-- Similar surfaces with the same mesh and numbering, whatever the partition. -/
structure MeshSimilar {d : ℕ} (Q : Matrix (Fin d) (Fin d) ℝ) (s : ℝ) (T T' : Mesh d) : Prop where
  nCells : T'.nCells = T.nCells
  nDofs : T'.nDofs = T.nDofs
  comp : T'.comp = T.comp
  cs : T'.cs = T.cs
  cell : ∀ c, CellSimilar Q s (T.cell c) (T'.cell c)

variable {T' : Mesh d} {s : ℝ} {procs procs' : ℕ}

theorem similar_field (h : MeshSimilar Q s T T') (w : ℕ → ℝ) (c q : ℕ) :
    field T'.comp (T'.cell c) w q = field T.comp (T.cell c) w q := by
  unfold field
  rw [h.comp, (h.cell c).dofs, (h.cell c).shape]

theorem similar_conforming (h : MeshSimilar Q s T T') (w : ℕ → ℝ) : Conforming T' w ↔ Conforming T w := by
  unfold Conforming
  rw [h.nDofs, h.cs]

/-- Projections of vectors that correspond correspond. -/
theorem similar_projection (h : MeshSimilar Q s T T') (hV : Vectorial T kind mate lmate) (hT : T.WF procs) (hT' : T'.WF procs')
    (hd : Definite T) (hs : 0 < s) (hj : ∀ c < T.nCells, ∀ q < (T.cell c).nq, 0 < (T.cell c).jxw q)
    {g g' : Cell d → ℕ → Fin d → ℝ} (κ : ℝ)
    (hg : ∀ c < T.nCells, ∀ q < (T.cell c).nq, ∀ a, g' (T'.cell c) q a = κ * ∑ e, Q a e * g (T.cell c) q e)
    {dg dg' : Diag} {u u' : ℕ → ℝ} (hu : Solves T g dg procs u) (hu' : Solves T' g' dg' procs' u') :
    ∀ r < T.nDofs, distribute T' u' r = κ * ∑ e, Q (kind r) e * distribute T u (mate r e) := by
  obtain ⟨hv, ho⟩ := C67_projection hT hu
  set v := distribute T u with hvdef
  have hd' : Definite T' := by
    intro z hz hzero
    rw [h.nDofs]
    refine hd z ((similar_conforming h z).1 hz) fun c hc q hq => ?_
    rw [← similar_field h]
    exact hzero c (by rwa [h.nCells]) q (by rwa [(h.cell c).nq])
  have hj' : ∀ c < T'.nCells, ∀ q < (T'.cell c).nq, 0 < (T'.cell c).jxw q := by
    intro c hc q hq
    rw [(h.cell c).jxw]
    have := hj c (h.nCells ▸ hc) q ((h.cell c).nq ▸ hq)
    positivity
  have hct : Conforming T (turn kind mate Q v) := turn_conforming hV hv
  have hcv : Conforming T' (fun r => κ * turn kind mate Q v r) := by
    rw [similar_conforming h]
    intro r hr es hes
    show κ * turn kind mate Q v r = (es.map fun se => se.2 * (κ * turn kind mate Q v se.1)).sum
    rw [hct r hr es hes, ← List.sum_map_mul_left]
    congr 1
    exact List.map_congr_left fun se _ => by ring
  have hmain := C67_unique hT' hd' hj' hu' (fun r => κ * turn kind mate Q v r) hcv ?_
  · intro r hr
    exact hmain r (by rwa [h.nDofs])
  · intro w hw
    have hw' := ho (turn kind mate Q.transpose w) (turn_conforming hV ((similar_conforming h w).1 hw))
    have hfield : ∀ c q, field T.comp (T.cell c) (fun r => κ * turn kind mate Q v r) q =
        fun k => κ * field T.comp (T.cell c) (turn kind mate Q v) q k := by
      intro c q
      funext k
      unfold field
      rw [Finset.mul_sum]
      exact Finset.sum_congr rfl fun i _ => by ring
    have : inner T' (T'.field (fun r => κ * turn kind mate Q v r) - g') (T'.field w) =
        s ^ (d - 1) * κ * inner T (T.field v - g) (T.field (turn kind mate Q.transpose w)) := by
      unfold inner
      rw [h.nCells, Finset.mul_sum]
      refine Finset.sum_congr rfl fun c hc => ?_
      have hc := Finset.mem_range.1 hc
      rw [(h.cell c).nq, Finset.mul_sum]
      refine Finset.sum_congr rfl fun q hq => ?_
      have hq := Finset.mem_range.1 hq
      rw [(h.cell c).jxw]
      have e1 : ∀ k, (T'.field (fun r => κ * turn kind mate Q v r) - g') (T'.cell c) q k =
          κ * ∑ e, Q k e * (T.field v - g) (T.cell c) q e := by
        intro k
        show field T'.comp (T'.cell c) _ q k - g' (T'.cell c) q k = _
        rw [similar_field h, hfield]
        show κ * field T.comp (T.cell c) (turn kind mate Q v) q k - _ = _
        rw [turn_field hV v hc hq, hg c hc q hq, ← mul_sub, ← Finset.sum_sub_distrib]
        congr 1
        refine Finset.sum_congr rfl fun e _ => ?_
        rw [← mul_sub]
        rfl
      have e2 : ∀ k, T'.field w (T'.cell c) q k = field T.comp (T.cell c) w q k := by
        intro k
        show field T'.comp (T'.cell c) w q k = _
        rw [similar_field h]
      have e3 : ∀ e, T.field (turn kind mate Q.transpose w) (T.cell c) q e = ∑ k, Q k e * field T.comp (T.cell c) w q k := by
        intro e
        show field T.comp (T.cell c) _ q e = _
        rw [turn_field hV w hc hq]
        rfl
      simp only [e1, e2, e3]
      have e4 : ∑ k, κ * (∑ e, Q k e * (T.field v - g) (T.cell c) q e) * field T.comp (T.cell c) w q k =
          κ * ∑ e, (T.field v - g) (T.cell c) q e * ∑ k, Q k e * field T.comp (T.cell c) w q k := by
        simp only [Finset.mul_sum, Finset.sum_mul]
        rw [Finset.sum_comm]
        exact Finset.sum_congr rfl fun e _ => Finset.sum_congr rfl fun k _ => by ring
      rw [e4]
      ring
    rw [this, hw', mul_zero]

theorem similar_grad_sum (x : ℕ → ℝ) (m : ℕ) (G : ℕ → Fin d → ℝ) (Q : Matrix (Fin d) (Fin d) ℝ) (s : ℝ) (a : Fin d) :
    ∑ j ∈ Finset.range m, x j * ((∑ e, Q a e * G j e) / s) = (∑ e, Q a e * ∑ j ∈ Finset.range m, x j * G j e) / s := by
  simp only [Finset.sum_div, Finset.mul_sum]
  rw [Finset.sum_comm]
  exact Finset.sum_congr rfl fun e _ => Finset.sum_congr rfl fun j _ => by ring

/-- **C85** (recovered gradients). On similar surfaces, with the same potential and normal derivatives divided by the ratio of the
lengths, the gradients returned correspond: at every node the gradient is turned and divided by that ratio. Partition, number of
processes and diagonal entries of constrained rows are arbitrary. -/
theorem C85_gradients (h : MeshSimilar Q s T T') (hV : Vectorial T kind mate lmate) (hT : T.WF procs) (hT' : T'.WF procs')
    (hd : Definite T) (hs : 0 < s) (hj : ∀ c < T.nCells, ∀ q < (T.cell c).nq, 0 < (T.cell c).jxw q) {phi dphi : ℕ → ℝ}
    {dg dg' : Diag} {u u' : ℕ → ℝ} (hu : Solves T (fullGrad phi dphi) dg procs u)
    (hu' : Solves T' (fullGrad phi fun i => dphi i / s) dg' procs' u') :
    ∀ r < T.nDofs, distribute T' u' r = 1 / s * ∑ e, Q (kind r) e * distribute T u (mate r e) := by
  refine similar_projection h hV hT hT' hd hs hj (1 / s) (fun c _ q _ a => ?_) hu hu'
  unfold fullGrad scalarValue scalarGrad
  rw [(h.cell c).sdofs, (h.cell c).sshape, (h.cell c).normal]
  simp only [(h.cell c).sgrad]
  have e1 : ∑ j ∈ Finset.range (T.cell c).sdofs.length, dphi ((T.cell c).sdofs.getD j 0) / s * (T.cell c).sshape j q =
      (∑ j ∈ Finset.range (T.cell c).sdofs.length, dphi ((T.cell c).sdofs.getD j 0) * (T.cell c).sshape j q) / s := by
    rw [Finset.sum_div]
    exact Finset.sum_congr rfl fun j _ => by ring
  rw [e1, similar_grad_sum]
  simp only [mul_add, Finset.sum_add_distrib, Finset.mul_sum]
  rw [add_comm]
  simp only [Finset.sum_div, Finset.sum_mul, Finset.mul_sum]
  rw [add_comm]
  congr 1
  · rw [Finset.sum_comm]
    exact Finset.sum_congr rfl fun e _ => Finset.sum_congr rfl fun j _ => by ring
  · exact Finset.sum_congr rfl fun e _ => Finset.sum_congr rfl fun j _ => by ring

/-- **C85** (surface gradients, normals). The same for `compute_surface_gradients`, and for `compute_normals`, where nothing is divided. -/
theorem C85_surface_gradients (h : MeshSimilar Q s T T') (hV : Vectorial T kind mate lmate) (hT : T.WF procs) (hT' : T'.WF procs')
    (hd : Definite T) (hs : 0 < s) (hj : ∀ c < T.nCells, ∀ q < (T.cell c).nq, 0 < (T.cell c).jxw q) {phi : ℕ → ℝ}
    {dg dg' : Diag} {u u' : ℕ → ℝ} :
    (Solves T (surfGrad phi) dg procs u → Solves T' (surfGrad phi) dg' procs' u' →
      ∀ r < T.nDofs, distribute T' u' r = 1 / s * ∑ e, Q (kind r) e * distribute T u (mate r e)) ∧
    (Solves T cellNormal dg procs u → Solves T' cellNormal dg' procs' u' →
      ∀ r < T.nDofs, distribute T' u' r = ∑ e, Q (kind r) e * distribute T u (mate r e)) := by
  constructor
  · intro hu hu'
    refine similar_projection h hV hT hT' hd hs hj (1 / s) (fun c _ q _ a => ?_) hu hu'
    unfold surfGrad scalarGrad
    rw [(h.cell c).sdofs]
    simp only [(h.cell c).sgrad]
    rw [similar_grad_sum, one_div, div_eq_inv_mul]
  · intro hu hu' r hr
    have := similar_projection h hV hT hT' hd hs hj 1 (fun c _ q _ a => by
      unfold cellNormal
      rw [(h.cell c).normal, one_mul]) hu hu' r hr
    rwa [one_mul] at this

/-! ## Example -/

/-- The mesh moved by `x ↦ s·Qx + b`. -/
def movedMesh (Q : Matrix (Fin 3) (Fin 3) ℝ) (s : ℝ) (T : Mesh 3) : Mesh 3 :=
  { T with cell := fun c => { T.cell c with
      jxw := fun q => s ^ 2 * (T.cell c).jxw q
      normal := fun q a => ∑ e, Q a e * (T.cell c).normal q e
      sgrad := fun j q a => (∑ e, Q a e * (T.cell c).sgrad j q e) / s } }

theorem movedMesh_similar (Q : Matrix (Fin 3) (Fin 3) ℝ) (s : ℝ) (T : Mesh 3) : MeshSimilar Q s T (movedMesh Q s T) :=
  ⟨rfl, rfl, rfl, rfl, fun _ => ⟨rfl, rfl, rfl, rfl, rfl, fun _ => rfl, fun _ _ => rfl, fun _ _ _ => rfl⟩⟩

theorem movedMesh_wf (Q : Matrix (Fin 3) (Fin 3) ℝ) (s : ℝ) {T : Mesh 3} (h : T.WF procs) : (movedMesh Q s T).WF procs :=
  ⟨h.1, h.2, h.3⟩

theorem exMesh_vectorial : Vectorial exMesh (fun r => if r % 3 = 0 then 0 else if r % 3 = 1 then 1 else 2)
    (fun r e => 3 * (r / 3) + e) (fun i e => 3 * (i / 3) + e) := by
  have hl : ∀ c, (exMesh.cell c).dofs.length = 6 := by
    intro c
    by_cases h : c = 0 <;> simp [exMesh, exCell, h]
  have hd : ∀ c < 2, ∀ i < 6, (exMesh.cell c).dofs.getD i 0 = 3 * c + i := by
    intro c hc i hi
    interval_cases c <;> interval_cases i <;> rfl
  refine ⟨?_, ?_, ?_, ?_, ?_, ?_, ?_⟩
  · intro c hc i hi
    rw [hl] at hi
    rw [hd c hc i hi]
    simp [exMesh]
  · intro c hc i hi e
    rw [hl] at hi ⊢
    have := e.isLt
    omega
  · intro c hc i hi e
    fin_cases e <;> simp [exMesh, Nat.add_mod]
  · intro c hc i hi e
    rw [hl] at hi
    interval_cases i <;> fin_cases e <;> rfl
  · intro c hc i hi e
    rw [hl] at hi
    have := e.isLt
    rw [hd c hc i hi, hd c hc _ (by omega)]
    omega
  · intro c hc i hi e q hq
    have : (3 * (i / 3) + (e : ℕ)) / 3 = i / 3 := by have := e.isLt; omega
    have hsh : ∀ i, (exMesh.cell c).shape i q = if i / 3 = q then 3 / 4 else 1 / 4 := by
      intro i
      by_cases h : c = 0 <;> simp [exMesh, exCell, h]
    rw [hsh, hsh, this]
  · intro r hr es hes e
    have hr : r < 9 := hr
    interval_cases r <;> simp [exMesh] at hes <;> subst hes <;> fin_cases e <;> simp [exMesh]

theorem moved_solves (Q : Matrix (Fin 3) (Fin 3) ℝ) {s : ℝ} (hs : 0 < s) (g : Cell 3 → ℕ → Fin 3 → ℝ) :
    ∃ u, Solves (movedMesh Q s exMesh) g (fun _ _ => 1) 2 u := by
  have h := movedMesh_similar Q s exMesh
  obtain ⟨u, hu, _⟩ := C67_regular (movedMesh_wf Q s exMesh_wf) (by
      intro z hz hzero
      refine exMesh_definite z ((similar_conforming h z).1 hz) fun c hc q hq => ?_
      rw [← similar_field h]
      exact hzero c hc q hq) (by
      intro c hc q hq
      have := exMesh_jxw c hc q hq
      show 0 < s ^ 2 * _
      positivity) (fun _ _ => 1) (fun _ _ _ _ => one_pos) (by
    intro r hr hs
    change r < 9 at hr
    refine ⟨0, show 0 < 2 by decide, ?_⟩
    simp only [exMesh, movedMesh] at hs
    interval_cases r <;> simp at hs <;> simp [exMesh, movedMesh, exCell]) g
  exact ⟨u, hu⟩

/-- All hypotheses of `C85_surface_gradients` hold for the mesh with a hanging node and its image under any linear map, of any size. -/
example (Q : Matrix (Fin 3) (Fin 3) ℝ) {s : ℝ} (hs : 0 < s) : ∃ u u', MeshSimilar Q s exMesh (movedMesh Q s exMesh) ∧
    (∃ kind mate lmate, Vectorial exMesh kind mate lmate) ∧ exMesh.WF 2 ∧ (movedMesh Q s exMesh).WF 2 ∧ Definite exMesh ∧
    Solves exMesh cellNormal (fun _ _ => 1) 2 u ∧ Solves (movedMesh Q s exMesh) cellNormal (fun _ _ => 1) 2 u' :=
  have ⟨u, hu⟩ := exMesh_regular cellNormal
  have ⟨u', hu'⟩ := moved_solves Q hs cellNormal
  ⟨u, u', movedMesh_similar Q s exMesh, ⟨_, _, _, exMesh_vectorial⟩, exMesh_wf, movedMesh_wf Q s exMesh_wf, exMesh_definite, hu, hu'⟩

end PiBem.Grad
