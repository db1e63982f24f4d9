import Verif.Bem.Edges
import Verif.Props.Nodes
import Verif.Props.Gradient

/-!
# C78: values imposed at the edges between Dirichlet faces
-/

noncomputable section

namespace PiBem.Grad

open PiBem.Expansion (V3)
open PiBem.Bem (Vec NodeData dot tangential nodeData vecIndex doubleNodeConstraints)

variable {dim : ℕ} {T : Mesh dim} {procs : ℕ}

/-! ## Specification -/

/-- A part of the mesh with its own dofs: cells `P`, vector dofs `U`. Faces whose nodes are all doubled are such parts. -/
structure Part {dim : ℕ} (T : Mesh dim) (P U : ℕ → Prop) : Prop where
  inside : ∀ c < T.nCells, P c → ∀ r ∈ (T.cell c).dofs, U r
  outside : ∀ c < T.nCells, ¬ P c → ∀ r ∈ (T.cell c).dofs, ¬ U r
  hanging : ∀ r < T.nDofs, ∀ e, T.cs r = some e → ∀ se ∈ e, (U se.1 ↔ U r)

/-- A flat face with normal `ν`: a part whose cells lie in a plane; `X` are the positions of the nodes. The last two conditions say what
surface gradients of constants and of coordinates are. -/
structure FlatFace {dim : ℕ} (T : Mesh dim) (X : ℕ → Fin dim → ℝ) (P U : ℕ → Prop) (ν : Fin dim → ℝ) : Prop extends Part T P U where
  normal : ∀ c < T.nCells, P c → ∀ q < (T.cell c).nq, (T.cell c).normal q = ν
  grad0 : ∀ c < T.nCells, P c → ∀ q < (T.cell c).nq, ∀ l,
    ∑ j ∈ Finset.range (T.cell c).sdofs.length, (T.cell c).sgrad j q l = 0
  grad : ∀ c < T.nCells, P c → ∀ q < (T.cell c).nq, ∀ k l,
    ∑ j ∈ Finset.range (T.cell c).sdofs.length, X ((T.cell c).sdofs.getD j 0) k * (T.cell c).sgrad j q l
      = (if k = l then 1 else 0) - ν k * ν l

/-! ## Projection on a part -/

theorem part_weak (hd : Definite T)
    (hj : ∀ c < T.nCells, ∀ q < (T.cell c).nq, 0 < (T.cell c).jxw q) {P U : ℕ → Prop} (hp : Part T P U)
    {g : Cell dim → ℕ → Fin dim → ℝ} {v : ℕ → ℝ} (hv : Conforming T v)
    (hweak : ∀ w, Conforming T w → inner T (T.field w) (T.field v) = inner T (T.field w) g) (w : ℕ → ℝ) (hw : Conforming T w)
    (hg : ∀ c < T.nCells, P c → ∀ q < (T.cell c).nq, g (T.cell c) q = field T.comp (T.cell c) w q) :
    ∀ r < T.nDofs, U r → v r = w r := by
  classical
  set z : ℕ → ℝ := fun r => if U r then v r - w r else 0 with hz
  have hzc : Conforming T z := by
    intro r hr e he
    have h1 := conforming_sub hv hw r hr e he
    simp only [Pi.sub_apply] at h1
    simp only [hz]
    by_cases hU : U r
    · rw [if_pos hU]
      refine h1.trans (congrArg List.sum (List.map_congr_left fun se hse => ?_))
      rw [if_pos ((hp.hanging r hr e he se hse).2 hU)]
    · rw [if_neg hU]
      have : (e.map fun se => se.2 * if U se.1 then v se.1 - w se.1 else 0) = e.map fun _ => (0 : ℝ) :=
        List.map_congr_left fun se hse => by rw [if_neg (fun h => hU ((hp.hanging r hr e he se hse).1 h)), mul_zero]
      rw [this]; simp
  have hfield : ∀ c < T.nCells, ∀ q < (T.cell c).nq, field T.comp (T.cell c) z q =
      if P c then field T.comp (T.cell c) v q - g (T.cell c) q else 0 := by
    intro c hc q hq
    split_ifs with hP
    · rw [hg c hc hP q hq]
      funext k
      simp only [field, Pi.sub_apply, ← Finset.sum_sub_distrib]
      refine Finset.sum_congr rfl fun i hi => ?_
      have hi := Finset.mem_range.1 (Finset.mem_filter.1 hi).1
      have hU : U ((T.cell c).dofs.getD i 0) := hp.inside c hc hP _ (by
        rw [List.getD_eq_getElem _ _ hi]; exact List.getElem_mem _)
      simp only [hz, if_pos hU]
      ring
    · funext k
      simp only [field, Pi.zero_apply]
      refine Finset.sum_eq_zero fun i hi => ?_
      have hi := Finset.mem_range.1 (Finset.mem_filter.1 hi).1
      have hU : ¬ U ((T.cell c).dofs.getD i 0) := hp.outside c hc hP _ (by
        rw [List.getD_eq_getElem _ _ hi]; exact List.getElem_mem _)
      simp only [hz, if_neg hU, zero_mul]
  have hzero : inner T (T.field z) (T.field z) = 0 := by
    have : inner T (T.field z) (T.field z) = inner T (T.field z) (T.field v) - inner T (T.field z) g := by
      rw [← inner_sub_right]
      unfold inner
      refine Finset.sum_congr rfl fun c hc => Finset.sum_congr rfl fun q hq => ?_
      congr 1
      refine Finset.sum_congr rfl fun k _ => ?_
      have h1 := congrFun (hfield c (Finset.mem_range.1 hc) q (Finset.mem_range.1 hq)) k
      simp only [Mesh.field, Pi.sub_apply] at h1 ⊢
      rw [h1]
      split_ifs <;> simp
    rw [this, hweak z hzc, sub_self]
  have h0 := hd z hzc (inner_zero hj _ hzero)
  intro r hr hU
  have := h0 r hr
  simp only [hz, if_pos hU] at this
  linarith

/-- If the projected vector is a continuous finite element field on a part, it is recovered there, whatever it is on the rest of the surface. -/
theorem part_reproduces (hT : T.WF procs) (hd : Definite T)
    (hj : ∀ c < T.nCells, ∀ q < (T.cell c).nq, 0 < (T.cell c).jxw q) {P U : ℕ → Prop} (hp : Part T P U)
    {g : Cell dim → ℕ → Fin dim → ℝ} {dg : Diag} {u : ℕ → ℝ} (hu : Solves T g dg procs u) (w : ℕ → ℝ) (hw : Conforming T w)
    (hg : ∀ c < T.nCells, P c → ∀ q < (T.cell c).nq, g (T.cell c) q = field T.comp (T.cell c) w q) :
    ∀ r < T.nDofs, U r → distribute T u r = w r :=
  part_weak hd hj hp (distribute_conforming hT u) (fun _ hw => weak_form hT hu hw) w hw hg

/-! ## C78 -/

/-- **C78**, locality. The surface gradients at the dofs of a part of the mesh (a face whose nodes are doubled) depend only on the data at the
nodes of this part. -/
theorem C78_locality (hT : T.WF procs) (hd : Definite T)
    (hj : ∀ c < T.nCells, ∀ q < (T.cell c).nq, 0 < (T.cell c).jxw q) {P U : ℕ → Prop} (hp : Part T P U)
    (x y : ℕ → ℝ) (hxy : ∀ c < T.nCells, P c → ∀ i ∈ (T.cell c).sdofs, x i = y i)
    {dg dg' : Diag} {u v : ℕ → ℝ} (hu : Solves T (surfGrad x) dg procs u) (hv : Solves T (surfGrad y) dg' procs v) :
    ∀ r < T.nDofs, U r → distribute T u r = distribute T v r := by
  intro r hr hU
  have := part_weak hd hj hp (conforming_sub (distribute_conforming hT u) (distribute_conforming hT v))
    (g := surfGrad x - surfGrad y) (fun w hw => by
      rw [field_sub, inner_sub_right, inner_sub_right, weak_form hT hu hw, weak_form hT hv hw]) (fun _ => 0) (by intro r _ e _; simp) (fun c hc hP q hq => by
    have : surfGrad x (T.cell c) q = surfGrad y (T.cell c) q := by
      funext k
      unfold surfGrad scalarGrad
      refine Finset.sum_congr rfl fun j hj => ?_
      rw [hxy c hc hP _ (by rw [List.getD_eq_getElem _ _ (Finset.mem_range.1 hj)]; exact List.getElem_mem _)]
    simp only [Pi.sub_apply, this, sub_self]
    funext k
    simp [field]) r hr hU
  simp only [Pi.sub_apply] at this
  linarith

/-- Surface gradient of a linear function on a flat face. -/
theorem flat_surfGrad {X : ℕ → Fin dim → ℝ} {P U : ℕ → Prop} {ν : Fin dim → ℝ} (hf : FlatFace T X P U ν) (a : Fin dim → ℝ) (b : ℝ) (d : ℕ → ℝ) {c q : ℕ}
    (hc : c < T.nCells) (hP : P c) (hq : q < (T.cell c).nq)
    (hd : ∀ i ∈ (T.cell c).sdofs, d i = b + dot a (X i)) : surfGrad d (T.cell c) q = tangential a ν := by
  funext l
  have h1 : surfGrad d (T.cell c) q l = ∑ k, a k * ((if k = l then 1 else 0) - ν k * ν l) := by
    unfold surfGrad scalarGrad
    have : ∀ j ∈ Finset.range (T.cell c).sdofs.length, d ((T.cell c).sdofs.getD j 0) * (T.cell c).sgrad j q l =
        (b + ∑ k, a k * X ((T.cell c).sdofs.getD j 0) k) * (T.cell c).sgrad j q l := by
      intro j hj
      rw [hd _ (by rw [List.getD_eq_getElem _ _ (Finset.mem_range.1 hj)]; exact List.getElem_mem _)]
      rfl
    rw [Finset.sum_congr rfl this]
    simp only [add_mul, Finset.sum_add_distrib, ← Finset.mul_sum, hf.grad0 c hc hP q hq, mul_zero, zero_add]
    simp only [← hf.grad c hc hP q hq, Finset.mul_sum, Finset.sum_mul]
    rw [Finset.sum_comm]
    refine Finset.sum_congr rfl fun k _ => Finset.sum_congr rfl fun j _ => by ring
  rw [h1]
  unfold tangential dot
  simp only [mul_sub, Finset.sum_sub_distrib, mul_ite, mul_one, mul_zero, Finset.sum_ite_eq', Finset.mem_univ, if_true, Finset.sum_mul]
  congr 1
  exact Finset.sum_congr rfl fun k _ => by ring

/-- **C78**, recovered vectors on a flat face: the normals are exact; the surface gradients are those of the data of the face. -/
theorem C78_flat_face (hT : T.WF procs) (hd : Definite T)
    (hj : ∀ c < T.nCells, ∀ q < (T.cell c).nq, 0 < (T.cell c).jxw q) {kind : ℕ → Fin dim} (hk : Nodal T kind)
    {X : ℕ → Fin dim → ℝ} {P U : ℕ → Prop} {ν : Fin dim → ℝ} (hf : FlatFace T X P U ν) (a : Fin dim → ℝ) (b : ℝ) (d : ℕ → ℝ)
    (hdata : ∀ c < T.nCells, P c → ∀ i ∈ (T.cell c).sdofs, d i = b + dot a (X i))
    {dg dg' : Diag} {un us : ℕ → ℝ} (hn : Solves T cellNormal dg procs un) (hs : Solves T (surfGrad d) dg' procs us) :
    ∀ r < T.nDofs, U r → distribute T un r = ν (kind r) ∧ distribute T us r = tangential a ν (kind r) := by
  intro r hr hU
  constructor
  · exact part_reproduces hT hd hj hf.toPart hn (fun r => ν (kind r)) (const_conforming hk ν) (fun c hc hP q hq => by
      rw [const_field hk ν hc hq]; exact hf.normal c hc hP q hq) r hr hU
  · exact part_reproduces hT hd hj hf.toPart hs (fun r => tangential a ν (kind r)) (const_conforming hk _) (fun c hc hP q hq => by
      rw [const_field hk _ hc hq]; exact flat_surfGrad hf a b d hc hP hq (hdata c hc hP)) r hr hU

/-- **C78**. Polyhedral surfaces, potential `b + a ⬝ x` prescribed at the nodes of the Dirichlet faces, anything at the other nodes: at every
node where several Dirichlet faces with non-parallel normals meet, the value imposed on the normal derivative of each face is exactly `a ⬝ ν`
with the normal `ν` of that face. `node` gives the face of a node: cells, dofs and normal. Normals and surface gradients are those the program
computes (linear systems solved exactly) and reads through the renumbering. -/
theorem C78_edges (hT : T.WF procs) (hd : Definite T)
    (hj : ∀ c < T.nCells, ∀ q < (T.cell c).nq, 0 < (T.cell c).jxw q) {kind : ℕ → Fin dim} (hk : Nodal T kind)
    {n : ℕ} (nGrad : ℕ) (s2o vo2s : ℕ → ℕ) (dirichlet : Vec n) (hdir : ∀ i, dirichlet i = 0 ∨ dirichlet i = 1)
    (G : Fin n → Finset (Fin n)) (hrefl : ∀ i, i ∈ G i) (heq : ∀ i j, j ∈ G i → G j = G i)
    (X : ℕ → Fin dim → ℝ) (a : Fin dim → ℝ) (b : ℝ) (d : ℕ → ℝ) (P U : Fin n → ℕ → Prop) (ν : Fin n → Fin dim → ℝ)
    (hface : ∀ i, dirichlet i = 1 → FlatFace T X (P i) (U i) (ν i))
    (hdata : ∀ i, dirichlet i = 1 → ∀ c < T.nCells, P i c → ∀ j ∈ (T.cell c).sdofs, d j = b + dot a (X j))
    (hnode : ∀ i, dirichlet i = 1 → ∀ k : Fin dim, vecIndex nGrad dim s2o vo2s i k < T.nDofs ∧ U i (vecIndex nGrad dim s2o vo2s i k) ∧
      kind (vecIndex nGrad dim s2o vo2s i k) = k)
    {dg dg' : Diag} {un us : ℕ → ℝ} (hn : Solves T cellNormal dg procs un) (hs : Solves T (surfGrad d) dg' procs us)
    (i j : Fin n) (hi : dirichlet i = 1) (hij : j ∈ G i) (hne : j ≠ i) (hjd : dirichlet j = 1)
    (hsharp : ∀ k ∈ G i, dirichlet k = 1 → ∀ l ∈ G i, dirichlet l = 1 → l ≠ k → dot (ν k) (ν l) ^ 2 ≠ 1) :
    doubleNodeConstraints (nodeData dim nGrad s2o vo2s dirichlet d (distribute T un) (distribute T us) true) G i =
      some ([], some (dot a (ν i))) := by
  classical
  set D := nodeData dim nGrad s2o vo2s dirichlet d (distribute T un) (distribute T us) true with hD
  have hN : ∀ i, dirichlet i = 1 → D.normal i = ν i ∧ D.surfGrad i = tangential a (ν i) := by
    intro i hi
    constructor <;> funext k
    · obtain ⟨h1, h2, h3⟩ := hnode i hi k
      have := (C78_flat_face hT hd hj hk (hface i hi) a b d (hdata i hi) hn hs _ h1 h2).1
      rw [h3] at this
      exact this
    · obtain ⟨h1, h2, h3⟩ := hnode i hi k
      have := (C78_flat_face hT hd hj hk (hface i hi) a b d (hdata i hi) hn hs _ h1 h2).2
      rw [h3] at this
      exact this
  have hpair : ∀ k ∈ G i, dirichlet k = 1 → ∀ l ∈ G i, dirichlet l = 1 → l ≠ k →
      PiBem.Bem.thisNormalGradient D k l = some (dot a (ν k)) ∧ PiBem.Bem.otherNormalGradient D k l = some (dot a (ν l)) := by
    intro k hk hkd l hl hld hkl
    have := PiBem.Bem.C54_sharp_edge_exact D k l a (by
      rw [(hN k hkd).1, (hN l hld).1]; exact hsharp k hk hkd l hl hld hkl) (by rw [(hN k hkd).1, (hN k hkd).2])
      (by rw [(hN l hld).1, (hN l hld).2])
    rw [(hN k hkd).1, (hN l hld).1] at this
    exact this
  obtain ⟨_, _, _, c4, c5⟩ := PiBem.Bem.C31_double_node_constraints D G hrefl heq hdir i
  obtain ⟨l, hl⟩ := PiBem.Bem.exists_firstDirichlet D (G i) ⟨i, hrefl i, hi⟩
  by_cases hil : i = l
  · subst hil
    have hnem : ((G i).filter (fun j => dirichlet j = 1)).Nonempty := ⟨i, by simp [hrefl i, hi]⟩
    have hm := Finset.max'_mem _ hnem
    rw [Finset.mem_filter] at hm
    have hge : j ≤ ((G i).filter (fun j => dirichlet j = 1)).max' hnem := Finset.le_max' _ _ (by simp [hij, hjd])
    have hlast : PiBem.Bem.IsLastDirichlet D (G i) (((G i).filter (fun j => dirichlet j = 1)).max' hnem) :=
      ⟨hm.1, hm.2, fun k hk hkd => Finset.le_max' _ _ (Finset.mem_filter.2 ⟨hk, hkd⟩)⟩
    have him : ((G i).filter (fun j => dirichlet j = 1)).max' hnem ≠ i := by
      intro h
      rw [h] at hge
      exact hne (le_antisymm hge (hl.2.2 j hij hjd))
    rw [c5 rfl hl _ hlast, if_neg him, (hpair i (hrefl i) hi _ hm.1 hm.2 him).1]
  · rw [c4 hi rfl l hl hil, (hpair l hl.1 hl.2.1 i (hrefl i) hi hil).2]

/-- **C78**, Neumann faces. On a flat face with Neumann conditions the field written to the results as `phi_surf_gradient` is the surface
gradient of the prescribed normal derivative: zero for the data of every linear potential, whatever its gradient. -/
theorem C78_neumann_face (hT : T.WF procs) (hd : Definite T)
    (hj : ∀ c < T.nCells, ∀ q < (T.cell c).nq, 0 < (T.cell c).jxw q) {kind : ℕ → Fin dim} (hk : Nodal T kind)
    {X : ℕ → Fin dim → ℝ} {P U : ℕ → Prop} {ν : Fin dim → ℝ} (hf : FlatFace T X P U ν) (a : Fin dim → ℝ) (d : ℕ → ℝ)
    (hdata : ∀ c < T.nCells, P c → ∀ i ∈ (T.cell c).sdofs, d i = dot a ν)
    {dg : Diag} {us : ℕ → ℝ} (hs : Solves T (surfGrad d) dg procs us) :
    ∀ r < T.nDofs, U r → distribute T us r = 0 := by
  intro r hr hU
  have := part_reproduces hT hd hj hf.toPart hs (fun r => tangential (0 : Fin dim → ℝ) ν (kind r)) (const_conforming hk _) (fun c hc hP q hq => by
      rw [const_field hk _ hc hq]
      exact flat_surfGrad hf 0 (dot a ν) d hc hP hq (fun i hi => by rw [hdata c hc hP i hi]; simp [dot])) r hr hU
  rw [this]
  simp [tangential, dot]

/-! ## Example: three faces of a cube meeting at a corner -/

/-- Bilinear shape function `j` of the unit square at quadrature point `q`, a product rule with points `1/4`, `3/4`. -/
def bil (j q : ℕ) : ℝ := (if j % 2 = q % 2 then 3 / 4 else 1 / 4) * (if j / 2 = q / 2 then 3 / 4 else 1 / 4)

/-- A unit square with edges `t`, `s`, normal `n`, bilinear elements with nodes `4 b, ..., 4 b + 3`. -/
def quadCell (b : ℕ) (t s n : V3) : Cell 3 :=
  { subdomain := b % 2, dofs := (List.range 12).map (12 * b + ·), nq := 4, shape := fun i q => bil (i / 3) q, jxw := fun _ => 1 / 4
    normal := fun _ => n, sdofs := (List.range 4).map (4 * b + ·), sshape := bil
    sgrad := fun j q k => (if j % 2 = 1 then 1 else -1) * (if j / 2 = q / 2 then 3 / 4 else 1 / 4) * t k +
      (if j / 2 = 1 then 1 else -1) * (if j % 2 = q % 2 then 3 / 4 else 1 / 4) * s k }

def frameT (f : ℕ) : V3 := if f = 2 then ![0, 1, 0] else ![1, 0, 0]
def frameS (f : ℕ) : V3 := if f = 0 then ![0, 1, 0] else ![0, 0, 1]
def frameN (f : ℕ) : V3 := if f = 0 then ![0, 0, 1] else if f = 1 then ![0, 1, 0] else ![1, 0, 0]

/-- The faces in the planes `z = 0`, `y = 0`, `x = 0`, nodes doubled on the edges. -/
def cornerMesh : Mesh 3 :=
  { nCells := 3, nDofs := 36, cell := fun c => quadCell c (frameT c) (frameS c) (frameN c)
    comp := fun i => if i % 3 = 0 then 0 else if i % 3 = 1 then 1 else 2
    cs := fun _ => none }

/-- Positions of the nodes. -/
def cornerX (i : ℕ) : V3 := (if i % 4 % 2 = 1 then frameT (i / 4) else 0) + (if i % 4 / 2 = 1 then frameS (i / 4) else 0)

def cornerKind (r : ℕ) : Fin 3 := if r % 3 = 0 then 0 else if r % 3 = 1 then 1 else 2

theorem corner_wf : cornerMesh.WF 2 := by
  refine ⟨fun c hc g hg => ?_, fun r _ e he => by simp [cornerMesh] at he, fun c hc => ?_⟩
  · change c < 3 at hc
    change g < 36
    simp only [cornerMesh, quadCell, List.mem_map, List.mem_range] at hg
    obtain ⟨a, ha, rfl⟩ := hg
    omega
  · simp only [cornerMesh, quadCell]
    omega

theorem corner_dof (c i : ℕ) (hi : i < 12) : (cornerMesh.cell c).dofs.getD i 0 = 12 * c + i := by
  have : i < ((List.range 12).map (12 * c + ·)).length := by simpa using hi
  simp only [cornerMesh, quadCell]
  rw [List.getD_eq_getElem _ _ this]
  simp

theorem corner_sdof (c j : ℕ) (hj : j < 4) : (cornerMesh.cell c).sdofs.getD j 0 = 4 * c + j := by
  have : j < ((List.range 4).map (4 * c + ·)).length := by simpa using hj
  simp only [cornerMesh, quadCell]
  rw [List.getD_eq_getElem _ _ this]
  simp

theorem corner_field (c q : ℕ) (z : ℕ → ℝ) (k : Fin 3) : field cornerMesh.comp (cornerMesh.cell c) z q k =
    z (12 * c + k) * bil 0 q + z (12 * c + 3 + k) * bil 1 q + z (12 * c + 6 + k) * bil 2 q + z (12 * c + 9 + k) * bil 3 q := by
  unfold field
  have hl : (cornerMesh.cell c).dofs.length = 12 := by simp [cornerMesh, quadCell]
  rw [hl, Finset.sum_filter]
  have h : ∀ i ∈ Finset.range 12, (if cornerMesh.comp i = k then z ((cornerMesh.cell c).dofs.getD i 0) * (cornerMesh.cell c).shape i q else 0) =
      if cornerMesh.comp i = k then z (12 * c + i) * bil (i / 3) q else 0 := by
    intro i hi
    rw [corner_dof c i (Finset.mem_range.1 hi)]
    rfl
  rw [Finset.sum_congr rfl h]
  fin_cases k <;> simp [Finset.sum_range_succ, cornerMesh, add_assoc]

theorem corner_definite : Definite cornerMesh := by
  intro z _ h r hr
  change r < 36 at hr
  obtain ⟨c, j, k, hc, hj, rfl⟩ : ∃ c j, ∃ k : Fin 3, c < 3 ∧ j < 4 ∧ r = 12 * c + 3 * j + k := by
    refine ⟨r / 12, r % 12 / 3, ⟨r % 3, by omega⟩, by omega, by omega, ?_⟩
    simp only
    omega
  have hq : ∀ q, q < 4 → field cornerMesh.comp (cornerMesh.cell c) z q k = 0 := fun q hq => congrFun (h c hc q hq) k
  have h0 := hq 0 (by norm_num)
  have h1 := hq 1 (by norm_num)
  have h2 := hq 2 (by norm_num)
  have h3 := hq 3 (by norm_num)
  rw [corner_field] at h0 h1 h2 h3
  norm_num [bil] at h0 h1 h2 h3
  interval_cases j
  · have : z (12 * c + k) = 0 := by linarith
    simpa using this
  · have : z (12 * c + 3 + k) = 0 := by linarith
    simpa using this
  · have : z (12 * c + 6 + k) = 0 := by linarith
    simpa using this
  · have : z (12 * c + 9 + k) = 0 := by linarith
    simpa using this

theorem corner_nodal : Nodal cornerMesh cornerKind := by
  refine ⟨fun c hc i hi => ?_, fun c hc q hq k => ?_, fun r _ e he => by simp [cornerMesh] at he⟩
  · have hi : i < 12 := by simpa [cornerMesh, quadCell] using hi
    rw [corner_dof c i hi]
    simp only [cornerKind, cornerMesh]
    have : (12 * c + i) % 3 = i % 3 := by omega
    rw [this]
  · have hq : q < 4 := hq
    have := corner_field c q (fun _ => 1) k
    simp only [field, one_mul] at this
    rw [this]
    interval_cases q <;> norm_num [bil]

theorem corner_face (f : ℕ) (hf : f < 3) : FlatFace cornerMesh cornerX (fun c => c = f) (fun r => r / 12 = f) (frameN f) := by
  have hl : ∀ c, (cornerMesh.cell c).sdofs.length = 4 := fun c => by simp [cornerMesh, quadCell]
  refine ⟨⟨?_, ?_, fun r _ e he => by simp [cornerMesh] at he⟩, ?_, ?_, ?_⟩
  · rintro c hc rfl r hr
    simp only [cornerMesh, quadCell, List.mem_map, List.mem_range] at hr
    obtain ⟨a, ha, rfl⟩ := hr
    omega
  · intro c hc hcf r hr
    simp only [cornerMesh, quadCell, List.mem_map, List.mem_range] at hr
    obtain ⟨a, ha, rfl⟩ := hr
    omega
  · rintro c hc rfl q hq
    rfl
  · rintro c hc rfl q hq l
    have hq : q < 4 := hq
    rw [hl]
    simp only [Finset.sum_range_succ, Finset.sum_range_zero, cornerMesh, quadCell]
    interval_cases q <;> norm_num <;> ring
  · rintro c hc rfl q hq k l
    have hq : q < 4 := hq
    rw [hl]
    have hX : ∀ j < 4, cornerX ((cornerMesh.cell c).sdofs.getD j 0) =
        (if j % 2 = 1 then frameT c else 0) + (if j / 2 = 1 then frameS c else 0) := by
      intro j hj
      rw [corner_sdof c j hj]
      unfold cornerX
      have h1 : (4 * c + j) % 4 = j := by omega
      have h2 : (4 * c + j) / 4 = c := by omega
      rw [h1, h2]
    simp only [Finset.sum_range_succ, Finset.sum_range_zero]
    rw [hX 0 (by norm_num), hX 1 (by norm_num), hX 2 (by norm_num), hX 3 (by norm_num)]
    have hgoal : frameT c k * frameT c l + frameS c k * frameS c l = (if k = l then 1 else 0) - frameN c k * frameN c l := by
      change c < 3 at hc
      interval_cases c <;> fin_cases k <;> fin_cases l <;> simp [frameT, frameS, frameN]
    rw [← hgoal]
    simp only [cornerMesh, quadCell]
    interval_cases q <;> norm_num <;> ring

/-- Dofs numbered by components, as `compute_reordering_vectors` reads them. -/
def cornerVo2s (m : ℕ) : ℕ := 3 * (m % 12) + m / 12

/-- Faces `z = 0` and `y = 0` Dirichlet with the potential `1 + 2 x - y + 3 z`, face `x = 0` Neumann with any data: at the corner (nodes 0, 4, 8)
the values imposed are those of the potential at nodes 0 and 4. -/
example (junk : ℕ → ℝ) (dg : Diag) (un us : ℕ → ℝ) (hn : Solves cornerMesh cellNormal dg 2 un)
    (hs : Solves cornerMesh (surfGrad fun i => if i < 8 then 1 + dot ![2, -1, 3] (cornerX i) else junk i) dg 2 us) :
    let D := nodeData (n := 12) 3 36 id cornerVo2s (fun i => if i.val < 8 then 1 else 0)
      (fun i => if i < 8 then 1 + dot ![2, -1, 3] (cornerX i) else junk i) (distribute cornerMesh un) (distribute cornerMesh us) true
    let G : Fin 12 → Finset (Fin 12) := fun i => if i.val % 4 = 0 then {0, 4, 8} else {i}
    doubleNodeConstraints D G 0 = some ([], some 3) ∧ doubleNodeConstraints D G 4 = some ([], some (-1)) := by
  intro D G
  have hG : ∀ i j : Fin 12, j ∈ G i → G j = G i := by decide
  have key : ∀ i j : Fin 12, i.val < 8 → j ∈ G i → j ≠ i → j.val < 8 →
      doubleNodeConstraints D G i = some ([], some (dot ![2, -1, 3] (frameN (i.val / 4)))) := by
    intro i j hi hij hne hj
    refine C78_edges corner_wf corner_definite (fun c _ q _ => by norm_num [cornerMesh, quadCell]) corner_nodal 36 id cornerVo2s
      (fun i => if i.val < 8 then 1 else 0) (fun i => by by_cases h : i.val < 8 <;> simp [h]) G (by decide) hG cornerX ![2, -1, 3] 1 _
      (fun i c => c = i.val / 4) (fun i r => r / 12 = i.val / 4) (fun i => frameN (i.val / 4))
      (fun i _ => corner_face _ (by omega)) ?_ ?_ hn hs i j (if_pos hi) hij hne (if_pos hj) ?_
    · rintro i hi c hc rfl j hj
      have hi : i.val < 8 := by by_contra h; simp [h] at hi
      simp only [cornerMesh, quadCell, List.mem_map, List.mem_range] at hj
      obtain ⟨a, ha, rfl⟩ := hj
      rw [if_pos (by omega)]
    · intro i hi k
      have hv : vecIndex 36 3 id cornerVo2s i k = 3 * i.val + k.val := by
        simp only [vecIndex, cornerVo2s, id]
        omega
      rw [hv]
      refine ⟨?_, ?_, ?_⟩
      · change _ < 36
        omega
      · omega
      · unfold cornerKind
        have : (3 * i.val + k.val) % 3 = k.val := by omega
        rw [this]
        fin_cases k <;> rfl
    · intro k hk hkd l hl hld hlk
      have hk8 : k.val < 8 := by by_contra h; simp [h] at hkd
      have hl8 : l.val < 8 := by by_contra h; simp [h] at hld
      have hcases : ∀ i k l : Fin 12, k ∈ G i → l ∈ G i → k.val < 8 → l.val < 8 → l ≠ k →
          (k.val / 4 = 0 ∧ l.val / 4 = 1) ∨ (k.val / 4 = 1 ∧ l.val / 4 = 0) := by decide
      rcases hcases i k l hk hl hk8 hl8 hlk with ⟨h1, h2⟩ | ⟨h1, h2⟩ <;> rw [h1, h2] <;>
        simp [frameN, dot, Fin.sum_univ_three]
  constructor
  · rw [key 0 4 (by decide) (by decide) (by decide) (by decide)]
    simp [frameN, dot, Fin.sum_univ_three]
  · rw [key 4 0 (by decide) (by decide) (by decide) (by decide)]
    simp [frameN, dot, Fin.sum_univ_three]

/-- the systems of the example have solutions -/
theorem corner_regular (g : Cell 3 → ℕ → V3) : ∃ u, Solves cornerMesh g (fun _ _ => 1) 2 u := by
  obtain ⟨u, hu, _⟩ := C67_regular corner_wf corner_definite (fun c _ q _ => by norm_num [cornerMesh, quadCell]) (fun _ _ => 1)
    (fun _ _ _ _ => one_pos) (fun r _ h => by simp [cornerMesh] at h) g
  exact ⟨u, hu⟩

/-- Hypotheses of `C78_neumann_face`: face `x = 0` with the normal derivative of `1 + 2 x - y + 3 z`. -/
example (us : ℕ → ℝ) (hs : Solves cornerMesh (surfGrad fun i => if i < 8 then 1 + dot ![2, -1, 3] (cornerX i) else 2) (fun _ _ => 1) 2 us) :
    distribute cornerMesh us 25 = 0 :=
  C78_neumann_face corner_wf corner_definite (fun c _ q _ => by norm_num [cornerMesh, quadCell]) corner_nodal
    (corner_face 2 (by norm_num)) ![2, -1, 3] _ (by
      rintro c _ rfl i hi
      simp only [cornerMesh, quadCell, List.mem_map, List.mem_range] at hi
      obtain ⟨a, ha, rfl⟩ := hi
      rw [if_neg (by omega)]
      simp [frameN, dot, Fin.sum_univ_three]) hs 25 (by decide) (by norm_num)

/-- **C78**, Dirichlet and Neumann nodes in one cell. If an edge between a Dirichlet and a Neumann face is not doubled, the Neumann face has cells
with nodes of both kinds, and `tmp_rhs` mixes potentials and normal derivatives there: the surface gradient recovered for a constant
potential is then not zero, also at Dirichlet nodes. Here the nodes 2 and 3 of the face `z = 0` are Neumann nodes, all others Dirichlet nodes, the
potential is 1 everywhere. -/
theorem C78_mixed_refuted : ∃ (T : Mesh 3) (procs : ℕ) (dirichlet : ℕ → Prop) (d phi dphi : ℕ → ℝ), T.WF procs ∧ Definite T ∧
    (∀ c < T.nCells, ∀ q < (T.cell c).nq, 0 < (T.cell c).jxw q) ∧
    (∀ i, phi i = 1) ∧ (∀ i, dphi i = 0) ∧ (∀ i, dirichlet i → d i = phi i) ∧ (∀ i, ¬ dirichlet i → d i = dphi i) ∧
    (∃ u, Solves T (surfGrad d) (fun _ _ => 1) procs u) ∧ (∀ c < T.nCells, ∀ q < (T.cell c).nq, surfGrad phi (T.cell c) q = 0) ∧
    ∀ dg u, Solves T (surfGrad d) dg procs u → dirichlet 0 ∧ 0 ∈ (T.cell 0).sdofs ∧ 1 ∈ (T.cell 0).dofs ∧ distribute T u 1 = -1 := by
  refine ⟨cornerMesh, 2, fun i => i ≠ 2 ∧ i ≠ 3, fun i => if i = 2 ∨ i = 3 then 0 else 1, fun _ => 1, fun _ => 0, corner_wf, corner_definite,
    fun c _ q _ => by norm_num [cornerMesh, quadCell], fun _ => rfl, fun _ => rfl, ?_, ?_, corner_regular _, ?_, ?_⟩
  · rintro i ⟨h1, h2⟩; simp [h1, h2]
  · intro i h
    refine if_pos ?_
    by_contra h'
    exact h ⟨fun h2 => h' (Or.inl h2), fun h3 => h' (Or.inr h3)⟩
  · intro c hc q hq
    funext l
    have := (corner_face c hc).grad0 c hc rfl q hq l
    unfold surfGrad scalarGrad
    simpa using this
  · intro dg u hu
    obtain ⟨un, hn⟩ := corner_regular cellNormal
    have h := (C78_flat_face corner_wf corner_definite (fun c _ q _ => by norm_num [cornerMesh, quadCell]) corner_nodal
      (corner_face 0 (by norm_num)) ![0, -1, 0] 1 _ (by
        rintro c _ rfl i hi
        simp only [cornerMesh, quadCell, List.mem_map, List.mem_range] at hi
        obtain ⟨a, ha, rfl⟩ := hi
        interval_cases a <;> simp [cornerX, frameT, frameS, dot, Fin.sum_univ_three]) hn hu 1 (by decide) (by norm_num)).2
    refine ⟨by decide, by decide, by decide, ?_⟩
    rw [h]
    simp [tangential, frameN, dot, Fin.sum_univ_three, cornerKind]

/-! ## Example in dimension 2: two sides of a square meeting at a corner -/

/-- Linear shape function `j` of the unit segment at quadrature point `q`. -/
def lin (j q : ℕ) : ℝ := if j = q then 3 / 4 else 1 / 4

def sideT (f : ℕ) : Fin 2 → ℝ := if f = 0 then ![1, 0] else ![0, 1]
def sideN (f : ℕ) : Fin 2 → ℝ := if f = 0 then ![0, -1] else ![-1, 0]

/-- Unit segments from the origin along the axes; the corner is doubled. -/
def sidesMesh : Mesh 2 :=
  { nCells := 2, nDofs := 8
    cell := fun c =>
      { subdomain := c % 2, dofs := (List.range 4).map (4 * c + ·), nq := 2, shape := fun i q => lin (i / 2) q, jxw := fun _ => 1 / 2
        normal := fun _ => sideN c, sdofs := (List.range 2).map (2 * c + ·), sshape := lin
        sgrad := fun j _ k => (if j = 1 then 1 else -1) * sideT c k }
    comp := fun i => if i % 2 = 0 then 0 else 1
    cs := fun _ => none }

def sidesX (i : ℕ) : Fin 2 → ℝ := if i % 2 = 1 then sideT (i / 2) else 0

def sidesKind (r : ℕ) : Fin 2 := if r % 2 = 0 then 0 else 1

theorem sides_wf : sidesMesh.WF 2 := by
  refine ⟨fun c hc g hg => ?_, fun r _ e he => by simp [sidesMesh] at he, fun c hc => ?_⟩
  · change c < 2 at hc
    change g < 8
    simp only [sidesMesh, List.mem_map, List.mem_range] at hg
    obtain ⟨a, ha, rfl⟩ := hg
    omega
  · simp only [sidesMesh]
    omega

theorem sides_field (c q : ℕ) (z : ℕ → ℝ) (k : Fin 2) : field sidesMesh.comp (sidesMesh.cell c) z q k =
    z (4 * c + k) * lin 0 q + z (4 * c + 2 + k) * lin 1 q := by
  unfold field
  have hl : (sidesMesh.cell c).dofs.length = 4 := by simp [sidesMesh]
  have hd : (sidesMesh.cell c).dofs = [4 * c + 0, 4 * c + 1, 4 * c + 2, 4 * c + 3] := rfl
  rw [hl, Finset.sum_filter, hd]
  fin_cases k <;> simp [Finset.sum_range_succ, sidesMesh]

theorem sides_definite : Definite sidesMesh := by
  intro z _ h r hr
  change r < 8 at hr
  obtain ⟨c, j, k, hc, hj, rfl⟩ : ∃ c j, ∃ k : Fin 2, c < 2 ∧ j < 2 ∧ r = 4 * c + 2 * j + k := by
    refine ⟨r / 4, r % 4 / 2, ⟨r % 2, by omega⟩, by omega, by omega, ?_⟩
    simp only
    omega
  have h0 := congrFun (h c hc 0 (by norm_num [sidesMesh])) k
  have h1 := congrFun (h c hc 1 (by norm_num [sidesMesh])) k
  rw [sides_field] at h0 h1
  norm_num [lin] at h0 h1
  interval_cases j
  · have : z (4 * c + k) = 0 := by linarith
    simpa using this
  · have : z (4 * c + 2 + k) = 0 := by linarith
    simpa using this

theorem sides_nodal : Nodal sidesMesh sidesKind := by
  refine ⟨fun c hc i hi => ?_, fun c hc q hq k => ?_, fun r _ e he => by simp [sidesMesh] at he⟩
  · have hi : i < 4 := by simpa [sidesMesh] using hi
    have hd : (sidesMesh.cell c).dofs.getD i 0 = 4 * c + i := by
      have : (sidesMesh.cell c).dofs = [4 * c + 0, 4 * c + 1, 4 * c + 2, 4 * c + 3] := rfl
      rw [this]
      interval_cases i <;> rfl
    rw [hd]
    simp only [sidesKind, sidesMesh]
    have : (4 * c + i) % 2 = i % 2 := by omega
    rw [this]
  · have hq : q < 2 := hq
    have := sides_field c q (fun _ => 1) k
    simp only [field, one_mul] at this
    rw [this]
    interval_cases q <;> norm_num [lin]

theorem sides_face (f : ℕ) (_hf : f < 2) : FlatFace sidesMesh sidesX (fun c => c = f) (fun r => r / 4 = f) (sideN f) := by
  have hs : ∀ c, (sidesMesh.cell c).sdofs = [2 * c + 0, 2 * c + 1] := fun c => rfl
  refine ⟨⟨?_, ?_, fun r _ e he => by simp [sidesMesh] at he⟩, ?_, ?_, ?_⟩
  · rintro c hc rfl r hr
    simp only [sidesMesh, List.mem_map, List.mem_range] at hr
    obtain ⟨a, ha, rfl⟩ := hr
    omega
  · intro c hc hcf r hr
    simp only [sidesMesh, List.mem_map, List.mem_range] at hr
    obtain ⟨a, ha, rfl⟩ := hr
    omega
  · rintro c hc rfl q hq
    rfl
  · rintro c hc rfl q hq l
    rw [hs]
    simp [Finset.sum_range_succ, sidesMesh]
  · rintro c hc rfl q hq k l
    rw [hs]
    have hc : c < 2 := hc
    interval_cases c <;> fin_cases k <;> fin_cases l <;>
      simp [Finset.sum_range_succ, sidesMesh, sidesX, sideT, sideN]

/-- Dofs numbered by components. -/
def sidesVo2s (m : ℕ) : ℕ := 2 * (m % 4) + m / 4

/-- Potential `1 + 2 x - 5 y` on both sides: the values imposed at the corner (nodes 0 and 2) are the normal derivatives, 5 and -2. -/
example (dg : Diag) (un us : ℕ → ℝ) (hn : Solves sidesMesh cellNormal dg 2 un)
    (hs : Solves sidesMesh (surfGrad fun i => 1 + dot ![2, -5] (sidesX i)) dg 2 us) :
    let D := nodeData (n := 4) 2 8 id sidesVo2s (fun _ => 1)
      (fun i => 1 + dot ![2, -5] (sidesX i)) (distribute sidesMesh un) (distribute sidesMesh us) true
    let G : Fin 4 → Finset (Fin 4) := fun i => if i.val % 2 = 0 then {0, 2} else {i}
    doubleNodeConstraints D G 0 = some ([], some 5) ∧ doubleNodeConstraints D G 2 = some ([], some (-2)) := by
  intro D G
  have hG : ∀ i j : Fin 4, j ∈ G i → G j = G i := by decide
  have key : ∀ i j : Fin 4, j ∈ G i → j ≠ i →
      doubleNodeConstraints D G i = some ([], some (dot ![2, -5] (sideN (i.val / 2)))) := by
    intro i j hij hne
    refine C78_edges sides_wf sides_definite (fun c _ q _ => by norm_num [sidesMesh]) sides_nodal 8 id sidesVo2s
      (fun i => 1) (fun i => Or.inr rfl) G (by decide) hG sidesX ![2, -5] 1 _
      (fun i c => c = i.val / 2) (fun i r => r / 4 = i.val / 2) (fun i => sideN (i.val / 2))
      (fun i _ => sides_face _ (by omega)) ?_ ?_ hn hs i j rfl hij hne rfl ?_
    · rintro i hi c hc rfl j hj
      rfl
    · intro i hi k
      have hv : vecIndex 8 2 id sidesVo2s i k = 2 * i.val + k.val := by
        simp only [vecIndex, sidesVo2s, id]
        omega
      rw [hv]
      refine ⟨?_, ?_, ?_⟩
      · change _ < 8
        omega
      · omega
      · unfold sidesKind
        have : (2 * i.val + k.val) % 2 = k.val := by omega
        rw [this]
        fin_cases k <;> rfl
    · intro k hk hkd l hl hld hlk
      have hcases : ∀ i k l : Fin 4, k ∈ G i → l ∈ G i → l ≠ k →
          (k.val / 2 = 0 ∧ l.val / 2 = 1) ∨ (k.val / 2 = 1 ∧ l.val / 2 = 0) := by decide
      rcases hcases i k l hk hl hlk with ⟨h1, h2⟩ | ⟨h1, h2⟩ <;> rw [h1, h2] <;>
        simp [sideN, dot]
  constructor
  · rw [key 0 2 (by decide) (by decide)]
    simp [sideN, dot]
  · rw [key 2 0 (by decide) (by decide)]
    simp [sideN, dot]

/-- the systems of the example have solutions -/
theorem sides_regular (g : Cell 2 → ℕ → Fin 2 → ℝ) : ∃ u, Solves sidesMesh g (fun _ _ => 1) 2 u := by
  obtain ⟨u, hu, _⟩ := C67_regular sides_wf sides_definite (fun c _ q _ => by norm_num [sidesMesh]) (fun _ _ => 1)
    (fun _ _ _ _ => one_pos) (fun r _ h => by simp [sidesMesh] at h) g
  exact ⟨u, hu⟩

end PiBem.Grad
