import Verif.Props.Solvable

/-!
C112, C114: convex surfaces with hanging nodes.
-/

namespace PiBem.Bem

open PiBem.Octree PiBem.Expansion PiBem.Fmm

variable {n d : ℕ}

/-- From node `i` the value of the potential passes on to node `k`: `i` is not hanging and the double layer of the shape function of `k` at `i` is negative, or `k` is one of the
nodes between which the hanging node `i` lies. -/
def Passes (N : Mat n) (C : Setup n d) (i k : Fin n) : Prop :=
  match C.hanging i with
  | none => N i k < 0
  | some es => k ∈ es.map Prod.fst

/-- Hanging nodes are mean values, with positive weights, of nodes that are not Dirichlet nodes. -/
structure MeanValues (C : Setup n d) (B : Finset (Fin n)) : Prop where
  weights : ∀ i es, C.hanging i = some es → ∀ e ∈ es, 0 < e.2
  total : ∀ i es, C.hanging i = some es → (es.map Prod.snd).sum = 1
  same : ∀ i es, C.hanging i = some es → i ∉ B ∧ ∀ e ∈ es, e.1 ∉ B

/-- a mean value equal to the smallest value -/
theorem mean_min (es : List (Fin n × ℝ)) (w : Vec n) (m : ℝ) (hw : ∀ e ∈ es, 0 < e.2) (h1 : (es.map Prod.snd).sum = 1) (hm : ∀ k, m ≤ w k)
    (h : (es.map fun e => e.2 * w e.1).sum = m) : ∀ e ∈ es, w e.1 = m := by
  have key : (es.map fun e => -(e.2 * (w e.1 - m))).sum = 0 := by
    have : (es.map fun e => -(e.2 * (w e.1 - m))).sum = -((es.map fun e => e.2 * w e.1).sum - (es.map Prod.snd).sum * m) := by
      clear h h1 hw
      induction es with
      | nil => simp
      | cons a l ih => simp only [List.map_cons, List.sum_cons, ih]; ring
    rw [this, h, h1]; ring
  have hs := list_sum_sign es (fun e => -(e.2 * (w e.1 - m))) fun e he => by
    have := mul_nonneg (hw e he).le (sub_nonneg.2 (hm e.1)); linarith
  intro e he
  by_contra hne
  have hlt : -(e.2 * (w e.1 - m)) < 0 := by
    have := mul_pos (hw e he) (sub_pos.2 (lt_of_le_of_ne (hm e.1) (Ne.symm hne))); linarith
  have := hs.2.2 ⟨e, he, hlt⟩
  linarith

/-- **C112** (hanging nodes, one Dirichlet node). If the double layer entries are not positive and the single layer entries positive (as on convex surfaces, `C112_signs`), hanging nodes are mean values, and from every node
the value of the potential passes on to every other one, the linear system of a problem with exactly one Dirichlet node, with hanging nodes, is regular. -/
theorem C112_hanging {N M : Mat n} {C : Setup n d} (hN : ∀ i k, N i k ≤ 0) (hM : ∀ i k, 0 < M i k)
    (hcon : ∀ i k, Relation.ReflTransGen (Passes N C) i k) (l : List (ℕ × ℕ)) (phi0 dphi0 : Vec n) (b : Fin n)
    (hP : PosedH N M C {b} phi0 dphi0) (hH : MeanValues C {b}) : DeterminedH N M C (alphaHistory l) phi0 dphi0 := by
  intro g₁ g₂ st₁ st₂ X₁ X₂ h₁ h₂ r₁ r₂
  have hc : Consistent C {b} := by
    refine ⟨fun i hi j _ hj => by rw [Finset.mem_singleton.1 hi, Finset.mem_singleton.1 hj], fun _ i hi j _ hj hne => ?_⟩
    exact absurd ((Finset.mem_singleton.1 hj).trans (Finset.mem_singleton.1 hi).symm) hne
  have hg : ∀ i, ¬ GradientNode C {b} i := by
    rintro i ⟨-, j, -, k, -, hj, hk, hne⟩
    exact hne ((Finset.mem_singleton.1 hj).trans (Finset.mem_singleton.1 hk).symm)
  obtain ⟨-, -, p₁, q₁, -⟩ := solveWith_rows h₁ {b} hP.dirichlet hP.neumann hP.bc hP.phi hP.dphi
  obtain ⟨-, -, p₂, q₂, -⟩ := solveWith_rows h₂ {b} hP.dirichlet hP.neumann hP.bc hP.phi hP.dphi
  obtain ⟨a₁, -, -, c₁⟩ := (C91_exact_solutions N M C g₁ l st₁ phi0 dphi0 X₁ h₁ {b} hP hc).1 r₁
  obtain ⟨a₂, -, -, c₂⟩ := (C91_exact_solutions N M C g₂ l st₂ phi0 dphi0 X₂ h₂ {b} hP hc).1 r₂
  have hoff : ∀ i, i ≠ b → X₁.dphi i = X₂.dphi i := by
    intro i hi
    rw [q₁, q₂]
    simp [merge, hi]
  have hb : X₁.phi b = X₂.phi b := by
    rw [p₁, p₂]
    simp [merge]
  have hbn : C.hanging b = none := by
    by_contra hne
    obtain ⟨es, hes⟩ := Option.ne_none_iff_exists'.1 hne
    exact (hH.same b es hes).1 (Finset.mem_singleton_self b)
  -- differences of two solutions, with the sign of the difference of the normal derivatives at `b`
  have core : ∀ w : Vec n, ∀ v : ℝ, 0 ≤ v → w b = 0 → (∀ i, C.hanging i = none → ∑ k, N i k * (w k - w i) = M i b * v) →
      (∀ i es, C.hanging i = some es → w i = (es.map fun e => e.2 * w e.1).sum) → v = 0 ∧ w = 0 := by
    intro w v hv hwb heq hint
    obtain ⟨m, -, hm⟩ := Finset.exists_min_image Finset.univ w ⟨b, Finset.mem_univ b⟩
    have hmin : ∀ k, w m ≤ w k := fun k => hm k (Finset.mem_univ k)
    have free : ∀ i, C.hanging i = none → w i = w m → v = 0 ∧ ∀ k, N i k < 0 → w k = w m := by
      intro i hi hwi
      have hterm : ∀ k ∈ Finset.univ, N i k * (w k - w i) ≤ 0 := fun k _ =>
        mul_nonpos_of_nonpos_of_nonneg (hN i k) (by rw [hwi]; linarith [hmin k])
      have hs := Finset.sum_nonpos hterm
      rw [heq i hi] at hs
      have hv0 : v = 0 := by
        by_contra hne
        have := mul_pos (hM i b) (lt_of_le_of_ne hv (Ne.symm hne))
        linarith
      refine ⟨hv0, fun k hk => ?_⟩
      have hz := (Finset.sum_eq_zero_iff_of_nonpos hterm).1 (by rw [heq i hi, hv0, mul_zero]) k (Finset.mem_univ k)
      have := (mul_eq_zero.1 hz).resolve_left hk.ne
      rw [← hwi]; linarith
    have step : ∀ i k, w i = w m → Passes N C i k → w k = w m := by
      intro i k hwi hp
      unfold Passes at hp
      cases hi : C.hanging i with
      | none => rw [hi] at hp; exact (free i hi hwi).2 k hp
      | some es =>
        rw [hi] at hp
        obtain ⟨e, he, rfl⟩ := List.mem_map.1 hp
        exact mean_min es w (w m) (hH.weights i es hi) (hH.total i es hi) hmin ((hint i es hi).symm.trans hwi) e he
    have hall : ∀ k, w k = w m := by
      intro k
      induction hcon m k with
      | refl => rfl
      | tail _ hs ih => exact step _ _ ih hs
    refine ⟨(free b hbn (hall b)).1, funext fun k => ?_⟩
    show w k = 0
    rw [hall k, ← hall b, hwb]
  have eqs : ∀ i, C.hanging i = none → ∑ k, N i k * ((X₁.phi k - X₂.phi k) - (X₁.phi i - X₂.phi i)) = M i b * (X₁.dphi b - X₂.dphi b) := by
    intro i hi
    have e1 := a₁ i hi (hg i)
    have e2 := a₂ i hi (hg i)
    unfold eqResidual at e1 e2
    have s1 : ∑ k, N i k * ((X₁.phi k - X₂.phi k) - (X₁.phi i - X₂.phi i)) =
        (∑ k, N i k * (X₁.phi k - X₁.phi i)) - ∑ k, N i k * (X₂.phi k - X₂.phi i) := by
      rw [← Finset.sum_sub_distrib]; exact Finset.sum_congr rfl fun k _ => by ring
    have s2 : (∑ k, M i k * X₁.dphi k) - ∑ k, M i k * X₂.dphi k = M i b * (X₁.dphi b - X₂.dphi b) := by
      rw [← Finset.sum_sub_distrib, Finset.sum_eq_single b]
      · ring
      · intro k _ hk; rw [hoff k hk]; ring
      · intro h; exact absurd (Finset.mem_univ b) h
    rw [s1, ← s2]; linarith
  have ints : ∀ i es, C.hanging i = some es → X₁.phi i - X₂.phi i = (es.map fun e => e.2 * (X₁.phi e.1 - X₂.phi e.1)).sum := by
    intro i es hi
    obtain ⟨hiB, heB⟩ := hH.same i es hi
    have f1 := c₁ i es hi
    have f2 := c₂ i es hi
    have un : ∀ (phi dphi : Vec n) (k : Fin n), k ∉ ({b} : Finset (Fin n)) → unknown {b} phi dphi k = phi k := by
      intro phi dphi k hk
      unfold unknown merge
      rw [if_neg hk]
    rw [un _ _ i hiB] at f1 f2
    have m1 : ∀ phi dphi : Vec n, (es.map fun e => e.2 * unknown {b} phi dphi e.1) = es.map fun e => e.2 * phi e.1 := fun phi dphi =>
      List.map_congr_left fun e he => by rw [un _ _ _ (heB e he)]
    rw [m1] at f1 f2
    have : (es.map fun e => e.2 * (X₁.phi e.1 - X₂.phi e.1)).sum = (es.map fun e => e.2 * X₁.phi e.1).sum - (es.map fun e => e.2 * X₂.phi e.1).sum := by
      clear f1 f2 m1 heB hi
      induction es with
      | nil => simp
      | cons a l ih => simp only [List.map_cons, List.sum_cons, ih]; ring
    rw [this, ← f1, ← f2]
  have key : X₁.dphi b - X₂.dphi b = 0 ∧ (fun k => X₁.phi k - X₂.phi k) = 0 := by
    rcases le_total (X₂.dphi b) (X₁.dphi b) with hle | hle
    · exact core (fun k => X₁.phi k - X₂.phi k) _ (by linarith) (by simp [hb]) eqs ints
    · obtain ⟨k1, k2⟩ := core (fun k => X₂.phi k - X₁.phi k) (X₂.dphi b - X₁.dphi b) (by linarith) (by simp [hb])
        (fun i hi => by
          have := eqs i hi
          have e : ∑ k, N i k * ((X₂.phi k - X₁.phi k) - (X₂.phi i - X₁.phi i)) = -∑ k, N i k * ((X₁.phi k - X₂.phi k) - (X₁.phi i - X₂.phi i)) := by
            rw [← Finset.sum_neg_distrib]; exact Finset.sum_congr rfl fun k _ => by ring
          rw [e, this]; ring)
        (fun i es hi => by
          have := ints i es hi
          have e : (es.map fun e => e.2 * (X₂.phi e.1 - X₁.phi e.1)).sum = -(es.map fun e => e.2 * (X₁.phi e.1 - X₂.phi e.1)).sum := by
            clear this hi
            induction es with
            | nil => simp
            | cons a l ih => simp only [List.map_cons, List.sum_cons, ih]; ring
          rw [e, ← this]; ring)
      refine ⟨by linarith, funext fun k => ?_⟩
      have := congrFun k2 k
      simp only [Pi.zero_apply] at this ⊢
      linarith
  constructor
  · funext k
    have := congrFun key.2 k
    simp only [Pi.zero_apply] at this
    linarith
  · funext k
    by_cases hk : k = b
    · rw [hk]; linarith [key.1]
    · exact hoff k hk

/-- **C114** (convex surfaces, hanging nodes). Under the hypotheses of `C112_hanging` the problem with exactly one Dirichlet node has, for every datum, an exact solution. -/
theorem C114_hanging {N M : Mat n} {C : Setup n d} (hN : ∀ i k, N i k ≤ 0) (hM : ∀ i k, 0 < M i k)
    (hcon : ∀ i k, Relation.ReflTransGen (Passes N C) i k) (l : List (ℕ × ℕ)) (phi0 dphi0 : Vec n) (b : Fin n)
    (hP : PosedH N M C {b} phi0 dphi0) (hH : MeanValues C {b}) (hr : Runs N M C (alphaHistory l) phi0 dphi0) :
    Solvable N M C (alphaHistory l) phi0 dphi0 := by
  have hD : DataOf C {b} phi0 dphi0 := ⟨hP.dirichlet, hP.neumann, hP.bc, hP.phi, hP.dphi, fun _ i hi j _ hj hne =>
    absurd ((Finset.mem_singleton.1 hj).trans (Finset.mem_singleton.1 hi).symm) hne⟩
  have hz : PosedH N M (zeroData C) {b} 0 0 :=
    ⟨hP.dirichlet, hP.neumann, hP.bc, fun _ _ => rfl, fun _ _ => rfl, hP.refl, hP.eq, hP.rows, hP.alone, hP.order⟩
  have hdet := C112_hanging (C := zeroData C) hN hM hcon l 0 0 b hz ⟨hH.weights, hH.total, hH.same⟩
  obtain ⟨g0, s0, X0, h0, r0, p0, q0⟩ := (C114_one_datum hD l hr).2
  refine (C114_every_data hD hD (OnlyData.rfl C) l l hr hr ?_).1
  intro g st X h r
  obtain ⟨e1, e2⟩ := hdet g g0 st s0 X X0 h h0 r r0
  exact ⟨e1.trans p0, e2.trans q0⟩

/-- From node `i` of a convex surface the value of the potential passes on to node `k`: `i` is not hanging and one sees `k` from `i`, or `k` is one of the nodes between which the hanging node `i` lies. -/
def PassesTo (inp : Input 3) (D : Data) (S' : SingRule) (C : Setup inp.nDofs d) (i k : Fin inp.nDofs) : Prop :=
  match C.hanging i with
  | none => Sees inp D S' i k
  | some es => k ∈ es.map Prod.fst

/-- **C112**, **C114** (convex surfaces with hanging nodes). Dense method, dimension 3: on a convex surface with hanging nodes a problem with exactly one Dirichlet node has, for every datum, an exact solution, and only one. -/
theorem C114_convex_hanging {inp : Input 3} {D : Data} {S S' : SingRule} (hK : ConvexSurface inp D S') (hap : ∀ i k : Fin inp.nDofs, Separate inp D S' i k)
    (C : Setup inp.nDofs d) (hm : C.method = .direct) (hcon : ∀ i k, Relation.ReflTransGen (PassesTo inp D S' C) i k)
    (l : List (ℕ × ℕ)) (phi0 dphi0 : Vec inp.nDofs) (b : Fin inp.nDofs)
    (hP : PosedH (solveMatrix inp D S S' C.method C.owner .double) (solveMatrix inp D S S' C.method C.owner .single) C {b} phi0 dphi0)
    (hH : MeanValues C {b}) (hr : ∃ gmres st X, solve inp D S S' C gmres (alphaHistory l) phi0 dphi0 = (st, some X)) :
    (∃ gmres st X, solve inp D S S' C gmres (alphaHistory l) phi0 dphi0 = (st, some X) ∧ ∀ i, X.residual i = 0) ∧
    Determined inp D S S' C (alphaHistory l) phi0 dphi0 := by
  have hN : ∀ i k, solveMatrix inp D S S' C.method C.owner .double i k ≤ 0 := fun i k => by rw [hm]; exact (C112_signs hK S C.owner i k).1
  have hM : ∀ i k, 0 < solveMatrix inp D S S' C.method C.owner .single i k := fun i k => by
    rw [hm]; exact (C112_signs hK S C.owner i k).2.2.2 (hap i k)
  have hcon' : ∀ i k, Relation.ReflTransGen (Passes (solveMatrix inp D S S' C.method C.owner .double) C) i k := fun i k => by
    refine Relation.ReflTransGen.mono (r := PassesTo inp D S' C) (fun a c hac => ?_) i k (hcon i k)
    unfold PassesTo at hac
    unfold Passes
    cases hi : C.hanging a with
    | none => rw [hi] at hac; rw [hm]; exact (C112_signs hK S C.owner a c).2.1.2 hac
    | some es => rw [hi] at hac; exact hac
  exact ⟨C114_hanging hN hM hcon' l phi0 dphi0 b hP hH hr, C112_hanging hN hM hcon' l phi0 dphi0 b hP hH⟩

/-! ## The hypotheses are met -/

theorem mid_only (i : Fin 8) (es : List (Fin 8 × ℝ)) (hes : midHanging i = some es) : i = 3 ∧ es = [(1, 1 / 2), (2, 1 / 2)] := by
  unfold midHanging at hes
  split_ifs at hes with hi
  cases hes
  exact ⟨hi, rfl⟩

theorem mid_weights (i : Fin 8) (es : List (Fin 8 × ℝ)) (hes : midHanging i = some es) : ∀ e ∈ es, 0 < e.2 := by
  obtain ⟨-, rfl⟩ := mid_only i es hes
  simp

theorem mid_total (i : Fin 8) (es : List (Fin 8 × ℝ)) (hes : midHanging i = some es) : (es.map Prod.snd).sum = 1 := by
  obtain ⟨-, rfl⟩ := mid_only i es hes
  norm_num

theorem mid_same (i : Fin 8) (es : List (Fin 8 × ℝ)) (hes : midHanging i = some es) :
    i ∉ ({7} : Finset (Fin 8)) ∧ ∀ e ∈ es, e.1 ∉ ({7} : Finset (Fin 8)) := by
  obtain ⟨rfl, rfl⟩ := mid_only i es hes
  simp

/-- The cube with node 7 Dirichlet, the others Neumann, node 3 hanging between nodes 1 and 2. -/
noncomputable def cubeHang (procs : ℕ) (g : Vec 8) : Setup (cubeInput 3 0).nDofs 3 :=
  { cubeSetup .direct procs with
    neumannNodes := fun (i : Fin 8) => if i ∈ ({7} : Finset (Fin 8)) then 0 else 1
    nodes := ⟨fun (i : Fin 8) => if i ∈ ({7} : Finset (Fin 8)) then 1 else 0, g, fun _ => 0, fun _ => 0, false⟩
    hanging := midHanging, fuel := 3 }

example (S : SingRule) (procs : ℕ) (g : Vec 8) : ∃ (gmres : (Vec 8 → Vec 8) → Vec 8 → Vec 8) (st : AlphaStatics) (X : Solution 8),
    solve (cubeInput 3 0) cubeData S faceRule (cubeHang procs g) gmres (alphaHistory []) g g = (st, some X) ∧ (∀ i, X.residual i = 0) ∧
    X.phi 7 = g 7 ∧ X.dphi 3 = g 3 := by
  have hl := constraints_no_doubles (n := 8) (d := 3) (cubeHang procs g).nodes
    (fun i => by show (if _ then _ else _) = _ ∨ (if _ then _ else _) = _; split_ifs <;> simp) midHanging mid_closed 3 mid_length (List.finRange 8)
  obtain ⟨st, X, h⟩ := solve_some (inp := cubeInput 3 0) (D := cubeData) (S := S) (S' := faceRule) (C := cubeHang procs g)
    (gmres := fun _ _ => (0 : Vec 8)) (st := alphaHistory []) (phi0 := g) (dphi0 := g)
    (by simp [alphaHistory, alphaStaticsStep, AlphaStatics.init, cubeInput]) hl
  have hcon : ∀ i k : Fin 8, Relation.ReflTransGen (PassesTo (cubeInput 3 0) cubeData faceRule (cubeHang procs g)) i k := by
    have free : ∀ i k : Fin 8, i ≠ 3 → Relation.ReflTransGen (PassesTo (cubeInput 3 0) cubeData faceRule (cubeHang procs g)) i k := by
      intro i k hi
      by_cases hk : i = k
      · rw [hk]; exact .refl
      · refine .single ?_
        have hn : (cubeHang procs g).hanging i = none := if_neg hi
        unfold PassesTo
        rw [hn]
        exact cube_sees hk
    intro i k
    by_cases hi : i = 3
    · subst hi
      refine .head (b := (1 : Fin 8)) ?_ (free 1 k (by decide))
      have hn : (cubeHang procs g).hanging (3 : Fin 8) = some [((1 : Fin 8), (1 / 2 : ℝ)), ((2 : Fin 8), (1 / 2 : ℝ))] :=
        show midHanging 3 = _ by simp [midHanging]
      unfold PassesTo
      rw [hn]
      exact List.mem_cons_self ..
    · exact free i k hi
  have hH : MeanValues (cubeHang procs g) ({(7 : Fin 8)} : Finset (Fin 8)) := ⟨mid_weights, mid_total, mid_same⟩
  obtain ⟨⟨gm, st', Y, hY, rY⟩, -⟩ := C114_convex_hanging (S := S) cube_convex cube_apart (cubeHang procs g) rfl hcon [] g g (7 : Fin 8)
    { dirichlet := fun _ => rfl, neumann := fun _ => rfl, bc := rfl, phi := fun _ _ => rfl, dphi := fun _ _ => rfl
      refl := fun i => Finset.mem_singleton_self i, eq := fun i j hj => by rw [Finset.mem_singleton.1 hj]
      rows := fun i j hj k => by rw [Finset.mem_singleton.1 hj]; exact ⟨rfl, rfl⟩
      alone := fun i _ j hj => Finset.mem_singleton.1 hj, order := fun i => List.mem_finRange i } hH ⟨_, st, X, h⟩
  obtain ⟨-, -, p, q, -⟩ := solve_rows hY ({(7 : Fin 8)} : Finset (Fin 8)) (fun _ => rfl) (fun _ => rfl) rfl (fun _ _ => rfl) (fun _ _ => rfl)
  refine ⟨gm, st', Y, hY, rY, ?_, ?_⟩
  · rw [p]; exact if_pos (Finset.mem_singleton_self (7 : Fin 8))
  · rw [q]; exact if_neg (show ¬ ((3 : Fin 8) ∈ ({7} : Finset (Fin 8))) by decide)

end PiBem.Bem
