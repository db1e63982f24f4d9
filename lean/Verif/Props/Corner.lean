import Verif.Props.Exact

/-!
# C92: corners of the Dirichlet boundary with the option on continuous gradients

Positions with any number of Dirichlet nodes (three faces meet at a corner of a box). The normal derivative of each of them is that of a vector having the surface
gradients of that node and of *one* other Dirichlet node of the position, which one depends on the numbering (C83, refuted corners). How far the results are from the normal
derivatives of a gradient, and from each other under renumbering, is bounded by the defect of the surface gradients.
-/

noncomputable section

namespace PiBem.Bem

open PiBem.Octree PiBem.Fmm PiBem.Expansion

variable {n n' d : ℕ}

/-- Euclidean length of `x` at most `ε`. -/
def Within (x : Fin d → ℝ) (ε : ℝ) : Prop := ∑ k, x k ^ 2 ≤ ε ^ 2

/-- The surface gradients at the Dirichlet nodes of the position of `i` are tangential parts of `g`, up to errors of length at most `ε`; the normals have
length one and pairwise scalar products at most `c` in absolute value. -/
structure NearGradient (C : Setup n d) (B : Finset (Fin n)) (i : Fin n) (g : Fin d → ℝ) (ε c : ℝ) : Prop where
  unit : ∀ j ∈ C.doubles i, j ∈ B → ∑ k, C.nodes.normal j k ^ 2 = 1
  angle : ∀ j ∈ C.doubles i, j ∈ B → j ≠ i → |dot (C.nodes.normal i) (C.nodes.normal j)| ≤ c
  near : ∀ j ∈ C.doubles i, j ∈ B → Within (fun k => C.nodes.surfGrad j k - tangential g (C.nodes.normal j) k) ε

/-- An exact result takes the normal derivative at `i` from the surface gradients of `i` and of another Dirichlet node at its position. -/
theorem exact_partner (N M : Mat n) (C : Setup n d) (gmres : (Vec n → Vec n) → Vec n → Vec n) (l : List (ℕ × ℕ)) (st' : AlphaStatics)
    (phi0 dphi0 : Vec n) (R : Solution n) (h : solveWith N M C gmres (alphaHistory l) phi0 dphi0 = (st', some R))
    (B : Finset (Fin n)) (hP : PosedH N M C B phi0 dphi0)
    (hsharp : C.nodes.continuosGradient = true → ∀ i ∈ B, ∀ j ∈ C.doubles i, j ∈ B → j ≠ i → dot (C.nodes.normal i) (C.nodes.normal j) ^ 2 ≠ 1)
    (hres : ∀ i, R.residual i = 0) (hg : C.nodes.continuosGradient = true)
    (i : Fin n) (hi : i ∈ B) (j : Fin n) (hj : j ∈ C.doubles i) (hjB : j ∈ B) (hne : j ≠ i) :
    ∃ k ∈ C.doubles i, k ∈ B ∧ k ≠ i ∧ thisNormalGradient C.nodes i k = some (R.dphi i) := by
  obtain ⟨c, hc, h1, h2, h3, h4⟩ := solveWith_rows h B hP.dirichlet hP.neumann hP.bc hP.phi hP.dphi
  have hd01 : ∀ i, C.nodes.dirichlet i = 0 ∨ C.nodes.dirichlet i = 1 := by
    intro i; rw [hP.dirichlet]; split_ifs <;> simp
  have hd1 : ∀ i, C.nodes.dirichlet i = 1 ↔ i ∈ B := by intro i; rw [hP.dirichlet]; split_ifs with hi <;> simp [hi]
  obtain ⟨hl, -, -⟩ := C75_constraints C.nodes C.doubles hP.refl hP.eq hd01 C.hanging C.fuel C.order hP.order hc
  have hfin := constraints_finite C.nodes C.doubles hP.refl hP.eq hd01
    (fun hg i j hi hj hjd hne => hsharp hg i ((hd1 i).1 hi) j hj ((hd1 j).1 hjd) hne) C.hanging C.fuel C.order hc
  have hlines : LinesHold c R.sol := by
    intro i es g hi
    obtain ⟨v, rfl⟩ := Option.isSome_iff_exists.1 (hfin i es g hi)
    exact ⟨v, rfl, by have := h4 i es _ hi; rw [hres i, sub_zero] at this; exact this⟩
  obtain ⟨hdn, -⟩ := (hl R.sol).1 hlines
  have hdphiB : R.dphi i = R.sol i := by rw [h2]; simp [merge, hi]
  rw [hdphiB]
  obtain ⟨f, hf⟩ := exists_firstDirichlet C.nodes (C.doubles i) ⟨i, hP.refl i, (hd1 i).2 hi⟩
  by_cases hfi : f = i
  · subst hfi
    obtain ⟨m, hm⟩ := exists_lastDirichlet C.nodes (C.doubles f) ⟨f, hP.refl f, (hd1 f).2 hi⟩
    have hmf : m ≠ f := by
      rintro rfl
      exact hne (le_antisymm (hm.2.2 j hj ((hd1 j).2 hjB)) (hf.2.2 j hj ((hd1 j).2 hjB)))
    exact ⟨m, hm.1, (hd1 m).1 hm.2.1, hmf, hdn.first hg f m hf hm hmf⟩
  · exact ⟨f, hf.1, (hd1 f).1 hf.2.1, hfi, by
      rw [← otherNormalGradient_eq]
      exact hdn.follower hg i f ((hd1 i).2 hi) hf (Ne.symm hfi)⟩

theorem abs_dot_le {x y : Fin d → ℝ} {ε : ℝ} (hε : 0 ≤ ε) (hx : Within x ε) (hy : ∑ k, y k ^ 2 = 1) : |dot x y| ≤ ε := by
  refine abs_le_of_sq_le_sq ?_ hε
  have h := Finset.sum_mul_sq_le_sq_mul_sq Finset.univ x y
  rw [hy, mul_one] at h
  exact h.trans hx

theorem dot_sub_left (x y z : Fin d → ℝ) : dot (fun k => x k - y k) z = dot x z - dot y z := by
  unfold dot
  rw [← Finset.sum_sub_distrib]
  exact Finset.sum_congr rfl fun k _ => by ring

/-- The imposed value is the normal derivative of `g` up to `ε / (1 - c)`. -/
theorem normalGradient_near (D : NodeData n d) (i j : Fin n) (g : Fin d → ℝ) {ε c : ℝ} (hε : 0 ≤ ε) (hc : c < 1)
    (hi1 : ∑ k, D.normal i k ^ 2 = 1) (hj1 : ∑ k, D.normal j k ^ 2 = 1)
    (ha : |dot (D.normal i) (D.normal j)| ≤ c)
    (hi : Within (fun k => D.surfGrad i k - tangential g (D.normal i) k) ε)
    (hj : Within (fun k => D.surfGrad j k - tangential g (D.normal j) k) ε) :
    ∃ v, thisNormalGradient D i j = some v ∧ |v - dot g (D.normal i)| ≤ ε / (1 - c) := by
  have e1 := abs_dot_le hε hi hj1
  have e2 := abs_dot_le hε hj hi1
  rw [dot_sub_left, dot_tangential] at e1 e2
  set a := dot (D.normal i) (D.normal j) with hadef
  rw [dot_comm (D.normal j) (D.normal i), ← hadef] at e2
  have hc0 : 0 ≤ c := (abs_nonneg a).trans ha
  have ha1 : 0 < 1 - |a| := by linarith
  have hpos : 0 < 1 - a ^ 2 := by
    rw [← sq_abs]; nlinarith [abs_nonneg a]
  unfold thisNormalGradient fdiv
  rw [← hadef, if_neg hpos.ne']
  refine ⟨_, rfl, ?_⟩
  set x := dot (D.surfGrad i) (D.normal j)
  set y := dot (D.surfGrad j) (D.normal i)
  set p := dot g (D.normal i)
  set q := dot g (D.normal j)
  have key : 1 / (1 - a ^ 2) * (y + x * a) - p = ((y - (p - q * a)) + (x - (q - p * a)) * a) / (1 - a ^ 2) := by
    field_simp
    ring
  rw [key, abs_div, abs_of_pos hpos]
  have hnum : |(y - (p - q * a)) + (x - (q - p * a)) * a| ≤ ε * (1 + |a|) := by
    refine (abs_add_le _ _).trans ?_
    rw [abs_mul]
    nlinarith [abs_nonneg a, e1, e2]
  have hden : 1 - a ^ 2 = (1 - |a|) * (1 + |a|) := by rw [← sq_abs]; ring
  have h1a : (0 : ℝ) < 1 + |a| := by linarith [abs_nonneg a]
  calc _ ≤ ε * (1 + |a|) / (1 - a ^ 2) := by gcongr
    _ = ε / (1 - |a|) := by rw [hden]; field_simp
    _ ≤ ε / (1 - c) := by
      apply div_le_div_of_nonneg_left hε (by linarith) (by linarith)

/-- **C92** (error at edges and corners). With the option on gradients, at any position with two or more Dirichlet nodes, an exact solve returns the normal derivatives of a vector
`g` up to `ε / (1 - c)`, if the surface gradients there are its tangential parts up to `ε` and `c < 1` bounds the scalar products of the
normals. -/
theorem C92_corner_error (N M : Mat n) (C : Setup n d) (gmres : (Vec n → Vec n) → Vec n → Vec n) (l : List (ℕ × ℕ)) (st' : AlphaStatics)
    (phi0 dphi0 : Vec n) (R : Solution n) (h : solveWith N M C gmres (alphaHistory l) phi0 dphi0 = (st', some R))
    (B : Finset (Fin n)) (hP : PosedH N M C B phi0 dphi0)
    (hsharp : ∀ i ∈ B, ∀ j ∈ C.doubles i, j ∈ B → j ≠ i → dot (C.nodes.normal i) (C.nodes.normal j) ^ 2 ≠ 1)
    (hres : ∀ i, R.residual i = 0) (hg : C.nodes.continuosGradient = true)
    (i : Fin n) (hi : i ∈ B) (j : Fin n) (hj : j ∈ C.doubles i) (hjB : j ∈ B) (hne : j ≠ i)
    (g : Fin d → ℝ) (ε c : ℝ) (hε : 0 ≤ ε) (hc : c < 1) (hnear : NearGradient C B i g ε c) :
    |R.dphi i - ∑ k, g k * C.nodes.normal i k| ≤ ε / (1 - c) := by
  obtain ⟨k, hk, hkB, hki, hv⟩ := exact_partner N M C gmres l st' phi0 dphi0 R h B hP (fun _ => hsharp) hres hg i hi j hj hjB hne
  obtain ⟨v, hv', hb⟩ := normalGradient_near C.nodes i k g hε hc (hnear.unit i (hP.refl i) hi) (hnear.unit k hk hkB)
    (hnear.angle k hk hkB hki) (hnear.near i (hP.refl i) hi) (hnear.near k hk hkB)
  rw [hv] at hv'
  cases hv'
  exact hb

/-- **C92** (exact corners). If the surface gradients are tangential parts of `g`, an exact solve returns its normal derivatives. -/
theorem C92_corner_exact (N M : Mat n) (C : Setup n d) (gmres : (Vec n → Vec n) → Vec n → Vec n) (l : List (ℕ × ℕ)) (st' : AlphaStatics)
    (phi0 dphi0 : Vec n) (R : Solution n) (h : solveWith N M C gmres (alphaHistory l) phi0 dphi0 = (st', some R))
    (B : Finset (Fin n)) (hP : PosedH N M C B phi0 dphi0)
    (hsharp : ∀ i ∈ B, ∀ j ∈ C.doubles i, j ∈ B → j ≠ i → dot (C.nodes.normal i) (C.nodes.normal j) ^ 2 ≠ 1)
    (hres : ∀ i, R.residual i = 0) (hg : C.nodes.continuosGradient = true)
    (i : Fin n) (hi : i ∈ B) (j : Fin n) (hj : j ∈ C.doubles i) (hjB : j ∈ B) (hne : j ≠ i)
    (g : Fin d → ℝ) (hgr : ∀ k ∈ C.doubles i, k ∈ B → C.nodes.surfGrad k = tangential g (C.nodes.normal k)) :
    R.dphi i = ∑ k, g k * C.nodes.normal i k := by
  obtain ⟨k, hk, hkB, hki, hv⟩ := exact_partner N M C gmres l st' phi0 dphi0 R h B hP (fun _ => hsharp) hres hg i hi j hj hjB hne
  have := (C54_sharp_edge_exact C.nodes i k g (hsharp i hi k hk hkB hki) (hgr i (hP.refl i) hi) (hgr k hk hkB)).1
  rw [hv] at this
  exact Option.some.inj this

variable {e : Fin n ≃ Fin n'} {N M : Mat n} {N' M' : Mat n'} {C : Setup n d} {C' : Setup n' d}

/-- **C92** (numberings, corners). Exact solves of two runs with different numberings, partitions, numbers of processes and linear solvers give normal derivatives at a
Dirichlet node on an edge or corner that differ by at most `2 ε / (1 - c)`. -/
theorem C92_corner_numbering (hC : RenumberedH e N M N' M' C C') (gmres : (Vec n → Vec n) → Vec n → Vec n)
    (gmres' : (Vec n' → Vec n') → Vec n' → Vec n') (l l' : List (ℕ × ℕ)) (st st' : AlphaStatics) (phi0 dphi0 : Vec n) (phi0' dphi0' : Vec n')
    (X : Solution n) (X' : Solution n') (h : solveWith N M C gmres (alphaHistory l) phi0 dphi0 = (st, some X))
    (h' : solveWith N' M' C' gmres' (alphaHistory l') phi0' dphi0' = (st', some X'))
    (B : Finset (Fin n)) (hP : PosedH N M C B phi0 dphi0) (hP' : PosedH N' M' C' (B.image e) phi0' dphi0')
    (hsharp : ∀ i ∈ B, ∀ j ∈ C.doubles i, j ∈ B → j ≠ i → dot (C.nodes.normal i) (C.nodes.normal j) ^ 2 ≠ 1)
    (hX : ∀ i, X.residual i = 0) (hX' : ∀ i, X'.residual i = 0) (hg : C.nodes.continuosGradient = true)
    (i : Fin n) (hi : i ∈ B) (j : Fin n) (hj : j ∈ C.doubles i) (hjB : j ∈ B) (hne : j ≠ i)
    (g : Fin d → ℝ) (ε c : ℝ) (hε : 0 ≤ ε) (hc : c < 1) (hnear : NearGradient C B i g ε c) :
    |X'.dphi (e i) - X.dphi i| ≤ 2 * ε / (1 - c) := by
  have hinj := e.injective
  have h1 := C92_corner_error N M C gmres l st phi0 dphi0 X h B hP hsharp hX hg i hi j hj hjB hne g ε c hε hc hnear
  have hsharp' : ∀ i ∈ B.image e, ∀ j ∈ C'.doubles i, j ∈ B.image e → j ≠ i → dot (C'.nodes.normal i) (C'.nodes.normal j) ^ 2 ≠ 1 := by
    intro i' hi' j' hj' hjB' hne'
    obtain ⟨i, hi, rfl⟩ := Finset.mem_image.1 hi'
    rw [hC.doubles] at hj'
    obtain ⟨j, hj, rfl⟩ := Finset.mem_image.1 hj'
    rw [hC.normal, hC.normal]
    exact hsharp i hi j hj (hinj.mem_finset_image.1 hjB') (fun h => hne' (h ▸ rfl))
  have hnear' : NearGradient C' (B.image e) (e i) g ε c := by
    refine ⟨?_, ?_, ?_⟩
    · rw [hC.doubles, Finset.forall_mem_image]
      intro k hk hkB
      rw [hC.normal]
      exact hnear.unit k hk (hinj.mem_finset_image.1 hkB)
    · rw [hC.doubles, Finset.forall_mem_image]
      intro k hk hkB hki
      rw [hC.normal, hC.normal]
      exact hnear.angle k hk (hinj.mem_finset_image.1 hkB) (fun h => hki (h ▸ rfl))
    · rw [hC.doubles, Finset.forall_mem_image]
      intro k hk hkB
      rw [hC.normal, hC.surfGrad]
      exact hnear.near k hk (hinj.mem_finset_image.1 hkB)
  have h2 := C92_corner_error N' M' C' gmres' l' st' phi0' dphi0' X' h' (B.image e) hP' hsharp' hX' (hC.grad ▸ hg) (e i)
    (Finset.mem_image_of_mem _ hi) (e j) (by rw [hC.doubles]; exact Finset.mem_image_of_mem _ hj) (Finset.mem_image_of_mem _ hjB)
    (hinj.ne hne) g ε c hε hc hnear'
  rw [hC.normal] at h2
  have : X'.dphi (e i) - X.dphi i = (X'.dphi (e i) - ∑ k, g k * C.nodes.normal i k) - (X.dphi i - ∑ k, g k * C.nodes.normal i k) := by ring
  rw [this]
  refine (abs_sub _ _).trans ?_
  rw [two_mul, add_div]
  exact add_le_add h2 h1

/-! ## The hypotheses are met -/

/-- The corner of a box: three Dirichlet nodes with normals `e₀, e₁, e₂` and the surface gradients of `(1, 2, 3)`. -/
def boxCorner : Setup 3 3 where
  method := .direct
  owner := id
  procs := 2
  part := 2
  neumannNodes := fun _ => 0
  haveDirichletBc := true
  nodes := ⟨fun _ => 1, fun _ => 5, fun i => Pi.single i 1, ![![0, 2, 3], ![1, 0, 3], ![1, 2, 0]], true⟩
  doubles := fun _ => Finset.univ
  hanging := fun _ => none
  fuel := 1
  order := List.finRange _

theorem boxCorner_posed : PosedH (fun _ _ => 1) (fun _ k => k) boxCorner Finset.univ (fun _ => 5) 0 := by
  refine ⟨by simp [boxCorner], by simp [boxCorner], rfl, fun _ _ => rfl, by simp, by simp [boxCorner], by simp [boxCorner], ?_, ?_, by simp [boxCorner]⟩
  · intro i j _ k; exact ⟨rfl, rfl⟩
  · intro i hi; exact absurd rfl hi

theorem boxCorner_dot {i j : Fin 3} (h : j ≠ i) : dot (boxCorner.nodes.normal i) (boxCorner.nodes.normal j) = 0 := by
  fin_cases i <;> fin_cases j <;> first | exact absurd rfl h | simp [dot, boxCorner, Fin.sum_univ_three]

theorem boxCorner_gradient (i : Fin 3) : boxCorner.nodes.surfGrad i = tangential ![1, 2, 3] (boxCorner.nodes.normal i) := by
  funext k
  fin_cases i <;> fin_cases k <;> simp [boxCorner, tangential, dot, Fin.sum_univ_three]

theorem boxCorner_consistent : Consistent boxCorner Finset.univ := by
  refine Consistent.ofGradient (fun _ _ _ _ _ => rfl) (fun i => Finset.mem_univ i) ?_ (fun _ _ => ⟨![1, 2, 3], fun j _ _ => boxCorner_gradient j⟩)
  intro _ i _ j _ _ hne
  rw [boxCorner_dot hne]
  norm_num

theorem boxCorner_near (i : Fin 3) : NearGradient boxCorner Finset.univ i ![1, 2, 3] 0 0 := by
  refine ⟨fun j _ _ => ?_, fun j _ _ hne => by rw [boxCorner_dot hne]; simp, fun j _ _ => ?_⟩
  · fin_cases j <;> simp [boxCorner, Fin.sum_univ_three]
  · rw [boxCorner_gradient]
    simp [Within]

theorem boxCorner_solve (gmres : (Vec 3 → Vec 3) → Vec 3 → Vec 3) :
    ∃ st X, solveWith (fun _ _ => 1) (fun _ k => k) boxCorner gmres (alphaHistory []) (fun _ => 5) 0 = (st, some X) := by
  have hc : computeConstraints boxCorner.nodes boxCorner.doubles boxCorner.hanging boxCorner.fuel boxCorner.order = some _ :=
    point_lines .direct 2 boxCorner.nodes (fun _ => rfl)
  have ha : (alphaStaticsStep 3 boxCorner.part (alphaHistory [])).part = boxCorner.part := by
    simp [alphaHistory, alphaStaticsStep, AlphaStatics.init]
  unfold solveWith computeAlpha
  simp only [ha, if_true, Option.bind_some, hc, Option.map_some]
  exact ⟨_, _, rfl⟩

/-- The corner of the box: the hypotheses of C92 hold, and the exact result is `(1, 2, 3)`. -/
example : ∃ st X, solveWith (fun _ _ => 1) (fun _ k => k) boxCorner (fun _ _ => ![1, 2, 3]) (alphaHistory []) (fun _ => 5) 0 = (st, some X) ∧
    (∀ i, X.residual i = 0) ∧ X.dphi 2 = 3 := by
  obtain ⟨st, X0, h0⟩ := boxCorner_solve (fun _ _ => ![1, 2, 3])
  obtain ⟨X, h, hsol⟩ := solveWith_any h0 ![1, 2, 3]
  obtain ⟨-, -, p1, p2, -⟩ := solveWith_rows h Finset.univ boxCorner_posed.dirichlet boxCorner_posed.neumann boxCorner_posed.bc
    boxCorner_posed.phi boxCorner_posed.dphi
  have hsharp : ∀ i ∈ (Finset.univ : Finset (Fin 3)), ∀ j ∈ boxCorner.doubles i, j ∈ (Finset.univ : Finset (Fin 3)) → j ≠ i →
      dot (boxCorner.nodes.normal i) (boxCorner.nodes.normal j) ^ 2 ≠ 1 := by
    intro i _ j _ _ hne
    rw [boxCorner_dot hne]
    norm_num
  have hdphi : ∀ i, X.dphi i = ![1, 2, 3] i := by
    intro i
    rw [p2, hsol]
    simp [merge]
  have hphi : ∀ i, X.phi i = 5 := by
    intro i
    rw [p1]
    simp [merge, boxCorner]
  have hex : ∀ i, X.residual i = 0 := by
    refine (C91_exact_solutions _ _ boxCorner _ [] st _ _ X h Finset.univ boxCorner_posed boxCorner_consistent).2
      ⟨fun i _ hG => absurd ?_ hG, fun i j _ => by rw [hphi, hphi], fun _ i _ j _ _ hne => ?_, fun i es hi => by cases hi⟩
    · exact ⟨rfl, 0, Finset.mem_univ _, 1, Finset.mem_univ _, Finset.mem_univ _, Finset.mem_univ _, by decide⟩
    · rw [(C54_sharp_edge_exact boxCorner.nodes i j ![1, 2, 3] (hsharp i (Finset.mem_univ i) j (Finset.mem_univ j) (Finset.mem_univ j) hne)
        (boxCorner_gradient i) (boxCorner_gradient j)).1, hdphi]
      congr 1
      fin_cases i <;> simp [dot, boxCorner, Fin.sum_univ_three]
  refine ⟨st, X, h, hex, ?_⟩
  rw [C92_corner_exact _ _ boxCorner _ [] st _ _ X h Finset.univ boxCorner_posed hsharp hex rfl 2 (Finset.mem_univ _) 0 (Finset.mem_univ _)
    (Finset.mem_univ _) (by decide) ![1, 2, 3] (fun k _ _ => boxCorner_gradient k)]
  simp [boxCorner, Fin.sum_univ_three]

end PiBem.Bem
