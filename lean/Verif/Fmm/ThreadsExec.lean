import Verif.Fmm.Threads

/-! What the programs of `Verif.Fmm.Threads` do when they run alone, and the locations they access (helper lemmas). -/

noncomputable section

namespace PiBem.Fmm

open PiBem.Octree PiBem.WorkStream PiBem.Expansion PiBem.Threads

/-- A function of the state of a loop. -/
theorem foldl_proj {α σ τ : Type} (π : σ → τ) (f : σ → α → σ) (g : τ → α → τ) (Inv : σ → Prop) (l : List α)
    (h : ∀ a ∈ l, ∀ s, Inv s → Inv (f s a) ∧ π (f s a) = g (π s) a) (s : σ) (hs : Inv s) :
    Inv (l.foldl f s) ∧ π (l.foldl f s) = l.foldl g (π s) := by
  induction l generalizing s with
  | nil => exact ⟨hs, rfl⟩
  | cons a t ih =>
    obtain ⟨h1, h2⟩ := h a (by simp) s hs
    simp only [List.foldl_cons]
    rw [← h2]
    exact ih (fun b hb => h b (by simp [hb])) _ h1

/-! ## Accesses -/

section acc

variable {m : FMem} {S R W : Set Loc}

theorem acc_getR {l : Loc} (h : l ∈ R) : Prog.Acc m S R W (fun v => v = m l) (Prog.get (V := Val) l) :=
  .readR h (.ret rfl)

theorem acc_getW {l : Loc} (h : l ∈ W) : Prog.Acc m S R W (fun _ => True) (Prog.get (V := Val) l) :=
  .readW h fun _ => .ret trivial

theorem acc_getRW {l : Loc} (h : l ∈ R ∨ l ∈ W) : Prog.Acc m S R W (fun _ => True) (Prog.get (V := Val) l) := by
  rcases h with h | h
  · exact (acc_getR h).mono fun _ _ => trivial
  · exact acc_getW h

theorem acc_put {l : Loc} {v : Val l} (h : l ∈ W) : Prog.Acc m S R W (fun _ => True) (Prog.put (V := Val) l v) :=
  .write h (.ret trivial)

theorem acc_readExp {o : EObj} (h1 : Loc.head o ∈ R) (h2 : Loc.zero o ∈ R) (h3 : ∀ n k, Loc.coeff o n k ∈ R) :
    (readExp o).Acc m S R W fun _ => True := by
  unfold readExp readCoeffs
  refine (acc_getR h2).bind fun z _ => (acc_getR h1).bind fun h _ => ?_
  split_ifs
  · exact .ret trivial
  · refine Prog.Acc.bind (Prog.Acc.foldlM (P := fun _ => True) (fun a _ s _ => ?_) trivial) fun _ _ => .ret trivial
    exact (acc_getR (h3 _ _)).bind fun _ _ => .ret trivial

theorem acc_addCoeffs {o : EObj} (h : ∀ n k, Loc.coeff o n k ∈ W) (p : ℕ) (z : ℕ → ℕ → ℂ) :
    (addCoeffs o p z).Acc m S R W fun _ => True :=
  Prog.Acc.forM fun _ _ => (acc_getW (h _ _)).bind fun _ _ => acc_put (h _ _)

theorem acc_putNew {o : EObj} (h1 : Loc.head o ∈ W) (h2 : Loc.zero o ∈ W) (h3 : ∀ n k, Loc.coeff o n k ∈ W) (p : ℕ)
    (c : V3) : (putNew o p c).Acc m S R W fun _ => True :=
  (acc_put h1).bind fun _ _ => (Prog.Acc.forM fun _ _ => acc_put (h3 _ _)).bind fun _ _ => acc_put h2

theorem acc_selfAssign (h1 : Loc.tabP ∈ S) (h1' : Loc.tabP ∈ R) (h2 : Loc.tabPtr ∈ S) (h2' : Loc.tabPtr ∈ R) :
    selfAssign.Acc m S R W fun _ => True :=
  .readR h1' (.silent h1 h1' rfl (.readR h2' (.silent h2 h2' rfl (.ret trivial))))

theorem acc_addScaledTo {o : EObj} (h1 : Loc.head o ∈ R ∨ Loc.head o ∈ W) (h2 : Loc.zero o ∈ W)
    (h3 : ∀ n k, Loc.coeff o n k ∈ W) (e : Exp) (s : ℝ) : (addScaledTo o e s).Acc m S R W fun _ => True := by
  unfold addScaledTo
  split_ifs
  · exact .ret trivial
  · exact (acc_put h2).bind fun _ _ => (acc_getRW h1).bind fun _ _ => acc_addCoeffs h3 _ _

theorem acc_addChildTo {o : EObj} (h1 : Loc.head o ∈ R ∨ Loc.head o ∈ W) (h2 : Loc.zero o ∈ W)
    (h3 : ∀ n k, Loc.coeff o n k ∈ W) (e : Exp) : (addChildTo o e).Acc m S R W fun _ => True := by
  unfold addChildTo
  split_ifs
  · exact (acc_getW h2).bind fun _ _ => acc_put h2
  · exact (acc_put h2).bind fun _ _ => (acc_getRW h1).bind fun _ _ => acc_addCoeffs h3 _ _

theorem acc_addParentTo {o : EObj} (h1 : Loc.head o ∈ R ∨ Loc.head o ∈ W) (h2 : Loc.zero o ∈ W)
    (h3 : ∀ n k, Loc.coeff o n k ∈ W) (e : Exp) : (addParentTo o e).Acc m S R W fun _ => True := by
  unfold addParentTo
  split_ifs
  · exact .ret trivial
  · exact (acc_getRW h1).bind fun _ _ => (acc_addCoeffs h3 _ _).bind fun _ _ => acc_put h2

end acc

/-! ## Expansions in memory -/

/-- The expansion in memory. -/
def getExp (m : FMem) (o : EObj) : Exp :=
  let h : ℕ × V3 := m (.head o)
  ⟨h.1, h.2, fun n k => if n ≤ h.1 ∧ k ≤ n then (m (.coeff o n k) : ℂ) else 0, (m (.zero o) : Bool)⟩

/-- What is read of an expansion. -/
def view (e : Exp) : Exp := if e.isZero = true then ⟨e.p, e.center, fun _ _ => 0, true⟩ else e

/-- The locations of an expansion, apart from the order and the centre. -/
def body (o : EObj) : Set Loc := {l | l = .zero o ∨ ∃ n k, l = .coeff o n k}

theorem mem_idx (p n k : ℕ) : (n, k) ∈ idx p ↔ n ≤ p ∧ k ≤ n := by
  unfold idx
  simp only [List.mem_flatMap, List.mem_range, List.mem_map, Prod.mk.injEq]
  constructor
  · rintro ⟨a, h1, b, h2, rfl, rfl⟩; omega
  · rintro ⟨h1, h2⟩; exact ⟨n, by omega, k, by omega, rfl, rfl⟩

theorem nodup_idx (p : ℕ) : (idx p).Nodup := by
  unfold idx
  rw [List.nodup_flatMap]
  refine ⟨fun n _ => (List.nodup_range).map fun a b h => (Prod.mk.inj h).2, ?_⟩
  refine (List.nodup_range (n := p + 1)).imp fun {a b} hab => ?_
  simp only [Function.onFun, List.disjoint_left, List.mem_map, not_exists, not_and]
  rintro x ⟨c, _, rfl⟩ d _ h
  exact hab (Prod.mk.inj h).1.symm

theorem getExp_congr {m m' : FMem} {o : EObj} (h : m' (.head o) = m (.head o)) (hb : ∀ l ∈ body o, m' l = m l) :
    getExp m' o = getExp m o := by
  unfold getExp
  rw [h, hb (.zero o) (.inl rfl)]
  simp only [hb (.coeff o _ _) (.inr ⟨_, _, rfl⟩)]

theorem getExp_eq {m : FMem} {o : EObj} {e : Exp} (hp : (m (.head o) : ℕ × V3).1 = e.p) (hc : (m (.head o) : ℕ × V3).2 = e.center)
    (hz : m (.zero o) = e.isZero) (h1 : ∀ n k, n ≤ e.p ∧ k ≤ n → m (.coeff o n k) = e.coeff n k)
    (h0 : ∀ n k, ¬ (n ≤ e.p ∧ k ≤ n) → e.coeff n k = 0) : getExp m o = e := by
  cases e
  simp only at hp hc hz h1 h0
  unfold getExp
  simp only [Exp.mk.injEq]
  refine ⟨hp, hc, ?_, hz⟩
  funext n k
  rw [hp]
  split_ifs with h
  · exact h1 n k h
  · exact (h0 n k h).symm

theorem readCoeffs_exec (o : EObj) (p : ℕ) (m : FMem) :
    (readCoeffs o p).exec m = (fun n k => if n ≤ p ∧ k ≤ n then (m (.coeff o n k) : ℂ) else 0, m) := by
  unfold readCoeffs
  rw [exec_foldlM_pure _ (fun f nm => fun n k => if n = nm.1 ∧ k = nm.2 then (m (.coeff o nm.1 nm.2) : ℂ) else f n k) m
    _ (fun a _ s => rfl)]
  refine Prod.ext ?_ rfl
  have key : ∀ (l : List (ℕ × ℕ)) (f : ℕ → ℕ → ℂ), l.foldl (fun f nm => fun n k => if n = nm.1 ∧ k = nm.2 then
      (m (.coeff o nm.1 nm.2) : ℂ) else f n k) f = fun n k => if (n, k) ∈ l then (m (.coeff o n k) : ℂ) else f n k := by
    intro l
    induction l with
    | nil => intro f; simp
    | cons a t ih =>
      intro f
      rw [List.foldl_cons, ih]
      funext n k
      by_cases h1 : (n, k) ∈ t
      · simp [h1]
      · by_cases h2 : n = a.1 ∧ k = a.2
        · obtain ⟨rfl, rfl⟩ := h2; simp
        · have : (n, k) ≠ a := by rintro rfl; exact h2 ⟨rfl, rfl⟩
          simp [h1, h2, this]
  show List.foldl _ _ _ = _
  rw [key]
  funext n k
  simp only [mem_idx]

theorem readExp_exec (o : EObj) (m : FMem) : (readExp o).exec m = (view (getExp m o), m) := by
  unfold readExp view getExp
  simp only [get_bind, exec_read]
  split_ifs with h1
  · rfl
  · rw [exec_bind, readCoeffs_exec]
    have : (m (.zero o) : Bool) = false := by simpa using h1
    simp only [pure_eq, exec_ret, this]

theorem view_mAddChild (L : Legendre) (e o : Exp) : mAddChild L e (view o) = mAddChild L e o := by
  unfold view; split_ifs with h
  · unfold mAddChild; simp [h]
  · rfl

theorem view_lAddParent (L : Legendre) (e o : Exp) : lAddParent L e (view o) = lAddParent L e o := by
  unfold view; split_ifs with h
  · unfold lAddParent; simp [h]
  · rfl

theorem view_lAddMultipole (L : Legendre) (e o : Exp) : lAddMultipole L e (view o) = lAddMultipole L e o := by
  unfold view; split_ifs with h
  · unfold lAddMultipole; simp [h]
  · rfl

theorem view_mEval (L : Legendre) (o : Exp) (x : V3) : mEval L (view o) x = mEval L o x := by
  unfold view; split_ifs with h
  · unfold mEval; simp [h]
  · rfl

theorem view_lEval (L : Legendre) (o : Exp) (x : V3) : lEval L (view o) x = lEval L o x := by
  unfold view; split_ifs with h
  · unfold lEval; simp [h]
  · rfl

theorem view_isZero (o : Exp) : (view o).isZero = o.isZero := by
  unfold view; split_ifs with h
  · exact h.symm
  · rfl

theorem addCoeffs_exec (o : EObj) (p : ℕ) (z : ℕ → ℕ → ℂ) (m : FMem) :
    (∀ n k, (((addCoeffs o p z).exec m).2 (.coeff o n k) : ℂ) =
      if n ≤ p ∧ k ≤ n then (m (.coeff o n k) : ℂ) + z n k else (m (.coeff o n k) : ℂ)) ∧
    ∀ l, (∀ n k, l ≠ .coeff o n k) → ((addCoeffs o p z).exec m).2 l = m l := by
  unfold addCoeffs
  rw [exec_forM]
  have key : ∀ (l : List (ℕ × ℕ)), l.Nodup → ∀ m : FMem,
      (∀ n k, ((l.foldl (fun m nm => ((Prog.read (V := Val) (.coeff o nm.1 nm.2) fun v : ℂ =>
        Prog.write (V := Val) (.coeff o nm.1 nm.2) (v + z nm.1 nm.2 : ℂ) (.ret ())).exec m).2) m) (.coeff o n k) : ℂ) =
        if (n, k) ∈ l then (m (.coeff o n k) : ℂ) + z n k else (m (.coeff o n k) : ℂ)) ∧
      ∀ x, (∀ n k, x ≠ .coeff o n k) → (l.foldl (fun m nm => ((Prog.read (V := Val) (.coeff o nm.1 nm.2) fun v : ℂ =>
        Prog.write (V := Val) (.coeff o nm.1 nm.2) (v + z nm.1 nm.2 : ℂ) (.ret ())).exec m).2) m) x = m x := by
    intro l
    induction l with
    | nil => intro _ m; exact ⟨fun n k => by simp, fun _ _ => rfl⟩
    | cons a t ih =>
      intro hn m
      rw [List.nodup_cons] at hn
      simp only [List.foldl_cons]
      obtain ⟨h1, h2⟩ := ih hn.2 (((Prog.read (V := Val) (.coeff o a.1 a.2) fun v : ℂ =>
        Prog.write (V := Val) (.coeff o a.1 a.2) (v + z a.1 a.2 : ℂ) (.ret ())).exec m).2)
      refine ⟨fun n k => ?_, fun x hx => ?_⟩
      · rw [h1 n k]
        simp only [exec_read, exec_write, exec_ret]
        by_cases e : (n, k) = a
        · subst e
          simp only [hn.1, if_false, List.mem_cons, true_or, if_true]
          exact Function.update_self _ _ _
        · have hne : Loc.coeff o n k ≠ .coeff o a.1 a.2 := by
            intro h; injection h with _ h3 h4; exact e (Prod.ext h3 h4)
          rw [Function.update_of_ne hne]
          simp [e]
      · rw [h2 x hx]
        simp only [exec_read, exec_write, exec_ret]
        exact Function.update_of_ne (hx _ _) _ _
  obtain ⟨h1, h2⟩ := key (idx p) (nodup_idx p) m
  refine ⟨fun n k => ?_, h2⟩
  rw [← if_congr (mem_idx p n k) rfl rfl]
  exact h1 n k

theorem putNew_exec (o : EObj) (p : ℕ) (c : V3) (m : FMem) :
    getExp ((putNew o p c).exec m).2 o = Exp.new p c ∧
    ∀ l, l ≠ .head o → l ∉ body o → ((putNew o p c).exec m).2 l = m l := by
  have key : ∀ (l : List (ℕ × ℕ)) (m : FMem),
      (∀ n k, ((l.foldl (fun m nm => ((Prog.put (V := Val) (.coeff o nm.1 nm.2) (0 : ℂ)).exec m).2) m) (.coeff o n k) : ℂ)
        = if (n, k) ∈ l then (0 : ℂ) else (m (.coeff o n k) : ℂ)) ∧
      ∀ x, (∀ n k, x ≠ .coeff o n k) →
        (l.foldl (fun m nm => ((Prog.put (V := Val) (.coeff o nm.1 nm.2) (0 : ℂ)).exec m).2) m) x = m x := by
    intro l
    induction l with
    | nil => intro m; exact ⟨fun n k => by simp, fun _ _ => rfl⟩
    | cons a t ih =>
      intro m
      simp only [List.foldl_cons]
      obtain ⟨h1, h2⟩ := ih (((Prog.put (V := Val) (.coeff o a.1 a.2) (0 : ℂ)).exec m).2)
      refine ⟨fun n k => ?_, fun x hx => ?_⟩
      · rw [h1 n k, exec_put]
        by_cases e : (n, k) = a
        · subst e
          simp only [List.mem_cons, true_or, if_true]
          split_ifs
          · rfl
          · exact Function.update_self _ _ _
        · have hne : Loc.coeff o n k ≠ .coeff o a.1 a.2 := by
            intro h; injection h with _ h3 h4; exact e (Prod.ext h3 h4)
          simp only [Function.update_of_ne hne, List.mem_cons, e, false_or]
      · rw [h2 x hx, exec_put]
        exact Function.update_of_ne (hx _ _) _ _
  set m1 : FMem := Function.update m (.head o) ((p, c) : ℕ × V3) with hm1
  set m2 : FMem := (idx p).foldl (fun m nm => ((Prog.put (V := Val) (.coeff o nm.1 nm.2) (0 : ℂ)).exec m).2) m1 with hm2
  have e : ((putNew o p c).exec m).2 = Function.update m2 (.zero o) true := by
    unfold putNew
    rw [exec_bind, exec_bind, exec_forM]; rfl
  obtain ⟨h1, h2⟩ := key (idx p) m1
  have hh : m2 (.head o) = (p, c) := by
    rw [hm2, h2 _ (fun n k => by simp), hm1]; exact Function.update_self _ _ _
  rw [e]
  refine ⟨?_, fun l hl hb => ?_⟩
  · have e1 : (Function.update m2 (.zero o) true : FMem) (.head o) = (p, c) := by
      rw [Function.update_of_ne (by simp)]; exact hh
    refine getExp_eq (by rw [e1]; rfl) (by rw [e1]; rfl) (Function.update_self _ _ _) (fun n k h => ?_) fun _ _ _ => rfl
    rw [Function.update_of_ne (by simp)]
    have := h1 n k
    rw [if_pos ((mem_idx p n k).2 h)] at this
    exact this
  · have hz : l ≠ .zero o := fun h => hb (.inl h)
    have hc : ∀ n k, l ≠ .coeff o n k := fun n k h => hb (.inr ⟨n, k, h⟩)
    rw [Function.update_of_ne hz, hm2, h2 l hc, hm1, Function.update_of_ne hl]

theorem selfAssign_exec (m : FMem) : selfAssign.exec m = ((), m) := by
  unfold selfAssign
  simp only [get_bind, put_bind, exec_read, exec_write]
  rw [Function.update_eq_self, exec_put, Function.update_eq_self]

/-- The common part of the `Add` functions. -/
theorem getExp_add {m m' : FMem} {o : EObj} {z : ℕ → ℕ → ℂ} (hh : m' (.head o) = m (.head o))
    (hz : (m' (.zero o) : Bool) = false)
    (hc : ∀ n k, (m' (.coeff o n k) : ℂ) = if n ≤ (m (.head o) : ℕ × V3).1 ∧ k ≤ n then
      (m (.coeff o n k) : ℂ) + z n k else (m (.coeff o n k) : ℂ)) :
    getExp m' o = { (getExp m o).addCoeffs z with isZero := false } := by
  unfold getExp Exp.addCoeffs
  rw [hh, hz]
  simp only [Exp.mk.injEq, true_and, and_true]
  funext n k
  rw [hc n k]
  split_ifs <;> rfl

theorem addScaledTo_exec (o : EObj) (e : Exp) (s : ℝ) (m : FMem) :
    getExp ((addScaledTo o e s).exec m).2 o = mAddScaled (getExp m o) e s ∧
    ∀ l, l ∉ body o → ((addScaledTo o e s).exec m).2 l = m l := by
  unfold addScaledTo mAddScaled
  split_ifs with h
  · exact ⟨rfl, fun _ _ => rfl⟩
  · simp only [put_bind, get_bind, exec_write, exec_read]
    set m1 : FMem := Function.update m (.zero o) false with hm1
    have hh : m1 (.head o) = m (.head o) := Function.update_of_ne (by simp) _ _
    rw [hh]
    obtain ⟨h1, h2⟩ := addCoeffs_exec o (m (.head o) : ℕ × V3).1 (fun n k => e.coeff n k * (s : ℂ)) m1
    refine ⟨getExp_add ?_ ?_ fun n k => ?_, fun l hl => ?_⟩
    · rw [h2 _ (fun n k => by simp), hh]
    · rw [h2 _ (fun n k => by simp)]; exact Function.update_self _ _ _
    · rw [h1 n k]
      have : m1 (.coeff o n k) = m (.coeff o n k) := Function.update_of_ne (by simp) _ _
      rw [this]
    · rw [h2 l fun n k h => hl (.inr ⟨n, k, h⟩)]
      exact Function.update_of_ne (fun h => hl (.inl h)) _ _

theorem addChildTo_exec (o : EObj) (e : Exp) (m : FMem) :
    getExp ((addChildTo o e).exec m).2 o = mAddChild codeTable (getExp m o) e ∧
    ∀ l, l ∉ body o → ((addChildTo o e).exec m).2 l = m l := by
  unfold addChildTo mAddChild
  split_ifs with h hd
  · simp only [get_bind, exec_read, exec_put]
    refine ⟨getExp_eq ?_ ?_ (Function.update_self _ _ _) (fun n k hn => ?_) fun n k hn => ?_,
      fun l hl => Function.update_of_ne (fun h => hl (.inl h)) _ _⟩
    · rw [Function.update_of_ne (by simp)]; rfl
    · rw [Function.update_of_ne (by simp)]; rfl
    · rw [Function.update_of_ne (by simp)]
      exact (if_pos hn).symm
    · exact if_neg hn
  all_goals
    simp only [put_bind, get_bind, exec_write, exec_read]
    set m1 : FMem := Function.update m (.zero o) false with hm1
    have hh : m1 (.head o) = m (.head o) := Function.update_of_ne (by simp) _ _
    rw [hh]
  · have hd' : 1e-7 < rho (e.center - (m (.head o) : ℕ × V3).2) := hd
    rw [if_pos hd']
    obtain ⟨h1, h2⟩ := addCoeffs_exec o (m (.head o) : ℕ × V3).1
      (m2mCoeff codeTable e.coeff (e.center - (m (.head o) : ℕ × V3).2)) m1
    refine ⟨getExp_add ?_ ?_ fun n k => ?_, fun l hl => ?_⟩
    · rw [h2 _ (fun n k => by simp), hh]
    · rw [h2 _ (fun n k => by simp)]; exact Function.update_self _ _ _
    · rw [h1 n k]
      have : m1 (.coeff o n k) = m (.coeff o n k) := Function.update_of_ne (by simp) _ _
      rw [this]; rfl
    · rw [h2 l fun n k h => hl (.inr ⟨n, k, h⟩)]
      exact Function.update_of_ne (fun h => hl (.inl h)) _ _
  · have hd' : ¬ 1e-7 < rho (e.center - (m (.head o) : ℕ × V3).2) := hd
    rw [if_neg hd']
    obtain ⟨h1, h2⟩ := addCoeffs_exec o (m (.head o) : ℕ × V3).1 e.coeff m1
    refine ⟨getExp_add ?_ ?_ fun n k => ?_, fun l hl => ?_⟩
    · rw [h2 _ (fun n k => by simp), hh]
    · rw [h2 _ (fun n k => by simp)]; exact Function.update_self _ _ _
    · rw [h1 n k]
      have : m1 (.coeff o n k) = m (.coeff o n k) := Function.update_of_ne (by simp) _ _
      rw [this]
    · rw [h2 l fun n k h => hl (.inr ⟨n, k, h⟩)]
      exact Function.update_of_ne (fun h => hl (.inl h)) _ _

theorem addParentTo_exec (o : EObj) (e : Exp) (m : FMem) :
    getExp ((addParentTo o e).exec m).2 o = lAddParent codeTable (getExp m o) e ∧
    ∀ l, l ∉ body o → ((addParentTo o e).exec m).2 l = m l := by
  unfold addParentTo
  split_ifs with h
  · refine ⟨?_, fun _ _ => rfl⟩
    unfold lAddParent; rw [if_pos h]; rfl
  · rw [get_bind, exec_read, exec_bind, exec_put]; dsimp only
    set zz := (if 1e-7 < rho (e.center - (m (.head o) : ℕ × V3).2) then
      l2lCoeff codeTable (m (.head o) : ℕ × V3).1 e.coeff (e.center - (m (.head o) : ℕ × V3).2) else e.coeff) with hzz
    obtain ⟨h1, h2⟩ := addCoeffs_exec o (m (.head o) : ℕ × V3).1 zz m
    have e1 : lAddParent codeTable (getExp m o) e = { (getExp m o).addCoeffs zz with isZero := false } := by
      unfold lAddParent
      rw [if_neg h, hzz]
      show _ = _
      by_cases hd : 1e-7 < rho (e.center - (m (.head o) : ℕ × V3).2)
      · rw [if_pos hd]; exact if_pos hd
      · rw [if_neg hd]; exact if_neg hd
    rw [e1]
    refine ⟨getExp_add ?_ (Function.update_self _ _ _) fun n k => ?_, fun l hl => ?_⟩
    · rw [Function.update_of_ne (by simp), h2 _ (fun n k => by simp)]
    · rw [Function.update_of_ne (by simp)]; exact h1 n k
    · rw [Function.update_of_ne (fun h => hl (.inl h)), h2 l fun n k h => hl (.inr ⟨n, k, h⟩)]

end PiBem.Fmm
