import Verif.Bem.Nodes

/-!
# Hanging nodes in `compute_constraints`

End of `BEMProblem::compute_constraints` (bem_problem.cc:1886-1891, 2113-2135): the lines of the double nodes are merged with
the hanging node constraints of the scalar element, the result is closed, and the index set of the entries read by a process
is filled. `AffineConstraints::merge` and `AffineConstraints::close` are functions of deal.II, modelled by their algorithms.
-/

namespace PiBem.Bem

noncomputable section

variable {n : ℕ}

/-- `c_hn` after `make_hanging_node_constraints` and `close` (bem_problem.cc:1889-1891): entries of each hanging node; no
inhomogeneity. -/
abbrev Hanging (n : ℕ) := Fin n → Option (List (Fin n × ℝ))

/-- First part of `AffineConstraints::merge(c_hn)` (bem_problem.cc:2113) on the entries of a line: entries which the other object
constrains are replaced by its entries, with multiplied weights. -/
def foldEntries (h : Hanging n) (es : List (Fin n × ℝ)) : List (Fin n × ℝ) :=
  es.flatMap fun e =>
    match h e.1 with
    | some hs => hs.map fun f => (f.1, f.2 * e.2)
    | none => [e]

/-- `AffineConstraints::merge(c_hn)` (bem_problem.cc:2113), default `no_conflicts_allowed`: after the first part the lines of
the other object are appended; an exception (`none`) is thrown if a dof has a line in both objects. -/
def mergeLines (c : Lines n) (h : Hanging n) : Option (Lines n) :=
  open Classical in
  if ∃ i, (c i).isSome ∧ (h i).isSome then none
  else some fun i =>
    match c i with
    | some (es, g) => some (foldEntries h es, g)
    | none => (h i).map fun hs => (hs, some 0)

/-- `inhomogeneity += other * weight`, not finite as soon as one of the two is not. -/
def addInhom (g g' : Option ℝ) (w : ℝ) : Option ℝ := g.bind fun x => g'.map fun y => x + y * w

/-- `AffineConstraints::close()` on line `i` (bem_problem.cc:2114): the list of entries is scanned (`done` are the entries
passed, `todo` the current one and the following ones); an entry which is itself constrained is replaced by the first entry
of its line, the others are put at the end of the list, or is erased if its line has no entries; the new entry is examined
again. `none`: a cycle is found, or more than `fuel` steps (the loop may not end if there are cycles). The final sorting of
the entries, where equal columns are summed, is left out: sums over the entries do not change. -/
def expandLine (c : Lines n) (i : Fin n) :
    ℕ → List (Fin n × ℝ) → List (Fin n × ℝ) → Option ℝ → Option (List (Fin n × ℝ) × Option ℝ)
  | 0, _, _, _ => none
  | _ + 1, done, [], g => some (done, g)
  | fuel + 1, done, e :: todo, g =>
    match c e.1 with
    | none => expandLine c i fuel (done ++ [e]) todo g
    | some (es, g') =>
      if e.1 = i then none
      else match es with
        | [] => expandLine c i fuel done todo (addInhom g g' e.2)
        | f :: fs => expandLine c i fuel done
            ((f.1, f.2 * e.2) :: todo ++ fs.map fun f => (f.1, f.2 * e.2)) (addInhom g g' e.2)

/-- `AffineConstraints::close()` (bem_problem.cc:2114): the lines are treated one after the other, in the order `order` in
which they are stored. -/
def closeLines (fuel : ℕ) (order : List (Fin n)) (c : Lines n) : Option (Lines n) :=
  order.foldlM (fun c i =>
    match c i with
    | none => some c
    | some (es, g) => (expandLine c i fuel [] es g).map fun l => Function.update c i (some l)) c

/-- The constraints used by the solver (bem_problem.cc:1881-2114). -/
def computeConstraints {d : ℕ} (D : NodeData n d) (doubles : Fin n → Finset (Fin n)) (h : Hanging n) (fuel : ℕ)
    (order : List (Fin n)) : Option (Lines n) :=
  (mergeLines (doubleNodeConstraints D doubles) h).bind (closeLines fuel order)

/-- Body of the loop filling `c_cpu_set` (bem_problem.cc:2120-2132): a dof of the process and the entries of its constraint. -/
def constrCpuStep (c : Lines n) (own : Fin n → ℕ) (proc : ℕ) (s : Finset (Fin n)) (i : Fin n) : Finset (Fin n) :=
  if own i = proc then
    match c i with
    | some (es, _) => es.foldl (fun s e => insert e.1 s) (insert i s)
    | none => insert i s
  else s

/-- `c_cpu_set` of process `proc` (bem_problem.cc:2116-2133). -/
def constrCpuSet (c : Lines n) (own : Fin n → ℕ) (proc : ℕ) : Finset (Fin n) :=
  (List.finRange n).foldl (constrCpuStep c own proc) ∅

/-- Body of the loop of `ConstrainedOperator::vmult` on process `k` (constrained_matrix.h:109-121), reading entries of other
processes from `loc_src` only: `none` when an entry is read which is not in `constr_cpu_set`. -/
def ghostStep {R : Type} [CommRing R] (c : Constraints R n) (own : Fin n → ℕ) (k : ℕ) (ghosts : Finset (Fin n))
    (src : Fin n → R) (dst : LocalVec R n) (i : Fin n) : Option (LocalVec R n) :=
  match c i with
  | some (entries, _) =>
    if own i = k then
      entries.foldlM (fun d e => if e.1 ∈ ghosts then some (Function.update d i (d i - e.2 * src e.1)) else none)
        (Function.update dst i (dst i + (src i - dst i)))
    else some (Function.update dst i (dst i + 0))
  | none => some (Function.update dst i (dst i + 0))

/-- `ConstrainedOperator::vmult` on process `k` with the ghost entries `ghosts` (constrained_matrix.h:93-121). -/
def ghostVmult {R : Type} [CommRing R] (A : (Fin n → R) → Fin n → R) (c : Constraints R n) (own : Fin n → ℕ) (k : ℕ)
    (ghosts : Finset (Fin n)) (src : Fin n → R) : Option (LocalVec R n) :=
  (List.finRange n).foldlM (ghostStep c own k ghosts src) (fun i => if own i = k then A src i else 0)

end

end PiBem.Bem
