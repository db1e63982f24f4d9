import Verif.Fmm.Cover
import Mathlib.Data.Finset.Sort

/-!
# Model of the sparsity patterns of the near field matrices and of the preconditioner

Models, of source/bem_fma.cc: the first half of `direct_integrals` (215-670: `init_prec_sparsity_pattern`), the
positions written by `f_copier_direct` (1026-1092) and `FMA_preconditioner` (3291-3535:
`final_prec_sparsity_pattern` and the positions written in `final_preconditioner`).

A pattern is the set of the positions (row, column) added so far. A Trilinos matrix built on a compressed pattern
has exactly those positions: `add` and `set` elsewhere are errors.
-/

namespace PiBem.Fmm

open PiBem.Octree PiBem.WorkStream

variable {d : ℕ}

/-- A sparsity pattern: the positions added. -/
abbrev Pat := Set (ℕ × ℕ)

/-- `InitPrecCopy` (bem_fma.cc:243-247). -/
structure PBuf where
  blockIndices : List ℕ
  colIndices : List (List ℕ)

/-- `InitPrecCopy foo_copy` (bem_fma.cc:362). -/
def PBuf.empty : PBuf := ⟨[], []⟩

/-- The two `resize(0)` (bem_fma.cc:262-263, 493-494). -/
def PBuf.reset (b : PBuf) : PBuf := { b with blockIndices := [], colIndices := [] }

/-- `block_indices.push_back(i); col_indices.push_back({}); ` then the columns one by one
(bem_fma.cc:328-338, 555-563). -/
def PBuf.push (b : PBuf) (i : ℕ) (cols : List ℕ) : PBuf :=
  { b with blockIndices := b.blockIndices ++ [i], colIndices := b.colIndices ++ [cols] }

/-- `directNodes` (bem_fma.cc:288-318, 520-549): the dofs of the cells with quadrature points in the blocks of `S`, a
`std::set`, hence visited in increasing order. -/
def directNodes (inp : Input d) (T : St d) (S : Finset ℕ) : List ℕ :=
  (S.biUnion fun b => ((blockCells inp T b).flatMap inp.cellDofs).toFinset).sort (· ≤ ·)

/-- `f_init_prec_childless_worker` (bem_fma.cc:257-343). -/
def workerPatLeaf (inp : Input d) (T : St d) (own : ℕ → Bool) (b : ℕ) (_ : Pat) (buf : PBuf) : PBuf :=
  let nodes := (T.blocks b).nodes
  if 0 < nodes.length then
    let cols := directNodes inp T (intList inp T b (numSub inp T b - 1))
    nodes.foldl (fun buf i => if own i then buf.push i cols else buf) buf.reset
  else buf.reset

/-- `f_init_prec_level_worker` (bem_fma.cc:489-568): sublevel by sublevel, the part of the non interaction list before
`lower_bound(startBlockLevel)`. -/
def workerPatLevel (inp : Input d) (T : St d) (own : ℕ → Bool) (level b : ℕ) (_ : Pat) (buf : PBuf) : PBuf :=
  let nodes := (T.blocks b).nodes
  if 0 < nodes.length then
    (List.range (numSub inp T b)).foldl (fun buf s =>
      let cols := directNodes inp T ((nonIntList inp T b s).filter (· < T.startLevel level))
      nodes.foldl (fun buf i => if own i then buf.push i cols else buf) buf) buf.reset
  else buf.reset

/-- `f_init_prec_copier` (bem_fma.cc:348-356). -/
def copierPat (buf : PBuf) (P : Pat) : Pat :=
  (List.range buf.colIndices.length).foldl (fun P i =>
    (buf.colIndices.getD i []).foldl (fun P j => insert (buf.blockIndices.getD i 0, j) P) P) P

/-- The construction of `init_prec_sparsity_pattern` (bem_fma.cc:233-236, 361-369, 477-578), any execution. -/
def PatExec (inp : Input d) (T : St d) (own : ℕ → Bool) (P : Pat) : Prop :=
  ∃ P1, Exec (workerPatLeaf inp T own) copierPat PBuf.empty T.childless ∅ P1 ∧
    Levels (fun l => Exec (workerPatLevel inp T own l) copierPat PBuf.empty (T.dofsFilled l))
      (List.range' 1 inp.levels) P1 P

/-- The positions passed to `prec_neumann_matrix.add`, `prec_dirichlet_matrix.add` and `init_preconditioner.add` by
`f_copier_direct` (bem_fma.cc:1039-1088): the same three times, for the node `ii` of the buffer and the dofs of the
cells from `vec_start_helper[ii]` to `vec_start_helper[ii + 1]`. -/
def copierWrites (inp : Input d) (buf : DBuf) (W : Pat) : Pat :=
  (List.range buf.nodeIndex.length).foldl (fun W ii =>
    let fooStart := buf.startHelper.getD ii 0
    let fooEnd := if ii < buf.nodeIndex.length - 1 then buf.startHelper.getD (ii + 1) 0
      else buf.rows.length
    (List.range' fooStart (fooEnd - fooStart)).foldl (fun W kk =>
      (inp.cellDofs (buf.rows.getD kk (0, [])).1).foldl (fun W j =>
        insert (buf.nodeIndex.getD ii 0, j) W) W) W) W

/-- `direct_integrals` with the positions written: the state is the matrix and the set of the positions at which
something was added so far. -/
def DirectWriteExec (inp : Input d) (T : St d) (own : ℕ → Bool) (M : ℕ → Multiset Contr) (W : Pat) : Prop :=
  ∃ x, Exec (fun b (s : (ℕ → Multiset Contr) × Pat) buf => workerLeaf inp T own b s.1 buf)
      (fun buf s => (copierDirect buf s.1, copierWrites inp buf s.2)) DBuf.empty T.childless (fun _ => 0, ∅) x ∧
    Levels (fun l => Exec (fun b (s : (ℕ → Multiset Contr) × Pat) buf => workerBig inp T own l b s.1 buf)
        (fun buf s => (copierDirect buf s.1, copierWrites inp buf s.2)) DBuf.empty (T.dofsFilled l))
      (List.range' 1 inp.levels) x (M, W)

/-! ## FMA_preconditioner -/

/-- `PrecCopy` (bem_fma.cc:3319-3334). -/
structure FBuf where
  row : ℕ
  sparsityRow : List ℕ

/-- `f_worker_prec` (bem_fma.cc:3335-3374). `c i` is the list of the columns of the constraint of `i`. When `i` is not
owned the row of the recycled buffer is kept. -/
def workerPrec (n : ℕ) (own : ℕ → Bool) (c : ℕ → Option (List ℕ)) (P : Pat) [DecidablePred (· ∈ P)] (i : ℕ) (_ : Pat)
    (buf : FBuf) : FBuf :=
  let buf := { buf with sparsityRow := [] }
  if own i then
    { row := i
      sparsityRow := match c i with
        | some entries => i :: entries
        | none => (List.range n).filter fun j => decide ((i, j) ∈ P) }
  else buf

/-- `f_copier_prec` (bem_fma.cc:3377-3391). -/
def copierPrec (own : ℕ → Bool) (buf : FBuf) (F : Pat) : Pat :=
  if own buf.row then buf.sparsityRow.foldl (fun F j => insert (buf.row, j) F) F else F

/-- The construction of `final_prec_sparsity_pattern` (bem_fma.cc:3303-3306, 3393-3402); `inv` is
`numbers::invalid_unsigned_int`. -/
def FinalPatExec (n inv : ℕ) (own : ℕ → Bool) (c : ℕ → Option (List ℕ)) (P : Pat) [DecidablePred (· ∈ P)] (F : Pat) :
    Prop :=
  Exec (workerPrec n own c P) (copierPrec own) ⟨inv, []⟩ (List.range n) ∅ F

/-- The positions passed by `f_sparsity_filler_tbb` to `final_preconditioner.set` for the index `i`
(bem_fma.cc:3408-3448). -/
def fillerWrites (n : ℕ) (own : ℕ → Bool) (c : ℕ → Option (List ℕ)) (P : Pat) [DecidablePred (· ∈ P)] (i : ℕ) :
    List (ℕ × ℕ) :=
  if own i then
    match c i with
    | some entries => (i, i) :: entries.map fun j => (i, j)
    | none => ((List.range n).filter fun j => decide ((i, j) ∈ P)).map fun j => (i, j)
  else []

/-- The positions passed by `f_alpha_adder_tbb` to `final_preconditioner.add` for the index `i` (bem_fma.cc:3517-3535):
the diagonal, of every owned row. -/
def alphaWrites (own : ℕ → Bool) (i : ℕ) : List (ℕ × ℕ) := if own i then [(i, i)] else []

end PiBem.Fmm
