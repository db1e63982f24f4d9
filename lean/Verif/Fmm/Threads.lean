import Verif.Fmm.Numeric
import Verif.Threads

/-!
# The fast multipole product, one memory access at a time

The threads of `direct_integrals`, `multipole_integrals`, `generate_multipole_expansions` and `multipole_matr_vect_products`
(source/bem_fma.cc) as programs of reads and writes of the shared memory, in the phases of `Verif.Threads`. Both kernels are
in the same loops, as in the code. Memory is sequentially consistent.

Shared locations are the ones some thread writes while threads are running: the expansions of the blocks (order and centre;
`is_zero`; each coefficient), the table of the expansions of the elements (its set of keys; each entry), the two product
vectors, the rows of the two sparse matrices, the keys of the maps of quadrature data, the two members of the static object
`LocalExpansion::mExp_to_lExp_Coeff`, the timer `LocEval`. What is only read (blocks, lists, quadrature data, supports, the
vector multiplied, the contents of the static tables) is a constant of the programs. Addresses of coefficient arrays and the
memory allocator are not modelled. The table `lExp_to_lExp_Coeff` is a `std::vector` and its assignment to itself
(local_expansion.cc:48, 68) does nothing; its `operator[]` finds its keys (`C54`), so it is a constant.
-/

noncomputable section

namespace PiBem.Fmm

open PiBem.Octree PiBem.WorkStream PiBem.Expansion PiBem.Threads

deriving instance DecidableEq for Ker

/-- The expansions held in vectors indexed by blocks: `blockMultipoleExpansionsKer1/2`, `blockLocalExpansionsKer1/2`
(bem_fma.h:300-330). -/
inductive EObj
  | mul (k : Ker) (b : ℕ)
  | loc (k : Ker) (b : ℕ)
  deriving DecidableEq

/-- Shared locations. -/
inductive Loc
  /-- `p` and `center` (multipole_expansion.h:30-43, local_expansion.h:27-38) -/
  | head (o : EObj)
  /-- `is_zero` -/
  | zero (o : EObj)
  /-- coefficient `(n,m)` -/
  | coeff (o : EObj) (n m : ℕ)
  /-- the keys of `elemMultipoleExpansionsKer1/2` -/
  | elemKeys (k : Ker)
  /-- the entry of block `b` of `elemMultipoleExpansionsKer1/2` -/
  | elem (k : Ker) (b : ℕ)
  /-- entry of `matrVectProdN` (`double`), `matrVectProdD` (`single`) -/
  | prod (k : Ker) (i : ℕ)
  /-- row of `prec_neumann_matrix` and `prec_dirichlet_matrix` -/
  | mat (i : ℕ)
  /-- the keys of `quadPoints`, `quadNormals`, `quadShapeFunValues`, `quadJxW` -/
  | quadKeys
  /-- `LocalExpansion::mExp_to_lExp_Coeff._p` -/
  | tabP
  /-- `LocalExpansion::mExp_to_lExp_Coeff._coeff` -/
  | tabPtr
  /-- the timer `LocEval` -/
  | timer
  deriving DecidableEq

/-- Values of the locations; an address is a number, the state of the timer is not modelled. -/
@[reducible] def Val : Loc → Type
  | .head _ => ℕ × V3
  | .zero _ => Bool
  | .coeff _ _ _ => ℂ
  | .elemKeys _ => Finset ℕ
  | .elem _ _ => ℕ → ℕ → Exp
  | .prod _ _ => ℝ
  | .mat _ => Multiset Contr
  | .quadKeys => Finset ℕ
  | .tabP => ℕ
  | .tabPtr => ℕ
  | .timer => Unit

/-- Programs of the threads. -/
abbrev P (β : Type) := Prog Val β

/-- The shared memory. -/
abbrev FMem := Mem Val

/-- Indices `(n,m)`, `m ≤ n ≤ p`, in the order of the loops on coefficients (e.g. multipole_expansion.cc:84-85). -/
def idx (p : ℕ) : List (ℕ × ℕ) := (List.range (p + 1)).flatMap fun n => (List.range (n + 1)).map fun m => (n, m)

/-! ## Expansions -/

/-- `GetCoeff` for all the indices (multipole_expansion.h:87-91, local_expansion.h:80-84). The code reads a coefficient more
than once. -/
def readCoeffs (o : EObj) (p : ℕ) : P (ℕ → ℕ → ℂ) :=
  (idx p).foldlM (fun f nm => do
    let z : ℂ ← Prog.get (V := Val) (.coeff o nm.1 nm.2)
    pure fun n m => if n = nm.1 ∧ m = nm.2 then z else f n m) fun _ _ => 0

/-- What the functions taking an expansion as argument read of it: nothing more if `is_zero`
(multipole_expansion.cc:77, 190, 268; local_expansion.cc:112, 187, 255). The order and the centre are read in any case
here. -/
def readExp (o : EObj) : P Exp := do
  let z : Bool ← Prog.get (V := Val) (.zero o)
  let h : ℕ × V3 ← Prog.get (V := Val) (.head o)
  if z then pure ⟨h.1, h.2, fun _ _ => 0, true⟩
  else do
    let cs ← readCoeffs o h.1
    pure ⟨h.1, h.2, cs, false⟩

/-- `AddToCoeff` for all the indices (multipole_expansion.h:80-84, local_expansion.h:73-77): read and write. -/
def addCoeffs (o : EObj) (p : ℕ) (z : ℕ → ℕ → ℂ) : P Unit :=
  (idx p).forM fun nm => do
    let v : ℂ ← Prog.get (V := Val) (.coeff o nm.1 nm.2)
    Prog.put (V := Val) (.coeff o nm.1 nm.2) (v + z nm.1 nm.2 : ℂ)

/-- The members of an expansion overwritten with those of a new one (multipole_expansion.cc:51-64, local_expansion.cc:64-77
without the static members). -/
def putNew (o : EObj) (p : ℕ) (c : V3) : P Unit := do
  Prog.put (V := Val) (.head o) ((p, c) : ℕ × V3)
  (idx p).forM fun nm => Prog.put (V := Val) (.coeff o nm.1 nm.2) (0 : ℂ)
  Prog.put (V := Val) (.zero o) true

/-- `this->mExp_to_lExp_Coeff = other.mExp_to_lExp_Coeff` (local_expansion.cc:49, 69): both sides are the same static object,
and the implicit assignment operator (local_expansion_coeff.h:18-54) reads and writes the two members. -/
def selfAssign : P Unit := do
  let p : ℕ ← Prog.get (V := Val) .tabP
  Prog.put (V := Val) .tabP p
  let a : ℕ ← Prog.get (V := Val) .tabPtr
  Prog.put (V := Val) .tabPtr a

/-- `MultipoleExpansion::Add(multipole, sol)` on a shared expansion (multipole_expansion.cc:74-91): `is_zero` is written
first. -/
def addScaledTo (o : EObj) (e : Exp) (sol : ℝ) : P Unit :=
  if e.isZero = true ∨ sol = 0 then pure ()
  else do
    Prog.put (V := Val) (.zero o) false
    let h : ℕ × V3 ← Prog.get (V := Val) (.head o)
    addCoeffs o h.1 fun n m => e.coeff n m * sol

/-- `MultipoleExpansion::Add(other)` on a shared expansion (multipole_expansion.cc:184-261). -/
def addChildTo (o : EObj) (e : Exp) : P Unit :=
  if e.isZero = true then do
    let z : Bool ← Prog.get (V := Val) (.zero o)
    Prog.put (V := Val) (.zero o) (z && e.isZero)
  else do
    Prog.put (V := Val) (.zero o) false
    let h : ℕ × V3 ← Prog.get (V := Val) (.head o)
    addCoeffs o h.1 (if 1e-7 < rho (e.center - h.2) then m2mCoeff codeTable e.coeff (e.center - h.2) else e.coeff)

/-- `LocalExpansion::Add(other)` on a shared expansion (local_expansion.cc:107-176): `is_zero` is written last. -/
def addParentTo (o : EObj) (e : Exp) : P Unit :=
  if e.isZero = true then pure ()
  else do
    let h : ℕ × V3 ← Prog.get (V := Val) (.head o)
    addCoeffs o h.1 (if 1e-7 < rho (e.center - h.2) then l2lCoeff codeTable h.1 e.coeff (e.center - h.2) else e.coeff)
    Prog.put (V := Val) (.zero o) false

/-! ## Setup -/

variable (inp : Input 3) (D : Data) (T : St 3) (own : ℕ → Bool)

/-- `quadPoints.clear()`, then an entry for each cell (bem_fma.cc:3936-3975); `reinit` of the matrices (bem_fma.cc:190-215);
`elemMultipoleExpansionsKer1/2.clear()` (bem_fma.cc:1752-1760). One thread. -/
def initial : P Unit := do
  Prog.put (V := Val) .quadKeys (∅ : Finset ℕ)
  (List.range inp.nCells).forM fun c => do
    let s : Finset ℕ ← Prog.get (V := Val) .quadKeys
    Prog.put (V := Val) .quadKeys (insert c s : Finset ℕ)
  (List.range inp.nDofs).forM fun i => Prog.put (V := Val) (.mat i) (0 : Multiset Contr)
  Prog.put (V := Val) (.elemKeys .double) (∅ : Finset ℕ)
  Prog.put (V := Val) (.elemKeys .single) (∅ : Finset ℕ)

/-- `quadPoints.at(cell)` and the like (bem_fma.cc:890-914, 1880-1890): the map is read. -/
def atQuad : P Unit := do
  let _ ← Prog.get (V := Val) .quadKeys
  pure ()

/-- `quadPoints[cell]` and the like (bem_fma.cc:1229-1251): `std::map::operator[]` inserts a missing key. -/
def lookupQuad (c : ℕ) : P Unit := do
  let s : Finset ℕ ← Prog.get (V := Val) .quadKeys
  if c ∈ s then pure () else Prog.put (V := Val) .quadKeys (insert c s : Finset ℕ)

/-- `f_worker_direct_childless_non_int_list` (bem_fma.cc:735-1020): accesses, then the copy data of `workerLeaf`. -/
def tWorkerLeaf (b : ℕ) (buf : DBuf) : P DBuf := do
  (T.blocks b).nodes.forM fun i =>
    if own i then (directCells inp T (intList inp T b (numSub inp T b - 1))).forM fun _ => atQuad else pure ()
  pure (workerLeaf inp T own b (fun _ => 0) buf)

/-- `f_worker_direct_bigger_blocks` (bem_fma.cc:1114-1267). -/
def tWorkerBig (level b : ℕ) (buf : DBuf) : P DBuf := do
  (T.blocks b).nodes.forM fun i =>
    if own i then (directCells inp T (bigSet inp T (T.startLevel level) b)).forM fun c => lookupQuad c else pure ()
  pure (workerBig inp T own level b (fun _ => 0) buf)

/-- `f_copier_direct` (bem_fma.cc:1026-1092): same loops as `copierDirect`; `add` reads and writes the row. -/
def tCopierDirect (buf : DBuf) : P Unit :=
  (List.range buf.nodeIndex.length).forM fun ii =>
    let fooStart := buf.startHelper.getD ii 0
    let fooEnd := if ii < buf.nodeIndex.length - 1 then buf.startHelper.getD (ii + 1) 0 else buf.rows.length
    (List.range' fooStart (fooEnd - fooStart)).forM fun kk => do
      let v : Multiset Contr ← Prog.get (V := Val) (.mat (buf.nodeIndex.getD ii 0))
      Prog.put (V := Val) (.mat (buf.nodeIndex.getD ii 0)) (v + (buf.rows.getD kk (0, [])).2 : Multiset Contr)

/-- `MultipoleData` (bem_fma.cc:1785-1816): for each kernel a map from blocks to the expansions of their cells, as a list of
keys and values. -/
abbrev MBuf := Ker → List (ℕ × (ℕ → ℕ → Exp))

/-- Value of a key. -/
def look (l : List (ℕ × (ℕ → ℕ → Exp))) (b : ℕ) : Option (ℕ → ℕ → Exp) := (l.find? fun x => decide (x.1 = b)).map Prod.snd

/-- Value of a key replaced. -/
def store (l : List (ℕ × (ℕ → ℕ → Exp))) (b : ℕ) (v : ℕ → ℕ → Exp) : List (ℕ × (ℕ → ℕ → Exp)) :=
  (b, v) :: l.filter fun x => decide (x.1 ≠ b)

/-- `f_worker_multipole_integral` (bem_fma.cc:1820-1887): the map of the copy data object is changed, only the quadrature data
are shared. -/
def tWorkerMoments (b : ℕ) (buf : MBuf) : P MBuf :=
  (blockCells inp T b).foldlM (fun buf c => do
    atQuad
    pure fun k => store (buf k) b (Function.update ((look (buf k) b).getD fun _ _ => Exp.new D.p (ctr T b)) c
      (nCellMoment inp D k T b c))) buf

/-- `std::map::insert(begin, end)` into a shared map (bem_fma.cc:1890-1897). -/
def insertAll (k : Ker) (l : List (ℕ × (ℕ → ℕ → Exp))) : P Unit :=
  l.forM fun x => do
    let s : Finset ℕ ← Prog.get (V := Val) (.elemKeys k)
    if x.1 ∈ s then pure ()
    else do
      Prog.put (V := Val) (.elemKeys k) (insert x.1 s : Finset ℕ)
      Prog.put (V := Val) (.elem k x.1) (x.2 : ℕ → ℕ → Exp)

/-- `f_copier_multipole_integral` (bem_fma.cc:1890-1897). -/
def tCopierMoments (buf : MBuf) : P Unit := do
  insertAll .double (buf .double)
  insertAll .single (buf .single)

/-- What is done once for a mesh: `direct_integrals` (bem_fma.cc:691-1310), `multipole_integrals` (bem_fma.cc:1752-1936). -/
def setupPhases : List (Phase Val) :=
  [.seq (initial inp), .stream (tWorkerLeaf inp T own) tCopierDirect DBuf.empty T.childless] ++
    (List.range' 1 inp.levels).map (fun l =>
      .stream (tWorkerBig inp T own l) tCopierDirect DBuf.empty (T.dofsFilled l)) ++
    [.stream (tWorkerMoments inp D T) tCopierMoments (fun _ => []) T.childless]

/-! ## Product -/

/-- `f_creation_tbb` on one block (bem_fma.cc:2168-2182). -/
def tCreate (b : ℕ) : P Unit := do
  putNew (.mul .double b) D.p (ctr T b)
  putNew (.mul .single b) D.p (ctr T b)

/-- `elemMultipoleExpansionsKer1/2[blockId]` (bem_fma.cc:2267-2274): `std::map::operator[]` inserts a missing key. -/
def lookupElem (k : Ker) (b : ℕ) : P (ℕ → ℕ → Exp) := do
  let s : Finset ℕ ← Prog.get (V := Val) (.elemKeys k)
  if b ∈ s then Prog.get (V := Val) (.elem k b)
  else do
    Prog.put (V := Val) (.elemKeys k) (insert b s : Finset ℕ)
    Prog.put (V := Val) (.elem k b) (fun _ _ => Exp.new 0 0 : ℕ → ℕ → Exp)
    pure fun _ _ => Exp.new 0 0

variable (vals : Ker → ℕ → ℝ)

/-- The addition to the block expansion of kernel `k` of the expansion of local dof `j` of cell `c` (bem_fma.cc:2266-2274);
`vals .double` is `phi_values`, `vals .single` is `dphi_dn_values`. -/
def tLeafAdd (b c j : ℕ) (k : Ker) : P Unit := do
  let v ← lookupElem k b
  addScaledTo (.mul k b) (v c j) (vals k ((inp.cellDofs c).getD j 0))

/-- `f_childless_creation_tbb` on one childless block (bem_fma.cc:2225-2280). -/
def tLeaf (b : ℕ) : P Unit :=
  (blockCells inp T b).forM fun c => (List.range (inp.cellDofs c).length).forM fun j => do
    tLeafAdd inp vals b c j .single
    tLeafAdd inp vals b c j .double

/-- `AscendCopyData` (bem_fma.cc:2398-2437). -/
structure TABuf where
  parentId : ℕ
  expn : Ker → Exp

/-- `f_worker_ascend` (bem_fma.cc:2440-2482). -/
def tWorkerAscend (b : ℕ) (_ : TABuf) : P TABuf := do
  let parent := (T.blocks b).parent
  let h1 : ℕ × V3 ← Prog.get (V := Val) (.head (.mul .double parent))
  let h2 : ℕ × V3 ← Prog.get (V := Val) (.head (.mul .single parent))
  let e1 ← readExp (.mul .double b)
  let e2 ← readExp (.mul .single b)
  pure ⟨parent, fun | .double => mAddChild codeTable (Exp.new D.p h1.2) e1 | .single => mAddChild codeTable (Exp.new D.p h2.2) e2⟩

/-- `f_copier_ascend` (bem_fma.cc:2486-2495). -/
def tCopierAscend (buf : TABuf) : P Unit := do
  addChildTo (.mul .double buf.parentId) (buf.expn .double)
  addChildTo (.mul .single buf.parentId) (buf.expn .single)

/-- `generate_multipole_expansions` (bem_fma.cc:2136-2557). -/
def ascendPhases : List (Phase Val) :=
  [.par (tCreate D T) (List.range T.count), .par (tLeaf inp T vals) T.childless] ++
    (List.range' 1 inp.levels).reverse.map fun l =>
      .stream (tWorkerAscend D T) tCopierAscend ⟨0, fun _ => Exp.new D.p 0⟩ (T.levelIds l)

/-- `prec_neumann_matrix.vmult`, `prec_dirichlet_matrix.vmult` (bem_fma.cc:2590-2591). One thread. -/
def tVmult : P Unit :=
  [Ker.double, Ker.single].forM fun k => (List.range inp.nDofs).forM fun i => do
    let v : Multiset Contr ← Prog.get (V := Val) (.mat i)
    Prog.put (V := Val) (.prod k i) ((v.map (val inp { D with sol := vals k } k i)).sum : ℝ)

/-- `f_local_creation_tbb` on one block (bem_fma.cc:2617-2633): the assignments of two `LocalExpansion`. -/
def tLocalCreate (b : ℕ) : P Unit := do
  selfAssign
  putNew (.loc .double b) D.p (ctr T b)
  selfAssign
  putNew (.loc .single b) D.p (ctr T b)

/-- `DescendCopyData` (bem_fma.cc:2688-2727). -/
structure TDescBuf where
  blockId : ℕ
  expn : Ker → Exp
  nodes : List ℕ
  contr : Ker → List ℝ

/-- `LocalExpansion::Add(multipole)` of a shared multipole expansion to a local expansion of the copy data
(local_expansion.cc:179-248): the static table is read. -/
def tAddMultipole (e : Exp) (o : EObj) : P Exp := do
  let m ← readExp o
  if m.isZero then pure e
  else do
    let _ ← Prog.get (V := Val) .tabP
    let _ ← Prog.get (V := Val) .tabPtr
    pure (lAddMultipole codeTable e m)

/-- The local part of the copy data while the worker runs: expansions and contributions to the nodes. -/
structure DLoc where
  expn : Ker → Exp
  contr : Ker → List ℝ

/-- One block of the same size (bem_fma.cc:2821-2830). -/
def tM2L (s : DLoc) (b : ℕ) : P DLoc := do
  let e1 ← tAddMultipole (s.expn .double) (.mul .double b)
  let e2 ← tAddMultipole (s.expn .single) (.mul .single b)
  pure { s with expn := fun | .double => e1 | .single => e2 }

/-- One smaller block (bem_fma.cc:2866-2890): the timer is started and stopped; the expansions are read once for all the
nodes. -/
def tM2P (nodes : List ℕ) (s : DLoc) (b : ℕ) : P DLoc := do
  Prog.put (V := Val) .timer ()
  let e1 ← readExp (.mul .double b)
  let e2 ← readExp (.mul .single b)
  Prog.put (V := Val) .timer ()
  let add (e : Exp) (c : List ℝ) : List ℝ := List.zipWith (fun i x => x + mEval codeTable e (toV (inp.pos i))) nodes c
  pure { s with contr := fun | .double => add e1 (s.contr .double) | .single => add e2 (s.contr .single) }

/-- `f_worker_Descend` (bem_fma.cc:2733-2914). -/
def tWorkerDescend (k : ℕ) (_ : TDescBuf) : P TDescBuf := do
  let nodes := (T.blocks k).nodes
  let h : ℕ × V3 ← Prog.get (V := Val) (.head (.loc .double k))
  let dummy := Exp.new D.p h.2
  selfAssign
  selfAssign
  let zero : DLoc := ⟨fun _ => dummy, fun _ => nodes.map fun _ => 0⟩
  if nodes.any own then do
    let p1 ← readExp (.loc .double (T.blocks k).parent)
    let p2 ← readExp (.loc .single (T.blocks k).parent)
    let s ← (List.range (numSub inp T k)).foldlM (fun s sub => do
        let s ← ((m2lSet inp T k sub).sort (· ≤ ·)).foldlM tM2L s
        ((m2pSet inp T k sub).sort (· ≤ ·)).foldlM (tM2P inp nodes) s)
      { zero with expn := fun | .double => lAddParent codeTable dummy p1 | .single => lAddParent codeTable dummy p2 }
    pure ⟨k, s.expn, nodes, s.contr⟩
  else pure ⟨k, zero.expn, nodes, zero.contr⟩

/-- `vector(i) += x`. -/
def addProd (k : Ker) (i : ℕ) (x : ℝ) : P Unit := do
  let v : ℝ ← Prog.get (V := Val) (.prod k i)
  Prog.put (V := Val) (.prod k i) (v + x : ℝ)

/-- `f_copier_Descend` (bem_fma.cc:2919-2933). -/
def tCopierDescend (buf : TDescBuf) : P Unit := do
  addParentTo (.loc .double buf.blockId) (buf.expn .double)
  addParentTo (.loc .single buf.blockId) (buf.expn .single)
  (buf.nodes.zip ((buf.contr .single).zip (buf.contr .double))).forM fun x => do
    addProd .single x.1 x.2.1
    addProd .double x.1 x.2.2

/-- Evaluation of the local expansion of kernel `k` of block `b` at node `i` (bem_fma.cc:3184-3187). -/
def tEvalAt (b i : ℕ) (k : Ker) : P Unit := do
  let e ← readExp (.loc k b)
  addProd k i (lEval codeTable e (toV (inp.pos i)))

/-- `f_local_evaluation_tbb` on one childless block (bem_fma.cc:3166-3192). -/
def tEval (b : ℕ) : P Unit :=
  (T.blocks b).nodes.forM fun i => if own i then do
      tEvalAt inp b i .single
      tEvalAt inp b i .double
    else pure ()

/-- `multipole_matr_vect_products` (bem_fma.cc:2571-3275). -/
def descendPhases : List (Phase Val) :=
  [.seq (tVmult inp D vals), .par (tLocalCreate D T) (List.range T.count)] ++
    (List.range' 1 inp.levels).map (fun l =>
      .stream (tWorkerDescend inp D T own) tCopierDescend ⟨0, fun _ => Exp.new D.p 0, [], fun _ => []⟩ (T.dofsFilled l)) ++
    [.par (tEval inp T own) T.childless]

/-- One product with the vectors `vals`. -/
def productPhases : List (Phase Val) := ascendPhases inp D T vals ++ descendPhases inp D T own vals

/-- The setup, then the products with the vectors of the list, one after the other. -/
def allPhases (vs : List (Ker → ℕ → ℝ)) : List (Phase Val) :=
  setupPhases inp D T own ++ vs.flatMap (productPhases inp D T own)

/-- The locations that threads access without synchronisation. -/
def unsync : Set Loc := {.tabP, .tabPtr, .timer}

end PiBem.Fmm
