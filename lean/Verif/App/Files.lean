import Verif.App.Driver
import Mathlib.Logic.Relation
import Mathlib.Data.List.Basic

/-!
# Files written by a run

Which files `Driver::run` (driver.cc:82-127) opens and writes, in which order and on which processes, with the
operations of output streams: opening truncates, what is put into the stream reaches the file in pieces at any time,
what is still in the buffer is written when the stream is flushed or closed, always at the position of the stream
that writes. The processes run concurrently on the same file system. A crash (a signal, the end of the allotted time,
an exception) is a state in which no further step is taken.
-/

namespace PiBem.App.Files

open PiBem.App

/-- Content of a file. -/
abbrev Bytes := List UInt8

/-- The file system. `none`: the file does not exist. -/
abbrev FS := String → Option Bytes

/-- Operations on streams, one stream for each path (no two streams of one process are open on the same path). -/
inductive Ev
  /-- `std::ofstream f(path)`: create or truncate -/
  | open (path : String)
  /-- `f << data` -/
  | put (path : String) (data : Bytes)
  /-- `f.flush()`, at the end of the writers of deal.II (`write_vtu`, `write_ucd`) -/
  | flush (path : String)
  /-- destructor of the stream -/
  | close (path : String)
  deriving DecidableEq

/-- `write(2)` of `data` at position `off`: positions never written before `off` become 0. -/
def pwrite (f : Bytes) (off : ℕ) (data : Bytes) : Bytes :=
  (f ++ List.replicate (off - f.length) 0).take off ++ data ++ f.drop (off + data.length)

/-- State of a process: what is left to execute, and for every path the position of its stream and the part put in the
stream that has not reached the file. -/
structure Proc where
  rest : List Ev
  off : String → ℕ
  buf : String → Bytes

/-- The next operation of a process. -/
def exec (fs : FS) (s : Proc) : Ev → List Ev → FS × Proc
  | .open p, r =>
      (Function.update fs p (some []), ⟨r, Function.update s.off p 0, Function.update s.buf p []⟩)
  | .put p d, r => (fs, ⟨r, s.off, Function.update s.buf p (s.buf p ++ d)⟩)
  | .flush p, r =>
      (Function.update fs p (some (pwrite ((fs p).getD []) (s.off p) (s.buf p))),
        ⟨r, Function.update s.off p (s.off p + (s.buf p).length), Function.update s.buf p []⟩)
  | .close p, r =>
      (Function.update fs p (some (pwrite ((fs p).getD []) (s.off p) (s.buf p))),
        ⟨r, Function.update s.off p (s.off p + (s.buf p).length), Function.update s.buf p []⟩)

/-- The first `k` bytes of the buffer of the stream on `p` reach the file. -/
def spill (fs : FS) (s : Proc) (p : String) (k : ℕ) : FS × Proc :=
  (Function.update fs p (some (pwrite ((fs p).getD []) (s.off p) ((s.buf p).take k))),
    ⟨s.rest, Function.update s.off p (s.off p + ((s.buf p).take k).length),
      Function.update s.buf p ((s.buf p).drop k)⟩)

/-- State of the `P` processes and of the file system they share. -/
structure Sys (P : ℕ) where
  fs : FS
  proc : Fin P → Proc

/-- One step of one process: its next operation, or part of a buffer reaching the file. -/
inductive Step {P : ℕ} : Sys P → Sys P → Prop
  | exec (S : Sys P) (i : Fin P) (e : Ev) (r : List Ev) (h : (S.proc i).rest = e :: r) :
      Step S ⟨(exec S.fs (S.proc i) e r).1, Function.update S.proc i (exec S.fs (S.proc i) e r).2⟩
  | spill (S : Sys P) (i : Fin P) (p : String) (k : ℕ) (h : (S.proc i).buf p ≠ []) :
      Step S ⟨(spill S.fs (S.proc i) p k).1, Function.update S.proc i (spill S.fs (S.proc i) p k).2⟩

/-- Start of the run: no stream is open. -/
def start {P : ℕ} (fs : FS) (prog : Fin P → List Ev) : Sys P :=
  ⟨fs, fun i => ⟨prog i, fun _ => 0, fun _ => []⟩⟩

/-- States a run can be in, with any scheduling of the processes and of the buffers. -/
def Reachable {P : ℕ} (fs : FS) (prog : Fin P → List Ev) (S : Sys P) : Prop :=
  Relation.ReflTransGen Step (start fs prog) S

/-- All processes have executed their program. -/
def Done {P : ℕ} (S : Sys P) : Prop := ∀ i, (S.proc i).rest = []

/-! ## The programs -/

/-- What determines the contents: operations on the mesh, and the bytes written for a mesh. The results are those of the
problem solved on that mesh, equal on all processes (C95). Simplification: one function of the mesh for each file. -/
structure Contents (Mesh : Type) where
  /-- `tria.refine_global` with the loops before it -/
  refine : ℕ → Mesh → Mesh
  /-- `make_edges_conformal` -/
  conformal : Mesh → Mesh
  /-- `adaptive_refinement` -/
  adapt : Mesh → Mesh
  /-- `GridOut::write_ucd` -/
  ucd : Mesh → Bytes
  /-- `DataOut::write_vtu` of the partition -/
  vtu : Mesh → Bytes
  scalarError : Mesh → Bytes
  vectorError : Mesh → Bytes
  scalarResults : Mesh → Bytes
  vectorResults : Mesh → Bytes

def meshInp : String := "meshResult.inp"
def meshVtu : String := "mesh.vtu"
def vectorErrorVtu : String := "vector_error.vtu"
def scalarErrorVtu : String := "scalar_error.vtu"
/-- `filename + "_scalar_results" + ".vtu"` (boundary_conditions.cc:567). -/
def scalarVtu (name : String) : String := name ++ "_scalar_results" ++ ".vtu"
/-- `filename + "_vector_results" + ".vtu"` (boundary_conditions.cc:568). -/
def vectorVtu (name : String) : String := name ++ "_vector_results" ++ ".vtu"

variable {Mesh : Type}

/-- `refine_and_resize`: one stream, on every process (computational_domain.cc:546-550, 882-886). -/
def refineEvs (K : Contents Mesh) (M : Mesh) : List Ev :=
  [.open meshInp, .put meshInp (K.ucd M), .flush meshInp, .close meshInp]

/-- `update_triangulation`: two streams, on every process, both destroyed at the end of the function, the second one
first (computational_domain.cc:940-963). -/
def updateEvs (K : Contents Mesh) (M : Mesh) : List Ev :=
  [.open meshInp, .put meshInp (K.ucd M), .flush meshInp,
   .open meshVtu, .put meshVtu (K.vtu M), .flush meshVtu, .close meshVtu, .close meshInp]

/-- `compute_errors`: two streams on process 0, destroyed at the end in reverse order
(boundary_conditions.cc:499-541). -/
def errorEvs (K : Contents Mesh) (M : Mesh) : List Ev :=
  [.open vectorErrorVtu, .put vectorErrorVtu (K.vectorError M), .flush vectorErrorVtu,
   .open scalarErrorVtu, .put scalarErrorVtu (K.scalarError M), .flush scalarErrorVtu,
   .close scalarErrorVtu, .close vectorErrorVtu]

/-- `output_results`: two streams on process 0, destroyed at the end in reverse order
(boundary_conditions.cc:607-619). -/
def outputEvs (K : Contents Mesh) (name : String) (M : Mesh) : List Ev :=
  [.open (scalarVtu name), .put (scalarVtu name) (K.scalarResults M), .flush (scalarVtu name),
   .open (vectorVtu name), .put (vectorVtu name) (K.vectorResults M), .flush (vectorVtu name),
   .close (vectorVtu name), .close (scalarVtu name)]

/-- One step of `Driver::run` on process `me`: the mesh afterwards and the stream operations. -/
def eventEvs (K : Contents Mesh) (name : String) (me : ℕ) (M : Mesh) : Event → Mesh × List Ev
  | .readDomain => (M, [])
  | .refine l => (K.refine l M, refineEvs K (K.refine l M))
  | .updateTriangulation => (K.conformal M, updateEvs K (K.conformal M))
  | .reinit => (M, [])
  | .solve => (M, [])
  | .adaptiveRefinement => (K.adapt M, [])
  | .computeErrors => (M, if me = 0 then errorEvs K M else [])
  | .output => (M, if me = 0 then outputEvs K name M else [])

/-- Stream operations of a list of steps. -/
def programEvs (K : Contents Mesh) (name : String) (me : ℕ) : Mesh → List Event → List Ev
  | _, [] => []
  | M, e :: es => (eventEvs K name me M e).2 ++ programEvs K name me (eventEvs K name me M e).1 es

/-- Stream operations of process `me` in `Driver::run` (driver.cc:82-127). -/
def program (K : Contents Mesh) (name : String) (M : Mesh) (g : Bool) (nCycles pre : ℕ) (me : ℕ) : List Ev :=
  programEvs K name me M (run g nCycles pre)

/-! ## Specification -/

/-- The mesh of the last solve of a run. -/
def lastMesh (K : Contents Mesh) (M : Mesh) (g : Bool) (nCycles pre : ℕ) : Mesh :=
  if g then K.conformal (K.refine nCycles M)
  else (fun M => K.conformal (K.adapt M))^[nCycles] (K.conformal (K.refine pre M))

/-- The meshes written by a run. -/
inductive RunMesh (K : Contents Mesh) (M : Mesh) (g : Bool) (nCycles pre : ℕ) : Mesh → Prop
  | refined : RunMesh K M g nCycles pre (K.refine (if g then nCycles else pre) M)
  | cycle (k : ℕ) (h : k ≤ if g then 0 else nCycles) : RunMesh K M g nCycles pre
      ((fun M => K.conformal (K.adapt M))^[k] (K.conformal (K.refine (if g then nCycles else pre) M)))

end PiBem.App.Files
