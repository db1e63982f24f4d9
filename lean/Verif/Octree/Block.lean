import Mathlib.Data.Finset.Insert
import Mathlib.Data.Real.Basic
import Mathlib.Logic.Function.Basic

/-!
# The class `OctreeBlock` (source/octree_block.cc, include/octree_block.h)

Objects, their public operations, and copies. Accesses out of the bounds of the array of children and reads of children
never written are the outcome `undef`; failures of `std::vector::at` are the outcome `throws`.
-/

namespace PiBem.Block

/-- Outcome of an operation. -/
inductive Res (A : Type)
  | ok (a : A)
  | throws
  | undef

/-- Data members (octree_block.h:67-91). `P` points, `C` cell iterators. `children` is the array of 8 entries, `none` an
entry never written. -/
structure Obj (P C : Type) where
  level : ℕ
  parent : ℕ
  numChildren : ℕ
  children : ℕ → Option ℕ
  near : List (Finset ℕ)
  inter : List (Finset ℕ)
  nonInter : List (Finset ℕ)
  pMin : P
  delta : ℝ
  nodes : List ℕ
  quads : C → Option (List ℕ)

variable {P C : Type}

/-- Constructor with arguments (octree_block.cc:20-34). `resize(1)` gives one empty set. -/
def fresh (level parent : ℕ) (pMin : P) (delta : ℝ) : Obj P C :=
  ⟨level, parent, 0, fun _ => none, [∅], [∅], [∅], pMin, delta, [], fun _ => none⟩

/-- Modifying member functions (octree_block.cc:88-320). -/
inductive Op (C : Type)
  | addNode (n : ℕ)
  | addQuad (c : C) (q : ℕ)
  | delNodes
  | delQuads
  | addChild (c : ℕ)
  | addNear (sub b : ℕ)
  | addInt (sub b : ℕ)
  | addNonInt (sub b : ℕ)
  | setNear (n : ℕ)
  | setInt (n : ℕ)
  | setNonInt (n : ℕ)

/-- `vector::resize` on vectors of sets. -/
def resize (l : List (Finset ℕ)) (n : ℕ) : List (Finset ℕ) := l.take n ++ List.replicate (n - l.length) ∅

/-- `(v.at(sub)).insert(b)`. -/
def insertAt (l : List (Finset ℕ)) (sub b : ℕ) : Option (List (Finset ℕ)) :=
  match l[sub]? with
  | none => none
  | some s => some (l.set sub (insert b s))

open Classical in
/-- Effect of a member function. -/
noncomputable def step (b : Obj P C) : Op C → Res (Obj P C)
  | .addNode n => .ok { b with nodes := b.nodes ++ [n] }
  | .addQuad c q => .ok { b with quads := Function.update b.quads c (some ((b.quads c).getD [] ++ [q])) }
  | .delNodes => .ok { b with nodes := [] }
  | .delQuads => .ok { b with quads := fun _ => none }
  | .addChild c =>
    if b.numChildren < 8 then
      .ok { b with children := Function.update b.children b.numChildren (some c), numChildren := b.numChildren + 1 }
    else .undef
  | .addNear sub x => match insertAt b.near sub x with | some l => .ok { b with near := l } | none => .throws
  | .addInt sub x => match insertAt b.inter sub x with | some l => .ok { b with inter := l } | none => .throws
  | .addNonInt sub x => match insertAt b.nonInter sub x with | some l => .ok { b with nonInter := l } | none => .throws
  | .setNear n => .ok { b with near := resize b.near n }
  | .setInt n => .ok { b with inter := resize b.inter n }
  | .setNonInt n => .ok { b with nonInter := resize b.nonInter n }

/-- A sequence of calls. -/
noncomputable def run (b : Obj P C) : List (Op C) → Res (Obj P C)
  | [] => .ok b
  | o :: l => match step b o with | .ok b' => run b' l | .throws => .throws | .undef => .undef

/-- `GetChildId` (octree_block.cc:164-168): reading an entry out of the array or never written is undefined. -/
def getChildId (b : Obj P C) (i : ℕ) : Res ℕ :=
  if i < 8 then (match b.children i with | some c => .ok c | none => .undef) else .undef

/-- `vector::at` for reading. -/
def getAt (l : List (Finset ℕ)) (sub : ℕ) : Res (Finset ℕ) :=
  match l[sub]? with | some s => .ok s | none => .throws

/-- The loop copying the children (octree_block.cc:48-49, 81-82): `i` from `0` to `numChildren - 1`; an entry out of the
array is undefined behaviour. An entry never written is copied as such. -/
def copyChildren (dst src : ℕ → Option ℕ) : ℕ → Res (ℕ → Option ℕ)
  | 0 => .ok dst
  | n + 1 => match copyChildren dst src n with
    | .ok d => if n < 8 then .ok (Function.update d n (src n)) else .undef
    | .throws => .throws
    | .undef => .undef

/-- The loop copying the nodes into a different block (octree_block.cc:44-45, 77-78), for `i` from `0`. -/
def copyNodes (dst src : List ℕ) : List ℕ := src.foldl (fun d n => d ++ [n]) dst

/-- The assignments common to the copy constructor (octree_block.cc:38-54) and to `CopyContent` (octree_block.cc:69-87),
into a block `t` different from `s`. -/
def copyInto (t s : Obj P C) : Res (Obj P C) :=
  match copyChildren t.children s.children s.numChildren with
  | .ok ch => .ok { level := s.level, parent := s.parent, numChildren := s.numChildren, children := ch,
                    near := s.near, inter := s.inter, nonInter := s.nonInter, pMin := s.pMin, delta := s.delta,
                    nodes := copyNodes t.nodes s.nodes, quads := s.quads }
  | .throws => .throws
  | .undef => .undef

/-- The copy constructor: members are default initialised (empty containers, children not written) before the
assignments; numbers before assignment are irrelevant. -/
def copyCtor (s : Obj P C) : Res (Obj P C) :=
  copyInto { level := 0, parent := 0, numChildren := 0, children := fun _ => none, near := [], inter := [], nonInter := [],
             pMin := s.pMin, delta := 0, nodes := [], quads := fun _ => none } s

/-- The loop of `CopyContent` when `other == this` (octree_block.cc:77-78): the size is evaluated at every iteration on the
vector being extended. `iters` iterations; `none` if the loop has not ended. -/
def selfCopyNodes : ℕ → ℕ → List ℕ → Option (List ℕ)
  | iters, i, l => match l[i]? with
    | none => some l
    | some n => match iters with
      | 0 => none
      | k + 1 => selfCopyNodes k (i + 1) (l ++ [n])

end PiBem.Block
