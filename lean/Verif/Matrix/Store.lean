import Verif.Res

/-! # Matrix: the storage

Model of the members of `Matrix` that keep the numbers: include/Lintel/Matrix.hpp:26-68 and src/Matrix.cpp:17-53. Numbers are of any type `α` with a zero and the NaN; nothing is computed. `unsigned int` has 32 bits. `debug`: whether `DEBUG_SINVARIANT` checks, that is whether LINTEL_DEBUG is set. Memory is a table of the blocks made by `new double[]`; a block that was not made or was deleted is `none`. Allocation is taken to succeed. -/

namespace Verif.Matrix.Store

/-- Used in the model of `Matrix.cpp:28-35` (`alloc`). -/
structure Nums (α : Type) where
  zero : α
  isNan : α → Bool

/-- A `Matrix`, Matrix.hpp:66-67. -/
structure Obj where
  data : Nat
  nrows : Nat
  ncols : Nat
deriving DecidableEq

/-- Not a function of the code; stands for the uses of `Matrix.hpp:29-67`. -/
structure State (α : Type) where
  heap : Nat → Option (List α)
  /-- the next block -/
  next : Nat
  /-- the matrices there are -/
  objs : Nat → Option Obj

/-- Not a function of the code; stands for the uses of `Matrix.hpp:29-67`. -/
def start {α : Type} : State α := ⟨fun _ => none, 0, fun _ => none⟩

/-- `unsigned int`. Used in the model of `Matrix.cpp:28-35` (`alloc`). -/
def u32 (n : Nat) : Nat := n % 2 ^ 32

/-- Used in the model of `Matrix.cpp:28-35` (`alloc`). -/
def put {β : Type} (f : Nat → β) (k : Nat) (v : β) : Nat → β := fun j => if j = k then v else f j

/-- `new double[rows * cols]` and `setConstant(0.0)`, Matrix.cpp:28-35 and 50-53: the whole block is filled. -/
def alloc {α : Type} (N : Nums α) (s : State α) (r c : Nat) : State α × Obj :=
  ({ s with heap := put s.heap s.next (some (List.replicate (u32 (r * c)) N.zero)), next := s.next + 1 }, ⟨s.next, r, c⟩)

/-- Where an element is, Matrix.hpp:34 and 45. -/
def index (o : Obj) (i j : Nat) : Nat := u32 (u32 (i * o.ncols) + j)

/-- `get`, Matrix.hpp:40-47. -/
def get {α : Type} (debug : Bool) (s : State α) (o : Obj) (i j : Nat) : Res α :=
  if debug = true ∧ ¬ (i < o.nrows ∧ j < o.ncols) then .abort
  else
    match s.heap o.data with
    | none => .ub
    | some l =>
      match l[index o i j]? with
      | some v => .ok v
      | none => .ub

/-- `set`, Matrix.hpp:29-36. -/
def set {α : Type} (debug : Bool) (s : State α) (o : Obj) (i j : Nat) (v : α) : Res (State α) :=
  if debug = true ∧ ¬ (i < o.nrows ∧ j < o.ncols) then .abort
  else
    match s.heap o.data with
    | none => .ub
    | some l => if index o i j < l.length then .ok { s with heap := put s.heap o.data (some (l.set (index o i j) v)) } else .ub

/-- The loop of `setRow`, Matrix.cpp:43-46, with the check of line 46: `n` columns are left, the next is `j`. An argument that was not given is undefined. -/
def setRow {α : Type} (N : Nums α) (debug : Bool) (s : State α) (o : Obj) (i : Nat) : Nat → Nat → List α → Res (State α)
  | 0, _, args =>
    if debug then
      match args with
      | [] => .ub
      | v :: _ => if N.isNan v then .ok s else .abort
    else .ok s
  | _ + 1, _, [] => .ub
  | n + 1, j, v :: args =>
    match set debug s o i j v with
    | .ok s' => setRow N debug s' o i n (j + 1) args
    | .abort => .abort
    | .ub => .ub

/-- Not a function of the code; stands for the uses of `Matrix.hpp:29-47`. -/
inductive Op (α : Type) where
  | make (m r c : Nat)
  | resize (m r c : Nat)
  | set (m i j : Nat) (v : α)
  | get (m i j : Nat)
  /-- the arguments with the NaN at their end -/
  | setRow (m i : Nat) (args : List α)
  /-- the copy constructor that the compiler makes -/
  | copy (m m' : Nat)
  | destroy (m : Nat)

/-- One call; what `get` returned is added to the end. Calls for matrices that are not there, and making one that is there, are not C++ and leave everything as it is. Not a function of the code; stands for the uses of `Matrix.cpp:28-46`. -/
def step {α : Type} (N : Nums α) (debug : Bool) (s : State α) (out : List α) : Op α → Res (State α × List α)
  | .make m r c =>
    match s.objs m with
    | some _ => .ok (s, out)
    | none => .ok ({ (alloc N s r c).1 with objs := put s.objs m (some (alloc N s r c).2) }, out)
  | .resize m r c =>
    match s.objs m with
    | none => .ok (s, out)
    | some _ => .ok ({ (alloc N s r c).1 with objs := put s.objs m (some (alloc N s r c).2) }, out)
  | .set m i j v =>
    match s.objs m with
    | none => .ok (s, out)
    | some o =>
      match set debug s o i j v with
      | .ok s' => .ok (s', out)
      | .abort => .abort
      | .ub => .ub
  | .get m i j =>
    match s.objs m with
    | none => .ok (s, out)
    | some o =>
      match get debug s o i j with
      | .ok v => .ok (s, out ++ [v])
      | .abort => .abort
      | .ub => .ub
  | .setRow m i args =>
    match s.objs m with
    | none => .ok (s, out)
    | some o =>
      match setRow N debug s o i o.ncols 0 args with
      | .ok s' => .ok (s', out)
      | .abort => .abort
      | .ub => .ub
  | .copy m m' =>
    match s.objs m, s.objs m' with
    | some o, none => .ok ({ s with objs := put s.objs m' (some o) }, out)
    | _, _ => .ok (s, out)
  | .destroy m =>
    match s.objs m with
    | none => .ok (s, out)
    | some o =>
      match s.heap o.data with
      | none => .ub
      | some _ => .ok ({ s with heap := put s.heap o.data none, objs := put s.objs m none }, out)

/-- Not a function of the code; stands for the uses of `Matrix.cpp:28-46`. -/
def run {α : Type} (N : Nums α) (debug : Bool) : State α → List α → List (Op α) → Res (State α × List α)
  | s, out, [] => .ok (s, out)
  | s, out, o :: os =>
    match step N debug s out o with
    | .ok (s', out') => run N debug s' out' os
    | .abort => .abort
    | .ub => .ub

end Verif.Matrix.Store
