/-!
# deptool: finding newer sources (src/deptool.in, dbpFindOld)

A source tree is the list of its files with their modification times. Names are relative to the source directory; the directory's own name is taken to contain no character that is special in a regular expression (lines 1138 and 1139 put it into one).
-/

namespace Verif.Deptool.Old

/-- Used in the model of `deptool.in:1138-1139` (`ignored`). -/
abbrev Name := List Char

/-- Made of the parts of `deptool.in:1138-1139`. -/
inductive Edit where
  | write (f : Name) (t : Nat)
  | remove (f : Name) (t : Nat)
deriving DecidableEq, Repr

/-- Made of the parts of `deptool.in:1138-1139`. -/
def Edit.time : Edit → Nat
  | .write _ t | .remove _ t => t

/-- What an edit does to the tree. Made of the parts of `deptool.in:1138-1139`. -/
def apply (tree : List (Name × Nat)) : Edit → List (Name × Nat)
  | .write f t => (f, t) :: tree.filter fun x => x.1 ≠ f
  | .remove f _ => tree.filter fun x => x.1 ≠ f

/-- The tree after these edits. Made of the parts of `deptool.in:1138-1139`. -/
def after (tree : List (Name × Nat)) (es : List Edit) : List (Name × Nat) := es.foldl apply tree

/-- Lines 1138-1139: what is left out. -/
def ignored (f : Name) : Bool := ['_', 'M', 'T', 'N'].isPrefixOf f || ['.', 'g', 'i', 't'].isPrefixOf f

/-- `dbpFindOld`, lines 1129-1146: whether there is a file newer than the stamp. -/
def findOld (tree : List (Name × Nat)) (stamp : Nat) : Bool := tree.any fun x => !ignored x.1 && decide (stamp < x.2)

end Verif.Deptool.Old
