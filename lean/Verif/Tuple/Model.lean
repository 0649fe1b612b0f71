import Verif.HashFn.Model

/-!
# Model of the tuple extensions (`/repo/include/Lintel/Tuples.hpp`)

A tuple (nested `cons` cells ending in `null_type`) is the list of its fields. All fields are of one type here: a tuple of
different types is a list over their disjoint union. `==`, `<` and `lintel::hash` of the field types are parameters. The
`std::bitset` of a `BitsetAnyTuple` is a list of booleans.
-/

namespace Verif.Tuple

open Verif.HashFn

/-- The operations of the field types. Made of the parts of `Tuples.hpp:188-293`. -/
structure Field (α : Type) where
  eq : α → α → Bool
  lt : α → α → Bool
  hash : α → W

variable {α : Type} (f : Field α)

/-- `boost::tuples::hash`, `Tuples.hpp:35-51`. -/
def tupleHash : List α → W
  | [] => 0
  | [x] => f.hash x
  | x :: y :: rest => mix3 (f.hash x) (f.hash y) (tupleHash rest)

/-- `operator==` of boost tuples: field by field. Made of the parts of `Tuples.hpp:188-245`. -/
def tupleEq : List α → List α → Bool
  | [], [] => true
  | x :: xs, y :: ys => f.eq x y && tupleEq xs ys
  | _, _ => false

/-- `operator<` of boost tuples: lexicographic. Made of the parts of `Tuples.hpp:197-249`. -/
def tupleLt : List α → List α → Bool
  | x :: xs, y :: ys => f.lt x y || (!f.lt y x && tupleLt xs ys)
  | _, _ => false

/-- The hash standing for "any". Used in the model of `Tuples.hpp:87-107` (`bitsetAnyHash`). -/
def anyHash : W := 0x8bc74d0b

/-- `any[pos]` Used in the model of `Tuples.hpp:87-107` (`bitsetAnyHash`). -/
def bit (any : List Bool) (pos : Nat) : Bool := any.getD pos false

/-- `bitset_any_hash`, `Tuples.hpp:87-107`. -/
def bitsetAnyHash (any : List Bool) : Nat → List α → W
  | _, [] => 0
  | pos, [x] => if bit any pos then anyHash else f.hash x
  | pos, x :: y :: rest =>
    mix3 (if bit any pos then anyHash else f.hash x) (if bit any (pos + 1) then anyHash else f.hash y)
      (bitsetAnyHash any (pos + 2) rest)

/-- `bitset_any_equal`, `Tuples.hpp:116-130`. Tuples of different lengths have different types in C++ and cannot be compared. -/
def bitsetAnyEqual (any : List Bool) : Nat → List α → List α → Bool
  | _, [], [] => true
  | pos, x :: xs, y :: ys => if bit any pos || f.eq x y then bitsetAnyEqual any (pos + 1) xs ys else false
  | _, _, _ => false

/-- `bitset_any_strict_less_than`, `Tuples.hpp:132-158`. -/
def bitsetAnyLess (l r : List Bool) : Nat → List α → List α → Bool
  | pos, x :: xs, y :: ys =>
    if !bit l pos && !bit r pos then
      if f.lt x y then true
      else if f.lt y x then false
      else bitsetAnyLess l r (pos + 1) xs ys
    else if !bit l pos && bit r pos then true
    else if bit l pos && !bit r pos then false
    else bitsetAnyLess l r (pos + 1) xs ys
  | _, _, _ => false

/-- `BitsetAnyTuple`, `Tuples.hpp:229-238`. -/
structure AnyTuple (α : Type) where
  data : List α
  any : List Bool
deriving DecidableEq

/-- `BitsetAnyTuple::operator==`, `Tuples.hpp:240-245`. -/
def AnyTuple.eq (a b : AnyTuple α) : Bool := if a.any != b.any then false else bitsetAnyEqual f a.any 0 a.data b.data

/-- `BitsetAnyTuple::operator<`, `Tuples.hpp:246-249`. -/
def AnyTuple.lt (a b : AnyTuple α) : Bool := bitsetAnyLess f a.any b.any 0 a.data b.data

/-- `hashType(const BitsetAnyTuple &)`, `Tuples.hpp:290-293`. -/
def AnyTuple.hash (a : AnyTuple α) : W := bitsetAnyHash f a.any 0 a.data

/-- `AnyPair`, `Tuples.hpp:181-186`. -/
structure AnyPair (α : Type) where
  any : Bool
  val : α

/-- `AnyPair::operator==`, `Tuples.hpp:188-196`. -/
def AnyPair.eq (a b : AnyPair α) : Bool := if a.any != b.any then false else if a.any then true else f.eq a.val b.val

/-- `AnyPair::operator<`, `Tuples.hpp:197-208`; the `FATAL_ERROR` cannot be reached. -/
def AnyPair.lt (a b : AnyPair α) : Bool :=
  if a.any && b.any then false
  else if a.any && !b.any then false
  else if !a.any && b.any then true
  else f.lt a.val b.val

/-- `hashType(const AnyPair &)`, `Tuples.hpp:280-288`. -/
def AnyPair.hash (a : AnyPair α) : W := if a.any then anyHash else f.hash a.val

/-- The fields of a tuple of `AnyPair`s. Made of the parts of `Tuples.hpp:181-293`. -/
def anyField : Field (AnyPair α) := ⟨AnyPair.eq f, AnyPair.lt f, AnyPair.hash f⟩

/-- `assign`, `Tuples.hpp:267-278`. -/
def assign : List (AnyPair α) → List α → List (AnyPair α)
  | _ :: to, x :: from' => ⟨false, x⟩ :: assign to from'
  | to, _ => to

end Verif.Tuple
