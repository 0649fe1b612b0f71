import Verif.Res

/-!
# Model of `iteratorRangeEqual` (`/repo/include/Lintel/STLUtility.hpp`)

A container is the list of its elements, an iterator a position in it. Reading at the end or beyond, and stepping beyond the
end, are undefined. The two containers may hold different types; `*first1 != *first2` is any decidable relation `ne`.
-/

namespace Verif.Stl

variable {α β : Type}

/-- `*it` Used in the model of `STLUtility.hpp:24-28` (`body`). -/
def deref (l : List α) (i : Nat) : Res α := match l[i]? with
  | some x => .ok x
  | none => .ub

/-- `++it` Used in the model of `STLUtility.hpp:24-28` (`body`). -/
def next (l : List α) (i : Nat) : Res Nat := if i < l.length then .ok (i + 1) else .ub

/-- The body of the loop after both tests, `STLUtility.hpp:24-28`; `none` is `return false`. -/
def body (ne : α → β → Bool) (l1 : List α) (l2 : List β) (first1 first2 : Nat) : Res (Option (Nat × Nat)) := do
  let a ← deref l1 first1
  let b ← deref l2 first2
  if ne a b then pure none else do
    let i ← next l1 first1
    let j ← next l2 first2
    pure (some (i, j))

/-- `iteratorRangeEqual`, `STLUtility.hpp:17-31`. The fuel bounds the number of turns of the loop; running out is `ub`. -/
def loop (ne : α → β → Bool) (l1 : List α) (last1 : Nat) (l2 : List β) (last2 : Nat) : Nat → Nat → Nat → Res Bool
  | 0, _, _ => .ub
  | fuel + 1, first1, first2 =>
    if first1 = last1 then pure (decide (first2 = last2))
    else if first2 = last2 then pure false
    else do
      let r ← body ne l1 l2 first1 first2
      match r with
      | none => pure false
      | some (i, j) => loop ne l1 last1 l2 last2 fuel i j

/-- Made of the parts of `STLUtility.hpp:17-31`. -/
def iteratorRangeEqual (ne : α → β → Bool) (l1 : List α) (first1 last1 : Nat) (l2 : List β) (first2 last2 : Nat) : Res Bool :=
  loop ne l1 last1 l2 last2 (l1.length + 1) first1 first2

end Verif.Stl
