import Verif.PQ.Model

/-! # Specification of a priority queue: a multiset that yields a most important element -/

namespace Verif.PQ

variable {α : Type}

/-- `le a b`: `a` is at most as important as `b`. The comparator may answer either way on ties: both
`std::less_equal` and `std::less` style comparators qualify. -/
structure Importance (li : α → α → Bool) (le : α → α → Prop) : Prop where
  total : ∀ a b, le a b ∨ le b a
  trans : ∀ a b c, le a b → le b c → le a c
  yes : ∀ a b, li a b = true → le a b
  no : ∀ a b, li a b = false → le b a

/-- `x` is a most important element of `x :: rest`. -/
def Best (le : α → α → Prop) (x : α) (rest : List α) : Prop := ∀ y ∈ rest, le y x

def PQStep (le : α → α → Prop) (s : List α) : Op α → Out α → List α → Prop
  | .push v, o, s' => o = .unit ∧ s'.Perm (v :: s)
  | .pop, o, s' => ∃ x, o = .val x ∧ s.Perm (x :: s') ∧ Best le x s'
  | .popBU, o, s' => ∃ x, o = .val x ∧ s.Perm (x :: s') ∧ Best le x s'
  | .replaceTop v, o, s' => ∃ x r, o = .val x ∧ s.Perm (x :: r) ∧ Best le x r ∧ s'.Perm (v :: r)
  | .top, o, s' => s' = s ∧ ∃ x r, o = .val x ∧ s.Perm (x :: r) ∧ Best le x r
  | .size, o, s' => o = .nat s.length ∧ s' = s
  | .clear, o, s' => o = .unit ∧ s' = []
  | .reserve _, o, s' => s = [] ∧ o = .unit ∧ s' = s

def PQAborts (s : List α) : Op α → Prop
  | .reserve _ => s ≠ []
  | _ => False

/-- Calls the interface does not allow: `top`, `pop`, `replaceTop` on an empty queue, `push` on a queue
of `2^31` elements. -/
def PQMisuse (s : List α) : Op α → Prop
  | .pop | .popBU | .top | .replaceTop _ => s = []
  | .push _ => 2147483648 ≤ s.length
  | _ => False

def PQRun (le : α → α → Prop) : List α → List (Op α) → Res (List (Out α)) → Prop
  | _, [], r => r = .ok []
  | s, op :: ops, r =>
    PQMisuse s op ∨ (PQAborts s op ∧ r = .abort) ∨
    ∃ o s' r', PQStep le s op o s' ∧ PQRun le s' ops r' ∧ r = r'.map (o :: ·)

end Verif.PQ
