import Verif.Opt.Model

/-! # What a program sees of its options, independently of how they are registered -/

namespace Verif.Opt.Spec
open Verif Verif.Str

variable {α : Type}

/-- The long name: what stands before the first comma. -/
def Long (name long : Str) : Prop := (44 : Byte) ∉ long ∧ (name = long ∨ ∃ rest, name = long ++ 44 :: rest)

/-- The value an item list gives to a name. -/
def valueOf (n : Str) : List (Item α) → Option α
  | [] => none
  | .opt k v :: is => if k = n then some v else valueOf n is
  | .other _ :: is => valueOf n is

/-- The value an object has been given by what was done since it was constructed, latest last: `set`, and the parses that returned and name it. -/
def given (long : Str) (i : Nat) : List (Op α × Bool) → Option α → Option α
  | [], a => a
  | (.set j v, _) :: l, a => given long i l (if j = i then some v else a)
  | (.parse is _, true) :: l, a => given long i l ((valueOf long is).or a)
  | (.config is, true) :: l, a => given long i l ((valueOf long is).or a)
  | _ :: l, a => given long i l a

/-- Number of options constructed, counting the help option. -/
def constructed (ops : List (Op α)) : Nat := 1 + ops.countP fun o => match o with | .construct _ _ _ => true | _ => false

/-- How often a name occurs among the items. -/
def occurs (n : Str) : List (Item α) → Nat
  | [] => 0
  | .opt k _ :: is => (if k = n then 1 else 0) + occurs n is
  | .other _ :: is => occurs n is

/-- What stands before the first comma, as a function. -/
def beforeComma : Str → Str
  | [] => []
  | c :: n => if c = 44 then [] else c :: beforeComma n

/-- The long names of the shown, or of the hidden, options a program constructs. -/
def namesOf (hid : Bool) : List (Op α) → List Str
  | [] => []
  | .construct n h _ :: ops => if h = hid then beforeComma n :: namesOf hid ops else namesOf hid ops
  | _ :: ops => namesOf hid ops

/-- A list of items the options with these names cannot be given: a name some option has that occurs twice, or that two shown options have, or that two hidden
options have and no shown one. -/
def Clash (vis hid : List Str) (items : List (Item α)) : Prop := ∃ n, occurs n items ≠ 0 ∧ (n ∈ vis ∨ n ∈ hid) ∧
  (2 ≤ occurs n items ∨ 2 ≤ vis.count n ∨ (n ∉ vis ∧ 2 ≤ hid.count n))

/-- Items that are not options with these names, in their order. -/
def unknown (names : List Str) : List (Item α) → List (Item α)
  | [] => []
  | .opt k v :: is => if k ∈ names then unknown names is else .opt k v :: unknown names is
  | .other t :: is => .other t :: unknown names is

end Verif.Opt.Spec
