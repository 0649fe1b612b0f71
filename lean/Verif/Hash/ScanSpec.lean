import Verif.Hash.ScanModel

/-! # What is said about incremental scans -/

namespace Verif.Hash

variable {α : Type}

/-- How often a complete walk would show a value. -/
def copies [DecidableEq α] (t : Table α) (v : α) : Nat :=
  match walk t with
  | .ok l => l.count v
  | _ => 0

/-- How many calls a scan makes on the table. -/
def callCount : List (SStep α) → Nat
  | [] => 0
  | .visit :: xs => callCount xs
  | .pause ops :: xs => ops.length + callCount xs

/-- The client pauses only where `atStartOfChain()`. -/
def PausesAtStart (c : Cfg α) : Scan α → List (SStep α) → Prop
  | _, [] => True
  | s, x :: xs => (∀ ops, x = .pause ops → atStartOfChain s.t s.it = .ok true) ∧
      ∀ s1, sStep c s x = .ok s1 → PausesAtStart c s1 xs

/-- The calls of all pauses. -/
def callTotal : List (List (TOp α)) → Nat
  | [] => 0
  | ops :: rest => ops.length + callTotal rest

/-- A call that neither adds nor stops the program, and leaves the chains where they are. -/
def Removes : TOp α → Prop
  | .lookup _ | .size | .walk | .remove _ false => True
  | _ => False

end Verif.Hash
