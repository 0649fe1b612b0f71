import Verif.StrId.Model

/-! # What a string numbering does: the strings seen so far, in order of first appearance; ids count from one -/

namespace Verif.StrId

variable {S : Type} [DecidableEq S]

def note (seen : List S) (s : S) : List S := if s ∈ seen then seen else seen ++ [s]

/-- The strings seen after some operations. -/
def seenAfter (seen : List S) : List (Op S) → List S
  | [] => seen
  | .getId s :: ops => seenAfter (note seen s) ops
  | _ :: ops => seenAfter seen ops

/-- The answers, `none` where the program must stop: asking for the string of an id that was never given. -/
def answers (seen : List S) : List (Op S) → Option (List (Out S))
  | [] => some []
  | .getId s :: ops => (answers (note seen s) ops).map ((Out.id ((note seen s).idxOf s + 1)) :: ·)
  | .getString i :: ops =>
    match i with
    | 0 => none
    | i + 1 => match seen[i]? with
      | none => none
      | some s => (answers seen ops).map (Out.str s :: ·)
  | .maxId :: ops => (answers seen ops).map (Out.id (seen.length + 1) :: ·)

end Verif.StrId
