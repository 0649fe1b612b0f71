import Verif.Deptool.Deps

/-! # fix-install: the NAME lines of the manual pages

Model of the perl program in dist/fix-install.sh:20, which goes through the lines of all pages of section 3 one after the other. Lines are without their newline; every line is taken to have one. -/

namespace Verif.Dist.ManName

open Verif.Deptool.Deps (Text)

/-- `/^.SH NAME/`, with any character in the place of the point. Used in the model of `fix-install.sh:20` (`fix`). -/
def heading : Text → Bool
  | _ :: 'S' :: 'H' :: ' ' :: 'N' :: 'A' :: 'M' :: 'E' :: _ => true
  | _ => false

/-- `^ \\-.+`. Used in the model of `fix-install.sh:20` (`cut`). -/
def dash : Text → Bool
  | ' ' :: '\\' :: '-' :: _ :: _ => true
  | _ => false

/-- The last place where `dash` holds. Used in the model of `fix-install.sh:20` (`fixLine`). -/
def cut : Text → Option (Text × Text)
  | [] => none
  | c :: t => match cut t with
    | some (l, r) => some (c :: l, r)
    | none => if dash (c :: t) then some ([], c :: t) else none

/-- `($left, $right) = /^(.+)( \\-.+)$/; $left =~ s/ //go; $_ = "$left$right\n"`, `fix-install.sh:20`: the first part is as long as can be and not empty, and both are undefined if there is no match. -/
def fixLine (t : Text) : Text :=
  match cut t with
  | some (c :: l, r) => (c :: l).filter (· != ' ') ++ r
  | _ => []

/-- The program, `fix-install.sh:20`; the flag is `$fix`. -/
def fix : Bool → List Text → List Text
  | _, [] => []
  | true, t :: ts => fixLine t :: fix (heading (fixLine t)) ts
  | false, t :: ts => t :: fix (heading t) ts

end Verif.Dist.ManName
