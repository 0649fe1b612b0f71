import Verif.DepVC.Ctest

/-! # deptool with monotone: the reviews of a revision

Model of src/deptool.in: getReviews (4671-4685). The output of `mtn list certs` is a list of lines without their newlines; `none` means that the program dies. -/

namespace Verif.DepVC.Reviews

open Verif.Deptool.Deps (Text)
open Verif.DepVC.Ctest (isSpace strip)

/-- `/^Word\s+: (.+)$/`, but for the value. Used in the model of `deptool.in:4678-4679` (`keyOf`, `isReview`). -/
def behind (word l : Text) : Option Text :=
  match strip word l with
  | some r => if r.takeWhile isSpace = [] then none else strip [':', ' '] (r.dropWhile isSpace)
  | none => none

/-- `/^Name\s+: review$/`, line 4678. -/
def isReview (l : Text) : Bool := behind ['N', 'a', 'm', 'e'] l == some ['r', 'e', 'v', 'i', 'e', 'w']

/-- `(.+)`. Used in the model of `deptool.in:4679-4681` (`keyOf`, `valueOf`). -/
def some1 (t : Text) : Option Text := if t = [] then none else some t

/-- `/^Key\s+: (.+)$/`, line 4679. -/
def keyOf (l : Text) : Option Text := (behind ['K', 'e', 'y'] l).bind some1

/-- `/^Value : (.+)$/`, line 4681. -/
def valueOf (l : Text) : Option Text := (strip ['V', 'a', 'l', 'u', 'e', ' ', ':', ' '] l).bind some1

/-- The loop, lines 4677-4683, with the two lines before the present one. -/
def go : Option Text → Option Text → List Text → Option (List (Text × Text))
  | _, _, [] => some []
  | p2, p1, l :: ls =>
    if isReview l then
      match p2.bind keyOf, ls.head?.bind valueOf with
      | some k, some v => (go p1 (some l) ls).map ((k, v) :: ·)
      | _, _ => none
    else go p1 (some l) ls

/-- `getReviews`, lines 4671-4685. Negative indices count from the end: the lines before the first are the last two. -/
def getReviews (ls : List Text) : Option (List (Text × Text)) := go ls.reverse[1]? ls.reverse[0]? ls

end Verif.DepVC.Reviews
