import Verif.DepVC.Select

/-! # deptool code-review: going through the files

Model of src/deptool.in: kdiffDirs (2801-2911), getNextDiffFile (2966-2980), selectPrevDiffFile (2982-3006). The lines of the ordering file that are not blank are `order`; nobody edits it meanwhile. What is typed as part of a name is a predicate on names (the program uses it as a regular expression). The file in the first directory is made if there is none; `there` says whether the one in the last directory is there. What is shown by kdiff3 is the list `seen`. -/

namespace Verif.DepVC.Walk

open Verif.Deptool.Deps (Text)
open Verif.DepVC.Select (lt)

/-- Used in the model of `deptool.in:2966-2980` (`next`). -/
def startMark : Text := ['*', 's', 't', 'a', 'r', 't', '*']
/-- Used in the model of `deptool.in:2972-2979` (`after`). -/
def endMark : Text := ['*', 'e', 'n', 'd', '*']
/-- Used in the model of `deptool.in:2972-2979` (`after`). -/
def errorMark (cur : Text) : Text := "**ERROR: Unable to find file ".toList ++ cur

/-- The loop of `getNextDiffFile`, lines 2972-2979. -/
def after (cur : Text) : List Text → Text
  | [] => errorMark cur
  | x :: xs => if x = cur then (match xs with | [] => endMark | y :: _ => y) else after cur xs

/-- `getNextDiffFile`, lines 2966-2980. -/
def next (order : List Text) (cur : Text) : Text :=
  match order with
  | [] => endMark
  | x :: _ => if cur = startMark then x else after cur order

/-- The first of the sorted matches, lines 2993-2997. -/
def least : List Text → Option Text
  | [] => none
  | x :: xs =>
    match least xs with
    | none => some x
    | some m => if lt m x then some m else some x

/-- The loop at lines 2999-3004: the name before. -/
def before (target prev : Text) : List Text → Option Text
  | [] => none
  | x :: xs => if x = target then some prev else before target x xs

/-- `selectPrevDiffFile`, lines 2982-3006; `none`: the `die` at the end. -/
def selectPrev (order : List Text) (hit : Text → Bool) (cur : Text) : Option Text :=
  match least (order.filter hit) with
  | none => some cur
  | some m => before m startMark order

/-- Used in the model of `deptool.in:2813-2910` (`run`). -/
inductive Cmd where
  /-- return -/
  | ret
  | auto
  /-- `files` and `help` -/
  | info
  /-- part of a name -/
  | pick (hit : Text → Bool)
  | reviewed
  | finish
  | exit
  | ask

/-- Not a function of the code; stands for the uses of `deptool.in:2813-2910`. -/
structure St where
  cur : Text
  auto : Bool
  seen : List Text

/-- Not a function of the code; stands for the uses of `deptool.in:2813-2910`. -/
inductive End where
  /-- still waiting for a command -/
  | waiting
  /-- the question whether to mark the revisions -/
  | asked
  | marked
  | finished
  | exited
  | died
deriving DecidableEq

/-- Return, lines 2836-2864; `none`: the default is to ask. -/
def ret (order : List Text) (there : Text → Bool) (s : St) : Option St :=
  let n := next order s.cur
  if n = endMark then none
  else if there n then some { s with cur := n, seen := s.seen ++ [n] }
  else some { s with auto := false }

/-- `kdiffDirs`, lines 2813-2910; what is left of the commands is not read. -/
def run (order : List Text) (there : Text → Bool) : Nat → List Cmd → St → List Text × End
  | 0, _, s => (s.seen, .waiting)
  | f + 1, cs, s =>
    if s.auto then
      match ret order there s with
      | none => (s.seen, .asked)
      | some s' => run order there f cs s'
    else
      match cs with
      | [] => (s.seen, .waiting)
      | .ret :: cs =>
        match ret order there s with
        | none => (s.seen, .asked)
        | some s' => run order there f cs s'
      | .auto :: cs => run order there f cs { s with auto := true }
      | .info :: cs => run order there f cs s
      | .pick hit :: cs =>
        match selectPrev order hit s.cur with
        | none => (s.seen, .died)
        | some c => run order there f cs { s with cur := c }
      | .reviewed :: _ => (s.seen, .marked)
      | .finish :: _ => (s.seen, .finished)
      | .exit :: _ => (s.seen, .exited)
      | .ask :: _ => (s.seen, .asked)

/-- Not a function of the code; stands for the uses of `deptool.in:2813-2980`. -/
def start : St := { cur := startMark, auto := false, seen := [] }

end Verif.DepVC.Walk
