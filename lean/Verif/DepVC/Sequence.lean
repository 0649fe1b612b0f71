import Verif.DepVC.Walk
import Verif.DepVC.Marks

/-! # deptool code-review: what is reviewed, and in which order

Model of src/deptool.in: codeReview (2686-2718), codeReviewSequence and codeReviewPatch (2720-2760, 3020-3071), makeDiffOrder (2763-2799), getChanged (2931-2964), getDiffOrder (3007-3018), findFilesPrefix (3073-3081). A directory is the list of what `find` finds in it, without the directory itself; links are files. `checkout` is what git has for a revision, `patch from to` what the patch between two revisions makes of a directory, with the repairs by hand. Names of branches, and merges (which do not get here: C196), are left out. -/

namespace Verif.DepVC.Sequence

open Verif.Deptool.Deps (Text cutLast word isWord)
open Verif.DepVC.Select (lt)
open Verif.DepVC.Marks (lines isSpace isHex)

/-- Used in the model of `deptool.in:2941-2954` (`check`). -/
inductive Node where
  | dir
  | file (content : Text)
deriving DecidableEq

/-- Used in the model of `deptool.in:2941-2954` (`check`). -/
abbrev Tree := List (Text × Node)

/-- Used in the model of `deptool.in:2941-2954` (`check`). -/
def look (t : Tree) (p : Text) : Option Node := (t.find? fun e => decide (e.1 = p)).map (·.2)

/-- Used in the model of `deptool.in:2953` (`leftOver`). -/
def sufOrig : Text := ['.', 'o', 'r', 'i', 'g']
/-- Used in the model of `deptool.in:2953` (`leftOver`). -/
def sufRej : Text := ['.', 'r', 'e', 'j']
/-- Used in the model of `deptool.in:2962` (`helper`). -/
def sufEdit : Text := ['-', 'c', 'r', '-', 'e', 'd', 'i', 't', '-', 'm', 'e']
/-- Used in the model of `deptool.in:2962` (`helper`). -/
def sufVersion : Text := ['-', 'c', 'r', '-', 'v', 'e', 'r', 's', 'i', 'o', 'n', '-']

/-- `/\.orig$/o || /\.rej$/o`, line 2953. -/
def leftOver (p : Text) : Bool := sufOrig.isSuffixOf p || sufRej.isSuffixOf p

/-- `/((-cr-version-[a-f0-9]+)|(-cr-edit-me))$/`, line 2962. -/
def helper (p : Text) : Bool :=
  let r := p.reverse
  sufEdit.isSuffixOf p || ((r.takeWhile isHex ≠ []) && sufVersion.reverse.isPrefixOf (r.dropWhile isHex))

/-- Lines 2941-2954, for one name; `none` is `die "? $_"`. -/
def check (start : Tree) (e : Text × Node) : Option Bool :=
  match look start e.1, e.2 with
  | some .dir, .dir => some false
  | some .dir, .file _ => none
  | some (.file _), .dir => none
  | some (.file a), .file b => some (decide (a ≠ b))
  | none, .dir => some false
  | none, .file _ => some (!leftOver e.1)

/-- Lines 2940-2955. -/
def changedIn (start : Tree) : Tree → Option (List Text)
  | [] => some []
  | e :: es =>
    match check start e, changedIn start es with
    | some b, some l => some (if b then e.1 :: l else l)
    | _, _ => none

/-- `getChanged`, lines 2931-2964. -/
def getChanged (start last : Tree) : Option (List Text) :=
  (changedIn start last).map fun l => l.filter fun p => !helper p

/-- `^(.+/)?([^/]+?)`, line 2776: the directory with its slash, and the rest. -/
def dirName (p : Text) : Text × Text :=
  match cutLast '/' p with
  | some (d, n) => (d ++ ['/'], n)
  | none => ([], p)

/-- `([^/]+?)(?:\.(\w+))?$`, line 2776: name and suffix. -/
def stem (n : Text) : Text × Text :=
  match cutLast '.' n with
  | some (a, s) => if a ≠ [] ∧ word s = true then (a, s) else (n, [])
  | none => (n, [])

/-- Used in the model of `deptool.in:2780` (`hasTests`). -/
def slashTests : Text := ['/', 't', 'e', 's', 't', 's']

/-- `m!/tests\b!`, line 2780. -/
def hasTests : Text → Bool
  | [] => false
  | c :: cs => (slashTests.isPrefixOf (c :: cs) && !(((c :: cs).drop 6).head?.any isWord)) || hasTests cs

/-- Used in the model of `deptool.in:2788` (`key`). -/
def bit (b : Bool) : Char := if b then '0' else '1'

/-- Used in the model of `deptool.in:2788` (`key`). -/
def isTest (p : Text) : Bool := hasTests (dirName p).1
/-- Used in the model of `deptool.in:2788` (`key`). -/
def isHeader (p : Text) : Bool := decide ((stem (dirName p).2).2 = ['h', 'p', 'p'])
/-- Used in the model of `deptool.in:2788` (`key`). -/
def nameOf (p : Text) : Text := (stem (dirName p).2).1
/-- Used in the model of `deptool.in:2788` (`key`). -/
def isCMake (p : Text) : Bool := ['C', 'M', 'a', 'k', 'e'].isPrefixOf (nameOf p)

/-- Line 2788. -/
def key (p : Text) : Text := bit (isCMake p) :: '-' :: bit (isTest p) :: '-' :: (nameOf p ++ ['-', bit (isHeader p)])

/-- perl's sort, which keeps the order of what compares equal. Used in the model of `deptool.in:2790-2794` (`sortBy`). -/
def ins {α : Type} (k : α → Text) (x : α) : List α → List α
  | [] => [x]
  | y :: ys => if lt (k y) (k x) then y :: ins k x ys else x :: y :: ys

/-- Used in the model of `deptool.in:2790-2794` (`orderText`). -/
def sortBy {α : Type} (k : α → Text) : List α → List α
  | [] => []
  | x :: xs => ins k x (sortBy k xs)

/-- Lines 2790-2794: the text of the ordering file. -/
def orderText (changed : List Text) : Text :=
  match sortBy key changed with
  | [] => ['\n']
  | xs => xs.flatMap fun p => p ++ ['\n']

/-- `/^\s*$/` Used in the model of `deptool.in:3007-3018` (`getDiffOrder`). -/
def blank (t : Text) : Bool := t.all isSpace

/-- `getDiffOrder`, lines 3007-3018. -/
def getDiffOrder (text : Text) : List Text := (lines text).filter fun l => !blank l

/-- Used in the model of `deptool.in:2737-2747` (`patches`). -/
structure Rv where
  id : Text
  parent : Text
  date : Text
deriving DecidableEq

/-- Not a function of the code; stands for the uses of `deptool.in:2695-2760`. -/
structure World where
  checkout : Text → Tree
  patch : (src dst : Text) → Tree → Tree

/-- Lines 2737-2747: the directories that are made, the last one first. -/
def patches (w : World) : List Rv → List (Text × Tree) → Tree → List (Text × Tree) × Tree
  | [], dirs, t => (dirs, t)
  | r :: rs, dirs, t => let t' := w.patch r.parent r.id t; patches w rs ((r.id, t') :: dirs) t'

/-- `/tmp/code-review-user`. Used in the model of `deptool.in:2720-2760` (`build`). -/
structure Base where
  dirs : List (Text × Tree)
  order : Text

/-- Used in the model of `deptool.in:2700-2701` (`resume`). -/
def dirOf (b : Base) (id : Text) : Option Tree := (b.dirs.find? fun e => decide (e.1 = id)).map (·.2)

/-- What kdiffDirs gets to show. Used in the model of `deptool.in:2720-2760` (`build`). -/
structure Shown where
  start : Tree
  last : Tree
  order : List Text

/-- Lines 2720-2760, with `/tmp/diff-order-….txt` (lines 2766-2772) in `reference`. -/
def build (w : World) (reference : Option Text) (r : Rv) (rs : List Rv) : Option (Base × Shown) :=
  let t0 := w.checkout r.parent
  let (dirs, t) := patches w (r :: rs) [(r.parent, t0)] t0
  match reference with
  | some text => some ({ dirs := dirs, order := text }, { start := t0, last := t, order := getDiffOrder text })
  | none => (getChanged t0 t).map fun c => ({ dirs := dirs, order := orderText c }, { start := t0, last := t, order := getDiffOrder (orderText c) })

/-- Used in the model of `deptool.in:2695-2718` (`review`). -/
def lastId (r : Rv) (rs : List Rv) : Text := ((r :: rs).getLast (by simp)).id

/-- Whether an earlier review is continued, lines 2700-2701. -/
def resume (old : Option Base) (first last : Text) : Option (Base × Shown) :=
  match old with
  | none => none
  | some b =>
    match dirOf b first, dirOf b last with
    | some s, some l => some (b, { start := s, last := l, order := getDiffOrder b.order })
    | _, _ => none

/-- `codeReview`, lines 2695-2718; `keys` are the revisions in the order in which perl's hash has them. -/
def review (w : World) (reference : Option Text) (old : Option Base) (keys : List Rv) : Option (Base × Shown) :=
  match sortBy Rv.date keys with
  | [] => none
  | r :: rs =>
    match resume old r.parent (lastId r rs) with
    | some x => some x
    | none => build w reference r rs

end Verif.DepVC.Sequence
