/-!
# deptool: names, build paths and the collection of dependencies (src/deptool.in)

Texts are lists of characters. Names contain no newline, and the directories that appear in regular expressions (line 3349 and following) contain no special characters. `getVCDeps` is a function from projects to dependency lines; checking out a project that is missing (`depWalkTryCheckout`) is taken to work. `\w` is taken as ASCII.
-/

namespace Verif.Deptool.Deps

/-- Used in the model of `deptool.in:1121` (`stripDir`). -/
abbrev Text := List Char

/-- `\w`. Used in the model of `deptool.in:1118-1127` (`word`). -/
def isWord (c : Char) : Bool := c.isAlphanum || c == '_'

/-- A text that `\w+` matches. Used in the model of `deptool.in:1118-1127` (`splitType`). -/
def word (t : Text) : Bool := !t.isEmpty && t.all isWord

/-- Cut at the last occurrence of a character: what is before and after it. Used in the model of `deptool.in:1118-1127` (`splitType`). -/
def cutLast (c : Char) : Text → Option (Text × Text)
  | [] => none
  | x :: xs =>
    match cutLast c xs with
    | some (a, b) => some (x :: a, b)
    | none => if x = c then some ([], xs) else none

/-- Line 1121: without everything up to the first slash. -/
def stripDir (t : Text) : Text := if '/' ∈ t then (t.dropWhile (· ≠ '/')).drop 1 else t

/-- `/^(.+);(\w+)$/` and `([^/]+?)(?:-(\w+))?` against a whole component: `\w` does not match the separator, so it is its last occurrence. Used in the model of `deptool.in:1118-1127` (`parseDependency`). -/
def splitType (c : Char) (t : Text) : Text × Text :=
  match cutLast c t with
  | some (a, b) => if !a.isEmpty && word b then (a, b) else (t, [])
  | none => (t, [])

/-- `parseDependency`, lines 1118-1127. -/
def parseDependency (t : Text) : Text × Text := splitType ';' (stripDir t)

/-- `projectBuildPath`, lines 1225-1232. -/
def projectBuildPath (dir project type : Text) : Text := dir ++ '/' :: (project ++ if type = [] then [] else '-' :: type)

/-- One of the directories of `%dependencies`. Used in the model of `deptool.in:1684-1709` (`collect`). -/
structure Info where
  path : Text
  src : Text
  deps : List Text
deriving DecidableEq, Repr

/-- The loop of lines 1684-1709 (without `local_only`). -/
def collect (dir : Text) (vcdeps : Text → List Text) : Nat → List (Text × Text) → List Info → Option (List Info)
  | _, [], table => some table
  | 0, _ :: _, _ => none
  | fuel + 1, (src, type) :: queue, table =>
    if table.any fun i => decide (i.path = projectBuildPath dir src type) then collect dir vcdeps fuel queue table
    else
      collect dir vcdeps fuel (queue ++ (vcdeps src).map parseDependency)
        ({ path := projectBuildPath dir src type, src := src, deps := (vcdeps src).map fun d => projectBuildPath dir (parseDependency d).1 (parseDependency d).2 } :: table)

/-- `$dir =~ m!^$base/([^/]+)(/.+)?$!`: the component after the base and the rest. Used in the model of `deptool.in:3343-3359` (`divideDir`). -/
def under (base dir : Text) : Option (Text × Text) :=
  if (base ++ ['/']).isPrefixOf dir then
    let r := dir.drop (base.length + 1)
    let comp := r.takeWhile (· ≠ '/')
    let sub := r.dropWhile (· ≠ '/')
    if comp = [] ∨ sub = ['/'] then none else some (comp, sub)
  else none

/-- `divideDir`, lines 3343-3359: the project, what is below it and the type; `none`: exit(1). -/
def divideDir (projects opt debug dir : Text) : Option (Text × Text × Text) :=
  match under projects dir with
  | some (p, s) => some (p, s, [])
  | none =>
    match under opt dir with
    | some (c, s) => some ((splitType '-' c).1, s, (splitType '-' c).2)
    | none =>
      match under debug dir with
      | some (c, s) => some ((splitType '-' c).1, s, (splitType '-' c).2)
      | none => none

/-! ## depWalk -/

/-- Not a function of the code; stands for the uses of `deptool.in:3387-3426`. -/
inductive Ev (α : Type) where
  | pre (x : α)
  | post (x : α)
deriving DecidableEq, Repr

/-- Used in the model of `deptool.in:3387-3426` (`walk`). -/
structure Walk (α : Type) where
  visited : List α
  log : List (Ev α)

/-- `depWalkRecurse`, lines 3387-3426, for the projects of a list one after the other; a project is its directory, or its directory and its build type (lines 3390-3398). The log has the newest event first. -/
def walk {α : Type} [DecidableEq α] (deps : α → List α) : Nat → List α → Walk α → Option (Walk α)
  | _, [], w => some w
  | 0, _ :: _, _ => none
  | fuel + 1, x :: xs, w =>
    if x ∈ w.visited then walk deps fuel xs w
    else
      match walk deps fuel (deps x) { visited := x :: w.visited, log := .pre x :: w.log } with
      | none => none
      | some w' => walk deps fuel xs { w' with log := .post x :: w'.log }

/-- `depWalk`, lines 3366-3371. -/
def depWalk {α : Type} [DecidableEq α] (deps : α → List α) (fuel : Nat) (root : α) : Option (Walk α) := walk deps fuel [root] { visited := [], log := [] }

end Verif.Deptool.Deps
