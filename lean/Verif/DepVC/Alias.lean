/-! # deptool: names of directories

Model of `aliasChdir` and `aliasGetCwd` (src/deptool.in:4122-4137) and of the start of the program (lines 439-441). The program remembers by which name it entered a directory, so that symbolic links in the names it was given are kept.

A directory is a value of a type `D`, an absolute name one of a type `A`, a relative name one of a type `R`. -/

namespace Verif.DepVC.Alias

/-- The name of a directory. -/
inductive Name (A R : Type) where
  | abs (a : A)
  | rel (r : R)
deriving DecidableEq, Repr

/-- Where names lead, and the name of a directory without links, as `getcwd` gives it. -/
structure Tree (D A R : Type) where
  absTo : A → Option D
  relTo : D → R → Option D
  phys : D → A

/-- `chdir`: where a name leads from a directory. -/
def Tree.goes {D A R : Type} (t : Tree D A R) (d : D) : Name A R → Option D
  | .abs a => t.absTo a
  | .rel r => t.relTo d r

/-- The current directory and `%Cache::alias_cd`. -/
structure St (D A R : Type) where
  cwd : D
  alias : List (A × Name A R)
deriving Repr

variable {D A R : Type} [DecidableEq A]

/-- Access to the hash. -/
def known (s : St D A R) (a : A) : Option (Name A R) := (s.alias.find? fun e => e.1 = a).map (·.2)

/-- `aliasChdir` (lines 4122-4130); `none` if it dies (line 4125). -/
def aliasChdir (t : Tree D A R) (s : St D A R) (n : Name A R) : Option (St D A R) :=
  match t.goes s.cwd n with
  | none => none
  | some d =>
    match known s (t.phys d) with
    | some _ => some { s with cwd := d }
    | none => some { cwd := d, alias := (t.phys d, n) :: s.alias }

/-- `aliasGetCwd` (lines 4132-4137). -/
def aliasGetCwd (t : Tree D A R) (s : St D A R) : Name A R :=
  match known s (t.phys s.cwd) with
  | some n => n
  | none => .abs (t.phys s.cwd)

/-- The start (lines 439-441): the environment may have the variable PWD. -/
def startIn (t : Tree D A R) (d : D) (pwd : Option (Name A R)) : Option (St D A R) :=
  match pwd with
  | none => some ⟨d, []⟩
  | some n => aliasChdir t ⟨d, []⟩ n

/-- What the program does with directories: enters one by `aliasChdir`, or by a plain `chdir`, which may fail without the program ending. -/
inductive Op (A R : Type) where
  | enter (n : Name A R)
  | plain (n : Name A R)

def step (t : Tree D A R) (s : St D A R) : Op A R → Option (St D A R)
  | .enter n => aliasChdir t s n
  | .plain n => some { s with cwd := (t.goes s.cwd n).getD s.cwd }

def run (t : Tree D A R) (s : St D A R) : List (Op A R) → Option (St D A R)
  | [] => some s
  | o :: os =>
    match step t s o with
    | none => none
    | some s' => run t s' os

end Verif.DepVC.Alias
