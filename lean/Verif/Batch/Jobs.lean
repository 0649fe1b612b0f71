/-!
# Model of `BatchParallel::jobsfile`

`/repo/src/BatchParallel/jobsfile.pm:54-162`. Lines are lists of characters without their line ends (line 85; in a line ending in carriage return and newline it removes the carriage return only; such files are not modelled). `\w` is letters of ASCII, digits and `_`. The hash of definitions is walked in an order given as an argument.
-/

namespace Verif.Batch.Jobs

/-- Used in the model of `jobsfile.pm:87` (`substVar`). -/
abbrev Text := List Char

/-- Used in the model of `jobsfile.pm:76-80` (`parseDefine`). -/
def isWord (c : Char) : Bool := c.isAlphanum || c == '_'

/-- Used in the model of `jobsfile.pm:76-80` (`parseDefine`). -/
def isSpace (c : Char) : Bool := c == ' ' || c == '\t' || c == '\r' || c == '\x0c' || c == '\n'

/-- A text as its words (maximal runs of word characters, possibly none) and the characters between them. Used in the model of `jobsfile.pm:87` (`substVar`). -/
def parts : Text → Text × List (Char × Text)
  | [] => ([], [])
  | c :: t =>
    let r := parts t
    if isWord c then (c :: r.1, r.2) else ([], (c, r.1) :: r.2)

/-- Used in the model of `jobsfile.pm:87` (`substVar`). -/
def unparts (p : Text × List (Char × Text)) : Text := p.1 ++ p.2.flatMap fun x => x.1 :: x.2

/-- `s/\b$var\b/$val/g`, line 87: since a variable is made of word characters, it is found exactly where it is a whole word. What was put in is not looked at again. -/
def substVar (var val : Text) (t : Text) : Text :=
  let f := fun w => if w = var then val else w
  let p := parts t
  unparts (f p.1, p.2.map fun x => (x.1, f x.2))

/-- Used in the model of `jobsfile.pm:86-88` (`substAll`). -/
abbrev Defs := List (Text × Text)

/-- Lines 86-88, for the order in which `each` gives the definitions. -/
def substAll (order : Defs) (t : Text) : Text := order.foldl (fun t d => substVar d.1 d.2 t) t

/-- `$define_subs{$var} = $repl`, line 81. -/
def define (defs : Defs) (var val : Text) : Defs := if defs.any (·.1 = var) then defs.map fun d => if d.1 = var then (var, val) else d else defs ++ [(var, val)]

/-- `/^#define\s+(\w+)\s+(.+)$/`, lines 76-80. -/
def parseDefine (t : Text) : Option (Text × Text) :=
  let r := t.drop 7
  let r1 := r.dropWhile isSpace
  let var := r1.takeWhile isWord
  let r2 := r1.dropWhile isWord
  let val := r2.dropWhile isSpace
  if r1.length < r.length ∧ var ≠ [] ∧ val.length < r2.length then
    if val ≠ [] then some (var, val)
    else if 2 ≤ r2.length then some (var, r2.drop (r2.length - 1)) else none
  else none

/-- Lines 74-90: the numbered commands, or `none` for a bad definition. `walk` is the order in which the hash is walked. -/
def read (walk : Defs → Defs) : List Text → Nat → Defs → Option (List (Nat × Text))
  | [], _, _ => some []
  | l :: ls, n, defs =>
    if "#define".toList.isPrefixOf l then
      match parseDefine l with
      | none => none
      | some (var, val) => read walk ls (n + 1) (define defs var val)
    else if "#".toList.isPrefixOf l then read walk ls (n + 1) defs
    else (read walk ls (n + 1) defs).map ((n + 1, substAll (walk defs) l) :: ·)

/-- Lines 100-102. -/
def digitsLoop (max : Nat) : Nat → Nat → Nat
  | 0, d => d
  | fuel + 1, d => if 10 ^ d - 1 < max then digitsLoop max fuel (d + 1) else d

/-- Lines 93-102. The loop ends after at most `max` rounds. -/
def digits (maxjobs : Option Nat) (lines : Nat) : Nat :=
  match maxjobs with
  | some m => digitsLoop m m 1
  | none => digitsLoop lines lines 3

/-- Decimal digits, most significant first. Used in the model of `jobsfile.pm:103` (`name`). -/
def dec (n : Nat) : List Nat := if _h : n < 10 then [n] else dec (n / 10) ++ [n % 10]

/-- `sprintf("%0${digits}d", $linenum)`, lines 103 and 110. -/
def name (d n : Nat) : List Nat := List.replicate (d - (dec n).length) 0 ++ dec n

/-- Lines 105-114: the jobs to run; `have_` tells which output files exist. -/
def jobs (maxjobs : Option Nat) (have_ : List Nat → Bool) (lines : Nat) (possibles : List (Nat × Text)) : List (List Nat × Text) :=
  (possibles.filter fun x => !have_ (name (digits maxjobs lines) x.1)).map fun x => (name (digits maxjobs lines) x.1, x.2)

/-! ## One job, run by any number of processes -/

variable {C : Type}

/-- Used in the model of `jobsfile.pm:128-162` (`Run`). -/
inductive Phase (C : Type) where
  | idle
  | running
  | ended (c : C)
  | renaming (c : C)
  | done
deriving DecidableEq

/-- Used in the model of `jobsfile.pm:128-162` (`step`). -/
structure Run (C : Type) where
  out : Option C := none
  phase : Nat → Phase C := fun _ => .idle
  log : List (Nat × Bool × C) := []

/-- Not a function of the code; stands for the uses of `jobsfile.pm:128-162`. -/
inductive Move (C : Type) where
  | check (i : Nat)
  | exit (i : Nat) (ok : Bool) (c : C)
  | look (i : Nat)
  | rename (i : Nat)

/-- Used in the model of `jobsfile.pm:128-162` (`step`). -/
def set (f : Nat → Phase C) (i : Nat) (p : Phase C) : Nat → Phase C := fun j => if j = i then p else f j

/-- `rebuild_thing_do`, lines 128-162: `check` is line 133, `exit` the end of `system`, `look` line 150, `rename` line 153. The temporary file is the process's own (its name has the host and the process id). Processes may be killed: they then make no more moves. -/
def step (s : Run C) : Move C → Run C
  | .check i => match s.phase i with
    | .idle => { s with phase := set s.phase i (if s.out.isSome then .done else .running) }
    | _ => s
  | .exit i ok c => match s.phase i with
    | .running => { s with phase := set s.phase i (if ok then .ended c else .done), log := (i, ok, c) :: s.log }
    | _ => s
  | .look i => match s.phase i with
    | .ended c => { s with phase := set s.phase i (if s.out.isSome then .done else .renaming c) }
    | _ => s
  | .rename i => match s.phase i with
    | .renaming c => { s with phase := set s.phase i .done, out := some c }
    | _ => s

/-- Not a function of the code; stands for the uses of `jobsfile.pm:128-162`. -/
def run (s : Run C) (ms : List (Move C)) : Run C := ms.foldl step s

end Verif.Batch.Jobs
