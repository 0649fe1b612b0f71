import Verif.Str.Model

/-!
# Model of program options (`/repo/src/ProgramOptions.cpp:16-132`, `199-240`, `/repo/include/Lintel/ProgramOptions.hpp:182-349`)

`boost::program_options` is modelled by what it gives: a command line or a configuration file is a list of items, each an option with its long name and value
or something else; short names and guessed abbreviations are taken to be replaced by the long name. In one pass the items whose name is registered once are
recognised; a name registered twice in one description (`ambiguous_option`), an item that occurs twice in one pass (`multiple_occurrences`) and, in a configuration file, any
item that is not recognised are exceptions, which are `abort` here. Values are already converted. An option object is known by its number. `save` of
`ProgramOption<bool>` stores `true`, which is the value of its item. Printing the usage is left out.
-/

namespace Verif.Opt
open Verif Verif.Str

variable {α : Type}

/-- A `ProgramOption`: its name as given to the constructor, whether it is hidden from the usage, its default and `saved`. Used in the model of `ProgramOptions.hpp:193-348` (`St`). -/
structure Entry (α : Type) where
  name : Str
  hidden : Bool
  dflt : α
  saved : Option α
  alive : Bool

/-- An item of a command line. Used in the model of `ProgramOptions.cpp:49-59` (`pass`). -/
inductive Item (α : Type) where
  | opt (name : Str) (v : α)
  | other (s : Str)
deriving DecidableEq, Repr

/-- Not a function of the code; stands for the uses of `ProgramOptions.hpp:193-348`. -/
structure St (α : Type) where
  /-- all objects constructed so far -/
  opts : List (Entry α)
  /-- `getInitFns()` -/
  pending : List Nat
  /-- `programOptionsActions()` -/
  actions : List (Str × Nat)
  /-- the long names in `programOptionsDesc(false)` and `(true)` -/
  visible : List Str
  hidden : List Str

/-- `substr(0, find(','))`, or all of it. Used in the model of `ProgramOptions.hpp:239-246` (`doInit`). -/
def longName (n : Str) : Str := n.takeWhile (· ≠ 44)

/-- The constructor, `ProgramOptions.hpp:193-237`: only registers `doInit` to be called. -/
def construct (s : St α) (name : Str) (hidden : Bool) (d : α) : St α :=
  { s with opts := s.opts ++ [⟨name, hidden, d, none, true⟩], pending := s.pending ++ [s.opts.length] }

/-- `po_help`, `ProgramOptions.cpp:16`, is number 0. -/
def helpName : Str := [104, 101, 108, 112, 44, 104]

/-- Not a function of the code; stands for the uses of `ProgramOptions.hpp:193-237`. -/
def init (d : α) : St α := construct ⟨[], [], [], [], []⟩ helpName false d

/-- `doInit`, `ProgramOptions.hpp:239-246`; undefined when the object is no more. -/
def doInit (s : St α) (i : Nat) : Res (St α) :=
  match s.opts[i]? with
  | none => .ub
  | some o =>
    if !o.alive then .ub
    else if o.hidden then .ok { s with hidden := s.hidden ++ [longName o.name], actions := s.actions ++ [(o.name, i)] }
    else .ok { s with visible := s.visible ++ [longName o.name], actions := s.actions ++ [(o.name, i)] }

/-- Used in the model of `ProgramOptions.cpp:99-105` (`runInits`). -/
def doInits (s : St α) : List Nat → Res (St α)
  | [] => .ok s
  | i :: is => do
    let s ← doInit s i
    doInits s is

/-- `runProgramOptionInitFns`, `ProgramOptions.cpp:99-105`. -/
def runInits (s : St α) : Res (St α) := do
  let s ← doInits s s.pending
  pure { s with pending := [] }

/-- `boost`'s parser and `store` for one description, `ProgramOptions.cpp:49-59`: adds to the map what is recognised, and gives the rest in order. -/
def pass (names : List Str) : List (Item α) → List (Str × α) → Res (List (Str × α) × List (Item α))
  | [], m => .ok (m, [])
  | .other t :: is, m => do
    let x ← pass names is m
    pure (x.1, .other t :: x.2)
  | .opt n v :: is, m =>
    if names.count n = 0 then do
      let x ← pass names is m
      pure (x.1, .opt n v :: x.2)
    else if names.count n ≠ 1 then .abort
    else if (m.lookup n).isSome then .abort
    else pass names is (m ++ [(n, v)])

/-- `save`, `ProgramOptions.hpp:248-252`; undefined when the object is no more. -/
def save (s : St α) (i : Nat) (v : Option α) : Res (St α) :=
  match s.opts[i]? with
  | none => .ub
  | some o =>
    if !o.alive then .ub
    else match v with
      | none => .ok s
      | some x => .ok { s with opts := s.opts.set i { o with saved := some x } }

/-- The loop of `processOptions`, `ProgramOptions.cpp:81-91`: how it ends and the state it leaves. -/
def process (m : List (Str × α)) : List (Str × Nat) → St α → Res Unit × St α
  | [], s => (.ok (), s)
  | (n, i) :: as, s =>
    if n.head? = some 44 then (.abort, s)
    else match save s i (m.lookup (longName n)) with
      | .ok s => process m as s
      | .abort => (.abort, s)
      | .ub => (.ub, s)

/-- How `parseCommandLine` ends. Not a function of the code; stands for the uses of `ProgramOptions.cpp:49-217`. -/
inductive Out (α : Type) where
  | returned (rest : List (Item α))
  | exited

/-- `ProgramOption<bool>::get` of `po_help`. Used in the model of `ProgramOptions.cpp:202-217` (`parseItems`). -/
def helpUsed (s : St α) : Bool :=
  match s.opts[0]? with
  | some o => o.saved.isSome
  | none => false

/-- The outcome of a call and the state it leaves, also when it throws. Used in the model of `ProgramOptions.cpp:202-217` (`parseItems`). -/
structure Done (α : Type) where
  out : Res (Out α)
  st : St α

/-- What happens after the options were registered, `ProgramOptions.cpp:202-217`. -/
def parseItems (s : St α) (items : List (Item α)) (allow : Bool) : Done α :=
  match pass s.visible items [] with
  | .ok (m1, r1) =>
    match pass s.hidden r1 m1 with
    | .ok (m2, r2) =>
      if !allow && !r2.isEmpty then ⟨.abort, s⟩
      else match process m2 s.actions s with
        | (.ok (), s') => if helpUsed s' then ⟨.ok .exited, s'⟩ else ⟨.ok (.returned r2), s'⟩
        | (.abort, s') => ⟨.abort, s'⟩
        | (.ub, s') => ⟨.ub, s'⟩
    | .abort => ⟨.abort, s⟩
    | .ub => ⟨.ub, s⟩
  | .abort => ⟨.abort, s⟩
  | .ub => ⟨.ub, s⟩

/-- `parseCommandLine`, `ProgramOptions.cpp:200-218`. -/
def parseCommandLine (s : St α) (items : List (Item α)) (allow : Bool) : Done α :=
  match runInits s with
  | .ok s => parseItems s items allow
  | .abort => ⟨.abort, s⟩
  | .ub => ⟨.ub, s⟩

/-- `parseConfigFile`, `ProgramOptions.hpp:340-348`. -/
def parseConfig (s : St α) (items : List (Item α)) : Done α :=
  match runInits s with
  | .ok s =>
    match pass s.visible items [] with
    | .ok (m, r) =>
      if !r.isEmpty then ⟨.abort, s⟩
      else match process m s.actions s with
        | (.ok (), s') => ⟨.ok (.returned []), s'⟩
        | (.abort, s') => ⟨.abort, s'⟩
        | (.ub, s') => ⟨.ub, s'⟩
    | .abort => ⟨.abort, s⟩
    | .ub => ⟨.ub, s⟩
  | .abort => ⟨.abort, s⟩
  | .ub => ⟨.ub, s⟩

/-- `get`, `ProgramOptions.hpp:212-218`. -/
def get (s : St α) (i : Nat) : Option α := (s.opts[i]?).map fun o => o.saved.getD o.dflt

/-- `used`, `ProgramOptions.hpp:208-210`. -/
def used (s : St α) (i : Nat) : Bool :=
  match s.opts[i]? with
  | some o => o.saved.isSome
  | none => false

/-- What a program does with its options. Not a function of the code; stands for the uses of `ProgramOptions.hpp:193-237`. -/
inductive Op (α : Type) where
  | construct (name : Str) (hidden : Bool) (d : α)
  | destroy (i : Nat)
  | set (i : Nat) (v : α)
  | parse (items : List (Item α)) (allow : Bool)
  | config (items : List (Item α))

/-- One operation; `set` is `ProgramOptions.hpp:220-222`. -/
def step (s : St α) : Op α → Done α
  | .construct n h d => ⟨.ok (.returned []), construct s n h d⟩
  | .destroy i =>
    match s.opts[i]? with
    | some o => ⟨.ok (.returned []), { s with opts := s.opts.set i { o with alive := false } }⟩
    | none => ⟨.ub, s⟩
  | .set i v =>
    match s.opts[i]? with
    | some o => if o.alive then ⟨.ok (.returned []), { s with opts := s.opts.set i { o with saved := some v } }⟩ else ⟨.ub, s⟩
    | none => ⟨.ub, s⟩
  | .parse is a => parseCommandLine s is a
  | .config is => parseConfig s is

/-- A program: it goes on after an exception, and stops when it exits or something undefined happens. With the state, what is seen of each operation: whether
it returned. Not a function of the code; stands for the uses of `ProgramOptions.hpp:220-222`. -/
def run : St α → List (Op α) → Option (St α × List Bool)
  | s, [] => some (s, [])
  | s, o :: os =>
    match (step s o).out with
    | .ok (.returned _) => (run (step s o).st os).map fun x => (x.1, true :: x.2)
    | .abort => (run (step s o).st os).map fun x => (x.1, false :: x.2)
    | _ => none

end Verif.Opt
