/-!
# Transactions, the configuration table and schema versions of `Lintel::DBI` (src/Lintel/DBI.pm)

The database is a value; a statement changes it or fails. The connection has the database as it sees it, and inside a transaction what a rollback restores. Statements that end a transaction by themselves (`create table` and the like with MySQL, the default of line 115) have `autoCommits`. What the server answers to `begin_work`, `commit` and the statements on the configuration table is given by a function of the number of the request. `die` in its forms is the result `false`.

Simplified: values of the configuration table are numbers (versions); the statements of a schema do not touch the configuration table; the name of the schema has at most 254 characters (line 525); a false exception (line 297) and messages are not modelled.
-/

namespace Verif.DBI

/-- A statement: `none` if the server refuses it. Used in the model of `DBI.pm:318-332` (`runSQL`). -/
structure Sql (σ : Type) where
  effect : σ → Option σ
  autoCommits : Bool := false

/-- The object: the connection, and what is known of the statement `lintelDbiGetConfig` (lines 517-524): not prepared yet, prepared, or prepared without success. -/
structure Conn (σ : Type) where
  db : σ
  undo : Option σ := none
  tick : Nat := 0
  getSth : Option Bool := none

/-- The server. `ok n`: whether it does request number `n`. `checks`: it looks at a statement when it is prepared. Used in the model of `DBI.pm:226` (`beginTxn`). -/
structure Env where
  ok : Nat → Bool
  checks : Bool := false

variable {σ : Type}

/-- `begin_work` (line 226); inside a transaction the DBI dies. -/
def beginTxn (env : Env) (c : Conn σ) : Bool × Conn σ :=
  match c.undo with
  | some _ => (false, c)
  | none =>
    if env.ok c.tick then (true, { c with undo := some c.db, tick := c.tick + 1 })
    else (false, { c with tick := c.tick + 1 })

/-- `commitTxn`, lines 240-244; outside a transaction the DBI only warns. -/
def commitTxn (env : Env) (c : Conn σ) : Bool × Conn σ :=
  match c.undo with
  | none => (true, c)
  | some _ =>
    if env.ok c.tick then (true, { c with undo := none, tick := c.tick + 1 })
    else (false, { c with tick := c.tick + 1 })

/-- `rollbackTxn`, lines 256-259. -/
def rollbackTxn (c : Conn σ) : Conn σ :=
  match c.undo with
  | none => c
  | some d => { c with db := d, undo := none }

/-- A statement is done. One that commits by itself does so before and after. Used in the model of `DBI.pm:318-332` (`runSQL`). -/
def doSql (s : Sql σ) (c : Conn σ) : Bool × Conn σ :=
  let c0 : Conn σ := if s.autoCommits && c.undo.isSome then { c with undo := some c.db } else c
  match s.effect c0.db with
  | none => (false, c0)
  | some d => (true, if s.autoCommits && c0.undo.isSome then { c0 with db := d, undo := some d } else { c0 with db := d })

/-- `runSQL`, lines 318-332. -/
def runSQL : List (Sql σ) → Conn σ → Bool × Conn σ
  | [], c => (true, c)
  | s :: l, c =>
    match doSql s c with
    | (false, c') => (false, c')
    | (true, c') => runSQL l c'

/-- `transaction`, lines 290-305. -/
def transaction (env : Env) (f : Conn σ → Bool × Conn σ) (c : Conn σ) : Bool × Conn σ :=
  match beginTxn env c with
  | (false, c1) => (false, c1)
  | (true, c1) =>
    match f c1 with
    | (false, c2) => (false, rollbackTxn c2)
    | (true, c2) =>
      match commitTxn env c2 with
      | (true, c3) => (true, c3)
      | (false, c3) => (false, rollbackTxn c3)

/-- What a program does with the object, up to its end or death. Used in the model of `DBI.pm:226-524` (`exec`). -/
inductive Prog (σ : Type) where
  | done
  | die
  | sql (s : Sql σ) (k : Prog σ)
  | begin (k : Prog σ)
  | commit (k : Prog σ)
  | rollback (k : Prog σ)
  | trans (p k : Prog σ)
  /-- `eval { p }; k`. -/
  | attempt (p k : Prog σ)

/-- Made of the parts of `DBI.pm:226-524`. -/
def exec (env : Env) : Prog σ → Conn σ → Bool × Conn σ
  | .done, c => (true, c)
  | .die, c => (false, c)
  | .sql s k, c =>
    match doSql s c with
    | (false, c') => (false, c')
    | (true, c') => exec env k c'
  | .begin k, c =>
    match beginTxn env c with
    | (false, c') => (false, c')
    | (true, c') => exec env k c'
  | .commit k, c =>
    match commitTxn env c with
    | (false, c') => (false, c')
    | (true, c') => exec env k c'
  | .rollback k, c => exec env k (rollbackTxn c)
  | .trans p k, c =>
    match transaction env (exec env p) c with
    | (false, c') => (false, c')
    | (true, c') => exec env k c'
  | .attempt p k, c => exec env k (exec env p c).2

/-! ## The configuration table and the schema -/

/-- Used in the model of `DBI.pm:515-528` (`getConfig`). -/
abbrev Key := List Char

/-- The database: the tables of the application, and `lintel_dbi_config` if it exists. Used in the model of `DBI.pm:515-528` (`getConfig`). -/
structure Db (α : Type) where
  app : α
  config : Option (Key → Option Nat) := none

variable {α : Type}

/-- A statement of the application. Used in the model of `DBI.pm:559-562` (`installStep`). -/
def lift (s : Sql α) : Sql (Db α) where
  effect d := (s.effect d.app).map fun a => { d with app := a }
  autoCommits := s.autoCommits

/-- `getConfig`, lines 515-528: `undef` as well if the statement fails (the `eval` on line 527). A failed preparation is remembered (`__definitions` is set, line 209; `RaiseError` is off, lines 518-523). -/
def getConfig (env : Env) (key : Key) (c : Conn (Db α)) : Option Nat × Conn (Db α) :=
  let c1 : Conn (Db α) :=
    match c.getSth with
    | none => { c with getSth := some (!(env.checks && c.db.config.isNone)) }
    | some _ => c
  match c1.getSth with
  | some true =>
    if env.ok c1.tick then (c1.db.config.bind fun t => t key, { c1 with tick := c1.tick + 1 })
    else (none, { c1 with tick := c1.tick + 1 })
  | _ => (none, c1)

/-- `replace into lintel_dbi_config values (?, ?)`. Used in the model of `DBI.pm:492-503` (`dbiSetConfig`). -/
def setRow (key : Key) (v : Nat) (d : Db α) : Option (Db α) :=
  match d.config with
  | none => none
  | some t => some { d with config := some fun k => if k = key then some v else t k }

/-- `dbiSetConfig`, lines 492-503. -/
def dbiSetConfig (env : Env) (key : Key) (v : Nat) (c : Conn (Db α)) : Bool × Conn (Db α) :=
  if env.ok c.tick then
    match setRow key v c.db with
    | none => (false, { c with tick := c.tick + 1 })
    | some d =>
      match getConfig env key { c with tick := c.tick + 1, db := d } with
      | (r, c') => (decide (r = some v), c')
  else (false, { c with tick := c.tick + 1 })

/-- `setConfig`, lines 486-490: `cluck` prints a warning and goes on. -/
def setConfig (env : Env) (key : Key) (v : Nat) (c : Conn (Db α)) : Bool × Conn (Db α) :=
  dbiSetConfig env key v c

/-- `loadDbiConfigSchema`, lines 530-538. -/
def loadDbiConfigSchema (c : Conn (Db α)) : Conn (Db α) :=
  { c with db := { c.db with config := some (c.db.config.getD fun _ => none) } }

/-- A step of the argument of `setupSchema`: `to_version` and `sql`. Used in the model of `DBI.pm:559-562` (`installStep`). -/
structure Mig (α : Type) where
  to : Nat
  sql : List (Sql α)

/-- The function given to `transaction` on lines 559-562 and 571-577. -/
def installStep (env : Env) (name : Key) (m : Mig α) (c : Conn (Db α)) : Bool × Conn (Db α) :=
  match runSQL (m.sql.map lift) c with
  | (false, c') => (false, c')
  | (true, c') => dbiSetConfig env name m.to c'

/-- `loadSchema`, lines 550-564. -/
def loadSchema (env : Env) (name : Key) (m : Mig α) (c : Conn (Db α)) : Bool × Conn (Db α) :=
  transaction env (installStep env name m) (loadDbiConfigSchema c)

/-- `migrateSchema`, lines 566-586: `none` if it has not returned after this number of iterations; otherwise whether it returned a version. `$db_version` undefined is 0 in the comparison and finds no step (`init` has its own name). -/
def migrateSchema (env : Env) (name : Key) (target : Nat) (migs : Nat → Option (Mig α)) : Nat → Option Nat → Conn (Db α) → Option (Option (Option Nat) × Conn (Db α))
  | 0, _, _ => none
  | n + 1, v, c =>
    if v.getD 0 < target then
      match v.bind migs with
      | none => some (none, c)
      | some m =>
        match transaction env (installStep env name m) c with
        | (false, c') => some (none, c')
        | (true, c') =>
          match getConfig env name c' with
          | (v', c'') => migrateSchema env name target migs n v' c''
    else some (some v, c)

/-- Lines 682-686. -/
def finish (target : Nat) (v : Option Nat) (c : Conn (Db α)) : Bool × Conn (Db α) :=
  (decide (v.getD 0 = target), c)

/-- Line 661: the installed version, unless a true one is given. -/
def startVersion (env : Env) (name : Key) (fromV : Option Nat) (c : Conn (Db α)) : Option Nat × Conn (Db α) :=
  match fromV with
  | some (v + 1) => (some (v + 1), c)
  | _ => getConfig env name c

/-- `setupSchema`, lines 659-687. `$db_version` is not set again after `loadSchema`. -/
def setupSchema (env : Env) (n : Nat) (name : Key) (target : Nat) (init : Option (Mig α)) (migs : Nat → Option (Mig α)) (fromV : Option Nat) (c : Conn (Db α)) : Option (Bool × Conn (Db α)) :=
  match startVersion env name fromV c with
  | (none, c1) =>
    match init with
    | none => some (false, c1)
    | some m =>
      match loadSchema env name m c1 with
      | (false, c2) => some (false, c2)
      | (true, c2) => some (finish target none c2)
  | (some v, c1) =>
    if v < target then
      match migrateSchema env name target migs n (some v) c1 with
      | none => none
      | some (none, c2) => some (false, c2)
      | some (some v', c2) => some (finish target v' c2)
    else some (finish target (some v) c1)

end Verif.DBI
