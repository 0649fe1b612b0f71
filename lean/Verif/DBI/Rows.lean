/-!
# Statements and their rows in `Lintel::DBI` (src/Lintel/DBI.pm)

A prepared statement has a cursor: the rows of its last execution that were not fetched yet. The rows of an execution are the server's answer. A row is the list of its values, `none` for NULL; it has at least one.

Simplified: only the functions that return arrays (those that return hashes take the rows in the same way); a fetch does not fail; no query is called `__definitions`.
-/

namespace Verif.DBI.Rows

/-- Used in the model of `DBI.pm:19` (`invalidNames`). -/
abbrev Name := List Char
/-- Used in the model of `DBI.pm:818-826` (`Row`). -/
abbrev Val := Nat
/-- Used in the model of `DBI.pm:818-826` (`oneRowArray`). -/
abbrev Row := List (Option Val)

/-- What a call gives: it dies, or returns an array (`undef` alone is `[none]`). Used in the model of `DBI.pm:818-826` (`oneRowArray`). -/
inductive Ret where
  | died
  | gave (r : Row)
deriving DecidableEq, Repr

/-! ## The functions for one row -/

/-- `fetchrow_array`: the row (empty at the end) and the rows left. Used in the model of `DBI.pm:818-826` (`oneRowArray`). -/
def fetch : List Row → Row × List Row
  | [] => ([], [])
  | r :: l => (r, l)

/-- `DBI::st::oneRowArray`, lines 818-826. -/
def oneRowArray (rows : List Row) : Ret × List Row :=
  match fetch rows with
  | (ret, rows1) =>
    if ret = [] then (.died, rows1)
    else
      match fetch rows1 with
      | (tmp, rows2) => if tmp ≠ [] then (.died, rows2) else (.gave ret, rows2)

/-- `DBI::st::atMostOneRowArray`, lines 838-846. -/
def atMostOneRowArray (rows : List Row) : Ret × List Row :=
  match fetch rows with
  | (ret, rows1) =>
    if ret = [] then (.gave [], rows1)
    else
      match fetch rows1 with
      | (tmp, rows2) => if tmp ≠ [] then (.died, rows2) else (.gave ret, rows2)

/-- `value`, lines 870-880; `ok`: `exec_ret` is true. -/
def value (ok : Bool) (rows : List Row) : Ret :=
  if ok then
    match (atMostOneRowArray rows).1 with
    | .died => .died
    | .gave r => if 1 < r.length then .died else .gave [r.head?.join]
  else .died

/-- `requiredValue`, lines 894-904. -/
def requiredValue (ok : Bool) (rows : List Row) : Ret :=
  if ok then
    match (oneRowArray rows).1 with
    | .died => .died
    | .gave r => if r.length ≠ 1 then .died else .gave [r.head?.join]
  else .died

/-! ## Names and cursors -/

/-- Line 19. -/
def invalidNames : List Name := ["AUTOLOAD".toList, "DESTROY".toList, "fetchArray".toList, "fetchHash".toList, "oneRow".toList, "atMostOneRow".toList]

/-- What Perl finds before `AUTOLOAD` in the package `Lintel::DBI::sth`: its functions (lines 724-786), those that `use Carp` brings in (line 705), and those of every class. -/
def methods : List Name := invalidNames ++ ["carp".toList, "croak".toList, "confess".toList, "can".toList, "isa".toList, "DOES".toList, "VERSION".toList]

/-- Used in the model of `DBI.pm:724-741` (`call`). -/
def lastName : Name := "__laststh".toList

/-- The object: which prepared statement is in which slot (`$this->{$name}`), the cursors, and the number of statements and executions so far. Not a function of the code; stands for the uses of `DBI.pm:194-1053`. -/
structure St where
  slot : Name → Option Nat := fun _ => none
  cursor : Nat → List Row := fun _ => []
  prepared : Nat := 0
  execs : Nat := 0

/-- What the object that a call returns refers to (lines 737-740): the statement; `num` is the number of the execution (not known to the program). -/
structure Exec where
  sth : Nat
  num : Nat
deriving DecidableEq, Repr

/-- `load_sths` with one query, lines 194-211; `none` if it dies. The query is the one with the number of the statement. -/
def load (s : St) (n : Name) : Option St :=
  if n ∈ invalidNames then none
  else some { s with slot := fun m => if m = n then some s.prepared else s.slot m, prepared := s.prepared + 1 }

/-- What calling a name on `$dbh->{sth}` does. Used in the model of `DBI.pm:724-741` (`call`). -/
inductive Called where
  | method
  | died
  | ran (e : Exec) (s : St)

/-- `AUTOLOAD`, lines 724-741, unless the name is that of a function. -/
def call (s : St) (n : Name) (rows : List Row) : Called :=
  if n ∈ methods then .method
  else
    match s.slot n with
    | none => .died
    | some i => .ran ⟨i, s.execs⟩ { s with slot := fun m => if m = lastName then some i else s.slot m, cursor := fun j => if j = i then rows else s.cursor j, execs := s.execs + 1 }

/-- `fetchArray` on what a call returned, lines 1047-1053. -/
def fetchArray (s : St) (e : Exec) : Row × St :=
  ((fetch (s.cursor e.sth)).1, { s with cursor := fun j => if j = e.sth then (fetch (s.cursor e.sth)).2 else s.cursor j })

end Verif.DBI.Rows
