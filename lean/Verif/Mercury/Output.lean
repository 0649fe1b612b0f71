import Verif.Deptool.Deps

/-! # The output of select

Model of src/mercury-plot.in: sqlSelectCsv (979-986), sqlSelectHtml (1028-1049) and the rows that sqlSelectTextTable (988-1026) hands to the module that draws the table. A result is the list of the names of its columns and its rows; a value is `none` if it is NULL. Left out: the pager and the widths of the columns. -/

namespace Verif.Mercury.Output

open Verif.Deptool.Deps (Text)

/-- A result of a query. Used in the model of `mercury-plot.in:979-1049` (`csv`, `html`). -/
structure Result where
  names : List Text
  rows : List (List (Option Text))

/-- An undefined value printed: nothing. Used in the model of `mercury-plot.in:984` (`csv`). -/
def shown (v : Option Text) : Text := v.getD []

/-- `join(", ", …)`. Used in the model of `mercury-plot.in:982-984` (`csv`). -/
def joined : List Text → Text
  | [] => []
  | [v] => v
  | v :: vs => v ++ ',' :: ' ' :: joined vs

/-- `sqlSelectCsv`, lines 979-986. -/
def csv (r : Result) : Text :=
  joined r.names ++ '\n' :: (r.rows.map fun row => joined (row.map shown) ++ ['\n']).flatten

/-- A cell, lines 1037 and 1043. -/
def cell (name v : Text) : Text := ' ' :: '<' :: name ++ '>' :: v ++ '<' :: '/' :: name ++ ['>']

/-- A row but for its end, lines 1035-1038 and 1041-1044. -/
def rowOpen (name : Text) (vs : List Text) : Text := [' ', ' ', '<', 'T', 'R', '>', '\n', ' ', ' ', ' '] ++ (vs.map (cell name)).flatten

/-- `sqlSelectHtml`, lines 1028-1049. -/
def html (r : Result) : Text :=
  ['<', 'T', 'A', 'B', 'L', 'E', ' ', 'B', 'O', 'R', 'D', 'E', 'R', '=', '"', '2', '"', '>', '\n'] ++
  rowOpen ['T', 'H'] r.names ++ ['\n', ' ', ' ', '<', '/', 'T', 'R', '>', '\n'] ++
  (r.rows.map fun row => rowOpen ['T', 'D'] (row.map shown) ++ [' ', '<', '/', 'T', 'R', '>', '\n']).flatten ++
  ['<', '/', 'T', 'A', 'B', 'L', 'E', '>', '\n']

/-- The rows read in advance and those still in the database. Used in the model of `mercury-plot.in:994-1019` (`textTable`). -/
structure Source where
  first : List (List Text)
  rest : List (List Text)

/-- Lines 994-1003 and 1016: at most `limit` rows are read in advance; if that were all, an empty one is added. -/
def advance (limit : Nat) (rows : List (List Text)) : Source :=
  if rows.length < limit then ⟨rows ++ [[]], []⟩ else ⟨rows.take limit, rows.drop limit⟩

/-- Lines 1017-1019: the row given when asked for the next one. -/
def next (s : Source) : List Text × Source :=
  match s.first with
  | r :: f => (r, { s with first := f })
  | [] =>
    match s.rest with
    | r :: t => (r, { s with rest := t })
    | [] => ([], s)

/-- The module asks until it gets an empty row. Used in the model of `mercury-plot.in:1017-1019` (`textTable`). -/
def drain : Nat → Source → List (List Text)
  | 0, _ => []
  | n + 1, s => if (next s).1 = [] then [] else (next s).1 :: drain n (next s).2

/-- The rows `sqlSelectTextTable` shows, lines 988-1026; `limit` is 1000 (line 995). It ends after at most one row more than there are. -/
def textTable (limit : Nat) (r : Result) : List (List Text) :=
  drain (r.rows.length + 1) (advance limit (r.rows.map (·.map shown)))

end Verif.Mercury.Output
