import Verif.Deptool.Deps

/-! # The styles of a stacked bar plot

Model of src/mercury-plot.in: barplotColors (504-533), the option (578-581) and the styles of the series (674-680). Digits are those of ASCII. -/

namespace Verif.Mercury.Colors

open Verif.Deptool.Deps (Text)

/-- The characters of `\s`. Used in the model of `mercury-plot.in:521` (`split`). -/
def isSpace (c : Char) : Bool := [' ', '\t', '\n', '\r', '\x0c', '\x0b'].contains c

/-- All fields between commas. Used in the model of `mercury-plot.in:521` (`split`). -/
def fields : Text → List Text
  | [] => [[]]
  | c :: t =>
    if c = ',' then [] :: fields t
    else
      match fields t with
      | f :: fs => (c :: f) :: fs
      | [] => [[c]]

/-- Perl drops empty fields at the end. Used in the model of `mercury-plot.in:521` (`split`). -/
def dropEmpty (fs : List Text) : List Text := (fs.reverse.dropWhile (· = [])).reverse

/-- `split(/,\s*/o, $colors)`, line 521: the blanks after a comma belong to the separator. -/
def split (t : Text) : List Text :=
  dropEmpty
    (match fields t with
    | f :: fs => f :: fs.map (·.dropWhile isSpace)
    | [] => [])

/-- `$` also matches before a newline at the end. Used in the model of `mercury-plot.in:522-524` (`entry`). -/
def trimEnd (t : Text) : Text := if t.getLast? = some '\n' then t.dropLast else t

/-- `\d+` is all of the text. Used in the model of `mercury-plot.in:522-524` (`entry`). -/
def isDigits (t : Text) : Bool := !t.isEmpty && t.all Char.isDigit

/-- What is written before and after the number, lines 523 and 525. -/
def pPrefix : Text := ['f', 's', ' ', 'p', 'a', 't', 't', 'e', 'r', 'n', ' ']
def gPrefix : Text := ['f', 's', ' ', 's', 'o', 'l', 'i', 'd', ' ']
def suffix : Text := [' ', 'l', 't', ' ', '-', '1']

/-- Lines 522-528: the style of an entry; `none` if it dies. -/
def entry (e : Text) : Option Text :=
  match trimEnd e with
  | 'p' :: ds => if isDigits ds then some (pPrefix ++ ds ++ suffix) else none
  | 'g' :: r =>
    match r.dropWhile Char.isDigit with
    | '.' :: fr => if isDigits (r.takeWhile Char.isDigit) && isDigits fr then some (gPrefix ++ r ++ suffix) else none
    | _ => none
  | _ => none

/-- Lines 514-516. -/
def six : Text := ['p', '1', ',', 'g', '0', '.', '0', '0', ',', ' ', 'p', '2', ',', 'g', '0', '.', '2', '0', ',', ' ', 'p', '4', ',', 'g', '0', '.', '4', '0', ',', ' ',
  'p', '5', ',', 'g', '0', '.', '6', '0', ',', ' ', 'p', '6', ',', 'g', '0', '.', '8', '0', ',', ' ', 'p', '7', ',', 'g', '1', '.', '0', '0']

/-- Line 517. -/
def four : Text := ['p', '1', ',', 'g', '0', '.', '0', '0', ',', ' ', 'p', '2', ',', 'g', '0', '.', '3', '3', ',', ' ', 'p', '4', ',', 'g', '0', '.', '6', '6', ',', ' ',
  'p', '5', ',', 'g', '1', '.', '0', '0']

/-- The styles of some entries; `none` if one dies. Used in the model of `mercury-plot.in:520-530` (`barplotColors`). -/
def entries : List Text → Option (List Text)
  | [] => some []
  | e :: es =>
    match entry e, entries es with
    | some s, some l => some (s :: l)
    | _, _ => none

/-- `barplotColors`, lines 504-533; `none` if it dies. -/
def barplotColors (c : Text) : Option (List Text) :=
  if c = ['c', 'o', 'l', 'o', 'r'] then some [[]]
  else if c = ['6', '-', 'g', 'r', 'a', 'y', 's'] then entries (split six)
  else if c = ['4', '-', 'g', 'r', 'a', 'y', 's'] then entries (split four)
  else entries (split c)

/-- `push(@colors, shift @colors)`, line 679; shifting an empty list gives the undefined value, written as the empty text. -/
def rotate : List Text → List Text
  | [] => [[]]
  | c :: cs => cs ++ [c]

/-- Lines 679-680: the further columns. -/
def further (cols : List Text) : List Nat → List (Nat × Text)
  | [] => []
  | k :: ks => (k, (rotate cols).headD []) :: further (rotate cols) ks

/-- Lines 678-680: column and style of each series, for `n` minor values. -/
def series (cols : List Text) (n : Nat) : List (Nat × Text) :=
  (2, cols.headD []) :: further cols ((List.range (n - 1)).map (· + 3))

end Verif.Mercury.Colors
