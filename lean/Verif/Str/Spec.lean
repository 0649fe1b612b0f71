import Verif.Str.Model

/-! # Independent specifications for the string utilities

These use only lists and bytes, none of the model's helper functions. -/

namespace Verif.Str

/-- `parts` can be told apart again after joining with `sep`: no part but the last together
with the separator after it contains an occurrence of `sep` that starts inside the part, and
the last part contains none. -/
def Separable (sep : Str) : List Str → Prop
  | [] => True
  | [x] => ¬ sep <:+: x
  | x :: y :: rest => (∀ i, i < x.length → ¬ sep <+: (x ++ sep).drop i) ∧ Separable sep (y :: rest)

/-- MySQL string literal lexer: from just after the opening `'` to the closing `'`; returns
the literal's value and the text after the closing quote. Escapes as in the MySQL manual
(string syntax); a raw quote ends the literal. -/
def mysqlLex : Str → Option (Str × Str)
  | [] => none
  | [c] => if c = 39 then some ([], []) else none
  | c :: d :: rest =>
    if c = 39 then some ([], d :: rest)
    else if c = 92 then
      let v : Byte :=
        if d = 48 then 0 else if d = 98 then 8 else if d = 110 then 10 else if d = 114 then 13
        else if d = 116 then 9 else if d = 90 then 26 else d
      (mysqlLex rest).map fun r => (v :: r.1, r.2)
    else (mysqlLex (d :: rest)).map fun r => (c :: r.1, r.2)

/-- Value of a lower- or upper-case hex digit. -/
def hexVal (c : Byte) : Option Nat :=
  if 48 ≤ c.val ∧ c.val ≤ 57 then some (c.val - 48)
  else if 97 ≤ c.val ∧ c.val ≤ 102 then some (c.val - 87)
  else if 65 ≤ c.val ∧ c.val ≤ 70 then some (c.val - 55)
  else none

/-- Decoder for `escapeUnprintable` text: `%%` is a percent sign, `%xy` the byte `xy`. -/
def unescape : Str → Option Str
  | [] => some []
  | c :: cs =>
    if c = 37 then
      match cs with
      | [] => none
      | d :: ds =>
        if d = 37 then (unescape ds).map (37 :: ·)
        else match ds with
          | [] => none
          | e :: es =>
            match hexVal d, hexVal e with
            | some x, some y => (unescape es).map (Fin.ofNat 256 (16 * x + y) :: ·)
            | _, _ => none
    else (unescape cs).map (c :: ·)

/-- Lower-case of an ASCII letter. -/
def lower (c : Byte) : Byte := if 65 ≤ c.val ∧ c.val ≤ 90 then c + 32 else c

/-! ## An RFC 4180 reader -/

/-- End of a field: end of input, comma, CR or LF. -/
def atEnd : Str → Bool
  | [] => true
  | c :: _ => c = 44 ∨ c = 13 ∨ c = 10

/-- Inside a quoted field. -/
def readQuoted : Str → Option (Str × Str)
  | [] => none
  | c :: cs =>
    if c = 34 then
      match cs with
      | [] => some ([], [])
      | d :: ds =>
        if d = 34 then (readQuoted ds).map fun r => (34 :: r.1, r.2)
        else if atEnd (d :: ds) then some ([], d :: ds) else none
    else (readQuoted cs).map fun r => (c :: r.1, r.2)

/-- Inside an unquoted field: may not contain a double quote. -/
def readPlain : Str → Option (Str × Str)
  | [] => some ([], [])
  | c :: cs =>
    if atEnd (c :: cs) then some ([], c :: cs)
    else if c = 34 then none
    else (readPlain cs).map fun r => (c :: r.1, r.2)

/-- One field. -/
def readField : Str → Option (Str × Str)
  | [] => some ([], [])
  | c :: cs => if c = 34 then readQuoted cs else readPlain (c :: cs)

/-- The fields of the first record (up to end of input, CR or LF). `fuel` bounds the number
of fields. -/
def readRow : Nat → Str → Option (List Str)
  | 0, _ => none
  | fuel + 1, s =>
    match readField s with
    | none => none
    | some (f, 44 :: rest) => (readRow fuel rest).map (f :: ·)
    | some (f, _) => some [f]

end Verif.Str
