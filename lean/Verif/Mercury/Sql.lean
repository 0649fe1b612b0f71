/-!
# Model of the default table and where clause of `mercury-plot` (src/mercury-plot.in, lines 857-889, 394-411)

The text of a query is a list of characters without newlines. The regular expressions are modelled with their `\b` and `\s`.
-/

namespace Verif.Mercury

/-- Used in the model of `mercury-plot.in:864-869` (`findWord`). -/
abbrev Text := List Char

/-- `\w` of the regular expressions of lines 394-411 and 857-889, for ASCII. -/
def isWord (c : Char) : Bool :=
  ('a'.toNat ≤ c.toNat && c.toNat ≤ 'z'.toNat) || ('A'.toNat ≤ c.toNat && c.toNat ≤ 'Z'.toNat) || ('0'.toNat ≤ c.toNat && c.toNat ≤ '9'.toNat) || c == '_'

/-- `\s` of lines 876 and 877, for texts without newlines. -/
def isSpace (c : Char) : Bool := c == ' ' || c == '\t'

/-- The text goes on with a character of a word. Used in the model of `mercury-plot.in:864-869` (`findWord`). -/
def startsWord : Text → Bool
  | [] => false
  | c :: _ => isWord c

/-- Used in the model of `mercury-plot.in:863-874` (`addFrom`). -/
def kFrom : Text := ['f', 'r', 'o', 'm']
/-- Used in the model of `mercury-plot.in:863-874` (`addFrom`). -/
def kWhere : Text := ['w', 'h', 'e', 'r', 'e']
/-- Used in the model of `mercury-plot.in:863-874` (`addFrom`). -/
def kGroup : Text := ['g', 'r', 'o', 'u', 'p']
/-- Used in the model of `mercury-plot.in:863-874` (`addFrom`). -/
def kHaving : Text := ['h', 'a', 'v', 'i', 'n', 'g']
/-- Used in the model of `mercury-plot.in:863-874` (`addFrom`). -/
def kOrder : Text := ['o', 'r', 'd', 'e', 'r']
/-- Used in the model of `mercury-plot.in:863-874` (`addFrom`). -/
def kLimit : Text := ['l', 'i', 'm', 'i', 't']

/-- The first match of `\bword\b` (lines 864-869, 878-881, 398-407): the text before and after it. `prev`: the character before is one of a word. -/
def findWord (kw : Text) : Bool → Text → Option (Text × Text)
  | prev, [] => if !prev && kw.isEmpty then some ([], []) else none
  | prev, c :: r =>
    if !prev && kw.isPrefixOf (c :: r) && !startsWord ((c :: r).drop kw.length) then some ([], (c :: r).drop kw.length)
    else (findWord kw (isWord c) r).map fun x => (c :: x.1, x.2)

/-- `s/\bword\b/ new word/` (lines 865-869, 878-881); `none`: no match. -/
def insertBefore (kw new : Text) (t : Text) : Option Text :=
  (findWord kw false t).map fun x => x.1 ++ ' ' :: new ++ ' ' :: kw ++ x.2

/-- Lines 863-874. -/
def addFrom (table : Text) (t : Text) : Text :=
  if (findWord kFrom false t).isSome then t
  else
    let new := kFrom ++ ' ' :: table
    match insertBefore kWhere new t with
    | some r => r
    | none =>
    match insertBefore kGroup new t with
    | some r => r
    | none =>
    match insertBefore kHaving new t with
    | some r => r
    | none =>
    match insertBefore kOrder new t with
    | some r => r
    | none =>
    match insertBefore kLimit new t with
    | some r => r
    | none => t ++ ' ' :: new

/-- The first match of `\bwhere\s` (lines 876, 877): the text before `where` and after the space. -/
def findWhere : Bool → Text → Option (Text × Text)
  | _, [] => none
  | prev, c :: r =>
    if !prev && kWhere.isPrefixOf (c :: r) && (match (c :: r).drop 5 with | s :: _ => isSpace s | [] => false) then some ([], (c :: r).drop 6)
    else (findWhere (isWord c) r).map fun x => (c :: x.1, x.2)

/-- The alternative of `\b(group)|(having)|(order)|(limit)\b` that matches here (line 876): the `\b` belong to the first and to the last only. -/
def clauseHere (prev : Bool) (t : Text) : Option Text :=
  if !prev && kGroup.isPrefixOf t then some kGroup
  else if kHaving.isPrefixOf t then some kHaving
  else if kOrder.isPrefixOf t then some kOrder
  else if kLimit.isPrefixOf t && !startsWord (t.drop 5) then some kLimit
  else none

/-- `(.*?)` and the first match after it (line 876): the text before, what matched, the text after. -/
def findClause : Bool → Text → Option (Text × Text × Text)
  | _, [] => none
  | prev, c :: r =>
    match clauseHere prev (c :: r) with
    | some k => some ([], k, (c :: r).drop k.length)
    | none => (findClause (isWord c) r).map fun x => (c :: x.1, x.2)

/-- Used in the model of `mercury-plot.in:875-885` (`addWhere`). -/
def paren (t : Text) : Text := '(' :: t ++ [')']

/-- Used in the model of `mercury-plot.in:875-885` (`addWhere`). -/
def andText : Text := [' ', 'a', 'n', 'd', ' ']

/-- Lines 875-885. -/
def addWhere (dw : Text) (t : Text) : Text :=
  match findWhere false t with
  | some (pre, r) =>
    match findClause false r with
    | some (w, k, post) => pre ++ kWhere ++ ' ' :: paren dw ++ andText ++ paren w ++ ' ' :: k ++ post
    | none => pre ++ kWhere ++ ' ' :: paren dw ++ andText ++ paren r
  | none =>
    let new := kWhere ++ ' ' :: paren dw
    match insertBefore kGroup new t with
    | some r => r
    | none =>
    match insertBefore kHaving new t with
    | some r => r
    | none =>
    match insertBefore kOrder new t with
    | some r => r
    | none =>
    match insertBefore kLimit new t with
    | some r => r
    | none => t ++ ' ' :: new

/-- `adjust_sql` (lines 857-889); the message about the change is not modelled. -/
def adjust (table dw : Option Text) (t : Text) : Text :=
  let t := match table with | some x => addFrom x t | none => t
  match dw with | some x => addWhere x t | none => t

/-- Whether there is such a word (lines 398, 400, 405). -/
def hasWord (kw t : Text) : Bool := (findWord kw false t).isSome

/-- Used in the model of `mercury-plot.in:398-410` (`plotOrder`). -/
def kCdf : Text := ['c', 'd', 'f']
/-- Used in the model of `mercury-plot.in:398-410` (`plotOrder`). -/
def kSeg : Text := ['s', 'e', 'g', '_', 'x', '1']
/-- Used in the model of `mercury-plot.in:401-404` (`addOrder`). -/
def byText (c : Text) : Text := kOrder ++ [' ', 'b', 'y', ' '] ++ c

/-- `s/\blimit\b/ order by c limit /`, or at the end (lines 401-404, 407-410). -/
def addOrder (c t : Text) : Text :=
  match findWord kLimit false t with
  | some x => x.1 ++ ' ' :: byText c ++ ' ' :: kLimit ++ ' ' :: x.2
  | none => t ++ ' ' :: byText c

/-- `sqlplot`, lines 398-410 (before `plot` is replaced by `select`). -/
def plotOrder (t : Text) : Text :=
  if hasWord kOrder t then t
  else if hasWord kCdf t then addOrder kCdf t
  else if hasWord kSeg t then t
  else addOrder ['x'] t

end Verif.Mercury
