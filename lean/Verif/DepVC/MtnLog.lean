import Verif.Deptool.Deps

/-! # deptool review-status and code-review: what monotone says about revisions

Model of src/deptool.in: the monotone interface's parseRevisionInfo (4565-4599), getReviews (4671-4685) and the parser of parseNonMergeRevisions (4730-4783). The output of the commands is a list of lines without their newlines; all lines have one. A field of a revision is the list of its values: `undef`, a scalar or a reference to an array are no, one or several values. -/

namespace Verif.DepVC.MtnLog

open Verif.Deptool.Deps (Text isWord)

/-- `\s`. Used in the model of `deptool.in:4739` (`blank`). -/
def isSpace (c : Char) : Bool := c == ' ' || c == '\t' || c == '\n' || c == '\r' || c == '\x0c' || c == '\x0b'

/-- `/^\s*$/`, line 4739. -/
def blank (l : Text) : Bool := l.all isSpace

/-- `/^-+$/`, lines 4574 and 4732. -/
def dashes (l : Text) : Bool := !l.isEmpty && l.all (· == '-')

/-- `/^-{50,}$/`, lines 4755 and 4769. -/
def rule (l : Text) : Bool := decide (50 ≤ l.length) && l.all (· == '-')

/-- Used in the model of `deptool.in:4736` (`revision`). -/
def isHex (c : Char) : Bool := (decide ('0' ≤ c) && decide (c ≤ '9')) || (decide ('a' ≤ c) && decide (c ≤ 'f'))

/-- Used in the model of `deptool.in:4736` (`revision`). -/
def tRevision : Text := ['R', 'e', 'v', 'i', 's', 'i', 'o', 'n', ':', ' ']

/-- `/^Revision: ([a-f0-9]{40})$/`, line 4736. -/
def revision (l : Text) : Option Text :=
  if tRevision.isPrefixOf l && decide (l.length = 50) && (l.drop 10).all isHex then some (l.drop 10) else none

/-- `/^(\w+):\s+(.*)$/`, line 4740: the newline of the line counts as space. -/
def field (l : Text) : Option (Text × Text) :=
  match l.takeWhile isWord, l.dropWhile isWord with
  | k :: ks, ':' :: v => if v = [] ∨ (v.head?.any isSpace) then some (k :: ks, v.dropWhile isSpace) else none
  | _, _ => none

/-- Lines 4738-4752: the fields, and the lines that are left; `none`: it dies. -/
def header : List Text → Option (List (Text × Text) × List Text)
  | [] => some ([], [])
  | l :: ls =>
    if blank l then some ([], ls)
    else
      match field l, header ls with
      | some f, some (fs, r) => some (f :: fs, r)
      | _, _ => none

/-- The values of a field in their order, lines 4741-4751. -/
def values (k : Text) (fs : List (Text × Text)) : List Text := (fs.filter fun f => decide (f.1 = k)).map (·.2)

/-- The text of lines. Used in the model of `deptool.in:4753-4757` (`parse`). -/
def text : List Text → Text
  | [] => []
  | l :: ls => l ++ '\n' :: text ls

/-- `\s*\n` at the start of a text, of which something is left: what is after the last newline of the space. Used in the model of `deptool.in:4758` (`subst`). -/
def since (t : Text) : Text := (t.reverse.takeWhile (· ≠ '\n')).reverse

/-- Used in the model of `deptool.in:4758` (`subst`). -/
def tChangelog : Text := ['C', 'h', 'a', 'n', 'g', 'e', 'l', 'o', 'g', ':']

/-- `s/Changelog:\s*\n//o`, line 4758: at the first place where it matches. -/
def subst : Text → Text
  | [] => []
  | c :: t =>
    let r := (c :: t).drop 10
    if tChangelog.isPrefixOf (c :: t) && (r.takeWhile isSpace).any (· == '\n') then since (r.takeWhile isSpace) ++ r.dropWhile isSpace
    else c :: subst t

/-- One of the hashes of `@ret`, lines 4733-4761. -/
structure Ent where
  revision : Text
  ancestor : List Text
  author : List Text
  date : List Text
  branch : List Text
  changelog : Text
  changes : Text
deriving DecidableEq, Repr

/-- Used in the model of `deptool.in:4760` (`orUnknown`). -/
def tUnknown : Text := "unknown-branch".toList

/-- `$ent{branch} ||= 'unknown-branch'`, line 4760. -/
def orUnknown (b : List Text) : List Text := if b = [] ∨ b = [[]] ∨ b = [['0']] then [tUnknown] else b

/-- Lines 4737 and 4753-4760. -/
def mkEnt (r : Text) (fs : List (Text × Text)) (log : List Text) : Ent where
  revision := r
  ancestor := values ['P', 'a', 'r', 'e', 'n', 't'] fs
  author := values ['A', 'u', 't', 'h', 'o', 'r'] fs
  date := values ['D', 'a', 't', 'e'] fs
  branch := orUnknown (values ['B', 'r', 'a', 'n', 'c', 'h'] fs)
  changelog := subst (text log)
  changes := []

/-- `$ent->{changes} .= $tmp`, line 4767: of the last one. -/
def addChanges (ret : List Ent) (t : Text) : List Ent :=
  match ret.getLast? with
  | none => ret
  | some e => ret.dropLast ++ [{ e with changes := e.changes ++ t }]

/-- Used in the model of `deptool.in:4730-4783` (`parse`). -/
inductive Out where
  | ok (es : List Ent)
  | die
  | more
deriving DecidableEq, Repr

/-- Lines 4730-4777, for so many rounds. The first line is `$_`, read in line 4730 or left by the loops inside. In the second case, lines 4768-4773 put the lines into a hash that is thrown away. -/
def loop : Nat → List Ent → List Text → Out
  | _, ret, [] => .ok ret
  | 0, _, _ :: _ => .more
  | n + 1, ret, l :: ls =>
    if !dashes l then .die
    else
      match ls with
      | [] => if ret = [] then .die else .ok (addChanges ret l)
      | r :: ls =>
        match revision r with
        | some rev =>
          match header ls with
          | none => .die
          | some (fs, rest) => loop n (ret ++ [mkEnt rev fs (rest.takeWhile fun x => !rule x)]) (rest.dropWhile fun x => !rule x)
        | none => if ret = [] then .die else loop n (addChanges ret l) ((r :: ls).dropWhile fun x => !rule x)

/-- The parser of parseNonMergeRevisions, lines 4730-4783. -/
def parse (ls : List Text) : Out := loop (ls.length + 1) [] ls

/-! ## One revision -/

/-- `/^(\w+):\s+(\S.+)$/`, line 4576. -/
def field1 (l : Text) : Option (Text × Text) :=
  match l.takeWhile isWord, l.dropWhile isWord with
  | k :: ks, ':' :: s :: v =>
    if isSpace s then
      match v.dropWhile isSpace with
      | a :: b :: w => some (k :: ks, a :: b :: w)
      | _ => none
    else none
  | _, _ => none

/-- Lines 4572-4583: the fields before the first empty line. A third value of a field is an error (line 4578). -/
def header1 : List (Text × Text) → List Text → Option (List (Text × Text) × List Text)
  | fs, [] => some (fs, [])
  | fs, l :: ls =>
    if l = [] then some (fs, ls)
    else if dashes l then header1 fs ls
    else
      match field1 l with
      | none => none
      | some (k, v) => if 2 ≤ (values k fs).length then none else header1 (fs ++ [(k, v)]) ls

/-- What is returned, lines 4593-4598. -/
structure Info where
  revision : List Text
  ancestor : List Text
  author : List Text
  date : List Text
  branch : List Text
  changelog : Text
deriving DecidableEq, Repr

/-- `parseRevisionInfo`, lines 4565-4599; `none`: it dies. -/
def parse1 (ls : List Text) : Option Info :=
  match header1 [] ls with
  | none => none
  | some (fs, rest) =>
    match rest with
    | c :: e :: log =>
      if tChangelog.isPrefixOf c && decide (e = []) && !(values ['R', 'e', 'v', 'i', 's', 'i', 'o', 'n'] fs).isEmpty && !(values ['A', 'u', 't', 'h', 'o', 'r'] fs).isEmpty
          && !(values ['D', 'a', 't', 'e'] fs).isEmpty && !(values ['B', 'r', 'a', 'n', 'c', 'h'] fs).isEmpty then
        some { revision := values ['R', 'e', 'v', 'i', 's', 'i', 'o', 'n'] fs, ancestor := values ['P', 'a', 'r', 'e', 'n', 't'] fs, author := values ['A', 'u', 't', 'h', 'o', 'r'] fs,
               date := values ['D', 'a', 't', 'e'] fs, branch := values ['B', 'r', 'a', 'n', 'c', 'h'] fs, changelog := text log }
      else none
    | _ => none

/-! ## Reviews -/

/-- `/^$name\s+: (.+)$/`: what the parentheses match. Used in the model of `deptool.in:4671-4685` (`reviews`). -/
def cert (name l : Text) : Option Text :=
  if name.isPrefixOf l then
    let r := l.drop name.length
    match r.takeWhile isSpace, r.dropWhile isSpace with
    | _ :: _, ':' :: ' ' :: a :: v => some (a :: v)
    | _, _ => none
  else none

/-- `/^Name\s+: review$/`, line 4678. -/
def isReview (l : Text) : Bool := cert ['N', 'a', 'm', 'e'] l == some ['r', 'e', 'v', 'i', 'e', 'w']

/-- Line 4681: one space. -/
def value (l : Text) : Option Text :=
  if ['V', 'a', 'l', 'u', 'e', ' ', ':', ' '].isPrefixOf l && decide (8 < l.length) then some (l.drop 8) else none

/-- Lines 4677-4683 from `$i` on, so many of them; `none`: it dies. An index below 0 counts from the end. -/
def reviews (certs : List Text) : Nat → Nat → Option (List (Text × Text))
  | 0, _ => some []
  | n + 1, i =>
    match certs[i]? with
    | none => some []
    | some l =>
      if !isReview l then reviews certs n (i + 1)
      else
        match (certs[if i < 2 then certs.length + i - 2 else i - 2]?).bind (cert ['K', 'e', 'y']), (certs[i + 1]?).bind value with
        | some a, some v => (reviews certs n (i + 1)).map ((a, v) :: ·)
        | _, _ => none

/-- `getReviews`, lines 4671-4685. -/
def getReviews (certs : List Text) : Option (List (Text × Text)) := reviews certs certs.length 0

end Verif.DepVC.MtnLog
