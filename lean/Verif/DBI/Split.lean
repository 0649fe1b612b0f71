/-!
# `Lintel::DBI::splitSQL` (src/Lintel/DBI.pm)

The text is a list of characters. `$start` and `$cursor` are represented by the text taken since `$start` and the text from `$cursor` on. The two loops are run for a number of iterations; a run that is not finished after any number of them is one that never returns.

Not modelled: the optional object argument (line 373), the check of the number of arguments.
-/

namespace Verif.DBI

/-- Used in the model of `DBI.pm:422` (`brkAt`). -/
abbrev Text := List Char

/-- What the expression of line 422 finds. -/
inductive Brk where
  | dquote | squote | semi | dashes | newline
deriving DecidableEq, Repr

/-- Used in the model of `DBI.pm:417-423` (`findBrk`). -/
def Brk.text : Brk → Text
  | .dquote => ['"']
  | .squote => ['\'']
  | .semi => [';']
  | .dashes => ['-', '-']
  | .newline => ['\n']

/-- A break at the beginning of the text (line 422). -/
def brkAt : Text → Option Brk
  | '"' :: _ => some .dquote
  | '\'' :: _ => some .squote
  | ';' :: _ => some .semi
  | '\n' :: _ => some .newline
  | '-' :: '-' :: _ => some .dashes
  | _ => none

/-- Lines 417-423: the first break, with the text before it and the text after it. (`index` on line 423 looks for the same string again: the first place it is at is the place of the match, as the match is the leftmost one.) -/
def findBrk : Text → Option (Text × Brk × Text)
  | [] => none
  | c :: t =>
    match brkAt (c :: t) with
    | some b => some ([], b, (c :: t).drop b.text.length)
    | none => (findBrk t).map fun (p, b, r) => (c :: p, b, r)

/-- `$state` and `$endquot`, lines 413-415. -/
inductive St where
  | ready
  | quot (q : Brk)
  | comment
deriving DecidableEq, Repr

/-- Used in the model of `DBI.pm:416-461` (`step`). -/
structure Cfg where
  st : St
  taken : Text
  rest : Text
deriving DecidableEq, Repr

/-- Used in the model of `DBI.pm:416-461` (`step`). -/
inductive Step where
  /-- The loop goes on. -/
  | more (c : Cfg)
  /-- Line 428: the statement, and the text from the new cursor on. -/
  | stmt (s rest : Text)
  /-- Lines 437 and 462. -/
  | undef
deriving DecidableEq, Repr

/-- One iteration of lines 416-461, with the test of the loop. Without a break `$brk` is undefined: the cursor stays (line 423), and only the state `ready` ends the loop (lines 435-437). -/
def step (c : Cfg) : Step :=
  match c.rest with
  | [] => .undef
  | _ :: _ =>
    match findBrk c.rest with
    | none =>
      match c.st with
      | .ready => .undef
      | _ => .more c
    | some (p, b, r) =>
      match c.st with
      | .ready =>
        match b with
        | .semi => .stmt (c.taken ++ p ++ b.text) r
        | .dashes => .more ⟨.comment, c.taken ++ p ++ b.text, r⟩
        | .dquote => .more ⟨.quot .dquote, c.taken ++ p ++ b.text, r⟩
        | .squote => .more ⟨.quot .squote, c.taken ++ p ++ b.text, r⟩
        | .newline => .more ⟨.ready, c.taken ++ p ++ b.text, r⟩
      | .quot q => .more ⟨if b = q then .ready else .quot q, c.taken ++ p ++ b.text, r⟩
      | .comment => .more ⟨if b = .newline then .ready else .comment, c.taken ++ p ++ b.text, r⟩

/-- What `nextStatement` returns (lines 410-463). -/
inductive Next where
  | stmt (s rest : Text)
  | undef
deriving DecidableEq, Repr

/-- `nextStatement`: `none` if it has not returned after this number of iterations. Used in the model of `DBI.pm:379-387` (`splitLoop`). -/
def nsRun : Nat → Cfg → Option Next
  | 0, _ => none
  | n + 1, c =>
    match step c with
    | .more c' => nsRun n c'
    | .stmt s r => some (.stmt s r)
    | .undef => some .undef

/-- The loop of `splitSQL`, lines 379-387, where no call of `nextStatement` and not the loop takes more than `n` iterations. -/
def splitLoop (n : Nat) : Nat → Text → Option (List Text)
  | 0, _ => none
  | _ + 1, [] => some []
  | k + 1, sql =>
    match nsRun n ⟨.ready, [], sql⟩ with
    | none => none
    | some .undef => some []
    | some (.stmt s r) => (splitLoop n k r).map (s :: ·)

/-- `splitSQL`, lines 372-389: `none` if it has not returned within `n` iterations of each loop. -/
def splitSQL (n : Nat) (sql : Text) : Option (List Text) := splitLoop n n sql

end Verif.DBI
