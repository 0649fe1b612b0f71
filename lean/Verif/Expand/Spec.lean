import Verif.Expand.Model

/-! # What `expandString` is for: texts with bracketed lists of numbers and ranges -/

namespace Verif.Expand

/-- An entry between commas: an integer, or a range with an optional step, as strings of digits. -/
inductive Item where
  | num (ds : Str)
  | range (min max : Str) (step : Option Str)
deriving DecidableEq, Repr

/-- A text: what comes before the first bracket, then brackets and what follows each. -/
structure Template where
  lit : Str
  rest : List (List Item × Str)

/-- A string of digits. -/
def Digits (s : Str) : Prop := s ≠ [] ∧ ∀ c ∈ s, isDigit c = true

def Item.Wf : Item → Prop
  | .num ds => Digits ds
  | .range a b s => Digits a ∧ Digits b ∧ ∀ t, s = some t → Digits t

/-- Entries are made of digits, brackets are not empty, and there are no opening brackets elsewhere. -/
def Template.Wf (t : Template) : Prop := '[' ∉ t.lit ∧ ∀ g ∈ t.rest, g.1 ≠ [] ∧ (∀ i ∈ g.1, i.Wf) ∧ '[' ∉ g.2

/-- How it is written. -/
def Item.render : Item → Str
  | .num ds => ds
  | .range a b none => a ++ '-' :: b
  | .range a b (some s) => a ++ '-' :: b ++ '%' :: s

def renderItems : List Item → Str
  | [] => []
  | [i] => i.render
  | i :: is => i.render ++ ',' :: renderItems is

def renderRest : List (List Item × Str) → Str
  | [] => []
  | g :: gs => '[' :: renderItems g.1 ++ ']' :: g.2 ++ renderRest gs

def Template.render (t : Template) : Str := t.lit ++ renderRest t.rest

/-- The numbers `a`, `a + s`, …, `a + k s`. -/
def progression (a s k : Nat) : List Nat := (List.range (k + 1)).map fun j => a + s * j

/-- How a number of a range is written: with as many digits as the ends if these have the same number of digits. -/
def numeral (a b : Str) (n : Nat) : Str := if a.length = b.length then (Nat.repr n).toList.leftpad a.length '0' else (Nat.repr n).toList

/-- What an entry stands for; nothing if the range is empty or the step does not lead from its start to its end. -/
def Item.texts : Item → Option (List Str)
  | .num ds => some [ds]
  | .range a b s =>
    let st := (s.map value).getD 1
    if value a ≤ value b ∧ 0 < st ∧ st ∣ value b - value a then some ((progression (value a) st ((value b - value a) / st)).map (numeral a b)) else none

def Template.Good (t : Template) : Prop := ∀ g ∈ t.rest, ∀ i ∈ g.1, i.texts ≠ none

/-- The texts of a bracket. -/
def groupTexts (g : List Item) : List Str := g.flatMap fun i => i.texts.getD []

/-- All combinations, the later brackets changing faster. -/
def combos (lit : Str) : List (List Item × Str) → List Str
  | [] => [lit]
  | g :: gs => (groupTexts g.1).flatMap fun v => combos (lit ++ v ++ g.2) gs

def Template.product (t : Template) : List Str := combos t.lit t.rest

/-- The function ends with this, and needs no more rounds than some number. -/
def Yields (args : List Str) (x : Res (List Str)) : Prop := ∃ n, ∀ fuel, n ≤ fuel → expandString fuel args = x

end Verif.Expand
