import Verif.Str.Model

/-!
# `stringToDouble` (`/repo/src/StringUtil.cpp:329-337`)

`strtod` is the C library's; the part of it modelled is which characters it takes and what number
they spell, in the "C" locale (C99 7.20.1.3, with hexadecimal numbers, infinities and nans). The number is
given exactly; the rounding to a `double` is not modelled.
-/

namespace Verif.Str.Dbl

/-- `isspace` in the "C" locale. Used in the model of `StringUtil.cpp:329-337` (`strtod`). -/
def isSpace (b : Byte) : Bool := b.val == 32 || (decide (9 ≤ b.val) && decide (b.val ≤ 13))

/-- The value of a decimal digit. Used in the model of `StringUtil.cpp:329-337` (`scanExp`). -/
def dec (b : Byte) : Option Nat := if 48 ≤ b.val ∧ b.val ≤ 57 then some (b.val - 48) else none

/-- The value of a hexadecimal digit. Used in the model of `StringUtil.cpp:329-337` (`scanBody`). -/
def hex (b : Byte) : Option Nat :=
  if 48 ≤ b.val ∧ b.val ≤ 57 then some (b.val - 48)
  else if 65 ≤ b.val ∧ b.val ≤ 70 then some (b.val - 55)
  else if 97 ≤ b.val ∧ b.val ≤ 102 then some (b.val - 87)
  else none

/-- Is it the letter `c` (given in lower case)? Used in the model of `StringUtil.cpp:329-337` (`scanExp`). -/
def isLetter (c : Nat) (b : Byte) : Bool := b.val == c || b.val + 32 == c

/-- What a number is, before it is rounded: `mant * base ^ (-frac) * ebase ^ exp`, an infinity or a nan. Used in the model of `StringUtil.cpp:329-337` (`stringToDouble`). -/
inductive Num where
  | fin (neg : Bool) (base ebase mant frac : Nat) (exp : Int)
  | inf (neg : Bool)
  | nan (neg : Bool)
deriving DecidableEq, Repr

/-- The value of a string of digits. Used in the model of `StringUtil.cpp:329-337` (`scanExp`). -/
def digitsVal (dig : Byte → Option Nat) (base : Nat) (ds : Str) : Nat := ds.foldl (fun n b => n * base + (dig b).getD 0) 0

/-- An optional sign: is it a minus, and what follows. Used in the model of `StringUtil.cpp:329-337` (`strtod`). -/
def scanSign : Str → Bool × Str
  | [] => (false, [])
  | b :: s => if b.val = 45 then (true, s) else if b.val = 43 then (false, s) else (false, b :: s)

/-- The digits after the point, and what follows. Used in the model of `StringUtil.cpp:329-337` (`scanNum`). -/
def scanFrac (dig : Byte → Option Nat) : Str → Str × Str
  | [] => ([], [])
  | b :: s => if b.val = 46 then (s.takeWhile fun x => (dig x).isSome, s.dropWhile fun x => (dig x).isSome) else ([], b :: s)

/-- The exponent, if there is a whole one. Made of the parts of `StringUtil.cpp:329-337`. -/
def scanExp (letter : Nat) : Str → Int × Str
  | [] => (0, [])
  | b :: s =>
    if isLetter letter b then
      let r := scanSign s
      let ds := r.2.takeWhile fun x => (dec x).isSome
      if ds = [] then (0, b :: s)
      else ((if r.1 then -(digitsVal dec 10 ds : Int) else (digitsVal dec 10 ds : Int)), r.2.dropWhile fun x => (dec x).isSome)
    else (0, b :: s)

/-- The longest number at the start: digits, point, digits, exponent. Made of the parts of `StringUtil.cpp:329-337`. -/
def scanNum (dig : Byte → Option Nat) (base ebase letter : Nat) (neg : Bool) (s : Str) : Option (Num × Str) :=
  let ip := s.takeWhile fun x => (dig x).isSome
  let f := scanFrac dig (s.dropWhile fun x => (dig x).isSome)
  if ip = [] ∧ f.1 = [] then none
  else
    let e := scanExp letter f.2
    some (.fin neg base ebase (digitsVal dig base (ip ++ f.1)) f.1.length e.1, e.2)

/-- The rest after a word in any case, if it is there. Used in the model of `StringUtil.cpp:329-337` (`scanBody`). -/
def scanWord : List Nat → Str → Option Str
  | [], s => some s
  | _ :: _, [] => none
  | c :: cs, b :: s => if isLetter c b then scanWord cs s else none

/-- A character allowed between the brackets of `nan(...)`. Used in the model of `StringUtil.cpp:329-337` (`scanBrackets`). -/
def isNanChar (b : Byte) : Bool :=
  (decide (48 ≤ b.val) && decide (b.val ≤ 57)) || (decide (65 ≤ b.val) && decide (b.val ≤ 90)) ||
    (decide (97 ≤ b.val) && decide (b.val ≤ 122)) || b.val == 95

/-- The brackets after `nan`, if they are whole. Used in the model of `StringUtil.cpp:329-337` (`scanBody`). -/
def scanBrackets : Str → Str
  | [] => []
  | b :: s =>
    if b.val = 40 then
      match s.dropWhile isNanChar with
      | [] => b :: s
      | c :: r => if c.val = 41 then r else b :: s
    else b :: s

/-- The number after the sign, and what follows. Used in the model of `StringUtil.cpp:329-337` (`strtod`). -/
def scanBody (neg : Bool) (s : Str) : Option (Num × Str) :=
  match scanWord [105, 110, 102, 105, 110, 105, 116, 121] s with
  | some r => some (.inf neg, r)
  | none =>
    match scanWord [105, 110, 102] s with
    | some r => some (.inf neg, r)
    | none =>
      match scanWord [110, 97, 110] s with
      | some r => some (.nan neg, scanBrackets r)
      | none =>
        match s with
        | z :: x :: r =>
          if z.val = 48 ∧ isLetter 120 x = true then
            match scanNum hex 16 2 112 neg r with
            | some q => some q
            | none => scanNum dec 10 10 101 neg s
          else scanNum dec 10 10 101 neg s
        | _ => scanNum dec 10 10 101 neg s

/-- `strtod`: the number and the characters from `*endptr` on; without a number it is zero and
`*endptr` is the start. Used in the model of `StringUtil.cpp:329-337` (`stringToDouble`). -/
def strtod (s : Str) : Num × Str :=
  let r := scanSign (s.dropWhile isSpace)
  match scanBody r.1 r.2 with
  | some q => q
  | none => (.fin false 10 10 0 0 0, s)

/-- `str.c_str()` as C functions see it: up to the first NUL. Used in the model of `StringUtil.cpp:329-337` (`stringToDouble`). -/
def cStr (s : Str) : Str := s.takeWhile fun b => decide (b.val ≠ 0)

/-- `stringToDouble`, `StringUtil.cpp:329-337`. -/
def stringToDouble (s : Str) : Res Num := do
  Res.require (decide (s.length > 0))
  let r := strtod (cStr s)
  Res.require (decide (r.2 = []))
  pure r.1

/-! ## What is a number -/

/-- A sign or nothing. -/
def Sign (t : Str) (neg : Bool) : Prop := (t = [] ∧ neg = false) ∨ (t = [43] ∧ neg = false) ∨ (t = [45] ∧ neg = true)

/-- An exponent or nothing. -/
def Expo (letter : Nat) (t : Str) (e : Int) : Prop :=
  (t = [] ∧ e = 0) ∨
  ∃ c sg neg ds, isLetter letter c = true ∧ Sign sg neg ∧ ds ≠ [] ∧ (∀ d ∈ ds, (dec d).isSome = true) ∧ t = c :: (sg ++ ds) ∧
    e = (if neg then -1 else 1) * (digitsVal dec 10 ds : Int)

/-- Digits with perhaps a point among, before or after them, and perhaps an exponent. -/
def Plain (dig : Byte → Option Nat) (base ebase letter : Nat) (neg : Bool) (t : Str) (v : Num) : Prop :=
  ∃ ip fp ex e, (∀ d ∈ ip, (dig d).isSome = true) ∧ (∀ d ∈ fp, (dig d).isSome = true) ∧ (ip ≠ [] ∨ fp ≠ []) ∧ Expo letter ex e ∧
    ((t = ip ++ ex ∧ fp = []) ∨ t = ip ++ 46 :: (fp ++ ex)) ∧
    v = .fin neg base ebase (digitsVal dig base (ip ++ fp)) fp.length e

/-- A word in any case. -/
def Spells : List Nat → Str → Prop
  | [], t => t = []
  | c :: cs, t => ∃ b r, t = b :: r ∧ isLetter c b = true ∧ Spells cs r

/-- A number without its sign. -/
def Body (neg : Bool) (t : Str) (v : Num) : Prop :=
  Plain dec 10 10 101 neg t v ∨
  (∃ x r, t = 48 :: x :: r ∧ isLetter 120 x = true ∧ Plain hex 16 2 112 neg r v) ∨
  ((Spells [105, 110, 102] t ∨ Spells [105, 110, 102, 105, 110, 105, 116, 121] t) ∧ v = .inf neg) ∨
  (∃ w br, t = w ++ br ∧ Spells [110, 97, 110] w ∧ v = .nan neg ∧
    (br = [] ∨ ∃ cs, br = 40 :: (cs ++ [41]) ∧ ∀ c ∈ cs, isNanChar c = true))

/-- A number, with blanks before it. -/
def IsNumber (t : Str) (v : Num) : Prop :=
  ∃ sp sg neg w, (∀ b ∈ sp, isSpace b = true) ∧ Sign sg neg ∧ Body neg w v ∧ t = sp ++ (sg ++ w)

end Verif.Str.Dbl
