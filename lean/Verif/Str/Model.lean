import Verif.Res

/-!
# Model of the string utilities (`/repo/src/StringUtil.cpp`)

A byte (`char`/`unsigned char`) is `Fin 256`; a `std::string` is a list of bytes.
`int` is 32-bit two's complement and `size_t` is 64-bit; conversions between them are
modelled, because the code stores `find` results in `int`.

Library functions are modelled by their standard meaning: `std::string::find`, `substr`,
`insert`, `compare`, the `<cctype>` predicates in the "C" locale.
Simplification: `isprint`/`isxdigit` applied to a negative `char` (bytes 128-255) is
undefined by the C standard and answers "no" in glibc; the model answers "no".
-/

namespace Verif.Str

/-- Used in the model of `StringUtil.cpp:86-113` (`mysqlTable`). -/
abbrev Byte := Fin 256
/-- Used in the model of `StringUtil.cpp:46-57` (`splitLoop`). -/
abbrev Str := List Byte

/-- Truncation to a 32-bit `int`. Used in the model of `StringUtil.cpp:46-57` (`splitLoop`). -/
def int32 (x : Int) : Int := Int.bmod x (2 ^ 32)

/-- Conversion to `size_t`. Used in the model of `StringUtil.cpp:46-57` (`splitLoop`). -/
def toSize (x : Int) : Nat := (x % (2 ^ 64 : Int)).toNat

/-- `std::string::npos`. Used in the model of `StringUtil.cpp:46-57` (`find`). -/
def npos : Nat := 2 ^ 64 - 1

/-- The least `p ≥ pos` at which `pat` occurs in `s`. Used in the model of `StringUtil.cpp:46-57` (`find`). -/
def findOpt (s pat : Str) (pos : Nat) : Option Nat :=
  (List.range' pos (s.length + 1 - pos)).find? (fun p => pat.isPrefixOf (s.drop p))

/-- `s.find(pat, pos)`: the position, or `npos` when there is none. Used in the model of `StringUtil.cpp:46-57` (`splitLoop`). -/
def find (s pat : Str) (pos : Nat) : Nat := (findOpt s pat pos).getD npos

/-- `s.substr(pos, len)`; throws (terminates) when `pos > size()`. Used in the model of `StringUtil.cpp:46-57` (`splitLoop`). -/
def substr (s : Str) (pos len : Nat) : Res Str :=
  if pos ≤ s.length then .ok ((s.drop pos).take len) else .abort

/-- `s.insert(pos, t)`. Used in the model of `StringUtil.cpp:240-243` (`csvLoop`). -/
def insert (s : Str) (pos : Nat) (t : Str) : Res Str :=
  if pos ≤ s.length then .ok (s.take pos ++ t ++ s.drop pos) else .abort

/-- The loop of `split`, `StringUtil.cpp:46-57`. `fuel` bounds the iterations; running out
is `ub` (no result), so a theorem giving `ok` includes termination. -/
def splitLoop (instr sep : Str) : Nat → Int → List Str → Res (List Str)
  | 0, _, _ => .ub
  | fuel + 1, startbit, bits =>
    let endbit := int32 (find instr sep (toSize startbit))
    if endbit < 0 then do
      let piece ← substr instr (toSize startbit) (toSize ((instr.length : Int) - startbit))
      pure (bits ++ [piece])
    else do
      Res.require (decide (endbit ≥ startbit))
      let piece ← substr instr (toSize startbit) (toSize (endbit - startbit))
      splitLoop instr sep fuel (int32 ((toSize endbit : Int) + sep.length)) (bits ++ [piece])

/-- `split`, `StringUtil.cpp:43-58`; `bits` is the vector appended to. -/
def split (instr sep : Str) (bits : List Str) : Res (List Str) := do
  Res.require (decide (sep.length > 0))
  splitLoop instr sep (instr.length + 1) 0 bits

/-- The second loop of `join`, `StringUtil.cpp:73-78`; `first` is `i == bits.begin()`.
The size computation (lines 63-71) only reserves memory and is omitted. -/
def joinLoop (joinstr : Str) : Bool → Str → List Str → Str
  | _, ret, [] => ret
  | first, ret, b :: bs =>
    let ret := if first then ret else ret ++ joinstr
    joinLoop joinstr false (ret ++ b) bs

/-- `join`, `StringUtil.cpp:60-80`. -/
def join (joinstr : Str) (bits : List Str) : Str := joinLoop joinstr true [] bits

/-- `mysql_escape_table`, `StringUtil.cpp:86-113`; 0 is "no escape". -/
def mysqlTable (c : Byte) : Byte :=
  if c = 0 then 48          -- '0'
  else if c = 8 then 98     -- 'b'
  else if c = 9 then 116    -- 't'
  else if c = 10 then 110   -- 'n'
  else if c = 13 then 114   -- 'r'
  else if c = 26 then 90    -- 'Z'
  else if c = 34 then 34    -- '"'
  else if c = 39 then 39    -- '\''
  else if c = 92 then 92    -- '\\'
  else 0

/-- `mysqlEscape(const void *, unsigned)`, `StringUtil.cpp:115-135`: the loop over the
data. The argument is the `datasize` bytes. -/
def mysqlEscape : Str → Str
  | [] => []
  | c :: cs =>
    if mysqlTable c ≠ 0 then 92 :: mysqlTable c :: mysqlEscape cs
    else c :: mysqlEscape cs

/-- `mysqlEscape(const std::string &)`, `StringUtil.hpp:50-52`: the size is passed as a
32-bit `unsigned`. -/
def mysqlEscapeS (s : Str) : Str := mysqlEscape (s.take (s.length % 2 ^ 32))

/-- `hextable[v]`, `StringUtil.cpp:142`, for `v < 16`. -/
def hexDigit (v : Nat) : Byte :=
  if v < 10 then Fin.ofNat 256 (48 + v) else Fin.ofNat 256 (87 + v)

/-- `hexstring(const void *, unsigned)`, `StringUtil.cpp:144-154`. -/
def hexstring : Str → Str
  | [] => []
  | c :: cs => hexDigit (c.val / 16 % 16) :: hexDigit (c.val % 16) :: hexstring cs

/-- `hexstring(const std::string &)`, `StringUtil.hpp:58-60`. -/
def hexstringS (s : Str) : Str := hexstring (s.take (s.length % 2 ^ 32))

/-- `isprint` of an unsigned byte value in the "C" locale. Used in the model of `StringUtil.cpp:167-176` (`maybehexstring`). -/
def isprint (c : Byte) : Bool := 32 ≤ c.val && c.val < 127

/-- `isascii`. Used in the model of `StringUtil.cpp:167-176` (`maybehexstring`). -/
def isascii (c : Byte) : Bool := c.val < 128

/-- `isxdigit`. Used in the model of `StringUtil.cpp:282-292` (`ishexstring`). -/
def isxdigit (c : Byte) : Bool :=
  (48 ≤ c.val && c.val ≤ 57) || (97 ≤ c.val && c.val ≤ 102) || (65 ≤ c.val && c.val ≤ 70)

/-- `maybehexstring(const std::string &)`, `StringUtil.cpp:167-176`. -/
def maybehexstring (a : Str) : Str :=
  if a.all (fun c => isprint c && isascii c) then a else hexstringS a

/-- `eu_escape`, `StringUtil.cpp:179-181`. -/
def euEscape (c : Byte) : Bool := !(isprint c && isascii c) || c == 37

/-- `escapeUnprintable`, `StringUtil.cpp:184-224`; the inner loop copies a maximal run of
unescaped characters, here one character at a time. -/
def escapeUnprintable : Str → Str
  | [] => []
  | c :: cs =>
    if euEscape c then
      if c = 37 then 37 :: 37 :: escapeUnprintable cs
      else 37 :: hexDigit (c.val / 16 % 16) :: hexDigit (c.val % 16) :: escapeUnprintable cs
    else c :: escapeUnprintable cs

/-- The quote-doubling loop of `toCSVform`, `StringUtil.cpp:240-243`. -/
def csvLoop : Nat → Str → Int → Res Str
  | 0, _, _ => .ub
  | fuel + 1, ret, pos =>
    let pos := int32 (find ret [34] (toSize pos))
    if pos ≥ 0 then do
      let ret ← insert ret (toSize pos) [34]
      csvLoop fuel ret (int32 (pos + 2))
    else .ok ret

/-- `toCSVform`, `StringUtil.cpp:233-248`. -/
def toCSVform (s : Str) : Res Str :=
  if int32 (find s [44] 0) ≥ 0 then do
    let ret ← insert s 0 [34]
    let ret ← csvLoop (ret.length + 1) ret 1
    pure (ret ++ [34])
  else .ok s

/-- `unpackhexchar`, `StringUtil.cpp:250-259`. -/
def unpackhexchar (v : Byte) : Res Nat :=
  if 48 ≤ v.val ∧ v.val ≤ 57 then .ok (v.val - 48)
  else if 97 ≤ v.val ∧ v.val ≤ 102 then .ok (10 + v.val - 97)
  else if 65 ≤ v.val ∧ v.val ≤ 70 then .ok (10 + v.val - 65)
  else .abort

/-- `unpackhex`, `StringUtil.cpp:261-265`. -/
def unpackhex (a b : Byte) : Res Byte := do
  let v1 ← unpackhexchar a
  let v2 ← unpackhexchar b
  pure (Fin.ofNat 256 ((v1 <<< 4) ||| v2))

/-- The loop of `hex2raw(const char *, uint32_t)`, `StringUtil.cpp:272-274`. -/
def hexPairs : Str → Res Str
  | a :: b :: rest => do
    let c ← unpackhex a b
    let cs ← hexPairs rest
    pure (c :: cs)
  | _ => .ok []

/-- `hex2raw(const char *, uint32_t)`, `StringUtil.cpp:267-276`. -/
def hex2raw (s : Str) : Res Str := do
  Res.require (decide (s.length % 2 = 0))
  hexPairs s

/-- `hex2raw(const std::string &)`, `StringUtil.cpp:278-280`: 32-bit size. -/
def hex2rawS (s : Str) : Res Str := hex2raw (s.take (s.length % 2 ^ 32))

/-- `ishexstring`, `StringUtil.cpp:282-292` (the `uint32_t` loop counter would loop for
ever on 4 GiB strings; not modelled). -/
def ishexstring (s : Str) : Bool := s.length % 2 == 0 && s.all isxdigit

/-- `maybehex2raw`, `StringUtil.cpp:294-296`. -/
def maybehex2raw (s : Str) : Res Str := if ishexstring s then hex2rawS s else .ok s

/-- `prefixequal`, `StringUtil.cpp:298-300`. -/
def prefixequal (s pre : Str) : Bool := s.length ≥ pre.length && s.take pre.length == pre

/-- `suffixequal`, `StringUtil.cpp:302-306`. -/
def suffixequal (s suf : Str) : Bool :=
  if s.length < suf.length then false
  else (s.drop (s.length - suf.length)).take suf.length == suf

/-! ## IPv4 -/

/-- `%d` of a number below 1000 (boost::format). Used in the model of `StringUtil.cpp:308-314` (`ipv4tostring`). -/
def decimal (n : Nat) : Str :=
  if n < 10 then [Fin.ofNat 256 (48 + n)]
  else if n < 100 then [Fin.ofNat 256 (48 + n / 10), Fin.ofNat 256 (48 + n % 10)]
  else [Fin.ofNat 256 (48 + n / 100), Fin.ofNat 256 (48 + n / 10 % 10), Fin.ofNat 256 (48 + n % 10)]

/-- `ipv4tostring`, `StringUtil.cpp:308-314`. -/
def ipv4tostring (val : BitVec 32) : Str :=
  decimal ((val >>> 24) &&& 0xFF).toNat ++ [(46 : Byte)] ++ decimal ((val >>> 16) &&& 0xFF).toNat ++ [(46 : Byte)] ++
  decimal ((val >>> 8) &&& 0xFF).toNat ++ [(46 : Byte)] ++ decimal ((val >>> 0) &&& 0xFF).toNat

/-- One number of `inet_aton`: value of a character in the given base, if a digit. Made of the parts of `StringUtil.cpp:86-113`. -/
def digitVal (base : Nat) (c : Byte) : Option Nat :=
  if 48 ≤ c.val ∧ c.val ≤ 57 then
    if c.val - 48 < base then some (c.val - 48) else none
  else if base = 16 ∧ 97 ≤ c.val ∧ c.val ≤ 102 then some (c.val - 87)
  else if base = 16 ∧ 65 ≤ c.val ∧ c.val ≤ 70 then some (c.val - 55)
  else none

/-- Digits of one part. Made of the parts of `StringUtil.cpp:46-113`. -/
def parseDigits (base : Nat) : Nat → Str → Nat × Str
  | acc, c :: cs =>
    match digitVal base c with
    | some v => parseDigits base (acc * base + v) cs
    | none => (acc, c :: cs)
  | acc, [] => (acc, [])

/-- One part of the address as `inet_aton` reads it: decimal, `0` octal, `0x` hex; the first
character must be a digit. Made of the parts of `StringUtil.cpp:46-113`. -/
def parsePart : Str → Option (Nat × Str)
  | [] => none
  | c :: cs =>
    if 48 ≤ c.val ∧ c.val ≤ 57 then
      if c = 48 then
        match cs with
        | x :: rest =>
          if x = 120 ∨ x = 88 then some (parseDigits 16 0 rest) else some (parseDigits 8 0 (x :: rest))
        | [] => some (0, [])
      else some (parseDigits 10 0 (c :: cs))
    else none

/-- All dotted parts (at most `n`); the remaining text after the last one. Used in the model of `StringUtil.cpp:319-325` (`inetAddr`). -/
def parseParts : Nat → Str → Option (List Nat × Str)
  | 0, _ => none
  | n + 1, s =>
    match parsePart s with
    | none => none
    | some (v, 46 :: rest) =>
      match parseParts n rest with
      | some (vs, r) => some (v :: vs, r)
      | none => none
    | some (v, rest) => some ([v], rest)

/-- `inet_addr` in host byte order (`ntohl(inet_addr(s))`), library behaviour: one to four
parts, the last filling the remaining bytes, optional trailing white space ignored after the
address; `0xFFFFFFFF` stands for the error value `(in_addr_t)-1`. Used in the model of `StringUtil.cpp:319-325` (`stringtoipv4`). -/
def inetAddr (s : Str) : Nat :=
  match parseParts 4 s with
  | none => 0xFFFFFFFF
  | some (vs, rest) =>
    match rest with
    | c :: _ => if c.val = 32 ∨ (9 ≤ c.val ∧ c.val ≤ 13) then value vs else 0xFFFFFFFF
    | [] => value vs
where
  value : List Nat → Nat
    | [a] => if a < 2 ^ 32 then a else 0xFFFFFFFF
    | [a, b] => if a < 256 ∧ b < 2 ^ 24 then a * 2 ^ 24 + b else 0xFFFFFFFF
    | [a, b, c] => if a < 256 ∧ b < 256 ∧ c < 2 ^ 16 then a * 2 ^ 24 + b * 2 ^ 16 + c else 0xFFFFFFFF
    | [a, b, c, d] => if a < 256 ∧ b < 256 ∧ c < 256 ∧ d < 256 then
        a * 2 ^ 24 + b * 2 ^ 16 + c * 2 ^ 8 + d else 0xFFFFFFFF
    | _ => 0xFFFFFFFF

/-- `stringtoipv4`, `StringUtil.cpp:319-325`. -/
def stringtoipv4 (s : Str) : Res (BitVec 32) := do
  Res.require (decide (inetAddr s ≠ 0xFFFFFFFF))
  pure (BitVec.ofNat 32 (inetAddr s))

end Verif.Str
