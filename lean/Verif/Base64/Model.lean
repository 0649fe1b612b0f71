import Verif.Res

/-!
# Model of `ASCIIbeticalB64` (`/repo/include/Lintel/Base64.hpp`)

Bytes are `Fin 256`. `uint32_t` variables are `Nat` with explicit reduction modulo `2^32`.
-/

namespace Verif.Base64

/-- Used in the model of `Base64.hpp:24-28` (`translate`). -/
abbrev Byte := Fin 256
/-- Used in the model of `Base64.hpp:54-64` (`decodeLoop`). -/
abbrev Str := List Byte

/-- `2^32`. Used in the model of `Base64.hpp:54-64` (`decodeLoop`). -/
def U32 : Nat := 4294967296

/-- `translate()[v]`, `Base64.hpp:24-28`, for `v < 64`: the table
`"+,0123456789ABC...Zabc...z"`; checked against the literal below. -/
def translate (v : Nat) : Byte :=
  if v = 0 then 43 else if v = 1 then 44
  else if v < 12 then Fin.ofNat 256 (46 + v)
  else if v < 38 then Fin.ofNat 256 (53 + v)
  else Fin.ofNat 256 (59 + v)

example : (List.range 64).map (fun v => (translate v).val) =
    "+,0123456789ABCDEFGHIJKLMNOPQRSTUVWXYZabcdefghijklmnopqrstuvwxyz".toList.map Char.toNat := by
  decide

/-- `detranslate()[c]`, `Base64.hpp:30-41`. `none`: the entry is never initialised, or `c` is
at least 128, where the index `(uint32_t)(char)c` lies far outside the 256-entry table. -/
def detranslate (c : Byte) : Option Nat :=
  if c.val < 128 then (List.range 64).find? (fun v => translate v = c) else none

/-- The loop of `decode`, `Base64.hpp:54-64`; `room` is `ret_size - out_off`. -/
def decodeLoop : Str → Nat → Nat → Nat → Res Str
  | [], _, _, _ => .ok []
  | c :: cs, room, buf, bits =>
    if room = 0 then .ok []
    else match detranslate c with
      | none => .ub
      | some v =>
        let buf := (buf + (v * 2 ^ (32 - 6 - bits)) % U32) % U32
        let bits := bits + 6
        if bits ≥ 8 then do
          let rest ← decodeLoop cs (room - 1) (buf * 2 ^ 8 % U32) (bits - 8)
          pure (Fin.ofNat 256 (buf / 2 ^ 24) :: rest)
        else decodeLoop cs room buf bits

/-- `decode`, `Base64.hpp:47-66`. The result string is pre-filled with `'+'`
(`translate()[0]`) up to `size*6/8`. `ret_size` is an `int32_t`; sizes from `2^31*8/6` up are
not modelled. -/
def decode (data : Str) : Res Str := do
  let retSize := data.length * 6 / 8
  let out ← decodeLoop data retSize 0 0
  pure (out ++ List.replicate (retSize - out.length) (translate 0))

/-- `encode(uint32_t/uint64_t number, digits, char *)`, `Base64.hpp:77-83` and `103-109`:
fills the digits from the last to the first. -/
def encodeNumLoop (number : Nat) : Nat → Str
  | 0 => []
  | d + 1 => encodeNumLoop (number / 64) d ++ [translate (number % 64)]

/-- `encode(uint32_t, digits)`, `Base64.hpp:68-75`. -/
def encode32 (number : BitVec 32) (digits : Nat) : Str :=
  encodeNumLoop number.toNat (if digits = 0 then 6 else digits)

/-- `encode(uint64_t, digits)`, `Base64.hpp:94-101`. -/
def encode64 (number : BitVec 64) (digits : Nat) : Str :=
  encodeNumLoop number.toNat (if digits = 0 then 11 else digits)

/-- `encode(int32_t, digits)`, `Base64.hpp:85-87`: the bits reinterpreted as unsigned. -/
def encodeS32 (number : Int) (digits : Nat) : Str := encode32 (BitVec.ofInt 32 number) digits

/-- The "spare bits" loop, `Base64.hpp:155-159`; `bits` is a `uint32_t`, so `bits -= 6`
wraps. `room` is `digits - out_off`. -/
def spareLoop : Nat → Nat → Nat → Str
  | 0, _, _ => []
  | room + 1, buf, bits =>
    if bits > 0 then
      translate (buf / 2 ^ 26) :: spareLoop room (buf * 2 ^ 6 % U32) ((bits + U32 - 6) % U32)
    else []

/-- The main loop of `encode(const void *, size, digits, char *)`, `Base64.hpp:143-153`,
followed by the spare loop. Returns the digits written, from `ret[0]` on. -/
def encodeLoop : Nat → Str → Nat → Nat → Str
  | room, [], buf, bits => spareLoop room buf bits
  | 0, _ :: _, _, _ => []
  | room + 1, c :: cs, buf, bits =>
    if bits < 6 then
      let buf := (buf + (c.val * 2 ^ (32 - 8 - bits)) % U32) % U32
      let bits := bits + 8
      translate (buf / 2 ^ 26) :: encodeLoop room cs (buf * 2 ^ 6 % U32) (bits - 6)
    else
      translate (buf / 2 ^ 26) :: encodeLoop room (c :: cs) (buf * 2 ^ 6 % U32) (bits - 6)

/-- `encode(const void *, size, digits)`, `Base64.hpp:120-133`; the string is pre-filled with
`'+'`. `digits` is an `int32_t` (`size * 8` must stay below `2^31`). -/
def encodeBytes (data : Str) (digits : Nat) : Str :=
  let digits :=
    if digits = 0 then
      let d := data.length * 8
      if d % 6 = 0 then d / 6 else d / 6 + 1
    else digits
  let out := encodeLoop digits data 0 0
  out ++ List.replicate (digits - out.length) (translate 0)

/-- The loop of `encodeBackward`, `Base64.hpp:173-183`. `rem` holds the unread input bytes,
last byte first; reading when none is left is reading before the buffer. Returns the digits
last first. The loop at 185-189 never runs (`out_off` is already negative). -/
def backwardLoop : Nat → Str → Nat → Nat → Res Str
  | 0, _, _, _ => .ok []
  | room + 1, rem, buf, bits =>
    if bits < 6 then
      match rem with
      | [] => .ub
      | c :: cs =>
        let buf := (buf + (c.val * 2 ^ bits) % U32) % U32
        let bits := bits + 8
        (backwardLoop room cs (buf / 64) (bits - 6)).map (translate (buf % 64) :: ·)
    else (backwardLoop room rem (buf / 64) (bits - 6)).map (translate (buf % 64) :: ·)

/-- `encodeBackward`, `Base64.hpp:165-190`. -/
def encodeBackward (data : Str) (digits : Nat) : Res Str :=
  (backwardLoop digits data.reverse 0 0).map List.reverse

end Verif.Base64
