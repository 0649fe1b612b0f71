import Verif.Str.Model

/-!
# Model of the wrappers for reading and seeking (`/repo/include/Lintel/Posix.hpp:55-84`, `/repo/src/stdio_64.cpp:21-62`)

The system is modelled by what POSIX promises: `read` gives some of the bytes that are asked for and left in the file, at least one unless none are asked for or
left, or fails; `lseek` moves to a position that is not negative, or fails. Positions do not overflow. `fflush` before seeking makes the position of the descriptor that of the stream.
-/

namespace Verif.Posix
open Verif Verif.Str

/-- What the system may do in one `read`: fail, or give at most this many bytes (and at least one, if it can). Used in the model of `Posix.hpp:73-82` (`readLoop`). -/
inductive Sys where
  | fail
  | gives (k : Nat)
deriving DecidableEq, Repr

/-- The bytes one `read` of `want` gives, out of those left in the file. Used in the model of `Posix.hpp:73-82` (`readLoop`). -/
def chunk (file : Str) (want k : Nat) : Str := file.take (min want (max 1 k))

/-- What is in the caller's buffer, what was returned and what is left of the file. Used in the model of `Posix.hpp:73-82` (`readLoop`). -/
structure Got where
  buf : Str
  ret : Int
  file : Str
deriving DecidableEq, Repr

/-- The loop of `readN`, `Posix.hpp:73-82`; `buf` is what was read so far, so `buf2 = buf + |buf|` and `left = n - |buf|`. Every `read` asks for `n`. What it puts past
the `n` bytes of the caller's buffer is undefined. Out of answers, the call has not returned yet. -/
def readLoop (n : Nat) : List Sys → Str → Str → Option (Res Got)
  | [], _, _ => none
  | .fail :: _, _, _ => some .abort
  | .gives k :: rs, file, buf =>
    let c := chunk file n k
    if n < buf.length + c.length then some .ub
    else if c.length = 0 then some (.ok ⟨buf, n - (n - buf.length : Int), file⟩)
    else if (n - buf.length : Int) - c.length ≠ 0 then readLoop n rs (file.drop c.length) (buf ++ c)
    else some (.ok ⟨buf ++ c, n, file.drop c.length⟩)

/-- `posix::readN`, `Posix.hpp:70-84`. -/
def readN (n : Nat) (rs : List Sys) (file : Str) : Option (Res Got) := readLoop n rs file []

/-- `posix::read0`, `Posix.hpp:63-68`. -/
def read0 (n : Nat) (r : Sys) (file : Str) : Res Got :=
  match r with
  | .fail => .abort
  | .gives k =>
    let c := chunk file n k
    if c.length = n then .ok ⟨c, n, file.drop c.length⟩ else .abort

/-! ## `stdio_64.cpp` -/

/-- Used in the model of `stdio_64.cpp:21-28` (`fseek64`). -/
inductive Whence where
  | set
  | cur
  | fromEnd
deriving DecidableEq, Repr

/-- A stream on a file that can be positioned. Used in the model of `stdio_64.cpp:21-28` (`fseek64`). -/
structure File where
  pos : Int
  size : Int
deriving DecidableEq, Repr

/-- Where seeking starts. Used in the model of `stdio_64.cpp:21-28` (`lseek`). -/
def File.base (f : File) : Whence → Int
  | .set => 0
  | .cur => f.pos
  | .fromEnd => f.size

/-- `lseek64`: the new position, or -1 with the old one kept. Used in the model of `stdio_64.cpp:21-28` (`fseek64`). -/
def lseek (f : File) (off : Int) (w : Whence) : Int × File :=
  if 0 ≤ f.base w + off then (f.base w + off, { f with pos := f.base w + off }) else (-1, f)

/-- `fseek64`, `stdio_64.cpp:21-28`. -/
def fseek64 (f : File) (off : Int) (w : Whence) : Int × File :=
  let r := lseek f off w
  if r.1 = off then (0, r.2) else (-1, r.2)

/-- `ftell64`, `stdio_64.cpp:30-34`. -/
def ftell64 (f : File) : Int × File := lseek f 0 .cur

/-- How `fopen64` treats a mode: ends the program, opens for reading, or opens for writing a file that is emptied. Used in the model of `stdio_64.cpp:42-57` (`fopen64`). -/
inductive Open where
  | exits
  | reads
  | writes
deriving DecidableEq, Repr

/-- A C string: its bytes, and the terminating zero. Beyond it is undefined. Used in the model of `stdio_64.cpp:42-57` (`fopen64`). -/
def charAt (s : Str) (i : Nat) : Res Byte :=
  if i < s.length then .ok (s.getD i 0) else if i = s.length then .ok 0 else .ub

/-- The checks of `fopen64`, `stdio_64.cpp:42-57`. -/
def fopen64 (mode : Str) : Res Open := do
  let m1 ← charAt mode 1
  let two ← if m1 ≠ 0 then charAt mode 2 else pure 0
  if two ≠ 0 then pure .exits
  else if m1 ≠ 98 && m1 ≠ 0 then pure .exits
  else do
    let m0 ← charAt mode 0
    if m0 = 114 then pure .reads else if m0 = 119 then pure .writes else pure .exits

end Verif.Posix
