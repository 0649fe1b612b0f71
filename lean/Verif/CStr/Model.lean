import Verif.Hash.Model
import Verif.Str.Model

/-!
# Model of `ConstantString` (`/repo/include/Lintel/ConstantString.hpp`, `/repo/src/ConstantString.cpp`)

The string pool is modelled down to its memory: buffers of bytes whose initial contents are arbitrary, records of length, text
and terminating zero, pointers into buffers, and the hash table (the model of `HashTable`) of pointers which hashes and
compares through memory. Writing outside a buffer is undefined. Host byte order is little endian.

Not modelled: the counters `nstrings` and `string_bytes`, which only `dumpInfo` prints; alignment; running out of memory.
-/

namespace Verif.CStr

open Verif.Hash Verif.Str

/-- What the outside world supplies: the hash function (`lintel::hashBytes`, any function here) and the contents of freshly
allocated memory. Used in the model of `ConstantString.hpp:133-138` (`hteHash`). -/
structure Env where
  hash : Str → Nat
  junk : Nat → Nat → Byte

/-- `ConstantString::buffer`, `ConstantString.hpp:120-124`. -/
structure Buf where
  mem : Nat → Byte
  size : Nat
  used : Nat

/-- `ConstantStringValue *`: at a place in one of the buffers, or `init_buffer + 4`. Used in the model of `ConstantString.cpp:27-35` (`State`). -/
inductive Ptr where
  | tmp
  | at (buf off : Nat)
deriving DecidableEq

/-- The static data, `ConstantString.cpp:27-35`. -/
structure State where
  bufs : List Buf
  table : Table Ptr
  empty : Option Ptr
  init : Nat → Byte
  initLen : Nat

/-- Made of the parts of `ConstantString.cpp:27-35`. -/
def initial (env : Env) : State := ⟨[], empty', none, env.junk 0, 0⟩

/-- Copying bytes into memory. Used in the model of `ConstantString.cpp:55-62` (`write`). -/
def blit (mem : Nat → Byte) (off : Nat) (l : Str) : Nat → Byte := fun i =>
  if i < off then mem i else match l[i - off]? with
    | some b => b
    | none => mem i

/-- Reading `n` bytes of memory. Used in the model of `ConstantString.hpp:133-138` (`hteHash`). -/
def read (mem : Nat → Byte) (off n : Nat) : Str := (List.range n).map fun k => mem (off + k)

/-- The bytes of a `uint32_t`. Used in the model of `ConstantString.cpp:55-62` (`fillInit`). -/
def enc (n : Nat) : Str :=
  [Fin.ofNat 256 n, Fin.ofNat 256 (n / 256), Fin.ofNat 256 (n / 65536), Fin.ofNat 256 (n / 16777216)]

/-- Reading a `uint32_t`. Used in the model of `ConstantString.hpp:38-40` (`lenOf`). -/
def dec (mem : Nat → Byte) (off : Nat) : Nat :=
  (mem off).val + 256 * (mem (off + 1)).val + 65536 * (mem (off + 2)).val + 16777216 * (mem (off + 3)).val

/-- A write into a buffer of `size` bytes. Used in the model of `ConstantString.cpp:55-62` (`fillInit`). -/
def write (mem : Nat → Byte) (size off : Nat) (l : Str) : Res (Nat → Byte) :=
  if off + l.length ≤ size then .ok (blit mem off l) else .ub

/-- The memory a pointer points into, and where. Used in the model of `ConstantString.hpp:38-40` (`lenOf`). -/
def place (s : State) : Ptr → (Nat → Byte) × Nat
  | .tmp => (s.init, 4)
  | .at b off => match s.bufs[b]? with
    | some buf => (buf.mem, off)
    | none => (s.init, off)

/-- `ConstantString_length`, `ConstantString.hpp:38-40`. -/
def lenOf (s : State) (p : Ptr) : Nat := dec (place s p).1 ((place s p).2 - 4)

/-- `hteHash`, `ConstantString.hpp:133-138`. -/
def hteHash (env : Env) (s : State) (p : Ptr) : Nat := env.hash (read (place s p).1 (place s p).2 (lenOf s p))

/-- `hteEqual`, `ConstantString.hpp:139-150`. -/
def hteEqual (s : State) (a b : Ptr) : Bool :=
  if lenOf s a ≠ lenOf s b then false
  else decide (read (place s a).1 (place s a).2 (lenOf s a) = read (place s b).1 (place s b).2 (lenOf s a))

/-- `CS_hashtable`, `ConstantString.hpp:162`. -/
def cfg (env : Env) (s : State) : Cfg Ptr := ⟨hteHash env s, hteEqual s, fun n m => decide (n ≥ 2 * m), .tmp⟩

/-- Filling `init_buffer`, `ConstantString.cpp:55-62`. -/
def fillInit (env : Env) (s : State) (t : Str) (slen : Nat) : Res State := do
  let need := (5 + slen) % 2 ^ 32
  let len := if s.initLen < need then need else s.initLen
  let mem := if s.initLen < need then env.junk s.bufs.length else s.init
  let mem ← write mem len 0 (enc slen)
  if t.length < slen then .ub else do
    let mem ← write mem len 4 (t.take slen)
    let mem ← write mem len (4 + slen) [0]
    pure { s with init := mem, initLen := len }

/-- `space_used`, `ConstantString.cpp:71-75`, as it ends up in an `int`. -/
def spaceUsed (slen : Nat) : Int :=
  let n := (slen + 1) % 2 ^ 32
  int32 (n + (4 - n % 4) % 4 + 4 : Nat)

/-- The search for a buffer with room, `ConstantString.cpp:77-78`. -/
def findFit (space : Int) (bufs : List Buf) : Option Nat :=
  bufs.findIdx? fun b => decide ((b.size : Int) - b.used ≥ space)

/-- Storing in buffer `i`, `ConstantString.cpp:79-95`. -/
def store (env : Env) (s : State) (t : Str) (slen : Nat) (space : Int) (i : Nat) : Res (State × Ptr) := do
  let b ← rd s.bufs i
  let mem ← write b.mem b.size b.used (enc slen)
  if t.length < slen then .ub else do
    let mem ← write mem b.size (b.used + 4) (t.take slen)
    let mem ← write mem b.size (b.used + 4 + slen) [0]
    let p := Ptr.at i (b.used + 4)
    let s := { s with
      bufs := s.bufs.set i ⟨mem, b.size, ((b.used : Int) + space).toNat⟩
      empty := if slen = 0 then some p else s.empty }
    let r ← add (cfg env s) s.table p
    pure ({ s with table := r.1 }, p)

/-- `init`, `ConstantString.cpp:37-107`; the fuel counts the calls of itself. -/
def initAux (env : Env) : Nat → State → Str → Nat → Res (State × Ptr)
  | 0, _, _, _ => .ub
  | fuel + 1, s, t, slen =>
    match (if slen = 0 then s.empty else none) with
    | some p => .ok (s, p)
    | none => do
      let s ← fillInit env s t slen
      let r ← lookup (cfg env s) s.table .tmp
      match r with
      | some loc => do
        let p ← deref s.table loc
        pure (s, p)
      | none =>
        match findFit (spaceUsed slen) s.bufs with
        | some i => store env s t slen (spaceUsed slen) i
        | none => do
          Res.require (decide (spaceUsed slen < 8192))
          initAux env fuel { s with bufs := s.bufs ++ [⟨env.junk s.bufs.length, 524288, 0⟩] } t slen

/-- `ConstantString(const void *, uint32_t)`, `ConstantString.hpp:67-69`. -/
def init (env : Env) (s : State) (t : Str) (slen : Nat) : Res (State × Ptr) := initAux env 2 s t slen

/-- `ConstantString(const std::string &)`, `ConstantString.hpp:61-63`: the size is cut to 32 bits. -/
def create (env : Env) (s : State) (t : Str) : Res (State × Ptr) := init env s t (t.length % 2 ^ 32)

/-- `ConstantString()`, `ConstantString.hpp:70-76`. -/
def createEmpty (env : Env) (s : State) : Res (State × Ptr) :=
  match s.empty with
  | some p => .ok (s, p)
  | none => init env s [] 0

/-- Reading through a pointer: undefined outside the buffer. Used in the model of `ConstantString.hpp:84` (`str`). -/
def readAt (s : State) (p : Ptr) (n : Nat) : Res Str :=
  match p with
  | .tmp => .ub
  | .at b off => match s.bufs[b]? with
    | some buf => if off + n ≤ buf.size then .ok (read buf.mem off n) else .ub
    | none => .ub

/-- `size()`, `ConstantString.hpp:81`. -/
def size (s : State) (p : Ptr) : Res Nat :=
  match p with
  | .tmp => .ub
  | .at b off => match s.bufs[b]? with
    | some buf => if 4 ≤ off ∧ off ≤ buf.size then .ok (dec buf.mem (off - 4)) else .ub
    | none => .ub

/-- `str()`, `ConstantString.hpp:84`. -/
def str (s : State) (p : Ptr) : Res Str := do
  let n ← size s p
  readAt s p n

/-- `memcmp` on equally long pieces of memory: the order of the first bytes that differ. Used in the model of `ConstantString.hpp:102-106` (`compare`). -/
def memcmp : Str → Str → Ordering
  | x :: xs, y :: ys => if x < y then .lt else if y < x then .gt else memcmp xs ys
  | _, _ => .eq

/-- `compare(const ConstantString &)`, `ConstantString.hpp:102-106`. -/
def compare (s : State) (p q : Ptr) : Res Ordering := do
  let n ← size s p
  let m ← size s q
  let k := (if n < m then n else m) + 1
  let a ← readAt s p k
  let b ← readAt s q k
  pure (memcmp a b)

/-- `compare(const std::string &)`, `ConstantString.hpp:107-111`; `c_str()` ends with a zero. -/
def compareStr (s : State) (p : Ptr) (rhs : Str) : Res Ordering := do
  let n ← size s p
  let k := (if n < rhs.length then n else rhs.length) + 1
  let a ← readAt s p k
  pure (memcmp a ((rhs ++ [0]).take k))

/-- `operator==`, `ConstantString.hpp:152-154`. -/
def equal (p q : Ptr) : Bool := decide (p = q)

/-- Creating strings one after another. Made of the parts of `ConstantString.cpp:27-35`. -/
def createAll (env : Env) : State → List Str → Res (State × List Ptr)
  | s, [] => .ok (s, [])
  | s, t :: ts => do
    let r ← create env s t
    let q ← createAll env r.1 ts
    pure (q.1, r.2 :: q.2)

end Verif.CStr
