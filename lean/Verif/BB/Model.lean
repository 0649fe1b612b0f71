import Verif.Res

/-!
# Model of `ByteBuffer` (`/repo/include/Lintel/ByteBuffer.hpp`)

A state holds every representation ever allocated (`heap`) and the live `ByteBuffer` variables, each
naming its representation. `shared_ptr` counts are not stored: `rep.unique()` counts the live variables
that name the representation. A representation no variable names is never looked at again.
Fresh memory is filled by an arbitrary function of the allocation number and the position.
`size_t` sums do not wrap (array sizes are below `2^63`). Debug-only checks are compiled out.
Pointers handed out by `writeStart`/`writeableReadStart` are used at once; the two pointer patterns of
the interface are single operations here (`fill`, `writeStart`, `poke`).
-/

namespace Verif.BB

/-- Used in the model of `ByteBuffer.hpp:154-159` (`Rep`). -/
abbrev Byte := Fin 256

/-- `NoCopyByteBuffer`, `ByteBuffer.hpp:154-159`; `alloc` is `byte_data != NULL`, `data_size` is the length. -/
structure Rep where
  alloc : Bool
  data : List Byte
  front : Nat
  back : Nat
deriving Repr, DecidableEq

namespace Rep

/-- `ByteBuffer.hpp:62`. -/
def new : Rep := ⟨false, [], 0, 0⟩

/-- `ByteBuffer.hpp:65-67`. -/
def empty (r : Rep) : Bool := r.front == r.back

/-- `ByteBuffer.hpp:73-75`. -/
def readAvailable (r : Rep) : Nat := r.back - r.front

/-- `ByteBuffer.hpp:90-92`. -/
def writeAvailable (r : Rep) : Nat := r.data.length - r.back

/-- The bytes at `readStart()`, `readAvailable()` of them, `ByteBuffer.hpp:73-79`. -/
def contents (r : Rep) : List Byte := (r.data.drop r.front).take r.readAvailable

/-- `consume`, `ByteBuffer.hpp:85-88`. Consuming too much leaves `front > back`: every later read is
outside the data. -/
def consume (r : Rep) (n : Nat) : Res Rep :=
  if n ≤ r.readAvailable then .ok { r with front := r.front + n } else .ub

/-- `extend`, `ByteBuffer.hpp:100-103`. -/
def extend (r : Rep) (n : Nat) : Res Rep := do
  Res.require (decide (n ≤ r.writeAvailable))
  pure { r with back := r.back + n }

/-- `unextend`, `ByteBuffer.hpp:105-108`. -/
def unextend (r : Rep) (n : Nat) : Res Rep := do
  Res.require (decide (n ≤ r.readAvailable))
  pure { r with back := r.back - n }

/-- `shift`, `ByteBuffer.hpp:133-142`. -/
def shift (r : Rep) : Rep :=
  if r.empty then { r with front := 0, back := 0 }
  else if r.front > 0 then
    { r with data := r.contents ++ r.data.drop r.readAvailable, front := 0, back := r.readAvailable }
  else r

/-- `resizeBuffer`, `ByteBuffer.hpp:110-131`; `junk` is what the new memory holds. -/
def resizeBuffer (junk : Nat → Byte) (r : Rep) (n : Nat) : Res Rep :=
  if n = r.data.length ∧ r.alloc = true then .ok r.shift
  else if r.empty then .ok ⟨true, (List.range n).map junk, 0, 0⟩
  else do
    Res.require (decide (r.readAvailable ≤ n))
    pure ⟨true, r.contents ++ ((List.range n).map junk).drop r.readAvailable, 0, r.readAvailable⟩

/-- `memcpy` of `bs` to offset `pos` of the data. Used in the model of `ByteBuffer.hpp:531-539` (`forceUnique`). -/
def put (r : Rep) (pos : Nat) (bs : List Byte) : Res Rep :=
  if pos + bs.length ≤ r.data.length then
    .ok { r with data := r.data.take pos ++ bs ++ r.data.drop (pos + bs.length) }
  else .ub

/-- `reset`, `ByteBuffer.hpp:144-146`. -/
def reset (r : Rep) : Rep := { r with front := 0, back := 0 }

/-- `purge`, `ByteBuffer.hpp:148-152`. -/
def purge (_ : Rep) : Rep := new

end Rep

/-- A `ByteBuffer` variable, `ByteBuffer.hpp:553-554`. -/
structure Var where
  rep : Nat
  cow : Bool
deriving Repr, DecidableEq

/-- Not a function of the code; stands for the uses of `ByteBuffer.hpp:94-554`. -/
structure St where
  heap : List Rep
  vars : List (Option Var)
  seed : Nat
deriving Repr, DecidableEq

/-- Not a function of the code; stands for the uses of `ByteBuffer.hpp:94-554`. -/
def init : St := ⟨[], [], 0⟩

/-- Contents of memory fresh from allocation number `k`. Used in the model of `ByteBuffer.hpp:531-539` (`forceUnique`). -/
abbrev Junk := Nat → Nat → Byte

/-- Used in the model of `ByteBuffer.hpp:531-539` (`forceUnique`). -/
def getVar (s : St) (i : Nat) : Res Var :=
  match s.vars[i]? with
  | some (some v) => .ok v
  | _ => .ub

/-- Used in the model of `ByteBuffer.hpp:531-539` (`forceUnique`). -/
def getRep (s : St) (i : Nat) : Res Rep := do
  let v ← getVar s i
  match s.heap[v.rep]? with
  | some r => .ok r
  | none => .ub

/-- Point variable `i` at a new representation. Used in the model of `ByteBuffer.hpp:531-539` (`forceUnique`). -/
def fresh (s : St) (i : Nat) (v : Var) (r : Rep) : St :=
  { s with heap := s.heap ++ [r], vars := s.vars.set i (some { v with rep := s.heap.length }), seed := s.seed + 1 }

/-- Change the representation of `v` in place. Made of the parts of `ByteBuffer.hpp:154-554`. -/
def store (s : St) (v : Var) (r : Rep) : St := { s with heap := s.heap.set v.rep r, seed := s.seed + 1 }

/-- `rep.unique()`. Used in the model of `ByteBuffer.hpp:531-539` (`forceUnique`). -/
def unique (s : St) (v : Var) : Bool :=
  (s.vars.filter (fun o => match o with | some w => w.rep == v.rep | none => false)).length == 1

/-- `forceUnique`, `ByteBuffer.hpp:531-539`. -/
def forceUnique (J : Junk) (s : St) (i : Nat) : Res St := do
  let v ← getVar s i
  let r ← getRep s i
  if unique s v then pure s
  else do
    let n ← Rep.resizeBuffer (J s.seed) Rep.new r.readAvailable
    let pos := n.back
    let n ← n.extend r.readAvailable
    let n ← n.put pos r.contents
    pure (fresh s i v n)

/-- `uniqueify`, `ByteBuffer.hpp:544-551`. -/
def uniqueify (J : Junk) (s : St) (i : Nat) : Res St := do
  let v ← getVar s i
  let r ← getRep s i
  if unique s v then pure s
  else do
    Res.require (decide (r.data.length ≤ 0) || v.cow)
    forceUnique J s i

/-- A call that first makes the variable unique and then changes its representation. Used in the model of `ByteBuffer.hpp:359-364` (`makeRoom`). -/
def mutate (J : Junk) (s : St) (i : Nat) (f : Rep → Res Rep) : Res St := do
  let s ← uniqueify J s i
  let v ← getVar s i
  let r ← getRep s i
  let r ← f r
  pure (store s v r)

/-- `append(const void *, size_t)` up to the `memcpy`, `ByteBuffer.hpp:359-364`: make room. -/
def makeRoom (J : Junk) (s : St) (i : Nat) (n : Nat) : Res St := do
  let s ← uniqueify J s i
  let r ← getRep s i
  if r.writeAvailable < n then
    mutate J s i (fun r => Rep.resizeBuffer (J s.seed) r (r.data.length + (n - r.writeAvailable)))
  else pure s

/-- `memcpy(writeStart(size), buf, size)`, `ByteBuffer.hpp:94-98, 301-304, 365`. -/
def writeStart (J : Junk) (s : St) (i : Nat) (bs : List Byte) : Res St :=
  mutate J s i (fun r => do
    let pos := r.back
    let r ← r.extend bs.length
    r.put pos bs)

/-- `append` of bytes outside the buffers, `ByteBuffer.hpp:350-366`. -/
def append (J : Junk) (s : St) (i : Nat) (bs : List Byte) : Res St := do
  let s ← makeRoom J s i bs.length
  writeStart J s i bs

/-- Bytes at a saved pointer into representation `rid`: `n` bytes from offset `pos`. Used in the model of `ByteBuffer.hpp:344-346` (`appendBuf`). -/
def bytesAt (s : St) (rid pos n : Nat) : Res (List Byte) :=
  match s.heap[rid]? with
  | some r => if pos + n ≤ r.data.length then .ok ((r.data.drop pos).take n) else .ub
  | none => .ub

/-- `append(const ByteBuffer &)`, `ByteBuffer.hpp:344-346, 359-366`: the source pointer is taken before the
buffer is made unique and resized; when the resize frees the source memory, the `memcpy` reads it. -/
def appendBuf (J : Junk) (s : St) (i j : Nat) : Res St := do
  let w ← getVar s j
  let src ← getRep s j
  let s1 ← uniqueify J s i
  let v ← getVar s1 i
  let r ← getRep s1 i
  if r.writeAvailable < src.readAvailable ∧ v.rep = w.rep then .ub
  else do
    let s2 ← makeRoom J s1 i src.readAvailable
    let bs ← bytesAt s2 w.rep src.front src.readAvailable
    writeStart J s2 i bs

/-- A write through `writeableReadStart()`, `ByteBuffer.hpp:271-274`, at offset `off`. -/
def poke (J : Junk) (s : St) (i off : Nat) (bs : List Byte) : Res St :=
  mutate J s i (fun r => r.put (r.front + off) bs)

/-- `p = writeStart(0)`, bytes written at `p`, `extend(k)`, `ByteBuffer.hpp:301-304, 323-326`. -/
def fill (J : Junk) (s : St) (i : Nat) (bs : List Byte) (k : Nat) : Res St := do
  let s ← mutate J s i (fun r => r.put r.back bs)
  mutate J s i (fun r => r.extend k)

/-- `replace`, `ByteBuffer.hpp:443-446`. -/
def replace (J : Junk) (s : St) (i off : Nat) (bs : List Byte) : Res St := do
  let r ← getRep s i
  Res.require (decide (off + bs.length ≤ r.readAvailable))
  poke J s i off bs

/-- `resizeBuffer`, `ByteBuffer.hpp:456-459`. -/
def resizeBuffer (J : Junk) (s : St) (i n : Nat) : Res St :=
  mutate J s i (fun r => Rep.resizeBuffer (J s.seed) r n)

/-- `assign(const ByteBuffer &)`, `ByteBuffer.hpp:487-490`. -/
def assignBuf (J : Junk) (s : St) (i j : Nat) : Res St := do
  let s ← mutate J s i (fun r => .ok r.reset)
  appendBuf J s i j

/-- `assign` of bytes outside the buffers, `ByteBuffer.hpp:494-504`. -/
def assign (J : Junk) (s : St) (i : Nat) (bs : List Byte) : Res St := do
  let s ← mutate J s i (fun r => .ok r.reset)
  append J s i bs

/-- `operator==`, `ByteBuffer.hpp:513-521`. -/
def eq (s : St) (i j : Nat) : Res Bool := do
  let v ← getVar s i
  let w ← getVar s j
  let a ← getRep s i
  let b ← getRep s j
  if a.readAvailable ≠ b.readAvailable then pure false
  else if v.rep = w.rep then pure true
  else pure (decide (a.contents = b.contents))

/-- The growth at the start of `appendFromStream`, `ByteBuffer.hpp:416-418`. -/
def streamRoom (J : Junk) (s : St) (i amount : Nat) : Res St := do
  let r ← getRep s i
  if r.writeAvailable < amount then resizeBuffer J s i (r.data.length - r.writeAvailable + amount)
  else pure s

/-- `appendFromStream`, `ByteBuffer.hpp:413-434`, from a stream that delivers `bs` and then ends (no
stream errors). Returns the state and the number of bytes read. One pass of the loop: a short read
sets `eof`. `sin.read` writes at the pointer from `writeStart(0)`. -/
def appendFromStream (J : Junk) (s : St) (i : Nat) (bs : List Byte) (amount : Nat) : Res (St × Nat) := do
  let s ← streamRoom J s i amount
  let r ← getRep s i
  Res.require (decide (amount ≤ r.writeAvailable))
  if amount = 0 then pure (s, 0)
  else do
    let s ← fill J s i (bs.take amount) (bs.take amount).length
    pure (s, (bs.take amount).length)

/-- The loop of `appendEntireStream`, `ByteBuffer.hpp:386-397`. A read of `writeAvailable()` bytes that
comes short sets `eof`. The order of evaluation of the arguments of `sin.read` is unspecified, so a
shared buffer with room (whose `writeStart(0)` moves to a full copy) counts as `ub`. -/
def entireLoop (J : Junk) (i maxSize : Nat) : Nat → St → List Byte → Nat → Res (St × Nat)
  | 0, _, _, _ => .ub
  | fuel + 1, s, bs, total => do
    let r ← getRep s i
    let v ← getVar s i
    if r.writeAvailable > 0 then
      if unique s v then do
        let s ← fill J s i (bs.take r.writeAvailable) (bs.take r.writeAvailable).length
        if bs.length < r.writeAvailable then pure (s, total + bs.length)
        else entireLoop J i maxSize fuel s (bs.drop r.writeAvailable) (total + r.writeAvailable)
      else do
        let _ ← uniqueify J s i
        .ub
    else if r.data.length < maxSize then do
      let s ← resizeBuffer J s i (min (r.data.length * 2) maxSize)
      entireLoop J i maxSize fuel s bs total
    else do
      Res.require (decide (r.data.length = maxSize))
      pure (s, total)

/-- The first allocation in `appendEntireStream`, `ByteBuffer.hpp:380-382`. -/
def entireRoom (J : Junk) (s : St) (i maxSize : Nat) : Res St := do
  let r ← getRep s i
  if r.data.length = 0 then resizeBuffer J s i (min 1024 maxSize) else pure s

/-- `appendEntireStream`, `ByteBuffer.hpp:376-404`. -/
def appendEntireStream (J : Junk) (s : St) (i : Nat) (bs : List Byte) (maxSize : Nat) : Res (St × Nat) := do
  let s ← entireRoom J s i maxSize
  let r ← getRep s i
  entireLoop J i (max r.data.length maxSize) (2 * max r.data.length maxSize + 2) s bs 0

/-! ## Histories -/

/-- Not a function of the code; stands for the uses of `ByteBuffer.hpp:62-539`. -/
inductive Op where
  | new (cow : Bool)
  | newFrom (bs : List Byte) (cow : Bool)
  | copy (i : Nat)
  | setTo (i j : Nat)
  | destroy (i : Nat)
  | consume (i n : Nat)
  | append (i : Nat) (bs : List Byte)
  | appendBuf (i j : Nat)
  | writeStart (i : Nat) (bs : List Byte)
  | fill (i : Nat) (bs : List Byte) (k : Nat)
  | extend (i n : Nat)
  | unextend (i n : Nat)
  | poke (i off : Nat) (bs : List Byte)
  | replace (i off : Nat) (bs : List Byte)
  | resize (i n : Nat)
  | shift (i : Nat)
  | reset (i : Nat)
  | purge (i : Nat)
  | detach (i : Nat)
  | assign (i : Nat) (bs : List Byte)
  | assignBuf (i j : Nat)
  | forceUnique (i : Nat)
  | fromStream (i : Nat) (bs : List Byte) (amount : Nat)
  | entireStream (i : Nat) (bs : List Byte) (maxSize : Nat)
  | asString (i : Nat)
  | sizes (i : Nat)
  | eq (i j : Nat)

/-- Not a function of the code; stands for the uses of `ByteBuffer.hpp:154-509`. -/
inductive Out where
  | unit
  | bytes (bs : List Byte)
  | sizes (buffer read write : Nat)
  | bool (b : Bool)
  | count (n : Nat)
deriving Repr, DecidableEq

/-- Used in the model of `ByteBuffer.hpp:196-509` (`step`). -/
def quiet (r : Res St) : Res (St × Out) := r.map (·, Out.unit)

/-- Used in the model of `ByteBuffer.hpp:196-509` (`step`). -/
def counted (r : Res (St × Nat)) : Res (St × Out) := r.map (fun p => (p.1, Out.count p.2))

/-- Made of the parts of `ByteBuffer.hpp:62-159`. -/
def addVar (s : St) (cow : Bool) : St :=
  { s with heap := s.heap ++ [Rep.new], vars := s.vars ++ [some ⟨s.heap.length, cow⟩] }

/-- `ByteBuffer.hpp:196-509`. -/
def step (J : Junk) (s : St) : Op → Res (St × Out)
  /- `ByteBuffer.hpp:196-198` -/
  | .new cow => .ok (addVar s cow, .unit)
  /- `ByteBuffer.hpp:204-221` -/
  | .newFrom bs cow => quiet (append J (addVar s cow) s.vars.length bs)
  /- `ByteBuffer.hpp:224-226` -/
  | .copy i => quiet (do
      let v ← getVar s i
      pure { s with vars := s.vars ++ [some v] })
  /- `operator=`, `ByteBuffer.hpp:229-233` -/
  | .setTo i j => quiet (do
      let _ ← getVar s i
      let w ← getVar s j
      pure { s with vars := s.vars.set i (some w) })
  /- destructor -/
  | .destroy i => quiet (do
      let _ ← getVar s i
      pure { s with vars := s.vars.set i none })
  /- `ByteBuffer.hpp:279-282` -/
  | .consume i n => quiet (mutate J s i (·.consume n))
  | .append i bs => quiet (append J s i bs)
  | .appendBuf i j => quiet (appendBuf J s i j)
  | .writeStart i bs => quiet (writeStart J s i bs)
  | .fill i bs k => quiet (fill J s i bs k)
  /- `ByteBuffer.hpp:323-326` -/
  | .extend i n => quiet (mutate J s i (·.extend n))
  /- `ByteBuffer.hpp:330-333` -/
  | .unextend i n => quiet (mutate J s i (·.unextend n))
  | .poke i off bs => quiet (poke J s i off bs)
  | .replace i off bs => quiet (replace J s i off bs)
  | .resize i n => quiet (resizeBuffer J s i n)
  /- `ByteBuffer.hpp:462-465` -/
  | .shift i => quiet (mutate J s i (fun r => .ok r.shift))
  /- `ByteBuffer.hpp:468-471` -/
  | .reset i => quiet (mutate J s i (fun r => .ok r.reset))
  /- `ByteBuffer.hpp:475-478` -/
  | .purge i => quiet (mutate J s i (fun r => .ok r.purge))
  /- `ByteBuffer.hpp:481-483` -/
  | .detach i => quiet (do
      let v ← getVar s i
      pure (fresh s i v Rep.new))
  | .assign i bs => quiet (assign J s i bs)
  | .assignBuf i j => quiet (assignBuf J s i j)
  | .forceUnique i => quiet (forceUnique J s i)
  | .fromStream i bs amount => counted (appendFromStream J s i bs amount)
  | .entireStream i bs maxSize => counted (appendEntireStream J s i bs maxSize)
  /- `ByteBuffer.hpp:507-509` -/
  | .asString i => do
      let r ← getRep s i
      pure (s, .bytes r.contents)
  /- `ByteBuffer.hpp:243-250, 286-288` -/
  | .sizes i => do
      let r ← getRep s i
      pure (s, .sizes r.data.length r.readAvailable r.writeAvailable)
  | .eq i j => do
      let b ← eq s i j
      pure (s, .bool b)

/-- Not a function of the code; stands for the uses of `ByteBuffer.hpp:62-554`. -/
def run (J : Junk) : St → List Op → Res (List Out)
  | _, [] => .ok []
  | s, op :: ops => do
    let r ← step J s op
    let outs ← run J r.1 ops
    pure (r.2 :: outs)

end Verif.BB
