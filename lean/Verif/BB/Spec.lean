import Verif.BB.Model

/-!
# Specification: buffers are independent values

Each live variable is a value: readable bytes, total size, writable room, whether copying on write is
allowed, and the name of the family of copies it belongs to. Every operation changes at most the one
variable it is called on.
-/

namespace Verif.BB

structure Buf where
  contents : List Byte
  size : Nat
  avail : Nat
  grp : Nat
  cow : Bool
deriving DecidableEq

abbrev Bufs := List (Option Buf)

def Live (s : Bufs) (i : Nat) (b : Buf) : Prop := s[i]? = some (some b)

/-- Some other variable is a copy made without a write since. -/
def Shared (s : Bufs) (i : Nat) (b : Buf) : Prop := ∃ j b', j ≠ i ∧ Live s j b' ∧ b'.grp = b.grp

def Fresh (s : Bufs) (g : Nat) : Prop := ∀ j b, Live s j b → b.grp ≠ g

/-- `b1` is variable `i` once it is made unique: unchanged if it was, else an exact-size copy. -/
def Own (s : Bufs) (i : Nat) (b b1 : Buf) : Prop :=
  (¬Shared s i b ∧ b1 = b) ∨
  (Shared s i b ∧ ∃ g, Fresh s g ∧ b1 = ⟨b.contents, b.contents.length, 0, g, b.cow⟩)

/-- Writing to a copied, non-empty-sized buffer without permission to copy on write. -/
def Blocked (s : Bufs) (i : Nat) (b : Buf) : Prop := Shared s i b ∧ 0 < b.size ∧ b.cow = false

/-- Variable `i` is made unique and then changed by `f`; nothing else changes. -/
def Changes (s : Bufs) (i : Nat) (s' : Bufs) (f : Buf → Buf → Prop) : Prop :=
  ∃ b b1 b2, Live s i b ∧ Own s i b b1 ∧ f b1 b2 ∧ s' = s.set i (some b2)

/-- `c` with the bytes from `off` on overwritten by `bs`. -/
def overlay (c : List Byte) (off : Nat) (bs : List Byte) : List Byte :=
  (List.range c.length).map (fun k => if off ≤ k ∧ k < off + bs.length then bs.getD (k - off) 0 else c.getD k 0)

/-- Room grows to fit when `n` more bytes are appended. -/
def Buf.add (b : Buf) (bs : List Byte) : Buf :=
  if bs.length ≤ b.avail then { b with contents := b.contents ++ bs, avail := b.avail - bs.length }
  else
    { b with contents := b.contents ++ bs, size := b.size + (bs.length - b.avail),
             avail := b.size + (bs.length - b.avail) - (b.contents.length + bs.length) }

def BStep (s : Bufs) (op : Op) (o : Out) (s' : Bufs) : Prop :=
  match op with
  | .new cow => o = .unit ∧ ∃ g, Fresh s g ∧ s' = s ++ [some ⟨[], 0, 0, g, cow⟩]
  | .newFrom bs cow => o = .unit ∧ ∃ g, Fresh s g ∧ s' = s ++ [some ⟨bs, bs.length, 0, g, cow⟩]
  | .copy i => o = .unit ∧ ∃ b, Live s i b ∧ s' = s ++ [some b]
  | .setTo i j => o = .unit ∧ ∃ b, Live s j b ∧ s' = s.set i (some b)
  | .destroy i => o = .unit ∧ s' = s.set i none
  | .consume i n => o = .unit ∧ Changes s i s' (fun b b2 => b2 = { b with contents := b.contents.drop n })
  | .append i bs => o = .unit ∧ Changes s i s' (fun b b2 => b2 = b.add bs)
  | .appendBuf i j => o = .unit ∧ ∃ c, Live s j c ∧ Changes s i s' (fun b b2 => b2 = b.add c.contents)
  | .writeStart i bs => o = .unit ∧ Changes s i s' (fun b b2 =>
      b2 = { b with contents := b.contents ++ bs, avail := b.avail - bs.length })
  | .fill i bs k => o = .unit ∧ Changes s i s' (fun b b2 => ∃ u : List Byte, k ≤ bs.length + u.length ∧
      b2 = { b with contents := b.contents ++ (bs ++ u).take k, avail := b.avail - k })
  | .extend i n => o = .unit ∧ Changes s i s' (fun b b2 => ∃ t : List Byte, t.length = n ∧
      b2 = { b with contents := b.contents ++ t, avail := b.avail - n })
  | .unextend i n => o = .unit ∧ Changes s i s' (fun b b2 =>
      b2 = { b with contents := b.contents.take (b.contents.length - n), avail := b.avail + n })
  | .poke i off bs => o = .unit ∧ Changes s i s' (fun b b2 => b2 = { b with contents := overlay b.contents off bs })
  | .replace i off bs => o = .unit ∧ Changes s i s' (fun b b2 => b2 = { b with contents := overlay b.contents off bs })
  | .resize i n => o = .unit ∧ Changes s i s' (fun b b2 =>
      b2 = { b with size := n, avail := n - b.contents.length })
  | .shift i => o = .unit ∧ Changes s i s' (fun b b2 => b2 = { b with avail := b.size - b.contents.length })
  | .reset i => o = .unit ∧ Changes s i s' (fun b b2 => b2 = { b with contents := [], avail := b.size })
  | .purge i => o = .unit ∧ Changes s i s' (fun b b2 => b2 = { b with contents := [], avail := 0, size := 0 })
  | .detach i => o = .unit ∧ ∃ b g, Live s i b ∧ Fresh s g ∧ s' = s.set i (some ⟨[], 0, 0, g, b.cow⟩)
  | .assign i bs => o = .unit ∧ Changes s i s' (fun b b2 => b2 = { b with contents := [], avail := b.size }.add bs)
  | .assignBuf i j => o = .unit ∧ ∃ c, Live s j c ∧ Changes s i s' (fun b b2 =>
      b2 = { b with contents := [], avail := b.size }.add (if i = j then [] else c.contents))
  | .forceUnique i => o = .unit ∧ Changes s i s' (fun b b2 => b2 = b)
  | .fromStream i bs amount => o = .count (min amount bs.length) ∧ ∃ b b1 b2, Live s i b ∧
      (Own s i b b1 ∨ b1 = b ∧ amount = 0) ∧ b2.contents = b.contents ++ bs.take amount ∧
      b2.grp = b1.grp ∧ b2.cow = b.cow ∧ s' = s.set i (some b2)
  | .entireStream i bs maxSize => ∃ k, o = .count k ∧ ∃ b b1 b2, Live s i b ∧
      (Own s i b b1 ∨ b1 = b ∧ k = 0) ∧ b2.contents = b.contents ++ bs.take k ∧
      b2.grp = b1.grp ∧ b2.cow = b.cow ∧ s' = s.set i (some b2) ∧ k ≤ bs.length ∧
      (k = bs.length ∨ b2.avail = 0 ∧ maxSize ≤ b2.size)
  | .asString i => s' = s ∧ ∃ b, Live s i b ∧ o = .bytes b.contents
  | .sizes i => s' = s ∧ ∃ b, Live s i b ∧ o = .sizes b.size b.contents.length b.avail
  | .eq i j => s' = s ∧ ∃ b c, Live s i b ∧ Live s j c ∧ o = .bool (decide (b.contents = c.contents))

/-- When the process stops. -/
def BAborts (s : Bufs) (op : Op) : Prop :=
  match op with
  | .consume i _ | .append i _ | .appendBuf i _ | .poke i _ _ | .shift i | .reset i | .purge i
  | .assign i _ | .assignBuf i _ | .fromStream i _ _ | .entireStream i _ _ => ∃ b, Live s i b ∧ Blocked s i b
  | .writeStart i bs => ∃ b, Live s i b ∧ (Blocked s i b ∨ ∃ b1, Own s i b b1 ∧ b1.avail < bs.length)
  | .fill i _ k => ∃ b, Live s i b ∧ (Blocked s i b ∨ ∃ b1, Own s i b b1 ∧ b1.avail < k)
  | .extend i n => ∃ b, Live s i b ∧ (Blocked s i b ∨ ∃ b1, Own s i b b1 ∧ b1.avail < n)
  | .unextend i n => ∃ b, Live s i b ∧ (Blocked s i b ∨ b.contents.length < n)
  | .replace i off bs => ∃ b, Live s i b ∧ (Blocked s i b ∨ b.contents.length < off + bs.length)
  | .resize i n => ∃ b, Live s i b ∧ (Blocked s i b ∨ n < b.contents.length)
  | _ => False

def Dead (s : Bufs) (i : Nat) : Prop := ∀ b, ¬Live s i b

/-- Calls outside the interface: a dead variable; consuming more than there is; writing through a pointer
beyond the room; appending a unique buffer to itself without room; reading a stream into a shared
buffer that has room. None of them completes (`misuse_never_ok`). -/
def BMisuse (s : Bufs) (op : Op) : Prop :=
  match op with
  | .new _ | .newFrom _ _ => False
  | .setTo i j | .eq i j => Dead s i ∨ Dead s j
  | .consume i n => Dead s i ∨ ∃ b, Live s i b ∧ ¬Blocked s i b ∧ b.contents.length < n
  | .appendBuf i j => Dead s i ∨ Dead s j ∨
      i = j ∧ ∃ b, Live s i b ∧ ¬Shared s i b ∧ b.avail < b.contents.length
  | .assignBuf i j => Dead s i ∨ Dead s j
  | .fill i bs _ => Dead s i ∨ ∃ b b1, Live s i b ∧ ¬Blocked s i b ∧ Own s i b b1 ∧ b1.avail < bs.length
  | .poke i off bs => Dead s i ∨ ∃ b b1, Live s i b ∧ ¬Blocked s i b ∧ Own s i b b1 ∧ b1.contents.length + b1.avail < off + bs.length
  | .fromStream i bs amount => Dead s i ∨
      ∃ b, Live s i b ∧ Shared s i b ∧ ¬Blocked s i b ∧ bs ≠ [] ∧ 0 < amount ∧ amount ≤ b.avail
  | .entireStream i _ _ => Dead s i ∨ ∃ b, Live s i b ∧ Shared s i b ∧ ¬Blocked s i b ∧ 0 < b.avail
  | .copy i | .destroy i | .append i _ | .writeStart i _ | .extend i _ | .unextend i _
  | .replace i _ _ | .resize i _ | .shift i | .reset i | .purge i | .detach i | .assign i _
  | .forceUnique i | .asString i | .sizes i => Dead s i

def BRun : Bufs → List Op → Res (List Out) → Prop
  | _, [], r => r = .ok []
  | s, op :: ops, r =>
    BMisuse s op ∨ (BAborts s op ∧ r = .abort) ∨
    ∃ o s' r', BStep s op o s' ∧ BRun s' ops r' ∧ r = r'.map (o :: ·)

end Verif.BB
