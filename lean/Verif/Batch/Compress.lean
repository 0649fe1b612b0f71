/-!
# Model of `BatchParallel::compress`

`/repo/src/BatchParallel/compress.pm:58-167`, with `rebuild_thing_success` of `common.pm:249-261`. File names are lists of characters without newlines and without characters special to the shell. The (de)compressors are arbitrary functions from input to output and exit status; the status of all but the last command of a
pipeline is lost (`system` and `open` of a pipeline, without `pipefail`), and the status of the pipes read for the check is not looked at. One thing at a time (`-j 1`).
-/

namespace Verif.Batch.Compress

/-- Used in the model of `compress.pm:70` (`stripAny`). -/
abbrev Path := List Char
/-- Used in the model of `compress.pm:98-109` (`unpackRest`). -/
abbrev Bytes := List (Fin 256)

/-- Used in the model of `compress.pm:67-74` (`destination`). -/
inductive Kind where
  | gz
  | bz2
  | sevenz
deriving DecidableEq, Repr

/-- Used in the model of `compress.pm:67-74` (`destination`). -/
def Kind.ext : Kind → List Char
  | .gz => ".gz".toList
  | .bz2 => ".bz2".toList
  | .sevenz => ".7z".toList

/-- `s/\.<kind>$//`. Used in the model of `compress.pm:70` (`stripAny`). -/
def strip (k : Kind) (p : Path) : Option Path := if k.ext.isSuffixOf p then some (p.take (p.length - k.ext.length)) else none

/-- `s/\.((gz)|(bz2)|(7z))$//`, line 70. -/
def stripAny (p : Path) : Option Path := (strip .gz p).orElse fun _ => (strip .bz2 p).orElse fun _ => strip .sevenz p

theorem strip_length {k : Kind} {p q : Path} (h : strip k p = some q) : q.length < p.length := by
  unfold strip at h
  split at h
  · rename_i hs
    have hl := (List.isSuffixOf_iff_suffix.1 hs).length_le
    simp only [Option.some.injEq] at h
    subst h
    simp only [List.length_take]
    have : 0 < k.ext.length := by cases k <;> decide
    omega
  · cases h

theorem stripAny_length {p q : Path} (h : stripAny p = some q) : q.length < p.length := by
  unfold stripAny at h
  cases h1 : strip .gz p with
  | some x => simp [h1] at h; subst h; exact strip_length h1
  | none =>
    cases h2 : strip .bz2 p with
    | some x => simp [h1, h2] at h; subst h; exact strip_length h2
    | none => simp [h1, h2] at h; exact strip_length h

/-- Lines 70-72. -/
def base (p : Path) : Path :=
  match _h : stripAny p with
  | some q => base q
  | none => p
termination_by p.length
decreasing_by exact stripAny_length _h

/-- `destination_file`, lines 67-74. -/
def destination (type : Kind) (p : Path) : Path := base p ++ type.ext

/-- `file_is_source`, lines 59-65, for a file. -/
def isSource (type : Kind) (p : Path) : Bool := !type.ext.isSuffixOf p

/-- `destfile_out_of_date`, lines 76-81: whether the destination exists is all that counts. -/
def outOfDate (exists_ : Bool) : Bool := if !exists_ then false else true

/-- `common.pm:147-148`. -/
def needsBuild (exists_ : Bool) : Bool := !exists_ || outOfDate exists_

/-- The programs: output and whether the exit status is 0. Used in the model of `compress.pm:98-109` (`unpackRest`). -/
structure Tools where
  dec : Kind → Bytes → Bytes × Bool
  pack : Bytes → Bytes × Bool

/-- Lines 98-109: the rest of the pipeline that unpacks the source; `none` where the module dies. -/
def unpackRest (t : Tools) (p : Path) (b : Bytes) : Option Bytes :=
  match _h1 : strip .gz p with
  | some q => unpackRest t q (t.dec .gz b).1
  | none =>
    match _h2 : strip .bz2 p with
    | some q => unpackRest t q (t.dec .bz2 b).1
    | none => if (strip .sevenz p).isSome then none else some b
termination_by p.length
decreasing_by
  · exact strip_length _h1
  · exact strip_length _h2

/-- Lines 93-110: what unpacking the source puts out. -/
def unpack (t : Tools) (p : Path) (b : Bytes) : Option Bytes :=
  match strip .sevenz p with
  | some q => unpackRest t q (t.dec .sevenz b).1
  | none => unpackRest t p b

/-- Lines 151-159: compare two streams block by block. `some n`: equal, with `n` bytes. -/
def compareLoop : Nat → Bytes → Bytes → Nat → Option Nat
  | 0, _, _, _ => none
  | fuel + 1, f1, f2, total =>
    let a := f1.take 65536
    let b := f2.take 65536
    if a.length ≠ b.length then none
    else if a.length = 0 then some total
    else if a ≠ b then none
    else compareLoop fuel (f1.drop 65536) (f2.drop 65536) (total + a.length)

/-- Used in the model of `compress.pm:90-167` (`rebuild`). -/
def compare (f1 f2 : Bytes) : Option Nat := compareLoop (f1.length + 1) f1 f2 0

/-- Used in the model of `compress.pm:90-167` (`rebuild`). -/
structure Opts where
  type : Kind := .bz2
  check : Bool := true
  clean : Bool := true
  ifsmaller : Bool := false

/-- `rebuild`, lines 90-167: the contents of the new file, or `none` when it fails. (The source is removed at the end if `clean`.) -/
def rebuild (o : Opts) (t : Tools) (p : Path) (b : Bytes) : Option Bytes :=
  match unpack t p b with
  | none => none
  | some data =>
    let new := t.pack data
    if !new.2 then none
    else if o.ifsmaller && new.1.length > b.length then none
    else if o.check then
      match compare data (t.dec o.type new.1).1 with
      | none => none
      | some total => if total = 0 then none else some new.1
    else some new.1

/-- Used in the model of `compress.pm:67-167` (`compressOne`). -/
abbrev FS := Path → Option Bytes

/-- Used in the model of `compress.pm:67-167` (`compressOne`). -/
def FS.put (fs : FS) (p : Path) (b : Option Bytes) : FS := fun q => if q = p then b else fs q

/-- One source: `rebuild`, and the new file moved to its place. A source that has gone reads as nothing. Made of the parts of `compress.pm:67-167`. -/
def compressOne (o : Opts) (t : Tools) (fs : FS) (p : Path) : FS :=
  match rebuild o t p ((fs p).getD []) with
  | none => fs
  | some new => (if o.clean then fs.put p none else fs).put (destination o.type p) (some new)

/-- Made of the parts of `compress.pm:67-167`. -/
def compressAll (o : Opts) (t : Tools) (fs : FS) (ps : List Path) : FS := ps.foldl (compressOne o t) fs

end Verif.Batch.Compress
