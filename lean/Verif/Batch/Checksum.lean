/-!
# Model of `BatchParallel::checksum`

`/repo/src/BatchParallel/checksum.pm:35-135`. Paths are absolute, as `find_possibles` gives them, and have no newline. The digests, the regular files and what a shell command writes are parameters. `new FileHandle($source)` with one argument is the two-argument `open` of Perl, of which the forms that can begin with `/` or
with the name of a command are modelled: white space at both ends is dropped, and a `|` at the end makes it a command.
-/

namespace Verif.Batch.Checksum

/-- Used in the model of `checksum.pm:35-61` (`Opts`). -/
abbrev Text := List Char

/-- The digests that can be asked for. Used in the model of `checksum.pm:104` (`line`). -/
inductive Dig where
  | md5
  | sha1
deriving DecidableEq, Repr

/-- Used in the model of `checksum.pm:104` (`line`). -/
def Dig.name : Dig → Text
  | .md5 => "md5".toList
  | .sha1 => "sha1".toList

/-- The object, lines 35-61. -/
structure Opts where
  md5 : Bool := false
  sha1 : Bool := false
  uncompressedAlso : Bool := false
  basename : Bool := false
  /-- the regular expression, if one is given, as a test -/
  matchRe : Text → Bool := fun _ => true

/-- `new`, lines 35-61, on the arguments other than `help` and `match=`; `none` if it dies. -/
def new : List Text → Opts → Option Opts
  | [], o => some (if o.md5 || o.sha1 then o else { o with sha1 := true })
  | a :: as, o =>
    if a = "sha1".toList then new as { o with sha1 := true }
    else if a = "md5".toList then new as { o with md5 := true }
    else if a = "uncompressed-also".toList then new as { o with uncompressedAlso := true }
    else if a = "basename".toList then new as { o with basename := true }
    else none

/-- What is outside: contents of files, digests, output of commands. `B` is the type of contents. Not a function of the code; stands for the uses of `checksum.pm:88-133`. -/
structure World (B : Type) where
  file : Text → Option B
  digest : Dig → B → Text
  shell : Text → B

/-- What an `open` reads. Used in the model of `checksum.pm:88-106` (`open2`). -/
inductive Src where
  | file (p : Text)
  | cmd (c : Text)
deriving DecidableEq, Repr

/-- Used in the model of `checksum.pm:88-106` (`open2`). -/
def isSpace (c : Char) : Bool := c == ' ' || c == '\t' || c == '\r' || c == '\x0c' || c == '\x0b'

/-- White space at the end dropped. Used in the model of `checksum.pm:88-106` (`open2`). -/
def rstrip (s : Text) : Text := (s.reverse.dropWhile isSpace).reverse

/-- `open` with two arguments. Used in the model of `checksum.pm:88-106` (`checksum`). -/
def open2 (s : Text) : Src :=
  let t := rstrip (s.dropWhile isSpace)
  if t.getLast? = some '|' then .cmd (rstrip t.dropLast) else .file t

/-- What is read; `none` if the `open` fails. Used in the model of `checksum.pm:88-106` (`checksum`). -/
def World.read {B : Type} (w : World B) : Src → Option B
  | .file p => w.file p
  | .cmd c => some (w.shell c)

/-- `sort keys %{$this->{digests}}`. Used in the model of `checksum.pm:108-133` (`rebuild`). -/
def Opts.digests (o : Opts) : List Dig := (if o.md5 then [.md5] else []) ++ (if o.sha1 then [.sha1] else [])

/-- Line 104. -/
def line (d : Dig) (sum name : Text) : Text := d.name ++ ' ' :: sum ++ ' ' :: name ++ ['\n']

/-- `checksum`, lines 88-106: the text written, `none` if it dies. The source is opened again for each digest. -/
def checksum {B : Type} (w : World B) (source name : Text) : List Dig → Option Text
  | [] => some []
  | d :: ds =>
    match w.read (open2 source) with
    | none => none
    | some b => (checksum w source name ds).map fun rest => line d (w.digest d b) name ++ rest

/-- `s!^.*/!!`: what follows the last `/`. Used in the model of `checksum.pm:108-133` (`rebuild`). -/
def baseOf (p : Text) : Text := (p.reverse.takeWhile (· ≠ '/')).reverse

/-- A suffix taken off, if it is there. Used in the model of `checksum.pm:108-133` (`rebuild`). -/
def dropSuffix (suf s : Text) : Option Text := if suf.isSuffixOf s then some (s.take (s.length - suf.length)) else none

/-- `rebuild`, lines 108-133: the text written, `none` if it dies. It always returns 1. -/
def rebuild {B : Type} (w : World B) (o : Opts) (path : Text) : Option Text :=
  let name := if o.basename then baseOf path else path
  match checksum w path name o.digests with
  | none => none
  | some t =>
    if o.uncompressedAlso then
      match dropSuffix ".gz".toList path, dropSuffix ".bz2".toList path with
      | some _, _ =>
        (checksum w ("gunzip -c < ".toList ++ path ++ " |".toList) ((dropSuffix ".gz".toList name).getD name) o.digests).map (t ++ ·)
      | none, some _ =>
        (checksum w ("bunzip2 -c  < ".toList ++ path ++ " |".toList) ((dropSuffix ".bz2".toList name).getD name) o.digests).map (t ++ ·)
      | none, none => some t
    else some t

/-- `file_is_source`, lines 63-70, for a regular file. -/
def isSource (o : Opts) (path : Text) : Bool :=
  !(".checksum".toList.isSuffixOf path) && !(".checksum-new".toList.isSuffixOf path) && o.matchRe path

/-- `destination_file`, lines 72-76. -/
def dest (path : Text) : Text := path ++ ".checksum".toList

/-- `destfile_out_of_date`, lines 78-83, in `determine_things_to_build`: the files for which something is to be done. -/
def things (o : Opts) (files : List Text) : List Text :=
  (files.filter (isSource o)).filter fun p => !files.contains (dest p)

/-- A run in which all jobs end well: the regular files afterwards. Made of the parts of `checksum.pm:35-83`. -/
def runAll (o : Opts) (files : List Text) : List Text := files ++ (things o files).map dest

end Verif.Batch.Checksum
