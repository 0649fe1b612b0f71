/-! # deptool commit: files that are not under version control

Model of src/deptool.in: depCommitUnknown and depCommitHaveUnknown (1952-1998). The file of what was ignored is a list of lines; directories have no newline in their names. `digest` is SHA-1 in hexadecimal. What git calls unknown is taken to stay the same during a call. -/

namespace Verif.DepVC.Unknown

/-- Used in the model of `deptool.in:1969-1974` (`line`). -/
abbrev Text := List Char

/-- One run in a directory: the unknown files and what is typed, line by line, until the end of the input. Not a function of the code; stands for the uses of `deptool.in:1957-1982`. -/
structure Call where
  dir : Text
  unknown : List Text
  answers : List Text

/-- Not a function of the code; stands for the uses of `deptool.in:1957-1982`. -/
inductive Out where
  /-- there was nothing to ask -/
  | silent
  /-- the files are ignored from now on -/
  | ignored
  /-- `git add --all` -/
  | added
  /-- it asks for ever: at the end of the input `<STDIN>` gives undef, which is neither word -/
  | stuck
deriving DecidableEq

/-- Used in the model of `deptool.in:1965-1981` (`ask`). -/
def wordIgnore : Text := ['i', 'g', 'n', 'o', 'r', 'e']
/-- Used in the model of `deptool.in:1965-1981` (`ask`). -/
def wordAdd : Text := ['a', 'd', 'd']

/-- `"$cwd $sha1\n"` for `hexDigest(join('', @unknown))`, lines 1969-1974 and 1990-1992. -/
def line (digest : Text → Text) (dir : Text) (unknown : List Text) : Text := dir ++ ' ' :: (digest unknown.flatten ++ ['\n'])

/-- `depCommitHaveUnknown`, lines 1984-1998. -/
def haveUnknown (digest : Text → Text) (file : List Text) (dir : Text) (unknown : List Text) : Bool :=
  if unknown = [] then false else !decide (line digest dir unknown ∈ file)

/-- The answers, lines 1965-1981: the first that is one of the two words counts. -/
def ask : List Text → Out
  | [] => .stuck
  | a :: as => if a = wordIgnore then .ignored else if a = wordAdd then .added else ask as

/-- `depCommitUnknown`, lines 1957-1982: the file after it, and what it did. -/
def commitUnknown (digest : Text → Text) (file : List Text) (c : Call) : List Text × Out :=
  if haveUnknown digest file c.dir c.unknown then
    match ask c.answers with
    | .ignored => (file ++ [line digest c.dir c.unknown], .ignored)
    | o => (file, o)
  else (file, .silent)

/-- Several runs after each other: what each did. Not a function of the code; stands for the uses of `deptool.in:1957-1982`. -/
def run (digest : Text → Text) (file : List Text) : List Call → List (Call × Out) × List Text
  | [] => ([], file)
  | c :: cs =>
    let r := commitUnknown digest file c
    let rest := run digest r.1 cs
    ((c, r.2) :: rest.1, rest.2)

end Verif.DepVC.Unknown
