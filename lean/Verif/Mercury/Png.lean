/-! # mercury-plot: psplot and pngplot

Model of `psplot` and `pngplot` (src/mercury-plot.in:1195-1302).

The options of `psplot` are given as Getopt has read them; that its verdict is ignored (line 1202) means that wrong options go unnoticed. The commands of `pngplot` are given by their outcomes; sizes are in bytes. Names of files are values: `psplot-$$..ps` and the others that contain the process number. -/

namespace Verif.Mercury.Png

abbrev Text := List Char

def tEps : Text := ['e', 'p', 's']
def tPortrait : Text := ['p', 'o', 'r', 't', 'r', 'a', 'i', 't']
def tLandscape : Text := ['l', 'a', 'n', 'd', 's', 'c', 'a', 'p', 'e']

/-- Does a text contain another? Used in the model of `mercury-plot.in:1206` (`modeOk`). -/
def contains (p : Text) : Text → Bool
  | [] => p.isEmpty
  | c :: t => p.isPrefixOf (c :: t) || contains p t

/-- `/^(eps)|(portrait)|(landscape)$/`, line 1206: the anchors belong to the outer alternatives. The text has no white space (line 1198). -/
def modeOk (m : Text) : Bool := tEps.isPrefixOf m || contains tPortrait m || tLandscape.isSuffixOf m

/-- What is sent to gnuplot. -/
inductive Cmd where
  | setOutput (f : Option Text)
  | terminalPs (mode : Text) (color : Bool) (fontsize : Text)
  | terminalBack
  | replot
deriving DecidableEq, Repr

/-- `psplot` (lines 1195-1220): what is sent, `none` if only the usage is printed and 0 returned. -/
def psplot (mode : Text) (color : Bool) (fontsize : Text) (args : List Text) : Option (List Cmd) :=
  match args with
  | [f] => if f.contains '"' ∨ modeOk mode = false then none else some [.setOutput (some f), .terminalPs mode color fontsize, .replot, .setOutput none, .terminalBack]
  | _ => none

/-- `/^\d+$/`, lines 1228-1229. -/
def digits (t : Text) : Bool := !t.isEmpty && t.all Char.isDigit

/-- The words behind the name of the command, lines 1226-1233: the options, the filename and the size as written. `none` if there is no word at all. -/
def pngArgs (ws : List Text) : Option (List Text × Text × Option (Text × Text)) :=
  match ws.reverse with
  | h :: w :: f :: r => if digits h && digits w then some (r.reverse, f, some (w, h)) else some ((w :: f :: r).reverse, h, none)
  | f :: r => some (r.reverse, f, none)
  | [] => none

/-- The outcomes of the commands and the sizes of what they write. -/
structure Env where
  psOk : Bool
  toPnmOk : Bool
  ppm1 : Option Nat
  ppm2 : Bool
  scaleOk : Bool
  scaled : Nat
  toPngOk : Bool
  png : Nat
  renameOk : Bool
deriving DecidableEq, Repr

/-- The files of a run: `psplot-$$..ps`, `err.$$`, `psplot-$$.001.ppm`, `psplot-$$.002.ppm`, `psplot-$$.001s.ppm`, the picture, and `${filename}.ps`. -/
structure Files where
  ps : Bool := false
  err : Bool := false
  ppm1 : Option Nat := none
  ppm2 : Bool := false
  scaled : Option Nat := none
  png : Option Nat := none
  saved : Bool := false
deriving DecidableEq, Repr

/-- How it ends: the value returned, whether `$command_error` is set, and the files that are left. -/
structure Res where
  ok : Bool
  error : Bool
  files : Files
deriving DecidableEq, Repr

/-- `pngplot` from line 1238, for a width and height. A file that is missing has the size 0 (lines 1258, 1274). -/
def pngplot (savePs : Bool) (w h : Nat) (e : Env) : Res :=
  if e.psOk = false then ⟨false, false, {}⟩
  else
    let f1 : Files := { ps := true, err := true, ppm1 := e.ppm1, ppm2 := e.ppm2 }
    if e.toPnmOk = false then ⟨false, true, f1⟩
    else if e.ppm1 = none then ⟨false, false, f1⟩
    else if e.ppm1.getD 0 < w * 2 * (h * 2) * 3 then ⟨false, false, f1⟩
    else if e.ppm2 then ⟨false, false, f1⟩
    else
      let f2 := { f1 with err := false, scaled := some e.scaled }
      if e.scaleOk = false then ⟨false, false, f2⟩
      else if e.ppm1.getD 0 < w * h * 3 then ⟨false, false, f2⟩
      else
        let f3 := { f2 with png := some e.png }
        if e.toPngOk = false then ⟨false, false, f3⟩
        else if e.png < 1000 then ⟨false, false, f3⟩
        else if savePs then
          if e.renameOk then ⟨true, false, { f3 with ps := false, saved := true, ppm1 := none, scaled := none }⟩ else ⟨false, false, f3⟩
        else ⟨true, false, { f3 with ps := false, ppm1 := none, scaled := none }⟩

end Verif.Mercury.Png
