/-!
# Model of `lintel-latex-rebuild` (`src/lintel-latex-rebuild.in`)

The shell script that runs latex, bibtex and the converters. What the programs do is the environment's choice: attempt number `n` of the whole run is
`E n`. Files other than the ones named are left out, and so are the lock, the terminal output, and the variables that a caller may have in the
environment.
-/

namespace Verif.Latex

/-- Used in the model of `lintel-latex-rebuild.in:135-142` (`Try`). -/
abbrev Line := List Char

/-- One attempt at a step as the script sees it, `lintel-latex-rebuild.in:135-142`: the command's exit code, whether the sleeping process had already sent its
TERM, whether `kill -TERM $KILL_PID` succeeded, the lines written to the log, and what the files are afterwards (`aux`: whether it mentions a citation). -/
structure Try where
  code : Nat
  fired : Bool
  killOk : Bool
  lines : List Line
  aux : Option Bool
  dvi : Option Nat
deriving DecidableEq, Repr

/-- Whether a line has a word in it (`grep word`). Made of the parts of `lintel-latex-rebuild.in:135-142`. -/
def hasWord (w : Line) : Line → Bool
  | [] => w.isEmpty
  | c :: l => w.isPrefixOf (c :: l) || hasWord w l

/-- ASCII lower case, for `grep -i`. Made of the parts of `lintel-latex-rebuild.in:135-142`. -/
def lower (l : Line) : Line := l.map Char.toLower

/-- Made of the parts of `lintel-latex-rebuild.in:135-142`. -/
def rerunText : Line := "Rerun to get".toList
/-- Made of the parts of `lintel-latex-rebuild.in:135-142`. -/
def warningText : Line := "warning".toList
/-- Made of the parts of `lintel-latex-rebuild.in:135-142`. -/
def stopText : Line := "Emergency stop.".toList

/-- Options, `:33-40`, `:41-98`: the number of tries, the name of the document, the latex command, and whether warnings are errors. -/
structure Cfg where
  maxRetries : Nat
  name : Line
  command : Line
  errorOnWarnings : Bool
deriving DecidableEq, Repr

/-- A step that was made: which one, its attempts in order, and the code that came back. Not a function of the code; stands for the uses of `lintel-latex-rebuild.in:135-142`. -/
inductive Ev where
  | latex (tries : List Try) (rc : Nat)
  | bibtex (tries : List Try) (rc : Nat)
deriving DecidableEq, Repr

/-- The state: number of the next attempt, the log `$TEXFILE.rebuild.out`, the files, the shell's variables, and the steps made (newest first). Not a function of the code; stands for the uses of `lintel-latex-rebuild.in:135-142`. -/
structure St where
  n : Nat
  log : List Line
  aux : Option Bool
  dvi : Option Nat
  ps : Option Nat
  pdf : Option Nat
  latexErr : Nat
  bibtexErr : Nat
  hist : List Ev
deriving DecidableEq, Repr

/-- The `while` loop of `run_with_timeout`, `:132-149`, with `r` tries left. Returns the state, the attempts, and the exit code. When the loop runs out, the function's
exit code is that of its last command, an `echo`: 0 (and 0 for no turn at all). The lines `echo`ed by the function are simplified to their beginnings. -/
def tries (E : Nat → Try) (cmd : Line) : Nat → St → St × List Try × Nat
  | 0, s => (s, [], 0)
  | r + 1, s =>
    let t := E s.n
    let s1 := { s with n := s.n + 1, log := s.log ++ ["Starting ".toList ++ cmd] ++ t.lines, aux := t.aux, dvi := t.dvi }
    if t.killOk then
      ({ s1 with log := s1.log ++ ["Finished ".toList ++ cmd] }, [t], t.code)
    else
      let q := tries E cmd r { s1 with log := s1.log ++ ["Timeout on ".toList ++ cmd] }
      (q.1, t :: q.2.1, q.2.2)

/-- `case $LATEX_COMMAND in *perltex)`, `:161-164`. -/
def isPerltex (c : Cfg) : Bool := "perltex".toList.isSuffixOf c.command

/-- The command line of latex, `:159`. -/
def latexLine (c : Cfg) : Line := c.command ++ " ".toList ++ c.name ++ ".tex".toList

/-- `rebuild_latex`, `:153-165`. -/
def rebuildLatex (c : Cfg) (E : Nat → Try) (s : St) : St :=
  let q := tries E (latexLine c) c.maxRetries { s with log := s.log ++ ["rebuild latex".toList] }
  let err := if isPerltex c && q.1.log.any (hasWord stopText) then 77 else q.2.2
  { q.1 with latexErr := err, hist := .latex q.2.1 err :: q.1.hist }

/-- The command line of bibtex, `:174`. -/
def bibtexLine (c : Cfg) : Line := "bibtex --min-crossrefs=9000 ".toList ++ c.name

/-- `rebuild_bibtex`, `:167-180`. -/
def rebuildBibtex (c : Cfg) (E : Nat → Try) (s : St) : St :=
  if s.aux = some true then
    let q := tries E (bibtexLine c) c.maxRetries { s with log := s.log ++ ["rebuild bibtex".toList] }
    { q.1 with bibtexErr := q.2.2, hist := .bibtex q.2.1 q.2.2 :: q.1.hist }
  else { s with bibtexErr := 0 }

/-- `rebuild`, `:182-186`: the log begins anew. -/
def rebuild (c : Cfg) (E : Nat → Try) (s : St) : St :=
  rebuildBibtex c E (rebuildLatex c E { s with log := ["Latex rebuild run".toList] })

/-- The initial rounds, `:188-197`. -/
def initial (c : Cfg) (E : Nat → Try) (s : St) : St :=
  let s1 := rebuild c E s
  let s2 := if s1.latexErr ≠ 0 then rebuild c E { s1 with aux := none } else s1
  rebuildLatex c E s2

/-- One more round, `:208-209`. -/
def round (c : Cfg) (E : Nat → Try) (s : St) : St := rebuildLatex c E (rebuild c E s)

/-- The convergence loop, `:199-212`, with `r` rounds left of ten; `none` is the error exit after the last. -/
def converge (c : Cfg) (E : Nat → Try) : Nat → St → Bool × St
  | 0, s => if s.log.any (hasWord rerunText) then (false, s) else (true, s)
  | r + 1, s => if s.log.any (hasWord rerunText) then converge c E r (round c E s) else (true, s)

/-- The three conversions, `:217`, `:224`, `:232`: exit code and what is in the output file afterwards (`none`: not written), as functions of their input. -/
structure Conv where
  dvips : Option Nat → Nat × Option Nat
  dvipstemp : Option Nat → Nat × Option Nat
  ps2pdf : Option Nat → Nat × Option Nat

/-- Whether a step failed, and which first, `:242-252`. -/
inductive Failed where
  | latex | bibtex | dvips | dvipstemp | ps2pdf
deriving DecidableEq, Repr

/-- The end of a run. Not a function of the code; stands for the uses of `lintel-latex-rebuild.in:135-142`. -/
inductive End where
  | noConvergence
  | failed (what : Failed)
  | warnings
  | success
deriving DecidableEq, Repr

/-- The conversions, `:214-240`. A move of a file that is not there does nothing. The three files `.ps.tmp`, `.pdftemp` and `.pdf14tmp` are taken to be absent at the
beginning (`:226` writes the second before it is read). -/
def convert (v : Conv) (s : St) : St × Option Failed :=
  let a := v.dvips s.dvi
  let s1 := if a.1 = 0 then (match a.2 with | some x => { s with ps := some x } | none => s) else s
  let b := v.dvipstemp s.dvi
  let d := v.ps2pdf b.2
  let s2 := if d.1 = 0 then (match d.2 with | some x => { s1 with pdf := some x } | none => s1) else s1
  (s2, if a.1 ≠ 0 then some .dvips else if b.1 ≠ 0 then some .dvipstemp else if d.1 ≠ 0 then some .ps2pdf else none)

/-- `cleanup_abort`, `:260-265`. -/
def cleanup (s : St) : St := { s with dvi := none, ps := none, pdf := none }

/-- What follows the loop, `:214-289`. -/
def finish (c : Cfg) (v : Conv) (s : St) : End × St :=
  if s.latexErr ≠ 0 then (.failed .latex, cleanup s)
  else if s.bibtexErr ≠ 0 then (.failed .bibtex, cleanup s)
  else
    let q := convert v s
    match q.2 with
    | some f => (.failed f, cleanup q.1)
    | none =>
      if c.errorOnWarnings && q.1.log.any (fun l => hasWord warningText (lower l)) then (.warnings, cleanup q.1)
      else (.success, q.1)

/-- A run once the arguments are accepted, `:188-289`. -/
def build (c : Cfg) (E : Nat → Try) (v : Conv) (s : St) : End × St :=
  match converge c E 10 (initial c E s) with
  | (false, s') => (.noConvergence, s')
  | (true, s') => finish c v s'

/-- The exit code. Used in the model of `lintel-latex-rebuild.in:135-142` (`Try`). -/
def End.code : End → Nat
  | .success => 0
  | _ => 1

/-! ## Arguments -/

/-- What the options collect, `:33-40`: the three search paths as given by the environment, and the rest. -/
structure Opts where
  tex : Line
  bib : Line
  bst : Line
  paper : Line
  warn : Bool
  latex : Line
  flock : Bool
  stepTime : Line
  retries : Line
deriving DecidableEq, Repr

/-- `X=$1:$X`. Made of the parts of `lintel-latex-rebuild.in:135-142`. -/
def prepend (p x : Line) : Line := p ++ ':' :: x

/-- The words of the `case`, `:43-96`. -/
inductive Kind where
  | warn | noFlock | tex | bib | bst | paper | latex | stepTime | retries | other
deriving DecidableEq, Repr

/-- Made of the parts of `lintel-latex-rebuild.in:135-142`. -/
def kind (a : Line) : Kind :=
  if a = "--error-on-warnings".toList then .warn
  else if a = "--disable-flock".toList then .noFlock
  else if a = "--tex".toList then .tex
  else if a = "--bib".toList then .bib
  else if a = "--bst".toList then .bst
  else if a = "--paper".toList then .paper
  else if a = "--latex-binary".toList then .latex
  else if a = "--max-step-time".toList then .stepTime
  else if a = "--max-retries".toList then .retries
  else .other

/-- The value of an option, `:44-94`. -/
def Opts.set (o : Opts) (k : Kind) (p : Line) : Opts :=
  match k with
  | .tex => { o with tex := prepend p o.tex }
  | .bib => { o with bib := prepend p o.bib }
  | .bst => { o with bst := prepend p o.bst }
  | .paper => { o with paper := p }
  | .latex => { o with latex := p }
  | .stepTime => { o with stepTime := p }
  | .retries => { o with retries := p }
  | .warn => { o with warn := true }
  | .noFlock => { o with flock := false }
  | .other => o

/-- The loop over the options, `:41-98`. `none` is `usage`, which exits with 0. -/
def options (o : Opts) : List Line → Option (Opts × List Line)
  | [] => some (o, [])
  | [a] =>
    match kind a with
    | .other => some (o, [a])
    | .warn => some (o.set .warn [], [])
    | .noFlock => some (o.set .noFlock [], [])
    | _ => none
  | a :: p :: as =>
    match kind a with
    | .other => some (o, a :: p :: as)
    | .warn => options (o.set .warn []) (p :: as)
    | .noFlock => options (o.set .noFlock []) (p :: as)
    | k => options (o.set k p) as

/-- The directory of the files of the package, `:106`. -/
def shareDir : Line := "/usr/local/share/lintel-latex-rebuild".toList

/-- What the script found of its arguments, `:100-119`: usage (exit code 0), leftovers in the source directory (exit code 1), or the values of the search paths and the name. -/
inductive Args where
  | usage
  | leftovers
  | ok (tex bib bst : Line) (name : Line) (o : Opts)
deriving DecidableEq, Repr

/-- The file system as far as the arguments go: what is a directory, a file. Made of the parts of `lintel-latex-rebuild.in:135-142`. -/
structure Fs where
  isDir : Line → Bool
  isFile : Line → Bool

/-- `wc -w` of one line, `:104`: the number of maximal runs of characters that are not white space. -/
def words : Line → Bool → Nat
  | [], _ => 0
  | c :: l, inWord => if c = ' ' ∨ c = '\t' ∨ c = '\n' then words l false else (if inWord then 0 else 1) + words l true

/-- `TEXINPUTS=$1:$TEXINPUTS:…/share/lintel-latex-rebuild:`, `:106-108`. -/
def search (src x : Line) : Line := src ++ ':' :: x ++ ':' :: shareDir ++ [':']

/-- The arguments, `:41-119`. -/
def args (fs : Fs) (o : Opts) (as : List Line) : Args :=
  match options o as with
  | none => .usage
  | some (o', [src, name]) =>
    if src = "-h".toList then .usage
    else if !fs.isDir src then .usage
    else if !fs.isFile (src ++ '/' :: name ++ ".tex".toList) then .usage
    else if words name false ≠ 1 then .usage
    else if fs.isFile (src ++ '/' :: name ++ ".blg".toList) || fs.isFile (src ++ '/' :: name ++ ".bbl".toList)
        || fs.isFile (src ++ '/' :: name ++ ".dvi".toList) || fs.isFile (src ++ '/' :: name ++ ".aux".toList) then .leftovers
    else .ok (search src o'.tex) (search src o'.bib) (search src o'.bst) name o'
  | some _ => .usage

/-- The exit code of the whole script: `usage` ends with `exit 0`, `:18`. -/
def exitCode (c : Opts → Line → Cfg) (fs : Fs) (o : Opts) (as : List Line) (E : Nat → Try) (v : Conv) (s : St) : Nat :=
  match args fs o as with
  | .usage => 0
  | .leftovers => 1
  | .ok _ _ _ name o' => (build (c o' name) E v s).1.code

end Verif.Latex
