/-!
# Model of `BatchParallel::make`

`/repo/src/BatchParallel/make.pm:69-161`. Texts are lists of characters. The transform is a parameter (any Perl expression can be given); what the commands do is not modelled, only which are run and whether they return 0.
-/

namespace Verif.Batch.Make

/-- Used in the model of `make.pm:117-119` (`substCmd`). -/
abbrev Text := List Char

/-- `s/<pat>/<rep>/g` for a pattern without special characters: from left to right, the text put in is not searched again. Used in the model of `make.pm:117-119` (`substCmd`). -/
def replaceAll (pat rep : Text) (s : Text) : Text :=
  match s with
  | [] => []
  | c :: cs =>
    if pat ≠ [] ∧ pat.isPrefixOf (c :: cs) then rep ++ replaceAll pat rep ((c :: cs).drop pat.length)
    else c :: replaceAll pat rep cs
termination_by s.length
decreasing_by
  · rename_i h
    have : 0 < pat.length := List.length_pos_iff.2 h.1
    simp only [List.length_drop, List.length_cons]; omega
  · simp

/-- Lines 117-119. -/
def substCmd (src dest tmp : Text) (cmd : Text) : Text :=
  replaceAll "$TMP".toList tmp (replaceAll "$@".toList dest (replaceAll "$<".toList src cmd))

/-- `do_rebuild`, lines 111-132, not mocked: the commands that are run and what is returned. `ret` says whether a command returns 0. The commands of the object are changed too, by the alias of line 116, but this is a child that ends. -/
def doRebuild (ret : Text → Bool) (src dest tmp : Text) : List Text → List Text × Bool
  | [] => ([], true)
  | cmd :: cmds =>
    let c := substCmd src dest tmp cmd
    if ret c then
      let r := doRebuild ret src dest tmp cmds
      (c :: r.1, r.2)
    else ([c], false)

/-- `do_rebuild` mocked: the commands printed, which are the commands of the object from now on, as the loop variable of line 116 is an alias of the element. -/
def mock (src dest tmp : Text) (cmds : List Text) : List Text := cmds.map (substCmd src dest tmp)

/-- `rebuild_thing_message`, lines 150-159, for the things of a run with `-n`: the commands printed for each. -/
def messages (tmp : Text) : List (Text × Text) → List Text → List (List Text)
  | [], _ => []
  | (src, dest) :: ts, cmds =>
    let shown := mock src (dest ++ "-new".toList) tmp cmds
    shown :: messages tmp ts shown

/-- `file_is_source` and `destination_file`, lines 84-96, over the paths found: the things to build before their age is looked at. -/
def things (transform : Text → Text) (paths : List Text) : List (Text × Text) :=
  (paths.filter fun p => p ≠ transform p).map fun p => (p, transform p)

/-- Whether a text without special characters is found in another. Used in the model of `make.pm:58-66` (`acceptable`). -/
def found (pat : Text) : Text → Bool
  | [] => pat.isEmpty
  | c :: cs => pat.isPrefixOf (c :: cs) || found pat cs

/-- The checks of `new` on the commands, lines 58-66. -/
def acceptable (cmds : List Text) : Bool := cmds.any (found "$<".toList) && cmds.any (found "$@".toList)

end Verif.Batch.Make
