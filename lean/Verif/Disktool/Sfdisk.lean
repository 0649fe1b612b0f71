import Verif.Disktool.FailProps

/-!
# `lintel-disktool`: reading the partition tables (C177)

Model of `getSpecificSfdiskInfo` (src/lintel-disktool.in, lines 973-1038) over the lines that `sfdisk -uS -l` prints.

Simplified: the lines are given as what the regular expressions see of them, words of digits as numbers (the comparisons are of doubles, exact below 2^53); at the end of the input Perl's undefined value is only tested against expressions that end in `die`.
-/

namespace Verif.Disktool

/-- A word of a line: digits only, or anything else. Used in the model of `lintel-disktool.in:1019-1023` (`rowOk`). -/
inductive Word where
  | num (n : Nat)
  | text (t : Text)
deriving DecidableEq, Repr

/-- Used in the model of `lintel-disktool.in:1024-1031` (`otherRows`). -/
inductive Line where
  | blank
  | gpt
  | disk (drive : Text) (cylinders heads sectors : Nat)
  | warn
  | forCHS
  | forThis
  | errSig
  | unrec (drive : Text)
  | noParts
  | units
  | header
  | part (words : List Word)
  | startW
  | endW
  | other
deriving DecidableEq, Repr

/-- What is stored about a drive. Used in the model of `lintel-disktool.in:978-1033` (`readLoop`). -/
structure Info where
  drive : Text
  cylinders : Nat
  heads : Nat
  sectors : Nat
  ok : Bool
deriving DecidableEq, Repr

/-- `m!^/dev/${drive}p?$pnum\s+!`. Used in the model of `lintel-disktool.in:1024-1031` (`otherRows`). -/
def isRow (drive : Text) (k : Char) : List Word → Bool
  | .text t :: _ => decide (t = dev ++ drive ++ [k]) || decide (t = dev ++ drive ++ ['p', k])
  | _ => false

/-- Lines 1019-1023. -/
def rowOk (block : Text → Bool) (expected : Option Nat) : List Word → Bool
  | [.text name, .num start, .num stop, .num count, _, _] =>
    block name && decide (start = 1) && decide (some stop = expected) && decide (some count = expected)
  | _ => false

/-- `1.0 * $cylinders * $heads * $sectorspercyl - 1`; `none` for -1. Used in the model of `lintel-disktool.in:991-1031` (`readTable`). -/
def expected (c h s : Nat) : Option Nat := match c * h * s with | 0 => none | n + 1 => some n

/-- Used in the model of `lintel-disktool.in:1024-1031` (`otherRows`). -/
def skipStart : List Line → List Line
  | .startW :: r => r
  | r => r

/-- Used in the model of `lintel-disktool.in:1024-1031` (`otherRows`). -/
def skipEnd : List Line → List Line
  | .endW :: r => r
  | r => r

/-- Lines 1024-1031. -/
def otherRows (drive : Text) : List Char → List Line → Option (List Line)
  | [], ls => some ls
  | k :: ks, ls =>
    match skipEnd (skipStart ls) with
    | .part ws :: r => if isRow drive k ws then otherRows drive ks r else none
    | _ => none

/-- Lines 986-990; `none`: it dies. -/
def skipWarning : List Line → Option (List Line)
  | .warn :: .forCHS :: .forThis :: r => some r
  | .warn :: _ => none
  | r => some r

/-- Lines 991-1031: whether the table is as wanted, and the rest. -/
def readTable (block : Text → Bool) (drive : Text) (c h s : Nat) : List Line → Option (Bool × List Line)
  | .blank :: .errSig :: .unrec e :: .noParts :: r => if e = drive then some (false, r) else none
  | .units :: .blank :: .header :: .part ws :: r =>
    if isRow drive '1' ws then (otherRows drive ['2', '3', '4'] r).map fun r => (rowOk block (expected c h s) ws, r) else none
  | _ => none

/-- The loop of lines 978-1033; `none`: it dies. -/
def readLoop (block : Text → Bool) : Nat → List Line → Option (List Info)
  | _, [] => some []
  | 0, _ => none
  | _ + 1, .blank :: .gpt :: _ => some []
  | n + 1, .blank :: .disk d c h s :: r =>
    match (skipWarning r).bind (readTable block d c h s) with
    | none => none
    | some (ok, r) => (readLoop block n r).map (⟨d, c, h, s, ok⟩ :: ·)
  | _ + 1, _ => none

/-- `getSpecificSfdiskInfo`. Each turn of the loop reads a line, so the number of lines is enough. Made of the parts of `lintel-disktool.in:978-1033`. -/
def sfdisk (block : Text → Bool) (ls : List Line) : Option (List Info) := readLoop block ls.length ls

/-! ## What `sfdisk` prints -/

/-- Used in the model of `lintel-disktool.in:1024-1031` (`Row.words`). -/
structure Row where
  boot : Bool := false
  start : Nat
  /-- `-` for a partition that is not used -/
  stop : Option Nat
  count : Nat
  id : Text
  system : List Text
  /-- the partition does not begin (end) at a cylinder -/
  startW : Bool := false
  endW : Bool := false

/-- Used in the model of `lintel-disktool.in:1024-1031` (`Table.print`). -/
structure Table where
  drive : Text
  cylinders : Nat
  heads : Nat
  sectors : Nat
  warned : Bool := false
  /-- `none`: there is no table -/
  rows : Option (Row × Row × Row × Row)

/-- The name of a partition. Used in the model of `lintel-disktool.in:1024-1031` (`Row.words`). -/
def rowName (drive : Text) (k : Char) : Text :=
  dev ++ drive ++ (if (drive.getLast?.map isDigit).getD false then ['p', k] else [k])

/-- Used in the model of `lintel-disktool.in:1024-1031` (`Line`). -/
def Row.words (drive : Text) (k : Char) (r : Row) : List Word :=
  .text (rowName drive k) :: ((if r.boot then [.text ['*']] else []) ++
    [.num r.start, (match r.stop with | some n => .num n | none => .text ['-']), .num r.count, .text r.id] ++ r.system.map .text)

/-- Made of the parts of `lintel-disktool.in:1024-1031`. -/
def Row.print (drive : Text) (k : Char) (r : Row) : List Line :=
  .part (r.words drive k) :: ((if r.startW then [.startW] else []) ++ if r.endW then [.endW] else [])

/-- Used in the model of `lintel-disktool.in:1024-1031` (`Row.print`). -/
def Table.print (t : Table) : List Line :=
  [.blank, .disk t.drive t.cylinders t.heads t.sectors] ++ (if t.warned then [.warn, .forCHS, .forThis] else []) ++
    match t.rows with
    | none => [.blank, .errSig, .unrec t.drive, .noParts]
    | some (a, b, c, d) => [.units, .blank, .header] ++ a.print t.drive '1' ++ b.print t.drive '2' ++ c.print t.drive '3' ++ d.print t.drive '4'

/-- The first partition has the whole drive, without its first sector. -/
def Whole (t : Table) (r : Row) : Prop :=
  r.start = 1 ∧ (∃ n, r.stop = some n ∧ n + 1 = t.cylinders * t.heads * t.sectors) ∧ r.count + 1 = t.cylinders * t.heads * t.sectors

/-- The fourth partition is not commented on. -/
def Quiet (t : Table) : Prop := ∀ a b c d, t.rows = some (a, b, c, d) → d.startW = false ∧ d.endW = false

/-- The table is taken for correct. -/
def Accepted (block : Text → Bool) (t : Table) : Prop :=
  ∃ r b c d, t.rows = some (r, b, c, d) ∧ Whole t r ∧ block (rowName t.drive '1') = true ∧ r.boot = false ∧ r.system.length = 1

theorem isRow_words (drive : Text) (k : Char) (r : Row) : isRow drive k (r.words drive k) = true := by
  unfold isRow Row.words rowName
  simp only [Bool.or_eq_true, decide_eq_true_eq]
  split
  · right; rfl
  · left; rfl

theorem rowOk_words (block : Text → Bool) (drive : Text) (r : Row) (c h s : Nat) : rowOk block (expected c h s) (r.words drive '1') = true ↔
    (r.start = 1 ∧ (∃ n, r.stop = some n ∧ n + 1 = c * h * s) ∧ r.count + 1 = c * h * s) ∧ block (rowName drive '1') = true ∧ r.boot = false ∧ r.system.length = 1 := by
  have he : ∀ n, some n = expected c h s ↔ n + 1 = c * h * s := by
    intro n
    unfold expected
    cases c * h * s with
    | zero => simp
    | succ k => simp
  unfold Row.words
  cases hb : r.boot with
  | true =>
    simp only [if_true, List.cons_append, List.nil_append]
    constructor
    · intro h
      unfold rowOk at h
      split at h
      · rename_i g; simp at g
      · cases h
    · rintro ⟨_, _, h, _⟩; cases h
  | false =>
    simp only [Bool.false_eq_true, if_false, List.nil_append, List.cons_append]
    match hs : r.system with
    | [] => simp [rowOk]
    | [y] =>
      cases hst : r.stop with
      | none => simp [rowOk]
      | some n =>
        simp only [List.map_cons, List.map_nil, rowOk, Bool.and_eq_true, decide_eq_true_eq, he, List.length_singleton, Option.some.injEq]
        constructor
        · rintro ⟨⟨⟨h1, h2⟩, h3⟩, h4⟩
          exact ⟨⟨h2, ⟨n, rfl, h3⟩, h4⟩, h1, trivial, trivial⟩
        · rintro ⟨⟨h2, ⟨_, rfl, h3⟩, h4⟩, h1, _, _⟩
          exact ⟨⟨⟨h1, h2⟩, h3⟩, h4⟩
    | y :: z :: t => simp [rowOk]

theorem otherRows_print (drive : Text) (ks : List Char) (rs : List Row) (r0 : Row) (rest : List Line) (hl : ks.length = rs.length)
    (hq : ((r0 :: rs).getLast (by simp)).startW = false ∧ ((r0 :: rs).getLast (by simp)).endW = false) :
    otherRows drive ks (((if r0.startW then [.startW] else []) ++ (if r0.endW then [.endW] else [])) ++ ((ks.zip rs).flatMap fun x => x.2.print drive x.1) ++ rest) = some rest := by
  induction ks generalizing rs r0 with
  | nil =>
    cases rs with
    | cons _ _ => cases hl
    | nil =>
      simp only [List.getLast_singleton] at hq
      simp [otherRows, hq.1, hq.2]
  | cons k ks ih =>
    cases rs with
    | nil => cases hl
    | cons r rs =>
      have hl' : ks.length = rs.length := by simpa using hl
      have hq' : ((r :: rs).getLast (by simp)).startW = false ∧ ((r :: rs).getLast (by simp)).endW = false := by
        rw [List.getLast_cons (by simp)] at hq; exact hq
      have hskip : ∀ l : List Line, skipEnd (skipStart (((if r0.startW then [.startW] else []) ++ (if r0.endW then [.endW] else [])) ++ .part (r.words drive k) :: l)) = .part (r.words drive k) :: l := by
        intro l
        cases r0.startW <;> cases r0.endW <;> rfl
      rw [otherRows]
      have e : ((if r0.startW then [Line.startW] else []) ++ (if r0.endW then [Line.endW] else [])) ++ (((k :: ks).zip (r :: rs)).flatMap fun x => x.2.print drive x.1) ++ rest =
          ((if r0.startW then [Line.startW] else []) ++ (if r0.endW then [Line.endW] else [])) ++ .part (r.words drive k) ::
            (((if r.startW then [.startW] else []) ++ (if r.endW then [.endW] else [])) ++ ((ks.zip rs).flatMap fun x => x.2.print drive x.1) ++ rest) := by
        simp [Row.print]
      rw [e, hskip]
      simp only [isRow_words, if_true]
      exact ih rs r hl' hq'

theorem readTable_print (block : Text → Bool) (t : Table) (hq : Quiet t) (rest : List Line) [Decidable (Accepted block t)] :
    ∃ r, t.print ++ rest = .blank :: .disk t.drive t.cylinders t.heads t.sectors :: r ∧
      (skipWarning r).bind (readTable block t.drive t.cylinders t.heads t.sectors) = some (decide (Accepted block t), rest) := by
  refine ⟨(if t.warned then [.warn, .forCHS, .forThis] else []) ++
    (match t.rows with
    | none => [.blank, .errSig, .unrec t.drive, .noParts]
    | some (a, b, c, d) => [.units, .blank, .header] ++ a.print t.drive '1' ++ b.print t.drive '2' ++ c.print t.drive '3' ++ d.print t.drive '4') ++ rest, by simp [Table.print], ?_⟩
  cases hr : t.rows with
  | none =>
    have hna : decide (Accepted block t) = false := by
      rw [decide_eq_false_iff_not]
      rintro ⟨_, _, _, _, h, _⟩
      rw [hr] at h; cases h
    rw [hna]
    cases t.warned <;> simp [skipWarning, readTable]
  | some q =>
    obtain ⟨a, b, c, d⟩ := q
    simp only []
    have hw : ∀ l : List Line, skipWarning ((if t.warned then [.warn, .forCHS, .forThis] else []) ++ ([.units, .blank, .header] ++ l)) = some ([.units, .blank, .header] ++ l) := by
      intro l
      cases t.warned <;> rfl
    have hd := hq a b c d hr
    have ho := otherRows_print t.drive ['2', '3', '4'] [b, c, d] a rest rfl hd
    have e : (if t.warned then [Line.warn, .forCHS, .forThis] else []) ++ ([.units, .blank, .header] ++ a.print t.drive '1' ++ b.print t.drive '2' ++ c.print t.drive '3' ++ d.print t.drive '4') ++ rest =
        (if t.warned then [Line.warn, .forCHS, .forThis] else []) ++ ([.units, .blank, .header] ++ (.part (a.words t.drive '1') ::
          (((if a.startW then [.startW] else []) ++ (if a.endW then [.endW] else [])) ++ ((['2', '3', '4'].zip [b, c, d]).flatMap fun x => x.2.print t.drive x.1) ++ rest))) := by
      simp [Row.print]
    rw [e, hw]
    simp only [Option.bind_some, List.cons_append, List.nil_append, readTable]
    simp only [isRow_words, if_true]
    have ho' := ho
    simp only [List.append_assoc] at ho' ⊢
    rw [ho']
    simp only [Option.map_some, Option.some.injEq, Prod.mk.injEq, and_true]
    rw [Bool.eq_iff_iff, decide_eq_true_iff, rowOk_words]
    constructor
    · rintro ⟨h1, h2⟩
      exact ⟨a, b, c, d, hr, h1, h2⟩
    · rintro ⟨a', b', c', d', h, h1, h2⟩
      rw [hr] at h
      obtain ⟨rfl, _⟩ := Prod.mk.inj (Option.some.inj h)
      exact ⟨h1, h2⟩

open Classical in
/-- C177: from what `sfdisk` prints about any drives (unless it comments on a fourth partition), the program reads their sizes, and takes a table for correct if and only if the first partition has the whole drive without its first sector, is a device, is not marked active, and the name of its type is one word. -/
theorem sfdisk_partial (block : Text → Bool) (ts : List Table) (hq : ∀ t ∈ ts, Quiet t) :
    sfdisk block (ts.flatMap Table.print) = some (ts.map fun t => ⟨t.drive, t.cylinders, t.heads, t.sectors, decide (Accepted block t)⟩) := by
  have : ∀ n, (ts.flatMap Table.print).length ≤ n → readLoop block n (ts.flatMap Table.print) = some (ts.map fun t => ⟨t.drive, t.cylinders, t.heads, t.sectors, decide (Accepted block t)⟩) := by
    induction ts with
    | nil => intro n _; cases n <;> rfl
    | cons t ts ih =>
      intro n hn
      obtain ⟨r, h1, h2⟩ := readTable_print block t (hq t (List.mem_cons_self ..)) (ts.flatMap Table.print)
      have hlen : 2 ≤ t.print.length := by unfold Table.print; simp
      rw [List.flatMap_cons] at hn ⊢
      rw [List.length_append] at hn
      rw [h1]
      cases n with
      | zero => omega
      | succ n =>
        rw [readLoop]
        rw [h2]
        simp only []
        rw [ih (fun t ht => hq t (List.mem_cons_of_mem _ ht)) n (by omega)]
        rfl
  exact this _ (Nat.le_refl _)

/-- A partition that is not used. Made of the parts of `lintel-disktool.in:1024-1031`. -/
def unused : Row := { start := 0, stop := none, count := 0, id := ['0'], system := [['E']] }

/-- The table that `partition` makes on a drive of 10 cylinders. Made of the parts of `lintel-disktool.in:1024-1031`. -/
def tableEx : Table where
  drive := sdb
  cylinders := 10
  heads := 2
  sectors := 5
  rows := some ({ start := 1, stop := some 99, count := 99, id := ['8', '3'], system := [['L']] }, unused, unused, unused)

example : Accepted (fun _ => true) tableEx ∧ Quiet tableEx ∧ sfdisk (fun _ => true) tableEx.print = some [⟨sdb, 10, 2, 5, true⟩] := by
  refine ⟨⟨_, _, _, _, rfl, ⟨rfl, ⟨99, rfl, rfl⟩, rfl⟩, rfl, rfl, rfl⟩, ?_, by decide +kernel⟩
  intro a b c d h
  cases h
  exact ⟨rfl, rfl⟩

/-- The first partition has the whole drive; if it is marked active, or its type has a name of several words like `Linux LVM`, the table is taken for wrong, and `partition` overwrites the drive. -/
theorem sfdisk_words_false :
    (∃ (t : Table) (r b c d : Row), t.rows = some (r, b, c, d) ∧ Whole t r ∧ r.boot = true ∧ r.system.length = 1 ∧ sfdisk (fun _ => true) t.print = some [⟨t.drive, t.cylinders, t.heads, t.sectors, false⟩]) ∧
    (∃ (t : Table) (r b c d : Row), t.rows = some (r, b, c, d) ∧ Whole t r ∧ r.boot = false ∧ r.system.length = 2 ∧ sfdisk (fun _ => true) t.print = some [⟨t.drive, t.cylinders, t.heads, t.sectors, false⟩]) :=
  ⟨⟨{ tableEx with rows := some ({ boot := true, start := 1, stop := some 99, count := 99, id := ['8', '3'], system := [['L']] }, unused, unused, unused) }, _, _, _, _, rfl,
      ⟨rfl, ⟨99, rfl, rfl⟩, rfl⟩, rfl, rfl, by decide +kernel⟩,
    ⟨{ tableEx with rows := some ({ start := 1, stop := some 99, count := 99, id := ['8', 'e'], system := [['L'], ['V']] }, unused, unused, unused) }, _, _, _, _, rfl,
      ⟨rfl, ⟨99, rfl, rfl⟩, rfl⟩, rfl, rfl, by decide +kernel⟩⟩

/-- If `sfdisk` comments on the fourth partition, the program dies. -/
theorem sfdisk_fourth_false : ∃ (t : Table), sfdisk (fun _ => true) t.print = none :=
  ⟨{ tableEx with rows := some (unused, unused, unused, { unused with endW := true }) }, by decide +kernel⟩

end Verif.Disktool
