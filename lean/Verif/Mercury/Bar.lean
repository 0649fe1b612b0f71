import Verif.Mercury.Sql

/-!
# Model and properties of `barplot` (C180; src/mercury-plot.in, lines 569-726)

Numbers are integers.
-/

namespace Verif.Mercury.Bar

/-! ## Model -/

/-- A row of the query (line 595); `none` is null or a column that is not there. -/
structure Row where
  major : Option Text
  minor : Option Text
  stacked : Option Text
  y : Option Int
  yerr : Option Int
  ylo : Option Int
  yhi : Option Int

/-- A value of the inner hash of `%data`: a record (line 632) or, for rows without a minor value, one of its numbers (line 639). -/
inductive Val where
  | cell (y lo hi : Int)
  | num (v : Int)
deriving DecidableEq, Repr

/-- `@major_value_list`, `@minor_value_list` and `%data`. Not a function of the code; stands for the uses of `mercury-plot.in:595-713`. -/
structure St where
  majors : List Text
  minors : List Text
  data : Text → Text → Option Val

/-- Used in the model of `mercury-plot.in:686-713` (`barplot`). -/
def st0 : St := ⟨[], [], fun _ _ => none⟩

/-- A string that is true in perl. Used in the model of `mercury-plot.in:625-626` (`minorOf`). -/
def truthy (t : Text) : Bool := !(t == [] || t == ['0'])

/-- Used in the model of `mercury-plot.in:624-640` (`store`). -/
def kY : Text := ['y']
/-- Used in the model of `mercury-plot.in:624-640` (`store`). -/
def kYlow : Text := ['y', 'l', 'o', 'w']
/-- Used in the model of `mercury-plot.in:624-640` (`store`). -/
def kYhi : Text := ['y', 'h', 'i']

/-- Lines 610-621; `none`: dies. -/
def bounds (r : Row) (y : Int) : Option (Int × Int) :=
  match r.yerr with
  | some e => some (y - e, y + e)
  | none =>
    if r.ylo.isSome || r.yhi.isSome then
      match r.ylo, r.yhi with
      | some a, some b => some (a, b)
      | _, _ => none
    else some (y, y)

/-- Lines 625-626: `$href->{minor} || $href->{stacked_minor}`. -/
def minorOf (r : Row) : Option Text :=
  match r.minor with
  | some m => if truthy m then some m else r.stacked
  | none => r.stacked

/-- Append unless it is there (lines 600-602, 633-635). -/
def addNew (a : Text) (l : List Text) : List Text := if l.contains a then l else l ++ [a]

/-- Lines 624-640: the row into `%data`; `none`: dies. -/
def store (s : St) (r : Row) (major : Text) (y lo hi : Int) : Option St :=
  if r.minor.isSome || r.stacked.isSome then
    match minorOf r with
    | none => none
    | some m =>
      if (s.data major m).isSome then none
      else some { majors := s.majors, minors := addNew m s.minors, data := fun a b => if a = major ∧ b = m then some (.cell y lo hi) else s.data a b }
  else if (s.data major kY).isSome then none
  else some { s with data := fun a b => if a = major then (if b = kY then some (.num y) else if b = kYlow then some (.num lo) else if b = kYhi then some (.num hi) else none) else s.data a b }

/-- Lines 596-641: one row; `none`: dies. -/
def step (s : St) (r : Row) : Option St :=
  match r.major with
  | none => none
  | some major =>
    match r.y with
    | none => none
    | some y =>
      match bounds r y with
      | none => none
      | some (lo, hi) => store { s with majors := addNew major s.majors } r major y lo hi

/-- Lines 595-641: all rows. -/
def collect : St → List Row → Option St
  | s, [] => some s
  | s, r :: rs =>
    match step s r with
    | none => none
    | some s' => collect s' rs

/-- A line of a data file without the width: place, value, bounds (line 705). -/
structure Line where
  x : Nat
  y : Int
  lo : Int
  hi : Int
deriving DecidableEq, Repr

/-- The values of a bar with minor values (lines 648-655, 700, 705); `none`: `$t->{y}` of a number dies. -/
def cellMinor (s : St) (major minor : Text) : Option (Int × Int × Int) :=
  match s.data major minor with
  | some (.cell y lo hi) => some (y, lo, hi)
  | some (.num _) => none
  | none => some (0, 0, 0)

/-- The values of a bar without minor values (lines 656-662, 702, 705). -/
def cellPlain (s : St) (major : Text) : Option (Int × Int × Int) :=
  match s.data major kY, s.data major kYlow, s.data major kYhi with
  | some (.num y), some (.num lo), some (.num hi) => some (y, lo, hi)
  | none, _, _ => some (0, 0, 0)
  | _, _, _ => none

/-- Lines 696-707: the lines of one file, from place `x`, with the step between clusters. -/
def lines (cell : Text → Option (Int × Int × Int)) (gap : Nat) : Nat → List Text → Option (List Line)
  | _, [] => some []
  | x, m :: ms =>
    match cell m with
    | none => none
    | some (y, lo, hi) =>
      match lines cell gap (x + gap) ms with
      | none => none
      | some ls => some (⟨x, y, lo, hi⟩ :: ls)

/-- Lines 691-713: the files of the minor values from index `i`. -/
def files (s : St) (gap : Nat) : Nat → List Text → Option (List (Text × List Line))
  | _, [] => some []
  | i, m :: ms =>
    match lines (fun major => cellMinor s major m) gap i s.majors with
    | none => none
    | some ls =>
      match files s gap (i + 1) ms with
      | none => none
      | some fs => some ((m, ls) :: fs)

/-- Used in the model of `mercury-plot.in:686-713` (`barplot`). -/
def kData : Text := ['d', 'a', 't', 'a']

/-- `barplot` without `stacked_minor` (lines 686-713): the title and lines of each file; `none`: it died. -/
def barplot (rows : List Row) : Option (List (Text × List Line)) :=
  match collect st0 rows with
  | none => none
  | some s =>
    if s.minors.isEmpty then
      match lines (cellPlain s) (1 + 3) 1 s.majors with
      | none => none
      | some ls => some [(kData, ls)]
    else files s (s.minors.length + 3) 1 s.minors

/-- The places of the labels (lines 714-717), `n` the number of minor values. -/
def ticks (n : Nat) (majors : List Text) : List (Text × Nat) := majors.zipIdx.map fun p => (p.1, (n + 1) / 2 + p.2 * (n + 3))

/-! ## Specification -/

/-- A bar. -/
structure Bar where
  major : Text
  minor : Option Text
  y : Int
  lo : Int
  hi : Int
deriving DecidableEq, Repr

/-- What a row asks for: its group and name and its value with the error; a row with a null where a value is needed asks for nothing. -/
def Row.bar (r : Row) : Option Bar :=
  match r.major, r.y with
  | some M, some y =>
    match r.yerr, r.ylo, r.yhi with
    | some e, _, _ => some ⟨M, r.minor.or r.stacked, y, y - e, y + e⟩
    | none, some a, some b => some ⟨M, r.minor.or r.stacked, y, a, b⟩
    | none, none, none => some ⟨M, r.minor.or r.stacked, y, y, y⟩
    | _, _, _ => none
  | _, _ => none

/-- The values in the order of their first occurrence. -/
def firsts : List Text → List Text
  | [] => []
  | a :: l => a :: (firsts l).filter (· != a)

/-- The value drawn for a group and a name. -/
def valueOf (bars : List Bar) (major : Text) (minor : Option Text) : Int × Int × Int :=
  match bars.find? fun b => b.major = major ∧ b.minor = minor with
  | some b => (b.y, b.lo, b.hi)
  | none => (0, 0, 0)

/-- The place of name `i` of group `k` of `n` names. -/
def place (n i k : Nat) : Nat := i + 1 + k * (n + 3)

/-! ## Proofs -/

theorem foldl_addNew (l acc : List Text) : l.foldl (fun a x => addNew x a) acc = acc ++ (firsts l).filter (fun x => !acc.contains x) := by
  induction l generalizing acc with
  | nil => simp [firsts]
  | cons a l ih =>
    rw [List.foldl_cons, ih]
    unfold addNew
    by_cases h : acc.contains a = true
    · rw [if_pos h, firsts, List.filter_cons_of_neg (by rw [h]; simp), List.filter_filter]
      congr 1
      apply List.filter_congr
      intro x _
      by_cases hx : x = a
      · subst hx; rw [h]; simp
      · simp [hx]
    · rw [if_neg h, firsts, List.filter_cons_of_pos (by simpa using h), List.filter_filter, List.append_assoc]
      congr 1
      show a :: _ = _
      congr 1
      apply List.filter_congr
      intro x _
      by_cases hx : x = a
      · subst hx; simp
      · simp [hx]

theorem bounds_bar {r : Row} {b : Bar} (h : r.bar = some b) :
    r.major = some b.major ∧ r.y = some b.y ∧ bounds r b.y = some (b.lo, b.hi) ∧ b.minor = r.minor.or r.stacked := by
  unfold Row.bar at h
  split at h
  · rename_i M y hM hy
    split at h
    · rename_i e _ _ he
      cases h
      refine ⟨hM, hy, ?_, rfl⟩
      unfold bounds; rw [he]
    · rename_i a b' he ha hb
      cases h
      refine ⟨hM, hy, ?_, rfl⟩
      unfold bounds; rw [he, ha, hb]; rfl
    · rename_i he ha hb
      cases h
      refine ⟨hM, hy, ?_, rfl⟩
      unfold bounds; rw [he, ha, hb]; rfl
    · cases h
  · cases h

/-- The name of a bar is used as such. -/
def Named (b : Bar) : Prop := ∃ m, b.minor = some m ∧ truthy m = true

theorem step_named {r : Row} {b : Bar} (h : r.bar = some b) (hb : Named b) (s : St) :
    ∃ m, b.minor = some m ∧ step s r =
      if (s.data b.major m).isSome then none
      else some { majors := addNew b.major s.majors, minors := addNew m s.minors, data := fun a c => if a = b.major ∧ c = m then some (.cell b.y b.lo b.hi) else s.data a c } := by
  obtain ⟨h1, h2, h3, h4⟩ := bounds_bar h
  obtain ⟨m, hm, ht⟩ := hb
  refine ⟨m, hm, ?_⟩
  have ho : minorOf r = some m ∧ (r.minor.isSome || r.stacked.isSome) = true := by
    rw [hm] at h4
    unfold minorOf
    cases hr : r.minor with
    | some x =>
      rw [hr] at h4
      cases h4
      simp [ht]
    | none =>
      rw [hr] at h4
      have h4 : r.stacked = some m := by simpa using h4.symm
      rw [h4]
      simp
  unfold step
  rw [h1, h2]
  simp only [h3]
  unfold store
  rw [if_pos ho.2, ho.1]

/-- The state after rows with names. -/
structure Holds (s : St) (bars : List Bar) : Prop where
  majors : s.majors = firsts (bars.map Bar.major)
  minors : s.minors = firsts (bars.filterMap Bar.minor)
  data : ∀ M m, s.data M m = (bars.find? fun b => b.major = M ∧ b.minor = some m).map fun b => .cell b.y b.lo b.hi

theorem firsts_concat (l : List Text) (a : Text) : firsts (l ++ [a]) = addNew a (firsts l) := by
  have h1 := foldl_addNew l []
  have h2 := foldl_addNew (l ++ [a]) []
  rw [List.foldl_append] at h2
  simp only [List.foldl_cons, List.foldl_nil, List.nil_append, List.contains_nil, Bool.not_false] at h1 h2
  have ft : ∀ l : List Text, l.filter (fun _ => true) = l := fun l => List.filter_eq_self.mpr fun _ _ => rfl
  rw [ft] at h1 h2
  rw [← h2, h1]

theorem collect_named {rows : List Row} {bars old : List Bar} (h : rows.map Row.bar = bars.map some) (hn : ∀ b ∈ bars, Named b) {s : St} (hs : Holds s old)
    (hold : (old.map fun b => (b.major, b.minor)).Nodup) :
    (((old ++ bars).map fun b => (b.major, b.minor)).Nodup → ∃ s', collect s rows = some s' ∧ Holds s' (old ++ bars)) ∧
    (¬ ((old ++ bars).map fun b => (b.major, b.minor)).Nodup → collect s rows = none) := by
  induction rows generalizing bars old s with
  | nil =>
    cases bars with
    | cons b bs => simp at h
    | nil => rw [List.append_nil]; exact ⟨fun _ => ⟨s, rfl, hs⟩, fun h => absurd hold h⟩
  | cons r rs ih =>
    cases bars with
    | nil => simp at h
    | cons b bs =>
      simp only [List.map_cons, List.cons.injEq] at h
      obtain ⟨m, hm, hst⟩ := step_named h.1 (hn b (List.mem_cons_self ..)) s
      have he : old ++ b :: bs = (old ++ [b]) ++ bs := by simp
      have hd := hs.data b.major m
      rw [collect, hst]
      cases hf : old.find? (fun c => c.major = b.major ∧ c.minor = some m) with
      | some c =>
        rw [hf] at hd
        rw [if_pos (by rw [hd]; rfl)]
        have hc := List.find?_some hf
        have hcm := List.mem_of_find?_eq_some hf
        simp only [decide_eq_true_eq] at hc
        have hdup : ¬ ((old ++ b :: bs).map fun b => (b.major, b.minor)).Nodup := by
          intro hnd
          rw [List.map_append, List.nodup_append] at hnd
          exact hnd.2.2 (c.major, c.minor) (List.mem_map.mpr ⟨c, hcm, rfl⟩) (b.major, b.minor) (List.mem_map.mpr ⟨b, List.mem_cons_self .., rfl⟩) (by rw [hc.1, hc.2, hm])
        exact ⟨fun h => absurd h hdup, fun _ => rfl⟩
      | none =>
        rw [hf] at hd
        rw [if_neg (by rw [hd]; simp)]
        have hnone := List.find?_eq_none.mp hf
        have hold' : ((old ++ [b]).map fun b => (b.major, b.minor)).Nodup := by
          rw [List.map_append, List.nodup_append]
          refine ⟨hold, by simp, ?_⟩
          intro x hx y hy hxy
          obtain ⟨c, hc, rfl⟩ := List.mem_map.mp hx
          simp only [List.map_cons, List.map_nil, List.mem_singleton] at hy
          subst hy
          simp only [Prod.mk.injEq] at hxy
          exact hnone c hc (by simp [hxy.1, hxy.2, hm])
        rw [he]
        refine ih h.2 (fun c hc => hn c (List.mem_cons_of_mem _ hc)) ?_ hold'
        refine ⟨?_, ?_, ?_⟩
        · rw [List.map_append, List.map_cons, List.map_nil, firsts_concat, ← hs.majors]
        · rw [List.filterMap_append, List.filterMap_cons, hm]
          simp only [List.filterMap_nil]
          rw [firsts_concat, ← hs.minors]
        · intro M k
          show (if M = b.major ∧ k = m then _ else s.data M k) = _
          rw [List.find?_append, hs.data M k]
          by_cases hk : M = b.major ∧ k = m
          · rw [if_pos hk]
            obtain ⟨rfl, rfl⟩ := hk
            rw [hf]
            simp [hm]
          · rw [if_neg hk]
            have : List.find? (fun c : Bar => decide (c.major = M ∧ c.minor = some k)) [b] = none := by
              rw [List.find?_eq_none]
              intro c hc
              rw [List.mem_singleton] at hc
              subst hc
              rw [hm]
              simp only [decide_eq_true_eq, Option.some.injEq, not_and]
              intro h1 h2
              exact hk ⟨h1.symm, h2.symm⟩
            rw [this]
            simp

theorem lines_eq {cell : Text → Option (Int × Int × Int)} {v : Text → Int × Int × Int} (gap : Nat) (ms : List Text) (h : ∀ m ∈ ms, cell m = some (v m)) (x : Nat) :
    lines cell gap x ms = some ((ms.zipIdx).map fun p => ⟨x + p.2 * gap, (v p.1).1, (v p.1).2.1, (v p.1).2.2⟩) := by
  induction ms generalizing x with
  | nil => rfl
  | cons m ms ih =>
    rw [lines, h m (List.mem_cons_self ..)]
    simp only []
    rw [ih (fun k hk => h k (List.mem_cons_of_mem _ hk))]
    simp only [Option.some.injEq]
    rw [List.zipIdx_cons, List.map_cons]
    simp only [Nat.zero_mul, Nat.add_zero, List.cons.injEq, true_and, Nat.zero_add]
    rw [List.zipIdx_succ, List.map_map]
    apply List.map_congr_left
    intro p _
    simp only [Function.comp, Line.mk.injEq, and_true]
    rw [Nat.add_mul]; omega

theorem files_eq {s : St} {v : Text → Text → Int × Int × Int} (gap : Nat) (ms : List Text) (h : ∀ M m, cellMinor s M m = some (v M m)) (i : Nat) :
    files s gap i ms = some ((ms.zipIdx).map fun q => (q.1, (s.majors.zipIdx).map fun p => ⟨i + q.2 + p.2 * gap, (v p.1 q.1).1, (v p.1 q.1).2.1, (v p.1 q.1).2.2⟩)) := by
  induction ms generalizing i with
  | nil => rfl
  | cons m ms ih =>
    rw [files, lines_eq (v := fun M => v M m) gap s.majors (fun M _ => h M m)]
    simp only []
    rw [ih]
    simp only [Option.some.injEq]
    rw [List.zipIdx_cons, List.map_cons]
    simp only [Nat.add_zero, List.cons.injEq, true_and, Nat.zero_add]
    rw [List.zipIdx_succ, List.map_map]
    apply List.map_congr_left
    intro q _
    simp only [Function.comp, Prod.mk.injEq, true_and]
    apply List.map_congr_left
    intro p _
    simp only [Line.mk.injEq, and_true]
    omega

/-- C180: for rows that all have a name (not the empty one and not `0`): `barplot` dies exactly if two rows have the same group and name; otherwise there is one file for every name, in the order
of the query, with one bar for every group, in the order of the query, at its place, with the value of the row for the two, or 0 if there is none. -/
theorem barplot_partial {rows : List Row} {bars : List Bar} (h : rows.map Row.bar = bars.map some) (hn : ∀ b ∈ bars, Named b) (hne : bars ≠ []) :
    ((bars.map fun b => (b.major, b.minor)).Nodup →
      barplot rows = some ((firsts (bars.filterMap Bar.minor)).zipIdx.map fun q => (q.1, (firsts (bars.map Bar.major)).zipIdx.map fun p =>
        let v := valueOf bars p.1 (some q.1)
        ⟨place (firsts (bars.filterMap Bar.minor)).length q.2 p.2, v.1, v.2.1, v.2.2⟩))) ∧
    (¬ (bars.map fun b => (b.major, b.minor)).Nodup → barplot rows = none) := by
  have h0 : Holds st0 [] := ⟨rfl, rfl, fun _ _ => rfl⟩
  have hc := collect_named h hn h0 List.nodup_nil
  rw [List.nil_append] at hc
  unfold barplot
  refine ⟨fun hd => ?_, fun hd => by rw [hc.2 hd]⟩
  obtain ⟨s, h1, h2⟩ := hc.1 hd
  rw [h1]
  simp only []
  have hmne : s.minors ≠ [] := by
    rw [h2.minors]
    cases bars with
    | nil => exact absurd rfl hne
    | cons b bs =>
      obtain ⟨m, hm, _⟩ := hn b (List.mem_cons_self ..)
      rw [List.filterMap_cons, hm]
      simp [firsts]
  rw [if_neg (by simpa using hmne)]
  have hcell : ∀ M m, cellMinor s M m = some (valueOf bars M (some m)) := by
    intro M m
    unfold cellMinor valueOf
    rw [h2.data]
    cases bars.find? fun b => decide (b.major = M ∧ b.minor = some m) <;> rfl
  rw [files_eq _ _ hcell, h2.majors, h2.minors]
  simp only [Option.some.injEq]
  apply List.map_congr_left
  intro q _
  simp only [Prod.mk.injEq, true_and]
  apply List.map_congr_left
  intro p _
  simp only [Line.mk.injEq, and_true, place]
  omega

/-! ### Without names -/

theorem step_plain {r : Row} {b : Bar} (h : r.bar = some b) (hb : b.minor = none) (s : St) :
    step s r = if (s.data b.major kY).isSome then none
      else some { majors := addNew b.major s.majors, minors := s.minors, data := fun a c => if a = b.major then (if c = kY then some (.num b.y) else if c = kYlow then some (.num b.lo) else if c = kYhi then some (.num b.hi) else none) else s.data a c } := by
  obtain ⟨h1, h2, h3, h4⟩ := bounds_bar h
  have h5 : (r.minor.isSome || r.stacked.isSome) = false := by
    rw [hb] at h4
    cases hr : r.minor with
    | some x => rw [hr] at h4; cases h4
    | none =>
      rw [hr] at h4
      have : r.stacked = none := by simpa using h4.symm
      rw [this]; rfl
  unfold step
  rw [h1, h2]
  simp only [h3]
  unfold store
  rw [if_neg (by rw [h5]; simp)]

structure HoldsPlain (s : St) (bars : List Bar) : Prop where
  majors : s.majors = firsts (bars.map Bar.major)
  minors : s.minors = []
  data : ∀ M, cellPlain s M = some (valueOf bars M none)
  has : ∀ M, (s.data M kY).isSome = bars.any fun b => b.major = M

theorem collect_plain {rows : List Row} {bars old : List Bar} (h : rows.map Row.bar = bars.map some) (hn : ∀ b ∈ old ++ bars, b.minor = none) {s : St} (hs : HoldsPlain s old)
    (hold : (old.map Bar.major).Nodup) :
    (((old ++ bars).map Bar.major).Nodup → ∃ s', collect s rows = some s' ∧ HoldsPlain s' (old ++ bars)) ∧
    (¬ ((old ++ bars).map Bar.major).Nodup → collect s rows = none) := by
  induction rows generalizing bars old s with
  | nil =>
    cases bars with
    | cons b bs => simp at h
    | nil => rw [List.append_nil]; exact ⟨fun _ => ⟨s, rfl, hs⟩, fun h => absurd hold h⟩
  | cons r rs ih =>
    cases bars with
    | nil => simp at h
    | cons b bs =>
      simp only [List.map_cons, List.cons.injEq] at h
      have hst := step_plain h.1 (hn b (by simp)) s
      have he : old ++ b :: bs = (old ++ [b]) ++ bs := by simp
      rw [collect, hst]
      have hh := hs.has b.major
      cases hf : old.any (fun c => c.major = b.major) with
      | true =>
        rw [hf] at hh
        rw [if_pos hh]
        have hdup : ¬ ((old ++ b :: bs).map Bar.major).Nodup := by
          intro hnd
          rw [List.any_eq_true] at hf
          obtain ⟨c, hc, hcm⟩ := hf
          rw [List.map_append, List.nodup_append] at hnd
          exact hnd.2.2 c.major (List.mem_map.mpr ⟨c, hc, rfl⟩) b.major (List.mem_map.mpr ⟨b, List.mem_cons_self .., rfl⟩) (by simpa using hcm)
        exact ⟨fun h => absurd h hdup, fun _ => rfl⟩
      | false =>
        rw [hf] at hh
        rw [if_neg (by rw [hh]; simp)]
        have hnone : ∀ c ∈ old, c.major ≠ b.major := by
          intro c hc hcm
          have : old.any (fun c => c.major = b.major) = true := List.any_eq_true.mpr ⟨c, hc, by simpa using hcm⟩
          rw [hf] at this; cases this
        have hold' : ((old ++ [b]).map Bar.major).Nodup := by
          rw [List.map_append, List.nodup_append]
          refine ⟨hold, by simp, ?_⟩
          intro x hx y hy hxy
          obtain ⟨c, hc, rfl⟩ := List.mem_map.mp hx
          simp only [List.map_cons, List.map_nil, List.mem_singleton] at hy
          subst hy
          exact hnone c hc hxy
        rw [he] at hn ⊢
        refine ih h.2 hn ?_ hold'
        refine ⟨?_, hs.minors, ?_, ?_⟩
        · rw [List.map_append, List.map_cons, List.map_nil, firsts_concat, ← hs.majors]
        · intro M
          have hbm : b.minor = none := hn b (by simp)
          by_cases hM : M = b.major
          · subst hM
            have hv : valueOf (old ++ [b]) b.major none = (b.y, b.lo, b.hi) := by
              unfold valueOf
              rw [List.find?_append, List.find?_eq_none.mpr (fun c hc => by simpa using fun h => absurd h (hnone c hc))]
              simp [hbm]
            rw [hv]
            simp [cellPlain, kY, kYlow, kYhi]
          · have hv : valueOf (old ++ [b]) M none = valueOf old M none := by
              unfold valueOf
              rw [List.find?_append]
              have : List.find? (fun c : Bar => decide (c.major = M ∧ c.minor = none)) [b] = none := by
                rw [List.find?_eq_none]
                intro c hc
                rw [List.mem_singleton] at hc
                subst hc
                simpa using fun h => absurd h.symm hM
              rw [this]
              simp
            rw [hv, ← hs.data M]
            simp [cellPlain, hM]
        · intro M
          rw [List.any_append, ← hs.has M]
          by_cases hM : M = b.major
          · subst hM; simp
          · simp [hM, Ne.symm hM]

/-- C180: for rows without names: `barplot` dies exactly if two rows have the same group; otherwise there is one file with the bar of every row in the order of the query. -/
theorem barplot_plain {rows : List Row} {bars : List Bar} (h : rows.map Row.bar = bars.map some) (hn : ∀ b ∈ bars, b.minor = none) :
    ((bars.map Bar.major).Nodup → barplot rows = some [(kData, bars.zipIdx.map fun p => ⟨place 1 0 p.2, p.1.y, p.1.lo, p.1.hi⟩)]) ∧
    (¬ (bars.map Bar.major).Nodup → barplot rows = none) := by
  have h0 : HoldsPlain st0 [] := ⟨rfl, rfl, fun _ => rfl, fun _ => rfl⟩
  have hc := collect_plain h (by simpa using hn) h0 List.nodup_nil
  rw [List.nil_append] at hc
  unfold barplot
  refine ⟨fun hd => ?_, fun hd => by rw [hc.2 hd]⟩
  obtain ⟨s, h1, h2⟩ := hc.1 hd
  rw [h1]
  simp only []
  rw [if_pos (by rw [h2.minors]; rfl), lines_eq (v := fun M => valueOf bars M none) _ _ (fun M _ => h2.data M), h2.majors]
  have hfi : ∀ l : List Text, l.Nodup → firsts l = l := by
    intro l
    induction l with
    | nil => intro _; rfl
    | cons a l ih =>
      intro hl
      rw [List.nodup_cons] at hl
      rw [firsts, ih hl.2, List.filter_eq_self.mpr]
      intro x hx
      have : x ≠ a := fun h => hl.1 (h ▸ hx)
      simpa using this
  rw [hfi _ hd]
  simp only [Option.some.injEq, List.cons.injEq, Prod.mk.injEq, true_and, and_true]
  rw [List.zipIdx_map, List.map_map]
  apply List.map_congr_left
  intro p hp
  obtain ⟨b, i⟩ := p
  have hb : b ∈ bars := by
    have := List.mem_zipIdx hp
    exact this.2.2 ▸ List.getElem_mem _
  have hv : valueOf bars b.major none = (b.y, b.lo, b.hi) := by
    unfold valueOf
    cases hf : bars.find? (fun c => decide (c.major = b.major ∧ c.minor = none)) with
    | none =>
      rw [List.find?_eq_none] at hf
      exact absurd (by simp [hn b hb]) (hf b hb)
    | some c =>
      have hcm := List.mem_of_find?_eq_some hf
      have hcp := List.find?_some hf
      simp only [decide_eq_true_eq] at hcp
      have hcb : c = b := by
        rw [List.Nodup, List.pairwise_map, List.pairwise_iff_getElem] at hd
        obtain ⟨i, hi, rfl⟩ := List.mem_iff_getElem.mp hcm
        obtain ⟨j, hj, rfl⟩ := List.mem_iff_getElem.mp hb
        rcases Nat.lt_trichotomy i j with h | h | h
        · exact absurd hcp.1 (hd i j hi hj h)
        · subst h; rfl
        · exact absurd hcp.1.symm (hd j i hj hi h)
      rw [hcb]
  simp [Function.comp, hv, place]

/-! ### Places -/

/-- C180: bars are at least 1 apart, more than their width of 0.9; the bars of a group are next to each other, there is a gap of 4 to the next group, and the label of a group is below one of its bars. -/
theorem place_sound (n : Nat) (hn : 0 < n) :
    (∀ i k i' k', i < n → i' < n → (i, k) ≠ (i', k') → place n i k ≠ place n i' k') ∧
    (∀ i k, place n (i + 1) k = place n i k + 1) ∧
    (∀ k, place n 0 (k + 1) = place n (n - 1) k + 4) ∧
    (∀ majors : List Text, ∀ k t, (ticks n majors)[k]? = some t → majors[k]? = some t.1 ∧ ∃ i, i < n ∧ place n i k = t.2) := by
  refine ⟨?_, fun i k => by unfold place; omega, fun k => by unfold place; rw [Nat.add_mul]; omega, ?_⟩
  · intro i k i' k' hi hi' hne he
    unfold place at he
    have hk : k = k' := by
      rcases Nat.lt_trichotomy k k' with h | h | h
      · have : (k + 1) * (n + 3) ≤ k' * (n + 3) := Nat.mul_le_mul_right _ h
        rw [Nat.add_mul] at this; omega
      · exact h
      · have : (k' + 1) * (n + 3) ≤ k * (n + 3) := Nat.mul_le_mul_right _ h
        rw [Nat.add_mul] at this; omega
    subst hk
    exact hne (by rw [show i = i' by omega])
  · intro majors k t ht
    unfold ticks at ht
    rw [List.getElem?_map, List.getElem?_zipIdx] at ht
    cases hm : majors[k]? with
    | none => rw [hm] at ht; cases ht
    | some M =>
      rw [hm] at ht
      simp only [Option.map_some, Option.some.injEq] at ht
      subst ht
      refine ⟨rfl, (n + 1) / 2 - 1, by omega, ?_⟩
      unfold place
      simp only [Nat.zero_add]
      omega

/-! ### Counterexamples and examples -/

def exRow (major : Text) (minor : Option Text) (y : Int) : Row := ⟨some major, minor, none, some y, none, none, none⟩

/-- C180 is false in general: the name `0` is taken for no name, and `barplot` dies. -/
theorem barplot_zero_false : barplot [exRow ['a'] (some ['0']) 5] = none ∧ (exRow ['a'] (some ['0']) 5).bar = some ⟨['a'], some ['0'], 5, 5, 5⟩ := by decide

/-- C180 is false in general: a row without a name removes the bars of its group: the bar of value 5 is drawn as 0, and the one of value 7 not at all. -/
theorem barplot_mixed_false :
    barplot [exRow ['a'] (some ['m']) 5, exRow ['a'] none 7, exRow ['b'] (some ['m']) 6] = some [(['m'], [⟨1, 0, 0, 0⟩, ⟨5, 6, 6, 6⟩])] := by decide

example : ([exRow ['a'] (some ['m']) 5, exRow ['b'] (some ['n']) 6].map Row.bar = [⟨['a'], some ['m'], 5, 5, 5⟩, ⟨['b'], some ['n'], 6, 6, 6⟩].map some) ∧
    barplot [exRow ['a'] (some ['m']) 5, exRow ['b'] (some ['n']) 6] = some [(['m'], [⟨1, 5, 5, 5⟩, ⟨6, 0, 0, 0⟩]), (['n'], [⟨2, 0, 0, 0⟩, ⟨7, 6, 6, 6⟩])] := by decide

example : Named ⟨['a'], some ['m'], 5, 5, 5⟩ := ⟨['m'], rfl, by decide⟩

example : barplot [exRow ['a'] none 5, exRow ['b'] none 6] = some [(kData, [⟨1, 5, 5, 5⟩, ⟨5, 6, 6, 6⟩])] := by decide

example : ticks 3 [['a'], ['b']] = [(['a'], 2), (['b'], 8)] := by decide

end Verif.Mercury.Bar
