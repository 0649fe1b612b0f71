import Verif.Mercury.Sql

/-!
# Model and properties of `import-data` (C184; src/mercury-plot.in, lines 1615-1709)
-/

namespace Verif.Mercury.Import

/-! ## Model -/

/-- The fields, with empty ones before a leading and after a trailing separator. Used in the model of `mercury-plot.in:1640` (`split`). -/
def fields (cur : Text) (sep : Bool) : Text → List Text
  | [] => [cur]
  | c :: r => if isSpace c then (if sep then fields cur true r else cur :: fields [] true r) else fields (cur ++ [c]) false r

/-- `split(/\s+/)` (lines 1640, 1701): empty fields at the end are left out. -/
def split (t : Text) : List Text := ((fields [] false t).reverse.dropWhile List.isEmpty).reverse

/-- Used in the model of `mercury-plot.in:1645-1653` (`isInt`). -/
def isDigit (c : Char) : Bool := '0'.toNat ≤ c.toNat && c.toNat ≤ '9'.toNat

/-- The types of columns. Used in the model of `mercury-plot.in:1645-1653` (`kindOf`). -/
inductive Ty where
  | bigint | double | varchar | longtext
deriving DecidableEq, Repr

/-- `/^\d+$/`. Used in the model of `mercury-plot.in:1645-1653` (`kindOf`). -/
def isInt (t : Text) : Bool := !t.isEmpty && t.all isDigit

/-- `/^-?\d+\.\d+$/`. Used in the model of `mercury-plot.in:1645-1653` (`kindOf`). -/
def isDecimal (t : Text) : Bool :=
  let u := if t.head? == some '-' then t.drop 1 else t
  let a := u.takeWhile isDigit
  let b := u.dropWhile isDigit
  !a.isEmpty && b.head? == some '.' && isInt (b.drop 1)

/-- The key of the hash for a value (lines 1645-1653). -/
def kindOf (t : Text) : Ty :=
  if isInt t then .bigint else if isDecimal t then .double else if t.length < 256 then .varchar else .longtext

/-- The type of a column with these values (lines 1664-1682); `none`: dies. -/
def infer (vals : List Text) : Option Ty :=
  if vals.any (fun v => kindOf v == .longtext) then some .longtext
  else if vals.any (fun v => kindOf v == .varchar) then some .varchar
  else if vals.any (fun v => kindOf v == .double) then some .double
  else if vals.any (fun v => kindOf v == .bigint) then some .bigint
  else none

/-- The values recorded for a column name (lines 1643-1654). -/
def valuesOf (cols : List Text) (lines : List Text) (c : Text) : List Text :=
  lines.flatMap fun l => (cols.zip (split l)).filterMap fun p => if p.1 = c then some p.2 else none

/-- The loop over the columns (lines 1660-1682): for a name that was there before `$types{$column}` is no longer a hash, and `use strict` makes it die. -/
def typesOf (cols lines : List Text) : List Text → List Text → Option (List (Text × Ty))
  | _, [] => some []
  | seen, c :: cs =>
    if seen.contains c then none
    else
      match infer (valuesOf cols lines c), typesOf cols lines (c :: seen) cs with
      | some t, some ts => some ((c, t) :: ts)
      | _, _ => none

/-- The table in the database: names and types of the columns, and the rows in the order of the inserts. Used in the model of `mercury-plot.in:1640-1706` (`importData`). -/
structure Table where
  cols : List (Text × Ty)
  rows : List (List Text)
deriving DecidableEq, Repr

/-- The inserts (lines 1697-1706); `ok`: whether the database accepts a row. -/
def insertAll (ok : List Text → Bool) : List Text → List (List Text) → List (List Text) × Bool
  | [], rows => (rows, true)
  | l :: ls, rows => if ok (split l) then insertAll ok ls (rows ++ [split l]) else (rows, false)

/-- `import_data`: the table of that name before and after, and whether it came to the end. `create` is whether the database accepts the create command. Files are given by their lines, and are the same when they are
read for the second time; that they can be read and that names are words is checked first and is not modelled. Made of the parts of `mercury-plot.in:1640-1706`. -/
def importData (cols : List Text) (files : List (List Text)) (create : Bool) (ok : List Text → Bool) (old : Option Table) : Option Table × Bool :=
  let lines := files.flatten
  if cols.isEmpty || files.isEmpty then (old, false)
  else if lines.any fun l => (split l).length != cols.length then (old, false)
  else
    match typesOf cols lines [] cols with
    | none => (old, false)
    | some ts =>
      -- the old table is dropped (line 1686)
      if create then
        let r := insertAll ok lines []
        (some ⟨ts, r.1⟩, r.2)
      else (none, false)

/-! ## Specification -/

/-- The number that the digits stand for. -/
def number (t : Text) : Nat := t.foldl (fun n c => 10 * n + (c.toNat - '0'.toNat)) 0

/-- The type can hold the value. -/
def Fits : Ty → Text → Prop
  | .bigint, t => isInt t = true ∧ number t < 2 ^ 63
  | .double, t => isInt t = true ∨ isDecimal t = true
  | .varchar, t => t.length ≤ 255
  | .longtext, _ => True

/-- Values that look like numbers are of usual size. -/
def Usual (t : Text) : Prop := (isInt t = true → number t < 2 ^ 63) ∧ ((isInt t = true ∨ isDecimal t = true) → t.length ≤ 255)

/-- A line: the fields with space between them. -/
def joinFields : List Text → List Text → Text
  | f :: fs, s :: ss => f ++ s ++ joinFields fs ss
  | [f], [] => f
  | _, _ => []

/-! ## Proofs -/

theorem fields_word (f : Text) (hf : ∀ c ∈ f, isSpace c = false) (cur r : Text) (hne : f ≠ []) (b : Bool) : fields cur b (f ++ r) = fields (cur ++ f) false r := by
  induction f generalizing cur b with
  | nil => exact absurd rfl hne
  | cons c f ih =>
    rw [List.cons_append, fields, if_neg (by rw [hf c (List.mem_cons_self ..)]; simp)]
    by_cases h : f = []
    · subst h; rfl
    · rw [ih (fun d hd => hf d (List.mem_cons_of_mem _ hd)) _ h]; simp

theorem fields_sep (s : Text) (hs : ∀ c ∈ s, isSpace c = true) (cur r : Text) : fields cur true (s ++ r) = fields cur true r := by
  induction s with
  | nil => rfl
  | cons c s ih => rw [List.cons_append, fields, if_pos (hs c (List.mem_cons_self ..)), if_pos rfl, ih fun d hd => hs d (List.mem_cons_of_mem _ hd)]

/-- C184: a line made of fields without space, with space between them and perhaps at the end, is split into these fields. -/
theorem split_join (fs ss : List Text) (hf : ∀ f ∈ fs, f ≠ [] ∧ ∀ c ∈ f, isSpace c = false) (hs : ∀ s ∈ ss, s ≠ [] ∧ ∀ c ∈ s, isSpace c = true)
    (hl : fs.length = ss.length + 1 ∨ fs.length = ss.length) : split (joinFields fs ss) = fs := by
  have key : ∀ (fs ss : List Text) (b : Bool), (∀ f ∈ fs, f ≠ [] ∧ ∀ c ∈ f, isSpace c = false) → (∀ s ∈ ss, s ≠ [] ∧ ∀ c ∈ s, isSpace c = true) →
      (fs.length = ss.length + 1 → fields [] b (joinFields fs ss) = fs) ∧ (fs.length = ss.length → fields [] b (joinFields fs ss) = fs ++ [[]]) := by
    intro fs
    induction fs with
    | nil =>
      intro ss b _ _
      refine ⟨fun h => by simp at h, fun h => ?_⟩
      have : ss = [] := List.length_eq_zero_iff.mp h.symm
      subst this
      rfl
    | cons f fs ih =>
      intro ss b hf hs
      obtain ⟨f1, f2⟩ := hf f (List.mem_cons_self ..)
      cases ss with
      | nil =>
        refine ⟨fun h => ?_, fun h => by simp at h⟩
        have : fs = [] := List.length_eq_zero_iff.mp (by simpa using h)
        subst this
        have := fields_word f f2 [] [] f1 b
        simpa [joinFields, fields] using this
      | cons s ss =>
        obtain ⟨s1, s2⟩ := hs s (List.mem_cons_self ..)
        have hstep : fields [] b (joinFields (f :: fs) (s :: ss)) = f :: fields [] true (joinFields fs ss) := by
          show fields [] b (f ++ s ++ joinFields fs ss) = _
          rw [List.append_assoc, fields_word f f2 [] _ f1]
          cases s with
          | nil => exact absurd rfl s1
          | cons c s =>
            rw [List.cons_append, fields, if_pos (s2 c (List.mem_cons_self ..)), if_neg (by simp), fields_sep s fun d hd => s2 d (List.mem_cons_of_mem _ hd)]
            rfl
        have := ih ss true (fun g hg => hf g (List.mem_cons_of_mem _ hg)) (fun t ht => hs t (List.mem_cons_of_mem _ ht))
        rw [hstep]
        refine ⟨fun h => ?_, fun h => ?_⟩
        · rw [this.1 (by simpa using h)]
        · rw [this.2 (by simpa using h)]; rfl
  have hdrop : (fs.reverse.dropWhile List.isEmpty) = fs.reverse := by
    cases hr : fs.reverse with
    | nil => rfl
    | cons f r =>
      have : f ∈ fs := by rw [← List.mem_reverse, hr]; exact List.mem_cons_self ..
      rw [List.dropWhile_cons_of_neg (by simpa using (hf f this).1)]
  unfold split
  obtain ⟨k1, k2⟩ := key fs ss false hf hs
  rcases hl with h | h
  · rw [k1 h, hdrop, List.reverse_reverse]
  · rw [k2 h, List.reverse_append]
    show (List.dropWhile List.isEmpty ([] :: fs.reverse)).reverse = fs
    rw [List.dropWhile_cons_of_pos rfl, hdrop, List.reverse_reverse]

theorem infer_fits {vals : List Text} {t : Ty} (h : infer vals = some t) (hu : ∀ v ∈ vals, Usual v) : ∀ v ∈ vals, Fits t v := by
  intro v hv
  have hno : ∀ k, vals.any (fun v => kindOf v == k) = false → kindOf v ≠ k := by
    intro k hk he
    rw [List.any_eq_false] at hk
    exact hk v hv (by simp [he])
  unfold infer at h
  split at h
  · cases h; trivial
  rename_i h1
  have h1 := hno _ (by simpa using h1)
  have hkind : ∀ k, kindOf v = k → (k = .bigint → isInt v = true) ∧ (k = .double → isDecimal v = true) ∧ (k = .varchar → v.length < 256) := by
    intro k hk
    unfold kindOf at hk
    split at hk
    · subst hk; rename_i g; exact ⟨fun _ => g, fun h => (by cases h), fun h => by cases h⟩
    split at hk
    · subst hk; rename_i g; exact ⟨fun h => (by cases h), fun _ => g, fun h => by cases h⟩
    split at hk
    · subst hk; rename_i g; exact ⟨fun h => (by cases h), fun h => (by cases h), fun _ => g⟩
    · subst hk; exact ⟨fun h => (by cases h), fun h => (by cases h), fun h => by cases h⟩
  have hk := hkind _ rfl
  split at h
  · cases h
    show v.length ≤ 255
    cases hq : kindOf v with
    | bigint => exact (hu v hv).2 (.inl (hk.1 hq))
    | double => exact (hu v hv).2 (.inr (hk.2.1 hq))
    | varchar => have := hk.2.2 hq; omega
    | longtext => exact absurd hq h1
  rename_i h2
  have h2 := hno _ (by simpa using h2)
  split at h
  · cases h
    show isInt v = true ∨ isDecimal v = true
    cases hq : kindOf v with
    | bigint => exact .inl (hk.1 hq)
    | double => exact .inr (hk.2.1 hq)
    | varchar => exact absurd hq h2
    | longtext => exact absurd hq h1
  rename_i h3
  have h3 := hno _ (by simpa using h3)
  split at h
  · cases h
    show isInt v = true ∧ number v < 2 ^ 63
    cases hq : kindOf v with
    | bigint => exact ⟨hk.1 hq, (hu v hv).1 (hk.1 hq)⟩
    | double => exact absurd hq h3
    | varchar => exact absurd hq h2
    | longtext => exact absurd hq h1
  · cases h

theorem typesOf_spec {cols lines : List Text} {seen cs : List Text} {ts : List (Text × Ty)} (h : typesOf cols lines seen cs = some ts) :
    ts.map Prod.fst = cs ∧ (∀ p ∈ ts, infer (valuesOf cols lines p.1) = some p.2) ∧ cs.Nodup ∧ ∀ c ∈ cs, c ∉ seen := by
  induction cs generalizing seen ts with
  | nil => cases h; exact ⟨rfl, fun _ h => (by cases h), List.nodup_nil, fun _ h => by cases h⟩
  | cons c cs ih =>
    rw [typesOf] at h
    split at h
    · cases h
    · rename_i hc
      split at h
      · rename_i t ts' h1 h2
        cases h
        obtain ⟨i1, i2, i3, i4⟩ := ih h2
        refine ⟨by rw [List.map_cons, i1], ?_, ?_, ?_⟩
        · intro p hp
          rcases List.mem_cons.mp hp with rfl | hp
          · exact h1
          · exact i2 p hp
        · rw [List.nodup_cons]
          exact ⟨fun hm => i4 c hm (List.mem_cons_self ..), i3⟩
        · intro d hd
          rcases List.mem_cons.mp hd with rfl | hd
          · simpa using hc
          · exact fun hm => i4 d hd (List.mem_cons_of_mem _ hm)
      · cases h

theorem insertAll_true {ok : List Text → Bool} {lines : List Text} {rows r : List (List Text)} (h : insertAll ok lines rows = (r, true)) : r = rows ++ lines.map split := by
  induction lines generalizing rows with
  | nil => cases h; simp
  | cons l ls ih =>
    rw [insertAll] at h
    split at h
    · rw [ih h]; simp
    · cases h

theorem mem_valuesOf {cols lines : List Text} {c v : Text} {i : Nat} {l : Text} (hl : l ∈ lines) (hc : cols[i]? = some c) (hv : (split l)[i]? = some v) : v ∈ valuesOf cols lines c := by
  unfold valuesOf
  rw [List.mem_flatMap]
  refine ⟨l, hl, ?_⟩
  rw [List.mem_filterMap]
  refine ⟨(c, v), ?_, by simp⟩
  rw [List.mem_iff_getElem?]
  exact ⟨i, by rw [List.getElem?_zip_eq_some]; exact ⟨hc, hv⟩⟩

/-- C184: if the import comes to the end, the table has one row for every line of the files, in order, with the fields of the line, the columns have the given names, and, with values that look like numbers of usual
size, every value fits the type of its column. If it ends before the old table is dropped, that table is as it was. -/
theorem import_partial (cols : List Text) (files : List (List Text)) (create : Bool) (ok : List Text → Bool) (old : Option Table) :
    (∀ t, importData cols files create ok old = (t, true) →
      ∃ T, t = some T ∧ T.rows = files.flatten.map split ∧ T.cols.map Prod.fst = cols ∧ (∀ r ∈ T.rows, r.length = cols.length) ∧
        ((∀ r ∈ T.rows, ∀ v ∈ r, Usual v) → ∀ r ∈ T.rows, ∀ (i : Nat) (v : Text) (p : Text × Ty), r[i]? = some v → T.cols[i]? = some p → Fits p.2 v)) ∧
    ((∃ l ∈ files.flatten, (split l).length ≠ cols.length) → importData cols files create ok old = (old, false)) ∧
    (¬ cols.Nodup → importData cols files create ok old = (old, false)) := by
  refine ⟨fun t h => ?_, fun h => ?_, fun h => ?_⟩
  · unfold importData at h
    simp only [] at h
    split at h
    · cases h
    split at h
    · cases h
    rename_i hlen
    split at h
    · cases h
    · rename_i ts hts
      split at h
      · cases hi : insertAll ok files.flatten [] with
        | mk rows done =>
          rw [hi] at h
          simp only [Prod.mk.injEq] at h
          obtain ⟨rfl, rfl⟩ := h
          have hr : rows = files.flatten.map split := by simpa using insertAll_true hi
          obtain ⟨t1, t2, t3, _⟩ := typesOf_spec hts
          have hlen' : ∀ l ∈ files.flatten, (split l).length = cols.length := by
            simp only [Bool.not_eq_true, List.any_eq_false, bne_iff_ne, ne_eq, Decidable.not_not] at hlen
            exact hlen
          refine ⟨_, rfl, hr, t1, ?_, ?_⟩
          · intro r hrm
            simp only [hr] at hrm
            obtain ⟨l, hl, rfl⟩ := List.mem_map.mp hrm
            exact hlen' l hl
          · intro hu r hrm i v p hv hp
            simp only [hr] at hrm hu
            obtain ⟨l, hl, rfl⟩ := List.mem_map.mp hrm
            have hp : ts[i]? = some p := hp
            have hpm : p ∈ ts := List.mem_of_getElem? hp
            have hc : cols[i]? = some p.1 := by rw [← t1, List.getElem?_map, hp]; rfl
            refine infer_fits (t2 p hpm) ?_ v (mem_valuesOf hl hc hv)
            intro w hw
            unfold valuesOf at hw
            rw [List.mem_flatMap] at hw
            obtain ⟨l', hl', hw⟩ := hw
            rw [List.mem_filterMap] at hw
            obtain ⟨q, hq, hqw⟩ := hw
            split at hqw
            · cases hqw
              exact hu (split l') (List.mem_map.mpr ⟨l', hl', rfl⟩) _ (List.of_mem_zip hq).2
            · cases hqw
      · cases h
  · unfold importData
    simp only []
    split
    · rfl
    · rw [if_pos]
      obtain ⟨l, hl, hne⟩ := h
      rw [List.any_eq_true]
      exact ⟨l, hl, by simpa using hne⟩
  · unfold importData
    simp only []
    split
    · rfl
    split
    · rfl
    split
    · rfl
    · rename_i ts hts
      exact absurd (typesOf_spec hts).2.2.1 h

/-- C184 is false in general: if the create command fails (a column called `order`), the old table is lost. -/
theorem import_create_false (old : Table) : importData [kOrder] [[['1']]] false (fun _ => true) (some old) = (none, false) := rfl

/-- C184 is false in general: any digits make a `bigint`, so a number beyond its range does not fit. -/
theorem import_big_false :
    ∃ v, importData [['c']] [[v]] true (fun _ => true) none = (some ⟨[(['c'], .bigint)], [[v]]⟩, true) ∧ ¬ Fits .bigint v :=
  ⟨List.replicate 20 '9', by decide +kernel, fun h => absurd h.2 (by decide +kernel)⟩

/-- C184 is false in general: a line that begins with space has an empty first field, and the import ends. -/
theorem import_indent_false : importData [['c']] [[[' ', '1']]] true (fun _ => true) none = (none, false) ∧ split [' ', '1'] = [[], ['1']] := by decide

/-- C184: negative numbers without a point are text. -/
theorem import_negative : importData [['c']] [[['-', '5'], ['7']]] true (fun _ => true) none = (some ⟨[(['c'], .varchar)], [[['-', '5']], [['7']]]⟩, true) := by decide

example : Usual ['1', '2'] ∧ Usual ['x'] := by
  refine ⟨⟨fun _ => ?_, fun _ => ?_⟩, ⟨fun h => ?_, fun h => ?_⟩⟩
  · exact (by decide : number ['1', '2'] < 2 ^ 63)
  · exact (by decide : (['1', '2'] : Text).length ≤ 255)
  · exact absurd h (by decide)
  · exact absurd h (by decide)

example : importData [['a'], ['b']] [["1 x".toList, "2 2.5 ".toList], ["3\t-1.0".toList]] true (fun _ => true) none =
    (some ⟨[(['a'], .bigint), (['b'], .varchar)], [[['1'], ['x']], [['2'], ['2', '.', '5']], [['3'], ['-', '1', '.', '0']]]⟩, true) := by decide +kernel

end Verif.Mercury.Import
