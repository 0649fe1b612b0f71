import Verif.Mercury.Sql

/-!
# Model and properties of the rows of `plot` (C179; src/mercury-plot.in, lines 422-502)
-/

namespace Verif.Mercury.Rows

/-! ## Model -/

/-- The columns that `plot` knows (lines 425-429). -/
inductive Col where
  | x | y | y2 | yerr | ylo | yhi | cdf | segX1 | segY1 | segX2 | segY2
deriving DecidableEq, Repr

/-- The forms of plots (lines 448-484). -/
inductive Kind where
  | xyErr | xyHilo | xy | xOnly | xy2Err | xy2Hilo | xy2 | cdf | seg
deriving DecidableEq, Repr

/-- Lines 448-484: which form, from the columns that were found and the number of rows; `none`: don't know how to plot. -/
def dispatch (found : Col → Bool) (rows : Nat) : Option Kind :=
  if found .x && found .y && found .yerr then some .xyErr
  else if found .x && found .y && found .ylo && found .yhi then some .xyHilo
  else if found .x && found .y then some .xy
  else if found .x && rows == 1 then some .xOnly
  else if found .x && found .y2 && found .yerr then some .xy2Err
  else if found .x && found .y2 && found .ylo && found .yhi then some .xy2Hilo
  else if found .x && found .y2 then some .xy2
  else if found .cdf then some .cdf
  else if found .segX1 && found .segY1 && found .segX2 && found .segY2 then some .seg
  else none

/-- The columns that the function of the form writes (lines 449-480); of `cdf` see `writeAll`. -/
def Kind.cols : Kind → List Col
  | .xyErr => [.x, .y, .yerr]
  | .xyHilo => [.x, .y, .ylo, .yhi]
  | .xy => [.x, .y]
  | .xOnly => [.x]
  | .xy2Err => [.x, .y2, .yerr]
  | .xy2Hilo => [.x, .y2, .ylo, .yhi]
  | .xy2 => [.x, .y2]
  | .cdf => [.cdf]
  | .seg => [.segX1, .segY1, .segX2, .segY2]

/-- Whether the form is drawn against the second axis (`axes` of `plotxy2*`, lines 1356-1386). -/
def Kind.second : Kind → Bool
  | .xy2Err | .xy2Hilo | .xy2 => true
  | _ => false

/-- A row: the value of each column, `none` for null. Used in the model of `mercury-plot.in:488-495` (`scan`). -/
abbrev Row (α : Type) := Col → Option α

/-- The inner loop over `each %found` from place `it` of the iterator (lines 488-495): `some` place after a null value, `none` when it came to the end. -/
def scan {α : Type} (found : List Col) (row : Row α) (it : Nat) : Option Nat :=
  match (found.drop it).findIdx? (fun c => (row c).isNone) with
  | some j => some (it + j + 1)
  | none => none

/-- The loop (lines 487-497): the rows for which the function is called. The iterator of the hash stays where `next FETCH` left it; at the end it is reset. -/
def fetch {α : Type} (found : List Col) : Nat → List (Row α) → List (Row α)
  | _, [] => []
  | it, r :: rs =>
    match scan found r it with
    | some it' => fetch found it' rs
    | none => r :: fetch found 0 rs

/-- What is written. Used in the model of `mercury-plot.in:448-484` (`writeAll`). -/
inductive Line (α : Type) where
  /-- The values; a null value is written as nothing. -/
  | values (l : List (Option α))
  /-- The percentage `100 * i / n` and the value (line 475). -/
  | share (i n : Nat) (v : Option α)
deriving DecidableEq, Repr

/-- The function of the form called for rows, `i` the counter of `cdf`, `n` the number of rows of the query. Made of the parts of `mercury-plot.in:448-484`. -/
def writeAll {α : Type} (k : Kind) (n : Nat) : Nat → List (Row α) → List (Line α)
  | _, [] => []
  | i, r :: rs =>
    (if k = .cdf then .share (i + 1) n (r .cdf) else .values (k.cols.map r)) :: writeAll k n (i + 1) rs

/-- The data file of a plot: `found` are the columns in the order of the hash. Made of the parts of `mercury-plot.in:425-497`. -/
def plotData {α : Type} (found : List Col) (rows : List (Row α)) : Option (Kind × List (Line α)) :=
  match dispatch (fun c => c ∈ found) rows.length with
  | some k => some (k, writeAll k rows.length 0 (fetch found 0 rows))
  | none => none

/-! ## Specification -/

/-- No column of the row that was asked for is null. -/
def Complete {α : Type} (found : List Col) (r : Row α) : Bool := found.all fun c => (r c).isSome

/-- No two rows with nulls follow each other. -/
def Spaced {α : Type} (found : List Col) : List (Row α) → Prop
  | [] => True
  | [_] => True
  | r :: s :: rs => (Complete found r = true ∨ Complete found s = true) ∧ Spaced found (s :: rs)

/-! ## Proofs -/

theorem scan_complete {α : Type} {found : List Col} {r : Row α} (h : Complete found r = true) (it : Nat) : scan found r it = none := by
  unfold scan
  have : (found.drop it).findIdx? (fun c => (r c).isNone) = none := by
    rw [List.findIdx?_eq_none_iff]
    intro c hc
    unfold Complete at h
    rw [List.all_eq_true] at h
    have := h c (List.mem_of_mem_drop hc)
    cases hr : r c with
    | none => rw [hr] at this; cases this
    | some v => rfl
  rw [this]

theorem scan_start {α : Type} {found : List Col} {r : Row α} (h : Complete found r = false) : ∃ j, scan found r 0 = some j := by
  unfold scan
  cases hf : (found.drop 0).findIdx? (fun c => (r c).isNone) with
  | some j => exact ⟨_, rfl⟩
  | none =>
    rw [List.findIdx?_eq_none_iff] at hf
    rw [List.drop_zero] at hf
    have : Complete found r = true := by
      unfold Complete
      rw [List.all_eq_true]
      intro c hc
      have := hf c hc
      cases hr : r c with
      | none => rw [hr] at this; cases this
      | some v => rfl
    rw [this] at h
    cases h

/-- C179: every row without nulls is written, once and in order, whatever nulls there are. -/
theorem fetch_keeps {α : Type} (found : List Col) (rows : List (Row α)) (it : Nat) :
    (rows.filter (Complete found)).Sublist (fetch found it rows) ∧ (fetch found it rows).Sublist rows := by
  induction rows generalizing it with
  | nil => exact ⟨List.Sublist.refl _, List.Sublist.refl _⟩
  | cons r rs ih =>
    rw [fetch]
    cases h : Complete found r with
    | true =>
      rw [scan_complete h, List.filter_cons_of_pos h]
      exact ⟨(ih 0).1.cons_cons r, (ih 0).2.cons_cons r⟩
    | false =>
      rw [List.filter_cons_of_neg (by rw [h]; simp)]
      split
      · rename_i j _; exact ⟨(ih j).1, (ih j).2.cons r⟩
      · exact ⟨(ih 0).1.cons r, (ih 0).2.cons_cons r⟩

/-- C179: if no two rows with nulls follow each other, exactly the rows without nulls are written, whatever the order of the hash. -/
theorem fetch_partial {α : Type} (found : List Col) (rows : List (Row α)) (h : Spaced found rows) :
    fetch found 0 rows = rows.filter (Complete found) := by
  suffices H : ∀ it, (it = 0 ∨ ∀ r rs, rows = r :: rs → Complete found r = true) → fetch found it rows = rows.filter (Complete found) from H 0 (.inl rfl)
  induction rows with
  | nil => intro _ _; rfl
  | cons r rs ih =>
    intro it hit
    rw [fetch]
    have hsp : Spaced found rs := by
      cases rs with
      | nil => trivial
      | cons s rs => exact h.2
    cases hc : Complete found r with
    | true =>
      rw [scan_complete hc, List.filter_cons_of_pos hc]
      show r :: fetch found 0 rs = _
      rw [ih hsp 0 (.inl rfl)]
    | false =>
      rcases hit with rfl | hit
      · obtain ⟨j, hj⟩ := scan_start hc
        rw [hj, List.filter_cons_of_neg (by rw [hc]; simp)]
        show fetch found j rs = _
        refine ih hsp j (.inr ?_)
        intro s ss he
        subst he
        rcases h.1 with h1 | h1
        · rw [hc] at h1; cases h1
        · exact h1
      · have := hit r rs rfl
        rw [hc] at this; cases this

/-- C179 is false in general: of two rows without the value of `x` the second is written, with nothing for the value. -/
theorem fetch_null_false :
    ∃ (found : List Col) (rows : List (Row Nat)), (∀ r ∈ rows, Complete found r = false) ∧
      plotData found rows = some (.xy, [.values [none, some 7]]) :=
  ⟨[.x, .y], [fun c => if c = .y then some 5 else none, fun c => if c = .y then some 7 else none],
    by intro r hr; simp only [List.mem_cons, List.not_mem_nil, or_false] at hr; rcases hr with rfl | rfl <;> decide, by decide⟩

/-! ### The form of the plot -/

/-- C179: with the columns of the documentation and more than one row the form writes all of them, against the axis asked for. -/
theorem dispatch_partial (found : Col → Bool) (n : Nat) (hn : 1 < n) :
    (found .x = true → found .y = true → found .y2 = false →
      ∃ k, dispatch found n = some k ∧ k.second = false ∧ Col.x ∈ k.cols ∧ Col.y ∈ k.cols ∧ (found .yerr = true → Col.yerr ∈ k.cols) ∧
        (found .yerr = false → found .ylo = true → found .yhi = true → Col.ylo ∈ k.cols ∧ Col.yhi ∈ k.cols) ∧ ∀ c ∈ k.cols, found c = true) ∧
    (found .x = true → found .y2 = true → found .y = false →
      ∃ k, dispatch found n = some k ∧ k.second = true ∧ Col.x ∈ k.cols ∧ Col.y2 ∈ k.cols ∧ (found .yerr = true → Col.yerr ∈ k.cols) ∧
        (found .yerr = false → found .ylo = true → found .yhi = true → Col.ylo ∈ k.cols ∧ Col.yhi ∈ k.cols) ∧ ∀ c ∈ k.cols, found c = true) ∧
    (found .x = false → found .cdf = true → dispatch found n = some .cdf) ∧
    (∀ k, dispatch found n = some k → ∀ c ∈ k.cols, found c = true) := by
  have hn1 : (n == 1) = false := by rw [beq_eq_false_iff_ne]; omega
  refine ⟨fun hx hy hy2 => ?_, fun hx hy2 hy => ?_, fun hx hc => ?_, fun k hk => ?_⟩
  · unfold dispatch
    rw [hx, hy]
    cases h1 : found .yerr <;> cases h2 : found .ylo <;> cases h3 : found .yhi <;>
      simp [Kind.second, Kind.cols, hx, hy, h1, h2, h3]
  · unfold dispatch
    rw [hx, hy2, hy, hn1]
    cases h1 : found .yerr <;> cases h2 : found .ylo <;> cases h3 : found .yhi <;>
      simp [Kind.second, Kind.cols, hx, hy2, h1, h2, h3]
  · unfold dispatch
    rw [hx, hc]
    simp
  · unfold dispatch at hk
    repeat' split at hk
    all_goals first
      | (cases hk; simp_all [Kind.cols])
      | cases hk

/-- C179 is false in general: a query for `x` and `y2` that gives one row is drawn without `y2`. -/
theorem dispatch_one_false :
    plotData [Col.x, Col.y2] [fun c => if c = .x then some 3 else if c = .y2 then some 4 else (none : Option Nat)] = some (.xOnly, [.values [some 3]]) := by decide

/-! ### The distribution -/

/-- The values of `cdf` with their shares, in the order of the query. Made of the parts of `mercury-plot.in:448-484`. -/
def cdfLines {α : Type} (n : Nat) (vs : List α) (i : Nat) : List (Line α) := (vs.zipIdx i).map fun p => .share (p.2 + 1) n (some p.1)

theorem writeAll_cdf {α : Type} (n i : Nat) (vs : List α) :
    writeAll .cdf n i (vs.map fun v => (fun c => if c = Col.cdf then some v else none)) = cdfLines n vs i := by
  induction vs generalizing i with
  | nil => rfl
  | cons v vs ih =>
    rw [List.map_cons, writeAll, ih]
    simp [cdfLines]

/-- C179: a query for `cdf` alone without nulls gives one line per value in the order of the query; the share of line `i` is `i / n`, and for values in order it is the share of the values
that are at most the value of the line, except that of equal values only the last has it; the last line has 100%. -/
theorem cdf_partial (vs : List Int) (hs : vs.Pairwise (· ≤ ·)) :
    ∃ lines, plotData [Col.cdf] (vs.map fun v => (fun c => if c = Col.cdf then some v else none)) = some (.cdf, lines) ∧ lines.length = vs.length ∧
      (∀ i (h : i < vs.length), lines[i]? = some (.share (i + 1) vs.length (some vs[i]))) ∧
      (∀ i (h : i < vs.length), i + 1 ≤ vs.countP (· ≤ vs[i]) ∧
        ((∀ h' : i + 1 < vs.length, vs[i] < vs[i + 1]) → vs.countP (· ≤ vs[i]) = i + 1)) := by
  have hf : fetch [Col.cdf] 0 (vs.map fun v => (fun c => if c = Col.cdf then some v else none : Row Int)) = vs.map fun v => (fun c => if c = Col.cdf then some v else none) := by
    have h1 : ∀ r ∈ vs.map fun v => (fun c => if c = Col.cdf then some v else none : Row Int), Complete [Col.cdf] r = true := by
      intro r hr
      obtain ⟨v, _, rfl⟩ := List.mem_map.mp hr
      simp [Complete]
    have h2 := (fetch_keeps [Col.cdf] (vs.map fun v => (fun c => if c = Col.cdf then some v else none : Row Int)) 0)
    rw [List.filter_eq_self.mpr h1] at h2
    exact (h2.1.eq_of_length_le h2.2.length_le).symm
  refine ⟨cdfLines vs.length vs 0, ?_, ?_, ?_, ?_⟩
  · unfold plotData
    have : dispatch (fun c => decide (c ∈ [Col.cdf])) vs.length = some .cdf := by simp [dispatch]
    rw [hf, List.length_map, this]
    simp only [writeAll_cdf]
  · simp [cdfLines]
  · intro i h
    simp [cdfLines, h]
  · intro i h
    rw [List.pairwise_iff_getElem] at hs
    have hsplit : vs = vs.take (i + 1) ++ vs.drop (i + 1) := (List.take_append_drop _ _).symm
    have htake : (vs.take (i + 1)).countP (· ≤ vs[i]) = i + 1 := by
      rw [List.countP_eq_length.mpr, List.length_take, Nat.min_eq_left h]
      intro a ha
      obtain ⟨j, hj, rfl⟩ := List.mem_iff_getElem.mp ha
      rw [List.length_take] at hj
      rw [List.getElem_take, decide_eq_true_eq]
      by_cases hji : j = i
      · subst hji; exact Int.le_refl _
      · exact hs j i (by omega) h (by omega)
    have hcount : vs.countP (· ≤ vs[i]) = (vs.take (i + 1)).countP (· ≤ vs[i]) + (vs.drop (i + 1)).countP (· ≤ vs[i]) := by
      rw [← List.countP_append, List.take_append_drop]
    refine ⟨by omega, fun hn => ?_⟩
    have hdrop : (vs.drop (i + 1)).countP (· ≤ vs[i]) = 0 := by
      rw [List.countP_eq_zero]
      intro a ha
      obtain ⟨j, hj, rfl⟩ := List.mem_iff_getElem.mp ha
      rw [List.length_drop] at hj
      rw [List.getElem_drop, decide_eq_true_eq]
      have hlt := hn (by omega)
      have : vs[i + 1] ≤ vs[i + 1 + j] := by
        by_cases hj0 : j = 0
        · subst hj0; exact Int.le_refl _
        · exact hs (i + 1) (i + 1 + j) (by omega) (by omega) (by omega)
      omega
    omega

/-- C179 is false in general: a null value counts, so the last line does not have 100%. -/
theorem cdf_null_false :
    plotData [Col.cdf] [fun _ => (none : Option Int), fun c => if c = .cdf then some 3 else none] = some (.cdf, [.share 1 2 (some 3)]) := by decide

example : [(2 : Int), 2, 5].Pairwise (· ≤ ·) := by decide

example : Spaced [Col.x, Col.y] [fun c => if c = .y then some 5 else none, fun _ => some 7, fun c => if c = .x then some 5 else none] :=
  ⟨.inr rfl, .inl rfl, trivial⟩

end Verif.Mercury.Rows
