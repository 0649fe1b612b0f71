import Verif.Tab.Spec
import Verif.Rome.Lemmas

/-! # Lemmas on tables -/

namespace Verif.Tab

open Verif Rome

/-- The text `s` stands for the lines `l`, whatever comes after. -/
def Rd (s : Txt) (l : List (List Txt)) : Prop := ∀ u, table (s ++ u) = l ++ table u

theorem Rd.nil : Rd [] [] := fun _ => rfl

theorem Rd.app {s t : Txt} {l m : List (List Txt)} (h : Rd s l) (k : Rd t m) : Rd (s ++ t) (l ++ m) := fun u => by
  rw [List.append_assoc, h, k, List.append_assoc]

theorem Rd.table {s : Txt} {l : List (List Txt)} (h : Rd s l) : table s = l := by
  have := h []
  rwa [List.append_nil, show Tab.table [] = [] from rfl, List.append_nil] at this

theorem from_sp (row : List Txt) (u : Txt) : ∀ d, tableFrom [] row (sp d ++ u) = tableFrom [] row u
  | 0 => rfl
  | d + 1 => from_sp row u d

theorem from_chars (row : List Txt) (u : Txt) : ∀ (w v : Txt), (∀ c ∈ v, delim c = false) → tableFrom w row (v ++ u) = tableFrom (w ++ v) row u
  | w, [], _ => by simp
  | w, c :: v, h => by
    have hc := h c (by simp)
    have h1 : c ≠ '\n' := by rintro rfl; exact absurd hc (by decide)
    have h2 : c ≠ ' ' := by rintro rfl; exact absurd hc (by decide)
    rw [List.cons_append, tableFrom, if_neg h1, if_neg h2, from_chars row u (w ++ [c]) v fun x hx => h x (by simp [hx])]
    simp

theorem close_word {w : Txt} (h : Word w) (row : List Txt) : close w row = row ++ [w] := by
  have h1 : w.isEmpty = false := by cases w with | nil => exact absurd rfl h.1 | cons _ _ => rfl
  unfold close
  rw [h1]
  rfl

theorem from_blank {w : Txt} (h : Word w) (row : List Txt) (u : Txt) : tableFrom [] row (w ++ (" ".toList ++ u)) = tableFrom [] (row ++ [w]) u := by
  rw [from_chars row _ [] w h.2, List.nil_append]
  show tableFrom w row (' ' :: u) = _
  rw [tableFrom, if_neg (by decide), if_pos rfl, close_word h]

theorem from_nl {w : Txt} (h : Word w) (row : List Txt) (u : Txt) : tableFrom [] row (w ++ ("\n".toList ++ u)) = (row ++ [w]) :: table u := by
  rw [from_chars row _ [] w h.2, List.nil_append]
  show tableFrom w row ('\n' :: u) = _
  rw [tableFrom, if_pos rfl, close_word h]
  rfl

theorem Rd.line {name v : Txt} (hn : Word name) (hv : Word v) (d : Nat) : Rd (line d name v) [[name, v]] := fun u => by
  unfold Tab.line Tab.table
  simp only [List.append_assoc]
  rw [from_sp, from_blank hn, from_nl hv]
  rfl

theorem word_lit (s : Txt) (h : (!s.isEmpty && s.all fun c => !delim c) = true) : Word s := by
  rw [Bool.and_eq_true, List.all_eq_true] at h
  exact ⟨by rintro rfl; exact absurd h.1 (by decide), fun c hc => by simpa using h.2 c hc⟩

/-- The lines of `base`. -/
def baseRows (f : Fmt) (b : Base) : List (List Txt) :=
  [["count".toList, f.nat b.count], ["min".toList, f.dbl b.min], ["max".toList, f.dbl b.max], ["mean".toList, if b.count = 0 then f.nat 0 else f.dbl b.mean],
    ["stddev".toList, if b.count = 0 then f.nat 0 else f.dbl b.stddev], ["variance".toList, if b.count = 0 then f.nat 0 else f.dbl b.variance],
    ["conf95".toList, if b.count = 0 then f.nat 0 else f.dbl b.conf95], ["total".toList, f.dbl b.total], ["total_sq".toList, f.dbl b.totalSq]]

theorem base_rd {f : Fmt} (hf : f.Ok) (d : Nat) (b : Base) : Rd (base f d b) (baseRows f b) := by
  unfold base baseRows
  by_cases h : 0 < b.count
  · simp only [if_pos h, if_neg (Nat.pos_iff_ne_zero.1 h)]
    exact Rd.app (Rd.line (word_lit _ rfl) (hf.nat _) d) (Rd.app (Rd.line (word_lit _ rfl) (hf.dbl _) d) (Rd.app (Rd.line (word_lit _ rfl) (hf.dbl _) d)
      (Rd.app (Rd.line (word_lit _ rfl) (hf.dbl _) d) (Rd.app (Rd.line (word_lit _ rfl) (hf.dbl _) d) (Rd.app (Rd.line (word_lit _ rfl) (hf.dbl _) d)
        (Rd.app (Rd.line (word_lit _ rfl) (hf.dbl _) d) (Rd.app (Rd.line (word_lit _ rfl) (hf.dbl _) d) (Rd.line (word_lit _ rfl) (hf.dbl _) d))))))))
  · have h0 : b.count = 0 := by omega
    simp only [if_neg h, if_pos h0]
    exact Rd.app (Rd.line (word_lit _ rfl) (hf.nat _) d) (Rd.app (Rd.line (word_lit _ rfl) (hf.dbl _) d) (Rd.app (Rd.line (word_lit _ rfl) (hf.dbl _) d)
      (Rd.app (Rd.line (word_lit _ rfl) (hf.nat _) d) (Rd.app (Rd.line (word_lit _ rfl) (hf.nat _) d) (Rd.app (Rd.line (word_lit _ rfl) (hf.nat _) d)
        (Rd.app (Rd.line (word_lit _ rfl) (hf.nat _) d) (Rd.app (Rd.line (word_lit _ rfl) (hf.dbl _) d) (Rd.line (word_lit _ rfl) (hf.dbl _) d))))))))

/-- The lines of `rows`. -/
def rowRows (r : Rat → Rat) (f : Fmt) (count : Nat) : Nat → List Bin → List (List Txt)
  | _, [] => []
  | sum, x :: l => [f.dbl (.q x.high), f.nat x.count, f.nat (sum + x.count), f.dbl (ratio r x.count count), f.dbl (ratio r (sum + x.count) count), f.dbl (.q x.width)] ::
    rowRows r f count (sum + x.count) l

theorem rows_rd (r : Rat → Rat) {f : Fmt} (hf : f.Ok) (count : Nat) : ∀ (l : List Bin) (sum : Nat), Rd (rows r f count sum l) (rowRows r f count sum l)
  | [], _ => Rd.nil
  | x :: l, sum => fun u => by
    unfold rows rowRows table
    simp only [List.append_assoc]
    rw [from_blank (hf.dbl _), from_blank (hf.nat _), from_blank (hf.nat _), from_blank (hf.dbl _), from_blank (hf.dbl _), from_nl (hf.dbl _), rows_rd r hf count l _ u]
    rfl

/-- The lines of `positive`. -/
def posRows (f : Fmt) (name : Txt) (n : Nat) : List (List Txt) := if 0 < n then [[name, f.nat n]] else []

theorem positive_rd {f : Fmt} (hf : f.Ok) {name : Txt} (hn : Word name) (n : Nat) : Rd (positive f name n) (posRows f name n) := by
  unfold positive posRows
  split
  · exact Rd.line hn (hf.nat _) 0
  · exact Rd.nil

/-- The heading of the bins. -/
def heading : List Txt := ["binCounts".toList, "begin".toList, "(low".toList, "items".toList, "sumitems".toList, "%items(pdf)".toList, "%total(cdf)".toList, "binwidth)".toList]

/-- The lines of a histogram between its first and its last. -/
def inner (r : Rat → Rat) (f : Fmt) (b : Base) (h : Hist) : List (List Txt) :=
  (baseRows f b ++ [["type".toList, h.kind], ["low".toList, f.dbl (.q h.low)], ["high".toList, f.dbl (.q h.high)], ["bins".toList, f.nat h.bins.length]] ++
    posRows f "rescales".toList h.rescales ++ posRows f "grows".toList h.grows) ++ heading :: (rowRows r f b.count 0 h.bins ++ [["binCounts".toList, "end".toList]])

/-- The lines of a histogram. -/
def histRows (r : Rat → Rat) (f : Fmt) (b : Base) (h : Hist) : List (List Txt) := ["histogram".toList, "begin".toList] :: (inner r f b h ++ [["histogram".toList, "end".toList]])

set_option maxRecDepth 4000 in
theorem hist_rd (r : Rat → Rat) {f : Fmt} (hf : f.Ok) (d : Nat) (b : Base) (h : Hist) (hk : Word h.kind) : Rd (histText r f d b h) (histRows r f b h) := by
  have h0 : Rd "histogram begin\n".toList [["histogram".toList, "begin".toList]] := fun u => rfl
  have h1 : Rd "binCounts begin (low items sumitems %items(pdf) %total(cdf) binwidth)\n".toList [heading] := fun u => rfl
  have h2 : Rd "binCounts end\nhistogram end\n".toList [["binCounts".toList, "end".toList], ["histogram".toList, "end".toList]] := fun u => rfl
  have := Rd.app h0 (Rd.app (base_rd hf d b) (Rd.app (Rd.line (name := "type".toList) (word_lit _ rfl) hk 0) (Rd.app (Rd.line (name := "low".toList) (word_lit _ rfl) (hf.dbl (.q h.low)) 0)
    (Rd.app (Rd.line (name := "high".toList) (word_lit _ rfl) (hf.dbl (.q h.high)) 0) (Rd.app (Rd.line (name := "bins".toList) (word_lit _ rfl) (hf.nat h.bins.length) 0)
      (Rd.app (positive_rd hf (name := "rescales".toList) (word_lit _ rfl) h.rescales) (Rd.app (positive_rd hf (name := "grows".toList) (word_lit _ rfl) h.grows)
        (Rd.app h1 (Rd.app (rows_rd r hf b.count h.bins 0) h2)))))))))
  unfold histText
  intro u
  rw [this u]
  simp [histRows, inner]

theorem get_none {name : String} {a : List (List Txt)} (h : ∀ l ∈ a, ¬ (l.head? = some name.toList ∧ l.length = 2)) (b : List (List Txt)) : get name (a ++ b) = get name b := by
  unfold get
  rw [List.find?_append, List.find?_eq_none.2 fun l hl => by simpa using h l hl]
  rfl

theorem get_some {name : String} {a : List (List Txt)} {v : List Txt} (h : get name a = some v) (b : List (List Txt)) : get name (a ++ b) = some v := by
  unfold get at h ⊢
  cases hf : a.find? (fun l => l.head? == some name.toList && l.length == 2) with
  | none => rw [hf] at h; cases h
  | some l => rw [hf] at h; rw [List.find?_append, hf]; exact h

theorem between_eq {first last : List String} {a m z : List (List Txt)} (ha : ∀ l ∈ a, l ≠ ln first) (hm : ∀ l ∈ m, l ≠ ln last) :
    between first last (a ++ ln first :: (m ++ ln last :: z)) = m := by
  unfold between
  rw [List.dropWhile_append_of_pos (fun l hl => by simpa using ha l hl), List.dropWhile_cons_of_neg (by simp), List.drop_one, List.tail_cons,
    List.takeWhile_append_of_pos (fun l hl => by simpa using hm l hl), List.takeWhile_cons_of_neg (by simp), List.append_nil]

end Verif.Tab
