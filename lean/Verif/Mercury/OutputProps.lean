import Verif.Mercury.Output

/-! # The output of select (C252) -/

namespace Verif.Mercury.Output

open Verif.Deptool.Deps (Text)

/-! ## Specification: programs that read the output -/

/-- The pieces between two separators. -/
def pieces (x : Char) : Text → List Text
  | [] => [[]]
  | c :: t =>
    if c = x then [] :: pieces x t
    else
      match pieces x t with
      | p :: ps => (c :: p) :: ps
      | [] => [[c]]

/-- The blank behind a comma. -/
def unblank : Text → Text
  | ' ' :: t => t
  | t => t

/-- The values of a line: between commas, without the blank behind each comma. -/
def readLine (l : Text) : List Text :=
  match pieces ',' l with
  | p :: ps => p :: ps.map unblank
  | [] => []

/-- Reads values separated by commas: one line each. -/
def readCsv (t : Text) : List (List Text) := (pieces '\n' t).dropLast.map readLine

/-- Tags and other characters. -/
inductive Tok where
  | tag (t : Text)
  | chr (c : Char)

/-- The tags and characters of a text; `m`: the tag begun. -/
def toks : Option Text → Text → List Tok
  | _, [] => []
  | none, c :: t => if c = '<' then toks (some []) t else .chr c :: toks none t
  | some w, c :: t => if c = '>' then .tag w :: toks none t else toks (some (w ++ [c])) t

/-- What a tag does. -/
inductive Mark where
  | row | rowEnd | cell | cellEnd | other

def mark (t : Text) : Mark :=
  if t = ['T', 'R'] then .row
  else if t = ['/', 'T', 'R'] then .rowEnd
  else if t = ['T', 'D'] ∨ t = ['T', 'H'] then .cell
  else if t = ['/', 'T', 'D'] ∨ t = ['/', 'T', 'H'] then .cellEnd
  else .other

/-- Reads the rows of a table: what is between the tags of its cells. -/
def readRows : Option Text → List Text → List Tok → List (List Text)
  | _, _, [] => []
  | v, row, .chr c :: t => readRows (v.map (· ++ [c])) row t
  | v, row, .tag w :: t =>
    match mark w with
    | .row => readRows none [] t
    | .rowEnd => row :: readRows none [] t
    | .cell => readRows (some []) row t
    | .cellEnd => readRows none (row ++ v.toList) t
    | .other => readRows v row t

def readHtml (t : Text) : List (List Text) := readRows none [] (toks none t)

/-- The table as a list of rows, the names first; NULL is nothing. -/
def table (r : Result) : List (List Text) := r.names :: r.rows.map (·.map (·.getD []))

/-! ## Lemmas: values separated by commas -/

theorem pieces_ne (x : Char) (t : Text) : pieces x t ≠ [] := by
  cases t with
  | nil => simp [pieces]
  | cons c t =>
    unfold pieces
    split
    · simp
    · split <;> simp

theorem pieces_plain (x : Char) (e : Text) (h : x ∉ e) : pieces x e = [e] := by
  induction e with
  | nil => rfl
  | cons c e ih =>
    simp only [List.mem_cons, not_or] at h
    unfold pieces
    rw [if_neg (fun he => h.1 he.symm), ih h.2]

theorem pieces_append (x : Char) (e r : Text) (h : x ∉ e) : pieces x (e ++ x :: r) = e :: pieces x r := by
  induction e with
  | nil => simp [pieces]
  | cons c e ih =>
    simp only [List.mem_cons, not_or] at h
    rw [List.cons_append, pieces, if_neg (fun he => h.1 he.symm), ih h.2]

theorem pieces_blank (x : Char) (hx : x ≠ ' ') (t : Text) (p : Text) (ps : List Text) (h : pieces x t = p :: ps) : pieces x (' ' :: t) = (' ' :: p) :: ps := by
  rw [pieces, if_neg (Ne.symm hx), h]

theorem joined_pieces (v : Text) (vs : List Text) (h : ∀ w ∈ v :: vs, ',' ∉ w) :
    pieces ',' (joined (v :: vs)) = v :: vs.map (' ' :: ·) := by
  induction vs generalizing v with
  | nil => exact pieces_plain ',' v (h v (by simp))
  | cons w ws ih =>
    show pieces ',' (v ++ ',' :: ' ' :: joined (w :: ws)) = _
    rw [pieces_append ',' v _ (h v (by simp)), pieces_blank ',' (by decide) _ _ _ (ih w fun x hx => h x (by simp at hx; simp [hx]))]
    simp

theorem readLine_joined (vs : List Text) (hne : vs ≠ []) (h : ∀ w ∈ vs, ',' ∉ w) : readLine (joined vs) = vs := by
  cases vs with
  | nil => exact absurd rfl hne
  | cons v vs =>
    unfold readLine
    rw [joined_pieces v vs h]
    simp only [List.map_map, List.cons.injEq, true_and]
    conv => rhs; rw [← List.map_id vs]
    exact List.map_congr_left fun w _ => rfl

theorem joined_mem (vs : List Text) (x : Char) (hx : x ≠ ',' ∧ x ≠ ' ') (h : ∀ w ∈ vs, x ∉ w) : x ∉ joined vs := by
  induction vs with
  | nil => simp [joined]
  | cons v vs ih =>
    cases vs with
    | nil => exact h v (by simp)
    | cons w ws =>
      show x ∉ v ++ ',' :: ' ' :: joined (w :: ws)
      simp only [List.mem_append, List.mem_cons, not_or]
      exact ⟨h v (by simp), hx.1, hx.2, ih fun y hy => h y (by simp [hy])⟩

theorem lines_pieces (ls : List Text) (h : ∀ l ∈ ls, '\n' ∉ l) : pieces '\n' (ls.map (· ++ ['\n'])).flatten = ls ++ [[]] := by
  induction ls with
  | nil => rfl
  | cons l ls ih =>
    have := pieces_append '\n' l (ls.map (· ++ ['\n'])).flatten (h l (by simp))
    rw [ih fun x hx => h x (by simp [hx])] at this
    simpa using this

theorem csv_lines (r : Result) : csv r = ((table r).map joined |>.map (· ++ ['\n'])).flatten := by
  unfold csv table
  simp only [List.map_cons, List.flatten_cons, List.map_map, List.append_assoc, List.cons_append, List.nil_append]
  rfl

/-! ## Lemmas: tags -/

theorem toks_text (v r : Text) (h : '<' ∉ v) : toks none (v ++ r) = v.map Tok.chr ++ toks none r := by
  induction v with
  | nil => rfl
  | cons c v ih =>
    simp only [List.mem_cons, not_or] at h
    rw [List.cons_append, toks, if_neg (fun e => h.1 e.symm), ih h.2]
    rfl

theorem readRows_text (v : Text) (w : Option Text) (row : List Text) (t : List Tok) :
    readRows w row (v.map Tok.chr ++ t) = readRows (w.map (· ++ v)) row t := by
  induction v generalizing w with
  | nil => cases w <;> simp
  | cons c v ih =>
    rw [List.map_cons, List.cons_append, readRows, ih]
    cases w <;> simp

/-- One cell is read back. -/
theorem read_cell (name v r : Text) (hn : name = ['T', 'D'] ∨ name = ['T', 'H']) (hv : '<' ∉ v) (row : List Text) :
    readRows none row (toks none (cell name v ++ r)) = readRows none (row ++ [v]) (toks none r) := by
  rcases hn with rfl | rfl
  · have e : cell ['T', 'D'] v ++ r = ' ' :: '<' :: 'T' :: 'D' :: '>' :: (v ++ ('<' :: '/' :: 'T' :: 'D' :: '>' :: r)) := by simp [cell]
    rw [e]
    have e2 : toks none (' ' :: '<' :: 'T' :: 'D' :: '>' :: (v ++ ('<' :: '/' :: 'T' :: 'D' :: '>' :: r))) =
        .chr ' ' :: .tag ['T', 'D'] :: (v.map Tok.chr ++ .tag ['/', 'T', 'D'] :: toks none r) := by
      have : toks none (v ++ ('<' :: '/' :: 'T' :: 'D' :: '>' :: r)) = v.map Tok.chr ++ .tag ['/', 'T', 'D'] :: toks none r := by
        rw [toks_text v _ hv]
        simp [toks]
      rw [← this]
      simp [toks]
    rw [e2]
    simp only [readRows, mark, Option.map_none]
    simp [readRows_text, readRows, mark]
  · have e : cell ['T', 'H'] v ++ r = ' ' :: '<' :: 'T' :: 'H' :: '>' :: (v ++ ('<' :: '/' :: 'T' :: 'H' :: '>' :: r)) := by simp [cell]
    rw [e]
    have e2 : toks none (' ' :: '<' :: 'T' :: 'H' :: '>' :: (v ++ ('<' :: '/' :: 'T' :: 'H' :: '>' :: r))) =
        .chr ' ' :: .tag ['T', 'H'] :: (v.map Tok.chr ++ .tag ['/', 'T', 'H'] :: toks none r) := by
      have : toks none (v ++ ('<' :: '/' :: 'T' :: 'H' :: '>' :: r)) = v.map Tok.chr ++ .tag ['/', 'T', 'H'] :: toks none r := by
        rw [toks_text v _ hv]
        simp [toks]
      rw [← this]
      simp [toks]
    rw [e2]
    simp only [readRows, mark, Option.map_none]
    simp [readRows_text, readRows, mark]

theorem read_cells (name r : Text) (hn : name = ['T', 'D'] ∨ name = ['T', 'H']) (vs : List Text) (hv : ∀ v ∈ vs, '<' ∉ v) (row : List Text) :
    readRows none row (toks none ((vs.map (cell name)).flatten ++ r)) = readRows none (row ++ vs) (toks none r) := by
  induction vs generalizing row with
  | nil => simp
  | cons v vs ih =>
    rw [List.map_cons, List.flatten_cons, List.append_assoc, read_cell name v _ hn (hv v (by simp)), ih fun x hx => hv x (by simp [hx])]
    simp

theorem read_row (name r : Text) (hn : name = ['T', 'D'] ∨ name = ['T', 'H']) (vs : List Text) (hv : ∀ v ∈ vs, '<' ∉ v) (row : List Text) :
    readRows none row (toks none (rowOpen name vs ++ r)) = readRows none vs (toks none r) := by
  unfold rowOpen
  rw [List.append_assoc]
  have : ∀ s, readRows none row (toks none ([' ', ' ', '<', 'T', 'R', '>', '\n', ' ', ' ', ' '] ++ s)) = readRows none [] (toks none s) := by
    intro s
    simp [toks, readRows, mark]
  rw [this, read_cells name r hn vs hv]
  rfl

/-! ## C252 -/

/-- Values separated by commas are read back, if there is a column and no value has a comma or a newline. -/
theorem csv_partial (r : Result) (hc : ∀ row ∈ table r, row ≠ []) (hv : ∀ row ∈ table r, ∀ v ∈ row, ',' ∉ v ∧ '\n' ∉ v) : readCsv (csv r) = table r := by
  unfold readCsv
  rw [csv_lines, lines_pieces]
  · rw [List.dropLast_concat, List.map_map]
    conv => rhs; rw [← List.map_id (table r)]
    exact List.map_congr_left fun row hr => readLine_joined row (hc row hr) fun v hm => (hv row hr v hm).1
  · intro l hl
    simp only [List.mem_map] at hl
    obtain ⟨row, hr, rfl⟩ := hl
    exact joined_mem row '\n' (by decide) fun v hm => (hv row hr v hm).2

/-- The table of HTML is read back, if no value has a `<`. -/
theorem html_partial (r : Result) (hv : ∀ row ∈ table r, ∀ v ∈ row, '<' ∉ v) : readHtml (html r) = table r := by
  unfold readHtml html table
  simp only [List.append_assoc]
  have h0 : ∀ s, readRows none [] (toks none (['<', 'T', 'A', 'B', 'L', 'E', ' ', 'B', 'O', 'R', 'D', 'E', 'R', '=', '"', '2', '"', '>', '\n'] ++ s)) = readRows none [] (toks none s) := by
    intro s
    simp [toks, readRows, mark]
  rw [h0, read_row _ _ (Or.inr rfl) _ (hv _ (by simp [table]))]
  have h1 : ∀ s row, readRows none row (toks none (['\n', ' ', ' ', '<', '/', 'T', 'R', '>', '\n'] ++ s)) = row :: readRows none [] (toks none s) := by
    intro s row
    simp [toks, readRows, mark]
  rw [h1]
  congr 1
  have hrows : ∀ row ∈ r.rows, ∀ v ∈ row.map shown, '<' ∉ v := by
    intro row hr v hm
    exact hv (row.map shown) (by unfold table; exact List.mem_cons_of_mem _ (List.mem_map.mpr ⟨row, hr, rfl⟩)) v hm
  generalize r.rows = rows at hrows
  induction rows with
  | nil => simp [toks, readRows, mark]
  | cons row rows ih =>
    rw [List.map_cons, List.flatten_cons, List.append_assoc, List.append_assoc, read_row _ _ (Or.inl rfl) _ (hrows row (by simp))]
    have h2 : ∀ s vs, readRows none vs (toks none ([' ', '<', '/', 'T', 'R', '>', '\n'] ++ s)) = vs :: readRows none [] (toks none s) := by
      intro s vs
      simp [toks, readRows, mark]
    rw [h2, ih fun x hx => hrows x (by simp [hx])]
    rfl

/-- The table drawn has all rows, once and in order, however many are read in advance. -/
theorem text_rows (limit : Nat) (r : Result) (hc : ∀ row ∈ r.rows, row ≠ []) : textTable limit r = (table r).tail := by
  unfold textTable table
  simp only [List.tail_cons]
  have hne : ∀ row ∈ r.rows.map (·.map shown), row ≠ [] := by
    intro row hr
    simp only [List.mem_map] at hr
    obtain ⟨x, hx, rfl⟩ := hr
    have := hc x hx
    simpa using this
  have key : ∀ (f t : List (List Text)) (n : Nat), f.length + t.length < n → (∀ x ∈ f, x ≠ []) → (∀ x ∈ t, x ≠ []) →
      drain n ⟨f, t⟩ = f ++ t ∧ drain n ⟨f ++ [[]], t⟩ = f := by
    intro f
    induction f with
    | nil =>
      intro t n hn _ ht
      constructor
      · induction t generalizing n with
        | nil => cases n <;> simp [drain, next]
        | cons x t ih =>
          cases n with
          | zero => exact absurd hn (by simp)
          | succ n =>
            have hx := ht x (by simp)
            simp only [drain, next, hx, if_false]
            rw [ih n (by simp at hn ⊢; omega) fun y hy => ht y (by simp [hy])]
            rfl
      · cases n <;> simp [drain, next]
    | cons x f ih =>
      intro t n hn hf ht
      cases n with
      | zero => exact absurd hn (by simp)
      | succ n =>
        have hx := hf x (by simp)
        have := ih t n (by simp at hn ⊢; omega) (fun y hy => hf y (by simp [hy])) ht
        constructor
        · simp only [drain, next, hx, if_false]
          rw [this.1]
          rfl
        · simp only [List.cons_append, drain, next, hx, if_false]
          rw [this.2]
  show drain (r.rows.length + 1) (advance limit (r.rows.map (·.map shown))) = r.rows.map (·.map shown)
  have hlen : (r.rows.map (·.map shown)).length = r.rows.length := by simp
  rw [← hlen]
  generalize r.rows.map (·.map shown) = rows at hne
  unfold advance
  split
  · exact (key rows [] _ (by simp) hne (by simp)).2
  · have := (key (rows.take limit) (rows.drop limit) (rows.length + 1)
      (by simp only [List.length_take, List.length_drop]; omega)
      (fun x hx => hne x (List.mem_of_mem_take hx)) (fun x hx => hne x (List.mem_of_mem_drop hx))).1
    rw [this, List.take_append_drop]

/-- False: that values are read back whatever they are. A comma ends a value, whatever the program that reads it. -/
theorem csv_false : csv ⟨[['a'], ['b']], [[some ['x', ',', ' ', 'y'], some ['z']]]⟩ = csv ⟨[['a'], ['b']], [[some ['x'], some ['y', ',', ' ', 'z']]]⟩ := by
  decide

/-- False: the same of HTML: values are not escaped, so that a value can end its cell. -/
theorem html_false : html ⟨[['a']], [[some ['x', '<', '/', 'T', 'D', '>', ' ', '<', 'T', 'D', '>', 'y']]]⟩ = html ⟨[['a']], [[some ['x'], some ['y']]]⟩ := by
  decide

/-- False: that NULL can be told from the empty text, in any of the three. -/
theorem null_false (names : List Text) (limit : Nat) : csv ⟨names, [[none]]⟩ = csv ⟨names, [[some []]]⟩ ∧ html ⟨names, [[none]]⟩ = html ⟨names, [[some []]]⟩ ∧
    textTable limit ⟨names, [[none]]⟩ = textTable limit ⟨names, [[some []]]⟩ := ⟨rfl, rfl, rfl⟩

/-! ### The hypotheses are met -/

example : (∀ row ∈ table ⟨[['a'], ['b']], [[some ['x'], none], [some ['<'], some ['y', ' ']]]⟩, row ≠ [] ∧ ∀ v ∈ row, ',' ∉ v ∧ '\n' ∉ v) ∧
    ∀ row ∈ table ⟨[['a']], [[some ['x', ',', '\n']]]⟩, ∀ v ∈ row, '<' ∉ v := by
  decide

example : textTable 1 ⟨[['a']], [[some ['x']], [some ['y']]]⟩ = [[['x']], [['y']]] := by decide

end Verif.Mercury.Output
