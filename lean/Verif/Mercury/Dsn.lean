import Verif.Mercury.Import

/-!
# Model and properties of the database keys (C185; src/Plot/Mercury.pm, lines 43-63, src/mercury-plot.in, lines 79-91)
-/

namespace Verif.Mercury.Dsn

open Verif.Mercury.Import (split)

/-! ## Model -/

/-- Used in the model of `Mercury.pm:43-63` (`byKey`). -/
def kDbi : Text := ['D', 'B', 'I', ':']

/-- What `/^$dbkey\s+(.+)$/` captures (line 51), for a key of word characters: the space after the key is taken as far as a character is left. -/
def capture (key line : Text) : Option Text :=
  if key.isPrefixOf line then
    let r := line.drop key.length
    match r.head?, r.dropWhile isSpace with
    | some c, d :: ds => if isSpace c then some (d :: ds) else none
    | some c, [] => if isSpace c && 1 < r.length then r.getLast?.map fun x => [x] else none
    | none, _ => none
  else none

/-- The end of a scan of the file. Used in the model of `Mercury.pm:43-63` (`byKey`). -/
inductive Found where
  | nothing | die | bits (l : List Text)
deriving DecidableEq, Repr

/-- `getDSNbykey` (lines 43-63) on the lines of a file that can be read. -/
def byKey (key : Text) : List Text → Found
  | [] => .nothing
  | l :: ls =>
    match capture key l with
    | none => byKey key ls
    | some b =>
      -- `s/\s+$//` and the split leave out the space at the end
      let bits := split b
      if bits.length < 1 || 2 < bits.length then .die
      else if kDbi.isPrefixOf (bits.headD []) then .bits bits
      else .die

/-- What is used to connect: DSN, user, password. Used in the model of `Mercury.pm:80` (`assign`). -/
structure Conn where
  dsn : Text
  user : Option Text
  pass : Option Text
deriving DecidableEq, Repr

/-- The list assignment of lines 80 and 82. -/
def assign : List Text → Option Conn
  | [] => none
  | d :: r => some ⟨d, r.head?, r[1]?⟩

/-- Lines 79-87, with `--db`; `user` and `pass` are `--user` and `--password`. `none`: the program dies. The values of the options are overwritten by the assignments. -/
def choose (key : Text) (home etc : List Text) (_user _pass : Option Text) : Option Conn :=
  match byKey key home with
  | .die => none
  | .bits l => assign l
  | .nothing =>
    match byKey key etc with
    | .bits l => assign l
    | _ => none

/-! ## Specification: "each line either being a '#' comment or `<key> <DSN> [user] [password]`" -/

/-- A line of the file. -/
structure Entry where
  key : Text
  dsn : Text
  rest : List Text
deriving DecidableEq, Repr

def Word (t : Text) : Prop := t ≠ [] ∧ ∀ c ∈ t, isSpace c = false

/-- The text of an entry, with this space. -/
def Entry.line (e : Entry) (s0 : Text) (ss : List Text) : Text := e.key ++ s0 ++ Import.joinFields (e.dsn :: e.rest) ss

/-- A well-formed line for an entry. -/
def IsLine (e : Entry) (l : Text) : Prop :=
  Word e.key ∧ Word e.dsn ∧ (∀ x ∈ e.rest, Word x) ∧ ∃ s0 ss, s0 ≠ [] ∧ (∀ c ∈ s0, isSpace c = true) ∧ (∀ s ∈ ss, s ≠ [] ∧ ∀ c ∈ s, isSpace c = true) ∧
    (e.rest.length = ss.length ∨ e.rest.length + 1 = ss.length) ∧ l = e.line s0 ss

/-- A line of a file: comment or entry. -/
inductive Line where
  | comment (t : Text)
  | entry (e : Entry) (l : Text)
deriving DecidableEq

def Line.text : Line → Text
  | .comment t => '#' :: t
  | .entry _ l => l

def Line.ok : Line → Prop
  | .comment _ => True
  | .entry e l => IsLine e l

def Line.has (key : Text) : Line → Bool
  | .comment _ => false
  | .entry e _ => e.key == key

/-- The entry that the documentation gives for a key. -/
def firstEntry (key : Text) : List Line → Option Entry
  | [] => none
  | .comment _ :: r => firstEntry key r
  | .entry e _ :: r => if e.key = key then some e else firstEntry key r

/-! ## Proofs -/

theorem dropWhile_spaces (s r : Text) (hs : ∀ c ∈ s, isSpace c = true) (hr : ∀ c, r.head? = some c → isSpace c = false) : (s ++ r).dropWhile isSpace = r := by
  induction s with
  | nil =>
    cases r with
    | nil => rfl
    | cons c r => rw [List.nil_append, List.dropWhile_cons_of_neg (by rw [hr c rfl]; simp)]
  | cons c s ih => rw [List.cons_append, List.dropWhile_cons_of_pos (hs c (List.mem_cons_self ..)), ih fun d hd => hs d (List.mem_cons_of_mem _ hd)]

theorem prefix_drop (a r : Text) : a.isPrefixOf (a ++ r) = true ∧ (a ++ r).drop a.length = r := by
  refine ⟨?_, by simp⟩
  rw [List.isPrefixOf_iff_prefix]; exact List.prefix_append a r

theorem joinFields_head {d : Text} (hd : Word d) (rest ss : List Text) (hl : rest.length = ss.length ∨ rest.length + 1 = ss.length) :
    ∃ c r, Import.joinFields (d :: rest) ss = c :: r ∧ isSpace c = false := by
  obtain ⟨h1, h2⟩ := hd
  cases d with
  | nil => exact absurd rfl h1
  | cons c d =>
    cases ss with
    | nil =>
      have : rest = [] := by
        rcases hl with h | h
        · exact List.length_eq_zero_iff.mp h
        · simp at h
      subst this
      exact ⟨c, d, rfl, h2 c (List.mem_cons_self ..)⟩
    | cons s ss => exact ⟨c, _, rfl, h2 c (List.mem_cons_self ..)⟩

theorem capture_hit {e : Entry} {l : Text} (h : IsLine e l) : ∃ b, capture e.key l = some b ∧ split b = e.dsn :: e.rest := by
  obtain ⟨hk, hd, hr, s0, ss, h0, h0', hss, hl, rfl⟩ := h
  obtain ⟨c, r, hc, hcs⟩ := joinFields_head hd e.rest ss hl
  refine ⟨Import.joinFields (e.dsn :: e.rest) ss, ?_, ?_⟩
  · unfold capture Entry.line
    rw [List.append_assoc, if_pos (prefix_drop _ _).1]
    simp only [(prefix_drop _ _).2]
    have hdw : (s0 ++ Import.joinFields (e.dsn :: e.rest) ss).dropWhile isSpace = Import.joinFields (e.dsn :: e.rest) ss := by
      apply dropWhile_spaces _ _ h0'
      intro d hd'
      rw [hc] at hd'
      cases hd'
      exact hcs
    rw [hdw, hc]
    cases s0 with
    | nil => exact absurd rfl h0
    | cons a s0 =>
      simp only [List.cons_append, List.head?_cons]
      rw [if_pos (h0' a (List.mem_cons_self ..))]
  · apply Import.split_join
    · intro f hf
      rcases List.mem_cons.mp hf with rfl | hf
      · exact hd
      · exact hr f hf
    · exact hss
    · simp only [List.length_cons]
      omega

/-- Text with a word in front: which word it is, is determined by the space after it. -/
theorem word_prefix : ∀ {k w : Text} {r : Text}, Word w → (∀ c ∈ k, isSpace c = false) → k.isPrefixOf (w ++ r) = true → (∀ c, r.head? = some c → isSpace c = true) →
    (∃ c, ((w ++ r).drop k.length).head? = some c ∧ isSpace c = true) → k = w := by
  intro k w r hw hk hp hr hx
  obtain ⟨c, hc, hcs⟩ := hx
  rw [List.isPrefixOf_iff_prefix] at hp
  have hlen : k.length = w.length := by
    rcases Nat.lt_trichotomy k.length w.length with h | h | h
    · exfalso
      rw [List.head?_drop, List.getElem?_append_left h] at hc
      have := hw.2 c (List.mem_of_getElem? hc)
      rw [this] at hcs; cases hcs
    · exact h
    · exfalso
      obtain ⟨t, ht⟩ := hp
      have h1 : (w ++ r)[w.length]? = r.head? := by
        rw [List.getElem?_append_right (Nat.le_refl _), Nat.sub_self, List.head?_eq_getElem?]
      rw [← ht, List.getElem?_append_left h] at h1
      have h2 : k[w.length]? = some k[w.length] := List.getElem?_eq_getElem h
      have h3 := hr _ (by rw [← h1, h2])
      rw [hk _ (List.getElem_mem h)] at h3
      cases h3
  obtain ⟨t, ht⟩ := hp
  exact (List.append_inj ht hlen).1

theorem capture_space {key l b : Text} (h : capture key l = some b) : key.isPrefixOf l = true ∧ ∃ c, (l.drop key.length).head? = some c ∧ isSpace c = true := by
  unfold capture at h
  split at h
  · rename_i hp
    refine ⟨hp, ?_⟩
    simp only [] at h
    split at h
    · rename_i c _ _ hc _
      split at h
      · rename_i hs; exact ⟨c, hc, hs⟩
      · cases h
    · rename_i c hc _
      split at h
      · rename_i hs
        simp only [Bool.and_eq_true] at hs
        exact ⟨c, hc, hs.1⟩
      · cases h
    · cases h
  · cases h

theorem capture_miss {key : Text} (hk : Word key) {e : Entry} {l : Text} (h : IsLine e l) (hne : e.key ≠ key) : capture key l = none := by
  cases hc : capture key l with
  | none => rfl
  | some b =>
    exfalso
    obtain ⟨h1, h2⟩ := capture_space hc
    obtain ⟨hw, hd, hr, s0, ss, h0, h0', hss, hl, rfl⟩ := h
    unfold Entry.line at h1 h2
    rw [List.append_assoc] at h1 h2
    refine hne (word_prefix hw hk.2 h1 ?_ h2).symm
    intro c hc
    cases s0 with
    | nil => exact absurd rfl h0
    | cons a s0 => cases hc; exact h0' _ (List.mem_cons_self ..)

theorem capture_comment {key : Text} (hk : Word key) (hh : key.head? ≠ some '#') (t : Text) : capture key ('#' :: t) = none := by
  cases hc : capture key ('#' :: t) with
  | none => rfl
  | some b =>
    exfalso
    obtain ⟨h1, _⟩ := capture_space hc
    cases key with
    | nil => exact hk.1 rfl
    | cons c k =>
      rw [List.isPrefixOf, Bool.and_eq_true] at h1
      have : c = '#' := by simpa using h1.1
      subst this
      exact hh rfl

/-- What a file of well-formed lines gives. -/
theorem byKey_spec {key : Text} (hk : Word key) (hh : key.head? ≠ some '#') (ls : List Line) (hok : ∀ l ∈ ls, l.ok) :
    byKey key (ls.map Line.text) =
      match firstEntry key ls with
      | none => .nothing
      | some e => if 1 < e.rest.length then .die else if kDbi.isPrefixOf e.dsn then .bits (e.dsn :: e.rest) else .die := by
  induction ls with
  | nil => rfl
  | cons l ls ih =>
    have ih := ih fun x hx => hok x (List.mem_cons_of_mem _ hx)
    have hl := hok l (List.mem_cons_self ..)
    rw [List.map_cons, byKey]
    cases l with
    | comment t =>
      rw [show (Line.comment t).text = '#' :: t from rfl, capture_comment hk hh, firstEntry]
      exact ih
    | entry e x =>
      rw [show (Line.entry e x).text = x from rfl, firstEntry]
      by_cases hek : e.key = key
      · obtain ⟨b, hb, hsp⟩ := capture_hit hl
        rw [hek] at hb
        rw [hb, if_pos hek]
        simp only [hsp, List.length_cons, List.headD_cons]
        by_cases h1 : 1 < e.rest.length
        · rw [if_pos (by simp; omega), if_pos h1]
        · rw [if_neg (by simp; omega), if_neg h1]
      · rw [capture_miss hk hl hek, if_neg hek]
        exact ih

/-- C185: with files of comments and well-formed lines, the key selects its first entry, in the home file if there is one and else in the system file; DSN and user are those of the entry, if there is no password and the
DSN begins with `DBI:`. Without an entry the program dies. -/
theorem choose_partial {key : Text} (hk : Word key) (hh : key.head? ≠ some '#') (home etc : List Line) (h1 : ∀ l ∈ home, l.ok) (h2 : ∀ l ∈ etc, l.ok) (u p : Option Text) :
    (∀ e, (firstEntry key home = some e ∨ firstEntry key home = none ∧ firstEntry key etc = some e) → e.rest.length ≤ 1 → kDbi.isPrefixOf e.dsn = true →
      choose key (home.map Line.text) (etc.map Line.text) u p = some ⟨e.dsn, e.rest.head?, none⟩) ∧
    (firstEntry key home = none → firstEntry key etc = none → choose key (home.map Line.text) (etc.map Line.text) u p = none) := by
  have bits : ∀ e : Entry, e.rest.length ≤ 1 → assign (e.dsn :: e.rest) = some ⟨e.dsn, e.rest.head?, none⟩ := by
    intro e he
    show some (⟨e.dsn, e.rest.head?, e.rest[1]?⟩ : Conn) = _
    rw [List.getElem?_eq_none (by omega)]
  refine ⟨fun e he hl hd => ?_, fun e1 e2 => ?_⟩
  · unfold choose
    rw [byKey_spec hk hh home h1]
    rcases he with he | ⟨he, he'⟩
    · rw [he]
      simp only [if_neg (show ¬ 1 < e.rest.length by omega), if_pos hd]
      exact bits e hl
    · rw [he]
      simp only []
      rw [byKey_spec hk hh etc h2, he']
      simp only [if_neg (show ¬ 1 < e.rest.length by omega), if_pos hd]
      exact bits e hl
  · unfold choose
    rw [byKey_spec hk hh home h1, e1]
    simp only []
    rw [byKey_spec hk hh etc h2, e2]

/-- An entry with user and password, as the usage message describes it. Part of the model of `Mercury.pm:43-87`. -/
def full : Entry := ⟨['k'], ['D', 'B', 'I', ':', 'x'], [['u'], ['p']]⟩

/-- Part of the model of `Mercury.pm:43-87`. -/
def fullLine : Text := ['k', ' ', 'D', 'B', 'I', ':', 'x', ' ', 'u', ' ', 'p']

/-- C185 is false in general: a line with user and password, which the usage message allows, makes the program die. -/
theorem choose_password_false : IsLine full fullLine ∧ choose ['k'] [fullLine] [] none none = none := by
  refine ⟨⟨?_, ?_, ?_, [' '], [[' '], [' ']], ?_, ?_, ?_, ?_, rfl⟩, by decide⟩
  · exact ⟨by decide, by decide⟩
  · exact ⟨by decide, by decide⟩
  · intro x hx
    have : ∀ x ∈ full.rest, x ≠ [] ∧ ∀ c ∈ x, isSpace c = false := by decide
    exact this x hx
  · decide
  · decide
  · decide
  · decide

/-- C185 is false in general: the user and the password of the command line are lost if a key is given too. -/
theorem choose_user_false (u p : Option Text) : choose ['k'] [['k', ' ', 'D', 'B', 'I', ':', 'x']] [] u p = some ⟨['D', 'B', 'I', ':', 'x'], none, none⟩ := by
  show choose ['k'] [['k', ' ', 'D', 'B', 'I', ':', 'x']] [] none none = _
  decide

example : ∃ l, Line.ok l ∧ l.has ['k'] = true := ⟨.entry full fullLine, choose_password_false.1, by decide⟩

example : choose ['k'] [['#', 'k', ' ', 'z'], ['k', 'k', ' ', 'D', 'B', 'I', ':', 'y'], ['k', ' ', ' ', 'D', 'B', 'I', ':', 'x', '\t', 'u', ' ']] [] none none = some ⟨['D', 'B', 'I', ':', 'x'], some ['u'], none⟩ := by decide

end Verif.Mercury.Dsn
