import Verif.DepVC.MtnLog

/-!
# What monotone says about revisions (C222, C223, C224)
-/

namespace Verif.DepVC.MtnLog

open Verif.Deptool.Deps (Text isWord)

/-! ## What monotone prints -/

/-- A line `key: value` of a revision: the key, the space and the value. -/
structure Field where
  key : Text
  pad : Text
  val : Text
deriving DecidableEq, Repr

/-- A revision. -/
structure Commit where
  rev : Text
  fields : List Field
  log : List Text
deriving DecidableEq, Repr

/-- The line between revisions. -/
def line65 : Text := List.replicate 65 '-'

def showField (f : Field) : Text := f.key ++ ':' :: (f.pad ++ f.val)

/-- What `mtn log --no-graph` prints for one revision. -/
def showCommit (c : Commit) : List Text :=
  line65 :: ("Revision: ".toList ++ c.rev) :: (c.fields.map showField ++ [] :: "Changelog: ".toList :: [] :: c.log)

def showLog (cs : List Commit) : List Text := cs.flatMap showCommit

def Space (c : Char) : Prop := c = ' ' ∨ c = '\t' ∨ c = '\n' ∨ c = '\r' ∨ c = '\x0c' ∨ c = '\x0b'
def Blank (l : Text) : Prop := ∀ c ∈ l, Space c
def Rule (l : Text) : Prop := ∃ n, 50 ≤ n ∧ l = List.replicate n '-'
def Hex (c : Char) : Prop := c ∈ "0123456789abcdef".toList
def RevLine (l : Text) : Prop := ∃ r : Text, l = "Revision: ".toList ++ r ∧ r.length = 40 ∧ ∀ c ∈ r, Hex c

/-- Keys are words, there is space after the colon, and values do not start with space. -/
structure FieldOk (f : Field) : Prop where
  key : f.key ≠ []
  word : ∀ c ∈ f.key, isWord c = true
  pad : f.pad ≠ []
  space : ∀ c ∈ f.pad, Space c
  val : ∀ c, f.val.head? = some c → ¬ Space c

/-- As it is in a repository: but no line of the changelog that looks like the start of a revision comes after one of many dashes. -/
structure CommitOk (c : Commit) : Prop where
  len : c.rev.length = 40
  hex : ∀ x ∈ c.rev, Hex x
  fields : ∀ f ∈ c.fields, FieldOk f
  lines : ∀ l ∈ c.log, '\n' ∉ l
  forge : ∀ a d r b, c.log = a ++ d :: r :: b → Rule d → ¬ RevLine r

/-- The values for a key, in the order of the lines. -/
def valuesOf (k : String) (fs : List Field) : List Text := fs.filterMap fun f => if f.key = k.toList then some f.val else none

/-- What is kept of a changelog: not the empty lines at the start, and nothing from the first line of many dashes on. -/
def Kept (log core : List Text) : Prop :=
  ∃ bl post, log = bl ++ core ++ post ∧ (∀ l ∈ bl, Blank l) ∧ (∀ l, core.head? = some l → ¬ Blank l) ∧ (∀ l ∈ bl ++ core, ¬ Rule l) ∧ ∀ p, post.head? = some p → Rule p

/-- What the program should know about a revision. -/
structure Says (c : Commit) (e : Ent) : Prop where
  revision : e.revision = c.rev
  ancestor : e.ancestor = valuesOf "Parent" c.fields
  author : e.author = valuesOf "Author" c.fields
  date : e.date = valuesOf "Date" c.fields
  branch : e.branch = valuesOf "Branch" c.fields ∨ e.branch = ["unknown-branch".toList] ∧ valuesOf "Branch" c.fields ∈ [[], [[]], [['0']]]
  log : ∃ core, Kept c.log core ∧ e.changelog = core.flatMap (· ++ ['\n'])

/-! ## Characters and lines -/

theorem mem_takeWhile {α : Type} {p : α → Bool} {l : List α} {x : α} (h : x ∈ l.takeWhile p) : p x = true := by
  induction l with
  | nil => exact absurd h (by simp)
  | cons a l ih =>
    rw [List.takeWhile_cons] at h
    split at h
    · rename_i ha
      rcases List.mem_cons.mp h with rfl | h
      · exact ha
      · exact ih h
    · exact absurd h (by simp)

theorem takeWhile_self {α : Type} {p : α → Bool} {l : List α} (h : ∀ x ∈ l, p x = true) : l.takeWhile p = l := by
  induction l with
  | nil => rfl
  | cons a l ih => rw [List.takeWhile_cons, if_pos (h a (by simp)), ih fun x hx => h x (List.mem_cons_of_mem _ hx)]

theorem isSpace_iff (c : Char) : isSpace c = true ↔ Space c := by
  unfold isSpace Space
  simp [or_assoc]

theorem blank_iff (l : Text) : blank l = true ↔ Blank l := by
  unfold blank Blank
  rw [List.all_eq_true]
  exact forall_congr' fun c => forall_congr' fun _ => isSpace_iff c

theorem rule_iff (l : Text) : rule l = true ↔ Rule l := by
  unfold rule Rule
  rw [Bool.and_eq_true, decide_eq_true_eq, List.all_eq_true]
  constructor
  · rintro ⟨h, h2⟩
    exact ⟨l.length, h, List.eq_replicate_iff.mpr ⟨rfl, fun b hb => by simpa using h2 b hb⟩⟩
  · rintro ⟨n, h, rfl⟩
    exact ⟨by simpa using h, fun b hb => by simpa using List.eq_of_mem_replicate hb⟩

theorem isHex_iff (c : Char) : isHex c = true ↔ Hex c := by
  unfold isHex Hex
  have hv : ∀ d : Char, c = d ↔ c.toNat = d.toNat := fun d => ⟨fun h => h ▸ rfl, fun h => Char.ext (UInt32.toNat_inj.mp h)⟩
  have hle : ∀ a b : Char, a ≤ b ↔ a.toNat ≤ b.toNat := fun a b => Iff.rfl
  simp only [Bool.or_eq_true, Bool.and_eq_true, decide_eq_true_eq, hle]
  rw [show "0123456789abcdef".toList = ['0', '1', '2', '3', '4', '5', '6', '7', '8', '9', 'a', 'b', 'c', 'd', 'e', 'f'] from rfl]
  simp only [List.mem_cons, List.not_mem_nil, or_false, hv]
  simp only [show '0'.toNat = 48 from rfl, show '1'.toNat = 49 from rfl, show '2'.toNat = 50 from rfl, show '3'.toNat = 51 from rfl, show '4'.toNat = 52 from rfl, show '5'.toNat = 53 from rfl,
    show '6'.toNat = 54 from rfl, show '7'.toNat = 55 from rfl, show '8'.toNat = 56 from rfl, show '9'.toNat = 57 from rfl, show 'a'.toNat = 97 from rfl, show 'b'.toNat = 98 from rfl,
    show 'c'.toNat = 99 from rfl, show 'd'.toNat = 100 from rfl, show 'e'.toNat = 101 from rfl, show 'f'.toNat = 102 from rfl]
  omega

theorem revision_some {r : Text} (hl : r.length = 40) (hh : ∀ c ∈ r, Hex c) : revision ("Revision: ".toList ++ r) = some r := by
  unfold revision
  have e : ("Revision: ".toList ++ r).drop 10 = r := rfl
  rw [e, if_pos]
  simp only [Bool.and_eq_true, decide_eq_true_eq, List.all_eq_true]
  refine ⟨⟨rfl, by rw [List.length_append, hl]; rfl⟩, fun c hc => (isHex_iff c).mpr (hh c hc)⟩

theorem revision_none {l : Text} (h : ¬ RevLine l) : revision l = none := by
  unfold revision
  rw [if_neg]
  intro hc
  simp only [Bool.and_eq_true, decide_eq_true_eq, List.all_eq_true, List.isPrefixOf_iff_prefix] at hc
  obtain ⟨⟨⟨r, rfl⟩, hl⟩, hx⟩ := hc
  refine h ⟨r, rfl, ?_, fun c hc => (isHex_iff c).mp (hx c ?_)⟩
  · rw [List.length_append] at hl
    have : tRevision.length = 10 := rfl
    omega
  · exact hc

theorem rule_not_rev {l : Text} (h : Rule l) : ¬ RevLine l := by
  obtain ⟨n, hn, rfl⟩ := h
  rintro ⟨r, h, -, -⟩
  cases n with
  | zero => omega
  | succ n =>
    rw [List.replicate_succ] at h
    have h2 := congrArg List.head? h
    exact absurd (Option.some.inj h2) (by decide)

theorem rule_dashes {l : Text} (h : Rule l) : dashes l = true := by
  obtain ⟨n, hn, rfl⟩ := h
  unfold dashes
  rw [Bool.and_eq_true, List.all_eq_true]
  refine ⟨?_, fun b hb => by simpa using List.eq_of_mem_replicate hb⟩
  cases n with
  | zero => omega
  | succ n => rfl

theorem line65_rule : Rule line65 := ⟨65, by decide, rfl⟩

theorem span_word (k r : Text) (hk : ∀ c ∈ k, isWord c = true) : (k ++ ':' :: r).takeWhile isWord = k ∧ (k ++ ':' :: r).dropWhile isWord = ':' :: r := by
  induction k with
  | nil => exact ⟨by rw [List.nil_append, List.takeWhile_cons, if_neg (by decide)], by rw [List.nil_append, List.dropWhile_cons, if_neg (by decide)]⟩
  | cons c k ih =>
    have hc := hk c (by simp)
    have := ih fun x hx => hk x (List.mem_cons_of_mem _ hx)
    rw [List.cons_append, List.takeWhile_cons, if_pos hc, List.dropWhile_cons, if_pos hc, this.1, this.2]
    exact ⟨rfl, rfl⟩

theorem drop_pad (p v : Text) (hp : ∀ c ∈ p, Space c) (hv : ∀ c, v.head? = some c → ¬ Space c) : (p ++ v).dropWhile isSpace = v := by
  induction p with
  | nil =>
    cases v with
    | nil => rfl
    | cons c v => rw [List.nil_append, List.dropWhile_cons, if_neg (fun h => hv c rfl ((isSpace_iff c).mp h))]
  | cons c p ih =>
    rw [List.cons_append, List.dropWhile_cons, if_pos ((isSpace_iff c).mpr (hp c (by simp)))]
    exact ih fun x hx => hp x (List.mem_cons_of_mem _ hx)

theorem field_show {f : Field} (h : FieldOk f) : field (showField f) = some (f.key, f.val) := by
  obtain ⟨k, p, v⟩ := f
  obtain ⟨h1, h2, h3, h4, h5⟩ := h
  have hs := span_word k (p ++ v) h2
  unfold field showField
  simp only
  rw [hs.1, hs.2]
  cases k with
  | nil => exact absurd rfl h1
  | cons a k =>
    cases p with
    | nil => exact absurd rfl h3
    | cons s p =>
      have e := drop_pad (s :: p) v h4 h5
      show (if ((s :: p) ++ v = [] ∨ _) then some (a :: k, ((s :: p) ++ v).dropWhile isSpace) else none) = _
      rw [e, if_pos]
      right
      show isSpace s = true
      exact (isSpace_iff s).mpr (h4 s (by simp))

theorem word_not_space {c : Char} (h : isWord c = true) : ¬ Space c := by
  rintro (rfl | rfl | rfl | rfl | rfl | rfl) <;> exact absurd h (by decide)

theorem show_not_blank {f : Field} (h : FieldOk f) : blank (showField f) = false := by
  cases hb : blank (showField f) with
  | false => rfl
  | true =>
    have := (blank_iff _).mp hb
    cases hk : f.key with
    | nil => exact absurd hk h.key
    | cons a k => exact absurd (this a (by simp [showField, hk])) (word_not_space (h.word a (by simp [hk])))

theorem header_show (fs : List Field) (hf : ∀ f ∈ fs, FieldOk f) (rest : List Text) : header (fs.map showField ++ [] :: rest) = some (fs.map fun f => (f.key, f.val), rest) := by
  induction fs with
  | nil => rfl
  | cons f fs ih =>
    have h := hf f (by simp)
    rw [List.map_cons, List.cons_append, header, show_not_blank h, field_show h, ih fun g hg => hf g (List.mem_cons_of_mem _ hg)]
    rfl

theorem values_eq (k : String) (fs : List Field) : values k.toList (fs.map fun f => (f.key, f.val)) = valuesOf k fs := by
  unfold values valuesOf
  induction fs with
  | nil => rfl
  | cons f fs ih =>
    rw [List.map_cons, List.filter_cons, List.filterMap_cons]
    by_cases h : f.key = k.toList
    · rw [if_pos (by simpa using h)]
      simp only [h, if_true, List.map_cons, ih]
    · rw [if_neg (by simpa using h)]
      simp only [h, if_false, ih]

/-! ## The changelog -/

theorem text_eq (ls : List Text) : text ls = ls.flatMap (· ++ ['\n']) := by
  induction ls with
  | nil => rfl
  | cons l ls ih => simp [text, ih]

/-- Space up to its last newline taken away from the start of a text. -/
def trim (t : Text) : Text := since (t.takeWhile isSpace) ++ t.dropWhile isSpace

theorem since_nl (a b : Text) : since (a ++ '\n' :: b) = since b := by
  unfold since
  rw [List.reverse_append, List.reverse_cons, List.append_assoc]
  congr 1
  generalize b.reverse = r
  induction r with
  | nil => simp
  | cons c r ih =>
    rw [List.cons_append, List.takeWhile_cons, List.takeWhile_cons]
    split
    · rw [ih]
    · rfl

theorem since_self {a : Text} (h : '\n' ∉ a) : since a = a := by
  unfold since
  rw [takeWhile_self, List.reverse_reverse]
  intro x hx
  simp only [List.mem_reverse] at hx
  simp only [ne_eq, decide_not, Bool.not_eq_true', decide_eq_false_iff_not]
  rintro rfl
  exact h hx

theorem span_append (p t : Text) (h : ∀ c ∈ p, isSpace c = true) : (p ++ t).takeWhile isSpace = p ++ t.takeWhile isSpace ∧ (p ++ t).dropWhile isSpace = t.dropWhile isSpace := by
  induction p with
  | nil => exact ⟨rfl, rfl⟩
  | cons c p ih =>
    have hc := h c (by simp)
    have := ih fun x hx => h x (List.mem_cons_of_mem _ hx)
    rw [List.cons_append, List.takeWhile_cons, if_pos hc, List.dropWhile_cons, if_pos hc, this.1, this.2]
    exact ⟨rfl, rfl⟩

theorem trim_blank (l t : Text) (h : blank l = true) : trim (l ++ '\n' :: t) = trim t := by
  have hs := span_append (l ++ ['\n']) t (by
    intro c hc
    rcases List.mem_append.mp hc with hc | hc
    · exact List.all_eq_true.mp h c hc
    · rw [List.mem_singleton.mp hc]; rfl)
  rw [List.append_assoc, List.append_assoc] at hs
  unfold trim
  rw [show l ++ '\n' :: t = l ++ (['\n'] ++ t) from rfl, hs.1, hs.2]
  exact congrArg (· ++ _) (since_nl l _)

theorem trim_text (ls : List Text) (hn : ∀ l ∈ ls, '\n' ∉ l) : trim (text ls) = text (ls.dropWhile blank) := by
  induction ls with
  | nil => rfl
  | cons l ls ih =>
    rw [text, List.dropWhile_cons]
    cases hb : blank l with
    | true => rw [trim_blank l _ hb, if_pos rfl]; exact ih fun x hx => hn x (List.mem_cons_of_mem _ hx)
    | false =>
      rw [if_neg (by decide), text]
      have hl := hn l (by simp)
      generalize text ls = t
      have key : ∀ l : Text, '\n' ∉ l → blank l = false → '\n' ∉ (l ++ '\n' :: t).takeWhile isSpace := by
        intro l
        induction l with
        | nil => intro _ h; exact absurd h (by decide)
        | cons c l ih =>
          intro h1 h2
          rw [List.cons_append, List.takeWhile_cons]
          split
          · rename_i hc
            intro hm
            rcases List.mem_cons.mp hm with e | hm
            · exact h1 (by rw [e]; simp)
            · refine ih (fun h => h1 (List.mem_cons_of_mem _ h)) ?_ hm
              rw [← h2]; show _ = (isSpace c && _); rw [hc]; rfl
          · simp
      unfold trim
      rw [since_self (key l hl hb), List.takeWhile_append_dropWhile]

theorem subst_log (ls : List Text) (hn : ∀ l ∈ ls, '\n' ∉ l) : subst (text ("Changelog: ".toList :: [] :: ls)) = text (ls.dropWhile blank) := by
  rw [← trim_text ls hn]
  have e : text ("Changelog: ".toList :: [] :: ls) = 'C' :: ("hangelog: ".toList ++ '\n' :: '\n' :: text ls) := rfl
  have ed : ('C' :: ("hangelog: ".toList ++ '\n' :: '\n' :: text ls)).drop 10 = [' '] ++ '\n' :: ([] ++ '\n' :: text ls) := rfl
  rw [e, subst]
  simp only [ed]
  rw [if_pos]
  · show trim ([' '] ++ '\n' :: ([] ++ '\n' :: text ls)) = _
    rw [trim_blank _ _ rfl, trim_blank _ _ rfl]
  · rw [Bool.and_eq_true]
    refine ⟨rfl, ?_⟩
    rw [show ([' '] ++ '\n' :: ([] ++ '\n' :: text ls)) = ([' ', '\n'] ++ '\n' :: text ls) from rfl, (span_append [' ', '\n'] _ (by decide)).1]
    rfl

/-! ## The loop -/

/-- Without the field that nobody reads. -/
def bare (e : Ent) : Ent := { e with changes := [] }

theorem addChanges_bare (ret : List Ent) (t : Text) : (addChanges ret t).map bare = ret.map bare := by
  unfold addChanges
  cases h : ret.getLast? with
  | none => rfl
  | some e =>
    obtain ⟨ys, rfl⟩ := List.getLast?_eq_some_iff.mp h
    simp [bare]

theorem addChanges_ne {ret : List Ent} (h : ret ≠ []) (t : Text) : addChanges ret t ≠ [] := by
  intro e
  have := congrArg List.length (addChanges_bare ret t)
  rw [e] at this
  simp only [List.map_nil, List.length_nil, List.length_map] at this
  exact h (List.length_eq_zero_iff.mp this.symm)

/-- The rest starts with a line of dashes, if there is one. -/
def Starts (rest : List Text) : Prop := ∀ l, rest.head? = some l → Rule l

theorem drop_starts (rest : List Text) (h : Starts rest) : rest.dropWhile (fun x => !rule x) = rest ∧ rest.takeWhile (fun x => !rule x) = [] := by
  cases rest with
  | nil => exact ⟨rfl, rfl⟩
  | cons l r =>
    have := (rule_iff l).mpr (h l rfl)
    rw [List.dropWhile_cons, List.takeWhile_cons, this]
    exact ⟨rfl, rfl⟩

theorem drop_app (ls rest : List Text) (h : Starts rest) :
    (ls ++ rest).dropWhile (fun x => !rule x) = ls.dropWhile (fun x => !rule x) ++ rest ∧ (ls ++ rest).takeWhile (fun x => !rule x) = ls.takeWhile fun x => !rule x := by
  induction ls with
  | nil => simpa using drop_starts rest h
  | cons l ls ih =>
    rw [List.cons_append, List.dropWhile_cons, List.dropWhile_cons, List.takeWhile_cons, List.takeWhile_cons]
    split
    · exact ⟨ih.1, by rw [ih.2]⟩
    · exact ⟨rfl, rfl⟩

theorem starts_dropWhile (ls : List Text) : Starts (ls.dropWhile fun x => !rule x) := by
  intro l h
  induction ls with
  | nil => exact absurd h (by simp)
  | cons a ls ih =>
    rw [List.dropWhile_cons] at h
    split at h
    · exact ih h
    · rename_i hr
      obtain rfl := Option.some.inj h
      exact (rule_iff _).mp (by simpa using hr)

theorem junk (rest : List Text) (hr : Starts rest) : ∀ (k : Nat) (post : List Text) (ret : List Ent) (n : Nat), post.length ≤ k → Starts post → ret ≠ [] →
    (∀ a d r b, post = a ++ d :: r :: b → Rule d → ¬ RevLine r) → (post ++ rest).length ≤ n →
    ∃ ret' m, ret'.map bare = ret.map bare ∧ ret' ≠ [] ∧ rest.length ≤ m ∧ loop n ret (post ++ rest) = loop m ret' rest := by
  intro k
  induction k with
  | zero =>
    intro post ret n hk _ hne _ hn
    obtain rfl := List.length_eq_zero_iff.mp (by omega : post.length = 0)
    exact ⟨ret, n, rfl, hne, hn, rfl⟩
  | succ k ih =>
    intro post ret n hk hs hne hf hn
    cases post with
    | nil => exact ⟨ret, n, rfl, hne, hn, rfl⟩
    | cons d post =>
      have hd := hs d rfl
      cases n with
      | zero => simp at hn
      | succ n =>
        have hn' : (post ++ rest).length ≤ n := by simpa using hn
        cases hls : post ++ rest with
        | nil =>
          obtain ⟨rfl, rfl⟩ := List.append_eq_nil_iff.mp hls
          refine ⟨addChanges ret d, 0, addChanges_bare ret d, addChanges_ne hne d, by simp, ?_⟩
          show loop (n + 1) ret [d] = loop 0 (addChanges ret d) []
          simp only [loop, rule_dashes hd, Bool.not_true, Bool.false_eq_true, if_false, hne]
        | cons r ls =>
          have hrev : revision r = none := by
            apply revision_none
            cases post with
            | nil =>
              rw [List.nil_append] at hls
              exact rule_not_rev (hr r (by rw [hls]; rfl))
            | cons p post =>
              obtain ⟨rfl, -⟩ := List.cons.inj hls
              exact hf [] d p post rfl hd
          have hstep : loop (n + 1) ret (d :: post ++ rest) = loop n (addChanges ret d) (post.dropWhile (fun x => !rule x) ++ rest) := by
            rw [← (drop_app post rest hr).1, List.cons_append, hls, loop, rule_dashes hd]
            simp only [Bool.not_true, Bool.false_eq_true, if_false, hne, hrev]
          rw [hstep]
          have hlen : (post.dropWhile fun x => !rule x).length ≤ post.length := (List.dropWhile_sublist _).length_le
          obtain ⟨pre, hpre⟩ := List.dropWhile_suffix (p := fun x => !rule x) (l := post)
          obtain ⟨ret', m, h1, h2, h3, h4⟩ := ih (post.dropWhile fun x => !rule x) (addChanges ret d) n (by simp at hk; omega) (starts_dropWhile post) (addChanges_ne hne d)
            (fun a x r b e hx => hf (d :: pre ++ a) x r b (by
              have : post = pre ++ (a ++ x :: r :: b) := by rw [← e, hpre]
              rw [this]; simp) hx) (by simp at hn' ⊢; omega)
          exact ⟨ret', m, h1.trans (addChanges_bare ret d), h2, h3, h4⟩

/-- The entry for a revision. -/
def entOf (c : Commit) : Ent := mkEnt c.rev (c.fields.map fun f => (f.key, f.val)) ("Changelog: ".toList :: [] :: c.log.takeWhile fun x => !rule x)

theorem starts_log (cs : List Commit) : Starts (showLog cs) := by
  intro l h
  cases cs with
  | nil => exact absurd h (by simp [showLog])
  | cons c cs =>
    have : (showLog (c :: cs)).head? = some line65 := rfl
    rw [this] at h
    obtain rfl := Option.some.inj h
    exact line65_rule

theorem loop_log (cs : List Commit) (hc : ∀ c ∈ cs, CommitOk c) : ∀ (ret : List Ent) (n : Nat), (showLog cs).length ≤ n →
    ∃ es, loop n ret (showLog cs) = .ok es ∧ es.map bare = ret.map bare ++ cs.map entOf := by
  induction cs with
  | nil =>
    intro ret n _
    refine ⟨ret, ?_, by simp⟩
    show loop n ret [] = _
    rw [loop.eq_def]
  | cons c cs ih =>
    intro ret n hn
    have h := hc c (by simp)
    have hst := starts_log cs
    have e : showLog (c :: cs) = line65 :: ("Revision: ".toList ++ c.rev) :: (c.fields.map showField ++ [] :: ("Changelog: ".toList :: [] :: (c.log ++ showLog cs))) := by
      show showCommit c ++ showLog cs = _
      simp [showCommit]
    rw [e] at hn ⊢
    cases n with
    | zero => simp at hn
    | succ n =>
      have hnr : ∀ x : Text, x.length < 50 → rule x = false := by
        intro x hx
        unfold rule
        rw [decide_eq_false (by omega)]; rfl
      have e1 : loop (n + 1) ret (line65 :: ("Revision: ".toList ++ c.rev) :: (c.fields.map showField ++ [] :: ("Changelog: ".toList :: [] :: (c.log ++ showLog cs)))) =
          loop n (ret ++ [entOf c]) ((c.log.dropWhile fun x => !rule x) ++ showLog cs) := by
        rw [loop, rule_dashes line65_rule]
        simp only [Bool.not_true, Bool.false_eq_true, if_false, revision_some h.len h.hex, header_show c.fields h.fields]
        rw [List.takeWhile_cons, hnr _ (by decide), List.takeWhile_cons, hnr _ (by decide), List.dropWhile_cons, hnr _ (by decide), List.dropWhile_cons, hnr _ (by decide),
          (drop_app c.log _ hst).1, (drop_app c.log _ hst).2]
        rfl
      rw [e1]
      obtain ⟨pre, hpre⟩ := List.dropWhile_suffix (p := fun x => !rule x) (l := c.log)
      have hlen : (c.log.dropWhile fun x => !rule x).length ≤ c.log.length := (List.dropWhile_sublist _).length_le
      obtain ⟨ret', m, h1, h2, h3, h4⟩ := junk (showLog cs) hst _ (c.log.dropWhile fun x => !rule x) (ret ++ [entOf c]) n (Nat.le_refl _) (starts_dropWhile _) (by simp)
        (fun a x r b e hx => h.forge (pre ++ a) x r b (by
          have : c.log = pre ++ (a ++ x :: r :: b) := by rw [← e, hpre]
          rw [this]; simp) hx) (by simp at hn ⊢; omega)
      obtain ⟨es, h5, h6⟩ := ih (fun x hx => hc x (List.mem_cons_of_mem _ hx)) ret' m h3
      refine ⟨es, h4.trans h5, ?_⟩
      rw [h6, h1]
      simp [bare, entOf, mkEnt]

theorem kept (log : List Text) : Kept log ((log.takeWhile fun x => !rule x).dropWhile blank) := by
  refine ⟨(log.takeWhile fun x => !rule x).takeWhile blank, log.dropWhile fun x => !rule x, ?_, ?_, ?_, ?_, starts_dropWhile log⟩
  · rw [List.takeWhile_append_dropWhile, List.takeWhile_append_dropWhile]
  · intro l hl
    exact (blank_iff l).mp (mem_takeWhile hl)
  · intro l hl hb
    generalize (log.takeWhile fun x => !rule x) = ls at hl
    induction ls with
    | nil => exact absurd hl (by simp)
    | cons a ls ih =>
      rw [List.dropWhile_cons] at hl
      split at hl
      · exact ih hl
      · rename_i h
        obtain rfl := Option.some.inj hl
        exact h ((blank_iff _).mpr hb)
  · rw [List.takeWhile_append_dropWhile]
    intro l hl hr
    have := mem_takeWhile hl
    rw [(rule_iff l).mpr hr] at this
    exact absurd this (by decide)

theorem says_of (c : Commit) (h : CommitOk c) {e : Ent} (he : bare e = entOf c) : Says c e := by
  have h1 : e.revision = (bare e).revision := rfl
  have h2 : e.ancestor = (bare e).ancestor := rfl
  have h3 : e.author = (bare e).author := rfl
  have h4 : e.date = (bare e).date := rfl
  have h5 : e.branch = (bare e).branch := rfl
  have h6 : e.changelog = (bare e).changelog := rfl
  rw [he] at h1 h2 h3 h4 h5 h6
  refine ⟨h1, h2.trans (values_eq "Parent" c.fields), h3.trans (values_eq "Author" c.fields), h4.trans (values_eq "Date" c.fields), ?_, _, kept c.log, ?_⟩
  · have h5' : e.branch = orUnknown (valuesOf "Branch" c.fields) := h5.trans (congrArg orUnknown (values_eq "Branch" c.fields))
    rw [h5']
    unfold orUnknown
    split
    · rename_i hb
      right
      refine ⟨rfl, ?_⟩
      rcases hb with hb | hb | hb <;> simp [hb]
    · left; rfl
  · rw [h6, ← text_eq]
    exact subst_log _ fun l hl => h.lines l ((List.takeWhile_sublist _).subset hl)

/-- C222. Whatever the changelogs contain, except for a forged start of a revision: each revision that monotone prints is returned once, in the order of the log, with all its parents, authors, dates and branches,
and with its changelog up to the first line of fifty or more dashes. -/
theorem mtnlog_parse_partial (cs : List Commit) (hc : ∀ c ∈ cs, CommitOk c) : ∃ es, parse (showLog cs) = .ok es ∧ es.length = cs.length ∧ ∀ (i : Nat) c e, cs[i]? = some c → es[i]? = some e → Says c e := by
  obtain ⟨es, h1, h2⟩ := loop_log cs hc [] ((showLog cs).length + 1) (by omega)
  simp only [List.map_nil, List.nil_append] at h2
  refine ⟨es, h1, by simpa using congrArg List.length h2, fun i c e hi he => ?_⟩
  refine says_of c (hc c (List.mem_of_getElem? hi)) ?_
  have := congrArg (·[i]?) h2
  simp only [List.getElem?_map, hi, he, Option.map_some] at this
  exact Option.some.inj this

/-- Without such lines the changelog is whole, but for empty lines at its start. -/
theorem mtnlog_whole (log core : List Text) (h : Kept log core) (hr : ∀ l ∈ log, ¬ Rule l) : ∃ bl, log = bl ++ core ∧ (∀ l ∈ bl, Blank l) ∧ ∀ l, core.head? = some l → ¬ Blank l := by
  obtain ⟨bl, post, e, h1, h2, -, h4⟩ := h
  cases post with
  | nil => exact ⟨bl, by simpa using e, h1, h2⟩
  | cons p post => exact absurd (h4 p rfl) (hr p (by rw [e]; simp))

/-! ## Cases -/

def rev1 : Text := List.replicate 40 'a'
def rev2 : Text := List.replicate 40 '7'
def who : Field := ⟨"Author".toList, "   ".toList, "eric@x".toList⟩
def branch : Field := ⟨"Branch".toList, "   ".toList, "x/Lintel".toList⟩
def merged : Field := ⟨"Branch".toList, "   ".toList, "x/Lintel.new".toList⟩
def root : Field := ⟨"Parent".toList, "   ".toList, []⟩
def dash60 : Text := List.replicate 60 '-'

theorem rule_second {log pre : List Text} {d r : Text} {b : List Text} (h : log = pre ++ d :: r :: b) : r ∈ log.tail := by
  rw [h]
  cases pre with
  | nil => simp
  | cons p pre => simp

theorem revline_head {l : Text} (h : RevLine l) : l.head? = some 'R' := by
  obtain ⟨r, rfl, -⟩ := h
  rfl

theorem commit_ok {c : Commit} (h1 : c.rev = rev1 ∨ c.rev = rev2) (h2 : ∀ f ∈ c.fields, f = who ∨ f = branch ∨ f = merged ∨ f = root) (h3 : ∀ l ∈ c.log, '\n' ∉ l) (h4 : ∀ l ∈ c.log.tail, l.head? ≠ some 'R') : CommitOk c := by
  refine ⟨by rcases h1 with h | h <;> rw [h] <;> rfl, ?_, ?_, h3, fun a d r b e _ hr => h4 r (rule_second e) (revline_head hr)⟩
  · intro x hx
    rcases h1 with h | h <;> rw [h] at hx <;> rw [List.eq_of_mem_replicate hx] <;> unfold Hex <;> decide
  · intro f hf
    rcases h2 f hf with rfl | rfl | rfl | rfl <;> exact ⟨by decide, by decide, by decide, by unfold Space; decide, by unfold Space; decide⟩

/-- Two revisions, the first of them in two branches and with dashes in its changelog. -/
example : ∀ c ∈ [⟨rev1, [who, branch, merged], ["".toList, "fix".toList, dash60, "more".toList]⟩, ⟨rev2, [root, who, branch], ["first".toList]⟩], CommitOk c := by
  intro c hc
  simp only [List.mem_cons, List.not_mem_nil, or_false] at hc
  rcases hc with rfl | rfl
  · exact commit_ok (Or.inl rfl) (by decide) (by decide) (by decide)
  · exact commit_ok (Or.inr rfl) (by decide) (by decide) (by decide)

set_option maxRecDepth 8000 in
example : parse (showLog [⟨rev1, [who, branch, merged], ["".toList, "fix".toList, dash60, "more".toList]⟩, ⟨rev2, [root, who, branch], ["first".toList]⟩]) =
    .ok [⟨rev1, [], ["eric@x".toList], [], ["x/Lintel".toList, "x/Lintel.new".toList], "fix\n".toList, dash60⟩, ⟨rev2, [[]], ["eric@x".toList], [], ["x/Lintel".toList], "first\n".toList, []⟩] := by rfl

set_option maxRecDepth 8000 in
/-- C222 is false for changelogs with a long line of dashes: what is after it is lost. -/
theorem mtnlog_dashes_false : ∃ c, CommitOk c ∧ c.log = ["fix".toList, dash60, "bug 17".toList] ∧ ∃ e, parse (showLog [c]) = .ok [e] ∧ e.changelog = "fix\n".toList ∧ e.changes = dash60 :=
  ⟨⟨rev1, [who, branch], ["fix".toList, dash60, "bug 17".toList]⟩, commit_ok (Or.inl rfl) (by decide) (by decide) (by decide), rfl, _, rfl, rfl, rfl⟩

set_option maxRecDepth 8000 in
/-- … and a changelog can bring in a revision that does not exist. -/
theorem mtnlog_forged_false : ∃ c : Commit, c.rev = rev1 ∧ c.log = ["fix".toList, dash60, "Revision: ".toList ++ rev2, "Author: me".toList] ∧ ∃ e f, parse (showLog [c]) = .ok [e, f] ∧ f.revision = rev2 ∧ f.author = ["me".toList] :=
  ⟨⟨rev1, [who, branch], ["fix".toList, dash60, "Revision: ".toList ++ rev2, "Author: me".toList]⟩, rfl, rfl, _, _, rfl, rfl, rfl⟩

set_option maxRecDepth 8000 in
/-- … or stop the program. -/
theorem mtnlog_dies_false : ∃ c : Commit, c.rev = rev1 ∧ c.log = [dash60, "Revision: ".toList ++ rev2, "is what I mean".toList] ∧ parse (showLog [c]) = .die :=
  ⟨⟨rev1, [who, branch], [dash60, "Revision: ".toList ++ rev2, "is what I mean".toList]⟩, rfl, rfl, rfl⟩

end Verif.DepVC.MtnLog
