import Verif.Mercury.Sql

/-!
# Model and properties of the reading of commands by `mercury-plot` (C182, C183; src/mercury-plot.in, lines 133-157, 211-350, 759-799)
-/

namespace Verif.Mercury.Cmd

/-! ## Model: one line -/

/-- Used in the model of `mercury-plot.in:235-349` (`command`). -/
def kDefine : Text := ['d', 'e', 'f', 'i', 'n', 'e']
/-- Used in the model of `mercury-plot.in:235-349` (`command`). -/
def kEnddefine : Text := ['e', 'n', 'd', 'd', 'e', 'f', 'i', 'n', 'e']
/-- Used in the model of `mercury-plot.in:298` (`skipto`). -/
def kSkipto : Text := ['h', 'i', 's', 't', 'o', 'r', 'y', ' ', 's', 'k', 'i', 'p', 't', 'o', ' ']
/-- Used in the model of `mercury-plot.in:300` (`isMarker`). -/
def kMarker : Text := ['h', 'i', 's', 't', 'o', 'r', 'y', ' ', 'm', 'a', 'r', 'k', 'e', 'r', ' ']

/-- What happens. Not a function of the code; stands for the uses of `mercury-plot.in:235-349`. -/
inductive Ev where
  /-- a command is carried out, or is not known -/
  | exec (cmd : Text)
  /-- a block of code is evaluated (line 324) -/
  | block (lines : List Text)
  /-- `Not in define mode!` (line 321) -/
  | stray
deriving DecidableEq, Repr

/-- `$define_mode`, `@define`, `$Global::continuation_cmd`, `$markerre` (the word in it), and what happened, oldest first. Not a function of the code; stands for the uses of `mercury-plot.in:211-349`. -/
structure St where
  defining : Bool
  define : List Text
  cont : Text
  marker : Option Text
  log : List Ev
deriving DecidableEq, Repr

/-- Made of the parts of `mercury-plot.in:211-349`. -/
def st0 : St := ⟨false, [], [], none, []⟩

/-- `s/^\s+//` (line 244). -/
def trim (t : Text) : Text := t.dropWhile isSpace

/-- `s/^\s+/ /` (line 223). -/
def squeeze (t : Text) : Text :=
  match t with
  | [] => []
  | c :: _ => if isSpace c then ' ' :: trim t else t

/-- `s/\\\s*$//` (line 225): `none` if there is no match. -/
def stripCont (t : Text) : Option Text :=
  match t.reverse.dropWhile isSpace with
  | '\\' :: r => some r.reverse
  | _ => none

/-- `/^history skipto (\w+)\s*$/` (line 298). -/
def skipto (t : Text) : Option Text :=
  if kSkipto.isPrefixOf t then
    let r := t.drop kSkipto.length
    let w := r.takeWhile isWord
    if !w.isEmpty && (r.dropWhile isWord).all isSpace then some w else none
  else none

/-- `/^\s*history marker $marker\s*$/` (lines 300, 236), for a text without the leading space. -/
def isMarker (m t : Text) : Bool := (kMarker ++ m).isPrefixOf t && (t.drop (kMarker ++ m).length).all isSpace

/-- Line 334: nothing or a comment. -/
def ignored (t : Text) : Bool := t.isEmpty || t.head? == some '#'

/-- The whole command (lines 235-349). The commands other than `define`, `enddefine` and `history skipto` are not modelled here: they are `exec`. -/
def command (s : St) (t : Text) : St :=
  match s.marker with
  | some m => if isMarker m (trim t) then { s with marker := none } else s
  | none =>
    let t := trim t
    if t = kDefine then { s with defining := true }
    else if t = kEnddefine then
      if s.defining then { s with defining := false, define := [], log := s.log ++ [.block s.define] } else { s with log := s.log ++ [.stray] }
    else match skipto t with
      | some m => { s with marker := some m }
      | none => if ignored t then s else { s with log := s.log ++ [.exec t] }

/-- `docmd` (lines 211-233). -/
def docmd (s : St) (line : Text) : St :=
  if s.defining && !(line == kEnddefine) then { s with define := s.define ++ [line] }
  else
    let line := if s.cont.isEmpty then line else squeeze line
    match stripCont line with
    | some r => { s with cont := s.cont ++ r }
    | none => command { s with cont := [] } (s.cont ++ line)

/-- Not a function of the code; stands for the uses of `mercury-plot.in:211-233`. -/
def run : St → List Text → St
  | s, [] => s
  | s, l :: ls => run (docmd s l) ls

/-! ## Specification -/

/-- A part of a script. -/
inductive Item where
  /-- a command, all lines but the last with a backslash and spaces at the end -/
  | cmd (heads : List (Text × Text)) (last : Text)
  /-- a block of code between `define` and `enddefine` -/
  | block (lines : List Text)

/-- The lines of the script. -/
def Item.lines : Item → List Text
  | .cmd heads last => heads.map (fun p => p.1 ++ '\\' :: p.2) ++ [last]
  | .block ls => kDefine :: ls ++ [kEnddefine]

/-- The whole command: the lines put together, with the space before all but the first reduced to one character, and without the space before it. -/
def joined (heads : List (Text × Text)) (last : Text) : Text :=
  match heads with
  | [] => trim last
  | h :: hs => trim (h.1 ++ (hs.map fun p => squeeze p.1).flatten ++ squeeze last)

/-- The script and what it means: commands after `history skipto` up to the marker are left out. -/
def meaning : Option Text → List Item → List Ev
  | _, [] => []
  | some m, .cmd hs l :: is => meaning (if isMarker m (joined hs l) then none else some m) is
  | some m, .block _ :: is => meaning (some m) is
  | none, .block ls :: is => .block ls :: meaning none is
  | none, .cmd hs l :: is =>
    match skipto (joined hs l) with
    | some m => meaning (some m) is
    | none => if ignored (joined hs l) then meaning none is else .exec (joined hs l) :: meaning none is

/-- The marker that is looked for after an item. -/
def after : Option Text → Item → Option Text
  | some m, .cmd hs l => if isMarker m (joined hs l) then none else some m
  | some m, .block _ => some m
  | none, .block _ => none
  | none, .cmd hs l => skipto (joined hs l)

/-- Proper scripts: backslashes continue lines, `define` and `enddefine` are used for blocks only; a block that is left out has no line that ends with a backslash or is the marker. -/
def Proper : Option Text → List Item → Prop
  | _, [] => True
  | o, i :: is =>
    (match i with
      | .cmd hs l => (∀ p ∈ hs, ∀ c ∈ p.2, isSpace c = true) ∧ stripCont l = none ∧ joined hs l ≠ kDefine ∧ joined hs l ≠ kEnddefine
      | .block ls => (∀ l ∈ ls, l ≠ kEnddefine) ∧ ∀ m, o = some m → ∀ l ∈ ls, stripCont l = none ∧ isMarker m (trim l) = false) ∧
    Proper (after o i) is

/-! ## Proofs -/

theorem trim_append (a b : Text) : trim (a ++ b) = if a.all isSpace then trim b else trim a ++ b := by
  unfold trim
  induction a with
  | nil => simp
  | cons c a ih =>
    rw [List.cons_append, List.dropWhile_cons, List.dropWhile_cons, List.all_cons]
    cases h : isSpace c with
    | true => simpa using ih
    | false => simp

theorem dropWhile_nil_iff {l : Text} : l.dropWhile isSpace = [] ↔ ∀ c ∈ l, isSpace c = true := by
  induction l with
  | nil => simp
  | cons c l ih =>
    rw [List.dropWhile_cons]
    cases h : isSpace c with
    | true => simpa [h] using ih
    | false => simp [h]

theorem trim_trim (t : Text) : trim (trim t) = trim t := by
  induction t with
  | nil => rfl
  | cons c t ih =>
    unfold trim at ih ⊢
    rw [List.dropWhile_cons]
    cases h : isSpace c with
    | true => simpa using ih
    | false => simp [h]

theorem trim_squeeze (t : Text) : trim (squeeze t) = trim t := by
  unfold squeeze
  cases t with
  | nil => rfl
  | cons c r =>
    simp only []
    split
    · rw [show ' ' :: trim (c :: r) = [' '] ++ trim (c :: r) from rfl, trim_append, if_pos (by decide)]
      exact trim_trim _
    · rfl

theorem squeeze_append (p r : Text) : squeeze (p ++ '\\' :: r) = squeeze p ++ '\\' :: r := by
  unfold squeeze
  cases p with
  | nil => rw [List.nil_append]; simp [show isSpace '\\' = false from by decide]
  | cons c p =>
    rw [List.cons_append]
    simp only []
    split
    · rw [← List.cons_append, trim_append]
      split
      · rename_i h
        have : trim (c :: p) = [] := by
          unfold trim
          rw [dropWhile_nil_iff]
          simpa using h
        rw [this]
        unfold trim
        rw [List.dropWhile_cons, show isSpace '\\' = false from by decide]
        rfl
      · rfl
    · rfl

theorem stripCont_back (p r : Text) (hr : ∀ c ∈ r, isSpace c = true) : stripCont (p ++ '\\' :: r) = some p := by
  unfold stripCont
  have : (p ++ '\\' :: r).reverse.dropWhile isSpace = '\\' :: p.reverse := by
    rw [List.reverse_append, List.reverse_cons, List.append_assoc, List.dropWhile_append_of_pos (by intro c hc; exact hr c (by simpa using hc))]
    show List.dropWhile isSpace ('\\' :: p.reverse) = _
    rw [List.dropWhile_cons, show isSpace '\\' = false from by decide]
    rfl
  rw [this]
  simp

theorem stripCont_blank (w t : Text) (hw : w.all isSpace = true) : stripCont t = none → stripCont (w ++ t) = none := by
  intro h
  have key : ∀ x : Text, stripCont x = none ↔ (x.reverse.dropWhile isSpace).head? ≠ some '\\' := by
    intro x
    unfold stripCont
    cases hx : x.reverse.dropWhile isSpace with
    | nil => simp
    | cons c r =>
      by_cases hc : c = '\\'
      · subst hc; simp
      · simp only [List.head?_cons, ne_eq, Option.some.injEq, hc, not_false_iff, iff_true]
        split
        · rename_i heq; cases heq; exact absurd rfl hc
        · rfl
  rw [key] at h ⊢
  rw [List.reverse_append]
  by_cases ht : t.reverse.all isSpace = true
  · rw [List.dropWhile_append_of_pos (by intro c hc; exact List.all_eq_true.mp ht c hc)]
    have : w.reverse.dropWhile isSpace = [] := by
      rw [dropWhile_nil_iff]
      intro c hc
      exact List.all_eq_true.mp hw c (by simpa using hc)
    rw [this]; simp
  · have := trim_append t.reverse w.reverse
    unfold trim at this
    rw [this, if_neg ht]
    have hne : t.reverse.dropWhile isSpace ≠ [] := by
      intro h0
      rw [dropWhile_nil_iff] at h0
      exact ht (List.all_eq_true.mpr h0)
    rw [List.head?_append, List.head?_eq_some_head hne] 
    rw [List.head?_eq_some_head hne] at h
    exact h

theorem squeeze_split (t : Text) : ∃ w w' : Text, w.all isSpace = true ∧ w'.all isSpace = true ∧ t = w ++ trim t ∧ squeeze t = w' ++ trim t := by
  refine ⟨t.takeWhile isSpace, ?_⟩
  cases t with
  | nil => exact ⟨[], rfl, rfl, rfl, rfl⟩
  | cons c r =>
    have h1 : ((c :: r).takeWhile isSpace).all isSpace = true := List.all_takeWhile
    have h2 : c :: r = (c :: r).takeWhile isSpace ++ trim (c :: r) := (List.takeWhile_append_dropWhile).symm
    by_cases hc : isSpace c = true
    · refine ⟨[' '], h1, by decide, h2, ?_⟩
      unfold squeeze
      simp [hc]
    · refine ⟨[], h1, rfl, h2, ?_⟩
      unfold squeeze trim
      simp [hc]

theorem stripCont_squeeze {t : Text} (h : stripCont t = none) : stripCont (squeeze t) = none := by
  obtain ⟨w, w', h1, h2, h3, h4⟩ := squeeze_split t
  rw [h4]
  refine stripCont_blank _ _ h2 ?_
  -- the text after the space of a text without continuation has none
  cases hs : stripCont (trim t) with
  | none => rfl
  | some r =>
    exfalso
    unfold stripCont at hs
    split at hs
    · rename_i x hx
      have : stripCont t ≠ none := by
        unfold stripCont
        rw [h3, List.reverse_append]
        have ha := trim_append (trim t).reverse w.reverse
        unfold trim at ha hx
        unfold trim
        rw [ha, if_neg, hx]
        · simp
        · intro hall
          have hn : (List.dropWhile isSpace t).reverse.dropWhile isSpace = [] := by
            rw [dropWhile_nil_iff]
            exact List.all_eq_true.mp hall
          rw [hn] at hx
          cases hx
      exact this h
    · cases hs

/-- The lines of a command after the first: what was collected may differ from the text of the specification in the space before it. -/
theorem run_heads (s : St) (hd : s.defining = false) (hs : List (Text × Text)) (hsp : ∀ p ∈ hs, ∀ c ∈ p.2, isSpace c = true) (last : Text) (hl : stripCont last = none) (pre : Text)
    (hpre : trim s.cont = trim pre) (rest : List Text) :
    run s (hs.map (fun p => p.1 ++ '\\' :: p.2) ++ last :: rest) = run (command { s with cont := [] } (trim (pre ++ (hs.map fun p => squeeze p.1).flatten ++ squeeze last))) rest := by
  have hcomb : ∀ (a b x y : Text), trim a = trim b → trim x = trim y → (a.all isSpace = false → x = y) → trim (a ++ x) = trim (b ++ y) := by
    intro a b x y hab hxy hx
    rw [trim_append, trim_append]
    have hall : a.all isSpace = b.all isSpace := by
      have h1 : ∀ z : Text, z.all isSpace = (trim z).isEmpty := by
        intro z
        unfold trim
        rw [Bool.eq_iff_iff, List.isEmpty_iff, dropWhile_nil_iff, List.all_eq_true]
      rw [h1, h1, hab]
    rw [hall]
    split
    · exact hxy
    · rename_i h
      rw [hab, hx (by rw [hall]; simpa using h)]
  have hcommand : ∀ (s : St) (t u : Text), trim t = trim u → command s t = command s u := by
    intro s t u h
    unfold command
    rw [h]
  have htrim := trim_trim
  induction hs generalizing s pre with
  | nil =>
    show run (docmd s last) rest = _
    unfold docmd
    rw [hd]
    simp only [Bool.false_and, Bool.false_eq_true, if_false, List.map_nil, List.flatten_nil, List.append_nil]
    congr 1
    by_cases hc : s.cont.isEmpty = true
    · rw [if_pos hc, hl]
      simp only []
      have hc' : s.cont = [] := by simpa using hc
      refine hcommand _ _ _ ?_
      rw [htrim]
      refine hcomb _ _ _ _ hpre (trim_squeeze last).symm ?_
      rw [hc']; simp
    · rw [if_neg hc, stripCont_squeeze hl]
      simp only []
      refine hcommand _ _ _ ?_
      rw [htrim]
      exact hcomb _ _ _ _ hpre rfl fun _ => rfl
  | cons p hs ih =>
    show run (docmd s (p.1 ++ '\\' :: p.2)) (hs.map (fun p => p.1 ++ '\\' :: p.2) ++ last :: rest) = _
    have hdoc : ∃ r, docmd s (p.1 ++ '\\' :: p.2) = { s with cont := s.cont ++ r } ∧ trim (s.cont ++ r) = trim (pre ++ squeeze p.1) := by
      unfold docmd
      rw [hd]
      simp only [Bool.false_and, Bool.false_eq_true, if_false]
      by_cases hc : s.cont.isEmpty = true
      · rw [if_pos hc, stripCont_back _ _ (hsp p (List.mem_cons_self ..))]
        refine ⟨p.1, rfl, hcomb _ _ _ _ hpre (trim_squeeze _).symm ?_⟩
        have hc' : s.cont = [] := by simpa using hc
        rw [hc']; simp
      · rw [if_neg hc, squeeze_append, stripCont_back _ _ (hsp p (List.mem_cons_self ..))]
        exact ⟨squeeze p.1, rfl, hcomb _ _ _ _ hpre rfl fun _ => rfl⟩
    obtain ⟨r, h1, h2⟩ := hdoc
    rw [h1, ih { s with cont := s.cont ++ r } hd (fun q hq => hsp q (List.mem_cons_of_mem _ hq)) (pre ++ squeeze p.1) h2]
    simp only [List.map_cons, List.flatten_cons, List.append_assoc]

theorem run_joined (s : St) (hd : s.defining = false) (hc : s.cont = []) (hs : List (Text × Text)) (hsp : ∀ p ∈ hs, ∀ c ∈ p.2, isSpace c = true) (last : Text) (hl : stripCont last = none)
    (rest : List Text) : run s ((Item.cmd hs last).lines ++ rest) = run (command s (joined hs last)) rest := by
  have hs0 : ({ s with cont := [] } : St) = s := by cases s; cases hc; rfl
  have htrim : ∀ t : Text, command s (trim t) = command s t := by
    intro t
    unfold command
    rw [trim_trim]
  show run s ((hs.map (fun p => p.1 ++ '\\' :: p.2) ++ [last]) ++ rest) = _
  rw [List.append_assoc, List.singleton_append]
  cases hs with
  | nil =>
    show run (docmd s last) rest = run (command s (trim last)) rest
    unfold docmd
    rw [hd, hc, htrim]
    simp only [Bool.false_and, Bool.false_eq_true, if_false, List.isEmpty_nil, if_true]
    rw [hl]
    simp only [List.nil_append]
    rw [← hd, hs0]
  | cons p hs =>
    show run (docmd s (p.1 ++ '\\' :: p.2)) (hs.map (fun p => p.1 ++ '\\' :: p.2) ++ last :: rest) = _
    have h1 : docmd s (p.1 ++ '\\' :: p.2) = { s with cont := p.1 } := by
      unfold docmd
      rw [hd, hc]
      simp only [Bool.false_and, Bool.false_eq_true, if_false, List.isEmpty_nil, if_true]
      rw [stripCont_back _ _ (hsp p (List.mem_cons_self ..))]
      simp
    rw [h1, run_heads { s with cont := p.1 } hd hs (fun q hq => hsp q (List.mem_cons_of_mem _ hq)) last hl p.1 rfl rest]
    show run (command { s with cont := [] } _) rest = _
    rw [hs0, joined]

theorem run_define (s : St) (hd : s.defining = true) (ls : List Text) (h : ∀ l ∈ ls, l ≠ kEnddefine) (rest : List Text) :
    run s (ls ++ rest) = run { s with define := s.define ++ ls } rest := by
  induction ls generalizing s with
  | nil => cases s; simp
  | cons l ls ih =>
    show run (docmd s l) (ls ++ rest) = _
    have : docmd s l = { s with define := s.define ++ [l] } := by
      unfold docmd
      rw [hd, if_pos]
      simpa using h l (List.mem_cons_self ..)
    rw [this, ih { s with define := s.define ++ [l] } hd (fun k hk => h k (List.mem_cons_of_mem _ hk))]
    simp

theorem run_skipped (s : St) (hd : s.defining = false) (hc : s.cont = []) {m : Text} (hm : s.marker = some m) (ls : List Text) (h : ∀ l ∈ ls, stripCont l = none ∧ isMarker m (trim l) = false)
    (rest : List Text) : run s (ls ++ rest) = run s rest := by
  induction ls with
  | nil => rfl
  | cons l ls ih =>
    show run (docmd s l) (ls ++ rest) = _
    obtain ⟨h1, h2⟩ := h l (List.mem_cons_self ..)
    have : docmd s l = s := by
      unfold docmd
      rw [hd, hc]
      simp only [Bool.false_and, Bool.false_eq_true, if_false, List.isEmpty_nil, if_true]
      rw [h1]
      simp only [List.nil_append]
      unfold command
      simp only [hm]
      rw [if_neg (by rw [h2]; simp)]
      obtain ⟨d, df, c, mk, lg⟩ := s
      simp only at hd hc hm
      subst hd hc hm
      rfl
    rw [this]
    exact ih fun k hk => h k (List.mem_cons_of_mem _ hk)

/-- C182: a proper script has the effect it describes: continued lines are one command, blocks of code are taken as they are, and what is between `history skipto` and its marker is left out;
afterwards nothing is pending. -/
theorem script_partial (is : List Item) (s : St) (hd : s.defining = false) (hc : s.cont = []) (hdf : s.define = []) (h : Proper s.marker is) :
    (run s (is.flatMap Item.lines)).log = s.log ++ meaning s.marker is ∧ (run s (is.flatMap Item.lines)).defining = false ∧ (run s (is.flatMap Item.lines)).cont = [] := by
  induction is generalizing s with
  | nil => cases hm : s.marker <;> exact ⟨by simp [run, meaning], hd, hc⟩
  | cons i is ih =>
    rw [List.flatMap_cons]
    obtain ⟨h1, h2⟩ := h
    have htt : ∀ hs l, trim (joined hs l) = joined hs l := by
      intro hs l
      unfold joined
      split <;> exact trim_trim _
    cases i with
    | cmd hs l =>
      obtain ⟨a1, a2, a3, a4⟩ := h1
      rw [run_joined s hd hc hs a1 l a2]
      cases hm : s.marker with
      | some m =>
        rw [hm] at h2
        have hcmd : command s (joined hs l) = if isMarker m (joined hs l) then { s with marker := none } else s := by
          unfold command
          simp only [hm, htt]
        rw [hcmd]
        by_cases hk : isMarker m (joined hs l) = true
        · rw [if_pos hk]
          have := ih { s with marker := none } hd hc hdf (by simpa [after, hk] using h2)
          simpa [meaning, hk] using this
        · rw [if_neg hk]
          have := ih s hd hc hdf (by rw [hm]; simpa [after, hk] using h2)
          rw [hm] at this
          simpa [meaning, hk] using this
      | none =>
        rw [hm] at h2
        have hcmd : command s (joined hs l) = match skipto (joined hs l) with
            | some m => { s with marker := some m }
            | none => if ignored (joined hs l) then s else { s with log := s.log ++ [.exec (joined hs l)] } := by
          unfold command
          simp only [hm, htt]
          rw [if_neg a3, if_neg a4]
        rw [hcmd]
        cases hk : skipto (joined hs l) with
        | some m =>
          have := ih { s with marker := some m } hd hc hdf (by simpa [after, hk] using h2)
          simpa [meaning, hk] using this
        | none =>
          simp only []
          by_cases hi : ignored (joined hs l) = true
          · rw [if_pos hi]
            have := ih s hd hc hdf (by rw [hm]; simpa [after, hk] using h2)
            rw [hm] at this
            simpa [meaning, hk, hi] using this
          · rw [if_neg hi]
            have := ih { s with log := s.log ++ [.exec (joined hs l)] } hd hc hdf (by rw [hm]; simpa [after, hk] using h2)
            simp only [hm] at this
            rw [meaning]
            simp only [hk, hi, hm]
            simpa using this
    | block ls =>
      obtain ⟨a1, a2⟩ := h1
      cases hm : s.marker with
      | some m =>
        rw [hm] at h2 a2
        have hb : ∀ l ∈ (Item.block ls).lines, stripCont l = none ∧ isMarker m (trim l) = false := by
          intro l hl
          simp only [Item.lines, List.cons_append, List.mem_cons, List.mem_append, List.not_mem_nil, or_false] at hl
          rcases hl with rfl | hl | rfl
          · exact ⟨by decide, by simp [isMarker, kMarker, kDefine, trim, List.isPrefixOf, isSpace]⟩
          · exact a2 m rfl l hl
          · exact ⟨by decide, by simp [isMarker, kMarker, kEnddefine, trim, List.isPrefixOf, isSpace]⟩
        rw [run_skipped s hd hc hm _ hb]
        have := ih s hd hc hdf (by rw [hm]; exact h2)
        rw [hm] at this
        exact this
      | none =>
        rw [hm] at h2
        have hdef : docmd s kDefine = { s with defining := true } := by
          unfold docmd
          rw [hd, hc]
          simp only [Bool.false_and, Bool.false_eq_true, if_false, List.isEmpty_nil, if_true]
          rw [show stripCont kDefine = none from by decide]
          simp only [List.nil_append]
          unfold command
          simp only [hm]
          rw [show trim kDefine = kDefine from by decide, if_pos rfl]
        have hend : docmd { s with defining := true, define := s.define ++ ls } kEnddefine = { s with log := s.log ++ [.block ls] } := by
          unfold docmd
          simp only [hc, beq_self_eq_true, Bool.not_true, Bool.and_false, Bool.false_eq_true, if_false, List.isEmpty_nil, if_true]
          rw [show stripCont kEnddefine = none from by decide]
          simp only [List.nil_append]
          unfold command
          simp only [hm]
          rw [show trim kEnddefine = kEnddefine from by decide, if_neg (by decide), if_pos rfl, hdf]
          simp only [if_true, List.nil_append]
          obtain ⟨d, df, c, mk, lg⟩ := s
          simp only at hd hc hm hdf
          subst hd hc hm hdf
          rfl
        show (run (docmd s kDefine) ((ls ++ [kEnddefine]) ++ is.flatMap Item.lines)).log = _ ∧ _
        have hrun : run s ((Item.block ls).lines ++ is.flatMap Item.lines) = run { s with log := s.log ++ [.block ls] } (is.flatMap Item.lines) := by
          show run (docmd s kDefine) ((ls ++ [kEnddefine]) ++ is.flatMap Item.lines) = _
          rw [hdef, List.append_assoc, run_define _ rfl ls a1]
          show run (docmd { s with defining := true, define := s.define ++ ls } kEnddefine) (is.flatMap Item.lines) = _
          rw [hend]
        have := ih { s with log := s.log ++ [.block ls] } hd hc hdf (by rw [hm]; exact h2)
        simp only [hm] at this
        rw [show run (docmd s kDefine) ((ls ++ [kEnddefine]) ++ is.flatMap Item.lines) = run s ((Item.block ls).lines ++ is.flatMap Item.lines) from rfl, hrun]
        simpa [meaning, hm] using this

/-- C182 is false in general: the files of `source` are read by the same `docmd`, so a file that ends with a continued line or within a block takes the commands after it: here the command `quit` after such a file
is not carried out. -/
theorem script_pending_false :
    (run st0 ("plot a\\".toList :: ["quit".toList])).log = [.exec "plot aquit".toList] ∧
    (run st0 ("define".toList :: ["quit".toList])).log = [] := by decide +kernel

example : Proper none [.cmd [(['p', 'l', 'o', 't', ' ', 'x'], [' '])] [' ', ' ', 'y'], .block [['f', '\\']], .cmd [] (kSkipto ++ ['m']), .cmd [] ['a'], .cmd [] ([' '] ++ kMarker ++ ['m']), .cmd [] ['b']] ∧
    meaning none [.cmd [(['p', 'l', 'o', 't', ' ', 'x'], [' '])] [' ', ' ', 'y'], .block [['f', '\\']], .cmd [] (kSkipto ++ ['m']), .cmd [] ['a'], .cmd [] ([' '] ++ kMarker ++ ['m']), .cmd [] ['b']] =
      [.exec ['p', 'l', 'o', 't', ' ', 'x', ' ', 'y'], .block [['f', '\\']], .exec ['b']] := by
  refine ⟨⟨⟨by decide, by decide, by decide, by decide⟩, ⟨by decide, ?_⟩, ⟨by decide, by decide, by decide, by decide⟩, ⟨by decide, by decide, by decide, by decide⟩,
    ⟨by decide, by decide, by decide, by decide⟩, ⟨by decide, by decide, by decide, by decide⟩, trivial⟩, by decide⟩
  intro m hm
  rw [show after none (Item.cmd [(['p', 'l', 'o', 't', ' ', 'x'], [' '])] [' ', ' ', 'y']) = none from by decide] at hm
  cases hm

/-! ## The forms of lines, independently of the functions above -/

/-- Only blanks. -/
def Blank (t : Text) : Prop := ∀ c ∈ t, c = ' ' ∨ c = '\t'

theorem blank_iff {t : Text} : Blank t ↔ ∀ c ∈ t, isSpace c = true := by
  unfold Blank isSpace
  simp

theorem dropWhile_split (t : Text) : ∃ a, t = a ++ t.dropWhile isSpace ∧ Blank a := by
  refine ⟨t.takeWhile isSpace, List.takeWhile_append_dropWhile.symm, ?_⟩
  rw [blank_iff]
  intro c hc
  exact List.all_eq_true.mp List.all_takeWhile c hc

theorem dropWhile_blank {a r : Text} (ha : Blank a) (hr : ∀ c, r.head? = some c → c ≠ ' ' ∧ c ≠ '\t') : (a ++ r).dropWhile isSpace = r := by
  rw [blank_iff] at ha
  induction a with
  | nil =>
    cases r with
    | nil => rfl
    | cons c r =>
      have := hr c rfl
      rw [List.nil_append, List.dropWhile_cons_of_neg]
      simp [isSpace, this.1, this.2]
  | cons c a ih => rw [List.cons_append, List.dropWhile_cons_of_pos (ha c (List.mem_cons_self ..)), ih fun d hd => ha d (List.mem_cons_of_mem _ hd)]

/-- C182: what the functions that the meaning of a script refers to do: `trim` and `squeeze` take away blanks and leave one; a continued line is one with a backslash and blanks at its end; `history skipto` and
`history marker` have a word and blanks after them; nothing but empty lines and comments is ignored. -/
theorem lines_spec :
    (∀ a r, Blank a → (∀ c, r.head? = some c → c ≠ ' ' ∧ c ≠ '\t') → trim (a ++ r) = r ∧ (a ≠ [] → squeeze (a ++ r) = ' ' :: r) ∧ squeeze r = r) ∧
    (∀ t r, stripCont t = some r ↔ ∃ sp, Blank sp ∧ t = r ++ '\\' :: sp) ∧
    (∀ t m, skipto t = some m ↔ ∃ sp, Blank sp ∧ t = kSkipto ++ m ++ sp ∧ m ≠ [] ∧ ∀ c ∈ m, isWord c = true) ∧
    (∀ t m, isMarker m t = true ↔ ∃ sp, Blank sp ∧ t = kMarker ++ m ++ sp) ∧
    (∀ t, ignored t = true ↔ t = [] ∨ ∃ r, t = '#' :: r) := by
  refine ⟨?_, ?_, ?_, ?_, ?_⟩
  · intro a r ha hr
    have h1 : trim (a ++ r) = r := dropWhile_blank ha hr
    refine ⟨h1, fun hne => ?_, ?_⟩
    · cases a with
      | nil => exact absurd rfl hne
      | cons c a =>
        rw [List.cons_append] at h1
        have hc : isSpace c = true := (blank_iff.mp ha) c (List.mem_cons_self ..)
        rw [List.cons_append]
        unfold squeeze
        simp only [hc, if_true]
        rw [h1]
    · cases r with
      | nil => rfl
      | cons c r =>
        have := hr c rfl
        unfold squeeze
        simp [isSpace, this.1, this.2]
  · intro t r
    unfold stripCont
    constructor
    · intro h
      split at h
      · rename_i x hx
        cases h
        obtain ⟨a, ha, hb⟩ := dropWhile_split t.reverse
        rw [hx] at ha
        refine ⟨a.reverse, fun c hc => hb c (List.mem_reverse.mp hc), ?_⟩
        have := congrArg List.reverse ha
        simpa using this
      · cases h
    · rintro ⟨sp, hsp, rfl⟩
      have : (r ++ '\\' :: sp).reverse.dropWhile isSpace = '\\' :: r.reverse := by
        rw [List.reverse_append, List.reverse_cons, List.append_assoc]
        exact dropWhile_blank (fun c hc => hsp c (List.mem_reverse.mp hc)) (fun c hc => by cases hc; decide)
      rw [this]
      simp
  · intro t m
    unfold skipto
    constructor
    · intro h
      split at h
      · rename_i hp
        rw [List.isPrefixOf_iff_prefix] at hp
        obtain ⟨r, rfl⟩ := hp
        simp only [List.drop_left] at h
        split at h
        · rename_i hc
          simp only [Bool.and_eq_true, Bool.not_eq_true', List.isEmpty_eq_false_iff] at hc
          cases h
          refine ⟨r.dropWhile isWord, ?_, ?_, hc.1, ?_⟩
          · rw [blank_iff]; simpa using hc.2
          · rw [List.append_assoc, List.takeWhile_append_dropWhile]
          · intro c hc
            exact List.all_eq_true.mp List.all_takeWhile c hc
        · cases h
      · cases h
    · rintro ⟨sp, hsp, rfl, hne, hw⟩
      rw [List.append_assoc, if_pos (by rw [List.isPrefixOf_iff_prefix]; exact List.prefix_append _ _)]
      simp only [List.drop_left]
      have hnw : ∀ c, sp.head? = some c → isWord c = false := by
        intro c hc
        rcases hsp c (List.mem_of_mem_head? (by simpa using hc)) with rfl | rfl <;> decide
      have key : (m ++ sp).takeWhile isWord = m ∧ (m ++ sp).dropWhile isWord = sp := by
        clear hne
        induction m with
        | nil =>
          cases sp with
          | nil => exact ⟨rfl, rfl⟩
          | cons c sp =>
            have := hnw c rfl
            simp [this]
        | cons c m ih =>
          have h1 := hw c (List.mem_cons_self ..)
          have h2 := ih fun d hd => hw d (List.mem_cons_of_mem _ hd)
          rw [List.cons_append, List.takeWhile_cons, List.dropWhile_cons, h1]
          simp [h2]
      rw [key.1, key.2, if_pos]
      simp only [Bool.and_eq_true, Bool.not_eq_true', List.isEmpty_eq_false_iff]
      refine ⟨hne, ?_⟩
      have := blank_iff.mp hsp
      simpa using this
  · intro t m
    unfold isMarker
    constructor
    · intro h
      simp only [Bool.and_eq_true] at h
      obtain ⟨h1, h2⟩ := h
      rw [List.isPrefixOf_iff_prefix] at h1
      obtain ⟨r, rfl⟩ := h1
      rw [List.drop_left] at h2
      exact ⟨r, blank_iff.mpr (by simpa using h2), rfl⟩
    · rintro ⟨sp, hsp, rfl⟩
      simp only [Bool.and_eq_true]
      refine ⟨by rw [List.isPrefixOf_iff_prefix]; exact List.prefix_append _ _, ?_⟩
      rw [List.drop_left]
      have := blank_iff.mp hsp
      simpa using this
  · intro t
    unfold ignored
    cases t with
    | nil => simp
    | cons c r => simp

example : Blank [' ', '\t'] ∧ skipto (kSkipto ++ ['m', ' ']) = some ['m'] := by
  refine ⟨?_, by decide⟩
  intro c hc
  simp only [List.mem_cons, List.not_mem_nil, or_false] at hc
  exact hc

/-! ## Errors in files (C183) -/

/-- How a command ends: `$command_error` set, or `die`. Used in the model of `mercury-plot.in:303-305` (`Tree`). -/
inductive Outcome where
  | ok | error | die
deriving DecidableEq, Repr

/-- A command of a file: one that is carried out, by its number, or `source` of a file (its commands). Used in the model of `mercury-plot.in:303-305` (`exec`). -/
inductive Tree where
  | leaf (id : Nat) (o : Outcome)
  | source (cs : List Tree)

/-- The commands that were carried out, oldest first, `$command_error`, and whether the last one died. Used in the model of `mercury-plot.in:303-305` (`exec`). -/
structure Rep where
  done : List Nat
  error : Bool
  died : Bool
deriving DecidableEq, Repr

mutual

/-- A command (`docmd`; `source` is `history("run ...")`, lines 303-305). -/
def exec : Tree → Rep → Rep
  | .leaf id .ok, r => { r with done := r.done ++ [id] }
  | .leaf id .error, r => { r with done := r.done ++ [id], error := true }
  | .leaf id .die, r => { r with done := r.done ++ [id], died := true }
  | .source cs, r => file cs r

/-- The loop over the lines of a file (lines 774-786): it ends after a command that died (`eval`, the message is printed) or with `$command_error` set. -/
def file : List Tree → Rep → Rep
  | [], r => r
  | c :: cs, r =>
    let r := exec c r
    if r.died || r.error then { r with died := false } else file cs r

end

/-- `mercury-plot files` (lines 142-143): the files until one leaves `$command_error`; the exit status is 1 then. -/
def commandLine : List (List Tree) → Rep → Rep
  | [], r => r
  | f :: fs, r =>
    let r := file f r
    if r.error then r else commandLine fs r

mutual

/-- Specification: the commands in the order of the files, with their outcomes. -/
def flat : Tree → List (Nat × Outcome)
  | .leaf id o => [(id, o)]
  | .source cs => flats cs

/-- Made of the parts of `mercury-plot.in:303-305`. -/
def flats : List Tree → List (Nat × Outcome)
  | [] => []
  | c :: cs => flat c ++ flats cs

end

/-- The commands up to the first that fails, and whether there is one. Made of the parts of `mercury-plot.in:303-305`. -/
def upto : List (Nat × Outcome) → List Nat × Bool
  | [] => ([], false)
  | (id, o) :: l => if o = .ok then (id :: (upto l).1, (upto l).2) else ([id], true)

theorem upto_append (a b : List (Nat × Outcome)) : upto (a ++ b) = if (upto a).2 then upto a else ((upto a).1 ++ (upto b).1, (upto b).2) := by
  induction a with
  | nil => simp [upto]
  | cons x a ih =>
    obtain ⟨id, o⟩ := x
    rw [List.cons_append, upto, upto, ih]
    by_cases ho : o = .ok
    · simp only [ho, if_true]
      split <;> simp_all
    · simp [ho]

mutual

theorem exec_eq (t : Tree) (r : Rep) (h : ∀ x ∈ flat t, x.2 ≠ .die) (he : r.error = false) (hd : r.died = false) :
    exec t r = ⟨r.done ++ (upto (flat t)).1, (upto (flat t)).2, false⟩ := by
  cases t with
  | leaf id o =>
    obtain ⟨d, e, k⟩ := r
    simp only at he hd
    subst he hd
    cases o with
    | ok => simp [exec, flat, upto]
    | error => simp [exec, flat, upto]
    | die => exact absurd rfl (h (id, .die) (by simp [flat]))
  | source cs =>
    rw [exec, flat]
    exact file_eq cs r (by simpa [flat] using h) he hd

theorem file_eq (cs : List Tree) (r : Rep) (h : ∀ x ∈ flats cs, x.2 ≠ .die) (he : r.error = false) (hd : r.died = false) :
    file cs r = ⟨r.done ++ (upto (flats cs)).1, (upto (flats cs)).2, false⟩ := by
  cases cs with
  | nil =>
    obtain ⟨d, e, k⟩ := r
    simp only at he hd
    subst he hd
    simp [file, flats, upto]
  | cons c cs =>
    have h1 := exec_eq c r (fun x hx => h x (by simp [flats, hx])) he hd
    rw [file, flats, upto_append]
    simp only [h1, Bool.false_or]
    cases hu : (upto (flat c)).2 with
    | true => simp [hu]
    | false =>
      simp only [Bool.false_eq_true, if_false]
      rw [file_eq cs _ (fun x hx => h x (by simp [flats, hx])) rfl rfl]
      simp [List.append_assoc]

end

/-- C183: if no command dies, the files of the command line are carried out command by command, those of sourced files in their place, up to and including the first that reports an error, and the exit status tells
whether there was one. -/
theorem files_partial (fs : List (List Tree)) (h : ∀ f ∈ fs, ∀ x ∈ flats f, x.2 ≠ .die) (r : Rep) (he : r.error = false) (hd : r.died = false) :
    (commandLine fs r).done = r.done ++ (upto (fs.flatMap flats)).1 ∧ (commandLine fs r).error = (upto (fs.flatMap flats)).2 := by
  induction fs generalizing r with
  | nil => simp [commandLine, upto, he]
  | cons f fs ih =>
    rw [commandLine, file_eq f r (h f (List.mem_cons_self ..)) he hd, List.flatMap_cons, upto_append]
    simp only []
    cases hu : (upto (flats f)).2 with
    | true => simp [hu]
    | false =>
      simp only [Bool.false_eq_true, if_false]
      have := ih (fun g hg => h g (List.mem_cons_of_mem _ hg)) ⟨r.done ++ (upto (flats f)).1, false, false⟩ rfl rfl
      rw [this.1, this.2]
      simp

/-- C183 is false in general: a command that dies (`barplot`, `import-data`) ends its own file only; the file that sourced it and the next files go on, and the exit status is that of success. -/
theorem files_die_false :
    ∃ fs : List (List Tree), upto (fs.flatMap flats) = ([1], true) ∧ commandLine fs ⟨[], false, false⟩ = ⟨[1, 3, 4], false, false⟩ :=
  ⟨[[.source [.leaf 1 .die, .leaf 2 .ok], .leaf 3 .ok], [.leaf 4 .ok]], by simp [flats, flat, upto], by simp [commandLine, file, exec]⟩

example : ∀ f ∈ [[Tree.source [.leaf 1 .ok, .leaf 2 .error], .leaf 3 .ok]], ∀ x ∈ flats f, x.2 ≠ .die := by
  intro f hf x hx
  simp only [List.mem_singleton] at hf
  subst hf
  simp only [flats, flat, List.cons_append, List.nil_append, List.append_nil, List.mem_cons, List.not_mem_nil, or_false] at hx
  rcases hx with rfl | rfl | rfl <;> decide

end Verif.Mercury.Cmd
