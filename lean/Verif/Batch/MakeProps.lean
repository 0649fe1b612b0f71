import Verif.Batch.Make

/-!
# Properties of the `make` module of `batch-parallel` (C136, C137)
-/

namespace Verif.Batch.Make

/-! ## What a command means -/

/-- The pieces of a command. -/
inductive Tok where
  | lit (c : Char)
  | src
  | dest
  | tmp
deriving DecidableEq, Repr

/-- A command read from left to right. -/
def toks : Text → List Tok
  | [] => []
  | '$' :: '<' :: cs => .src :: toks cs
  | '$' :: '@' :: cs => .dest :: toks cs
  | '$' :: 'T' :: 'M' :: 'P' :: cs => .tmp :: toks cs
  | c :: cs => .lit c :: toks cs

/-- The command that is meant. -/
def meaning (src dest tmp : Text) (ts : List Tok) : Text :=
  ts.flatMap fun
    | .lit c => [c]
    | .src => src
    | .dest => dest
    | .tmp => tmp

/-- A `$` that is no piece of its own is followed by a character that is neither a `$`, a `T`, nor a piece. -/
def Plain : List Tok → Prop
  | [] => True
  | .lit '$' :: .lit d :: ts => (d ≠ '$' ∧ d ≠ 'T' ∧ d ≠ '<' ∧ d ≠ '@') ∧ Plain (.lit d :: ts)
  | .lit '$' :: _ => False
  | _ :: ts => Plain ts

/-- The same as a test. -/
def plainB : List Tok → Bool
  | [] => true
  | .lit '$' :: .lit d :: ts => (d != '$' && d != 'T' && d != '<' && d != '@') && plainB (.lit d :: ts)
  | .lit '$' :: _ => false
  | _ :: ts => plainB ts

theorem plainB_iff (ts : List Tok) : plainB ts = true ↔ Plain ts := by
  fun_induction plainB ts <;> simp_all [Plain, and_assoc]

instance (ts : List Tok) : Decidable (Plain ts) := decidable_of_iff _ (plainB_iff ts)

/-! ## Lemmas -/

theorem meaning_lits (src dest tmp w : Text) : meaning src dest tmp (w.map .lit) = w := by
  unfold meaning
  induction w with
  | nil => rfl
  | cons x w ih => simp only [List.map_cons, List.flatMap_cons, ih]; rfl

/-- The text of the pieces. -/
def raw (ts : List Tok) : Text := meaning "$<".toList "$@".toList "$TMP".toList ts

theorem raw_toks : ∀ s : Text, raw (toks s) = s := by
  intro s
  fun_induction toks s <;> simp_all [raw, meaning]

/-- One kind of piece replaced. -/
def put (k : Tok) (rep : Text) (ts : List Tok) : List Tok :=
  ts.flatMap fun t => if t = k then rep.map .lit else [t]

/-- The text of a piece to be replaced. -/
def pat : Tok → Text
  | .lit _ => []
  | .src => "$<".toList
  | .dest => "$@".toList
  | .tmp => "$TMP".toList

theorem replaceAll_nil (p r : Text) : replaceAll p r [] = [] := by rw [replaceAll]

theorem replaceAll_skip {p r : Text} {c : Char} {cs : Text} (h : ¬p.isPrefixOf (c :: cs) = true) :
    replaceAll p r (c :: cs) = c :: replaceAll p r cs := by
  rw [replaceAll, if_neg (fun hh => h hh.2)]

theorem replaceAll_hit {p r cs : Text} (h : p ≠ []) : replaceAll p r (p ++ cs) = r ++ replaceAll p r cs := by
  cases p with
  | nil => exact absurd rfl h
  | cons a p =>
    rw [List.cons_append, replaceAll, if_pos]
    · rw [← List.cons_append, List.drop_left]
    · exact ⟨h, by rw [List.isPrefixOf_iff_prefix]; exact ⟨cs, rfl⟩⟩

theorem pat_skip {k : Tok} (hk : k = .src ∨ k = .dest ∨ k = .tmp) (r : Text) {c : Char} (hc : c ≠ '$') (cs : Text) :
    replaceAll (pat k) r (c :: cs) = c :: replaceAll (pat k) r cs := by
  apply replaceAll_skip
  rcases hk with rfl | rfl | rfl <;> simp [pat, List.isPrefixOf, Ne.symm hc]

theorem pat_skip2 {k : Tok} (hk : k = .src ∨ k = .dest ∨ k = .tmp) (r : Text) {d : Char}
    (hd : d ≠ 'T' ∧ d ≠ '<' ∧ d ≠ '@') (cs : Text) :
    replaceAll (pat k) r ('$' :: d :: cs) = '$' :: replaceAll (pat k) r (d :: cs) := by
  apply replaceAll_skip
  obtain ⟨h1, h2, h3⟩ := hd
  rcases hk with rfl | rfl | rfl <;> simp [pat, List.isPrefixOf, Ne.symm h1, Ne.symm h2, Ne.symm h3]

theorem plain_tail {t : Tok} {ts : List Tok} (h : Plain (t :: ts)) : Plain ts := by
  unfold Plain at h
  split at h <;> simp_all

/-- One substitution replaces one kind of piece. -/
theorem replace_put {k : Tok} (hk : k = .src ∨ k = .dest ∨ k = .tmp) (r : Text) :
    ∀ ts : List Tok, Plain ts → replaceAll (pat k) r (raw ts) = raw (put k r ts)
  | [], _ => by simp [raw, meaning, put, replaceAll_nil]
  | t :: ts, h => by
    have ih := replace_put hk r ts (plain_tail h)
    have hrr : raw (r.map .lit) = r := meaning_lits _ _ _ r
    have happ : ∀ a b, raw (a ++ b) = raw a ++ raw b := fun a b => by simp [raw, meaning]
    have hput : put k r (t :: ts) = (if t = k then r.map .lit else [t]) ++ put k r ts := rfl
    rw [hput, happ, ← ih]
    have hcons : raw (t :: ts) = raw [t] ++ raw ts := happ [t] ts
    by_cases htk : t = k
    · rw [if_pos htk, hrr, hcons]
      subst htk
      have hp : raw [t] = pat t := by rcases hk with rfl | rfl | rfl <;> rfl
      rw [hp]
      apply replaceAll_hit
      rcases hk with rfl | rfl | rfl <;> decide
    · rw [if_neg htk, hcons]
      cases t with
      | lit c =>
        have hr1 : raw [.lit c] = [c] := rfl
        rw [hr1]
        by_cases hc : c = '$'
        · subst hc
          match ts, h with
          | .lit d :: ts, h =>
            have hd : (d ≠ '$' ∧ d ≠ 'T' ∧ d ≠ '<' ∧ d ≠ '@') := h.1
            have : raw (.lit d :: ts) = d :: raw ts := rfl
            rw [this]
            exact pat_skip2 hk r hd.2 _
          | [], h => exact absurd h (by simp [Plain])
          | .src :: _, h => exact absurd h (by simp [Plain])
          | .dest :: _, h => exact absurd h (by simp [Plain])
          | .tmp :: _, h => exact absurd h (by simp [Plain])
        · exact pat_skip hk r hc _
      | src =>
        show replaceAll (pat k) r ('$' :: '<' :: raw ts) = '$' :: '<' :: replaceAll (pat k) r (raw ts)
        have hn : ¬(pat k).isPrefixOf ('$' :: '<' :: raw ts) = true := by
          rcases hk with rfl | rfl | rfl
          · exact absurd rfl htk
          · simp [pat, List.isPrefixOf]
          · simp [pat, List.isPrefixOf]
        rw [replaceAll_skip hn, pat_skip hk r (by decide)]
      | dest =>
        show replaceAll (pat k) r ('$' :: '@' :: raw ts) = '$' :: '@' :: replaceAll (pat k) r (raw ts)
        have hn : ¬(pat k).isPrefixOf ('$' :: '@' :: raw ts) = true := by
          rcases hk with rfl | rfl | rfl
          · simp [pat, List.isPrefixOf]
          · exact absurd rfl htk
          · simp [pat, List.isPrefixOf]
        rw [replaceAll_skip hn, pat_skip hk r (by decide)]
      | tmp =>
        show replaceAll (pat k) r ('$' :: 'T' :: 'M' :: 'P' :: raw ts) = '$' :: 'T' :: 'M' :: 'P' :: replaceAll (pat k) r (raw ts)
        have hn : ¬(pat k).isPrefixOf ('$' :: 'T' :: 'M' :: 'P' :: raw ts) = true := by
          rcases hk with rfl | rfl | rfl
          · simp [pat, List.isPrefixOf]
          · simp [pat, List.isPrefixOf]
          · exact absurd rfl htk
        rw [replaceAll_skip hn, pat_skip hk r (by decide), pat_skip hk r (by decide), pat_skip hk r (by decide)]

theorem plain_lits {r : Text} (hr : '$' ∉ r) {ts : List Tok} (h : Plain ts) : Plain (r.map .lit ++ ts) := by
  induction r with
  | nil => exact h
  | cons a r ih =>
    have ha : a ≠ '$' := fun hh => hr (by simp [hh])
    have := ih (fun hh => hr (by simp [hh]))
    simp only [List.map_cons, List.cons_append]
    unfold Plain
    split
    · trivial
    · rename_i heq; simp only [List.cons.injEq, Tok.lit.injEq] at heq; exact absurd heq.1 ha
    · rename_i heq; simp only [List.cons.injEq, Tok.lit.injEq] at heq; exact absurd heq.1 ha
    · rename_i heq; simp only [List.cons.injEq] at heq; rw [← heq.2]; exact this

theorem plain_put {k : Tok} (hk : k = .src ∨ k = .dest ∨ k = .tmp) {r : Text} (hr : '$' ∉ r) :
    ∀ ts : List Tok, Plain ts → Plain (put k r ts)
  | [], _ => trivial
  | t :: ts, h => by
    have ih := plain_put hk hr ts (plain_tail h)
    have hput : put k r (t :: ts) = (if t = k then r.map .lit else [t]) ++ put k r ts := rfl
    rw [hput]
    by_cases htk : t = k
    · rw [if_pos htk]; exact plain_lits hr ih
    · rw [if_neg htk]
      cases t with
      | lit c =>
        by_cases hc : c = '$'
        · subst hc
          match ts, h with
          | .lit d :: ts, h =>
            have hdk : (Tok.lit d) ≠ k := by rcases hk with rfl | rfl | rfl <;> simp
            have : put k r (.lit d :: ts) = .lit d :: put k r ts := by
              show (if Tok.lit d = k then _ else _) ++ put k r ts = _
              rw [if_neg hdk]; rfl
            rw [this] at ih ⊢
            exact ⟨h.1, ih⟩
          | [], h => exact absurd h (by simp [Plain])
          | .src :: _, h => exact absurd h (by simp [Plain])
          | .dest :: _, h => exact absurd h (by simp [Plain])
          | .tmp :: _, h => exact absurd h (by simp [Plain])
        · have : [Tok.lit c] ++ put k r ts = [c].map Tok.lit ++ put k r ts := rfl
          rw [this]
          exact plain_lits (by simpa using Ne.symm hc) ih
      | src => exact ih
      | dest => exact ih
      | tmp => exact ih

theorem meaning_put (a b c r : Text) (ts : List Tok) :
    meaning a b c (put .src r ts) = meaning r b c ts ∧ meaning a b c (put .dest r ts) = meaning a r c ts ∧
      meaning a b c (put .tmp r ts) = meaning a b r ts := by
  have hm : meaning a b c (r.map .lit) = r := by
    unfold meaning
    induction r with
    | nil => rfl
    | cons x r ih => simp only [List.map_cons, List.flatMap_cons, ih]; rfl
  have happ : ∀ x y, meaning a b c (x ++ y) = meaning a b c x ++ meaning a b c y := fun x y => by simp [meaning]
  induction ts with
  | nil => exact ⟨rfl, rfl, rfl⟩
  | cons t ts ih =>
    have hput : ∀ k, put k r (t :: ts) = (if t = k then r.map .lit else [t]) ++ put k r ts := fun _ => rfl
    simp only [hput, happ, ih.1, ih.2.1, ih.2.2]
    cases t <;> simp [hm] <;> simp [meaning]

/-- The three substitutions give the command that is meant. -/
theorem substCmd_eq (src dest tmp cmd : Text) (hs : '$' ∉ src) (hd : '$' ∉ dest) (hc : Plain (toks cmd)) :
    substCmd src dest tmp cmd = meaning src dest tmp (toks cmd) := by
  unfold substCmd
  have h1 := replace_put (k := .src) (by simp) src (toks cmd) hc
  have p1 := plain_put (k := .src) (by simp) hs _ hc
  have h2 := replace_put (k := .dest) (by simp) dest _ p1
  have p2 := plain_put (k := .dest) (by simp) hd _ p1
  have h3 := replace_put (k := .tmp) (by simp) tmp _ p2
  rw [raw_toks] at h1
  show replaceAll (pat .tmp) tmp (replaceAll (pat .dest) dest (replaceAll (pat .src) src cmd)) = _
  rw [h1, h2, h3]
  unfold raw
  rw [(meaning_put _ _ _ _ _).2.2, (meaning_put _ _ _ _ _).2.1, (meaning_put _ _ _ _ _).1]

/-! ## C136: the commands that are run -/

/-- The commands run for a file are the ones meant, in their order, up to the first that fails; success is reported exactly if none failed, and then all were run. -/
theorem runs_meaning_partial (ret : Text → Bool) (src dest tmp : Text) (cmds : List Text)
    (hs : '$' ∉ src) (hd : '$' ∉ dest) (hc : ∀ c ∈ cmds, Plain (toks c)) :
    let want := cmds.map fun c => meaning src dest tmp (toks c)
    let r := doRebuild ret src dest tmp cmds
    (r.2 = true ↔ ∀ c ∈ want, ret c = true) ∧ (r.2 = true → r.1 = want) ∧
      (r.2 = false → ∃ before c after, want = before ++ c :: after ∧ r.1 = before ++ [c] ∧
        (∀ b ∈ before, ret b = true) ∧ ret c = false) := by
  simp only []
  induction cmds with
  | nil => simp [doRebuild]
  | cons cmd cmds ih =>
    have ih := ih (fun c h => hc c (by simp [h]))
    have he := substCmd_eq src dest tmp cmd hs hd (hc cmd (by simp))
    simp only [doRebuild, he, List.map_cons]
    obtain ⟨i1, i2, i3⟩ := ih
    cases hret : ret (meaning src dest tmp (toks cmd)) with
    | true =>
      simp only [if_true]
      refine ⟨?_, ?_, ?_⟩
      · rw [i1]; simp [hret]
      · intro h; rw [i2 h]
      · intro h
        obtain ⟨b, c, a, h1, h2, h3, h4⟩ := i3 h
        refine ⟨meaning src dest tmp (toks cmd) :: b, c, a, by rw [h1]; rfl, by rw [h2]; rfl, ?_, h4⟩
        intro x hx
        simp only [List.mem_cons] at hx
        rcases hx with rfl | hx
        · exact hret
        · exact h3 x hx
    | false =>
      simp only [Bool.false_eq_true, if_false]
      refine ⟨?_, by simp, ?_⟩
      · simp [hret]
      · intro _
        exact ⟨[], _, _, rfl, rfl, by simp, hret⟩

/-- A name with `$@` in it is taken for the destination: the command does not read the file. -/
theorem dollar_name_false : ¬∀ (src dest tmp cmd : Text), Plain (toks cmd) →
    substCmd src dest tmp cmd = meaning src dest tmp (toks cmd) := by
  intro h
  exact absurd (h "a$@b".toList "o".toList "t".toList "cp $< $@".toList (by decide +kernel)) (by decide +kernel)

theorem found_iff (p : Text) : ∀ s : Text, found p s = true ↔ ∃ a b, s = a ++ p ++ b
  | [] => by
    simp only [found, List.isEmpty_iff]
    constructor
    · intro h; exact ⟨[], [], by simp [h]⟩
    · rintro ⟨a, b, h⟩
      simp only [List.nil_eq, List.append_eq_nil_iff] at h
      exact h.1.2
  | c :: cs => by
    simp only [found, Bool.or_eq_true, List.isPrefixOf_iff_prefix, found_iff p cs]
    constructor
    · rintro (⟨b, h⟩ | ⟨a, b, h⟩)
      · exact ⟨[], b, by simp [h]⟩
      · exact ⟨c :: a, b, by simp [h]⟩
    · rintro ⟨a, b, h⟩
      cases a with
      | nil => exact Or.inl ⟨b, by simpa using h.symm⟩
      | cons x a =>
        simp only [List.cons_append, List.cons.injEq] at h
        exact Or.inr ⟨a, b, h.2⟩

theorem mem_toks : ∀ s : Text, (found "$<".toList s = true → Tok.src ∈ toks s) ∧ (found "$@".toList s = true → Tok.dest ∈ toks s) := by
  intro s
  fun_induction toks s with
  | case1 => simp [found]
  | case2 cs ih => simp [found, List.isPrefixOf]; simpa [found] using ih.2
  | case3 cs ih => simp [found, List.isPrefixOf]; simpa [found] using ih.1
  | case4 cs ih => simp [found, List.isPrefixOf]; exact ih
  | case5 c cs h1 h2 h3 ih =>
    constructor
    · intro h
      simp only [found, Bool.or_eq_true, List.isPrefixOf_iff_prefix] at h
      rcases h with ⟨b, h⟩ | h
      · have h' : '$' :: '<' :: b = c :: cs := h
        simp only [List.cons.injEq] at h'
        exact absurd h'.2.symm (h1 b h'.1.symm)
      · simp [ih.1 h]
    · intro h
      simp only [found, Bool.or_eq_true, List.isPrefixOf_iff_prefix] at h
      rcases h with ⟨b, h⟩ | h
      · have h' : '$' :: '@' :: b = c :: cs := h
        simp only [List.cons.injEq] at h'
        exact absurd h'.2.symm (h2 b h'.1.symm)
      · simp [ih.2 h]

theorem meaning_mem {src dest tmp : Text} : ∀ {ts : List Tok},
    (Tok.src ∈ ts → ∃ a b, meaning src dest tmp ts = a ++ src ++ b) ∧
    (Tok.dest ∈ ts → ∃ a b, meaning src dest tmp ts = a ++ dest ++ b) := by
  intro ts
  constructor
  · intro h
    obtain ⟨x, y, rfl⟩ := List.append_of_mem h
    exact ⟨meaning src dest tmp x, meaning src dest tmp y, by simp [meaning]⟩
  · intro h
    obtain ⟨x, y, rfl⟩ := List.append_of_mem h
    exact ⟨meaning src dest tmp x, meaning src dest tmp y, by simp [meaning]⟩

/-- With commands that `new` accepts, a file for which all went well had a command run with its own name in it, and one with the name of its output. -/
theorem names_used_partial (ret : Text → Bool) (src dest tmp : Text) (cmds : List Text)
    (hs : '$' ∉ src) (hd : '$' ∉ dest) (hc : ∀ c ∈ cmds, Plain (toks c)) (ha : acceptable cmds = true)
    (hok : (doRebuild ret src dest tmp cmds).2 = true) :
    (∃ c ∈ (doRebuild ret src dest tmp cmds).1, ∃ a b, c = a ++ src ++ b) ∧
      ∃ c ∈ (doRebuild ret src dest tmp cmds).1, ∃ a b, c = a ++ dest ++ b := by
  have h := (runs_meaning_partial ret src dest tmp cmds hs hd hc).2.1 hok
  rw [h]
  unfold acceptable at ha
  simp only [Bool.and_eq_true, List.any_eq_true] at ha
  obtain ⟨⟨c1, hc1, hf1⟩, c2, hc2, hf2⟩ := ha
  exact ⟨⟨_, List.mem_map.2 ⟨c1, hc1, rfl⟩, meaning_mem.1 ((mem_toks c1).1 hf1)⟩,
    ⟨_, List.mem_map.2 ⟨c2, hc2, rfl⟩, meaning_mem.2 ((mem_toks c2).2 hf2)⟩⟩

/-- The things to build are the files the transform changes, each with what it is changed to. -/
theorem things_spec (transform : Text → Text) (paths : List Text) (s d : Text) :
    (s, d) ∈ things transform paths ↔ s ∈ paths ∧ d = transform s ∧ d ≠ s := by
  unfold things
  simp only [List.mem_map, List.mem_filter, decide_eq_true_eq, Prod.mk.injEq]
  constructor
  · rintro ⟨p, ⟨h1, h2⟩, rfl, rfl⟩; exact ⟨h1, rfl, fun h => h2 h.symm⟩
  · rintro ⟨h1, rfl, h2⟩; exact ⟨s, ⟨h1, fun h => h2 h.symm⟩, rfl, rfl⟩

/-! ## C137: `-n` -/

/-- A text in which no piece is left is not changed. -/
theorem toks_lits : ∀ w : Text, Plain (w.map Tok.lit) → toks w = w.map .lit := by
  intro w
  fun_induction toks w with
  | case1 => simp
  | case2 cs ih => intro h; simp [Plain] at h
  | case3 cs ih => intro h; simp [Plain] at h
  | case4 cs ih => intro h; simp [Plain] at h
  | case5 c cs h1 h2 h3 ih => intro h; rw [ih (plain_tail h)]; rfl

theorem plain_meaning {src dest tmp : Text} (hs : '$' ∉ src) (hd : '$' ∉ dest) (ht : '$' ∉ tmp) {ts : List Tok} (h : Plain ts) :
    Plain ((meaning src dest tmp ts).map .lit) := by
  have : (meaning src dest tmp ts).map Tok.lit = put .tmp tmp (put .dest dest (put .src src ts)) := by
    have hl : ∀ (k : Tok) (r w : Text), (k = .src ∨ k = .dest ∨ k = .tmp) → put k r (w.map .lit) = w.map .lit := by
      intro k r w hk
      induction w with
      | nil => rfl
      | cons x w ih =>
        show (if Tok.lit x = k then _ else _) ++ put k r (w.map .lit) = _
        rw [if_neg (by rcases hk with rfl | rfl | rfl <;> simp), ih]; rfl
    have happ : ∀ (k : Tok) (r : Text) (x y : List Tok), put k r (x ++ y) = put k r x ++ put k r y := fun k r x y => by simp [put]
    clear h
    induction ts with
    | nil => rfl
    | cons t ts ih =>
      have hm : meaning src dest tmp (t :: ts) = meaning src dest tmp [t] ++ meaning src dest tmp ts := by simp [meaning]
      rw [hm, List.map_append, ih]
      have hp : put .src src (t :: ts) = put .src src [t] ++ put .src src ts := happ _ _ [t] ts
      rw [hp, happ, happ]
      congr 1
      cases t with
      | lit c => rfl
      | src =>
        have h1 : put .src src [.src] = src.map .lit := by simp [put]
        rw [h1, hl _ _ _ (by simp), hl _ _ _ (by simp)]; simp [meaning]
      | dest =>
        have h1 : put .src src [.dest] = [.dest] := by simp [put]
        have h2 : put .dest dest [.dest] = dest.map .lit := by simp [put]
        rw [h1, h2, hl _ _ _ (by simp)]; simp [meaning]
      | tmp =>
        have h1 : put .src src [.tmp] = [.tmp] := by simp [put]
        have h2 : put .dest dest [.tmp] = [.tmp] := by simp [put]
        have h3 : put .tmp tmp [.tmp] = tmp.map .lit := by simp [put]
        rw [h1, h2, h3]; simp [meaning]
  rw [this]
  exact plain_put (by simp) ht _ (plain_put (by simp) hd _ (plain_put (by simp) hs _ h))

/-- With `-n` the message for the first thing shows its commands, but so do the messages for all other things: they show the commands of the first. -/
theorem messages_first_partial (tmp : Text) (t : Text × Text) (ts : List (Text × Text)) (cmds : List Text)
    (ht : '$' ∉ tmp) (hp : ∀ x ∈ t :: ts, '$' ∉ x.1 ∧ '$' ∉ x.2) (hc : ∀ c ∈ cmds, Plain (toks c)) :
    messages tmp (t :: ts) cmds =
      List.replicate (ts.length + 1) (cmds.map fun c => meaning t.1 (t.2 ++ "-new".toList) tmp (toks c)) := by
  have hnew : ∀ d : Text, '$' ∉ d → '$' ∉ d ++ "-new".toList := by
    intro d hd h
    rw [List.mem_append] at h
    rcases h with h | h
    · exact hd h
    · exact absurd h (by decide)
  have hstable : ∀ (xs : List (Text × Text)) (shown : List Text), (∀ x ∈ xs, '$' ∉ x.1 ∧ '$' ∉ x.2) →
      (∀ s ∈ shown, Plain (s.map Tok.lit)) → messages tmp xs shown = List.replicate xs.length shown := by
    intro xs
    induction xs with
    | nil => intros; rfl
    | cons x xs ih =>
      intro shown hx hs
      have hm : mock x.1 (x.2 ++ "-new".toList) tmp shown = shown := by
        unfold mock
        conv => rhs; rw [← List.map_id shown]
        apply List.map_congr_left
        intro s h
        have hs' := hs s h
        have htk := toks_lits s hs'
        have hx1 := hx x (by simp)
        rw [substCmd_eq _ _ _ _ hx1.1 (hnew _ hx1.2) (by rw [htk]; exact hs'), htk, meaning_lits]; rfl
      show mock x.1 (x.2 ++ "-new".toList) tmp shown :: messages tmp xs (mock x.1 (x.2 ++ "-new".toList) tmp shown) = _
      rw [hm, ih shown (fun y hy => hx y (by simp [hy])) hs]; rfl
  obtain ⟨src, dest⟩ := t
  have h0 := hp (src, dest) (by simp)
  have hm : mock src (dest ++ "-new".toList) tmp cmds = cmds.map fun c => meaning src (dest ++ "-new".toList) tmp (toks c) := by
    unfold mock
    apply List.map_congr_left
    intro c h
    exact substCmd_eq _ _ _ _ h0.1 (hnew _ h0.2) (hc c h)
  show mock src (dest ++ "-new".toList) tmp cmds :: messages tmp ts (mock src (dest ++ "-new".toList) tmp cmds) = _
  rw [hm, hstable ts _ (fun x hx => hp x (by simp [hx]))]
  · rfl
  · intro s hs
    obtain ⟨c, h, rfl⟩ := List.mem_map.1 hs
    exact plain_meaning h0.1 (hnew _ h0.2) ht (hc c h)

/-- So `-n` does not show what would be done. -/
theorem messages_false : ¬∀ (tmp : Text) (ts : List (Text × Text)) (cmds : List Text),
    messages tmp ts cmds = ts.map fun t => cmds.map fun c => meaning t.1 (t.2 ++ "-new".toList) tmp (toks c) := by
  intro h
  exact absurd (h "/tmp/tmp-work-dir".toList [("a".toList, "a.o".toList), ("b".toList, "b.o".toList)] ["cc $< -o $@".toList]) (by decide +kernel)

/-! ### The hypotheses can be met -/

example : (∀ c ∈ ["$HOME/cc $< -o $TMP/x".toList, "mv $TMP/x $@".toList], Plain (toks c)) ∧
    acceptable ["$HOME/cc $< -o $TMP/x".toList, "mv $TMP/x $@".toList] = true ∧
    doRebuild (fun _ => true) "a.c".toList "a.o-new".toList "/tmp/t".toList ["$HOME/cc $< -o $TMP/x".toList, "mv $TMP/x $@".toList] =
      (["$HOME/cc a.c -o /tmp/t/x".toList, "mv /tmp/t/x a.o-new".toList], true) ∧
    (doRebuild (fun c => decide (c.head? = some '$')) "a.c".toList "a.o-new".toList "/tmp/t".toList ["$HOME/cc $< -o $TMP/x".toList, "mv $TMP/x $@".toList, "true".toList]) =
      (["$HOME/cc a.c -o /tmp/t/x".toList, "mv /tmp/t/x a.o-new".toList], false) := by decide +kernel

example : messages "/tmp/w".toList [("a".toList, "a.o".toList), ("b".toList, "b.o".toList)] ["cc $< -o $@".toList] =
    [["cc a -o a.o-new".toList], ["cc a -o a.o-new".toList]] := by decide +kernel

end Verif.Batch.Make
