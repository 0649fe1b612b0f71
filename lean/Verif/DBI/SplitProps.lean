import Verif.DBI.Split

/-!
# What `splitSQL` returns

The grammar of the documentation (lines 345-349), where `simple_text` is read as: no quote, no `;`, no two dashes.
-/

namespace Verif.DBI

/-- A sequence of `simple_text`, `quoted_text` and `comment_text`, where `u` follows (a dash of `simple_text` is not followed by a dash). -/
inductive Pieces (u : Text) : Text → Prop
  | nil : Pieces u []
  | simple (c : Char) (t : Text) : c ≠ '"' → c ≠ '\'' → c ≠ ';' → ¬ (c = '-' ∧ (t ++ u).head? = some '-') → Pieces u t → Pieces u (c :: t)
  | quoted (q : Char) (body t : Text) : q = '"' ∨ q = '\'' → q ∉ body → Pieces u t → Pieces u (q :: (body ++ q :: t))
  | comment (body t : Text) : '\n' ∉ body → Pieces u t → Pieces u ('-' :: '-' :: (body ++ '\n' :: t))

/-- `statement` of the grammar (an empty one is allowed). -/
def Statement (s : Text) : Prop := ∃ t, Pieces [';'] t ∧ s = t ++ [';']

/-- No statement begins the text. -/
def NoStatement (t : Text) : Prop := ∀ s r, Statement s → t ≠ s ++ r

/-- What `splitSQL` is to return: the statements one after the other; what is left has no further one. -/
def Splits (sql : Text) (out : List Text) : Prop :=
  (∀ s ∈ out, Statement s) ∧ ∃ rest, sql = out.flatten ++ rest ∧ NoStatement rest

/-- `splitSQL` returns this. -/
def Returns (sql : Text) (out : List Text) : Prop := ∃ n, splitSQL n sql = some out

/-- `splitSQL` never returns. -/
def Hangs (sql : Text) : Prop := ∀ n, splitSQL n sql = none

/-! ## Lemmas -/

theorem pieces_congr {u u' t : Text} (h : Pieces u t) (hu : u.head? = u'.head?) : Pieces u' t := by
  induction h with
  | nil => exact .nil
  | simple c t h1 h2 h3 h4 _ ih =>
    refine .simple c t h1 h2 h3 ?_ ih
    intro ⟨e, hh⟩
    apply h4
    refine ⟨e, ?_⟩
    cases t with
    | nil => simpa [hu] using hh
    | cons d t => simpa using hh
  | quoted q body t h1 h2 _ ih => exact .quoted q body t h1 h2 ih
  | comment body t h1 _ ih => exact .comment body t h1 ih

theorem brkAt_none {c : Char} {t : Text} (h1 : c ≠ '"') (h2 : c ≠ '\'') (h3 : c ≠ ';') (h4 : c ≠ '\n') (h5 : ¬ (c = '-' ∧ t.head? = some '-')) : brkAt (c :: t) = none := by
  unfold brkAt
  split <;> simp_all

theorem findBrk_cons_none {c : Char} {t : Text} (h : brkAt (c :: t) = none) :
    findBrk (c :: t) = (findBrk t).map fun (p, b, r) => (c :: p, b, r) := by
  rw [findBrk, h]

theorem findBrk_cons_some {c : Char} {t : Text} {b : Brk} (h : brkAt (c :: t) = some b) :
    findBrk (c :: t) = some ([], b, (c :: t).drop b.text.length) := by
  rw [findBrk, h]

/-- A character before the first break is passed over. -/
theorem step_skip (st : St) (acc : Text) {c : Char} {t : Text} (h : brkAt (c :: t) = none) (hf : findBrk t ≠ none ∨ st = .ready) :
    step ⟨st, acc, c :: t⟩ = step ⟨st, acc ++ [c], t⟩ := by
  unfold step
  simp only [findBrk_cons_none h]
  cases t with
  | nil =>
    simp only [findBrk, Option.map_none]
    rcases hf with hf | hf
    · exact absurd rfl hf
    · subst hf; rfl
  | cons d t =>
    cases hb : findBrk (d :: t) with
    | none =>
      rcases hf with hf | hf
      · exact absurd hb hf
      · subst hf; simp
    | some x =>
      obtain ⟨p, b, r⟩ := x
      simp only [Option.map_some, List.append_assoc, List.cons_append, List.nil_append]

theorem ns_congr {c d : Cfg} (h : step c = step d) (n : Nat) : nsRun n c = nsRun n d := by
  cases n with
  | zero => rfl
  | succ n => simp only [nsRun, h]

theorem ns_more {c d : Cfg} (h : step c = .more d) (n : Nat) : nsRun (n + 1) c = nsRun n d := by
  simp only [nsRun, h]

theorem ns_mono {n : Nat} {c : Cfg} {x : Next} (h : nsRun n c = some x) (m : Nat) (hm : n ≤ m) : nsRun m c = some x := by
  induction n generalizing c m with
  | zero => cases h
  | succ n ih =>
    obtain ⟨m, rfl⟩ : ∃ m', m = m' + 1 := ⟨m - 1, by omega⟩
    simp only [nsRun] at h ⊢
    cases hs : step c with
    | more d => simp only [hs] at h ⊢; exact ih h m (by omega)
    | stmt s r => simp only [hs] at h ⊢; exact h
    | undef => simp only [hs] at h ⊢; exact h

/-- The quote that opened a string. -/
def quoteOf (c : Char) : Brk := if c = '"' then .dquote else .squote

theorem findBrk_mem {body t : Text} {q : Char} (hq : q = '"' ∨ q = '\'' ∨ q = '\n') : findBrk (body ++ q :: t) ≠ none := by
  induction body with
  | nil => rcases hq with rfl | rfl | rfl <;> simp [findBrk, brkAt]
  | cons c body ih =>
    simp only [List.cons_append, findBrk]
    cases brkAt (c :: (body ++ q :: t)) with
    | some b => simp
    | none =>
      simp only [ne_eq, Option.map_eq_none_iff]
      exact ih

/-- The states in which `;` does not count, with the character that ends them. -/
def Closes (st : St) (q : Char) : Prop :=
  (q = '"' ∧ st = .quot .dquote) ∨ (q = '\'' ∧ st = .quot .squote) ∨ (q = '\n' ∧ st = .comment)

theorem closes_brk {st : St} {q : Char} (h : Closes st q) : q = '"' ∨ q = '\'' ∨ q = '\n' := by
  rcases h with ⟨h, _⟩ | ⟨h, _⟩ | ⟨h, _⟩ <;> simp [h]

theorem closes_ne_ready {st : St} {q : Char} (h : Closes st q) : st ≠ .ready := by
  rcases h with ⟨_, h⟩ | ⟨_, h⟩ | ⟨_, h⟩ <;> simp [h]

theorem step_close {st : St} {q : Char} (h : Closes st q) (acc t : Text) :
    step ⟨st, acc, q :: t⟩ = .more ⟨.ready, acc ++ [q], t⟩ := by
  rcases h with ⟨rfl, rfl⟩ | ⟨rfl, rfl⟩ | ⟨rfl, rfl⟩ <;> simp [step, findBrk, brkAt, Brk.text]

/-- A break inside a string or comment that does not end it: what follows is looked at next. -/
theorem step_inner {st : St} {q c : Char} (h : Closes st q) {t : Text} {b : Brk} (hb : brkAt (c :: t) = some b) (hc : c ≠ q) (acc : Text) :
    step ⟨st, acc, c :: t⟩ = .more ⟨st, acc ++ (c :: t).take b.text.length, (c :: t).drop b.text.length⟩ := by
  have htake : b.text = (c :: t).take b.text.length := by
    unfold brkAt at hb
    split at hb <;> simp_all [Brk.text] <;> (try (subst hb; simp))
  unfold step
  simp only [findBrk_cons_some hb, List.append_nil]
  have hne : ∀ q' : Brk, q' = b → q'.text = [q] → False := by
    intro q' e hq'
    subst e
    unfold brkAt at hb
    split at hb <;> simp_all [Brk.text] <;> (try (subst hb; simp_all))
  rw [← htake]
  rcases h with ⟨rfl, rfl⟩ | ⟨rfl, rfl⟩ | ⟨rfl, rfl⟩
  · have : b ≠ .dquote := fun e => hne .dquote e.symm rfl
    simp [this]
  · have : b ≠ .squote := fun e => hne .squote e.symm rfl
    simp [this]
  · have : b ≠ .newline := fun e => hne .newline e.symm rfl
    simp [this]

/-- A string or comment is passed over up to its end. -/
theorem run_inner {st : St} {q : Char} (h : Closes st q) (body : Text) (hq : q ∉ body) (acc t : Text) :
    ∃ k, ∀ n, nsRun (n + k) ⟨st, acc, body ++ q :: t⟩ = nsRun n ⟨.ready, acc ++ body ++ [q], t⟩ := by
  induction hl : body.length using Nat.strongRecOn generalizing body acc with
  | ind len ih =>
    cases body with
    | nil =>
      refine ⟨1, fun n => ?_⟩
      simp only [List.nil_append, List.append_nil]
      exact ns_more (step_close h acc t) n
    | cons c body =>
      simp only [List.mem_cons, not_or] at hq
      cases hb : brkAt (c :: (body ++ q :: t)) with
      | none =>
        obtain ⟨k, hk⟩ := ih body.length (by simp at hl; omega) body hq.2 (acc ++ [c]) rfl
        refine ⟨k, fun n => ?_⟩
        rw [List.cons_append, ns_congr (step_skip st acc hb (Or.inl (findBrk_mem (closes_brk h)))) (n + k), hk n]
        simp
      | some b =>
        have hs := step_inner h hb (fun e => hq.1 e.symm) acc
        by_cases hd : b = .dashes
        · subst hd
          -- both dashes are in the body
          have : ∃ body', body = '-' :: body' ∧ c = '-' := by
            unfold brkAt at hb
            cases body with
            | nil =>
              exfalso
              simp only [List.nil_append] at hb
              rcases closes_brk h with rfl | rfl | rfl <;> (split at hb <;> simp_all)
            | cons d body =>
              simp only [List.cons_append] at hb
              split at hb <;> simp_all
          obtain ⟨body', rfl, rfl⟩ := this
          obtain ⟨k, hk⟩ := ih body'.length (by simp at hl; omega) body' (fun hm => hq.2 (List.mem_cons_of_mem _ hm)) (acc ++ ['-', '-']) rfl
          refine ⟨k + 1, fun n => ?_⟩
          simp only [Brk.text, List.length_cons, List.length_nil, List.cons_append, List.take_succ_cons, List.take_zero, List.drop_succ_cons, List.drop_zero] at hs
          show nsRun (n + k + 1) _ = _
          simp only [List.cons_append]
          rw [ns_more hs (n + k), hk n]
          simp
        · have hlen : b.text.length = 1 := by cases b <;> simp_all [Brk.text]
          obtain ⟨k, hk⟩ := ih body.length (by simp at hl; omega) body hq.2 (acc ++ [c]) rfl
          refine ⟨k + 1, fun n => ?_⟩
          rw [hlen] at hs
          simp only [List.take_succ_cons, List.take_zero, List.drop_succ_cons, List.drop_zero] at hs
          show nsRun (n + k + 1) _ = _
          rw [List.cons_append, ns_more hs (n + k), hk n]
          simp

/-- The pieces before a text are passed over. -/
theorem run_pieces {u t : Text} (h : Pieces u t) (acc : Text) :
    ∃ k, ∀ n, nsRun (n + k) ⟨.ready, acc, t ++ u⟩ = nsRun n ⟨.ready, acc ++ t, u⟩ := by
  induction h generalizing acc with
  | nil => exact ⟨0, fun n => by simp⟩
  | simple c t h1 h2 h3 h4 _ ih =>
    obtain ⟨k, hk⟩ := ih (acc ++ [c])
    by_cases hn : c = '\n'
    · subst hn
      refine ⟨k + 1, fun n => ?_⟩
      show nsRun (n + k + 1) _ = _
      have hs : step ⟨.ready, acc, '\n' :: (t ++ u)⟩ = .more ⟨.ready, acc ++ ['\n'], t ++ u⟩ := by
        simp [step, findBrk, brkAt, Brk.text]
      rw [List.cons_append, ns_more hs, hk n]
      simp
    · refine ⟨k, fun n => ?_⟩
      rw [List.cons_append, ns_congr (step_skip .ready acc (brkAt_none h1 h2 h3 hn h4) (Or.inr rfl)), hk n]
      simp
  | quoted q body t h1 h2 _ ih =>
    obtain ⟨k1, hk1⟩ := ih (acc ++ [q] ++ body ++ [q])
    obtain ⟨k2, hk2⟩ := run_inner (st := .quot (quoteOf q)) (q := q) (by rcases h1 with rfl | rfl <;> simp [Closes, quoteOf]) body h2 (acc ++ [q]) (t ++ u)
    refine ⟨k1 + k2 + 1, fun n => ?_⟩
    show nsRun (n + (k1 + k2) + 1) _ = _
    have hs : step ⟨.ready, acc, q :: (body ++ q :: (t ++ u))⟩ = .more ⟨.quot (quoteOf q), acc ++ [q], body ++ q :: (t ++ u)⟩ := by
      rcases h1 with rfl | rfl <;> simp [step, findBrk, brkAt, Brk.text, quoteOf]
    have e : q :: (body ++ q :: t) ++ u = q :: (body ++ q :: (t ++ u)) := by simp
    rw [e, ns_more hs, ← Nat.add_assoc, hk2, hk1]
    simp
  | comment body t h1 _ ih =>
    obtain ⟨k1, hk1⟩ := ih (acc ++ ['-', '-'] ++ body ++ ['\n'])
    obtain ⟨k2, hk2⟩ := run_inner (st := .comment) (q := '\n') (by simp [Closes]) body h1 (acc ++ ['-', '-']) (t ++ u)
    refine ⟨k1 + k2 + 1, fun n => ?_⟩
    show nsRun (n + (k1 + k2) + 1) _ = _
    have hs : step ⟨.ready, acc, '-' :: '-' :: (body ++ '\n' :: (t ++ u))⟩ = .more ⟨.comment, acc ++ ['-', '-'], body ++ '\n' :: (t ++ u)⟩ := by
      simp [step, findBrk, brkAt, Brk.text]
    have e : '-' :: '-' :: (body ++ '\n' :: t) ++ u = '-' :: '-' :: (body ++ '\n' :: (t ++ u)) := by simp
    rw [e, ns_more hs, ← Nat.add_assoc, hk2, hk1]
    simp

/-- A statement is found. -/
theorem run_statement {s : Text} (h : Statement s) (r : Text) : ∃ k, nsRun k ⟨.ready, [], s ++ r⟩ = some (.stmt s r) := by
  obtain ⟨t, ht, rfl⟩ := h
  obtain ⟨k, hk⟩ := run_pieces (pieces_congr (u' := ';' :: r) ht rfl) []
  refine ⟨1 + k, ?_⟩
  rw [List.append_assoc]
  show nsRun (1 + k) ⟨.ready, [], t ++ ';' :: r⟩ = _
  rw [hk 1]
  simp [nsRun, step, findBrk, brkAt, Brk.text]

/-- Text without a further statement, in which everything is closed, ends the loop. -/
theorem run_tail {t : Text} (h : Pieces [] t) : ∃ k, nsRun k ⟨.ready, [], t⟩ = some .undef := by
  obtain ⟨k, hk⟩ := run_pieces h []
  refine ⟨1 + k, ?_⟩
  have := hk 1
  rw [List.append_nil] at this
  rw [this]
  simp [nsRun, step]

/-- In a string or comment without end no statement is found. -/
theorem run_open {st : St} {q : Char} (h : Closes st q) (n : Nat) (body : Text) (hq : q ∉ body) (acc : Text) (s r : Text) :
    nsRun n ⟨st, acc, body⟩ ≠ some (.stmt s r) := by
  have hcase : ∀ c body, c ≠ q → ∀ b, brkAt (c :: body) = some b →
      step ⟨st, acc, c :: body⟩ = .more ⟨st, acc ++ (c :: body).take b.text.length, (c :: body).drop b.text.length⟩ :=
    fun c body hc b hb => step_inner h hb hc acc
  induction n generalizing body acc with
  | zero => simp [nsRun]
  | succ n ih =>
    have hready := closes_ne_ready h
    cases hf : findBrk body with
    | none =>
      cases body with
      | nil => simp [nsRun, step]
      | cons c body =>
        have : step ⟨st, acc, c :: body⟩ = .more ⟨st, acc, c :: body⟩ := by
          unfold step
          simp only [hf]
        rw [ns_more this]
        exact ih (c :: body) hq acc (fun c body hc b hb => step_inner h hb hc acc)
    | some x =>
      -- pass over the text before the break
      have key : ∀ (body : Text) (acc : Text), q ∉ body → findBrk body ≠ none → nsRun (n + 1) ⟨st, acc, body⟩ ≠ some (.stmt s r) := by
        intro body
        induction body with
        | nil => intro acc _ hf; exact absurd rfl hf
        | cons c body ihb =>
          intro acc hq hf
          simp only [List.mem_cons, not_or] at hq
          cases hb : brkAt (c :: body) with
          | none =>
            have hfb : findBrk body ≠ none := by
              rw [findBrk_cons_none hb] at hf
              simpa using hf
            rw [ns_congr (step_skip st acc hb (Or.inl hfb))]
            exact ihb (acc ++ [c]) hq.2 hfb
          | some b =>
            rw [ns_more (step_inner h hb (fun e => hq.1 e.symm) acc)]
            refine ih _ ?_ _ (fun c body hc b hb => step_inner h hb hc _)
            intro hm
            have := List.mem_of_mem_drop hm
            simp only [List.mem_cons] at this
            rcases this with e | e
            · exact hq.1 e
            · exact hq.2 e
      exact key body acc hq (by simp [hf])

/-- A string or comment without end, whose text does not end with a character that belongs to a break, is looked at for ever. -/
theorem run_hangs {st : St} {q : Char} (h : Closes st q) (n : Nat) (body : Text) (c : Char) (hq : q ∉ body) (acc : Text)
    (h1 : c ≠ '"') (h2 : c ≠ '\'') (h3 : c ≠ ';') (h4 : c ≠ '\n') (h5 : c ≠ '-') :
    nsRun n ⟨st, acc, body ++ [c]⟩ = none := by
  have hstay : ∀ acc (body : Text), findBrk (body ++ [c]) = none → step ⟨st, acc, body ++ [c]⟩ = .more ⟨st, acc, body ++ [c]⟩ := by
    intro acc body hf
    unfold step
    simp only [hf]
    cases hb : body ++ [c] with
    | nil => simp at hb
    | cons d t => rcases h with ⟨_, rfl⟩ | ⟨_, rfl⟩ | ⟨_, rfl⟩ <;> rfl
  induction n generalizing body acc with
  | zero => rfl
  | succ n ih =>
    by_cases hf : findBrk (body ++ [c]) = none
    · rw [ns_more (hstay acc body hf)]
      exact ih body hq acc
    · have key : ∀ (body acc : Text), q ∉ body → findBrk (body ++ [c]) ≠ none → nsRun (n + 1) ⟨st, acc, body ++ [c]⟩ = none := by
        intro body
        induction body with
        | nil =>
          intro acc _ hf
          exact absurd (by simp [findBrk, brkAt_none (t := []) h1 h2 h3 h4 (fun e => h5 e.1)]) hf
        | cons d body ihb =>
          intro acc hq hf
          simp only [List.mem_cons, not_or] at hq
          cases hb : brkAt (d :: (body ++ [c])) with
          | none =>
            have hfb : findBrk (body ++ [c]) ≠ none := by
              rw [List.cons_append, findBrk_cons_none hb] at hf
              simpa using hf
            rw [List.cons_append, ns_congr (step_skip st acc hb (Or.inl hfb))]
            exact ihb (acc ++ [d]) hq.2 hfb
          | some b =>
            rw [List.cons_append, ns_more (step_inner h hb (fun e => hq.1 e.symm) acc)]
            by_cases hd : b = .dashes
            · subst hd
              have : ∃ body', body = '-' :: body' := by
                unfold brkAt at hb
                cases body with
                | nil =>
                  exfalso
                  simp only [List.nil_append] at hb
                  split at hb <;> simp_all
                | cons e body =>
                  simp only [List.cons_append] at hb
                  split at hb <;> simp_all
              obtain ⟨body', rfl⟩ := this
              exact ih body' (fun hm => hq.2 (List.mem_cons_of_mem _ hm)) _
            · have hlen : b.text.length = 1 := by cases b <;> simp_all [Brk.text]
              rw [hlen]
              exact ih body hq.2 _
      exact key body acc hq hf

/-- The first occurrence of a character. -/
theorem first_occ {c : Char} {t : Text} (hm : c ∈ t) : ∃ body r, t = body ++ c :: r ∧ c ∉ body := by
  induction t with
  | nil => cases hm
  | cons d t ih =>
    by_cases e : d = c
    · exact ⟨[], t, by simp [e], by simp⟩
    · have hm' : c ∈ t := by
        rcases List.mem_cons.1 hm with h | h
        · exact absurd h.symm e
        · exact h
      obtain ⟨body, r, e', hb⟩ := ih hm'
      exact ⟨d :: body, r, by simp [e'], by simp [hb, Ne.symm e]⟩

/-- Every text begins with a statement, or has none and everything closed, or has a string or comment without end. -/
theorem decompose (sql : Text) :
    (∃ s r, Statement s ∧ sql = s ++ r) ∨ Pieces [] sql ∨
    (∃ q t body, (q = '"' ∨ q = '\'') ∧ q ∉ body ∧ Pieces (q :: body) t ∧ sql = t ++ q :: body) ∨
    (∃ t body, '\n' ∉ body ∧ Pieces ('-' :: '-' :: body) t ∧ sql = t ++ '-' :: '-' :: body) := by
  induction hl : sql.length using Nat.strongRecOn generalizing sql with
  | ind len ih =>
    -- what is put before what is known of the rest
    have ext : ∀ (front rest : Text), sql = front ++ rest → rest.length < len →
        (∀ u t, Pieces u t → t ++ u = rest → Pieces u (front ++ t)) → (∀ t u r, Pieces u t → t ++ u ++ r = rest → u ≠ [] → Pieces u (front ++ t)) →
        ((∃ s r, Statement s ∧ sql = s ++ r) ∨ Pieces [] sql ∨
        (∃ q t body, (q = '"' ∨ q = '\'') ∧ q ∉ body ∧ Pieces (q :: body) t ∧ sql = t ++ q :: body) ∨
        (∃ t body, '\n' ∉ body ∧ Pieces ('-' :: '-' :: body) t ∧ sql = t ++ '-' :: '-' :: body)) := by
      intro front rest e hlt hp hp'
      rcases ih rest.length hlt rest rfl with ⟨s, r, ⟨t, ht, rfl⟩, hr⟩ | h | ⟨q, t, body, h1, h2, h3, h4⟩ | ⟨t, body, h1, h2, h3⟩
      · left
        refine ⟨front ++ t ++ [';'], r, ⟨front ++ t, hp' t [';'] r ht hr.symm (by simp), rfl⟩, ?_⟩
        rw [e, hr]; simp
      · right; left
        rw [e]
        exact hp [] rest h (by simp)
      · right; right; left
        exact ⟨q, front ++ t, body, h1, h2, hp _ _ h3 h4.symm, by rw [e, h4]; simp⟩
      · right; right; right
        exact ⟨front ++ t, body, h1, hp _ _ h2 h3.symm, by rw [e, h3]; simp⟩
    cases sql with
    | nil => right; left; exact .nil
    | cons c rest =>
      have hlt : rest.length < len := by simp at hl; omega
      by_cases h3 : c = ';'
      · left
        subst h3
        exact ⟨[';'], rest, ⟨[], .nil, rfl⟩, rfl⟩
      · by_cases hq : c = '"' ∨ c = '\''
        · by_cases hm : c ∈ rest
          · obtain ⟨body, t, e, hb⟩ := first_occ hm
            refine ext (c :: (body ++ [c])) t (by simp [e]) (by rw [e] at hlt; simp at hlt; omega) ?_ ?_
            · intro u t' hp _
              have := Pieces.quoted c body t' hq hb hp
              simpa using this
            · intro t' u r hp _ _
              have := Pieces.quoted c body t' hq hb hp
              simpa using this
          · right; right; left
            exact ⟨c, [], rest, hq, hm, .nil, rfl⟩
        · simp only [not_or] at hq
          by_cases hd : c = '-' ∧ rest.head? = some '-'
          · obtain ⟨rfl, hd⟩ := hd
            cases rest with
            | nil => cases hd
            | cons d rest =>
              simp only [List.head?_cons, Option.some.injEq] at hd
              subst hd
              by_cases hm : '\n' ∈ rest
              · obtain ⟨body, t, e, hb⟩ := first_occ hm
                refine ext ('-' :: '-' :: (body ++ ['\n'])) t (by simp [e]) (by rw [e] at hlt; simp at hlt; omega) ?_ ?_
                · intro u t' hp _
                  have := Pieces.comment body t' hb hp
                  simpa using this
                · intro t' u r hp _ _
                  have := Pieces.comment body t' hb hp
                  simpa using this
              · right; right; right
                exact ⟨[], rest, hm, .nil, rfl⟩
          · refine ext [c] rest rfl hlt ?_ ?_
            · intro u t hp e
              refine .simple c t hq.1 hq.2 h3 ?_ hp
              rw [e]; exact hd
            · intro t u r hp e hu
              refine .simple c t hq.1 hq.2 h3 ?_ hp
              intro ⟨e1, e2⟩
              apply hd
              refine ⟨e1, ?_⟩
              rw [← e, List.head?_append, e2]; rfl

theorem ns_sound {n : Nat} {sql : Text} {x : Next} (h : nsRun n ⟨.ready, [], sql⟩ = some x) :
    (∃ s r, x = .stmt s r ∧ Statement s ∧ sql = s ++ r) ∨ (x = .undef ∧ NoStatement sql) := by
  have det : ∀ k y, nsRun k ⟨.ready, [], sql⟩ = some y → y = x := by
    intro k y hk
    have a := ns_mono h (n + k) (by omega)
    have b := ns_mono hk (n + k) (by omega)
    rw [a] at b
    exact (Option.some.inj b).symm
  cases x with
  | undef =>
    right
    refine ⟨rfl, ?_⟩
    intro s r hs e
    obtain ⟨k, hk⟩ := run_statement hs r
    rw [← e] at hk
    cases det k _ hk
  | stmt s r =>
    left
    refine ⟨s, r, rfl, ?_⟩
    rcases decompose sql with ⟨s', r', hs, e⟩ | ht | ⟨q, t, body, h1, h2, h3, e⟩ | ⟨t, body, h1, h2, e⟩
    · obtain ⟨k, hk⟩ := run_statement hs r'
      rw [← e] at hk
      cases det k _ hk
      exact ⟨hs, e⟩
    · obtain ⟨k, hk⟩ := run_tail ht
      cases det k _ hk
    · exfalso
      obtain ⟨k, hk⟩ := run_pieces h3 []
      have a := ns_mono h (n + 1 + k) (by omega)
      rw [e, hk (n + 1)] at a
      have hs : step ⟨.ready, [] ++ t, q :: body⟩ = .more ⟨.quot (quoteOf q), [] ++ t ++ [q], body⟩ := by
        rcases h1 with rfl | rfl <;> simp [step, findBrk, brkAt, Brk.text, quoteOf]
      rw [ns_more hs] at a
      exact run_open (by rcases h1 with rfl | rfl <;> simp [Closes, quoteOf]) n body h2 _ s r a
    · exfalso
      obtain ⟨k, hk⟩ := run_pieces h2 []
      have a := ns_mono h (n + 1 + k) (by omega)
      rw [e, hk (n + 1)] at a
      have hs : step ⟨.ready, [] ++ t, '-' :: '-' :: body⟩ = .more ⟨.comment, [] ++ t ++ ['-', '-'], body⟩ := by
        simp [step, findBrk, brkAt, Brk.text]
      rw [ns_more hs] at a
      exact run_open (q := '\n') (by simp [Closes]) n body h1 _ s r a

theorem loop_mono {n k : Nat} {sql : Text} {out : List Text} (h : splitLoop n k sql = some out) (n' k' : Nat) (hn : n ≤ n') (hk : k ≤ k') :
    splitLoop n' k' sql = some out := by
  induction k generalizing sql out k' with
  | zero => cases h
  | succ k ih =>
    obtain ⟨k', rfl⟩ : ∃ m, k' = m + 1 := ⟨k' - 1, by omega⟩
    cases sql with
    | nil => exact h
    | cons c sql =>
      simp only [splitLoop] at h ⊢
      cases hr : nsRun n ⟨.ready, [], c :: sql⟩ with
      | none => rw [hr] at h; cases h
      | some x =>
        rw [hr] at h
        rw [ns_mono hr n' hn]
        cases x with
        | undef => exact h
        | stmt s r =>
          simp only [Option.map_eq_some_iff] at h ⊢
          obtain ⟨o, ho, e⟩ := h
          exact ⟨o, ih ho k' (by omega), e⟩

theorem statement_ne {s : Text} (h : Statement s) : s ≠ [] := by
  obtain ⟨t, _, rfl⟩ := h
  simp

/-! ## The properties -/

/-- **C153.** What `splitSQL` returns, whatever the document: the statements of the grammar, one after the other from the beginning, and what is left (which it drops) does not begin with a further one. -/
theorem split_sound (sql : Text) (out : List Text) (h : Returns sql out) : Splits sql out := by
  obtain ⟨n, h0⟩ := h
  obtain ⟨k, h⟩ : ∃ k, splitLoop n k sql = some out := ⟨n, h0⟩
  clear h0
  induction k generalizing sql out with
  | zero => cases h
  | succ k ih =>
    cases sql with
    | nil =>
      simp only [splitLoop, Option.some.injEq] at h
      subst h
      refine ⟨by simp, [], rfl, ?_⟩
      intro s r hs e
      have := (List.append_eq_nil_iff.1 e.symm).1
      exact statement_ne hs this
    | cons c sql =>
      simp only [splitLoop] at h
      cases hr : nsRun n ⟨.ready, [], c :: sql⟩ with
      | none => rw [hr] at h; cases h
      | some x =>
        rw [hr] at h
        rcases ns_sound hr with ⟨s, r, rfl, hs, e⟩ | ⟨rfl, hn⟩
        · simp only [Option.map_eq_some_iff] at h
          obtain ⟨o, ho, rfl⟩ := h
          obtain ⟨h1, rest, h2, h3⟩ := ih r o ho
          refine ⟨?_, rest, ?_, h3⟩
          · intro x hx
            rcases List.mem_cons.1 hx with rfl | hx
            · exact hs
            · exact h1 x hx
          · rw [e, h2]; simp
        · simp only [Option.some.injEq] at h
          subst h
          exact ⟨by simp, c :: sql, rfl, hn⟩

/-- **C153.** The document has only one such division: two answers are the same. -/
theorem split_unique (sql : Text) (a b : List Text) (ha : Splits sql a) (hb : Splits sql b) : a = b := by
  have uniq : ∀ s s' r r' : Text, Statement s → Statement s' → s ++ r = s' ++ r' → s = s' ∧ r = r' := by
    intro s s' r r' h1 h2 e
    obtain ⟨k1, hk1⟩ := run_statement h1 r
    obtain ⟨k2, hk2⟩ := run_statement h2 r'
    rw [← e] at hk2
    have p := ns_mono hk1 (k1 + k2) (by omega)
    have q := ns_mono hk2 (k1 + k2) (by omega)
    rw [p] at q
    cases q
    exact ⟨rfl, rfl⟩
  induction a generalizing sql b with
  | nil =>
    cases b with
    | nil => rfl
    | cons s b =>
      obtain ⟨_, rest, e, hn⟩ := ha
      obtain ⟨h1, rest', e', _⟩ := hb
      exfalso
      refine hn s (b.flatten ++ rest') (h1 s (by simp)) ?_
      have : rest = sql := by simpa using e.symm
      rw [this, e']; simp
  | cons s a ih =>
    obtain ⟨h1, rest, e, hn⟩ := ha
    cases b with
    | nil =>
      obtain ⟨_, rest', e', hn'⟩ := hb
      exfalso
      refine hn' s (a.flatten ++ rest) (h1 s (by simp)) ?_
      have : rest' = sql := by simpa using e'.symm
      rw [this, e]; simp
    | cons s' b =>
      obtain ⟨h1', rest', e', hn'⟩ := hb
      have he : s ++ (a.flatten ++ rest) = s' ++ (b.flatten ++ rest') := by
        rw [e] at e'
        simpa using e'
      obtain ⟨rfl, hr⟩ := uniq s s' _ _ (h1 s (by simp)) (h1' s' (by simp)) he
      rw [ih (a.flatten ++ rest) b ⟨fun x hx => h1 x (by simp [hx]), rest, rfl, hn⟩ ⟨fun x hx => h1' x (by simp [hx]), rest', hr, hn'⟩]

/-- **C153, for documents in which every string and comment is closed** (a comment by the end of its line): `splitSQL` returns, and returns exactly the statements; text after the last `;` is dropped. -/
theorem split_returns_partial (stmts : List Text) (tail : Text) (hs : ∀ s ∈ stmts, Statement s) (ht : Pieces [] tail) :
    Returns (stmts.flatten ++ tail) stmts := by
  suffices h : ∃ n k, splitLoop n k (stmts.flatten ++ tail) = some stmts by
    obtain ⟨n, k, h⟩ := h
    exact ⟨n + k, loop_mono h (n + k) (n + k) (by omega) (by omega)⟩
  induction stmts with
  | nil =>
    obtain ⟨n, hn⟩ := run_tail ht
    refine ⟨n, 1, ?_⟩
    simp only [List.flatten_nil, List.nil_append]
    cases tail with
    | nil => rfl
    | cons c tail => simp only [splitLoop, hn]
  | cons s stmts ih =>
    obtain ⟨n, k, h⟩ := ih (fun x hx => hs x (by simp [hx]))
    obtain ⟨m, hm⟩ := run_statement (hs s (by simp)) (stmts.flatten ++ tail)
    refine ⟨n + m, k + 1, ?_⟩
    have e : (s :: stmts).flatten ++ tail = s ++ (stmts.flatten ++ tail) := by simp
    rw [e]
    cases hsr : s ++ (stmts.flatten ++ tail) with
    | nil => exact absurd (List.append_eq_nil_iff.1 hsr).1 (statement_ne (hs s (by simp)))
    | cons c rest =>
      rw [hsr] at hm
      simp only [splitLoop, ns_mono hm (n + m) (by omega), loop_mono h (n + m) k (by omega) (by omega), Option.map_some]

example : Returns ['a', '\'', ';', '\'', ';', ' ', '-', '-', ';', '\n', 'b', ';', ' '] [['a', '\'', ';', '\'', ';'], [' ', '-', '-', ';', '\n', 'b', ';']] :=
  ⟨10, by decide⟩

/-- A document that ends with a string or comment that is not closed; its text does not end with a character of a break. -/
def EndsOpen (sql : Text) : Prop :=
  ∃ (stmts : List Text) (t opening body : Text) (c : Char),
    (∀ s ∈ stmts, Statement s) ∧
    ((opening = ['"'] ∧ '"' ∉ body) ∨ (opening = ['\''] ∧ '\'' ∉ body) ∨ (opening = ['-', '-'] ∧ '\n' ∉ body)) ∧
    Pieces opening t ∧
    c ≠ '"' ∧ c ≠ '\'' ∧ c ≠ ';' ∧ c ≠ '\n' ∧ c ≠ '-' ∧
    sql = stmts.flatten ++ (t ++ (opening ++ (body ++ [c])))

/-- **C153 is false: `splitSQL` never returns** for any document that ends with a comment without end of line, or within a string. -/
theorem split_hangs (sql : Text) (h : EndsOpen sql) : Hangs sql := by
  obtain ⟨stmts, t, opening, body, c, hs, ho, hp, h1, h2, h3, h4, h5, rfl⟩ := h
  intro n
  have hns : ∀ m, nsRun m ⟨.ready, [], t ++ (opening ++ (body ++ [c]))⟩ = none := by
    intro m
    have hne : opening ≠ [] := by rcases ho with ⟨rfl, _⟩ | ⟨rfl, _⟩ | ⟨rfl, _⟩ <;> simp
    obtain ⟨k, hk⟩ := run_pieces (pieces_congr (u' := opening ++ (body ++ [c])) hp (by cases opening with | nil => exact absurd rfl hne | cons a b => rfl)) []
    cases hx : nsRun m ⟨.ready, [], t ++ (opening ++ (body ++ [c]))⟩ with
    | none => rfl
    | some x =>
      exfalso
      have a := ns_mono hx (m + 1 + k) (by omega)
      rw [hk (m + 1)] at a
      rcases ho with ⟨rfl, hb⟩ | ⟨rfl, hb⟩ | ⟨rfl, hb⟩
      · rw [ns_more (d := ⟨.quot .dquote, [] ++ t ++ ['"'], body ++ [c]⟩) (by simp [step, findBrk, brkAt, Brk.text]),
          run_hangs (q := '"') (by simp [Closes]) m body c hb _ h1 h2 h3 h4 h5] at a
        cases a
      · rw [ns_more (d := ⟨.quot .squote, [] ++ t ++ ['\''], body ++ [c]⟩) (by simp [step, findBrk, brkAt, Brk.text]),
          run_hangs (q := '\'') (by simp [Closes]) m body c hb _ h1 h2 h3 h4 h5] at a
        cases a
      · rw [ns_more (d := ⟨.comment, [] ++ t ++ ['-', '-'], body ++ [c]⟩) (by simp [step, findBrk, brkAt, Brk.text]),
          run_hangs (q := '\n') (by simp [Closes]) m body c hb _ h1 h2 h3 h4 h5] at a
        cases a
  unfold splitSQL
  generalize hk : n = k
  have : splitLoop n k (stmts.flatten ++ (t ++ (opening ++ (body ++ [c])))) = none := by
    clear hk
    induction stmts generalizing k with
    | nil =>
      cases k with
      | zero => rfl
      | succ k =>
        simp only [List.flatten_nil, List.nil_append]
        have hn := hns n
        cases hr : t ++ (opening ++ (body ++ [c])) with
        | nil => simp at hr
        | cons d rest => rw [hr] at hn; simp only [splitLoop, hn]
    | cons s stmts ih =>
      cases k with
      | zero => rfl
      | succ k =>
        have e : (s :: stmts).flatten ++ (t ++ (opening ++ (body ++ [c]))) = s ++ (stmts.flatten ++ (t ++ (opening ++ (body ++ [c])))) := by simp
        rw [e]
        obtain ⟨m, hm⟩ := run_statement (hs s (by simp)) (stmts.flatten ++ (t ++ (opening ++ (body ++ [c]))))
        cases hsr : s ++ (stmts.flatten ++ (t ++ (opening ++ (body ++ [c])))) with
        | nil => exact absurd (List.append_eq_nil_iff.1 hsr).1 (statement_ne (hs s (by simp)))
        | cons d rest =>
          rw [hsr] at hm
          simp only [splitLoop]
          cases hx : nsRun n ⟨.ready, [], d :: rest⟩ with
          | none => rfl
          | some x =>
            have p := ns_mono hx (n + m) (by omega)
            rw [ns_mono hm (n + m) (by omega)] at p
            cases p
            simp only [ih (fun x hx => hs x (by simp [hx])), Option.map_none]
  rw [hk] at this
  exact this

/-- **C153, witness:** the document `a; -- b`. -/
theorem split_hangs_false : Hangs ['a', ';', ' ', '-', '-', ' ', 'b'] := by
  refine split_hangs _ ⟨[['a', ';']], [' '], ['-', '-'], [' '], 'b', ?_, by simp, ?_, by decide, by decide, by decide, by decide, by decide, rfl⟩
  · intro s hs
    simp only [List.mem_singleton] at hs
    subst hs
    exact ⟨['a'], .simple 'a' [] (by decide) (by decide) (by decide) (by simp) .nil, rfl⟩
  · exact .simple ' ' [] (by decide) (by decide) (by decide) (by simp) .nil

/-- **C153.** Every document is one of those of `split_returns_partial`, or ends within a string or comment. -/
theorem split_cases (sql : Text) :
    ∃ (stmts : List Text) (tail : Text), (∀ s ∈ stmts, Statement s) ∧ sql = stmts.flatten ++ tail ∧
      (Pieces [] tail ∨
       (∃ q t body, (q = '"' ∨ q = '\'') ∧ q ∉ body ∧ Pieces (q :: body) t ∧ tail = t ++ q :: body) ∨
       (∃ t body, '\n' ∉ body ∧ Pieces ('-' :: '-' :: body) t ∧ tail = t ++ '-' :: '-' :: body)) := by
  induction hl : sql.length using Nat.strongRecOn generalizing sql with
  | ind len ih =>
    rcases decompose sql with ⟨s, r, hs, e⟩ | h
    · have hlt : r.length < len := by
        have := congrArg List.length e
        have hpos := List.length_pos_iff.2 (statement_ne hs)
        simp only [List.length_append] at this
        omega
      obtain ⟨stmts, tail, h1, h2, h3⟩ := ih r.length hlt r rfl
      refine ⟨s :: stmts, tail, ?_, ?_, h3⟩
      · intro x hx
        rcases List.mem_cons.1 hx with rfl | hx
        · exact hs
        · exact h1 x hx
      · rw [e, h2]; simp
    · exact ⟨[], sql, by simp, rfl, h⟩

end Verif.DBI
