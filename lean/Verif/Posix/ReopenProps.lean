import Verif.Posix.Reopen

/-!
# `freopen64` (C245)
-/

namespace Verif.Posix.Reopen

/-! ## Specification -/

/-- How many descriptors are used. -/
def used (s : Sys) : Nat := s.tab.countP (·.isSome)

/-- The open file behind a descriptor. -/
def behind (s : Sys) (fd : Nat) : Option Desc := ((s.tab[fd]?).join).bind (s.descs[·]?)

/-- The table refers to open files only. -/
def Sound (s : Sys) : Prop := ∀ fd d : Nat, s.tab[fd]? = some (some d) → d < s.descs.length

/-- A stream that is open. -/
def Live (s : Sys) (f : Stream) : Prop := ∃ d : Nat, s.tab[f.fd]? = some (some d)

/-- `xs` and `ys` agree but for the places of a file that is written: `pos` zero-filled. -/
def Patched (old : List Nat) (pos : Nat) (bs new : List Nat) : Prop :=
  ∀ i, new[i]? =
    if i < pos then (if i < old.length then old[i]? else if bs = [] then none else some 0)
    else if i < pos + bs.length then bs[i - pos]?
    else old[i]?

/-! ## Lemmas -/

theorem freeFd_some : ∀ (t : List (Option Nat)) (fd : Nat), freeFd t = some fd → t[fd]? = some none
  | [], fd, h => by cases h
  | none :: t, fd, h => by
    simp only [freeFd, Option.some.injEq] at h
    subst h
    rfl
  | some a :: t, fd, h => by
    simp only [freeFd, Option.map_eq_some_iff] at h
    obtain ⟨k, hk, rfl⟩ := h
    simpa using freeFd_some t k hk

theorem freeFd_none : ∀ (t : List (Option Nat)), freeFd t = none ↔ t.countP (·.isSome) = t.length
  | [] => by simp [freeFd]
  | none :: t => by
    have := List.countP_le_length (p := fun x : Option Nat => x.isSome) (l := t)
    simp only [freeFd, List.countP_cons, List.length_cons]
    simp
    omega
  | some a :: t => by
    have := freeFd_none t
    simp only [freeFd, List.countP_cons, List.length_cons, Option.map_eq_none_iff, Option.isSome_some, if_true]
    rw [this]
    omega

theorem count_set (t : List (Option Nat)) (i : Nat) (a b : Option Nat) (h : t[i]? = some a) :
    (t.set i b).countP (·.isSome) + (if a.isSome then 1 else 0) = t.countP (·.isSome) + (if b.isSome then 1 else 0) := by
  induction t generalizing i with
  | nil => simp at h
  | cons x t ih =>
    cases i with
    | zero =>
      simp only [List.getElem?_cons_zero, Option.some.injEq] at h
      subst h
      simp only [List.set_cons_zero, List.countP_cons]
      omega
    | succ i =>
      simp only [List.getElem?_cons_succ] at h
      have := ih i h
      simp only [List.set_cons_succ, List.countP_cons]
      omega

theorem flush_tab (e : Env) (s : Sys) (f : Stream) : (flush e s f).1.tab = s.tab := by
  unfold flush
  split
  · rfl
  · split
    · split
      · rfl
      · split <;> rfl
    · rfl

theorem flush_len (e : Env) (s : Sys) (f : Stream) : (flush e s f).1.descs.length = s.descs.length := by
  unfold flush
  split
  · rfl
  · split
    · split
      · rfl
      · split
        · rfl
        · simp
    · rfl

theorem flush_fd (e : Env) (s : Sys) (f : Stream) : (flush e s f).2.fd = f.fd ∧ (flush e s f).2.writes = f.writes := by
  unfold flush
  split
  · exact ⟨rfl, rfl⟩
  · split
    · split
      · exact ⟨rfl, rfl⟩
      · split <;> exact ⟨rfl, rfl⟩
    · exact ⟨rfl, rfl⟩

/-- A new file behind the first free descriptor. -/
def opened (s : Sys) (fd name : Nat) (wr : Bool) : Sys :=
  { tab := s.tab.set fd (some s.descs.length)
    descs := s.descs ++ [⟨name, 0, wr⟩]
    files := fun n => if n = name && wr then some [] else s.files n }

theorem open_cases (e : Env) (s : Sys) (name : Nat) (wr : Bool) :
    (openFile e s name wr = (none, s) ∧ (freeFd s.tab = none ∨ mayOpen e s name wr = false)) ∨
    ∃ fd, freeFd s.tab = some fd ∧ mayOpen e s name wr = true ∧ openFile e s name wr = (some fd, opened s fd name wr) := by
  unfold openFile
  cases h : freeFd s.tab with
  | none => exact Or.inl ⟨rfl, Or.inl rfl⟩
  | some fd =>
    cases hm : mayOpen e s name wr with
    | false => exact Or.inl ⟨rfl, Or.inr rfl⟩
    | true => exact Or.inr ⟨fd, rfl, rfl, rfl⟩

theorem fopen_cases (e : Env) (s : Sys) (name : Nat) (wr : Bool) :
    (fopen64 e s name wr = (none, s) ∧ (freeFd s.tab = none ∨ mayOpen e s name wr = false)) ∨
    ∃ fd, freeFd s.tab = some fd ∧ mayOpen e s name wr = true ∧
      fopen64 e s name wr = (if e.fdopenOk then some fd else none, opened s fd name wr) := by
  unfold fopen64
  rcases open_cases e s name wr with ⟨h, h2⟩ | ⟨fd, h1, h2, h3⟩
  · rw [h]
    exact Or.inl ⟨rfl, h2⟩
  · rw [h3]
    refine Or.inr ⟨fd, h1, h2, ?_⟩
    cases e.fdopenOk <;> rfl

theorem opened_sound (s : Sys) (fd name : Nat) (wr : Bool) (hs : Sound s) : Sound (opened s fd name wr) := by
  intro a d h
  simp only [opened, List.length_append, List.length_cons, List.length_nil] at h ⊢
  rw [List.getElem?_set] at h
  split at h
  · split at h
    · simp only [Option.some.injEq] at h
      omega
    · cases h
  · have := hs a d h
    omega

theorem opened_tab (s : Sys) (fd name : Nat) (wr : Bool) (h : freeFd s.tab = some fd) :
    (opened s fd name wr).tab[fd]? = some (some s.descs.length) := by
  have := freeFd_some _ _ h
  have hl : fd < s.tab.length := by
    rcases Nat.lt_or_ge fd s.tab.length with h1 | h1
    · exact h1
    · rw [List.getElem?_eq_none h1] at this
      cases this
  simp only [opened, List.getElem?_set, hl]
  simp

theorem opened_other (s : Sys) (fd name : Nat) (wr : Bool) (h : freeFd s.tab = some fd) (a d : Nat)
    (ha : s.tab[a]? = some (some d)) : (opened s fd name wr).tab[a]? = some (some d) := by
  have hf := freeFd_some _ _ h
  have : fd ≠ a := by
    intro e
    subst e
    rw [hf] at ha
    cases ha
  simp only [opened, List.getElem?_set]
  rw [if_neg this]
  exact ha

theorem opened_used (s : Sys) (fd name : Nat) (wr : Bool) (h : freeFd s.tab = some fd) :
    used (opened s fd name wr) = used s + 1 := by
  have := count_set s.tab fd none (some s.descs.length) (freeFd_some _ _ h)
  simpa [used, opened] using this

theorem writeAt_patched (old : List Nat) (pos : Nat) (bs : List Nat) (hb : bs ≠ []) : Patched old pos bs (writeAt old pos bs) := by
  intro i
  have hl : 0 < bs.length := List.length_pos_iff.mpr hb
  unfold writeAt
  simp only [List.getElem?_append, List.length_append, List.length_take, List.length_replicate, List.getElem?_take,
    List.getElem?_replicate, List.getElem?_drop]
  by_cases h1 : i < pos
  · rw [if_pos h1]
    by_cases h2 : i < old.length
    · grind
    · grind
  · rw [if_neg h1]
    by_cases h2 : i < pos + bs.length
    · grind
    · grind

/-- The whole of `freopen64` in one statement. -/
theorem freopen_cases (e : Env) (s : Sys) (name : Nat) (wr : Bool) (f : Stream) :
    (freopen64 e s name wr f = (false, s, f) ∧ (freeFd s.tab = none ∨ mayOpen e s name wr = false)) ∨
    ∃ fd, freeFd s.tab = some fd ∧ mayOpen e s name wr = true ∧
      freopen64 e s name wr f =
        if e.fdopenOk then
          if e.dupOk then
            (true, { (flush e (opened s fd name wr) f).1 with tab := (opened s fd name wr).tab.set f.fd (some s.descs.length) },
              (flush e (opened s fd name wr) f).2)
          else (false, (flush e (opened s fd name wr) f).1, (flush e (opened s fd name wr) f).2)
        else (false, opened s fd name wr, f) := by
  unfold freopen64
  rcases fopen_cases e s name wr with ⟨h, h2⟩ | ⟨fd, h1, h2, h3⟩
  · rw [h]
    exact Or.inl ⟨rfl, h2⟩
  · refine Or.inr ⟨fd, h1, h2, ?_⟩
    rw [h3]
    cases e.fdopenOk with
    | false => rfl
    | true =>
      cases e.dupOk with
      | false => rfl
      | true =>
        simp only [if_true, flush_tab, opened_tab s fd name wr h1]
        rfl

/-! ## C245 -/

/-- The stream is returned exactly if the file can be opened (there is a free descriptor, the system permits it, a file to be
read is there) and neither `fdopen` nor `dup2` fails. -/
theorem reopen_iff (e : Env) (s : Sys) (name : Nat) (wr : Bool) (f : Stream) :
    (freopen64 e s name wr f).1 = true ↔
      used s < s.tab.length ∧ e.openOk = true ∧ (wr = true ∨ s.files name ≠ none) ∧ e.fdopenOk = true ∧ e.dupOk = true := by
  have hle : used s ≤ s.tab.length := List.countP_le_length
  have hmay : mayOpen e s name wr = true ↔ e.openOk = true ∧ (wr = true ∨ s.files name ≠ none) := by
    unfold mayOpen
    simp [Option.isSome_iff_ne_none]
  rcases freopen_cases e s name wr f with ⟨h, h2⟩ | ⟨fd, h1, h2, h3⟩
  · rw [h]
    constructor
    · intro h
      cases h
    · rintro ⟨a, b, c, -⟩
      rcases h2 with h2 | h2
      · rw [freeFd_none] at h2
        unfold used at a
        omega
      · have := hmay.mpr ⟨b, c⟩
        rw [h2] at this
        cases this
  · have hu : used s < s.tab.length := by
      have : ¬ freeFd s.tab = none := by rw [h1]; exact fun h => by cases h
      rw [freeFd_none] at this
      unfold used at hle ⊢
      omega
    rw [h3]
    have h4 := hmay.mp h2
    cases e.fdopenOk <;> cases e.dupOk <;> simp [hu, h4]

/-- When the stream is returned its descriptor stands at the beginning of the file asked for, open as asked for, and every other
descriptor that was used has the open file it had. -/
theorem reopen_leads (e : Env) (s : Sys) (name : Nat) (wr : Bool) (f : Stream) (hs : Sound s) (hf : Live s f)
    (h : (freopen64 e s name wr f).1 = true) :
    behind (freopen64 e s name wr f).2.1 f.fd = some ⟨name, 0, wr⟩ ∧
    (∀ fd d : Nat, fd ≠ f.fd → s.tab[fd]? = some (some d) → (freopen64 e s name wr f).2.1.tab[fd]? = some (some d)) ∧
    (freopen64 e s name wr f).2.2.fd = f.fd := by
  rcases freopen_cases e s name wr f with ⟨h0, -⟩ | ⟨fd, h1, h2, h3⟩
  · rw [h0] at h
    cases h
  · rw [h3] at h ⊢
    cases hfd : e.fdopenOk with
    | false => simp [hfd] at h
    | true =>
      cases hdup : e.dupOk with
      | false => simp [hfd, hdup] at h
      | true =>
        simp only [if_true]
        obtain ⟨d0, hd0⟩ := hf
        have hd1 := opened_other s fd name wr h1 f.fd d0 hd0
        have hl : f.fd < (opened s fd name wr).tab.length := by
          rcases Nat.lt_or_ge f.fd (opened s fd name wr).tab.length with h1 | h1
          · exact h1
          · rw [List.getElem?_eq_none h1] at hd1
            cases hd1
        refine ⟨?_, ?_, (flush_fd _ _ _).1⟩
        · unfold behind
          simp only [List.getElem?_set, hl, if_true, Option.join_some, Option.bind_some]
          have hlt : d0 < s.descs.length := hs _ _ hd0
          unfold flush
          split
          · simp [opened]
          · split
            · simp only [hd1, Option.join_some]
              split
              · simp [opened]
              · simp only [opened]
                rw [List.getElem?_set_ne (by omega)]
                simp
            · simp [opened]
        · intro a d ha hd
          simp only [List.getElem?_set]
          rw [if_neg (by omega)]
          exact opened_other s fd name wr h1 a d hd

/-- A file that could not be opened changes nothing: the stream stays what it was. -/
theorem refused_keeps (e : Env) (s : Sys) (name : Nat) (wr : Bool) (f : Stream)
    (h : ¬ (used s < s.tab.length ∧ e.openOk = true ∧ (wr = true ∨ s.files name ≠ none))) :
    freopen64 e s name wr f = (false, s, f) := by
  rcases freopen_cases e s name wr f with ⟨h0, -⟩ | ⟨fd, h1, h2, -⟩
  · exact h0
  · refine absurd ⟨?_, ?_⟩ h
    · have hle : used s ≤ s.tab.length := List.countP_le_length
      have : ¬ freeFd s.tab = none := by rw [h1]; exact fun h => by cases h
      rw [freeFd_none] at this
      unfold used at hle ⊢
      omega
    · unfold mayOpen at h2
      simpa [Option.isSome_iff_ne_none] using h2

/-- What waited in the stream is in the file the stream had before, provided that it can be written and that this is not the file
opened for writing now. -/
theorem waiting_written_partial (e : Env) (s : Sys) (name : Nat) (wr : Bool) (f : Stream) (o : Desc)
    (ho : behind s f.fd = some o) (hp : f.pend ≠ []) (hfl : e.flushOk = true) (hne : wr = true → o.name ≠ name)
    (h : (freopen64 e s name wr f).1 = true) :
    (∃ c, (freopen64 e s name wr f).2.1.files o.name = some c ∧ Patched ((s.files o.name).getD []) o.pos f.pend c) ∧
    (freopen64 e s name wr f).2.2.pend = [] ∧
    ∀ n, n ≠ o.name → (wr = true → n ≠ name) → (freopen64 e s name wr f).2.1.files n = s.files n := by
  rcases freopen_cases e s name wr f with ⟨h0, -⟩ | ⟨fd, h1, h2, h3⟩
  · rw [h0] at h
    cases h
  · rw [h3] at h ⊢
    cases hfd : e.fdopenOk with
    | false => simp [hfd] at h
    | true =>
      cases hdup : e.dupOk with
      | false => simp [hfd, hdup] at h
      | true =>
        simp only [if_true]
        unfold behind at ho
        cases ht : s.tab[f.fd]? with
        | none => rw [ht] at ho; simp at ho
        | some x =>
          cases x with
          | none => rw [ht] at ho; simp at ho
          | some d =>
            rw [ht] at ho
            simp only [Option.join_some, Option.bind_some] at ho
            have hd1 := opened_other s fd name wr h1 f.fd d ht
            have hdl : d < s.descs.length := by
              rcases Nat.lt_or_ge d s.descs.length with h1 | h1
              · exact h1
              · rw [List.getElem?_eq_none h1] at ho
                cases ho
            have ho1 : (opened s fd name wr).descs[d]? = some o := by
              simp only [opened]
              rw [List.getElem?_append_left hdl]
              exact ho
            have hfiles : ∀ n, (wr = true → n ≠ name) → (opened s fd name wr).files n = s.files n := by
              intro n hn
              simp only [opened]
              cases wr with
              | false => simp
              | true => simp [hn rfl]
            unfold flush
            rw [if_neg hp, if_pos hfl]
            simp only [hd1, Option.join_some, ho1]
            refine ⟨⟨_, if_pos trivial, ?_⟩, trivial, ?_⟩
            · rw [hfiles o.name hne]
              exact writeAt_patched _ _ _ hp
            · intro n hn hn2
              rw [if_neg hn]
              exact hfiles n hn2

/-- A file opened for writing is empty, provided that nothing waits in the stream or the stream had another file. -/
theorem emptied_partial (e : Env) (s : Sys) (name : Nat) (f : Stream) (o : Desc)
    (ho : behind s f.fd = some o) (hw : f.pend = [] ∨ o.name ≠ name)
    (h : (freopen64 e s name true f).1 = true) :
    (freopen64 e s name true f).2.1.files name = some [] := by
  rcases freopen_cases e s name true f with ⟨h0, -⟩ | ⟨fd, h1, h2, h3⟩
  · rw [h0] at h
    cases h
  · rw [h3] at h ⊢
    cases hfd : e.fdopenOk with
    | false => simp [hfd] at h
    | true =>
      cases hdup : e.dupOk with
      | false => simp [hfd, hdup] at h
      | true =>
        simp only [if_true]
        have hempty : (opened s fd name true).files name = some [] := by simp [opened]
        unfold flush
        by_cases hp : f.pend = []
        · rw [if_pos hp]
          exact hempty
        · rw [if_neg hp]
          have hn : o.name ≠ name := hw.resolve_left hp
          cases hfl : e.flushOk with
          | false => exact hempty
          | true =>
            rw [if_pos rfl]
            unfold behind at ho
            cases ht : s.tab[f.fd]? with
            | none => rw [ht] at ho; simp at ho
            | some x =>
              cases x with
              | none => rw [ht] at ho; simp at ho
              | some d =>
                rw [ht] at ho
                simp only [Option.join_some, Option.bind_some] at ho
                have hd1 := opened_other s fd name true h1 f.fd d ht
                have hdl : d < s.descs.length := by
                  rcases Nat.lt_or_ge d s.descs.length with h1 | h1
                  · exact h1
                  · rw [List.getElem?_eq_none h1] at ho
                    cases ho
                have ho1 : (opened s fd name true).descs[d]? = some o := by
                  simp only [opened]
                  rw [List.getElem?_append_left hdl]
                  exact ho
                simp only [hd1, Option.join_some, ho1]
                rw [if_neg (fun h => hn h.symm)]
                exact hempty

/-- Every call uses up exactly one descriptor when it opens the file, whether or not the stream is returned, and none otherwise. -/
theorem one_descriptor (e : Env) (s : Sys) (name : Nat) (wr : Bool) (f : Stream) (hf : Live s f) :
    used (freopen64 e s name wr f).2.1 =
      used s + if used s < s.tab.length ∧ e.openOk = true ∧ (wr = true ∨ s.files name ≠ none) then 1 else 0 := by
  by_cases hc : used s < s.tab.length ∧ e.openOk = true ∧ (wr = true ∨ s.files name ≠ none)
  · rw [if_pos hc]
    rcases freopen_cases e s name wr f with ⟨-, h2⟩ | ⟨fd, h1, h2, h3⟩
    · rcases h2 with h2 | h2
      · rw [freeFd_none] at h2
        have := hc.1
        unfold used at this
        omega
      · unfold mayOpen at h2
        have := hc.2
        simp [this.1] at h2
        rcases this.2 with h | h
        · rw [h2.1] at h
          cases h
        · exact absurd h2.2 h
    · rw [h3]
      have hu := opened_used s fd name wr h1
      cases e.fdopenOk with
      | false => simpa using hu
      | true =>
        cases e.dupOk with
        | false =>
          simp only [if_true]
          unfold used at hu ⊢
          rw [← hu]
          simp [flush_tab]
        | true =>
          simp only [if_true]
          obtain ⟨d, hd⟩ := hf
          have := count_set _ _ _ (some s.descs.length) (opened_other s fd name wr h1 f.fd d hd)
          unfold used at hu ⊢
          simp only [Option.isSome_some, if_true] at this ⊢
          omega
  · rw [if_neg hc, refused_keeps e s name wr f hc]
    rfl

theorem freopen_len (e : Env) (s : Sys) (name : Nat) (wr : Bool) (f : Stream) :
    (freopen64 e s name wr f).2.1.tab.length = s.tab.length := by
  rcases freopen_cases e s name wr f with ⟨h0, -⟩ | ⟨fd, h1, h2, h3⟩
  · rw [h0]
  · rw [h3]
    cases e.fdopenOk <;> cases e.dupOk <;> simp [opened, flush_tab]

theorem freopen_live (e : Env) (s : Sys) (name : Nat) (wr : Bool) (f : Stream) (hf : Live s f) :
    Live (freopen64 e s name wr f).2.1 (freopen64 e s name wr f).2.2 := by
  rcases freopen_cases e s name wr f with ⟨h0, -⟩ | ⟨fd, h1, h2, h3⟩
  · rw [h0]
    exact hf
  · rw [h3]
    obtain ⟨d, hd⟩ := hf
    have hd1 := opened_other s fd name wr h1 f.fd d hd
    have hl : f.fd < (opened s fd name wr).tab.length := by
      rcases Nat.lt_or_ge f.fd (opened s fd name wr).tab.length with h1 | h1
      · exact h1
      · rw [List.getElem?_eq_none h1] at hd1
        cases hd1
    cases e.fdopenOk with
    | false => exact ⟨d, hd1⟩
    | true =>
      cases e.dupOk with
      | false =>
        refine ⟨d, ?_⟩
        show (flush e (opened s fd name wr) f).1.tab[(flush e (opened s fd name wr) f).2.fd]? = _
        rw [flush_tab, (flush_fd _ _ _).1]
        exact hd1
      | true =>
        refine ⟨s.descs.length, ?_⟩
        simp only [if_true, (flush_fd _ _ _).1, List.getElem?_set, hl]

theorem reopens_used (calls : List (Env × Nat × Bool)) : ∀ (s : Sys) (f : Stream), Live s f →
    used s + (reopens s f calls).1.countP (· = true) ≤ used (reopens s f calls).2.1 ∧
    (reopens s f calls).2.1.tab.length = s.tab.length := by
  induction calls with
  | nil =>
    intro s f _
    exact ⟨Nat.le_refl _, rfl⟩
  | cons c rest ih =>
    intro s f hf
    obtain ⟨e, name, wr⟩ := c
    have hih := ih (freopen64 e s name wr f).2.1 (freopen64 e s name wr f).2.2 (freopen_live e s name wr f hf)
    have h1 := one_descriptor e s name wr f hf
    have hl := freopen_len e s name wr f
    have hr := reopen_iff e s name wr f
    show used s + ((freopen64 e s name wr f).1 :: (reopens (freopen64 e s name wr f).2.1 (freopen64 e s name wr f).2.2 rest).1).countP _ ≤
        used (reopens (freopen64 e s name wr f).2.1 (freopen64 e s name wr f).2.2 rest).2.1 ∧
      (reopens (freopen64 e s name wr f).2.1 (freopen64 e s name wr f).2.2 rest).2.1.tab.length = s.tab.length
    refine ⟨?_, hih.2.trans hl⟩
    rw [List.countP_cons]
    cases hb : (freopen64 e s name wr f).1 with
    | false =>
      have : used s ≤ used (freopen64 e s name wr f).2.1 := by omega
      simp
      simp at hih
      omega
    | true =>
      have := hr.mp hb
      rw [if_pos ⟨this.1, this.2.1, this.2.2.1⟩] at h1
      simp
      simp at hih
      omega

/-- A stream can be reopened only as often as there were free descriptors, whatever else succeeds. -/
theorem reopens_limited (s : Sys) (f : Stream) (calls : List (Env × Nat × Bool)) (hf : Live s f) :
    (reopens s f calls).1.countP (· = true) ≤ s.tab.length - used s := by
  have h := reopens_used calls s f hf
  have : used (reopens s f calls).2.1 ≤ (reopens s f calls).2.1.tab.length := List.countP_le_length
  omega

/-! ### Where the claim is false -/

/-- Everything succeeds. -/
def fine : Env := ⟨true, true, true, true⟩

/-- A process with standard input, output and error and one free descriptor; file 7 has two bytes of output behind descriptor 1. -/
def proc : Sys := ⟨[some 0, some 1, some 2, none], [⟨5, 0, false⟩, ⟨7, 2, true⟩, ⟨6, 0, true⟩], fun n => if n = 7 then some [65, 66] else if n < 7 then some [] else none⟩

/-- The stream of descriptor 1, in which a byte waits. -/
def out : Stream := ⟨1, [67], true⟩

/-- False: that reopening costs no descriptor. The first call takes the last one, and the second call fails although the stream
needs only one. -/
theorem descriptor_lost_false :
    (reopens proc out [(fine, 8, true), (fine, 9, true)]).1 = [true, false] ∧
    used (reopens proc out [(fine, 8, true), (fine, 9, true)]).2.1 = used proc + 1 := by
  decide +kernel

/-- False: that a file opened for writing is empty. A stream reopened on its own file empties it first and then writes what
waited, at the place where it stood: zeros and the last byte are left. -/
theorem own_file_false :
    (freopen64 fine proc 7 true out).1 = true ∧ (freopen64 fine proc 7 true out).2.1.files 7 = some [0, 0, 67] := by
  decide +kernel

/-- False: that what waited goes to the file the stream had. When writing it fails nobody looks; it stays in the stream, whose
descriptor is now the new file, and is written there with the next flush. -/
theorem wrong_file_false :
    let r := freopen64 { fine with flushOk := false } proc 8 true out
    r.1 = true ∧ r.2.1.files 7 = some [65, 66] ∧ r.2.2.pend = [67] ∧
      (flush fine r.2.1 r.2.2).1.files 8 = some [67] := by
  decide +kernel

/-- False: that a stream can be used as the mode says. Only its descriptor is replaced: a stream that reads, reopened for writing,
stays one that the C library does not let write. -/
theorem mode_kept_false (e : Env) (s : Sys) (name : Nat) (f : Stream) (wr : Bool) :
    (freopen64 e s name wr f).2.2.writes = f.writes := by
  rcases freopen_cases e s name wr f with ⟨h0, -⟩ | ⟨fd, h1, h2, h3⟩
  · rw [h0]
  · rw [h3]
    cases e.fdopenOk <;> cases e.dupOk <;> simp [(flush_fd _ _ _).2]

/-- False: that a call that failed changes nothing. With `fdopen` failing the file is emptied and the descriptor is lost. -/
theorem failed_false :
    let r := freopen64 { fine with fdopenOk := false } proc 7 true out
    r.1 = false ∧ r.2.1.files 7 = some [] ∧ used r.2.1 = used proc + 1 := by
  decide +kernel

/-! ### The hypotheses are met -/

example : Sound proc ∧ Live proc out ∧ (freopen64 fine proc 8 true out).1 = true ∧ behind proc 1 = some ⟨7, 2, true⟩ := by
  refine ⟨?_, ⟨1, rfl⟩, by decide +kernel, rfl⟩
  intro fd d h
  match fd with
  | 0 => cases h; decide
  | 1 => cases h; decide
  | 2 => cases h; decide
  | 3 => cases h
  | n + 4 => cases h

example : (freopen64 fine proc 8 true out).2.1.files 7 = some [65, 66, 67] := by decide +kernel

example : freopen64 fine proc 8 true out ≠ freopen64 fine proc 9 true out := by
  intro h
  have := congrArg (fun r => r.2.1.files 8) h
  revert this
  decide +kernel

end Verif.Posix.Reopen
