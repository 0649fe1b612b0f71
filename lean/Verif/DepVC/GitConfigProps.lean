import Verif.DepVC.GitConfig

/-! # Properties of deptool init: git's configuration (C229) -/

namespace Verif.DepVC.GitConfig

open Verif.Deptool.Deps (Text isWord)

/-! ## Specification -/

/-- A value that may be given for a key: not empty, and with an `@` for the address. -/
def Valid (k v : Text) : Prop := v ≠ [] ∧ (k = kEmail → '@' ∈ v)

/-- Nothing but spaces. -/
def Blank (a : Text) : Prop := ∀ c ∈ a, c = ' ' ∨ c = '\t' ∨ c = '\n' ∨ c = '\r' ∨ c = '\x0b' ∨ c = '\x0c'

/-- A configuration that deptool can read: keys of letters, digits, `_` and `.`, values of one line. -/
def Plain (d : Store) : Prop := ∀ e ∈ d, e.1 ≠ [] ∧ (∀ c ∈ e.1, isWord c = true ∨ c = '.') ∧ '\n' ∉ e.2

/-- No key that deptool sets has several values. -/
def Single (d : Store) : Prop := ∀ k ∈ kConfig :: asked, (vals d k).length ≤ 1

/-! ## Lemmas -/

theorem okVal_iff {k v : Text} : okVal k v = true ↔ Valid k v := by
  unfold okVal Valid
  by_cases h1 : v = [] <;> by_cases h2 : k = kEmail <;> simp [h1, h2]

theorem blank_iff {a : Text} : a.all isBlank = true ↔ Blank a := by
  simp [Blank, isBlank, or_assoc]

theorem ask_valid {k d : Text} : ∀ {as : List Text} {v : Text} {rest : List Text}, ask k d as = some (v, rest) →
    Valid k v ∧ (v = d ∨ v ∈ as) ∧ ∀ x ∈ rest, x ∈ as
  | [], v, rest, h => by
    simp only [ask] at h
    split at h
    · rename_i h1
      obtain ⟨rfl, rfl⟩ := Prod.mk.inj (Option.some.inj h)
      exact ⟨okVal_iff.1 h1, .inl rfl, by simp⟩
    · cases h
  | a :: as, v, rest, h => by
    simp only [ask] at h
    split at h
    · rename_i h1
      obtain ⟨rfl, rfl⟩ := Prod.mk.inj (Option.some.inj h)
      refine ⟨okVal_iff.1 h1, ?_, fun x hx => List.mem_cons_of_mem _ hx⟩
      unfold pick
      split
      · exact .inl rfl
      · exact .inr (by simp)
    · obtain ⟨h1, h2, h3⟩ := ask_valid h
      exact ⟨h1, h2.imp id (List.mem_cons_of_mem _), fun x hx => List.mem_cons_of_mem _ (h3 x hx)⟩

theorem vals_append (d e : Store) (k : Text) : vals (d ++ e) k = vals d k ++ vals e k := by simp [vals]

theorem vals_map (d : Store) (k v x : Text) : vals (d.map fun e => if e.1 = k then (k, v) else e) x =
    if x = k then (vals d k).map (fun _ => v) else vals d x := by
  induction d with
  | nil => split <;> rfl
  | cons e d ih =>
    simp only [vals, List.map_cons, List.filter_cons] at ih ⊢
    by_cases he : e.1 = k <;> by_cases hx : x = k
    · subst hx; simp [he] at ih ⊢; exact ih
    · have : k ≠ x := fun h => hx h.symm
      have h2 : e.1 ≠ x := by rw [he]; exact this
      simp [he, hx, this] at ih ⊢; exact ih
    · subst hx; simp [he] at ih ⊢; exact ih
    · by_cases h2 : e.1 = x
      · simp [hx, h2] at ih ⊢; exact ih
      · simp [he, hx, h2] at ih ⊢; exact ih

theorem setKey_vals {k v : Text} {d d' : Store} (h : setKey k v d = some d') : vals d' k = [v] ∧ ∀ x, x ≠ k → vals d' x = vals d x := by
  unfold setKey at h
  split at h
  · rename_i h0
    obtain rfl := Option.some.inj h
    refine ⟨by rw [vals_append, h0]; simp [vals], fun x hx => ?_⟩
    rw [vals_append]
    have : k ≠ x := fun e => hx e.symm
    simp [vals, this]
  · rename_i w h0
    obtain rfl := Option.some.inj h
    refine ⟨by rw [vals_map, if_pos rfl, h0]; rfl, fun x hx => by rw [vals_map, if_neg hx]⟩
  · cases h

theorem setKey_ok (k v : Text) (d : Store) (h : (vals d k).length ≤ 1) : ∃ d', setKey k v d = some d' := by
  unfold setKey
  split
  · exact ⟨_, rfl⟩
  · exact ⟨_, rfl⟩
  · rename_i h1 h2
    match hv : vals d k, h with
    | [], _ => exact absurd hv h1
    | [w], _ => exact absurd hv (h2 w)

theorem setKey_plain {k v : Text} {d d' : Store} (h : setKey k v d = some d') (hp : Plain d)
    (hk : k ≠ [] ∧ ∀ c ∈ k, isWord c = true ∨ c = '.') (hv : '\n' ∉ v) : Plain d' := by
  unfold setKey at h
  split at h
  · obtain rfl := Option.some.inj h
    intro e he
    rcases List.mem_append.1 he with he | he
    · exact hp e he
    · obtain rfl := List.mem_singleton.1 he
      exact ⟨hk.1, hk.2, hv⟩
  · obtain rfl := Option.some.inj h
    intro e he
    obtain ⟨x, hx, rfl⟩ := List.mem_map.1 he
    split
    · exact ⟨hk.1, hk.2, hv⟩
    · exact hp x hx
  · cases h

theorem setCmd_vals {k v : Text} {s s' : St} (h : setCmd k v s = some s') : vals s'.store k = [v] ∧ (∀ x, x ≠ k → vals s'.store x = vals s.store x) ∧
    setKey k v s.store = some s'.store ∧ s'.stdin = s.stdin ∧ s'.outs = s.outs.tail ∧ s'.ignores = s.ignores := by
  unfold setCmd at h
  split at h
  · cases h
  · split at h
    · rename_i d hd
      obtain rfl := Option.some.inj h
      obtain ⟨h1, h2⟩ := setKey_vals hd
      exact ⟨h1, h2, hd, rfl, rfl, rfl⟩
    · cases h

theorem setCmd_ok (k v : Text) (s : St) (ho : s.outs = []) (h : (vals s.store k).length ≤ 1) : ∃ s', setCmd k v s = some s' := by
  obtain ⟨d, hd⟩ := setKey_ok k v s.store h
  unfold setCmd
  rw [if_neg (by simp [ho]), hd]
  exact ⟨_, rfl⟩

theorem asked_keys : ∀ k ∈ kConfig :: asked, k ≠ [] ∧ ∀ c ∈ k, isWord c = true ∨ c = '.' := by decide +kernel

theorem asked_nodup : (kConfig :: asked).Nodup := by decide +kernel

theorem askAll_spec (c : Conf) : ∀ (ks : List Text) (s : St), (kConfig :: ks).Nodup →
    (∀ x, x ∉ kConfig :: ks → vals (askAll c ks s).1.store x = vals s.store x) ∧
    ((askAll c ks s).2 = .done → vals (askAll c ks s).1.store kConfig = [date] ∧
      ∀ k ∈ ks, ∃ v, vals (askAll c ks s).1.store k = [v] ∧ Valid k v) ∧
    ((askAll c ks s).2 ≠ .done → vals (askAll c ks s).1.store kConfig = vals s.store kConfig) ∧ (askAll c ks s).2 ≠ .upToDate
  | [], s, _ => by
    unfold askAll
    cases h : setCmd kConfig date s with
    | none => exact ⟨fun _ _ => rfl, (fun h => by cases h), fun _ => rfl, (fun h => by cases h)⟩
    | some s' =>
      obtain ⟨h1, h2, _⟩ := setCmd_vals h
      exact ⟨fun x hx => h2 x (by simpa using hx), fun _ => ⟨h1, by simp⟩, fun h => absurd rfl h, (fun h => by cases h)⟩
  | k :: ks, s, hn => by
    have hn' : (kConfig :: ks).Nodup ∧ k ∉ kConfig :: ks := by
      simp only [List.nodup_cons, List.mem_cons] at hn ⊢
      grind
    unfold askAll
    cases ha : ask k (dflt c k) s.stdin with
    | none => exact ⟨fun _ _ => rfl, (fun h => by cases h), fun _ => rfl, (fun h => by cases h)⟩
    | some vr =>
      obtain ⟨v, rest⟩ := vr
      simp only []
      cases h : setCmd k v { s with stdin := rest } with
      | none => exact ⟨fun _ _ => rfl, (fun h => by cases h), fun _ => rfl, (fun h => by cases h)⟩
      | some s' =>
        simp only []
        obtain ⟨h1, h2, _⟩ := setCmd_vals h
        obtain ⟨i1, i2, i3, i4⟩ := askAll_spec c ks s' hn'.1
        refine ⟨fun x hx => ?_, fun hd => ⟨(i2 hd).1, fun x hx => ?_⟩, fun hd => ?_, i4⟩
        · rw [i1 x (by simp only [List.mem_cons] at hx ⊢; grind), h2 x (by simp only [List.mem_cons] at hx; grind)]
        · rcases List.mem_cons.1 hx with rfl | hx
          · exact ⟨v, by rw [i1 x hn'.2, h1], (ask_valid ha).1⟩
          · exact (i2 hd).2 x hx
        · rw [i3 hd, h2 kConfig (by simp only [List.nodup_cons, List.mem_cons] at hn; grind)]

theorem splitNl_one {l : Text} (h : '\n' ∉ l) : splitNl l = [l] := by
  induction l with
  | nil => rfl
  | cons c l ih =>
    simp only [List.mem_cons, not_or] at h
    rw [splitNl, if_neg (fun e => h.1 e.symm), ih h.2]

theorem parse_entry {k v : Text} (hk : k ≠ []) (hw : ∀ c ∈ k, isWord c = true ∨ c = '.') : parseLine (k ++ '=' :: v) = some (k, v) := by
  have hall : ∀ c ∈ k, kw c = true := fun c hc => by
    rcases hw c hc with h | h
    · simp [kw, h]
    · simp [kw, h]
  have he : kw '=' = false := by decide
  have h1 : (k ++ '=' :: v).takeWhile kw = k := by
    rw [List.takeWhile_append_of_pos hall, List.takeWhile_cons]
    simp [he]
  have h2 : (k ++ '=' :: v).dropWhile kw = '=' :: v := by
    rw [List.dropWhile_append_of_pos hall, List.dropWhile_cons]
    simp [he]
  unfold parseLine
  rw [h1, h2]
  obtain ⟨a, as, rfl⟩ := List.exists_cons_of_ne_nil hk
  rfl

theorem isWord_nl : isWord '\n' = false := by decide

theorem read_plain : ∀ (d : Store) (c : Conf), Plain d → ∃ c', readConfig c d = some c' ∧ ∀ k, c' k = if vals d k = [] then c k else (vals d k).getLast?
  | [], c, _ => ⟨c, rfl, fun k => by simp [vals]⟩
  | e :: d, c, h => by
    obtain ⟨h1, h2, h3⟩ := h e (by simp)
    have hn : '\n' ∉ e.1 ++ '=' :: e.2 := by
      intro hm
      rcases List.mem_append.1 hm with hm | hm
      · rcases h2 _ hm with h | h
        · rw [isWord_nl] at h; cases h
        · exact absurd h (by decide)
      · rcases List.mem_cons.1 hm with hm | hm
        · exact absurd hm (by decide)
        · exact h3 hm
    obtain ⟨c', i1, i2⟩ := read_plain d (put c e.1 e.2) fun x hx => h x (List.mem_cons_of_mem _ hx)
    refine ⟨c', ?_, fun k => ?_⟩
    · unfold readConfig listed
      rw [List.flatMap_cons, splitNl_one hn]
      show readLines c ((e.1 ++ '=' :: e.2) :: listed d) = _
      rw [readLines, parse_entry h1 h2]
      exact i1
    · rw [i2 k]
      by_cases hk : e.1 = k
      · have hv : vals (e :: d) k = e.2 :: vals d k := by simp [vals, hk]
        rw [hv]
        by_cases h0 : vals d k = []
        · simp [h0, put, hk]
        · simp only [if_neg h0]
          rw [if_neg (by simp)]
          obtain ⟨a, as, ha⟩ := List.exists_cons_of_ne_nil h0
          rw [ha]; rfl
      · have hv : vals (e :: d) k = vals d k := by simp [vals, hk]
        rw [hv]
        have : ¬ k = e.1 := fun e' => hk e'.symm
        simp [put, this]

/-! ## Theorems -/

/-- C229: whatever was there, is typed and happens to the commands: if it ends, each of the six entries has exactly one value that is not empty, the address has an `@`, the mark is set; and no other key changes, however it ends. -/
theorem config_done (gecos : Option Text) (path : Text) (s : St) :
    ((initConfig gecos path s).2 = .done → vals (initConfig gecos path s).1.store kConfig = [date] ∧
      ∀ k ∈ asked, ∃ v, vals (initConfig gecos path s).1.store k = [v] ∧ Valid k v) ∧
    ∀ k, k ∉ kConfig :: asked → vals (initConfig gecos path s).1.store k = vals s.store k := by
  unfold initConfig
  split
  · exact ⟨(fun h => by cases h), fun _ _ => rfl⟩
  · rename_i c _
    split
    · exact ⟨(fun h => by cases h), fun _ _ => rfl⟩
    · obtain ⟨h1, h2, _⟩ := askAll_spec (put c kExcludes path) asked { s with ignores := some (s.ignores.getD ignoreText) } asked_nodup
      exact ⟨h2, h1⟩

/-- C229: unless it ends, the mark stays as it was: it asks again next time. -/
theorem config_unfinished (gecos : Option Text) (path : Text) (s : St) (h : (initConfig gecos path s).2 ≠ .done) :
    vals (initConfig gecos path s).1.store kConfig = vals s.store kConfig := by
  unfold initConfig at h ⊢
  split
  · rfl
  · rename_i c _
    split
    · rfl
    · rename_i hc
      rw [‹readConfig _ _ = some c›] at h
      simp only [if_neg hc] at h
      exact (askAll_spec (put c kExcludes path) asked { s with ignores := some (s.ignores.getD ignoreText) } asked_nodup).2.2.1 h

/-- C229: with the mark and a configuration it can read, it does nothing; without the mark it never says it is up to date. -/
theorem config_mark_partial (gecos : Option Text) (path : Text) (s : St) (hp : Plain s.store) :
    (initConfig gecos path s).2 = .upToDate ↔ (vals s.store kConfig).getLast? = some date := by
  obtain ⟨c, h1, h2⟩ := read_plain s.store (builtin gecos) hp
  have hb : builtin gecos kConfig = none := by
    unfold builtin
    rw [if_neg (by decide), if_neg (by decide), if_neg (by decide), if_neg (by decide)]
  have hk : c kConfig = (vals s.store kConfig).getLast? := by
    rw [h2 kConfig]
    split
    · rename_i h; rw [h, hb]; rfl
    · rfl
  unfold initConfig
  rw [h1]
  simp only [hk]
  split
  · rename_i h; simp [h]
  · rename_i h
    simp only [h, iff_false]
    exact (askAll_spec _ _ _ asked_nodup).2.2.2

theorem config_same (gecos : Option Text) (path : Text) (s : St) (h : (initConfig gecos path s).2 = .upToDate) : (initConfig gecos path s).1 = s := by
  unfold initConfig at h ⊢
  split
  · rfl
  · rename_i c hc
    rw [hc] at h
    simp only [] at h
    split
    · rfl
    · rename_i hm
      rw [if_neg hm] at h
      exact absurd h (askAll_spec _ _ _ asked_nodup).2.2.2

theorem askAll_plain (c : Conf) (hc : ∀ k v, c k = some v → '\n' ∉ v) : ∀ (ks : List Text) (s : St), (∀ k ∈ ks, k ∈ kConfig :: asked) →
    (∀ a ∈ s.stdin, '\n' ∉ a) → Plain s.store → Plain (askAll c ks s).1.store
  | [], s, _, _, hp => by
    unfold askAll
    cases h : setCmd kConfig date s with
    | none => exact hp
    | some s' => exact setKey_plain (setCmd_vals h).2.2.1 hp (asked_keys kConfig (by simp)) (by decide)
  | k :: ks, s, hk, hi, hp => by
    unfold askAll
    cases ha : ask k (dflt c k) s.stdin with
    | none => exact hp
    | some vr =>
      obtain ⟨v, rest⟩ := vr
      obtain ⟨_, hv, hr⟩ := ask_valid ha
      have hvn : '\n' ∉ v := by
        rcases hv with rfl | hv
        · unfold dflt
          split
          · rename_i w hw
            split
            · simp
            · exact hc k w hw
          · simp
        · exact hi v hv
      simp only []
      cases h : setCmd k v { s with stdin := rest } with
      | none => exact hp
      | some s' =>
        simp only []
        obtain ⟨_, _, h3, h4, _⟩ := setCmd_vals h
        refine askAll_plain c hc ks s' (fun x hx => hk x (List.mem_cons_of_mem _ hx)) ?_ ?_
        · rw [h4]; exact fun a ha => hi a (hr a ha)
        · exact setKey_plain h3 hp (asked_keys k (hk k (by simp))) hvn

/-- C229: after it has ended, running it again, whatever is typed and happens, finds it up to date and changes nothing. -/
theorem config_once_partial (gecos : Option Text) (path : Text) (s : St) (hp : Plain s.store) (hg : ∀ g, gecos = some g → '\n' ∉ g) (hpath : '\n' ∉ path)
    (hi : ∀ a ∈ s.stdin, '\n' ∉ a) (h : (initConfig gecos path s).2 = .done) (gecos' : Option Text) (path' : Text) (s' : St)
    (hs : s'.store = (initConfig gecos path s).1.store) : initConfig gecos' path' s' = (s', .upToDate) := by
  obtain ⟨c, h1, h2⟩ := read_plain s.store (builtin gecos) hp
  have hcn : ∀ k v, c k = some v → '\n' ∉ v := by
    intro k v hv
    rw [h2 k] at hv
    split at hv
    · unfold builtin at hv
      split at hv
      · obtain rfl := Option.some.inj hv; decide
      split at hv
      · obtain rfl := Option.some.inj hv; decide
      split at hv
      · obtain rfl := Option.some.inj hv; decide
      split at hv
      · exact hg v hv
      · cases hv
    · have hm := List.mem_of_getLast? hv
      obtain ⟨e, he, rfl⟩ := List.mem_map.1 hm
      exact (hp e (List.mem_filter.1 he).1).2.2
  have hp' : Plain s'.store := by
    rw [hs]
    unfold initConfig at h ⊢
    rw [h1] at h ⊢
    simp only [] at h ⊢
    split
    · exact hp
    · refine askAll_plain _ ?_ asked { s with ignores := some (s.ignores.getD ignoreText) } (fun k hk => List.mem_cons_of_mem _ hk) hi hp
      intro k v hv
      unfold put at hv
      split at hv
      · obtain rfl := Option.some.inj hv; exact hpath
      · exact hcn k v hv
  have hm : (initConfig gecos' path' s').2 = .upToDate := by
    rw [config_mark_partial gecos' path' s' hp', hs, ((config_done gecos path s).1 h).1]
    rfl
  exact Prod.ext (config_same _ _ _ hm) hm

theorem askAll_answers (c : Conf) (f : Text → Text) (rest : List Text) : ∀ (ks : List Text) (s : St), (kConfig :: ks).Nodup →
    s.stdin = ks.map f ++ rest → s.outs = [] → (∀ k ∈ kConfig :: ks, (vals s.store k).length ≤ 1) →
    (∀ k ∈ ks, Valid k (if (f k).all isBlank then dflt c k else f k)) → (askAll c ks s).2 = .done ∧
    ∀ k ∈ ks, vals (askAll c ks s).1.store k = [if (f k).all isBlank then dflt c k else f k]
  | [], s, _, _, ho, hs, _ => by
    obtain ⟨s', h⟩ := setCmd_ok kConfig date s ho (hs _ (by simp))
    unfold askAll
    rw [h]
    exact ⟨rfl, by simp⟩
  | k :: ks, s, hn, hi, ho, hs, hv => by
    have hn' : (kConfig :: ks).Nodup ∧ k ∉ kConfig :: ks := by
      simp only [List.nodup_cons, List.mem_cons] at hn ⊢
      grind
    have ha : ask k (dflt c k) s.stdin = some (if (f k).all isBlank then dflt c k else f k, ks.map f ++ rest) := by
      rw [hi, List.map_cons, List.cons_append]
      have := okVal_iff.2 (hv k (by simp))
      simp only [ask, pick, this, if_true]
    obtain ⟨s', h⟩ := setCmd_ok k (if (f k).all isBlank then dflt c k else f k) { s with stdin := ks.map f ++ rest } ho (hs k (by simp))
    obtain ⟨h1, h2, h3, h4, h5, _⟩ := setCmd_vals h
    have i := askAll_answers c f rest ks s' hn'.1 h4 (by rw [h5]; show s.outs.tail = []; rw [ho]; rfl)
      (fun x hx => by
        have hxk : x ≠ k := fun e => hn'.2 (e ▸ hx)
        rw [h2 x hxk]
        refine hs x ?_
        simp only [List.mem_cons] at hx ⊢; grind)
      (fun x hx => hv x (List.mem_cons_of_mem _ hx))
    have he : askAll c (k :: ks) s = askAll c ks s' := by
      conv => lhs; unfold askAll
      rw [ha]
      simp only []
      rw [h]
    rw [he]
    refine ⟨i.1, fun x hx => ?_⟩
    rcases List.mem_cons.1 hx with rfl | hx
    · rw [(askAll_spec c ks s' hn'.1).1 x hn'.2, h1]
    · exact i.2 x hx

/-- The default of a key: what the configuration says, deptool's own file for the excludes. -/
def Default (gecos : Option Text) (path : Text) (d : Store) (k v : Text) : Prop :=
  if k = kExcludes then v = path
  else match (vals d k).getLast? with
    | some w => v = w
    | none => builtin gecos k = some v

/-- C229: with six valid answers, blank ones meaning the defaults, it ends and sets exactly these. -/
theorem config_answers_partial (gecos : Option Text) (path : Text) (s : St) (f g : Text → Text) (rest : List Text) (hp : Plain s.store) (hs : Single s.store)
    (ho : s.outs = []) (hm : (vals s.store kConfig).getLast? ≠ some date) (hi : s.stdin = asked.map f ++ rest)
    (hf : ∀ k ∈ asked, Valid k (g k) ∧ (¬ Blank (f k) → g k = f k) ∧ (Blank (f k) → Default gecos path s.store k (g k) ∧ g k ≠ ['0'])) :
    (initConfig gecos path s).2 = .done ∧ ∀ k ∈ asked, vals (initConfig gecos path s).1.store k = [g k] := by
  obtain ⟨c, h1, h2⟩ := read_plain s.store (builtin gecos) hp
  have hb : builtin gecos kConfig = none := by
    unfold builtin
    rw [if_neg (by decide), if_neg (by decide), if_neg (by decide), if_neg (by decide)]
  have hk : c kConfig = (vals s.store kConfig).getLast? := by
    rw [h2 kConfig]
    split
    · rename_i h; rw [h, hb]; rfl
    · rfl
  have hg : ∀ k ∈ asked, (if (f k).all isBlank then dflt (put c kExcludes path) k else f k) = g k := by
    intro k hk
    obtain ⟨_, q2, q3⟩ := hf k hk
    split
    · rename_i hbl
      obtain ⟨q4, q5⟩ := q3 (blank_iff.1 hbl)
      unfold Default at q4
      unfold dflt put
      by_cases he : k = kExcludes
      · rw [if_pos he] at q4
        subst q4
        simp only [he, if_true]
        rw [if_neg (by rw [he] at q5; exact q5)]
      · rw [if_neg he] at q4
        simp only [if_neg he, h2 k]
        by_cases hv : vals s.store k = []
        · rw [hv] at q4 ⊢
          simp only [List.getLast?_nil] at q4
          rw [if_pos rfl, q4]
          simp only [if_neg q5]
        · rw [if_neg hv]
          cases hl : (vals s.store k).getLast? with
          | none => exact absurd (List.getLast?_eq_none_iff.1 hl) hv
          | some w =>
            rw [hl] at q4
            simp only [] at q4
            subst q4
            simp only [if_neg q5]
    · rename_i hbl
      exact (q2 fun hb => hbl (blank_iff.2 hb)).symm
  unfold initConfig
  rw [h1]
  simp only [hk, if_neg hm]
  have := askAll_answers (put c kExcludes path) f rest asked { s with ignores := some (s.ignores.getD ignoreText) } asked_nodup hi ho hs
    (fun k hk => by rw [hg k hk]; exact (hf k hk).1)
  exact ⟨this.1, fun k hk => by rw [this.2 k hk, hg k hk]⟩

/-- C229 is false of a configuration with a key that has other characters, as git allows: `init` dies before asking anything. -/
theorem config_key_false (s : St) (k v : Text) (a b : Text) (hk : k = a ++ '-' :: b) (ha : '\n' ∉ a) (hm : ∀ c ∈ a, c ≠ '=') (rest : Store) (gecos : Option Text) (path : Text) :
    initConfig gecos path { s with store := (k, v) :: rest } = ({ s with store := (k, v) :: rest }, .died) := by
  have hsp : ∀ (a : Text) (t : Text), '\n' ∉ a → ∃ t' ls, splitNl (a ++ '-' :: t) = (a ++ '-' :: t') :: ls := by
    intro a t
    induction a with
    | nil =>
      intro _
      rw [List.nil_append, splitNl, if_neg (by decide)]
      cases splitNl t with
      | nil => exact ⟨[], [], rfl⟩
      | cons l ls => exact ⟨l, ls, rfl⟩
    | cons c a ih =>
      intro h
      simp only [List.mem_cons, not_or] at h
      obtain ⟨t', ls, e⟩ := ih h.2
      rw [List.cons_append, splitNl, if_neg (fun e => h.1 e.symm), e]
      exact ⟨t', ls, rfl⟩
  have hpl : ∀ (a t : Text), (∀ c ∈ a, c ≠ '=') → parseLine (a ++ '-' :: t) = none := by
    intro a t hm
    have : ∃ x xs, (a ++ '-' :: t).dropWhile kw = x :: xs ∧ x ≠ '=' := by
      induction a with
      | nil => exact ⟨'-', t, by rw [List.nil_append, List.dropWhile_cons]; simp [show kw '-' = false from by decide], by decide⟩
      | cons c a ih =>
        rw [List.cons_append, List.dropWhile_cons]
        split
        · exact ih fun c hc => hm c (List.mem_cons_of_mem _ hc)
        · exact ⟨c, _, rfl, hm c (by simp)⟩
    obtain ⟨x, xs, e, hx⟩ := this
    unfold parseLine
    rw [e]
    split
    · rename_i h; exact absurd (List.cons.inj h).1 hx
    · rfl
  obtain ⟨t', ls, e⟩ := hsp a (b ++ '=' :: v) ha
  have hr : readConfig (builtin gecos) ((k, v) :: rest) = none := by
    unfold readConfig listed
    rw [List.flatMap_cons]
    show readLines _ (splitNl (k ++ '=' :: v) ++ _) = _
    rw [hk, List.append_assoc, List.cons_append, e, List.cons_append, readLines, hpl a t' hm]
  unfold initConfig
  simp only [hr]

/-- C229 is false at the end of the input when there is no address yet: it asks forever. -/
theorem config_eof_false (gecos : Option Text) (path : Text) (ign : Option Text) (outs : List Bool) : (initConfig gecos path ⟨[], ign, [], outs⟩).2 = .asking := by
  have hb : builtin gecos kConfig = none ∧ builtin gecos kEmail = none := by
    unfold builtin
    constructor <;> rw [if_neg (by decide), if_neg (by decide), if_neg (by decide), if_neg (by decide)]
  have he : dflt (put (builtin gecos) kExcludes path) kEmail = [] := by
    unfold dflt put
    rw [if_neg (by decide), hb.2]
  unfold initConfig
  show (if builtin gecos kConfig = some date then _ else _ : St × End).2 = _
  rw [hb.1, if_neg (by simp)]
  unfold asked askAll
  rw [he]
  rfl

/-- The user's own excludes file is replaced by a blank answer, unlike the other entries; the value `0` is forgotten. -/
theorem config_excludes_false :
    (initConfig none ['p'] ⟨[(kExcludes, ['m', 'i', 'n', 'e'])], none, [['a', '@'], ['n'], [], [], [], []], []⟩).1.store =
      [(kExcludes, ['p']), (kEmail, ['a', '@']), (kName, ['n']), (kEditor, ['e', 'm', 'a', 'c', 's']), (kMerge, ['k', 'd', 'i', 'f', 'f', '3']),
        (kDiff, ['d', 'i', 'f', 'f', 't', 'o', 'o', 'l']), (kConfig, date)] := by
  decide +kernel

example : (initConfig (some ['N']) ['p'] ⟨[(kEditor, ['v', 'i'])], none, [['a'], ['a', '@', 'b'], [' '], [], [], [], []], []⟩).2 = .done := by decide +kernel

example : Plain [(kEditor, ['v', 'i'])] ∧ Single [(kEditor, ['v', 'i'])] := by
  constructor
  · intro e he
    obtain rfl := List.mem_singleton.1 he
    exact ⟨by decide, by decide +kernel, by decide⟩
  · unfold Single; decide +kernel

end Verif.DepVC.GitConfig
