import Verif.DepVC.Tar
import Verif.Deptool.DepsProps

/-! # C201: tar-init loses no project -/

namespace Verif.DepVC.Tar

open Verif.Deptool.Deps (Text isWord word word_no)

/-! ## The specification -/

/-- A date as line 5424 makes it. -/
def IsDate (d : Text) : Prop := 'T' ∈ d ∧ ∀ c ∈ d, c.isDigit = true ∨ c = '-' ∨ c = ':' ∨ c = 'T'

/-- A directory is where it was, or beside it under its name with a date. -/
def Held (fs : Fs) (n : Text) (c : List Nat) : Prop := fs n = some (.dir c) ∨ ∃ d, IsDate d ∧ fs (n ++ '.' :: d) = some (.dir c)

/-- Neither the name of a project (a word) nor that of a backup. -/
def Foreign (m : Text) : Prop := word m = false ∧ ∀ n d, word n = true → IsDate d → m ≠ n ++ '.' :: d

/-- Archives write to other names only, for instance `Lintel-1.0`. -/
def Tidy (env : Env) : Prop := ∀ file es, env.tar file = some es → ∀ e ∈ es, Foreign e.1

/-! ## Names -/

theorem word_cons_no {n : Text} (h : word n = true) (c : Char) (hc : isWord c = false) : c ∉ n := word_no c hc n h

theorem cut_eq (x : Char) : ∀ (a b c d : Text), a ++ x :: b = c ++ x :: d → x ∉ a → x ∉ c → a = c ∧ b = d := by
  intro a
  induction a with
  | nil =>
    intro b c d h _ hc
    cases c with
    | nil => simp only [List.nil_append, List.cons.injEq, true_and] at h; exact ⟨rfl, h⟩
    | cons y c =>
      simp only [List.nil_append, List.cons_append, List.cons.injEq] at h
      exact absurd (h.1 ▸ List.mem_cons_self ..) hc
  | cons z a ih =>
    intro b c d h ha hc
    cases c with
    | nil =>
      simp only [List.nil_append, List.cons_append, List.cons.injEq] at h
      exact absurd (h.1 ▸ List.mem_cons_self ..) ha
    | cons y c =>
      simp only [List.cons_append, List.cons.injEq] at h
      obtain ⟨e1, e2⟩ := ih b c d h.2 (fun hm => ha (List.mem_cons_of_mem _ hm)) (fun hm => hc (List.mem_cons_of_mem _ hm))
      exact ⟨by rw [h.1, e1], e2⟩

theorem cut_first (x : Char) : ∀ t : Text, x ∈ t → ∃ u v, t = u ++ x :: v ∧ x ∉ u := by
  intro t
  induction t with
  | nil => intro h; cases h
  | cons z t ih =>
    intro h
    by_cases hz : z = x
    · exact ⟨[], t, by rw [hz]; rfl, by simp⟩
    · obtain ⟨u, v, h1, h2⟩ := ih ((List.mem_cons.mp h).resolve_left (fun e => hz e.symm))
      exact ⟨z :: u, v, by rw [h1]; rfl, by simp only [List.mem_cons, not_or]; exact ⟨fun e => hz e.symm, h2⟩⟩

/-- A word, a hyphen and anything is foreign. -/
theorem foreign_release (p x : Text) (hp : word p = true) : Foreign (p ++ '-' :: x) := by
  have hno : ∀ n : Text, word n = true → '-' ∉ n := fun n hn => word_cons_no hn '-' (by decide)
  have hdot : ∀ n : Text, word n = true → '.' ∉ n := fun n hn => word_cons_no hn '.' (by decide)
  refine ⟨?_, ?_⟩
  · cases h : word (p ++ '-' :: x) with
    | false => rfl
    | true => exact absurd (by simp : '-' ∈ p ++ '-' :: x) (hno _ h)
  · intro n d hn _ e
    by_cases hd : '.' ∈ x
    · obtain ⟨u, v, h1, h2⟩ := cut_first '.' x hd
      have h3 : p ++ '-' :: x = (p ++ '-' :: u) ++ '.' :: v := by rw [h1]; simp
      rw [h3] at e
      have h4 : '.' ∉ p ++ '-' :: u := by
        simp only [List.mem_append, List.mem_cons, not_or]
        exact ⟨hdot p hp, by decide, h2⟩
      obtain ⟨h5, _⟩ := cut_eq '.' _ _ _ _ e h4 (hdot n hn)
      exact hno n hn (h5 ▸ (by simp))
    · have h4 : '.' ∉ p ++ '-' :: x := by
        simp only [List.mem_append, List.mem_cons, not_or]
        exact ⟨hdot p hp, by decide, hd⟩
      exact h4 (by rw [e]; simp)

theorem takeWhile_all (f : Char → Bool) : ∀ t : Text, (t.takeWhile f).all f = true := by
  intro t
  induction t with
  | nil => rfl
  | cons x xs ih =>
    rw [List.takeWhile_cons]
    split
    · rename_i h; rw [List.all_cons, h, ih]; rfl
    · rfl

theorem matchAt_word (t p r : Text) (h : matchAt t = some (p, r)) : word p = true := by
  unfold matchAt at h
  split at h
  · rename_i c cs rest h1 h2
    obtain ⟨x, _, e⟩ := Option.map_eq_some_iff.mp h
    simp only [Prod.mk.injEq] at e
    rw [← e.1]
    have := takeWhile_all isWord t
    rw [h1] at this
    unfold word
    rw [this]; rfl
  · cases h

theorem parse_word : ∀ (t : Text) (b : Bool) (p r : Text), parse b t = some (p, r) → word p = true := by
  intro t
  induction t with
  | nil => intro b p r h; cases h
  | cons c t ih =>
    intro b p r h
    unfold parse at h
    split at h
    · rename_i x hx
      obtain rfl := Option.some.inj h
      split at hx
      · exact matchAt_word _ _ _ hx
      · cases hx
    · exact ih _ p r h

/-! ## Nothing is lost -/

theorem put_held {fs : Fs} {m n : Text} {c : List Nat} (x : Option Node) (hm : Foreign m) (hn : word n = true) (h : Held fs n c) : Held (put fs m x) n c := by
  have h1 : n ≠ m := fun e => by rw [← e] at hm; rw [hm.1] at hn; cases hn
  rcases h with h | ⟨d, hd, h⟩
  · left; unfold put; rw [if_neg h1]; exact h
  · right
    refine ⟨d, hd, ?_⟩
    unfold put
    rw [if_neg fun e => hm.2 n d hn hd e.symm]; exact h

theorem extract_held {n : Text} {c : List Nat} (hn : word n = true) : ∀ (es : List (Text × Node)) (fs : Fs), (∀ e ∈ es, Foreign e.1) → Held fs n c → Held (extract fs es) n c := by
  intro es
  induction es with
  | nil => intro fs _ h; exact h
  | cons e es ih =>
    intro fs he h
    exact ih _ (fun x hx => he x (List.mem_cons_of_mem _ hx)) (put_held _ (he e (List.mem_cons_self ..)) hn h)

/-- A rename puts nothing over a directory with something in it. -/
theorem rename_ok {fs fs' : Fs} {a b : Text} (h : rename fs a b = some fs') : (∀ c, c ≠ [] → fs b ≠ some (.dir c)) ∧ fs' = put (put fs a none) b (fs a) := by
  unfold rename at h
  split at h
  · cases h
  · rename_i x h1 h2
    obtain rfl := Option.some.inj h
    exact ⟨fun c _ e => (by rw [h2] at e; cases e), by rw [h1]⟩
  · rename_i h1 h2
    obtain rfl := Option.some.inj h
    exact ⟨fun c _ e => (by rw [h2] at e; cases e), by rw [h1]⟩
  · rename_i c h1 h2
    obtain rfl := Option.some.inj h
    exact ⟨fun c hc e => (by rw [h2] at e; cases e; exact hc rfl), by rw [h1]⟩
  · cases h

theorem rename_held {fs fs' : Fs} {a b n : Text} {c : List Nat} (hn : word n = true) (hc : c ≠ []) (hr : rename fs a b = some fs')
    (ha : Foreign a ∨ (word a = true ∧ ∃ d, IsDate d ∧ b = backupName a d)) (h : Held fs n c) : Held fs' n c := by
  obtain ⟨h1, h2⟩ := rename_ok hr
  subst h2
  have keep : ∀ m, m ≠ a → fs m = some (.dir c) → put (put fs a none) b (fs a) m = some (.dir c) := by
    intro m hma hm
    have hmb : m ≠ b := fun e => h1 c hc (e ▸ hm)
    unfold put
    rw [if_neg hmb, if_neg hma]; exact hm
  rcases ha with ha | ⟨ha, d, hd, hb⟩
  · rcases h with h | ⟨d, hd, h⟩
    · exact Or.inl (keep n (fun e => by rw [e, ha.1] at hn; cases hn) h)
    · exact Or.inr ⟨d, hd, keep _ (fun e => ha.2 n d hn hd e.symm) h⟩
  · rcases h with h | ⟨e, he, h⟩
    · by_cases hna : n = a
      · right
        refine ⟨d, hd, ?_⟩
        unfold put
        rw [hb, hna]
        unfold backupName
        rw [if_pos rfl, ← hna]; exact h
      · exact Or.inl (keep n hna h)
    · refine Or.inr ⟨e, he, keep _ ?_ h⟩
      intro hea
      exact word_cons_no ha '.' (by decide) (by rw [← hea]; simp)

theorem doRename_held {s : St} {a b n : Text} {c : List Nat} (hn : word n = true) (hc : c ≠ [])
    (ha : Foreign a ∨ (word a = true ∧ ∃ d, IsDate d ∧ b = backupName a d)) (h : Held s.fs n c) : Held (doRename a b s).1.fs n c := by
  unfold doRename
  split
  · rename_i fs hr; exact rename_held hn hc hr ha h
  · exact h

theorem andThen_held {o : Out} {f : St → Out} {n : Text} {c : List Nat} (h : Held o.1.fs n c) (hf : ∀ s, Held s.fs n c → Held (f s).1.fs n c) : Held (andThen o f).1.fs n c := by
  unfold andThen
  split
  · exact hf _ h
  · exact h

theorem backup_held {env : Env} (hd : ∀ k, IsDate (env.date k)) {p n : Text} {c : List Nat} (hp : word p = true) (hn : word n = true) (hc : c ≠ []) {s : St} (h : Held s.fs n c) :
    Held (backup env p s).1.fs n c := by
  unfold backup
  split
  · exact h
  · refine andThen_held h fun s1 h1 => andThen_held (doRename_held hn hc (Or.inr ⟨hp, _, hd _, rfl⟩) h1) fun s2 h2 => h2

theorem unpack_held {env : Env} (hd : ∀ k, IsDate (env.date k)) (ht : Tidy env) (file : Text) {n : Text} {c : List Nat} (hn : word n = true) (hc : c ≠ []) {s : St} (h : Held s.fs n c) :
    Held (unpack env file s).1.fs n c := by
  unfold unpack
  split
  · exact h
  · rename_i p r hpr
    have hp := parse_word _ _ _ _ hpr
    have hf := foreign_release p r hp
    refine andThen_held (backup_held hd hp hn hc h) fun s1 h1 => andThen_held ?_ fun s2 h2 => ?_
    · unfold clear
      split
      · exact h1
      · exact andThen_held h1 fun s3 h3 => put_held _ hf hn h3
    · unfold untar
      refine andThen_held h2 fun s3 h3 => ?_
      have he : Held (extract s3.fs ((env.tar file).getD [])) n c := by
        refine extract_held hn _ _ ?_ h3
        cases hta : env.tar file with
        | none => intro e he; cases he
        | some es => exact ht file es hta
      simp only
      split
      · exact doRename_held hn hc (Or.inl hf) he
      · exact he

/-- An argument as the program takes it. -/
def Arg.Ok : Arg → Prop
  | .file _ => True
  | .url _ p _ => word p = true

theorem one_held {env : Env} (hd : ∀ k, IsDate (env.date k)) (ht : Tidy env) (projects : Text) (a : Arg) (ha : a.Ok) {n : Text} {c : List Nat} (hn : word n = true) (hc : c ≠ []) {s : St} (h : Held s.fs n c) :
    Held (one env projects a s).1.fs n c := by
  unfold one
  cases a with
  | file path => exact unpack_held hd ht path hn hc h
  | url u p r =>
    have hp : word p = true := ha
    have f1 : Foreign (release p r ++ dotTar) := by
      have := foreign_release p (r ++ dotTar) hp
      unfold release; rw [List.append_assoc]; exact this
    have f2 : Foreign (release p r ++ dotTar ++ dotTmp) := by
      have := foreign_release p (r ++ (dotTar ++ dotTmp)) hp
      unfold release; rw [List.append_assoc, List.append_assoc]; exact this
    refine andThen_held (backup_held hd hp hn hc h) fun s1 h1 => andThen_held ?_ fun s2 h2 => unpack_held hd ht _ hn hc h2
    unfold fetchHttp
    refine andThen_held (put_held _ f2 hn (put_held _ f1 hn h1)) fun s3 h3 => ?_
    split
    · exact put_held _ f1 hn h3
    · exact h3

/-- C201: whatever the arguments, the answers, the downloads and the clock, and wherever `init` stops: every project with something in it is still there, under its name or under its name with a date. -/
theorem tar_keeps (env : Env) (hd : ∀ k, IsDate (env.date k)) (ht : Tidy env) (projects : Text) (args : List Arg) (ha : ∀ a ∈ args, a.Ok) (s : St)
    (n : Text) (hn : word n = true) (c : List Nat) (hc : c ≠ []) (h : s.fs n = some (.dir c)) : Held (init env projects args s).1.fs n c := by
  have key : ∀ (args : List Arg), (∀ a ∈ args, a.Ok) → ∀ s : St, Held s.fs n c → Held (init env projects args s).1.fs n c := by
    intro args
    induction args with
    | nil => intro _ s h; exact h
    | cons a as ih =>
      intro ha s h
      exact andThen_held (one_held hd ht projects a (ha a (List.mem_cons_self ..)) hn hc h) fun s1 h1 => ih (fun b hb => ha b (List.mem_cons_of_mem _ hb)) s1 h1
  exact key args ha s (Or.inl h)

/-! ## What is there afterwards -/

theorem andThen_true {o : Out} {f : St → Out} (h : (andThen o f).2 = true) : o.2 = true ∧ andThen o f = f o.1 := by
  unfold andThen at h ⊢
  cases ho : o.2 with
  | true => simp
  | false => rw [ho] at h; simp only [Bool.false_eq_true, if_false] at h; rw [ho] at h; cases h

/-- C201: if a file was unpacked, the project is what was in the archive and nothing of what it was before. -/
theorem tar_done (env : Env) (file p r : Text) (c : List Nat) (hp : parse false file = some (p, r)) (ht : env.tar file = some [(release p r, .dir c)]) (s : St) (h : (unpack env file s).2 = true) :
    (unpack env file s).1.fs p = some (.dir c) ∧ (unpack env file s).1.fs (release p r) = none := by
  have hne : p ≠ release p r := by
    intro e
    have := congrArg List.length e
    simp [release] at this
  unfold unpack at h ⊢
  rw [hp] at h ⊢
  simp only at h ⊢
  obtain ⟨_, h2⟩ := andThen_true h
  rw [h2] at h ⊢
  obtain ⟨_, h3⟩ := andThen_true h
  rw [h3] at h ⊢
  unfold untar at h ⊢
  obtain ⟨_, h4⟩ := andThen_true h
  rw [h4] at h ⊢
  simp only [ht, Option.getD_some, extract] at h ⊢
  have hd : ∀ fs : Fs, put fs (release p r) (some (.dir c)) (release p r) = some (.dir c) := fun fs => if_pos rfl
  rw [hd] at h ⊢
  simp only [isDir, if_true] at h ⊢
  unfold doRename at h ⊢
  split at h
  · rename_i fs hr
    obtain ⟨_, h6⟩ := rename_ok hr
    rw [h6]
    simp only
    refine ⟨?_, ?_⟩
    · show (if p = p then _ else _) = _
      rw [if_pos rfl, hd]
    · show (if release p r = p then _ else if release p r = release p r then _ else _) = _
      rw [if_neg (Ne.symm hne), if_pos rfl]
  · cases h

theorem takeWhile_stop (f : Char → Bool) (a : Text) (c : Char) (b : Text) (ha : a.all f = true) (hc : f c = false) :
    (a ++ c :: b).takeWhile f = a ∧ (a ++ c :: b).dropWhile f = c :: b := by
  induction a with
  | nil => simp [hc]
  | cons x xs ih =>
    rw [List.all_cons, Bool.and_eq_true] at ha
    obtain ⟨h1, h2⟩ := ih ha.2
    simp only [List.cons_append, List.takeWhile_cons, List.dropWhile_cons, ha.1, if_true, h1, h2, and_self]

theorem relTail_ok (r : Text) (hr : r ≠ []) (ha : r.all isRel = true) : relTail (r ++ dotTar) = some r := by
  have h1 : r ++ dotTar = (r ++ ['.']) ++ 't' :: ['a', 'r', '.', 'b', 'z', '2'] := by simp [dotTar]
  have ha' : (r ++ ['.']).all isRel = true := by rw [List.all_append, ha]; rfl
  obtain ⟨t1, t2⟩ := takeWhile_stop isRel (r ++ ['.']) 't' ['a', 'r', '.', 'b', 'z', '2'] ha' (by decide)
  unfold relTail
  rw [h1]
  simp only [t1, t2]
  rw [if_neg (fun h => absurd h.2 (by decide))]
  rw [List.reverse_append]
  simp only [List.reverse_cons, List.reverse_nil, List.nil_append, List.singleton_append, List.reverse_reverse]
  rw [if_pos ⟨by simpa using hr, by decide⟩]

theorem matchAt_ok (p r : Text) (hp : word p = true) (hr : r ≠ []) (ha : r.all isRel = true) : matchAt (p ++ '-' :: (r ++ dotTar)) = some (p, r) := by
  unfold word at hp
  rw [Bool.and_eq_true] at hp
  obtain ⟨t1, t2⟩ := takeWhile_stop isWord p '-' (r ++ dotTar) hp.2 (by decide)
  cases p with
  | nil => cases hp.1
  | cons c cs =>
    unfold matchAt
    rw [t1, t2]
    simp only [relTail_ok r hr ha, Option.map_some]

/-- C201: a file that is named as it should be is taken for the project in its name, wherever it is, if the directories have no hyphens. -/
theorem tar_name (d p r : Text) (hd : '-' ∉ d) (hp : word p = true) (hr : r ≠ []) (ha : ∀ c ∈ r, c.isDigit = true ∨ c = '-' ∨ c = '.') :
    parse false (d ++ '/' :: (release p r ++ dotTar)) = some (p, r) ∧ parse false (release p r ++ dotTar) = some (p, r) := by
  replace ha : r.all isRel = true := by
    rw [List.all_eq_true]
    intro c hc
    unfold isRel
    rcases ha c hc with h | h | h <;> simp [h]
  have hm := matchAt_ok p r hp hr ha
  have hbase : parse false (release p r ++ dotTar) = some (p, r) := by
    unfold release
    rw [List.append_assoc, List.cons_append]
    cases p with
    | nil => cases hp
    | cons c cs =>
      have hc : isWord c = true := by
        unfold word at hp
        rw [Bool.and_eq_true, List.all_cons, Bool.and_eq_true] at hp
        exact hp.2.1
      rw [List.cons_append] at hm ⊢
      unfold parse
      rw [if_pos ⟨rfl, hc⟩, hm]
  refine ⟨?_, hbase⟩
  -- before the slash nothing matches, for want of a hyphen
  have hno : ∀ (u : Text) (rest : Text), '-' ∉ u → matchAt (u ++ '/' :: rest) = none := by
    intro u rest hu
    unfold matchAt
    have : ∀ v : Text, '-' ∉ v → ∀ x, (v ++ '/' :: rest).dropWhile isWord ≠ '-' :: x := by
      intro v
      induction v with
      | nil => intro _ x; simp [isWord]
      | cons y v ih =>
        intro hv x
        simp only [List.mem_cons, not_or] at hv
        rw [List.cons_append, List.dropWhile_cons]
        split
        · exact ih hv.2 x
        · intro e
          simp only [List.cons.injEq] at e
          exact hv.1 e.1.symm
    split
    · rename_i h2
      exact absurd h2 (this u hu _)
    · rfl
  have step : ∀ (u : Text), '-' ∉ u → ∀ b, parse b (u ++ '/' :: (release p r ++ dotTar)) = some (p, r) := by
    intro u
    induction u with
    | nil =>
      intro _ b
      rw [List.nil_append]
      unfold parse
      rw [if_neg (fun h => absurd h.2 (by decide))]
      exact hbase
    | cons y u ih =>
      intro hu b
      rw [List.cons_append]
      unfold parse
      have h1 : (if b = false ∧ isWord y = true then matchAt (y :: (u ++ '/' :: (release p r ++ dotTar))) else none) = none := by
        split
        · exact hno (y :: u) _ hu
        · rfl
      rw [h1]
      simp only [List.mem_cons, not_or] at hu
      exact ih hu.2 _
  exact step d hd false

/-! ## Answers and downloads -/

/-- The names of what `init` downloads, and of the files on the way. -/
def Outputs (args : List Arg) (n : Text) : Prop :=
  ∃ u p r, Arg.url u p r ∈ args ∧ (n = p ++ '-' :: (r ++ ".tar.bz2".toList) ∨ n = p ++ '-' :: (r ++ ".tar.bz2.tmp".toList))

theorem andThen_no {o : Out} {f : St → Out} (h : o.2 = false) : andThen o f = o := by
  unfold andThen; rw [h]; rfl

theorem prompt_no {env : Env} (hno : ∀ k, env.yes k = false) (s : St) (f : St → Out) : andThen (prompt env s) f = ({ s with now := s.now + 1 }, false) := by
  unfold prompt; rw [hno]; rfl

theorem andThen_fs {o : Out} {f : St → Out} {n : Text} {x : Option Node} (h : o.1.fs n = x) (hf : ∀ s : St, s.fs n = x → (f s).1.fs n = x) : (andThen o f).1.fs n = x := by
  unfold andThen
  split
  · exact hf _ h
  · exact h

theorem unpack_no {env : Env} (hno : ∀ k, env.yes k = false) (file : Text) (s : St) : (unpack env file s).1.fs = s.fs ∧ (unpack env file s).2 = false := by
  unfold unpack
  split
  · exact ⟨rfl, rfl⟩
  · unfold backup
    split
    · unfold clear
      simp only [andThen, if_true]
      split
      · simp only [if_true]
        unfold untar
        rw [prompt_no hno]
        exact ⟨rfl, rfl⟩
      · have hp : (prompt env s).2 = false := hno _
        simp only [hp, Bool.false_eq_true, if_false]
        exact ⟨rfl, trivial⟩
    · rw [prompt_no hno, andThen_no rfl]
      exact ⟨rfl, rfl⟩

/-- C201: whoever says no to everything keeps everything as it was, but for files of the names to be downloaded, which are removed before the first question. -/
theorem tar_asks (env : Env) (hno : ∀ k, env.yes k = false) (projects : Text) (args : List Arg) (s : St) (n : Text) (hn : ¬ Outputs args n) :
    (init env projects args s).1.fs n = s.fs n ∧ (args ≠ [] → (init env projects args s).2 = false) := by
  cases args with
  | nil => exact ⟨rfl, fun h => absurd rfl h⟩
  | cons a as =>
    have key : (one env projects a s).1.fs n = s.fs n ∧ (one env projects a s).2 = false := by
      unfold one
      cases a with
      | file path =>
        obtain ⟨h1, h2⟩ := unpack_no hno path s
        exact ⟨by show (unpack env path s).1.fs n = _; rw [h1], h2⟩
      | url u p r =>
        simp only
        unfold backup
        split
        · simp only [andThen, if_true]
          unfold fetchHttp
          simp only [prompt_no hno]
          refine ⟨?_, rfl⟩
          have n1 : n ≠ release p r ++ dotTar := fun e => hn ⟨u, p, r, List.mem_cons_self .., Or.inl (by rw [e]; unfold release; rw [List.append_assoc]; rfl)⟩
          have n2 : n ≠ release p r ++ dotTar ++ dotTmp := fun e => hn ⟨u, p, r, List.mem_cons_self .., Or.inr (by rw [e]; unfold release; rw [List.append_assoc, List.append_assoc]; rfl)⟩
          show (if n = _ then _ else if n = _ then _ else _) = _
          rw [if_neg n2, if_neg n1]
        · rw [prompt_no hno, andThen_no rfl]
          exact ⟨rfl, rfl⟩
    unfold init
    rw [andThen_no key.2]
    exact ⟨key.1, fun _ => key.2⟩

/-- C201: a download that does not work, wherever it is in the list, ends in failure. -/
theorem tar_failed (env : Env) (projects : Text) (before after : List Arg) (u p r : Text) (hf : env.fetch u = false) (s : St) :
    (init env projects (before ++ .url u p r :: after) s).2 = false := by
  have h0 : ∀ s : St, (one env projects (.url u p r) s).2 = false := by
    intro s
    have h1 : ∀ s : St, (fetchHttp env u (release p r ++ dotTar) s).2 = false := by
      intro s
      unfold fetchHttp
      simp only [hf, Bool.false_eq_true, if_false]
      unfold andThen
      split <;> simp_all
    unfold one
    simp only
    unfold andThen
    split
    · simp only [h1, Bool.false_eq_true, if_false]
    · rename_i h; simpa using h
  induction before generalizing s with
  | nil =>
    show (andThen _ _).2 = false
    rw [andThen_no (h0 s)]
    exact h0 s
  | cons a as ih =>
    show (andThen _ _).2 = false
    unfold andThen
    split
    · exact ih _
    · rename_i h; simpa using h

/-! ## Examples -/

def noon : Text := "2013-03-15T12:00".toList

theorem noon_date : IsDate noon := by
  refine ⟨by decide +kernel, ?_⟩
  have : noon.all (fun c => c.isDigit || c == '-' || c == ':' || c == 'T') = true := by decide +kernel
  intro c hc
  have := List.all_eq_true.mp this c hc
  simpa [or_assoc] using this

def lib : Text := ['l', 'i', 'b']

/-- `lib` exists; everything is answered with yes; archives have the directory they should have. -/
def toyEnv (fetch : Bool) : Env where
  yes _ := true
  date _ := noon
  tar file := if file = "lib-1.0.tar.bz2".toList then some [("lib-1.0".toList, .dir [2])] else if file = "my-lib-1.0.tar.bz2".toList then some [("my-lib-1.0".toList, .dir [3])] else none
  fetch _ := fetch

def toySt : St := { fs := fun n => if n = lib then some (.dir [1]) else if n = "lib-1.0".toList then some (.dir [7]) else none, now := 0 }

/-- The hypotheses can be met: the old project is kept, and the new one is there. -/
example : (init (toyEnv true) [] [.file "lib-1.0.tar.bz2".toList] toySt).2 = true ∧ (init (toyEnv true) [] [.file "lib-1.0.tar.bz2".toList] toySt).1.fs lib = some (.dir [2]) ∧
    (init (toyEnv true) [] [.file "lib-1.0.tar.bz2".toList] toySt).1.fs (backupName lib noon) = some (.dir [1]) := by decide +kernel

theorem toy_tidy (b : Bool) : Tidy (toyEnv b) := by
  intro file es h e he
  unfold toyEnv at h
  simp only at h
  split at h
  · obtain rfl := Option.some.inj h
    rw [List.mem_singleton.mp he]
    exact foreign_release lib ['1', '.', '0'] (by decide)
  · split at h
    · obtain rfl := Option.some.inj h
      rw [List.mem_singleton.mp he]
      exact foreign_release ['m', 'y'] "lib-1.0".toList (by decide)
    · cases h

/-! ## Where the code differs -/

/-- What one would expect besides: if `init` fails, the projects are where they were. -/
def FailsSafe (env : Env) (args : List Arg) (s : St) : Prop := (init env [] args s).2 = false → ∀ n, word n = true → (init env [] args s).1.fs n = s.fs n

/-- C201, false of the code: the archive of `my-lib` is taken for one of `lib`; the project `lib` is renamed, and the program stops. -/
theorem tar_hyphen_false : parse false "my-lib-1.0.tar.bz2".toList = some (lib, "1.0".toList) ∧ ¬ FailsSafe (toyEnv true) [.file "my-lib-1.0.tar.bz2".toList] toySt := by
  refine ⟨by decide +kernel, fun h => ?_⟩
  have := h (by decide +kernel) lib (by decide)
  revert this
  decide +kernel

/-- C201, false of the code: the project is renamed before the download; if this fails, it is missing. -/
theorem tar_download_false : ¬ FailsSafe (toyEnv false) [.url [] lib "1.0".toList] toySt := by
  intro h
  have := h (by decide +kernel) lib (by decide)
  revert this
  decide +kernel

theorem put_only {fs : Fs} {x : Text} {c : List Nat} (m : Text) (y : Option Node) (hy : y ≠ some (.dir c)) (h : ∀ k, fs k = some (.dir c) → k = x) : ∀ k, put fs m y k = some (.dir c) → k = x := by
  intro k hk
  unfold put at hk
  split at hk
  · exact absurd hk hy
  · exact h k hk

theorem put_none {fs : Fs} {c : List Nat} (m : Text) (y : Option Node) (hy : y ≠ some (.dir c)) (h : ∀ k, fs k ≠ some (.dir c)) : ∀ k, put fs m y k ≠ some (.dir c) := by
  intro k hk
  unfold put at hk
  split at hk
  · exact hy hk
  · exact h k hk

theorem extract_none {c : List Nat} : ∀ (es : List (Text × Node)) (fs : Fs), (∀ e ∈ es, e.2 ≠ .dir c) → (∀ k, fs k ≠ some (.dir c)) → ∀ k, extract fs es k ≠ some (.dir c) := by
  intro es
  induction es with
  | nil => intro fs _ h; exact h
  | cons e es ih =>
    intro fs he h
    exact ih _ (fun x hx => he x (List.mem_cons_of_mem _ hx)) (put_none _ _ (fun e' => he e (List.mem_cons_self ..) (Option.some.inj e')) h)

theorem rename_none {a b : Text} {c : List Nat} {s : St} (h : ∀ k, s.fs k ≠ some (.dir c)) : ∀ k, (doRename a b s).1.fs k ≠ some (.dir c) := by
  unfold doRename
  split
  · rename_i fs hr
    obtain ⟨_, h2⟩ := rename_ok hr
    subst h2
    exact put_none _ _ (h a) (put_none _ _ (by simp) h)
  · exact h

theorem rename_only {a b x : Text} {c : List Nat} {s : St} (ha : a ≠ x) (h : ∀ k, s.fs k = some (.dir c) → k = x) : ∀ k, (doRename a b s).1.fs k = some (.dir c) → k = x := by
  unfold doRename
  split
  · rename_i fs hr
    obtain ⟨_, h2⟩ := rename_ok hr
    subst h2
    exact put_only _ _ (fun e => ha (h a e)) (put_only _ _ (by simp) h)
  · exact h

theorem andThen_only {o : Out} {f : St → Out} {P : St → Prop} (h : P o.1) (hf : ∀ s, P s → P (f s).1) : P (andThen o f).1 := by
  unfold andThen
  split
  · exact hf _ h
  · exact h

/-- What was in a directory that is called like the release, and nowhere else, is gone when the archive has been unpacked. -/
theorem release_lost (env : Env) (file p r : Text) (c : List Nat) (s : St) (hp : parse false file = some (p, r)) (h : (unpack env file s).2 = true)
    (ht : ∀ es, env.tar file = some es → ∀ e ∈ es, e.2 ≠ .dir c) (ho : ∀ k, s.fs k = some (.dir c) → k = release p r) : ∀ k, (unpack env file s).1.fs k ≠ some (.dir c) := by
  have hne : p ≠ release p r := by
    intro e
    have := congrArg List.length e
    simp [release] at this
  unfold unpack at h ⊢
  rw [hp] at h ⊢
  simp only at h ⊢
  obtain ⟨_, h2⟩ := andThen_true h
  rw [h2] at h ⊢
  obtain ⟨h3, h4⟩ := andThen_true h
  rw [h4]
  have o1 : ∀ k, (backup env p s).1.fs k = some (.dir c) → k = release p r := by
    unfold backup
    split
    · exact ho
    · exact andThen_only (P := fun s => ∀ k, s.fs k = some (.dir c) → k = release p r) ho fun s1 q1 =>
        andThen_only (P := fun s => ∀ k, s.fs k = some (.dir c) → k = release p r) (rename_only hne q1) fun s2 q2 => q2
  have o2 : ∀ k, (clear env (release p r) (backup env p s).1).1.fs k ≠ some (.dir c) := by
    unfold clear at h3 ⊢
    split
    · rename_i hn
      intro k hk
      rw [o1 k hk, hn] at hk; cases hk
    · rename_i hn
      rw [if_neg hn] at h3
      obtain ⟨_, h5⟩ := andThen_true h3
      rw [h5]
      intro k hk
      simp only [put] at hk
      split at hk
      · cases hk
      · rename_i hkr; exact hkr (o1 k hk)
  unfold untar
  refine andThen_only (P := fun s => ∀ k, s.fs k ≠ some (.dir c)) o2 fun s3 q3 => ?_
  have q4 : ∀ k, extract s3.fs ((env.tar file).getD []) k ≠ some (.dir c) := by
    refine extract_none _ _ ?_ q3
    cases hta : env.tar file with
    | none => intro e he; cases he
    | some es => exact ht es hta
  simp only
  split
  · exact rename_none q4
  · exact q4

/-- C201, false of the code: a directory that is called like the release is deleted, not renamed. -/
theorem tar_release_false : ∃ (env : Env) (s : St) (file n : Text) (c : List Nat), (∀ k, IsDate (env.date k)) ∧ Tidy env ∧ c ≠ [] ∧ s.fs n = some (.dir c) ∧
    ∀ m, (unpack env file s).1.fs m ≠ some (.dir c) := by
  refine ⟨toyEnv true, toySt, "lib-1.0.tar.bz2".toList, "lib-1.0".toList, [7], fun _ => noon_date, toy_tidy true, by decide, by decide +kernel, ?_⟩
  refine release_lost (toyEnv true) _ lib "1.0".toList [7] toySt (by decide +kernel) (by decide +kernel) ?_ ?_
  · intro es he e hm
    have h1 : (toyEnv true).tar "lib-1.0.tar.bz2".toList = some [("lib-1.0".toList, .dir [2])] := by decide +kernel
    rw [h1] at he
    obtain rfl := Option.some.inj he
    rw [List.mem_singleton.mp hm]
    decide
  · intro k hk
    unfold toySt at hk
    simp only at hk
    split at hk
    · cases hk
    · split at hk
      · rename_i h; rw [h]; decide +kernel
      · cases hk

example : (∀ k, ({ toyEnv true with yes := fun _ => false } : Env).yes k = false) ∧ (toyEnv false).fetch [] = false ∧ ¬ Outputs [.url [] lib ['2']] lib :=
  ⟨fun _ => rfl, rfl, fun ⟨u, p, r, h, e⟩ => by
    simp only [List.mem_singleton, Arg.url.injEq] at h
    obtain ⟨_, rfl, rfl⟩ := h
    rcases e with e | e <;> exact absurd (congrArg List.length e) (by decide)⟩

end Verif.DepVC.Tar
