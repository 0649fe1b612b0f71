import Verif.Batch.Checksum

/-!
# Properties of the `checksum` module of `batch-parallel` (C138, C139)
-/

namespace Verif.Batch.Checksum

variable {B : Type}

/-! ## C138: what is in a checksum file -/

/-- The lines for one content under one name: for each digest asked for, in the order of their names. -/
def linesFor (w : World B) (o : Opts) (b : B) (name : Text) : Text :=
  (if o.md5 then "md5 ".toList ++ w.digest .md5 b ++ " ".toList ++ name ++ "\n".toList else []) ++
    if o.sha1 then "sha1 ".toList ++ w.digest .sha1 b ++ " ".toList ++ name ++ "\n".toList else []

/-- A path that the two-argument `open` takes for the file of that name. -/
def Opens (path : Text) : Prop := ∃ a c, path = '/' :: (a ++ [c]) ∧ isSpace c = false ∧ c ≠ '|'

theorem dropWhile_neg {p : Char → Bool} {c : Char} {s : Text} (h : p c = false) : (c :: s).dropWhile p = c :: s := by
  simp [List.dropWhile, h]

theorem rstrip_snoc {s : Text} {c : Char} (h : isSpace c = false) : rstrip (s ++ [c]) = s ++ [c] := by
  unfold rstrip
  rw [List.reverse_append, List.reverse_singleton, List.singleton_append, dropWhile_neg h]
  simp

theorem rstrip_space {s : Text} : rstrip (s ++ [' ']) = rstrip s := by
  unfold rstrip
  rw [List.reverse_append, List.reverse_singleton, List.singleton_append]
  have : isSpace ' ' = true := by decide
  simp [List.dropWhile, this]

theorem open2_file {path : Text} (h : Opens path) : open2 path = .file path := by
  obtain ⟨a, c, rfl, hc, hb⟩ := h
  unfold open2
  rw [dropWhile_neg (by decide)]
  have : '/' :: (a ++ [c]) = ('/' :: a) ++ [c] := rfl
  simp only [this, rstrip_snoc hc]
  rw [if_neg]
  simp only [List.getLast?_append, List.getLast?_singleton, Option.some_or, Option.some.injEq]
  exact hb

theorem open2_cmd {c : Char} {s path : Text} (hc : isSpace c = false) (h : Opens path) :
    open2 (c :: s ++ path ++ " |".toList) = .cmd (c :: s ++ path) := by
  obtain ⟨a, d, rfl, hd, hb⟩ := h
  unfold open2
  have e : c :: s ++ '/' :: (a ++ [d]) ++ " |".toList = ((c :: s ++ '/' :: (a ++ [d])) ++ [' ']) ++ ['|'] := by
    show _ ++ [' ', '|'] = _
    simp
  rw [e]
  have e2 : (c :: s ++ '/' :: (a ++ [d])) ++ [' '] ++ ['|'] = c :: (s ++ '/' :: (a ++ [d]) ++ [' '] ++ ['|']) := by simp
  rw [show ((c :: s ++ '/' :: (a ++ [d]) ++ [' '] ++ ['|']).dropWhile isSpace) = (c :: s ++ '/' :: (a ++ [d])) ++ [' '] ++ ['|'] by
    rw [e2, dropWhile_neg hc]]
  simp only [rstrip_snoc (show isSpace '|' = false by decide)]
  rw [if_pos (by rw [List.getLast?_append]; rfl)]
  rw [List.dropLast_concat, rstrip_space]
  have e3 : c :: s ++ '/' :: (a ++ [d]) = (c :: s ++ '/' :: a) ++ [d] := by simp
  rw [e3, rstrip_snoc hd]

theorem checksum_eq (w : World B) (o : Opts) {source : Text} {b : B} (h : w.read (open2 source) = some b) (name : Text) :
    checksum w source name o.digests = some (linesFor w o b name) := by
  unfold Opts.digests linesFor
  cases o.md5 <;> cases o.sha1 <;> simp [checksum, h, line, Dig.name]

theorem checksum_none (w : World B) {source : Text} (h : w.read (open2 source) = none) (name : Text) {ds : List Dig} (hd : ds ≠ []) :
    checksum w source name ds = none := by
  cases ds with
  | nil => exact absurd rfl hd
  | cons d ds => simp [checksum, h]

/-- The name written: the path, or what follows its last slash. -/
def IsName (o : Opts) (path name : Text) : Prop :=
  (o.basename = false ∧ name = path) ∨ (o.basename = true ∧ '/' ∉ name ∧ ∃ d, path = d ++ '/' :: name)

theorem name_ok (o : Opts) {path : Text} (h : Opens path) : IsName o path (if o.basename then baseOf path else path) := by
  unfold IsName
  cases hb : o.basename with
  | false => simp
  | true =>
    simp only [if_true, Bool.true_eq_false, false_and, true_and, false_or]
    unfold baseOf
    have hall : ∀ (l : Text), ∀ x ∈ l.takeWhile (· ≠ '/'), x ≠ '/' := by
      intro l
      induction l with
      | nil => simp
      | cons a l ih =>
        intro x hx
        simp only [List.takeWhile] at hx
        by_cases ha : a = '/'
        · simp [ha] at hx
        · simp only [ne_eq, ha, not_false_eq_true, decide_true, List.mem_cons] at hx
          rcases hx with rfl | hx
          · exact ha
          · exact ih x hx
    constructor
    · intro hm
      exact hall _ _ (List.mem_reverse.1 hm) rfl
    · have hsl : ∀ l : Text, '/' ∈ l → ∃ r, l = l.takeWhile (· ≠ '/') ++ '/' :: r := by
        intro l
        induction l with
        | nil => simp
        | cons a l ih =>
          intro hm
          by_cases ha : a = '/'
          · subst ha; exact ⟨l, by simp [List.takeWhile]⟩
          · obtain ⟨r, hr⟩ := ih (by simpa [Ne.symm ha] using hm)
            refine ⟨r, ?_⟩
            simp only [List.takeWhile, ne_eq, ha, not_false_eq_true, decide_true, List.cons_append, List.cons.injEq, true_and]
            exact hr
      obtain ⟨a, c, hp, -⟩ := h
      obtain ⟨r, hr⟩ := hsl path.reverse (by rw [List.mem_reverse, hp]; simp)
      refine ⟨r.reverse, ?_⟩
      have := congrArg List.reverse hr
      rw [List.reverse_reverse] at this
      conv => lhs; rw [this]
      simp

/-- Without `uncompressed-also`: the file holds exactly the lines of the digests asked for, over the contents of the file, under its name. -/
theorem plain_content_partial (w : World B) (o : Opts) (path : Text) (h : Opens path) (hu : o.uncompressedAlso = false)
    (b : B) (hf : w.file path = some b) :
    ∃ name, IsName o path name ∧ rebuild w o path = some (linesFor w o b name) := by
  refine ⟨_, name_ok o h, ?_⟩
  unfold rebuild
  simp only []
  rw [checksum_eq w o (b := b) (by rw [open2_file h]; exact hf)]
  simp [hu]

/-- A suffix of the name is one of the path, if it has no slash. -/
theorem dropSuffix_some {suf s : Text} : (∃ t, dropSuffix suf s = some t) ↔ ∃ t, s = t ++ suf := by
  unfold dropSuffix
  constructor
  · rintro ⟨t, ht⟩
    split at ht
    · rename_i h
      rw [List.isSuffixOf_iff_suffix] at h
      obtain ⟨u, hu⟩ := h
      exact ⟨u, hu.symm⟩
    · cases ht
  · rintro ⟨t, rfl⟩
    rw [if_pos (by rw [List.isSuffixOf_iff_suffix]; exact ⟨t, rfl⟩)]
    exact ⟨_, rfl⟩

theorem dropSuffix_append (t suf : Text) : dropSuffix suf (t ++ suf) = some t := by
  unfold dropSuffix
  rw [if_pos (by rw [List.isSuffixOf_iff_suffix]; exact ⟨t, rfl⟩)]
  simp

theorem suffix_of_name {d name t suf : Text} (hs : '/' ∉ suf) (h : d ++ '/' :: name = t ++ suf) : ∃ u, name = u ++ suf := by
  have := List.append_eq_append_iff.1 h
  rcases this with ⟨a, ht, hn⟩ | ⟨a, hd, hsuf⟩
  · cases a with
    | nil => simp only [List.nil_append] at hn; exact absurd (by rw [← hn]; simp) hs
    | cons x a =>
      simp only [List.cons_append, List.cons.injEq] at hn
      exact ⟨a, hn.2⟩
  · exact absurd (by rw [hsuf]; simp) hs

/-- With `uncompressed-also`, for a compressed file: the same lines follow for what the shell command reading it writes, under the name without its suffix. -/
theorem compressed_content_partial (w : World B) (o : Opts) (path : Text) (h : Opens path) (hu : o.uncompressedAlso = true)
    (b : B) (hf : w.file path = some b) (suf cmd : Text)
    (hsuf : (suf = ".gz".toList ∧ cmd = "gunzip -c < ".toList ++ path) ∨ (suf = ".bz2".toList ∧ cmd = "bunzip2 -c  < ".toList ++ path))
    (stem : Text) (hst : path = stem ++ suf) :
    ∃ name base, IsName o path name ∧ name = base ++ suf ∧
      rebuild w o path = some (linesFor w o b name ++ linesFor w o (w.shell cmd) base) := by
  have hname := name_ok o h
  have hns : '/' ∉ suf := by rcases hsuf with ⟨rfl, -⟩ | ⟨rfl, -⟩ <;> decide +kernel
  obtain ⟨base, hbase⟩ : ∃ u, (if o.basename then baseOf path else path) = u ++ suf := by
    rcases hname with ⟨-, hn⟩ | ⟨-, -, d, hd⟩
    · exact ⟨stem, hn.trans hst⟩
    · exact suffix_of_name hns (hd.symm.trans hst)
  refine ⟨_, base, hname, hbase, ?_⟩
  unfold rebuild
  simp only []
  rw [checksum_eq w o (b := b) (by rw [open2_file h]; exact hf)]
  simp only [hu, if_true]
  rcases hsuf with ⟨rfl, rfl⟩ | ⟨rfl, rfl⟩
  · have h1 : dropSuffix ".gz".toList path = some stem := by rw [hst]; exact dropSuffix_append _ _
    rw [h1, hbase, dropSuffix_append]
    simp only [Option.getD_some]
    have h2 : open2 ("gunzip -c < ".toList ++ path ++ " |".toList) = .cmd ("gunzip -c < ".toList ++ path) :=
      open2_cmd (c := 'g') (s := "unzip -c < ".toList) (by decide) h
    rw [checksum_eq w o (b := w.shell ("gunzip -c < ".toList ++ path)) (by rw [h2]; rfl)]
    simp
  · have h0 : dropSuffix ".gz".toList path = none := by
      cases hg : dropSuffix ".gz".toList path with
      | none => rfl
      | some x =>
        obtain ⟨t, ht⟩ := dropSuffix_some.1 ⟨x, hg⟩
        have := congrArg List.getLast? (hst.symm.trans ht)
        have e1 : (stem ++ ".bz2".toList).getLast? = some '2' := by
          rw [List.getLast?_append]; rfl
        have e2 : (t ++ ".gz".toList).getLast? = some 'z' := by
          rw [List.getLast?_append]; rfl
        rw [e1, e2] at this
        exact absurd this (by decide)
    have h1 : dropSuffix ".bz2".toList path = some stem := by rw [hst]; exact dropSuffix_append _ _
    rw [h0, h1, hbase, dropSuffix_append]
    simp only [Option.getD_some]
    have h2 : open2 ("bunzip2 -c  < ".toList ++ path ++ " |".toList) = .cmd ("bunzip2 -c  < ".toList ++ path) :=
      open2_cmd (c := 'b') (s := "unzip2 -c  < ".toList) (by decide) h
    rw [checksum_eq w o (b := w.shell ("bunzip2 -c  < ".toList ++ path)) (by rw [h2]; rfl)]
    simp

/-- `new` always leaves a digest to be made, and takes `sha1` if none is named. -/
theorem new_digest (args : List Text) (o : Opts) (h : new args {} = some o) :
    (o.md5 = true ↔ "md5".toList ∈ args) ∧ (o.sha1 = true ↔ "sha1".toList ∈ args ∨ "md5".toList ∉ args) ∧
      (o.uncompressedAlso = true ↔ "uncompressed-also".toList ∈ args) ∧ (o.basename = true ↔ "basename".toList ∈ args) := by
  have gen : ∀ (args : List Text) (o0 : Opts), new args o0 = some o →
      (o.md5 = true ↔ o0.md5 = true ∨ "md5".toList ∈ args) ∧
      (o.sha1 = true ↔ o0.sha1 = true ∨ "sha1".toList ∈ args ∨ (o0.md5 = false ∧ "md5".toList ∉ args)) ∧
      (o.uncompressedAlso = true ↔ o0.uncompressedAlso = true ∨ "uncompressed-also".toList ∈ args) ∧
      (o.basename = true ↔ o0.basename = true ∨ "basename".toList ∈ args) := by
    intro args
    induction args with
    | nil =>
      intro o0 h
      simp only [new, Option.some.injEq] at h
      subst h
      cases h1 : o0.md5 <;> cases h2 : o0.sha1 <;> simp [h1, h2]
    | cons a as ih =>
      intro o0 h
      have d : ("md5".toList ≠ "sha1".toList ∧ "uncompressed-also".toList ≠ "sha1".toList ∧ "basename".toList ≠ "sha1".toList) ∧
        ("sha1".toList ≠ "md5".toList ∧ "uncompressed-also".toList ≠ "md5".toList ∧ "basename".toList ≠ "md5".toList) ∧
        ("sha1".toList ≠ "uncompressed-also".toList ∧ "md5".toList ≠ "uncompressed-also".toList ∧ "basename".toList ≠ "uncompressed-also".toList) ∧
        ("sha1".toList ≠ "basename".toList ∧ "md5".toList ≠ "basename".toList ∧ "uncompressed-also".toList ≠ "basename".toList) := by
        decide +kernel
      simp only [new] at h
      generalize "md5".toList = m5 at *
      generalize "sha1".toList = s1 at *
      generalize "uncompressed-also".toList = ua at *
      generalize "basename".toList = bn at *
      split at h
      · have := ih _ h; grind
      · split at h
        · have := ih _ h; grind
        · split at h
          · have := ih _ h; grind
          · split at h
            · have := ih _ h; grind
            · cases h
  have := gen args {} h
  simpa using this

/-! ### Where it is not so -/

/-- A world for the examples: contents are texts, a digest is the content itself, and `gunzip` fails after half of its output. -/
def demo : World Text :=
  { file := fun p => if p = "/d/foo".toList then some "one".toList else if p = "/d/foo ".toList then some "two".toList
      else if p = "/d/x.gz".toList then some "zzzz".toList else none
    digest := fun _ b => b
    shell := fun _ => "ha".toList }

/-- A name that ends in a space: the checksum written is that of another file. -/
theorem trailing_space_false : ¬∀ (w : World Text) (o : Opts) (path : Text) (b : Text), path.head? = some '/' → o.sha1 = true →
    o.uncompressedAlso = false → w.file path = some b → ∀ t, rebuild w o path = some t → ∃ name, t = linesFor w o b name := by
  intro h
  obtain ⟨name, hn⟩ := h demo { sha1 := true, basename := true } "/d/foo ".toList "two".toList (by decide +kernel) rfl rfl (by decide +kernel)
    "sha1 one foo \n".toList (by decide +kernel)
  have h1 := congrArg (List.take 8) hn
  simp only [linesFor, Bool.false_eq_true, if_false, if_true, List.nil_append] at h1
  have e : ("sha1 ".toList ++ demo.digest .sha1 "two".toList ++ " ".toList ++ name ++ "\n".toList).take 8 = "sha1 two".toList := rfl
  rw [e] at h1
  exact absurd h1 (by decide +kernel)

/-- A name that ends in `|` is run as a command. -/
theorem pipe_runs : open2 "/d/rm -rf x|".toList = .cmd "/d/rm -rf x".toList := by decide +kernel

/-- The exit of the uncompressing command is not looked at: whatever the command wrote before it failed is what is summed, and the job is a success. `status` is what the shell says of a command; nothing in `rebuild` depends on it. -/
theorem uncompress_failure_false : ¬∀ (w : World Text) (status : Text → Bool) (o : Opts) (path t : Text), o.uncompressedAlso = true →
    o.sha1 = true → (∃ stem, path = stem ++ ".gz".toList) → rebuild w o path = some t → status ("gunzip -c < ".toList ++ path) = true := by
  intro h
  have := h demo (fun _ => false) { sha1 := true, uncompressedAlso := true } "/d/x.gz".toList
    "sha1 zzzz /d/x.gz\nsha1 ha /d/x\n".toList rfl rfl ⟨"/d/x".toList, by decide +kernel⟩ (by decide +kernel)
  cases this

/-! ## C139: which files have a checksum file -/

/-- The name of a checksum file, finished or not. -/
def IsSum (p : Text) : Prop := (∃ q, p = q ++ ".checksum".toList) ∨ ∃ q, p = q ++ ".checksum-new".toList

theorem isSource_iff (o : Opts) (p : Text) : isSource o p = true ↔ ¬IsSum p ∧ o.matchRe p = true := by
  unfold isSource IsSum
  have h : ∀ suf : Text, suf.isSuffixOf p = true ↔ ∃ q, p = q ++ suf := by
    intro suf
    rw [List.isSuffixOf_iff_suffix]
    exact ⟨fun ⟨q, hq⟩ => ⟨q, hq.symm⟩, fun ⟨q, hq⟩ => ⟨q, hq.symm⟩⟩
  rw [← h, ← h]
  cases List.isSuffixOf ".checksum".toList p <;> cases List.isSuffixOf ".checksum-new".toList p <;> simp

/-- What is to be done: the files asked for that are no checksum files and have none, each once. -/
theorem things_iff (o : Opts) (files : List Text) (p : Text) :
    p ∈ things o files ↔ p ∈ files ∧ ¬IsSum p ∧ o.matchRe p = true ∧ p ++ ".checksum".toList ∉ files := by
  unfold things dest
  simp only [List.mem_filter, isSource_iff, Bool.not_eq_true', List.contains_eq_mem, decide_eq_false_iff_not]
  grind

/-- After a run in which all jobs ended well: every file asked for has its checksum file, nothing else was made, no checksum file has one of its own unless it had before, and another run finds nothing to do. -/
theorem run_complete (o : Opts) (files : List Text) :
    (∀ p ∈ files, ¬IsSum p → o.matchRe p = true → p ++ ".checksum".toList ∈ runAll o files) ∧
    (∀ q ∈ runAll o files, q ∉ files → ∃ p ∈ files, ¬IsSum p ∧ o.matchRe p = true ∧ q = p ++ ".checksum".toList) ∧
    (∀ q ∈ files, q ∈ runAll o files) ∧
    things o (runAll o files) = [] := by
  have h1 : ∀ p ∈ files, ¬IsSum p → o.matchRe p = true → p ++ ".checksum".toList ∈ runAll o files := by
    intro p hp hs hm
    unfold runAll
    rw [List.mem_append]
    by_cases hd : p ++ ".checksum".toList ∈ files
    · exact Or.inl hd
    · exact Or.inr (List.mem_map.2 ⟨p, (things_iff o files p).2 ⟨hp, hs, hm, hd⟩, rfl⟩)
  have h2 : ∀ q ∈ runAll o files, q ∉ files → ∃ p ∈ files, ¬IsSum p ∧ o.matchRe p = true ∧ q = p ++ ".checksum".toList := by
    intro q hq hn
    unfold runAll at hq
    rw [List.mem_append] at hq
    rcases hq with hq | hq
    · exact absurd hq hn
    · obtain ⟨p, hp, rfl⟩ := List.mem_map.1 hq
      have := (things_iff o files p).1 hp
      exact ⟨p, this.1, this.2.1, this.2.2.1, rfl⟩
  refine ⟨h1, h2, fun q hq => by unfold runAll; simp [hq], ?_⟩
  apply List.eq_nil_iff_forall_not_mem.2
  intro p hp
  obtain ⟨ha, hb, hc, hd⟩ := (things_iff o _ p).1 hp
  by_cases hf : p ∈ files
  · exact hd (h1 p hf hb hc)
  · obtain ⟨q, -, -, -, rfl⟩ := h2 p ha hf
    exact hb (Or.inl ⟨q, rfl⟩)

/-- A file that is changed after its checksum was made keeps the old one: no run makes it again, whatever its content. -/
theorem changed_file_false : ¬∀ (w w' : World Text) (o : Opts) (files : List Text) (p : Text), p ∈ files → isSource o p = true →
    things o files = [p] → rebuild w o p ≠ rebuild w' o p → p ∈ things o (runAll o files) := by
  intro h
  have := h demo { demo with file := fun _ => some "new".toList } { sha1 := true } ["/d/foo".toList] "/d/foo".toList (by simp)
    (by decide +kernel) (by decide +kernel) (by decide +kernel)
  exact absurd this (by decide +kernel)

/-! ### The hypotheses can be met -/

example : Opens "/d/x.gz".toList := ⟨"d/x.g".toList, 'z', by decide +kernel, by decide, by decide⟩

example : rebuild demo { md5 := true, sha1 := true, basename := true, uncompressedAlso := true } "/d/x.gz".toList =
    some "md5 zzzz x.gz\nsha1 zzzz x.gz\nmd5 ha x\nsha1 ha x\n".toList := by decide +kernel

example : runAll {} ["/a".toList, "/b".toList, "/b.checksum".toList, "/c.checksum-new".toList] =
    ["/a".toList, "/b".toList, "/b.checksum".toList, "/c.checksum-new".toList, "/a.checksum".toList] := by decide +kernel

example : ((new ["md5".toList, "basename".toList] {}).map fun o => (o.md5, o.sha1, o.basename)) = some (true, false, true) := by
  decide +kernel

end Verif.Batch.Checksum
