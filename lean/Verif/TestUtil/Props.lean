import Verif.TestUtil.Model

/-!
# Properties of `getDeptoolInfo` (C147) and of `deptool getenv for-sh` (C148)
-/

namespace Verif.TestUtil
open Verif

/-! ## Lemmas -/

theorem find_append (c : Char) (a b : Text) (h : c ∉ a) : find c (a ++ c :: b) = some a.length := by
  induction a with
  | nil => simp [find]
  | cons x a ih =>
    simp only [List.mem_cons, not_or] at h
    rw [List.cons_append, find, if_neg (Ne.symm h.1), ih h.2]
    simp

theorem find_none (c : Char) (a : Text) : find c a = none ↔ c ∉ a := by
  induction a with
  | nil => simp [find]
  | cons x a ih =>
    rw [find]
    by_cases h : x = c
    · simp [h]
    · rw [if_neg h]
      simp [ih, Ne.symm h]

theorem find_some (c : Char) (a : Text) (k : Nat) (h : find c a = some k) : c ∉ a.take k ∧ a = a.take k ++ c :: a.drop (k + 1) := by
  induction a generalizing k with
  | nil => simp [find] at h
  | cons x a ih =>
    rw [find] at h
    by_cases hx : x = c
    · rw [if_pos hx] at h
      cases h
      simp [hx]
    · rw [if_neg hx] at h
      cases hf : find c a with
      | none => rw [hf] at h; simp at h
      | some j =>
        rw [hf] at h
        simp only [Option.map_some, Option.some.injEq] at h
        subst h
        obtain ⟨h1, h2⟩ := ih j hf
        refine ⟨?_, ?_⟩
        · simp only [List.take_succ_cons, List.mem_cons, not_or]
          exact ⟨Ne.symm hx, h1⟩
        · simp only [List.take_succ_cons, List.drop_succ_cons, List.cons_append]
          rw [← h2]

theorem fgets_line (body rest : Text) (n : Nat) (h : '\n' ∉ body) (hn : body.length + 1 ≤ n) : fgets n (body ++ '\n' :: rest) = (body ++ ['\n'], rest) := by
  induction body generalizing n with
  | nil =>
    cases n with
    | zero => simp at hn
    | succ n => simp [fgets]
  | cons c body ih =>
    cases n with
    | zero => simp at hn
    | succ n =>
      simp only [List.mem_cons, not_or] at h
      simp only [List.length_cons] at hn
      rw [List.cons_append, fgets, if_neg (Ne.symm h.1), ih n h.2 (by omega)]
      rfl

theorem fgets_long (out : Text) (n : Nat) (h : n ≤ out.length) (hn : '\n' ∉ out.take n) : (fgets n out).1 = out.take n := by
  induction out generalizing n with
  | nil => simp only [List.length_nil, Nat.le_zero] at h; subst h; rfl
  | cons c out ih =>
    cases n with
    | zero => rfl
    | succ n =>
      simp only [List.length_cons] at h
      simp only [List.take_succ_cons, List.mem_cons, not_or] at hn
      rw [fgets, if_neg (Ne.symm hn.1), List.take_succ_cons, ← ih n (by omega) hn.2]

/-! ## Names and values -/

/-- A name that a shell would take for a variable, or at least one without `=`, `"` and line ends. -/
def GoodName (n : Text) : Prop := '=' ∉ n ∧ '"' ∉ n ∧ '\n' ∉ n

/-- A value without quotes and line ends. -/
def GoodValue (v : Text) : Prop := '"' ∉ v ∧ '\n' ∉ v

instance (n : Text) : Decidable (GoodName n) := inferInstanceAs (Decidable (_ ∧ _ ∧ _))
instance (v : Text) : Decidable (GoodValue v) := inferInstanceAs (Decidable (_ ∧ _))

/-- The value set last for a name. -/
def lastValue (n : Text) : List (Text × Text) → Option Text
  | [] => none
  | kv :: kvs => match lastValue n kvs with
    | some v => some v
    | none => if kv.1 = n then some kv.2 else none

def osName : Text := "BUILD_OS".toList
def archName : Text := "UNAME_M".toList

/-- The line without its end. -/
def lineBody (n v : Text) : Text := kwExport ++ n ++ ['=', '"'] ++ v ++ ['"', ';']

theorem printEnv_eq (n v : Text) : printEnv n v = lineBody n v ++ ['\n'] := by simp [printEnv, lineBody]

theorem lineBody_length (n v : Text) : (lineBody n v).length = n.length + v.length + 11 := by
  simp [lineBody, kwExport]; omega

theorem lineBody_noeol {n v : Text} (hn : GoodName n) (hv : GoodValue v) : '\n' ∉ lineBody n v := by
  simp only [lineBody, List.mem_append, not_or]
  exact ⟨⟨⟨⟨by decide, hn.2.2⟩, by decide⟩, hv.2⟩, by decide⟩

/-- Two texts up to their first `=`. -/
theorem split_eq {a b : Text} {c : Char} {x y : Text} (ha : c ∉ a) (hb : c ∉ b) (h : a ++ c :: x = b ++ c :: y) : a = b ∧ x = y := by
  have h1 := find_append c a x ha
  have h2 := find_append c b y hb
  rw [h, h2] at h1
  have hl : b.length = a.length := by simpa using h1
  have := List.append_inj h hl.symm
  exact ⟨this.1, by simpa using this.2⟩

theorem prefix_iff (m n v : Text) (hm : '=' ∉ m) (hn : '=' ∉ n) :
    ((kwExport ++ m ++ ['=', '"']).isPrefixOf (printEnv n v) = true) ↔ n = m := by
  rw [List.isPrefixOf_iff_prefix]
  constructor
  · rintro ⟨t, ht⟩
    have e : kwExport ++ (m ++ '=' :: ('"' :: t)) = kwExport ++ (n ++ '=' :: ('"' :: (v ++ ['"', ';', '\n']))) := by
      simpa [printEnv] using ht
    have e2 := List.append_cancel_left e
    exact (split_eq hm hn e2).1.symm
  · rintro rfl
    exact ⟨v ++ ['"', ';', '\n'], by simp [printEnv]⟩

theorem extractEnv_printEnv (n v : Text) (hn : GoodName n) (hv : GoodValue v) : extractEnv (printEnv n v) = if v = [] then .abort else .ok v := by
  have hq : '"' ∉ kwExport ++ n ++ ['='] := by
    simp only [List.mem_append, not_or]
    exact ⟨⟨by decide, hn.2.1⟩, by decide⟩
  have e : printEnv n v = (kwExport ++ n ++ ['=']) ++ '"' :: (v ++ '"' :: [';', '\n']) := by simp [printEnv]
  have f1 := find_append '"' (kwExport ++ n ++ ['=']) (v ++ '"' :: [';', '\n']) hq
  have f2 := find_append '"' v [';', '\n'] hv.1
  have hd : (printEnv n v).drop ((kwExport ++ n ++ ['=']).length + 1) = v ++ '"' :: [';', '\n'] := by
    rw [e, ← List.drop_drop, List.drop_left]
    rfl
  unfold extractEnv
  rw [e, f1]
  simp only []
  rw [← e, hd, f2]
  simp only [List.take_left]
  rw [if_neg]
  rw [e]
  simp [kwExport]
  omega

theorem takeLine_printEnv (n v os arch : Text) (hn : GoodName n) (hv : GoodValue v) :
    takeLine (printEnv n v) os arch =
      if n = osName then (if v = [] then .abort else .ok (v, arch))
      else if n = archName then (if v = [] then .abort else .ok (os, v))
      else .ok (os, arch) := by
  have p1 := prefix_iff osName n v (by decide +kernel) hn.1
  have p2 := prefix_iff archName n v (by decide +kernel) hn.1
  rw [show kwExport ++ osName ++ ['=', '"'] = kwOs from by decide +kernel] at p1
  rw [show kwExport ++ archName ++ ['=', '"'] = kwArch from by decide +kernel] at p2
  unfold takeLine
  rw [if_neg (by rw [printEnv_eq]; simp)]
  by_cases h1 : n = osName
  · rw [if_pos (p1.mpr h1), if_pos h1, extractEnv_printEnv n v hn hv]
    by_cases hv0 : v = [] <;> simp [hv0, Res.map]
  · rw [if_neg (by rw [p1]; exact h1), if_neg h1]
    by_cases h2 : n = archName
    · rw [if_pos (p2.mpr h2), if_pos h2, extractEnv_printEnv n v hn hv]
      by_cases hv0 : v = [] <;> simp [hv0, Res.map]
    · rw [if_neg (by rw [p2]; exact h2), if_neg h2]

/-- The value a name has after the lines: the last one set, or the one before. -/
def valueAfter (n : Text) (kvs : List (Text × Text)) (d : Text) : Text := (lastValue n kvs).getD d

theorem valueAfter_cons (n : Text) (kv : Text × Text) (kvs : List (Text × Text)) (d : Text) :
    valueAfter n (kv :: kvs) d = valueAfter n kvs (if kv.1 = n then kv.2 else d) := by
  unfold valueAfter
  rw [lastValue]
  cases lastValue n kvs with
  | some v => rfl
  | none => by_cases h : kv.1 = n <;> simp [h]

/-- Lines that are short enough and well formed. -/
def GoodLines (kvs : List (Text × Text)) : Prop :=
  ∀ kv ∈ kvs, GoodName kv.1 ∧ GoodValue kv.2 ∧ kv.1.length + kv.2.length + 12 ≤ 199

instance (kvs : List (Text × Text)) : Decidable (GoodLines kvs) := inferInstanceAs (Decidable (∀ kv ∈ kvs, _))

theorem readLines_forSh (kvs : List (Text × Text)) (hg : GoodLines kvs)
    (hne : ∀ kv ∈ kvs, kv.1 = osName ∨ kv.1 = archName → kv.2 ≠ []) (fuel : Nat) (hf : (getEnvForSh kvs).length < fuel) (os arch : Text) :
    readLines fuel (getEnvForSh kvs) os arch = .ok (valueAfter osName kvs os, valueAfter archName kvs arch) := by
  induction kvs generalizing fuel os arch with
  | nil =>
    cases fuel with
    | zero => simp at hf
    | succ fuel => simp [readLines, getEnvForSh, valueAfter, lastValue]
  | cons kv kvs ih =>
    cases fuel with
    | zero => simp at hf
    | succ fuel =>
      obtain ⟨n, v⟩ := kv
      obtain ⟨hn, hv, hl⟩ := hg (n, v) (by simp)
      simp only at hn hv hl
      have e : getEnvForSh ((n, v) :: kvs) = lineBody n v ++ '\n' :: getEnvForSh kvs := by
        simp [getEnvForSh, printEnv_eq]
      have fg : fgets 199 (getEnvForSh ((n, v) :: kvs)) = (printEnv n v, getEnvForSh kvs) := by
        rw [e, fgets_line _ _ _ (lineBody_noeol hn hv) (by rw [lineBody_length]; omega), ← printEnv_eq]
      rw [readLines, if_neg (by rw [e]; simp), fg]
      simp only []
      have hvn := hne (n, v) (by simp)
      simp only at hvn
      have hlen : (getEnvForSh kvs).length < fuel := by
        rw [e] at hf
        simp only [List.length_append, List.length_cons] at hf
        omega
      have ih' := fun os arch => ih (fun kv h => hg kv (List.mem_cons_of_mem _ h)) (fun kv h => hne kv (List.mem_cons_of_mem _ h)) fuel hlen os arch
      rw [takeLine_printEnv n v os arch hn hv, valueAfter_cons, valueAfter_cons]
      by_cases h1 : n = osName
      · rw [if_pos h1, if_neg (hvn (.inl h1))]
        simp only [ih']
        rw [if_pos h1, if_neg (by rw [h1]; decide +kernel)]
      · rw [if_neg h1]
        by_cases h2 : n = archName
        · rw [if_pos h2, if_neg (hvn (.inr h2))]
          simp only [ih']
          rw [if_neg h1, if_pos h2]
        · rw [if_neg h2]
          simp only [ih']
          rw [if_neg h1, if_neg h2]

/-! ## C147: what `getDeptoolInfo` returns -/

/-- What the name of a system and version means: the part before the first dash and the part after it. -/
def Describes (i : Info) (buildOs arch : Text) : Prop := i.os ++ ['-'] ++ i.version = buildOs ∧ '-' ∉ i.os ∧ i.arch = arch

theorem fromParts_iff (buildOs arch : Text) (i : Info) : fromParts buildOs arch = .ok i ↔ Describes i buildOs arch := by
  unfold fromParts Describes
  constructor
  · cases hf : find '-' buildOs with
    | none => simp
    | some k =>
      obtain ⟨h1, h2⟩ := find_some '-' buildOs k hf
      simp only [Res.ok.injEq]
      rintro rfl
      refine ⟨?_, h1, rfl⟩
      simpa using h2.symm
  · rintro ⟨h1, h2, h3⟩
    have e : buildOs = i.os ++ '-' :: i.version := by rw [← h1]; simp
    rw [e, find_append '-' i.os i.version h2]
    simp only [Res.ok.injEq, List.take_left]
    obtain ⟨o, v, a⟩ := i
    simp only at h3 ⊢
    subst h3
    congr
    rw [← List.drop_drop, List.drop_left]
    rfl

theorem fromParts_abort (buildOs arch : Text) : fromParts buildOs arch = .abort ↔ '-' ∉ buildOs := by
  unfold fromParts
  rw [← find_none]
  cases find '-' buildOs <;> simp

/-- With both variables set, the answer is what they say, whatever deptool would say; without a dash the call aborts. -/
theorem info_from_env (buildOs arch : Text) (pipe : Option Text) (h1 : buildOs ≠ []) (h2 : arch ≠ []) (i : Info) :
    (getInfo buildOs arch pipe = .ok i ↔ Describes i buildOs arch) ∧ (getInfo buildOs arch pipe = .abort ↔ '-' ∉ buildOs) ∧
      getInfo buildOs arch pipe ≠ .ub := by
  unfold getInfo
  rw [if_neg (by simp [h1, h2])]
  refine ⟨fromParts_iff _ _ _, fromParts_abort _ _, ?_⟩
  unfold fromParts
  cases find '-' buildOs <;> simp

example : Describes ⟨"debian".toList, "7.0-beta".toList, "x86_64".toList⟩ "debian-7.0-beta".toList "x86_64".toList := by
  refine ⟨by decide +kernel, by decide +kernel, rfl⟩

/-- So the name and version put together again are the value of `BUILD_OS`. -/
theorem osVersion_env (buildOs arch : Text) (pipe : Option Text) (h1 : buildOs ≠ []) (h2 : arch ≠ []) (i : Info) (h : getInfo buildOs arch pipe = .ok i) :
    i.osVersion = buildOs ∧ i.osVersionArch = buildOs ++ ['-'] ++ arch := by
  obtain ⟨e1, _, e3⟩ := ((info_from_env buildOs arch pipe h1 h2 i).1).mp h
  unfold Info.osVersion Info.osVersionArch
  rw [e1, e3]
  exact ⟨rfl, rfl⟩

/-- If a variable is missing, the answer is what deptool prints, for all values that leave its lines shorter than 200 characters and have no quotes in them. -/
theorem info_from_deptool_partial (buildOs arch : Text) (hm : buildOs = [] ∨ arch = []) (kvs : List (Text × Text)) (hg : GoodLines kvs)
    (os m : Text) (ho : lastValue osName kvs = some os) (ha : lastValue archName kvs = some m)
    (hne : ∀ kv ∈ kvs, kv.1 = osName ∨ kv.1 = archName → kv.2 ≠ []) (i : Info) :
    getInfo buildOs arch (some (getEnvForSh kvs)) = .ok i ↔ Describes i os m := by
  have hval : ∀ n kvs v, lastValue n kvs = some v → ∃ kv ∈ kvs, kv.1 = n ∧ kv.2 = v := by
    intro n kvs
    induction kvs with
    | nil => intro v h; cases h
    | cons kv kvs ih =>
      intro v h
      rw [lastValue] at h
      cases hl : lastValue n kvs with
      | some w =>
        rw [hl] at h
        obtain ⟨kv', h1, h2⟩ := ih w hl
        exact ⟨kv', List.mem_cons_of_mem _ h1, h2.1, by rw [h2.2]; exact Option.some.inj h⟩
      | none =>
        rw [hl] at h
        simp only at h
        by_cases hk : kv.1 = n
        · rw [if_pos hk] at h; exact ⟨kv, by simp, hk, Option.some.inj h⟩
        · rw [if_neg hk] at h; cases h
  have n1 : os ≠ [] := by
    obtain ⟨kv, h1, h2, h3⟩ := hval _ _ _ ho
    rw [← h3]; exact hne kv h1 (.inl h2)
  have n2 : m ≠ [] := by
    obtain ⟨kv, h1, h2, h3⟩ := hval _ _ _ ha
    rw [← h3]; exact hne kv h1 (.inr h2)
  unfold getInfo
  rw [if_pos hm]
  simp only []
  rw [readLines_forSh kvs hg hne _ (by omega)]
  simp only [valueAfter, ho, ha, Option.getD_some]
  rw [if_neg (by simp [n1, n2])]
  exact fromParts_iff _ _ _

/-- The beginning of what deptool prints. -/
def sample : List (Text × Text) :=
  [("PROJECTS", "/home/u/projects"), ("BUILD_ROOT", "/home/u/build"), ("BUILD_OS", "ubuntu-11.10"), ("UNAME_M", "i686"), ("MAKE_PARALLELISM", "6")].map
    fun kv => (kv.1.toList, kv.2.toList)

example : GoodLines sample ∧ lastValue osName sample = some "ubuntu-11.10".toList ∧ lastValue archName sample = some "i686".toList ∧
    (∀ kv ∈ sample, kv.1 = osName ∨ kv.1 = archName → kv.2 ≠ []) := by
  decide +kernel

example : getInfo [] [] (some (getEnvForSh sample)) = .ok ⟨"ubuntu".toList, "11.10".toList, "i686".toList⟩ := by decide +kernel

/-- The header says: if deptool is not present, all fields are empty. With a shell to start, the call aborts. -/
theorem absent_false (buildOs arch : Text) (hm : buildOs = [] ∨ arch = []) : getInfo buildOs arch Started.noDeptool.pipe = .abort := by
  have e : readLines 1 [] buildOs arch = .ok (buildOs, arch) := by simp [readLines]
  show (if buildOs = [] ∨ arch = [] then _ else _) = _
  rw [if_pos hm]
  show (match readLines 1 [] buildOs arch with | .ok (os', arch') => if os' = [] ∨ arch' = [] then Res.abort else fromParts os' arch' | .abort => .abort | .ub => .ub) = _
  rw [e]
  show (if buildOs = [] ∨ arch = [] then _ else _) = _
  rw [if_pos hm]

/-- Only without a shell is it as the header says. -/
theorem absent_noShell (buildOs arch : Text) (hm : buildOs = [] ∨ arch = []) :
    getInfo buildOs arch Started.noShell.pipe = .ok ⟨[], [], []⟩ := by
  unfold getInfo Started.pipe
  rw [if_pos hm]

/-- A first line of 200 characters or more, of a variable nobody asked for, aborts the call. -/
theorem long_line_false (buildOs arch : Text) (hm : buildOs = [] ∨ arch = []) (out : Text) (hl : 199 ≤ out.length) (hn : '\n' ∉ out.take 199) :
    getInfo buildOs arch (some out) = .abort := by
  have h1 := fgets_long out 199 hl hn
  have hne : out ≠ [] := by rintro rfl; simp at hl
  have ht : takeLine (fgets 199 out).1 buildOs arch = .abort := by
    unfold takeLine
    rw [if_pos]
    rw [h1]
    intro h
    exact hn (List.mem_of_getLast? h)
  unfold getInfo
  rw [if_pos hm]
  simp only []
  rw [readLines, if_neg hne, ht]

example : ∃ kvs : List (Text × Text), 199 ≤ (getEnvForSh kvs).length ∧ '\n' ∉ (getEnvForSh kvs).take 199 ∧ lastValue osName kvs ≠ none ∧
    lastValue archName kvs ≠ none :=
  ⟨("PROJECTS".toList, List.replicate 250 'p') :: sample, by decide +kernel⟩

/-! ## C148: what a shell makes of `deptool getenv for-sh` -/

/-- How a shell reads what stands between double quotes: the text and what follows, if nothing has to be expanded. -/
def shQuoted : Text → Option (Text × Text)
  | [] => none
  | '"' :: cs => some ([], cs)
  | '$' :: _ => none
  | '`' :: _ => none
  | '\\' :: c :: cs =>
    if c = '$' ∨ c = '`' ∨ c = '"' ∨ c = '\\' then (shQuoted cs).map fun q => (c :: q.1, q.2)
    else if c = '\n' then shQuoted cs
    else (shQuoted (c :: cs)).map fun q => ('\\' :: q.1, q.2)
  | c :: cs => (shQuoted cs).map fun q => (c :: q.1, q.2)
termination_by cs => cs.length

/-- A shell reads one line that sets a variable. -/
def shExport (name : Text) (line : Text) : Option Text :=
  if (kwExport ++ name ++ ['=', '"']).isPrefixOf line then
    match shQuoted (line.drop (kwExport ++ name ++ ['=', '"']).length) with
    | some (v, rest) => if rest = [';', '\n'] then some v else none
    | none => none
  else none

/-- A value without characters that mean something between double quotes. -/
def Inert (v : Text) : Prop := '"' ∉ v ∧ '$' ∉ v ∧ '`' ∉ v ∧ '\\' ∉ v

instance (v : Text) : Decidable (Inert v) := inferInstanceAs (Decidable (_ ∧ _ ∧ _ ∧ _))

theorem shQuoted_inert (v rest : Text) (h : Inert v) : shQuoted (v ++ '"' :: rest) = some (v, rest) := by
  induction v with
  | nil => rw [List.nil_append, shQuoted]
  | cons c v ih =>
    obtain ⟨h1, h2, h3, h4⟩ := h
    simp only [List.mem_cons, not_or] at h1 h2 h3 h4
    have := ih ⟨h1.2, h2.2, h3.2, h4.2⟩
    rw [List.cons_append, shQuoted]
    · rw [this]; rfl
    · exact fun e => h1.1 e.symm
    · exact fun e => h2.1 e.symm
    · exact fun e => h3.1 e.symm
    · exact fun _ _ e => absurd e.symm h4.1

theorem shExport_line (n v : Text) : shExport n (printEnv n v) =
    match shQuoted (v ++ '"' :: [';', '\n']) with
    | some (w, rest) => if rest = [';', '\n'] then some w else none
    | none => none := by
  have e : printEnv n v = (kwExport ++ n ++ ['=', '"']) ++ (v ++ '"' :: [';', '\n']) := by simp [printEnv]
  unfold shExport
  rw [if_pos (by rw [List.isPrefixOf_iff_prefix, e]; exact ⟨_, rfl⟩), e, List.drop_left]

/-- Evaluated by a shell, each line sets its variable to the value deptool has, for values of ordinary characters. -/
theorem forSh_sets_partial (n v : Text) (h : Inert v) : shExport n (printEnv n v) = some v := by
  rw [shExport_line, shQuoted_inert v _ h]
  simp

example : Inert "/home/me/My Projects".toList := by decide +kernel

/-- The values are not quoted: a dollar sign, a quote, a backquote or a last backslash changes or breaks the line. -/
theorem forSh_sets_false : (∀ a b, shExport "PROJECTS".toList (printEnv "PROJECTS".toList (a ++ '$' :: b)) ≠ some (a ++ '$' :: b) ∨ ¬ Inert a) ∧
    shExport "PROJECTS".toList (printEnv "PROJECTS".toList "/srv/$x".toList) = none ∧
    shExport "PROJECTS".toList (printEnv "PROJECTS".toList "a\\\\b".toList) = some "a\\b".toList ∧
    shExport "PROJECTS".toList (printEnv "PROJECTS".toList "5\" disk".toList) = none := by
  refine ⟨?_, ?_, ?_, ?_⟩
  · intro a b
    by_cases hi : Inert a
    · left
      rw [shExport_line]
      have : shQuoted (a ++ '$' :: b ++ '"' :: [';', '\n']) = none := by
        induction a with
        | nil => rw [List.nil_append, List.cons_append, shQuoted]
        | cons c a ih =>
          obtain ⟨h1, h2, h3, h4⟩ := hi
          simp only [List.mem_cons, not_or] at h1 h2 h3 h4
          rw [List.cons_append, List.cons_append, shQuoted, ih ⟨h1.2, h2.2, h3.2, h4.2⟩]
          · rfl
          · exact fun e => h1.1 e.symm
          · exact fun e => h2.1 e.symm
          · exact fun e => h3.1 e.symm
          · exact fun _ _ e => absurd e.symm h4.1
      rw [this]
      simp
    · exact .inr hi
  · decide +kernel
  · decide +kernel
  · decide +kernel

end Verif.TestUtil
