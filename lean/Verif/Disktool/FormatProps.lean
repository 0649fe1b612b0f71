import Verif.Disktool.FormatLemmas

/-!
# `lintel-disktool format`: what is overwritten, and the labels (C172, C173)
-/

namespace Verif.Disktool

/-- C172: `format` overwrites only first partitions of drives of the configuration whose tables are correct, none that is mounted directly below the mount path (except on a directory `0`), and no drive whose file system is to be `reserved`. The other drives stay as they are. -/
theorem format_writes (c : Config) (s : Sys) (env : Env) (w : World) (hs : Sane c s) (hn : s.devices.Nodup) (r : Out) (h : format c s env w = some r) :
    (∀ a ∈ r.acts, ∃ d p l, Allowed c s d ∧ partOf d = some p ∧ (w.disk d).tableOk = true ∧ (a = .zero p ∨ a = .mkfs p l) ∧ c.fs d l ≠ fsReserved ∧
      ∀ x, Plain x → x ≠ ['0'] → (p, c.mountPath ++ '/' :: x) ∉ w.mounts) ∧
    (∀ d, ¬ Allowed c s d → r.world.disk d = w.disk d) ∧ r.world.mounts = w.mounts := by
  obtain ⟨ds, m, l2p, xs, hf, hm, hl, hx, rfl⟩ := format_eq h
  have hall := ((drives_partial c s hs hn).2 ds hf).1
  obtain ⟨a1, a2⟩ := assign_drives _ _ _ hx
  obtain ⟨o1, o2⟩ := formatLoop_other c env m xs w
  have hmem : ∀ x ∈ xs, x.1 ∈ ds := fun x hx => a1 ▸ List.mem_map.mpr ⟨x, hx, rfl⟩
  refine ⟨?_, ?_, o2⟩
  · intro a ha
    obtain ⟨x, hxx, ht, he, hfs⟩ := formatLoop_acts c env m xs w a ha
    refine ⟨x.1, x.2.1, x.2.2, (hall _).mp (hmem x hxx), (a2 x hxx).1, checkDrives_ok _ _ _ hl _ (hmem x hxx), he, ?_, ?_⟩
    · intro e
      rw [e] at hfs
      revert hfs
      decide
    · intro y hy h0 hin
      have : isTrue (mountedOn m x.2.1) = true := by
        rw [isTrue_iff]
        exact ⟨y, (mountedOn_iff (getMounted_nodup hm).2.2 y _).mpr ((getMounted_mem hm y _).mpr ⟨hin, partOf_part1 (a2 x hxx).1, hy⟩), hy.1, h0⟩
      rw [this] at ht; cases ht
  · intro d hd
    refine o1 d ?_
    rintro x hx rfl
    exact absurd ((hall _).mp (hmem x hx)) hd

/-- C172: if partitions of these drives are only mounted directly below the mount path, and none on a directory `0`, then nothing that is in use is overwritten. -/
theorem format_safe_partial (c : Config) (s : Sys) (env : Env) (w : World) (hs : Sane c s) (hn : s.devices.Nodup)
    (hm : ∀ d p dir, Allowed c s d → partOf d = some p → (p, dir) ∈ w.mounts → ∃ x, dir = c.mountPath ++ '/' :: x ∧ Plain x ∧ x ≠ ['0'])
    (r : Out) (h : format c s env w = some r) : ∀ a ∈ r.acts, ∀ p, a.target = some p → ¬ InUse w p := by
  intro a ha q hq
  obtain ⟨d, p, l, hal, hp, _, he, _, hno⟩ := (format_writes c s env w hs hn r h).1 a ha
  have : q = p := by
    rcases he with rfl | rfl <;> simp only [Act.target, Option.some.injEq] at hq <;> exact hq.symm
  subst this
  rintro ⟨dir, hdir⟩
  obtain ⟨x, rfl, hx, h0⟩ := hm d q dir hal hp hdir
  exact hno x hx h0 hdir

/-- A label that may be given to a file system: one to twelve letters, digits and underscores (a newline at the end is let through). -/
def GoodLabel (l : Text) : Prop :=
  ∃ b, (l = b ∨ l = b ++ ['\n']) ∧ 1 ≤ b.length ∧ b.length ≤ 12 ∧
    ∀ ch ∈ b, ('a' ≤ ch ∧ ch ≤ 'z') ∨ ('A' ≤ ch ∧ ch ≤ 'Z') ∨ ('0' ≤ ch ∧ ch ≤ '9') ∨ ch = '_'

theorem validLabel_good {l : Text} (h : validLabel l = true) : GoodLabel l := by
  unfold validLabel at h
  simp only [Bool.and_eq_true, decide_eq_true_eq] at h
  obtain ⟨⟨h1, h2⟩, h3⟩ := h
  refine ⟨_, ?_, ?_, h2, ?_⟩
  · split
    · rename_i hl
      exact Or.inr (by obtain ⟨ys, rfl⟩ := List.getLast?_eq_some_iff.mp hl; simp)
    · exact Or.inl rfl
  · revert h1
    generalize (if l.getLast? = some '\n' then l.dropLast else l) = b
    intro h1
    cases b with
    | nil => simp at h1
    | cons x xs => simp
  · intro ch hc
    have := List.all_eq_true.mp h3 ch hc
    simp only [isWord, isLower, isDigit, Bool.or_eq_true, Bool.and_eq_true, decide_eq_true_eq, beq_iff_eq] at this
    simp only [Char.le_def, UInt32.le_iff_toNat_le]
    simp only [Char.toNat] at this
    grind

/-- C173: whenever `format` writes anything or ends well, every drive has been given a label before: one of its own, that consists of up to twelve letters, digits and underscores (perhaps with a newline at the end); a drive that has a label keeps it; file systems are made with these labels and no others; and if it ends well, every drive that
is not mounted and not `reserved` has a file system with its label. -/
theorem format_labels (c : Config) (s : Sys) (env : Env) (w : World) (hs : Sane c s) (hn : s.devices.Nodup) (r : Out) (h : format c s env w = some r) :
    ∃ label : Text → Text,
      (∀ d, Allowed c s d → GoodLabel (label d) ∧ ((w.disk d).label ≠ [] → label d = (w.disk d).label)) ∧
      (∀ d e, Allowed c s d → Allowed c s e → label d = label e → d = e) ∧
      (∀ p l, Act.mkfs p l ∈ r.acts → ∃ d, Allowed c s d ∧ partOf d = some p ∧ l = label d) ∧
      (r.ok = true → ∀ d p, Allowed c s d → partOf d = some p → c.fs d (label d) ≠ fsReserved → ¬ InUse w p →
        (r.world.disk d).label = label d ∧ (r.world.disk d).tableOk = true) := by
  obtain ⟨ds, m, l2p, xs, hf, hm, hl, hx, rfl⟩ := format_eq h
  have hall := ((drives_partial c s hs hn).2 ds hf).1
  obtain ⟨a1, a2⟩ := assign_drives _ _ _ hx
  have hnd := findDrives_nodup hn hf
  have hn1 : (xs.map (·.1)).Nodup := by rw [a1]; exact hnd
  have hn2 := assign_distinct _ _ _ hx hnd
  have hmem : ∀ x ∈ xs, x.1 ∈ ds := fun x hx => a1 ▸ List.mem_map.mpr ⟨x, hx, rfl⟩
  let label : Text → Text := fun d => ((xs.find? fun x => decide (x.1 = d)).map (·.2.2)).getD []
  have hlab : ∀ x ∈ xs, label x.1 = x.2.2 := by
    intro x hx
    show ((xs.find? fun y => decide (y.1 = x.1)).map (·.2.2)).getD [] = _
    rw [find_nodup (·.1) xs hn1 x hx]
    rfl
  have hex : ∀ d, Allowed c s d → ∃ x ∈ xs, x.1 = d := by
    intro d hd
    have := (hall d).mpr hd
    rw [← a1] at this
    obtain ⟨x, hx, he⟩ := List.mem_map.mp this
    exact ⟨x, hx, he⟩
  refine ⟨label, ?_, ?_, ?_, ?_⟩
  · intro d hd
    obtain ⟨x, hxx, rfl⟩ := hex d hd
    rw [hlab x hxx]
    exact ⟨validLabel_good (a2 x hxx).2.1, (a2 x hxx).2.2⟩
  · intro d e hd he heq
    obtain ⟨x, hxx, rfl⟩ := hex d hd
    obtain ⟨y, hyy, rfl⟩ := hex e he
    rw [hlab x hxx, hlab y hyy] at heq
    have h1 := find_nodup (·.2.2) xs hn2 x hxx
    have h2 := find_nodup (·.2.2) xs hn2 y hyy
    rw [← heq, h1] at h2
    cases h2
    rfl
  · intro p l ha
    obtain ⟨x, hxx, ht, he, hfs⟩ := formatLoop_acts c env m xs w _ ha
    rcases he with he | he
    · cases he
    · cases he
      exact ⟨x.1, (hall _).mp (hmem x hxx), (a2 x hxx).1, (hlab x hxx).symm⟩
  · intro ho d p hd hp hfs huse
    obtain ⟨x, hxx, rfl⟩ := hex d hd
    rw [hlab x hxx] at hfs
    have hpe : x.2.1 = p := by
      have := (a2 x hxx).1
      rw [hp] at this
      exact (Option.some.inj this).symm
    have hnot : isTrue (mountedOn m x.2.1) = false := by
      cases ht : isTrue (mountedOn m x.2.1) with
      | false => rfl
      | true =>
        obtain ⟨y, hy, _⟩ := (isTrue_iff _).mp ht
        have := (getMounted_mem hm y _).mp ((mountedOn_iff (getMounted_nodup hm).2.2 y _).mp hy)
        rw [hpe] at this
        exact absurd ⟨_, this.1⟩ huse
    obtain ⟨k1, k2, _, _⟩ := formatLoop_ok c env m xs hn1 w ho x hxx hnot hfs
    exact ⟨by rw [k1, hlab x hxx], by rw [k2]; exact checkDrives_ok _ _ _ hl _ (hmem x hxx)⟩

/-- The label that `nextUnique` gives is not taken, and it is the first such. -/
theorem nextUnique_fresh (expr : Nat → Text) (m : List (Text × Text)) (n i : Nat) (l : Text) (h : nextUnique expr m n i = some l) :
    lookup m l = none ∧ ∃ j, i ≤ j ∧ l = expr j ∧ ∀ k, i ≤ k → k < j → lookup m (expr k) ≠ none := by
  induction n generalizing i with
  | zero => cases h
  | succ n ih =>
    unfold nextUnique at h
    split at h
    · rename_i g
      cases h
      exact ⟨by simpa using g, i, Nat.le_refl i, rfl, by intro k h1 h2; omega⟩
    · rename_i g
      obtain ⟨h1, j, hj, hl, hk⟩ := ih (i + 1) h
      refine ⟨h1, j, by omega, hl, ?_⟩
      intro k k1 k2
      by_cases hki : k = i
      · subst hki; intro e; rw [e] at g; exact g rfl
      · exact hk k (by omega) k2

theorem lookup_mem {m : List (Text × Text)} {l : Text} (h : lookup m l ≠ none) : l ∈ m.map (·.1) := by
  unfold lookup at h
  cases hf : m.find? fun x => decide (x.1 = l) with
  | none => rw [hf] at h; exact absurd rfl h
  | some x =>
    have := List.find?_some hf
    simp only [decide_eq_true_eq] at this
    exact List.mem_map.mpr ⟨x, List.mem_of_find?_eq_some hf, this⟩

theorem inj_length (expr : Nat → Text) (hi : ∀ a b, expr a = expr b → a = b) (l : List Text) (n i : Nat) (h : ∀ k, i ≤ k → k < i + n → expr k ∈ l) : n ≤ l.length := by
  induction n generalizing l i with
  | zero => exact Nat.zero_le _
  | succ n ih =>
    have h0 := h i (Nat.le_refl i) (by omega)
    have := ih (l.erase (expr i)) (i + 1) (by
      intro k h1 h2
      refine (List.mem_erase_of_ne ?_).mpr (h k (by omega) (by omega))
      intro e
      have := hi _ _ e
      omega)
    rw [List.length_erase_of_mem h0] at this
    have : 0 < l.length := List.length_pos_of_mem h0
    omega

/-- C173: if the expression gives different labels for different numbers, `nextUnique` finds one: it looks at no more labels than there are, and one more. -/
theorem nextUnique_ends (expr : Nat → Text) (hi : ∀ a b, expr a = expr b → a = b) (m : List (Text × Text)) (i : Nat) : nextUnique expr m (m.length + 1) i ≠ none := by
  have key : ∀ n i, nextUnique expr m n i = none → ∀ k, i ≤ k → k < i + n → lookup m (expr k) ≠ none := by
    intro n
    induction n with
    | zero => intro i _ k h1 h2; omega
    | succ n ih =>
      intro i h k h1 h2
      unfold nextUnique at h
      split at h
      · cases h
      · rename_i g
        by_cases hk : k = i
        · subst hk; intro e; rw [e] at g; exact g rfl
        · exact ih (i + 1) h k (by omega) (by omega)
  intro h
  have := inj_length expr hi (m.map (·.1)) (m.length + 1) i fun k h1 h2 => lookup_mem (key _ i h k h1 h2)
  rw [List.length_map] at this
  omega

/-! ## Cases -/

def sdb : Text := ['s', 'd', 'b']
def sdc : Text := ['s', 'd', 'c']
def sdb1 : Text := ['/', 'd', 'e', 'v', '/', 's', 'd', 'b', '1']
def sdc1 : Text := ['/', 'd', 'e', 'v', '/', 's', 'd', 'c', '1']

/-- `nextUnique('$i')`. -/
def digits : Nat → Text := fun i => (Nat.toDigits 10 i)

def cfgF : Config where
  pattern := fun _ => true
  serials := fun t => t == ['K']
  sysfsIds := fun _ => false
  mountPath := ['/', 'k']
  labelToPath := fun l _ => some (['/', 'k', '/'] ++ l)
  partitionToLabel := fun _ m => nextUnique digits m 10 1

def sysF : Sys where
  devices := [sdc, sdb]
  minor := fun _ => 16
  serial := fun _ => some ['K']
  sysfs := fun _ => none

theorem saneF : Sane cfgF sysF := ⟨rfl, rfl, fun _ => by simp [sysF], fun _ => by simp [sysF]⟩

/-- One drive has the label `1` and is mounted, the other is new and becomes `2`. -/
def worldF : World where
  disk := fun d => if d = sdb then ⟨true, ['1']⟩ else ⟨true, []⟩
  mounts := [(sdb1, ['/', 'k', '/', '1'])]

example : (format cfgF sysF envEx worldF).map (fun r => (r.acts, r.ok, r.world.disk sdc)) = some ([.zero sdc1, .mkfs sdc1 ['2']], true, ⟨true, ['2']⟩) := by decide +kernel

/-- A drive that is mounted where `label_to_mount_path` says, but outside the mount path (as in the example of the documentation), is overwritten while it is in use. -/
theorem format_elsewhere_false : ∃ (c : Config) (s : Sys) (env : Env) (w : World) (r : Out) (d : Text), Sane c s ∧ s.devices.Nodup ∧ format c s env w = some r ∧
    c.labelToPath (w.disk d).label d = some ['/', 'p', '/', '1'] ∧ visible w ['/', 'p', '/', '1'] = partOf d ∧ (∃ p, partOf d = some p ∧ Act.zero p ∈ r.acts) :=
  ⟨{ cfgF with labelToPath := fun l _ => some (['/', 'p', '/'] ++ l) }, { sysF with devices := [sdb] }, envEx, { worldF with mounts := [(sdb1, ['/', 'p', '/', '1'])] }, _, sdb,
    ⟨rfl, rfl, fun _ => by simp [sysF], fun _ => by simp [sysF]⟩, by decide, rfl, by decide, by decide, sdb1, by decide, List.mem_cons_self ..⟩

/-- A drive with the label `0` that is mounted on its directory below the mount path is overwritten while it is in use. -/
theorem format_zero_false : ∃ (c : Config) (s : Sys) (env : Env) (w : World) (r : Out) (d : Text), Sane c s ∧ s.devices.Nodup ∧ format c s env w = some r ∧
    (w.disk d).label = ['0'] ∧ visible w (c.mountPath ++ ['/', '0']) = partOf d ∧ (∃ p, partOf d = some p ∧ Act.zero p ∈ r.acts) :=
  ⟨cfgF, { sysF with devices := [sdb] }, envEx, { disk := fun _ => ⟨true, ['0']⟩, mounts := [(sdb1, ['/', 'k', '/', '0'])] }, _, sdb,
    ⟨rfl, rfl, fun _ => by simp [sysF], fun _ => by simp [sysF]⟩, by decide, rfl, rfl, by decide, sdb1, by decide, List.mem_cons_self ..⟩

/-- A label with a newline at its end is not refused: the drive is overwritten and no file system is made. -/
theorem format_newline_false : ∃ (c : Config) (s : Sys) (env : Env) (w : World) (r : Out) (d p : Text), Sane c s ∧ s.devices.Nodup ∧ (∀ a, env.works a = true) ∧ format c s env w = some r ∧
    partOf d = some p ∧ Act.zero p ∈ r.acts ∧ (r.world.disk d).label = [] ∧ r.ok = false :=
  ⟨{ cfgF with partitionToLabel := fun _ _ => some ['a', '\n'] }, { sysF with devices := [sdb] }, envEx, { disk := fun _ => ⟨true, []⟩, mounts := [] }, _, sdb, sdb1,
    ⟨rfl, rfl, fun _ => by simp [sysF], fun _ => by simp [sysF]⟩, by decide, fun _ => rfl, rfl, by decide, List.mem_cons_self .., by decide, by decide⟩

end Verif.Disktool
