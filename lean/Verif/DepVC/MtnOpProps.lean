import Verif.DepVC.MtnOp

/-! # deptool with monotone: the commands that are run (C253) -/

namespace Verif.DepVC.MtnOp

open Verif.Deptool.Deps (Text)
open Verif.DepVC.Ctest (isSpace strip)

/-! ## Specification -/

/-- A line of the options file that sets `key`: blanks, the key, a space and the value in quotes. -/
def Sets (key l v : Text) : Prop := ∃ pad : Text, (∀ c ∈ pad, c ∈ [' ', '\t', '\n', '\r', '\x0c', '\x0b']) ∧ l = pad ++ (key ++ [' ', '"'] ++ (v ++ ['"'])) ∧ v ≠ []

/-- The value that is in force: that of the last line that sets the key. -/
def InForce (key : Text) (ls : List Text) (v : Text) : Prop := ∃ a l b, ls = a ++ l :: b ∧ Sets key l v ∧ ∀ m ∈ b, ∀ w, ¬ Sets key m w

/-- The branches to exchange: for a branch of at least three parts all but the last, otherwise the branch itself. -/
def Family (b f : Text) : Prop := (∃ q r, b = q ++ '/' :: r ∧ '/' ∉ r ∧ '/' ∈ q ∧ f = q) ∨ ((¬ ∃ x y z, b = x ++ '/' :: (y ++ '/' :: z)) ∧ f = b)

/-! ## Lemmas -/

theorem space_iff (c : Char) : isSpace c = true ↔ c ∈ [' ', '\t', '\n', '\r', '\x0c', '\x0b'] := by
  simp [isSpace, or_assoc]

theorem strip_iff (p t r : Text) : strip p t = some r ↔ t = p ++ r := by
  unfold strip
  constructor
  · intro h
    split at h
    · rename_i hp
      cases h
      exact (List.prefix_iff_eq_append.mp (List.isPrefixOf_iff_prefix.mp hp)).symm
    · cases h
  · rintro rfl
    simp

theorem drop_blank (a b : Text) (ha : ∀ c ∈ a, isSpace c = true) (hb : ∀ c r, b = c :: r → isSpace c = false) : (a ++ b).dropWhile isSpace = b := by
  induction a with
  | nil =>
    cases b with
    | nil => rfl
    | cons c r => simp [hb c r rfl]
  | cons c a ih =>
    rw [List.cons_append, List.dropWhile_cons, if_pos (ha c (by simp))]
    exact ih fun x hx => ha x (by simp [hx])

theorem take_blank (t : Text) : ∀ c ∈ t.takeWhile isSpace, isSpace c = true := by
  induction t with
  | nil => simp
  | cons c t ih =>
    rw [List.takeWhile_cons]
    split
    · rename_i h
      intro x hx
      simp only [List.mem_cons] at hx
      rcases hx with rfl | hx
      · exact h
      · exact ih x hx
    · simp

/-- One line. -/
theorem optLine_iff (key l v : Text) (hk : ∃ c r, key = c :: r ∧ isSpace c = false) : optLine key l = some v ↔ Sets key l v := by
  obtain ⟨kc, kr, hkey, hks⟩ := hk
  unfold optLine Sets
  constructor
  · intro h
    split at h
    · rename_i r hr
      split at h
      · rename_i hq
        cases h
        rw [strip_iff] at hr
        refine ⟨l.takeWhile isSpace, fun c hc => (space_iff c).mp (take_blank l c hc), ?_, hq.2⟩
        have hne : r ≠ [] := by
          intro e
          rw [e] at hq
          exact absurd hq.1 (by simp)
        have hlast : r.dropLast ++ ['"'] = r := by
          have h1 := hq.1
          rw [List.getLast?_eq_some_getLast hne, Option.some.injEq] at h1
          rw [← h1, List.dropLast_concat_getLast hne]
        rw [hlast, ← hr, List.takeWhile_append_dropWhile]
      · cases h
    · cases h
  · rintro ⟨pad, hp, rfl, hv⟩
    have hd : (pad ++ (key ++ [' ', '"'] ++ (v ++ ['"']))).dropWhile isSpace = key ++ [' ', '"'] ++ (v ++ ['"']) := by
      refine drop_blank _ _ (fun c hc => (space_iff c).mpr (hp c hc)) ?_
      intro c r hc
      rw [hkey] at hc
      simp only [List.cons_append, List.cons.injEq] at hc
      rw [← hc.1]
      exact hks
    rw [hd, (strip_iff _ _ _).mpr rfl]
    simp [hv]

theorem readOptions_eq (ls : List Text) (o : Opts) :
    readOptions ls o = ⟨((ls.reverse.findSome? (optLine kBranch)).or o.branch), ((ls.reverse.findSome? (optLine kDatabase)).or o.database)⟩ := by
  induction ls generalizing o with
  | nil => rfl
  | cons l ls ih =>
    rw [readOptions, ih]
    simp only [List.reverse_cons, List.findSome?_append, Opts.mk.injEq]
    constructor
    · cases h1 : ls.reverse.findSome? (optLine kBranch) <;> cases h2 : optLine kBranch l <;> simp [h2]
    · cases h1 : ls.reverse.findSome? (optLine kDatabase) <;> cases h2 : optLine kDatabase l <;> simp [h2]

theorem find_last {f : Text → Option Text} (ls : List Text) (v : Text) :
    ls.reverse.findSome? f = some v ↔ ∃ a l b, ls = a ++ l :: b ∧ f l = some v ∧ ∀ m ∈ b, f m = none := by
  rw [List.findSome?_eq_some_iff]
  constructor
  · rintro ⟨a, l, b, h1, h2, h3⟩
    refine ⟨b.reverse, l, a.reverse, ?_, h2, fun m hm => h3 m (by simpa using hm)⟩
    have := congrArg List.reverse h1
    simpa using this
  · rintro ⟨a, l, b, rfl, h2, h3⟩
    exact ⟨b.reverse, l, a.reverse, by simp, h2, fun m hm => h3 m (by simpa using hm)⟩

theorem inForce_iff (key : Text) (hk : ∃ c r, key = c :: r ∧ isSpace c = false) (ls : List Text) (v : Text) :
    ls.reverse.findSome? (optLine key) = some v ↔ InForce key ls v := by
  rw [find_last]
  unfold InForce
  constructor
  · rintro ⟨a, l, b, h1, h2, h3⟩
    refine ⟨a, l, b, h1, (optLine_iff key l v hk).mp h2, fun m hm w hw => ?_⟩
    have := h3 m hm
    rw [(optLine_iff key m w hk).mpr hw] at this
    cases this
  · rintro ⟨a, l, b, h1, h2, h3⟩
    refine ⟨a, l, b, h1, (optLine_iff key l v hk).mpr h2, fun m hm => ?_⟩
    cases hf : optLine key m with
    | none => rfl
    | some w => exact absurd ((optLine_iff key m w hk).mp hf) (h3 m hm w)

theorem mem_take_ne (t : Text) : '/' ∉ t.takeWhile (· ≠ '/') := by
  induction t with
  | nil => simp
  | cons c t ih =>
    rw [List.takeWhile_cons]
    split
    · rename_i h
      simp only [List.mem_cons, not_or]
      exact ⟨fun e => by simp [← e] at h, ih⟩
    · simp

theorem drop_head_ne (t : Text) (c : Char) (r : Text) (h : t.dropWhile (· ≠ '/') = c :: r) : c = '/' := by
  induction t with
  | nil => cases h
  | cons d t ih =>
    rw [List.dropWhile_cons] at h
    split at h
    · exact ih h
    · rename_i hd
      cases h
      simpa using hd

/-- Where the last slash is. -/
theorem lastSlash_iff (t : Text) : (∀ p, (lastSlash t).1 = some p → t = p ++ '/' :: (lastSlash t).2) ∧
    ((lastSlash t).1 = none → t = (lastSlash t).2) ∧ '/' ∉ (lastSlash t).2 := by
  have hsplit := List.takeWhile_append_dropWhile (p := (· ≠ '/')) (l := t.reverse)
  refine ⟨?_, ?_, ?_⟩
  · intro p hp
    unfold lastSlash at hp ⊢
    simp only [] at hp ⊢
    cases hd : t.reverse.dropWhile (· ≠ '/') with
    | nil => rw [hd] at hp; cases hp
    | cons c r =>
      rw [hd] at hp
      cases hp
      have hc := drop_head_ne _ _ _ hd
      rw [hd] at hsplit
      have := congrArg List.reverse hsplit
      rw [List.reverse_reverse, hc] at this
      rw [List.reverse_append, List.reverse_cons, List.append_assoc] at this
      exact this.symm
  · intro hn
    unfold lastSlash at hn ⊢
    simp only [] at hn ⊢
    cases hd : t.reverse.dropWhile (· ≠ '/') with
    | cons c r => rw [hd] at hn; cases hn
    | nil =>
      rw [hd, List.append_nil] at hsplit
      rw [hsplit, List.reverse_reverse]
  · have := mem_take_ne t.reverse
    unfold lastSlash
    simpa using this

/-! ## C253 -/

/-- The branches exchanged are those of the family of the branch. -/
theorem sync_family (b : Text) : Family b (syncBranch b) := by
  obtain ⟨h1, h2, h3⟩ := lastSlash_iff b
  unfold syncBranch
  cases hp : (lastSlash b).1 with
  | none =>
    refine Or.inr ⟨?_, rfl⟩
    rintro ⟨x, y, z, e⟩
    rw [← h2 hp, e] at h3
    exact h3 (by simp)
  | some p =>
    have hb := h1 p hp
    simp only []
    split
    · rename_i hc
      exact Or.inl ⟨p, _, hb, h3, by simpa using hc, rfl⟩
    · rename_i hc
      refine Or.inr ⟨?_, rfl⟩
      rintro ⟨x, y, z, e⟩
      have hpn : '/' ∉ p := by simpa using hc
      have hcount := congrArg (List.count '/') (hb.symm.trans e)
      simp only [List.count_append, List.count_cons_self, List.count_eq_zero_of_not_mem h3, List.count_eq_zero_of_not_mem hpn] at hcount
      omega

/-- There is one family for each branch, and the pattern made of it matches the branch. -/
theorem family_unique (b f g : Text) (hf : Family b f) (hg : Family b g) : f = g ∧ f <+: b := by
  have key : ∀ q r q' r' : Text, q ++ '/' :: r = q' ++ '/' :: r' → '/' ∉ r → '/' ∉ r' → q = q' := by
    intro q r q' r' h h1 h2
    rcases List.append_eq_append_iff.mp h with ⟨a, e1, e2⟩ | ⟨a, e1, e2⟩
    · cases a with
      | nil => simpa using e1.symm
      | cons c a =>
        simp only [List.cons_append, List.cons.injEq] at e2
        exact absurd (show '/' ∈ r by rw [e2.2]; simp) h1
    · cases a with
      | nil => simpa using e1
      | cons c a =>
        simp only [List.cons_append, List.cons.injEq] at e2
        exact absurd (show '/' ∈ r' by rw [e2.2]; simp) h2
  have three : ∀ q r : Text, '/' ∈ q → ∃ x y z, q ++ '/' :: r = x ++ '/' :: (y ++ '/' :: z) := by
    intro q r hq
    obtain ⟨x, y, rfl⟩ := List.append_of_mem hq
    exact ⟨x, y, r, by simp⟩
  rcases hf with ⟨q, r, rfl, hr, hq, rfl⟩ | ⟨hn, rfl⟩
  · rcases hg with ⟨q', r', e, hr', hq', rfl⟩ | ⟨hn', -⟩
    · exact ⟨key _ _ _ _ e hr hr', List.prefix_append _ _⟩
    · exact absurd (three _ _ hq) hn'
  · rcases hg with ⟨q', r', rfl, hr', hq', rfl⟩ | ⟨hn', rfl⟩
    · exact absurd (three _ _ hq') hn
    · exact ⟨rfl, List.prefix_refl _⟩

/-- The commands: the database and the branch in force in the options of the directory, the operation and server asked for; the heads of this branch. It dies
exactly if the operation is unknown or one of the two is missing. -/
theorem mtn_commands (op server : Text) (options : List Text) (cmds : List (List Text)) :
    mtnOp op server options = some cmds ↔
    op ∈ ["pull".toList, "push".toList, "sync".toList] ∧ ∃ b d f, InForce "branch".toList options b ∧ InForce "database".toList options d ∧ Family b f ∧
      cmds = [["mtn".toList, "-d".toList, d, op, serverFor server d, f ++ ['*']], ["mtn".toList, "-d".toList, d, "heads".toList, "-b".toList, b]] := by
  have hb : ∀ v, options.reverse.findSome? (optLine kBranch) = some v ↔ InForce "branch".toList options v :=
    fun v => inForce_iff kBranch ⟨'b', _, rfl, by decide⟩ options v
  have hd : ∀ v, options.reverse.findSome? (optLine kDatabase) = some v ↔ InForce "database".toList options v :=
    fun v => inForce_iff kDatabase ⟨'d', _, rfl, by decide⟩ options v
  have hops : [['p', 'u', 'l', 'l'], ['p', 'u', 's', 'h'], ['s', 'y', 'n', 'c']].contains op = true ↔ op ∈ ["pull".toList, "push".toList, "sync".toList] := by
    rw [List.contains_iff_mem]
    exact Iff.rfl
  unfold mtnOp
  rw [readOptions_eq]
  simp only [Option.or_none]
  constructor
  · intro h
    split at h
    · rename_i ho
      refine ⟨hops.mp ho, ?_⟩
      split at h
      · rename_i b d e
        cases h
        simp only [Opts.mk.injEq] at e
        exact ⟨b, d, syncBranch b, (hb b).mp e.1, (hd d).mp e.2, sync_family b, rfl⟩
      · cases h
    · cases h
  · rintro ⟨ho, b, d, f, h1, h2, h3, rfl⟩
    rw [if_pos (hops.mpr ho), (hb b).mpr h1, (hd d).mpr h2, (family_unique b f _ h3 (sync_family b)).1]
    rfl

/-- A server reached by ssh gets the name of the file of the database, any other stays as it is. -/
theorem server_ssh (server database : Text) :
    (∀ s, server = "ssh:".toList ++ s → ∃ n, '/' ∉ n ∧ (database = n ∨ ∃ p, database = p ++ '/' :: n) ∧ serverFor server database = server ++ n) ∧
    ((¬ ∃ s, server = "ssh:".toList ++ s) → serverFor server database = server) := by
  constructor
  · rintro s rfl
    obtain ⟨h1, h2, h3⟩ := lastSlash_iff database
    refine ⟨(lastSlash database).2, h3, ?_, ?_⟩
    · cases hp : (lastSlash database).1 with
      | none => exact Or.inl (h2 hp)
      | some p => exact Or.inr ⟨p, h1 p hp⟩
    · unfold serverFor
      rw [if_pos (by simp)]
  · intro hn
    unfold serverFor
    rw [if_neg]
    intro he
    exact hn ⟨server.drop 4, by rw [show "ssh:".toList = server.take 4 from he.symm, List.take_append_drop]⟩

/-- False: that only the project of the directory is exchanged: the pattern also matches branches of projects whose names begin alike. -/
theorem family_false : ∃ b c f : Text, Family b f ∧ f <+: c ∧ (∃ r, b = f ++ '/' :: r) ∧ ¬ ∃ r, c = f ++ '/' :: r := by
  refine ⟨['s', '/', 'L', '/', 't'], ['s', '/', 'L', '2', '/', 't'], ['s', '/', 'L'], sync_family ['s', '/', 'L', '/', 't'], by decide, ⟨['t'], rfl⟩, ?_⟩
  rintro ⟨r, h⟩
  cases h

/-- False: that version 0.28 gets the commands meant for it. The comparison is with 0.28 instead of 28; only version 0.0 gets them. -/
theorem version_false : logForm 0 28 = .noGraph ∧ ∀ major minor, logForm major minor = .plain ↔ major = 0 ∧ minor = 0 := by
  refine ⟨by decide, fun major minor => ?_⟩
  unfold logForm
  constructor
  · intro h
    split at h
    · rename_i hc
      exact ⟨hc.1, by omega⟩
    · split at h <;> cases h
  · rintro ⟨rfl, rfl⟩
    rfl

/-- From version 0.45 on dates are asked for unformatted, before that they are not. -/
theorem version_dates (major minor : Nat) : logForm major minor = .noFormat ↔ 0 < major ∨ 45 ≤ minor := by
  unfold logForm
  constructor
  · intro h
    split at h
    · cases h
    · split at h
      · cases h
      · omega
  · intro h
    rw [if_neg (by omega), if_neg (by omega)]

/-! ### The hypotheses are met -/

example : mtnOp ['p', 'u', 'l', 'l'] ['h'] [['b', 'r', 'a', 'n', 'c', 'h', ' ', '"', 's', '/', 'L', '"'], [' ', 'd', 'a', 't', 'a', 'b', 'a', 's', 'e', ' ', '"', '/', 'd', '"']] =
    some [[tMtn, tD, ['/', 'd'], ['p', 'u', 'l', 'l'], ['h'], ['s', '/', 'L', '*']], [tMtn, tD, ['/', 'd'], ['h', 'e', 'a', 'd', 's'], ['-', 'b'], ['s', '/', 'L']]] := by
  decide

example : Sets "branch".toList [' ', 'b', 'r', 'a', 'n', 'c', 'h', ' ', '"', 'x', '"'] ['x'] := ⟨[' '], by decide, rfl, by decide⟩

end Verif.DepVC.MtnOp
