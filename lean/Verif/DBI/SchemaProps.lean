import Verif.DBI.Schema

/-!
# Schema versions
-/

namespace Verif.DBI

variable {α : Type}

/-! ## Specification -/

/-- The statements one after the other. -/
def runAll : List (Sql α) → α → Option α
  | [], a => some a
  | s :: l, a => (s.effect a).bind (runAll l)

/-- Migrations done one after the other, each from a version below the target: from version `v` with the tables `a` to version `w` with the tables `b`. -/
inductive Path (target : Nat) (migs : Nat → Option (Mig α)) : Nat → α → Nat → α → Prop
  | refl (v : Nat) (a : α) : Path target migs v a v a
  | step {v : Nat} {a : α} {m : Mig α} {a' : α} {w : Nat} {b : α} :
      v < target → migs v = some m → runAll m.sql a = some a' → Path target migs m.to a' w b → Path target migs v a w b

/-- The version recorded in the database. -/
def Db.version (d : Db α) (name : Key) : Option Nat := d.config.bind fun t => t name

/-- No statement commits by itself. -/
def Mig.Plain (m : Mig α) : Prop := ∀ s ∈ m.sql, s.autoCommits = false

/-! ## Lemmas -/

theorem runSQL_plain (l : List (Sql α)) (h : ∀ s ∈ l, s.autoCommits = false) (c : Conn (Db α)) :
    ∃ a, (runSQL (l.map lift) c).2 = { c with db := { c.db with app := a } } ∧
      ((runSQL (l.map lift) c).1 = true → runAll l c.db.app = some a) ∧
      ((runSQL (l.map lift) c).1 = false → runAll l c.db.app = none) := by
  induction l generalizing c with
  | nil => exact ⟨c.db.app, rfl, fun _ => rfl, fun h => by cases h⟩
  | cons s l ih =>
    have hs := h s (by simp)
    simp only [List.map_cons, runSQL, doSql, lift, hs, Bool.false_and, Bool.false_eq_true, if_false, runAll]
    cases s.effect c.db.app with
    | none => exact ⟨c.db.app, rfl, (fun h => by cases h), fun _ => rfl⟩
    | some a => exact ih (fun x hx => h x (by simp [hx])) { c with db := { c.db with app := a } }

/-- Reading the configuration changes only the object. -/
theorem getConfig_conn (env : Env) (key : Key) (c : Conn (Db α)) :
    (getConfig env key c).2.db = c.db ∧ (getConfig env key c).2.undo = c.undo ∧ c.tick ≤ (getConfig env key c).2.tick ∧
      ((getConfig env key c).1 = none ∨ (getConfig env key c).1 = c.db.version key) ∧
      (c.getSth ≠ none → (getConfig env key c).2.getSth = c.getSth) ∧
      (c.db.config ≠ none → c.getSth ≠ some false → (getConfig env key c).2.getSth = some true) := by
  unfold getConfig Db.version
  cases hs : c.getSth with
  | none =>
    simp only []
    cases hx : (!(env.checks && c.db.config.isNone)) with
    | true =>
      simp only []
      cases env.ok c.tick <;> simp
    | false =>
      simp only []
      refine ⟨trivial, trivial, Nat.le_refl _, Or.inl trivial, fun h => absurd rfl h, fun h _ => ?_⟩
      exfalso
      cases hcfg : c.db.config with
      | none => exact h hcfg
      | some t => simp [hcfg] at hx
  | some b =>
    simp only [hs]
    cases b with
    | true => cases env.ok c.tick <;> simp [hs]
    | false => simp [hs]

/-- With a server that does everything, and a statement that could be prepared, the recorded version is read. -/
theorem getConfig_ok (env : Env) (hok : ∀ n, env.ok n = true) (key : Key) (c : Conn (Db α)) (hcfg : c.db.config ≠ none) (hs : c.getSth ≠ some false) :
    (getConfig env key c).1 = c.db.version key := by
  unfold getConfig Db.version
  cases h : c.getSth with
  | none =>
    cases hc : c.db.config with
    | none => exact absurd hc hcfg
    | some t => simp [hok, hc]
  | some b =>
    cases b with
    | true => simp [hok, h]
    | false => exact absurd h hs

/-- What recording a version does inside a transaction: nothing but that, and it may die. -/
theorem setConfig_conn (env : Env) (key : Key) (v : Nat) (c : Conn (Db α)) :
    (dbiSetConfig env key v c).2.undo = c.undo ∧
      ((dbiSetConfig env key v c).1 = true → ∃ t, c.db.config = some t ∧ (dbiSetConfig env key v c).2.db = { c.db with config := some fun k => if k = key then some v else t k }) ∧
      (c.db.config ≠ none → c.getSth ≠ some false → (dbiSetConfig env key v c).2.getSth ≠ some false) := by
  unfold dbiSetConfig
  cases env.ok c.tick with
  | false => simp
  | true =>
    simp only [if_true]
    unfold setRow
    cases hc : c.db.config with
    | none => simp
    | some t =>
      simp only []
      have := getConfig_conn env key { c with tick := c.tick + 1, db := { c.db with config := some fun k => if k = key then some v else t k } }
      obtain ⟨h1, h2, _, _, _, h6⟩ := this
      refine ⟨h2, ?_, ?_⟩
      · intro _
        exact ⟨t, rfl, h1⟩
      · intro _ hs
        have := h6 (by simp) hs
        rw [this]; simp

/-- A migration as one transaction: all of it, with its version, or nothing. -/
theorem step_atomic (env : Env) (name : Key) (m : Mig α) (hm : m.Plain) (c : Conn (Db α)) (hu : c.undo = none) (t : Key → Option Nat) (ht : c.db.config = some t) (hg : c.getSth ≠ some false) :
    (transaction env (installStep env name m) c).2.undo = none ∧
    (transaction env (installStep env name m) c).2.getSth ≠ some false ∧
    ((transaction env (installStep env name m) c).1 = false → (transaction env (installStep env name m) c).2.db = c.db) ∧
    ((transaction env (installStep env name m) c).1 = true → ∃ a, runAll m.sql c.db.app = some a ∧
      (transaction env (installStep env name m) c).2.db = ⟨a, some fun k => if k = name then some m.to else t k⟩) := by
  unfold transaction beginTxn
  simp only [hu]
  cases env.ok c.tick with
  | false => simp [hu, hg]
  | true =>
    simp only [if_true, installStep]
    obtain ⟨a, ha, hrun, _⟩ := runSQL_plain m.sql hm { c with undo := some c.db, tick := c.tick + 1 }
    generalize hr : runSQL (m.sql.map lift) { c with undo := some c.db, tick := c.tick + 1 } = r at ha hrun ⊢
    obtain ⟨b, c1⟩ := r
    simp only at ha hrun
    cases b with
    | false => subst ha; simp [rollbackTxn, hg]
    | true =>
      simp only []
      have hs := setConfig_conn env name m.to c1
      generalize hd : dbiSetConfig env name m.to c1 = d at hs ⊢
      obtain ⟨b2, c2⟩ := d
      simp only at hs
      obtain ⟨hs1, hs2, hs3⟩ := hs
      have hundo : c2.undo = some c.db := by rw [hs1, ha]
      have hg2 : c2.getSth ≠ some false := hs3 (by rw [ha]; simp [ht]) (by rw [ha]; exact hg)
      cases b2 with
      | false => simp [rollbackTxn, hundo, hg2]
      | true =>
        obtain ⟨t', ht', hdb⟩ := hs2 rfl
        have hte : t' = t := by
          rw [ha] at ht'
          simp only [ht, Option.some.injEq] at ht'
          exact ht'.symm
        simp only [commitTxn, hundo]
        cases env.ok c2.tick with
        | false => simp [rollbackTxn, hundo, hg2]
        | true =>
          simp only [if_true]
          refine ⟨trivial, hg2, (fun h => by cases h), fun _ => ⟨a, hrun rfl, ?_⟩⟩
          rw [hdb, hte, ha]

/-- A migration that was committed has recorded its version. -/
theorem step_true (env : Env) (name : Key) (m : Mig α) (hm : m.Plain) (c : Conn (Db α)) (hu : c.undo = none)
    (h : (transaction env (installStep env name m) c).1 = true) :
    (transaction env (installStep env name m) c).2.undo = none ∧ (transaction env (installStep env name m) c).2.db.version name = some m.to := by
  unfold transaction beginTxn at h ⊢
  simp only [hu] at h ⊢
  cases hb : env.ok c.tick with
  | false => simp [hb] at h
  | true =>
    simp only [hb, if_true, installStep] at h ⊢
    obtain ⟨a, ha, _, _⟩ := runSQL_plain m.sql hm { c with undo := some c.db, tick := c.tick + 1 }
    generalize hr : runSQL (m.sql.map lift) { c with undo := some c.db, tick := c.tick + 1 } = r at ha h ⊢
    obtain ⟨b, c1⟩ := r
    simp only at ha
    cases b with
    | false => simp at h
    | true =>
      simp only [] at h ⊢
      have hs := setConfig_conn env name m.to c1
      generalize hd : dbiSetConfig env name m.to c1 = d at hs h ⊢
      obtain ⟨b2, c2⟩ := d
      simp only at hs
      obtain ⟨hs1, hs2, _⟩ := hs
      have hundo : c2.undo = some c.db := by rw [hs1, ha]
      cases b2 with
      | false => simp at h
      | true =>
        obtain ⟨t', _, hdb⟩ := hs2 rfl
        simp only [commitTxn, hundo] at h ⊢
        cases ho : env.ok c2.tick with
        | false => simp [ho] at h
        | true => simp [hdb, Db.version]

/-- The loop of `migrateSchema`. -/
theorem migrate_path (env : Env) (name : Key) (target : Nat) (migs : Nat → Option (Mig α)) (hm : ∀ v m, migs v = some m → m.Plain)
    (n : Nat) (v : Option Nat) (c : Conn (Db α)) (hu : c.undo = none) (t : Key → Option Nat) (ht : c.db.config = some t) (hg : c.getSth ≠ some false) (v0 : Nat) (hv0 : t name = some v0) (hv : v = none ∨ v = some v0)
    (r : Option (Option Nat)) (c' : Conn (Db α)) (h : migrateSchema env name target migs n v c = some (r, c')) :
    ∃ w b t', Path target migs v0 c.db.app w b ∧ c'.db = ⟨b, some t'⟩ ∧ t' name = some w ∧ (∀ k, k ≠ name → t' k = t k) ∧ c'.undo = none ∧ (r = none ∨ r = some (some w) ∨ r = some none ∧ target = 0) := by
  induction n generalizing v c t v0 with
  | zero => cases h
  | succ n ih =>
    simp only [migrateSchema] at h
    have stay : c' = c → (r = none ∨ r = some (some v0) ∨ r = some none ∧ target = 0) → ∃ w b t', Path target migs v0 c.db.app w b ∧ c'.db = ⟨b, some t'⟩ ∧ t' name = some w ∧ (∀ k, k ≠ name → t' k = t k) ∧ c'.undo = none ∧ (r = none ∨ r = some (some w) ∨ r = some none ∧ target = 0) := by
      intro e hr
      subst e
      refine ⟨v0, c'.db.app, t, .refl _ _, ?_, hv0, fun _ _ => rfl, hu, hr⟩
      rw [← ht]
    by_cases hlt : v.getD 0 < target
    · simp only [hlt, if_true] at h
      cases hb : v.bind migs with
      | none =>
        simp only [hb, Option.some.injEq, Prod.mk.injEq] at h
        exact stay h.2.symm (Or.inl h.1.symm)
      | some m =>
        simp only [hb] at h
        rcases hv with rfl | rfl
        · simp at hb
        · simp only [Option.bind_some] at hb
          simp only [Option.getD_some] at hlt
          obtain ⟨s1, s2, s3, s4⟩ := step_atomic env name m (hm v0 m hb) c hu t ht hg
          generalize ht' : transaction env (installStep env name m) c = x at h s1 s2 s3 s4
          obtain ⟨b, c1⟩ := x
          simp only at s1 s2 s3 s4
          cases b with
          | false =>
            simp only [Option.some.injEq, Prod.mk.injEq] at h
            obtain ⟨h1, h2⟩ := h
            refine ⟨v0, c.db.app, t, .refl _ _, ?_, hv0, fun _ _ => rfl, ?_, Or.inl h1.symm⟩
            · rw [← h2, s3 rfl, ← ht]
            · rw [← h2]; exact s1
          | true =>
            simp only at h
            obtain ⟨a, ha, hdb⟩ := s4 rfl
            have hg' := getConfig_conn env name c1
            generalize hgc : getConfig env name c1 = y at h hg'
            obtain ⟨v', c2⟩ := y
            simp only at h hg'
            obtain ⟨g1, g2, _, g4, g5, g6⟩ := hg'
            have hcfg : c2.db.config = some fun k => if k = name then some m.to else t k := by rw [g1, hdb]
            have hgs : c2.getSth ≠ some false := by
              have := g6 (by rw [hdb]; simp) s2
              rw [this]; simp
            have hver : c1.db.version name = some m.to := by rw [hdb]; simp [Db.version]
            rw [hver] at g4
            obtain ⟨w, b, t', p1, p2, p3, p4, p5, p6⟩ := ih v' c2 (by rw [g2]; exact s1) _ hcfg hgs m.to (by simp) g4 h
            refine ⟨w, b, t', .step hlt hb ha ?_, p2, p3, ?_, p5, p6⟩
            · rw [g1, hdb] at p1; exact p1
            · intro k hk
              rw [p4 k hk]; simp [hk]
    · simp only [hlt, if_false, Option.some.injEq, Prod.mk.injEq] at h
      refine stay h.2.symm ?_
      rcases hv with rfl | rfl
      · right; right
        exact ⟨h.1.symm, by simp at hlt; omega⟩
      · right; left
        exact h.1.symm

/-! ## The properties -/

/-- **C155, for a database with a recorded version that can be read, and statements that do not commit by themselves.** Whenever `setupSchema` ends, the migrations done are a path from the recorded version; the tables are what this path makes of them and the version where it ends is recorded; nothing else in the configuration has changed. If it returns, this version is the target. -/
theorem setup_migrates_partial (env : Env) (n : Nat) (name : Key) (target : Nat) (init : Option (Mig α)) (migs : Nat → Option (Mig α)) (hm : ∀ v m, migs v = some m → m.Plain)
    (c : Conn (Db α)) (hu : c.undo = none) (t : Key → Option Nat) (ht : c.db.config = some t) (hg : c.getSth ≠ some false) (hread : env.ok c.tick = true) (v : Nat) (hv : t name = some v)
    (r : Bool) (c' : Conn (Db α)) (h : setupSchema env n name target init migs none c = some (r, c')) :
    ∃ w b t', Path target migs v c.db.app w b ∧ c'.db = ⟨b, some t'⟩ ∧ t' name = some w ∧ (∀ k, k ≠ name → t' k = t k) ∧ c'.undo = none ∧ (r = true → w = target) := by
  have hget : (getConfig env name c).1 = some v := by
    unfold getConfig
    cases hs : c.getSth with
    | none => simp [ht, hread, hv]
    | some b =>
      cases b with
      | true => simp [hs, hread, ht, hv]
      | false => exact absurd hs hg
  obtain ⟨g1, g2, _, _, _, g6⟩ := getConfig_conn env name c
  simp only [setupSchema, startVersion] at h
  generalize hgc : getConfig env name c = y at h hget g1 g2 g6
  obtain ⟨v', c1⟩ := y
  simp only at hget g1 g2 g6
  subst hget
  simp only at h
  by_cases hlt : v < target
  · simp only [hlt, if_true] at h
    cases hmg : migrateSchema env name target migs n (some v) c1 with
    | none => rw [hmg] at h; cases h
    | some x =>
      obtain ⟨r', c2⟩ := x
      rw [hmg] at h
      have hgs : c1.getSth ≠ some false := by rw [g6 (by simp [ht]) hg]; simp
      obtain ⟨w, b, t', p1, p2, p3, p4, p5, p6⟩ := migrate_path env name target migs hm n (some v) c1 (by rw [g2]; exact hu) t (by rw [g1]; exact ht) hgs v hv (Or.inr rfl) r' c2 hmg
      rw [g1] at p1
      cases r' with
      | none =>
        simp only [Option.some.injEq, Prod.mk.injEq] at h
        obtain ⟨rfl, rfl⟩ := h
        exact ⟨w, b, t', p1, p2, p3, p4, p5, fun h => by cases h⟩
      | some v'' =>
        simp only [finish, Option.some.injEq, Prod.mk.injEq] at h
        obtain ⟨rfl, rfl⟩ := h
        refine ⟨w, b, t', p1, p2, p3, p4, p5, ?_⟩
        intro hr
        rcases p6 with p6 | p6 | ⟨_, p6⟩
        · cases p6
        · simp only [Option.some.injEq] at p6
          subst p6
          simpa using hr
        · omega
  · simp only [hlt, if_false, finish, Option.some.injEq, Prod.mk.injEq] at h
    obtain ⟨rfl, rfl⟩ := h
    refine ⟨v, c.db.app, t, .refl _ _, ?_, hv, fun _ _ => rfl, by rw [g2]; exact hu, by simp⟩
    rw [g1, ← ht]

/-- **C155.** If every migration leads to a higher version, `setupSchema` ends. -/
theorem setup_ends (env : Env) (name : Key) (target : Nat) (init : Option (Mig α)) (migs : Nat → Option (Mig α)) (hm : ∀ v m, migs v = some m → m.Plain ∧ v < m.to)
    (c : Conn (Db α)) (hu : c.undo = none) (fromV : Option Nat) :
    ∃ n, setupSchema env n name target init migs fromV c ≠ none := by
  have key : ∀ n (v : Option Nat) (c : Conn (Db α)), c.undo = none → 1 ≤ n → target + 1 ≤ n + v.getD target → migrateSchema env name target migs n v c ≠ none := by
    intro n
    induction n with
    | zero => intro v c _ h; omega
    | succ n ih =>
      intro v c hu _ hn
      simp only [migrateSchema]
      by_cases hlt : v.getD 0 < target
      · simp only [hlt, if_true]
        cases hb : v.bind migs with
        | none => simp
        | some m =>
          simp only []
          cases v with
          | none => simp at hb
          | some x =>
            simp only [Option.bind_some] at hb
            simp only [Option.getD_some] at hn hlt
            obtain ⟨hp, hx⟩ := hm x m hb
            have hst := step_true env name m hp c hu
            generalize transaction env (installStep env name m) c = y at hst ⊢
            obtain ⟨b, c1⟩ := y
            cases b with
            | false => simp
            | true =>
              simp only []
              obtain ⟨h1, h2⟩ := hst rfl
              obtain ⟨_, g2, _, g4, _, _⟩ := getConfig_conn env name c1
              generalize getConfig env name c1 = z at g2 g4 ⊢
              obtain ⟨v', c2⟩ := z
              simp only at g2 g4 h1 h2 ⊢
              refine ih v' c2 (by rw [g2]; exact h1) (by omega) ?_
              rcases g4 with rfl | g4
              · simp only [Option.getD_none]; omega
              · rw [g4, h2]; simp only [Option.getD_some]; omega
      · simp [hlt]
  refine ⟨target + 1, ?_⟩
  unfold setupSchema
  have hsu : (startVersion env name fromV c).2.undo = none := by
    unfold startVersion
    split
    · exact hu
    · rw [(getConfig_conn env name c).2.1]; exact hu
  generalize startVersion env name fromV c = y at hsu ⊢
  obtain ⟨v, c1⟩ := y
  cases v with
  | none =>
    simp only []
    cases init with
    | none => simp
    | some m =>
      simp only []
      generalize loadSchema env name m c1 = z
      obtain ⟨b, c2⟩ := z
      cases b <;> simp
  | some v =>
    simp only []
    by_cases hlt : v < target
    · simp only [hlt, if_true]
      have := key (target + 1) (some v) c1 hsu (by omega) (by simp only [Option.getD_some]; omega)
      cases hmg : migrateSchema env name target migs (target + 1) (some v) c1 with
      | none => exact absurd hmg this
      | some x =>
        obtain ⟨r, c2⟩ := x
        cases r <;> simp
    · simp [hlt]

/-- A statement that adds a number to the tables. -/
def add (n : Nat) : Sql Nat := { effect := fun d => some (d + n) }

/-- Migrations from 1 to 2 and from 2 to 3. -/
def migs123 : Nat → Option (Mig Nat)
  | 1 => some ⟨2, [add 10]⟩
  | 2 => some ⟨3, [add 100]⟩
  | _ => none

/-- A database with a recorded version. -/
def dbAt (v : Nat) (a : Nat) : Conn (Db Nat) := { db := ⟨a, some fun k => if k = ['s'] then some v else none⟩ }

example : ∃ c', setupSchema ⟨fun _ => true, false⟩ 5 ['s'] 3 none migs123 none (dbAt 1 0) = some (true, c') ∧ c'.db.app = 110 ∧ c'.db.version ['s'] = some 3 :=
  ⟨_, rfl, rfl, rfl⟩

/-- **C155 is false on a database without the schema: `setupSchema` dies, always** (unless the target is version 0), whatever the argument `init` is and whether it was installed or not. -/
theorem setup_fresh_false (env : Env) (n : Nat) (name : Key) (target : Nat) (ht : target ≠ 0) (init : Option (Mig α)) (migs : Nat → Option (Mig α))
    (c : Conn (Db α)) (hv : c.db.version name = none) :
    ∃ c', setupSchema env n name target init migs none c = some (false, c') := by
  obtain ⟨_, _, _, g4, _, _⟩ := getConfig_conn env name c
  rw [hv, or_self] at g4
  simp only [setupSchema, startVersion]
  generalize getConfig env name c = y at g4 ⊢
  obtain ⟨v, c1⟩ := y
  simp only at g4
  subst g4
  simp only []
  cases init with
  | none => exact ⟨c1, rfl⟩
  | some m =>
    simp only []
    generalize loadSchema env name m c1 = z
    obtain ⟨b, c2⟩ := z
    cases b with
    | false => exact ⟨c2, rfl⟩
    | true => exact ⟨c2, by simp [finish]; omega⟩

/-- **C155.** It has installed the schema before it dies; called again it returns. -/
theorem setup_second : ∃ c' c'', setupSchema ⟨fun _ => true, false⟩ 5 ['s'] 3 (some ⟨3, [add 7]⟩) migs123 none { db := ⟨0, none⟩ } = some (false, c') ∧ c'.db.app = 7 ∧ c'.db.version ['s'] = some 3 ∧
    setupSchema ⟨fun _ => true, false⟩ 5 ['s'] 3 (some ⟨3, [add 7]⟩) migs123 none c' = some (true, c'') ∧ c''.db.app = 7 :=
  ⟨_, _, rfl, rfl, rfl, rfl, rfl⟩

/-- **C155 is false if the version cannot be read:** a failed `select` counts as "no version", and `init` is done to the existing tables. -/
theorem setup_unread_false : ∃ c', setupSchema ⟨fun n => decide (n ≠ 0), false⟩ 5 ['s'] 3 (some ⟨3, [add 7]⟩) migs123 none (dbAt 3 110) = some (false, c') ∧ c'.db.app = 117 :=
  ⟨_, rfl, rfl⟩

theorem getConfig_stuck (env : Env) (key : Key) (c : Conn (Db α)) (h : c.getSth = some false) : getConfig env key c = (none, c) := by
  unfold getConfig
  simp [h]

theorem setConfig_stuck (env : Env) (key : Key) (v : Nat) (c : Conn (Db α)) (h : c.getSth = some false) :
    (dbiSetConfig env key v c).1 = false ∧ (dbiSetConfig env key v c).2.getSth = some false ∧ (dbiSetConfig env key v c).2.undo = c.undo := by
  unfold dbiSetConfig
  cases env.ok c.tick with
  | false => simp [h]
  | true =>
    simp only [if_true]
    cases setRow key v c.db with
    | none => simp [h]
    | some d =>
      simp only []
      rw [getConfig_stuck env key { c with tick := c.tick + 1, db := d } h]
      simp [h]

/-- **C155 is false with a server that looks at statements when they are prepared:** on a database without the configuration table `setupSchema` dies and installs nothing, and so do all further calls with this object (what is assumed of the object holds again). -/
theorem setup_prepared_false (ok : Nat → Bool) (n : Nat) (name : Key) (target : Nat) (init : Option (Mig α)) (hi : ∀ m, init = some m → m.Plain) (migs : Nat → Option (Mig α))
    (c : Conn (Db α)) (hc : c.getSth = none ∧ c.db.config = none ∨ c.getSth = some false) (hu : c.undo = none) :
    ∃ c', setupSchema ⟨ok, true⟩ n name target init migs none c = some (false, c') ∧ c'.db.app = c.db.app ∧ c'.getSth = some false ∧ c'.undo = none := by
  have hget : getConfig ⟨ok, true⟩ name c = (none, { c with getSth := some false }) := by
    rcases hc with ⟨h1, h2⟩ | h
    · unfold getConfig; simp [h1, h2]
    · rw [getConfig_stuck _ _ _ h, ← h]
  simp only [setupSchema, startVersion, hget]
  cases init with
  | none => exact ⟨_, rfl, rfl, rfl, hu⟩
  | some m =>
    simp only [loadSchema, transaction, beginTxn, loadDbiConfigSchema, hu]
    cases ok c.tick with
    | false => exact ⟨_, rfl, rfl, rfl, rfl⟩
    | true =>
      simp only [if_true, installStep]
      generalize hd : ({ app := c.db.app, config := some (c.db.config.getD fun _ => none) } : Db α) = d
      obtain ⟨a, ha, _, _⟩ := runSQL_plain m.sql (hi m rfl) { db := d, undo := some d, tick := c.tick + 1, getSth := some false }
      generalize runSQL (m.sql.map lift) { db := d, undo := some d, tick := c.tick + 1, getSth := some false } = r at ha ⊢
      obtain ⟨b, c1⟩ := r
      simp only at ha
      cases b with
      | false =>
        subst ha
        exact ⟨_, rfl, by simp [rollbackTxn, ← hd], rfl, rfl⟩
      | true =>
        simp only []
        obtain ⟨s1, s2, s3⟩ := setConfig_stuck ⟨ok, true⟩ name m.to c1 (by rw [ha])
        generalize dbiSetConfig ⟨ok, true⟩ name m.to c1 = x at s1 s2 s3 ⊢
        obtain ⟨b2, c2⟩ := x
        simp only at s1 s2 s3
        subst s1
        have hundo : c2.undo = some d := by rw [s3, ha]
        exact ⟨_, rfl, by simp [rollbackTxn, hundo, ← hd], by simp [rollbackTxn, hundo, s2], by simp [rollbackTxn, hundo]⟩

/-- **C155 is false with the argument `from_version` on a database that has no configuration table** (what it is meant for, lines 634-635): nothing is migrated. -/
theorem setup_from_false (env : Env) (n : Nat) (name : Key) (target v : Nat) (hv : 0 < v) (hlt : v < target) (init : Option (Mig α)) (migs : Nat → Option (Mig α)) (hm : ∀ v m, migs v = some m → m.Plain)
    (c : Conn (Db α)) (hu : c.undo = none) (hc : c.db.config = none) :
    ∃ c', setupSchema env (n + 1) name target init migs (some v) c = some (false, c') ∧ c'.db = c.db := by
  obtain ⟨v, rfl⟩ : ∃ w, v = w + 1 := ⟨v - 1, by omega⟩
  simp only [setupSchema, startVersion, hlt, if_true, migrateSchema, Option.getD_some, Option.bind_some]
  cases hb : migs (v + 1) with
  | none => exact ⟨c, rfl, rfl⟩
  | some m =>
    simp only [transaction, beginTxn, hu]
    cases env.ok c.tick with
    | false => exact ⟨_, rfl, rfl⟩
    | true =>
      simp only [if_true, installStep]
      obtain ⟨a, ha, _, _⟩ := runSQL_plain m.sql (hm _ m hb) { c with undo := some c.db, tick := c.tick + 1 }
      generalize runSQL (m.sql.map lift) { c with undo := some c.db, tick := c.tick + 1 } = r at ha ⊢
      obtain ⟨b, c1⟩ := r
      simp only at ha
      subst ha
      cases b with
      | false => exact ⟨_, rfl, rfl⟩
      | true =>
        simp only [dbiSetConfig, setRow, hc]
        cases env.ok (c.tick + 1) with
        | false => exact ⟨_, rfl, rfl⟩
        | true => exact ⟨_, rfl, rfl⟩

/-- **C155 is false with `from_version` equal to the target:** `setupSchema` returns and no version is recorded. -/
theorem setup_from_target_false (env : Env) (n : Nat) (name : Key) (target : Nat) (h : 0 < target) (init : Option (Mig α)) (migs : Nat → Option (Mig α)) (c : Conn (Db α)) :
    setupSchema env n name target init migs (some target) c = some (true, c) := by
  obtain ⟨v, rfl⟩ : ∃ w, target = w + 1 := ⟨target - 1, by omega⟩
  simp [setupSchema, startVersion, finish]

/-- **C155 is false for a migration that does not lead higher:** `setupSchema` never ends, doing it again and again. -/
theorem setup_loop_false (n : Nat) : setupSchema ⟨fun _ => true, false⟩ n ['s'] 3 none (fun _ => some ⟨1, [add 10]⟩) none (dbAt 1 0) = none := by
  have key : ∀ n (c : Conn (Db Nat)), c.undo = none → c.getSth = some true → (∃ t, c.db.config = some t) → migrateSchema ⟨fun _ => true, false⟩ ['s'] 3 (fun _ => some ⟨1, [add 10]⟩) n (some 1) c = none := by
    intro n
    induction n with
    | zero => intro c _ _ _; rfl
    | succ n ih =>
      intro c hu hg ⟨t, ht⟩
      obtain ⟨⟨a, cfg⟩, u, k, g⟩ := c
      simp only at hu hg ht
      subst hu hg ht
      exact ih ⟨⟨a + 10, some fun x => if x = ['s'] then some 1 else t x⟩, none, k + 1 + 1 + 1 + 1 + 1, some true⟩ rfl rfl ⟨_, rfl⟩
  cases n with
  | zero => rfl
  | succ n =>
    have : getConfig ⟨fun _ => true, false⟩ ['s'] (dbAt 1 0) = (some 1, { dbAt 1 0 with getSth := some true, tick := 1 }) := rfl
    simp only [setupSchema, startVersion, this]
    rw [key (n + 1) _ rfl rfl ⟨_, rfl⟩]
    rfl

/-- A statement that commits by itself, and one the server refuses. -/
def create (n : Nat) : Sql Nat := { effect := fun d => some (d + n), autoCommits := true }
def refused : Sql Nat := { effect := fun _ => none }

/-- **C155 is false with statements that commit by themselves:** half a migration stays, without its version. -/
theorem setup_ddl_false : ∃ c', setupSchema ⟨fun _ => true, false⟩ 5 ['s'] 2 none (fun v => if v = 1 then some ⟨2, [create 10, refused]⟩ else none) none (dbAt 1 0) = some (false, c') ∧ c'.db.app = 10 ∧ c'.db.version ['s'] = some 1 :=
  ⟨_, rfl, rfl, rfl⟩

/-! ## The configuration table -/

/-- **C156.** When `setConfig` returns, the value is in the table, and nothing else has changed; this is what `getConfig` returns then, if the server does the request. -/
theorem set_get (env : Env) (key : Key) (v : Nat) (c : Conn (Db α)) (h : (setConfig env key v c).1 = true) :
    (∃ t, c.db.config = some t ∧ (setConfig env key v c).2.db = { c.db with config := some fun k => if k = key then some v else t k }) ∧
      ∀ k, env.ok (setConfig env key v c).2.tick = true → (getConfig env k (setConfig env key v c).2).1 = if k = key then some v else c.db.version k := by
  have hc := setConfig_conn env key v c
  unfold setConfig at h ⊢
  obtain ⟨_, h2, _⟩ := hc
  obtain ⟨t, ht, hdb⟩ := h2 h
  refine ⟨⟨t, ht, hdb⟩, ?_⟩
  intro k hk
  have hg : (dbiSetConfig env key v c).2.getSth = some true := by
    unfold dbiSetConfig at h ⊢
    cases ho : env.ok c.tick with
    | false => simp [ho] at h
    | true =>
      simp only [ho, if_true, setRow, ht] at h ⊢
      generalize hx : getConfig env key { c with tick := c.tick + 1, db := { c.db with config := some fun k => if k = key then some v else t k } } = x at h ⊢
      obtain ⟨r, c'⟩ := x
      simp only [decide_eq_true_eq] at h
      subst h
      unfold getConfig at hx
      cases hs : c.getSth with
      | none =>
        simp only [hs, Option.isNone_some, Bool.and_false, Bool.not_false] at hx
        split at hx
        · rw [← (Prod.mk.inj hx).2]
        · cases hx
      | some b =>
        cases b with
        | true =>
          simp only [hs] at hx
          split at hx
          · rw [← (Prod.mk.inj hx).2]
          · cases hx
        | false =>
          simp only [hs] at hx
          cases hx
  unfold getConfig
  simp only [hg, hk, if_true, hdb, Option.bind_some, Db.version, ht]

/-- The key begins with the reserved prefix. -/
def reserved : Key := ['l', 'i', 'n', 't', 'e', 'l', '-', 'd', 'b', 'i', '-']

/-- **C156 is false for reserved names:** `setConfig` only warns (lines 481-482 say it dies), and the recorded version is changed. -/
theorem set_reserved_false : ∃ c', setConfig ⟨fun _ => true, false⟩ (reserved ++ ['x']) 9 { db := ⟨0, some fun k => if k = reserved ++ ['x'] then some 3 else none⟩ : Conn (Db Nat) } = (true, c') ∧ c'.db.version (reserved ++ ['x']) = some 9 :=
  ⟨_, rfl, rfl⟩

/-- **C156 is false if the server fails:** `getConfig` returns "no value" for a key that has one. -/
theorem get_failed_false : (getConfig ⟨fun _ => false, false⟩ ['s'] (dbAt 3 0)).1 = none ∧ (dbAt 3 0).db.version ['s'] = some 3 :=
  ⟨rfl, rfl⟩

example : (setConfig ⟨fun _ => true, false⟩ ['k'] 4 (dbAt 3 0)).1 = true := rfl

end Verif.DBI
