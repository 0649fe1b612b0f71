import Verif.DBI.Schema

/-!
# Transactions are all or nothing
-/

namespace Verif.DBI

variable {σ : Type}

/-- The program leaves the transaction it runs in to `transaction`: it does not commit or roll back, and its statements do not commit by themselves. -/
def Within : Prog σ → Prop
  | .done => True
  | .die => True
  | .sql s k => s.autoCommits = false ∧ Within k
  | .begin k => Within k
  | .commit _ => False
  | .rollback _ => False
  | .trans _ k => Within k
  | .attempt p k => Within p ∧ Within k

/-- What the program does to the database when nothing but its statements counts: whether it comes to its end, and the database then. Beginning a transaction inside one is an error. -/
def effect : Prog σ → σ → Bool × σ
  | .done, d => (true, d)
  | .die, d => (false, d)
  | .sql s k, d =>
    match s.effect d with
    | none => (false, d)
    | some d' => effect k d'
  | .begin _, d => (false, d)
  | .commit _, d => (false, d)
  | .rollback _, d => (false, d)
  | .trans _ _, d => (false, d)
  | .attempt p k, d => effect k (effect p d).2

theorem exec_within (env : Env) (p : Prog σ) (h : Within p) (c : Conn σ) (u : σ) (hu : c.undo = some u) :
    exec env p c = ((effect p c.db).1, { c with db := (effect p c.db).2 }) := by
  induction p generalizing c with
  | done => rfl
  | die => rfl
  | sql s k ih =>
    obtain ⟨hs, hk⟩ := h
    simp only [exec, doSql, effect, hs, Bool.false_and, Bool.false_eq_true, if_false]
    cases s.effect c.db with
    | none => rfl
    | some d => exact ih hk { c with db := d } hu
  | begin k ih => simp only [exec, beginTxn, hu, effect]; rw [← hu]
  | commit k ih => exact absurd h id
  | rollback k ih => exact absurd h id
  | trans p k ihp ihk => simp only [exec, transaction, beginTxn, hu, effect]; rw [← hu]
  | attempt p k ihp ihk =>
    simp only [exec, effect]
    rw [ihp h.1 c hu]
    exact ihk h.2 { c with db := (effect p c.db).2 } hu

/-- **C154, for functions that leave the transaction to `transaction`, and statements that do not commit by themselves.** `transaction` returns exactly if the server began and committed the transaction and the function came to its end; the database then has all its changes, otherwise none; no transaction is left open. -/
theorem transaction_atomic_partial (env : Env) (p : Prog σ) (h : Within p) (c : Conn σ) (hc : c.undo = none) :
    ∃ c', exec env (.trans p .done) c = (env.ok c.tick && env.ok (c.tick + 1) && (effect p c.db).1, c') ∧ c'.undo = none ∧
      c'.db = if env.ok c.tick && env.ok (c.tick + 1) && (effect p c.db).1 then (effect p c.db).2 else c.db := by
  simp only [exec, transaction, beginTxn, hc]
  cases h1 : env.ok c.tick with
  | false => exact ⟨{ c with undo := none, tick := c.tick + 1 }, by simp, rfl, by simp⟩
  | true =>
    simp only [if_true]
    rw [exec_within env p h { c with undo := some c.db, tick := c.tick + 1 } c.db rfl]
    simp only []
    cases h2 : (effect p c.db).1 with
    | false =>
      refine ⟨{ c with db := c.db, undo := none, tick := c.tick + 1 }, ?_, rfl, ?_⟩
      · simp [rollbackTxn]
      · simp
    | true =>
      simp only [commitTxn]
      cases h3 : env.ok (c.tick + 1) with
      | true => exact ⟨{ c with db := (effect p c.db).2, undo := none, tick := c.tick + 1 + 1 }, by simp, rfl, by simp⟩
      | false =>
        refine ⟨{ c with db := c.db, undo := none, tick := c.tick + 1 + 1 }, ?_, rfl, ?_⟩
        · simp [rollbackTxn]
        · simp

/-- **C154.** A transaction inside one dies before its function is called; the outer one goes on as it was. -/
theorem transaction_nested (env : Env) (p : Prog σ) (c : Conn σ) (u : σ) (hu : c.undo = some u) :
    exec env (.trans p .done) c = (false, c) := by
  simp only [exec, transaction, beginTxn, hu]

/-- A statement that adds a number. -/
def addSql (n : Nat) (auto : Bool := false) : Sql Nat := { effect := fun d => some (d + n), autoCommits := auto }

example : ∃ c', exec ⟨fun _ => true, false⟩ (.trans (.sql (addSql 1) (.attempt (.trans (.sql (addSql 7) .done) .done) (.sql (addSql 2) .done))) .done) { db := 0 } = (true, c') ∧ c'.undo = none ∧ c'.db = 3 :=
  ⟨_, rfl, rfl, rfl⟩

/-- **C154 is false with statements that commit by themselves** (`create table` in MySQL): the function dies and its first change stays. -/
theorem transaction_ddl_false : ∃ c', exec ⟨fun _ => true, false⟩ (.trans (.sql (addSql 1 true) .die) .done) { db := 0 } = (false, c') ∧ c'.db = 1 :=
  ⟨_, rfl, rfl⟩

/-- **C154 is false if the function commits:** what it does afterwards is not undone when it dies. -/
theorem transaction_commit_false : ∃ c', exec ⟨fun _ => true, false⟩ (.trans (.commit (.sql (addSql 1) .die)) .done) { db := 0 } = (false, c') ∧ c'.db = 1 :=
  ⟨_, rfl, rfl⟩

/-- **C154 is false if the function rolls back:** `transaction` returns although nothing of the first change is there. -/
theorem transaction_rollback_false : ∃ c', exec ⟨fun _ => true, false⟩ (.trans (.sql (addSql 1) (.rollback .done)) .done) { db := 0 } = (true, c') ∧ c'.db = 0 :=
  ⟨_, rfl, rfl⟩

end Verif.DBI
