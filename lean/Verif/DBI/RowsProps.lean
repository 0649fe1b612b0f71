import Verif.DBI.Rows

/-!
# Statements and their rows: properties
-/

namespace Verif.DBI.Rows

/-- Rows are not empty. -/
def Proper (rows : List Row) : Prop := ∀ r ∈ rows, r ≠ []

/-- **C157.** `oneRowArray` returns a row exactly if it is the only one, and dies otherwise. -/
theorem oneRow_spec (rows : List Row) (h : Proper rows) :
    (∀ r, (oneRowArray rows).1 = .gave r ↔ rows = [r]) ∧ ((oneRowArray rows).1 = .died ↔ rows.length ≠ 1) := by
  rcases rows with _ | ⟨a, _ | ⟨b, l⟩⟩
  · simp [oneRowArray, fetch]
  · have ha : a ≠ [] := h a (by simp)
    simp [oneRowArray, fetch, ha]
  · have ha : a ≠ [] := h a (by simp)
    have hb : b ≠ [] := h b (by simp)
    simp [oneRowArray, fetch, ha, hb]

/-- **C157.** `atMostOneRowArray` returns nothing if there is no row, the row if there is one, and dies otherwise. -/
theorem atMostOneRow_spec (rows : List Row) (h : Proper rows) :
    (∀ r, (atMostOneRowArray rows).1 = .gave r ↔ rows = [] ∧ r = [] ∨ rows = [r]) ∧ ((atMostOneRowArray rows).1 = .died ↔ 2 ≤ rows.length) := by
  rcases rows with _ | ⟨a, _ | ⟨b, l⟩⟩
  · simp [atMostOneRowArray, fetch, eq_comm]
  · have ha : a ≠ [] := h a (by simp)
    simp [atMostOneRowArray, fetch, ha]
  · have ha : a ≠ [] := h a (by simp)
    have hb : b ≠ [] := h b (by simp)
    simp [atMostOneRowArray, fetch, ha, hb]

/-- **C157.** `value` returns the only value of the only row, or `undef` if there is no row; with more rows or more values it dies. -/
theorem value_spec (rows : List Row) (h : Proper rows) :
    (∀ v, value true rows = .gave [v] ↔ rows = [[v]] ∨ rows = [] ∧ v = none) ∧
      (value true rows = .died ↔ 2 ≤ rows.length ∨ ∃ r, rows = [r] ∧ 2 ≤ r.length) ∧ value false rows = .died := by
  refine ⟨?_, ?_, rfl⟩
  · intro v
    rcases rows with _ | ⟨a, _ | ⟨b, l⟩⟩
    · simp [value, atMostOneRowArray, fetch, eq_comm]
    · have ha : a ≠ [] := h a (by simp)
      rcases a with _ | ⟨x, _ | ⟨y, a⟩⟩
      · exact absurd rfl ha
      · simp [value, atMostOneRowArray, fetch]
      · simp [value, atMostOneRowArray, fetch]
    · have ha : a ≠ [] := h a (by simp)
      have hb : b ≠ [] := h b (by simp)
      simp [value, atMostOneRowArray, fetch, ha, hb]
  · rcases rows with _ | ⟨a, _ | ⟨b, l⟩⟩
    · simp [value, atMostOneRowArray, fetch]
    · have ha : a ≠ [] := h a (by simp)
      rcases a with _ | ⟨x, _ | ⟨y, a⟩⟩
      · exact absurd rfl ha
      · simp [value, atMostOneRowArray, fetch]
      · simp [value, atMostOneRowArray, fetch]
    · have ha : a ≠ [] := h a (by simp)
      have hb : b ≠ [] := h b (by simp)
      simp [value, atMostOneRowArray, fetch, ha, hb]

/-- **C157.** `requiredValue` returns the only value of the only row, and dies otherwise. -/
theorem requiredValue_spec (rows : List Row) (h : Proper rows) :
    (∀ v, requiredValue true rows = .gave [v] ↔ rows = [[v]]) ∧
      (requiredValue true rows = .died ↔ ∀ v, rows ≠ [[v]]) ∧ requiredValue false rows = .died := by
  refine ⟨?_, ?_, rfl⟩
  · intro v
    rcases rows with _ | ⟨a, _ | ⟨b, l⟩⟩
    · simp [requiredValue, oneRowArray, fetch]
    · have ha : a ≠ [] := h a (by simp)
      rcases a with _ | ⟨x, _ | ⟨y, a⟩⟩
      · exact absurd rfl ha
      · simp [requiredValue, oneRowArray, fetch]
      · simp [requiredValue, oneRowArray, fetch]
    · have ha : a ≠ [] := h a (by simp)
      have hb : b ≠ [] := h b (by simp)
      simp [requiredValue, oneRowArray, fetch, ha, hb]
  · rcases rows with _ | ⟨a, _ | ⟨b, l⟩⟩
    · simp [requiredValue, oneRowArray, fetch]
    · have ha : a ≠ [] := h a (by simp)
      rcases a with _ | ⟨x, _ | ⟨y, a⟩⟩
      · exact absurd rfl ha
      · simp [requiredValue, oneRowArray, fetch]
      · simp [requiredValue, oneRowArray, fetch]
    · have ha : a ≠ [] := h a (by simp)
      have hb : b ≠ [] := h b (by simp)
      simp [requiredValue, oneRowArray, fetch, ha, hb]

example : value true [[some 3]] = .gave [some 3] ∧ requiredValue true [] = .died ∧ value true [] = .gave [none] := ⟨rfl, rfl, rfl⟩

/-- **C157 is false for NULL:** what `value` returns does not tell a row with NULL from no row. -/
theorem value_null_false : value true [[none]] = value true [] := rfl

/-! ## Histories -/

inductive Move where
  | load (n : Name)
  | call (n : Name) (rows : List Row)
  /-- `fetchArray` on the result of an earlier call. -/
  | fetch (e : Exec)
deriving Repr

inductive Ev where
  | loaded (n : Name) (stmt : Nat)
  | refused (n : Name)
  | called (n : Name) (e : Exec) (rows : List Row)
  /-- The call did not run a query. -/
  | missed (n : Name)
  | fetched (e : Exec) (r : Row)
deriving DecidableEq, Repr

/-- One step; the log has the newest event first. -/
def step (s : St × List Ev) : Move → St × List Ev
  | .load n =>
    match load s.1 n with
    | none => (s.1, .refused n :: s.2)
    | some s' => (s', .loaded n s.1.prepared :: s.2)
  | .call n rows =>
    match call s.1 n rows with
    | .method => (s.1, .missed n :: s.2)
    | .died => (s.1, .missed n :: s.2)
    | .ran e s' => (s', .called n e rows :: s.2)
  | .fetch e => ((fetchArray s.1 e).2, .fetched e (fetchArray s.1 e).1 :: s.2)

def run (ms : List Move) : St × List Ev := ms.foldl step ({}, [])

/-- The query that was loaded last under the name. -/
def lastLoaded (log : List Ev) (n : Name) : Option Nat :=
  match log with
  | [] => none
  | .loaded m i :: log => if m = n then some i else lastLoaded log n
  | _ :: log => lastLoaded log n

/-- A name that `load_sths` takes and that has no other meaning. -/
def Free (n : Name) : Prop := n ∉ methods ∧ n ≠ lastName

theorem slot_run (ms : List Move) (n : Name) (hn : Free n) : (run ms).1.slot n = lastLoaded (run ms).2 n := by
  suffices ∀ s : St × List Ev, s.1.slot n = lastLoaded s.2 n → (ms.foldl step s).1.slot n = lastLoaded (ms.foldl step s).2 n by
    exact this ({}, []) rfl
  induction ms with
  | nil => intro s h; exact h
  | cons m ms ih =>
    intro s h
    refine ih _ ?_
    cases m with
    | load k =>
      simp only [step, load]
      by_cases hk : k ∈ invalidNames
      · simp only [hk, if_true, lastLoaded]; exact h
      · simp only [hk, if_false, lastLoaded, eq_comm (a := k)]
        by_cases e : n = k
        · simp [e]
        · simp only [e, if_false]; exact h
    | call k rows =>
      simp only [step, call]
      by_cases hk : k ∈ methods
      · simp only [hk, if_true, lastLoaded]; exact h
      · simp only [hk, if_false]
        cases s.1.slot k with
        | none => simp only [lastLoaded]; exact h
        | some i => simp only [lastLoaded, hn.2, if_false]; exact h
    | fetch e => simp only [step, fetchArray, lastLoaded]; exact h

/-- **C158, for names that are not those of functions, and not `__laststh`.** After any history: a call runs the query that was loaded last under the name, and does not run one if there is none. -/
theorem call_runs_partial (ms : List Move) (n : Name) (hn : Free n) (rows : List Row) :
    match lastLoaded (run ms).2 n with
    | some i => ∃ e s, call (run ms).1 n rows = .ran e s ∧ e.sth = i
    | none => call (run ms).1 n rows = .died := by
  rw [← slot_run ms n hn]
  simp only [call, hn.1, if_false]
  cases (run ms).1.slot n with
  | none => rfl
  | some i => exact ⟨_, _, rfl, rfl⟩

/-- A name is taken by `load_sths` exactly if it is not one of its list. -/
theorem load_accepts (s : St) (n : Name) : (load s n).isSome ↔ n ∉ invalidNames := by
  unfold load
  by_cases h : n ∈ invalidNames <;> simp [h]

/-- **C158 is false for other names that `load_sths` takes:** `can`, `isa`, `confess` ...: the query can never be run. -/
theorem call_method_false (ms : List Move) (rows : List Row) :
    "can".toList ∉ invalidNames ∧ "confess".toList ∉ invalidNames ∧ call (run ms).1 "can".toList rows = .method ∧ call (run ms).1 "confess".toList rows = .method := by
  refine ⟨by decide +kernel, by decide +kernel, ?_, ?_⟩
  · have : "can".toList ∈ methods := by decide +kernel
    simp only [call, this, if_true]
  · have : "confess".toList ∈ methods := by decide +kernel
    simp only [call, this, if_true]

/-- **C158 is false for the name `__laststh`:** it is taken, and runs the other query that was run before. -/
theorem call_last_false :
    ∃ e s, call (run [.load lastName, .load ['q'], .call ['q'] []]).1 lastName [] = .ran e s ∧ e.sth = 1 ∧
      lastLoaded (run [.load lastName, .load ['q'], .call ['q'] []]).2 lastName = some 0 := by
  refine ⟨⟨1, 1⟩, _, rfl, rfl, by decide +kernel⟩

/-! ## Rows go to the execution they belong to -/

/-- The rows of the execution with this number. -/
def rowsOf (log : List Ev) (k : Nat) : List Row :=
  match log with
  | [] => []
  | .called _ e rows :: log => if e.num = k then rows else rowsOf log k
  | _ :: log => rowsOf log k

/-- What was fetched from the object, oldest first. -/
def fetchedFrom (log : List Ev) (e : Exec) : List Row :=
  match log with
  | [] => []
  | .fetched e' r :: log => if e' = e then fetchedFrom log e ++ [r] else fetchedFrom log e
  | _ :: log => fetchedFrom log e

/-- The program fetches only from objects it has been given, and the statement of the object has not been run again since. -/
def Fresh (log : List Ev) (e : Exec) : Prop :=
  match log with
  | [] => False
  | .called _ e' _ :: log => e' = e ∨ (e'.sth ≠ e.sth ∧ Fresh log e)
  | _ :: log => Fresh log e

/-- A row, or nothing. -/
def nth (rows : List Row) (i : Nat) : Row := (rows[i]?).getD []

theorem fetch_drop (rows : List Row) (i : Nat) : fetch (rows.drop i) = (nth rows i, rows.drop (i + 1)) := by
  unfold fetch nth
  cases h : rows.drop i with
  | nil =>
    have : rows.length ≤ i := by simpa using h
    simp [List.getElem?_eq_none this]
    omega
  | cons r l =>
    have hlt : i < rows.length := by
      by_cases hh : i < rows.length
      · exact hh
      · rw [List.drop_eq_nil_of_le (by omega)] at h; cases h
    have := List.drop_eq_getElem_cons hlt
    rw [this] at h
    injection h with h1 h2
    simp [List.getElem?_eq_getElem hlt, h1, h2]

/-- Each fetch of the history is from the newest execution of its statement. -/
def Legal (s : St × List Ev) : List Move → Prop
  | [] => True
  | m :: ms => (∀ e, m = .fetch e → Fresh s.2 e) ∧ Legal (step s m) ms

structure Inv (s : St × List Ev) : Prop where
  nums : ∀ e, Fresh s.2 e → e.num < s.1.execs
  numsF : ∀ e, fetchedFrom s.2 e ≠ [] → e.num < s.1.execs
  cur : ∀ e, Fresh s.2 e → s.1.cursor e.sth = (rowsOf s.2 e.num).drop (fetchedFrom s.2 e).length
  got : ∀ e, fetchedFrom s.2 e = (List.range (fetchedFrom s.2 e).length).map (nth (rowsOf s.2 e.num))

theorem fresh_unique {log : List Ev} {e e' : Exec} (h : Fresh log e) (h' : Fresh log e') (hs : e.sth = e'.sth) : e = e' := by
  induction log with
  | nil => exact absurd h id
  | cons v log ih =>
    cases v with
    | called n x rows =>
      simp only [Fresh] at h h'
      rcases h with rfl | ⟨h1, h2⟩ <;> rcases h' with rfl | ⟨h1', h2'⟩
      · rfl
      · exact absurd hs h1'
      · exact absurd hs.symm h1
      · exact ih h2 h2'
    | loaded n i => exact ih h h'
    | refused n => exact ih h h'
    | missed n => exact ih h h'
    | fetched x r => exact ih h h'

theorem inv_step (s : St × List Ev) (h : Inv s) (m : Move) (hl : ∀ e, m = .fetch e → Fresh s.2 e) : Inv (step s m) := by
  cases m with
  | load n =>
    simp only [step, load]
    by_cases hk : n ∈ invalidNames
    · simp only [hk, if_true]
      exact ⟨h.nums, h.numsF, h.cur, h.got⟩
    · simp only [hk, if_false]
      exact ⟨h.nums, h.numsF, h.cur, h.got⟩
  | call n rows =>
    simp only [step, call]
    by_cases hk : n ∈ methods
    · simp only [hk, if_true]
      exact ⟨h.nums, h.numsF, h.cur, h.got⟩
    · simp only [hk, if_false]
      cases s.1.slot n with
      | none => exact ⟨h.nums, h.numsF, h.cur, h.got⟩
      | some i =>
        simp only []
        have hnew : ∀ e : Exec, e.num = s.1.execs → fetchedFrom s.2 e = [] := by
          intro e he
          by_cases hf : fetchedFrom s.2 e = []
          · exact hf
          · have := h.numsF e hf; omega
        constructor
        · intro e he
          show e.num < s.1.execs + 1
          simp only [Fresh] at he
          rcases he with rfl | ⟨_, he⟩
          · exact Nat.lt_succ_self _
          · have := h.nums e he; omega
        · intro e he
          show e.num < s.1.execs + 1
          have := h.numsF e he; omega
        · intro e he
          simp only [Fresh] at he
          simp only [rowsOf, fetchedFrom]
          rcases he with rfl | ⟨hne, he⟩
          · simp only [if_true]
            rw [hnew _ rfl]; rfl
          · have h1 : e.sth ≠ i := fun hh => hne hh.symm
            have h2 : s.1.execs ≠ e.num := by have := h.nums e he; omega
            simp only [h1, h2, if_false]
            exact h.cur e he
        · intro e
          simp only [rowsOf, fetchedFrom]
          by_cases he : s.1.execs = e.num
          · rw [hnew e he.symm]; rfl
          · simp only [he, if_false]; exact h.got e
  | fetch e =>
    have he := hl e rfl
    simp only [step, fetchArray]
    have hcur := h.cur e he
    rw [hcur, fetch_drop]
    constructor
    · intro e' h'; exact h.nums e' h'
    · intro e' h'
      by_cases ee : e = e'
      · subst ee; exact h.nums e he
      · simp only [fetchedFrom, ee, if_false] at h'
        exact h.numsF e' h'
    · intro e' h'
      have h'' : Fresh s.2 e' := h'
      simp only [rowsOf, fetchedFrom]
      by_cases ee : e = e'
      · subst ee; simp
      · have : e'.sth ≠ e.sth := fun hh => ee (fresh_unique he h'' hh.symm)
        simp only [this, ee, if_false]
        exact h.cur e' h''
    · intro e'
      simp only [rowsOf, fetchedFrom]
      by_cases ee : e = e'
      · subst ee
        simp only [if_true, List.length_append, List.length_singleton, List.range_succ, List.map_append, List.map_cons, List.map_nil]
        rw [← h.got e]
      · simp only [ee, if_false]; exact h.got e'

/-- **C158, if rows are fetched only from the newest execution of their statement.** After any such history: what was fetched from the result of a call are the rows of this execution in their order, and nothing after the last. -/
theorem rows_belong_partial (ms : List Move) (h : Legal ({}, []) ms) (e : Exec) :
    fetchedFrom (run ms).2 e = (List.range (fetchedFrom (run ms).2 e).length).map (nth (rowsOf (run ms).2 e.num)) := by
  suffices ∀ s, Inv s → Legal s ms → Inv (ms.foldl step s) by
    exact (this ({}, []) ⟨fun _ h => absurd h id, fun _ h => absurd rfl h, fun _ h => absurd h id, fun _ => rfl⟩ h).got e
  clear h
  induction ms with
  | nil => intro s h _; exact h
  | cons m ms ih => intro s h hl; exact ih _ (inv_step s h m hl.1) hl.2

/-- Two queries, the rows of both in turn, then the first again. -/
def twoQueries : List Move :=
  [.load ['p'], .load ['q'], .call ['p'] [[some 1], [some 2]], .call ['q'] [[some 8]], .fetch ⟨0, 0⟩, .fetch ⟨1, 1⟩, .fetch ⟨0, 0⟩, .fetch ⟨0, 0⟩]

example : Legal ({}, []) twoQueries := by
  have : ∀ (s : St × List Ev) ms, (∀ e, Move.load ms = .fetch e → Fresh s.2 e) := fun _ _ _ h => by cases h
  have hc : ∀ (s : St × List Ev) n r, (∀ e, Move.call n r = .fetch e → Fresh s.2 e) := fun _ _ _ _ h => by cases h
  refine ⟨this _ _, this _ _, hc _ _ _, hc _ _ _, ?_, ?_, ?_, ?_, trivial⟩
  · intro e h; cases h; exact Or.inr ⟨by decide, Or.inl rfl⟩
  · intro e h; cases h; exact Or.inl rfl
  · intro e h; cases h; exact Or.inr ⟨by decide, Or.inl rfl⟩
  · intro e h; cases h; exact Or.inr ⟨by decide, Or.inl rfl⟩

/-- **C158 is false if a query is run again while its rows are being fetched** (in a recursive function, say): the rest of the rows is lost and the rows of the other execution are returned. -/
theorem rows_mixed_false :
    let log := (run [.load ['p'], .call ['p'] [[some 1], [some 2]], .fetch ⟨0, 0⟩, .call ['p'] [[some 5]], .fetch ⟨0, 0⟩]).2
    fetchedFrom log ⟨0, 0⟩ = [[some 1], [some 5]] ∧ rowsOf log 0 = [[some 1], [some 2]] := by
  decide +kernel

end Verif.DBI.Rows
