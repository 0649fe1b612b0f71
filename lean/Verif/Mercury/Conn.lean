/-!
# Model and properties of connections and of reloading (C188, C189; src/Plot/Mercury.pm, lines 65-115, 263-290)
-/

namespace Verif.Mercury.Conn

/-! ## Model of connections -/

/-- What the query of line 72 ends with. -/
inductive Ping where
  /-- one row -/
  | row
  /-- the table is empty: "did not give a single unique row" -/
  | empty
  /-- "Lost connection to MySQL server during query" -/
  | lost
  /-- "MySQL server has gone away" -/
  | gone
  /-- another error -/
  | error
deriving DecidableEq, Repr

/-- The connection. Not a function of the code; stands for the uses of `Mercury.pm:67-115`. -/
structure State where
  /-- `$dbh`, with the parameters it was made with -/
  dbh : Option Nat
  /-- `@connect_parms` -/
  parms : Option Nat
deriving DecidableEq, Repr

/-- Not a function of the code; stands for the uses of `Mercury.pm:67-115`. -/
def init : State := ⟨none, none⟩

/-- The outcome of a call. Not a function of the code; stands for the uses of `Mercury.pm:67-115`. -/
inductive Out where
  | one | die | waiting
deriving DecidableEq, Repr

/-- `connectToDB` with these parameters (lines 98-115); `ok`: whether the driver connects. -/
def connect (s : State) (p : Nat) (ok : Bool) : State × Out :=
  if s.dbh.isSome then (s, .die)
  else (⟨if ok then some p else none, some p⟩, if ok then .one else .die)

/-- The loop of lines 75-95 after a lost connection: the answers of the driver to the attempts, and the parameters of the attempts. `waiting`: no answer yet. -/
def retry (s : State) : List Bool → State × Out × List Nat
  | [] => (s, .waiting, [])
  | ok :: r =>
    match s.parms with
    | none => (s, .die, [])
    | some p =>
      let c := connect { s with dbh := none } p ok
      match c.2 with
      | .one => (c.1, .one, [p])
      | _ => let t := retry c.1 r; (t.1, t.2.1, p :: t.2.2)

/-- `reconnectToDB` (lines 67-96). -/
def reconnect (s : State) (ping : Ping) (answers : List Bool) : State × Out × List Nat :=
  match s.dbh with
  | none => (s, .die, [])
  | some _ =>
    match ping with
    | .row => (s, .one, [])
    | .lost => retry s answers
    | _ => (s, .die, [])

/-- A use of the connection. Not a function of the code; stands for the uses of `Mercury.pm:67-115`. -/
inductive Call where
  | connect (p : Nat) (ok : Bool)
  | reconnect (ping : Ping) (answers : List Bool)
deriving DecidableEq, Repr

/-- Not a function of the code; stands for the uses of `Mercury.pm:67-115`. -/
def step (s : State) : Call → State × Out × List Nat
  | .connect p ok => let r := connect s p ok; (r.1, r.2, [])
  | .reconnect ping a => reconnect s ping a

/-- Not a function of the code; stands for the uses of `Mercury.pm:67-115`. -/
def run (s : State) : List Call → State
  | [] => s
  | c :: r => run (step s c).1 r

/-! ## Specification and proofs -/

theorem retry_spec {s : State} {p : Nat} (hs : s.parms = some p) (a : List Bool) :
    (retry s a).1.parms = some p ∧
    ((retry s a).2.1 = .one ∧ (retry s a).1.dbh = some p ∧ (∃ k, a = List.replicate k false ++ true :: a.drop (k + 1) ∧ (retry s a).2.2 = List.replicate (k + 1) p) ∨
     (retry s a).2.1 = .waiting ∧ a = List.replicate a.length false ∧ (retry s a).2.2 = List.replicate a.length p ∧ ((retry s a).1.dbh = none ∨ a = [])) := by
  induction a generalizing s with
  | nil => exact ⟨hs, .inr ⟨rfl, rfl, rfl, .inr rfl⟩⟩
  | cons ok a ih =>
    cases ok with
    | true =>
      have e : retry s (true :: a) = (⟨some p, some p⟩, .one, [p]) := by unfold retry; rw [hs]; rfl
      rw [e]
      exact ⟨rfl, .inl ⟨rfl, rfl, 0, rfl, rfl⟩⟩
    | false =>
      have e : retry s (false :: a) = ((retry ⟨none, some p⟩ a).1, (retry ⟨none, some p⟩ a).2.1, p :: (retry ⟨none, some p⟩ a).2.2) := by
        rw [retry]; simp only [hs]; rfl
      rw [e]
      obtain ⟨h1, h2⟩ := ih (s := ⟨none, some p⟩) rfl
      refine ⟨h1, ?_⟩
      rcases h2 with ⟨o1, o2, k, o3, o4⟩ | ⟨o1, o2, o3, o4⟩
      · refine .inl ⟨o1, o2, k + 1, ?_, ?_⟩
        · rw [List.replicate_succ, List.cons_append, List.drop_succ_cons, ← o3]
        · show p :: _ = _
          rw [o4]; rfl
      · refine .inr ⟨o1, ?_, ?_, ?_⟩
        · rw [List.length_cons, List.replicate_succ, ← o2]
        · show p :: _ = _
          rw [o3]; rfl
        · rcases o4 with o4 | rfl
          · exact .inl o4
          · exact .inl rfl

/-- The parameters that are kept are those of the connection. -/
def Inv (s : State) : Prop := ∀ p, s.dbh = some p → s.parms = some p

theorem step_inv {s : State} (h : Inv s) (c : Call) : Inv (step s c).1 := by
  cases c with
  | connect p ok =>
    unfold step connect
    simp only []
    split
    · exact h
    · intro q hq
      cases ok with
      | true => exact hq
      | false => cases hq
  | reconnect ping a =>
    show Inv (reconnect s ping a).1
    unfold reconnect
    split
    · exact h
    · rename_i q hq
      split
      · exact h
      · intro r hr
        obtain ⟨h1, h2⟩ := retry_spec (h q hq) a
        rw [h1]
        rcases h2 with ⟨_, o2, _⟩ | ⟨_, _, _, o4⟩
        · rw [o2] at hr; exact hr
        · rcases o4 with o4 | rfl
          · rw [o4] at hr; cases hr
          · have : s.dbh = some r := hr
            rw [hq] at this; exact this
      · exact h

theorem run_inv {s : State} (h : Inv s) (l : List Call) : Inv (run s l) := by
  induction l generalizing s with
  | nil => exact h
  | cons c l ih => exact ih (step_inv h c)

/-- C188: after any calls, `reconnectToDB` on a connection returns only with a connection of the same parameters; if the connection works it is left alone, and if it was lost there are attempts with the same parameters until
one succeeds, and no more. It does not die. -/
theorem reconnect_partial (l : List Call) (p : Nat) (hc : (run init l).dbh = some p) (ping : Ping) (hp : ping = .row ∨ ping = .lost) (a : List Bool) :
    let r := reconnect (run init l) ping a
    r.2.1 ≠ .die ∧ (r.2.1 = .one → r.1.dbh = some p ∧ r.1.parms = some p) ∧ (ping = .row → r = (run init l, .one, [])) ∧
    (ping = .lost → ∀ k, a = List.replicate k false ++ true :: a.drop (k + 1) → r.2.1 = .one ∧ r.2.2 = List.replicate (k + 1) p) := by
  have hi : Inv (run init l) := run_inv (fun _ h => by cases h) l
  have hparm := hi p hc
  unfold reconnect
  simp only [hc]
  rcases hp with rfl | rfl
  · exact ⟨fun h => (by cases h), fun _ => ⟨hc, hparm⟩, fun _ => rfl, fun h => by cases h⟩
  · simp only []
    obtain ⟨h1, h2⟩ := retry_spec hparm a
    refine ⟨?_, ?_, fun h => (by cases h), ?_⟩
    · rcases h2 with ⟨o, _⟩ | ⟨o, _⟩ <;> rw [o] <;> intro h <;> cases h
    · intro ho
      rcases h2 with ⟨_, o2, _⟩ | ⟨o1, _⟩
      · exact ⟨o2, h1⟩
      · rw [o1] at ho; cases ho
    · intro _ k hk
      rcases h2 with ⟨o1, _, j, o3, o4⟩ | ⟨_, o2, _⟩
      · refine ⟨o1, ?_⟩
        have : j = k := by
          have e1 : a[j]? = some true := by
            rw [o3, List.getElem?_append_right (by simp), List.length_replicate, Nat.sub_self]; rfl
          have e2 : a[k]? = some true := by
            rw [hk, List.getElem?_append_right (by simp), List.length_replicate, Nat.sub_self]; rfl
          rcases Nat.lt_trichotomy j k with h | h | h
          · rw [hk, List.getElem?_append_left (by simpa using h), List.getElem?_replicate, if_pos h] at e1; cases e1
          · exact h
          · rw [o3, List.getElem?_append_left (by simpa using h), List.getElem?_replicate, if_pos h] at e2; cases e2
        rw [o4, this]
      · exfalso
        have e2 : a[k]? = some true := by
          rw [hk, List.getElem?_append_right (by simp), List.length_replicate, Nat.sub_self]; rfl
        rw [o2, List.getElem?_replicate] at e2
        split at e2 <;> cases e2

/-- C188 is false in general: a connection that the server has closed because it was idle ("server has gone away") is not made again. -/
theorem reconnect_gone_false : (reconnect (run init [.connect 5 true]) .gone [true]).2.1 = .die := by decide

/-- C188 is false in general: with no experiments in the table the call dies though the connection works. -/
theorem reconnect_empty_false : (reconnect (run init [.connect 5 true]) .empty [true]).2.1 = .die := by decide

example : (run init [.connect 4 false, .connect 5 true, .connect 6 true]).dbh = some 5 := by decide

example : reconnect (run init [.connect 5 true]) .lost [false, false, true, false] = (⟨some 5, some 5⟩, .one, [5, 5, 5]) := by decide

/-! ## Model of `reload_use` (lines 263-290) -/

/-- A module file: what it contains, its time, and whether it loads. Part of the model of `Mercury.pm:67-115`. -/
structure Mod where
  text : Nat
  time : Nat
  good : Bool
deriving DecidableEq, Repr

/-- The file, what the program has loaded, and `$module_times{$file}`. Part of the model of `Mercury.pm:67-115`. -/
structure RState where
  disk : Mod
  loaded : Option Nat
  seen : Option Nat
deriving DecidableEq, Repr

/-- An edit of the file, or a call of `reload_use`, with an edit that happens after the file was read. Part of the model of `Mercury.pm:67-115`. -/
inductive RMove where
  | edit (m : Mod)
  | use (during : Option Mod)
deriving DecidableEq, Repr

/-- One move; the result of a call says whether it returned. The directory of the module is the same in all calls. `-M` is a difference to the start of the program, so it is compared like the time. Part of the model of `Mercury.pm:67-115`. -/
def rstep (s : RState) : RMove → RState × Option Bool
  | .edit m => ({ s with disk := m }, none)
  | .use d =>
    if s.seen = some s.disk.time then (s, some true)
    else
      let after := d.getD s.disk
      if s.disk.good then ({ disk := after, loaded := some s.disk.text, seen := some after.time }, some true)
      else ({ s with disk := after }, some false)

/-- Part of the model of `Mercury.pm:67-115`. -/
def rrun (s : RState) : List RMove → RState
  | [] => s
  | m :: ms => rrun (rstep s m).1 ms

/-- Part of the model of `Mercury.pm:67-115`. -/
def rinit (m : Mod) : RState := ⟨m, none, none⟩

/-- The versions of the file that were there, in order. Part of the model of `Mercury.pm:67-115`. -/
def versions : List RMove → List Mod
  | [] => []
  | .edit m :: r => m :: versions r
  | .use none :: r => versions r
  | .use (some m) :: r => m :: versions r

/-- No edit while the file is loaded. -/
def Quiet : RMove → Prop
  | .use (some _) => False
  | _ => True

/-- Versions with the same time are the same. -/
def Timed (l : List Mod) : Prop := ∀ a ∈ l, ∀ b ∈ l, a.time = b.time → a.text = b.text

theorem rrun_inv (ms : List RMove) (hq : ∀ m ∈ ms, Quiet m) : ∀ (s : RState) (past : List Mod), s.disk ∈ past →
    (∀ t, s.seen = some t → ∃ v ∈ past, v.time = t ∧ s.loaded = some v.text) →
    (rrun s ms).disk ∈ past ++ versions ms ∧ (∀ t, (rrun s ms).seen = some t → ∃ v ∈ past ++ versions ms, v.time = t ∧ (rrun s ms).loaded = some v.text) := by
  induction ms with
  | nil => intro s past h1 h2; simpa [rrun, versions] using ⟨h1, h2⟩
  | cons m ms ih =>
    intro s past h1 h2
    have ih := ih fun x hx => hq x (List.mem_cons_of_mem _ hx)
    cases m with
    | edit m =>
      have := ih { s with disk := m } (past ++ [m]) (by simp) (fun t ht => let ⟨v, hv, h⟩ := h2 t ht; ⟨v, List.mem_append.mpr (.inl hv), h⟩)
      simpa [rrun, rstep, versions] using this
    | use d =>
      cases d with
      | some x => exact (hq _ (List.mem_cons_self ..)).elim
      | none =>
        show (rrun (rstep s (.use none)).1 ms).disk ∈ past ++ versions ms ∧ _
        refine ih _ past ?_ ?_
        · unfold rstep; simp only []
          split
          · exact h1
          · split <;> exact h1
        · unfold rstep; simp only []
          split
          · exact h2
          · split
            · intro t ht
              cases ht
              exact ⟨s.disk, h1, rfl, rfl⟩
            · exact h2

/-- C189: if no edit happens while a module is loaded and versions with the same time are the same: whenever `reload_use` returns, the version that is loaded is the one in the file; a version that does not load gives an error,
every time until it is changed, and a file that has not changed is not loaded again. -/
theorem reload_partial (m0 : Mod) (ms : List RMove) (hq : ∀ m ∈ ms, Quiet m) (ht : Timed (m0 :: versions ms)) :
    let s := rrun (rinit m0) ms
    ((rstep s (.use none)).2 = some true → (rstep s (.use none)).1.loaded = some s.disk.text ∧ (rstep s (.use none)).1.disk = s.disk) ∧
    (rstep (rstep s (.use none)).1 (.use none)).1 = (rstep s (.use none)).1 ∧
    ((rstep s (.use none)).2 = some false → (rstep s (.use none)).1 = s) := by
  intro s
  obtain ⟨h1, h2⟩ := rrun_inv ms hq (rinit m0) [m0] (by simp [rinit]) (fun t h => by cases h)
  have hs : (rstep s (.use none)) = if s.seen = some s.disk.time then (s, some true)
      else if s.disk.good then (⟨s.disk, some s.disk.text, some s.disk.time⟩, some true) else (s, some false) := by
    unfold rstep; rfl
  by_cases he : s.seen = some s.disk.time
  · rw [hs, if_pos he]
    refine ⟨fun _ => ⟨?_, rfl⟩, ?_, fun h => by cases h⟩
    · obtain ⟨v, hv, hvt, hl⟩ := h2 _ he
      rw [show s.loaded = some v.text from hl, ht v hv s.disk h1 hvt]
    · rw [hs, if_pos he]
  · rw [hs, if_neg he]
    by_cases hg : s.disk.good = true
    · rw [if_pos hg]
      refine ⟨fun _ => ⟨rfl, rfl⟩, ?_, fun h => by cases h⟩
      show (rstep ⟨s.disk, some s.disk.text, some s.disk.time⟩ (.use none)).1 = _
      unfold rstep
      simp
    · rw [if_neg hg]
      refine ⟨fun h => (by cases h), ?_, fun _ => rfl⟩
      show (rstep s (.use none)).1 = s
      rw [hs, if_neg he, if_neg hg]

/-- C189 is false in general: an edit between the loading of the file and the look at its time is never loaded. -/
theorem reload_during_false :
    let s := rrun (rinit ⟨1, 10, true⟩) [.use (some ⟨2, 11, true⟩), .use none]
    s.disk.text = 2 ∧ s.loaded = some 1 ∧ (rstep s (.use none)).1 = s := by decide

/-- C189 is false in general: times are in seconds, so a second edit in the same second is not loaded. -/
theorem reload_second_false :
    let s := rrun (rinit ⟨1, 10, true⟩) [.use none, .edit ⟨2, 10, true⟩, .use none]
    s.disk.text = 2 ∧ s.loaded = some 1 := by decide

example : Timed (⟨1, 10, true⟩ :: versions [.use none, .edit ⟨2, 11, false⟩, .use none, .edit ⟨3, 12, true⟩, .use none]) := by
  unfold Timed; simp [versions]

example : (rrun (rinit ⟨1, 10, true⟩) [.use none, .edit ⟨2, 11, false⟩, .use none, .edit ⟨3, 12, true⟩, .use none]).loaded = some 3 := by decide

end Verif.Mercury.Conn
