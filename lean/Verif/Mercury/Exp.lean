import Verif.Mercury.Sql

/-!
# Model and properties of experiments (C187; src/Plot/Mercury.pm, lines 117-126, 180-256)
-/

namespace Verif.Mercury.Exp

/-! ## Model -/

/-- A row of the table `experiments`. Used in the model of `Mercury.pm:214` (`same`). -/
structure Row where
  id : Nat
  name : Text
  author : Text
  created : Text
deriving DecidableEq, Repr

/-- The database: the rows, the next value of `expid` (`auto_increment`), and the tables `exptrials_n`. Used in the model of `Mercury.pm:180-219` (`create`). -/
structure Db where
  rows : List Row
  next : Nat
  tables : List Nat
deriving DecidableEq, Repr

/-- Not a function of the code; stands for the uses of `Mercury.pm:180-219`. -/
def init : Db := ⟨[], 1, []⟩

/-- What is asked for; author and creation time are already filled in (lines 188-191). -/
structure Info where
  name : Text
  author : Text
  created : Text
  inputs : List (Text × Text)
  outputs : List (Text × Text)
deriving DecidableEq, Repr

/-- Used in the model of `Mercury.pm:117-126` (`goodCol`). -/
def kInfra : Text := ['i', 'n', 'f', 'r', 'a', '_']

/-- The checks of `add_col` (lines 117-126). -/
def goodCol (k : Text) : Bool := !kInfra.isPrefixOf k && !k.isEmpty && k.all isWord

/-- The checks before anything is sent to the database (lines 199-210). -/
def good (i : Info) : Bool :=
  i.inputs.all (fun p => !(i.outputs.any fun q => q.1 == p.1) && goodCol p.1) && !i.inputs.isEmpty && i.outputs.all fun p => goodCol p.1

/-- The rows with this name, author and time (line 214). Text is compared for equality. -/
def same (i : Info) (r : Row) : Bool := r.name == i.name && r.author == i.author && r.created == i.created

/-- `create_experiment` (lines 180-219); `ok`: the database accepts the create command. `none`: dies. -/
def create (db : Db) (i : Info) (ok : Bool) : Db × Option Nat :=
  if !good i then (db, none)
  else
    let db1 : Db := { db with rows := db.rows ++ [⟨db.next, i.name, i.author, i.created⟩], next := db.next + 1 }
    match db1.rows.filter (same i) with
    | [r] => if ok then ({ db1 with tables := db1.tables ++ [r.id] }, some r.id) else (db1, none)
    | _ => (db1, none)

/-- What `find_experiment` is given (lines 221-236). -/
structure Query where
  id : Option Nat
  name : Option Text
  author : Option Text
  created : Option Text
deriving DecidableEq, Repr

/-- Used in the model of `Mercury.pm:221-256` (`find`). -/
def Query.matches (q : Query) (r : Row) : Bool :=
  (match q.id with | none => true | some i => r.id == i) && (match q.name with | none => true | some i => r.name == i) &&
  (match q.author with | none => true | some i => r.author == i) && (match q.created with | none => true | some i => r.created == i)

/-- `find_experiment` (lines 221-256): the row whose values are stored; `none`: dies. -/
def find (db : Db) (q : Query) : Option Row :=
  if q.id.isNone && q.name.isNone && q.author.isNone && q.created.isNone then none
  else
    match db.rows.filter q.matches with
    | [r] => some r
    | _ => none

/-- The creations in turn, with what the database says to the create commands: the results. Made of the parts of `Mercury.pm:180-219`. -/
def runAll (db : Db) : List (Info × Bool) → Db × List (Info × Option Nat)
  | [] => (db, [])
  | (i, ok) :: r =>
    let a := create db i ok
    let b := runAll a.1 r
    (b.1, (i, a.2) :: b.2)

/-! ## Specification -/

/-- Nobody else creates an experiment with the same name, author and time. -/
def Distinct (l : List (Info × Bool)) : Prop := l.Pairwise fun a b => ¬ (a.1.name = b.1.name ∧ a.1.author = b.1.author ∧ a.1.created = b.1.created)

/-! ## Proofs -/

structure Inv (db : Db) : Prop where
  lt : ∀ r ∈ db.rows, r.id < db.next
  nodup : (db.rows.map Row.id).Nodup
  tlt : ∀ t ∈ db.tables, t ∈ db.rows.map Row.id
  tnodup : db.tables.Nodup

/-- What a creation does to the database. -/
theorem create_cases (db : Db) (i : Info) (ok : Bool) :
    (good i = false ∧ create db i ok = (db, none)) ∨
    (good i = true ∧ ∃ n, (create db i ok).1 = { db with rows := db.rows ++ [⟨db.next, i.name, i.author, i.created⟩], next := db.next + 1, tables := db.tables ++ n } ∧
      ((create db i ok).2 = none ∧ n = [] ∨ ((create db i ok).2 = some db.next ∧ n = [db.next] ∧ ok = true ∧ ∀ r ∈ db.rows, same i r = false))) := by
  unfold create
  cases hg : good i with
  | false => exact .inl ⟨rfl, rfl⟩
  | true =>
    refine .inr ⟨rfl, ?_⟩
    rw [if_neg (by simp)]
    simp only []
    have hlast : (db.rows ++ [(⟨db.next, i.name, i.author, i.created⟩ : Row)]).filter (same i) = db.rows.filter (same i) ++ [⟨db.next, i.name, i.author, i.created⟩] := by
      rw [List.filter_append, List.filter_cons_of_pos (by simp [same]), List.filter_nil]
    split
    · rename_i r hr
      rw [hlast] at hr
      have hnil : db.rows.filter (same i) = [] := by
        have := congrArg List.length hr
        simp only [List.length_append, List.length_cons, List.length_nil] at this
        exact List.length_eq_zero_iff.mp (by omega)
      rw [hnil, List.nil_append] at hr
      simp only [List.cons.injEq, and_true] at hr
      split
      · rename_i hok
        refine ⟨[db.next], by rw [← hr], .inr ⟨by rw [← hr], rfl, hok, ?_⟩⟩
        intro x hx
        cases hs : same i x with
        | false => rfl
        | true =>
          have : x ∈ db.rows.filter (same i) := List.mem_filter.mpr ⟨hx, hs⟩
          rw [hnil] at this; cases this
      · exact ⟨[], by simp, .inl ⟨rfl, rfl⟩⟩
    · exact ⟨[], by simp, .inl ⟨rfl, rfl⟩⟩

theorem create_inv {db : Db} (h : Inv db) (i : Info) (ok : Bool) : Inv (create db i ok).1 := by
  rcases create_cases db i ok with ⟨_, e⟩ | ⟨_, n, e, hn⟩
  · rw [e]; exact h
  · rw [e]
    have hfresh : db.next ∉ db.rows.map Row.id := by
      intro hm
      obtain ⟨r, hr, he⟩ := List.mem_map.mp hm
      have := h.lt r hr
      omega
    refine ⟨?_, ?_, ?_, ?_⟩
    · intro r hr
      rcases List.mem_append.mp hr with hr | hr
      · have := h.lt r hr; show r.id < db.next + 1; omega
      · simp only [List.mem_singleton] at hr; subst hr; exact Nat.lt_succ_self _
    · show ((db.rows ++ [_]).map Row.id).Nodup
      rw [List.map_append, List.nodup_append]
      refine ⟨h.nodup, by simp, ?_⟩
      intro a ha b hb
      simp only [List.map_cons, List.map_nil, List.mem_singleton] at hb
      subst hb
      intro hab; subst hab; exact hfresh ha
    · intro t ht
      show t ∈ (db.rows ++ [_]).map Row.id
      rw [List.map_append, List.mem_append]
      rcases List.mem_append.mp ht with ht | ht
      · exact .inl (h.tlt t ht)
      · rcases hn with ⟨_, rfl⟩ | ⟨_, rfl, _, _⟩
        · cases ht
        · exact .inr ht
    · show (db.tables ++ n).Nodup
      rcases hn with ⟨_, rfl⟩ | ⟨_, rfl, _, _⟩
      · simpa using h.tnodup
      · rw [List.nodup_append]
        refine ⟨h.tnodup, by simp, ?_⟩
        intro a ha b hb
        simp only [List.mem_singleton] at hb
        subst hb
        intro hab; subst hab; exact hfresh (h.tlt _ ha)

theorem find_id {db : Db} (h : Inv db) {r : Row} (hr : r ∈ db.rows) : find db ⟨some r.id, none, none, none⟩ = some r := by
  unfold find
  rw [if_neg (by simp)]
  have key : ∀ l : List Row, (l.map Row.id).Nodup → r ∈ l → l.filter (Query.matches ⟨some r.id, none, none, none⟩) = [r] := by
    intro l
    induction l with
    | nil => intro _ h; cases h
    | cons x l ih =>
      intro hnd hm
      rw [List.map_cons, List.nodup_cons] at hnd
      by_cases hx : x.id = r.id
      · have hxr : x = r := by
          rcases List.mem_cons.mp hm with rfl | hm
          · rfl
          · exact absurd (List.mem_map.mpr ⟨r, hm, hx.symm⟩) hnd.1
        subst hxr
        rw [List.filter_cons_of_pos (by simp [Query.matches])]
        congr 1
        rw [List.filter_eq_nil_iff]
        intro y hy hmy
        simp only [Query.matches, Bool.and_true, beq_iff_eq] at hmy
        exact hnd.1 (List.mem_map.mpr ⟨y, hy, hmy⟩)
      · rw [List.filter_cons_of_neg (by simpa [Query.matches] using hx)]
        refine ih hnd.2 ?_
        rcases List.mem_cons.mp hm with rfl | hm
        · exact absurd rfl hx
        · exact hm
  rw [key db.rows h.nodup hr]

theorem runAll_append (db : Db) (a b : List (Info × Bool)) :
    runAll db (a ++ b) = ((runAll (runAll db a).1 b).1, (runAll db a).2 ++ (runAll (runAll db a).1 b).2) := by
  induction a generalizing db with
  | nil => rfl
  | cons x a ih => obtain ⟨i, ok⟩ := x; simp only [List.cons_append, runAll, ih]

theorem runAll_inv {db : Db} (h : Inv db) (l : List (Info × Bool)) : Inv (runAll db l).1 := by
  induction l generalizing db with
  | nil => exact h
  | cons x l ih => obtain ⟨i, ok⟩ := x; exact ih (create_inv h i ok)

/-- Rows and tables are only added. -/
theorem runAll_keeps (db : Db) (l : List (Info × Bool)) : (∃ t, (runAll db l).1.rows = db.rows ++ t ∧ ∀ r ∈ t, ∃ x ∈ l, same x.1 r = true) ∧ ∃ t, (runAll db l).1.tables = db.tables ++ t := by
  induction l generalizing db with
  | nil => exact ⟨⟨[], by simp [runAll], fun _ h => by cases h⟩, ⟨[], by simp [runAll]⟩⟩
  | cons x l ih =>
    obtain ⟨i, ok⟩ := x
    obtain ⟨⟨t1, h1, h1'⟩, ⟨t2, h2⟩⟩ := ih (create db i ok).1
    simp only [runAll]
    rcases create_cases db i ok with ⟨_, e⟩ | ⟨_, n, e, _⟩
    · rw [e] at h1 h2 ⊢
      exact ⟨⟨t1, h1, fun r hr => let ⟨x, hx, hs⟩ := h1' r hr; ⟨x, List.mem_cons_of_mem _ hx, hs⟩⟩, ⟨t2, h2⟩⟩
    · rw [e] at h1 h2
      rw [e]
      refine ⟨⟨[⟨db.next, i.name, i.author, i.created⟩] ++ t1, by rw [h1, List.append_assoc], ?_⟩, ⟨n ++ t2, by rw [h2, List.append_assoc]⟩⟩
      intro r hr
      rcases List.mem_append.mp hr with hr | hr
      · simp only [List.mem_singleton] at hr
        subst hr
        exact ⟨(i, ok), List.mem_cons_self .., by simp [same]⟩
      · obtain ⟨x, hx, hs⟩ := h1' r hr
        exact ⟨x, List.mem_cons_of_mem _ hx, hs⟩

theorem runAll_mem {db : Db} {l : List (Info × Bool)} {i : Info} {n : Nat} (h : (i, some n) ∈ (runAll db l).2) :
    ∃ a ok b, l = a ++ (i, ok) :: b ∧ (create (runAll db a).1 i ok).2 = some n := by
  induction l generalizing db with
  | nil => cases h
  | cons x l ih =>
    obtain ⟨j, ok⟩ := x
    simp only [runAll, List.mem_cons, Prod.mk.injEq] at h
    rcases h with ⟨rfl, h⟩ | h
    · exact ⟨[], ok, l, rfl, h.symm⟩
    · obtain ⟨a, ok', b, rfl, hc⟩ := ih h
      exact ⟨(j, ok) :: a, ok', b, rfl, hc⟩

/-- C187: after any creations by anybody, an experiment that was created has its row and its table, later creations leave both, it is found under its number, and the numbers of different creations differ. What fails in
the checks of names and columns leaves the database as it was. -/
theorem create_partial (l : List (Info × Bool)) :
    (∀ i n, (i, some n) ∈ (runAll init l).2 →
      good i = true ∧ n ∈ (runAll init l).1.tables ∧ find (runAll init l).1 ⟨some n, none, none, none⟩ = some ⟨n, i.name, i.author, i.created⟩) ∧
    ((runAll init l).2.filterMap Prod.snd).Nodup ∧ (runAll init l).1.tables = (runAll init l).2.filterMap Prod.snd ∧
    (∀ db i ok, good i = false → create db i ok = (db, none)) := by
  have hinit : Inv init := ⟨fun _ h => (by cases h), List.nodup_nil, fun _ h => (by cases h), List.nodup_nil⟩
  have htab : ∀ db : Db, (runAll db l).1.tables = db.tables ++ (runAll db l).2.filterMap Prod.snd := by
    intro db
    induction l generalizing db with
    | nil => simp [runAll]
    | cons x l ih =>
      obtain ⟨i, ok⟩ := x
      simp only [runAll]
      rw [ih]
      rcases create_cases db i ok with ⟨_, e⟩ | ⟨_, n, e, hn⟩
      · simp [e]
      · rcases hn with ⟨e2, rfl⟩ | ⟨e2, rfl, _⟩
        · simp [e, e2]
        · simp [e, e2]
  have ht : (runAll init l).1.tables = (runAll init l).2.filterMap Prod.snd := by rw [htab init]; rfl
  refine ⟨?_, ?_, ht, ?_⟩
  · intro i n hm
    refine ⟨?_, ?_, ?_⟩
    · obtain ⟨a, ok, b, rfl, hc⟩ := runAll_mem hm
      rcases create_cases (runAll init a).1 i ok with ⟨_, e⟩ | ⟨hg, _⟩
      · rw [e] at hc; cases hc
      · exact hg
    · rw [ht, List.mem_filterMap]; exact ⟨_, hm, rfl⟩
    · obtain ⟨a, ok, b, rfl, hc⟩ := runAll_mem hm
      have hrow : (⟨n, i.name, i.author, i.created⟩ : Row) ∈ (runAll init (a ++ (i, ok) :: b)).1.rows := by
        rw [runAll_append]
        simp only [runAll]
        obtain ⟨⟨t, hk, _⟩, _⟩ := runAll_keeps (create (runAll init a).1 i ok).1 b
        rw [hk, List.mem_append]
        left
        rcases create_cases (runAll init a).1 i ok with ⟨_, e⟩ | ⟨_, n', e, hn⟩
        · rw [e] at hc; cases hc
        · rcases hn with ⟨e2, _⟩ | ⟨e2, _⟩
          · rw [e2] at hc; cases hc
          · rw [e2] at hc
            cases hc
            rw [e]
            show _ ∈ _ ++ [_]
            exact List.mem_append.mpr (.inr (List.mem_cons_self ..))
      exact find_id (runAll_inv hinit _) hrow
  · rw [← ht]; exact (runAll_inv hinit l).tnodup
  · intro db i ok hg
    rcases create_cases db i ok with ⟨_, e⟩ | ⟨hg', _⟩
    · exact e
    · rw [hg] at hg'; cases hg'

/-- C187: if names, authors and times differ, every good creation that the database accepts gives an experiment, and it is found by name, author and time. -/
theorem create_distinct (l : List (Info × Bool)) (hd : Distinct l) (hok : ∀ x ∈ l, good x.1 = true ∧ x.2 = true) :
    (∀ r ∈ (runAll init l).2, r.2.isSome = true) ∧
    ∀ i n, (i, some n) ∈ (runAll init l).2 → find (runAll init l).1 ⟨none, some i.name, some i.author, some i.created⟩ = some ⟨n, i.name, i.author, i.created⟩ := by
  have main : ∀ (l : List (Info × Bool)) (db : Db), Distinct l → (∀ x ∈ l, good x.1 = true ∧ x.2 = true) → (∀ x ∈ l, ∀ r ∈ db.rows, same x.1 r = false) →
      (∀ r ∈ (runAll db l).2, r.2.isSome = true) ∧
      ∀ i n, (i, some n) ∈ (runAll db l).2 → (runAll db l).1.rows.filter (same i) = [⟨n, i.name, i.author, i.created⟩] := by
    intro l
    induction l with
    | nil => intro db _ _ _; exact ⟨fun _ h => (by cases h), fun _ _ h => by cases h⟩
    | cons x l ih =>
      intro db hd hok hno
      obtain ⟨i, ok⟩ := x
      have hd' := List.pairwise_cons.mp hd
      obtain ⟨hg, hok1⟩ := hok (i, ok) (List.mem_cons_self ..)
      have hnone : db.rows.filter (same i) = [] := by
        rw [List.filter_eq_nil_iff]
        intro r hr; rw [hno _ (List.mem_cons_self ..) r hr]; simp
      have hfil : (db.rows ++ [(⟨db.next, i.name, i.author, i.created⟩ : Row)]).filter (same i) = [⟨db.next, i.name, i.author, i.created⟩] := by
        rw [List.filter_append, hnone, List.filter_cons_of_pos (by simp [same])]; rfl
      have hcr : create db i ok = ({ db with rows := db.rows ++ [⟨db.next, i.name, i.author, i.created⟩], next := db.next + 1, tables := db.tables ++ [db.next] }, some db.next) := by
        unfold create
        have hok1 : ok = true := hok1
        have hg : good i = true := hg
        simp only [hg, Bool.not_true, Bool.false_eq_true, if_false, hfil, hok1, if_true]
      simp only [runAll, hcr]
      have hstep := ih { db with rows := db.rows ++ [⟨db.next, i.name, i.author, i.created⟩], next := db.next + 1, tables := db.tables ++ [db.next] } hd'.2
        (fun x hx => hok x (List.mem_cons_of_mem _ hx)) (by
          intro x hx r hr
          rcases List.mem_append.mp hr with hr | hr
          · exact hno x (List.mem_cons_of_mem _ hx) r hr
          · simp only [List.mem_singleton] at hr
            subst hr
            have := hd'.1 x hx
            cases hs : same x.1 ⟨db.next, i.name, i.author, i.created⟩ with
            | false => rfl
            | true =>
              simp only [same, Bool.and_eq_true, beq_iff_eq] at hs
              exact absurd ⟨hs.1.1, hs.1.2, hs.2⟩ this)
      refine ⟨?_, ?_⟩
      · intro r hr
        rcases List.mem_cons.mp hr with rfl | hr
        · rfl
        · exact hstep.1 r hr
      · intro j n hm
        rcases List.mem_cons.mp hm with he | hm
        · simp only [Prod.mk.injEq, Option.some.injEq] at he
          obtain ⟨rfl, rfl⟩ := he
          obtain ⟨⟨t, ht, ht'⟩, _⟩ := runAll_keeps { db with rows := db.rows ++ [⟨db.next, j.name, j.author, j.created⟩], next := db.next + 1, tables := db.tables ++ [db.next] } l
          rw [ht, List.filter_append, hfil]
          have : t.filter (same j) = [] := by
            rw [List.filter_eq_nil_iff]
            intro r hr hs
            obtain ⟨x, hx, hxs⟩ := ht' r hr
            simp only [same, Bool.and_eq_true, beq_iff_eq] at hs hxs
            exact hd'.1 x hx ⟨hs.1.1.symm.trans hxs.1.1, hs.1.2.symm.trans hxs.1.2, hs.2.symm.trans hxs.2⟩
          rw [this]; rfl
        · exact hstep.2 j n hm
  obtain ⟨m1, m2⟩ := main l init hd hok (fun _ _ _ h => by cases h)
  refine ⟨m1, fun i n hm => ?_⟩
  unfold find
  rw [if_neg (by simp)]
  have : (runAll init l).1.rows.filter (Query.matches ⟨none, some i.name, some i.author, some i.created⟩) = (runAll init l).1.rows.filter (same i) := by
    apply List.filter_congr
    intro r _
    simp [Query.matches, same]
  rw [this, m2 i n hm]

theorem isWord_iff (c : Char) : isWord c = true ↔ c = '_' ∨ c.isAlphanum = true := by
  simp only [isWord, Char.isAlphanum, Char.isAlpha, Char.isUpper, Char.isLower, Char.isDigit, Bool.or_eq_true, Bool.and_eq_true, decide_eq_true_eq, beq_iff_eq, UInt32.le_iff_toNat_le, ge_iff_le, Char.toNat]
  constructor
  · rintro (((h | h) | h) | h)
    · exact .inr (.inl (.inr h))
    · exact .inr (.inl (.inl h))
    · exact .inr (.inr h)
    · exact .inl h
  · rintro (h | (h | h) | h)
    · exact .inr h
    · exact .inl (.inl (.inr h))
    · exact .inl (.inl (.inl h))
    · exact .inl (.inr h)

/-- C187: what is accepted: at least one input, no name both of an input and an output, and names of letters, digits and underscores that do not begin with `infra_`. -/
theorem good_iff (i : Info) : good i = true ↔
    i.inputs ≠ [] ∧ (∀ p ∈ i.inputs, ∀ q ∈ i.outputs, q.1 ≠ p.1) ∧
    ∀ p, p ∈ i.inputs ∨ p ∈ i.outputs → p.1 ≠ [] ∧ (∀ c ∈ p.1, c = '_' ∨ c.isAlphanum = true) ∧ ∀ t, p.1 ≠ 'i' :: 'n' :: 'f' :: 'r' :: 'a' :: '_' :: t := by
  have hcol : ∀ k : Text, goodCol k = true ↔ k ≠ [] ∧ (∀ c ∈ k, c = '_' ∨ c.isAlphanum = true) ∧ ∀ t, k ≠ 'i' :: 'n' :: 'f' :: 'r' :: 'a' :: '_' :: t := by
    intro k
    unfold goodCol
    have hpre : kInfra.isPrefixOf k = false ↔ ∀ t, k ≠ 'i' :: 'n' :: 'f' :: 'r' :: 'a' :: '_' :: t := by
      rw [← Bool.not_eq_true, List.isPrefixOf_iff_prefix]
      constructor
      · intro h t e; exact h ⟨t, e.symm⟩
      · rintro h ⟨t, e⟩; exact h t e.symm
    rw [Bool.and_eq_true, Bool.and_eq_true, Bool.not_eq_true', hpre, List.all_eq_true]
    have hne : (!k.isEmpty) = true ↔ k ≠ [] := by cases k <;> simp
    have hw : (∀ c ∈ k, isWord c = true) ↔ ∀ c ∈ k, c = '_' ∨ c.isAlphanum = true :=
      ⟨fun h c hc => (isWord_iff c).mp (h c hc), fun h c hc => (isWord_iff c).mpr (h c hc)⟩
    rw [hne, hw]
    constructor
    · rintro ⟨⟨a, b⟩, c⟩; exact ⟨b, c, a⟩
    · rintro ⟨b, c, a⟩; exact ⟨⟨a, b⟩, c⟩
  unfold good
  rw [Bool.and_eq_true, Bool.and_eq_true, List.all_eq_true, List.all_eq_true]
  have hne : (!i.inputs.isEmpty) = true ↔ i.inputs ≠ [] := by cases i.inputs <;> simp
  rw [hne]
  constructor
  · rintro ⟨⟨h1, h2⟩, h3⟩
    refine ⟨h2, ?_, ?_⟩
    · intro p hp q hq e
      have := h1 p hp
      rw [Bool.and_eq_true, Bool.not_eq_true', ← Bool.not_eq_true, List.any_eq_true] at this
      exact this.1 ⟨q, hq, by simpa using e⟩
    · rintro p (hp | hp)
      · have := h1 p hp
        rw [Bool.and_eq_true] at this
        exact (hcol p.1).mp this.2
      · exact (hcol p.1).mp (h3 p hp)
  · rintro ⟨h1, h2, h3⟩
    refine ⟨⟨?_, h1⟩, fun p hp => (hcol p.1).mpr (h3 p (.inr hp))⟩
    intro p hp
    rw [Bool.and_eq_true, Bool.not_eq_true', ← Bool.not_eq_true, List.any_eq_true]
    refine ⟨?_, (hcol p.1).mpr (h3 p (.inl hp))⟩
    rintro ⟨q, hq, e⟩
    exact h2 p hp q hq (by simpa using e)

/-- A row agrees with all that is given. -/
def Query.Agrees (q : Query) (r : Row) : Prop := (∀ x, q.id = some x → r.id = x) ∧ (∀ x, q.name = some x → r.name = x) ∧ (∀ x, q.author = some x → r.author = x) ∧ ∀ x, q.created = some x → r.created = x

/-- C187: `find_experiment` gives a row if and only if something is given and it is the only one that agrees with all of it; if no two rows are the same, which the numbers see to. -/
theorem find_spec (db : Db) (hn : db.rows.Nodup) (q : Query) (r : Row) : find db q = some r ↔
    (q.id ≠ none ∨ q.name ≠ none ∨ q.author ≠ none ∨ q.created ≠ none) ∧ r ∈ db.rows ∧ q.Agrees r ∧ ∀ s ∈ db.rows, q.Agrees s → s = r := by
  have hm : ∀ s, q.matches s = true ↔ q.Agrees s := by
    intro s
    unfold Query.matches Query.Agrees
    obtain ⟨a, b, c, d⟩ := q
    cases a <;> cases b <;> cases c <;> cases d <;> simp [and_assoc]
  have hg : (q.id.isNone && q.name.isNone && q.author.isNone && q.created.isNone) = false ↔ (q.id ≠ none ∨ q.name ≠ none ∨ q.author ≠ none ∨ q.created ≠ none) := by
    obtain ⟨a, b, c, d⟩ := q
    cases a <;> cases b <;> cases c <;> cases d <;> simp
  have hone : db.rows.filter q.matches = [r] ↔ r ∈ db.rows ∧ q.Agrees r ∧ ∀ s ∈ db.rows, q.Agrees s → s = r := by
    constructor
    · intro h
      have hr : r ∈ db.rows.filter q.matches := by rw [h]; exact List.mem_singleton.mpr rfl
      obtain ⟨h1, h2⟩ := List.mem_filter.mp hr
      refine ⟨h1, (hm r).mp h2, fun s hs ha => ?_⟩
      have : s ∈ db.rows.filter q.matches := List.mem_filter.mpr ⟨hs, (hm s).mpr ha⟩
      rw [h] at this
      exact List.mem_singleton.mp this
    · rintro ⟨h1, h2, h3⟩
      have hr : r ∈ db.rows.filter q.matches := List.mem_filter.mpr ⟨h1, (hm r).mpr h2⟩
      have hall : ∀ s ∈ db.rows.filter q.matches, s = r := fun s hs => h3 s (List.mem_filter.mp hs).1 ((hm s).mp (List.mem_filter.mp hs).2)
      have hnd : (db.rows.filter q.matches).Nodup := hn.sublist List.filter_sublist
      generalize db.rows.filter q.matches = l at hr hall hnd
      match l, hr, hall, hnd with
      | [x], hr, _, _ => rw [List.mem_singleton.mp hr]
      | x :: y :: l, _, hall, hnd =>
        have hx := hall x (List.mem_cons_self ..)
        have hy := hall y (List.mem_cons_of_mem _ (List.mem_cons_self ..))
        exact absurd (List.mem_cons_self ..) (by rw [hx, hy] at hnd; exact (List.nodup_cons.mp hnd).1)
  unfold find
  cases hc : (q.id.isNone && q.name.isNone && q.author.isNone && q.created.isNone) with
  | true =>
    rw [if_pos rfl]
    refine ⟨fun h => (by cases h), fun h => ?_⟩
    have := hg.mpr h.1
    rw [hc] at this; cases this
  | false =>
    rw [if_neg (by simp), ← hone]
    constructor
    · intro h
      split at h
      · rename_i x hx
        obtain rfl := Option.some.inj h
        exact ⟨hg.mp hc, hx⟩
      · cases h
    · rintro ⟨_, h⟩
      rw [h]

/-- Two experiments with one name in one second. Made of the parts of `Mercury.pm:188-191`. -/
def demo : Info := ⟨['e'], ['a'], ['t'], [(['x'], ['i', 'n', 't'])], [(['y'], ['i', 'n', 't'])]⟩

/-- C187 is false in general: with the same name, author and time the second creation dies, but its row stays, without a table, and the first experiment is no longer found by its name, author and time. -/
theorem create_twice_false :
    (runAll init [(demo, true), (demo, true)]).2 = [(demo, some 1), (demo, none)] ∧
    (runAll init [(demo, true), (demo, true)]).1.rows.map Row.id = [1, 2] ∧ (runAll init [(demo, true), (demo, true)]).1.tables = [1] ∧
    find (runAll init [(demo, true)]).1 ⟨none, some ['e'], some ['a'], some ['t']⟩ = some ⟨1, ['e'], ['a'], ['t']⟩ ∧
    find (runAll init [(demo, true), (demo, true)]).1 ⟨none, some ['e'], some ['a'], some ['t']⟩ = none := by decide

/-- C187 is false in general: if the table cannot be created, its row stays. -/
theorem create_fail_false : (create init demo false).2 = none ∧ (create init demo false).1.rows ≠ [] := by decide

example : Distinct [(demo, true), ({ demo with created := ['u'] }, true)] := by
  unfold Distinct
  simp [demo]

example : good demo = true ∧ good { demo with outputs := [(['x'], [])] } = false := by decide

end Verif.Mercury.Exp
