import Verif.Hash.Unique
import Verif.StrId.Spec

/-! # Properties of `StringId` (C25) -/

namespace Verif.StrId

open Verif.Hash

variable {S : Type} [DecidableEq S]

theorem strLaw (hash : S → Nat) (dflt : S) : Lawful (strCfg hash dflt) where
  refl a := by simp [strCfg]
  symm a b h := by simp only [strCfg, decide_eq_true_eq] at *; exact h.symm
  trans a b d h1 h2 := by simp only [strCfg, decide_eq_true_eq] at *; exact h1.trans h2
  hash a b h := by simp only [strCfg, decide_eq_true_eq] at *; rw [h]
  full_zero n := by simp [strCfg]

omit [DecidableEq S] in
theorem idLaw (dflt : S) : Lawful (idCfg dflt) where
  refl a := by simp [idCfg]
  symm a b h := by simp only [idCfg, decide_eq_true_eq] at *; exact h.symm
  trans a b d h1 h2 := by simp only [idCfg, decide_eq_true_eq] at *; exact h1.trans h2
  hash a b h := by simp only [idCfg, decide_eq_true_eq] at *; rw [h]
  full_zero n := by simp [idCfg]

/-- The most strings the tables can take. -/
def cap : Nat := 283301878

theorem strFits (hash : S → Nat) (dflt : S) : Fits (strCfg hash dflt) cap :=
  ⟨by decide, fun k hk => by simp only [strCfg, cap, decide_eq_false_iff_not] at *; omega⟩
omit [DecidableEq S] in
theorem idFits (dflt : S) : Fits (idCfg dflt) cap :=
  ⟨by decide, fun k hk => by simp only [idCfg, cap, decide_eq_false_iff_not] at *; omega⟩

/-- The entries for the strings seen, latest first. -/
def entries : List S → List (HTE S) := fun seen => (seen.zipIdx.map fun p => ⟨p.1, p.2 + 1⟩).reverse

omit [DecidableEq S] in
theorem entries_snoc (seen : List S) (s : S) : entries (seen ++ [s]) = ⟨s, seen.length + 1⟩ :: entries seen := by
  unfold entries
  rw [List.zipIdx_append, List.map_append, List.reverse_append]
  simp

omit [DecidableEq S] in
theorem mem_entries (seen : List S) (e : HTE S) : e ∈ entries seen ↔ 0 < e.id ∧ seen[e.id - 1]? = some e.str := by
  obtain ⟨x, i⟩ := e
  simp only [entries, List.mem_reverse, List.mem_map, Prod.exists, HTE.mk.injEq, List.mem_zipIdx_iff_getElem?]
  constructor
  · rintro ⟨a, b, hb, rfl, rfl⟩
    exact ⟨by omega, by simpa using hb⟩
  · rintro ⟨h0, h1⟩
    exact ⟨x, i - 1, h1, rfl, by omega⟩

theorem getElem?_idxOf' {l : List S} {s : S} (h : s ∈ l) : l[l.idxOf s]? = some s := by
  rw [List.getElem?_eq_getElem (List.idxOf_lt_length_iff.2 h), List.getElem_idxOf]

structure R (hash : S → Nat) (dflt : S) (st : State S) (seen : List S) : Prop where
  nodup : seen.Nodup
  next : st.nextid = seen.length + 1
  strs : ∃ u, UR (strCfg hash dflt) st.idmap (entries seen) u cap
  ids : ∃ u, UR (idCfg dflt) st.revmap (entries seen) u cap

theorem find_str (hash : S → Nat) (dflt : S) {seen : List S} (hn : seen.Nodup) (s : S) (i : Nat) :
    (s ∉ seen → (entries seen).find? ((strCfg hash dflt).eq ⟨s, i⟩) = none) ∧
    (∀ e, (entries seen).find? ((strCfg hash dflt).eq ⟨s, i⟩) = some e → e.str = s ∧ e.id = seen.idxOf s + 1) := by
  constructor
  · intro hs
    rw [List.find?_eq_none]
    intro e he
    have h1 := (mem_entries seen e).1 he
    simp only [strCfg, decide_eq_true_eq]
    intro h2
    exact hs (h2 ▸ List.mem_of_getElem? h1.2)
  · intro e he
    have h1 := (mem_entries seen e).1 (List.mem_of_find?_eq_some he)
    have h2 := List.find?_some he
    simp only [strCfg, decide_eq_true_eq] at h2
    refine ⟨h2.symm, ?_⟩
    obtain ⟨hlt, h4⟩ := List.getElem?_eq_some_iff.1 h1.2
    have h3 : seen.idxOf (seen[e.id - 1]) = e.id - 1 := hn.idxOf_getElem _ hlt
    rw [h4, ← h2] at h3
    omega

omit [DecidableEq S] in
theorem find_id (dflt : S) {seen : List S} (i : Nat) (d : S) :
    (entries seen).find? ((idCfg dflt).eq ⟨d, i⟩) = (if i = 0 then none else seen[i - 1]?).map fun s => ⟨s, i⟩ := by
  cases hf : (entries seen).find? ((idCfg dflt).eq ⟨d, i⟩) with
  | none =>
    rw [List.find?_eq_none] at hf
    split
    · rfl
    · cases hs : seen[i - 1]? with
      | none => rfl
      | some s =>
        have := hf ⟨s, i⟩ ((mem_entries seen _).2 ⟨by simp only; omega, hs⟩)
        simp [idCfg] at this
  | some e =>
    have h1 := (mem_entries seen e).1 (List.mem_of_find?_eq_some hf)
    have h2 := List.find?_some hf
    simp only [idCfg, decide_eq_true_eq] at h2
    subst h2
    rw [if_neg (by omega), h1.2]
    rfl

theorem getId_ok {hash : S → Nat} {dflt : S} {st : State S} {seen : List S} (h : R hash dflt st seen) (hroom : seen.length < cap) (s : S) :
    ∃ st', getId hash dflt st s = .ok (st', (note seen s).idxOf s + 1) ∧ R hash dflt st' (note seen s) := by
  obtain ⟨u1, h1⟩ := h.strs
  obtain ⟨u2, h2⟩ := h.ids
  have hlen : (entries seen).length = seen.length := by simp [entries]
  unfold getId
  rcases ur_lookup (strLaw hash dflt) h1 ⟨s, 0⟩ with ⟨hno, hl⟩ | ⟨e, loc, hyes, hl, hd, _⟩
  · have hs : s ∉ seen := by
      intro hs
      obtain ⟨k, hk⟩ := List.getElem?_of_mem hs
      rw [List.find?_eq_none] at hno
      have := hno ⟨s, k + 1⟩ ((mem_entries seen _).2 ⟨by simp, by simpa using hk⟩)
      simp [strCfg] at this
    have hn1 : (entries seen).find? ((strCfg hash dflt).eq ⟨s, st.nextid⟩) = none := (find_str hash dflt h.nodup s _).1 hs
    have hn2 : (entries seen).find? ((idCfg dflt).eq ⟨s, st.nextid⟩) = none := by
      rw [find_id, h.next, if_neg (by omega), List.getElem?_eq_none (by omega)]; rfl
    obtain ⟨t1, l1, a1, b1, _⟩ := ur_add (strLaw hash dflt) h1 (strFits hash dflt) (by rw [hlen]; exact hroom) _ hn1
    obtain ⟨t2, l2, a2, b2, _⟩ := ur_add (idLaw dflt) h2 (idFits dflt) (by rw [hlen]; exact hroom) _ hn2
    have hnote : note seen s = seen ++ [s] := if_neg hs
    have hidx : (note seen s).idxOf s + 1 = st.nextid := by
      rw [hnote, List.idxOf_append, if_neg hs, h.next]
      simp
    refine ⟨⟨t1, t2, (st.nextid + 1) % 2 ^ 32⟩, ?_, ?_⟩
    · rw [hl, Res.bind_ok]
      simp only [a1, a2, Res.bind_ok, Res.pure_eq, hidx]
    · rw [hnote]
      refine ⟨?_, ?_, ⟨true, ?_⟩, ⟨true, ?_⟩⟩
      · rw [List.nodup_append]
        exact ⟨h.nodup, by simp, fun a ha b hb => by simp at hb; subst hb; intro e; exact hs (e ▸ ha)⟩
      · have := h.next
        unfold cap at hroom
        rw [List.length_append, List.length_singleton]
        show (st.nextid + 1) % 2 ^ 32 = _
        omega
      · rw [entries_snoc, ← h.next]; exact b1
      · rw [entries_snoc, ← h.next]; exact b2
  · have hs : s ∈ seen := by
      refine Classical.byContradiction fun hs => ?_
      rw [(find_str hash dflt h.nodup s 0).1 hs] at hyes
      cases hyes
    have := (find_str hash dflt h.nodup s 0).2 e hyes
    have hnote : note seen s = seen := if_pos hs
    refine ⟨st, ?_, by rw [hnote]; exact h⟩
    rw [hl, Res.bind_ok]
    simp only [hd, Res.bind_ok, Res.pure_eq, hnote, this.2]

theorem getString_ok {hash : S → Nat} {dflt : S} {st : State S} {seen : List S} (h : R hash dflt st seen) (i : Nat) :
    getString dflt st i = match (if i = 0 then none else seen[i - 1]?) with | none => .abort | some s => .ok s := by
  obtain ⟨u2, h2⟩ := h.ids
  unfold getString
  rcases ur_lookup (idLaw dflt) h2 ⟨dflt, i⟩ with ⟨hno, hl⟩ | ⟨e, loc, hyes, hl, hd, _⟩
  · rw [find_id] at hno
    rw [hl, Res.bind_ok]
    rw [Option.map_eq_none_iff.1 hno]
  · rw [find_id] at hyes
    obtain ⟨s, h1, rfl⟩ := Option.map_eq_some_iff.1 hyes
    rw [hl, Res.bind_ok, h1]
    simp only [hd, Res.bind_ok, Res.pure_eq]

theorem run_ok {hash : S → Nat} {dflt : S} : ∀ (ops : List (Op S)) (st : State S) (seen : List S), R hash dflt st seen →
    seen.length + ops.length ≤ cap →
    match answers seen ops with
    | some outs => ∃ st', run hash dflt st ops = .ok (st', outs) ∧ R hash dflt st' (seenAfter seen ops)
    | none => run hash dflt st ops = .abort
  | [], st, seen, h, _ => ⟨st, rfl, h⟩
  | op :: ops, st, seen, h, hlen => by
    simp only [List.length_cons] at hlen
    cases op with
    | getId s =>
      obtain ⟨st', h1, h2⟩ := getId_ok h (by omega) s
      have hnl : (note seen s).length ≤ seen.length + 1 := by unfold note; split <;> simp
      have ih := run_ok ops st' (note seen s) h2 (by omega)
      simp only [answers, run, step, h1, Res.bind_ok, Res.pure_eq, seenAfter]
      cases ha : answers (note seen s) ops with
      | none => rw [ha] at ih; simp only [Option.map_none]; simp only at ih; rw [ih]; rfl
      | some outs =>
        rw [ha] at ih
        obtain ⟨st2, h3, h4⟩ := ih
        simp only [Option.map_some]
        exact ⟨st2, by rw [h3]; rfl, h4⟩
    | getString i =>
      have h1 := getString_ok h i
      have ih := run_ok ops st seen h (by omega)
      cases i with
      | zero => simp only [answers, run, step]; rw [h1]; rfl
      | succ i =>
        simp only [answers, run, step]
        rw [h1]
        rw [if_neg (by omega), Nat.add_sub_cancel]
        cases hs : seen[i]? with
        | none => simp only [Res.bind_abort]
        | some s =>
          simp only [Res.bind_ok, Res.pure_eq, seenAfter]
          cases ha : answers seen ops with
          | none => rw [ha] at ih; simp only [Option.map_none]; simp only at ih; rw [ih]; rfl
          | some outs =>
            rw [ha] at ih
            obtain ⟨st2, h3, h4⟩ := ih
            simp only [Option.map_some]
            exact ⟨st2, by rw [h3]; rfl, h4⟩
    | maxId =>
      have ih := run_ok ops st seen h (by omega)
      simp only [answers, run, step, Res.bind_ok, Res.pure_eq, seenAfter, h.next]
      cases ha : answers seen ops with
      | none => rw [ha] at ih; simp only [Option.map_none]; simp only at ih; rw [ih]; rfl
      | some outs =>
        rw [ha] at ih
        obtain ⟨st2, h3, h4⟩ := ih
        simp only [Option.map_some]
        exact ⟨st2, by rw [h3]; rfl, h4⟩

theorem r_initial (hash : S → Nat) (dflt : S) : R hash dflt initial [] :=
  ⟨List.nodup_nil, rfl, ⟨false, (ur_empty _).mono (Nat.zero_le _)⟩, ⟨false, (ur_empty _).mono (Nat.zero_le _)⟩⟩

/-- **C25.** Whatever the hash of strings, every history of calls answers as a numbering of the strings in order of first
appearance, from one; asking for the string of an id never given stops the program. The histories may hold 283301878 calls. -/
theorem stringId_numbers (hash : S → Nat) (dflt : S) (ops : List (Op S)) (hlen : ops.length ≤ cap) :
    match answers [] ops with
    | some outs => ∃ st, run hash dflt initial ops = .ok (st, outs)
    | none => run hash dflt initial ops = .abort := by
  have := run_ok ops initial [] (r_initial hash dflt) (by simpa using hlen)
  cases ha : answers [] ops with
  | none => rw [ha] at this; exact this
  | some outs =>
    rw [ha] at this
    obtain ⟨st, h1, _⟩ := this
    exact ⟨st, h1⟩

/-- A history, with a hash function under which all strings collide. -/
example : answers [] [.getId "b", .getId "a", .getId "b", .getString 2, .maxId] =
    some [.id 1, .id 2, .id 1, .str "a", .id 3] := by decide +kernel
example : answers [] [.getId "b", .getString 2] = none := by decide +kernel

/-- **C25, stable.** After any history, `getId` gives an id from which `getString` gives the string back, and the same
string gets the same id after any further calls. -/
theorem stringId_round_trip (hash : S → Nat) (dflt : S) (ops more : List (Op S)) (s : S) (hlen : ops.length + more.length + 3 ≤ cap)
    (st : State S) (outs : List (Out S))
    (h : run hash dflt initial (ops ++ .getId s :: (more ++ [.getId s])) = .ok (st, outs)) :
    ∃ (i : Nat) (o1 o2 : List (Out S)), outs = o1 ++ .id i :: (o2 ++ [.id i]) ∧ o1.length = ops.length ∧ o2.length = more.length ∧
      getString dflt st i = .ok s := by
  -- the answers of a concatenation
  have app : ∀ (l l' : List (Op S)) (seen : List S), answers seen (l ++ l') =
      (answers seen l).bind fun a => (answers (seenAfter seen l) l').map (a ++ ·) := by
    intro l
    induction l with
    | nil => intro l' seen; simp [answers, seenAfter]
    | cons op l ih =>
      intro l' seen
      cases op with
      | getId s =>
        simp only [List.cons_append, answers, seenAfter, ih]
        cases answers (note seen s) l <;> simp
        cases answers (seenAfter (note seen s) l) l' <;> simp
      | getString i =>
        cases i with
        | zero => simp [answers]
        | succ i =>
          simp only [List.cons_append, answers, seenAfter, ih]
          cases seen[i]? with
          | none => simp
          | some s =>
            cases answers seen l <;> simp
            cases answers (seenAfter seen l) l' <;> simp
      | maxId =>
        simp only [List.cons_append, answers, seenAfter, ih]
        cases answers seen l <;> simp
        cases answers (seenAfter seen l) l' <;> simp
  have alen : ∀ (l : List (Op S)) (seen : List S) (a : List (Out S)), answers seen l = some a → a.length = l.length := by
    intro l
    induction l with
    | nil => intro seen a h; cases h; rfl
    | cons op l ih =>
      intro seen a h
      cases op with
      | getId s =>
        simp only [answers, Option.map_eq_some_iff] at h
        obtain ⟨b, hb, rfl⟩ := h
        simp [ih _ _ hb]
      | getString i =>
        cases i with
        | zero => cases h
        | succ i =>
          simp only [answers] at h
          split at h
          · cases h
          · obtain ⟨b, hb, rfl⟩ := Option.map_eq_some_iff.1 h
            simp [ih _ _ hb]
      | maxId =>
        simp only [answers, Option.map_eq_some_iff] at h
        obtain ⟨b, hb, rfl⟩ := h
        simp [ih _ _ hb]
  -- seeing more strings keeps the numbers
  have keep : ∀ (l : List (Op S)) (seen : List S), ∃ new, seenAfter seen l = seen ++ new := by
    intro l
    induction l with
    | nil => exact fun seen => ⟨[], by simp [seenAfter]⟩
    | cons op l ih =>
      intro seen
      cases op with
      | getId s =>
        obtain ⟨new, hn⟩ := ih (note seen s)
        simp only [seenAfter, hn]
        unfold note
        split
        · exact ⟨new, rfl⟩
        · exact ⟨[s] ++ new, by simp⟩
      | getString i => exact ih seen
      | maxId => exact ih seen
  have hr := run_ok _ initial [] (r_initial hash dflt) (by
    simp only [List.length_nil, List.length_append, List.length_cons]; omega :
      ([] : List S).length + (ops ++ Op.getId s :: (more ++ [Op.getId s])).length ≤ cap)
  cases ha : answers [] (ops ++ .getId s :: (more ++ [.getId s])) with
  | none => rw [ha] at hr; simp only at hr; rw [hr] at h; cases h
  | some outs' =>
    rw [ha] at hr
    obtain ⟨st', h1, h2⟩ := hr
    rw [h] at h1
    cases h1
    rw [app] at ha
    obtain ⟨o1, ho1, ha⟩ := Option.bind_eq_some_iff.1 ha
    obtain ⟨b, hb, rfl⟩ := Option.map_eq_some_iff.1 ha
    simp only [answers, Option.map_eq_some_iff] at hb
    obtain ⟨b', hb', rfl⟩ := hb
    rw [app] at hb'
    obtain ⟨o2, ho2, hb'⟩ := Option.bind_eq_some_iff.1 hb'
    simp only [answers, Option.map_some, Option.some.injEq] at hb'
    subst hb'
    obtain ⟨seen, hseen⟩ : ∃ seen, seen = note (seenAfter [] ops) s := ⟨_, rfl⟩
    rw [← hseen] at ho2 ⊢
    have hin : s ∈ seen := by rw [hseen]; unfold note; split <;> simp [*]
    obtain ⟨new, hnew⟩ := keep more seen
    have hin2 : s ∈ seenAfter seen more := by rw [hnew]; simp [hin]
    have hnote : note (seenAfter seen more) s = seenAfter seen more := if_pos hin2
    have hidx : (seenAfter seen more).idxOf s = seen.idxOf s := by
      rw [hnew, List.idxOf_append, if_pos hin]
    refine ⟨seen.idxOf s + 1, o1, o2, ?_, alen _ _ _ ho1, alen _ _ _ ho2, ?_⟩
    · rw [hnote, hidx]
    · have hfinal : ∃ new, seenAfter [] (ops ++ .getId s :: (more ++ [.getId s])) = seen ++ new := by
        have sapp : ∀ (l l' : List (Op S)) (seen : List S), seenAfter seen (l ++ l') = seenAfter (seenAfter seen l) l' := by
          intro l
          induction l with
          | nil => intros; rfl
          | cons op l ih => intro l' seen; cases op <;> simp only [List.cons_append, seenAfter, ih]
        rw [sapp]
        simp only [seenAfter]
        rw [← hseen]
        exact keep _ _
      obtain ⟨new2, hnew2⟩ := hfinal
      rw [getString_ok h2, if_neg (by omega), hnew2, Nat.add_sub_cancel,
        List.getElem?_append_left (List.idxOf_lt_length_iff.2 hin), getElem?_idxOf' hin]

/-- **C25, injective.** Two calls with different strings never give the same id. -/
theorem stringId_injective (hash : S → Nat) (dflt : S) (ops : List (Op S)) (s s' : S) (hne : s ≠ s') (hlen : ops.length + 2 ≤ cap)
    (st st' st'' : State S) (outs : List (Out S)) (i i' : Nat) (h : run hash dflt initial ops = .ok (st, outs))
    (h1 : getId hash dflt st s = .ok (st', i)) (h2 : getId hash dflt st' s' = .ok (st'', i')) : i ≠ i' := by
  have hr := run_ok ops initial [] (r_initial hash dflt) (by simp only [List.length_nil]; omega)
  have slen : ∀ (l : List (Op S)) (seen : List S), (seenAfter seen l).length ≤ seen.length + l.length := by
    intro l
    induction l with
    | nil => intro seen; simp [seenAfter]
    | cons op l ih =>
      intro seen
      cases op with
      | getId s =>
        have := ih (note seen s)
        have hnl : (note seen s).length ≤ seen.length + 1 := by unfold note; split <;> simp
        simp only [seenAfter, List.length_cons]; omega
      | getString i => have := ih seen; simp only [seenAfter, List.length_cons]; omega
      | maxId => have := ih seen; simp only [seenAfter, List.length_cons]; omega
  cases ha : answers [] ops with
  | none => rw [ha] at hr; simp only at hr; rw [hr] at h; cases h
  | some o =>
    rw [ha] at hr
    obtain ⟨st0, h3, h4⟩ := hr
    rw [h] at h3
    cases h3
    have hl := slen ops []
    simp only [List.length_nil] at hl
    obtain ⟨sta, a1, a2⟩ := getId_ok h4 (by omega) s
    rw [h1] at a1
    cases a1
    have hnl : (note (seenAfter [] ops) s).length ≤ (seenAfter [] ops).length + 1 := by unfold note; split <;> simp
    obtain ⟨stb, b1, b2⟩ := getId_ok a2 (by omega) s'
    rw [h2] at b1
    cases b1
    intro he
    have g1 := getString_ok b2 ((note (seenAfter [] ops) s).idxOf s + 1)
    have g2 := getString_ok b2 ((note (note (seenAfter [] ops) s) s').idxOf s' + 1)
    obtain ⟨seen, hseen⟩ : ∃ seen, seen = note (seenAfter [] ops) s := ⟨_, rfl⟩
    rw [← hseen] at he g1 g2
    have hin : s ∈ seen := by rw [hseen]; unfold note; split <;> simp [*]
    have hin' : s' ∈ note seen s' := by
      unfold note
      split
      · assumption
      · simp
    have hpre : (note seen s')[seen.idxOf s]? = some s := by
      have : ∃ new, note seen s' = seen ++ new := by unfold note; split; exact ⟨[], by simp⟩; exact ⟨[s'], rfl⟩
      obtain ⟨new, hnew⟩ := this
      rw [hnew, List.getElem?_append_left (List.idxOf_lt_length_iff.2 hin), getElem?_idxOf' hin]
    have hpost : (note seen s')[(note seen s').idxOf s']? = some s' := getElem?_idxOf' hin'
    have : seen.idxOf s = (note seen s').idxOf s' := by omega
    rw [this, hpost] at hpre
    exact hne (Option.some.inj hpre).symm

example : ∃ st st' st'' : State String, run (fun _ => 7) "" initial [.getId "x"] = .ok (st, [.id 1]) ∧
    getId (fun _ => 7) "" st "y" = .ok (st', 2) ∧ getId (fun _ => 7) "" st' "z" = .ok (st'', 3) :=
  ⟨_, _, _, rfl, rfl, rfl⟩

end Verif.StrId
