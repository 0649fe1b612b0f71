import Verif.Hash.ScanSpec
import Verif.Hash.Multi
import Verif.Hash.Lemmas3

/-! # Lemmas about incremental scans -/

namespace Verif.Hash

variable {α : Type} {c : Cfg α} {t t' : Table α} {bs bs' : List (List (Cell α))} {fl fl' : List (Cell α)}

theorem findNonempty_chain (entry : List (Option Nat)) : ∀ fuel it, it.chain ≤ (findNonempty entry fuel it).chain := by
  intro fuel
  induction fuel with
  | zero => intro it; exact Nat.le_refl _
  | succ n ih =>
    intro it
    unfold findNonempty
    split
    · exact Nat.le_refl _
    · exact Nat.le_refl _
    · have := ih { it with chain := it.chain + 1 }
      simp only at this
      omega

/-- Where there is an entry to be found, it does not matter what the iterator pointed at. -/
theorem findNonempty_any (entry : List (Option Nat)) : ∀ fuel ch o, (findNonempty entry fuel ⟨ch, none⟩).loc ≠ none →
    findNonempty entry fuel ⟨ch, o⟩ = findNonempty entry fuel ⟨ch, none⟩ := by
  intro fuel
  induction fuel with
  | zero => intro ch o h; exact absurd rfl h
  | succ n ih =>
    intro ch o h
    unfold findNonempty at h ⊢
    simp only at h ⊢
    cases he : entry[ch]? with
    | none => rw [he] at h; exact absurd rfl h
    | some x =>
      cases x with
      | none => rw [he] at h; exact ih _ _ h
      | some j => rfl

theorem Rem.chain_le {it : Iter} {before rest : List (Cell α)} (h : Rem bs it before rest) : it.chain ≤ bs.length := by
  rcases h with ⟨_, rfl, _⟩ | ⟨pre, p, post, h1, _⟩
  · exact Nat.le_refl _
  · exact Nat.le_of_lt (lt_of_getElem? h1)

/-- `partialReset` goes back to the start of the current chain, or on to the next one that is not empty. -/
theorem partialReset_ok (h : Inv c t bs fl) (it : Iter) (hle : it.chain ≤ bs.length)
    (hend : it.chain = bs.length → it.loc = none) :
    ∃ it', partialReset t it = .ok it' ∧ Rem bs it' (bs.take it.chain).flatten (bs.drop it.chain).flatten ∧
      it.chain ≤ it'.chain := by
  unfold partialReset
  by_cases hlt : it.chain < t.entry.length
  · obtain ⟨l, o, hl, ho, hc⟩ := h.bucket hlt
    refine ⟨findNonempty t.entry (t.entry.length + 1) ⟨it.chain, none⟩, ?_, ?_, findNonempty_chain _ _ ⟨it.chain, none⟩⟩
    · rw [if_pos hlt, rd_ok ho]
      simp only [Res.bind_ok, Res.pure_eq]
      rw [findNonempty_loc ho]
    · exact findNonempty_ok h _ _ hle (by rw [h.len]; omega)
  · have e : it.chain = t.entry.length := by rw [h.len] at hle; omega
    rw [if_neg hlt]
    refine ⟨it, by simp [e], ?_, Nat.le_refl _⟩
    left
    have e2 : it.chain = bs.length := by rw [h.len]; exact e
    refine ⟨by rw [e2]; simp, ?_, by rw [e2]; simp⟩
    cases it with
    | mk ch lo => simp only at e2 hend; rw [e2, hend e2]

/-- How often a value is in the buckets from `k` on: all or nothing. -/
theorem count_drop [DecidableEq α] (h : Inv c t bs fl) (v : α) (k : Nat) :
    ((bs.drop k).flatten.map (fun x : Cell α => x.2)).count v =
      if k ≤ c.hash v % t.entry.length then (bs.flatten.map (fun x : Cell α => x.2)).count v else 0 := by
  have hno : ∀ (b : Nat) (l : List (Cell α)), bs[b]? = some l → b ≠ c.hash v % t.entry.length →
      (l.map (fun x : Cell α => x.2)).count v = 0 := by
    intro b l hl hb
    rw [List.count_eq_zero]
    intro hm
    obtain ⟨p, hp, rfl⟩ := List.mem_map.1 hm
    exact hb (h.hash b l hl p hp).symm
  have hz : ∀ (L : List (List (Cell α))), (∀ l ∈ L, (l.map (fun x : Cell α => x.2)).count v = 0) →
      (L.flatten.map (fun x : Cell α => x.2)).count v = 0 := by
    intro L hL
    rw [List.count_eq_zero]
    intro hm
    obtain ⟨p, hp, rfl⟩ := List.mem_map.1 hm
    obtain ⟨l, hl, hpl⟩ := List.mem_flatten.1 hp
    have := hL l hl
    rw [List.count_eq_zero] at this
    exact this (List.mem_map_of_mem hpl)
  split
  · rename_i hk
    have e : bs.flatten = (bs.take k).flatten ++ (bs.drop k).flatten := by
      rw [← List.flatten_append, List.take_append_drop]
    rw [e, List.map_append, List.count_append]
    have : ((bs.take k).flatten.map (fun x : Cell α => x.2)).count v = 0 := by
      apply hz
      intro l hl
      obtain ⟨b, hb⟩ := List.getElem?_of_mem hl
      have hlt := lt_of_getElem? hb
      rw [List.length_take] at hlt
      rw [List.getElem?_take_of_lt (by omega)] at hb
      exact hno b l hb (by omega)
    omega
  · rename_i hk
    apply hz
    intro l hl
    obtain ⟨b, hb⟩ := List.getElem?_of_mem hl
    rw [List.getElem?_drop] at hb
    exact hno _ l hb (by omega)

/-- What is known of a table during the scan: its buckets, and how many more calls it can take. -/
structure Good (c : Cfg α) (t : Table α) (bs : List (List (Cell α))) (cap k : Nat) : Prop where
  inv : ∃ fl, Inv c t bs fl
  mr : ∃ s, MR c t s cap ∧ s.items.length + k ≤ cap

theorem MR.size {s : MultiSt α} {n : Nat} (h : MR c t s n) : size t = s.items.length := by
  obtain ⟨bs, fl, hi, hp⟩ := h.repr
  rw [size_ok hi, hp.length_eq, List.length_map]

theorem Good.mono {cap k k' : Nat} (h : Good c t bs cap k) (hk : k' ≤ k) : Good c t bs cap k' := by
  obtain ⟨s, h1, h2⟩ := h.mr
  exact ⟨h.inv, s, h1, by omega⟩

theorem good_step (law : Lawful c) {cap k : Nat} (hf : Fits c cap) (h : Good c t bs cap (k + 1)) (op : TOp α) {o : TOut α}
    (e : tStep c t op = .ok (t', o)) : ∃ bs', Good c t' bs' cap k := by
  obtain ⟨s, h1, h2⟩ := h.mr
  rcases mr_step law h1 hf op with g | ⟨_, g⟩ | ⟨t1, o1, s', g, gs, gr⟩
  · exfalso
    cases op <;> simp [MultiOver] at g <;> omega
  · rw [g] at e; cases e
  · rw [g] at e
    injection e with e
    injection e with e1 e2
    subst e1
    have := multi_growth gs
    obtain ⟨bs', fl', hi, _⟩ := gr.repr
    exact ⟨bs', ⟨fl', hi⟩, s', gr, by omega⟩

theorem good_states (law : Lawful c) {cap : Nat} (hf : Fits c cap) : ∀ (ops : List (TOp α)) (k : Nat) (t t' : Table α) (bs : List (List (Cell α)))
    (us : List (Table α)), Good c t bs cap (ops.length + k) → tStates c t ops = .ok (t', us) →
    (∃ bs', Good c t' bs' cap k) ∧ (t' = t ∨ t' ∈ us) := by
  intro ops
  induction ops with
  | nil =>
    intro k t t' bs us h e
    simp only [tStates] at e
    injection e with e
    injection e with e1 e2
    subst e1
    exact ⟨⟨bs, h.mono (by simp)⟩, .inl rfl⟩
  | cons op ops ih =>
    intro k t t' bs us h e
    simp only [tStates] at e
    rw [Res.bind_eq_ok] at e
    obtain ⟨r, e1, e⟩ := e
    rw [Res.bind_eq_ok] at e
    obtain ⟨q, e2, e⟩ := e
    simp only [Res.pure_eq] at e
    injection e with e
    injection e with e3 e4
    subst e3 e4
    obtain ⟨t1, o1⟩ := r
    obtain ⟨bs1, g1⟩ := good_step law hf (k := ops.length + k) (h.mono (by simp only [List.length_cons]; omega)) op e1
    obtain ⟨g2, g3⟩ := ih k t1 q.1 bs1 q.2 g1 e2
    refine ⟨g2, .inr ?_⟩
    rcases g3 with g3 | g3
    · rw [g3]; simp
    · simp [g3]

theorem good_state (law : Lawful c) {cap : Nat} (hf : Fits c cap) : ∀ (ops : List (TOp α)) (k : Nat) (t t' : Table α) (bs : List (List (Cell α))),
    Good c t bs cap (ops.length + k) → tState c t ops = .ok t' → ∃ bs', Good c t' bs' cap k := by
  intro ops
  induction ops with
  | nil =>
    intro k t t' bs h e
    simp only [tState] at e
    injection e with e
    subst e
    exact ⟨bs, h.mono (by simp)⟩
  | cons op ops ih =>
    intro k t t' bs h e
    simp only [tState] at e
    rw [Res.bind_eq_ok] at e
    obtain ⟨⟨t1, o1⟩, e1, e⟩ := e
    obtain ⟨bs1, g1⟩ := good_step law hf (k := ops.length + k) (h.mono (by simp only [List.length_cons]; omega)) op e1
    exact ih k t1 t' bs1 g1 e

theorem good_empty (c : Cfg α) (cap : Nat) : Good c (empty' : Table α) [] cap cap :=
  ⟨⟨[], empty_inv c⟩, ⟨[], false⟩, mr_empty c cap, by simp⟩

theorem copies_eq [DecidableEq α] (h : Inv c t bs fl) (v : α) :
    copies t v = (bs.flatten.map (fun x : Cell α => x.2)).count v := by
  unfold copies
  rw [walk_ok h]

/-- An iterator at the start of its chain has nothing of that chain behind it. -/
theorem Rem.at_start (h : Inv c t bs fl) {it : Iter} {before rest : List (Cell α)} (hr : Rem bs it before rest)
    (hs : atStartOfChain t it = .ok true) : rest = (bs.drop it.chain).flatten := by
  rcases hr with ⟨rfl, rfl, _⟩ | ⟨pre, p, post, h1, h2, h3, h4⟩
  · simp
  · have hlt := lt_of_getElem? h1
    have hne : it.chain ≠ t.entry.length := by rw [← h.len]; omega
    obtain ⟨o, ho, hc⟩ := h.chain _ _ h1
    rw [atStartOfChain, if_neg hne, rd_ok ho] at hs
    simp only [Res.bind_ok, Res.pure_eq] at hs
    injection hs with hs
    have hs := of_decide_eq_true hs
    have hpre : pre = [] := by
      cases pre with
      | nil => rfl
      | cons q pre =>
        exfalso
        obtain ⟨hc1, _⟩ := hc
        rw [hs, h2] at hc1
        injection hc1 with hc1
        have hnd := nodup_bucket h.nodup_live h1
        have hnd' : ((q :: pre ++ p :: post).map (fun x : Cell α => x.1)).Nodup := by
          have := h.nodup
          have h5 := (List.nodup_append.1 this).1
          exact List.Nodup.sublist ((List.sublist_flatten_of_mem (List.mem_of_getElem? h1)).map _) h5
        simp only [List.cons_append, List.map_cons, List.nodup_cons, List.map_append, List.mem_append, List.mem_cons] at hnd'
        exact hnd'.1 (.inr (.inl hc1.symm))
    subst hpre
    rw [h4, List.drop_eq_getElem_cons hlt, List.flatten_cons]
    have : bs[it.chain] = [] ++ p :: post := by
      rw [List.getElem?_eq_getElem hlt] at h1; injection h1
    rw [this]; rfl

/-- A step of the iterator stays in the chain, and then is not at its start, or goes on to a later one. -/
theorem rem_incr_chain (h : Inv c t bs fl) {it it' : Iter} {before rest : List (Cell α)} {p : Cell α}
    (hr : Rem bs it before (p :: rest)) (e : incr t it = .ok it') :
    it.chain ≤ it'.chain ∧ (atStartOfChain t it' = .ok true → it.chain < it'.chain) := by
  rcases hr with ⟨h1, _⟩ | ⟨pre, q, post, h1, h2, h3, h4⟩
  · cases h1
  · injection h4 with h4 h5
    subst h4
    obtain ⟨o, ho, hc⟩ := h.chain _ _ h1
    obtain ⟨nx, hg, hrest⟩ := hc.split
    have hlt := lt_of_getElem? h1
    cases post with
    | nil =>
      simp only [IsChain] at hrest
      subst hrest
      have e' : incr t it = .ok (findNonempty t.entry (t.entry.length + 1) { chain := it.chain + 1, loc := none }) := by
        simp [incr, h2, lt_of_getElem? hg, rd_ok hg]
      rw [e'] at e
      injection e with e
      have := findNonempty_chain t.entry (t.entry.length + 1) { chain := it.chain + 1, loc := none }
      rw [e] at this
      simp only at this
      exact ⟨by omega, fun _ => by omega⟩
    | cons q post =>
      obtain ⟨rfl, nx2, hg2, _⟩ := hrest
      have e' : incr t it = .ok ⟨it.chain, some q.1⟩ := by
        simp [incr, h2, lt_of_getElem? hg, rd_ok hg]
      rw [e'] at e
      injection e with e
      subst e
      refine ⟨Nat.le_refl _, ?_⟩
      intro hs
      exfalso
      have hr2 : Rem bs ⟨it.chain, some q.1⟩ ((bs.take it.chain).flatten ++ (pre ++ [p])) (q :: post ++ (bs.drop (it.chain + 1)).flatten) :=
        .inr ⟨pre ++ [p], q, post, by rw [h1]; simp, rfl, rfl, rfl⟩
      have e3 := hr2.at_start h hs
      have e4 : (bs.drop it.chain).flatten = pre ++ p :: q :: post ++ (bs.drop (it.chain + 1)).flatten := by
        rw [List.drop_eq_getElem_cons hlt, List.flatten_cons]
        have : bs[it.chain] = pre ++ p :: q :: post := by
          rw [List.getElem?_eq_getElem hlt] at h1; injection h1
        rw [this]
      rw [e4] at e3
      have := congrArg List.length e3
      simp at this
      omega

/-! ## The state of a scan -/

/-- A scan over a table of `L` chains that stands before `rest`, with `k` calls on the table still to come. -/
structure SI (c : Cfg α) (L cap k : Nat) (s : Scan α) (bs : List (List (Cell α))) (before rest : List (Cell α)) : Prop where
  good : Good c s.t bs cap k
  rem : Rem bs s.it before rest
  len : s.t.entry.length = L
  mem : s.t ∈ s.tabs

theorem SI.blen {L cap k : Nat} {s : Scan α} {before rest : List (Cell α)} (h : SI c L cap k s bs before rest) : bs.length = L := by
  obtain ⟨fl, hi⟩ := h.good.inv
  rw [hi.len, h.len]

theorem si_visit {L cap k : Nat} {s s' : Scan α} {before rest : List (Cell α)} (h : SI c L cap k s bs before rest)
    (e : visit s = .ok s') : ∃ p rest', rest = p :: rest' ∧ SI c L cap k s' bs (before ++ [p]) rest' ∧
      s'.seen = s.seen ++ [p.2] ∧ s'.t = s.t ∧ s'.tabs = s.tabs ∧ s.it.chain ≤ s'.it.chain ∧
      (atStartOfChain s'.t s'.it = .ok true → s.it.chain < s'.it.chain) := by
  obtain ⟨fl, hi⟩ := h.good.inv
  have hr := h.rem
  cases rest with
  | nil =>
    exfalso
    have h1 : s.it = ⟨bs.length, none⟩ := by
      rcases hr with ⟨_, g, _⟩ | ⟨pre, p, post, _, _, _, g⟩
      · exact g
      · simp at g
    simp [visit, h1, itDeref] at e
  | cons p rest' =>
    obtain ⟨it', e1, hr'⟩ := hr.incr hi
    rw [visit, hr.deref hi, Res.bind_ok, e1, Res.bind_ok] at e
    simp only [Res.pure_eq] at e
    injection e with e
    subst e
    obtain ⟨g1, g2⟩ := rem_incr_chain hi hr e1
    exact ⟨p, rest', rfl, ⟨h.good, hr', h.len, h.mem⟩, rfl, rfl, rfl, g1, g2⟩

/-- A step is possible wherever there is something left. -/
theorem si_visit_ok {L cap k : Nat} {s : Scan α} {before rest : List (Cell α)} {p : Cell α} (h : SI c L cap k s bs before (p :: rest)) :
    ∃ s', visit s = .ok s' := by
  obtain ⟨fl, hi⟩ := h.good.inv
  obtain ⟨it', e1, hr'⟩ := h.rem.incr hi
  exact ⟨_, by rw [visit, h.rem.deref hi, Res.bind_ok, e1, Res.bind_ok]; rfl⟩

theorem si_pause (law : Lawful c) {L cap k : Nat} (hf : Fits c cap) {s s' : Scan α} {before rest : List (Cell α)} {ops : List (TOp α)}
    (h : SI c L cap (ops.length + k) s bs before rest) (e : pause c s ops = .ok s')
    (hlen : ∀ u ∈ s'.tabs, u.entry.length = L) :
    ∃ bs', SI c L cap k s' bs' (bs'.take s.it.chain).flatten (bs'.drop s.it.chain).flatten ∧ s'.seen = s.seen ∧
      (∀ u ∈ s.tabs, u ∈ s'.tabs) ∧ s.it.chain ≤ s'.it.chain := by
  rw [pause, Res.bind_eq_ok] at e
  obtain ⟨⟨t1, us⟩, e1, e⟩ := e
  rw [Res.bind_eq_ok] at e
  obtain ⟨it', e2, e⟩ := e
  simp only [Res.pure_eq] at e
  injection e with e
  subst e
  obtain ⟨⟨bs', g1⟩, g2⟩ := good_states law hf ops k s.t t1 bs us h.good e1
  have hm : t1 ∈ s.tabs ++ us := by
    rcases g2 with g2 | g2
    · rw [g2]; exact List.mem_append_left _ h.mem
    · exact List.mem_append_right _ g2
  have hl1 : t1.entry.length = L := hlen t1 hm
  obtain ⟨fl, hi⟩ := g1.inv
  have hbl := h.blen
  have hle := h.rem.chain_le
  obtain ⟨it2, e3, g3, g4⟩ := partialReset_ok hi s.it (by rw [hi.len, hl1]; omega) (by
    intro hc
    rw [hi.len, hl1, ← hbl] at hc
    rcases h.rem with ⟨_, g, _⟩ | ⟨pre, p, post, g, _⟩
    · rw [g]
    · have := lt_of_getElem? g; omega)
  simp only at e2
  rw [e3] at e2
  injection e2 with e2
  subst e2
  exact ⟨bs', ⟨g1, g3, hl1, hm⟩, rfl, fun u hu => List.mem_append_left _ hu, g4⟩

theorem sRun_tabs (c : Cfg α) : ∀ (xs : List (SStep α)) (s s' : Scan α), sRun c s xs = .ok s' → ∀ u ∈ s.tabs, u ∈ s'.tabs := by
  intro xs
  induction xs with
  | nil => intro s s' e u hu; simp only [sRun] at e; injection e with e; rw [← e]; exact hu
  | cons x xs ih =>
    intro s s' e u hu
    rw [sRun, Res.bind_eq_ok] at e
    obtain ⟨s1, e1, e⟩ := e
    refine ih s1 s' e u ?_
    cases x with
    | visit =>
      rw [sStep, visit, Res.bind_eq_ok] at e1
      obtain ⟨v, _, e1⟩ := e1
      rw [Res.bind_eq_ok] at e1
      obtain ⟨it, _, e1⟩ := e1
      simp only [Res.pure_eq] at e1
      injection e1 with e1
      rw [← e1]; exact hu
    | pause ops =>
      rw [sStep, pause, Res.bind_eq_ok] at e1
      obtain ⟨v, _, e1⟩ := e1
      rw [Res.bind_eq_ok] at e1
      obtain ⟨it, _, e1⟩ := e1
      simp only [Res.pure_eq] at e1
      injection e1 with e1
      rw [← e1]; exact List.mem_append_left _ hu

/-- Every entry the scan stands before is from the current chain or a later one. -/
theorem Rem.rest_le [DecidableEq α] {it : Iter} {before rest : List (Cell α)} (hr : Rem bs it before rest) (v : α) :
    (rest.map (fun x : Cell α => x.2)).count v ≤ ((bs.drop it.chain).flatten.map (fun x : Cell α => x.2)).count v := by
  rcases hr with ⟨rfl, _⟩ | ⟨pre, p, post, h1, _, _, rfl⟩
  · simp
  · have hlt := lt_of_getElem? h1
    rw [List.drop_eq_getElem_cons hlt, List.flatten_cons]
    have : bs[it.chain] = pre ++ p :: post := by
      rw [List.getElem?_eq_getElem hlt] at h1; injection h1
    rw [this]
    simp only [List.map_append, List.count_append]
    omega

theorem scan_all_aux [DecidableEq α] (law : Lawful c) {L cap : Nat} (hf : Fits c cap) (v : α) : ∀ (xs : List (SStep α)) (k : Nat) (s s' : Scan α)
    (bs : List (List (Cell α))) (before rest : List (Cell α)), SI c L cap (callCount xs + k) s bs before rest → sRun c s xs = .ok s' →
    (∀ u ∈ s'.tabs, u.entry.length = L) → (∀ u ∈ s'.tabs, 0 < copies u v) →
    (v ∈ s.seen ∨ 0 < (rest.map (fun x : Cell α => x.2)).count v) →
    ∃ bs' before' rest', SI c L cap k s' bs' before' rest' ∧ (v ∈ s'.seen ∨ 0 < (rest'.map (fun x : Cell α => x.2)).count v) := by
  intro xs
  induction xs with
  | nil =>
    intro k s s' bs before rest h e _ _ hv
    simp only [sRun] at e; injection e with e; subst e
    simp only [callCount, Nat.zero_add] at h
    exact ⟨bs, before, rest, h, hv⟩
  | cons x xs ih =>
    intro k s s' bs before rest h e hlen hcop hv
    rw [sRun, Res.bind_eq_ok] at e
    obtain ⟨s1, e1, e⟩ := e
    have htab := sRun_tabs c xs s1 s' e
    cases x with
    | visit =>
      obtain ⟨p, rest', rfl, h1, hseen, _⟩ := si_visit h e1
      refine ih k s1 s' bs _ rest' h1 e hlen hcop ?_
      rw [hseen]
      rcases hv with hv | hv
      · exact .inl (List.mem_append_left _ hv)
      · rw [List.map_cons, List.count_cons] at hv
        by_cases hp : p.2 = v
        · left; rw [hp]; simp
        · right
          have : (p.2 == v) = false := by simp [hp]
          rw [this] at hv
          simpa using hv
    | pause ops =>
      obtain ⟨bs', h1, hseen, _, _⟩ := si_pause (k := callCount xs + k) law hf
        (by simpa only [callCount, Nat.add_assoc] using h) e1 (fun u hu => hlen u (htab u hu))
      refine ih k s1 s' bs' _ _ h1 e hlen hcop ?_
      rw [hseen]
      rcases hv with hv | hv
      · exact .inl hv
      · right
        obtain ⟨fl, hi⟩ := h.good.inv
        obtain ⟨fl', hi'⟩ := h1.good.inv
        have g := h.rem.rest_le v
        rw [count_drop hi, h.len] at g
        rw [count_drop hi', h1.len, ← copies_eq hi']
        have hle : s.it.chain ≤ c.hash v % L := by
          by_cases hh : s.it.chain ≤ c.hash v % L
          · exact hh
          · rw [if_neg hh] at g; omega
        rw [if_pos hle]
        exact hcop s1.t (htab s1.t h1.mem)

theorem scan_count_aux [DecidableEq α] (law : Lawful c) {L cap : Nat} (hf : Fits c cap) (v : α) (lo hi : Nat) : ∀ (xs : List (SStep α)) (k : Nat)
    (s s' : Scan α) (bs : List (List (Cell α))) (before rest : List (Cell α)), SI c L cap (callCount xs + k) s bs before rest →
    sRun c s xs = .ok s' → (∀ u ∈ s'.tabs, u.entry.length = L) → (∀ u ∈ s'.tabs, lo ≤ copies u v ∧ copies u v ≤ hi) → PausesAtStart c s xs →
    (lo ≤ s.seen.count v + (rest.map (fun x : Cell α => x.2)).count v ∧ s.seen.count v + (rest.map (fun x : Cell α => x.2)).count v ≤ hi) →
    (s.it.chain ≤ c.hash v % L → s.seen.count v + (rest.map (fun x : Cell α => x.2)).count v = copies s.t v) →
    ∃ bs' before' rest', SI c L cap k s' bs' before' rest' ∧ lo ≤ s'.seen.count v + (rest'.map (fun x : Cell α => x.2)).count v ∧
      s'.seen.count v + (rest'.map (fun x : Cell α => x.2)).count v ≤ hi := by
  intro xs
  induction xs with
  | nil =>
    intro k s s' bs before rest h e _ _ _ hv _
    simp only [sRun] at e; injection e with e; subst e
    simp only [callCount, Nat.zero_add] at h
    exact ⟨bs, before, rest, h, hv⟩
  | cons x xs ih =>
    intro k s s' bs before rest h e hlen hcop hps hv hv2
    rw [sRun, Res.bind_eq_ok] at e
    obtain ⟨s1, e1, e⟩ := e
    have htab := sRun_tabs c xs s1 s' e
    obtain ⟨hp1, hp2⟩ := hps
    cases x with
    | visit =>
      obtain ⟨p, rest', rfl, h1, hseen, ht, _, hch, _⟩ := si_visit h e1
      have hsum : s1.seen.count v + (rest'.map (fun x : Cell α => x.2)).count v =
          s.seen.count v + ((p :: rest').map (fun x : Cell α => x.2)).count v := by
        rw [hseen, List.count_append, List.map_cons, List.count_cons, List.count_cons, List.count_nil]
        omega
      refine ih k s1 s' bs _ rest' h1 e hlen hcop (hp2 s1 e1) ?_ ?_
      · rw [hsum]; exact hv
      · intro hle
        rw [hsum, ht]
        exact hv2 (by omega)
    | pause ops =>
      obtain ⟨bs', h1, hseen, htab1, hch⟩ := si_pause (k := callCount xs + k) law hf
        (by simpa only [callCount, Nat.add_assoc] using h) e1 (fun u hu => hlen u (htab u hu))
      obtain ⟨fl, hi⟩ := h.good.inv
      obtain ⟨fl', hi'⟩ := h1.good.inv
      have g := h.rem.at_start hi (hp1 ops rfl)
      rw [g, count_drop hi, h.len, ← copies_eq hi] at hv hv2
      have hc1 := hcop s1.t (htab s1.t h1.mem)
      refine ih k s1 s' bs' _ _ h1 e hlen hcop (hp2 s1 e1) ?_ ?_
      · rw [hseen, count_drop hi', h1.len, ← copies_eq hi']
        by_cases hle : s.it.chain ≤ c.hash v % L
        · have := hv2 hle
          rw [if_pos hle] at this ⊢
          omega
        · rw [if_neg hle] at hv ⊢
          exact hv
      · intro hle
        have hle2 : s.it.chain ≤ c.hash v % L := by omega
        have := hv2 hle2
        rw [hseen, count_drop hi', h1.len, ← copies_eq hi']
        rw [if_pos hle2] at this ⊢
        omega

theorem scan_sound_aux [DecidableEq α] (law : Lawful c) {L cap : Nat} (hf : Fits c cap) (v : α) : ∀ (xs : List (SStep α)) (k : Nat) (s s' : Scan α)
    (bs : List (List (Cell α))) (before rest : List (Cell α)), SI c L cap (callCount xs + k) s bs before rest → sRun c s xs = .ok s' →
    (∀ u ∈ s'.tabs, u.entry.length = L) → v ∈ s'.seen → v ∈ s.seen ∨ ∃ u ∈ s'.tabs, 0 < copies u v := by
  intro xs
  induction xs with
  | nil =>
    intro k s s' bs before rest h e _ hv
    simp only [sRun] at e; injection e with e; subst e
    exact .inl hv
  | cons x xs ih =>
    intro k s s' bs before rest h e hlen hv
    rw [sRun, Res.bind_eq_ok] at e
    obtain ⟨s1, e1, e⟩ := e
    have htab := sRun_tabs c xs s1 s' e
    cases x with
    | visit =>
      obtain ⟨p, rest', rfl, h1, hseen, ht, htb, _⟩ := si_visit h e1
      rcases ih k s1 s' bs _ rest' h1 e hlen hv with g | g
      · rw [hseen, List.mem_append, List.mem_singleton] at g
        rcases g with g | g
        · exact .inl g
        · right
          obtain ⟨fl, hi⟩ := h.good.inv
          refine ⟨s.t, htab _ (by rw [htb]; exact h.mem), ?_⟩
          rw [copies_eq hi, ← h.rem.append, List.map_append, List.count_append, List.map_cons, g]
          simp
          omega
      · exact .inr g
    | pause ops =>
      obtain ⟨bs', h1, hseen, _, _⟩ := si_pause (k := callCount xs + k) law hf
        (by simpa only [callCount, Nat.add_assoc] using h) e1 (fun u hu => hlen u (htab u hu))
      rw [← hseen]
      exact ih k s1 s' bs' _ _ h1 e hlen hv

theorem scan_state_aux (law : Lawful c) {L cap : Nat} (hf : Fits c cap) : ∀ (xs : List (SStep α)) (k : Nat) (s s' : Scan α)
    (bs : List (List (Cell α))) (before rest : List (Cell α)), SI c L cap (callCount xs + k) s bs before rest → sRun c s xs = .ok s' →
    (∀ u ∈ s'.tabs, u.entry.length = L) → ∃ bs' before' rest', SI c L cap k s' bs' before' rest' ∧ s.it.chain ≤ s'.it.chain := by
  intro xs
  induction xs with
  | nil =>
    intro k s s' bs before rest h e _
    simp only [sRun] at e; injection e with e; subst e
    simp only [callCount, Nat.zero_add] at h
    exact ⟨bs, before, rest, h, Nat.le_refl _⟩
  | cons x xs ih =>
    intro k s s' bs before rest h e hlen
    rw [sRun, Res.bind_eq_ok] at e
    obtain ⟨s1, e1, e⟩ := e
    have htab := sRun_tabs c xs s1 s' e
    cases x with
    | visit =>
      obtain ⟨p, rest', rfl, h1, _, _, _, hch, _⟩ := si_visit h e1
      obtain ⟨b1, b2, b3, b4, b5⟩ := ih k s1 s' bs _ rest' h1 e hlen
      exact ⟨b1, b2, b3, b4, by omega⟩
    | pause ops =>
      obtain ⟨bs', h1, _, _, hch⟩ := si_pause (k := callCount xs + k) law hf
        (by simpa only [callCount, Nat.add_assoc] using h) e1 (fun u hu => hlen u (htab u hu))
      obtain ⟨b1, b2, b3, b4, b5⟩ := ih k s1 s' bs' _ _ h1 e hlen
      exact ⟨b1, b2, b3, b4, by omega⟩

theorem si_start (law : Lawful c) {cap : Nat} (hf : Fits c cap) {pre : List (TOp α)} {k : Nat} (hs : pre.length + k ≤ cap)
    (e : tState c empty' pre = .ok t) :
    ∃ bs, SI c t.entry.length cap k (startScan t) bs [] bs.flatten := by
  obtain ⟨bs, g⟩ := good_state law hf pre k empty' t [] ((good_empty c cap).mono hs) e
  obtain ⟨fl, hi⟩ := g.inv
  exact ⟨bs, g, begin_ok hi, rfl, by simp [startScan]⟩

theorem SI.at_end {L cap k : Nat} {s : Scan α} {before rest : List (Cell α)} (h : SI c L cap k s bs before rest)
    (e : s.it = end' s.t) : rest = [] := by
  obtain ⟨fl, hi⟩ := h.good.inv
  cases rest with
  | nil => rfl
  | cons p rest => exact absurd e (h.rem.ne_end hi)

theorem SI.end_of_chain {L cap k : Nat} {s : Scan α} {before rest : List (Cell α)} (h : SI c L cap k s bs before rest)
    (e : L ≤ s.it.chain) : s.it = end' s.t := by
  obtain ⟨fl, hi⟩ := h.good.inv
  rw [end_eq hi]
  rcases h.rem with ⟨_, g, _⟩ | ⟨pre, p, post, g, _⟩
  · exact g
  · have := lt_of_getElem? g
    have := h.blen
    omega

/-! ## A chain at a time -/

theorem sRun_append (c : Cfg α) : ∀ (xs ys : List (SStep α)) (s s1 : Scan α), sRun c s xs = .ok s1 → sRun c s (xs ++ ys) = sRun c s1 ys := by
  intro xs
  induction xs with
  | nil => intro ys s s1 e; simp only [sRun] at e; injection e with e; subst e; rfl
  | cons x xs ih =>
    intro ys s s1 e
    rw [sRun, Res.bind_eq_ok] at e
    obtain ⟨s2, e1, e⟩ := e
    rw [List.cons_append, sRun, e1, Res.bind_ok]
    exact ih ys s2 s1 e

theorem pauses_append (c : Cfg α) : ∀ (xs ys : List (SStep α)) (s s1 : Scan α), sRun c s xs = .ok s1 → PausesAtStart c s xs →
    PausesAtStart c s1 ys → PausesAtStart c s (xs ++ ys) := by
  intro xs
  induction xs with
  | nil => intro ys s s1 e _ h; simp only [sRun] at e; injection e with e; subst e; exact h
  | cons x xs ih =>
    intro ys s s1 e h1 h2
    rw [sRun, Res.bind_eq_ok] at e
    obtain ⟨s2, e1, e⟩ := e
    refine ⟨h1.1, ?_⟩
    intro s3 e3
    rw [e1] at e3
    injection e3 with e3
    subst e3
    exact ih ys s2 s1 e (h1.2 s2 e1) h2

theorem pauses_visits (c : Cfg α) : ∀ (n : Nat) (s : Scan α), PausesAtStart c s (List.replicate n .visit) := by
  intro n
  induction n with
  | zero => intro s; trivial
  | succ n ih => intro s; exact ⟨fun ops h => (by cases h), fun s1 _ => ih s1⟩

theorem callCount_append : ∀ (xs ys : List (SStep α)), callCount (xs ++ ys) = callCount xs + callCount ys := by
  intro xs
  induction xs with
  | nil => intro ys; simp [callCount]
  | cons x xs ih => intro ys; cases x <;> simp [callCount, ih]; omega

theorem callCount_visits : ∀ n, callCount (List.replicate n (SStep.visit : SStep α)) = 0 := by
  intro n
  induction n with
  | zero => rfl
  | succ n ih => exact ih

theorem SI.atStart {L cap k : Nat} {s : Scan α} {before rest : List (Cell α)} (h : SI c L cap k s bs before rest) :
    ∃ b, atStartOfChain s.t s.it = .ok b ∧ (rest = [] → b = true) := by
  obtain ⟨fl, hi⟩ := h.good.inv
  unfold atStartOfChain
  by_cases he : s.it.chain = s.t.entry.length
  · exact ⟨true, by rw [if_pos he], fun _ => rfl⟩
  · rw [if_neg he]
    have hle := h.rem.chain_le
    rw [hi.len] at hle
    obtain ⟨l, o, hl, ho, hc⟩ := hi.bucket (b := s.it.chain) (by omega)
    refine ⟨_, by rw [rd_ok ho]; rfl, ?_⟩
    intro hr
    subst hr
    rcases h.rem with ⟨_, g, _⟩ | ⟨pre, p, post, _, _, _, g⟩
    · rw [g, hi.len] at he; exact absurd rfl he
    · simp at g

theorem toNextChain_ok : ∀ (fuel : Nat) {L cap k : Nat} (s : Scan α) (before rest : List (Cell α)), SI c L cap k s bs before rest →
    rest ≠ [] → rest.length < fuel → ∃ s1 n before1 rest1, toNextChain fuel s = .ok s1 ∧ sRun c s (List.replicate n .visit) = .ok s1 ∧
      SI c L cap k s1 bs before1 rest1 ∧ atStartOfChain s1.t s1.it = .ok true ∧ s.it.chain < s1.it.chain ∧ s1.t = s.t ∧ s1.tabs = s.tabs := by
  intro fuel
  induction fuel with
  | zero => intro L cap k s before rest _ _ h; omega
  | succ fuel ih =>
    intro L cap k s before rest h hne hlt
    cases rest with
    | nil => exact absurd rfl hne
    | cons p rest =>
      obtain ⟨s1, e1⟩ := si_visit_ok h
      obtain ⟨p', rest', hpr, h1, hseen, ht, htb, hch, hch2⟩ := si_visit h e1
      injection hpr with hp1 hp2
      subst hp1 hp2
      obtain ⟨b, hb, hb2⟩ := h1.atStart
      cases b with
      | true =>
        refine ⟨s1, 1, _, rest, ?_, ?_, h1, hb, hch2 hb, ht, htb⟩
        · rw [toNextChain, e1, Res.bind_ok, hb, Res.bind_ok]; rfl
        · simp only [List.replicate, sRun, sStep, e1, Res.bind_ok]
      | false =>
        have hne2 : rest ≠ [] := fun hr => (by have := hb2 hr; cases this)
        obtain ⟨s2, n, b2, r2, g1, g2, g3, g4, g5, g6, g7⟩ := ih s1 _ rest h1 hne2 (by simp only [List.length_cons] at hlt; omega)
        refine ⟨s2, n + 1, b2, r2, ?_, ?_, g3, g4, by omega, by rw [g6, ht], by rw [g7, htb]⟩
        · rw [toNextChain, e1, Res.bind_ok, hb, Res.bind_ok]; exact g1
        · simp only [List.replicate, sRun, sStep, e1, Res.bind_ok]; exact g2

theorem SI.fuel {L cap k : Nat} {s : Scan α} {before rest : List (Cell α)} (h : SI c L cap k s bs before rest) :
    rest.length < s.t.chains.length + 1 := by
  obtain ⟨fl, hi⟩ := h.good.inv
  have h1 := congrArg List.length h.rem.append
  have h2 := hi.count
  rw [List.length_append] at h1
  omega

theorem SI.mono {L cap k k' : Nat} {s : Scan α} {before rest : List (Cell α)} (h : SI c L cap k s bs before rest) (hk : k' ≤ k) :
    SI c L cap k' s bs before rest := ⟨h.good.mono hk, h.rem, h.len, h.mem⟩

theorem visit_tabs {s s' : Scan α} (e : visit s = .ok s') : s'.tabs = s.tabs := by
  rw [visit, Res.bind_eq_ok] at e
  obtain ⟨v, _, e⟩ := e
  rw [Res.bind_eq_ok] at e
  obtain ⟨it, _, e⟩ := e
  simp only [Res.pure_eq] at e
  injection e with e
  rw [← e]

theorem toNextChain_tabs : ∀ (fuel : Nat) (s s' : Scan α), toNextChain fuel s = .ok s' → s'.tabs = s.tabs := by
  intro fuel
  induction fuel with
  | zero => intro s s' e; cases e
  | succ fuel ih =>
    intro s s' e
    rw [toNextChain, Res.bind_eq_ok] at e
    obtain ⟨s1, e1, e⟩ := e
    rw [Res.bind_eq_ok] at e
    obtain ⟨b, _, e⟩ := e
    cases b with
    | true =>
      simp only [if_true, Res.pure_eq] at e
      injection e with e
      rw [← e]; exact visit_tabs e1
    | false =>
      rw [← visit_tabs e1]
      exact ih s1 s' e

theorem pause_tabs {s s' : Scan α} {ops : List (TOp α)} (e : pause c s ops = .ok s') : ∀ u ∈ s.tabs, u ∈ s'.tabs :=
  sRun_tabs c [.pause ops] s s' (by simp only [sRun, sStep, e, Res.bind_ok])

theorem chainScan_tabs (c : Cfg α) : ∀ (bat : List (List (TOp α))) (s s' : Scan α), chainScan c s bat = .ok s' → ∀ u ∈ s.tabs, u ∈ s'.tabs := by
  intro bat
  induction bat with
  | nil => intro s s' e u hu; simp only [chainScan] at e; injection e with e; rw [← e]; exact hu
  | cons ops bat ih =>
    intro s s' e u hu
    rw [chainScan] at e
    split at e
    · injection e with e; rw [← e]; exact hu
    · rw [Res.bind_eq_ok] at e
      obtain ⟨s1, e1, e⟩ := e
      rw [Res.bind_eq_ok] at e
      obtain ⟨s2, e2, e⟩ := e
      exact ih s2 s' e u (pause_tabs e2 u (by rw [toNextChain_tabs _ _ _ e1]; exact hu))

/-- A scan by chains is a scan that pauses only at the start of a chain, and gets on by a chain each time. -/
theorem chainScan_run (law : Lawful c) {L cap : Nat} (hf : Fits c cap) : ∀ (bat : List (List (TOp α))) (k : Nat) (s s' : Scan α)
    (bs : List (List (Cell α))) (before rest : List (Cell α)), SI c L cap (callTotal bat + k) s bs before rest →
    chainScan c s bat = .ok s' → (∀ u ∈ s'.tabs, u.entry.length = L) →
    ∃ steps, sRun c s steps = .ok s' ∧ PausesAtStart c s steps ∧ callCount steps ≤ callTotal bat ∧
      (s'.it = end' s'.t ∨ s.it.chain + bat.length ≤ s'.it.chain) := by
  intro bat
  induction bat with
  | nil =>
    intro k s s' bs before rest h e _
    simp only [chainScan] at e
    injection e with e
    subst e
    exact ⟨[], rfl, trivial, Nat.le_refl _, .inr (by simp)⟩
  | cons ops bat ih =>
    intro k s s' bs before rest h e hlen
    rw [chainScan] at e
    by_cases hend : s.it = end' s.t
    · rw [if_pos hend] at e
      injection e with e
      subst e
      exact ⟨[], rfl, trivial, Nat.zero_le _, .inl hend⟩
    · rw [if_neg hend] at e
      have hne : rest ≠ [] := by
        intro hr
        subst hr
        rcases h.rem with ⟨_, g, _⟩ | ⟨pre, p, post, _, _, _, g⟩
        · obtain ⟨fl, hi⟩ := h.good.inv
          rw [end_eq hi] at hend
          exact hend g
        · simp at g
      obtain ⟨s1, n, b1, r1, e1, g2, g3, g4, g5, g6, g7⟩ := toNextChain_ok (s.t.chains.length + 1) s before rest h hne h.fuel
      rw [e1, Res.bind_ok, Res.bind_eq_ok] at e
      obtain ⟨s2, e2, e⟩ := e
      have htab := chainScan_tabs c bat s2 s' e
      obtain ⟨bs2, h2, _, _, hch⟩ := si_pause (k := callTotal bat + k) law hf (by simpa only [callTotal, Nat.add_assoc] using g3) e2
        (fun u hu => hlen u (htab u hu))
      obtain ⟨steps, k1, k2, k3, k4⟩ := ih k s2 s' bs2 _ _ h2 e hlen
      have hp : sRun c s1 [.pause ops] = .ok s2 := by simp only [sRun, sStep, e2, Res.bind_ok]
      refine ⟨List.replicate n .visit ++ ([.pause ops] ++ steps), ?_, ?_, ?_, ?_⟩
      · rw [sRun_append c _ _ s s1 g2, sRun_append c _ _ s1 s2 hp, k1]
      · refine pauses_append c _ _ s s1 g2 (pauses_visits c n s) (pauses_append c _ _ s1 s2 hp ?_ k2)
        exact ⟨fun _ _ => g4, fun _ _ => trivial⟩
      · rw [callCount_append, callCount_append, callCount_visits]
        simp only [callCount, callTotal]
        omega
      · rcases k4 with k4 | k4
        · exact .inl k4
        · right
          simp only [List.length_cons]
          omega

/-! ## Calls that only read and remove -/

theorem removes_step [DecidableEq α] (law : Lawful c) {cap k : Nat} (hf : Fits c cap) (h : Good c t bs cap k) (op : TOp α) (hq : Removes op) :
    ∃ t' o, tStep c t op = .ok (t', o) ∧ t'.entry.length = t.entry.length ∧ ∀ v, copies t' v ≤ copies t v := by
  obtain ⟨s, h1, h2⟩ := h.mr
  obtain ⟨fl, hi⟩ := h.inv
  rcases mr_step law h1 hf op with g | ⟨g, _⟩ | ⟨t1, o1, s', g, _⟩
  · cases op <;> simp [Removes] at hq <;> simp [MultiOver] at g
  · cases op with
    | remove key m => cases m <;> simp [Removes] at hq; simp [MultiAborts] at g
    | _ => first | (simp [Removes] at hq; done) | (simp [MultiAborts] at g)
  · refine ⟨t1, o1, g, ?_⟩
    cases op with
    | lookup key =>
      simp only [tStep, Res.bind_eq_ok] at g
      obtain ⟨_, _, _, _, g⟩ := g
      simp only [Res.pure_eq] at g
      injection g with g; injection g with g _; rw [← g]; exact ⟨rfl, fun v => Nat.le_refl _⟩
    | size => simp only [tStep, Res.pure_eq] at g; injection g with g; injection g with g _; rw [← g]; exact ⟨rfl, fun v => Nat.le_refl _⟩
    | walk =>
      simp only [tStep, Res.bind_eq_ok] at g
      obtain ⟨_, _, g⟩ := g
      simp only [Res.pure_eq] at g
      injection g with g; injection g with g _; rw [← g]; exact ⟨rfl, fun v => Nat.le_refl _⟩
    | remove key m =>
      cases m with
      | true => exact absurd hq (by simp [Removes])
      | false =>
        rcases remove_ok law hi key false with ⟨_, e⟩ | ⟨m1, p, m2, t', hb, _, _, e, hi', _, hl⟩
        · simp only [tStep, e] at g
          simp at g
          rw [← g.1]; exact ⟨rfl, fun v => Nat.le_refl _⟩
        · simp only [tStep, e] at g
          simp at g
          rw [← g.1]
          refine ⟨hl, fun v => ?_⟩
          rw [copies_eq hi', copies_eq hi]
          have hp := ((flatten_set_erase bs _ m1 m2 p hb).map (fun x : Cell α => x.2)).count_eq v
          rw [hp, List.map_cons, List.count_cons]
          omega
    | _ => exact absurd hq (by simp [Removes])

theorem removes_states [DecidableEq α] (law : Lawful c) {cap : Nat} (hf : Fits c cap) : ∀ (ops : List (TOp α)) (k : Nat) (t : Table α) (bs : List (List (Cell α))),
    Good c t bs cap (ops.length + k) → (∀ op ∈ ops, Removes op) →
    ∃ t' us, tStates c t ops = .ok (t', us) ∧ (∀ u ∈ us, u.entry.length = t.entry.length) ∧
      ∀ v, copies t' v ≤ copies t v ∧ ∀ u ∈ us, copies t' v ≤ copies u v ∧ copies u v ≤ copies t v := by
  intro ops
  induction ops with
  | nil => intro k t bs _ _; exact ⟨t, [], rfl, fun u hu => (by cases hu), fun v => ⟨Nat.le_refl _, fun u hu => (by cases hu)⟩⟩
  | cons op ops ih =>
    intro k t bs h hq
    obtain ⟨t1, o, e1, hl1, hc1⟩ := removes_step law hf h op (hq op (by simp))
    obtain ⟨bs1, g1⟩ := good_step law hf (k := ops.length + k) (h.mono (by simp only [List.length_cons]; omega)) op e1
    obtain ⟨t', us, e2, hl2, hc2⟩ := ih k t1 bs1 g1 (fun o ho => hq o (List.mem_cons_of_mem _ ho))
    refine ⟨t', t1 :: us, by simp only [tStates, e1, e2, Res.bind_ok, Res.pure_eq], ?_, ?_⟩
    · intro u hu
      rcases List.mem_cons.1 hu with rfl | hu
      · exact hl1
      · rw [hl2 u hu, hl1]
    · intro v
      have a1 := hc1 v
      have a2 := (hc2 v).1
      refine ⟨by omega, ?_⟩
      intro u hu
      rcases List.mem_cons.1 hu with rfl | hu
      · exact ⟨a2, a1⟩
      · have a3 := (hc2 v).2 u hu
        exact ⟨a3.1, by omega⟩

theorem chainScan_removes [DecidableEq α] (law : Lawful c) {L cap : Nat} (hf : Fits c cap) : ∀ (bat : List (List (TOp α))) (k : Nat) (s : Scan α)
    (bs : List (List (Cell α))) (before rest : List (Cell α)) (hi : α → Nat), SI c L cap (callTotal bat + k) s bs before rest →
    (∀ ops ∈ bat, ∀ op ∈ ops, Removes op) → (∀ u ∈ s.tabs, u.entry.length = L) →
    (∀ v, ∀ u ∈ s.tabs, copies s.t v ≤ copies u v ∧ copies u v ≤ hi v) →
    ∃ s', chainScan c s bat = .ok s' ∧ (∀ u ∈ s'.tabs, u.entry.length = L) ∧
      ∀ v, ∀ u ∈ s'.tabs, copies s'.t v ≤ copies u v ∧ copies u v ≤ hi v := by
  intro bat
  induction bat with
  | nil => intro k s bs before rest hi _ _ hl hc; exact ⟨s, rfl, hl, hc⟩
  | cons ops bat ih =>
    intro k s bs before rest hi h hq hl hc
    rw [chainScan]
    by_cases hend : s.it = end' s.t
    · rw [if_pos hend]; exact ⟨s, rfl, hl, hc⟩
    · rw [if_neg hend]
      have hne : rest ≠ [] := by
        intro hr
        subst hr
        rcases h.rem with ⟨_, g, _⟩ | ⟨pre, p, post, _, _, _, g⟩
        · obtain ⟨fl, hi⟩ := h.good.inv
          rw [end_eq hi] at hend
          exact hend g
        · simp at g
      obtain ⟨s1, n, b1, r1, e1, g2, g3, g4, g5, g6, g7⟩ := toNextChain_ok (s.t.chains.length + 1) s before rest h hne h.fuel
      have h3 : SI c L cap (ops.length + (callTotal bat + k)) s1 bs b1 r1 := by simpa only [callTotal, Nat.add_assoc] using g3
      obtain ⟨t2, us, e2, hl2, hc2⟩ := removes_states law hf ops _ s1.t bs h3.good (hq ops (by simp))
      obtain ⟨⟨bs2, k1⟩, k2⟩ := good_states law hf ops _ s1.t t2 bs us h3.good e2
      have hlt2 : t2.entry.length = L := by
        rcases k2 with k2 | k2
        · rw [k2]; exact h3.len
        · rw [hl2 _ k2]; exact h3.len
      obtain ⟨fl2, hi2⟩ := k1.inv
      have hbl := h3.blen
      have hle := h3.rem.chain_le
      obtain ⟨it2, e3, _, _⟩ := partialReset_ok hi2 s1.it (by rw [hi2.len, hlt2]; omega) (by
        intro hc
        rw [hi2.len, hlt2, ← hbl] at hc
        rcases h3.rem with ⟨_, g, _⟩ | ⟨pre, p, post, g, _⟩
        · rw [g]
        · have := lt_of_getElem? g; omega)
      have e4 : pause c s1 ops = .ok ⟨t2, it2, s1.seen, s1.tabs ++ us⟩ := by
        simp only [pause, e2, Res.bind_ok, e3, Res.pure_eq]
      have hl4 : ∀ u ∈ s1.tabs ++ us, u.entry.length = L := by
        intro u hu
        rcases List.mem_append.1 hu with hu | hu
        · rw [g7] at hu; exact hl u hu
        · rw [hl2 u hu]; exact h3.len
      obtain ⟨bs5, h5, _⟩ := si_pause law hf h3 e4 hl4
      have hc4 : ∀ v, ∀ u ∈ s1.tabs ++ us, copies t2 v ≤ copies u v ∧ copies u v ≤ hi v := by
        intro v u hu
        obtain ⟨a1, a2⟩ := hc2 v
        rw [g6] at a1 a2
        have a0 := hc v s.t h.mem
        rcases List.mem_append.1 hu with hu | hu
        · rw [g7] at hu
          have := hc v u hu
          omega
        · have := a2 u hu
          omega
      obtain ⟨s', e6, h6⟩ := ih k _ bs5 _ _ hi h5 (fun o ho => hq o (List.mem_cons_of_mem _ ho)) hl4 hc4
      exact ⟨s', by rw [e1, Res.bind_ok, e4, Res.bind_ok, e6], h6⟩

/-- Whatever is left can be looked at. -/
theorem visits_to_end {L cap k : Nat} : ∀ (rest : List (Cell α)) (s : Scan α) (before : List (Cell α)), SI c L cap k s bs before rest →
    ∃ s', sRun c s (List.replicate rest.length .visit) = .ok s' ∧ s'.it = end' s'.t ∧ s'.tabs = s.tabs := by
  intro rest
  induction rest with
  | nil =>
    intro s before h
    refine ⟨s, rfl, ?_, rfl⟩
    obtain ⟨fl, hi⟩ := h.good.inv
    rw [end_eq hi]
    rcases h.rem with ⟨_, g, _⟩ | ⟨pre, p, post, _, _, _, g⟩
    · exact g
    · simp at g
  | cons p rest ih =>
    intro s before h
    obtain ⟨s1, e1⟩ := si_visit_ok h
    obtain ⟨p', rest', hpr, h1, _, _, htb, _⟩ := si_visit h e1
    injection hpr with hp1 hp2
    subst hp1 hp2
    obtain ⟨s', g1, g2, g3⟩ := ih s1 _ h1
    refine ⟨s', ?_, g2, by rw [g3, htb]⟩
    rw [List.length_cons, List.replicate_succ, sRun]
    simp only [sStep, e1, Res.bind_ok]
    exact g1

/-- The last entry of a chain is the one after which another chain starts. -/
theorem rem_atEnd (h : Inv c t bs fl) {it it' : Iter} {before rest : List (Cell α)} {p : Cell α}
    (hr : Rem bs it before (p :: rest)) (e : incr t it = .ok it') :
    (atEndOfChain t it = .ok true ∧ it.chain < it'.chain) ∨ (atEndOfChain t it = .ok false ∧ it'.chain = it.chain) := by
  rcases hr with ⟨h1, _⟩ | ⟨pre, q, post, h1, h2, h3, h4⟩
  · cases h1
  · injection h4 with h4 h5
    subst h4
    obtain ⟨o, ho, hc⟩ := h.chain _ _ h1
    obtain ⟨nx, hg, hrest⟩ := hc.split
    have hlt := lt_of_getElem? h1
    have hne : it.chain ≠ t.entry.length := by rw [← h.len]; omega
    cases post with
    | nil =>
      left
      simp only [IsChain] at hrest
      subst hrest
      have e' : incr t it = .ok (findNonempty t.entry (t.entry.length + 1) { chain := it.chain + 1, loc := none }) := by
        simp [incr, h2, lt_of_getElem? hg, rd_ok hg]
      rw [e'] at e
      injection e with e
      have := findNonempty_chain t.entry (t.entry.length + 1) { chain := it.chain + 1, loc := none }
      rw [e] at this
      simp only at this
      exact ⟨by simp [atEndOfChain, hne, h2, rd_ok hg], by omega⟩
    | cons q post =>
      right
      obtain ⟨rfl, nx2, hg2, _⟩ := hrest
      have e' : incr t it = .ok ⟨it.chain, some q.1⟩ := by
        simp [incr, h2, lt_of_getElem? hg, rd_ok hg]
      rw [e'] at e
      injection e with e
      subst e
      exact ⟨by simp [atEndOfChain, hne, h2, rd_ok hg], rfl⟩

end Verif.Hash
