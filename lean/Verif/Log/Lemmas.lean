import Verif.Log.Spec
import Verif.Str.Props

namespace Verif.Log
open Verif.Str Verif.Log.Spec

theorem prefixequal_isPrefixOf (c pre : Str) : prefixequal c pre = pre.isPrefixOf c := by
  rw [Bool.eq_iff_iff, prefixequal_iff, List.isPrefixOf_iff_prefix]
  constructor
  · rintro ⟨t, h⟩; exact ⟨t, h.symm⟩
  · rintro ⟨t, h⟩; exact ⟨t, h.symm⟩

theorem runFrom_append (s : Data) (a b : List Op) :
    runFrom s (a ++ b) = (runFrom s a >>= fun s' => runFrom s' b) := by
  induction a generalizing s with
  | nil => rfl
  | cons o os ih =>
    rw [List.cons_append, runFrom, runFrom, Res.bind_assoc']
    congr 1
    funext s'
    exact ih s'

theorem run_snoc (a : List Op) (o : Op) : run (a ++ [o]) = (run a >>= fun s => step s o) := by
  unfold run
  rw [runFrom_append]
  congr 1
  funext s
  show (step s o >>= fun s' => runFrom s' []) = _
  cases step s o <;> rfl

theorem given_append (c : Str) (a b : List Op) : given c (a ++ b) = given c a ++ given c b :=
  List.filterMap_append

theorem given_snoc (c : Str) (a : List Op) (o : Op) :
    given c (a ++ [o]) = given c a ++ (gives c o).toList := by
  rw [given_append]
  unfold given
  cases h : gives c o <;> simp [h]

/-- `Actual` after one more call, when the category was already mentioned. -/
theorem actual_snoc {c : Str} {calls : List Op} {v : Nat} (h : Actual c calls v) (o : Op) :
    Actual c (calls ++ [o]) ((gives c o).getD v) := by
  obtain ⟨b, e, a, rfl, h1, h2, rfl⟩ := h
  refine ⟨b, e, a ++ [o], by simp, h1, h2, ?_⟩
  rw [← List.cons_append, given_snoc]
  cases gives c o with
  | none => simp
  | some x => simp

/-- `Actual` when the category is mentioned for the first time. -/
theorem actual_new {c : Str} {calls : List Op} {o : Op} (h1 : mentions c o = true)
    (h2 : ∀ x ∈ calls, mentions c x = false) :
    Actual c (calls ++ [o]) ((gives c o).getD (((given c calls).head?).getD 0)) := by
  refine ⟨calls, o, [], rfl, h1, h2, ?_⟩
  unfold given
  cases h : gives c o <;> simp [h]

/-- The pattern stored for a call. -/
def patOf : Op → Option (Str × Nat)
  | .set name level => if name.getLast? = some 42 then some (name.dropLast, level % 256) else none
  | _ => none

/-- Before a category is mentioned only patterns give it a level. -/
theorem initialLevel_eq (c : Str) : ∀ (calls : List Op), (∀ x ∈ calls, mentions c x = false) →
    initialLevel (calls.filterMap patOf) c = ((given c calls).head?).getD 0 := by
  intro calls
  induction calls with
  | nil => intro _; rfl
  | cons o os ih =>
    intro h
    have hos := ih (fun x hx => h x (List.mem_cons_of_mem _ hx))
    have ho := h o List.mem_cons_self
    unfold given at hos ⊢
    unfold initialLevel at hos ⊢
    cases o with
    | use n =>
      rw [List.filterMap_cons_none (by rfl), List.filterMap_cons_none (by rfl)]; exact hos
    | reserve n =>
      rw [List.filterMap_cons_none (by rfl), List.filterMap_cons_none (by rfl)]; exact hos
    | set name level =>
      by_cases hn : name.getLast? = some 42
      · have hp : patOf (.set name level) = some (name.dropLast, level % 256) := by
          unfold patOf; simp [hn]
        rw [List.filterMap_cons_some hp]
        by_cases hm : name.dropLast.isPrefixOf c = true
        · have hg : gives c (.set name level) = some (level % 256) := by
            unfold gives; simp [hn, hm]
          rw [List.filterMap_cons_some hg, List.find?_cons_of_pos (by
            rw [prefixequal_isPrefixOf]; exact hm)]
          rfl
        · have hg : gives c (.set name level) = none := by
            unfold gives; simp [hn, hm]
          rw [List.filterMap_cons_none hg, List.find?_cons_of_neg (by
            rw [prefixequal_isPrefixOf]; exact hm)]
          exact hos
      · have hp : patOf (.set name level) = none := by unfold patOf; simp [hn]
        have hne : name ≠ c := by
          rintro rfl
          unfold mentions at ho
          simp [hn] at ho
        have hg : gives c (.set name level) = none := by unfold gives; simp [hn, hne]
        rw [List.filterMap_cons_none hp, List.filterMap_cons_none hg]
        exact hos

/-- What holds after every sequence of calls. -/
structure Inv (calls : List Op) (s : Data) : Prop where
  idsRange : s.ids.map Prod.snd = List.range s.levels.length
  pats : s.pats = calls.filterMap patOf
  capOk : s.levels.length ≤ s.cap
  known : ∀ c e, s.ids.find? (fun e => e.1 == c) = some e →
    ∃ v, s.levels[e.2]? = some v ∧ Actual c calls v
  unknown : ∀ c, s.ids.find? (fun e => e.1 == c) = none → ∀ x ∈ calls, mentions c x = false

theorem find_eq {ids : List (Str × Nat)} {c : Str} {e : Str × Nat}
    (h : ids.find? (fun e => e.1 == c) = some e) : e.1 = c ∧ e ∈ ids := by
  have h1 := List.find?_some h
  exact ⟨by simpa using h1, List.mem_of_find?_eq_some h⟩

theorem find_snoc (ids : List (Str × Nat)) (c c' : Str) (n : Nat) :
    (ids ++ [(c, n)]).find? (fun e => e.1 == c') =
      (ids.find? (fun e => e.1 == c')).or (if c = c' then some (c, n) else none) := by
  rw [List.find?_append]
  congr 1
  by_cases h : c = c'
  · simp [h]
  · simp [h]

theorem snd_inj {ids : List (Str × Nat)} (h : (ids.map Prod.snd).Nodup) {e e' : Str × Nat}
    (he : e ∈ ids) (he' : e' ∈ ids) (heq : e.2 = e'.2) : e = e' := by
  induction ids with
  | nil => cases he
  | cons x xs ih =>
    rw [List.map_cons, List.nodup_cons] at h
    rcases List.mem_cons.1 he with h1 | h1
    · rcases List.mem_cons.1 he' with h2 | h2
      · rw [h1, h2]
      · exact absurd (by rw [← h1, heq]; exact List.mem_map_of_mem h2) h.1
    · rcases List.mem_cons.1 he' with h2 | h2
      · exact absurd (by rw [← h2, ← heq]; exact List.mem_map_of_mem h1) h.1
      · exact ih h.2 h1 h2

/-- Mentioning a category changes nothing for the others. -/
theorem locked_spec {calls : List Op} {s : Data} (hI : Inv calls s) (o : Op) (c : Str)
    (ho : mentions c o = true) (hoth : ∀ c', c' ≠ c → mentions c' o = false ∧ gives c' o = none)
    {id : Nat} {s' : Data} (h : lockedCategoryToId s c = .ok (id, s')) :
    s'.ids.map Prod.snd = List.range s'.levels.length ∧
    s'.pats = calls.filterMap patOf ∧ s'.levels.length ≤ s'.cap ∧ s'.cap = s.cap ∧
    s'.warned = s.warned ∧ s'.pcap = s.pcap ∧
    s'.ids.find? (fun e => e.1 == c) = some (c, id) ∧ id < s'.levels.length ∧
    (∃ v, s'.levels[id]? = some v ∧ Actual c (calls ++ [o]) ((gives c o).getD v)) ∧
    (∀ c' e, c' ≠ c → s'.ids.find? (fun e => e.1 == c') = some e →
      ∃ v, s'.levels[e.2]? = some v ∧ e.2 ≠ id ∧ Actual c' (calls ++ [o]) v) ∧
    (∀ c', s'.ids.find? (fun e => e.1 == c') = none → ∀ x ∈ calls ++ [o], mentions c' x = false) := by
  have hnd : ∀ e ∈ s.ids, e.2 < s.levels.length := by
    intro e he
    have : e.2 ∈ s.ids.map Prod.snd := List.mem_map_of_mem he
    rw [hI.idsRange] at this
    exact List.mem_range.1 this
  have hinj : ∀ e ∈ s.ids, ∀ e' ∈ s.ids, e.2 = e'.2 → e = e' := by
    have : (s.ids.map Prod.snd).Nodup := by rw [hI.idsRange]; exact List.nodup_range
    intro e he e' he' heq
    exact snd_inj this he he' heq
  have mem_snoc : ∀ {p : Op → Prop}, (∀ x ∈ calls, p x) → p o → ∀ x ∈ calls ++ [o], p x := by
    intro p h1 h2 x hx
    rcases List.mem_append.1 hx with hx | hx
    · exact h1 x hx
    · rw [List.mem_singleton] at hx; rw [hx]; exact h2
  unfold lockedCategoryToId at h
  split at h
  · next e he =>
    simp only [Res.ok.injEq, Prod.mk.injEq] at h
    obtain ⟨rfl, rfl⟩ := h
    obtain ⟨hec, hem⟩ := find_eq he
    obtain ⟨v, hv, hA⟩ := hI.known c e he
    refine ⟨hI.idsRange, hI.pats, hI.capOk, rfl, rfl, rfl, ?_, hnd e hem, ⟨v, hv, actual_snoc hA o⟩, ?_, ?_⟩
    · rw [he, ← hec]
    · intro c' e' hne he'
      obtain ⟨v', hv', hA'⟩ := hI.known c' e' he'
      obtain ⟨hec', hem'⟩ := find_eq he'
      refine ⟨v', hv', ?_, ?_⟩
      · intro heq
        have := hinj _ hem' _ hem heq
        exact hne (by rw [← hec', ← hec, this])
      · have := actual_snoc hA' o
        rw [(hoth c' hne).2] at this
        exact this
    · intro c' hc'
      have hne : c' ≠ c := by rintro rfl; rw [he] at hc'; cases hc'
      exact mem_snoc (hI.unknown c' hc') (hoth c' hne).1
  · next he =>
    rw [Res.bind_eq_ok] at h
    obtain ⟨_, hreq, h⟩ := h
    have hcap : s.levels.length < s.cap := by
      unfold Res.require at hreq
      split at hreq
      · next h => simpa using h
      · cases hreq
    simp only [Res.ok.injEq, Prod.mk.injEq] at h
    obtain ⟨rfl, rfl⟩ := h
    have hun := hI.unknown c he
    refine ⟨?_, hI.pats, ?_, rfl, rfl, rfl, ?_, ?_, ?_, ?_, ?_⟩
    · simp only [List.map_append, hI.idsRange, List.length_append, List.map_cons, List.map_nil,
        List.length_cons, List.length_nil]
      rw [List.range_succ]
    · simp only [List.length_append, List.length_cons, List.length_nil]; omega
    · simp only [find_snoc]; rw [he]; simp
    · simp
    · refine ⟨initialLevel s.pats c, by simp, ?_⟩
      rw [hI.pats, initialLevel_eq c calls hun]
      exact actual_new ho hun
    · intro c' e' hne he'
      simp only [find_snoc, if_neg (Ne.symm hne), Option.or_none] at he'
      obtain ⟨v', hv', hA'⟩ := hI.known c' e' he'
      obtain ⟨hec', hem'⟩ := find_eq he'
      have := hnd _ hem'
      refine ⟨v', ?_, by omega, ?_⟩
      · simp only; rw [List.getElem?_append_left this]; exact hv'
      · have := actual_snoc hA' o
        rw [(hoth c' hne).2] at this
        exact this
    · intro c' hc'
      simp only [find_snoc] at hc'
      have hne : c' ≠ c := by
        rintro rfl; simp at hc'
      rw [if_neg (Ne.symm hne), Option.or_none] at hc'
      exact mem_snoc (hI.unknown c' hc') (hoth c' hne).1

theorem updateAll_spec (pre : Str) (lv : Nat) : ∀ (es : List (Str × Nat)) (levels : List Nat),
    (∀ e ∈ es, e.2 < levels.length) →
    ∃ l', updateAll pre lv es levels = .ok l' ∧ l'.length = levels.length ∧
      ∀ i, i < levels.length → l'[i]? =
        if ∃ e ∈ es, e.2 = i ∧ prefixequal e.1 pre = true then some lv else levels[i]? := by
  intro es
  induction es with
  | nil =>
    intro levels _
    exact ⟨levels, rfl, rfl, fun i hi => by simp⟩
  | cons e es ih =>
    intro levels h
    unfold updateAll
    by_cases hp : prefixequal e.1 pre = true
    · rw [if_pos hp]
      have he := h e List.mem_cons_self
      unfold setAt
      rw [if_pos he]
      obtain ⟨l', h1, h2, h3⟩ := ih (levels.set e.2 lv) (fun x hx => by
        rw [List.length_set]; exact h x (List.mem_cons_of_mem _ hx))
      refine ⟨l', h1, by rw [h2, List.length_set], fun i hi => ?_⟩
      rw [h3 i (by rw [List.length_set]; exact hi)]
      by_cases hx : ∃ x ∈ es, x.2 = i ∧ prefixequal x.1 pre = true
      · rw [if_pos hx, if_pos]
        obtain ⟨x, hx1, hx2⟩ := hx
        exact ⟨x, List.mem_cons_of_mem _ hx1, hx2⟩
      · rw [if_neg hx]
        by_cases hei : e.2 = i
        · rw [if_pos ⟨e, List.mem_cons_self, hei, hp⟩, hei, List.getElem?_set_self hi]
        · rw [if_neg, List.getElem?_set_ne hei]
          rintro ⟨x, hx1, hx2, hx3⟩
          rcases List.mem_cons.1 hx1 with rfl | hx1
          · exact hei hx2
          · exact hx ⟨x, hx1, hx2, hx3⟩
    · rw [if_neg hp]
      obtain ⟨l', h1, h2, h3⟩ := ih levels (fun x hx => h x (List.mem_cons_of_mem _ hx))
      refine ⟨l', h1, h2, fun i hi => ?_⟩
      rw [h3 i hi]
      congr 1
      apply propext
      constructor
      · rintro ⟨x, hx1, hx2⟩; exact ⟨x, List.mem_cons_of_mem _ hx1, hx2⟩
      · rintro ⟨x, hx1, hx2, hx3⟩
        rcases List.mem_cons.1 hx1 with rfl | hx1
        · exact absurd hx3 hp
        · exact ⟨x, hx1, hx2, hx3⟩

theorem limitWarning_ids (s : Data) (id : Nat) :
    (limitWarning s id).ids = s.ids ∧ (limitWarning s id).levels = s.levels ∧
    (limitWarning s id).pats = s.pats ∧ (limitWarning s id).cap = s.cap ∧
    (limitWarning s id).pcap = s.pcap := by
  unfold limitWarning
  split <;> exact ⟨rfl, rfl, rfl, rfl, rfl⟩

theorem inv_init : Inv [] init where
  idsRange := rfl
  pats := rfl
  capOk := by decide
  known := by intro c e h; cases h
  unknown := by intro c _ x hx; cases hx

theorem inv_use {calls : List Op} {s : Data} (hI : Inv calls s) (c : Str) {id : Nat} {s' : Data}
    (h : categoryToId s c = .ok (id, s')) : Inv (calls ++ [.use c]) s' ∧
      s'.ids.find? (fun e => e.1 == c) = some (c, id) := by
  unfold categoryToId at h
  rw [Res.bind_eq_ok] at h
  obtain ⟨⟨i, s1⟩, hl, h⟩ := h
  simp only [Res.pure_eq, Res.ok.injEq, Prod.mk.injEq] at h
  obtain ⟨rfl, rfl⟩ := h
  obtain ⟨w1, w2, w3, w4, w5⟩ := limitWarning_ids s1 i
  obtain ⟨h1, h2, h3, h4, _, _, h5, h6, ⟨v, hv, hA⟩, h8, h9⟩ := locked_spec hI (.use c) c
    (by simp [mentions]) (fun c' hne => ⟨by simp [mentions, Ne.symm hne], rfl⟩) hl
  refine ⟨⟨by rw [w1, w2]; exact h1, ?_, by rw [w2, w4]; exact h3, ?_, ?_⟩, by rw [w1]; exact h5⟩
  · rw [w3, h2, List.filterMap_append, List.filterMap_cons_none (by rfl)]; simp
  · intro c' e he
    rw [w1] at he
    rw [w2]
    by_cases hc : c' = c
    · subst hc
      rw [h5] at he
      cases he
      exact ⟨v, hv, hA⟩
    · obtain ⟨v', hv', _, hA'⟩ := h8 c' e hc he
      exact ⟨v', hv', hA'⟩
  · intro c' hc'
    rw [w1] at hc'
    exact h9 c' hc'

theorem inv_set {calls : List Op} {s s' : Data} (hI : Inv calls s) (name : Str) (level : Nat)
    (h : setDebugLevel s name level = .ok s') : Inv (calls ++ [.set name level]) s' := by
  unfold setDebugLevel at h
  simp only [] at h
  have hlt : ∀ e ∈ s.ids, e.2 < s.levels.length := by
    intro e he
    have : e.2 ∈ s.ids.map Prod.snd := List.mem_map_of_mem he
    rw [hI.idsRange] at this
    exact List.mem_range.1 this
  by_cases hn : name.getLast? = some 42
  · rw [if_pos hn, Res.bind_eq_ok] at h
    obtain ⟨_, _, h⟩ := h
    rw [Res.bind_eq_ok] at h
    obtain ⟨l', hl, h⟩ := h
    simp only [Res.pure_eq, Res.ok.injEq] at h
    subst h
    obtain ⟨l'', e1, e2, e3⟩ := updateAll_spec name.dropLast (u8 level) s.ids s.levels hlt
    rw [hl] at e1
    cases e1
    refine ⟨by show _ = List.range l'.length; rw [e2]; exact hI.idsRange, ?_,
      by show l'.length ≤ _; rw [e2]; exact hI.capOk, ?_, ?_⟩
    · show s.pats ++ _ = _
      rw [hI.pats, List.filterMap_append]
      congr 1
      rw [List.filterMap_cons_some (b := (name.dropLast, level % 256))]
      · rfl
      · simp only [patOf, if_pos hn]
    · intro c e he
      obtain ⟨v, hv, hA⟩ := hI.known c e he
      obtain ⟨hec, hem⟩ := find_eq he
      have hi := hlt e hem
      have hg : gives c (.set name level) =
          if name.dropLast.isPrefixOf c then some (level % 256) else none := by
        simp only [gives, if_pos hn]
      refine ⟨_, ?_, actual_snoc hA _⟩
      show l'[e.2]? = _
      rw [e3 _ hi, hg, hv]
      by_cases hp : name.dropLast.isPrefixOf c = true
      · rw [if_pos ⟨e, hem, rfl, by rw [prefixequal_isPrefixOf, hec]; exact hp⟩, if_pos hp]
        rfl
      · rw [if_neg, if_neg hp]
        · rfl
        · rintro ⟨x, hx1, hx2, hx3⟩
          have hnd : (s.ids.map Prod.snd).Nodup := by rw [hI.idsRange]; exact List.nodup_range
          have : x = e := snd_inj hnd hx1 hem hx2
          rw [this, prefixequal_isPrefixOf, hec] at hx3
          exact hp hx3
    · intro c hc x hx
      rcases List.mem_append.1 hx with hx | hx
      · exact hI.unknown c hc x hx
      · rw [List.mem_singleton] at hx
        rw [hx]
        simp [mentions, hn]
  · rw [if_neg hn, Res.bind_eq_ok] at h
    obtain ⟨⟨id, s1⟩, hl, h⟩ := h
    rw [Res.bind_eq_ok] at h
    obtain ⟨_, _, h⟩ := h
    rw [Res.bind_eq_ok] at h
    obtain ⟨l', hset, h⟩ := h
    simp only [Res.pure_eq, Res.ok.injEq] at h
    subst h
    have hm : mentions name (.set name level) = true := by simp [mentions, hn]
    have hgn : gives name (.set name level) = some (level % 256) := by
      simp only [gives, if_neg hn, if_pos]
    have hp : patOf (.set name level) = none := by simp only [patOf, if_neg hn]
    obtain ⟨h1, h2, h3, h4, _, _, h5, h6, ⟨v, hv, hA⟩, h8, h9⟩ :=
      locked_spec hI (.set name level) name hm
      (fun c' hne => ⟨by simp [mentions, Ne.symm hne], by
        simp only [gives, if_neg hn, if_neg (Ne.symm hne)]⟩) hl
    obtain ⟨w1, w2, w3, w4, w5⟩ := limitWarning_ids { s1 with levels := l' } id
    have hl' : l' = s1.levels.set id (level % 256) := by
      simp only [setAt] at hset
      rw [if_pos h6] at hset
      cases hset; rfl
    refine ⟨?_, ?_, ?_, ?_, ?_⟩
    · rw [w1, w2]; show s1.ids.map Prod.snd = List.range l'.length
      rw [hl', List.length_set]; exact h1
    · rw [w3]; show s1.pats = _
      rw [h2, List.filterMap_append, List.filterMap_cons_none hp]; simp
    · rw [w2, w4]; show l'.length ≤ s1.cap
      rw [hl', List.length_set]; exact h3
    · intro c' e he
      rw [w1] at he
      rw [w2]
      show ∃ v, l'[e.2]? = some v ∧ _
      by_cases hc : c' = name
      · subst hc
        change s1.ids.find? _ = _ at he
        rw [h5] at he
        cases he
        rw [hgn] at hA
        refine ⟨level % 256, ?_, hA⟩
        rw [hl', List.getElem?_set_self h6]
      · obtain ⟨v', hv', hne, hA'⟩ := h8 c' e hc he
        refine ⟨v', ?_, hA'⟩
        rw [hl', List.getElem?_set_ne (Ne.symm hne)]
        exact hv'
    · intro c' hc'
      rw [w1] at hc'
      exact h9 c' hc'

theorem inv_reserve {calls : List Op} {s s' : Data} (hI : Inv calls s) (n : Nat)
    (h : reserveCategories s n = .ok s') : Inv (calls ++ [.reserve n]) s' := by
  unfold reserveCategories at h
  rw [Res.bind_eq_ok] at h
  obtain ⟨_, _, h⟩ := h
  simp only [Res.pure_eq, Res.ok.injEq] at h
  subst h
  refine ⟨hI.idsRange, ?_, by have := hI.capOk; show s.levels.length ≤ max s.cap n; omega, ?_, ?_⟩
  · show s.pats = _
    rw [hI.pats, List.filterMap_append, List.filterMap_cons_none (by rfl)]; simp
  · intro c e he
    obtain ⟨v, hv, hA⟩ := hI.known c e he
    exact ⟨v, hv, actual_snoc hA (.reserve n)⟩
  · intro c hc x hx
    rcases List.mem_append.1 hx with hx | hx
    · exact hI.unknown c hc x hx
    · rw [List.mem_singleton] at hx; rw [hx]; rfl

theorem step_use {s s' : Data} {c : Str} (h : step s (.use c) = .ok s') :
    ∃ id, categoryToId s c = .ok (id, s') := by
  change (categoryToId s c).map Prod.snd = _ at h
  cases hc : categoryToId s c with
  | ok r => rw [hc] at h; cases h; exact ⟨r.1, rfl⟩
  | abort => rw [hc] at h; cases h
  | ub => rw [hc] at h; cases h

theorem inv_step {calls : List Op} {s s' : Data} (hI : Inv calls s) (o : Op)
    (h : step s o = .ok s') : Inv (calls ++ [o]) s' := by
  cases o with
  | use c => obtain ⟨id, h⟩ := step_use h; exact (inv_use hI c h).1
  | set name level => exact inv_set hI name level h
  | reserve n => exact inv_reserve hI n h

theorem inv_runFrom : ∀ (ops calls : List Op) (s s' : Data), Inv calls s →
    runFrom s ops = .ok s' → Inv (calls ++ ops) s' := by
  intro ops
  induction ops with
  | nil => intro calls s s' hI h; cases h; simpa using hI
  | cons o os ih =>
    intro calls s s' hI h
    rw [runFrom, Res.bind_eq_ok] at h
    obtain ⟨s1, h1, h2⟩ := h
    have := ih (calls ++ [o]) s1 s' (inv_step hI o h1) h2
    simpa using this

theorem inv_run {ops : List Op} {s : Data} (h : run ops = .ok s) : Inv ops s := by
  have := inv_runFrom ops [] init s inv_init h
  simpa using this

/-- Ids stay: a name keeps its id for ever. -/
theorem step_keeps {s s' : Data} {o : Op} (h : step s o = .ok s') (c : Str) (e : Str × Nat)
    (he : s.ids.find? (fun e => e.1 == c) = some e) :
    s'.ids.find? (fun e => e.1 == c) = some e := by
  have locked : ∀ {c' : Str} {r : Nat × Data}, lockedCategoryToId s c' = .ok r →
      r.2.ids.find? (fun e => e.1 == c) = some e := by
    intro c' r hl
    unfold lockedCategoryToId at hl
    split at hl
    · cases hl; exact he
    · rw [Res.bind_eq_ok] at hl
      obtain ⟨_, _, hl⟩ := hl
      cases hl
      simp only [find_snoc]
      rw [he]; rfl
  cases o with
  | use c' =>
    obtain ⟨id, h⟩ := step_use h
    unfold categoryToId at h
    rw [Res.bind_eq_ok] at h
    obtain ⟨r, hl, h⟩ := h
    cases h
    rw [(limitWarning_ids _ _).1]
    exact locked hl
  | set name level =>
    change setDebugLevel s name level = _ at h
    unfold setDebugLevel at h
    simp only [] at h
    split at h
    · rw [Res.bind_eq_ok] at h
      obtain ⟨_, _, h⟩ := h
      rw [Res.bind_eq_ok] at h
      obtain ⟨_, _, h⟩ := h
      cases h; exact he
    · rw [Res.bind_eq_ok] at h
      obtain ⟨r, hl, h⟩ := h
      rw [Res.bind_eq_ok] at h
      obtain ⟨_, _, h⟩ := h
      rw [Res.bind_eq_ok] at h
      obtain ⟨_, _, h⟩ := h
      cases h
      rw [(limitWarning_ids _ _).1]
      exact locked hl
  | reserve n =>
    change reserveCategories s n = _ at h
    unfold reserveCategories at h
    rw [Res.bind_eq_ok] at h
    obtain ⟨_, _, h⟩ := h
    cases h; exact he

theorem runFrom_keeps : ∀ (ops : List Op) (s s' : Data), runFrom s ops = .ok s' →
    ∀ (c : Str) (e : Str × Nat), s.ids.find? (fun e => e.1 == c) = some e →
    s'.ids.find? (fun e => e.1 == c) = some e := by
  intro ops
  induction ops with
  | nil => intro s s' h c e he; cases h; exact he
  | cons o os ih =>
    intro s s' h c e he
    rw [runFrom, Res.bind_eq_ok] at h
    obtain ⟨s1, h1, h2⟩ := h
    exact ih s1 s' h2 c e (step_keeps h1 c e he)

end Verif.Log
