import Verif.DepVC.Remotes

/-! # C242: the remotes of a git repository -/

namespace Verif.DepVC.Remotes

open Verif.Deptool.Deps (Text isWord)

/-! ## Specification -/

/-- A remote: its name, the address to fetch from, the addresses to push to. -/
structure Remote where
  name : Text
  fetch : Text
  pushes : List Text

/-- A text without white space that is not empty. -/
def Solid (t : Text) : Prop := t ≠ [] ∧ ∀ c ∈ t, c ∉ [' ', '\t', '\n', '\r', '\x0c', '\x0b']

def Remote.Plain (r : Remote) : Prop := Solid r.name ∧ Solid r.fetch ∧ ∀ p ∈ r.pushes, Solid p

/-- A line of `git remote -v`. -/
def gitLine (n u m : Text) : Text := n ++ '\t' :: u ++ ' ' :: '(' :: m ++ [')']

/-- What git prints for a remote. -/
def Remote.lines (r : Remote) : List Text := gitLine r.name r.fetch ['f', 'e', 't', 'c', 'h'] :: r.pushes.map fun p => gitLine r.name p ['p', 'u', 's', 'h']

/-! ## Lemmas -/

theorem ns_of (c : Char) (h : c ∉ [' ', '\t', '\n', '\r', '\x0c', '\x0b']) : isNs c = true := by
  simp only [List.mem_cons, List.not_mem_nil, or_false, not_or] at h
  simp [isNs, isSp, h]

theorem take_ns (a : Text) (c : Char) (r : Text) (ha : ∀ x ∈ a, isNs x = true) (hc : isNs c = false) : (a ++ c :: r).takeWhile isNs = a ∧ (a ++ c :: r).dropWhile isNs = c :: r := by
  induction a with
  | nil => simp [hc]
  | cons x a ih =>
    have hx := ha x List.mem_cons_self
    obtain ⟨h1, h2⟩ := ih (fun y hy => ha y (List.mem_cons_of_mem _ hy))
    exact ⟨by rw [List.cons_append, List.takeWhile_cons, hx, if_pos rfl, h1], by rw [List.cons_append, List.dropWhile_cons, hx, if_pos rfl, h2]⟩

theorem drop_sp (c : Char) (a : Text) (hc : isSp c = true) (ha : a ≠ []) (hn : ∀ x ∈ a, isNs x = true) (r : Text) : (c :: (a ++ r)).dropWhile isSp = a ++ r := by
  cases a with
  | nil => exact absurd rfl ha
  | cons x a =>
    have hx := hn x List.mem_cons_self
    have : isSp x = false := by simpa [isNs] using hx
    simp [hc, this]

theorem mode_line (m : Text) (hm : m ≠ []) (hw : m.all isWord = true) : mode ('(' :: (m ++ [')'])) = some m := by
  simp only [mode, List.getLast?_concat, List.dropLast_concat]
  rw [if_pos ⟨trivial, hm, hw⟩]

theorem parse_gitLine (n u m : Text) (hn : Solid n) (hu : Solid u) (hm : m ≠ []) (hw : m.all isWord = true) : parseLine (gitLine n u m) = some (n, u, m) := by
  have hn' : ∀ x ∈ n, isNs x = true := fun x hx => ns_of x (hn.2 x hx)
  have hu' : ∀ x ∈ u, isNs x = true := fun x hx => ns_of x (hu.2 x hx)
  have e : gitLine n u m = n ++ '\t' :: (u ++ ' ' :: '(' :: (m ++ [')'])) := by simp [gitLine]
  obtain ⟨h1, h2⟩ := take_ns n '\t' (u ++ ' ' :: '(' :: (m ++ [')'])) hn' (by decide)
  have h3 := drop_sp '\t' u (by decide) hu.1 hu' (' ' :: '(' :: (m ++ [')']))
  obtain ⟨h4, h5⟩ := take_ns u ' ' ('(' :: (m ++ [')'])) hu' (by decide)
  have h6 : (' ' :: '(' :: (m ++ [')'])).dropWhile isSp = '(' :: (m ++ [')']) := rfl
  simp only [parseLine]
  rw [e, h1, h2, h3, h4, h5, h6, mode_line m hm hw, if_pos ⟨hn.1, by simp, hu.1, by simp⟩]
  rfl

theorem has_append (t t' : Table) (n : Text) : has (t ++ t') n = (has t n || has t' n) := by simp [has]

theorem read_append : ∀ (a b : List Text) (t : Table), readAll (a ++ b) t = (readAll a t).bind (readAll b) := by
  intro a
  induction a with
  | nil => intro b t; rfl
  | cons l a ih =>
    intro b t
    simp only [List.cons_append, readAll]
    split
    · rfl
    · split
      · rfl
      · exact ih b _

theorem map_other (t : Table) (n u : Text) (h : has t n = false) : t.map (fun e => if e.1 = n then (e.1, e.2.1, some u) else e) = t := by
  have : ∀ e ∈ t, e.1 ≠ n := by
    intro e he hn
    have : has t n = true := List.any_eq_true.2 ⟨e, he, by simp [hn]⟩
    rw [h] at this
    cases this
  rw [List.map_congr_left (g := id) (fun e he => by rw [if_neg (this e he)]; rfl), List.map_id]

theorem read_pushes (t : Table) (n f : Text) (hn : Solid n) (ht : has t n = false) : ∀ (ps : List Text) (p0 : Option Text), (∀ p ∈ ps, Solid p) →
    readAll (ps.map fun p => gitLine n p ['p', 'u', 's', 'h']) (t ++ [(n, f, p0)]) = some (t ++ [(n, f, (ps.getLast?).or p0)]) := by
  intro ps
  induction ps with
  | nil => intro p0 _; rfl
  | cons p ps ih =>
    intro p0 hp
    simp only [List.map_cons, readAll]
    rw [parse_gitLine n p _ hn (hp p List.mem_cons_self) (by decide) (by decide)]
    have ha : addLine (t ++ [(n, f, p0)]) n p ['p', 'u', 's', 'h'] = some (t ++ [(n, f, some p)]) := by
      rw [addLine, if_neg (by decide), if_pos (show ['p', 'u', 's', 'h'] = tPush from rfl), if_pos (by rw [has_append]; simp [has]), List.map_append, map_other t n p ht]
      simp
    simp only [ha]
    rw [ih (some p) (fun q hq => hp q (List.mem_cons_of_mem _ hq))]
    congr 1
    cases ps with
    | nil => rfl
    | cons q ps => simp [List.getLast?_cons_cons, List.getLast?_cons]

theorem read_remote (t : Table) (r : Remote) (hr : r.Plain) (ht : has t r.name = false) : readAll r.lines t = some (t ++ [(r.name, r.fetch, r.pushes.getLast?)]) := by
  simp only [Remote.lines, readAll]
  rw [parse_gitLine r.name r.fetch _ hr.1 hr.2.1 (by decide) (by decide)]
  have ha : addLine t r.name r.fetch ['f', 'e', 't', 'c', 'h'] = some (t ++ [(r.name, r.fetch, none)]) := by
    rw [addLine, if_pos (show ['f', 'e', 't', 'c', 'h'] = tFetch from rfl), ht]
    rfl
  simp only [ha]
  rw [read_pushes t r.name r.fetch hr.1 ht r.pushes none hr.2.2]
  simp

theorem read_remotes : ∀ (rs : List Remote) (t : Table), (∀ r ∈ rs, r.Plain) → (rs.map (·.name)).Nodup → (∀ r ∈ rs, has t r.name = false) →
    readAll (rs.flatMap Remote.lines) t = some (t ++ rs.map fun r => (r.name, r.fetch, r.pushes.getLast?)) := by
  intro rs
  induction rs with
  | nil => intro t _ _ _; simp [readAll]
  | cons r rs ih =>
    intro t hp hd ht
    rw [List.flatMap_cons, read_append, read_remote t r (hp r List.mem_cons_self) (ht r List.mem_cons_self)]
    simp only [Option.bind_some]
    rw [List.map_cons, List.nodup_cons] at hd
    rw [ih _ (fun x hx => hp x (List.mem_cons_of_mem _ hx)) hd.2]
    · simp
    · intro x hx
      rw [has_append, ht x (List.mem_cons_of_mem _ hx)]
      simp only [has, List.any_cons, List.any_nil, Bool.or_false, Bool.false_or, decide_eq_false_iff_not]
      intro h
      exact hd.1 (by rw [h]; exact List.mem_map_of_mem hx)

theorem stripPre_self : ∀ (p t : Text), stripPre p (p ++ t) = some t := by
  intro p
  induction p with
  | nil => intro t; rfl
  | cons c p ih => intro t; simp only [List.cons_append, stripPre, if_true]; exact ih t

theorem stripPre_some : ∀ (p t r : Text), stripPre p t = some r → t = p ++ r := by
  intro p
  induction p with
  | nil => intro t r h; cases h; rfl
  | cons c p ih =>
    intro t r h
    cases t with
    | nil => cases h
    | cons d t =>
      simp only [stripPre] at h
      split at h
      · rename_i e
        rw [e, ih t r h]
        rfl
      · cases h

theorem fetchLine_fetch (u : Text) (hu : Solid u) : fetchLine (gitLine tOrigin u tFetch) = some u := by
  have hu' : ∀ x ∈ u, isNs x = true := fun x hx => ns_of x (hu.2 x hx)
  have e : gitLine tOrigin u tFetch = tOrigin ++ '\t' :: (u ++ ' ' :: '(' :: (tFetch ++ [')'])) := by simp [gitLine]
  have h3 := drop_sp '\t' u (by decide) hu.1 hu' (' ' :: '(' :: (tFetch ++ [')']))
  obtain ⟨h4, h5⟩ := take_ns u ' ' ('(' :: (tFetch ++ [')'])) hu' (by decide)
  have h6 : (' ' :: '(' :: (tFetch ++ [')'])).dropWhile isSp = '(' :: (tFetch ++ [')']) := rfl
  simp only [fetchLine]
  rw [e, stripPre_self]
  simp only [h3, h4, h5, h6]
  rw [if_pos ⟨by rfl, hu.1, by simp⟩, show stripPre ('(' :: tFetch ++ [')']) ('(' :: (tFetch ++ [')'])) = some [] from rfl]
  rfl

/-- A line of another remote, or one for pushing, is not taken. -/
theorem fetchLine_other (n u m : Text) (hn : Solid n) (hu : Solid u) (h : n ≠ tOrigin ∨ m = tPush) : fetchLine (gitLine n u m) = none := by
  have hn' : ∀ x ∈ n, isNs x = true := fun x hx => ns_of x (hn.2 x hx)
  have hu' : ∀ x ∈ u, isNs x = true := fun x hx => ns_of x (hu.2 x hx)
  have e : gitLine n u m = n ++ '\t' :: (u ++ ' ' :: '(' :: (m ++ [')'])) := by simp [gitLine]
  simp only [fetchLine]
  split
  · rfl
  · rename_i r1 hr
    have h1 := stripPre_some _ _ _ hr
    split
    · rename_i hc
      obtain ⟨hs, _, _⟩ := hc
      cases r1 with
      | nil => cases hs
      | cons c r1 =>
        have hc : isNs c = false := by simp only [List.head?_cons, Option.any_some] at hs; simp [isNs, hs]
        have h2 := (take_ns tOrigin c r1 (by decide) hc)
        have h3 := (take_ns n '\t' (u ++ ' ' :: '(' :: (m ++ [')'])) hn' (by decide))
        rw [← h1, e] at h2
        have hno : n = tOrigin := h3.1.symm.trans h2.1
        rcases h with h | h
        · exact absurd hno h
        · have h4 : c :: r1 = '\t' :: (u ++ ' ' :: '(' :: (m ++ [')'])) := h2.2.symm.trans h3.2
          rw [h4, drop_sp '\t' u (by decide) hu.1 hu', (take_ns u ' ' ('(' :: (m ++ [')'])) hu' (by decide)).2, h]
          rfl
    · rfl

theorem find_lines (r : Remote) (hr : r.Plain) : r.lines.findSome? fetchLine = if r.name = tOrigin then some r.fetch else none := by
  by_cases h : r.name = tOrigin
  · rw [if_pos h, Remote.lines, List.findSome?_cons, h, show gitLine tOrigin r.fetch ['f', 'e', 't', 'c', 'h'] = gitLine tOrigin r.fetch tFetch from rfl, fetchLine_fetch r.fetch hr.2.1]
  · rw [if_neg h, List.findSome?_eq_none_iff]
    intro l hl
    simp only [Remote.lines, List.mem_cons, List.mem_map] at hl
    rcases hl with rfl | ⟨p, hp, rfl⟩
    · exact fetchLine_other _ _ _ hr.1 hr.2.1 (Or.inl h)
    · exact fetchLine_other _ _ _ hr.1 (hr.2.2 p hp) (Or.inl h)

/-! ## The claims -/

/-- C242: what git prints about remotes without white space in names and addresses is read back: each remote with its address to fetch from and the last of its addresses to push to. -/
theorem remotes_read_partial (rs : List Remote) (hp : ∀ r ∈ rs, r.Plain) (hd : (rs.map (·.name)).Nodup) :
    getAllRemotes (rs.flatMap Remote.lines) = some (rs.map fun r => (r.name, r.fetch, r.pushes.getLast?)) := by
  rw [getAllRemotes, read_remotes rs [] hp hd (fun _ _ => rfl)]
  rfl

/-- C242: a checkout made from the local copy fetches from where that copy does, and pushes to where it does if that is one address. -/
theorem checkout_origin_partial (rs : List Remote) (hp : ∀ r ∈ rs, r.Plain) (hd : (rs.map (·.name)).Nodup) (r : Remote) (hr : r ∈ rs) (hn : r.name = ['o', 'r', 'i', 'g', 'i', 'n']) (p : Text) (h1 : r.pushes = [p]) :
    checkoutOrigin (rs.flatMap Remote.lines) = some (r.fetch, some p) := by
  rw [checkoutOrigin, remotes_read_partial rs hp hd]
  simp only
  induction rs with
  | nil => cases hr
  | cons x rs ih =>
    rw [List.map_cons, List.find?_cons]
    by_cases hx : x.name = tOrigin
    · cases hr with
      | head => simp only [hx, decide_true, Option.map_some, h1]; rfl
      | tail _ hr =>
        rw [List.map_cons, List.nodup_cons] at hd
        exact absurd (by rw [hx, show tOrigin = r.name from hn.symm]; exact List.mem_map_of_mem hr) hd.1
    · cases hr with
      | head => exact absurd hn hx
      | tail _ hr =>
        simp only [hx, decide_false]
        rw [List.map_cons, List.nodup_cons] at hd
        exact ih (fun y hy => hp y (List.mem_cons_of_mem _ hy)) hd.2 hr

/-- C242: the other function finds the same address to fetch from. -/
theorem fetch_same_partial (rs : List Remote) (hp : ∀ r ∈ rs, r.Plain) (hd : (rs.map (·.name)).Nodup) (r : Remote) (hr : r ∈ rs) (hn : r.name = ['o', 'r', 'i', 'g', 'i', 'n']) : remoteFetch (rs.flatMap Remote.lines) = some r.fetch := by
  rw [remoteFetch]
  induction rs with
  | nil => cases hr
  | cons x rs ih =>
    rw [List.flatMap_cons, List.findSome?_append, find_lines x (hp x List.mem_cons_self)]
    by_cases hx : x.name = tOrigin
    · rw [if_pos hx]
      cases hr with
      | head => rfl
      | tail _ hr =>
        rw [List.map_cons, List.nodup_cons] at hd
        exact absurd (by rw [hx, show tOrigin = r.name from hn.symm]; exact List.mem_map_of_mem hr) hd.1
    · rw [if_neg hx]
      cases hr with
      | head => exact absurd hn hx
      | tail _ hr =>
        rw [List.map_cons, List.nodup_cons] at hd
        exact ih (fun y hy => hp y (List.mem_cons_of_mem _ hy)) hd.2 hr

/-- C242: without a remote `origin` both give up. -/
theorem no_origin (rs : List Remote) (hp : ∀ r ∈ rs, r.Plain) (hd : (rs.map (·.name)).Nodup) (hn : ∀ r ∈ rs, r.name ≠ ['o', 'r', 'i', 'g', 'i', 'n']) : checkoutOrigin (rs.flatMap Remote.lines) = none ∧ remoteFetch (rs.flatMap Remote.lines) = none := by
  constructor
  · rw [checkoutOrigin, remotes_read_partial rs hp hd]
    simp only [Option.map_eq_none_iff, List.find?_eq_none]
    intro e he
    obtain ⟨r, hr, rfl⟩ := List.mem_map.1 he
    simp only [decide_eq_true_eq]
    exact hn r hr
  · rw [remoteFetch, List.findSome?_eq_none_iff]
    intro l hl
    obtain ⟨r, hr, hl⟩ := List.mem_flatMap.1 hl
    have := find_lines r (hp r hr)
    rw [if_neg (show ¬ r.name = tOrigin from hn r hr), List.findSome?_eq_none_iff] at this
    exact this l hl

/-- C242: a table that is returned has been read from the lines: names are told apart, every entry has its line for fetching, every address to push to its line for pushing, and no line is passed over. -/
theorem remotes_sound (ls : List Text) (t : Table) (h : getAllRemotes ls = some t) :
    (t.map (·.1)).Nodup ∧ (∀ e ∈ t, (∃ l ∈ ls, parseLine l = some (e.1, e.2.1, ['f', 'e', 't', 'c', 'h'])) ∧ ∀ p, e.2.2 = some p → ∃ l ∈ ls, parseLine l = some (e.1, p, ['p', 'u', 's', 'h'])) ∧
      ∀ l ∈ ls, ∃ n u m, parseLine l = some (n, u, m) ∧ (m = ['f', 'e', 't', 'c', 'h'] ∨ m = ['p', 'u', 's', 'h']) ∧ n ∈ t.map (·.1) := by
  have key : ∀ (ls pre : List Text) (t t' : Table), readAll ls t = some t' →
      ((t.map (·.1)).Nodup ∧ (∀ e ∈ t, (∃ l ∈ pre, parseLine l = some (e.1, e.2.1, tFetch)) ∧ ∀ p, e.2.2 = some p → ∃ l ∈ pre, parseLine l = some (e.1, p, tPush)) ∧
        ∀ l ∈ pre, ∃ n u m, parseLine l = some (n, u, m) ∧ (m = tFetch ∨ m = tPush) ∧ n ∈ t.map (·.1)) →
      ((t'.map (·.1)).Nodup ∧ (∀ e ∈ t', (∃ l ∈ pre ++ ls, parseLine l = some (e.1, e.2.1, tFetch)) ∧ ∀ p, e.2.2 = some p → ∃ l ∈ pre ++ ls, parseLine l = some (e.1, p, tPush)) ∧
        ∀ l ∈ pre ++ ls, ∃ n u m, parseLine l = some (n, u, m) ∧ (m = tFetch ∨ m = tPush) ∧ n ∈ t'.map (·.1)) := by
    intro ls
    induction ls with
    | nil => intro pre t t' h hi; cases h; rw [List.append_nil]; exact hi
    | cons l ls ih =>
      intro pre t t' h ⟨h1, h2, h3⟩
      simp only [readAll] at h
      split at h
      · cases h
      · rename_i n u m hl
        split at h
        · cases h
        · rename_i t1 ha
          have := ih (pre ++ [l]) t1 t' h
          rw [List.append_assoc] at this
          refine this ?_
          have hm : ∀ x, x ∈ pre → x ∈ pre ++ [l] := fun x hx => List.mem_append_left _ hx
          have hl' : l ∈ pre ++ [l] := List.mem_append_right _ List.mem_cons_self
          simp only [addLine] at ha
          split at ha
          · rename_i hf
            split at ha
            · cases ha
            · rename_i hh
              cases ha
              subst hf
              refine ⟨?_, ?_, ?_⟩
              · rw [List.map_append, List.nodup_append]
                refine ⟨h1, by simp, ?_⟩
                intro a ha b hb
                simp only [List.map_cons, List.map_nil, List.mem_singleton] at hb
                obtain ⟨e, he, rfl⟩ := List.mem_map.1 ha
                intro hab
                apply hh
                exact List.any_eq_true.2 ⟨e, he, by simp [hab, hb]⟩
              · intro e he
                rcases List.mem_append.1 he with he | he
                · obtain ⟨⟨a, ha, hb⟩, hq⟩ := h2 e he
                  refine ⟨⟨a, hm a ha, hb⟩, fun p hp => ?_⟩
                  obtain ⟨a, ha, hb⟩ := hq p hp
                  exact ⟨a, hm a ha, hb⟩
                · rw [List.mem_singleton] at he
                  subst he
                  exact ⟨⟨l, hl', hl⟩, fun p hp => by cases hp⟩
              · intro x hx
                rcases List.mem_append.1 hx with hx | hx
                · obtain ⟨n', u', m', e1, e2, e3⟩ := h3 x hx
                  exact ⟨n', u', m', e1, e2, by rw [List.map_append]; exact List.mem_append_left _ e3⟩
                · rw [List.mem_singleton] at hx
                  subst hx
                  exact ⟨n, u, tFetch, hl, Or.inl rfl, by simp⟩
          · split at ha
            · rename_i hf hp
              split at ha
              · rename_i hh
                cases ha
                subst hp
                have hnames : (t.map fun e => if e.1 = n then (e.1, e.2.1, some u) else e).map (·.1) = t.map (·.1) := by
                  rw [List.map_map]
                  refine List.map_congr_left ?_
                  intro e _
                  simp only [Function.comp]
                  split <;> rfl
                refine ⟨by rw [hnames]; exact h1, ?_, ?_⟩
                · intro e he
                  obtain ⟨e0, he0, rfl⟩ := List.mem_map.1 he
                  obtain ⟨⟨a, ha, hb⟩, hq⟩ := h2 e0 he0
                  split
                  · rename_i hn
                    refine ⟨⟨a, hm a ha, hb⟩, fun p hp => ?_⟩
                    cases hp
                    exact ⟨l, hl', by rw [hl, hn]⟩
                  · refine ⟨⟨a, hm a ha, hb⟩, fun p hp => ?_⟩
                    obtain ⟨a, ha, hb⟩ := hq p hp
                    exact ⟨a, hm a ha, hb⟩
                · intro x hx
                  rw [hnames]
                  rcases List.mem_append.1 hx with hx | hx
                  · exact h3 x hx
                  · rw [List.mem_singleton] at hx
                    subst hx
                    obtain ⟨e, he, hen⟩ := List.any_eq_true.1 hh
                    exact ⟨n, u, tPush, hl, Or.inr rfl, by simp only [decide_eq_true_eq] at hen; rw [← hen]; exact List.mem_map_of_mem he⟩
              · cases ha
            · cases ha
  have := key ls [] [] t h ⟨List.nodup_nil, fun _ h => (List.not_mem_nil h).elim, fun _ h => (List.not_mem_nil h).elim⟩
  exact this

/-- C242: of several addresses to push to only the last one is kept, so a push from the checkout does not reach the others. -/
theorem several_pushes_false (f p q : Text) (hf : Solid f) (hp : Solid p) (hq : Solid q) : checkoutOrigin (Remote.lines ⟨['o', 'r', 'i', 'g', 'i', 'n'], f, [p, q]⟩) = some (f, some q) := by
  have := remotes_read_partial [⟨tOrigin, f, [p, q]⟩] (by
    intro r hr
    rw [List.mem_singleton] at hr
    subst hr
    refine ⟨show Solid tOrigin from ⟨by decide, by decide⟩, hf, ?_⟩
    intro x hx
    simp only [List.mem_cons, List.not_mem_nil, or_false] at hx
    rcases hx with rfl | rfl
    · exact hp
    · exact hq) (by simp)
  simp only [List.flatMap_cons, List.flatMap_nil, List.append_nil] at this
  show checkoutOrigin (Remote.lines ⟨tOrigin, f, [p, q]⟩) = _
  rw [checkoutOrigin, this]
  rfl

/-- C242: a path with a blank is an address git accepts; the lines about it are not understood by the one function, and the other does not find it. -/
theorem blank_false : getAllRemotes (Remote.lines ⟨['o', 'r', 'i', 'g', 'i', 'n'], ['/', 'a', ' ', 'b'], [['/', 'a', ' ', 'b']]⟩) = none ∧ remoteFetch (Remote.lines ⟨['o', 'r', 'i', 'g', 'i', 'n'], ['/', 'a', ' ', 'b'], [['/', 'a', ' ', 'b']]⟩) = none := by
  decide

/-- C242: newer versions of git add the filter of a partial copy to the line; the one function dies of it, the other reads it. -/
theorem filter_false : ∃ l : Text, l = gitLine ['o', 'r', 'i', 'g', 'i', 'n'] ['/', 'a'] ['f', 'e', 't', 'c', 'h'] ++ [' ', '[', 'b', 'l', 'o', 'b', ':', 'n', 'o', 'n', 'e', ']'] ∧ getAllRemotes [l] = none ∧ remoteFetch [l] = some ['/', 'a'] :=
  ⟨_, rfl, by decide, by decide⟩

example : let r : Remote := ⟨['o', 'r', 'i', 'g', 'i', 'n'], ['/', 'a'], [['/', 'b']]⟩
    getAllRemotes (r.lines ++ Remote.lines ⟨['x'], ['/', 'c'], [['/', 'c']]⟩) = some [(r.name, ['/', 'a'], some ['/', 'b']), (['x'], ['/', 'c'], some ['/', 'c'])] := by decide

end Verif.DepVC.Remotes
