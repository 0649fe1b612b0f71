import Verif.Rng.Model
import Verif.Rng.Spec

namespace Verif.Rng

open Spec (Choices)

theorem swap_ok {α : Type} {l : List α} {i j : Nat} (hi : i < l.length) (hj : j < l.length) :
    swap l i j = .ok ((l.set i l[j]).set j l[i]) := by
  unfold swap
  rw [List.getElem?_eq_getElem hi, List.getElem?_eq_getElem hj]

theorem swap_facts {α : Type} {l l' : List α} {i j : Nat} (h : swap l i j = .ok l') :
    i < l.length ∧ j < l.length ∧ l'.length = l.length ∧ l'.Perm l ∧ l'[j]? = l[i]? ∧ l'[i]? = l[j]? ∧
      swap l' i j = .ok l := by
  have hi : i < l.length := by
    apply Classical.byContradiction; intro hn
    unfold swap at h
    rw [List.getElem?_eq_none (by omega)] at h
    simp at h
  have hj : j < l.length := by
    apply Classical.byContradiction; intro hn
    unfold swap at h
    rw [List.getElem?_eq_none (by omega : l.length ≤ j)] at h
    cases l[i]? <;> simp at h
  rw [swap_ok hi hj] at h
  cases h
  refine ⟨hi, hj, by simp, List.set_set_perm hi hj, ?_, ?_, ?_⟩
  · rw [List.getElem?_set_self (by simpa using hj), List.getElem?_eq_getElem hi]
  · by_cases hij : j = i
    · subst hij
      rw [List.getElem?_set_self (by simpa using hj), List.getElem?_eq_getElem hi]
    · rw [List.getElem?_set_ne hij, List.getElem?_set_self hi, List.getElem?_eq_getElem hj]
  · rw [swap_ok (by simpa using hi) (by simpa using hj)]
    congr 1
    apply List.ext_getElem?
    intro k
    by_cases hkj : k = j
    · subst hkj
      rw [List.getElem?_set_self (by simpa using hj)]
      by_cases hij : k = i
      · subst hij; simp [List.getElem_set]
      · rw [List.getElem_set_ne hij, List.getElem_set_self, List.getElem?_eq_getElem hj]
    · rw [List.getElem?_set_ne (Ne.symm hkj)]
      by_cases hki : k = i
      · subst hki
        rw [List.getElem?_set_self (by simpa using hi), List.getElem_set_self, List.getElem?_eq_getElem hi]
      · rw [List.getElem?_set_ne (Ne.symm hki), List.getElem?_set_ne (Ne.symm hkj), List.getElem?_set_ne (Ne.symm hki)]

theorem shuffleFrom_snoc {α : Type} (r : Nat) : ∀ (rs : List Nat) (i : Nat) (l : List α),
    shuffleFrom i (rs ++ [r]) l = (shuffleFrom i rs l >>= fun l => swap l (i + rs.length) r)
  | [], i, l => by
    show (swap l i r >>= fun l => .ok l) = _
    simp only [shuffleFrom, Res.bind_ok, List.length_nil, Nat.add_zero]
    cases swap l i r <;> rfl
  | s :: rs, i, l => by
    show (swap l i s >>= fun l => shuffleFrom (i + 1) (rs ++ [r]) l) = _
    simp only [shuffleFrom, Res.bind_assoc', List.length_cons]
    congr 1
    funext l'
    rw [shuffleFrom_snoc r rs (i + 1) l', show i + 1 + rs.length = i + (rs.length + 1) by omega]

theorem swap_append {α : Type} (l : List α) (a : α) {i j : Nat} (hi : i < l.length) (hj : j < l.length) :
    swap (l ++ [a]) i j = (swap l i j).map (· ++ [a]) := by
  rw [swap_ok hi hj, swap_ok (by simp; omega) (by simp; omega)]
  simp only [Res.map_ok]
  rw [List.getElem_append_left hi, List.getElem_append_left hj, List.set_append_left _ _ hi,
    List.set_append_left _ _ (by simpa using hj)]

theorem shuffleFrom_append {α : Type} (a : α) : ∀ (rs : List Nat) (i : Nat) (l : List α),
    i + rs.length ≤ l.length → (∀ (k c : Nat), rs[k]? = some c → c ≤ i + k) →
    shuffleFrom i rs (l ++ [a]) = (shuffleFrom i rs l).map (· ++ [a])
  | [], i, l, _, _ => rfl
  | r :: rs, i, l, hl, hc => by
    simp only [List.length_cons] at hl
    have h0 := hc 0 r rfl
    unfold shuffleFrom
    rw [swap_append l a (by omega) (by omega), swap_ok (by omega) (by omega)]
    simp only [Res.map_ok, Res.bind_ok]
    apply shuffleFrom_append a rs (i + 1)
    · simp; omega
    · intro k c h
      have := hc (k + 1) c (by simpa using h)
      omega

theorem choices_snoc {n : Nat} (hn : 0 < n) {cs : List Nat} :
    Choices (n + 1) cs ↔ ∃ ds c, cs = ds ++ [c] ∧ Choices n ds ∧ c ≤ n := by
  constructor
  · rintro ⟨hl, hc⟩
    have hne : cs ≠ [] := by intro h; subst h; simp at hl; omega
    refine ⟨cs.dropLast, cs.getLast hne, (List.dropLast_concat_getLast hne).symm, ⟨?_, ?_⟩, ?_⟩
    · rw [List.length_dropLast]; omega
    · intro i c h
      rw [List.getElem?_dropLast] at h
      split at h
      · exact hc i c h
      · simp at h
    · have := hc (cs.length - 1) (cs.getLast hne) (by rw [← List.getLast?_eq_getElem?, List.getLast?_eq_some_getLast hne])
      omega
  · rintro ⟨ds, c, rfl, ⟨hl, hc⟩, hle⟩
    refine ⟨by simp; omega, ?_⟩
    intro i d h
    by_cases hi : i < ds.length
    · rw [List.getElem?_append_left hi] at h
      exact hc i d h
    · rw [List.getElem?_append_right (by omega)] at h
      have : i - ds.length = 0 := by
        apply Classical.byContradiction; intro hne
        rw [List.getElem?_eq_none (by simp; omega)] at h
        simp at h
      rw [this] at h
      simp at h
      omega

/-- `shuffle` on one more element. -/
theorem shuffle_snoc {α : Type} {l : List α} (hne : l ≠ []) (a : α) {ds : List Nat} (hd : Choices l.length ds) (c : Nat) :
    shuffle (ds ++ [c]) (l ++ [a]) = ((shuffle ds l).map (· ++ [a]) >>= fun m => swap m l.length c) := by
  have hpos := List.length_pos_iff.2 hne
  unfold shuffle
  rw [shuffleFrom_snoc, shuffleFrom_append a ds 1 l (by have := hd.1; omega)
    (fun k c h => by have := hd.2 k c h; omega), show 1 + ds.length = l.length by have := hd.1; omega]

theorem shuffle_perm_aux {α : Type} : ∀ (n : Nat) (l : List α) (cs : List Nat), l.length = n → Choices n cs →
    ∃ l', shuffle cs l = .ok l' ∧ l'.Perm l := by
  intro n
  induction n with
  | zero =>
    intro l cs hl hc
    have : cs = [] := List.length_eq_zero_iff.1 (by have := hc.1; omega)
    subst this
    exact ⟨l, rfl, List.Perm.refl _⟩
  | succ n ih =>
    intro l cs hl hc
    by_cases hn : n = 0
    · subst hn
      have : cs = [] := List.length_eq_zero_iff.1 (by have := hc.1; omega)
      subst this
      exact ⟨l, rfl, List.Perm.refl _⟩
    · obtain ⟨ds, c, rfl, hd, hle⟩ := (choices_snoc (by omega)).1 hc
      have hne : l ≠ [] := by intro h; subst h; simp at hl
      have hl0 : l = l.dropLast ++ [l.getLast hne] := (List.dropLast_concat_getLast hne).symm
      have hlen : l.dropLast.length = n := by rw [List.length_dropLast]; omega
      obtain ⟨m, em, pm⟩ := ih l.dropLast ds hlen hd
      rw [hl0, shuffle_snoc (by intro h; rw [h] at hlen; simp at hlen; omega) _ (by rw [hlen]; exact hd), em, hlen,
        Res.map_ok, Res.bind_ok]
      have hmlen : m.length = n := by rw [pm.length_eq, hlen]
      rw [swap_ok (by simp; omega) (by simp; omega)]
      refine ⟨_, rfl, (List.set_set_perm _ _).trans (pm.append_right _)⟩

theorem shuffle_unique_aux {α : Type} : ∀ (n : Nat) (l t : List α), l.length = n → l.Nodup → t.Perm l →
    ∃ cs, (Choices n cs ∧ shuffle cs l = .ok t) ∧ ∀ cs', Choices n cs' ∧ shuffle cs' l = .ok t → cs' = cs := by
  intro n
  induction n with
  | zero =>
    intro l t hl _ hp
    have : l = [] := List.length_eq_zero_iff.1 hl
    subst this
    have : t = [] := hp.eq_nil
    subst this
    refine ⟨[], ⟨⟨rfl, by simp⟩, rfl⟩, ?_⟩
    rintro cs ⟨hc, _⟩
    exact List.length_eq_zero_iff.1 (by have := hc.1; omega)
  | succ n ih =>
    intro l t hl hnd hp
    by_cases hn : n = 0
    · subst hn
      obtain ⟨x, rfl⟩ := List.length_eq_one_iff.1 hl
      have : t = [x] := List.perm_singleton.1 hp
      subst this
      refine ⟨[], ⟨⟨rfl, by simp⟩, rfl⟩, ?_⟩
      rintro cs ⟨hc, _⟩
      exact List.length_eq_zero_iff.1 (by have := hc.1; omega)
    · have hne : l ≠ [] := by intro h; subst h; simp at hl
      have hlen : l.dropLast.length = n := by rw [List.length_dropLast]; omega
      have hdne : l.dropLast ≠ [] := by intro h; rw [h] at hlen; simp at hlen; omega
      obtain ⟨d, a, hl0⟩ : ∃ d a, l = d ++ [a] := ⟨_, _, (List.dropLast_concat_getLast hne).symm⟩
      subst hl0
      have hdl : d.length = n := by simpa using hl
      have hdne : d ≠ [] := by intro h; subst h; simp at hdl; omega
      have htl : t.length = n + 1 := by rw [hp.length_eq, hl]
      have htn : t.Nodup := hp.nodup_iff.2 hnd
      have hat : a ∈ t := hp.mem_iff.2 (by simp)
      obtain ⟨c, hc, hca⟩ := List.mem_iff_getElem.1 hat
      have hca? : t[c]? = some a := by rw [List.getElem?_eq_getElem hc, hca]
      -- undo the last swap
      have hsw := swap_ok (l := t) (i := n) (j := c) (by omega) (by omega)
      obtain ⟨_, _, hml, hmp, _, hmn, hback⟩ := swap_facts hsw
      generalize (t.set n t[c]).set c t[n] = m at hsw hml hmp hmn hback
      have hmne : m ≠ [] := by intro h; subst h; simp at hml; omega
      have hm0 : m = m.dropLast ++ [a] := by
        have : m.getLast hmne = a := by
          have h1 := List.getLast?_eq_some_getLast hmne
          rw [List.getLast?_eq_getElem?, hml, htl, Nat.add_sub_cancel, hmn, hca?] at h1
          exact (Option.some.inj h1).symm
        rw [← this]; exact (List.dropLast_concat_getLast hmne).symm
      have hmd : m.dropLast.Perm d := by
        have := hmp.trans hp
        rw [hm0] at this
        simpa using (List.perm_append_right_iff [a]).1 (by simpa using this)
      obtain ⟨ds, ⟨hds, eds⟩, huds⟩ := ih d m.dropLast hdl (List.nodup_append.1 hnd).1 hmd
      refine ⟨ds ++ [c], ⟨(choices_snoc (by omega)).2 ⟨ds, c, rfl, hds, by omega⟩, ?_⟩, ?_⟩
      · rw [shuffle_snoc hdne a (by rw [hdl]; exact hds), eds, Res.map_ok, Res.bind_ok, ← hm0, hdl, hback]
      · rintro cs' ⟨hcs', ecs'⟩
        obtain ⟨ds', c', rfl, hd', hc'⟩ := (choices_snoc (by omega)).1 hcs'
        rw [shuffle_snoc hdne a (by rw [hdl]; exact hd'), hdl] at ecs'
        obtain ⟨m', em', pm'⟩ := shuffle_perm_aux n d ds' hdl hd'
        rw [em', Res.map_ok, Res.bind_ok] at ecs'
        obtain ⟨_, _, _, _, hj, _, hb'⟩ := swap_facts ecs'
        have hm'l : m'.length = n := by rw [pm'.length_eq, hdl]
        rw [List.getElem?_append_right (by omega), hm'l, Nat.sub_self] at hj
        have hcc : c' = c := by
          have : t[c']? = t[c]? := by rw [hca?, hj]; rfl
          exact (List.getElem?_inj (by omega) htn).1 this
        subst hcc
        rw [hsw] at hb'
        have hmm : m' ++ [a] = m := by cases hb'; rfl
        have : m' = m.dropLast := by rw [← hmm]; simp
        rw [huds ds' ⟨hd', by rw [em', this]⟩]

end Verif.Rng
