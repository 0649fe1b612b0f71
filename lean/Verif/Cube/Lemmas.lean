import Verif.Cube.Spec
import Verif.Tuple.Props
import Verif.Hash.SetLemmas

/-! # Maps to pointers -/

namespace Verif.Cube

open Verif.Hash Verif.Tuple

section
variable {K S : Type} {m : MapCfg K (Option Nat)} {c : PMap K S} {items : List (K × S)} {n : Nat}

/-- What the table holds. -/
def toTable (x : K × Nat × S) : K × Option Nat := (x.1, some x.2.1)
/-- What it means. -/
def toItem (x : K × Nat × S) : K × S := (x.1, x.2.2)

/-- Each key has its own live object, and there is no other live object. -/
structure Live (heap : List (Option S)) (l : List (K × Nat × S)) : Prop where
  nodup : (l.map (·.2.1)).Nodup
  live : ∀ x ∈ l, heap[x.2.1]? = some (some x.2.2)
  all : ∀ p s, heap[p]? = some (some s) → ∃ x ∈ l, x.2.1 = p

def PR (m : MapCfg K (Option Nat)) (c : PMap K S) (items : List (K × S)) (n : Nat) : Prop :=
  ∃ (l : List (K × Nat × S)) (used : Bool), MapR m c.data ⟨l.map toTable, used⟩ n ∧ items = l.map toItem ∧ Live c.heap l

theorem pr_empty (m : MapCfg K (Option Nat)) (n : Nat) : PR m (PMap.empty : PMap K S) [] n :=
  ⟨[], false, (ur_empty m.cfg).mono (Nat.zero_le n), rfl, ⟨List.nodup_nil, by simp, by simp [PMap.empty]⟩⟩

theorem mget_toTable (ke : K → K → Bool) (l : List (K × Nat × S)) (k : K) :
    mget ke (l.map toTable) k = (l.find? (fun x => ke k x.1)).map (fun x => some x.2.1) := by
  unfold mget
  rw [List.find?_map, Option.map_map]
  rfl

theorem mget_toItem (ke : K → K → Bool) (l : List (K × Nat × S)) (k : K) :
    mget ke (l.map toItem) k = (l.find? (fun x => ke k x.1)).map (fun x => x.2.2) := by
  unfold mget
  rw [List.find?_map, Option.map_map]
  rfl

theorem pr_dist (h : PR m c items n) : items.Pairwise (fun x y => m.ke x.1 y.1 = false) := by
  obtain ⟨l, used, hR, rfl, _⟩ := h
  have hd := hR.dist
  rw [List.pairwise_map] at hd ⊢
  exact hd

theorem inj_of_nodup {β γ : Type} {f : β → γ} {l : List β} (h : (l.map f).Nodup) {x y : β} (hx : x ∈ l) (hy : y ∈ l) (he : f x = f y) : x = y := by
  induction l with
  | nil => cases hx
  | cons z zs ih =>
    rw [List.map_cons, List.nodup_cons] at h
    cases hx with
    | head =>
      cases hy with
      | head => rfl
      | tail _ hy => exact absurd (by rw [he]; exact List.mem_map_of_mem hy) h.1
    | tail _ hx =>
      cases hy with
      | head => exact absurd (by rw [← he]; exact List.mem_map_of_mem hx) h.1
      | tail _ hy => exact ih h.2 hx hy

theorem pr_update (ok : MapOk m) (hdv : m.dv = none) (h : PR m c items n) (hf : Fits m.cfg n) (hlt : items.length < n) (fresh : S) (k : K) (g : S → S) :
    ∃ c', update m fresh c k g = .ok c' ∧ PR m c' (mput m.ke items k (g ((mget m.ke items k).getD fresh))) n := by
  obtain ⟨l, used, hR, rfl, hL⟩ := h
  have hlt' : (l.map toTable : List (K × Option Nat)).length < n := by simpa using hlt
  obtain ⟨t', loc, x, e1, e2, hk, hx, hR', hst⟩ := map_index ok hR hf hlt' k
  simp only [] at hx hR' hst
  rw [mget_toTable] at hx hR'
  rw [mget_toItem]
  cases hfind : l.find? (fun x => m.ke k x.1) with
  | none =>
    rw [hfind] at hx
    simp only [Option.map_none, Option.getD_none] at hx ⊢
    rw [hdv] at hx
    obtain ⟨t'', e3, hR''⟩ := hst (some c.heap.length)
    have hput : mput m.ke (l.map toTable) k (some c.heap.length) = (k, some c.heap.length) :: l.map toTable := by
      unfold mput
      rw [mget_toTable, hfind]; rfl
    have hput' : mput m.ke (l.map toItem) k (g fresh) = (k, g fresh) :: l.map toItem := by
      unfold mput
      rw [mget_toItem, hfind]; rfl
    rw [hput] at hR''
    rw [hput']
    refine ⟨⟨t'', (c.heap ++ [some fresh]).set c.heap.length (some (g fresh))⟩, ?_, (k, c.heap.length, g fresh) :: l, true, hR'', rfl, ?_⟩
    · simp [update, getEntry, e1, e2, hx, e3, callAt, rdPtr]
    · have hset : (c.heap ++ [some fresh]).set c.heap.length (some (g fresh)) = c.heap ++ [some (g fresh)] := by
        rw [List.set_append_right _ _ (Nat.le_refl _)]; simp
      rw [hset]
      have hsmall : ∀ x ∈ l, x.2.1 < c.heap.length := fun x hx => lt_of_getElem? (hL.live x hx)
      refine ⟨?_, ?_, ?_⟩
      · rw [List.map_cons, List.nodup_cons]
        refine ⟨fun hm => ?_, hL.nodup⟩
        obtain ⟨y, hy, he⟩ := List.mem_map.1 hm
        have := hsmall y hy
        simp only [] at he
        omega
      · intro y hy
        rcases List.mem_cons.1 hy with rfl | hy
        · simp
        · rw [List.getElem?_append_left (hsmall y hy)]
          exact hL.live y hy
      · intro p s hp
        rcases Nat.lt_or_ge p c.heap.length with hpl | hpl
        · rw [List.getElem?_append_left hpl] at hp
          obtain ⟨y, hy, he⟩ := hL.all p s hp
          exact ⟨y, List.mem_cons_of_mem _ hy, he⟩
        · have := lt_of_getElem? hp
          rw [List.length_append, List.length_singleton] at this
          exact ⟨(k, c.heap.length, g fresh), List.mem_cons_self .., by simp only []; omega⟩
  | some y =>
    rw [hfind] at hx hR'
    simp only [Option.map_some, Option.getD_some, Option.isSome_some, if_true] at hx hR' ⊢
    have hy : y ∈ l := List.mem_of_find?_eq_some hfind
    have hky : m.ke k y.1 = true := by simpa using List.find?_some hfind
    have hlive := hL.live y hy
    have huniq : ∀ z ∈ l, m.ke k z.1 = true → z = y := by
      intro z hz hkz
      have hd := hR.dist
      rw [List.pairwise_map] at hd
      have hd' : l.Pairwise (fun a b => m.ke a.1 b.1 = false) := hd
      rcases List.pairwise_iff_getElem.1 hd' with hpw
      obtain ⟨i, hi, rfl⟩ := List.getElem_of_mem hz
      obtain ⟨j, hj, rfl⟩ := List.getElem_of_mem hy
      have hij : m.ke l[i].1 l[j].1 = true := ok.trans _ _ _ (ok.symm _ _ hkz) hky
      have hji : m.ke l[j].1 l[i].1 = true := ok.symm _ _ hij
      rcases Nat.lt_trichotomy i j with hlt | heq | hlt
      · rw [hpw i j hi hj hlt] at hij; cases hij
      · subst heq; rfl
      · rw [hpw j i hj hi hlt] at hji; cases hji
    refine ⟨⟨t', c.heap.set y.2.1 (some (g y.2.2))⟩, ?_, l.map (fun z => if m.ke k z.1 then (z.1, z.2.1, g y.2.2) else z), used, ?_, ?_, ?_⟩
    · simp [update, getEntry, e1, e2, hx, callAt, rdPtr, hlive]
    · rw [List.map_map]
      have : (toTable ∘ fun z : K × Nat × S => if m.ke k z.1 then (z.1, z.2.1, g y.2.2) else z) = toTable := by
        funext z
        simp only [Function.comp]
        split <;> rfl
      rw [this]
      exact hR'
    · unfold mput
      rw [mget_toItem, hfind]
      simp only [Option.map_some, Option.isSome_some, if_true, List.map_map]
      apply List.map_congr_left
      intro z hz
      simp only [Function.comp, toItem]
      by_cases hkz : m.ke k z.1 = true
      · rw [if_pos hkz]; simp only [hkz, if_true]
      · rw [if_neg hkz]; simp only [hkz]; rfl
    · have hptr : (l.map (fun z => if m.ke k z.1 then (z.1, z.2.1, g y.2.2) else z)).map (fun x => x.2.1) = l.map (fun x => x.2.1) := by
        rw [List.map_map]
        apply List.map_congr_left
        intro z _
        simp only [Function.comp]
        split <;> rfl
      have hyl := lt_of_getElem? hlive
      refine ⟨by rw [hptr]; exact hL.nodup, ?_, ?_⟩
      · intro w hw
        obtain ⟨z, hz, rfl⟩ := List.mem_map.1 hw
        by_cases hkz : m.ke k z.1 = true
        · rw [if_pos hkz]
          have := huniq z hz hkz
          subst this
          simp [hyl]
        · rw [if_neg hkz]
          have hne : y.2.1 ≠ z.2.1 := fun he => hkz (by
            have := inj_of_nodup hL.nodup hy hz he
            rw [← this]; exact hky)
          rw [List.getElem?_set_ne hne]
          exact hL.live z hz
      · intro p s hp
        have hp' : ∃ s', c.heap[p]? = some (some s') := by
          rw [List.getElem?_set] at hp
          split at hp
          · next he => subst he; exact ⟨_, hlive⟩
          · exact ⟨s, hp⟩
        obtain ⟨s', hp'⟩ := hp'
        obtain ⟨z, hz, he⟩ := hL.all p s' hp'
        refine ⟨_, List.mem_map_of_mem hz, ?_⟩
        split <;> exact he

theorem perm_map_split {β γ : Type} (φ : β → γ) : ∀ (l' : List γ) (l : List β), l'.Perm (l.map φ) → ∃ l2 : List β, l2.Perm l ∧ l' = l2.map φ
  | [], l, h => by
    have : l.map φ = [] := h.nil_eq.symm
    rw [List.map_eq_nil_iff] at this
    subst this
    exact ⟨[], .nil, rfl⟩
  | x :: xs, l, h => by
    have hx : x ∈ l.map φ := h.mem_iff.1 (List.mem_cons_self ..)
    obtain ⟨y, hy, rfl⟩ := List.mem_map.1 hx
    obtain ⟨a, b, rfl⟩ := List.append_of_mem hy
    have h2 : (φ y :: xs).Perm (φ y :: (a ++ b).map φ) := h.trans (by
      rw [List.map_append, List.map_cons, List.map_append]
      exact List.perm_middle)
    obtain ⟨l2, hp, he⟩ := perm_map_split φ xs (a ++ b) (List.Perm.cons_inv h2)
    exact ⟨y :: l2, (hp.cons y).trans List.perm_middle.symm, by rw [he]; rfl⟩

theorem visit_ok (heap : List (Option S)) : ∀ l : List (K × Nat × S), (∀ x ∈ l, heap[x.2.1]? = some (some x.2.2)) →
    visit heap (l.map toTable) = .ok (l.map toItem)
  | [], _ => rfl
  | x :: xs, h => by
    have ih := visit_ok heap xs (fun y hy => h y (List.mem_cons_of_mem _ hy))
    have hx := h x (List.mem_cons_self ..)
    simp [visit, rdPtr, toTable, toItem, hx] at ih ⊢
    rw [ih]
    simp

theorem pr_walk (h : PR m c items n) : ∃ l, pwalk c = .ok l ∧ l.Perm items := by
  obtain ⟨l, used, hR, rfl, hL⟩ := h
  obtain ⟨l', e, hp⟩ := ur_walk hR
  obtain ⟨l2, hp2, rfl⟩ := perm_map_split toTable l' l hp
  refine ⟨l2.map toItem, ?_, hp2.map _⟩
  simp [pwalk, e, visit_ok c.heap l2 (fun x hx => hL.live x (hp2.mem_iff.1 hx))]

theorem pr_size (h : PR m c items n) : size c.data = items.length := by
  obtain ⟨l, used, hR, rfl, hL⟩ := h
  rw [ur_size hR]; simp

/-- The stored keys, as the walk of the table gives them. -/
theorem pr_keys (h : PR m c items n) : ∃ l, walk c.data = .ok l ∧ (l.map (·.1)).Perm (items.map (·.1)) := by
  obtain ⟨l, used, hR, rfl, hL⟩ := h
  obtain ⟨l', e, hp⟩ := ur_walk hR
  refine ⟨l', e, ?_⟩
  have := hp.map (·.1)
  simp only [List.map_map] at this ⊢
  exact this

/-- Lookup of a key and reading behind the pointer. -/
theorem pr_lookup (ok : MapOk m) (h : PR m c items n) (k : K) :
    (mLookup m c.data k = .ok none ∧ mget m.ke items k = none) ∨
    ∃ p s, mLookup m c.data k = .ok (some p) ∧ rdPtr c.heap p = .ok s ∧ mget m.ke items k = some s := by
  obtain ⟨l, used, hR, rfl, hL⟩ := h
  have e := map_lookup ok hR k
  simp only [] at e
  rw [mget_toTable] at e
  rw [mget_toItem]
  cases hfind : l.find? (fun x => m.ke k x.1) with
  | none => rw [hfind] at e; exact .inl ⟨e, rfl⟩
  | some y =>
    rw [hfind] at e
    have := hL.live y (List.mem_of_find?_eq_some hfind)
    exact .inr ⟨some y.2.1, y.2.2, e, by simp [rdPtr, this], rfl⟩

/-! ## Deleting -/

theorem delAll_ok : ∀ (ps : List Nat) (heap : List (Option S)), ps.Nodup → (∀ p ∈ ps, ∃ s, heap[p]? = some (some s)) →
    ∃ heap', delAll heap (ps.map some) = .ok heap' ∧
      ∀ p s, heap'[p]? = some (some s) ↔ (heap[p]? = some (some s) ∧ p ∉ ps)
  | [], heap, _, _ => ⟨heap, rfl, by simp⟩
  | p :: ps, heap, hn, hl => by
    rw [List.nodup_cons] at hn
    obtain ⟨s, hs⟩ := hl p (List.mem_cons_self ..)
    have hne : ∀ q ∈ ps, p ≠ q := fun q hq he => hn.1 (he ▸ hq)
    obtain ⟨heap', e, h'⟩ := delAll_ok ps (heap.set p none) hn.2 (fun q hq => by
      rw [List.getElem?_set_ne (hne q hq)]
      exact hl q (List.mem_cons_of_mem _ hq))
    refine ⟨heap', by simp [delAll, delPtr, hs, e], fun q t => ?_⟩
    rw [h' q t]
    by_cases he : p = q
    · subst he
      rw [List.getElem?_set_self (lt_of_getElem? hs)]
      simp
    · rw [List.getElem?_set_ne he, List.mem_cons, not_or]
      constructor
      · rintro ⟨h1, h2⟩; exact ⟨h1, fun h => he h.symm, h2⟩
      · rintro ⟨h1, _, h2⟩; exact ⟨h1, h2⟩

theorem live_delete {heap heap' : List (Option S)} {l : List (K × Nat × S)} (hL : Live heap l) (gone : K × Nat × S → Bool) (ps : List Nat)
    (hps : ps.Perm ((l.filter gone).map (·.2.1)))
    (h : ∀ p s, heap'[p]? = some (some s) ↔ (heap[p]? = some (some s) ∧ p ∉ ps)) : Live heap' (l.filter (fun x => !gone x)) := by
  refine ⟨(List.filter_sublist.map _).nodup hL.nodup, fun x hx => ?_, fun p s hp => ?_⟩
  · rw [List.mem_filter] at hx
    rw [h]
    refine ⟨hL.live x hx.1, fun hm => ?_⟩
    obtain ⟨y, hy, he⟩ := List.mem_map.1 (hps.mem_iff.1 hm)
    rw [List.mem_filter] at hy
    have := inj_of_nodup hL.nodup hy.1 hx.1 he
    subst this
    simp [hy.2] at hx
  · obtain ⟨h1, h2⟩ := (h p s).1 hp
    obtain ⟨x, hx, he⟩ := hL.all p s h1
    refine ⟨x, List.mem_filter.2 ⟨hx, ?_⟩, he⟩
    cases hg : gone x with
    | false => rfl
    | true =>
      exfalso
      apply h2
      rw [hps.mem_iff]
      exact List.mem_map.2 ⟨x, List.mem_filter.2 ⟨hx, hg⟩, he⟩

theorem pr_prune (ok : MapOk m) (h : PR m c items n) (sel : K → Bool) :
    ∃ c', pprune m sel c = .ok c' ∧ PR m c' (items.filter (fun x => !sel x.1)) n := by
  obtain ⟨l, used, hR, rfl, hL⟩ := h
  obtain ⟨t', seen, e1, hR', h2, h3⟩ := ur_prune ok.lawful hR (fun p => sel p.1)
  have h3' : (seen.filter (fun p => sel p.1)).Perm ((l.filter (fun x => sel x.1)).map toTable) := by
    rw [List.filter_map] at h3
    exact h3
  obtain ⟨l2, hp2, he2⟩ := perm_map_split toTable _ _ h3'
  have hdel : (seen.filter (fun p => sel p.1)).map (·.2) = (l2.map (·.2.1)).map some := by
    rw [he2, List.map_map, List.map_map]; rfl
  have hps : (l2.map (·.2.1)).Perm ((l.filter (fun x => sel x.1)).map (·.2.1)) := hp2.map _
  obtain ⟨heap', e4, h4⟩ := delAll_ok (l2.map (·.2.1)) c.heap
    (hps.nodup_iff.2 ((List.filter_sublist.map _).nodup hL.nodup))
    (fun p hp => by
      obtain ⟨x, hx, he⟩ := List.mem_map.1 (hps.mem_iff.1 hp)
      rw [List.mem_filter] at hx
      exact ⟨x.2.2, he ▸ hL.live x hx.1⟩)
  refine ⟨⟨t', heap'⟩, ?_, l.filter (fun x => !sel x.1), used, ?_, ?_, live_delete hL (fun x => sel x.1) _ hps h4⟩
  · rw [← hdel] at e4
    simp [pprune, e1, e4]
  · have hR2 : UR m.cfg t' ((l.map toTable).filter fun y => !sel y.1) used n := hR'
    rw [List.filter_map] at hR2
    exact hR2
  · rw [List.filter_map]; rfl

theorem pr_clear (h : PR m c items n) : ∃ c', pclear c = .ok c' ∧ PR m c' [] n ∧ ∀ (p : Nat) (s : S), c'.heap[p]? ≠ some (some s) := by
  obtain ⟨l, used, hR, rfl, hL⟩ := h
  obtain ⟨l', e, hp⟩ := ur_walk hR
  obtain ⟨l2, hp2, rfl⟩ := perm_map_split toTable l' l hp
  have hps : (l2.map (·.2.1)).Perm (l.map (·.2.1)) := hp2.map _
  obtain ⟨heap', e4, h4⟩ := delAll_ok (l2.map (·.2.1)) c.heap (hps.nodup_iff.2 hL.nodup)
    (fun p hp => by
      obtain ⟨x, hx, he⟩ := List.mem_map.1 (hps.mem_iff.1 hp)
      exact ⟨x.2.2, he ▸ hL.live x hx⟩)
  have hdead : ∀ (p : Nat) (s : S), heap'[p]? ≠ some (some s) := by
    intro p s hp
    obtain ⟨h1, h2⟩ := (h4 p s).1 hp
    obtain ⟨x, hx, he⟩ := hL.all p s h1
    exact h2 (hps.mem_iff.2 (List.mem_map.2 ⟨x, hx, he⟩))
  refine ⟨⟨clear c.data, heap'⟩, ?_, ⟨[], false, ur_clear hR, rfl, ⟨List.nodup_nil, by simp, fun p s hp => absurd hp (hdead p s)⟩⟩, hdead⟩
  have : (l2.map toTable).map (fun x => x.2) = (l2.map (fun x => x.2.1)).map some := by
    rw [List.map_map, List.map_map]; rfl
  simp only [pclear, e, Res.bind_ok]
  rw [this, e4]
  rfl

/-! ## Sorting -/

theorem insertBy_perm {β : Type} (lt : β → β → Bool) (x : β) : ∀ l, (insertBy lt x l).Perm (x :: l)
  | [] => .refl _
  | y :: ys => by
    unfold insertBy
    split
    · exact ((insertBy_perm lt x ys).cons y).trans (List.Perm.swap x y ys)
    · exact .refl _

theorem sortBy_perm {β : Type} (lt : β → β → Bool) : ∀ l, (sortBy lt l).Perm l
  | [] => .refl _
  | x :: xs => (insertBy_perm lt x _).trans ((sortBy_perm lt xs).cons x)

/-- Sorting elements any two of which `cmp` compares as `R` does. -/
theorem insertBy_sorted {β : Type} {cmp : β → β → Bool} {R : β → β → Prop} {Q : β → Prop} (htr : ∀ a b c, Q a → Q b → Q c → R a b → R b c → R a c)
    (x : β) (hx : Q x) : ∀ l : List β, (∀ y ∈ l, Q y) → (∀ y ∈ l, (R x y ∧ cmp y x = false) ∨ (R y x ∧ cmp y x = true)) →
      l.Pairwise R → (insertBy cmp x l).Pairwise R
  | [], _, _, _ => by simp [insertBy]
  | y :: ys, hq, hc, hp => by
    rw [List.pairwise_cons] at hp
    unfold insertBy
    rcases hc y (List.mem_cons_self ..) with ⟨hxy, h⟩ | ⟨hyx, h⟩
    · rw [if_neg (by simp [h]), List.pairwise_cons]
      refine ⟨fun z hz => ?_, List.pairwise_cons.2 hp⟩
      rcases List.mem_cons.1 hz with rfl | hz
      · exact hxy
      · exact htr x y z hx (hq y (List.mem_cons_self ..)) (hq z (List.mem_cons_of_mem _ hz)) hxy (hp.1 z hz)
    · rw [if_pos h, List.pairwise_cons]
      refine ⟨fun z hz => ?_, insertBy_sorted htr x hx ys (fun z hz => hq z (List.mem_cons_of_mem _ hz))
        (fun z hz => hc z (List.mem_cons_of_mem _ hz)) hp.2⟩
      rcases List.mem_cons.1 ((insertBy_perm cmp x ys).mem_iff.1 hz) with rfl | hz
      · exact hyx
      · exact hp.1 z hz

theorem sortBy_sorted {β : Type} {cmp : β → β → Bool} {R : β → β → Prop} {Q : β → Prop} (htr : ∀ a b c, Q a → Q b → Q c → R a b → R b c → R a c) :
    ∀ l : List β, (∀ y ∈ l, Q y) → l.Pairwise (fun a b => (R a b ∧ cmp b a = false) ∨ (R b a ∧ cmp b a = true)) → (sortBy cmp l).Pairwise R
  | [], _, _ => .nil
  | x :: xs, hq, hc => by
    rw [List.pairwise_cons] at hc
    have hperm := sortBy_perm cmp xs
    exact insertBy_sorted htr x (hq x (List.mem_cons_self ..)) _ (fun y hy => hq y (List.mem_cons_of_mem _ (hperm.mem_iff.1 hy)))
      (fun y hy => hc.1 y (hperm.mem_iff.1 hy)) (sortBy_sorted htr xs (fun y hy => hq y (List.mem_cons_of_mem _ hy)) hc.2)

/-- `lt` is a strict order on the keys in use, any two different of which are comparable. -/
structure KeyOrder (ke lt : K → K → Bool) (Q : K → Prop) : Prop where
  asymm : ∀ a b, Q a → Q b → lt a b = true → lt b a = false
  trans : ∀ a b c, Q a → Q b → Q c → lt a b = true → lt b c = true → lt a c = true
  total : ∀ a b, Q a → Q b → ke a b = false → lt a b = true ∨ lt b a = true

theorem pr_walkOrdered {lt : K → K → Bool} {Q : K → Prop} (h : PR m c items n) (ko : KeyOrder m.ke lt Q) (hq : ∀ x ∈ items, Q x.1) :
    ∃ l, pwalkOrdered lt c = .ok l ∧ l.Perm items ∧ l.Pairwise fun x y => lt x.1 y.1 = true := by
  have hdist := pr_dist h
  obtain ⟨l, used, hR, rfl, hL⟩ := h
  obtain ⟨l', e, hp⟩ := ur_walk hR
  have hsp : (sortBy (pairLt lt) l').Perm (l.map toTable) := (sortBy_perm _ _).trans hp
  obtain ⟨l2, hp2, he2⟩ := perm_map_split toTable _ l hsp
  have hkeys : (l.map toItem).Pairwise (fun x y => lt x.1 y.1 = true ∨ lt y.1 x.1 = true) := by
    refine hdist.imp_of_mem ?_
    intro a b ha hb hab
    exact ko.total a.1 b.1 (hq a ha) (hq b hb) hab
  have hl' : l'.Pairwise (fun x y => lt x.1 y.1 = true ∨ lt y.1 x.1 = true) := by
    refine (hp.pairwise_iff (fun {x y} h => h.symm)).2 ?_
    rw [List.pairwise_map] at hkeys ⊢
    exact hkeys
  have hQ' : ∀ y ∈ l', Q y.1 := by
    intro y hy
    obtain ⟨x, hx, rfl⟩ := List.mem_map.1 (hp.mem_iff.1 hy)
    exact hq (toItem x) (List.mem_map_of_mem hx)
  have hsorted : (sortBy (pairLt lt) l').Pairwise (fun a b => lt a.1 b.1 = true) := by
    refine sortBy_sorted (Q := fun y => Q y.1) (fun a b c ha hb hc => ko.trans a.1 b.1 c.1 ha hb hc) l' hQ' (hl'.imp_of_mem ?_)
    intro a b ha hb h
    unfold pairLt
    rcases h with h | h
    · exact .inl ⟨h, by simp [h, ko.asymm _ _ (hQ' a ha) (hQ' b hb) h]⟩
    · exact .inr ⟨h, by simp [h]⟩
  rw [he2] at hsorted
  refine ⟨l2.map toItem, ?_, hp2.map _, ?_⟩
  · simp [pwalkOrdered, e, he2, visit_ok c.heap l2 (fun x hx => hL.live x (hp2.mem_iff.1 hx))]
  · rw [List.pairwise_map] at hsorted ⊢
    exact hsorted

end

end Verif.Cube
