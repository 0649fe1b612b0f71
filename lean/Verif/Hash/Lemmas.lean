import Verif.Hash.Model

/-! # HashTable: representation invariant and its preservation -/

namespace Verif.Hash

variable {α : Type}

/-- Requirements on the template parameters: `Equal` is an equivalence, the hash function
respects it, and `n >= target_chain_length * 0`. -/
structure Lawful (c : Cfg α) : Prop where
  refl : ∀ a, c.eq a a = true
  symm : ∀ a b, c.eq a b = true → c.eq b a = true
  trans : ∀ a b d, c.eq a b = true → c.eq b d = true → c.eq a d = true
  hash : ∀ a b, c.eq a b = true → c.hash a = c.hash b
  full_zero : ∀ n, c.full n 0 = true

/-- Slot and content. -/
abbrev Cell (α : Type) := Nat × α

/-- Starting at `o`, the links run through exactly the listed cells and end. -/
def IsChain (ch : List (Entry α)) : Option Nat → List (Cell α) → Prop
  | o, [] => o = none
  | o, p :: ps => o = some p.1 ∧ ∃ nx, ch[p.1]? = some ⟨p.2, nx⟩ ∧ IsChain ch nx ps

structure Inv (c : Cfg α) (t : Table α) (bs : List (List (Cell α))) (fl : List (Cell α)) : Prop where
  len : bs.length = t.entry.length
  chain : ∀ (b : Nat) (l : List (Cell α)), bs[b]? = some l → ∃ o, t.entry[b]? = some o ∧ IsChain t.chains o l
  hash : ∀ (b : Nat) (l : List (Cell α)), bs[b]? = some l → ∀ p ∈ l, c.hash p.2 % t.entry.length = b
  free : IsChain t.chains t.free fl
  fsize : t.freeSize = fl.length
  perm : (bs.flatten.map (·.1) ++ fl.map (·.1)).Perm (List.range t.chains.length)
  cap : t.entry.length ≤ 141650939
  nz : t.entry.length = 0 → t.chains.length = 0

/-! ## Vectors -/

theorem rd_ok {β : Type} {l : List β} {i : Nat} {v : β} (h : l[i]? = some v) : rd l i = .ok v := by
  simp [rd, h]

theorem wr_ok {β : Type} {l : List β} {i : Nat} (v : β) (h : i < l.length) : wr l i v = .ok (l.set i v) := by
  simp [wr, h]

theorem lt_of_getElem? {β : Type} {l : List β} {i : Nat} {v : β} (h : l[i]? = some v) : i < l.length := by
  rcases Nat.lt_or_ge i l.length with h' | h'
  · exact h'
  · rw [List.getElem?_eq_none h'] at h; cases h

theorem flatten_set {β : Type} (bs : List (List β)) (b : Nat) (l l' : List β) (h : bs[b]? = some l) :
    ((bs.set b l').flatten ++ l).Perm (bs.flatten ++ l') := by
  induction bs generalizing b with
  | nil => simp at h
  | cons x xs ih =>
    cases b with
    | zero =>
      simp only [List.getElem?_cons_zero, Option.some.injEq] at h
      subst h
      simp only [List.set_cons_zero, List.flatten_cons]
      have h1 : (l' ++ xs.flatten ++ x).Perm (x ++ (l' ++ xs.flatten)) := List.perm_append_comm
      have h2 : (x ++ (l' ++ xs.flatten)).Perm (x ++ (xs.flatten ++ l')) :=
        List.Perm.append_left x List.perm_append_comm
      rw [List.append_assoc x]
      exact h1.trans h2
    | succ b =>
      simp only [List.getElem?_cons_succ] at h
      simp only [List.set_cons_succ, List.flatten_cons, List.append_assoc]
      exact List.Perm.append_left x (ih b h)

theorem flatten_set_cons {β : Type} (bs : List (List β)) (b : Nat) (l : List β) (p : β) (h : bs[b]? = some l) :
    ((bs.set b (p :: l)).flatten).Perm (p :: bs.flatten) := by
  have := flatten_set bs b l (p :: l) h
  have h2 : (bs.flatten ++ p :: l).Perm (p :: bs.flatten ++ l) := by
    rw [List.cons_append]; exact List.perm_middle
  exact (List.perm_append_right_iff l).1 (this.trans h2)

theorem flatten_set_erase {β : Type} (bs : List (List β)) (b : Nat) (l1 l2 : List β) (p : β)
    (h : bs[b]? = some (l1 ++ p :: l2)) :
    (bs.flatten).Perm (p :: (bs.set b (l1 ++ l2)).flatten) := by
  have := flatten_set bs b _ (l1 ++ l2) h
  have h2 : ((bs.set b (l1 ++ l2)).flatten ++ (l1 ++ p :: l2)).Perm
      (p :: (bs.set b (l1 ++ l2)).flatten ++ (l1 ++ l2)) := by
    have h3 : (l1 ++ p :: l2).Perm (p :: (l1 ++ l2)) := List.perm_middle
    have h4 := List.Perm.append_left (bs.set b (l1 ++ l2)).flatten h3
    refine h4.trans ?_
    rw [List.cons_append]
    exact List.perm_middle
  exact (List.perm_append_right_iff _).1 (this.symm.trans h2)

theorem mem_flatten_of_getElem? {β : Type} {bs : List (List β)} {b : Nat} {l : List β} (h : bs[b]? = some l)
    {p : β} (hp : p ∈ l) : p ∈ bs.flatten :=
  List.mem_flatten.2 ⟨l, List.mem_of_getElem? h, hp⟩

/-! ## Chains -/

theorem IsChain.frame_set {ch : List (Entry α)} {i : Nat} {e : Entry α} : ∀ {l : List (Cell α)} {o : Option Nat},
    IsChain ch o l → i ∉ l.map (·.1) → IsChain (ch.set i e) o l := by
  intro l
  induction l with
  | nil => intro o h _; exact h
  | cons p ps ih =>
    intro o h hi
    obtain ⟨h1, nx, h2, h3⟩ := h
    simp only [List.map_cons, List.mem_cons, not_or] at hi
    refine ⟨h1, nx, ?_, ih h3 hi.2⟩
    rw [List.getElem?_set_ne hi.1]; exact h2

theorem IsChain.frame_append {ch : List (Entry α)} {e : Entry α} : ∀ {l : List (Cell α)} {o : Option Nat},
    IsChain ch o l → IsChain (ch ++ [e]) o l := by
  intro l
  induction l with
  | nil => intro o h; exact h
  | cons p ps ih =>
    intro o h
    obtain ⟨h1, nx, h2, h3⟩ := h
    refine ⟨h1, nx, ?_, ih h3⟩
    rw [List.getElem?_append_left (lt_of_getElem? h2)]; exact h2

theorem IsChain.get {ch : List (Entry α)} : ∀ {l : List (Cell α)} {o : Option Nat},
    IsChain ch o l → ∀ p ∈ l, ∃ nx, ch[p.1]? = some ⟨p.2, nx⟩ := by
  intro l
  induction l with
  | nil => intro o _ p hp; cases hp
  | cons q qs ih =>
    intro o h p hp
    obtain ⟨h1, nx, h2, h3⟩ := h
    rcases List.mem_cons.1 hp with rfl | hp
    · exact ⟨nx, h2⟩
    · exact ih h3 p hp

/-- Split a chain at a cell: the links up to it, the cell, the links after it. -/
theorem IsChain.split {ch : List (Entry α)} : ∀ {l1 : List (Cell α)} {o : Option Nat} {p : Cell α} {l2 : List (Cell α)},
    IsChain ch o (l1 ++ p :: l2) → ∃ nx, ch[p.1]? = some ⟨p.2, nx⟩ ∧ IsChain ch nx l2 := by
  intro l1
  induction l1 with
  | nil => intro o p l2 h; exact h.2
  | cons q qs ih => intro o p l2 h; obtain ⟨_, nx, _, h3⟩ := h; exact ih h3

/-- Unlinking the cell after `q`. -/
theorem IsChain.unlink {ch : List (Entry α)} : ∀ {l1 : List (Cell α)} {o : Option Nat} {q p : Cell α}
    {l2 : List (Cell α)} {nx nq : Option Nat},
    IsChain ch o (l1 ++ q :: p :: l2) → ((l1 ++ q :: p :: l2).map (·.1)).Nodup →
    ch[q.1]? = some ⟨q.2, nq⟩ → ch[p.1]? = some ⟨p.2, nx⟩ →
    IsChain (ch.set q.1 ⟨q.2, nx⟩) o (l1 ++ q :: l2) := by
  intro l1
  induction l1 with
  | nil =>
    intro o q p l2 nx nq h hn hq hp
    obtain ⟨h1, nx1, h2, h3, nx2, h4, h5⟩ := h
    rw [hp] at h4
    have e1 : nx = nx2 := by injection h4 with h4; injection h4
    subst e1
    refine ⟨h1, nx, ?_, ?_⟩
    · rw [List.getElem?_set_self (lt_of_getElem? hq)]
    · apply h5.frame_set
      simp only [List.nil_append, List.map_cons, List.nodup_cons, List.mem_cons, not_or] at hn
      exact hn.1.2
  | cons r rs ih =>
    intro o q p l2 nx nq h hn hq hp
    obtain ⟨h1, nx1, h2, h3⟩ := h
    simp only [List.cons_append, List.map_cons, List.nodup_cons] at hn
    refine ⟨h1, nx1, ?_, ih h3 hn.2 hq hp⟩
    rw [List.getElem?_set_ne]
    · exact h2
    · intro e
      apply hn.1
      rw [← e]; simp

/-- Replacing the content of one cell. -/
theorem IsChain.store {ch : List (Entry α)} {v : α} : ∀ {l1 : List (Cell α)} {o : Option Nat} {p : Cell α}
    {l2 : List (Cell α)} {nx : Option Nat},
    IsChain ch o (l1 ++ p :: l2) → ((l1 ++ p :: l2).map (·.1)).Nodup → ch[p.1]? = some ⟨p.2, nx⟩ →
    IsChain (ch.set p.1 ⟨v, nx⟩) o (l1 ++ (p.1, v) :: l2) := by
  intro l1
  induction l1 with
  | nil =>
    intro o p l2 nx h hn hp
    obtain ⟨h1, nx1, h2, h3⟩ := h
    rw [hp] at h2
    have e1 : nx = nx1 := by injection h2 with h2; injection h2
    subst e1
    refine ⟨h1, nx, ?_, ?_⟩
    · rw [List.getElem?_set_self (lt_of_getElem? hp)]
    · apply h3.frame_set
      simp only [List.nil_append, List.map_cons, List.nodup_cons] at hn
      exact hn.1
  | cons r rs ih =>
    intro o p l2 nx h hn hp
    obtain ⟨h1, nx1, h2, h3⟩ := h
    simp only [List.cons_append, List.map_cons, List.nodup_cons] at hn
    refine ⟨h1, nx1, ?_, ih h3 hn.2 hp⟩
    rw [List.getElem?_set_ne]
    · exact h2
    · intro e
      apply hn.1
      rw [← e]; simp

/-! ## Consequences of the invariant -/

section
variable {c : Cfg α} {t : Table α} {bs : List (List (Cell α))} {fl : List (Cell α)}

theorem Inv.nodup (h : Inv c t bs fl) : (bs.flatten.map (·.1) ++ fl.map (·.1)).Nodup :=
  h.perm.nodup_iff.2 List.nodup_range

theorem Inv.count (h : Inv c t bs fl) : bs.flatten.length + fl.length = t.chains.length := by
  have := h.perm.length_eq
  rwa [List.length_append, List.length_map, List.length_map, List.length_range] at this

theorem Inv.idx_lt (h : Inv c t bs fl) {p : Cell α} (hp : p ∈ bs.flatten) : p.1 < t.chains.length := by
  have : p.1 ∈ bs.flatten.map (·.1) ++ fl.map (·.1) :=
    List.mem_append_left _ (List.mem_map_of_mem hp)
  exact List.mem_range.1 (h.perm.mem_iff.1 this)

/-- Distinct buckets share no slot. -/
theorem nodup_flatten_bucket {bs : List (List (Cell α))} (hn : (bs.flatten.map (·.1)).Nodup) {b b' : Nat}
    {l l' : List (Cell α)} (h : bs[b]? = some l) (h' : bs[b']? = some l') (hb : b ≠ b') {i : Nat}
    (hi : i ∈ l.map (·.1)) : i ∉ l'.map (·.1) := by
  induction bs generalizing b b' with
  | nil => simp at h
  | cons x xs ih =>
    simp only [List.flatten_cons, List.map_append, List.nodup_append] at hn
    cases b with
    | zero =>
      cases b' with
      | zero => exact absurd rfl hb
      | succ b' =>
        simp only [List.getElem?_cons_zero, Option.some.injEq] at h
        subst h
        simp only [List.getElem?_cons_succ] at h'
        intro hi'
        obtain ⟨p, hp, hpe⟩ := List.mem_map.1 hi'
        exact hn.2.2 i hi i (by rw [← hpe]; exact List.mem_map_of_mem (mem_flatten_of_getElem? h' hp)) rfl
    | succ b =>
      cases b' with
      | zero =>
        simp only [List.getElem?_cons_zero, Option.some.injEq] at h'
        subst h'
        simp only [List.getElem?_cons_succ] at h
        intro hi'
        obtain ⟨p, hp, hpe⟩ := List.mem_map.1 hi
        exact hn.2.2 i hi' i (by rw [← hpe]; exact List.mem_map_of_mem (mem_flatten_of_getElem? h hp)) rfl
      | succ b' => exact ih hn.2.1 h h' (by omega)

theorem nodup_bucket {bs : List (List (Cell α))} (hn : (bs.flatten.map (·.1)).Nodup) {b : Nat}
    {l : List (Cell α)} (h : bs[b]? = some l) : (l.map (·.1)).Nodup := by
  have : l ∈ bs := List.mem_of_getElem? h
  exact (List.Sublist.map _ (List.sublist_flatten_of_mem this)).nodup hn

theorem Inv.nodup_live (h : Inv c t bs fl) : (bs.flatten.map (·.1)).Nodup := (List.nodup_append.1 h.nodup).1

theorem Inv.bucket (h : Inv c t bs fl) {b : Nat} (hb : b < t.entry.length) :
    ∃ l o, bs[b]? = some l ∧ t.entry[b]? = some o ∧ IsChain t.chains o l := by
  have hb' : b < bs.length := by rw [h.len]; exact hb
  have hl : bs[b]? = some bs[b] := List.getElem?_eq_getElem hb'
  obtain ⟨o, h1, h2⟩ := h.chain b _ hl
  exact ⟨_, o, hl, h1, h2⟩

theorem bucket_length_le {bs : List (List (Cell α))} {b : Nat} {l : List (Cell α)} (h : bs[b]? = some l) :
    l.length ≤ bs.flatten.length :=
  (List.sublist_flatten_of_mem (List.mem_of_getElem? h)).length_le

theorem Inv.bucket_length (h : Inv c t bs fl) {b : Nat} {l : List (Cell α)} (hl : bs[b]? = some l) :
    l.length ≤ t.chains.length := by
  have := bucket_length_le hl
  have := h.count
  omega

end

/-! ## lookup -/

theorem lookupLoop_ok (c : Cfg α) (key : α) (ch : List (Entry α)) : ∀ (l : List (Cell α)) (o : Option Nat) (fuel : Nat),
    IsChain ch o l → l.length < fuel →
    ∃ r, lookupLoop c key ch fuel o = .ok r ∧
      ((r = none ∧ ∀ p ∈ l, c.eq key p.2 = false) ∨
       ∃ l1 p l2, l = l1 ++ p :: l2 ∧ r = some p.1 ∧ c.eq key p.2 = true ∧ ∀ q ∈ l1, c.eq key q.2 = false) := by
  intro l
  induction l with
  | nil =>
    intro o fuel h hf
    cases fuel with
    | zero => omega
    | succ fuel =>
      simp only [IsChain] at h
      subst h
      exact ⟨none, rfl, Or.inl ⟨rfl, fun p hp => by cases hp⟩⟩
  | cons p ps ih =>
    intro o fuel h hf
    cases fuel with
    | zero => simp at hf
    | succ fuel =>
      obtain ⟨rfl, nx, h2, h3⟩ := h
      simp only [lookupLoop, rd_ok h2, Res.bind_ok]
      cases hk : c.eq key p.2 with
      | true =>
        refine ⟨some p.1, by simp, Or.inr ⟨[], p, ps, rfl, rfl, hk, fun q hq => by cases hq⟩⟩
      | false =>
        obtain ⟨r, e, hr⟩ := ih nx fuel h3 (by simp at hf; omega)
        refine ⟨r, by simpa using e, ?_⟩
        rcases hr with ⟨rfl, hr⟩ | ⟨l1, q, l2, rfl, rfl, hq, hl1⟩
        · left
          refine ⟨rfl, fun q hq => ?_⟩
          rcases List.mem_cons.1 hq with rfl | hq
          · exact hk
          · exact hr q hq
        · right
          refine ⟨p :: l1, q, l2, rfl, rfl, hq, fun q' hq' => ?_⟩
          rcases List.mem_cons.1 hq' with rfl | hq'
          · exact hk
          · exact hl1 q' hq'

section
variable {c : Cfg α} {t : Table α} {bs : List (List (Cell α))} {fl : List (Cell α)}

theorem not_eq_other_bucket (law : Lawful c) (h : Inv c t bs fl) (key : α) {l : List (Cell α)}
    (hl : bs[c.hash key % t.entry.length]? = some l) (hno : ∀ p ∈ l, c.eq key p.2 = false) :
    ∀ p ∈ bs.flatten, c.eq key p.2 = false := by
  intro p hp
  obtain ⟨l', hl', hp'⟩ := List.mem_flatten.1 hp
  obtain ⟨b, hb⟩ := List.getElem?_of_mem hl'
  cases he : c.eq key p.2 with
  | false => rfl
  | true =>
    have hh := h.hash b l' hb p hp'
    rw [← law.hash _ _ he] at hh
    rw [hh] at hl
    rw [hb] at hl
    injection hl with hl
    subst hl
    rw [hno p hp'] at he; exact he.symm

theorem lookup_ok (law : Lawful c) (h : Inv c t bs fl) (key : α) :
    ∃ r, lookup c t key = .ok r ∧
      ((r = none ∧ ∀ p ∈ bs.flatten, c.eq key p.2 = false) ∨
       ∃ l1 p l2, bs[c.hash key % t.entry.length]? = some (l1 ++ p :: l2) ∧ r = some p.1 ∧
         c.eq key p.2 = true ∧ ∀ q ∈ l1, c.eq key q.2 = false) := by
  by_cases h0 : t.entry.length = 0
  · refine ⟨none, by simp [lookup, h0], Or.inl ⟨rfl, ?_⟩⟩
    have := h.count
    have := h.nz h0
    have : bs.flatten = [] := List.length_eq_zero_iff.1 (by omega)
    rw [this]; intro p hp; cases hp
  · obtain ⟨l, o, hl, ho, hc⟩ := h.bucket (b := c.hash key % t.entry.length) (Nat.mod_lt _ (by omega))
    obtain ⟨r, e, hr⟩ := lookupLoop_ok c key t.chains l o (t.chains.length + 1) hc
      (by have := h.bucket_length hl; omega)
    refine ⟨r, ?_, ?_⟩
    · simp only [lookup, h0, if_false, rd_ok ho, Res.bind_ok]; exact e
    · rcases hr with ⟨rfl, hr⟩ | ⟨l1, q, l2, rfl, rfl, hq, hl1⟩
      · exact Or.inl ⟨rfl, not_eq_other_bucket law h key hl hr⟩
      · exact Or.inr ⟨l1, q, l2, hl, rfl, hq, hl1⟩

/-! ## add -/

/-- Push a cell whose slot is not on any chain in front of bucket `b`. -/
theorem push_chains {ch : List (Entry α)} {entry : List (Option Nat)} (hlen : bs.length = entry.length)
    (hch : ∀ (b : Nat) (l : List (Cell α)), bs[b]? = some l → ∃ o, entry[b]? = some o ∧ IsChain ch o l)
    {b : Nat} {l : List (Cell α)} {o : Option Nat} (hb : bs[b]? = some l) (ho : entry[b]? = some o)
    {i : Nat} {d : α} {ch' : List (Entry α)} (hget : ch'[i]? = some ⟨d, o⟩)
    (hframe : ∀ (o : Option Nat) (l : List (Cell α)), IsChain ch o l → l ∈ bs → IsChain ch' o l) :
    ∀ (b' : Nat) (l' : List (Cell α)), (bs.set b ((i, d) :: l))[b']? = some l' →
      ∃ o', (entry.set b (some i))[b']? = some o' ∧ IsChain ch' o' l' := by
  intro b' l' h'
  have hbl : b < bs.length := lt_of_getElem? hb
  by_cases hbb : b = b'
  · subst hbb
    rw [List.getElem?_set_self hbl] at h'
    injection h' with h'
    subst h'
    refine ⟨some i, by rw [List.getElem?_set_self (by omega)], rfl, o, hget, ?_⟩
    obtain ⟨o1, h1, h2⟩ := hch b l hb
    rw [ho] at h1; injection h1 with h1; subst h1
    exact hframe _ _ h2 (List.mem_of_getElem? hb)
  · rw [List.getElem?_set_ne hbb] at h'
    obtain ⟨o1, h1, h2⟩ := hch b' l' h'
    exact ⟨o1, by rw [List.getElem?_set_ne hbb]; exact h1, hframe _ _ h2 (List.mem_of_getElem? h')⟩

theorem push_hash {n : Nat} (hh : ∀ (b : Nat) (l : List (Cell α)), bs[b]? = some l → ∀ p ∈ l, c.hash p.2 % n = b)
    {b : Nat} {l : List (Cell α)} (hb : bs[b]? = some l) {i : Nat} {d : α} (hd : c.hash d % n = b) :
    ∀ (b' : Nat) (l' : List (Cell α)), (bs.set b ((i, d) :: l))[b']? = some l' → ∀ p ∈ l', c.hash p.2 % n = b' := by
  intro b' l' h' p hp
  by_cases hbb : b = b'
  · subst hbb
    rw [List.getElem?_set_self (lt_of_getElem? hb)] at h'
    injection h' with h'
    subst h'
    rcases List.mem_cons.1 hp with rfl | hp
    · exact hd
    · exact hh b l hb p hp
  · rw [List.getElem?_set_ne hbb] at h'
    exact hh b' l' h' p hp

theorem not_mem_of_sub {l : List (Cell α)} (hl : l ∈ bs) {i : Nat} (hi : i ∉ bs.flatten.map (·.1)) :
    i ∉ l.map (·.1) := by
  intro h
  obtain ⟨p, hp, hpe⟩ := List.mem_map.1 h
  exact hi (by rw [← hpe]; exact List.mem_map_of_mem (List.mem_flatten.2 ⟨l, hl, hp⟩))

end

/-! ## resize -/

theorem primeLoop_le (old : Nat) (h : old < 141650939) :
    ∃ p, primeLoop (fun p => decide (p ≤ old)) primes = .ok p ∧ old < p ∧ p ≤ 141650939 := by
  have key : ∀ (ps : List Nat), (∀ p ∈ ps, p ≠ 0 ∧ p ≤ 141650939) →
      ∃ p, primeLoop (fun p => decide (p ≤ old)) (ps ++ [141650939, 0]) = .ok p ∧ old < p ∧ p ≤ 141650939 := by
    intro ps
    induction ps with
    | nil =>
      intro _
      refine ⟨141650939, ?_, h, Nat.le_refl _⟩
      have : ¬ (141650939 ≤ old) := by omega
      simp [primeLoop, this]
    | cons p ps ih =>
      intro hps
      by_cases hp : p ≤ old
      · obtain ⟨q, h1, h2⟩ := ih (fun p hp => hps p (by simp [hp]))
        refine ⟨q, ?_, h2⟩
        have := (hps p (by simp)).1
        simp only [List.cons_append, primeLoop, hp, decide_true, if_true, this, ne_eq, not_false_eq_true,
          Res.require_true, Res.bind_ok]
        exact h1
      · refine ⟨p, by simp [primeLoop, hp], by omega, (hps p (by simp)).2⟩
  exact key [5, 23, 107, 433, 1543, 6091, 24281, 100169, 487651, 1179589, 2471093, 7368787, 32452843] (by decide)

theorem primeLoop_lt (want : Nat) (h : want ≤ 141650939) :
    ∃ p, primeLoop (fun p => decide (p < want)) primes = .ok p ∧ want ≤ p ∧ 5 ≤ p ∧ p ≤ 141650939 := by
  have key : ∀ (ps : List Nat), (∀ p ∈ ps, 5 ≤ p ∧ p ≤ 141650939) →
      ∃ p, primeLoop (fun p => decide (p < want)) (ps ++ [141650939, 0]) = .ok p ∧ want ≤ p ∧ 5 ≤ p ∧
        p ≤ 141650939 := by
    intro ps
    induction ps with
    | nil =>
      intro _
      refine ⟨141650939, ?_, h, by omega, Nat.le_refl _⟩
      have : ¬ (141650939 < want) := by omega
      simp [primeLoop, this]
    | cons p ps ih =>
      intro hps
      by_cases hp : p < want
      · obtain ⟨q, h1, h2⟩ := ih (fun p hp => hps p (by simp [hp]))
        refine ⟨q, ?_, h2⟩
        have := (hps p (by simp)).1
        have hne : p ≠ 0 := by omega
        simp only [List.cons_append, primeLoop, hp, decide_true, if_true, hne, ne_eq, not_false_eq_true,
          Res.require_true, Res.bind_ok]
        exact h1
      · refine ⟨p, by simp [primeLoop, hp], by omega, (hps p (by simp)).1, (hps p (by simp)).2⟩
  exact key [5, 23, 107, 433, 1543, 6091, 24281, 100169, 487651, 1179589, 2471093, 7368787, 32452843] (by decide)

/-- The relinking loop: the cells `i, i+1, ...` get pushed onto their buckets. -/
theorem rehashLoop_ok (c : Cfg α) (m : Nat) (hm : 0 < m) (ds : List α) : ∀ (n i : Nat) (entry : List (Option Nat)) (chains : List (Entry α)) (bs : List (List (Cell α))),
    i + n = chains.length → entry.length = m → bs.length = m →
    (∀ (j : Nat) (e : Entry α), chains[j]? = some e → ds[j]? = some e.data) → chains.length = ds.length →
    (∀ (b : Nat) (l : List (Cell α)), bs[b]? = some l → ∃ o, entry[b]? = some o ∧ IsChain chains o l) →
    (∀ (b : Nat) (l : List (Cell α)), bs[b]? = some l → ∀ p ∈ l, c.hash p.2 % m = b) →
    (∀ p ∈ bs.flatten, p.1 < i) →
    (bs.flatten).Perm ((ds.take i).zipIdx.map (fun x => (x.2, x.1))) →
    ∃ (entry' : List (Option Nat)) (chains' : List (Entry α)) (bs' : List (List (Cell α))), rehashLoop c m i entry chains n = .ok (entry', chains') ∧
      entry'.length = m ∧ bs'.length = m ∧ chains'.length = ds.length ∧
      (∀ (b : Nat) (l : List (Cell α)), bs'[b]? = some l → ∃ o, entry'[b]? = some o ∧ IsChain chains' o l) ∧
      (∀ (b : Nat) (l : List (Cell α)), bs'[b]? = some l → ∀ p ∈ l, c.hash p.2 % m = b) ∧
      (bs'.flatten).Perm (ds.zipIdx.map (fun x => (x.2, x.1))) := by
  intro n
  induction n with
  | zero =>
    intro i entry chains bs hi he hb hd hlen hch hh hlt hp
    refine ⟨entry, chains, bs, rfl, he, hb, hlen, hch, hh, ?_⟩
    rw [List.take_of_length_le (by omega)] at hp
    exact hp
  | succ n ih =>
    intro i entry chains bs hi he hb hd hlen hch hh hlt hp
    have hil : i < chains.length := by omega
    have hget : chains[i]? = some chains[i] := List.getElem?_eq_getElem hil
    have hmod : c.hash chains[i].data % m < m := Nat.mod_lt _ hm
    have hds : ds[i]? = some chains[i].data := hd i _ hget
    have hbl : bs[c.hash chains[i].data % m]? = some bs[c.hash chains[i].data % m] :=
      List.getElem?_eq_getElem (by omega)
    obtain ⟨o, ho, hoc⟩ := hch _ _ hbl
    have hel : c.hash chains[i].data % m < entry.length := by omega
    simp only [rehashLoop, rd_ok hget, rd_ok ho, wr_ok _ hil, wr_ok _ hel, Res.bind_ok]
    have hni : i ∉ bs.flatten.map (·.1) := by
      intro h
      obtain ⟨p, hp1, hp2⟩ := List.mem_map.1 h
      have := hlt p hp1
      omega
    have hperm : ((bs.set (c.hash chains[i].data % m) ((i, chains[i].data) :: bs[c.hash chains[i].data % m])).flatten).Perm
        ((i, chains[i].data) :: bs.flatten) := flatten_set_cons _ _ _ _ hbl
    apply ih (i + 1) _ _ (bs.set (c.hash chains[i].data % m) ((i, chains[i].data) :: bs[c.hash chains[i].data % m]))
    · rw [List.length_set]; omega
    · rw [List.length_set]; exact he
    · rw [List.length_set]; exact hb
    · intro j e hj
      by_cases hij : i = j
      · subst hij
        rw [List.getElem?_set_self hil] at hj
        injection hj with hj
        rw [← hj]; exact hds
      · rw [List.getElem?_set_ne hij] at hj
        exact hd j e hj
    · rw [List.length_set]; exact hlen
    · apply push_chains (by omega) hch hbl ho
      · rw [List.getElem?_set_self hil]
      · intro o' l' h1 h2
        exact h1.frame_set (not_mem_of_sub h2 hni)
    · exact push_hash hh hbl rfl
    · intro p hp'
      rcases List.mem_cons.1 (hperm.mem_iff.1 hp') with rfl | h
      · exact Nat.lt_succ_self i
      · have := hlt p h; omega
    · refine hperm.trans ?_
      have : ds.take (i + 1) = ds.take i ++ [chains[i].data] := by
        rw [List.take_succ, hds]; rfl
      rw [this, List.zipIdx_append, List.map_append]
      have hl : (ds.take i).length = i := by rw [List.length_take]; omega
      simp only [hl, Nat.zero_add, List.zipIdx_singleton, List.map_cons, List.map_nil]
      exact (List.Perm.cons _ hp).trans (List.perm_append_comm (l₁ := [(i, chains[i].data)]))

theorem map_fst_zipIdx (ds : List α) : (ds.zipIdx.map (fun x => (x.2, x.1))).map (·.1) = List.range ds.length := by
  rw [List.map_map]
  have : ((fun x : Nat × α => x.1) ∘ fun x : α × Nat => (x.2, x.1)) = Prod.snd := rfl
  rw [this, List.zipIdx_map_snd, List.range_eq_range']

theorem nodup_of_map {β γ : Type} (f : β → γ) {l : List β} (h : (l.map f).Nodup) : l.Nodup :=
  List.Pairwise.of_map f (fun _ _ hne e => hne (congrArg f e)) h

/-- A list of cells that covers all slots of `chains` and agrees with it is, up to order, the
whole slot vector. -/
theorem cells_perm (ds : List α) (l : List (Cell α)) (hp : (l.map (·.1)).Perm (List.range ds.length))
    (hget : ∀ p ∈ l, ds[p.1]? = some p.2) : l.Perm (ds.zipIdx.map (fun x => (x.2, x.1))) := by
  have hn : l.Nodup := by
    have := hp.nodup_iff.2 List.nodup_range
    exact nodup_of_map _ this
  have hn' : (ds.zipIdx.map (fun x => (x.2, x.1))).Nodup := by
    apply nodup_of_map (·.1)
    rw [map_fst_zipIdx]; exact List.nodup_range
  rw [List.perm_ext_iff_of_nodup hn hn']
  intro p
  constructor
  · intro h
    rw [List.mem_map]
    exact ⟨(p.2, p.1), List.mem_zipIdx_iff_getElem?.2 (hget p h), rfl⟩
  · intro h
    obtain ⟨x, hx, rfl⟩ := List.mem_map.1 h
    have hx' := List.mem_zipIdx_iff_getElem?.1 hx
    have : x.2 ∈ l.map (·.1) := hp.mem_iff.2 (List.mem_range.2 (lt_of_getElem? hx'))
    obtain ⟨q, hq, hqe⟩ := List.mem_map.1 this
    have := hget q hq
    rw [hqe, hx'] at this
    injection this with this
    have : q = (x.2, x.1) := Prod.ext hqe this.symm
    rw [← this]; exact hq

section
variable {c : Cfg α} {t : Table α} {bs : List (List (Cell α))} {fl : List (Cell α)}

theorem Inv.get_data (h : Inv c t bs fl) {p : Cell α} (hp : p ∈ bs.flatten) :
    ∃ nx, t.chains[p.1]? = some ⟨p.2, nx⟩ := by
  obtain ⟨l, hl, hpl⟩ := List.mem_flatten.1 hp
  obtain ⟨b, hb⟩ := List.getElem?_of_mem hl
  obtain ⟨o, _, h2⟩ := h.chain b l hb
  exact h2.get p hpl

theorem resize_ok (h : Inv c t bs []) (hcap : t.entry.length < 141650939) :
    ∃ t' bs', resize c t = .ok t' ∧ Inv c t' bs' [] ∧ bs'.flatten.Perm bs.flatten ∧
      t'.chains.length = t.chains.length ∧ t.entry.length < t'.entry.length ∧ t'.free = none := by
  have hfree : t.free = none := h.free
  have hfs : t.freeSize = 0 := h.fsize
  obtain ⟨m, hm1, hm2, hm3⟩ := primeLoop_le t.entry.length hcap
  have hent : List.replicate t.entry.length (none : Option Nat) ++
      (t.entry ++ List.replicate (m - t.entry.length) none).drop t.entry.length = List.replicate m none := by
    rw [List.drop_left, List.replicate_append_replicate]
    congr 1; omega
  obtain ⟨e', ch', bs', hr1, hr2, hr3, hr4, hr5, hr6, hr7⟩ :=
    rehashLoop_ok c m (by omega) (t.chains.map (·.data)) (t.chains.map fun e => { e with next := none }).length 0
      (List.replicate m none) (t.chains.map fun e => { e with next := none }) (List.replicate m [])
      (by omega) (by simp) (by simp)
      (by
        intro j e hj
        rw [List.getElem?_map] at hj
        rw [List.getElem?_map]
        cases hx : t.chains[j]? with
        | none => rw [hx] at hj; simp at hj
        | some x => rw [hx] at hj; simp at hj; subst hj; rfl)
      (by simp)
      (by
        intro b l hb
        rw [List.getElem?_replicate] at hb
        split at hb
        · rename_i hbm
          injection hb with hb; subst hb
          exact ⟨none, by rw [List.getElem?_replicate, if_pos hbm], rfl⟩
        · cases hb)
      (by
        intro b l hb
        rw [List.getElem?_replicate] at hb
        split at hb
        · injection hb with hb; subst hb; intro p hp; cases hp
        · cases hb)
      (by simp) (by simp)
  have hpre := cells_perm (t.chains.map (·.data)) bs.flatten
    (by simpa using h.perm)
    (by
      intro p hp
      obtain ⟨nx, hnx⟩ := h.get_data hp
      rw [List.getElem?_map, hnx]; rfl)
  have hpost := hr7.trans hpre.symm
  have hl : ch'.length = t.chains.length := by rw [hr4, List.length_map]
  refine ⟨{ t with entry := e', chains := ch' }, bs', ?_, ?_, hpost, hl, by simp only [hr2]; exact hm2, hfree⟩
  · simp only [resize, hfree, hfs, and_self, decide_true, Res.require_true, Res.bind_ok, hm1, hent, hr1, Res.pure_eq]
  · exact {
      len := by simp only [hr2, hr3]
      chain := hr5
      hash := by simp only [hr2]; exact hr6
      free := hfree
      fsize := hfs
      perm := by
        have := hpost.map (·.1)
        simp only [List.map_nil, List.append_nil, hl]
        exact this.trans (by simpa using h.perm)
      cap := by simp only [hr2]; exact hm3
      nz := by simp only [hr2]; intro h0; omega }

theorem maybeResize_ok (law : Lawful c) (h : Inv c t bs fl)
    (hroom : fl = [] → c.full t.chains.length 141650939 = false) :
    ∃ t' bs', maybeResize c t = .ok t' ∧ Inv c t' bs' fl ∧ bs'.flatten.Perm bs.flatten ∧
      t'.chains.length = t.chains.length ∧ 0 < t'.entry.length := by
  unfold maybeResize
  split
  · rename_i hc
    have hfl : fl = [] := by
      have := h.free
      rw [hc.1] at this
      cases fl with
      | nil => rfl
      | cons p ps => exact absurd this.1 (by simp)
    subst hfl
    have hlt : t.entry.length < 141650939 := by
      have := h.cap
      rcases Nat.lt_or_ge t.entry.length 141650939 with h' | h'
      · exact h'
      · have : t.entry.length = 141650939 := by omega
        rw [this, hroom rfl] at hc
        simp at hc
    obtain ⟨t', bs', h1, h2, h3, h4, h5, h6⟩ := resize_ok h hlt
    exact ⟨t', bs', h1, h2, h3, h4, by omega⟩
  · rename_i hc
    refine ⟨t, bs, rfl, h, List.Perm.refl _, rfl, ?_⟩
    rcases Nat.eq_zero_or_pos t.entry.length with h0 | h0
    · exfalso
      apply hc
      have hch := h.nz h0
      have hcount := h.count
      have hfl : fl = [] := List.length_eq_zero_iff.1 (by omega)
      subst hfl
      exact ⟨h.free, by rw [h0]; exact law.full_zero _⟩
    · exact h0

theorem add_ok (law : Lawful c) (h : Inv c t bs fl) (d : α)
    (hroom : fl = [] → c.full t.chains.length 141650939 = false) (hint : fl = [] → t.chains.length < 2147483648) :
    ∃ t' loc bs' fl', add c t d = .ok (t', loc) ∧ Inv c t' bs' fl' ∧
      bs'.flatten.Perm ((loc, d) :: bs.flatten) ∧
      ((fl = [] ∧ t'.chains.length = t.chains.length + 1) ∨ (fl ≠ [] ∧ t'.chains.length = t.chains.length)) := by
  obtain ⟨t1, bs1, hr, h1, hp1, hl1, hpos⟩ := maybeResize_ok law h hroom
  obtain ⟨l, o, hl, ho, hc⟩ := h1.bucket (b := c.hash d % t1.entry.length) (Nat.mod_lt _ hpos)
  have hmod : c.hash d % t1.entry.length < t1.entry.length := Nat.mod_lt _ hpos
  cases hfree : t1.free with
  | none =>
    have hfl : fl = [] := by
      have := h1.free
      rw [hfree] at this
      cases fl with
      | nil => rfl
      | cons p ps => exact absurd this.1 (by simp)
    subst hfl
    have hint := hint rfl
    have hni : t1.chains.length ∉ bs1.flatten.map (·.1) := by
      intro hm
      obtain ⟨p, hp, hpe⟩ := List.mem_map.1 hm
      have := h1.idx_lt hp
      omega
    have hperm := flatten_set_cons bs1 _ l (t1.chains.length, d) hl
    refine ⟨_, t1.chains.length, bs1.set (c.hash d % t1.entry.length) ((t1.chains.length, d) :: l), [],
      by
        simp only [add, hr, Res.bind_ok, hpos, gt_iff_lt, decide_true, Res.require_true, hfree]
        rw [if_neg (by omega)]
        simp only [rd_ok ho, wr_ok _ hmod, Res.bind_ok, Res.pure_eq]
        rfl, ?_, ?_, ?_⟩
    · exact {
        len := by simp only [List.length_set]; exact h1.len
        chain := by
          apply push_chains h1.len h1.chain hl ho
          · simp
          · intro o' l' hx _; exact hx.frame_append
        hash := by simp only [List.length_set]; exact push_hash h1.hash hl rfl
        free := rfl
        fsize := h1.fsize
        perm := by
          simp only [List.map_nil, List.append_nil, List.length_append, List.length_singleton, List.range_succ]
          refine (hperm.map (·.1)).trans ?_
          have hx : (bs1.flatten.map (·.1)).Perm (List.range t1.chains.length) := by simpa using h1.perm
          exact (List.Perm.cons _ hx).trans (List.perm_append_comm (l₁ := [t1.chains.length]))
        cap := by simp only [List.length_set]; exact h1.cap
        nz := by simp only [List.length_set]; intro h0; omega }
    · exact hperm.trans (List.Perm.cons _ hp1)
    · left; simp only [List.length_append, List.length_singleton]; exact ⟨trivial, by omega⟩
  | some loc =>
    obtain ⟨⟨q, fl', rfl, hq⟩⟩ : Nonempty (∃ q fl', fl = q :: fl' ∧ q.1 = loc) := by
      have := h1.free
      rw [hfree] at this
      cases fl with
      | nil => cases this
      | cons q fl' => exact ⟨q, fl', rfl, by have := this.1; injection this with this; exact this.symm⟩
    subst hq
    obtain ⟨_, nx, hgetq, hfch⟩ := h1.free
    have hqlt := lt_of_getElem? hgetq
    have hnd := h1.nodup
    have hni : q.1 ∉ bs1.flatten.map (·.1) := by
      intro hm
      exact (List.nodup_append.1 hnd).2.2 q.1 hm q.1 (by simp) rfl
    have hnf : q.1 ∉ fl'.map (·.1) := by
      have := (List.nodup_append.1 hnd).2.1
      simp only [List.map_cons, List.nodup_cons] at this
      exact this.1
    have hperm := flatten_set_cons bs1 _ l (q.1, d) hl
    refine ⟨_, q.1, bs1.set (c.hash d % t1.entry.length) ((q.1, d) :: l), fl',
      by
        simp only [add, hr, Res.bind_ok, hpos, gt_iff_lt, decide_true, Res.require_true, hfree, rd_ok hgetq,
          rd_ok ho, wr_ok _ hqlt, wr_ok _ hmod, Res.pure_eq]
        rfl, ?_, ?_, ?_⟩
    · exact {
        len := by simp only [List.length_set]; exact h1.len
        chain := by
          apply push_chains h1.len h1.chain hl ho
          · rw [List.getElem?_set_self hqlt]
          · intro o' l' hx hmem; exact hx.frame_set (not_mem_of_sub hmem hni)
        hash := by simp only [List.length_set]; exact push_hash h1.hash hl rfl
        free := hfch.frame_set hnf
        fsize := by have := h1.fsize; simp only [List.length_cons] at this; simp only [this]; omega
        perm := by
          simp only [List.length_set]
          refine List.Perm.trans ?_ h1.perm
          refine (List.Perm.append_right _ (hperm.map (·.1))).trans ?_
          simp only [List.map_cons, List.cons_append]
          exact List.perm_middle.symm
        cap := by simp only [List.length_set]; exact h1.cap
        nz := by simp only [List.length_set]; intro h0; omega }
    · exact hperm.trans (List.Perm.cons _ hp1)
    · right; simp only [List.length_set]; exact ⟨by simp, by omega⟩

end
end Verif.Hash
