import Verif.Hash.Unique
import Verif.CStr.Model

/-! # The string pool: memory, records, the invariant -/

namespace Verif.CStr

open Verif.Hash Verif.Str

/-! ## Memory -/

theorem read_length (mem : Nat → Byte) (off n : Nat) : (read mem off n).length = n := by simp [read]

theorem read_getElem? (mem : Nat → Byte) (off n k : Nat) : (read mem off n)[k]? = if k < n then some (mem (off + k)) else none := by
  unfold read
  rw [List.getElem?_map]
  by_cases h : k < n
  · rw [List.getElem?_range h, if_pos h]; rfl
  · rw [List.getElem?_eq_none (by simp; omega), if_neg h]; rfl

theorem read_congr {m m' : Nat → Byte} {off n : Nat} (h : ∀ i, off ≤ i → i < off + n → m i = m' i) : read m off n = read m' off n := by
  unfold read
  refine List.map_congr_left fun k hk => h _ (by omega) ?_
  have := List.mem_range.1 hk; omega

theorem blit_out {mem : Nat → Byte} {off : Nat} {l : Str} {i : Nat} (h : i < off ∨ off + l.length ≤ i) : blit mem off l i = mem i := by
  unfold blit
  split
  · rfl
  · rw [List.getElem?_eq_none (by omega)]

theorem blit_in {mem : Nat → Byte} {off : Nat} {l : Str} {k : Nat} (h : k < l.length) : blit mem off l (off + k) = l[k] := by
  unfold blit
  rw [if_neg (by omega), Nat.add_sub_cancel_left, List.getElem?_eq_getElem h]

theorem read_blit (mem : Nat → Byte) (off : Nat) (l : Str) : read (blit mem off l) off l.length = l := by
  refine List.ext_getElem? fun k => ?_
  rw [read_getElem?]
  by_cases h : k < l.length
  · rw [if_pos h, blit_in h, List.getElem?_eq_getElem h]
  · rw [if_neg h, List.getElem?_eq_none (by omega)]

theorem dec_congr {m m' : Nat → Byte} {off : Nat} (h : ∀ i, off ≤ i → i < off + 4 → m i = m' i) : dec m off = dec m' off := by
  unfold dec
  rw [h off (by omega) (by omega), h (off + 1) (by omega) (by omega), h (off + 2) (by omega) (by omega), h (off + 3) (by omega) (by omega)]

theorem dec_blit (mem : Nat → Byte) (off : Nat) {n : Nat} (h : n < 2 ^ 32) : dec (blit mem off (enc n)) off = n := by
  have h0 : blit mem off (enc n) off = Fin.ofNat 256 n := blit_in (k := 0) (by simp [enc])
  have h1 : blit mem off (enc n) (off + 1) = Fin.ofNat 256 (n / 256) := blit_in (k := 1) (by simp [enc])
  have h2 : blit mem off (enc n) (off + 2) = Fin.ofNat 256 (n / 65536) := blit_in (k := 2) (by simp [enc])
  have h3 : blit mem off (enc n) (off + 3) = Fin.ofNat 256 (n / 16777216) := blit_in (k := 3) (by simp [enc])
  unfold dec
  rw [h0, h1, h2, h3]
  simp only [Fin.ofNat]
  omega

/-- A record at `off` (where the text starts): length before, zero behind. -/
structure Rec (mem : Nat → Byte) (off : Nat) (t : Str) : Prop where
  four : 4 ≤ off
  len : dec mem (off - 4) = t.length
  text : read mem off t.length = t
  zero : mem (off + t.length) = 0

theorem rec_congr {m m' : Nat → Byte} {off : Nat} {t : Str} (hr : Rec m off t)
    (h : ∀ i, i < off + t.length + 1 → off ≤ i + 4 → m i = m' i) : Rec m' off t := by
  have := hr.four
  refine ⟨hr.four, ?_, ?_, ?_⟩
  · rw [← hr.len]; exact dec_congr fun i h1 h2 => (h i (by omega) (by omega)).symm
  · rw [← read_congr fun i h1 h2 => h i (by omega) (by omega)]; exact hr.text
  · rw [← h _ (by omega) (by omega)]; exact hr.zero

/-- What the three writes of a record do. -/
theorem rec_written (mem : Nat → Byte) (q : Nat) {t : Str} (h : t.length < 2 ^ 32) :
    Rec (blit (blit (blit mem q (enc t.length)) (q + 4) t) (q + 4 + t.length) [0]) (q + 4) t := by
  refine ⟨by omega, ?_, ?_, ?_⟩
  · rw [Nat.add_sub_cancel]
    rw [← dec_blit mem q h]
    refine dec_congr fun i h1 h2 => ?_
    rw [blit_out (by omega), blit_out (by omega)]
    rw [dec_blit mem q h]
  · rw [read_congr (m' := blit (blit mem q (enc t.length)) (q + 4) t) fun i h1 h2 => blit_out (by omega)]
    exact read_blit _ _ _
  · exact blit_in (k := 0) (by simp)

/-! ## Text through a pointer -/

def textOf (s : State) (p : Ptr) : Str := read (place s p).1 (place s p).2 (lenOf s p)

theorem textOf_rec {s : State} {p : Ptr} {t : Str} (h : Rec (place s p).1 (place s p).2 t) : textOf s p = t := by
  unfold textOf lenOf
  rw [h.len, h.text]

theorem hteEqual_iff (s : State) (a b : Ptr) : hteEqual s a b = true ↔ textOf s a = textOf s b := by
  unfold hteEqual textOf
  by_cases h : lenOf s a = lenOf s b
  · rw [if_neg (by simpa using h), decide_eq_true_eq, h]
  · rw [if_pos h]
    constructor
    · intro h'; cases h'
    · intro h'
      have := congrArg List.length h'
      rw [read_length, read_length] at this
      exact absurd this h

theorem hteEqual_eq (s : State) (a b : Ptr) : hteEqual s a b = decide (textOf s a = textOf s b) := by
  rw [Bool.eq_iff_iff, hteEqual_iff, decide_eq_true_eq]

theorem lawful (env : Env) (s : State) : Lawful (cfg env s) where
  refl a := (hteEqual_iff s a a).2 rfl
  symm a b h := (hteEqual_iff s b a).2 ((hteEqual_iff s a b).1 h).symm
  trans a b d h1 h2 := (hteEqual_iff s a d).2 (((hteEqual_iff s a b).1 h1).trans ((hteEqual_iff s b d).1 h2))
  hash a b h := congrArg env.hash ((hteEqual_iff s a b).1 h)
  full_zero n := by simp [cfg]

/-- The most strings the table can take. -/
def cap : Nat := 283301878

theorem fits (env : Env) (s : State) : Fits (cfg env s) cap :=
  ⟨by decide, fun k hk => by simp only [cfg, cap, decide_eq_false_iff_not] at *; omega⟩

/-- The table does not care about memory its entries do not point to. -/
theorem ur_congr {α : Type} {c c' : Cfg α} {t : Table α} {l : List α} {u : Bool} {n : Nat} (h : UR c t l u n)
    (hh : ∀ x ∈ l, c.hash x = c'.hash x) (he : ∀ x ∈ l, ∀ y ∈ l, c.eq x y = c'.eq x y) : UR c' t l u n := by
  obtain ⟨⟨bs, fl, hi, hp⟩, hd, hu, hb⟩ := h
  refine ⟨⟨bs, fl, ⟨hi.len, hi.chain, ?_, hi.free, hi.fsize, hi.perm, hi.cap, hi.nz⟩, hp⟩, ?_, hu, hb⟩
  · intro b l' hl p hpm
    rw [← hh p.2]
    · exact hi.hash b l' hl p hpm
    · rw [hp.mem_iff]
      exact List.mem_map_of_mem (List.mem_flatten.2 ⟨l', List.mem_of_getElem? hl, hpm⟩)
  · exact hd.imp_of_mem fun {x y} hx hy h => by rw [← he x hx y hy]; exact h

/-! ## The invariant -/

/-- `p` is a string of the pool with text `t`. -/
structure Good (s : State) (p : Ptr) (t : Str) : Prop where
  at' : ∃ b off buf, p = .at b off ∧ s.bufs[b]? = some buf ∧ Rec buf.mem off t ∧ off + t.length + 1 ≤ buf.used

structure R (env : Env) (s : State) (live : List (Ptr × Str)) : Prop where
  good : ∀ e ∈ live, Good s e.1 e.2
  bufs : ∀ b ∈ s.bufs, b.used ≤ b.size ∧ b.size = 524288
  nodup : (live.map (·.2)).Nodup
  table : ∃ u, UR (cfg env s) s.table (live.map (·.1)) u cap
  empty : ∀ p, s.empty = some p → (p, []) ∈ live

theorem Good.text {s : State} {p : Ptr} {t : Str} (h : Good s p t) : textOf s p = t := by
  obtain ⟨b, off, buf, rfl, hb, hr, _⟩ := h.at'
  refine textOf_rec ?_
  unfold place
  simp only [hb]
  exact hr

theorem Good.ptr_inj {s : State} {p : Ptr} {t t' : Str} (h : Good s p t) (h' : Good s p t') : t = t' := by
  rw [← h.text, ← h'.text]

/-- Two states in which the strings of the pool read the same. -/
theorem table_congr {env : Env} {s s' : State} {live : List (Ptr × Str)} {u : Bool} (h : UR (cfg env s) s.table (live.map (·.1)) u cap)
    (ht : s'.table = s.table) (hg : ∀ e ∈ live, Good s e.1 e.2) (hg' : ∀ e ∈ live, Good s' e.1 e.2) :
    UR (cfg env s') s'.table (live.map (·.1)) u cap := by
  rw [ht]
  have same : ∀ x ∈ live.map (·.1), textOf s x = textOf s' x := by
    intro x hx
    obtain ⟨e, he, rfl⟩ := List.mem_map.1 hx
    rw [(hg e he).text, (hg' e he).text]
  refine ur_congr h (fun x hx => ?_) (fun x hx y hy => ?_)
  · exact congrArg env.hash (same x hx)
  · show hteEqual s x y = hteEqual s' x y
    rw [hteEqual_eq, hteEqual_eq, same x hx, same y hy]

theorem write_ok {mem : Nat → Byte} {size off : Nat} {l : Str} (h : off + l.length ≤ size) : write mem size off l = .ok (blit mem off l) :=
  if_pos h

theorem fillInit_ok (env : Env) (s : State) {t : Str} (h : t.length < 2 ^ 32 - 5) :
    ∃ s', fillInit env s t t.length = .ok s' ∧ s'.bufs = s.bufs ∧ s'.table = s.table ∧ s'.empty = s.empty ∧ textOf s' .tmp = t := by
  obtain ⟨len, hlen⟩ : ∃ len, len = if s.initLen < (5 + t.length) % 2 ^ 32 then (5 + t.length) % 2 ^ 32 else s.initLen := ⟨_, rfl⟩
  obtain ⟨mem, hmem⟩ : ∃ mem, mem = if s.initLen < (5 + t.length) % 2 ^ 32 then env.junk s.bufs.length else s.init := ⟨_, rfl⟩
  have hroom : 5 + t.length ≤ len := by
    rw [hlen]
    split <;> omega
  unfold fillInit
  simp only []
  rw [← hlen, ← hmem]
  rw [write_ok (by simp [enc]; omega), Res.bind_ok, if_neg (by omega), List.take_length, write_ok (by omega), Res.bind_ok,
    write_ok (by simp; omega), Res.bind_ok]
  refine ⟨_, rfl, rfl, rfl, rfl, ?_⟩
  have := rec_written mem 0 (t := t) (by omega)
  simp only [Nat.zero_add] at this
  exact textOf_rec this

theorem good_bufs {s s' : State} (hb : s'.bufs = s.bufs) {p : Ptr} {t : Str} (h : Good s p t) : Good s' p t := by
  obtain ⟨b, off, buf, h1, h2, h3⟩ := h.at'
  exact ⟨b, off, buf, h1, by rw [hb]; exact h2, h3⟩

theorem good_append {s s' : State} {x : Buf} (hb : s'.bufs = s.bufs ++ [x]) {p : Ptr} {t : Str} (h : Good s p t) : Good s' p t := by
  obtain ⟨b, off, buf, h1, h2, h3⟩ := h.at'
  refine ⟨b, off, buf, h1, ?_, h3⟩
  rw [hb, List.getElem?_append_left (lt_of_getElem? h2)]
  exact h2

theorem r_fill {env : Env} {s s' : State} {live : List (Ptr × Str)} (h : R env s live) (h1 : s'.bufs = s.bufs) (h2 : s'.table = s.table)
    (h3 : s'.empty = s.empty) : R env s' live := by
  have hg : ∀ e ∈ live, Good s' e.1 e.2 := fun e he => good_bufs h1 (h.good e he)
  obtain ⟨u, hu⟩ := h.table
  exact ⟨hg, by rw [h1]; exact h.bufs, h.nodup, ⟨u, table_congr hu h2 h.good hg⟩, by rw [h3]; exact h.empty⟩

theorem r_grow {env : Env} {s : State} {live : List (Ptr × Str)} (h : R env s live) (mem : Nat → Byte) :
    R env { s with bufs := s.bufs ++ [⟨mem, 524288, 0⟩] } live := by
  have hg : ∀ e ∈ live, Good { s with bufs := s.bufs ++ [⟨mem, 524288, 0⟩] } e.1 e.2 := fun e he => good_append rfl (h.good e he)
  obtain ⟨u, hu⟩ := h.table
  refine ⟨hg, fun b hb => ?_, h.nodup, ⟨u, table_congr hu rfl h.good hg⟩, h.empty⟩
  rcases List.mem_append.1 hb with hb | hb
  · exact h.bufs b hb
  · rw [List.mem_singleton.1 hb]
    exact ⟨Nat.zero_le _, rfl⟩

theorem space_eq {n : Nat} (h : n < 2147483640) : spaceUsed n = ((n + 1 + 3) / 4 * 4 + 4 : Nat) := by
  unfold spaceUsed
  have e : ((n + 1) % 2 ^ 32 + (4 - (n + 1) % 2 ^ 32 % 4) % 4 + 4) = (n + 1 + 3) / 4 * 4 + 4 := by omega
  simp only [e]
  unfold int32
  rw [Int.bmod_def]
  split <;> omega

theorem findFit_some {space : Int} {bufs : List Buf} {i : Nat} (h : findFit space bufs = some i) :
    ∃ b, bufs[i]? = some b ∧ (b.size : Int) - b.used ≥ space := by
  unfold findFit at h
  rw [List.findIdx?_eq_some_iff_getElem] at h
  obtain ⟨hi, hp, _⟩ := h
  exact ⟨bufs[i], List.getElem?_eq_getElem hi, by simpa using hp⟩

theorem findFit_grow {space : Int} (h : space ≤ 524288) (bufs : List Buf) (mem : Nat → Byte) :
    ∃ i, findFit space (bufs ++ [⟨mem, 524288, 0⟩]) = some i := by
  cases hf : findFit space (bufs ++ [⟨mem, 524288, 0⟩]) with
  | some i => exact ⟨i, rfl⟩
  | none =>
    unfold findFit at hf
    rw [List.findIdx?_eq_none_iff] at hf
    have := hf ⟨mem, 524288, 0⟩ (by simp)
    simp at this
    omega

theorem find_none {env : Env} {s : State} {live : List (Ptr × Str)} (hg : ∀ e ∈ live, Good s e.1 e.2) {q : Ptr} {t : Str}
    (hq : textOf s q = t) : (live.map (·.1)).find? ((cfg env s).eq q) = none ↔ t ∉ live.map (·.2) := by
  rw [List.find?_eq_none]
  constructor
  · intro h hm
    obtain ⟨e, he, rfl⟩ := List.mem_map.1 hm
    refine h e.1 (List.mem_map_of_mem he) ?_
    rw [show (cfg env s).eq q e.1 = hteEqual s q e.1 from rfl, hteEqual_iff, hq, (hg e he).text]
  · intro h x hx
    obtain ⟨e, he, rfl⟩ := List.mem_map.1 hx
    rw [show (cfg env s).eq q e.1 = hteEqual s q e.1 from rfl, hteEqual_iff, hq, (hg e he).text]
    rintro rfl
    exact h (List.mem_map_of_mem he)

theorem find_some {env : Env} {s : State} {live : List (Ptr × Str)} (hg : ∀ e ∈ live, Good s e.1 e.2) {q x : Ptr} {t : Str}
    (hq : textOf s q = t) (h : (live.map (·.1)).find? ((cfg env s).eq q) = some x) : (x, t) ∈ live := by
  obtain ⟨e, he, rfl⟩ := List.mem_map.1 (List.mem_of_find?_eq_some h)
  have := List.find?_some h
  rw [show (cfg env s).eq q e.1 = hteEqual s q e.1 from rfl, hteEqual_iff, hq, (hg e he).text] at this
  rw [this]
  exact he

theorem store_ok {env : Env} {s : State} {live : List (Ptr × Str)} (h : R env s live) {t : Str} (hn : t ∉ live.map (·.2))
    (hlen : t.length < 2147483640) (hroom : live.length < cap) {i : Nat} (hi : findFit (spaceUsed t.length) s.bufs = some i) :
    ∃ s' p, store env s t t.length (spaceUsed t.length) i = .ok (s', p) ∧ R env s' ((p, t) :: live) := by
  obtain ⟨b, hb, hfit⟩ := findFit_some hi
  have hil := lt_of_getElem? hb
  have hsp := space_eq hlen
  rw [hsp] at hfit
  obtain ⟨hu, hsz⟩ := h.bufs b (List.mem_of_getElem? hb)
  have hused : (((b.used : Int) + spaceUsed t.length).toNat) = b.used + ((t.length + 1 + 3) / 4 * 4 + 4) := by rw [hsp]; omega
  obtain ⟨mem, hmem⟩ : ∃ mem, mem = blit (blit (blit b.mem b.used (enc t.length)) (b.used + 4) t) (b.used + 4 + t.length) [0] := ⟨_, rfl⟩
  obtain ⟨p, hp⟩ : ∃ p, p = Ptr.at i (b.used + 4) := ⟨_, rfl⟩
  obtain ⟨s1, hs1⟩ : ∃ s1 : State, s1 = { s with
      bufs := s.bufs.set i ⟨mem, b.size, b.used + ((t.length + 1 + 3) / 4 * 4 + 4)⟩
      empty := if t.length = 0 then some p else s.empty } := ⟨_, rfl⟩
  have hrec : Rec mem (b.used + 4) t := hmem ▸ rec_written b.mem b.used (by omega)
  have hsame : ∀ k, k < b.used → mem k = b.mem k := by
    intro k hk
    rw [hmem, blit_out (by omega), blit_out (by omega), blit_out (by omega)]
  have hb1 : s1.bufs[i]? = some ⟨mem, b.size, b.used + ((t.length + 1 + 3) / 4 * 4 + 4)⟩ := by
    rw [hs1]; exact List.getElem?_set_self hil
  have hgp : Good s1 p t := ⟨i, b.used + 4, _, hp, hb1, hrec, by simp only; omega⟩
  have hg : ∀ e ∈ live, Good s1 e.1 e.2 := by
    intro e he
    obtain ⟨b', off, buf, h1, h2, h3, h4⟩ := (h.good e he).at'
    by_cases hbi : b' = i
    · subst hbi
      rw [hb] at h2
      cases h2
      refine ⟨b', off, _, h1, hb1, rec_congr h3 fun k hk1 hk2 => (hsame k (by omega)).symm, by simp only; omega⟩
    · refine ⟨b', off, buf, h1, ?_, h3, h4⟩
      rw [hs1]
      show (s.bufs.set i _)[b']? = _
      rw [List.getElem?_set_ne (Ne.symm hbi)]
      exact h2
  obtain ⟨u, hu'⟩ := h.table
  have hur : UR (cfg env s1) s1.table (live.map (·.1)) u cap := table_congr hu' (by rw [hs1]) h.good hg
  obtain ⟨t', loc, ha, hur', _⟩ := ur_add (lawful env s1) hur (fits env s1) (by rw [List.length_map]; exact hroom) p
    ((find_none hg hgp.text).2 hn)
  refine ⟨{ s1 with table := t' }, p, ?_, ?_⟩
  · unfold store
    rw [rd_ok hb, Res.bind_ok, write_ok (by simp [enc]; omega), Res.bind_ok, if_neg (by omega), List.take_length,
      write_ok (by omega), Res.bind_ok, write_ok (by simp; omega), Res.bind_ok]
    simp only []
    rw [hused, ← hmem, ← hp, ← hs1, show s.table = s1.table by rw [hs1], ha, hs1]
    rfl
  · have hg2 : ∀ e ∈ (p, t) :: live, Good { s1 with table := t' } e.1 e.2 := by
      intro e he
      rcases List.mem_cons.1 he with rfl | he
      · exact good_bufs (s := s1) (s' := { s1 with table := t' }) rfl hgp
      · exact good_bufs (s := s1) (s' := { s1 with table := t' }) rfl (hg e he)
    refine ⟨hg2, ?_, ?_, ⟨true, hur'⟩, ?_⟩
    · intro x hx
      have hx' : x ∈ s.bufs.set i ⟨mem, b.size, b.used + ((t.length + 1 + 3) / 4 * 4 + 4)⟩ := by rw [hs1] at hx; exact hx
      rcases List.mem_or_eq_of_mem_set hx' with hx | rfl
      · exact h.bufs x hx
      · exact ⟨by simp only; omega, hsz⟩
    · rw [List.map_cons, List.nodup_cons]
      exact ⟨hn, h.nodup⟩
    · intro q hq
      have hq' : (if t.length = 0 then some p else s.empty) = some q := by rw [hs1] at hq; exact hq
      split at hq'
      · next h0 =>
        cases hq'
        rw [List.length_eq_zero_iff.1 h0]
        exact List.mem_cons_self
      · exact List.mem_cons_of_mem _ (h.empty q hq')

/-- The string is too long to be given a new buffer. -/
def Long (t : Str) : Prop := 8184 ≤ t.length

theorem aux_ok {env : Env} (fuel : Nat) {s : State} {live : List (Ptr × Str)} (h : R env s live) {t : Str}
    (hlen : t.length < 2147483640) (hroom : live.length < cap) :
    (∃ p s', initAux env (fuel + 2) s t t.length = .ok (s', p) ∧
      ((t ∈ live.map (·.2) ∧ (p, t) ∈ live ∧ R env s' live) ∨
       (t ∉ live.map (·.2) ∧ R env s' ((p, t) :: live) ∧ (Long t → (findFit (spaceUsed t.length) s.bufs).isSome)))) ∨
    (initAux env (fuel + 2) s t t.length = .abort ∧ t ∉ live.map (·.2) ∧ Long t ∧ findFit (spaceUsed t.length) s.bufs = none) := by
  have hsp := space_eq hlen
  rw [initAux]
  cases he : (if t.length = 0 then s.empty else none) with
  | some p =>
    left
    split at he
    · next h0 =>
      have ht := List.length_eq_zero_iff.1 h0
      subst ht
      have hm := h.empty p he
      exact ⟨p, s, rfl, .inl ⟨List.mem_map_of_mem (f := (·.2)) hm, hm, h⟩⟩
    · cases he
  | none =>
    simp only []
    obtain ⟨s1, e1, b1, t1, m1, x1⟩ := fillInit_ok env s (t := t) (by omega)
    have h1 : R env s1 live := r_fill h b1 t1 m1
    rw [e1, Res.bind_ok]
    obtain ⟨u, hu⟩ := h1.table
    rcases ur_lookup (lawful env s1) hu .tmp with ⟨hno, hl⟩ | ⟨x, loc, hyes, hl, hd, _⟩
    · have hn := (find_none h1.good x1).1 hno
      rw [hl, Res.bind_ok, ← b1]
      simp only []
      cases hf : findFit (spaceUsed t.length) s1.bufs with
      | some i =>
        obtain ⟨s2, p, e2, h2⟩ := store_ok h1 hn hlen hroom hf
        exact .inl ⟨p, s2, e2, .inr ⟨hn, h2, fun _ => rfl⟩⟩
      | none =>
        by_cases hlong : spaceUsed t.length < 8192
        · left
          have hnl : ¬ Long t := by unfold Long; rw [hsp] at hlong; omega
          rw [decide_eq_true hlong, Res.require_true, Res.bind_ok, initAux]
          have hg := r_grow h1 (env.junk s1.bufs.length)
          have hem : (if t.length = 0 then s1.empty else none) = none := by
            rw [m1]; exact he
          simp only [hem]
          obtain ⟨s3, e3, b3, t3, m3, x3⟩ := fillInit_ok env { s1 with bufs := s1.bufs ++ [⟨env.junk s1.bufs.length, 524288, 0⟩] } (t := t) (by omega)
          have h3 : R env s3 live := r_fill hg b3 t3 m3
          rw [e3, Res.bind_ok]
          obtain ⟨u3, hu3⟩ := h3.table
          rcases ur_lookup (lawful env s3) hu3 .tmp with ⟨hno3, hl3⟩ | ⟨x, loc, hyes3, _⟩
          · rw [hl3, Res.bind_ok]
            obtain ⟨i, hi⟩ := findFit_grow (show spaceUsed t.length ≤ 524288 by omega) s1.bufs (env.junk s1.bufs.length)
            have hi3 : findFit (spaceUsed t.length) s3.bufs = some i := by rw [b3]; exact hi
            simp only [hi3]
            obtain ⟨s4, p, e4, h4⟩ := store_ok h3 hn hlen hroom hi3
            exact ⟨p, s4, e4, .inr ⟨hn, h4, fun hl => absurd hl hnl⟩⟩
          · exact absurd (List.mem_map_of_mem (f := (·.2)) (find_some h3.good x3 hyes3)) hn
        · right
          rw [decide_eq_false hlong, Res.require_false, Res.bind_abort]
          exact ⟨rfl, hn, by unfold Long; rw [hsp] at hlong; omega, rfl⟩
    · left
      have hm := find_some h1.good x1 hyes
      rw [hl, Res.bind_ok]
      simp only [hd, Res.bind_ok]
      exact ⟨x, s1, rfl, .inl ⟨List.mem_map_of_mem (f := (·.2)) hm, hm, h1⟩⟩

theorem r_initial (env : Env) : R env (initial env) [] :=
  ⟨fun e he => (by cases he), fun b hb => (by cases hb), List.nodup_nil, ⟨false, (ur_empty _).mono (Nat.zero_le _)⟩,
    fun p hp => (by cases hp)⟩

/-! ## Reading -/

theorem Good.size {s : State} {p : Ptr} {t : Str} (h : Good s p t) (hb : ∀ b ∈ s.bufs, b.used ≤ b.size ∧ b.size = 524288) :
    size s p = .ok t.length := by
  obtain ⟨b, off, buf, rfl, h2, h3, h4⟩ := h.at'
  have := hb buf (List.mem_of_getElem? h2)
  unfold CStr.size
  simp only [h2]
  rw [if_pos ⟨h3.four, by omega⟩, h3.len]

theorem Good.read {s : State} {p : Ptr} {t : Str} (h : Good s p t) (hb : ∀ b ∈ s.bufs, b.used ≤ b.size ∧ b.size = 524288) {n : Nat}
    (hn : n ≤ t.length + 1) : readAt s p n = .ok ((t ++ [0]).take n) := by
  obtain ⟨b, off, buf, rfl, h2, h3, h4⟩ := h.at'
  have := hb buf (List.mem_of_getElem? h2)
  unfold readAt
  simp only [h2]
  rw [if_pos (by omega)]
  congr 1
  refine List.ext_getElem? fun k => ?_
  rw [read_getElem?, List.getElem?_take]
  by_cases hk : k < n
  · rw [if_pos hk, if_pos hk]
    by_cases hk2 : k < t.length
    · rw [List.getElem?_append_left hk2]
      have := congrArg (fun l => l[k]?) h3.text
      simp only [read_getElem?, if_pos hk2] at this
      exact this
    · have : k = t.length := by omega
      subst this
      rw [h3.zero]
      simp
  · rw [if_neg hk, if_neg hk]

end Verif.CStr
