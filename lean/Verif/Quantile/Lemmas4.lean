import Verif.Quantile.Lemmas3

/-! # Adding and merging -/

namespace Verif.Quantile

open Verif

variable {V : Type} [LinearOrder V]

theorem rd_mid {α : Type} (a : List α) (x : α) (b : List α) {i : Nat} (hi : i = a.length) : PQ.rd (a ++ x :: b) i = .ok x := by
  subst hi; simp [PQ.rd]

theorem set_mid {α : Type} (a : List α) (x y : α) (b : List α) {i : Nat} (hi : i = a.length) : (a ++ x :: b).set i y = a ++ y :: b := by
  subst hi; simp

theorem beginBuffer_ok (s : Sk V) {bs : List (Buf V)} (h : FullPart s bs) :
    ∃ s', beginBuffer s = .ok s' ∧ Shape s' bs [] ∧ Same s s' ∧ s'.pos = 0 ∧ s'.cur1 ≠ 0 ∧ s'.evenLow = s.evenLow ∧ s'.lo = s.lo ∧ s'.hi = s.hi := by
  obtain ⟨hB, hcur, hpos, fs, rest, hslots, hrest, hfs⟩ := h
  have hbl : bs.length = fs.length := hfs.length_eq.symm
  obtain ⟨x, rest', rfl⟩ := List.exists_cons_of_ne_nil hrest
  have hslen : s.slots.length = fs.length + 1 + rest'.length := by rw [hslots]; simp; omega
  have hn := hB.two
  have hi : s.cur1 - 1 = fs.length := by omega
  have hrd : PQ.rd s.slots (s.cur1 - 1) = .ok x := by rw [hslots]; exact rd_mid _ _ _ hi
  have hxm : x ∈ s.slots := by rw [hslots]; simp
  obtain ⟨hxb, hxn⟩ := hB.bufs x hxm
  -- the level
  obtain ⟨lv, hlevel, hl1, hl2⟩ : ∃ lv : Nat, (if s.cur1 = s.slots.length then do
        if s.cur1 = 1 then .ub
        else do
          let y ← PQ.rd s.slots (s.cur1 - 2)
          pure y.level
      else pure 0 : Res Int) = .ok (lv : Int) ∧ (rest' = [] → ∃ gs d, bs = gs ++ [d] ∧ d.lev = lv) ∧ (rest' ≠ [] → lv = 0) := by
    by_cases hr : rest' = []
    · subst hr
      simp only [List.length_nil] at hslen
      have hne : bs ≠ [] := by
        intro h0; rw [h0] at hbl; simp at hbl; omega
      have hbp := List.length_pos_iff.2 hne
      have hlt : fs.length - 1 < fs.length := by omega
      have hrel := (List.forall₂_iff_get.1 hfs).2 (fs.length - 1) hlt (by omega)
      refine ⟨(bs.getLast hne).lev, ?_, fun _ => ⟨bs.dropLast, bs.getLast hne, (List.dropLast_append_getLast hne).symm, rfl⟩, fun h => absurd rfl h⟩
      rw [if_pos (by omega), if_neg (by omega)]
      have : PQ.rd s.slots (s.cur1 - 2) = .ok fs[fs.length - 1] := by
        simp only [PQ.rd]
        rw [hslots, List.getElem?_append_left (by omega), show s.cur1 - 2 = fs.length - 1 by omega, List.getElem?_eq_getElem hlt]
      rw [this]
      simp only [Res.bind_ok, Res.pure_eq]
      have := hrel.level
      simp only [List.get_eq_getElem] at this
      rw [this]
      congr 3
      rw [List.getLast_eq_getElem]
      congr 1
      omega
    · have : 0 < rest'.length := List.length_pos_iff.2 hr
      refine ⟨0, ?_, fun h => absurd h hr, fun _ => rfl⟩
      rw [if_neg (by omega)]
      rfl
  set x' : Slot V := { x with buf := if s.lazy && x.buf.isNone then some (List.replicate s.size none) else x.buf, weight := 1, level := (lv : Int) } with hx'
  have hset : s.slots.set (s.cur1 - 1) x' = fs ++ x' :: rest' := by rw [hslots]; exact set_mid _ _ _ _ hi
  have hbuf : ∃ r, x'.buf = some r ∧ r.length = s.size := by
    cases hb : x.buf with
    | none =>
      refine ⟨List.replicate s.size none, ?_, by simp⟩
      simp [hx', hb, hxn hb]
    | some b => exact ⟨b, by simp [hx', hb], hxb b hb⟩
  obtain ⟨r, hr, hrl⟩ := hbuf
  refine ⟨{ s with slots := s.slots.set (s.cur1 - 1) x' }, ?_, ⟨⟨?_, hB.ten, ?_, hB.int, ?_⟩, Or.inr ⟨hcur, hpos, fs, x', rest', lv, hset, hfs, ?_, hl1, hl2⟩⟩,
    ⟨rfl, List.length_set .., rfl, rfl, rfl⟩, hpos, (by show s.cur1 ≠ 0; omega), rfl, rfl, rfl⟩
  · unfold beginBuffer
    have h1 : s.cur1 ≤ s.slots.length := by omega
    simp only [h1, decide_true, Res.require_true, Res.bind_ok]
    rw [if_neg (by omega), hrd]
    simp only [Res.bind_ok]
    rw [hlevel]
    rfl
  · show 1 < (s.slots.set _ _).length; rw [List.length_set]; exact hB.two
  · show (s.slots.set _ _).length ≤ s.size; rw [List.length_set]; exact hB.room
  · intro z hz
    have hz' : z ∈ fs ++ x' :: rest' := by rw [← hset]; exact hz
    show (∀ b, z.buf = some b → b.length = s.size) ∧ (z.buf = none → s.lazy = true)
    rcases List.mem_append.1 hz' with hz' | hz'
    · exact hB.bufs z (by rw [hslots]; exact List.mem_append_left _ hz')
    · rcases List.mem_cons.1 hz' with rfl | hz'
      · rw [hr]
        exact ⟨fun b hb => by rw [← Option.some.inj hb]; exact hrl, by simp⟩
      · exact hB.bufs z (by rw [hslots]; exact List.mem_append_right _ (List.mem_cons_of_mem _ hz'))
  · exact ⟨⟨r, by simpa using hr, by simpa using hrl⟩, fun _ => List.Pairwise.nil, rfl, rfl⟩

theorem putValue_ok (s : Sk V) {bs : List (Buf V)} {last : List V} (v : V) (hS : Shape s bs last) (hlt : s.pos < s.size) :
    ∃ s', putValue s v = .ok s' ∧ Shape s' bs (last ++ [v]) ∧ Same s s' ∧ s'.evenLow = s.evenLow ∧ s'.lo = s.lo ∧ s'.hi = s.hi := by
  obtain ⟨hB, h | ⟨hcur, hp, fs, x, rest, lv, hslots, hfs, hx, hlev, hlv0⟩⟩ := hS
  · omega
  · have hbl : bs.length = fs.length := hfs.length_eq.symm
    have hi : s.cur1 - 1 = fs.length := by omega
    obtain ⟨r, hb, hr⟩ := hx.buf
    obtain ⟨o, r', rfl⟩ : ∃ o r', r = o :: r' := by
      cases r with
      | nil => simp at hr; omega
      | cons o r' => exact ⟨o, r', rfl⟩
    have hwr : PQ.wr (last.map some ++ o :: r') s.pos (some v) = .ok ((last ++ [v]).map some ++ r') := by
      rw [PQ.wr_eq _ _ _ (by simp; omega)]
      rw [set_mid _ _ _ _ (by simp [hp])]
      simp
    set x' : Slot V := { x with buf := some ((last ++ [v]).map some ++ r'), sorted := false } with hx'
    have hset : s.slots.set (s.cur1 - 1) x' = fs ++ x' :: rest := by rw [hslots]; exact set_mid _ _ _ _ hi
    refine ⟨{ s with slots := s.slots.set (s.cur1 - 1) x', pos := s.pos + 1 }, ?_,
      ⟨⟨?_, hB.ten, ?_, hB.int, ?_⟩, Or.inr ⟨hcur, by simp [hp], fs, x', rest, lv, hset, hfs, ?_, hlev, hlv0⟩⟩, ⟨rfl, List.length_set .., rfl, rfl, rfl⟩, rfl, rfl, rfl⟩
    · unfold putValue
      rw [if_neg (by omega)]
      have : PQ.rd s.slots (s.cur1 - 1) = .ok x := by rw [hslots]; exact rd_mid _ _ _ hi
      rw [this]
      simp only [Res.bind_ok, hb, nonNull]
      rw [hwr]
      rfl
    · show 1 < (s.slots.set _ _).length; rw [List.length_set]; exact hB.two
    · show (s.slots.set _ _).length ≤ s.size; rw [List.length_set]; exact hB.room
    · intro z hz
      have hz' : z ∈ fs ++ x' :: rest := by rw [← hset]; exact hz
      show (∀ b, z.buf = some b → b.length = s.size) ∧ (z.buf = none → s.lazy = true)
      rcases List.mem_append.1 hz' with hz' | hz'
      · exact hB.bufs z (by rw [hslots]; exact List.mem_append_left _ hz')
      · rcases List.mem_cons.1 hz' with rfl | hz'
        · refine ⟨fun b hb => ?_, by simp [hx']⟩
          simp only [hx', Option.some.injEq] at hb
          rw [← hb]
          simp only [List.length_append, List.length_map, List.length_cons, List.length_nil] at hr ⊢
          omega
        · exact hB.bufs z (by rw [hslots]; exact List.mem_append_right _ (List.mem_cons_of_mem _ hz'))
    · exact ⟨⟨r', rfl, by simp at hr ⊢; omega⟩, by simp [hx'], hx.weight, hx.level⟩

/-- The state of a sketch that was given `vals`. -/
def Inv (s : Sk V) (vals : List V) (xl xh : Nat) : Prop :=
  ∃ bs last, Shape s bs last ∧ Ranks s bs last vals ∧ Tree s bs xl xh ∧ (bs ≠ [] → last ≠ [])

theorem tree_congr {s s' : Sk V} {bs : List (Buf V)} {xl xh : Nat} (hT : Tree s bs xl xh) (h : Same s s') (h1 : s'.evenLow = s.evenLow) (h2 : s'.lo = s.lo)
    (h3 : s'.hi = s.hi) : Tree s' bs xl xh := by
  unfold Tree at hT ⊢
  rw [h.len, h1, h2, h3]; exact hT

theorem countP_concat (p : V → Bool) (l : List V) (v : V) : (l ++ [v]).countP p = l.countP p + if p v then 1 else 0 := by
  rw [List.countP_append]; simp [List.countP_cons]

theorem addQuantile_ok (c : Consts V) (s : Sk V) {vals : List V} {xl xh : Nat} (v : V) (hI : Inv s vals xl xh) (hcount : s.count < 100000000000000) :
    ∃ s', addQuantile c s v = .ok s' ∧ Inv s' (vals ++ [v]) xl xh ∧ Same s s' := by
  obtain ⟨bs, last, hS, hR, hT, hne⟩ := hI
  -- room for the value
  obtain ⟨s1, bs1, last1, e1, hS1, hR1, hT1, hlt1, hsame1⟩ : ∃ s1 bs1 last1, (if s.pos ≥ s.size then do
      let s ← nextBuffer c s
      beginBuffer s
    else pure s : Res (Sk V)) = .ok s1 ∧ Shape s1 bs1 last1 ∧ Ranks s1 bs1 last1 vals ∧ Tree s1 bs1 xl xh ∧ s1.pos < s1.size ∧ Same s s1 := by
    by_cases hpos : s.pos ≥ s.size
    · rw [if_pos hpos]
      obtain ⟨s1, bs1, e1, hF, hR1, hT1, hsame⟩ := nextBuffer_ok c s hS hR hT hpos hcount
      obtain ⟨s2, e2, hS2, hsame2, hp2, _, g1, g2, g3⟩ := beginBuffer_ok s1 hF
      refine ⟨s2, bs1, [], by rw [e1]; simp only [Res.bind_ok]; exact e2, hS2, ?_, tree_congr hT1 hsame2 g1 g2 g3, ?_, hsame.trans hsame2⟩
      · exact ⟨by rw [hsame2.size]; exact hR1.total, by rw [g3]; exact hR1.upper, by rw [g2]; exact hR1.lower, hR1.memF, hR1.memL⟩
      · rw [hp2]; have := hS2.1.ten; omega
    · rw [if_neg hpos]
      exact ⟨s, bs, last, rfl, hS, hR, hT, by omega, Same.refl s⟩
  obtain ⟨s', e2, hS', hsame', g1, g2, g3⟩ := putValue_ok s1 v hS1 hlt1
  refine ⟨s', ?_, ⟨bs1, last1 ++ [v], hS', ⟨?_, fun p hp => ?_, fun p hp => ?_, ?_, ?_⟩, tree_congr hT1 hsame' g1 g2 g3, fun _ => by simp⟩, hsame1.trans hsame'⟩
  · unfold addQuantile
    rw [e1]
    simp only [Res.bind_ok]
    exact e2
  · have := hR1.total
    rw [hsame'.size, List.length_append, List.length_append, List.length_singleton]; omega
  · have := hR1.upper p hp
    rw [g3, countP_concat, countP_concat]; omega
  · have := hR1.lower p hp
    rw [g2, countP_concat, countP_concat]; omega
  · intro d hd w hw
    exact List.mem_append_left _ (hR1.memF d hd w hw)
  · intro w hw
    rcases List.mem_append.1 hw with hw | hw
    · exact List.mem_append_left _ (hR1.memL w hw)
    · exact List.mem_append_right _ hw

theorem addQuantiles_ok (c : Consts V) {xl xh : Nat} : ∀ (vs : List V) (s : Sk V) {vals : List V}, Inv s vals xl xh → s.count < 100000000000000 →
    ∃ s', addQuantiles c s vs = .ok s' ∧ Inv s' (vals ++ vs) xl xh ∧ Same s s'
  | [], s, vals, hI, _ => ⟨s, rfl, by rw [List.append_nil]; exact hI, Same.refl s⟩
  | v :: vs, s, vals, hI, hc => by
    obtain ⟨s1, e1, hI1, hs1⟩ := addQuantile_ok c s v hI hc
    obtain ⟨s2, e2, hI2, hs2⟩ := addQuantiles_ok c vs s1 hI1 (by rw [hs1.count]; exact hc)
    refine ⟨s2, ?_, ?_, hs1.trans hs2⟩
    · rw [addQuantiles, e1]
      simp only [Res.bind_ok]
      exact e2
    · rw [List.append_assoc] at hI2; exact hI2

/-- The invariant does not look at the count. -/
theorem Inv.count {s : Sk V} {vals : List V} {xl xh : Nat} (h : Inv s vals xl xh) (n : Nat) : Inv { s with count := n } vals xl xh := by
  obtain ⟨bs, last, ⟨hB, hS⟩, hR, hT, hne⟩ := h
  exact ⟨bs, last, ⟨⟨hB.two, hB.ten, hB.room, hB.int, hB.bufs⟩, hS⟩, ⟨hR.total, hR.upper, hR.lower, hR.memF, hR.memL⟩, hT, hne⟩

/-! ## Merging -/

theorem expandFull_ok {k : Nat} : ∀ {fs : List (Slot V)} {bs : List (Buf V)}, List.Forall₂ (IsFull k) fs bs →
    expandFull k fs = .ok (bs.flatMap fun d => d.vals.flatMap fun v => List.replicate d.wt v)
  | [], [], _ => rfl
  | x :: fs, d :: bs, h => by
    obtain ⟨h1, h2⟩ := List.forall₂_cons.1 h
    have hlen : k ≤ (d.vals.map some).length := by rw [List.length_map, h1.len]
    have htk : (d.vals.map some).take k = d.vals.map some := List.take_of_length_le (by rw [List.length_map, h1.len])
    rw [expandFull, h1.buf]
    simp only [nonNull, Res.bind_ok, hlen, if_true, htk, cells_map, expandFull_ok h2, h1.weight, Int.toNat_natCast, List.flatMap_cons]
    rfl

theorem expandLast_ok {k : Nat} {x : Slot V} {last : List V} {lv : Nat} (h : IsLast k x last lv) : expandLast last.length x = .ok last := by
  obtain ⟨r, hb, hr⟩ := h.buf
  have h1 : (last.map some ++ r).take last.length = last.map some := by rw [List.take_append_of_le_length (by simp)]; simp
  have h2 : last.length ≤ (last.map some ++ r).length := by simp
  unfold expandLast
  simp only [hb, nonNull, Res.bind_ok, h2, if_true, h1, cells_map, h.weight, Res.pure_eq]
  congr 1
  simp

theorem countP_expand (p : V → Bool) : ∀ bs : List (Buf V), (bs.flatMap fun d => d.vals.flatMap fun v => List.replicate d.wt v).countP p = wrk p bs
  | [] => rfl
  | d :: bs => by
    rw [List.flatMap_cons, List.countP_append, countP_expand p bs]
    have : ∀ l : List V, (l.flatMap fun v => List.replicate d.wt v).countP p = d.wt * l.countP p := by
      intro l
      induction l with
      | nil => simp
      | cons v l ih =>
        rw [List.flatMap_cons, List.countP_append, ih, List.countP_replicate, List.countP_cons]
        split <;> ring
    rw [this]; simp [wrk]

theorem copySlots_ok {k : Nat} {lz : Bool} (xs : List (Slot V)) (hxs : ∀ x ∈ xs, (∀ b, x.buf = some b → b.length = k) ∧ (x.buf = none → lz = true)) :
    ∀ (ys rest : List (Slot V)) (m : Nat), m = ys.length → (∀ y ∈ ys, ∃ b, y.buf = some b ∧ b.length = k) → m ≤ xs.length →
    copySlots k m xs (ys ++ rest) = .ok (ys ++ xs.drop m) := by
  induction xs with
  | nil =>
    intro ys rest m hm hys hle
    have : ys = [] := List.length_eq_zero_iff.1 (by simp at hle; omega)
    subst this
    simp at hm; subst hm
    rfl
  | cons x xs ih =>
    intro ys rest m hm hys hle
    cases ys with
    | nil => simp at hm; subst hm; rfl
    | cons y ys =>
      rw [List.length_cons] at hm
      subst hm
      obtain ⟨b, hb, hbl⟩ := hys y (List.mem_cons_self ..)
      have ih' := ih (fun z hz => hxs z (List.mem_cons_of_mem _ hz)) ys rest ys.length rfl (fun z hz => hys z (List.mem_cons_of_mem _ hz)) (by simpa using hle)
      have hd : (match x.buf with
          | some b => b
          | none => List.replicate k none).length = k := by
        split
        · next b' hb' => exact (hxs x (List.mem_cons_self ..)).1 b' hb'
        · simp
      rw [List.cons_append, copySlots]
      simp only [hb, nonNull, Res.bind_ok]
      rw [if_pos ⟨hd, hbl⟩, ih']
      have : ({ y with buf := some b } : Slot V) = y := by cases y; simp_all
      simp only [Res.bind_ok, Res.pure_eq, this, List.cons_append, List.drop_succ_cons]

theorem inv_empty_shape {s : Sk V} {bs : List (Buf V)} {last : List V} (hS : Shape s bs last) (hR : Ranks s bs last []) : bs = [] ∧ last = [] := by
  have ht := hR.total
  have hk := hS.1.ten
  have hl : last = [] := List.length_eq_zero_iff.1 (by rw [List.length_nil] at ht; omega)
  refine ⟨?_, hl⟩
  have hw : wsum bs = 0 := by
    rw [hl] at ht
    simp only [List.length_nil, Nat.add_zero, Nat.mul_eq_zero] at ht
    omega
  cases bs with
  | nil => rfl
  | cons d ds =>
    rcases hS.2 with h | ⟨_, _, fs, x, rest, lv, _, hfs, _⟩
    · exact absurd h.2.2.1 (by simp)
    · cases hfs with
      | cons h1 h2 =>
        have := h1.pos
        simp only [wsum, List.map_cons, List.sum_cons] at hw
        omega

/-- Copying into an empty sketch of the same configuration. -/
theorem merge_copy_ok (c : Consts V) (s t : Sk V) {vals : List V} {xl xh yl yh : Nat} (hs : Inv s [] xl xh) (ht : Inv t vals yl yh) (hc : s.count = 0)
    (hsz : s.size = t.size) (hlen : s.slots.length = t.slots.length) :
    ∃ s', merge c s t = .ok s' ∧ Inv s' vals yl yh ∧ s'.count = t.count ∧ s'.size = s.size ∧ s'.slots.length = s.slots.length ∧
      s'.nbound = s.nbound := by
  obtain ⟨bs, last, hS, hR, _, _⟩ := hs
  obtain ⟨rfl, rfl⟩ := inv_empty_shape hS hR
  obtain ⟨hB, hS⟩ := hS
  have hcond : s.cur1 = 0 ∨ (s.cur1 = 1 ∧ s.pos = 0) := by
    rcases hS with h | h
    · exact Or.inl h.1
    · exact Or.inr ⟨by simpa using h.1, by simpa using h.2.1⟩
  obtain ⟨bt, lt, ⟨hBt, hSt⟩, hRt, hTt, hnt⟩ := ht
  rcases hSt with ⟨g1, g2, rfl, rfl⟩ | ⟨hcur, hp, fs, x, rest, lv, hslots, hfs, hx, hlev, hlv0⟩
  · refine ⟨{ s with count := s.count + t.count, cur1 := t.cur1, pos := t.pos, evenLow := t.evenLow, lo := t.lo, hi := t.hi }, ?_,
      ⟨[], [], ⟨⟨hB.two, hB.ten, hB.room, hB.int, hB.bufs⟩, Or.inl ⟨g1, by rw [g2, ← hsz], rfl, rfl⟩⟩, ⟨by simpa [wsum] using hRt.total, hRt.upper, hRt.lower, hRt.memF, hRt.memL⟩,
        ?_, hnt⟩, by simp [hc], rfl, rfl, rfl⟩
    · unfold merge
      simp only []
      rw [if_pos ⟨hcond, hsz, hlen⟩]
      simp only [hc, Nat.zero_add, g1, copySlots, Nat.zero_le, decide_true, Res.require_true, Res.bind_ok, Res.pure_eq]
    · unfold Tree at hTt ⊢
      simpa [hlen] using hTt
  · have hbl : bt.length = fs.length := hfs.length_eq.symm
    have hslen : t.slots.length = fs.length + 1 + rest.length := by rw [hslots]; simp; omega
    have hys : ∀ y ∈ fs ++ [x], ∃ b, y.buf = some b ∧ b.length = s.size := by
      intro y hy
      rcases List.mem_append.1 hy with hy | hy
      · obtain ⟨i, hi, rfl⟩ := List.getElem_of_mem hy
        have h := (List.forall₂_iff_get.1 hfs).2 i hi (by omega)
        exact ⟨_, h.buf, by rw [List.length_map, h.len, hsz]⟩
      · rw [List.mem_singleton] at hy
        subst hy
        obtain ⟨r, hb, hr⟩ := hx.buf
        exact ⟨_, hb, by rw [List.length_append, List.length_map, hr, hsz]⟩
    have hcopy := copySlots_ok s.slots hB.bufs (fs ++ [x]) rest t.cur1 (by rw [hcur, hbl]; simp) hys (by omega)
    rw [List.append_assoc, List.singleton_append, ← hslots] at hcopy
    have hlen' : ((fs ++ [x]) ++ s.slots.drop t.cur1).length = s.slots.length := by
      rw [List.length_append, List.length_append, List.length_drop, List.length_singleton]; omega
    have hcopy2 : copySlots s.size t.cur1 s.slots t.slots = .ok ((fs ++ [x]) ++ s.slots.drop t.cur1) := by
      rw [hcopy]
    refine ⟨{ s with count := s.count + t.count, slots := (fs ++ [x]) ++ s.slots.drop t.cur1, cur1 := t.cur1, pos := t.pos, evenLow := t.evenLow, lo := t.lo, hi := t.hi },
        ?_, ⟨bt, lt, ⟨⟨by rw [hlen']; exact hB.two, hB.ten, by rw [hlen']; exact hB.room, hB.int, ?_⟩,
          Or.inr ⟨hcur, hp, fs, x, s.slots.drop t.cur1, lv, by simp, by rw [hsz]; exact hfs, by rw [hsz]; exact hx, ?_, ?_⟩⟩,
          ⟨by rw [← hRt.total, hsz], hRt.upper, hRt.lower, hRt.memF, hRt.memL⟩, ?_, hnt⟩, by simp [hc], rfl, hlen', rfl⟩
    · unfold merge
      simp only []
      rw [if_pos ⟨hcond, hsz, hlen⟩]
      have h1 : t.cur1 ≤ s.slots.length := by omega
      simp only [hc, Nat.zero_add, h1, decide_true, Res.require_true, Res.bind_ok]
      rw [hcopy2]
      rfl
    · intro z hz
      show (∀ b, z.buf = some b → b.length = s.size) ∧ (z.buf = none → s.lazy = true)
      rcases List.mem_append.1 hz with hz | hz
      · obtain ⟨b, hb, hbl⟩ := hys z hz
        rw [hb]
        exact ⟨fun b' hb' => by rw [← Option.some.inj hb']; exact hbl, by simp⟩
      · exact hB.bufs z (List.mem_of_mem_drop hz)
    · intro hr
      apply hlev
      have := congrArg List.length hr
      rw [List.length_drop, List.length_nil] at this
      exact List.length_eq_zero_iff.1 (by omega)
    · intro hr
      apply hlv0
      have := List.length_pos_iff.2 hr
      rw [List.length_drop] at this
      exact List.length_pos_iff.1 (by omega)
    · unfold Tree at hTt ⊢
      rw [hlen', hlen]; exact hTt

/-- Adding the values of another sketch one by one. -/
theorem merge_insert_ok (c : Consts V) (s t : Sk V) {us vals : List V} {xl xh yl yh : Nat} (hs : Inv s us xl xh) (ht : Inv t vals yl yh)
    (hne : vals ≠ []) (hcond : ¬(us = [] ∧ s.size = t.size ∧ s.slots.length = t.slots.length)) (hcount : s.count + t.count < 100000000000000) :
    ∃ s', merge c s t = .ok s' ∧ Inv s' (us ++ vals) (xl + t.lo) (xh + t.hi) ∧ s'.count = s.count + t.count ∧ s'.size = s.size ∧
      s'.slots.length = s.slots.length ∧ s'.nbound = s.nbound := by
  have hcond' : ¬((s.cur1 = 0 ∨ (s.cur1 = 1 ∧ s.pos = 0)) ∧ s.size = t.size ∧ s.slots.length = t.slots.length) := by
    rintro ⟨h1, h2⟩
    apply hcond
    refine ⟨?_, h2⟩
    obtain ⟨bs, last, ⟨hB, hS⟩, hR, _⟩ := hs
    have ht := hR.total
    rcases hS with ⟨g1, g2, rfl, rfl⟩ | ⟨g1, g2, _⟩
    · exact List.length_eq_zero_iff.1 (by simpa [wsum] using ht.symm)
    · have hb : bs = [] := List.length_eq_zero_iff.1 (by omega)
      subst hb
      exact List.length_eq_zero_iff.1 (by simp only [wsum, List.map_nil, List.sum_nil, Nat.zero_mul] at ht; omega)
  obtain ⟨bt, lt, ⟨hBt, hSt⟩, hRt, hTt, hnt⟩ := ht
  rcases hSt with ⟨g1, g2, rfl, rfl⟩ | ⟨hcur, hp, fs, x, rest, lv, hslots, hfs, hx, hlev, hlv0⟩
  · exact absurd (List.length_eq_zero_iff.1 (by simpa [wsum] using hRt.total.symm)) hne
  · have hbl : bt.length = fs.length := hfs.length_eq.symm
    obtain ⟨s1, e1, hI1, hsame⟩ := addQuantiles_ok c ((bt.flatMap fun d => d.vals.flatMap fun v => List.replicate d.wt v) ++ lt)
      { s with count := s.count + t.count } (hs.count _) hcount
    have hcp : ∀ p : V → Bool, ((bt.flatMap fun d => d.vals.flatMap fun v => List.replicate d.wt v) ++ lt).countP p = wrk p bt + lt.countP p := fun p => by
      rw [List.countP_append, countP_expand]
    refine ⟨{ s1 with lo := s1.lo + t.lo, hi := s1.hi + t.hi }, ?_, ?_, hsame.count, hsame.size, hsame.len, hsame.nbound⟩
    · unfold merge
      simp only []
      rw [if_neg hcond']
      have h1 : t.slots.take (t.cur1 - 1) = fs := by
        rw [hslots, hcur, Nat.add_sub_cancel, hbl]; simp
      rw [h1, expandFull_ok hfs]
      simp only [Res.bind_ok]
      rw [if_neg (by omega)]
      have h2 : PQ.rd t.slots (t.cur1 - 1) = .ok x := by rw [hslots]; exact rd_mid _ _ _ (by omega)
      rw [h2]
      simp only [Res.bind_ok]
      rw [hp, expandLast_ok hx]
      simp only [Res.bind_ok]
      rw [e1]
      rfl
    · obtain ⟨bs, last, ⟨hB, hS⟩, hR, hT, hn⟩ := hI1
      refine ⟨bs, last, ⟨⟨hB.two, hB.ten, hB.room, hB.int, hB.bufs⟩, hS⟩, ⟨?_, fun p hp => ?_, fun p hp => ?_, ?_, ?_⟩, ?_, hn⟩
      · have h1 := hcp (fun _ => true)
        rw [List.countP_eq_length.2 (fun _ _ => rfl), wsum_le_wrk_true hfs, List.countP_eq_length.2 (fun _ _ => rfl), hRt.total] at h1
        have h2 := hR.total
        rw [List.length_append, h1] at h2
        rw [List.length_append]; exact h2
      · have h1 := hR.upper p hp
        have h2 := hRt.upper p hp
        rw [List.countP_append, hcp] at h1
        rw [List.countP_append]
        show _ ≤ _ + (s1.hi + t.hi)
        omega
      · have h1 := hR.lower p hp
        have h2 := hRt.lower p hp
        rw [List.countP_append, hcp] at h1
        rw [List.countP_append]
        show _ ≤ _ + (s1.lo + t.lo)
        omega
      · intro d hd v hv
        have := hR.memF d hd v hv
        rcases List.mem_append.1 this with h | h
        · exact List.mem_append_left _ h
        · refine List.mem_append_right _ ?_
          rcases List.mem_append.1 h with h | h
          · obtain ⟨d', hd', h'⟩ := List.mem_flatMap.1 h
            obtain ⟨v', hv', h''⟩ := List.mem_flatMap.1 h'
            rw [List.eq_of_mem_replicate h'']
            exact hRt.memF d' hd' v' hv'
          · exact hRt.memL v h
      · intro v hv
        have := hR.memL v hv
        rcases List.mem_append.1 this with h | h
        · exact List.mem_append_left _ h
        · refine List.mem_append_right _ ?_
          rcases List.mem_append.1 h with h | h
          · obtain ⟨d', hd', h'⟩ := List.mem_flatMap.1 h
            obtain ⟨v', hv', h''⟩ := List.mem_flatMap.1 h'
            rw [List.eq_of_mem_replicate h'']
            exact hRt.memF d' hd' v' hv'
          · exact hRt.memL v h
      · obtain ⟨hT1, hT2, ol, oh, a1, a2, a3, a4⟩ := hT
        exact ⟨hT1, hT2, ol, oh, by show s1.lo + t.lo = _; omega, by show s1.hi + t.hi = _; omega, a3, a4⟩

/-! ## Construction -/

theorem initBuffers_ok (s : Sk V) (h1 : 1 < s.slots.length) (h2 : 10 ≤ s.size) (h3 : s.slots.length ≤ s.size) (h4 : s.size < 2147483648)
    (h5 : ∀ x ∈ s.slots, ∀ b, x.buf = some b → b.length = s.size) :
    Inv (initBuffers s) [] 0 0 ∧ (initBuffers s).count = 0 ∧ (initBuffers s).size = s.size ∧ (initBuffers s).slots.length = s.slots.length ∧
      (initBuffers s).nbound = s.nbound := by
  cases hsl : s.slots with
  | nil => rw [hsl] at h1; simp at h1
  | cons x xs =>
    set x' : Slot V := { initSlot s.size s.lazy x with weight := 1, level := 0 } with hx'
    have hslots : (initBuffers s).slots = x' :: xs.map (initSlot s.size s.lazy) := by simp [initBuffers, hsl, hx']
    have hlen : (initBuffers s).slots.length = s.slots.length := by rw [hslots, hsl]; simp
    have hbuf : ∀ z ∈ s.slots, (∀ b, (initSlot s.size s.lazy z).buf = some b → b.length = s.size) ∧ ((initSlot s.size s.lazy z).buf = none → s.lazy = true) := by
      intro z hz
      unfold initSlot
      simp only []
      cases hb : z.buf with
      | none =>
        cases hl : s.lazy <;> simp
      | some b =>
        simp only [Option.isNone_some, Bool.false_and, Bool.false_eq_true, if_false, Option.some.injEq, reduceCtorEq, false_implies, and_true]
        intro b' hb'
        rw [← hb']; exact h5 z hz b hb
    have hB : Base (initBuffers s) := by
      refine ⟨by rw [hlen]; exact h1, h2, by rw [hlen]; exact h3, h4, ?_⟩
      intro z hz
      rw [hslots] at hz
      show (∀ b, z.buf = some b → b.length = s.size) ∧ (z.buf = none → s.lazy = true)
      rcases List.mem_cons.1 hz with rfl | hz
      · exact hbuf x (by rw [hsl]; exact List.mem_cons_self ..)
      · obtain ⟨w, hw, rfl⟩ := List.mem_map.1 hz
        exact hbuf w (by rw [hsl]; exact List.mem_cons_of_mem _ hw)
    refine ⟨⟨[], [], ⟨hB, ?_⟩, ⟨by simp [wsum], fun p _ => by simp [wrk], fun p _ => by simp, by simp, by simp⟩,
      ⟨trivial, List.Pairwise.nil, 0, 0, rfl, rfl, rfl, Or.inr ⟨rfl, rfl⟩⟩, by simp⟩, rfl, rfl, by rw [hlen, hsl], rfl⟩
    cases hlz : s.lazy with
    | true => left; simp [initBuffers, hlz]
    | false =>
      right
      refine ⟨by simp [initBuffers, hlz], by simp [initBuffers, hlz], [], x', xs.map (initSlot s.size s.lazy), 0, hslots, List.Forall₂.nil, ?_, ?_, fun _ => rfl⟩
      · obtain ⟨g1, g2⟩ := hbuf x (by rw [hsl]; exact List.mem_cons_self ..)
        cases hb : (initSlot s.size s.lazy x).buf with
        | none => rw [hlz] at g2; exact absurd (g2 (by rw [← hlz]; exact hb)) (by simp)
        | some b =>
          refine ⟨⟨b, by simp [hx', hb], by show _ = s.size; simpa using g1 b hb⟩, by simp, rfl, rfl⟩
      · intro h
        rw [hsl] at h1
        have : xs = [] := by simpa using h
        subst this
        simp at h1

theorem new_ok {n k b : Nat} (lz : Bool) (h1 : 1 < n) (h2 : 10 ≤ k) (h3 : n ≤ k) (h4 : k < 2147483648) :
    ∃ s : Sk V, new n k b lz = .ok s ∧ Inv s [] 0 0 ∧ s.count = 0 ∧ s.size = k ∧ s.slots.length = n ∧ s.nbound = b := by
  set s0 : Sk V := { size := k, slots := List.replicate n ⟨none, -1, -1, false⟩, cur1 := 0, pos := 0, evenLow := true, lazy := lz, nbound := b, count := 0, lo := 0, hi := 0 }
    with hs0
  have hl : s0.slots.length = n := by simp [hs0]
  obtain ⟨a1, a2, a3, a4, a5⟩ := initBuffers_ok s0 (by omega) h2 (by rw [hl]; exact h3) h4 (by
    intro x hx b hb
    rw [List.eq_of_mem_replicate hx] at hb
    cases hb)
  refine ⟨initBuffers s0, ?_, a1, a2, a3, a4.trans hl, a5⟩
  simp [new, h1, h2, hs0]

theorem reset_ok {s : Sk V} {vals : List V} {xl xh : Nat} (h : Inv s vals xl xh) :
    Inv (reset s) [] 0 0 ∧ (reset s).count = 0 ∧ (reset s).size = s.size ∧ (reset s).slots.length = s.slots.length ∧ (reset s).nbound = s.nbound := by
  obtain ⟨bs, last, ⟨hB, _⟩, _⟩ := h
  exact initBuffers_ok s hB.two hB.ten hB.room hB.int (fun x hx => (hB.bufs x hx).1)

end Verif.Quantile
