import Verif.Quantile.Tree

/-! # Adding -/

namespace Verif.Quantile

open Verif

variable {V : Type} [LinearOrder V]

theorem wrk_append (p : V → Bool) (a b : List (Buf V)) : wrk p (a ++ b) = wrk p a + wrk p b := by simp [wrk]
theorem wsum_append (a b : List (Buf V)) : wsum (a ++ b) = wsum a + wsum b := by simp [wsum]

/-- What the stored values say about the values added. -/
structure Ranks (s : Sk V) (bs : List (Buf V)) (last vals : List V) : Prop where
  total : wsum bs * s.size + last.length = vals.length
  upper : ∀ p, Down p → wrk p bs + last.countP p ≤ vals.countP p + s.hi
  lower : ∀ p, Down p → vals.countP p ≤ wrk p bs + last.countP p + s.lo
  memF : ∀ d ∈ bs, ∀ v ∈ d.vals, v ∈ vals
  memL : ∀ v ∈ last, v ∈ vals

def FullPart (s : Sk V) (bs : List (Buf V)) : Prop :=
  Base s ∧ s.cur1 = bs.length + 1 ∧ s.pos = 0 ∧ ∃ fs rest, s.slots = fs ++ rest ∧ rest ≠ [] ∧ List.Forall₂ (IsFull s.size) fs bs

/-- The parts that adding leaves alone. -/
structure Same (s s' : Sk V) : Prop where
  size : s'.size = s.size
  len : s'.slots.length = s.slots.length
  lazy : s'.lazy = s.lazy
  nbound : s'.nbound = s.nbound
  count : s'.count = s.count

theorem Same.refl (s : Sk V) : Same s s := ⟨rfl, rfl, rfl, rfl, rfl⟩
theorem Same.trans {a b c : Sk V} (h : Same a b) (h' : Same b c) : Same a c :=
  ⟨h'.size.trans h.size, h'.len.trans h.len, h'.lazy.trans h.lazy, h'.nbound.trans h.nbound, h'.count.trans h.count⟩

theorem forall2_take {k : Nat} {fs : List (Slot V)} {bs : List (Buf V)} (h : List.Forall₂ (IsFull k) fs bs) (f : Nat) :
    List.Forall₂ (IsFull k) (fs.take f) (bs.take f) := List.forall₂_take f h

theorem wsum_le_wrk_true {k : Nat} {fs : List (Slot V)} : ∀ {bs : List (Buf V)}, List.Forall₂ (IsFull k) fs bs → wrk (fun _ => true) bs = wsum bs * k := by
  induction fs with
  | nil => intro bs h; cases h; simp [wrk, wsum]
  | cons x fs ih =>
    intro bs h
    cases h with
    | cons h1 h2 =>
      rename_i d ds
      have := ih h2
      simp only [wrk, wsum, List.map_cons, List.sum_cons] at this ⊢
      rw [this, List.countP_eq_length.2 (fun _ _ => rfl), h1.len, Nat.add_mul]

theorem nextBuffer_ok (c : Consts V) (s : Sk V) {bs : List (Buf V)} {last vals : List V} {xl xh : Nat} (hS : Shape s bs last) (hR : Ranks s bs last vals)
    (hT : Tree s bs xl xh) (hpos : s.size ≤ s.pos) (hcount : s.count < 100000000000000) :
    ∃ s' bs', nextBuffer c s = .ok s' ∧ FullPart s' bs' ∧ Ranks s' bs' [] vals ∧ Tree s' bs' xl xh ∧ Same s s' := by
  obtain ⟨hB, h | ⟨hcur, hp, fs, x, rest, lv, hslots, hfs, hx, hlev, hlv0⟩⟩ := hS
  · obtain ⟨h1, h2, rfl, rfl⟩ := h
    have hn := hB.two
    refine ⟨{ s with cur1 := s.cur1 + 1, pos := 0 }, [], ?_, ⟨⟨hB.two, hB.ten, hB.room, hB.int, hB.bufs⟩, by simp [h1], rfl, [], s.slots, rfl, ?_, List.Forall₂.nil⟩,
      ⟨hR.total, hR.upper, hR.lower, hR.memF, hR.memL⟩, hT, ⟨rfl, rfl, rfl, rfl, rfl⟩⟩
    · unfold nextBuffer
      rw [if_neg (by omega), if_neg (by omega)]
      rfl
    · intro h; rw [h] at hn; simp at hn
  · have hbl : bs.length = fs.length := hfs.length_eq.symm
    have hslen : s.slots.length = fs.length + 1 + rest.length := by rw [hslots]; simp; omega
    obtain ⟨r, hb, hr⟩ := hx.buf
    have hl : last.length = s.size := by omega
    have hr0 : r = [] := List.length_eq_zero_iff.1 (by omega)
    subst hr0
    rw [List.append_nil] at hb
    by_cases hrest : rest = []
    · -- no more buffers
      subst hrest
      have hslots' : ({ s with cur1 := s.cur1 + 1, pos := 0 } : Sk V).slots = fs ++ [x] := hslots
      obtain ⟨f, out, off, hf, hl1, hl2, hoff, hM, hmem, ho1, ho2, e⟩ := collapse_ok c { s with cur1 := s.cur1 + 1, pos := 0 }
        ⟨hB.two, hB.ten, hB.room, hB.int, hB.bufs⟩ hslots' hfs hx hl (hlev rfl) hcount
      have hn2 : fs.length + 1 = s.slots.length := by simp at hslen; omega
      have hcurn : s.cur1 = s.slots.length := by omega
      have hds : (allOf bs last lv).drop f = bs.drop f ++ [⟨srt last, 1, lv⟩] := List.drop_append_of_le_length (by omega)
      have hWeq : wsum ((allOf bs last lv).drop f) = wsum (bs.drop f) + 1 := by rw [hds, wsum_append]; simp [wsum]
      have hAeq : ∀ p, wrk p ((allOf bs last lv).drop f) = wrk p (bs.drop f) + last.countP p := by
        intro p
        rw [hds, wrk_append]
        simp only [wrk, List.map_cons, List.map_nil, List.sum_cons, List.sum_nil, Nat.one_mul, Nat.add_zero]
        rw [(srt_perm last).countP_eq]
      set W := wsum ((allOf bs last lv).drop f) with hW
      have hbs : bs = bs.take f ++ bs.drop f := (List.take_append_drop f bs).symm
      have hwb : wsum bs = wsum (bs.take f) + wsum (bs.drop f) := by rw [← wsum_append, ← hbs]
      have hwr : ∀ p, wrk p bs = wrk p (bs.take f) + wrk p (bs.drop f) := fun p => by rw [← wrk_append, ← hbs]
      obtain ⟨hT1, hT2, ol, oh, e1, e2, e3, e4⟩ := hT
      rw [hbs, treeW_append] at hT1
      have htl : (bs.take f).length = f := by rw [List.length_take]; omega
      rw [htl] at hT1
      have hdl : (bs.drop f).length + 1 = s.slots.length - f := by rw [List.length_drop]; omega
      have hrun := run_leaves lv (s.slots.length - f) (bs.drop f) hT1.2 hl1 hdl
      have hinn := run_inner lv (s.slots.length - f) (bs.drop f) hl1 hdl
      have hslotlen : (collapsed { s with cur1 := s.cur1 + 1, pos := 0 } fs x last f W off lv out).slots.length = s.slots.length := by
        simp only [collapsed, List.length_append, List.length_cons, List.length_map, List.length_drop, List.length_take, List.length_nil]
        omega
      refine ⟨{ collapsed { s with cur1 := s.cur1 + 1, pos := 0 } fs x last f W off lv out with pos := 0 }, bs.take f ++ [⟨out, W, lv + 1⟩], ?_,
        ⟨?_, ?_, rfl, fs.take f ++ [⟨some (out.map some), (W : Int), (lv : Int) + 1, true⟩],
          (((fs.drop f ++ [{ x with buf := some ((srt last).map some), sorted := true }]).drop 1).map
            (fun y : Slot V => { y with weight := -1, level := -1, sorted := false })), ?_, ?_, ?_⟩, ?_, ?_, ?_⟩
      · unfold nextBuffer
        rw [if_pos hcurn, e]
        rfl
      · refine ⟨by rw [show _ = _ from hslotlen]; exact hB.two, hB.ten, by rw [show _ = _ from hslotlen]; exact hB.room, hB.int, ?_⟩
        intro z hz
        have hz' : z ∈ (collapsed { s with cur1 := s.cur1 + 1, pos := 0 } fs x last f W off lv out).slots := hz
        simp only [collapsed, List.mem_append, List.mem_cons, List.mem_map] at hz'
        show (∀ b, z.buf = some b → b.length = s.size) ∧ (z.buf = none → s.lazy = true)
        rcases hz' with hz | rfl | ⟨w, hw, rfl⟩
        · exact hB.bufs z (by rw [hslots]; exact List.mem_append_left _ (List.mem_of_mem_take hz))
        · refine ⟨fun b hb => ?_, by simp⟩
          simp only [Option.some.injEq] at hb
          rw [← hb, List.length_map]; exact hM.length
        · have hw := List.mem_of_mem_drop hw
          rcases List.mem_append.1 hw with hw | hw
          · exact hB.bufs w (by rw [hslots]; exact List.mem_append_left _ (List.mem_of_mem_drop hw))
          · rw [List.mem_singleton] at hw
            subst hw
            refine ⟨fun b hb => ?_, by simp⟩
            simp only [Option.some.injEq] at hb
            rw [← hb, List.length_map, srt_length]; exact hl
      · simp only [collapsed, List.length_append, htl, List.length_singleton]
      · simp only [collapsed, List.append_assoc, List.singleton_append]
      · intro h
        have := congrArg List.length h
        simp only [List.length_map, List.length_drop, List.length_append, List.length_singleton, List.length_nil] at this
        omega
      · refine List.rel_append (forall2_take hfs f) (List.Forall₂.cons ⟨rfl, hM.length, rfl, hM.sorted, rfl, ?_, ?_⟩ List.Forall₂.nil)
        · show 0 < W; omega
        · show (lv : Int) + 1 = ((lv + 1 : Nat) : Int); push_cast; rfl
      · refine ⟨?_, fun p hp => ?_, fun p hp => ?_, ?_, by simp⟩
        · show wsum (bs.take f ++ [⟨out, W, lv + 1⟩]) * s.size + 0 = vals.length
          rw [← hR.total, wsum_append, hwb, hl]
          simp only [wsum, List.map_cons, List.map_nil, List.sum_cons, List.sum_nil, Nat.add_zero]
          rw [hWeq]
          simp only [wsum]
          ring
        · show wrk p (bs.take f ++ [⟨out, W, lv + 1⟩]) + 0 ≤ vals.countP p + (s.hi + (W - off))
          have h1 := hM.upper p hp
          have h2 := hR.upper p hp
          rw [hAeq] at h1
          rw [hwr p] at h2
          rw [wrk_append]
          simp only [wrk, List.map_cons, List.map_nil, List.sum_cons, List.sum_nil, Nat.add_zero] at h1 h2 ⊢
          omega
        · show vals.countP p ≤ wrk p (bs.take f ++ [⟨out, W, lv + 1⟩]) + 0 + (s.lo + (off - 1))
          have h1 := hM.lower p hp
          have h2 := hR.lower p hp
          rw [hAeq] at h1
          rw [hwr p] at h2
          rw [wrk_append]
          simp only [wrk, List.map_cons, List.map_nil, List.sum_cons, List.sum_nil, Nat.add_zero] at h1 h2 ⊢
          omega
        · intro d hd v hv
          rcases List.mem_append.1 hd with hd | hd
          · exact hR.memF d (List.mem_of_mem_take hd) v hv
          · rw [List.mem_singleton] at hd
            subst hd
            obtain ⟨d', hd', hv'⟩ := hmem v hv
            rcases List.mem_append.1 hd' with hd' | hd'
            · exact hR.memF d' hd' v hv'
            · rw [List.mem_singleton] at hd'
              subst hd'
              exact hR.memL v hv'
      · -- the tree
        have hlen3 : ({ collapsed { s with cur1 := s.cur1 + 1, pos := 0 } fs x last f W off lv out with pos := 0 } : Sk V).slots.length = s.slots.length := hslotlen
        unfold Tree
        rw [hlen3]
        have hWrun : W = leaves (s.slots.length - f) (lv + 1) := by omega
        have hinn1 : inner (s.slots.length - f) (lv + 1) = treeS (s.slots.length - f) (bs.drop f) + W := by
          rw [inner, if_neg (by omega), ← hinn, ← hWrun]
        have htree : treeS s.slots.length (bs.take f ++ [⟨out, W, lv + 1⟩]) = treeS s.slots.length bs + W := by
          conv => rhs; rw [hbs]
          rw [treeS_append, treeS_append, htl]
          simp only [treeS, hinn1]; omega
        refine ⟨?_, ?_, ol + (off - 1), oh + (W - off), ?_, ?_, ?_, ?_⟩
        · rw [treeW_append, htl]
          exact ⟨hT1.1, hWrun, trivial⟩
        · rw [List.pairwise_append]
          refine ⟨hT2.sublist (List.take_sublist _ _), by simp, fun a ha b hb => ?_⟩
          rw [List.mem_singleton] at hb
          subst hb
          show lv + 1 ≤ a.lev
          -- the buffer before the run has a higher level
          obtain ⟨g, hg⟩ : ∃ g, f = g + 1 := ⟨f - 1, by
            have : 0 < (bs.take f).length := List.length_pos_of_mem ha
            omega⟩
          have hgl : g < bs.length := by omega
          have h1 := hl2 g bs[g] hg (List.getElem?_eq_getElem hgl)
          have hfl : f < bs.length := by omega
          have h2 : (bs[f]).lev = lv := hl1 _ (by rw [List.drop_eq_getElem_cons hfl]; exact List.mem_cons_self ..)
          have h3 : (bs[f]).lev ≤ (bs[g]).lev := List.pairwise_iff_getElem.1 hT2 g f hgl hfl (by omega)
          obtain ⟨i, hi, rfl⟩ := List.getElem_of_mem ha
          rw [List.length_take] at hi
          rw [List.getElem_take]
          rcases Nat.lt_or_ge i g with h4 | h4
          · have := List.pairwise_iff_getElem.1 hT2 i g (by omega) hgl h4
            omega
          · have : i = g := by omega
            subst this; omega
        · show s.lo + (off - 1) = _; omega
        · show s.hi + (W - off) = _; omega
        · show oh + (W - off) = ol + (off - 1) + (if (nextOffset (W : Int) s.evenLow).2 then 0 else 1)
          have hoff' : (nextOffset (W : Int) s.evenLow).1 = (off : Int) := hoff
          unfold nextOffset at hoff' ⊢
          cases hel : s.evenLow <;> rw [hel] at hoff' e3 <;> simp only [Bool.false_eq_true, if_false, if_true] at hoff' e3 ⊢
          · split at hoff'
            · next hev => rw [if_pos hev]; simp only [if_true]; simp only at hoff'; omega
            · next hev => rw [if_neg hev]; simp only [Bool.false_eq_true, if_false]; simp only at hoff'; omega
          · split at hoff'
            · next hev => rw [if_pos hev]; simp only [Bool.false_eq_true, if_false]; simp only at hoff'; omega
            · next hev => rw [if_neg hev]; simp only [if_true]; simp only at hoff'; omega
        · left
          rw [htree]
          rcases e4 with e4 | e4 <;> omega
      · exact ⟨rfl, hslotlen, rfl, rfl, rfl⟩
    · -- the next buffer
      have hrl : 0 < rest.length := List.length_pos_iff.2 hrest
      have hrd : PQ.rd s.slots (s.cur1 - 1) = .ok x := by
        rw [hcur, Nat.add_sub_cancel, hbl]
        simp [PQ.rd, hslots]
      set x' : Slot V := { x with buf := some ((srt last).map some), sorted := true } with hx'
      have hset : s.slots.set (s.cur1 - 1) x' = fs ++ x' :: rest := by
        rw [hcur, Nat.add_sub_cancel, hbl, hslots]
        simp
      have hxf : IsFull s.size x' ⟨srt last, 1, 0⟩ :=
        ⟨rfl, by rw [srt_length]; exact hl, rfl, srt_pairwise last, hx.weight, Nat.one_pos, by rw [← hlv0 hrest]; exact hx.level⟩
      obtain ⟨hT1, hT2, ol, oh, e1, e2, e3, e4⟩ := hT
      refine ⟨{ s with slots := s.slots.set (s.cur1 - 1) x', cur1 := s.cur1 + 1, pos := 0 }, bs ++ [⟨srt last, 1, 0⟩], ?_,
        ⟨⟨?_, hB.ten, ?_, hB.int, ?_⟩, ?_, rfl, fs ++ [x'], rest, ?_, hrest, List.rel_append hfs (List.Forall₂.cons hxf List.Forall₂.nil)⟩, ?_, ?_,
        ⟨rfl, ?_, rfl, rfl, rfl⟩⟩
      · unfold nextBuffer
        rw [if_neg (by omega), if_pos (by omega), hrd]
        simp only [Res.bind_ok]
        rw [sortSlot_full hb hl]
        rfl
      · show 1 < (s.slots.set _ _).length; rw [List.length_set]; exact hB.two
      · show (s.slots.set _ _).length ≤ s.size; rw [List.length_set]; exact hB.room
      · intro z hz
        have hz' : z ∈ fs ++ x' :: rest := by rw [← hset]; exact hz
        show (∀ b, z.buf = some b → b.length = s.size) ∧ (z.buf = none → s.lazy = true)
        rcases List.mem_append.1 hz' with hz' | hz'
        · exact hB.bufs z (by rw [hslots]; exact List.mem_append_left _ hz')
        · rcases List.mem_cons.1 hz' with rfl | hz'
          · refine ⟨fun b hb => ?_, by simp [hx']⟩
            simp only [hx', Option.some.injEq] at hb
            rw [← hb, List.length_map, srt_length]; exact hl
          · exact hB.bufs z (by rw [hslots]; exact List.mem_append_right _ (List.mem_cons_of_mem _ hz'))
      · show s.cur1 + 1 = _; simp [hcur]
      · show s.slots.set _ _ = _; rw [hset]; simp
      · refine ⟨?_, fun p hp => ?_, fun p hp => ?_, ?_, by simp⟩
        · show wsum (bs ++ [⟨srt last, 1, 0⟩]) * s.size + 0 = vals.length
          rw [← hR.total, wsum_append, hl]
          simp only [wsum, List.map_cons, List.map_nil, List.sum_cons, List.sum_nil]; ring
        · show wrk p (bs ++ [⟨srt last, 1, 0⟩]) + 0 ≤ vals.countP p + s.hi
          have := hR.upper p hp
          rw [wrk_append]
          simp only [wrk, List.map_cons, List.map_nil, List.sum_cons, List.sum_nil, Nat.one_mul, Nat.add_zero, (srt_perm last).countP_eq] at this ⊢
          exact this
        · show vals.countP p ≤ wrk p (bs ++ [⟨srt last, 1, 0⟩]) + 0 + s.lo
          have := hR.lower p hp
          rw [wrk_append]
          simp only [wrk, List.map_cons, List.map_nil, List.sum_cons, List.sum_nil, Nat.one_mul, Nat.add_zero, (srt_perm last).countP_eq] at this ⊢
          exact this
        · intro d hd v hv
          rcases List.mem_append.1 hd with hd | hd
          · exact hR.memF d hd v hv
          · rw [List.mem_singleton] at hd
            subst hd
            exact hR.memL v ((srt_perm last).mem_iff.1 hv)
      · unfold Tree
        have hlen3 : ({ s with slots := s.slots.set (s.cur1 - 1) x', cur1 := s.cur1 + 1, pos := 0 } : Sk V).slots.length = s.slots.length := List.length_set ..
        rw [hlen3]
        refine ⟨?_, ?_, ol, oh, e1, e2, e3, ?_⟩
        · rw [treeW_append]
          exact ⟨hT1, (by simp [leaves]), trivial⟩
        · rw [List.pairwise_append]
          refine ⟨hT2, by simp, fun a _ b hb => ?_⟩
          rw [List.mem_singleton] at hb
          subst hb
          exact Nat.zero_le _
        · rw [treeS_append]
          simpa [treeS, inner] using e4
      · show (s.slots.set _ _).length = _; rw [List.length_set]

end Verif.Quantile
