import Verif.BB.Spec

namespace Verif.BB

structure RepOk (r : Rep) : Prop where
  fb : r.front ≤ r.back
  bd : r.back ≤ r.data.length

/-- What a representation looks like from outside. -/
def view (r : Rep) (g : Nat) (cow : Bool) : Buf := ⟨r.contents, r.data.length, r.writeAvailable, g, cow⟩

theorem length_contents {r : Rep} (h : RepOk r) : r.contents.length = r.readAvailable := by
  have := h.fb; have := h.bd
  simp only [Rep.contents, Rep.readAvailable, List.length_take, List.length_drop]; omega

theorem getElem?_contents {r : Rep} (h : RepOk r) (k : Nat) :
    r.contents[k]? = if k < r.readAvailable then r.data[r.front + k]? else none := by
  simp only [Rep.contents, List.getElem?_take, List.getElem?_drop]

theorem contents_front (a : Bool) (c t : List Byte) : Rep.contents ⟨a, c ++ t, 0, c.length⟩ = c := by
  simp [Rep.contents, Rep.readAvailable]

theorem new_ok : RepOk Rep.new := ⟨Nat.le_refl _, Nat.le_refl _⟩

theorem view_new (g : Nat) (cow : Bool) : view Rep.new g cow = ⟨[], 0, 0, g, cow⟩ := rfl

theorem consume_ok {r : Rep} (h : RepOk r) (n : Nat) (hn : n ≤ r.contents.length) :
    ∃ r', r.consume n = .ok r' ∧ RepOk r' ∧
      ∀ g cow, view r' g cow = { view r g cow with contents := r.contents.drop n } := by
  have hb := h.bd; have hf := h.fb
  rw [length_contents h] at hn
  have hn' := hn
  simp only [Rep.readAvailable] at hn'
  refine ⟨{ r with front := r.front + n }, by rw [Rep.consume, if_pos hn], ⟨by dsimp only; omega, h.bd⟩, ?_⟩
  intro g cow
  simp only [view, Rep.contents, Rep.readAvailable, Rep.writeAvailable, List.drop_take, List.drop_drop,
    Nat.sub_sub]

theorem extend_ok {r : Rep} (h : RepOk r) (n : Nat) (hn : n ≤ r.writeAvailable) :
    r.extend n = .ok { r with back := r.back + n } ∧ RepOk { r with back := r.back + n } := by
  have hb := h.bd; have hf := h.fb
  have hn' := hn
  simp only [Rep.writeAvailable] at hn'
  refine ⟨?_, ⟨by dsimp only; omega, by dsimp only; omega⟩⟩
  simp only [Rep.extend, decide_eq_true hn, Res.require_true, Res.bind_ok, Res.pure_eq]

theorem extend_abort {r : Rep} (n : Nat) (hn : r.writeAvailable < n) : r.extend n = .abort := by
  simp only [Rep.extend, decide_eq_false (Nat.not_le.2 hn), Res.require_false, Res.bind_abort]

theorem view_extend {r : Rep} (h : RepOk r) (n : Nat) (hn : n ≤ r.writeAvailable) (g : Nat) (cow : Bool) :
    view { r with back := r.back + n } g cow =
      ⟨r.contents ++ (r.data.drop r.back).take n, r.data.length, r.writeAvailable - n, g, cow⟩ := by
  have hb := h.bd; have hf := h.fb
  simp only [Rep.writeAvailable] at hn
  simp only [view, Rep.contents, Rep.readAvailable, Rep.writeAvailable, Nat.sub_sub, Buf.mk.injEq, and_true, true_and]
  apply List.ext_getElem?
  intro k
  simp only [List.getElem?_take, List.getElem?_drop, List.getElem?_append, List.length_take, List.length_drop]
  grind

theorem unextend_ok {r : Rep} (h : RepOk r) (n : Nat) (hn : n ≤ r.contents.length) :
    ∃ r', r.unextend n = .ok r' ∧ RepOk r' ∧ ∀ g cow, view r' g cow =
      { view r g cow with contents := r.contents.take (r.contents.length - n), avail := r.writeAvailable + n } := by
  have hb := h.bd; have hf := h.fb
  rw [length_contents h] at hn
  have hn' := hn
  simp only [Rep.readAvailable] at hn'
  refine ⟨{ r with back := r.back - n }, ?_, ⟨by dsimp only; omega, by dsimp only; omega⟩, ?_⟩
  · simp only [Rep.unextend, decide_eq_true hn, Res.require_true, Res.bind_ok, Res.pure_eq]
  · intro g cow
    rw [length_contents h]
    simp only [view, Rep.contents, Rep.readAvailable, Rep.writeAvailable, List.take_take, Buf.mk.injEq, and_true, true_and]
    constructor
    · congr 1; omega
    · omega

theorem unextend_abort {r : Rep} (h : RepOk r) (n : Nat) (hn : r.contents.length < n) : r.unextend n = .abort := by
  rw [length_contents h] at hn
  simp only [Rep.unextend, decide_eq_false (Nat.not_le.2 hn), Res.require_false, Res.bind_abort]

theorem empty_iff {r : Rep} (h : RepOk r) : r.empty = true ↔ r.readAvailable = 0 := by
  have hf := h.fb
  simp only [Rep.empty, Rep.readAvailable, beq_iff_eq]; omega

theorem shift_ok {r : Rep} (h : RepOk r) : RepOk r.shift ∧ ∀ g cow, view r.shift g cow =
    { view r g cow with avail := r.data.length - r.contents.length } := by
  have hb := h.bd; have hf := h.fb
  have hl := length_contents h
  unfold Rep.shift
  split
  · rename_i he
    have h0 := (empty_iff h).1 he
    refine ⟨⟨Nat.le_refl _, Nat.zero_le _⟩, fun g cow => ?_⟩
    rw [hl, h0]
    simp [view, Rep.contents, Rep.readAvailable, Rep.writeAvailable]
    simp only [Rep.readAvailable] at h0
    omega
  · split
    · have hlen : (r.contents ++ r.data.drop r.readAvailable).length = r.data.length := by
        rw [List.length_append, hl, List.length_drop]; simp only [Rep.readAvailable]; omega
      refine ⟨⟨Nat.zero_le _, ?_⟩, fun g cow => ?_⟩
      · dsimp only; rw [hlen]; simp only [Rep.readAvailable]; omega
      · simp only [view, Rep.writeAvailable, hlen, Buf.mk.injEq, and_true, true_and]
        refine ⟨?_, by rw [hl]⟩
        rw [← hl]; exact contents_front _ _ _
    · refine ⟨h, fun g cow => ?_⟩
      have : r.front = 0 := by omega
      simp only [view, hl, Rep.writeAvailable, Rep.readAvailable, this, Nat.sub_zero]

theorem resize_ok {r : Rep} (h : RepOk r) (junk : Nat → Byte) (n : Nat) (hn : r.contents.length ≤ n) :
    ∃ r', r.resizeBuffer junk n = .ok r' ∧ RepOk r' ∧ ∀ g cow, view r' g cow =
      ⟨r.contents, n, n - r.contents.length, g, cow⟩ := by
  have hb := h.bd; have hf := h.fb
  have hl := length_contents h
  unfold Rep.resizeBuffer
  split
  · rename_i he
    refine ⟨_, rfl, (shift_ok h).1, fun g cow => ?_⟩
    rw [(shift_ok h).2]
    simp [view, he.1]
  · split
    · rename_i he
      have h0 := (empty_iff h).1 he
      have hc : r.contents = [] := List.length_eq_zero_iff.1 (by omega)
      refine ⟨_, rfl, ⟨Nat.le_refl _, Nat.zero_le _⟩, fun g cow => ?_⟩
      rw [hc]
      simp [view, Rep.contents, Rep.readAvailable, Rep.writeAvailable]
    · rw [decide_eq_true (by omega), Res.require_true, Res.bind_ok]
      have hlen : (r.contents ++ ((List.range n).map junk).drop r.readAvailable).length = n := by
        rw [List.length_append, hl, List.length_drop]; simp only [List.length_map, List.length_range]; omega
      refine ⟨_, rfl, ⟨Nat.zero_le _, ?_⟩, fun g cow => ?_⟩
      · dsimp only; rw [hlen]; omega
      · simp only [view, Rep.writeAvailable, hlen, Buf.mk.injEq, and_true, true_and]
        refine ⟨?_, by rw [hl]⟩
        rw [← hl]; exact contents_front _ _ _

theorem resize_abort {r : Rep} (h : RepOk r) (junk : Nat → Byte) (n : Nat) (hn : n < r.contents.length) :
    r.resizeBuffer junk n = .abort := by
  have hb := h.bd; have hf := h.fb
  have hl := length_contents h
  unfold Rep.resizeBuffer
  rw [if_neg, if_neg, decide_eq_false (by omega), Res.require_false, Res.bind_abort]
  · rw [empty_iff h]; omega
  · simp only [Rep.readAvailable] at hl; omega

theorem put_ok {r : Rep} (h : RepOk r) (pos : Nat) (bs : List Byte) (hp : pos + bs.length ≤ r.data.length) :
    ∃ r', r.put pos bs = .ok r' ∧ RepOk r' ∧ r'.front = r.front ∧ r'.back = r.back ∧
      r'.data.length = r.data.length ∧
      ∀ k, r'.data[k]? = if pos ≤ k ∧ k < pos + bs.length then bs[k - pos]? else r.data[k]? := by
  have hb := h.bd; have hf := h.fb
  have hlen : (r.data.take pos ++ bs ++ r.data.drop (pos + bs.length)).length = r.data.length := by
    simp only [List.length_append, List.length_take, List.length_drop]; omega
  refine ⟨{ r with data := r.data.take pos ++ bs ++ r.data.drop (pos + bs.length) }, by rw [Rep.put, if_pos hp],
    ⟨hf, by dsimp only; omega⟩, rfl, rfl, hlen, fun k => ?_⟩
  simp only [List.getElem?_append, List.length_append, List.length_take, List.getElem?_take, List.getElem?_drop]
  grind

/-- Writing at the end of the readable part and extending by `k`. -/
theorem fill_ok {r : Rep} (h : RepOk r) (bs : List Byte) (k : Nat) (hb : bs.length ≤ r.writeAvailable) :
    ∃ r', r.put r.back bs = .ok r' ∧ RepOk r' ∧ view r' = view r ∧ r'.back = r.back ∧ r'.data.length = r.data.length ∧
      (k ≤ r.writeAvailable → r'.extend k = .ok { r' with back := r'.back + k } ∧ RepOk { r' with back := r'.back + k } ∧
      ∀ g cow, view { r' with back := r'.back + k } g cow =
        ⟨r.contents ++ (bs ++ r.data.drop (r.back + bs.length)).take k, r.data.length, r.writeAvailable - k, g, cow⟩) := by
  have hbd := h.bd
  have hb' := hb
  simp only [Rep.writeAvailable] at hb'
  obtain ⟨r', e1, e2, e3, e4, e5, e6⟩ := put_ok h r.back bs (by omega)
  have hw : r'.writeAvailable = r.writeAvailable := by simp only [Rep.writeAvailable, e5, e4]
  have hc : r'.contents = r.contents := by
    apply List.ext_getElem?
    intro j
    rw [getElem?_contents e2, getElem?_contents h]
    simp only [Rep.readAvailable, e3, e4, e6]
    grind
  refine ⟨r', e1, e2, ?_, e4, e5, fun hk => ?_⟩
  · funext g cow; simp only [view, hc, e5, hw]
  obtain ⟨x1, x2⟩ := extend_ok e2 k (by rw [hw]; omega)
  refine ⟨x1, x2, fun g cow => ?_⟩
  rw [view_extend e2 k (by rw [hw]; omega), hc, e5, hw]
  congr 2
  apply List.ext_getElem?
  intro j
  simp only [List.getElem?_take, List.getElem?_drop, List.getElem?_append, e6, e4]
  grind

theorem append_ok {r : Rep} (h : RepOk r) (bs : List Byte) (k : Nat) (hb : bs.length ≤ r.writeAvailable)
    (hk : k ≤ bs.length) :
    ∃ r', r.put r.back bs = .ok r' ∧ RepOk r' ∧ view r' = view r ∧ r'.back = r.back ∧ r'.data.length = r.data.length ∧
      r'.extend k = .ok { r' with back := r'.back + k } ∧ RepOk { r' with back := r'.back + k } ∧
      ∀ g cow, view { r' with back := r'.back + k } g cow =
        ⟨r.contents ++ bs.take k, r.data.length, r.writeAvailable - k, g, cow⟩ := by
  obtain ⟨r', e1, e2, e3, e4, e5, e6⟩ := fill_ok h bs k hb
  obtain ⟨e6, e7, e8⟩ := e6 (by omega)
  exact ⟨r', e1, e2, e3, e4, e5, e6, e7, fun g cow => by rw [e8, List.take_append_of_le_length hk]⟩

/-- `memcpy(writeStart(size), ...)` at representation level. -/
theorem writeStart_ok {r : Rep} (h : RepOk r) (bs : List Byte) (hb : bs.length ≤ r.writeAvailable) :
    ∃ r', (do let r1 ← r.extend bs.length; r1.put r.back bs) = .ok r' ∧ RepOk r' ∧
      ∀ g cow, view r' g cow = ⟨r.contents ++ bs, r.data.length, r.writeAvailable - bs.length, g, cow⟩ := by
  have hbd := h.bd
  obtain ⟨r', e1, e2, e3, e4, e5, e6, e7, e8⟩ := append_ok h bs bs.length hb (Nat.le_refl _)
  obtain ⟨x1, x2⟩ := extend_ok h bs.length hb
  refine ⟨{ r' with back := r'.back + bs.length }, ?_, e7, fun g cow => by rw [e8, List.take_length]⟩
  rw [x1, Res.bind_ok]
  unfold Rep.put at e1 ⊢
  split at e1
  · rename_i hp
    cases e1
    simp only [if_pos hp]
  · cases e1

theorem poke_ok {r : Rep} (h : RepOk r) (off : Nat) (bs : List Byte)
    (hp : off + bs.length ≤ r.contents.length + r.writeAvailable) :
    ∃ r', r.put (r.front + off) bs = .ok r' ∧ RepOk r' ∧
      ∀ g cow, view r' g cow = ⟨overlay r.contents off bs, r.data.length, r.writeAvailable, g, cow⟩ := by
  have hbd := h.bd
  have hf := h.fb
  have hl := length_contents h
  simp only [hl, Rep.writeAvailable, Rep.readAvailable] at hp
  obtain ⟨r', e1, e2, e3, e4, e5, e6⟩ := put_ok h (r.front + off) bs (by omega)
  refine ⟨r', e1, e2, fun g cow => ?_⟩
  have hw : r'.writeAvailable = r.writeAvailable := by simp only [Rep.writeAvailable, e5, e4]
  simp only [view, e5, hw, Buf.mk.injEq, and_true, true_and]
  apply List.ext_getElem?
  intro k
  rw [getElem?_contents e2]
  simp only [overlay, List.getElem?_map, hl, e3, e6, Rep.readAvailable, e4]
  split
  · rename_i hk
    rw [List.getElem?_range hk]
    simp only [Option.map_some]
    have hin : r.contents.getD k 0 = r.data.getD (r.front + k) 0 := by
      simp only [List.getD_eq_getElem?_getD, getElem?_contents h, Rep.readAvailable, hk, if_true]
    rw [hin]
    have hlt : r.front + k < r.data.length := by omega
    split
    · rename_i hc
      rw [if_pos (by omega)]
      rw [show r.front + k - (r.front + off) = k - off by omega]
      rw [List.getD_eq_getElem?_getD, List.getElem?_eq_getElem (by omega)]; rfl
    · rw [if_neg (by omega), List.getD_eq_getElem?_getD, List.getElem?_eq_getElem hlt]; rfl
  · rename_i hk
    rw [List.getElem?_eq_none (by simp; omega)]; rfl

theorem put_ub {r : Rep} (pos : Nat) (bs : List Byte) (hp : r.data.length < pos + bs.length) : r.put pos bs = .ub := by
  rw [Rep.put, if_neg (by omega)]

/-- The exact-size copy `forceUnique` makes. -/
theorem clone_ok {r : Rep} (h : RepOk r) (junk : Nat → Byte) :
    ∃ n n1 n2, Rep.resizeBuffer junk Rep.new r.readAvailable = .ok n ∧ n.extend r.readAvailable = .ok n1 ∧
      n1.put n.back r.contents = .ok n2 ∧ RepOk n2 ∧
      ∀ g cow, view n2 g cow = ⟨r.contents, r.contents.length, 0, g, cow⟩ := by
  have hl := length_contents h
  obtain ⟨n, a1, a2, a3⟩ := resize_ok new_ok junk r.readAvailable (by simp [Rep.new, Rep.contents])
  have v := a3 0 false
  simp only [view, Rep.new, Rep.contents, Buf.mk.injEq, and_true] at v
  obtain ⟨v1, v2, v3⟩ := v
  have hw : n.writeAvailable = r.readAvailable := by simpa [Rep.contents, Rep.readAvailable] using v3
  obtain ⟨n2, b1, b2, b3⟩ := writeStart_ok a2 r.contents (by omega)
  rw [hl] at b1
  obtain ⟨x1, x2⟩ := extend_ok a2 r.readAvailable (by omega)
  rw [x1, Res.bind_ok] at b1
  refine ⟨n, _, n2, a1, x1, b1, b2, fun g cow => ?_⟩
  rw [b3, hw, v2]
  have hc : n.contents = [] := List.length_eq_zero_iff.1 (by
    rw [length_contents a2]
    have := length_contents a2
    have e := a3 0 false
    simp only [view, Buf.mk.injEq] at e
    rw [← length_contents a2, e.1]; rfl)
  rw [hc, hl]; simp

end Verif.BB
