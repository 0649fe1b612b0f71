import Verif.BB.Texts

/-! # Properties of `ByteBuffer` (C12, C13, C65, C66, C67) -/

namespace Verif.BB

/-- C12, C13: over every history of any number of buffers, whatever fresh memory holds, each buffer is
an independent value with exact contents and sizes, and the process stops exactly when the
specification says. Undefined calls are listed in `BMisuse`. -/
theorem bytebuffer_values (J : Junk) (ops : List Op) : BRun [] ops (run J init ops) :=
  bb_run J ops init wf_init

/-- C13: the answers of any completed history are those of plain byte strings: appended minus consumed,
whatever the sizes, shifts, reallocations and sharing. -/
theorem bytebuffer_is_text (J : Junk) (ops : List Op) (outs : List Out) (h : run J init ops = .ok outs) :
    TRun [] ops outs :=
  texts_run J ops init outs wf_init h

example : run (fun k n => Fin.ofNat 256 (k * 7 + n)) init
    [.newFrom [1, 2, 3] true, .copy 0, .append 1 [9], .consume 0 2, .asString 0, .asString 1, .resize 1 9, .shift 1,
      .asString 1, .eq 0 1, .appendBuf 0 1, .asString 0, .sizes 1] =
    .ok [.unit, .unit, .unit, .unit, .bytes [3], .bytes [1, 2, 3, 9], .unit, .unit, .bytes [1, 2, 3, 9], .bool false, .unit,
      .bytes [3, 1, 2, 3, 9], .sizes 9 4 5] := by decide

/-- None of the calls left open by `BRun` completes. -/
theorem misuse_never_ok (J : Junk) (ops : List Op) (s : St) (h : after J init ops = .ok s) (op : Op)
    (hm : BMisuse (abs s) op) : ∀ p, step J s op ≠ .ok p :=
  misuse_not_ok J (after_wf J ops init s wf_init h) op hm

example : step (fun _ _ => 0) init (.asString 0) = .ub := by decide

/-- The variable a call is made on, when the call may change it. -/
def Op.target : Op → Option Nat
  | .new _ | .newFrom _ _ | .copy _ | .asString _ | .sizes _ | .eq _ _ => none
  | .setTo i _ | .destroy i | .consume i _ | .append i _ | .appendBuf i _ | .writeStart i _ | .fill i _ _ | .extend i _
  | .unextend i _ | .poke i _ _ | .replace i _ _ | .resize i _ | .shift i | .reset i | .purge i | .detach i | .assign i _
  | .assignBuf i _ | .forceUnique i | .fromStream i _ _ | .entireStream i _ _ => some i

theorem changes_other {s s' : Bufs} {i j : Nat} {f : Buf → Buf → Prop} {b : Buf} (h : Changes s i s' f) (hij : j ≠ i)
    (hl : Live s j b) : Live s' j b := by
  obtain ⟨_, _, _, _, _, _, rfl⟩ := h
  simp only [Live] at hl ⊢
  rwa [List.getElem?_set_ne (fun e => hij e.symm)]

theorem set_other {s : Bufs} {i j : Nat} {x : Option Buf} {b : Buf} (hij : j ≠ i) (hl : Live s j b) : Live (s.set i x) j b := by
  simp only [Live] at hl ⊢
  rwa [List.getElem?_set_ne (fun e => hij e.symm)]

theorem add_other {s : Bufs} {j : Nat} {x : Option Buf} {b : Buf} (hl : Live s j b) : Live (s ++ [x]) j b := by
  simp only [Live] at hl ⊢
  rwa [List.getElem?_append_left (List.getElem?_eq_some_iff.1 hl).1]

theorem bstep_other {s s' : Bufs} {op : Op} {o : Out} {j : Nat} {b : Buf} (h : BStep s op o s') (hj : op.target ≠ some j)
    (hl : Live s j b) : Live s' j b := by
  cases op with
  | new cow => obtain ⟨_, g, _, rfl⟩ := h; exact add_other hl
  | newFrom bs cow => obtain ⟨_, g, _, rfl⟩ := h; exact add_other hl
  | copy i => obtain ⟨_, c, _, rfl⟩ := h; exact add_other hl
  | setTo i k => obtain ⟨_, c, _, rfl⟩ := h; exact set_other (fun e => hj (by rw [e]; rfl)) hl
  | destroy i => obtain ⟨_, rfl⟩ := h; exact set_other (fun e => hj (by rw [e]; rfl)) hl
  | detach i => obtain ⟨_, c, g, _, _, rfl⟩ := h; exact set_other (fun e => hj (by rw [e]; rfl)) hl
  | appendBuf i k => obtain ⟨_, c, _, h⟩ := h; exact changes_other h (fun e => hj (by rw [e]; rfl)) hl
  | assignBuf i k => obtain ⟨_, c, _, h⟩ := h; exact changes_other h (fun e => hj (by rw [e]; rfl)) hl
  | fromStream i bs amount => obtain ⟨_, _, _, _, _, _, _, _, _, rfl⟩ := h; exact set_other (fun e => hj (by rw [e]; rfl)) hl
  | entireStream i bs mx => obtain ⟨_, _, _, _, _, _, _, _, _, _, rfl, _⟩ := h; exact set_other (fun e => hj (by rw [e]; rfl)) hl
  | asString i => rw [h.1]; exact hl
  | sizes i => rw [h.1]; exact hl
  | eq i k => rw [h.1]; exact hl
  | _ => exact changes_other h.2 (fun e => hj (by rw [e]; rfl)) hl

/-- C12: from every reachable state, a completed call on one buffer leaves the contents and the sizes of
every other buffer unchanged. -/
theorem bytebuffer_isolated (J : Junk) (ops : List Op) (s : St) (h : after J init ops = .ok s) (op : Op) (s' : St) (o : Out)
    (he : step J s op = .ok (s', o)) (j : Nat) (hj : op.target ≠ some j) (c : List Byte) (a r w : Nat)
    (hc : step J s (.asString j) = .ok (s, .bytes c)) (hz : step J s (.sizes j) = .ok (s, .sizes a r w)) :
    step J s' (.asString j) = .ok (s', .bytes c) ∧ step J s' (.sizes j) = .ok (s', .sizes a r w) := by
  have hwf := after_wf J ops init s wf_init h
  obtain ⟨hb, hwf'⟩ := step_done J hwf he
  obtain ⟨b1, b2⟩ := step_done J hwf hc
  obtain ⟨_, b, hl, hbc⟩ := b1
  obtain ⟨⟨_, b', hl', hbz⟩, _⟩ := step_done J hwf hz
  have : b' = b := by
    simp only [Live] at hl hl'
    rw [hl] at hl'; simpa using hl'.symm
  subst this
  have hl2 := bstep_other hb hj hl
  obtain ⟨v, hv, hvb⟩ := (live_iff s' j b').1 hl2
  obtain ⟨q, hq, hqok⟩ := hwf' j v hv
  rw [viewVar_eq hq] at hvb
  subst hvb
  simp only [Out.bytes.injEq, Out.sizes.injEq, view] at hbc hbz
  simp only [step, getRep_eq hv hq, Res.bind_ok, hbc, hbz, length_contents hqok]
  exact ⟨rfl, rfl⟩

example : after (fun _ _ => 0) init [.newFrom [1, 2, 3] true, .copy 0, .append 1 [9]] ≠ .ub ∧
    (Op.append 1 [9]).target ≠ some 0 := by decide

/-! ## Findings -/

/-- C65 is false: a buffer that reports room for 5 bytes stops the process when one byte is written, if
it has been copied (`forceUnique` keeps no room). -/
theorem room_not_honoured_when_copied :
    run (fun _ _ => 0) init [.newFrom [1, 2, 3] true, .resize 0 8, .sizes 0, .writeStart 0 [7], .asString 0] =
      .ok [.unit, .unit, .sizes 8 3 5, .unit, .bytes [1, 2, 3, 7]] ∧
    run (fun _ _ => 0) init [.newFrom [1, 2, 3] true, .resize 0 8, .copy 0, .sizes 0] = .ok [.unit, .unit, .unit, .sizes 8 3 5] ∧
    run (fun _ _ => 0) init [.newFrom [1, 2, 3] true, .resize 0 8, .copy 0, .writeStart 0 [7]] = .abort := by decide

/-- C65 for a buffer no other variable is a copy of: all the reported room can be written.
Missing: copied buffers. -/
theorem room_honoured_partial (J : Junk) (ops : List Op) (s : St) (h : after J init ops = .ok s) (i : Nat) (b : Buf)
    (hl : Live (abs s) i b) (hs : ¬Shared (abs s) i b) (bs : List Byte) (hn : bs.length ≤ b.avail) :
    ∃ s', step J s (.writeStart i bs) = .ok (s', .unit) ∧
      step J s' (.asString i) = .ok (s', .bytes (b.contents ++ bs)) := by
  have hwf := after_wf J ops init s wf_init h
  have hown : ∀ b', Live (abs s) i b' → b' = b := by
    intro b' h'
    simp only [Live] at hl h'
    rw [hl] at h'; simpa using h'.symm
  rcases meets_writeStart J hwf i bs with hm | ⟨⟨b', hl', ha⟩, _⟩ | ⟨s', o, he, ⟨rfl, b', b1, b2, hl', ho, e, e'⟩, hw'⟩
  · exact (hm b hl).elim
  · rw [hown b' hl'] at ha
    rcases ha with ⟨hsh, _⟩ | ⟨b1, ⟨_, rfl⟩ | ⟨hsh, _⟩, hlt⟩
    · exact (hs hsh).elim
    · omega
    · exact (hs hsh).elim
  · rw [hown b' hl'] at ho
    rcases ho with ⟨_, rfl⟩ | ⟨hsh, _⟩
    · refine ⟨s', he, ?_⟩
      have hl2 : Live (abs s') i b2 := by
        simp only [Live] at hl ⊢
        rw [e', List.getElem?_set_self (List.getElem?_eq_some_iff.1 hl).1]
      obtain ⟨v, hv, hvb⟩ := (live_iff s' i b2).1 hl2
      obtain ⟨q, hq, hqok⟩ := hw' i v hv
      rw [viewVar_eq hq, e] at hvb
      simp only [view, Buf.mk.injEq] at hvb
      simp only [step, getRep_eq hv hq, Res.bind_ok, ← hvb.1]
      rfl
    · exact (hs hsh).elim

example : ∃ s : St, after (fun _ _ => 0) init [.newFrom [1, 2, 3] true, .resize 0 8] = .ok s ∧
    abs s = [some ⟨[1, 2, 3], 8, 5, 0, true⟩] := ⟨_, rfl, by decide⟩

/-- C66 is false: appending a buffer to itself reads freed memory unless there already is room, and
assigning a buffer to itself empties it. -/
theorem self_append_and_assign :
    run (fun _ _ => 0) init [.newFrom [1, 2, 3] true, .appendBuf 0 0] = .ub ∧
    run (fun _ _ => 0) init [.newFrom [1, 2, 3] true, .assignBuf 0 0, .asString 0] = .ok [.unit, .unit, .bytes []] := by decide

/-- C66 when there is room, or when the buffer has been copied: the contents are doubled.
Missing: a unique buffer without room, and self-assignment. -/
theorem self_append_partial (J : Junk) (ops : List Op) (s : St) (h : after J init ops = .ok s) (i : Nat) (b : Buf)
    (hl : Live (abs s) i b) (hroom : Shared (abs s) i b ∨ b.contents.length ≤ b.avail) (hb : ¬Blocked (abs s) i b) :
    ∃ s', step J s (.appendBuf i i) = .ok (s', .unit) ∧
      step J s' (.asString i) = .ok (s', .bytes (b.contents ++ b.contents)) := by
  have hwf := after_wf J ops init s wf_init h
  have hown : ∀ b', Live (abs s) i b' → b' = b := by
    intro b' h'
    simp only [Live] at hl h'
    rw [hl] at h'; simpa using h'.symm
  rcases meets_appendBuf J hwf i i with hm | ⟨⟨b', hl', ha⟩, _⟩ | ⟨s', o, he, ⟨rfl, c, hc, b', b1, b2, hl', ho, e, e'⟩, hw'⟩
  · rcases hm with hm | hm | ⟨_, b', hl', hs, hlt⟩
    · exact (hm b hl).elim
    · exact (hm b hl).elim
    · rw [hown b' hl'] at hs hlt
      rcases hroom with h | h
      · exact (hs h).elim
      · omega
  · rw [hown b' hl'] at ha
    exact (hb ha).elim
  · refine ⟨s', he, ?_⟩
    have hl2 : Live (abs s') i b2 := by
      simp only [Live] at hl ⊢
      rw [e', List.getElem?_set_self (List.getElem?_eq_some_iff.1 hl).1]
    obtain ⟨v, hv, hvb⟩ := (live_iff s' i b2).1 hl2
    obtain ⟨q, hq, hqok⟩ := hw' i v hv
    rw [viewVar_eq hq] at hvb
    have h1 : q.contents = b1.contents ++ c.contents := by
      rw [← add_contents, ← e, hvb]; rfl
    rw [(own_contents ho).1, hown b' hl', hown c hc] at h1
    simp only [step, getRep_eq hv hq, Res.bind_ok, h1]
    rfl

example : run (fun _ _ => 0) init [.newFrom [1, 2, 3] true, .copy 0, .appendBuf 0 0, .asString 0, .asString 1] =
    .ok [.unit, .unit, .unit, .bytes [1, 2, 3, 1, 2, 3], .bytes [1, 2, 3]] := by decide

/-- C67 is false: reading a stream into a copied buffer that reports enough room writes past the end of
the fresh copy. -/
theorem stream_into_copied_buffer_overflows :
    run (fun _ _ => 0) init [.newFrom [1, 2, 3] true, .resize 0 8, .fromStream 0 [4, 5] 2, .asString 0] =
      .ok [.unit, .unit, .count 2, .bytes [1, 2, 3, 4, 5]] ∧
    run (fun _ _ => 0) init [.newFrom [1, 2, 3] true, .resize 0 8, .copy 0, .fromStream 0 [4, 5] 2] = .ub ∧
    run (fun _ _ => 0) init [.newFrom [1, 2, 3] true, .resize 0 8, .copy 0, .entireStream 0 [4, 5] 20] = .ub := by decide

/-- C67 for a buffer no other variable is a copy of: `min amount (length of the stream)` bytes are
appended. Missing: copied buffers with room. -/
theorem stream_appends_partial (J : Junk) (ops : List Op) (s : St) (h : after J init ops = .ok s) (i : Nat) (b : Buf)
    (hl : Live (abs s) i b) (hs : ¬Shared (abs s) i b) (bs : List Byte) (amount : Nat) :
    ∃ s', step J s (.fromStream i bs amount) = .ok (s', .count (min amount bs.length)) ∧
      step J s' (.asString i) = .ok (s', .bytes (b.contents ++ bs.take amount)) := by
  have hwf := after_wf J ops init s wf_init h
  have hown : ∀ b', Live (abs s) i b' → b' = b := by
    intro b' h'
    simp only [Live] at hl h'
    rw [hl] at h'; simpa using h'.symm
  rcases meets_fromStream J hwf i bs amount with hm | ⟨⟨b', hl', ha⟩, _⟩ |
    ⟨s', o, he, ⟨rfl, b', b1, b2, hl', ho, e, _, _, e'⟩, hw'⟩
  · rcases hm with hm | ⟨b', hl', hsh, _⟩
    · exact (hm b hl).elim
    · rw [hown b' hl'] at hsh; exact (hs hsh).elim
  · rw [hown b' hl'] at ha
    exact (hs ha.1).elim
  · refine ⟨s', he, ?_⟩
    have hl2 : Live (abs s') i b2 := by
      simp only [Live] at hl ⊢
      rw [e', List.getElem?_set_self (List.getElem?_eq_some_iff.1 hl).1]
    obtain ⟨v, hv, hvb⟩ := (live_iff s' i b2).1 hl2
    obtain ⟨q, hq, hqok⟩ := hw' i v hv
    rw [viewVar_eq hq] at hvb
    have h1 : q.contents = b.contents ++ bs.take amount := by
      rw [hown b' hl', hvb] at e
      exact e
    simp only [step, getRep_eq hv hq, Res.bind_ok, h1]
    rfl

example : run (fun _ _ => 0) init [.new true, .fromStream 0 [4, 5, 6] 2, .fromStream 0 [4] 9, .asString 0] =
    .ok [.unit, .count 2, .count 1, .bytes [4, 5, 4]] := by decide

end Verif.BB
