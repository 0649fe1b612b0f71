import Verif.BB.Misuse

/-!
# A second, simpler specification: buffers are byte strings

No sizes, no sharing: a list of optional byte strings. It says what a completed call did.
-/

namespace Verif.BB

abbrev Texts := List (Option (List Byte))

/-- Text `i` is replaced by one related to it by `f`. -/
def Edits (t : Texts) (i : Nat) (t' : Texts) (f : List Byte → List Byte → Prop) : Prop :=
  ∃ c c', t[i]? = some (some c) ∧ f c c' ∧ t' = t.set i (some c')

def TStep (t : Texts) (op : Op) (o : Out) (t' : Texts) : Prop :=
  match op with
  | .new _ => t' = t ++ [some []]
  | .newFrom bs _ => t' = t ++ [some bs]
  | .copy i => ∃ c, t[i]? = some (some c) ∧ t' = t ++ [some c]
  | .setTo i j => ∃ c, t[j]? = some (some c) ∧ t' = t.set i (some c)
  | .destroy i => t' = t.set i none
  | .consume i n => Edits t i t' (fun c c' => c' = c.drop n)
  | .append i bs | .writeStart i bs => Edits t i t' (fun c c' => c' = c ++ bs)
  | .appendBuf i j => ∃ d, t[j]? = some (some d) ∧ Edits t i t' (fun c c' => c' = c ++ d)
  | .fill i bs k => Edits t i t' (fun c c' => ∃ u : List Byte, k ≤ bs.length + u.length ∧ c' = c ++ (bs ++ u).take k)
  | .extend i n => Edits t i t' (fun c c' => ∃ u : List Byte, u.length = n ∧ c' = c ++ u)
  | .unextend i n => Edits t i t' (fun c c' => c' = c.take (c.length - n))
  | .poke i off bs | .replace i off bs => Edits t i t' (fun c c' => c' = overlay c off bs)
  | .resize i _ | .shift i | .forceUnique i => Edits t i t' (fun c c' => c' = c)
  | .reset i | .purge i | .detach i => Edits t i t' (fun _ c' => c' = [])
  | .assign i bs => Edits t i t' (fun _ c' => c' = bs)
  | .assignBuf i j => ∃ d, t[j]? = some (some d) ∧ Edits t i t' (fun _ c' => c' = if i = j then [] else d)
  | .fromStream i bs amount => o = .count (min amount bs.length) ∧ Edits t i t' (fun c c' => c' = c ++ bs.take amount)
  | .entireStream i bs _ => ∃ k, o = .count k ∧ k ≤ bs.length ∧ Edits t i t' (fun c c' => c' = c ++ bs.take k)
  | .asString i => t' = t ∧ ∃ c, t[i]? = some (some c) ∧ o = .bytes c
  | .sizes i => t' = t ∧ ∃ c sz av, t[i]? = some (some c) ∧ o = .sizes sz c.length av
  | .eq i j => t' = t ∧ ∃ c d, t[i]? = some (some c) ∧ t[j]? = some (some d) ∧ o = .bool (decide (c = d))

def TRun : Texts → List Op → List Out → Prop
  | _, [], outs => outs = []
  | t, op :: ops, outs => ∃ o t' outs', TStep t op o t' ∧ TRun t' ops outs' ∧ outs = o :: outs'

/-- The texts of a list of buffers. -/
def texts (s : Bufs) : Texts := s.map (·.map (·.contents))

theorem texts_live {s : Bufs} {i : Nat} {b : Buf} (h : Live s i b) : (texts s)[i]? = some (some b.contents) := by
  simp only [Live] at h
  simp only [texts, List.getElem?_map, h, Option.map_some]

theorem texts_set (s : Bufs) (i : Nat) (b : Buf) : texts (s.set i (some b)) = (texts s).set i (some b.contents) := by
  simp only [texts, List.map_set, Option.map_some]

theorem edits_of_changes {s s' : Bufs} {i : Nat} {f : Buf → Buf → Prop} {F : List Byte → List Byte → Prop}
    (h : Changes s i s' f) (hf : ∀ b b2, f b b2 → F b.contents b2.contents) : Edits (texts s) i (texts s') F := by
  obtain ⟨b, b1, b2, h1, h2, h3, rfl⟩ := h
  refine ⟨b.contents, b2.contents, texts_live h1, ?_, texts_set _ _ _⟩
  rw [← (own_contents h2).1]
  exact hf _ _ h3

theorem add_contents (b : Buf) (bs : List Byte) : (b.add bs).contents = b.contents ++ bs := by
  unfold Buf.add; split <;> rfl

theorem tstep_of_bstep {s s' : Bufs} {op : Op} {o : Out} (h : BStep s op o s') : TStep (texts s) op o (texts s') := by
  cases op with
  | new cow => obtain ⟨_, g, _, rfl⟩ := h; simp [TStep, texts]
  | newFrom bs cow => obtain ⟨_, g, _, rfl⟩ := h; simp [TStep, texts]
  | copy i => obtain ⟨_, b, hl, rfl⟩ := h; exact ⟨_, texts_live hl, by simp [texts]⟩
  | setTo i j => obtain ⟨_, b, hl, rfl⟩ := h; exact ⟨_, texts_live hl, texts_set _ _ _⟩
  | destroy i => obtain ⟨_, rfl⟩ := h; simp [TStep, texts, List.map_set]
  | consume i n => exact edits_of_changes h.2 (fun b b2 e => by rw [e])
  | append i bs => exact edits_of_changes h.2 (fun b b2 e => by rw [e, add_contents])
  | appendBuf i j => obtain ⟨_, c, hl, h⟩ := h; exact ⟨_, texts_live hl, edits_of_changes h (fun b b2 e => by rw [e, add_contents])⟩
  | writeStart i bs => exact edits_of_changes h.2 (fun b b2 e => by rw [e])
  | fill i bs k => exact edits_of_changes h.2 (fun b b2 e => by obtain ⟨u, hu, e⟩ := e; exact ⟨u, hu, by rw [e]⟩)
  | extend i n => exact edits_of_changes h.2 (fun b b2 e => by obtain ⟨u, hu, e⟩ := e; exact ⟨u, hu, by rw [e]⟩)
  | unextend i n => exact edits_of_changes h.2 (fun b b2 e => by rw [e])
  | poke i off bs => exact edits_of_changes h.2 (fun b b2 e => by rw [e])
  | replace i off bs => exact edits_of_changes h.2 (fun b b2 e => by rw [e])
  | resize i n => exact edits_of_changes h.2 (fun b b2 e => by rw [e])
  | shift i => exact edits_of_changes h.2 (fun b b2 e => by rw [e])
  | reset i => exact edits_of_changes h.2 (fun b b2 e => by rw [e])
  | purge i => exact edits_of_changes h.2 (fun b b2 e => by rw [e])
  | detach i => obtain ⟨_, b, g, hl, _, rfl⟩ := h; exact ⟨_, _, texts_live hl, rfl, texts_set _ _ _⟩
  | assign i bs => exact edits_of_changes h.2 (fun b b2 e => by rw [e, add_contents]; rfl)
  | assignBuf i j =>
    obtain ⟨_, c, hl, h⟩ := h
    exact ⟨_, texts_live hl, edits_of_changes h (fun b b2 e => by rw [e, add_contents]; rfl)⟩
  | forceUnique i => exact edits_of_changes h.2 (fun b b2 e => by rw [e])
  | fromStream i bs amount =>
    obtain ⟨ho, b, b1, b2, hl, _, hc, _, _, rfl⟩ := h
    exact ⟨ho, _, _, texts_live hl, hc, texts_set _ _ _⟩
  | entireStream i bs mx =>
    obtain ⟨k, ho, b, b1, b2, hl, _, hc, _, _, rfl, hk, _⟩ := h
    exact ⟨k, ho, hk, _, _, texts_live hl, hc, texts_set _ _ _⟩
  | asString i => obtain ⟨rfl, b, hl, ho⟩ := h; exact ⟨rfl, _, texts_live hl, ho⟩
  | sizes i => obtain ⟨rfl, b, hl, ho⟩ := h; exact ⟨rfl, _, _, _, texts_live hl, ho⟩
  | eq i j => obtain ⟨rfl, b, c, hb, hc, ho⟩ := h; exact ⟨rfl, _, _, texts_live hb, texts_live hc, ho⟩

theorem texts_run (J : Junk) : ∀ (ops : List Op) (s : St) (outs : List Out), WF s → run J s ops = .ok outs →
    TRun (texts (abs s)) ops outs
  | [], s, outs, _, he => by cases he; rfl
  | op :: ops, s, outs, h, he => by
    simp only [run] at he
    cases hs : step J s op with
    | ok p =>
      obtain ⟨s', o⟩ := p
      rw [hs, Res.bind_ok] at he
      cases hr : run J s' ops with
      | ok outs' =>
        rw [hr] at he
        cases he
        obtain ⟨h1, h2⟩ := step_done J h hs
        exact ⟨o, _, outs', tstep_of_bstep h1, texts_run J ops s' outs' h2 hr, rfl⟩
      | abort => rw [hr] at he; cases he
      | ub => rw [hr] at he; cases he
    | abort => rw [hs] at he; cases he
    | ub => rw [hs] at he; cases he

end Verif.BB
