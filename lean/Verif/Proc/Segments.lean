import Verif.Proc.Lemmas

/-! # What happens between two events -/

namespace Verif.Proc

theorem life_some_tail {p : Pid} {e : Event} {l : List Event} {x : Life} (h : life p (e :: l) = some x) : ∃ y, life p l = some y ∧ Life.next p e y = some x := by
  simp only [life] at h
  cases hl : life p l with
  | none => rw [hl] at h; cases h
  | some y => rw [hl] at h; exact ⟨y, rfl, h⟩

theorem open_some_tail {e : Event} {l : List Event} {x : List Item} (h : open' (e :: l) = some x) : ∃ y, open' l = some y ∧ Item.next e y = some x := by
  simp only [open'] at h
  cases hl : open' l with
  | none => rw [hl] at h; cases h
  | some y => rw [hl] at h; exact ⟨y, rfl, h⟩

def Life.waiting : Life → Bool
  | .live _ _ => true
  | .zombie _ _ _ => true
  | _ => false

/-- Without a new process, the number is reaped at most once, and not at all if there is nothing to reap. -/
theorem reaped_once {p : Pid} : ∀ (seg l : List Event) (x : Life), life p (seg ++ l) = some x → (∀ m f, Event.forked p m f ∉ seg) →
    (x.waiting = true → ∀ s, Event.reaped p s ∉ seg) ∧ (∀ s s', Event.reaped p s ∈ seg → Event.reaped p s' ∈ seg → s = s') := by
  intro seg
  induction seg with
  | nil => intro l x _ _; simp
  | cons e seg ih =>
    intro l x hx hf
    obtain ⟨y, hy, hn⟩ := life_some_tail (l := seg ++ l) hx
    obtain ⟨ih1, ih2⟩ := ih l y hy (fun m f hm => hf m f (List.mem_cons_of_mem _ hm))
    cases e with
    | forked q m f =>
      have hq : q ≠ p := by rintro rfl; exact hf m f (by simp)
      simp only [Life.next, hq, if_false, Option.some.injEq] at hn
      subst hn
      simpa using ⟨ih1, ih2⟩
    | exited q s =>
      refine ⟨?_, by simpa using ih2⟩
      intro hw
      have : y.waiting = true := by
        simp only [Life.next] at hn
        split at hn
        · cases y <;> simp_all [Life.waiting]
        · simp only [Option.some.injEq] at hn; rw [hn]; exact hw
      simpa using ih1 this
    | reaped q s =>
      simp only [Life.next] at hn
      split at hn
      · next hq =>
        subst hq
        have hyw : y.waiting = true := by cases y <;> simp_all [Life.waiting]
        have hno := ih1 hyw
        refine ⟨?_, ?_⟩
        · intro hw
          exfalso
          cases y <;> simp only [reduceCtorEq] at hn
          split at hn
          · simp only [Option.some.injEq] at hn
            subst hn
            revert hw
            split
            · split <;> simp [Life.waiting]
            · simp [Life.waiting]
          · cases hn
        · intro a b ha hb
          simp only [List.mem_cons, Event.reaped.injEq, true_and] at ha hb
          rcases ha with ha | ha
          · rcases hb with hb | hb
            · rw [ha, hb]
            · exact absurd hb (hno b)
          · exact absurd ha (hno a)
      · next hq =>
        simp only [Option.some.injEq] at hn
        subst hn
        have hq' : p ≠ q := fun h => hq h.symm
        simp only [List.mem_cons, Event.reaped.injEq, hq', false_and, false_or]
        exact ⟨ih1, ih2⟩
    | called q s =>
      refine ⟨?_, by simpa using ih2⟩
      intro hw
      have : y.waiting = true := by
        simp only [Life.next] at hn
        split at hn
        · split at hn
          · simp only [Option.some.injEq] at hn; subst hn; simp [Life.waiting] at hw
          · cases hn
        · simp only [Option.some.injEq] at hn; rw [hn]; exact hw
      simpa using ih1 this
    | warned q s =>
      refine ⟨?_, by simpa using ih2⟩
      intro hw
      have : y.waiting = true := by
        simp only [Life.next] at hn
        split at hn
        · split at hn
          · simp only [Option.some.injEq] at hn; subst hn; simp [Life.waiting] at hw
          · cases hn
        · simp only [Option.some.injEq] at hn; rw [hn]; exact hw
      simpa using ih1 this
    | beganWait t => simp only [Life.next, Option.some.injEq] at hn; subst hn; simpa using ⟨ih1, ih2⟩
    | gaveWait t => simp only [Life.next, Option.some.injEq] at hn; subst hn; simpa using ⟨ih1, ih2⟩
    | beganAll => simp only [Life.next, Option.some.injEq] at hn; subst hn; simpa using ⟨ih1, ih2⟩
    | gaveAll t => simp only [Life.next, Option.some.injEq] at hn; subst hn; simpa using ⟨ih1, ih2⟩
    | beganPid t => simp only [Life.next, Option.some.injEq] at hn; subst hn; simpa using ⟨ih1, ih2⟩
    | gavePid t u => simp only [Life.next, Option.some.injEq] at hn; subst hn; simpa using ⟨ih1, ih2⟩
    | died d => simp only [Life.next, Option.some.injEq] at hn; subst hn; simpa using ⟨ih1, ih2⟩

/-- A process of the manager stays so until it is reaped. -/
theorem ours_until_reaped {p : Pid} : ∀ (seg l : List Event) (x : Life), life p (seg ++ l) = some x → Ours p l → (∀ s, Event.reaped p s ∉ seg) → Ours p (seg ++ l) := by
  intro seg
  induction seg with
  | nil => intro l x _ h _; exact h
  | cons e seg ih =>
    intro l x hx ho hr
    obtain ⟨y, hy, hn⟩ := life_some_tail (l := seg ++ l) hx
    have ih := ih l y hy ho (fun s hs => hr s (List.mem_cons_of_mem _ hs))
    unfold Ours at ih ⊢
    rw [hx]
    rw [hy] at ih
    cases e with
    | forked q m f =>
      simp only [Life.next] at hn
      split at hn
      · rcases ih with ⟨f, ih⟩ | ⟨f, s, ih⟩ <;> (cases ih; simp at hn)
      · rw [← hn]; exact ih
    | exited q s =>
      simp only [Life.next] at hn
      split at hn
      · rcases ih with ⟨f, ih⟩ | ⟨f, s, ih⟩
        · cases ih; simp only [Option.some.injEq] at hn; subst hn; exact .inr ⟨f, s, rfl⟩
        · cases ih; simp at hn
      · rw [← hn]; exact ih
    | reaped q s =>
      have hq : q ≠ p := by rintro rfl; exact hr s (by simp)
      simp only [Life.next, hq, if_false] at hn
      rw [← hn]; exact ih
    | called q s =>
      simp only [Life.next] at hn
      split at hn
      · rcases ih with ⟨f, ih⟩ | ⟨f, s, ih⟩ <;> (cases ih; simp at hn)
      · rw [← hn]; exact ih
    | warned q s =>
      simp only [Life.next] at hn
      split at hn
      · rcases ih with ⟨f, ih⟩ | ⟨f, s, ih⟩ <;> (cases ih; simp at hn)
      · rw [← hn]; exact ih
    | beganWait t => rw [← hn]; exact ih
    | gaveWait t => rw [← hn]; exact ih
    | beganAll => rw [← hn]; exact ih
    | gaveAll t => rw [← hn]; exact ih
    | beganPid t => rw [← hn]; exact ih
    | gavePid t u => rw [← hn]; exact ih
    | died d => rw [← hn]; exact ih

/-! ## `waitPid` -/

def Item.acc : Item → List (Pid × Status)
  | .wait _ acc => acc
  | .all acc => acc
  | .pid _ acc => acc

/-- While `waitPid(p)` runs, its own entry stays, and all that is in it and above it was reaped meanwhile. -/
theorem pid_segment {p : Pid} {older : List Event} {st : List Item} (h0 : open' older = some st) : ∀ (seg : List Event) (x : List Item), open' (seg ++ .beganPid p :: older) = some x → Event.beganPid p ∉ seg → (∀ s, Event.gavePid p (some s) ∉ seg) →
    ∃ A acc, x = A ++ .pid p acc :: st ∧ (∀ i ∈ A, ∀ acc', i ≠ .pid p acc') ∧ (∀ i ∈ A, ∀ y ∈ i.acc, Event.reaped y.1 y.2 ∈ seg) ∧ (∀ y ∈ acc, Event.reaped y.1 y.2 ∈ seg) := by
  intro seg
  induction seg with
  | nil =>
    intro x hx _ _
    simp only [List.nil_append, open', h0, Option.bind_some, Item.next, Option.some.injEq] at hx
    exact ⟨[], [], hx.symm, by simp, by simp, by simp⟩
  | cons e seg ih =>
    intro x hx hb hg
    obtain ⟨y, hy, hn⟩ := open_some_tail (l := seg ++ .beganPid p :: older) hx
    obtain ⟨A, acc, rfl, h1, h2, h3⟩ := ih y hy (fun h => hb (List.mem_cons_of_mem _ h)) (fun s h => hg s (List.mem_cons_of_mem _ h))
    have h2' : ∀ i ∈ A, ∀ y ∈ i.acc, Event.reaped y.1 y.2 ∈ e :: seg := fun i hi y hy => List.mem_cons_of_mem _ (h2 i hi y hy)
    have h3' : ∀ y ∈ acc, Event.reaped y.1 y.2 ∈ e :: seg := fun y hy => List.mem_cons_of_mem _ (h3 y hy)
    have same : Item.next e (A ++ .pid p acc :: st) = some (A ++ .pid p acc :: st) → ∃ A acc, x = A ++ .pid p acc :: st ∧ (∀ i ∈ A, ∀ acc', i ≠ .pid p acc') ∧ (∀ i ∈ A, ∀ y ∈ i.acc, Event.reaped y.1 y.2 ∈ e :: seg) ∧ (∀ y ∈ acc, Event.reaped y.1 y.2 ∈ e :: seg) := by
      intro hs
      rw [hs] at hn
      simp only [Option.some.injEq] at hn
      exact ⟨A, acc, hn.symm, h1, h2', h3'⟩
    have push : ∀ i : Item, i.acc = [] → (∀ acc', i ≠ .pid p acc') → x = i :: (A ++ .pid p acc :: st) → ∃ A acc, x = A ++ .pid p acc :: st ∧ (∀ i ∈ A, ∀ acc', i ≠ .pid p acc') ∧ (∀ i ∈ A, ∀ y ∈ i.acc, Event.reaped y.1 y.2 ∈ e :: seg) ∧ (∀ y ∈ acc, Event.reaped y.1 y.2 ∈ e :: seg) := by
      intro i hi hp hx
      refine ⟨i :: A, acc, by rw [hx]; rfl, ?_, ?_, h3'⟩
      · intro j hj
        simp only [List.mem_cons] at hj
        rcases hj with rfl | hj
        · exact hp
        · exact h1 j hj
      · intro j hj
        simp only [List.mem_cons] at hj
        rcases hj with rfl | hj
        · rw [hi]; simp
        · exact h2' j hj
    cases e with
    | forked q m f => exact same rfl
    | exited q s => exact same rfl
    | called q s => exact same rfl
    | warned q s => exact same rfl
    | died d => exact same rfl
    | beganWait t => exact push (.wait t []) rfl (by simp) (by simpa [Item.next] using hn.symm)
    | beganAll => exact push (.all []) rfl (by simp) (by simpa [Item.next] using hn.symm)
    | beganPid q =>
      have hq : q ≠ p := by rintro rfl; exact hb (by simp)
      exact push (.pid q []) rfl (by simp [hq]) (by simpa [Item.next] using hn.symm)
    | reaped q s =>
      cases A with
      | nil => simp [Item.next] at hn
      | cons i A =>
        cases i with
        | wait t ac =>
          simp only [Item.next, List.cons_append, Option.some.injEq] at hn
          refine ⟨.wait t ((q, s) :: ac) :: A, acc, by rw [← hn]; rfl, ?_, ?_, h3'⟩
          · intro j hj
            simp only [List.mem_cons] at hj
            rcases hj with rfl | hj
            · simp
            · exact h1 j (List.mem_cons_of_mem _ hj)
          · intro j hj
            simp only [List.mem_cons] at hj
            rcases hj with rfl | hj
            · intro y hy
              simp only [Item.acc, List.mem_cons] at hy
              rcases hy with rfl | hy
              · simp
              · exact h2' (.wait t ac) (by simp) y hy
            · exact h2' j (List.mem_cons_of_mem _ hj)
        | all ac => simp [Item.next] at hn
        | pid r ac => simp [Item.next] at hn
    | gaveWait r =>
      cases A with
      | nil => simp [Item.next] at hn
      | cons i A =>
        cases i with
        | wait t ac =>
          simp only [Item.next, List.cons_append, Option.some.injEq] at hn
          have hac : ∀ y ∈ ac, Event.reaped y.1 y.2 ∈ Event.gaveWait r :: seg := h2' (.wait t ac) (by simp)
          cases A with
          | nil =>
            refine ⟨[], ac ++ acc, by rw [← hn]; rfl, by simp, by simp, ?_⟩
            intro y hy
            simp only [List.mem_append] at hy
            rcases hy with hy | hy
            · exact hac y hy
            · exact h3' y hy
          | cons j A =>
            have hA1 : ∀ i ∈ A, ∀ acc', i ≠ .pid p acc' := fun i hi => h1 i (List.mem_cons_of_mem _ (List.mem_cons_of_mem _ hi))
            have hA2 : ∀ i ∈ A, ∀ y ∈ i.acc, Event.reaped y.1 y.2 ∈ Event.gaveWait r :: seg := fun i hi => h2' i (List.mem_cons_of_mem _ (List.mem_cons_of_mem _ hi))
            have hj1 := h1 j (by simp)
            have hj2 := h2' j (by simp)
            have key : ∀ j' : Item, (∀ acc', j' ≠ .pid p acc') → (∀ y ∈ j'.acc, Event.reaped y.1 y.2 ∈ Event.gaveWait r :: seg) → x = j' :: (A ++ .pid p acc :: st) →
                ∃ A acc, x = A ++ .pid p acc :: st ∧ (∀ i ∈ A, ∀ acc', i ≠ .pid p acc') ∧ (∀ i ∈ A, ∀ y ∈ i.acc, Event.reaped y.1 y.2 ∈ Event.gaveWait r :: seg) ∧ (∀ y ∈ acc, Event.reaped y.1 y.2 ∈ Event.gaveWait r :: seg) := by
              intro j' k1 k2 k3
              refine ⟨j' :: A, acc, k3, ?_, ?_, h3'⟩
              · intro i hi
                simp only [List.mem_cons] at hi
                rcases hi with rfl | hi
                · exact k1
                · exact hA1 i hi
              · intro i hi
                simp only [List.mem_cons] at hi
                rcases hi with rfl | hi
                · exact k2
                · exact hA2 i hi
            cases j with
            | wait t' ac' => exact key (.wait t' ac') (by simp) hj2 hn.symm
            | all ac' =>
              refine key (.all (ac ++ ac')) (by simp) ?_ hn.symm
              intro y hy
              simp only [Item.acc, List.mem_append] at hy
              rcases hy with hy | hy
              · exact hac y hy
              · exact hj2 y hy
            | pid q ac' =>
              refine key (.pid q (ac ++ ac')) (by have := hj1 ac'; simp only [ne_eq, Item.pid.injEq, and_true] at this; simp [this]) ?_ hn.symm
              intro y hy
              simp only [Item.acc, List.mem_append] at hy
              rcases hy with hy | hy
              · exact hac y hy
              · exact hj2 y hy
        | all ac => simp [Item.next] at hn
        | pid r ac => simp [Item.next] at hn
    | gaveAll r =>
      cases A with
      | nil => simp [Item.next] at hn
      | cons i A =>
        cases i with
        | all ac =>
          simp only [Item.next, List.cons_append, Option.some.injEq] at hn
          exact ⟨A, acc, hn.symm, fun i hi => h1 i (List.mem_cons_of_mem _ hi), fun i hi => h2' i (List.mem_cons_of_mem _ hi), h3'⟩
        | wait t ac => simp [Item.next] at hn
        | pid r ac => simp [Item.next] at hn
    | gavePid q o =>
      cases o with
      | none => exact same rfl
      | some s =>
        have hq : q ≠ p := by rintro rfl; exact hg s (by simp)
        cases A with
        | nil => simp [Item.next, Ne.symm hq] at hn
        | cons i A =>
          cases i with
          | pid r ac =>
            simp only [Item.next, List.cons_append] at hn
            split at hn
            · simp only [Option.some.injEq] at hn
              exact ⟨A, acc, hn.symm, fun i hi => h1 i (List.mem_cons_of_mem _ hi), fun i hi => h2' i (List.mem_cons_of_mem _ hi), h3'⟩
            · cases hn
          | all ac => simp [Item.next] at hn
          | wait t ac => simp [Item.next] at hn

/-! ## `waitAll`, when exit functions do not wait -/

/-- Calls that wait are not made while another one runs, except by `waitAll` and `waitPid` themselves. -/
def Flat : List Event → Prop
  | [] => True
  | .beganWait _ :: l => (open' l = some [] ∨ (∃ acc, open' l = some [.all acc]) ∨ ∃ p acc, open' l = some [.pid p acc]) ∧ Flat l
  | .beganAll :: l => open' l = some [] ∧ Flat l
  | .beganPid _ :: l => open' l = some [] ∧ Flat l
  | _ :: l => Flat l

theorem Flat.tail {e : Event} {l : List Event} (h : Flat (e :: l)) : Flat l := by
  cases e <;> first | exact h.2 | exact h

/-- While `waitAll` runs, it or its own `wait` has all that was reaped. -/
theorem all_segment {older : List Event} (h0 : open' older = some []) : ∀ (seg : List Event) (x : List Item), Flat (seg ++ .beganAll :: older) → open' (seg ++ .beganAll :: older) = some x → Event.beganAll ∉ seg → (∀ r, Event.gaveAll r ∉ seg) →
    ∃ acc, (x = [.all acc] ∧ ∀ p s, Event.reaped p s ∈ seg ↔ (p, s) ∈ acc) ∨ (∃ t acc', x = [.wait t acc', .all acc] ∧ ∀ p s, Event.reaped p s ∈ seg ↔ (p, s) ∈ acc' ++ acc) := by
  intro seg
  induction seg with
  | nil =>
    intro x _ hx _ _
    simp only [List.nil_append, open', h0, Option.bind_some, Item.next, Option.some.injEq] at hx
    exact ⟨[], .inl ⟨hx.symm, by simp⟩⟩
  | cons e seg ih =>
    intro x hf hx hb hg
    obtain ⟨y, hy, hn⟩ := open_some_tail (l := seg ++ .beganAll :: older) hx
    obtain ⟨acc, hcase⟩ := ih y hf.tail hy (fun h => hb (List.mem_cons_of_mem _ h)) (fun s h => hg s (List.mem_cons_of_mem _ h))
    cases e with
    | forked q m f => simp only [Item.next, Option.some.injEq] at hn; subst hn; exact ⟨acc, by simpa using hcase⟩
    | exited q s => simp only [Item.next, Option.some.injEq] at hn; subst hn; exact ⟨acc, by simpa using hcase⟩
    | called q s => simp only [Item.next, Option.some.injEq] at hn; subst hn; exact ⟨acc, by simpa using hcase⟩
    | warned q s => simp only [Item.next, Option.some.injEq] at hn; subst hn; exact ⟨acc, by simpa using hcase⟩
    | died d => simp only [Item.next, Option.some.injEq] at hn; subst hn; exact ⟨acc, by simpa using hcase⟩
    | beganAll => exact absurd (by simp) hb
    | gaveAll r => exact absurd (by simp) (hg r)
    | beganPid q =>
      rw [List.cons_append] at hf
      have := hf.1
      rw [hy] at this
      rcases hcase with ⟨rfl, _⟩ | ⟨t, acc', rfl, _⟩ <;> simp at this
    | beganWait t =>
      rw [List.cons_append] at hf
      have := hf.1
      rw [hy] at this
      rcases hcase with ⟨rfl, h1⟩ | ⟨t, acc', rfl, h1⟩
      · simp only [Item.next, Option.some.injEq] at hn
        exact ⟨acc, .inr ⟨t, [], hn.symm, by simpa using h1⟩⟩
      · simp at this
    | reaped q s =>
      rcases hcase with ⟨rfl, h1⟩ | ⟨t, acc', rfl, h1⟩
      · simp [Item.next] at hn
      · simp only [Item.next, Option.some.injEq] at hn
        refine ⟨acc, .inr ⟨t, (q, s) :: acc', hn.symm, ?_⟩⟩
        intro p s'
        rw [List.cons_append, List.mem_cons, List.mem_cons, h1 p s']
        simp
    | gaveWait r =>
      rcases hcase with ⟨rfl, h1⟩ | ⟨t, acc', rfl, h1⟩
      · simp [Item.next] at hn
      · simp only [Item.next, hand, Option.some.injEq] at hn
        exact ⟨acc' ++ acc, .inl ⟨hn.symm, by simpa using h1⟩⟩
    | gavePid q o =>
      cases o with
      | none => simp only [Item.next, Option.some.injEq] at hn; subst hn; exact ⟨acc, by simpa using hcase⟩
      | some s => rcases hcase with ⟨rfl, h1⟩ | ⟨t, acc', rfl, h1⟩ <;> simp [Item.next] at hn

end Verif.Proc
