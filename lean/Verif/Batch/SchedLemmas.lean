import Verif.Batch.SchedSpec

namespace Verif.Batch
variable {α : Type}

theorem atMost_cons {par : Nat} {e : Ev α} {log : List (Ev α)} (h : AtMost par log) (h' : (starts (e :: log)).length ≤ (exits (e :: log)).length + par) : AtMost par (e :: log) := by
  intro l hl
  rcases List.suffix_cons_iff.1 hl with rfl | hl
  · exact h'
  · exact h l hl

/-- What holds whenever, also after the program died. -/
structure Sound (par : Nat) (s : St α) : Prop where
  perm : ((exits s.log).map Prod.fst ++ s.alive.map Prod.snd).Perm (starts s.log)
  rep : reports s.log = exits s.log
  bound : AtMost par s.log

structure Inv (par : Nat) (s : St α) : Prop extends Sound par s where
  kid : s.kid = s.alive
  nodup : (s.alive.map Prod.fst).Nodup
  n : s.n = s.alive.length
  le : s.alive.length ≤ par

theorem lookup_getElem {l : List (Nat × α)} (hn : (l.map Prod.fst).Nodup) {i pid : Nat} {a : α} (h : l[i]? = some (pid, a)) : l.lookup pid = some a := by
  induction l generalizing i with
  | nil => simp at h
  | cons x l ih =>
    obtain ⟨q, b⟩ := x
    simp only [List.map_cons, List.nodup_cons] at hn
    cases i with
    | zero =>
      simp only [List.getElem?_cons_zero, Option.some.injEq, Prod.mk.injEq] at h
      simp [List.lookup, h.1, h.2]
    | succ i =>
      simp only [List.getElem?_cons_succ] at h
      have hm : pid ∈ l.map Prod.fst := by
        have := List.mem_of_getElem? h
        exact List.mem_map.2 ⟨_, this, rfl⟩
      have hne : pid ≠ q := fun e => hn.1 (e ▸ hm)
      simp only [List.lookup]
      rw [show (pid == q) = false by simpa using hne]
      exact ih hn.2 h

theorem filter_eraseIdx {l : List (Nat × α)} (hn : (l.map Prod.fst).Nodup) {i pid : Nat} {a : α} (h : l[i]? = some (pid, a)) : l.filter (fun x => x.1 != pid) = l.eraseIdx i := by
  induction l generalizing i with
  | nil => simp at h
  | cons x l ih =>
    obtain ⟨q, b⟩ := x
    simp only [List.map_cons, List.nodup_cons] at hn
    cases i with
    | zero =>
      simp only [List.getElem?_cons_zero, Option.some.injEq, Prod.mk.injEq] at h
      simp only [List.eraseIdx_cons_zero]
      rw [List.filter_cons_of_neg (by simp [h.1])]
      rw [List.filter_eq_self]
      intro y hy
      have : y.1 ≠ q := fun e => hn.1 (e ▸ List.mem_map.2 ⟨y, hy, rfl⟩)
      simpa [h.1] using fun e => this (e.trans h.1.symm)
    | succ i =>
      simp only [List.getElem?_cons_succ] at h
      have hm : pid ∈ l.map Prod.fst := List.mem_map.2 ⟨_, List.mem_of_getElem? h, rfl⟩
      have hne : q ≠ pid := fun e => hn.1 (e ▸ hm)
      rw [List.filter_cons_of_pos (by simpa using hne), ih hn.2 h, List.eraseIdx_cons_succ]

theorem perm_eraseIdx {β : Type} {l : List β} {i : Nat} {b : β} (h : l[i]? = some b) : l.Perm (b :: l.eraseIdx i) := by
  induction l generalizing i with
  | nil => simp at h
  | cons x l ih =>
    cases i with
    | zero =>
      simp only [List.getElem?_cons_zero, Option.some.injEq] at h
      rw [h]; exact List.Perm.refl _
    | succ i =>
      simp only [List.getElem?_cons_succ] at h
      rw [List.eraseIdx_cons_succ]
      exact ((ih h).cons x).trans (List.Perm.swap ..)

theorem nodup_eraseIdx {l : List (Nat × α)} (hn : (l.map Prod.fst).Nodup) (i : Nat) : ((l.eraseIdx i).map Prod.fst).Nodup :=
  hn.sublist ((List.eraseIdx_sublist ..).map _)

theorem freshPid_not_mem (p : Nat) (l : List (Nat × α)) : freshPid p l ∉ l.map Prod.fst := by
  unfold freshPid
  split
  · have key : ∀ (m : List Nat) (k x : Nat), x ∈ m ∨ x ≤ k → x ≤ m.foldl max k := by
      intro m
      induction m with
      | nil => intro k x h; rcases h with h | h <;> simp_all
      | cons y m ih =>
        intro k x h
        apply ih
        rcases h with h | h
        · rcases List.mem_cons.1 h with rfl | h
          · right; omega
          · exact .inl h
        · right; omega
    intro h
    have := key _ 0 _ (.inl h)
    omega
  · assumption

/-- What `finishChild` does to a sound state. -/
theorem finish_spec {par : Nat} {s : St α} (h : Inv par s) :
    match finishChild s with
    | .more s' => s' = s ∧ s.waits = []
    | .died s' => Sound par s' ∧ starts s'.log = starts s.log ∧ ∃ w ws, s.waits = w :: ws ∧ (s.alive = [] ∨ w.dies = true)
    | .ok s' => Inv par { s' with n := s'.n - 1 } ∧ starts s'.log = starts s.log ∧ s'.alive.length + 1 = s.alive.length ∧ s'.forks = s.forks ∧ (∃ w, s.waits = w :: s'.waits) ∧ messages s'.log = messages s.log := by
  unfold finishChild
  cases hw : s.waits with
  | nil => simp
  | cons w ws =>
    dsimp only
    cases hi : s.alive[w.which % s.alive.length]? with
    | none =>
      have hemp : s.alive = [] := by
        rw [List.getElem?_eq_none_iff] at hi
        cases ha : s.alive with
        | nil => rfl
        | cons x l =>
          have := Nat.mod_lt w.which (y := s.alive.length) (by rw [ha]; simp)
          omega
      exact ⟨⟨h.perm, h.rep, h.bound⟩, rfl, w, ws, rfl, .inl hemp⟩
    | some x =>
      obtain ⟨pid, a⟩ := x
      dsimp only
      generalize hidx : w.which % s.alive.length = idx at hi
      have hlook : s.kid.lookup pid = some a := by rw [h.kid]; exact lookup_getElem h.nodup hi
      have hfil : s.kid.filter (fun x => x.1 != pid) = s.alive.eraseIdx idx := by rw [h.kid]; exact filter_eraseIdx h.nodup hi
      have hlen : (s.alive.eraseIdx idx).length + 1 = s.alive.length := by
        have := (perm_eraseIdx hi).length_eq
        simp only [List.length_cons] at this
        omega
      have hperm : (a :: (exits s.log).map Prod.fst ++ (s.alive.eraseIdx idx).map Prod.snd).Perm (starts s.log) := by
        refine List.Perm.trans ?_ h.perm
        have h1 := ((perm_eraseIdx hi).map Prod.snd)
        simp only [List.map_cons] at h1
        exact (List.perm_middle.symm).trans (h1.symm.append_left _)
      have hb1 : AtMost par (.exited a w.status :: s.log) := atMost_cons h.bound (by
        have := h.bound s.log (List.suffix_refl _)
        simp only [starts, exits, List.filterMap_cons, List.length_cons] at this ⊢
        omega)
      have hb2 : ∀ e : Ev α, (∀ b, e ≠ .started b) → (∀ b st, e ≠ .exited b st) → AtMost par (e :: .exited a w.status :: s.log) := by
        intro e he1 he2
        refine atMost_cons hb1 ?_
        have := hb1 _ (List.suffix_refl _)
        cases e <;> simp_all [starts, exits]
      simp only [reap, St.say, hlook]
      by_cases hs : w.status = 0
      · rw [if_pos hs]
        by_cases hd : w.dies = true
        · rw [if_pos hd]
          exact ⟨⟨by simpa [exits, starts] using hperm, by simpa [reports, exits, hs] using h.rep, hb2 _ (by simp) (by simp)⟩, by simp [starts], w, ws, rfl, .inr hd⟩
        · rw [if_neg hd]
          refine ⟨⟨⟨by simpa [exits, starts] using hperm, by simpa [reports, exits, hs] using h.rep, hb2 _ (by simp) (by simp)⟩, hfil, nodup_eraseIdx h.nodup _, ?_, ?_⟩, by simp [starts], hlen, rfl, ⟨w, rfl⟩, by simp [messages]⟩
          · have := h.n; simp only; omega
          · have := h.le; simp only; omega
      · rw [if_neg hs]
        refine ⟨⟨⟨by simpa [exits, starts] using hperm, by simpa [reports, exits, hs] using h.rep, hb2 _ (by simp) (by simp)⟩, hfil, nodup_eraseIdx h.nodup _, ?_, ?_⟩, by simp [starts], hlen, rfl, ⟨w, rfl⟩, by simp [messages]⟩
        · have := h.n; simp only; omega
        · have := h.le; simp only; omega

/-- The environment is kind: `fork` works and `rebuild_thing_success` does not die. -/
def Kind (s : St α) : Prop := (∀ f ∈ s.forks, f ≠ none) ∧ ∀ w ∈ s.waits, w.dies = false

theorem makeRoom_spec {par : Nat} {s : St α} (h : Inv par s) :
    match makeRoom par s with
    | .more s' => s' = s ∧ s.waits = [] ∧ par ≤ s.alive.length
    | .died s' => Sound par s' ∧ starts s'.log = starts s.log ∧ (Kind s → par = 0)
    | .ok s' => Inv par s' ∧ starts s'.log = starts s.log ∧ s'.alive.length < par ∧ s'.forks = s.forks ∧ (Kind s → Kind s') ∧ s.waits.length + s'.alive.length = s'.waits.length + s.alive.length ∧ messages s'.log = messages s.log := by
  unfold makeRoom
  by_cases hn : s.n ≥ par
  · rw [if_pos hn]
    have hf := finish_spec h
    have h1 := h.n
    have h2 := h.le
    generalize finishChild s = o at hf
    cases o with
    | more s' => exact ⟨hf.1, hf.2, by omega⟩
    | died s' =>
      refine ⟨hf.1, hf.2.1, ?_⟩
      obtain ⟨w, ws, hw, hd⟩ := hf.2.2
      intro hk
      rcases hd with hd | hd
      · rw [hd] at h1; simp at h1; omega
      · rw [hk.2 w (by simp [hw])] at hd; cases hd
    | ok s' =>
      obtain ⟨hi, hs, hl, hfo, ⟨w, hw⟩, hm⟩ := hf
      refine ⟨hi, hs, by simp only; omega, hfo, ?_, by simp only [hw, List.length_cons]; omega, hm⟩
      intro hk
      exact ⟨by simpa [hfo] using hk.1, fun x hx => hk.2 x (by rw [hw]; exact List.mem_cons_of_mem _ hx)⟩
  · rw [if_neg hn]
    have := h.n
    exact ⟨h, rfl, by omega, rfl, id, rfl, rfl⟩

theorem startOne_spec {par : Nat} {s : St α} (h : Inv par s) (hlt : s.alive.length < par) (a : α) :
    match startOne false s a with
    | .more s' => s' = s ∧ s.forks = []
    | .died s' => Sound par s' ∧ starts s'.log = starts s.log ∧ ¬ Kind s
    | .ok s' => Inv par s' ∧ starts s'.log = a :: starts s.log ∧ s.forks.length = s'.forks.length + 1 ∧ s'.alive.length = s.alive.length + 1 ∧ s'.waits = s.waits ∧ (Kind s → Kind s') := by
  simp only [startOne, Bool.false_eq_true, if_false]
  cases hf : s.forks with
  | nil => simp
  | cons f fs =>
    cases f with
    | none =>
      refine ⟨⟨h.perm, h.rep, h.bound⟩, rfl, ?_⟩
      intro hk
      exact hk.1 none (by simp [hf]) rfl
    | some p =>
      have hfresh := freshPid_not_mem p s.alive
      have hfil : s.kid.filter (fun x => x.1 != freshPid p s.alive) = s.alive := by
        rw [h.kid, List.filter_eq_self]
        intro x hx
        have : x.1 ≠ freshPid p s.alive := fun e => hfresh (e ▸ List.mem_map.2 ⟨x, hx, rfl⟩)
        simpa using this
      refine ⟨⟨⟨?_, ?_, ?_⟩, ?_, ?_, ?_, ?_⟩, ?_, ?_, ?_, ?_, ?_⟩
      · simp only [St.say, List.map_cons]
        have e1 : exits (.started a :: s.log) = exits s.log := by simp [exits]
        have e2 : starts (.started a :: s.log) = a :: starts s.log := by simp [starts]
        rw [e1, e2]
        exact List.perm_middle.trans (h.perm.cons a)
      · simpa [St.say, reports, exits] using h.rep
      · refine atMost_cons h.bound ?_
        have hp := h.perm.length_eq
        simp only [List.length_append, List.length_map] at hp
        simp only [starts, exits, List.filterMap_cons, List.length_cons]
        simp only [starts, exits] at hp
        omega
      · simp only [hfil]
      · simp only [List.map_cons, List.nodup_cons]
        exact ⟨hfresh, h.nodup⟩
      · simp only [List.length_cons, h.n]
      · simp only [List.length_cons]; omega
      · simp [St.say, starts]
      · simp
      · simp
      · rfl
      · intro hk
        exact ⟨fun x hx => hk.1 x (by rw [hf]; exact List.mem_cons_of_mem _ hx), hk.2⟩

theorem launch_spec {par : Nat} (things : List α) {s : St α} (h : Inv par s) :
    match launch par false things s with
    | .more s' => Sound par s' ∧ (starts s'.log).reverse <+: (starts s.log).reverse ++ things ∧ ¬ (things.length ≤ s.forks.length ∧ s.alive.length + things.length ≤ s.waits.length)
    | .died s' => Sound par s' ∧ (starts s'.log).reverse <+: (starts s.log).reverse ++ things ∧ (Kind s → par = 0)
    | .ok s' => Inv par s' ∧ (starts s'.log).reverse = (starts s.log).reverse ++ things ∧ (Kind s → Kind s') ∧ (s.alive.length + things.length ≤ s.waits.length → s'.alive.length ≤ s'.waits.length) := by
  induction things generalizing s with
  | nil => exact ⟨h, by simp, id, by simp⟩
  | cons a things ih =>
    unfold launch
    have hm := makeRoom_spec h
    generalize makeRoom par s = o at hm
    cases o with
    | more s' =>
      obtain ⟨rfl, hw, _⟩ := hm
      exact ⟨h.toSound, List.prefix_append .., by simp [hw]⟩
    | died s' => exact ⟨hm.1, by rw [hm.2.1]; exact List.prefix_append .., hm.2.2⟩
    | ok s1 =>
      obtain ⟨hi1, hs1, hlt, hfo, hk1, hac, _⟩ := hm
      dsimp only
      have hst := startOne_spec hi1 hlt a
      generalize startOne false s1 a = o at hst
      cases o with
      | more s' =>
        obtain ⟨rfl, hw⟩ := hst
        refine ⟨hi1.toSound, by rw [hs1]; exact List.prefix_append .., ?_⟩
        rw [← hfo, hw]; simp
      | died s' => exact ⟨hst.1, by rw [hst.2.1, hs1]; exact List.prefix_append .., fun hk => absurd (hk1 hk) hst.2.2⟩
      | ok s2 =>
        obtain ⟨hi2, hs2, hf2, ha2, hw2, hk2⟩ := hst
        dsimp only
        have := ih hi2
        have hl := hi1.le
        generalize launch par false things s2 = o at this
        have hst : (starts s2.log).reverse ++ things = (starts s.log).reverse ++ a :: things := by rw [hs2, hs1]; simp
        cases o with
        | more s' =>
          refine ⟨this.1, hst ▸ this.2.1, ?_⟩
          rintro ⟨h1, h2⟩
          refine this.2.2 ⟨?_, ?_⟩ <;> simp only [List.length_cons, ← hfo, hw2] at * <;> omega
        | died s' => exact ⟨this.1, hst ▸ this.2.1, fun hk => this.2.2 (hk2 (hk1 hk))⟩
        | ok s' =>
          refine ⟨this.1, hst ▸ this.2.1, fun hk => this.2.2.1 (hk2 (hk1 hk)), ?_⟩
          intro h2
          apply this.2.2.2
          simp only [List.length_cons, hw2] at *
          omega

theorem drain_spec {par : Nat} (k : Nat) {s : St α} (h : Inv par s) (hk : k = s.alive.length) :
    match drain k s with
    | .more s' => Sound par s' ∧ starts s'.log = starts s.log ∧ s.waits.length < k
    | .died s' => Sound par s' ∧ starts s'.log = starts s.log ∧ ¬ Kind s
    | .ok s' => Inv par s' ∧ starts s'.log = starts s.log ∧ s'.alive = [] := by
  induction k generalizing s with
  | zero => exact ⟨h, rfl, List.length_eq_zero_iff.1 hk.symm⟩
  | succ k ih =>
    unfold drain
    have hf := finish_spec h
    generalize finishChild s = o at hf
    cases o with
    | more s' =>
      obtain ⟨rfl, hw⟩ := hf
      exact ⟨h.toSound, rfl, by simp [hw]⟩
    | died s' =>
      refine ⟨hf.1, hf.2.1, ?_⟩
      obtain ⟨w, ws, hw, hd⟩ := hf.2.2
      intro hki
      rcases hd with hd | hd
      · rw [hd] at hk; simp at hk
      · rw [hki.2 w (by simp [hw])] at hd; cases hd
    | ok s1 =>
      obtain ⟨hi, hs, hl, hfo, ⟨w, hw⟩, _⟩ := hf
      dsimp only
      have := ih hi (by simp only; omega)
      generalize drain k { s1 with n := s1.n - 1 } = o at this
      cases o with
      | more s' => exact ⟨this.1, this.2.1.trans hs, by have := this.2.2; simp only [hw, List.length_cons] at *; omega⟩
      | died s' =>
        refine ⟨this.1, this.2.1.trans hs, ?_⟩
        intro hki
        apply this.2.2
        exact ⟨by simpa [hfo] using hki.1, fun x hx => hki.2 x (by rw [hw]; exact List.mem_cons_of_mem _ hx)⟩
      | ok s' => exact ⟨this.1, this.2.1.trans hs, this.2.2⟩

theorem inv_init (par : Nat) (forks : List (Option Nat)) (waits : List Wait) : Inv par ({ forks := forks, waits := waits } : St α) :=
  ⟨⟨by simp [exits, starts], rfl, by intro l hl; have := List.suffix_nil.1 hl; simp [this, starts]⟩, rfl, by simp, rfl, by simp⟩

theorem local_spec (par : Nat) (things : List α) (forks : List (Option Nat)) (waits : List Wait) :
    match localParallel par false things { forks := forks, waits := waits } with
    | .more s' => Sound par s' ∧ (starts s'.log).reverse <+: things ∧ ¬ (things.length ≤ forks.length ∧ things.length ≤ waits.length)
    | .died s' => Sound par s' ∧ (starts s'.log).reverse <+: things ∧ ((∀ f ∈ forks, f ≠ none) → (∀ w ∈ waits, w.dies = false) → par = 0)
    | .ok s' => Inv par s' ∧ (starts s'.log).reverse = things ∧ s'.alive = [] := by
  unfold localParallel
  have hl := launch_spec things (inv_init par forks waits)
  generalize launch par false things { forks := forks, waits := waits } = o at hl
  cases o with
  | more s' => exact ⟨hl.1, by simpa [starts] using hl.2.1, by simpa using hl.2.2⟩
  | died s' => exact ⟨hl.1, by simpa [starts] using hl.2.1, fun h1 h2 => hl.2.2 ⟨h1, h2⟩⟩
  | ok s1 =>
    obtain ⟨hi, hs, hk, hw⟩ := hl
    dsimp only
    have hs : (starts s1.log).reverse = things := by simpa [starts] using hs
    have hd := drain_spec s1.n hi hi.n
    generalize drain s1.n s1 = o at hd
    cases o with
    | more s' =>
      refine ⟨hd.1, by rw [hd.2.1, hs]; exact List.prefix_refl _, ?_⟩
      rintro ⟨_, h2⟩
      have := hw (by simpa using h2)
      have := hd.2.2
      rw [hi.n] at this
      omega
    | died s' => exact ⟨hd.1, by rw [hd.2.1, hs]; exact List.prefix_refl _, fun h1 h2 => absurd (hk ⟨h1, h2⟩) hd.2.2⟩
    | ok s' => exact ⟨hd.1, by rw [hd.2.1, hs], hd.2.2⟩

end Verif.Batch
