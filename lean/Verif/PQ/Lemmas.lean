import Verif.PQ.Spec

namespace Verif.PQ

variable {α : Type}

/-- Array view. -/
def g (d : α) (l : List α) (i : Nat) : α := l.getD i d

theorem g_set (d : α) (l : List α) (i : Nat) (v : α) (hi : i < l.length) (j : Nat) :
    g d (l.set i v) j = if j = i then v else g d l j := by
  unfold g
  simp only [List.getD_eq_getElem?_getD, List.getElem?_set]
  grind

theorem rd_eq (d : α) (l : List α) (i : Nat) (h : i < l.length) : rd l i = .ok (g d l i) := by
  unfold rd g
  rw [List.getD_eq_getElem?_getD, List.getElem?_eq_getElem h]
  rfl

theorem wr_eq (l : List α) (i : Nat) (v : α) (h : i < l.length) : wr l i v = .ok (l.set i v) := by
  simp [wr, h]

theorem take_set' (l : List α) (i n : Nat) (v : α) : (l.set i v).take n = (l.take n).set i v := by
  rw [List.take_set]

theorem hole_move (d : α) (l : List α) (n i j : Nat) (v : α) (hi : i < n) (hj : j < n) (hij : i ≠ j)
    (hn : n ≤ l.length) :
    (((l.set i (g d l j)).set j v).take n).Perm ((l.set i v).take n) := by
  have h1 : i < ((l.set i v).take n).length := by simp; omega
  have h2 : j < ((l.set i v).take n).length := by simp; omega
  have := List.set_set_perm h1 h2
  have e1 : ((l.set i v).take n)[i] = v := by simp
  have e2 : ((l.set i v).take n)[j] = g d l j := by
    simp only [List.getElem_take, List.getElem_set, g, List.getD_eq_getElem?_getD]
    grind
  rw [e1, e2] at this
  simp only [take_set', List.set_set] at this ⊢
  exact this

/-- Heap order away from the hole at `cur`. -/
def HH (le : α → α → Prop) (n : Nat) (f : Nat → α) (cur : Nat) : Prop :=
  ∀ i, 0 < i → i < n → i ≠ cur → (i - 1) / 2 ≠ cur → le (f i) (f ((i - 1) / 2))

/-- Children of the hole are below the hole's parent. -/
def HC (le : α → α → Prop) (n : Nat) (f : Nat → α) (cur : Nat) : Prop :=
  0 < cur → ∀ c, c < n → 0 < c → (c - 1) / 2 = cur → le (f c) (f ((cur - 1) / 2))

def Heap (le : α → α → Prop) (n : Nat) (f : Nat → α) : Prop :=
  ∀ i, 0 < i → i < n → le (f i) (f ((i - 1) / 2))

theorem Heap.top {le : α → α → Prop} {n : Nat} {f : Nat → α} (ht : ∀ a b, le a b ∨ le b a)
    (htr : ∀ a b c, le a b → le b c → le a c) (h : Heap le n f) : ∀ i, i < n → le (f i) (f 0) := by
  intro i
  induction i using Nat.strongRecOn with
  | ind i ih =>
    intro hi
    rcases Nat.eq_zero_or_pos i with rfl | hp
    · rcases ht (f 0) (f 0) with h | h <;> exact h
    · exact htr _ _ _ (h i hp hi) (ih _ (by omega) (by omega))

section
variable {li : α → α → Bool} {le : α → α → Prop} (hI : Importance li le)
include hI

theorem Importance.refl (a : α) : le a a := by
  rcases hI.total a a with h | h <;> exact h

/-- Moving the larger child up keeps the hole invariants. -/
theorem move_down (d : α) (l : List α) (n cur c : Nat) (hn : n ≤ l.length) (hcur : cur < n)
    (hc : c < n) (hc0 : 0 < c) (hpc : (c - 1) / 2 = cur)
    (hbig : ∀ i, 0 < i → i < n → (i - 1) / 2 = cur → le (g d l i) (g d l c))
    (h1 : HH le n (g d l) cur) (h2 : HC le n (g d l) cur) :
    HH le n (g d (l.set cur (g d l c))) c ∧ HC le n (g d (l.set cur (g d l c))) c := by
  constructor
  · intro i hi0 hin hic hpi
    rw [g_set _ _ _ _ (by omega), g_set _ _ _ _ (by omega)]
    by_cases e1 : i = cur
    · have : (i - 1) / 2 ≠ cur := by omega
      rw [if_pos e1, if_neg this, e1]
      exact h2 (by omega) c hc hc0 hpc
    · rw [if_neg e1]
      by_cases e2 : (i - 1) / 2 = cur
      · rw [if_pos e2]; exact hbig i hi0 hin e2
      · rw [if_neg e2]; exact h1 i hi0 hin e1 e2
  · intro _ e he he0 hpe
    rw [g_set _ _ _ _ (by omega), g_set _ _ _ _ (by omega)]
    rw [if_neg (by omega), if_pos hpc]
    have := h1 e he0 he (by omega) (by omega)
    rwa [hpe] at this

theorem fill (d : α) (l : List α) (n cur : Nat) (v : α) (hn : n ≤ l.length) (hcur : cur < n)
    (h1 : HH le n (g d l) cur) (hup : 0 < cur → le v (g d l ((cur - 1) / 2)))
    (hdn : ∀ i, 0 < i → i < n → (i - 1) / 2 = cur → le (g d l i) v) :
    Heap le n (g d (l.set cur v)) := by
  intro i hi0 hin
  rw [g_set _ _ _ _ (by omega), g_set _ _ _ _ (by omega)]
  by_cases e1 : i = cur
  · have : (i - 1) / 2 ≠ cur := by omega
    rw [if_pos e1, if_neg this, e1]
    exact hup (by omega)
  · rw [if_neg e1]
    by_cases e2 : (i - 1) / 2 = cur
    · rw [if_pos e2]; exact hdn i hi0 hin e2
    · rw [if_neg e2]; exact h1 i hi0 hin e1 e2

theorem pickDown_ok (d : α) (l : List α) (n cur : Nat) (hn : n ≤ l.length) (h : 2 * cur + 1 < n) :
    ∃ c, pickDown li n l (2 * cur + 1) = .ok c ∧ c < n ∧ 0 < c ∧ (c - 1) / 2 = cur ∧
      ∀ i, 0 < i → i < n → (i - 1) / 2 = cur → le (g d l i) (g d l c) := by
  unfold pickDown
  split
  · rename_i h2
    rw [rd_eq d _ _ (by omega), rd_eq d _ _ (by omega)]
    simp only [Res.bind_ok, Res.pure_eq]
    cases hl : li (g d l (2 * cur + 1 + 1)) (g d l (2 * cur + 1)) with
    | true =>
      refine ⟨2 * cur + 1, by simp, by omega, by omega, by omega, ?_⟩
      intro i h0 hi hp
      have : i = 2 * cur + 1 ∨ i = 2 * cur + 1 + 1 := by omega
      rcases this with rfl | rfl
      · exact Importance.refl hI _
      · exact hI.yes _ _ hl
    | false =>
      refine ⟨2 * cur + 1 + 1, by simp, by omega, by omega, by omega, ?_⟩
      intro i h0 hi hp
      have : i = 2 * cur + 1 ∨ i = 2 * cur + 1 + 1 := by omega
      rcases this with rfl | rfl
      · exact hI.no _ _ hl
      · exact Importance.refl hI _
  · refine ⟨2 * cur + 1, rfl, by omega, by omega, by omega, ?_⟩
    intro i h0 hi hp
    have : i = 2 * cur + 1 := by omega
    subst this
    exact Importance.refl hI _

theorem pickRT_ok (d : α) (l : List α) (n cur : Nat) (hn : n ≤ l.length) (h : 2 * cur + 1 < n) :
    ∃ c, pickRT li n l (2 * cur + 1) = .ok c ∧ c < n ∧ 0 < c ∧ (c - 1) / 2 = cur ∧
      ∀ i, 0 < i → i < n → (i - 1) / 2 = cur → le (g d l i) (g d l c) := by
  unfold pickRT
  split
  · rename_i h2
    rw [rd_eq d _ _ (by omega), rd_eq d _ _ (by omega)]
    simp only [Res.bind_ok, Res.pure_eq]
    cases hl : li (g d l (2 * cur + 1)) (g d l (2 * cur + 1 + 1)) with
    | false =>
      refine ⟨2 * cur + 1, by simp, by omega, by omega, by omega, ?_⟩
      intro i h0 hi hp
      have : i = 2 * cur + 1 ∨ i = 2 * cur + 1 + 1 := by omega
      rcases this with rfl | rfl
      · exact Importance.refl hI _
      · exact hI.no _ _ hl
    | true =>
      refine ⟨2 * cur + 1 + 1, by simp, by omega, by omega, by omega, ?_⟩
      intro i h0 hi hp
      have : i = 2 * cur + 1 ∨ i = 2 * cur + 1 + 1 := by omega
      rcases this with rfl | rfl
      · exact hI.yes _ _ hl
      · exact Importance.refl hI _
  · refine ⟨2 * cur + 1, rfl, by omega, by omega, by omega, ?_⟩
    intro i h0 hi hp
    have : i = 2 * cur + 1 := by omega
    subst this
    exact Importance.refl hI _

theorem pickBU_ok (d : α) (l : List α) (n cur : Nat) (hn : n ≤ l.length) (h : 2 * cur + 1 < n) :
    ∃ c, pickBU li n l (2 * cur + 1) = .ok c ∧ c < n ∧ 0 < c ∧ (c - 1) / 2 = cur ∧
      ∀ i, 0 < i → i < n → (i - 1) / 2 = cur → le (g d l i) (g d l c) := by
  unfold pickBU
  split
  · refine ⟨2 * cur + 1, rfl, by omega, by omega, by omega, ?_⟩
    intro i h0 hi hp
    have : i = 2 * cur + 1 := by omega
    subst this
    exact Importance.refl hI _
  · rename_i h2
    rw [rd_eq d _ _ (by omega), rd_eq d _ _ (by omega)]
    simp only [Res.bind_ok, Res.pure_eq]
    cases hl : li (g d l (2 * cur + 1 + 1)) (g d l (2 * cur + 1)) with
    | true =>
      refine ⟨2 * cur + 1, by simp, by omega, by omega, by omega, ?_⟩
      intro i h0 hi hp
      have : i = 2 * cur + 1 ∨ i = 2 * cur + 1 + 1 := by omega
      rcases this with rfl | rfl
      · exact Importance.refl hI _
      · exact hI.yes _ _ hl
    | false =>
      refine ⟨2 * cur + 1 + 1, by simp, by omega, by omega, by omega, ?_⟩
      intro i h0 hi hp
      have : i = 2 * cur + 1 ∨ i = 2 * cur + 1 + 1 := by omega
      rcases this with rfl | rfl
      · exact hI.no _ _ hl
      · exact Importance.refl hI _

/-- What a finished sift-down leaves behind. -/
def Sifted (le : α → α → Prop) (d : α) (n : Nat) (v : α) (l : List α) (cur : Nat) (l' : List α) (cur' : Nat) : Prop :=
  cur' < n ∧ l'.length = l.length ∧ (∀ i, n ≤ i → g d l' i = g d l i) ∧
  ((l'.set cur' v).take n).Perm ((l.set cur v).take n) ∧ Heap le n (g d (l'.set cur' v))

theorem popLoop_ok (d : α) (n : Nat) (v : α) : ∀ (fuel : Nat) (l : List α) (cur : Nat),
    n < l.length → cur < n → n ≤ fuel + cur → g d l n = v →
    HH le n (g d l) cur → HC le n (g d l) cur → (0 < cur → le v (g d l ((cur - 1) / 2))) →
    ∃ l' cur', popLoop li n fuel l cur = .ok (l', cur') ∧ Sifted le d n v l cur l' cur'
  | 0, l, cur, hn, hcur, hf, _, _, _, _ => by omega
  | fuel + 1, l, cur, hn, hcur, hf, hv, h1, h2, h3 => by
    unfold popLoop
    split
    · refine ⟨l, cur, rfl, hcur, rfl, fun _ _ => rfl, List.Perm.refl _, ?_⟩
      exact fill hI d l n cur v (by omega) hcur h1 h3 (fun i h0 hi hp => by omega)
    · obtain ⟨c, hc, hcn, hc0, hpc, hbig⟩ := pickDown_ok hI d l n cur (by omega) (by omega)
      rw [hc, Res.bind_ok, rd_eq d l n hn, Res.bind_ok, rd_eq d l c (by omega), Res.bind_ok, hv]
      cases hl : li v (g d l c) with
      | false =>
        refine ⟨l, cur, rfl, hcur, rfl, fun _ _ => rfl, List.Perm.refl _, ?_⟩
        refine fill hI d l n cur v (by omega) hcur h1 h3 (fun i h0 hi hp => ?_)
        exact hI.trans _ _ _ (hbig i h0 hi hp) (hI.no _ _ hl)
      | true =>
        simp only [Bool.not_true, Bool.false_eq_true, if_false]
        rw [wr_eq _ _ _ (by omega), Res.bind_ok]
        obtain ⟨m1, m2⟩ := move_down hI d l n cur c (by omega) hcur hcn hc0 hpc hbig h1 h2
        obtain ⟨l', cur', he, a1, a2, a3, a4, a5⟩ := popLoop_ok d n v fuel (l.set cur (g d l c)) c
          (by simpa using hn) hcn (by omega)
          (by rw [g_set _ _ _ _ (by omega), if_neg (by omega), hv]) m1 m2
          (fun _ => by rw [g_set _ _ _ _ (by omega), if_pos hpc]; exact hI.yes _ _ hl)
        refine ⟨l', cur', he, a1, by simpa using a2, ?_, ?_, a5⟩
        · intro i hi; rw [a3 i hi, g_set _ _ _ _ (by omega), if_neg (by omega)]
        · exact a4.trans (hole_move d l n cur c v hcur hcn (by omega) (by omega))

theorem rtLoop_ok (d : α) (n : Nat) (v : α) : ∀ (fuel : Nat) (l : List α) (cur : Nat),
    n ≤ l.length → cur < n → n ≤ fuel + cur →
    HH le n (g d l) cur → HC le n (g d l) cur → (0 < cur → le v (g d l ((cur - 1) / 2))) →
    ∃ l' cur', rtLoop li n v fuel l cur = .ok (l', cur') ∧ Sifted le d n v l cur l' cur'
  | 0, l, cur, hn, hcur, hf, _, _, _ => by omega
  | fuel + 1, l, cur, hn, hcur, hf, h1, h2, h3 => by
    unfold rtLoop
    split
    · refine ⟨l, cur, rfl, hcur, rfl, fun _ _ => rfl, List.Perm.refl _, ?_⟩
      exact fill hI d l n cur v (by omega) hcur h1 h3 (fun i h0 hi hp => by omega)
    · obtain ⟨c, hc, hcn, hc0, hpc, hbig⟩ := pickRT_ok hI d l n cur (by omega) (by omega)
      rw [hc, Res.bind_ok, rd_eq d l c (by omega), Res.bind_ok]
      cases hl : li v (g d l c) with
      | false =>
        refine ⟨l, cur, rfl, hcur, rfl, fun _ _ => rfl, List.Perm.refl _, ?_⟩
        refine fill hI d l n cur v (by omega) hcur h1 h3 (fun i h0 hi hp => ?_)
        exact hI.trans _ _ _ (hbig i h0 hi hp) (hI.no _ _ hl)
      | true =>
        simp only [if_true]
        rw [wr_eq _ _ _ (by omega), Res.bind_ok]
        obtain ⟨m1, m2⟩ := move_down hI d l n cur c (by omega) hcur hcn hc0 hpc hbig h1 h2
        obtain ⟨l', cur', he, a1, a2, a3, a4, a5⟩ := rtLoop_ok d n v fuel (l.set cur (g d l c)) c
          (by simpa using hn) hcn (by omega) m1 m2
          (fun _ => by rw [g_set _ _ _ _ (by omega), if_pos hpc]; exact hI.yes _ _ hl)
        refine ⟨l', cur', he, a1, by simpa using a2, ?_, ?_, a5⟩
        · intro i hi; rw [a3 i hi, g_set _ _ _ _ (by omega), if_neg (by omega)]
        · exact a4.trans (hole_move d l n cur c v hcur hcn (by omega) (by omega))

/-- Moving the parent down keeps the hole invariants. -/
theorem move_up (d : α) (l : List α) (n cur : Nat) (v : α) (hn : n ≤ l.length) (hcur : cur < n) (h0 : 0 < cur)
    (h1 : HH le n (g d l) cur) (h2 : HC le n (g d l) cur)
    (hle : le (g d l ((cur - 1) / 2)) v) :
    HH le n (g d (l.set cur (g d l ((cur - 1) / 2)))) ((cur - 1) / 2) ∧
    HC le n (g d (l.set cur (g d l ((cur - 1) / 2)))) ((cur - 1) / 2) ∧
    (∀ i, 0 < i → i < n → (i - 1) / 2 = (cur - 1) / 2 →
      le (g d (l.set cur (g d l ((cur - 1) / 2))) i) v) := by
  refine ⟨?_, ?_, ?_⟩
  · intro i hi0 hin hic hpi
    rw [g_set _ _ _ _ (by omega), g_set _ _ _ _ (by omega)]
    by_cases e1 : i = cur
    · subst e1; omega
    · rw [if_neg e1]
      by_cases e2 : (i - 1) / 2 = cur
      · rw [if_pos e2]; exact h2 h0 i hin hi0 e2
      · rw [if_neg e2]; exact h1 i hi0 hin e1 e2
  · intro hp e he he0 hpe
    have hpp : ((cur - 1) / 2 - 1) / 2 ≠ cur := by omega
    rw [g_set _ _ _ _ (by omega), g_set _ _ _ _ (by omega), if_neg hpp]
    by_cases e1 : e = cur
    · rw [if_pos e1]
      exact h1 _ hp (by omega) (by omega) hpp
    · rw [if_neg e1]
      have a := h1 e he0 he e1 (by omega)
      rw [hpe] at a
      exact hI.trans _ _ _ a (h1 _ hp (by omega) (by omega) hpp)
  · intro i hi0 hin hp
    rw [g_set _ _ _ _ (by omega)]
    by_cases e1 : i = cur
    · rw [if_pos e1]; exact hle
    · rw [if_neg e1]
      have a := h1 i hi0 hin e1 (by omega)
      rw [hp] at a
      exact hI.trans _ _ _ a hle

theorem pushLoop_ok (d : α) (n : Nat) (v : α) : ∀ (fuel : Nat) (l : List α) (cur : Nat),
    n ≤ l.length → cur < n → cur < fuel →
    HH le n (g d l) cur → HC le n (g d l) cur →
    (∀ i, 0 < i → i < n → (i - 1) / 2 = cur → le (g d l i) v) →
    ∃ l' cur', pushLoop li v fuel l cur = .ok (l', cur') ∧ Sifted le d n v l cur l' cur'
  | 0, l, cur, hn, hcur, hf, _, _, _ => by omega
  | fuel + 1, l, cur, hn, hcur, hf, h1, h2, h3 => by
    unfold pushLoop
    split
    · rename_i h0
      rw [rd_eq d l _ (by omega), Res.bind_ok]
      cases hl : li v (g d l ((cur - 1) / 2)) with
      | true =>
        refine ⟨l, cur, rfl, hcur, rfl, fun _ _ => rfl, List.Perm.refl _, ?_⟩
        exact fill hI d l n cur v (by omega) hcur h1 (fun _ => hI.yes _ _ hl) h3
      | false =>
        simp only [Bool.not_false, if_true]
        rw [wr_eq _ _ _ (by omega), Res.bind_ok]
        obtain ⟨m1, m2, m3⟩ := move_up hI d l n cur v hn hcur h0 h1 h2 (hI.no _ _ hl)
        obtain ⟨l', cur', he, a1, a2, a3, a4, a5⟩ :=
          pushLoop_ok d n v fuel (l.set cur (g d l ((cur - 1) / 2))) ((cur - 1) / 2)
          (by simpa using hn) (by omega) (by omega) m1 m2 m3
        refine ⟨l', cur', he, a1, by simpa using a2, ?_, ?_, a5⟩
        · intro i hi; rw [a3 i hi, g_set _ _ _ _ (by omega), if_neg (by omega)]
        · exact a4.trans (hole_move d l n cur _ v hcur (by omega) (by omega) (by omega))
    · refine ⟨l, cur, rfl, hcur, rfl, fun _ _ => rfl, List.Perm.refl _, ?_⟩
      exact fill hI d l n cur v (by omega) hcur h1 (fun h => by omega) h3

theorem buDown_ok (d : α) (n : Nat) (t : α) : ∀ (fuel : Nat) (l : List α) (cur : Nat),
    n ≤ l.length → cur < n → n ≤ fuel + cur →
    HH le n (g d l) cur → HC le n (g d l) cur → (0 < cur → g d l ((cur - 1) / 2) = g d l cur) →
    ∃ l' cur', buDown li n fuel l cur = .ok (l', cur') ∧ cur' < n ∧ n ≤ 2 * cur' + 1 ∧
      l'.length = l.length ∧ ((l'.set cur' t).take n).Perm ((l.set cur t).take n) ∧
      HH le n (g d l') cur' ∧ (0 < cur' → g d l' ((cur' - 1) / 2) = g d l' cur')
  | 0, l, cur, hn, hcur, hf, _, _, _ => by omega
  | fuel + 1, l, cur, hn, hcur, hf, h1, h2, h3 => by
    unfold buDown
    split
    · rename_i hlt
      obtain ⟨c, hc, hcn, hc0, hpc, hbig⟩ := pickBU_ok hI d l n cur (by omega) hlt
      rw [hc, Res.bind_ok, rd_eq d l c (by omega), Res.bind_ok, wr_eq _ _ _ (by omega), Res.bind_ok]
      obtain ⟨m1, m2⟩ := move_down hI d l n cur c (by omega) hcur hcn hc0 hpc hbig h1 h2
      obtain ⟨l', cur', he, a1, a2, a3, a4, a5⟩ := buDown_ok d n t fuel (l.set cur (g d l c)) c
          (by simpa using hn) hcn (by omega) m1 m2
          (fun _ => by rw [g_set _ _ _ _ (by omega), g_set _ _ _ _ (by omega), if_pos hpc, if_neg (by omega)])
      exact ⟨l', cur', he, a1, a2, by simpa using a3,
        a4.trans (hole_move d l n cur c t hcur hcn (by omega) (by omega)), a5⟩
    · exact ⟨l, cur, rfl, hcur, by omega, rfl, List.Perm.refl _, h1, h3⟩

theorem buUp_ok (hx : ∀ a b, le a b → li a b = true) (d : α) (n : Nat) (v : α) :
    ∀ (fuel : Nat) (l : List α) (cur : Nat),
    n < l.length → cur < n → cur < fuel → 0 < cur → g d l n = v → le v (g d l 0) →
    HH le n (g d l) cur → HC le n (g d l) cur →
    (∀ i, 0 < i → i < n → (i - 1) / 2 = cur → le (g d l i) v) →
    ∃ l' cur', buUp li n fuel l cur = .ok (l', cur') ∧ Sifted le d n v l cur l' cur'
  | 0, l, cur, hn, hcur, hf, _, _, _, _, _, _ => by omega
  | fuel + 1, l, cur, hn, hcur, hf, h0, hv, hm, h1, h2, h3 => by
    unfold buUp
    rw [if_neg (by omega)]
    simp only []
    rw [rd_eq d l n hn, Res.bind_ok, rd_eq d l _ (by omega), Res.bind_ok, hv]
    cases hl : li v (g d l ((cur - 1) / 2)) with
    | true =>
        refine ⟨l, cur, rfl, hcur, rfl, fun _ _ => rfl, List.Perm.refl _, ?_⟩
        exact fill hI d l n cur v (by omega) hcur h1 (fun _ => hI.yes _ _ hl) h3
    | false =>
        simp only [Bool.not_false, if_true]
        rw [wr_eq _ _ _ (by omega), Res.bind_ok]
        have hup : 0 < (cur - 1) / 2 := by
          apply Nat.pos_of_ne_zero
          intro h
          rw [h, hx _ _ hm] at hl
          cases hl
        obtain ⟨m1, m2, m3⟩ := move_up hI d l n cur v (by omega) hcur h0 h1 h2 (hI.no _ _ hl)
        obtain ⟨l', cur', he, a1, a2, a3, a4, a5⟩ :=
          buUp_ok hx d n v fuel (l.set cur (g d l ((cur - 1) / 2))) ((cur - 1) / 2)
          (by simpa using hn) (by omega) (by omega) hup
          (by rw [g_set _ _ _ _ (by omega), if_neg (by omega), hv])
          (by rw [g_set _ _ _ _ (by omega), if_neg (by omega)]; exact hm) m1 m2 m3
        refine ⟨l', cur', he, a1, by simpa using a2, ?_, ?_, a5⟩
        · intro i hi; rw [a3 i hi, g_set _ _ _ _ (by omega), if_neg (by omega)]
        · exact a4.trans (hole_move d l n cur _ v hcur (by omega) (by omega) (by omega))

end

end Verif.PQ
