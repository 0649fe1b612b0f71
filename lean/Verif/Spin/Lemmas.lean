import Mathlib.Data.List.Nodup
import Mathlib.Data.List.Perm.Subperm
import Verif.Spin.Model

namespace Verif.Spin

theorem goto_same (s : State) (t : Nat) (p : PC) : (s.goto t p).pc t = p := by simp [State.goto]
theorem goto_other (s : State) (t : Nat) (p : PC) {u : Nat} (h : u ≠ t) : (s.goto t p).pc u = s.pc u := by
  simp [State.goto, h]

theorem run_append (k : Kind) (ovf : Bool) (s : State) (ts us : List Nat) :
    run k ovf s (ts ++ us) = (run k ovf s ts >>= fun s' => run k ovf s' us) := by
  induction ts generalizing s with
  | nil => rfl
  | cons t ts ih =>
    simp only [List.cons_append, run]
    rw [Res.bind_assoc']
    congr 1
    funext s1
    exact ih s1

/-- The positions from which a thread does not decrement again while the word is not positive. -/
def Waits : PC → Prop
  | .spin _ | .test0 => True
  | _ => False

/-- The lock word while nobody holds the lock, and while `h` does: `S` are the threads that failed since. -/
inductive Inv (N : Nat) (s : State) : Prop
  | free : (∀ t, s.pc t ≠ .crit) → s.val = 1 → Inv N s
  | held (h : Nat) (S : List Nat) : (∀ t, s.pc t = .crit ↔ t = h) → h < N → S.Nodup → (∀ t ∈ S, t < N ∧ Waits (s.pc t)) →
      s.val = 0 - BitVec.ofNat 32 S.length → Inv N s

/-- `spincount` is not zero while it matters. -/
def Counted (s : State) : Prop := ∀ t n, (s.pc t = .dec n ∨ s.pc t = .spin n) → 0 < n

theorem nodup_length_le {N : Nat} {l : List Nat} (hn : l.Nodup) (h : ∀ x ∈ l, x < N) : l.length ≤ N := by
  have hsub : l.Subset (List.range N) := fun x hx => List.mem_range.2 (h x hx)
  have := (hn.subperm hsub).length_le
  simpa using this

theorem nodup_room {N h : Nat} {S : List Nat} (hS : S.Nodup) (hm : ∀ t ∈ S, t < N) (hh : h < N) (hhS : h ∉ S) : S.length < N := by
  have h1 : (h :: S).Nodup := List.nodup_cons.2 ⟨hhS, hS⟩
  have := nodup_length_le h1 (fun x hx => by
    rcases List.mem_cons.1 hx with rfl | hx
    · exact hh
    · exact hm x hx)
  simp only [List.length_cons] at this
  omega

theorem sub_ofNat_succ (a : BitVec 32) (n : Nat) : a - BitVec.ofNat 32 n - 1 = a - BitVec.ofNat 32 (n + 1) := by
  rw [BitVec.ofNat_add]
  generalize BitVec.ofNat 32 n = b
  simp only [BitVec.sub_eq_add_neg, BitVec.neg_add, BitVec.add_assoc]
  rfl

theorem neg_ne {n : Nat} (h1 : n < 2 ^ 31) : (0#32 - BitVec.ofNat 32 n) ≠ 1 ∧ ¬ 0 < (0#32 - BitVec.ofNat 32 n).toInt ∧
    ((0#32 - BitVec.ofNat 32 n) - 1#32 ≠ 0#32) := by
  have e : (0#32 - BitVec.ofNat 32 n).toNat = (2 ^ 32 - n) % 2 ^ 32 := by
    rw [BitVec.toNat_sub, BitVec.toNat_ofNat]
    simp only [BitVec.toNat_ofNat]
    omega
  refine ⟨?_, ?_, ?_⟩
  · intro h
    have h2 := congrArg BitVec.toNat h
    rw [e] at h2
    simp at h2
    omega
  · rw [BitVec.toInt_eq_toNat_cond, e]
    split <;> omega
  · intro h
    have h2 : (0#32 - BitVec.ofNat 32 n) = 1#32 := by
      have h3 := congrArg (· + 1#32) h
      simp only [BitVec.sub_add_cancel] at h3
      rw [h3]; rfl
    have h2 := congrArg BitVec.toNat h2
    rw [e] at h2
    simp at h2
    omega

/-- Everything the proof keeps for the two locks that test before they decrement. -/
def Full (k : Kind) (N : Nat) (s : State) : Prop := Inv N s ∧ (k = .yield → Counted s)

theorem full_initial (k : Kind) (N : Nat) : Full k N initial :=
  ⟨.free (fun _ h => by cases h) rfl, fun _ t n h => by rcases h with h | h <;> cases h⟩

theorem counted_step {ovf : Bool} {s s' : State} {t : Nat} (hc : Counted s) (h : step .yield ovf s t = .ok s') : Counted s' := by
  have key : ∀ p : PC, (∀ n, (p = .dec n ∨ p = .spin n) → 0 < n) → Counted (s.goto t p) := by
    intro p hp u n hu
    by_cases hut : u = t
    · subst hut; rw [goto_same] at hu; exact hp n hu
    · rw [goto_other _ _ _ hut] at hu; exact hc u n hu
  unfold step at h
  split at h
  · cases h; exact key _ (by simp [entry])
  · cases h; exact key _ (by simp)
  · cases h; apply key; intro n hn; split at hn <;> simp at hn <;> omega
  · next n hpc =>
    cases h
    apply key
    intro m hm
    have := hc t n (Or.inr hpc)
    simp only [waitStep] at hm
    split at hm
    · simp at hm; omega
    · split at hm
      · simp at hm
      · simp at hm; omega
  · next n hpc =>
    split at h
    · cases h
    · cases h
      have := hc t n (Or.inl hpc)
      intro u m hu
      refine key _ ?_ u m hu
      intro m hm
      split at hm
      · cases n with
        | zero => omega
        | succ n => simp [afterZero] at hm
      · simp [afterFail] at hm; omega

theorem full_step {k : Kind} (hk : k ≠ .atomic) {N : Nat} (hN : N ≤ 2 ^ 31) {ovf : Bool} {s s' : State} {t : Nat} (ht : t < N)
    (hf : Full k N s) (h : step k ovf s t = .ok s') : Full k N s' := by
  refine ⟨?_, fun hy => by subst hy; exact counted_step (hf.2 rfl) h⟩
  have hcnt := hf.2
  unfold step at h
  cases hf.1 with
  | free hno hv =>
    have stay : ∀ p : PC, p ≠ .crit → Inv N (s.goto t p) := by
      intro p hp
      refine .free ?_ hv
      intro u
      by_cases hut : u = t
      · subst hut; rw [goto_same]; exact hp
      · rw [goto_other _ _ _ hut]; exact hno u
    split at h
    · cases h; exact stay _ (by cases k <;> simp [entry])
    · next hc => exact absurd hc (hno t)
    · cases h; apply stay; split <;> simp
    · next n hpc => cases h; apply stay; cases k <;> simp only [waitStep] <;> (repeat' split) <;> simp
    · next n hpc =>
      split at h
      · cases h
      · cases h
        have hz : s.val - 1 = 0 := by rw [hv]; rfl
        have hcrit : afterZero k n = .crit := by
          cases k with
          | glibc => rfl
          | atomic => rfl
          | yield =>
            have := hcnt rfl t n (Or.inl hpc)
            cases n with
            | zero => omega
            | succ n => rfl
        simp only [hz, if_true, hcrit]
        refine .held t [] ?_ ht (by simp) (by simp) (by simp)
        intro u
        by_cases hut : u = t
        · subst hut; simp [State.goto]
        · simp only [State.goto, if_neg hut]
          constructor
          · intro hc; exact absurd hc (hno u)
          · intro hh; exact absurd hh hut
  | held hd S hone hhN hnd hS hv =>
    have hhS : hd ∉ S := by
      intro hm
      have := (hS hd hm).2
      rw [(hone hd).2 rfl] at this
      exact this
    have hlen : S.length < N := nodup_room hnd (fun x hx => (hS x hx).1) hhN hhS
    obtain ⟨ne1, ne2, ne3⟩ := neg_ne (n := S.length) (by omega)
    have hne1 : s.val ≠ 1 := by rw [hv]; exact ne1
    -- a thread that moves to a waiting position, or arrives, changes nothing
    have stay : ∀ p : PC, t ≠ hd → p ≠ .crit → (t ∈ S → Waits p) → Inv N (s.goto t p) := by
      intro p hth hp hw
      refine .held hd S ?_ hhN hnd ?_ hv
      · intro u
        by_cases hut : u = t
        · subst hut; rw [goto_same]
          exact ⟨fun h => absurd h hp, fun h => absurd h hth⟩
        · rw [goto_other _ _ _ hut]; exact hone u
      · intro u hu
        by_cases hut : u = t
        · subst hut; rw [goto_same]; exact ⟨(hS u hu).1, hw hu⟩
        · rw [goto_other _ _ _ hut]; exact hS u hu
    split at h
    · next hpc =>
      cases h
      apply stay
      · intro e; rw [e, (hone hd).2 rfl] at hpc; cases hpc
      · cases k <;> simp [entry]
      · intro hm; have := (hS t hm).2; rw [hpc] at this; exact this.elim
    · next hpc =>
      cases h
      refine .free ?_ rfl
      intro u
      by_cases hut : u = t
      · subst hut; simp [State.goto]
      · simp only [State.goto, if_neg hut]
        intro hc
        have e1 := (hone u).1 hc
        have e2 := (hone t).1 hpc
        omega
    · next hpc =>
      cases h
      rw [if_neg hne1]
      apply stay
      · intro e; rw [e, (hone hd).2 rfl] at hpc; cases hpc
      · simp
      · intro _; trivial
    · next n hpc =>
      cases h
      apply stay
      · intro e; rw [e, (hone hd).2 rfl] at hpc; cases hpc
      · cases k <;> simp only [waitStep] <;> (repeat' split) <;> simp
      · intro _
        cases k with
        | glibc =>
          simp only [waitStep]
          rw [if_neg (by rw [hv]; exact ne2)]; trivial
        | atomic => exact absurd rfl hk
        | yield =>
          simp only [waitStep, if_neg hne1]
          split <;> trivial
    · next n hpc =>
      split at h
      · cases h
      · cases h
        have hth : t ≠ hd := by intro e; rw [e, (hone hd).2 rfl] at hpc; cases hpc
        have htS : t ∉ S := by intro hm; have := (hS t hm).2; rw [hpc] at this; exact this
        have hz : ¬ (s.val - 1 = 0) := by rw [hv]; exact ne3
        have hw : Waits (afterFail k n) := by
          cases k with
          | glibc => trivial
          | atomic => exact absurd rfl hk
          | yield => trivial
        have hnc : afterFail k n ≠ .crit := by cases k <;> simp [afterFail]
        simp only [if_neg hz]
        refine .held hd (t :: S) ?_ hhN (List.nodup_cons.2 ⟨htS, hnd⟩) ?_ ?_
        · intro u
          by_cases hut : u = t
          · subst hut; simp only [State.goto, if_true]
            exact ⟨fun h => absurd h hnc, fun h => absurd h hth⟩
          · simp only [State.goto, if_neg hut]; exact hone u
        · intro u hu
          by_cases hut : u = t
          · subst hut; simp only [State.goto, if_true]; exact ⟨ht, hw⟩
          · simp only [State.goto, if_neg hut]
            rcases List.mem_cons.1 hu with e | hu
            · exact absurd e hut
            · exact hS u hu
        · show s.val - 1 = _
          rw [hv, List.length_cons, sub_ofNat_succ]

theorem full_run {k : Kind} (hk : k ≠ .atomic) {N : Nat} (hN : N ≤ 2 ^ 31) {ovf : Bool} :
    ∀ (ts : List Nat) (s s' : State), (∀ t ∈ ts, t < N) → Full k N s → run k ovf s ts = .ok s' → Full k N s'
  | [], s, s', _, hf, h => by cases h; exact hf
  | t :: ts, s, s', ht, hf, h => by
    simp only [run, Res.bind_eq_ok] at h
    obtain ⟨s1, h1, h2⟩ := h
    exact full_run hk hN ts s1 s' (fun u hu => ht u (by simp [hu])) (full_step hk hN (ht t (by simp)) hf h1) h2

theorem step_defined {k : Kind} {ovf : Bool} (h : k ≠ .atomic ∨ ovf = false) (s : State) (t : Nat) : ∃ s', step k ovf s t = .ok s' := by
  unfold step
  split
  · exact ⟨_, rfl⟩
  · exact ⟨_, rfl⟩
  · exact ⟨_, rfl⟩
  · exact ⟨_, rfl⟩
  · rw [if_neg (by rcases h with h | h <;> simp [h])]
    exact ⟨_, rfl⟩

/-! ## `AtomicSpinLock` -/

/-- The word is one less for every try since it was set. -/
structure AInv (s : State) : Prop where
  val : s.val = 1 - BitVec.ofNat 32 s.tries
  free : (∀ t, s.pc t ≠ .crit) → s.tries = 0
  held : ∀ t, s.pc t = .crit → 0 < s.tries ∧ ∀ u, s.pc u = .crit → u = t

theorem ainv_initial : AInv initial := ⟨by decide, fun _ => rfl, fun t h => by cases h⟩

theorem ainv_step {ovf : Bool} {s s' : State} {t : Nat} (hi : AInv s) (hb : s.tries < 2 ^ 32 - 1) (h : step .atomic ovf s t = .ok s') :
    AInv s' := by
  unfold step at h
  have stay : ∀ p : PC, s.pc t ≠ .crit → p ≠ .crit → AInv (s.goto t p) := by
    intro p hn hp
    have hpc : ∀ u, (s.goto t p).pc u = .crit ↔ s.pc u = .crit := by
      intro u
      by_cases hut : u = t
      · subst hut; rw [goto_same]; exact ⟨fun h => absurd h hp, fun h => absurd h hn⟩
      · rw [goto_other _ _ _ hut]
    refine ⟨hi.val, fun h => hi.free fun u hu => h u ((hpc u).2 hu), fun u hu => ?_⟩
    obtain ⟨h1, h2⟩ := hi.held u ((hpc u).1 hu)
    exact ⟨h1, fun v hv => h2 v ((hpc v).1 hv)⟩
  split at h
  · next hpc => cases h; exact stay _ (by simp [hpc]) (by simp [entry])
  · next hpc =>
    cases h
    refine ⟨by show (1 : BitVec 32) = 1 - BitVec.ofNat 32 0; decide, fun _ => rfl, ?_⟩
    intro u hu
    exfalso
    by_cases hut : u = t
    · subst hut; simp [State.goto] at hu
    · simp only [State.goto, if_neg hut] at hu
      exact hut ((hi.held t hpc).2 u hu)
  · next hpc => cases h; exact stay _ (by simp [hpc]) (by split <;> simp)
  · next hpc => cases h; exact stay _ (by simp [hpc]) (by simp [waitStep])
  · next n hpc =>
    split at h
    · cases h
    · cases h
      have hval : s.val - 1 = 1 - BitVec.ofNat 32 (s.tries + 1) := by
        rw [hi.val, sub_ofNat_succ]
      have hzero : s.val - 1 = 0 ↔ s.tries = 0 := by
        rw [hi.val]
        constructor
        · intro h
          have h2 := congrArg BitVec.toNat h
          simp only [BitVec.toNat_sub, BitVec.toNat_ofNat, BitVec.ofNat_eq_ofNat] at h2
          omega
        · intro h; rw [h]; decide
      have hnc : s.pc t ≠ .crit := by simp [hpc]
      by_cases hz : s.tries = 0
      · have hno : ∀ u, s.pc u ≠ .crit := fun u hu => by have := (hi.held u hu).1; omega
        simp only [hzero.2 hz, if_true, afterZero]
        refine ⟨by show (0 : BitVec 32) = _; rw [← hzero.2 hz]; exact hval, ?_, ?_⟩
        · intro h; exact absurd (by simp [State.goto]) (h t)
        · intro u hu
          refine ⟨by simp, ?_⟩
          have only : ∀ v, (s.goto t .crit).pc v = .crit → v = t := by
            intro v hv
            by_cases hvt : v = t
            · exact hvt
            · rw [goto_other _ _ _ hvt] at hv; exact absurd hv (hno v)
          intro v hv
          rw [only v hv, only u hu]
      · have hz' : ¬ (s.val - 1 = 0) := fun e => hz (hzero.1 e)
        simp only [if_neg hz']
        have hg := stay (afterFail .atomic n) hnc (by simp [afterFail])
        refine ⟨hval, ?_, ?_⟩
        · intro h
          exact absurd (hg.free h) hz
        · intro u hu
          exact ⟨by show 0 < s.tries + 1; omega, (hg.held u hu).2⟩

/-- The lock word never gets further than `b` tries below one. -/
def TriesAtMost (k : Kind) (ovf : Bool) (b : Nat) (s : State) (ts : List Nat) : Prop :=
  ∀ pre post s', ts = pre ++ post → run k ovf s pre = .ok s' → s'.tries ≤ b

theorem ainv_run {ovf : Bool} : ∀ (ts : List Nat) (s s' : State), AInv s → TriesAtMost .atomic ovf (2 ^ 32 - 2) s ts →
    run .atomic ovf s ts = .ok s' → AInv s'
  | [], s, s', hi, _, h => by cases h; exact hi
  | t :: ts, s, s', hi, hb, h => by
    simp only [run, Res.bind_eq_ok] at h
    obtain ⟨s1, h1, h2⟩ := h
    have h0 := hb [] (t :: ts) s rfl rfl
    refine ainv_run ts s1 s' (ainv_step hi (by omega) h1) ?_ h2
    intro pre post s'' e hr
    exact hb (t :: pre) post s'' (by rw [e]; rfl) (by simp only [run, h1, Res.bind_ok]; exact hr)

end Verif.Spin
