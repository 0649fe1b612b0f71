import Verif.Atomic.Lemmas

/-! # Properties of atomic counters (C23, C82) -/

namespace Verif.Atomic

/-- **C23.** Whatever the threads run and however they are scheduled, at every moment the finished operations are
explained by running them one at a time: they lead from the first value to the value now in the counter, each with the
result it really returned, and each thread's are its program, in order, as far as it got. -/
theorem atomic_linearizable (ovf : Bool) (c : BitVec w) (progs : Nat → List (Op w)) (sched : List Nat) (s : State w)
    (h : run ovf (initial c progs) sched = .ok s) :
    ∃ es, Legal c es s.counter ∧ (∀ t, ofThread t es = (s.thr t).done) ∧
      ∀ t, (ofThread t es).map Prod.fst ++ (s.thr t).todo = progs t := by
  obtain ⟨es, h1⟩ := explains_run sched _ s [] (explains_initial c progs) h
  exact ⟨es, by simpa using h1.legal, by simpa using h1.each, by simpa using h1.order⟩

/-- **C23, real time.** The explanations of longer runs extend those of shorter ones: an operation that ended before
another began comes before it. -/
theorem atomic_real_time (ovf : Bool) (c : BitVec w) (progs : Nat → List (Op w)) (early late : List Nat) (s : State w)
    (h : run ovf (initial c progs) (early ++ late) = .ok s) :
    ∃ s1 es new, run ovf (initial c progs) early = .ok s1 ∧ run ovf s1 late = .ok s ∧
      Legal c es s1.counter ∧ (∀ t, ofThread t es = (s1.thr t).done) ∧
      Legal c (es ++ new) s.counter ∧ (∀ t, ofThread t (es ++ new) = (s.thr t).done) := by
  rw [run_append, Res.bind_eq_ok] at h
  obtain ⟨s1, h1, h2⟩ := h
  obtain ⟨es, e1⟩ := explains_run early _ s1 [] (explains_initial c progs) h1
  rw [List.nil_append] at e1
  obtain ⟨new, e2⟩ := explains_run late s1 s es e1 h2
  exact ⟨s1, es, new, h1, h2, e1.legal, e1.each, e2.legal, e2.each⟩

/-- Two threads and an operation each that meet the hypotheses: thread 1 finishes between the two instructions of the
loop of thread 0, which then runs again. -/
example : ∃ s, run false (initial (4 : BitVec 8) fun t => if t = 0 then [.fetchOr 1] else if t = 1 then [.postInc] else [])
    [0, 1, 0, 0] = .ok s ∧ s.counter = 5 ∧ (s.thr 0).done = [(.fetchOr 1, .val 5)] ∧ (s.thr 1).done = [(.postInc, .val 4)] :=
  ⟨_, rfl, by decide, by decide, by decide⟩

theorem sum_legal {c d : BitVec w} {es : List (Event w)} (h : Legal c es d) (hes : ∀ e ∈ es, e.op = .preInc ∨ e.op = .postInc) :
    d = c + BitVec.ofNat w es.length := by
  induction h with
  | nil c => simp
  | cons c e es c' h1 _ ih =>
    have := ih (fun e' he' => hes e' (by simp [he']))
    rw [this, List.length_cons, BitVec.ofNat_add]
    have hc : (apply c e.op).1 = c + 1 := by
      rcases hes e (by simp) with h | h <;> rw [h] <;> rfl
    rw [hc, BitVec.add_assoc]
    congr 1
    rw [BitVec.add_comm]
    rfl

/-- **C23, counting.** When every operation is an increment, no increment is lost: the counter has moved by the number
of increments that have returned. -/
theorem no_lost_increment (ovf : Bool) (c : BitVec w) (progs : Nat → List (Op w)) (sched : List Nat) (s : State w)
    (hp : ∀ t, ∀ op ∈ progs t, op = .preInc ∨ op = .postInc) (h : run ovf (initial c progs) sched = .ok s) :
    ∃ es : List (Event w), (∀ t, ofThread t es = (s.thr t).done) ∧ s.counter = c + BitVec.ofNat w es.length := by
  obtain ⟨es, h1, h2, h3⟩ := atomic_linearizable ovf c progs sched s h
  refine ⟨es, h2, sum_legal h1 ?_⟩
  intro e he
  apply hp e.tid
  rw [← h3 e.tid]
  apply List.mem_append_left
  refine List.mem_map.2 ⟨(e.op, e.ret), ?_, rfl⟩
  exact List.mem_map.2 ⟨e, by simpa using he, rfl⟩

/-- **C23, progress.** A thread that is alone for two steps finishes an operation, whatever happened before. -/
theorem alone_finishes (ovf : Bool) (s s' : State w) (t : Nat) (op : Op w) (rest : List (Op w))
    (ht : (s.thr t).todo = op :: rest) (h : run ovf s [t, t] = .ok s') :
    (s.thr t).done.length < (s'.thr t).done.length := by
  have grow : ∀ s1 s2 : State w, step ovf s1 t = .ok s2 → (s1.thr t).done.length ≤ (s2.thr t).done.length := by
    intro s1 s2 h1
    cases step_change h1 with
    | quiet _ h2 => rw [(h2 t).1]; exact Nat.le_refl _
    | completed op rest _ _ h3 _ _ => rw [h3]; simp
  simp only [run, Res.bind_eq_ok] at h
  obtain ⟨s1, h1, s2, h2, h3⟩ := h
  cases h3
  cases step_change h1 with
  | completed op rest _ _ h3 _ _ =>
    have := grow s1 s' h2
    rw [h3] at this
    simp at this
    omega
  | quiet hq1 hq2 =>
    -- only a loop can leave the operation unfinished, with the counter just read
    unfold step at h1
    rw [ht] at h1
    simp only [Res.bind_eq_ok] at h1
    obtain ⟨m, hm, h1⟩ := h1
    have hc : ∀ new, complete ovf s t op rest s.counter new = .ok s1 → False := by
      intro new hh
      simp only [complete, Res.bind_eq_ok] at hh
      obtain ⟨r, _, hh⟩ := hh
      cases hh
      have := (hq2 t).1
      rw [set_same] at this
      simp at this
    cases m with
    | read => exact (hc _ h1).elim
    | xchg v => exact (hc _ h1).elim
    | cmpxchg e d => exact (hc _ h1).elim
    | xadd v => exact (hc _ h1).elim
    | loop f =>
      have hreg : (s1.thr t).reg = some s1.counter := by
        simp only [exec] at h1
        split at h1
        · cases h1; rw [set_same]; rfl
        · split at h1
          · next heq => rw [← heq] at h1; exact (hc _ h1).elim
          · cases h1; rw [set_same]; rfl
      have ht1 : (s1.thr t).todo = op :: rest := by rw [(hq2 t).2]; exact ht
      unfold step at h2
      rw [ht1] at h2
      simp only [hm, Res.bind_ok, exec, hreg, if_true, complete, Res.bind_eq_ok] at h2
      obtain ⟨r, _, h2⟩ := h2
      cases h2
      rw [set_same, (hq2 t).1]
      simp

/-- **C82, what holds (1).** On types without undefined overflow (unsigned, or narrower than `int`) no operation is ever
undefined: every schedule runs to its end. -/
theorem unsigned_defined_partial (s : State w) (sched : List Nat) : ∃ s', run false s sched = .ok s' := by
  have fin : ∀ (old : BitVec w) (op : Op w), ∃ r, finish false old op = .ok r := by
    intro old op
    cases op <;> exact ⟨_, rfl⟩
  have dec : ∀ op : Op w, ∃ m, decode false op = .ok m := by
    intro op
    cases op <;> exact ⟨_, rfl⟩
  have one : ∀ (s : State w) (t : Nat), ∃ s', step false s t = .ok s' := by
    intro s t
    unfold step
    split
    · exact ⟨_, rfl⟩
    · next op rest ht =>
      obtain ⟨m, hm⟩ := dec op
      rw [hm, Res.bind_ok]
      have comp : ∀ old new, ∃ s', complete false s t op rest old new = .ok s' := by
        intro old new
        obtain ⟨r, hr⟩ := fin old op
        unfold complete
        rw [hr]; exact ⟨_, rfl⟩
      cases m with
      | read => exact comp _ _
      | xchg v => exact comp _ _
      | cmpxchg e d => exact comp _ _
      | xadd v => exact comp _ _
      | loop f =>
        simp only [exec]
        split
        · exact ⟨_, rfl⟩
        · split
          · exact comp _ _
          · exact ⟨_, rfl⟩
  induction sched generalizing s with
  | nil => exact ⟨s, rfl⟩
  | cons t ts ih =>
    obtain ⟨s1, h1⟩ := one s t
    obtain ⟨s2, h2⟩ := ih s1
    exact ⟨s2, by simp only [run, h1, Res.bind_ok, h2]⟩

/-- **C82, what holds (2).** On signed types the operations that return the value before never compute with it:
`fetch_add` and the suffix `++` are defined for every value in the counter. -/
theorem signed_fetch_partial (old v : BitVec w) :
    finish true old (.fetchAdd v) = .ok (.val old) ∧ finish true old .postInc = .ok (.val old) ∧
    decode true (.fetchAdd v : Op w) = .ok (.xadd v) ∧ decode true (.postInc : Op w) = .ok (.xadd 1) := ⟨rfl, rfl, rfl, rfl⟩

/-- **C82, refuted.** On `int`, the prefix `++` of a counter at its largest value stores the wrapped value and then
computes `INT_MAX + 1`; `fetch_sub` of the smallest value negates it. Both are undefined. -/
theorem signed_undefined (progs : Nat → List (Op 32)) (rest : List (Op 32)) :
    (progs 0 = .preInc :: rest → run true (initial (BitVec.intMax 32) progs) [0] = .ub) ∧
    (progs 0 = .fetchSub (BitVec.intMin 32) :: rest → ∀ c, run true (initial c progs) [0] = .ub) := by
  constructor
  · intro h
    have h2 : finish true (BitVec.intMax 32) (.preInc : Op 32) = .ub := by
      unfold finish addT
      rw [if_pos (by decide)]; rfl
    simp only [run, step, initial, h, decode, Res.bind_ok, exec, complete, h2, Res.bind_ub]
  · intro h c
    have h2 : negT true (BitVec.intMin 32) = .ub := by
      unfold negT
      rw [if_pos (by decide)]
    simp only [run, step, initial, h, decode, h2, Res.bind_ub]

/-- **C82, what holds (3).** On signed types an instruction is undefined exactly when its operation computes a number the type does not have; nothing else goes wrong. -/
theorem signed_exact_partial (hw : 1 < w) (s : State w) (t : Nat) : ((∃ op rest, (s.thr t).todo = op :: rest ∧ Overflows s.counter op) → step true s t = .ub) ∧
    ((¬ ∃ op rest, (s.thr t).todo = op :: rest ∧ Overflows s.counter op) → ∃ s', step true s t = .ok s') := by
  have h1 : ((1 : BitVec w)).toInt = 1 := BitVec.toInt_one hw
  have hn : negT true (1 : BitVec w) = .ok (-1) := by
    rw [negT_ub, if_neg]
    rw [h1, Decidable.not_not]
    have : (2 : Int) ^ 1 ≤ 2 ^ (w - 1) := by
      have := Nat.pow_le_pow_right (n := 2) (by decide) (show 1 ≤ w - 1 by omega)
      exact_mod_cast this
    unfold Fits
    omega
  constructor
  · rintro ⟨op, rest, ht, ho⟩
    unfold step
    rw [ht]
    cases op with
    | fetchSub v =>
      have : negT true v = .ub := by rw [negT_ub, if_pos (by simpa only [Overflows] using ho)]
      simp only [decode, this, Res.bind_ub]
    | addA v =>
      have : addT true s.counter v = .ub := by rw [addT_ub (by omega), if_pos (by simpa only [Overflows] using ho)]
      simp only [decode, Res.bind_ok, exec, complete, finish, this, Res.bind_ub]
    | subA v =>
      by_cases hv : Fits w (-v.toInt)
      · have e1 : negT true v = .ok (-v) := by rw [negT_ub, if_neg (Decidable.not_not.2 hv)]
        have e2 : subT true s.counter v = .ub := by rw [subT_ub (by omega), if_pos (ho.resolve_left (Decidable.not_not.2 hv))]
        simp only [decode, e1, Res.bind_ok, exec, complete, finish, e2, Res.bind_ub]
        rfl
      · have : negT true v = .ub := by rw [negT_ub, if_pos hv]
        simp only [decode, this, Res.bind_ub]
    | preInc =>
      have : addT true s.counter 1 = .ub := by rw [addT_ub (by omega), h1, if_pos (by simpa only [Overflows] using ho)]
      simp only [decode, Res.bind_ok, exec, complete, finish, this, Res.bind_ub]
    | preDec =>
      have : subT true s.counter 1 = .ub := by rw [subT_ub (by omega), h1, if_pos (by simpa only [Overflows] using ho)]
      simp only [decode, hn, Res.bind_ok, exec, complete, finish, this, Res.bind_ub]
      rfl
    | _ => cases ho
  · intro hno
    unfold step
    split
    · exact ⟨_, rfl⟩
    · next op rest ht =>
      have ho : ¬ Overflows s.counter op := fun h => hno ⟨op, rest, ht, h⟩
      have hloop : ∀ f : BitVec w → BitVec w, (∀ old, ∃ r, finish true old op = .ok r) → ∃ s', exec true s t op rest (.loop f) = .ok s' := by
        intro f hf
        simp only [exec]
        split
        · exact ⟨_, rfl⟩
        · split
          · next e _ _ =>
            obtain ⟨r, hr⟩ := hf e
            unfold complete
            rw [hr]
            exact ⟨_, rfl⟩
          · exact ⟨_, rfl⟩
      cases op with
      | fetchSub v =>
        have : negT true v = .ok (-v) := by rw [negT_ub, if_neg (by simpa only [Overflows] using ho)]
        simp only [decode, this, Res.bind_ok]
        exact ⟨_, rfl⟩
      | addA v =>
        have : addT true s.counter v = .ok (s.counter + v) := by rw [addT_ub (by omega), if_neg (by simpa only [Overflows] using ho)]
        simp only [decode, Res.bind_ok, exec, complete, finish, this]
        exact ⟨_, rfl⟩
      | subA v =>
        have e1 : negT true v = .ok (-v) := by rw [negT_ub, if_neg fun h => ho (.inl h)]
        have e2 : subT true s.counter v = .ok (s.counter - v) := by rw [subT_ub (by omega), if_neg fun h => ho (.inr h)]
        simp only [decode, e1, Res.bind_ok]
        show ∃ s', complete true s t (.subA v) rest s.counter _ = .ok s'
        simp only [complete, finish, e2, Res.bind_ok]
        exact ⟨_, rfl⟩
      | preInc =>
        have : addT true s.counter 1 = .ok (s.counter + 1) := by rw [addT_ub (by omega), h1, if_neg (by simpa only [Overflows] using ho)]
        simp only [decode, Res.bind_ok, exec, complete, finish, this]
        exact ⟨_, rfl⟩
      | preDec =>
        have : subT true s.counter 1 = .ok (s.counter - 1) := by rw [subT_ub (by omega), h1, if_neg (by simpa only [Overflows] using ho)]
        simp only [decode, hn, Res.bind_ok]
        show ∃ s', complete true s t .preDec rest s.counter _ = .ok s'
        simp only [complete, finish, this, Res.bind_ok]
        exact ⟨_, rfl⟩
      | postDec =>
        simp only [decode, hn, Res.bind_ok]
        exact ⟨_, rfl⟩
      | fetchOr v => exact hloop _ fun old => ⟨_, rfl⟩
      | fetchAnd v => exact hloop _ fun old => ⟨_, rfl⟩
      | fetchXor v => exact hloop _ fun old => ⟨_, rfl⟩
      | orA v => exact hloop _ fun old => ⟨_, rfl⟩
      | andA v => exact hloop _ fun old => ⟨_, rfl⟩
      | xorA v => exact hloop _ fun old => ⟨_, rfl⟩
      | _ => exact ⟨_, rfl⟩

/-- Both cases: adding 1 to the largest number of 8 bits and taking it away again. -/
example : Overflows (127 : BitVec 8) (.addA 1) ∧ ¬ Overflows (127 : BitVec 8) (.subA 1) ∧ Overflows (0 : BitVec 8) (.fetchSub (BitVec.intMin 8)) := by
  unfold Overflows Fits
  decide

end Verif.Atomic
