import Verif.Rng.PeriodTable
import Verif.Rng.MarsLemmas

/-! # Polynomials of the step of `MicroRandInner::randInt` (lemmas for C238) -/

namespace Verif.Rng.Period

/-! ## Polynomials over the field of two elements, acting by a linear function -/

/-- The product of polynomials; the first has `n` coefficients. -/
def clm : Nat → Nat → Nat → Nat
  | 0, _, _ => 0
  | n + 1, p, q => Nat.xor (clm n p q) (bif p.testBit n then Nat.shiftLeft q n else 0)

/-- `k` times. -/
def times {α : Type} (f : α → α) : Nat → α → α
  | 0, v => v
  | k + 1, v => f (times f k v)

theorem times_add {α : Type} (f : α → α) (i j : Nat) (v : α) : times f (i + j) v = times f i (times f j v) := by
  induction i with
  | zero => simp [times]
  | succ i ih => rw [Nat.add_right_comm, times, ih, times]

theorem times_mul {α : Type} (f : α → α) (i j : Nat) (v : α) : times f (i * j) v = times (times f i) j v := by
  induction j with
  | zero => rfl
  | succ j ih => rw [Nat.mul_succ, Nat.add_comm, times_add, ih, times]

section
variable {n : Nat} (f : BitVec n → BitVec n)

/-- A polynomial with `m` coefficients of `f`. -/
def act : Nat → Nat → BitVec n → BitVec n
  | 0, _, _ => 0#n
  | m + 1, p, v => act m p v ^^^ (bif p.testBit m then times f m v else 0#n)

theorem act_succ (m p : Nat) (v : BitVec n) : act f (m + 1) p v = act f m p v ^^^ (bif p.testBit m then times f m v else 0#n) := rfl

variable (hf : ∀ u v, f (u ^^^ v) = f u ^^^ f v)

include hf

theorem lin_zero : f 0#n = 0#n := by
  have := hf 0#n 0#n
  simpa using this

theorem times_xor (k : Nat) (u v : BitVec n) : times f k (u ^^^ v) = times f k u ^^^ times f k v := by
  induction k with
  | zero => rfl
  | succ k ih => simp only [times, ih, hf]

theorem times_zero (k : Nat) : times f k 0#n = 0#n := by
  induction k with
  | zero => rfl
  | succ k ih => simp only [times, ih, lin_zero f hf]

theorem act_v (m p : Nat) (u v : BitVec n) : act f m p (u ^^^ v) = act f m p u ^^^ act f m p v := by
  induction m with
  | zero => simp [act]
  | succ m ih =>
    simp only [act, ih, times_xor f hf]
    cases p.testBit m
    · simp
    · simp only [cond_true]
      ac_rfl

theorem act_v0 (m p : Nat) : act f m p 0#n = 0#n := by
  have := act_v f hf m p 0#n 0#n
  simpa using this

omit hf in
theorem act_p (m p q : Nat) (v : BitVec n) : act f m (Nat.xor p q) v = act f m p v ^^^ act f m q v := by
  induction m with
  | zero => simp [act]
  | succ m ih =>
    have ht : (Nat.xor p q).testBit m = (p.testBit m ^^ q.testBit m) := Nat.testBit_xor p q m
    simp only [act, ih, ht]
    cases p.testBit m <;> cases q.testBit m
    · simp
    · simp [BitVec.xor_assoc]
    · simp only [Bool.xor_false, cond_true, cond_false, BitVec.xor_zero]
      ac_rfl
    · simp only [Bool.xor_self, cond_true, cond_false, BitVec.xor_zero]
      have : act f m p v ^^^ times f m v ^^^ (act f m q v ^^^ times f m v) = act f m p v ^^^ act f m q v ^^^ (times f m v ^^^ times f m v) := by ac_rfl
      rw [this, BitVec.xor_self, BitVec.xor_zero]

omit hf in
theorem act_p0 (m : Nat) (v : BitVec n) : act f m 0 v = 0#n := by
  induction m with
  | zero => rfl
  | succ m ih => simp [act, ih]

omit hf in
theorem act_more (m k p : Nat) (hp : p < 2 ^ m) (v : BitVec n) : act f (m + k) p v = act f m p v := by
  induction k with
  | zero => rfl
  | succ k ih =>
    rw [← Nat.add_assoc, act_succ, ih, Nat.testBit_lt_two_pow (Nat.lt_of_lt_of_le hp (Nat.pow_le_pow_right (by omega) (by omega)))]
    simp

omit hf in
theorem act_le (m m' p : Nat) (h : m ≤ m') (hp : p < 2 ^ m) (v : BitVec n) : act f m' p v = act f m p v := by
  have := act_more f m (m' - m) p hp v
  rwa [Nat.add_sub_cancel' h] at this

theorem act_shift (m i q : Nat) (v : BitVec n) : act f (m + i) (Nat.shiftLeft q i) v = times f i (act f m q v) := by
  induction m with
  | zero =>
    rw [Nat.zero_add]
    show _ = times f i 0#n
    rw [times_zero f hf]
    have : ∀ k, k ≤ i → act f k (Nat.shiftLeft q i) v = 0#n := by
      intro k
      induction k with
      | zero => intro _; rfl
      | succ k ih =>
        intro h
        have ht : (Nat.shiftLeft q i).testBit k = false := by
          have := Nat.testBit_shiftLeft (i := i) (j := k) q
          rw [show (q <<< i).testBit k = (Nat.shiftLeft q i).testBit k from rfl] at this
          rw [this]
          simp
          omega
        rw [act_succ, ih (by omega), ht]
        simp
    exact this i (Nat.le_refl i)
  | succ m ih =>
    have ht : (Nat.shiftLeft q i).testBit (m + i) = q.testBit m := by
      have := Nat.testBit_shiftLeft (i := i) (j := m + i) q
      rw [show (q <<< i).testBit (m + i) = (Nat.shiftLeft q i).testBit (m + i) from rfl] at this
      rw [this]
      simp
    rw [Nat.add_right_comm, act_succ, ih, ht, act_succ, times_xor f hf, Nat.add_comm m i, times_add]
    cases q.testBit m
    · simp [times_zero f hf]
    · rfl

theorem act_shift' (q i : Nat) (hq : q < 2 ^ 66) (hi : i ≤ 64) (v : BitVec n) : act f 130 (Nat.shiftLeft q i) v = times f i (act f 130 q v) := by
  have := act_shift f hf (130 - i) i q v
  rw [Nat.sub_add_cancel (by omega)] at this
  rw [this, act_le f 66 (130 - i) q (by omega) hq, act_le f 66 130 q (by omega) hq]

theorem act_clm (m p q : Nat) (hm : m ≤ 65) (hq : q < 2 ^ 66) (v : BitVec n) : act f 130 (clm m p q) v = act f m p (act f 130 q v) := by
  induction m with
  | zero => exact act_p0 f 130 v
  | succ m ih =>
    rw [clm, act_p, ih (by omega), act_succ f m p]
    cases p.testBit m
    · simp only [cond_false, act_p0]
    · simp only [cond_true, act_shift' f hf q m hq (by omega)]

theorem act_mul (p q : Nat) (hp : p < 2 ^ 65) (hq : q < 2 ^ 66) (v : BitVec n) : act f 130 (clm 65 p q) v = act f 130 p (act f 130 q v) := by
  rw [act_clm f hf 65 p q (by omega) hq, act_le f 65 130 p (by omega) hp]

theorem act_double (p : Nat) (hp : p < 2 ^ 129) (v : BitVec n) : act f 130 (Nat.shiftLeft p 1) v = f (act f 130 p v) := by
  rw [act_shift f hf 129 1 p v, act_le f 129 130 p (by omega) hp]
  rfl

omit hf in
theorem act_one (v : BitVec n) : act f 130 1 v = v := by
  rw [act_le f 1 130 1 (by omega) (by decide)]
  simp [act, times]

omit hf in
theorem act_two (v : BitVec n) : act f 130 2 v = f v := by
  rw [act_le f 2 130 2 (by omega) (by decide)]
  simp [act, times]
  rfl

/-- One step of square and multiply. -/
def square (c e : Nat) (s : Bool × Nat × Nat) : Bool :=
  Nat.beq (bif s.1 then Nat.shiftLeft (clm 65 e e) 1 else clm 65 e e) (Nat.xor s.2.1 (clm 65 c s.2.2)) &&
    Nat.blt (clm 65 e e) (2 ^ 129) && Nat.blt s.2.1 (2 ^ 64) && Nat.blt s.2.2 (2 ^ 65)

/-- All steps. -/
def squares (c : Nat) : Nat → List (Bool × Nat × Nat) → Bool
  | _, [] => true
  | e, s :: l => square c e s && squares c s.2.1 l

/-- The last remainder. -/
def last : Nat → List (Bool × Nat × Nat) → Nat
  | e, [] => e
  | _, s :: l => last s.2.1 l

/-- The exponent. -/
def expo : Nat → List (Bool × Nat × Nat) → Nat
  | k, [] => k
  | k, s :: l => expo (2 * k + (bif s.1 then 1 else 0)) l

theorem square_ok (c : Nat) (hc : c < 2 ^ 65) (h0 : ∀ v, act f 130 c v = 0#n) (e k : Nat) (s : Bool × Nat × Nat) (he : e < 2 ^ 64) (hk : ∀ v, act f 130 e v = times f k v)
    (h : square c e s = true) : s.2.1 < 2 ^ 64 ∧ ∀ v, act f 130 s.2.1 v = times f (2 * k + (bif s.1 then 1 else 0)) v := by
  simp only [square, Bool.and_eq_true] at h
  obtain ⟨⟨⟨h1, h2⟩, h3⟩, h4⟩ := h
  have e1 := Nat.eq_of_beq_eq_true h1
  have b2 : clm 65 e e < 2 ^ 129 := Nat.le_of_ble_eq_true h2
  have b3 : s.2.1 < 2 ^ 64 := Nat.le_of_ble_eq_true h3
  have b4 : s.2.2 < 2 ^ 65 := Nat.le_of_ble_eq_true h4
  refine ⟨b3, fun v => ?_⟩
  have l : act f 130 (Nat.xor s.2.1 (clm 65 c s.2.2)) v = act f 130 s.2.1 v := by
    rw [act_p, act_mul f hf c _ hc (Nat.lt_of_lt_of_le b4 (by decide)), h0]
    simp
  have r : act f 130 (clm 65 e e) v = times f (2 * k) v := by
    rw [act_mul f hf e e (Nat.lt_of_lt_of_le he (by decide)) (Nat.lt_of_lt_of_le he (by decide)), hk, hk, ← times_add, Nat.two_mul]
  rw [← l, ← e1]
  cases s.1
  · exact r
  · show act f 130 (Nat.shiftLeft (clm 65 e e) 1) v = _
    rw [act_double f hf _ b2, r]
    rfl

theorem squares_ok (c : Nat) (hc : c < 2 ^ 65) (h0 : ∀ v, act f 130 c v = 0#n) : ∀ (l : List (Bool × Nat × Nat)) (e k : Nat), e < 2 ^ 64 → (∀ v, act f 130 e v = times f k v) →
    squares c e l = true → last e l < 2 ^ 64 ∧ ∀ v, act f 130 (last e l) v = times f (expo k l) v := by
  intro l
  induction l with
  | nil => intro e k he hk _; exact ⟨he, hk⟩
  | cons s l ih =>
    intro e k he hk h
    simp only [squares, Bool.and_eq_true] at h
    obtain ⟨b, g⟩ := square_ok f hf c hc h0 e k s he hk h.1
    exact ih s.2.1 _ b g h.2

/-- A remainder of a power, as the table has it. -/
theorem power_ok (c : Nat) (hc : c < 2 ^ 65) (h0 : ∀ v, act f 130 c v = 0#n) (l : List (Bool × Nat × Nat)) (e k : Nat)
    (h : (squares c 2 l && Nat.beq (last 2 l) e && Nat.beq (expo 1 l) k) = true) : e < 2 ^ 64 ∧ ∀ v, act f 130 e v = times f k v := by
  simp only [Bool.and_eq_true] at h
  obtain ⟨⟨h1, h2⟩, h3⟩ := h
  have := squares_ok f hf c hc h0 l 2 1 (by decide) (fun v => act_two f v) h1
  rwa [Nat.eq_of_beq_eq_true h2, Nat.eq_of_beq_eq_true h3] at this

/-- An inverse, as the table has it: only 0 comes back after `k` steps. -/
theorem inverse_ok (c : Nat) (hc : c < 2 ^ 65) (h0 : ∀ v, act f 130 c v = 0#n) (e k r q : Nat) (he : e < 2 ^ 64) (hk : ∀ v, act f 130 e v = times f k v)
    (h : (Nat.beq (clm 65 r (Nat.xor e 1)) (Nat.xor 1 (clm 65 c q)) && Nat.blt r (2 ^ 64) && Nat.blt q (2 ^ 65)) = true) (v : BitVec n) (hv : times f k v = v) : v = 0#n := by
  simp only [Bool.and_eq_true] at h
  obtain ⟨⟨h1, h2⟩, h3⟩ := h
  have b2 : r < 2 ^ 64 := Nat.le_of_ble_eq_true h2
  have b3 : q < 2 ^ 65 := Nat.le_of_ble_eq_true h3
  have e1 := congrArg (fun p => act f 130 p v) (Nat.eq_of_beq_eq_true h1)
  have bx : Nat.xor e 1 < 2 ^ 66 := Nat.lt_of_lt_of_le (Nat.xor_lt_two_pow he (by decide)) (by decide)
  rw [act_mul f hf r _ (Nat.lt_of_lt_of_le b2 (by decide)) bx, act_p, act_p, act_mul f hf c q hc (Nat.lt_of_lt_of_le b3 (by decide)), h0, hk, hv, act_one, BitVec.xor_self, act_v0 f hf] at e1
  simpa using e1.symm

/-- A projection, as the table has it: what it leaves comes back after `k` steps. -/
theorem project_ok (c : Nat) (hc : c < 2 ^ 65) (h0 : ∀ v, act f 130 c v = 0#n) (e k p q : Nat) (he : e < 2 ^ 64) (hk : ∀ v, act f 130 e v = times f k v)
    (h : (Nat.beq (clm 65 (Nat.xor e 1) p) (clm 65 c q) && Nat.blt p (2 ^ 64) && Nat.blt q (2 ^ 65)) = true) (v : BitVec n) : times f k (act f 130 p v) = act f 130 p v := by
  simp only [Bool.and_eq_true] at h
  obtain ⟨⟨h1, h2⟩, h3⟩ := h
  have b2 : p < 2 ^ 64 := Nat.le_of_ble_eq_true h2
  have b3 : q < 2 ^ 65 := Nat.le_of_ble_eq_true h3
  have e1 := congrArg (fun p => act f 130 p v) (Nat.eq_of_beq_eq_true h1)
  have bx : Nat.xor e 1 < 2 ^ 65 := Nat.lt_of_lt_of_le (Nat.xor_lt_two_pow he (by decide)) (by decide)
  rw [act_mul f hf _ p bx (Nat.lt_of_lt_of_le b2 (by decide)), act_p, act_mul f hf c q hc (Nat.lt_of_lt_of_le b3 (by decide)), h0, hk, act_one] at e1
  have := congrArg (· ^^^ act f 130 p v) e1
  simpa [BitVec.xor_assoc] using this

/-- A polynomial of the step goes with the step. -/
theorem act_times (m p k : Nat) (v : BitVec n) : times f k (act f m p v) = act f m p (times f k v) := by
  induction m with
  | zero => exact times_zero f hf k
  | succ m ih =>
    simp only [act, times_xor f hf, ih]
    cases p.testBit m
    · simp [times_zero f hf]
    · simp only [cond_true]
      rw [← times_add, ← times_add, Nat.add_comm]

theorem act_act (m p m' p' : Nat) (v : BitVec n) : act f m' p' (act f m p v) = act f m p (act f m' p' v) := by
  induction m' with
  | zero => exact (act_v0 f hf m p).symm
  | succ m' ih =>
    simp only [act, ih, act_v f hf]
    cases p'.testBit m'
    · simp [act_v0 f hf]
    · simp only [cond_true, act_times f hf]

end

/-! ## Where a polynomial is zero -/

section
variable (f : BitVec 64 → BitVec 64) (hf : ∀ u v, f (u ^^^ v) = f u ^^^ f v)

/-- The sum of the states that a polynomial selects; the newest state first. -/
def sel : Nat → List Nat → Nat → Nat
  | m + 1, s :: l, p => Nat.xor (sel m l p) (bif p.testBit m then s else 0)
  | _, _, _ => 0

theorem sel_cons (m s : Nat) (l : List Nat) (p : Nat) : sel (m + 1) (s :: l) p = Nat.xor (sel m l p) (bif p.testBit m then s else 0) := rfl

/-- Each state comes from the one behind it, the last is 1. -/
def comes : List Nat → Bool
  | [] => false
  | [s] => Nat.beq s 1
  | s :: t :: l => Nat.beq s (f (BitVec.ofNat 64 t)).toNat && comes (t :: l)

theorem comes_head : ∀ (l : List Nat) (s : Nat), comes f (s :: l) = true → times f l.length 1#64 = BitVec.ofNat 64 s := by
  intro l
  induction l with
  | nil =>
    intro s h
    rw [Nat.eq_of_beq_eq_true h]
    rfl
  | cons t l ih =>
    intro s h
    simp only [comes, Bool.and_eq_true] at h
    rw [List.length_cons, times, ih t h.2, Nat.eq_of_beq_eq_true h.1, BitVec.ofNat_toNat, BitVec.setWidth_eq]

theorem sel_act (p : Nat) : ∀ (l : List Nat) (s : Nat), comes f (s :: l) = true → act f (l.length + 1) p 1#64 = BitVec.ofNat 64 (sel (l.length + 1) (s :: l) p) := by
  intro l
  induction l with
  | nil =>
    intro s h
    rw [act_succ, comes_head f [] s h]
    simp only [sel, act, List.length_nil]
    cases p.testBit 0
    · show 0#64 ^^^ 0#64 = BitVec.ofNat 64 (0 ^^^ 0)
      simp
    · show 0#64 ^^^ BitVec.ofNat 64 s = BitVec.ofNat 64 (0 ^^^ s)
      simp
  | cons t l ih =>
    intro s h
    have h2 : comes f (t :: l) = true := by
      simp only [comes, Bool.and_eq_true] at h
      exact h.2
    rw [act_succ, comes_head f (t :: l) s h, List.length_cons, ih t h2, sel_cons (l.length + 1) s]
    cases p.testBit (l.length + 1)
    · show _ ^^^ 0#64 = BitVec.ofNat 64 (_ ^^^ 0)
      simp
    · show BitVec.ofNat 64 _ ^^^ BitVec.ofNat 64 s = BitVec.ofNat 64 (_ ^^^ s)
      rw [BitVec.ofNat_xor]

/-- The polynomials give the states with one bit, from bit j on. -/
def spans (l : List Nat) : Nat → List Nat → Bool
  | _, [] => true
  | j, b :: bs => Nat.beq (sel 64 l b) (2 ^ j) && spans l (j + 1) bs

theorem spans_at (l : List Nat) : ∀ (bs : List Nat) (j i : Nat), spans l j bs = true → i < bs.length → ∃ b, sel 64 l b = 2 ^ (j + i) := by
  intro bs
  induction bs with
  | nil => intro j i _ h; cases h
  | cons b bs ih =>
    intro j i h hi
    simp only [spans, Bool.and_eq_true] at h
    cases i with
    | zero => exact ⟨b, Nat.eq_of_beq_eq_true h.1⟩
    | succ i =>
      obtain ⟨b', e⟩ := ih (j + 1) i h.2 (by simpa using hi)
      exact ⟨b', by rw [e]; congr 1; omega⟩

/-- A linear function that is 0 at every single bit is 0. -/
theorem zero_ext (g : BitVec 64 → BitVec 64) (hg : ∀ u v, g (u ^^^ v) = g u ^^^ g v) (h : ∀ i, i < 64 → g (BitVec.ofNat 64 (2 ^ i)) = 0#64) (v : BitVec 64) : g v = 0#64 := by
  have g0 : g 0#64 = 0#64 := by simpa using hg 0#64 0#64
  have main : ∀ m, m ≤ 64 → ∀ x : Nat, x < 2 ^ m → g (BitVec.ofNat 64 x) = 0#64 := by
    intro m
    induction m with
    | zero =>
      intro _ x hx
      have : x = 0 := by simpa using hx
      rw [this]
      exact g0
    | succ m ih =>
      intro hm x hx
      cases ht : x.testBit m with
      | false =>
        refine ih (by omega) x (Nat.lt_pow_two_of_testBit x fun i hi => ?_)
        rcases Nat.lt_or_eq_of_le hi with h' | h'
        · exact Nat.testBit_lt_two_pow (Nat.lt_of_lt_of_le hx (Nat.pow_le_pow_right (by omega) h'))
        · rw [← h']; exact ht
      | true =>
        have hy : x ^^^ 2 ^ m < 2 ^ m := by
          refine Nat.lt_pow_two_of_testBit _ fun i hi => ?_
          rw [Nat.testBit_xor, Nat.testBit_two_pow]
          rcases Nat.lt_or_eq_of_le hi with h' | h'
          · rw [Nat.testBit_lt_two_pow (Nat.lt_of_lt_of_le hx (Nat.pow_le_pow_right (by omega) h'))]
            simp
            omega
          · rw [← h', ht]; simp
        have e : x = (x ^^^ 2 ^ m) ^^^ 2 ^ m := by rw [Nat.xor_assoc, Nat.xor_self, Nat.xor_zero]
        rw [e, BitVec.ofNat_xor, hg, ih (by omega) _ hy, h m (by omega), BitVec.xor_self]
  have := main 64 (Nat.le_refl _) v.toNat v.isLt
  rwa [BitVec.ofNat_toNat, BitVec.setWidth_eq] at this

include hf

/-- The characteristic polynomial, as the table has it. -/
theorem char_ok (c : Nat) (hc : c < 2 ^ 65) (s : Nat) (l bs : List Nat) (hl : l.length = 64) (hb : bs.length = 64)
    (h : (comes f (s :: l) && Nat.beq (sel 65 (s :: l) c) 0 && spans l 0 bs) = true) (v : BitVec 64) : act f 130 c v = 0#64 := by
  simp only [Bool.and_eq_true] at h
  obtain ⟨⟨h1, h2⟩, h3⟩ := h
  have e0 : act f 130 c 1#64 = 0#64 := by
    rw [act_le f 65 130 c (by omega) hc]
    have := sel_act f c l s h1
    rw [hl, Nat.eq_of_beq_eq_true h2] at this
    exact this
  refine zero_ext (act f 130 c) (act_v f hf 130 c) (fun i hi => ?_) v
  obtain ⟨b, e⟩ := spans_at l bs 0 i h3 (by omega)
  rw [Nat.zero_add] at e
  cases l with
  | nil => cases hl
  | cons t l =>
    have h4 : comes f (t :: l) = true := by
      simp only [comes, Bool.and_eq_true] at h1
      exact h1.2
    have := sel_act f b l t h4
    rw [show l.length + 1 = 64 from hl, e] at this
    rw [← this, act_act f hf, e0, act_v0 f hf]

end

end Verif.Rng.Period
