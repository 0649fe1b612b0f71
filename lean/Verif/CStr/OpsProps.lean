import Verif.CStr.Ops
import Verif.CStr.Props

/-! # Properties of `ConstantString`: hash, comparison with other strings, printing (C227) -/

namespace Verif.CStr

open Verif.Hash Verif.Str

/-- What C makes of a text: what is before the first zero. -/
def before (t : Str) : Str := t.takeWhile (· ≠ 0)

theorem before_self {t : Str} (h : (0 : Byte) ∉ t) : before t = t := by
  induction t with
  | nil => rfl
  | cons a t ih =>
    have ha : a ≠ 0 := fun e => h (by simp [e])
    have := ih (fun e => h (List.mem_cons_of_mem _ e))
    simp only [before] at this ⊢
    rw [List.takeWhile_cons_of_pos (by simpa using ha), this]

theorem before_cons {a : Byte} (ha : a ≠ 0) (t : Str) : before (a :: t) = a :: before t := by
  simp only [before]
  rw [List.takeWhile_cons_of_pos (by simpa using ha)]

theorem before_zero (t : Str) : before (0 :: t) = [] := by simp [before]

theorem strcmp_spec : ∀ (t r u r' : Str), ∃ o, strcmp (t ++ 0 :: r) (u ++ 0 :: r') = .ok o ∧ (o = .eq ↔ before t = before u) ∧
    (o = .lt ↔ before t < before u)
  | [], r, [], r' => ⟨.eq, by simp [strcmp], by simp [before], by simp [before]⟩
  | [], r, b :: u, r' => by
    by_cases hb : b = 0
    · subst hb
      exact ⟨.eq, by simp [strcmp], by simp [before], by simp [before]⟩
    · have h0 : (0 : Byte) < b := Fin.pos_iff_ne_zero.2 hb
      refine ⟨.lt, by simp [strcmp, h0], ?_, ?_⟩
      · rw [before_cons hb]; simp [before]
      · rw [before_cons hb]; simp [before]
  | a :: t, r, [], r' => by
    by_cases ha : a = 0
    · subst ha
      exact ⟨.eq, by simp [strcmp], by simp [before], by simp [before]⟩
    · have h0 : (0 : Byte) < a := Fin.pos_iff_ne_zero.2 ha
      have h1 : ¬ a < 0 := by simp
      refine ⟨.gt, by simp [strcmp, h0, h1], ?_, ?_⟩
      · rw [before_cons ha]; simp [before]
      · rw [before_cons ha]; simp [before]
  | a :: t, r, b :: u, r' => by
    simp only [List.cons_append, strcmp]
    by_cases h1 : a < b
    · have hb : b ≠ 0 := fun e => by subst e; simp at h1
      refine ⟨.lt, by simp [h1], ?_, ?_⟩
      · rw [before_cons hb]
        by_cases ha : a = 0
        · subst ha; simp [before_zero]
        · rw [before_cons ha]
          have : a ≠ b := Fin.ne_of_lt h1
          simp [this]
      · rw [before_cons hb]
        by_cases ha : a = 0
        · subst ha; simp [before_zero]
        · rw [before_cons ha]
          simp [List.cons_lt_cons_iff, h1]
    · by_cases h2 : b < a
      · have ha : a ≠ 0 := fun e => by subst e; simp at h2
        refine ⟨.gt, by simp [h1, h2], ?_, ?_⟩
        · rw [before_cons ha]
          by_cases hb : b = 0
          · subst hb; simp [before_zero]
          · rw [before_cons hb]
            have : a ≠ b := Fin.ne_of_gt h2
            simp [this]
        · rw [before_cons ha]
          by_cases hb : b = 0
          · subst hb; simp [before_zero]
          · rw [before_cons hb]
            have : a ≠ b := Fin.ne_of_gt h2
            have h3 : ¬ (a < b ∨ a = b ∧ before t < before u) := by simp [h1, this]
            rw [← List.cons_lt_cons_iff] at h3
            exact ⟨fun h => (by cases h), fun h => absurd h h3⟩
      · have hab : a = b := Fin.le_antisymm (Fin.not_lt.1 h2) (Fin.not_lt.1 h1)
        subst hab
        rw [if_neg h1, if_neg h1]
        by_cases ha : a = 0
        · subst ha
          exact ⟨.eq, by simp, by simp [before_zero], by simp [before_zero]⟩
        · rw [if_neg ha, before_cons ha, before_cons ha]
          obtain ⟨o, e1, e2, e3⟩ := strcmp_spec t r u r'
          exact ⟨o, e1, by simp [e2], by simp [e3]⟩

theorem strlen_before : ∀ (t r : Str), HashFn.strlen (t ++ 0 :: r) = .ok (before t).length ∧ (t ++ 0 :: r).take (before t).length = before t
  | [], r => by simp [HashFn.strlen, before]
  | a :: t, r => by
    by_cases ha : a = 0
    · subst ha; simp [HashFn.strlen, before_zero]
    · obtain ⟨h1, h2⟩ := strlen_before t r
      rw [before_cons ha]
      simp [HashFn.strlen, ha, h1, h2]

theorem good_mem {s : State} {p : Ptr} {t : Str} (h : Good s p t) (hb : ∀ b ∈ s.bufs, b.used ≤ b.size ∧ b.size = 524288) :
    ∃ r, memFrom s p = .ok (t ++ 0 :: r) := by
  obtain ⟨b, off, buf, rfl, h2, h3, h4⟩ := h.at'
  have := hb buf (List.mem_of_getElem? h2)
  refine ⟨(read buf.mem off (buf.size - off)).drop (t.length + 1), ?_⟩
  have e : (read buf.mem off (buf.size - off)).take (t.length + 1) = t ++ [0] := by
    refine List.ext_getElem? fun k => ?_
    rw [List.getElem?_take, read_getElem?]
    by_cases hk : k < t.length + 1
    · rw [if_pos hk, if_pos (by omega)]
      by_cases hk2 : k < t.length
      · rw [List.getElem?_append_left hk2]
        have := congrArg (fun l => l[k]?) h3.text
        simp only [read_getElem?, if_pos hk2] at this
        exact this
      · have : k = t.length := by omega
        subst this
        rw [h3.zero]
        simp
    · rw [if_neg hk]
      symm
      rw [List.getElem?_eq_none]
      simp
      omega
  unfold memFrom
  simp only [h2]
  rw [if_pos (by omega)]
  congr 1
  rw [show t ++ 0 :: (read buf.mem off (buf.size - off)).drop (t.length + 1) = (t ++ [0]) ++ (read buf.mem off (buf.size - off)).drop (t.length + 1) by simp,
    ← e, List.take_append_drop]

/-- C227: for strings created in any history, `!=` with a C string says whether the texts before the first zero differ, and `<<` writes the text before the first zero; only the strings themselves are read. Missing: texts with zeros (`ops_false`). -/
theorem cstring_ops_partial (env : Env) (ts : List Str) (hs : ∀ t ∈ ts, Sane t) (hcap : ts.length ≤ cap) (s : State) (ps : List Ptr)
    (h : createAll env (initial env) ts = .ok (s, ps)) (i : Nat) (p : Ptr) (t : Str) (hp : ps[i]? = some p) (ht : ts[i]? = some t) :
    (∀ u r, (0 : Byte) ∉ u → notEqual s p (u ++ 0 :: r) = .ok (decide (before t ≠ u))) ∧ printed s p = .ok (before t) ∧
      ((0 : Byte) ∉ t → (∀ u r, (0 : Byte) ∉ u → notEqual s p (u ++ 0 :: r) = .ok (decide (t ≠ u))) ∧ printed s p = .ok t) := by
  rcases createAll_ok ts (initial env) [] (r_initial env) hs (by simpa using hcap) with ⟨h', _⟩ | ⟨s', ps', live, e, hr, _, hlen, hall⟩
  · rw [h'] at h; cases h
  · rw [e] at h
    cases h
    have g : Good s p t := hr.good _ (hall i p t hp ht)
    obtain ⟨r0, hm⟩ := good_mem g hr.bufs
    have h1 : ∀ u r, (0 : Byte) ∉ u → notEqual s p (u ++ 0 :: r) = .ok (decide (before t ≠ u)) := by
      intro u r hu
      obtain ⟨o, e1, e2, _⟩ := strcmp_spec t r0 u r
      rw [before_self hu] at e2
      unfold notEqual
      rw [hm, Res.bind_ok, e1, Res.bind_ok]
      have : (o ≠ .eq) ↔ (before t ≠ u) := not_congr e2
      simp only [this]
      rfl
    have h2 : printed s p = .ok (before t) := by
      unfold printed
      obtain ⟨e1, e2⟩ := strlen_before t r0
      rw [hm, Res.bind_ok, e1, Res.bind_ok, e2]
      rfl
    refine ⟨h1, h2, fun hz => ?_⟩
    rw [before_self hz] at h1 h2
    exact ⟨h1, h2⟩

example : ∃ s p, createAll exEnv (initial exEnv) [[104, 105]] = .ok (s, [p]) ∧ notEqual s p [104, 105, 0, 9] = .ok false ∧ printed s p = .ok [104, 105] := by
  have ⟨s, p, e⟩ : ∃ s p, createAll exEnv (initial exEnv) [[104, 105]] = .ok (s, [p]) := ⟨_, _, rfl⟩
  obtain ⟨_, _, h3⟩ := cstring_ops_partial exEnv [[104, 105]] (by unfold Sane; decide) (by decide) s [p] e 0 p _ rfl rfl
  obtain ⟨h4, h5⟩ := h3 (by decide)
  exact ⟨s, p, e, h4 [104, 105] [9] (by decide), h5⟩

theorem ops_state : ∃ s p q, createAll exEnv (initial exEnv) [tAB, tA] = .ok (s, [p, q]) ∧ equal p q = false ∧
    notEqualStr s p tA = .ok false ∧ equalStr exEnv s p tA = .ok false ∧ p = .at 0 4 ∧ q = .at 0 12 ∧ s.bufs.length = 1 := by
  refine ⟨_, .at 0 4, .at 0 12, rfl, ?_, ?_, ?_, rfl, rfl, ?_⟩ <;> decide +kernel

/-- C227 is false of texts with zeros: `"a\0b"` is not `!=` to the C string `"a"` nor to the `std::string` `"a"`, though it is not `==` to that either; and only `a` is written. -/
theorem cstring_ops_false : ∃ s p q, createAll exEnv (initial exEnv) [tAB, tA] = .ok (s, [p, q]) ∧ equal p q = false ∧
    notEqual s p [97, 0] = .ok false ∧ notEqualStr s p tA = .ok false ∧ equalStr exEnv s p tA = .ok false ∧ printed s p = .ok tA := by
  obtain ⟨s, p, q, e, e1, e2, e3, _⟩ := ops_state
  obtain ⟨h1, h2, _⟩ := cstring_ops_partial exEnv [tAB, tA] (by unfold Sane; decide) (by decide) s [p, q] e 0 p tAB rfl rfl
  exact ⟨s, p, q, e, e1, h1 [97] [] (by decide), e2, e3, h2⟩

/-! ## Hash -/

theorem hashAddr_toNat (n : Nat) (h : n < 2 ^ 64) : (hashAddr (BitVec.ofNat 64 n)).toNat = (n % 2 ^ 32) ^^^ (n / 2 ^ 32) := by
  have hm : (0xFFFFFFFF#64).toNat = 2 ^ 32 - 1 := rfl
  unfold hashAddr
  rw [BitVec.toNat_setWidth, BitVec.toNat_xor, BitVec.toNat_and, hm, Nat.and_two_pow_sub_one_eq_mod, BitVec.toNat_ushiftRight, BitVec.toNat_ofNat,
    Nat.mod_eq_of_lt h, Nat.shiftRight_eq_div_pow]
  refine Nat.mod_eq_of_lt (Nat.xor_lt_two_pow ?_ ?_)
  · exact Nat.mod_lt _ (by decide)
  · omega

theorem xor_cancel {a b c : Nat} (h : a ^^^ c = b ^^^ c) : a = b := by
  have := congrArg (· ^^^ c) h
  simpa [Nat.xor_assoc] using this

/-- C227: `hash` is the low half of the address, its bits flipped where the high half has ones. -/
theorem cstring_hash_value (base : Nat → Nat) (b off : Nat) (h : base b + off < 2 ^ 64) :
    (hash base (.at b off)).toNat = ((base b + off) % 2 ^ 32) ^^^ ((base b + off) / 2 ^ 32) := hashAddr_toNat _ h

/-- C227: strings created in any history have the same `hash` exactly if they have the same text, as long as all buffers lie in one aligned range of 4 GiB and do not overlap. Missing: buffers further apart (`cstring_hash_false`). -/
theorem cstring_hash_partial (env : Env) (base : Nat → Nat) (g : Nat) (hg : g < 2 ^ 32) (s : State) (hbase : ∀ b, b < s.bufs.length → g * 2 ^ 32 ≤ base b ∧ base b + 524288 ≤ (g + 1) * 2 ^ 32)
    (hdis : ∀ b b', b < b' → b' < s.bufs.length → base b + 524288 ≤ base b' ∨ base b' + 524288 ≤ base b) (ts : List Str) (hs : ∀ t ∈ ts, Sane t) (hcap : ts.length ≤ cap)
    (ps : List Ptr) (h : createAll env (initial env) ts = .ok (s, ps)) (i j : Nat) (p q : Ptr) (t u : Str) (hp : ps[i]? = some p) (hq : ps[j]? = some q)
    (ht : ts[i]? = some t) (hu : ts[j]? = some u) : hash base p = hash base q ↔ t = u := by
  have hint := interning_partial env ts hs hcap
  rcases createAll_ok ts (initial env) [] (r_initial env) hs (by simpa using hcap) with ⟨h', _⟩ | ⟨s', ps', live, e, hr, _, hlen, hall⟩
  · rw [h'] at h; cases h
  · rw [e] at h
    cases h
    rcases hint with ⟨h', _⟩ | ⟨s1, ps1, e1, _, _, heq⟩
    · rw [h'] at e; cases e
    · rw [e] at e1
      cases e1
      have heq' := heq i j p q t u hp hq ht hu
      have g1 : Good s p t := hr.good _ (hall i p t hp ht)
      have g2 : Good s q u := hr.good _ (hall j q u hq hu)
      rw [← heq', equal, decide_eq_true_eq]
      refine ⟨fun hh => ?_, fun hh => by rw [hh]⟩
      obtain ⟨b, off, buf, rfl, a2, a3, a4⟩ := g1.at'
      obtain ⟨b', off', buf', rfl, c2, c3, c4⟩ := g2.at'
      have := hr.bufs buf (List.mem_of_getElem? a2)
      have := hr.bufs buf' (List.mem_of_getElem? c2)
      have hbl := lt_of_getElem? a2
      have hbl' := lt_of_getElem? c2
      have k1 := hbase b hbl
      have k2 := hbase b' hbl'
      have hh' := congrArg BitVec.toNat hh
      rw [cstring_hash_value base b off (by omega), cstring_hash_value base b' off' (by omega)] at hh'
      rw [show (base b + off) / 2 ^ 32 = g by omega, show (base b' + off') / 2 ^ 32 = g by omega] at hh'
      have hmod := xor_cancel hh'
      have hadd : base b + off = base b' + off' := by omega
      by_cases hbb : b = b'
      · subst hbb
        have : off = off' := by omega
        rw [this]
      · exfalso
        rcases Nat.lt_or_gt_of_ne hbb with hlt | hlt
        · have := hdis b b' hlt hbl'; omega
        · have := hdis b' b hlt hbl; omega

/-- Buffers one after another from `2^32` on: there is room for 8192, half a million strings of 8183 bytes. -/
example : hash (fun b => 2 ^ 32 + 524288 * b) (.at 0 4) ≠ hash (fun b => 2 ^ 32 + 524288 * b) (.at 0 12) := by
  obtain ⟨s, p, q, e, _, _, _, rfl, rfl, hl⟩ := ops_state
  refine fun hh => absurd ((cstring_hash_partial exEnv (fun b => 2 ^ 32 + 524288 * b) 1 (by decide) s ?_ ?_ [tAB, tA] (by unfold Sane; decide) (by decide) _ e 0 1 (.at 0 4) (.at 0 12) tAB tA
    rfl rfl rfl rfl).1 hh) (by decide)
  · intro b hb
    show 1 * 2 ^ 32 ≤ 2 ^ 32 + 524288 * b ∧ 2 ^ 32 + 524288 * b + 524288 ≤ (1 + 1) * 2 ^ 32
    omega
  · intro b b' h hb
    omega

/-- C227 is false of buffers in different ranges: the addresses `0x100000004` and `0x200000007` have the same hash. -/
theorem cstring_hash_false : hash (fun b => if b = 0 then 0x100000000 else 0x200000003) (.at 0 4) = hash (fun b => if b = 0 then 0x100000000 else 0x200000003) (.at 1 4) := by decide

end Verif.CStr
