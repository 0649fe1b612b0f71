import Verif.Base64.Model

namespace Verif.Base64

/-! ## Specification -/

/-- The 6-bit groups of a byte string read as one bit string, the last group filled with
zero bits. -/
def sextets : Str → List Nat
  | [] => []
  | [a] => [a.val / 4, a.val % 4 * 16]
  | [a, b] => [a.val / 4, a.val % 4 * 16 + b.val / 16, b.val % 16 * 4]
  | a :: b :: c :: rest =>
    a.val / 4 :: (a.val % 4 * 16 + b.val / 16) :: (b.val % 16 * 4 + c.val / 64) :: c.val % 64 ::
      sextets rest

/-- Number denoted by base-64 digits, most significant first. -/
def digitsVal (l : List Nat) : Nat := l.foldl (fun acc d => acc * 64 + d) 0

/-- Big-endian value of a byte string. -/
def bytesVal (l : Str) : Nat := l.foldl (fun acc d => acc * 256 + d.val) 0

/-! ## encode -/

theorem step0 (r : Nat) (a : Byte) (cs : Str) :
    encodeLoop (r + 1) (a :: cs) 0 0 = translate (a.val / 4) :: encodeLoop r cs (a.val % 4 * 1073741824) 2 := by
  have h := a.isLt
  simp only [encodeLoop, U32]
  rw [if_pos (by omega)]
  have e : (0 + a.val * 2 ^ (32 - 8 - 0) % 4294967296) % 4294967296 = a.val * 16777216 := by omega
  rw [e]
  congr 2 <;> omega

theorem step2 (r x : Nat) (hx : x < 4) (b : Byte) (cs : Str) :
    encodeLoop (r + 1) (b :: cs) (x * 1073741824) 2 =
      translate (x * 16 + b.val / 16) :: encodeLoop r cs (b.val % 16 * 268435456) 4 := by
  have h := b.isLt
  simp only [encodeLoop, U32]
  rw [if_pos (by omega)]
  have e : (x * 1073741824 + b.val * 2 ^ (32 - 8 - 2) % 4294967296) % 4294967296
      = x * 1073741824 + b.val * 4194304 := by omega
  rw [e]
  congr 2 <;> omega

theorem step4 (r x : Nat) (hx : x < 16) (b : Byte) (cs : Str) :
    encodeLoop (r + 1) (b :: cs) (x * 268435456) 4 =
      translate (x * 4 + b.val / 64) :: encodeLoop r cs (b.val % 64 * 67108864) 6 := by
  have h := b.isLt
  simp only [encodeLoop, U32]
  rw [if_pos (by omega)]
  have e : (x * 268435456 + b.val * 2 ^ (32 - 8 - 4) % 4294967296) % 4294967296
      = x * 268435456 + b.val * 1048576 := by omega
  rw [e]
  congr 2 <;> omega

theorem step6 (r x : Nat) (hx : x < 64) (cs : Str) :
    encodeLoop (r + 1) cs (x * 67108864) 6 = translate x :: encodeLoop r cs 0 0 := by
  have e1 : x * 67108864 / 2 ^ 26 = x := by omega
  have e2 : x * 67108864 * 2 ^ 6 % 4294967296 = 0 := by omega
  cases cs with
  | nil => simp only [encodeLoop, spareLoop, U32, e1, e2]; rfl
  | cons c cs =>
    simp only [encodeLoop, U32]
    rw [if_neg (by omega), e1, e2]

theorem spare2 (r x : Nat) (hx : x < 4) :
    encodeLoop (r + 1) [] (x * 1073741824) 2 = translate (x * 16) :: spareLoop r 0 4294967292 := by
  have e1 : x * 1073741824 / 2 ^ 26 = x * 16 := by omega
  have e2 : x * 1073741824 * 2 ^ 6 % 4294967296 = 0 := by omega
  simp only [encodeLoop, spareLoop, U32, e1, e2]; rfl

theorem spare4 (r x : Nat) (hx : x < 16) :
    encodeLoop (r + 1) [] (x * 268435456) 4 = translate (x * 4) :: spareLoop r 0 4294967294 := by
  have e1 : x * 268435456 / 2 ^ 26 = x * 4 := by omega
  have e2 : x * 268435456 * 2 ^ 6 % 4294967296 = 0 := by omega
  simp only [encodeLoop, spareLoop, U32, e1, e2]; rfl

theorem spare_zero (r : Nat) : ∀ bits, ∃ k, k ≤ r ∧ spareLoop r 0 bits = List.replicate k (translate 0) := by
  induction r with
  | zero => intro bits; exact ⟨0, by omega, rfl⟩
  | succ r ih =>
    intro bits
    by_cases h : bits > 0
    · obtain ⟨k, hk, e⟩ := ih ((bits + U32 - 6) % U32)
      refine ⟨k + 1, by omega, ?_⟩
      simp only [spareLoop, h, if_true]
      simp [e, List.replicate_succ]
    · exact ⟨0, by omega, by simp [spareLoop, h]⟩

theorem encode_room0 (s : Str) (buf bits : Nat) : encodeLoop 0 s buf bits = [] := by
  cases s <;> rfl

/-- What `encodeBytes` returns before the digit default is applied. -/
def padded (room : Nat) (l : Str) : Str := l ++ List.replicate (room - l.length) (translate 0)

theorem padded_cons (r : Nat) (x : Byte) (l : Str) : padded (r + 1) (x :: l) = x :: padded r l := by
  simp [padded]

theorem padded_nil (r : Nat) : padded r [] = List.replicate r (translate 0) := by simp [padded]

theorem padded_spare (r bits : Nat) : padded r (spareLoop r 0 bits) = List.replicate r (translate 0) := by
  obtain ⟨k, hk, e⟩ := spare_zero r bits
  rw [e, padded, List.length_replicate, List.replicate_append_replicate]
  congr 1; omega

theorem take_cons_pad (r : Nat) (x : Byte) (l : Str) :
    (x :: l ++ List.replicate (r + 1) (translate 0)).take (r + 1) =
      x :: (l ++ List.replicate r (translate 0)).take r := by
  simp only [List.cons_append, List.take_succ_cons]
  congr 1
  rw [List.take_append, List.take_append, List.take_replicate, List.take_replicate]
  congr 2; omega

theorem encodeLoop_eq : ∀ (s : Str) (room : Nat),
    padded room (encodeLoop room s 0 0)
      = ((sextets s).map translate ++ List.replicate room (translate 0)).take room := by
  intro s
  fun_induction sextets s with
  | case1 =>
    intro room
    simp only [List.map_nil, List.nil_append, encodeLoop, padded_spare, List.take_replicate, Nat.min_self]
  | case2 a =>
    intro room
    match room with
    | 0 => simp [encode_room0, padded]
    | 1 =>
      rw [step0, padded_cons, encode_room0, padded_nil, List.map_cons, take_cons_pad]; simp
    | r + 2 =>
      have h := a.isLt
      rw [step0, padded_cons, spare2 _ _ (by omega), padded_cons, padded_spare, List.map_cons,
        take_cons_pad, List.map_cons, take_cons_pad, List.map_nil]
      simp
  | case3 a b =>
    intro room
    have ha := a.isLt
    have hb := b.isLt
    match room with
    | 0 => simp [encode_room0, padded]
    | 1 =>
      rw [step0, padded_cons, encode_room0, padded_nil, List.map_cons, take_cons_pad]; simp
    | 2 =>
      rw [step0, padded_cons, step2 _ _ (by omega), padded_cons, encode_room0, padded_nil, List.map_cons,
        take_cons_pad, List.map_cons, take_cons_pad]; simp
    | r + 3 =>
      rw [step0, padded_cons, step2 _ _ (by omega), padded_cons, spare4 _ _ (by omega), padded_cons,
        padded_spare, List.map_cons, take_cons_pad, List.map_cons, take_cons_pad, List.map_cons,
        take_cons_pad, List.map_nil]
      simp
  | case4 a b c rest ih =>
    intro room
    have ha := a.isLt
    have hb := b.isLt
    match room with
    | 0 => simp [encode_room0, padded]
    | 1 =>
      rw [step0, padded_cons, encode_room0, padded_nil, List.map_cons, take_cons_pad]; simp
    | 2 =>
      rw [step0, padded_cons, step2 _ _ (by omega), padded_cons, encode_room0, padded_nil, List.map_cons,
        take_cons_pad, List.map_cons, take_cons_pad]; simp
    | 3 =>
      rw [step0, padded_cons, step2 _ _ (by omega), padded_cons, step4 _ _ (by omega), padded_cons,
        encode_room0, padded_nil, List.map_cons, take_cons_pad, List.map_cons, take_cons_pad,
        List.map_cons, take_cons_pad]; simp
    | r + 4 =>
      rw [step0, padded_cons, step2 _ _ (by omega), padded_cons, step4 _ _ (by omega), padded_cons,
        step6 _ _ (by omega), padded_cons, ih, List.map_cons, take_cons_pad, List.map_cons,
        take_cons_pad, List.map_cons, take_cons_pad, List.map_cons, take_cons_pad]

theorem sextets_length (s : Str) : (sextets s).length = (s.length * 8 + 5) / 6 := by
  fun_induction sextets s with
  | case1 => rfl
  | case2 a => simp
  | case3 a b => simp
  | case4 a b c rest ih => simp only [List.length_cons, ih]; omega

theorem sextets_lt (s : Str) : ∀ v ∈ sextets s, v < 64 := by
  fun_induction sextets s with
  | case1 => intro v hv; cases hv
  | case2 a =>
    have := a.isLt
    intro v hv; simp only [List.mem_cons, List.not_mem_nil, or_false] at hv; omega
  | case3 a b =>
    have := a.isLt
    have := b.isLt
    intro v hv; simp only [List.mem_cons, List.not_mem_nil, or_false] at hv; omega
  | case4 a b c rest ih =>
    have := a.isLt
    have := b.isLt
    have := c.isLt
    intro v hv
    simp only [List.mem_cons] at hv
    rcases hv with h | h | h | h | h
    · omega
    · omega
    · omega
    · omega
    · exact ih v h

/-! ## the alphabet -/

theorem translate_mono : ∀ v w : Fin 64, (translate v.val < translate w.val ↔ v < w) := by decide +kernel

theorem detranslate_translate : ∀ v : Fin 64, detranslate (translate v.val) = some v.val := by
  decide +kernel

theorem translate_inj {v w : Nat} (hv : v < 64) (hw : w < 64) (h : translate v = translate w) : v = w := by
  have h1 := detranslate_translate ⟨v, hv⟩
  have h2 := detranslate_translate ⟨w, hw⟩
  simp only at h1 h2
  rw [h, h2] at h1
  injection h1 with h1; exact h1.symm

theorem map_translate_inj : ∀ {l m : List Nat}, (∀ v ∈ l, v < 64) → (∀ v ∈ m, v < 64) →
    l.map translate = m.map translate → l = m := by
  intro l
  induction l with
  | nil => intro m _ _ h; cases m with
    | nil => rfl
    | cons _ _ => simp at h
  | cons x xs ih =>
    intro m hl hm h
    cases m with
    | nil => simp at h
    | cons y ys =>
      simp only [List.map_cons, List.cons.injEq] at h
      rw [translate_inj (hl x (by simp)) (hm y (by simp)) h.1,
        ih (fun v hv => hl v (by simp [hv])) (fun v hv => hm v (by simp [hv])) h.2]

theorem map_translate_lt : ∀ {l m : List Nat}, (∀ v ∈ l, v < 64) → (∀ v ∈ m, v < 64) →
    (l.map translate < m.map translate ↔ l < m) := by
  intro l
  induction l with
  | nil => intro m _ _; cases m <;> simp
  | cons x xs ih =>
    intro m hl hm
    cases m with
    | nil => simp
    | cons y ys =>
      have hx := hl x (by simp)
      have hy := hm y (by simp)
      have hxy := translate_mono ⟨x, hx⟩ ⟨y, hy⟩
      simp only [Fin.mk_lt_mk] at hxy
      simp only [List.map_cons, List.cons_lt_cons_iff, hxy,
        ih (m := ys) (fun v hv => hl v (by simp [hv])) (fun v hv => hm v (by simp [hv]))]
      constructor
      · rintro (h | ⟨h1, h2⟩)
        · exact Or.inl h
        · exact Or.inr ⟨translate_inj hx hy h1, h2⟩
      · rintro (h | ⟨h1, h2⟩)
        · exact Or.inl h
        · exact Or.inr ⟨by rw [h1], h2⟩

/-! ## order -/

theorem sextets_lt_of_lt : ∀ (s t : Str), s < t → sextets s < sextets t := by
  intro s
  fun_induction sextets s with
  | case1 =>
    intro t h
    match t with
    | [] => simp at h
    | [a] => simp [sextets]
    | [a, b] => simp [sextets]
    | a :: b :: c :: t => simp [sextets]
  | case2 a =>
    intro t h
    match t with
    | [] => simp at h
    | [a'] =>
      simp only [List.cons_lt_cons_iff, Fin.lt_def, Fin.ext_iff, sextets] at h ⊢
      simp at h ⊢
      omega
    | [a', b'] =>
      simp only [List.cons_lt_cons_iff, Fin.lt_def, Fin.ext_iff, sextets] at h ⊢
      simp at h ⊢
      omega
    | a' :: b' :: c' :: t =>
      simp only [List.cons_lt_cons_iff, Fin.lt_def, Fin.ext_iff, sextets] at h ⊢
      simp at h ⊢
      omega
  | case3 a b =>
    intro t h
    match t with
    | [] => simp at h
    | [a'] =>
      simp only [List.cons_lt_cons_iff, Fin.lt_def, Fin.ext_iff, sextets] at h ⊢
      simp at h ⊢
      omega
    | [a', b'] =>
      simp only [List.cons_lt_cons_iff, Fin.lt_def, Fin.ext_iff, sextets] at h ⊢
      simp at h ⊢
      omega
    | a' :: b' :: c' :: t =>
      simp only [List.cons_lt_cons_iff, Fin.lt_def, Fin.ext_iff, sextets] at h ⊢
      simp at h ⊢
      omega
  | case4 a b c rest ih =>
    intro t h
    match t with
    | [] => simp at h
    | [a'] =>
      simp only [List.cons_lt_cons_iff, Fin.lt_def, Fin.ext_iff, sextets] at h ⊢
      simp at h ⊢
      omega
    | [a', b'] =>
      simp only [List.cons_lt_cons_iff, Fin.lt_def, Fin.ext_iff, sextets] at h ⊢
      simp at h ⊢
      omega
    | a' :: b' :: c' :: t =>
      simp only [List.cons_lt_cons_iff, Fin.lt_def, Fin.ext_iff, sextets] at h ⊢
      have := ih t
      by_cases hlt : rest < t
      · have := this hlt
        simp only [this, hlt, and_true] at h ⊢
        omega
      · simp only [hlt, and_false, or_false] at h
        omega

theorem sextets_inj : ∀ (s t : Str), sextets s = sextets t → s = t := by
  intro s
  fun_induction sextets s with
  | case1 =>
    intro t h
    match t with
    | [] => rfl
    | [a] => simp [sextets] at h
    | [a, b] => simp [sextets] at h
    | a :: b :: c :: t => simp [sextets] at h
  | case2 a =>
    intro t h
    match t with
    | [] => simp [sextets] at h
    | [a'] => simp [sextets] at h; simp [Fin.ext_iff]; omega
    | [a', b'] => simp [sextets] at h
    | a' :: b' :: c' :: t => simp [sextets] at h
  | case3 a b =>
    intro t h
    match t with
    | [] => simp [sextets] at h
    | [a'] => simp [sextets] at h
    | [a', b'] => simp [sextets] at h; simp [Fin.ext_iff]; omega
    | a' :: b' :: c' :: t => simp [sextets] at h
  | case4 a b c rest ih =>
    intro t h
    match t with
    | [] => simp [sextets] at h
    | [a'] => simp [sextets] at h
    | [a', b'] => simp [sextets] at h
    | a' :: b' :: c' :: t =>
      simp [sextets] at h
      have := ih t h.2.2.2.2
      simp [Fin.ext_iff, this]; omega

/-! ## decode -/

theorem dstep0 (room d : Nat) (hd : d < 64) (cs : Str) :
    decodeLoop (translate d :: cs) (room + 1) 0 0 = decodeLoop cs (room + 1) (d * 67108864) 6 := by
  have t := detranslate_translate ⟨d, hd⟩
  simp only at t
  have e : (0 + d * 2 ^ (32 - 6 - 0) % 4294967296) % 4294967296 = d * 67108864 := by omega
  simp only [decodeLoop, t, U32, e]
  rw [if_neg (by omega), if_neg (by omega)]

theorem num6 (x d : Nat) (hx : x < 64) (hd : d < 64) :
    (x * 67108864 + d * 1048576 % 4294967296) % 4294967296 = x * 67108864 + d * 1048576 := by omega

theorem num4 (x d : Nat) (hx : x < 16) (hd : d < 64) :
    (x * 268435456 + d * 4194304 % 4294967296) % 4294967296 = x * 268435456 + d * 4194304 := by omega

theorem num2 (x d : Nat) (hx : x < 4) (hd : d < 64) :
    (x * 1073741824 + d * 16777216 % 4294967296) % 4294967296 = x * 1073741824 + d * 16777216 := by
  omega

theorem dstep6 (room x d : Nat) (hx : x < 64) (hd : d < 64) (cs : Str) :
    decodeLoop (translate d :: cs) (room + 1) (x * 67108864) 6 =
      (decodeLoop cs room (d % 16 * 268435456) 4 >>= fun rest =>
        pure (Fin.ofNat 256 (x * 4 + d / 16) :: rest)) := by
  have f : (x * 67108864 + d * 1048576) * 2 ^ 8 % 4294967296 = d % 16 * 268435456 := by omega
  have g : (x * 67108864 + d * 1048576) / 2 ^ 24 = x * 4 + d / 16 := by omega
  have t := detranslate_translate ⟨d, hd⟩
  simp only at t
  have p : 2 ^ (32 - 6 - 6) = 1048576 := by decide
  have e : (x * 67108864 + d * 2 ^ (32 - 6 - 6) % 4294967296) % 4294967296
      = x * 67108864 + d * 1048576 := by
    rw [p]; exact num6 x d hx hd
  simp only [decodeLoop, t, U32, e, f, g]
  rw [if_neg (by omega), if_pos (by omega)]
  rfl

theorem dstep4 (room x d : Nat) (hx : x < 16) (hd : d < 64) (cs : Str) :
    decodeLoop (translate d :: cs) (room + 1) (x * 268435456) 4 =
      (decodeLoop cs room (d % 4 * 1073741824) 2 >>= fun rest =>
        pure (Fin.ofNat 256 (x * 16 + d / 4) :: rest)) := by
  have f : (x * 268435456 + d * 4194304) * 2 ^ 8 % 4294967296 = d % 4 * 1073741824 := by omega
  have g : (x * 268435456 + d * 4194304) / 2 ^ 24 = x * 16 + d / 4 := by omega
  have t := detranslate_translate ⟨d, hd⟩
  simp only at t
  have p : 2 ^ (32 - 6 - 4) = 4194304 := by decide
  have e : (x * 268435456 + d * 2 ^ (32 - 6 - 4) % 4294967296) % 4294967296
      = x * 268435456 + d * 4194304 := by
    rw [p]; exact num4 x d hx hd
  simp only [decodeLoop, t, U32, e, f, g]
  rw [if_neg (by omega), if_pos (by omega)]
  rfl

theorem dstep2 (room x d : Nat) (hx : x < 4) (hd : d < 64) (cs : Str) :
    decodeLoop (translate d :: cs) (room + 1) (x * 1073741824) 2 =
      (decodeLoop cs room 0 0 >>= fun rest => pure (Fin.ofNat 256 (x * 64 + d) :: rest)) := by
  have f : (x * 1073741824 + d * 16777216) * 2 ^ 8 % 4294967296 = 0 := by omega
  have g : (x * 1073741824 + d * 16777216) / 2 ^ 24 = x * 64 + d := by omega
  have t := detranslate_translate ⟨d, hd⟩
  simp only at t
  have p : 2 ^ (32 - 6 - 2) = 16777216 := by decide
  have e : (x * 1073741824 + d * 2 ^ (32 - 6 - 2) % 4294967296) % 4294967296
      = x * 1073741824 + d * 16777216 := by
    rw [p]; exact num2 x d hx hd
  simp only [decodeLoop, t, U32, e, f, g]
  rw [if_neg (by omega), if_pos (by omega)]
  rfl

theorem decode_room0 (s : Str) (buf bits : Nat) : decodeLoop s 0 buf bits = .ok [] := by
  cases s <;> simp [decodeLoop]

theorem ofNat_eq {n : Nat} {a : Byte} (h : n = a.val) : Fin.ofNat 256 n = a := by
  apply Fin.ext; simp [Fin.ofNat, h, Nat.mod_eq_of_lt a.isLt]

theorem decodeLoop_sextets (s : Str) :
    decodeLoop ((sextets s).map translate) s.length 0 0 = .ok s := by
  fun_induction sextets s with
  | case1 => rfl
  | case2 a =>
    have ha := a.isLt
    simp only [List.map_cons, List.map_nil, List.length_singleton]
    rw [dstep0 0 _ (by omega), dstep6 _ _ _ (by omega) (by omega), decode_room0]
    simp only [Res.bind_ok, Res.pure_eq]
    rw [ofNat_eq (a := a) (by omega)]
  | case3 a b =>
    have ha := a.isLt
    have hb := b.isLt
    simp only [List.map_cons, List.map_nil, List.length_cons, List.length_nil]
    rw [dstep0 1 _ (by omega), dstep6 _ _ _ (by omega) (by omega), dstep4 _ _ _ (by omega) (by omega),
      decode_room0]
    simp only [Res.bind_ok, Res.pure_eq]
    rw [ofNat_eq (a := a) (by omega), ofNat_eq (a := b) (by omega)]
  | case4 a b c rest ih =>
    have ha := a.isLt
    have hb := b.isLt
    have hc := c.isLt
    simp only [List.map_cons, List.length_cons]
    rw [dstep0 (rest.length + 2) _ (by omega), dstep6 _ _ _ (by omega) (by omega),
      dstep4 _ _ _ (by omega) (by omega), dstep2 _ _ _ (by omega) (by omega), ih]
    simp only [Res.bind_ok, Res.pure_eq]
    rw [ofNat_eq (a := a) (by omega), ofNat_eq (a := b) (by omega), ofNat_eq (a := c) (by omega)]

/-! ## numbers -/

theorem encodeNumLoop_length (d : Nat) : ∀ n, (encodeNumLoop n d).length = d := by
  induction d with
  | zero => intro n; rfl
  | succ d ih => intro n; simp [encodeNumLoop, ih]

/-- Fixed-width base-64 digits, most significant first. -/
def numDigits (n : Nat) : Nat → List Nat
  | 0 => []
  | d + 1 => numDigits (n / 64) d ++ [n % 64]

theorem encodeNumLoop_eq (d : Nat) : ∀ n, encodeNumLoop n d = (numDigits n d).map translate := by
  induction d with
  | zero => intro n; rfl
  | succ d ih => intro n; simp [encodeNumLoop, numDigits, ih]

theorem numDigits_lt (d : Nat) : ∀ n, ∀ v ∈ numDigits n d, v < 64 := by
  induction d with
  | zero => intro n v hv; cases hv
  | succ d ih =>
    intro n v hv
    simp only [numDigits, List.mem_append, List.mem_singleton] at hv
    rcases hv with h | h
    · exact ih _ v h
    · omega

theorem numDigits_length (d : Nat) : ∀ n, (numDigits n d).length = d := by
  induction d with
  | zero => intro n; rfl
  | succ d ih => intro n; simp [numDigits, ih]

theorem digitsVal_numDigits (d : Nat) : ∀ n, digitsVal (numDigits n d) = n % 64 ^ d := by
  induction d with
  | zero => intro n; simp [digitsVal, numDigits, Nat.mod_one]
  | succ d ih =>
    intro n
    have h := ih (n / 64)
    unfold digitsVal at h
    simp only [digitsVal, numDigits, List.foldl_append, List.foldl_cons, List.foldl_nil, h]
    rw [Nat.pow_succ, Nat.mul_comm (64 ^ d) 64, Nat.mod_mul]
    omega

/-- Lexicographic order of equally long lists decided by the prefixes, then the last. -/
theorem append_single_lt : ∀ {l m : List Nat}, l.length = m.length → ∀ x y,
    (l ++ [x] < m ++ [y] ↔ l < m ∨ (l = m ∧ x < y)) := by
  intro l
  induction l with
  | nil =>
    intro m h x y
    cases m with
    | nil => simp [List.cons_lt_cons_iff]
    | cons _ _ => simp at h
  | cons a l ih =>
    intro m h x y
    cases m with
    | nil => simp at h
    | cons b m =>
      simp only [List.length_cons, Nat.add_right_cancel_iff] at h
      simp only [List.cons_append, List.cons_lt_cons_iff, ih h, List.cons.injEq]
      constructor
      · rintro (h | ⟨h1, h2 | ⟨h2, h3⟩⟩)
        · exact Or.inl (Or.inl h)
        · exact Or.inl (Or.inr ⟨h1, h2⟩)
        · exact Or.inr ⟨⟨h1, h2⟩, h3⟩
      · rintro ((h | ⟨h1, h2⟩) | ⟨⟨h1, h2⟩, h3⟩)
        · exact Or.inl h
        · exact Or.inr ⟨h1, Or.inl h2⟩
        · exact Or.inr ⟨h1, Or.inr ⟨h2, h3⟩⟩

theorem numDigits_inj (d : Nat) : ∀ m n, m < 64 ^ d → n < 64 ^ d → numDigits m d = numDigits n d → m = n := by
  intro m n hm hn h
  have h1 := digitsVal_numDigits d m
  have h2 := digitsVal_numDigits d n
  rw [Nat.mod_eq_of_lt hm] at h1
  rw [Nat.mod_eq_of_lt hn] at h2
  rw [← h1, ← h2, h]

theorem numDigits_order (d : Nat) : ∀ m n, m < 64 ^ d → n < 64 ^ d →
    (numDigits m d < numDigits n d ↔ m < n) := by
  induction d with
  | zero => intro m n hm hn; simp at hm hn; simp [numDigits, hm, hn]
  | succ d ih =>
    intro m n hm hn
    rw [Nat.pow_succ] at hm hn
    have hm' : m / 64 < 64 ^ d := Nat.div_lt_of_lt_mul (by omega)
    have hn' : n / 64 < 64 ^ d := Nat.div_lt_of_lt_mul (by omega)
    simp only [numDigits]
    rw [append_single_lt (by simp [numDigits_length]), ih _ _ hm' hn']
    constructor
    · rintro (h | ⟨h1, h2⟩)
      · omega
      · have := numDigits_inj d _ _ hm' hn' h1; omega
    · intro h
      by_cases hc : m / 64 < n / 64
      · exact Or.inl hc
      · right
        have : m / 64 = n / 64 := by omega
        exact ⟨by rw [this], by omega⟩

/-! ## encodeBackward -/

/-- Little-endian value. -/
def leVal : Str → Nat
  | [] => 0
  | c :: cs => c.val + 256 * leVal cs

theorem leVal_reverse (l : Str) : leVal l.reverse = bytesVal l := by
  have key : ∀ (l : Str) (acc : Nat), l.foldl (fun acc d => acc * 256 + d.val) acc
      = acc * 256 ^ l.length + l.foldl (fun acc d => acc * 256 + d.val) 0 := by
    intro l
    induction l with
    | nil => intro acc; simp
    | cons c cs ih =>
      intro acc
      rw [List.foldl_cons, ih, List.foldl_cons, ih (0 * 256 + c.val), List.length_cons, Nat.pow_succ,
        Nat.add_mul, Nat.zero_mul, Nat.zero_add, Nat.mul_comm (256 ^ cs.length) 256, Nat.mul_assoc,
        Nat.add_assoc]
  have app : ∀ (a b : Str), leVal (a ++ b) = leVal a + 256 ^ a.length * leVal b := by
    intro a b
    induction a with
    | nil => simp [leVal]
    | cons c cs ih =>
      simp only [List.cons_append, leVal, ih, List.length_cons, Nat.pow_succ, Nat.mul_add]
      rw [Nat.mul_comm (256 ^ cs.length) 256, Nat.mul_assoc]; omega
  induction l with
  | nil => rfl
  | cons c cs ih =>
    rw [List.reverse_cons, app, ih]
    unfold bytesVal
    rw [List.foldl_cons, key cs (0 * 256 + c.val)]
    simp [leVal, Nat.mul_comm, Nat.add_comm]

theorem backwardLoop_eq : ∀ (room : Nat) (rem : Str) (buf bits : Nat), bits < 14 → buf < 2 ^ bits →
    6 * room ≤ bits + 8 * rem.length →
    backwardLoop room rem buf bits =
      .ok ((numDigits (buf + 2 ^ bits * leVal rem) room).reverse.map translate) := by
  intro room
  induction room with
  | zero => intros; rfl
  | succ room ih =>
    intro rem buf bits hb hbuf hr
    have hbits : ∀ k, k < 14 → 2 ^ k ≤ 8192 := by
      intro k hk
      have : 2 ^ k ≤ 2 ^ 13 := Nat.pow_le_pow_right (by omega) (by omega)
      omega
    by_cases h6 : bits < 6
    · cases rem with
      | nil => simp at hr; omega
      | cons c cs =>
        have hc := c.isLt
        have h2 : 2 ^ bits ≤ 32 := by
          have : 2 ^ bits ≤ 2 ^ 5 := Nat.pow_le_pow_right (by omega) (by omega)
          omega
        have hpos : 0 < 2 ^ bits := Nat.pow_pos (by omega)
        have hcm : c.val * 2 ^ bits ≤ 255 * 2 ^ bits := Nat.mul_le_mul_right _ (by omega)
        have e1 : (buf + c.val * 2 ^ bits % U32) % U32 = buf + c.val * 2 ^ bits := by
          unfold U32; omega
        have e2 : 2 ^ (bits + 8) = 2 ^ bits * 256 := Nat.pow_add 2 bits 8
        have e3 : 2 ^ (bits + 8) = 64 * 2 ^ (bits + 2) := by
          rw [show bits + 8 = (bits + 2) + 6 by omega, Nat.pow_add 2 (bits + 2) 6, Nat.mul_comm]
        have hT : buf + 2 ^ bits * leVal (c :: cs)
            = (buf + c.val * 2 ^ bits) + 64 * (2 ^ (bits + 2) * leVal cs) := by
          rw [← Nat.mul_assoc, ← e3, e2, leVal, Nat.mul_add, Nat.mul_assoc, Nat.mul_comm c.val]; omega
        have hdiv : (buf + 2 ^ bits * leVal (c :: cs)) / 64
            = (buf + c.val * 2 ^ bits) / 64 + 2 ^ (bits + 2) * leVal cs := by rw [hT]; omega
        have hmod : (buf + 2 ^ bits * leVal (c :: cs)) % 64 = (buf + c.val * 2 ^ bits) % 64 := by
          rw [hT]; omega
        have hlt : (buf + c.val * 2 ^ bits) / 64 < 2 ^ (bits + 2) := by
          apply Nat.div_lt_of_lt_mul; rw [← e3, e2]; omega
        simp only [backwardLoop, h6, if_true, e1]
        rw [show bits + 8 - 6 = bits + 2 by omega,
          ih cs _ (bits + 2) (by omega) hlt (by simp only [List.length_cons] at hr; omega)]
        simp only [Res.map_ok, numDigits, hdiv, hmod, List.reverse_append, List.reverse_cons, List.reverse_nil,
          List.nil_append, List.singleton_append, List.map_cons]
    · have e3 : 2 ^ bits = 64 * 2 ^ (bits - 6) := by
        rw [show bits = (bits - 6) + 6 by omega, Nat.pow_add 2 (bits - 6) 6, Nat.mul_comm]
        congr 2
      have hT : buf + 2 ^ bits * leVal rem = buf + 64 * (2 ^ (bits - 6) * leVal rem) := by
        rw [← Nat.mul_assoc, ← e3]
      have hdiv : (buf + 2 ^ bits * leVal rem) / 64 = buf / 64 + 2 ^ (bits - 6) * leVal rem := by
        rw [hT]; omega
      have hmod : (buf + 2 ^ bits * leVal rem) % 64 = buf % 64 := by rw [hT]; omega
      have hlt : buf / 64 < 2 ^ (bits - 6) := by
        apply Nat.div_lt_of_lt_mul; rw [← e3]; exact hbuf
      simp only [backwardLoop, h6, if_false]
      rw [ih rem _ (bits - 6) (by omega) hlt (by omega)]
      simp only [Res.map_ok, numDigits, hdiv, hmod, List.reverse_append, List.reverse_cons, List.reverse_nil,
        List.nil_append, List.singleton_append, List.map_cons]

theorem backwardLoop_ub : ∀ (room : Nat) (rem : Str) (buf bits : Nat),
    bits + 8 * rem.length < 6 * room → backwardLoop room rem buf bits = .ub := by
  intro room
  induction room with
  | zero => intro rem buf bits h; omega
  | succ room ih =>
    intro rem buf bits h
    by_cases h6 : bits < 6
    · cases rem with
      | nil => simp [backwardLoop, h6]
      | cons c cs =>
        simp only [List.length_cons] at h
        simp only [backwardLoop, h6, if_true]
        rw [ih _ _ _ (by omega)]; simp
    · simp only [backwardLoop, h6, if_false]
      rw [ih _ _ _ (by omega)]; simp

end Verif.Base64
