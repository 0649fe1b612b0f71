import Verif.Posix.Model

/-! # Reading and seeking (C114, C115) -/

namespace Verif.Posix
open Verif Verif.Str

theorem chunk_prefix (file : Str) (n k : Nat) : chunk file n k <+: file := List.take_prefix _ _

theorem chunk_nil {file : Str} {n k : Nat} (h : (chunk file n k).length = 0) : n = 0 ∨ file = [] := by
  simp only [chunk, List.length_take] at h
  cases file with
  | nil => exact .inr rfl
  | cons c f => simp only [List.length_cons] at h; omega

theorem chunk_drop (file : Str) (n k : Nat) : chunk file n k ++ file.drop (chunk file n k).length = file := by
  obtain ⟨t, ht⟩ := chunk_prefix file n k
  have : ∀ x : Str, x ++ t = file → x ++ file.drop x.length = file := by
    rintro x rfl
    simp
  exact this _ ht

theorem readLoop_ok (n : Nat) : ∀ (rs : List Sys) (file buf : Str) (g : Got), buf.length < n ∨ (n = 0 ∧ buf = []) → readLoop n rs file buf = some (.ok g) →
    g.buf ++ g.file = buf ++ file ∧ g.ret = g.buf.length ∧ g.buf.length ≤ n ∧ (g.buf.length = n ∨ g.file = []) := by
  intro rs
  induction rs with
  | nil => intro file buf g _ h; simp [readLoop] at h
  | cons r rs ih =>
    intro file buf g hb h
    cases r with
    | fail => simp [readLoop] at h
    | gives k =>
      simp only [readLoop] at h
      split at h
      · simp at h
      · next h1 =>
        split at h
        · next h2 =>
          simp only [Option.some.injEq, Res.ok.injEq] at h
          subst h
          refine ⟨rfl, by simp only; omega, by simp only; omega, ?_⟩
          rcases chunk_nil h2 with h3 | h3
          · left; simp only; omega
          · right; exact h3
        · next h2 =>
          have hd := chunk_drop file n k
          split at h
          · next h3 =>
            have := ih _ _ g (by left; simp only [List.length_append]; omega) h
            rw [List.append_assoc, hd] at this
            exact this
          · next h3 =>
            simp only [Option.some.injEq, Res.ok.injEq] at h
            subst h
            refine ⟨by simp only [List.append_assoc, hd], ?_, ?_, ?_⟩
            · simp only [List.length_append]; omega
            · simp only [List.length_append]; omega
            · left; simp only [List.length_append]; omega

/-- **C114, partial.** When `readN` returns, the buffer has the next bytes of the file and the file is left behind them; it returned their number; and they are `n`,
or all that were left. Missing for the full statement: that it returns, instead of writing past the buffer (`readN_overflow_false`). -/
theorem readN_returns_partial (n : Nat) (rs : List Sys) (file : Str) (g : Got) (h : readN n rs file = some (.ok g)) :
    g.buf ++ g.file = file ∧ g.ret = g.buf.length ∧ g.buf.length = min n file.length := by
  obtain ⟨h1, h2, h3, h4⟩ := readLoop_ok n rs file [] g (by
    rcases Nat.eq_zero_or_pos n with h | h
    · exact .inr ⟨h, rfl⟩
    · exact .inl h) h
  refine ⟨h1, h2, ?_⟩
  have := congrArg List.length h1
  simp only [List.nil_append, List.length_append] at this
  rcases h4 with h4 | h4
  · omega
  · rw [h4] at this; simp at this; omega

/-- Three reads that give less than is asked for, the end of the file, and one that gives all. -/
example : readN 8 [.gives 2, .gives 1, .gives 9, .gives 5] [1, 2, 3, 4, 5] = some (.ok ⟨[1, 2, 3, 4, 5], 5, []⟩) ∧
    readN 3 [.gives 3] [1, 2, 3, 4] = some (.ok ⟨[1, 2, 3], 3, [4]⟩) := by decide

theorem readLoop_small (n : Nat) : ∀ (rs : List Sys) (file buf : Str), buf.length + file.length ≤ n → .fail ∉ rs →
    readLoop n rs file buf = none ∨ ∃ g, readLoop n rs file buf = some (.ok g) := by
  intro rs
  induction rs with
  | nil => intro _ _ _ _; exact .inl rfl
  | cons r rs ih =>
    intro file buf h hf
    cases r with
    | fail => simp at hf
    | gives k =>
      have hc : (chunk file n k).length ≤ file.length := (chunk_prefix file n k).length_le
      simp only [readLoop]
      rw [if_neg (by omega)]
      split
      · exact .inr ⟨_, rfl⟩
      · split
        · refine ih _ _ ?_ (by simp at hf; exact hf)
          simp only [List.length_append, List.length_drop]
          omega
        · exact .inr ⟨_, rfl⟩

theorem readLoop_ends (n : Nat) : ∀ (rs : List Sys) (file buf : Str), buf.length < n ∨ (n = 0 ∧ buf = []) → n - buf.length < rs.length → readLoop n rs file buf ≠ none := by
  intro rs
  induction rs with
  | nil => intro _ _ _ h; simp at h
  | cons r rs ih =>
    intro file buf hb h
    cases r with
    | fail => simp [readLoop]
    | gives k =>
      simp only [readLoop]
      split
      · simp
      · next h1 =>
        split
        · simp
        · next h2 =>
          split
          · next h3 =>
            refine ih _ _ ?_ ?_
            · left; simp only [List.length_append]; omega
            · simp only [List.length_cons] at h; simp only [List.length_append]; omega
          · simp

/-- **C114, partial.** It always ends, after at most `n + 1` reads; and if no more than `n` bytes are left in the file and no read fails, it returns them all, however
the system cuts them up. Missing for the full statement: longer files (`readN_overflow_false`). -/
theorem readN_small_partial (n : Nat) (rs : List Sys) (file : Str) (hl : n < rs.length) :
    readN n rs file ≠ none ∧ (file.length ≤ n → .fail ∉ rs → ∃ g, readN n rs file = some (.ok g) ∧ g.buf = file ∧ g.ret = file.length) := by
  have h0 : ([] : Str).length < n ∨ (n = 0 ∧ ([] : Str) = []) := by
    rcases Nat.eq_zero_or_pos n with h | h
    · exact .inr ⟨h, rfl⟩
    · exact .inl h
  have he : readN n rs file ≠ none := readLoop_ends n rs file [] h0 (by simpa using hl)
  refine ⟨he, fun hs hf => ?_⟩
  rcases readLoop_small n rs file [] (by simpa using hs) hf with h | ⟨g, h⟩
  · exact absurd h he
  · obtain ⟨a, b, c⟩ := readN_returns_partial n rs file g h
    refine ⟨g, h, ?_, ?_⟩
    · have : g.file = [] := by
        have := congrArg List.length a
        simp only [List.length_append] at this
        exact List.length_eq_zero_iff.1 (by omega)
      rw [this] at a
      simpa using a
    · rw [b, c]
      congr 1
      omega

example : ∃ rs : List Sys, 8 < rs.length ∧ .fail ∉ rs := ⟨List.replicate 9 (.gives 1), by decide, by decide⟩

/-- **The full C114 is false.** Every `read` asks for `n` bytes, also when some have been read already. With any file of more than `n` bytes, `n` at least 2: when the first read gives
less than `n` and the second as much as it can, bytes are written past the buffer. -/
theorem readN_overflow_false (n : Nat) (file : Str) (hf : n < file.length) (k : Nat) (hk : 0 < k) (hkn : k < n) (rs : List Sys) :
    readN n (.gives k :: .gives n :: rs) file = some .ub := by
  have h1 : (chunk file n k).length = k := by simp only [chunk, List.length_take]; omega
  have h2 : k + (chunk (file.drop k) n n).length > n := by simp only [chunk, List.length_take, List.length_drop]; omega
  simp only [readN, readLoop, h1, List.length_nil, Nat.zero_add, List.nil_append]
  rw [if_neg (by omega), if_neg (by omega), if_pos (by omega), if_pos (by omega)]

example : readN 4 [.gives 2, .gives 4] [1, 2, 3, 4, 5] = some .ub := by decide

/-- **C114.** `read0` returns exactly when the system gives all `n` bytes at once, and then they are the next of the file. -/
theorem read0_spec (n : Nat) (r : Sys) (file : Str) : read0 n r file ≠ .ub ∧
    ∀ g, read0 n r file = .ok g ↔ (∃ k, r = .gives k ∧ (n ≤ max 1 k)) ∧ n ≤ file.length ∧ g = ⟨file.take n, n, file.drop n⟩ := by
  cases r with
  | fail => simp [read0]
  | gives k =>
    simp only [read0, chunk, List.length_take]
    by_cases h : min (min n (max 1 k)) file.length = n
    · rw [if_pos h]
      refine ⟨by simp, fun g => ?_⟩
      have e : min n (max 1 k) = n := by omega
      simp only [Res.ok.injEq, e, show min n file.length = n by omega]
      constructor
      · rintro rfl
        exact ⟨⟨k, rfl, by omega⟩, by omega, rfl⟩
      · rintro ⟨_, _, rfl⟩; rfl
    · rw [if_neg h]
      refine ⟨by simp, fun g => ?_⟩
      constructor
      · simp
      · rintro ⟨⟨k', hk, h1⟩, h2, _⟩
        simp only [Sys.gives.injEq] at hk
        subst hk
        omega

/-! ## Seeking -/

/-- What `fseek` promises: success, 0, exactly when there is such a position, and then the stream is there. -/
def SeekOk (f : File) (off : Int) (w : Whence) (r : Int × File) : Prop :=
  (r.1 = 0 ∧ 0 ≤ f.base w + off ∧ r.2 = { f with pos := f.base w + off }) ∨ (r.1 = -1 ∧ ¬ 0 ≤ f.base w + off ∧ r.2 = f)

/-- **C115, partial.** `fseek64` from the start of the file, with an offset that is not -1, does what `fseek` promises. Missing for the
full statement: everything else (`fseek64_iff`). -/
theorem fseek64_set_partial (f : File) (off : Int) (h : off ≠ -1) : SeekOk f off .set (fseek64 f off .set) := by
  unfold SeekOk fseek64 lseek
  by_cases h0 : 0 ≤ f.base .set + off
  · left
    simp only [h0, if_true]
    simp [File.base]
  · right
    simp only [h0, if_false]
    rw [if_neg (fun e => h e.symm)]
    exact ⟨rfl, not_false, rfl⟩

/-- **C115.** Exactly when it does: when seeking starts at 0 and the offset is not -1, or when it fails with an offset other than -1. So it reports failure for every
seek that succeeds and starts anywhere else, and success for a failed seek by -1. -/
theorem fseek64_iff (f : File) (hp : 0 ≤ f.pos) (hs : 0 ≤ f.size) (off : Int) (w : Whence) :
    SeekOk f off w (fseek64 f off w) ↔ (f.base w = 0 ∧ off ≠ -1) ∨ (f.base w + off < 0 ∧ off ≠ -1) := by
  have hb : 0 ≤ f.base w := by cases w <;> simp [File.base, hp, hs]
  unfold SeekOk fseek64 lseek
  by_cases h0 : 0 ≤ f.base w + off
  · simp only [h0, if_true, not_true_eq_false, false_and, and_false, or_false, true_and]
    by_cases h1 : f.base w + off = off
    · rw [if_pos h1]; simp only [and_true, true_iff]; left; omega
    · rw [if_neg h1]; simp only [Int.reduceNeg, Int.reduceEq, false_and, false_iff]; omega
  · simp only [h0, if_false, not_false_eq_true, false_and, and_false, false_or, true_and]
    by_cases h1 : (-1 : Int) = off
    · rw [if_pos h1]; simp only [Int.reduceNeg, Int.reduceEq, false_and, false_iff]; omega
    · rw [if_neg h1]; simp only [and_true, true_iff]; right; omega

/-- **The full C115 is false.** At position 10, seeking on by 5 moves there and reports failure; seeking to -1 does not move and reports success. -/
theorem fseek64_false : fseek64 ⟨10, 100⟩ 5 .cur = (-1, ⟨15, 100⟩) ∧ fseek64 ⟨10, 100⟩ (-1) .set = (0, ⟨10, 100⟩) := by decide

/-- **C115.** `ftell64` gives the position and does not move. -/
theorem ftell64_spec (f : File) (h : 0 ≤ f.pos) : ftell64 f = (f.pos, f) := by
  unfold ftell64 lseek
  rw [if_pos (by simpa [File.base] using h)]
  simp [File.base]

/-- ... so seeking to what `ftell64` gave returns there. -/
theorem ftell_fseek (f g : File) (h : 0 ≤ f.pos) (hg : g.size = f.size) : fseek64 g (ftell64 f).1 .set = (0, f) := by
  rw [ftell64_spec f h]
  have := fseek64_set_partial g f.pos (by omega)
  unfold SeekOk at this
  simp only [File.base, Int.zero_add] at this
  rcases this with ⟨a, _, b⟩ | ⟨_, b, _⟩
  · cases f
    simp only at hg b a ⊢
    rw [← a, ← hg, ← b]
  · exact absurd h b

/-- **C115.** `fopen64` opens for reading exactly with `r` and `rb`, for writing with `w` and `wb`; with an empty mode it reads past its end, and any other mode ends the
program, also the standard ones `a`, `r+`, `w+`. -/
theorem fopen64_modes (mode : Str) (h0 : (0 : Byte) ∉ mode) :
    (fopen64 mode = .ok .reads ↔ mode = [114] ∨ mode = [114, 98]) ∧ (fopen64 mode = .ok .writes ↔ mode = [119] ∨ mode = [119, 98]) ∧
    (fopen64 mode = .ub ↔ mode = []) := by
  match mode, h0 with
  | [], _ => exact ⟨by decide, by decide, by decide⟩
  | [a], h0 =>
    have : fopen64 [a] = .ok (if a = 114 then .reads else if a = 119 then .writes else .exits) := by
      simp only [fopen64, charAt]
      by_cases h1 : a = 114
      · simp [h1]
      · by_cases h2 : a = 119 <;> simp [h1, h2]
    rw [this]
    by_cases h1 : a = 114
    · simp [h1]
    · by_cases h2 : a = 119 <;> simp [h1, h2]
  | [a, b], h0 =>
    have hb : b ≠ 0 := by rintro rfl; simp at h0
    have : fopen64 [a, b] = .ok (if b = 98 then (if a = 114 then .reads else if a = 119 then .writes else .exits) else .exits) := by
      simp only [fopen64, charAt]
      by_cases h1 : a = 114 <;> by_cases h2 : a = 119 <;> by_cases h3 : b = 98 <;> simp [h1, h2, h3, hb]
    rw [this]
    by_cases h1 : a = 114 <;> by_cases h2 : a = 119 <;> by_cases h3 : b = 98 <;> simp [h1, h2, h3]
  | a :: b :: c :: l, h0 =>
    have hb : b ≠ 0 := by rintro rfl; simp at h0
    have hc : c ≠ 0 := by rintro rfl; simp at h0
    have : fopen64 (a :: b :: c :: l) = .ok .exits := by
      simp [fopen64, charAt, hb, hc]
    rw [this]
    simp

example : fopen64 [97] = .ok .exits ∧ fopen64 [114, 43] = .ok .exits := by decide

end Verif.Posix
