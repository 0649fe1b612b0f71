import Verif.KHosts.Model

/-!
# Properties of `has_host_key` and `clear_host_key` (C134, C135)
-/

namespace Verif.KHosts

/-! ## What a line says -/

/-- `w` is the name `host`, apart from the case of letters, save that a dot of `host` stands for any character. -/
def LikeName (host w : List Char) : Prop :=
  w.length = host.length ∧
    ∀ pc ∈ host.zip w, (pc.1 = '.' ∧ pc.2 ≠ '\n') ∨ (pc.1 ≠ '.' ∧ pc.1.toLower = pc.2.toLower)

/-- The same with the case of letters told apart. -/
def LikeAddr (ip w : List Char) : Prop :=
  w.length = ip.length ∧ ∀ pc ∈ ip.zip w, (pc.1 = '.' ∧ pc.2 ≠ '\n') ∨ (pc.1 ≠ '.' ∧ pc.1 = pc.2)

/-- The line begins with the name, ended by a comma or a space. -/
def StartsWithName (host : List Char) (line : Line) : Prop :=
  ∃ w c rest, line = w ++ c :: rest ∧ LikeName host w ∧ (c = ',' ∨ c = ' ')

/-- The address, ended by a space, stands at the start of the line or after a comma before which there is no space. -/
def EndsWithAddr (ip : List Char) (line : Line) : Prop :=
  ∃ a w rest, line = a ++ w ++ ' ' :: rest ∧ LikeAddr ip w ∧
    (a = [] ∨ ∃ b, a = b ++ [','] ∧ b ≠ [] ∧ ∀ c ∈ b, isSpace c = false)

/-- A hashed line for the value. -/
def HashedLineOf (mac : List Char → List Char → List Char) (val : List Char) (line : Line) : Prop :=
  ∃ salt hash rest pad, line = "|1|".toList ++ salt ++ '|' :: hash ++ ' ' :: rest ∧
    salt ≠ [] ∧ hash ≠ [] ∧ (∀ c ∈ salt, isB64 c) ∧ (∀ c ∈ hash, isB64 c) ∧
    hash = mac salt val ++ List.replicate pad '='

/-- What `has_host_key` looks for. -/
def Known (e : Env) (host ip : List Char) (line : Line) : Prop :=
  StartsWithName host line ∨ (e.hashedKeys = true ∧ (HashedLineOf e.mac host line ∨ HashedLineOf e.mac ip line))

/-- What `clear_host_key` removes. -/
def Cleared (e : Env) (host ip : List Char) (line : Line) : Prop :=
  Known e host ip line ∨ EndsWithAddr ip line

/-- A line with the given names and key. -/
def plain (names : List (List Char)) (key : List Char) : Line := [','].intercalate names ++ ' ' :: key

/-- `ssh` looks for the name in the whole list of names, whatever the case of the letters. -/
def sshFinds (host : List Char) (names : List (List Char)) : Prop :=
  ∃ n ∈ names, n.map Char.toLower = host.map Char.toLower

/-! ## The tests against their meaning -/

theorem matchPrefix_iff (ci : Bool) : ∀ (ps cs rest : List Char),
    matchPrefix ci ps cs = some rest ↔
      ∃ w, cs = w ++ rest ∧ w.length = ps.length ∧ ∀ pc ∈ ps.zip w, patChar ci pc.1 pc.2 = true
  | [], cs, rest => by
    simp only [matchPrefix, Option.some.injEq, List.length_nil, List.zip_nil_left, List.not_mem_nil, false_implies, implies_true, and_true]
    constructor
    · intro h; exact ⟨[], by simp [h], rfl⟩
    · rintro ⟨w, hw, hl⟩
      cases w with
      | nil => simpa using hw
      | cons => simp at hl
  | p :: ps, [], rest => by
    simp only [matchPrefix, reduceCtorEq, false_iff]
    rintro ⟨w, hw, hl, -⟩
    cases w <;> simp at hw hl
  | p :: ps, c :: cs, rest => by
    simp only [matchPrefix]
    split
    · rename_i hp
      rw [matchPrefix_iff ci ps cs rest]
      constructor
      · rintro ⟨w, rfl, hl, hz⟩
        refine ⟨c :: w, rfl, by simp [hl], ?_⟩
        intro pc hpc
        simp only [List.zip_cons_cons, List.mem_cons] at hpc
        rcases hpc with rfl | hpc
        · exact hp
        · exact hz pc hpc
      · rintro ⟨w, hw, hl, hz⟩
        cases w with
        | nil => simp at hl
        | cons d w =>
          simp only [List.cons_append, List.cons.injEq] at hw
          refine ⟨w, hw.2, by simpa using hl, fun pc hpc => hz pc (by simp [hpc])⟩
    · rename_i hp
      simp only [reduceCtorEq, false_iff]
      rintro ⟨w, hw, hl, hz⟩
      cases w with
      | nil => simp at hl
      | cons d w =>
        simp only [List.cons_append, List.cons.injEq] at hw
        apply hp
        have := hz (p, d) (by simp)
        rw [hw.1]; exact this

theorem patChar_true (p c : Char) : patChar true p c = true ↔ (p = '.' ∧ c ≠ '\n') ∨ (p ≠ '.' ∧ p.toLower = c.toLower) := by
  unfold patChar; split <;> simp_all

theorem patChar_false (p c : Char) : patChar false p c = true ↔ (p = '.' ∧ c ≠ '\n') ∨ (p ≠ '.' ∧ p = c) := by
  unfold patChar; split <;> simp_all

theorem hostMatch_iff (host : List Char) (line : Line) : hostMatch host line = true ↔ StartsWithName host line := by
  unfold hostMatch StartsWithName LikeName
  constructor
  · intro h
    generalize hm : matchPrefix true host line = m at h
    match m, h with
    | some (c :: rest), h =>
      obtain ⟨w, hw, hl, hz⟩ := (matchPrefix_iff true host line (c :: rest)).1 hm
      exact ⟨w, c, rest, hw, ⟨hl, fun pc hpc => (patChar_true _ _).1 (hz pc hpc)⟩, by simpa using h⟩
  · rintro ⟨w, c, rest, hw, ⟨hl, hz⟩, hc⟩
    have := (matchPrefix_iff true host line (c :: rest)).2 ⟨w, hw, hl, fun pc hpc => (patChar_true _ _).2 (hz pc hpc)⟩
    rw [this]; simpa using hc

theorem addrAt_iff (ip : List Char) (line : Line) :
    addrAt ip line = true ↔ ∃ w rest, line = w ++ ' ' :: rest ∧ LikeAddr ip w := by
  unfold addrAt LikeAddr
  constructor
  · intro h
    generalize hm : matchPrefix false ip line = m at h
    match m, h with
    | some (c :: rest), h =>
      obtain ⟨w, hw, hl, hz⟩ := (matchPrefix_iff false ip line (c :: rest)).1 hm
      simp only [beq_iff_eq] at h
      subst h
      exact ⟨w, rest, hw, hl, fun pc hpc => (patChar_false _ _).1 (hz pc hpc)⟩
  · rintro ⟨w, rest, hw, hl, hz⟩
    have := (matchPrefix_iff false ip line (' ' :: rest)).2 ⟨w, hw, hl, fun pc hpc => (patChar_false _ _).2 (hz pc hpc)⟩
    rw [this]; simp

theorem addrScan_iff (ip : List Char) : ∀ (line : Line) (started : Bool),
    addrScan ip started line = true ↔
      ∃ b w rest, line = b ++ ',' :: (w ++ ' ' :: rest) ∧ LikeAddr ip w ∧ (∀ c ∈ b, isSpace c = false) ∧
        (started = true ∨ b ≠ [])
  | [], started => by simp [addrScan]
  | c :: cs, started => by
    simp only [addrScan]
    split
    · rename_i hs
      simp only [Bool.false_eq_true, false_iff]
      rintro ⟨b, w, rest, hl, -, hb, hst⟩
      cases b with
      | nil =>
        simp only [List.nil_append, List.cons.injEq] at hl
        rw [hl.1] at hs; exact absurd hs (by decide)
      | cons d b =>
        simp only [List.cons_append, List.cons.injEq] at hl
        have := hb d (by simp)
        rw [← hl.1, hs] at this; cases this
    · rename_i hs
      simp only [Bool.or_eq_true, Bool.and_eq_true, beq_iff_eq, addrAt_iff, addrScan_iff ip cs true]
      constructor
      · rintro (⟨⟨hst, rfl⟩, w, rest, rfl, hw⟩ | ⟨b, w, rest, rfl, hw, hb, -⟩)
        · exact ⟨[], w, rest, rfl, hw, by simp, Or.inl hst⟩
        · refine ⟨c :: b, w, rest, by simp, hw, ?_, Or.inr (by simp)⟩
          intro d hd
          simp only [List.mem_cons] at hd
          rcases hd with rfl | hd
          · simpa using hs
          · exact hb d hd
      · rintro ⟨b, w, rest, hl, hw, hb, hst⟩
        cases b with
        | nil =>
          simp only [List.nil_append, List.cons.injEq] at hl
          exact Or.inl ⟨⟨by simpa using hst, hl.1⟩, w, rest, hl.2, hw⟩
        | cons d b =>
          simp only [List.cons_append, List.cons.injEq] at hl
          exact Or.inr ⟨b, w, rest, hl.2, hw, fun x hx => hb x (by simp [hx]), Or.inl trivial⟩

theorem addrMatch_iff (ip : List Char) (line : Line) : addrMatch ip line = true ↔ EndsWithAddr ip line := by
  unfold addrMatch EndsWithAddr
  rw [Bool.or_eq_true, addrAt_iff, addrScan_iff]
  constructor
  · rintro (⟨w, rest, rfl, hw⟩ | ⟨b, w, rest, rfl, hw, hb, hne⟩)
    · exact ⟨[], w, rest, by simp, hw, Or.inl rfl⟩
    · exact ⟨b ++ [','], w, rest, by simp, hw, Or.inr ⟨b, rfl, by simpa using hne, hb⟩⟩
  · rintro ⟨a, w, rest, rfl, hw, rfl | ⟨b, rfl, hne, hb⟩⟩
    · exact Or.inl ⟨w, rest, by simp, hw⟩
    · exact Or.inr ⟨b, w, rest, by simp, hw, hb, Or.inr hne⟩

theorem padTo_eq (n : Nat) (b : List Char) : padTo n b = b ++ List.replicate (n - b.length) '=' := by
  fun_induction padTo n b with
  | case1 b h ih =>
    rw [ih, List.append_assoc]
    congr 1
    have : n - b.length = (n - (b ++ ['=']).length) + 1 := by
      simp only [List.length_append, List.length_cons, List.length_nil]; omega
    rw [this, List.replicate_succ]; rfl
  | case2 b h => simp [show n - b.length = 0 by omega]

theorem takeWhile_stop (p : Char → Bool) : ∀ (a : List Char) (c : Char) (rest : List Char),
    (∀ x ∈ a, p x) → p c = false → (a ++ c :: rest).takeWhile p = a ∧ (a ++ c :: rest).dropWhile p = c :: rest
  | [], c, rest, _, hc => by simp [List.takeWhile, List.dropWhile, hc]
  | x :: a, c, rest, ha, hc => by
    have hx := ha x (by simp)
    have := takeWhile_stop p a c rest (fun y hy => ha y (by simp [hy])) hc
    simp [List.takeWhile, List.dropWhile, hx, this.1, this.2]

theorem takeWhile_all (p : Char → Bool) : ∀ (l : List Char), ∀ x ∈ l.takeWhile p, p x = true
  | [], x, h => by simp at h
  | a :: l, x, h => by
    simp only [List.takeWhile] at h
    cases hp : p a <;> rw [hp] at h
    · simp at h
    · simp only [List.mem_cons] at h
      rcases h with rfl | h
      · exact hp
      · exact takeWhile_all p l x h

theorem hashedParts_iff (line : Line) (salt hash : List Char) :
    hashedParts line = some (salt, hash) ↔
      ∃ rest, line = "|1|".toList ++ salt ++ '|' :: hash ++ ' ' :: rest ∧
        salt ≠ [] ∧ hash ≠ [] ∧ (∀ c ∈ salt, isB64 c) ∧ (∀ c ∈ hash, isB64 c) := by
  constructor
  · intro h
    unfold hashedParts at h
    split at h
    · rename_i cs
      simp only [] at h
      split at h
      · rename_i ds hds
        split at h
        · rename_i rest hrest
          split at h
          · rename_i hne
            simp only [Option.some.injEq, Prod.mk.injEq] at h
            obtain ⟨rfl, rfl⟩ := h
            refine ⟨rest, ?_, hne.1, hne.2, takeWhile_all _ _, takeWhile_all _ _⟩
            have h1 := List.takeWhile_append_dropWhile (p := isB64) (l := cs)
            have h2 := List.takeWhile_append_dropWhile (p := isB64) (l := ds)
            rw [hds] at h1; rw [hrest] at h2
            show '|' :: '1' :: '|' :: cs = '|' :: '1' :: '|' :: (_ ++ '|' :: _ ++ ' ' :: rest)
            congr 3
            conv => lhs; rw [← h1]
            simp only [List.append_assoc, List.cons_append]
            congr 2
            exact h2.symm
          · cases h
        · cases h
      · cases h
    · cases h
  · rintro ⟨rest, rfl, hs, hh, hsb, hhb⟩
    have e : "|1|".toList ++ salt ++ '|' :: hash ++ ' ' :: rest = '|' :: '1' :: '|' :: (salt ++ '|' :: (hash ++ ' ' :: rest)) := by
      show '|' :: '1' :: '|' :: (salt ++ '|' :: hash ++ ' ' :: rest) = _
      simp
    rw [e]
    have h1 := takeWhile_stop isB64 salt '|' (hash ++ ' ' :: rest) hsb (by decide)
    have h2 := takeWhile_stop isB64 hash ' ' rest hhb (by decide)
    unfold hashedParts
    simp only [h1.1, h1.2, h2.1, h2.2]
    simp [hs, hh]

theorem hmacEqual_iff (mac : List Char → List Char → List Char) (salt hash val : List Char) :
    hmacEqual mac salt hash val = true ↔ ∃ pad, hash = mac salt val ++ List.replicate pad '=' := by
  unfold hmacEqual
  rw [beq_iff_eq, padTo_eq]
  constructor
  · intro h; exact ⟨_, h⟩
  · rintro ⟨pad, h⟩
    have : hash.length = (mac salt val).length + pad := by rw [h]; simp
    rw [show hash.length - (mac salt val).length = pad by omega]; exact h

theorem hashedFor_iff (e : Env) (host ip : List Char) (line : Line) :
    hashedFor e host ip line = true ↔ HashedLineOf e.mac host line ∨ HashedLineOf e.mac ip line := by
  have key : ∀ val, HashedLineOf e.mac val line ↔ ∃ salt hash, hashedParts line = some (salt, hash) ∧ hmacEqual e.mac salt hash val = true := by
    intro val
    constructor
    · rintro ⟨salt, hash, rest, pad, h1, h2, h3, h4, h5, h6⟩
      exact ⟨salt, hash, (hashedParts_iff _ _ _).2 ⟨rest, h1, h2, h3, h4, h5⟩, (hmacEqual_iff _ _ _ _).2 ⟨pad, h6⟩⟩
    · rintro ⟨salt, hash, h1, h2⟩
      obtain ⟨rest, a, b, c, d, f⟩ := (hashedParts_iff _ _ _).1 h1
      obtain ⟨pad, hp⟩ := (hmacEqual_iff _ _ _ _).1 h2
      exact ⟨salt, hash, rest, pad, a, b, c, d, f, hp⟩
  rw [key, key]
  unfold hashedFor
  cases hashedParts line with
  | none => simp
  | some sh =>
    obtain ⟨salt, hash⟩ := sh
    simp only [Bool.or_eq_true, Option.some.injEq, Prod.mk.injEq]
    constructor
    · rintro (h | h)
      · exact Or.inl ⟨salt, hash, ⟨rfl, rfl⟩, h⟩
      · exact Or.inr ⟨salt, hash, ⟨rfl, rfl⟩, h⟩
    · rintro (⟨_, _, ⟨rfl, rfl⟩, h⟩ | ⟨_, _, ⟨rfl, rfl⟩, h⟩)
      · exact Or.inl h
      · exact Or.inr h

/-! ## The loop -/

theorem spliceLoop_eq (p : Line → Bool) (lines : List Line) (i : Nat) :
    spliceLoop p lines i = lines.take i ++ (lines.drop i).filter (fun l => !p l) := by
  fun_induction spliceLoop p lines i with
  | case1 lines i h hp ih =>
    rw [ih, List.eraseIdx_eq_take_drop_succ]
    have hl : (lines.take i).length = i := by simp; omega
    rw [List.take_append_of_le_length (by omega), List.take_of_length_le (by omega),
      List.drop_append_of_le_length (by omega), List.drop_of_length_le (by omega), List.nil_append,
      List.drop_eq_getElem_cons h, List.filter_cons]
    simp [hp]
  | case2 lines i h hp ih =>
    rw [ih, List.drop_eq_getElem_cons h, List.filter_cons]
    simp only [hp, Bool.not_false, if_true, List.take_succ_eq_append_getElem h, List.append_assoc, List.singleton_append]
  | case3 lines i h =>
    rw [List.take_of_length_le (by omega), List.drop_of_length_le (by omega)]; simp

theorem filter_length_ne {p : Line → Bool} {l : List Line} : l.length ≠ (l.filter p).length ↔ ∃ x ∈ l, p x = false := by
  constructor
  · intro h
    by_cases h' : ∀ x ∈ l, p x = true
    · exact absurd (by rw [List.filter_eq_self.2 h']) h
    · simp only [Classical.not_forall] at h'
      obtain ⟨x, hx, hp⟩ := h'
      exact ⟨x, hx, by simpa using hp⟩
  · rintro ⟨x, hx, hp⟩ h
    have := (List.filter_eq_self (p := p)).1 (List.Sublist.eq_of_length List.filter_sublist h.symm) x hx
    rw [hp] at this; cases this

open Classical in
theorem removeHostKey_eq (e : Env) (host ip : List Char) (hr : e.resolve host = some ip) (lines : List Line) (ex : Bool) :
    removeHostKey e host lines ex =
      some (lines.filter fun l => decide (¬(if ex then Known e host ip l else Cleared e host ip l))) := by
  unfold removeHostKey
  rw [hr]
  simp only [Option.map_some, Option.some.injEq]
  have hm := hostMatch_iff host
  have ha := addrMatch_iff ip
  have hh := hashedFor_iff e host ip
  cases ex
  · simp only [Bool.false_eq_true, if_false]
    split
    · rename_i hk
      rw [spliceLoop_eq]
      simp only [List.take_zero, List.drop_zero, List.nil_append, List.filter_filter]
      congr 1; funext l
      unfold Cleared Known
      rw [← hm, ← ha, ← hh]
      simp only [hk, true_and]
      grind
    · rename_i hk
      simp only [List.filter_filter]
      congr 1; funext l
      unfold Cleared Known
      rw [← hm, ← ha]
      simp only [hk]
      grind
  · simp only [if_true]
    split
    · rename_i hk
      rw [spliceLoop_eq]
      simp only [List.take_zero, List.drop_zero, List.nil_append, List.filter_filter]
      congr 1; funext l
      unfold Known
      rw [← hm, ← hh]
      simp only [hk, true_and]
      grind
    · rename_i hk
      congr 1; funext l
      unfold Known
      rw [← hm]
      simp only [hk]
      grind

/-! ## C134: what is looked for, what is removed -/

/-- `has_host_key` is true exactly if some line starts with the name, or is a hashed line of the name or of its address and `ssh` knows those. -/
theorem has_iff (e : Env) (host ip : List Char) (hr : e.resolve host = some ip) (lines : List Line) :
    ∃ b, hasHostKey e host lines = some b ∧ (b = true ↔ ∃ l ∈ lines, Known e host ip l) := by
  refine ⟨_, by unfold hasHostKey; rw [removeHostKey_eq e host ip hr]; rfl, ?_⟩
  simp only [decide_eq_true_eq, if_true]
  rw [filter_length_ne]
  simp

/-- `clear_host_key` removes exactly the lines meant for the host or its address, keeps the others in their order, and touches the file and prints its message exactly if there was such a line. -/
theorem clear_spec (e : Env) (host ip : List Char) (hr : e.resolve host = some ip) (lines : List Line) :
    ∃ b l', clearHostKey e host lines = some (b, l') ∧ l'.Sublist lines ∧
      (∀ l, Cleared e host ip l → l ∉ l') ∧
      (∀ l, ¬Cleared e host ip l → l'.count l = lines.count l) ∧
      (b = true ↔ ∃ l ∈ lines, Cleared e host ip l) ∧ (b = false → l' = lines) := by
  classical
  have hrm := removeHostKey_eq e host ip hr lines false
  simp only [Bool.false_eq_true, if_false] at hrm
  generalize hf : lines.filter (fun l => decide (¬Cleared e host ip l)) = f at hrm
  have hkey : f.length ≠ lines.length ↔ ∃ l ∈ lines, Cleared e host ip l := by
    rw [ne_comm, ← hf, filter_length_ne]; simp
  have hc : clearHostKey e host lines = some (if f.length ≠ lines.length then (true, f) else (false, lines)) := by
    unfold clearHostKey
    rw [hrm]; rfl
  have hfl : ¬(f.length ≠ lines.length) → f = lines := by
    intro h
    have h' : f.length = lines.length := by omega
    exact List.Sublist.eq_of_length (by rw [← hf]; exact List.filter_sublist) h'
  refine ⟨decide (f.length ≠ lines.length), f, ?_, by rw [← hf]; exact List.filter_sublist, ?_, ?_, by simpa using hkey, ?_⟩
  · rw [hc]
    split
    · rename_i h; simp [h]
    · rename_i h; rw [hfl h]; simp
  · intro l hl hm
    rw [← hf, List.mem_filter] at hm
    simp [hl] at hm
  · intro l hl
    rw [← hf]
    exact List.count_filter (by simpa using hl)
  · intro h
    exact hfl (by simpa using h)

/-- After `clear_host_key`, `has_host_key` is false and a second `clear_host_key` does nothing. -/
theorem clear_then_has (e : Env) (host : List Char) (lines l' : List Line) (b : Bool)
    (h : clearHostKey e host lines = some (b, l')) :
    hasHostKey e host l' = some false ∧ clearHostKey e host l' = some (false, l') := by
  have ⟨ip, hr⟩ : ∃ ip, e.resolve host = some ip := by
    unfold clearHostKey removeHostKey at h
    cases hr : e.resolve host with
    | none => rw [hr] at h; cases h
    | some ip => exact ⟨ip, rfl⟩
  obtain ⟨b1, l1, h1, -, hno, -⟩ := clear_spec e host ip hr lines
  rw [h1] at h
  simp only [Option.some.injEq, Prod.mk.injEq] at h
  obtain ⟨-, rfl⟩ := h
  constructor
  · obtain ⟨b2, hb2, hi⟩ := has_iff e host ip hr l1
    rw [hb2]
    cases b2 with
    | false => rfl
    | true =>
      obtain ⟨l, hl, hk⟩ := hi.1 rfl
      exact absurd hl (hno l (Or.inl hk))
  · obtain ⟨b2, l2, hc2, -, -, -, hi, he⟩ := clear_spec e host ip hr l1
    rw [hc2]
    cases b2 with
    | false => rw [he rfl]
    | true =>
      obtain ⟨l, hl, hk⟩ := hi.1 rfl
      exact absurd hl (hno l hk)

/-- A host the resolver does not know: both functions die, the file is as it was. -/
theorem unknown_dies (e : Env) (host : List Char) (hr : e.resolve host = none) (lines : List Line) :
    hasHostKey e host lines = none ∧ clearHostKey e host lines = none := by
  unfold hasHostKey clearHostKey removeHostKey
  rw [hr]; simp

/-! ## C135: in terms of host names -/

theorem likeName_of_lower : ∀ {host w : List Char}, w.map Char.toLower = host.map Char.toLower → (∀ c ∈ w, c ≠ '\n') →
    LikeName host w
  | [], w, h, _ => by
    have : w = [] := by simpa using h
    subst this
    exact ⟨rfl, by simp⟩
  | p :: ps, [], h, _ => by simp at h
  | p :: ps, c :: cs, h, hn => by
    simp only [List.map_cons, List.cons.injEq] at h
    have ih := likeName_of_lower (host := ps) (w := cs) h.2 (fun x hx => hn x (by simp [hx]))
    refine ⟨by simp [ih.1], ?_⟩
    intro pc hpc
    simp only [List.zip_cons_cons, List.mem_cons] at hpc
    rcases hpc with rfl | hpc
    · by_cases hd : p = '.'
      · exact Or.inl ⟨hd, hn c (by simp)⟩
      · exact Or.inr ⟨hd, h.1.symm⟩
    · exact ih.2 pc hpc

theorem lower_of_likeName : ∀ {host w : List Char}, LikeName host w → '.' ∉ host →
    w.map Char.toLower = host.map Char.toLower
  | [], w, h, _ => by
    have : w = [] := by simpa using h.1
    subst this; rfl
  | p :: ps, [], h, _ => by have := h.1; simp at this
  | p :: ps, c :: cs, h, hd => by
    have h1 := h.2 (p, c) (by simp)
    have hp : p ≠ '.' := fun h => hd (by simp [h])
    have h2 : LikeName ps cs := ⟨by have := h.1; simpa using this, fun pc hpc => h.2 pc (by simp [hpc])⟩
    have ih := lower_of_likeName h2 (fun h => hd (by simp [h]))
    simp only [List.map_cons, ih, List.cons.injEq, and_true]
    rcases h1 with h1 | h1
    · exact absurd h1.1 hp
    · exact h1.2.symm

theorem plain_head (n : List Char) (ns : List (List Char)) (key : List Char) :
    ∃ c rest, plain (n :: ns) key = n ++ c :: rest ∧ (c = ',' ∨ c = ' ') := by
  unfold plain
  cases ns with
  | nil => exact ⟨' ', key, by simp [List.intercalate, List.intersperse], Or.inr rfl⟩
  | cons m ns =>
    refine ⟨',', [','].intercalate (m :: ns) ++ ' ' :: key, ?_, Or.inl rfl⟩
    simp [List.intercalate, List.intersperse]

theorem append_sep_inj : ∀ {a b : List Char} {c d : Char} {r s : List Char}, a ++ c :: r = b ++ d :: s →
    (c = ',' ∨ c = ' ') → (d = ',' ∨ d = ' ') → ',' ∉ a → ' ' ∉ a → ',' ∉ b → ' ' ∉ b → a = b
  | [], [], _, _, _, _, _, _, _, _, _, _, _ => rfl
  | [], y :: b, c, d, r, s, h, hc, _, _, _, h3, h4 => by
    simp only [List.nil_append, List.cons_append, List.cons.injEq] at h
    rcases hc with rfl | rfl
    · exact absurd (by rw [h.1]; simp) h3
    · exact absurd (by rw [h.1]; simp) h4
  | x :: a, [], c, d, r, s, h, _, hd, h1, h2, _, _ => by
    simp only [List.nil_append, List.cons_append, List.cons.injEq] at h
    rcases hd with rfl | rfl
    · exact absurd (by simp [h.1]) h1
    · exact absurd (by simp [h.1]) h2
  | x :: a, y :: b, c, d, r, s, h, hc, hd, h1, h2, h3, h4 => by
    simp only [List.cons_append, List.cons.injEq] at h
    rw [h.1, append_sep_inj h.2 hc hd (fun h => h1 (by simp [h])) (fun h => h2 (by simp [h])) (fun h => h3 (by simp [h]))
      (fun h => h4 (by simp [h]))]

/-- A line whose first name is the host is found, whatever the case. -/
theorem plain_known (host n : List Char) (ns : List (List Char)) (key : List Char)
    (h : n.map Char.toLower = host.map Char.toLower) (hn : '\n' ∉ n) : StartsWithName host (plain (n :: ns) key) := by
  obtain ⟨c, rest, he, hc⟩ := plain_head n ns key
  exact ⟨n, c, rest, he, likeName_of_lower h (fun x hx hxn => hn (hxn ▸ hx)), hc⟩

/-- For a host name without dots, a line is found only if its first name is the host. -/
theorem plain_known_only (host n : List Char) (ns : List (List Char)) (key : List Char)
    (hd : '.' ∉ host) (hh : ∀ c ∈ host, c.toLower ≠ ',' ∧ c.toLower ≠ ' ') (hn : ',' ∉ n ∧ ' ' ∉ n)
    (h : StartsWithName host (plain (n :: ns) key)) : n.map Char.toLower = host.map Char.toLower := by
  obtain ⟨c, rest, he, hc⟩ := plain_head n ns key
  obtain ⟨w, d, rest', he', hw, hd'⟩ := h
  have hl := lower_of_likeName hw hd
  have hw' : ∀ x ∈ w, x ≠ ',' ∧ x ≠ ' ' := by
    intro x hx
    have : x.toLower ∈ host.map Char.toLower := by rw [← hl]; exact List.mem_map_of_mem hx
    obtain ⟨y, hy, hxy⟩ := List.mem_map.1 this
    have hyy := hh y hy
    rw [hxy] at hyy
    constructor
    · rintro rfl; exact hyy.1 (by decide)
    · rintro rfl; exact hyy.2 (by decide)
  have := append_sep_inj (he.symm.trans he') hc hd' hn.1 hn.2 (fun h => (hw' _ h).1 rfl) (fun h => (hw' _ h).2 rfl)
  rw [this, hl]

/-- In a file of unhashed lines in which the host, where it is named, is named first: `has_host_key` is true if `ssh` finds a key, and after `clear_host_key` it finds none. -/
theorem clear_ssh_partial (e : Env) (host ip : List Char) (hr : e.resolve host = some ip)
    (file : List (List (List Char) × List Char))
    (hfirst : ∀ f ∈ file, ∀ n ∈ f.1, '\n' ∉ n ∧ (n.map Char.toLower = host.map Char.toLower → f.1.head? = some n)) :
    ((∃ f ∈ file, sshFinds host f.1) → hasHostKey e host (file.map fun f => plain f.1 f.2) = some true) ∧
    ∃ b l', clearHostKey e host (file.map fun f => plain f.1 f.2) = some (b, l') ∧
      ∀ f ∈ file, plain f.1 f.2 ∈ l' → ¬sshFinds host f.1 := by
  have hk : ∀ f ∈ file, sshFinds host f.1 → Known e host ip (plain f.1 f.2) := by
    intro f hf ⟨n, hn, hl⟩
    have h1 := hfirst f hf n hn
    have h2 := h1.2 hl
    obtain ⟨names, key⟩ := f
    cases names with
    | nil => simp at hn
    | cons m ns =>
      simp only [List.head?_cons, Option.some.injEq] at h2
      subst h2
      exact Or.inl (plain_known host m ns key hl h1.1)
  constructor
  · rintro ⟨f, hf, hs⟩
    obtain ⟨b, hb, hi⟩ := has_iff e host ip hr (file.map fun f => plain f.1 f.2)
    rw [hb]
    rw [hi.2 ⟨_, List.mem_map.2 ⟨f, hf, rfl⟩, hk f hf hs⟩]
  · obtain ⟨b, l', hc, -, hno, -⟩ := clear_spec e host ip hr (file.map fun f => plain f.1 f.2)
    exact ⟨b, l', hc, fun f hf hm hs => hno _ (Or.inl (hk f hf hs)) hm⟩

/-- For a host name without dots and a file of unhashed lines: `has_host_key` is true only if some line names the host first, so that `ssh` finds a key there. -/
theorem has_ssh_partial (e : Env) (host ip : List Char) (hr : e.resolve host = some ip)
    (hd : '.' ∉ host) (hh : ∀ c ∈ host, c.toLower ≠ ',' ∧ c.toLower ≠ ' ')
    (file : List (List (List Char) × List Char))
    (hplain : ∀ f ∈ file, ∃ n ns, f.1 = n :: ns ∧ ',' ∉ n ∧ ' ' ∉ n ∧ n.head? ≠ some '|')
    (h : hasHostKey e host (file.map fun f => plain f.1 f.2) = some true) : ∃ f ∈ file, sshFinds host f.1 := by
  obtain ⟨b, hb, hi⟩ := has_iff e host ip hr (file.map fun f => plain f.1 f.2)
  rw [hb, Option.some.injEq] at h
  obtain ⟨l, hl, hk⟩ := hi.1 h
  obtain ⟨f, hf, rfl⟩ := List.mem_map.1 hl
  obtain ⟨n, ns, hn, h1, h2, h3⟩ := hplain f hf
  refine ⟨f, hf, n, by rw [hn]; simp, ?_⟩
  rw [hn] at hk
  rcases hk with hk | ⟨-, hk⟩
  · exact plain_known_only host n ns f.2 hd hh ⟨h1, h2⟩ hk
  · exfalso
    have : ∀ val, ¬HashedLineOf e.mac val (plain (n :: ns) f.2) := by
      rintro val ⟨salt, hash, rest, pad, he, -⟩
      obtain ⟨c, r, hp, hc⟩ := plain_head n ns f.2
      rw [hp] at he
      have he' : n ++ c :: r = '|' :: ('1' :: '|' :: (salt ++ '|' :: hash ++ ' ' :: rest)) := he
      cases n with
      | nil =>
        simp only [List.nil_append, List.cons.injEq] at he'
        rcases hc with rfl | rfl
        · exact absurd he'.1 (by decide)
        · exact absurd he'.1 (by decide)
      | cons x n =>
        simp only [List.cons_append, List.cons.injEq] at he'
        exact h3 (by simp [he'.1])
    rcases hk with hk | hk
    · exact this _ hk
    · exact this _ hk

/-! ### Where it is not so -/

/-- A resolver and a code for the examples. -/
def demo : Env :=
  { hashedKeys := true
    resolve := fun h => if h = "nobody".toList then none else some "10.0.0.1".toList
    mac := fun salt val => salt ++ val }

/-- The documentation promises that `ssh` asks before connecting if `has_host_key` is false: it does not if the host is the second name of a line, which `clear_host_key` does not remove either. -/
theorem second_name_false : ¬∀ (e : Env) (host : List Char) (names : List (List Char)) (key : List Char),
    sshFinds host names → hasHostKey e host [plain names key] ≠ some false ∧
      clearHostKey e host [plain names key] ≠ some (false, [plain names key]) := by
  intro h
  have := h demo "db".toList ["www".toList, "db".toList] "ssh-rsa AAAA\n".toList ⟨"db".toList, by simp, rfl⟩
  exact absurd (by decide +kernel) this.1

/-- The dots of a name are not quoted: clearing `a.b` removes the keys of `axb`, and of the two hosts `a` and `b`. -/
theorem dot_false : ¬∀ (e : Env) (host : List Char) (names : List (List Char)) (key : List Char),
    '|' ∉ names.flatten → '\n' ∉ names.flatten → (∀ ip, e.resolve host = some ip → ∀ n ∈ names, ¬LikeAddr ip n) →
    ¬sshFinds host names → clearHostKey e host [plain names key] = some (false, [plain names key]) := by
  intro h
  have := h demo "a.b".toList ["axb".toList] "ssh-rsa AAAA\n".toList (by decide +kernel) (by decide +kernel)
    (by
      intro ip hip n hn hl
      have h1 : ip = "10.0.0.1".toList := by
        have : demo.resolve "a.b".toList = some "10.0.0.1".toList := by decide +kernel
        rw [this] at hip; exact (Option.some.inj hip).symm
      simp only [List.mem_singleton] at hn
      subst h1 hn
      exact absurd hl.1 (by decide +kernel))
    (by
      rintro ⟨n, hn, hl⟩
      simp only [List.mem_singleton] at hn
      subst hn
      exact absurd hl (by decide +kernel))
  exact absurd this (by decide +kernel)

/-- The second half of the text above. -/
theorem dot_comma : clearHostKey demo "a.b".toList [plain ["a".toList, "b".toList] "k\n".toList] = some (true, []) := by
  decide +kernel

/-- The address is removed only as the last name of a line. -/
theorem addr_not_last : clearHostKey demo "db".toList [plain ["10.0.0.1".toList, "www".toList] "k\n".toList] =
    some (false, [plain ["10.0.0.1".toList, "www".toList] "k\n".toList]) := by decide +kernel

/-! ### The hypotheses can be met -/

example : clearHostKey demo "db".toList
    ["DB,10.0.0.1 k1\n".toList, "www,10.0.0.1 k2\n".toList, "other k3\n".toList, "|1|s|sdb== k4\n".toList, "|1|s|sdc== k5\n".toList] =
    some (true, ["other k3\n".toList, "|1|s|sdc== k5\n".toList]) := by decide +kernel

example : hasHostKey demo "db".toList ["www,10.0.0.1 k2\n".toList, "other k3\n".toList] = some false ∧
    hasHostKey demo "db".toList ["www,10.0.0.1 k2\n".toList, "|1|s|s10/0/0/1= k\n".toList, "Db k\n".toList] = some true := by
  decide +kernel

example : demo.resolve "db".toList = some "10.0.0.1".toList ∧ '.' ∉ "db".toList ∧
    ∀ c ∈ "db".toList, c.toLower ≠ ',' ∧ c.toLower ≠ ' ' := by decide +kernel

example : ∀ f ∈ [(["DB".toList, "x".toList], "k\n".toList), (["www".toList], "k\n".toList)],
    (∀ n ∈ f.1, '\n' ∉ n ∧ (n.map Char.toLower = "db".toList.map Char.toLower → f.1.head? = some n)) := by decide +kernel

end Verif.KHosts
