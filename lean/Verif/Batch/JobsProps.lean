import Verif.Batch.Jobs

/-!
# Properties of `BatchParallel::jobsfile` (C129, C130)
-/

namespace Verif.Batch.Jobs

/-! ## Names of the output files -/

/-- The number a list of digits stands for. -/
def value (l : List Nat) : Nat := l.foldl (fun a x => 10 * a + x) 0

theorem foldl_value (l : List Nat) (a : Nat) : l.foldl (fun a x => 10 * a + x) a = a * 10 ^ l.length + value l := by
  induction l generalizing a with
  | nil => simp [value]
  | cons x l ih =>
    simp only [List.foldl_cons, value, List.length_cons]
    rw [ih, ih (10 * 0 + x), Nat.pow_succ]
    simp only [Nat.mul_zero, Nat.zero_add, Nat.add_mul]
    rw [show 10 * a * 10 ^ l.length = a * (10 ^ l.length * 10) by rw [Nat.mul_comm 10 a, Nat.mul_assoc, Nat.mul_comm 10]]
    omega

theorem value_cons (x : Nat) (l : List Nat) : value (x :: l) = x * 10 ^ l.length + value l := by
  show List.foldl _ _ l = _
  rw [foldl_value]
  simp

theorem value_append_one (l : List Nat) (x : Nat) : value (l ++ [x]) = 10 * value l + x := by
  simp [value, List.foldl_append]

theorem value_zeros (k : Nat) (l : List Nat) : value (List.replicate k 0 ++ l) = value l := by
  induction k with
  | zero => simp
  | succ k ih => rw [List.replicate_succ, List.cons_append, value_cons, ih]; omega

theorem value_lt (l : List Nat) (h : ∀ x ∈ l, x < 10) : value l < 10 ^ l.length := by
  induction l with
  | nil => simp [value]
  | cons x l ih =>
    rw [value_cons, List.length_cons, Nat.pow_succ]
    have h1 := ih (fun y hy => h y (List.mem_cons_of_mem _ hy))
    have h2 := h x List.mem_cons_self
    have : x * 10 ^ l.length ≤ 9 * 10 ^ l.length := Nat.mul_le_mul_right _ (by omega)
    omega

theorem dec_value (n : Nat) : value (dec n) = n := by
  fun_induction dec n with
  | case1 n h => simp [value]
  | case2 n h ih => rw [value_append_one, ih]; omega

theorem dec_digits (n : Nat) : ∀ x ∈ dec n, x < 10 := by
  fun_induction dec n with
  | case1 n h => simpa using h
  | case2 n h ih =>
    intro x hx
    rcases List.mem_append.1 hx with hx | hx
    · exact ih x hx
    · simp only [List.mem_singleton] at hx
      omega

theorem dec_length (n d : Nat) (hd : 1 ≤ d) (h : n < 10 ^ d) : (dec n).length ≤ d := by
  fun_induction dec n generalizing d with
  | case1 n hn => simpa using hd
  | case2 n hn ih =>
    have h2 : 2 ≤ d := by
      apply Nat.le_of_not_lt
      intro hlt
      have : d = 1 := by omega
      subst this
      omega
    have := ih (d - 1) (by omega) (by
      apply Nat.div_lt_of_lt_mul
      rw [Nat.mul_comm, ← Nat.pow_succ]
      rwa [show (d - 1).succ = d by omega])
    simp only [List.length_append, List.length_singleton]
    omega

theorem name_value (d n : Nat) : value (name d n) = n := by
  unfold name
  rw [value_zeros, dec_value]

theorem name_digits (d n : Nat) : ∀ x ∈ name d n, x < 10 := by
  intro x hx
  rcases List.mem_append.1 hx with hx | hx
  · have := List.eq_of_mem_replicate hx
    omega
  · exact dec_digits n x hx

theorem name_length {d n : Nat} (hd : 1 ≤ d) (h : n < 10 ^ d) : (name d n).length = d := by
  have := dec_length n d hd h
  simp only [name, List.length_append, List.length_replicate]
  omega

/-- Lists of digits of the same length are in the order of the dictionary as their numbers are. -/
theorem lex_iff (l m : List Nat) (hl : l.length = m.length) (h1 : ∀ x ∈ l, x < 10) (h2 : ∀ x ∈ m, x < 10) : l < m ↔ value l < value m := by
  induction l generalizing m with
  | nil =>
    have : m = [] := List.length_eq_zero_iff.1 hl.symm
    subst this
    simp
  | cons x l ih =>
    cases m with
    | nil => simp at hl
    | cons y m =>
      simp only [List.length_cons, Nat.add_right_cancel_iff] at hl
      have k1 := value_lt l (fun z hz => h1 z (List.mem_cons_of_mem _ hz))
      have k2 := value_lt m (fun z hz => h2 z (List.mem_cons_of_mem _ hz))
      have k := ih m hl (fun z hz => h1 z (List.mem_cons_of_mem _ hz)) (fun z hz => h2 z (List.mem_cons_of_mem _ hz))
      rw [List.cons_lt_cons_iff, value_cons, value_cons, k, hl]
      rw [hl] at k1
      constructor
      · rintro (h | ⟨rfl, h⟩)
        · have : (x + 1) * 10 ^ m.length ≤ y * 10 ^ m.length := Nat.mul_le_mul_right _ h
          rw [Nat.add_mul] at this
          omega
        · omega
      · intro h
        rcases Nat.lt_trichotomy x y with hxy | hxy | hxy
        · exact Or.inl hxy
        · subst hxy
          exact Or.inr ⟨rfl, by omega⟩
        · exfalso
          have : (y + 1) * 10 ^ m.length ≤ x * 10 ^ m.length := Nat.mul_le_mul_right _ hxy
          rw [Nat.add_mul] at this
          omega

theorem digitsLoop_spec (max fuel d : Nat) (hd : 1 ≤ d) (hf : max ≤ fuel + d) : d ≤ digitsLoop max fuel d ∧ max < 10 ^ digitsLoop max fuel d ∧ ∀ k, d ≤ k → k < digitsLoop max fuel d → 10 ^ k ≤ max := by
  induction fuel generalizing d with
  | zero =>
    have : d < 10 ^ d := Nat.lt_pow_self (by omega)
    exact ⟨Nat.le_refl _, by simp only [digitsLoop]; omega, fun k h1 h2 => by simp only [digitsLoop] at h2; omega⟩
  | succ fuel ih =>
    have hp : 0 < 10 ^ d := Nat.pow_pos (by omega)
    simp only [digitsLoop]
    split
    · rename_i h
      have := ih (d + 1) (by omega) (by omega)
      refine ⟨by omega, this.2.1, fun k h1 h2 => ?_⟩
      by_cases e : k = d
      · subst e; omega
      · exact this.2.2 k (by omega) h2
    · exact ⟨Nat.le_refl _, by omega, fun k h1 h2 => by omega⟩

/-- **C129.** Different lines have different output files. -/
theorem names_distinct (d a b : Nat) (h : name d a = name d b) : a = b := by
  rw [← name_value d a, h, name_value]

/-- **C129.** Up to the given number of jobs (or, without it, the number of lines) the names have the same length and sort as the lines do; and there are no more digits than needed for that, or three without a given number. -/
theorem names_sorted (maxjobs : Option Nat) (lines a b : Nat) (ha : a ≤ maxjobs.getD lines) (hb : b ≤ maxjobs.getD lines) :
    let d := digits maxjobs lines
    (name d a).length = d ∧ (name d a < name d b ↔ a < b) ∧ (∀ d', 1 ≤ d' → (maxjobs = none → 3 ≤ d') → maxjobs.getD lines < 10 ^ d' → d ≤ d') := by
  intro d
  have hd : (match maxjobs with | some _ => 1 | none => 3) ≤ d ∧ maxjobs.getD lines < 10 ^ d ∧ ∀ k, (match maxjobs with | some _ => 1 | none => 3) ≤ k → k < d → 10 ^ k ≤ maxjobs.getD lines := by
    cases maxjobs with
    | some m => exact digitsLoop_spec m m 1 (by omega) (by omega)
    | none => exact digitsLoop_spec lines lines 3 (by omega) (by omega)
  have h1 : 1 ≤ d := by cases maxjobs <;> simp only [] at hd <;> omega
  have la := name_length (d := d) (n := a) h1 (by omega)
  have lb := name_length (d := d) (n := b) h1 (by omega)
  refine ⟨la, ?_, ?_⟩
  · rw [lex_iff _ _ (by rw [la, lb]) (name_digits d a) (name_digits d b), name_value, name_value]
  · intro d' k1 k2 k3
    apply Nat.le_of_not_lt
    intro hlt
    have := hd.2.2 d' (by cases maxjobs <;> simp only [] <;> first | exact k1 | exact k2 rfl) hlt
    omega

example : name (digits none 7) 7 = [0, 0, 7] ∧ name (digits (some 10) 7) 7 = [0, 7] ∧ name (digits none 1000) 7 = [0, 0, 0, 7] := by decide +kernel

/-- **C129.** With `maxjobs`, a job whose output is there is not run again however many lines are added. -/
theorem finished_not_rerun (m : Nat) (have_ : List Nat → Bool) (lines lines' : Nat) (possibles : List (Nat × Text)) (n : Nat) (hfin : have_ (name (digits (some m) lines) n) = true) (cmd : Text) :
    (name (digits (some m) lines') n, cmd) ∉ jobs (some m) have_ lines' possibles := by
  intro h
  unfold jobs at h
  simp only [List.mem_map, List.mem_filter, Prod.mk.injEq] at h
  obtain ⟨x, ⟨_, h1⟩, h2, _⟩ := h
  rw [names_distinct _ _ _ h2] at h1
  have : digits (some m) lines' = digits (some m) lines := rfl
  rw [this, hfin] at h1
  cases h1

/-- **C129.** Exactly the lines that are commands and have no output file are run. -/
theorem jobs_spec (maxjobs : Option Nat) (have_ : List Nat → Bool) (lines : Nat) (possibles : List (Nat × Text)) (n : Nat) (cmd : Text) :
    (name (digits maxjobs lines) n, cmd) ∈ jobs maxjobs have_ lines possibles ↔ (n, cmd) ∈ possibles ∧ have_ (name (digits maxjobs lines) n) = false := by
  unfold jobs
  simp only [List.mem_map, List.mem_filter, Prod.mk.injEq]
  constructor
  · rintro ⟨x, ⟨h1, h2⟩, h3, h4⟩
    have := names_distinct _ _ _ h3
    subst this
    subst h4
    exact ⟨h1, by simpa using h2⟩
  · rintro ⟨h1, h2⟩
    exact ⟨(n, cmd), ⟨h1, by simp [h2]⟩, rfl, rfl⟩

/-- **C129.** False without `maxjobs`: when the file grows from 999 to 1000 lines, a job whose output is there is run again. -/
theorem finished_rerun_false : let have_ := fun o => decide (o = name (digits none 999) 1)
    jobs none have_ 999 [(1, "a".toList)] = [] ∧ jobs none have_ 1000 [(1, "a".toList)] = [([0, 0, 0, 1], "a".toList)] := by decide +kernel

/-- **C129.** The documented number of digits, `max(3, ceiling(log_10(#lines)))`, is not the one used at powers of ten: for 1000 lines that would be 3. -/
theorem documented_digits_false : (1000 : Nat) = 10 ^ 3 ∧ digits none 1000 = 4 := by decide +kernel

/-! ## The commands -/

/-- **C130.** A job has the number of its line, counting every line from 1; the lines beginning with `#` are no jobs, all others are, in order. -/
theorem read_lines (walk : Defs → Defs) (ls : List Text) (n : Nat) (defs : Defs) (js : List (Nat × Text)) (h : read walk ls n defs = some js) :
    js.map Prod.fst = (ls.zipIdx (n + 1)).filterMap fun x => if "#".toList.isPrefixOf x.1 then none else some x.2 := by
  induction ls generalizing n defs js with
  | nil => simp only [read, Option.some.injEq] at h; subst h; rfl
  | cons l ls ih =>
    rw [List.zipIdx_cons, List.filterMap_cons]
    unfold read at h
    by_cases h1 : "#define".toList.isPrefixOf l = true
    · have h2 : "#".toList.isPrefixOf l = true := by
        rw [List.isPrefixOf_iff_prefix] at h1 ⊢
        exact List.IsPrefix.trans ⟨"define".toList, by decide⟩ h1
      simp only [h1, if_true] at h
      simp only [h2, if_true]
      generalize parseDefine l = o at h
      cases o with
      | none => cases h
      | some d => exact ih _ _ _ h
    · by_cases h2 : "#".toList.isPrefixOf l = true
      · simp only [h1, h2, if_true] at h
        simp only [h2, if_true]
        exact ih _ _ _ h
      · simp only [h1, h2] at h
        simp only [h2]
        generalize hr : read walk ls (n + 1) defs = o at h
        cases o with
        | none => cases h
        | some js' =>
          simp only [Option.map_some, Bool.false_eq_true, if_false, Option.some.injEq] at h
          subst h
          simp only [List.map_cons, Bool.false_eq_true, if_false]
          rw [ih _ _ _ hr]

theorem unparts_parts (t : Text) : unparts (parts t) = t := by
  induction t with
  | nil => rfl
  | cons c t ih =>
    simp only [parts]
    split
    · simp only [unparts, List.cons_append] at ih ⊢
      rw [ih]
    · simp only [unparts, List.nil_append, List.flatMap_cons, List.cons_append] at ih ⊢
      rw [ih]

/-- Words joined by characters between words. -/
def ofWords (w : Text) (rest : List (Char × Text)) : Text := unparts (w, rest)

theorem parts_append (a : Text) (c : Char) (hc : isWord c = false) (b : Text) : parts (a ++ c :: b) = ((parts a).1, (parts a).2 ++ (c, (parts b).1) :: (parts b).2) := by
  induction a with
  | nil => simp [parts, hc]
  | cons x a ih =>
    simp only [List.cons_append, parts, ih]
    split <;> rfl

/-- The parts of a text whose words were replaced by texts. -/
theorem parts_unparts (w : Text) (rest : List (Char × Text)) (hr : ∀ x ∈ rest, isWord x.1 = false) :
    parts (unparts (w, rest)) = ((parts w).1, (parts w).2 ++ rest.flatMap fun x => (x.1, (parts x.2).1) :: (parts x.2).2) := by
  induction rest generalizing w with
  | nil => simp [unparts]
  | cons x rest ih =>
    have h1 := hr x List.mem_cons_self
    have e : unparts (w, x :: rest) = w ++ x.1 :: unparts (x.2, rest) := by simp [unparts]
    rw [e, parts_append _ _ h1, ih _ (fun y hy => hr y (List.mem_cons_of_mem _ hy))]
    simp

theorem parts_seps (t : Text) : ∀ x ∈ (parts t).2, isWord x.1 = false := by
  induction t with
  | nil => simp [parts]
  | cons c t ih =>
    simp only [parts]
    split
    · exact ih
    · rename_i h
      intro x hx
      rcases List.mem_cons.1 hx with rfl | hx
      · simpa using h
      · exact ih x hx

/-- The words of a text. -/
def words (t : Text) : List Text := (parts t).1 :: (parts t).2.map Prod.snd

/-- Replace each word by a text, all at once. -/
def replaceWords (f : Text → Text) (t : Text) : Text := unparts (f (parts t).1, (parts t).2.map fun x => (x.1, f x.2))

/-- `parts`, of a word, is the word. -/
theorem parts_word (w : Text) (h : ∀ c ∈ w, isWord c = true) : parts w = (w, []) := by
  induction w with
  | nil => rfl
  | cons c w ih =>
    simp only [parts]
    rw [ih (fun x hx => h x (List.mem_cons_of_mem _ hx)), h c List.mem_cons_self]
    rfl

theorem parts_words (t : Text) : ∀ w ∈ words t, ∀ c ∈ w, isWord c = true := by
  induction t with
  | nil => simp [words, parts]
  | cons c t ih =>
    unfold words at ih ⊢
    simp only [parts]
    split
    · rename_i h
      intro w hw
      rcases List.mem_cons.1 hw with rfl | hw
      · intro x hx
        rcases List.mem_cons.1 hx with rfl | hx
        · exact h
        · exact ih _ List.mem_cons_self x hx
      · exact ih w (List.mem_cons_of_mem _ hw)
    · intro w hw
      simp only [List.map_cons] at hw
      rcases List.mem_cons.1 hw with rfl | hw
      · simp
      · exact ih w hw

theorem substVar_eq (var val t : Text) : substVar var val t = replaceWords (fun w => if w = var then val else w) t := rfl

theorem unparts_append (p : Text × List (Char × Text)) (q : List (Char × Text)) : unparts (p.1, p.2 ++ q) = unparts p ++ unparts ([], q) := by simp [unparts]

/-- Replacing twice is replacing once by the replaced replacement. -/
theorem replace_replace (f g : Text → Text) (t : Text) : replaceWords g (replaceWords f t) = replaceWords (fun w => replaceWords g (f w)) t := by
  have hs := parts_seps t
  rw [show replaceWords g (replaceWords f t) = unparts (g (parts (replaceWords f t)).1, (parts (replaceWords f t)).2.map fun x => (x.1, g x.2)) from rfl]
  have hp : parts (replaceWords f t) = ((parts (f (parts t).1)).1, (parts (f (parts t).1)).2 ++ (parts t).2.flatMap fun x => (x.1, (parts (f x.2)).1) :: (parts (f x.2)).2) := by
    unfold replaceWords
    rw [parts_unparts _ _ (by
      intro x hx
      obtain ⟨y, hy, rfl⟩ := List.mem_map.1 hx
      exact hs y hy)]
    simp [List.flatMap_map]
  rw [hp]
  simp only [List.map_append]
  rw [unparts_append (g (parts (f (parts t).1)).1, _)]
  unfold replaceWords
  conv => rhs; rw [show ∀ (x : Text) (r : List (Char × Text)), unparts (x, r) = x ++ unparts ([], r) from fun x r => by simp [unparts]]
  congr 1
  generalize (parts t).2 = rest
  induction rest with
  | nil => rfl
  | cons x rest ih =>
    simp only [unparts, List.nil_append, List.map_cons, List.flatMap_cons, List.map_append, List.flatMap_append] at ih ⊢
    rw [ih]
    simp

theorem replace_id (f : Text → Text) (t : Text) (h : ∀ w ∈ words t, f w = w) : replaceWords f t = t := by
  unfold replaceWords
  have h1 := h (parts t).1 (by simp [words])
  have h2 : (parts t).2.map (fun x => (x.1, f x.2)) = (parts t).2 := by
    conv => rhs; rw [← List.map_id (parts t).2]
    apply List.map_congr_left
    intro x hx
    rw [h x.2 (by simp only [words, List.mem_cons, List.mem_map]; exact Or.inr ⟨x, hx, rfl⟩)]
    rfl
  rw [h1, h2]
  exact unparts_parts t

theorem replace_congr (f g : Text → Text) (t : Text) (h : ∀ w ∈ words t, f w = g w) : replaceWords f t = replaceWords g t := by
  unfold replaceWords
  have h1 := h (parts t).1 (by simp [words])
  have h2 : (parts t).2.map (fun x => (x.1, f x.2)) = (parts t).2.map (fun x => (x.1, g x.2)) := by
    apply List.map_congr_left
    intro x hx
    rw [h x.2 (by simp only [words, List.mem_cons, List.mem_map]; exact Or.inr ⟨x, hx, rfl⟩)]
  rw [h1, h2]

/-- What a definition says of a word. -/
def meaning (defs : Defs) (w : Text) : Text :=
  match defs.find? (fun d => d.1 = w) with
  | some d => d.2
  | none => w

/-- **C130.** If no replacement contains a defined word, the words of a command are replaced by what is defined for them, all at once, whatever the order in which the hash is walked. -/
theorem defines_partial (order : Defs) (hn : (order.map Prod.fst).Nodup) (hr : ∀ d ∈ order, ∀ w ∈ words d.2, w ∉ order.map Prod.fst) (t : Text) :
    substAll order t = replaceWords (meaning order) t := by
  unfold substAll
  induction order generalizing t with
  | nil => exact (replace_id _ _ (fun _ _ => rfl)).symm
  | cons d order ih =>
    simp only [List.map_cons, List.nodup_cons] at hn
    rw [List.foldl_cons, ih hn.2 (fun e he w hw hm => hr e (List.mem_cons_of_mem _ he) w hw (List.mem_cons_of_mem _ hm)), substVar_eq, replace_replace]
    apply replace_congr
    intro w hw
    by_cases h : w = d.1
    · subst h
      simp only [if_true, meaning, List.find?_cons, decide_true]
      apply replace_id
      intro v hv
      have := hr d List.mem_cons_self v hv
      simp only [List.map_cons, List.mem_cons, not_or] at this
      have : order.find? (fun e => decide (e.1 = v)) = none := by
        rw [List.find?_eq_none]
        intro e he
        simp only [decide_eq_true_eq]
        intro x
        exact this.2 (List.mem_map.2 ⟨e, he, x⟩)
      show (match order.find? (fun e => decide (e.1 = v)) with | some d => d.2 | none => v) = v
      rw [this]
    · rw [if_neg h]
      have hd : decide (d.1 = w) = false := decide_eq_false (fun e => h e.symm)
      simp only [meaning, List.find?_cons, hd]
      have hp := parts_word w (parts_words t w hw)
      unfold replaceWords
      rw [hp]
      simp [unparts, meaning]

/-- So the order does not matter. -/
theorem order_irrelevant_partial (order order' : Defs) (hp : order.Perm order') (hn : (order.map Prod.fst).Nodup) (hr : ∀ d ∈ order, ∀ w ∈ words d.2, w ∉ order.map Prod.fst) (t : Text) : substAll order t = substAll order' t := by
  have hpm := hp.map Prod.fst
  rw [defines_partial order hn hr, defines_partial order' (hpm.nodup_iff.1 hn) (fun d hd w hw hm => hr d (hp.mem_iff.2 hd) w hw (hpm.mem_iff.2 hm))]
  apply replace_congr
  intro w _
  unfold meaning
  have key : ∀ (l l' : Defs), l.Perm l' → (l.map Prod.fst).Nodup → ∀ e, l.find? (fun d => decide (d.1 = w)) = some e → l'.find? (fun d => decide (d.1 = w)) = some e := by
    intro l l' hp hn e he
    have h1 := List.mem_of_find?_eq_some he
    have h2 := List.find?_some he
    cases h' : l'.find? (fun d => decide (d.1 = w)) with
    | none => exact absurd h2 (List.find?_eq_none.1 h' e (hp.mem_iff.1 h1))
    | some e' =>
      have h3 := List.mem_of_find?_eq_some h'
      have h4 := List.find?_some h'
      have h5 := hp.mem_iff.2 h3
      have : e = e' := by
        simp only [decide_eq_true_eq] at h2 h4
        obtain ⟨a, ha⟩ := List.getElem?_of_mem h1
        obtain ⟨b, hb⟩ := List.getElem?_of_mem h5
        have hab : a = b := by
          have hla : a < (l.map Prod.fst).length := by rw [List.length_map]; exact (List.getElem?_eq_some_iff.1 ha).1
          apply (List.getElem?_inj hla hn).1
          rw [List.getElem?_map, List.getElem?_map, ha, hb]
          simp [h2, h4]
        subst hab
        exact Option.some.inj (ha.symm.trans hb)
      rw [this]
  cases h : order.find? (fun d => decide (d.1 = w)) with
  | some e => rw [key _ _ hp hn e h]
  | none =>
    cases h' : order'.find? (fun d => decide (d.1 = w)) with
    | none => rfl
    | some e =>
      rw [key _ _ hp.symm (hpm.nodup_iff.1 hn) e h'] at h
      cases h

/-- `OUT` is replaced, `OUTER` is not. -/
example : substAll [("OUT".toList, "/tmp/x y".toList), ("N".toList, "10".toList)] "run N OUT/OUTER -N".toList = "run 10 /tmp/x y/OUTER -10".toList := by decide +kernel
example : (∀ d ∈ ([("OUT".toList, "/tmp/x y".toList), ("N".toList, "10".toList)] : Defs), ∀ w ∈ words d.2, w ∉ [("OUT".toList, "/tmp/x y".toList), ("N".toList, "10".toList)].map Prod.fst) := by decide +kernel

/-- **C130.** False in general: with `#define A B` and `#define B C`, the command `A` becomes `C` or `B`, depending on the order of the hash (random in each run). -/
theorem define_order_false : substAll [("A".toList, "B".toList), ("B".toList, "C".toList)] "A".toList = "C".toList ∧ substAll [("B".toList, "C".toList), ("A".toList, "B".toList)] "A".toList = "B".toList := by decide +kernel

/-- A whole file: line 2 is a comment, line 3 a definition. -/
example : read id ["a".toList, "# b".toList, "#define x  y".toList, "do x".toList] 0 [] = some [(1, "a".toList), (4, "do y".toList)] := by decide +kernel

/-! ## Running one job -/

variable {C : Type}

def Inv (s : Run C) : Prop :=
  (∀ c, s.out = some c → ∃ i, (i, true, c) ∈ s.log) ∧ ∀ i c, s.phase i = .ended c ∨ s.phase i = .renaming c → (i, true, c) ∈ s.log

theorem inv_step (s : Run C) (m : Move C) (h : Inv s) : Inv (step s m) := by
  obtain ⟨h1, h2⟩ := h
  cases m with
  | check i =>
    simp only [step]
    split
    · refine ⟨h1, fun j c hj => h2 j c ?_⟩
      simp only [set] at hj
      split at hj
      · split at hj <;> simp at hj
      · exact hj
    · exact ⟨h1, h2⟩
  | exit i ok c =>
    simp only [step]
    split
    · refine ⟨fun c' hc => ?_, fun j c' hj => ?_⟩
      · obtain ⟨k, hk⟩ := h1 c' hc
        exact ⟨k, List.mem_cons_of_mem _ hk⟩
      · simp only [set] at hj
        split at hj
        · rename_i e
          subst e
          cases ok
          · simp at hj
          · simp only [if_true, Phase.ended.injEq, reduceCtorEq, or_false] at hj
            subst hj
            exact List.mem_cons_self
        · exact List.mem_cons_of_mem _ (h2 j c' hj)
    · exact ⟨h1, h2⟩
  | look i =>
    simp only [step]
    split
    · rename_i c hc
      refine ⟨h1, fun j c' hj => ?_⟩
      simp only [set] at hj
      split at hj
      · rename_i e
        subst e
        split at hj
        · simp at hj
        · simp only [Phase.renaming.injEq, reduceCtorEq, false_or] at hj
          subst hj
          exact h2 _ _ (Or.inl hc)
      · exact h2 j c' hj
    · exact ⟨h1, h2⟩
  | rename i =>
    simp only [step]
    split
    · rename_i c hc
      refine ⟨fun c' h => ?_, fun j c' hj => ?_⟩
      · simp only [Option.some.injEq] at h
        subst h
        exact ⟨i, h2 i c (Or.inr hc)⟩
      · simp only [set] at hj
        split at hj
        · simp at hj
        · exact h2 j c' hj
    · exact ⟨h1, h2⟩

theorem inv_run (ms : List (Move C)) (s : Run C) (h : Inv s) : Inv (run s ms) := by
  induction ms generalizing s with
  | nil => exact h
  | cons m ms ih => exact ih _ (inv_step s m h)

theorem out_stays (ms : List (Move C)) (s : Run C) (h : s.out.isSome) : (run s ms).out.isSome := by
  induction ms generalizing s with
  | nil => exact h
  | cons m ms ih =>
    apply ih
    cases m <;> simp only [step] <;> split <;> first | exact h | rfl

/-- **C131.** However many processes run the same job, and whenever they are killed: the output file is missing or is the complete output of a run that ended with status 0; and once there it stays. -/
theorem output_whole (ms ms' : List (Move C)) : (∀ c, (run {} ms).out = some c → ∃ i, (i, true, c) ∈ (run {} ms).log) ∧ ((run {} ms).out.isSome → (run {} (ms ++ ms')).out.isSome) := by
  refine ⟨(inv_run ms {} ⟨by simp, by simp⟩).1, fun h => ?_⟩
  have e : run {} (ms ++ ms') = run (run ({} : Run C) ms) ms' := List.foldl_append
  rw [e]
  exact out_stays ms' _ h

/-- The whole of `rebuild_thing_do` of one process without others in between. -/
def alone (i : Nat) (ok : Bool) (c : C) : List (Move C) := [.check i, .exit i ok c, .look i, .rename i]

/-- **C131.** When the processes run one after the other: the first that succeeds makes the output, and none is run afterwards. -/
theorem output_alone_partial (s : Run C) (i : Nat) (hi : s.phase i = .idle) (ok : Bool) (c : C) :
    let s' := run s (alone i ok c)
    (∀ c₀, s.out = some c₀ → s'.out = some c₀ ∧ s'.log = s.log) ∧ (s.out = none → s'.out = (if ok then some c else none) ∧ s'.log = (i, ok, c) :: s.log) := by
  cases ho : s.out with
  | none => cases ok <;> simp [alone, run, step, hi, set, ho]
  | some c₀ => simp [alone, run, step, hi, set, ho]

/-- Two processes run the same job; the first to end with success gives the output. -/
example : let s := run {} [.check 0, .check 1, .exit 1 false "bad", .exit 0 true "good", .look 0, .rename 0, .check 2]
    s.out = some "good" ∧ s.log.length = 2 := by decide

/-- **C131.** False when two run at once: an output that was there is replaced, in spite of the second look. -/
theorem output_replaced_false (a b : C) : let ms : List (Move C) := [.check 0, .check 1, .exit 0 true a, .exit 1 true b, .look 0, .look 1, .rename 0]
    (run {} ms).out = some a ∧ (run {} (ms ++ [.rename 1])).out = some b := ⟨rfl, rfl⟩

end Verif.Batch.Jobs
