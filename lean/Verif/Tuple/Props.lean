import Verif.Tuple.Model

/-! # Properties of tuples (C26)

The meaning of a tuple with wildcards: each field is a value or nothing (`none`, "any"). -/

namespace Verif.Tuple

open Verif.HashFn

variable {α : Type}

/-- The field types behave: `==` is an equivalence, `<` a strict weak order with the same equivalence, and hashes respect `==`. -/
structure Field.Ok (f : Field α) : Prop where
  refl : ∀ a, f.eq a a = true
  symm : ∀ a b, f.eq a b = true → f.eq b a = true
  trans : ∀ a b c, f.eq a b = true → f.eq b c = true → f.eq a c = true
  hash : ∀ a b, f.eq a b = true → f.hash a = f.hash b
  asymm : ∀ a b, f.lt a b = true → f.lt b a = false
  ltTrans : ∀ a b c, f.lt a b = true → f.lt b c = true → f.lt a c = true
  equiv : ∀ a b, (f.lt a b = false ∧ f.lt b a = false) ↔ f.eq a b = true

/-! ## Meaning -/

/-- Same field: both anything, or equal values. -/
def OSame (f : Field α) : Option α → Option α → Prop
  | none, none => True
  | some x, some y => f.eq x y = true
  | _, _ => False

/-- Field order: values as they are, "any" after every value. -/
def OLess (f : Field α) : Option α → Option α → Prop
  | some x, some y => f.lt x y = true
  | some _, none => True
  | none, _ => False

def Same (f : Field α) : List (Option α) → List (Option α) → Prop
  | [], [] => True
  | a :: as, b :: bs => OSame f a b ∧ Same f as bs
  | _, _ => False

/-- Lexicographic order. -/
def Less (f : Field α) : List (Option α) → List (Option α) → Prop
  | a :: as, b :: bs => OLess f a b ∨ (OSame f a b ∧ Less f as bs)
  | _, _ => False

/-- What a `BitsetAnyTuple` means. -/
def view (data : List α) (any : List Bool) : List (Option α) := List.zipWith (fun x a => if a then none else some x) data any

/-- What a tuple of `AnyPair`s means. -/
def viewPair (l : List (AnyPair α)) : List (Option α) := l.map fun p => if p.any then none else some p.val

/-- A `BitsetAnyTuple` has one bit for each field. -/
def AnyTuple.Wf (t : AnyTuple α) : Prop := t.any.length = t.data.length

def AnyTuple.view (t : AnyTuple α) : List (Option α) := Tuple.view t.data t.any

/-! ## Facts about meanings -/

section
variable {f : Field α} (ok : f.Ok)
include ok

theorem oSame_refl (a : Option α) : OSame f a a := by cases a <;> simp [OSame, ok.refl]
theorem oSame_symm {a b : Option α} (h : OSame f a b) : OSame f b a := by
  cases a <;> cases b <;> simp only [OSame] at * <;> first | exact ok.symm _ _ h | trivial
theorem oSame_trans {a b c : Option α} (h : OSame f a b) (h' : OSame f b c) : OSame f a c := by
  cases a <;> cases b <;> cases c <;> simp only [OSame] at * <;> first | exact ok.trans _ _ _ h h' | trivial

theorem oLess_asymm {a b : Option α} (h : OLess f a b) : ¬ OLess f b a := by
  cases a <;> cases b <;> simp only [OLess] at * <;> first | (rw [ok.asymm _ _ h]; simp) | simp_all
theorem oLess_trans {a b c : Option α} (h : OLess f a b) (h' : OLess f b c) : OLess f a c := by
  cases a <;> cases b <;> cases c <;> simp only [OLess] at * <;> first | exact ok.ltTrans _ _ _ h h' | trivial
theorem oLess_or_same (a b : Option α) : OLess f a b ∨ OLess f b a ∨ OSame f a b := by
  cases a with
  | none => cases b <;> simp [OLess, OSame]
  | some x =>
    cases b with
    | none => simp [OLess]
    | some y =>
      simp only [OLess, OSame, ← ok.equiv]
      cases f.lt x y <;> cases f.lt y x <;> simp
theorem oLess_not_same {a b : Option α} (h : OLess f a b) : ¬ OSame f a b := by
  cases a <;> cases b <;> simp only [OLess, OSame, ← ok.equiv] at * <;> simp_all
theorem oLess_congr {a a' b b' : Option α} (h : OSame f a a') (h' : OSame f b b') (hl : OLess f a b) : OLess f a' b' := by
  rcases oLess_or_same ok a' b' with h1 | h1 | h1
  · exact h1
  · exfalso
    -- a' after b'
    rcases oLess_or_same ok a b' with h2 | h2 | h2
    · have := oLess_trans ok h1 (b := a') (c := a') ?_
      · exact absurd (oSame_refl ok a') (oLess_not_same ok (by
          rcases oLess_or_same ok a a' with h3 | h3 | h3
          · exact absurd h (oLess_not_same ok h3)
          · exact absurd (oSame_symm ok h) (oLess_not_same ok h3)
          · exact absurd (oSame_refl ok a') (fun _ => by
              have h4 := oLess_trans ok h2 h1
              exact absurd h (oLess_not_same ok h4))))
      · have h4 := oLess_trans ok h2 h1
        exact absurd h (oLess_not_same ok h4)
    · have h3 := oLess_trans ok h2 hl
      exact absurd (oSame_symm ok h') (oLess_not_same ok h3)
    · have h3 : OSame f a b := oSame_trans ok h2 (oSame_symm ok h')
      exact absurd h3 (oLess_not_same ok hl)
  · exact absurd (oSame_trans ok h (oSame_trans ok h1 (oSame_symm ok h'))) (oLess_not_same ok hl)

theorem same_refl : ∀ a : List (Option α), Same f a a
  | [] => trivial
  | x :: xs => ⟨oSame_refl ok x, same_refl xs⟩
theorem same_symm : ∀ {a b : List (Option α)}, Same f a b → Same f b a
  | [], [], _ => trivial
  | _ :: _, _ :: _, h => ⟨oSame_symm ok h.1, same_symm h.2⟩
  | [], _ :: _, h => h
  | _ :: _, [], h => h
theorem same_trans : ∀ {a b c : List (Option α)}, Same f a b → Same f b c → Same f a c
  | [], [], [], _, _ => trivial
  | _ :: _, _ :: _, _ :: _, h, h' => ⟨oSame_trans ok h.1 h'.1, same_trans h.2 h'.2⟩
  | [], [], _ :: _, _, h => h
  | _ :: _, _ :: _, [], _, h => h
  | [], _ :: _, _, h, _ => h.elim
  | _ :: _, [], _, h, _ => h.elim

theorem less_asymm : ∀ {a b : List (Option α)}, Less f a b → ¬ Less f b a
  | _ :: as, _ :: bs, h, h' => by
    rcases h with h | ⟨h1, h2⟩
    · rcases h' with h' | ⟨h1', _⟩
      · exact oLess_asymm ok h h'
      · exact oLess_not_same ok h (oSame_symm ok h1')
    · rcases h' with h' | ⟨_, h2'⟩
      · exact oLess_not_same ok h' (oSame_symm ok h1)
      · exact less_asymm h2 h2'
theorem less_trans : ∀ {a b c : List (Option α)}, Less f a b → Less f b c → Less f a c
  | _ :: _, _ :: _, _ :: _, h, h' => by
    rcases h with h | ⟨h1, h2⟩
    · rcases h' with h' | ⟨h1', _⟩
      · exact .inl (oLess_trans ok h h')
      · exact .inl (oLess_congr ok (oSame_refl ok _) h1' h)
    · rcases h' with h' | ⟨h1', h2'⟩
      · exact .inl (oLess_congr ok (oSame_symm ok h1) (oSame_refl ok _) h')
      · exact .inr ⟨oSame_trans ok h1 h1', less_trans h2 h2'⟩
theorem less_equiv : ∀ {a b : List (Option α)}, a.length = b.length → ((¬ Less f a b ∧ ¬ Less f b a) ↔ Same f a b)
  | [], [], _ => by simp [Less, Same]
  | x :: xs, y :: ys, h => by
    have ih := less_equiv (a := xs) (b := ys) (by simpa using h)
    constructor
    · rintro ⟨h1, h2⟩
      rcases oLess_or_same ok x y with h3 | h3 | h3
      · exact absurd (.inl h3) h1
      · exact absurd (.inl h3) h2
      · exact ⟨h3, ih.1 ⟨fun h => h1 (.inr ⟨h3, h⟩), fun h => h2 (.inr ⟨oSame_symm ok h3, h⟩)⟩⟩
    · rintro ⟨h1, h2⟩
      obtain ⟨h3, h4⟩ := ih.2 h2
      refine ⟨?_, ?_⟩
      · rintro (h | ⟨_, h⟩)
        · exact oLess_not_same ok h h1
        · exact h3 h
      · rintro (h | ⟨_, h⟩)
        · exact oLess_not_same ok h (oSame_symm ok h1)
        · exact h4 h
  | [], _ :: _, h => by simp at h
  | _ :: _, [], h => by simp at h

/-! ## The code computes the meaning -/

end

section
variable (f : Field α)

theorem drop_cons {any : List Bool} {pos n : Nat} (h : (any.drop pos).length = n + 1) :
    any.drop pos = bit any pos :: any.drop (pos + 1) := by
  have hl : pos < any.length := by rw [List.length_drop] at h; omega
  rw [List.drop_eq_getElem_cons hl]
  congr 1
  unfold bit
  rw [List.getD_eq_getElem?_getD, List.getElem?_eq_getElem hl]; rfl

theorem equal_iff (any : List Bool) : ∀ (pos : Nat) (a b : List α), (any.drop pos).length = a.length → a.length = b.length →
    (bitsetAnyEqual f any pos a b = true ↔ Same f (view a (any.drop pos)) (view b (any.drop pos)))
  | pos, [], [], _, _ => by simp [bitsetAnyEqual, view, Same]
  | pos, x :: xs, y :: ys, h, h' => by
    rw [List.length_cons] at h
    rw [drop_cons h]
    have ih := equal_iff any (pos + 1) xs ys (by rw [List.length_drop] at *; omega) (by simpa using h')
    simp only [bitsetAnyEqual, view, List.zipWith_cons_cons, Same]
    unfold view at ih
    rw [← ih]
    cases bit any pos <;> simp [OSame]
  | pos, [], _ :: _, _, h' => by simp at h'
  | pos, _ :: _, [], _, h' => by simp at h'

theorem hash_eq_of_same {f : Field α} (ok : f.Ok) (any : List Bool) : ∀ (pos : Nat) (a b : List α),
    bitsetAnyEqual f any pos a b = true → bitsetAnyHash f any pos a = bitsetAnyHash f any pos b
  | pos, [], [], _ => rfl
  | pos, [x], [y], h => by
    simp only [bitsetAnyEqual, bitsetAnyHash] at *
    cases hb : bit any pos with
    | true => rfl
    | false =>
      rw [hb] at h
      simp only [Bool.false_or, ite_eq_left_iff] at h
      cases he : f.eq x y with
      | true => simp [ok.hash x y he]
      | false => rw [he] at h; simp at h
  | pos, x :: x' :: xs, y :: y' :: ys, h => by
    simp only [bitsetAnyEqual, bitsetAnyHash] at *
    have e1 : (if bit any pos then anyHash else f.hash x) = (if bit any pos then anyHash else f.hash y) := by
      cases hb : bit any pos with
      | true => rfl
      | false =>
        rw [hb] at h
        cases he : f.eq x y with
        | true => simp [ok.hash x y he]
        | false => rw [he] at h; simp at h
    have h2 : (if (bit any (pos + 1) || f.eq x' y') = true then bitsetAnyEqual f any (pos + 1 + 1) xs ys else false) = true := by
      split at h
      · exact h
      · cases h
    have e2 : (if bit any (pos + 1) then anyHash else f.hash x') = (if bit any (pos + 1) then anyHash else f.hash y') := by
      cases hb : bit any (pos + 1) with
      | true => rfl
      | false =>
        rw [hb] at h2
        cases he : f.eq x' y' with
        | true => simp [ok.hash x' y' he]
        | false => rw [he] at h2; simp at h2
    have h3 : bitsetAnyEqual f any (pos + 2) xs ys = true := by
      split at h2
      · exact h2
      · cases h2
    rw [e1, e2, hash_eq_of_same ok any (pos + 2) xs ys h3]
  | pos, [], _ :: _, h => by simp [bitsetAnyEqual] at h
  | pos, _ :: _, [], h => by simp [bitsetAnyEqual] at h
  | pos, [_], _ :: _ :: _, h => by simp [bitsetAnyEqual] at h
  | pos, _ :: _ :: _, [_], h => by simp [bitsetAnyEqual] at h

theorem less_iff {f : Field α} (ok : f.Ok) (l r : List Bool) : ∀ (pos : Nat) (a b : List α), (l.drop pos).length = a.length →
    (r.drop pos).length = b.length → a.length = b.length →
    (bitsetAnyLess f l r pos a b = true ↔ Less f (view a (l.drop pos)) (view b (r.drop pos)))
  | pos, [], [], _, _, _ => by simp [bitsetAnyLess, view, Less]
  | pos, x :: xs, y :: ys, h, h', hab => by
    rw [List.length_cons] at h h'
    rw [drop_cons h, drop_cons h']
    have ih := less_iff ok l r (pos + 1) xs ys (by rw [List.length_drop] at *; omega) (by rw [List.length_drop] at *; omega) (by simpa using hab)
    simp only [bitsetAnyLess, view, List.zipWith_cons_cons, Less]
    unfold view at ih
    rw [← ih]
    have he := ok.equiv x y
    have ha := ok.asymm x y
    cases bit l pos <;> cases bit r pos <;> simp [OSame, OLess]
    rw [← he]
    cases h1 : f.lt x y <;> cases h2 : f.lt y x <;> simp
  | pos, [], _ :: _, _, _, h' => by simp at h'
  | pos, _ :: _, [], _, _, h' => by simp at h'

end

/-! ## C26 -/

section
variable {f : Field α} (ok : f.Ok)

theorem eq_view (f : Field α) {a b : AnyTuple α} (ha : a.Wf) (hb : b.Wf) (hl : a.data.length = b.data.length) :
    a.eq f b = true ↔ Same f a.view b.view := by
  have key : ∀ (d e : List α) (p q : List Bool), p.length = d.length → q.length = e.length → Same f (view d p) (view e q) → p = q := by
    intro d
    induction d with
    | nil =>
      intro e p q hp hq h
      have : p = [] := List.length_eq_zero_iff.1 hp
      subst this
      cases e with
      | nil => exact (List.length_eq_zero_iff.1 hq).symm
      | cons y ys =>
        cases q with
        | nil => rfl
        | cons _ _ => simp [view, Same] at h
    | cons x xs ih =>
      intro e p q hp hq h
      cases p with
      | nil => simp at hp
      | cons p0 p =>
        cases e with
        | nil =>
          have : q = [] := List.length_eq_zero_iff.1 hq
          subst this
          simp [view, Same] at h
        | cons y ys =>
          cases q with
          | nil => simp at hq
          | cons q0 q =>
            simp only [view, List.zipWith_cons_cons, Same] at h
            rw [ih ys p q (by simpa using hp) (by simpa using hq) h.2]
            congr 1
            have h1 := h.1
            cases p0 <;> cases q0 <;> simp [OSame] at h1 <;> rfl
  unfold AnyTuple.eq AnyTuple.view
  by_cases h : a.any = b.any
  · rw [if_neg (by simp [h])]
    have := equal_iff f a.any 0 a.data b.data (by rw [List.drop_zero]; exact ha) hl
    rw [List.drop_zero] at this
    rw [this, h]
  · rw [if_pos (by simpa using h)]
    constructor
    · intro h'; cases h'
    · intro h'
      exact absurd (key _ _ _ _ ha hb h') h

theorem lt_view (ok : f.Ok) {a b : AnyTuple α} (ha : a.Wf) (hb : b.Wf) (hl : a.data.length = b.data.length) :
    a.lt f b = true ↔ Less f a.view b.view := by
  have := less_iff ok a.any b.any 0 a.data b.data (by rw [List.drop_zero]; exact ha) (by rw [List.drop_zero]; exact hb) hl
  rw [List.drop_zero, List.drop_zero] at this
  exact this

/-- **C26, equality.** Two tuples with wildcards of the same arity are `==` exactly if at each position both have the wildcard
or both have values and these are equal; what is stored under a wildcard does not matter. -/
theorem anyTuple_eq_iff (f : Field α) (a b : AnyTuple α) (ha : a.Wf) (hb : b.Wf) (hl : a.data.length = b.data.length) :
    a.eq f b = true ↔ Same f a.view b.view := eq_view f ha hb hl

/-- **C26, hash.** Equal tuples with wildcards hash equally. -/
theorem anyTuple_hash (ok : f.Ok) (a b : AnyTuple α) (h : a.eq f b = true) :
    a.hash f = b.hash f := by
  unfold AnyTuple.eq at h
  unfold AnyTuple.hash
  split at h
  · cases h
  · next hne =>
    have : a.any = b.any := by simpa using hne
    rw [← this]
    exact hash_eq_of_same ok a.any 0 a.data b.data h

/-- **C26, order.** On tuples of one arity `<` is a strict weak order, and two tuples are equivalent in it exactly if they are
`==`. -/
theorem anyTuple_order (ok : f.Ok) (n : Nat) :
    (∀ a b : AnyTuple α, a.Wf → b.Wf → a.data.length = n → b.data.length = n → a.lt f b = true → b.lt f a = false) ∧
    (∀ a b c : AnyTuple α, a.Wf → b.Wf → c.Wf → a.data.length = n → b.data.length = n → c.data.length = n →
      a.lt f b = true → b.lt f c = true → a.lt f c = true) ∧
    (∀ a b : AnyTuple α, a.Wf → b.Wf → a.data.length = n → b.data.length = n →
      ((a.lt f b = false ∧ b.lt f a = false) ↔ a.eq f b = true)) := by
  refine ⟨fun a b ha hb hla hlb h => ?_, fun a b c ha hb hc hla hlb hlc h h' => ?_, fun a b ha hb hla hlb => ?_⟩
  · rw [lt_view ok ha hb (by omega)] at h
    rw [← Bool.not_eq_true, lt_view ok hb ha (by omega)]
    exact less_asymm ok h
  · rw [lt_view ok ha hb (by omega)] at h
    rw [lt_view ok hb hc (by omega)] at h'
    rw [lt_view ok ha hc (by omega)]
    exact less_trans ok h h'
  · rw [eq_view f ha hb (by omega), ← less_equiv ok (by
      unfold AnyTuple.view view AnyTuple.Wf at *
      rw [List.length_zipWith, List.length_zipWith]; omega), ← Bool.not_eq_true, ← Bool.not_eq_true, lt_view ok ha hb (by omega),
      lt_view ok hb ha (by omega)]

/-- **C26, wildcards last.** Where two tuples first differ by one having a value and the other the wildcard, the one with the value is less,
whatever the value and whatever follows. -/
theorem anyTuple_any_last (ok : f.Ok) (a b : AnyTuple α) (ha : a.Wf) (hb : b.Wf) (hl : a.data.length = b.data.length)
    (p u v : List (Option α)) (x : α) (hav : a.view = p ++ some x :: u) (hbv : b.view = p ++ none :: v) :
    a.lt f b = true ∧ b.lt f a = false := by
  have h : ∀ p : List (Option α), Less f (p ++ some x :: u) (p ++ none :: v) := by
    intro p
    induction p with
    | nil => exact .inl trivial
    | cons y p ih => exact .inr ⟨oSame_refl ok y, ih⟩
  refine ⟨by rw [lt_view ok ha hb hl, hav, hbv]; exact h p, ?_⟩
  rw [← Bool.not_eq_true, lt_view ok hb ha hl.symm, hav, hbv]
  exact less_asymm ok (h p)

/-! ### Tuples of `AnyPair`s -/

theorem tupleEq_iff (f : Field α) : ∀ a b : List (AnyPair α), tupleEq (anyField f) a b = true ↔ Same f (viewPair a) (viewPair b)
  | [], [] => by simp [tupleEq, viewPair, Same]
  | x :: xs, y :: ys => by
    have ih := tupleEq_iff f xs ys
    simp only [tupleEq, viewPair, List.map_cons, Same, Bool.and_eq_true]
    unfold viewPair at ih
    rw [ih]
    refine and_congr_left fun _ => ?_
    simp only [anyField, AnyPair.eq]
    cases x.any <;> cases y.any <;> simp [OSame]
  | [], _ :: _ => by simp [tupleEq, viewPair, Same]
  | _ :: _, [] => by simp [tupleEq, viewPair, Same]

theorem anyField_ok (ok : f.Ok) : (anyField f).Ok := by
  have hs : ∀ a b : AnyPair α, (anyField f).eq a b = true ↔ OSame f (if a.any then none else some a.val) (if b.any then none else some b.val) := by
    intro a b
    simp only [anyField, AnyPair.eq]
    cases a.any <;> cases b.any <;> simp [OSame]
  have hl : ∀ a b : AnyPair α, (anyField f).lt a b = true ↔ OLess f (if a.any then none else some a.val) (if b.any then none else some b.val) := by
    intro a b
    simp only [anyField, AnyPair.lt]
    cases a.any <;> cases b.any <;> simp [OLess]
  refine ⟨fun a => (hs a a).2 (oSame_refl ok _), fun a b h => (hs b a).2 (oSame_symm ok ((hs a b).1 h)),
    fun a b c h h' => (hs a c).2 (oSame_trans ok ((hs a b).1 h) ((hs b c).1 h')), fun a b h => ?_, fun a b h => ?_,
    fun a b c h h' => (hl a c).2 (oLess_trans ok ((hl a b).1 h) ((hl b c).1 h')), fun a b => ?_⟩
  · have := (hs a b).1 h
    simp only [anyField, AnyPair.hash]
    cases ha : a.any <;> cases hb : b.any <;> simp [ha, hb, OSame] at this ⊢
    exact ok.hash _ _ this
  · rw [← Bool.not_eq_true, hl]
    exact oLess_asymm ok ((hl a b).1 h)
  · rw [hs, ← Bool.not_eq_true, ← Bool.not_eq_true, hl, hl]
    constructor
    · rintro ⟨h1, h2⟩
      rcases oLess_or_same ok _ _ with h | h | h
      · exact absurd h h1
      · exact absurd h h2
      · exact h
    · intro h
      exact ⟨fun h' => oLess_not_same ok h' h, fun h' => oLess_not_same ok h' (oSame_symm ok h)⟩

/-- Ordinary tuples: equal ones hash equally. -/
theorem tuple_hash (ok : f.Ok) : ∀ a b : List α, tupleEq f a b = true → tupleHash f a = tupleHash f b
  | [], [], _ => rfl
  | [x], [y], h => by
    simp only [tupleEq, Bool.and_true] at h
    exact ok.hash x y h
  | x :: x' :: xs, y :: y' :: ys, h => by
    simp only [tupleEq, Bool.and_eq_true] at h
    simp only [tupleHash]
    rw [ok.hash x y h.1, ok.hash x' y' h.2.1, tuple_hash ok xs ys h.2.2]
  | [], _ :: _, h => by simp [tupleEq] at h
  | _ :: _, [], h => by simp [tupleEq] at h
  | [_], _ :: _ :: _, h => by simp [tupleEq] at h
  | _ :: _ :: _, [_], h => by simp [tupleEq] at h

theorem tupleLt_iff (ok : f.Ok) : ∀ a b : List (AnyPair α), tupleLt (anyField f) a b = true ↔ Less f (viewPair a) (viewPair b)
  | [], [] => by simp [tupleLt, viewPair, Less]
  | x :: xs, y :: ys => by
    have ih := tupleLt_iff ok xs ys
    simp only [tupleLt, viewPair, List.map_cons, Less, Bool.or_eq_true, Bool.and_eq_true]
    unfold viewPair at ih
    rw [ih]
    simp only [anyField, AnyPair.lt]
    have he := ok.equiv x.val y.val
    cases x.any <;> cases y.any <;> simp [OLess, OSame]
    rw [← he]
    cases h1 : f.lt x.val y.val <;> cases h2 : f.lt y.val x.val <;> simp
  | [], _ :: _ => by simp [tupleLt, viewPair, Less]
  | _ :: _, [] => by simp [tupleLt, viewPair, Less]

/-- **C26 for tuples of `AnyPair`s.** The same: `==` means the same meaning, equal tuples hash equally, `<` is the same order. -/
theorem anyPair_tuples (ok : f.Ok) (a b : List (AnyPair α)) :
    (tupleEq (anyField f) a b = true ↔ Same f (viewPair a) (viewPair b)) ∧
    (tupleEq (anyField f) a b = true → tupleHash (anyField f) a = tupleHash (anyField f) b) ∧
    (tupleLt (anyField f) a b = true ↔ Less f (viewPair a) (viewPair b)) :=
  ⟨tupleEq_iff f a b, tuple_hash (anyField_ok ok) a b, tupleLt_iff ok a b⟩

/-- **C26, both representations.** A tuple of `AnyPair`s and a `BitsetAnyTuple` with the same fields hash to the same value and
compare alike. -/
theorem representations_agree (ok : f.Ok) (a b : List (AnyPair α)) (hl : a.length = b.length) :
    let s : List (AnyPair α) → AnyTuple α := fun l => ⟨l.map (·.val), l.map (·.any)⟩
    tupleHash (anyField f) a = (s a).hash f ∧ tupleEq (anyField f) a b = (s a).eq f (s b) ∧ tupleLt (anyField f) a b = (s a).lt f (s b) := by
  intro s
  have wf : ∀ l, (s l).Wf := fun l => by simp [s, AnyTuple.Wf]
  have hv : ∀ l, (s l).view = viewPair l := by
    intro l
    simp only [s, AnyTuple.view, view, viewPair]
    induction l with
    | nil => rfl
    | cons x xs ih => simp only [List.map_cons, List.zipWith_cons_cons, ih]
  refine ⟨?_, ?_, ?_⟩
  · have : ∀ (k : Nat) (l pre : List (AnyPair α)), l.length ≤ k →
        tupleHash (anyField f) l = bitsetAnyHash f ((pre ++ l).map (·.any)) pre.length (l.map (·.val)) := by
      intro k
      have hbit : ∀ (pre l : List (AnyPair α)) (x : AnyPair α), bit ((pre ++ x :: l).map (·.any)) pre.length = x.any := by
        intro pre l x
        unfold bit
        rw [List.getD_eq_getElem?_getD, List.getElem?_map, List.getElem?_append_right (by omega)]
        simp
      induction k with
      | zero =>
        intro l pre hk
        have : l = [] := List.length_eq_zero_iff.1 (by omega)
        subst this
        rfl
      | succ k ih =>
        intro l pre hk
        match l, hk with
        | [], _ => rfl
        | [x], _ =>
          simp only [List.map_cons, List.map_nil, bitsetAnyHash, tupleHash]
          have := hbit pre [] x
          simp only [List.map_append, List.map_cons, List.map_nil] at this ⊢
          rw [this]
          rfl
        | x :: y :: rest, hk =>
          simp only [List.map_cons, bitsetAnyHash, tupleHash]
          have h1 := hbit pre (y :: rest) x
          have h2 := hbit (pre ++ [x]) rest y
          have h3 := ih rest (pre ++ [x, y]) (by simp only [List.length_cons] at hk; omega)
          rw [h3]
          have e1 : pre ++ [x] ++ y :: rest = pre ++ x :: y :: rest := by simp
          have e2 : pre ++ [x, y] ++ rest = pre ++ x :: y :: rest := by simp
          rw [e1] at h2
          rw [e2]
          have l1 : (pre ++ [x]).length = pre.length + 1 := by simp
          have l2 : (pre ++ [x, y]).length = pre.length + 2 := by simp
          rw [l1] at h2
          rw [l2, h1, h2]
          rfl
    have h := this a.length a [] (Nat.le_refl _)
    exact h
  · rw [Bool.eq_iff_iff, tupleEq_iff, eq_view f (wf a) (wf b) (by simp [s, hl]), hv, hv]
  · rw [Bool.eq_iff_iff, tupleLt_iff ok, lt_view ok (wf a) (wf b) (by simp [s, hl]), hv, hv]

/-- `assign` makes a tuple of values without wildcards. -/
theorem assign_view : ∀ (to : List (AnyPair α)) (from' : List α), to.length = from'.length →
    viewPair (assign to from') = from'.map some
  | [], [], _ => rfl
  | _ :: to, x :: from', h => by
    have ih := assign_view to from' (by simpa using h)
    simp only [assign, viewPair, List.map_cons] at *
    rw [ih]; rfl
  | [], _ :: _, h => by simp at h
  | _ :: _, [], h => by simp at h

end

/-- Machine integers as fields. -/
def exField : Field Nat := ⟨fun a b => a == b, fun a b => decide (a < b), fun a => BitVec.ofNat 32 a⟩

example : exField.Ok :=
  ⟨fun a => by simp [exField], fun a b h => by simp [exField] at *; exact h.symm,
   fun a b c h h' => by simp [exField] at *; exact h.trans h', fun a b h => by simp [exField] at *; rw [h],
   fun a b h => by simp [exField] at *; omega, fun a b c h h' => by simp [exField] at *; omega,
   fun a b => by simp [exField]; omega⟩

/-- `(1, *, 3)` is equal to `(1, *, 3)` with another value under the wildcard, and sorts before `(1, *, *)` and after `(1, 9, 7)`. -/
example : (⟨[1, 2, 3], [false, true, false]⟩ : AnyTuple Nat).eq exField ⟨[1, 5, 3], [false, true, false]⟩ = true ∧
    (⟨[1, 2, 3], [false, true, false]⟩ : AnyTuple Nat).lt exField ⟨[1, 2, 0], [false, true, true]⟩ = true ∧
    (⟨[1, 9, 7], [false, false, false]⟩ : AnyTuple Nat).lt exField ⟨[1, 2, 3], [false, true, false]⟩ = true := by decide

end Verif.Tuple
