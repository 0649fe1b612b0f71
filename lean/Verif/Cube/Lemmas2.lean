import Verif.Cube.Lemmas

/-! # Cubing and zero walks -/

namespace Verif.Cube

open Verif.Hash Verif.Tuple

variable {α S D : Type} {P : Params α S D}

/-- The field types behave, and a table without buckets counts as full. -/
structure Params.Ok (P : Params α S D) : Prop where
  field : P.field.Ok
  full_zero : ∀ n, P.full n 0 = true

/-- Tables of `n` entries fit (`Verif.Hash.Fits`). -/
def Params.Fits (P : Params α S D) (n : Nat) : Prop := n ≤ 2147483648 ∧ ∀ k, k < n → P.full k 141650939 = false

theorem tupleEq_refl {f : Field α} (ok : f.Ok) : ∀ a, tupleEq f a a = true
  | [] => rfl
  | x :: xs => by simp [tupleEq, ok.refl, tupleEq_refl ok xs]
theorem tupleEq_symm {f : Field α} (ok : f.Ok) : ∀ a b, tupleEq f a b = true → tupleEq f b a = true
  | [], [], _ => rfl
  | x :: xs, y :: ys, h => by
    simp only [tupleEq, Bool.and_eq_true] at h ⊢
    exact ⟨ok.symm _ _ h.1, tupleEq_symm ok xs ys h.2⟩
  | [], _ :: _, h => by simp [tupleEq] at h
  | _ :: _, [], h => by simp [tupleEq] at h
theorem tupleEq_trans {f : Field α} (ok : f.Ok) : ∀ a b c, tupleEq f a b = true → tupleEq f b c = true → tupleEq f a c = true
  | [], [], [], _, _ => rfl
  | x :: xs, y :: ys, z :: zs, h, h' => by
    simp only [tupleEq, Bool.and_eq_true] at h h' ⊢
    exact ⟨ok.trans _ _ _ h.1 h'.1, tupleEq_trans ok xs ys zs h.2 h'.2⟩
  | [], _ :: _, _, h, _ => by simp [tupleEq] at h
  | _ :: _, [], _, h, _ => by simp [tupleEq] at h
  | [], [], _ :: _, _, h => by simp [tupleEq] at h
  | _ :: _, _ :: _, [], _, h => by simp [tupleEq] at h

theorem tupleEq_length {f : Field α} : ∀ a b, tupleEq f a b = true → a.length = b.length
  | [], [], _ => rfl
  | x :: xs, y :: ys, h => by
    simp only [tupleEq, Bool.and_eq_true] at h
    simp [tupleEq_length xs ys h.2]
  | [], _ :: _, h => by simp [tupleEq] at h
  | _ :: _, [], h => by simp [tupleEq] at h

theorem base_ok (ok : P.Ok) : MapOk (baseCfg P) :=
  ⟨tupleEq_refl ok.field, tupleEq_symm ok.field, tupleEq_trans ok.field, fun a b h => by
    show (tupleHash P.field a).toNat = (tupleHash P.field b).toNat
    rw [tuple_hash ok.field a b h], ok.full_zero⟩

theorem bae_refl {f : Field α} (ok : f.Ok) (any : List Bool) : ∀ (pos : Nat) (a : List α), bitsetAnyEqual f any pos a a = true
  | _, [] => rfl
  | pos, x :: xs => by simp [bitsetAnyEqual, ok.refl, bae_refl ok any (pos + 1) xs]
theorem bae_symm {f : Field α} (ok : f.Ok) (any : List Bool) : ∀ (pos : Nat) (a b : List α), bitsetAnyEqual f any pos a b = true → bitsetAnyEqual f any pos b a = true
  | _, [], [], _ => rfl
  | pos, x :: xs, y :: ys, h => by
    simp only [bitsetAnyEqual] at h ⊢
    split at h
    · next hc =>
      rw [if_pos, bae_symm ok any (pos + 1) xs ys h]
      rw [Bool.or_eq_true] at hc ⊢
      exact hc.imp id (ok.symm _ _)
    · cases h
  | _, [], _ :: _, h => by simp [bitsetAnyEqual] at h
  | _, _ :: _, [], h => by simp [bitsetAnyEqual] at h
theorem bae_trans {f : Field α} (ok : f.Ok) (any : List Bool) : ∀ (pos : Nat) (a b c : List α), bitsetAnyEqual f any pos a b = true →
    bitsetAnyEqual f any pos b c = true → bitsetAnyEqual f any pos a c = true
  | _, [], [], [], _, _ => rfl
  | pos, x :: xs, y :: ys, z :: zs, h, h' => by
    simp only [bitsetAnyEqual] at h h' ⊢
    split at h
    · next hc =>
      split at h'
      · next hc' =>
        rw [if_pos, bae_trans ok any (pos + 1) xs ys zs h h']
        rw [Bool.or_eq_true] at hc hc' ⊢
        rcases hc with hc | hc
        · exact .inl hc
        · exact hc'.imp id (ok.trans _ _ _ hc)
      · cases h'
    · cases h
  | _, [], _ :: _, _, h, _ => by simp [bitsetAnyEqual] at h
  | _, _ :: _, [], _, h, _ => by simp [bitsetAnyEqual] at h
  | _, [], [], _ :: _, _, h => by simp [bitsetAnyEqual] at h
  | _, _ :: _, _ :: _, [], _, h => by simp [bitsetAnyEqual] at h

theorem anyEq_iff (f : Field α) (a b : AnyTuple α) : a.eq f b = true ↔ a.any = b.any ∧ bitsetAnyEqual f a.any 0 a.data b.data = true := by
  unfold AnyTuple.eq
  by_cases h : a.any = b.any
  · rw [if_neg (by simp [h])]; simp [h]
  · rw [if_pos (by simpa using h)]; simp [h]

theorem cube_ok (ok : P.Ok) : MapOk (cubeCfg P) := by
  refine ⟨fun a => ?_, fun a b h => ?_, fun a b c h h' => ?_, fun a b h => ?_, ok.full_zero⟩
  · exact (anyEq_iff _ _ _).2 ⟨rfl, bae_refl ok.field _ _ _⟩
  · obtain ⟨h1, h2⟩ := (anyEq_iff P.field a b).1 h
    exact (anyEq_iff P.field b a).2 ⟨h1.symm, h1 ▸ bae_symm ok.field _ _ _ _ h2⟩
  · obtain ⟨h1, h2⟩ := (anyEq_iff P.field a b).1 h
    obtain ⟨h3, h4⟩ := (anyEq_iff P.field b c).1 h'
    rw [← h1] at h4
    exact (anyEq_iff P.field a c).2 ⟨h1.trans h3, bae_trans ok.field _ _ _ _ _ h2 h4⟩
  · show (a.hash P.field).toNat = (b.hash P.field).toNat
    rw [anyTuple_hash ok.field a b h]

theorem col_lawful (ok : P.Ok) : Lawful (colCfg P) :=
  { refl := ok.field.refl
    symm := ok.field.symm
    trans := ok.field.trans
    hash := fun a b h => by
      show (P.field.hash a).toNat = (P.field.hash b).toNat
      rw [ok.field.hash a b h]
    full_zero := ok.full_zero }

/-! ## Cubing one row -/

/-- Merge a statistic into an entry. -/
def mergeInto (P : Params α S D) (items : List (AnyTuple α × S)) (x : AnyTuple α × S) : List (AnyTuple α × S) :=
  mput (cubeCfg P).ke items x.1 (P.merge ((mget (cubeCfg P).ke items x.1).getD P.fresh) x.2)

/-- The merges `cubeAddOne` does. -/
def todo (P : Params α S D) (data : List α) (v : S) : List Bool → Bool → Nat → List (AnyTuple α × S)
  | pre, had, 0 => if P.wanted had ⟨data, pre⟩ then [(⟨data, pre⟩, v)] else []
  | pre, had, k + 1 => todo P data v (pre ++ [false]) had k ++ todo P data v (pre ++ [true]) true k

theorem todo_length (data : List α) (v : S) : ∀ (k : Nat) (pre : List Bool) (had : Bool), (todo P data v pre had k).length ≤ 2 ^ k
  | 0, pre, had => by unfold todo; split <;> simp
  | k + 1, pre, had => by
    have h1 := todo_length data v k (pre ++ [false]) had
    have h2 := todo_length data v k (pre ++ [true]) true
    rw [todo, List.length_append, Nat.pow_succ]
    omega

theorem todo_keys (data : List α) (v : S) : ∀ (k : Nat) (pre : List Bool) (had : Bool), ∀ x ∈ todo P data v pre had k,
    x.1.data = data ∧ x.1.any.length = pre.length + k
  | 0, pre, had, x, hx => by
    unfold todo at hx
    split at hx
    · rw [List.mem_singleton] at hx; subst hx; exact ⟨rfl, rfl⟩
    · cases hx
  | k + 1, pre, had, x, hx => by
    rw [todo, List.mem_append] at hx
    rcases hx with hx | hx
    · have := todo_keys data v k _ _ x hx
      rw [List.length_append, List.length_singleton] at this
      exact ⟨this.1, by omega⟩
    · have := todo_keys data v k _ _ x hx
      rw [List.length_append, List.length_singleton] at this
      exact ⟨this.1, by omega⟩

theorem mput_length {K V : Type} (ke : K → K → Bool) (l : List (K × V)) (k : K) (v : V) : (mput ke l k v).length ≤ l.length + 1 := by
  unfold mput
  split <;> simp

theorem foldl_merge_length (P : Params α S D) : ∀ (l : List (AnyTuple α × S)) (items : List (AnyTuple α × S)),
    (l.foldl (mergeInto P) items).length ≤ items.length + l.length
  | [], items => by simp
  | x :: xs, items => by
    have h1 := foldl_merge_length P xs (mergeInto P items x)
    have h2 := mput_length (cubeCfg P).ke items x.1 (P.merge ((mget (cubeCfg P).ke items x.1).getD P.fresh) x.2)
    rw [List.foldl_cons, List.length_cons]
    unfold mergeInto at h1 ⊢
    omega

theorem cubeAddOne_ok (ok : P.Ok) {n : Nat} (hf : P.Fits n) (data : List α) (v : S) : ∀ (k : Nat) (suf pre : List Bool) (had : Bool) (c : PMap (AnyTuple α) S)
    (items : List (AnyTuple α × S)) (fuel : Nat), suf.length = k → k ≤ fuel → PR (cubeCfg P) c items n → items.length + 2 ^ k ≤ n →
    ∃ c', cubeAddOne P v fuel ⟨data, pre ++ suf⟩ pre.length had c = .ok (⟨data, pre ++ List.replicate k true⟩, c') ∧
      PR (cubeCfg P) c' ((todo P data v pre had k).foldl (mergeInto P) items) n
  | 0, suf, pre, had, c, items, fuel, hs, hfu, h, hn => by
    have : suf = [] := List.length_eq_zero_iff.1 hs
    subst this
    rw [List.append_nil, List.replicate_zero, List.append_nil]
    unfold cubeAddOne todo
    rw [if_pos rfl]
    split
    · obtain ⟨c', e, h'⟩ := pr_update (cube_ok ok) rfl h (show Fits (cubeCfg P).cfg n from hf) (by simp at hn; omega) P.fresh ⟨data, pre⟩
        (fun s => P.merge s v)
      exact ⟨c', by simp [e], h'⟩
    · exact ⟨c, rfl, h⟩
  | k + 1, b :: suf, pre, had, c, items, fuel + 1, hs, hfu, h, hn => by
    have hs' : suf.length = k := by simpa using hs
    rw [Nat.pow_succ] at hn
    obtain ⟨c1, e1, h1⟩ := cubeAddOne_ok ok hf data v k suf (pre ++ [false]) had c items fuel hs' (by omega) h (by omega)
    have hlen := foldl_merge_length P (todo P data v (pre ++ [false]) had k) items
    have htl := todo_length (P := P) data v k (pre ++ [false]) had
    obtain ⟨c2, e2, h2⟩ := cubeAddOne_ok ok hf data v k (List.replicate k true) (pre ++ [true]) true c1 _ fuel (by simp) (by omega) h1 (by omega)
    refine ⟨c2, ?_, ?_⟩
    · rw [cubeAddOne, if_neg (by rw [List.length_append, List.length_cons]; omega)]
      simp only []
      have s1 : (pre ++ b :: suf).set pre.length false = (pre ++ [false]) ++ suf := by
        rw [List.set_append_right _ _ (Nat.le_refl _)]; simp
      have s2 : ((pre ++ [false]) ++ List.replicate k true).set pre.length true = (pre ++ [true]) ++ List.replicate k true := by
        rw [List.append_assoc, List.set_append_right _ _ (Nat.le_refl _)]; simp
      have l1 : ∀ b, (pre ++ [b]).length = pre.length + 1 := by intro b; simp
      rw [l1] at e1 e2
      rw [s1, e1]
      simp only [Res.bind_ok]
      rw [s2, e2]
      simp [List.replicate_succ]
    · rw [todo, List.foldl_append]
      exact h2
  | k + 1, [], _, _, _, _, _, hs, _, _, _ => by simp at hs
  | k + 1, _ :: _, _, _, _, _, 0, _, hfu, _, _ => by omega

/-- Everything merged for a list of rows. -/
def allTodo (P : Params α S D) (rows : List (List α × S)) : List (AnyTuple α × S) := rows.flatMap fun b => todo P b.1 b.2 [] false b.1.length

theorem allTodo_length (P : Params α S D) (arity : Nat) : ∀ (rows : List (List α × S)), (∀ b ∈ rows, b.1.length = arity) →
    (allTodo P rows).length ≤ rows.length * 2 ^ arity
  | [], _ => by simp [allTodo]
  | b :: rows, h => by
    have ih := allTodo_length P arity rows (fun x hx => h x (List.mem_cons_of_mem _ hx))
    have hb := todo_length (P := P) b.1 b.2 b.1.length [] false
    have hl : b.1.length = arity := h b (List.mem_cons_self ..)
    unfold allTodo at ih ⊢
    rw [List.flatMap_cons, List.length_append, List.length_cons, Nat.add_mul, Nat.one_mul]
    rw [hl] at hb ⊢
    omega

theorem addToCube_ok (ok : P.Ok) {n : Nat} (hf : P.Fits n) {c : PMap (AnyTuple α) S} {items : List (AnyTuple α × S)} (h : PR (cubeCfg P) c items n)
    (k : List α) (v : S) (hn : items.length + 2 ^ k.length ≤ n) :
    ∃ c', addToCube P c k v = .ok c' ∧ PR (cubeCfg P) c' ((todo P k v [] false k.length).foldl (mergeInto P) items) n := by
  obtain ⟨c', e, h'⟩ := cubeAddOne_ok ok hf k v k.length (List.replicate k.length false) [] false c items k.length (by simp) (Nat.le_refl _) h hn
  refine ⟨c', ?_, h'⟩
  rw [List.nil_append, List.length_nil] at e
  simp [addToCube, e]

theorem addAllToCube_ok (ok : P.Ok) {n : Nat} (hf : P.Fits n) (arity : Nat) : ∀ (rows : List (List α × S)) (c : PMap (AnyTuple α) S)
    (items : List (AnyTuple α × S)), PR (cubeCfg P) c items n → (∀ b ∈ rows, b.1.length = arity) → items.length + rows.length * 2 ^ arity ≤ n →
    ∃ c', addAllToCube P c rows = .ok c' ∧ PR (cubeCfg P) c' ((allTodo P rows).foldl (mergeInto P) items) n
  | [], c, items, h, _, _ => ⟨c, rfl, h⟩
  | b :: rows, c, items, h, hl, hn => by
    have hb : b.1.length = arity := hl b (List.mem_cons_self ..)
    rw [List.length_cons, Nat.add_mul, Nat.one_mul] at hn
    obtain ⟨c1, e1, h1⟩ := addToCube_ok ok hf h b.1 b.2 (by rw [hb]; omega)
    have hlen := foldl_merge_length P (todo P b.1 b.2 [] false b.1.length) items
    have htl := todo_length (P := P) b.1 b.2 b.1.length [] false
    rw [hb] at htl hlen
    obtain ⟨c2, e2, h2⟩ := addAllToCube_ok ok hf arity rows c1 _ h1 (fun x hx => hl x (List.mem_cons_of_mem _ hx)) (by rw [hb]; omega)
    refine ⟨c2, by simp [addAllToCube, e1, e2], ?_⟩
    unfold allTodo at h2 ⊢
    rw [List.flatMap_cons, List.foldl_append]
    exact h2

/-! ## What the merges amount to -/

/-- The same key operations for a map holding the statistics themselves. -/
def withValues {K : Type} (m : MapCfg K (Option Nat)) (dv : S) : MapCfg K S := ⟨m.kh, m.ke, m.full, m.dk, dv⟩

theorem withValues_ok {K : Type} {m : MapCfg K (Option Nat)} (ok : MapOk m) (dv : S) : MapOk (withValues m dv) :=
  ⟨ok.refl, ok.symm, ok.trans, ok.hash, ok.full_zero⟩

theorem mget_foldl (ok : P.Ok) (q : AnyTuple α) : ∀ (l items : List (AnyTuple α × S)),
    mget (cubeCfg P).ke (l.foldl (mergeInto P) items) q =
      if ((l.filter (fun x => (cubeCfg P).ke x.1 q)).map (·.2)).isEmpty then mget (cubeCfg P).ke items q
      else some (((l.filter (fun x => (cubeCfg P).ke x.1 q)).map (·.2)).foldl P.merge ((mget (cubeCfg P).ke items q).getD P.fresh))
  | [], items => by simp
  | x :: xs, items => by
    rw [List.foldl_cons, mget_foldl ok q xs]
    have hput : mget (cubeCfg P).ke (mergeInto P items x) q =
        if (cubeCfg P).ke x.1 q then some (P.merge ((mget (cubeCfg P).ke items x.1).getD P.fresh) x.2) else mget (cubeCfg P).ke items q :=
      mget_mput (withValues_ok (cube_ok ok) P.fresh) items q x.1 _
    rw [hput]
    by_cases hk : (cubeCfg P).ke x.1 q = true
    · rw [show mget (cubeCfg P).ke items x.1 = mget (cubeCfg P).ke items q from mget_congr (withValues_ok (cube_ok ok) P.fresh) items hk]
      simp only [List.filter_cons, hk, if_true, List.map_cons, List.isEmpty_cons, Bool.false_eq_true, if_false, List.foldl_cons,
        Option.getD_some]
      split
      · next he =>
        rw [List.isEmpty_iff] at he
        rw [he]; rfl
      · rfl
    · simp only [List.filter_cons, hk, if_false, Bool.false_eq_true]

theorem bae_agrees {f : Field α} (ok : f.Ok) (any : List Bool) : ∀ (pos : Nat) (a b : List α), (any.drop pos).length = a.length → a.length = b.length →
    bitsetAnyEqual f any pos a b = (List.zip (any.drop pos) (List.zip b a)).all fun x => x.1 || f.eq x.2.1 x.2.2
  | pos, [], [], h, _ => by
    have : any.drop pos = [] := List.length_eq_zero_iff.1 h
    rw [this]; rfl
  | pos, x :: xs, y :: ys, h, h' => by
    rw [List.length_cons] at h
    rw [drop_cons h]
    have ih := bae_agrees ok any (pos + 1) xs ys (by rw [List.length_drop] at *; omega) (by simpa using h')
    simp only [bitsetAnyEqual, List.zip_cons_cons, List.all_cons]
    rw [← ih]
    have hc : f.eq x y = f.eq y x := by
      cases h1 : f.eq x y with
      | true => exact (ok.symm _ _ h1).symm
      | false =>
        cases h2 : f.eq y x with
        | false => rfl
        | true => rw [ok.symm _ _ h2] at h1; cases h1
    rw [hc]
    cases bit any pos <;> cases f.eq y x <;> simp
  | _, [], _ :: _, _, h => by simp at h
  | _, _ :: _, [], _, h => by simp at h

theorem key_agrees (ok : P.Ok) (q : AnyTuple α) (row : List α) (hq : q.any.length = q.data.length) (hr : row.length = q.data.length) :
    (cubeCfg P).ke ⟨row, q.any⟩ q = agrees P q row := by
  show AnyTuple.eq P.field _ _ = _
  unfold AnyTuple.eq agrees
  rw [if_neg (by simp)]
  have := bae_agrees ok.field q.any 0 row q.data (by rw [List.drop_zero]; omega) hr
  rw [List.drop_zero] at this
  exact this

theorem filter_todo (ok : P.Ok) (q : AnyTuple α) (data : List α) (v : S) (hq : q.any.length = q.data.length) (hr : data.length = q.data.length) :
    ∀ (k : Nat) (pre : List Bool) (had : Bool) (suf : List Bool), pre.length + k = q.any.length →
    ((q.any = pre ++ suf → (todo P data v pre had k).filter (fun x => (cubeCfg P).ke x.1 q) =
      if agrees P q data && P.wanted (had || suf.any id) ⟨data, q.any⟩ then [(⟨data, q.any⟩, v)] else []) ∧
    ((∀ suf, q.any ≠ pre ++ suf) → (todo P data v pre had k).filter (fun x => (cubeCfg P).ke x.1 q) = []))
  | 0, pre, had, suf, hl => by
    constructor
    · intro he
      have : suf = [] := by
        rw [he, List.length_append] at hl
        exact List.length_eq_zero_iff.1 (by omega)
      subst this
      rw [List.append_nil] at he
      have hk := key_agrees ok q data hq hr
      rw [he] at hk
      unfold todo
      rw [he]
      simp only [List.any_nil, Bool.or_false]
      split
      · next hw =>
        rw [List.filter_cons, List.filter_nil]
        simp only [hk, hw, Bool.and_true]
      · next hw => simp [hw]
    · intro hne
      have hne' : ¬ (pre = q.any) := fun h => hne [] (by rw [List.append_nil]; exact h.symm)
      have hk : (cubeCfg P).ke ⟨data, pre⟩ q = false := by
        show AnyTuple.eq P.field _ _ = false
        unfold AnyTuple.eq
        rw [if_pos (by simpa using hne')]
      unfold todo
      split
      · rw [List.filter_cons, List.filter_nil]; simp [hk]
      · rfl
  | k + 1, pre, had, suf, hl => by
    have hl1 : ∀ b, (pre ++ [b]).length + k = q.any.length := by intro b; rw [List.length_append, List.length_singleton]; omega
    constructor
    · intro he
      cases suf with
      | nil => rw [he, List.append_nil] at hl; omega
      | cons b suf =>
        rw [todo, List.filter_append]
        have he' : q.any = (pre ++ [b]) ++ suf := by rw [he]; simp
        have hother : ∀ suf', q.any ≠ (pre ++ [!b]) ++ suf' := by
          intro suf' h
          rw [he, List.append_assoc] at h
          have := List.append_cancel_left h
          simp only [List.cons_append, List.nil_append, List.cons.injEq] at this
          cases b <;> simp at this
        cases b with
        | false =>
          rw [(filter_todo ok q data v hq hr k (pre ++ [false]) had suf (hl1 _)).1 he',
            (filter_todo ok q data v hq hr k (pre ++ [true]) true suf (hl1 _)).2 hother, List.append_nil]
          simp
        | true =>
          rw [(filter_todo ok q data v hq hr k (pre ++ [false]) had suf (hl1 _)).2 hother,
            (filter_todo ok q data v hq hr k (pre ++ [true]) true suf (hl1 _)).1 he', List.nil_append]
          simp
    · intro hne
      rw [todo, List.filter_append,
        (filter_todo ok q data v hq hr k (pre ++ [false]) had suf (hl1 _)).2 (fun s h => hne ([false] ++ s) (by rw [h]; simp)),
        (filter_todo ok q data v hq hr k (pre ++ [true]) true suf (hl1 _)).2 (fun s h => hne ([true] ++ s) (by rw [h]; simp))]
      rfl

theorem filter_allTodo (ok : P.Ok) (q : AnyTuple α) (arity : Nat) (hd : q.data.length = arity) (ha : q.any.length = arity) :
    ∀ rows : List (List α × S), (∀ b ∈ rows, b.1.length = arity) →
    ((allTodo P rows).filter (fun x => (cubeCfg P).ke x.1 q)).map (·.2) = counted P rows q
  | [], _ => rfl
  | b :: rows, hl => by
    have ih := filter_allTodo ok q arity hd ha rows (fun x hx => hl x (List.mem_cons_of_mem _ hx))
    have hb : b.1.length = arity := hl b (List.mem_cons_self ..)
    have h1 := (filter_todo ok q b.1 b.2 (by omega) (by omega) b.1.length [] false q.any (by simp; omega)).1 rfl
    unfold allTodo counted at ih ⊢
    rw [List.flatMap_cons, List.filter_append, List.map_append, ih, h1, List.filter_cons]
    simp only [Bool.false_or]
    split <;> simp

theorem mput_mem {K V : Type} {ke : K → K → Bool} {l : List (K × V)} {k : K} {v : V} {x : K × V} (h : x ∈ mput ke l k v) :
    x.1 = k ∨ ∃ y ∈ l, y.1 = x.1 := by
  unfold mput at h
  split at h
  · obtain ⟨y, hy, rfl⟩ := List.mem_map.1 h
    right
    refine ⟨y, hy, ?_⟩
    split <;> rfl
  · rcases List.mem_cons.1 h with rfl | h
    · exact .inl rfl
    · exact .inr ⟨x, h, rfl⟩

theorem foldl_keys (P : Params α S D) (Q : AnyTuple α → Prop) : ∀ (l items : List (AnyTuple α × S)), (∀ x ∈ items, Q x.1) → (∀ x ∈ l, Q x.1) →
    ∀ x ∈ l.foldl (mergeInto P) items, Q x.1
  | [], items, h, _ => h
  | y :: ys, items, h, hy => by
    refine foldl_keys P Q ys _ ?_ (fun x hx => hy x (List.mem_cons_of_mem _ hx))
    intro x hx
    rcases mput_mem hx with h1 | ⟨z, hz, h1⟩
    · rw [h1]; exact hy y (List.mem_cons_self ..)
    · rw [← h1]; exact h z hz

theorem allTodo_keys (P : Params α S D) (arity : Nat) (rows : List (List α × S)) (h : ∀ b ∈ rows, b.1.length = arity) :
    ∀ x ∈ allTodo P rows, x.1.data.length = arity ∧ x.1.any.length = arity := by
  intro x hx
  unfold allTodo at hx
  obtain ⟨b, hb, hx⟩ := List.mem_flatMap.1 hx
  have := todo_keys (P := P) b.1 b.2 b.1.length [] false x hx
  have hl : b.1.length = arity := h b hb
  rw [List.length_nil] at this
  exact ⟨by rw [this.1]; exact hl, by omega⟩

/-- Adding rows to the cube. -/
theorem cubeOf_rows (ok : P.Ok) {n : Nat} (hf : P.Fits n) (arity : Nat) (rows : List (List α × S)) {c : PMap (AnyTuple α) S}
    {items : List (AnyTuple α × S)} (h : PR (cubeCfg P) c items n) (hk : CubeKeys P arity items) (hl : ∀ b ∈ rows, b.1.length = arity)
    (hn : items.length + rows.length * 2 ^ arity ≤ n) :
    ∃ c' new, addAllToCube P c rows = .ok c' ∧ PR (cubeCfg P) c' new n ∧ CubeOf P arity items rows new := by
  obtain ⟨c', e, h'⟩ := addAllToCube_ok ok hf arity rows c items h hl hn
  refine ⟨c', _, e, h', ⟨?_, pr_dist h'⟩, fun q hd ha => ?_⟩
  · exact foldl_keys P (fun a => a.data.length = arity ∧ a.any.length = arity) _ _ hk.1 (allTodo_keys P arity rows hl)
  · have := mget_foldl ok q (allTodo P rows) items
    rw [filter_allTodo ok q arity hd ha rows hl] at this
    exact this

end Verif.Cube
