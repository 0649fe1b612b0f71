import Verif.Cube.Lemmas2

/-! # Zero walks and histories -/

namespace Verif.Cube

open Verif.Hash Verif.Tuple

variable {α S D : Type} {P : Params α S D}

/-- The values collected for one column: those occurring in it, up to `==`. -/
def ColOk (P : Params α S D) (seen : List (List α)) (i : Nat) (col : List α) : Prop :=
  (∀ x ∈ col, ∃ r ∈ seen, r[i]? = some x) ∧ (∀ r ∈ seen, ∀ y, r[i]? = some y → ∃ x ∈ col, P.field.eq y x = true) ∧
  (col.Pairwise fun x y => P.field.eq x y = false) ∧ col.length ≤ seen.length

/-- Sets for the columns from `i` on. -/
def HutR (P : Params α S D) (n : Nat) (seen : List (List α)) : Nat → List (Table α) → Prop
  | _, [] => True
  | i, h :: hs => (∃ col used, UR (colCfg P) h col used n ∧ ColOk P seen i col) ∧ HutR P n seen (i + 1) hs

theorem uAdd_ok (ok : P.Ok) {n : Nat} (hf : P.Fits n) {h : Table α} {col : List α} {used : Bool} (hu : UR (colCfg P) h col used n) (hlt : col.length < n) (x : α) :
    ∃ h' b col' used', uAdd (colCfg P) h x = .ok (h', b) ∧ UR (colCfg P) h' col' used' n ∧
      ((col' = col ∧ ∃ y ∈ col, P.field.eq x y = true) ∨ (col' = x :: col ∧ ∀ y ∈ col, P.field.eq x y = false)) := by
  have law := col_lawful ok
  rcases ur_lookup law hu x with ⟨hno, e⟩ | ⟨y, loc, hy, e, _, _⟩
  · obtain ⟨t', loc, e1, e2, _, _⟩ := ur_add law hu (show Fits (colCfg P) n from hf) hlt x hno
    refine ⟨t', true, x :: col, true, by simp [uAdd, e, e1], e2, .inr ⟨rfl, fun y hy => ?_⟩⟩
    have := List.find?_eq_none.1 hno y hy
    simpa [colCfg] using this
  · refine ⟨h, false, col, used, by simp [uAdd, e], hu, .inl ⟨rfl, y, List.mem_of_find?_eq_some hy, ?_⟩⟩
    have := List.find?_some hy
    exact this

theorem colOk_add {seen : List (List α)} {i : Nat} {col col' : List α} (h : ColOk P seen i col) (row : List α) {x : α} (hx : row[i]? = some x)
    (hc : (col' = col ∧ ∃ y ∈ col, P.field.eq x y = true) ∨ (col' = x :: col ∧ ∀ y ∈ col, P.field.eq x y = false)) (ok : P.Ok) :
    ColOk P (row :: seen) i col' := by
  obtain ⟨h1, h2, h3, h4⟩ := h
  have hl : (row :: seen).length = seen.length + 1 := rfl
  rcases hc with ⟨rfl, y, hy, he⟩ | ⟨rfl, hne⟩
  · refine ⟨fun z hz => ?_, fun r hr z hz => ?_, h3, by omega⟩
    · obtain ⟨r, hr, he⟩ := h1 z hz
      exact ⟨r, List.mem_cons_of_mem _ hr, he⟩
    · rcases List.mem_cons.1 hr with rfl | hr
      · rw [hx] at hz
        cases hz
        exact ⟨y, hy, he⟩
      · exact h2 r hr z hz
  · refine ⟨fun z hz => ?_, fun r hr z hz => ?_, List.pairwise_cons.2 ⟨hne, h3⟩, by simp only [List.length_cons]; omega⟩
    · rcases List.mem_cons.1 hz with rfl | hz
      · exact ⟨row, List.mem_cons_self .., hx⟩
      · obtain ⟨r, hr, he⟩ := h1 z hz
        exact ⟨r, List.mem_cons_of_mem _ hr, he⟩
    · rcases List.mem_cons.1 hr with rfl | hr
      · rw [hx] at hz
        cases hz
        exact ⟨x, List.mem_cons_self .., ok.field.refl x⟩
      · obtain ⟨w, hw, he⟩ := h2 r hr z hz
        exact ⟨w, List.mem_cons_of_mem _ hw, he⟩

theorem hutAdd_ok (ok : P.Ok) {n : Nat} (hf : P.Fits n) (seen : List (List α)) (row : List α) (hn : seen.length < n) : ∀ (xs : List α) (hs : List (Table α)) (i : Nat),
    HutR P n seen i hs → hs.length = xs.length → row.drop i = xs → ∃ hs', hutAdd P hs xs = .ok hs' ∧ HutR P n (row :: seen) i hs' ∧ hs'.length = hs.length
  | [], [], i, _, _, _ => ⟨[], rfl, trivial, rfl⟩
  | x :: xs, h :: hs, i, hR, hl, hd => by
    obtain ⟨⟨col, used, hu, hc⟩, hR'⟩ := hR
    have hx : row[i]? = some x := by
      have := congrArg (·[0]?) hd
      simpa using this
    have hd' : row.drop (i + 1) = xs := by
      have := congrArg List.tail hd
      simpa using this
    obtain ⟨h', b, col', used', e1, hu', hcol⟩ := uAdd_ok ok hf hu (by have := hc.2.2.2; omega) x
    obtain ⟨hs', e2, hR2, hl2⟩ := hutAdd_ok ok hf seen row hn xs hs (i + 1) hR' (by simpa using hl) hd'
    refine ⟨h' :: hs', by simp [hutAdd, e1, e2], ⟨⟨col', used', hu', colOk_add hc row hx hcol ok⟩, hR2⟩, by simp [hl2]⟩
  | [], _ :: _, _, _, hl, _ => by simp at hl
  | _ :: _, [], _, _, hl, _ => by simp at hl

theorem hutAddAll_ok (ok : P.Ok) {n : Nat} (hf : P.Fits n) (arity : Nat) : ∀ (rows seen : List (List α)) (hs : List (Table α)),
    (∀ r ∈ rows, r.length = arity) → hs.length = arity → seen.length + rows.length ≤ n → HutR P n seen 0 hs →
    ∃ hs', hutAddAll P hs rows = .ok hs' ∧ HutR P n (rows.reverse ++ seen) 0 hs' ∧ hs'.length = arity
  | [], seen, hs, _, hl, _, h => ⟨hs, rfl, h, hl⟩
  | r :: rows, seen, hs, hr, hl, hn, h => by
    rw [List.length_cons] at hn
    obtain ⟨hs1, e1, h1, l1⟩ := hutAdd_ok ok hf seen r (by omega) r hs 0 h (by rw [hr r (List.mem_cons_self ..)]; exact hl) rfl
    obtain ⟨hs2, e2, h2, l2⟩ := hutAddAll_ok ok hf arity rows (r :: seen) hs1 (fun x hx => hr x (List.mem_cons_of_mem _ hx)) (by omega)
      (by rw [List.length_cons]; omega) h1
    refine ⟨hs2, by simp [hutAddAll, e1, e2], ?_, l2⟩
    rw [List.reverse_cons, List.append_assoc]
    exact h2

theorem hut_empty (P : Params α S D) (n : Nat) : ∀ (k i : Nat), HutR P n [] i (List.replicate k empty')
  | 0, _ => trivial
  | k + 1, i => ⟨⟨[], false, (ur_empty _).mono (Nat.zero_le n), by simp [ColOk]⟩, hut_empty P n k (i + 1)⟩

/-- All combinations. -/
def prod : List (List α) → List (List α)
  | [] => [[]]
  | vs :: rest => vs.flatMap fun v => (prod rest).map (v :: ·)

/-- The lists the sets of the columns give when walked. -/
def Walks : List (Table α) → List (List α) → Prop
  | [], [] => True
  | h :: hs, vs :: vss => walk h = .ok vs ∧ Walks hs vss
  | _, _ => False

def ColsOk (P : Params α S D) (seen : List (List α)) : Nat → List (List α) → Prop
  | _, [] => True
  | i, vs :: vss => ColOk P seen i vs ∧ ColsOk P seen (i + 1) vss

theorem hut_walks (ok : P.Ok) {n : Nat} (seen : List (List α)) : ∀ (hs : List (Table α)) (i : Nat), HutR P n seen i hs →
    ∃ vss, Walks hs vss ∧ ColsOk P seen i vss ∧ vss.length = hs.length
  | [], _, _ => ⟨[], trivial, trivial, rfl⟩
  | h :: hs, i, hR => by
    obtain ⟨⟨col, used, hu, h1, h2, h3, h4⟩, hR'⟩ := hR
    obtain ⟨vs, e, hp⟩ := ur_walk hu
    obtain ⟨vss, e', hc, hl⟩ := hut_walks ok seen hs (i + 1) hR'
    refine ⟨vs :: vss, ⟨e, e'⟩, ⟨⟨fun x hx => h1 x (hp.mem_iff.1 hx), fun r hr y hy => ?_, ?_, ?_⟩, hc⟩, by simp [hl]⟩
    · obtain ⟨x, hx, he⟩ := h2 r hr y hy
      exact ⟨x, hp.mem_iff.2 hx, he⟩
    · exact pairwise_perm (col_lawful ok) hp.symm h3
    · rw [hp.length_eq]; exact h4

theorem forEach_ok {β γ : Type} {body : β → Res (List γ)} {out : β → List γ} : ∀ l : List β, (∀ x ∈ l, body x = .ok (out x)) →
    forEach body l = .ok (l.flatMap out)
  | [], _ => rfl
  | x :: xs, h => by
    simp [forEach, h x (List.mem_cons_self ..), forEach_ok xs (fun y hy => h y (List.mem_cons_of_mem _ hy))]

theorem zeroWalk_ok (ok : P.Ok) {n : Nat} {c : PMap (List α) S} {items : List (List α × S)} (h : PR (baseCfg P) c items n) (zero : S) :
    ∀ (hs : List (Table α)) (vss : List (List α)) (key : List α), Walks hs vss →
    zeroWalk P c zero hs key = .ok ((prod vss).map fun k => (key ++ k, (baseVal P items (key ++ k)).getD zero))
  | [], [], key, _ => by
    rcases pr_lookup (base_ok ok) h key with ⟨e, e'⟩ | ⟨p, s, e, e1, e'⟩
    · have e2 : baseVal P items key = none := e'
      simp [zeroWalk, e, prod, e2]
    · have e2 : baseVal P items key = some s := e'
      simp [zeroWalk, e, prod, e1, e2]
  | hh :: hs, vs :: vss, key, hw => by
    rw [zeroWalk, hw.1, Res.bind_ok, forEach_ok (out := fun v => (prod vss).map fun k => (key ++ [v] ++ k, (baseVal P items (key ++ [v] ++ k)).getD zero))]
    · rw [prod, List.map_flatMap]
      congr 1
      congr 1
      funext v
      rw [List.map_map]
      apply List.map_congr_left
      intro k _
      simp
    · intro v _
      exact zeroWalk_ok ok h zero hs vss (key ++ [v]) hw.2
  | [], _ :: _, _, hw => hw.elim
  | _ :: _, [], _, hw => hw.elim

theorem prod_props (ok : P.Ok) (seen : List (List α)) : ∀ (vss : List (List α)) (i : Nat), ColsOk P seen i vss →
    ((prod vss).Pairwise fun x y => tupleEq P.field x y = false) ∧
    (∀ k ∈ prod vss, k.length = vss.length ∧ ∀ j v, k[j]? = some v → ∃ r ∈ seen, r[i + j]? = some v) ∧
    (∀ k : List α, k.length = vss.length → (∀ j v, k[j]? = some v → ∃ r ∈ seen, ∃ y, r[i + j]? = some y ∧ P.field.eq v y = true) →
      ∃ k' ∈ prod vss, tupleEq P.field k k' = true) ∧
    (prod vss).length ≤ seen.length ^ vss.length
  | [], i, _ => by
    refine ⟨by simp [prod], ?_, ?_, by simp [prod]⟩
    · intro k hk
      simp only [prod, List.mem_singleton] at hk
      subst hk
      exact ⟨rfl, by simp⟩
    · intro k hk _
      have : k = [] := List.length_eq_zero_iff.1 hk
      subst this
      exact ⟨[], by simp [prod], rfl⟩
  | vs :: vss, i, ⟨⟨h1, h2, h3, h4⟩, hc⟩ => by
    obtain ⟨ih1, ih2, ih3, ih4⟩ := prod_props ok seen vss (i + 1) hc
    refine ⟨?_, ?_, ?_, ?_⟩
    · rw [prod, List.pairwise_flatMap]
      refine ⟨fun v _ => ?_, h3.imp ?_⟩
      · rw [List.pairwise_map]
        refine ih1.imp ?_
        intro x y hxy
        simp [tupleEq, hxy]
      · intro v w hvw x hx y hy
        obtain ⟨x', _, rfl⟩ := List.mem_map.1 hx
        obtain ⟨y', _, rfl⟩ := List.mem_map.1 hy
        simp [tupleEq, hvw]
    · intro k hk
      obtain ⟨v, hv, hk⟩ := List.mem_flatMap.1 hk
      obtain ⟨k', hk', rfl⟩ := List.mem_map.1 hk
      obtain ⟨hl, hcol⟩ := ih2 k' hk'
      refine ⟨by simp [hl], fun j w hw => ?_⟩
      cases j with
      | zero =>
        simp only [List.getElem?_cons_zero, Option.some.injEq] at hw
        subst hw
        exact h1 v hv
      | succ j =>
        rw [List.getElem?_cons_succ] at hw
        obtain ⟨r, hr, he⟩ := hcol j w hw
        exact ⟨r, hr, by rw [← he]; congr 1; omega⟩
    · intro k hk hcol
      cases k with
      | nil => simp at hk
      | cons x k =>
        obtain ⟨r, hr, y, hy, he⟩ := hcol 0 x (by simp)
        obtain ⟨v, hv, he'⟩ := h2 r hr y hy
        obtain ⟨k', hk', he2⟩ := ih3 k (by simpa using hk) (fun j w hw => by
          obtain ⟨r, hr, y, hy, he⟩ := hcol (j + 1) w (by rw [List.getElem?_cons_succ]; exact hw)
          exact ⟨r, hr, y, by rw [← hy]; congr 1; omega, he⟩)
        refine ⟨v :: k', List.mem_flatMap.2 ⟨v, hv, List.mem_map_of_mem hk'⟩, ?_⟩
        simp only [tupleEq, Bool.and_eq_true]
        exact ⟨ok.field.trans _ _ _ he he', he2⟩
    · rw [prod, List.length_flatMap]
      simp only [List.length_map, List.map_const', List.sum_replicate_nat, List.length_cons, Nat.pow_succ]
      rw [Nat.mul_comm]
      exact Nat.mul_le_mul ih4 h4

/-- The rows a zero walk visits. -/
theorem walkZeros_ok (ok : P.Ok) {n : Nat} (hf : P.Fits n) (arity : Nat) {c : PMap (List α) S} {items : List (List α × S)} (h : PR (baseCfg P) c items n)
    (hk : BaseKeys P arity items) (hn : items.length ≤ n) (z : D) (cz : Bool) :
    ∃ hut rows, fillHut P arity c = .ok hut ∧ walkZerosIn P z c hut cz = .ok rows ∧ ZeroRows P arity items (zeroStat P z cz) rows ∧
      rows.length ≤ items.length ^ arity := by
  obtain ⟨l, e, hp⟩ := pr_keys h
  have hlen : ∀ r ∈ l.map (·.1), r.length = arity := by
    intro r hr
    obtain ⟨x, hx, rfl⟩ := List.mem_map.1 (hp.mem_iff.1 hr)
    exact hk.1 x hx
  have hll : (l.map (·.1)).length = items.length := by rw [hp.length_eq, List.length_map]
  obtain ⟨hut, e1, h1, l1⟩ := hutAddAll_ok ok hf arity (l.map (·.1)) [] (List.replicate arity empty') hlen (by simp) (by simp only [List.length_nil]; omega)
    (hut_empty P n arity 0)
  obtain ⟨vss, hw, hc, hvl⟩ := hut_walks ok _ hut 0 h1
  have e2 := zeroWalk_ok ok h (zeroStat P z cz) hut vss [] hw
  obtain ⟨p1, p2, p3, p4⟩ := prod_props ok _ vss 0 hc
  refine ⟨hut, _, by simp [fillHut, e, e1], e2, ⟨?_, ?_, ?_⟩, ?_⟩
  · rw [List.pairwise_map]
    exact p1
  · intro x hx
    obtain ⟨k, hk', rfl⟩ := List.mem_map.1 hx
    obtain ⟨hl, hcol⟩ := p2 k hk'
    refine ⟨by simp only [List.nil_append]; omega, fun i v hv => ?_, rfl⟩
    obtain ⟨r, hr, he⟩ := hcol i v hv
    rw [List.append_nil, List.mem_reverse, hp.mem_iff] at hr
    obtain ⟨b, hb, rfl⟩ := List.mem_map.1 hr
    exact ⟨b, hb, v, by rw [← he]; congr 1; omega, ok.field.refl v⟩
  · intro k hkl hcol
    obtain ⟨k', hk', he⟩ := p3 k (by omega) (fun j v hv => by
      obtain ⟨b, hb, y, hy, he⟩ := hcol j v hv
      refine ⟨b.1, ?_, y, by rw [← hy]; congr 1; omega, he⟩
      rw [List.append_nil, List.mem_reverse, hp.mem_iff]
      exact List.mem_map_of_mem hb)
    exact ⟨_, List.mem_map_of_mem hk', he⟩
  · rw [List.length_map]
    rw [List.append_nil, List.length_reverse, hll, hvl, l1] at p4
    exact p4

/-! ## Histories -/

/-- The state represents a specification state. -/
structure CR (P : Params α S D) (arity n : Nat) (c : Cube α S) (s : St α S) : Prop where
  base : PR (baseCfg P) c.base s.base n
  cube : PR (cubeCfg P) c.cube s.cube n
  baseKeys : ∀ x ∈ s.base, x.1.length = arity
  cubeKeys : ∀ x ∈ s.cube, x.1.data.length = arity ∧ x.1.any.length = arity

theorem base_order (ok : P.Ok) (arity : Nat) : KeyOrder (baseCfg P).ke (tupleLt P.field) (fun k => k.length = arity) := by
  have key : ∀ a b : List α, tupleLt P.field a b = true ↔ Less P.field (a.map some) (b.map some) := by
    intro a
    induction a with
    | nil => intro b; cases b <;> simp [tupleLt, Less]
    | cons x xs ih =>
      intro b
      cases b with
      | nil => simp [tupleLt, Less]
      | cons y ys =>
        simp only [tupleLt, List.map_cons, Less, OLess, OSame, Bool.or_eq_true, Bool.and_eq_true, Bool.not_eq_true', ih]
        have he := ok.field.equiv x y
        rw [← he]
        cases P.field.lt x y <;> simp
  have hse : ∀ a b : List α, tupleEq P.field a b = true ↔ Same P.field (a.map some) (b.map some) := by
    intro a
    induction a with
    | nil => intro b; cases b <;> simp [tupleEq, Same]
    | cons x xs ih =>
      intro b
      cases b with
      | nil => simp [tupleEq, Same]
      | cons y ys => simp only [tupleEq, List.map_cons, Same, OSame, Bool.and_eq_true, ih]
  refine ⟨fun a b _ _ h => ?_, fun a b c _ _ _ h h' => ?_, fun a b ha hb h => ?_⟩
  · rw [key] at h
    rw [← Bool.not_eq_true, key]
    exact less_asymm ok.field h
  · rw [key] at h h' ⊢
    exact less_trans ok.field h h'
  · have h' : tupleEq P.field a b = false := h
    rw [← Bool.not_eq_true, hse, ← less_equiv ok.field (by simp only [List.length_map]; omega)] at h'
    rw [key, key]
    exact Classical.byContradiction fun hc => h' (not_or.1 hc)

theorem cube_order (ok : P.Ok) (arity : Nat) :
    KeyOrder (cubeCfg P).ke (fun a b => a.lt P.field b) (fun k => k.data.length = arity ∧ k.any.length = arity) := by
  obtain ⟨h1, h2, h3⟩ := anyTuple_order ok.field arity
  have wf : ∀ a : AnyTuple α, a.data.length = arity ∧ a.any.length = arity → a.Wf := fun a h => by unfold AnyTuple.Wf; omega
  refine ⟨fun a b ha hb h => h1 a b (wf a ha) (wf b hb) ha.1 hb.1 h,
    fun a b c ha hb hc h h' => h2 a b c (wf a ha) (wf b hb) (wf c hc) ha.1 hb.1 hc.1 h h', fun a b ha hb h => ?_⟩
  have h' : a.eq P.field b = false := h
  have := h3 a b (wf a ha) (wf b hb) ha.1 hb.1
  cases h4 : a.lt P.field b with
  | true => exact .inl rfl
  | false =>
    cases h5 : b.lt P.field a with
    | true => exact .inr rfl
    | false => rw [this.1 ⟨h4, h5⟩] at h'; cases h'

theorem pr_length {K : Type} {m : MapCfg K (Option Nat)} {c : PMap K S} {items : List (K × S)} {n : Nat} (h : PR m c items n) : items.length ≤ n := by
  obtain ⟨l, used, hR, rfl, hL⟩ := h
  obtain ⟨bs, fl, hi, hp⟩ := hR.repr
  have h1 := hi.count
  have h2 := hp.length_eq
  have h3 := hR.bound
  simp only [List.length_map] at h2 ⊢
  omega

theorem step_ok (ok : P.Ok) {arity n : Nat} (hf : P.Fits n) {c : Cube α S} {s : St α S} (h : CR P arity n c s) (op : Op α S D) (ht : Typed arity op) :
    Over arity n s op ∨ ∃ c' o s', step P arity c op = .ok (c', o) ∧ Step P arity s op o s' ∧ CR P arity n c' s' := by
  obtain ⟨hb, hq, hbk, hqk⟩ := h
  have hbf : Fits (baseCfg P).cfg n := hf
  have hBK : BaseKeys P arity s.base := ⟨hbk, pr_dist hb⟩
  have hCK : CubeKeys P arity s.cube := ⟨hqk, pr_dist hq⟩
  cases op with
  | add k d =>
    rcases Nat.lt_or_ge s.base.length n with hlt | hge
    · right
      obtain ⟨b', e, hb'⟩ := pr_update (base_ok ok) rfl hb hbf hlt P.fresh k (fun s => P.add s d)
      refine ⟨⟨b', c.cube⟩, .unit, ⟨mput (tupleEq P.field) s.base k (P.add ((baseVal P s.base k).getD P.fresh) d), s.cube⟩, by simp [step, htsAdd, e], ⟨rfl, rfl, rfl⟩, ⟨hb', hq, ?_, hqk⟩⟩
      intro x hx
      rcases mput_mem hx with h1 | ⟨y, hy, h1⟩
      · rw [h1]; exact ht
      · rw [← h1]; exact hbk y hy
    · exact .inl hge
  | addToCube k v =>
    rcases Nat.lt_or_ge n (s.cube.length + 2 ^ arity) with hlt | hge
    · exact .inl hlt
    · right
      have ht' : k.length = arity := ht
      obtain ⟨q', new, e, hq', hof⟩ := cubeOf_rows ok hf arity [(k, v)] hq hCK (by simpa using ht') (by simpa using hge)
      have e' : addToCube P c.cube k v = .ok q' := by
        simp only [addAllToCube] at e
        cases hc : addToCube P c.cube k v with
        | ok x => rw [hc] at e; simpa using e
        | abort => rw [hc] at e; simp at e
        | ub => rw [hc] at e; simp at e
      exact ⟨⟨c.base, q'⟩, .unit, ⟨s.base, new⟩, by simp [step, e'], ⟨rfl, rfl, hof⟩, ⟨hb, hq', hbk, hof.1.1⟩⟩
  | cube =>
    rcases Nat.lt_or_ge n (s.cube.length + s.base.length * 2 ^ arity) with hlt | hge
    · exact .inl hlt
    · right
      obtain ⟨rows, e1, hp⟩ := pr_walk hb
      obtain ⟨q', new, e2, hq', hof⟩ := cubeOf_rows ok hf arity rows hq hCK (fun b hb => hbk b (hp.mem_iff.1 hb)) (by rw [hp.length_eq]; exact hge)
      exact ⟨⟨c.base, q'⟩, .unit, ⟨s.base, new⟩, by simp [step, cubeAll, e1, e2], ⟨rfl, rfl, rows, hp, hof⟩, ⟨hb, hq', hbk, hof.1.1⟩⟩
  | zeroCube z cz =>
    rcases Nat.lt_or_ge n (s.cube.length + s.base.length ^ arity * 2 ^ arity) with hlt | hge
    · exact .inl hlt
    · right
      obtain ⟨hut, rows, e0, e1, hz, hl⟩ := walkZeros_ok ok hf arity hb hBK (pr_length hb) z cz
      obtain ⟨q', new, e2, hq', hof⟩ := cubeOf_rows ok hf arity rows hq hCK (fun b hb => (hz.2.1 b hb).1)
        (Nat.le_trans (Nat.add_le_add_left (Nat.mul_le_mul_right _ hl) _) hge)
      exact ⟨⟨c.base, q'⟩, .unit, ⟨s.base, new⟩, by simp [step, zeroCube, zeroCubeIn, e0, e1, e2], ⟨rfl, rfl, rows, hz, hof⟩, ⟨hb, hq', hbk, hof.1.1⟩⟩
  | walkBase =>
    obtain ⟨l, e, hp⟩ := pr_walk hb
    exact .inr ⟨c, .base l, s, by simp [step, e], ⟨rfl, l, rfl, hp⟩, ⟨hb, hq, hbk, hqk⟩⟩
  | walkBaseOrdered =>
    obtain ⟨l, e, hp, hs⟩ := pr_walkOrdered hb (base_order ok arity) hbk
    exact .inr ⟨c, .base l, s, by simp [step, e], ⟨rfl, l, rfl, hp, hs⟩, ⟨hb, hq, hbk, hqk⟩⟩
  | walkZeros z cz =>
    obtain ⟨hut, rows, e0, e1, hz, hl⟩ := walkZeros_ok ok hf arity hb hBK (pr_length hb) z cz
    exact .inr ⟨c, .base rows, s, by simp [step, walkZeros, e0, e1], ⟨rfl, rows, rfl, hz⟩, ⟨hb, hq, hbk, hqk⟩⟩
  | walk =>
    obtain ⟨l, e, hp⟩ := pr_walk hq
    exact .inr ⟨c, .cube l, s, by simp [step, e], ⟨rfl, l, rfl, hp⟩, ⟨hb, hq, hbk, hqk⟩⟩
  | walkOrdered =>
    obtain ⟨l, e, hp, hs⟩ := pr_walkOrdered hq (cube_order ok arity) hqk
    exact .inr ⟨c, .cube l, s, by simp [step, e], ⟨rfl, l, rfl, hp, hs⟩, ⟨hb, hq, hbk, hqk⟩⟩
  | baseSize => exact .inr ⟨c, .nat (size c.base.data), s, rfl, ⟨rfl, by rw [pr_size hb]⟩, ⟨hb, hq, hbk, hqk⟩⟩
  | size => exact .inr ⟨c, .nat (size c.cube.data), s, rfl, ⟨rfl, by rw [pr_size hq]⟩, ⟨hb, hq, hbk, hqk⟩⟩
  | pruneBase sel =>
    obtain ⟨b', e, hb'⟩ := pr_prune (base_ok ok) hb sel
    exact .inr ⟨⟨b', c.cube⟩, .unit, ⟨s.base.filter fun x => !sel x.1, s.cube⟩, by simp [step, e], ⟨rfl, rfl, rfl⟩, ⟨hb', hq, fun x hx => hbk x (List.mem_filter.1 hx).1, hqk⟩⟩
  | prune sel =>
    obtain ⟨q', e, hq'⟩ := pr_prune (cube_ok ok) hq sel
    exact .inr ⟨⟨c.base, q'⟩, .unit, ⟨s.base, s.cube.filter fun x => !sel x.1⟩, by simp [step, e], ⟨rfl, rfl, rfl⟩, ⟨hb, hq', hbk, fun x hx => hqk x (List.mem_filter.1 hx).1⟩⟩
  | clear cb =>
    obtain ⟨q', e, hq', _⟩ := pr_clear hq
    cases cb with
    | true =>
      obtain ⟨b', e', hb', _⟩ := pr_clear hb
      exact .inr ⟨⟨b', q'⟩, .unit, ⟨[], []⟩, by simp [step, e, e'], ⟨rfl, rfl, rfl⟩, ⟨hb', hq', by simp, by simp⟩⟩
    | false => exact .inr ⟨⟨c.base, q'⟩, .unit, ⟨s.base, []⟩, by simp [step, e], ⟨rfl, rfl, rfl⟩, ⟨hb, hq', hbk, by simp⟩⟩

theorem run_ok (ok : P.Ok) {arity n : Nat} (hf : P.Fits n) : ∀ (ops : List (Op α S D)) (c : Cube α S) (s : St α S), CR P arity n c s →
    (∀ op ∈ ops, Typed arity op) → Run P arity n s ops ((run P arity c ops).map (·.2))
  | [], c, s, _, _ => rfl
  | op :: ops, c, s, h, ht => by
    rcases step_ok ok hf h op (ht op (List.mem_cons_self ..)) with ho | ⟨c', o, s', e, hst, h'⟩
    · exact .inl ho
    · right
      refine ⟨o, s', _, hst, run_ok ok hf ops c' s' h' (fun x hx => ht x (List.mem_cons_of_mem _ hx)), ?_⟩
      simp only [run, e, Res.bind_ok]
      cases run P arity c' ops <;> rfl

theorem cr_empty (P : Params α S D) (arity n : Nat) : CR P arity n Cube.empty ⟨[], []⟩ :=
  ⟨pr_empty _ _, pr_empty _ _, by simp, by simp⟩

end Verif.Cube
