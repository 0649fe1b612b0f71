import Verif.Quantile.Lemmas4

/-! # Quantiles -/

namespace Verif.Quantile

open Verif

variable {V : Type} [LinearOrder V]

theorem sorted_split {l : List V} (h : l.Pairwise (· ≤ ·)) {p : V → Bool} (hp : Down p) :
    (∀ v ∈ l.take (l.countP p), p v = true) ∧ ∀ v ∈ l.drop (l.countP p), p v = false := by
  induction l with
  | nil => simp
  | cons a l ih =>
    obtain ⟨h1, h2⟩ := List.pairwise_cons.1 h
    obtain ⟨i1, i2⟩ := ih h2
    cases ha : p a with
    | true =>
      rw [List.countP_cons_of_pos ha]
      simp only [List.take_succ_cons, List.drop_succ_cons, List.mem_cons]
      exact ⟨fun v hv => by rcases hv with rfl | hv; exacts [ha, i1 v hv], i2⟩
    | false =>
      have hall : ∀ v ∈ a :: l, p v = false := by
        intro v hv
        rcases List.mem_cons.1 hv with rfl | hv
        · exact ha
        · cases hv' : p v with
          | false => rfl
          | true => rw [hp a v (h1 v hv) hv'] at ha; cases ha
      have h0 : (a :: l).countP p = 0 := List.countP_eq_zero.2 fun v hv => by rw [hall v hv]; simp
      rw [h0]
      exact ⟨by simp, fun v hv => hall v (by simpa using hv)⟩

theorem countP_le_of_imp {p q : V → Bool} (h : ∀ v, p v = true → q v = true) (l : List V) : l.countP p ≤ l.countP q :=
  List.countP_mono_left fun v _ => h v

theorem bound_eq {l : List V} (h : l.Pairwise (· ≤ ·)) {pl p ph : V → Bool} (hp : Down p) (h1 : ∀ v, pl v = true → p v = true) (h2 : ∀ v, p v = true → ph v = true) :
    l.countP pl + (((l.take (l.countP ph)).drop (l.countP pl)).takeWhile p).length = l.countP p := by
  have ha := countP_le_of_imp h1 l
  have hb := countP_le_of_imp h2 l
  have hl : l.countP ph ≤ l.length := List.countP_le_length
  obtain ⟨s1, s2⟩ := sorted_split h hp
  have hsplit : (l.take (l.countP ph)).drop (l.countP pl) = (l.take (l.countP p)).drop (l.countP pl) ++ (l.take (l.countP ph)).drop (l.countP p) := by
    have : (l.take (l.countP p)) = (l.take (l.countP ph)).take (l.countP p) := by rw [List.take_take, Nat.min_eq_left hb]
    rw [this, ← List.drop_append_of_le_length (by rw [List.length_take, List.length_take]; omega), List.take_append_drop]
  rw [hsplit, List.takeWhile_append_of_pos (fun v hv => s1 v (List.mem_of_mem_drop hv))]
  have : ((l.take (l.countP ph)).drop (l.countP p)).takeWhile p = [] := by
    cases hc : (l.take (l.countP ph)).drop (l.countP p) with
    | nil => rfl
    | cons v r =>
      have hv : v ∈ l.drop (l.countP p) := by
        have : v ∈ (l.take (l.countP ph)).drop (l.countP p) := by rw [hc]; exact List.mem_cons_self ..
        rw [List.drop_take] at this
        exact List.mem_of_mem_take this
      rw [List.takeWhile_cons, s2 v hv]; rfl
  rw [this, List.append_nil, List.length_drop, List.length_take]
  omega

/-- The search state of one buffer: everything in `pl` is below the range, everything outside `ph` above. -/
structure BinOk (pl ph : V → Bool) (b : Bin V) : Prop where
  sorted : b.vals.Pairwise (· ≤ ·)
  min : b.min = b.vals.countP pl
  max : b.max = b.vals.countP ph
  weight : 0 < b.weight

def brk (p : V → Bool) (st : List (Bin V)) : Int := (st.map fun b => b.weight * (b.vals.countP p : Int)).sum

theorem down_lt (x : V) : Down (fun v => decide (v < x)) := fun a b h hb => by
  simp only [decide_eq_true_eq] at hb ⊢; exact lt_of_le_of_lt h hb
theorem down_le (x : V) : Down (fun v => decide (v ≤ x)) := fun a b h hb => by
  simp only [decide_eq_true_eq] at hb ⊢; exact le_trans h hb

theorem biggest_ok (st : List (Bin V)) : ∀ (bs : List (Bin V)) (best rem i : Nat), bs = st.drop i → i ≤ st.length →
    (∃ b, st[best]? = some b ∧ b.max - b.min = rem) → (∀ b ∈ st.take i, b.max - b.min ≤ rem) →
    ∃ b, st[biggest best rem i bs]? = some b ∧ ∀ b' ∈ st, b'.max - b'.min ≤ b.max - b.min
  | [], best, rem, i, hbs, hi, ⟨b, hb, hr⟩, hall => by
    have : st.take i = st := List.take_of_length_le (by
      have := congrArg List.length hbs
      simp at this; omega)
    rw [this] at hall
    exact ⟨b, hb, fun b' hb' => by rw [hr]; exact hall b' hb'⟩
  | b0 :: bs, best, rem, i, hbs, hi, hb, hall => by
    have hlt : i < st.length := by
      have := congrArg List.length hbs
      simp at this; omega
    rw [List.drop_eq_getElem_cons hlt, List.cons.injEq] at hbs
    obtain ⟨e1, e2⟩ := hbs
    have hti : st.take (i + 1) = st.take i ++ [b0] := by rw [List.take_add_one, List.getElem?_eq_getElem hlt, e1]; rfl
    rw [biggest]
    split
    · next hgt =>
      refine biggest_ok st bs i _ (i + 1) e2 (by omega) ⟨b0, by rw [List.getElem?_eq_getElem hlt, e1], rfl⟩ ?_
      intro b' hb'
      rw [hti] at hb'
      rcases List.mem_append.1 hb' with h | h
      · have := hall b' h; omega
      · rw [List.mem_singleton] at h; subst h; exact Nat.le_refl _
    · next hgt =>
      refine biggest_ok st bs best rem (i + 1) e2 (by omega) hb ?_
      intro b' hb'
      rw [hti] at hb'
      rcases List.mem_append.1 hb' with h | h
      · exact hall b' h
      · rw [List.mem_singleton] at h; subst h; omega

def width (st : List (Bin V)) : Nat := (st.map fun b => b.max - b.min).sum

theorem getElem_at (l : List V) (i j : Nat) (hi : i < l.length) (hj : j < l.length) (h : i = j) : l[i] = l[j] := by subst h; rfl

theorem isum_congr (f g : Bin V → Int) (st : List (Bin V)) (h : ∀ b ∈ st, f b = g b) : (st.map f).sum = (st.map g).sum := by
  rw [List.map_congr_left h]

theorem isum_neg (f : Bin V → Int) : ∀ st : List (Bin V), (st.map fun b => -(f b)).sum = -(st.map f).sum
  | [] => by simp
  | b :: st => by simp only [List.map_cons, List.sum_cons, isum_neg f st]; ring

theorem exists_wide {pl ph : V → Bool} {st : List (Bin V)} (h : ∀ b ∈ st, BinOk pl ph b) (hlt : brk pl st < brk ph st) : ∃ b ∈ st, b.min < b.max := by
  by_contra hno
  have hno : ∀ b ∈ st, b.max ≤ b.min := fun b hb => not_lt.1 fun h => hno ⟨b, hb, h⟩
  have : brk ph st ≤ brk pl st := by
    unfold brk
    refine List.sum_le_sum fun b hb => ?_
    have h1 := h b hb
    have h2 := hno b hb
    rw [h1.min, h1.max] at h2
    have := h1.weight
    exact mul_le_mul_of_nonneg_left (by exact_mod_cast h2) (le_of_lt this)
  omega

theorem width_lt {st : List (Bin V)} (f : Bin V → Bin V) (hle : ∀ b ∈ st, (f b).max - (f b).min ≤ b.max - b.min) {b0 : Bin V} (hb0 : b0 ∈ st)
    (hlt : (f b0).max - (f b0).min < b0.max - b0.min) : width (st.map f) < width st := by
  unfold width
  rw [List.map_map]
  exact List.sum_lt_sum _ _ (fun b hb => hle b hb) ⟨b0, hb0, hlt⟩

theorem binSearch_ok (target entries : Nat) : ∀ (fuel : Nat) (st : List (Bin V)) (pl ph : V → Bool), Down pl → Down ph →
    (∀ b ∈ st, BinOk pl ph b) → brk pl st ≤ target → (target : Int) < brk ph st → (st.map fun b => b.weight * (b.vals.length : Int)).sum = entries →
    width st < fuel →
    ∃ x, binSearch target entries fuel st = .ok x ∧ brk (fun v => decide (v < x)) st ≤ target ∧ (target : Int) < brk (fun v => decide (v ≤ x)) st ∧
      ∃ b ∈ st, x ∈ b.vals
  | 0, _, _, _, _, _, _, _, _, _, h => absurd h (Nat.not_lt_zero _)
  | fuel + 1, st, pl, ph, dl, dh, hst, hlo, hhi, hent, hfuel => by
    obtain ⟨bw, hbw, hwide⟩ := exists_wide hst (lt_of_le_of_lt hlo hhi)
    cases hs : st with
    | nil => rw [hs] at hbw; simp at hbw
    | cons b0 bs =>
      obtain ⟨b, hb, hbig⟩ := biggest_ok st bs 0 (b0.max - b0.min) 1 (by rw [hs]; rfl) (by rw [hs]; simp)
        ⟨b0, by rw [hs]; rfl, rfl⟩ (by intro b' hb'; rw [hs] at hb'; simp at hb'; subst hb'; exact Nat.le_refl _)
      have hbm : b ∈ st := List.mem_of_getElem? hb
      have hB := hst b hbm
      have hmm : b.min < b.max := by have := hbig bw hbw; omega
      have hmaxlen : b.max ≤ b.vals.length := by rw [hB.max]; exact List.countP_le_length
      have hmid : (b.max + b.min) / 2 < b.vals.length := by omega
      set x := b.vals[(b.max + b.min) / 2] with hx
      have hxph : ph x = true := (sorted_split hB.sorted dh).1 x (by
        rw [← hB.max]
        exact List.mem_take_iff_getElem.2 ⟨(b.max + b.min) / 2, by omega, rfl⟩)
      have hxpl : pl x = false := (sorted_split hB.sorted dl).2 x (by
        rw [← hB.min]
        exact List.mem_drop_iff_getElem.2 ⟨(b.max + b.min) / 2 - b.min, by omega, by rw [hx]; congr 1; omega⟩)
      have i1 : ∀ v, pl v = true → decide (v < x) = true := fun v hv => by
        simp only [decide_eq_true_eq]
        by_contra hn
        rw [dl x v (not_lt.1 hn) hv] at hxpl; cases hxpl
      have i2 : ∀ v, decide (v < x) = true → decide (v ≤ x) = true := fun v hv => by
        simp only [decide_eq_true_eq] at hv ⊢; exact le_of_lt hv
      have i3 : ∀ v, decide (v ≤ x) = true → ph v = true := fun v hv => by
        simp only [decide_eq_true_eq] at hv; exact dh v x hv hxph
      have hlow : ∀ b' ∈ st, b'.lower x = b'.vals.countP (fun v => decide (v < x)) := fun b' hb' => by
        have h' := hst b' hb'
        unfold Bin.lower
        rw [h'.min, h'.max]
        exact bound_eq h'.sorted (down_lt x) i1 (fun v hv => i3 v (i2 v hv))
      have hupp : ∀ b' ∈ st, b'.upper x = b'.vals.countP (fun v => decide (v ≤ x)) := fun b' hb' => by
        have h' := hst b' hb'
        unfold Bin.upper
        rw [h'.min, h'.max]
        exact bound_eq h'.sorted (down_le x) (fun v hv => i2 v (i1 v hv)) i3
      have hcl : (st.map fun b => b.weight * (b.lower x : Int)).sum = brk (fun v => decide (v < x)) st :=
        isum_congr _ _ st fun b' hb' => by rw [hlow b' hb']
      have hcm : (st.map fun b => b.weight * ((b.upper x : Int) - b.lower x)).sum = brk (fun v => decide (v ≤ x)) st - brk (fun v => decide (v < x)) st := by
        rw [isum_congr _ (fun b => b.weight * (b.vals.countP (fun v => decide (v ≤ x)) : Int) + -(b.weight * (b.vals.countP (fun v => decide (v < x)) : Int))) st
          (fun b' hb' => by rw [hlow b' hb', hupp b' hb']; ring)]
        rw [List.sum_map_add]
        unfold brk
        have : (st.map fun b => -(b.weight * (b.vals.countP (fun v => decide (v < x)) : Int))).sum =
            -(st.map fun b => b.weight * (b.vals.countP (fun v => decide (v < x)) : Int)).sum := isum_neg _ st
        rw [this]; ring
      have hcu : (st.map fun b => b.weight * ((b.vals.length : Int) - b.upper x)).sum = entries - brk (fun v => decide (v ≤ x)) st := by
        rw [isum_congr _ (fun b => b.weight * (b.vals.length : Int) + -(b.weight * (b.vals.countP (fun v => decide (v ≤ x)) : Int))) st
          (fun b' hb' => by rw [hupp b' hb']; ring)]
        rw [List.sum_map_add, hent]
        unfold brk
        have : (st.map fun b => -(b.weight * (b.vals.countP (fun v => decide (v ≤ x)) : Int))).sum =
            -(st.map fun b => b.weight * (b.vals.countP (fun v => decide (v ≤ x)) : Int)).sum := isum_neg _ st
        rw [this]; ring
      have hbeq : b0 :: bs = st := hs.symm
      have hrd : PQ.rd st (biggest 0 (b0.max - b0.min) 1 bs) = .ok b := by simp [PQ.rd, hb]
      have hrx : PQ.rd b.vals ((b.max + b.min) / 2) = .ok x := by simp [PQ.rd, List.getElem?_eq_getElem hmid, hx]
      rw [binSearch]
      simp only []
      rw [hbeq, hrd]
      simp only [Res.bind_ok]
      rw [hrx]
      simp only [Res.bind_ok]
      rw [hcl, hcm, hcu]
      have hreq : brk (fun v => decide (v < x)) st + (brk (fun v => decide (v ≤ x)) st - brk (fun v => decide (v < x)) st) +
          (entries - brk (fun v => decide (v ≤ x)) st) = (entries : Int) := by ring
      rw [hreq]
      simp only [decide_true, Res.require_true, Res.bind_ok]
      -- where the middle value sits in its own buffer
      have hsorted := List.pairwise_iff_getElem.1 hB.sorted
      have hxlow : b.lower x ≤ (b.max + b.min) / 2 := by
        rw [hlow b hbm]
        by_contra hgt
        have := (sorted_split hB.sorted (down_lt x)).1 x (List.mem_take_iff_getElem.2 ⟨(b.max + b.min) / 2, by omega, rfl⟩)
        simp at this
      have hxupp : (b.max + b.min) / 2 < b.upper x := by
        rw [hupp b hbm]
        by_contra hgt
        have := (sorted_split hB.sorted (down_le x)).2 x (List.mem_drop_iff_getElem.2
          ⟨(b.max + b.min) / 2 - b.vals.countP (fun v => decide (v ≤ x)), by omega, getElem_at _ _ _ _ _ (by omega)⟩)
        simp at this
      split
      · next hlt =>
        have hall : (st.all fun b => decide (b.min ≤ b.lower x)) = true := List.all_eq_true.2 fun b' hb' => by
          rw [decide_eq_true_eq, hlow b' hb', (hst b' hb').min]; exact countP_le_of_imp i1 _
        have hany : (st.any fun b => decide (b.max ≠ b.lower x)) = true := List.any_eq_true.2 ⟨b, hbm, by rw [decide_eq_true_eq]; omega⟩
        rw [hall, hany]
        simp only [Res.require_true, Res.bind_ok]
        have hmap : ∀ (p : V → Bool), brk p (st.map fun b => { b with max := b.lower x }) = brk p st := fun p => by
          unfold brk; rw [List.map_map]; rfl
        obtain ⟨y, e, g1, g2, b', hb', hy⟩ := binSearch_ok target entries fuel (st.map fun b => { b with max := b.lower x }) pl (fun v => decide (v < x)) dl (down_lt x)
          (by
            intro b' hb'
            obtain ⟨b1, hb1, rfl⟩ := List.mem_map.1 hb'
            exact ⟨(hst b1 hb1).sorted, (hst b1 hb1).min, hlow b1 hb1, (hst b1 hb1).weight⟩)
          (by rw [hmap]; exact hlo) (by rw [hmap]; exact hlt) (by rw [List.map_map]; exact hent)
          (by
            have := width_lt (st := st) (fun b => { b with max := b.lower x }) (fun b' hb' => by
              show b'.lower x - b'.min ≤ _
              have h1 := hlow b' hb'
              have h2 := (hst b' hb').max
              have h3 := countP_le_of_imp (fun v hv => i3 v (i2 v hv)) b'.vals
              omega) hbm (by show b.lower x - b.min < _; omega)
            omega)
        rw [hmap] at g1 g2
        obtain ⟨b1, hb1, rfl⟩ := List.mem_map.1 hb'
        exact ⟨y, e, g1, g2, b1, hb1, hy⟩
      · next hge =>
        split
        · next hlt2 =>
          exact ⟨x, rfl, not_lt.1 hge, by linarith, b, hbm, List.getElem_mem _⟩
        · next hge2 =>
          have hall : (st.all fun b => decide (b.upper x ≤ b.max)) = true := List.all_eq_true.2 fun b' hb' => by
            rw [decide_eq_true_eq, hupp b' hb', (hst b' hb').max]; exact countP_le_of_imp i3 _
          have hany : (st.any fun b => decide (b.min ≠ b.upper x)) = true := List.any_eq_true.2 ⟨b, hbm, by rw [decide_eq_true_eq]; omega⟩
          rw [hall, hany]
          simp only [Res.require_true, Res.bind_ok]
          have hmap : ∀ (p : V → Bool), brk p (st.map fun b => { b with min := b.upper x }) = brk p st := fun p => by
            unfold brk; rw [List.map_map]; rfl
          obtain ⟨y, e, g1, g2, b', hb', hy⟩ := binSearch_ok target entries fuel (st.map fun b => { b with min := b.upper x }) (fun v => decide (v ≤ x)) ph (down_le x) dh
            (by
              intro b' hb'
              obtain ⟨b1, hb1, rfl⟩ := List.mem_map.1 hb'
              exact ⟨(hst b1 hb1).sorted, hupp b1 hb1, (hst b1 hb1).max, (hst b1 hb1).weight⟩)
            (by rw [hmap]; linarith) (by rw [hmap]; exact hhi) (by rw [List.map_map]; exact hent)
            (by
              have := width_lt (st := st) (fun b => { b with min := b.upper x }) (fun b' hb' => by
                show b'.max - b'.upper x ≤ _
                have h1 := hupp b' hb'
                have h2 := (hst b' hb').min
                have h3 := countP_le_of_imp (fun v hv => i2 v (i1 v hv)) b'.vals
                omega) hbm (by show b.max - b.upper x < _; omega)
              omega)
          rw [hmap] at g1 g2
          obtain ⟨b1, hb1, rfl⟩ := List.mem_map.1 hb'
          exact ⟨y, e, g1, g2, b1, hb1, hy⟩

/-! ## Getting there -/

theorem sortAll_ok (c : Consts V) {k cur pos : Nat} {x : Slot V} {last : List V} {lv : Nat} (hx : IsLast k x last lv) (hpos : pos = last.length) (rest : List (Slot V)) :
    ∀ (fs : List (Slot V)) (bs : List (Buf V)) (i : Nat), List.Forall₂ (IsFull k) fs bs → i + fs.length = cur → cur < k →
    ∃ x' last', sortAll c k cur pos (fs.length + 1) i (fs ++ x :: rest) = .ok (fs ++ x' :: rest) ∧ IsLast k x' last' lv ∧ last'.Perm last ∧
      last'.Pairwise (· ≤ ·) ∧ x'.weight = 1
  | [], [], i, _, hi, hk => by
    simp only [List.length_nil, Nat.add_zero] at hi
    subst hi
    simp only [List.length_nil, Nat.zero_add, List.nil_append, sortAll, sortForQuery, hk, if_true]
    cases hs : x.sorted with
    | true => exact ⟨x, last, by simp, hx, List.Perm.refl _, hx.sorted hs, hx.weight⟩
    | false =>
      simp only [Bool.false_eq_true, if_false, Nat.lt_irrefl]
      obtain ⟨r, hb, hr⟩ := hx.buf
      rw [sortSlot_ok hb hpos]
      simp only [Res.bind_ok, Res.pure_eq, Option.map_some]
      have hfi : fillInf c ((srt last).map some ++ r) pos = (srt last).map some ++ r.map (fun _ => some c.inf) := by
        unfold fillInf
        have h1 : pos = ((srt last).map some).length := by rw [List.length_map, srt_length, hpos]
        rw [h1, List.take_append_of_le_length (Nat.le_refl _), List.take_length, List.drop_append_of_le_length (Nat.le_refl _), List.drop_length,
          List.nil_append]
      rw [hfi]
      exact ⟨_, srt last, rfl, ⟨⟨_, rfl, by rw [srt_length, List.length_map]; exact hr⟩, fun _ => srt_pairwise last, hx.weight, hx.level⟩, srt_perm last,
        srt_pairwise last, hx.weight⟩
  | y :: fs, d :: bs, i, h, hi, hk => by
    obtain ⟨h1, h2⟩ := List.forall₂_cons.1 h
    simp only [List.length_cons] at hi
    obtain ⟨x', last', e, g⟩ := sortAll_ok c hx hpos rest fs bs (i + 1) h2 (by omega) hk
    refine ⟨x', last', ?_, g⟩
    rw [List.cons_append, List.length_cons, sortAll]
    have : sortForQuery c k cur pos i y = .ok y := by
      unfold sortForQuery
      rw [if_pos (by omega), h1.flag]; rfl
    rw [this]
    simp only [Res.bind_ok]
    rw [e]
    rfl

theorem binsFull_ok {k : Nat} : ∀ {fs : List (Slot V)} {bs : List (Buf V)}, List.Forall₂ (IsFull k) fs bs →
    binsFull k fs = .ok (bs.map fun d => ⟨d.vals, (d.wt : Int), 0, d.vals.length⟩)
  | [], [], _ => rfl
  | x :: fs, d :: bs, h => by
    obtain ⟨h1, h2⟩ := List.forall₂_cons.1 h
    have htk : (d.vals.map some).take k = d.vals.map some := List.take_of_length_le (by rw [List.length_map, h1.len])
    simp only [binsFull, h1.buf, nonNull, Res.bind_ok, htk, cells_map, binsFull_ok h2, h1.weight, Res.pure_eq, List.map_cons]

theorem brk_bins (p : V → Bool) : ∀ bs : List (Buf V), brk p (bs.map fun d => ⟨d.vals, (d.wt : Int), 0, d.vals.length⟩) = (wrk p bs : Int)
  | [] => rfl
  | d :: bs => by
    have := brk_bins p bs
    unfold brk wrk at this ⊢
    simp only [List.map_cons, List.sum_cons, this]
    push_cast; rfl

theorem brk_append (p : V → Bool) (a b : List (Bin V)) : brk p (a ++ b) = brk p a + brk p b := by simp [brk]

theorem weights_full {k : Nat} : ∀ {fs : List (Slot V)} {bs : List (Buf V)}, List.Forall₂ (IsFull k) fs bs →
    (fs.map fun x => x.weight * (k : Int)).sum = ((wsum bs * k : Nat) : Int)
  | [], [], _ => by simp [wsum]
  | x :: fs, d :: bs, h => by
    obtain ⟨h1, h2⟩ := List.forall₂_cons.1 h
    have := weights_full h2
    unfold wsum at this ⊢
    simp only [List.map_cons, List.sum_cons, this, h1.weight]
    push_cast; ring

/-- The answer to a query: a stored value, its rank as requested up to the error made so far. -/
theorem query_ok (c : Consts V) (s : Sk V) {vals : List V} {xl xh : Nat} (hI : Inv s vals xl xh) (hc : s.count = vals.length) (hne : vals ≠ [])
    (target : Nat) (ht : target < vals.length) (allow : Bool) (hb : s.count ≤ s.nbound ∨ allow = true) (hcount : s.count < 100000000000000) :
    ∃ s' x, query c s target allow = .ok (s', some x) ∧ Inv s' vals xl xh ∧ Same s s' ∧ s'.lo = s.lo ∧ s'.hi = s.hi ∧ x ∈ vals ∧
      vals.countP (fun v => decide (v < x)) ≤ target + s.lo ∧ target < vals.countP (fun v => decide (v ≤ x)) + s.hi := by
  obtain ⟨bs, last, ⟨hB, hS⟩, hR, hT, hnl⟩ := hI
  rcases hS with ⟨g1, g2, rfl, rfl⟩ | ⟨hcur, hp, fs, x, rest, lv, hslots, hfs, hx, hlev, hlv0⟩
  · exact absurd (List.length_eq_zero_iff.1 (by simpa [wsum] using hR.total.symm)) hne
  · have hbl : bs.length = fs.length := hfs.length_eq.symm
    have hslen : s.slots.length = fs.length + 1 + rest.length := by rw [hslots]; simp; omega
    have hroom := hB.room
    obtain ⟨x', last', e1, hx', hperm, hsort, hw'⟩ := sortAll_ok c hx hp rest fs bs 0 hfs (Nat.zero_add _) (by omega)
    have hll : last'.length = last.length := hperm.length_eq
    have hlast : last ≠ [] := by
      by_cases h : bs = []
      · subst h
        intro h0
        subst h0
        exact hne (List.length_eq_zero_iff.1 (by simpa [wsum] using hR.total.symm))
      · exact hnl h
    have hlp : 0 < last.length := List.length_pos_iff.2 hlast
    set s' : Sk V := { s with slots := fs ++ x' :: rest } with hs'
    have hlen' : s'.slots.length = s.slots.length := by rw [hslen]; simp [hs']; omega
    have hI' : Inv s' vals xl xh := by
      refine ⟨bs, last', ⟨⟨by rw [hlen']; exact hB.two, hB.ten, by rw [hlen']; exact hB.room, hB.int, ?_⟩,
        Or.inr ⟨hcur, by show s.pos = _; rw [hll]; exact hp, fs, x', rest, lv, rfl, hfs, hx', hlev, hlv0⟩⟩, ⟨?_, ?_, ?_, hR.memF, ?_⟩, ?_, ?_⟩
      · intro z hz
        have hz : z ∈ fs ++ x' :: rest := hz
        show (∀ b, z.buf = some b → b.length = s.size) ∧ (z.buf = none → s.lazy = true)
        rcases List.mem_append.1 hz with hz | hz
        · exact hB.bufs z (by rw [hslots]; exact List.mem_append_left _ hz)
        · rcases List.mem_cons.1 hz with rfl | hz
          · obtain ⟨r, hb', hr'⟩ := hx'.buf
            rw [hb']
            refine ⟨fun b hb => ?_, by simp⟩
            rw [← Option.some.inj hb, List.length_append, List.length_map]; exact hr'
          · exact hB.bufs z (by rw [hslots]; exact List.mem_append_right _ (List.mem_cons_of_mem _ hz))
      · rw [hll]; exact hR.total
      · intro p hp'; rw [hperm.countP_eq]; exact hR.upper p hp'
      · intro p hp'; rw [hperm.countP_eq]; exact hR.lower p hp'
      · intro v hv; exact hR.memL v (hperm.mem_iff.1 hv)
      · unfold Tree at hT ⊢
        rw [hlen']; exact hT
      · intro _ h0; rw [h0] at hll; simp at hll; omega
    -- the search
    set st : List (Bin V) := (bs.map fun d => ⟨d.vals, (d.wt : Int), 0, d.vals.length⟩) ++ [⟨last', 1, 0, last'.length⟩] with hst
    have hbrk : ∀ p, brk p st = ((wrk p bs + last.countP p : Nat) : Int) := by
      intro p
      rw [hst, brk_append, brk_bins]
      simp only [brk, List.map_cons, List.map_nil, List.sum_cons, List.sum_nil, hperm.countP_eq]
      push_cast; ring
    have hBin : ∀ b ∈ st, BinOk (fun _ => false) (fun _ => true) b := by
      intro b hb
      rcases List.mem_append.1 hb with hb | hb
      · obtain ⟨d, hd, rfl⟩ := List.mem_map.1 hb
        obtain ⟨i, hi, rfl⟩ := List.getElem_of_mem hd
        have h := (List.forall₂_iff_get.1 hfs).2 i (by omega) hi
        exact ⟨h.sorted, by simp, by simp, by simpa using h.pos⟩
      · rw [List.mem_singleton] at hb
        subst hb
        exact ⟨hsort, by simp, by simp, by simp⟩
    have htot : wrk (fun _ => true) bs + last.countP (fun _ => true) = vals.length := by
      rw [wsum_le_wrk_true hfs, List.countP_eq_length.2 (fun _ _ => rfl)]; exact hR.total
    have hentries : (st.map fun b => b.weight * (b.vals.length : Int)).sum = (s.count : Int) := by
      have h := hbrk (fun _ => true)
      rw [htot] at h
      rw [hc, ← h]
      unfold brk
      refine isum_congr _ _ st fun b _ => ?_
      rw [List.countP_eq_length.2 (fun _ _ => rfl)]
    obtain ⟨v, e2, r1, r2, bm, hbm, hv⟩ := binSearch_ok target s.count (st.map (fun b : Bin V => b.vals.length)).sum.succ st (fun _ => false) (fun _ => true)
      (fun _ _ _ h => h) (fun _ _ _ h => h) hBin (by rw [hbrk]; simp [wrk]) (by rw [hbrk, htot]; exact_mod_cast ht) hentries (by
        have : width st = (st.map (fun b : Bin V => b.vals.length)).sum := by
          unfold width
          refine congrArg List.sum (List.map_congr_left fun b hb => ?_)
          have h := hBin b hb
          rw [h.min, h.max]; simp
        omega)
    rw [hbrk] at r1 r2
    refine ⟨s', v, ?_, hI', ⟨rfl, hlen', rfl, rfl, rfl⟩, rfl, rfl, ?_, ?_, ?_⟩
    · unfold query
      have hvl := List.length_pos_iff.2 hne
      rw [if_neg (by omega)]
      have hreq : (decide (s.count ≤ s.nbound) || allow) = true := by
        rcases hb with hb | hb
        · simp [hb]
        · simp [hb]
      rw [hreq]
      simp only [Res.require_true, Res.bind_ok]
      have h1 : s.cur1 - 1 = fs.length := by omega
      have h2 : s.cur1 = fs.length + 1 := by omega
      rw [h1, h2, hslots, e1]
      simp only [Res.bind_ok, hcount, decide_true, Res.require_true]
      have hby : byBinSearch s' fs.length target = .ok v := by
        unfold byBinSearch
        have h3 : s'.slots.take fs.length = fs := by simp [hs']
        rw [h3]
        have hsz : s'.size = s.size := rfl
        rw [hsz, binsFull_ok hfs]
        simp only [Res.bind_ok]
        have h4 : binsLast s' fs.length = .ok [⟨last', 1, 0, last'.length⟩] := by
          unfold binsLast
          have h5 : s'.pos > 0 := by show s.pos > 0; omega
          rw [if_pos h5]
          have h6 : PQ.rd s'.slots fs.length = .ok x' := rd_mid _ _ _ rfl
          rw [h6]
          simp only [Res.bind_ok]
          obtain ⟨r, hb', hr'⟩ := hx'.buf
          have h7 : s'.pos = last'.length := by show s.pos = _; rw [hll]; exact hp
          have h8 : (last'.map some ++ r).take last'.length = last'.map some := by rw [List.take_append_of_le_length (by simp)]; simp
          rw [hb', h7]
          simp only [nonNull, Res.bind_ok, h8, cells_map, Res.pure_eq, hw']
        rw [h4]
        simp only [Res.bind_ok]
        have h9 : ((fs.map fun x => x.weight * (s.size : Int)).sum + (s'.pos : Int)) = (s'.count : Int) := by
          rw [weights_full hfs]
          show _ + (s.pos : Int) = (s.count : Int)
          rw [hc, ← hR.total, hp]; push_cast; rfl
        rw [h9]
        simp only [decide_true, Res.require_true, Res.bind_ok]
        exact e2
      have hs1 : ({ s with slots := fs ++ x' :: rest, cur1 := fs.length + 1 } : Sk V) = s' := by rw [hs', ← h2]
      rw [hs1, hby]; rfl
    · rcases List.mem_append.1 hbm with hbm | hbm
      · obtain ⟨d, hd, rfl⟩ := List.mem_map.1 hbm
        exact hR.memF d hd v hv
      · rw [List.mem_singleton] at hbm
        subst hbm
        exact hR.memL v (hperm.mem_iff.1 hv)
    · have h1 := hR.lower _ (down_lt v)
      have : wrk (fun w => decide (w < v)) bs + last.countP (fun w => decide (w < v)) ≤ target := by exact_mod_cast r1
      omega
    · have h1 := hR.upper _ (down_le v)
      have : target < wrk (fun w => decide (w ≤ v)) bs + last.countP (fun w => decide (w ≤ v)) := by exact_mod_cast r2
      omega

end Verif.Quantile
