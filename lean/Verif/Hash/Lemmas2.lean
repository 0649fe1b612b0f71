import Verif.Hash.Lemmas

/-! # HashTable: removal, clearing, iteration -/

namespace Verif.Hash

variable {α : Type} {c : Cfg α} {t : Table α} {bs : List (List (Cell α))} {fl : List (Cell α)}

theorem set_get_ne {ch : List (Entry α)} {i j : Nat} {e : Entry α} (h : i ≠ j) :
    (ch.set i e)[j]? = ch[j]? := List.getElem?_set_ne h

/-- Taking cell `p` out of bucket `b` and putting it on the free list: the invariant of the
resulting table, given the new links of the bucket. -/
theorem unlink_inv (h : Inv c t bs fl) {b : Nat} {l1 l2 : List (Cell α)} {p : Cell α}
    (hb : bs[b]? = some (l1 ++ p :: l2)) {ch' : List (Entry α)} {entry' : List (Option Nat)} {d : α} {o' : Option Nat}
    (hlen : ch'.length = t.chains.length) (helen : entry'.length = t.entry.length)
    (hget : ch'[p.1]? = some ⟨d, t.free⟩)
    (hother : ∀ o l, IsChain t.chains o l → (∀ q ∈ l.map (·.1), q ∉ (l1 ++ p :: l2).map (·.1)) → IsChain ch' o l)
    (hthis : entry'[b]? = some o' ∧ IsChain ch' o' (l1 ++ l2))
    (hentry : ∀ b', b' ≠ b → entry'[b']? = t.entry[b']?) :
    Inv c { entry := entry', chains := ch', free := some p.1, freeSize := t.freeSize + 1 }
      (bs.set b (l1 ++ l2)) ((p.1, d) :: fl) := by
  have hbl : b < bs.length := lt_of_getElem? hb
  have hnd := h.nodup
  exact {
    len := by simp only [List.length_set, helen]; exact h.len
    chain := by
      intro b' l' hl'
      by_cases hbb : b = b'
      · subst hbb
        rw [List.getElem?_set_self hbl] at hl'
        injection hl' with hl'
        subst hl'
        exact ⟨o', hthis⟩
      · rw [List.getElem?_set_ne hbb] at hl'
        obtain ⟨o, h1, h2⟩ := h.chain b' l' hl'
        refine ⟨o, by rw [hentry b' (fun e => hbb e.symm)]; exact h1, hother o l' h2 ?_⟩
        intro q hq
        exact nodup_flatten_bucket h.nodup_live hl' hb (fun e => hbb e.symm) hq
    hash := by
      intro b' l' hl' q hq
      simp only [helen]
      by_cases hbb : b = b'
      · subst hbb
        rw [List.getElem?_set_self hbl] at hl'
        injection hl' with hl'
        subst hl'
        apply h.hash b _ hb q
        rcases List.mem_append.1 hq with hq | hq
        · exact List.mem_append_left _ hq
        · exact List.mem_append_right _ (List.mem_cons_of_mem _ hq)
      · rw [List.getElem?_set_ne hbb] at hl'
        exact h.hash b' l' hl' q hq
    free := by
      refine ⟨rfl, t.free, hget, hother _ _ h.free ?_⟩
      intro q hq hq'
      obtain ⟨x, hx, hxe⟩ := List.mem_map.1 hq'
      refine (List.nodup_append.1 hnd).2.2 q ?_ q hq rfl
      rw [← hxe]
      exact List.mem_map_of_mem (mem_flatten_of_getElem? hb hx)
    fsize := by simp only [List.length_cons, h.fsize]
    perm := by
      simp only [hlen]
      refine List.Perm.trans ?_ h.perm
      have hp := (flatten_set_erase bs b l1 l2 p hb).map (·.1)
      simp only [List.map_cons] at hp ⊢
      refine List.perm_middle.trans ?_
      exact (List.Perm.append_right _ hp.symm)
    cap := by simp only [helen]; exact h.cap
    nz := by simp only [helen, hlen]; exact h.nz }

/-- Unlink the head of a bucket. -/
theorem unlink_head (h : Inv c t bs fl) {b : Nat} {l2 : List (Cell α)} {p : Cell α}
    (hb : bs[b]? = some (p :: l2)) {nx : Option Nat} (hp : t.chains[p.1]? = some ⟨p.2, nx⟩) :
    Inv c { entry := t.entry.set b nx, chains := t.chains.set p.1 ⟨c.dflt, t.free⟩, free := some p.1,
            freeSize := t.freeSize + 1 } (bs.set b l2) ((p.1, c.dflt) :: fl) := by
  have hbl : b < bs.length := lt_of_getElem? hb
  have hel : b < t.entry.length := by rw [← h.len]; exact hbl
  have hnb := nodup_bucket h.nodup_live hb
  simp only [List.map_cons, List.nodup_cons] at hnb
  obtain ⟨o, ho, hc⟩ := h.chain b _ hb
  obtain ⟨_, nx', hg, hrest⟩ := hc
  rw [hp] at hg
  have : nx = nx' := by injection hg with hg; injection hg
  subst this
  refine unlink_inv (l1 := []) h hb (d := c.dflt) (o' := nx) (by simp) (by simp) ?_ ?_ ?_ ?_
  · rw [List.getElem?_set_self (lt_of_getElem? hp)]
  · intro o l hl hdis
    apply hl.frame_set
    intro hm
    exact hdis _ hm (by simp)
  · refine ⟨by rw [List.getElem?_set_self hel], ?_⟩
    exact hrest.frame_set hnb.1
  · intro b' hb'
    exact List.getElem?_set_ne (fun e => hb' e.symm)

/-- Unlink a later cell of a bucket. -/
theorem unlink_mid (h : Inv c t bs fl) {b : Nat} {l1 l2 : List (Cell α)} {q p : Cell α}
    (hb : bs[b]? = some (l1 ++ q :: p :: l2)) {nx nq : Option Nat} (hq : t.chains[q.1]? = some ⟨q.2, nq⟩)
    (hp : t.chains[p.1]? = some ⟨p.2, nx⟩) :
    Inv c { t with chains := (t.chains.set q.1 ⟨q.2, nx⟩).set p.1 ⟨c.dflt, t.free⟩, free := some p.1,
                   freeSize := t.freeSize + 1 } (bs.set b (l1 ++ q :: l2)) ((p.1, c.dflt) :: fl) := by
  have hbl : b < bs.length := lt_of_getElem? hb
  have hel : b < t.entry.length := by rw [← h.len]; exact hbl
  have hnb := nodup_bucket h.nodup_live hb
  obtain ⟨o, ho, hc⟩ := h.chain b _ hb
  have hb2 : bs[b]? = some ((l1 ++ [q]) ++ p :: l2) := by rw [hb]; simp
  have hcell : l1 ++ q :: l2 = (l1 ++ [q]) ++ l2 := by simp
  rw [hcell]
  refine unlink_inv h hb2 (d := c.dflt) (o' := o) (by simp) rfl ?_ ?_ ?_ ?_
  · rw [List.getElem?_set_self (by rw [List.length_set]; exact lt_of_getElem? hp)]
  · intro o l hl hdis
    apply IsChain.frame_set
    · apply hl.frame_set
      intro hm
      exact hdis _ hm (by simp)
    · intro hm
      exact hdis _ hm (by simp)
  · refine ⟨ho, ?_⟩
    rw [← hcell]
    have hu := hc.unlink hnb hq hp
    apply hu.frame_set
    rw [List.map_append, List.map_cons, List.map_cons, List.nodup_append] at hnb
    intro hm
    rw [List.map_append, List.map_cons] at hm
    rcases List.mem_append.1 hm with hm | hm
    · exact hnb.2.2 p.1 hm p.1 (by simp) rfl
    · have h2 := hnb.2.1
      simp only [List.nodup_cons, List.mem_cons, not_or] at h2
      rcases List.mem_cons.1 hm with hm | hm
      · exact h2.1.1 hm.symm
      · exact h2.2.1 hm
  · intro b' hb'; rfl

/-! ## remove -/

theorem removeLoop_ok (key : α) (mustExist : Bool) (h : Inv c t bs fl) {b : Nat} : ∀ (l1 : List (Cell α)) (q : Cell α)
    (l2 : List (Cell α)) (fuel : Nat), bs[b]? = some (l1 ++ q :: l2) → l2.length < fuel →
    (∀ r ∈ l1 ++ [q], c.eq key r.2 = false) →
    ((∀ p ∈ l2, c.eq key p.2 = false) ∧
      removeLoop c key mustExist t fuel q.1 = (if mustExist then .abort else .ok (t, false))) ∨
    ∃ m1 p m2 t', l1 ++ q :: l2 = m1 ++ p :: m2 ∧ c.eq key p.2 = true ∧ (∀ r ∈ m1, c.eq key r.2 = false) ∧
      removeLoop c key mustExist t fuel q.1 = .ok (t', true) ∧
      Inv c t' (bs.set b (m1 ++ m2)) ((p.1, c.dflt) :: fl) ∧ t'.chains.length = t.chains.length ∧
      t'.entry.length = t.entry.length := by
  intro l1 q l2
  induction l2 generalizing l1 q with
  | nil =>
    intro fuel hb hf hno
    cases fuel with
    | zero => simp at hf
    | succ fuel =>
      left
      refine ⟨fun p hp => by (cases hp), ?_⟩
      obtain ⟨o, ho, hc⟩ := h.chain b _ hb
      obtain ⟨nx, hg, hrest⟩ := hc.split
      simp only [IsChain] at hrest
      subst hrest
      simp only [removeLoop, rd_ok hg, Res.bind_ok]
      cases mustExist <;> simp
  | cons p ps ih =>
    intro fuel hb hf hno
    cases fuel with
    | zero => simp at hf
    | succ fuel =>
      obtain ⟨o, ho, hc⟩ := h.chain b _ hb
      obtain ⟨nx, hg, hrest⟩ := hc.split
      obtain ⟨hnx, nx2, hg2, hrest2⟩ := hrest
      subst hnx
      simp only [removeLoop, rd_ok hg, rd_ok hg2, Res.bind_ok]
      cases hk : c.eq key p.2 with
      | true =>
        right
        refine ⟨l1 ++ [q], p, ps,
          { t with chains := (t.chains.set q.1 ⟨q.2, nx2⟩).set p.1 ⟨c.dflt, t.free⟩, free := some p.1,
                   freeSize := t.freeSize + 1 }, by simp, hk, hno, ?_, ?_, by simp, rfl⟩
        · simp only [if_true, wr_ok _ (lt_of_getElem? hg), Res.bind_ok]
          rw [wr_ok _ (by rw [List.length_set]; exact lt_of_getElem? hg2)]
          simp
        · have := unlink_mid h hb hg hg2
          rw [show l1 ++ [q] ++ ps = l1 ++ q :: ps by simp]
          exact this
      | false =>
        simp only [Bool.false_eq_true, if_false]
        have hb2 : bs[b]? = some ((l1 ++ [q]) ++ p :: ps) := by rw [hb]; simp
        rcases ih (l1 ++ [q]) p fuel hb2 (by simp at hf; omega)
          (by intro r hr
              rcases List.mem_append.1 hr with hr | hr
              · exact hno r hr
              · rw [List.mem_singleton.1 hr]; exact hk) with ⟨h1, h2⟩ | ⟨m1, x, m2, t', h1, h2⟩
        · left
          refine ⟨fun x hx => ?_, h2⟩
          rcases List.mem_cons.1 hx with rfl | hx
          · exact hk
          · exact h1 x hx
        · right
          exact ⟨m1, x, m2, t', by rw [← h1]; simp, h2⟩

theorem remove_ok (law : Lawful c) (h : Inv c t bs fl) (key : α) (mustExist : Bool) :
    ((∀ p ∈ bs.flatten, c.eq key p.2 = false) ∧
      remove c t key mustExist = (if mustExist then .abort else .ok (t, false))) ∨
    ∃ m1 p m2 t', bs[c.hash key % t.entry.length]? = some (m1 ++ p :: m2) ∧ c.eq key p.2 = true ∧
      (∀ r ∈ m1, c.eq key r.2 = false) ∧ remove c t key mustExist = .ok (t', true) ∧
      Inv c t' (bs.set (c.hash key % t.entry.length) (m1 ++ m2)) ((p.1, c.dflt) :: fl) ∧
      t'.chains.length = t.chains.length ∧ t'.entry.length = t.entry.length := by
  by_cases h0 : t.entry.length = 0
  · left
    constructor
    · have := h.count
      have := h.nz h0
      have : bs.flatten = [] := List.length_eq_zero_iff.1 (by omega)
      rw [this]; intro p hp; cases hp
    · simp only [remove, h0, if_true]
      cases mustExist <;> simp
  · obtain ⟨l, o, hl, ho, hc⟩ := h.bucket (b := c.hash key % t.entry.length) (Nat.mod_lt _ (by omega))
    have hmod : c.hash key % t.entry.length < t.entry.length := Nat.mod_lt _ (by omega)
    cases l with
    | nil =>
      simp only [IsChain] at hc
      subst hc
      left
      refine ⟨not_eq_other_bucket law h key hl (fun p hp => by cases hp), ?_⟩
      simp only [remove, h0, if_false, rd_ok ho, Res.bind_ok]
      cases mustExist <;> simp
    | cons p ps =>
      obtain ⟨rfl, nx, hg, hrest⟩ := hc
      simp only [remove, h0, if_false, rd_ok ho, rd_ok hg, Res.bind_ok]
      cases hk : c.eq key p.2 with
      | true =>
        right
        refine ⟨[], p, ps, ⟨t.entry.set (c.hash key % t.entry.length) nx,
            t.chains.set p.1 ⟨c.dflt, t.free⟩, some p.1, t.freeSize + 1⟩,
          hl, hk, fun r hr => by (cases hr), ?_, unlink_head h hl hg, by simp, by simp⟩
        simp [wr_ok _ (lt_of_getElem? hg), wr_ok _ hmod]
      | false =>
        simp only [Bool.false_eq_true, if_false]
        rcases removeLoop_ok key mustExist h [] p ps (t.chains.length + 1) hl
          (by have := h.bucket_length hl; simp only [List.length_cons] at this; omega)
          (by intro r hr; simp at hr; subst hr; exact hk) with ⟨h1, h2⟩ | ⟨m1, x, m2, t', h1, h2⟩
        · left
          refine ⟨not_eq_other_bucket law h key hl ?_, h2⟩
          intro x hx
          rcases List.mem_cons.1 hx with rfl | hx
          · exact hk
          · exact h1 x hx
        · right
          refine ⟨m1, x, m2, t', ?_, h2⟩
          rw [hl, ← h1]; rfl

/-! ## store, clear, reserve, size -/

theorem store_ok (h : Inv c t bs fl) {p : Cell α} (hp : p ∈ bs.flatten) (v : α) (hv : c.hash v = c.hash p.2) :
    ∃ t' bs', store t p.1 v = .ok t' ∧ Inv c t' bs' fl ∧
      (∃ q, bs.flatten.Perm (p :: q) ∧ bs'.flatten.Perm ((p.1, v) :: q)) ∧
      t'.chains.length = t.chains.length := by
  obtain ⟨l, hl, hpl⟩ := List.mem_flatten.1 hp
  obtain ⟨b, hb⟩ := List.getElem?_of_mem hl
  obtain ⟨l1, l2, rfl⟩ := List.append_of_mem hpl
  obtain ⟨nx, hg⟩ := h.get_data hp
  have hbl : b < bs.length := lt_of_getElem? hb
  have hnd := h.nodup
  have hperm1 := flatten_set_erase bs b l1 l2 p hb
  have hset : (bs.set b (l1 ++ (p.1, v) :: l2))[b]? = some (l1 ++ (p.1, v) :: l2) := List.getElem?_set_self hbl
  have hperm2 := flatten_set_erase _ b l1 l2 (p.1, v) hset
  rw [List.set_set] at hperm2
  refine ⟨{ t with chains := t.chains.set p.1 ⟨v, nx⟩ }, bs.set b (l1 ++ (p.1, v) :: l2), ?_, ?_, ?_, by simp⟩
  · simp only [store, rd_ok hg, wr_ok _ (lt_of_getElem? hg), Res.bind_ok, Res.pure_eq]
  · exact {
      len := by simp only [List.length_set]; exact h.len
      chain := by
        intro b' l' hl'
        by_cases hbb : b = b'
        · subst hbb
          rw [hset] at hl'
          injection hl' with hl'
          subst hl'
          obtain ⟨o, ho, hc⟩ := h.chain b _ hb
          exact ⟨o, ho, hc.store (nodup_bucket h.nodup_live hb) hg⟩
        · rw [List.getElem?_set_ne hbb] at hl'
          obtain ⟨o, ho, hc⟩ := h.chain b' l' hl'
          refine ⟨o, ho, hc.frame_set ?_⟩
          exact nodup_flatten_bucket h.nodup_live hb hl' hbb (by simp)
      hash := by
        intro b' l' hl' q hq
        by_cases hbb : b = b'
        · subst hbb
          rw [hset] at hl'
          injection hl' with hl'
          subst hl'
          rcases List.mem_append.1 hq with hq | hq
          · exact h.hash b _ hb q (List.mem_append_left _ hq)
          · rcases List.mem_cons.1 hq with rfl | hq
            · simp only [hv]; exact h.hash b _ hb p (by simp)
            · exact h.hash b _ hb q (List.mem_append_right _ (List.mem_cons_of_mem _ hq))
        · rw [List.getElem?_set_ne hbb] at hl'
          exact h.hash b' l' hl' q hq
      free := by
        apply h.free.frame_set
        intro hm
        exact (List.nodup_append.1 hnd).2.2 p.1 (List.mem_map_of_mem hp) p.1 hm rfl
      fsize := h.fsize
      perm := by
        simp only [List.length_set]
        refine List.Perm.trans ?_ h.perm
        apply List.Perm.append_right
        have e1 := hperm1.map (·.1)
        have e2 := hperm2.map (·.1)
        exact e2.trans e1.symm
      cap := h.cap
      nz := by simp only [List.length_set]; exact h.nz }
  · exact ⟨_, hperm1, hperm2⟩

theorem clear_ok (h : Inv c t bs fl) :
    Inv c (clear t) (List.replicate t.entry.length []) [] ∧ (clear t).chains = [] := by
  refine ⟨?_, rfl⟩
  exact {
    len := by simp [clear]
    chain := by
      intro b l hl
      rw [List.getElem?_replicate] at hl
      split at hl
      · rename_i hb
        injection hl with hl; subst hl
        refine ⟨none, ?_, rfl⟩
        simp [clear, hb]
      · cases hl
    hash := by
      intro b l hl
      rw [List.getElem?_replicate] at hl
      split at hl
      · injection hl with hl; subst hl; intro p hp; cases hp
      · cases hl
    free := rfl
    fsize := rfl
    perm := by simp [clear]
    cap := by simp only [clear, List.length_map]; exact h.cap
    nz := by intro _; rfl }

theorem entry_none_of_empty (h : Inv c t bs fl) (h0 : t.chains.length = 0) : t.entry = List.replicate t.entry.length none := by
  apply List.ext_getElem?
  intro b
  rw [List.getElem?_replicate]
  split
  · rename_i hb
    obtain ⟨l, o, hl, ho, hc⟩ := h.bucket hb
    have := h.bucket_length hl
    have : l = [] := List.length_eq_zero_iff.1 (by omega)
    subst this
    rw [ho, show o = none from hc]
  · rename_i hb
    exact List.getElem?_eq_none (by omega)

theorem reserve_ok (h : Inv c t bs fl) (h0 : t.chains.length = 0) (want : Nat) (hw : want ≤ 141650939) :
    ∃ t', reserve t want = .ok t' ∧ Inv c t' (List.replicate t'.entry.length []) [] ∧ t'.chains = [] ∧
      want ≤ t'.entry.length := by
  obtain ⟨m, h1, h2, h3, h4⟩ := primeLoop_lt want hw
  have hch : t.chains = [] := List.length_eq_zero_iff.1 h0
  have hcount := h.count
  have hfl : fl = [] := List.length_eq_zero_iff.1 (by omega)
  subst hfl
  have hent := entry_none_of_empty h h0
  have hent' : t.entry.take m ++ List.replicate (m - t.entry.length) none = List.replicate m none := by
    rw [hent, List.take_replicate, List.length_replicate, List.replicate_append_replicate]
    congr 1; omega
  refine ⟨{ t with entry := List.replicate m none }, ?_, ?_, hch, by simpa using h2⟩
  · simp only [reserve, h0, decide_true, Res.require_true, Res.bind_ok, h1, Res.pure_eq, hent']
  · exact {
      len := by simp
      chain := by
        intro b l hl
        simp only [List.length_replicate] at hl
        rw [List.getElem?_replicate] at hl
        split at hl
        · rename_i hb
          injection hl with hl; subst hl
          exact ⟨none, by simp [hb], rfl⟩
        · cases hl
      hash := by
        intro b l hl
        rw [List.getElem?_replicate] at hl
        split at hl
        · injection hl with hl; subst hl; intro p hp; cases hp
        · cases hl
      free := h.free
      fsize := h.fsize
      perm := by simp [hch]
      cap := by simpa using h4
      nz := by intro _; exact h0 }

theorem size_ok (h : Inv c t bs fl) : size t = bs.flatten.length := by
  have := h.count
  have := h.fsize
  unfold size
  omega

theorem empty_inv (c : Cfg α) : Inv c (empty' : Table α) [] [] :=
  { len := rfl, chain := by intro b l h; simp at h, hash := by intro b l h; simp at h, free := rfl, fsize := rfl,
    perm := by simp [empty'], cap := by simp [empty'], nz := fun _ => rfl }

/-! ## Iteration -/

/-- The iterator stands behind the cells `before` and in front of the cells `rest`. -/
def Rem (bs : List (List (Cell α))) (it : Iter) (before rest : List (Cell α)) : Prop :=
  (rest = [] ∧ it = ⟨bs.length, none⟩ ∧ before = bs.flatten) ∨
  ∃ pre p post, bs[it.chain]? = some (pre ++ p :: post) ∧ it.loc = some p.1 ∧
    before = (bs.take it.chain).flatten ++ pre ∧ rest = p :: post ++ (bs.drop (it.chain + 1)).flatten

theorem Rem.append {it : Iter} {before rest : List (Cell α)} (h : Rem bs it before rest) :
    before ++ rest = bs.flatten := by
  rcases h with ⟨rfl, _, rfl⟩ | ⟨pre, p, post, h1, _, rfl, rfl⟩
  · simp
  · have hlt := lt_of_getElem? h1
    conv => rhs; rw [← List.take_append_drop it.chain bs]
    rw [List.flatten_append, List.drop_eq_getElem_cons hlt, List.flatten_cons]
    have : bs[it.chain] = pre ++ p :: post := by
      rw [List.getElem?_eq_getElem hlt] at h1; injection h1
    rw [this]; simp

theorem end_eq (h : Inv c t bs fl) : end' t = ⟨bs.length, none⟩ := by
  unfold end' findNonempty
  rw [h.len]
  have : t.entry[t.entry.length]? = none := List.getElem?_eq_none (by omega)
  simp [this]

theorem findNonempty_ok (h : Inv c t bs fl) : ∀ fuel b, b ≤ bs.length → bs.length - b < fuel →
    Rem bs (findNonempty t.entry fuel ⟨b, none⟩) (bs.take b).flatten (bs.drop b).flatten := by
  intro fuel
  induction fuel with
  | zero => intro b _ hf; omega
  | succ fuel ih =>
    intro b hb hf
    by_cases hbl : b = bs.length
    · left
      subst hbl
      have : t.entry[bs.length]? = none := List.getElem?_eq_none (by rw [h.len]; omega)
      refine ⟨by simp, ?_, by simp⟩
      simp [findNonempty, this]
    · have hlt : b < bs.length := by omega
      obtain ⟨l, o, hl, ho, hc⟩ := h.bucket (b := b) (by rw [← h.len]; exact hlt)
      cases l with
      | nil =>
        simp only [IsChain] at hc
        subst hc
        have hr := ih (b + 1) (by omega) (by omega)
        have hbe : bs[b] = [] := by rw [List.getElem?_eq_getElem hlt] at hl; injection hl
        have e1 : (bs.take (b + 1)).flatten = (bs.take b).flatten := by
          rw [List.take_add_one, hl]; simp
        have e2 : (bs.drop b).flatten = (bs.drop (b + 1)).flatten := by
          rw [List.drop_eq_getElem_cons hlt, List.flatten_cons, hbe]; rfl
        rw [e1] at hr
        rw [e2]
        simpa [findNonempty, ho] using hr
      | cons p post =>
        obtain ⟨rfl, nx, hg, hrest⟩ := hc
        right
        refine ⟨[], p, post, ?_, ?_, ?_, ?_⟩
        · simpa [findNonempty, ho] using hl
        · simp [findNonempty, ho]
        · simp [findNonempty, ho]
        · have hbe : bs[b] = p :: post := by rw [List.getElem?_eq_getElem hlt] at hl; injection hl
          simp only [findNonempty, ho]
          rw [List.drop_eq_getElem_cons hlt, List.flatten_cons, hbe]

theorem begin_ok (h : Inv c t bs fl) : Rem bs (begin' t) [] bs.flatten := by
  have := findNonempty_ok h (t.entry.length + 1) 0 (by omega) (by rw [h.len]; omega)
  simpa [begin'] using this

theorem Rem.ne_end (h : Inv c t bs fl) {it : Iter} {before rest : List (Cell α)} {p : Cell α}
    (hr : Rem bs it before (p :: rest)) : it ≠ end' t := by
  rw [end_eq h]
  rcases hr with ⟨h1, _⟩ | ⟨pre, q, post, h1, h2, _⟩
  · cases h1
  · intro e; subst e; cases h2

theorem Rem.deref (h : Inv c t bs fl) {it : Iter} {before rest : List (Cell α)} {p : Cell α}
    (hr : Rem bs it before (p :: rest)) : itDeref t it = .ok p.2 := by
  rcases hr with ⟨h1, _⟩ | ⟨pre, q, post, h1, h2, _, h4⟩
  · cases h1
  · injection h4 with h4 _
    subst h4
    obtain ⟨nx, hg⟩ := h.get_data (mem_flatten_of_getElem? h1 (by simp : p ∈ pre ++ p :: post))
    simp [itDeref, h2, lt_of_getElem? hg, Verif.Hash.deref, rd_ok hg]

theorem Rem.incr (h : Inv c t bs fl) {it : Iter} {before rest : List (Cell α)} {p : Cell α}
    (hr : Rem bs it before (p :: rest)) : ∃ it', incr t it = .ok it' ∧ Rem bs it' (before ++ [p]) rest := by
  rcases hr with ⟨h1, _⟩ | ⟨pre, q, post, h1, h2, h3, h4⟩
  · cases h1
  · injection h4 with h4 h5
    subst h4
    obtain ⟨o, ho, hc⟩ := h.chain _ _ h1
    obtain ⟨nx, hg, hrest⟩ := hc.split
    have hlt := lt_of_getElem? h1
    cases post with
    | nil =>
      simp only [IsChain] at hrest
      subst hrest
      refine ⟨findNonempty t.entry (t.entry.length + 1) { chain := it.chain + 1, loc := none }, ?_, ?_⟩
      · simp [Verif.Hash.incr, h2, lt_of_getElem? hg, rd_ok hg]
      · have := findNonempty_ok h (t.entry.length + 1) (it.chain + 1) (by omega) (by rw [h.len]; omega)
        have e1 : (bs.take (it.chain + 1)).flatten = before ++ [p] := by
          rw [List.take_add_one, h1, h3]; simp
        rw [e1] at this
        rw [h5]; exact this
    | cons q post =>
      obtain ⟨rfl, nx2, hg2, _⟩ := hrest
      refine ⟨⟨it.chain, some q.1⟩, ?_, ?_⟩
      · simp [Verif.Hash.incr, h2, lt_of_getElem? hg, rd_ok hg]
      · right
        exact ⟨pre ++ [p], q, post, by rw [h1]; simp, rfl, by rw [h3]; simp, h5⟩

theorem walkFrom_ok (h : Inv c t bs fl) : ∀ (rest before : List (Cell α)) (it : Iter) (fuel : Nat), Rem bs it before rest →
    rest.length < fuel → walkFrom t fuel it = .ok (rest.map (·.2)) := by
  intro rest
  induction rest with
  | nil =>
    intro before it fuel hr hf
    cases fuel with
    | zero => simp at hf
    | succ fuel =>
      rcases hr with ⟨_, rfl, _⟩ | ⟨pre, q, post, _, _, _, h4⟩
      · simp [walkFrom, end_eq h]
      · simp at h4
  | cons p rest ih =>
    intro before it fuel hr hf
    cases fuel with
    | zero => simp at hf
    | succ fuel =>
      obtain ⟨it', h1, h2⟩ := hr.incr h
      simp only [walkFrom, hr.ne_end h, if_false, hr.deref h, h1, Res.bind_ok,
        ih _ it' fuel h2 (by simp at hf; omega), Res.pure_eq, List.map_cons]

theorem walk_ok (h : Inv c t bs fl) : walk t = .ok (bs.flatten.map (·.2)) := by
  apply walkFrom_ok h _ _ _ _ (begin_ok h)
  have := h.count; omega

/-! ## find and erase -/

theorem find_ok (law : Lawful c) (h : Inv c t bs fl) (key : α) :
    ∃ it, find c t key = .ok it ∧
      ((it = end' t ∧ ∀ p ∈ bs.flatten, c.eq key p.2 = false) ∨
       ∃ before p rest, Rem bs it before (p :: rest) ∧ c.eq key p.2 = true) := by
  by_cases h0 : t.entry.length = 0
  · refine ⟨end' t, by simp [find, h0], Or.inl ⟨rfl, ?_⟩⟩
    have := h.count
    have := h.nz h0
    have : bs.flatten = [] := List.length_eq_zero_iff.1 (by omega)
    rw [this]; intro p hp; cases hp
  · obtain ⟨l, o, hl, ho, hc⟩ := h.bucket (b := c.hash key % t.entry.length) (Nat.mod_lt _ (by omega))
    obtain ⟨r, e, hr⟩ := lookupLoop_ok c key t.chains l o (t.chains.length + 1) hc
      (by have := h.bucket_length hl; omega)
    rcases hr with ⟨rfl, hr⟩ | ⟨l1, q, l2, rfl, rfl, hq, hl1⟩
    · refine ⟨end' t, ?_, Or.inl ⟨rfl, not_eq_other_bucket law h key hl hr⟩⟩
      simp only [find, h0, if_false, rd_ok ho, Res.bind_ok, e, Res.pure_eq]
    · refine ⟨⟨c.hash key % t.entry.length, some q.1⟩, ?_, Or.inr ⟨_, q, _, Or.inr ⟨l1, q, l2, hl, rfl, rfl, rfl⟩, hq⟩⟩
      simp only [find, h0, if_false, rd_ok ho, Res.bind_ok, e, Res.pure_eq]

theorem eraseLoop_ok {ch : List (Entry α)} {p : Cell α} {l2 : List (Cell α)} : ∀ (l1 : List (Cell α)) (o prev : Option Nat) (cur : Nat)
    (fuel : Nat), IsChain ch o (l1 ++ p :: l2) → o = some cur → l1.length < fuel → p.1 ∉ l1.map (·.1) →
    eraseLoop ch p.1 fuel prev cur = .ok (match l1.getLast? with | none => prev | some q => some q.1) := by
  intro l1
  induction l1 with
  | nil =>
    intro o prev cur fuel h ho hf _
    cases fuel with
    | zero => simp at hf
    | succ fuel =>
      obtain ⟨h1, _⟩ := h
      rw [ho] at h1
      injection h1 with h1
      simp [eraseLoop, h1]
  | cons q qs ih =>
    intro o prev cur fuel h ho hf hn
    cases fuel with
    | zero => simp at hf
    | succ fuel =>
      obtain ⟨h1, nx, h2, h3⟩ := h
      rw [ho] at h1
      injection h1 with h1
      subst h1
      simp only [List.map_cons, List.mem_cons, not_or] at hn
      have hnx : ∃ c', nx = some c' := by
        cases qs with
        | nil => exact ⟨_, h3.1⟩
        | cons x xs => exact ⟨_, h3.1⟩
      obtain ⟨c', rfl⟩ := hnx
      have := ih _ (some q.1) c' fuel h3 rfl (by simp at hf; omega) hn.2
      simp only [eraseLoop, if_neg (fun e => hn.1 e.symm : ¬ q.1 = p.1), rd_ok h2, Res.bind_ok]
      rw [this]
      cases qs with
      | nil => rfl
      | cons x xs =>
        rw [List.getLast?_cons_cons]
        have : ∃ z, (x :: xs).getLast? = some z := ⟨_, List.getLast?_eq_some_getLast (by simp)⟩
        obtain ⟨z, hz⟩ := this
        rw [hz]

theorem erase_ok (h : Inv c t bs fl) {it : Iter} {before rest : List (Cell α)} {p : Cell α}
    (hr : Rem bs it before (p :: rest)) :
    ∃ t' bs', erase c t it = .ok t' ∧ Inv c t' bs' ((p.1, c.dflt) :: fl) ∧ bs.flatten.Perm (p :: bs'.flatten) ∧
      t'.chains.length = t.chains.length := by
  rcases hr with ⟨h1, _⟩ | ⟨pre, q, post, h1, h2, h3, h4⟩
  · cases h1
  · injection h4 with h4 h5
    subst h4
    have hnb := nodup_bucket h.nodup_live h1
    obtain ⟨o, ho, hc⟩ := h.chain _ _ h1
    obtain ⟨nx, hg, hrest⟩ := hc.split
    have hlt := lt_of_getElem? h1
    have helt : it.chain < t.entry.length := by rw [← h.len]; exact hlt
    have hpl := lt_of_getElem? hg
    have hfirst : ∃ f, o = some f := by
      cases pre with
      | nil => exact ⟨_, hc.1⟩
      | cons x xs => exact ⟨_, hc.1⟩
    obtain ⟨f, rfl⟩ := hfirst
    -- the chain as seen after the data has been overwritten
    have hc' := hc.store (v := c.dflt) hnb hg
    have hnpre : p.1 ∉ pre.map (·.1) := by
      rw [List.map_append, List.nodup_append] at hnb
      intro hm
      exact hnb.2.2 p.1 hm p.1 (by simp) rfl
    have hel := eraseLoop_ok (p := (p.1, c.dflt)) (l2 := post) pre (some f) none f (t.chains.length + 1) hc' rfl
      (by have := h.bucket_length h1; simp only [List.length_append, List.length_cons] at this; omega) hnpre
    have hperm := flatten_set_erase bs _ pre post p h1
    cases hlast : pre.getLast? with
    | none =>
      have hpre : pre = [] := List.getLast?_eq_none_iff.1 hlast
      subst hpre
      refine ⟨⟨t.entry.set it.chain nx, t.chains.set p.1 ⟨c.dflt, t.free⟩, some p.1, t.freeSize + 1⟩,
        bs.set it.chain ([] ++ post), ?_, unlink_head h h1 hg, hperm, by simp⟩
      have hpl' : p.1 < (t.chains.set p.1 ⟨c.dflt, nx⟩).length := by rw [List.length_set]; exact hpl
      simp only [erase, h2, rd_ok hg, wr_ok _ hpl, rd_ok ho, Res.bind_ok, hel, hlast, wr_ok _ helt, wr_ok _ hpl',
          List.set_set, Res.pure_eq]
    | some q =>
      obtain ⟨pre', rfl⟩ := List.getLast?_eq_some_iff.1 hlast
      have h1' : bs[it.chain]? = some (pre' ++ q :: p :: post) := by rw [h1]; simp
      obtain ⟨nq, hq⟩ := h.get_data (mem_flatten_of_getElem? h1' (by simp : q ∈ pre' ++ q :: p :: post))
      have hne : p.1 ≠ q.1 := by
        intro e
        apply hnpre
        rw [e]; simp
      have hq' : (t.chains.set p.1 ⟨c.dflt, nx⟩)[q.1]? = some ⟨q.2, nq⟩ := by
        rw [List.getElem?_set_ne hne]; exact hq
      have hinv := unlink_mid h h1' hq hg
      refine ⟨{ t with chains := (t.chains.set q.1 ⟨q.2, nx⟩).set p.1 ⟨c.dflt, t.free⟩, free := some p.1,
                       freeSize := t.freeSize + 1 }, bs.set it.chain (pre' ++ [q] ++ post), ?_,
        by simpa using hinv, hperm, by simp⟩
      simp only [erase, h2, rd_ok hg, wr_ok _ hpl, rd_ok ho, Res.bind_ok, hel, hlast, rd_ok hq',
        wr_ok _ (lt_of_getElem? hq')]
      rw [wr_ok _ (by simp only [List.length_set]; exact hpl)]
      simp only [Res.bind_ok, Res.pure_eq]
      rw [List.set_comm _ _ hne, List.set_set]

end Verif.Hash
