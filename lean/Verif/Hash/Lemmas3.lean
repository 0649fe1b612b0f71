import Verif.Hash.Lemmas2

/-! # HashTable: pruning and random lookup -/

namespace Verif.Hash

variable {α : Type} {c : Cfg α} {t : Table α} {bs : List (List (Cell α))} {fl : List (Cell α)}

/-- No two cells hold equal keys. -/
def Uniq (c : Cfg α) (l : List (Cell α)) : Prop := ∀ x ∈ l, ∀ y ∈ l, c.eq x.2 y.2 = true → x = y

theorem findNonempty_loc {entry : List (Option Nat)} {b : Nat} {o : Option Nat} (h : entry[b]? = some o) (fuel : Nat) :
    findNonempty entry (fuel + 1) ⟨b, o⟩ = findNonempty entry (fuel + 1) ⟨b, none⟩ := by
  cases o with
  | none => rfl
  | some j => simp [findNonempty, h]

theorem split_unique {l1 l2 m1 m2 : List (Cell α)} {p : Cell α} (hn : ((l1 ++ p :: l2).map (·.1)).Nodup)
    (h : l1 ++ p :: l2 = m1 ++ p :: m2) : l1 = m1 ∧ l2 = m2 := by
  induction l1 generalizing m1 with
  | nil =>
    cases m1 with
    | nil => simpa using h
    | cons x xs =>
      simp only [List.nil_append, List.cons_append, List.cons.injEq] at h
      exfalso
      simp only [List.nil_append, List.map_cons, List.nodup_cons] at hn
      apply hn.1
      rw [h.2]; simp
  | cons y ys ih =>
    cases m1 with
    | nil =>
      simp only [List.nil_append, List.cons_append, List.cons.injEq] at h
      exfalso
      simp only [List.cons_append, List.map_cons, List.nodup_cons] at hn
      apply hn.1
      rw [h.1]; simp
    | cons x xs =>
      simp only [List.cons_append, List.cons.injEq] at h
      simp only [List.cons_append, List.map_cons, List.nodup_cons] at hn
      obtain ⟨h1, h2⟩ := ih hn.2 h.2
      exact ⟨by rw [h.1, h1], h2⟩

theorem pruneLoop_ok (law : Lawful c) (sel : α → Bool) : ∀ (fuel : Nat) (t : Table α) (bs : List (List (Cell α)))
    (fl : List (Cell α)) (it : Iter) (before rest : List (Cell α)),
    Inv c t bs fl → Uniq c bs.flatten → Rem bs it before rest → (∀ p ∈ before, sel p.2 = false) →
    bs.flatten.length * (bs.flatten.length + 1) + rest.length < fuel →
    ∃ t' seen bs' fl', pruneLoop c sel fuel t it = .ok (t', seen) ∧ Inv c t' bs' fl' ∧
      bs'.flatten.Perm (bs.flatten.filter (fun p => !sel p.2)) ∧
      (∀ p ∈ rest, p.2 ∈ seen) ∧ (∀ v ∈ seen, v ∈ bs.flatten.map (·.2)) ∧
      t'.chains.length = t.chains.length ∧
      (seen.filter sel).Perm ((bs.flatten.map (·.2)).filter sel) := by
  intro fuel
  induction fuel with
  | zero => intro t bs fl it before rest _ _ _ _ hf; omega
  | succ fuel ih =>
    intro t bs fl it before rest h hu hr hb hf
    cases rest with
    | nil =>
      have happ := hr.append
      rw [List.append_nil] at happ
      refine ⟨t, [], bs, fl, ?_, h, ?_, ?_, ?_, rfl, ?_⟩
      · rcases hr with ⟨_, rfl, _⟩ | ⟨pre, q, post, _, _, _, h4⟩
        · simp [pruneLoop, end_eq h]
        · simp at h4
      · rw [List.filter_eq_self.2]
        intro p hp
        rw [← happ] at hp
        simp [hb p hp]
      · intro p hp; cases hp
      · intro p hp; cases hp
      · rw [List.filter_nil, List.filter_eq_nil_iff.2]
        intro v hv
        obtain ⟨p, hp, rfl⟩ := List.mem_map.1 hv
        rw [← happ] at hp
        simp [hb p hp]
    | cons p rest =>
      have happ := hr.append
      have hpm : p ∈ bs.flatten := by rw [← happ]; simp
      cases hs : sel p.2 with
      | false =>
        obtain ⟨it', h1, h2⟩ := hr.incr h
        obtain ⟨t', seen, bs', fl', e1, e2, e3, e4, e5, e6, e7⟩ := ih t bs fl it' _ _ h hu h2
          (by intro x hx
              rcases List.mem_append.1 hx with hx | hx
              · exact hb x hx
              · rw [List.mem_singleton.1 hx]; exact hs) (by simp only [List.length_cons] at hf; omega)
        refine ⟨t', p.2 :: seen, bs', fl', ?_, e2, e3, ?_, ?_, e6, ?_⟩
        · simp only [pruneLoop, hr.ne_end h, if_false, hr.deref h, Res.bind_ok, hs, Bool.false_eq_true, h1, e1,
            Res.pure_eq]
        · intro x hx
          rcases List.mem_cons.1 hx with rfl | hx
          · simp
          · exact List.mem_cons_of_mem _ (e4 x hx)
        · intro v hv
          rcases List.mem_cons.1 hv with rfl | hv
          · exact List.mem_map_of_mem hpm
          · exact e5 v hv
        · rw [List.filter_cons_of_neg (by simp [hs])]
          exact e7
      | true =>
        have hne := hr.ne_end h
        have hde := hr.deref h
        obtain ⟨pre, post, hbk, hloc, hbef, hrest⟩ : ∃ pre post, bs[it.chain]? = some (pre ++ p :: post) ∧
            it.loc = some p.1 ∧ before = (bs.take it.chain).flatten ++ pre ∧
            rest = post ++ (bs.drop (it.chain + 1)).flatten := by
          rcases hr with ⟨h1, _⟩ | ⟨pre, q, post, h1, h2, h3, h4⟩
          · cases h1
          · injection h4 with h4 h5
            subst h4
            exact ⟨pre, post, h1, h2, h3, h5⟩
        have hhash : c.hash p.2 % t.entry.length = it.chain := h.hash _ _ hbk p (by simp)
        have hlt := lt_of_getElem? hbk
        rcases remove_ok law h p.2 true with ⟨hno, _⟩ | ⟨m1, x, m2, t1, g1, g2, g3, g4, g5, g6, g7⟩
        · have := hno p hpm
          rw [law.refl] at this; cases this
        · rw [hhash] at g1 g5
          have hxm : x ∈ bs.flatten := mem_flatten_of_getElem? g1 (by simp)
          have hxp : p = x := hu p hpm x hxm g2
          subst hxp
          rw [hbk] at g1
          obtain ⟨rfl, rfl⟩ := split_unique (nodup_bucket h.nodup_live hbk) (Option.some.inj g1)
          have hlt1 : it.chain < t1.entry.length := by rw [g7, ← h.len]; exact hlt
          obtain ⟨l', o', hl', ho', _⟩ := g5.bucket hlt1
          have hrem := findNonempty_ok g5 (t1.entry.length + 1) it.chain (by rw [List.length_set]; omega)
            (by rw [List.length_set, h.len, g7]; omega)
          have htake : (bs.set it.chain (pre ++ post)).take it.chain = bs.take it.chain := by
            rw [List.take_set_of_le (by omega)]
          have hdrop : (bs.set it.chain (pre ++ post)).drop it.chain = (pre ++ post) :: bs.drop (it.chain + 1) := by
            rw [List.drop_eq_getElem_cons (by rw [List.length_set]; exact hlt), List.getElem_set_self,
              List.drop_set_of_lt (by omega)]
          rw [htake, hdrop, List.flatten_cons] at hrem
          have hperm := flatten_set_erase bs _ pre post p hbk
          have hlen : bs.flatten.length = (bs.set it.chain (pre ++ post)).flatten.length + 1 := by
            have := hperm.length_eq
            rwa [List.length_cons] at this
          have hsub : ∀ y, y ∈ (bs.set it.chain (pre ++ post)).flatten → y ∈ bs.flatten := fun y hy =>
            hperm.mem_iff.2 (List.mem_cons_of_mem _ hy)
          obtain ⟨t', seen, bs', fl', e1, e2, e3, e4, e5, e6, e7⟩ := ih t1 _ _ _ _ _ g5
            (fun y hy z hz he => hu y (hsub y hy) z (hsub z hz) he) hrem
            (by intro y hy
                apply hb
                rw [hbef]
                exact List.mem_append_left _ hy)
            (by
              have hrl : (pre ++ post ++ (bs.drop (it.chain + 1)).flatten).length ≤
                  (bs.set it.chain (pre ++ post)).flatten.length := by
                have := hrem.append
                have h2 := congrArg List.length this
                rw [List.length_append] at h2
                omega
              generalize (bs.set it.chain (pre ++ post)).flatten.length = k at hlen hrl ⊢
              rw [hlen] at hf
              have e1 : (k + 1) * (k + 1 + 1) = k * (k + 1) + 2 * (k + 1) := by
                rw [Nat.mul_add, Nat.add_mul, Nat.add_mul]; simp only [Nat.mul_one, Nat.mul_add]; omega
              rw [e1] at hf
              simp only [List.length_cons] at hf
              omega)
          refine ⟨t', p.2 :: seen, bs', fl', ?_, e2, ?_, ?_, ?_, by rw [e6, g6], ?_⟩
          · simp only [pruneLoop, hne, if_false, hde, Res.bind_ok, hs, if_true, g4]
            have hpr : partialReset t1 it = .ok (findNonempty t1.entry (t1.entry.length + 1) ⟨it.chain, none⟩) := by
              simp only [partialReset, hlt1, if_true, rd_ok ho', Res.bind_ok, Res.pure_eq]
              rw [findNonempty_loc ho']
            simp only [hpr, Res.bind_ok, e1, Res.pure_eq]
          · refine e3.trans ?_
            have := (hperm.filter (fun p => !sel p.2)).symm
            simpa [hs] using this
          · intro y hy
            rcases List.mem_cons.1 hy with rfl | hy
            · simp
            · apply List.mem_cons_of_mem
              apply e4
              rw [hrest] at hy
              rcases List.mem_append.1 hy with hy | hy
              · simp [hy]
              · exact List.mem_append_right _ hy
          · intro v hv
            rcases List.mem_cons.1 hv with rfl | hv
            · exact List.mem_map_of_mem hpm
            · obtain ⟨y, hy, hye⟩ := List.mem_map.1 (e5 v hv)
              rw [← hye]
              exact List.mem_map_of_mem (hsub y hy)
          · rw [List.filter_cons_of_pos hs]
            have := ((hperm.map (fun x : Cell α => x.2)).filter sel).symm
            rw [List.map_cons, List.filter_cons_of_pos hs] at this
            exact (List.Perm.cons _ e7).trans this

/-! ## randomlookup -/

theorem chainLen_ok : ∀ (l : List (Cell α)) (o : Option Nat) (fuel : Nat), IsChain t.chains o l → l.length < fuel →
    chainLen t fuel o = .ok l.length := by
  intro l
  induction l with
  | nil =>
    intro o fuel h hf
    cases fuel with
    | zero => simp at hf
    | succ fuel => simp only [IsChain] at h; subst h; rfl
  | cons p ps ih =>
    intro o fuel h hf
    cases fuel with
    | zero => simp at hf
    | succ fuel =>
      obtain ⟨rfl, nx, h2, h3⟩ := h
      simp only [chainLen, rd_ok h2, Res.bind_ok, ih nx fuel h3 (by simp at hf; omega), Res.pure_eq, List.length_cons]

theorem pickLoop_ok : ∀ (l : List (Cell α)) (o : Option Nat) (fuel k : Nat) (p : Cell α), IsChain t.chains o l →
    l.length < fuel → l[k]? = some p → pickLoop t fuel k o = .ok p.1 := by
  intro l
  induction l with
  | nil => intro o fuel k p h hf hk; simp at hk
  | cons q ps ih =>
    intro o fuel k p h hf hk
    cases fuel with
    | zero => simp at hf
    | succ fuel =>
      obtain ⟨rfl, nx, h2, h3⟩ := h
      cases k with
      | zero => simp at hk; subst hk; rfl
      | succ k =>
        simp only [List.getElem?_cons_succ] at hk
        simp only [pickLoop, rd_ok h2, Res.bind_ok]
        exact ih nx fuel k p h3 (by simp at hf; omega) hk

theorem nonemptyLoop_ok (h : Inv c t bs fl) (start : Nat) (hs : start < bs.length) (hne : bs.flatten ≠ []) :
    ∀ fuel k, k < bs.length → bs.length - k < fuel →
    (∀ i, i < k → bs[(start + i) % bs.length]? = some []) →
    ∃ b p ps, nonemptyLoop t start fuel ((start + k) % bs.length) = .ok (b, p.1) ∧ bs[b]? = some (p :: ps) ∧
      IsChain t.chains (some p.1) (p :: ps) := by
  intro fuel
  induction fuel with
  | zero => intro k _ hf; omega
  | succ fuel ih =>
    intro k hk hf hall
    have hmod : (start + k) % bs.length < bs.length := Nat.mod_lt _ (by omega)
    obtain ⟨l, o, hl, ho, hc⟩ := h.bucket (b := (start + k) % bs.length) (by rw [← h.len]; exact hmod)
    cases l with
    | cons p ps =>
      have hc' := hc
      obtain ⟨rfl, _⟩ := hc
      refine ⟨_, p, ps, ?_, hl, hc'⟩
      simp only [nonemptyLoop, rd_ok ho, Res.bind_ok, Res.pure_eq]
    | nil =>
      simp only [IsChain] at hc
      subst hc
      have hall' : ∀ i, i < k + 1 → bs[(start + i) % bs.length]? = some [] := by
        intro i hi
        by_cases hik : i = k
        · rw [hik]; exact hl
        · exact hall i (by omega)
      have hk1 : k + 1 < bs.length := by
        rcases Nat.lt_or_ge (k + 1) bs.length with h1 | h1
        · exact h1
        · exfalso
          apply hne
          rw [List.flatten_eq_nil_iff]
          intro l hlm
          obtain ⟨b, hb⟩ := List.getElem?_of_mem hlm
          have hbl := lt_of_getElem? hb
          have : ∃ i, i < k + 1 ∧ (start + i) % bs.length = b := by
            by_cases hsb : start ≤ b
            · exact ⟨b - start, by omega, by rw [show start + (b - start) = b by omega]; exact Nat.mod_eq_of_lt hbl⟩
            · refine ⟨b + bs.length - start, by omega, ?_⟩
              rw [show start + (b + bs.length - start) = b + bs.length by omega, Nat.add_mod_right]
              exact Nat.mod_eq_of_lt hbl
          obtain ⟨i, hi, hie⟩ := this
          have := hall' i hi
          rw [hie, hb] at this
          exact Option.some.inj this
      have hnext : ((start + k) % bs.length + 1) % t.entry.length = (start + (k + 1)) % bs.length := by
        rw [← h.len, Nat.mod_add_mod, Nat.add_assoc]
      have hnes : (start + (k + 1)) % bs.length ≠ start := by
        by_cases hc : start + (k + 1) < bs.length
        · rw [Nat.mod_eq_of_lt hc]; omega
        · rw [Nat.mod_eq_sub_mod (by omega), Nat.mod_eq_of_lt (by omega)]; omega
      obtain ⟨b, p, ps, e1, e2, e3⟩ := ih (k + 1) hk1 (by omega) hall'
      refine ⟨b, p, ps, ?_, e2, e3⟩
      simp only [nonemptyLoop, rd_ok ho, Res.bind_ok, hnext, ne_eq, hnes, not_false_eq_true, decide_true,
        Res.require_true]
      exact e1

theorem randomlookup_ok (h : Inv c t bs fl) (ra rb : Nat) (hne : bs.flatten ≠ []) :
    ∃ p ∈ bs.flatten, randomlookup t ra rb = .ok (some p.1) := by
  have hsz : size t ≠ 0 := by
    rw [size_ok h]; exact fun e => hne (List.length_eq_zero_iff.1 e)
  have hlen : t.entry.length ≠ 0 := by
    intro e
    have := h.nz e
    have := h.count
    exact hne (List.length_eq_zero_iff.1 (by omega))
  have hstart : ra % t.entry.length < bs.length := by rw [h.len]; exact Nat.mod_lt _ (by omega)
  obtain ⟨b, p, ps, e1, e2, e3⟩ := nonemptyLoop_ok h (ra % t.entry.length) hstart hne (t.entry.length + 1) 0
    (by omega) (by rw [h.len]; omega) (fun i hi => by omega)
  simp only [Nat.add_zero, Nat.mod_eq_of_lt hstart] at e1
  have hbl := h.bucket_length e2
  have hk : rb % (p :: ps).length < (p :: ps).length := Nat.mod_lt _ (by simp)
  have hg : (p :: ps)[rb % (p :: ps).length]? = some (p :: ps)[rb % (p :: ps).length] := List.getElem?_eq_getElem hk
  refine ⟨(p :: ps)[rb % (p :: ps).length], mem_flatten_of_getElem? e2 (List.getElem_mem hk), ?_⟩
  have hpos : (p :: ps).length > 0 := by simp
  simp only [randomlookup, hsz, if_false, hlen, e1, Res.bind_ok, chainLen_ok _ _ _ e3 (by omega : _ < t.chains.length + 1),
    hpos, decide_true, Res.require_true, pickLoop_ok _ _ _ _ _ e3 (by omega : _ < t.chains.length + 1) hg, Res.pure_eq]

theorem randomlookup_surj (h : Inv c t bs fl) {p : Cell α} (hp : p ∈ bs.flatten) :
    ∃ ra rb, ra < t.entry.length ∧ rb < t.chains.length ∧ randomlookup t ra rb = .ok (some p.1) := by
  have hne : bs.flatten ≠ [] := fun e => by rw [e] at hp; cases hp
  have hsz : size t ≠ 0 := by
    rw [size_ok h]; exact fun e => hne (List.length_eq_zero_iff.1 e)
  obtain ⟨l, hl, hpl⟩ := List.mem_flatten.1 hp
  obtain ⟨b, hb⟩ := List.getElem?_of_mem hl
  obtain ⟨k, hk⟩ := List.getElem?_of_mem hpl
  have hbl : b < t.entry.length := by rw [← h.len]; exact lt_of_getElem? hb
  have hkl := lt_of_getElem? hk
  have hbk := h.bucket_length hb
  obtain ⟨o, ho, hc⟩ := h.chain b l hb
  have hlen : t.entry.length ≠ 0 := by omega
  cases l with
  | nil => cases hpl
  | cons q qs =>
    have hc' := hc
    obtain ⟨rfl, _⟩ := hc
    have e1 : nonemptyLoop t (b % t.entry.length) (t.entry.length + 1) (b % t.entry.length) = .ok (b, q.1) := by
      rw [Nat.mod_eq_of_lt hbl]
      simp only [nonemptyLoop, rd_ok ho, Res.bind_ok, Res.pure_eq]
    have hpos : (q :: qs).length > 0 := by simp
    refine ⟨b, k, hbl, by omega, ?_⟩
    simp only [randomlookup, hsz, if_false, hlen, e1, Res.bind_ok, chainLen_ok _ _ _ hc' (by omega : _ < t.chains.length + 1),
      hpos, decide_true, Res.require_true, Nat.mod_eq_of_lt hkl,
      pickLoop_ok _ _ _ _ _ hc' (by omega : _ < t.chains.length + 1) hk, Res.pure_eq]

end Verif.Hash
