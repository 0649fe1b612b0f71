import Verif.Batch.Compress

/-!
# Properties of `BatchParallel::compress` (C128)
-/

namespace Verif.Batch.Compress

/-- Comparing by blocks of any contents is comparing. -/
theorem compareLoop_eq (fuel : Nat) (f1 f2 : Bytes) (total : Nat) (hf : f1.length < fuel) : compareLoop fuel f1 f2 total = if f1 = f2 then some (total + f1.length) else none := by
  induction fuel generalizing f1 f2 total with
  | zero => omega
  | succ fuel ih =>
    simp only [compareLoop]
    by_cases h1 : (f1.take 65536).length ≠ (f2.take 65536).length
    · rw [if_pos h1, if_neg]
      intro e
      exact h1 (by rw [e])
    · rw [if_neg h1]
      by_cases h2 : (f1.take 65536).length = 0
      · rw [if_pos h2]
        have e1 : f1.length = 0 := by simp only [List.length_take] at h2; omega
        have e2 : f2.length = 0 := by simp only [List.length_take] at h1 h2; omega
        rw [List.length_eq_zero_iff.1 e1, List.length_eq_zero_iff.1 e2]
        simp
      · rw [if_neg h2]
        by_cases h3 : f1.take 65536 ≠ f2.take 65536
        · rw [if_pos h3, if_neg]
          intro e
          exact h3 (by rw [e])
        · rw [if_neg h3]
          have h3 : f1.take 65536 = f2.take 65536 := Classical.not_not.1 h3
          rw [ih _ _ _ (by simp only [List.length_take] at h2; simp only [List.length_drop]; omega)]
          have hiff : f1.drop 65536 = f2.drop 65536 ↔ f1 = f2 := by
            constructor
            · intro e
              rw [← List.take_append_drop 65536 f1, ← List.take_append_drop 65536 f2, h3, e]
            · intro e
              rw [e]
          by_cases e : f1 = f2
          · rw [if_pos (hiff.2 e), if_pos e]
            simp only [List.length_take, List.length_drop, Option.some.injEq]
            omega
          · rw [if_neg (fun x => e (hiff.1 x)), if_neg e]

theorem compare_eq (f1 f2 : Bytes) : compare f1 f2 = if f1 = f2 then some f1.length else none := by
  unfold compare
  rw [compareLoop_eq _ _ _ _ (by omega)]
  simp

/-- **C128.** Whatever the programs do: with checking, a new file is put in place (and the source removed) only if unpacking it gave exactly the bytes that unpacking the source gave, and at least one. -/
theorem rebuild_checked (o : Opts) (t : Tools) (p : Path) (b new : Bytes) (hc : o.check = true) (h : rebuild o t p b = some new) :
    ∃ data, unpack t p b = some data ∧ (t.dec o.type new).1 = data ∧ data ≠ [] := by
  unfold rebuild at h
  cases hu : unpack t p b with
  | none => rw [hu] at h; cases h
  | some data =>
    rw [hu] at h
    simp only [hc, if_true, compare_eq] at h
    refine ⟨data, rfl, ?_⟩
    by_cases e : data = (t.dec o.type (t.pack data).1).1
    · rw [if_pos e] at h
      simp only [] at h
      split at h
      · cases h
      · split at h
        · cases h
        · split at h
          · cases h
          · rename_i h0
            simp only [Option.some.injEq] at h
            subst h
            exact ⟨e.symm, fun x => h0 (by rw [x]; rfl)⟩
    · rw [if_neg e] at h
      simp only [] at h
      split at h
      · cases h
      · split at h <;> cases h

theorem destination_suffix (type : Kind) (p : Path) : type.ext <:+ destination type p := List.suffix_append _ _

/-- A source is never a destination. -/
theorem source_ne_destination {type : Kind} {p q : Path} (h : isSource type p = true) : p ≠ destination type q := by
  intro e
  subst e
  have := List.isSuffixOf_iff_suffix.2 (destination_suffix type q)
  simp [isSource, this] at h

theorem compressOne_other (o : Opts) (t : Tools) (fs : FS) (p q : Path) (h1 : q ≠ p) (h2 : q ≠ destination o.type p) : compressOne o t fs p q = fs q := by
  unfold compressOne
  cases rebuild o t p ((fs p).getD []) with
  | none => rfl
  | some new =>
    show FS.put _ _ _ q = _
    rw [FS.put, if_neg h2]
    cases o.clean with
    | true => exact if_neg h1
    | false => rfl

theorem compressAll_other (o : Opts) (t : Tools) (ps : List Path) (fs : FS) (q : Path) (h1 : q ∉ ps) (h2 : ∀ p ∈ ps, q ≠ destination o.type p) : compressAll o t fs ps q = fs q := by
  induction ps generalizing fs with
  | nil => rfl
  | cons p ps ih =>
    simp only [List.mem_cons, not_or] at h1
    show compressAll o t (compressOne o t fs p) ps q = _
    rw [ih _ h1.2 (fun x hx => h2 x (List.mem_cons_of_mem _ hx)), compressOne_other _ _ _ _ _ h1.1 (h2 p List.mem_cons_self)]

/-- What is stored under the name `p` or, compressed, under the destination of `p`. -/
def Kept (o : Opts) (t : Tools) (before after : FS) (p : Path) : Prop :=
  (after p = before p ∧ after (destination o.type p) = before (destination o.type p)) ∨
  ∃ b new data, before p = some b ∧ after (destination o.type p) = some new ∧ unpack t p b = some data ∧ (t.dec o.type new).1 = data ∧ data ≠ [] ∧ (o.clean = false → after p = some b) ∧ (o.clean = true → after p = none)

/-- **C128.** With checking, and if no two of the sources have the same destination: each source is there unchanged and its destination too; or its destination unpacks to what the source unpacked to, at least one byte, and only then is the source removed (if it is to be). All other files are unchanged. The programs may do anything. -/
theorem compress_preserves_partial (o : Opts) (t : Tools) (hc : o.check = true) (fs : FS) (ps : List Path) (hex : ∀ p ∈ ps, (fs p).isSome) (hs : ∀ p ∈ ps, isSource o.type p = true)
    (hn : (ps.map (destination o.type)).Nodup) :
    (∀ p ∈ ps, Kept o t fs (compressAll o t fs ps) p) ∧ ∀ q, q ∉ ps → q ∉ ps.map (destination o.type) → compressAll o t fs ps q = fs q := by
  refine ⟨?_, fun q h1 h2 => compressAll_other o t ps fs q h1 (fun p hp e => h2 (List.mem_map.2 ⟨p, hp, e.symm⟩))⟩
  induction ps generalizing fs with
  | nil => simp
  | cons p ps ih =>
    simp only [List.map_cons, List.nodup_cons] at hn
    have hsp := hs p List.mem_cons_self
    have hp' : p ∉ ps := fun h => hn.1 (List.mem_map.2 ⟨p, h, rfl⟩)
    -- the rest does not touch `p` or its destination
    have k1 : compressAll o t fs (p :: ps) p = compressOne o t fs p p :=
      compressAll_other o t ps _ p hp' (fun q _ => source_ne_destination hsp)
    have k2 : compressAll o t fs (p :: ps) (destination o.type p) = compressOne o t fs p (destination o.type p) := by
      apply compressAll_other o t ps
      · intro h
        exact source_ne_destination (hs _ (List.mem_cons_of_mem _ h)) rfl
      · intro q hq e
        exact hn.1 (List.mem_map.2 ⟨q, hq, e.symm⟩)
    intro x hx
    rcases List.mem_cons.1 hx with rfl | hx'
    · unfold Kept
      rw [k1, k2]
      unfold compressOne
      have hxx := hex x List.mem_cons_self
      obtain ⟨b, hb⟩ := Option.isSome_iff_exists.1 hxx
      cases hr : rebuild o t x ((fs x).getD []) with
      | none => exact Or.inl ⟨rfl, rfl⟩
      | some new =>
        right
        rw [hb] at hr
        obtain ⟨data, d1, d2, d3⟩ := rebuild_checked o t x b new hc hr
        refine ⟨b, new, data, hb, by simp [FS.put], d1, d2, d3, ?_, ?_⟩
        · intro hcl
          simp [FS.put, source_ne_destination hsp, hcl, hb]
        · intro hcl
          simp [FS.put, source_ne_destination hsp, hcl]
    · have o1 : ∀ q ∈ ps, compressOne o t fs p q = fs q := fun q hq =>
        compressOne_other o t fs p q (fun e => hp' (e ▸ hq)) (source_ne_destination (hs q (List.mem_cons_of_mem _ hq)))
      have o2 : ∀ q ∈ ps, compressOne o t fs p (destination o.type q) = fs (destination o.type q) := fun q hq =>
        compressOne_other o t fs p _ (fun e => source_ne_destination hsp e.symm) (fun e => hn.1 (List.mem_map.2 ⟨q, hq, e⟩))
      have h := ih (compressOne o t fs p) (fun q hq => by rw [o1 q hq]; exact hex q (List.mem_cons_of_mem _ hq)) (fun q hq => hs q (List.mem_cons_of_mem _ hq)) hn.2 x hx'
      unfold Kept at h ⊢
      rw [o1 x hx', o2 x hx'] at h
      exact h

/-- A packer that puts a byte before the contents, and the unpackers that go with it; an unpacker fails on contents without that byte, after putting out what it has. -/
def toy : Tools where
  dec _ b := match b with | 1 :: r => (r, true) | r => (r.take 1, false)
  pack b := (1 :: b, true)

/-- Two files; the second is packed with gzip already. -/
def twoFiles : FS := fun p => if p = "a".toList then some [5, 6] else if p = "b.gz".toList then some [1, 7] else none

example : (∀ p ∈ ["a".toList, "b.gz".toList], (twoFiles p).isSome) ∧ (∀ p ∈ ["a".toList, "b.gz".toList], isSource .bz2 p = true) ∧ (["a".toList, "b.gz".toList].map (destination .bz2)).Nodup ∧
    (let fs := compressAll {} toy twoFiles ["a".toList, "b.gz".toList]
     fs "a".toList = none ∧ fs "a.bz2".toList = some [1, 5, 6] ∧ fs "b.gz".toList = none ∧ fs "b.bz2".toList = some [1, 7]) := by
  decide +kernel

/-- **C128.** False if two sources have the same destination: `a` and `a.gz`, with different contents, both become `a.bz2`; the contents of `a` are nowhere afterwards, though everything worked and was checked. -/
theorem compress_collision_false : let before : FS := fun p => if p = "a".toList then some [5, 6] else if p = "a.gz".toList then some [1, 7] else none
    let after := compressAll {} toy before ["a".toList, "a.gz".toList]
    after "a".toList = none ∧ after "a.gz".toList = none ∧ after "a.bz2".toList = some [1, 7] := by
  decide +kernel

/-- **C128.** False: a source that cannot be unpacked (its unpacker fails after the first byte) is taken for what was unpacked of it, found equal, and removed; two bytes of it are lost. -/
theorem compress_corrupt_false : let before : FS := fun p => if p = "a.gz".toList then some [9, 8, 7] else none
    let after := compressAll {} toy before ["a.gz".toList]
    (toy.dec .gz [9, 8, 7]).2 = false ∧ after "a.gz".toList = none ∧ after "a.bz2".toList = some [1, 9] := by
  decide +kernel

/-- **C128.** False: a destination that is there is not kept, however new: the test for being out of date is true exactly if the destination exists, so everything is always built. -/
theorem compress_always_builds (destExists : Bool) : needsBuild destExists = true := by cases destExists <;> rfl

/-- The contents of `a.bz2`, never derived from `a`, are lost. -/
theorem compress_existing_false : let before : FS := fun p => if p = "a".toList then some [5] else if p = "a.bz2".toList then some [1, 9, 9] else none
    needsBuild (before (destination .bz2 "a".toList)).isSome = true ∧ compressAll {} toy before ["a".toList] "a.bz2".toList = some [1, 5] := by
  decide +kernel

/-- **C128.** With checking, a file without contents is never compressed, whatever the programs do: it fails each time. -/
theorem compress_empty_fails (o : Opts) (t : Tools) (p : Path) (b : Bytes) (hc : o.check = true) (h : unpack t p b = some []) : rebuild o t p b = none := by
  cases hr : rebuild o t p b with
  | none => rfl
  | some new =>
    obtain ⟨data, h1, _, h3⟩ := rebuild_checked o t p b new hc hr
    rw [h] at h1
    exact absurd (Option.some.inj h1).symm h3

example : unpack toy "a".toList [] = some [] := by decide +kernel

/-- **C128.** `ifsmaller`: a source is replaced only by a file that is not larger. -/
theorem compress_ifsmaller (o : Opts) (t : Tools) (p : Path) (b new : Bytes) (hi : o.ifsmaller = true) (h : rebuild o t p b = some new) : new.length ≤ b.length := by
  unfold rebuild at h
  cases hu : unpack t p b with
  | none => rw [hu] at h; cases h
  | some data =>
    rw [hu] at h
    simp only [hi, Bool.true_and] at h
    split at h
    · cases h
    · split at h
      · cases h
      · rename_i hl
        have hl : (t.pack data).1.length ≤ b.length := by simpa using hl
        have hnew : new = (t.pack data).1 := by
          split at h
          · split at h
            · cases h
            · split at h
              · cases h
              · exact (Option.some.inj h).symm
          · exact (Option.some.inj h).symm
        rw [hnew]
        exact hl

/-- With programs that work (unpacking gives back what was packed), a source with contents is always replaced. -/
theorem compress_works (o : Opts) (t : Tools) (p : Path) (b data : Bytes) (hi : o.ifsmaller = false) (hu : unpack t p b = some data) (hd : data ≠ []) (hp : (t.pack data).2 = true)
    (hr : (t.dec o.type (t.pack data).1).1 = data) : rebuild o t p b = some (t.pack data).1 := by
  unfold rebuild
  rw [hu]
  simp only [hp, hi, Bool.not_true, Bool.false_and, compare_eq, hr, if_true]
  have : data.length ≠ 0 := fun h => hd (List.length_eq_zero_iff.1 h)
  simp [this]

example : unpack toy "b.gz".toList [1, 7] = some [7] ∧ (toy.pack [7]).2 = true ∧ (toy.dec .bz2 (toy.pack [7]).1).1 = [7] := by decide +kernel

end Verif.Batch.Compress
