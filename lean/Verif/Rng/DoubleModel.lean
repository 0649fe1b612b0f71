import Verif.Rng.Model
import Verif.Flt.Round

/-! # Random doubles (`/repo/include/Lintel/RandomBase.hpp:64-94`) -/

namespace Verif.Rng

open Verif.Flt

/-- `randDoubleOpen()` from the word drawn, `RandomBase.hpp:71, 77-79`. -/
def open32 (F : Rounding) (x : W) : ℚ := F.rnd (F.rnd (x.toNat : ℚ) * F.rnd (1 / 4294967296))

/-- `randDoubleClosed()`, `RandomBase.hpp:72, 80-82`. -/
def closed32 (F : Rounding) (x : W) : ℚ := F.rnd (F.rnd (x.toNat : ℚ) * F.rnd (1 / 4294967295))

/-- `a * MTR_AMult + b`, `RandomBase.hpp:73-76`, for the shifted words. -/
def join53 (F : Rounding) (a b : W) : ℚ := F.rnd (F.rnd (F.rnd (a.toNat : ℚ) * 67108864) + F.rnd (b.toNat : ℚ))

/-- `randDoubleOpen53()`, `RandomBase.hpp:75, 88-91`, from the shifted words. -/
def open53 (F : Rounding) (a b : W) : ℚ := F.rnd (join53 F a b / 9007199254740992)

/-- `randDoubleClosed53()`, `RandomBase.hpp:76, 92-95`. -/
def closed53 (F : Rounding) (a b : W) : ℚ := F.rnd (join53 F a b / 9007199254740991)

variable {S : Type} (next : S → Res (S × W))

/-- The four functions on a generator. `randDouble()` is `randDoubleOpen()` (`RandomBase.hpp:83-85`). -/
def Templ.doubleOpen (F : Rounding) (t : Templ S) : Res (Templ S × ℚ) := do
  let (t, x) ← t.int next
  pure (t, open32 F x)

/-- Made of the parts of `RandomBase.hpp:72-72`. -/
def Templ.doubleClosed (F : Rounding) (t : Templ S) : Res (Templ S × ℚ) := do
  let (t, x) ← t.int next
  pure (t, closed32 F x)

/-- Made of the parts of `RandomBase.hpp:75-75`. -/
def Templ.doubleOpen53 (F : Rounding) (t : Templ S) : Res (Templ S × ℚ) := do
  let (t, a, b) ← t.pair next
  pure (t, open53 F a b)

/-- Made of the parts of `RandomBase.hpp:76-76`. -/
def Templ.doubleClosed53 (F : Rounding) (t : Templ S) : Res (Templ S × ℚ) := do
  let (t, a, b) ← t.pair next
  pure (t, closed53 F a b)

end Verif.Rng
