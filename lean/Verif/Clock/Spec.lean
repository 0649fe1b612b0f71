import Verif.Clock.Model

/-! # What is expected of the clock -/

namespace Verif.Clock

/-- `k` is the whole part of `x`. -/
def IsFloor (k : Nat) (x : ℚ) : Prop := (k : ℚ) ≤ x ∧ x < k + 1

/-- `k` is the least whole number not below `x`. -/
def IsCeil (k : Nat) (x : ℚ) : Prop := x ≤ k ∧ (k : ℚ) < x + 1

/-- The fraction of a second a `Tfrac` stands for. -/
def fraction (t : Nat) : ℚ := (t % 2 ^ 32 : Nat) / 2 ^ 32

/-- A call that does not ask the system for the time. -/
def Quiet (c : Clk) (e : Seen) : Prop := c.lastCc < e.cc ∧ e.cc - c.lastRecal ≤ c.interval

/-- The readings of a sequence of calls of `todccTfrac()`. -/
def readings (F : Flt.Rounding) (g : Globals) : Clk → List Seen → Res (Clk × List Nat)
  | c, [] => .ok (c, [])
  | c, e :: es => do
    let (c1, v) ← todcc F g c e
    let (c2, vs) ← readings F g c1 es
    pure (c2, v :: vs)

/-- The same with changes of the recalibration interval in between. -/
inductive Call | read (e : Seen) | interval (seconds : ℚ)

/-- Runs a program over one clock; the results are the times read. -/
def program (F : Flt.Rounding) (g : Globals) : Clk → List Call → Res (Clk × List Nat)
  | c, [] => .ok (c, [])
  | c, .read e :: es => do
    let (c1, v) ← todcc F g c e
    let (c2, vs) ← program F g c1 es
    pure (c2, v :: vs)
  | c, .interval s :: es => do
    let c1 ← setInterval F g c s
    program F g c1 es

/-- The times of day the machine had at the reads of a program. -/
def todsOf : List Call → List Nat
  | [] => []
  | .read e :: es => e.tod :: todsOf es
  | .interval _ :: es => todsOf es

end Verif.Clock
