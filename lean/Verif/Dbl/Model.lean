import Verif.Dbl.Round

/-! # Double: comparing with a tolerance

Model of include/Lintel/Double.hpp. The two zeros are one number: nothing here depends on the sign of a zero. The static variable default_epsilon is a parameter; `setEpsilon…` gives its new value. The extended precision of old processors (setFP64BitMode) is not modelled. -/

namespace Verif.Dbl

/-- A `double`. Used in the model of `Double.hpp:52-54` (`abs`). -/
inductive Val where
  | nan
  /-- `true`: the negative one -/
  | inf (neg : Bool)
  | fin (q : ℚ)
deriving DecidableEq

/-- The numbers that are there. -/
def Val.Ok : Val → Prop
  | .fin q => Grid q ∧ |q| < 2 ^ 1024
  | _ => True

/-- A result. Used in the model of `Double.hpp:55-63` (`sub`). -/
def ofQ (F : Rounding) (q : ℚ) : Val := if |F.rnd q| < 2 ^ 1024 then .fin (F.rnd q) else .inf (decide (F.rnd q < 0))

/-- Unary minus. Used in the model of `Double.hpp:52-54` (`abs`). -/
def neg : Val → Val
  | .nan => .nan
  | .inf s => .inf (!s)
  | .fin q => .fin (-q)

/-- `a < b`. Used in the model of `Double.hpp:52-54` (`abs`). -/
def lt : Val → Val → Bool
  | .nan, _ => false
  | _, .nan => false
  | .inf s, .inf t => s && !t
  | .inf s, .fin _ => s
  | .fin _, .inf t => !t
  | .fin a, .fin b => decide (a < b)

/-- `a == b`. Used in the model of `Double.hpp:55-63` (`eq`). -/
def same : Val → Val → Bool
  | .inf s, .inf t => s == t
  | .fin a, .fin b => decide (a = b)
  | _, _ => false

/-- `a - b`. Used in the model of `Double.hpp:55-63` (`eq`). -/
def sub (F : Rounding) : Val → Val → Val
  | .nan, _ => .nan
  | _, .nan => .nan
  | .inf s, .inf t => if s = t then .nan else .inf s
  | .inf s, .fin _ => .inf s
  | .fin _, .inf t => .inf (!t)
  | .fin a, .fin b => ofQ F (a - b)

/-- `a / b`. Used in the model of `Double.hpp:55-63` (`eq`). -/
def div (F : Rounding) : Val → Val → Val
  | .nan, _ => .nan
  | _, .nan => .nan
  | .inf _, .inf _ => .nan
  | .inf s, .fin b => .inf (s != decide (b < 0))
  | .fin _, .inf _ => .fin 0
  | .fin a, .fin b => if b = 0 then (if a = 0 then .nan else .inf (decide (a < 0))) else ofQ F (a / b)

/-- `Double::abs`, lines 52-54. -/
def abs (a : Val) : Val := if lt a (.fin 0) then neg a else a

/-- `std::min`. Used in the model of `Double.hpp:55-63` (`eq`). -/
def min (x y : Val) : Val := if lt y x then y else x

/-- `Double::eq`, lines 55-63. -/
def eq (F : Rounding) (eps a b : Val) : Bool :=
  let relto := min (abs a) (abs b)
  let diff := abs (sub F a b)
  if same relto (.fin 0) then lt diff eps else lt (div F diff relto) eps

/-- `Double::leq`, lines 67-69. -/
def leq (F : Rounding) (eps a b : Val) : Bool := lt a b || eq F eps a b

/-- `Double::lt`, lines 70-72. -/
def less (F : Rounding) (eps a b : Val) : Bool := lt a b && !eq F eps a b

/-- `Double::geq`, lines 73-75. -/
def geq (F : Rounding) (eps a b : Val) : Bool := lt b a || eq F eps a b

/-- `Double::gt`, lines 76-78. -/
def gt (F : Rounding) (eps a b : Val) : Bool := lt b a && !eq F eps a b

/-- The loops of `setEpsilonDigits` (base 10) and `setEpsilonBits` (base 2), lines 39-50. -/
def setEpsilon (F : Rounding) (base : ℚ) : ℕ → Val
  | 0 => .fin 1
  | n + 1 => div F (setEpsilon F base n) (.fin base)

end Verif.Dbl
