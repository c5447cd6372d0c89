import Verif.Spec.RealScalar
import Mathlib.Data.Int.Log
import Mathlib.Algebra.Order.Round

/-!
# Arithmetic with rounding

`Rounded rnd`: every operation is computed exactly and then rounded by `rnd`, as floating-point and fixed-point units do.
-/

namespace FastAD

noncomputable section

/-- machine numbers; every operation is followed by `rnd` -/
structure Rounded (rnd : ℝ → ℝ) where
  /-- the real number that is meant -/
  v : ℝ

namespace Rounded

variable {rnd : ℝ → ℝ}

instance : Zero (Rounded rnd) := ⟨⟨0⟩⟩
instance : One (Rounded rnd) := ⟨⟨1⟩⟩
instance : Add (Rounded rnd) := ⟨fun a b => ⟨rnd (a.v + b.v)⟩⟩
instance : Sub (Rounded rnd) := ⟨fun a b => ⟨rnd (a.v - b.v)⟩⟩
instance : Neg (Rounded rnd) := ⟨fun a => ⟨-a.v⟩⟩
instance : Mul (Rounded rnd) := ⟨fun a b => ⟨rnd (a.v * b.v)⟩⟩
instance : Div (Rounded rnd) := ⟨fun a b => ⟨rnd (a.v / b.v)⟩⟩
instance : NatCast (Rounded rnd) := ⟨fun n => ⟨rnd n⟩⟩
instance : IntCast (Rounded rnd) := ⟨fun n => ⟨rnd n⟩⟩
open Classical in
instance : Fn (Rounded rnd) where
  sin a := ⟨rnd (Real.sin a.v)⟩
  cos a := ⟨rnd (Real.cos a.v)⟩
  tan a := ⟨rnd (Real.tan a.v)⟩
  asin a := ⟨rnd (Real.arcsin a.v)⟩
  acos a := ⟨rnd (Real.arccos a.v)⟩
  atan a := ⟨rnd (Real.arctan a.v)⟩
  exp a := ⟨rnd (Real.exp a.v)⟩
  log a := ⟨rnd (Real.log a.v)⟩
  sqrt a := ⟨rnd (Real.sqrt a.v)⟩
  abs a := ⟨|a.v|⟩
  erf a := ⟨rnd (realErf a.v)⟩
  sinh a := ⟨rnd (Real.sinh a.v)⟩
  cosh a := ⟨rnd (Real.cosh a.v)⟩
  tanh a := ⟨rnd (Real.tanh a.v)⟩
  ipow a n := ⟨rnd (a.v ^ n)⟩
  twoOverSqrtPi := ⟨rnd (2 / √Real.pi)⟩
  beq a b := decide (a.v = b.v)
  blt a b := decide (a.v < b.v)
  ble a b := decide (a.v ≤ b.v)

/-- floating-point numbers with `p` binary digits after the leading one and exponents from `lo` to `hi`, as IEEE 754 (double: `p = 52`, `lo = -1022`, `hi = 1023`): rounding to the nearest number; gradual underflow, that is the distance of
neighbouring numbers is `2^(lo - p)` below `2^lo`; results that overflow are replaced by anything, here 0 -/
def float (p : ℕ) (lo hi : ℤ) (x : ℝ) : ℝ :=
  if |x| < 2 ^ (hi + 1) then round (x / 2 ^ (max (Int.log 2 |x|) lo - p)) * 2 ^ (max (Int.log 2 |x|) lo - p) else 0

/-- the machine number nearest to a constant in the source text -/
def lit (c : ℝ) : Rounded rnd := ⟨rnd c⟩

end Rounded

end

end FastAD
