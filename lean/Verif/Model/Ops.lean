import Verif.Model.Scalar

/-!
# Functors of the node types

Each functor of `unary.hpp`, `binary.hpp`, `eq.hpp` and `pow.hpp` as a function on scalars; the nodes apply
them coefficient-wise.
-/

namespace FastAD

variable {α : Type} [Zero α] [One α] [Add α] [Sub α] [Neg α] [Mul α] [Div α] [NatCast α] [IntCast α]
variable [Fn α] [HasInf α] [LinAlg α]

/-- The unary functor structs, `reverse/core/unary.hpp:191-285`. -/
inductive UOp
  | neg | sin | cos | tan | asin | acos | atan | exp | log | sqrt | erf | sigmoid | sinh | cosh | tanh
  deriving DecidableEq, Repr

/-- `fmap` of the unary functors, unary.hpp:191-285. -/
def UOp.fmap : UOp → α → α
  | .neg, x => -x
  | .sin, x => Fn.sin x
  | .cos, x => Fn.cos x
  | .tan, x => Fn.tan x
  | .asin, x => Fn.asin x
  | .acos, x => Fn.acos x
  | .atan, x => Fn.atan x
  | .exp, x => Fn.exp x
  | .log, x => Fn.log x
  | .sqrt, x => Fn.sqrt x
  | .erf, x => Fn.erf x
  | .sigmoid, x => 1 / (1 + Fn.exp (-x))
  | .sinh, x => Fn.sinh x
  | .cosh, x => Fn.cosh x
  | .tanh, x => Fn.tanh x

/-- `bmap(seed, x, f)` of the unary functors, unary.hpp:191-285. -/
def UOp.bmap : UOp → α → α → α → α
  | .neg, seed, _, _ => -seed
  | .sin, seed, x, _ => seed * Fn.cos x
  | .cos, seed, x, _ => -seed * Fn.sin x
  | .tan, seed, x, _ => seed / (Fn.cos x * Fn.cos x)
  | .asin, seed, x, _ => seed / Fn.sqrt (1 - x * x)
  | .acos, seed, x, _ => -(seed / Fn.sqrt (1 - x * x))
  | .atan, seed, x, _ => seed / (1 + x * x)
  | .exp, seed, _, f => seed * f
  | .log, seed, x, _ => seed / x
  | .sqrt, seed, _, f => (1 / 2) * seed / f
  | .erf, seed, x, _ => Fn.twoOverSqrtPi * seed * Fn.exp (-x * x)
  | .sigmoid, seed, x, _ => seed * Fn.exp (-x) / ((Fn.exp (-x) + 1) * (Fn.exp (-x) + 1))
  | .sinh, seed, x, _ => seed * Fn.cosh x
  | .cosh, seed, x, _ => seed * Fn.sinh x
  | .tanh, seed, _, f => seed * (1 - f * f)

/-- The binary functor structs, `reverse/core/binary.hpp:266-470`. -/
inductive BOp
  | add | sub | mul | div
  | lt | le | gt | ge | eq | ne | and | or
  deriving DecidableEq, Repr

/-- `is_comparison`, binary.hpp:266-470. -/
def BOp.isComparison : BOp → Bool
  | .add | .sub | .mul | .div => false
  | _ => true

/-- `bool` to scalar conversion (`cast_to<value_t>`, binary.hpp:104; `util/value.hpp`). -/
def ofBool (b : Bool) : α := if b then 1 else 0

/-- scalar to `bool` conversion: non-zero is true. -/
def toBool (x : α) : Bool := !(Fn.beq x 0)

/-- `fmap(x, y)` of the binary functors, binary.hpp:266-470.  The flag `scl` says that both operands are
scalars: then `&&`/`||` are the built-in operators, otherwise Eigen's `min`/`max` (binary.hpp:432-470). -/
def BOp.fmap (op : BOp) (scl : Bool) (x y : α) : α :=
  match op with
  | .add => x + y
  | .sub => x - y
  | .mul => x * y
  | .div => x / y
  | .lt => ofBool (Fn.blt x y)
  | .le => ofBool (Fn.ble x y)
  | .gt => ofBool (Fn.blt y x)
  | .ge => ofBool (Fn.ble y x)
  | .eq => ofBool (Fn.beq x y)
  | .ne => ofBool (!(Fn.beq x y))
  | .and => if scl then ofBool (toBool x && toBool y) else (if Fn.blt y x then y else x)
  | .or => if scl then ofBool (toBool x || toBool y) else (if Fn.blt x y then y else x)

/-- coefficient of `blmap(seed, x, y, f)`, binary.hpp:266-338 (comparisons return 0, binary.hpp:347-470). -/
def BOp.bl : BOp → α → α → α → α → α
  | .add, seed, _, _, _ => seed
  | .sub, seed, _, _, _ => seed
  | .mul, seed, _, y, _ => seed * y
  | .div, seed, _, y, _ => seed / y
  | _, _, _, _, _ => 0

/-- coefficient of `brmap(seed, x, y, f)`, binary.hpp:266-338 (comparisons return 0, binary.hpp:347-470). -/
def BOp.br : BOp → α → α → α → α → α
  | .add, seed, _, _, _ => seed
  | .sub, seed, _, _, _ => -seed
  | .mul, seed, x, _, _ => seed * x
  | .div, seed, _, y, f => -seed * f / y
  | _, _, _, _, _ => 0

/-- The `op=` functor structs, `reverse/core/eq.hpp:305-413`. -/
inductive AOp
  | add | sub | mul | div
  deriving DecidableEq, Repr

/-- `fmap` (in-place update), eq.hpp:305-413. -/
def AOp.fmap : AOp → α → α → α
  | .add, x, y => x + y
  | .sub, x, y => x - y
  | .mul, x, y => x * y
  | .div, x, y => x / y

/-- coefficient of `blmap(seed, x, y)`, eq.hpp:305-413. -/
def AOp.bl : AOp → α → α → α → α
  | .add, seed, _, _ => seed
  | .sub, seed, _, _ => seed
  | .mul, seed, _, y => seed * y
  | .div, seed, _, y => seed / y

/-- coefficient of `brmap(seed, x, y)`, eq.hpp:305-413. -/
def AOp.br : AOp → α → α → α → α
  | .add, seed, _, _ => seed
  | .sub, seed, _, _ => -seed
  | .mul, seed, x, _ => seed * x
  | .div, seed, x, y => -seed * x / (y * y)

/-- `PowFunc<exp, true>`: square-and-multiply for `exp ≥ 0`, `reverse/core/pow.hpp:19-43`. -/
def powNat (n : Nat) (base : α) : α :=
  if _h : n = 0 then 1
  else if n % 2 = 0 then
    powNat (n / 2) base * powNat (n / 2) base
  else base * powNat (n - 1) base
termination_by n
decreasing_by all_goals omega

/-- `PowFunc<exp>::evaluate`, `reverse/core/pow.hpp:19-56`. -/
def powFunc (n : Int) (base : α) : α :=
  if 0 ≤ n then powNat n.toNat base
  else if Fn.beq base 0 then HasInf.inf
  else powNat (-n).toNat (1 / base)

/-- Seed factor of `PowNode::beval` for `exp > 1`, pow.hpp:125-140, and `exp < 0`, pow.hpp:142-160. -/
def powSeed (n : Int) (adj val x : α) : α :=
  if 1 < n then
    (n : α) * adj * (if Fn.beq x 0 then 0 else val / x)
  else
    if Fn.beq x 0 then -HasInf.inf else (n : α) * adj * val / x

end FastAD
