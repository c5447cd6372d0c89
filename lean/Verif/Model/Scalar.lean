import Mathlib.Data.Nat.Cast.Defs
import Mathlib.Data.Int.Cast.Defs

/-!
# Scalar operations used by the templates

The C++ templates are written for an arbitrary value type (`double`, or `ForwardVar<double>`).
The model is generic in the scalar type as well; only the operations that the C++ code calls are assumed, and none of
their laws.  The theorems instantiate the scalar type with `ℝ` (see `Verif/Spec/RealScalar.lean`).
-/

namespace FastAD

/-- The libm functions and comparisons used in
`reverse/core/unary.hpp:191-296`, `reverse/core/binary.hpp:347-470`, `reverse/core/pow.hpp:97`
and `forward/core/forward.hpp:107-140`.
`twoOverSqrtPi` is the literal `1.1283791670955126` (unary.hpp:255, forward.hpp:139).
`ipow` is Eigen's coefficient-wise `.array().pow(exp)` (pow.hpp:97).
`beq`/`blt`/`ble` are the C++ operators `==`, `<`, `<=`. -/
class Fn (α : Type) where
  sin : α → α
  cos : α → α
  tan : α → α
  asin : α → α
  acos : α → α
  atan : α → α
  exp : α → α
  log : α → α
  sqrt : α → α
  abs : α → α
  erf : α → α
  sinh : α → α
  cosh : α → α
  tanh : α → α
  ipow : α → Int → α
  twoOverSqrtPi : α
  beq : α → α → Bool
  blt : α → α → Bool
  ble : α → α → Bool

/-- `std::numeric_limits<T>::infinity()` (`util/numeric.hpp`, pow.hpp:53,149).  Kept as a separate class
so that theorems can quantify over an arbitrary interpretation of infinity. -/
class HasInf (α : Type) where
  inf : α

/-- Eigen's dense decompositions used by `reverse/core/det.hpp`, `reverse/core/log_det.hpp` and the
matrix log-pdfs.  A matrix is given column-major as `f (i + j * n)`.
* `det`: `FullPivLU::determinant`, `MatrixBase::determinant`
* `invertible`: `FullPivLU::isInvertible`
* `inv`: `FullPivLU::inverse`
* `symInv`: `LDLT/LLT::solve(Identity)` (these decompositions only read the lower triangle)
* `symDet`: `LDLT::vectorD().prod()`
* `ldltOk`: `LDLT::info() == Success`
* `lltOk`: `LLT::info() == Success`
* `lltDetL`: `LLT::matrixL().determinant()` -/
class LinAlg (α : Type) where
  det : Nat → (Nat → α) → α
  invertible : Nat → (Nat → α) → Bool
  inv : Nat → (Nat → α) → (Nat → α)
  symInv : Nat → (Nat → α) → (Nat → α)
  symDet : Nat → (Nat → α) → α
  ldltOk : Nat → (Nat → α) → Bool
  lltOk : Nat → (Nat → α) → Bool
  lltDetL : Nat → (Nat → α) → α

/-- Left-to-right sum of the first `n` coefficients (`.sum()` of Eigen). -/
def sumN {α : Type} [Zero α] [Add α] : Nat → (Nat → α) → α
  | 0, _ => 0
  | n + 1, f => sumN n f + f n

/-- Left-to-right product of the first `n` coefficients (`.prod()` of Eigen). -/
def prodN {α : Type} [One α] [Mul α] : Nat → (Nat → α) → α
  | 0, _ => 1
  | n + 1, f => prodN n f * f n

end FastAD
