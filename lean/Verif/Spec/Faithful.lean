import Verif.Spec.Inside
import Verif.Spec.Regular
import Mathlib.Topology.Instances.Real.Lemmas

/-!
# Families of arithmetics that approximate the real numbers

`F i` is a type of machine numbers, `val i` the real number a machine number stands for; along the filter `φ` the arithmetic gets more and more precise.
-/

open Filter Topology

namespace FastAD

noncomputable section

/-- where the operations are continuous: unary functions in their open domains, division by numbers other than 0, comparison of different numbers,
powers (other than the 0th and first) and products of numbers other than 0.  (Powers and products are continuous at 0, too; but their derivatives are computed as quotients
`n * x^n / x` and `x1 * x2 / x1`.) -/
def plainDoms : Doms ℝ where
  un := UOp.DomAt
  den x := x ≠ 0
  cmp x y := x ≠ y
  pow n x := n = 0 ∨ n = 1 ∨ x ≠ 0
  fac x := x ≠ 0
  stat _ _ _ := False

/-- the log-densities that are computed by elementary functions and whose seeds are the gradient: normal (with scalar or vector sigma), Cauchy with scalar observations, uniform -/
def StatOp.elementary : StatOp → Bool
  | .normalSSS | .normalVSS | .normalVVS | .normalVSV | .normalVVV | .cauchySSS | .uniformSSS | .uniformVec _ _ => true
  | _ => false

/-- the same with log-densities, at valid parameters and possible observations -/
def realDoms : Doms ℝ := { plainDoms with stat := fun o n v => o.elementary = true ∧ o.valid n v }

/-- the numbers 0 and 1 are told apart -/
structure Bools (α : Type) [Zero α] [One α] [Fn α] : Prop where
  beq00 : Fn.beq (0 : α) 0 = true
  beq10 : Fn.beq (1 : α) 0 = false
  blt00 : Fn.blt (0 : α) 0 = false
  blt01 : Fn.blt (0 : α) 1 = true
  blt10 : Fn.blt (1 : α) 0 = false
  blt11 : Fn.blt (1 : α) 1 = false

variable {ι : Type}

/-- the machine numbers `a i` tend to the real number `x` -/
def Lim (φ : Filter ι) {F : ι → Type} (val : ∀ i, F i → ℝ) (x : ℝ) (a : ∀ i, F i) : Prop := Tendsto (fun i => val i (a i)) φ (𝓝 x)

/-- The operations of the arithmetics respect the approximation of real numbers by machine numbers, `R`: each single operation, applied to approximations of real numbers inside the domain of the operation, yields
an approximation of the exact result; comparisons of approximations of different numbers eventually come out right. -/
structure Approx (φ : Filter ι) (F : ι → Type) [∀ i, Zero (F i)] [∀ i, One (F i)] [∀ i, Add (F i)] [∀ i, Sub (F i)] [∀ i, Neg (F i)]
    [∀ i, Mul (F i)] [∀ i, Div (F i)] [∀ i, NatCast (F i)] [∀ i, IntCast (F i)] [∀ i, Fn (F i)] (R : ℝ → (∀ i, F i) → Prop) : Prop where
  zero : R 0 fun _ => 0
  one : R 1 fun _ => 1
  nat : ∀ n : ℕ, R n fun _ => (n : F _)
  int : ∀ n : ℤ, R n fun _ => (n : F _)
  add : ∀ {x y a b}, R x a → R y b → R (x + y) fun i => a i + b i
  sub : ∀ {x y a b}, R x a → R y b → R (x - y) fun i => a i - b i
  mul : ∀ {x y a b}, R x a → R y b → R (x * y) fun i => a i * b i
  neg : ∀ {x a}, R x a → R (-x) fun i => -a i
  div : ∀ {x y a b}, y ≠ 0 → R x a → R y b → R (x / y) fun i => a i / b i
  sin : ∀ {x a}, R x a → R (Real.sin x) fun i => Fn.sin (a i)
  cos : ∀ {x a}, R x a → R (Real.cos x) fun i => Fn.cos (a i)
  tan : ∀ {x a}, Real.cos x ≠ 0 → R x a → R (Real.tan x) fun i => Fn.tan (a i)
  asin : ∀ {x a}, -1 < x → x < 1 → R x a → R (Real.arcsin x) fun i => Fn.asin (a i)
  acos : ∀ {x a}, -1 < x → x < 1 → R x a → R (Real.arccos x) fun i => Fn.acos (a i)
  atan : ∀ {x a}, R x a → R (Real.arctan x) fun i => Fn.atan (a i)
  exp : ∀ {x a}, R x a → R (Real.exp x) fun i => Fn.exp (a i)
  log : ∀ {x a}, 0 < x → R x a → R (Real.log x) fun i => Fn.log (a i)
  sqrt : ∀ {x a}, 0 < x → R x a → R (Real.sqrt x) fun i => Fn.sqrt (a i)
  erf : ∀ {x a}, R x a → R (realErf x) fun i => Fn.erf (a i)
  sinh : ∀ {x a}, R x a → R (Real.sinh x) fun i => Fn.sinh (a i)
  cosh : ∀ {x a}, R x a → R (Real.cosh x) fun i => Fn.cosh (a i)
  tanh : ∀ {x a}, R x a → R (Real.tanh x) fun i => Fn.tanh (a i)
  ipow : ∀ {n : ℤ} {x a}, n = 0 ∨ n = 1 ∨ x ≠ 0 → R x a → R (x ^ n) fun i => Fn.ipow (a i) n
  twoOverSqrtPi : R (2 / √Real.pi) fun _ => Fn.twoOverSqrtPi
  cmp : ∀ {x y a b}, x < y → R x a → R y b → ∀ᶠ i in φ, Fn.blt (a i) (b i) = true ∧ Fn.blt (b i) (a i) = false ∧
    Fn.ble (a i) (b i) = true ∧ Fn.ble (b i) (a i) = false ∧ Fn.beq (a i) (b i) = false ∧ Fn.beq (b i) (a i) = false
  bools : ∀ i, Bools (F i)

/-- The arithmetics become exact: each single operation, applied to machine numbers which tend to real numbers inside the domain of the operation, yields machine numbers which tend to
the exact result; comparisons of numbers with different limits eventually come out right. -/
abbrev Faithful (φ : Filter ι) (F : ι → Type) [∀ i, Zero (F i)] [∀ i, One (F i)] [∀ i, Add (F i)] [∀ i, Sub (F i)] [∀ i, Neg (F i)]
    [∀ i, Mul (F i)] [∀ i, Div (F i)] [∀ i, NatCast (F i)] [∀ i, IntCast (F i)] [∀ i, Fn (F i)] (val : ∀ i, F i → ℝ) : Prop := Approx φ F (Lim φ val)

end

end FastAD
