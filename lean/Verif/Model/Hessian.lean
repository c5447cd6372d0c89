import Verif.Model.Forward
import Verif.Model.Api

/-!
# Second derivatives: reverse mode over forward variables

`reverse/core/hessian.hpp` differentiates a reverse-mode expression whose scalar type is `ForwardVar<T>`: the expression templates are the same, the arithmetic is that of
forward/core/forward.hpp.
-/

namespace FastAD

variable {α : Type} [Zero α] [One α] [Add α] [Sub α] [Neg α] [Mul α] [Div α] [NatCast α] [IntCast α]
variable [Fn α] [HasInf α] [LinAlg α]

/-! ### `ForwardVar<T>` as a scalar type

Numbers are converted by the constructor `ADForward(T w, T df = 0)`, forward.hpp:88-90; operators and functions are those of forward.hpp:104-166.  (Some uses in unary.hpp and binary.hpp are ambiguous or
not found by argument-dependent lookup, DESIGN.md, disagreement 37; the model gives them their evident meaning.) -/

instance : Zero (Dual α) := ⟨.ofVal 0⟩
instance : One (Dual α) := ⟨.ofVal 1⟩
instance : NatCast (Dual α) := ⟨fun n => .ofVal n⟩
instance : IntCast (Dual α) := ⟨fun n => .ofVal n⟩
instance : Add (Dual α) := ⟨FBin.add.map⟩
instance : Sub (Dual α) := ⟨FBin.sub.map⟩
instance : Mul (Dual α) := ⟨FBin.mul.map⟩
instance : Div (Dual α) := ⟨FBin.div.map⟩
instance : Neg (Dual α) := ⟨FUn.neg.map⟩

/-- The functions of forward.hpp:104-140.  There are no hyperbolic functions, no powers and no comparisons of `ADForward`; expressions that need them do not compile.  They are given a dummy meaning here; the theorems
exclude them. -/
instance : Fn (Dual α) where
  sin := FUn.sin.map
  cos := FUn.cos.map
  tan := FUn.tan.map
  asin := FUn.asin.map
  acos := FUn.acos.map
  atan := FUn.atan.map
  exp := FUn.exp.map
  log := FUn.log.map
  sqrt := FUn.sqrt.map
  erf := FUn.erf.map
  abs x := x
  sinh x := x
  cosh x := x
  tanh x := x
  ipow x _ := x
  twoOverSqrtPi := .ofVal Fn.twoOverSqrtPi
  beq x y := Fn.beq x.w y.w
  blt x y := Fn.blt x.w y.w
  ble x y := Fn.ble x.w y.w

variable [HasInf (Dual α)] [LinAlg (Dual α)]

/-- `x[i].get_value().set_adjoint(c)` for the forward variable in value cell `a` (hessian.hpp:52,54; dualnum.hpp:43-46) -/
def setTangent (s : St (Dual α)) (a : Nat) (c : α) : Option (St (Dual α)) :=
  if s.vok a then some { s with val := fillRange s.val a 1 fun _ => ⟨(s.val a).w, c⟩ } else none

/-- `if (i > 0) x[i-1].get_value().set_adjoint(0)`, hessian.hpp:51-53 -/
def clearTangent (s : St (Dual α)) (p i : Nat) : Option (St (Dual α)) := if i > 0 then setTangent s (p + (i - 1)) 0 else some s

/-- One round of the loop of `hessian_gen`, hessian.hpp:48-63 (and 28-39, without the gradient), for the expression `e`, whose variables `x[0], ..., x[n-1]` are stored from value cell `p` and adjoint cell `q` on:
reset the adjoints, set the tangents, differentiate; result: the tangent of the value, and the tangents of the adjoints of the variables.
(The old interface `Vec`, `make_exgen` is replaced by a bound expression and a vector of variables.) -/
def hessRound (e : Expr (Dual α)) (p q n i : Nat) (s : St (Dual α)) : Option (St (Dual α) × α × (Nat → α)) := do
  let s ← s.writeA (some q) n fun _ => 0                                -- 50: x.reset_adjoint()
  let s ← clearTangent s p i                                            -- 51-53
  let s ← setTangent s (p + i) 1                                        -- 54
  let (s, r) ← autodiff e (fun _ => 1) s                                -- 55
  let f ← r.read s 1                                                    -- 58
  let h ← s.readA (some q) n                                            -- 62, 12-20: compute_hess
  some (s, (f 0).df, fun j => (h j).df)

/-- The loop of `hessian_gen`, hessian.hpp:48-63: `k` rounds from round `i` on; the collected gradient entries and columns. -/
def hessLoop (e : Expr (Dual α)) (p q n : Nat) : (i k : Nat) → St (Dual α) → Option (St (Dual α) × List (α × (Nat → α)))
  | _, 0, s => some (s, [])
  | i, k + 1, s => do
      let (s, g, h) ← hessRound e p q n i s
      let (s, l) ← hessLoop e p q n (i + 1) k s
      some (s, (g, h) :: l)

/-- `hessian_gen`, hessian.hpp:42-64, for `n` variables. -/
def hessian (e : Expr (Dual α)) (p q n : Nat) (s : St (Dual α)) : Option (St (Dual α) × List (α × (Nat → α))) := hessLoop e p q n 0 n s

end FastAD
