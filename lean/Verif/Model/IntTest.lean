import Verif.Model.Example
import Verif.Model.BlackScholes

/-!
# The tests of test/integration/ad_inttest.cpp

The four tests of a function of five variables, ad_inttest.cpp:119-140, with the values of the fixture (line 51) as parameters.  `function_vector_complex` (lines 143-156) checks nothing and is left out.
-/

namespace FastAD

namespace IntTest

open Example (var)

variable {α : Type} [Zero α] [One α] [Add α] [Sub α] [Neg α] [Mul α] [Div α] [NatCast α] [IntCast α] [Fn α] [HasInf α] [LinAlg α]

/-- the view `v[i]` of the fixture, ad_inttest.cpp:51-53, 58-60.  The arrays `val` and `adj` are at the same number `c` of the two memories. -/
def v (c i : Nat) : Expr α := .var (var c i)

/-- the placeholder `w[j]` of the fixture, ad_inttest.cpp:54; the ten placeholders are put behind the five views -/
def w (c j : Nat) : View := var c (5 + j)

/-- `w[0] = ad::sin(x[0])*ad::cos(x[1])`, ad_inttest.cpp:11, 126 -/
def f0 (c : Nat) : Expr α := .mkEq (w c 0) (.mkBinary .mul (.mkUnary .sin (v c 0)) (.mkUnary .cos (v c 1)))
/-- `w[1] = x[2] + x[3] * x[4]`, ad_inttest.cpp:12, 127 -/
def f1 (c : Nat) : Expr α := .mkEq (w c 1) (.mkBinary .add (v c 2) (.mkBinary .mul (v c 3) (v c 4)))
/-- `w[2] = w[0] + w[1]`, ad_inttest.cpp:13 -/
def f2 (c : Nat) : Expr α := .mkEq (w c 2) (.mkBinary .add (.var (w c 0)) (.var (w c 1)))
/-- `w[2] = w[0] + w[1] + ad::constant(3.14)`, ad_inttest.cpp:128; the constant is a parameter -/
def f2c (k : α) (c : Nat) : Expr α := .mkEq (w c 2) (.mkBinary .add (.mkBinary .add (.var (w c 0)) (.var (w c 1))) (BlackScholes.num k))

/-- `F_lmda(v, w)`, ad_inttest.cpp:10-14 -/
def F (c : Nat) : Expr α := .mkGlue (.mkGlue (f0 c) (f1 c)) (f2 c)

/-- the expression of `F_with_constant_test`, ad_inttest.cpp:126-128 -/
def Fc (k : α) (c : Nat) : Expr α := .mkGlue (.mkGlue (f0 c) (f1 c)) (f2c k c)

/-- `ad::sum(x.begin(), x.end(), [](const auto& var) {return ad::op(var); })`, ad_inttest.cpp:17-18, 19-20: the vector of expressions (sum.hpp:233-240) -/
def each (op : UOp) (c : Nat) : Exprs α := .ofList [.mkUnary op (v c 0), .mkUnary op (v c 1), .mkUnary op (v c 2), .mkUnary op (v c 3), .mkUnary op (v c 4)]

/-- `w[0] = ad::sum(..., sin)`, ad_inttest.cpp:17-18 -/
def g0 (c : Nat) : Expr α := .mkEq (w c 0) (.mkSumIter .scl (each .sin c))
/-- `w[1] = w[0] * w[0] - ad::sum(..., cos)`, ad_inttest.cpp:19-20 -/
def g1 (c : Nat) : Expr α := .mkEq (w c 1) (.mkBinary .sub (.mkBinary .mul (.var (w c 0)) (.var (w c 0))) (.mkSumIter .scl (each .cos c)))

/-- `G_lmda(v, w)`, ad_inttest.cpp:16-22 -/
def G (c : Nat) : Expr α := .mkGlue (g0 c) (g1 c)

/-- `H_lmda(v, w)`, ad_inttest.cpp:24-26 -/
def H (c : Nat) : Expr α := .mkEq (w c 0) (.mkBinary .mul (v c 0) (v c 4))

/-- The fixture (ad_inttest.cpp:51-61) and `test_scalar` (lines 94-104) up to `autodiff(expr)`: the array `adj` that the tests look at.  The buffers are zero-initialised vectors (lines 101-102). -/
def run (e : Expr α) (c : Nat) (x : Nat → α) (qv qa : Nat) (s : St α) : Option (List α) := do
  let s := s.allocate ⟨15, 15⟩ c c (fun k => if k < 5 then x k else 0) (fun _ => 0)
  let (b, s) := bindExpr e qv qa (fun _ => 0) (fun _ => 0) s
  let (s, _) ← autodiff b (fun _ => 1) s
  let g ← s.readA (some c) 5
  some ((List.range 5).map g)

end IntTest

end FastAD
