import Verif.Model.Api
import Verif.Model.Loop

/-!
# The program example/black_scholes.cpp

`main` binds the expression of the call option, differentiates it, resets the adjoints, and does the same for the put option.  `S` is variable cell 0, the elements of `cache` are
cells 1, 2 and 3 (`cache.resize(3)` finds the size unchanged the second time, so both expressions use the same placeholders).  Numbers are computed as in the C++ code; expressions
with a constant operand and a variable operand are not folded (binary.hpp:237-263).
-/

namespace FastAD

namespace BlackScholes

variable {α : Type} [Zero α] [One α] [Add α] [Sub α] [Neg α] [Mul α] [Div α] [NatCast α] [IntCast α] [Fn α] [HasInf α] [LinAlg α]

/-- `ad::Var<double> S` (black_scholes.cpp:47) -/
def price : View := ⟨.scl, some 0, some 0⟩
/-- `cache[i]` (black_scholes.cpp:48) -/
def cache (i : Nat) : View := ⟨.scl, some (1 + i), some (1 + i)⟩
/-- a `double` as operand -/
def num (x : α) : Expr α := .const .scl fun _ => x

/-- `Phi`, black_scholes.cpp:9-13 -/
def cdf (x : Expr α) : Expr α :=
  .mkBinary .mul (num (1 / (2 : Nat))) (.mkBinary .add (.mkUnary .erf (.mkBinary .div x (num (Fn.sqrt ((2 : Nat) : α))))) (num 1))

/-- `common_expr`, black_scholes.cpp:26-31: the statements -/
def log0 (K : α) : Expr α := .mkEq (cache 0) (.mkUnary .log (.mkBinary .div (.var price) (num K)))
@[inherit_doc log0] def div1 (σ τ r : α) : Expr α :=
  .mkEq (cache 1) (.mkBinary .div (.mkBinary .add (.var (cache 0)) (num ((r + σ * σ / (2 : Nat)) * τ))) (num (σ * Fn.sqrt τ)))
@[inherit_doc log0] def sub2 (σ τ : α) : Expr α := .mkEq (cache 2) (.mkBinary .sub (.var (cache 1)) (num (σ * Fn.sqrt τ)))
@[inherit_doc log0] def common (K σ τ r : α) : Expr α := .mkGlue (.mkGlue (log0 K) (div1 σ τ r)) (sub2 σ τ)

/-- `PV`, black_scholes.cpp:25 -/
def pv (K τ r : α) : α := K * Fn.exp (-r * τ)

/-- `Phi(cache[1]) * S - Phi(cache[2]) * PV`, black_scholes.cpp:34 -/
def callValue (K τ r : α) : Expr α := .mkBinary .sub (.mkBinary .mul (cdf (.var (cache 1))) (.var price)) (.mkBinary .mul (cdf (.var (cache 2))) (num (pv K τ r)))

/-- `Phi(-cache[2]) * PV - Phi(-cache[1]) * S`, black_scholes.cpp:37 -/
def putValue (K τ r : α) : Expr α :=
  .mkBinary .sub (.mkBinary .mul (cdf (.mkUnary .neg (.var (cache 2)))) (num (pv K τ r))) (.mkBinary .mul (cdf (.mkUnary .neg (.var (cache 1)))) (.var price))

/-- `black_scholes_option_price<option_type::call>`, black_scholes.cpp:16-39 -/
def callExpr (K σ τ r : α) : Expr α := .mkGlue (common K σ τ r) (callValue K τ r)

/-- `black_scholes_option_price<option_type::put>`, black_scholes.cpp:16-39 -/
def putExpr (K σ τ r : α) : Expr α := .mkGlue (common K σ τ r) (putValue K τ r)

/-- `main`, black_scholes.cpp:50-74: the four printed numbers and the final state.  The buffers of the two bound expressions are allocated at `qv`, `qa` and `qv'`, `qa'` with
arbitrary contents `jv`, ... -/
def main (K σ τ r : α) (qv qa qv' qa' : Nat) (jv ja jv' ja' : Nat → α) (s : St α) : Option (St α × α × α × α × α) := do
  let (b, s) := bindExpr (callExpr K σ τ r) qv qa jv ja s
  let (s, x) ← autodiff b (fun _ => 1) s
  let call ← x.read s 1
  let callDelta ← s.readA price.adj 1
  let s ← s.resetAdj [0, 1, 2, 3]
  let (b, s) := bindExpr (putExpr K σ τ r) qv' qa' jv' ja' s
  let (s, x) ← autodiff b (fun _ => 1) s
  let put ← x.read s 1
  let putDelta ← s.readA price.adj 1
  some (s, call 0, callDelta 0, put 0, putDelta 0)

end BlackScholes

end FastAD
