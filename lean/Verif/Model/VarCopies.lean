import Verif.Model.Benchmark

/-!
# Ranges whose function returns a `Var` by value

`ad::sum(begin, end, f)` and `ad::prod(begin, end, f)` collect the results of `f` in a vector of `std::decay_t<decltype(f(*begin))>` (sum.hpp:219, 233-240; prod.hpp:262, 278-285); the results are not
converted to views (`util::convert_to_ad_t`), unlike the operands of the other nodes.  If `f` returns an element of a range of `Var`s by value, as `[](const auto& xi) {return xi;}` does
(benchmark/ad_benchmark.cpp:55), the vector has the element type `Var`, and the node holds copies of the variables.

Simplifications: the variables are scalars that lie in consecutive cells.  The node is copied several times until it is a member of the bound object (the constructor of the node, sum.hpp:44-49, those of the nodes
around it, and that of `ExprBind`, bind.hpp:24-33), each time with its variables (var.hpp:48-52); only the last copies, which the bound object owns, are in the model.
-/

namespace FastAD

namespace VarCopies

open Readme

variable {α : Type} [Zero α] [One α] [Add α] [Sub α] [Neg α] [Mul α] [Div α] [NatCast α] [IntCast α] [Fn α] [HasInf α] [LinAlg α]

/-- Copies of the `n` variables at the cells from `p` on: new storage at `r` with their values and adjoints (copy constructor of `Var`, var.hpp:48-52; `rebind`, which makes the copy refer to its own storage, is in
`copies`). -/
def copyVars (n p r : Nat) (s : St α) : Option (St α) := do
  let v ← readCells s.val s.vok (some p) n
  let a ← readCells s.adj s.aok (some p) n
  some (s.allocate ⟨n, n⟩ r r v a)

/-- the elements of the vector held by the node (sum.hpp:233-240): the copies, each bound to its own storage -/
def copies (n r : Nat) : Exprs α := .ofList ((List.range n).map fun i => .var (sclVar (r + i) (r + i)))

/-- `ad::bind(ad::sum(x.begin(), x.end(), [](const auto& xi) {return xi;}))` (sum.hpp:216-241) -/
def bindSum (n p r qv qa : Nat) (jv ja : Nat → α) (s : St α) : Option (Expr α × St α) := do
  let s ← copyVars n p r s
  some (bindExpr (.mkSumIter .scl (copies n r)) qv qa jv ja s)

/-- `ad::bind(ad::prod(x.begin(), x.end(), [](const auto& xi) {return xi;}))` (prod.hpp:259-287) -/
def bindProd (n p r qv qa : Nat) (jv ja : Nat → α) (s : St α) : Option (Expr α × St α) := do
  let s ← copyVars n p r s
  some (bindExpr (.mkProdIter .scl (copies n r)) qv qa jv ja s)

/-- `w[0] = x[0] * x[1] - x[2] * sin(x[0])` (ad_benchmark.cpp:53); `x[i]` is at cell `p + i` and `w[i]` at `p + n + i` -/
def stmt0 (n p : Nat) : Expr α :=
  .mkEq (sclVar (p + n) (p + n))
    (.mkBinary .sub (.mkBinary .mul (.var (sclVar p p)) (.var (sclVar (p + 1) (p + 1)))) (.mkBinary .mul (.var (sclVar (p + 2) (p + 2))) (.mkUnary .sin (.var (sclVar p p)))))

/-- `w[1] = x[1] * w[0] - cos(w[0]) + ad::sum(x.begin(), x.end(), [](const auto& xi) {return xi;})` (ad_benchmark.cpp:54-55) -/
def stmt1 (n p r : Nat) : Expr α :=
  .mkEq (sclVar (p + n + 1) (p + n + 1))
    (.mkBinary .add (.mkBinary .sub (.mkBinary .mul (.var (sclVar (p + 1) (p + 1))) (.var (sclVar (p + n) (p + n)))) (.mkUnary .cos (.var (sclVar (p + n) (p + n))))) (.mkSumIter .scl (copies n r)))

/-- `w[2] = w[1] + ad::exp(w[1] - w[0])` (ad_benchmark.cpp:56) -/
def stmt2 (n p : Nat) : Expr α :=
  .mkEq (sclVar (p + n + 2) (p + n + 2))
    (.mkBinary .add (.var (sclVar (p + n + 1) (p + n + 1))) (.mkUnary .exp (.mkBinary .sub (.var (sclVar (p + n + 1) (p + n + 1))) (.var (sclVar (p + n) (p + n))))))

/-- the expression of BM_test1_fastad (ad_benchmark.cpp:52-57) -/
def test1Expr (n p r : Nat) : Expr α := .mkGlue (.mkGlue (stmt0 n p) (stmt1 n p r)) (stmt2 n p)

/-- BM_test1_fastad (ad_benchmark.cpp:44-63), for `n` variables (100 there, at least 3) with values `x`, and `N` rounds of the loop.
Result: the values returned by `autodiff`, and the adjoints of the variables in the end. -/
def test1Bench (n p r : Nat) (x : Nat → α) (N qv qa : Nat) (jv ja : Nat → α) (s : St α) : Option (List α × List α) := do
  let s := s.allocate ⟨n + 3, n + 3⟩ p p (fun k => if k < n then x k else 0) (fun _ => 0)
  let s ← copyVars n p r s
  let (b, s) := bindExpr (test1Expr n p r) qv qa jv ja s
  let (fs, s) ← Benchmark.rounds b N s
  let g ← s.readA (some p) n
  some (fs, (List.range n).map g)

end VarCopies

end FastAD
