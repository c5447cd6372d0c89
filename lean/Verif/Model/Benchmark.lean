import Verif.Model.Readme

/-!
# Benchmark programs

benchmark/sum_benchmark.cpp:46-61 and benchmark/prod_benchmark.cpp:46-64; the number of variables, their values and the number of rounds are parameters.
-/

namespace FastAD

namespace Benchmark

open Readme

variable {α : Type} [Zero α] [One α] [Add α] [Sub α] [Neg α] [Mul α] [Div α] [NatCast α] [IntCast α] [Fn α] [HasInf α] [LinAlg α]

/-- the expressions `x * x` (sum_benchmark.cpp:54, prod_benchmark.cpp:54-57) of the `n` variables of `vec`, which are at the cells from `p` on -/
def squares (n p : Nat) : Exprs α := .ofList ((List.range n).map fun i => .mkBinary .mul (.var (sclVar (p + i) (p + i))) (.var (sclVar (p + i) (p + i))))

/-- `w4 = sum_expr` (sum_benchmark.cpp:54-55); `w4` is at cell `p + n` -/
def sumStmt (n p : Nat) : Expr α := .mkEq (sclVar (p + n) (p + n)) (.mkSumIter .scl (squares n p))

/-- `w4 = prod_expr` (prod_benchmark.cpp:54-58) -/
def prodStmt (n p : Nat) : Expr α := .mkEq (sclVar (p + n) (p + n)) (.mkProdIter .scl (squares n p))

/-- `w5 = w4 * w4 + ad::sin(w4)` (sum_benchmark.cpp:55), with `cos` in prod_benchmark.cpp:58; `w5` is at cell `p + n + 1` -/
def outStmt (op : UOp) (n p : Nat) : Expr α :=
  .mkEq (sclVar (p + n + 1) (p + n + 1))
    (.mkBinary .add (.mkBinary .mul (.var (sclVar (p + n) (p + n))) (.var (sclVar (p + n) (p + n)))) (.mkUnary op (.var (sclVar (p + n) (p + n)))))

/-- `for (auto _ : state) { autodiff(expr); ... }` with the given number of rounds (sum_benchmark.cpp:57-60, prod_benchmark.cpp:60-63): the values that `autodiff` returns, and the memory in the end.
The adjoints are not reset between the rounds. -/
def rounds (b : Expr α) : Nat → St α → Option (List α × St α)
  | 0, s => some ([], s)
  | k + 1, s => do
      let (s, r) ← autodiff b (fun _ => 1) s
      let f ← r.read s 1
      let (fs, s) ← rounds b k s
      some (f 0 :: fs, s)

/-- A benchmark function: `n` variables with values `x` and two placeholders are constructed, the expression is bound, and differentiated `N` times.
Result: the values returned, and the adjoints of the `n` variables in the end. -/
def bench (e : Expr α) (n p : Nat) (x : Nat → α) (N qv qa : Nat) (jv ja : Nat → α) (s : St α) : Option (List α × List α) := do
  let s := s.allocate ⟨n + 2, n + 2⟩ p p (fun k => if k < n then x k else 0) (fun _ => 0)
  let (b, s) := bindExpr e qv qa jv ja s
  let (fs, s) ← rounds b N s
  let g ← s.readA (some p) n
  some (fs, (List.range n).map g)

/-- BM_sumnode_fastad, sum_benchmark.cpp:46-61 -/
def sumBench (n p : Nat) (x : Nat → α) (N qv qa : Nat) (jv ja : Nat → α) (s : St α) : Option (List α × List α) :=
  bench (.mkGlue (sumStmt n p) (outStmt .sin n p)) n p x N qv qa jv ja s

/-- BM_prod_fastad, prod_benchmark.cpp:46-64 -/
def prodBench (n p : Nat) (x : Nat → α) (N qv qa : Nat) (jv ja : Nat → α) (s : St α) : Option (List α × List α) :=
  bench (.mkGlue (prodStmt n p) (outStmt .cos n p)) n p x N qv qa jv ja s

end Benchmark

end FastAD
