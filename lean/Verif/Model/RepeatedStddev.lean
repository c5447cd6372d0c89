import Verif.Model.Benchmark
import Verif.Model.Build

/-!
# The benchmark of eager constants

`BM_normal_repeated_stddev` of benchmark/constant_eager_benchmark.cpp:29-55; the number of data, their values and the number of rounds are parameters.
-/

namespace FastAD

namespace Benchmark

open Readme

variable {α : Type} [Zero α] [One α] [Add α] [Sub α] [Neg α] [Mul α] [Div α] [NatCast α] [IntCast α] [Fn α] [HasInf α] [LinAlg α]

/-- `ad::constant(c)` of a number (constant.hpp) -/
def num (c : α) : Src α := .const .scl fun _ => c

/-- `-ad::constant(0.5) * ad::pow<2>((ad::constant(v) - w * ad::constant(u)) / ad::constant(2.)) - ad::log(ad::constant(2.))` (constant_eager_benchmark.cpp:44-46); `w` is at cell `p` -/
def stddevTerm (p : Nat) (u v : α) : Src α :=
  .binary .sub
    (.binary .mul (.unary .neg (num (1 / ((2 : Nat) : α))))
      (.pow 2 (.binary .div (.binary .sub (num v) (.binary .mul (.var (sclVar p p)) (num u))) (num ((2 : Nat) : α)))))
    (.unary .log (num ((2 : Nat) : α)))

/-- the results of the function for the data in turn (`values` is `v`, `values2` is `u`; constant_eager_benchmark.cpp:42-49) -/
def stddevTerms (p : Nat) : List (α × α) → Srcs α
  | [] => .nil
  | d :: ds => .cons (stddevTerm p d.1 d.2) (stddevTerms p ds)

/-- BM_normal_repeated_stddev, for the data `(u i, v i)`, `i < n` (1000 pairs `(i, i)` there), the value `w` of the variable (2 there) and `N` rounds.
Constants are folded when the expression is built (`Src.build`).  Result: the values returned by `autodiff`, and the adjoint of the variable in the end. -/
def stddevBench (n p : Nat) (u v : Nat → α) (w : α) (N qv qa : Nat) (jv ja : Nat → α) (s : St α) : Option (List α × α) := do
  let s := s.allocate ⟨1, 1⟩ p p (fun _ => w) (fun _ => 0)
  let e ← (Src.sumRange .scl false (stddevTerms p ((List.range n).map fun i => (u i, v i)))).build s
  let (b, s) := bindExpr e qv qa jv ja s
  let (fs, s) ← rounds b N s
  let g ← s.readA (some p) 1
  some (fs, g 0)

/-- `ad::evaluate(x)` for `k` elements `x`, all of them the expression `e` (constant_eager_benchmark.cpp:20-22): the values returned, and the memory in the end -/
def evaluations (e : Expr α) : Nat → St α → Option (List α × St α)
  | 0, s => some ([], s)
  | k + 1, s => do
      let (s, r) ← evaluate e s
      let f ← r.read s 1
      let (fs, s) ← evaluations e k s
      some (f 0 :: fs, s)

/-- BM_repeated_constants, constant_eager_benchmark.cpp:11-25, for the constant `c` (1.0 there), `n` copies of `log(c)` (100000 there) and `N` rounds.  The copies are equal, so they are one expression here;
they are not bound. -/
def repeatedConstants (c : α) (n N : Nat) (s : St α) : Option (List α × St α) := do
  let e ← (Src.unary .log (num c)).build s
  evaluations e (N * n) s

end Benchmark

end FastAD
