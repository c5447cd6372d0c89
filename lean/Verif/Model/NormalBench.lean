import Verif.Model.Benchmark
import Verif.Model.Pointer

/-!
# The benchmarks of the multivariate normal log-density

`BM_normal_adj_log_pdf` and `BM_normal_adj_log_pdf_flat` of benchmark/normal_benchmark.cpp; the dimension, the random numbers and the number of rounds are parameters.
-/

namespace FastAD

namespace Benchmark

variable {α : Type} [Zero α] [One α] [Add α] [Sub α] [Neg α] [Mul α] [Div α] [NatCast α] [IntCast α] [Fn α] [HasInf α] [LinAlg α]

/-- `lower` of `make_cov`: random numbers `r` below the diagonal, 10 on it, 0 above (normal_benchmark.cpp:24-26; `triangularView<Upper>` includes the diagonal) -/
def covFactor (r : Nat → Nat → α) (i j : Nat) : α := if j < i then r i j else if i = j then ((10 : Nat) : α) else 0

/-- `lower * lower.transpose()` of `make_cov`, column-major (normal_benchmark.cpp:27).  Simplified: the loop ends after this first attempt, as the matrix is positive definite in exact arithmetic
(`cov_posDef`). -/
def covEntry (n : Nat) (r : Nat → Nat → α) (q : Nat) : α := sumN n fun k => covFactor r (q % n) k * covFactor r (q / n) k

/-- The views `x`, `mu`, `sigma` on the two vectors `val` and `adj`, both at `p`: bound one after the other (normal_benchmark.cpp:46-56), or, in the flat version, `sigma` constructed
where the binding of `mu` ended (normal_benchmark.cpp:76-88). -/
def normalViews (flat : Bool) (n p : Nat) (s : St α) : Option (View × View × View) := do
  let (x, b) ← (View.null (.vec n)).bindChk s.vok s.aok ⟨some p, some p⟩
  let (mu, b) ← (View.null (.vec n)).bindChk s.vok s.aok b
  if flat then some (x, mu, ⟨.mat n n, b.val, b.adj⟩)
  else
    let (sigma, _) ← (View.null (.mat n n)).bindChk s.vok s.aok b
    some (x, mu, sigma)

/-- `normal_adj_log_pdf(x, mu, sigma)` (normal_benchmark.cpp:62, 94) -/
def normalExpr (x mu sigma : View) : Expr α :=
  .mkReduce (.stat (.normalMat false) ⟨.leaf, .leaf, .leaf⟩) (.cons (.var x) (.cons (.var mu) (.cons (.var sigma) .nil)))

/-- BM_normal_adj_log_pdf (`flat = false`, normal_benchmark.cpp:40-68) and BM_normal_adj_log_pdf_flat (normal_benchmark.cpp:70-100) for dimension `n`, the random numbers `r` and `N` rounds.
`xs` and `ms` are the elements of `x` and `mu` after the statements of lines 58-59, 90-91; see `normalBenchRun` for what they are.
Result: the values returned by `autodiff`, and the contents of `adj` in the end. -/
def normalBench (flat : Bool) (n p : Nat) (xs ms : Nat → α) (r : Nat → Nat → α) (N qv qa : Nat) (jv ja : Nat → α) (s : St α) : Option (List α × List α) := do
  let s := s.allocate ⟨n + n + n * n, n + n + n * n⟩ p p (fun k => if k < n then xs k else if k < n + n then ms (k - n) else 0) (fun _ => 0)
  let (x, mu, sigma) ← normalViews flat n p s
  let s ← s.writeV sigma.val (n * n) (covEntry n r)
  let (b, s) := bindExpr (normalExpr x mu sigma) qv qa jv ja s
  let (fs, s) ← rounds b N s
  let g ← s.readA (some p) (n + n + n * n)
  some (fs, (List.range (n + n + n * n)).map g)

/-- The benchmarks as they are: `x.get().Random()` and `mu.get().Random()` (normal_benchmark.cpp:58-59, 90-91) call a static function of Eigen that returns an expression, which is discarded: the
elements keep the 0 of lines 51, 80.  (Simplified: Eigen's assertion that the size of this expression is not negative is not modelled; it is off when NDEBUG is defined.) -/
def normalBenchRun (flat : Bool) (n p : Nat) (r : Nat → Nat → α) (N qv qa : Nat) (jv ja : Nat → α) (s : St α) : Option (List α × List α) :=
  normalBench flat n p (fun _ => 0) (fun _ => 0) r N qv qa jv ja s

end Benchmark

end FastAD
