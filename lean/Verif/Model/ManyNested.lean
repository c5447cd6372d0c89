import Verif.Model.Readme
import Verif.Model.BlackScholes

/-!
# The test `leaf_opeq_many_nested`

test/integration/node_inttest.cpp:193-221, with the size and the elements of the vector and the value of the scalar as parameters.
-/

namespace FastAD

namespace ManyNested

open Readme BlackScholes

variable {α : Type} [Zero α] [One α] [Add α] [Sub α] [Neg α] [Mul α] [Div α] [NatCast α] [IntCast α] [Fn α] [HasInf α] [LinAlg α]

/-- `vec_expr`, `n` elements at `c` -/
def vec (n c : Nat) : View := vecVar n c c

/-- `scl_expr`, put behind the vector -/
def scl (n c : Nat) : View := sclVar (c + n) (c + n)

/-- the eight compound assignments of node_inttest.cpp:195-202, one per line -/
def stmts (n c : Nat) : List (Expr α) :=
  [.mkOpEq .mul (vec n c) (.var (scl n c)),
   .mkOpEq .add (vec n c) (.mkBinary .sub (.var (vec n c)) (.var (scl n c))),
   .mkOpEq .mul (scl n c) (.mkBinary .sub (.var (scl n c)) (num ((2 : Nat) : α))),
   .mkOpEq .div (scl n c) (num 1),
   .mkOpEq .sub (vec n c) (.mkBinary .mul (num ((2 : Nat) : α)) (.var (vec n c))),
   .mkOpEq .mul (vec n c) (num (-1)),
   .mkOpEq .sub (vec n c) (.var (scl n c)),
   .mkOpEq .div (vec n c) (.var (scl n c))]

/-- `ad::sum(vec_expr)`, node_inttest.cpp:203 -/
def total (n c : Nat) : Expr α := .mkReduce .sum (.cons (.var (vec n c)) .nil)

/-- statements joined by `operator,` from the left, `e` being the first -/
def commas (e : Expr α) : List (Expr α) → Expr α
  | [] => e
  | x :: xs => commas (.mkGlue e x) xs

/-- `expr`, node_inttest.cpp:195-203 -/
def expr (n c : Nat) : Expr α :=
  match stmts n c with
  | [] => total n c
  | x :: xs => commas x (xs ++ [total n c])

/-- The test up to `autodiff(expr)` (node_inttest.cpp:193-211): the value returned, the adjoints of the elements, the adjoint of the scalar, and the values of the elements and of the scalar afterwards.
The variables of the fixture (base_fixture.hpp:80-97) are made in one block, with adjoints 0; `bind(expr)` (line 204) is `base_fixture::bind` (base_fixture.hpp:129-136), `jv`, `ja` being the contents of the two
vectors that it resizes. -/
def run (n c : Nat) (x : Nat → α) (a : α) (qv qa : Nat) (jv ja : Nat → α) (s : St α) : Option (α × List α × α × List α × α) := do
  let s := s.allocate ⟨n + 1, n + 1⟩ c c (fun k => if k = n then a else x k) (fun _ => 0)
  let (b, s) := bindExpr (expr n c) qv qa jv ja s
  let (s, r) ← autodiff b (fun _ => 1) s
  let f ← r.read s 1
  let g ← s.readA (some c) n
  let h ← s.readA (some (c + n)) 1
  let u ← readCells s.val s.vok (some c) n
  let w ← readCells s.val s.vok (some (c + n)) 1
  some (f 0, (List.range n).map g, h 0, (List.range n).map u, w 0)

end ManyNested

end FastAD
