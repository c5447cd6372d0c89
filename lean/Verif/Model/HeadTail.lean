import Verif.Model.Readme

/-!
# The test `leaf_opeq_head_tail`

test/integration/node_inttest.cpp:223-249, with the size and the elements of the vector and the value of the scalar as parameters.
-/

namespace FastAD

namespace HeadTail

open Readme

variable {α : Type} [Zero α] [One α] [Add α] [Sub α] [Neg α] [Mul α] [Div α] [NatCast α] [IntCast α] [Fn α] [HasInf α] [LinAlg α]

/-- `vec_expr.head(vec_expr.size()-1)`, node_inttest.cpp:226, of a vector of `N + 1` elements at `c` (var_view.hpp:162-165) -/
def head (N c : Nat) : View := vecVar N c c

/-- `vec_expr.tail(vec_expr.size()-1)`, node_inttest.cpp:227 (var_view.hpp:166-172) -/
def tail (N c : Nat) : View := vecVar N (c + 1) (c + 1)

/-- `scl_expr`, put behind the vector -/
def scl (N c : Nat) : View := sclVar (c + N + 1) (c + N + 1)

/-- `tail += scl_expr * head`, node_inttest.cpp:228 -/
def update (N c : Nat) : Expr α := .mkOpEq .add (tail N c) (.mkBinary .mul (.var (scl N c)) (.var (head N c)))

/-- `ad::sum(tail)`, node_inttest.cpp:229 -/
def total (N c : Nat) : Expr α := .mkReduce .sum (.cons (.var (tail N c)) .nil)

/-- `expr`, node_inttest.cpp:228-229 -/
def expr (N c : Nat) : Expr α := .mkGlue (update N c) (total N c)

/-- The test up to `autodiff(expr)` (node_inttest.cpp:223-238): the value returned, the adjoints of the `N + 1` elements, and the adjoint of the scalar.  The variables of the fixture (base_fixture.hpp:80-97) are
made in one block, with adjoints 0.  `bind(expr)` (line 230) finds `base_fixture::bind` (base_fixture.hpp:129-136), which resizes two vectors of the fixture and binds `expr` to them; their contents are `jv`, `ja`. -/
def run (N c : Nat) (x : Nat → α) (a : α) (qv qa : Nat) (jv ja : Nat → α) (s : St α) : Option (α × List α × α) := do
  let s := s.allocate ⟨N + 2, N + 2⟩ c c (fun k => if k = N + 1 then a else x k) (fun _ => 0)
  let (b, s) := bindExpr (expr N c) qv qa jv ja s
  let (s, r) ← autodiff b (fun _ => 1) s
  let f ← r.read s 1
  let g ← s.readA (some c) (N + 1)
  let h ← s.readA (some (c + N + 1)) 1
  some (f 0, (List.range (N + 1)).map g, h 0)

end HeadTail

end FastAD
