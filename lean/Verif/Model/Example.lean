import Verif.Model.Api
import Verif.Model.Forward

/-!
# The program example/main.cpp

`main` (main.cpp:160-172) calls `forward()`, `reverse_simple()` and `reverse_vec()` one after the other; the other functions are commented out.  The numbers `x1`, `x2` of the program are
parameters here.
-/

namespace FastAD

namespace Example

variable {α : Type} [Zero α] [One α] [Add α] [Sub α] [Neg α] [Mul α] [Div α] [NatCast α] [IntCast α] [Fn α] [HasInf α] [LinAlg α]

/-- the three statements of `forward()`, main.cpp:14-16; object `i` is `wi` -/
def forwardProg : List (FStmt α) :=
  [.assign 3 (.bin .mul (.var 1) (.un .sin (.var 2))),
   .assign 4 (.bin .add (.var 3) (.bin .mul (.var 1) (.var 2))),
   .assign 5 (.un .exp (.bin .mul (.var 4) (.var 3)))]

/-- `forward()`, main.cpp:6-21: the number it prints.  `w1.get_adjoint() = 1` (line 13) sets the tangent of `w1`; the constructor has set that of `w2` to 0 (forward.hpp:88-90).  The objects
`w3`, `w4`, `w5` are created by the statements; their contents before are irrelevant (`d`). -/
def forward (x1 x2 : α) (d : Nat → Dual α) : α :=
  (runForward forwardProg (setReg (setReg d 1 ⟨x1, 1⟩) 2 (.ofVal x2)) 5).df

/-- variable number `i` of the five variables stored from address `c` on: `w1, w2, w3, w4, w5` (main.cpp:28-33) or `x[0], x[1], w[0], w[1], w[2]` (main.cpp:56-61) -/
def var (c i : Nat) : View := ⟨.scl, some (c + i), some (c + i)⟩

/-- the statements main.cpp:36-38 and 64-66 -/
def stmt3 (c : Nat) : Expr α := .mkEq (var c 2) (.mkBinary .mul (.var (var c 0)) (.mkUnary .sin (.var (var c 1))))
@[inherit_doc stmt3] def stmt4 (c : Nat) : Expr α := .mkEq (var c 3) (.mkBinary .add (.var (var c 2)) (.mkBinary .mul (.var (var c 0)) (.var (var c 1))))
@[inherit_doc stmt3] def stmt5 (c : Nat) : Expr α := .mkEq (var c 4) (.mkUnary .exp (.mkBinary .mul (.var (var c 3)) (.var (var c 2))))

/-- `expr`, main.cpp:35-39 and 63-67 -/
def expr (c : Nat) : Expr α := .mkGlue (.mkGlue (stmt3 c) (stmt4 c)) (stmt5 c)

/-- The five variables come into being (main.cpp:27-33, 56-61): the constructors (var.hpp:34-44) bind the view of each variable to its members `val_` and `adj_` and initialise these.  That elements of `x` move when
`emplace_back` enlarges the vector (the move constructor binds them anew, var.hpp:52-56) is left out; `c` is where they are in the end. -/
def declare (c : Nat) (x1 x2 : α) (s : St α) : St α where
  val a := if a = c then x1 else if a = c + 1 then x2 else if c ≤ a ∧ a < c + 5 then 0 else s.val a
  adj a := if c ≤ a ∧ a < c + 5 then 0 else s.adj a
  vok a := s.vok a || (decide (c ≤ a) && decide (a < c + 5))
  aok a := s.aok a || (decide (c ≤ a) && decide (a < c + 5))

/-- `reverse_simple()`, main.cpp:24-51, and `reverse_vec()`, main.cpp:53-80: the two numbers they print.  The buffers `val_buf`, `adj_buf` (zero-initialised, main.cpp:42-43, 70-71) are at
`qv`, `qa`; that they and the variables are destroyed at the end is left out. -/
def reverse (c : Nat) (x1 x2 : α) (qv qa : Nat) (s : St α) : Option (St α × α × α) := do
  let (b, s) := bindExpr (expr c) qv qa (fun _ => 0) (fun _ => 0) (declare c x1 x2 s)
  let (s, _) ← autodiff b (fun _ => 1) s
  let dx ← s.readA (var c 0).adj 1
  let dy ← s.readA (var c 1).adj 1
  some (s, dx 0, dy 0)

/-- `main`, main.cpp:160-172: the five numbers it prints -/
def main (x1 x2 : α) (d : Nat → Dual α) (c qv qa c' qv' qa' : Nat) (s : St α) : Option (List α) := do
  let (s, dx, dy) ← reverse c x1 x2 qv qa s
  let (_, dx', dy') ← reverse c' x1 x2 qv' qa' s
  some [forward x1 x2 d, dx, dy, dx', dy']

end Example

end FastAD
