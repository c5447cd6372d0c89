import Verif.Spec.Exact
import Verif.Spec.Program

/-!
# Execution of programs over an arbitrary scalar type

The meaning of a program, a sequence of statements (`Expr.flat`), when every operation is the one of the scalar type.  Nothing is assumed about the operations.
-/

namespace FastAD

variable {α : Type} [Zero α] [One α] [Add α] [Sub α] [Neg α] [Mul α] [Div α] [NatCast α] [IntCast α]
variable [Fn α] [HasInf α] [LinAlg α]

/-- the operations of the compound assignments -/
def AOp.arith : AOp → α → α → α
  | .add, x, y => x + y
  | .sub, x, y => x - y
  | .mul, x, y => x * y
  | .div, x, y => x / y

/-- coefficient `k` of the value of a statement executed in the store `m` -/
def Expr.exactResult : Expr α → (ℕ → α) → ℕ → α
  | .eq _ e _, m, k => e.exact m k
  | .opEq op v e _ _, m, k => op.arith (m (addr v.val + k)) (e.exact m (if e.shape.isScl then 0 else k))
  | e, m, k => e.exact m k

/-- the store after executing a statement in the store `m` -/
def Expr.exactExec (x : Expr α) (m : ℕ → α) : ℕ → α :=
  match x.target with
  | some v => assign m v (x.exactResult m)
  | none => m

/-- the store after executing a list of statements -/
def exactExecL : List (Expr α) → (ℕ → α) → ℕ → α
  | [], m => m
  | x :: xs, m => exactExecL xs (x.exactExec m)

/-- the value of a list of statements: the value of the last one -/
def exactResultL : List (Expr α) → (ℕ → α) → ℕ → α
  | [], _ => fun _ => 0
  | [x], m => x.exactResult m
  | x :: y :: xs, m => exactResultL (y :: xs) (x.exactExec m)

end FastAD
