import Verif.Spec.Inside
import Verif.Spec.ExactProg

/-!
# Programs all of whose operations are applied inside their domains
-/

namespace FastAD

variable {α : Type} [Zero α] [One α] [Add α] [Sub α] [Neg α] [Mul α] [Div α] [NatCast α] [IntCast α]
variable [Fn α] [HasInf α] [LinAlg α]

/-- All operations of the statement, executed in the store `m`, are applied inside their domains: those of the right-hand side, and `v /= e` divides by admitted denominators. -/
def Expr.InsideStmt (D : Doms α) : Expr α → (ℕ → α) → Prop
  | .eq _ e _, m => e.Inside D m
  | .opEq op _ e _ _, m => e.Inside D m ∧ (op = .div → ∀ k < e.size, D.den (e.exact m k))
  | e, m => e.Inside D m

/-- the same for a sequence of statements, each in the store in which it is executed -/
def InsideSeq (D : Doms α) : List (Expr α) → (ℕ → α) → Prop
  | [], _ => True
  | x :: xs, m => x.InsideStmt D m ∧ InsideSeq D xs (x.exactExec m)

end FastAD
