import Verif.Spec.Exact
import Verif.Spec.Denote

/-!
# Expressions over other value types, and points inside the domains of all operations

`Expr.map f e` is the expression `e` written for another value type: the C++ templates are the same, only the literal constants are converted by `f`.
`Expr.Inside D e m`: evaluating `e` at `m` applies every operation inside its domain, as told by `D`.
-/

namespace FastAD

mutual
/-- the same expression over another value type, literal constants converted by `f` -/
def Expr.map {α β : Type} (f : α → β) : Expr α → Expr β
  | .var v => .var v
  | .const sh c => .const sh fun k => f (c k)
  | .cview sh p => .cview sh p
  | .unary op e w => .unary op (e.map f) w
  | .binary op l r w => .binary op (l.map f) (r.map f) w
  | .pow n e w => .pow n (e.map f) w
  | .prodElem e w c => .prodElem (e.map f) w c
  | .transpose e w => .transpose (e.map f) w
  | .dot l r w => .dot (l.map f) (r.map f) w
  | .sumIter es w => .sumIter (es.maps f) w
  | .prodIter es w => .prodIter (es.maps f) w
  | .reduce op es w => .reduce op (es.maps f) w
  | .ifElse c a b w => .ifElse (c.map f) (a.map f) (b.map f) w
  | .eq v e w => .eq v (e.map f) w
  | .opEq op v e w c => .opEq op v (e.map f) w c
  | .glue l r w => .glue (l.map f) (r.map f) w
  | .forEach es w => .forEach (es.maps f) w
/-- the same for a list of expressions -/
def Exprs.maps {α β : Type} (f : α → β) : Exprs α → Exprs β
  | .nil => .nil
  | .cons e es => .cons (e.map f) (es.maps f)
end

/-- For every kind of operation the operands at which it is admitted. -/
structure Doms (α : Type) where
  /-- operands of a unary function -/
  un : UOp → α → Prop
  /-- denominators -/
  den : α → Prop
  /-- pairs of numbers that may be compared -/
  cmp : α → α → Prop
  /-- bases of powers with exponent `n` -/
  pow : ℤ → α → Prop
  /-- factors of products over a vector or over a list of expressions -/
  fac : α → Prop
  /-- operands of a log-density with `n` observations -/
  stat : StatOp → ℕ → Args α → Prop

/-- a comparison, or a conjunction or disjunction -/
def Expr.isCond {α : Type} : Expr α → Bool
  | .binary op _ _ _ => op.isComparison
  | _ => false

variable {α : Type} [Zero α] [One α] [Add α] [Sub α] [Neg α] [Mul α] [Div α] [NatCast α] [IntCast α]
variable [Fn α] [HasInf α] [LinAlg α]

mutual
/-- All operations of the (side-effect-free) expression are applied inside their domains.  Conjunctions, disjunctions and `if_else` take conditions; of an `if_else` only the branch that is taken matters.
Determinants are not considered. -/
def Expr.Inside (D : Doms α) : Expr α → (ℕ → α) → Prop
  | .var _, _ => True
  | .const _ _, _ => True
  | .cview _ _, _ => True
  | .unary op e _, m => e.Inside D m ∧ ∀ k < e.size, D.un op (e.exact m k)
  | .binary op l r w, m => l.Inside D m ∧ r.Inside D m ∧
      match op with
      | .add | .sub | .mul => True
      | .div => ∀ k < r.size, D.den (r.exact m k)
      | .and | .or => l.isCond = true ∧ r.isCond = true
      | _ => ∀ k < w.size, D.cmp (l.exact m (if l.shape.isScl then 0 else k)) (r.exact m (if r.shape.isScl then 0 else k))
  | .pow n e _, m => e.Inside D m ∧ ∀ k < e.size, D.pow n (e.exact m k)
  | .prodElem e _ _, m => e.Inside D m ∧ ∀ k < e.size, D.fac (e.exact m k)
  | .transpose e _, m => e.Inside D m
  | .dot l r _, m => l.Inside D m ∧ r.Inside D m
  | .sumIter es _, m => es.Insides D m
  | .prodIter es _, m => es.Insides D m ∧ ∀ e ∈ es.toList, ∀ k < e.size, D.fac (e.exact m k)
  | .reduce op es _, m => es.Insides D m ∧ (op = .sum ∨ op = .norm ∨
      ∃ o k n v, op = .stat o k ∧ statArgs ((es.exacts m).map fun x => (x.1, trunc x.1.size x.2)) = some (n, v) ∧ D.stat o n v)
  | .ifElse c a b _, m => c.Inside D m ∧ c.isCond = true ∧ if toBool (c.exact m 0) = true then a.Inside D m else b.Inside D m
  | .eq _ _ _, _ => False
  | .opEq _ _ _ _ _, _ => False
  | .glue _ _ _, _ => False
  | .forEach _ _, _ => False
/-- the same for a list of expressions -/
def Exprs.Insides (D : Doms α) : Exprs α → (ℕ → α) → Prop
  | .nil, _ => True
  | .cons e es, m => e.Inside D m ∧ es.Insides D m
end

end FastAD
