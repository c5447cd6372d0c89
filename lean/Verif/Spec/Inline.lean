import Verif.Spec.Program

/-!
# Inlining of placeholders

`e.subst w r` is the expression a user writes who puts `r` in place of every mention of the variable `w`.
-/

namespace FastAD

variable {α : Type}

/-- the operand types of a log-density node, read off its operands (`k` supplies the third type if there are only two operands) -/
def Kinds.of (k : Kinds) : List ArgKind → Kinds
  | [x, a] => ⟨x, a, k.b⟩
  | [x, a, b] => ⟨x, a, b⟩
  | _ => k

/-- the same reduction over other operands: the type of a log-density node names the types of its operands -/
def RedOp.retype (es : Exprs α) : RedOp → RedOp
  | .stat o k => .stat o (k.of (es.toList.map Expr.argKind))
  | op => op

mutual
/-- the pure expression with `r` in place of every mention of the variable `w` -/
def Expr.subst : Expr α → View → Expr α → Expr α
  | .var u, w, r => if u = w then r else .var u
  | .const sh c, _, _ => .const sh c
  | .cview sh p, _, _ => .cview sh p
  | .unary op e x, w, r => .unary op (e.subst w r) x
  | .binary op a b x, w, r => .binary op (a.subst w r) (b.subst w r) x
  | .pow n e x, w, r => .pow n (e.subst w r) x
  | .prodElem e x c, w, r => .prodElem (e.subst w r) x c
  | .transpose e x, w, r => .transpose (e.subst w r) x
  | .dot a b x, w, r => .dot (a.subst w r) (b.subst w r) x
  | .sumIter es x, w, r => .sumIter (es.substs w r) x
  | .prodIter es x, w, r => .prodIter (es.substs w r) x
  | .reduce op es x, w, r => .reduce (op.retype (es.substs w r)) (es.substs w r) x
  | .ifElse c a b x, w, r => .ifElse (c.subst w r) (a.subst w r) (b.subst w r) x
  | .eq v e x, _, _ => .eq v e x
  | .opEq op v e x c, _, _ => .opEq op v e x c
  | .glue a b x, _, _ => .glue a b x
  | .forEach es x, _, _ => .forEach es x
/-- the same for a list of expressions -/
def Exprs.substs : Exprs α → View → Expr α → Exprs α
  | .nil, _, _ => .nil
  | .cons e es, w, r => .cons (e.subst w r) (es.substs w r)
end

/-- `w₁ = r₁, …, wₙ = rₙ, e` written without placeholders -/
def inline : List (View × Expr α) → Expr α → Expr α
  | [], e => e
  | (w, r) :: ss, e => (inline ss e).subst w r

/-- The expression is an operation: neither a variable nor a constant nor an `if_else` (nor a statement). -/
def Expr.IsOp : Expr α → Prop
  | .var _ | .const _ _ | .cview _ _ | .ifElse _ _ _ _ | .eq _ _ _ | .opEq _ _ _ _ _ | .glue _ _ _ | .forEach _ _ => False
  | _ => True

/-- Two variables do not share memory. -/
def View.Apart (u w : View) : Prop :=
  ∀ j < u.size, ∀ k < w.size, addr u.val + j ≠ addr w.val + k ∧ addr u.adj + j ≠ addr w.adj + k

/-- Every variable mentioned is `w` itself or has nothing to do with it; no constant view shows `w`. -/
def Expr.Separates (w : View) (e : Expr α) : Prop :=
  (∀ u ∈ e.vars, u = w ∨ u.Apart w) ∧ ∀ c ∈ e.cviews, ∀ j < c.1.size, ∀ k < w.size, addr c.2 + j ≠ addr w.val + k

/-- No right-hand side takes a negative power of 0 or uses a Cauchy density of a vector of observations, when the assignments are executed from store `m`. -/
def NoPoleL [HasInf ℝ] [LinAlg ℝ] : List (View × Expr ℝ) → (ℕ → ℝ) → Prop
  | [], _ => True
  | (w, r) :: ss, m => r.NoPole m ∧ NoPoleL ss (assign m w (r.denote m))

end FastAD
