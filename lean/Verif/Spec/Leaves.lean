import Verif.Spec.Denote

/-!
# Variables and constant views mentioned in an expression
-/

namespace FastAD

variable {α : Type}

mutual
/-- the variable views mentioned in an expression (left-hand sides of assignments included), in order of appearance -/
def Expr.vars : Expr α → List View
  | .var v => [v]
  | .const _ _ => []
  | .cview _ _ => []
  | .unary _ e _ => e.vars
  | .binary _ l r _ => l.vars ++ r.vars
  | .pow _ e _ => e.vars
  | .prodElem e _ _ => e.vars
  | .transpose e _ => e.vars
  | .dot l r _ => l.vars ++ r.vars
  | .sumIter es _ => es.varss
  | .prodIter es _ => es.varss
  | .reduce _ es _ => es.varss
  | .ifElse c a b _ => c.vars ++ (a.vars ++ b.vars)
  | .eq v e _ => v :: e.vars
  | .opEq _ v e _ _ => v :: e.vars
  | .glue l r _ => l.vars ++ r.vars
  | .forEach es _ => es.varss
/-- the same for a list of expressions -/
def Exprs.varss : Exprs α → List View
  | .nil => []
  | .cons e es => e.vars ++ es.varss
end

mutual
/-- the constant views (shape and buffer) mentioned in an expression -/
def Expr.cviews : Expr α → List (Shape × Option ℕ)
  | .var _ => []
  | .const _ _ => []
  | .cview sh p => [(sh, p)]
  | .unary _ e _ => e.cviews
  | .binary _ l r _ => l.cviews ++ r.cviews
  | .pow _ e _ => e.cviews
  | .prodElem e _ _ => e.cviews
  | .transpose e _ => e.cviews
  | .dot l r _ => l.cviews ++ r.cviews
  | .sumIter es _ => es.cviewss
  | .prodIter es _ => es.cviewss
  | .reduce _ es _ => es.cviewss
  | .ifElse c a b _ => c.cviews ++ (a.cviews ++ b.cviews)
  | .eq _ e _ => e.cviews
  | .opEq _ _ e _ _ => e.cviews
  | .glue l r _ => l.cviews ++ r.cviews
  | .forEach es _ => es.cviewss
/-- the same for a list of expressions -/
def Exprs.cviewss : Exprs α → List (Shape × Option ℕ)
  | .nil => []
  | .cons e es => e.cviews ++ es.cviewss
end

/-- the addresses `p, …, p + n - 1` -/
def cells (p : Option ℕ) (n : ℕ) : List ℕ := (List.range n).map (addr p + ·)

/-- value cells of the variables of an expression -/
def Expr.valCells (e : Expr α) : Finset ℕ := (e.vars.flatMap fun v => cells v.val v.size).toFinset

/-- adjoint cells of the variables of an expression -/
def Expr.adjCells (e : Expr α) : Finset ℕ := (e.vars.flatMap fun v => cells v.adj v.size).toFinset

/-- cells of the constant buffers viewed by an expression -/
def Expr.constCells (e : Expr α) : Finset ℕ := (e.cviews.flatMap fun c => cells c.2 c.1.size).toFinset

/-- all storage mentioned by an expression is alive -/
def Expr.Alive (vok aok : ℕ → Bool) (e : Expr α) : Prop :=
  (∀ v ∈ e.vars, accessible vok v.val v.size ∧ accessible aok v.adj v.size) ∧
  ∀ c ∈ e.cviews, accessible vok c.2 c.1.size

/-- `π` tells for every adjoint cell of a variable which value cell it belongs to. -/
def Expr.Paired (π : ℕ → ℕ) (e : Expr α) : Prop :=
  ∀ v ∈ e.vars, ∀ k < v.size, π (addr v.adj + k) = addr v.val + k

end FastAD
