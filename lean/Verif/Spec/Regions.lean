import Verif.Model.Memory
import Mathlib.Data.Set.Basic

/-!
# The cache regions of the nodes of a bound expression

Every node that computes something owns a value region and possibly adjoint regions.  Variables and constants own none;
`if_else` has none (its view stays null); the view of a `glue` or `for_each` is by design the view of its last expression; the view of `w op= e` is
by design the view of `w` but the node owns a backup region; in `w = e` the root of `e` is by design redirected to the memory of `w`.
-/

namespace FastAD

variable {α : Type}

/-- the cells of an array of `n` elements stored at `p`; a null pointer has none -/
def region (p : Option ℕ) (n : ℕ) : Set ℕ :=
  match p with
  | none => ∅
  | some q => {a | q ≤ a ∧ a < q + n}

/-- value regions owned by the root node -/
def Expr.rootVal : Expr α → List (Set ℕ)
  | .unary _ _ w | .binary _ _ _ w | .pow _ _ w | .prodElem _ w _ | .transpose _ w | .dot _ _ w | .sumIter _ w | .prodIter _ w
  | .reduce _ _ w => [region w.val w.size]
  | .opEq _ _ _ _ c => [region c.val c.size]
  | _ => []

/-- adjoint regions owned by the root node; `prod` uses a scratch region of the size of its operand -/
def Expr.rootAdj : Expr α → List (Set ℕ)
  | .unary _ _ w | .binary _ _ _ w | .pow _ _ w | .transpose _ w | .dot _ _ w | .sumIter _ w | .prodIter _ w
  | .reduce _ _ w => [region w.adj w.size]
  | .prodElem e _ c => [region c e.size]
  | .opEq _ _ _ _ c => [region c.adj c.size]
  | _ => []

/-- value regions that the root node keeps using although it is redirected to the variable of an assignment -/
def Expr.keptVal : Expr α → List (Set ℕ)
  | .opEq _ _ _ _ c => [region c.val c.size]
  | _ => []

/-- adjoint regions that the root node keeps using although it is redirected to the variable of an assignment -/
def Expr.keptAdj : Expr α → List (Set ℕ)
  | .prodElem e _ c => [region c e.size]
  | .opEq _ _ _ _ c => [region c.adj c.size]
  | _ => []

mutual
/-- value regions of all nodes below the root -/
def Expr.innerVal : Expr α → List (Set ℕ)
  | .var _ | .const _ _ | .cview _ _ => []
  | .unary _ e _ | .pow _ e _ | .prodElem e _ _ | .transpose e _ | .opEq _ _ e _ _ => e.innerVal ++ e.rootVal
  | .binary _ l r _ | .dot l r _ | .glue l r _ => (l.innerVal ++ l.rootVal) ++ (r.innerVal ++ r.rootVal)
  | .sumIter es _ | .prodIter es _ | .reduce _ es _ | .forEach es _ => es.allVals
  | .ifElse c a b _ => (c.innerVal ++ c.rootVal) ++ ((a.innerVal ++ a.rootVal) ++ (b.innerVal ++ b.rootVal))
  | .eq _ e _ => e.innerVal ++ e.keptVal
/-- value regions of all nodes of a list of expressions -/
def Exprs.allVals : Exprs α → List (Set ℕ)
  | .nil => []
  | .cons e es => (e.innerVal ++ e.rootVal) ++ es.allVals
end

mutual
/-- adjoint regions of all nodes below the root -/
def Expr.innerAdj : Expr α → List (Set ℕ)
  | .var _ | .const _ _ | .cview _ _ => []
  | .unary _ e _ | .pow _ e _ | .prodElem e _ _ | .transpose e _ | .opEq _ _ e _ _ => e.innerAdj ++ e.rootAdj
  | .binary _ l r _ | .dot l r _ | .glue l r _ => (l.innerAdj ++ l.rootAdj) ++ (r.innerAdj ++ r.rootAdj)
  | .sumIter es _ | .prodIter es _ | .reduce _ es _ | .forEach es _ => es.allAdjs
  | .ifElse c a b _ => (c.innerAdj ++ c.rootAdj) ++ ((a.innerAdj ++ a.rootAdj) ++ (b.innerAdj ++ b.rootAdj))
  | .eq _ e _ => e.innerAdj ++ e.keptAdj
/-- adjoint regions of all nodes of a list of expressions -/
def Exprs.allAdjs : Exprs α → List (Set ℕ)
  | .nil => []
  | .cons e es => (e.innerAdj ++ e.rootAdj) ++ es.allAdjs
end

/-- value regions of all nodes -/
def Expr.valRegions (e : Expr α) : List (Set ℕ) := e.innerVal ++ e.rootVal

/-- adjoint regions of all nodes -/
def Expr.adjRegions (e : Expr α) : List (Set ℕ) := e.innerAdj ++ e.rootAdj

/-- `prod(...)` or `u op= ...`: nodes with scratch regions -/
def Expr.hasScratch : Expr α → Bool
  | .prodElem _ _ _ => true
  | .opEq _ _ _ _ _ => true
  | _ => false

mutual
/-- no assignment `w = prod(...)` or `w = (u op= ...)` anywhere -/
def Expr.NoScratchEq : Expr α → Prop
  | .var _ | .const _ _ | .cview _ _ => True
  | .unary _ e _ | .pow _ e _ | .prodElem e _ _ | .transpose e _ | .opEq _ _ e _ _ => e.NoScratchEq
  | .binary _ l r _ | .dot l r _ | .glue l r _ => l.NoScratchEq ∧ r.NoScratchEq
  | .sumIter es _ | .prodIter es _ | .reduce _ es _ | .forEach es _ => es.NoScratchEqs
  | .ifElse c a b _ => c.NoScratchEq ∧ a.NoScratchEq ∧ b.NoScratchEq
  | .eq _ e _ => e.NoScratchEq ∧ e.hasScratch = false
/-- the same for a list of expressions -/
def Exprs.NoScratchEqs : Exprs α → Prop
  | .nil => True
  | .cons e es => e.NoScratchEq ∧ es.NoScratchEqs
end

end FastAD
