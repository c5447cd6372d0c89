import Verif.Model.Assign
import Verif.Spec.Program
import Verif.Spec.Inline

/-!
# Assignment of objects to objects: what one expects
-/

namespace FastAD

variable {α : Type}

mutual
/-- The two expressions have the same C++ type: the same nodes with the same kinds of shape (and lists have the same length). -/
def Expr.SameType : Expr α → Expr α → Prop
  | .var v, .var v' => v.shape.kind = v'.shape.kind
  | .const sh _, .const sh' _ => sh.kind = sh'.kind
  | .cview sh _, .cview sh' _ => sh.kind = sh'.kind
  | .unary op e w, .unary op' e' w' => op = op' ∧ w.shape.kind = w'.shape.kind ∧ e.SameType e'
  | .binary op l r w, .binary op' l' r' w' => op = op' ∧ w.shape.kind = w'.shape.kind ∧ l.SameType l' ∧ r.SameType r'
  | .pow n e w, .pow n' e' w' => n = n' ∧ w.shape.kind = w'.shape.kind ∧ e.SameType e'
  | .prodElem e w _, .prodElem e' w' _ => w.shape.kind = w'.shape.kind ∧ e.SameType e'
  | .transpose e w, .transpose e' w' => w.shape.kind = w'.shape.kind ∧ e.SameType e'
  | .dot l r w, .dot l' r' w' => w.shape.kind = w'.shape.kind ∧ l.SameType l' ∧ r.SameType r'
  | .sumIter es w, .sumIter es' w' => w.shape.kind = w'.shape.kind ∧ es.SameTypes es'
  | .prodIter es w, .prodIter es' w' => w.shape.kind = w'.shape.kind ∧ es.SameTypes es'
  | .reduce op es w, .reduce op' es' w' => op = op' ∧ w.shape.kind = w'.shape.kind ∧ es.SameTypes es'
  | .ifElse c a b w, .ifElse c' a' b' w' => w.shape.kind = w'.shape.kind ∧ c.SameType c' ∧ a.SameType a' ∧ b.SameType b'
  | .eq v e w, .eq v' e' w' => v.shape.kind = v'.shape.kind ∧ w.shape.kind = w'.shape.kind ∧ e.SameType e'
  | .opEq op v e w c, .opEq op' v' e' w' c' =>
      op = op' ∧ v.shape.kind = v'.shape.kind ∧ w.shape.kind = w'.shape.kind ∧ c.shape.kind = c'.shape.kind ∧ e.SameType e'
  | .glue l r w, .glue l' r' w' => w.shape.kind = w'.shape.kind ∧ l.SameType l' ∧ r.SameType r'
  | .forEach es w, .forEach es' w' => w.shape.kind = w'.shape.kind ∧ es.SameTypes es'
  | _, _ => False
/-- the same for lists -/
def Exprs.SameTypes : Exprs α → Exprs α → Prop
  | .nil, .nil => True
  | .cons e es, .cons e' es' => e.SameType e' ∧ es.SameTypes es'
  | _, _ => False
end

mutual
/-- Every node is a scalar; constants may be arrays (but not views). -/
def Expr.AllScl : Expr α → Prop
  | .var v => v.shape = .scl
  | .const _ _ => True
  | .cview _ _ => False
  | .unary _ e w => w.shape = .scl ∧ e.AllScl
  | .binary _ l r w => w.shape = .scl ∧ l.AllScl ∧ r.AllScl
  | .pow _ e w => w.shape = .scl ∧ e.AllScl
  | .prodElem e w _ => w.shape = .scl ∧ e.shape = .scl ∧ e.AllScl
  | .transpose _ _ => False
  | .dot _ _ _ => False
  | .sumIter es w => w.shape = .scl ∧ es.AllScls
  | .prodIter es w => w.shape = .scl ∧ es.AllScls
  | .reduce _ es w => w.shape = .scl ∧ es.AllScls
  | .ifElse c a b w => w.shape = .scl ∧ c.AllScl ∧ a.AllScl ∧ b.AllScl
  | .eq v e w => v.shape = .scl ∧ w.shape = .scl ∧ e.AllScl
  | .opEq _ v e w c => v.shape = .scl ∧ w.shape = .scl ∧ c.shape = .scl ∧ e.AllScl
  | .glue l r w => w.shape = .scl ∧ l.AllScl ∧ r.AllScl
  | .forEach es w => w.shape = .scl ∧ es.AllScls
/-- the same for lists -/
def Exprs.AllScls : Exprs α → Prop
  | .nil => True
  | .cons e es => e.AllScl ∧ es.AllScls
end

/-! ### `w = x` in a program -/

/-- the statement as it is meant: `w = u` assigns the value of `u` to the placeholder `w` -/
def SrcStmt.meant : SrcStmt α → Expr α
  | .copy _ w _ u => .mkEq w (.var u)
  | .node e => e

/-- objects mentioned by a statement -/
def SrcStmt.vars : SrcStmt α → List View
  | .copy _ w _ u => [w, u]
  | .node e => e.vars

/-- constant views mentioned by a statement -/
def SrcStmt.cviews : SrcStmt α → List (Shape × Option Nat)
  | .copy _ _ _ _ => []
  | .node e => e.cviews

/-- the two objects of an assignment of an object to an object -/
def SrcStmt.copied : SrcStmt α → List View
  | .copy _ w _ u => [w, u]
  | .node _ => []

/-- the variable changed by a statement other than that -/
def SrcStmt.changed : SrcStmt α → Option View
  | .copy _ _ _ _ => none
  | .node e => e.target

/-- Programs with assignments `w = u` of scalar `VarView`s to each other: the other statements are well-formed; objects are equal or share no memory; no constant view shows
a variable that is assigned; and after `w = u` neither `w` nor `u` is changed. -/
structure Unaliased (xs : List (SrcStmt ℝ)) : Prop where
  stmt : ∀ e, .node e ∈ xs → e.WFStmt
  views : ∀ c w d u, .copy c w d u ∈ xs → c = .view ∧ d = .view ∧ w.shape = .scl ∧ u.shape = .scl
  apart : ∀ x ∈ xs, ∀ y ∈ xs, ∀ v ∈ x.vars, ∀ v' ∈ y.vars, v = v' ∨ v.Apart v'
  consts : ∀ x ∈ xs, ∀ c ∈ x.cviews, ∀ y ∈ xs, ∀ v ∈ y.meant.target, ∀ j < c.1.size, ∀ k < v.size, addr c.2 + j ≠ addr v.val + k
  after : xs.Pairwise fun x y => ∀ v ∈ y.changed, ∀ w ∈ x.copied, v.Apart w

end FastAD
