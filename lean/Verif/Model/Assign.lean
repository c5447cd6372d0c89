import Verif.Model.Objects

/-!
# `operator=` between views, variables, expressions and bound expressions

No class of the library but `Var` declares a copy assignment (the member template of var_view.hpp:51-61 is none), so it is the implicit one, which assigns
base classes and members one after the other.  At the bottom are the views: a scalar view assigns its pointer (value_view.hpp:104); a vector or matrix view
assigns its `Eigen::Map` (value_view.hpp:138, 172), and Eigen's assignment of maps copies the coefficients, asserting that the dimensions agree.

Assignment from an lvalue is modelled (`e = f`); from an rvalue (`e = ad::sin(y)`) views behave in the same way, as `Eigen::Map` has no move assignment, but a
`std::vector` of expressions takes over the elements.  Constant views, whose `Eigen::Map<const ...>` cannot be written to, are not considered (`none`).
-/

namespace FastAD

variable {α : Type} [Zero α]

/-- implicit copy assignment `v = u` of `ValueView`, value_view.hpp:104, 138, 172, for the values or the adjoints (`cell`, `ok`): the new cells and the
pointer that `v` holds afterwards -/
def assignPtr (cell : Nat → α) (ok : Nat → Bool) (sh : Shape) (p q : Option Nat) : Option ((Nat → α) × Option Nat) :=
  if sh.isScl then some (cell, q)
  else if noClash (α := α) p sh.size (.ptr q) sh.size then do
    let x ← readCells cell ok q sh.size
    if accessible ok p sh.size then some (fillRange cell (addr p) sh.size x, p) else none
  else none

/-- implicit copy assignment `v = u` of `ValueAdjView` (value_adj_view.hpp:24-62), also of `VarView`: the base class `ValueView`, then `adj_view_`.  The types, hence the
kinds of shape, agree; the dimensions of maps must agree. -/
def View.assign (v u : View) (s : St α) : Option (St α × View) :=
  if v.shape = u.shape then do
    let (val, p) ← assignPtr s.val s.vok v.shape v.val u.val
    let (adj, q) ← assignPtr s.adj s.aok v.shape v.adj u.adj
    some (⟨val, adj, s.vok, s.aok⟩, ⟨v.shape, p, q⟩)
  else none

mutual
/-- Implicit copy assignment of nodes: the base class `ValueAdjView` (`ExprBase` is empty), then the members in the order of their declaration: unary.hpp:119,
binary.hpp:183-184, pow.hpp:194, prod.hpp:134, 243-244, sum.hpp:115, 202, norm.hpp:82, det.hpp:88-89, log_det.hpp:88-89, transpose.hpp:57, dot.hpp:127-128,
if_else.hpp:112-114, eq.hpp:157-158, 300-302, glue.hpp:119-120, for_each.hpp:110.  `Constant` owns its data (constant.hpp:149-150).  `none`: undefined behaviour, a failed assertion, or
different types. -/
def Expr.assign : Expr α → Expr α → St α → Option (St α × Expr α)
  | .var v, .var u, s => do
      let (s, v) ← v.assign u s
      some (s, .var v)
  | .const sh _, .const sh' c, s => if sh.kind = sh'.kind then some (s, .const sh' c) else none
  | .unary op e w, .unary op' e' w', s =>
      if op = op' then do
        let (s, w) ← w.assign w' s
        let (s, e) ← e.assign e' s
        some (s, .unary op e w)
      else none
  | .binary op l r w, .binary op' l' r' w', s =>
      if op = op' then do
        let (s, w) ← w.assign w' s
        let (s, l) ← l.assign l' s
        let (s, r) ← r.assign r' s
        some (s, .binary op l r w)
      else none
  | .pow n e w, .pow n' e' w', s =>
      if n = n' then do
        let (s, w) ← w.assign w' s
        let (s, e) ← e.assign e' s
        some (s, .pow n e w)
      else none
  | .prodElem e w c, .prodElem e' w' c', s => do
      let (s, w) ← w.assign w' s
      let sh := e.shape
      let (s, e) ← e.assign e' s
      let (adj, c) ← assignPtr s.adj s.aok sh c c'
      some ({ s with adj := adj }, .prodElem e w c)
  | .transpose e w, .transpose e' w', s => do
      let (s, w) ← w.assign w' s
      let (s, e) ← e.assign e' s
      some (s, .transpose e w)
  | .dot l r w, .dot l' r' w', s => do
      let (s, w) ← w.assign w' s
      let (s, l) ← l.assign l' s
      let (s, r) ← r.assign r' s
      some (s, .dot l r w)
  | .sumIter es w, .sumIter es' w', s => do
      let (s, w) ← w.assign w' s
      let (s, es) ← es.assigns es' s
      some (s, .sumIter es w)
  | .prodIter es w, .prodIter es' w', s => do
      let (s, w) ← w.assign w' s
      let (s, es) ← es.assigns es' s
      some (s, .prodIter es w)
  | .reduce op es w, .reduce op' es' w', s =>
      if op = op' then do
        let (s, w) ← w.assign w' s
        let (s, es) ← es.assigns es' s
        some (s, .reduce op es w)
      else none
  | .ifElse c a b w, .ifElse c' a' b' w', s => do
      let (s, w) ← w.assign w' s
      let (s, c) ← c.assign c' s
      let (s, a) ← a.assign a' s
      let (s, b) ← b.assign b' s
      some (s, .ifElse c a b w)
  | .eq v e w, .eq v' e' w', s => do
      let (s, w) ← w.assign w' s
      let (s, v) ← v.assign v' s
      let (s, e) ← e.assign e' s
      some (s, .eq v e w)
  | .opEq op v e w c, .opEq op' v' e' w' c', s =>
      if op = op' then do
        let (s, w) ← w.assign w' s
        let (s, c) ← c.assign c' s
        let (s, v) ← v.assign v' s
        let (s, e) ← e.assign e' s
        some (s, .opEq op v e w c)
      else none
  | .glue l r w, .glue l' r' w', s => do
      let (s, w) ← w.assign w' s
      let (s, l) ← l.assign l' s
      let (s, r) ← r.assign r' s
      some (s, .glue l r w)
  | .forEach es w, .forEach es' w', s => do
      let (s, w) ← w.assign w' s
      let (s, es) ← es.assigns es' s
      some (s, .forEach es w)
  | _, _, _ => none
/-- Copy assignment of a `std::vector` of expressions of the same length, element by element (vectors of different lengths are not considered; the operands of a
reduction are members one after the other). -/
def Exprs.assigns : Exprs α → Exprs α → St α → Option (St α × Exprs α)
  | .nil, .nil, s => some (s, .nil)
  | .cons e es, .cons e' es', s => do
      let (s, e) ← e.assign e' s
      let (s, es) ← es.assigns es' s
      some (s, .cons e es)
  | _, _, _ => none
end

/-- copy assignment of the cache vectors: `n` elements at `q` are copied to the `n'` elements at `q'`; Eigen keeps the buffer if the sizes agree and otherwise frees it and
allocates a new one, at `qn` -/
def assignVec (cell : Nat → α) (ok : Nat → Bool) (q' n' q n qn : Nat) : (Nat → α) × (Nat → Bool) × Nat :=
  if n' = n then (fillRange cell q' n fun k => cell (q + k), ok, q')
  else
    (fillRange cell qn n fun k => cell (q + k),
      (fun a => (ok a && !(decide (q' ≤ a) && decide (a < q' + n'))) || (decide (qn ≤ a) && decide (a < qn + n))), qn)

/-- copy assignment `i = j` of `ExprBind` objects, bind.hpp:38-40: the expression, then the two cache vectors; nothing is bound anew -/
def Objects.assign (w : Objects α) (i j qv qa : Nat) : Option (Objects α) := do
  let x ← w.obj i
  let y ← w.obj j
  let e ← x.expr
  let f ← y.expr
  let (s, e) ← e.assign f w.st
  let (val, vok, pv) := assignVec s.val s.vok x.qv x.n.val y.qv y.n.val qv
  let (adj, aok, pa) := assignVec s.adj s.aok x.qa x.n.adj y.qa y.n.adj qa
  some ⟨⟨val, adj, vok, aok⟩, setAt w.obj i (some ⟨some e, pv, pa, y.n⟩)⟩

/-! ### `w = x` in a program -/

/-- the class of an object: `Var` or `VarView` -/
inductive Cls
  | var | view
  deriving DecidableEq, Repr

/-- statements as they are written: an assignment of an object to an object; any other statement (assignment of another expression, compound assignment, expression) -/
inductive SrcStmt (α : Type)
  | copy (c : Cls) (w : View) (d : Cls) (u : View)
  | node (e : Expr α)

mutual
/-- the expression as it is built when each object `v` has the view `f v` -/
def Expr.onVars (f : View → View) : Expr α → Expr α
  | .var v => .var (f v)
  | .const sh c => .const sh c
  | .cview sh p => .cview sh p
  | .unary op e w => .unary op (e.onVars f) w
  | .binary op l r w => .binary op (l.onVars f) (r.onVars f) w
  | .pow n e w => .pow n (e.onVars f) w
  | .prodElem e w c => .prodElem (e.onVars f) w c
  | .transpose e w => .transpose (e.onVars f) w
  | .dot l r w => .dot (l.onVars f) (r.onVars f) w
  | .sumIter es w => .sumIter (es.onVarss f) w
  | .prodIter es w => .prodIter (es.onVarss f) w
  | .reduce op es w => .reduce op (es.onVarss f) w
  | .ifElse c a b w => .ifElse (c.onVars f) (a.onVars f) (b.onVars f) w
  | .eq v e w => .eq (f v) (e.onVars f) w
  | .opEq op v e w c => .opEq op (f v) (e.onVars f) w c
  | .glue l r w => .glue (l.onVars f) (r.onVars f) w
  | .forEach es w => .forEach (es.onVarss f) w
/-- the same for a list -/
def Exprs.onVarss (f : View → View) : Exprs α → Exprs α
  | .nil => .nil
  | .cons e es => .cons (e.onVars f) (es.onVarss f)
end

/-- Copy assignment `w = u` of `Var`s, var.hpp:60-69, 125-134, 190-199: the values and the adjoints are copied; an object is not assigned to itself. -/
def View.copyVar (w u : View) (s : St α) : Option (St α) :=
  if w = u then some s
  else if w.shape = u.shape then do
    let x ← readCells s.val s.vok u.val u.size
    let y ← readCells s.adj s.aok u.adj u.size
    let s ← s.writeV w.val w.size x
    s.writeA w.adj w.size y
  else none

/-- What happens while the statements `x₁, x₂, …` are built from left to right: memory, and the operands of `operator,`.  Objects are named by the views they start with;
`f v` is the view that the object `v` has now.

`w = u` for two objects: overload resolution prefers the copy assignment of `Var` (var.hpp:60, 125, 190) or the implicit one of `VarView` to the template of var_view.hpp:51-61 when both
sides have the same class, since it is not `const` (and not a template).  If the classes differ, the left side being a `Var`, the template is taken and the `static_assert` of eq.hpp:50 fails; the left
side being a `VarView`, the copy assignment is better for the left operand and the template for the right one, which is ambiguous.  Both operators return the object on the left (`Var&`, `VarView&`), which
`operator,` (glue.hpp:124-138) turns into a view. -/
def buildStmts (f : View → View) : List (SrcStmt α) → St α → Option (St α × List (Expr α))
  | [], s => some (s, [])
  | .node e :: xs, s => do
      let (s, l) ← buildStmts f xs s
      some (s, e.onVars f :: l)
  | .copy .view w .view u :: xs, s => do
      let (s, v) ← (f w).assign (f u) s
      let (s, l) ← buildStmts (fun x => if x = w then v else f x) xs s
      some (s, .var v :: l)
  | .copy .var w .var u :: xs, s => do
      let s ← w.copyVar u s
      let (s, l) ← buildStmts f xs s
      some (s, .var w :: l)
  | .copy _ _ _ _ :: _, _ => none

end FastAD
