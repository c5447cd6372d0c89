import Verif.Model.Eval

/-!
# Node-by-node value over an arbitrary scalar type

`Expr.exact e m k` is the value of coefficient `k` of the pure expression `e` when every operation is the one of the scalar type (rounding, overflow, NaN and all)
and variables have the values stored in the heap `m`.  Nothing is assumed about the operations.  It does not mention caches: the views stored in the internal
nodes are ignored except for the node's shape.
-/

namespace FastAD

variable {α : Type} [Zero α] [One α] [Add α] [Sub α] [Neg α] [Mul α] [Div α] [NatCast α] [IntCast α]
variable [Fn α] [HasInf α] [LinAlg α]

mutual
/-- value of coefficient `k` (column-major) of an expression, computed with the operations of the scalar type -/
def Expr.exact : Expr α → (Nat → α) → Nat → α
  | .var v, m, k => m (addr v.val + k)
  | .const _ c, _, k => c k
  | .cview _ p, m, k => m (addr p + k)
  | .unary op e _, m, k => op.fmap (e.exact m k)
  | .binary op l r w, m, k =>
      op.fmap w.shape.isScl (l.exact m (if l.shape.isScl then 0 else k)) (r.exact m (if r.shape.isScl then 0 else k))
  | .pow n e w, m, k => if w.shape.isScl then powFunc n (e.exact m k) else arrayPow n (e.exact m k)
  | .prodElem e _ _, m, _ => prodN e.size (e.exact m)
  | .transpose e w, m, k => e.exact m (k / w.shape.rows + (k % w.shape.rows) * w.shape.cols)
  | .dot l r _, m, k =>
      sumN l.shape.cols fun q =>
        l.exact m (k % l.shape.rows + q * l.shape.rows) * r.exact m (q + k / l.shape.rows * l.shape.cols)
  | .sumIter es _, m, k => (es.exacts m).foldl (fun c x => c + x.2 k) 0
  | .prodIter es _, m, k => (es.exacts m).foldl (fun c x => c * x.2 k) 1
  | .reduce op es _, m, _ => (op.fmap ((es.exacts m).map fun x => (x.1, trunc x.1.size x.2))).getD 0
  | .ifElse c a b _, m, k => if toBool (c.exact m 0) then a.exact m k else b.exact m k
  | _, _, _ => 0
/-- values (with shapes) of a list of expressions -/
def Exprs.exacts : Exprs α → (Nat → α) → List (Shape × (Nat → α))
  | .nil, _ => []
  | .cons e es, m => (e.shape, e.exact m) :: es.exacts m
end

end FastAD
