import Verif.Model.Api

/-!
# Binding with checked pointer arithmetic

`Model/Expr` computes the pointers of `bind_cache` without asking whether the C++ standard defines the computation.  Here every addition and
subtraction is checked: the pointer must stay within an array (or one past its end), and a null pointer may only be moved by 0.
-/

namespace FastAD

variable {α : Type}

/-- `p + n`: defined if `p` is null and `n` is 0, or `n` elements are stored from `p` on.  (Simplified: adjacent allocated cells count as one array.) -/
def ptrAdd (ok : Nat → Bool) (p : Option Nat) (n : Nat) : Option (Option Nat) :=
  if accessible ok p n then some (p.map (· + n)) else none

/-- `p -= n`, eq.hpp:127-128: defined if `p` is null and `n` is 0, or `n` elements are stored before `p`. -/
def ptrSub (ok : Nat → Bool) (p : Option Nat) (n : Nat) : Option (Option Nat) :=
  match p with
  | none => if n = 0 then some none else none
  | some q => if n ≤ q ∧ ∀ k < n, ok (q - n + k) = true then some (some (q - n)) else none

/-- `ValueAdjView::bind`, value_adj_view.hpp:47-52: two additions, value_view.hpp:57, 123-127, 157-161. -/
def View.bindChk (vok aok : Nat → Bool) (v : View) (b : Pack) : Option (View × Pack) := do
  let p ← ptrAdd vok b.val v.size
  let q ← ptrAdd aok b.adj v.size
  some (⟨v.shape, b.val, b.adj⟩, ⟨p, q⟩)

/-- "Bind the value only": `adj = begin.adj; begin.adj = nullptr; begin = bind(begin); begin.adj = adj`, binary.hpp:148-153, sum.hpp:180-188, pow.hpp:167-172,
norm.hpp:60-68, det.hpp:65-73, prod.hpp:222-226, normal.hpp:48-51; `bind` adds to the null pointer. -/
def View.bindValChk (vok aok : Nat → Bool) (v : View) (b : Pack) : Option (View × Pack) := do
  let (w, c) ← v.bindChk vok aok ⟨b.val, none⟩
  some (w, ⟨c.val, b.adj⟩)

mutual
/-- `bind_cache(begin)` of every node (the lines are those of `Expr.bind`) with checked pointer arithmetic; `none` if some pointer computation is undefined. -/
def Expr.bindChk (vok aok : Nat → Bool) : Expr α → Pack → Option (Expr α × Pack)
  | .var v, b => some (.var v, b)
  | .const sh c, b => some (.const sh c, b)
  | .cview sh p, b => some (.cview sh p, b)
  | .unary op e w, b => do
      let (e', b) ← e.bindChk vok aok b
      let (w', b) ← w.bindChk vok aok b
      some (.unary op e' w', b)
  | .binary op l r w, b => do
      let (l', b) ← l.bindChk vok aok b
      let (r', b) ← r.bindChk vok aok b
      let (w', b) ← (if op.isComparison then w.bindValChk vok aok b else w.bindChk vok aok b)
      some (.binary op l' r' w', b)
  | .pow n e w, b => do
      let (e', b) ← e.bindChk vok aok b
      let (w', b) ← (if n = 0 ∨ n = 1 then w.bindValChk vok aok b else w.bindChk vok aok b)
      some (.pow n e' w', b)
  | .prodElem e w _, b => do                            -- `adj_cache_.bind(begin.adj)`: prod.hpp:222
      let (e', b) ← e.bindChk vok aok b
      let a ← ptrAdd aok b.adj e.size
      let (w', b') ← w.bindValChk vok aok ⟨b.val, a⟩
      some (.prodElem e' w' b.adj, b')
  | .transpose e w, b => do
      let (e', b) ← e.bindChk vok aok b
      let (w', b) ← w.bindChk vok aok b
      some (.transpose e' w', b)
  | .dot l r w, b => do
      let (l', b) ← l.bindChk vok aok b
      let (r', b) ← r.bindChk vok aok b
      let (w', b) ← w.bindChk vok aok b
      some (.dot l' r' w', b)
  | .sumIter es w, b => do
      let (es', b) ← es.bindChk vok aok b
      let (w', b) ← w.bindChk vok aok b
      some (.sumIter es' w', b)
  | .prodIter es w, b => do
      let (es', b) ← es.bindChk vok aok b
      let (w', b) ← w.bindChk vok aok b
      some (.prodIter es' w', b)
  | .reduce op es w, b => do
      let (es', b) ← es.bindChk vok aok b
      let (w', b) ← w.bindValChk vok aok b
      some (.reduce op es' w', b)
  | .ifElse c x y w, b => do
      let (c', b) ← c.bindChk vok aok b
      let (x', b) ← x.bindChk vok aok b
      let (y', b) ← y.bindChk vok aok b
      some (.ifElse c' x' y' w, b)
  | .eq v e w, b => do                                  -- eq.hpp:119-136: binds itself, then the operand, takes the root's cells back, binds the root (not a constant) again
      let (w', _) ← w.bindChk vok aok ⟨v.val, v.adj⟩
      let (e', b) ← e.bindChk vok aok b
      let p ← ptrSub vok b.val e.single.val
      let q ← ptrSub aok b.adj e.single.adj
      let _ ← (if e.argKind = .const then some (w', b) else (View.mk e.shape v.val v.adj).bindChk vok aok ⟨v.val, v.adj⟩)
      some (.eq v (e'.rebind v.val v.adj) w', ⟨p, q⟩)
  | .opEq op v e w c, b => do                           -- eq.hpp:280-286
      let (w', _) ← w.bindChk vok aok ⟨v.val, v.adj⟩
      let (e', b) ← e.bindChk vok aok b
      let (c', b) ← c.bindChk vok aok b
      some (.opEq op v e' w' c', b)
  | .glue l r w, b => do                                -- glue.hpp:94-100
      let (l', b) ← l.bindChk vok aok b
      let (r', b) ← r.bindChk vok aok b
      let (w', _) ← w.bindChk vok aok ⟨r'.view.val, r'.view.adj⟩
      some (.glue l' r' w', b)
  | .forEach es w, b =>                                 -- for_each.hpp:88-96
      if es.length = 0 then some (.forEach es w, b) else do
        let (es', b) ← es.bindChk vok aok b
        let (w', _) ← w.bindChk vok aok ⟨es'.lastView.val, es'.lastView.adj⟩
        some (.forEach es' w', b)
/-- the binding loop over a vector of expressions, left to right -/
def Exprs.bindChk (vok aok : Nat → Bool) : Exprs α → Pack → Option (Exprs α × Pack)
  | .nil, b => some (.nil, b)
  | .cons e es, b => do
      let (e', b) ← e.bindChk vok aok b
      let (es', b) ← es.bindChk vok aok b
      some (.cons e' es', b)
end

end FastAD
