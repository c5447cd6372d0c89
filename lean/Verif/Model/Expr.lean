import Verif.Model.Ops
import Verif.Model.StatOp

/-!
# Expression nodes, their views, and cache binding
-/

namespace FastAD

/-- Shape tags `ad::scl`, `ad::vec`, `ad::mat`, `util/shape_traits.hpp:10-57`. -/
inductive Kind
  | scl | vec | mat
  deriving DecidableEq, Repr

/-- A shape tag with the runtime dimensions. -/
structure Shape where
  kind : Kind
  rows : Nat
  cols : Nat
  deriving DecidableEq, Repr

namespace Shape

/-- `size()` of a view, `reverse/core/value_view.hpp:71,129,163` (a scalar always has one element). -/
def size (s : Shape) : Nat := s.rows * s.cols

/-- The dimensions a `ValueView` of the given tag really has when constructed with `rows, cols`:
a scalar view ignores both, a vector view ignores `cols`; `value_view.hpp:18,114,148`. -/
def ofDims (k : Kind) (r c : Nat) : Shape :=
  match k with
  | .scl => ⟨.scl, 1, 1⟩
  | .vec => ⟨.vec, r, 1⟩
  | .mat => ⟨.mat, r, c⟩

def scl : Shape := ⟨.scl, 1, 1⟩
def vec (n : Nat) : Shape := ⟨.vec, n, 1⟩
def mat (r c : Nat) : Shape := ⟨.mat, r, c⟩

/-- is the tag `scl`? (`util::is_scl_v`) -/
def isScl (s : Shape) : Bool := s.kind == .scl

/-- `util::max_shape_t`, `util/shape_traits.hpp:102-110`. -/
def maxKind (a b : Kind) : Kind :=
  match a, b with
  | .mat, _ => .mat
  | _, .mat => .mat
  | .vec, _ => .vec
  | .scl, b => b

/-- Index used when a coefficient-wise expression of an array reads this operand: a scalar is broadcast. -/
def bidx (s : Shape) (k : Nat) : Nat := if s.isScl then 0 else k

end Shape

/-- `ValueAdjView`: shape plus value and adjoint pointers, `reverse/core/value_adj_view.hpp:24-62`.
`none` is the null pointer. -/
structure View where
  shape : Shape
  val : Option Nat
  adj : Option Nat
  deriving DecidableEq, Repr

/-- `util::PtrPack`, `util/ptr_pack.hpp`. -/
structure Pack where
  val : Option Nat
  adj : Option Nat
  deriving DecidableEq, Repr

/-- `util::SizePack` (an `Eigen::Array<size_t, 2, 1>`), `util/size_pack.hpp`. -/
structure SizePack where
  val : Nat
  adj : Nat
  deriving DecidableEq, Repr

instance : Add SizePack := ⟨fun a b => ⟨a.val + b.val, a.adj + b.adj⟩⟩
instance : Sub SizePack := ⟨fun a b => ⟨a.val - b.val, a.adj - b.adj⟩⟩

namespace View

/-- number of elements -/
def size (v : View) : Nat := v.shape.size

/-- a freshly constructed, unbound view (`value_adj_view_t(nullptr, nullptr, rows, cols)`) -/
def null (s : Shape) : View := ⟨s, none, none⟩

/-- `ValueAdjView::bind`, value_adj_view.hpp:47-52 with value_view.hpp:57,123,157. -/
def bind (v : View) (b : Pack) : View × Pack :=
  (⟨v.shape, b.val, b.adj⟩, ⟨b.val.map (· + v.size), b.adj.map (· + v.size)⟩)

/-- The "bind the value only" idiom: `adj = begin.adj; begin.adj = nullptr; bind; begin.adj = adj`,
binary.hpp:148-153, sum.hpp:180-188, pow.hpp:167-172, norm.hpp:60-68, det.hpp:65-73. -/
def bindVal (v : View) (b : Pack) : View × Pack :=
  (⟨v.shape, b.val, none⟩, ⟨b.val.map (· + v.size), b.adj⟩)

end View

/-- Decomposition policies of `det`/`log_det`, `reverse/core/det.hpp:97-202`, `log_det.hpp:97-202`. -/
inductive Decomp
  | lu | ldlt | llt
  deriving DecidableEq, Repr

/-- Nodes that reduce their operands to one scalar and cache only that value (`single_bind_cache_size = {1,0}`):
`SumElemNode` (sum.hpp), `NormNode` (norm.hpp), `DetNode` (det.hpp), `LogDetNode` (log_det.hpp), with one operand; and the log-density nodes
(stat/normal.hpp, stat/cauchy.hpp, stat/uniform.hpp, stat/bernoulli.hpp, stat/wishart.hpp), with the operands x, mean/loc/min/p/v and (not for Bernoulli)
sigma/scale/max/n.  The constness of the operands' types (`k`) is part of the type of a log-density node.  (The Wishart node does not bind its third operand,
wishart.hpp:46-56; it must be a constant, wishart.hpp:25, for which binding does nothing.) -/
inductive RedOp
  | sum | norm | det (d : Decomp) | logDet (d : Decomp)
  | stat (op : StatOp) (k : Kinds)
  deriving DecidableEq, Repr

mutual
/-- Expression nodes.  Each internal node stores its own `ValueAdjView` base (`w`), initially null.
* `var`: `VarView` (var_view.hpp); * `const`: `Constant` (constant.hpp:83); * `cview`: `ConstantView` (constant.hpp:28)
* `unary`: `UnaryNode` (unary.hpp:34); * `binary`: `BinaryNode` (binary.hpp:39); * `pow`: `PowNode` (pow.hpp:68)
* `prodElem`: `ProdElemNode` with its `adj_cache_` pointer (prod.hpp:144); * `transpose`, `dot`: transpose.hpp, dot.hpp
* `sumIter`, `prodIter`, `forEach`: nodes over a `std::vector` of expressions (sum.hpp, prod.hpp, for_each.hpp)
* `reduce`: see `RedOp`
* `eq`: `EqNode` (eq.hpp:30); * `opEq`: `OpEqNode` with its `cache_` view (eq.hpp:195)
* `glue`: `GlueNode` (glue.hpp); * `ifElse`: `IfElseNode` (if_else.hpp) -/
inductive Expr (α : Type) : Type
  | var (v : View)
  | const (sh : Shape) (c : Nat → α)
  | cview (sh : Shape) (p : Option Nat)
  | unary (op : UOp) (e : Expr α) (w : View)
  | binary (op : BOp) (l r : Expr α) (w : View)
  | pow (n : Int) (e : Expr α) (w : View)
  | prodElem (e : Expr α) (w : View) (cache : Option Nat)
  | transpose (e : Expr α) (w : View)
  | dot (l r : Expr α) (w : View)
  | sumIter (es : Exprs α) (w : View)
  | prodIter (es : Exprs α) (w : View)
  | reduce (op : RedOp) (es : Exprs α) (w : View)
  | ifElse (c a b : Expr α) (w : View)
  | eq (v : View) (e : Expr α) (w : View)
  | opEq (op : AOp) (v : View) (e : Expr α) (w : View) (cache : View)
  | glue (l r : Expr α) (w : View)
  | forEach (es : Exprs α) (w : View)
/-- A `std::vector` of expressions (or the operand list of a reduction node). -/
inductive Exprs (α : Type) : Type
  | nil
  | cons (e : Expr α) (es : Exprs α)
end

namespace Exprs
variable {α : Type}

/-- number of expressions -/
def length : Exprs α → Nat
  | .nil => 0
  | .cons _ es => es.length + 1

/-- as a list -/
def toList : Exprs α → List (Expr α)
  | .nil => []
  | .cons e es => e :: es.toList

/-- from a list -/
def ofList : List (Expr α) → Exprs α
  | [] => .nil
  | e :: es => .cons e (ofList es)

end Exprs

namespace Expr
variable {α : Type}

/-- The node's own view (`get()`, `data()`, `data_adj()` go through it).  Constants have no such view:
their shape with null pointers is returned. -/
def view : Expr α → View
  | .var v => v
  | .const sh _ => .null sh
  | .cview sh p => ⟨sh, p, none⟩
  | .unary _ _ w | .binary _ _ _ w | .pow _ _ w | .prodElem _ w _ | .transpose _ w | .dot _ _ w
  | .sumIter _ w | .prodIter _ w | .reduce _ _ w | .ifElse _ _ _ w | .eq _ _ w | .opEq _ _ _ w _
  | .glue _ _ w | .forEach _ w => w

/-- `rows()`, `cols()` and shape tag of a node. -/
def shape (e : Expr α) : Shape := e.view.shape

def size (e : Expr α) : Nat := e.shape.size

/-- What the type of an expression tells a log-density node about it: is it a constant (`util::is_constant_v`, util/type_traits.hpp:124-126), a variable, or another
expression? -/
def argKind : Expr α → ArgKind
  | .const _ _ | .cview _ _ => .const
  | .var _ => .leaf
  | _ => .node

/-- is the expression a `ConstantView`? -/
def isConstView : Expr α → Bool
  | .cview _ _ => true
  | _ => false

/-- Is the type `feval()` returns a reference to an `Eigen::Matrix` stored in the node (`Constant`, constant.hpp:83-100), an
`Eigen::Map<const ...>` (`ConstantView`, constant.hpp:28-50) or an `Eigen::Map` (every other node: `ValueView::var_t`,
value_view.hpp:100,140)?  For scalars all three are `const value_t&`. -/
inductive RetKind
  | matrix | constMap | map
  deriving DecidableEq, Repr

/-- static type returned by `feval()`; `IfElseNode::feval` has the common type of its branches, if_else.hpp:78-82 -/
def retKind : Expr α → RetKind
  | .const _ _ => .matrix
  | .cview _ _ => .constMap
  | .ifElse _ a _ _ => a.retKind
  | _ => .map

/-! ### Constructors (the node constructors and their asserts) -/

/-- `UnaryNode` constructor, unary.hpp:52-55. -/
def mkUnary (op : UOp) (e : Expr α) : Expr α := .unary op e (.null e.shape)

/-- shape of a `BinaryNode`: `max` of the dimensions, binary.hpp:77-82. -/
def binShape (a b : Shape) : Shape :=
  .ofDims (Shape.maxKind a.kind b.kind) (max a.rows b.rows) (max a.cols b.cols)

/-- the shape assertion of `BinaryNode`: static_assert binary.hpp:62-68 and asserts binary.hpp:86-91. -/
def binOk (a b : Shape) : Bool :=
  a.isScl || b.isScl || (a.kind == b.kind && a.rows == b.rows && a.cols == b.cols)

/-- `BinaryNode` constructor, binary.hpp:77-92. -/
def mkBinary (op : BOp) (l r : Expr α) : Expr α := .binary op l r (.null (binShape l.shape r.shape))

/-- `PowNode` constructor, pow.hpp:86-89. -/
def mkPow (n : Int) (e : Expr α) : Expr α := .pow n e (.null e.shape)

/-- `ProdElemNode` constructor, prod.hpp:161-165. -/
def mkProdElem (e : Expr α) : Expr α := .prodElem e (.null .scl) none

/-- `TransposeNode` constructor, transpose.hpp:33-34: always `mat`, dimensions swapped. -/
def mkTranspose (e : Expr α) : Expr α := .transpose e (.null (.mat e.shape.cols e.shape.rows))

/-- `DotNode` constructor, dot.hpp:80-87; shape tag dot.hpp:16-36. -/
def mkDot (l r : Expr α) : Expr α :=
  .dot l r (.null (.ofDims r.shape.kind l.shape.rows r.shape.cols))

/-- dimensions used by the nodes over a vector of expressions: those of the first element, or 0;
sum.hpp:44-49, prod.hpp:42-47, for_each.hpp:39-44.  `k` is the static shape tag. -/
def iterShape (k : Kind) : Exprs α → Shape
  | .nil => .ofDims k 0 0
  | .cons e _ => .ofDims k e.shape.rows e.shape.cols

/-- `SumIterNode` constructor, sum.hpp:44-49. -/
def mkSumIter (k : Kind) (es : Exprs α) : Expr α := .sumIter es (.null (iterShape k es))
/-- `ProdIterNode` constructor, prod.hpp:42-47. -/
def mkProdIter (k : Kind) (es : Exprs α) : Expr α := .prodIter es (.null (iterShape k es))
/-- `ForEachIterNode` constructor, for_each.hpp:39-44. -/
def mkForEach (k : Kind) (es : Exprs α) : Expr α := .forEach es (.null (iterShape k es))

/-- constructors of the scalar reduction nodes (always 1×1). -/
def mkReduce (op : RedOp) (es : Exprs α) : Expr α := .reduce op es (.null .scl)

/-- `IfElseNode` constructor, if_else.hpp:65-76. -/
def mkIfElse (c a b : Expr α) : Expr α := .ifElse c a b (.null a.shape)

/-- `EqNode` constructor, eq.hpp:70-82. -/
def mkEq (v : View) (e : Expr α) : Expr α := .eq v e (.null v.shape)

/-- `OpEqNode` constructor, eq.hpp:225-236. -/
def mkOpEq (op : AOp) (v : View) (e : Expr α) : Expr α := .opEq op v e (.null v.shape) (.null v.shape)

/-- `GlueNode` constructor, glue.hpp:50-57. -/
def mkGlue (l r : Expr α) : Expr α := .glue l r (.null r.shape)

/-! ### Cache sizes -/

/-- `single_bind_cache_size()` of every node. -/
def single : Expr α → SizePack
  | .var _ => ⟨0, 0⟩                                   -- var_view.hpp:102
  | .const _ _ => ⟨0, 0⟩                               -- constant.hpp:112
  | .cview _ _ => ⟨0, 0⟩                               -- constant.hpp:69
  | .unary _ _ w => ⟨w.size, w.size⟩                   -- unary.hpp:113-116
  | .binary op _ _ w =>                                -- binary.hpp:173-180
      if op.isComparison then ⟨w.size, 0⟩ else ⟨w.size, w.size⟩
  | .pow n _ w =>                                      -- pow.hpp:184-191
      if n = 0 ∨ n = 1 then ⟨w.size, 0⟩ else ⟨w.size, w.size⟩
  | .prodElem e w _ => ⟨w.size, e.size⟩                -- prod.hpp:236-239
  | .transpose _ w => ⟨w.size, w.size⟩                 -- transpose.hpp:56
  | .dot _ _ w => ⟨w.size, w.size⟩                     -- dot.hpp:120-123
  | .sumIter _ w => ⟨w.size, w.size⟩                   -- sum.hpp:109-112
  | .prodIter _ w => ⟨w.size, w.size⟩                  -- prod.hpp:128-131
  | .reduce _ _ w => ⟨w.size, 0⟩                       -- sum.hpp:196-199, norm.hpp:76-79, det.hpp:81-84, normal.hpp:63-66
  | .ifElse _ _ _ _ => ⟨0, 0⟩                          -- if_else.hpp:108
  | .eq _ _ _ => ⟨0, 0⟩                                -- eq.hpp:153-154
  | .opEq _ _ _ _ c => ⟨c.size, c.size⟩                -- eq.hpp:294-297
  | .glue _ _ _ => ⟨0, 0⟩                              -- glue.hpp:115
  | .forEach _ _ => ⟨0, 0⟩                             -- for_each.hpp:107

end Expr

variable {α : Type}

mutual
/-- `bind_cache_size()` of every node. -/
def Expr.bindSize : Expr α → SizePack
  | .var _ => ⟨0, 0⟩                                   -- var_view.hpp:101
  | .const _ _ => ⟨0, 0⟩                               -- constant.hpp:111
  | .cview _ _ => ⟨0, 0⟩                               -- constant.hpp:68
  | .unary op e w => (Expr.unary op e w).single + e.bindSize          -- unary.hpp:107-111
  | .binary op l r w => (Expr.binary op l r w).single + l.bindSize + r.bindSize   -- binary.hpp:166-171
  | .pow n e w => (Expr.pow n e w).single + e.bindSize                -- pow.hpp:178-182
  | .prodElem e w c => e.bindSize + (Expr.prodElem e w c).single      -- prod.hpp:230-234
  | .transpose e w => e.bindSize + (Expr.transpose e w).single        -- transpose.hpp:52-54
  | .dot l r w => (Expr.dot l r w).single + l.bindSize + r.bindSize   -- dot.hpp:113-118
  | .sumIter es w => es.bindSize + (Expr.sumIter es w).single         -- sum.hpp:100-107
  | .prodIter es w => es.bindSize + (Expr.prodIter es w).single       -- prod.hpp:119-126
  | .reduce op es w => es.bindSize + (Expr.reduce op es w).single     -- sum.hpp:190-194, norm.hpp:70-74, det.hpp:75-79, normal.hpp:55-61
  | .ifElse c a b _ => c.bindSize + a.bindSize + b.bindSize           -- if_else.hpp:101-106
  | .eq _ e _ => e.bindSize - e.single                                -- eq.hpp:147-151
  | .opEq op v e w c => (Expr.opEq op v e w c).single + e.bindSize    -- eq.hpp:288-292
  | .glue l r _ => l.bindSize + r.bindSize                            -- glue.hpp:109-113
  | .forEach es _ => es.bindSize                                      -- for_each.hpp:98-105
/-- accumulated `bind_cache_size()` of a vector of expressions (the loops of sum.hpp:103-105, prod.hpp:119-126,
for_each.hpp:98-105). -/
def Exprs.bindSize : Exprs α → SizePack
  | .nil => ⟨0, 0⟩
  | .cons e es => e.bindSize + es.bindSize
end

/-- `static_cast<value_adj_view_t&>(expr_).bind(ptr_pack)` in `EqNode::bind_cache`, eq.hpp:132-133: only the base view of the
root node is rebound.  `bind` of constants is a no-op (constant.hpp:62,105).  A `VarView` cannot occur
(static_assert eq.hpp:50). -/
def Expr.rebind (e : Expr α) (v a : Option Nat) : Expr α :=
  match e with
  | .var w => .var w
  | .const sh c => .const sh c
  | .cview sh p => .cview sh p
  | .unary op e w => .unary op e ⟨w.shape, v, a⟩
  | .binary op l r w => .binary op l r ⟨w.shape, v, a⟩
  | .pow n e w => .pow n e ⟨w.shape, v, a⟩
  | .prodElem e w c => .prodElem e ⟨w.shape, v, a⟩ c
  | .transpose e w => .transpose e ⟨w.shape, v, a⟩
  | .dot l r w => .dot l r ⟨w.shape, v, a⟩
  | .sumIter es w => .sumIter es ⟨w.shape, v, a⟩
  | .prodIter es w => .prodIter es ⟨w.shape, v, a⟩
  | .reduce op es w => .reduce op es ⟨w.shape, v, a⟩
  | .ifElse c x y w => .ifElse c x y ⟨w.shape, v, a⟩
  | .eq u e w => .eq u e ⟨w.shape, v, a⟩
  | .opEq op u e w c => .opEq op u e ⟨w.shape, v, a⟩ c
  | .glue l r w => .glue l r ⟨w.shape, v, a⟩
  | .forEach es w => .forEach es ⟨w.shape, v, a⟩

/-- view of the last expression of a vector (`vec_.back()`), for_each.hpp:94 -/
def Exprs.lastView : Exprs α → View
  | .nil => .null .scl
  | .cons e .nil => e.view
  | .cons _ (.cons e es) => Exprs.lastView (.cons e es)

mutual
/-- `bind_cache(begin)` of every node: the node with all views bound, and the advanced pointers. -/
def Expr.bind : Expr α → Pack → Expr α × Pack
  | .var v, b => (.var v, b)                            -- var_view.hpp:99-100
  | .const sh c, b => (.const sh c, b)                  -- constant.hpp:109
  | .cview sh p, b => (.cview sh p, b)                  -- constant.hpp:66
  | .unary op e w, b =>                                 -- unary.hpp:95-99
      let (e', b) := e.bind b
      let (w', b) := w.bind b
      (.unary op e' w', b)
  | .binary op l r w, b =>                              -- binary.hpp:144-158
      let (l', b) := l.bind b
      let (r', b) := r.bind b
      let (w', b) := if op.isComparison then w.bindVal b else w.bind b
      (.binary op l' r' w', b)
  | .pow n e w, b =>                                    -- pow.hpp:164-176
      let (e', b) := e.bind b
      let (w', b) := if n = 0 ∨ n = 1 then w.bindVal b else w.bind b
      (.pow n e' w', b)
  | .prodElem e w _, b =>                               -- prod.hpp:219-228
      let (e', b) := e.bind b
      let c := b.adj
      let b : Pack := ⟨b.val, b.adj.map (· + e.size)⟩
      let (w', b) := w.bindVal b
      (.prodElem e' w' c, b)
  | .transpose e w, b =>                                -- transpose.hpp:47-50
      let (e', b) := e.bind b
      let (w', b) := w.bind b
      (.transpose e' w', b)
  | .dot l r w, b =>                                    -- dot.hpp:106-111
      let (l', b) := l.bind b
      let (r', b) := r.bind b
      let (w', b) := w.bind b
      (.dot l' r' w', b)
  | .sumIter es w, b =>                                 -- sum.hpp:92-98
      let (es', b) := es.bind b
      let (w', b) := w.bind b
      (.sumIter es' w', b)
  | .prodIter es w, b =>                                -- prod.hpp:111-117
      let (es', b) := es.bind b
      let (w', b) := w.bind b
      (.prodIter es' w', b)
  | .reduce op es w, b =>                               -- sum.hpp:180-188, norm.hpp:60-68, det.hpp:65-73, normal.hpp:43-53
      let (es', b) := es.bind b
      let (w', b) := w.bindVal b
      (.reduce op es' w', b)
  | .ifElse c x y w, b =>                               -- if_else.hpp:94-99: the node itself is not bound
      let (c', b) := c.bind b
      let (x', b) := x.bind b
      let (y', b) := y.bind b
      (.ifElse c' x' y' w, b)
  | .eq v e w, b =>                                     -- eq.hpp:119-136
      let (e', b) := e.bind b
      let b : Pack := ⟨b.val.map (· - e.single.val), b.adj.map (· - e.single.adj)⟩
      (.eq v (e'.rebind v.val v.adj) ⟨w.shape, v.val, v.adj⟩, b)
  | .opEq op v e w c, b =>                              -- eq.hpp:280-286
      let (e', b) := e.bind b
      let (c', b) := c.bind b
      (.opEq op v e' ⟨w.shape, v.val, v.adj⟩ c', b)
  | .glue l r w, b =>                                   -- glue.hpp:94-100
      let (l', b) := l.bind b
      let (r', b) := r.bind b
      (.glue l' r' ⟨w.shape, r'.view.val, r'.view.adj⟩, b)
  | .forEach es w, b =>                                 -- for_each.hpp:88-96
      let (es', b) := es.bind b
      (.forEach es' (if es.length = 0 then w else ⟨w.shape, es'.lastView.val, es'.lastView.adj⟩), b)
/-- the binding loop over a vector of expressions, left to right -/
def Exprs.bind : Exprs α → Pack → Exprs α × Pack
  | .nil, b => (.nil, b)
  | .cons e es, b =>
      let (e', b) := e.bind b
      let (es', b) := es.bind b
      (.cons e' es', b)
end

end FastAD
