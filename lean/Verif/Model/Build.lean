import Verif.Model.Api

/-!
# From source expressions to nodes

What the user writes is a source expression; the overloaded operators and functions turn it into a node, or, when all operands are constants,
into an already evaluated constant.  `Src.plain` is the tree of nodes one would get without this optimisation.

Simplification: all numbers have one type.  In C++ a folded comparison is a `Constant<bool>` (constant.hpp, `ad::constant(x < y)`), and folded arithmetic on
such constants is integer arithmetic; `Src.Ok` in `Verif/Spec/Build.lean` excludes those expressions.
-/

namespace FastAD

variable {α : Type}

mutual
/-- Side-effect-free source expressions.
* `var`: a `Var`/`VarView`; * `const`: a number, an Eigen object or `ad::constant(..)`; * `cview`: `ad::constant_view(..)`
* `sumRange`/`prodRange`: `ad::sum/prod(begin, end, f)`, with the shape tag of the expression type returned by `f`, whether that type is a constant,
and the expressions returned for the elements -/
inductive Src (α : Type) : Type
  | var (v : View)
  | const (sh : Shape) (c : Nat → α)
  | cview (sh : Shape) (p : Option Nat)
  | unary (op : UOp) (e : Src α)
  | binary (op : BOp) (l r : Src α)
  | pow (n : Int) (e : Src α)
  | sum (e : Src α)
  | prod (e : Src α)
  | norm (e : Src α)
  | det (d : Decomp) (e : Src α)
  | logDet (d : Decomp) (e : Src α)
  | transpose (e : Src α)
  | dot (l r : Src α)
  | ifElse (c a b : Src α)
  | sumRange (k : Kind) (cst : Bool) (es : Srcs α)
  | prodRange (k : Kind) (cst : Bool) (es : Srcs α)
/-- the expressions a lambda returns for the elements of a range -/
inductive Srcs (α : Type) : Type
  | nil
  | cons (e : Src α) (es : Srcs α)
end

mutual
/-- the tree of nodes without constant folding: every operator makes its node -/
def Src.plain : Src α → Expr α
  | .var v => .var v
  | .const sh c => .const sh c
  | .cview sh p => .cview sh p
  | .unary op e => .mkUnary op e.plain
  | .binary op l r => .mkBinary op l.plain r.plain
  | .pow n e => .mkPow n e.plain
  | .sum e => .mkReduce .sum (.cons e.plain .nil)
  | .prod e => .mkProdElem e.plain
  | .norm e => .mkReduce .norm (.cons e.plain .nil)
  | .det d e => .mkReduce (.det d) (.cons e.plain .nil)
  | .logDet d e => .mkReduce (.logDet d) (.cons e.plain .nil)
  | .transpose e => .mkTranspose e.plain
  | .dot l r => .mkDot l.plain r.plain
  | .ifElse c a b => .mkIfElse c.plain a.plain b.plain
  | .sumRange k _ es => .mkSumIter k es.plains
  | .prodRange k _ es => .mkProdIter k es.plains
/-- the same for the elements of a range -/
def Srcs.plains : Srcs α → Exprs α
  | .nil => .nil
  | .cons e es => .cons e.plain es.plains
end

/-- `util::is_constant_v`: `Constant` or `ConstantView`, util/type_traits.hpp:124-126 -/
def Expr.isConstant : Expr α → Bool
  | .const _ _ | .cview _ _ => true
  | _ => false

variable [Zero α] [One α] [Add α] [Sub α] [Neg α] [Mul α] [Div α] [NatCast α] [IntCast α]
variable [Fn α] [HasInf α] [LinAlg α]

/-- what `feval()` of a constant returns at the moment the expression is built -/
def constVal (s : St α) (e : Expr α) : Option (Nat → α) := e.getRef.read s e.size

/-- `ADNODE_UNARY_FUNC`, unary.hpp:173-188 -/
def buildUnary (s : St α) (op : UOp) (e : Expr α) : Option (Expr α) :=
  if e.isConstant then do
    let x ← constVal s e
    some (.const e.shape fun k => op.fmap (x k))
  else some (.mkUnary op e)

/-- `ADNODE_BINARY_FUNC`, binary.hpp:237-263.  The folded value is an Eigen array expression as soon as one operand is an array; it has the
dimensions of the array operand, two array operands must have equal dimensions. -/
def buildBinary (s : St α) (op : BOp) (l r : Expr α) : Option (Expr α) :=
  if l.isConstant && r.isConstant then do
    let x ← constVal s l
    let y ← constVal s r
    if l.shape.isScl then
      some (.const r.shape fun k => op.fmap r.shape.isScl (x 0) (y k))
    else if r.shape.isScl then
      some (.const l.shape fun k => op.fmap false (x k) (y 0))
    else if l.shape = r.shape then
      some (.const l.shape fun k => op.fmap false (x k) (y k))
    else none
  else some (.mkBinary op l r)

/-- `ad::pow<n>`, pow.hpp:205-231 -/
def buildPow (s : St α) (n : Int) (e : Expr α) : Option (Expr α) :=
  if e.isConstant then do
    let x ← constVal s e
    some (.const e.shape fun k => if e.shape.isScl then powFunc n (x k) else arrayPow n (x k))
  else some (.mkPow n e)

/-- `ad::sum(x)`, sum.hpp:243-261 -/
def buildSum (s : St α) (e : Expr α) : Option (Expr α) :=
  if e.isConstant then
    if e.shape.isScl then some e
    else do
      let x ← constVal s e
      some (.const .scl fun _ => sumN e.size x)
  else some (.mkReduce .sum (.cons e .nil))

/-- `ad::prod(x)`, prod.hpp:288-306 -/
def buildProd (s : St α) (e : Expr α) : Option (Expr α) :=
  if e.isConstant then
    if e.shape.isScl then some e
    else do
      let x ← constVal s e
      some (.const .scl fun _ => prodN e.size x)
  else some (.mkProdElem e)

/-- `ad::norm(x)`, norm.hpp:87-106 -/
def buildNorm (s : St α) (e : Expr α) : Option (Expr α) :=
  if e.isConstant then do
    let x ← constVal s e
    some (.const .scl fun _ => sumN e.size fun k => x k * x k)
  else some (.mkReduce .norm (.cons e .nil))

/-- `ad::det<Decomp>(x)`, det.hpp:211-231: for a constant the policy is ignored -/
def buildDet (s : St α) (d : Decomp) (e : Expr α) : Option (Expr α) :=
  if e.isConstant then do
    let x ← constVal s e
    some (.const .scl fun _ => LinAlg.det e.shape.rows x)
  else some (.mkReduce (.det d) (.cons e .nil))

/-- `ad::log_det<Decomp>(x)`, log_det.hpp:211-231: for a constant the policy is ignored -/
def buildLogDet (s : St α) (d : Decomp) (e : Expr α) : Option (Expr α) :=
  if e.isConstant then do
    let x ← constVal s e
    some (.const .scl fun _ => Fn.log (Fn.abs (LinAlg.det e.shape.rows x)))
  else some (.mkReduce (.logDet d) (.cons e .nil))

/-- `ad::transpose(x)`, transpose.hpp:64-79.  The branch for constants assigns a transposed array to a scalar
(`constant_var_t<value_t, ad::scl>`) and does not compile, so it has no behaviour: `none`. -/
def buildTranspose (_s : St α) (e : Expr α) : Option (Expr α) :=
  if e.isConstant then none else some (.mkTranspose e)

/-- `ad::dot(x, y)`, dot.hpp:133-163; Eigen's product needs matching inner dimensions -/
def buildDot (s : St α) (l r : Expr α) : Option (Expr α) :=
  if l.isConstant && r.isConstant then do
    let x ← constVal s l
    let y ← constVal s r
    if l.shape.cols = r.shape.rows then
      some (.const (.ofDims r.shape.kind l.shape.rows r.shape.cols) (matMul l.shape.rows l.shape.cols x y))
    else none
  else some (.mkDot l r)

/-- `ad::if_else(c, x, y)`, if_else.hpp:119-163 -/
def buildIfElse (s : St α) (c a b : Expr α) : Option (Expr α) :=
  if c.isConstant && a.isConstant && b.isConstant then do
    let z ← constVal s c
    let x ← constVal s a
    let y ← constVal s b
    if sameDims a.shape b.shape then
      some (.const a.shape (if toBool (z 0) then x else y))
    else none
  else some (.mkIfElse c a b)

/-- the loop of sum.hpp:228-230 and prod.hpp:271-275 after the first element: `acc = acc ∘ f(x).feval()` -/
def foldConst (s : St α) (f : α → α → α) (sh : Shape) (acc : Nat → α) : Exprs α → Option (Nat → α)
  | .nil => some acc
  | .cons e es =>
      if sameDims e.shape sh then do
        let x ← constVal s e
        foldConst s f sh (fun k => f (acc k) (x k)) es
      else none

/-- constant branch of `ad::sum/prod(begin, end, f)`: `ad::constant(var_t(0))` for an empty range, which is the scalar 0 or the empty vector
(for matrices `var_t(0)` does not compile), sum.hpp:225-231 and prod.hpp:268-276 -/
def foldRange (s : St α) (f : α → α → α) (k : Kind) : Exprs α → Option (Expr α)
  | .nil => if k = .mat then none else some (.const (.ofDims k 0 0) fun _ => 0)
  | .cons e es =>
      if k = .mat then none else do
        let x ← constVal s e
        let y ← foldConst s f e.shape x es
        some (.const e.shape y)

/-- `ad::sum(begin, end, f)`, sum.hpp:216-241 -/
def buildSumRange (s : St α) (k : Kind) (cst : Bool) (es : Exprs α) : Option (Expr α) :=
  if cst then foldRange s (· + ·) k es else some (.mkSumIter k es)

/-- `ad::prod(begin, end, f)`, prod.hpp:259-286 -/
def buildProdRange (s : St α) (k : Kind) (cst : Bool) (es : Exprs α) : Option (Expr α) :=
  if cst then foldRange s (· * ·) k es else some (.mkProdIter k es)

mutual
/-- the node (or constant) that a source expression really produces when it is executed in memory state `s` -/
def Src.build (s : St α) : Src α → Option (Expr α)
  | .var v => some (.var v)
  | .const sh c => some (.const sh c)
  | .cview sh p => some (.cview sh p)
  | .unary op e => do let e ← e.build s; buildUnary s op e
  | .binary op l r => do let l ← l.build s; let r ← r.build s; buildBinary s op l r
  | .pow n e => do let e ← e.build s; buildPow s n e
  | .sum e => do let e ← e.build s; buildSum s e
  | .prod e => do let e ← e.build s; buildProd s e
  | .norm e => do let e ← e.build s; buildNorm s e
  | .det d e => do let e ← e.build s; buildDet s d e
  | .logDet d e => do let e ← e.build s; buildLogDet s d e
  | .transpose e => do let e ← e.build s; buildTranspose s e
  | .dot l r => do let l ← l.build s; let r ← r.build s; buildDot s l r
  | .ifElse c a b => do let c ← c.build s; let a ← a.build s; let b ← b.build s; buildIfElse s c a b
  | .sumRange k cst es => do let es ← es.builds s; buildSumRange s k cst es
  | .prodRange k cst es => do let es ← es.builds s; buildProdRange s k cst es
/-- the same for the elements of a range -/
def Srcs.builds (s : St α) : Srcs α → Option (Exprs α)
  | .nil => some .nil
  | .cons e es => do let e ← e.build s; let es ← es.builds s; some (.cons e es)
end

end FastAD
