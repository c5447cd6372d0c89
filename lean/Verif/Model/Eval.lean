import Verif.Model.Stat

/-!
# Forward and backward evaluation
-/

namespace FastAD

variable {α : Type} [Zero α] [One α] [Add α] [Sub α] [Neg α] [Mul α] [Div α] [NatCast α] [IntCast α]
variable [Fn α] [HasInf α] [LinAlg α]

/-- `expr_.get()` of operand `e` (read back during beval) -/
def Expr.readBack (e : Expr α) (b : Bool) (s : St α) : Option (Nat → α) :=
  readIf (b || e.shape.isScl) e.getRef s e.size

/-- do two array shapes have equal dimensions? -/
def sameDims (a b : Shape) : Prop := a.rows = b.rows ∧ a.cols = b.cols
instance (a b : Shape) : Decidable (sameDims a b) := by unfold sameDims; infer_instance

/-- Eigen's requirement for assigning a binary coefficient-wise expression to `w`: every array operand has `w`'s dimensions. -/
def binDimsOk (l r w : Shape) : Prop :=
  (l.isScl = true ∨ sameDims l w) ∧ (r.isScl = true ∨ sameDims r w) ∧
    (w.isScl = true ↔ l.isScl = true ∧ r.isScl = true)
instance (l r w : Shape) : Decidable (binDimsOk l r w) := by unfold binDimsOk; infer_instance

/-- does `bmap` of the functor read the operand value `x`? unary.hpp:191-285 -/
def UOp.usesX : UOp → Bool
  | .neg | .exp | .sqrt | .tanh => false
  | _ => true

/-- does `bmap` of the functor read the result `f`? unary.hpp:191-285 -/
def UOp.usesF : UOp → Bool
  | .exp | .sqrt | .tanh => true
  | _ => false

/-- do `blmap`/`brmap` read the left operand? binary.hpp:266-338 -/
def BOp.usesL : BOp → Bool
  | .mul => true
  | _ => false

/-- do `blmap`/`brmap` read the right operand? binary.hpp:266-338 -/
def BOp.usesR : BOp → Bool
  | .mul | .div => true
  | _ => false

/-- does `brmap` read the result? binary.hpp:330-336 -/
def BOp.usesF : BOp → Bool
  | .div => true
  | _ => false

/-- seed for one operand of a binary functor: coefficient-wise, but summed when the operand is a scalar and
the result is an array (`seed.sum()`, binary.hpp:272-336; eq.hpp:320-410) -/
def collapse (operand result : Shape) (n : Nat) (f : Nat → α) : Nat → α :=
  if operand.isScl && !result.isScl then fun _ => sumN n f else f

/-- scalar operands broadcast inside coefficient-wise array expressions -/
def bcast (sh : Shape) (f : Nat → α) : Nat → α := fun k => f (sh.bidx k)

/-- `res.transpose()` / `get_adj().transpose()`: coefficient `k` of an `r`×`c` matrix (column-major) whose
transpose (`c`×`r`) is `f`. -/
def transposed (r c : Nat) (f : Nat → α) : Nat → α := fun k => f (k / r + (k % r) * c)

/-- coefficient of a matrix product, `lhs` is `m`×`p`, `rhs` is `p`×`n` (column-major) -/
def matMul (m p : Nat) (l r : Nat → α) : Nat → α :=
  fun k => sumN p (fun q => l (k % m + q * m) * r (q + (k / m) * p))

/-- `lhs_.get().transpose() * adj`, dot.hpp:101: a `p`×`n` matrix -/
def dotRSeed (m p : Nat) (l g : Nat → α) : Nat → α :=
  fun k => sumN m (fun i => l (i + (k % p) * m) * g (i + (k / p) * m))

/-- `adj * rhs_.get().transpose()`, dot.hpp:100: an `m`×`p` matrix -/
def dotLSeed (m p n : Nat) (r g : Nat → α) : Nat → α :=
  fun k => sumN n (fun j => g (k % m + j * m) * r (k / m + j * p))

/-- the inner loops of `ProdElemNode::beval` for a zero coefficient, prod.hpp:199-206: multiply the seed by all other
coefficients -/
def mulOthers (j : Nat) (x : Nat → α) (seed : α) : Nat → α
  | 0 => seed
  | n + 1 => if n = j then mulOthers j x seed n else mulOthers j x seed n * x n

/-- `adj_cache_` of `ProdElemNode::beval`, prod.hpp:191-212 -/
def prodElemSeed (n : Nat) (x : Nat → α) (f seed : α) (j : Nat) : α :=
  if Fn.beq (x j) 0 then mulOthers j x seed n else seed * (f / x j)

/-- coefficient of Eigen's `.array().pow(exp)`, pow.hpp:97; `pow(0, exp)` with negative `exp` is a pole -/
def arrayPow (n : Int) (x : α) : α :=
  if n < 0 ∧ Fn.beq x 0 = true then HasInf.inf else Fn.ipow x n

/-- value, i.e. what `feval` assigns, of the reduction nodes; `n` is the number of coefficients of the operand, `d` its
number of rows.
* `sum`: sum.hpp:156-164; * `norm`: norm.hpp:48-52 (`squaredNorm`)
* `det`: det.hpp:106-111 (FullPivLU), 137-143 (LDLT), 176-182 (LLT)
* `logDet`: log_det.hpp:106-113, 137-147, 178-184 -/
def RedOp.fmap1 : RedOp → (d n : Nat) → (Nat → α) → α
  | .sum, _, n, x => sumN n x
  | .norm, _, n, x => sumN n (fun k => x k * x k)
  | .det .lu, d, _, x => LinAlg.det d x
  | .det .ldlt, d, _, x => LinAlg.symDet d x
  | .det .llt, d, _, x => LinAlg.lltDetL d x * LinAlg.lltDetL d x
  | .logDet .lu, d, _, x => Fn.log (Fn.abs (LinAlg.det d x))
  | .logDet .ldlt, d, _, x => Fn.log (Fn.abs (LinAlg.symDet d x))
  | .logDet .llt, d, _, x => (1 + 1) * Fn.log (Fn.abs (LinAlg.lltDetL d x))
  | .stat _ _, _, _, _ => 0                              -- log-densities have at least two operands

/-- `valid()` of the decompositions, det.hpp:113-121, 145-160, 184-200 and log_det.hpp (same lines).
For `log_det` with LDLT the C++ test is `isfinite(log_det)`; for a real argument it fails exactly if the determinant is
zero. -/
def RedOp.valid : RedOp → (d : Nat) → (Nat → α) → Bool
  | .det .lu, d, x => LinAlg.invertible d x
  | .det .ldlt, d, x => !(Fn.beq (LinAlg.symDet d x) 0) && LinAlg.ldltOk d x
  | .det .llt, d, x => LinAlg.lltOk d x
  | .logDet .lu, d, x => LinAlg.invertible d x
  | .logDet .ldlt, d, x => !(Fn.beq (LinAlg.symDet d x) 0) && LinAlg.ldltOk d x
  | .logDet .llt, d, x => LinAlg.lltOk d x
  | _, _, _ => true

/-- the cached "inverse transposed" of the decompositions: `inverse().transpose()` for FullPivLU (det.hpp:117), the plain
`solve(Identity)` for LDLT and LLT (det.hpp:156, 196) -/
def invT : Decomp → (d : Nat) → (Nat → α) → Nat → α
  | .lu, d, x => transposed d d (LinAlg.inv d x)
  | .ldlt, d, x => LinAlg.symInv d x
  | .llt, d, x => LinAlg.symInv d x

/-- seed handed to the operand by `beval(seed)` of the reduction nodes; `none` when `beval` returns without calling the operand.
* `sum`: sum.hpp:170-173; * `norm`: norm.hpp:54-58; * `det`: det.hpp:58-63; * `logDet`: log_det.hpp:58-63.
`f` is the cached value of the node.  The decompositions cache the inverse during `feval`; the model recomputes it from
the operand's current value. -/
def RedOp.bmap1 : RedOp → (d : Nat) → (seed : α) → (x : Nat → α) → (f : α) → Option (Nat → α)
  | .sum, _, seed, _, _ => some (fun _ => seed)
  | .norm, _, seed, x, _ => some (fun k => seed * (1 + 1) * x k)
  | .det p, d, seed, x, f =>
      if Fn.beq seed 0 || !((RedOp.det p).valid d x) then none
      else some (fun k => (seed * f) * invT p d x k)
  | .logDet p, d, seed, x, _ =>
      if Fn.beq seed 0 || !((RedOp.logDet p).valid d x) then none
      else some (fun k => seed * invT p d x k)
  | .stat _ _, _, _, _, _ => none                        -- log-densities have at least two operands

/-- does `beval` of the reduction read the operand's value? (`sum` only forwards its seed) -/
def RedOp.usesX : RedOp → Bool
  | .sum => false
  | _ => true

/-- value of a reduction over its operand list -/
def RedOp.fmap (op : RedOp) (args : List (Shape × (Nat → α))) : Option α :=
  match args with
  | [(sh, x)] => some (op.fmap1 sh.rows sh.size x)
  | args =>
    match op with
    | .stat o k => o.fmap k args
    | _ => none

/-- seeds of a reduction for its operand list -/
def RedOp.bmap (op : RedOp) (seed : α) (args : List (Shape × (Nat → α))) (f : α) (i : Nat) : Option (Nat → α) :=
  match args with
  | [(sh, x)] => if i = 0 then op.bmap1 sh.rows seed x f else none
  | args =>
    match op with
    | .stat o k => o.bmap k seed args i
    | _ => none

/-- read a list of references -/
def readAll (s : St α) : List (Ref α × Shape) → Option (List (Shape × (Nat → α)))
  | [] => some []
  | (r, sh) :: rs => do
      let x ← r.read s sh.size
      let xs ← readAll s rs
      some ((sh, x) :: xs)

/-- `get()` of every operand -/
def Exprs.getRefs : Exprs α → List (Ref α × Shape)
  | .nil => []
  | .cons e es => (e.getRef, e.shape) :: es.getRefs

/-- read the operands of a reduction during `beval` -/
def readOperands (op : RedOp) (s : St α) : List (Ref α × Shape) → Option (List (Shape × (Nat → α)))
  | [] => some []
  | (r, sh) :: rs => do
      let x ← readIf op.usesX r s sh.size
      let xs ← readOperands op s rs
      some ((sh, x) :: xs)

/-- `vec_.back().get()` -/
def Exprs.lastRef : Exprs α → Ref α
  | .nil => .ptr none
  | .cons e .nil => e.getRef
  | .cons _ (.cons e es) => Exprs.lastRef (.cons e es)

/-- shape of `vec_.back()` -/
def Exprs.lastShape : Exprs α → Shape
  | .nil => .scl
  | .cons e .nil => e.shape
  | .cons _ (.cons e es) => Exprs.lastShape (.cons e es)

mutual
/-- `feval()` of every node. -/
def Expr.feval : Expr α → St α → Option (St α × Ref α)
  | .var v, s => some (s, .ptr v.val)                    -- var_view.hpp:69
  | .const _ c, s => some (s, .lit c)                    -- constant.hpp:100
  | .cview _ p, s => some (s, .ptr p)                    -- constant.hpp:50
  | .unary op e w, s => do                               -- unary.hpp:63-68
      let (s, r) ← e.feval s
      let x ← r.read s e.size
      let s ← s.assignV w.val w.size r e.size (fun k => op.fmap (x k))
      some (s, .ptr w.val)
  | .binary op l r w, s => do                            -- binary.hpp:100-106
      let (s, lr) ← l.feval s
      let (s, rr) ← r.feval s
      if binDimsOk l.shape r.shape w.shape then
        let x ← lr.read s l.size
        let y ← rr.read s r.size
        if noClash w.val w.size lr l.size then
          let s ← s.assignV w.val w.size rr r.size
            (fun k => op.fmap w.shape.isScl (bcast l.shape x k) (bcast r.shape y k))
          some (s, .ptr w.val)
        else none
      else none
  | .pow n e w, s => do                                  -- pow.hpp:91-99
      let (s, r) ← e.feval s
      let x ← r.read s e.size
      let s ← s.assignV w.val w.size r e.size
        (fun k => if w.shape.isScl then powFunc n (x k) else arrayPow n (x k))
      some (s, .ptr w.val)
  | .prodElem e w _, s => do                             -- prod.hpp:172-181
      let (s, r) ← e.feval s
      let x ← r.read s e.size
      let s ← s.writeV w.val w.size (fun _ => prodN e.size x)
      some (s, .ptr w.val)
  | .transpose e w, s => do                              -- transpose.hpp:36-39
      let (s, r) ← e.feval s
      let x ← r.read s e.size
      let s ← s.assignV w.val w.size r e.size (transposed w.shape.rows w.shape.cols x)
      some (s, .ptr w.val)
  | .dot l r w, s => do                                  -- dot.hpp:89-94
      let (s, lr) ← l.feval s
      let (s, rr) ← r.feval s
      let x ← lr.read s l.size
      let y ← rr.read s r.size
      let s ← s.writeV w.val w.size (matMul l.shape.rows l.shape.cols x y)
      some (s, .ptr w.val)
  | .sumIter es w, s => do                               -- sum.hpp:57-64
      let s ← s.writeV w.val w.size (fun _ => 0)
      let (s, _) ← es.fevals (fun s r sh =>
        if sameDims sh w.shape then do
          let a ← readCells s.val s.vok w.val w.size
          let x ← r.read s sh.size
          s.assignV w.val w.size r sh.size (fun k => a k + x k)
        else none) s
      some (s, .ptr w.val)
  | .prodIter es w, s => do                              -- prod.hpp:55-62
      let s ← s.writeV w.val w.size (fun _ => 1)
      let (s, _) ← es.fevals (fun s r sh =>
        if sameDims sh w.shape then do
          let a ← readCells s.val s.vok w.val w.size
          let x ← r.read s sh.size
          s.assignV w.val w.size r sh.size (fun k => a k * x k)
        else none) s
      some (s, .ptr w.val)
  | .reduce op es w, s => do                             -- sum.hpp:156-164, norm.hpp:48-52, det.hpp:53-56, normal.hpp:141-157
      let (s, rs) ← es.fevals (fun s _ _ => some s) s
      let args ← readAll s rs
      let v ← op.fmap args
      let s ← s.writeV w.val w.size (fun _ => v)
      some (s, .ptr w.val)
  | .ifElse c a b w, s => do                             -- if_else.hpp:78-82
      let (s, r) ← c.feval s
      let x ← r.read s 1
      -- `const auto&` to a conditional expression: if the branches' types differ (possible for arrays only) it refers
      -- to a temporary converted from one of them, which is destroyed on return (or does not compile)
      if w.shape.isScl = true ∨ a.retKind = b.retKind then
        if toBool (x 0) then a.feval s else b.feval s
      else none
  | .eq v e w, s => do                                   -- eq.hpp:89-92
      let (s, r) ← e.feval s
      if sameDims e.shape v.shape then
        let x ← r.read s e.size
        let s ← s.assignV v.val v.size r e.size x
        let s ← s.assignV w.val w.size (.ptr v.val) v.size x
        some (s, .ptr w.val)
      else none
  | .opEq op v e w c, s => do                            -- eq.hpp:240-247
      let x0 ← readCells s.val s.vok v.val v.size
      let s ← s.assignV c.val c.size (.ptr v.val) v.size x0
      let (s, r) ← e.feval s
      if e.shape.isScl = true ∨ sameDims e.shape v.shape then
        let x ← readCells s.val s.vok v.val v.size
        let y ← r.read s e.size
        if noClash w.val w.size (Ref.ptr v.val : Ref α) v.size then
          let s ← s.assignV w.val w.size r e.size (fun k => op.fmap (x k) (bcast e.shape y k))
          some (s, .ptr w.val)
        else none
      else none
  | .glue l r w, s => do                                 -- glue.hpp:67-71
      let (s, _) ← l.feval s
      let (s, rr) ← r.feval s
      let x ← rr.read s r.size
      let s ← s.assignV w.val w.size rr r.size x
      some (s, .ptr w.val)
  | .forEach es w, s =>                                  -- for_each.hpp:55-62
      if es.length = 0 then some (s, .ptr w.val) else do
        let (s, _) ← es.fevals (fun s _ _ => some s) s
        if sameDims es.lastShape w.shape then
          let x ← es.lastRef.read s es.lastShape.size
          let s ← s.assignV w.val w.size es.lastRef es.lastShape.size x
          some (s, .ptr w.val)
        else none
/-- evaluate expressions left to right, executing `k` with the returned reference after each -/
def Exprs.fevals : Exprs α → (St α → Ref α → Shape → Option (St α)) → St α → Option (St α × List (Ref α × Shape))
  | .nil, _, s => some (s, [])
  | .cons e es, k, s => do
      let (s, r) ← e.feval s
      let s ← k s r e.shape
      let (s, rs) ← es.fevals k s
      some (s, (r, e.shape) :: rs)
end

/-- the body of the loop of `ProdIterNode::beval` before the child is called, prod.hpp:81-103: returns the seed -/
def prodIterPre (all : List (Ref α × Shape)) (w : View) (i : Nat) (r : Ref α) (sh : Shape) (s : St α) :
    Option (St α × Option (Nat → α)) := do
  let x ← r.read s sh.size
  let g ← s.readA w.adj w.size
  if (List.range w.size).any (fun k => Fn.beq (x k) 0) then
    let xs ← readAll s all
    let s ← s.writeV w.val w.size
      (fun k => ((xs.zipIdx).foldl (fun acc p => if p.2 = i then acc else acc * p.1.2 k) 1))
    let f ← readCells s.val s.vok w.val w.size
    some (s, some (fun k => g k * f k))
  else
    let f ← readCells s.val s.vok w.val w.size
    some (s, some (fun k => g k * f k / x k))

/-- the rest of the loop body, prod.hpp:104: `a_val *= exprs_[idx].get()` (only in the recomputing branch; `zero` remembers
`no_optimize`) -/
def prodIterPost (w : View) (zero : Bool) (r : Ref α) (sh : Shape) (s : St α) : Option (St α) :=
  if zero then do
    let x ← r.read s sh.size
    let f ← readCells s.val s.vok w.val w.size
    s.writeV w.val w.size (fun k => f k * x k)
  else some s

/-- `no_optimize`, prod.hpp:87-92 -/
def prodIterZero (w : View) (r : Ref α) (sh : Shape) (s : St α) : Bool :=
  match r.read s sh.size with
  | some x => (List.range w.size).any (fun k => Fn.beq (x k) 0)
  | none => false

mutual
/-- `beval(seed)` of every node.  The seed is a coefficient function; a scalar seed is a constant
function.  Every C++ node evaluates its (possibly lazy) seed expression exactly once and before anything else, so the
seed is passed by value, computed at the moment the child's `beval` starts. -/
def Expr.beval : Expr α → (Nat → α) → St α → Option (St α)
  | .var v, seed, s => v.bevalVar seed s                 -- var_view.hpp:91-94
  | .const _ _, _, s => some s                           -- constant.hpp:103
  | .cview _ _, _, s => some s                           -- constant.hpp:56
  | .unary op e w, seed, s => do                         -- unary.hpp:82-89
      let x ← e.readBack op.usesX s
      let f ← readIf (op.usesF || w.shape.isScl) (.ptr w.val) s w.size
      let s ← s.writeA w.adj w.size seed
      let g ← s.readA w.adj w.size
      e.beval (fun k => op.bmap (g k) (x k) (f k)) s
  | .binary op l r w, seed, s =>                         -- binary.hpp:121-136
      if op.isComparison then some s else do
        let x ← l.readBack op.usesL s
        let y ← r.readBack op.usesR s
        let f ← readIf (op.usesF || w.shape.isScl) (.ptr w.val) s w.size
        let s ← s.writeA w.adj w.size seed
        let g ← s.readA w.adj w.size
        let sr := collapse r.shape w.shape w.size
          (fun k => op.br (g k) (bcast l.shape x k) (bcast r.shape y k) (f k))
        let sl := collapse l.shape w.shape w.size
          (fun k => op.bl (g k) (bcast l.shape x k) (bcast r.shape y k) (f k))
        let s ← r.beval sr s
        if l.shape.isScl then l.beval sl s
        else do                                          -- lazy array seed: evaluated after `rhs.beval`
          let x ← l.readBack op.usesL s
          let y ← r.readBack op.usesR s
          let f ← readIf (op.usesF || w.shape.isScl) (.ptr w.val) s w.size
          let g ← s.readA w.adj w.size
          l.beval (fun k => op.bl (g k) (bcast l.shape x k) (bcast r.shape y k) (f k)) s
  | .pow n e w, seed, s =>                               -- pow.hpp:101-162
      if n = 0 then e.beval (fun _ => 0) s
      else if n = 1 then e.beval seed s
      else do
        let x ← e.getRef.read s e.size
        let f ← readCells s.val s.vok w.val w.size
        let s ← s.writeA w.adj w.size seed
        let g ← s.readA w.adj w.size
        e.beval (fun k => powSeed n (g k) (f k) (x k)) s
  | .prodElem e w c, seed, s => do                       -- prod.hpp:188-217
      let x ← readIf (e.size != 0) e.getRef s e.size
      let f ← readIf (e.size != 0) (.ptr w.val) s w.size
      let s ← s.writeA c e.size (fun j => prodElemSeed e.size x (f 0) (seed 0) j)
      let g ← s.readA c e.size
      e.beval g s
  | .transpose e w, seed, s => do                        -- transpose.hpp:41-45
      let s ← s.writeA w.adj w.size seed
      let g ← s.readA w.adj w.size
      e.beval (transposed e.shape.rows e.shape.cols g) s
  | .dot l r w, seed, s => do                            -- dot.hpp:96-104
      let x ← l.getRef.read s l.size
      let s ← s.writeA w.adj w.size seed
      let g ← s.readA w.adj w.size
      let s ← r.beval (dotRSeed l.shape.rows l.shape.cols x g) s
      let y ← r.getRef.read s r.size
      let g ← s.readA w.adj w.size
      l.beval (dotLSeed l.shape.rows l.shape.cols w.shape.cols y g) s
  | .sumIter es w, seed, s =>                            -- sum.hpp:76-85
      if es.length = 0 then some s else do
        let s ← s.writeA w.adj w.size seed
        es.bevals (fun _ _ _ s => do
          let g ← s.readA w.adj w.size
          some (s, some g)) (fun _ _ _ _ s => some s) 0 s
  | .prodIter es w, seed, s =>                           -- prod.hpp:68-108
      if es.length = 0 then some s else do
        let s ← s.writeA w.adj w.size seed
        es.bevals (prodIterPre es.getRefs w)
          (fun s0 _ r sh s => prodIterPost w (prodIterZero w r sh s0) r sh s) 0 s
  | .reduce op es w, seed, s => do                       -- sum.hpp:170, norm.hpp:54, det.hpp:58, log_det.hpp:58, normal.hpp:159-173
      es.bevals (fun i _ _ s => do
        let args ← readOperands op s es.getRefs
        let f ← readCells s.val s.vok w.val w.size
        some (s, op.bmap (seed 0) args (f 0) i)) (fun _ _ _ _ s => some s) 0 s
  | .ifElse c a b _, seed, s => do                       -- if_else.hpp:85-92
      let x ← c.getRef.read s 1
      if toBool (x 0) then a.beval seed s else b.beval seed s
  | .eq v e _, seed, s => do                             -- eq.hpp:102-107
      let s ← v.bevalVar seed s
      let g ← s.readA v.adj v.size
      e.beval g s
  | .opEq op v e _ c, seed, s => do                      -- eq.hpp:250-270
      let s ← v.bevalVar seed s
      let x0 ← readCells s.val s.vok c.val c.size
      let s ← s.assignV v.val v.size (.ptr c.val) c.size x0
      let g0 ← s.readA v.adj v.size
      let s ← s.writeA c.adj c.size g0
      let s ← s.writeA v.adj v.size (fun _ => 0)
      let x ← readCells s.val s.vok v.val v.size
      let y ← e.getRef.read s e.size
      let g ← s.readA c.adj c.size
      let sr := collapse e.shape v.shape v.size (fun k => op.br (g k) (x k) (bcast e.shape y k))
      let sl : Nat → α := fun k => op.bl (g k) (x k) (bcast e.shape y k)
      let s ← e.beval sr s
      if v.shape.isScl then v.bevalVar sl s
      else do                                            -- lazy array seed: evaluated after `expr_.beval`
        let x ← readCells s.val s.vok v.val v.size
        let y ← e.getRef.read s e.size
        let g ← s.readA c.adj c.size
        v.bevalVar (fun k => op.bl (g k) (x k) (bcast e.shape y k)) s
  | .glue l r _, seed, s => do                           -- glue.hpp:82-86
      let s ← r.beval seed s
      l.beval (fun _ => 0) s
  | .forEach es _, seed, s =>                            -- for_each.hpp:70-82
      es.bevals (fun i _ _ s => some (s, some (if i + 1 = es.length then seed else fun _ => 0)))
        (fun _ _ _ _ s => some s) 0 s
/-- The reverse loops over a vector of expressions: the tail first, then this element.  For element number `i`,
`pre` gives the seed (or `none` when the child's `beval` is not called) and `post` is executed after the child (with the state before `pre` as
its first argument). -/
def Exprs.bevals : Exprs α → (Nat → Ref α → Shape → St α → Option (St α × Option (Nat → α))) →
    (St α → Nat → Ref α → Shape → St α → Option (St α)) → Nat → St α → Option (St α)
  | .nil, _, _, _, s => some s
  | .cons e es, pre, post, i, s => do
      let s0 ← es.bevals pre post (i + 1) s
      let (s, g) ← pre i e.getRef e.shape s0
      let s ← (match g with | some g => e.beval g s | none => some s)
      post s0 i e.getRef e.shape s
end

end FastAD
