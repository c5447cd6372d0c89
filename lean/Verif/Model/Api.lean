import Verif.Model.Eval

/-!
# `bind`, `evaluate`, `evaluate_adj`, `autodiff`
-/

namespace FastAD

variable {α : Type}

/-- Allocation of the two cache vectors of an `ExprBind`: `val_cache_.resize(n.val); adj_cache_.resize(n.adj)`,
bind.hpp:29-31.  The allocator returns the addresses `qv`, `qa`; the memory is not initialised (`jv`, `ja` are whatever it
contains). -/
def St.allocate (s : St α) (n : SizePack) (qv qa : Nat) (jv ja : Nat → α) : St α where
  val := fillRange s.val qv n.val jv
  adj := fillRange s.adj qa n.adj ja
  vok := fun a => s.vok a || (decide (qv ≤ a) && decide (a < qv + n.val))
  aok := fun a => s.aok a || (decide (qa ≤ a) && decide (a < qa + n.adj))

/-- Contract of the allocator: the blocks it returns were not allocated before. -/
def Fresh (s : St α) (n : SizePack) (qv qa : Nat) : Prop :=
  (∀ k < n.val, s.vok (qv + k) = false) ∧ ∀ k < n.adj, s.aok (qa + k) = false

/-- `data()` of a vector with `n` elements stored at `q` (null for an empty vector) -/
def vecData (q n : Nat) : Option Nat := if n = 0 then none else some q

/-- The constructor of `ExprBind` (bind.hpp:24-33), called by `ad::bind` (bind.hpp:45-49): copies the expression, allocates its caches and
binds it. -/
def bindExpr (e : Expr α) (qv qa : Nat) (jv ja : Nat → α) (s : St α) : Expr α × St α :=
  ((e.bind ⟨vecData qv e.bindSize.val, vecData qa e.bindSize.adj⟩).1, s.allocate e.bindSize qv qa jv ja)

/-- Destruction of an `ExprBind` whose caches of `n` cells are stored at `qv`, `qa` (the members `val_cache_`, `adj_cache_`, bind.hpp:38-40, free
their memory). -/
def St.release (s : St α) (n : SizePack) (qv qa : Nat) : St α :=
  { s with
    vok := fun a => s.vok a && !(decide (qv ≤ a) && decide (a < qv + n.val)),
    aok := fun a => s.aok a && !(decide (qa ≤ a) && decide (a < qa + n.adj)) }

/-- the same; `none`: undefined behaviour, memory that is not allocated (any more) is freed -/
def St.free (s : St α) (n : SizePack) (qv qa : Nat) : Option (St α) :=
  if accessible s.vok (some qv) n.val ∧ accessible s.aok (some qa) n.adj then some (s.release n qv qa) else none

variable [Zero α] [One α] [Add α] [Sub α] [Neg α] [Mul α] [Div α] [NatCast α] [IntCast α]
variable [Fn α] [HasInf α] [LinAlg α]

/-- `ad::evaluate`, eval.hpp:18-34.  The return type is `auto`, hence a copy of what `feval()` refers to: of the number for a scalar, of the
matrix for a `Constant`, but of the `Eigen::Map` (which still refers to the cache or the variable) for other array expressions. -/
def evaluate (e : Expr α) (s : St α) : Option (St α × Ref α) := do
  let (s, r) ← e.feval s
  if e.shape.isScl then
    let x ← r.read s 1
    some (s, .lit x)
  else some (s, r)

/-- `ad::evaluate_adj`, eval.hpp:43-73. -/
def evaluateAdj (e : Expr α) (seed : Nat → α) (s : St α) : Option (St α) := e.beval seed s

/-- `ad::autodiff`, eval.hpp:82-155. -/
def autodiff (e : Expr α) (seed : Nat → α) (s : St α) : Option (St α × Ref α) := do
  let (s, t) ← evaluate e s
  let s ← evaluateAdj e seed s
  some (s, t)

end FastAD
