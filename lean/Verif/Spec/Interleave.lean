import Verif.Spec.Storage

/-!
# Calls on several bound programs, in any order
-/

namespace FastAD

variable {α : Type} [Zero α] [One α] [Add α] [Sub α] [Neg α] [Mul α] [Div α] [NatCast α] [IntCast α]
variable [Fn α] [HasInf α] [LinAlg α]

/-- the calls a user can make on a bound expression -/
inductive Act (α : Type) where
  | evaluate
  | evaluateAdj (seed : ℕ → α)
  | autodiff (seed : ℕ → α)

/-- A call, after which the user reads the value it returned (`evaluate_adj` returns nothing). -/
def Act.run (e : Expr α) : Act α → St α → Option (St α × Option (ℕ → α))
  | .evaluate, s => do
      let (s, r) ← FastAD.evaluate e s
      let x ← r.read s e.size
      some (s, some x)
  | .evaluateAdj seed, s => do
      let s ← FastAD.evaluateAdj e seed s
      some (s, none)
  | .autodiff seed, s => do
      let (s, r) ← FastAD.autodiff e seed s
      let x ← r.read s e.size
      some (s, some x)

/-- Calls on the expressions `b i`, one after the other; what they returned is written down together with the name `i` of the expression. -/
def runActs {ι : Type} (b : ι → Expr α) : List (ι × Act α) → St α → Option (St α × List (ι × Option (ℕ → α)))
  | [], s => some (s, [])
  | (i, c) :: cs, s => do
      let (s, x) ← c.run (b i) s
      let (s, xs) ← runActs b cs s
      some (s, (i, x) :: xs)

/-- the entries of program `i` -/
def only {ι β : Type} [DecidableEq ι] (i : ι) (l : List (ι × β)) : List (ι × β) := l.filter fun x => x.1 = i

omit [Zero α] [One α] [Add α] [Sub α] [Neg α] [Mul α] [Div α] [NatCast α] [IntCast α] [Fn α] [HasInf α] [LinAlg α] in
/-- Programs `p i` with their buffers `b i` do not get into each other's way: the buffers do not overlap, no program assigns a variable another one mentions, and no two programs mention variables
with the same adjoint.  (They may read the same values.) -/
structure Separate {ι : Type} (p : ι → Expr α) (b : ι → Pack) : Prop where
  bufV : ∀ i j, i ≠ j → ∀ k < (p i).bindSize.val, ∀ l < (p j).bindSize.val, addr (b i).val + k ≠ addr (b j).val + l
  bufA : ∀ i j, i ≠ j → ∀ k < (p i).bindSize.adj, ∀ l < (p j).bindSize.adj, addr (b i).adj + k ≠ addr (b j).adj + l
  assigned : ∀ i j, i ≠ j → ∀ a ∈ (p i).targetCells, a ∉ (p j).valCells ∪ (p j).constCells
  adjoint : ∀ i j, i ≠ j → ∀ a ∈ (p i).adjCells, a ∉ (p j).adjCells

end FastAD
