import Verif.Spec.Program
import Verif.Model.Api

/-!
# Storage supplied by the user

README.md "Basic Usage": instead of calling `ad::bind` the user may allocate the two buffers and call `bind_cache` on the expression.
-/

namespace FastAD

variable {α : Type}

/-- The buffers at `b` have room for the caches of `p` and do not contain any of the cells `UV`, `UA` of the user's variables. -/
structure Expr.Room (p : Expr α) (b : Pack) (UV UA : Set ℕ) (vok aok : ℕ → Bool) : Prop where
  val : accessible vok b.val p.bindSize.val
  adj : accessible aok b.adj p.bindSize.adj
  offV : ∀ k < p.bindSize.val, addr b.val + k ∉ UV
  offA : ∀ k < p.bindSize.adj, addr b.adj + k ∉ UA

/-- All variables and constant views of the program are in the cells `UV`, `UA`, and they are alive. -/
structure Expr.Within (p : Expr α) (UV UA : Set ℕ) (vok aok : ℕ → Bool) : Prop where
  alive : p.Alive vok aok
  val : ∀ a ∈ p.valCells ∪ p.constCells, a ∈ UV
  adj : ∀ a ∈ p.adjCells, a ∈ UA

variable [Zero α] [One α] [Add α] [Sub α] [Neg α] [Mul α] [Div α] [NatCast α] [IntCast α]
variable [Fn α] [HasInf α] [LinAlg α]

/-- The user differentiates bound expressions one after the other, each with its seed, and writes down the value returned by each call. -/
def differentiateAll : List (Expr α × (ℕ → α)) → St α → Option (List (ℕ → α) × St α)
  | [], s => some ([], s)
  | (e, seed) :: js, s => do
      let (s, r) ← autodiff e seed s
      let x ← r.read s e.size
      let (xs, s) ← differentiateAll js s
      some (x :: xs, s)

end FastAD
