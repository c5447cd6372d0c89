import Verif.Model.Session
import Verif.Spec.Leaves
import Verif.Spec.Regular
import Mathlib.Analysis.Calculus.Deriv.Basic
import Mathlib.Logic.Function.Basic

/-!
# What a sequence of API calls should do, from the user's point of view

The user sees the values of their variables (changed only by their own assignments), a list of expressions, and adjoints to
which every differentiation adds a gradient.  Caches do not occur here.
-/

namespace FastAD

variable {α : Type}

/-- what can happen to the user's adjoints: a differentiation of `e` at variable values `m` with a seed, or a direct assignment -/
inductive Event (α : Type)
  | pass (e : Expr α) (m seed : ℕ → α)
  | set (a : ℕ) (x : α)

/-- The user's view of a session: the values of their variables and buffers; the bound expressions, each with the
variable values at its most recent evaluation; and the events that affected adjoints. -/
structure User (α : Type) where
  vals : ℕ → α
  objs : List (Expr α × Option (ℕ → α))
  log : List (Event α)

/-- effect of a call on the user's view -/
def User.step (u : User α) : Call α → User α
  | .bind e _ _ _ _ => { u with objs := u.objs ++ [(e, none)] }
  | .evaluate i => { u with objs := u.objs.modify i fun o => (o.1, some u.vals) }
  | .autodiff i seed =>
      ⟨u.vals, u.objs.modify i fun o => (o.1, some u.vals),
        u.log ++ (u.objs[i]?.map fun o => Event.pass o.1 u.vals seed).toList⟩
  | .evaluateAdj i seed =>
      { u with log := u.log ++ (u.objs[i]?.bind fun o => o.2.map fun m => Event.pass o.1 m seed).toList }
  | .setVal a x => { u with vals := Function.update u.vals a x }
  | .setAdj a x => { u with log := u.log ++ [.set a x] }

/-- effect of a sequence of calls on the user's view -/
def User.run (u : User α) (cs : List (Call α)) : User α := cs.foldl User.step u

/-- What the user must respect when the memory that is theirs is `uv` (values) and `ua` (adjoints):
* bind only well-formed expressions whose variables live in their memory (and the allocator returns unused memory);
* refer to existing objects;
* call `evaluate_adj` only after an evaluation at the current values of the expression's variables and buffers;
* assign only their own memory. -/
def LegalCall (uv ua : ℕ → Bool) (u : User α) (s : St α) : Call α → Prop
  | .bind e qv qa _ _ => e.WF ∧ e.Alive uv ua ∧ Fresh s e.bindSize qv qa
  | .evaluate i => i < u.objs.length
  | .autodiff i _ => i < u.objs.length
  | .evaluateAdj i _ => ∃ e m, u.objs[i]? = some (e, some m) ∧ ∀ c ∈ e.valCells ∪ e.constCells, u.vals c = m c
  | .setVal a _ => uv a = true
  | .setAdj a _ => ua a = true

variable [Zero α] [One α] [Add α] [Sub α] [Neg α] [Mul α] [Div α] [NatCast α] [IntCast α]
variable [Fn α] [HasInf α] [LinAlg α]

/-- every call is legal at the moment it is made -/
def Legal (uv ua : ℕ → Bool) (u : User α) (w : Session α) : List (Call α) → Prop
  | [] => True
  | c :: cs => LegalCall uv ua u w.st c ∧ ∀ w', w.step c = some w' → Legal uv ua (u.step c) w' cs

/-- adjoint of cell `a` after the events, when a differentiation adds `G e m seed a` -/
def replayAdj (G : Expr α → (ℕ → α) → (ℕ → α) → ℕ → α) (a : ℕ) (x : α) : List (Event α) → α
  | [] => x
  | .pass e m seed :: es => replayAdj G a (x + G e m seed a) es
  | .set b y :: es => replayAdj G a (if a = b then y else x) es

/-- `G e m seed a` is the derivative of `∑ₖ seed k * e_k` with respect to the variable element whose adjoint is cell `a`, at
variable values `m` (for expressions whose variables have separate adjoints and are not also viewed as constants), and 0 for other cells. -/
def IsGradient [HasInf ℝ] [LinAlg ℝ] (G : Expr ℝ → (ℕ → ℝ) → (ℕ → ℝ) → ℕ → ℝ) : Prop :=
  ∀ e : Expr ℝ, e.WF → ∀ (m seed : ℕ → ℝ) (a : ℕ),
    (a ∉ e.adjCells → G e m seed a = 0) ∧
    ∀ π, e.Paired π → Set.InjOn π e.adjCells → (∀ b ∈ e.adjCells, π b ∉ e.constCells) → a ∈ e.adjCells →
      e.Reg (fun t => Function.update m (π a) t) (m (π a)) →
      HasDerivAt (fun t => ∑ k ∈ Finset.range e.size, seed k * e.denote (Function.update m (π a) t) k)
        (G e m seed a) (m (π a))

end FastAD
