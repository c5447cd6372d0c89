import Verif.Model.Api

/-!
# Sequences of API calls

A session is what a user program does: it binds expressions, evaluates and differentiates the bound objects in any order and
any number of times, and in between assigns variables, data buffers and adjoints directly
(`x.get() = ...`, `x.get_adj() = ...`, `reset_adj()`).
-/

namespace FastAD

/-- an `ExprBind` object: the expression it was created from, the bound copy it holds, and where its caches are -/
structure BoundObj (α : Type) where
  src : Expr α
  bound : Expr α
  qv : Nat
  qa : Nat

/-- program state: memory and the living `ExprBind` objects -/
structure Session (α : Type) where
  st : St α
  objs : List (BoundObj α)

/-- one step of the user program -/
inductive Call (α : Type)
  /-- `auto o = ad::bind(e)`, bind.hpp:45-49 -/
  | bind (e : Expr α) (qv qa : Nat) (jv ja : Nat → α)
  /-- `ad::evaluate(o_i)`, eval.hpp:24-34 -/
  | evaluate (i : Nat)
  /-- `ad::autodiff(o_i, seed)`, eval.hpp:115-155 -/
  | autodiff (i : Nat) (seed : Nat → α)
  /-- `ad::evaluate_adj(o_i, seed)`, eval.hpp:43-73 -/
  | evaluateAdj (i : Nat) (seed : Nat → α)
  /-- assignment to an element of a variable or of a viewed data buffer -/
  | setVal (a : Nat) (x : α)
  /-- assignment to an adjoint element, for instance by `reset_adj`, value_adj_view.hpp:58 -/
  | setAdj (a : Nat) (x : α)

variable {α : Type} [Zero α] [One α] [Add α] [Sub α] [Neg α] [Mul α] [Div α] [NatCast α] [IntCast α]
variable [Fn α] [HasInf α] [LinAlg α]

/-- effect of one call; `none` is undefined behaviour -/
def Session.step (w : Session α) : Call α → Option (Session α)
  | .bind e qv qa jv ja =>
      let (b, s) := bindExpr e qv qa jv ja w.st
      some ⟨s, w.objs ++ [⟨e, b, qv, qa⟩]⟩
  | .evaluate i => do
      let o ← w.objs[i]?
      let (s, _) ← FastAD.evaluate o.bound w.st
      some ⟨s, w.objs⟩
  | .autodiff i seed => do
      let o ← w.objs[i]?
      let (s, _) ← FastAD.autodiff o.bound seed w.st
      some ⟨s, w.objs⟩
  | .evaluateAdj i seed => do
      let o ← w.objs[i]?
      let s ← FastAD.evaluateAdj o.bound seed w.st
      some ⟨s, w.objs⟩
  | .setVal a x => do
      let s ← w.st.writeV (some a) 1 (fun _ => x)
      some ⟨s, w.objs⟩
  | .setAdj a x => do
      let s ← w.st.writeA (some a) 1 (fun _ => x)
      some ⟨s, w.objs⟩

/-- a whole sequence of calls -/
def Session.run (w : Session α) : List (Call α) → Option (Session α)
  | [] => some w
  | c :: cs => do
      let w ← w.step c
      w.run cs

end FastAD
