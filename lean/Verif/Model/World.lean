import Verif.Model.Var
import Verif.Model.Session

/-!
# Programs with variables, views and bound expressions

A user program creates, copies, moves and destroys variables (`Model/Var`), makes views of them, builds expressions from the views, binds them, and evaluates and
differentiates the bound objects later, when the variables may have been moved, overwritten or destroyed.  An expression holds copies of the views it was built from
(util/value.hpp `convert_to_ad_t`, reverse/core/var_view.hpp:36-203: a view is a pair of pointers), so binding refers to views by the names they have in `Model/Var`.
-/

namespace FastAD

/-- variables, views and memory; and the living `ExprBind` objects (bind.hpp:18-41) by name -/
structure World (α : Type) where
  vars : Vars α
  objs : Nat → Option (BoundObj α)

/-- one step of the user program -/
inductive WorldAct (α : Type)
  /-- something is done to variables or views, see `VarStep` -/
  | var (c : VarStep α)
  /-- `auto n = ad::bind(e)`, bind.hpp:45-49; `L` lists the views that `e` was built from with their names (no effect at run time) -/
  | bind (n : Nat) (e : Expr α) (L : List (Nat × View)) (qv qa : Nat) (jv ja : Nat → α)
  /-- `ad::evaluate(n)`, eval.hpp:24-34 -/
  | evaluate (n : Nat)
  /-- `ad::autodiff(n, seed)`, eval.hpp:115-155 -/
  | autodiff (n : Nat) (seed : Nat → α)
  /-- `ad::evaluate_adj(n, seed)`, eval.hpp:43-73 -/
  | evaluateAdj (n : Nat) (seed : Nat → α)
  /-- `auto n = std::move(m)` (implicit, bind.hpp:18-41), where `m` is not used any more: the expression is copied with its pointers and the caches are taken over.  The object
  that is left owns nothing, its destruction does nothing and is left out. -/
  | moveObj (n m : Nat)
  /-- end of the life of the `ExprBind` object `n` -/
  | drop (n : Nat)

variable {α : Type}

/-- the same variables and views, in memory `s` -/
def Vars.withSt (w : Vars α) (s : St α) : Vars α :=
  { w with v := { w.v with cell := s.val, ok := s.vok }, a := { w.a with cell := s.adj, ok := s.aok } }

variable [Zero α] [One α] [Add α] [Sub α] [Neg α] [Mul α] [Div α] [NatCast α] [IntCast α]
variable [Fn α] [HasInf α] [LinAlg α]

/-- Effect of a step, and what it returns (the elements of the value; nothing for most steps).  `none` is undefined behaviour, a failed assertion or the use of an object
that does not exist. -/
def World.step (w : World α) : WorldAct α → Option (World α × Option (Nat → α))
  | .var c => do
      let v ← w.vars.step c
      some (⟨v, w.objs⟩, none)
  | .bind n e _ qv qa jv ja =>
      let (b, s) := bindExpr e qv qa jv ja w.vars.st
      some (⟨w.vars.withSt s, put w.objs n (some ⟨e, b, qv, qa⟩)⟩, none)
  | .evaluate n => do
      let o ← w.objs n
      let (s, r) ← FastAD.evaluate o.bound w.vars.st
      let x ← r.read s o.bound.size
      some (⟨w.vars.withSt s, w.objs⟩, some x)
  | .autodiff n seed => do
      let o ← w.objs n
      let (s, r) ← FastAD.autodiff o.bound seed w.vars.st
      let x ← r.read s o.bound.size
      some (⟨w.vars.withSt s, w.objs⟩, some x)
  | .evaluateAdj n seed => do
      let o ← w.objs n
      let s ← FastAD.evaluateAdj o.bound seed w.vars.st
      some (⟨w.vars.withSt s, w.objs⟩, none)
  | .moveObj n m => do
      let o ← w.objs m
      some (⟨w.vars, put (put w.objs m none) n (some o)⟩, none)
  | .drop n => do
      let o ← w.objs n
      let s ← w.vars.st.free o.src.bindSize o.qv o.qa
      some (⟨w.vars.withSt s, put w.objs n none⟩, none)

/-- a sequence of steps, with everything that was returned -/
def World.run (w : World α) : List (WorldAct α) → Option (World α × List (Nat → α))
  | [] => some (w, [])
  | c :: cs => do
      let (w, x) ← w.step c
      let (w, xs) ← w.run cs
      some (w, x.toList ++ xs)

end FastAD
