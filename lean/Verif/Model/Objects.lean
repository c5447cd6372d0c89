import Verif.Model.Api

/-!
# Lifetimes of `ExprBind` objects

An `ExprBind` (bind.hpp:18-41) has three members: the bound expression, whose nodes hold raw pointers, and the two cache vectors.  Copy and move
construction and destruction are the implicit ones: they treat the three members separately and bind nothing anew.

Eigen's documented behaviour of dynamic vectors is assumed: copying allocates and copies the elements; move construction takes the buffer over and
leaves an empty vector.  Objects have names (numbers) instead of addresses.  For assignment between `ExprBind` objects see `Model/Assign`.
-/

namespace FastAD

/-- An `ExprBind` object, bind.hpp:38-40: the bound expression (`none` after it was moved from: the expressions inside constants and ranges are
then unspecified), and its two cache vectors: `n` elements, at `qv` and `qa`. -/
structure ExprObj (α : Type) where
  expr : Option (Expr α)
  qv : Nat
  qa : Nat
  n : SizePack

/-- memory and the existing objects -/
structure Objects (α : Type) where
  st : St α
  obj : Nat → Option (ExprObj α)

/-- one step of the user program -/
inductive ObjCall (α : Type)
  /-- `auto i = ad::bind(e)`, bind.hpp:45-49 -/
  | bind (i : Nat) (e : Expr α) (qv qa : Nat) (jv ja : Nat → α)
  /-- `auto i = j` -/
  | copy (i j qv qa : Nat)
  /-- `auto i = std::move(j)` -/
  | move (i j : Nat)
  /-- end of the life of `i` -/
  | destroy (i : Nat)
  /-- `ad::evaluate(i)`, eval.hpp:24-34 -/
  | evaluate (i : Nat)
  /-- `ad::autodiff(i, seed)`, eval.hpp:115-155 -/
  | autodiff (i : Nat) (seed : Nat → α)
  /-- `ad::evaluate_adj(i, seed)`, eval.hpp:43-73 -/
  | evaluateAdj (i : Nat) (seed : Nat → α)
  /-- assignment to an element of a variable or of a viewed data buffer -/
  | setVal (a : Nat) (x : α)
  /-- assignment to an adjoint element -/
  | setAdj (a : Nat) (x : α)

/-- replace one entry -/
def setAt {β : Type} (f : Nat → β) (i : Nat) (x : β) : Nat → β := fun j => if j = i then x else f j

variable {α : Type} [Zero α] [One α] [Add α] [Sub α] [Neg α] [Mul α] [Div α] [NatCast α] [IntCast α]
variable [Fn α] [HasInf α] [LinAlg α]

/-- effect of a step; `none` is undefined behaviour or a use of an object that does not exist or was moved from -/
def Objects.step (w : Objects α) : ObjCall α → Option (Objects α)
  | .bind i e qv qa jv ja =>
      let (b, s) := bindExpr e qv qa jv ja w.st
      some ⟨s, setAt w.obj i (some ⟨some b, qv, qa, e.bindSize⟩)⟩
  | .copy i j qv qa => do
      -- the expression with its pointers is copied; so are the elements of the two vectors
      let x ← w.obj j
      let b ← x.expr
      let s := w.st.allocate x.n qv qa (fun k => w.st.val (x.qv + k)) (fun k => w.st.adj (x.qa + k))
      some ⟨s, setAt w.obj i (some ⟨some b, qv, qa, x.n⟩)⟩
  | .move i j => do
      let x ← w.obj j
      let b ← x.expr
      some ⟨w.st, setAt (setAt w.obj j (some ⟨none, 0, 0, ⟨0, 0⟩⟩)) i (some ⟨some b, x.qv, x.qa, x.n⟩)⟩
  | .destroy i => do
      let x ← w.obj i
      let s ← w.st.free x.n x.qv x.qa
      some ⟨s, setAt w.obj i none⟩
  | .evaluate i => do
      let x ← w.obj i
      let b ← x.expr
      let (s, _) ← FastAD.evaluate b w.st
      some { w with st := s }
  | .autodiff i seed => do
      let x ← w.obj i
      let b ← x.expr
      let (s, _) ← FastAD.autodiff b seed w.st
      some { w with st := s }
  | .evaluateAdj i seed => do
      let x ← w.obj i
      let b ← x.expr
      let s ← FastAD.evaluateAdj b seed w.st
      some { w with st := s }
  | .setVal a x => do
      let s ← w.st.writeV (some a) 1 (fun _ => x)
      some { w with st := s }
  | .setAdj a x => do
      let s ← w.st.writeA (some a) 1 (fun _ => x)
      some { w with st := s }

/-- a whole sequence of steps -/
def Objects.run (w : Objects α) : List (ObjCall α) → Option (Objects α)
  | [] => some w
  | c :: cs => do
      let w ← w.step c
      w.run cs

end FastAD
