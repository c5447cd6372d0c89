import Verif.Model.World
import Verif.Spec.Var
import Verif.Spec.Session
import Verif.Spec.Program

/-!
# Programs with variables, views and bound expressions: what they should do

As in `Spec/Var`, a variable is its values and adjoints and a view is a list of elements of a variable.  A bound expression is the expression with the names of the views it
was built from.  Its value is that of the expression at the current values of the elements that the views show; evaluating it executes its assignments (placeholders and
compound assignments), and differentiating it changes the adjoints of the elements that the views show, undoes the compound assignments and leaves the placeholders as they were
assigned.  Caches do not occur, and addresses occur only as labels for the inputs of an expression (element `j` of the leaf `v` has the
labels `addr v.val + j`, `addr v.adj + j`).
-/

namespace FastAD

variable {α : Type}

/-- a bound expression, the views it was built from, and the inputs at which it was evaluated last (if it was) -/
structure AObj (α : Type) where
  src : Expr α
  leaves : List (ℕ × View)
  last : Option (ℕ → α)

/-- variables, views and bound expressions -/
structure AWorld (α : Type) where
  vars : AVars α
  objs : ℕ → Option (AObj α)

/-- value of the element that has label `a` in the leaf `p` -/
def AVars.valueAt (A : AVars α) (p : ℕ × View) (a : ℕ) : Option α :=
  (A.view p.1).bind fun q => (if addr p.2.val ≤ a then q.2.1[a - addr p.2.val]? else .none).bind fun m =>
    match A.var q.1 with
    | some (.live _ x _) => some (x m)
    | _ => .none

/-- the inputs of an expression with the leaves `L`: by label, the current values of the elements that the leaves show; everything else (the user's data buffers) as in `base` -/
def AVars.look (A : AVars α) (L : List (ℕ × View)) (base : ℕ → α) (a : ℕ) : α := (L.findSome? fun p => A.valueAt p a).getD (base a)

/-- adjoint label of element `m` of variable `i` in an expression with the leaves `L`; `none` if no leaf shows the element -/
def AVars.label (A : AVars α) (L : List (ℕ × View)) (i m : ℕ) : Option ℕ :=
  L.findSome? fun p => (A.view p.1).bind fun q => if q.1 = i then (q.2.1.findIdx? (· == m)).map (addr p.2.adj + ·) else .none

/-- value label of element `m` of variable `i` in an expression with the leaves `L`; `none` if no leaf shows the element -/
def AVars.labelV (A : AVars α) (L : List (ℕ × View)) (i m : ℕ) : Option ℕ :=
  L.findSome? fun p => (A.view p.1).bind fun q => if q.1 = i then (q.2.1.findIdx? (· == m)).map (addr p.2.val + ·) else .none

/-- adjoint of the element that has label `a` in the leaf `p` -/
def AVars.adjointAt (A : AVars α) (p : ℕ × View) (a : ℕ) : Option α :=
  (A.view p.1).bind fun q => (if addr p.2.adj ≤ a then q.2.1[a - addr p.2.adj]? else .none).bind fun m =>
    match A.var q.1 with
    | some (.live _ _ y) => some (y m)
    | _ => .none

/-- by label, the current adjoints of the elements that the leaves `L` show -/
def AVars.lookA [Zero α] (A : AVars α) (L : List (ℕ × View)) (a : ℕ) : α := (L.findSome? fun p => A.adjointAt p a).getD 0

/-- the elements shown by the leaves `L` get the values `f` and the adjoints `g` (by label) -/
def AVars.become (A : AVars α) (L : List (ℕ × View)) (f g : ℕ → α) : AVars α :=
  { A with var := fun i => (A.var i).map fun
      | .live sh x y => .live sh (fun m => match A.labelV L i m with
          | some c => f c
          | .none => x m) fun m => match A.label L i m with
          | some a => g a
          | .none => y m
      | .moved sh => .moved sh }

/-- the view that a step (re)defines -/
def VarStep.newView : VarStep α → Option ℕ
  | .view k _ _ | .part k _ _ => some k
  | _ => none

section
variable [HasInf ℝ] [LinAlg ℝ]

/-- What the user can bind: a pure expression, or a program whose value is not stored in a variable that it updates. -/
def Expr.Bindable (e : Expr ℝ) : Prop := e.WF ∨ e.Program ∧ e.Stable

/-- The store that differentiating a program leaves behind: a placeholder keeps the value that it had right after its assignment, everything else has the value it had before. -/
noncomputable def Expr.leftover (p : Expr ℝ) (m : ℕ → ℝ) (a : ℕ) : ℝ :=
  match p.flat.findIdx? fun x => decide (a ∈ x.placeCells) with
  | some j => execL (p.flat.take (j + 1)) m a
  | none => m a

/-- Effect of a step, from the user's point of view, when differentiating `e` at inputs `m` with a seed turns the adjoints `y` into `G e m seed y` (all by label); and what the
step returns. -/
noncomputable def AWorld.step (G : Expr ℝ → (ℕ → ℝ) → (ℕ → ℝ) → (ℕ → ℝ) → ℕ → ℝ) (base : ℕ → ℝ) (A : AWorld ℝ) : WorldAct ℝ → Option (AWorld ℝ × Option (ℕ → ℝ))
  | .var c => do
      let B ← A.vars.step c
      some (⟨B, A.objs⟩, none)
  | .bind n e L _ _ _ _ => some (⟨A.vars, Function.update A.objs n (some ⟨e, L, none⟩)⟩, none)
  | .evaluate n => do
      let o ← A.objs n
      let m := A.vars.look o.leaves base
      some (⟨A.vars.become o.leaves (o.src.exec m) (A.vars.lookA o.leaves), Function.update A.objs n (some { o with last := some m })⟩, some (trunc o.src.size (o.src.result m)))
  | .autodiff n seed => do
      let o ← A.objs n
      let m := A.vars.look o.leaves base
      some (⟨A.vars.become o.leaves (o.src.leftover m) (G o.src m seed (A.vars.lookA o.leaves)), Function.update A.objs n (some { o with last := some m })⟩,
        some (trunc o.src.size (o.src.result m)))
  | .evaluateAdj n seed => do
      let o ← A.objs n
      let m ← o.last
      some (⟨A.vars.become o.leaves (o.src.leftover m) (G o.src m seed (A.vars.lookA o.leaves)), A.objs⟩, none)
  | .moveObj n m => do
      let o ← A.objs m
      some (⟨A.vars, Function.update (Function.update A.objs m none) n (some o)⟩, none)
  | .drop n => do
      let _ ← A.objs n
      some (⟨A.vars, Function.update A.objs n none⟩, none)

/-- a sequence of steps, with everything that was returned -/
noncomputable def AWorld.run (G : Expr ℝ → (ℕ → ℝ) → (ℕ → ℝ) → (ℕ → ℝ) → ℕ → ℝ) (base : ℕ → ℝ) (A : AWorld ℝ) : List (WorldAct ℝ) → Option (AWorld ℝ × List (ℕ → ℝ))
  | [] => some (A, [])
  | c :: cs => do
      let (A, x) ← A.step G base c
      let (A, xs) ← A.run G base cs
      some (A, x.toList ++ xs)

/-- What the user (and the allocator) must respect; `u` is the memory in which the program starts, with the user's data buffers:
* new storage does not overlap anything allocated, and the views inside a living expression are not redefined;
* only well-formed expressions and programs built from living views and data buffers are bound;
* a bound expression is used only while all the views it was built from are alive, and `evaluate_adj` is called when everything it mentions has the values it had after the last
evaluation. -/
def LegalAct (u : St ℝ) (A : AWorld ℝ) (w : World ℝ) : WorldAct ℝ → Prop
  | .var c => FreshStep w.vars c ∧ ∀ n o, A.objs n = some o → ∀ p ∈ o.leaves, c.newView ≠ some p.1
  | .bind n e L qv qa _ _ => A.objs n = none ∧ e.Bindable ∧ (∀ p ∈ L, (A.vars.view p.1).isSome ∧ w.vars.subview p.1 = p.2 ∧ p.2 ∈ e.vars) ∧ (∀ v ∈ e.vars, ∃ k, (k, v) ∈ L) ∧
      (∀ c ∈ e.cviews, accessible u.vok c.2 c.1.size) ∧ Fresh w.vars.st e.bindSize qv qa
  | .evaluate n | .autodiff n _ => ∀ o, A.objs n = some o → ∀ p ∈ o.leaves, (A.vars.view p.1).isSome
  | .evaluateAdj n _ => ∀ o, A.objs n = some o → (∀ p ∈ o.leaves, (A.vars.view p.1).isSome) ∧
      ∀ m, o.last = some m → ∀ c ∈ o.src.valCells ∪ o.src.constCells, A.vars.look o.leaves u.val c = o.src.exec m c
  | .moveObj n _ => A.objs n = none
  | .drop _ => True

/-- every step is legal at the moment it is made -/
def LegalActs (G : Expr ℝ → (ℕ → ℝ) → (ℕ → ℝ) → (ℕ → ℝ) → ℕ → ℝ) (u : St ℝ) (A : AWorld ℝ) (w : World ℝ) : List (WorldAct ℝ) → Prop
  | [] => True
  | c :: cs => LegalAct u A w c ∧ ∀ A' w' x x', A.step G u.val c = some (A', x) → w.step c = some (w', x') → LegalActs G u A' w' cs

end

/-- a program starts in memory `u`, without variables and expressions -/
def World.init (u : St α) : World α := ⟨Vars.none u, fun _ => none⟩

/-- a program starts without variables and expressions -/
def AWorld.init : AWorld α := ⟨AVars.none, fun _ => none⟩

/-- element `m` of variable `i` gets the value `τ` -/
def AVars.setElem (A : AVars α) (i m : ℕ) (τ : α) : AVars α :=
  { A with var := fun k => (A.var k).map fun
      | .live sh x y => .live sh (if k = i then Function.update x m τ else x) y
      | .moved sh => .moved sh }

end FastAD
