import Verif.Model.Var
import Mathlib.Logic.Function.Basic

/-!
# Variables with value semantics

Here a variable is nothing but a shape, its values and its adjoints, and a view is a variable together with the list of the elements it shows.  There are no
addresses.
-/

namespace FastAD

variable {α : Type}

/-- a variable, or an array that was moved from and not assigned since -/
inductive AVar (α : Type)
  | live (sh : Shape) (x y : ℕ → α)
  | moved (sh : Shape)

/-- Variables, and views with variable, elements and shape.  A view is forgotten when its variable is destroyed or move-assigned (arrays); when an array is moved from, its views
follow it to the new variable. -/
structure AVars (α : Type) where
  var : ℕ → Option (AVar α)
  view : ℕ → Option (ℕ × List ℕ × Shape)

/-- the elements shown by a part of a view that shows the elements `l`, and its shape -/
def Part.select (f : Part) (l : List ℕ) (sh : Shape) : Option (List ℕ × Shape) :=
  match f with
  | .whole => some (l, sh)
  | .elem i => if sh.kind = .vec then l[i]?.map fun e => ([e], .scl) else none
  | .head n => if sh.kind = .vec ∧ n ≤ l.length then some (l.take n, .vec n) else none
  | .tail n => if sh.kind = .vec ∧ n ≤ l.length then some (l.drop (l.length - n), .vec n) else none

/-- forget the views of variable `i` -/
def AVars.forget (A : AVars α) (i : ℕ) : AVars α :=
  { A with view := fun k => (A.view k).bind fun p => if p.1 = i then none else some p }

/-- the views of variable `j` become views of variable `i` -/
def AVars.follow (A : AVars α) (j i : ℕ) : AVars α :=
  { A with view := fun k => (A.view k).map fun p => if p.1 = j then (i, p.2) else p }

/-- give variable `i` a new state -/
def AVars.set (A : AVars α) (i : ℕ) (x : Option (AVar α)) : AVars α := { A with var := Function.update A.var i x }

/-- shape of a variable -/
def AVar.shape : AVar α → Shape
  | .live sh _ _ | .moved sh => sh

variable [Zero α]

/-- Effect of a step, from the user's point of view.  `none`: not allowed (using something that does not exist, reading or writing an array that was moved
from, assigning variables of different dimensions, or an index out of range). -/
def AVars.step (A : AVars α) : VarStep α → Option (AVars α)
  | .create i sh c _ _ =>
      match A.var i with
      | none => some (A.set i (some (.live sh (fun _ => if sh.isScl then c else 0) fun _ => 0)))
      | some _ => none
  | .copy i j _ _ =>
      match A.var i, A.var j with
      | none, some (.live sh x y) => some (A.set i (some (.live sh x y)))
      | _, _ => none
  | .move i j _ _ =>
      match A.var i, A.var j with
      | none, some (.live sh x y) =>
          if sh.isScl then some (A.set i (some (.live sh x y)))
          else some (((A.follow j i).set j (some (.moved sh))).set i (some (.live sh x y)))
      | _, _ => none
  | .assign i j _ _ =>
      match A.var i, A.var j with
      | some v, some (.live sh x y) => if v.shape = sh then some (A.set i (some (.live sh x y))) else none
      | _, _ => none
  | .moveAssign i j _ _ =>
      match A.var i, A.var j with
      | some v, some (.live sh x y) =>
          if v.shape = sh then
            if i = j then some A
            else if sh.isScl then some (A.set i (some (.live sh x y)))
            else some ((((A.forget i).follow j i).set j (some (.moved sh))).set i (some (.live sh x y)))
          else none
      | _, _ => none
  | .setVal i k x =>
      match A.var i with
      | some (.live sh v y) => if k < sh.size then some (A.set i (some (.live sh (Function.update v k x) y))) else none
      | _ => none
  | .setAdj i k x =>
      match A.var i with
      | some (.live sh v y) => if k < sh.size then some (A.set i (some (.live sh v (Function.update y k x)))) else none
      | _ => none
  | .destroy i =>
      match A.var i with
      | some _ => some ((A.forget i).set i none)
      | none => none
  | .view k i f =>
      match A.var i with
      | some (.live sh _ _) => do
          let (l, sh') ← f.select (List.range sh.size) sh
          some { A with view := Function.update A.view k (some (i, l, sh')) }
      | _ => none
  | .part k j f => do
      let (i, l, sh) ← A.view j
      let (l, sh) ← f.select l sh
      some { A with view := Function.update A.view k (some (i, l, sh)) }
  | .setViewVal k e x => do
      let (i, l, _) ← A.view k
      let n ← l[e]?
      match A.var i with
      | some (.live sh v y) => some (A.set i (some (.live sh (Function.update v n x) y)))
      | _ => none
  | .setViewAdj k e x => do
      let (i, l, _) ← A.view k
      let n ← l[e]?
      match A.var i with
      | some (.live sh v y) => some (A.set i (some (.live sh v (Function.update y n x))))
      | _ => none

/-- a sequence of steps -/
def AVars.run (A : AVars α) : List (VarStep α) → Option (AVars α)
  | [] => some A
  | c :: cs => do
      let A ← A.step c
      A.run cs

/-- Contract of the allocator (and of the compiler, for scalars): new storage does not overlap anything allocated. -/
def FreshStep (w : Vars α) : VarStep α → Prop
  | .create _ sh _ qv qa => Fresh w.st ⟨sh.size, sh.size⟩ qv qa
  | .copy _ j qv qa | .move _ j qv qa | .assign _ j qv qa | .moveAssign _ j qv qa =>
      Fresh w.st ⟨(w.shape j).size, (w.shape j).size⟩ qv qa
  | _ => True

/-- the allocator behaves throughout a sequence of steps -/
def FreshRun (w : Vars α) : List (VarStep α) → Prop
  | [] => True
  | c :: cs => FreshStep w c ∧ ∀ w', w.step c = some w' → FreshRun w' cs

/-- no variables yet, in memory `s` -/
def Vars.none (s : St α) : Vars α := ⟨⟨s.val, s.vok, fun _ => .none, fun _ => .none⟩, ⟨s.adj, s.aok, fun _ => .none, fun _ => .none⟩, fun _ => .scl, fun _ => .scl⟩

/-- no variables yet -/
def AVars.none : AVars α := ⟨fun _ => .none, fun _ => .none⟩

omit [Zero α] in
/-- `v` is the view of a living variable or a living view made from one -/
def IsLeaf (A : AVars α) (w : Vars α) (v : View) : Prop :=
  (∃ i sh x y, A.var i = some (.live sh x y) ∧ w.view i = some v) ∨ ∃ k p, A.view k = some p ∧ v = w.subview k

omit [Zero α] in
/-- the leaf `v` shows element `m` of variable `i` -/
def Shows (A : AVars α) (w : Vars α) (v : View) (i m : ℕ) : Prop :=
  (w.view i = some v ∧ ∃ sh x y, A.var i = some (.live sh x y) ∧ m < sh.size) ∨ ∃ k l sh, A.view k = some (i, l, sh) ∧ v = w.subview k ∧ m ∈ l

end FastAD
