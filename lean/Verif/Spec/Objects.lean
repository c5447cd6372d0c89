import Verif.Model.Objects
import Verif.Spec.Session

/-!
# What the user expects of `ExprBind` objects

Two descriptions, neither mentioning caches' addresses.  `Owners` is the ideal: every object is self-contained.  `Sharing` is what the library
provides: a copy works on the cache of the object it was copied from.
-/

namespace FastAD

variable {α : Type}

/-- what a user knows about an object: it was moved from, or it holds an expression, last evaluated (if at all) at the given variable values -/
inductive Owned (α : Type)
  | moved
  | live (e : Expr α) (at_ : Option (ℕ → α))

/-- The ideal: the values of the user's variables, the existing objects, and the events that affected adjoints. -/
structure Owners (α : Type) where
  vals : ℕ → α
  objs : ℕ → Option (Owned α)
  log : List (Event α)

/-- no objects yet -/
def Owners.init (vals : ℕ → α) : Owners α := ⟨vals, fun _ => none, []⟩

/-- Effect of a step in the ideal; `none` if the step refers to objects that do not exist or hold no expression, or creates one that exists. -/
def Owners.step (u : Owners α) : ObjCall α → Option (Owners α)
  | .bind i e _ _ _ _ =>
      match u.objs i with
      | none => some { u with objs := Function.update u.objs i (some (.live e none)) }
      | _ => none
  | .copy i j _ _ =>
      match u.objs i, u.objs j with
      | none, some (.live e m) => some { u with objs := Function.update u.objs i (some (.live e m)) }
      | _, _ => none
  | .move i j =>
      match u.objs i, u.objs j with
      | none, some (.live e m) =>
          some { u with objs := Function.update (Function.update u.objs j (some .moved)) i (some (.live e m)) }
      | _, _ => none
  | .destroy i =>
      match u.objs i with
      | some _ => some { u with objs := Function.update u.objs i none }
      | none => none
  | .evaluate i =>
      match u.objs i with
      | some (.live e _) => some { u with objs := Function.update u.objs i (some (.live e (some u.vals))) }
      | _ => none
  | .autodiff i seed =>
      match u.objs i with
      | some (.live e _) =>
          some ⟨u.vals, Function.update u.objs i (some (.live e (some u.vals))), u.log ++ [.pass e u.vals seed]⟩
      | _ => none
  | .evaluateAdj i seed =>
      match u.objs i with
      | some (.live e (some m)) => some { u with log := u.log ++ [.pass e m seed] }
      | _ => none
  | .setVal a x => some { u with vals := Function.update u.vals a x }
  | .setAdj a x => some { u with log := u.log ++ [.set a x] }

/-- a sequence of steps in the ideal -/
def Owners.run (u : Owners α) : List (ObjCall α) → Option (Owners α)
  | [] => some u
  | c :: cs => (u.step c).bind fun u => u.run cs

/-- What must be respected besides (`uv`, `ua`: the user's memory): as `LegalCall`, for the two ways to obtain memory, the direct assignments and
`evaluate_adj`; `e`, `m` describe the expression of the object that is used. -/
def MemLegal (uv ua : ℕ → Bool) (vals : ℕ → α) (obj : ℕ → Option (Expr α × Option (ℕ → α))) (w : Objects α) : ObjCall α → Prop
  | .bind _ e qv qa _ _ => e.WF ∧ e.Alive uv ua ∧ Fresh w.st e.bindSize qv qa
  | .copy _ j qv qa => ∀ x, w.obj j = some x → Fresh w.st x.n qv qa
  | .evaluateAdj i _ => ∀ e m, obj i = some (e, some m) → ∀ c ∈ e.valCells ∪ e.constCells, vals c = m c
  | .setVal a _ => uv a = true
  | .setAdj a _ => ua a = true
  | _ => True

/-- expression and last evaluation of an object -/
def Owners.view (u : Owners α) (i : ℕ) : Option (Expr α × Option (ℕ → α)) :=
  match u.objs i with
  | some (.live e m) => some (e, m)
  | _ => none

/-- what the user knows about an object when copies share: it works on cache number `c`; `own`: it is the one whose destruction frees that cache -/
inductive Shared
  | moved
  | on (c : ℕ) (own : Bool)

/-- What the library provides: caches, each with its expression and the variable values at its most recent evaluation, and objects working on them. -/
structure Sharing (α : Type) where
  vals : ℕ → α
  next : ℕ
  cache : ℕ → Option (Expr α × Option (ℕ → α))
  objs : ℕ → Option Shared
  log : List (Event α)

/-- no objects yet -/
def Sharing.init (vals : ℕ → α) : Sharing α := ⟨vals, 0, fun _ => none, fun _ => none, []⟩

/-- expression and last evaluation of the cache an object works on, if that still exists -/
def Sharing.view (u : Sharing α) (i : ℕ) : Option (Expr α × Option (ℕ → α)) :=
  match u.objs i with
  | some (.on c _) => u.cache c
  | _ => none

/-- record an evaluation of the cache that object `i` works on -/
def Sharing.evaluated (u : Sharing α) (i : ℕ) (e : Expr α) : Sharing α :=
  match u.objs i with
  | some (.on c _) => { u with cache := Function.update u.cache c (some (e, some u.vals)) }
  | _ => u

/-- Effect of a step when copies share; `none` for uses of objects that do not exist, were moved from, or whose cache no longer exists. -/
def Sharing.step (u : Sharing α) : ObjCall α → Option (Sharing α)
  | .bind i e _ _ _ _ =>
      match u.objs i with
      | none => some { u with
          next := u.next + 1, cache := Function.update u.cache u.next (some (e, none))
          objs := Function.update u.objs i (some (.on u.next true)) }
      | _ => none
  | .copy i j _ _ =>
      match u.objs i, u.objs j with
      | none, some (.on c _) => some { u with objs := Function.update u.objs i (some (.on c false)) }
      | _, _ => none
  | .move i j =>
      match u.objs i, u.objs j with
      | none, some (.on c own) =>
          some { u with objs := Function.update (Function.update u.objs j (some .moved)) i (some (.on c own)) }
      | _, _ => none
  | .destroy i =>
      match u.objs i with
      | some (.on c true) => some { u with cache := Function.update u.cache c none, objs := Function.update u.objs i none }
      | some _ => some { u with objs := Function.update u.objs i none }
      | none => none
  | .evaluate i => (u.view i).map fun p => u.evaluated i p.1
  | .autodiff i seed => (u.view i).map fun p => { u.evaluated i p.1 with log := u.log ++ [.pass p.1 u.vals seed] }
  | .evaluateAdj i seed =>
      match u.view i with
      | some (e, some m) => some { u with log := u.log ++ [.pass e m seed] }
      | _ => none
  | .setVal a x => some { u with vals := Function.update u.vals a x }
  | .setAdj a x => some { u with log := u.log ++ [.set a x] }

/-- a sequence of steps when copies share -/
def Sharing.run (u : Sharing α) : List (ObjCall α) → Option (Sharing α)
  | [] => some u
  | c :: cs => (u.step c).bind fun u => u.run cs

variable [Zero α] [One α] [Add α] [Sub α] [Neg α] [Mul α] [Div α] [NatCast α] [IntCast α]
variable [Fn α] [HasInf α] [LinAlg α]

/-- every step is possible and legal in the ideal at the moment it is made -/
def Owners.Legal (uv ua : ℕ → Bool) (u : Owners α) (w : Objects α) : List (ObjCall α) → Prop
  | [] => True
  | c :: cs => MemLegal uv ua u.vals u.view w c ∧ ∃ u', u.step c = some u' ∧ ∀ w', w.step c = some w' → u'.Legal uv ua w' cs

/-- every step is possible and legal when copies share -/
def Sharing.Legal (uv ua : ℕ → Bool) (u : Sharing α) (w : Objects α) : List (ObjCall α) → Prop
  | [] => True
  | c :: cs => MemLegal uv ua u.vals u.view w c ∧ ∃ u', u.step c = some u' ∧ ∀ w', w.step c = some w' → u'.Legal uv ua w' cs

/-- is the step the copying of an object? -/
def ObjCall.isCopy : ObjCall α → Bool
  | .copy .. => true
  | _ => false

end FastAD
