import Verif.Spec.World
import Verif.Spec.Objects

/-!
# Who owns which memory

Memory cells belong to the user (everything allocated before the program starts), to an existing variable (its buffers) or to an existing `ExprBind` object (its caches).
-/

namespace FastAD

/-- an owner of memory: the user, a variable, an `ExprBind` object -/
inductive Holder
  | user
  | var (i : ℕ)
  | obj (n : ℕ)

variable {α : Type}

/-- value cell `a` is owned by `h`, in a program that started in memory `u` -/
def World.HoldsV (u : St α) (w : World α) (a : ℕ) : Holder → Prop
  | .user => u.vok a = true
  | .var i => ∃ t, w.vars.v.slots i = some t ∧ addr t.p ≤ a ∧ a < addr t.p + t.n
  | .obj n => ∃ b, w.objs n = some b ∧ b.qv ≤ a ∧ a < b.qv + b.src.bindSize.val

/-- adjoint cell `a` is owned by `h` -/
def World.HoldsA (u : St α) (w : World α) (a : ℕ) : Holder → Prop
  | .user => u.aok a = true
  | .var i => ∃ t, w.vars.a.slots i = some t ∧ addr t.p ≤ a ∧ a < addr t.p + t.n
  | .obj n => ∃ b, w.objs n = some b ∧ b.qa ≤ a ∧ a < b.qa + b.src.bindSize.adj

/-- does the owner exist, as the user sees it? -/
def AWorld.Exists (A : AWorld α) : Holder → Prop
  | .user => True
  | .var i => (A.vars.var i).isSome
  | .obj n => (A.objs n).isSome

/-- the same for programs that copy, move and destroy `ExprBind` objects (`Model/Objects`), where all variables are the user's -/
def Objects.HoldsV (u : St α) (w : Objects α) (a : ℕ) : Holder → Prop
  | .user => u.vok a = true
  | .var _ => False
  | .obj n => ∃ b, w.obj n = some b ∧ b.qv ≤ a ∧ a < b.qv + b.n.val

/-- adjoint cell `a` is owned by `h` -/
def Objects.HoldsA (u : St α) (w : Objects α) (a : ℕ) : Holder → Prop
  | .user => u.aok a = true
  | .var _ => False
  | .obj n => ∃ b, w.obj n = some b ∧ b.qa ≤ a ∧ a < b.qa + b.n.adj

/-- does the owner exist, as the user sees it? -/
def Sharing.Exists (u : Sharing α) : Holder → Prop
  | .user => True
  | .var _ => False
  | .obj n => (u.objs n).isSome

end FastAD
