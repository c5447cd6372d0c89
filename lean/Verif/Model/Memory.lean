import Verif.Model.Expr

/-!
# Memory

All values live in one value heap and all adjoints in one adjoint heap.  A cell may be accessed only when it is
allocated; any other access (including through a null pointer) is undefined behaviour, and the model's outcome is
then `none`.  `none` is also the outcome for the two situations in which Eigen gives no defined result: an assignment between arrays of
different dimensions (Eigen assertion, `Map` cannot be resized) and a coefficient-wise assignment whose source partially
overlaps its destination.
-/

namespace FastAD

variable {α : Type}

/-- Machine state: value heap, adjoint heap, and which cells are allocated. -/
structure St (α : Type) where
  val : Nat → α
  adj : Nat → α
  vok : Nat → Bool
  aok : Nat → Bool

/-- What `feval()`/`get()` return: a reference to cells of the value heap, or (for `Constant`, constant.hpp:83-151) the
immutable value stored inside the node. -/
inductive Ref (α : Type)
  | ptr (p : Option Nat)
  | lit (f : Nat → α)

/-- May `n` cells starting at `p` be accessed?  A null pointer may not be dereferenced, but an empty array may have
null data. -/
def accessible (ok : Nat → Bool) (p : Option Nat) (n : Nat) : Prop :=
  match p with
  | none => n = 0
  | some q => ∀ k < n, ok (q + k) = true

instance (ok : Nat → Bool) (p : Option Nat) (n : Nat) : Decidable (accessible ok p n) := by
  unfold accessible; cases p <;> infer_instance

/-- address of an accessible pointer -/
def addr (p : Option Nat) : Nat := p.getD 0

/-- the first `n` coefficients; whatever lies beyond is not part of the value and is represented as 0 -/
def trunc [Zero α] (n : Nat) (f : Nat → α) : Nat → α := fun k => if k < n then f k else 0

/-- read `n` coefficients -/
def readCells [Zero α] (heap : Nat → α) (ok : Nat → Bool) (p : Option Nat) (n : Nat) : Option (Nat → α) :=
  if accessible ok p n then some (trunc n (fun k => heap (addr p + k))) else none

/-- overwrite `n` coefficients starting at `q` -/
def fillRange (heap : Nat → α) (q n : Nat) (f : Nat → α) : Nat → α :=
  fun a => if q ≤ a ∧ a < q + n then f (a - q) else heap a

/-- read through a reference -/
def Ref.read [Zero α] (r : Ref α) (s : St α) (n : Nat) : Option (Nat → α) :=
  match r with
  | .ptr p => readCells s.val s.vok p n
  | .lit f => some (trunc n f)

/-- read adjoint cells -/
def St.readA [Zero α] (s : St α) (p : Option Nat) (n : Nat) : Option (Nat → α) :=
  readCells s.adj s.aok p n

/-- Coefficient-wise assignment from `m` cells at `src` to `n` cells at `dst` has a defined result: the two ranges are equal or disjoint. -/
def noClash (dst : Option Nat) (n : Nat) (src : Ref α) (m : Nat) : Prop :=
  match src with
  | .lit _ => True
  | .ptr p => (addr p = addr dst ∧ m = n) ∨ addr p + m ≤ addr dst ∨ addr dst + n ≤ addr p ∨ m = 0 ∨ n = 0

instance (dst : Option Nat) (n : Nat) (src : Ref α) (m : Nat) : Decidable (noClash dst n src m) := by
  unfold noClash; cases src <;> infer_instance

/-- write `n` value cells -/
def St.writeV (s : St α) (p : Option Nat) (n : Nat) (f : Nat → α) : Option (St α) :=
  if accessible s.vok p n then some { s with val := fillRange s.val (addr p) n f } else none

/-- write `n` value cells by a coefficient-wise assignment from `src` (`m` cells) -/
def St.assignV (s : St α) (p : Option Nat) (n : Nat) (src : Ref α) (m : Nat) (f : Nat → α) : Option (St α) :=
  if noClash p n src m then s.writeV p n f else none

/-- write `n` adjoint cells -/
def St.writeA (s : St α) (p : Option Nat) (n : Nat) (f : Nat → α) : Option (St α) :=
  if accessible s.aok p n then some { s with adj := fillRange s.adj (addr p) n f } else none

/-- `VarViewBase::beval`: `to_array(get_adj()) += seed`, var_view.hpp:90-93. -/
def View.bevalVar [Zero α] [Add α] (v : View) (seed : Nat → α) (s : St α) : Option (St α) := do
  let a ← s.readA v.adj v.size
  s.writeA v.adj v.size (fun k => a k + seed k)

/-- `get()` of a node. -/
def Expr.getRef : Expr α → Ref α
  | .const _ c => .lit c
  | e => .ptr e.view.val

/-- read only if the C++ code really touches the memory (a scalar view's `get()` dereferences the pointer,
value_view.hpp:30; an array view's `get()` only builds an `Eigen::Map`) -/
def readIf [Zero α] (b : Bool) (r : Ref α) (s : St α) (n : Nat) : Option (Nat → α) :=
  if b then r.read s n else some (fun _ => 0)

end FastAD
