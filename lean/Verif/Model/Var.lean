import Verif.Model.Api

/-!
# `Var` objects: storage, copies, moves, sub-views

`Var` derives from `VarView` (shape and two pointers) and owns the storage the pointers should refer to: two numbers inside the object
(scalar) or two heap-allocated Eigen matrices.  Every special member function does the same thing to `val_` and the value pointer and to `adj_` and the
adjoint pointer (var.hpp:36-86, 107-151, 172-216), so the model has one function for each, working on a `Half` (values or adjoints) of the state.

Eigen's documented behaviour of dynamic matrices is assumed: copying a matrix allocates and copies; assigning a matrix of the same size copies the
coefficients into the existing buffer, of another size reallocates; move construction takes the buffer and leaves an empty matrix; move assignment
exchanges the buffers.  Objects have names (numbers) instead of addresses.
-/

namespace FastAD

variable {α : Type}

/-- One half of a `Var`: the storage (`val_` or `adj_`, var.hpp:88-89, 153-154, 218-219): `n` elements at `p`, null for an empty matrix; and
the pointer inside the inherited view (value_view.hpp:104,138,172). -/
structure Store where
  p : Option Nat
  n : Nat
  ptr : Option Nat

/-- values or adjoints: memory, the halves of the existing `Var`s, and of the other views -/
structure Half (α : Type) where
  cell : Nat → α
  ok : Nat → Bool
  slots : Nat → Option Store
  ptrs : Nat → Option Nat

/-- replace one entry -/
def put {β : Type} (f : Nat → β) (i : Nat) (x : β) : Nat → β := fun j => if j = i then x else f j

/-- obtain `n` cells at `q` with the given contents -/
def Half.alloc (h : Half α) (q n : Nat) (f : Nat → α) : Half α :=
  { h with cell := fillRange h.cell q n f, ok := fun a => h.ok a || (decide (q ≤ a) && decide (a < q + n)) }

/-- the same with `n` cells at `p` given back (one member `val_` or `adj_` of a `Var` at the end of its life, var.hpp:88-89, 153-154, 218-219) -/
def Half.without (h : Half α) (p : Option Nat) (n : Nat) : Half α :=
  { h with ok := fun a => h.ok a && !(decide (addr p ≤ a) && decide (a < addr p + n)) }

/-- the implicit destructor of `Var` (var.hpp:23-220) gives back `n` cells at `p`; giving back what is not allocated (a second time, for instance) is undefined behaviour -/
def Half.free (h : Half α) (p : Option Nat) (n : Nat) : Option (Half α) :=
  if accessible h.ok p n then some (h.without p n) else none

/-- write one cell -/
def Half.write (h : Half α) (p : Option Nat) (k : Nat) (x : α) : Option (Half α) :=
  if accessible h.ok (p.map (· + k)) 1 then some { h with cell := fillRange h.cell (addr p + k) 1 fun _ => x } else none

/-- constructors `Var()`, `Var(v)`, `Var(size)`, `Var(rows, cols)`, var.hpp:36-46, 107-111, 172-176, followed by `rebind` -/
def Half.create (h : Half α) (i n q : Nat) (f : Nat → α) : Half α :=
  let h := h.alloc q n f
  { h with slots := put h.slots i (some ⟨vecData q n, n, vecData q n⟩) }

variable [Zero α]

/-- copy constructor, var.hpp:48-52, 113-117, 178-182: the storage of `j` (not what its view refers to) is copied -/
def Half.copy (h : Half α) (i j q : Nat) : Option (Half α) := do
  let t ← h.slots j
  let x ← readCells h.cell h.ok t.p t.n
  some (h.create i t.n q x)

/-- move constructor, var.hpp:54-58, 119-123, 184-188: a scalar is copied; otherwise the buffer is taken over, `j` keeps its view and an empty matrix -/
def Half.move (h : Half α) (scl : Bool) (i j q : Nat) : Option (Half α) :=
  if scl then h.copy i j q
  else do
    let t ← h.slots j
    some { h with slots := put (put h.slots j (some ⟨none, 0, t.ptr⟩)) i (some ⟨t.p, t.n, t.p⟩) }

/-- copy assignment of different objects, var.hpp:60-69, 125-134, 190-199; `q` is where a new buffer would be allocated -/
def Half.assign (h : Half α) (i j q : Nat) : Option (Half α) := do
  let t ← h.slots j
  let d ← h.slots i
  let x ← readCells h.cell h.ok t.p t.n
  if d.n = t.n then
    if accessible h.ok d.p d.n then
      some { h with cell := fillRange h.cell (addr d.p) d.n x, slots := put h.slots i (some ⟨d.p, d.n, d.p⟩) }
    else none
  else
    (h.free d.p d.n).map fun h =>
      let h := h.alloc q t.n x
      { h with slots := put h.slots i (some ⟨vecData q t.n, t.n, vecData q t.n⟩) }

/-- move assignment of different objects, var.hpp:71-80, 136-145, 201-210: a scalar is copied; otherwise the buffers are exchanged, and only the view of `i`
is rebound -/
def Half.moveAssign (h : Half α) (scl : Bool) (i j q : Nat) : Option (Half α) :=
  if scl then h.assign i j q
  else do
    let t ← h.slots j
    let d ← h.slots i
    some { h with slots := put (put h.slots j (some ⟨d.p, d.n, t.ptr⟩)) i (some ⟨t.p, t.n, t.p⟩) }

omit [Zero α] in
/-- destructor: the storage is freed -/
def Half.destroy (h : Half α) (i : Nat) : Option (Half α) := do
  let t ← h.slots i
  let h ← h.free t.p t.n
  some { h with slots := put h.slots i none }

omit [Zero α] in
/-- a view is copied or a sub-view is made, starting `off` elements further -/
def Half.point (h : Half α) (k : Nat) (p : Option Nat) (off : Nat) : Half α :=
  { h with ptrs := put h.ptrs k (p.map (· + off)) }

/-- which part of a view -/
inductive Part
  /-- a copy of the view, as every expression makes of its leaves -/
  | whole
  /-- `v(i)`, `v[i]`, var_view.hpp:154-161 -/
  | elem (i : Nat)
  /-- `v.head(n)`, var_view.hpp:162-165 -/
  | head (n : Nat)
  /-- `v.tail(n)`, var_view.hpp:166-172 -/
  | tail (n : Nat)

/-- Offset and shape of a part of a view, var_view.hpp:154-172.  `none`: an assertion fails, or the view is not a vector (does not compile). -/
def Part.of (sh : Shape) : Part → Option (Nat × Shape)
  | .whole => some (0, sh)
  | .elem i => if sh.kind = .vec ∧ i < sh.size then some (i, .scl) else none
  | .head n => if sh.kind = .vec ∧ n ≤ sh.size then some (0, .vec n) else none
  | .tail n => if sh.kind = .vec ∧ n ≤ sh.size then some (sh.size - n, .vec n) else none

/-- all variables: both halves, and the dimensions stored in the views -/
structure Vars (α : Type) where
  v : Half α
  a : Half α
  shape : Nat → Shape
  vshape : Nat → Shape

omit [Zero α] in
/-- the memory -/
def Vars.st (w : Vars α) : St α := ⟨w.v.cell, w.a.cell, w.v.ok, w.a.ok⟩

omit [Zero α] in
/-- the view that `Var` `i` inherits -/
def Vars.view (w : Vars α) (i : Nat) : Option View := do
  let t ← w.v.slots i
  let d ← w.a.slots i
  some ⟨w.shape i, t.ptr, d.ptr⟩

omit [Zero α] in
/-- view `k` -/
def Vars.subview (w : Vars α) (k : Nat) : View := ⟨w.vshape k, w.v.ptrs k, w.a.ptrs k⟩

/-- what a user program does with variables; `qv`, `qa` are the addresses of new storage -/
inductive VarStep (α : Type)
  /-- a new variable `i`; a scalar has the initial value `c`, an array is zero -/
  | create (i : Nat) (sh : Shape) (c : α) (qv qa : Nat)
  /-- `Var i(j)` -/
  | copy (i j qv qa : Nat)
  /-- `Var i(std::move(j))` -/
  | move (i j qv qa : Nat)
  /-- `i = j` -/
  | assign (i j qv qa : Nat)
  /-- `i = std::move(j)` -/
  | moveAssign (i j qv qa : Nat)
  /-- `i.get()(k) = x` -/
  | setVal (i k : Nat) (x : α)
  /-- `i.get_adj()(k) = x` -/
  | setAdj (i k : Nat) (x : α)
  /-- end of the life of `i` -/
  | destroy (i : Nat)
  /-- view `k` of (a part of) variable `i` -/
  | view (k i : Nat) (f : Part)
  /-- view `k` of a part of view `l` -/
  | part (k l : Nat) (f : Part)
  /-- write an element through view `k` -/
  | setViewVal (k e : Nat) (x : α)
  /-- write an adjoint through view `k` -/
  | setViewAdj (k e : Nat) (x : α)

/-- Effect of a step; `none` is undefined behaviour, a failed assertion, or code that does not compile.  The dimensions of a scalar are 1×1,
so the assertions of the assignments (var.hpp:63-64, 128-129, 193-194) say that the shapes agree (variables of different kinds cannot be assigned). -/
def Vars.step (w : Vars α) : VarStep α → Option (Vars α)
  | .create i sh c qv qa =>
      some { w with
        v := w.v.create i sh.size qv (if sh.isScl then fun _ => c else fun _ => 0)
        a := w.a.create i sh.size qa fun _ => 0
        shape := put w.shape i sh }
  | .copy i j qv qa => do
      let v ← w.v.copy i j qv
      let a ← w.a.copy i j qa
      some { w with v := v, a := a, shape := put w.shape i (w.shape j) }
  | .move i j qv qa => do
      let v ← w.v.move (w.shape j).isScl i j qv
      let a ← w.a.move (w.shape j).isScl i j qa
      some { w with v := v, a := a, shape := put w.shape i (w.shape j) }
  | .assign i j qv qa =>
      if i = j then some w
      else if w.shape i = w.shape j then do
        let v ← w.v.assign i j qv
        let a ← w.a.assign i j qa
        some { w with v := v, a := a }
      else none
  | .moveAssign i j qv qa =>
      if i = j then some w
      else if w.shape i = w.shape j then do
        let v ← w.v.moveAssign (w.shape j).isScl i j qv
        let a ← w.a.moveAssign (w.shape j).isScl i j qa
        some { w with v := v, a := a }
      else none
  | .setVal i k x => do
      let t ← w.v.slots i
      if k < (w.shape i).size then
        let v ← w.v.write t.ptr k x
        some { w with v := v }
      else none
  | .setAdj i k x => do
      let t ← w.a.slots i
      if k < (w.shape i).size then
        let a ← w.a.write t.ptr k x
        some { w with a := a }
      else none
  | .destroy i => do
      let v ← w.v.destroy i
      let a ← w.a.destroy i
      some { w with v := v, a := a }
  | .view k i f => do
      let t ← w.v.slots i
      let d ← w.a.slots i
      let (off, sh) ← f.of (w.shape i)
      some { w with v := w.v.point k t.ptr off, a := w.a.point k d.ptr off, vshape := put w.vshape k sh }
  | .part k l f => do
      let (off, sh) ← f.of (w.vshape l)
      some { w with v := w.v.point k (w.v.ptrs l) off, a := w.a.point k (w.a.ptrs l) off, vshape := put w.vshape k sh }
  | .setViewVal k e x =>
      if e < (w.vshape k).size then do
        let v ← w.v.write (w.v.ptrs k) e x
        some { w with v := v }
      else none
  | .setViewAdj k e x =>
      if e < (w.vshape k).size then do
        let a ← w.a.write (w.a.ptrs k) e x
        some { w with a := a }
      else none

/-- a sequence of steps -/
def Vars.run (w : Vars α) : List (VarStep α) → Option (Vars α)
  | [] => some w
  | c :: cs => do
      let w ← w.step c
      w.run cs

end FastAD
