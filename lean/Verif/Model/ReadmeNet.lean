import Verif.Model.Loop

/-!
# The program of README.md "3-layer Neural Network with Jump Connection"

README.md:670-757.  All addresses are arbitrary: `parm` and `grad` are the two pointers handed over by the caller (the optimiser), `xb` and `yb` the addresses of the two row
buffers.
-/

namespace FastAD

namespace ReadmeNet

variable (parm grad : Nat)

/-- the views of parameters and gradient, README.md:693-698 -/
def A1 : View := ⟨.mat 3 2, some parm, some grad⟩
@[inherit_doc A1] def b1 : View := ⟨.mat 3 1, some (parm + 6), some (grad + 6)⟩
@[inherit_doc A1] def A2 : View := ⟨.mat 3 3, some (parm + 9), some (grad + 9)⟩
@[inherit_doc A1] def b2 : View := ⟨.mat 3 1, some (parm + 18), some (grad + 18)⟩
@[inherit_doc A1] def A3 : View := ⟨.mat 1 3, some (parm + 21), some (grad + 21)⟩
@[inherit_doc A1] def b3 : View := ⟨.mat 1 1, some (parm + 24), some (grad + 24)⟩

variable {α : Type} (xb yb : Nat)

/-- `auto x1 = dot(A1, xi) + b1;` README.md:707.  Copies of an unbound expression share nothing, hence `x1` may be used twice below. -/
def x1 : Expr α := .mkBinary .add (.mkDot (.var (A1 parm grad)) (.cview (.mat 2 1) (some xb))) (.var (b1 parm grad))
/-- `auto y1 = sigmoid(x1);` README.md:708 -/
def y1 : Expr α := .mkUnary .sigmoid (x1 parm grad xb)
/-- `auto y2 = sigmoid(dot(A2, y1) + b2) + x1;` README.md:709 -/
def y2 : Expr α :=
  .mkBinary .add (.mkUnary .sigmoid (.mkBinary .add (.mkDot (.var (A2 parm grad)) (y1 parm grad xb)) (.var (b2 parm grad)))) (x1 parm grad xb)
/-- `auto y3 = dot(A3, y2) + b3;` README.md:710 -/
def y3 : Expr α := .mkBinary .add (.mkDot (.var (A3 parm grad)) (y2 parm grad xb)) (.var (b3 parm grad))
/-- `auto residual_norm2 = pow<2>(yi - y3);` README.md:711 -/
def residual : Expr α := .mkPow 2 (.mkBinary .sub (.cview (.mat 1 1) (some yb)) (y3 parm grad xb))

/-- `x_row_buffer = X.row(i); y_row_buffer = y.row(i);` README.md:721-722 -/
def row (d : α × α × α) : List (Nat × α) := [(xb, d.1), (xb + 1, d.2.1), (yb, d.2.2)]

variable [Zero α] [One α] [Add α] [Sub α] [Neg α] [Mul α] [Div α] [NatCast α] [IntCast α] [Fn α] [HasInf α] [LinAlg α]

/-- addresses returned by the allocator during one call of `NN::loss`, and what the memory of the caches contains before it is written -/
structure Alloc (α : Type) where
  xb : Nat
  yb : Nat
  qv : Nat
  qa : Nat
  jv : Nat → α
  ja : Nat → α

/-- `NN::loss(parm, grad)`, README.md:688-728, for a data matrix `X` with two columns and one output `y` per row.  Reading `X.row(0)` (README.md:701) is undefined if there are no rows.
The buffers and the caches are freed at the end. -/
def loss (data : List (α × α × α)) (L : Alloc α) (s : St α) : Option (St α × α) :=
  match data with
  | [] => none
  | d :: _ => do
      let s ← s.writeA (some grad) 25 (fun _ => 0)
      let s := s.allocate ⟨2, 0⟩ L.xb 0 (fun k => if k = 0 then d.1 else d.2.1) (fun _ => 0)
      let s := s.allocate ⟨1, 0⟩ L.yb 0 (fun _ => d.2.2) (fun _ => 0)
      let (b, s) := bindExpr (residual parm grad L.xb L.yb) L.qv L.qa L.jv L.ja s
      let (s, l) ← dataLoop b (fun _ => 1) [] (data.map (row L.xb L.yb)) 0 s
      let s := s.release (residual (α := α) parm grad L.xb L.yb).bindSize L.qv L.qa
      let s := s.release ⟨1, 0⟩ L.yb 0
      some (s.release ⟨2, 0⟩ L.xb 0, l)

/-- An optimiser such as ceres (`NNfunctor::Evaluate`, example/ceres_3layer_neural_net/src.cpp:61-72, calls `NN::loss`): in every round it chooses the next point from all
points, losses and gradients seen so far, stores it at `parm`, calls `NN::loss` and reads loss and gradient.  The most recent round comes first. -/
def optimise (data : List (α × α × α)) (next : List ((Nat → α) × α × (Nat → α)) → Nat → α) :
    List (Alloc α) → List ((Nat → α) × α × (Nat → α)) → St α → Option (St α × List ((Nat → α) × α × (Nat → α)))
  | [], h, s => some (s, h)
  | L :: Ls, h, s => do
      let s ← s.writeV (some parm) 25 (next h)
      let (s, l) ← loss parm grad data L s
      let g ← s.readA (some grad) 25
      optimise data next Ls ((trunc 25 (next h), l, g) :: h) s

end ReadmeNet

end FastAD
