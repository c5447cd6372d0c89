import Verif.Model.Api

/-!
# Example programs of the README

The numbers and the sizes of the programs are parameters here.
-/

namespace FastAD

namespace Readme

variable {α : Type} [Zero α] [One α] [Add α] [Sub α] [Neg α] [Mul α] [Div α] [NatCast α] [IntCast α] [Fn α] [HasInf α] [LinAlg α]

/-- a vector variable of `n` elements with values at `p` and adjoints at `q` -/
def vecVar (n p q : Nat) : View := ⟨.vec n, some p, some q⟩

/-- a scalar variable with value at `p` and adjoint at `q` -/
def sclVar (p q : Nat) : View := ⟨.scl, some p, some q⟩

/-- an `r`×`c` matrix variable with values at `p` and adjoints at `q` (column-major) -/
def matVar (r c p q : Nat) : View := ⟨.mat r c, some p, some q⟩

/-- `dot(dot(transpose(x), Sigma), x)`, README.md:597 -/
def quadraticExpr (n p q : Nat) (S : Nat → α) : Expr α :=
  .mkDot (.mkDot (.mkTranspose (.var (matVar n 1 p q))) (.const (.mat n n) S)) (.var (matVar n 1 p q))

/-- README.md:577-611 ("Quadratic Expression Differential"): what the program prints in the end, the value `f` and the adjoint of `x`.  The `n` numbers `x_data` are at `p`, their adjoints `x_adj`, which
are set to zero, at `q`; the constructor of the bound expression gets its memory at `qv`, `qa`.  `x.get()`, which is also printed, is unchanged (C09).  The first output (`Sigma`) is left out. -/
def quadratic (n p q : Nat) (x S : Nat → α) (qv qa : Nat) (jv ja : Nat → α) (s : St α) : Option (α × List α) := do
  let s := s.allocate ⟨n, n⟩ p q x (fun _ => 0)
  let (b, s) := bindExpr (quadraticExpr n p q S) qv qa jv ja s
  let (s, r) ← autodiff b (fun _ => 1) s
  let f ← r.read s 1
  let g ← s.readA (some q) n
  some (f 0, (List.range n).map g)

/-- `sin(x) + cos(v)`, README.md:352 -/
def basicExpr (n p q p' q' : Nat) : Expr α :=
  .mkBinary .add (.mkUnary .sin (.var (sclVar p q))) (.mkUnary .cos (.var (vecVar n p' q')))

/-- README.md:338-366 ("Basic Usage"): the adjoints of `x` and of all elements of `v` when the seed is 1 at index `i` and 0 elsewhere (the program prints that of `x` and that of element `i` of `v`).
The constructors of `Var` set the adjoints to zero (var.hpp:42-46, 107-111). -/
def basic (n i p q p' q' : Nat) (x : α) (v : Nat → α) (qv qa : Nat) (jv ja : Nat → α) (s : St α) : Option (α × List α) := do
  let s := s.allocate ⟨1, 1⟩ p q (fun _ => x) (fun _ => 0)
  let s := s.allocate ⟨n, n⟩ p' q' v (fun _ => 0)
  let (b, s) := bindExpr (basicExpr n p q p' q') qv qa jv ja s
  let (s, _) ← autodiff b (fun k => if k = i then 1 else 0) s
  let gx ← s.readA (some q) 1
  let gv ← s.readA (some q') n
  some (gx 0, (List.range n).map gv)

/-- `w = dot(M, v1) + v2`, README.md:394.  The variables of the program are placed one after the other from cell `p` on: `v1` (`C` elements), `v2` (`R`), `M` (`R`×`C`), `w` (`R`) and `r`. -/
def more1 (R C p : Nat) : Expr α :=
  .mkEq (vecVar R (p + C + R + R * C) (p + C + R + R * C))
    (.mkBinary .add (.mkDot (.var (matVar R C (p + C + R) (p + C + R))) (.var (vecVar C p p))) (.var (vecVar R (p + C) (p + C))))

/-- `r = sum(w) * sum(w * v2)`, README.md:395 -/
def more2 (R C p : Nat) : Expr α :=
  .mkEq (sclVar (p + C + R + R * C + R) (p + C + R + R * C + R))
    (.mkBinary .mul (.mkReduce .sum (.cons (.var (vecVar R (p + C + R + R * C) (p + C + R + R * C))) .nil))
      (.mkReduce .sum (.cons (.mkBinary .mul (.var (vecVar R (p + C + R + R * C) (p + C + R + R * C))) (.var (vecVar R (p + C) (p + C)))) .nil)))

/-- the contents of the variables when the program binds the expression: `v1`, `v2` and `M` as initialized (README.md:391), `w` and `r` zero, as constructed -/
def moreInit (R C : Nat) (v1 v2 M : Nat → α) : Nat → α := fun k =>
  if k < C then v1 k else if k < C + R then v2 (k - C) else if k < C + R + R * C then M (k - C - R) else 0

/-- README.md:377-405 ("more complicated example"): all adjoints of `v1`, `v2` and `M` in the end (the program prints one of each), and the value `autodiff` returns -/
def more (R C p : Nat) (v1 v2 M : Nat → α) (qv qa : Nat) (jv ja : Nat → α) (s : St α) : Option (α × List α × List α × List α) := do
  let s := s.allocate ⟨C + R + R * C + R + 1, C + R + R * C + R + 1⟩ p p (moreInit R C v1 v2 M) (fun _ => 0)
  let (b, s) := bindExpr (.mkGlue (more1 R C p) (more2 R C p)) qv qa jv ja s
  let (s, r) ← autodiff b (fun _ => 1) s
  let f ← r.read s 1
  let g1 ← s.readA (some p) C
  let g2 ← s.readA (some (p + C)) R
  let gM ← s.readA (some (p + C + R)) (R * C)
  some (f 0, (List.range C).map g1, (List.range R).map g2, (List.range (R * C)).map gM)

end Readme

end FastAD
