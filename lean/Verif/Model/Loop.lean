import Verif.Model.Api

/-!
# Loops over data and training loops

The user programs of the README sections "Simple Linear Regression Model" (README.md:609-668) and "3-layer Neural Network" (README.md:670-757), and of
example/ceres_3layer_neural_net/src.cpp: an expression that reads the current row of data through `constant_view`s of row buffers is bound once and
differentiated for every row.
-/

namespace FastAD

variable {α : Type}

/-- element-wise assignments to variables and buffers: `x_row_buffer = X.row(i); y_row_buffer = y.row(i);` (README.md:652-653); each pair is a cell and its new value -/
def St.store : List (Nat × α) → St α → Option (St α)
  | [], s => some s
  | (a, x) :: l, s => do
      let s ← s.writeV (some a) 1 (fun _ => x)
      St.store l s

variable [Zero α]

/-- `reset_adj()` (value_adj_view.hpp:58) of the variables owning the given adjoint cells -/
def St.resetAdj : List Nat → St α → Option (St α)
  | [], s => some s
  | a :: l, s => do
      let s ← s.writeA (some a) 1 (fun _ => 0)
      St.resetAdj l s

variable [One α] [Add α] [Sub α] [Neg α] [Mul α] [Div α] [NatCast α] [IntCast α] [Fn α] [HasInf α] [LinAlg α]

/-- The loop over the rows of the data (README.md:651-657, src.cpp:46-54) for a bound expression `b`:
```
for (i ...) { buffers = row i;  auto f = autodiff(expr, seed);  loss += f.coeff(0); }
```
In every round the adjoints `resets` are reset before `autodiff` (README.md:369-372 asks for this; the examples do not do it: `resets = []`). -/
def dataLoop (b : Expr α) (seed : Nat → α) (resets : List Nat) : List (List (Nat × α)) → α → St α → Option (St α × α)
  | [], loss, s => some (s, loss)
  | row :: rows, loss, s => do
      let s ← s.store row
      let s ← s.resetAdj resets
      let (s, r) ← autodiff b seed s
      let x ← r.read s 1
      dataLoop b seed resets rows (loss + x 0) s

/-- Parameters of a training loop: `n` parameters stored at `pv` with adjoints at `pa` (the `VarView`s of src.cpp:22-28 view one array `parm` of parameters and one
array `grad` of adjoints), the data, and the update rule of the optimiser: new parameters from parameters and gradient. -/
structure Training (α : Type) where
  n : Nat
  pv : Nat
  pa : Nat
  rows : List (List (Nat × α))
  update : (Nat → α) → (Nat → α) → Nat → α

/-- One step of the optimiser: reset the gradient (`g.setZero()`, src.cpp:19-20), loop over the data, update the parameters. -/
def Training.epoch (T : Training α) (b : Expr α) (seed : Nat → α) (resets : List Nat) (s : St α) : Option (St α × α) := do
  let s ← s.writeA (some T.pa) T.n (fun _ => 0)
  let (s, loss) ← dataLoop b seed resets T.rows 0 s
  let θ ← readCells s.val s.vok (some T.pv) T.n
  let g ← s.readA (some T.pa) T.n
  let s ← s.writeV (some T.pv) T.n (T.update θ g)
  some (s, loss)

/-- `k` steps of the optimiser; the losses are recorded -/
def Training.run (T : Training α) (b : Expr α) (seed : Nat → α) (resets : List Nat) : Nat → St α → Option (St α × List α)
  | 0, s => some (s, [])
  | k + 1, s => do
      let (s, l) ← T.epoch b seed resets s
      let (s, ls) ← T.run b seed resets k s
      some (s, l :: ls)

end FastAD
