import Verif.Model.Loop
import Verif.Spec.Program

/-!
# The program of example/ceres_3layer_neural_net/src.cpp

`src.cpp` below is this file.  The parameters are stored in value cells 0 to 24 and the gradient in adjoint cells 0 to 24 (src.cpp:22-28), the placeholders in cells 25 to 35
(src.cpp:30) and the buffers of the row in value cells 36 to 38 (src.cpp:33-36).
-/

namespace FastAD

namespace Sample.Ceres

/-- parameters (src.cpp:22-28): A1 (3×2), b1 (3×1), A2 (3×3), b2 (3×1), A3 (1×3), b3 (1×1) view the array of parameters at value cell 0 and the array of gradients at adjoint cell 0 -/
def A1 : View := ⟨.mat 3 2, some 0, some 0⟩
@[inherit_doc A1] def b1 : View := ⟨.mat 3 1, some 6, some 6⟩
@[inherit_doc A1] def A2 : View := ⟨.mat 3 3, some 9, some 9⟩
@[inherit_doc A1] def b2 : View := ⟨.mat 3 1, some 18, some 18⟩
@[inherit_doc A1] def A3 : View := ⟨.mat 1 3, some 21, some 21⟩
@[inherit_doc A1] def b3 : View := ⟨.mat 1 1, some 24, some 24⟩
/-- placeholders (src.cpp:30) -/
def x1 : View := ⟨.mat 3 1, some 25, some 25⟩
@[inherit_doc x1] def y1 : View := ⟨.mat 3 1, some 28, some 28⟩
@[inherit_doc x1] def y2 : View := ⟨.mat 3 1, some 31, some 31⟩
@[inherit_doc x1] def y3 : View := ⟨.mat 1 1, some 34, some 34⟩
@[inherit_doc x1] def res : View := ⟨.mat 1 1, some 35, some 35⟩

/-- `x1 = dot(A1, xi) + b1` (src.cpp:40) -/
def e1 : Expr ℝ := .mkEq x1 (.mkBinary .add (.mkDot (.var A1) (.cview (.mat 2 1) (some 36))) (.var b1))
/-- `y1 = sigmoid(x1)` (src.cpp:40) -/
def e2 : Expr ℝ := .mkEq y1 (.mkUnary .sigmoid (.var x1))
/-- `y2 = sigmoid(dot(A2, y1) + b2) + x1` (src.cpp:40) -/
def e3 : Expr ℝ := .mkEq y2 (.mkBinary .add (.mkUnary .sigmoid (.mkBinary .add (.mkDot (.var A2) (.var y1)) (.var b2))) (.var x1))
/-- `y3 = dot(A3, y2) + b3` (src.cpp:41) -/
def e4 : Expr ℝ := .mkEq y3 (.mkBinary .add (.mkDot (.var A3) (.var y2)) (.var b3))
/-- `residual_norm2 = pow<2>(yi - y3)` (src.cpp:41) -/
def e5 : Expr ℝ := .mkEq res (.mkPow 2 (.mkBinary .sub (.cview (.mat 1 1) (some 38)) (.var y3)))

/-- the program of src.cpp:39-41; the views of the row buffers are at value cells 36, 37 and 38 (src.cpp:33-36) -/
def net : Expr ℝ := .mkGlue (.mkGlue (.mkGlue (.mkGlue e1 e2) e3) e4) e5

/-- memory: cells below 39 are allocated, all parameters and adjoints are 0 -/
noncomputable def s : St ℝ := ⟨fun _ => 0, fun _ => 0, fun a => decide (a < 39), fun a => decide (a < 39)⟩

/-- `x_row_buffer = X.row(i); y_row_buffer = y.row(i);` -/
def row (d : ℝ × ℝ × ℝ) : List (ℕ × ℝ) := [(36, d.1), (37, d.2.1), (38, d.2.2)]

end Sample.Ceres

end FastAD
