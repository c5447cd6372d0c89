import Verif.Model.Ops

/-!
# Forward mode

`ForwardVar<T>` = `core::ADForward<T>` (forward/core/forward.hpp) over `DualNum<T>` (forward/core/dualnum.hpp), and straight-line programs
of its overloaded operators.
-/

namespace FastAD

variable {α : Type} [Zero α] [One α] [Add α] [Sub α] [Neg α] [Mul α] [Div α] [Fn α]

/-- `core::DualNum<T>`, dualnum.hpp:10-51: `w_` (value) and `df_` (adjoint). -/
structure Dual (α : Type) where
  w : α
  df : α

/-- `ADForward()`, forward.hpp:84-86. -/
def Dual.zero : Dual α := ⟨0, 0⟩

/-- `ADForward(w, df = 0)`, forward.hpp:88-90, called with one argument. -/
def Dual.ofVal (w : α) : Dual α := ⟨w, 0⟩

/-- The unary functions of forward mode, forward.hpp:107-140. -/
inductive FUn
  | neg | sin | cos | tan | asin | acos | atan | exp | log | sqrt | erf
  deriving DecidableEq, Repr

/-- The unary functions on `ADForward`, forward.hpp:107-140, in the order of the C++ operations.  The literal
`1.1283791670955126` is `Fn.twoOverSqrtPi`. -/
def FUn.map : FUn → Dual α → Dual α
  | .neg, x => ⟨-x.w, -x.df⟩                                                 -- 107
  | .sin, x => ⟨Fn.sin x.w, Fn.cos x.w * x.df⟩                               -- 109-110
  | .cos, x => ⟨Fn.cos x.w, -Fn.sin x.w * x.df⟩                              -- 112-113
  | .tan, x => let tmp := 1 / Fn.cos x.w; ⟨Fn.tan x.w, tmp * tmp * x.df⟩     -- 115-116
  | .asin, x => ⟨Fn.asin x.w, x.df / Fn.sqrt (1 - x.w * x.w)⟩                -- 118-119
  | .acos, x => ⟨Fn.acos x.w, -x.df / Fn.sqrt (1 - x.w * x.w)⟩               -- 121-122
  | .atan, x => ⟨Fn.atan x.w, x.df / (1 + x.w * x.w)⟩                        -- 124-125
  | .exp, x => let tmp := Fn.exp x.w; ⟨tmp, tmp * x.df⟩                      -- 127-128
  | .log, x => ⟨Fn.log x.w, x.df / x.w⟩                                      -- 130-131
  | .sqrt, x => let tmp := Fn.sqrt x.w; ⟨tmp, x.df / ((1 + 1) * tmp)⟩        -- 133-134
  | .erf, x => let tsq := x.w * x.w; ⟨Fn.erf x.w, Fn.twoOverSqrtPi * Fn.exp (-tsq)⟩ -- 136-140

/-- The binary operators of forward mode, forward.hpp:149-159. -/
inductive FBin
  | add | sub | mul | div
  deriving DecidableEq, Repr

/-- The binary operators on `ADForward`, forward.hpp:149-159. -/
def FBin.map : FBin → Dual α → Dual α → Dual α
  | .add, x, y => ⟨x.w + y.w, x.df + y.df⟩
  | .sub, x, y => ⟨x.w - y.w, x.df - y.df⟩
  | .mul, x, y => ⟨x.w * y.w, x.w * y.df + x.df * y.w⟩
  | .div, x, y => ⟨x.w / y.w, (x.df * y.w - x.w * y.df) / (y.w * y.w)⟩

/-- A C++ expression over `ForwardVar` objects: `var i` is the `i`-th object, `lit c` is `ForwardVar<T>(c)`. -/
inductive FExpr (α : Type)
  | var (i : Nat)
  | lit (c : α)
  | un (op : FUn) (e : FExpr α)
  | bin (op : FBin) (l r : FExpr α)

/-- evaluation of an expression, `d i` being the current content of object `i` -/
def FExpr.eval : FExpr α → (Nat → Dual α) → Dual α
  | .var i, d => d i
  | .lit c, _ => .ofVal c
  | .un op e, d => op.map (e.eval d)
  | .bin op l r, d => op.map (l.eval d) (r.eval d)

/-- Statements over `ForwardVar` objects: copy assignment `xᵢ = e` and `xᵢ += e`. -/
inductive FStmt (α : Type)
  | assign (i : Nat) (e : FExpr α)
  | addAssign (i : Nat) (e : FExpr α)

/-- replace the content of object `i` -/
def setReg {β : Type} (d : Nat → β) (i : Nat) (x : β) : Nat → β := fun j => if j = i then x else d j

/-- one statement; `operator+=` is `*this = *this + x`, forward.hpp:163-166 -/
def FStmt.run : FStmt α → (Nat → Dual α) → Nat → Dual α
  | .assign i e, d => setReg d i (e.eval d)
  | .addAssign i e, d => setReg d i (FBin.add.map (d i) (e.eval d))

/-- a straight-line program -/
def runForward (p : List (FStmt α)) (d : Nat → Dual α) : Nat → Dual α := p.foldl (fun d st => st.run d) d

end FastAD
