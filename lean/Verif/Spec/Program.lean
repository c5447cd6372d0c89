import Verif.Spec.Leaves
import Verif.Spec.Regular

/-!
# Programs: sequences of statements

A program is an expression built with `operator,` (`GlueNode`) and `for_each` (`ForEachIterNode`) from statements: placeholder
assignments `v = e` (`EqNode`), compound assignments `v op= e` (`OpEqNode`) and pure expressions.  Its meaning is the usual imperative one:
the statements transform the store one after the other, and the value of the program is the value of the last statement.
-/

namespace FastAD

noncomputable section

variable [HasInf ℝ] [LinAlg ℝ]

mutual
/-- the value of a program: coefficient `k` of the value of its last statement -/
def Expr.result : Expr ℝ → (ℕ → ℝ) → ℕ → ℝ
  | .eq _ e _, m, k => e.denote m k
  | .opEq op v e _ _, m, k => op.real (m (addr v.val + k)) (e.denote m (if e.shape.isScl then 0 else k))
  | .glue l r _, m, k => r.result (l.exec m) k
  | .forEach es _, m, k => es.results m 0 k
  | e, m, k => e.denote m k
/-- the value of a sequence of programs, `d` being the value of what precedes it -/
def Exprs.results : Exprs ℝ → (ℕ → ℝ) → ℝ → ℕ → ℝ
  | .nil, _, d, _ => d
  | .cons e es, m, _, k => es.results (e.exec m) (e.result m k) k
end

/-- the store after executing a list of statements -/
def execL : List (Expr ℝ) → (ℕ → ℝ) → ℕ → ℝ
  | [], m => m
  | x :: xs, m => execL xs (x.exec m)

/-- the value of a list of statements: the value of the last one -/
def resultL : List (Expr ℝ) → (ℕ → ℝ) → ℕ → ℝ
  | [], _ => fun _ => 0
  | [x], m => x.result m
  | x :: y :: xs, m => resultL (y :: xs) (x.exec m)

end

variable {α : Type}

/-- number of coefficients of the value of a list of statements -/
def sizeR : List (Expr α) → ℕ
  | [] => 0
  | [x] => x.size
  | _ :: y :: xs => sizeR (y :: xs)

mutual
/-- the statements of a program in order of execution -/
def Expr.flat : Expr α → List (Expr α)
  | .glue l r _ => l.flat ++ r.flat
  | .forEach es _ => es.flats
  | e => [e]
/-- the same for a sequence -/
def Exprs.flats : Exprs α → List (Expr α)
  | .nil => []
  | .cons e es => e.flat ++ es.flats
end

/-- the variable assigned by a placeholder statement `v = e` -/
def Expr.placeholder : Expr α → Option View
  | .eq v _ _ => some v
  | _ => none

/-- the variable assigned by a statement -/
def Expr.target : Expr α → Option View
  | .eq v _ _ => some v
  | .opEq _ v _ _ _ => some v
  | _ => none

/-- The operand of `v op= e` does not partially overlap `v` in memory (it may be `v` itself; an operand that is not itself a variable or a
constant view is evaluated into memory of its own). -/
def Expr.NoPartialOverlap (v : View) : Expr α → Prop
  | .var u => (u.val = v.val ∧ u.size = v.size) ∨ ∀ j < u.size, ∀ k < v.size, addr u.val + j ≠ addr v.val + k
  | .cview sh p => (p = v.val ∧ sh.size = v.size) ∨ ∀ j < sh.size, ∀ k < v.size, addr p + j ≠ addr v.val + k
  | _ => True

/-- Well-formed statements.  `v = e`: the right-hand side is a well-formed pure expression of the same shape, `Assignable`, and does not
mention `v`.  `v op= e`: the right-hand side is a well-formed pure expression, a scalar or of the same shape; it may mention `v`.
Other statements are well-formed pure expressions that have a memory location of their own (not a constant, not an
`if_else`, whose view is never bound). -/
def Expr.WFStmt : Expr α → Prop
  | .eq v e w => e.WF ∧ v.shape.Ok ∧ e.shape = v.shape ∧ w.shape = v.shape ∧
      e.Assignable ∧
      ∀ k < v.size, addr v.val + k ∉ e.valCells ∧ addr v.val + k ∉ e.constCells ∧ addr v.adj + k ∉ e.adjCells
  | .opEq _ v e w c => e.WF ∧ v.shape.Ok ∧ (e.shape.isScl = true ∨ e.shape = v.shape) ∧ w.shape = v.shape ∧
      c.shape = v.shape ∧ e.isIf = false ∧ e.NoPartialOverlap v
  | .glue _ _ _ => False
  | .forEach _ _ => False
  | e => e.WF ∧ e.isIf = false ∧ e.NotConst

/-- the last expression of a sequence -/
def Exprs.last : Exprs α → Option (Expr α)
  | .nil => none
  | .cons e .nil => some e
  | .cons _ (.cons e es) => Exprs.last (.cons e es)

mutual
/-- Well-formed trees of statements: the right operand of `,` and the last element of a `for_each` deliver a value, which
has the shape recorded in the node (for `for_each` that is the shape of the first element, for_each.hpp:39-44). -/
def Expr.WFTree : Expr α → Prop
  | .glue l r w => l.WFTree ∧ r.WFTree ∧ r.flat ≠ [] ∧ w.shape = r.shape
  | .forEach es w => es.WFTrees ∧ ∀ e ∈ es.last, e.flat ≠ [] ∧ w.shape = e.shape
  | e => e.WFStmt
/-- the same for a sequence -/
def Exprs.WFTrees : Exprs α → Prop
  | .nil => True
  | .cons e es => e.WFTree ∧ es.WFTrees
end

/-- A placeholder assigned by `y` is not mentioned by the earlier statement `x`. -/
def UsedAfter (x y : Expr α) : Prop :=
  ∀ v ∈ y.placeholder, ∀ k < v.size,
    addr v.val + k ∉ x.valCells ∧ addr v.val + k ∉ x.constCells ∧ addr v.adj + k ∉ x.adjCells

/-- Programs: every placeholder is assigned once, before it is used. -/
structure Expr.Program (p : Expr α) : Prop where
  tree : p.WFTree
  order : p.flat.Pairwise UsedAfter
  nonempty : p.flat ≠ []

/-- value cells of the placeholders of a program -/
def Expr.placeCells (p : Expr α) : Finset ℕ :=
  ((p.flat.filterMap Expr.placeholder).flatMap fun v => cells v.val v.size).toFinset

/-- adjoint cells of the assigned variables (placeholders and targets of compound assignments) of a program -/
def Expr.targetAdj (p : Expr α) : Finset ℕ :=
  ((p.flat.filterMap Expr.target).flatMap fun v => cells v.adj v.size).toFinset

/-- value cells of the assigned variables of a program -/
def Expr.targetCells (p : Expr α) : Finset ℕ :=
  ((p.flat.filterMap Expr.target).flatMap fun v => cells v.val v.size).toFinset

/-- the variable updated by a compound assignment -/
def Expr.updated : Expr α → Option View
  | .opEq _ v _ _ _ => some v
  | _ => none

/-- value cells of the variables updated by the compound assignments of a program -/
def Expr.updatedCells (p : Expr α) : Finset ℕ :=
  ((p.flat.filterMap Expr.updated).flatMap fun v => cells v.val v.size).toFinset

/-- The value of the statement is not stored in one of the cells `T`. -/
def Expr.StoredOutside (T : Finset ℕ) : Expr α → Prop
  | .var u => ∀ k < u.size, addr u.val + k ∉ T
  | .cview sh q => ∀ k < sh.size, addr q + k ∉ T
  | .opEq _ v _ _ _ => ∀ k < v.size, addr v.val + k ∉ T
  | _ => True

/-- The value of the program is a scalar (returned by value) or is not stored in a variable that a compound assignment of the program
updates. -/
def Expr.Stable (p : Expr α) : Prop :=
  p.shape.isScl = true ∨ ∀ x ∈ p.flat.getLast?, x.StoredOutside p.updatedCells

/-- the expressions of a sequence written out with `operator,` (left-associative) after `e` -/
def Exprs.glued (e : Expr α) : Exprs α → Expr α
  | .nil => e
  | .cons e' es => es.glued (.mkGlue e e')

/-- `s1` is a state of memory after `s0`: nothing was deallocated (the contents are arbitrary) -/
def Later (s0 s1 : St α) : Prop := (∀ a, s0.vok a = true → s1.vok a = true) ∧ ∀ a, s0.aok a = true → s1.aok a = true

variable {E : Type} [NormedAddCommGroup E] [NormedSpace ℝ E] [HasInf ℝ] [LinAlg ℝ]

/-- A statement is regular at `x0`. -/
def Expr.RegStmt (ρ : E → ℕ → ℝ) (x0 : E) : Expr ℝ → Prop
  | .eq _ e _ => e.Reg ρ x0
  | .opEq op _ e _ _ => e.Reg ρ x0 ∧ (op = .div → ∀ k < e.size, e.denote (ρ x0) k ≠ 0)
  | e => e.Reg ρ x0

/-- A sequence of statements is regular: each one is, in the store it is executed in. -/
def RegSeq : List (Expr ℝ) → (E → ℕ → ℝ) → E → Prop
  | [], _, _ => True
  | x :: xs, ρ, x0 => x.RegStmt ρ x0 ∧ RegSeq xs (fun t => x.exec (ρ t)) x0

end FastAD
