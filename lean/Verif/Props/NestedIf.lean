import Verif.Props.Memory
import Verif.Proof.NestedIf

/-!
# Every `if_else` whose value is needed by an enclosing node breaks differentiation

Properties C05, C11.
-/

namespace FastAD

section
variable {α : Type} [Zero α] [One α] [Add α] [Sub α] [Neg α] [Mul α] [Div α] [NatCast α] [IntCast α]
variable [Fn α] [HasInf α] [LinAlg α]

/-- **C05 (and C11) are false for every nested `if_else`**: in any arithmetic, whatever the caches, the values, the seed and the contents of memory,
if some node that the backward pass always reaches needs the value of an operand that is an `if_else`, then `evaluate_adj` and `autodiff` of the bound
expression are undefined.  (`sin(if_else(...))` of `C05_false_for_nested_if_else` is one of them.)  `bind_cache` does not bind the view of the
`if_else` node itself (if_else.hpp:94-99), so that its `get()` is a null pointer. -/
theorem C05_false_for_every_nested_if_else {e : Expr α} (h : e.ReadsIf) (qv qa : ℕ) (jv ja : ℕ → α) (seed : ℕ → α) (s t : St α) :
    evaluateAdj (bindExpr e qv qa jv ja s).1 seed t = none ∧ autodiff (bindExpr e qv qa jv ja s).1 seed t = none := by
  have hb : ∀ t : St α, evaluateAdj (bindExpr e qv qa jv ja s).1 seed t = none := readsIf_beval _ (readsIf_bind e _ h) seed
  refine ⟨hb t, ?_⟩
  rw [autodiff]
  cases FastAD.evaluate (bindExpr e qv qa jv ja s).1 t with
  | none => rfl
  | some p => simp [hb]

end

/-- the theorem applies to `sin(if_else(x < x, x, x))` -/
example [HasInf ℝ] [LinAlg ℝ] (seed : ℕ → ℝ) (t : St ℝ) : autodiff (bindExpr Sample.sinIf 10 10 0 0 Sample.s).1 seed t = none :=
  (C05_false_for_every_nested_if_else (e := Sample.sinIf) (Or.inl ⟨⟨rfl, one_ne_zero⟩, Or.inl rfl⟩) 10 10 0 0 seed Sample.s t).2

/-- `exp(x) + (x + if_else(x < x, x, x))`: here the sum looks at the scalar `if_else` although its derivative does not need the value -/
def Sample.plusIf : Expr ℝ :=
  .mkBinary .add (.mkUnary .exp (.var Sample.x))
    (.mkBinary .add (.var Sample.x) (.mkIfElse (.mkBinary .lt (.var Sample.x) (.var Sample.x)) (.var Sample.x) (.var Sample.x)))

/-- the theorem applies to it -/
example [HasInf ℝ] [LinAlg ℝ] (seed : ℕ → ℝ) (t : St ℝ) : evaluateAdj (bindExpr Sample.plusIf 10 10 0 0 Sample.s).1 seed t = none :=
  (C05_false_for_every_nested_if_else (e := Sample.plusIf) ⟨rfl, Or.inr (Or.inr (Or.inr ⟨rfl, Or.inr (Or.inl ⟨⟨rfl, one_ne_zero⟩, Or.inr rfl⟩)⟩))⟩ 10 10 0 0 seed Sample.s t).1

end FastAD
