import Verif.Proof.Needed
import Verif.Proof.Storage
import Verif.Proof.ForEach
import Verif.Props.AnyProg

/-!
# C48: the storage asked for is really needed

README.md "Basic Usage": "`bind_cache_size()` will return exactly how many doubles are needed for values and adjoints", and "if the expression is not bound to any storage, it will lead to
segfault".  C04 and C05 say that these cells are enough; here is the converse.  All theorems hold over every scalar type.
-/

namespace FastAD

section
variable {α : Type} [Zero α] [One α] [Add α] [Sub α] [Neg α] [Mul α] [Div α] [NatCast α] [IntCast α]
variable [Fn α] [HasInf α] [LinAlg α]

/-- **C48, unbound expressions.** Every call of `evaluate` or `autodiff` on an expression that has to store a (non-empty) value but whose view was not bound is undefined behaviour, whatever the
state of the memory. -/
theorem C48_unbound {e : Expr α} (he : e.StoresValue) (hv : e.view.val = none) (hs : 0 < e.size) (seed : ℕ → α) (s : St α) :
    evaluate e s = none ∧ autodiff e seed s = none := by
  have h : e.feval s = none := by
    rw [Option.eq_none_iff_forall_ne_some]
    rintro ⟨s', r⟩ h
    refine absurd (feval_root he h) ?_
    rw [hv]
    intro h0
    simp only [accessible] at h0
    omega
  refine ⟨?_, ?_⟩ <;> simp [evaluate, autodiff, h]

/-- **C48, values (partial).** If `evaluate` of an expression bound to the pointers `b` is defined, then all `bind_cache_size()(0)` value cells from `b` on are allocated (in particular the
pointer is not null, unless the number is 0): with a shorter buffer `evaluate` is undefined behaviour.

Missing: expressions containing `if_else`, see `C48_false_for_if_else`. -/
theorem C48_values_needed_partial {e : Expr α} (hn : e.NoIf) {b : Pack} {s : St α} {x : St α × Ref α} (h : evaluate (e.bind b).1 s = some x) :
    accessible s.vok b.val e.bindSize.val := by
  simp only [evaluate, Option.bind_eq_bind, Option.bind_eq_some_iff] at h
  obtain ⟨⟨s1, r⟩, h1, -⟩ := h
  exact (feval_need e hn).all b s s1 r h1

/-- **C48, adjoints (partial).** If `evaluate_adj` of an expression bound to the pointers `b` is defined, then all `bind_cache_size()(1)` adjoint cells from `b` on are allocated: with a shorter
buffer it is undefined behaviour.

Missing: expressions with nodes that the backward pass does not reach, see `C48_false_for_comparison` and `C48_false_for_empty_sum`. -/
theorem C48_adjoints_needed_partial {e : Expr α} (hb : e.AllBack) {b : Pack} {s s' : St α} {seed : ℕ → α} (h : evaluateAdj (e.bind b).1 seed s = some s') :
    accessible s.aok b.adj e.bindSize.adj :=
  (beval_need e hb).all b seed s s' h

/-- **C48, exactly as many cells as needed (partial).** A program whose variables are alive and are not in the buffers at `b` can be differentiated without undefined behaviour after `bind_cache(b)` if
and only if the `bind_cache_size()` cells from `b` on are allocated.

Missing: as for `C48_values_needed_partial` and `C48_adjoints_needed_partial`. -/
theorem C48_exactly_partial {p : Expr α} {s : St α} {b : Pack} {UV UA : Set ℕ} (hp : p.Program) (hn : p.NoIf) (ha : p.AllBack)
    (hw : p.Within UV UA s.vok s.aok) (hV : ∀ k < p.bindSize.val, addr b.val + k ∉ UV) (hA : ∀ k < p.bindSize.adj, addr b.adj + k ∉ UA) (seed : ℕ → α) :
    (∃ x, autodiff (p.bind b).1 seed s = some x) ↔ accessible s.vok b.val p.bindSize.val ∧ accessible s.aok b.adj p.bindSize.adj := by
  constructor
  · rintro ⟨x, h⟩
    simp only [autodiff, Option.bind_eq_bind, Option.bind_eq_some_iff] at h
    obtain ⟨⟨s1, r⟩, h1, s2, h2, -⟩ := h
    refine ⟨C48_values_needed_partial hn h1, ?_⟩
    have := C48_adjoints_needed_partial ha h2
    rwa [(evaluate_same h1).2] at this
  · rintro ⟨h1, h2⟩
    have hr : p.Room b UV UA s.vok s.aok := ⟨h1, h2, hV, hA⟩
    have hd : Disjoint p.known (rng b.val p.bindSize.val) :=
      Set.disjoint_left.2 fun a ha => hr.offRng.1 a (hw.val a (Finset.mem_sdiff.1 (Finset.mem_coe.1 ha)).1)
    obtain ⟨s', r, h⟩ := (bind_prog hp hw hr).gautodiff (m := s.val) hd hp.needOk (fun _ _ => rfl) hp.shapeOk seed
    exact ⟨_, h.run⟩

end

/-! ### Samples in fixed-point arithmetic -/

namespace Fix

/-- `x * y` was not bound: undefined behaviour -/
example : evaluate (.mkBinary .mul (.var x) (.var y) : Expr Fix) s = none :=
  (C48_unbound (e := .mkBinary .mul (.var x) (.var y)) trivial rfl (by decide) (fun _ => 1) s).1

/-- nor was `z = x * y` -/
example : autodiff (.mkEq z (.mkBinary .mul (.var x) (.var y)) : Expr Fix) (fun _ => 1) s = none :=
  (C48_unbound (e := .mkEq z (.mkBinary .mul (.var x) (.var y))) trivial rfl (by decide) (fun _ => 1) s).2

/-- the sample program with all value cells up to `n` and all adjoint cells up to `k` allocated -/
def room (n k : ℕ) : St Fix := { s with vok := fun a => decide (a < n), aok := fun a => decide (a < k) }

theorem p_size : p.bindSize = ⟨4, 4⟩ := by decide

/-- `z = x * y, y *= z, y + x` asks for 4 + 4 cells.  Bound at cell 6, it needs the cells 6 to 9 of both heaps and no others. -/
example (n k : ℕ) (hn : 6 ≤ n) (hk : 6 ≤ k) :
    (∃ r, autodiff (p.bind ⟨some 6, some 6⟩).1 (fun _ => 1) (room n k) = some r) ↔ 10 ≤ n ∧ 10 ≤ k := by
  have hw : p.Within {a | a < 6} {a | a < 6} (room n k).vok (room n k).aok := by
    refine ⟨alive_mono p_alive (fun a h => ?_) (fun a h => ?_), ?_, ?_⟩
    · simp only [s, room, decide_eq_true_eq] at h ⊢; omega
    · simp only [s, room, decide_eq_true_eq] at h ⊢; omega
    · decide
    · decide
  rw [C48_exactly_partial (s := room n k) (b := ⟨some 6, some 6⟩) p_program (by simp [p, Expr.NoIf, Expr.mkGlue, Expr.mkEq, Expr.mkOpEq, Expr.mkBinary])
    (by simp [p, Expr.AllBack, Expr.mkGlue, Expr.mkEq, Expr.mkOpEq, Expr.mkBinary, BOp.isComparison]) hw
    (by simp [addr]) (by simp [addr]), p_size]
  simp only [accessible, room, decide_eq_true_eq]
  constructor
  · rintro ⟨h1, h2⟩
    have := h1 3 (by omega)
    have := h2 3 (by omega)
    omega
  · rintro ⟨h1, h2⟩
    exact ⟨fun k hk => by omega, fun k hk => by omega⟩

/-- with value cells 6 to 8 only, `evaluate` of the sample program is undefined behaviour -/
example : evaluate (p.bind ⟨some 6, some 6⟩).1 (room 9 10) = none := by
  rw [Option.eq_none_iff_forall_ne_some]
  intro r h
  have := C48_values_needed_partial (by simp [p, Expr.NoIf, Expr.mkGlue, Expr.mkEq, Expr.mkOpEq, Expr.mkBinary]) h
  rw [p_size] at this
  have := this 3 (by decide)
  simp [room] at this

/-- with adjoint cells 6 to 8 only, `evaluate_adj` of the sample program is undefined behaviour -/
example : evaluateAdj (p.bind ⟨some 6, some 6⟩).1 (fun _ => 1) (room 10 9) = none := by
  rw [Option.eq_none_iff_forall_ne_some]
  intro r h
  have := C48_adjoints_needed_partial (by simp [p, Expr.AllBack, Expr.mkGlue, Expr.mkEq, Expr.mkOpEq, Expr.mkBinary, BOp.isComparison]) h
  rw [p_size] at this
  have := this 3 (by decide)
  simp [room] at this

/-- scalars -/
def a : View := ⟨.scl, some 0, some 0⟩
@[inherit_doc a] def b : View := ⟨.scl, some 1, some 1⟩
@[inherit_doc a] def c : View := ⟨.scl, some 2, some 2⟩

/-- `if_else(a, b * c, b + c)` -/
def ite : Expr Fix := .mkIfElse (.var a) (.mkBinary .mul (.var b) (.var c)) (.mkBinary .add (.var b) (.var c))
/-- `a * b < c` -/
def cmp : Expr Fix := .mkBinary .lt (.mkBinary .mul (.var a) (.var b)) (.var c)

end Fix

/-- **C48 is false of the code for `if_else`.** `if_else(a, b * c, b + c)` asks for 2 + 2 cells, but if `a ≠ 0` only the first ones are used: `autodiff` is defined although the second ones are not
allocated. -/
theorem C48_false_for_if_else : ∃ (e : Expr Fix) (b : Pack) (s : St Fix), e.WF ∧ e.bindSize = ⟨2, 2⟩ ∧ (autodiff (e.bind b).1 (fun _ => 1) s).isSome = true ∧
    ¬ accessible s.vok b.val e.bindSize.val ∧ ¬ accessible s.aok b.adj e.bindSize.adj := by
  refine ⟨Fix.ite, ⟨some 6, some 6⟩, Fix.room 7 7, ?_, by decide, by decide, by decide, by decide⟩
  simp [Fix.ite, Expr.mkIfElse, Expr.mkBinary, Expr.WF, Fix.a, Fix.b, Fix.c, Expr.shape, Expr.view, View.null, Expr.binShape, Shape.scl, Shape.ofDims, Shape.maxKind, Shape.Ok,
    binDimsOk, Shape.isScl, Expr.isIf, Expr.retKind]

/-- **C48 is false of the code for comparisons.** `a * b < c` asks for an adjoint cell (of `a * b`) which is never used. -/
theorem C48_false_for_comparison : ∃ (e : Expr Fix) (b : Pack) (s : St Fix), e.WF ∧ e.bindSize = ⟨2, 1⟩ ∧ (autodiff (e.bind b).1 (fun _ => 1) s).isSome = true ∧
    ¬ accessible s.aok b.adj e.bindSize.adj := by
  refine ⟨Fix.cmp, ⟨some 6, some 6⟩, Fix.room 8 6, ?_, by decide, by decide, by decide⟩
  simp [Fix.cmp, Expr.mkBinary, Expr.WF, Fix.a, Fix.b, Fix.c, Expr.shape, Expr.view, View.null, Expr.binShape, Shape.scl, Shape.ofDims, Shape.maxKind, Shape.Ok,
    binDimsOk, Shape.isScl, Expr.isIf, BOp.isComparison]

/-- **C48 is false of the code for empty sums.** `sum(begin, end, f)` of scalars asks for an adjoint cell, which is not used if the range is empty. -/
theorem C48_false_for_empty_sum : ∃ (e : Expr Fix) (b : Pack) (s : St Fix), e.WF ∧ e.bindSize = ⟨1, 1⟩ ∧ (autodiff (e.bind b).1 (fun _ => 1) s).isSome = true ∧
    ¬ accessible s.aok b.adj e.bindSize.adj := by
  refine ⟨.mkSumIter .scl .nil, ⟨some 6, some 6⟩, Fix.room 7 6, ?_, by decide, by decide, by decide⟩
  simp [Expr.mkSumIter, Expr.WF, Exprs.WFs, Exprs.toList, View.null, Expr.iterShape, Shape.ofDims, Shape.Ok]

end FastAD
