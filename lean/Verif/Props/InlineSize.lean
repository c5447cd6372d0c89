import Verif.Proof.InlineSize
import Verif.Props.Inline

/-!
# Placeholders save cache cells

Property C49: programs with placeholders never need more cells than the expressions without.
-/

namespace FastAD

variable {α : Type}

/-- `w * w` is well-formed -/
theorem SampleInl.square_wf (i : ℕ) : (Expr.mkBinary .mul (.var (SampleInl.sv i)) (.var (SampleInl.sv i)) : Expr α).WF := by
  refine ⟨?_, ?_, ?_, ?_, ?_⟩ <;>
    simp [Expr.WF, Expr.mkBinary, Expr.shape, Expr.view, View.null, Expr.binShape, Shape.ofDims, Shape.maxKind, SampleInl.sv, Shape.scl, Shape.Ok,
      binDimsOk, sameDims, Shape.isScl, Expr.isIf]

/-- **C49, one placeholder.** Writing the expression `r` in place of each of the `k` mentions of the variable `w` in `e` costs `k` times the cells of `r`
on top of the cells of `e`; the program `w = r, e` needs the cells of `r` once, less the cells of its root node, which is stored in `w`. -/
theorem C49_one {w : View} {r e : Expr α} (hr : r.shape = w.shape) (he : e.WF) :
    (e.subst w r).bindSize = ⟨e.bindSize.val + e.vars.count w * r.bindSize.val, e.bindSize.adj + e.vars.count w * r.bindSize.adj⟩ ∧
    (Expr.mkGlue (.mkEq w r) e).bindSize.val + r.single.val = r.bindSize.val + e.bindSize.val ∧
    (Expr.mkGlue (.mkEq w r) e).bindSize.adj + r.single.adj = r.bindSize.adj + e.bindSize.adj := by
  refine ⟨subst_bindSize hr e he, ?_, ?_⟩
  · have := (single_le r).1
    show r.bindSize.val - r.single.val + e.bindSize.val + r.single.val = _
    omega
  · have := (single_le r).2
    show r.bindSize.adj - r.single.adj + e.bindSize.adj + r.single.adj = _
    omega

/-- **C49.** Let `p` be a program consisting of assignments `w₁ = r₁, …, wₙ = rₙ` of operations to distinct placeholders and a final expression `e`, such that every placeholder
is used in a later right-hand side or in `e`.  The cache of `p` together with the values of the placeholders is not larger than the value cache of the expression
without placeholders; and the adjoint cache is smaller by at least the adjoints of the root nodes of the right-hand sides. -/
theorem C49_placeholders [Zero α] [One α] [Add α] [Sub α] [Neg α] [Mul α] [Div α] [NatCast α] [IntCast α] [Fn α] [HasInf α] [LinAlg α] {p e : Expr α} {ss : List (View × Expr α)} (hp : p.Program) (hflat : p.flat = ss.map (fun x => .mkEq x.1 x.2) ++ [e]) (he : e.WF)
    (hop : ∀ x ∈ ss, x.2.IsOp) (hd : (ss.map Prod.fst).Nodup) (hu : AllUsed ss e) :
    p.bindSize.val + (ss.map fun x => x.1.size).sum ≤ (inline ss e).bindSize.val ∧
    p.bindSize.adj + (ss.map fun x => x.2.single.adj).sum ≤ (inline ss e).bindSize.adj := by
  have hb := (flat_bind p ⟨none, none⟩).2
  rw [hflat] at hb
  rw [hb]
  refine inline_size he (fun x hx => ?_) hd hu
  have := ((flat_spec p hp.tree).1 (.mkEq x.1 x.2) (by rw [hflat]; exact List.mem_append.2 (.inl (List.mem_map.2 ⟨x, hx, rfl⟩)))).1
  exact ⟨this.1, this.2.2.1, hop x hx⟩

/-- C49 applied to `w₁ = x * y, w₂ = sin(w₁) * w₁, w₂ * w₁ + exp(w₁)`: 4 cells and 2 placeholders instead of 9 cells. -/
example [HasInf ℝ] [LinAlg ℝ] : SampleInl.p.bindSize = ⟨4, 4⟩ ∧ (inline SampleInl.ss SampleInl.e).bindSize = ⟨9, 9⟩ ∧
    SampleInl.p.bindSize.val + (SampleInl.ss.map fun x => x.1.size).sum ≤ (inline SampleInl.ss SampleInl.e).bindSize.val ∧
    SampleInl.p.bindSize.adj + (SampleInl.ss.map fun x => x.2.single.adj).sum ≤ (inline SampleInl.ss SampleInl.e).bindSize.adj := by
  refine ⟨by decide, by decide, C49_placeholders SampleInl.p_program SampleInl.p_flat SampleInl.e_wf (by simp [SampleInl.ss, Expr.IsOp, Expr.mkBinary]) (by decide) ?_⟩
  simp [SampleInl.ss, SampleInl.e, AllUsed, Expr.mkBinary, Expr.mkUnary, Expr.vars, SampleInl.sv]

/-- C49 for one placeholder, applied to `w * w` with `w = sin(x) * y`. -/
example : (Expr.subst (.mkBinary .mul (.var (SampleInl.sv 2)) (.var (SampleInl.sv 2)) : Expr ℝ) (SampleInl.sv 2)
      (.mkBinary .mul (.mkUnary .sin (.var (SampleInl.sv 0))) (.var (SampleInl.sv 1)))).bindSize = ⟨1 + 2 * 2, 1 + 2 * 2⟩ :=
  (C49_one (w := SampleInl.sv 2) (r := .mkBinary .mul (.mkUnary .sin (.var (SampleInl.sv 0))) (.var (SampleInl.sv 1))) rfl (SampleInl.square_wf 2)).1

/-- **C49, the adjoints of the placeholders themselves.** Nodes that store no adjoint (`sum`, `norm`, `det`, log-densities) gain one by being assigned: `w = sum(v), sin(w)` needs an adjoint
cell for `w` and one for the sine, `sin(sum(v))` only the latter.  So the adjoints of the placeholders cannot be added on the left-hand side of `C49_placeholders`. -/
theorem C49_adjoints_of_sums : ∃ (w : View) (r e : Expr ℝ), r.WF ∧ e.WF ∧ r.shape = w.shape ∧ r.IsOp ∧ AllUsed [(w, r)] e ∧
    (inline [(w, r)] e).bindSize.adj < (Expr.mkGlue (.mkEq w r) e).bindSize.adj + w.size := by
  refine ⟨SampleInl.sv 2, .mkReduce .sum (.cons (.var ⟨.vec 3, some 10, some 10⟩) .nil), .mkUnary .sin (.var (SampleInl.sv 2)), ?_, ?_, rfl, trivial, ?_, by decide⟩
  · simp [Expr.mkReduce, Expr.WF, Exprs.WFs, Exprs.toList, View.null, Shape.Ok, Shape.vec, Shape.scl, Expr.shape, Expr.view, RedOp.ShapeOk, Expr.isIf]
  · simp [Expr.mkUnary, Expr.WF, View.null, Shape.Ok, Shape.scl, Expr.shape, Expr.view, SampleInl.sv, Expr.isIf]
  · simp [AllUsed, Expr.mkUnary, Expr.vars]

/-! ### Linear against exponential -/

namespace Squares

open SampleInl (sv)

/-- `wᵢ * wᵢ` -/
def sq (i : ℕ) : Expr α := .mkBinary .mul (.var (sv i)) (.var (sv i))

/-- `wᵢ₊₁ = wᵢ * wᵢ, …, wᵢ₊ₙ = wᵢ₊ₙ₋₁ * wᵢ₊ₙ₋₁` -/
def ss : ℕ → ℕ → List (View × Expr α)
  | _, 0 => []
  | i, n + 1 => (sv (i + 1), sq i) :: ss (i + 1) n

/-- the whole program: `wᵢ₊₁ = wᵢ * wᵢ, …, wᵢ₊ₙ = wᵢ₊ₙ₋₁ * wᵢ₊ₙ₋₁, wᵢ₊ₙ * wᵢ₊ₙ` -/
def prog : ℕ → ℕ → Expr α
  | i, 0 => sq i
  | i, n + 1 => .mkGlue (.mkEq (sv (i + 1)) (sq i)) (prog (i + 1) n)

end Squares

/-- **C49, repeated squaring.** The program `w₁ = w₀ * w₀, …, wₙ = wₙ₋₁ * wₙ₋₁, wₙ * wₙ` needs one cell for its last node and the `n` placeholders;
the same expression without placeholders needs `2ⁿ⁺¹ - 1` cells. -/
theorem C49_squares (n : ℕ) :
    (Squares.prog (α := α) 0 n).flat = (Squares.ss 0 n).map (fun x => .mkEq x.1 x.2) ++ [Squares.sq n] ∧
    (Squares.prog (α := α) 0 n).bindSize = ⟨1, 1⟩ ∧ ((Squares.ss (α := α) 0 n).map fun x => x.1.size).sum = n ∧
    (inline (Squares.ss (α := α) 0 n) (Squares.sq n)).bindSize = ⟨2 ^ (n + 1) - 1, 2 ^ (n + 1) - 1⟩ := by
  have wf : ∀ i, (Squares.sq (α := α) i).WF := fun i => SampleInl.square_wf i
  have op : ∀ i, (Squares.sq (α := α) i).IsOp := fun i => trivial
  have all : ∀ n i, ∀ x ∈ Squares.ss (α := α) i n, x.2.WF ∧ x.2.shape = x.1.shape ∧ x.2.IsOp := by
    intro n
    induction n with
    | zero => intro i x hx; cases hx
    | succ n ih =>
      intro i x hx
      rcases List.mem_cons.1 hx with rfl | hx
      · exact ⟨wf i, rfl, op i⟩
      · exact ih (i + 1) x hx
  have main : ∀ n i, (Squares.prog (α := α) i n).flat = (Squares.ss i n).map (fun x => .mkEq x.1 x.2) ++ [Squares.sq (i + n)] ∧
      (Squares.prog (α := α) i n).bindSize = ⟨1, 1⟩ ∧ ((Squares.ss (α := α) i n).map fun x => x.1.size).sum = n ∧
      (inline (Squares.ss (α := α) i n) (Squares.sq (i + n))).bindSize = ⟨2 ^ (n + 1) - 1, 2 ^ (n + 1) - 1⟩ ∧
      (inline (Squares.ss (α := α) i n) (Squares.sq (i + n))).vars = List.replicate (2 ^ (n + 1)) (SampleInl.sv i) := by
    intro n
    induction n with
    | zero => intro i; exact ⟨rfl, rfl, rfl, rfl, rfl⟩
    | succ n ih =>
      intro i
      obtain ⟨h1, h2, h3, h4, h5⟩ := ih (i + 1)
      have hi : i + 1 + n = i + (n + 1) := by omega
      rw [hi] at h1 h4 h5
      have hw := inline_wf' (ss := Squares.ss (α := α) (i + 1) n) (wf (i + (n + 1))) (all n (i + 1))
      refine ⟨?_, ?_, ?_, ?_, ?_⟩
      · show [Expr.mkEq _ _] ++ (Squares.prog (i + 1) n).flat = _
        rw [h1]; rfl
      · show (Expr.mkEq (SampleInl.sv (i + 1)) (Squares.sq i)).bindSize + (Squares.prog (i + 1) n).bindSize = _
        rw [h2]; rfl
      · simp only [Squares.ss, List.map_cons, List.sum_cons, h3]
        exact Nat.add_comm 1 n
      · show (Expr.subst _ _ _).bindSize = _
        rw [subst_bindSize (w := SampleInl.sv (i + 1)) (r := Squares.sq i) rfl _ hw, h4, h5, List.count_replicate_self]
        have e1 : (Squares.sq (α := α) i).bindSize = ⟨1, 1⟩ := rfl
        have : 0 < 2 ^ (n + 1) := Nat.pow_pos (by omega)
        rw [e1]
        simp only [SizePack.mk.injEq]
        rw [pow_succ 2 (n + 1)]
        omega
      · show (Expr.subst _ _ _).vars = _
        rw [subst_flatMap _ hw, h5, pow_succ 2 (n + 1)]
        generalize 2 ^ (n + 1) = m
        induction m with
        | zero => rfl
        | succ m ihm =>
          rw [List.replicate_succ, List.flatMap_cons, ihm, if_pos rfl, Nat.succ_mul]
          simp only [Squares.sq, Expr.mkBinary, Expr.vars, List.replicate_succ, List.cons_append, List.nil_append]
  have h := main n 0
  rw [Nat.zero_add] at h
  exact ⟨h.1, h.2.1, h.2.2.1, h.2.2.2.1⟩

end FastAD
