import Verif.Props.Samples
import Verif.Proof.Session
import Verif.Proof.Regions

/-!
# Cache sizes, cache layout and memory safety

Properties C04, C05, C06.
-/

namespace FastAD

/-- **C04.** `bind_cache(begin)` returns the begin pointers advanced by exactly the two numbers of `bind_cache_size()`, for every
expression (with side effects or not) and all begin addresses. -/
theorem C04_bind_size_exact {α : Type} (e : Expr α) (v a : ℕ) :
    (e.bind ⟨some v, some a⟩).2 = ⟨some (v + e.bindSize.val), some (a + e.bindSize.adj)⟩ :=
  bind_adv e ⟨some v, some a⟩

/-- the sample expression needs 1 + 2 + 2 + 1 + 1 value cells and 1 + 2 + 2 + 1 adjoint cells -/
example : (Sample.e.bind ⟨some 10, some 20⟩).2 = ⟨some 17, some 26⟩ := by
  rw [C04_bind_size_exact]; rfl

/-- **C06 (partial).** After `bind_cache`, the cache regions of any two nodes of the expression are disjoint, and all of them lie in the
block starting at the begin pointers with the lengths given by `bind_cache_size()`.  Missing: expressions containing
`w = prod(...)` or `w = (u op= ...)`, for which it is false (`C06_false_for_assigned_prod`). -/
theorem C06_caches_disjoint_partial {α : Type} (e : Expr α) (hn : e.NoScratchEq) (b : Pack) :
    (e.bind b).1.valRegions.Pairwise Disjoint ∧ (e.bind b).1.adjRegions.Pairwise Disjoint ∧
    (∀ S ∈ (e.bind b).1.valRegions, S ⊆ region b.val e.bindSize.val) ∧
    ∀ S ∈ (e.bind b).1.adjRegions, S ⊆ region b.adj e.bindSize.adj :=
  have h := regions_ok e b hn
  ⟨h.allV.1, h.allA.1, h.allV.2, h.allA.2⟩

/-- the regions of the sample expression bound at 10 and 20 -/
example : (Sample.e.bind ⟨some 10, some 20⟩).1.valRegions =
    [region (some 10) 2, region (some 12) 2, region (some 14) 1, region (some 15) 1, region (some 16) 1] ∧
    Sample.e.NoScratchEq := by
  refine ⟨rfl, ?_⟩
  simp [Sample.e, Expr.mkBinary, Expr.mkReduce, Expr.mkUnary, Expr.NoScratchEq, Exprs.NoScratchEqs]

/-- the sample program `y = sin(x), v += y * v` with side effects also satisfies the hypothesis of C06 -/
example : (Expr.mkGlue (.mkEq Sample.x (.mkUnary .sin (.var Sample.x)))
    (.mkOpEq .add Sample.v (.mkBinary .mul (.var Sample.x) (.var Sample.v))) : Expr ℝ).NoScratchEq := by
  simp [Expr.mkGlue, Expr.mkEq, Expr.mkUnary, Expr.mkOpEq, Expr.mkBinary, Expr.NoScratchEq, Expr.hasScratch]

/-- `x = prod(v), sin(x)` -/
def Sample.assignedProd : Expr ℝ := .mkGlue (.mkEq Sample.x (.mkProdElem (.var Sample.v))) (.mkUnary .sin (.var Sample.x))

/-- **C06 is false for `x = prod(v)`**: the assignment gives back the scratch adjoints of `prod` although they are still used, and the next
node of the program gets the same cells. -/
theorem C06_false_for_assigned_prod : ¬ (Sample.assignedProd.bind ⟨some 10, some 20⟩).1.adjRegions.Pairwise Disjoint := by
  have h : (Sample.assignedProd.bind ⟨some 10, some 20⟩).1.adjRegions = [region (some 20) 2, region (some 20) 1] := rfl
  rw [h]
  simp only [List.pairwise_cons, List.mem_singleton, forall_eq, not_and_or]
  left
  rw [Set.disjoint_left]
  intro hd
  exact hd (a := 20) (by simp [region]) (by simp [region])

section
variable [HasInf ℝ] [LinAlg ℝ]

/-- **C05 (partial).** Let the only accessible memory be the storage of the variables and constant views mentioned in a well-formed
side-effect-free expression.  After `bind`, which adds the two cache blocks of `bind_cache_size()` cells, `evaluate`, `evaluate_adj` and
`autodiff` are defined: as every access to inaccessible memory or through a null pointer makes the model undefined (`none`), no other
memory is read or written.  `WF` excludes an `if_else` in a position whose value is read back during the backward pass; there the property is false
(`C05_false_for_nested_if_else`).  Missing: programs with assignments; for `x = prod(v)` the property is false
(`C05_false_for_assigned_prod`). -/
theorem C05_memory_safe_partial {e : Expr ℝ} {s : St ℝ} {qv qa : ℕ} {jv ja : ℕ → ℝ} (hwf : e.WF)
    (hv : ∀ a, s.vok a = true ↔ a ∈ e.valCells ∪ e.constCells) (ha : ∀ a, s.aok a = true ↔ a ∈ e.adjCells)
    (hnull : (∀ w ∈ e.vars, w.size ≠ 0 → w.val ≠ none ∧ w.adj ≠ none) ∧ ∀ c ∈ e.cviews, c.1.size ≠ 0 → c.2 ≠ none)
    (hf : Fresh s e.bindSize qv qa) (seed : ℕ → ℝ) :
    ∃ s1 r s2, evaluate (bindExpr e qv qa jv ja s).1 (bindExpr e qv qa jv ja s).2 = some (s1, r) ∧
      evaluateAdj (bindExpr e qv qa jv ja s).1 seed s1 = some s2 ∧
      autodiff (bindExpr e qv qa jv ja s).1 seed (bindExpr e qv qa jv ja s).2 = some (s2, r) := by
  have hal : e.Alive s.vok s.aok := by
    constructor
    · intro w hw
      have hn := hnull.1 w hw
      constructor
      · cases hp : w.val with
        | none => by_contra hc; exact (hn hc).1 hp
        | some q =>
          intro k hk
          rw [hv]
          exact Finset.mem_union.2 (Or.inl (mem_valCells.2 ⟨w, hw, by rw [hp]; exact add_mem_rng hk⟩))
      · cases hp : w.adj with
        | none => by_contra hc; exact (hn hc).2 hp
        | some q =>
          intro k hk
          rw [ha]
          exact mem_adjCells.2 ⟨w, hw, by rw [hp]; exact add_mem_rng hk⟩
    · intro c hc
      have hn := hnull.2 c hc
      cases hp : c.2 with
      | none => by_contra hc; exact hn hc hp
      | some q =>
        intro k hk
        rw [hv]
        exact Finset.mem_union.2 (Or.inr (mem_constCells.2 ⟨c, hc, by rw [hp]; exact add_mem_rng hk⟩))
  have hb := bindExpr_bnd (jv := jv) (ja := ja) hwf hal hf
  obtain ⟨s1, r, h1⟩ := hb.evaluate (m := (bindExpr e qv qa jv ja s).2.val) fun _ _ => rfl
  obtain ⟨s2, h2⟩ := (show Bnd _ _ _ _ s1.vok s1.aok by rw [h1.vok, h1.aok]; exact hb).evaluateAdj h1.cached seed
  exact ⟨s1, r, s2, h1.run, h2.run, by simp [autodiff, h1.run, h2.run]⟩

/-- C05 applies to the sample expression with exactly the cells 0, 1, 2 accessible -/
example : ∃ s1 r s2, evaluate (bindExpr Sample.e 10 10 0 0 Sample.s).1 (bindExpr Sample.e 10 10 0 0 Sample.s).2 = some (s1, r) ∧
      evaluateAdj (bindExpr Sample.e 10 10 0 0 Sample.s).1 1 s1 = some s2 ∧
      autodiff (bindExpr Sample.e 10 10 0 0 Sample.s).1 1 (bindExpr Sample.e 10 10 0 0 Sample.s).2 = some (s2, r) := by
  refine C05_memory_safe_partial Sample.e_wf (fun a => ?_) (fun a => ?_) ⟨fun w hw _ => ?_, fun c hc => ?_⟩ Sample.e_fresh 1
  · have : Sample.e.valCells ∪ Sample.e.constCells = {0, 1, 2} := by decide
    rw [this]; simp [Sample.s]; omega
  · rw [Sample.e_adjCells]; simp [Sample.s]; omega
  · have : w = Sample.x ∨ w = Sample.v := by
      simp only [Sample.e, Expr.mkBinary, Expr.mkReduce, Expr.mkUnary, Expr.vars, Exprs.varss, List.append_nil, List.mem_append, List.mem_singleton] at hw
      tauto
    rcases this with rfl | rfl <;> simp [Sample.x, Sample.v]
  · simp [Sample.e, Expr.mkBinary, Expr.mkReduce, Expr.mkUnary, Expr.cviews, Exprs.cviewss] at hc

/-- `sin(if_else(x < x, x, x))`, which the API accepts -/
def Sample.sinIf : Expr ℝ :=
  .mkUnary .sin (.mkIfElse (.mkBinary .lt (.var Sample.x) (.var Sample.x)) (.var Sample.x) (.var Sample.x))

/-- **C05 is false for an `if_else` operand**: `evaluate` of the bound `sin(if_else(x < x, x, x))` is defined, but `autodiff`
dereferences the null pointer of the `if_else` node's own view, which `bind_cache` never binds (if_else.hpp:94-99, unary.hpp:82-89). -/
theorem C05_false_for_nested_if_else : Sample.sinIf.Alive Sample.s.vok Sample.s.aok ∧ Fresh Sample.s Sample.sinIf.bindSize 10 10 ∧
    (∃ s1 r, evaluate (bindExpr Sample.sinIf 10 10 0 0 Sample.s).1 (bindExpr Sample.sinIf 10 10 0 0 Sample.s).2 = some (s1, r)) ∧
    autodiff (bindExpr Sample.sinIf 10 10 0 0 Sample.s).1 1 (bindExpr Sample.sinIf 10 10 0 0 Sample.s).2 = none := by
  have hbound : (bindExpr Sample.sinIf 10 10 0 0 Sample.s).1 = .unary .sin (.ifElse (.binary .lt (.var Sample.x) (.var Sample.x)
      ⟨.scl, some 10, none⟩) (.var Sample.x) (.var Sample.x) ⟨.scl, none, none⟩) ⟨.scl, some 11, some 10⟩ := rfl
  have key : ∀ b : Bool, ∀ t : St ℝ, (if b = true then (Expr.var Sample.x).feval t else (Expr.var Sample.x).feval t) =
      (some (t, Ref.ptr (some 0)) : Option (St ℝ × Ref ℝ)) := by intro b t; cases b <;> rfl
  have hev : ∃ s1 r, evaluate (bindExpr Sample.sinIf 10 10 0 0 Sample.s).1 (bindExpr Sample.sinIf 10 10 0 0 Sample.s).2 = some (s1, r) := by
    rw [hbound, evaluate, Expr.feval, Expr.feval]
    simp only [key]
    exact ⟨_, _, rfl⟩
  refine ⟨⟨fun w hw => ?_, fun c hc => ?_⟩, ?_, hev, ?_⟩
  · simp only [Sample.sinIf, Expr.mkUnary, Expr.mkIfElse, Expr.mkBinary, Expr.vars, List.mem_append, List.mem_singleton, or_self] at hw
    subst hw
    constructor <;> intro k hk <;> simp [Sample.x, View.size, Shape.size, Shape.scl, Sample.s] at hk ⊢ <;> omega
  · simp [Sample.sinIf, Expr.mkUnary, Expr.mkIfElse, Expr.mkBinary, Expr.cviews] at hc
  · constructor <;> intro k _ <;> simp [Sample.s] <;> omega
  · obtain ⟨s1, r, h⟩ := hev
    rw [autodiff, h, hbound]
    rfl

/-- **C05 is false for `x = prod(v), sin(x)`**: `evaluate` is defined but `autodiff` writes scratch adjoints outside the cache block. -/
theorem C05_false_for_assigned_prod : Sample.assignedProd.Alive Sample.s.vok Sample.s.aok ∧
    Fresh Sample.s Sample.assignedProd.bindSize 10 10 ∧
    (∃ s1 r, evaluate (bindExpr Sample.assignedProd 10 10 0 0 Sample.s).1 (bindExpr Sample.assignedProd 10 10 0 0 Sample.s).2 = some (s1, r)) ∧
    autodiff (bindExpr Sample.assignedProd 10 10 0 0 Sample.s).1 1 (bindExpr Sample.assignedProd 10 10 0 0 Sample.s).2 = none := by
  refine ⟨?_, ?_, ⟨_, _, rfl⟩, rfl⟩
  · constructor
    · intro w hw
      simp only [Sample.assignedProd, Expr.mkGlue, Expr.mkEq, Expr.mkProdElem, Expr.mkUnary, Expr.vars, List.mem_append, List.mem_cons,
        List.not_mem_nil, or_false] at hw
      rcases hw with (rfl | rfl) | rfl <;> constructor <;> intro k hk <;>
        simp [Sample.x, Sample.v, View.size, Shape.size, Shape.scl, Shape.vec, Sample.s] at hk ⊢ <;> omega
    · intro c hc
      simp [Sample.assignedProd, Expr.mkGlue, Expr.mkEq, Expr.mkProdElem, Expr.mkUnary, Expr.cviews] at hc
  · constructor <;> intro k _ <;> simp [Sample.s] <;> omega

end

end FastAD
