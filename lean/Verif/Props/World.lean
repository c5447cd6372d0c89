import Verif.Proof.World
import Verif.Props.Program

/-!
# Programs with variables, views and bound expressions

Property C61.  The reference semantics (`Verif/Spec/World.lean`) knows neither caches nor storage.
-/

namespace FastAD

section
variable [HasInf ℝ] [LinAlg ℝ]

/-- **C61 (partial).** Let a program create, copy, move, assign and destroy variables, make views of them, write through variables and views, bind expressions built from views
(pure expressions, or sequences of placeholder assignments, compound assignments and expressions as in C02),
evaluate and differentiate the bound objects (also with separate calls of `evaluate` and `evaluate_adj`), move and destroy them, in any order, as the reference semantics allows: in
particular, an object is used only while the views inside it are alive, and `evaluate_adj` is called when everything has the values it had after the last evaluation; a view dies with
its variable or when the (array) variable is move-assigned, and follows an array that is moved.  Then the run is defined (no undefined behaviour), every
evaluation and differentiation returns the value of the expression at the current values of the elements that its views show, and in the end every living variable has exactly the
values and adjoints of the reference semantics, where an evaluation executes the assignments, a differentiation changes the adjoints of the shown elements (wherever they have moved to),
undoes the compound assignments and leaves the placeholders as they were assigned, and nothing else changes; memory that existed before is unchanged.
And the change of the adjoints is the derivative: see the last clause, which (the program being arbitrary) holds at every moment.  The clause is about elements that the expression
does not itself assign, and about moments when the adjoints of the assigned variables are zero (of a pure expression there are none; otherwise see C02, C38).
Missing: objects whose views follow a moved scalar or a move-assigned array (`C61_false_for_moved_scalars`, `C61_false_for_reused_storage`, `C61_false_after_move_assignment`). -/
theorem C61_programs_partial [LawfulLinAlg] {u : St ℝ} {cs : List (WorldAct ℝ)} {A : AWorld ℝ} {xs : List (ℕ → ℝ)} (hl : LegalActs Expr.backward u AWorld.init (World.init u) cs)
    (hs : AWorld.init.run Expr.backward u.val cs = some (A, xs)) :
    ∃ w, (World.init u).run cs = some (w, xs) ∧
      (∀ i sh x y, A.vars.var i = some (.live sh x y) → ∃ v, w.vars.view i = some v ∧ v.shape = sh ∧
        readCells w.vars.st.val w.vars.st.vok v.val sh.size = some (trunc sh.size x) ∧ w.vars.st.readA v.adj sh.size = some (trunc sh.size y)) ∧
      (∀ a, u.vok a = true → w.vars.st.vok a = true ∧ w.vars.st.val a = u.val a) ∧
      (∀ a, u.aok a = true → w.vars.st.aok a = true ∧ w.vars.st.adj a = u.adj a) ∧
      ∀ n o, A.objs n = some o → (∀ p ∈ o.leaves, (A.vars.view p.1).isSome) → (∀ t ∈ o.src.targetAdj, A.vars.lookA o.leaves t = 0) →
        ∀ i sh x y, A.vars.var i = some (.live sh x y) → ∀ m a c, A.vars.label o.leaves i m = some a → A.vars.labelV o.leaves i m = some c → c ∉ o.src.placeCells →
        RegSeq o.src.flat (fun τ => (A.vars.setElem i m τ).look o.leaves u.val) (x m) → ∀ seed : ℕ → ℝ,
          HasDerivAt (fun τ => ∑ k ∈ Finset.range o.src.size, seed k * o.src.result ((A.vars.setElem i m τ).look o.leaves u.val) k)
            (o.src.backward (A.vars.look o.leaves u.val) seed (A.vars.lookA o.leaves) a - y m) (x m) := by
  obtain ⟨w, s, hw, h⟩ := (WInv.init u).run hl hs
  refine ⟨w, hw, fun i sh x y hi => ?_, fun a ha => ?_, fun a ha => ?_, fun n o ho hal hA i sh x y hi m a c ha hc hpl hreg seed => h.gradient ho hal hi ha hc hpl hA hreg seed⟩
  · obtain ⟨t, d, hl⟩ := h.rel.live hi
    refine ⟨_, hl.view, rfl, ?_, ?_⟩
    · have := hl.tacc
      rw [hl.tn] at this
      exact (if_pos this).trans (congrArg some (trunc_congr hl.tval))
    · have := hl.dacc
      rw [hl.dn] at this
      exact (if_pos this).trans (congrArg some (trunc_congr hl.dval))
  · obtain ⟨h1, h2⟩ := h.uv a ha
    exact ⟨(h.rel.v.base a h1).1, (h.rel.v.base a h1).2.1.trans h2⟩
  · obtain ⟨h1, h2⟩ := h.ua a ha
    exact ⟨(h.rel.a.base a h1).1, (h.rel.a.base a h1).2.1.trans h2⟩

namespace SampleWorld

/-- empty memory -/
def u0 : St ℝ := ⟨fun _ => 0, fun _ => 0, fun _ => false, fun _ => false⟩

/-- the view of the vector that is created first -/
def v0 : View := ⟨.vec 2, some 0, some 0⟩

/-- `sum(sin(v))` -/
def e0 : Expr ℝ := .mkReduce .sum (.cons (.mkUnary .sin (.var v0)) .nil)

/-- `Var x(2); x[1] = 2; auto f = bind(sum(sin(x))); Var y(std::move(x)); (x dies) y[0] = 5; autodiff(f); (f dies)` -/
def prog : List (WorldAct ℝ) :=
  [.var (.create 0 (.vec 2) 0 0 0), .var (.setVal 0 1 2), .var (.view 0 0 .whole), .bind 0 e0 [(0, v0)] 10 10 (fun _ => 0) (fun _ => 0), .var (.move 1 0 30 30), .var (.destroy 0),
    .var (.setVal 1 0 5), .autodiff 0 (fun _ => 1), .drop 0]

end SampleWorld

open SampleWorld in
/-- C61 applies to a program that moves a vector after an expression of it was bound, and differentiates the expression afterwards -/
example : LegalActs Expr.backward u0 AWorld.init (World.init u0) prog ∧ ∃ A x, AWorld.init.run Expr.backward u0.val prog = some (A, [x]) ∧
    (∃ y z, A.vars.var 1 = some (.live (.vec 2) y z) ∧ y 0 = 5 ∧ y 1 = 2) ∧ A.vars.var 0 = none := by
  refine ⟨?_, _, _, rfl, ⟨_, _, rfl, rfl, rfl⟩, rfl⟩
  have noobj : ∀ (A : AWorld ℝ), A.objs = (fun _ => none) → ∀ {c : VarStep ℝ} n o, A.objs n = some o → ∀ p ∈ o.leaves, c.newView ≠ some p.1 := by
    intro A hA c n o ho
    rw [hA] at ho; cases ho
  refine ⟨⟨⟨by decide, by decide⟩, noobj _ rfl⟩, fun A1 w1 x1 x1' hA hw => ?_⟩
  cases hA; cases hw
  refine ⟨⟨trivial, noobj _ rfl⟩, fun A2 w2 x2 x2' hA hw => ?_⟩
  cases hA; cases hw
  refine ⟨⟨trivial, noobj _ rfl⟩, fun A3 w3 x3 x3' hA hw => ?_⟩
  cases hA; cases hw
  refine ⟨⟨rfl, .inl ?_, fun p hp => ?_, fun v hv => ⟨0, ?_⟩, fun c hc => ?_, by decide, by decide⟩, fun A4 w4 x4 x4' hA hw => ?_⟩
  · simp [e0, v0, Expr.WF, Expr.mkUnary, Expr.mkReduce, Exprs.WFs, Exprs.toList, Expr.shape, Expr.view, View.null, Shape.vec, Shape.scl, Shape.Ok, Expr.isIf, RedOp.ShapeOk]
  · obtain rfl := List.mem_singleton.1 hp
    exact ⟨rfl, rfl, List.mem_singleton.2 rfl⟩
  · obtain rfl := List.mem_singleton.1 hv
    exact List.mem_singleton.2 rfl
  · cases hc
  cases hA; cases hw
  refine ⟨⟨⟨by decide, by decide⟩, by intro n o ho p hp h; cases h⟩, fun A5 w5 x5 x5' hA hw => ?_⟩
  cases hA; cases hw
  refine ⟨⟨trivial, by intro n o ho p hp h; cases h⟩, fun A6 w6 x6 x6' hA hw => ?_⟩
  cases hA; cases hw
  refine ⟨⟨trivial, by intro n o ho p hp h; cases h⟩, fun A7 w7 x7 x7' hA hw => ?_⟩
  cases hA; cases hw
  refine ⟨fun o ho p hp => ?_, fun A8 w8 x8 x8' hA hw => ⟨trivial, fun _ _ _ _ _ _ => trivial⟩⟩
  obtain rfl := Option.some.inj (show some _ = some o from ho)
  obtain rfl := List.mem_singleton.1 hp
  rfl

open SampleWorld in
/-- of a pure expression, the gradient is added to the adjoints -/
example {e : Expr ℝ} (he : e.WF) (m seed A : ℕ → ℝ) (a : ℕ) : e.backward m seed A a = A a + e.grad m seed a := he.back m seed A a

open SampleWorld in
/-- in this program, just before the differentiation, both elements of the moved vector have labels (the labels of the elements of the leaf), so the last clause of C61 speaks about both -/
example : ∃ A xs o, AWorld.init.run Expr.backward u0.val (prog.take 7) = some (A, xs) ∧ A.objs 0 = some o ∧ (∀ p ∈ o.leaves, (A.vars.view p.1).isSome) ∧
    A.vars.label o.leaves 1 0 = some 0 ∧ A.vars.label o.leaves 1 1 = some 1 ∧ A.vars.look o.leaves u0.val 0 = 5 ∧ A.vars.look o.leaves u0.val 1 = 2 := by
  refine ⟨_, _, _, rfl, rfl, fun p hp => ?_, rfl, rfl, rfl, rfl⟩
  obtain rfl := List.mem_singleton.1 hp
  rfl

namespace SampleWorld

theorem e0_grad (m seed : ℕ → ℝ) : e0.grad m seed 1 = seed 0 * Real.cos (m 1) := by
  simp [e0, v0, Expr.grad, Exprs.grads, Exprs.denotes, Expr.denote, Expr.mkReduce, Expr.mkUnary, RedOp.bmap, RedOp.bmap1, UOp.bmap, View.size, Shape.size, Shape.vec, Expr.shape, Expr.view, addr, Fn.cos]

/-- `Var x(2); auto f = bind(sum(sin(x))); auto g = std::move(f); evaluate(g); evaluate_adj(g, 1); x[1] = 2; (and back) x[1] = 0; evaluate_adj(g, 3);` -/
def prog2 : List (WorldAct ℝ) :=
  [.var (.create 0 (.vec 2) 0 0 0), .var (.view 0 0 .whole), .bind 0 e0 [(0, v0)] 10 10 (fun _ => 0) (fun _ => 0), .moveObj 1 0, .evaluate 1, .evaluateAdj 1 (fun _ => 1),
    .var (.setVal 0 1 2), .var (.setVal 0 1 0), .evaluateAdj 1 (fun _ => 3)]

end SampleWorld

open SampleWorld in
/-- C61 applies to a program that moves a bound object, evaluates it and then calls `evaluate_adj` twice: the adjoints grow twice, as if it had been differentiated twice -/
example : LegalActs Expr.backward u0 AWorld.init (World.init u0) prog2 ∧ ∃ A x, AWorld.init.run Expr.backward u0.val prog2 = some (A, [x]) ∧ A.objs 0 = none ∧
    ∃ y z, A.vars.var 0 = some (.live (.vec 2) y z) ∧ z 1 = 4 := by
  refine ⟨?_, _, _, rfl, rfl, _, _, rfl, ?_⟩
  · have noobj : ∀ (A : AWorld ℝ), A.objs = (fun _ => none) → ∀ {c : VarStep ℝ} n o, A.objs n = some o → ∀ p ∈ o.leaves, c.newView ≠ some p.1 := by
      intro A hA c n o ho
      rw [hA] at ho; cases ho
    refine ⟨⟨⟨by decide, by decide⟩, noobj _ rfl⟩, fun A1 w1 x1 x1' hA hw => ?_⟩
    cases hA; cases hw
    refine ⟨⟨trivial, noobj _ rfl⟩, fun A3 w3 x3 x3' hA hw => ?_⟩
    cases hA; cases hw
    refine ⟨⟨rfl, .inl ?_, fun p hp => ?_, fun v hv => ⟨0, ?_⟩, fun c hc => ?_, by decide, by decide⟩, fun A4 w4 x4 x4' hA hw => ?_⟩
    · simp [e0, v0, Expr.WF, Expr.mkUnary, Expr.mkReduce, Exprs.WFs, Exprs.toList, Expr.shape, Expr.view, View.null, Shape.vec, Shape.scl, Shape.Ok, Expr.isIf, RedOp.ShapeOk]
    · obtain rfl := List.mem_singleton.1 hp
      exact ⟨rfl, rfl, List.mem_singleton.2 rfl⟩
    · obtain rfl := List.mem_singleton.1 hv
      exact List.mem_singleton.2 rfl
    · cases hc
    cases hA; cases hw
    refine ⟨rfl, fun A5 w5 x5 x5' hA hw => ?_⟩
    cases hA; cases hw
    have al : ∀ {V : AVars ℝ} {o : AObj ℝ} {m : Option (ℕ → ℝ)}, (V.view 0).isSome → some (AObj.mk e0 [(0, v0)] m) = some o → ∀ p ∈ o.leaves, (V.view p.1).isSome := by
      intro V o m hV ho p hp
      cases ho
      obtain rfl := List.mem_singleton.1 hp
      exact hV
    refine ⟨fun o ho => al rfl ho, fun A6 w6 x6 x6' hA hw => ?_⟩
    cases hA; cases hw
    refine ⟨fun o ho => ⟨al rfl ho, fun m hm => ?_⟩, fun A7 w7 x7 x7' hA hw => ?_⟩
    · cases ho; cases hm
      intro c hc
      have h2 : c = 0 ∨ c = 1 := by
        have he : e0.valCells ∪ e0.constCells = {0, 1} := rfl
        rw [he] at hc
        simpa using hc
      rcases h2 with rfl | rfl <;> rfl
    cases hA; cases hw
    refine ⟨⟨trivial, by intro n o ho p hp h; cases h⟩, fun A8 w8 x8 x8' hA hw => ?_⟩
    cases hA; cases hw
    refine ⟨⟨trivial, by intro n o ho p hp h; cases h⟩, fun A9 w9 x9 x9' hA hw => ?_⟩
    cases hA; cases hw
    refine ⟨fun o ho => ⟨al rfl ho, fun m hm => ?_⟩, fun A10 w10 x10 x10' hA hw => trivial⟩
    cases ho; cases hm
    intro c hc
    have h2 : c = 0 ∨ c = 1 := by
      have he : e0.valCells ∪ e0.constCells = {0, 1} := rfl
      rw [he] at hc
      simpa using hc
    rcases h2 with rfl | rfl <;> rfl
  · show (0 : ℝ) + e0.grad _ _ 1 + e0.grad _ _ 1 = 4
    rw [e0_grad, e0_grad]
    show (0 : ℝ) + 1 * Real.cos 0 + 3 * Real.cos 0 = 4
    norm_num

namespace SampleWorld

theorem p_backward (m seed A : ℕ → ℝ) (h1 : A 1 = 0) (h2 : A 2 = 0) (h3 : A 3 = 0) : Sample.p.backward m seed A 0 = A 0 + seed 0 * (m 1 + m 2) * (Real.sin (m 0) + m 0 * Real.cos (m 0)) := by
  simp [Expr.backward, Sample.p_flat, backL, Expr.back, Expr.mkEq, Expr.mkOpEq, Expr.mkReduce, Expr.mkBinary, Expr.mkUnary, Expr.exec, Expr.denote, Expr.grad, Exprs.grads, Exprs.denotes,
    assign, Sample.w, Sample.v, Sample.x, addr, View.size, Shape.size, Shape.scl, Shape.vec, RedOp.bmap, RedOp.bmap1, UOp.bmap, AOp.br, Expr.shape, Expr.view, Shape.isScl, mem_rng, collapse, Fn.cos,
    View.null, Expr.binShape, Shape.ofDims, Shape.maxKind, BOp.isComparison, BOp.real, UOp.real, bcast, sumN, BOp.bl, BOp.br, Shape.bidx, h1, h2, h3]
  ring

/-- the leaves of the program `Sample.p` -/
def leaves3 : List (ℕ × View) := [(0, Sample.x), (1, Sample.v), (2, Sample.w)]

/-- `Var x(1), v(2), w; v = (2, 2); auto f = bind((w = x * sin(x), v *= w, sum(v))); autodiff(f);` -/
def prog3 : List (WorldAct ℝ) :=
  [.var (.create 0 .scl 1 0 0), .var (.create 1 (.vec 2) 0 1 1), .var (.setVal 1 0 2), .var (.setVal 1 1 2), .var (.create 2 .scl 0 3 3), .var (.view 0 0 .whole), .var (.view 1 1 .whole), .var (.view 2 2 .whole),
    .bind 0 Sample.p leaves3 10 10 (fun _ => 0) (fun _ => 0), .autodiff 0 (fun _ => 1)]

end SampleWorld

open SampleWorld in
/-- C61 applies to a bound program with a placeholder and a compound assignment: differentiating it leaves `v` as it was, and `w` as it was assigned -/
example : LegalActs Expr.backward u0 AWorld.init (World.init u0) prog3 ∧ ∃ A x, AWorld.init.run Expr.backward u0.val prog3 = some (A, [x]) ∧ x 0 = 4 * Real.sin 1 ∧
    (∃ y z, A.vars.var 0 = some (.live .scl y z) ∧ y 0 = 1 ∧ z 0 = 4 * (Real.sin 1 + Real.cos 1)) ∧
    (∃ y z, A.vars.var 1 = some (.live (.vec 2) y z) ∧ y 0 = 2 ∧ y 1 = 2) ∧ ∃ y z, A.vars.var 2 = some (.live .scl y z) ∧ y 0 = Real.sin 1 := by
  refine ⟨?_, _, _, rfl, ?_, ⟨_, _, rfl, rfl, ?_⟩, ⟨_, _, rfl, rfl, rfl⟩, _, _, rfl, ?_⟩
  · have noobj : ∀ (A : AWorld ℝ), A.objs = (fun _ => none) → ∀ {c : VarStep ℝ} n o, A.objs n = some o → ∀ p ∈ o.leaves, c.newView ≠ some p.1 := by
      intro A hA c n o ho
      rw [hA] at ho; cases ho
    refine ⟨⟨⟨by decide, by decide⟩, noobj _ rfl⟩, fun A1 w1 x1 x1' hA hw => ?_⟩
    cases hA; cases hw
    refine ⟨⟨⟨by decide, by decide⟩, noobj _ rfl⟩, fun A1 w1 x1 x1' hA hw => ?_⟩
    cases hA; cases hw
    refine ⟨⟨trivial, noobj _ rfl⟩, fun A1 w1 x1 x1' hA hw => ?_⟩
    cases hA; cases hw
    refine ⟨⟨trivial, noobj _ rfl⟩, fun A1 w1 x1 x1' hA hw => ?_⟩
    cases hA; cases hw
    refine ⟨⟨⟨by decide, by decide⟩, noobj _ rfl⟩, fun A1 w1 x1 x1' hA hw => ?_⟩
    cases hA; cases hw
    refine ⟨⟨trivial, noobj _ rfl⟩, fun A1 w1 x1 x1' hA hw => ?_⟩
    cases hA; cases hw
    refine ⟨⟨trivial, noobj _ rfl⟩, fun A1 w1 x1 x1' hA hw => ?_⟩
    cases hA; cases hw
    refine ⟨⟨trivial, noobj _ rfl⟩, fun A1 w1 x1 x1' hA hw => ?_⟩
    cases hA; cases hw
    refine ⟨⟨rfl, .inr ⟨Sample.p_program, .inl rfl⟩, fun p hp => ?_, fun v hv => ?_, fun c hc => ?_, by decide, by decide⟩, fun A4 w4 x4 x4' hA hw => ?_⟩
    · simp only [leaves3, List.mem_cons, List.not_mem_nil, or_false] at hp
      rcases hp with rfl | rfl | rfl <;> refine ⟨rfl, rfl, ?_⟩ <;>
        simp [Sample.p, Expr.mkGlue, Expr.mkEq, Expr.mkBinary, Expr.mkOpEq, Expr.mkReduce, Expr.mkUnary, Expr.vars, Exprs.varss]
    · simp only [Sample.p, Expr.mkGlue, Expr.mkEq, Expr.mkBinary, Expr.mkOpEq, Expr.mkReduce, Expr.mkUnary, Expr.vars, Exprs.varss, List.append_nil, List.mem_append,
        List.mem_cons, List.not_mem_nil, or_false] at hv
      have hv : v = Sample.x ∨ v = Sample.v ∨ v = Sample.w := by tauto
      rcases hv with rfl | rfl | rfl
      · exact ⟨0, by simp [leaves3]⟩
      · exact ⟨1, by simp [leaves3]⟩
      · exact ⟨2, by simp [leaves3]⟩
    · simp [Sample.p, Expr.mkGlue, Expr.mkEq, Expr.mkBinary, Expr.mkOpEq, Expr.mkReduce, Expr.mkUnary, Expr.cviews, Exprs.cviewss] at hc
    cases hA; cases hw
    refine ⟨fun o ho p hp => ?_, fun _ _ _ _ _ _ => trivial⟩
    obtain rfl := Option.some.inj (show some _ = some o from ho)
    simp only [leaves3, List.mem_cons, List.not_mem_nil, or_false] at hp
    rcases hp with rfl | rfl | rfl <;> rfl
  · show trunc 1 (Sample.p.result _) 0 = _
    show Sample.p.result _ 0 = _
    rw [Sample.p_result]
    show (2 : ℝ) * (1 * Real.sin 1) + 2 * (1 * Real.sin 1) = _
    ring
  · show Sample.p.backward _ _ _ 0 = _
    rw [p_backward _ _ _ rfl rfl rfl]
    show (0 : ℝ) + 1 * (2 + 2) * (Real.sin 1 + 1 * Real.cos 1) = _
    ring
  · show (1 : ℝ) * Real.sin 1 = _
    ring

namespace SampleWorld

/-- the view of the scalar that is created first -/
def v1 : View := ⟨.scl, some 0, some 0⟩

/-- `sin(x)` -/
def e1 : Expr ℝ := .mkUnary .sin (.var v1)

end SampleWorld

open SampleWorld in
/-- **C61 is false for expressions of a scalar that is moved** (var.hpp:54-58 copies the two numbers; the expression keeps pointing into the old object): after
`Var<double> x(3); auto f = bind(sin(x)); Var<double> y(std::move(x));` and the end of the life of `x` (as when a `std::vector<Var<double>>` grows), evaluating `f` is
undefined behaviour; for a vector the same program is fine (the example above). -/
theorem C61_false_for_moved_scalars : ∃ w xs, (World.init u0).run
      [.var (.create 0 .scl 3 0 0), .var (.view 0 0 .whole), .bind 0 e1 [(0, v1)] 10 10 (fun _ => 0) (fun _ => 0), .var (.move 1 0 1 1), .var (.destroy 0)] = some (w, xs) ∧
    w.vars.st.val 1 = 3 ∧ w.step (.evaluate 0) = none ∧ w.step (.autodiff 0 fun _ => 1) = none :=
  ⟨_, _, rfl, rfl, rfl, rfl⟩

open SampleWorld in
/-- **C61 is false for expressions of a scalar that is moved**: if the storage of the old object is used for another variable `z`, the expression silently becomes an
expression of `z`: here `f` was bound as `sin(x)` with `x = 3`, `x` was moved to `y`, and `autodiff(f)` returns `sin(7)`, `z` being 7, and adds to the adjoint of `z`. -/
theorem C61_false_for_reused_storage : ∃ w w' x, (World.init u0).run
      [.var (.create 0 .scl 3 0 0), .var (.view 0 0 .whole), .bind 0 e1 [(0, v1)] 10 10 (fun _ => 0) (fun _ => 0), .var (.move 1 0 1 1), .var (.destroy 0),
        .var (.create 2 .scl 7 0 0)] = some (w, []) ∧ w.step (.autodiff 0 fun _ => 1) = some (w', some x) ∧ x 0 = Real.sin 7 ∧ w'.vars.view 2 = some v1 ∧
      w'.vars.st.adj 0 = Real.cos 7 ∧ w'.vars.view 1 = some ⟨.scl, some 1, some 1⟩ ∧ w'.vars.st.adj 1 = 0 := by
  refine ⟨_, _, _, rfl, rfl, rfl, rfl, ?_, rfl, rfl⟩
  show (0 : ℝ) + 1 * Real.cos 7 = Real.cos 7
  ring

open SampleWorld in
/-- **C61 is false for expressions of a vector that is move-assigned** (var.hpp:136-145: the buffers are exchanged under the expression): after
`x[1] = 2; auto f = bind(sum(sin(x))); x = std::move(y);` with `y = (0, 9)`, evaluating `f` gives the value at the old `x`, not at the current one. -/
theorem C61_false_after_move_assignment : ∃ w w' x, (World.init u0).run
      [.var (.create 0 (.vec 2) 0 0 0), .var (.create 1 (.vec 2) 0 2 2), .var (.setVal 0 1 2), .var (.setVal 1 1 9), .var (.view 0 0 .whole),
        .bind 0 e0 [(0, v0)] 10 10 (fun _ => 0) (fun _ => 0), .var (.moveAssign 0 1 30 30)] = some (w, []) ∧
    w.step (.evaluate 0) = some (w', some x) ∧ x 0 = Real.sin 2 ∧ w'.vars.view 0 = some ⟨.vec 2, some 2, some 2⟩ ∧ w'.vars.st.val 2 = 0 ∧ w'.vars.st.val 3 = 9 := by
  refine ⟨_, _, _, rfl, rfl, ?_, rfl, rfl, rfl⟩
  show (0 : ℝ) + Real.sin 0 + Real.sin 2 = Real.sin 2
  simp

end

end FastAD
