import Verif.Props.Samples
import Verif.Proof.VarExpr
import Verif.Proof.Deriv

/-!
# Variables and their views

Properties C27 and C28.  The reference semantics (`Verif/Spec/Var.lean`) knows no addresses: a variable is its values and adjoints, a view is a list of elements of a
variable.
-/

namespace FastAD

section
variable {α : Type} [Zero α]

/-- **C27 (partial).** After any sequence of creations, copies, moves, assignments, destructions, view creations and writes (through variables or views) that the reference
semantics allows, in any memory, the library's state exists (no undefined behaviour) and:
every living variable reads exactly the values and adjoints that the reference semantics (where variables are independent by definition) gives
it; its view refers to its own storage; no two living variables share a value or adjoint cell; memory that existed before is unchanged.
Missing: arrays that were moved from (`C27_false_for_moved_from`), and views made before their variable was move-assigned
(`C27_false_after_move_assignment`); views of an array that is moved from stay with the data, that is, they become views of the new variable. -/
theorem C27_value_semantics_partial {s : St α} {cs : List (VarStep α)} {A : AVars α} (hA : AVars.none.run cs = some A) (hf : FreshRun (Vars.none s) cs) :
    ∃ w, (Vars.none s).run cs = some w ∧
      (∀ i sh x y, A.var i = some (.live sh x y) → ∃ v t d, w.view i = some v ∧ v.shape = sh ∧
        readCells w.st.val w.st.vok v.val sh.size = some (trunc sh.size x) ∧ w.st.readA v.adj sh.size = some (trunc sh.size y) ∧
        w.v.slots i = some t ∧ w.a.slots i = some d ∧ v.val = t.p ∧ v.adj = d.p) ∧
      (∀ i j sh x y sh' x' y' v v', A.var i = some (.live sh x y) → A.var j = some (.live sh' x' y') → i ≠ j → w.view i = some v → w.view j = some v' →
        ∀ k < v.size, ∀ l < v'.size, addr v.val + k ≠ addr v'.val + l ∧ addr v.adj + k ≠ addr v'.adj + l) ∧
      (∀ a, s.vok a = true → w.st.vok a = true ∧ w.st.val a = s.val a) ∧
      ∀ a, s.aok a = true → w.st.aok a = true ∧ w.st.adj a = s.adj a := by
  obtain ⟨w, hw, h⟩ := (WRel.init s).run hA hf
  refine ⟨w, hw, fun i sh x y hi => ?_, fun i j sh x y sh' x' y' v v' hi hj hij hv hv' k hk l hl => ?_, fun a ha => ⟨(h.v.base a ha).1, (h.v.base a ha).2.1⟩,
    fun a ha => ⟨(h.a.base a ha).1, (h.a.base a ha).2.1⟩⟩
  · obtain ⟨t, d, hl⟩ := h.live hi
    refine ⟨_, t, d, hl.view, rfl, ?_, ?_, hl.v, hl.a, rfl, rfl⟩
    · have := hl.tacc
      rw [hl.tn] at this
      exact (if_pos this).trans (congrArg some (trunc_congr hl.tval))
    · have := hl.dacc
      rw [hl.dn] at this
      exact (if_pos this).trans (congrArg some (trunc_congr hl.dval))
  · obtain ⟨t, d, hi'⟩ := h.live hi
    obtain ⟨t', d', hj'⟩ := h.live hj
    rw [hi'.view] at hv
    rw [hj'.view] at hv'
    cases hv
    cases hv'
    exact ⟨fun he => hij (h.injV hi' hj' hk hl he).1, fun he => hij (h.inj hi' hj' hk hl he).1⟩

/-- **C28.** After any sequence of steps as in C27, a living view (`v`, `v(i)`, `v.head(n)`, `v.tail(n)`, and parts of parts) has the shape that the reference semantics gives it,
and its `e`-th value and adjoint cell are those of the element the reference semantics says it shows; so it reads
that element's value and adjoint.  (That writing through a view changes exactly that element is part of C27, whose sequences contain such writes.) -/
theorem C28_subviews {s : St α} {cs : List (VarStep α)} {A : AVars α} (hA : AVars.none.run cs = some A) (hf : FreshRun (Vars.none s) cs) :
    ∃ w, (Vars.none s).run cs = some w ∧ ∀ k i l sh, A.view k = some (i, l, sh) →
      ∃ sh' x y v, A.var i = some (.live sh' x y) ∧ w.view i = some v ∧ (w.subview k).shape = sh ∧ l.length = sh.size ∧
        ∀ e m, l[e]? = some m → m < sh'.size ∧
          addr (w.subview k).val + e = addr v.val + m ∧ addr (w.subview k).adj + e = addr v.adj + m ∧
          w.st.vok (addr (w.subview k).val + e) = true ∧ w.st.aok (addr (w.subview k).adj + e) = true ∧
          w.st.val (addr (w.subview k).val + e) = x m ∧ w.st.adj (addr (w.subview k).adj + e) = y m := by
  obtain ⟨w, hw, h⟩ := (WRel.init s).run hA hf
  refine ⟨w, hw, fun k i l sh hk => ?_⟩
  obtain ⟨t, d, o, o', hlf, hr1, hr2, hlen, hsh⟩ := h.viewLeaf hk
  obtain ⟨sh', x, y, hi, hl⟩ := hlf.live
  refine ⟨sh', x, y, _, hi, hl.view, hsh, by rw [hlen, View.size, hsh], fun e m hem => ?_⟩
  obtain ⟨he, -⟩ := List.getElem?_eq_some_iff.1 hem
  obtain ⟨h1, h2, h3, h4⟩ := hlf.cell (hlen ▸ he)
  have hmo : m = o + e := by
    rw [hr1, List.getElem?_range' he] at hem
    simpa using hem.symm
  subst hmo
  have hm : o + e < sh'.size := by rw [← hl.tn]; exact h3
  refine ⟨hm, h1, h2, ?_, ?_, ?_, ?_⟩
  · rw [h1]; exact accessible_in hl.tacc ⟨by omega, by omega⟩
  · rw [h2]; exact accessible_in hl.dacc ⟨by omega, by omega⟩
  · rw [h1]; exact hl.tval _ hm
  · rw [h2]; exact hl.dval _ hm

/-- an index or count out of range, or a part of something that is not a vector, is rejected -/
theorem C28_out_of_range (sh : Shape) (n : ℕ) :
    ((Part.elem n).of sh = none ↔ sh.kind ≠ .vec ∨ sh.size ≤ n) ∧
    ((Part.head n).of sh = none ↔ sh.kind ≠ .vec ∨ sh.size < n) ∧
    ((Part.tail n).of sh = none ↔ sh.kind ≠ .vec ∨ sh.size < n) := by
  simp only [Part.of, ite_eq_right_iff, reduceCtorEq, imp_false, not_and_or, not_lt, not_le, ne_eq, and_self]

end

section
variable [HasInf ℝ] [LinAlg ℝ]

/-- **C27, C28 for expressions.** In a state reached as in C27, let `e` be an expression whose leaves are living variables and views of them (sharing elements in any
way).  Binding and differentiating `e` is defined; no variable's value changes; for every element `m` of every living variable `i`: if no leaf shows it, its adjoint is unchanged; if
some leaf shows it, its adjoint grows by the derivative of `∑ₖ seed k * e_k` with respect to that element. -/
theorem C28_expressions [LawfulLinAlg] {s : St ℝ} {cs : List (VarStep ℝ)} {A : AVars ℝ} (hA : AVars.none.run cs = some A) (hf : FreshRun (Vars.none s) cs) :
    ∃ w, (Vars.none s).run cs = some w ∧ ∀ (e : Expr ℝ) (qv qa : ℕ) (jv ja seed : ℕ → ℝ), e.WF → (∀ v ∈ e.vars, IsLeaf A w v) →
      (∀ c ∈ e.cviews, accessible s.vok c.2 c.1.size) → Fresh w.st e.bindSize qv qa →
      ∃ s1 r, autodiff (bindExpr e qv qa jv ja w.st).1 seed (bindExpr e qv qa jv ja w.st).2 = some (s1, r) ∧
        ∀ i sh x y v, A.var i = some (.live sh x y) → w.view i = some v → ∀ m < sh.size,
          s1.val (addr v.val + m) = x m ∧
          ((¬ ∃ u ∈ e.vars, Shows A w u i m) → s1.adj (addr v.adj + m) = y m) ∧
          ((∃ u ∈ e.vars, Shows A w u i m) → e.Reg (fun τ => Function.update w.st.val (addr v.val + m) τ) (x m) →
            HasDerivAt (fun τ => ∑ k ∈ Finset.range e.size, seed k * e.denote (Function.update w.st.val (addr v.val + m) τ) k)
              (s1.adj (addr v.adj + m) - y m) (x m)) := by
  obtain ⟨w, hw, h⟩ := (WRel.init s).run hA hf
  refine ⟨w, hw, fun e qv qa jv ja seed hwf hv hc hfr => ?_⟩
  have hal := h.exprAlive hv hc
  obtain ⟨s1, r, hb⟩ := bindExpr_autodiff (jv := jv) (ja := ja) hwf hal hfr seed
  refine ⟨s1, r, hb.run, fun i sh x y v hi hvi m hm => ?_⟩
  obtain ⟨t, d, hl⟩ := h.live hi
  rw [hl.view] at hvi
  cases hvi
  have hvok : w.st.vok (addr t.p + m) = true := accessible_in hl.tacc ⟨by omega, by have := hl.tn; omega⟩
  have haok : w.st.aok (addr d.p + m) = true := accessible_in hl.dacc ⟨by omega, by have := hl.dn; omega⟩
  have hx : w.st.val (addr t.p + m) = x m := hl.tval m hm
  have hy : w.st.adj (addr d.p + m) = y m := hl.dval m hm
  refine ⟨(hb.val _ hvok).trans hx, fun hns => ?_, fun hs hreg => ?_⟩
  · rw [hb.adj _ haok, hy, grad_support _ _ _ _ fun hr => hns ((h.shown hv hi hl hm).1 (readsA_cells e _ hr)), add_zero]
  · have ha := (h.shown hv hi hl hm).2 hs
    have hp := h.pair_eq hi hl hm
    have hreg' : e.Reg (fun τ => Function.update w.st.val (w.pair A (addr d.p + m)) τ) (w.st.val (w.pair A (addr d.p + m))) := by rw [hp, hx]; exact hreg
    have := grad_partial hwf (h.paired hv) (h.pair_inj hv) (h.pair_const hv hc) ha hreg' seed
    rw [hp, hx] at this
    rw [hb.adj _ haok, hy, add_sub_cancel_left]
    exact this

end

namespace Sample

/-- empty memory -/
def s00 : St ℝ := ⟨fun _ => 0, fun _ => 0, fun _ => false, fun _ => false⟩

/-- `Var v(3); auto t = v.tail(2); t[1] = 5; Var u(v); v[2] = 7; v = u; Var z(std::move(v));` -/
def steps : List (VarStep ℝ) :=
  [.create 0 (.vec 3) 0 0 0, .view 0 0 (.tail 2), .part 1 0 (.elem 1), .setViewVal 1 0 5, .copy 1 0 3 3, .setVal 0 2 7, .assign 0 1 6 6, .view 2 1 (.head 2), .move 2 0 6 6]

end Sample

/-- C27 and C28 apply to these statements: `u` and `z` are `(0, 0, 5)`, `v` was moved from, a view of the first two elements of `u` is alive,
the view `t` of the last two elements of `v` has become a view of `z` -/
example : FreshRun (Vars.none Sample.s00) Sample.steps ∧ ∃ A x y, AVars.none.run Sample.steps = some A ∧ A.var 1 = some (.live (.vec 3) x y) ∧ A.var 2 = some (.live (.vec 3) x y) ∧
    A.var 0 = some (.moved (.vec 3)) ∧ x 0 = 0 ∧ x 2 = 5 ∧ A.view 2 = some (1, [0, 1], .vec 2) ∧
    A.view 0 = some (2, [1, 2], .vec 2) := by
  refine ⟨?_, _, _, _, rfl, rfl, rfl, rfl, rfl, rfl, rfl, rfl⟩
  refine ⟨⟨by decide, by decide⟩, fun w0 h0 => ?_⟩
  obtain rfl := Option.some.inj (show some _ = some w0 from h0)
  refine ⟨trivial, fun w1 h1 => ?_⟩
  obtain rfl := Option.some.inj (show some _ = some w1 from h1)
  refine ⟨trivial, fun w2 h2 => ?_⟩
  obtain rfl := Option.some.inj (show some _ = some w2 from h2)
  refine ⟨trivial, fun w3 h3 => ?_⟩
  obtain rfl := Option.some.inj (show some _ = some w3 from h3)
  refine ⟨⟨by decide, by decide⟩, fun w4 h4 => ?_⟩
  obtain rfl := Option.some.inj (show some _ = some w4 from h4)
  refine ⟨trivial, fun w5 h5 => ?_⟩
  obtain rfl := Option.some.inj (show some _ = some w5 from h5)
  refine ⟨⟨by decide, by decide⟩, fun w6 h6 => ?_⟩
  obtain rfl := Option.some.inj (show some _ = some w6 from h6)
  refine ⟨trivial, fun w7 h7 => ?_⟩
  obtain rfl := Option.some.inj (show some _ = some w7 from h7)
  refine ⟨⟨by decide, by decide⟩, fun w8 h8 => ?_⟩
  obtain rfl := Option.some.inj (show some _ = some w8 from h8)
  trivial

/-- the theorem about expressions applies to `sum(sin(u.head(2)))` after these statements: the elements 0 and 1 of `u` are shown, element 2 is not -/
example : ∃ A w, AVars.none.run Sample.steps = some A ∧ (Vars.none Sample.s00).run Sample.steps = some w ∧
    ∃ e : Expr ℝ, e = .mkReduce .sum (.cons (.mkUnary .sin (.var (w.subview 2))) .nil) ∧ e.WF ∧ (∀ v ∈ e.vars, IsLeaf A w v) ∧ e.cviews = [] ∧ Fresh w.st e.bindSize 20 20 ∧
      (∃ u ∈ e.vars, Shows A w u 1 0) ∧ (∃ u ∈ e.vars, Shows A w u 1 1) := by
  obtain ⟨A, w, hA, hw, hv, hAv, h1, h2⟩ : ∃ A w, AVars.none.run Sample.steps = some A ∧ (Vars.none Sample.s00).run Sample.steps = some w ∧
      w.subview 2 = ⟨.vec 2, some 3, some 3⟩ ∧ A.view 2 = some (1, [0, 1], .vec 2) ∧ (∀ k < 10, w.st.vok (20 + k) = false) ∧ ∀ k < 10, w.st.aok (20 + k) = false :=
    ⟨_, _, rfl, rfl, rfl, rfl, by decide, by decide⟩
  refine ⟨A, w, hA, hw, _, rfl, ?_, fun v h => ?_, rfl, ?_, ⟨_, List.mem_singleton.2 rfl, .inr ⟨2, _, _, hAv, rfl, by decide⟩⟩, ⟨_, List.mem_singleton.2 rfl, .inr ⟨2, _, _, hAv, rfl, by decide⟩⟩⟩
  · rw [hv]
    simp [Expr.WF, Expr.mkUnary, Expr.mkReduce, Exprs.WFs, Exprs.toList, Expr.shape, Expr.view, View.null, Shape.vec, Shape.scl, Shape.Ok, Expr.isIf, RedOp.ShapeOk]
  · obtain rfl := List.mem_singleton.1 h
    exact .inr ⟨2, _, hAv, rfl⟩
  · rw [hv]
    exact ⟨fun k hk => h1 k (lt_of_lt_of_le hk (by decide)), fun k hk => h2 k (lt_of_lt_of_le hk (by decide))⟩

/-- **C27 is false for arrays that were moved from** (var.hpp:119-123, 184-188 rebind only the new object): after `Var u(std::move(v))` writing `v` changes `u`; and
a copy of the moved-from `v` cannot be used. -/
theorem C27_false_for_moved_from : ∃ w w' : Vars ℝ, (Vars.none Sample.s00).run [.create 0 (.vec 1) 0 0 0, .move 1 0 1 1] = some w ∧
    w.step (.setVal 0 0 5) = some w' ∧ w.view 1 = w'.view 1 ∧ (∃ v, w.view 1 = some v ∧ w.st.val (addr v.val) = 0 ∧ w'.st.val (addr v.val) = 5) ∧
    ∃ w2, w.step (.copy 2 0 1 1) = some w2 ∧ (w2.shape 2).size = 1 ∧ w2.step (.setVal 2 0 5) = none := by
  refine ⟨_, _, rfl, rfl, rfl, ⟨_, rfl, rfl, rfl⟩, _, rfl, rfl, rfl⟩

/-- **C27 is false for views (hence expressions) made before their variable was move-assigned** (var.hpp:136-145, 201-210 exchange the buffers): with `t` a view of
`v`, after `v = std::move(u)` and re-use of `u` by `u = v`, writing through `t` changes `u` and not `v`. -/
theorem C27_false_after_move_assignment : ∃ w w' : Vars ℝ,
    (Vars.none Sample.s00).run [.create 0 (.vec 1) 0 0 0, .create 1 (.vec 1) 0 1 1, .view 0 0 .whole, .moveAssign 0 1 2 2, .assign 1 0 2 2] = some w ∧
    w.step (.setViewVal 0 0 5) = some w' ∧
    (∃ v, w'.view 0 = some v ∧ w'.st.val (addr v.val) = 0) ∧ ∃ u, w'.view 1 = some u ∧ w'.st.val (addr u.val) = 5 := by
  refine ⟨_, _, rfl, rfl, ⟨_, rfl, rfl⟩, _, rfl, rfl⟩

end FastAD
