import Verif.Props.Program
import Verif.Props.Objects
import Verif.Proof.Assign

/-!
# C59, C60: assignment between expressions, bound expressions and variables

**C59.** Full statement: after `e = f`, for expressions, views or bound expressions of one type, `e` stands for what `f` stands for, and no variable has changed its value or adjoint.
Proved for scalar expressions (`_partial`); false for arrays, which are copied element by element, and for bound expressions, which end up in the caches of the other object.

**C60.** Full statement: a program that contains `w = x` for two variables is rejected by the compiler (as eq.hpp:18-20 says and eq.hpp:50 is meant to do), or computes what it computes
when `w = x` assigns the value of `x` to `w` during evaluation, with the corresponding derivatives.  Proved for scalar `VarView`s none of which is changed afterwards (`_partial`); false for
`Var`s, for views of arrays and for views changed afterwards.
-/

namespace FastAD

section
variable {α : Type} [Zero α]

/-- **C59 (partial), expressions.** Assignment of scalar expressions of one type makes the left one equal to the right one and changes nothing in memory.

Missing: arrays; see `C59_false_for_array_expressions` and `C59_false_for_array_views`. -/
theorem C59_scalar_partial {e f : Expr α} (s : St α) (ht : e.SameType f) (he : e.AllScl) (hf : f.AllScl) : e.assign f s = some (s, f) := scl_assign e f s ht he hf

/-- **C59 (partial), bound expressions.** Assignment `i = j` of bound scalar expressions of one type and cache size: object `i` then holds the expression of `j`, and nothing has changed in memory but
the cache of `i`.

Missing: arrays, see `C59_false_for_bound_arrays`; and that `i` works after the end of the life of `j`, see `C59_false_after_destruction`. -/
theorem C59_bound_partial {w : Objects α} {i j : ℕ} {x y : ExprObj α} {e f : Expr α} (hx : w.obj i = some x) (hy : w.obj j = some y) (hxe : x.expr = some e) (hye : y.expr = some f)
    (hn : x.n = y.n) (ht : e.SameType f) (he : e.AllScl) (hf : f.AllScl) (qv qa : ℕ) :
    ∃ w', w.assign i j qv qa = some w' ∧ w'.obj i = some ⟨some f, x.qv, x.qa, x.n⟩ ∧ (∀ k, k ≠ i → w'.obj k = w.obj k) ∧ w'.st.vok = w.st.vok ∧ w'.st.aok = w.st.aok ∧
      (∀ a, ¬ (x.qv ≤ a ∧ a < x.qv + x.n.val) → w'.st.val a = w.st.val a) ∧ ∀ a, ¬ (x.qa ≤ a ∧ a < x.qa + x.n.adj) → w'.st.adj a = w.st.adj a := by
  refine ⟨⟨⟨fillRange w.st.val x.qv y.n.val fun k => w.st.val (y.qv + k), fillRange w.st.adj x.qa y.n.adj fun k => w.st.adj (y.qa + k), w.st.vok, w.st.aok⟩,
    setAt w.obj i (some ⟨some f, x.qv, x.qa, y.n⟩)⟩, ?_, ?_, fun k hk => if_neg hk, rfl, rfl, fun a ha => if_neg (hn ▸ ha), fun a ha => if_neg (hn ▸ ha)⟩
  · simp [Objects.assign, hx, hy, hxe, hye, scl_assign e f w.st ht he hf, assignVec, hn]
  · simp [setAt, hn]

/-- **C59 is false of the code for array expressions.** The nodes of an expression that is not bound show no memory, but have the size of their value; so assignment to an array expression (other than a
variable or constant), `auto e = ad::sin(x); e = ad::sin(y);`, copies through null pointers: undefined behaviour, whatever is assigned. -/
theorem C59_false_for_array_expressions {e : Expr α} (hc : e.NotConst) (hn : e.view.val = none) (h : e.view.shape.isScl = false) (hs : 0 < e.view.size) (f : Expr α) (s : St α) :
    e.assign f s = none := by
  cases e <;> first | exact hc.elim | (cases f <;> simp only [Expr.view] at hn h hs <;> simp [Expr.assign, view_assign_null hn h hs])

/-- **C59 is false of the code for views of arrays.** Assignment `v = u` of views of arrays that share no memory does not make `v` a view of the variable of `u`: the values and the adjoints are copied into the
variable of `v`. -/
theorem C59_false_for_array_views {v u : View} {s : St α} (hsh : v.shape = u.shape) (h : v.shape.isScl = false) (hap : v.Apart u)
    (hv : accessible s.vok v.val v.size ∧ accessible s.aok v.adj v.size) (hu : accessible s.vok u.val u.size ∧ accessible s.aok u.adj u.size) :
    ∃ s', v.assign u s = some (s', v) ∧ (∀ k < v.size, s'.val (addr v.val + k) = s.val (addr u.val + k) ∧ s'.adj (addr v.adj + k) = s.adj (addr u.adj + k)) ∧
      (∀ a, a ∉ rng v.val v.size → s'.val a = s.val a) ∧ ∀ a, a ∉ rng v.adj v.size → s'.adj a = s.adj a := by
  have hsz : u.size = v.size := by rw [View.size, View.size, hsh]
  have clash : ∀ (p q : Option ℕ), (∀ j < v.size, ∀ k < v.size, addr p + j ≠ addr q + k) → noClash (α := α) p v.size (.ptr q) v.size := by
    intro p q hpq
    simp only [noClash]
    by_contra hcon
    push Not at hcon
    obtain ⟨-, h1, h2, h3, -⟩ := hcon
    by_cases hle : addr p ≤ addr q
    · exact hpq (addr q - addr p) (by omega) 0 (by omega) (by omega)
    · exact hpq 0 (by omega) (addr p - addr q) (by omega) (by omega)
  rw [hsz] at hu
  refine ⟨⟨fillRange s.val (addr v.val) v.size (trunc v.size fun k => s.val (addr u.val + k)), fillRange s.adj (addr v.adj) v.size (trunc v.size fun k => s.adj (addr u.adj + k)), s.vok, s.aok⟩, ?_, ?_, ?_, ?_⟩
  · have c1 := clash v.val u.val fun j hj k hk => (hap j hj k (hsz ▸ hk)).1
    have c2 := clash v.adj u.adj fun j hj k hk => (hap j hj k (hsz ▸ hk)).2
    simp only [View.size] at *
    simp [View.assign, hsh ▸ h, hsh, assignPtr, readCells, hsh ▸ c1, hsh ▸ c2, hsh ▸ hv.1, hsh ▸ hv.2, hsh ▸ hu.1, hsh ▸ hu.2]
    obtain ⟨vs, vv, va⟩ := v
    exact congrArg (fun z => (⟨z, vv, va⟩ : View)) hsh.symm
  · intro k hk
    constructor <;> simp [fillRange, hk, trunc]
  · intro a ha
    rw [mem_rng] at ha
    exact if_neg ha
  · intro a ha
    rw [mem_rng] at ha
    exact if_neg ha

/-- **C60 is false of the code for `Var`s, in general.** An assignment `w = u` of two different `Var`s of one shape in a program copies the values and the adjoints of `u` to `w` when the program is built, and nothing else; the statement that is built is
just the variable `w`, so nothing is assigned when it is evaluated.  `C60_false_for_variables` shows what this leads to. -/
theorem C60_false_variables_are_copied {w u : View} {s : St α} (hne : w ≠ u) (hsh : w.shape = u.shape) (hw : accessible s.vok w.val w.size ∧ accessible s.aok w.adj w.size)
    (hu : accessible s.vok u.val u.size ∧ accessible s.aok u.adj u.size) (g : View → View) (xs : List (SrcStmt α)) :
    ∃ s', buildStmts g (.copy .var w .var u :: xs) s = (buildStmts g xs s').map (fun p => (p.1, .var w :: p.2)) ∧
      (∀ k < w.size, s'.val (addr w.val + k) = s.val (addr u.val + k) ∧ s'.adj (addr w.adj + k) = s.adj (addr u.adj + k)) ∧
      (∀ a, a ∉ rng w.val w.size → s'.val a = s.val a) ∧ (∀ a, a ∉ rng w.adj w.size → s'.adj a = s.adj a) ∧ s'.vok = s.vok ∧ s'.aok = s.aok := by
  have hsz : u.size = w.size := by rw [View.size, View.size, hsh]
  rw [hsz] at hu
  refine ⟨⟨fillRange s.val (addr w.val) w.size (trunc w.size fun k => s.val (addr u.val + k)), fillRange s.adj (addr w.adj) w.size (trunc w.size fun k => s.adj (addr u.adj + k)), s.vok, s.aok⟩,
    ?_, ?_, ?_, ?_, rfl, rfl⟩
  · have : w.copyVar u s = some ⟨fillRange s.val (addr w.val) w.size (trunc w.size fun k => s.val (addr u.val + k)),
        fillRange s.adj (addr w.adj) w.size (trunc w.size fun k => s.adj (addr u.adj + k)), s.vok, s.aok⟩ := by
      simp [View.copyVar, hne, hsh, hsz, readCells, hu.1, hu.2, St.writeV, St.writeA, hw.1, hw.2]
    simp only [buildStmts, this, Option.bind_eq_bind, Option.bind_some]
    generalize buildStmts g xs _ = o
    cases o <;> rfl
  · intro k hk
    constructor <;> simp [fillRange, hk, trunc]
  · intro a ha
    rw [mem_rng] at ha
    exact if_neg ha
  · intro a ha
    rw [mem_rng] at ha
    exact if_neg ha

/-- **C60 is false of the code for views that are changed afterwards, in general.** An assignment `w = u` of two scalar `VarView`s makes `w` another name of `u`: nothing changes in memory, the statement that is built is the variable `u`, and
in the statements built afterwards `u` is in the place of `w` everywhere, also where `w` is assigned to.  `C60_false_for_updated_views` and `C60_false_for_updated_target` show what this leads to. -/
theorem C60_false_views_are_renamed {w u : View} (s : St α) (hw : w.shape = .scl) (hu : u.shape = .scl) (es : List (Expr α)) :
    ∃ l, buildStmts id (.copy .view w .view u :: es.map .node) s = some (s, .var u :: l) ∧
      List.Forall₂ (fun e' e => e'.vars = e.vars.map fun v => if v = w then u else v) l es := by
  refine ⟨es.map (Expr.onVars fun x => if x = w then u else x), ?_, ?_⟩
  · have h : w.assign u s = some (s, u) := view_assign s (hw.trans hu.symm) hu
    simp only [buildStmts, id, h, Option.bind_eq_bind, Option.bind_some, build_nodes]
  · rw [List.forall₂_map_left_iff]
    exact List.forall₂_same.2 fun e _ => onVars_vars _ e

/-- assignments between a `Var` and a `VarView` are rejected -/
example (g : View → View) (w u : View) (xs : List (SrcStmt α)) (s : St α) :
    buildStmts g (.copy .var w .view u :: xs) s = none ∧ buildStmts g (.copy .view w .var u :: xs) s = none := ⟨rfl, rfl⟩

end

/-! ### Examples and counterexamples -/

namespace SampleAsg

/-- scalar variables -/
abbrev x : View := ⟨.scl, some 0, some 0⟩
@[inherit_doc x] abbrev w : View := ⟨.scl, some 1, some 1⟩
@[inherit_doc x] abbrev y : View := ⟨.scl, some 2, some 2⟩

/-- vectors of two elements -/
abbrev u2 : View := ⟨.vec 2, some 0, some 0⟩
@[inherit_doc u2] abbrev v2 : View := ⟨.vec 2, some 2, some 2⟩

/-- memory: x = 1, w = 2, y = 3, or u2 = (1, 2), v2 = (3, 4); everything from cell 4 on is free -/
noncomputable def s : St ℝ := ⟨fun a => (a : ℝ) + 1, fun _ => 0, fun a => decide (a < 4), fun a => decide (a < 4)⟩

/-- `sin(v)` -/
def sin (v : View) : Expr ℝ := .mkUnary .sin (.var v)

end SampleAsg

open SampleAsg

/-- `auto e = sin(x) * y; e = sin(w) * x;` -/
example : (Expr.mkBinary .mul (sin x) (.var y)).assign (.mkBinary .mul (sin w) (.var x)) s = some (s, .mkBinary .mul (sin w) (.var x)) := by
  refine C59_scalar_partial s ?_ ?_ ?_ <;>
    simp [Expr.SameType, Expr.AllScl, sin, Expr.mkBinary, Expr.mkUnary, View.null, Expr.shape, Expr.view, Expr.binShape, Shape.ofDims, Shape.maxKind, Shape.scl]

/-- `auto e = sin(u2); e = sin(v2);` -/
example : (sin u2).assign (sin v2) s = none := C59_false_for_array_expressions (e := sin u2) trivial rfl rfl (by decide) _ _

/-- `v2 = u2`: the values of `v2` have become 1, 2 -/
example : ∃ s', v2.assign u2 s = some (s', v2) ∧ s'.val 2 = 1 ∧ s'.val 3 = 2 := by
  obtain ⟨s', h1, h2, -⟩ := C59_false_for_array_views (v := v2) (u := u2) (s := s) rfl rfl (fun j hj k hk => by
    have hj : j < 2 := hj
    have hk : k < 2 := hk
    simp only [addr, Option.getD_some]; omega) (by decide) (by decide)
  refine ⟨s', h1, ?_, ?_⟩
  · have := (h2 0 (by decide)).1
    rw [show addr v2.val + 0 = 2 from rfl] at this
    rw [this]; norm_num [s, addr]
  · have := (h2 1 (by decide)).1
    rw [show addr v2.val + 1 = 3 from rfl] at this
    rw [this]; norm_num [s, addr]

/-- `(w = x, w * w)` with `Var`s: building it writes the value 1 of `x` to `w`, and what is built is `w, w * w` -/
example : ∃ s', buildStmts id [.copy .var w .var x, .node (.mkBinary .mul (.var w) (.var w))] s = some (s', [.var w, .mkBinary .mul (.var w) (.var w)]) ∧ s'.val 1 = 1 ∧ s'.adj 1 = s.adj 0 := by
  obtain ⟨s', h1, h2, -⟩ := C60_false_variables_are_copied (w := w) (u := x) (s := s) (by decide) rfl (by decide) (by decide) id [.node (.mkBinary .mul (.var w) (.var w))]
  have h3 := h2 0 (by decide)
  refine ⟨s', h1, ?_, h3.2⟩
  rw [show (1 : ℕ) = addr w.val + 0 from rfl, h3.1]
  norm_num [s, addr]

section
variable [HasInf ℝ] [LinAlg ℝ]

/-- `auto b = bind(sin(x)), c = bind(sin(w));` -/
noncomputable def SampleAsg.bound (v v' : View) : Option (Objects ℝ) :=
  (Objects.mk s fun _ => none).run [.bind 0 (sin v) 10 10 (fun _ => 0) (fun _ => 0), .bind 1 (sin v') 20 20 (fun _ => 0) (fun _ => 0)]

/-- `b = c` for `b = bind(sin(x))`, `c = bind(sin(w))`: `b` holds the expression of `c` -/
example : ∃ o o', bound x w = some o ∧ o.assign 0 1 30 30 = some o' ∧ (o'.obj 0).bind ExprObj.expr = (o.obj 1).bind ExprObj.expr := by
  have : ∃ o : Objects ℝ, bound x w = some o ∧ o.obj 0 = some ⟨some (.unary .sin (.var x) ⟨.scl, some 10, some 10⟩), 10, 10, ⟨1, 1⟩⟩ ∧
      o.obj 1 = some ⟨some (.unary .sin (.var w) ⟨.scl, some 20, some 20⟩), 20, 20, ⟨1, 1⟩⟩ := ⟨_, rfl, rfl, rfl⟩
  obtain ⟨o, h0, hx, hy⟩ := this
  obtain ⟨o', h1, h2, -⟩ := C59_bound_partial hx hy rfl rfl rfl (by simp [Expr.SameType]) (by simp [Expr.AllScl]) (by simp [Expr.AllScl]) 30 30
  exact ⟨o, o', h0, h1, by rw [h2, hy]; rfl⟩

/-- **C59 is false of the code for bound expressions (lifetime).** After `b = c` for `b = bind(sin(x))`, `c = bind(sin(w))`, `b` can be evaluated; but not after the end of the life of `c`, in whose cache
`b` now works: undefined behaviour. -/
theorem C59_false_after_destruction : ∃ o o', bound x w = some o ∧ o.assign 0 1 30 30 = some o' ∧ (o'.run [.evaluate 0]).isSome = true ∧ o'.run [.destroy 1, .evaluate 0] = none :=
  ⟨_, _, rfl, rfl, rfl, rfl⟩

/-- **C59 is false of the code for bound arrays.** After `b = c` for `b = bind(sin(u))`, `c = bind(sin(v))` with vectors `u = (1, 2)`, `v = (3, 4)`, `b` is still the expression `sin(u)`, and `u` has become `(3, 4)`: a later
change of `v` does not change the value of `b`. -/
theorem C59_false_for_bound_arrays : ∃ o o' o'' e, bound u2 v2 = some o ∧ o.assign 0 1 30 30 = some o' ∧ (o.obj 0).bind ExprObj.expr = some e ∧ (o'.obj 0).bind ExprObj.expr = some e ∧
    o'.st.val 0 = 3 ∧ o'.st.val 1 = 4 ∧ o'.run [.setVal 2 0, .setVal 3 0] = some o'' ∧ ∃ t r f, evaluate e o''.st = some (t, r) ∧ r.read t 2 = some f ∧ f 0 = Real.sin 3 ∧ f 1 = Real.sin 4 := by
  refine ⟨_, _, _, _, rfl, rfl, rfl, rfl, ?_, ?_, rfl, _, _, _, rfl, rfl, ?_, ?_⟩
  · show ((2 : ℕ) : ℝ) + 1 = 3
    norm_num
  · show ((3 : ℕ) : ℝ) + 1 = 4
    norm_num
  · show Real.sin (((2 : ℕ) : ℝ) + 1) = _
    norm_num
  · show Real.sin (((3 : ℕ) : ℝ) + 1) = _
    norm_num

/-! ### C60 -/

/-- **C60 (partial), scalar views.** If none of the views `w`, `u` is changed after an assignment `w = u` of scalar `VarView`s, then building the statements changes nothing in memory, and they compute what
they would compute if `w = u` assigned the value of `u` to `w` whenever it is evaluated.  For every program `q` made of these statements, `autodiff` returns this value and adds its derivatives.

Missing: `Var`s, arrays, and views that are changed afterwards; see `C60_false_for_variables`, `C60_false_for_array_views`, `C60_false_for_updated_views`. -/
theorem C60_views_partial [LawfulLinAlg] {xs : List (SrcStmt ℝ)} (h : Unaliased xs) (s0 : St ℝ) : ∃ l, buildStmts id xs s0 = some (s0, l) ∧ l.length = xs.length ∧
    (∀ m, ∀ k < sizeR (xs.map SrcStmt.meant), resultL l m k = resultL (xs.map SrcStmt.meant) m k) ∧
    ∀ {q : Expr ℝ} {s s1 : St ℝ} {qv qa : ℕ} {jv ja : ℕ → ℝ}, q.flat = l → q.Program → q.Alive s.vok s.aok → Fresh s q.bindSize qv qa → Later (bindExpr q qv qa jv ja s).2 s1 → ∀ seed,
      ∃ s2 r, autodiff (bindExpr q qv qa jv ja s).1 seed s1 = some (s2, r) ∧
        (q.Stable → r.read s2 q.size = some (trunc q.size (resultL (xs.map SrcStmt.meant) s1.val))) ∧
        ∀ π, q.Paired π → Set.InjOn π q.adjCells → (∀ c ∈ q.constCells, c ∉ q.targetCells) → (∀ a ∈ q.targetAdj, s1.adj a = 0) →
          ∀ a ∈ q.adjCells, π a ∉ q.constCells → π a ∉ q.placeCells → RegSeq q.flat (fun t => Function.update s1.val (π a) t) (s1.val (π a)) →
            HasDerivAt (fun t => ∑ k ∈ Finset.range q.size, seed k * resultL (xs.map SrcStmt.meant) (Function.update s1.val (π a) t) k) (s2.adj a - s1.adj a) (s1.val (π a)) := by
  obtain ⟨l, h1, h2, h3⟩ := unaliased_ok h s0
  refine ⟨l, h1, by simpa using congrArg List.length h2, h3, ?_⟩
  intro q s s1 qv qa jv ja hfl hq hal hf hl seed
  have hsz : q.size = sizeR (xs.map SrcStmt.meant) := by rw [← sizeR_flat hq.tree hq.nonempty, hfl, sizeR_shapes h2]
  have key : ∀ m, ∀ k < q.size, q.result m k = resultL (xs.map SrcStmt.meant) m k := by
    intro m k hk
    rw [result_tree q hq.tree hq.nonempty, hfl]
    exact h3 m k (hsz ▸ hk)
  obtain ⟨s2, r, g1, g2, g3⟩ := C02_program_gradient (jv := jv) (ja := ja) hq hal hf hl seed
  refine ⟨s2, r, g1, fun hst => ?_, fun π p1 p2 p3 p4 a ha hc hp hr => ?_⟩
  · rw [g2 hst]
    exact congrArg some (trunc_congr fun k hk => key _ k hk)
  · refine ((g3 π p1 p2 p3 p4).2 a ha hc hp hr).congr_of_eventuallyEq (Filter.Eventually.of_forall fun t => ?_)
    exact Finset.sum_congr rfl fun k hk => by rw [key _ k (Finset.mem_range.1 hk)]

namespace SampleAsg

/-- `w = x, w * w` -/
def square : List (SrcStmt ℝ) := [.copy .view w .view x, .node (.mkBinary .mul (.var w) (.var w))]

omit [HasInf ℝ] [LinAlg ℝ] in
theorem square_unaliased : Unaliased square := by
  have hap : w.Apart x := fun j hj k hk => by
    have hj : j < 1 := hj
    have hk : k < 1 := hk
    simp only [addr, Option.getD_some]; omega
  refine ⟨?_, ?_, ?_, ?_, ?_⟩
  · intro e he
    simp only [square, List.mem_cons, reduceCtorEq, SrcStmt.node.injEq, List.not_mem_nil, or_false, false_or] at he
    subst he
    refine ⟨⟨?_, ?_, ?_, ?_, ?_⟩, rfl, trivial⟩ <;>
      simp [Expr.WF, Expr.shape, Expr.view, View.null, Expr.binShape, Shape.ofDims, Shape.maxKind, Shape.scl, Shape.Ok, binDimsOk, sameDims, Shape.isScl, Expr.isIf]
  · intro c v d u h
    simp only [square, List.mem_cons, reduceCtorEq, SrcStmt.copy.injEq, List.not_mem_nil, or_false] at h
    obtain ⟨rfl, rfl, rfl, rfl⟩ := h
    exact ⟨rfl, rfl, rfl, rfl⟩
  · intro a ha b hb v hv v' hv'
    have aux : ∀ a ∈ square, ∀ v ∈ a.vars, v = w ∨ v = x := by
      intro a ha v hv
      simp only [square, List.mem_cons, List.not_mem_nil, or_false] at ha
      rcases ha with rfl | rfl
      · simpa [SrcStmt.vars] using hv
      · left; simpa [SrcStmt.vars, Expr.vars, Expr.mkBinary] using hv
    rcases aux a ha v hv with rfl | rfl <;> rcases aux b hb v' hv' with rfl | rfl
    exacts [.inl rfl, .inr hap, .inr hap.symm, .inl rfl]
  · intro a ha c hc
    simp only [square, List.mem_cons, List.not_mem_nil, or_false] at ha
    rcases ha with rfl | rfl <;> simp [SrcStmt.cviews, Expr.cviews, Expr.mkBinary] at hc
  · simp [square, SrcStmt.changed, Expr.target, Expr.mkBinary]

/-- what is built: `x, x * x` -/
def squareBuilt : Expr ℝ := .mkGlue (.var x) (.mkBinary .mul (.var x) (.var x))

omit [HasInf ℝ] [LinAlg ℝ] in
theorem squareBuilt_program : squareBuilt.Program := by
  have hx : (Expr.var x : Expr ℝ).WFStmt := ⟨by simp [Expr.WF, Shape.Ok, Shape.scl], rfl, trivial⟩
  have hxx : (Expr.mkBinary .mul (.var x) (.var x) : Expr ℝ).WFStmt := by
    refine ⟨⟨?_, ?_, ?_, ?_, ?_⟩, rfl, trivial⟩ <;>
      simp [Expr.WF, Expr.shape, Expr.view, View.null, Expr.binShape, Shape.ofDims, Shape.maxKind, Shape.scl, Shape.Ok, binDimsOk, sameDims, Shape.isScl, Expr.isIf]
  refine ⟨⟨hx, hxx, by simp [Expr.flat, Expr.mkBinary], rfl⟩, ?_, by simp [squareBuilt, Expr.flat, Expr.mkGlue]⟩
  simp [squareBuilt, Expr.flat, Expr.mkGlue, UsedAfter, Expr.mkBinary, Expr.placeholder]

end SampleAsg

/-- C60 applied to `w = x, w * w` for `VarView`s: what is built is `x, x * x`, and its derivative is that of `x * x`. -/
example [LawfulLinAlg] : buildStmts id square s = some (s, squareBuilt.flat) ∧ (∀ m, resultL (square.map SrcStmt.meant) m 0 = m 0 * m 0) ∧
    ∃ s2 r, autodiff (bindExpr squareBuilt 10 10 0 0 s).1 1 (bindExpr squareBuilt 10 10 0 0 s).2 = some (s2, r) ∧ HasDerivAt (fun t => t * t) (s2.adj 0) 1 := by
  have hm : ∀ m : ℕ → ℝ, resultL (square.map SrcStmt.meant) m 0 = m 0 * m 0 := by
    intro m
    simp [square, SrcStmt.meant, resultL, Expr.mkEq, Expr.exec, Expr.result, Expr.mkBinary, Expr.denote, assign, addr, BOp.real, Expr.shape, Expr.view, Shape.isScl, Shape.scl, View.size, Shape.size]
  refine ⟨rfl, hm, ?_⟩
  obtain ⟨l, h1, -, -, h2⟩ := C60_views_partial square_unaliased s
  have hl : squareBuilt.flat = l := by
    have : buildStmts id square s = some (s, squareBuilt.flat) := rfl
    rw [h1] at this
    exact (Prod.mk.inj (Option.some.inj this)).2.symm
  have hv : squareBuilt.vars = [x, x, x] := rfl
  obtain ⟨s2, r, h3, -, h4⟩ := h2 (s := s) (qv := 10) (qa := 10) (jv := 0) (ja := 0) hl squareBuilt_program
    ⟨fun v hv' => by
      rw [hv] at hv'
      have : v = x := by simpa using hv'
      subst this
      constructor <;> decide, fun c hc => by simp [squareBuilt, Expr.mkGlue, Expr.mkBinary, Expr.cviews] at hc⟩
    ⟨fun k _ => by simp [s]; omega, fun k _ => by simp [s]; omega⟩ ⟨fun _ h => h, fun _ h => h⟩ 1
  refine ⟨s2, r, h3, ?_⟩
  have h5 := h4 id (fun v hv' k hk => by
      rw [hv] at hv'
      have : v = x := by simpa using hv'
      subst this; rfl) (Set.injOn_id _) (by decide) (fun a ha => by
      have : squareBuilt.targetAdj = ∅ := by decide
      rw [this] at ha; simp at ha) 0 (by decide) (by decide) (by decide) (by
      simp [squareBuilt, Expr.flat, Expr.mkGlue, Expr.mkBinary, RegSeq, Expr.RegStmt, Expr.Reg, BOp.isComparison])
  simpa [bindExpr, St.allocate, fillRange, s, hm, show squareBuilt.size = 1 from rfl] using h5

/-- **C60 is false of the code for `Var`s.** `(w = x, w * w)` with `Var`s, built while x = 1, compiles; the value of `x` is copied when the expression is built.  If `x` is 3 when it is evaluated, `autodiff` returns 1 instead of 9, and
the adjoint of `x` stays 0. -/
theorem C60_false_for_variables : ∃ s1 a b s2 r f, buildStmts id [.copy .var w .var x, .node (.mkBinary .mul (.var w) (.var w))] s = some (s1, [a, b]) ∧
    (let q := bindExpr (.mkGlue a b) 10 10 (fun _ => 0) (fun _ => 0) s1
     autodiff q.1 (fun _ => 1) { q.2 with val := Function.update q.2.val 0 3 } = some (s2, r) ∧ r.read s2 1 = some f ∧ f 0 = 1 ∧ s2.adj 0 = 0 ∧
     resultL ([.copy .var w .var x, .node (.mkBinary .mul (.var w) (.var w))].map SrcStmt.meant) (Function.update q.2.val 0 3) 0 = 9) := by
  refine ⟨_, _, _, _, _, _, rfl, rfl, rfl, ?_, ?_, ?_⟩
  · show (((0 : ℕ) : ℝ) + 1) * (((0 : ℕ) : ℝ) + 1) = 1
    norm_num
  · rfl
  · simp [SrcStmt.meant, resultL, Expr.mkEq, Expr.exec, Expr.result, Expr.mkBinary, Expr.denote, assign, addr, BOp.real, Expr.shape, Expr.view, Shape.isScl, Shape.scl, View.size, Shape.size]
    norm_num

/-- **C60 is false of the code for views of arrays.** `(v = u, sum(v))` with views of vectors, built while u = (1, 2): the elements are copied when the expression is built.  If `u` is (5, 2) when it is evaluated,
`autodiff` returns 3 instead of 7, and the adjoints of `u` stay 0. -/
theorem C60_false_for_array_views : ∃ s1 a b s2 r f, buildStmts id [.copy .view v2 .view u2, .node (.mkReduce .sum (.cons (.var v2) .nil))] s = some (s1, [a, b]) ∧
    (let q := bindExpr (.mkGlue a b) 10 10 (fun _ => 0) (fun _ => 0) s1
     autodiff q.1 (fun _ => 1) { q.2 with val := Function.update q.2.val 0 5 } = some (s2, r) ∧ r.read s2 1 = some f ∧ f 0 = 3 ∧ s2.adj 0 = 0 ∧ s2.adj 1 = 0 ∧
     resultL ([.copy .view v2 .view u2, .node (.mkReduce .sum (.cons (.var v2) .nil))].map SrcStmt.meant) (Function.update q.2.val 0 5) 0 = 7) := by
  refine ⟨_, _, _, _, _, _, rfl, rfl, rfl, ?_, ?_, ?_, ?_⟩
  · show (0 : ℝ) + (((0 : ℕ) : ℝ) + 1) + (((1 : ℕ) : ℝ) + 1) = 3
    norm_num
  · rfl
  · rfl
  · simp [SrcStmt.meant, resultL, Expr.mkEq, Expr.mkReduce, Expr.exec, Expr.result, Expr.denote, Exprs.denotes, assign, addr, RedOp.reals, RedOp.real, Expr.shape, Expr.view, Shape.isScl, Shape.vec,
      View.size, Shape.size, Finset.sum_range_succ]
    norm_num [bindExpr, St.allocate, fillRange, s]

/-- **C60 is false of the code for views that are changed afterwards.** `(w = x, x *= y, w + x)` with scalar views and x = 1, y = 3: `w` has become another name of `x`; `autodiff` returns 3 + 3 instead of 1 + 3, and adds 6 to the adjoint of
`x` instead of 1 + 3. -/
theorem C60_false_for_updated_views : ∃ a b c s2 r f, buildStmts id [.copy .view w .view x, .node (.mkOpEq .mul x (.var y)), .node (.mkBinary .add (.var w) (.var x))] s = some (s, [a, b, c]) ∧
    (let q := bindExpr (.mkGlue (.mkGlue a b) c) 10 10 (fun _ => 0) (fun _ => 0) s
     autodiff q.1 (fun _ => 1) q.2 = some (s2, r) ∧ r.read s2 1 = some f ∧ f 0 = 6 ∧ s2.adj 0 = 6 ∧
     ∀ m, resultL ([.copy .view w .view x, .node (.mkOpEq .mul x (.var y)), .node (.mkBinary .add (.var w) (.var x))].map SrcStmt.meant) m 0 = m 0 + m 0 * m 2) := by
  refine ⟨_, _, _, _, _, _, rfl, rfl, rfl, ?_, ?_, ?_⟩
  · show (((0 : ℕ) : ℝ) + 1) * (((2 : ℕ) : ℝ) + 1) + (((0 : ℕ) : ℝ) + 1) * (((2 : ℕ) : ℝ) + 1) = 6
    norm_num
  · show (0 : ℝ) + (0 + 1 + 1 + 0) * (((2 : ℕ) : ℝ) + 1) + 0 = 6
    norm_num
  · intro m
    simp [SrcStmt.meant, resultL, Expr.mkEq, Expr.mkOpEq, Expr.exec, Expr.result, Expr.mkBinary, Expr.denote, assign, addr, BOp.real, AOp.real, Expr.shape, Expr.view, Shape.isScl, Shape.scl, View.size, Shape.size]

/-- `C60_false_views_are_renamed` applied to `w = x, w += y, w`: what is updated is `x` -/
example : ∃ b c, buildStmts id [.copy .view w .view x, .node (.mkOpEq .add w (.var y)), .node (.var w)] s = some (s, [.var x, b, c]) ∧ b.vars = [x, y] ∧ c.vars = [x] := by
  obtain ⟨l, h1, h2⟩ := C60_false_views_are_renamed (w := w) (u := x) s rfl rfl [.mkOpEq .add w (.var y), .var w]
  match l, h2 with
  | [b, c], .cons hb (.cons hc .nil) =>
    exact ⟨b, c, h1, by rw [hb]; decide, by rw [hc]; decide⟩

/-- **C60 is false of the code for views that are assigned to afterwards.** `(w = x, w += y, x)` with scalar views and x = 1, y = 3: `w += y` updates `x`; `evaluate` returns 4 instead of the value 1 of `x`. -/
theorem C60_false_for_updated_target : ∃ a b c s2 r f, buildStmts id [.copy .view w .view x, .node (.mkOpEq .add w (.var y)), .node (.var x)] s = some (s, [a, b, c]) ∧
    (let q := bindExpr (.mkGlue (.mkGlue a b) c) 10 10 (fun _ => 0) (fun _ => 0) s
     evaluate q.1 q.2 = some (s2, r) ∧ r.read s2 1 = some f ∧ f 0 = 4 ∧ s2.val 0 = 4 ∧ s2.val 1 = s.val 1 ∧
     ∀ m, resultL ([.copy .view w .view x, .node (.mkOpEq .add w (.var y)), .node (.var x)].map SrcStmt.meant) m 0 = m 0) := by
  refine ⟨_, _, _, _, _, _, rfl, rfl, rfl, ?_, ?_, ?_, ?_⟩
  · show (((0 : ℕ) : ℝ) + 1) + (((2 : ℕ) : ℝ) + 1) = 4
    norm_num
  · show (((0 : ℕ) : ℝ) + 1) + (((2 : ℕ) : ℝ) + 1) = 4
    norm_num
  · rfl
  · intro m
    simp [SrcStmt.meant, resultL, Expr.mkEq, Expr.mkOpEq, Expr.exec, Expr.result, Expr.denote, assign, addr, AOp.real, Expr.shape, Expr.view, Shape.isScl, Shape.scl, View.size, Shape.size]

end

end FastAD
