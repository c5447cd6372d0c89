import Verif.Props.Samples
import Verif.Proof.Objects
import Mathlib.Analysis.SpecialFunctions.ExpDeriv

/-!
# C31: copies, moves and destructions of `ExprBind` objects
-/

namespace FastAD

variable [HasInf ℝ] [LinAlg ℝ]

/-- Object `x` works: `evaluate` returns the value of expression `e` at the variable values `vals` and changes nothing of the user's; `autodiff` returns the
same value and adds to the user's adjoints the gradient `G` of `e` at `vals`. -/
def Working (G : Expr ℝ → (ℕ → ℝ) → (ℕ → ℝ) → ℕ → ℝ) (uv ua : ℕ → Bool) (s : St ℝ) (x : ExprObj ℝ) (e : Expr ℝ) (vals : ℕ → ℝ) : Prop :=
  ∃ b, x.expr = some b ∧
    (∃ s' r, evaluate b s = some (s', r) ∧ r.read s' e.size = some (trunc e.size (e.denote vals)) ∧
      s'.adj = s.adj ∧ ∀ a, uv a = true → s'.val a = vals a) ∧
    ∀ seed, ∃ s' r, autodiff b seed s = some (s', r) ∧ r.read s' e.size = some (trunc e.size (e.denote vals)) ∧
      (∀ a, uv a = true → s'.val a = vals a) ∧ ∀ a, ua a = true → s'.adj a = s.adj a + G e vals seed a

omit [HasInf ℝ] [LinAlg ℝ] in
/-- objects covered by the invariant work -/
theorem OInv.working [HasInf ℝ] [LinAlg ℝ] {uv ua : ℕ → Bool} {adj0 : ℕ → ℝ} {u : Sharing ℝ} {w : Objects ℝ} (h : OInv uv ua adj0 u w) {i : ℕ}
    {p : Expr ℝ × Option (ℕ → ℝ)} (hp : u.view i = some p) : ∃ x, w.obj i = some x ∧ Working Expr.grad uv ua w.st x p.1 u.vals := by
  obtain ⟨c, o, k, x, y, b, -, -, h3, h4, -, -, -, h8, -, ho⟩ := h.use hp
  have hr : ∀ a ∈ p.1.reads, w.st.val a = u.vals a := fun a ha => h.mine.val a (reads_alive ho.alive a ha)
  have hV : ∀ a, uv a = true → a ∉ blockV y.qv p.1.bindSize := fun a ha hb => by
    have := (ho.bv a hb).2
    rw [ha] at this; cases this
  have hA : ∀ a, ua a = true → a ∉ blockA y.qa p.1.bindSize := fun a ha hb => by
    have := (ho.ba a hb).2
    rw [ha] at this; cases this
  refine ⟨x, h3, b, h4, ?_, fun seed => ?_⟩
  · obtain ⟨s', r, he⟩ := ho.bnd.evaluate hr
    exact ⟨s', r, he.run, he.value s' rfl rfl, he.adj, fun a ha => (he.frame a (hV a ha)).trans (h.mine.val a ha)⟩
  · obtain ⟨s', r, he⟩ := ho.bnd.autodiff hr seed
    exact ⟨s', r, he.run, he.value, fun a ha => (he.val a (hV a ha)).trans (h.mine.val a ha), fun a ha => he.adj a (hA a ha)⟩

theorem grad_isGradient [LawfulLinAlg] : IsGradient Expr.grad := fun e hwf m seed a =>
  ⟨fun ha => grad_support m e seed a fun h => ha (readsA_cells e a h), fun _ hπ hinj hc ha hreg => grad_partial hwf hπ hinj hc ha hreg seed⟩

/-- **C31 (partial).** For every sequence of bindings, moves, destructions, evaluations, differentiations and assignments that is legal when every object is
self-contained (`Owners`): it is defined, every object that holds an expression works (also after being moved, and after the destruction of
any other objects), and every adjoint is what the differentiations of the self-contained objects add up to.

What is missing for the full property is copying, for which it is false: see `C31_false_after_destruction` and `C31_false_interference`. -/
theorem C31_self_contained_partial [LawfulLinAlg] : ∃ G, IsGradient G ∧
    ∀ {s : St ℝ} {cs : List (ObjCall ℝ)}, (∀ c ∈ cs, c.isCopy = false) → (Owners.init s.val).Legal s.vok s.aok ⟨s, fun _ => none⟩ cs →
      ∃ w u, (Objects.mk s fun _ => none).run cs = some w ∧ (Owners.init s.val).run cs = some u ∧
        (∀ a, s.vok a = true → w.st.val a = u.vals a) ∧
        (∀ a, s.aok a = true → w.st.adj a = replayAdj G a (s.adj a) u.log) ∧
        ∀ i e m, u.objs i = some (.live e m) → ∃ x, w.obj i = some x ∧ Working G s.vok s.aok w.st x e u.vals := by
  refine ⟨Expr.grad, grad_isGradient, fun {s cs} hcs hl => ?_⟩
  obtain ⟨w, u, v, hw, hu, h, hi⟩ := (OwnRel.init s.val).run cs hcs (OInv.init s) hl
  refine ⟨w, u, hw, hu, fun a ha => (hi.mine.val a ha).trans (congrFun h.vals a), fun a ha => by rw [hi.mine.adj a ha, h.log], fun i e m he => ?_⟩
  have : v.view i = some (e, m) := by
    rw [h.view]; unfold Owners.view; rw [he]
  rw [← h.vals]
  exact hi.working this

/-- **C31, what holds of copies.** For every sequence of steps including copies that is legal when a copy works on the cache of the object it was copied from, as long
as the owner of that cache (the object itself, or the object it was moved to) lives (`Sharing`): it is defined, and every object whose cache lives works. -/
theorem C31_sharing_partial [LawfulLinAlg] : ∃ G, IsGradient G ∧
    ∀ {s : St ℝ} {cs : List (ObjCall ℝ)}, (Sharing.init s.val).Legal s.vok s.aok ⟨s, fun _ => none⟩ cs →
      ∃ w u, (Objects.mk s fun _ => none).run cs = some w ∧ (Sharing.init s.val).run cs = some u ∧
        (∀ a, s.vok a = true → w.st.val a = u.vals a) ∧
        (∀ a, s.aok a = true → w.st.adj a = replayAdj G a (s.adj a) u.log) ∧
        ∀ i e m, u.view i = some (e, m) → ∃ x, w.obj i = some x ∧ Working G s.vok s.aok w.st x e u.vals := by
  refine ⟨Expr.grad, grad_isGradient, fun {s cs} hl => ?_⟩
  obtain ⟨w, u, hw, hu, h⟩ := (OInv.init s).run cs hl
  exact ⟨w, u, hw, hu, h.mine.val, h.mine.adj, fun i e m he => h.working he⟩

/-- bind, move, destroy the moved-from object, bind a second object under its name, change `x`, evaluate the first, differentiate and destroy the second,
then propagate through the first -/
def Sample.lives : List (ObjCall ℝ) :=
  [.bind 0 Sample.e 10 10 (fun _ => 0) (fun _ => 0), .move 1 0, .destroy 0, .bind 0 Sample.e 30 30 (fun _ => 7) (fun _ => 7), .setVal 0 5, .evaluate 1,
    .autodiff 0 (fun _ => 1), .destroy 0, .evaluateAdj 1 (fun _ => 2)]

theorem Sample.lives_legal : (Owners.init Sample.s.val).Legal Sample.s.vok Sample.s.aok ⟨Sample.s, fun _ => none⟩ Sample.lives := by
  refine ⟨⟨Sample.e_wf, Sample.e_alive, Sample.e_fresh⟩, _, rfl, fun w1 h1 => ?_⟩
  refine ⟨trivial, _, rfl, fun w2 h2 => ?_⟩
  refine ⟨trivial, _, rfl, fun w3 h3 => ?_⟩
  refine ⟨⟨Sample.e_wf, Sample.e_alive, ?_⟩, _, rfl, fun w4 h4 => ?_⟩
  · obtain rfl := Option.some.inj h1
    obtain rfl := Option.some.inj h2
    obtain rfl := Option.some.inj h3
    have hn : Sample.e.bindSize = ⟨7, 6⟩ := by decide
    rw [hn]
    constructor <;> intro k _ <;>
      simp [Sample.s, bindExpr, St.allocate, St.release, setAt, hn] <;> omega
  refine ⟨by simp [MemLegal, Sample.s], _, rfl, fun w5 h5 => ?_⟩
  refine ⟨trivial, _, rfl, fun w6 h6 => ?_⟩
  refine ⟨trivial, _, rfl, fun w7 h7 => ?_⟩
  refine ⟨trivial, _, rfl, fun w8 h8 => ?_⟩
  refine ⟨?_, _, rfl, fun w9 h9 => trivial⟩
  rintro e m he c -
  obtain ⟨-, h⟩ := Prod.mk.inj (Option.some.inj he)
  rw [← Option.some.inj h]

/-- the sequence meets the hypotheses of `C31_self_contained_partial` -/
example : (∀ c ∈ Sample.lives, c.isCopy = false) ∧ (Owners.init Sample.s.val).Legal Sample.s.vok Sample.s.aok ⟨Sample.s, fun _ => none⟩ Sample.lives :=
  ⟨by simp [Sample.lives, ObjCall.isCopy], Sample.lives_legal⟩

/-- `exp(x)` -/
def Sample.expx : Expr ℝ := .mkUnary .exp (.var Sample.x)

theorem Sample.expx_wf : Sample.expx.WF := by
  refine ⟨?_, ?_, ?_⟩ <;> simp [Expr.WF, Expr.shape, Expr.view, Sample.x, View.null, Shape.scl, Shape.Ok, Expr.isIf]

theorem Sample.expx_alive : Sample.expx.Alive Sample.s.vok Sample.s.aok := by
  constructor
  · intro w hw
    simp only [Sample.expx, Expr.mkUnary, Expr.vars, List.mem_singleton] at hw
    subst hw
    constructor <;> intro k hk <;> simp [Sample.x, View.size, Shape.size, Shape.scl, Sample.s] at hk ⊢ <;> omega
  · intro c hc
    simp [Sample.expx, Expr.mkUnary, Expr.cviews] at hc

/-- bind, copy, destroy the original, evaluate the copy -/
def Sample.outlived : List (ObjCall ℝ) := [.bind 0 Sample.expx 10 10 (fun _ => 0) (fun _ => 0), .copy 1 0 20 20, .destroy 0, .evaluate 1]

/-- bind, copy, evaluate the original at `x = 1` and the copy at `x = 2`, propagate through the original at `x = 1` -/
def Sample.interleaved : List (ObjCall ℝ) :=
  [.bind 0 Sample.expx 10 10 (fun _ => 0) (fun _ => 0), .copy 1 0 20 20, .setVal 0 1, .evaluate 0, .setVal 0 2, .evaluate 1, .setVal 0 1,
    .evaluateAdj 0 (fun _ => 1)]

theorem Sample.expx_fresh : Fresh Sample.s Sample.expx.bindSize 10 10 := by
  constructor <;> intro k _ <;> simp [Sample.s] <;> omega

theorem Sample.copy_fresh {w : Objects ℝ}
    (h : (Objects.mk Sample.s fun _ => none).step (.bind 0 Sample.expx 10 10 (fun _ => 0) (fun _ => 0)) = some w) (x : ExprObj ℝ) (hx : w.obj 0 = some x) :
    Fresh w.st x.n 20 20 := by
  obtain rfl := Option.some.inj h
  obtain rfl := Option.some.inj hx
  have hn : Sample.expx.bindSize = ⟨1, 1⟩ := by decide
  simp only
  rw [hn]
  constructor <;> intro k _ <;> simp [Sample.s, St.allocate, hn] <;> omega

theorem Sample.outlived_legal : (Owners.init Sample.s.val).Legal Sample.s.vok Sample.s.aok ⟨Sample.s, fun _ => none⟩ Sample.outlived :=
  ⟨⟨Sample.expx_wf, Sample.expx_alive, Sample.expx_fresh⟩, _, rfl, fun _ h1 => ⟨Sample.copy_fresh h1, _, rfl, fun _ _ => ⟨trivial, _, rfl, fun _ _ =>
    ⟨trivial, _, rfl, fun _ _ => trivial⟩⟩⟩⟩

theorem Sample.interleaved_legal : (Owners.init Sample.s.val).Legal Sample.s.vok Sample.s.aok ⟨Sample.s, fun _ => none⟩ Sample.interleaved := by
  refine ⟨⟨Sample.expx_wf, Sample.expx_alive, Sample.expx_fresh⟩, _, rfl, fun _ h1 => ⟨Sample.copy_fresh h1, _, rfl, fun _ _ =>
    ⟨rfl, _, rfl, fun _ _ => ⟨trivial, _, rfl, fun _ _ => ⟨rfl, _, rfl, fun _ _ => ⟨trivial, _, rfl, fun _ _ => ⟨rfl, _, rfl, fun _ _ =>
    ⟨?_, _, rfl, fun _ _ => trivial⟩⟩⟩⟩⟩⟩⟩⟩
  rintro e m he c -
  obtain ⟨-, h⟩ := Prod.mk.inj (Option.some.inj he)
  rw [← Option.some.inj h]
  show Function.update (Function.update (Function.update Sample.s.val 0 1) 0 2) 0 1 c = Function.update Sample.s.val 0 1 c
  rw [Function.update_idem, Function.update_idem]

/-- a copy is used and destroyed, then the original is moved and used -/
example : (Sharing.init Sample.s.val).Legal Sample.s.vok Sample.s.aok ⟨Sample.s, fun _ => none⟩
    [.bind 0 Sample.expx 10 10 (fun _ => 0) (fun _ => 0), .copy 1 0 20 20, .setVal 0 4, .autodiff 1 (fun _ => 1), .destroy 1, .move 2 0, .evaluate 2,
      .autodiff 2 (fun _ => 3)] :=
  ⟨⟨Sample.expx_wf, Sample.expx_alive, Sample.expx_fresh⟩, _, rfl, fun _ h1 => ⟨Sample.copy_fresh h1, _, rfl, fun _ _ =>
    ⟨rfl, _, rfl, fun _ _ => ⟨trivial, _, rfl, fun _ _ => ⟨trivial, _, rfl, fun _ _ => ⟨trivial, _, rfl, fun _ _ => ⟨trivial, _, rfl, fun _ _ =>
    ⟨trivial, _, rfl, fun _ _ => trivial⟩⟩⟩⟩⟩⟩⟩⟩

/-- **C31, counterexample.** After the destruction of the object it was copied from, evaluating a copy is undefined: it writes to the freed cache. -/
theorem C31_false_after_destruction :
    (Owners.init Sample.s.val).Legal Sample.s.vok Sample.s.aok ⟨Sample.s, fun _ => none⟩ Sample.outlived ∧
      (Objects.mk Sample.s fun _ => none).run Sample.outlived = none :=
  ⟨Sample.outlived_legal, rfl⟩

/-- **C31, counterexample.** Evaluating a copy changes what is propagated through the original: the adjoint of `x` gets `exp 2`, which is not the derivative of `exp` at
`x = 1`, where the original was evaluated. -/
theorem C31_false_interference {G : Expr ℝ → (ℕ → ℝ) → (ℕ → ℝ) → ℕ → ℝ} (hG : IsGradient G) :
    (Owners.init Sample.s.val).Legal Sample.s.vok Sample.s.aok ⟨Sample.s, fun _ => none⟩ Sample.interleaved ∧
      ∃ w u, (Objects.mk Sample.s fun _ => none).run Sample.interleaved = some w ∧ (Owners.init Sample.s.val).run Sample.interleaved = some u ∧
        w.st.adj 0 ≠ replayAdj G 0 (Sample.s.adj 0) u.log := by
  refine ⟨Sample.interleaved_legal, _, _, rfl, rfl, ?_⟩
  have hd := (hG Sample.expx Sample.expx_wf (Function.update Sample.s.val 0 1) (fun _ => 1) 0).2 id
    (fun w hw k hk => by
      simp only [Sample.expx, Expr.mkUnary, Expr.vars, List.mem_singleton] at hw
      subst hw; rfl)
    (Function.injective_id.injOn) (fun b _ => by simp [Sample.expx, Expr.mkUnary, Expr.constCells, Expr.cviews]) (by decide)
    (by simp [Sample.expx, Expr.mkUnary, Expr.Reg, UOp.DomAt])
  have he : (fun t : ℝ => ∑ k ∈ Finset.range Sample.expx.size,
      (1 : ℝ) * Sample.expx.denote (Function.update (Function.update Sample.s.val 0 1) (id 0) t) k) = Real.exp := by
    funext t
    simp [Sample.expx, Expr.mkUnary, Expr.size, Expr.shape, Expr.view, Expr.denote, UOp.real, Sample.x, addr, View.null, Shape.size, Shape.scl]
  rw [he] at hd
  have hd' := hd.unique (Real.hasDerivAt_exp _)
  show (0 : ℝ) + 1 * Real.exp 2 ≠ 0 + G Sample.expx (Function.update Sample.s.val 0 1) (fun _ => 1) 0
  rw [hd']
  simp

end FastAD
