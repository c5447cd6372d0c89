import Verif.Proof.GenApi
import Verif.Proof.Session

/-!
# Arbitrary scalar types

Property C42: what holds in every arithmetic, in particular in floating-point arithmetic with its rounding errors, overflows and NaNs.  The theorems of this file are
about every type `α` with interpretations of the operations; no law whatsoever is assumed.
-/

namespace FastAD

section
variable {α : Type} [Zero α] [One α] [Add α] [Sub α] [Neg α] [Mul α] [Div α] [NatCast α] [IntCast α]
variable [Fn α] [HasInf α] [LinAlg α]

/-- **C42.** Over any scalar type: bind a side-effect-free expression twice, in different memories, to caches at different addresses holding different rubbish, and let both objects have
any history (the contents of all cells that are not variables or constants of the expression are arbitrary, further memory may have been allocated).  If the variables, the
constants and the adjoints of the variables agree, then both calls of `autodiff` are defined (no undefined behaviour), return the same numbers and leave the same
adjoints, bit by bit; nothing that was allocated before the binding changes except the adjoints of the variables. -/
theorem C42_reproducible {e : Expr α} {s t S T : St α} {qv qa qv' qa' : ℕ} {jv ja jv' ja' : ℕ → α} (hwf : e.WF)
    (hs : e.Alive s.vok s.aok) (ht : e.Alive t.vok t.aok) (hfs : Fresh s e.bindSize qv qa) (hft : Fresh t e.bindSize qv' qa')
    (hSv : ∀ a, (bindExpr e qv qa jv ja s).2.vok a = true → S.vok a = true)
    (hSa : ∀ a, (bindExpr e qv qa jv ja s).2.aok a = true → S.aok a = true)
    (hTv : ∀ a, (bindExpr e qv' qa' jv' ja' t).2.vok a = true → T.vok a = true)
    (hTa : ∀ a, (bindExpr e qv' qa' jv' ja' t).2.aok a = true → T.aok a = true)
    (hval : ∀ c ∈ e.valCells ∪ e.constCells, S.val c = T.val c) (hadj : ∀ a ∈ e.adjCells, S.adj a = T.adj a)
    (seed seed' : ℕ → α) (hseed : ∀ k < e.size, seed k = seed' k) :
    ∃ S' r T' r' f, autodiff (bindExpr e qv qa jv ja s).1 seed S = some (S', r) ∧
      autodiff (bindExpr e qv' qa' jv' ja' t).1 seed' T = some (T', r') ∧
      r.read S' e.size = some f ∧ r'.read T' e.size = some f ∧
      (∀ a ∈ e.adjCells, S'.adj a = T'.adj a) ∧
      (∀ a, s.vok a = true → S'.val a = S.val a) ∧ (∀ a, s.aok a = true → a ∉ e.adjCells → S'.adj a = S.adj a) ∧
      (∀ a, t.vok a = true → T'.val a = T.val a) ∧ (∀ a, t.aok a = true → a ∉ e.adjCells → T'.adj a = T.adj a) := by
  have hblk : ∀ {u : ℕ → Bool} {q n : ℕ}, (∀ k < n, u (q + k) = false) → ∀ a, u a = true → a ∉ rng (some q) n := by
    intro u q n h a ha hb
    obtain ⟨k, hk, rfl⟩ := mem_rng_iff.1 hb
    have := h k hk
    rw [show u (q + k) = true from ha] at this
    cases this
  obtain ⟨S', r, h⟩ := ((bindExpr_bnd (jv := jv) (ja := ja) hwf hs hfs).mono hSv hSa).gautodiff (m := S.val) (fun _ _ => rfl) seed
  obtain ⟨T', r', h'⟩ := ((bindExpr_bnd (jv := jv') (ja := ja') hwf ht hft).mono hTv hTa).gautodiff (m := S.val)
    (fun a ha => (hval a (Finset.mem_union.2 (reads_cells e a ha))).symm) seed'
  have hback : e.gback S.val seed' = e.gback S.val seed := gback_congr _ e _ _ hwf fun k hk => (hseed k hk).symm
  refine ⟨S', r, T', r', _, h.run, h'.run, h.value, h'.value, fun a ha => ?_, fun a ha => h.val a (hblk hfs.1 a ha), fun a ha hn => ?_,
    fun a ha => h'.val a (hblk hft.1 a ha), fun a ha hn => ?_⟩
  · rw [h.adj a (hblk hfs.2 a (adjCells_alive hs a ha)), h'.adj a (hblk hft.2 a (adjCells_alive ht a ha)), hadj a ha, hback]
  · rw [h.adj a (hblk hfs.2 a ha), gback_support _ _ _ _ _ fun x => hn (readsA_cells e a x)]
  · rw [h'.adj a (hblk hft.2 a ha), gback_support _ _ _ _ _ fun x => hn (readsA_cells e a x)]

/-- **C42, values.** Over any scalar type `evaluate` of a bound side-effect-free expression is defined, whatever the history, returns the value obtained by evaluating the expression node by node
with the operations of the scalar type (`exact`) at the current variables, and changes no adjoint and nothing that was allocated before the binding. -/
theorem C42_exact {e : Expr α} {s S : St α} {qv qa : ℕ} {jv ja : ℕ → α} (hwf : e.WF) (hs : e.Alive s.vok s.aok)
    (hfs : Fresh s e.bindSize qv qa) (hSv : ∀ a, (bindExpr e qv qa jv ja s).2.vok a = true → S.vok a = true)
    (hSa : ∀ a, (bindExpr e qv qa jv ja s).2.aok a = true → S.aok a = true) :
    ∃ S' r, evaluate (bindExpr e qv qa jv ja s).1 S = some (S', r) ∧ r.read S' e.size = some (trunc e.size (e.exact S.val)) ∧
      S'.adj = S.adj ∧ ∀ a, s.vok a = true → S'.val a = S.val a := by
  obtain ⟨S', r, h⟩ := ((bindExpr_bnd (jv := jv) (ja := ja) hwf hs hfs).mono hSv hSa).gevaluate (m := S.val) (fun _ _ => rfl)
  refine ⟨S', r, h.run, h.value S' rfl rfl, h.adj, fun a ha => h.frame a fun hb => ?_⟩
  obtain ⟨k, hk, rfl⟩ := mem_rng_iff.1 hb
  have := hfs.1 k hk
  rw [show s.vok (qv + k) = true from ha] at this
  cases this

/-- **C42, values returned by `autodiff`.** Over any scalar type `autodiff` returns the number that `evaluate` returns (for every scalar expression, and for every array expression which is not an iterated product
or an `if_else`). -/
theorem C42_autodiff_value {e : Expr α} {s S : St α} {qv qa : ℕ} {jv ja : ℕ → α} (hwf : e.WF) (hs : e.Alive s.vok s.aok)
    (hfs : Fresh s e.bindSize qv qa) (hSv : ∀ a, (bindExpr e qv qa jv ja s).2.vok a = true → S.vok a = true)
    (hSa : ∀ a, (bindExpr e qv qa jv ja s).2.aok a = true → S.aok a = true)
    (hroot : e.shape.isScl = true ∨ ((∀ es w, e ≠ .prodIter es w) ∧ ∀ c x y w, e ≠ .ifElse c x y w)) (seed : ℕ → α) :
    ∃ S' r, autodiff (bindExpr e qv qa jv ja s).1 seed S = some (S', r) ∧ r.read S' e.size = some (trunc e.size (e.exact S.val)) := by
  obtain ⟨S', r, h⟩ := ((bindExpr_bnd (jv := jv) (ja := ja) hwf hs hfs).mono hSv hSa).gautodiff (m := S.val) (fun _ _ => rfl) seed
  refine ⟨S', r, h.run, ?_⟩
  rw [h.value]
  rcases hroot with hr | hr
  · rw [if_pos hr]
  · have : e.post S.val = e.exact S.val := by
      cases e with
      | prodIter es w => exact absurd rfl (hr.1 es w)
      | ifElse c x y w => exact absurd rfl (hr.2 c x y w)
      | _ => rfl
    rw [this, ite_self]

end

/-! ### An arithmetic with rounding -/

/-- fixed-point numbers: multiples of 1/4, products and quotients are rounded -/
structure Fix where
  /-- the number in units of 1/4 -/
  n : Int
  deriving DecidableEq

namespace Fix

instance : Zero Fix := ⟨⟨0⟩⟩
instance : One Fix := ⟨⟨4⟩⟩
instance : Add Fix := ⟨fun a b => ⟨a.n + b.n⟩⟩
instance : Sub Fix := ⟨fun a b => ⟨a.n - b.n⟩⟩
instance : Neg Fix := ⟨fun a => ⟨-a.n⟩⟩
instance : Mul Fix := ⟨fun a b => ⟨a.n * b.n / 4⟩⟩
instance : Div Fix := ⟨fun a b => ⟨4 * a.n / b.n⟩⟩
instance : NatCast Fix := ⟨fun k => ⟨4 * (k : Int)⟩⟩
instance : IntCast Fix := ⟨fun k => ⟨4 * k⟩⟩
instance : HasInf Fix := ⟨⟨1000⟩⟩
/-- crude approximations; C42 does not care -/
instance : Fn Fix where
  sin x := x
  cos x := ⟨4 - x.n * x.n / 32⟩
  tan x := x
  asin x := x
  acos x := ⟨6 - x.n⟩
  atan x := x
  exp x := ⟨4 + x.n⟩
  log x := ⟨x.n - 4⟩
  sqrt x := ⟨2 + x.n / 2⟩
  abs x := ⟨x.n.natAbs⟩
  erf x := x
  sinh x := x
  cosh x := ⟨4 + x.n * x.n / 32⟩
  tanh x := x
  ipow x k := if k = 0 then ⟨4⟩ else x
  twoOverSqrtPi := ⟨5⟩
  beq a b := a.n == b.n
  blt a b := decide (a.n < b.n)
  ble a b := decide (a.n ≤ b.n)
instance : LinAlg Fix where
  det _ f := f 0
  invertible _ f := f 0 != ⟨0⟩
  inv _ f := f
  symInv _ f := f
  symDet _ f := f 0
  ldltOk _ _ := true
  lltOk _ _ := true
  lltDetL _ f := f 0

/-- multiplication is not associative -/
example : ¬ ∀ a b c : Fix, a * b * c = a * (b * c) := fun h => absurd (h ⟨1⟩ ⟨2⟩ ⟨8⟩) (by decide)

/-- three vectors of two elements -/
def x : View := ⟨.vec 2, some 0, some 0⟩
@[inherit_doc x] def y : View := ⟨.vec 2, some 2, some 2⟩
@[inherit_doc x] def z : View := ⟨.vec 2, some 4, some 4⟩
/-- the product of the three vectors, `prod` over a range of expressions -/
def e : Expr Fix := .mkProdIter .vec (.cons (.var x) (.cons (.var y) (.cons (.var z) .nil)))
/-- `x = (1/4, 1)`, `y = (1/2, 0)`, `z = (2, 1)`; everything from cell 6 on is free -/
def s : St Fix :=
  ⟨fun a => ([⟨1⟩, ⟨4⟩, ⟨2⟩, ⟨0⟩, ⟨8⟩, ⟨4⟩] : List Fix)[a]?.getD ⟨77⟩, fun _ => ⟨0⟩, fun a => decide (a < 6), fun a => decide (a < 6)⟩

theorem e_wf : e.WF := by
  refine ⟨⟨?_, ?_, ?_, trivial⟩, ?_, ?_⟩ <;>
    simp [Expr.WF, Exprs.toList, Expr.shape, Expr.view, View.null, x, y, z, Shape.vec, Shape.Ok, Expr.isIf, Expr.iterShape, Shape.ofDims]

theorem e_alive : e.Alive s.vok s.aok := by
  constructor
  · intro w hw
    simp only [e, Expr.mkProdIter, Expr.vars, Exprs.varss, List.append_nil, List.mem_append, List.mem_singleton] at hw
    rcases hw with rfl | rfl | rfl <;> constructor <;> intro k hk <;>
      simp [x, y, z, View.size, Shape.size, Shape.vec, s] at hk ⊢ <;> omega
  · intro c hc
    simp [e, Expr.mkProdIter, Expr.cviews, Exprs.cviewss] at hc

theorem e_fresh (q q' : ℕ) (hq : 6 ≤ q) (hq' : 6 ≤ q') : Fresh s e.bindSize q q' := by
  constructor <;> intro k _ <;> simp [s] <;> omega

/-- C42 applies to the product in fixed-point arithmetic: caches at 10 and at 30, the second ones with other rubbish -/
example : ∃ S r T r' f, autodiff (bindExpr e 10 10 (fun _ => 0) (fun _ => 0) s).1 (fun _ => 1) (bindExpr e 10 10 (fun _ => 0) (fun _ => 0) s).2 = some (S, r) ∧
    autodiff (bindExpr e 30 40 (fun _ => ⟨7⟩) (fun _ => ⟨9⟩) s).1 (fun _ => 1) (bindExpr e 30 40 (fun _ => ⟨7⟩) (fun _ => ⟨9⟩) s).2 = some (T, r') ∧
    r.read S 2 = some f ∧ r'.read T 2 = some f ∧ S.adj 3 = T.adj 3 := by
  obtain ⟨S, r, T, r', f, h1, h2, h3, h4, h5, -⟩ := C42_reproducible (jv := fun _ => 0) (ja := fun _ => 0) (jv' := fun _ => ⟨7⟩) (ja' := fun _ => ⟨9⟩)
    e_wf e_alive e_alive (e_fresh 10 10 (by omega) (by omega)) (e_fresh 30 40 (by omega) (by omega)) (fun _ h => h) (fun _ h => h)
    (fun _ h => h) (fun _ h => h) (by decide) (by decide) (fun _ => 1) (fun _ => 1) (fun _ _ => rfl)
  exact ⟨S, r, T, r', f, h1, h2, h3, h4, h5 3 (by decide)⟩

/-- `evaluate` computes the product from left to right in fixed-point arithmetic -/
example : ∃ S r f, evaluate (bindExpr e 10 10 (fun _ => 0) (fun _ => 0) s).1 (bindExpr e 10 10 (fun _ => 0) (fun _ => 0) s).2 = some (S, r) ∧
    r.read S 2 = some f ∧ f 0 = (⟨1⟩ * ⟨2⟩) * ⟨8⟩ ∧ f 1 = ⟨0⟩ := by
  obtain ⟨S, r, h1, h2, -⟩ := C42_exact (jv := fun _ => 0) (ja := fun _ => 0) e_wf e_alive (e_fresh 10 10 (by omega) (by omega)) (fun _ h => h) (fun _ h => h)
  exact ⟨S, r, _, h1, h2, by decide, by decide⟩

/-- `sum(e)`: a scalar expression over the product -/
def e' : Expr Fix := .mkReduce .sum (.cons e .nil)

/-- `autodiff` of a scalar expression returns the value computed by the forward pass although the backward pass overwrites the cache of the product -/
example : ∃ S r f, autodiff (bindExpr e' 10 10 (fun _ => 0) (fun _ => 0) s).1 (fun _ => 1) (bindExpr e' 10 10 (fun _ => 0) (fun _ => 0) s).2 = some (S, r) ∧
    r.read S 1 = some f ∧ f 0 = ⟨0⟩ := by
  obtain ⟨S, r, h1, h2⟩ := C42_autodiff_value (e := e') (s := s) (jv := fun _ => 0) (ja := fun _ => 0)
    ⟨⟨e_wf, trivial⟩, rfl, .inl ⟨_, rfl, trivial, fun _ => rfl⟩⟩ ⟨fun v hv => e_alive.1 v (by simpa [e', Expr.mkReduce, Expr.vars, Exprs.varss] using hv), fun v hv => e_alive.2 v (by simpa [e', Expr.mkReduce, Expr.cviews, Exprs.cviewss] using hv)⟩
    (qv := 10) (qa := 10) (by constructor <;> intro k _ <;> simp [s] <;> omega) (fun _ h => h) (fun _ h => h) (.inl rfl) (fun _ => 1)
  exact ⟨S, r, _, h1, h2, by decide⟩

end Fix

/-- The first element of the product is `(1/4 * 1/2) * 2`, which is 0 in fixed-point arithmetic (1/8 is rounded to 0), and `evaluate` returns it.  After the backward pass, which has to recompute the product because
`y` contains a zero, the array returned by `autodiff` shows `(1/4 * 2) * 1/2 = 1/4` instead: with rounding, `autodiff` of an array-valued iterated product need not return the
value of the expression, which is why `C42_autodiff_value` excludes it. -/
theorem C42_product_not_restored : ∃ S r S' r' f g, evaluate (bindExpr Fix.e 10 10 0 0 Fix.s).1 (bindExpr Fix.e 10 10 0 0 Fix.s).2 = some (S, r) ∧
    autodiff (bindExpr Fix.e 10 10 0 0 Fix.s).1 (fun _ => 1) (bindExpr Fix.e 10 10 0 0 Fix.s).2 = some (S', r') ∧
    r.read S 2 = some f ∧ r'.read S' 2 = some g ∧ f 0 = ⟨0⟩ ∧ g 0 = ⟨1⟩ := by
  have hb := bindExpr_bnd (jv := 0) (ja := 0) Fix.e_wf Fix.e_alive (Fix.e_fresh 10 10 (by omega) (by omega))
  have hm : ∀ a ∈ Fix.e.reads, (bindExpr Fix.e 10 10 0 0 Fix.s).2.val a = Fix.s.val a := by
    have : ∀ a ∈ Fix.e.valCells ∪ Fix.e.constCells, (bindExpr Fix.e 10 10 0 0 Fix.s).2.val a = Fix.s.val a := by decide
    exact fun a ha => this a (Finset.mem_union.2 (reads_cells Fix.e a ha))
  obtain ⟨S, r, h1⟩ := hb.gevaluate hm
  obtain ⟨S', r', h2⟩ := hb.gautodiff hm (fun _ => 1)
  exact ⟨S, r, S', r', _, _, h1.run, h2.run, h1.value S rfl rfl, h2.value, by decide, by decide⟩

end FastAD
