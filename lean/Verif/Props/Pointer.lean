import Verif.Props.Samples
import Verif.Proof.Pointer
import Verif.Proof.Peak

/-!
# Pointer arithmetic of `bind`

Property C56.  Full statement: during `bind` of every expression, every pointer computation is defined (stays within an array or one past its end, and moves no null pointer).
It is false for every expression with a node that keeps no adjoint, and for most assignments; `C56_exactly_partial` says for which ones.
-/

namespace FastAD

variable {α : Type}

/-- **C56 (partial).** `bind` of an expression, possibly with compound assignments and sequences, computes defined pointers only, and these are the ones of the model `Expr.bind`, whatever the addresses of the two caches and the memory outside.
Missing: nodes that keep a value but no adjoint (`ValueOnly`) and assignments `w = e` (`Plain`), for which it is false. -/
theorem C56_pointer_arithmetic_partial {e : Expr α} (hp : e.Plain) (hv : ¬e.ValueOnly) {s : St α} {qv qa : ℕ} (jv ja : ℕ → α)
    (hal : ∀ v ∈ e.vars, accessible s.vok v.val v.size ∧ accessible s.aok v.adj v.size) :
    let S := s.allocate e.bindSize qv qa jv ja
    (e.bindChk S.vok S.aok ⟨vecData qv e.bindSize.val, vecData qa e.bindSize.adj⟩).map Prod.fst = some (bindExpr e qv qa jv ja s).1 := by
  intro S
  have hmono : ∀ {ok ok' : ℕ → Bool} {p : Option ℕ} {n : ℕ}, (∀ a, ok a = true → ok' a = true) → accessible ok p n → accessible ok' p n := by
    intro ok ok' p n h ha
    cases p with
    | none => exact ha
    | some q => exact fun k hk => h _ (ha k hk)
  have hroom : Room S.vok S.aok ⟨vecData qv e.bindSize.val, vecData qa e.bindSize.adj⟩ e.bindSize := by
    have h : ∀ {ok : ℕ → Bool} {q n : ℕ}, (∀ k < n, ok (q + k) = true) → accessible ok (vecData q n) n := by
      intro ok q n h
      unfold vecData
      split
      · assumption
      · exact h
    exact ⟨h fun k hk => by simp [S, St.allocate, hk], h fun k hk => by simp [S, St.allocate, hk]⟩
  have h := (chkOk e (vok := S.vok) (aok := S.aok) _ hp hv
    (fun v h => ⟨hmono (fun a ha => by simp [S, St.allocate, ha]) (hal v h).1, hmono (fun a ha => by simp [S, St.allocate, ha]) (hal v h).2⟩) hroom).1
  rw [h]
  rfl

/-- **C56 is false for every expression with a node that keeps no adjoint** (`sum`, `norm`, `det`, log-densities, comparisons, ...): whatever the memory, its binding adds to a null pointer. -/
theorem C56_false_for_value_only {e : Expr α} (h : e.ValueOnly) (vok aok : ℕ → Bool) (b : Pack) : e.bindChk vok aok b = none :=
  valueOnly_none e h b

/-- **C56: what is computed when it is defined.** Whatever the expression, the memory and the pointers: if `bind_cache` is defined, the nodes get the addresses of the model `Expr.bind`, and the cells up to the peak are accessible. -/
theorem C56_when_defined {e : Expr α} {vok aok : ℕ → Bool} {b : Pack} {p : Expr α × Pack} (h : e.bindChk vok aok b = some p) :
    p = e.bind b ∧ accessible vok b.val e.peak.val ∧ accessible aok b.adj e.peak.adj :=
  chkNeed e b p h

/-- **C56 (partial): exactly when the pointer arithmetic is defined.** Let both caches be followed by a cell that is not allocated.  Then `bind` of an expression, with assignments anywhere, computes defined pointers only if and
only if all its nodes that keep a value keep adjoints and the pointers never move beyond the number of cells needed in the end; and then the nodes get the addresses of the model.

Missing: that this holds of every expression; it does not, see `C56_false_for_value_only` and `C56_false_for_assignment`. -/
theorem C56_exactly_partial {e : Expr α} (hp : e.Tidy) {s : St α} {qv qa : ℕ} (jv ja : ℕ → α) (hal : ∀ v ∈ e.vars, accessible s.vok v.val v.size ∧ accessible s.aok v.adj v.size)
    (hv : s.vok (qv + e.bindSize.val) = false) (ha : s.aok (qa + e.bindSize.adj) = false) :
    let S := s.allocate e.bindSize qv qa jv ja
    let r := e.bindChk S.vok S.aok ⟨vecData qv e.bindSize.val, vecData qa e.bindSize.adj⟩
    (r.isSome = true ↔ ¬e.ValueOnly ∧ e.peak = e.bindSize) ∧ (r.isSome = true → r.map Prod.fst = some (bindExpr e qv qa jv ja s).1) := by
  intro S r
  have hmono : ∀ {ok ok' : ℕ → Bool} {p : Option ℕ} {n : ℕ}, (∀ a, ok a = true → ok' a = true) → accessible ok p n → accessible ok' p n := by
    intro ok ok' p n h ha
    cases p with
    | none => exact ha
    | some q => exact fun k hk => h _ (ha k hk)
  refine ⟨⟨fun h => ⟨fun hvo => ?_, ?_⟩, fun ⟨hvo, hpk⟩ => ?_⟩, fun h => ?_⟩
  · rw [show r = none from C56_false_for_value_only hvo _ _ _] at h
    cases h
  · obtain ⟨p, hp'⟩ := Option.isSome_iff_exists.1 h
    obtain ⟨-, h1, h2⟩ := C56_when_defined hp'
    have l1 := vecData_end (by simp [S, St.allocate, hv]) h1
    have l2 := vecData_end (by simp [S, St.allocate, ha]) h2
    have l3 := bindSize_le_peak e
    exact SizePack.ext' (by omega) (by omega)
  · have h := (peakOk e (vok := S.vok) (aok := S.aok) ⟨vecData qv e.bindSize.val, vecData qa e.bindSize.adj⟩ hp hvo
      (fun v h => ⟨hmono (fun a ha => by simp [S, St.allocate, ha]) (hal v h).1, hmono (fun a ha => by simp [S, St.allocate, ha]) (hal v h).2⟩)
      (by
        rw [hpk]
        exact ⟨vecData_room (fun k hk => by simp [S, St.allocate, hk]) le_rfl, vecData_room (fun k hk => by simp [S, St.allocate, hk]) le_rfl⟩)).1
    rw [show r = _ from h]
    rfl
  · obtain ⟨p, hp'⟩ := Option.isSome_iff_exists.1 h
    obtain ⟨h1, -⟩ := C56_when_defined hp'
    rw [show r = _ from hp', h1]
    rfl

namespace PointerSample

/-- two scalars and a vector of two elements -/
def x : View := ⟨.scl, some 0, some 0⟩
def y : View := ⟨.scl, some 1, some 1⟩
def v : View := ⟨.vec 2, some 2, some 2⟩

/-- the cells 0 to 3 are alive -/
def s : St ℝ := ⟨fun _ => 0, fun _ => 0, fun a => decide (a < 4), fun a => decide (a < 4)⟩

/-- `v += x * v, v * sin(y)` -/
def e : Expr ℝ := .mkGlue (.mkOpEq .add v (.mkBinary .mul (.var x) (.var v))) (.mkBinary .mul (.var v) (.mkUnary .sin (.var y)))

/-- C56 applies to `v += x * v, v * sin(y)`, which needs 7 cells of either kind: they are placed at 10 and 20. -/
example : (e.bindChk (s.allocate e.bindSize 10 20 0 0).vok (s.allocate e.bindSize 10 20 0 0).aok ⟨some 10, some 20⟩).map Prod.fst = some (bindExpr e 10 20 0 0 s).1 ∧ e.bindSize = ⟨7, 7⟩ := by
  refine ⟨C56_pointer_arithmetic_partial (e := e) ?_ ?_ 0 0 ?_, rfl⟩
  · refine ⟨⟨rfl, trivial, trivial⟩, ⟨trivial, trivial⟩, trivial, rfl⟩
  · simp [e, Expr.mkGlue, Expr.mkOpEq, Expr.mkBinary, Expr.mkUnary, Expr.ValueOnly, BOp.isComparison]
  · intro w hw
    simp only [e, Expr.mkGlue, Expr.mkOpEq, Expr.mkBinary, Expr.mkUnary, Expr.vars, List.cons_append, List.nil_append, List.mem_cons, List.not_mem_nil, or_false] at hw
    rcases hw with rfl | rfl | rfl | rfl | rfl <;> constructor <;> intro k hk <;> simp [View.size, Shape.size, Shape.scl, Shape.vec, s, x, y, v] at hk ⊢ <;> omega

/-- `C56_false_for_value_only` applies to `sin(sum(v))` -/
example : (Expr.mkUnary .sin (.mkReduce .sum (.cons (.var v) .nil)) : Expr ℝ).bindChk (fun _ => true) (fun _ => true) ⟨some 10, some 20⟩ = none :=
  C56_false_for_value_only (e := .mkUnary .sin (.mkReduce .sum (.cons (.var v) .nil))) (show _ ∨ _ from Or.inl (by decide)) _ _ _

/-- `y = sin(cos(x))` -/
def assign : Expr ℝ := .mkEq y (.mkUnary .sin (.mkUnary .cos (.var x)))

/-- **C56 is false for assignments**: `y = sin(cos(x))` needs one cell of either kind, but `bind_cache` first gives `sin` a second one, past the end of the caches, and takes it back.  `y = sin(x)` needs no
cells at all, the caches are null pointers, to which 1 is added and then subtracted. -/
theorem C56_false_for_assignment :
    (assign.bindSize = ⟨1, 1⟩ ∧ assign.bindChk (s.allocate assign.bindSize 10 20 0 0).vok (s.allocate assign.bindSize 10 20 0 0).aok ⟨some 10, some 20⟩ = none) ∧
    ((Expr.mkEq y (.mkUnary .sin (.var x)) : Expr ℝ).bindSize = ⟨0, 0⟩ ∧
      (Expr.mkEq y (.mkUnary .sin (.var x)) : Expr ℝ).bindChk s.vok s.aok ⟨none, none⟩ = none) := by
  refine ⟨⟨rfl, ?_⟩, rfl, ?_⟩
  · rfl
  · rfl

/-- `y = sin(x), sin(y) * x` -/
def twice : Expr ℝ := .mkGlue (.mkEq y (.mkUnary .sin (.var x))) (.mkBinary .mul (.mkUnary .sin (.var y)) (.var x))

/-- `C56_exactly_partial` applies to `y = sin(x), sin(y) * x`: the cell that the assignment takes and gives back is one of the two cells needed later.  It also applies to `y = sin(cos(x))`, whose peak is 2, but which needs 1 cell. -/
example : (twice.bindChk (s.allocate twice.bindSize 10 20 0 0).vok (s.allocate twice.bindSize 10 20 0 0).aok ⟨some 10, some 20⟩).map Prod.fst = some (bindExpr twice 10 20 0 0 s).1 ∧
    (assign.bindChk (s.allocate assign.bindSize 10 20 0 0).vok (s.allocate assign.bindSize 10 20 0 0).aok ⟨some 10, some 20⟩).isSome = false := by
  have hal : ∀ w ∈ [y, x], accessible s.vok w.val w.size ∧ accessible s.aok w.adj w.size := by
    intro w hw
    simp only [List.mem_cons, List.not_mem_nil, or_false] at hw
    rcases hw with rfl | rfl <;> constructor <;> intro k hk <;> simp [View.size, Shape.size, Shape.scl, s, x, y] at hk ⊢ <;> omega
  constructor
  · have h := C56_exactly_partial (e := twice) (s := s) (qv := 10) (qa := 20) ⟨⟨rfl, rfl, trivial⟩, ⟨trivial, trivial⟩, trivial, rfl⟩ 0 0
      (fun w hw => hal w (by revert hw; simp [twice, Expr.mkGlue, Expr.mkEq, Expr.mkBinary, Expr.mkUnary, Expr.vars]; tauto)) rfl rfl
    refine h.2 (h.1.2 ⟨?_, rfl⟩)
    simp [twice, Expr.mkGlue, Expr.mkEq, Expr.mkBinary, Expr.mkUnary, Expr.ValueOnly, BOp.isComparison]
  · have h := C56_exactly_partial (e := assign) (s := s) (qv := 10) (qa := 20) ⟨rfl, rfl, trivial⟩ 0 0
      (fun w hw => hal w (by revert hw; simp [assign, Expr.mkEq, Expr.mkUnary, Expr.vars])) rfl rfl
    rw [Bool.eq_false_iff]
    intro h'
    have := congrArg SizePack.val (h.1.1 h').2
    exact absurd this (by decide)

end PointerSample

end FastAD
