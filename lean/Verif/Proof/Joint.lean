import Verif.Spec.Joint
import Verif.Proof.Calculus

/-!
# Sums of log-densities
-/

open scoped Topology

namespace FastAD

variable [HasInf ℝ] [LinAlg ℝ]
set_option linter.unusedSectionVars false

theorem Term.Ok.wf {t : Term} (h : t.Ok) : t.expr.WF := ⟨h.1, rfl, .inr ⟨_, _, rfl, h.2⟩⟩

/-- operands of a term -/
theorem Term.Ok.args {t : Term} (h : t.Ok) (m : ℕ → ℝ) : statArgs (t.args.denotes m) = some (t.rows, t.at m) := by
  obtain ⟨n, op, hop, he⟩ := h.2.ops
  have h0 : (op .x).shape.rows = n := by rw [hop.shape .x (by rw [StatOp.slots_eq]; cases t.op.discrete <;> simp), hop.rows]
  have h1 := toList_ofList (t.op.slots.map op)
  rw [← he] at h1
  unfold Term.rows Term.at
  rw [h1, he, denotes_ofList, StatOp.slots_eq]
  cases t.op.discrete <;> rfl

theorem Term.Ok.denote [LawfulLinAlg] {t : Term} (h : t.Ok) {m : ℕ → ℝ} (ha : t.op.Adm t.rows (t.at m)) (k : ℕ) : t.expr.denote m k = t.logDensity m := by
  have hl : (t.args.denotes m).length ≠ 1 := by
    obtain ⟨n, op, hop, he⟩ := h.2.ops
    rw [he, denotes_ofList, StatOp.slots_eq]
    cases t.op.discrete <;> simp
  have h2 : ∀ l : List (Shape × (ℕ → ℝ)), l.length ≠ 1 → (RedOp.stat t.op t.kinds).reals l = (statArgs l).elim 0 fun p => t.op.real p.1 p.2 := by
    intro l hl
    match l, hl with
    | [], _ => rfl
    | [_], h => simp at h
    | _ :: _ :: _, _ => rfl
  simp only [Term.expr, Expr.mkReduce, Expr.denote]
  rw [h2 _ hl, h.args]
  exact t.op.real_eq t.rows _ ha

theorem joint_shape (t : Term) (ts : List Term) : (joint t ts).shape = .scl := by
  unfold joint
  have : ∀ (ts : List Term) (e : Expr ℝ), e.shape = .scl → (ts.foldl (fun e t => Expr.mkBinary .add e t.expr) e).shape = .scl := by
    intro ts
    induction ts with
    | nil => exact fun e h => h
    | cons t ts ih => exact fun e h => ih _ (by simp only [Expr.mkBinary, Expr.shape, Expr.view, View.null] at h ⊢; rw [h]; rfl)
  exact this ts _ rfl

theorem joint_induct {P : Expr ℝ → Prop} {t : Term} {ts : List Term} (h0 : P t.expr) (h1 : ∀ e, ∀ u ∈ ts, e.shape = .scl → e.isIf = false → P e → P (.mkBinary .add e u.expr)) :
    P (joint t ts) := by
  have : ∀ (ts : List Term) (e : Expr ℝ), (∀ e, ∀ u ∈ ts, e.shape = .scl → e.isIf = false → P e → P (.mkBinary .add e u.expr)) → P e → e.shape = .scl → e.isIf = false →
      P (ts.foldl (fun e t => Expr.mkBinary .add e t.expr) e) := by
    intro ts
    induction ts with
    | nil => exact fun e _ h _ _ => h
    | cons t ts ih =>
      refine fun e h he hs hi => ih _ (fun e u hu => h e u (List.mem_cons_of_mem _ hu)) (h e t (List.mem_cons_self ..) hs hi he) ?_ rfl
      simp only [Expr.mkBinary, Expr.shape, Expr.view, View.null] at hs ⊢; rw [hs]; rfl
  exact this ts _ h1 h0 rfl rfl

theorem joint_wf {t : Term} {ts : List Term} (h : ∀ u ∈ t :: ts, u.Ok) : (joint t ts).WF := by
  refine joint_induct (h t (List.mem_cons_self ..)).wf fun e u hu hs hi he => ?_
  have hu' := (h u (List.mem_cons_of_mem _ hu)).wf
  have hsu : u.expr.shape = .scl := rfl
  simp only [Expr.mkBinary, Expr.WF]
  refine ⟨he, hu', ?_, ?_, fun _ => ⟨fun h => absurd (hi.symm.trans h) (by simp), fun h => Bool.noConfusion h⟩⟩
  · simp only [View.null]; rw [hs, hsu]; simp [Shape.Ok, Expr.binShape, Shape.scl, Shape.ofDims, Shape.maxKind]
  · simp only [View.null]; rw [hs, hsu]; simp [binDimsOk, Shape.scl, Shape.isScl, Expr.binShape, Shape.ofDims, Shape.maxKind, sameDims]

theorem joint_denote [LawfulLinAlg] {t : Term} {ts : List Term} (h : ∀ u ∈ t :: ts, u.Ok) {m : ℕ → ℝ} (ha : ∀ u ∈ t :: ts, u.op.Adm u.rows (u.at m)) (k : ℕ) :
    (joint t ts).denote m k = logJoint (t :: ts) m := by
  unfold joint logJoint
  have : ∀ (ts : List Term) (e : Expr ℝ) (x : ℝ), (∀ u ∈ ts, u.Ok) → (∀ u ∈ ts, u.op.Adm u.rows (u.at m)) → e.shape = .scl → (∀ k, e.denote m k = x) →
      ∀ k, (ts.foldl (fun e t => Expr.mkBinary .add e t.expr) e).denote m k = x + (ts.map fun t => t.logDensity m).sum := by
    intro ts
    induction ts with
    | nil => intro e x _ _ _ hx k; simp [hx k]
    | cons t ts ih =>
      intro e x h ha hs hx k
      rw [List.foldl_cons, ih _ (x + t.logDensity m) (fun u hu => h u (List.mem_cons_of_mem _ hu)) (fun u hu => ha u (List.mem_cons_of_mem _ hu)) ?_ ?_ k]
      · simp only [List.map_cons, List.sum_cons]; ring
      · simp only [Expr.mkBinary, Expr.shape, Expr.view, View.null] at hs ⊢; rw [hs]; rfl
      · intro k
        simp only [Expr.mkBinary, Expr.denote, BOp.real]
        rw [hx, (h t (List.mem_cons_self ..)).denote (ha t (List.mem_cons_self ..))]
  rw [this ts t.expr (t.logDensity m) (fun u hu => h u (List.mem_cons_of_mem _ hu)) (fun u hu => ha u (List.mem_cons_of_mem _ hu)) rfl
    (fun k => (h t (List.mem_cons_self ..)).denote (ha t (List.mem_cons_self ..)) k) k, List.map_cons, List.sum_cons]

variable {E : Type} [NormedAddCommGroup E] [NormedSpace ℝ E]

theorem Term.Ok.reg {t : Term} (h : t.Ok) {ρ : E → ℕ → ℝ} {x0 : E} (hs : t.SmoothAt ρ x0) : t.expr.Reg ρ x0 := by
  simp only [Term.expr, Expr.mkReduce, Expr.Reg]
  refine ⟨hs.regular, fun e _ => trivial, fun o k ho => ?_⟩
  obtain ⟨rfl, rfl⟩ : t.op = o ∧ t.kinds = k := by simpa using ho
  exact ⟨t.rows, fun x => t.at (ρ x), fun x => h.args (ρ x), hs.correct, hs.symm, .inl ⟨hs.valid, hs.smooth⟩, fun hd => by
    filter_upwards [hs.discrete hd] with x hx i _
    rw [hx]⟩

theorem joint_reg {t : Term} {ts : List Term} {ρ : E → ℕ → ℝ} {x0 : E} (h : ∀ u ∈ t :: ts, u.Ok) (hs : ∀ u ∈ t :: ts, u.SmoothAt ρ x0) : (joint t ts).Reg ρ x0 := by
  refine joint_induct (P := fun e => e.Reg ρ x0) ((h t (List.mem_cons_self ..)).reg (hs t (List.mem_cons_self ..))) fun e u hu _ _ he => ?_
  have hu' := (h u (List.mem_cons_of_mem _ hu)).reg (hs u (List.mem_cons_of_mem _ hu))
  simp only [Expr.mkBinary, Expr.Reg, BOp.isComparison, Bool.false_eq_true, if_false]
  exact ⟨he, hu', fun h => by cases h⟩

end FastAD
