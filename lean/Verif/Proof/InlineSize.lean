import Verif.Proof.Inline
import Verif.Spec.InlineSize

/-!
# Cells needed by inlined expressions
-/

namespace FastAD

variable {α : Type}

theorem subst_bindSize {w : View} {r : Expr α} (hr : r.shape = w.shape) (e : Expr α) : e.WF →
    (e.subst w r).bindSize = ⟨e.bindSize.val + e.vars.count w * r.bindSize.val, e.bindSize.adj + e.vars.count w * r.bindSize.adj⟩ := by
  have list : ∀ es : Exprs α, es.WFs → (∀ e ∈ es.toList, e.WF →
      (e.subst w r).bindSize = ⟨e.bindSize.val + e.vars.count w * r.bindSize.val, e.bindSize.adj + e.vars.count w * r.bindSize.adj⟩) →
      (es.substs w r).bindSize = ⟨es.bindSize.val + es.varss.count w * r.bindSize.val, es.bindSize.adj + es.varss.count w * r.bindSize.adj⟩ := by
    intro es
    induction es using Exprs.rec (motive_1 := fun _ => True) with
    | nil => intro _ _; simp [Exprs.substs, Exprs.bindSize, Exprs.varss]
    | cons e es _ ihs =>
      intro hw hP
      simp only [Exprs.substs, Exprs.bindSize, Exprs.varss, List.count_append]
      rw [hP e (by simp [Exprs.toList]) hw.1, ihs hw.2 (fun y hy => hP y (by simp [Exprs.toList, hy]))]
      apply SizePack.ext' <;> simp only [SizePack.add_val, SizePack.add_adj, Nat.add_mul] <;> omega
    | _ => trivial
  induction e using Expr.induct with
  | var v =>
    intro _
    simp only [Expr.subst, Expr.vars, List.count_singleton, beq_iff_eq, Expr.bindSize]
    split <;> simp [Expr.bindSize]
  | const | cview => intro _; simp [Expr.subst, Expr.bindSize, Expr.vars]
  | unary op e x ih | pow op e x ih | transpose e x ih =>
    intro h
    simp only [Expr.subst, Expr.bindSize, Expr.vars, ih h.1, Expr.single]
    apply SizePack.ext' <;> simp only [SizePack.add_val, SizePack.add_adj] <;> omega
  | prodElem e x c ih =>
    intro h
    simp only [Expr.subst, Expr.bindSize, Expr.vars, ih h.1, Expr.single, subst_size hr]
    apply SizePack.ext' <;> simp only [SizePack.add_val, SizePack.add_adj] <;> omega
  | binary op a b x iha ihb =>
    intro h
    simp only [Expr.subst, Expr.bindSize, Expr.vars, List.count_append, iha h.1, ihb h.2.1, Expr.single]
    apply SizePack.ext' <;> simp only [SizePack.add_val, SizePack.add_adj, Nat.add_mul] <;> omega
  | dot a b x iha ihb =>
    intro h
    simp only [Expr.subst, Expr.bindSize, Expr.vars, List.count_append, iha h.1, ihb h.2.1, Expr.single]
    apply SizePack.ext' <;> simp only [SizePack.add_val, SizePack.add_adj, Nat.add_mul] <;> omega
  | sumIter es x ih | prodIter es x ih | reduce op es x ih =>
    intro h
    simp only [Expr.subst, Expr.bindSize, Expr.vars, list es h.1 ih, Expr.single]
    apply SizePack.ext' <;> simp only [SizePack.add_val, SizePack.add_adj] <;> omega
  | ifElse c a b x ihc iha ihb =>
    intro h
    simp only [Expr.subst, Expr.bindSize, Expr.vars, List.count_append, ihc h.1, iha h.2.1, ihb h.2.2.1]
    apply SizePack.ext' <;> simp only [SizePack.add_val, SizePack.add_adj, Nat.add_mul] <;> omega
  | eq | opEq | glue | forEach => intro h; exact h.elim

/-- The variables of a substituted expression. -/
theorem subst_flatMap {w : View} {r : Expr α} (e : Expr α) : e.WF → (e.subst w r).vars = e.vars.flatMap fun v => if v = w then r.vars else [v] := by
  have list : ∀ es : Exprs α, es.WFs → (∀ e ∈ es.toList, e.WF → (e.subst w r).vars = e.vars.flatMap fun v => if v = w then r.vars else [v]) →
      (es.substs w r).varss = es.varss.flatMap fun v => if v = w then r.vars else [v] := by
    intro es
    induction es using Exprs.rec (motive_1 := fun _ => True) with
    | nil => intro _ _; rfl
    | cons e es _ ihs =>
      intro hw hP
      simp only [Exprs.substs, Exprs.varss, List.flatMap_append]
      rw [hP e (by simp [Exprs.toList]) hw.1, ihs hw.2 (fun y hy => hP y (by simp [Exprs.toList, hy]))]
    | _ => trivial
  induction e using Expr.induct with
  | var v =>
    intro _
    simp only [Expr.vars, Expr.subst, List.flatMap_singleton]
    split <;> rfl
  | const | cview => intro _; rfl
  | unary op e x ih | pow op e x ih | transpose e x ih => intro h; exact ih h.1
  | prodElem e x c ih => intro h; exact ih h.1
  | binary op a b x iha ihb => intro h; simp only [Expr.subst, Expr.vars, List.flatMap_append, iha h.1, ihb h.2.1]
  | dot a b x iha ihb => intro h; simp only [Expr.subst, Expr.vars, List.flatMap_append, iha h.1, ihb h.2.1]
  | sumIter es x ih | prodIter es x ih | reduce op es x ih => intro h; exact list es h.1 ih
  | ifElse c a b x ihc iha ihb => intro h; simp only [Expr.subst, Expr.vars, List.flatMap_append, ihc h.1, iha h.2.1, ihb h.2.2.1]
  | eq | opEq | glue | forEach => intro h; exact h.elim

/-- Substitution keeps the mentions of other variables and brings in the variables of the substituted expression. -/
theorem subst_mem {w : View} {r : Expr α} (e : Expr α) (h : e.WF) :
    (∀ u ∈ e.vars, u ≠ w → u ∈ (e.subst w r).vars) ∧ (w ∈ e.vars → ∀ u ∈ r.vars, u ∈ (e.subst w r).vars) := by
  rw [subst_flatMap e h]
  exact ⟨fun u hu hn => List.mem_flatMap.2 ⟨u, hu, by simp [hn]⟩, fun hw u hu => List.mem_flatMap.2 ⟨w, hw, by simpa using hu⟩⟩

theorem inline_wf' {ss : List (View × Expr α)} {e : Expr α} (he : e.WF) (hs : ∀ x ∈ ss, x.2.WF ∧ x.2.shape = x.1.shape ∧ x.2.IsOp) : (inline ss e).WF := by
  induction ss with
  | nil => exact he
  | cons x ss ih =>
    obtain ⟨h1, h2, h3⟩ := hs x (by simp)
    exact subst_wf h2 h3 h1 _ (ih fun y hy => hs y (by simp [hy]))

/-- What is mentioned by a used statement is mentioned by the inlined expression, except placeholders. -/
theorem inline_mem {ss : List (View × Expr α)} {e : Expr α} (he : e.WF) (hs : ∀ x ∈ ss, x.2.WF ∧ x.2.shape = x.1.shape ∧ x.2.IsOp)
    (hd : (ss.map Prod.fst).Nodup) (hu : AllUsed ss e) (u : View) (hn : u ∉ ss.map Prod.fst) (h : u ∈ e.vars ∨ ∃ x ∈ ss, u ∈ x.2.vars) :
    u ∈ (inline ss e).vars := by
  induction ss generalizing u with
  | nil => simpa [inline] using h
  | cons x ss ih =>
    have hs' : ∀ y ∈ ss, y.2.WF ∧ y.2.shape = y.1.shape ∧ y.2.IsOp := fun y hy => hs y (by simp [hy])
    simp only [List.map_cons, List.nodup_cons] at hd
    simp only [List.map_cons, List.mem_cons, not_or] at hn
    have ih := ih hs' hd.2 hu.2
    obtain ⟨m1, m2⟩ := subst_mem (w := x.1) (r := x.2) (inline ss e) (inline_wf' he hs')
    have hw := ih x.1 hd.1 hu.1
    simp only [inline]
    rcases h with h | ⟨y, hy, h⟩
    · exact m1 u (ih u hn.2 (.inl h)) hn.1
    · rcases List.mem_cons.1 hy with rfl | hy
      · exact m2 hw u h
      · exact m1 u (ih u hn.2 (.inr ⟨y, hy, h⟩)) hn.1

theorem op_single {r : Expr α} (h : r.IsOp) : r.single.val = r.size := by
  cases r <;> simp only [Expr.IsOp] at h <;> simp only [Expr.single] <;> (repeat' split) <;> rfl

/-- The cells of a sequence of placeholder assignments, together with their placeholders, against those of the expression without placeholders. -/
theorem inline_size {ss : List (View × Expr α)} {e : Expr α} (he : e.WF) (hs : ∀ x ∈ ss, x.2.WF ∧ x.2.shape = x.1.shape ∧ x.2.IsOp)
    (hd : (ss.map Prod.fst).Nodup) (hu : AllUsed ss e) :
    (sizeL (ss.map (fun x => .mkEq x.1 x.2) ++ [e])).val + (ss.map fun x => x.1.size).sum ≤ (inline ss e).bindSize.val ∧
    (sizeL (ss.map (fun x => .mkEq x.1 x.2) ++ [e])).adj + (ss.map fun x => x.2.single.adj).sum ≤ (inline ss e).bindSize.adj := by
  induction ss with
  | nil => simp [sizeL, inline, SizePack.add_zero']
  | cons x ss ih =>
    have hs' : ∀ y ∈ ss, y.2.WF ∧ y.2.shape = y.1.shape ∧ y.2.IsOp := fun y hy => hs y (by simp [hy])
    obtain ⟨h1, h2, h3⟩ := hs x (by simp)
    simp only [List.map_cons, List.nodup_cons] at hd
    obtain ⟨i1, i2⟩ := ih hs' hd.2 hu.2
    have hc : 1 ≤ (inline ss e).vars.count x.1 := List.one_le_count_iff.2 (inline_mem he hs' hd.2 hu.2 x.1 hd.1 hu.1)
    have hv : x.2.single.val = x.1.size := (op_single h3).trans (by rw [Expr.size, h2, View.size])
    obtain ⟨l1, l2⟩ := single_le x.2
    have e1 : (Expr.mkEq x.1 x.2).bindSize = x.2.bindSize - x.2.single := rfl
    simp only [List.map_cons, List.cons_append, sizeL, inline, List.sum_cons, SizePack.add_val, SizePack.add_adj, e1, SizePack.sub_val, SizePack.sub_adj]
    rw [subst_bindSize h2 _ (inline_wf' he hs')]
    have k1 := Nat.mul_le_mul_right x.2.bindSize.val hc
    have k2 := Nat.mul_le_mul_right x.2.bindSize.adj hc
    simp only
    constructor <;> omega

end FastAD
