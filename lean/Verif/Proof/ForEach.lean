import Verif.Proof.ProgApi

/-!
# `for_each` and chains of `operator,`
-/

namespace FastAD

variable {α : Type}

theorem glued_flat (es : Exprs α) (e : Expr α) : (es.glued e).flat = e.flat ++ es.flats := by
  induction es using Exprs.rec (motive_1 := fun _ => True) generalizing e with
  | nil => simp [Exprs.glued, Exprs.flats]
  | cons e' es _ ih => simp [Exprs.glued, Exprs.flats, ih, Expr.mkGlue, Expr.flat]
  | _ => trivial

theorem glued_shape (es : Exprs α) (e : Expr α) : ∀ x ∈ (Exprs.cons e es).last, (es.glued e).shape = x.shape := by
  induction es using Exprs.rec (motive_1 := fun _ => True) generalizing e with
  | nil => intro x hx; obtain rfl : e = x := by simpa [Exprs.last] using hx
           rfl
  | cons e' es _ ih =>
    intro x hx
    simp only [Exprs.glued]
    cases es with
    | nil =>
      obtain rfl : e' = x := by simpa [Exprs.last] using hx
      rfl
    | cons e'' es => exact ih (.mkGlue e e') x (by simpa [Exprs.last] using hx)
  | _ => trivial

theorem glued_tree (es : Exprs α) (e : Expr α) (he : e.WFTree) (h : es.WFTrees) (hne : ∀ x ∈ es.toList, x.flat ≠ []) : (es.glued e).WFTree := by
  induction es using Exprs.rec (motive_1 := fun _ => True) generalizing e with
  | nil => exact he
  | cons e' es _ ih =>
    simp only [Exprs.WFTrees] at h
    exact ih (.mkGlue e e') ⟨he, h.1, hne e' (by simp [Exprs.toList]), rfl⟩ h.2 fun x hx => hne x (by simp [Exprs.toList, hx])
  | _ => trivial

theorem glued_vars (es : Exprs α) (e : Expr α) : (es.glued e).vars = e.vars ++ es.varss := by
  induction es using Exprs.rec (motive_1 := fun _ => True) generalizing e with
  | nil => simp [Exprs.glued, Exprs.varss]
  | cons e' es _ ih => simp [Exprs.glued, Exprs.varss, ih, Expr.mkGlue, Expr.vars]
  | _ => trivial

theorem glued_cviews (es : Exprs α) (e : Expr α) : (es.glued e).cviews = e.cviews ++ es.cviewss := by
  induction es using Exprs.rec (motive_1 := fun _ => True) generalizing e with
  | nil => simp [Exprs.glued, Exprs.cviewss]
  | cons e' es _ ih => simp [Exprs.glued, Exprs.cviewss, ih, Expr.mkGlue, Expr.cviews]
  | _ => trivial

theorem exprs_last_some (es : Exprs α) (e : Expr α) : ∃ x, (Exprs.cons e es).last = some x := by
  induction es using Exprs.rec (motive_1 := fun _ => True) generalizing e with
  | nil => exact ⟨e, rfl⟩
  | cons e' es _ ih => exact ih e'
  | _ => trivial

theorem SizePack.add_mk (a b c d : ℕ) : (⟨a, b⟩ : SizePack) + ⟨c, d⟩ = ⟨a + c, b + d⟩ := rfl

theorem glued_size (es : Exprs α) (e : Expr α) : (es.glued e).bindSize = e.bindSize + es.bindSize := by
  induction es using Exprs.rec (motive_1 := fun _ => True) generalizing e with
  | nil => rfl
  | cons e' es _ ih =>
    simp only [Exprs.glued, Exprs.bindSize, ih, Expr.mkGlue, Expr.bindSize, SizePack.add_mk]
    obtain ⟨a, b⟩ := e.bindSize
    obtain ⟨c, d⟩ := e'.bindSize
    obtain ⟨f, g⟩ := es.bindSize
    simp only [SizePack.add_mk, Nat.add_assoc]
  | _ => trivial

/-- a `for_each` program and the same statements written out with `operator,` -/
theorem glued_program {e : Expr ℝ} {es : Exprs ℝ} {w : View} (hp : (Expr.forEach (.cons e es) w).Program) (hne : ∀ x ∈ es.toList, x.flat ≠ []) :
    (es.glued e).Program ∧ (es.glued e).flat = (Expr.forEach (.cons e es) w).flat ∧ (es.glued e).shape = (Expr.forEach (.cons e es) w).shape ∧
      (es.glued e).vars = (Expr.forEach (.cons e es) w).vars ∧ (es.glued e).cviews = (Expr.forEach (.cons e es) w).cviews := by
  obtain ⟨x, hx⟩ := exprs_last_some es e
  have h1 := hp.tree
  simp only [Expr.WFTree, Exprs.WFTrees] at h1
  have hfl : (es.glued e).flat = (Expr.forEach (.cons e es) w).flat := by rw [glued_flat]; rfl
  refine ⟨⟨glued_tree es e h1.1.1 h1.1.2 hne, hfl ▸ hp.order, hfl ▸ hp.nonempty⟩, hfl, ?_, ?_, ?_⟩
  · rw [glued_shape es e x hx]
    exact (h1.2 x hx).2.symm
  · rw [glued_vars]; rfl
  · rw [glued_cviews]; rfl

theorem alive_congr {e e' : Expr α} {vok aok : ℕ → Bool} (h1 : e'.vars = e.vars) (h2 : e'.cviews = e.cviews) (h : e.Alive vok aok) : e'.Alive vok aok :=
  ⟨fun w hw => h.1 w (h1 ▸ hw), fun c hc => h.2 c (h2 ▸ hc)⟩

theorem alive_mono {e : Expr α} {vok aok vok' aok' : ℕ → Bool} (h : e.Alive vok aok) (hv : ∀ a, vok a = true → vok' a = true)
    (ha : ∀ a, aok a = true → aok' a = true) : e.Alive vok' aok' := by
  have hacc : ∀ (ok ok' : ℕ → Bool), (∀ a, ok a = true → ok' a = true) → ∀ q n, accessible ok q n → accessible ok' q n := by
    intro ok ok' hm q n hq
    cases q with
    | none => exact hq
    | some q => exact fun k hk => hm _ (hq k hk)
  exact ⟨fun w hw => ⟨hacc _ _ hv _ _ (h.1 w hw).1, hacc _ _ ha _ _ (h.1 w hw).2⟩, fun c hc => hacc _ _ hv _ _ (h.2 c hc)⟩

theorem later_trans {s0 s1 s2 : St α} (h : Later s0 s1) (h' : Later s1 s2) : Later s0 s2 :=
  ⟨fun a ha => h'.1 a (h.1 a ha), fun a ha => h'.2 a (h.2 a ha)⟩

theorem later_bind (e : Expr α) (qv qa : ℕ) (jv ja : ℕ → α) (s : St α) : Later s (bindExpr e qv qa jv ja s).2 := by
  constructor <;> intro a ha <;> simp [bindExpr, St.allocate, ha]

theorem result_flat [HasInf ℝ] [LinAlg ℝ] {p q : Expr ℝ} (hp : p.Program) (hq : q.Program) (h : q.flat = p.flat) (m : ℕ → ℝ) : q.result m = p.result m := by
  funext k
  rw [result_tree q hq.tree hq.nonempty, result_tree p hp.tree hp.nonempty, h]

theorem exec_flat [HasInf ℝ] [LinAlg ℝ] {p q : Expr ℝ} (h : q.flat = p.flat) (m : ℕ → ℝ) : q.exec m = p.exec m := by
  rw [exec_tree, exec_tree, h]

end FastAD
