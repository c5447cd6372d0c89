import Verif.Proof.Map
import Verif.Proof.GenProg

/-!
# Programs over another value type have the same structure
-/

namespace FastAD

variable {α β : Type} (f : α → β)

theorem map_valCells (e : Expr α) : (e.map f).valCells = e.valCells := by simp only [Expr.valCells, map_vars]
theorem map_constCells (e : Expr α) : (e.map f).constCells = e.constCells := by simp only [Expr.constCells, map_cviews]

theorem map_flat (e : Expr α) : (e.map f).flat = e.flat.map (Expr.map f) := by
  have list : ∀ es : Exprs α, (∀ e ∈ es.toList, (e.map f).flat = e.flat.map (Expr.map f)) → (es.maps f).flats = es.flats.map (Expr.map f) := by
    intro es
    induction es using Exprs.rec (motive_1 := fun _ => True) with
    | nil => intros; rfl
    | cons e es _ ih =>
      intro hP
      simp only [Exprs.maps, Exprs.flats, hP e (by simp [Exprs.toList]), ih fun x hx => hP x (by simp [Exprs.toList, hx]), List.map_append]
    | _ => trivial
  induction e using Expr.induct with
  | glue l r w ihl ihr => simp only [Expr.map, Expr.flat, ihl, ihr, List.map_append]
  | forEach es w ih => simp only [Expr.map, Expr.flat, list es ih]
  | _ => rfl

theorem map_flat_ne {e : Expr α} (h : e.flat ≠ []) : (e.map f).flat ≠ [] := by
  rw [map_flat]
  simpa using h

theorem map_assignable (e : Expr α) : (e.map f).Assignable ↔ e.Assignable := by cases e <;> exact Iff.rfl
theorem map_notConst (e : Expr α) : (e.map f).NotConst ↔ e.NotConst := by cases e <;> exact Iff.rfl
theorem map_noPartialOverlap (v : View) (e : Expr α) : (e.map f).NoPartialOverlap v ↔ e.NoPartialOverlap v := by cases e <;> exact Iff.rfl
theorem map_placeholder (e : Expr α) : (e.map f).placeholder = e.placeholder := by cases e <;> rfl
theorem map_target (e : Expr α) : (e.map f).target = e.target := by cases e <;> rfl
theorem map_isStmt (e : Expr α) : (e.map f).isStmt = e.isStmt := by cases e <;> rfl

theorem map_wfStmt {x : Expr α} (h : x.WFStmt) : (x.map f).WFStmt := by
  by_cases hs : x.isStmt = false
  · obtain ⟨h1, h2, h3⟩ : x.WF ∧ x.isIf = false ∧ x.NotConst := by
      cases x <;> first | exact h | exact h.elim | simp [Expr.isStmt] at hs
    have : (x.map f).WF ∧ (x.map f).isIf = false ∧ (x.map f).NotConst := ⟨map_wf f h1, by rw [map_isIf, h2], (map_notConst f x).2 h3⟩
    cases x <;> first | exact this | exact h.elim | simp [Expr.isStmt] at hs
  · cases x with
    | eq v e w =>
      obtain ⟨h1, h2, h3, h4, h5, h6⟩ := h
      refine ⟨map_wf f h1, h2, by rw [map_shape, h3], h4, (map_assignable f e).2 h5, ?_⟩
      rw [map_valCells, map_constCells, map_adjCells]
      exact h6
    | opEq op v e w c =>
      obtain ⟨h1, h2, h3, h4, h5, h6, h7⟩ := h
      exact ⟨map_wf f h1, h2, by rwa [map_shape], h4, h5, by rwa [map_isIf], (map_noPartialOverlap f v e).2 h7⟩
    | glue => exact h.elim
    | forEach => exact h.elim
    | _ => simp [Expr.isStmt] at hs

theorem maps_last (es : Exprs α) : (es.maps f).last = es.last.map (Expr.map f) := by
  induction es using Exprs.rec (motive_1 := fun _ => True) with
  | nil => rfl
  | cons e es _ ih =>
    cases es with
    | nil => rfl
    | cons e' es' => exact ih
  | _ => trivial

theorem map_wfTree {e : Expr α} : e.WFTree → (e.map f).WFTree := by
  have list : ∀ es : Exprs α, (∀ e ∈ es.toList, e.WFTree → (e.map f).WFTree) → es.WFTrees → (es.maps f).WFTrees := by
    intro es
    induction es using Exprs.rec (motive_1 := fun _ => True) with
    | nil => intros; trivial
    | cons e es _ ih =>
      intro hP h
      exact ⟨hP e (by simp [Exprs.toList]) h.1, ih (fun x hx => hP x (by simp [Exprs.toList, hx])) h.2⟩
    | _ => trivial
  induction e using Expr.induct with
  | glue l r w ihl ihr => exact fun h => ⟨ihl h.1, ihr h.2.1, map_flat_ne f h.2.2.1, by rw [map_shape]; exact h.2.2.2⟩
  | forEach es w ih =>
    intro h
    refine ⟨list es ih h.1, fun e he => ?_⟩
    rw [maps_last] at he
    obtain ⟨e', he', rfl⟩ := Option.mem_map.1 he
    exact ⟨map_flat_ne f (h.2 e' he').1, by rw [map_shape]; exact (h.2 e' he').2⟩
  | _ => exact fun h => map_wfStmt f h

theorem map_usedAfter {x y : Expr α} (h : UsedAfter x y) : UsedAfter (x.map f) (y.map f) := by
  rw [UsedAfter, map_placeholder, map_valCells, map_constCells, map_adjCells]
  exact h

theorem map_program {p : Expr α} (h : p.Program) : (p.map f).Program := by
  refine ⟨map_wfTree f h.tree, ?_, map_flat_ne f h.nonempty⟩
  rw [map_flat, List.pairwise_map]
  exact h.order.imp (map_usedAfter f)

theorem map_placeCells (p : Expr α) : (p.map f).placeCells = p.placeCells := by
  have : (Expr.placeholder ∘ Expr.map f : Expr α → Option View) = Expr.placeholder := funext fun x => map_placeholder f x
  simp only [Expr.placeCells, map_flat, List.filterMap_map, this]

theorem map_targetAdj (p : Expr α) : (p.map f).targetAdj = p.targetAdj := by
  have : (Expr.target ∘ Expr.map f : Expr α → Option View) = Expr.target := funext fun x => map_target f x
  simp only [Expr.targetAdj, map_flat, List.filterMap_map, this]

theorem map_known (p : Expr α) : (p.map f).known = p.known := by
  simp only [Expr.known, map_valCells, map_constCells, map_placeCells]

end FastAD
