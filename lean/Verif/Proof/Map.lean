import Verif.Spec.Inside
import Verif.Spec.Leaves
import Verif.Spec.Blocks
import Verif.Proof.Basic

/-!
# Expressions over another value type have the same structure
-/

namespace FastAD

variable {α β : Type} (f : α → β)

theorem map_view (e : Expr α) : (e.map f).view = e.view := by cases e <;> rfl
@[simp] theorem map_shape (e : Expr α) : (e.map f).shape = e.shape := by rw [Expr.shape, Expr.shape, map_view]
@[simp] theorem map_size (e : Expr α) : (e.map f).size = e.size := by rw [Expr.size, Expr.size, map_shape]
@[simp] theorem map_isIf (e : Expr α) : (e.map f).isIf = e.isIf := by cases e <;> rfl
@[simp] theorem map_isCond (e : Expr α) : (e.map f).isCond = e.isCond := by cases e <;> rfl
theorem map_argKind (e : Expr α) : (e.map f).argKind = e.argKind := by cases e <;> rfl
theorem map_isConstView (e : Expr α) : (e.map f).isConstView = e.isConstView := by cases e <;> rfl

theorem maps_toList (es : Exprs α) : (es.maps f).toList = es.toList.map (Expr.map f) := by
  induction es using Exprs.rec (motive_1 := fun _ => True) with
  | nil => rfl
  | cons e es _ ih => simp [Exprs.maps, Exprs.toList, ih]
  | _ => trivial

theorem map_retKind (e : Expr α) : (e.map f).retKind = e.retKind := by
  induction e using Expr.induct with
  | ifElse c a b w ihc iha ihb => simp only [Expr.map, Expr.retKind, iha, ihb]
  | _ => first | rfl | (simp [Expr.map, Expr.retKind, map_view])

theorem map_fits (o : StatOp) (k : Kinds) (es : Exprs α) : o.Fits k (es.maps f) ↔ o.Fits k es := by
  have hz : ∀ (L : List (Expr α)) (S : List Slot), (∀ p ∈ (L.map (Expr.map f)).zip S, p.1.isConstView = true → o.keeps k p.2 = false) ↔
      ∀ p ∈ L.zip S, p.1.isConstView = true → o.keeps k p.2 = false := by
    intro L
    induction L with
    | nil => intro S; simp
    | cons x L ih =>
      intro S
      cases S with
      | nil => simp
      | cons y S => simp only [List.map_cons, List.zip_cons_cons, List.forall_mem_cons, ih, map_isConstView]
  simp only [StatOp.Fits, maps_toList, List.map_map, hz]
  refine exists_congr fun n => ?_
  have h1 : (Expr.shape ∘ Expr.map f : Expr α → Shape) = Expr.shape := funext fun e => map_shape f e
  have h2 : (Expr.argKind ∘ Expr.map f : Expr α → ArgKind) = Expr.argKind := funext fun e => map_argKind f e
  rw [h1, h2]
  simp [List.mem_map]

theorem map_wf {e : Expr α} : e.WF → (e.map f).WF := by
  have list : ∀ es : Exprs α, (∀ e ∈ es.toList, e.WF → (e.map f).WF) → es.WFs → (es.maps f).WFs := by
    intro es
    induction es using Exprs.rec (motive_1 := fun _ => True) with
    | nil => intros; trivial
    | cons e es _ ih =>
      intro hP h
      exact ⟨hP e (by simp [Exprs.toList]) h.1, ih (fun x hx => hP x (by simp [Exprs.toList, hx])) h.2⟩
    | _ => trivial
  induction e using Expr.induct with
  | var | const | cview => exact id
  | unary op e w ih =>
    intro h
    refine ⟨ih h.1, ?_⟩
    rw [map_shape, map_isIf]
    exact h.2
  | pow op e w ih =>
    intro h
    refine ⟨ih h.1, ?_⟩
    rw [map_shape, map_isIf]
    exact h.2
  | prodElem op e w ih =>
    intro h
    refine ⟨ih h.1, ?_⟩
    rw [map_isIf]
    exact h.2
  | transpose e w ih =>
    intro h
    refine ⟨ih h.1, ?_⟩
    rw [map_shape]
    exact h.2
  | binary op l r w ihl ihr =>
    intro h
    refine ⟨ihl h.1, ihr h.2.1, ?_⟩
    simp only [map_shape, map_isIf]
    exact h.2.2
  | dot l r w ihl ihr =>
    intro h
    refine ⟨ihl h.1, ihr h.2.1, ?_⟩
    simp only [map_shape, map_isIf]
    exact h.2.2
  | sumIter es w ih =>
    intro h
    refine ⟨list es ih h.1, h.2.1, ?_⟩
    simp only [maps_toList, List.forall_mem_map, map_shape]
    exact h.2.2
  | prodIter es w ih =>
    intro h
    refine ⟨list es ih h.1, h.2.1, ?_⟩
    simp only [maps_toList, List.forall_mem_map, map_shape, map_isIf]
    exact h.2.2
  | reduce op es w ih =>
    intro h
    refine ⟨list es ih h.1, h.2.1, ?_⟩
    rcases h.2.2 with ⟨e, rfl, h1, h2⟩ | ⟨o, k, rfl, h1⟩
    · exact .inl ⟨e.map f, rfl, by rwa [map_shape], by rwa [map_isIf]⟩
    · exact .inr ⟨o, k, rfl, (map_fits f o k es).2 h1⟩
  | ifElse c a b w ihc iha ihb =>
    intro h
    refine ⟨ihc h.1, iha h.2.1, ihb h.2.2.1, ?_⟩
    simp only [map_shape, map_isIf, map_retKind]
    exact h.2.2.2
  | eq | opEq | glue | forEach => exact fun h => h.elim

theorem map_vars (e : Expr α) : (e.map f).vars = e.vars := by
  have list : ∀ es : Exprs α, (∀ e ∈ es.toList, (e.map f).vars = e.vars) → (es.maps f).varss = es.varss := by
    intro es
    induction es using Exprs.rec (motive_1 := fun _ => True) with
    | nil => intros; rfl
    | cons e es _ ih =>
      intro hP
      simp only [Exprs.maps, Exprs.varss, hP e (by simp [Exprs.toList]), ih fun x hx => hP x (by simp [Exprs.toList, hx])]
    | _ => trivial
  induction e using Expr.induct with
  | var | const | cview => rfl
  | sumIter es w ih | prodIter es w ih | reduce op es w ih | forEach es w ih => simp only [Expr.map, Expr.vars, list es ih]
  | _ => simp only [Expr.map, Expr.vars, *]

theorem map_cviews (e : Expr α) : (e.map f).cviews = e.cviews := by
  have list : ∀ es : Exprs α, (∀ e ∈ es.toList, (e.map f).cviews = e.cviews) → (es.maps f).cviewss = es.cviewss := by
    intro es
    induction es using Exprs.rec (motive_1 := fun _ => True) with
    | nil => intros; rfl
    | cons e es _ ih =>
      intro hP
      simp only [Exprs.maps, Exprs.cviewss, hP e (by simp [Exprs.toList]), ih fun x hx => hP x (by simp [Exprs.toList, hx])]
    | _ => trivial
  induction e using Expr.induct with
  | var | const | cview => rfl
  | sumIter es w ih | prodIter es w ih | reduce op es w ih | forEach es w ih => simp only [Expr.map, Expr.cviews, list es ih]
  | _ => simp only [Expr.map, Expr.cviews, *]

theorem map_single (e : Expr α) : (e.map f).single = e.single := by
  cases e <;> simp [Expr.map, Expr.single]

theorem map_bindSize (e : Expr α) : (e.map f).bindSize = e.bindSize := by
  have list : ∀ es : Exprs α, (∀ e ∈ es.toList, (e.map f).bindSize = e.bindSize) → (es.maps f).bindSize = es.bindSize := by
    intro es
    induction es using Exprs.rec (motive_1 := fun _ => True) with
    | nil => intros; rfl
    | cons e es _ ih =>
      intro hP
      simp only [Exprs.maps, Exprs.bindSize, hP e (by simp [Exprs.toList]), ih fun x hx => hP x (by simp [Exprs.toList, hx])]
    | _ => trivial
  have hs := fun e : Expr α => map_single f e
  induction e using Expr.induct with
  | var | const | cview => rfl
  | sumIter es w ih => have := hs (.sumIter es w); simp only [Expr.map] at *; simp only [Expr.bindSize, list es ih, this]
  | prodIter es w ih => have := hs (.prodIter es w); simp only [Expr.map] at *; simp only [Expr.bindSize, list es ih, this]
  | reduce op es w ih => have := hs (.reduce op es w); simp only [Expr.map] at *; simp only [Expr.bindSize, list es ih, this]
  | forEach es w ih => have := hs (.forEach es w); simp only [Expr.map] at *; simp only [Expr.bindSize, list es ih, this]
  | unary op e w => have := hs (.unary op e w); simp only [Expr.map] at *; simp only [Expr.bindSize, *]
  | binary op l r w => have := hs (.binary op l r w); simp only [Expr.map] at *; simp only [Expr.bindSize, *]
  | pow op e w => have := hs (.pow op e w); simp only [Expr.map] at *; simp only [Expr.bindSize, *]
  | prodElem op e w => have := hs (.prodElem op e w); simp only [Expr.map] at *; simp only [Expr.bindSize, *]
  | transpose e w => have := hs (.transpose e w); simp only [Expr.map] at *; simp only [Expr.bindSize, *]
  | dot l r w => have := hs (.dot l r w); simp only [Expr.map] at *; simp only [Expr.bindSize, *]
  | ifElse c a b w => have := hs (.ifElse c a b w); simp only [Expr.map] at *; simp only [Expr.bindSize, *]
  | eq v e w => have := hs (.eq v e w); simp only [Expr.map] at *; simp only [Expr.bindSize, *]
  | opEq op v e w c => have := hs (.opEq op v e w c); simp only [Expr.map] at *; simp only [Expr.bindSize, *]
  | glue l r w => have := hs (.glue l r w); simp only [Expr.map] at *; simp only [Expr.bindSize, *]

theorem map_id (e : Expr α) : e.map (fun x => x) = e := by
  have list : ∀ es : Exprs α, (∀ e ∈ es.toList, e.map (fun x => x) = e) → es.maps (fun x => x) = es := by
    intro es
    induction es using Exprs.rec (motive_1 := fun _ => True) with
    | nil => intros; rfl
    | cons e es _ ih =>
      intro hP
      simp only [Exprs.maps, hP e (by simp [Exprs.toList]), ih fun x hx => hP x (by simp [Exprs.toList, hx])]
    | _ => trivial
  induction e using Expr.induct with
  | var | const | cview => rfl
  | sumIter es w ih | prodIter es w ih | reduce op es w ih | forEach es w ih => simp only [Expr.map, list es ih]
  | _ => simp only [Expr.map, *]

theorem map_alive {e : Expr α} {vok aok : ℕ → Bool} : (e.map f).Alive vok aok ↔ e.Alive vok aok := by
  simp only [Expr.Alive, map_vars, map_cviews]

theorem map_adjCells (e : Expr α) : (e.map f).adjCells = e.adjCells := by simp only [Expr.adjCells, map_vars]

end FastAD
