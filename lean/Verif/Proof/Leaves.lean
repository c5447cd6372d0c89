import Verif.Proof.Bind
import Verif.Proof.Calculus
import Verif.Spec.Leaves

/-!
# The layout predicates in terms of the variables and constant views of an expression
-/

open scoped Topology

namespace FastAD

variable {α : Type}

theorem mem_cells {p : Option ℕ} {n a : ℕ} : a ∈ cells p n ↔ a ∈ rng p n := by
  simp only [cells, List.mem_map, List.mem_range, mem_rng_iff]
  constructor
  · rintro ⟨k, hk, rfl⟩; exact ⟨k, hk, rfl⟩
  · rintro ⟨k, hk, rfl⟩; exact ⟨k, hk, rfl⟩

theorem mem_valCells {e : Expr α} {a : ℕ} : a ∈ e.valCells ↔ ∃ v ∈ e.vars, a ∈ rng v.val v.size := by
  simp [Expr.valCells, mem_cells]
theorem mem_adjCells {e : Expr α} {a : ℕ} : a ∈ e.adjCells ↔ ∃ v ∈ e.vars, a ∈ rng v.adj v.size := by
  simp [Expr.adjCells, mem_cells]
theorem mem_constCells {e : Expr α} {a : ℕ} : a ∈ e.constCells ↔ ∃ c ∈ e.cviews, a ∈ rng c.2 c.1.size := by
  simp [Expr.constCells, mem_cells]

/-- variables of the elements of a list -/
theorem mem_varss {es : Exprs α} {v : View} : v ∈ es.varss ↔ ∃ e ∈ es.toList, v ∈ e.vars := by
  induction es using Exprs.rec (motive_1 := fun _ => True) with
  | nil => simp [Exprs.varss, Exprs.toList]
  | cons e es _ ih => simp [Exprs.varss, Exprs.toList, ih]
  | _ => trivial

theorem mem_cviewss {es : Exprs α} {c : Shape × Option ℕ} : c ∈ es.cviewss ↔ ∃ e ∈ es.toList, c ∈ e.cviews := by
  induction es using Exprs.rec (motive_1 := fun _ => True) with
  | nil => simp [Exprs.cviewss, Exprs.toList]
  | cons e es _ ih => simp [Exprs.cviewss, Exprs.toList, ih]
  | _ => trivial

theorem mem_readss {es : Exprs α} {a : ℕ} : a ∈ es.readss ↔ ∃ e ∈ es.toList, a ∈ e.reads := by
  induction es using Exprs.rec (motive_1 := fun _ => True) with
  | nil => simp [Exprs.readss, Exprs.toList]
  | cons e es _ ih => simp [Exprs.readss, Exprs.toList, ih]
  | _ => trivial

theorem mem_readsAs {es : Exprs α} {a : ℕ} : a ∈ es.readsAs ↔ ∃ e ∈ es.toList, a ∈ e.readsA := by
  induction es using Exprs.rec (motive_1 := fun _ => True) with
  | nil => simp [Exprs.readsAs, Exprs.toList]
  | cons e es _ ih => simp [Exprs.readsAs, Exprs.toList, ih]
  | _ => trivial

theorem leavesOks_iff {vok aok : ℕ → Bool} {es : Exprs α} :
    es.LeavesOks vok aok ↔ ∀ e ∈ es.toList, e.LeavesOk vok aok := by
  induction es using Exprs.rec (motive_1 := fun _ => True) with
  | nil => simp [Exprs.LeavesOks, Exprs.toList]
  | cons e es _ ih => simp [Exprs.LeavesOks, Exprs.toList, ih]
  | _ => trivial

theorem wfs_iff {es : Exprs α} : es.WFs ↔ ∀ e ∈ es.toList, e.WF := by
  induction es using Exprs.rec (motive_1 := fun _ => True) with
  | nil => simp [Exprs.WFs, Exprs.toList]
  | cons e es _ ih => simp [Exprs.WFs, Exprs.toList, ih]
  | _ => trivial

theorem leavess_iff [HasInf ℝ] [LinAlg ℝ] {E : Type} [NormedAddCommGroup E] [NormedSpace ℝ E] {ρ : E → ℕ → ℝ} {δ : ℕ → E →L[ℝ] ℝ} {x0 : E}
    {es : Exprs ℝ} : es.Leavess ρ δ x0 ↔ ∀ e ∈ es.toList, e.Leaves ρ δ x0 := by
  induction es using Exprs.rec (motive_1 := fun _ => True) with
  | nil => simp [Exprs.Leavess, Exprs.toList]
  | cons e es _ ih => simp [Exprs.Leavess, Exprs.toList, ih]
  | _ => trivial

theorem leavesOk_of_alive {vok aok : ℕ → Bool} (e : Expr α) : e.Alive vok aok → e.LeavesOk vok aok := by
  have two : ∀ {l r : Expr α}, (l.Alive vok aok → l.LeavesOk vok aok) → (r.Alive vok aok → r.LeavesOk vok aok) →
      (∀ v ∈ l.vars ++ r.vars, accessible vok v.val v.size ∧ accessible aok v.adj v.size) →
      (∀ c ∈ l.cviews ++ r.cviews, accessible vok c.2 c.1.size) → l.LeavesOk vok aok ∧ r.LeavesOk vok aok := by
    intro l r hl hr h1 h2
    exact ⟨hl ⟨fun v hv => h1 v (List.mem_append_left _ hv), fun v hv => h2 v (List.mem_append_left _ hv)⟩,
      hr ⟨fun v hv => h1 v (List.mem_append_right _ hv), fun v hv => h2 v (List.mem_append_right _ hv)⟩⟩
  have list : ∀ {es : Exprs α}, (∀ e ∈ es.toList, e.Alive vok aok → e.LeavesOk vok aok) →
      (∀ v ∈ es.varss, accessible vok v.val v.size ∧ accessible aok v.adj v.size) →
      (∀ c ∈ es.cviewss, accessible vok c.2 c.1.size) → es.LeavesOks vok aok := by
    intro es h h1 h2
    refine leavesOks_iff.2 fun e he => h e he ⟨fun v hv => h1 v (mem_varss.2 ⟨e, he, hv⟩), fun c hc => h2 c (mem_cviewss.2 ⟨e, he, hc⟩)⟩
  induction e using Expr.induct with
  | var v => intro h; exact h.1 v (by simp [Expr.vars])
  | const sh c => intro _; trivial
  | cview sh p => intro h; exact h.2 (sh, p) (by simp [Expr.cviews])
  | unary op e w ih => exact ih
  | binary op l r w ihl ihr => intro h; exact two ihl ihr h.1 h.2
  | pow n e w ih => exact ih
  | prodElem e w c ih => exact ih
  | transpose e w ih => exact ih
  | dot l r w ihl ihr => intro h; exact two ihl ihr h.1 h.2
  | sumIter es w ih => intro h; exact list ih h.1 h.2
  | prodIter es w ih => intro h; exact list ih h.1 h.2
  | reduce op es w ih => intro h; exact list ih h.1 h.2
  | ifElse c x y w ihc ihx ihy =>
    intro h
    have h1 := h.1; have h2 := h.2
    simp only [Expr.vars, Expr.cviews] at h1 h2
    refine ⟨ihc ⟨fun v hv => h1 v (List.mem_append_left _ hv), fun v hv => h2 v (List.mem_append_left _ hv)⟩,
      two ihx ihy (fun v hv => h1 v (List.mem_append_right _ hv)) (fun v hv => h2 v (List.mem_append_right _ hv))⟩
  | eq v e w ih =>
    intro h
    have h0 := h.1 v (by simp [Expr.vars])
    exact ⟨h0.1, h0.2, ih ⟨fun u hu => h.1 u (by simp [Expr.vars, hu]), h.2⟩⟩
  | opEq op v e w c ih =>
    intro h
    have h0 := h.1 v (by simp [Expr.vars])
    exact ⟨h0.1, h0.2, ih ⟨fun u hu => h.1 u (by simp [Expr.vars, hu]), h.2⟩⟩
  | glue l r w ihl ihr => intro h; exact two ihl ihr h.1 h.2
  | forEach es w ih => intro h; exact list ih h.1 h.2

theorem reads_cells (e : Expr α) : ∀ a ∈ e.reads, a ∈ e.valCells ∨ a ∈ e.constCells := by
  have two : ∀ {l r n : Expr α}, (∀ a ∈ l.reads, a ∈ l.valCells ∨ a ∈ l.constCells) →
      (∀ a ∈ r.reads, a ∈ r.valCells ∨ a ∈ r.constCells) → n.vars = l.vars ++ r.vars → n.cviews = l.cviews ++ r.cviews →
      ∀ a ∈ l.reads ∪ r.reads, a ∈ n.valCells ∨ a ∈ n.constCells := by
    intro l r n hl hr h1 h2 a ha
    simp only [mem_valCells, mem_constCells, h1, h2, List.mem_append] at hl hr ⊢
    rcases ha with ha | ha
    · rcases hl a ha with ⟨v, hv, h⟩ | ⟨v, hv, h⟩
      · exact Or.inl ⟨v, Or.inl hv, h⟩
      · exact Or.inr ⟨v, Or.inl hv, h⟩
    · rcases hr a ha with ⟨v, hv, h⟩ | ⟨v, hv, h⟩
      · exact Or.inl ⟨v, Or.inr hv, h⟩
      · exact Or.inr ⟨v, Or.inr hv, h⟩
  have list : ∀ {es : Exprs α} {n : Expr α}, (∀ e ∈ es.toList, ∀ a ∈ e.reads, a ∈ e.valCells ∨ a ∈ e.constCells) →
      n.vars = es.varss → n.cviews = es.cviewss → ∀ a ∈ es.readss, a ∈ n.valCells ∨ a ∈ n.constCells := by
    intro es n h h1 h2 a ha
    obtain ⟨e, he, ha⟩ := mem_readss.1 ha
    rcases h e he a ha with h | h
    · obtain ⟨v, hv, h⟩ := mem_valCells.1 h
      exact Or.inl (mem_valCells.2 ⟨v, by rw [h1]; exact mem_varss.2 ⟨e, he, hv⟩, h⟩)
    · obtain ⟨v, hv, h⟩ := mem_constCells.1 h
      exact Or.inr (mem_constCells.2 ⟨v, by rw [h2]; exact mem_cviewss.2 ⟨e, he, hv⟩, h⟩)
  induction e using Expr.induct with
  | var v => intro a ha; exact Or.inl (mem_valCells.2 ⟨v, by simp [Expr.vars], ha⟩)
  | const sh c => intro a ha; exact ha.elim
  | cview sh p => intro a ha; exact Or.inr (mem_constCells.2 ⟨(sh, p), by simp [Expr.cviews], ha⟩)
  | unary op e w ih => exact ih
  | binary op l r w ihl ihr => exact two ihl ihr rfl rfl
  | pow n e w ih => exact ih
  | prodElem e w c ih => exact ih
  | transpose e w ih => exact ih
  | dot l r w ihl ihr => exact two ihl ihr rfl rfl
  | sumIter es w ih => exact list ih rfl rfl
  | prodIter es w ih => exact list ih rfl rfl
  | reduce op es w ih => exact list ih rfl rfl
  | ifElse c x y w ihc ihx ihy =>
    refine two (l := c) (r := .binary .add x y w) ihc (two ihx ihy rfl rfl) rfl rfl
  | eq v e w ih => exact fun a ha => two (l := .var v) (n := .eq v e w) (fun a ha => Or.inl (mem_valCells.2 ⟨v, by simp [Expr.vars], ha⟩)) ih rfl rfl a (Or.inr ha)
  | glue l r w ihl ihr => exact fun a ha => two ihl ihr rfl rfl a (ha.imp id fun h => h.1)
  | opEq | forEach => intro a ha; exact ha.elim

theorem readsA_cells (e : Expr α) : ∀ a ∈ e.readsA, a ∈ e.adjCells := by
  have two : ∀ {l r n : Expr α}, (∀ a ∈ l.readsA, a ∈ l.adjCells) →
      (∀ a ∈ r.readsA, a ∈ r.adjCells) → n.vars = l.vars ++ r.vars →
      ∀ a ∈ l.readsA ∪ r.readsA, a ∈ n.adjCells := by
    intro l r n hl hr h1 a ha
    simp only [mem_adjCells, h1, List.mem_append] at hl hr ⊢
    rcases ha with ha | ha
    · obtain ⟨v, hv, h⟩ := hl a ha
      exact ⟨v, Or.inl hv, h⟩
    · obtain ⟨v, hv, h⟩ := hr a ha
      exact ⟨v, Or.inr hv, h⟩
  have list : ∀ {es : Exprs α} {n : Expr α}, (∀ e ∈ es.toList, ∀ a ∈ e.readsA, a ∈ e.adjCells) →
      n.vars = es.varss → ∀ a ∈ es.readsAs, a ∈ n.adjCells := by
    intro es n h h1 a ha
    obtain ⟨e, he, ha⟩ := mem_readsAs.1 ha
    obtain ⟨v, hv, h⟩ := mem_adjCells.1 (h e he a ha)
    exact mem_adjCells.2 ⟨v, by rw [h1]; exact mem_varss.2 ⟨e, he, hv⟩, h⟩
  induction e using Expr.induct with
  | var v => intro a ha; exact mem_adjCells.2 ⟨v, by simp [Expr.vars], ha⟩
  | const sh c => intro a ha; exact ha.elim
  | cview sh p => intro a ha; exact ha.elim
  | unary op e w ih => exact ih
  | binary op l r w ihl ihr => exact two ihl ihr rfl
  | pow n e w ih => exact ih
  | prodElem e w c ih => exact ih
  | transpose e w ih => exact ih
  | dot l r w ihl ihr => exact two ihl ihr rfl
  | sumIter es w ih => exact list ih rfl
  | prodIter es w ih => exact list ih rfl
  | reduce op es w ih => exact list ih rfl
  | ifElse c x y w ihc ihx ihy =>
    refine two (l := c) (r := .binary .add x y w) ihc (two ihx ihy rfl) rfl
  | eq v e w ih => exact fun a ha => two (l := .var v) (n := .eq v e w) (fun a ha => mem_adjCells.2 ⟨v, by simp [Expr.vars], ha⟩) ih rfl a (Or.inr ha)
  | glue l r w ihl ihr => exact fun a ha => two ihl ihr rfl a (ha.imp id fun h => h.1)
  | opEq | forEach => intro a ha; exact ha.elim

theorem leaves_of [HasInf ℝ] [LinAlg ℝ] {E : Type} [NormedAddCommGroup E] [NormedSpace ℝ E] {ρ : E → ℕ → ℝ} {δ : ℕ → E →L[ℝ] ℝ} {x0 : E}
    (e : Expr ℝ) : e.WF →
    (∀ v ∈ e.vars, ∀ k < v.size, HasFDerivAt (fun x => ρ x (addr v.val + k)) (δ (addr v.adj + k)) x0) →
    (∀ c ∈ e.cviews, ∀ k < c.1.size, ∀ᶠ x in 𝓝 x0, ρ x (addr c.2 + k) = ρ x0 (addr c.2 + k)) →
    e.Leaves ρ δ x0 := by
  induction e using Expr.induct with
  | var v => intro _ h _; exact h v (by simp [Expr.vars])
  | const sh c => intro _ _ _; trivial
  | cview sh p => intro _ _ h; exact h (sh, p) (by simp [Expr.cviews])
  | unary op e w ih => exact fun hwf => ih hwf.1
  | binary op l r w ihl ihr =>
    intro hwf h1 h2
    exact ⟨ihl hwf.1 (fun v hv => h1 v (List.mem_append_left _ hv)) (fun v hv => h2 v (List.mem_append_left _ hv)),
      ihr hwf.2.1 (fun v hv => h1 v (List.mem_append_right _ hv)) (fun v hv => h2 v (List.mem_append_right _ hv))⟩
  | pow n e w ih => exact fun hwf => ih hwf.1
  | prodElem e w c ih => exact fun hwf => ih hwf.1
  | transpose e w ih => exact fun hwf => ih hwf.1
  | dot l r w ihl ihr =>
    intro hwf h1 h2
    exact ⟨ihl hwf.1 (fun v hv => h1 v (List.mem_append_left _ hv)) (fun v hv => h2 v (List.mem_append_left _ hv)),
      ihr hwf.2.1 (fun v hv => h1 v (List.mem_append_right _ hv)) (fun v hv => h2 v (List.mem_append_right _ hv))⟩
  | sumIter es w ih | prodIter es w ih | reduce op es w ih =>
    intro hwf h1 h2
    exact leavess_iff.2 fun e he => ih e he (wfs_iff.1 hwf.1 e he) (fun v hv => h1 v (mem_varss.2 ⟨e, he, hv⟩))
      (fun c hc => h2 c (mem_cviewss.2 ⟨e, he, hc⟩))
  | ifElse c x y w ihc ihx ihy =>
    intro hwf h1 h2
    simp only [Expr.vars, Expr.cviews, List.mem_append] at h1 h2
    exact ⟨ihc hwf.1 (fun v hv => h1 v (Or.inl hv)) (fun v hv => h2 v (Or.inl hv)),
      ihx hwf.2.1 (fun v hv => h1 v (Or.inr (Or.inl hv))) (fun v hv => h2 v (Or.inr (Or.inl hv))),
      ihy hwf.2.2.1 (fun v hv => h1 v (Or.inr (Or.inr hv))) (fun v hv => h2 v (Or.inr (Or.inr hv)))⟩
  | eq | opEq | glue | forEach => intro hwf; exact hwf.elim

theorem strip_vars (e : Expr α) : e.strip.vars = e.vars ∧ e.strip.cviews = e.cviews := by
  have list : ∀ es : Exprs α, (∀ e ∈ es.toList, e.strip.vars = e.vars ∧ e.strip.cviews = e.cviews) →
      es.strips.varss = es.varss ∧ es.strips.cviewss = es.cviewss := by
    intro es
    induction es using Exprs.rec (motive_1 := fun _ => True) with
    | nil => intro _; exact ⟨rfl, rfl⟩
    | cons e es _ ih =>
      intro h
      have h1 := h e (by simp [Exprs.toList])
      have h2 := ih fun x hx => h x (by simp [Exprs.toList, hx])
      simp only [Exprs.strips, Exprs.varss, Exprs.cviewss, h1, h2, and_self]
    | _ => trivial
  induction e using Expr.induct with
  | var v => exact ⟨rfl, rfl⟩
  | const sh c => exact ⟨rfl, rfl⟩
  | cview sh p => exact ⟨rfl, rfl⟩
  | unary op e w ih => exact ih
  | binary op l r w ihl ihr => simp only [Expr.strip, Expr.vars, Expr.cviews, ihl, ihr, and_self]
  | pow n e w ih => exact ih
  | prodElem e w c ih => exact ih
  | transpose e w ih => exact ih
  | dot l r w ihl ihr => simp only [Expr.strip, Expr.vars, Expr.cviews, ihl, ihr, and_self]
  | sumIter es w ih => exact list es ih
  | prodIter es w ih => exact list es ih
  | reduce op es w ih => exact list es ih
  | ifElse c x y w ihc ihx ihy => simp only [Expr.strip, Expr.vars, Expr.cviews, ihc, ihx, ihy, and_self]
  | eq v e w ih => simp only [Expr.strip, Expr.vars, Expr.cviews, ih, and_self]
  | opEq op v e w c ih => simp only [Expr.strip, Expr.vars, Expr.cviews, ih, and_self]
  | glue l r w ihl ihr => simp only [Expr.strip, Expr.vars, Expr.cviews, ihl, ihr, and_self]
  | forEach es w ih => exact list es ih

theorem vars_of_strip {e e' : Expr α} (h : e'.strip = e.strip) : e'.vars = e.vars := by
  rw [← (strip_vars e').1, h, (strip_vars e).1]
theorem cviews_of_strip {e e' : Expr α} (h : e'.strip = e.strip) : e'.cviews = e.cviews := by
  rw [← (strip_vars e').2, h, (strip_vars e).2]

end FastAD
