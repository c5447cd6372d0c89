import Verif.Proof.BindN
import Verif.Proof.Session

/-!
# Bound expressions with blocks: everything the property theorems need
-/

open scoped Topology

namespace FastAD

section
variable {α : Type}

/-! ### what does not depend on the caches -/

theorem Expr.strip_assignable (e : Expr α) : e.strip.Assignable ↔ e.Assignable := by cases e <;> rfl
theorem Expr.strip_notConst (e : Expr α) : e.strip.NotConst ↔ e.NotConst := by cases e <;> rfl

theorem strip_nwf_both (e : Expr α) : (e.strip.NWF ↔ e.NWF) ∧ (e.strip.NStm ↔ e.NStm) := by
  have list : ∀ es : Exprs α, (∀ e ∈ es.toList, (e.strip.NWF ↔ e.NWF) ∧ (e.strip.NStm ↔ e.NStm)) → (es.strips.NWFs ↔ es.NWFs) := by
    intro es
    induction es using Exprs.rec (motive_1 := fun _ => True) with
    | nil => intro _; rfl
    | cons e es _ ih =>
      intro hP
      simp only [Exprs.strips, Exprs.NWFs]
      rw [ih (fun x hx => hP x (by simp [Exprs.toList, hx])), (hP e (by simp [Exprs.toList])).1]
    | _ => trivial
  induction e using Expr.induct with
  | var | const | cview => exact ⟨Iff.rfl, Iff.rfl⟩
  | unary op e w ih => exact ⟨by simp only [Expr.strip, Expr.NWF, ih.1, Expr.strip_shape, Expr.strip_isIf]; rfl, Iff.rfl⟩
  | binary op l r w ihl ihr => exact ⟨by simp only [Expr.strip, Expr.NWF, ihl.1, ihr.1, Expr.strip_shape, Expr.strip_isIf]; rfl, Iff.rfl⟩
  | pow n e w ih => exact ⟨by simp only [Expr.strip, Expr.NWF, ih.1, Expr.strip_shape, Expr.strip_isIf]; rfl, Iff.rfl⟩
  | prodElem e w c ih => exact ⟨by simp only [Expr.strip, Expr.NWF, ih.1, Expr.strip_isIf]; rfl, Iff.rfl⟩
  | transpose e w ih => exact ⟨by simp only [Expr.strip, Expr.NWF, ih.1, Expr.strip_shape]; rfl, Iff.rfl⟩
  | dot l r w ihl ihr => exact ⟨by simp only [Expr.strip, Expr.NWF, ihl.1, ihr.1, Expr.strip_shape, Expr.strip_isIf]; rfl, Iff.rfl⟩
  | sumIter es w ih =>
    refine ⟨?_, Iff.rfl⟩
    simp only [Expr.strip, Expr.NWF, list es ih, Exprs.toList_strips, List.mem_map, forall_exists_index, and_imp,
      forall_apply_eq_imp_iff₂, Expr.strip_shape]
    rfl
  | prodIter es w ih =>
    refine ⟨?_, Iff.rfl⟩
    simp only [Expr.strip, Expr.NWF, list es ih, Exprs.toList_strips, List.mem_map, forall_exists_index, and_imp,
      forall_apply_eq_imp_iff₂, Expr.strip_shape, Expr.strip_isIf]
    rfl
  | reduce op es w ih =>
    refine ⟨?_, Iff.rfl⟩
    simp only [Expr.strip, Expr.NWF, list es ih]
    refine and_congr_right fun _ => and_congr_right fun _ => ?_
    constructor
    · rintro (⟨e, he, h1, h2⟩ | ⟨o, k, h1, h2⟩)
      rotate_left
      · exact .inr ⟨o, k, h1, (strip_fits es).1 h2⟩
      cases es with
      | nil => simp [Exprs.strips] at he
      | cons x xs =>
        cases xs with
        | nil =>
          simp only [Exprs.strips, Exprs.cons.injEq, and_true] at he
          subst he
          rw [Expr.strip_shape] at h1
          rw [Expr.strip_isIf] at h2
          exact .inl ⟨x, rfl, h1, h2⟩
        | cons => simp [Exprs.strips] at he
    · rintro (⟨e, rfl, h1, h2⟩ | ⟨o, k, h1, h2⟩)
      rotate_left
      · exact .inr ⟨o, k, h1, (strip_fits es).2 h2⟩
      exact .inl ⟨e.strip, rfl, by rw [Expr.strip_shape]; exact h1, by rw [Expr.strip_isIf]; exact h2⟩
  | ifElse c x y w ihc ihx ihy =>
    exact ⟨by simp only [Expr.strip, Expr.NWF, ihc.1, ihx.1, ihy.1, Expr.strip_shape, Expr.strip_isIf, Expr.strip_retKind]; rfl, Iff.rfl⟩
  | eq v e w ih => exact ⟨Iff.rfl, by simp only [Expr.strip, Expr.NStm, ih.1, Expr.strip_shape, Expr.strip_assignable]; rfl⟩
  | glue l r w ihl ihr =>
    exact ⟨by simp only [Expr.strip, Expr.NWF, ihl.2, ihr.1, Expr.strip_shape, Expr.strip_isIf, Expr.strip_notConst]; rfl,
      by simp only [Expr.strip, Expr.NStm, ihl.2, ihr.2, Expr.strip_shape]; rfl⟩
  | opEq | forEach => exact ⟨Iff.rfl, Iff.rfl⟩

theorem Expr.NWF_of_strip {e e' : Expr α} (h : e'.strip = e.strip) : e'.NWF ↔ e.NWF := by
  rw [← (strip_nwf_both e').1, h, (strip_nwf_both e).1]

theorem strip_places (e : Expr α) : e.strip.places = e.places := by
  have list : ∀ es : Exprs α, (∀ e ∈ es.toList, e.strip.places = e.places) → es.strips.placess = es.placess := by
    intro es
    induction es using Exprs.rec (motive_1 := fun _ => True) with
    | nil => intro _; rfl
    | cons e es _ ih =>
      intro hP
      simp only [Exprs.strips, Exprs.placess]
      rw [ih (fun x hx => hP x (by simp [Exprs.toList, hx])), hP e (by simp [Exprs.toList])]
    | _ => trivial
  induction e using Expr.induct with
  | var | const | cview | opEq | forEach => rfl
  | unary op e w ih | pow op e w ih | prodElem op e w ih | transpose e w ih | eq v e w ih => simp only [Expr.strip, Expr.places, ih]
  | binary op l r w ihl ihr | dot l r w ihl ihr | glue l r w ihl ihr => simp only [Expr.strip, Expr.places, ihl, ihr]
  | sumIter es w ih | prodIter es w ih | reduce op es w ih => simp only [Expr.strip, Expr.places, list es ih]
  | ifElse c x y w ihc ihx ihy => simp only [Expr.strip, Expr.places, ihc, ihx, ihy]

theorem defs_places (e : Expr α) : e.defs ⊆ pvs e.places ∧ e.defsA ⊆ pas e.places := by
  induction e using Expr.induct with
  | eq v e w ih =>
    rw [show (Expr.eq v e w).places = v :: e.places from rfl, pvs_cons, pas_cons]
    exact ⟨Set.subset_union_left, Set.subset_union_left⟩
  | glue l r w ihl ihr =>
    rw [show (Expr.glue l r w).places = l.places ++ r.places from rfl, pvs_append, pas_append]
    exact ⟨Set.union_subset_union ihl.1 ihr.1, Set.union_subset_union ihl.2 ihr.2⟩
  | _ => exact ⟨Set.empty_subset _, Set.empty_subset _⟩

theorem phA_places (e : Expr α) : e.phA ⊆ pas e.places := by
  have list : ∀ es : Exprs α, (∀ e ∈ es.toList, e.phA ⊆ pas e.places) → es.phAs ⊆ pas es.placess := by
    intro es
    induction es using Exprs.rec (motive_1 := fun _ => True) with
    | nil => intro _; exact Set.empty_subset _
    | cons e es _ ih =>
      intro hP
      rw [show (Exprs.cons e es).placess = e.places ++ es.placess from rfl, pas_append]
      exact Set.union_subset_union (hP e (by simp [Exprs.toList])) (ih fun x hx => hP x (by simp [Exprs.toList, hx]))
    | _ => trivial
  have two : ∀ {l r : Expr α}, l.phA ⊆ pas l.places → r.phA ⊆ pas r.places → l.phA ∪ r.phA ⊆ pas (l.places ++ r.places) := by
    intro l r hl hr; rw [pas_append]; exact Set.union_subset_union hl hr
  induction e using Expr.induct with
  | var | const | cview | opEq | forEach => exact Set.empty_subset _
  | unary op e w ih | pow op e w ih | prodElem op e w ih | transpose e w ih => exact ih
  | eq v e w ih => exact ih.trans (by rw [show (Expr.eq v e w).places = v :: e.places from rfl, pas_cons]; exact Set.subset_union_right)
  | binary op l r w ihl ihr | dot l r w ihl ihr => exact two ihl ihr
  | glue l r w ihl ihr =>
    refine Set.union_subset ?_ (two ihl ihr)
    rw [show (Expr.glue l r w).places = l.places ++ r.places from rfl, pas_append]
    exact (defs_places l).2.trans Set.subset_union_left
  | sumIter es w ih | prodIter es w ih | reduce op es w ih => exact list es ih
  | ifElse c x y w ihc ihx ihy =>
    rw [show (Expr.ifElse c x y w).places = c.places ++ (x.places ++ y.places) from rfl, pas_append]
    exact Set.union_subset_union ihc (two ihx ihy)

theorem placess_sub (es : Exprs α) : ∀ e ∈ es.toList, e.places.Sublist es.placess := by
  induction es using Exprs.rec (motive_1 := fun _ => True) with
  | nil => intro e he; simp [Exprs.toList] at he
  | cons x es _ ih =>
    intro e he
    simp only [Exprs.toList, List.mem_cons] at he
    rcases he with rfl | he
    · exact List.sublist_append_left _ _
    · exact (ih e he).trans (List.sublist_append_right _ _)
  | _ => trivial

/-- placeholders are variables -/
theorem places_vars (e : Expr α) : ∀ v ∈ e.places, v ∈ e.vars := by
  have list : ∀ es : Exprs α, (∀ e ∈ es.toList, ∀ v ∈ e.places, v ∈ e.vars) → ∀ v ∈ es.placess, v ∈ es.varss := by
    intro es
    induction es using Exprs.rec (motive_1 := fun _ => True) with
    | nil => intro _ v hv; exact hv
    | cons e es _ ih =>
      intro hP v hv
      simp only [Exprs.placess, Exprs.varss, List.mem_append] at hv ⊢
      exact hv.imp (hP e (by simp [Exprs.toList]) v) (ih (fun x hx => hP x (by simp [Exprs.toList, hx])) v)
    | _ => trivial
  induction e using Expr.induct with
  | var | const | cview | opEq | forEach => intro v hv; simp [Expr.places] at hv
  | unary op e w ih | pow op e w ih | prodElem op e w ih | transpose e w ih => exact ih
  | eq v e w ih => intro u hu; simp only [Expr.places, Expr.vars, List.mem_cons] at hu ⊢; exact hu.imp id (ih u)
  | binary op l r w ihl ihr | dot l r w ihl ihr | glue l r w ihl ihr =>
    intro v hv; simp only [Expr.places, Expr.vars, List.mem_append] at hv ⊢; exact hv.imp (ihl v) (ihr v)
  | sumIter es w ih | prodIter es w ih | reduce op es w ih => exact list es ih
  | ifElse c x y w ihc ihx ihy =>
    intro v hv; simp only [Expr.places, Expr.vars, List.mem_append] at hv ⊢; exact hv.imp (ihc v) (Or.imp (ihx v) (ihy v))

end

variable [HasInf ℝ] [LinAlg ℝ]
set_option linter.unusedSectionVars false

/-! ### derivatives of the leaves -/

variable {E : Type} [NormedAddCommGroup E] [NormedSpace ℝ E]

/-- The free variables are differentiable functions of the parameter, constants are constant, placeholders are separate. -/
structure LvHyp (π : ℕ → ℕ) (ρ : E → ℕ → ℝ) (δ : ℕ → E →L[ℝ] ℝ) (x0 : E) (e : Expr ℝ) : Prop where
  paired : e.Paired π
  inj : Set.InjOn π e.adjCells
  der : ∀ a ∈ e.readsA, HasFDerivAt (fun x => ρ x (π a)) (δ a) x0
  con : ∀ c ∈ e.cviews, ∀ k < c.1.size, ∀ᶠ x in 𝓝 x0, ρ x (addr c.2 + k) = ρ x0 (addr c.2 + k)
  sep : ∀ c ∈ e.cviews, ∀ k < c.1.size, addr c.2 + k ∉ pvs e.places
  dist : Distinct e.places
  scope : Disjoint (pas e.places) e.readsA

theorem pvs_sub {L M : List View} (h : L.Sublist M) : pvs L ⊆ pvs M := fun _ ⟨v, hv, ha⟩ => ⟨v, h.subset hv, ha⟩
theorem pas_sub {L M : List View} (h : L.Sublist M) : pas L ⊆ pas M := fun _ ⟨v, hv, ha⟩ => ⟨v, h.subset hv, ha⟩

theorem LvHyp.sub {π : ℕ → ℕ} {ρ : E → ℕ → ℝ} {δ : ℕ → E →L[ℝ] ℝ} {x0 : E} {e e' : Expr ℝ} (h : LvHyp π ρ δ x0 e)
    (hv : ∀ v ∈ e'.vars, v ∈ e.vars) (hc : ∀ c ∈ e'.cviews, c ∈ e.cviews) (hp : e'.places.Sublist e.places) (hr : e'.readsA ⊆ e.readsA) :
    LvHyp π ρ δ x0 e' where
  paired v hv' := h.paired v (hv v hv')
  inj := h.inj.mono fun a ha => by
    obtain ⟨v, hv', ha⟩ := mem_adjCells.1 (Finset.mem_coe.1 ha)
    exact Finset.mem_coe.2 (mem_adjCells.2 ⟨v, hv v hv', ha⟩)
  der a ha := h.der a (hr ha)
  con c hc' := h.con c (hc c hc')
  sep c hc' k hk := fun hm => h.sep c (hc c hc') k hk (pvs_sub hp hm)
  dist := List.Pairwise.sublist hp h.dist
  scope := h.scope.mono (pas_sub hp) hr

/-- derivatives of the placeholders in terms of the pairing -/
theorem PhDer_at {π : ℕ → ℕ} {F : E → ℕ → ℝ} {δ : ℕ → E →L[ℝ] ℝ} {x0 : E} (e : Expr ℝ) : (∀ v ∈ e.vars, ∀ k < v.size, π (addr v.adj + k) = addr v.val + k) →
    e.PhDer F δ x0 → ∀ a ∈ e.defsA, HasFDerivAt (fun x => F x (π a)) (δ a) x0 := by
  induction e using Expr.induct with
  | eq v e w ih =>
    intro hp h a ha
    obtain ⟨k, hk, rfl⟩ := mem_rng_iff.1 ha
    rw [hp v (by simp [Expr.vars]) k hk]
    exact h k hk
  | glue l r w ihl ihr =>
    intro hp h a ha
    rcases ha with ha | ha
    · exact ihl (fun v hv => hp v (by simp [Expr.vars, hv])) h.1 a ha
    · exact ihr (fun v hv => hp v (by simp [Expr.vars, hv])) h.2 a ha
  | _ => intro _ _ a ha; exact ha.elim

theorem defs_vars {α : Type} (e : Expr α) : (∀ c ∈ e.defs, ∃ v ∈ e.vars, ∃ k < v.size, c = addr v.val + k ∧ addr v.adj + k ∈ e.defsA) := by
  induction e using Expr.induct with
  | eq v e w ih =>
    intro c hc
    obtain ⟨k, hk, rfl⟩ := mem_rng_iff.1 hc
    exact ⟨v, by simp [Expr.vars], k, hk, rfl, add_mem_rng hk⟩
  | glue l r w ihl ihr =>
    intro c hc
    rcases hc with hc | hc
    · obtain ⟨v, hv, k, hk, h1, h2⟩ := ihl c hc
      exact ⟨v, by simp [Expr.vars, hv], k, hk, h1, Or.inl h2⟩
    · obtain ⟨v, hv, k, hk, h1, h2⟩ := ihr c hc
      exact ⟨v, by simp [Expr.vars, hv], k, hk, h1, Or.inr h2⟩
  | _ => intro c hc; exact hc.elim

/-- what follows the assignments of a block -/
theorem LvHyp.after {π : ℕ → ℕ} {ρ : E → ℕ → ℝ} {δ δ' : ℕ → E →L[ℝ] ℝ} {x0 : E} {l r : Expr ℝ} {w : View} (h : LvHyp π ρ δ x0 (.glue l r w))
    (hl : l.NStm) (hoff : ∀ a ∉ l.defsA, δ' a = δ a) (hph : l.PhDer (fun x => l.exec (ρ x)) δ' x0) :
    LvHyp π (fun x => l.exec (ρ x)) δ' x0 r := by
  obtain ⟨hD1, hD2, hPV, hPA⟩ := distinct_append.1 h.dist
  have hvl : ∀ v ∈ l.vars, v ∈ (Expr.glue l r w).vars := fun v hv => by simp [Expr.vars, hv]
  have hvr : ∀ v ∈ r.vars, v ∈ (Expr.glue l r w).vars := fun v hv => by simp [Expr.vars, hv]
  have hcr : ∀ c ∈ r.cviews, c ∈ (Expr.glue l r w).cviews := fun v hv => by simp [Expr.cviews, hv]
  have hpl : l.places.Sublist (Expr.glue l r w).places := List.sublist_append_left _ _
  have hpr : r.places.Sublist (Expr.glue l r w).places := List.sublist_append_right _ _
  refine ⟨fun v hv => h.paired v (hvr v hv), h.inj.mono fun a ha => ?_, fun a ha => ?_, fun c hc k hk => ?_,
    fun c hc k hk hm => h.sep c (hcr c hc) k hk (pvs_sub hpr hm), hD2, ?_⟩
  · obtain ⟨v, hv', ha⟩ := mem_adjCells.1 (Finset.mem_coe.1 ha)
    exact Finset.mem_coe.2 (mem_adjCells.2 ⟨v, hvr v hv', ha⟩)
  · by_cases hda : a ∈ l.defsA
    · exact PhDer_at l (fun v hv => h.paired v (hvl v hv)) hph a hda
    · have hra : a ∈ (Expr.glue l r w).readsA := Or.inr ⟨ha, hda⟩
      have hπ : π a ∉ l.defs := by
        intro hm
        obtain ⟨v, hv, k, hk, h1, h2⟩ := defs_vars l _ hm
        rw [← h.paired v (hvl v hv) k hk] at h1
        have := h.inj (Finset.mem_coe.2 (readsA_cells _ a hra)) (Finset.mem_coe.2 (mem_adjCells.2 ⟨v, hvl v hv, add_mem_rng hk⟩)) h1
        exact hda (this ▸ h2)
      rw [hoff a hda]
      exact (h.der a hra).congr_of_eventuallyEq (Filter.Eventually.of_forall fun x => hl.exec_off (ρ x) hπ)
  · have hc' : addr c.2 + k ∉ l.defs := fun hm => h.sep c (hcr c hc) k hk (pvs_sub hpl ((defs_places l).1 hm))
    refine (h.con c (hcr c hc) k hk).mono fun x hx => ?_
    rw [hl.exec_off _ hc', hl.exec_off _ hc', hx]
  · rw [Set.disjoint_left]
    intro a ha hr
    by_cases hda : a ∈ l.defsA
    · exact Set.disjoint_left.1 hPA ((defs_places l).2 hda) ha
    · exact Set.disjoint_left.1 h.scope (pas_sub hpr ha) (Or.inr ⟨hr, hda⟩)

theorem LvHyp.first {π : ℕ → ℕ} {ρ : E → ℕ → ℝ} {δ : ℕ → E →L[ℝ] ℝ} {x0 : E} {l r : Expr ℝ} {w : View} (h : LvHyp π ρ δ x0 (.glue l r w)) :
    LvHyp π ρ δ x0 l ∧ Disjoint l.readsA l.defsA :=
  have h' : LvHyp π ρ δ x0 l := h.sub (fun v hv => by simp [Expr.vars, hv]) (fun v hv => by simp [Expr.cviews, hv]) (List.sublist_append_left _ _) Set.subset_union_left
  ⟨h', (h'.scope.mono_left (defs_places l).2).symm⟩

theorem leaves_both {π : ℕ → ℕ} {x0 : E} (e : Expr ℝ) :
    (∀ (ρ : E → ℕ → ℝ) (δ : ℕ → E →L[ℝ] ℝ), e.NWF → LvHyp π ρ δ x0 e → e.Leaves ρ δ x0) ∧
    (∀ (ρ : E → ℕ → ℝ) (δ : ℕ → E →L[ℝ] ℝ), e.NStm → LvHyp π ρ δ x0 e → e.LeavesS ρ δ x0) := by
  have list : ∀ {es : Exprs ℝ} {n : Expr ℝ}, (∀ e ∈ es.toList, ∀ (ρ : E → ℕ → ℝ) (δ : ℕ → E →L[ℝ] ℝ), e.NWF → LvHyp π ρ δ x0 e → e.Leaves ρ δ x0) →
      ∀ (ρ : E → ℕ → ℝ) (δ : ℕ → E →L[ℝ] ℝ), es.NWFs → n.vars = es.varss → n.cviews = es.cviewss → n.places = es.placess → n.readsA = es.readsAs →
      LvHyp π ρ δ x0 n → es.Leavess ρ δ x0 := by
    intro es n hP ρ δ hwf h1 h2 h3 h4 h
    have hw : ∀ e ∈ es.toList, e.NWF := by
      clear hP h1 h2 h3 h4 h
      induction es using Exprs.rec (motive_1 := fun _ => True) with
      | nil => intro e he; simp [Exprs.toList] at he
      | cons x es _ ih =>
        intro e he
        simp only [Exprs.toList, List.mem_cons] at he
        rcases he with rfl | he
        · exact hwf.1
        · exact ih hwf.2 e he
      | _ => trivial
    exact leavess_iff.2 fun e he => hP e he ρ δ (hw e he) (h.sub (fun v hv => by rw [h1]; exact mem_varss.2 ⟨e, he, hv⟩)
      (fun c hc => by rw [h2]; exact mem_cviewss.2 ⟨e, he, hc⟩) (by rw [h3]; exact placess_sub es e he)
      (fun a ha => by rw [h4]; exact mem_readsAs.2 ⟨e, he, ha⟩))
  have two : ∀ {l r n : Expr ℝ} {ρ : E → ℕ → ℝ} {δ : ℕ → E →L[ℝ] ℝ}, n.vars = l.vars ++ r.vars → n.cviews = l.cviews ++ r.cviews →
      n.places = l.places ++ r.places → n.readsA = l.readsA ∪ r.readsA → LvHyp π ρ δ x0 n → LvHyp π ρ δ x0 l ∧ LvHyp π ρ δ x0 r := by
    intro l r n ρ δ h1 h2 h3 h4 h
    exact ⟨h.sub (fun v hv => by simp [h1, hv]) (fun c hc => by simp [h2, hc]) (by rw [h3]; exact List.sublist_append_left _ _) (by rw [h4]; exact Set.subset_union_left),
      h.sub (fun v hv => by simp [h1, hv]) (fun c hc => by simp [h2, hc]) (by rw [h3]; exact List.sublist_append_right _ _) (by rw [h4]; exact Set.subset_union_right)⟩
  induction e using Expr.induct with
  | var v =>
    refine ⟨fun ρ δ _ h k hk => ?_, fun _ _ h => h.elim⟩
    have := h.der (addr v.adj + k) (add_mem_rng hk)
    rwa [h.paired v (by simp [Expr.vars]) k hk] at this
  | const sh c => exact ⟨fun _ _ _ _ => trivial, fun _ _ h => h.elim⟩
  | cview sh p => exact ⟨fun ρ δ _ h => h.con (sh, p) (by simp [Expr.cviews]), fun _ _ h => h.elim⟩
  | unary op e w ih | pow n e w ih | prodElem e w c ih | transpose e w ih =>
    exact ⟨fun ρ δ hwf h => ih.1 ρ δ hwf.1 (h.sub (fun _ h => h) (fun _ h => h) (List.Sublist.refl _) subset_rfl), fun _ _ h => h.elim⟩
  | binary op l r w ihl ihr | dot l r w ihl ihr =>
    refine ⟨fun ρ δ hwf h => ?_, fun _ _ h => h.elim⟩
    obtain ⟨h1, h2⟩ := two rfl rfl rfl rfl h
    exact ⟨ihl.1 ρ δ hwf.1 h1, ihr.1 ρ δ hwf.2.1 h2⟩
  | sumIter es w ih | prodIter es w ih | reduce op es w ih =>
    exact ⟨fun ρ δ hwf h => list (fun e he => (ih e he).1) ρ δ hwf.1 rfl rfl rfl rfl h, fun _ _ h => h.elim⟩
  | ifElse c x y w ihc ihx ihy =>
    refine ⟨fun ρ δ hwf h => ?_, fun _ _ h => h.elim⟩
    obtain ⟨h1, h2⟩ := two (l := c) (r := .binary .add x y w) rfl rfl rfl rfl h
    obtain ⟨h3, h4⟩ := two (l := x) (r := y) rfl rfl rfl rfl h2
    exact ⟨ihc.1 ρ δ hwf.1 h1, ihx.1 ρ δ hwf.2.1 h3, ihy.1 ρ δ hwf.2.2.1 h4⟩
  | eq v e w ih =>
    exact ⟨fun _ _ h => h.elim, fun ρ δ hwf h => ih.1 ρ δ hwf.1 (h.sub (fun u hu => by simp [Expr.vars, hu]) (fun _ h => h) (List.sublist_cons_self _ _) subset_rfl)⟩
  | glue l r w ihl ihr =>
    refine ⟨fun ρ δ hwf h => ?_, fun ρ δ hwf h => ?_⟩
    · exact ⟨ihl.2 ρ δ hwf.1 h.first.1, h.first.2, fun δ' ho hp => ihr.1 _ δ' hwf.2.1 (h.after hwf.1 ho hp)⟩
    · obtain ⟨-, -, hPV, hPA⟩ := distinct_append.1 h.dist
      exact ⟨ihl.2 ρ δ hwf.1 h.first.1, h.first.2, hPV.mono (defs_places l).1 (defs_places r).1, hPA.mono (defs_places l).2 (defs_places r).2,
        fun δ' ho hp => ihr.2 _ δ' hwf.2.1 (h.after hwf.1 ho hp)⟩
  | opEq | forEach => exact ⟨fun _ _ h => h.elim, fun _ _ h => h.elim⟩

/-! ### the bound expression -/

/-- what is known about a bound expression with blocks, in whatever state -/
structure BndN {α : Type} (e b : Expr α) (BV BA : Set ℕ) (vok aok : ℕ → Bool) : Prop where
  strip : b.strip = e.strip
  wf : b.NWF
  wb : b.WB vok aok
  ownV : b.ownV ⊆ BV
  ownA : b.ownA ⊆ BA
  dV : Disjoint BV b.reads
  dA : Disjoint BA b.readsA

omit [HasInf ℝ] [LinAlg ℝ] in
theorem bindExpr_bndN {α : Type} {e : Expr α} {s : St α} {qv qa : ℕ} {jv ja : ℕ → α} (hwf : e.WithBlocks) (hal : e.Alive s.vok s.aok)
    (hf : Fresh s e.bindSize qv qa) :
    BndN e (bindExpr e qv qa jv ja s).1 (blockV qv e.bindSize ∪ pvs e.places) (blockA qa e.bindSize ∪ pas e.places)
      (bindExpr e qv qa jv ja s).2.vok (bindExpr e qv qa jv ja s).2.aok := by
  have hst := bind_strip e ⟨vecData qv e.bindSize.val, vecData qa e.bindSize.adj⟩
  have hmv : ∀ a, s.vok a = true → (bindExpr e qv qa jv ja s).2.vok a = true := by
    intro a h; simp [bindExpr, St.allocate, h]
  have hma : ∀ a, s.aok a = true → (bindExpr e qv qa jv ja s).2.aok a = true := by
    intro a h; simp [bindExpr, St.allocate, h]
  have hBv : ∀ v ∈ e.vars, Disjoint (blockV qv e.bindSize) (rng v.val v.size) := by
    intro v hv
    rw [Set.disjoint_left]
    intro a ha h
    obtain ⟨k, hk, rfl⟩ := mem_rng_iff.1 ha
    obtain ⟨j, hj, h⟩ := mem_rng_iff.1 h
    have := accessible_mem (hal.1 v hv).1 hj
    rw [← h] at this
    exact absurd ((hf.1 k hk).symm.trans this) (by simp)
  have hBa : ∀ v ∈ e.vars, Disjoint (blockA qa e.bindSize) (rng v.adj v.size) := by
    intro v hv
    rw [Set.disjoint_left]
    intro a ha h
    obtain ⟨k, hk, rfl⟩ := mem_rng_iff.1 ha
    obtain ⟨j, hj, h⟩ := mem_rng_iff.1 h
    have := accessible_mem (hal.1 v hv).2 hj
    rw [← h] at this
    exact absurd ((hf.2 k hk).symm.trans this) (by simp)
  have hBc : ∀ c ∈ e.cviews, Disjoint (blockV qv e.bindSize) (rng c.2 c.1.size) := by
    intro c hc
    rw [Set.disjoint_left]
    intro a ha h
    obtain ⟨k, hk, rfl⟩ := mem_rng_iff.1 ha
    obtain ⟨j, hj, h⟩ := mem_rng_iff.1 h
    have := accessible_mem (hal.2 c hc) hj
    rw [← h] at this
    exact absurd ((hf.1 k hk).symm.trans this) (by simp)
  have hpv : Disjoint (blockV qv e.bindSize) (pvs e.places) := by
    rw [Set.disjoint_left]
    rintro a ha ⟨v, hv, h⟩
    exact Set.disjoint_left.1 (hBv v (places_vars e v hv)) ha h
  have hpa : Disjoint (blockA qa e.bindSize) (pas e.places) := by
    rw [Set.disjoint_left]
    rintro a ha ⟨v, hv, h⟩
    exact Set.disjoint_left.1 (hBa v (places_vars e v hv)) ha h
  have hb := (bind_all (bindExpr e qv qa jv ja s).2.vok (bindExpr e qv qa jv ja s).2.aok e).1
    ⟨vecData qv e.bindSize.val, vecData qa e.bindSize.adj⟩ hwf.wf
    (leavesOk_of_alive e ⟨fun v hv => ⟨(hal.1 v hv).1.mono hmv, (hal.1 v hv).2.mono hma⟩, fun c hc => (hal.2 c hc).mono hmv⟩)
    (accessible_vecData fun k hk => by simp [bindExpr, St.allocate, hk])
    (accessible_vecData fun k hk => by simp [bindExpr, St.allocate, hk]) hwf.distinct
    (hpv.mono_left (rng_vecData_sub _ _)) (hpa.mono_left (rng_vecData_sub _ _))
  refine ⟨hst, (Expr.NWF_of_strip hst).2 hwf.wf, hb.wb, hb.ownV.trans (Set.union_subset_union_left _ (rng_vecData_sub _ _)),
    hb.ownA.trans (Set.union_subset_union_left _ (rng_vecData_sub _ _)), disj_union ?_ ?_, disj_union ?_ ?_⟩
  · show Disjoint _ (Expr.bind e _).1.reads
    rw [Expr.reads_of_strip hst, Set.disjoint_left]
    intro a ha hr
    rcases reads_cells e _ hr with h | h
    · obtain ⟨v, hv, h⟩ := mem_valCells.1 h
      exact Set.disjoint_left.1 (hBv v hv) ha h
    · obtain ⟨c, hc, h⟩ := mem_constCells.1 h
      exact Set.disjoint_left.1 (hBc c hc) ha h
  · show Disjoint _ (Expr.bind e _).1.reads
    rw [Expr.reads_of_strip hst, Set.disjoint_left]
    rintro a ⟨v, hv, h⟩ hr
    exact Set.disjoint_left.1 (hwf.scope v hv).1 h hr
  · show Disjoint _ (Expr.bind e _).1.readsA
    rw [Expr.readsA_of_strip hst, Set.disjoint_left]
    intro a ha hr
    obtain ⟨v, hv, h⟩ := mem_adjCells.1 (readsA_cells e _ hr)
    exact Set.disjoint_left.1 (hBa v hv) ha h
  · show Disjoint _ (Expr.bind e _).1.readsA
    rw [Expr.readsA_of_strip hst, Set.disjoint_left]
    rintro a ⟨v, hv, h⟩ hr
    exact Set.disjoint_left.1 (hwf.scope v hv).2 h hr

omit [HasInf ℝ] [LinAlg ℝ] in
theorem BndN.mono {α : Type} {e b : Expr α} {BV BA : Set ℕ} {vok aok vok' aok' : ℕ → Bool} (h : BndN e b BV BA vok aok)
    (hv : ∀ a, vok a = true → vok' a = true) (ha : ∀ a, aok a = true → aok' a = true) : BndN e b BV BA vok' aok' :=
  ⟨h.strip, h.wf, h.wb.mono hv ha, h.ownV, h.ownA, h.dV, h.dA⟩

omit [HasInf ℝ] [LinAlg ℝ] in
theorem BndN.size {α : Type} {e b : Expr α} {BV BA : Set ℕ} {vok aok : ℕ → Bool} (h : BndN e b BV BA vok aok) : b.size = e.size := by
  rw [Expr.size, Expr.shape_of_strip h.strip, Expr.size]

theorem BndN.evaluate {e b : Expr ℝ} {BV BA : Set ℕ} {s : St ℝ} (h : BndN e b BV BA s.vok s.aok) {m : ℕ → ℝ}
    (hm : ∀ a ∈ e.reads, s.val a = m a) : ∃ s' r, EvalOk e b BV m s s' r := by
  obtain ⟨s', r, h1⟩ := feval_okN b m s h.wf h.wb (h.dV.mono_left h.ownV) (by rwa [Expr.reads_of_strip h.strip])
  have hden := Expr.denote_of_strip h.strip m
  have hread := h1.ref.1 s' rfl fun _ _ => rfl
  by_cases hs : b.shape.isScl = true
  · have h1s : b.size = 1 := (h.wf.shapeOk).size_scl hs
    refine ⟨s', .lit (trunc 1 (e.denote m)), ⟨?_, h1.adj, h1.vok, h1.aok, fun a ha => h1.frame a fun x => ha (h.ownV x), h1.cached, ?_⟩⟩
    · rw [FastAD.evaluate, h1.run]
      simp only [Option.bind_eq_bind, Option.bind_some, hs, if_true]
      rw [h1s] at hread
      rw [hread, hden]
      rfl
    · intro s'' _ _
      rw [← h.size, h1s]
      simp only [Ref.read, trunc_trunc]
  · refine ⟨s', r, ⟨?_, h1.adj, h1.vok, h1.aok, fun a ha => h1.frame a fun x => ha (h.ownV x), h1.cached, ?_⟩⟩
    · rw [FastAD.evaluate, h1.run]
      simp [hs]
    · intro s'' hv hval
      have := h1.ref.1 s'' hv fun a _ => by rw [hval]
      rwa [h.size, hden] at this

theorem BndN.evaluateAdj {e b : Expr ℝ} {BV BA : Set ℕ} {s : St ℝ} (h : BndN e b BV BA s.vok s.aok) {m : ℕ → ℝ}
    (hc : b.Cached m s.val) (hz : ∀ a ∈ pas e.places, s.adj a = 0) (seed : ℕ → ℝ) : ∃ s', AdjOk e b BA m seed s s' := by
  have hpl : b.places = e.places := by rw [← strip_places, h.strip, strip_places]
  obtain ⟨s', h1⟩ := beval_okN b m s seed h.wf h.wb (h.dV.mono_left h.ownV) (h.dA.mono_left h.ownA) hc
    fun a ha => hz a (hpl ▸ phA_places b ha)
  refine ⟨s', h1.run, h1.val, h1.vok, h1.aok, fun a ha => ?_⟩
  rw [h1.adj a fun x => ha (h.ownA x), Expr.grad_of_strip h.strip]

theorem BndN.autodiff {e b : Expr ℝ} {BV BA : Set ℕ} {s : St ℝ} (h : BndN e b BV BA s.vok s.aok) {m : ℕ → ℝ}
    (hm : ∀ a ∈ e.reads, s.val a = m a) (hz : ∀ a ∈ pas e.places, s.adj a = 0) (seed : ℕ → ℝ) : ∃ s' r, AutoOk e b BV BA m seed s s' r := by
  obtain ⟨s1, r, h1⟩ := h.evaluate hm
  obtain ⟨s2, h2⟩ := (show BndN e b BV BA s1.vok s1.aok by rw [h1.vok, h1.aok]; exact h).evaluateAdj h1.cached (by rw [h1.adj]; exact hz) seed
  refine ⟨s2, r, ?_, h2.vok.trans h1.vok, h2.aok.trans h1.aok, fun a ha => ?_, fun a ha => ?_, h1.value s2 h2.vok h2.val⟩
  · rw [FastAD.autodiff, h1.run]
    simp [h2.run]
  · rw [h2.val, h1.frame a ha]
  · rw [h2.adj a ha, h1.adj]

omit [HasInf ℝ] [LinAlg ℝ] in
theorem Expr.WithBlocks.scopeA {e : Expr ℝ} (h : e.WithBlocks) : Disjoint (pas e.places) e.readsA := by
  rw [Set.disjoint_left]
  rintro a ⟨v, hv, ha⟩ hr
  exact Set.disjoint_left.1 (h.scope v hv).2 ha hr

omit [HasInf ℝ] [LinAlg ℝ] in
theorem Expr.WithBlocks.sep {e : Expr ℝ} (_ : e.WithBlocks) (hc : ∀ v ∈ e.places, ∀ k < v.size, addr v.val + k ∉ e.constCells) :
    ∀ c ∈ e.cviews, ∀ k < c.1.size, addr c.2 + k ∉ pvs e.places := by
  rintro c hcv k hk ⟨v, hv, ha⟩
  obtain ⟨j, hj, h⟩ := mem_rng_iff.1 ha
  exact hc v hv j hj (h ▸ mem_constCells.2 ⟨c, hcv, add_mem_rng hk⟩)

/-- directional derivative in terms of `grad` -/
theorem grad_directionalN [LawfulLinAlg] {e : Expr ℝ} (hwf : e.WithBlocks) {π : ℕ → ℕ} (hπ : e.Paired π) (hinj : Set.InjOn π e.adjCells)
    (hc : ∀ v ∈ e.places, ∀ k < v.size, addr v.val + k ∉ e.constCells) {m u : ℕ → ℝ}
    (hu : ∀ c ∈ e.constCells, u c = 0) (hreg : e.Reg (shift m u) 0) (seed : ℕ → ℝ) :
    HasDerivAt (fun t => ∑ k ∈ Finset.range e.size, seed k * e.denote (shift m u t) k)
      (∑ a ∈ e.adjCells, e.grad m seed a * u (π a)) 0 := by
  have hline : ∀ c, HasFDerivAt (fun t => shift m u t c) (ContinuousLinearMap.toSpanSingleton ℝ (u c)) 0 := by
    intro c
    have : HasDerivAt (fun t : ℝ => m c + t * u c) (u c) 0 := by
      simpa using ((hasDerivAt_id (0:ℝ)).mul_const (u c)).const_add (m c)
    exact this.hasFDerivAt
  obtain ⟨D, hD⟩ := calc_okN (shift m u) (fun a => ContinuousLinearMap.toSpanSingleton ℝ (u (π a))) 0 e hwf.wf
    ((leaves_both e).1 _ _ hwf.wf ⟨hπ, hinj, fun a _ => hline _, fun c hc k hk => Filter.Eventually.of_forall fun t => by
        have : u (addr c.2 + k) = 0 := hu _ (mem_constCells.2 ⟨c, hc, add_mem_rng hk⟩)
        simp [shift, this], hwf.sep hc, hwf.distinct, hwf.scopeA⟩) hreg
  have h1 : HasFDerivAt (fun t => ∑ k ∈ Finset.range e.size, seed k * e.denote (shift m u t) k)
      (∑ k ∈ Finset.range e.size, seed k • D k) 0 := by
    refine HasFDerivAt.fun_sum fun k hk => ?_
    exact (hD.deriv k (Finset.mem_range.1 hk)).const_mul (seed k)
  have h2 := hD.adj seed e.adjCells (fun a ha => readsA_cells e a ha)
  rw [← h2] at h1
  have h3 := h1.hasDerivAt
  rw [shift_zero] at h3
  convert h3 using 1
  simp [_root_.sum_apply, _root_.smul_apply]

/-- partial derivative in terms of `grad` -/
theorem grad_partialN [LawfulLinAlg] {e : Expr ℝ} (hwf : e.WithBlocks) {π : ℕ → ℕ} (hπ : e.Paired π)
    (hinj : Set.InjOn π e.adjCells) (hc : ∀ v ∈ e.places, ∀ k < v.size, addr v.val + k ∉ e.constCells) {m : ℕ → ℝ} {a : ℕ}
    (ha : a ∈ e.adjCells) (hca : π a ∉ e.constCells) (hreg : e.Reg (fun t => Function.update m (π a) t) (m (π a))) (seed : ℕ → ℝ) :
    HasDerivAt (fun t => ∑ k ∈ Finset.range e.size, seed k * e.denote (Function.update m (π a) t) k)
      (e.grad m seed a) (m (π a)) := by
  classical
  let ρ : ℝ → ℕ → ℝ := fun t => Function.update m (π a) t
  have hline : ∀ c, HasFDerivAt (fun t => ρ t c)
      (ContinuousLinearMap.toSpanSingleton ℝ (if c = π a then (1:ℝ) else 0)) (m (π a)) := by
    intro c
    refine HasDerivAt.hasFDerivAt ?_
    by_cases h : c = π a
    · subst h
      simpa [ρ] using hasDerivAt_id' (m (π a))
    · simpa [ρ, h] using hasDerivAt_const (m (π a)) (m c)
  obtain ⟨D, hD⟩ := calc_okN ρ (fun b => ContinuousLinearMap.toSpanSingleton ℝ (if π b = π a then (1:ℝ) else 0)) (m (π a)) e hwf.wf
    ((leaves_both e).1 _ _ hwf.wf ⟨hπ, hinj, fun b _ => hline _, fun c hcv k hk => Filter.Eventually.of_forall fun t => by
        have : addr c.2 + k ≠ π a := fun h => hca (h ▸ mem_constCells.2 ⟨c, hcv, add_mem_rng hk⟩)
        simp [ρ, this], hwf.sep hc, hwf.distinct, hwf.scopeA⟩) hreg
  have h1 : HasFDerivAt (fun t => ∑ k ∈ Finset.range e.size, seed k * e.denote (ρ t) k)
      (∑ k ∈ Finset.range e.size, seed k • D k) (m (π a)) := by
    refine HasFDerivAt.fun_sum fun k hk => ?_
    exact (hD.deriv k (Finset.mem_range.1 hk)).const_mul (seed k)
  have h2 := hD.adj seed e.adjCells (fun a ha => readsA_cells e a ha)
  rw [← h2] at h1
  have h3 := h1.hasDerivAt
  have hm : ρ (m (π a)) = m := by simp [ρ]
  rw [hm] at h3
  convert h3 using 1
  rw [_root_.sum_apply, Finset.sum_eq_single a]
  · simp [_root_.smul_apply]
  · intro b hb hne
    have : π b ≠ π a := fun h => hne (hinj hb ha h)
    simp [this]
  · intro h; exact absurd ha h

end FastAD
