import Verif.Proof.Inline
import Verif.Spec.Storage

/-!
# Programs bound to given buffers
-/

namespace FastAD

section
variable {α : Type}

theorem View.bind_bind (w : View) (b b' : Pack) : (w.bind b).1.bind b' = w.bind b' := rfl
theorem View.bindVal_bindVal (w : View) (b b' : Pack) : (w.bindVal b).1.bindVal b' = w.bindVal b' := rfl

theorem rebind_bind (e : Expr α) (x y : Option ℕ) (b : Pack) :
    ((e.rebind x y).bind b).1.rebind x y = (e.bind b).1.rebind x y ∧ ((e.rebind x y).bind b).2 = (e.bind b).2 := by
  cases e
  case binary op l r w =>
    simp only [Expr.rebind, Expr.bind]
    split <;> exact ⟨rfl, rfl⟩
  case pow n e w =>
    simp only [Expr.rebind, Expr.bind]
    split <;> exact ⟨rfl, rfl⟩
  case forEach es w =>
    simp only [Expr.rebind, Expr.bind, and_true]
    split <;> rfl
  all_goals exact ⟨rfl, rfl⟩

theorem Exprs.length_bind (es : Exprs α) : ∀ b : Pack, (es.bind b).1.length = es.length := by
  induction es using Exprs.rec (motive_1 := fun _ => True) with
  | nil => intro b; rfl
  | cons e es _ ih => intro b; simp only [Exprs.bind, Exprs.length, ih]
  | _ => trivial

/-- a second `bind_cache` overrides the first one completely -/
theorem bind_bind (e : Expr α) : ∀ b b' : Pack, (e.bind b).1.bind b' = e.bind b' := by
  have list : ∀ es : Exprs α, (∀ e ∈ es.toList, ∀ b b' : Pack, (e.bind b).1.bind b' = e.bind b') →
      ∀ b b' : Pack, (es.bind b).1.bind b' = es.bind b' := by
    intro es
    induction es using Exprs.rec (motive_1 := fun _ => True) with
    | nil => intro _ b b'; rfl
    | cons e es _ ih =>
      intro hP b b'
      simp only [Exprs.bind]
      rw [hP e (by simp [Exprs.toList]), ih (fun x hx => hP x (by simp [Exprs.toList, hx]))]
    | _ => trivial
  have hsize : ∀ (e : Expr α) (b : Pack), (e.bind b).1.shape = e.shape := fun e b => Expr.shape_of_strip (bind_strip e b)
  induction e using Expr.induct with
  | var | const | cview => intro b b'; rfl
  | unary op e w ih | transpose e w ih  =>
    intro b b'
    simp only [Expr.bind, ih]
    rfl
  | prodElem e w c ih =>
    intro b b'
    simp only [Expr.bind, ih, Expr.size, hsize]
    rfl
  | pow n e w ih =>
    intro b b'
    simp only [Expr.bind]
    split <;> simp only [Expr.bind, ih] <;> rfl
  | binary op l r w ihl ihr =>
    intro b b'
    simp only [Expr.bind]
    split <;> simp only [Expr.bind, ihl, ihr] <;> rfl
  | dot l r w ihl ihr =>
    intro b b'
    simp only [Expr.bind, ihl, ihr]
    rfl
  | sumIter es w ih | prodIter es w ih | reduce op es w ih =>
    intro b b'
    simp only [Expr.bind, list es ih]
    rfl
  | ifElse c x y w ihc ihx ihy =>
    intro b b'
    simp only [Expr.bind, ihc, ihx, ihy]
  | eq v e w ih =>
    intro b b'
    obtain ⟨h1, h2⟩ := rebind_bind (e.bind b).1 v.val v.adj b'
    have h3 : ((e.bind b).1.rebind v.val v.adj).single = e.single := by
      rw [← Expr.strip_single, Expr.rebind_strip, bind_strip, Expr.strip_single]
    simp only [Expr.bind]
    rw [h1, h2, h3, ih]
  | opEq op v e w c ih =>
    intro b b'
    simp only [Expr.bind, ih]
    rfl
  | glue l r w ihl ihr =>
    intro b b'
    simp only [Expr.bind, ihl, ihr]
  | forEach es w ih =>
    intro b b'
    simp only [Expr.bind, list es ih, Exprs.length_bind]
    split <;> rfl

theorem strip_bindSize (e : Expr α) : e.strip.bindSize = e.bindSize := by
  have list : ∀ es : Exprs α, (∀ e ∈ es.toList, e.strip.bindSize = e.bindSize) → es.strips.bindSize = es.bindSize := by
    intro es
    induction es using Exprs.rec (motive_1 := fun _ => True) with
    | nil => intro _; rfl
    | cons e es _ ih =>
      intro hP
      simp only [Exprs.strips, Exprs.bindSize]
      rw [hP e (by simp [Exprs.toList]), ih (fun x hx => hP x (by simp [Exprs.toList, hx]))]
    | _ => trivial
  induction e using Expr.induct with
  | var | const | cview => rfl
  | unary op e w ih | pow n e w ih | prodElem e w c ih | transpose e w ih | opEq op v e w c ih =>
    simp only [Expr.strip, Expr.bindSize, ih, Expr.single, Expr.strip_size]
    rfl
  | binary op l r w ihl ihr | dot l r w ihl ihr | glue l r w ihl ihr =>
    simp only [Expr.strip, Expr.bindSize, ihl, ihr, Expr.single]
    try rfl
  | sumIter es w ih | prodIter es w ih | reduce op es w ih | forEach es w ih =>
    simp only [Expr.strip, Expr.bindSize, list es ih, Expr.single]
    try rfl
  | ifElse c x y w ihc ihx ihy => simp only [Expr.strip, Expr.bindSize, ihc, ihx, ihy]
  | eq v e w ih => simp only [Expr.strip, Expr.bindSize, ih, Expr.strip_single]

theorem bind_bindSize (e : Expr α) (b : Pack) : (e.bind b).1.bindSize = e.bindSize := by
  rw [← strip_bindSize, bind_strip, strip_bindSize]

/-- binding several times -/
theorem bindAll (e : Expr α) (bs : List Pack) : (bs.foldl (fun e b => (e.bind b).1) e).bindSize = e.bindSize ∧
    ∀ b, (bs.foldl (fun e b => (e.bind b).1) e).bind b = e.bind b := by
  induction bs generalizing e with
  | nil => exact ⟨rfl, fun _ => rfl⟩
  | cons b0 bs ih => exact ⟨(ih _).1.trans (bind_bindSize e b0), fun b => ((ih _).2 b).trans (bind_bind e b0 b)⟩

/-! ### Binding to arbitrary buffers -/

theorem Expr.Room.offRng {p : Expr α} {b : Pack} {UV UA : Set ℕ} {vok aok : ℕ → Bool} (h : p.Room b UV UA vok aok) :
    (∀ a ∈ UV, a ∉ rng b.val p.bindSize.val) ∧ ∀ a ∈ UA, a ∉ rng b.adj p.bindSize.adj := by
  refine ⟨fun a ha hr => ?_, fun a ha hr => ?_⟩
  · obtain ⟨k, hk, rfl⟩ := mem_rng_iff.1 hr
    exact h.offV k hk ha
  · obtain ⟨k, hk, rfl⟩ := mem_rng_iff.1 hr
    exact h.offA k hk ha

/-- the facts about a program bound to arbitrary buffers with enough room -/
theorem bind_eval [Zero α] [One α] [Add α] [Sub α] [Neg α] [Mul α] [Div α] [NatCast α] [IntCast α] [Fn α] [HasInf α] [LinAlg α]
    {p : Expr α} {b : Pack} {UV UA : Set ℕ} {vok aok : ℕ → Bool} (ht : p.WFTree) (hne : p.flat ≠ [])
    (hw : p.Within UV UA vok aok) (hr : p.Room b UV UA vok aok) :
    EvalB p (p.bind b).1 (rng b.val p.bindSize.val) (rng b.adj p.bindSize.adj) vok aok := by
  obtain ⟨f1, f2, f3⟩ := flat_spec p ht
  have hsz := (flat_bind p ⟨none, none⟩).2
  have hfl := (flat_bind p b).1
  have hleaf : ∀ x ∈ p.flat, x.isLeaf = true := fun x hx => WFStmt_isLeaf (f1 x hx).1
  have hseq := seq_bind (vok := vok) (aok := aok) (BV := rng b.val p.bindSize.val) (BA := rng b.adj p.bindSize.adj) p.flat b
    (fun x hx => ⟨(f1 x hx).1, ⟨fun v hv => hw.alive.1 v ((f1 x hx).2.1 v hv), fun c hc => hw.alive.2 c ((f1 x hx).2.2 c hc)⟩, by
      rw [Set.disjoint_left]
      intro a ha hm
      refine hr.offRng.1 a (hw.val a ?_) ha
      rcases hm with h | h
      · obtain ⟨v, hv, h⟩ := mem_valCells.1 h
        exact Finset.mem_union.2 (Or.inl (mem_valCells.2 ⟨v, (f1 x hx).2.1 v hv, h⟩))
      · obtain ⟨v, hv, h⟩ := mem_constCells.1 h
        exact Finset.mem_union.2 (Or.inr (mem_constCells.2 ⟨v, (f1 x hx).2.2 v hv, h⟩)), by
      rw [Set.disjoint_left]
      intro a ha hm
      refine hr.offRng.2 a (hw.adj a ?_) ha
      obtain ⟨v, hv, h⟩ := mem_adjCells.1 hm
      exact mem_adjCells.2 ⟨v, (f1 x hx).2.1 v hv, h⟩⟩)
    (by rw [← hsz]; exact hr.val) (by rw [← hsz]; exact hr.adj)
    (by rw [← hsz]) (by rw [← hsz])
  refine ⟨?_, TreeB_bind p _ ht, ?_, Expr.shape_of_strip (bind_strip p _), ht, hne⟩
  · rw [hfl]
    exact hseq.1
  · rw [hfl]
    exact bindL_same hleaf _

theorem bind_prog [Zero α] [One α] [Add α] [Sub α] [Neg α] [Mul α] [Div α] [NatCast α] [IntCast α] [Fn α] [HasInf α] [LinAlg α]
    {p : Expr α} {b : Pack} {UV UA : Set ℕ} {vok aok : ℕ → Bool} (hp : p.Program) (hw : p.Within UV UA vok aok)
    (hr : p.Room b UV UA vok aok) :
    ProgB p (p.bind b).1 (rng b.val p.bindSize.val) (rng b.adj p.bindSize.adj) vok aok :=
  ⟨bind_eval hp.tree hp.nonempty hw hr, hp.order.imp after_of_usedAfter⟩

section
variable [HasInf ℝ] [LinAlg ℝ]
set_option linter.unusedSectionVars false

/-! ### The outcome depends on the user's cells only -/

/-- the cells of a statement lie within `UV`, `UA` -/
def Expr.In (UV UA : Set ℕ) (x : Expr ℝ) : Prop := (∀ a ∈ x.valCells ∪ x.constCells, a ∈ UV) ∧ ∀ a ∈ x.adjCells, a ∈ UA

section
variable {UV UA : Set ℕ} {m m' : ℕ → ℝ}

theorem stmt_rhs_congr {e : Expr ℝ} (hwf : e.WF) (hin : ∀ a ∈ e.valCells ∪ e.constCells, a ∈ UV) (h : ∀ a ∈ UV, m a = m' a) :
    (∀ k < e.size, e.denote m k = e.denote m' k) ∧ ∀ seed a, e.grad m seed a = e.grad m' seed a := by
  refine ⟨denote_congr e hwf fun a ha => h a (hin a ?_), fun seed a => (grad_store_congr hwf (fun a ha => (h a (hin a ha)).symm) seed a).symm⟩
  exact Finset.mem_union.2 (reads_cells e a ha)

theorem Expr.In.assigned {x e : Expr ℝ} {v : View} (h : x.In UV UA) (hv : x.vars = v :: e.vars) (hc : x.cviews = e.cviews) :
    (∀ a ∈ e.valCells ∪ e.constCells, a ∈ UV) ∧ (∀ k < v.size, addr v.val + k ∈ UV) ∧ ∀ k < v.size, addr v.adj + k ∈ UA := by
  refine ⟨fun a ha => h.1 a ?_, fun k hk => h.1 _ ?_, fun k hk => h.2 _ ?_⟩
  · rcases Finset.mem_union.1 ha with ha | ha
    · obtain ⟨u, hu, ha⟩ := mem_valCells.1 ha
      exact Finset.mem_union.2 (Or.inl (mem_valCells.2 ⟨u, by rw [hv]; exact List.mem_cons_of_mem _ hu, ha⟩))
    · obtain ⟨u, hu, ha⟩ := mem_constCells.1 ha
      exact Finset.mem_union.2 (Or.inr (mem_constCells.2 ⟨u, by rw [hc]; exact hu, ha⟩))
  · exact Finset.mem_union.2 (Or.inl (mem_valCells.2 ⟨v, by simp [hv], add_mem_rng hk⟩))
  · exact mem_adjCells.2 ⟨v, by simp [hv], add_mem_rng hk⟩

theorem exec_on {x : Expr ℝ} (hx : x.WFStmt) (hin : x.In UV UA) (h : ∀ a ∈ UV, m a = m' a) : ∀ a ∈ UV, x.exec m a = x.exec m' a := by
  intro a ha
  cases x with
  | eq v e w =>
    have he := (stmt_rhs_congr hx.1 (hin.assigned rfl rfl).1 h).1
    simp only [Expr.exec]
    by_cases hav : a ∈ rng v.val v.size
    · obtain ⟨j, hj, rfl⟩ := mem_rng_iff.1 hav
      rw [assign_add hj, assign_add hj]
      exact he j (by simpa [Expr.size, hx.2.2.1, View.size] using hj)
    · rw [assign_off hav, assign_off hav]; exact h a ha
  | opEq op v e w c =>
    have he := (stmt_rhs_congr hx.1 (hin.assigned rfl rfl).1 h).1
    simp only [Expr.exec]
    by_cases hav : a ∈ rng v.val v.size
    · obtain ⟨j, hj, rfl⟩ := mem_rng_iff.1 hav
      rw [assign_add hj, assign_add hj, h _ ha, he]
      split
      · rename_i hs; rw [Expr.size, hx.1.shapeOk.size_scl hs]; exact Nat.one_pos
      · rename_i hs
        have := hx.2.2.1.resolve_left hs
        simpa [Expr.size, this, View.size] using hj
    · rw [assign_off hav, assign_off hav]; exact h a ha
  | glue => exact hx.elim
  | forEach => exact hx.elim
  | _ => exact h a ha

theorem undo_on {x : Expr ℝ} (hin : x.In UV UA) (h : ∀ a ∈ UV, m a = m' a) {f f' : ℕ → ℝ} (hf : ∀ a ∈ UV, f a = f' a) :
    ∀ a ∈ UV, x.undo m f a = x.undo m' f' a := by
  intro a ha
  cases x with
  | opEq op v e w c =>
    simp only [Expr.undo]
    by_cases hav : a ∈ rng v.val v.size
    · obtain ⟨j, hj, rfl⟩ := mem_rng_iff.1 hav
      rw [assign_add hj, assign_add hj, h _ ha]
    · rw [assign_off hav, assign_off hav]; exact hf a ha
  | _ => exact hf a ha

theorem back_on {x : Expr ℝ} (hx : x.WFStmt) (hin : x.In UV UA) (h : ∀ a ∈ UV, m a = m' a) (seed : ℕ → ℝ) {A A' : ℕ → ℝ}
    (hA : ∀ a ∈ UA, A a = A' a) : ∀ a ∈ UA, x.back m seed A a = x.back m' seed A' a := by
  intro a ha
  cases x with
  | eq v e w =>
    obtain ⟨hi, hv, hva⟩ := hin.assigned (x := .eq v e w) rfl rfl
    obtain ⟨h1, h2⟩ := stmt_rhs_congr hx.1 hi h
    simp only [Expr.back]
    rw [hA a ha, h2, grad_congr m' e _ (fun k => A' (addr v.adj + k) + seed k) hx.1]
    intro k hk
    rw [hA _ (hva k (by simpa [Expr.size, hx.2.2.1, View.size] using hk))]
  | opEq op v e w c =>
    obtain ⟨hi, hv, hva⟩ := hin.assigned (x := .opEq op v e w c) rfl rfl
    obtain ⟨h1, h2⟩ := stmt_rhs_congr hx.1 hi h
    have hidx : ∀ k < v.size, (if e.shape.isScl then 0 else k) < e.size := by
      intro k hk
      split
      · rename_i hs; rw [Expr.size, hx.1.shapeOk.size_scl hs]; exact Nat.one_pos
      · rename_i hs
        have := hx.2.2.1.resolve_left hs
        simpa [Expr.size, this, View.size] using hk
    simp only [Expr.back]
    congr 1
    · split
      · rename_i hm
        obtain ⟨k, hk, rfl⟩ := mem_rng_iff.1 hm
        simp only [Nat.add_sub_cancel_left]
        rw [hA _ ha, h _ (hv k hk), h1 _ (hidx k hk)]
      · exact hA a ha
    · rw [h2]
      refine congrFun (grad_congr m' e _ _ hx.1 (collapse_congr (fun k hk => ?_) ?_)) a
      · rw [hA _ (hva k hk), h _ (hv k hk), h1 _ (hidx k hk)]
      · rcases hx.2.2.1 with hs | hs
        · by_cases hw : v.shape.isScl = true
          · right; rw [Expr.size, hx.1.shapeOk.size_scl hs, View.size, hx.2.1.size_scl hw]
          · exact Or.inl ⟨hs, by simpa using hw⟩
        · right; rw [Expr.size, hs, View.size]
  | glue => exact hx.elim
  | forEach => exact hx.elim
  | _ =>
    simp only [Expr.back]
    rw [hA a ha, (stmt_rhs_congr hx.1 hin.1 h).2]

theorem restL_on : ∀ {L : List (Expr ℝ)} {m m' : ℕ → ℝ}, (∀ x ∈ L, x.WFStmt) → (∀ x ∈ L, x.In UV UA) → (∀ a ∈ UV, m a = m' a) →
    ∀ a ∈ UV, restL L m a = restL L m' a
  | [], _, _, _, _, h => h
  | x :: xs, m, m', hx, hin, h =>
    undo_on (hin x (by simp)) h (restL_on (fun z hz => hx z (by simp [hz])) (fun z hz => hin z (by simp [hz]))
      (exec_on (hx x (by simp)) (hin x (by simp)) h))

theorem backL_on : ∀ {L : List (Expr ℝ)} {m m' : ℕ → ℝ}, (∀ x ∈ L, x.WFStmt) → (∀ x ∈ L, x.In UV UA) → (∀ a ∈ UV, m a = m' a) →
    ∀ (seed : ℕ → ℝ) {A A' : ℕ → ℝ}, (∀ a ∈ UA, A a = A' a) → ∀ a ∈ UA, backL L m seed A a = backL L m' seed A' a
  | [], _, _, _, _, _, _, _, _, hA => hA
  | x :: xs, m, m', hx, hin, h, seed, _, _, hA =>
    back_on (hx x (by simp)) (hin x (by simp)) h _ (backL_on (fun z hz => hx z (by simp [hz])) (fun z hz => hin z (by simp [hz]))
      (exec_on (hx x (by simp)) (hin x (by simp)) h) seed hA)

end

theorem flat_in {p : Expr ℝ} {UV UA : Set ℕ} {vok aok : ℕ → Bool} (hp : p.Program) (hw : p.Within UV UA vok aok) :
    (∀ x ∈ p.flat, x.WFStmt) ∧ ∀ x ∈ p.flat, x.In UV UA := by
  obtain ⟨f1, -, -⟩ := flat_spec p hp.tree
  refine ⟨fun x hx => (f1 x hx).1, fun x hx => ⟨fun a ha => hw.val a ?_, fun a ha => hw.adj a ?_⟩⟩
  · rcases Finset.mem_union.1 ha with ha | ha
    · obtain ⟨u, hu, ha⟩ := mem_valCells.1 ha
      exact Finset.mem_union.2 (Or.inl (mem_valCells.2 ⟨u, (f1 x hx).2.1 u hu, ha⟩))
    · obtain ⟨u, hu, ha⟩ := mem_constCells.1 ha
      exact Finset.mem_union.2 (Or.inr (mem_constCells.2 ⟨u, (f1 x hx).2.2 u hu, ha⟩))
  · obtain ⟨u, hu, ha⟩ := mem_adjCells.1 ha
    exact mem_adjCells.2 ⟨u, (f1 x hx).2.1 u hu, ha⟩

/-- one step -/
theorem storage_step {UV UA : Set ℕ} {p : Expr ℝ} {b : Pack} {s : St ℝ} (hp : p.Program)
    (hw : p.Within UV UA s.vok s.aok) (hr : p.Room b UV UA s.vok s.aok) (seed : ℕ → ℝ) :
    ∃ s' r, autodiff (p.bind b).1 seed s = some (s', r) ∧ s'.vok = s.vok ∧ s'.aok = s.aok ∧
      (p.Stable → r.read s' (p.bind b).1.size = some (trunc p.size (p.result s.val))) ∧
      (∀ a ∉ rng b.val p.bindSize.val, s'.val a = restL p.flat s.val a) ∧
      ∀ a ∉ rng b.adj p.bindSize.adj, s'.adj a = backL p.flat s.val seed s.adj a := by
  have hb := bind_prog hp hw hr
  obtain ⟨s', r, h⟩ := hb.autodiff (m := s.val) (fun a _ => rfl) hp.shapeOk seed hp.order
  refine ⟨s', r, h.run, h.vok, h.aok, ?_, h.val, h.adj⟩
  rw [Expr.size, hb.shape]
  exact h.value

theorem storage_irrelevant {UV UA : Set ℕ} : ∀ (js : List (Expr ℝ × (ℕ → ℝ) × Pack × Pack)) (s s' : St ℝ),
    (∀ j ∈ js, j.1.Program ∧ j.1.Stable ∧ j.1.Within UV UA s.vok s.aok ∧ j.1.Within UV UA s'.vok s'.aok ∧
      j.1.Room j.2.2.1 UV UA s.vok s.aok ∧ j.1.Room j.2.2.2 UV UA s'.vok s'.aok) →
    (∀ a ∈ UV, s.val a = s'.val a) → (∀ a ∈ UA, s.adj a = s'.adj a) →
    ∃ xs t t', differentiateAll (js.map fun j => ((j.1.bind j.2.2.1).1, j.2.1)) s = some (xs, t) ∧
      differentiateAll (js.map fun j => ((j.1.bind j.2.2.2).1, j.2.1)) s' = some (xs, t') ∧
      (∀ a ∈ UV, t.val a = t'.val a) ∧ ∀ a ∈ UA, t.adj a = t'.adj a
  | [], s, s', _, hv, ha => ⟨[], s, s', rfl, rfl, hv, ha⟩
  | (p, seed, b, b') :: js, s, s', h, hv, ha => by
    obtain ⟨hp, hst, hw, hw', hr, hr'⟩ := h (p, seed, b, b') (by simp)
    obtain ⟨s1, r, e1, e2, e3, e4, e5, e6⟩ := storage_step hp hw hr seed
    obtain ⟨s1', r', e1', e2', e3', e4', e5', e6'⟩ := storage_step hp hw' hr' seed
    obtain ⟨g1, g2⟩ := flat_in hp hw
    obtain ⟨xs, t, t', i1, i2, i3, i4⟩ := storage_irrelevant js s1 s1'
      (fun j hj => by rw [e2, e3, e2', e3']; exact h j (by simp [hj]))
      (fun a ha => by
        rw [e5 a (hr.offRng.1 a ha), e5' a (hr'.offRng.1 a ha)]
        exact restL_on g1 g2 hv a ha)
      (fun a h' => by
        rw [e6 a (hr.offRng.2 a h'), e6' a (hr'.offRng.2 a h')]
        exact backL_on g1 g2 hv seed ha a h')
    have hres : trunc p.size (p.result s.val) = trunc p.size (p.result s'.val) :=
      trunc_congr (result_congr hp fun a ha => hv a (hw.val a (Finset.mem_sdiff.1 ha).1))
    refine ⟨trunc p.size (p.result s.val) :: xs, t, t', ?_, ?_, i3, i4⟩
    · simp only [List.map_cons, differentiateAll]
      simp only [e1, e4 hst, i1, Option.bind_eq_bind, Option.bind_some]
    · simp only [List.map_cons, differentiateAll]
      simp only [e1', e4' hst, i2, Option.bind_eq_bind, Option.bind_some, hres]

end

end

end FastAD
