import Verif.Proof.Storage
import Verif.Proof.ProgApi
import Verif.Spec.World

/-!
# What a bound expression or program does, whatever it is
-/

namespace FastAD

section
variable [HasInf ℝ] [LinAlg ℝ]
set_option linter.unusedSectionVars false

/-- the caches depend on the values of the variables and constant views only -/
theorem Expr.Cached.congr_store {m m' h : ℕ → ℝ} (e : Expr ℝ) : e.WF → e.Cached m h → (∀ a ∈ e.reads, m' a = m a) → e.Cached m' h := by
  have list : ∀ (es : Exprs ℝ), (∀ e ∈ es.toList, e.WF → e.Cached m h → (∀ a ∈ e.reads, m' a = m a) → e.Cached m' h) → es.WFs →
      es.Cacheds m h → (∀ a ∈ es.readss, m' a = m a) → es.Cacheds m' h := by
    intro es
    induction es using Exprs.rec (motive_1 := fun _ => True) with
    | nil => intros; trivial
    | cons e es _ ih =>
      intro hP hw hc hag
      exact ⟨hP e (by simp [Exprs.toList]) hw.1 hc.1 fun a ha => hag a (Or.inl ha), ih (fun x hx => hP x (by simp [Exprs.toList, hx])) hw.2 hc.2 fun a ha => hag a (Or.inr ha)⟩
    | _ => trivial
  have root : ∀ (e : Expr ℝ) (w : View), e.WF → e.size = w.size → (∀ a ∈ e.reads, m' a = m a) → (∀ k < w.size, h (addr w.val + k) = e.denote m k) →
      ∀ k < w.size, h (addr w.val + k) = e.denote m' k := by
    intro e w hw hs hag hc k hk
    rw [hc k hk]
    exact (denote_congr e hw hag k (hs ▸ hk)).symm
  induction e using Expr.induct with
  | var v => intro _ hc hag a ha; rw [hag a ha]; exact hc a ha
  | const => intros; trivial
  | cview sh p => intro _ hc hag a ha; rw [hag a ha]; exact hc a ha
  | unary op e w ih | pow op e w ih | prodElem op e w ih | transpose e w ih =>
    intro hw hc hag
    exact ⟨ih hw.1 hc.1 hag, root _ _ hw rfl hag hc.2⟩
  | binary op l r w ihl ihr | dot l r w ihl ihr =>
    intro hw hc hag
    exact ⟨ihl hw.1 hc.1 fun a ha => hag a (Or.inl ha), ihr hw.2.1 hc.2.1 fun a ha => hag a (Or.inr ha), root _ _ hw rfl hag hc.2.2⟩
  | sumIter es w ih | prodIter es w ih | reduce op es w ih =>
    intro hw hc hag
    exact ⟨list es ih hw.1 hc.1 hag, root _ _ hw rfl hag hc.2⟩
  | ifElse c x y w ihc ihx ihy =>
    intro hw hc hag
    obtain ⟨hwc, hwx, hwy, hk, -⟩ := hw
    have h0 : c.denote m' 0 = c.denote m 0 := denote_congr c hwc (fun a ha => hag a (Or.inl ha)) 0 (by
      rw [Expr.size, hwc.shapeOk.size_scl (by simp [Shape.isScl, hk])]; exact Nat.one_pos)
    refine ⟨ihc hwc hc.1 fun a ha => hag a (Or.inl ha), ?_⟩
    have h2 := hc.2
    rw [h0]
    split at h2 <;> rename_i hcond
    · rw [if_pos hcond]
      exact ihx hwx h2 fun a ha => hag a (Or.inr (Or.inl ha))
    · rw [if_neg hcond]
      exact ihy hwy h2 fun a ha => hag a (Or.inr (Or.inr ha))
  | eq | opEq | glue | forEach => intro hw; exact hw.elim

variable {UV UA BV BA : Set ℕ} {vok aok : ℕ → Bool}

theorem PC_store {x : Expr ℝ} {M M' h h' : ℕ → ℝ} (hb : StmtB vok aok BV BA x) (hin : x.In UV UA) (hM : ∀ a ∈ UV, M' a = M a) (hh : ∀ a ∈ BV, h' a = h a)
    (hc : x.PC BV M h) : x.PC BV M' h' := by
  have rd : ∀ {e : Expr ℝ} {a}, (∀ a ∈ e.valCells ∪ e.constCells, a ∈ UV) → a ∈ e.reads → a ∈ UV := fun h ha => h _ (Finset.mem_union.2 (reads_cells _ _ ha))
  by_cases hs : x.isStmt = false
  · obtain ⟨hb, _, _⟩ := hb.pure hs
    rw [Expr.PC_pure hs] at hc ⊢
    refine Expr.Cached.congr x (Expr.Cached.congr_store x hb.wf hc fun a ha => hM a (rd hin.1 ha)) fun a ha => ?_
    rcases ha with ha | ha
    · rw [merge_in (hb.ownV ha), merge_in (hb.ownV ha)]
      exact hh a (hb.ownV ha)
    · rw [merge_out (disj_right hb.dV ha), merge_out (disj_right hb.dV ha)]
      exact hM a (rd hin.1 ha)
  · cases x with
    | eq v e w =>
      have hb : EqB vok aok BV BA v e w := hb
      obtain ⟨hi, hv, -⟩ := hin.assigned (x := .eq v e w) rfl rfl
      refine Expr.Cached.congr e (Expr.Cached.congr_store e hb.wf hc fun a ha => hM a (rd hi ha)) fun a ha => ?_
      have hroot : e.valRoot ⊆ rng v.val v.size := by
        rcases hb.root with h | h
        · rw [h.1]; exact Set.empty_subset _
        · exact h.2.2.2.1
      rcases ha with ha | ha
      · rcases ha with ha | ha
        · rw [merge_in (hb.inV ha), merge_in (hb.inV ha)]
          exact hh a (hb.inV ha)
        · have := disj_right hb.dV (Or.inr (hroot ha))
          rw [merge_out this, merge_out this]
          obtain ⟨k, hk, rfl⟩ := mem_rng_iff.1 (hroot ha)
          rw [assign_add hk, assign_add hk]
          exact denote_congr e hb.wf (fun a ha => hM a (rd hi ha)) k (by simpa [Expr.size, hb.shape, View.size] using hk)
      · have := disj_right hb.dV (Or.inl ha)
        rw [merge_out this, merge_out this, assign_off (disj_right hb.dvr ha), assign_off (disj_right hb.dvr ha)]
        exact hM a (rd hi ha)
    | opEq op v e w c =>
      have hb : OpB vok aok BV BA v e w c := hb
      obtain ⟨hi, hv, -⟩ := hin.assigned (x := .opEq op v e w c) rfl rfl
      refine ⟨Expr.Cached.congr e (Expr.Cached.congr_store e hb.pure.wf hc.1 fun a ha => hM a (rd hi ha)) fun a ha => ?_, fun k hk => ?_⟩
      · rcases ha with ha | ha
        · rw [merge_in (hb.pure.ownV ha), merge_in (hb.pure.ownV ha)]
          exact hh a (hb.pure.ownV ha)
        · rw [merge_out (disj_right hb.pure.dV ha), merge_out (disj_right hb.pure.dV ha)]
          exact hM a (rd hi ha)
      · rw [hh _ (hb.cV (add_mem_rng (by rw [View.size, hb.cshape]; exact hk))), hM _ (hv k hk)]
        exact hc.2 k hk
    | _ => simp [Expr.isStmt] at hs

theorem PCs_store {L' L : List (Expr ℝ)} (hsame : SameL L' L) (hwf : ∀ x ∈ L, x.WFStmt) (hin : ∀ x ∈ L, x.In UV UA) (hb : ∀ x ∈ L', StmtB vok aok BV BA x) {M M' h h' : ℕ → ℝ}
    (hM : ∀ a ∈ UV, M' a = M a) (hh : ∀ a ∈ BV, h' a = h a) (hc : PCs BV L' M h) : PCs BV L' M' h' := by
  induction hsame generalizing M M' with
  | nil => trivial
  | @cons x' x _ _ h1 _ ih =>
    have hx := hin x (by simp)
    have hin' : x'.In UV UA := by
      refine ⟨fun a ha => hx.1 a ?_, fun a ha => hx.2 a ?_⟩
      · simpa only [Expr.valCells, Expr.constCells, vars_of_strip h1.2, cviews_of_strip h1.2] using ha
      · simpa only [Expr.adjCells, vars_of_strip h1.2] using ha
    refine ⟨PC_store (hb x' (by simp)) hin' hM hh hc.1, ih (fun y hy => hwf y (by simp [hy])) (fun y hy => hin y (by simp [hy])) (fun y hy => hb y (by simp [hy])) ?_ hc.2⟩
    rw [exec_of_strip h1, exec_of_strip h1]
    exact exec_on (hwf x (by simp)) hx hM

/-- what can be done with a bound expression or program -/
structure BoundOk (e b : Expr ℝ) (BV BA : Set ℕ) (vok aok : ℕ → Bool) : Prop where
  size : b.size = e.size
  evaluate : ∀ s : St ℝ, s.vok = vok → s.aok = aok → ∃ s' r, FastAD.evaluate b s = some (s', r) ∧ s'.vok = vok ∧ s'.aok = aok ∧ s'.adj = s.adj ∧
    (∀ a, a ∉ BV → s'.val a = execL e.flat s.val a) ∧ r.read s' e.size = some (trunc e.size (e.result s.val)) ∧ PCs BV b.flat s.val s'.val
  autodiff : ∀ (s : St ℝ) (seed : ℕ → ℝ), s.vok = vok → s.aok = aok → ∃ s' r, FastAD.autodiff b seed s = some (s', r) ∧ s'.vok = vok ∧ s'.aok = aok ∧
    (∀ a, a ∉ BA → s'.adj a = backL e.flat s.val seed s.adj a) ∧
    (∀ a, a ∉ BV → s'.val a = restL e.flat s.val a) ∧ r.read s' e.size = some (trunc e.size (e.result s.val)) ∧ PCs BV b.flat s.val s'.val
  evaluateAdj : ∀ (s : St ℝ) (M seed : ℕ → ℝ), s.vok = vok → s.aok = aok → PCs BV b.flat M s.val → (∀ a, a ∉ BV → s.val a = execL e.flat M a) →
    ∃ s', FastAD.evaluateAdj b seed s = some s' ∧ s'.vok = vok ∧ s'.aok = aok ∧ (∀ a, a ∉ BA → s'.adj a = backL e.flat M seed s.adj a) ∧
    (∀ a, a ∉ BV → s'.val a = restL e.flat M a) ∧ ∀ a ∈ BV, s'.val a = s.val a
  keep : ∀ M M' h h' : ℕ → ℝ, (∀ a ∈ e.valCells ∪ e.constCells, M' a = M a) → (∀ a ∈ BV, h' a = h a) → PCs BV b.flat M h → PCs BV b.flat M' h'

theorem Expr.WF.notStmt {e : Expr ℝ} (h : e.WF) : e.isStmt = false := by
  cases e <;> first | rfl | exact h.elim

theorem Expr.WF.back {e : Expr ℝ} (h : e.WF) (m seed A : ℕ → ℝ) (a : ℕ) : backL e.flat m seed A a = A a + e.grad m seed a := by
  rw [h.flat]
  cases e <;> first | rfl | exact h.elim

theorem Expr.WF.rest {e : Expr ℝ} (h : e.WF) (m : ℕ → ℝ) : restL e.flat m = m := by
  rw [h.flat]
  cases e <;> first | rfl | exact h.elim

theorem Expr.WF.execL {e : Expr ℝ} (h : e.WF) (m : ℕ → ℝ) : execL e.flat m = m := by
  rw [h.flat]
  exact h.exec m

theorem Bnd.pcs {e b : Expr ℝ} (h : Bnd e b BV BA vok aok) {M x : ℕ → ℝ} : PCs BV b.flat M x ↔ b.Cached M (merge BV x M) := by
  rw [h.wf.flat]
  simp [PCs, Expr.PC_pure h.wf.notStmt]

theorem Bnd.works {e b : Expr ℝ} (hwf : e.WF) (h : Bnd e b BV BA vok aok) : BoundOk e b BV BA vok aok := by
  have hrd : b.reads = e.reads := Expr.reads_of_strip h.strip
  refine ⟨h.size, fun s h1 h2 => ?_, fun s seed h1 h2 => ?_, fun s M seed h1 h2 hc hm => ?_, fun M M' x x' hM hx hc => ?_⟩
  · subst h1 h2
    obtain ⟨s1, r, he⟩ := h.evaluate (m := s.val) fun _ _ => rfl
    refine ⟨s1, r, he.run, he.vok, he.aok, he.adj, fun a ha => ?_, ?_, h.pcs.2 (Expr.Cached.congr b he.cached fun a ha => ?_)⟩
    · rw [hwf.execL]; exact he.frame a ha
    · rw [hwf.result]; exact he.value s1 rfl rfl
    · rcases ha with ha | ha
      · exact merge_in (h.ownV ha)
      · rw [merge_out (disj_right h.dV ha)]
        exact (he.frame a (disj_right h.dV ha)).symm
  · subst h1 h2
    obtain ⟨s1, r, he⟩ := h.evaluate (m := s.val) fun _ _ => rfl
    obtain ⟨s2, h2⟩ := (show Bnd e b BV BA s1.vok s1.aok by rw [he.vok, he.aok]; exact h).evaluateAdj he.cached seed
    refine ⟨s2, r, ?_, h2.vok.trans he.vok, h2.aok.trans he.aok, fun a ha => ?_, fun a ha => ?_, ?_, h.pcs.2 (Expr.Cached.congr b he.cached fun a ha => ?_)⟩
    · rw [FastAD.autodiff, he.run]
      simp [h2.run]
    · rw [hwf.back, h2.adj a ha, he.adj]
    · rw [hwf.rest, h2.val]; exact he.frame a ha
    · rw [hwf.result]; exact he.value s2 h2.vok h2.val
    · rw [h2.val]
      rcases ha with ha | ha
      · exact merge_in (h.ownV ha)
      · rw [merge_out (disj_right h.dV ha)]
        exact (he.frame a (disj_right h.dV ha)).symm
  · subst h1 h2
    rw [h.pcs] at hc
    have hc' : b.Cached M s.val := Expr.Cached.congr b hc fun a ha => by
      rcases ha with ha | ha
      · exact (merge_in (h.ownV ha)).symm
      · rw [merge_out (disj_right h.dV ha), hm a (disj_right h.dV ha), hwf.execL]
    obtain ⟨s2, h2⟩ := h.evaluateAdj hc' seed
    refine ⟨s2, h2.run, h2.vok, h2.aok, fun a ha => ?_, fun a ha => ?_, fun a _ => by rw [h2.val]⟩
    · rw [hwf.back, h2.adj a ha]
    · rw [hwf.rest, h2.val, hm a ha, hwf.execL]
  · rw [h.pcs] at hc ⊢
    have hr : ∀ a ∈ b.reads, M' a = M a := fun a ha => hM a (Finset.mem_union.2 (reads_cells e a (hrd ▸ ha)))
    refine Expr.Cached.congr b (Expr.Cached.congr_store b h.wf hc hr) fun a ha => ?_
    rcases ha with ha | ha
    · rw [merge_in (h.ownV ha), merge_in (h.ownV ha)]
      exact hx a (h.ownV ha)
    · rw [merge_out (disj_right h.dV ha), merge_out (disj_right h.dV ha)]
      exact hr a ha

theorem ProgB.works {p b : Expr ℝ} (hp : p.Program) (hst : p.Stable) (h : ProgB p b BV BA vok aok) (hal : p.Alive vok aok) : BoundOk p b BV BA vok aok := by
  have hsz : b.size = p.size := by rw [Expr.size, h.shape, Expr.size]
  have hw : p.Within ↑(p.valCells ∪ p.constCells) ↑p.adjCells vok aok := ⟨hal, fun a ha => ha, fun a ha => ha⟩
  obtain ⟨g1, g2⟩ := flat_in hp hw
  refine ⟨hsz, fun s h1 h2 => ?_, fun s seed h1 h2 => ?_, fun s M seed h1 h2 hc hm => ?_, fun M M' x x' hM hx hc => PCs_store h.same g1 g2 h.seq.stmt hM hx hc⟩
  · subst h1 h2
    obtain ⟨s1, r, he⟩ := h.evaluate (m := s.val) (fun _ _ => rfl) hp.shapeOk
    exact ⟨s1, r, he.run, he.vok, he.aok, he.adj, fun a ha => by rw [he.store a ha, exec_tree], he.value, he.cached⟩
  · subst h1 h2
    obtain ⟨s1, r, he⟩ := h.evaluate (m := s.val) (fun _ _ => rfl) hp.shapeOk
    obtain ⟨s2, h2⟩ := backL_ok b.flat s.val seed s1 (by rw [he.vok, he.aok]; exact h.seq) he.cached
      (fun a ha => by rw [he.store a ha, h.same.exec, exec_tree]) (h.same.after h.order)
    obtain ⟨s3, r', ha⟩ := h.autodiff (m := s.val) (fun _ _ => rfl) hp.shapeOk seed hp.order
    have hrun : FastAD.autodiff b seed s = some (s2, r) := by
      rw [FastAD.autodiff, he.run]
      simp [FastAD.evaluateAdj, beval_tree b h.tree, h2.run]
    obtain ⟨rfl, rfl⟩ : s3 = s2 ∧ r' = r := by simpa using ha.run.symm.trans hrun
    refine ⟨s3, r', ha.run, ha.vok, ha.aok, ha.adj, ha.val, ha.value hst, PCs_store h.same g1 g2 h.seq.stmt (fun _ _ => rfl) h2.frame he.cached⟩
  · subst h1 h2
    obtain ⟨s2, h2⟩ := backL_ok b.flat M seed s h.seq hc (fun a ha => by rw [hm a ha, h.same.exec]) (h.same.after h.order)
    exact ⟨s2, by simp [FastAD.evaluateAdj, beval_tree b h.tree, h2.run], h2.vok, h2.aok, fun a ha => by rw [h2.adj a ha, h.same.back], fun a ha => by rw [h2.val a ha, h.same.rest], h2.frame⟩

/-! ### Expressions and programs alike -/

/-- the adjoints after differentiating an expression or program at inputs `m`, by label, `A` being the adjoints before -/
noncomputable def Expr.backward (p : Expr ℝ) (m seed A : ℕ → ℝ) (a : ℕ) : ℝ := backL p.flat m seed A a

theorem flat_own {p : Expr ℝ} (hp : p.Program) : (∀ x ∈ p.flat, x.WFStmt) ∧ ∀ x ∈ p.flat, x.In ↑(p.valCells ∪ p.constCells) ↑p.adjCells := by
  obtain ⟨f1, -, -⟩ := flat_spec p hp.tree
  refine ⟨fun x hx => (f1 x hx).1, fun x hx => ⟨fun a ha => ?_, fun a ha => ?_⟩⟩
  · rcases Finset.mem_union.1 ha with ha | ha
    · obtain ⟨u, hu, ha⟩ := mem_valCells.1 ha
      exact Finset.mem_union.2 (Or.inl (mem_valCells.2 ⟨u, (f1 x hx).2.1 u hu, ha⟩))
    · obtain ⟨u, hu, ha⟩ := mem_constCells.1 ha
      exact Finset.mem_union.2 (Or.inr (mem_constCells.2 ⟨u, (f1 x hx).2.2 u hu, ha⟩))
  · obtain ⟨u, hu, ha⟩ := mem_adjCells.1 ha
    exact mem_adjCells.2 ⟨u, (f1 x hx).2.1 u hu, ha⟩

theorem execL_on {UV UA : Set ℕ} : ∀ {L : List (Expr ℝ)} {m m' : ℕ → ℝ}, (∀ x ∈ L, x.WFStmt) → (∀ x ∈ L, x.In UV UA) → (∀ a ∈ UV, m a = m' a) →
    ∀ a ∈ UV, execL L m a = execL L m' a
  | [], _, _, _, _, h => h
  | x :: xs, m, m', hx, hin, h => execL_on (L := xs) (m := x.exec m) (m' := x.exec m') (fun z hz => hx z (by simp [hz])) (fun z hz => hin z (by simp [hz])) (exec_on (hx x (by simp)) (hin x (by simp)) h)

namespace Expr.Bindable

variable {e : Expr ℝ} {m m' : ℕ → ℝ}

theorem execOn (h : e.Bindable) (hm : ∀ a ∈ e.valCells ∪ e.constCells, m a = m' a) : ∀ a ∈ e.valCells ∪ e.constCells, execL e.flat m a = execL e.flat m' a := by
  rcases h with h | ⟨h, -⟩
  · rw [h.execL, h.execL]; exact hm
  · exact execL_on (UV := ↑(e.valCells ∪ e.constCells)) (flat_own h).1 (flat_own h).2 hm

theorem restOn (h : e.Bindable) (hm : ∀ a ∈ e.valCells ∪ e.constCells, m a = m' a) : ∀ a ∈ e.valCells ∪ e.constCells, restL e.flat m a = restL e.flat m' a := by
  rcases h with h | ⟨h, -⟩
  · rw [h.rest, h.rest]; exact hm
  · exact restL_on (UV := ↑(e.valCells ∪ e.constCells)) (flat_own h).1 (flat_own h).2 hm

theorem backOn (h : e.Bindable) (hm : ∀ a ∈ e.valCells ∪ e.constCells, m a = m' a) (seed : ℕ → ℝ) {A A' : ℕ → ℝ} (hA : ∀ a ∈ e.adjCells, A a = A' a) :
    ∀ a ∈ e.adjCells, backL e.flat m seed A a = e.backward m' seed A' a := by
  rcases h with h | ⟨h, -⟩
  · intro a ha
    rw [Expr.backward, h.back, h.back, hA a ha, grad_store_congr h fun a ha => (hm a ha)]
  · exact backL_on (UA := ↑e.adjCells) (flat_own h).1 (flat_own h).2 hm seed hA

theorem resultOn (h : e.Bindable) (hm : ∀ a ∈ e.valCells ∪ e.constCells, m a = m' a) : ∀ k < e.size, e.result m k = e.result m' k := by
  rcases h with h | ⟨h, -⟩
  · rw [h.result, h.result]
    exact denote_congr e h fun a ha => hm a (Finset.mem_union.2 (reads_cells e a ha))
  · exact result_congr h fun a ha => hm a (Finset.mem_sdiff.1 ha).1

theorem execOff (h : e.Bindable) {a : ℕ} (ha : a ∉ e.valCells) : execL e.flat m a = m a := by
  rcases h with h | ⟨h, -⟩
  · rw [h.execL]
  · exact execL_off (flat_own h).1 fun x hx hc => ha (targetCells_sub h.tree (mem_targetCells.2 ⟨x, hx, hc⟩))

theorem restOff (h : e.Bindable) {a : ℕ} (ha : a ∉ e.valCells) : restL e.flat m a = m a := by
  rcases h with h | ⟨h, -⟩
  · rw [h.rest]
  · refine prog_restore h fun hc => ?_
    obtain ⟨x, hx, hc⟩ := mem_placeCells.1 hc
    refine ha (targetCells_sub h.tree (mem_targetCells.2 ⟨x, hx, ?_⟩))
    cases x <;> first | exact hc | exact hc.elim

theorem backOff (h : e.Bindable) {seed A : ℕ → ℝ} {a : ℕ} (ha : a ∉ e.adjCells) : backL e.flat m seed A a = A a := by
  rcases h with h | ⟨h, -⟩
  · rw [h.back, grad_support _ _ _ _ fun hr => ha (readsA_cells e a hr), add_zero]
  · refine backL_off (flat_own h).1 fun x hx hc => ha ((flat_own h).2 x hx |>.2 a hc)

/-- what differentiation leaves behind -/
theorem leftover (h : e.Bindable) (a : ℕ) : restL e.flat m a = e.leftover m a := by
  unfold Expr.leftover
  cases hj : e.flat.findIdx? fun x => decide (a ∈ x.placeCells) with
  | none =>
    have hn : ∀ x ∈ e.flat, a ∉ x.placeCells := fun x hx => by
      have := List.findIdx?_eq_none_iff.1 hj x hx
      simpa using this
    rcases h with h | ⟨h, -⟩
    · rw [h.rest]
    · refine prog_restore h fun hc => ?_
      obtain ⟨x, hx, hc⟩ := mem_placeCells.1 hc
      refine hn x hx (mem_placeCells.2 ⟨x, ?_, hc⟩)
      cases x <;> first | exact hc.elim | exact List.mem_singleton.2 rfl
  | some j =>
    obtain ⟨hlt, hm, -⟩ := List.findIdx?_eq_some_iff_getElem.1 hj
    have hm : a ∈ e.flat[j].placeCells := by simpa using hm
    have hsplit : e.flat = e.flat.take j ++ e.flat[j] :: e.flat.drop (j + 1) := by
      rw [List.getElem_cons_drop hlt, List.take_append_drop]
    have htake : e.flat.take (j + 1) = e.flat.take j ++ [e.flat[j]] := (List.take_append_getElem hlt).symm
    rcases h with h | ⟨h, -⟩
    · have : j = 0 := by
        rw [h.flat] at hlt
        simpa using hlt
      subst this
      exfalso
      simp only [h.flat] at hm
      obtain ⟨x, hx, hc⟩ := mem_placeCells.1 (show a ∈ e.placeCells from hm)
      rw [h.flat] at hx
      obtain rfl := List.mem_singleton.1 hx
      cases x <;> first | exact hc | exact h
    · obtain ⟨x, hx, hc⟩ := mem_placeCells.1 hm
      have hw := (flat_own h).1 _ (List.getElem_mem hlt)
      show restL e.flat m a = execL (e.flat.take (j + 1)) m a
      rw [htake]
      generalize hy : e.flat[j] = y at *
      cases y with
      | eq v r w =>
        obtain rfl := List.mem_singleton.1 hx
        obtain ⟨k, hk, rfl⟩ := mem_rng_iff.1 hc
        rw [prog_placeholder h hsplit hk, execL_append]
        exact (assign_add hk).symm
      | glue => exact hw.elim
      | forEach => exact hw.elim
      | _ =>
        obtain rfl := List.mem_singleton.1 hx
        exact hc.elim

/-- the change of the adjoints is the gradient -/
theorem hasPartial [LawfulLinAlg] (h : e.Bindable) {π : ℕ → ℕ} (hπ : e.Paired π) (hinj : Set.InjOn π e.adjCells) (hc : ∀ a ∈ e.adjCells, π a ∉ e.constCells) {a : ℕ}
    (ha : a ∈ e.adjCells) (hpl : π a ∉ e.placeCells) (hreg : RegSeq e.flat (fun t => Function.update m (π a) t) (m (π a))) (seed A : ℕ → ℝ) (hA : ∀ a ∈ e.targetAdj, A a = 0) :
    HasDerivAt (fun t => ∑ k ∈ Finset.range e.size, seed k * e.result (Function.update m (π a) t) k) (e.backward m seed A a - A a) (m (π a)) := by
  rcases h with h | ⟨h, -⟩
  · have hr : e.Reg (fun t => Function.update m (π a) t) (m (π a)) := by
      rw [h.flat] at hreg
      cases e <;> first | exact hreg.1 | exact h.elim
    have := grad_partial h hπ hinj hc ha hr seed
    simp only [Expr.backward, h.back, h.result, add_sub_cancel_left]
    exact this
  · refine prog_partial h ⟨hπ, hinj, fun c hcc hct => ?_⟩ ha (hc a ha) hpl hreg seed A hA
    obtain ⟨v, hv, hr⟩ := mem_valCells.1 (targetCells_sub h.tree hct)
    obtain ⟨k, hk, rfl⟩ := mem_rng_iff.1 hr
    have hm : addr v.adj + k ∈ e.adjCells := mem_adjCells.2 ⟨v, hv, add_mem_rng hk⟩
    refine hc _ hm ?_
    rw [hπ v hv k hk]
    exact hcc

end Expr.Bindable

end

end FastAD
