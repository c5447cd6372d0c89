import Verif.Proof.Local
import Verif.Proof.Storage
import Verif.Spec.Interleave

/-!
# Calls on several bound programs
-/

namespace FastAD

variable {α : Type} [Zero α] [One α] [Add α] [Sub α] [Neg α] [Mul α] [Div α] [NatCast α] [IntCast α]
variable [Fn α] [HasInf α] [LinAlg α]
set_option linter.unusedSectionVars false

/-- a call stays in the footprint of its program -/
theorem EvalB.act {p b : Expr α} {BV BA : Set ℕ} {s : St α} (h : EvalB p b BV BA s.vok s.aok) (hd : Disjoint p.seen BV) (hok : p.shape.Ok) (c : Act α) :
    RunsIn (BV ∪ p.seen) (BV ∪ tgts p.flat) (BA ∪ ↑p.adjCells) Any s (c.run b) := by
  have rd : ∀ {r : Ref α} {s s' : St α}, (∃ x, r.read s b.size = some x) → s'.vok = s.vok → ∃ x, r.read s' b.size = some x := by
    intro r s s' hx hv
    cases r with
    | lit => exact ⟨_, rfl⟩
    | ptr q =>
      obtain ⟨x, hx⟩ := hx
      exact readCells_def (hv ▸ (accessible_of_read hx).1)
  cases c with
  | evaluate =>
    have : (Act.evaluate : Act α).run b = fun s => (FastAD.evaluate b s).bind fun x => (x.2.read x.1 b.size).bind fun v => some (x.1, some v) := by
      funext s; rfl
    rw [this]
    refine (h.runs hd hok).bind (fun r hr => ?_) fun s' r hs hf hr => ?_
    · exact Loc.read (Rd.ref hr.1) fun x => Loc.ret trivial
    · obtain ⟨x, hx⟩ := rd hr.2 hf.ok.1
      exact ⟨_, by simp only [hx, Option.bind_some]; rfl⟩
  | evaluateAdj g =>
    have : (Act.evaluateAdj g : Act α).run b = fun s => (evaluateAdj b g s).bind fun s => some (s, none) := by
      funext s; rfl
    rw [this]
    obtain ⟨s', hs, -⟩ := h.beval_def g
    exact Loc.runs (Loc.bindS (h.back_runs g) (Loc.ret trivial)) ⟨_, by simp only [evaluateAdj, hs, Option.bind_some]; rfl⟩
  | autodiff g =>
    have : (Act.autodiff g : Act α).run b = fun s => (FastAD.evaluate b s).bind fun x => (evaluateAdj b g x.1).bind fun s => (x.2.read s b.size).bind fun v => some (s, some v) := by
      funext s
      simp only [Act.run, autodiff, Option.bind_eq_bind, Option.bind_assoc, Option.bind_some]
    rw [this]
    refine (h.runs hd hok).bind (fun r hr => ?_) fun s' r hs hf hr => ?_
    · exact Loc.bindS (h.back_runs g) (Loc.read (Rd.ref hr.1) fun x => Loc.ret trivial)
    · have h' : EvalB p b BV BA s'.vok s'.aok := by rw [hf.ok.1, hf.ok.2]; exact h
      obtain ⟨s2, h2, k2⟩ := h'.beval_def g
      obtain ⟨x, hx⟩ := rd hr.2 (k2.ok.1.trans hf.ok.1)
      exact ⟨_, by simp only [evaluateAdj, h2, hx, Option.bind_some]; rfl⟩

/-- calls of programs with footprints that do not meet -/
theorem acts_runs {ι : Type} [DecidableEq ι] {b : ι → Expr α} {RV WV FA : ι → Set ℕ} {S : St α}
    (hrun : ∀ i (s : St α), s.vok = S.vok → s.aok = S.aok → ∀ c : Act α, RunsIn (RV i) (WV i) (FA i) Any s (c.run (b i)))
    (hV : ∀ i j, i ≠ j → ∀ a ∈ WV i, a ∉ RV j) (hA : ∀ i j, i ≠ j → ∀ a ∈ FA i, a ∉ FA j) (cs : List (ι × Act α)) :
    ∀ (s : St α) (t : ι → St α), s.vok = S.vok → s.aok = S.aok → (∀ i, Agree (RV i) (FA i) s (t i)) →
      ∃ s' R, runActs b cs s = some (s', R) ∧ s'.vok = s.vok ∧ s'.aok = s.aok ∧
        (∀ a, (∀ i, a ∉ WV i) → s'.val a = s.val a) ∧ (∀ a, (∀ i, a ∉ FA i) → s'.adj a = s.adj a) ∧
        ∀ i, ∃ t', runActs b (only i cs) (t i) = some (t', only i R) ∧ Agree (RV i) (FA i) s' t' := by
  induction cs with
  | nil => intro s t _ _ h; exact ⟨s, [], rfl, rfl, rfl, fun _ _ => rfl, fun _ _ => rfl, fun i => ⟨t i, rfl, h i⟩⟩
  | cons c cs ih =>
    obtain ⟨j, c⟩ := c
    intro s t hv ha h
    obtain ⟨⟨s1, x⟩, h1, h2, -, h3⟩ := hrun j s hv ha c
    obtain ⟨⟨u, y⟩, h4, h5, h6⟩ := h3 (t j) (h j)
    obtain rfl : x = y := h6
    have h2 : Fr (WV j) (FA j) s s1 := h2
    have hagree : ∀ i, Agree (RV i) (FA i) s1 (Function.update t j u i) := by
      intro i
      by_cases hij : i = j
      · subst hij
        rw [Function.update_self]
        exact h5
      · rw [Function.update_of_ne hij]
        exact ⟨fun a ha => (h2.val a fun h' => hV j i (Ne.symm hij) a h' ha).trans ((h i).val a ha),
          fun a ha => (h2.adj a fun h' => hA j i (Ne.symm hij) a h' ha).trans ((h i).adj a ha), h2.ok.1.trans (h i).vok, h2.ok.2.trans (h i).aok⟩
    obtain ⟨s', R, k1, k2, k3, k4, k5, k6⟩ := ih s1 (Function.update t j u) (h2.ok.1.trans hv) (h2.ok.2.trans ha) hagree
    refine ⟨s', (j, x) :: R, by simp only [runActs, h1, k1, Option.bind_eq_bind, Option.bind_some], k2.trans h2.ok.1, k3.trans h2.ok.2,
      fun a hn => (k4 a hn).trans (h2.val a (hn j)), fun a hn => (k5 a hn).trans (h2.adj a (hn j)), fun i => ?_⟩
    obtain ⟨t', k7, k8⟩ := k6 i
    refine ⟨t', ?_, k8⟩
    by_cases hij : i = j
    · subst hij
      rw [Function.update_self] at k7
      have e1 : only i ((i, c) :: cs) = (i, c) :: only i cs := by simp [only]
      have e2 : only i ((i, x) :: R) = (i, x) :: only i R := by simp [only]
      rw [e1, e2]
      simp only [runActs, h4, k7, Option.bind_eq_bind, Option.bind_some]
    · rw [Function.update_of_ne hij] at k7
      have e1 : only i ((j, c) :: cs) = only i cs := by simp [only, Ne.symm hij]
      have e2 : only i ((j, x) :: R) = only i R := by simp [only, Ne.symm hij]
      rw [e1, e2, k7]

theorem room_block {p : Expr α} {b : Pack} {UV UA : Set ℕ} {vok aok : ℕ → Bool} (hw : p.Within UV UA vok aok) (hr : p.Room b UV UA vok aok) :
    Disjoint p.seen (rng b.val p.bindSize.val) := by
  refine Set.disjoint_left.2 fun a ha hb => ?_
  obtain ⟨k, hk, rfl⟩ := mem_rng_iff.1 hb
  exact hr.offV k hk (hw.val _ (Finset.mem_coe.1 ha))

theorem target_seen {p : Expr α} (ht : p.WFTree) {a : ℕ} (ha : a ∈ p.targetCells) : a ∈ p.valCells ∪ p.constCells := by
  refine Finset.mem_coe.1 (tgts_seen ht ?_)
  simp only [Expr.targetCells, List.mem_toFinset, List.mem_flatMap, List.mem_filterMap, mem_cells] at ha
  obtain ⟨v, ⟨x, hx, h⟩, ha⟩ := ha
  refine ⟨x, hx, ?_⟩
  cases x <;> simp only [Expr.target, Option.some.injEq, reduceCtorEq] at h
  · subst h; exact ha
  · subst h; exact ha

end FastAD
