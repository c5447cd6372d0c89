import Verif.Spec.Loop
import Verif.Proof.Agree

/-!
# Loops over data
-/

namespace FastAD

variable [HasInf ℝ] [LinAlg ℝ]
set_option linter.unusedSectionVars false

theorem store_spec (row : List (ℕ × ℝ)) : ∀ {s : St ℝ}, (∀ w ∈ row, s.vok w.1 = true) → s.store row = some { s with val := overlay s.val row } := by
  induction row with
  | nil => intro s _; rfl
  | cons w row ih =>
    intro s h
    obtain ⟨a, x⟩ := w
    have hacc : accessible s.vok (some a) 1 := by
      intro k hk
      obtain rfl : k = 0 := by omega
      exact h (a, x) (by simp)
    simp only [St.store, writeV_eq hacc, Option.bind_eq_bind, Option.bind_some]
    rw [ih (s := { s with val := fillRange s.val (addr (some a)) 1 fun _ => x }) fun w hw => h w (by simp [hw])]
    congr 2
    simp only [overlay, List.foldl_cons]
    congr 1
    ext c
    simp only [fillRange, addr_some, Function.update_apply]
    exact if_congr ⟨fun h => by omega, fun h => by omega⟩ rfl rfl

theorem resetAdj_spec (l : List ℕ) : ∀ {s : St ℝ}, (∀ a ∈ l, s.aok a = true) →
    s.resetAdj l = some { s with adj := fun a => if a ∈ l then 0 else s.adj a } := by
  induction l with
  | nil => intro s _; simp [St.resetAdj]
  | cons b l ih =>
    intro s h
    have hacc : accessible s.aok (some b) 1 := by
      intro k hk
      obtain rfl : k = 0 := by omega
      exact h b (by simp)
    simp only [St.resetAdj, writeA_eq hacc, Option.bind_eq_bind, Option.bind_some]
    rw [ih (s := { s with adj := fillRange s.adj (addr (some b)) 1 fun _ => 0 }) fun w hw => h w (by simp [hw])]
    congr 2
    ext c
    simp only [fillRange, addr_some, List.mem_cons]
    by_cases hc : c ∈ l
    · simp [hc]
    · simp only [hc, if_false, or_false]
      exact if_congr ⟨fun h => by omega, fun h => by omega⟩ rfl rfl

theorem overlay_apply_of_notMem {row : List (ℕ × ℝ)} : ∀ {m : ℕ → ℝ} {c : ℕ}, (∀ w ∈ row, w.1 ≠ c) → overlay m row c = m c := by
  induction row with
  | nil => intros; rfl
  | cons w row ih =>
    intro m c h
    show overlay (Function.update m w.1 w.2) row c = m c
    rw [ih fun w' hw => h w' (by simp [hw])]
    exact Function.update_of_ne (h w (by simp)).symm _ _

theorem foldl_overlay {rows : List (List (ℕ × ℝ))} : ∀ {m : ℕ → ℝ} {c : ℕ}, (∀ row ∈ rows, ∀ w ∈ row, w.1 ≠ c) → rows.foldl overlay m c = m c := by
  induction rows with
  | nil => intros; rfl
  | cons row rows ih =>
    intro m c h
    rw [List.foldl_cons, ih fun r hr => h r (by simp [hr]), overlay_apply_of_notMem (h row (by simp))]

theorem overlay_congr {row : List (ℕ × ℝ)} : ∀ {m m' : ℕ → ℝ} {c : ℕ}, m c = m' c → overlay m row c = overlay m' row c := by
  induction row with
  | nil => intro m m' c h; exact h
  | cons w row ih =>
    intro m m' c h
    refine ih ?_
    simp only [Function.update_apply]
    split <;> [rfl; exact h]

theorem overlay_update {row : List (ℕ × ℝ)} : ∀ {m : ℕ → ℝ} {c : ℕ} {t : ℝ}, (∀ w ∈ row, w.1 ≠ c) →
    overlay (Function.update m c t) row = Function.update (overlay m row) c t := by
  induction row with
  | nil => intros; rfl
  | cons w row ih =>
    intro m c t h
    show overlay (Function.update (Function.update m c t) w.1 w.2) row = _
    rw [Function.update_comm (h w (by simp)).symm, ih fun w' hw => h w' (by simp [hw])]
    rfl

theorem rowStores_update {rows : List (List (ℕ × ℝ))} : ∀ {m : ℕ → ℝ} {c : ℕ} {t : ℝ}, (∀ row ∈ rows, ∀ w ∈ row, w.1 ≠ c) →
    rowStores (Function.update m c t) rows = (rowStores m rows).map fun m => Function.update m c t := by
  induction rows with
  | nil => intros; rfl
  | cons row rows ih =>
    intro m c t h
    simp only [rowStores, List.map_cons]
    rw [overlay_update (h row (by simp)), ih fun r hr => h r (by simp [hr])]

theorem read_one {r : Ref ℝ} {s : St ℝ} {n : ℕ} (hn : 0 < n) {f : ℕ → ℝ} (h : r.read s n = some (trunc n f)) : r.read s 1 = some (trunc 1 f) := by
  cases r with
  | lit g =>
    simp only [Ref.read, Option.some.injEq] at h ⊢
    have := congrFun h 0
    simp only [trunc, hn, if_true] at this
    exact trunc_congr fun k hk => by obtain rfl : k = 0 := by omega
                                     exact this
  | ptr p =>
    simp only [Ref.read, readCells] at h ⊢
    split at h
    · rename_i hacc
      have hacc' : accessible s.vok p 1 := by
        cases p with
        | none => simp only [accessible] at hacc; omega
        | some q => exact fun k hk => hacc k (by omega)
      rw [if_pos hacc']
      have := congrFun (Option.some.inj h) 0
      simp only [trunc, hn, if_true] at this
      exact congrArg some (trunc_congr fun k hk => by obtain rfl : k = 0 := by omega
                                                      exact this)
    · cases h

section
variable {p : Expr ℝ} {s : St ℝ} {qv qa : ℕ} {jv ja : ℕ → ℝ}

theorem constCells_alive {p : Expr ℝ} {vok aok : ℕ → Bool} (h : p.Alive vok aok) (a : ℕ) (ha : a ∈ p.constCells) : vok a = true := by
  obtain ⟨w, hw, h1⟩ := mem_constCells.1 ha
  obtain ⟨k, hk, rfl⟩ := mem_rng_iff.1 h1
  have hacc := h.2 w hw
  cases hq : w.2 with
  | none => rw [hq] at hacc; simp only [accessible] at hacc; omega
  | some q => rw [hq] at hacc; exact hacc k hk

/-- What the data loop does, seen from the exact stores `m`. -/
structure LoopOk (p : Expr ℝ) (s s1 s' : St ℝ) (m : ℕ → ℝ) (seed : ℕ → ℝ) (resets : List ℕ) (rows : List (List (ℕ × ℝ))) : Prop where
  later : Later s1 s'
  vok : s'.vok = s1.vok
  aok : s'.aok = s1.aok
  val : ∀ c, s.vok c = true → c ∉ p.placeCells → s'.val c = rows.foldl overlay m c
  adj : ∀ π, p.Paired π → Set.InjOn π p.adjCells → (∀ c ∈ p.constCells, c ∉ p.targetCells) → (∀ a ∈ p.targetAdj, a ∈ resets) →
    ∀ a ∈ p.adjCells, π a ∉ p.constCells → π a ∉ p.placeCells → a ∉ resets → (∀ row ∈ rows, ∀ w ∈ row, w.1 ≠ π a) →
    (∀ m' ∈ rowStores m rows, RegSeq p.flat (fun t => Function.update m' (π a) t) (m' (π a))) →
    HasDerivAt (fun t => total (fun m' => ∑ k ∈ Finset.range p.size, seed k * p.result m' k) (Function.update m (π a) t) rows)
      (s'.adj a - s1.adj a) (m (π a))

theorem dataLoop_spec [LawfulLinAlg] (hp : p.Program) (hal : p.Alive s.vok s.aok) (hf : Fresh s p.bindSize qv qa) (hst : p.Stable) (hsz : 0 < p.size)
    (seed : ℕ → ℝ) (resets : List ℕ) (hres : ∀ a ∈ resets, s.aok a = true) (rows : List (List (ℕ × ℝ))) :
    ∀ {s1 : St ℝ} {m : ℕ → ℝ} (loss : ℝ), Later (bindExpr p qv qa jv ja s).2 s1 → (∀ row ∈ rows, ∀ w ∈ row, s.vok w.1 = true) →
      (∀ c, s.vok c = true → c ∉ p.placeCells → s1.val c = m c) →
      ∃ s', dataLoop (bindExpr p qv qa jv ja s).1 seed resets rows loss s1 = some (s', loss + total (fun m' => p.result m' 0) m rows) ∧
        LoopOk p s s1 s' m seed resets rows := by
  induction rows with
  | nil =>
    intro s1 m loss hl _ hag
    refine ⟨s1, by simp [dataLoop, total, rowStores], ⟨fun _ h => h, fun _ h => h⟩, rfl, rfl, hag, ?_⟩
    intro π _ _ _ _ a _ _ _ _ _ _
    simpa [total, rowStores] using hasDerivAt_const (m (π a)) (0 : ℝ)
  | cons row rows ih =>
    intro s1 m loss hl hrow hag
    have hvok : ∀ c, s.vok c = true → s1.vok c = true := fun c hc => hl.1 c (by simp [bindExpr, St.allocate, hc])
    have haok : ∀ c, s.aok c = true → s1.aok c = true := fun c hc => hl.2 c (by simp [bindExpr, St.allocate, hc])
    have h1 := store_spec (s := s1) row fun w hw => hvok _ (hrow row (by simp) w hw)
    have h2 := resetAdj_spec (s := { s1 with val := overlay s1.val row }) resets fun a ha => haok a (hres a ha)
    -- the state before `autodiff`
    let sa : St ℝ := ⟨overlay s1.val row, fun a => if a ∈ resets then 0 else s1.adj a, s1.vok, s1.aok⟩
    have hag2 : ∀ c, s.vok c = true → c ∉ p.placeCells → sa.val c = overlay m row c := fun c hc hcp => overlay_congr (hag c hc hcp)
    have hfree : ∀ c ∈ (p.valCells ∪ p.constCells) \ p.placeCells, sa.val c = overlay m row c := by
      intro c hc
      obtain ⟨hc1, hc2⟩ := Finset.mem_sdiff.1 hc
      exact hag2 c ((Finset.mem_union.1 hc1).elim (valCells_alive hal c) (constCells_alive hal c)) hc2
    obtain ⟨s2, r, h⟩ := later_autodiff (s1 := sa) hp hal hf (jv := jv) (ja := ja) ⟨hl.1, hl.2⟩ seed
    have hread := read_one hsz (h.value hst)
    have hl2 : Later (bindExpr p qv qa jv ja s).2 s2 := ⟨fun a ha => by rw [h.vok]; exact hl.1 a ha, fun a ha => by rw [h.aok]; exact hl.2 a ha⟩
    have hag3 : ∀ c, s.vok c = true → c ∉ p.placeCells → s2.val c = overlay m row c := by
      intro c hc hcp
      rw [h.val c (fresh_block hf.1 hc), prog_restore hp hcp]
      exact hag2 c hc hcp
    obtain ⟨s', hrun, hok⟩ := ih (loss + p.result (overlay m row) 0) hl2 (fun r hr => hrow r (by simp [hr])) hag3
    refine ⟨s', ?_, ?_⟩
    · have hrun0 : autodiff (bindExpr p qv qa jv ja s).1 seed ⟨overlay s1.val row, fun a => if a ∈ resets then 0 else s1.adj a, s1.vok, s1.aok⟩ = some (s2, r) := h.run
      simp only [dataLoop, h1, h2, hrun0, hread, Option.bind_eq_bind, Option.bind_some]
      have : trunc 1 (p.result sa.val) 0 = p.result (overlay m row) 0 := by
        rw [trunc_of_lt Nat.one_pos]
        exact result_congr hp hfree 0 hsz
      rw [this, hrun]
      simp [total, rowStores, add_assoc]
    · refine ⟨⟨fun a ha => ?_, fun a ha => ?_⟩, by rw [hok.vok, h.vok], by rw [hok.aok, h.aok], hok.val, ?_⟩
      · rw [hok.vok, h.vok]; exact ha
      · rw [hok.aok, h.aok]; exact ha
      intro π hpi hinj hct htr a ha hc hpl har hw hreg
      have e1 := hok.adj π hpi hinj hct htr a ha hc hpl har (fun r hr => hw r (by simp [hr])) fun m' hm' => hreg m' (by simp [rowStores, hm'])
      have hsame : overlay m row (π a) = m (π a) := overlay_apply_of_notMem (hw row (by simp))
      -- the current row
      have hπ : π a ∈ p.valCells := by
        obtain ⟨v, hv, hva⟩ := mem_adjCells.1 ha
        obtain ⟨k, hk, rfl⟩ := mem_rng_iff.1 hva
        rw [hpi v hv k hk]
        exact mem_valCells.2 ⟨v, hv, add_mem_rng hk⟩
      have hsa : sa.val (π a) = m (π a) := by
        rw [hfree _ (Finset.mem_sdiff.2 ⟨Finset.mem_union.2 (Or.inl hπ), hpl⟩), hsame]
      have hupd : ∀ t, ∀ c ∈ (p.valCells ∪ p.constCells) \ p.placeCells, Function.update (overlay m row) (π a) t c = Function.update sa.val (π a) t c := by
        intro t c hc
        simp only [Function.update_apply]
        split
        · rfl
        · exact (hfree c hc).symm
      have hreg1 : RegSeq p.flat (fun t => Function.update sa.val (π a) t) (sa.val (π a)) := by
        have := hreg (overlay m row) (by simp [rowStores])
        rw [hsame] at this
        rw [hsa]
        exact reg_program_congr hp hupd this
      have e2 := prog_partial hp ⟨hpi, hinj, hct⟩ ha hc hpl hreg1 seed sa.adj fun b hb => by simp [sa, htr b hb]
      rw [hsa] at e2
      rw [hsame] at e1
      have hadj : s2.adj a = backL p.flat sa.val seed sa.adj a := h.adj a (fresh_block hf.2 (adjCells_alive hal a ha))
      have hsaadj : sa.adj a = s1.adj a := by simp [sa, har]
      rw [← hadj, hsaadj] at e2
      have e3 := e2.add e1
      have hsum : s2.adj a - s1.adj a + (s'.adj a - s2.adj a) = s'.adj a - s1.adj a := by ring
      rw [hsum] at e3
      refine e3.congr_of_eventuallyEq (.of_forall fun t => ?_)
      simp only [total, rowStores, List.map_cons, List.sum_cons, overlay_update (hw row (by simp)), Pi.add_apply]
      congr 1
      exact Finset.sum_congr rfl fun k hk => by rw [result_congr hp (hupd t) k (Finset.mem_range.1 hk)]

theorem epoch_spec [LawfulLinAlg] (hp : p.Program) (hal : p.Alive s.vok s.aok) (hf : Fresh s p.bindSize qv qa) (hst : p.Stable) (hsz : p.size = 1)
    {seed : ℕ → ℝ} (hseed : seed 0 = 1) {resets : List ℕ} (hres : ∀ a ∈ resets, s.aok a = true) {π : ℕ → ℕ} (hl : ProgLeaves p π)
    (htr : ∀ a ∈ p.targetAdj, a ∈ resets) {T : Training ℝ} (hT : T.Fits p π resets) (hrow : ∀ row ∈ T.rows, ∀ w ∈ row, s.vok w.1 = true)
    {s1 : St ℝ} {m : ℕ → ℝ} (hl1 : Later (bindExpr p qv qa jv ja s).2 s1) (hag : ∀ c, s.vok c = true → c ∉ p.placeCells → s1.val c = m c)
    (hreg : T.Regular p m) :
    ∃ s', T.epoch (bindExpr p qv qa jv ja s).1 seed resets s1 = some (s', total (fun m' => p.result m' 0) m T.rows) ∧ Later s1 s' ∧
      ∀ c, s.vok c = true → c ∉ p.placeCells → s'.val c = T.exact (fun m' => p.result m' 0) m c := by
  have hvok : ∀ c, s.vok c = true → s1.vok c = true := fun c hc => hl1.1 c (by simp [bindExpr, St.allocate, hc])
  have haok : ∀ c, s.aok c = true → s1.aok c = true := fun c hc => hl1.2 c (by simp [bindExpr, St.allocate, hc])
  have hpa : accessible s1.aok (some T.pa) T.n := fun i hi => haok _ (adjCells_alive hal _ (hT i hi).1)
  have hpvs : ∀ i < T.n, s.vok (T.pv + i) = true := by
    intro i hi
    obtain ⟨ha, hπ, -⟩ := hT i hi
    rw [← hπ]
    obtain ⟨v, hv, hva⟩ := mem_adjCells.1 ha
    obtain ⟨k, hk, hka⟩ := mem_rng_iff.1 hva
    rw [hka, hl.1 v hv k hk]
    exact valCells_alive hal _ (mem_valCells.2 ⟨v, hv, add_mem_rng hk⟩)
  let sz : St ℝ := { s1 with adj := fillRange s1.adj T.pa T.n fun _ => 0 }
  obtain ⟨s', hrun, hok⟩ := dataLoop_spec (s1 := sz) (m := m) (jv := jv) (ja := ja) hp hal hf hst (by omega) seed resets hres T.rows 0 ⟨hl1.1, hl1.2⟩ hrow hag
  have hpv : accessible s'.vok (some T.pv) T.n := fun i hi => by rw [hok.vok]; exact hvok _ (hpvs i hi)
  have hpa' : accessible s'.aok (some T.pa) T.n := fun i hi => by rw [hok.aok]; exact hpa i hi
  have hθ : ∀ i < T.n, s'.val (T.pv + i) = m (T.pv + i) := by
    intro i hi
    rw [hok.val _ (hpvs i hi) (hT i hi).2.2.2.1]
    exact foldl_overlay (hT i hi).2.2.2.2.2
  have hg : ∀ i < T.n, s'.adj (T.pa + i) = deriv (fun t => total (fun m' => p.result m' 0) (Function.update m (T.pv + i) t) T.rows) (m (T.pv + i)) := by
    intro i hi
    obtain ⟨ha, hπ, hc, hpl, har, hw⟩ := hT i hi
    have h := hok.adj π hl.1 hl.2 hl.3 htr (T.pa + i) ha (hπ ▸ hc) (hπ ▸ hpl) har (hπ ▸ hw) (hπ ▸ hreg i hi)
    rw [hπ] at h
    have hz : sz.adj (T.pa + i) = 0 := by simp [sz, fillRange, hi]
    rw [hz, sub_zero] at h
    simp only [hsz, Finset.sum_range_one, hseed, one_mul] at h
    exact h.deriv.symm
  refine ⟨{ s' with val := fillRange s'.val T.pv T.n (T.update (trunc T.n fun i => m (T.pv + i)) (T.gradient (fun m' => p.result m' 0) m)) }, ?_, ?_, ?_⟩
  · have hrun' : dataLoop (bindExpr p qv qa jv ja s).1 seed resets T.rows 0 { s1 with adj := fillRange s1.adj T.pa T.n fun _ => 0 } = _ := hrun
    have e1 : readCells s'.val s'.vok (some T.pv) T.n = some (trunc T.n fun i => m (T.pv + i)) := by
      rw [readCells, if_pos hpv]
      exact congrArg some (trunc_congr hθ)
    have e2 : s'.readA (some T.pa) T.n = some (T.gradient (fun m' => p.result m' 0) m) := by
      rw [St.readA, readCells, if_pos hpa']
      exact congrArg some (trunc_congr hg)
    simp only [Training.epoch, writeA_eq hpa, hrun', e1, e2, writeV_eq hpv, Option.bind_eq_bind, Option.bind_some, zero_add, addr_some]
  · exact hok.later
  · intro c hc hcp
    simp only [Training.exact, fillRange]
    split
    · rfl
    · exact hok.val c hc hcp

theorem run_spec [LawfulLinAlg] (hp : p.Program) (hal : p.Alive s.vok s.aok) (hf : Fresh s p.bindSize qv qa) (hst : p.Stable) (hsz : p.size = 1)
    {seed : ℕ → ℝ} (hseed : seed 0 = 1) {resets : List ℕ} (hres : ∀ a ∈ resets, s.aok a = true) {π : ℕ → ℕ} (hl : ProgLeaves p π)
    (htr : ∀ a ∈ p.targetAdj, a ∈ resets) {T : Training ℝ} (hT : T.Fits p π resets) (hrow : ∀ row ∈ T.rows, ∀ w ∈ row, s.vok w.1 = true) (k : ℕ) :
    ∀ {s1 : St ℝ} {m : ℕ → ℝ}, Later (bindExpr p qv qa jv ja s).2 s1 → (∀ c, s.vok c = true → c ∉ p.placeCells → s1.val c = m c) →
      (∀ j < k, T.Regular p ((T.exact fun m' => p.result m' 0)^[j] m)) →
      ∃ s', T.run (bindExpr p qv qa jv ja s).1 seed resets k s1 =
          some (s', (List.range k).map fun j => total (fun m' => p.result m' 0) ((T.exact fun m' => p.result m' 0)^[j] m) T.rows) ∧
        ∀ c, s.vok c = true → c ∉ p.placeCells → s'.val c = (T.exact fun m' => p.result m' 0)^[k] m c := by
  induction k with
  | zero => intro s1 m _ hag _; exact ⟨s1, rfl, hag⟩
  | succ k ih =>
    intro s1 m hl1 hag hreg
    obtain ⟨s2, h2, hl2, hag2⟩ := epoch_spec (jv := jv) (ja := ja) hp hal hf hst hsz hseed hres hl htr hT hrow hl1 hag (hreg 0 (by omega))
    obtain ⟨s', h', hag'⟩ := ih (s1 := s2) (m := T.exact (fun m' => p.result m' 0) m) ⟨fun a ha => hl2.1 a (hl1.1 a ha), fun a ha => hl2.2 a (hl1.2 a ha)⟩ hag2
      fun j hj => by have := hreg (j + 1) (by omega); rwa [Function.iterate_succ_apply] at this
    refine ⟨s', ?_, fun c hc hcp => by rw [Function.iterate_succ_apply]; exact hag' c hc hcp⟩
    simp only [Training.run, h2, h', Option.bind_eq_bind, Option.bind_some, List.range_succ_eq_map, List.map_cons, List.map_map, Function.iterate_zero, id]
    rfl

end

end FastAD
