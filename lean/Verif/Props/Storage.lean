import Verif.Proof.Storage
import Verif.Props.Program

/-!
# C44: storage supplied by the user

README.md "Basic Usage": instead of calling `ad::bind`, the user may allocate `bind_cache_size()` cells themselves and call `bind_cache`.
-/

namespace FastAD

variable [HasInf ℝ] [LinAlg ℝ]

/-! ### Sample -/

namespace SampleStore

/-- memory in which the cells 0 to 3 hold the variables of `Sample.p` and all the others belong to buffers of the user -/
noncomputable def s : St ℝ := ⟨fun a => (a : ℝ) + 1, fun a => if a < 4 then 0 else 7, fun _ => true, fun _ => true⟩

/-- `x`, `v` and `w` are in cells 0 to 3 -/
def U : Set ℕ := {a | a < 4}

omit [HasInf ℝ] [LinAlg ℝ] in
theorem within : Sample.p.Within U U s.vok s.aok := by
  refine ⟨alive_mono Sample.p_alive (fun _ _ => rfl) fun _ _ => rfl, ?_, ?_⟩
  · have : Sample.p.valCells ∪ Sample.p.constCells = {0, 1, 2, 3} := by decide
    rw [this]; intro a ha; fin_cases ha <;> simp [U]
  · have : Sample.p.adjCells = {0, 1, 2, 3} := by decide
    rw [this]; intro a ha; fin_cases ha <;> simp [U]

omit [HasInf ℝ] [LinAlg ℝ] in
theorem room (q : ℕ) (hq : 4 ≤ q) : Sample.p.Room ⟨some q, some q⟩ U U s.vok s.aok := by
  refine ⟨fun _ _ => rfl, fun _ _ => rfl, fun k _ h => ?_, fun k _ h => ?_⟩ <;> simp only [U, addr, Set.mem_ofPred_eq, Option.getD_some] at h <;> omega

end SampleStore

omit [HasInf ℝ] [LinAlg ℝ] in
/-- **C44, binding again.** `bind_cache` may be called any number of times: the number of cells asked for does not change, and the last call overrides the earlier
ones completely. -/
theorem C44_rebind {α : Type} (e : Expr α) (bs : List Pack) (b : Pack) :
    (bs.foldl (fun e b => (e.bind b).1) e).bindSize = e.bindSize ∧ (bs.foldl (fun e b => (e.bind b).1) e).bind b = e.bind b :=
  ⟨(bindAll e bs).1, (bindAll e bs).2 b⟩

/-- C44 applied to the sample program moved from cells 10 to cells 20 to cells 30 -/
example : ((((Sample.p.bind ⟨some 10, some 10⟩).1.bind ⟨some 20, some 20⟩).1.bind ⟨some 30, some 30⟩).1 : Expr ℝ) =
    (Sample.p.bind ⟨some 30, some 30⟩).1 := congrArg Prod.fst (C44_rebind Sample.p [⟨some 10, some 10⟩, ⟨some 20, some 20⟩] ⟨some 30, some 30⟩).2

/-- **C44, user storage.** Let `p` be a program and `b` pointers to buffers of at least `bind_cache_size()` accessible cells that do not contain cells of the variables or constant
views of `p`; nothing is assumed about the contents of the buffers, and they may belong to other expressions, too.  After `bind_cache(b)` (and any number of
earlier calls of `bind_cache`), `autodiff` is defined, returns the value of the program, writes values only in the value buffer and in placeholders,
adjoints only in the adjoint buffer and in the adjoints of the variables of `p`, and adds to these the partial derivatives, as in C02. -/
theorem C44_user_storage [LawfulLinAlg] {p : Expr ℝ} {s : St ℝ} {b : Pack} {UV UA : Set ℕ} (hp : p.Program) (hw : p.Within UV UA s.vok s.aok)
    (hr : p.Room b UV UA s.vok s.aok) (bs : List Pack) (seed : ℕ → ℝ) :
    ∃ s' r, autodiff ((bs.foldl (fun e b => (e.bind b).1) p).bind b).1 seed s = some (s', r) ∧
      (p.Stable → r.read s' p.size = some (trunc p.size (p.result s.val))) ∧
      (∀ a, ¬ (addr b.val ≤ a ∧ a < addr b.val + p.bindSize.val) → a ∉ p.placeCells → s'.val a = s.val a) ∧
      (∀ a, ¬ (addr b.adj ≤ a ∧ a < addr b.adj + p.bindSize.adj) → a ∉ p.adjCells → s'.adj a = s.adj a) ∧
      ∀ π, p.Paired π → Set.InjOn π p.adjCells → (∀ c ∈ p.constCells, c ∉ p.targetCells) → (∀ a ∈ p.targetAdj, s.adj a = 0) →
        (∀ u, (∀ c ∈ p.constCells, u c = 0) → (∀ c ∈ p.placeCells, u c = 0) → RegSeq p.flat (shift s.val u) 0 →
          HasDerivAt (fun t => ∑ k ∈ Finset.range p.size, seed k * p.result (shift s.val u t) k)
            (∑ a ∈ p.adjCells, (s'.adj a - s.adj a) * u (π a)) 0) ∧
        (∀ a ∈ p.adjCells, π a ∉ p.constCells → π a ∉ p.placeCells →
          RegSeq p.flat (fun t => Function.update s.val (π a) t) (s.val (π a)) →
          HasDerivAt (fun t => ∑ k ∈ Finset.range p.size, seed k * p.result (Function.update s.val (π a) t) k)
            (s'.adj a - s.adj a) (s.val (π a))) := by
  rw [(bindAll p bs).2 b]
  obtain ⟨s', r, e1, -, -, e4, e5, e6⟩ := storage_step hp hw hr seed
  have key : ∀ a ∈ p.adjCells, s'.adj a = backL p.flat s.val seed s.adj a := fun a ha => e6 a (hr.offRng.2 a (hw.adj a ha))
  have hsz : (p.bind b).1.size = p.size := congrArg Shape.size (Expr.shape_of_strip (bind_strip p b))
  refine ⟨s', r, e1, fun h => hsz ▸ e4 h, fun a ha ha' => ?_, fun a ha ha' => ?_, fun π h1 h2 h3 hz => ⟨fun u hu hu' hreg => ?_, fun a ha hc hpl hreg => ?_⟩⟩
  · rw [e5 a (by simpa only [mem_rng] using ha), prog_restore hp ha']
  · rw [e6 a (by simpa only [mem_rng] using ha)]
    refine backL_off (fun x hx => ((flat_spec p hp.tree).1 x hx).1) fun x hx hc => ha' ?_
    obtain ⟨v, hv, hc⟩ := mem_adjCells.1 hc
    exact mem_adjCells.2 ⟨v, ((flat_spec p hp.tree).1 x hx).2.1 v hv, hc⟩
  · rw [Finset.sum_congr rfl fun a ha => by rw [key a ha]]
    exact prog_directional hp ⟨h1, h2, h3⟩ hu hu' hreg seed s.adj hz
  · rw [key a ha]
    exact prog_partial hp ⟨h1, h2, h3⟩ ha hc hpl hreg seed s.adj hz

/-- C44 applied to `w = x * sin(x), v *= w, sum(v)`, bound to the cells from 10 on (full of the number 7), having been bound to other cells before: the value is
`x sin(x) (v₀ + v₁) = 5 sin(1)` -/
example [LawfulLinAlg] : ∃ s' r, autodiff ((Sample.p.bind ⟨some 5, some 9⟩).1.bind ⟨some 10, some 10⟩).1 1 SampleStore.s = some (s', r) ∧
    r.read s' 1 = some (trunc 1 fun _ => 5 * Real.sin 1) ∧ s'.val 1 = 2 ∧
    HasDerivAt (fun y => ∑ k ∈ Finset.range 1, (1 : ℕ → ℝ) k * Sample.p.result (Function.update SampleStore.s.val 0 y) k) (s'.adj 0 - SampleStore.s.adj 0)
      (SampleStore.s.val 0) := by
  obtain ⟨s', r, h, h1, h2, -, h3⟩ := C44_user_storage Sample.p_program SampleStore.within (SampleStore.room 10 (by omega)) [⟨some 5, some 9⟩] 1
  refine ⟨s', r, h, (h1 (Or.inl rfl)).trans ?_, ?_, ?_⟩
  · refine congrArg some (trunc_congr fun k hk => ?_)
    have hk : k = 0 := by
      have : Sample.p.size = 1 := rfl
      omega
    subst hk
    rw [Sample.p_result]
    simp [SampleStore.s]
    ring
  · rw [h2 1 (by simp [addr]) (by decide)]
    norm_num [SampleStore.s]
  · refine (h3 id Sample.p_paired (Set.injOn_id _) (by decide) (fun a ha => ?_)).2 0 (by decide) (by decide) (by decide) (Sample.p_reg _ _)
    have : Sample.p.targetAdj = {3, 1, 2} := by decide
    rw [this] at ha
    simp only [Finset.mem_insert, Finset.mem_singleton] at ha
    rcases ha with rfl | rfl | rfl <;> simp [SampleStore.s]

/-- **C44, storage is irrelevant.** Let programs be differentiated one after the other, twice: from memory `s` with the buffers `j.2.2.1`, and from memory `s'` with the buffers `j.2.2.2`.
In each run every program has buffers with enough room outside the user's cells `UV`, `UA` (which contain the variables of all programs); buffers of different programs may overlap or be
the same.  If the two memories agree on the user's cells at the beginning, then both runs are defined, return the same values, and the memories agree on
the user's cells at the end, values and adjoints. -/
theorem C44_storage_irrelevant {UV UA : Set ℕ} (js : List (Expr ℝ × (ℕ → ℝ) × Pack × Pack)) {s s' : St ℝ}
    (h : ∀ j ∈ js, j.1.Program ∧ j.1.Stable ∧ j.1.Within UV UA s.vok s.aok ∧ j.1.Within UV UA s'.vok s'.aok ∧
      j.1.Room j.2.2.1 UV UA s.vok s.aok ∧ j.1.Room j.2.2.2 UV UA s'.vok s'.aok)
    (hv : ∀ a ∈ UV, s.val a = s'.val a) (ha : ∀ a ∈ UA, s.adj a = s'.adj a) :
    ∃ xs t t', differentiateAll (js.map fun j => ((j.1.bind j.2.2.1).1, j.2.1)) s = some (xs, t) ∧
      differentiateAll (js.map fun j => ((j.1.bind j.2.2.2).1, j.2.1)) s' = some (xs, t') ∧
      (∀ a ∈ UV, t.val a = t'.val a) ∧ ∀ a ∈ UA, t.adj a = t'.adj a :=
  storage_irrelevant js s s' h hv ha

/-- C44 applied to the sample program differentiated twice, in one run with separate buffers, in the other with one buffer for both -/
example : ∃ xs t t', differentiateAll [((Sample.p.bind ⟨some 10, some 10⟩).1, 1), ((Sample.p.bind ⟨some 50, some 60⟩).1, 2)] SampleStore.s = some (xs, t) ∧
    differentiateAll [((Sample.p.bind ⟨some 4, some 4⟩).1, 1), ((Sample.p.bind ⟨some 4, some 4⟩).1, 2)] SampleStore.s = some (xs, t') ∧
    (∀ a < 4, t.val a = t'.val a) ∧ ∀ a < 4, t.adj a = t'.adj a := by
  have hr : Sample.p.Room ⟨some 50, some 60⟩ SampleStore.U SampleStore.U SampleStore.s.vok SampleStore.s.aok :=
    ⟨(SampleStore.room 50 (by omega)).val, (SampleStore.room 60 (by omega)).adj, (SampleStore.room 50 (by omega)).offV, (SampleStore.room 60 (by omega)).offA⟩
  refine C44_storage_irrelevant (UV := SampleStore.U) (UA := SampleStore.U) (s := SampleStore.s) (s' := SampleStore.s)
    [(Sample.p, 1, ⟨some 10, some 10⟩, ⟨some 4, some 4⟩), (Sample.p, 2, ⟨some 50, some 60⟩, ⟨some 4, some 4⟩)] (fun j hj => ?_) (fun _ _ => rfl) fun _ _ => rfl
  simp only [List.mem_cons, List.not_mem_nil, or_false] at hj
  rcases hj with rfl | rfl
  · exact ⟨Sample.p_program, Or.inl rfl, SampleStore.within, SampleStore.within, SampleStore.room 10 (by omega), SampleStore.room 4 (by omega)⟩
  · exact ⟨Sample.p_program, Or.inl rfl, SampleStore.within, SampleStore.within, hr, SampleStore.room 4 (by omega)⟩

end FastAD
