import Verif.Proof.Sequence
import Verif.Proof.ProgBind

/-!
# Binding, evaluating and differentiating programs
-/

namespace FastAD

variable [HasInf ℝ] [LinAlg ℝ]
set_option linter.unusedSectionVars false

noncomputable section

/-! ### Binding trees -/

/-! ### Binding does not change the meaning -/

theorem strip_exec {x : Expr ℝ} (h : x.isLeaf = true) (m : ℕ → ℝ) : x.strip.exec m = x.exec m := by
  cases x with
  | glue => simp [Expr.isLeaf] at h
  | forEach => simp [Expr.isLeaf] at h
  | eq v e w => simp only [Expr.strip, Expr.exec, strip_denote]
  | opEq op v e w c => simp only [Expr.strip, Expr.exec, strip_denote, Expr.strip_shape]
  | _ => rfl

theorem strip_result {x : Expr ℝ} (h : x.isLeaf = true) (m : ℕ → ℝ) : x.strip.result m = x.result m := by
  cases x with
  | glue => simp [Expr.isLeaf] at h
  | forEach => simp [Expr.isLeaf] at h
  | eq v e w => funext k; simp only [Expr.strip, Expr.result, strip_denote]
  | opEq op v e w c => funext k; simp only [Expr.strip, Expr.result, strip_denote, Expr.strip_shape]
  | _ => funext k; exact congrFun (strip_denote m _) k

theorem strip_back {x : Expr ℝ} (h : x.isLeaf = true) (m seed A : ℕ → ℝ) : x.strip.back m seed A = x.back m seed A := by
  cases x with
  | glue => simp [Expr.isLeaf] at h
  | forEach => simp [Expr.isLeaf] at h
  | eq v e w => funext a; simp only [Expr.strip, Expr.back, strip_grad]
  | opEq op v e w c => funext a; simp only [Expr.strip, Expr.back, strip_grad, strip_denote, Expr.strip_shape]
  | _ => funext a; exact congrArg (A a + ·) (congrFun (congrFun (strip_grad m _) seed) a)

theorem strip_undo {x : Expr ℝ} (h : x.isLeaf = true) (m A : ℕ → ℝ) : x.strip.undo m A = x.undo m A := by
  cases x <;> first | rfl | simp [Expr.isLeaf] at h

section
variable {x' x : Expr ℝ} (h : x.isLeaf = true ∧ x'.strip = x.strip)
include h

theorem exec_of_strip (m : ℕ → ℝ) : x'.exec m = x.exec m := by
  rw [← strip_exec (isLeaf_of_strip h), h.2, strip_exec h.1]
theorem result_of_strip (m : ℕ → ℝ) : x'.result m = x.result m := by
  rw [← strip_result (isLeaf_of_strip h), h.2, strip_result h.1]
theorem back_of_strip (m seed A : ℕ → ℝ) : x'.back m seed A = x.back m seed A := by
  rw [← strip_back (isLeaf_of_strip h), h.2, strip_back h.1]
theorem undo_of_strip (m A : ℕ → ℝ) : x'.undo m A = x.undo m A := by
  rw [← strip_undo (isLeaf_of_strip h), h.2, strip_undo h.1]
end

theorem SameL.exec {L' L : List (Expr ℝ)} (h : SameL L' L) (m : ℕ → ℝ) : execL L' m = execL L m := by
  induction h generalizing m with
  | nil => rfl
  | cons h1 _ ih => simp only [execL, exec_of_strip h1, ih]

theorem SameL.result {L' L : List (Expr ℝ)} (h : SameL L' L) (m : ℕ → ℝ) : resultL L' m = resultL L m := by
  induction h generalizing m with
  | nil => rfl
  | cons h1 h2 ih =>
    cases h2 with
    | nil => exact result_of_strip h1 m
    | cons h3 h4 =>
      have := ih
      simp only [resultL] at this ⊢
      rw [exec_of_strip h1]
      exact this _

theorem SameL.back {L' L : List (Expr ℝ)} (h : SameL L' L) (m seed A : ℕ → ℝ) : backL L' m seed A = backL L m seed A := by
  induction h generalizing m with
  | nil => rfl
  | cons h1 h2 ih => simp only [backL, SameL.isEmpty h2, ih, back_of_strip h1, exec_of_strip h1]

theorem SameL.rest {L' L : List (Expr ℝ)} (h : SameL L' L) (m : ℕ → ℝ) : restL L' m = restL L m := by
  induction h generalizing m with
  | nil => rfl
  | cons h1 h2 ih => simp only [restL, ih, undo_of_strip h1, exec_of_strip h1]

/-! ### Bound programs -/

/-- Outcome of `evaluate` of a bound program whose variables have the values `m`. -/
structure ProgEval (p b : Expr ℝ) (BV : Set ℕ) (m : ℕ → ℝ) (s s' : St ℝ) (r : Ref ℝ) : Prop where
  run : evaluate b s = some (s', r)
  adj : s'.adj = s.adj
  vok : s'.vok = s.vok
  aok : s'.aok = s.aok
  store : ∀ a, a ∉ BV → s'.val a = p.exec m a
  cached : PCs BV b.flat m s'.val
  /-- a scalar is returned by value -/
  scalar : p.shape.isScl = true → r = .lit (trunc p.size (p.result m))
  value : r.read s' p.size = some (trunc p.size (p.result m))
  /-- an array is returned by reference -/
  array : p.shape.isScl = false → r = .ptr b.view.val
  acc : accessible s'.vok b.view.val p.size

theorem EvalB.evaluate {p b : Expr ℝ} {BV BA : Set ℕ} {s : St ℝ} (h : EvalB p b BV BA s.vok s.aok) {m : ℕ → ℝ}
    (hm : ∀ a, a ∉ BV → s.val a = m a) (hok : p.shape.Ok) : ∃ s' r, ProgEval p b BV m s s' r := by
  obtain ⟨s', h1⟩ := seq_ok b.flat m s h.seq hm
  have hne : b.flat ≠ [] := by
    intro h0
    have := h.same
    rw [h0] at this
    cases hp : p.flat with
    | nil => exact h.nonempty hp
    | cons => rw [hp] at this; cases this
  obtain ⟨r, hr, hr2⟩ := feval_tree b h.tree s s' h1.run
  obtain ⟨rfl, hacc⟩ := hr2 hne
  have hval : ∀ k < b.size, s'.val (addr b.view.val + k) = p.result m k := by
    intro k hk
    have hlast := List.getLast?_eq_some_getLast hne
    obtain ⟨h2, h3⟩ := view_last b h.tree _ hlast
    rw [h2, h1.value _ hlast k (by rw [Expr.size, ← h3]; exact hk), h.same.result, result_tree p h.wf h.nonempty]
  have hsz : b.size = p.size := by rw [Expr.size, h.shape, Expr.size]
  have hread : (Ref.ptr b.view.val : Ref ℝ).read s' p.size = some (trunc p.size (p.result m)) := by
    rw [← hsz]
    exact readCells_eq' hacc hval
  have hst : ∀ a, a ∉ BV → s'.val a = p.exec m a := by
    intro a ha
    rw [h1.store a ha, h.same.exec, exec_tree]
  by_cases hs : p.shape.isScl = true
  · have h1s : p.size = 1 := hok.size_scl hs
    refine ⟨s', .lit (trunc 1 (p.result m)), ?_, h1.adj, h1.vok, h1.aok, hst, h1.cached, fun _ => by rw [h1s], ?_,
      fun h => absurd (hs.symm.trans h) (by simp), hsz ▸ hacc⟩
    · rw [FastAD.evaluate, hr]
      simp only [Option.bind_eq_bind, Option.bind_some, h.shape, hs, if_true]
      rw [h1s] at hread
      rw [hread]
      rfl
    · rw [h1s]
      simp only [Ref.read, trunc_trunc]
  · refine ⟨s', .ptr b.view.val, ?_, h1.adj, h1.vok, h1.aok, hst, h1.cached, fun h => absurd h hs, hread,
      fun _ => rfl, hsz ▸ hacc⟩
    rw [FastAD.evaluate, hr]
    simp [h.shape, hs]

theorem restL_execL {L : List (Expr ℝ)} {m : ℕ → ℝ} {a : ℕ} (ha : ∀ x ∈ L, a ∉ x.upd) : restL L m a = execL L m a := by
  induction L generalizing m with
  | nil => rfl
  | cons x xs ih =>
    have h := ih (m := x.exec m) fun y hy => ha y (by simp [hy])
    simp only [restL, execL]
    rw [← h]
    have hx := ha x (by simp)
    cases x with
    | opEq op v e w c =>
      simp only [Expr.undo]
      exact assign_off hx
    | _ => rfl

/-- Outcome of `autodiff` of a bound program whose variables have the values `m`. -/
structure ProgAuto (p b : Expr ℝ) (BV BA : Set ℕ) (m seed : ℕ → ℝ) (s s' : St ℝ) (r : Ref ℝ) : Prop where
  run : autodiff b seed s = some (s', r)
  vok : s'.vok = s.vok
  aok : s'.aok = s.aok
  val : ∀ a, a ∉ BV → s'.val a = restL p.flat m a
  adj : ∀ a, a ∉ BA → s'.adj a = backL p.flat m seed s.adj a
  value : p.Stable → r.read s' p.size = some (trunc p.size (p.result m))
  array : p.shape.isScl = false → r = .ptr b.view.val

theorem ProgB.autodiff {p b : Expr ℝ} {BV BA : Set ℕ} {s : St ℝ} (h : ProgB p b BV BA s.vok s.aok) {m : ℕ → ℝ}
    (hm : ∀ a, a ∉ BV → s.val a = m a) (hok : p.shape.Ok) (seed : ℕ → ℝ) (hord : p.flat.Pairwise UsedAfter) :
    ∃ s' r, ProgAuto p b BV BA m seed s s' r := by
  obtain ⟨s1, r, h1⟩ := h.evaluate hm hok
  obtain ⟨s2, h2⟩ := backL_ok b.flat m seed s1 (by rw [h1.vok, h1.aok]; exact h.seq) h1.cached
    (fun a ha => by rw [h1.store a ha, h.same.exec, exec_tree]) (h.same.after h.order)
  refine ⟨s2, r, ?_, h2.vok.trans h1.vok, h2.aok.trans h1.aok, fun a ha => ?_, fun a ha => ?_, fun hst => ?_, h1.array⟩
  · rw [FastAD.autodiff, h1.run]
    simp [FastAD.evaluateAdj, beval_tree b h.tree, h2.run]
  · rw [h2.val a ha, h.same.rest]
  · rw [h2.adj a ha, h.same.back, h1.adj]
  · by_cases hs : p.shape.isScl = true
    · rw [h1.scalar hs]
      simp only [Ref.read, trunc_trunc]
    · have hv := h1.value
      rw [h1.array (by simpa using hs)] at hv ⊢
      have hcell : ∀ k < p.size, s2.val (addr b.view.val + k) = s1.val (addr b.view.val + k) := by
        intro k hk
        have hne : b.flat ≠ [] := by
          intro h0
          have := h.same
          rw [h0] at this
          cases hp : p.flat with
          | nil => exact h.nonempty hp
          | cons => rw [hp] at this; cases this
        have hlast := List.getLast?_eq_some_getLast hne
        obtain ⟨x, hx, hx1, hx2⟩ := h.same.getLast _ hlast
        obtain ⟨hv1, hv2⟩ := view_last b h.tree _ hlast
        have hS := storedOutside_of_strip hx2 (hst.resolve_left hs x hx)
        have hpl : ∀ c ∈ (b.flat.getLast hne).place, c ∉ p.updatedCells := by
          intro c hc hT
          rw [← strip_place, hx2, strip_place] at hc
          obtain ⟨z, hz, hzc⟩ := mem_updatedCells.1 hT
          have hsplit : p.flat = p.flat.dropLast ++ [x] := by
            obtain ⟨ys, hys⟩ := List.getLast?_eq_some_iff.1 hx
            rw [hys]; simp
          rw [hsplit] at hz hord
          rcases List.mem_append.1 hz with hz | hz
          · have hu := (List.pairwise_append.1 hord).2.2 z hz x (by simp)
            cases x with
            | eq v e w =>
              obtain ⟨k, hk, rfl⟩ := mem_rng_iff.1 hc
              refine (hu v rfl k hk).1 ?_
              cases z with
              | opEq op u e w c => exact mem_valCells.2 ⟨u, by simp [Expr.vars], hzc⟩
              | _ => exact hzc.elim
            | _ => exact hc.elim
          · simp at hz
            subst hz
            cases z with
            | opEq => exact hc.elim
            | _ => exact hzc.elim
        have hmem := stored_cells (h.seq.stmt _ (List.getLast_mem hne)) hS hpl (addr b.view.val + k)
          (by rw [← hv1, Expr.size, ← hv2, h.shape]; exact add_mem_rng hk)
        by_cases hb : addr b.view.val + k ∈ BV
        · exact h2.frame _ hb
        · rw [h2.val _ hb, h.same.rest, h1.store _ hb, exec_tree]
          exact restL_execL fun z hz hzc => hmem.resolve_left hb (mem_updatedCells.2 ⟨z, hz, hzc⟩)
      have hacc : accessible s2.vok b.view.val p.size := by rw [h2.vok]; exact h1.acc
      simp only [Ref.read] at hv ⊢
      rw [readCells_eq h1.acc] at hv
      rw [readCells_eq hacc, ← hv]
      exact congrArg some (trunc_congr hcell)

/-! ### More memory -/

end

end FastAD
