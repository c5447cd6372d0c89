import Verif.Proof.Api
import Verif.Proof.GenBeval

/-!
# `evaluate` and `autodiff` of bound pure expressions over an arbitrary scalar type
-/

namespace FastAD

set_option linter.unusedSectionVars false

variable {α : Type} [Zero α] [One α] [Add α] [Sub α] [Neg α] [Mul α] [Div α] [NatCast α] [IntCast α]
variable [Fn α] [HasInf α] [LinAlg α]

/-- Outcome of `evaluate` of a bound expression. -/
structure GEvalOk (e b : Expr α) (BV : Set ℕ) (m : ℕ → α) (s s' : St α) (r : Ref α) : Prop where
  run : evaluate b s = some (s', r)
  adj : s'.adj = s.adj
  vok : s'.vok = s.vok
  aok : s'.aok = s.aok
  frame : ∀ a, a ∉ BV → s'.val a = s.val a
  stored : b.Stored m s'.val
  ref : r = if b.shape.isScl then .lit (trunc 1 (e.exact m)) else b.outRef m
  value : ∀ s'' : St α, s''.vok = s'.vok → s''.val = s'.val → r.read s'' e.size = some (trunc e.size (e.exact m))

theorem Bnd.gevaluate {e b : Expr α} {BV BA : Set ℕ} {s : St α} (h : Bnd e b BV BA s.vok s.aok) {m : ℕ → α}
    (hm : ∀ a ∈ e.reads, s.val a = m a) : ∃ s' r, GEvalOk e b BV m s s' r := by
  obtain ⟨s', r, h1⟩ := gfeval_ok b m s h.wf h.wb (h.dV.mono_left h.ownV) (by rwa [Expr.reads_of_strip h.strip])
  have hden := Expr.exact_of_strip h.strip m
  have hread := h1.ref.1 s' rfl fun _ _ => rfl
  by_cases hs : b.shape.isScl = true
  · have h1s : b.size = 1 := (h.wf.shapeOk).size_scl hs
    refine ⟨s', .lit (trunc 1 (e.exact m)), ⟨?_, h1.adj, h1.vok, h1.aok, fun a ha => h1.frame a fun x => ha (h.ownV x), h1.stored, ?_, ?_⟩⟩
    · rw [FastAD.evaluate, h1.run]
      simp only [Option.bind_eq_bind, Option.bind_some, hs, if_true]
      rw [h1s] at hread
      rw [hread, hden]
      rfl
    · rw [if_pos hs]
    · intro s'' _ _
      rw [← h.size, h1s]
      simp only [Ref.read, trunc_trunc]
  · refine ⟨s', r, ⟨?_, h1.adj, h1.vok, h1.aok, fun a ha => h1.frame a fun x => ha (h.ownV x), h1.stored, ?_, ?_⟩⟩
    · rw [FastAD.evaluate, h1.run]
      simp [hs]
    · rw [if_neg hs, h1.out]
    · intro s'' hv hval
      have := h1.ref.1 s'' hv fun a _ => by rw [hval]
      rwa [h.size, hden] at this

/-- Outcome of `autodiff` of a bound expression. -/
structure GAutoOk (e b : Expr α) (BV BA : Set ℕ) (m seed : ℕ → α) (s s' : St α) (r : Ref α) : Prop where
  run : autodiff b seed s = some (s', r)
  vok : s'.vok = s.vok
  aok : s'.aok = s.aok
  val : ∀ a, a ∉ BV → s'.val a = s.val a
  adj : ∀ a, a ∉ BA → s'.adj a = e.gback m seed a (s.adj a)
  value : r.read s' e.size = some (trunc e.size (if e.shape.isScl then e.exact m else e.post m))

theorem Bnd.gautodiff {e b : Expr α} {BV BA : Set ℕ} {s : St α} (h : Bnd e b BV BA s.vok s.aok) {m : ℕ → α}
    (hm : ∀ a ∈ e.reads, s.val a = m a) (seed : ℕ → α) : ∃ s' r, GAutoOk e b BV BA m seed s s' r := by
  obtain ⟨s1, r, h1⟩ := h.gevaluate hm
  obtain ⟨s2, h2⟩ := gbeval_ok b m s1 seed h.wf (by rw [h1.vok, h1.aok]; exact h.wb) (h.dV.mono_left h.ownV)
    (h.dA.mono_left h.ownA) h1.stored
  refine ⟨s2, r, ?_, h2.vok.trans h1.vok, h2.aok.trans h1.aok, fun a ha => ?_, fun a ha => ?_, ?_⟩
  · rw [FastAD.autodiff, h1.run]
    simp [FastAD.evaluateAdj, h2.run]
  · rw [h2.frame a fun x => ha (h.ownV x), h1.frame a ha]
  · rw [h2.adj a fun x => ha (h.ownA x), h1.adj, Expr.gback_of_strip h.strip]
  · have hsh := Expr.shape_of_strip h.strip
    by_cases hs : e.shape.isScl = true
    · have h1s : b.size = 1 := (h.wf.shapeOk).size_scl (by rwa [hsh])
      rw [h1.ref, if_pos (by rwa [hsh]), if_pos hs, ← h.size, h1s]
      simp only [Ref.read, trunc_trunc]
    · rw [h1.ref, if_neg (by rwa [hsh]), if_neg hs]
      have := h2.post s2 rfl fun _ _ => rfl
      rwa [h.size, Expr.post_of_strip h.strip] at this

end FastAD
