import Verif.Proof.StatBernoulli
import Verif.Proof.StatWishart

/-!
# Log-density nodes: uniqueness of gradients
-/

open scoped Real Topology

namespace FastAD

noncomputable section

set_option linter.unusedSectionVars false

open Classical in
/-- the operand values `v` with coefficient `i` of operand `s` changed by `t` -/
def bump (v : Args ℝ) (s : Slot) (i : ℕ) (t : ℝ) : Args ℝ where
  x := fun j => v.x j + if s = .x ∧ j = i then t else 0
  a := fun j => v.a j + if s = .a ∧ j = i then t else 0
  b := fun j => v.b j + if s = .b ∧ j = i then t else 0

open Classical in
theorem bump_get (v : Args ℝ) (s s' : Slot) (i j : ℕ) (t : ℝ) : (bump v s i t).get s' j = v.get s' j + if s = s' ∧ j = i then t else 0 := by
  cases s' <;> rfl

theorem bump_zero (v : Args ℝ) (s : Slot) (i : ℕ) : bump v s i 0 = v := by simp [bump]

open Classical in
/-- derivatives of the coefficients of `bump` -/
def bumpD (s : Slot) (i : ℕ) (s' : Slot) (j : ℕ) : ℝ →L[ℝ] ℝ := if s = s' ∧ j = i then 1 else 0

theorem SeedGradient.bump {k : Kinds} {dim : Slot → ℕ} {Adm : Args ℝ → Prop} {f : Args ℝ → ℝ} {v : Args ℝ} {seed : ℝ} {l : List (Slot × (ℕ → ℝ))}
    (h : SeedGradient k dim Adm f v seed l) {s : Slot} {i : ℕ} (hi : i < dim s) (hk : k.get s ≠ .const) (hadm : ∀ t, Adm (bump v s i t)) :
    HasFDerivAt (fun t => seed * f (FastAD.bump v s i t)) (seedOf l s i • (1 : ℝ →L[ℝ] ℝ)) 0 := by
  have h1 := h ℝ (FastAD.bump v s i) (bumpD s i) 0 (bump_zero v s i) hadm (fun s' j _ => ?_) (fun s' hs' j _ => ?_)
  · refine h1.congr_fderiv ?_
    have hsum : ∀ s', ∑ j ∈ Finset.range (dim s'), seedOf l s' j • bumpD s i s' j = if s = s' then seedOf l s i • (1 : ℝ →L[ℝ] ℝ) else 0 := by
      intro s'
      by_cases e : s = s'
      · subst e
        rw [if_pos rfl, Finset.sum_eq_single_of_mem i (Finset.mem_range.2 hi)]
        · simp [bumpD]
        · intro j _ hj
          simp [bumpD, hj]
      · simp [e, bumpD]
    rw [chain, hsum, hsum, hsum]
    cases s <;> simp
  · simp only [bump_get]
    by_cases e : s = s' ∧ j = i
    · simp only [e, and_self, if_true, bumpD]
      exact (hasFDerivAt_id (𝕜 := ℝ) (0 : ℝ)).const_add _
    · simp only [e, if_false, bumpD]
      exact hasFDerivAt_const _ _
  · have : s ≠ s' := fun e => hk (e ▸ hs')
    simp [bumpD, bump_get, this]

/-- the seeds of variable operands are determined by being the gradient -/
theorem SeedGradient.unique {k k' : Kinds} {dim : Slot → ℕ} {Adm Adm' : Args ℝ → Prop} {f : Args ℝ → ℝ} {v : Args ℝ} {seed : ℝ} {l l' : List (Slot × (ℕ → ℝ))}
    (h : SeedGradient k dim Adm f v seed l) (h' : SeedGradient k' dim Adm' f v seed l') {s : Slot} {i : ℕ} (hi : i < dim s) (hk : k.get s ≠ .const)
    (hk' : k'.get s ≠ .const) (hadm : ∀ t, Adm (FastAD.bump v s i t)) (hadm' : ∀ t, Adm' (FastAD.bump v s i t)) : seedOf l s i = seedOf l' s i := by
  have := (h.bump hi hk hadm).unique (h'.bump hi hk' hadm')
  simpa using congrArg (fun L : ℝ →L[ℝ] ℝ => L 1) this

/-- gradients are linear in the seed -/
theorem SeedGradient.scale {k : Kinds} {dim : Slot → ℕ} {Adm : Args ℝ → Prop} {f : Args ℝ → ℝ} {v : Args ℝ} {seed : ℝ} {l : List (Slot × (ℕ → ℝ))}
    (h : SeedGradient k dim Adm f v seed l) (c : ℝ) : SeedGradient k dim Adm f v (c * seed) (l.map fun q => (q.1, fun i => c * q.2 i)) := by
  intro E _ _ V D t0 h0 hA hD hc
  have h1 := (h E V D t0 h0 hA hD hc).const_mul c
  refine (h1.congr_fderiv ?_).congr_of_eventuallyEq (.of_forall fun t => by ring)
  have : ∀ s i, seedOf (l.map fun q => (q.1, fun i => c * q.2 i)) s i = c * seedOf l s i := by
    intro s i
    simp only [seedOf, List.map_map, ← List.sum_map_mul_left]
    congr 1
    refine List.map_congr_left fun q _ => ?_
    simp only [Function.comp]
    split <;> simp
  simp only [chain, this, smul_add, Finset.smul_sum, mul_smul]

/-- two nodes that compute the same log-density, for different operand types -/
theorem Computes.agree [HasInf ℝ] {N N' : StatNode ℝ} {k k' : Kinds} {dim : Slot → ℕ} {valid : Args ℝ → Prop} {logp : Args ℝ → ℝ}
    (h : Computes N k dim (fun _ => True) (fun _ _ => True) valid (fun _ => True) logp fun _ => True)
    (h' : Computes N' k' dim (fun _ => True) (fun _ _ => True) valid (fun _ => True) logp fun _ => True) (v0 : Args ℝ) (hist : List (Args ℝ)) (v : Args ℝ)
    (hc : ∀ w ∈ v :: hist, SameConsts k v0 w ∧ SameConsts k' v0 w) :
    ∃ c1 c1' c2 c2' r, N.run v0 hist = some c1 ∧ N.feval c1 v = some (c2, r) ∧ N'.run v0 hist = some c1' ∧ N'.feval c1' v = some (c2', r) ∧
      ∀ seed s i, k.get s ≠ .const → k'.get s ≠ .const → i < dim s → seedOf (N.beval c2 v seed) s i = seedOf (N'.beval c2' v seed) s i := by
  obtain ⟨c1, c2, e1, e2, e3⟩ := h v0 hist v trivial (fun w hw => ⟨trivial, (hc w hw).1⟩) trivial
  obtain ⟨c1', c2', e1', e2', e3'⟩ := h' v0 hist v trivial (fun w hw => ⟨trivial, (hc w hw).2⟩) trivial
  refine ⟨c1, c1', c2, c2', _, e1, e2, e1', e2', fun seed s i hk hk' hi => ?_⟩
  by_cases hv : valid v
  · exact ((e3 seed trivial).1 hv trivial).unique ((e3' seed trivial).1 hv trivial) hi hk hk' (fun _ => trivial) fun _ => trivial
  · rw [(e3 seed trivial).2 (.inl hv), (e3' seed trivial).2 (.inl hv)]

end

end FastAD
