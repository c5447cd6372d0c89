import Verif.Proof.StatNormal

/-!
# Log-density nodes: Cauchy
-/

open scoped Real Topology
open ProbabilityTheory

namespace FastAD

noncomputable section

variable [HasInf ℝ]
set_option linter.unusedSectionVars false

/-- explicit form of the Cauchy log-density -/
theorem cauchyLog_eq {sl ss : Bool} {n : ℕ} {v : Args ℝ} (h : ScaleOk ss n v) :
    cauchyLog sl ss n v = ∑ i ∈ Finset.range n, -Real.log (v.b (pidx ss i) + (v.x i - v.a (pidx sl i)) ^ 2 / v.b (pidx ss i)) :=
  Finset.sum_congr rfl fun i hi => cauchy_elem (h _ (pidx_lt (Finset.mem_range.1 hi))) _ _

theorem cauchy_gradient {k : Kinds} {sl ss : Bool} {n : ℕ} {Adm : Args ℝ → Prop} {v : Args ℝ} {seed : ℝ} {calls : List (Slot × (ℕ → ℝ))} (hv : ScaleOk ss n v)
    (hx : ∀ i < n, seedOf calls .x i = seed * (-2 * (v.x i - v.a (pidx sl i)) / (v.b (pidx ss i) ^ 2 + (v.x i - v.a (pidx sl i)) ^ 2)))
    (ha0 : sl = true → seedOf calls .a 0 =
      seed * ∑ i ∈ Finset.range n, 2 * (v.x i - v.a (pidx sl i)) / (v.b (pidx ss i) ^ 2 + (v.x i - v.a (pidx sl i)) ^ 2))
    (ha1 : sl = false → ∀ i < n, seedOf calls .a i =
      seed * (2 * (v.x i - v.a (pidx sl i)) / (v.b (pidx ss i) ^ 2 + (v.x i - v.a (pidx sl i)) ^ 2)))
    (hb0 : ss = true → seedOf calls .b 0 =
      seed * ∑ i ∈ Finset.range n, (2 * (v.x i - v.a (pidx sl i)) ^ 2 / (v.b (pidx ss i) ^ 2 + (v.x i - v.a (pidx sl i)) ^ 2) - 1) / v.b (pidx ss i))
    (hb1 : ss = false → ∀ i < n, seedOf calls .b i =
      seed * ((2 * (v.x i - v.a (pidx sl i)) ^ 2 / (v.b (pidx ss i) ^ 2 + (v.x i - v.a (pidx sl i)) ^ 2) - 1) / v.b (pidx ss i))) :
    SeedGradient k (sdim sl ss n) Adm (orNegInf (ScaleOk ss n) (cauchyLog sl ss n)) v seed calls := by
  refine elementwise (l := fun x a b => -Real.log (b + (x - a) ^ 2 / b)) hv (scaleOk_open sl ss n) (fun w hw => ?_) ?_ (fun _ => hx) (fun _ => ha0) (fun _ => ha1)
    (fun _ => hb0) (fun _ => hb1)
  · rw [orNegInf_pos hw, cauchyLog_eq hw]
  · intro i hi E _ _ X A B X' A' B' t e1 e2 e3 hX hA hB
    rw [← e1, ← e2, ← e3]
    exact cauchy_deriv hX hA hB (by rw [e3]; exact hv _ (pidx_lt hi))

theorem blt_true {x y : ℝ} (h : x < y) : Fn.blt x y = true := (blt_iff _ _).2 h

theorem blt_scl {n : ℕ} {v : Args ℝ} (h : ¬ ScaleOk true n v) : Fn.blt 0 (v.b 0) = false := by
  rw [← Bool.not_eq_true, blt_iff, ← scaleOk_scl n]; exact h

theorem allN_vec (n : ℕ) (v : Args ℝ) : allN n (fun i => Fn.blt 0 (v.b i)) = true ↔ ScaleOk false n v := by
  rw [allN_iff, scaleOk_vec]; simp only [blt_iff]

theorem cauchySSS_computes (k : Kinds) : Computes cauchySSS k (sdim true true 1) (fun _ => True) (fun _ _ => True) (ScaleOk true 1) (fun _ => True)
    (cauchyLog true true 1) fun _ => True := by
  refine computes_of (fun _ _ => True) (by simp) (fun _ _ => True) (fun v0 _ => ⟨_, rfl, trivial⟩) ?_ ?_
  · intro v0 (c : ℝ) v _ _ hc _ hok
    have hs := (scaleOk_scl _ _).1 hok
    have hs' := hs.ne'
    have hq : 0 < v.b 0 ^ 2 + (v.x 0 - v.a 0) ^ 2 := by positivity
    have hq' := hq.ne'
    refine ⟨v.b 0 + ((v.x 0 - v.a 0) * (v.x 0 - v.a 0)) / v.b 0, ?_, trivial, by simp [cauchySSS, beq_self], fun seed h0 _ _ => ?_⟩
    · simp only [cauchySSS, blt_true hs, if_true, ret]
      rw [cauchyLog_eq hok]
      simp [pidx, sq, Fn.log]
    · simp only [cauchySSS, seed_ne h0, blt_true hs, Bool.not_true, Bool.or_self, Bool.false_eq_true, if_false]
      have e : v.b 0 * (v.b 0 + ((v.x 0 - v.a 0) * (v.x 0 - v.a 0)) / v.b 0) = v.b 0 ^ 2 + (v.x 0 - v.a 0) ^ 2 := by field_simp
      refine cauchy_gradient hok ?_ ?_ ?_ ?_ ?_ <;> simp [seedOf, pidx, e] <;> field_simp <;> first | ring1 | (ring_nf; simp)
  · intro v0 c v hI _ hc _ hok
    exact ⟨c, by simp only [cauchySSS, blt_scl hok, ret, Bool.false_eq_true, if_false], trivial, fun seed => by
      simp only [cauchySSS, blt_scl hok, Bool.not_false, Bool.or_true, if_true]⟩

theorem cauchyScl_computes (sl : Bool) (k : Kinds) (n : ℕ) : Computes (cauchyScl sl n) k (sdim sl true n) (fun _ => True) (fun _ _ => True) (ScaleOk true n) (fun _ => True)
    (cauchyLog sl true n) fun s => s = 0 ∨ s = 1 := by
  refine computes_of (fun _ _ => True) (by simp) (fun _ _ => True) (fun v0 _ => ⟨_, rfl, trivial⟩) ?_ ?_
  · intro v0 c v _ _ hc _ hok
    have hs := (scaleOk_scl _ _).1 hok
    have hs' := hs.ne'
    have hq : ∀ d : ℝ, v.b 0 ^ 2 + d ^ 2 ≠ 0 := fun d => by positivity
    refine ⟨c, ?_, trivial, by simp [cauchyScl, beq_self], fun seed h0 h1 _ => ?_⟩
    · simp only [cauchyScl, blt_true hs, if_true, ret, sumN_eq]
      rw [cauchyLog_eq hok]
      simp only [Finset.sum_neg_distrib, Fn.log, pidx, if_true]
      congr 3
      refine Finset.sum_congr rfl fun i _ => ?_
      congr 1
      field_simp
    · obtain rfl := h1.resolve_left h0
      simp only [cauchyScl, seed_ne h0, blt_true hs, Bool.not_true, Bool.or_self, Bool.false_eq_true, if_false, sumN_eq]
      refine cauchy_gradient hok ?_ ?_ ?_ ?_ ?_
      · intro i hi
        simp [seedOf, pidx, ← sq]
        ring
      · rintro rfl
        simp [seedOf, pidx, ← sq]
        rw [← Finset.sum_neg_distrib]
        exact Finset.sum_congr rfl fun i _ => by ring
      · rintro rfl i hi
        simp [seedOf, pidx, ← sq]
        ring
      · intro _
        simp [seedOf, pidx, ← sq]
        rw [← Finset.sum_div, Finset.sum_sub_distrib]
        have e : ∀ d : ℝ, (-1 + -1) * d / (v.b 0 ^ 2 + d ^ 2) * d = -(2 * d ^ 2 / (v.b 0 ^ 2 + d ^ 2)) := fun d => by ring
        simp only [e, Finset.sum_neg_distrib, Finset.sum_const, Finset.card_range, nsmul_eq_mul, mul_one]
        ring
      · intro h; cases h
  · intro v0 c v hI _ hc _ hok
    exact ⟨c, by simp only [cauchyScl, blt_scl hok, ret, Bool.false_eq_true, if_false], trivial, fun seed => by
      simp only [cauchyScl, blt_scl hok, Bool.not_false, Bool.or_true, if_true]⟩

theorem cauchyVec_computes (sl : Bool) (k : Kinds) (n : ℕ) : Computes (cauchyVec sl n) k (sdim sl false n) (fun _ => True) (fun _ _ => True) (ScaleOk false n) (fun _ => True)
    (cauchyLog sl false n) fun s => s = 0 ∨ s = 1 := by
  refine computes_of (fun _ _ => True) (by simp) (fun _ _ => True) (fun v0 _ => ⟨_, rfl, trivial⟩) ?_ ?_
  · intro v0 c v _ _ hc _ hok
    have hs := (scaleOk_vec _ _).1 hok
    have hb := (allN_vec _ _).2 hok
    refine ⟨c, ?_, trivial, by simp [cauchyVec, beq_self], fun seed h0 h1 _ => ?_⟩
    · simp only [cauchyVec, hb, if_true, ret, sumN_eq]
      rw [cauchyLog_eq hok]
      simp only [Finset.sum_neg_distrib, Fn.log, pidx, sq, Bool.false_eq_true, if_false]
    · obtain rfl := h1.resolve_left h0
      simp only [cauchyVec, seed_ne h0, hb, Bool.not_true, Bool.or_self, Bool.false_eq_true, if_false, sumN_eq]
      refine cauchy_gradient hok ?_ ?_ ?_ ?_ ?_
      · intro i hi
        simp [seedOf, pidx, ← sq]
        ring
      · rintro rfl
        simp [seedOf, pidx, ← sq]
        rw [← Finset.sum_neg_distrib]
        exact Finset.sum_congr rfl fun i _ => by ring
      · rintro rfl i hi
        simp [seedOf, pidx, ← sq]
        ring
      · intro h; cases h
      · intro _ i hi
        have := (hs i hi).ne'
        cases sl <;> simp [seedOf, pidx, ← sq] <;> field_simp <;> ring
  · intro v0 c v hI _ hc _ hok
    have hb : allN n (fun i => Fn.blt 0 (v.b i)) = false := by rw [← Bool.not_eq_true, allN_vec]; exact hok
    exact ⟨c, by simp only [cauchyVec, hb, ret, Bool.false_eq_true, if_false], trivial, fun seed => by
      simp only [cauchyVec, hb, Bool.not_false, Bool.or_true, if_true]⟩

end

end FastAD
