import Verif.Proof.StatExpr
import Verif.Proof.StatUnique
import Verif.Spec.Regular

/-!
# Gradients of log-density nodes inside expressions
-/

open scoped Real Topology

namespace FastAD

noncomputable section

variable {E : Type} [NormedAddCommGroup E] [NormedSpace ℝ E] [HasInf ℝ] [LinAlg ℝ]
set_option linter.unusedSectionVars false

/-- operands that are not differentiated -/
def StatOp.gradKinds (o : StatOp) (k : Kinds) : Kinds := if o.discrete then { k with x := .const } else k

/-- sizes of the operands -/
def StatOp.dim (o : StatOp) (n : ℕ) (s : Slot) : ℕ := if s ∈ o.slots then (o.shape n s).size else 0

/-- what `Computes` and `ComputesMass` say about a node that is constructed and evaluated once -/
def StatOp.Fine (o : StatOp) (k : Kinds) (n : ℕ) (v : Args ℝ) (c : (o.node (α := ℝ) k n).Cache) : Prop :=
  (o.node k n).once v = some (c, orNegInf (o.valid n) (o.logp n) v) ∧ ∀ g,
    (o.valid n v → o.Smooth n v →
      SeedGradient (o.gradKinds k) (o.dim n) (o.Adm n) (orNegInf (o.valid n) (o.logp n)) v g ((o.node k n).beval c v g)) ∧
    (¬ o.valid n v → o ≠ .bernoulliVV → (o.node k n).beval c v g = [])

theorem once_of_run {N : StatNode ℝ} {v : Args ℝ} {c c' : N.Cache} {r : ℝ} (h1 : N.run v [] = some c) (h2 : N.feval c v = some (c', r)) :
    N.once v = some (c', r) := by
  have h1' : N.ctor v = some c := h1
  simp only [StatNode.once, h1', Option.bind_eq_bind, Option.bind_some, h2]

theorem sameConsts_self (k : Kinds) (v : Args ℝ) : SameConsts k v v := fun _ _ => rfl

theorem StatOp.computes [LawfulLinAlg] (o : StatOp) (k : Kinds) (n : ℕ) (hs : o.Sound k n) (ht : o.seedsTwice = false) (v : Args ℝ) (ha : o.Adm n v) :
    ∃ c, o.Fine k n v c := by
  have fin : ∀ {N : StatNode ℝ} {dim : Slot → ℕ} {Adm : Args ℝ → Prop} {Hist} {valid : Args ℝ → Prop} {logp : Args ℝ → ℝ},
      Computes N k dim Adm Hist valid (fun _ => True) logp (fun _ => True) → Hist v [v] → (∀ s, dim s = o.dim n s) → N = o.node k n → Adm = o.Adm n → valid = o.valid n →
      logp = o.logp n → o.gradKinds k = k → ∃ c, o.Fine k n v c := by
    intro N dim Adm Hist valid logp h hH hd hN hA hv hl hk
    subst hN hA hv hl
    obtain rfl : dim = o.dim n := funext hd
    obtain ⟨c, c', h1, h2, h3⟩ := h v [] v hH (by simpa using ⟨ha, sameConsts_self k v⟩) ha
    exact ⟨c', once_of_run h1 h2, fun g => ⟨fun hv _ => hk.symm ▸ (h3 g trivial).1 hv trivial, fun hv _ => (h3 g trivial).2 (.inl hv)⟩⟩
  have finM : ∀ {N : StatNode ℝ} {sp : Bool} {m : ℕ} {silent : Args ℝ → Prop},
      ComputesMass N k sp m silent → (∀ s, bdim sp m s = o.dim n s) → N = o.node k n → (fun _ => True) = o.Adm n → MassPos sp m = o.valid n →
      bernoulliLog sp m = o.logp n → o.gradKinds k = { k with x := .const } → o.Smooth n = ProbSmooth sp m → (o ≠ .bernoulliVV → ∀ v, silent v ↔ ¬ o.valid n v) → ∃ c, o.Fine k n v c := by
    intro N sp m silent h hd hN hA hv hl hk hS hsil
    subst hN
    have hd' : bdim sp m = o.dim n := funext hd
    rw [ComputesMass, hd', hA, hv, hl, ← hk, ← hS] at h
    obtain ⟨c, c', h1, h2, h3⟩ := h v [] v trivial (by simpa [← hA] using sameConsts_self k v) (by simp [← hA])
    exact ⟨c', once_of_run h1 h2, fun g => ⟨(h3 g).1, fun hv ho => (h3 g).2 (.inl ((hsil ho v).2 hv))⟩⟩
  have hdim : ∀ s, o.dim n s = if s ∈ o.slots then (o.shape n s).size else 0 := fun _ => rfl
  cases o with
  | normalSSS => exact fin (normalSSS_computes k) trivial (fun s => by rw [hdim]; cases s <;> rfl) rfl rfl rfl rfl rfl
  | normalVSS => exact fin (normalVSS_computes k n hs) trivial (fun s => by rw [hdim]; cases s <;> simp [StatOp.slots, StatOp.shape, parShape, sdim, pdim, Shape.vec, Shape.scl, Shape.size]) rfl rfl rfl rfl rfl
  | normalVVS => exact fin (normalVVS_computes k n) trivial (fun s => by rw [hdim]; cases s <;> simp [StatOp.slots, StatOp.shape, parShape, sdim, pdim, Shape.vec, Shape.scl, Shape.size]) rfl rfl rfl rfl rfl
  | normalVSV => exact fin (normalVSV_computes k n) trivial (fun s => by rw [hdim]; cases s <;> simp [StatOp.slots, StatOp.shape, parShape, sdim, pdim, Shape.vec, Shape.scl, Shape.size]) rfl rfl rfl rfl rfl
  | normalVVV => exact fin (normalVVV_computes k n) trivial (fun s => by rw [hdim]; cases s <;> simp [StatOp.slots, StatOp.shape, parShape, sdim, pdim, Shape.vec, Shape.scl, Shape.size]) rfl rfl rfl rfl rfl
  | normalMat sm => exact fin (normalMat_computes sm k n) trivial (fun s => by rw [hdim]; cases s <;> cases sm <;> simp [StatOp.slots, StatOp.shape, parShape, mdim, pdim, Shape.vec, Shape.mat, Shape.scl, Shape.size]) rfl rfl rfl rfl rfl
  | cauchySSS => exact fin (cauchySSS_computes k) trivial (fun s => by rw [hdim]; cases s <;> rfl) rfl rfl rfl rfl rfl
  | cauchyScl sl => simp [StatOp.seedsTwice] at ht
  | cauchyVec sl => simp [StatOp.seedsTwice] at ht
  | uniformSSS => exact fin (uniformSSS_computes k) trivial (fun s => by rw [hdim]; cases s <;> rfl) rfl rfl rfl rfl rfl
  | uniformVec sa sb =>
    refine fin (uniformVec_computes sa sb k n hs.1 fun h1 h2 => ⟨fun h => by rw [(hs.2 h1 h2).1 h]; simp, fun h => by rw [(hs.2 h1 h2).2 h]; simp⟩) ?_
      (fun s => by rw [hdim]; cases s <;> cases sa <;> cases sb <;> simp [StatOp.slots, StatOp.shape, parShape, sdim, pdim, Shape.vec, Shape.scl, Shape.size]) rfl rfl rfl rfl rfl
    intro _ _ w hw
    obtain rfl : w = v := by simpa using hw
    exact checksAgree_self _ _ _ _
  | bernoulliSS => exact finM (bernoulliSS_computes k) (fun s => by rw [hdim]; cases s <;> rfl) rfl rfl rfl rfl rfl rfl fun _ _ => Iff.rfl
  | bernoulliVS => exact finM (bernoulliVS_computes k n) (fun s => by rw [hdim]; cases s <;> simp [StatOp.slots, StatOp.shape, parShape, bdim, pdim, Shape.vec, Shape.scl, Shape.size]) rfl rfl rfl rfl rfl rfl fun _ _ => Iff.rfl
  | bernoulliVV => exact finM (bernoulliVV_computes k n) (fun s => by rw [hdim]; cases s <;> simp [StatOp.slots, StatOp.shape, parShape, bdim, pdim, Shape.vec, Shape.scl, Shape.size]) rfl rfl rfl rfl rfl rfl fun h => absurd rfl h
  | wishart => exact fin (wishart_computes k n hs.1 hs.2) trivial (fun s => by rw [hdim]; cases s <;> simp [StatOp.slots, StatOp.shape, wdim, Shape.mat, Shape.scl, Shape.size]) rfl rfl rfl rfl rfl

/-- **The value of a log-density**, for symmetric matrix arguments -/
theorem StatOp.real_eq [LawfulLinAlg] (o : StatOp) (n : ℕ) (v : Args ℝ) (ha : o.Adm n v) : o.real n v = orNegInf (o.valid n) (o.logp n) v := by
  have key : ∀ k : Kinds, o.Sound k n → o.seedsTwice = false → o.real n v = orNegInf (o.valid n) (o.logp n) v := by
    intro k hs ht
    obtain ⟨c, h1⟩ := o.once_eq k n hs v
    obtain ⟨c', h2, -⟩ := o.computes k n hs ht v ha
    rw [h1] at h2
    simp only [Option.some.injEq, Prod.mk.injEq] at h2
    exact h2.2
  cases o with
  | normalMat sm => exact key ⟨.node, .node, .node⟩ trivial rfl
  | wishart => exact key ⟨.node, .node, .const⟩ ⟨rfl, by simp⟩ rfl
  | _ => rfl

/-- every operand is called at most once -/
def StatNode.CallsOnce (N : StatNode ℝ) : Prop := ∀ c v g, ((N.beval c v g).map Prod.fst).Nodup

theorem StatOp.beval_nodup (o : StatOp) (k : Kinds) (n : ℕ) : (o.node (α := ℝ) k n).CallsOnce := by
  cases o with
  | normalSSS =>
    refine (fun (c : ℝ) v g => ?_ : (FastAD.normalSSS k).CallsOnce)
    simp only [FastAD.normalSSS]
    repeat' split
    all_goals simp
  | normalVSS =>
    refine (fun (c : NormalVSSCache ℝ) v g => ?_ : (FastAD.normalVSS k n).CallsOnce)
    simp only [FastAD.normalVSS]
    repeat' split
    all_goals simp
  | normalVVS =>
    refine (fun (c : ℝ × ℝ) v g => ?_ : (FastAD.normalVVS k n).CallsOnce)
    simp only [FastAD.normalVVS]
    repeat' split
    all_goals simp
  | normalVSV =>
    refine (fun (c : NormalVSVCache ℝ) v g => ?_ : (FastAD.normalVSV k n).CallsOnce)
    simp only [FastAD.normalVSV]
    repeat' split
    all_goals simp
  | normalVVV =>
    refine (fun (c : ℝ × Bool) v g => ?_ : (FastAD.normalVVV k n).CallsOnce)
    simp only [FastAD.normalVVV]
    repeat' split
    all_goals simp
  | normalMat sm =>
    refine (fun (c : NormalMatCache ℝ) v g => ?_ : (FastAD.normalMat sm k n).CallsOnce)
    simp only [FastAD.normalMat]
    repeat' split
    all_goals simp
  | cauchySSS =>
    refine (fun (c : ℝ) v g => ?_ : (FastAD.cauchySSS ).CallsOnce)
    simp only [FastAD.cauchySSS]
    repeat' split
    all_goals simp
  | cauchyScl sm =>
    refine (fun (c : Unit) v g => ?_ : (FastAD.cauchyScl sm n).CallsOnce)
    simp only [FastAD.cauchyScl]
    repeat' split
    all_goals simp
  | cauchyVec sm =>
    refine (fun (c : Unit) v g => ?_ : (FastAD.cauchyVec sm n).CallsOnce)
    simp only [FastAD.cauchyVec]
    repeat' split
    all_goals simp
  | uniformSSS =>
    refine (fun (c : ℝ) v g => ?_ : (FastAD.uniformSSS k).CallsOnce)
    simp only [FastAD.uniformSSS]
    repeat' split
    all_goals simp
  | uniformVec sa sm =>
    refine (fun (c : UniformCache ℝ) v g => ?_ : (FastAD.uniformVec sa sm k n).CallsOnce)
    simp only [FastAD.uniformVec]
    repeat' split
    all_goals simp
  | bernoulliSS =>
    refine (fun (c : ℝ × ℝ) v g => ?_ : (FastAD.bernoulliSS k).CallsOnce)
    simp only [FastAD.bernoulliSS]
    repeat' split
    all_goals simp
  | bernoulliVS =>
    refine (fun (c : BernoulliCache ℝ) v g => ?_ : (FastAD.bernoulliVS k n).CallsOnce)
    simp only [FastAD.bernoulliVS]
    repeat' split
    all_goals simp
  | bernoulliVV =>
    refine (fun (c : Bool × Bool) v g => ?_ : (FastAD.bernoulliVV k n).CallsOnce)
    simp only [FastAD.bernoulliVV]
    repeat' split
    all_goals simp
  | wishart =>
    refine (fun (c : WishartCache ℝ) v g => ?_ : (FastAD.wishart k n).CallsOnce)
    simp only [FastAD.wishart]
    repeat' split
    all_goals simp

/-- the seeds are proportional to the seed of the node -/
def StatNode.Scales (N : StatNode ℝ) : Prop := ∀ c v, N.beval c v 0 = [] ∧ ∀ g ≠ 0, N.beval c v g = (N.beval c v 1).map fun q => (q.1, fun i => g * q.2 i)

local macro "refine_ands" : tactic => `(tactic| repeat' apply And.intro)
local macro "scale_tac" : tactic => `(tactic| first | ring1 | (repeat' split) <;> ring1)

theorem StatOp.scales (o : StatOp) (k : Kinds) (n : ℕ) (ht : o.seedsTwice = false) : (o.node (α := ℝ) k n).Scales := by
  have h0 : Fn.beq (0 : ℝ) 0 = true := by simp [Fn.beq]
  have h1 : Fn.beq (1 : ℝ) 0 = false := by simp [Fn.beq]
  have hg : ∀ g : ℝ, g ≠ 0 → Fn.beq g 0 = false := fun g hg => by simpa [Fn.beq] using hg
  cases o with
  | normalSSS =>
    refine (fun (c : ℝ) v => ⟨?_, fun g hg0 => ?_⟩ : (FastAD.normalSSS k).Scales)
    · simp [FastAD.normalSSS, h0]
    · simp only [FastAD.normalSSS, h1, hg g hg0, Bool.false_or]
      repeat' split
      all_goals simp only [List.map_cons, List.map_nil, List.nil_append, List.cons_append, List.cons.injEq, Prod.mk.injEq, true_and, and_true]
      all_goals refine_ands
      all_goals funext i; scale_tac
  | normalVSS =>
    refine (fun (c : NormalVSSCache ℝ) v => ⟨?_, fun g hg0 => ?_⟩ : (FastAD.normalVSS k n).Scales)
    · simp [FastAD.normalVSS, h0]
    · simp only [FastAD.normalVSS, h1, hg g hg0, Bool.false_or]
      repeat' split
      all_goals simp only [List.map_cons, List.map_nil, List.nil_append, List.cons_append, List.cons.injEq, Prod.mk.injEq, true_and, and_true]
      all_goals refine_ands
      all_goals funext i; scale_tac
  | normalVVS =>
    refine (fun (c : ℝ × ℝ) v => ⟨?_, fun g hg0 => ?_⟩ : (FastAD.normalVVS k n).Scales)
    · simp [FastAD.normalVVS, h0]
    · simp only [FastAD.normalVVS, h1, hg g hg0, Bool.false_or]
      repeat' split
      all_goals simp only [List.map_cons, List.map_nil, List.nil_append, List.cons_append, List.cons.injEq, Prod.mk.injEq, true_and, and_true]
      all_goals refine_ands
      all_goals funext i; scale_tac
  | normalVSV =>
    refine (fun (c : NormalVSVCache ℝ) v => ⟨?_, fun g hg0 => ?_⟩ : (FastAD.normalVSV k n).Scales)
    · simp [FastAD.normalVSV, h0]
    · simp only [FastAD.normalVSV, h1, hg g hg0, Bool.false_or]
      repeat' split
      all_goals simp only [List.map_cons, List.map_nil, List.nil_append, List.cons_append, List.cons.injEq, Prod.mk.injEq, true_and, and_true]
      all_goals refine_ands
      all_goals funext i; scale_tac
  | normalVVV =>
    refine (fun (c : ℝ × Bool) v => ⟨?_, fun g hg0 => ?_⟩ : (FastAD.normalVVV k n).Scales)
    · simp [FastAD.normalVVV, h0]
    · simp only [FastAD.normalVVV, h1, hg g hg0, Bool.false_or]
      repeat' split
      all_goals simp only [List.map_cons, List.map_nil, List.nil_append, List.cons_append, List.cons.injEq, Prod.mk.injEq, true_and, and_true]
      all_goals refine_ands
      all_goals funext i; scale_tac
  | normalMat sm =>
    refine (fun (c : NormalMatCache ℝ) v => ⟨?_, fun g hg0 => ?_⟩ : (FastAD.normalMat sm k n).Scales)
    · simp [FastAD.normalMat, h0]
    · simp only [FastAD.normalMat, h1, hg g hg0, Bool.false_or]
      repeat' split
      all_goals simp only [List.map_cons, List.map_nil, List.nil_append, List.cons_append, List.cons.injEq, Prod.mk.injEq, true_and, and_true]
      all_goals refine_ands
      all_goals funext i; scale_tac
  | cauchySSS =>
    refine (fun (c : ℝ) v => ⟨?_, fun g hg0 => ?_⟩ : (FastAD.cauchySSS ).Scales)
    · simp [FastAD.cauchySSS, h0]
    · simp only [FastAD.cauchySSS, h1, hg g hg0, Bool.false_or]
      repeat' split
      all_goals simp only [List.map_cons, List.map_nil, List.nil_append, List.cons_append, List.cons.injEq, Prod.mk.injEq, true_and, and_true]
      all_goals refine_ands
      all_goals funext i; scale_tac
  | cauchyScl => simp [StatOp.seedsTwice] at ht
  | cauchyVec => simp [StatOp.seedsTwice] at ht
  | uniformSSS =>
    refine (fun (c : ℝ) v => ⟨?_, fun g hg0 => ?_⟩ : (FastAD.uniformSSS k).Scales)
    · simp [FastAD.uniformSSS, h0]
    · simp only [FastAD.uniformSSS, h1, hg g hg0, Bool.false_or]
      repeat' split
      all_goals simp only [List.map_cons, List.map_nil, List.nil_append, List.cons_append, List.cons.injEq, Prod.mk.injEq, true_and, and_true]
      all_goals refine_ands
      all_goals funext i; scale_tac
  | uniformVec sa sm =>
    refine (fun (c : UniformCache ℝ) v => ⟨?_, fun g hg0 => ?_⟩ : (FastAD.uniformVec sa sm k n).Scales)
    · simp [FastAD.uniformVec, h0]
    · simp only [FastAD.uniformVec, h1, hg g hg0, Bool.false_or]
      repeat' split
      all_goals simp only [List.map_cons, List.map_nil, List.nil_append, List.cons_append, List.cons.injEq, Prod.mk.injEq, true_and, and_true]
      all_goals refine_ands
      all_goals funext i; scale_tac
  | bernoulliSS =>
    refine (fun (c : ℝ × ℝ) v => ⟨?_, fun g hg0 => ?_⟩ : (FastAD.bernoulliSS k).Scales)
    · simp [FastAD.bernoulliSS, h0]
    · simp only [FastAD.bernoulliSS, h1, hg g hg0, Bool.false_or]
      repeat' split
      all_goals simp only [List.map_cons, List.map_nil, List.nil_append, List.cons_append, List.cons.injEq, Prod.mk.injEq, true_and, and_true]
      all_goals refine_ands
      all_goals funext i; scale_tac
  | bernoulliVS =>
    refine (fun (c : BernoulliCache ℝ) v => ⟨?_, fun g hg0 => ?_⟩ : (FastAD.bernoulliVS k n).Scales)
    · simp [FastAD.bernoulliVS, h0]
    · simp only [FastAD.bernoulliVS, h1, hg g hg0, Bool.false_or]
      repeat' split
      all_goals simp only [List.map_cons, List.map_nil, List.nil_append, List.cons_append, List.cons.injEq, Prod.mk.injEq, true_and, and_true]
      all_goals refine_ands
      all_goals funext i; scale_tac
  | bernoulliVV =>
    refine (fun (c : Bool × Bool) v => ⟨?_, fun g hg0 => ?_⟩ : (FastAD.bernoulliVV k n).Scales)
    · simp [FastAD.bernoulliVV, h0]
    · simp only [FastAD.bernoulliVV, h1, hg g hg0, Bool.false_or]
      repeat' split
      all_goals simp only [List.map_cons, List.map_nil, List.nil_append, List.cons_append, List.cons.injEq, Prod.mk.injEq, true_and, and_true]
      all_goals refine_ands
      all_goals funext i; scale_tac
  | wishart =>
    refine (fun (c : WishartCache ℝ) v => ⟨?_, fun g hg0 => ?_⟩ : (FastAD.wishart k n).Scales)
    · simp [FastAD.wishart, h0]
    · simp only [FastAD.wishart, h1, hg g hg0, Bool.false_or]
      repeat' split
      all_goals simp only [List.map_cons, List.map_nil, List.nil_append, List.cons_append, List.cons.injEq, Prod.mk.injEq, true_and, and_true]
      all_goals refine_ands
      all_goals funext i; scale_tac

omit [HasInf ℝ] [LinAlg ℝ] in
theorem seedOf_lookup {l : List (Slot × (ℕ → ℝ))} (h : (l.map Prod.fst).Nodup) (s : Slot) (i : ℕ) : seedOf l s i = (l.lookup s).elim 0 fun f => f i := by
  induction l with
  | nil => rfl
  | cons q l ih =>
    obtain ⟨q1, q2⟩ := q
    simp only [List.map_cons, List.nodup_cons] at h
    have : seedOf ((q1, q2) :: l) s i = (if q1 = s then q2 i else 0) + seedOf l s i := by simp [seedOf]
    rw [this, List.lookup_cons]
    by_cases hs : s = q1
    · subst hs
      have h0 : seedOf l s i = 0 := by
        rw [seedOf]
        refine List.sum_eq_zero fun y hy => ?_
        obtain ⟨r, hr, rfl⟩ := List.mem_map.1 hy
        exact if_neg fun e => h.1 (List.mem_map.2 ⟨r, hr, e⟩)
      simp [h0]
    · rw [if_neg fun e => hs e.symm, zero_add, ih h.2]
      simp [show (s == q1) = false by simpa using hs]

/-- **Gradient of a log-density node**: its operands may depend in any differentiable way on a parameter. -/
theorem StatOp.hasFDerivAt [LawfulLinAlg] {o : StatOp} {k : Kinds} {n : ℕ} (hs : o.Sound k n) {V : E → Args ℝ} {t0 : E} {D : Slot → ℕ → E →L[ℝ] ℝ}
    (hreg : o.RegAt n V t0) (hD : ∀ s ∈ o.slots, ∀ i < (o.shape n s).size, HasFDerivAt (fun t => (V t).get s i) (D s i) t0)
    (hc : ∀ s ∈ o.slots, k.get s = .const → ∀ i < (o.shape n s).size, ∀ᶠ t in 𝓝 t0, (V t).get s i = (V t0).get s i) :
    ∃ c D', (o.node k n).once (V t0) = some (c, o.real n (V t0)) ∧ HasFDerivAt (fun t => o.real n (V t)) D' t0 ∧
      ∀ g, chain (o.dim n) (fun s i => (((o.node k n).beval c (V t0) g).lookup s).elim 0 fun f => f i) D = g • D' := by
  obtain ⟨ht, hadm, hcase, hdisc⟩ := hreg
  obtain ⟨c, h1, h2⟩ := o.computes k n hs ht (V t0) hadm.self_of_nhds
  have hreal : (fun t => o.real n (V t)) =ᶠ[𝓝 t0] fun t => orNegInf (o.valid n) (o.logp n) (V t) := by
    filter_upwards [hadm] with t h
    exact o.real_eq n (V t) h
  rw [← o.real_eq n (V t0) hadm.self_of_nhds] at h1
  have hlook : ∀ g, (fun s i => (((o.node k n).beval c (V t0) g).lookup s).elim 0 fun f => f i) = seedOf ((o.node k n).beval c (V t0) g) := by
    intro g
    funext s i
    exact (seedOf_lookup (o.beval_nodup k n c (V t0) g) s i).symm
  suffices h : ∃ D', HasFDerivAt (fun t => o.real n (V t)) D' t0 ∧ ∀ g, chain (o.dim n) (seedOf ((o.node k n).beval c (V t0) g)) D = g • D' by
    obtain ⟨D', h3, h4⟩ := h
    exact ⟨c, D', h1, h3, fun g => by rw [hlook]; exact h4 g⟩
  -- constant operands
  have hconst : ∀ s, (o.gradKinds k).get s = .const → ∀ i < o.dim n s, ∀ᶠ t in 𝓝 t0, (V t).get s i = (V t0).get s i := by
    intro s hk i hi
    have hmem : s ∈ o.slots := by
      by_contra h
      simp [StatOp.dim, h] at hi
    rw [StatOp.dim, if_pos hmem] at hi
    rw [StatOp.gradKinds] at hk
    cases hd : o.discrete with
    | false => rw [hd] at hk; exact hc s hmem hk i hi
    | true =>
      rw [hd, if_pos rfl] at hk
      cases s with
      | x =>
        filter_upwards [hdisc hd] with t h
        exact h i hi
      | a => exact hc _ hmem hk i hi
      | b => exact hc _ hmem hk i hi
  have hD' : ∀ s, ∀ i < o.dim n s, HasFDerivAt (fun t => (V t).get s i) (D s i) t0 := by
    intro s i hi
    have hmem : s ∈ o.slots := by
      by_contra h
      simp [StatOp.dim, h] at hi
    rw [StatOp.dim, if_pos hmem] at hi
    exact hD s hmem i hi
  have hzero : ∀ s, (o.gradKinds k).get s = .const → ∀ i < o.dim n s, D s i = 0 := by
    intro s hk i hi
    refine (hD' s i hi).unique ?_
    exact (hasFDerivAt_const ((V t0).get s i) t0).congr_of_eventuallyEq (hconst s hk i hi)
  obtain ⟨hv, hsm⟩ | ⟨ho, hinv⟩ := hcase
  · -- replace the operands outside a neighbourhood
    classical
    have hall : ∀ᶠ t in 𝓝 t0, o.Adm n (V t) ∧ ∀ s, (o.gradKinds k).get s = .const → ∀ i < o.dim n s, (V t).get s i = (V t0).get s i := by
      refine hadm.and ?_
      have : ∀ s, ∀ᶠ t in 𝓝 t0, (o.gradKinds k).get s = .const → ∀ i < o.dim n s, (V t).get s i = (V t0).get s i := by
        intro s
        by_cases hk : (o.gradKinds k).get s = .const
        · have := (Finset.range (o.dim n s)).eventually_all (l := 𝓝 t0) (p := fun i t => (V t).get s i = (V t0).get s i)
          have h3 := this.2 fun i hi => hconst s hk i (Finset.mem_range.1 hi)
          filter_upwards [h3] with t h _ i hi using h i (Finset.mem_range.2 hi)
        · exact .of_forall fun t h => absurd h hk
      filter_upwards [this .x, this .a, this .b] with t h1 h2 h3 s
      cases s
      · exact h1
      · exact h2
      · exact h3
    set W : E → Args ℝ := fun t => if o.Adm n (V t) ∧ ∀ s, (o.gradKinds k).get s = .const → ∀ i < o.dim n s, (V t).get s i = (V t0).get s i then V t else V t0 with hW
    have hWV : W =ᶠ[𝓝 t0] V := by
      filter_upwards [hall] with t h
      exact if_pos h
    have hsg : ∀ g, HasFDerivAt (fun t => g * orNegInf (o.valid n) (o.logp n) (V t)) (chain (o.dim n) (seedOf ((o.node k n).beval c (V t0) g)) D) t0 := by
      intro g
      have := (h2 g).1 hv hsm E W D t0 hWV.self_of_nhds (fun t => ?_) (fun s i hi => ?_) (fun s hk i hi => ⟨hzero s hk i hi, fun t => ?_⟩)
      · refine this.congr_of_eventuallyEq ?_
        filter_upwards [hWV] with t h
        rw [h]
      · simp only [hW]
        split
        · rename_i h; exact h.1
        · exact hadm.self_of_nhds
      · refine (hD' s i hi).congr_of_eventuallyEq ?_
        filter_upwards [hWV] with t h
        rw [h]
      · simp only [hW]
        split
        · rename_i h; exact h.2 s hk i hi
        · rfl
    have h1' := (hsg 1).congr_of_eventuallyEq (f₁ := fun t => o.real n (V t)) (by filter_upwards [hreal] with t h; rw [h, one_mul])
    refine ⟨_, h1', fun g => ?_⟩
    refine (hsg g).unique ?_
    refine (h1'.const_mul g).congr_of_eventuallyEq ?_
    filter_upwards [hreal] with t h
    rw [h]
  · refine ⟨0, ?_, fun g => ?_⟩
    · refine (hasFDerivAt_const (-HasInf.inf) t0).congr_of_eventuallyEq ?_
      filter_upwards [hreal, hinv] with t h h'
      rw [h]
      exact if_neg h'
    · rw [(h2 g).2 hinv.self_of_nhds ho]
      simp [chain, seedOf]

end

end FastAD
