import Verif.Proof.Calculus

/-!
# `grad` is linear in the seed
-/

namespace FastAD

variable [HasInf ℝ] [LinAlg ℝ]
set_option linter.unusedSectionVars false

/-- linear combination of seeds -/
def lin (c : ℝ) (f g : ℕ → ℝ) : ℕ → ℝ := fun k => c * f k + g k

def LinClaim (m : ℕ → ℝ) (e : Expr ℝ) : Prop :=
  e.WF → e.NoPole m → ∀ (c : ℝ) (f g : ℕ → ℝ) (a : ℕ), e.grad m (lin c f g) a = c * e.grad m f a + e.grad m g a

theorem LinClaim.zero {m : ℕ → ℝ} {e : Expr ℝ} (h : LinClaim m e) (hwf : e.WF) (hp : e.NoPole m) (a : ℕ) :
    e.grad m (fun _ => 0) a = 0 := by
  have := h hwf hp 1 (fun _ => 0) (fun _ => 0) a
  have h0 : lin 1 (fun _ => 0) (fun _ => 0) = fun _ => (0:ℝ) := by funext k; simp [lin]
  rw [h0] at this
  linarith

theorem collapse_lin (o w : Shape) (n : ℕ) (c : ℝ) (f g : ℕ → ℝ) :
    collapse o w n (lin c f g) = lin c (collapse o w n f) (collapse o w n g) := by
  funext k
  simp only [collapse]
  split
  · simp only [sumN_eq, lin, Finset.sum_add_distrib, Finset.mul_sum]
  · rfl

/-- the seed handed to the operand of a reduction is a multiple of the incoming seed -/
theorem RedOp.bmap1_lin (op : RedOp) (d : ℕ) (x : ℕ → ℝ) (f : ℝ) : ∃ T : Option (ℕ → ℝ), ∀ seed : ℝ,
    (T = none → op.bmap1 d seed x f = none) ∧
    ∀ t, T = some t → op.bmap1 d seed x f = (some fun k => seed * t k) ∨ (seed = 0 ∧ op.bmap1 d seed x f = none) := by
  cases op with
  | sum => exact ⟨some fun _ => 1, fun seed => ⟨by simp, fun t ht => by cases ht; left; simp [RedOp.bmap1]⟩⟩
  | norm =>
    refine ⟨some fun k => 2 * x k, fun seed => ⟨by simp, fun t ht => ?_⟩⟩
    cases ht; left; simp only [RedOp.bmap1]; congr 1; funext k; ring
  | det p =>
    by_cases hv : (RedOp.det p).valid d x = true
    · refine ⟨some fun k => f * invT p d x k, fun seed => ⟨by simp, fun t ht => ?_⟩⟩
      cases ht
      by_cases hs : seed = 0
      · right; simp [RedOp.bmap1, hs, beq_iff]
      · left
        have : Fn.beq seed 0 = false := by simpa [Fn.beq] using hs
        simp only [RedOp.bmap1, this, hv, Bool.not_true, Bool.or_false, Bool.false_eq_true, if_false]
        congr 1; funext k; ring
    · exact ⟨none, fun seed => ⟨fun _ => by simp [RedOp.bmap1, hv], by simp⟩⟩
  | stat o k => exact ⟨none, fun seed => ⟨fun _ => rfl, by simp⟩⟩
  | logDet p =>
    by_cases hv : (RedOp.logDet p).valid d x = true
    · refine ⟨some fun k => invT p d x k, fun seed => ⟨by simp, fun t ht => ?_⟩⟩
      cases ht
      by_cases hs : seed = 0
      · right; simp [RedOp.bmap1, hs, beq_iff]
      · left
        have : Fn.beq seed 0 = false := by simpa [Fn.beq] using hs
        simp only [RedOp.bmap1, this, hv, Bool.not_true, Bool.or_false, Bool.false_eq_true, if_false]
    · exact ⟨none, fun seed => ⟨fun _ => by simp [RedOp.bmap1, hv], by simp⟩⟩

theorem lookup_map_snd {f : (ℕ → ℝ) → ℕ → ℝ} (l : List (Slot × (ℕ → ℝ))) (s : Slot) : (l.map fun q => (q.1, f q.2)).lookup s = (l.lookup s).map f := by
  induction l with
  | nil => rfl
  | cons q l ih =>
    obtain ⟨q1, q2⟩ := q
    simp only [List.map_cons, List.lookup_cons, ih]
    cases s == q1 <;> rfl

/-- the seeds handed to the operands of a reduction are multiples of the incoming seed -/
theorem RedOp.bmap_lin (op : RedOp) (ht : ∀ o k, op = .stat o k → o.seedsTwice = false) (args : List (Shape × (ℕ → ℝ))) (f : ℝ) :
    ∃ T : ℕ → Option (ℕ → ℝ), ∀ (seed : ℝ) (i : ℕ), (T i = none → op.bmap seed args f i = none) ∧
      ∀ t, T i = some t → op.bmap seed args f i = (some fun k => seed * t k) ∨ (seed = 0 ∧ op.bmap seed args f i = none) := by
  have many : args.length ≠ 1 → ∃ T : ℕ → Option (ℕ → ℝ), ∀ (seed : ℝ) (i : ℕ), (T i = none → op.bmap seed args f i = none) ∧
      ∀ t, T i = some t → op.bmap seed args f i = (some fun k => seed * t k) ∨ (seed = 0 ∧ op.bmap seed args f i = none) := by
    intro hl
    by_cases hst : ∃ o k, op = .stat o k
    · obtain ⟨o, k, rfl⟩ := hst
      simp only [bmap_stat args hl]
      cases ha : statArgs args with
      | none => exact ⟨fun _ => none, fun seed i => ⟨fun _ => by simp [StatOp.bmap, ha], by simp⟩⟩
      | some p =>
        cases ho : (o.node k p.1).once p.2 with
        | none => exact ⟨fun _ => none, fun seed i => ⟨fun _ => by simp [StatOp.bmap, ha, ho], by simp⟩⟩
        | some r =>
          have hb : ∀ seed i, o.bmap k seed args i = ((o.node k p.1).beval r.1 p.2 seed).lookup (slotOf i) := by
            intro seed i
            simp only [StatOp.bmap, ha, Option.bind_eq_bind, Option.bind_some, ho]
          obtain ⟨h0, h1⟩ := o.scales k p.1 (ht o k rfl) r.1 p.2
          refine ⟨fun i => ((o.node k p.1).beval r.1 p.2 1).lookup (slotOf i), fun seed i => ⟨fun h => ?_, fun t h => ?_⟩⟩ <;> dsimp only at h
          · rw [hb]
            by_cases hs : seed = 0
            · rw [hs, h0]; rfl
            · rw [h1 seed hs, lookup_map_snd (f := fun t i => seed * t i), h]; rfl
          · rw [hb]
            by_cases hs : seed = 0
            · right; rw [hs, h0]; exact ⟨rfl, rfl⟩
            · left; rw [h1 seed hs, lookup_map_snd (f := fun t i => seed * t i), h]; rfl
    · have : ∀ seed i, op.bmap seed args f i = none := by
        intro seed i
        match args, hl with
        | [], _ => cases op <;> first | rfl | exact (hst ⟨_, _, rfl⟩).elim
        | _ :: _ :: _, _ => cases op <;> first | rfl | exact (hst ⟨_, _, rfl⟩).elim
      exact ⟨fun _ => none, fun seed i => ⟨fun _ => this seed i, by simp⟩⟩
  match args, many with
  | [(sh, x)], _ =>
    obtain ⟨T, hT⟩ := op.bmap1_lin sh.rows x f
    refine ⟨fun i => if i = 0 then T else none, fun seed i => ?_⟩
    simp only [RedOp.bmap]
    by_cases hi : i = 0
    · simp only [hi, if_true]; exact hT seed
    · simp [hi]
  | [], h => exact h (by simp)
  | _ :: _ :: _, h => exact h (by simp)

theorem grad_linear (m : ℕ → ℝ) (e : Expr ℝ) : LinClaim m e := by
  have list : ∀ es : Exprs ℝ, (∀ e ∈ es.toList, LinClaim m e) → es.WFs → es.NoPoles m →
      ∀ (c : ℝ) (F G : ℕ → ℕ → ℝ) (i a : ℕ), es.grads m (fun j => some (lin c (F j) (G j))) i a =
        c * es.grads m (fun j => some (F j)) i a + es.grads m (fun j => some (G j)) i a := by
    intro es
    induction es using Exprs.rec (motive_1 := fun _ => True) with
    | nil => intros; simp [Exprs.grads]
    | cons e es _ ih =>
      intro hP hwf hp c F G i a
      simp only [Exprs.grads]
      rw [ih (fun x hx => hP x (by simp [Exprs.toList, hx])) hwf.2 hp.2, hP e (by simp [Exprs.toList]) hwf.1 hp.1]
      ring
    | _ => trivial
  induction e using Expr.induct with
  | var v =>
    intro _ _ c f g a
    simp only [Expr.grad, lin]
    split <;> simp
  | const => intro _ _ c f g a; simp [Expr.grad]
  | cview => intro _ _ c f g a; simp [Expr.grad]
  | unary op e w ih =>
    intro hwf hp c f g a
    simp only [Expr.grad]
    rw [← ih hwf.1 hp]
    congr 1
    funext k
    simp only [lin]
    rw [UOp.bmap_linear, UOp.bmap_linear op (f k), UOp.bmap_linear op (g k)]
    ring
  | binary op l r w ihl ihr =>
    intro hwf hp c f g a
    obtain ⟨hwl, hwr, -⟩ := hwf
    simp only [Expr.grad]
    split
    · simp
    · have hl : (fun k => op.bl (lin c f g k) (bcast l.shape (l.denote m) k) (bcast r.shape (r.denote m) k)
          ((Expr.binary op l r w).denote m k)) = lin c (fun k => op.bl (f k) (bcast l.shape (l.denote m) k) (bcast r.shape (r.denote m) k)
          ((Expr.binary op l r w).denote m k)) (fun k => op.bl (g k) (bcast l.shape (l.denote m) k) (bcast r.shape (r.denote m) k)
          ((Expr.binary op l r w).denote m k)) := by
        funext k; simp only [lin]; rw [BOp.bl_linear, BOp.bl_linear op (f k), BOp.bl_linear op (g k)]; ring
      have hr : (fun k => op.br (lin c f g k) (bcast l.shape (l.denote m) k) (bcast r.shape (r.denote m) k)
          ((Expr.binary op l r w).denote m k)) = lin c (fun k => op.br (f k) (bcast l.shape (l.denote m) k) (bcast r.shape (r.denote m) k)
          ((Expr.binary op l r w).denote m k)) (fun k => op.br (g k) (bcast l.shape (l.denote m) k) (bcast r.shape (r.denote m) k)
          ((Expr.binary op l r w).denote m k)) := by
        funext k; simp only [lin]; rw [BOp.br_linear, BOp.br_linear op (f k), BOp.br_linear op (g k)]; ring
      rw [hl, hr, collapse_lin, collapse_lin, ihl hwl hp.1, ihr hwr hp.2]
      ring
  | pow n e w ih =>
    intro hwf hp c f g a
    simp only [Expr.grad]
    split
    · rw [ih.zero hwf.1 hp.1]; simp
    · split
      · exact ih hwf.1 hp.1 c f g a
      · rename_i h0 h1
        have hz : ∀ k < e.size, 0 ≤ n ∨ e.denote m k ≠ 0 := by
          intro k hk
          rcases lt_or_ge n 0 with hn | hn
          · exact Or.inr (hp.2 hn k hk)
          · exact Or.inl hn
        rw [← ih hwf.1 hp.1]
        refine congrFun (grad_congr m e _ _ hwf.1 fun k hk => ?_) a
        simp only [lin, Expr.denote]
        rw [powSeed_eq n h0 h1 (hz k hk), powSeed_eq n h0 h1 (hz k hk), powSeed_eq n h0 h1 (hz k hk)]
        ring
  | prodElem e w c ih =>
    intro hwf hp c f g a
    simp only [Expr.grad]
    rw [← ih hwf.1 hp]
    congr 1
    funext k
    simp only [lin]
    ring
  | transpose e w ih =>
    intro hwf hp c f g a
    simp only [Expr.grad]
    rw [← ih hwf.1 hp]
    rfl
  | dot l r w ihl ihr =>
    intro hwf hp c f g a
    simp only [Expr.grad]
    have hl : dotLSeed l.shape.rows l.shape.cols w.shape.cols (r.denote m) (lin c f g) =
        lin c (dotLSeed l.shape.rows l.shape.cols w.shape.cols (r.denote m) f)
          (dotLSeed l.shape.rows l.shape.cols w.shape.cols (r.denote m) g) := by
      funext k
      simp only [dotLSeed, lin, sumN_eq, Finset.mul_sum, ← Finset.sum_add_distrib]
      exact Finset.sum_congr rfl fun j _ => by ring
    have hr : dotRSeed l.shape.rows l.shape.cols (l.denote m) (lin c f g) =
        lin c (dotRSeed l.shape.rows l.shape.cols (l.denote m) f) (dotRSeed l.shape.rows l.shape.cols (l.denote m) g) := by
      funext k
      simp only [dotRSeed, lin, sumN_eq, Finset.mul_sum, ← Finset.sum_add_distrib]
      exact Finset.sum_congr rfl fun j _ => by ring
    rw [hl, hr, ihl hwf.1 hp.1, ihr hwf.2.1 hp.2]
    ring
  | sumIter es w ih =>
    intro hwf hp c f g a
    simp only [Expr.grad]
    exact list es ih hwf.1 hp c (fun _ => f) (fun _ => g) 0 a
  | prodIter es w ih =>
    intro hwf hp c f g a
    simp only [Expr.grad]
    rw [← list es ih hwf.1 hp c]
    congr 1
    funext i
    congr 1
    funext k
    simp only [lin]
    ring
  | reduce op es w ih =>
    intro hwf hp c f g a
    obtain ⟨hwfs, -, -⟩ := hwf
    obtain ⟨T, hT⟩ := op.bmap_lin hp.2 ((es.denotes m).map fun x => (x.1, trunc x.1.size x.2)) ((Expr.reduce op es w).denote m 0)
    simp only [Expr.grad]
    have split : ∀ (e : Expr ℝ) (es' : Exprs ℝ) (sd : ℕ → Option (ℕ → ℝ)) (i : ℕ), (Exprs.cons e es').grads m sd i a =
        ((sd i).elim 0 fun g => e.grad m g a) + es'.grads m sd (i + 1) a := by
      intro e es' sd i
      simp only [Exprs.grads]
      cases sd i <;> rfl
    have key : ∀ es' : Exprs ℝ, (∀ e ∈ es'.toList, LinClaim m e) → es'.WFs → es'.NoPoles m → ∀ i,
        es'.grads m (fun i => op.bmap (lin c f g 0) ((es.denotes m).map fun x => (x.1, trunc x.1.size x.2)) ((Expr.reduce op es w).denote m 0) i) i a =
        c * es'.grads m (fun i => op.bmap (f 0) ((es.denotes m).map fun x => (x.1, trunc x.1.size x.2)) ((Expr.reduce op es w).denote m 0) i) i a +
        es'.grads m (fun i => op.bmap (g 0) ((es.denotes m).map fun x => (x.1, trunc x.1.size x.2)) ((Expr.reduce op es w).denote m 0) i) i a := by
      intro es'
      induction es' using Exprs.rec (motive_1 := fun _ => True) with
      | nil => intros; simp [Exprs.grads]
      | cons e es' _ ih' =>
        intro hP hwf hp i
        rw [split, split, split, ih' (fun x hx => hP x (by simp [Exprs.toList, hx])) hwf.2 hp.2]
        have he := hP e (by simp [Exprs.toList])
        have one : ∀ s : ℝ, ((op.bmap s ((es.denotes m).map fun x => (x.1, trunc x.1.size x.2)) ((Expr.reduce op es w).denote m 0) i).elim 0
            fun g => e.grad m g a) = (T i).elim 0 fun t => e.grad m (fun k => s * t k) a := by
          intro s
          cases hTT : T i with
          | none => rw [(hT s i).1 hTT]; rfl
          | some t =>
            rcases (hT s i).2 t hTT with h | ⟨h0, h⟩
            · rw [h]; rfl
            · rw [h]
              simp only [h0, zero_mul, Option.elim]
              exact (he.zero hwf.1 hp.1 a).symm
        rw [one, one, one]
        cases T i with
        | none => simp
        | some t =>
          simp only [Option.elim]
          have h1 := he hwf.1 hp.1 c (fun k => f 0 * t k) (fun k => g 0 * t k) a
          have h2 : (fun k => lin c f g 0 * t k) = lin c (fun k => f 0 * t k) (fun k => g 0 * t k) := by
            funext k; simp only [lin]; ring
          rw [h2, h1]
          ring
      | _ => trivial
    exact key es ih hwfs hp.1 0
  | ifElse c x y w ihc ihx ihy =>
    intro hwf hp c' f g a
    obtain ⟨wfc, wfx, wfy, -⟩ := hwf
    simp only [Expr.NoPole] at hp
    simp only [Expr.grad]
    split
    · rename_i h; rw [if_pos h] at hp; exact ihx wfx hp c' f g a
    · rename_i h; rw [if_neg h] at hp; exact ihy wfy hp c' f g a
  | eq | opEq | glue | forEach => intro hwf; exact hwf.elim

end FastAD
