import Verif.Proof.RelateInside
import Verif.Proof.MapProg
import Verif.Spec.InsideProg

/-!
# Programs run over related arithmetics
-/

namespace FastAD

set_option linter.unusedSectionVars false

variable {α : Type} [Zero α] [One α] [Add α] [Sub α] [Neg α] [Mul α] [Div α] [NatCast α] [IntCast α]
variable [Fn α] [HasInf α] [LinAlg α]
variable {ι : Type} {β : ι → Type} [∀ i, Zero (β i)] [∀ i, One (β i)] [∀ i, Add (β i)] [∀ i, Sub (β i)] [∀ i, Neg (β i)]
variable [∀ i, Mul (β i)] [∀ i, Div (β i)] [∀ i, NatCast (β i)] [∀ i, IntCast (β i)]
variable [∀ i, Fn (β i)] [∀ i, HasInf (β i)] [∀ i, LinAlg (β i)]
variable {γ : Type} [Zero γ] [One γ] [Add γ] [Sub γ] [Neg γ] [Mul γ] [Div γ] [NatCast γ] [IntCast γ] [Fn γ] [HasInf γ] [LinAlg γ]
variable (f : γ → α) (g : ∀ i, γ → β i) {φ : Filter ι} {D : Doms α} {D' : ∀ i, Doms (β i)} {R : α → (∀ i, β i) → Prop}

/-- the index of the coefficient of the operand of a compound assignment -/
theorem opIdx_lt {v : View} {e : Expr γ} (hok : e.shape.Ok) (hs : e.shape.isScl = true ∨ e.shape = v.shape) {k : ℕ} (hk : k < v.size) :
    (if e.shape.isScl then 0 else k) < e.size := by
  by_cases h : e.shape.isScl = true
  · rw [if_pos h, Expr.size, hok.size_scl h]; exact Nat.one_pos
  · rw [if_neg h, Expr.size, hs.resolve_left h]; exact hk

theorem Related.arith (hR : Related φ D R) {op : AOp} {x y : α} {c d : ∀ i, β i} (hd : op = .div → D.den y) (hx : R x c) (hy : R y d) :
    R (op.arith x y) fun i => op.arith (c i) (d i) := by
  cases op
  · exact hR.add hx hy
  · exact hR.sub hx hy
  · exact hR.mul hx hy
  · exact hR.div (hd rfl) hx hy

theorem Related.opbl (hR : Related φ D R) {op : AOp} {s x y : α} {σ c d : ∀ i, β i} (hd : op = .div → D.den y) (hs : R s σ) (hy : R y d) :
    R (op.bl s x y) fun i => op.bl (σ i) (c i) (d i) := by
  cases op
  · exact hs
  · exact hs
  · exact hR.mul hs hy
  · exact hR.div (hd rfl) hs hy

theorem Related.opbr (hR : Related φ D R) (hsq : ∀ y, D.den y → D.den (y * y)) {op : AOp} {s x y : α} {σ c d : ∀ i, β i} (hd : op = .div → D.den y)
    (hs : R s σ) (hx : R x c) (hy : R y d) : R (op.br s x y) fun i => op.br (σ i) (c i) (d i) := by
  cases op
  · exact hs
  · exact hR.neg hs
  · exact hR.mul hs hx
  · exact hR.div (hsq _ (hd rfl)) (hR.mul (hR.neg hs) hx) (hR.mul hy hy)

section
variable (hR : Related φ D R) (hc : ∀ c, R (f c) fun i => g i c) {m : ℕ → α} {m' : ∀ i, ℕ → β i}
include hR hc

/-- values of statements are related -/
theorem related_result {x : Expr γ} (hx : x.WFStmt) (hi : (x.map f).InsideStmt D m) (hm : ∀ a ∈ x.need, R (m a) fun i => m' i a) :
    ∀ k < x.size, R ((x.map f).exactResult m k) fun i => (x.map (g i)).exactResult (m' i) k := by
  intro k hk
  by_cases hs : x.isStmt = false
  · have hp := WFStmt_pure hs hx
    have key : (x.map f).Inside D m → R ((x.map f).exact m k) fun i => (x.map (g i)).exact (m' i) k := fun hi =>
      (related_exact f g hR hc x hp.1 hi (fun a ha => hm a (by rw [hp.1.need]; exact ha)) k hk).1
    cases x <;> first | exact key hi | exact hx.elim | simp [Expr.isStmt] at hs
  · cases x with
    | eq v e w =>
      refine (related_exact f g hR hc e hx.1 hi hm k ?_).1
      rw [Expr.size, hx.2.2.1, ← hx.2.2.2.1]; exact hk
    | opEq op v e w c =>
      have hk : k < v.size := by rw [View.size, ← hx.2.2.2.1]; exact hk
      have hj := opIdx_lt hx.1.shapeOk hx.2.2.1 hk
      simp only [Expr.map, Expr.exactResult, map_shape]
      refine hR.arith (fun h => hi.2 h _ (by rw [map_size]; exact hj)) (hm _ (Or.inr (add_mem_rng hk))) ?_
      exact (related_exact f g hR hc e hx.1 hi.1 (fun a ha => hm a (Or.inl ha)) _ hj).1
    | glue => exact hx.elim
    | forEach => exact hx.elim
    | _ => simp [Expr.isStmt] at hs

/-- stores after a statement are related -/
theorem related_exec {x : Expr γ} (hx : x.WFStmt) (hi : (x.map f).InsideStmt D m) {K : Set ℕ} (hK : x.need ⊆ K) (hm : ∀ a ∈ K, R (m a) fun i => m' i a) :
    ∀ a ∈ K ∪ x.place, R ((x.map f).exactExec m a) fun i => (x.map (g i)).exactExec (m' i) a := by
  intro a ha
  have hres := related_result f g hR hc hx hi fun a ha => hm a (hK ha)
  have key : ∀ v : View, x.target = some v → v.shape = x.shape → (a ∉ rng v.val v.size → a ∈ K) →
      R ((x.map f).exactExec m a) fun i => (x.map (g i)).exactExec (m' i) a := by
    intro v hv hsh hK'
    simp only [Expr.exactExec, map_target, hv, assign]
    by_cases h : addr v.val ≤ a ∧ a < addr v.val + v.size
    · simp only [if_pos h]
      exact hres _ (by rw [Expr.size, ← hsh]; show _ < v.size; omega)
    · simp only [if_neg h]
      exact hm a (hK' fun h' => h (mem_rng.1 h'))
  have pure : x.target = none → x.place = ∅ → R ((x.map f).exactExec m a) fun i => (x.map (g i)).exactExec (m' i) a := by
    intro h1 h2
    rw [h2, Set.union_empty] at ha
    simp only [Expr.exactExec, map_target, h1]
    exact hm a ha
  cases x with
  | eq v e w => exact key v rfl hx.2.2.2.1.symm fun h => ha.resolve_right h
  | opEq op v e w c => exact key v rfl hx.2.2.2.1.symm fun _ => ha.resolve_right fun h => h.elim
  | glue => exact hx.elim
  | forEach => exact hx.elim
  | _ => exact pure rfl rfl

open Classical in
/-- adjoints after the backward evaluation of a statement are related -/
theorem related_gbk (hsq : ∀ y, D.den y → D.den (y * y)) {x : Expr γ} (hx : x.WFStmt) (hi : (x.map f).InsideStmt D m) (hm : ∀ a ∈ x.need, R (m a) fun i => m' i a)
    {seed : ℕ → α} {seed' : ∀ i, ℕ → β i} (hs : ∀ k < x.size, R (seed k) fun i => seed' i k) {K : Set ℕ} (hK : x.mentA ⊆ K)
    {A : ℕ → α} {A' : ∀ i, ℕ → β i} (hA : ∀ a ∈ K, R (A a) fun i => A' i a) :
    ∀ a ∈ K, R ((x.map f).gbk m seed A a) fun i => (x.map (g i)).gbk (m' i) (seed' i) (A' i) a := by
  intro a ha
  by_cases hst : x.isStmt = false
  · have hp := WFStmt_pure hst hx
    have key : (x.map f).Inside D m → R ((x.map f).gback m seed a (A a)) fun i => (x.map (g i)).gback (m' i) (seed' i) a (A' i a) := fun hi =>
      related_gback f g hR hc x hp.1 hi (fun a ha => hm a (by rw [hp.1.need]; exact ha)) seed seed' hs a _ _ (hA a ha)
    cases x <;> first | exact key hi | exact hx.elim | simp [Expr.isStmt] at hst
  · cases x with
    | eq v e w =>
      have hsz : v.size = w.size := by rw [View.size, View.size, hx.2.2.2.1]
      have hse : e.size = v.size := by rw [Expr.size, hx.2.2.1, View.size]
      have hv : ∀ k < v.size, R (A (addr v.adj + k)) fun i => A' i (addr v.adj + k) := fun k hk => hA _ (hK (Or.inr (add_mem_rng hk)))
      have hs' : ∀ k < v.size, R (seed k) fun i => seed' i k := fun k hk => hs k (by rw [hsz] at hk; exact hk)
      simp only [Expr.map, Expr.gbk]
      refine related_gback f g hR hc e hx.1 hi hm _ _ (fun k hk => ?_) a _ _ ?_
      · rw [hse] at hk
        exact hR.add (hv k hk) (hs' k hk)
      · by_cases h : a ∈ rng v.adj v.size
        · simp only [if_pos h]
          refine hR.add (hA a ha) (hs' _ ?_)
          have := mem_rng.1 h
          omega
        · simp only [if_neg h]
          exact hA a ha
    | opEq op v e w c =>
      obtain ⟨h1, h2, h3, h4, h5, h6, h7⟩ := hx
      have hsz : v.size = w.size := by rw [View.size, View.size, h4]
      have hv : ∀ k < v.size, R (A (addr v.adj + k)) fun i => A' i (addr v.adj + k) := fun k hk => hA _ (hK (Or.inr (add_mem_rng hk)))
      have hs' : ∀ k < v.size, R (seed k) fun i => seed' i k := fun k hk => hs k (by rw [hsz] at hk; exact hk)
      have hme : ∀ a ∈ e.reads, R (m a) fun i => m' i a := fun a ha => hm a (Or.inl ha)
      have hmv : ∀ k < v.size, R (m (addr v.val + k)) fun i => m' i (addr v.val + k) := fun k hk => hm _ (Or.inr (add_mem_rng hk))
      have hex := fun k hk => (related_exact f g hR hc e h1 hi.1 hme k hk).1
      have hpo := fun k hk => related_post f g hR hc e h1 hi.1 hme k hk
      have hj : ∀ k < v.size, (if e.shape.isScl then 0 else k) < e.size := fun k hk => opIdx_lt h1.shapeOk h3 hk
      have hden : ∀ k < v.size, op = .div → D.den ((e.map f).exact m (if e.shape.isScl then 0 else k)) := fun k hk h => hi.2 h _ (by rw [map_size]; exact hj k hk)
      have hgb : R ((e.map f).gback m (collapse e.shape v.shape v.size fun k => op.br (A (addr v.adj + k) + seed k) (m (addr v.val + k))
            ((e.map f).exact m (if e.shape.isScl then 0 else k))) a (if a ∈ rng v.adj v.size then 0 else A a))
          fun i => (e.map (g i)).gback (m' i) (collapse e.shape v.shape v.size fun k => op.br (A' i (addr v.adj + k) + seed' i k) (m' i (addr v.val + k))
            ((e.map (g i)).exact (m' i) (if e.shape.isScl then 0 else k))) a (if a ∈ rng v.adj v.size then 0 else A' i a) := by
        refine related_gback f g hR hc e h1 hi.1 hme _ _ (hR.collapse (fun k hk => ?_) ?_) a _ _ ?_
        · exact hR.opbr hsq (hden k hk) (hR.add (hv k hk) (hs' k hk)) (hmv k hk) (hex _ (hj k hk))
        · rcases h3 with h3 | h3
          · by_cases hvs : v.shape.isScl = true
            · right; rw [Expr.size, h1.shapeOk.size_scl h3, View.size, h2.size_scl hvs]
            · left; exact ⟨h3, by simpa using hvs⟩
          · right; rw [Expr.size, h3, View.size]
        · by_cases h : a ∈ rng v.adj v.size
          · simp only [if_pos h]; exact hR.zero
          · simp only [if_neg h]; exact hA a ha
      simp only [Expr.map, Expr.gbk, map_shape]
      by_cases h : a ∈ rng v.adj v.size
      · have hk : a - addr v.adj < v.size := by have := mem_rng.1 h; omega
        simp only [if_pos h] at hgb ⊢
        refine hR.add hgb ?_
        by_cases hvs : v.shape.isScl = true
        · simp only [hvs, if_true]
          exact hR.opbl (hden _ hk) (hR.add (hA a ha) (hs' _ hk)) (hex _ (hj _ hk))
        · simp only [hvs]
          refine hR.opbl (fun hop => ?_) (hR.add (hA a ha) (hs' _ hk)) (hpo _ (hj _ hk))
          rw [post_of_inside f g hR hc h1 hi.1 hme h6]
          exact hden _ hk hop
      · simp only [if_neg h] at hgb ⊢
        exact hgb
    | glue => exact hx.elim
    | forEach => exact hx.elim
    | _ => simp [Expr.isStmt] at hst

end

section
variable (hR : Related φ D R) (hc : ∀ c, R (f c) fun i => g i c)
include hR hc

theorem related_execL : ∀ (L : List (Expr γ)) (K : Set ℕ) (m : ℕ → α) (m' : ∀ i, ℕ → β i), (∀ x ∈ L, x.WFStmt) → NeedOk K L → InsideSeq D (L.map (Expr.map f)) m →
    (∀ a ∈ K, R (m a) fun i => m' i a) →
    (∀ a ∈ K ∪ places L, R (exactExecL (L.map (Expr.map f)) m a) fun i => exactExecL (L.map (Expr.map (g i))) (m' i) a) ∧
      ∀ k < sizeR L, R (exactResultL (L.map (Expr.map f)) m k) fun i => exactResultL (L.map (Expr.map (g i))) (m' i) k := by
  intro L
  induction L with
  | nil =>
    intro K m m' _ _ _ hm
    refine ⟨fun a ha => hm a (ha.resolve_right ?_), fun k hk => absurd hk (Nat.not_lt_zero k)⟩
    rintro ⟨x, hx, -⟩
    simp at hx
  | cons x xs ih =>
    intro K m m' hwf hn hi hm
    have h1 := related_exec f g hR hc (hwf x (by simp)) hi.1 hn.1 hm
    obtain ⟨h2, h3⟩ := ih (K ∪ x.place) _ (fun i => (x.map (g i)).exactExec (m' i)) (fun y hy => hwf y (by simp [hy])) hn.2 hi.2 h1
    refine ⟨fun a ha => h2 a (by rw [places_cons] at ha; rwa [Set.union_assoc]), ?_⟩
    cases xs with
    | nil => exact related_result f g hR hc (hwf x (by simp)) hi.1 fun a ha => hm a (hn.1 ha)
    | cons y ys => exact h3

theorem related_gbackL (hsq : ∀ y, D.den y → D.den (y * y)) {DA : Set ℕ} {seed : ℕ → α} {seed' : ∀ i, ℕ → β i} {A : ℕ → α} {A' : ∀ i, ℕ → β i}
    (hA : ∀ a ∈ DA, R (A a) fun i => A' i a) :
    ∀ (L : List (Expr γ)) (K : Set ℕ) (m : ℕ → α) (m' : ∀ i, ℕ → β i), (∀ x ∈ L, x.WFStmt ∧ x.mentA ⊆ DA) → NeedOk K L → InsideSeq D (L.map (Expr.map f)) m →
    (∀ a ∈ K, R (m a) fun i => m' i a) → (∀ k < sizeR L, R (seed k) fun i => seed' i k) →
    ∀ a ∈ DA, R (gbackL (L.map (Expr.map f)) m seed A a) fun i => gbackL (L.map (Expr.map (g i))) (m' i) (seed' i) (A' i) a := by
  intro L
  induction L with
  | nil => exact fun _ _ _ _ _ _ _ _ => hA
  | cons x xs ih =>
    intro K m m' hwf hn hi hm hs
    have h1 := related_exec f g hR hc (hwf x (by simp)).1 hi.1 hn.1 hm
    have hmx : ∀ a ∈ x.need, R (m a) fun i => m' i a := fun a ha => hm a (hn.1 ha)
    cases xs with
    | nil =>
      refine related_gbk f g hR hc hsq (hwf x (by simp)).1 hi.1 hmx ?_ (hwf x (by simp)).2 hA
      exact hs
    | cons y ys =>
      have h2 := ih (K ∪ x.place) _ (fun i => (x.map (g i)).exactExec (m' i)) (fun y hy => hwf y (by simp [hy])) hn.2 hi.2 h1 hs
      exact related_gbk f g hR hc hsq (hwf x (by simp)).1 hi.1 hmx (seed := fun _ => 0) (seed' := fun _ _ => 0) (fun _ _ => hR.zero) (hwf x (by simp)).2 h2

theorem related_insideStmt (hD : DomsTo φ D D' R) {m : ℕ → α} {m' : ∀ i, ℕ → β i} {x : Expr γ} (hx : x.WFStmt) (hi : (x.map f).InsideStmt D m)
    (hm : ∀ a ∈ x.need, R (m a) fun i => m' i a) : ∀ᶠ i in φ, (x.map (g i)).InsideStmt (D' i) (m' i) := by
  by_cases hs : x.isStmt = false
  · have hp := WFStmt_pure hs hx
    have key : (x.map f).Inside D m → ∀ᶠ i in φ, (x.map (g i)).Inside (D' i) (m' i) := fun hi =>
      related_inside f g hR hD hc x hp.1 hi fun a ha => hm a (by rw [hp.1.need]; exact ha)
    cases x <;> first | exact key hi | exact hx.elim | simp [Expr.isStmt] at hs
  · cases x with
    | eq v e w => exact related_inside f g hR hD hc e hx.1 hi hm
    | opEq op v e w c =>
      have hme : ∀ a ∈ e.reads, R (m a) fun i => m' i a := fun a ha => hm a (Or.inl ha)
      refine (related_inside f g hR hD hc e hx.1 hi.1 hme).and ?_
      by_cases hop : op = .div
      · refine (eventually_lt (n := e.size) fun k hk => hD.den (hi.2 hop k (by rwa [map_size])) (related_exact f g hR hc e hx.1 hi.1 hme k hk).1).mono fun i h _ => ?_
        rw [map_size]
        exact h
      · exact .of_forall fun i h => absurd h hop
    | glue => exact hx.elim
    | forEach => exact hx.elim
    | _ => simp [Expr.isStmt] at hs

theorem related_insideSeq (hD : DomsTo φ D D' R) :
    ∀ (L : List (Expr γ)) (K : Set ℕ) (m : ℕ → α) (m' : ∀ i, ℕ → β i), (∀ x ∈ L, x.WFStmt) → NeedOk K L → InsideSeq D (L.map (Expr.map f)) m →
    (∀ a ∈ K, R (m a) fun i => m' i a) → ∀ᶠ i in φ, InsideSeq (D' i) (L.map (Expr.map (g i))) (m' i) := by
  intro L
  induction L with
  | nil => exact fun _ _ _ _ _ _ _ => .of_forall fun _ => trivial
  | cons x xs ih =>
    intro K m m' hwf hn hi hm
    have h1 := related_exec f g hR hc (hwf x (by simp)) hi.1 hn.1 hm
    exact (related_insideStmt f g hR hc hD (hwf x (by simp)) hi.1 fun a ha => hm a (hn.1 ha)).and
      (ih (K ∪ x.place) _ (fun i => (x.map (g i)).exactExec (m' i)) (fun y hy => hwf y (by simp [hy])) hn.2 hi.2 h1)

end

end FastAD
