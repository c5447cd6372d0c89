import Verif.Proof.Statement
import Verif.Proof.Tree

/-!
# Sequences of bound statements and trees of statements
-/

namespace FastAD

variable [HasInf ℝ] [LinAlg ℝ]
set_option linter.unusedSectionVars false

noncomputable section

/-! ### Meaning of a list of statements -/

/-- adjoints after the backward evaluation of the statements executed from store `m` -/
def backL : List (Expr ℝ) → (ℕ → ℝ) → (ℕ → ℝ) → (ℕ → ℝ) → ℕ → ℝ
  | [], _, _, A => A
  | x :: xs, m, seed, A => x.back m (if xs.isEmpty then seed else fun _ => 0) (backL xs (x.exec m) seed A)

/-- values after the backward evaluation of the statements executed from store `m` -/
def restL : List (Expr ℝ) → (ℕ → ℝ) → ℕ → ℝ
  | [], m => m
  | x :: xs, m => x.undo m (restL xs (x.exec m))

def PCs (BV : Set ℕ) : List (Expr ℝ) → (ℕ → ℝ) → (ℕ → ℝ) → Prop
  | [], _, _ => True
  | x :: xs, m, h => x.PC BV m h ∧ PCs BV xs (x.exec m) h

theorem execL_append (l r : List (Expr ℝ)) (m : ℕ → ℝ) : execL (l ++ r) m = execL r (execL l m) := by
  induction l generalizing m with
  | nil => rfl
  | cons x xs ih => exact ih _

theorem resultL_append (l r : List (Expr ℝ)) (hr : r ≠ []) (m : ℕ → ℝ) : resultL (l ++ r) m = resultL r (execL l m) := by
  induction l generalizing m with
  | nil => rfl
  | cons x xs ih =>
    have : ∃ y ys, xs ++ r = y :: ys := by cases xs with
      | nil => cases r with
        | nil => exact absurd rfl hr
        | cons y ys => exact ⟨y, ys, rfl⟩
      | cons y ys => exact ⟨y, ys ++ r, rfl⟩
    obtain ⟨y, ys, h⟩ := this
    have h1 := ih (x.exec m)
    rw [h] at h1
    rw [List.cons_append, h]
    exact h1

/-! ### Cells -/

theorem Expr.PC.congr {vok aok : ℕ → Bool} {BV BA : Set ℕ} {x : Expr ℝ} {m h h' : ℕ → ℝ} (hb : StmtB vok aok BV BA x)
    (hc : x.PC BV m h) (heq : ∀ a ∈ x.lv, h' a = h a) : x.PC BV m h' := by
  by_cases hs : x.isStmt = false
  · obtain ⟨hb, _, _⟩ := hb.pure hs
    rw [PC_pure hs] at hc ⊢
    refine Expr.Cached.congr x hc fun a ha => ?_
    rcases ha with ha | ha
    · rw [merge_in (hb.ownV ha), merge_in (hb.ownV ha)]
      exact heq a (by rw [hb.wf.lv]; exact ha)
    · rw [merge_out (disj_right hb.dV ha), merge_out (disj_right hb.dV ha)]
  · cases x with
    | eq v e w =>
      have hb : EqB vok aok BV BA v e w := hb
      refine Expr.Cached.congr e hc fun a ha => ?_
      have hroot : e.valRoot ⊆ rng v.val v.size := by
        rcases hb.root with h | h
        · rw [h.1]; exact Set.empty_subset _
        · exact h.2.2.2.1
      rcases ha with ha | ha
      · rcases ha with ha | ha
        · rw [merge_in (hb.inV ha), merge_in (hb.inV ha)]
          exact heq a ha
        · have := disj_right hb.dV (Or.inr (hroot ha))
          rw [merge_out this, merge_out this]
      · have := disj_right hb.dV (Or.inl ha)
        rw [merge_out this, merge_out this]
    | opEq op v e w c =>
      have hb : OpB vok aok BV BA v e w c := hb
      refine ⟨Expr.Cached.congr e hc.1 fun a ha => ?_, fun k hk => ?_⟩
      · rcases ha with ha | ha
        · rw [merge_in (hb.pure.ownV ha), merge_in (hb.pure.ownV ha)]
          exact heq a (Or.inl ha)
        · rw [merge_out (disj_right hb.pure.dV ha), merge_out (disj_right hb.pure.dV ha)]
      · rw [heq _ (Or.inr (add_mem_rng (by rw [View.size, hb.cshape]; exact hk)))]
        exact hc.2 k hk
    | _ => simp [Expr.isStmt] at hs

/-- what a statement assigns is undone, unless it is a placeholder -/
theorem Expr.undo_exec {x : Expr ℝ} {m h : ℕ → ℝ} {a : ℕ} (hx : a ∉ x.place) (heq : h a = x.exec m a) (hp : x.isStmt = false → x.exec m = m) :
    x.undo m h a = m a := by
  cases x with
  | eq v e w =>
    exact heq.trans (assign_off hx)
  | opEq op v e w c =>
    simp only [Expr.undo]
    by_cases ha : a ∈ rng v.val v.size
    · obtain ⟨k, hk, rfl⟩ := mem_rng_iff.1 ha
      exact assign_add hk
    · rw [assign_off ha, heq]
      exact assign_off ha
  | _ => exact heq.trans (congrFun (hp rfl) a)

/-- the adjoints a statement produces depend on the given adjoints outside the caches only -/
theorem StmtB.back_congr {vok aok : ℕ → Bool} {BV BA : Set ℕ} {x : Expr ℝ} (hb : StmtB vok aok BV BA x) {m seed A A' : ℕ → ℝ}
    (heq : ∀ a, a ∉ BA → A a = A' a) {a : ℕ} (ha : a ∉ BA) : x.back m seed A a = x.back m seed A' a := by
  cases x with
  | eq v e w =>
    have hb : EqB vok aok BV BA v e w := hb
    have hsz : e.size = v.size := by rw [Expr.size, hb.shape, View.size]
    simp only [Expr.back]
    rw [heq a ha, grad_congr m e _ (fun k => A' (addr v.adj + k) + seed k) hb.wf fun k hk => ?_]
    rw [heq _ (disj_right hb.dA (Or.inr (add_mem_rng (hsz ▸ hk))))]
  | opEq op v e w c =>
    have hb : OpB vok aok BV BA v e w c := hb
    simp only [Expr.back]
    rw [heq a ha]
    congr 1
    refine congrFun (grad_congr m e _ _ hb.pure.wf (collapse_congr (fun k hk => ?_)
      (operand_size hb.pure.wf.shapeOk hb.vshape (hb.shape.imp id fun x => by rw [x]; exact ⟨rfl, rfl⟩)))) a
    rw [heq _ (disj_right hb.dA (add_mem_rng hk))]
  | _ =>
    simp only [Expr.back]
    rw [heq a ha]

/-! ### Running a sequence -/

structure SeqOk (BV : Set ℕ) (L : List (Expr ℝ)) (m : ℕ → ℝ) (s s' : St ℝ) : Prop where
  run : SeqRun L s s'
  adj : s'.adj = s.adj
  vok : s'.vok = s.vok
  aok : s'.aok = s.aok
  store : ∀ a, a ∉ BV → s'.val a = execL L m a
  frame : ∀ a, a ∈ BV → (∀ x ∈ L, a ∉ x.lv) → s'.val a = s.val a
  cached : PCs BV L m s'.val
  value : ∀ x ∈ L.getLast?, ∀ k < x.size, s'.val (addr x.view.val + k) = resultL L m k

theorem seq_ok {BV BA : Set ℕ} (L : List (Expr ℝ)) (m : ℕ → ℝ) (s : St ℝ) (hb : SeqB s.vok s.aok BV BA L)
    (hm : ∀ a, a ∉ BV → s.val a = m a) : ∃ s', SeqOk BV L m s s' := by
  induction L generalizing m s with
  | nil => exact ⟨s, .nil s, rfl, rfl, rfl, hm, fun _ _ _ => rfl, trivial, fun x hx => by simp at hx⟩
  | cons x xs ih =>
    have hx := hb.stmt x (by simp)
    obtain ⟨s1, h1⟩ := step_ok hx hm
    have hd := List.pairwise_cons.1 hb.disj
    obtain ⟨s', h2⟩ := ih (x.exec m) s1 ⟨fun y hy => by rw [h1.vok, h1.aok]; exact hb.stmt y (by simp [hy]), hd.2⟩ h1.store
    refine ⟨s', .cons h1.run h1.vok h1.acc h2.run, h2.adj.trans h1.adj, h2.vok.trans h1.vok, h2.aok.trans h1.aok, h2.store, ?_, ⟨?_, h2.cached⟩, ?_⟩
    · intro a ha hn
      rw [h2.frame a ha fun y hy => hn y (by simp [hy]), h1.frame a ha (hn x (by simp))]
    · exact h1.cached.congr hx fun a ha => h2.frame a (hx.lv_sub ha) fun y hy => disj_left (hd.1 y hy) ha
    · intro y hy k hk
      cases xs with
      | nil =>
        simp at hy
        subst hy
        cases h2.run
        exact h1.value k hk
      | cons z zs =>
        rw [List.getLast?_cons_cons] at hy
        exact h2.value y hy k hk

/-! ### Running it backwards -/

theorem restL_off {L : List (Expr ℝ)} {m : ℕ → ℝ} (hw : ∀ x ∈ L, x.isStmt = false → ∀ m, x.exec m = m) {a : ℕ}
    (ha : ∀ x ∈ L, a ∉ x.place) : restL L m a = m a := by
  induction L generalizing m with
  | nil => rfl
  | cons x xs ih =>
    refine Expr.undo_exec (ha x (by simp)) ?_ fun h => hw x (by simp) h m
    exact ih (fun y hy => hw y (by simp [hy])) fun y hy => ha y (by simp [hy])

structure BackLOk (BV BA : Set ℕ) (L : List (Expr ℝ)) (m seed : ℕ → ℝ) (s s' : St ℝ) : Prop where
  run : bevalL L seed s = some s'
  vok : s'.vok = s.vok
  aok : s'.aok = s.aok
  frame : ∀ a, a ∈ BV → s'.val a = s.val a
  val : ∀ a, a ∉ BV → s'.val a = restL L m a
  adj : ∀ a, a ∉ BA → s'.adj a = backL L m seed s.adj a

theorem StmtB.exec_pure {vok aok : ℕ → Bool} {BV BA : Set ℕ} {x : Expr ℝ} (h : StmtB vok aok BV BA x) (hs : x.isStmt = false) (m : ℕ → ℝ) :
    x.exec m = m := (h.pure hs).1.wf.exec m

theorem backL_ok {BV BA : Set ℕ} (L : List (Expr ℝ)) (m seed : ℕ → ℝ) (s : St ℝ) (hb : SeqB s.vok s.aok BV BA L)
    (hc : PCs BV L m s.val) (hm : ∀ a, a ∉ BV → s.val a = execL L m a) (ho : L.Pairwise After) :
    ∃ s', BackLOk BV BA L m seed s s' := by
  induction L generalizing m s with
  | nil => exact ⟨s, rfl, rfl, rfl, fun _ _ => rfl, hm, fun _ _ => rfl⟩
  | cons x xs ih =>
    have hx := hb.stmt x (by simp)
    have hd := List.pairwise_cons.1 hb.disj
    have hoo := List.pairwise_cons.1 ho
    obtain ⟨s1, h1⟩ := ih (x.exec m) s ⟨fun y hy => hb.stmt y (by simp [hy]), hd.2⟩ hc.2 hm hoo.2
    have hx1 : StmtB s1.vok s1.aok BV BA x := by rw [h1.vok, h1.aok]; exact hx
    obtain ⟨s', h2⟩ := back_ok (seed := if xs.isEmpty then seed else fun _ => 0) hx1
      (hc.1.congr hx fun a ha => h1.frame a (hx.lv_sub ha)) (fun a ha => by
        rw [h1.val a (hx.ment_out ha)]
        exact restL_off (fun y hy hs m => (hb.stmt y (by simp [hy])).exec_pure hs m) fun y hy => disj_left (hoo.1 y hy) ha)
    refine ⟨s', ?_, h2.vok.trans h1.vok, h2.aok.trans h1.aok, fun a ha => ?_, fun a ha => ?_, fun a ha => ?_⟩
    · simp only [bevalL, h1.run, Option.bind_some]
      exact h2.run
    · rw [h2.val, hx.undo_in m _ ha, h1.frame a ha]
    · rw [h2.val]
      exact Expr.undo_congr (h1.val a ha)
    · rw [h2.adj a ha]
      exact hx.back_congr h1.adj ha

end

/-! ### Trees -/

theorem exec_tree (e : Expr ℝ) (m : ℕ → ℝ) : e.exec m = execL e.flat m := by
  induction e using Expr.induct generalizing m with
  | glue l r w ihl ihr =>
    simp only [Expr.exec, Expr.flat]
    rw [execL_append, ihl, ihr]
  | forEach es w ih =>
    simp only [Expr.exec, Expr.flat]
    induction es using Exprs.rec (motive_1 := fun _ => True) generalizing m with
    | nil => rfl
    | cons e es _ ihs =>
      simp only [Exprs.execs, Exprs.flats]
      rw [execL_append, ih e (by simp [Exprs.toList]), ihs (fun x hx => ih x (by simp [Exprs.toList, hx]))]
    | _ => trivial
  | _ => rfl

/-- the list of statements delivers the value of the tree -/
theorem result_tree (e : Expr ℝ) (ht : e.WFTree) (hne : e.flat ≠ []) (m : ℕ → ℝ) (k : ℕ) : e.result m k = resultL e.flat m k := by
  induction e using Expr.induct generalizing m with
  | glue l r w ihl ihr =>
    simp only [Expr.result, Expr.flat]
    rw [resultL_append _ _ ht.2.2.1, ihr ht.2.1 ht.2.2.1, exec_tree]
  | forEach es w ih =>
    simp only [Expr.result, Expr.flat]
    have hn : es.length ≠ 0 := by
      intro h
      cases es with
      | nil => exact hne rfl
      | cons => simp [Exprs.length] at h
    have hl := fun e he => (ht.2 e he).1
    replace ht := ht.1
    clear hne
    generalize (0 : ℝ) = d
    induction es using Exprs.rec (motive_1 := fun _ => True) generalizing m d with
    | nil => exact absurd rfl hn
    | cons e es _ ihs =>
      cases es with
      | nil =>
        simp only [Exprs.results, Exprs.flats, List.append_nil]
        exact ih e (by simp [Exprs.toList]) ht.1 (hl e (by simp [Exprs.last])) m
      | cons y ys =>
        have := Exprs.last_flats (es := .cons y ys) hl (by simp [Exprs.length])
        rw [show (Exprs.cons e (.cons y ys)).flats = e.flat ++ (Exprs.cons y ys).flats from rfl, resultL_append _ _ this, ← exec_tree]
        exact ihs (fun x hx => ih x (by simp only [Exprs.toList, List.mem_cons] at hx ⊢; exact Or.inr hx)) (e.exec m) (by simp [Exprs.length]) hl ht.2 (e.result m k)
    | _ => trivial
  | _ => rfl

end FastAD
