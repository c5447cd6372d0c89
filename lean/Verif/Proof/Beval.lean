import Verif.Proof.Grad

/-!
# Backward evaluation of pure expressions
-/

namespace FastAD

variable [HasInf ℝ] [LinAlg ℝ]

/-- Outcome of a successful `beval`. -/
structure BevalOk (e : Expr ℝ) (m : ℕ → ℝ) (seed : ℕ → ℝ) (s s' : St ℝ) : Prop where
  run : e.beval seed s = some s'
  val : s'.val = s.val
  vok : s'.vok = s.vok
  aok : s'.aok = s.aok
  adj : ∀ a, a ∉ e.ownA → s'.adj a = s.adj a + e.grad m seed a
  keep : e.isProdElem = false → ∀ k < e.size, addr e.view.adj + k ∈ e.adjRoot →
    s.adj (addr e.view.adj + k) = seed k → s'.adj (addr e.view.adj + k) = seed k

/-- the claim proved by induction -/
def BevalClaim (e : Expr ℝ) : Prop :=
  ∀ (m : ℕ → ℝ) (s : St ℝ) (seed : ℕ → ℝ), e.NWF → e.WB s.vok s.aok → Disjoint e.ownV e.reads →
    Disjoint e.ownA e.readsA → e.Cached m s.val → (∀ a ∈ e.phA, s.adj a = 0) → ∃ s', BevalOk e m seed s s'

/-- `get()` during `beval` delivers the value computed by `feval` -/
theorem getRef_readN {e : Expr ℝ} {m : ℕ → ℝ} {s : St ℝ} (hwf : e.NWF) (hwb : e.WB s.vok s.aok) (hc : e.Cached m s.val)
    (hif : e.isIf = false) : e.getRef.read s e.size = some (trunc e.size (e.denote m)) := by
  induction e using Expr.induct generalizing m with
  | var v =>
    exact readCells_eq' hwb.1 fun k hk => hc _ (add_mem_rng hk)
  | const sh c => rfl
  | cview sh p => exact readCells_eq' hwb fun k hk => hc _ (add_mem_rng hk)
  | unary op e w => exact readCells_eq' hwb.2.1 hc.2
  | binary op l r w => exact readCells_eq' hwb.2.2.2.2.1 hc.2.2
  | pow n e w => exact readCells_eq' hwb.2.1 hc.2
  | prodElem e w c => exact readCells_eq' hwb.2.1 hc.2
  | transpose e w => exact readCells_eq' hwb.2.1 hc.2
  | dot l r w => exact readCells_eq' hwb.2.2.2.2.1 hc.2.2
  | sumIter es w => exact readCells_eq' hwb.2.1 hc.2
  | prodIter es w => exact readCells_eq' hwb.2.1 hc.2
  | reduce op es w => exact readCells_eq' hwb.2.1 hc.2
  | ifElse c x y w => simp [Expr.isIf] at hif
  | glue l r w ihl ihr =>
    obtain ⟨wfl, wfr, hsh, hif, hnc⟩ := hwf
    have h := ihr wfr hwb.2.1 hc.2 hif
    rw [r.getRef_of fun sh c hc => by rw [hc] at hnc; exact hnc] at h
    have hsize : (Expr.glue l r w).size = r.size := by show w.shape.size = r.shape.size; rw [hsh]
    rw [hsize, show (Expr.glue l r w).getRef = .ptr w.val from rfl, hwb.2.2.2.2]
    exact h
  | eq | opEq | forEach => exact hwf.elim

theorem readBack_ok {e : Expr ℝ} {m : ℕ → ℝ} {s : St ℝ} {b : Bool} (hwf : e.NWF) (hwb : e.WB s.vok s.aok) (hc : e.Cached m s.val)
    (hif : e.isIf = true → b = false ∧ e.shape.isScl = false) :
    ∃ x, e.readBack b s = some x ∧ (b = true → x = trunc e.size (e.denote m)) := by
  simp only [Expr.readBack, readIf]
  split
  · rename_i h
    refine ⟨_, getRef_readN hwf hwb hc ?_, fun _ => rfl⟩
    by_contra hne
    obtain ⟨h1, h2⟩ := hif (by simpa using hne)
    simp [h1, h2] at h
  · rename_i h
    refine ⟨_, rfl, fun hb => ?_⟩
    simp [hb] at h

theorem readOperands_eq {op : RedOp} {s : St ℝ} {m : ℕ → ℝ} (hu : op.usesX = true) (es : Exprs ℝ) (hwf : es.NWFs) (hwb : es.WBs s.vok s.aok)
    (hc : es.Cacheds m s.val) (hif : ∀ e ∈ es.toList, e.isIf = false) :
    readOperands op s es.getRefs = some ((es.denotes m).map fun x => (x.1, trunc x.1.size x.2)) := by
  induction es using Exprs.rec (motive_1 := fun _ => True) with
  | nil => rfl
  | cons e es _ ih =>
    have h1 := getRef_readN (e := e) (s := s) (m := m) hwf.1 hwb.1 hc.1 (hif e (by simp [Exprs.toList]))
    have h2 := ih hwf.2 hwb.2.1 hc.2 fun e' he' => hif e' (by simp [Exprs.toList, he'])
    simp only [Exprs.getRefs, readOperands, readIf, hu, if_true, Option.bind_eq_bind]
    rw [show e.shape.size = e.size from rfl, h1]
    simp only [Option.bind_some, h2]
    rfl
  | _ => trivial

omit [HasInf ℝ] [LinAlg ℝ] in
theorem readIf_cells {α : Type} [Zero α] {w : View} {f : ℕ → α} {s : St α} {b c : Bool} (hacc : accessible s.vok w.val w.size)
    (hf : ∀ k < w.size, s.val (addr w.val + k) = f k) :
    ∃ x, readIf (b || c) (.ptr w.val) s w.size = some x ∧ (b = true → x = trunc w.size f) := by
  simp only [readIf]
  split
  · exact ⟨_, readCells_eq' hacc hf, fun _ => rfl⟩
  · rename_i h
    refine ⟨_, rfl, fun hb => ?_⟩
    simp [hb] at h

omit [HasInf ℝ] [LinAlg ℝ] in
theorem UOp.bmap_congr (op : UOp) {g x x' f f' : ℝ} (hx : op.usesX = true → x = x') (hf : op.usesF = true → f = f') :
    op.bmap g x f = op.bmap g x' f' := by
  cases op <;> simp_all [UOp.usesX, UOp.usesF, UOp.bmap]

omit [HasInf ℝ] [LinAlg ℝ] in
theorem BOp.bl_congr (op : BOp) {g x x' y y' f f' : ℝ} (hy : op.usesR = true → y = y') :
    op.bl g x y f = op.bl g x' y' f' := by
  cases op <;> simp_all [BOp.usesR, BOp.bl]

omit [HasInf ℝ] [LinAlg ℝ] in
theorem BOp.br_congr (op : BOp) {g x x' y y' f f' : ℝ} (hx : op.usesL = true → x = x') (hy : op.usesR = true → y = y')
    (hf : op.usesF = true → f = f') : op.br g x y f = op.br g x' y' f' := by
  cases op <;> simp_all [BOp.usesL, BOp.usesR, BOp.usesF, BOp.br]

omit [HasInf ℝ] [LinAlg ℝ] in
theorem readA_fill {α : Type} [Zero α] {s : St α} {p : Option ℕ} {n : ℕ} {f : ℕ → α} (hacc : accessible s.aok p n) :
    St.readA { s with adj := fillRange s.adj (addr p) n f } p n = some (trunc n f) :=
  readCells_eq' hacc fun _ hk => fillRange_add hk

/-- a child evaluated after the node has stored its seed in its own adjoint cells -/
theorem beval_child {e : Expr ℝ} {m : ℕ → ℝ} {s s2 : St ℝ} {p : Option ℕ} {n : ℕ} {f g : ℕ → ℝ}
    (h : BevalOk e m g { s with adj := fillRange s.adj (addr p) n f } s2)
    (hd1 : Disjoint (rng p n) e.ownA) (hd2 : Disjoint (rng p n) e.readsA) :
    (∀ a, a ∉ e.ownA → a ∉ rng p n → s2.adj a = s.adj a + e.grad m g a) ∧
    (∀ k < n, s2.adj (addr p + k) = f k) := by
  constructor
  · intro a h1 h2
    rw [h.adj a h1]
    dsimp only
    rw [fillRange_not_mem h2]
  · intro k hk
    have hmem : addr p + k ∈ rng p n := add_mem_rng hk
    rw [h.adj _ (disj_left hd1 hmem), grad_support _ _ _ _ (disj_left hd2 hmem), add_zero]
    exact fillRange_add hk

omit [HasInf ℝ] [LinAlg ℝ] in
theorem Expr.defsA_own {α : Type} (e : Expr α) : e.defsA ⊆ e.ownA := by
  induction e using Expr.induct with
  | eq v e w => exact fun a ha => Or.inl (Or.inr ha)
  | glue l r w ihl ihr => exact fun a ha => Or.inl (ha.elim (fun h => Or.inl (ihl h)) fun h => Or.inr (ihr h))
  | _ => exact Set.empty_subset _

omit [HasInf ℝ] [LinAlg ℝ] in
theorem Exprs.phAs_own {α : Type} (es : Exprs α) (h : ∀ e ∈ es.toList, e.phA ⊆ e.ownA) : es.phAs ⊆ es.ownAs := by
  induction es using Exprs.rec (motive_1 := fun _ => True) with
  | nil => exact Set.empty_subset _
  | cons e es _ ih =>
    exact fun a ha => ha.elim (fun x => Or.inl (h e (by simp [Exprs.toList]) x)) fun x => Or.inr (ih (fun y hy => h y (by simp [Exprs.toList, hy])) x)
  | _ => trivial

omit [HasInf ℝ] [LinAlg ℝ] in
/-- the placeholders of the blocks of an expression belong to it -/
theorem Expr.phA_inner {α : Type} (e : Expr α) : e.phA ⊆ e.innerA := by
  induction e using Expr.induct with
  | unary op e w ih | pow op e w ih | prodElem e w c ih | transpose e w ih => exact fun a ha => Or.inl (ih ha)
  | eq v e w ih => exact fun a ha => Or.inl (Or.inl (ih ha))
  | binary op l r w ihl ihr | dot l r w ihl ihr => exact fun a ha => ha.elim (fun h => Or.inl (Or.inl (ihl h))) fun h => Or.inr (Or.inl (ihr h))
  | sumIter es w ih | prodIter es w ih | reduce op es w ih => exact fun a ha => es.phAs_own (fun e he a ha => Or.inl (ih e he ha)) ha
  | ifElse c x y w ihc ihx ihy =>
    exact fun a ha => ha.elim (fun h => Or.inl (Or.inl (ihc h))) fun h => Or.inr (h.elim (fun h => Or.inl (Or.inl (ihx h))) fun h => Or.inr (Or.inl (ihy h)))
  | glue l r w ihl ihr =>
    exact fun a ha => ha.elim (fun h => Or.inl (l.defsA_own h)) fun h => h.elim (fun h => Or.inl (Or.inl (ihl h))) fun h => Or.inr (Or.inl (ihr h))
  | _ => exact Set.empty_subset _

omit [HasInf ℝ] [LinAlg ℝ] in
theorem Expr.phA_own {α : Type} (e : Expr α) : e.phA ⊆ e.ownA := fun _ ha => Or.inl (e.phA_inner ha)

theorem zero_fill {e : Expr ℝ} {s : St ℝ} {p : Option ℕ} {n : ℕ} {f : ℕ → ℝ} (hz : ∀ a ∈ e.phA, s.adj a = 0) (hd : Disjoint (rng p n) e.ownA) :
    ∀ a ∈ e.phA, fillRange s.adj (addr p) n f a = 0 := fun a ha => by
  rw [fillRange_not_mem (disj_right hd (e.phA_own ha)), hz a ha]

theorem zero_after {l r : Expr ℝ} {m g : ℕ → ℝ} {s s2 : St ℝ} (h2 : BevalOk r m g s s2) (hz : ∀ a ∈ l.phA, s.adj a = 0)
    (hlr : Disjoint l.ownA r.ownA) (hd : Disjoint l.ownA r.readsA) : ∀ a ∈ l.phA, s2.adj a = 0 := fun a ha => by
  rw [h2.adj a (disj_left hlr (l.phA_own ha)), hz a ha, grad_support _ _ _ _ (disj_left hd (l.phA_own ha)), add_zero]

/-- the reverse loops that only forward seeds (`SumIterNode`, and the operands of reductions) -/
theorem bevals_simple {m : ℕ → ℝ} (K : Set ℕ) (sd : ℕ → Option (ℕ → ℝ))
    (pre : ℕ → Ref ℝ → Shape → St ℝ → Option (St ℝ × Option (ℕ → ℝ))) (es : Exprs ℝ) :
    ∀ (i : ℕ) (s : St ℝ), (∀ e ∈ es.toList, BevalClaim e) → es.NWFs → es.WBs s.vok s.aok →
    Disjoint es.ownVs es.readss → Disjoint es.ownAs es.readsAs → es.Cacheds m s.val → (∀ a ∈ es.phAs, s.adj a = 0) →
    Disjoint K es.ownAs → Disjoint K es.readsAs →
    (∀ j s' r sh, s'.val = s.val → s'.vok = s.vok → s'.aok = s.aok → (∀ a ∈ K, s'.adj a = s.adj a) →
      pre j r sh s' = some (s', sd j)) →
    ∃ s', es.bevals pre (fun _ _ _ _ s => some s) i s = some s' ∧ s'.val = s.val ∧ s'.vok = s.vok ∧
      s'.aok = s.aok ∧ ∀ a, a ∉ es.ownAs → s'.adj a = s.adj a + es.grads m sd i a := by
  induction es using Exprs.rec (motive_1 := fun _ => True) with
  | nil =>
    intro i s _ _ _ _ _ _ _ _ _ _
    exact ⟨s, rfl, rfl, rfl, rfl, fun a _ => by simp [Exprs.grads]⟩
  | cons e es _ ih =>
    intro i s hcl hwf hwb hdv hda hc hz hK1 hK2 hpre
    have hown : (Exprs.cons e es).ownVs = e.ownV ∪ es.ownVs := rfl
    have hrds : (Exprs.cons e es).readss = e.reads ∪ es.readss := rfl
    have hownA : (Exprs.cons e es).ownAs = e.ownA ∪ es.ownAs := rfl
    have hrdsA : (Exprs.cons e es).readsAs = e.readsA ∪ es.readsAs := rfl
    rw [hown, hrds] at hdv
    rw [hownA, hrdsA] at hda
    rw [hownA] at hK1 ⊢
    rw [hrdsA] at hK2
    obtain ⟨s1, hrun, hval, hvok, haok, hadj⟩ := ih (i + 1) s (fun x hx => hcl x (by simp [Exprs.toList, hx])) hwf.2 hwb.2.1
      (hdv.mono Set.subset_union_right Set.subset_union_right)
      (hda.mono Set.subset_union_right Set.subset_union_right) hc.2 (fun a ha => hz a (Or.inr ha))
      (hK1.mono_right Set.subset_union_right) (hK2.mono_right Set.subset_union_right) hpre
    have hpre1 := hpre i s1 e.getRef e.shape hval hvok haok fun a ha => by
      rw [hadj a fun h => disj_left hK1 ha (Or.inr h), grads_support _ _ _ _ _ fun h => disj_left hK2 ha (Or.inr h),
        add_zero]
    cases hsd : sd i with
    | none =>
      refine ⟨s1, ?_, hval, hvok, haok, fun a ha => ?_⟩
      · simp only [Exprs.bevals, hrun, Option.bind_eq_bind, Option.bind_some, hpre1, hsd]
      · rw [hadj a fun h => ha (Or.inr h)]
        simp [Exprs.grads, hsd]
    | some g =>
      obtain ⟨s2, h2⟩ := hcl e (by simp [Exprs.toList]) m s1 g hwf.1 (by rw [hvok, haok]; exact hwb.1)
        (hdv.mono Set.subset_union_left Set.subset_union_left)
        (hda.mono Set.subset_union_left Set.subset_union_left) (by rw [hval]; exact hc.1)
        (fun a ha => by
          rw [hadj a (disj_left hwb.2.2.2 (e.phA_own ha)), hz a (Or.inl ha), zero_add]
          exact grads_support _ _ _ _ _ fun h => disj_left hda (Or.inl (e.phA_own ha)) (Or.inr h))
      refine ⟨s2, ?_, h2.val.trans hval, h2.vok.trans hvok, h2.aok.trans haok, fun a ha => ?_⟩
      · simp only [Exprs.bevals, hrun, Option.bind_eq_bind, Option.bind_some, hpre1, hsd, h2.run]
      · rw [h2.adj a fun h => ha (Or.inl h), hadj a fun h => ha (Or.inr h)]
        simp only [Exprs.grads, hsd]
        ring
  | _ => trivial

omit [HasInf ℝ] [LinAlg ℝ] in
theorem foldl_others (k : ℕ) (xs : List (Shape × (ℕ → ℝ))) : ∀ (i off : ℕ) (acc : ℝ),
    (xs.zipIdx off).foldl (fun acc p => if p.2 = i + off then acc else acc * p.1.2 k) acc = acc * prodOthers xs i k := by
  induction xs with
  | nil => intro i off acc; simp [prodOthers]
  | cons x xs ih =>
    intro i off acc
    rw [List.zipIdx_cons, List.foldl_cons]
    cases i with
    | zero =>
      simp only [Nat.zero_add, if_true, prodOthers, List.eraseIdx_cons_zero]
      have : ∀ (ys : List (Shape × (ℕ → ℝ))) (o : ℕ) (c : ℝ), off < o →
          (ys.zipIdx o).foldl (fun acc p => if p.2 = off then acc else acc * p.1.2 k) c = c * (ys.map fun x => x.2 k).prod := by
        intro ys
        induction ys with
        | nil => intro o c _; simp
        | cons y ys ihy =>
          intro o c ho
          rw [List.zipIdx_cons, List.foldl_cons, ihy _ _ (by omega)]
          rw [if_neg (by dsimp only; omega)]
          simp [mul_assoc]
      exact this xs (off + 1) acc (by omega)
    | succ i =>
      rw [if_neg (by dsimp only; omega)]
      have := ih i (off + 1) (acc * x.2 k)
      rw [show i + (off + 1) = i + 1 + off by omega] at this
      rw [this]
      simp [prodOthers, mul_assoc]

omit [HasInf ℝ] [LinAlg ℝ] in
theorem mul_prodOthers (k : ℕ) (xs : List (Shape × (ℕ → ℝ))) : ∀ (i : ℕ) (x : Shape × (ℕ → ℝ)), xs[i]? = some x →
    x.2 k * prodOthers xs i k = (xs.map fun x => x.2 k).prod := by
  induction xs with
  | nil => intro i x h; simp at h
  | cons y ys ih =>
    intro i x h
    cases i with
    | zero => simp at h; simp [prodOthers, h]
    | succ i =>
      simp only [List.getElem?_cons_succ] at h
      simp only [prodOthers, List.eraseIdx_cons_succ, List.map_cons, List.prod_cons]
      rw [← ih i x h]
      simp only [prodOthers]
      ring

theorem readAll_getRefs {m : ℕ → ℝ} {s : St ℝ} (es : Exprs ℝ) (hwf : es.NWFs) (hwb : es.WBs s.vok s.aok) (hc : es.Cacheds m s.val)
    (hif : ∀ e ∈ es.toList, e.isIf = false) :
    readAll s es.getRefs = some ((es.denotes m).map fun x => (x.1, trunc x.1.size x.2)) := by
  induction es using Exprs.rec (motive_1 := fun _ => True) with
  | nil => rfl
  | cons e es _ ih =>
    have h1 := getRef_readN hwf.1 hwb.1 hc.1 (hif e (by simp [Exprs.toList]))
    have h2 := ih hwf.2 hwb.2.1 hc.2 fun x hx => hif x (by simp [Exprs.toList, hx])
    simp only [Exprs.getRefs, readAll, Exprs.denotes, List.map_cons]
    rw [show e.shape.size = e.size from rfl, h1, h2]
    rfl
  | _ => trivial

omit [HasInf ℝ] [LinAlg ℝ] in
theorem prodOthers_congr {k : ℕ} {D D' : List (Shape × (ℕ → ℝ))} (h : D.map (fun x => x.2 k) = D'.map (fun x => x.2 k)) (i : ℕ) :
    prodOthers D i k = prodOthers D' i k := by
  simp only [prodOthers]
  rw [← List.eraseIdx_map, ← List.eraseIdx_map, h]

/-- the reverse loop of `ProdIterNode::beval` -/
theorem bevals_prod {m : ℕ → ℝ} (w : View) (seed : ℕ → ℝ) (all : List (Ref ℝ × Shape)) (D : List (Shape × (ℕ → ℝ)))
    (hD : ∀ d ∈ D, d.1 = w.shape) (es : Exprs ℝ) :
    ∀ (i : ℕ) (s : St ℝ), (∀ e ∈ es.toList, BevalClaim e) → es.NWFs → es.WBs s.vok s.aok →
    Disjoint es.ownVs es.readss → Disjoint es.ownAs es.readsAs → es.Cacheds m s.val → (∀ a ∈ es.phAs, s.adj a = 0) →
    (∀ e ∈ es.toList, e.shape = w.shape ∧ e.isIf = false) → D.drop i = es.denotes m →
    Disjoint (rng w.val w.size) es.ownVs → Disjoint (rng w.val w.size) es.readss →
    Disjoint (rng w.adj w.size) es.ownAs → Disjoint (rng w.adj w.size) es.readsAs →
    accessible s.vok w.val w.size → accessible s.aok w.adj w.size →
    (∀ k < w.size, s.val (addr w.val + k) = (D.map fun x => x.2 k).prod) →
    (∀ k < w.size, s.adj (addr w.adj + k) = seed k) →
    (∀ s' : St ℝ, s'.vok = s.vok → s'.aok = s.aok → (∀ a, a ∉ rng w.val w.size → s'.val a = s.val a) →
      readAll s' all = some (D.map fun x => (x.1, trunc x.1.size x.2))) →
    ∃ s', es.bevals (prodIterPre all w) (fun s0 _ r sh s => prodIterPost w (prodIterZero w r sh s0) r sh s) i s = some s' ∧
      s'.val = s.val ∧ s'.vok = s.vok ∧ s'.aok = s.aok ∧
      ∀ a, a ∉ es.ownAs →
        s'.adj a = s.adj a + es.grads m (fun j => some fun k => seed k * prodOthers D j k) i a := by
  induction es using Exprs.rec (motive_1 := fun _ => True) with
  | nil =>
    intro i s _ _ _ _ _ _ _ _ _ _ _ _ _ _ _ _ _ _
    exact ⟨s, rfl, rfl, rfl, rfl, fun a _ => by simp [Exprs.grads]⟩
  | cons e es _ ih =>
    intro i s hcl hwf hwb hdv hda hc hz0 hsh hdrop hv1 hv2 ha1 ha2 haccv hacca hroot hseed hall
    have hown : (Exprs.cons e es).ownVs = e.ownV ∪ es.ownVs := rfl
    have hrds : (Exprs.cons e es).readss = e.reads ∪ es.readss := rfl
    have hownA : (Exprs.cons e es).ownAs = e.ownA ∪ es.ownAs := rfl
    have hrdsA : (Exprs.cons e es).readsAs = e.readsA ∪ es.readsAs := rfl
    rw [hown, hrds] at hdv
    rw [hownA, hrdsA] at hda
    rw [hown] at hv1
    rw [hrds] at hv2
    rw [hownA] at ha1 ⊢
    rw [hrdsA] at ha2
    have hden : (Exprs.cons e es).denotes m = (e.shape, e.denote m) :: es.denotes m := rfl
    rw [hden] at hdrop
    have hdrop' : D.drop (i + 1) = es.denotes m := by
      rw [← List.drop_drop, hdrop]; rfl
    have hi : D[i]? = some (e.shape, e.denote m) := by
      have := congrArg (fun l => l[0]?) hdrop
      simpa using this
    obtain ⟨s1, hrun, hval, hvok, haok, hadj⟩ := ih (i + 1) s (fun x hx => hcl x (by simp [Exprs.toList, hx])) hwf.2 hwb.2.1
      (hdv.mono Set.subset_union_right Set.subset_union_right)
      (hda.mono Set.subset_union_right Set.subset_union_right) hc.2 (fun a ha => hz0 a (Or.inr ha))
      (fun x hx => hsh x (by simp [Exprs.toList, hx])) hdrop'
      (hv1.mono_right Set.subset_union_right) (hv2.mono_right Set.subset_union_right)
      (ha1.mono_right Set.subset_union_right) (ha2.mono_right Set.subset_union_right) haccv hacca hroot hseed hall
    obtain ⟨hse, hif⟩ := hsh e (by simp [Exprs.toList])
    have hsz : e.size = w.size := by simp [Expr.size, View.size, hse]
    have hsz' : e.shape.size = w.size := hsz
    have haccv1 : accessible s1.vok w.val w.size := by rw [hvok]; exact haccv
    have hacca1 : accessible s1.aok w.adj w.size := by rw [haok]; exact hacca
    have hwb1 : e.WB s1.vok s1.aok := by rw [hvok, haok]; exact hwb.1
    have hread : e.getRef.read s1 w.size = some (trunc w.size (e.denote m)) := by
      rw [← hsz]; exact getRef_readN hwf.1 hwb1 (by rw [hval]; exact hc.1) hif
    have hg : s1.readA w.adj w.size = some (trunc w.size seed) := by
      refine readCells_eq' hacca1 fun k hk => ?_
      have hmem : addr w.adj + k ∈ rng w.adj w.size := add_mem_rng hk
      rw [hadj _ fun h => disj_left ha1 hmem (Or.inr h), grads_support _ _ _ _ _ fun h => disj_left ha2 hmem (Or.inr h),
        add_zero, hseed k hk]
    have hf : readCells s1.val s1.vok w.val w.size = some (trunc w.size fun k => (D.map fun x => x.2 k).prod) :=
      readCells_eq' haccv1 fun k hk => by rw [hval, hroot k hk]
    have hz1 : ∀ a ∈ e.phA, s1.adj a = 0 := fun a ha => by
      rw [hadj a (disj_left hwb.2.2.2 (e.phA_own ha)), hz0 a (Or.inl ha), zero_add]
      exact grads_support _ _ _ _ _ fun h => disj_left hda (Or.inl (e.phA_own ha)) (Or.inr h)
    by_cases hz : (List.range w.size).any (fun k => Fn.beq (trunc w.size (e.denote m) k) 0) = true
    · -- some coefficient is zero: recompute the product of the others
      have hoth : ∀ k < w.size, ((D.map fun x => (x.1, trunc x.1.size x.2)).zipIdx).foldl
          (fun acc p => if p.2 = i then acc else acc * p.1.2 k) 1 = prodOthers D i k := by
        intro k hk
        have h := foldl_others k (D.map fun x => (x.1, trunc x.1.size x.2)) i 0 1
        simp only [Nat.add_zero] at h
        rw [h, one_mul]
        apply prodOthers_congr
        rw [List.map_map]
        refine List.map_congr_left fun d hd => ?_
        simp only [Function.comp]
        rw [hD d hd]
        exact trunc_of_lt hk
      set oth : ℕ → ℝ := fun k => ((D.map fun x => (x.1, trunc x.1.size x.2)).zipIdx).foldl
          (fun acc p => if p.2 = i then acc else acc * p.1.2 k) 1 with hothdef
      have hoth' : ∀ k < w.size, oth k = prodOthers D i k := hoth
      set s2 : St ℝ := { s1 with val := fillRange s1.val (addr w.val) w.size oth } with hs2
      have hfr : ∀ a, a ∉ rng w.val w.size → s2.val a = s.val a := by
        intro a ha
        rw [← hval]
        exact fillRange_not_mem (heap := s1.val) (f := oth) ha
      have hfre : ∀ a ∈ e.ownV ∪ e.reads, s2.val a = s.val a := by
        intro a ha
        refine hfr a fun hmem => ?_
        rcases ha with ha | ha
        · exact disj_left hv1 hmem (Or.inl ha)
        · exact disj_left hv2 hmem (Or.inl ha)
      have hc2 : e.Cached m s2.val := Expr.Cached.congr e hc.1 hfre
      have hf2 : readCells s2.val s2.vok w.val w.size = some (trunc w.size oth) :=
        readCells_eq' haccv1 fun k hk => fillRange_add (heap := s1.val) (f := oth) hk
      have hpre : prodIterPre all w i e.getRef e.shape s1 =
          some (s2, some fun k => trunc w.size seed k * trunc w.size oth k) := by
        simp only [prodIterPre, hsz', hread, hg, Option.bind_eq_bind, Option.bind_some]
        rw [if_pos hz, hall s1 hvok haok fun a _ => by rw [hval]]
        simp only [Option.bind_some, writeV_eq haccv1]
        exact congrArg (fun o => Option.bind o fun f => some (s2, some fun k => trunc w.size seed k * f k)) hf2
      obtain ⟨s3, h3⟩ := hcl e (by simp [Exprs.toList]) m s2 (fun k => trunc w.size seed k * trunc w.size oth k) hwf.1
        hwb1 (hdv.mono Set.subset_union_left Set.subset_union_left)
        (hda.mono Set.subset_union_left Set.subset_union_left) hc2 hz1
      have hread3 : e.getRef.read s3 w.size = some (trunc w.size (e.denote m)) := by
        rw [← hsz]
        exact getRef_readN hwf.1 (by rw [h3.vok, h3.aok]; exact hwb1) (by rw [h3.val]; exact hc2) hif
      have hf3 : readCells s3.val s3.vok w.val w.size = some (trunc w.size oth) := by
        rw [h3.val, h3.vok]; exact hf2
      have haccv3 : accessible s3.vok w.val w.size := by rw [h3.vok]; exact haccv1
      have hpz : prodIterZero w e.getRef e.shape s1 = true := by
        simp only [prodIterZero, hsz', hread]
        exact hz
      let g3 : ℕ → ℝ := fun k => trunc w.size oth k * trunc w.size (e.denote m) k
      refine ⟨{ s3 with val := fillRange s3.val (addr w.val) w.size g3 }, ?_, ?_, ?_, ?_, ?_⟩
      · simp only [Exprs.bevals, hrun, Option.bind_eq_bind, Option.bind_some, hpre, h3.run, hpz]
        simp only [prodIterPost, if_true, hsz', hread3, hf3, writeV_eq haccv3, Option.bind_eq_bind, Option.bind_some, g3]
      · funext a
        dsimp only
        by_cases ha : a ∈ rng w.val w.size
        · obtain ⟨k, hk, rfl⟩ := mem_rng_iff.1 ha
          rw [fillRange_add hk]; show trunc w.size oth k * trunc w.size (e.denote m) k = _; rw [trunc_of_lt hk, trunc_of_lt hk, hroot k hk, ← mul_prodOthers k D i _ hi, hoth' k hk, mul_comm]
        · rw [fillRange_not_mem ha, h3.val, hfr a ha]
      · exact h3.vok.trans hvok
      · exact h3.aok.trans haok
      · intro a ha
        rw [h3.adj a fun h => ha (Or.inl h)]
        show s1.adj a + _ = _
        rw [hadj a fun h => ha (Or.inr h)]
        simp only [Exprs.grads]
        rw [grad_congrN m e _ (fun k => seed k * prodOthers D i k) hwf.1 fun k hk => by
          rw [hsz] at hk
          rw [trunc_of_lt hk, trunc_of_lt hk, hoth' k hk]]
        ring
    · -- no zero: divide the product by this operand
      have hnz : ∀ k < w.size, e.denote m k ≠ 0 := by
        intro k hk h0
        apply hz
        rw [List.any_eq_true]
        exact ⟨k, List.mem_range.2 hk, by rw [trunc_of_lt hk, beq_iff]; exact h0⟩
      have hpre : prodIterPre all w i e.getRef e.shape s1 = some (s1, some fun k =>
          trunc w.size seed k * trunc w.size (fun k => (D.map fun x => x.2 k).prod) k / trunc w.size (e.denote m) k) := by
        simp only [prodIterPre, hsz', hread, hg, Option.bind_eq_bind, Option.bind_some]
        rw [if_neg hz, hf]
        rfl
      obtain ⟨s3, h3⟩ := hcl e (by simp [Exprs.toList]) m s1 (fun k =>
          trunc w.size seed k * trunc w.size (fun k => (D.map fun x => x.2 k).prod) k / trunc w.size (e.denote m) k) hwf.1
        hwb1 (hdv.mono Set.subset_union_left Set.subset_union_left)
        (hda.mono Set.subset_union_left Set.subset_union_left) (by rw [hval]; exact hc.1) hz1
      have hpz : prodIterZero w e.getRef e.shape s1 = false := by
        simp only [prodIterZero, hsz', hread]
        simpa using hz
      refine ⟨s3, ?_, h3.val.trans hval, h3.vok.trans hvok, h3.aok.trans haok, ?_⟩
      · simp only [Exprs.bevals, hrun, Option.bind_eq_bind, Option.bind_some, hpre, h3.run, hpz]
        rfl
      · intro a ha
        rw [h3.adj a fun h => ha (Or.inl h), hadj a fun h => ha (Or.inr h)]
        simp only [Exprs.grads]
        rw [grad_congrN m e _ (fun k => seed k * prodOthers D i k) hwf.1 fun k hk => by
          rw [hsz] at hk
          rw [trunc_of_lt hk, trunc_of_lt hk, trunc_of_lt hk, ← mul_prodOthers k D i _ hi]
          have := hnz k hk
          field_simp]
        ring
  | _ => trivial

omit [HasInf ℝ] [LinAlg ℝ] in
theorem mulOthers_eq (j : ℕ) (x : ℕ → ℝ) (c : ℝ) (n : ℕ) :
    mulOthers j x c n = c * ∏ i ∈ (Finset.range n).erase j, x i := by
  induction n with
  | zero => simp [mulOthers]
  | succ n ih =>
    simp only [mulOthers]
    split
    · rename_i h
      subst h
      rw [ih, Finset.range_add_one, Finset.erase_insert (by simp), Finset.erase_eq_of_notMem (by simp)]
    · rename_i h
      rw [ih, Finset.range_add_one, Finset.erase_insert_of_ne h, Finset.prod_insert (by simp)]
      ring

omit [HasInf ℝ] [LinAlg ℝ] in
theorem prodElemSeed_eq {n : ℕ} {x : ℕ → ℝ} {c : ℝ} {j : ℕ} (hj : j < n) :
    prodElemSeed n x (∏ i ∈ Finset.range n, x i) c j = c * ∏ i ∈ (Finset.range n).erase j, x i := by
  simp only [prodElemSeed]
  split
  · exact mulOthers_eq j x c n
  · rename_i h
    have h0 : x j ≠ 0 := by rwa [beq_iff] at h
    rw [← Finset.mul_prod_erase (Finset.range n) x (Finset.mem_range.2 hj)]
    field_simp

/-- Outcome of the backward evaluation of a sequence of placeholder assignments (which is not seeded itself). -/
structure BackStm (t : Expr ℝ) (m : ℕ → ℝ) (s s' : St ℝ) : Prop where
  run : t.beval (fun _ => 0) s = some s'
  val : s'.val = s.val
  vok : s'.vok = s.vok
  aok : s'.aok = s.aok
  adj : ∀ a, a ∉ t.ownA → s'.adj a = s.adj a + t.gradS m s.adj a

/-- the claim for sequences of placeholder assignments -/
def BackClaim (t : Expr ℝ) : Prop :=
  ∀ (m : ℕ → ℝ) (s : St ℝ), t.NStm → t.WB s.vok s.aok → Disjoint t.ownV t.reads →
    Disjoint t.ownA t.readsA → t.Cached m s.val → (∀ a ∈ t.phS, s.adj a = 0) → ∃ s', BackStm t m s s'

omit [HasInf ℝ] [LinAlg ℝ] in
theorem Expr.NStm.phS {α : Type} {t : Expr α} : t.NStm → t.phS ⊆ t.phA := by
  induction t using Expr.induct with
  | eq v e w => exact fun _ a ha => ha
  | glue l r w ihl ihr => exact fun h a ha => Or.inr (ha.elim (fun x => Or.inl (ihl h.1 x)) fun x => Or.inr (ihr h.2.1 x))
  | _ => intro h; exact h.elim

omit [HasInf ℝ] [LinAlg ℝ] in
/-- the placeholders of the blocks in the right-hand sides are not those assigned by the sequence itself -/
theorem Expr.NStm.phS_defs {α : Type} {t : Expr α} {vok aok : ℕ → Bool} : t.NStm → t.WB vok aok → ∀ {a : ℕ}, a ∈ t.phS → a ∉ t.defsA := by
  induction t using Expr.induct with
  | eq v e w => exact fun _ hb a ha => Set.disjoint_left.1 hb.2.2.2.2.2.1 (e.phA_inner ha)
  | glue l r w ihl ihr =>
    intro h hb a ha hd
    have hlr := Set.disjoint_left.1 hb.2.2.2.1
    rcases ha with ha | ha
    · rcases hd with hd | hd
      · exact ihl h.1 hb.1 ha hd
      · exact hlr (l.phA_own (h.1.phS ha)) (r.defsA_own hd)
    · rcases hd with hd | hd
      · exact hlr (l.defsA_own hd) (r.phA_own (h.2.1.phS ha))
      · exact ihr h.2.1 hb.2.1 ha hd
  | _ => intro h; exact h.elim

/-- what holds of the second part of a block -/
theorem glue_disj {l r : Expr ℝ} {w : View} (hlrV : Disjoint l.ownV r.ownV) (hlrA : Disjoint l.ownA r.ownA)
    (hdv : Disjoint (Expr.glue l r w).ownV (Expr.glue l r w).reads) (hda : Disjoint (Expr.glue l r w).ownA (Expr.glue l r w).readsA) :
    (Disjoint l.ownV l.reads ∧ Disjoint l.ownA l.readsA) ∧ (Disjoint r.ownV r.reads ∧ Disjoint r.ownA r.readsA) ∧
      (∀ a ∈ l.ownA, a ∈ r.readsA → a ∈ l.defsA) := by
  have hdv : Disjoint (l.ownV ∪ r.ownV) (l.reads ∪ (r.reads \ l.defs)) := hdv.mono_left fun a h => Or.inl h
  have hda : Disjoint (l.ownA ∪ r.ownA) (l.readsA ∪ (r.readsA \ l.defsA)) := hda.mono_left fun a h => Or.inl h
  refine ⟨⟨hdv.mono Set.subset_union_left Set.subset_union_left, hda.mono Set.subset_union_left Set.subset_union_left⟩, ⟨?_, ?_⟩, ?_⟩
  · refine Set.disjoint_left.2 fun a ha hr => ?_
    by_cases hd : a ∈ l.defs
    · exact disj_left hlrV (l.defs_own hd) ha
    · exact disj_left hdv (Or.inr ha) (Or.inr ⟨hr, hd⟩)
  · refine Set.disjoint_left.2 fun a ha hr => ?_
    by_cases hd : a ∈ l.defsA
    · exact disj_left hlrA (l.defsA_own hd) ha
    · exact disj_left hda (Or.inr ha) (Or.inr ⟨hr, hd⟩)
  · intro a ha hr
    by_contra hd
    exact disj_left hda (Or.inl ha) (Or.inr ⟨hr, hd⟩)

theorem back_stm_eq {v w : View} {e : Expr ℝ} (ih : BevalClaim e) : BackClaim (.eq v e w) := by
  intro m s hwf hwb hdv hda hc hz
  obtain ⟨wfe, hok, hsh, hwsh, _⟩ := hwf
  obtain ⟨wbe, hav, haa, hwv, _, _, hpe, hroot⟩ := hwb
  have hsz : e.size = v.size := by rw [Expr.size, hsh, View.size]
  have hdv : Disjoint ((e.innerV ∪ e.valRoot) ∪ rng v.val v.size) e.reads := hdv.mono_left fun a h => Or.inl h
  have hda : Disjoint ((e.innerA ∪ e.adjRoot) ∪ rng v.adj v.size) e.readsA := hda.mono_left fun a h => Or.inl h
  let f : ℕ → ℝ := fun k => trunc v.size (fun k => s.adj (addr v.adj + k)) k + 0
  have hs1 : ({ s with adj := fillRange s.adj (addr v.adj) v.size f } : St ℝ) = s := by
    have : fillRange s.adj (addr v.adj) v.size f = s.adj := by
      funext a
      by_cases ha : a ∈ rng v.adj v.size
      · obtain ⟨k, hk, rfl⟩ := mem_rng_iff.1 ha
        rw [fillRange_add hk]
        show trunc v.size _ k + 0 = _
        rw [add_zero, trunc_of_lt hk]
      · exact fillRange_not_mem ha
    rw [this]
  let g : ℕ → ℝ := trunc v.size (fun k => s.adj (addr v.adj + k))
  have hg : s.readA v.adj v.size = some g := readCells_eq haa
  obtain ⟨s2, h2⟩ := ih m s g wfe wbe (hdv.mono_left fun a h => Or.inl h) (hda.mono_left fun a h => Or.inl h) hc.1 hz
  refine ⟨s2, ?_, h2.val, h2.vok, h2.aok, fun a ha => ?_⟩
  · simp only [Expr.beval, View.bevalVar, hg, Option.bind_eq_bind, Option.bind_some]
    rw [writeA_eq haa]
    simp only [Option.bind_some]
    rw [show ({ s with adj := fillRange s.adj (addr v.adj) v.size fun k => g k + 0 } : St ℝ) = s from hs1, hg]
    exact h2.run
  · rw [h2.adj a fun h => ha (Or.inl (Or.inl h))]
    show _ = _ + e.grad m _ a
    rw [grad_congrN m e g _ wfe fun k hk => trunc_of_lt (hsz ▸ hk)]

theorem back_stm_glue {l r : Expr ℝ} {w : View} (ihl : BackClaim l) (ihr : BackClaim r) : BackClaim (.glue l r w) := by
  intro m s hwf hwb hdv hda hc hz
  obtain ⟨wfl, wfr, hsh⟩ := hwf
  obtain ⟨wbl, wbr, hlrV, hlrA, hw⟩ := hwb
  obtain ⟨⟨dvl, dal⟩, ⟨dvr, dar⟩, hdef⟩ := glue_disj hlrV hlrA hdv hda
  obtain ⟨s1, h1⟩ := ihr (l.exec m) s wfr wbr dvr dar hc.2 fun a ha => hz a (Or.inr ha)
  have hzl : ∀ a ∈ l.phS, s1.adj a = 0 := by
    intro a ha
    have hal := l.phA_own (wfl.phS ha)
    rw [h1.adj a (disj_left hlrA hal), hz a (Or.inl ha), zero_add]
    by_cases hr : a ∈ r.readsA
    · exact absurd (hdef a hal hr) (wfl.phS_defs wbl ha)
    · exact gradS_support _ _ _ _ hr
  obtain ⟨s2, h2⟩ := ihl m s1 wfl (by rw [h1.vok, h1.aok]; exact wbl) dvl dal (by rw [h1.val]; exact hc.1) hzl
  refine ⟨s2, ?_, h2.val.trans h1.val, h2.vok.trans h1.vok, h2.aok.trans h1.aok, fun a ha => ?_⟩
  · simp only [Expr.beval, h1.run, Option.bind_eq_bind, Option.bind_some]
    exact h2.run
  · have hal : a ∉ l.ownA := fun h => ha (Or.inl (Or.inl h))
    have har : a ∉ r.ownA := fun h => ha (Or.inl (Or.inr h))
    simp only [Expr.gradS]
    rw [h2.adj a hal, h1.adj a har, if_neg fun h => hal (l.defsA_own h),
      gradS_congr m l s1.adj (fun b => s.adj b + r.gradS (l.exec m) s.adj b) wfl
        fun b hb => h1.adj b (disj_left hlrA (l.defsA_own hb))]
    ring

theorem beval_glue {l r : Expr ℝ} {w : View} (ihl : BackClaim l) (ihr : BevalClaim r) : BevalClaim (.glue l r w) := by
  intro m s seed hwf hwb hdv hda hc hz
  obtain ⟨wfl, wfr, hsh, hif, hnc⟩ := hwf
  obtain ⟨wbl, wbr, hlrV, hlrA, hw⟩ := hwb
  obtain ⟨⟨dvl, dal⟩, ⟨dvr, dar⟩, hdef⟩ := glue_disj hlrV hlrA hdv hda
  obtain ⟨s1, h1⟩ := ihr (l.exec m) s seed wfr wbr dvr dar hc.2 fun a ha => hz a (Or.inr (Or.inr ha))
  have hzl : ∀ a ∈ l.phS, s1.adj a = 0 := by
    intro a ha
    have hal := l.phA_own (wfl.phS ha)
    rw [h1.adj a (disj_left hlrA hal), hz a (Or.inr (Or.inl (wfl.phS ha))), zero_add]
    by_cases hr : a ∈ r.readsA
    · exact absurd (hdef a hal hr) (wfl.phS_defs wbl ha)
    · exact grad_support _ _ _ _ hr
  obtain ⟨s2, h2⟩ := ihl m s1 wfl (by rw [h1.vok, h1.aok]; exact wbl) dvl dal (by rw [h1.val]; exact hc.1) hzl
  refine ⟨s2, ?_, h2.val.trans h1.val, h2.vok.trans h1.vok, h2.aok.trans h1.aok, fun a ha => ?_, fun _ k hk h _ => h.elim⟩
  · simp only [Expr.beval, h1.run, Option.bind_eq_bind, Option.bind_some]
    exact h2.run
  · have hal : a ∉ l.ownA := fun h => ha (Or.inl (Or.inl h))
    have har : a ∉ r.ownA := fun h => ha (Or.inl (Or.inr h))
    simp only [Expr.grad]
    rw [h2.adj a hal, h1.adj a har, if_neg fun h => hal (l.defsA_own h),
      gradS_congr m l s1.adj (r.grad (l.exec m) seed) wfl fun b hb => by
        rw [h1.adj b (disj_left hlrA (l.defsA_own hb)), hz b (Or.inl hb), zero_add]]
    ring

theorem beval_both (e : Expr ℝ) : BevalClaim e ∧ BackClaim e := by
  induction e using Expr.induct with
  | var v =>
    refine ⟨?_, fun m s h => h.elim⟩
    intro m s seed hwf hwb hdv hda hc hz
    have hacc : accessible s.aok v.adj v.size := hwb.2
    let g : ℕ → ℝ := fun k => trunc v.size (fun k => s.adj (addr v.adj + k)) k + seed k
    refine ⟨{ s with adj := fillRange s.adj (addr v.adj) v.size g }, ?_, rfl, rfl, rfl, ?_, ?_⟩
    · simp only [Expr.beval, View.bevalVar, St.readA, readCells_eq hacc, Option.bind_eq_bind, Option.bind_some]
      exact writeA_eq hacc
    · intro a _
      simp only [Expr.grad, fillRange, g]
      split
      · rename_i h
        rw [trunc_of_lt (by omega), show addr v.adj + (a - addr v.adj) = a by omega]
      · simp
    · intro _ k _ h; exact h.elim
  | const sh c =>
    refine ⟨?_, fun m s h => h.elim⟩
    intro m s seed _ _ _ _ _ _
    exact ⟨s, rfl, rfl, rfl, rfl, fun a _ => by simp [Expr.grad], fun _ k _ h => h.elim⟩
  | cview sh p =>
    refine ⟨?_, fun m s h => h.elim⟩
    intro m s seed _ _ _ _ _ _
    exact ⟨s, rfl, rfl, rfl, rfl, fun a _ => by simp [Expr.grad], fun _ k _ h => h.elim⟩
  | unary op e w ih =>
    refine ⟨?_, fun m s h => h.elim⟩
    replace ih := ih.1
    intro m s seed hwf hwb hdv hda hc hz
    obtain ⟨wfe, hsh, hif⟩ := hwf
    obtain ⟨wbe, haccv, hacca, hdw, hdwa⟩ := hwb
    obtain ⟨hce, hroot⟩ := hc
    have hsz : e.size = w.size := by simp [Expr.size, View.size, hsh]
    have hown : (Expr.unary op e w).ownV = e.ownV ∪ rng w.val w.size := rfl
    have hownA : (Expr.unary op e w).ownA = e.ownA ∪ rng w.adj w.size := rfl
    have hrd : (Expr.unary op e w).reads = e.reads := rfl
    have hrdA : (Expr.unary op e w).readsA = e.readsA := rfl
    rw [hown, hrd, Set.disjoint_union_left] at hdv
    rw [hownA, hrdA, Set.disjoint_union_left] at hda
    obtain ⟨x, hx, hx'⟩ := readBack_ok (b := op.usesX) wfe wbe hce hif
    obtain ⟨f, hf, hf'⟩ := readIf_cells (b := op.usesF) (c := w.shape.isScl) haccv hroot
    obtain ⟨s2, h2⟩ := ih m { s with adj := fillRange s.adj (addr w.adj) w.size seed }
      (fun k => op.bmap (trunc w.size seed k) (x k) (f k)) wfe wbe hdv.1 hda.1 hce (zero_fill hz hdwa)
    obtain ⟨hadj, hkeep⟩ := beval_child h2 hdwa hda.2
    refine ⟨s2, ?_, h2.val, h2.vok, h2.aok, fun a ha => ?_, fun _ k hk _ _ => hkeep k hk⟩
    · simp only [Expr.beval, hx, hf, writeA_eq hacca, Option.bind_eq_bind, Option.bind_some]
      rw [readA_fill hacca]
      exact h2.run
    · rw [hownA, Set.mem_union, not_or] at ha
      rw [hadj a ha.1 ha.2]
      simp only [Expr.grad]
      rw [grad_congrN m e _ (fun k => op.bmap (seed k) (e.denote m k) ((Expr.unary op e w).denote m k)) wfe]
      intro k hk
      rw [hsz] at hk
      rw [trunc_of_lt hk]
      refine UOp.bmap_congr op (fun h => ?_) fun h => ?_
      · rw [hx' h, trunc_of_lt (by omega)]
      · rw [hf' h, trunc_of_lt hk]
  | binary op l r w ihl ihr =>
    refine ⟨?_, fun m s h => h.elim⟩
    replace ihl := ihl.1
    replace ihr := ihr.1
    intro m s seed hwf hwb hdv hda hc hz
    obtain ⟨wfl, wfr, hok, hdims, hif⟩ := hwf
    obtain ⟨wbl, wbr, hlrV, hlrA, haccv, hdw, hadjw⟩ := hwb
    obtain ⟨hcl, hcr, hroot⟩ := hc
    have hownA : (Expr.binary op l r w).ownA =
      (l.ownA ∪ r.ownA) ∪ (if op.isComparison then ∅ else rng w.adj w.size) := rfl
    by_cases hcmp : op.isComparison = true
    · refine ⟨s, by simp [Expr.beval, hcmp], rfl, rfl, rfl, fun a _ => by simp [Expr.grad, hcmp], fun _ k _ h => ?_⟩
      simp [Expr.adjRoot, hcmp] at h
    have hcmp : op.isComparison = false := by simpa using hcmp
    obtain ⟨hacca, hdwa⟩ := hadjw hcmp
    obtain ⟨hifl, hifr⟩ := hif hcmp
    have hown : (Expr.binary op l r w).ownV = (l.ownV ∪ r.ownV) ∪ rng w.val w.size := rfl
    have hrd : (Expr.binary op l r w).reads = l.reads ∪ r.reads := rfl
    have hrdA : (Expr.binary op l r w).readsA = l.readsA ∪ r.readsA := rfl
    rw [hcmp] at hownA
    rw [if_neg (by simp)] at hownA
    rw [hown, hrd, Set.disjoint_union_left] at hdv
    rw [hownA, hrdA, Set.disjoint_union_left] at hda
    have hdvl := hdv.1.mono (Set.subset_union_left (s := l.ownV) (t := r.ownV)) (Set.subset_union_left (s := l.reads) (t := r.reads))
    have hdvr := hdv.1.mono (Set.subset_union_right (s := l.ownV) (t := r.ownV)) (Set.subset_union_right (s := l.reads) (t := r.reads))
    have hdal := hda.1.mono (Set.subset_union_left (s := l.ownA) (t := r.ownA)) (Set.subset_union_left (s := l.readsA) (t := r.readsA))
    have hdar := hda.1.mono (Set.subset_union_right (s := l.ownA) (t := r.ownA)) (Set.subset_union_right (s := l.readsA) (t := r.readsA))
    rw [Set.disjoint_union_right] at hdwa
    have hda2 := hda.2
    rw [Set.disjoint_union_right] at hda2
    set s1 : St ℝ := { s with adj := fillRange s.adj (addr w.adj) w.size seed } with hs1
    obtain ⟨x, hx, hx'⟩ := readBack_ok (b := op.usesL) wfl wbl hcl hifl
    obtain ⟨y, hy, hy'⟩ := readBack_ok (b := op.usesR) wfr wbr hcr hifr
    obtain ⟨f, hf, hf'⟩ := readIf_cells (b := op.usesF) (c := w.shape.isScl) haccv hroot
    have hbx : ∀ k < w.size, op.usesL = true → bcast l.shape x k = bcast l.shape (l.denote m) k := by
      intro k hk hu
      rw [hx' hu]
      exact bcast_trunc wfl.shapeOk hdims.1 _ hk
    have hby : ∀ k < w.size, op.usesR = true → bcast r.shape y k = bcast r.shape (r.denote m) k := by
      intro k hk hu
      rw [hy' hu]
      exact bcast_trunc wfr.shapeOk hdims.2.1 _ hk
    have hbf : ∀ k < w.size, op.usesF = true → f k = (Expr.binary op l r w).denote m k := by
      intro k hk hu
      rw [hf' hu, trunc_of_lt hk]
    obtain ⟨s2, h2⟩ := ihr m s1 (collapse r.shape w.shape w.size
      (fun k => op.br (trunc w.size seed k) (bcast l.shape x k) (bcast r.shape y k) (f k))) wfr wbr hdvr hdar hcr (zero_fill (fun a ha => hz a (Or.inr ha)) hdwa.2)
    obtain ⟨hadj2, hkeep2⟩ := beval_child h2 hdwa.2 hda2.2
    have hwbl2 : l.WB s2.vok s2.aok := by rw [h2.vok, h2.aok]; exact wbl
    have hwbr2 : r.WB s2.vok s2.aok := by rw [h2.vok, h2.aok]; exact wbr
    have hcl2 : l.Cached m s2.val := by rw [h2.val]; exact hcl
    have hcr2 : r.Cached m s2.val := by rw [h2.val]; exact hcr
    obtain ⟨x2, hx2, hx2'⟩ := readBack_ok (b := op.usesL) wfl hwbl2 hcl2 hifl
    obtain ⟨y2, hy2, hy2'⟩ := readBack_ok (b := op.usesR) wfr hwbr2 hcr2 hifr
    obtain ⟨f2, hf2, hf2'⟩ := readIf_cells (s := s2) (b := op.usesF) (c := w.shape.isScl) (by rw [h2.vok]; exact haccv)
      (by rw [h2.val]; exact hroot)
    have hg2 : s2.readA w.adj w.size = some (trunc w.size seed) :=
      readCells_eq' (by rw [h2.aok]; exact hacca) hkeep2
    have hsr : r.grad m (collapse r.shape w.shape w.size
        (fun k => op.br (trunc w.size seed k) (bcast l.shape x k) (bcast r.shape y k) (f k))) =
        r.grad m (collapse r.shape w.shape w.size (fun k =>
          op.br (seed k) (bcast l.shape (l.denote m) k) (bcast r.shape (r.denote m) k)
            ((Expr.binary op l r w).denote m k))) := by
      refine grad_congrN m r _ _ wfr (collapse_congr (fun k hk => ?_) (operand_size wfr.shapeOk hok hdims.2.1))
      rw [trunc_of_lt hk]
      exact BOp.br_congr op (hbx k hk) (hby k hk) (hbf k hk)
    -- both ways of seeding the left operand
    have key : ∃ g s3, BevalOk l m g s2 s3 ∧ (Expr.binary op l r w).beval seed s = some s3 ∧
        l.grad m g = l.grad m (collapse l.shape w.shape w.size (fun k =>
          op.bl (seed k) (bcast l.shape (l.denote m) k) (bcast r.shape (r.denote m) k)
            ((Expr.binary op l r w).denote m k))) := by
      by_cases hscl : l.shape.isScl = true
      · obtain ⟨s3, h3⟩ := ihl m s2 (collapse l.shape w.shape w.size
          (fun k => op.bl (trunc w.size seed k) (bcast l.shape x k) (bcast r.shape y k) (f k))) wfl hwbl2 hdvl hdal hcl2
          (zero_after h2 (zero_fill (fun a ha => hz a (Or.inl ha)) hdwa.1) hlrA
          (hda.1.mono Set.subset_union_left Set.subset_union_right))
        refine ⟨_, s3, h3, ?_, ?_⟩
        · simp only [Expr.beval, hcmp, hx, hy, hf, writeA_eq hacca, Option.bind_eq_bind, Option.bind_some]
          rw [readA_fill hacca]
          simp only [Option.bind_some]
          rw [← hs1, h2.run]
          simp only [Option.bind_some, hscl, if_true]
          exact h3.run
        · refine grad_congrN m l _ _ wfl (collapse_congr (fun k hk => ?_) (operand_size wfl.shapeOk hok hdims.1))
          rw [trunc_of_lt hk]
          exact BOp.bl_congr op (hby k hk)
      · obtain ⟨s3, h3⟩ := ihl m s2
          (fun k => op.bl (trunc w.size seed k) (bcast l.shape x2 k) (bcast r.shape y2 k) (f2 k)) wfl hwbl2 hdvl hdal hcl2
          (zero_after h2 (zero_fill (fun a ha => hz a (Or.inl ha)) hdwa.1) hlrA
          (hda.1.mono Set.subset_union_left Set.subset_union_right))
        have hscl : l.shape.isScl = false := by simpa using hscl
        refine ⟨_, s3, h3, ?_, ?_⟩
        · simp only [Expr.beval, hcmp, hx, hy, hf, writeA_eq hacca, Option.bind_eq_bind, Option.bind_some]
          rw [readA_fill hacca]
          simp only [Option.bind_some]
          rw [← hs1, h2.run]
          simp only [Option.bind_some, hscl]
          rw [if_neg (by simp), if_neg (by simp), hx2, hy2, hf2, hg2]
          exact h3.run
        · refine grad_congrN m l _ _ wfl fun k hk => ?_
          have hk : k < w.size := by
            rcases operand_size wfl.shapeOk hok hdims.1 with h | h
            · simp [hscl] at h
            · exact lt_of_lt_of_le hk h
          simp only [collapse, hscl, Bool.false_and]
          rw [if_neg (by simp), trunc_of_lt hk]
          refine BOp.bl_congr op fun hu => ?_
          rw [hy2' hu]
          exact bcast_trunc wfr.shapeOk hdims.2.1 _ hk
    obtain ⟨g, s3, h3, hrun, hsl⟩ := key
    refine ⟨s3, hrun, h3.val.trans h2.val, h3.vok.trans h2.vok, h3.aok.trans h2.aok, fun a ha => ?_, fun _ k hk _ _ => ?_⟩
    · rw [hownA, Set.mem_union, Set.mem_union, not_or, not_or] at ha
      rw [h3.adj a ha.1.1, hadj2 a ha.1.2 ha.2, hsr, hsl]
      simp only [Expr.grad, hcmp]
      rw [if_neg (by simp)]
      ring
    · have hmem : addr w.adj + k ∈ rng w.adj w.size := add_mem_rng hk
      show s3.adj (addr w.adj + k) = seed k
      rw [h3.adj _ (disj_left hdwa.1 hmem), grad_support _ _ _ _ (disj_left hda2.1 hmem), add_zero, hkeep2 k hk]
  | pow n e w ih =>
    refine ⟨?_, fun m s h => h.elim⟩
    replace ih := ih.1
    intro m s seed hwf hwb hdv hda hc hz
    obtain ⟨wfe, hsh, hif⟩ := hwf
    obtain ⟨wbe, haccv, hdw, hadjw⟩ := hwb
    obtain ⟨hce, hroot⟩ := hc
    have hsz : e.size = w.size := by simp [Expr.size, View.size, hsh]
    have hown : (Expr.pow n e w).ownV = e.ownV ∪ rng w.val w.size := rfl
    have hownA : (Expr.pow n e w).ownA = e.ownA ∪ (if n = 0 ∨ n = 1 then ∅ else rng w.adj w.size) := rfl
    have hrd : (Expr.pow n e w).reads = e.reads := rfl
    have hrdA : (Expr.pow n e w).readsA = e.readsA := rfl
    rw [hown, hrd, Set.disjoint_union_left] at hdv
    rw [hownA, hrdA, Set.disjoint_union_left] at hda
    by_cases h0 : n = 0
    · obtain ⟨s2, h2⟩ := ih m s (fun _ => 0) wfe wbe hdv.1 hda.1 hce hz
      refine ⟨s2, by simp only [Expr.beval, h0, if_true]; exact h2.run, h2.val, h2.vok, h2.aok, fun a ha => ?_, fun _ k _ h => ?_⟩
      · rw [h2.adj a fun h => ha (Or.inl h)]
        simp only [Expr.grad, h0, if_true]
      · simp [Expr.adjRoot, h0] at h
    by_cases h1 : n = 1
    · obtain ⟨s2, h2⟩ := ih m s seed wfe wbe hdv.1 hda.1 hce hz
      refine ⟨s2, ?_, h2.val, h2.vok, h2.aok, fun a ha => ?_, fun _ k _ h => ?_⟩
      · simp only [Expr.beval]
        rw [if_neg h0, if_pos h1]
        exact h2.run
      · rw [h2.adj a fun h => ha (Or.inl h)]
        simp only [Expr.grad]
        rw [if_neg h0, if_pos h1]
      · simp [Expr.adjRoot, h1] at h
    have hn : ¬ (n = 0 ∨ n = 1) := by tauto
    obtain ⟨hacca, hdwa⟩ := hadjw hn
    rw [if_neg hn] at hownA hda
    have hif' : e.isIf = false := by
      by_contra h
      exact hn (hif (by simpa using h))
    have hx := getRef_readN wfe wbe hce hif'
    have hf : readCells s.val s.vok w.val w.size = some (trunc w.size ((Expr.pow n e w).denote m)) :=
      readCells_eq' haccv hroot
    obtain ⟨s2, h2⟩ := ih m { s with adj := fillRange s.adj (addr w.adj) w.size seed }
      (fun k => powSeed n (trunc w.size seed k) (trunc w.size ((Expr.pow n e w).denote m) k)
        (trunc e.size (e.denote m) k)) wfe wbe hdv.1 hda.1 hce (zero_fill hz hdwa)
    obtain ⟨hadj, hkeep⟩ := beval_child h2 hdwa hda.2
    refine ⟨s2, ?_, h2.val, h2.vok, h2.aok, fun a ha => ?_, fun _ k hk _ _ => hkeep k hk⟩
    · simp only [Expr.beval]
      rw [if_neg h0, if_neg h1]
      simp only [hx, hf, writeA_eq hacca, Option.bind_eq_bind, Option.bind_some]
      rw [readA_fill hacca]
      exact h2.run
    · rw [hownA, Set.mem_union, not_or] at ha
      rw [hadj a ha.1 ha.2]
      simp only [Expr.grad]
      rw [if_neg h0, if_neg h1]
      rw [grad_congrN m e _ (fun k => powSeed n (seed k) ((Expr.pow n e w).denote m k) (e.denote m k)) wfe]
      intro k hk
      rw [trunc_of_lt hk, hsz] at *
      rw [trunc_of_lt hk, trunc_of_lt hk]
  | prodElem e w c ih =>
    refine ⟨?_, fun m s h => h.elim⟩
    replace ih := ih.1
    intro m s seed hwf hwb hdv hda hc hz
    obtain ⟨wfe, hsh, hif⟩ := hwf
    obtain ⟨wbe, haccv, hacca, hdw, hdwa⟩ := hwb
    obtain ⟨hce, hroot⟩ := hc
    have hown : (Expr.prodElem e w c).ownV = e.ownV ∪ rng w.val w.size := rfl
    have hownA : (Expr.prodElem e w c).ownA = e.ownA ∪ rng c e.size := rfl
    have hrd : (Expr.prodElem e w c).reads = e.reads := rfl
    have hrdA : (Expr.prodElem e w c).readsA = e.readsA := rfl
    rw [hown, hrd, Set.disjoint_union_left] at hdv
    rw [hownA, hrdA, Set.disjoint_union_left] at hda
    have hw1 : w.size = 1 := by simp [View.size, hsh, Shape.scl, Shape.size]
    have hx : ∃ x, readIf (e.size != 0) e.getRef s e.size = some x ∧ ∀ k < e.size, x k = e.denote m k := by
      simp only [readIf]
      split
      · exact ⟨_, getRef_readN wfe wbe hce hif, fun k hk => trunc_of_lt hk⟩
      · rename_i h
        exact ⟨_, rfl, fun k hk => by simp at h; omega⟩
    have hf : ∃ f, readIf (e.size != 0) (.ptr w.val) s w.size = some f ∧
        (e.size ≠ 0 → f 0 = ∏ i ∈ Finset.range e.size, e.denote m i) := by
      simp only [readIf]
      split
      · exact ⟨_, readCells_eq' haccv hroot, fun _ => by rw [trunc_of_lt (by omega)]; rfl⟩
      · rename_i h
        exact ⟨_, rfl, fun hk => by simp at h; omega⟩
    obtain ⟨x, hx, hx'⟩ := hx
    obtain ⟨f, hf, hf'⟩ := hf
    obtain ⟨s2, h2⟩ := ih m { s with adj := fillRange s.adj (addr c) e.size fun j => prodElemSeed e.size x (f 0) (seed 0) j }
      (trunc e.size fun j => prodElemSeed e.size x (f 0) (seed 0) j) wfe wbe hdv.1 hda.1 hce (zero_fill hz hdwa)
    obtain ⟨hadj, hkeep⟩ := beval_child h2 hdwa hda.2
    refine ⟨s2, ?_, h2.val, h2.vok, h2.aok, fun a ha => ?_, fun h => by simp [Expr.isProdElem] at h⟩
    · simp only [Expr.beval, hx, hf, writeA_eq hacca, Option.bind_eq_bind, Option.bind_some]
      rw [readA_fill hacca]
      exact h2.run
    · rw [hownA, Set.mem_union, not_or] at ha
      rw [hadj a ha.1 ha.2]
      simp only [Expr.grad]
      rw [grad_congrN m e _ (fun j => seed 0 * ∏ i ∈ (Finset.range e.size).erase j, e.denote m i) wfe]
      intro k hk
      have hp : ∏ i ∈ Finset.range e.size, e.denote m i = ∏ i ∈ Finset.range e.size, x i :=
        Finset.prod_congr rfl fun i hi => (hx' i (Finset.mem_range.1 hi)).symm
      rw [trunc_of_lt hk, hf' (by omega), hp, prodElemSeed_eq hk]
      congr 1
      exact Finset.prod_congr rfl fun i hi => hx' i (Finset.mem_range.1 (Finset.mem_of_mem_erase hi))
  | transpose e w ih =>
    refine ⟨?_, fun m s h => h.elim⟩
    replace ih := ih.1
    intro m s seed hwf hwb hdv hda hc hz
    obtain ⟨wfe, hk, hsh⟩ := hwf
    obtain ⟨wbe, haccv, hacca, hdw, hdwa⟩ := hwb
    obtain ⟨hce, hroot⟩ := hc
    have hown : (Expr.transpose e w).ownV = e.ownV ∪ rng w.val w.size := rfl
    have hownA : (Expr.transpose e w).ownA = e.ownA ∪ rng w.adj w.size := rfl
    have hrd : (Expr.transpose e w).reads = e.reads := rfl
    have hrdA : (Expr.transpose e w).readsA = e.readsA := rfl
    rw [hown, hrd, Set.disjoint_union_left] at hdv
    rw [hownA, hrdA, Set.disjoint_union_left] at hda
    obtain ⟨s2, h2⟩ := ih m { s with adj := fillRange s.adj (addr w.adj) w.size seed }
      (transposed e.shape.rows e.shape.cols (trunc w.size seed)) wfe wbe hdv.1 hda.1 hce (zero_fill hz hdwa)
    obtain ⟨hadj, hkeep⟩ := beval_child h2 hdwa hda.2
    refine ⟨s2, ?_, h2.val, h2.vok, h2.aok, fun a ha => ?_, fun _ k hk _ _ => hkeep k hk⟩
    · simp only [Expr.beval, writeA_eq hacca, Option.bind_eq_bind, Option.bind_some]
      rw [readA_fill hacca]
      exact h2.run
    · rw [hownA, Set.mem_union, not_or] at ha
      rw [hadj a ha.1 ha.2]
      simp only [Expr.grad]
      rw [grad_congrN m e _ (transposed e.shape.rows e.shape.cols seed) wfe]
      intro k hk
      simp only [transposed]
      have hk : k < e.shape.rows * e.shape.cols := hk
      have := idx_lt hk
      refine trunc_of_lt ?_
      show _ < w.shape.size
      rw [hsh]
      exact idx_lt' this.2 this.1
  | dot l r w ihl ihr =>
    refine ⟨?_, fun m s h => h.elim⟩
    replace ihl := ihl.1
    replace ihr := ihr.1
    intro m s seed hwf hwb hdv hda hc hz
    obtain ⟨wfl, wfr, hkl, hkr, hcr, hsh, hifl, hifr⟩ := hwf
    obtain ⟨wbl, wbr, hlrV, hlrA, haccv, hacca, hdw, hdwa⟩ := hwb
    obtain ⟨hcl, hccr, hroot⟩ := hc
    have hcols : r.shape.kind = .vec → r.shape.cols = 1 := by
      intro hk; have := wfr.shapeOk; rw [Shape.Ok, hk] at this; exact this
    have hwr : w.shape.rows = l.shape.rows ∧ w.shape.cols = r.shape.cols := by
      rw [hsh]
      cases hk : r.shape.kind
      · exact absurd hk hkr
      · simp [Shape.ofDims, hcols hk]
      · simp [Shape.ofDims]
    have hown : (Expr.dot l r w).ownV = (l.ownV ∪ r.ownV) ∪ rng w.val w.size := rfl
    have hownA : (Expr.dot l r w).ownA = (l.ownA ∪ r.ownA) ∪ rng w.adj w.size := rfl
    have hrd : (Expr.dot l r w).reads = l.reads ∪ r.reads := rfl
    have hrdA : (Expr.dot l r w).readsA = l.readsA ∪ r.readsA := rfl
    rw [hown, hrd, Set.disjoint_union_left] at hdv
    rw [hownA, hrdA, Set.disjoint_union_left] at hda
    have hdvl := hdv.1.mono (Set.subset_union_left (s := l.ownV) (t := r.ownV)) (Set.subset_union_left (s := l.reads) (t := r.reads))
    have hdvr := hdv.1.mono (Set.subset_union_right (s := l.ownV) (t := r.ownV)) (Set.subset_union_right (s := l.reads) (t := r.reads))
    have hdal := hda.1.mono (Set.subset_union_left (s := l.ownA) (t := r.ownA)) (Set.subset_union_left (s := l.readsA) (t := r.readsA))
    have hdar := hda.1.mono (Set.subset_union_right (s := l.ownA) (t := r.ownA)) (Set.subset_union_right (s := l.readsA) (t := r.readsA))
    rw [Set.disjoint_union_right] at hdwa
    have hda2 := hda.2
    rw [Set.disjoint_union_right] at hda2
    set s1 : St ℝ := { s with adj := fillRange s.adj (addr w.adj) w.size seed } with hs1
    obtain ⟨s2, h2⟩ := ihr m s1 (dotRSeed l.shape.rows l.shape.cols (trunc l.size (l.denote m)) (trunc w.size seed))
      wfr wbr hdvr hdar hccr (zero_fill (fun a ha => hz a (Or.inr ha)) hdwa.2)
    obtain ⟨hadj2, hkeep2⟩ := beval_child h2 hdwa.2 hda2.2
    have hwbl2 : l.WB s2.vok s2.aok := by rw [h2.vok, h2.aok]; exact wbl
    have hwbr2 : r.WB s2.vok s2.aok := by rw [h2.vok, h2.aok]; exact wbr
    have hcl2 : l.Cached m s2.val := by rw [h2.val]; exact hcl
    have hcr2 : r.Cached m s2.val := by rw [h2.val]; exact hccr
    have hg2 : s2.readA w.adj w.size = some (trunc w.size seed) :=
      readCells_eq' (by rw [h2.aok]; exact hacca) hkeep2
    obtain ⟨s3, h3⟩ := ihl m s2 (dotLSeed l.shape.rows l.shape.cols w.shape.cols (trunc r.size (r.denote m))
      (trunc w.size seed)) wfl hwbl2 hdvl hdal hcl2
          (zero_after h2 (zero_fill (fun a ha => hz a (Or.inl ha)) hdwa.1) hlrA
          (hda.1.mono Set.subset_union_left Set.subset_union_right))
    have hseed : ∀ i < l.shape.rows, ∀ j < r.shape.cols, trunc w.size seed (i + j * l.shape.rows) = seed (i + j * l.shape.rows) := by
      intro i hi j hj
      refine trunc_of_lt ?_
      show _ < w.shape.rows * w.shape.cols
      rw [hwr.1, hwr.2]
      exact idx_lt' hi hj
    refine ⟨s3, ?_, h3.val.trans h2.val, h3.vok.trans h2.vok, h3.aok.trans h2.aok, fun a ha => ?_, fun _ k hk _ _ => ?_⟩
    · simp only [Expr.beval, getRef_readN wfl wbl hcl hifl, writeA_eq hacca, Option.bind_eq_bind, Option.bind_some]
      rw [readA_fill hacca]
      simp only [Option.bind_some]
      rw [← hs1, h2.run]
      simp only [Option.bind_some]
      rw [getRef_readN wfr hwbr2 hcr2 hifr, hg2]
      exact h3.run
    · rw [hownA, Set.mem_union, Set.mem_union, not_or, not_or] at ha
      rw [h3.adj a ha.1.1, hadj2 a ha.1.2 ha.2]
      simp only [Expr.grad]
      rw [grad_congrN m l _ (dotLSeed l.shape.rows l.shape.cols w.shape.cols (r.denote m) seed) wfl,
        grad_congrN m r _ (dotRSeed l.shape.rows l.shape.cols (l.denote m) seed) wfr]
      · ring
      · intro k hk
        have hk : k < r.shape.rows * r.shape.cols := hk
        rw [← hcr] at hk
        have := idx_lt hk
        simp only [dotRSeed, sumN_eq]
        refine Finset.sum_congr rfl fun i hi => ?_
        have hi := Finset.mem_range.1 hi
        rw [hseed i hi _ this.2, trunc_of_lt]
        exact idx_lt' hi this.1
      · intro k hk
        have hk : k < l.shape.rows * l.shape.cols := hk
        have := idx_lt hk
        simp only [dotLSeed, sumN_eq]
        refine Finset.sum_congr rfl fun j hj => ?_
        have hj := Finset.mem_range.1 hj
        rw [hwr.2] at hj
        rw [hseed _ this.1 j hj, trunc_of_lt]
        show _ < r.shape.rows * r.shape.cols
        rw [← hcr]
        exact idx_lt' this.2 hj
    · have hmem : addr w.adj + k ∈ rng w.adj w.size := add_mem_rng hk
      show s3.adj (addr w.adj + k) = seed k
      rw [h3.adj _ (disj_left hdwa.1 hmem), grad_support _ _ _ _ (disj_left hda2.1 hmem), add_zero, hkeep2 k hk]
  | sumIter es w ih =>
    refine ⟨?_, fun m s h => h.elim⟩
    replace ih := fun e he => (ih e he).1
    intro m s seed hwf hwb hdv hda hc hz
    obtain ⟨wfe, hok, hsh⟩ := hwf
    obtain ⟨wbe, haccv, hacca, hdw, hdwa⟩ := hwb
    obtain ⟨hce, hroot⟩ := hc
    have hown : (Expr.sumIter es w).ownV = es.ownVs ∪ rng w.val w.size := rfl
    have hownA : (Expr.sumIter es w).ownA = es.ownAs ∪ rng w.adj w.size := rfl
    have hrd : (Expr.sumIter es w).reads = es.readss := rfl
    have hrdA : (Expr.sumIter es w).readsA = es.readsAs := rfl
    rw [hown, hrd, Set.disjoint_union_left] at hdv
    rw [hownA, hrdA, Set.disjoint_union_left] at hda
    by_cases hl : es.length = 0
    · have : es = .nil := by
        cases es
        · rfl
        · simp [Exprs.length] at hl
      subst this
      exact ⟨s, by simp [Expr.beval, Exprs.length], rfl, rfl, rfl, fun a _ => by simp [Expr.grad, Exprs.grads],
        fun _ k _ _ h => h⟩
    set s1 : St ℝ := { s with adj := fillRange s.adj (addr w.adj) w.size seed } with hs1
    have hs1k : ∀ k < w.size, s1.adj (addr w.adj + k) = seed k := fun k hk => fillRange_add (heap := s.adj) hk
    obtain ⟨s2, hrun, hval, hvok, haok, hadj⟩ := bevals_simple (m := m) (rng w.adj w.size) (fun _ => some (trunc w.size seed))
      (fun _ _ _ s => do
          let g ← s.readA w.adj w.size
          some (s, some g)) es 0 s1 ih wfe wbe hdv.1 hda.1 hce (fun a ha => by
          rw [hs1]; dsimp only; rw [fillRange_not_mem (disj_right hdwa (es.phAs_own (fun e _ => e.phA_own) ha))]; exact hz a ha) hdwa hda.2 (by
        intro j s' r sh _ _ h3 h4
        have : s'.readA w.adj w.size = some (trunc w.size seed) :=
          readCells_eq' (by rw [h3]; exact hacca) fun k hk => by rw [h4 _ (add_mem_rng hk), hs1k k hk]
        simp [this])
    have hsd : ∀ i a, es.grads m (fun _ => some (trunc w.size seed)) i a = es.grads m (fun _ => some seed) i a := by
      intro i a
      refine grads_congrN m es _ _ i wfe w.size (fun e he => by simp [Expr.size, View.size, hsh e he]) (fun _ => ?_) a
      exact fun k hk => trunc_of_lt hk
    refine ⟨s2, ?_, hval, hvok, haok, fun a ha => ?_, fun _ k hk _ _ => ?_⟩
    · simp only [Expr.beval]
      rw [if_neg hl]
      simp only [writeA_eq hacca, Option.bind_eq_bind, Option.bind_some]
      exact hrun
    · rw [hownA, Set.mem_union, not_or] at ha
      rw [hadj a ha.1, hsd]
      simp only [Expr.grad]
      congr 1
      exact fillRange_not_mem (heap := s.adj) (f := seed) ha.2
    · have hmem : addr w.adj + k ∈ rng w.adj w.size := add_mem_rng hk
      show s2.adj (addr w.adj + k) = seed k
      rw [hadj _ (disj_left hdwa hmem), grads_support _ _ _ _ _ (disj_left hda.2 hmem), add_zero]
      exact hs1k k hk
  | prodIter es w ih =>
    refine ⟨?_, fun m s h => h.elim⟩
    replace ih := fun e he => (ih e he).1
    intro m s seed hwf hwb hdv hda hc hz
    obtain ⟨wfe, hok, hsh⟩ := hwf
    obtain ⟨wbe, haccv, hacca, hdw, hdwa⟩ := hwb
    obtain ⟨hce, hroot⟩ := hc
    have hown : (Expr.prodIter es w).ownV = es.ownVs ∪ rng w.val w.size := rfl
    have hownA : (Expr.prodIter es w).ownA = es.ownAs ∪ rng w.adj w.size := rfl
    have hrd : (Expr.prodIter es w).reads = es.readss := rfl
    have hrdA : (Expr.prodIter es w).readsA = es.readsAs := rfl
    rw [hown, hrd, Set.disjoint_union_left] at hdv
    rw [hownA, hrdA, Set.disjoint_union_left] at hda
    by_cases hl : es.length = 0
    · have : es = .nil := by
        cases es
        · rfl
        · simp [Exprs.length] at hl
      subst this
      exact ⟨s, by simp [Expr.beval, Exprs.length], rfl, rfl, rfl, fun a _ => by simp [Expr.grad, Exprs.grads],
        fun _ k _ _ h => h⟩
    set s1 : St ℝ := { s with adj := fillRange s.adj (addr w.adj) w.size seed } with hs1
    have hs1k : ∀ k < w.size, s1.adj (addr w.adj + k) = seed k := fun k hk => fillRange_add (heap := s.adj) hk
    have hshD : ∀ es : Exprs ℝ, (∀ e ∈ es.toList, e.shape = w.shape ∧ e.isIf = false) → ∀ d ∈ es.denotes m, d.1 = w.shape := by
      intro es
      induction es using Exprs.rec (motive_1 := fun _ => True) with
      | nil => intro _ d hd; simp [Exprs.denotes] at hd
      | cons e es _ ih =>
        intro hsh d hd
        simp only [Exprs.denotes, List.mem_cons] at hd
        rcases hd with rfl | hd
        · exact (hsh e (by simp [Exprs.toList])).1
        · exact ih (fun x hx => hsh x (by simp [Exprs.toList, hx])) d hd
      | _ => trivial
    obtain ⟨s2, hrun, hval, hvok, haok, hadj⟩ := bevals_prod (m := m) w seed es.getRefs (es.denotes m) (hshD es hsh)
      es 0 s1 ih wfe wbe hdv.1 hda.1 hce (fun a ha => by
          rw [hs1]; dsimp only; rw [fillRange_not_mem (disj_right hdwa (es.phAs_own (fun e _ => e.phA_own) ha))]; exact hz a ha) hsh rfl hdw hdv.2 hdwa hda.2 haccv hacca hroot hs1k (by
        intro s' h1 h2 h3
        refine readAll_getRefs es wfe (by rw [h1, h2]; exact wbe) (cacheds_congr es hce fun a ha => ?_) fun e he => (hsh e he).2
        refine h3 a fun hmem => ?_
        rcases ha with ha | ha
        · exact disj_left hdw hmem ha
        · exact disj_left hdv.2 hmem ha)
    refine ⟨s2, ?_, hval, hvok, haok, fun a ha => ?_, fun _ k hk _ _ => ?_⟩
    · simp only [Expr.beval]
      rw [if_neg hl]
      simp only [writeA_eq hacca, Option.bind_eq_bind, Option.bind_some]
      exact hrun
    · rw [hownA, Set.mem_union, not_or] at ha
      rw [hadj a ha.1]
      simp only [Expr.grad]
      congr 1
      exact fillRange_not_mem (heap := s.adj) (f := seed) ha.2
    · have hmem : addr w.adj + k ∈ rng w.adj w.size := add_mem_rng hk
      show s2.adj (addr w.adj + k) = seed k
      rw [hadj _ (disj_left hdwa hmem), grads_support _ _ _ _ _ (disj_left hda.2 hmem), add_zero]
      exact hs1k k hk
  | reduce op es w ih =>
    refine ⟨?_, fun m s h => h.elim⟩
    replace ih := fun e he => (ih e he).1
    intro m s seed hwf hwb hdv hda hc hz
    obtain ⟨wfe, hsh, hcase⟩ := hwf
    obtain ⟨wbe, haccv, hdw⟩ := hwb
    obtain ⟨hce, hroot⟩ := hc
    have hown : (Expr.reduce op es w).ownV = es.ownVs ∪ rng w.val w.size := rfl
    have hownA : (Expr.reduce op es w).ownA = es.ownAs ∪ ∅ := rfl
    have hrd : (Expr.reduce op es w).reads = es.readss := rfl
    have hrdA : (Expr.reduce op es w).readsA = es.readsAs := rfl
    rw [hown, hrd, Set.disjoint_union_left] at hdv
    rw [Set.union_empty] at hownA
    rw [hownA, hrdA] at hda
    have hw1 : w.size = 1 := by simp [View.size, hsh, Shape.scl, Shape.size]
    obtain ⟨s2, hrun, hval, hvok, haok, hadj⟩ := bevals_simple (m := m) ∅
      (fun i => op.bmap (seed 0) ((es.denotes m).map (fun x => (x.1, trunc x.1.size x.2)))
        ((Expr.reduce op es w).denote m 0) i)
      (fun i _ _ s => do
        let args ← readOperands op s es.getRefs
        let f ← readCells s.val s.vok w.val w.size
        some (s, op.bmap (seed 0) args (f 0) i)) es 0 s ih wfe wbe hdv.1 hda hce hz (by simp) (by simp) (by
        intro j s' r sh h1 h2 h3 _
        have hf : readCells s'.val s'.vok w.val w.size = some (trunc w.size ((Expr.reduce op es w).denote m)) :=
          readCells_eq' (by rw [h2]; exact haccv) (by rw [h1]; exact hroot)
        by_cases hu : op.usesX = true
        · have hx := readOperands_eq (op := op) (s := s') (m := m) hu es wfe (by rw [h2, h3]; exact wbe) (by rw [h1]; exact hce) (by
            obtain ⟨e, rfl, hok, hif⟩ | ⟨o, k, rfl, n, -, -, -, hif, -, -⟩ := hcase
            · intro e' he'
              obtain rfl : e' = e := by simpa [Exprs.toList] using he'
              by_contra h
              rw [hif (by simpa using h)] at hu
              simp at hu
            · exact hif)
          simp only [hx, hf, Option.bind_eq_bind, Option.bind_some]
          rw [trunc_of_lt (by omega)]
        · obtain ⟨e, rfl, hok, hif⟩ | ⟨o, k, rfl, -⟩ := hcase
          · have hx : readOperands op s' (Exprs.cons e .nil).getRefs = some [(e.shape, fun _ => 0)] := by
              simp only [Exprs.getRefs, readOperands, readIf, hu]
              rfl
            simp only [hx, hf, Option.bind_eq_bind, Option.bind_some]
            rw [trunc_of_lt (by omega)]
            congr 2
            simp only [Exprs.denotes, List.map_cons, List.map_nil]
            cases op <;> simp [RedOp.usesX] at hu
            cases j <;> rfl
          · simp [RedOp.usesX] at hu)
    refine ⟨s2, ?_, hval, hvok, haok, fun a ha => ?_, fun _ k hk h _ => h.elim⟩
    · simp only [Expr.beval]
      exact hrun
    · rw [hownA] at ha
      rw [hadj a ha]
      simp only [Expr.grad]
  | ifElse c x y w ihc ihx ihy =>
    refine ⟨?_, fun m s h => h.elim⟩
    replace ihc := ihc.1
    replace ihx := ihx.1
    replace ihy := ihy.1
    intro m s seed hwf hwb hdv hda hc hz
    obtain ⟨wfc, wfx, wfy, hkc, hic, hsx, hsy, -⟩ := hwf
    obtain ⟨wbc, wbx, wby, -, -, -, -⟩ := hwb
    obtain ⟨hcc, hbr⟩ := hc
    have hown : (Expr.ifElse c x y w).ownV = (c.ownV ∪ (x.ownV ∪ y.ownV)) ∪ ∅ := rfl
    have hownA : (Expr.ifElse c x y w).ownA = (c.ownA ∪ (x.ownA ∪ y.ownA)) ∪ ∅ := rfl
    have hrd : (Expr.ifElse c x y w).reads = c.reads ∪ (x.reads ∪ y.reads) := rfl
    have hrdA : (Expr.ifElse c x y w).readsA = c.readsA ∪ (x.readsA ∪ y.readsA) := rfl
    rw [Set.union_empty] at hown hownA
    rw [hown, hrd] at hdv
    rw [hownA, hrdA] at hda
    have hsz : c.size = 1 := wfc.shapeOk.size_scl (by simp [Shape.isScl, hkc])
    have hread : c.getRef.read s 1 = some (trunc 1 (c.denote m)) := by
      rw [← hsz]; exact getRef_readN wfc wbc hcc hic
    by_cases h0 : c.denote m 0 ≠ 0
    · rw [if_pos h0] at hbr
      obtain ⟨s2, h2⟩ := ihx m s seed wfx wbx
        (hdv.mono (fun a h => Or.inr (Or.inl h)) fun a h => Or.inr (Or.inl h))
        (hda.mono (fun a h => Or.inr (Or.inl h)) fun a h => Or.inr (Or.inl h)) hbr (fun a ha => hz a (Or.inr (Or.inl ha)))
      refine ⟨s2, ?_, h2.val, h2.vok, h2.aok, fun a ha => ?_, fun _ k hk h _ => h.elim⟩
      · simp only [Expr.beval, hread, Option.bind_eq_bind, Option.bind_some]
        rw [trunc_of_lt (by omega), if_pos ((toBool_iff _).2 h0)]
        exact h2.run
      · rw [hownA] at ha
        rw [h2.adj a fun h => ha (Or.inr (Or.inl h))]
        simp only [Expr.grad]
        rw [if_pos h0]
    · rw [if_neg h0] at hbr
      obtain ⟨s2, h2⟩ := ihy m s seed wfy wby
        (hdv.mono (fun a h => Or.inr (Or.inr h)) fun a h => Or.inr (Or.inr h))
        (hda.mono (fun a h => Or.inr (Or.inr h)) fun a h => Or.inr (Or.inr h)) hbr (fun a ha => hz a (Or.inr (Or.inr ha)))
      refine ⟨s2, ?_, h2.val, h2.vok, h2.aok, fun a ha => ?_, fun _ k hk h _ => h.elim⟩
      · simp only [Expr.beval, hread, Option.bind_eq_bind, Option.bind_some]
        rw [trunc_of_lt (by omega), if_neg (fun h => h0 ((toBool_iff _).1 h))]
        exact h2.run
      · rw [hownA] at ha
        rw [h2.adj a fun h => ha (Or.inr (Or.inr h))]
        simp only [Expr.grad]
        rw [if_neg h0]
  | eq v e w ih => exact ⟨fun m s seed h => h.elim, back_stm_eq ih.1⟩
  | opEq => exact ⟨fun m s seed h => h.elim, fun m s h => h.elim⟩
  | glue l r w ihl ihr => exact ⟨beval_glue ihl.2 ihr.1, back_stm_glue ihl.2 ihr.2⟩
  | forEach => exact ⟨fun m s seed h => h.elim, fun m s h => h.elim⟩

theorem beval_okN (e : Expr ℝ) : BevalClaim e := (beval_both e).1

/-! ### the same for pure expressions -/

theorem getRef_read {e : Expr ℝ} {m : ℕ → ℝ} {s : St ℝ} (hwf : e.WF) (hwb : e.WB s.vok s.aok) (hc : e.Cached m s.val)
    (hif : e.isIf = false) : e.getRef.read s e.size = some (trunc e.size (e.denote m)) := getRef_readN hwf.nested hwb hc hif

theorem beval_ok (e : Expr ℝ) (m : ℕ → ℝ) (s : St ℝ) (seed : ℕ → ℝ) (hwf : e.WF) (hwb : e.WB s.vok s.aok) (hd : Disjoint e.ownV e.reads)
    (hdA : Disjoint e.ownA e.readsA) (hc : e.Cached m s.val) : ∃ s', BevalOk e m seed s s' :=
  beval_okN e m s seed hwf.nested hwb hd hdA hc (by rw [hwf.no_ph]; exact fun a ha => ha.elim)

end FastAD
