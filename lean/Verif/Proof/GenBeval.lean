import Verif.Proof.GenFeval
import Verif.Proof.Beval

/-!
# Backward evaluation of pure expressions over an arbitrary scalar type
-/

namespace FastAD

set_option linter.unusedSectionVars false
set_option linter.unusedSimpArgs false

variable {α : Type} [Zero α] [One α] [Add α] [Sub α] [Neg α] [Mul α] [Div α] [NatCast α] [IntCast α]
variable [Fn α] [HasInf α] [LinAlg α]

/-- Outcome of a successful `beval`. -/
structure GBevalOk (e : Expr α) (m : ℕ → α) (seed : ℕ → α) (s s' : St α) : Prop where
  run : e.beval seed s = some s'
  vok : s'.vok = s.vok
  aok : s'.aok = s.aok
  frame : ∀ a, a ∉ e.ownV → s'.val a = s.val a
  post : ∀ s'' : St α, s''.vok = s'.vok → (∀ a ∈ e.ownV ∪ e.reads, s''.val a = s'.val a) →
    (e.outRef m).read s'' e.size = some (trunc e.size (e.post m))
  adj : ∀ a, a ∉ e.ownA → s'.adj a = e.gback m seed a (s.adj a)
  /-- the root's own adjoint cells are filled with the seed (or left alone if they hold it already) -/
  keep : e.isProdElem = false → ∀ k < e.size, addr e.view.adj + k ∈ e.adjRoot → s.adj (addr e.view.adj + k) = seed k →
    s'.adj (addr e.view.adj + k) = seed k

/-- the claim proved by induction -/
def GBevalClaim (e : Expr α) : Prop :=
  ∀ (m : ℕ → α) (s : St α) (seed : ℕ → α), e.WF → e.WB s.vok s.aok → Disjoint e.ownV e.reads →
    Disjoint e.ownA e.readsA → e.Stored m s.val → ∃ s', GBevalOk e m seed s s'

theorem outRef_eq {e : Expr α} (h : e.isIf = false) (m : ℕ → α) : e.outRef m = e.getRef := by
  cases e <;> first | rfl | simp [Expr.isIf] at h

/-- `get()` during `beval` delivers the value computed by `feval` -/
theorem ggetRef_read {e : Expr α} {m : ℕ → α} {s : St α} (hwb : e.WB s.vok s.aok) (hc : e.Stored m s.val)
    (hif : e.isIf = false) : e.getRef.read s e.size = some (trunc e.size (e.exact m)) := by
  cases e with
  | var v =>
    exact readCells_eq' hwb.1 fun k hk => hc _ (add_mem_rng hk)
  | const sh c => rfl
  | cview sh p => exact readCells_eq' hwb fun k hk => hc _ (add_mem_rng hk)
  | unary op e w => exact readCells_eq' hwb.2.1 hc.2
  | binary op l r w => exact readCells_eq' hwb.2.2.2.2.1 hc.2.2
  | pow n e w => exact readCells_eq' hwb.2.1 hc.2
  | prodElem e w c => exact readCells_eq' hwb.2.1 hc.2
  | transpose e w => exact readCells_eq' hwb.2.1 hc.2
  | dot l r w => exact readCells_eq' hwb.2.2.2.2.1 hc.2.2
  | sumIter es w => exact readCells_eq' hwb.2.1 hc.2
  | prodIter es w => exact readCells_eq' hwb.2.1 hc.2
  | reduce op es w => exact readCells_eq' hwb.2.1 hc.2
  | ifElse c x y w => simp [Expr.isIf] at hif
  | eq => exact hc.elim
  | opEq => exact hc.elim
  | glue => exact hc.elim
  | forEach => exact hc.elim

theorem readCells_congr {h h' : ℕ → α} {ok : ℕ → Bool} {p : Option ℕ} {n : ℕ} (hag : ∀ a ∈ rng p n, h a = h' a) :
    readCells h ok p n = readCells h' ok p n := by
  simp only [readCells]
  split
  · rw [trunc_congr fun k hk => hag _ (add_mem_rng hk)]
  · rfl

/-- what `get()` delivers depends only on the cells of the expression -/
theorem getRef_stable {e : Expr α} (hwf : e.WF) (hif : e.isIf = false) {s s' : St α} (hv : s'.vok = s.vok)
    (hag : ∀ a ∈ e.ownV ∪ e.reads, s'.val a = s.val a) : e.getRef.read s' e.size = e.getRef.read s e.size := by
  have root : ∀ (p : Option ℕ), rng p e.size ⊆ e.ownV ∪ e.reads →
      readCells s'.val s'.vok p e.size = readCells s.val s.vok p e.size := by
    intro p hp
    rw [hv]
    exact readCells_congr fun a ha => hag a (hp ha)
  cases e with
  | var v => exact root v.val fun a ha => Or.inr ha
  | const sh c => rfl
  | cview sh p => exact root p fun a ha => Or.inr ha
  | unary _ _ w | binary _ _ _ w | pow _ _ w | prodElem _ w _ | transpose _ w | dot _ _ w | sumIter _ w | prodIter _ w | reduce _ _ w =>
    exact root w.val fun a ha => Or.inl (Or.inr ha)
  | ifElse c x y w => simp [Expr.isIf] at hif
  | eq => exact hwf.elim
  | opEq => exact hwf.elim
  | glue => exact hwf.elim
  | forEach => exact hwf.elim

theorem greadBack_ok {e : Expr α} {s : St α} {b : Bool} {f : ℕ → α}
    (hr : e.isIf = false → e.getRef.read s e.size = some (trunc e.size f))
    (hif : e.isIf = true → b = false ∧ e.shape.isScl = false) :
    ∃ x, e.readBack b s = some x ∧ (b = true → x = trunc e.size f) := by
  simp only [Expr.readBack, readIf]
  split
  · rename_i h
    refine ⟨_, hr ?_, fun _ => rfl⟩
    by_contra hne
    obtain ⟨h1, h2⟩ := hif (by simpa using hne)
    simp [h1, h2] at h
  · rename_i h
    refine ⟨_, rfl, fun hb => ?_⟩
    simp [hb] at h

theorem UOp.gbmap_congr (op : UOp) {g x x' f f' : α} (hx : op.usesX = true → x = x') (hf : op.usesF = true → f = f') :
    op.bmap g x f = op.bmap g x' f' := by
  cases op <;> simp_all [UOp.usesX, UOp.usesF, UOp.bmap]

theorem BOp.gbl_congr (op : BOp) {g x x' y y' f f' : α} (hy : op.usesR = true → y = y') :
    op.bl g x y f = op.bl g x' y' f' := by
  cases op <;> simp_all [BOp.usesR, BOp.bl]

theorem BOp.gbr_congr (op : BOp) {g x x' y y' f f' : α} (hx : op.usesL = true → x = x') (hy : op.usesR = true → y = y')
    (hf : op.usesF = true → f = f') : op.br g x y f = op.br g x' y' f' := by
  cases op <;> simp_all [BOp.usesL, BOp.usesR, BOp.usesF, BOp.br]

/-- a child evaluated after the node has stored its seed in its own adjoint cells -/
theorem gbeval_child {e : Expr α} {m : ℕ → α} {s s2 : St α} {p : Option ℕ} {n : ℕ} {f g : ℕ → α}
    (h : GBevalOk e m g { s with adj := fillRange s.adj (addr p) n f } s2)
    (hd1 : Disjoint (rng p n) e.ownA) (hd2 : Disjoint (rng p n) e.readsA) :
    (∀ a, a ∉ e.ownA → a ∉ rng p n → s2.adj a = e.gback m g a (s.adj a)) ∧
    (∀ k < n, s2.adj (addr p + k) = f k) := by
  constructor
  · intro a h1 h2
    rw [h.adj a h1]
    dsimp only
    rw [fillRange_not_mem h2]
  · intro k hk
    have hmem : addr p + k ∈ rng p n := add_mem_rng hk
    rw [h.adj _ (disj_left hd1 hmem), gback_support _ _ _ _ _ (disj_left hd2 hmem)]
    exact fillRange_add hk

/-- the cached value of a node whose own cache is not changed by `beval` -/
theorem post_root {e : Expr α} {m : ℕ → α} {w : View} {s s' : St α} (hw : e.view = w) (hout : e.outRef m = .ptr w.val)
    (hpost : e.post m = e.exact m) (hsub : rng w.val w.size ⊆ e.ownV)
    (hacc : accessible s'.vok w.val w.size) (hroot : ∀ k < w.size, s.val (addr w.val + k) = e.exact m k)
    (hag : ∀ a ∈ rng w.val w.size, s'.val a = s.val a) :
    ∀ s'' : St α, s''.vok = s'.vok → (∀ a ∈ e.ownV ∪ e.reads, s''.val a = s'.val a) →
      (e.outRef m).read s'' e.size = some (trunc e.size (e.post m)) := by
  intro s'' hv hag2
  have hsz : e.size = w.size := by simp [Expr.size, Expr.shape, hw, View.size]
  rw [hout, hpost, hsz]
  refine readCells_eq' (hv ▸ hacc) fun k hk => ?_
  rw [hag2 _ (Or.inl (hsub (add_mem_rng hk))), hag _ (add_mem_rng hk), hroot k hk]

/-! ### The loops -/

/-- the reverse loops whose seeds do not depend on the operands (`SumIterNode`) -/
theorem gbevals_simple {m : ℕ → α} (K : Set ℕ) (sd : ℕ → Option (ℕ → α))
    (pre : ℕ → Ref α → Shape → St α → Option (St α × Option (ℕ → α))) (es : Exprs α) :
    ∀ (i : ℕ) (s : St α), (∀ e ∈ es.toList, GBevalClaim e) → es.WFs → es.WBs s.vok s.aok →
    Disjoint es.ownVs es.readss → Disjoint es.ownAs es.readsAs → es.Storeds m s.val →
    Disjoint K es.ownAs → Disjoint K es.readsAs →
    (∀ j s' r sh, s'.vok = s.vok → s'.aok = s.aok → (∀ a ∈ K, s'.adj a = s.adj a) →
      pre j r sh s' = some (s', sd j)) →
    ∃ s', es.bevals pre (fun _ _ _ _ s => some s) i s = some s' ∧ s'.vok = s.vok ∧
      s'.aok = s.aok ∧ (∀ a, a ∉ es.ownVs → s'.val a = s.val a) ∧ ∀ a, a ∉ es.ownAs → s'.adj a = es.gbacks m sd i a (s.adj a) := by
  induction es using Exprs.rec (motive_1 := fun _ => True) with
  | nil =>
    intro i s _ _ _ _ _ _ _ _ _
    exact ⟨s, rfl, rfl, rfl, fun _ _ => rfl, fun a _ => rfl⟩
  | cons e es _ ih =>
    intro i s hcl hwf hwb hdv hda hc hK1 hK2 hpre
    have hown : (Exprs.cons e es).ownVs = e.ownV ∪ es.ownVs := rfl
    have hrds : (Exprs.cons e es).readss = e.reads ∪ es.readss := rfl
    have hownA : (Exprs.cons e es).ownAs = e.ownA ∪ es.ownAs := rfl
    have hrdsA : (Exprs.cons e es).readsAs = e.readsA ∪ es.readsAs := rfl
    rw [hown, hrds] at hdv
    rw [hownA, hrdsA] at hda
    rw [hownA] at hK1
    rw [hown, hownA]
    rw [hrdsA] at hK2
    obtain ⟨s1, hrun, hvok, haok, hfr, hadj⟩ := ih (i + 1) s (fun x hx => hcl x (by simp [Exprs.toList, hx])) hwf.2 hwb.2.1
      (hdv.mono Set.subset_union_right Set.subset_union_right)
      (hda.mono Set.subset_union_right Set.subset_union_right) hc.2
      (hK1.mono_right Set.subset_union_right) (hK2.mono_right Set.subset_union_right) hpre
    have hpre1 := hpre i s1 e.getRef e.shape hvok haok fun a ha => by
      rw [hadj a fun h => disj_left hK1 ha (Or.inr h), gbacks_support _ _ _ _ _ _ fun h => disj_left hK2 ha (Or.inr h)]
    cases hsd : sd i with
    | none =>
      refine ⟨s1, ?_, hvok, haok, fun a ha => hfr a fun h => ha (Or.inr h), fun a ha => ?_⟩
      · simp only [Exprs.bevals, hrun, Option.bind_eq_bind, Option.bind_some, hpre1, hsd]
      · rw [hadj a fun h => ha (Or.inr h)]
        simp [Exprs.gbacks, hsd]
    | some g =>
      obtain ⟨s2, h2⟩ := hcl e (by simp [Exprs.toList]) m s1 g hwf.1 (by rw [hvok, haok]; exact hwb.1)
        (hdv.mono Set.subset_union_left Set.subset_union_left)
        (hda.mono Set.subset_union_left Set.subset_union_left)
        (Expr.Stored.congr e hc.1 fun a ha => hfr a fun h => by
          rcases ha with ha | ha
          · exact disj_left hwb.2.2.1 ha h
          · exact disj_left hdv (Or.inr h) (Or.inl ha))
      refine ⟨s2, ?_, h2.vok.trans hvok, h2.aok.trans haok, fun a ha => ?_, fun a ha => ?_⟩
      · simp only [Exprs.bevals, hrun, Option.bind_eq_bind, Option.bind_some, hpre1, hsd, h2.run]
      · rw [h2.frame a fun h => ha (Or.inl h), hfr a fun h => ha (Or.inr h)]
      · rw [h2.adj a fun h => ha (Or.inl h), hadj a fun h => ha (Or.inr h)]
        simp only [Exprs.gbacks, hsd]
  | _ => trivial

theorem exacts_length (m : ℕ → α) (es : Exprs α) : (es.exacts m).length = es.length := by
  induction es using Exprs.rec (motive_1 := fun _ => True) with
  | nil => rfl
  | cons e es _ ih => simp only [Exprs.exacts, List.length_cons, ih, Exprs.length]
  | _ => trivial

theorem readAll_congr {s s' : St α} : ∀ (l : List (Ref α × Shape)),
    (∀ (j : ℕ) (r : Ref α) (sh : Shape), l[j]? = some (r, sh) → r.read s' sh.size = r.read s sh.size) →
    readAll s' l = readAll s l := by
  intro l
  induction l with
  | nil => intro _; rfl
  | cons x l ihl =>
    obtain ⟨r1, sh1⟩ := x
    intro h
    simp only [readAll]
    rw [h 0 r1 sh1 rfl, ihl fun j r sh hj => h (j + 1) r sh (by simpa using hj)]

theorem readAll_set {s s' : St α} : ∀ (all : List (Ref α × Shape)) (V : Vals α) (i : ℕ) (r : Ref α) (sh : Shape) (y : ℕ → α),
    readAll s all = some V → all[i]? = some (r, sh) → r.read s' sh.size = some y →
    (∀ j, j ≠ i → ∀ r sh, all[j]? = some (r, sh) → r.read s' sh.size = r.read s sh.size) →
    readAll s' all = some (V.set i (sh, y)) := by
  intro all
  induction all with
  | nil => intro V i r sh y _ h; simp at h
  | cons x all ih =>
    obtain ⟨r0, sh0⟩ := x
    intro V i r sh y hV hi hy hst
    simp only [readAll, Option.bind_eq_bind] at hV ⊢
    obtain ⟨x0, hx0, hV⟩ := Option.bind_eq_some_iff.1 hV
    obtain ⟨xs, hxs, hV⟩ := Option.bind_eq_some_iff.1 hV
    obtain rfl : (sh0, x0) :: xs = V := by simpa using hV
    cases i with
    | zero =>
      obtain ⟨rfl, rfl⟩ : r0 = r ∧ sh0 = sh := by simpa using hi
      have hrest : readAll s' all = some xs := by
        rw [← hxs]
        exact readAll_congr all fun j r sh hj => hst (j + 1) (by omega) r sh (by simpa using hj)
      rw [hy, hrest]
      rfl
    | succ i =>
      have h0 := hst 0 (by omega) r0 sh0 rfl
      rw [h0, hx0]
      simp only [Option.bind_some]
      rw [ih xs i r sh y hxs (by simpa using hi) hy fun j hj r sh h => hst (j + 1) (by omega) r sh (by simpa using h)]
      rfl

/-- the other operands are not affected by writes into the caches of operand `i` -/
def Stable (all : List (Ref α × Shape)) (i : ℕ) (e : Expr α) : Prop :=
  ∀ j, j ≠ i → ∀ r sh, all[j]? = some (r, sh) → ∀ s s' : St α, s'.vok = s.vok → (∀ a, a ∉ e.ownV → s'.val a = s.val a) →
    r.read s' sh.size = r.read s sh.size

theorem own_subset {e : Expr α} (es : Exprs α) (h : e ∈ es.toList) : e.ownV ⊆ es.ownVs ∧ e.reads ⊆ es.readss := by
  induction es using Exprs.rec (motive_1 := fun _ => True) with
  | nil => simp [Exprs.toList] at h
  | cons e' es _ ih =>
    simp only [Exprs.toList, List.mem_cons] at h
    rcases h with rfl | h
    · exact ⟨fun a ha => Or.inl ha, fun a ha => Or.inl ha⟩
    · exact ⟨fun a ha => Or.inr ((ih h).1 ha), fun a ha => Or.inr ((ih h).2 ha)⟩
  | _ => trivial

theorem wbs_nth {vok aok : ℕ → Bool} (es : Exprs α) (hwb : es.WBs vok aok) : ∀ (i : ℕ) (e : Expr α), es.toList[i]? = some e →
    e.WB vok aok ∧ ∀ (j : ℕ) (e' : Expr α), j ≠ i → es.toList[j]? = some e' → Disjoint e.ownV e'.ownV := by
  induction es using Exprs.rec (motive_1 := fun _ => True) with
  | nil => intro i e h; simp [Exprs.toList] at h
  | cons e0 es _ ih =>
    intro i e h
    cases i with
    | zero =>
      obtain rfl : e0 = e := by simpa [Exprs.toList] using h
      refine ⟨hwb.1, fun j e' hj h' => ?_⟩
      cases j with
      | zero => exact absurd rfl hj
      | succ j =>
        simp only [Exprs.toList, List.getElem?_cons_succ] at h'
        exact hwb.2.2.1.mono_right (own_subset es (List.mem_of_getElem? h')).1
    | succ i =>
      simp only [Exprs.toList, List.getElem?_cons_succ] at h
      obtain ⟨h1, h2⟩ := ih hwb.2.1 i e h
      refine ⟨h1, fun j e' hj h' => ?_⟩
      cases j with
      | zero =>
        obtain rfl : e0 = e' := by simpa [Exprs.toList] using h'
        exact (hwb.2.2.1.mono_right (own_subset es (List.mem_of_getElem? h)).1).symm
      | succ j =>
        simp only [Exprs.toList, List.getElem?_cons_succ] at h'
        exact h2 j e' (by omega) h'
  | _ => trivial

theorem getRefs_nth (es : Exprs α) : ∀ i : ℕ, es.getRefs[i]? = es.toList[i]?.map fun e => (e.getRef, e.shape) := by
  induction es using Exprs.rec (motive_1 := fun _ => True) with
  | nil => intro i; simp [Exprs.getRefs, Exprs.toList]
  | cons e es _ ih =>
    intro i
    cases i with
    | zero => simp [Exprs.getRefs, Exprs.toList]
    | succ i => simp [Exprs.getRefs, Exprs.toList, ih]
  | _ => trivial

theorem stable_of {vok aok : ℕ → Bool} {es : Exprs α} (hwf : es.WFs) (hwb : es.WBs vok aok) (hd : Disjoint es.ownVs es.readss)
    (hif : ∀ e ∈ es.toList, e.isIf = false) {i : ℕ} {e : Expr α} (hi : es.toList[i]? = some e) : Stable es.getRefs i e := by
  intro j hj r sh hjr s s' hv hag
  rw [getRefs_nth] at hjr
  obtain ⟨e', he', h⟩ := Option.map_eq_some_iff.1 hjr
  obtain ⟨rfl, rfl⟩ : e'.getRef = r ∧ e'.shape = sh := by simpa using h
  obtain ⟨h1, -⟩ := wbs_nth es hwb j e' he'
  refine getRef_stable (hwf.mem e' (List.mem_of_getElem? he')) (hif e' (List.mem_of_getElem? he')) hv fun a ha => hag a fun hmem => ?_
  rcases ha with ha | ha
  · exact disj_left ((wbs_nth es hwb i e hi).2 j e' hj he') hmem ha
  · exact disj_left hd ((own_subset es (List.mem_of_getElem? hi)).1 hmem) ((own_subset es (List.mem_of_getElem? he')).2 ha)

theorem greadAll_getRefs {m : ℕ → α} {s : St α} (es : Exprs α) (hwb : es.WBs s.vok s.aok) (hc : es.Storeds m s.val)
    (hif : ∀ e ∈ es.toList, e.isIf = false) :
    readAll s es.getRefs = some (truncs (es.exacts m)) := by
  induction es using Exprs.rec (motive_1 := fun _ => True) with
  | nil => rfl
  | cons e es _ ih =>
    have h1 := ggetRef_read hwb.1 hc.1 (hif e (by simp [Exprs.toList]))
    have h2 := ih hwb.2.1 hc.2 fun x hx => hif x (by simp [Exprs.toList, hx])
    simp only [Exprs.getRefs, readAll]
    rw [show e.shape.size = e.size from rfl, h1, h2]
    rfl
  | _ => trivial

theorem readOperands_all {op : RedOp} {s : St α} (hu : op.usesX = true) (l : List (Ref α × Shape)) : readOperands op s l = readAll s l := by
  induction l with
  | nil => rfl
  | cons x l ih => obtain ⟨r, sh⟩ := x; simp only [readOperands, readAll, readIf, hu, if_true, ih]

/-- the reverse loops whose seeds depend on the operands (the log-densities) -/
theorem gbevals_loop {m : ℕ → α} (Kv : Set ℕ) (sd : Vals α → ℕ → Option (ℕ → α)) (all : List (Ref α × Shape)) (D P : Vals α)
    (pre : ℕ → Ref α → Shape → St α → Option (St α × Option (ℕ → α))) (es : Exprs α) :
    ∀ (i : ℕ) (s : St α), (∀ e ∈ es.toList, GBevalClaim e) → es.WFs → es.WBs s.vok s.aok →
    Disjoint es.ownVs es.readss → Disjoint es.ownAs es.readsAs → es.Storeds m s.val →
    (∀ e ∈ es.toList, e.isIf = false) →
    i + es.length = D.length → P.drop i = truncs (es.posts m) →
    (∀ k e, es.toList[k]? = some e → Stable all (i + k) e ∧ all[i + k]? = some (e.getRef, e.shape)) →
    readAll s all = some D → Disjoint Kv es.ownVs →
    (∀ j r sh s' V, s'.vok = s.vok → s'.aok = s.aok → (∀ a ∈ Kv, s'.val a = s.val a) → readAll s' all = some V →
      pre j r sh s' = some (s', sd V j)) →
    ∃ s', es.bevals pre (fun _ _ _ _ s => some s) i s = some s' ∧ s'.vok = s.vok ∧
      s'.aok = s.aok ∧ (∀ a, a ∉ es.ownVs → s'.val a = s.val a) ∧ readAll s' all = some (loopVals sd D P es.length) ∧
      ∀ a, a ∉ es.ownAs → s'.adj a = es.gbacks m (loopSeed sd D P) i a (s.adj a) := by
  induction es using Exprs.rec (motive_1 := fun _ => True) with
  | nil =>
    intro i s _ _ _ _ _ _ _ _ _ _ hD _ _
    exact ⟨s, rfl, rfl, rfl, fun _ _ => rfl, hD, fun a _ => rfl⟩
  | cons e es _ ih =>
    intro i s hcl hwf hwb hdv hda hc hif hlen hdrop hall hD hK hpre
    have hown : (Exprs.cons e es).ownVs = e.ownV ∪ es.ownVs := rfl
    have hrds : (Exprs.cons e es).readss = e.reads ∪ es.readss := rfl
    have hownA : (Exprs.cons e es).ownAs = e.ownA ∪ es.ownAs := rfl
    have hrdsA : (Exprs.cons e es).readsAs = e.readsA ∪ es.readsAs := rfl
    have hl : (Exprs.cons e es).length = es.length + 1 := rfl
    rw [hown, hrds] at hdv
    rw [hownA, hrdsA] at hda
    rw [hown] at hK
    rw [hown, hownA, hl]
    rw [hl] at hlen
    have hdrop' : P.drop (i + 1) = truncs (es.posts m) := by
      rw [← List.drop_drop, hdrop]; rfl
    have hPi : P[i]? = some (e.shape, trunc e.shape.size (e.post m)) := by
      have := congrArg (fun l => l[0]?) hdrop
      simpa [Exprs.posts, truncs] using this
    obtain ⟨s1, hrun, hvok, haok, hfr, hV, hadj⟩ := ih (i + 1) s (fun x hx => hcl x (by simp [Exprs.toList, hx])) hwf.2 hwb.2.1
      (hdv.mono Set.subset_union_right Set.subset_union_right)
      (hda.mono Set.subset_union_right Set.subset_union_right) hc.2
      (fun x hx => hif x (by simp [Exprs.toList, hx])) (by omega) hdrop'
      (fun k x hx => by
        have := hall (k + 1) x (by simpa [Exprs.toList] using hx)
        rw [show i + (k + 1) = i + 1 + k by omega] at this
        exact this)
      hD (hK.mono_right Set.subset_union_right) hpre
    have hpre1 := hpre i e.getRef e.shape s1 _ hvok haok (fun a ha => hfr a fun h => disj_left hK ha (Or.inr h)) hV
    obtain ⟨hst, halli⟩ := hall 0 e rfl
    rw [Nat.add_zero] at hst halli
    have hidx : D.length - (es.length + 1) = i := by omega
    have hsd : loopSeed sd D P i = sd (loopVals sd D P es.length) i := by
      simp only [loopSeed]
      rw [show D.length - (i + 1) = es.length by omega]
    have hVn : loopVals sd D P (es.length + 1) = if (loopSeed sd D P i).isSome then
        (loopVals sd D P es.length).set i (e.shape, trunc e.shape.size (e.post m)) else loopVals sd D P es.length := by
      simp only [loopVals, hidx, hsd, hPi, Option.getD_some]
    rw [← hsd] at hpre1
    cases hsdi : loopSeed sd D P i with
    | none =>
      rw [hsdi] at hpre1
      refine ⟨s1, ?_, hvok, haok, fun a ha => hfr a fun h => ha (Or.inr h), ?_, fun a ha => ?_⟩
      · simp only [Exprs.bevals, hrun, Option.bind_eq_bind, Option.bind_some, hpre1]
      · rw [hV, hVn, hsdi]; rfl
      · rw [hadj a fun h => ha (Or.inr h)]
        simp [Exprs.gbacks, hsdi]
    | some g =>
      rw [hsdi] at hpre1
      obtain ⟨s2, h2⟩ := hcl e (by simp [Exprs.toList]) m s1 g hwf.1 (by rw [hvok, haok]; exact hwb.1)
        (hdv.mono Set.subset_union_left Set.subset_union_left)
        (hda.mono Set.subset_union_left Set.subset_union_left)
        (Expr.Stored.congr e hc.1 fun a ha => hfr a fun h => by
          rcases ha with ha | ha
          · exact disj_left hwb.2.2.1 ha h
          · exact disj_left hdv (Or.inr h) (Or.inl ha))
      have hrd := h2.post s2 rfl fun _ _ => rfl
      rw [outRef_eq (hif e (by simp [Exprs.toList]))] at hrd
      refine ⟨s2, ?_, h2.vok.trans hvok, h2.aok.trans haok, fun a ha => ?_, ?_, fun a ha => ?_⟩
      · simp only [Exprs.bevals, hrun, Option.bind_eq_bind, Option.bind_some, hpre1, h2.run]
      · rw [h2.frame a fun h => ha (Or.inl h), hfr a fun h => ha (Or.inr h)]
      · rw [hVn, hsdi]
        exact readAll_set all _ i e.getRef e.shape _ hV halli hrd fun j hj r sh hjr => hst j hj r sh hjr s1 s2 h2.vok h2.frame
      · rw [h2.adj a fun h => ha (Or.inl h), hadj a fun h => ha (Or.inr h)]
        simp only [Exprs.gbacks, hsdi]
  | _ => trivial

theorem nth_of {l : Vals α} {i : ℕ} {sh : Shape} {x : ℕ → α} (h : l[i]? = some (sh, x)) : l.nth i = x := by
  simp [Vals.nth, h]

/-- the reverse loop of `ProdIterNode::beval` -/
theorem gbevals_prod {m : ℕ → α} (w : View) (seed f : ℕ → α) (all : List (Ref α × Shape)) (D P : Vals α) (es : Exprs α) :
    ∀ (i : ℕ) (s : St α), (∀ e ∈ es.toList, GBevalClaim e) → es.WFs → es.WBs s.vok s.aok →
    Disjoint es.ownVs es.readss → Disjoint es.ownAs es.readsAs → es.Storeds m s.val →
    (∀ e ∈ es.toList, e.shape = w.shape ∧ e.isIf = false) →
    i + es.length = D.length → D.drop i = truncs (es.exacts m) → P.drop i = truncs (es.posts m) →
    (∀ k e, es.toList[k]? = some e → Stable all (i + k) e ∧ all[i + k]? = some (e.getRef, e.shape)) →
    (∀ s s' : St α, s'.vok = s.vok → (∀ a, a ∉ rng w.val w.size → s'.val a = s.val a) → readAll s' all = readAll s all) →
    readAll s all = some D →
    Disjoint (rng w.val w.size) es.ownVs → Disjoint (rng w.val w.size) es.readss →
    Disjoint (rng w.adj w.size) es.ownAs → Disjoint (rng w.adj w.size) es.readsAs →
    accessible s.vok w.val w.size → accessible s.aok w.adj w.size →
    (∀ k < w.size, s.val (addr w.val + k) = f k) →
    (∀ k < w.size, s.adj (addr w.adj + k) = seed k) →
    ∃ s', es.bevals (prodIterPre all w) (fun s0 _ r sh s => prodIterPost w (prodIterZero w r sh s0) r sh s) i s = some s' ∧
      s'.vok = s.vok ∧ s'.aok = s.aok ∧
      (∀ a, a ∉ es.ownVs → a ∉ rng w.val w.size → s'.val a = s.val a) ∧ readAll s' all = some (loopVals always D P es.length) ∧
      (∀ k < w.size, s'.val (addr w.val + k) = prodCache w.size D P f es.length k) ∧
      ∀ a, a ∉ es.ownAs → s'.adj a = es.gbacks m (fun i => some (prodSeed w.size D P f seed i)) i a (s.adj a) := by
  induction es using Exprs.rec (motive_1 := fun _ => True) with
  | nil =>
    intro i s _ _ _ _ _ _ _ _ _ _ _ _ hD _ _ _ _ _ _ hroot _
    exact ⟨s, rfl, rfl, rfl, fun _ _ _ => rfl, hD, hroot, fun a _ => rfl⟩
  | cons e es _ ih =>
    intro i s hcl hwf hwb hdv hda hc hsh hlen hdropD hdropP hall hind hD hv1 hv2 ha1 ha2 haccv hacca hroot hseed
    have hown : (Exprs.cons e es).ownVs = e.ownV ∪ es.ownVs := rfl
    have hrds : (Exprs.cons e es).readss = e.reads ∪ es.readss := rfl
    have hownA : (Exprs.cons e es).ownAs = e.ownA ∪ es.ownAs := rfl
    have hrdsA : (Exprs.cons e es).readsAs = e.readsA ∪ es.readsAs := rfl
    have hl : (Exprs.cons e es).length = es.length + 1 := rfl
    rw [hown, hrds] at hdv
    rw [hownA, hrdsA] at hda
    rw [hown] at hv1 ⊢
    rw [hrds] at hv2
    rw [hownA] at ha1 ⊢
    rw [hrdsA] at ha2
    rw [hl] at hlen ⊢
    have hdropD' : D.drop (i + 1) = truncs (es.exacts m) := by
      rw [← List.drop_drop, hdropD]; rfl
    have hdropP' : P.drop (i + 1) = truncs (es.posts m) := by
      rw [← List.drop_drop, hdropP]; rfl
    have hDi : D[i]? = some (e.shape, trunc e.shape.size (e.exact m)) := by
      have := congrArg (fun l => l[0]?) hdropD
      simpa [Exprs.exacts, truncs] using this
    have hPi : P[i]? = some (e.shape, trunc e.shape.size (e.post m)) := by
      have := congrArg (fun l => l[0]?) hdropP
      simpa [Exprs.posts, truncs] using this
    obtain ⟨s1, hrun, hvok, haok, hfr, hV, hcache, hadj⟩ := ih (i + 1) s (fun x hx => hcl x (by simp [Exprs.toList, hx])) hwf.2 hwb.2.1
      (hdv.mono Set.subset_union_right Set.subset_union_right)
      (hda.mono Set.subset_union_right Set.subset_union_right) hc.2
      (fun x hx => hsh x (by simp [Exprs.toList, hx])) (by omega) hdropD' hdropP'
      (fun k x hx => by
        have := hall (k + 1) x (by simpa [Exprs.toList] using hx)
        rw [show i + (k + 1) = i + 1 + k by omega] at this
        exact this)
      hind hD
      (hv1.mono_right Set.subset_union_right) (hv2.mono_right Set.subset_union_right)
      (ha1.mono_right Set.subset_union_right) (ha2.mono_right Set.subset_union_right) haccv hacca hroot hseed
    obtain ⟨hst, halli⟩ := hall 0 e rfl
    rw [Nat.add_zero] at hst halli
    have hidx : D.length - (es.length + 1) = i := by omega
    have hidx' : D.length - (i + 1) = es.length := by omega
    obtain ⟨hse, hif⟩ := hsh e (by simp [Exprs.toList])
    have hsz : e.size = w.size := by simp [Expr.size, View.size, hse]
    have hsz' : e.shape.size = w.size := hsz
    rw [hsz'] at hDi hPi
    have hDn := nth_of hDi
    have hPn := nth_of hPi
    have haccv1 : accessible s1.vok w.val w.size := by rw [hvok]; exact haccv
    have hacca1 : accessible s1.aok w.adj w.size := by rw [haok]; exact hacca
    have hwb1 : e.WB s1.vok s1.aok := by rw [hvok, haok]; exact hwb.1
    have hce1 : e.Stored m s1.val := Expr.Stored.congr e hc.1 fun a ha => hfr a (fun h => by
          rcases ha with ha | ha
          · exact disj_left hwb.2.2.1 ha h
          · exact disj_left hdv (Or.inr h) (Or.inl ha)) fun h => by
          rcases ha with ha | ha
          · exact disj_left hv1 h (Or.inl ha)
          · exact disj_left hv2 h (Or.inl ha)
    have hread : e.getRef.read s1 w.size = some (trunc w.size (e.exact m)) := by
      rw [← hsz]; exact ggetRef_read hwb1 hce1 hif
    have hg : s1.readA w.adj w.size = some (trunc w.size seed) := by
      refine readCells_eq' hacca1 fun k hk => ?_
      have hmem : addr w.adj + k ∈ rng w.adj w.size := add_mem_rng hk
      rw [hadj _ fun h => disj_left ha1 hmem (Or.inr h), gbacks_support _ _ _ _ _ _ fun h => disj_left ha2 hmem (Or.inr h), hseed k hk]
    have hf : readCells s1.val s1.vok w.val w.size = some (trunc w.size (prodCache w.size D P f es.length)) :=
      readCells_eq' haccv1 hcache
    have hVn : loopVals always D P (es.length + 1) = (loopVals always D P es.length).set i (e.shape, trunc w.size (e.post m)) := by
      simp only [loopVals, hidx, hPi, Option.getD_some]
      rfl
    by_cases hz : (List.range w.size).any (fun k => Fn.beq (trunc w.size (e.exact m) k) 0) = true
    · -- some coefficient is zero: recompute the product of the others
      have hzD : hasZero w.size (D.nth i) = true := by rw [hDn]; exact hz
      set oth : ℕ → α := othersOf (loopVals always D P es.length) i with hothdef
      have hps : prodSeed w.size D P f seed i = fun k => seed k * oth k := by
        simp only [prodSeed, hidx', hzD, if_true]; rfl
      have hpc : prodCache w.size D P f (es.length + 1) = fun k => oth k * P.nth i k := by
        simp only [prodCache, hidx, hzD, if_true]; rfl
      set s2 : St α := { s1 with val := fillRange s1.val (addr w.val) w.size oth } with hs2
      have hfr2 : ∀ a, a ∉ rng w.val w.size → s2.val a = s1.val a := by
        intro a ha
        exact fillRange_not_mem (heap := s1.val) (f := oth) ha
      have hc2 : e.Stored m s2.val := Expr.Stored.congr e hce1 fun a ha => hfr2 a fun h => by
          rcases ha with ha | ha
          · exact disj_left hv1 h (Or.inl ha)
          · exact disj_left hv2 h (Or.inl ha)
      have hf2 : readCells s2.val s2.vok w.val w.size = some (trunc w.size oth) :=
        readCells_eq' haccv1 fun k hk => fillRange_add (heap := s1.val) (f := oth) hk
      have hpre : prodIterPre all w i e.getRef e.shape s1 =
          some (s2, some fun k => trunc w.size seed k * trunc w.size oth k) := by
        simp only [prodIterPre, hsz', hread, hg, Option.bind_eq_bind, Option.bind_some]
        rw [if_pos hz, hV]
        simp only [Option.bind_some, writeV_eq haccv1]
        exact congrArg (fun o => Option.bind o fun f => some (s2, some fun k => trunc w.size seed k * f k)) hf2
      obtain ⟨s3, h3⟩ := hcl e (by simp [Exprs.toList]) m s2 (fun k => trunc w.size seed k * trunc w.size oth k) hwf.1
        hwb1 (hdv.mono Set.subset_union_left Set.subset_union_left)
        (hda.mono Set.subset_union_left Set.subset_union_left) hc2
      have hrd3 := h3.post s3 rfl fun _ _ => rfl
      rw [outRef_eq hif, hsz] at hrd3
      have hf3 : readCells s3.val s3.vok w.val w.size = some (trunc w.size oth) := by
        rw [h3.vok, ← hf2]
        exact readCells_congr fun a ha => h3.frame a fun h => disj_left hv1 ha (Or.inl h)
      have haccv3 : accessible s3.vok w.val w.size := by rw [h3.vok]; exact haccv1
      have hpz : prodIterZero w e.getRef e.shape s1 = true := by
        simp only [prodIterZero, hsz', hread]
        exact hz
      let g3 : ℕ → α := fun k => trunc w.size oth k * trunc w.size (e.post m) k
      refine ⟨{ s3 with val := fillRange s3.val (addr w.val) w.size g3 }, ?_, h3.vok.trans hvok, h3.aok.trans haok, ?_, ?_, ?_, ?_⟩
      · simp only [Exprs.bevals, hrun, Option.bind_eq_bind, Option.bind_some, hpre, h3.run, hpz]
        simp only [prodIterPost, if_true, hsz', hrd3, hf3, writeV_eq haccv3, Option.bind_eq_bind, Option.bind_some, g3]
      · intro a h1 h2
        dsimp only
        rw [Set.mem_union, not_or] at h1
        rw [fillRange_not_mem h2, h3.frame a h1.1, hfr2 a h2, hfr a h1.2 h2]
      · have hV2 : readAll s2 all = some (loopVals always D P es.length) := by
          rw [← hV]; exact hind s1 s2 rfl hfr2
        rw [hVn]
        have h4 : readAll s3 all = some ((loopVals always D P es.length).set i (e.shape, trunc w.size (e.post m))) :=
          readAll_set all _ i e.getRef e.shape _ hV2 halli (by rw [hsz']; exact hrd3) fun j hj r sh hjr =>
            hst j hj r sh hjr s2 s3 h3.vok h3.frame
        rw [← h4]
        exact hind s3 _ rfl fun a ha => fillRange_not_mem (heap := s3.val) (f := g3) ha
      · intro k hk
        dsimp only
        rw [fillRange_add hk, hpc, hPn]
        simp only [g3]
        rw [trunc_of_lt hk]
      · intro a ha
        rw [Set.mem_union, not_or] at ha
        show s3.adj a = _
        rw [h3.adj a ha.1]
        show e.gback m _ a (s1.adj a) = _
        rw [hadj a ha.2]
        simp only [Exprs.gbacks]
        rw [hps, gback_congr m e _ (fun k => seed k * oth k) hwf.1 fun k hk => by
          rw [hsz] at hk
          rw [trunc_of_lt hk, trunc_of_lt hk]]
    · -- no zero: divide the product by this operand
      have hzD : hasZero w.size (D.nth i) = false := by rw [hDn]; simpa [hasZero] using hz
      have hps : prodSeed w.size D P f seed i = fun k => seed k * prodCache w.size D P f es.length k / trunc w.size (e.exact m) k := by
        simp only [prodSeed, hidx', hzD]; rw [hDn]; rfl
      have hpc : prodCache w.size D P f (es.length + 1) = prodCache w.size D P f es.length := by
        simp only [prodCache, hidx, hzD]; rfl
      have hpre : prodIterPre all w i e.getRef e.shape s1 = some (s1, some fun k =>
          trunc w.size seed k * trunc w.size (prodCache w.size D P f es.length) k / trunc w.size (e.exact m) k) := by
        simp only [prodIterPre, hsz', hread, hg, Option.bind_eq_bind, Option.bind_some]
        rw [if_neg hz, hf]
        rfl
      obtain ⟨s3, h3⟩ := hcl e (by simp [Exprs.toList]) m s1 (fun k =>
          trunc w.size seed k * trunc w.size (prodCache w.size D P f es.length) k / trunc w.size (e.exact m) k) hwf.1
        hwb1 (hdv.mono Set.subset_union_left Set.subset_union_left)
        (hda.mono Set.subset_union_left Set.subset_union_left) hce1
      have hrd3 := h3.post s3 rfl fun _ _ => rfl
      rw [outRef_eq hif, hsz] at hrd3
      have hpz : prodIterZero w e.getRef e.shape s1 = false := by
        simp only [prodIterZero, hsz', hread]
        simpa using hz
      refine ⟨s3, ?_, h3.vok.trans hvok, h3.aok.trans haok, ?_, ?_, ?_, ?_⟩
      · simp only [Exprs.bevals, hrun, Option.bind_eq_bind, Option.bind_some, hpre, h3.run, hpz]
        rfl
      · intro a h1 h2
        rw [Set.mem_union, not_or] at h1
        rw [h3.frame a h1.1, hfr a h1.2 h2]
      · rw [hVn]
        exact readAll_set all _ i e.getRef e.shape _ hV halli (by rw [hsz']; exact hrd3) fun j hj r sh hjr =>
            hst j hj r sh hjr s1 s3 h3.vok h3.frame
      · intro k hk
        rw [hpc, h3.frame _ fun h => disj_left hv1 (add_mem_rng hk) (Or.inl h), hcache k hk]
      · intro a ha
        rw [Set.mem_union, not_or] at ha
        rw [h3.adj a ha.1, hadj a ha.2]
        simp only [Exprs.gbacks]
        rw [hps, gback_congr m e _ (fun k => seed k * prodCache w.size D P f es.length k / trunc w.size (e.exact m) k) hwf.1 fun k hk => by
          rw [hsz] at hk
          rw [trunc_of_lt hk, trunc_of_lt hk]]
  | _ => trivial

theorem mulOthers_congr {n : ℕ} {x x' : ℕ → α} {c : α} {j : ℕ} (hx : ∀ k < n, x k = x' k) : mulOthers j x c n = mulOthers j x' c n := by
  induction n with
  | zero => rfl
  | succ n ih => simp only [mulOthers]; rw [ih fun k hk => hx k (by omega), hx n (by omega)]

theorem prodElemSeed_congr {n : ℕ} {x x' : ℕ → α} {f f' c : α} {j : ℕ} (hj : j < n) (hx : ∀ k < n, x k = x' k) (hf : f = f') :
    prodElemSeed n x f c j = prodElemSeed n x' f' c j := by
  simp only [prodElemSeed]
  rw [hx j hj, hf, mulOthers_congr hx]

/-- nodes with one child that only forward a seed after storing it -/
theorem gbeval_one {e n : Expr α} {w : View} {m : ℕ → α} {s s2 : St α} {p : Option ℕ} {N : ℕ} {f g h seed : ℕ → α}
    (wfe : e.WF)
    (h2 : GBevalOk e m g { s with adj := fillRange s.adj (addr p) N f } s2)
    (hd1 : Disjoint (rng p N) e.ownA) (hd2 : Disjoint (rng p N) e.readsA)
    (hw : n.view = w) (hown : n.ownV = e.ownV ∪ rng w.val w.size) (hownA : n.ownA = e.ownA ∪ rng p N)
    (hout : n.outRef m = .ptr w.val) (hpost : n.post m = n.exact m)
    (haccv : accessible s.vok w.val w.size) (hdw : Disjoint (rng w.val w.size) e.ownV)
    (hroot : ∀ k < w.size, s.val (addr w.val + k) = n.exact m k)
    (hrun : n.beval seed s = e.beval g { s with adj := fillRange s.adj (addr p) N f })
    (hg : ∀ k < e.size, g k = h k) (hback : ∀ a x, n.gback m seed a x = e.gback m h a x)
    (hp : n.isProdElem = false → p = w.adj ∧ N = w.size ∧ f = seed) :
    ∃ s', GBevalOk n m seed s s' := by
  obtain ⟨hadj, hkeep⟩ := gbeval_child h2 hd1 hd2
  refine ⟨s2, hrun.trans h2.run, h2.vok, h2.aok, fun a ha => ?_, ?_, fun a ha => ?_, fun hn k hk _ _ => ?_⟩
  · rw [hown, Set.mem_union, not_or] at ha
    exact h2.frame a ha.1
  · refine post_root (s := s) hw hout hpost (by rw [hown]; exact Set.subset_union_right) (by rw [h2.vok]; exact haccv) hroot ?_
    exact fun a ha => h2.frame a (disj_left hdw ha)
  · rw [hownA, Set.mem_union, not_or] at ha
    rw [hadj a ha.1 ha.2, hback, gback_congr m e _ h wfe hg]
  · obtain ⟨rfl, rfl, rfl⟩ := hp hn
    have hsz : n.size = w.size := by simp [Expr.size, Expr.shape, hw, View.size]
    rw [hw]
    exact hkeep k (hsz ▸ hk)

/-- **Backward evaluation** of a well-formed, well-bound pure expression whose caches hold the values of a preceding `feval` succeeds; it writes only into the expression's
own caches and adjoints and the adjoints of its variables, and what it makes of them is a function of the values of the variables and of the seed only. -/
theorem gbeval_ok (e : Expr α) : GBevalClaim e := by
  induction e using Expr.induct with
  | var v =>
    intro m s seed hwf hwb hdv hda hc
    have hacc : accessible s.aok v.adj v.size := hwb.2
    let g : ℕ → α := fun k => trunc v.size (fun k => s.adj (addr v.adj + k)) k + seed k
    refine ⟨{ s with adj := fillRange s.adj (addr v.adj) v.size g }, ?_, rfl, rfl, fun _ _ => rfl, ?_, ?_, fun _ _ _ h => h.elim⟩
    · simp only [Expr.beval, View.bevalVar, St.readA, readCells_eq hacc, Option.bind_eq_bind, Option.bind_some]
      exact writeA_eq hacc
    · intro s'' hv hag
      exact readCells_eq' (hv ▸ hwb.1) fun k hk =>
        (hag _ (Or.inr (add_mem_rng hk))).trans (hc _ (add_mem_rng hk))
    · intro a _
      simp only [Expr.gback, fillRange, g]
      split
      · rename_i h
        rw [trunc_of_lt (by omega), show addr v.adj + (a - addr v.adj) = a by omega]
      · rfl
  | const sh c =>
    intro m s seed _ _ _ _ _
    exact ⟨s, rfl, rfl, rfl, fun _ _ => rfl, fun _ _ _ => rfl, fun a _ => rfl, fun _ _ _ h => h.elim⟩
  | cview sh p =>
    intro m s seed _ hwb _ _ hc
    refine ⟨s, rfl, rfl, rfl, fun _ _ => rfl, fun s'' hv hag => ?_, fun a _ => rfl, fun _ _ _ h => h.elim⟩
    exact readCells_eq' (hv ▸ hwb) fun k hk =>
      (hag _ (Or.inr (add_mem_rng hk))).trans (hc _ (add_mem_rng hk))
  | unary op e w ih =>
    intro m s seed hwf hwb hdv hda hc
    obtain ⟨wfe, hsh, hif⟩ := hwf
    obtain ⟨wbe, haccv, hacca, hdw, hdwa⟩ := hwb
    obtain ⟨hce, hroot⟩ := hc
    have hsz : e.size = w.size := by simp [Expr.size, View.size, hsh]
    have hown : (Expr.unary op e w).ownV = e.ownV ∪ rng w.val w.size := rfl
    have hownA : (Expr.unary op e w).ownA = e.ownA ∪ rng w.adj w.size := rfl
    have hrd : (Expr.unary op e w).reads = e.reads := rfl
    have hrdA : (Expr.unary op e w).readsA = e.readsA := rfl
    rw [hown, hrd, Set.disjoint_union_left] at hdv
    rw [hownA, hrdA, Set.disjoint_union_left] at hda
    obtain ⟨x, hx, hx'⟩ := greadBack_ok (b := op.usesX) (ggetRef_read wbe hce) hif
    obtain ⟨f, hf, hf'⟩ := readIf_cells (b := op.usesF) (c := w.shape.isScl) haccv hroot
    obtain ⟨s2, h2⟩ := ih m { s with adj := fillRange s.adj (addr w.adj) w.size seed }
      (fun k => op.bmap (trunc w.size seed k) (x k) (f k)) wfe wbe hdv.1 hda.1 hce
    refine gbeval_one (h := fun k => op.bmap (seed k) (e.exact m k) ((Expr.unary op e w).exact m k)) wfe h2 hdwa hda.2 rfl hown hownA rfl rfl haccv hdw
      hroot ?_ ?_ (fun _ _ => rfl) fun _ => ⟨rfl, rfl, rfl⟩
    · simp only [Expr.beval, hx, hf, writeA_eq hacca, Option.bind_eq_bind, Option.bind_some]
      rw [readA_fill hacca]
      rfl
    · intro k hk
      rw [hsz] at hk
      rw [trunc_of_lt hk]
      refine UOp.gbmap_congr op (fun h => ?_) fun h => ?_
      · rw [hx' h, trunc_of_lt (by omega)]
      · rw [hf' h, trunc_of_lt hk]
  | binary op l r w ihl ihr =>
    intro m s seed hwf hwb hdv hda hc
    obtain ⟨wfl, wfr, hok, hdims, hif⟩ := hwf
    obtain ⟨wbl, wbr, hlrV, hlrA, haccv, hdw, hadjw⟩ := hwb
    obtain ⟨hcl, hcr, hroot⟩ := hc
    have hownA : (Expr.binary op l r w).ownA =
      (l.ownA ∪ r.ownA) ∪ (if op.isComparison then ∅ else rng w.adj w.size) := rfl
    have hown : (Expr.binary op l r w).ownV = (l.ownV ∪ r.ownV) ∪ rng w.val w.size := rfl
    by_cases hcmp : op.isComparison = true
    · refine ⟨s, by simp [Expr.beval, hcmp], rfl, rfl, fun _ _ => rfl, ?_, fun a _ => by simp [Expr.gback, hcmp], fun _ _ _ _ h => h⟩
      exact post_root (s := s) rfl rfl rfl (by rw [hown]; exact Set.subset_union_right) haccv hroot fun _ _ => rfl
    have hcmp : op.isComparison = false := by simpa using hcmp
    obtain ⟨hacca, hdwa⟩ := hadjw hcmp
    obtain ⟨hifl, hifr⟩ := hif hcmp
    have hrd : (Expr.binary op l r w).reads = l.reads ∪ r.reads := rfl
    have hrdA : (Expr.binary op l r w).readsA = l.readsA ∪ r.readsA := rfl
    rw [hcmp] at hownA
    rw [if_neg (by simp)] at hownA
    rw [hown, hrd, Set.disjoint_union_left] at hdv
    rw [hownA, hrdA, Set.disjoint_union_left] at hda
    have hdvl := hdv.1.mono (Set.subset_union_left (s := l.ownV) (t := r.ownV)) (Set.subset_union_left (s := l.reads) (t := r.reads))
    have hdvr := hdv.1.mono (Set.subset_union_right (s := l.ownV) (t := r.ownV)) (Set.subset_union_right (s := l.reads) (t := r.reads))
    have hdal := hda.1.mono (Set.subset_union_left (s := l.ownA) (t := r.ownA)) (Set.subset_union_left (s := l.readsA) (t := r.readsA))
    have hdar := hda.1.mono (Set.subset_union_right (s := l.ownA) (t := r.ownA)) (Set.subset_union_right (s := l.readsA) (t := r.readsA))
    rw [Set.disjoint_union_right] at hdwa hdw
    have hda2 := hda.2
    rw [Set.disjoint_union_right] at hda2
    set s1 : St α := { s with adj := fillRange s.adj (addr w.adj) w.size seed } with hs1
    obtain ⟨x, hx, hx'⟩ := greadBack_ok (b := op.usesL) (ggetRef_read wbl hcl) hifl
    obtain ⟨y, hy, hy'⟩ := greadBack_ok (b := op.usesR) (ggetRef_read wbr hcr) hifr
    obtain ⟨f, hf, hf'⟩ := readIf_cells (b := op.usesF) (c := w.shape.isScl) haccv hroot
    have hbx : ∀ k < w.size, op.usesL = true → bcast l.shape x k = bcast l.shape (l.exact m) k := by
      intro k hk hu
      rw [hx' hu]
      exact bcast_trunc wfl.shapeOk hdims.1 _ hk
    have hby : ∀ k < w.size, op.usesR = true → bcast r.shape y k = bcast r.shape (r.exact m) k := by
      intro k hk hu
      rw [hy' hu]
      exact bcast_trunc wfr.shapeOk hdims.2.1 _ hk
    have hbf : ∀ k < w.size, op.usesF = true → f k = (Expr.binary op l r w).exact m k := by
      intro k hk hu
      rw [hf' hu, trunc_of_lt hk]
    obtain ⟨s2, h2⟩ := ihr m s1 (collapse r.shape w.shape w.size
      (fun k => op.br (trunc w.size seed k) (bcast l.shape x k) (bcast r.shape y k) (f k))) wfr wbr hdvr hdar hcr
    obtain ⟨hadj2, hkeep2⟩ := gbeval_child h2 hdwa.2 hda2.2
    have hwbl2 : l.WB s2.vok s2.aok := by rw [h2.vok, h2.aok]; exact wbl
    have hcl2 : l.Stored m s2.val := Expr.Stored.congr l hcl fun a ha => h2.frame a fun h => by
      rcases ha with ha | ha
      · exact disj_left hlrV ha h
      · exact disj_left hdv.1 (Or.inr h) (Or.inl ha)
    have hroot2 : ∀ k < w.size, s2.val (addr w.val + k) = (Expr.binary op l r w).exact m k := fun k hk => by
      rw [h2.frame _ (disj_left hdw.2 (add_mem_rng hk))]
      exact hroot k hk
    obtain ⟨x2, hx2, hx2'⟩ := greadBack_ok (b := op.usesL) (ggetRef_read hwbl2 hcl2) hifl
    obtain ⟨y2, hy2, hy2'⟩ := greadBack_ok (e := r) (s := s2) (f := r.post m) (b := op.usesR)
      (fun hi => by rw [← outRef_eq hi m]; exact h2.post s2 rfl fun _ _ => rfl) hifr
    obtain ⟨f2, hf2, hf2'⟩ := readIf_cells (s := s2) (b := op.usesF) (c := w.shape.isScl) (by rw [h2.vok]; exact haccv) hroot2
    have hg2 : s2.readA w.adj w.size = some (trunc w.size seed) :=
      readCells_eq' (by rw [h2.aok]; exact hacca) hkeep2
    have hsr : r.gback m (collapse r.shape w.shape w.size
        (fun k => op.br (trunc w.size seed k) (bcast l.shape x k) (bcast r.shape y k) (f k))) =
        r.gback m (collapse r.shape w.shape w.size (fun k =>
          op.br (seed k) (bcast l.shape (l.exact m) k) (bcast r.shape (r.exact m) k)
            ((Expr.binary op l r w).exact m k))) := by
      refine gback_congr m r _ _ wfr (collapse_same (fun k hk => ?_) (operand_size wfr.shapeOk hok hdims.2.1))
      rw [trunc_of_lt hk]
      exact BOp.gbr_congr op (hbx k hk) (hby k hk) (hbf k hk)
    -- both ways of seeding the left operand
    have key : ∃ g s3, GBevalOk l m g s2 s3 ∧ (Expr.binary op l r w).beval seed s = some s3 ∧
        l.gback m g = l.gback m (collapse l.shape w.shape w.size (fun k =>
          op.bl (seed k) (bcast l.shape (l.exact m) k) (bcast r.shape (if l.shape.isScl then r.exact m else r.post m) k)
            ((Expr.binary op l r w).exact m k))) := by
      by_cases hscl : l.shape.isScl = true
      · obtain ⟨s3, h3⟩ := ihl m s2 (collapse l.shape w.shape w.size
          (fun k => op.bl (trunc w.size seed k) (bcast l.shape x k) (bcast r.shape y k) (f k))) wfl hwbl2 hdvl hdal hcl2
        refine ⟨_, s3, h3, ?_, ?_⟩
        · simp only [Expr.beval, hcmp, hx, hy, hf, writeA_eq hacca, Option.bind_eq_bind, Option.bind_some]
          rw [readA_fill hacca]
          simp only [Option.bind_some]
          rw [← hs1, h2.run]
          simp only [Option.bind_some, hscl, if_true]
          exact h3.run
        · refine gback_congr m l _ _ wfl (collapse_same (fun k hk => ?_) (operand_size wfl.shapeOk hok hdims.1))
          rw [trunc_of_lt hk, if_pos hscl]
          exact BOp.gbl_congr op (hby k hk)
      · obtain ⟨s3, h3⟩ := ihl m s2
          (fun k => op.bl (trunc w.size seed k) (bcast l.shape x2 k) (bcast r.shape y2 k) (f2 k)) wfl hwbl2 hdvl hdal hcl2
        have hscl : l.shape.isScl = false := by simpa using hscl
        refine ⟨_, s3, h3, ?_, ?_⟩
        · simp only [Expr.beval, hcmp, hx, hy, hf, writeA_eq hacca, Option.bind_eq_bind, Option.bind_some]
          rw [readA_fill hacca]
          simp only [Option.bind_some]
          rw [← hs1, h2.run]
          simp only [Option.bind_some, hscl]
          rw [if_neg (by simp), if_neg (by simp), hx2, hy2, hf2, hg2]
          exact h3.run
        · refine gback_congr m l _ _ wfl fun k hk => ?_
          have hk : k < w.size := by
            rcases operand_size wfl.shapeOk hok hdims.1 with h | h
            · simp [hscl] at h
            · exact lt_of_lt_of_le hk h
          simp only [collapse, hscl, Bool.false_and]
          rw [if_neg (by simp), if_neg (by simp), trunc_of_lt hk]
          refine BOp.gbl_congr op fun hu => ?_
          rw [hy2' hu]
          exact bcast_trunc wfr.shapeOk hdims.2.1 _ hk
    obtain ⟨g, s3, h3, hrun, hsl⟩ := key
    refine ⟨s3, hrun, h3.vok.trans h2.vok, h3.aok.trans h2.aok, fun a ha => ?_, ?_, fun a ha => ?_, fun _ k hk _ _ => ?_⟩
    · rw [hown, Set.mem_union, Set.mem_union, not_or, not_or] at ha
      rw [h3.frame a ha.1.1, h2.frame a ha.1.2]
    · refine post_root (s := s2) rfl rfl rfl (by rw [hown]; exact Set.subset_union_right) (by rw [h3.vok, h2.vok]; exact haccv) hroot2 ?_
      exact fun a ha => h3.frame a (disj_left hdw.1 ha)
    · rw [hownA, Set.mem_union, Set.mem_union, not_or, not_or] at ha
      rw [h3.adj a ha.1.1, hadj2 a ha.1.2 ha.2, hsr, hsl]
      simp only [Expr.gback, hcmp, Bool.false_eq_true, if_false]
    · have hmem : addr w.adj + k ∈ rng w.adj w.size := add_mem_rng hk
      show s3.adj (addr w.adj + k) = _
      rw [h3.adj _ (disj_left hdwa.1 hmem), gback_support _ _ _ _ _ (disj_left hda2.1 hmem), hkeep2 k hk]
  | pow n e w ih =>
    intro m s seed hwf hwb hdv hda hc
    obtain ⟨wfe, hsh, hif⟩ := hwf
    obtain ⟨wbe, haccv, hdw, hadjw⟩ := hwb
    obtain ⟨hce, hroot⟩ := hc
    have hsz : e.size = w.size := by simp [Expr.size, View.size, hsh]
    have hown : (Expr.pow n e w).ownV = e.ownV ∪ rng w.val w.size := rfl
    have hownA : (Expr.pow n e w).ownA = e.ownA ∪ (if n = 0 ∨ n = 1 then ∅ else rng w.adj w.size) := rfl
    have hrd : (Expr.pow n e w).reads = e.reads := rfl
    have hrdA : (Expr.pow n e w).readsA = e.readsA := rfl
    rw [hown, hrd, Set.disjoint_union_left] at hdv
    rw [hownA, hrdA, Set.disjoint_union_left] at hda
    have hsub : rng w.val w.size ⊆ (Expr.pow n e w).ownV := by rw [hown]; exact Set.subset_union_right
    by_cases h0 : n = 0
    · obtain ⟨s2, h2⟩ := ih m s (fun _ => 0) wfe wbe hdv.1 hda.1 hce
      refine ⟨s2, by simp only [Expr.beval, h0, if_true]; exact h2.run, h2.vok, h2.aok, fun a ha => h2.frame a fun h => ha (by rw [hown]; exact Or.inl h), ?_, fun a ha => ?_,
        fun _ _ _ h => absurd h (by simp [Expr.adjRoot, h0])⟩
      · exact post_root (s := s) rfl rfl rfl hsub (by rw [h2.vok]; exact haccv) hroot fun a ha => h2.frame a (disj_left hdw ha)
      · rw [h2.adj a fun h => ha (Or.inl h)]
        simp only [Expr.gback, h0, if_true]
    by_cases h1 : n = 1
    · obtain ⟨s2, h2⟩ := ih m s seed wfe wbe hdv.1 hda.1 hce
      refine ⟨s2, ?_, h2.vok, h2.aok, fun a ha => h2.frame a fun h => ha (by rw [hown]; exact Or.inl h), ?_, fun a ha => ?_,
        fun _ _ _ h => absurd h (by simp [Expr.adjRoot, h1])⟩
      · simp only [Expr.beval]
        rw [if_neg h0, if_pos h1]
        exact h2.run
      · exact post_root (s := s) rfl rfl rfl hsub (by rw [h2.vok]; exact haccv) hroot fun a ha => h2.frame a (disj_left hdw ha)
      · rw [h2.adj a fun h => ha (Or.inl h)]
        simp only [Expr.gback]
        rw [if_neg h0, if_pos h1]
    have hn : ¬ (n = 0 ∨ n = 1) := by tauto
    obtain ⟨hacca, hdwa⟩ := hadjw hn
    rw [if_neg hn] at hownA hda
    have hif' : e.isIf = false := by
      by_contra h
      exact hn (hif (by simpa using h))
    have hx := ggetRef_read wbe hce hif'
    have hf : readCells s.val s.vok w.val w.size = some (trunc w.size ((Expr.pow n e w).exact m)) :=
      readCells_eq' haccv hroot
    obtain ⟨s2, h2⟩ := ih m { s with adj := fillRange s.adj (addr w.adj) w.size seed }
      (fun k => powSeed n (trunc w.size seed k) (trunc w.size ((Expr.pow n e w).exact m) k)
        (trunc e.size (e.exact m) k)) wfe wbe hdv.1 hda.1 hce
    refine gbeval_one (h := fun k => powSeed n (seed k) ((Expr.pow n e w).exact m k) (e.exact m k)) wfe h2 hdwa hda.2 rfl hown hownA rfl rfl haccv hdw
      hroot ?_ ?_ (fun _ _ => by simp only [Expr.gback]; rw [if_neg h0, if_neg h1]) fun _ => ⟨rfl, rfl, rfl⟩
    · simp only [Expr.beval]
      rw [if_neg h0, if_neg h1]
      simp only [hx, hf, writeA_eq hacca, Option.bind_eq_bind, Option.bind_some]
      rw [readA_fill hacca]
      rfl
    · intro k hk
      rw [trunc_of_lt hk, hsz] at *
      rw [trunc_of_lt hk, trunc_of_lt hk]
  | prodElem e w c ih =>
    intro m s seed hwf hwb hdv hda hc
    obtain ⟨wfe, hsh, hif⟩ := hwf
    obtain ⟨wbe, haccv, hacca, hdw, hdwa⟩ := hwb
    obtain ⟨hce, hroot⟩ := hc
    have hown : (Expr.prodElem e w c).ownV = e.ownV ∪ rng w.val w.size := rfl
    have hownA : (Expr.prodElem e w c).ownA = e.ownA ∪ rng c e.size := rfl
    have hrd : (Expr.prodElem e w c).reads = e.reads := rfl
    have hrdA : (Expr.prodElem e w c).readsA = e.readsA := rfl
    rw [hown, hrd, Set.disjoint_union_left] at hdv
    rw [hownA, hrdA, Set.disjoint_union_left] at hda
    have hw1 : w.size = 1 := by simp [View.size, hsh, Shape.scl, Shape.size]
    have hx : ∃ x, readIf (e.size != 0) e.getRef s e.size = some x ∧ ∀ k < e.size, x k = e.exact m k := by
      simp only [readIf]
      split
      · exact ⟨_, ggetRef_read wbe hce hif, fun k hk => trunc_of_lt hk⟩
      · rename_i h
        exact ⟨_, rfl, fun k hk => by simp at h; omega⟩
    have hf : ∃ f, readIf (e.size != 0) (.ptr w.val) s w.size = some f ∧
        (e.size ≠ 0 → f 0 = (Expr.prodElem e w c).exact m 0) := by
      simp only [readIf]
      split
      · exact ⟨_, readCells_eq' haccv hroot, fun _ => by rw [trunc_of_lt (by omega)]⟩
      · rename_i h
        exact ⟨_, rfl, fun hk => by simp at h; omega⟩
    obtain ⟨x, hx, hx'⟩ := hx
    obtain ⟨f, hf, hf'⟩ := hf
    obtain ⟨s2, h2⟩ := ih m { s with adj := fillRange s.adj (addr c) e.size fun j => prodElemSeed e.size x (f 0) (seed 0) j }
      (trunc e.size fun j => prodElemSeed e.size x (f 0) (seed 0) j) wfe wbe hdv.1 hda.1 hce
    refine gbeval_one (h := fun j => prodElemSeed e.size (e.exact m) ((Expr.prodElem e w c).exact m 0) (seed 0) j) wfe h2 hdwa hda.2 rfl hown hownA rfl rfl
      haccv hdw hroot ?_ ?_ (fun _ _ => rfl) fun h => absurd h (by simp [Expr.isProdElem])
    · simp only [Expr.beval, hx, hf, writeA_eq hacca, Option.bind_eq_bind, Option.bind_some]
      rw [readA_fill hacca]
      rfl
    · intro k hk
      rw [trunc_of_lt hk]
      exact prodElemSeed_congr hk hx' (hf' (by omega))
  | transpose e w ih =>
    intro m s seed hwf hwb hdv hda hc
    obtain ⟨wfe, hk, hsh⟩ := hwf
    obtain ⟨wbe, haccv, hacca, hdw, hdwa⟩ := hwb
    obtain ⟨hce, hroot⟩ := hc
    have hown : (Expr.transpose e w).ownV = e.ownV ∪ rng w.val w.size := rfl
    have hownA : (Expr.transpose e w).ownA = e.ownA ∪ rng w.adj w.size := rfl
    have hrd : (Expr.transpose e w).reads = e.reads := rfl
    have hrdA : (Expr.transpose e w).readsA = e.readsA := rfl
    rw [hown, hrd, Set.disjoint_union_left] at hdv
    rw [hownA, hrdA, Set.disjoint_union_left] at hda
    obtain ⟨s2, h2⟩ := ih m { s with adj := fillRange s.adj (addr w.adj) w.size seed }
      (transposed e.shape.rows e.shape.cols (trunc w.size seed)) wfe wbe hdv.1 hda.1 hce
    refine gbeval_one (h := transposed e.shape.rows e.shape.cols seed) wfe h2 hdwa hda.2 rfl hown hownA rfl rfl haccv hdw hroot ?_ ?_ (fun _ _ => rfl) fun _ => ⟨rfl, rfl, rfl⟩
    · simp only [Expr.beval, writeA_eq hacca, Option.bind_eq_bind, Option.bind_some]
      rw [readA_fill hacca]
      rfl
    · intro k hk
      simp only [transposed]
      have hk : k < e.shape.rows * e.shape.cols := hk
      have := idx_lt hk
      refine trunc_of_lt ?_
      show _ < w.shape.size
      rw [hsh]
      exact idx_lt' this.2 this.1
  | dot l r w ihl ihr =>
    intro m s seed hwf hwb hdv hda hc
    obtain ⟨wfl, wfr, hkl, hkr, hcr, hsh, hifl, hifr⟩ := hwf
    obtain ⟨wbl, wbr, hlrV, hlrA, haccv, hacca, hdw, hdwa⟩ := hwb
    obtain ⟨hcl, hccr, hroot⟩ := hc
    have hcols : r.shape.kind = .vec → r.shape.cols = 1 := by
      intro hk; have := wfr.shapeOk; rw [Shape.Ok, hk] at this; exact this
    have hwr : w.shape.rows = l.shape.rows ∧ w.shape.cols = r.shape.cols := by
      rw [hsh]
      cases hk : r.shape.kind
      · exact absurd hk hkr
      · simp [Shape.ofDims, hcols hk]
      · simp [Shape.ofDims]
    have hown : (Expr.dot l r w).ownV = (l.ownV ∪ r.ownV) ∪ rng w.val w.size := rfl
    have hownA : (Expr.dot l r w).ownA = (l.ownA ∪ r.ownA) ∪ rng w.adj w.size := rfl
    have hrd : (Expr.dot l r w).reads = l.reads ∪ r.reads := rfl
    have hrdA : (Expr.dot l r w).readsA = l.readsA ∪ r.readsA := rfl
    rw [hown, hrd, Set.disjoint_union_left] at hdv
    rw [hownA, hrdA, Set.disjoint_union_left] at hda
    have hdvl := hdv.1.mono (Set.subset_union_left (s := l.ownV) (t := r.ownV)) (Set.subset_union_left (s := l.reads) (t := r.reads))
    have hdvr := hdv.1.mono (Set.subset_union_right (s := l.ownV) (t := r.ownV)) (Set.subset_union_right (s := l.reads) (t := r.reads))
    have hdal := hda.1.mono (Set.subset_union_left (s := l.ownA) (t := r.ownA)) (Set.subset_union_left (s := l.readsA) (t := r.readsA))
    have hdar := hda.1.mono (Set.subset_union_right (s := l.ownA) (t := r.ownA)) (Set.subset_union_right (s := l.readsA) (t := r.readsA))
    rw [Set.disjoint_union_right] at hdwa hdw
    have hda2 := hda.2
    rw [Set.disjoint_union_right] at hda2
    set s1 : St α := { s with adj := fillRange s.adj (addr w.adj) w.size seed } with hs1
    obtain ⟨s2, h2⟩ := ihr m s1 (dotRSeed l.shape.rows l.shape.cols (trunc l.size (l.exact m)) (trunc w.size seed))
      wfr wbr hdvr hdar hccr
    obtain ⟨hadj2, hkeep2⟩ := gbeval_child h2 hdwa.2 hda2.2
    have hwbl2 : l.WB s2.vok s2.aok := by rw [h2.vok, h2.aok]; exact wbl
    have hcl2 : l.Stored m s2.val := Expr.Stored.congr l hcl fun a ha => h2.frame a fun h => by
      rcases ha with ha | ha
      · exact disj_left hlrV ha h
      · exact disj_left hdv.1 (Or.inr h) (Or.inl ha)
    have hrd2 := h2.post s2 rfl fun _ _ => rfl
    rw [outRef_eq hifr] at hrd2
    have hg2 : s2.readA w.adj w.size = some (trunc w.size seed) :=
      readCells_eq' (by rw [h2.aok]; exact hacca) hkeep2
    obtain ⟨s3, h3⟩ := ihl m s2 (dotLSeed l.shape.rows l.shape.cols w.shape.cols (trunc r.size (r.post m))
      (trunc w.size seed)) wfl hwbl2 hdvl hdal hcl2
    have hseed : ∀ i < l.shape.rows, ∀ j < r.shape.cols, trunc w.size seed (i + j * l.shape.rows) = seed (i + j * l.shape.rows) := by
      intro i hi j hj
      refine trunc_of_lt ?_
      show _ < w.shape.rows * w.shape.cols
      rw [hwr.1, hwr.2]
      exact idx_lt' hi hj
    have hkeep3 : ∀ k < w.size, s3.adj (addr w.adj + k) = seed k := by
      intro k hk
      have hmem : addr w.adj + k ∈ rng w.adj w.size := add_mem_rng hk
      rw [h3.adj _ (disj_left hdwa.1 hmem), gback_support _ _ _ _ _ (disj_left hda2.1 hmem), hkeep2 k hk]
    refine ⟨s3, ?_, h3.vok.trans h2.vok, h3.aok.trans h2.aok, fun a ha => ?_, ?_, fun a ha => ?_, fun _ k hk _ _ => hkeep3 k hk⟩
    · simp only [Expr.beval, ggetRef_read wbl hcl hifl, writeA_eq hacca, Option.bind_eq_bind, Option.bind_some]
      rw [readA_fill hacca]
      simp only [Option.bind_some]
      rw [← hs1, h2.run]
      simp only [Option.bind_some]
      rw [hrd2, hg2]
      exact h3.run
    · rw [hown, Set.mem_union, Set.mem_union, not_or, not_or] at ha
      rw [h3.frame a ha.1.1, h2.frame a ha.1.2]
    · refine post_root (s := s) rfl rfl rfl (by rw [hown]; exact Set.subset_union_right) (by rw [h3.vok, h2.vok]; exact haccv) hroot ?_
      exact fun a ha => (h3.frame a (disj_left hdw.1 ha)).trans (h2.frame a (disj_left hdw.2 ha))
    · rw [hownA, Set.mem_union, Set.mem_union, not_or, not_or] at ha
      rw [h3.adj a ha.1.1, hadj2 a ha.1.2 ha.2]
      simp only [Expr.gback]
      rw [gback_congr m l _ (dotLSeed l.shape.rows l.shape.cols w.shape.cols (r.post m) seed) wfl,
        gback_congr m r _ (dotRSeed l.shape.rows l.shape.cols (l.exact m) seed) wfr]
      · intro k hk
        have hk : k < r.shape.rows * r.shape.cols := hk
        rw [← hcr] at hk
        have := idx_lt hk
        simp only [dotRSeed]
        refine sumN_congr fun i hi => ?_
        rw [hseed i hi _ this.2, trunc_of_lt]
        exact idx_lt' hi this.1
      · intro k hk
        have hk : k < l.shape.rows * l.shape.cols := hk
        have := idx_lt hk
        simp only [dotLSeed]
        refine sumN_congr fun j hj => ?_
        rw [hwr.2] at hj
        rw [hseed _ this.1 j hj, trunc_of_lt]
        show _ < r.shape.rows * r.shape.cols
        rw [← hcr]
        exact idx_lt' this.2 hj
  | sumIter es w ih =>
    intro m s seed hwf hwb hdv hda hc
    obtain ⟨wfe, hok, hsh⟩ := hwf
    obtain ⟨wbe, haccv, hacca, hdw, hdwa⟩ := hwb
    obtain ⟨hce, hroot⟩ := hc
    have hown : (Expr.sumIter es w).ownV = es.ownVs ∪ rng w.val w.size := rfl
    have hownA : (Expr.sumIter es w).ownA = es.ownAs ∪ rng w.adj w.size := rfl
    have hrd : (Expr.sumIter es w).reads = es.readss := rfl
    have hrdA : (Expr.sumIter es w).readsA = es.readsAs := rfl
    have hsub : rng w.val w.size ⊆ (Expr.sumIter es w).ownV := by rw [hown]; exact Set.subset_union_right
    rw [hown, hrd, Set.disjoint_union_left] at hdv
    rw [hownA, hrdA, Set.disjoint_union_left] at hda
    by_cases hl : es.length = 0
    · have : es = .nil := by
        cases es
        · rfl
        · simp [Exprs.length] at hl
      subst this
      exact ⟨s, by simp [Expr.beval, Exprs.length], rfl, rfl, fun _ _ => rfl,
        post_root (s := s) rfl rfl rfl hsub haccv hroot fun _ _ => rfl, fun a _ => rfl, fun _ _ _ _ h => h⟩
    set s1 : St α := { s with adj := fillRange s.adj (addr w.adj) w.size seed } with hs1
    have hs1k : ∀ k < w.size, s1.adj (addr w.adj + k) = seed k := fun k hk => fillRange_add (heap := s.adj) hk
    obtain ⟨s2, hrun, hvok, haok, hfr, hadj⟩ := gbevals_simple (m := m) (rng w.adj w.size) (fun _ => some (trunc w.size seed))
      (fun _ _ _ s => do
          let g ← s.readA w.adj w.size
          some (s, some g)) es 0 s1 ih wfe wbe hdv.1 hda.1 hce hdwa hda.2 (by
        intro j s' r sh _ h3 h4
        have : s'.readA w.adj w.size = some (trunc w.size seed) :=
          readCells_eq' (by rw [h3]; exact hacca) fun k hk => by rw [h4 _ (add_mem_rng hk), hs1k k hk]
        simp [this])
    have hsd : ∀ i a x, es.gbacks m (fun _ => some (trunc w.size seed)) i a x = es.gbacks m (fun _ => some seed) i a x := by
      intro i a x
      refine gbacks_congr m es _ _ i wfe w.size (fun e he => by simp [Expr.size, View.size, hsh e he]) (fun _ => ?_) a x
      exact fun k hk => trunc_of_lt hk
    have hkeep : ∀ k < w.size, s2.adj (addr w.adj + k) = seed k := by
      intro k hk
      have hmem : addr w.adj + k ∈ rng w.adj w.size := add_mem_rng hk
      rw [hadj _ (disj_left hdwa hmem), gbacks_support _ _ _ _ _ _ (disj_left hda.2 hmem), hs1k k hk]
    refine ⟨s2, ?_, hvok, haok, fun a ha => hfr a fun h => ha (by rw [hown]; exact Or.inl h), ?_, fun a ha => ?_, fun _ k hk _ _ => hkeep k hk⟩
    · simp only [Expr.beval]
      rw [if_neg hl]
      simp only [writeA_eq hacca, Option.bind_eq_bind, Option.bind_some]
      exact hrun
    · exact post_root (s := s) rfl rfl rfl hsub (by rw [hvok]; exact haccv) hroot fun a ha => hfr a (disj_left hdw ha)
    · rw [hownA, Set.mem_union, not_or] at ha
      rw [hadj a ha.1, hsd]
      simp only [Expr.gback]
      congr 1
      exact fillRange_not_mem (heap := s.adj) (f := seed) ha.2
  | prodIter es w ih =>
    intro m s seed hwf hwb hdv hda hc
    obtain ⟨wfe, hok, hsh⟩ := hwf
    obtain ⟨wbe, haccv, hacca, hdw, hdwa⟩ := hwb
    obtain ⟨hce, hroot⟩ := hc
    have hown : (Expr.prodIter es w).ownV = es.ownVs ∪ rng w.val w.size := rfl
    have hownA : (Expr.prodIter es w).ownA = es.ownAs ∪ rng w.adj w.size := rfl
    have hrd : (Expr.prodIter es w).reads = es.readss := rfl
    have hrdA : (Expr.prodIter es w).readsA = es.readsAs := rfl
    rw [hown, hrd, Set.disjoint_union_left] at hdv
    rw [hownA, hrdA, Set.disjoint_union_left] at hda
    have hpostr : ∀ s' : St α, s'.vok = s.vok →
        (∀ k < w.size, s'.val (addr w.val + k) = (Expr.prodIter es w).post m k) →
        ∀ s'' : St α, s''.vok = s'.vok → (∀ a ∈ (Expr.prodIter es w).ownV ∪ (Expr.prodIter es w).reads, s''.val a = s'.val a) →
          ((Expr.prodIter es w).outRef m).read s'' (Expr.prodIter es w).size =
            some (trunc (Expr.prodIter es w).size ((Expr.prodIter es w).post m)) := by
      intro s' hv h s'' hv2 hag
      refine readCells_eq' (p := w.val) (n := w.size) (by rw [hv2, hv]; exact haccv) fun k hk => ?_
      rw [hag _ (Or.inl (by rw [hown]; exact Or.inr (add_mem_rng hk))), h k hk]
    by_cases hl : es.length = 0
    · have : es = .nil := by
        cases es
        · rfl
        · simp [Exprs.length] at hl
      subst this
      exact ⟨s, by simp [Expr.beval, Exprs.length], rfl, rfl, fun _ _ => rfl, hpostr s rfl hroot, fun a _ => rfl, fun _ _ _ _ h => h⟩
    set s1 : St α := { s with adj := fillRange s.adj (addr w.adj) w.size seed } with hs1
    have hs1k : ∀ k < w.size, s1.adj (addr w.adj + k) = seed k := fun k hk => fillRange_add (heap := s.adj) hk
    have hif : ∀ e ∈ es.toList, e.isIf = false := fun e he => (hsh e he).2
    have hlen : es.length = (truncs (es.exacts m)).length := by
      rw [truncs, List.length_map, exacts_length]
    obtain ⟨s2, hrun, hvok, haok, hfr, -, hcache, hadj⟩ := gbevals_prod (m := m) w seed ((Expr.prodIter es w).exact m) es.getRefs
      (truncs (es.exacts m)) (truncs (es.posts m)) es 0 s1 ih wfe wbe hdv.1 hda.1 hce hsh (by rw [Nat.zero_add]; exact hlen) rfl rfl
      (fun k e he => by
        rw [Nat.zero_add]
        exact ⟨stable_of wfe wbe hdv.1 hif he, by rw [getRefs_nth, he]; rfl⟩)
      (fun t t' hv hag => by
        refine readAll_congr _ fun j r sh hjr => ?_
        rw [getRefs_nth] at hjr
        obtain ⟨e', he', h⟩ := Option.map_eq_some_iff.1 hjr
        obtain ⟨rfl, rfl⟩ : e'.getRef = r ∧ e'.shape = sh := by simpa using h
        refine getRef_stable (wfe.mem e' (List.mem_of_getElem? he')) (hif e' (List.mem_of_getElem? he')) hv fun a ha => hag a fun hmem => ?_
        rcases ha with ha | ha
        · exact disj_left hdw hmem ((own_subset es (List.mem_of_getElem? he')).1 ha)
        · exact disj_left hdv.2 hmem ((own_subset es (List.mem_of_getElem? he')).2 ha))
      (greadAll_getRefs es wbe hce hif) hdw hdv.2 hdwa hda.2 haccv hacca hroot hs1k
    have hkeep : ∀ k < w.size, s2.adj (addr w.adj + k) = seed k := by
      intro k hk
      have hmem : addr w.adj + k ∈ rng w.adj w.size := add_mem_rng hk
      rw [hadj _ (disj_left hdwa hmem), gbacks_support _ _ _ _ _ _ (disj_left hda.2 hmem), hs1k k hk]
    refine ⟨s2, ?_, hvok, haok, fun a ha => ?_, hpostr s2 hvok hcache, fun a ha => ?_, fun _ k hk _ _ => hkeep k hk⟩
    · simp only [Expr.beval]
      rw [if_neg hl]
      simp only [writeA_eq hacca, Option.bind_eq_bind, Option.bind_some]
      exact hrun
    · rw [hown, Set.mem_union, not_or] at ha
      exact hfr a ha.1 ha.2
    · rw [hownA, Set.mem_union, not_or] at ha
      rw [hadj a ha.1]
      simp only [Expr.gback]
      congr 1
      exact fillRange_not_mem (heap := s.adj) (f := seed) ha.2
  | reduce op es w ih =>
    intro m s seed hwf hwb hdv hda hc
    obtain ⟨wfe, hsh, hcase⟩ := hwf
    obtain ⟨wbe, haccv, hdw⟩ := hwb
    obtain ⟨hce, hroot⟩ := hc
    have hown : (Expr.reduce op es w).ownV = es.ownVs ∪ rng w.val w.size := rfl
    have hownA : (Expr.reduce op es w).ownA = es.ownAs ∪ ∅ := rfl
    have hrd : (Expr.reduce op es w).reads = es.readss := rfl
    have hrdA : (Expr.reduce op es w).readsA = es.readsAs := rfl
    have hsub : rng w.val w.size ⊆ (Expr.reduce op es w).ownV := by rw [hown]; exact Set.subset_union_right
    rw [hown, hrd, Set.disjoint_union_left] at hdv
    rw [Set.union_empty] at hownA
    rw [hownA, hrdA] at hda
    have hw1 : w.size = 1 := by simp [View.size, hsh, Shape.scl, Shape.size]
    have hf : readCells s.val s.vok w.val w.size = some (trunc w.size ((Expr.reduce op es w).exact m)) := readCells_eq' haccv hroot
    by_cases hu : op.usesX = true
    · have hif : ∀ e ∈ es.toList, e.isIf = false := by
        obtain ⟨e, rfl, hok, hif⟩ | ⟨o, k, rfl, n, -, -, -, hif, -⟩ := hcase
        · intro e' he'
          obtain rfl : e' = e := by simpa [Exprs.toList] using he'
          by_contra h
          rw [hif (by simpa using h)] at hu
          simp at hu
        · exact hif
      have hlen : es.length = (truncs (es.exacts m)).length := by
        rw [truncs, List.length_map, exacts_length]
      obtain ⟨s2, hrun, hvok, haok, hfr, -, hadj⟩ := gbevals_loop (m := m) (rng w.val w.size)
        (fun V i => op.bmap (seed 0) V ((Expr.reduce op es w).exact m 0) i) es.getRefs (truncs (es.exacts m)) (truncs (es.posts m))
        (fun i _ _ s => do
          let args ← readOperands op s es.getRefs
          let f ← readCells s.val s.vok w.val w.size
          some (s, op.bmap (seed 0) args (f 0) i)) es 0 s ih wfe wbe hdv.1 hda hce hif (by rw [Nat.zero_add]; exact hlen) rfl
        (fun k e he => by
          rw [Nat.zero_add]
          exact ⟨stable_of wfe wbe hdv.1 hif he, by rw [getRefs_nth, he]; rfl⟩)
        (greadAll_getRefs es wbe hce hif) hdw (by
          intro j r sh s' V h1 h2 h3 h4
          have hf' : readCells s'.val s'.vok w.val w.size = some (trunc w.size ((Expr.reduce op es w).exact m)) := by
            rw [h1, ← hf]; exact readCells_congr h3
          simp only [readOperands_all (α := α) hu, h4, hf', Option.bind_eq_bind, Option.bind_some]
          rw [trunc_of_lt (by omega)])
      refine ⟨s2, ?_, hvok, haok, fun a ha => hfr a fun h => ha (by rw [hown]; exact Or.inl h), ?_, fun a ha => ?_, fun _ _ _ h => h.elim⟩
      · simp only [Expr.beval]
        exact hrun
      · exact post_root (s := s) rfl rfl rfl hsub (by rw [hvok]; exact haccv) hroot fun a ha => hfr a (disj_left hdw ha)
      · rw [hownA] at ha
        rw [hadj a ha]
        simp only [Expr.gback]
    · obtain ⟨e, rfl, hok, hif⟩ | ⟨o, k, rfl, -⟩ := hcase
      swap
      · simp [RedOp.usesX] at hu
      have hx : readOperands op s (Exprs.cons e .nil).getRefs = some [(e.shape, fun _ => 0)] := by
        simp only [Exprs.getRefs, readOperands, readIf, hu]
        rfl
      have hb : op.bmap (seed 0) [(e.shape, fun _ => 0)] ((Expr.reduce op (.cons e .nil) w).exact m 0) 0 =
          loopSeed (fun V i => op.bmap (seed 0) V ((Expr.reduce op (.cons e .nil) w).exact m 0) i)
            (truncs ((Exprs.cons e .nil).exacts m)) (truncs ((Exprs.cons e .nil).posts m)) 0 := by
        cases op <;> first | rfl | simp [RedOp.usesX] at hu
      obtain ⟨g, hg⟩ : ∃ g, op.bmap (seed 0) [(e.shape, fun _ => 0)] ((Expr.reduce op (.cons e .nil) w).exact m 0) 0 = some g := by
        cases op <;> first | exact ⟨_, rfl⟩ | simp [RedOp.usesX] at hu
      have hown1 : (Exprs.cons e Exprs.nil).ownVs = e.ownV ∪ ∅ := rfl
      have hown1A : (Exprs.cons e Exprs.nil).ownAs = e.ownA ∪ ∅ := rfl
      rw [Set.union_empty] at hown1 hown1A
      obtain ⟨s2, h2⟩ := ih e (by simp [Exprs.toList]) m s g wfe.1 wbe.1
        (hdv.1.mono (fun a h => Or.inl h) fun a h => Or.inl h) (hda.mono (fun a h => Or.inl h) fun a h => Or.inl h) hce.1
      refine ⟨s2, ?_, h2.vok, h2.aok, fun a ha => h2.frame a fun h => ha (by rw [hown, hown1]; exact Or.inl h), ?_, fun a ha => ?_,
        fun _ _ _ h => h.elim⟩
      · simp only [Expr.beval, Exprs.bevals, Option.bind_eq_bind, Option.bind_some, hx, hf]
        rw [trunc_of_lt (by omega), hg]
        exact congrArg (fun o => Option.bind o some) h2.run
      · refine post_root (s := s) rfl rfl rfl hsub (by rw [h2.vok]; exact haccv) hroot fun a ha => h2.frame a fun h => ?_
        exact disj_left hdw ha (by rw [hown1]; exact h)
      · rw [hownA, hown1A] at ha
        rw [h2.adj a ha]
        simp only [Expr.gback, Exprs.gbacks]
        rw [← hb, hg]
  | ifElse c x y w ihc ihx ihy =>
    intro m s seed hwf hwb hdv hda hc
    obtain ⟨wfc, wfx, wfy, hkc, hic, hsx, hsy, -⟩ := hwf
    obtain ⟨wbc, wbx, wby, -, -, -, -⟩ := hwb
    obtain ⟨hcc, hbr⟩ := hc
    have hown : (Expr.ifElse c x y w).ownV = (c.ownV ∪ (x.ownV ∪ y.ownV)) ∪ ∅ := rfl
    have hownA : (Expr.ifElse c x y w).ownA = (c.ownA ∪ (x.ownA ∪ y.ownA)) ∪ ∅ := rfl
    have hrd : (Expr.ifElse c x y w).reads = c.reads ∪ (x.reads ∪ y.reads) := rfl
    have hrdA : (Expr.ifElse c x y w).readsA = c.readsA ∪ (x.readsA ∪ y.readsA) := rfl
    rw [Set.union_empty] at hown hownA
    rw [hown, hrd] at hdv
    rw [hownA, hrdA] at hda
    have hsz : c.size = 1 := wfc.shapeOk.size_scl (by simp [Shape.isScl, hkc])
    have hread : c.getRef.read s 1 = some (trunc 1 (c.exact m)) := by
      rw [← hsz]; exact ggetRef_read wbc hcc hic
    by_cases h0 : toBool (c.exact m 0) = true
    · rw [if_pos h0] at hbr
      obtain ⟨s2, h2⟩ := ihx m s seed wfx wbx
        (hdv.mono (fun a h => Or.inr (Or.inl h)) fun a h => Or.inr (Or.inl h))
        (hda.mono (fun a h => Or.inr (Or.inl h)) fun a h => Or.inr (Or.inl h)) hbr
      refine ⟨s2, ?_, h2.vok, h2.aok, fun a ha => h2.frame a fun h => ha (by rw [hown]; exact Or.inr (Or.inl h)), fun s'' hv hag => ?_, fun a ha => ?_,
        fun _ _ _ h => h.elim⟩
      · simp only [Expr.beval, hread, Option.bind_eq_bind, Option.bind_some]
        rw [trunc_of_lt (by omega), if_pos h0]
        exact h2.run
      · have hs : (Expr.ifElse c x y w).size = x.size := by show w.shape.size = _; rw [← hsx]; rfl
        rw [Expr.outRef, Expr.post, if_pos h0, if_pos h0, hs]
        refine h2.post s'' hv fun a ha => hag a ?_
        rw [hown, hrd]
        rcases ha with ha | ha
        · exact Or.inl (Or.inr (Or.inl ha))
        · exact Or.inr (Or.inr (Or.inl ha))
      · rw [hownA] at ha
        rw [h2.adj a fun h => ha (Or.inr (Or.inl h))]
        simp only [Expr.gback]
        rw [if_pos h0]
    · rw [if_neg h0] at hbr
      obtain ⟨s2, h2⟩ := ihy m s seed wfy wby
        (hdv.mono (fun a h => Or.inr (Or.inr h)) fun a h => Or.inr (Or.inr h))
        (hda.mono (fun a h => Or.inr (Or.inr h)) fun a h => Or.inr (Or.inr h)) hbr
      refine ⟨s2, ?_, h2.vok, h2.aok, fun a ha => h2.frame a fun h => ha (by rw [hown]; exact Or.inr (Or.inr h)), fun s'' hv hag => ?_, fun a ha => ?_,
        fun _ _ _ h => h.elim⟩
      · simp only [Expr.beval, hread, Option.bind_eq_bind, Option.bind_some]
        rw [trunc_of_lt (by omega), if_neg h0]
        exact h2.run
      · have hs : (Expr.ifElse c x y w).size = y.size := by show w.shape.size = _; rw [← hsy]; rfl
        rw [Expr.outRef, Expr.post, if_neg h0, if_neg h0, hs]
        refine h2.post s'' hv fun a ha => hag a ?_
        rw [hown, hrd]
        rcases ha with ha | ha
        · exact Or.inl (Or.inr (Or.inr ha))
        · exact Or.inr (Or.inr (Or.inr ha))
      · rw [hownA] at ha
        rw [h2.adj a fun h => ha (Or.inr (Or.inr h))]
        simp only [Expr.gback]
        rw [if_neg h0]
  | eq v e w _ => intro m s seed hwf; exact hwf.elim
  | opEq op v e w c _ => intro m s seed hwf; exact hwf.elim
  | glue l r w _ _ => intro m s seed hwf; exact hwf.elim
  | forEach es w _ => intro m s seed hwf; exact hwf.elim

end FastAD
