import Verif.Proof.Needed
import Verif.Proof.GenProg

/-!
# The backward pass is defined whatever the memory contains
-/

namespace FastAD

variable {α : Type} [Zero α] [One α] [Add α] [Sub α] [Neg α] [Mul α] [Div α] [NatCast α] [IntCast α]
variable [Fn α] [HasInf α] [LinAlg α]
set_option linter.unusedSectionVars false

theorem readCells_def {heap : ℕ → α} {ok : ℕ → Bool} {p : Option ℕ} {n : ℕ} (h : accessible ok p n) : ∃ x, readCells heap ok p n = some x := ⟨_, readCells_eq h⟩

theorem readA_def {s : St α} {p : Option ℕ} {n : ℕ} (h : accessible s.aok p n) : ∃ x, s.readA p n = some x := ⟨_, readCells_eq h⟩

/-- same allocated cells, and the same contents outside `MV` (values) and `MA` (adjoints) -/
structure Fr (MV MA : Set ℕ) (s t : St α) : Prop where
  ok : SameOk s t
  val : ∀ a, a ∉ MV → t.val a = s.val a
  adj : ∀ a, a ∉ MA → t.adj a = s.adj a

variable {MV MA : Set ℕ}

theorem Fr.refl (s : St α) : Fr MV MA s s := ⟨SameOk.refl s, fun _ _ => rfl, fun _ _ => rfl⟩

theorem Fr.trans {s t u : St α} (h : Fr MV MA s t) (h' : Fr MV MA t u) : Fr MV MA s u :=
  ⟨h.ok.trans h'.ok, fun a ha => (h'.val a ha).trans (h.val a ha), fun a ha => (h'.adj a ha).trans (h.adj a ha)⟩

theorem writeA_def {s : St α} {p : Option ℕ} {n : ℕ} (h : accessible s.aok p n) (hM : rng p n ⊆ MA) (f : ℕ → α) : ∃ s', s.writeA p n f = some s' ∧ Fr MV MA s s' :=
  ⟨_, writeA_eq h, ⟨rfl, rfl⟩, fun _ _ => rfl, fun _ ha => fillRange_not_mem fun h => ha (hM h)⟩

theorem writeV_def {s : St α} {p : Option ℕ} {n : ℕ} (h : accessible s.vok p n) (hM : rng p n ⊆ MV) (f : ℕ → α) : ∃ s', s.writeV p n f = some s' ∧ Fr MV MA s s' :=
  ⟨_, writeV_eq h, ⟨rfl, rfl⟩, fun _ ha => fillRange_not_mem fun h => ha (hM h), fun _ _ => rfl⟩

theorem bevalVar_def {s : St α} {v : View} (h : accessible s.aok v.adj v.size) (hM : rng v.adj v.size ⊆ MA) (g : ℕ → α) : ∃ s', v.bevalVar g s = some s' ∧ Fr MV MA s s' :=
  ⟨_, bevalVar_eq h, ⟨rfl, rfl⟩, fun _ _ => rfl, fun a ha => by
    dsimp only
    exact fillRange_not_mem fun h => ha (hM h)⟩

theorem Fr.wb {e : Expr α} {s s' : St α} (h : Fr MV MA s s') (hw : e.WB s.vok s.aok) : e.WB s'.vok s'.aok := by rw [h.ok.1, h.ok.2]; exact hw
theorem Fr.wbs {es : Exprs α} {s s' : St α} (h : Fr MV MA s s') (hw : es.WBs s.vok s.aok) : es.WBs s'.vok s'.aok := by rw [h.ok.1, h.ok.2]; exact hw
theorem Fr.accV {s s' : St α} (h : Fr MV MA s s') {p : Option ℕ} {n : ℕ} (hw : accessible s.vok p n) : accessible s'.vok p n := by rw [h.ok.1]; exact hw
theorem Fr.accA {s s' : St α} (h : Fr MV MA s s') {p : Option ℕ} {n : ℕ} (hw : accessible s.aok p n) : accessible s'.aok p n := by rw [h.ok.2]; exact hw

/-- the backward pass writes only into `MV` and `MA` -/
structure Expr.InM (MV MA : Set ℕ) (e : Expr α) : Prop where
  val : e.ownV ⊆ MV
  adj : e.ownA ⊆ MA
  var : e.readsA ⊆ MA

/-- the same for a list -/
structure Exprs.InMs (MV MA : Set ℕ) (es : Exprs α) : Prop where
  val : es.ownVs ⊆ MV
  adj : es.ownAs ⊆ MA
  var : es.readsAs ⊆ MA

theorem InMs.mem {es : Exprs α} (h : es.InMs MV MA) : ∀ e ∈ es.toList, e.InM MV MA := by
  induction es using Exprs.rec (motive_1 := fun _ => True) with
  | nil => intro e he; simp [Exprs.toList] at he
  | cons e es _ ih =>
    intro x hx
    simp only [Exprs.toList, List.mem_cons] at hx
    rcases hx with rfl | hx
    · exact ⟨fun a ha => h.val (Or.inl ha), fun a ha => h.adj (Or.inl ha), fun a ha => h.var (Or.inl ha)⟩
    · exact ih ⟨fun a ha => h.val (Or.inr ha), fun a ha => h.adj (Or.inr ha), fun a ha => h.var (Or.inr ha)⟩ x hx
  | _ => trivial

/-- `get()` of a bound node other than `if_else` can be read -/
theorem getRef_def {e : Expr α} {s : St α} (hwf : e.WF) (hwb : e.WB s.vok s.aok) (hif : e.isIf = false) : ∃ x, e.getRef.read s e.size = some x := by
  cases e with
  | const => exact ⟨_, rfl⟩
  | ifElse => simp [Expr.isIf] at hif
  | eq | opEq | glue | forEach => exact hwf.elim
  | var => exact readCells_def hwb.1
  | cview => exact readCells_def hwb
  | unary => exact readCells_def hwb.2.1
  | binary => exact readCells_def hwb.2.2.2.2.1
  | pow => exact readCells_def hwb.2.1
  | prodElem => exact readCells_def hwb.2.1
  | transpose => exact readCells_def hwb.2.1
  | dot => exact readCells_def hwb.2.2.2.2.1
  | sumIter => exact readCells_def hwb.2.1
  | prodIter => exact readCells_def hwb.2.1
  | reduce => exact readCells_def hwb.2.1

theorem readIf_def {b : Bool} {r : Ref α} {s : St α} {n : ℕ} (h : b = true → ∃ x, r.read s n = some x) : ∃ x, readIf b r s n = some x := by
  unfold readIf
  split
  · exact h ‹_›
  · exact ⟨_, rfl⟩

theorem readBack_def {e : Expr α} {b : Bool} {s : St α} (hwf : e.WF) (hwb : e.WB s.vok s.aok) (hif : e.isIf = true → b = false ∧ e.shape.isScl = false) :
    ∃ x, e.readBack b s = some x := by
  refine readIf_def fun hb => getRef_def hwf hwb ?_
  by_contra h
  have := hif (by simpa using h)
  simp [this.1, this.2] at hb

theorem readAll_def {es : Exprs α} {s : St α} (hwf : es.WFs) (hwb : es.WBs s.vok s.aok) (hif : ∀ e ∈ es.toList, e.isIf = false) :
    ∃ xs, readAll s es.getRefs = some xs := by
  induction es using Exprs.rec (motive_1 := fun _ => True) with
  | nil => exact ⟨_, rfl⟩
  | cons e es _ ih =>
    obtain ⟨x, hx⟩ := getRef_def hwf.1 hwb.1 (hif e (by simp [Exprs.toList]))
    obtain ⟨xs, hxs⟩ := ih hwf.2 hwb.2.1 fun y hy => hif y (by simp [Exprs.toList, hy])
    refine ⟨(e.shape, x) :: xs, ?_⟩
    have hx' : e.getRef.read s e.shape.size = some x := hx
    simp [Exprs.getRefs, readAll, hx', hxs]
  | _ => trivial

theorem readOperands_def {op : RedOp} {es : Exprs α} {s : St α} (hwf : es.WFs) (hwb : es.WBs s.vok s.aok) (hif : ∀ e ∈ es.toList, e.isIf = true → op.usesX = false) :
    ∃ xs, readOperands op s es.getRefs = some xs := by
  induction es using Exprs.rec (motive_1 := fun _ => True) with
  | nil => exact ⟨_, rfl⟩
  | cons e es _ ih =>
    have h1 : ∃ x, readIf op.usesX e.getRef s e.shape.size = some x := by
      refine readIf_def fun hu => getRef_def hwf.1 hwb.1 ?_
      by_contra h
      have := hif e (by simp [Exprs.toList]) (by simpa using h)
      rw [hu] at this; cases this
    obtain ⟨x, hx⟩ := h1
    obtain ⟨xs, hxs⟩ := ih hwf.2 hwb.2.1 fun y hy => hif y (by simp [Exprs.toList, hy])
    exact ⟨(e.shape, x) :: xs, by simp [Exprs.getRefs, readOperands, hx, hxs]⟩
  | _ => trivial

/-- defined in every state with the same allocated cells -/
def Expr.Runs (MV MA : Set ℕ) (e : Expr α) (s : St α) : Prop := ∀ (g : ℕ → α) (t : St α), Fr MV MA s t → ∃ t', e.beval g t = some t' ∧ Fr MV MA s t'

theorem bevals_def {pre : ℕ → Ref α → Shape → St α → Option (St α × Option (ℕ → α))} {post : St α → ℕ → Ref α → Shape → St α → Option (St α)} {s : St α} (es : Exprs α)
    (hpre : ∀ i, ∀ e ∈ es.toList, ∀ t, Fr MV MA s t → ∃ t' g, pre i e.getRef e.shape t = some (t', g) ∧ Fr MV MA s t')
    (hpost : ∀ s0 i, ∀ e ∈ es.toList, ∀ t, Fr MV MA s t → ∃ t', post s0 i e.getRef e.shape t = some t' ∧ Fr MV MA s t')
    (ih : ∀ e ∈ es.toList, e.Runs MV MA s) : ∀ i t, Fr MV MA s t → ∃ t', es.bevals pre post i t = some t' ∧ Fr MV MA s t' := by
  induction es using Exprs.rec (motive_1 := fun _ => True) with
  | nil => intro i t h; exact ⟨t, rfl, h⟩
  | cons e es _ ihs =>
    intro i t h
    obtain ⟨t1, h1, k1⟩ := ihs (fun i x hx => hpre i x (by simp [Exprs.toList, hx])) (fun s0 i x hx => hpost s0 i x (by simp [Exprs.toList, hx]))
      (fun x hx => ih x (by simp [Exprs.toList, hx])) (i + 1) t h
    obtain ⟨t2, g, h2, k2⟩ := hpre i e (by simp [Exprs.toList]) t1 k1
    have h3 : ∃ t3, (match g with | some g => e.beval g t2 | none => some t2) = some t3 ∧ Fr MV MA s t3 := by
      cases g with
      | none => exact ⟨t2, rfl, k2⟩
      | some g => exact ih e (by simp [Exprs.toList]) g t2 k2
    obtain ⟨t3, h3, k3⟩ := h3
    obtain ⟨t4, h4, k4⟩ := hpost t1 i e (by simp [Exprs.toList]) t3 k3
    refine ⟨t4, ?_, k4⟩
    simp only [Exprs.bevals, h1, Option.bind_eq_bind, Option.bind_some, h2]
    cases g with
    | none => cases h3; exact h4
    | some g => simp only at h3 ⊢; rw [h3]; exact h4
  | _ => trivial

theorem WFs.mem {es : Exprs α} (h : es.WFs) : ∀ e ∈ es.toList, e.WF := by
  induction es using Exprs.rec (motive_1 := fun _ => True) with
  | nil => intro e he; simp [Exprs.toList] at he
  | cons e es _ ih =>
    intro x hx
    simp only [Exprs.toList, List.mem_cons] at hx
    rcases hx with rfl | hx
    · exact h.1
    · exact ih h.2 x hx
  | _ => trivial

theorem WBs.mem {vok aok : ℕ → Bool} {es : Exprs α} (h : es.WBs vok aok) : ∀ e ∈ es.toList, e.WB vok aok := by
  induction es using Exprs.rec (motive_1 := fun _ => True) with
  | nil => intro e he; simp [Exprs.toList] at he
  | cons e es _ ih =>
    intro x hx
    simp only [Exprs.toList, List.mem_cons] at hx
    rcases hx with rfl | hx
    · exact h.1
    · exact ih h.2.1 x hx
  | _ => trivial

/-- The backward pass of a bound well-formed expression is defined, whatever the caches and variables hold. -/
theorem beval_def (e : Expr α) : e.WF → ∀ s : St α, e.WB s.vok s.aok → e.InM MV MA → e.Runs MV MA s := by
  induction e using Expr.induct with
  | var v => intro _ s hb hm g t h; obtain ⟨t', h1, h2⟩ := bevalVar_def (h.accA hb.2) hm.var g; exact ⟨t', h1, h.trans h2⟩
  | const | cview => intro _ s _ _ g t h; exact ⟨t, rfl, h⟩
  | unary op e w ih =>
    intro hwf s hb hm g t h
    have hin : e.InM MV MA := ⟨fun a ha => hm.val (Or.inl ha), fun a ha => hm.adj (Or.inl ha), hm.var⟩
    have hroot : rng w.adj w.size ⊆ MA := fun a ha => hm.adj (Or.inr ha)
    obtain ⟨x, hx⟩ := readBack_def hwf.1 (h.wb hb.1) hwf.2.2
    have h0 : ∃ f, readIf (op.usesF || w.shape.isScl) (.ptr w.val) t w.size = some f := readIf_def fun _ => readCells_def (h.accV hb.2.1)
    obtain ⟨f, hf⟩ := h0
    obtain ⟨t1, h1, k1⟩ := writeA_def (h.accA hb.2.2.1) hroot g
    obtain ⟨a, ha⟩ := readA_def (k1.accA (h.accA hb.2.2.1))
    obtain ⟨t2, h2, k2⟩ := ih hwf.1 s hb.1 hin (fun k => op.bmap (a k) (x k) (f k)) t1 (h.trans k1)
    exact ⟨t2, by simp only [Expr.beval, hx, hf, h1, ha, h2, Option.bind_eq_bind, Option.bind_some], k2⟩
  | binary op l r w ihl ihr =>
    intro hwf s hb hm g t h
    have hinl : l.InM MV MA := ⟨fun a ha => hm.val (Or.inl (Or.inl ha)), fun a ha => hm.adj (Or.inl (Or.inl ha)), fun a ha => hm.var (Or.inl ha)⟩
    have hinr : r.InM MV MA := ⟨fun a ha => hm.val (Or.inl (Or.inr ha)), fun a ha => hm.adj (Or.inl (Or.inr ha)), fun a ha => hm.var (Or.inr ha)⟩
    by_cases hc : op.isComparison = true
    · exact ⟨t, by simp only [Expr.beval, if_pos hc], h⟩
    obtain ⟨hl, hr⟩ := hwf.2.2.2.2 (by simpa using hc)
    obtain ⟨hA, -⟩ := hb.2.2.2.2.2.2 (by simpa using hc)
    have hV := hb.2.2.2.2.1
    have hroot : rng w.adj w.size ⊆ MA := fun a ha => hm.adj (Or.inr (by rw [Expr.adjRoot, if_neg hc]; exact ha))
    obtain ⟨x, hx⟩ := readBack_def hwf.1 (h.wb hb.1) hl
    obtain ⟨y, hy⟩ := readBack_def hwf.2.1 (h.wb hb.2.1) hr
    have h0 : ∃ f, readIf (op.usesF || w.shape.isScl) (.ptr w.val) t w.size = some f := readIf_def fun _ => readCells_def (h.accV hV)
    obtain ⟨f, hf⟩ := h0
    obtain ⟨t1, h1, k1⟩ := writeA_def (h.accA hA) hroot g
    obtain ⟨a, ha⟩ := readA_def (k1.accA (h.accA hA))
    obtain ⟨t2, h2, k2⟩ := ihr hwf.2.1 s hb.2.1 hinr (collapse r.shape w.shape w.size (fun k => op.br (a k) (bcast l.shape x k) (bcast r.shape y k) (f k))) t1 (h.trans k1)
    by_cases hs : l.shape.isScl = true
    · obtain ⟨t3, h3, k3⟩ := ihl hwf.1 s hb.1 hinl (collapse l.shape w.shape w.size (fun k => op.bl (a k) (bcast l.shape x k) (bcast r.shape y k) (f k))) t2 k2
      refine ⟨t3, ?_, k3⟩
      simp only [Expr.beval, if_neg hc, hx, hy, hf, h1, ha, h2, Option.bind_eq_bind, Option.bind_some, if_pos hs, h3]
    · obtain ⟨x', hx'⟩ := readBack_def hwf.1 (k2.wb hb.1) hl
      obtain ⟨y', hy'⟩ := readBack_def hwf.2.1 (k2.wb hb.2.1) hr
      have h0 : ∃ f, readIf (op.usesF || w.shape.isScl) (.ptr w.val) t2 w.size = some f := readIf_def fun _ => readCells_def (k2.accV hV)
      obtain ⟨f', hf'⟩ := h0
      obtain ⟨a', ha'⟩ := readA_def (k2.accA hA)
      obtain ⟨t3, h3, k3⟩ := ihl hwf.1 s hb.1 hinl (fun k => op.bl (a' k) (bcast l.shape x' k) (bcast r.shape y' k) (f' k)) t2 k2
      refine ⟨t3, ?_, k3⟩
      simp only [Expr.beval, if_neg hc, hx, hy, hf, h1, ha, h2, Option.bind_eq_bind, Option.bind_some, if_neg hs, hx', hy', hf', ha', h3]
  | pow n e w ih =>
    intro hwf s hb hm g t h
    have hin : e.InM MV MA := ⟨fun a ha => hm.val (Or.inl ha), fun a ha => hm.adj (Or.inl ha), hm.var⟩
    by_cases h0 : n = 0
    · obtain ⟨t1, h1, k1⟩ := ih hwf.1 s hb.1 hin (fun _ => 0) t h
      exact ⟨t1, by simp only [Expr.beval, if_pos h0, h1], k1⟩
    by_cases h1 : n = 1
    · obtain ⟨t1, h2, k1⟩ := ih hwf.1 s hb.1 hin g t h
      exact ⟨t1, by simp only [Expr.beval, if_neg h0, if_pos h1, h2], k1⟩
    obtain ⟨hA, -⟩ := hb.2.2.2 (by simp [h0, h1])
    have hroot : rng w.adj w.size ⊆ MA := fun a ha => hm.adj (Or.inr (by rw [Expr.adjRoot, if_neg (by simp [h0, h1])]; exact ha))
    obtain ⟨x, hx⟩ := getRef_def hwf.1 (h.wb hb.1) (by
      by_contra hi
      exact absurd (hwf.2.2 (by simpa using hi)) (by simp [h0, h1]))
    obtain ⟨f, hf⟩ := readCells_def (heap := t.val) (h.accV hb.2.1)
    obtain ⟨t1, h2, k1⟩ := writeA_def (h.accA hA) hroot g
    obtain ⟨a, ha⟩ := readA_def (k1.accA (h.accA hA))
    obtain ⟨t2, h3, k2⟩ := ih hwf.1 s hb.1 hin (fun k => powSeed n (a k) (f k) (x k)) t1 (h.trans k1)
    exact ⟨t2, by simp only [Expr.beval, if_neg h0, if_neg h1, hx, hf, h2, ha, h3, Option.bind_eq_bind, Option.bind_some], k2⟩
  | prodElem e w c ih =>
    intro hwf s hb hm g t h
    have hin : e.InM MV MA := ⟨fun a ha => hm.val (Or.inl ha), fun a ha => hm.adj (Or.inl ha), hm.var⟩
    have hroot : rng c e.size ⊆ MA := fun a ha => hm.adj (Or.inr ha)
    have h0 : ∃ x, readIf (e.size != 0) e.getRef t e.size = some x := readIf_def fun _ => getRef_def hwf.1 (h.wb hb.1) hwf.2.2
    obtain ⟨x, hx⟩ := h0
    have h0 : ∃ f, readIf (e.size != 0) (.ptr w.val) t w.size = some f := readIf_def fun _ => readCells_def (h.accV hb.2.1)
    obtain ⟨f, hf⟩ := h0
    obtain ⟨t1, h1, k1⟩ := writeA_def (h.accA hb.2.2.1) hroot (fun j => prodElemSeed e.size x (f 0) (g 0) j)
    obtain ⟨a, ha⟩ := readA_def (k1.accA (h.accA hb.2.2.1))
    obtain ⟨t2, h2, k2⟩ := ih hwf.1 s hb.1 hin a t1 (h.trans k1)
    exact ⟨t2, by simp only [Expr.beval, hx, hf, h1, ha, h2, Option.bind_eq_bind, Option.bind_some], k2⟩
  | transpose e w ih =>
    intro hwf s hb hm g t h
    have hin : e.InM MV MA := ⟨fun a ha => hm.val (Or.inl ha), fun a ha => hm.adj (Or.inl ha), hm.var⟩
    have hroot : rng w.adj w.size ⊆ MA := fun a ha => hm.adj (Or.inr ha)
    obtain ⟨t1, h1, k1⟩ := writeA_def (h.accA hb.2.2.1) hroot g
    obtain ⟨a, ha⟩ := readA_def (k1.accA (h.accA hb.2.2.1))
    obtain ⟨t2, h2, k2⟩ := ih hwf.1 s hb.1 hin (transposed e.shape.rows e.shape.cols a) t1 (h.trans k1)
    exact ⟨t2, by simp only [Expr.beval, h1, ha, h2, Option.bind_eq_bind, Option.bind_some], k2⟩
  | dot l r w ihl ihr =>
    intro hwf s hb hm g t h
    have hinl : l.InM MV MA := ⟨fun a ha => hm.val (Or.inl (Or.inl ha)), fun a ha => hm.adj (Or.inl (Or.inl ha)), fun a ha => hm.var (Or.inl ha)⟩
    have hinr : r.InM MV MA := ⟨fun a ha => hm.val (Or.inl (Or.inr ha)), fun a ha => hm.adj (Or.inl (Or.inr ha)), fun a ha => hm.var (Or.inr ha)⟩
    have hroot : rng w.adj w.size ⊆ MA := fun a ha => hm.adj (Or.inr ha)
    have hA := hb.2.2.2.2.2.1
    obtain ⟨x, hx⟩ := getRef_def hwf.1 (h.wb hb.1) hwf.2.2.2.2.2.2.1
    obtain ⟨t1, h1, k1⟩ := writeA_def (h.accA hA) hroot g
    obtain ⟨a, ha⟩ := readA_def (k1.accA (h.accA hA))
    obtain ⟨t2, h2, k2⟩ := ihr hwf.2.1 s hb.2.1 hinr (dotRSeed l.shape.rows l.shape.cols x a) t1 (h.trans k1)
    obtain ⟨y, hy⟩ := getRef_def hwf.2.1 (k2.wb hb.2.1) hwf.2.2.2.2.2.2.2
    obtain ⟨a', ha'⟩ := readA_def (k2.accA hA)
    obtain ⟨t3, h3, k3⟩ := ihl hwf.1 s hb.1 hinl (dotLSeed l.shape.rows l.shape.cols w.shape.cols y a') t2 k2
    exact ⟨t3, by simp only [Expr.beval, hx, h1, ha, h2, hy, ha', h3, Option.bind_eq_bind, Option.bind_some], k3⟩
  | sumIter es w ih =>
    intro hwf s hb hm g t h
    have hin : es.InMs MV MA := ⟨fun a ha => hm.val (Or.inl ha), fun a ha => hm.adj (Or.inl ha), hm.var⟩
    have hroot : rng w.adj w.size ⊆ MA := fun a ha => hm.adj (Or.inr ha)
    by_cases h0 : es.length = 0
    · exact ⟨t, by simp only [Expr.beval, if_pos h0], h⟩
    obtain ⟨t1, h1, k1⟩ := writeA_def (h.accA hb.2.2.1) hroot g
    obtain ⟨t2, h2, k2⟩ := bevals_def (s := s) (pre := fun _ _ _ s => do
          let g ← s.readA w.adj w.size
          some (s, some g)) (post := fun _ _ _ _ s => some s) es
      (fun i e he t h => by
        obtain ⟨a, ha⟩ := readA_def (h.accA hb.2.2.1)
        exact ⟨t, some a, by simp [ha], h⟩)
      (fun s0 i e he t h => ⟨t, rfl, h⟩) (fun e he => ih e he (WFs.mem hwf.1 e he) s (WBs.mem hb.1 e he) (InMs.mem hin e he)) 0 t1 (h.trans k1)
    refine ⟨t2, ?_, k2⟩
    simp only [Expr.beval, if_neg h0, h1, Option.bind_eq_bind, Option.bind_some]
    exact h2
  | prodIter es w ih =>
    intro hwf s hb hm g t h
    have hin : es.InMs MV MA := ⟨fun a ha => hm.val (Or.inl ha), fun a ha => hm.adj (Or.inl ha), hm.var⟩
    have hroot : rng w.adj w.size ⊆ MA := fun a ha => hm.adj (Or.inr ha)
    have hrootV : rng w.val w.size ⊆ MV := fun a ha => hm.val (Or.inr ha)
    by_cases h0 : es.length = 0
    · exact ⟨t, by simp only [Expr.beval, if_pos h0], h⟩
    have hel : ∀ e ∈ es.toList, ∀ t, Fr MV MA s t → ∃ x, e.getRef.read t e.shape.size = some x := fun e he t h =>
      getRef_def (WFs.mem hwf.1 e he) (h.wb (WBs.mem hb.1 e he)) (hwf.2.2 e he).2
    obtain ⟨t1, h1, k1⟩ := writeA_def (h.accA hb.2.2.1) hroot g
    obtain ⟨t2, h2, k2⟩ := bevals_def (s := s) (pre := prodIterPre es.getRefs w)
      (post := fun s0 _ r sh s => prodIterPost w (prodIterZero w r sh s0) r sh s) es
      (fun i e he t h => by
        obtain ⟨x, hx⟩ := hel e he t h
        obtain ⟨a, ha⟩ := readA_def (h.accA hb.2.2.1)
        simp only [prodIterPre, hx, ha, Option.bind_eq_bind, Option.bind_some]
        split
        · obtain ⟨xs, hxs⟩ := readAll_def hwf.1 (h.wbs hb.1) fun e he => (hwf.2.2 e he).2
          obtain ⟨t3, h3, k3⟩ := writeV_def (h.accV hb.2.1) hrootV (fun k => ((xs.zipIdx).foldl (fun acc p => if p.2 = i then acc else acc * p.1.2 k) 1))
          obtain ⟨f, hf⟩ := readCells_def (heap := t3.val) (k3.accV (h.accV hb.2.1))
          exact ⟨t3, some fun k => a k * f k, by simp only [hxs, h3, hf, Option.bind_some], h.trans k3⟩
        · obtain ⟨f, hf⟩ := readCells_def (heap := t.val) (h.accV hb.2.1)
          exact ⟨t, some fun k => a k * f k / x k, by simp only [hf, Option.bind_some], h⟩)
      (fun s0 i e he t h => by
        simp only [prodIterPost]
        split
        · obtain ⟨x, hx⟩ := hel e he t h
          obtain ⟨f, hf⟩ := readCells_def (heap := t.val) (h.accV hb.2.1)
          obtain ⟨t3, h3, k3⟩ := writeV_def (h.accV hb.2.1) hrootV (fun k => f k * x k)
          exact ⟨t3, by simp only [hx, hf, h3, Option.bind_eq_bind, Option.bind_some], h.trans k3⟩
        · exact ⟨t, rfl, h⟩) (fun e he => ih e he (WFs.mem hwf.1 e he) s (WBs.mem hb.1 e he) (InMs.mem hin e he)) 0 t1 (h.trans k1)
    refine ⟨t2, ?_, k2⟩
    simp only [Expr.beval, if_neg h0, h1, Option.bind_eq_bind, Option.bind_some]
    exact h2
  | reduce op es w ih =>
    intro hwf s hb hm g t h
    have hin : es.InMs MV MA := ⟨fun a ha => hm.val (Or.inl ha), fun a ha => hm.adj (Or.inl ha), hm.var⟩
    have hif : ∀ e ∈ es.toList, e.isIf = true → op.usesX = false := by
      intro e he hi
      rcases hwf.2.2 with ⟨e', rfl, -, h2⟩ | ⟨o, k, rfl, n, -, -, -, h4, -⟩
      · simp only [Exprs.toList, List.mem_singleton] at he
        rw [he] at hi; exact h2 hi
      · rw [h4 e he] at hi; cases hi
    obtain ⟨t2, h2, k2⟩ := bevals_def (s := s) (pre := fun i _ _ s => do
        let args ← readOperands op s es.getRefs
        let f ← readCells s.val s.vok w.val w.size
        some (s, op.bmap (g 0) args (f 0) i)) (post := fun _ _ _ _ s => some s) es
      (fun i e he t h => by
        obtain ⟨xs, hxs⟩ := readOperands_def hwf.1 (h.wbs hb.1) hif
        obtain ⟨f, hf⟩ := readCells_def (heap := t.val) (h.accV hb.2.1)
        exact ⟨t, _, by simp only [hxs, hf, Option.bind_eq_bind, Option.bind_some]; rfl, h⟩)
      (fun s0 i e he t h => ⟨t, rfl, h⟩) (fun e he => ih e he (WFs.mem hwf.1 e he) s (WBs.mem hb.1 e he) (InMs.mem hin e he)) 0 t h
    refine ⟨t2, ?_, k2⟩
    simp only [Expr.beval]
    exact h2
  | ifElse c a b w ihc iha ihb =>
    intro hwf s hb hm g t h
    have hina : a.InM MV MA := ⟨fun x hx => hm.val (Or.inl (Or.inr (Or.inl hx))), fun x hx => hm.adj (Or.inl (Or.inr (Or.inl hx))), fun x hx => hm.var (Or.inr (Or.inl hx))⟩
    have hinb : b.InM MV MA := ⟨fun x hx => hm.val (Or.inl (Or.inr (Or.inr hx))), fun x hx => hm.adj (Or.inl (Or.inr (Or.inr hx))), fun x hx => hm.var (Or.inr (Or.inr hx))⟩
    obtain ⟨x, hx⟩ := getRef_def hwf.1 (h.wb hb.1) hwf.2.2.2.2.1
    have hs : c.size = 1 := hwf.1.shapeOk.size_scl (by simp [Shape.isScl, hwf.2.2.2.1])
    rw [hs] at hx
    by_cases hc : toBool (x 0) = true
    · obtain ⟨t1, h1, k1⟩ := iha hwf.2.1 s hb.2.1 hina g t h
      exact ⟨t1, by simp only [Expr.beval, hx, Option.bind_eq_bind, Option.bind_some, if_pos hc, h1], k1⟩
    · obtain ⟨t1, h1, k1⟩ := ihb hwf.2.2.1 s hb.2.2.1 hinb g t h
      exact ⟨t1, by simp only [Expr.beval, hx, Option.bind_eq_bind, Option.bind_some, if_neg hc, h1], k1⟩
  | eq | opEq | glue | forEach => intro h; exact h.elim

/-- the same for statements -/
theorem stmt_def {x : Expr α} {BV BA : Set ℕ} {s : St α} (h : StmtB s.vok s.aok BV BA x) (hV : BV ∪ x.tgt ⊆ MV) (hA : BA ∪ x.mentA ⊆ MA) : x.Runs MV MA s := by
  by_cases hs : x.isStmt = false
  · obtain ⟨hp, -, -⟩ := h.pure hs
    have hment : x.mentA = x.readsA := by cases x <;> first | rfl | simp [Expr.isStmt] at hs
    exact beval_def x hp.wf s hp.wb ⟨fun a ha => hV (Or.inl (hp.ownV ha)), fun a ha => hA (Or.inl (hp.ownA ha)), fun a ha => hA (Or.inr (hment ▸ ha))⟩
  cases x with
  | eq v e w =>
    have h : EqB s.vok s.aok BV BA v e w := h
    have hvA : rng v.adj v.size ⊆ MA := fun a ha => hA (Or.inr (Or.inr ha))
    have hin : e.InM MV MA := by
      refine ⟨?_, ?_, fun a ha => hA (Or.inr (Or.inl ha))⟩
      · rintro a (ha | ha)
        · exact hV (Or.inl (h.inV ha))
        · rcases h.root with ⟨h1, -⟩ | ⟨-, -, -, h1, -⟩
          · rw [h1] at ha; exact ha.elim
          · exact hV (Or.inr (h1 ha))
      · rintro a (ha | ha)
        · exact hA (Or.inl (h.inA ha))
        · rcases h.root with ⟨-, h1⟩ | ⟨-, -, -, -, h1⟩
          · rw [h1] at ha; exact ha.elim
          · exact hvA (h1 ha)
    intro g t k
    obtain ⟨t1, h1, k1⟩ := bevalVar_def (MV := MV) (k.accA h.accA) hvA g
    obtain ⟨a, ha⟩ := readA_def ((k.trans k1).accA h.accA)
    obtain ⟨t2, h2, k2⟩ := beval_def e h.wf s h.wb hin a t1 (k.trans k1)
    exact ⟨t2, by simp only [Expr.beval, h1, ha, h2, Option.bind_eq_bind, Option.bind_some], k2⟩
  | opEq op v e w c =>
    have h : OpB s.vok s.aok BV BA v e w c := h
    have hvA : rng v.adj v.size ⊆ MA := fun a ha => hA (Or.inr (Or.inr ha))
    have hin : e.InM MV MA := ⟨fun a ha => hV (Or.inl (h.pure.ownV ha)), fun a ha => hA (Or.inl (h.pure.ownA ha)), fun a ha => hA (Or.inr (Or.inl ha))⟩
    intro g t k
    have hcv : c.size = v.size := by rw [View.size, View.size, h.cshape]
    obtain ⟨t1, h1, k1⟩ := bevalVar_def (MV := MV) (k.accA h.accA) hvA g
    have k1 := k.trans k1
    obtain ⟨x0, hx0⟩ := readCells_def (heap := t1.val) (k1.accV h.caccV)
    have hcl : noClash v.val v.size (Ref.ptr c.val : Ref α) c.size := noClash_ptr ((h.dV.mono_left h.cV).symm)
    obtain ⟨t2, h2, k2⟩ := writeV_def (MA := MA) (k1.accV h.accV) (fun a ha => hV (Or.inr ha)) x0
    have k2 := k1.trans k2
    have h2 : t1.assignV v.val v.size (.ptr c.val) c.size x0 = some t2 := by rw [St.assignV, if_pos hcl, h2]
    obtain ⟨g0, hg0⟩ := readA_def (k2.accA h.accA)
    obtain ⟨t3, h3, k3⟩ := writeA_def (MV := MV) (k2.accA h.caccA) (fun a ha => hA (Or.inl (h.cA ha))) g0
    have k3 := k2.trans k3
    obtain ⟨t4, h4, k4⟩ := writeA_def (MV := MV) (k3.accA h.accA) hvA (fun _ => (0 : α))
    have k4 := k3.trans k4
    obtain ⟨x, hx⟩ := readCells_def (heap := t4.val) (k4.accV h.accV)
    obtain ⟨y, hy⟩ := getRef_def h.pure.wf (k4.wb h.pure.wb) h.notIf
    obtain ⟨a, ha⟩ := readA_def (k4.accA h.caccA)
    obtain ⟨t5, h5, k5⟩ := beval_def e h.pure.wf s h.pure.wb hin (collapse e.shape v.shape v.size (fun k => op.br (a k) (x k) (bcast e.shape y k))) t4 k4
    by_cases hv : v.shape.isScl = true
    · obtain ⟨t6, h6, k6⟩ := bevalVar_def (MV := MV) (k5.accA h.accA) hvA (fun k => op.bl (a k) (x k) (bcast e.shape y k))
      exact ⟨t6, by simp only [Expr.beval, h1, hx0, h2, hg0, h3, h4, hx, hy, ha, h5, if_pos hv, h6, Option.bind_eq_bind, Option.bind_some], k5.trans k6⟩
    · obtain ⟨x', hx'⟩ := readCells_def (heap := t5.val) (k5.accV h.accV)
      obtain ⟨y', hy'⟩ := getRef_def h.pure.wf (k5.wb h.pure.wb) h.notIf
      obtain ⟨a', ha'⟩ := readA_def (k5.accA h.caccA)
      obtain ⟨t6, h6, k6⟩ := bevalVar_def (MV := MV) (k5.accA h.accA) hvA (fun k => op.bl (a' k) (x' k) (bcast e.shape y' k))
      exact ⟨t6, by simp only [Expr.beval, h1, hx0, h2, hg0, h3, h4, hx, hy, ha, h5, if_neg hv, hx', hy', ha', h6, Option.bind_eq_bind, Option.bind_some], k5.trans k6⟩
  | _ => simp [Expr.isStmt] at hs

theorem strip_mentA {x : Expr α} : x.strip.mentA = x.mentA := by
  cases x with
  | eq v e w => simp only [Expr.strip, Expr.mentA, strip_readsA]
  | opEq op v e w c => simp only [Expr.strip, Expr.mentA, strip_readsA]
  | _ => exact strip_readsA _

theorem SameL.mentA_ex {L' L : List (Expr α)} (h : SameL L' L) {a : ℕ} (ha : ∃ x ∈ L', a ∈ x.mentA) : ∃ x ∈ L, a ∈ x.mentA := by
  induction h with
  | nil => obtain ⟨x, hx, _⟩ := ha; simp at hx
  | cons h1 _ ih =>
    obtain ⟨x, hx, h⟩ := ha
    rcases List.mem_cons.1 hx with rfl | hx
    · exact ⟨_, List.mem_cons_self, by rwa [← strip_mentA, ← h1.2, strip_mentA]⟩
    · obtain ⟨y, hy, h⟩ := ih ⟨x, hx, h⟩
      exact ⟨y, by simp [hy], h⟩

/-- the backward pass of a bound sequence of statements is defined -/
theorem EvalB.beval_def {p b : Expr α} {BV BA : Set ℕ} {s : St α} (h : EvalB p b BV BA s.vok s.aok) (seed : ℕ → α) :
    ∃ s', b.beval seed s = some s' ∧ Fr (BV ∪ tgts p.flat) (BA ∪ {a | ∃ x ∈ p.flat, a ∈ x.mentA}) s s' := by
  rw [beval_tree b h.tree]
  have key : ∀ (MV MA : Set ℕ) (L : List (Expr α)), (∀ x ∈ L, StmtB s.vok s.aok BV BA x) → (∀ x ∈ L, BV ∪ x.tgt ⊆ MV) → (∀ x ∈ L, BA ∪ x.mentA ⊆ MA) →
      ∀ g t, Fr MV MA s t → ∃ t', bevalL L g t = some t' ∧ Fr MV MA s t' := by
    intro MV MA L
    induction L with
    | nil => intro _ _ _ g t k; exact ⟨t, rfl, k⟩
    | cons x xs ih =>
      intro hL hV hA g t k
      obtain ⟨t1, h1, k1⟩ := ih (fun y hy => hL y (by simp [hy])) (fun y hy => hV y (by simp [hy])) (fun y hy => hA y (by simp [hy])) g t k
      obtain ⟨t2, h2, k2⟩ := stmt_def (hL x (by simp)) (hV x (by simp)) (hA x (by simp)) (if xs.isEmpty then g else fun _ => 0) t1 k1
      exact ⟨t2, by simp only [bevalL, h1]; exact h2, k2⟩
  refine key _ _ b.flat h.seq.stmt (fun x hx => Set.union_subset_union_right _ fun a ha => ?_) (fun x hx => Set.union_subset_union_right _ fun a ha => ?_) seed s (Fr.refl s)
  · rw [← h.same.tgts]; exact ⟨x, hx, ha⟩
  · exact SameL.mentA_ex h.same ⟨x, hx, ha⟩

/-- all cells a sequence of statements mentions -/
def Expr.seen (p : Expr α) : Set ℕ := ↑(p.valCells ∪ p.constCells)

theorem needOk_all {K : Set ℕ} {L : List (Expr α)} (h : ∀ x ∈ L, x.need ⊆ K) : NeedOk K L := by
  induction L generalizing K with
  | nil => trivial
  | cons x xs ih => exact ⟨h x (by simp), ih fun y hy => (h y (by simp [hy])).trans Set.subset_union_left⟩

theorem seen_ment {p : Expr α} (ht : p.WFTree) : ∀ x ∈ p.flat, x.ment ⊆ p.seen := by
  obtain ⟨f1, -, -⟩ := flat_spec p ht
  intro x hx a ha
  refine Finset.mem_coe.2 (Finset.mem_union.2 ?_)
  rcases ment_cells (x := x) a ha with h | h
  · obtain ⟨u, hu, h⟩ := mem_valCells.1 h
    exact Or.inl (mem_valCells.2 ⟨u, (f1 x hx).2.1 u hu, h⟩)
  · obtain ⟨u, hu, h⟩ := mem_constCells.1 h
    exact Or.inr (mem_constCells.2 ⟨u, (f1 x hx).2.2 u hu, h⟩)

theorem seen_needOk {p : Expr α} (ht : p.WFTree) : NeedOk p.seen p.flat :=
  needOk_all fun x hx _ ha => seen_ment ht x hx (by rw [Expr.ment_eq]; exact Or.inl ha)

theorem seen_block {p : Expr α} {s : St α} {qv qa : ℕ} (hal : p.Alive s.vok s.aok) (hf : Fresh s p.bindSize qv qa) : Disjoint p.seen (blockV qv p.bindSize) := by
  refine Set.disjoint_left.2 fun a ha => notin_blockV hf ?_
  rcases Finset.mem_union.1 (Finset.mem_coe.1 ha) with h | h
  · exact valCells_alive hal a h
  · exact constCells_aliveG hal a h

theorem tgts_seen {p : Expr α} (ht : p.WFTree) {a : ℕ} (ha : a ∈ tgts p.flat) : a ∈ p.seen := by
  obtain ⟨x, hx, h⟩ := ha
  refine seen_ment ht x hx ?_
  cases x with
  | eq v e w => exact Or.inr h
  | opEq op v e w c => exact Or.inr h
  | _ => exact h.elim

theorem tgts_target {p : Expr α} {a : ℕ} (ha : a ∈ tgts p.flat) : a ∈ p.targetCells := by
  simp only [Expr.targetCells, List.mem_toFinset, List.mem_flatMap, List.mem_filterMap, mem_cells]
  obtain ⟨x, hx, h⟩ := ha
  cases x with
  | eq v e w => exact ⟨v, ⟨_, hx, rfl⟩, h⟩
  | opEq op v e w c => exact ⟨v, ⟨_, hx, rfl⟩, h⟩
  | _ => exact h.elim

theorem mentA_adj {p : Expr α} (ht : p.WFTree) {x : Expr α} (hx : x ∈ p.flat) {a : ℕ} (ha : a ∈ x.mentA) : a ∈ p.adjCells := by
  obtain ⟨f1, -, -⟩ := flat_spec p ht
  obtain ⟨u, hu, h⟩ := mem_adjCells.1 (mentA_cells a ha)
  exact mem_adjCells.2 ⟨u, (f1 x hx).2.1 u hu, h⟩

theorem later_eval {p : Expr α} {s s1 : St α} {qv qa : ℕ} {jv ja : ℕ → α} (ht : p.WFTree) (hne : p.flat ≠ []) (hal : p.Alive s.vok s.aok)
    (hf : Fresh s p.bindSize qv qa) (hl : Later (bindExpr p qv qa jv ja s).2 s1) :
    EvalB p (bindExpr p qv qa jv ja s).1 (blockV qv p.bindSize) (blockA qa p.bindSize) s1.vok s1.aok :=
  (bindExpr_eval ht hne hal hf).mono hl.1 hl.2

end FastAD
