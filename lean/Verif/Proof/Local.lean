import Verif.Proof.Defined

/-!
# Evaluation depends on and changes the cells of its footprint only
-/

namespace FastAD

variable {α : Type} [Zero α] [One α] [Add α] [Sub α] [Neg α] [Mul α] [Div α] [NatCast α] [IntCast α]
variable [Fn α] [HasInf α] [LinAlg α]
set_option linter.unusedSectionVars false

/-- the same contents of the value cells `RV` and the adjoint cells `FA`, and the same allocated cells -/
structure Agree (RV FA : Set ℕ) (s t : St α) : Prop where
  val : ∀ a ∈ RV, s.val a = t.val a
  adj : ∀ a ∈ FA, s.adj a = t.adj a
  vok : s.vok = t.vok
  aok : s.aok = t.aok

/-- outcomes of a computation: a state and a result -/
class Out (α : outParam Type) (γ : Type) (β : outParam Type) where
  st : γ → St α
  res : γ → β

instance : Out α (St α) Unit := ⟨fun s => s, fun _ => ()⟩
instance {β : Type} : Out α (St α × β) β := ⟨Prod.fst, Prod.snd⟩

variable {RV WV FA : Set ℕ} {β γ δ : Type}

/-- The computation reads value cells `RV` only, writes value cells `WV` only, reads and writes adjoint cells `FA` only, and its results satisfy `P`. -/
structure Loc (RV WV FA : Set ℕ) [Out α γ β] (P : β → Prop) (c : St α → Option γ) : Prop where
  frame : ∀ s x, c s = some x → Fr WV FA s (Out.st x) ∧ P (Out.res x)
  agree : ∀ s t, Agree RV FA s t → (c s = none ∧ c t = none) ∨
    ∃ x y, c s = some x ∧ c t = some y ∧ Agree RV FA (Out.st x) (Out.st y) ∧ Out.res x = Out.res y

/-- no condition on results -/
def Any (_ : β) : Prop := True

/-- a function of the contents of the cells -/
def Rd (RV FA : Set ℕ) (rd : St α → δ) : Prop := ∀ s t, Agree RV FA s t → rd s = rd t

/-- the cells a reference refers to -/
def RefIn (RV : Set ℕ) (r : Ref α) (n : ℕ) : Prop :=
  match r with
  | .ptr p => rng p n ⊆ RV
  | .lit _ => True

section
variable [Out α γ β] {P : β → Prop}

theorem Loc.congr {c c' : St α → Option γ} (h : ∀ s, c s = c' s) (hc : Loc RV WV FA P c') : Loc RV WV FA P c := by
  rw [funext h]; exact hc

theorem Loc.mono {P' : β → Prop} {c : St α → Option γ} (hc : Loc RV WV FA P c) (h : ∀ b, P b → P' b) : Loc RV WV FA P' c :=
  ⟨fun s x hx => ⟨(hc.frame s x hx).1, h _ (hc.frame s x hx).2⟩, hc.agree⟩

theorem Loc.any {c : St α → Option γ} (hc : Loc RV WV FA P c) : Loc RV WV FA Any c := hc.mono fun _ _ => trivial

theorem Loc.fail : Loc RV WV FA P (fun _ => (none : Option γ)) :=
  ⟨fun _ _ h => (Option.some_ne_none _ h.symm).elim, fun _ _ _ => Or.inl ⟨rfl, rfl⟩⟩

theorem Loc.read {rd : St α → Option δ} {k : δ → St α → Option γ} (h : Rd RV FA rd) (hk : ∀ x, Loc RV WV FA P (k x)) :
    Loc RV WV FA P (fun s => (rd s).bind fun x => k x s) := by
  constructor
  · intro s x hx
    obtain ⟨y, -, hx⟩ := Option.bind_eq_some_iff.1 hx
    exact (hk y).frame s x hx
  · intro s t hst
    rw [h s t hst]
    cases rd t with
    | none => exact Or.inl ⟨rfl, rfl⟩
    | some y => exact (hk y).agree s t hst

/-- a continuation that depends on the state in another way -/
theorem Loc.bindD {c : St α → Option (St α)} {k : St α → St α → Option γ} (hc : Loc RV WV FA Any c) (h1 : ∀ s0 t0, Agree RV FA s0 t0 → k s0 = k t0)
    (hk : ∀ s0, Loc RV WV FA P (k s0)) : Loc RV WV FA P (fun s => (c s).bind fun s0 => k s0 s0) := by
  constructor
  · intro s x hx
    obtain ⟨s1, h, hx⟩ := Option.bind_eq_some_iff.1 hx
    exact ⟨(hc.frame s s1 h).1.trans ((hk s1).frame s1 x hx).1, ((hk s1).frame s1 x hx).2⟩
  · intro s t hst
    rcases hc.agree s t hst with ⟨h1, h2⟩ | ⟨s', t', h2, h3, h4, -⟩
    · exact Or.inl ⟨by simp only [h1, Option.bind_none], by simp only [h2, Option.bind_none]⟩
    · simp only [h2, h3, Option.bind_some]
      rw [h1 s' t' h4]
      exact (hk t').agree s' t' h4

theorem Loc.bindS {c : St α → Option (St α)} {k : St α → Option γ} (hc : Loc RV WV FA Any c) (hk : Loc RV WV FA P k) :
    Loc RV WV FA P (fun s => (c s).bind k) :=
  Loc.bindD (k := fun _ => k) hc (fun _ _ _ => rfl) fun _ => hk

theorem Loc.bindP {Q : δ → Prop} {c : St α → Option (St α × δ)} {f : St α × δ → Option γ} (hc : Loc RV WV FA Q c)
    (hk : ∀ b, Q b → Loc RV WV FA P (fun s => f (s, b))) : Loc RV WV FA P (fun s => (c s).bind f) := by
  constructor
  · intro s x hx
    obtain ⟨⟨s1, b⟩, h, hx⟩ := Option.bind_eq_some_iff.1 hx
    obtain ⟨h1, h2⟩ := hc.frame s _ h
    exact ⟨h1.trans ((hk b h2).frame s1 x hx).1, ((hk b h2).frame s1 x hx).2⟩
  · intro s t hst
    rcases hc.agree s t hst with ⟨h1, h2⟩ | ⟨⟨s', b⟩, ⟨t', b'⟩, h2, h3, h4, h5⟩
    · exact Or.inl ⟨by simp only [h1, Option.bind_none], by simp only [h2, Option.bind_none]⟩
    · simp only [h2, h3, Option.bind_some]
      obtain rfl : b = b' := h5
      exact (hk b (hc.frame s _ h2).2).agree s' t' h4

end

theorem Loc.ret {P : δ → Prop} {r : δ} (h : P r) : Loc RV WV FA P (fun s : St α => some (s, r)) :=
  ⟨fun s x hx => by cases hx; exact ⟨Fr.refl s, h⟩, fun s t hst => Or.inr ⟨_, _, rfl, rfl, hst, rfl⟩⟩

theorem Loc.retS : Loc RV WV FA Any (fun s : St α => some s) :=
  ⟨fun s x hx => by cases hx; exact ⟨Fr.refl s, trivial⟩, fun s t hst => Or.inr ⟨_, _, rfl, rfl, hst, rfl⟩⟩

theorem Rd.cells {heap : St α → ℕ → α} {ok : St α → ℕ → Bool} {R : Set ℕ} (h1 : ∀ s t, Agree RV FA s t → (∀ a ∈ R, heap s a = heap t a) ∧ ok s = ok t)
    {p : Option ℕ} {n : ℕ} (h : rng p n ⊆ R) : Rd RV FA (fun s : St α => readCells (heap s) (ok s) p n) := by
  intro s t hst
  obtain ⟨h2, h3⟩ := h1 s t hst
  simp only [readCells, h3]
  split
  · congr 1
    funext k
    simp only [trunc]
    split
    · exact h2 _ (h (add_mem_rng ‹_›))
    · rfl
  · rfl

theorem Rd.val {p : Option ℕ} {n : ℕ} (h : rng p n ⊆ RV) : Rd RV FA (fun s : St α => readCells s.val s.vok p n) :=
  Rd.cells (fun _ _ hst => ⟨hst.val, hst.vok⟩) h

theorem Rd.adj {p : Option ℕ} {n : ℕ} (h : rng p n ⊆ FA) : Rd RV FA (fun s : St α => s.readA p n) :=
  Rd.cells (R := FA) (fun _ _ hst => ⟨hst.adj, hst.aok⟩) h

theorem Rd.ref {r : Ref α} {n : ℕ} (h : RefIn RV r n) : Rd RV FA (fun s : St α => r.read s n) := by
  cases r with
  | ptr p => exact Rd.val h
  | lit f => intro s t _; rfl

theorem Rd.refIf {b : Bool} {r : Ref α} {n : ℕ} (h : b = true → RefIn RV r n) : Rd RV FA (fun s : St α => readIf b r s n) := by
  cases b with
  | true => exact Rd.ref (h rfl)
  | false => intro s t _; rfl

theorem fill_agree {f g : ℕ → α} {p : Option ℕ} {n : ℕ} {h : ℕ → α} {R : Set ℕ} (hfg : ∀ a ∈ R, f a = g a) : ∀ a ∈ R, fillRange f (addr p) n h a = fillRange g (addr p) n h a := by
  intro a ha
  simp only [fillRange]
  split
  · rfl
  · exact hfg a ha

theorem Loc.writeV {p : Option ℕ} {n : ℕ} (h : rng p n ⊆ WV) (f : ℕ → α) : Loc RV WV FA Any (fun s : St α => s.writeV p n f) := by
  constructor
  · intro s x hx
    simp only [St.writeV] at hx
    split at hx
    · cases hx
      exact ⟨⟨⟨rfl, rfl⟩, fun a ha => fillRange_not_mem fun h' => ha (h h'), fun _ _ => rfl⟩, trivial⟩
    · cases hx
  · intro s t hst
    simp only [St.writeV, hst.vok]
    split
    · exact Or.inr ⟨_, _, rfl, rfl, ⟨fill_agree hst.val, hst.adj, rfl, hst.aok⟩, trivial⟩
    · exact Or.inl ⟨rfl, rfl⟩

theorem Loc.writeA {p : Option ℕ} {n : ℕ} (h : rng p n ⊆ FA) (f : ℕ → α) : Loc RV WV FA Any (fun s : St α => s.writeA p n f) := by
  constructor
  · intro s x hx
    simp only [St.writeA] at hx
    split at hx
    · cases hx
      exact ⟨⟨⟨rfl, rfl⟩, fun _ _ => rfl, fun a ha => fillRange_not_mem fun h' => ha (h h')⟩, trivial⟩
    · cases hx
  · intro s t hst
    simp only [St.writeA, hst.aok]
    split
    · exact Or.inr ⟨_, _, rfl, rfl, ⟨hst.val, fill_agree hst.adj, hst.vok, rfl⟩, trivial⟩
    · exact Or.inl ⟨rfl, rfl⟩

theorem Loc.assignV {p : Option ℕ} {n m : ℕ} {r : Ref α} (h : rng p n ⊆ WV) (f : ℕ → α) : Loc RV WV FA Any (fun s : St α => s.assignV p n r m f) := by
  by_cases hc : noClash p n r m
  · exact Loc.congr (fun s => by rw [St.assignV, if_pos hc]) (Loc.writeV h f)
  · exact Loc.congr (fun s => by rw [St.assignV, if_neg hc]) Loc.fail

theorem Loc.bevalVar {v : View} (h : rng v.adj v.size ⊆ FA) (g : ℕ → α) : Loc RV WV FA Any (fun s : St α => v.bevalVar g s) :=
  Loc.congr (fun s => by simp only [View.bevalVar, Option.bind_eq_bind]; rfl) (Loc.read (Rd.adj h) fun _ => Loc.writeA h _)

/-! ### Lists -/

theorem Rd.all {rs : List (Ref α × Shape)} (h : ∀ r ∈ rs, RefIn RV r.1 r.2.size) : Rd RV FA (fun s : St α => readAll s rs) := by
  intro s t hst
  induction rs with
  | nil => rfl
  | cons r rs ih =>
    obtain ⟨r, sh⟩ := r
    have h1 : r.read s sh.size = r.read t sh.size := Rd.ref (h (r, sh) (by simp)) s t hst
    have h2 : readAll s rs = readAll t rs := ih fun x hx => h x (by simp [hx])
    simp only [readAll, h1, h2]

theorem Rd.operands {op : RedOp} {rs : List (Ref α × Shape)} (h : ∀ r ∈ rs, op.usesX = true → RefIn RV r.1 r.2.size) :
    Rd RV FA (fun s : St α => readOperands op s rs) := by
  intro s t hst
  induction rs with
  | nil => rfl
  | cons r rs ih =>
    obtain ⟨r, sh⟩ := r
    have h1 : readIf op.usesX r s sh.size = readIf op.usesX r t sh.size := Rd.refIf (h (r, sh) (by simp)) s t hst
    have h2 : readOperands op s rs = readOperands op t rs := ih fun x hx => h x (by simp [hx])
    simp only [readOperands, h1, h2]

theorem fevals_loc {k : St α → Ref α → Shape → Option (St α)} (es : Exprs α) (ih : ∀ e ∈ es.toList, Loc RV WV FA (fun r => RefIn RV r e.size) e.feval)
    (hk : ∀ e ∈ es.toList, ∀ r, RefIn RV r e.size → Loc RV WV FA Any (fun s => k s r e.shape)) :
    Loc RV WV FA (fun rs => ∀ r ∈ rs, RefIn RV r.1 r.2.size) (es.fevals k) := by
  induction es using Exprs.rec (motive_1 := fun _ => True) with
  | nil => exact Loc.congr (fun s => by rw [Exprs.fevals]) (Loc.ret (fun r hr => by simp at hr))
  | cons e es _ ihs =>
    refine Loc.congr (fun s => by simp only [Exprs.fevals, Option.bind_eq_bind]; rfl) ?_
    refine Loc.bindP (ih e (by simp [Exprs.toList])) fun r hr => ?_
    dsimp only
    refine Loc.bindS (hk e (by simp [Exprs.toList]) r hr) ?_
    refine Loc.bindP (ihs (fun x hx => ih x (by simp [Exprs.toList, hx])) fun x hx => hk x (by simp [Exprs.toList, hx])) fun rs hrs => ?_
    dsimp only
    refine Loc.ret (α := α) (P := fun rs : List (Ref α × Shape) => ∀ r ∈ rs, RefIn RV r.1 r.2.size) fun x hx => ?_
    rcases List.mem_cons.1 hx with rfl | hx
    · exact hr
    · exact hrs x hx
  | _ => trivial

theorem bevals_loc {pre : ℕ → Ref α → Shape → St α → Option (St α × Option (ℕ → α))} {post : St α → ℕ → Ref α → Shape → St α → Option (St α)} (es : Exprs α)
    (hpre : ∀ i, ∀ e ∈ es.toList, Loc RV WV FA Any (pre i e.getRef e.shape)) (hpost : ∀ s0 i, ∀ e ∈ es.toList, Loc RV WV FA Any (post s0 i e.getRef e.shape))
    (hdep : ∀ s0 t0, Agree RV FA s0 t0 → ∀ i, ∀ e ∈ es.toList, post s0 i e.getRef e.shape = post t0 i e.getRef e.shape)
    (ih : ∀ e ∈ es.toList, ∀ g, Loc RV WV FA Any (e.beval g)) : ∀ i, Loc RV WV FA Any (es.bevals pre post i) := by
  induction es using Exprs.rec (motive_1 := fun _ => True) with
  | nil => intro i; exact Loc.congr (fun s => by rw [Exprs.bevals]) Loc.retS
  | cons e es _ ihs =>
    intro i
    have he : e ∈ (Exprs.cons e es).toList := by simp [Exprs.toList]
    refine Loc.congr (fun s => by simp only [Exprs.bevals, Option.bind_eq_bind]; rfl) ?_
    refine Loc.bindD (k := fun s0 s => (pre i e.getRef e.shape s).bind fun x =>
        (match x.2 with | some g => e.beval g x.1 | none => some x.1).bind fun s => post s0 i e.getRef e.shape s)
      (ihs (fun i x hx => hpre i x (by simp [Exprs.toList, hx])) (fun s0 i x hx => hpost s0 i x (by simp [Exprs.toList, hx]))
        (fun s0 t0 h i x hx => hdep s0 t0 h i x (by simp [Exprs.toList, hx])) (fun x hx => ih x (by simp [Exprs.toList, hx])) (i + 1)) ?_ ?_
    · intro s0 t0 h
      simp only [hdep s0 t0 h i e he]
    · intro s0
      refine Loc.bindP (hpre i e he) fun g _ => ?_
      dsimp only
      cases g with
      | none => exact hpost s0 i e he
      | some g => exact Loc.bindS (ih e he g) (hpost s0 i e he)
  | _ => trivial

/-! ### Pure expressions -/

/-- the footprint of an expression -/
structure Expr.Foot (RV WV FA : Set ℕ) (e : Expr α) : Prop where
  own : e.ownV ⊆ WV
  reads : e.reads ⊆ RV
  adj : e.ownA ⊆ FA
  var : e.readsA ⊆ FA

/-- the same for a list -/
structure Exprs.Foots (RV WV FA : Set ℕ) (es : Exprs α) : Prop where
  own : es.ownVs ⊆ WV
  reads : es.readss ⊆ RV
  adj : es.ownAs ⊆ FA
  var : es.readsAs ⊆ FA

theorem Foots.mem {es : Exprs α} (h : es.Foots RV WV FA) : ∀ e ∈ es.toList, e.Foot RV WV FA := by
  induction es using Exprs.rec (motive_1 := fun _ => True) with
  | nil => intro e he; simp [Exprs.toList] at he
  | cons e es _ ih =>
    intro x hx
    simp only [Exprs.toList, List.mem_cons] at hx
    rcases hx with rfl | hx
    · exact ⟨fun a ha => h.own (Or.inl ha), fun a ha => h.reads (Or.inl ha), fun a ha => h.adj (Or.inl ha), fun a ha => h.var (Or.inl ha)⟩
    · exact ih ⟨fun a ha => h.own (Or.inr ha), fun a ha => h.reads (Or.inr ha), fun a ha => h.adj (Or.inr ha), fun a ha => h.var (Or.inr ha)⟩ x hx
  | _ => trivial

/-- `get()` of a node other than `if_else` refers to a cell of its footprint -/
theorem getRef_in {e : Expr α} (hwf : e.WF) (hif : e.isIf = false) (hWR : WV ⊆ RV) (hf : e.Foot RV WV FA) : RefIn RV e.getRef e.size := by
  cases e with
  | const => trivial
  | ifElse => simp [Expr.isIf] at hif
  | eq | opEq | glue | forEach => exact hwf.elim
  | var => exact hf.reads
  | cview => exact hf.reads
  | _ => exact fun a ha => hWR (hf.own (Or.inr ha))

theorem getRefs_in {es : Exprs α} (h : ∀ e ∈ es.toList, RefIn RV e.getRef e.size) : ∀ r ∈ es.getRefs, RefIn RV r.1 r.2.size := by
  induction es using Exprs.rec (motive_1 := fun _ => True) with
  | nil => intro r hr; simp [Exprs.getRefs] at hr
  | cons e es _ ih =>
    intro r hr
    simp only [Exprs.getRefs, List.mem_cons] at hr
    rcases hr with rfl | hr
    · exact h e (by simp [Exprs.toList])
    · exact ih (fun x hx => h x (by simp [Exprs.toList, hx])) r hr
  | _ => trivial

theorem back_rd {e : Expr α} {b : Bool} (hWR : WV ⊆ RV) (hwf : e.WF) (hif : e.isIf = true → b = false ∧ e.shape.isScl = false) (hf : e.Foot RV WV FA) :
    Rd RV FA (e.readBack b) := by
  refine Rd.refIf fun hb => getRef_in hwf ?_ hWR hf
  by_contra h
  have := hif (by simpa using h)
  simp [this.1, this.2] at hb

/-- The forward pass of a pure expression reads its variables and its own cells, and writes its own cells. -/
theorem feval_loc (hWR : WV ⊆ RV) (e : Expr α) : e.WF → e.Foot RV WV FA → Loc RV WV FA (fun r => RefIn RV r e.size) e.feval := by
  induction e using Expr.induct with
  | var v => intro _ h; exact Loc.congr (fun s => by rw [Expr.feval]) (Loc.ret (r := Ref.ptr _) h.reads)
  | const sh c => intro _ h; exact Loc.congr (fun s => by rw [Expr.feval]) (Loc.ret (r := Ref.lit _) trivial)
  | cview sh p => intro _ h; exact Loc.congr (fun s => by rw [Expr.feval]) (Loc.ret (r := Ref.ptr _) h.reads)
  | unary op e w ih =>
    intro hwf h
    have hw : rng w.val w.size ⊆ WV := fun a ha => h.own (Or.inr ha)
    refine Loc.congr (fun s => by simp only [Expr.feval, Option.bind_eq_bind]; rfl) ?_
    refine Loc.bindP (ih hwf.1 ⟨fun a ha => h.own (Or.inl ha), h.reads, fun a ha => h.adj (Or.inl ha), h.var⟩) fun r hr => ?_
    exact Loc.read (Rd.ref hr) fun x => Loc.bindS (Loc.assignV hw _) (Loc.ret (hw.trans hWR))
  | binary op l r w ihl ihr =>
    intro hwf h
    have hw : rng w.val w.size ⊆ WV := fun a ha => h.own (Or.inr ha)
    have hl := ihl hwf.1 ⟨fun a ha => h.own (Or.inl (Or.inl ha)), fun a ha => h.reads (Or.inl ha), fun a ha => h.adj (Or.inl (Or.inl ha)), fun a ha => h.var (Or.inl ha)⟩
    have hr := ihr hwf.2.1 ⟨fun a ha => h.own (Or.inl (Or.inr ha)), fun a ha => h.reads (Or.inr ha), fun a ha => h.adj (Or.inl (Or.inr ha)), fun a ha => h.var (Or.inr ha)⟩
    refine Loc.congr (fun s => by simp only [Expr.feval, Option.bind_eq_bind, if_pos hwf.2.2.2.1]; rfl) ?_
    refine Loc.bindP hl fun x hx => ?_
    dsimp only
    by_cases hn : noClash w.val w.size x l.size
    · simp only [if_pos hn]
      refine Loc.bindP hr fun y hy => ?_
      exact Loc.read (Rd.ref hx) fun _ => Loc.read (Rd.ref hy) fun _ => Loc.bindS (Loc.assignV hw _) (Loc.ret (hw.trans hWR))
    · simp only [if_neg hn]
      refine Loc.bindP hr fun y hy => ?_
      exact Loc.read (Rd.ref hx) fun _ => Loc.read (Rd.ref hy) fun _ => Loc.fail
  | pow n e w ih =>
    intro hwf h
    have hw : rng w.val w.size ⊆ WV := fun a ha => h.own (Or.inr ha)
    refine Loc.congr (fun s => by simp only [Expr.feval, Option.bind_eq_bind]; rfl) ?_
    refine Loc.bindP (ih hwf.1 ⟨fun a ha => h.own (Or.inl ha), h.reads, fun a ha => h.adj (Or.inl ha), h.var⟩) fun r hr => ?_
    exact Loc.read (Rd.ref hr) fun x => Loc.bindS (Loc.assignV hw _) (Loc.ret (hw.trans hWR))
  | prodElem e w c ih =>
    intro hwf h
    have hw : rng w.val w.size ⊆ WV := fun a ha => h.own (Or.inr ha)
    refine Loc.congr (fun s => by simp only [Expr.feval, Option.bind_eq_bind]; rfl) ?_
    refine Loc.bindP (ih hwf.1 ⟨fun a ha => h.own (Or.inl ha), h.reads, fun a ha => h.adj (Or.inl ha), h.var⟩) fun r hr => ?_
    exact Loc.read (Rd.ref hr) fun x => Loc.bindS (Loc.writeV hw _) (Loc.ret (hw.trans hWR))
  | transpose e w ih =>
    intro hwf h
    have hw : rng w.val w.size ⊆ WV := fun a ha => h.own (Or.inr ha)
    refine Loc.congr (fun s => by simp only [Expr.feval, Option.bind_eq_bind]; rfl) ?_
    refine Loc.bindP (ih hwf.1 ⟨fun a ha => h.own (Or.inl ha), h.reads, fun a ha => h.adj (Or.inl ha), h.var⟩) fun r hr => ?_
    exact Loc.read (Rd.ref hr) fun x => Loc.bindS (Loc.assignV hw _) (Loc.ret (hw.trans hWR))
  | dot l r w ihl ihr =>
    intro hwf h
    have hw : rng w.val w.size ⊆ WV := fun a ha => h.own (Or.inr ha)
    refine Loc.congr (fun s => by simp only [Expr.feval, Option.bind_eq_bind]; rfl) ?_
    refine Loc.bindP (ihl hwf.1 ⟨fun a ha => h.own (Or.inl (Or.inl ha)), fun a ha => h.reads (Or.inl ha), fun a ha => h.adj (Or.inl (Or.inl ha)), fun a ha => h.var (Or.inl ha)⟩) fun x hx => ?_
    dsimp only
    refine Loc.bindP (γ := St α × Ref α) (ihr hwf.2.1 ⟨fun a ha => h.own (Or.inl (Or.inr ha)), fun a ha => h.reads (Or.inr ha), fun a ha => h.adj (Or.inl (Or.inr ha)), fun a ha => h.var (Or.inr ha)⟩) fun y hy => ?_
    exact Loc.read (Rd.ref hx) fun _ => Loc.read (Rd.ref hy) fun _ => Loc.bindS (Loc.writeV hw _) (Loc.ret (hw.trans hWR))
  | sumIter es w ih =>
    intro hwf h
    have hw : rng w.val w.size ⊆ WV := fun a ha => h.own (Or.inr ha)
    have hfs : es.Foots RV WV FA := ⟨fun a ha => h.own (Or.inl ha), h.reads, fun a ha => h.adj (Or.inl ha), h.var⟩
    refine Loc.congr (fun s => by simp only [Expr.feval, Option.bind_eq_bind]; rfl) ?_
    refine Loc.bindS (Loc.writeV hw _) (Loc.bindP (fevals_loc es (fun e he => ih e he (WFs.mem hwf.1 e he) (Foots.mem hfs e he)) fun e he r hr => ?_) fun _ _ => Loc.ret (hw.trans hWR))
    split
    · exact Loc.read (Rd.val (hw.trans hWR)) fun _ => Loc.read (Rd.ref hr) fun _ => Loc.assignV hw _
    · exact Loc.fail
  | prodIter es w ih =>
    intro hwf h
    have hw : rng w.val w.size ⊆ WV := fun a ha => h.own (Or.inr ha)
    have hfs : es.Foots RV WV FA := ⟨fun a ha => h.own (Or.inl ha), h.reads, fun a ha => h.adj (Or.inl ha), h.var⟩
    refine Loc.congr (fun s => by simp only [Expr.feval, Option.bind_eq_bind]; rfl) ?_
    refine Loc.bindS (Loc.writeV hw _) (Loc.bindP (fevals_loc es (fun e he => ih e he (WFs.mem hwf.1 e he) (Foots.mem hfs e he)) fun e he r hr => ?_) fun _ _ => Loc.ret (hw.trans hWR))
    split
    · exact Loc.read (Rd.val (hw.trans hWR)) fun _ => Loc.read (Rd.ref hr) fun _ => Loc.assignV hw _
    · exact Loc.fail
  | reduce op es w ih =>
    intro hwf h
    have hw : rng w.val w.size ⊆ WV := fun a ha => h.own (Or.inr ha)
    have hfs : es.Foots RV WV FA := ⟨fun a ha => h.own (Or.inl ha), h.reads, fun a ha => h.adj (Or.inl ha), h.var⟩
    refine Loc.congr (fun s => by simp only [Expr.feval, Option.bind_eq_bind]; rfl) ?_
    refine Loc.bindP (fevals_loc es (fun e he => ih e he (WFs.mem hwf.1 e he) (Foots.mem hfs e he)) fun e he r hr => Loc.retS) fun rs hrs => ?_
    exact Loc.read (Rd.all hrs) fun _ => Loc.read (fun _ _ _ => rfl) fun _ => Loc.bindS (Loc.writeV hw _) (Loc.ret (hw.trans hWR))
  | ifElse c a b w ihc iha ihb =>
    intro hwf h
    have hs : c.size = 1 := hwf.1.shapeOk.size_scl (by simp [Shape.isScl, hwf.2.2.2.1])
    have ha : Loc RV WV FA (fun r => RefIn RV r w.size) a.feval := by
      have := iha hwf.2.1 ⟨fun x hx => h.own (Or.inl (Or.inr (Or.inl hx))), fun x hx => h.reads (Or.inr (Or.inl hx)), fun x hx => h.adj (Or.inl (Or.inr (Or.inl hx))), fun x hx => h.var (Or.inr (Or.inl hx))⟩
      rwa [Expr.size, hwf.2.2.2.2.2.1] at this
    have hb : Loc RV WV FA (fun r => RefIn RV r w.size) b.feval := by
      have := ihb hwf.2.2.1 ⟨fun x hx => h.own (Or.inl (Or.inr (Or.inr hx))), fun x hx => h.reads (Or.inr (Or.inr hx)), fun x hx => h.adj (Or.inl (Or.inr (Or.inr hx))), fun x hx => h.var (Or.inr (Or.inr hx))⟩
      rwa [Expr.size, hwf.2.2.2.2.2.2.1] at this
    refine Loc.congr (fun s => by simp only [Expr.feval, Option.bind_eq_bind]; rfl) ?_
    refine Loc.bindP (ihc hwf.1 ⟨fun a ha => h.own (Or.inl (Or.inl ha)), fun a ha => h.reads (Or.inl ha), fun a ha => h.adj (Or.inl (Or.inl ha)), fun a ha => h.var (Or.inl ha)⟩) fun r hr => ?_
    rw [hs] at hr
    refine Loc.read (Rd.ref hr) fun x => ?_
    split
    · split
      · exact ha
      · exact hb
    · exact Loc.fail
  | eq | opEq | glue | forEach => intro h; exact h.elim

/-- The backward pass of a pure expression reads its variables and its own cells, and writes its own cells and the adjoints of its variables. -/
theorem beval_loc (hWR : WV ⊆ RV) (e : Expr α) : e.WF → e.Foot RV WV FA → ∀ g, Loc RV WV FA Any (e.beval g) := by
  induction e using Expr.induct with
  | var v => intro _ h g; exact Loc.congr (fun s => by rw [Expr.beval]) (Loc.bevalVar h.var g)
  | const sh c => intro _ h g; exact Loc.congr (fun s => by rw [Expr.beval]) Loc.retS
  | cview sh p => intro _ h g; exact Loc.congr (fun s => by rw [Expr.beval]) Loc.retS
  | unary op e w ih =>
    intro hwf h g
    have hw : rng w.val w.size ⊆ RV := fun a ha => hWR (h.own (Or.inr ha))
    have hA : rng w.adj w.size ⊆ FA := fun a ha => h.adj (Or.inr ha)
    have hf : e.Foot RV WV FA := ⟨fun a ha => h.own (Or.inl ha), h.reads, fun a ha => h.adj (Or.inl ha), h.var⟩
    refine Loc.congr (fun s => by simp only [Expr.beval, Option.bind_eq_bind]; rfl) ?_
    exact Loc.read (back_rd hWR hwf.1 hwf.2.2 hf) fun _ => Loc.read (Rd.refIf fun _ => hw) fun _ => Loc.bindS (Loc.writeA hA _) (Loc.read (Rd.adj hA) fun _ => ih hwf.1 hf _)
  | binary op l r w ihl ihr =>
    intro hwf h g
    by_cases hc : op.isComparison = true
    · exact Loc.congr (fun s => by rw [Expr.beval, if_pos hc]) Loc.retS
    obtain ⟨hl, hr⟩ := hwf.2.2.2.2 (by simpa using hc)
    have hw : rng w.val w.size ⊆ RV := fun a ha => hWR (h.own (Or.inr ha))
    have hA : rng w.adj w.size ⊆ FA := fun a ha => h.adj (Or.inr (by rw [Expr.adjRoot, if_neg hc]; exact ha))
    have fl : l.Foot RV WV FA := ⟨fun a ha => h.own (Or.inl (Or.inl ha)), fun a ha => h.reads (Or.inl ha), fun a ha => h.adj (Or.inl (Or.inl ha)), fun a ha => h.var (Or.inl ha)⟩
    have fr : r.Foot RV WV FA := ⟨fun a ha => h.own (Or.inl (Or.inr ha)), fun a ha => h.reads (Or.inr ha), fun a ha => h.adj (Or.inl (Or.inr ha)), fun a ha => h.var (Or.inr ha)⟩
    refine Loc.congr (fun s => by simp only [Expr.beval, Option.bind_eq_bind, if_neg hc]; rfl) ?_
    refine Loc.read (back_rd hWR hwf.1 hl fl) fun _ => Loc.read (back_rd hWR hwf.2.1 hr fr) fun _ => Loc.read (Rd.refIf fun _ => hw) fun _ =>
      Loc.bindS (Loc.writeA hA _) (Loc.read (Rd.adj hA) fun _ => Loc.bindS (ihr hwf.2.1 fr _) ?_)
    split
    · exact ihl hwf.1 fl _
    · exact Loc.read (back_rd hWR hwf.1 hl fl) fun _ => Loc.read (back_rd hWR hwf.2.1 hr fr) fun _ => Loc.read (Rd.refIf fun _ => hw) fun _ =>
        Loc.read (Rd.adj hA) fun _ => ihl hwf.1 fl _
  | pow n e w ih =>
    intro hwf h g
    have hf : e.Foot RV WV FA := ⟨fun a ha => h.own (Or.inl ha), h.reads, fun a ha => h.adj (Or.inl ha), h.var⟩
    by_cases h0 : n = 0
    · exact Loc.congr (fun s => by rw [Expr.beval, if_pos h0]) (ih hwf.1 hf _)
    by_cases h1 : n = 1
    · exact Loc.congr (fun s => by rw [Expr.beval, if_neg h0, if_pos h1]) (ih hwf.1 hf _)
    have hw : rng w.val w.size ⊆ RV := fun a ha => hWR (h.own (Or.inr ha))
    have hA : rng w.adj w.size ⊆ FA := fun a ha => h.adj (Or.inr (by rw [Expr.adjRoot, if_neg (by simp [h0, h1])]; exact ha))
    have hi : e.isIf = false := by
      by_contra hi
      exact absurd (hwf.2.2 (by simpa using hi)) (by simp [h0, h1])
    refine Loc.congr (fun s => by simp only [Expr.beval, Option.bind_eq_bind, if_neg h0, if_neg h1]; rfl) ?_
    exact Loc.read (Rd.ref (getRef_in hwf.1 hi hWR hf)) fun _ => Loc.read (Rd.val hw) fun _ => Loc.bindS (Loc.writeA hA _) (Loc.read (Rd.adj hA) fun _ => ih hwf.1 hf _)
  | prodElem e w c ih =>
    intro hwf h g
    have hw : rng w.val w.size ⊆ RV := fun a ha => hWR (h.own (Or.inr ha))
    have hA : rng c e.size ⊆ FA := fun a ha => h.adj (Or.inr ha)
    have hf : e.Foot RV WV FA := ⟨fun a ha => h.own (Or.inl ha), h.reads, fun a ha => h.adj (Or.inl ha), h.var⟩
    refine Loc.congr (fun s => by simp only [Expr.beval, Option.bind_eq_bind]; rfl) ?_
    exact Loc.read (Rd.refIf fun _ => getRef_in hwf.1 hwf.2.2 hWR hf) fun _ => Loc.read (Rd.refIf fun _ => hw) fun _ => Loc.bindS (Loc.writeA hA _) (Loc.read (Rd.adj hA) fun _ => ih hwf.1 hf _)
  | transpose e w ih =>
    intro hwf h g
    have hA : rng w.adj w.size ⊆ FA := fun a ha => h.adj (Or.inr ha)
    have hf : e.Foot RV WV FA := ⟨fun a ha => h.own (Or.inl ha), h.reads, fun a ha => h.adj (Or.inl ha), h.var⟩
    refine Loc.congr (fun s => by simp only [Expr.beval, Option.bind_eq_bind]; rfl) ?_
    exact Loc.bindS (Loc.writeA hA _) (Loc.read (Rd.adj hA) fun _ => ih hwf.1 hf _)
  | dot l r w ihl ihr =>
    intro hwf h g
    have hA : rng w.adj w.size ⊆ FA := fun a ha => h.adj (Or.inr ha)
    have fl : l.Foot RV WV FA := ⟨fun a ha => h.own (Or.inl (Or.inl ha)), fun a ha => h.reads (Or.inl ha), fun a ha => h.adj (Or.inl (Or.inl ha)), fun a ha => h.var (Or.inl ha)⟩
    have fr : r.Foot RV WV FA := ⟨fun a ha => h.own (Or.inl (Or.inr ha)), fun a ha => h.reads (Or.inr ha), fun a ha => h.adj (Or.inl (Or.inr ha)), fun a ha => h.var (Or.inr ha)⟩
    refine Loc.congr (fun s => by simp only [Expr.beval, Option.bind_eq_bind]; rfl) ?_
    exact Loc.read (Rd.ref (getRef_in hwf.1 hwf.2.2.2.2.2.2.1 hWR fl)) fun _ => Loc.bindS (Loc.writeA hA _) (Loc.read (Rd.adj hA) fun _ =>
      Loc.bindS (ihr hwf.2.1 fr _) (Loc.read (Rd.ref (getRef_in hwf.2.1 hwf.2.2.2.2.2.2.2 hWR fr)) fun _ => Loc.read (Rd.adj hA) fun _ => ihl hwf.1 fl _))
  | sumIter es w ih =>
    intro hwf h g
    have hA : rng w.adj w.size ⊆ FA := fun a ha => h.adj (Or.inr ha)
    have hfs : es.Foots RV WV FA := ⟨fun a ha => h.own (Or.inl ha), h.reads, fun a ha => h.adj (Or.inl ha), h.var⟩
    by_cases h0 : es.length = 0
    · exact Loc.congr (fun s => by rw [Expr.beval, if_pos h0]) Loc.retS
    refine Loc.congr (fun s => by simp only [Expr.beval, Option.bind_eq_bind, if_neg h0]; rfl) ?_
    refine Loc.bindS (Loc.writeA hA _) (bevals_loc es ?_ (fun _ _ _ _ => Loc.retS) (fun _ _ _ _ _ _ => rfl) (fun e he g => ih e he (WFs.mem hwf.1 e he) (Foots.mem hfs e he) g) 0)
    exact fun i e he => Loc.read (Rd.adj hA) fun _ => Loc.ret trivial
  | prodIter es w ih =>
    intro hwf h g
    have hV : rng w.val w.size ⊆ WV := fun a ha => h.own (Or.inr ha)
    have hw : rng w.val w.size ⊆ RV := hV.trans hWR
    have hA : rng w.adj w.size ⊆ FA := fun a ha => h.adj (Or.inr ha)
    have hfs : es.Foots RV WV FA := ⟨fun a ha => h.own (Or.inl ha), h.reads, fun a ha => h.adj (Or.inl ha), h.var⟩
    by_cases h0 : es.length = 0
    · exact Loc.congr (fun s => by rw [Expr.beval, if_pos h0]) Loc.retS
    have hel : ∀ e ∈ es.toList, RefIn RV e.getRef e.size := fun e he => getRef_in (WFs.mem hwf.1 e he) (hwf.2.2 e he).2 hWR (Foots.mem hfs e he)
    refine Loc.congr (fun s => by simp only [Expr.beval, Option.bind_eq_bind, if_neg h0]; rfl) ?_
    refine Loc.bindS (Loc.writeA hA _) (bevals_loc es ?_ ?_ ?_ (fun e he g => ih e he (WFs.mem hwf.1 e he) (Foots.mem hfs e he) g) 0)
    · intro i e he
      refine Loc.congr (fun s => by simp only [prodIterPre, Option.bind_eq_bind]; rfl) ?_
      refine Loc.read (Rd.ref (hel e he)) fun x => Loc.read (Rd.adj hA) fun _ => ?_
      split
      · exact Loc.read (Rd.all (getRefs_in hel)) fun _ => Loc.bindS (Loc.writeV hV _) (Loc.read (Rd.val hw) fun _ => Loc.ret trivial)
      · exact Loc.read (Rd.val hw) fun _ => Loc.ret trivial
    · intro s0 i e he
      refine Loc.congr (fun s => by simp only [prodIterPost, Option.bind_eq_bind]; rfl) ?_
      split
      · exact Loc.read (Rd.ref (hel e he)) fun x => Loc.read (Rd.val hw) fun _ => Loc.writeV hV _
      · exact Loc.retS
    · intro s0 t0 hst i e he
      have : e.getRef.read s0 e.shape.size = e.getRef.read t0 e.shape.size := Rd.ref (hel e he) s0 t0 hst
      simp only [prodIterZero, this]
  | reduce op es w ih =>
    intro hwf h g
    have hw : rng w.val w.size ⊆ RV := fun a ha => hWR (h.own (Or.inr ha))
    have hfs : es.Foots RV WV FA := ⟨fun a ha => h.own (Or.inl ha), h.reads, fun a ha => h.adj (Or.inl ha), h.var⟩
    have hel : op.usesX = true → ∀ e ∈ es.toList, RefIn RV e.getRef e.size := by
      intro hu e he
      refine getRef_in (WFs.mem hwf.1 e he) ?_ hWR (Foots.mem hfs e he)
      rcases hwf.2.2 with ⟨e', rfl, -, h2⟩ | ⟨o, k, rfl, n, -, -, -, h4, -⟩
      · simp only [Exprs.toList, List.mem_singleton] at he
        rw [he]
        by_contra hi
        rw [h2 (by simpa using hi)] at hu; cases hu
      · exact h4 e he
    refine Loc.congr (fun s => by simp only [Expr.beval]; rfl) ?_
    refine bevals_loc es ?_ (fun _ _ _ _ => Loc.retS) (fun _ _ _ _ _ _ => rfl) (fun e he g => ih e he (WFs.mem hwf.1 e he) (Foots.mem hfs e he) g) 0
    intro i e he
    exact Loc.read (Rd.operands fun r hr hu => getRefs_in (hel hu) r hr) fun _ => Loc.read (Rd.val hw) fun _ => Loc.ret trivial
  | ifElse c a b w ihc iha ihb =>
    intro hwf h g
    have hs : c.size = 1 := hwf.1.shapeOk.size_scl (by simp [Shape.isScl, hwf.2.2.2.1])
    have fc : c.Foot RV WV FA := ⟨fun a ha => h.own (Or.inl (Or.inl ha)), fun a ha => h.reads (Or.inl ha), fun a ha => h.adj (Or.inl (Or.inl ha)), fun a ha => h.var (Or.inl ha)⟩
    have hr := getRef_in hwf.1 hwf.2.2.2.2.1 hWR fc
    rw [hs] at hr
    refine Loc.congr (fun s => by simp only [Expr.beval, Option.bind_eq_bind]; rfl) ?_
    refine Loc.read (Rd.ref hr) fun x => ?_
    split
    · exact iha hwf.2.1 ⟨fun x hx => h.own (Or.inl (Or.inr (Or.inl hx))), fun x hx => h.reads (Or.inr (Or.inl hx)), fun x hx => h.adj (Or.inl (Or.inr (Or.inl hx))), fun x hx => h.var (Or.inr (Or.inl hx))⟩ g
    · exact ihb hwf.2.2.1 ⟨fun x hx => h.own (Or.inl (Or.inr (Or.inr hx))), fun x hx => h.reads (Or.inr (Or.inr hx)), fun x hx => h.adj (Or.inl (Or.inr (Or.inr hx))), fun x hx => h.var (Or.inr (Or.inr hx))⟩ g
  | eq | opEq | glue | forEach => intro h; exact h.elim

/-! ### Statements -/

theorem rng_view {v w : View} (h1 : w.val = v.val) (h2 : w.shape = v.shape) : rng w.val w.size = rng v.val v.size := by
  rw [h1, View.size, View.size, h2]

theorem EqB.foot {vok aok : ℕ → Bool} {BV BA : Set ℕ} {v w : View} {e : Expr α} (h : EqB vok aok BV BA v e w) (hV : BV ∪ rng v.val v.size ⊆ WV)
    (hR : e.reads ⊆ RV) (hA : BA ∪ (e.readsA ∪ rng v.adj v.size) ⊆ FA) : e.Foot RV WV FA := by
  refine ⟨?_, hR, ?_, fun a ha => hA (Or.inr (Or.inl ha))⟩
  · rintro a (ha | ha)
    · exact hV (Or.inl (h.inV ha))
    · rcases h.root with ⟨h1, -⟩ | ⟨-, -, -, h1, -⟩
      · rw [h1] at ha; exact ha.elim
      · exact hV (Or.inr (h1 ha))
  · rintro a (ha | ha)
    · exact hA (Or.inl (h.inA ha))
    · rcases h.root with ⟨-, h1⟩ | ⟨-, -, -, -, h1⟩
      · rw [h1] at ha; exact ha.elim
      · exact hA (Or.inr (Or.inr (h1 ha)))

theorem StmtB.pureFoot {vok aok : ℕ → Bool} {BV BA : Set ℕ} {x : Expr α} (h : PureB vok aok BV BA x) (hV : BV ⊆ WV)
    (hR : x.reads ⊆ RV) (hA : BA ∪ x.readsA ⊆ FA) : x.Foot RV WV FA :=
  ⟨h.ownV.trans hV, hR, fun a ha => hA (Or.inl (h.ownA ha)), fun a ha => hA (Or.inr ha)⟩

theorem stmt_feval_loc {x : Expr α} {vok aok : ℕ → Bool} {BV BA : Set ℕ} (h : StmtB vok aok BV BA x) (hWR : WV ⊆ RV) (hV : BV ∪ x.tgt ⊆ WV) (hR : x.ment ⊆ RV)
    (hA : BA ∪ x.mentA ⊆ FA) : Loc RV WV FA (fun r => RefIn RV r x.size) x.feval := by
  by_cases hs : x.isStmt = false
  · obtain ⟨hp, -, -⟩ := h.pure hs
    have hmentA : x.mentA = x.readsA := by cases x <;> first | rfl | simp [Expr.isStmt] at hs
    have hment : x.ment = x.reads := by cases x <;> first | rfl | simp [Expr.isStmt] at hs
    rw [hmentA] at hA
    rw [hment] at hR
    exact feval_loc hWR x hp.wf (StmtB.pureFoot hp (fun a ha => hV (Or.inl ha)) hR hA)
  cases x with
  | eq v e w =>
    have h : EqB vok aok BV BA v e w := h
    have hf : e.Foot RV WV FA := h.foot hV (fun a ha => hR (Or.inl ha)) hA
    have hv : rng v.val v.size ⊆ WV := fun a ha => hV (Or.inr ha)
    have hw : rng w.val w.size ⊆ WV := by rw [rng_view h.wval h.wshape]; exact hv
    refine Loc.congr (fun s => by simp only [Expr.feval, Option.bind_eq_bind]; rfl) ?_
    refine Loc.bindP (feval_loc hWR e h.wf hf) fun r hr => ?_
    dsimp only
    split
    · exact Loc.read (Rd.ref hr) fun _ => Loc.bindS (Loc.assignV hv _) (Loc.bindS (Loc.assignV hw _) (Loc.ret (hw.trans hWR)))
    · exact Loc.fail
  | opEq op v e w c =>
    have h : OpB vok aok BV BA v e w c := h
    have hf : e.Foot RV WV FA := StmtB.pureFoot h.pure (fun a ha => hV (Or.inl ha)) (fun a ha => hR (Or.inl ha))
      (fun a ha => hA (ha.elim Or.inl fun h => Or.inr (Or.inl h)))
    have hv : rng v.val v.size ⊆ WV := fun a ha => hV (Or.inr ha)
    have hw : rng w.val w.size ⊆ WV := by rw [rng_view h.wval h.wshape]; exact hv
    have hc : rng c.val c.size ⊆ WV := fun a ha => hV (Or.inl (h.cV ha))
    refine Loc.congr (fun s => by simp only [Expr.feval, Option.bind_eq_bind]; rfl) ?_
    refine Loc.read (Rd.val (hv.trans hWR)) fun _ => Loc.bindS (Loc.assignV hc _) (Loc.bindP (feval_loc hWR e h.pure.wf hf) fun r hr => ?_)
    dsimp only
    split
    · refine Loc.read (Rd.val (hv.trans hWR)) fun _ => Loc.read (Rd.ref hr) fun _ => ?_
      split
      · exact Loc.bindS (Loc.assignV hw _) (Loc.ret (hw.trans hWR))
      · exact Loc.fail
    · exact Loc.fail
  | _ => simp [Expr.isStmt] at hs

theorem stmt_beval_loc {x : Expr α} {vok aok : ℕ → Bool} {BV BA : Set ℕ} (h : StmtB vok aok BV BA x) (hWR : WV ⊆ RV) (hV : BV ∪ x.tgt ⊆ WV) (hR : x.ment ⊆ RV)
    (hA : BA ∪ x.mentA ⊆ FA) (g : ℕ → α) : Loc RV WV FA Any (x.beval g) := by
  by_cases hs : x.isStmt = false
  · obtain ⟨hp, -, -⟩ := h.pure hs
    have hmentA : x.mentA = x.readsA := by cases x <;> first | rfl | simp [Expr.isStmt] at hs
    have hment : x.ment = x.reads := by cases x <;> first | rfl | simp [Expr.isStmt] at hs
    rw [hmentA] at hA
    rw [hment] at hR
    exact beval_loc hWR x hp.wf (StmtB.pureFoot hp (fun a ha => hV (Or.inl ha)) hR hA) g
  cases x with
  | eq v e w =>
    have h : EqB vok aok BV BA v e w := h
    have hf : e.Foot RV WV FA := h.foot hV (fun a ha => hR (Or.inl ha)) hA
    have hvA : rng v.adj v.size ⊆ FA := fun a ha => hA (Or.inr (Or.inr ha))
    refine Loc.congr (fun s => by simp only [Expr.beval, Option.bind_eq_bind]; rfl) ?_
    exact Loc.bindS (Loc.bevalVar hvA _) (Loc.read (Rd.adj hvA) fun _ => beval_loc hWR e h.wf hf _)
  | opEq op v e w c =>
    have h : OpB vok aok BV BA v e w c := h
    have hf : e.Foot RV WV FA := StmtB.pureFoot h.pure (fun a ha => hV (Or.inl ha)) (fun a ha => hR (Or.inl ha))
      (fun a ha => hA (ha.elim Or.inl fun h => Or.inr (Or.inl h)))
    have hv : rng v.val v.size ⊆ WV := fun a ha => hV (Or.inr ha)
    have hvR := hv.trans hWR
    have hvA : rng v.adj v.size ⊆ FA := fun a ha => hA (Or.inr (Or.inr ha))
    have hc : rng c.val c.size ⊆ RV := fun a ha => hWR (hV (Or.inl (h.cV ha)))
    have hcA : rng c.adj c.size ⊆ FA := fun a ha => hA (Or.inl (h.cA ha))
    have hr := getRef_in h.pure.wf h.notIf hWR hf
    refine Loc.congr (fun s => by simp only [Expr.beval, Option.bind_eq_bind]; rfl) ?_
    refine Loc.bindS (Loc.bevalVar hvA _) (Loc.read (Rd.val hc) fun _ => Loc.bindS (Loc.assignV hv _) (Loc.read (Rd.adj hvA) fun _ =>
      Loc.bindS (Loc.writeA hcA _) (Loc.bindS (Loc.writeA hvA _) (Loc.read (Rd.val hvR) fun _ => Loc.read (Rd.ref hr) fun _ => Loc.read (Rd.adj hcA) fun _ =>
        Loc.bindS (beval_loc hWR e h.pure.wf hf _) ?_))))
    split
    · exact Loc.bevalVar hvA _
    · exact Loc.read (Rd.val hvR) fun _ => Loc.read (Rd.ref hr) fun _ => Loc.read (Rd.adj hcA) fun _ => Loc.bevalVar hvA _
  | _ => simp [Expr.isStmt] at hs

/-! ### Sequences -/

/-- the footprint of a sequence of statements with caches in `BV`, `BA` -/
structure SeqFoot (BV BA RV WV FA : Set ℕ) (L : List (Expr α)) : Prop where
  sub : WV ⊆ RV
  write : ∀ x ∈ L, BV ∪ x.tgt ⊆ WV
  read : ∀ x ∈ L, x.ment ⊆ RV
  adj : ∀ x ∈ L, BA ∪ x.mentA ⊆ FA

theorem SeqFoot.tail {BV BA : Set ℕ} {x : Expr α} {xs : List (Expr α)} (h : SeqFoot BV BA RV WV FA (x :: xs)) : SeqFoot BV BA RV WV FA xs :=
  ⟨h.sub, fun y hy => h.write y (by simp [hy]), fun y hy => h.read y (by simp [hy]), fun y hy => h.adj y (by simp [hy])⟩

theorem seqRun_loc {vok aok : ℕ → Bool} {BV BA : Set ℕ} {L : List (Expr α)} {s s' : St α} (h : SeqRun L s s') (hb : ∀ x ∈ L, StmtB vok aok BV BA x)
    (hf : SeqFoot BV BA RV WV FA L) : Fr WV FA s s' ∧ (∀ x ∈ L.getLast?, rng x.view.val x.size ⊆ RV) ∧
      ∀ t, Agree RV FA s t → ∃ t', SeqRun L t t' ∧ Agree RV FA s' t' := by
  induction h with
  | nil s => exact ⟨Fr.refl s, fun x hx => by simp at hx, fun t h => ⟨t, .nil t, h⟩⟩
  | @cons x xs s s1 s' h1 h2 h3 h4 ih =>
    obtain ⟨i1, i2, i3⟩ := ih (fun y hy => hb y (by simp [hy])) hf.tail
    have hl := stmt_feval_loc (hb x (by simp)) hf.sub (hf.write x (by simp)) (hf.read x (by simp)) (hf.adj x (by simp))
    obtain ⟨k1, k2⟩ := hl.frame s _ h1
    refine ⟨k1.trans i1, ?_, ?_⟩
    · intro y hy
      cases xs with
      | nil => simp at hy; subst hy; exact k2
      | cons z zs => exact i2 y (by simpa using hy)
    · intro t ht
      rcases hl.agree s t ht with ⟨h, -⟩ | ⟨⟨u, r⟩, ⟨t1, r'⟩, e1, e2, e3, e4⟩
      · rw [h1] at h; cases h
      · rw [h1] at e1
        cases e1
        obtain rfl : Ref.ptr x.view.val = r' := e4
        have e3 : Agree RV FA s1 t1 := e3
        obtain ⟨t', j1, j2⟩ := i3 t1 e3
        exact ⟨t', .cons e2 (by rw [← e3.vok, h2, ht.vok]) (by rw [← e3.vok]; exact h3) j1, j2⟩

theorem bevalL_loc {vok aok : ℕ → Bool} {BV BA : Set ℕ} {L : List (Expr α)} (hb : ∀ x ∈ L, StmtB vok aok BV BA x)
    (hf : SeqFoot BV BA RV WV FA L) (g : ℕ → α) : Loc RV WV FA Any (bevalL L g) := by
  induction L with
  | nil => exact Loc.congr (fun s => by rw [bevalL]) Loc.retS
  | cons x xs ih =>
    exact Loc.congr (fun s => by rw [bevalL]) (Loc.bindS (ih (fun y hy => hb y (by simp [hy])) hf.tail)
      (stmt_beval_loc (hb x (by simp)) hf.sub (hf.write x (by simp)) (hf.read x (by simp)) (hf.adj x (by simp)) _))

/-- defined, with results and effects inside the footprint that depend on the footprint only -/
def RunsIn [Out α γ β] (RV WV FA : Set ℕ) (P : β → Prop) (s : St α) (c : St α → Option γ) : Prop :=
  ∃ x, c s = some x ∧ Fr WV FA s (Out.st x) ∧ P (Out.res x) ∧
    ∀ t, Agree RV FA s t → ∃ y, c t = some y ∧ Agree RV FA (Out.st x) (Out.st y) ∧ Out.res x = Out.res y

theorem Loc.runs [Out α γ β] {P : β → Prop} {c : St α → Option γ} {s : St α} (h : Loc RV WV FA P c) (hd : ∃ x, c s = some x) : RunsIn RV WV FA P s c := by
  obtain ⟨x, hx⟩ := hd
  refine ⟨x, hx, (h.frame s x hx).1, (h.frame s x hx).2, fun t ht => ?_⟩
  rcases h.agree s t ht with ⟨h, -⟩ | ⟨x', y, h1, h2, h3, h4⟩
  · rw [hx] at h; cases h
  · rw [hx] at h1
    cases h1
    exact ⟨y, h2, h3, h4⟩

theorem RunsIn.bind [Out α γ β] {P : β → Prop} {Q : δ → Prop} {s : St α} {c : St α → Option (St α × δ)} {f : St α × δ → Option γ} (h : RunsIn RV WV FA Q s c)
    (hk : ∀ b, Q b → Loc RV WV FA P (fun s => f (s, b))) (hd : ∀ s' b, c s = some (s', b) → Fr WV FA s s' → Q b → ∃ y, f (s', b) = some y) :
    RunsIn RV WV FA P s (fun s => (c s).bind f) := by
  obtain ⟨⟨s1, b⟩, h1, h2, h3, h4⟩ := h
  obtain ⟨y, h5, h6, h7, h8⟩ := (hk b h3).runs (hd s1 b h1 h2 h3)
  refine ⟨y, by simp only [h1, Option.bind_some]; exact h5, h2.trans h6, h7, fun t ht => ?_⟩
  obtain ⟨⟨t1, b'⟩, k1, k2, k3⟩ := h4 t ht
  obtain rfl : b = b' := k3
  obtain ⟨z, k4, k5⟩ := h8 t1 k2
  exact ⟨z, by simp only [k1, Option.bind_some]; exact k4, k5⟩

theorem SameL.exists {L' L : List (Expr α)} (h : SameL L' L) {x : Expr α} (hx : x ∈ L') : ∃ y ∈ L, x.strip = y.strip := by
  induction h with
  | nil => simp at hx
  | cons h1 _ ih =>
    rcases List.mem_cons.1 hx with rfl | hx
    · exact ⟨_, List.mem_cons_self, h1.2⟩
    · obtain ⟨y, hy, h⟩ := ih hx
      exact ⟨y, by simp [hy], h⟩

/-- the footprint of a bound program -/
theorem EvalB.foot {p b : Expr α} {BV BA : Set ℕ} {vok aok : ℕ → Bool} (h : EvalB p b BV BA vok aok) :
    SeqFoot BV BA (BV ∪ p.seen) (BV ∪ tgts p.flat) (BA ∪ ↑p.adjCells) b.flat := by
  refine ⟨Set.union_subset_union_right _ fun a ha => tgts_seen h.wf ha, fun x hx => Set.union_subset_union_right _ fun a ha => ?_, fun x hx a ha => Or.inr ?_,
    fun x hx => Set.union_subset_union_right _ fun a ha => ?_⟩
  · obtain ⟨y, hy, e⟩ := h.same.exists hx
    exact ⟨y, hy, by rwa [← strip_tgt, ← e, strip_tgt]⟩
  · obtain ⟨y, hy, e⟩ := h.same.exists hx
    exact seen_ment h.wf y hy (by rwa [← strip_ment, ← e, strip_ment])
  · obtain ⟨y, hy, e⟩ := h.same.exists hx
    exact mentA_adj h.wf hy (by rwa [← strip_mentA, ← e, strip_mentA])

theorem Agree.refl (s : St α) : Agree RV FA s s := ⟨fun _ _ => rfl, fun _ _ => rfl, rfl, rfl⟩

/-- `evaluate` of a bound sequence of statements -/
theorem EvalB.runs {p b : Expr α} {BV BA : Set ℕ} {s : St α} (h : EvalB p b BV BA s.vok s.aok) (hd : Disjoint p.seen BV) (hok : p.shape.Ok) :
    RunsIn (BV ∪ p.seen) (BV ∪ tgts p.flat) (BA ∪ ↑p.adjCells) (fun r => RefIn (BV ∪ p.seen) r b.size ∧ (∃ x, r.read s b.size = some x)) s (evaluate b) := by
  obtain ⟨s', h1⟩ := gseq_ok b.flat s.val s h.seq hd (h.same.needOk (seen_needOk h.wf)) (fun _ _ => rfl)
  have hne := h.flat_ne
  obtain ⟨l1, l2, l3⟩ := seqRun_loc h1.run h.seq.stmt h.foot
  have hrng : rng b.view.val b.size ⊆ BV ∪ p.seen := by
    have hlast := List.getLast?_eq_some_getLast hne
    obtain ⟨h2, h3⟩ := view_last b h.tree _ hlast
    have := l2 _ hlast
    rw [h2, Expr.size, h3]
    exact this
  have hs1 : b.shape.isScl = true → b.size = 1 := fun hs => by
    rw [Expr.size, h.shape]
    exact hok.size_scl (h.shape ▸ hs)
  have key : ∀ t t', SeqRun b.flat t t' → Agree (BV ∪ p.seen) (BA ∪ ↑p.adjCells) s' t' → evaluate b t =
      some (t', if b.shape.isScl then .lit (trunc 1 fun k => s'.val (addr b.view.val + k)) else .ptr b.view.val) := by
    intro t t' ht ha
    obtain ⟨r, hr, hr2⟩ := feval_tree b h.tree t t' ht
    obtain ⟨rfl, hacc⟩ := hr2 hne
    by_cases hscl : b.shape.isScl = true
    · have e1 : (Ref.ptr b.view.val : Ref α).read t' 1 = some (trunc 1 fun k => s'.val (addr b.view.val + k)) := by
        show readCells t'.val t'.vok b.view.val 1 = _
        rw [hs1 hscl] at hacc hrng
        rw [readCells_eq hacc]
        congr 1
        funext k
        simp only [trunc]
        split
        · exact (ha.val _ (hrng (add_mem_rng ‹_›))).symm
        · rfl
      simp only [evaluate, hr, Option.bind_eq_bind, Option.bind_some, if_pos hscl, e1]
    · simp only [evaluate, hr, Option.bind_eq_bind, Option.bind_some, if_neg hscl]
  refine ⟨_, key s s' h1.run (Agree.refl s'), l1, ?_, fun t ht => ?_⟩
  · show RefIn _ (if b.shape.isScl then _ else _) _ ∧ ∃ x, (if b.shape.isScl then _ else _ : Ref α).read _ _ = _
    obtain ⟨r, hr, hr2⟩ := feval_tree b h.tree s s' h1.run
    obtain ⟨rfl, hacc⟩ := hr2 hne
    rw [h1.vok] at hacc
    split
    · exact ⟨trivial, _, rfl⟩
    · exact ⟨hrng, readCells_def hacc⟩
  · obtain ⟨t', t1, t2⟩ := l3 t ht
    exact ⟨_, key t t' t1 t2, t2, rfl⟩

/-- `evaluate_adj` -/
theorem EvalB.back_runs {p b : Expr α} {BV BA : Set ℕ} {vok aok : ℕ → Bool} (h : EvalB p b BV BA vok aok) (g : ℕ → α) :
    Loc (BV ∪ p.seen) (BV ∪ tgts p.flat) (BA ∪ ↑p.adjCells) Any (evaluateAdj b g) :=
  Loc.congr (fun s => by rw [evaluateAdj, beval_tree b h.tree]) (bevalL_loc h.seq.stmt h.foot g)

end FastAD
