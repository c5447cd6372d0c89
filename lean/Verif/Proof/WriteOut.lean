import Verif.Spec.WriteOut
import Verif.Proof.Tree
import Verif.Proof.Needed
import Verif.Proof.ForEach
import Verif.Proof.Storage

/-!
# `for_each` and its elements joined with `operator,`: the same machine code, wherever it occurs
-/

namespace FastAD

variable {α : Type} [Zero α] [One α] [Add α] [Sub α] [Neg α] [Mul α] [Div α] [NatCast α] [IntCast α]
variable [Fn α] [HasInf α] [LinAlg α]
set_option linter.unusedSectionVars false

/-- glue nodes as they are after binding -/
def Exprs.chain (e : Expr α) : Exprs α → Expr α
  | .nil => e
  | .cons e' es => es.chain (.glue e e' e'.view)

mutual
/-- a bound expression with the bound loops written out -/
def Expr.unroll : Expr α → Expr α
  | .var v => .var v
  | .const sh c => .const sh c
  | .cview sh p => .cview sh p
  | .unary op e w => .unary op e.unroll w
  | .binary op l r w => .binary op l.unroll r.unroll w
  | .pow n e w => .pow n e.unroll w
  | .prodElem e w c => .prodElem e.unroll w c
  | .transpose e w => .transpose e.unroll w
  | .dot l r w => .dot l.unroll r.unroll w
  | .sumIter es w => .sumIter es.unrolls w
  | .prodIter es w => .prodIter es.unrolls w
  | .reduce op es w => .reduce op es.unrolls w
  | .ifElse c x y w => .ifElse c.unroll x.unroll y.unroll w
  | .eq v e w => .eq v e.unroll w
  | .opEq op v e w c => .opEq op v e.unroll w c
  | .glue l r w => .glue l.unroll r.unroll w
  | .forEach .nil w => .forEach .nil w
  | .forEach (.cons e es) _ => es.unrolls.chain e.unroll
def Exprs.unrolls : Exprs α → Exprs α
  | .nil => .nil
  | .cons e es => .cons e.unroll es.unrolls
end

mutual
/-- what `LoopsOk` becomes by binding -/
def Expr.LoopsB : Expr α → Prop
  | .var _ | .const _ _ | .cview _ _ => True
  | .unary _ e _ | .pow _ e _ | .prodElem e _ _ | .transpose e _ | .opEq _ _ e _ _ => e.LoopsB
  | .binary _ l r _ | .dot l r _ | .glue l r _ => l.LoopsB ∧ r.LoopsB
  | .sumIter es _ | .prodIter es _ | .reduce _ es _ => es.LoopsBs
  | .ifElse c x y _ => c.LoopsB ∧ x.LoopsB ∧ y.LoopsB
  | .eq _ e _ => e.LoopsB
  | .forEach es w => es.LoopsBs ∧ (∀ x ∈ es.toList, x.StoresValue) ∧ ∀ x ∈ es.last, w = x.view
def Exprs.LoopsBs : Exprs α → Prop
  | .nil => True
  | .cons e es => e.LoopsB ∧ es.LoopsBs
end

theorem StoresValue.root {e : Expr α} (h : e.StoresValue) : e.getRef = .ptr e.view.val ∧ e.retKind = .map := by
  cases e <;> first | exact ⟨rfl, rfl⟩ | exact h.elim

theorem LoopsBs.mem {es : Exprs α} (h : es.LoopsBs) : ∀ x ∈ es.toList, x.LoopsB := by
  induction es using Exprs.rec (motive_1 := fun _ => True) with
  | nil => simp [Exprs.toList]
  | cons e es _ ih =>
    intro x hx
    simp only [Exprs.toList, List.mem_cons] at hx
    rcases hx with rfl | hx
    · exact h.1
    · exact ih h.2 x hx
  | _ => trivial

theorem LoopsOks.mem {es : Exprs α} (h : es.LoopsOks) : ∀ x ∈ es.toList, x.LoopsOk := by
  induction es using Exprs.rec (motive_1 := fun _ => True) with
  | nil => simp [Exprs.toList]
  | cons e es _ ih =>
    intro x hx
    simp only [Exprs.toList, List.mem_cons] at hx
    rcases hx with rfl | hx
    · exact h.1
    · exact ih h.2 x hx
  | _ => trivial

/-! ### What writing out leaves as it is -/

theorem chain_last (es : Exprs α) (e : Expr α) : ∀ x ∈ (Exprs.cons e es).last, (∀ y ∈ (Exprs.cons e es).toList, y.StoresValue) →
    (es.chain e).view = x.view ∧ (es.chain e).StoresValue := by
  induction es using Exprs.rec (motive_1 := fun _ => True) generalizing e with
  | nil =>
    intro x hx hc
    obtain rfl : e = x := by simpa [Exprs.last] using hx
    exact ⟨rfl, hc e (by simp [Exprs.toList])⟩
  | cons e' es _ ih =>
    intro x hx hc
    rw [Exprs.chain]
    cases es with
    | nil =>
      obtain rfl : e' = x := by simpa [Exprs.last] using hx
      exact ⟨rfl, trivial⟩
    | cons e'' es =>
      refine ih _ x (by simpa [Exprs.last] using hx) fun y hy => ?_
      simp only [Exprs.toList, List.mem_cons] at hy hc
      rcases hy with rfl | hy
      · trivial
      · exact hc y (.inr (.inr hy))
  | _ => trivial

theorem unrolls_last (es : Exprs α) : es.unrolls.last = es.last.map Expr.unroll := by
  induction es using Exprs.rec (motive_1 := fun _ => True) with
  | nil => rfl
  | cons e es _ ih => cases es with
    | nil => rfl
    | cons => exact ih
  | _ => trivial

theorem unrolls_toList (es : Exprs α) : es.unrolls.toList = es.toList.map Expr.unroll := by
  induction es using Exprs.rec (motive_1 := fun _ => True) with
  | nil => rfl
  | cons e es _ ih => simp [Exprs.unrolls, Exprs.toList, ih]
  | _ => trivial

theorem unrolls_length (es : Exprs α) : es.unrolls.length = es.length := by
  induction es using Exprs.rec (motive_1 := fun _ => True) with
  | nil => rfl
  | cons e es _ ih => simp [Exprs.unrolls, Exprs.length, ih]
  | _ => trivial

/-- the root of a bound expression and the root of the same with loops written out look alike -/
structure SameRoot (e b : Expr α) : Prop where
  view : b.view = e.view
  ref : b.getRef = e.getRef
  ret : b.retKind = e.retKind
  stores : b.StoresValue ↔ e.StoresValue

theorem SameRoot.shape {e b : Expr α} (h : SameRoot e b) : b.shape = e.shape := congrArg View.shape h.view
theorem SameRoot.size {e b : Expr α} (h : SameRoot e b) : b.size = e.size := congrArg Shape.size h.shape

theorem unroll_root (e : Expr α) : e.LoopsB → SameRoot e e.unroll := by
  induction e using Expr.induct with
  | ifElse c x y w _ ihx _ => intro h; exact ⟨rfl, rfl, (ihx h.2.1).ret, Iff.rfl⟩
  | forEach es w ih =>
    intro h
    cases es with
    | nil => exact ⟨rfl, rfl, rfl, Iff.rfl⟩
    | cons e es =>
      obtain ⟨h1, h2, h3⟩ := h
      have hm := LoopsBs.mem h1
      obtain ⟨x, hx⟩ := Exprs.exists_last (es := .cons e es) (by simp [Exprs.length])
      have hxl := (Exprs.last_spec hx).2.2.2.1
      have := chain_last es.unrolls e.unroll x.unroll (by
        rw [show Exprs.cons e.unroll es.unrolls = (Exprs.cons e es).unrolls from rfl, unrolls_last]
        exact Option.mem_map_of_mem _ hx) (fun y hy => by
          rw [show Exprs.cons e.unroll es.unrolls = (Exprs.cons e es).unrolls from rfl, unrolls_toList] at hy
          obtain ⟨z, hz, rfl⟩ := List.mem_map.1 hy
          exact (ih z hz (hm z hz)).stores.2 (h2 z hz))
      have hv : (Expr.forEach (.cons e es) w).unroll.view = w := by
        rw [h3 x hx]
        exact this.1.trans (ih x hxl (hm x hxl)).view
      obtain ⟨hr, hk⟩ := StoresValue.root (e := (Expr.forEach (.cons e es) w).unroll) this.2
      exact ⟨hv, hr.trans (by rw [hv]; rfl), hk, ⟨fun _ => by simp [Expr.StoresValue, Exprs.length], fun _ => this.2⟩⟩
  | _ => intro h; exact ⟨rfl, rfl, rfl, Iff.rfl⟩

/-! ### Evaluation -/

theorem stores_ref {e : Expr α} (he : e.StoresValue) {s s' : St α} {r : Ref α} (h : e.feval s = some (s', r)) : r = .ptr e.view.val := by
  cases e with
  | var | const | cview | ifElse => exact he.elim
  | unary op e w | pow n e w | transpose e w | prodElem e w c =>
    simp only [Expr.feval, Option.bind_eq_bind, Option.bind_eq_some_iff, Prod.exists] at h
    obtain ⟨s1, r1, h1, x, -, s2, h2, h3⟩ := h
    cases h3; rfl
  | binary op l r w =>
    simp only [Expr.feval, Option.bind_eq_bind, Option.bind_eq_some_iff, Prod.exists] at h
    obtain ⟨s1, r1, h1, s2, r2, h2, h⟩ := h
    split at h
    · simp only [Option.bind_eq_some_iff] at h
      obtain ⟨x, -, y, -, h⟩ := h
      split at h
      · simp only [Option.bind_eq_some_iff] at h
        obtain ⟨s3, h3, h4⟩ := h
        cases h4; rfl
      · cases h
    · cases h
  | dot l r w =>
    simp only [Expr.feval, Option.bind_eq_bind, Option.bind_eq_some_iff, Prod.exists] at h
    obtain ⟨s1, r1, h1, s2, r2, h2, x, -, y, -, s3, h3, h4⟩ := h
    cases h4; rfl
  | sumIter es w | prodIter es w =>
    simp only [Expr.feval, Option.bind_eq_bind, Option.bind_eq_some_iff, Prod.exists] at h
    obtain ⟨s1, h1, s2, rs, h2, h3⟩ := h
    cases h3; rfl
  | reduce op es w =>
    simp only [Expr.feval, Option.bind_eq_bind, Option.bind_eq_some_iff, Prod.exists] at h
    obtain ⟨s1, rs, h1, args, -, v, -, s2, h2, h3⟩ := h
    cases h3; rfl
  | eq v e w =>
    simp only [Expr.feval, Option.bind_eq_bind, Option.bind_eq_some_iff, Prod.exists] at h
    obtain ⟨s1, r1, h1, h⟩ := h
    split at h
    · simp only [Option.bind_eq_some_iff] at h
      obtain ⟨x, -, s2, h2, s3, h3, h4⟩ := h
      cases h4; rfl
    · cases h
  | opEq op v e w c =>
    simp only [Expr.feval, Option.bind_eq_bind, Option.bind_eq_some_iff, Prod.exists] at h
    obtain ⟨x0, -, s0, h0, s1, r1, h1, h⟩ := h
    split at h
    · simp only [Option.bind_eq_some_iff] at h
      obtain ⟨x, -, y, -, h⟩ := h
      split at h
      · simp only [Option.bind_eq_some_iff] at h
        obtain ⟨s3, h3, h4⟩ := h
        cases h4; rfl
      · cases h
    · cases h
  | glue l r w =>
    simp only [Expr.feval, Option.bind_eq_bind, Option.bind_eq_some_iff, Prod.exists] at h
    obtain ⟨s1, r1, h1, s2, r2, h2, x, -, s3, h3, h4⟩ := h
    cases h4; rfl
  | forEach es w =>
    simp only [Expr.feval] at h
    split at h
    · cases h; rfl
    · simp only [Option.bind_eq_bind, Option.bind_eq_some_iff, Prod.exists] at h
      obtain ⟨s1, rs, h1, h⟩ := h
      split at h
      · simp only [Option.bind_eq_some_iff] at h
        obtain ⟨x, -, s3, h3, h4⟩ := h
        cases h4; rfl
      · cases h

/-- the cells of a stored value are accessible afterwards -/
theorem feval_root' {e : Expr α} (he : e.StoresValue) {s s' : St α} {r : Ref α} (h : e.feval s = some (s', r)) : accessible s'.vok e.view.val e.size := by
  rw [(feval_same _ _ _ _ h).1]
  exact feval_root he h

/-- nothing to do after each element -/
abbrev skip : St α → Ref α → Shape → Option (St α) := fun s _ _ => some s

theorem glue_feval {l r : Expr α} (hr : r.StoresValue) (s : St α) :
    (Expr.glue l r r.view).feval s = (l.feval s).bind fun p => (r.feval p.1).bind fun q => some (q.1, .ptr r.view.val) := by
  rw [Expr.feval]
  simp only [Option.bind_eq_bind]
  refine Option.bind_congr fun ⟨s1, r1⟩ _ => Option.bind_congr fun ⟨s2, r2⟩ h2 => ?_
  obtain rfl := stores_ref hr h2
  have hacc := feval_root' hr h2
  simp only [Ref.read, readCells_eq hacc, Option.bind_some]
  rw [show r.view.size = r.size from rfl, assign_self hacc]
  rfl

theorem fevals_last {es : Exprs α} {s s' : St α} {rs : List (Ref α × Shape)} (h : es.fevals skip s = some (s', rs)) :
    ∀ x ∈ es.last, x.StoresValue → accessible s'.vok x.view.val x.size := by
  induction es using Exprs.rec (motive_1 := fun _ => True) generalizing s rs with
  | nil => simp [Exprs.last]
  | cons e es _ ih =>
    simp only [Exprs.fevals, Option.bind_eq_bind, Option.bind_eq_some_iff, Prod.exists] at h
    obtain ⟨s1, r1, h1, s2, h2, s3, r3, h3, h4⟩ := h
    cases h2; cases h4
    cases es with
    | nil =>
      intro x hx hs
      obtain rfl : e = x := by simpa [Exprs.last] using hx
      cases h3
      exact feval_root' hs h1
    | cons => exact ih h3
  | _ => trivial

theorem loop_feval {es : Exprs α} {w : View} (hn : es.length ≠ 0) (hs : ∀ x ∈ es.toList, x.StoresValue) (hw : ∀ x ∈ es.last, w = x.view) (s : St α) :
    (Expr.forEach es w).feval s = (es.fevals skip s).bind fun p => some (p.1, .ptr es.lastView.val) := by
  obtain ⟨x, hx⟩ := Exprs.exists_last hn
  obtain ⟨l1, l2, l3, l4, -⟩ := Exprs.last_spec hx
  rw [Expr.feval, if_neg hn]
  simp only [Option.bind_eq_bind]
  refine Option.bind_congr fun ⟨s1, rs⟩ h1 => ?_
  have hacc := fevals_last h1 x hx (hs x l4)
  simp only [l1, l2, l3, (StoresValue.root (hs x l4)).1, Ref.read]
  rw [if_pos (by rw [hw x hx]; exact ⟨rfl, rfl⟩), show x.shape.size = x.size from rfl, readCells_eq hacc, hw x hx]
  simp only [Option.bind_some]
  rw [show x.view.size = x.size from rfl, assign_self hacc]
  rfl

theorem chain_feval (es : Exprs α) (f : Expr α) (hs : ∀ x ∈ (Exprs.cons f es).toList, x.StoresValue) (s : St α) :
    (es.chain f).feval s = ((Exprs.cons f es).fevals skip s).bind fun p => some (p.1, .ptr (Exprs.cons f es).lastView.val) := by
  induction es using Exprs.rec (motive_1 := fun _ => True) generalizing f with
  | nil =>
    simp only [Exprs.chain, Exprs.fevals, Exprs.lastView, Option.bind_eq_bind, Option.bind_some, Option.bind_assoc]
    cases h : f.feval s with
    | none => rfl
    | some p =>
      obtain ⟨s1, r1⟩ := p
      obtain rfl := stores_ref (hs f (by simp [Exprs.toList])) h
      rfl
  | cons e es _ ih =>
    simp only [Exprs.toList, List.mem_cons] at hs
    rw [Exprs.chain, ih _ fun x hx => ?_]
    · have hl : (Exprs.cons (.glue f e e.view) es).lastView = (Exprs.cons f (.cons e es)).lastView := by
        cases es <;> rfl
      rw [hl]
      simp only [Exprs.fevals, glue_feval (hs e (.inr (.inl rfl))), Option.bind_eq_bind, Option.bind_some, Option.bind_assoc]
    · simp only [Exprs.toList, List.mem_cons] at hx
      rcases hx with rfl | hx
      · trivial
      · exact hs x (.inr (.inr hx))
  | _ => trivial

theorem unrolls_fevals {es : Exprs α} (hb : es.LoopsBs) (ih : ∀ x ∈ es.toList, x.LoopsB → ∀ s, x.unroll.feval s = x.feval s) (k : St α → Ref α → Shape → Option (St α))
    (s : St α) : es.unrolls.fevals k s = es.fevals k s := by
  induction es using Exprs.rec (motive_1 := fun _ => True) generalizing s with
  | nil => rfl
  | cons e es _ ihs =>
    simp only [Exprs.unrolls, Exprs.fevals, ih e (by simp [Exprs.toList]) hb.1, (unroll_root e hb.1).shape,
      ihs hb.2 fun x hx => ih x (by simp [Exprs.toList, hx])]
  | _ => trivial

theorem unroll_feval (e : Expr α) : e.LoopsB → ∀ s, e.unroll.feval s = e.feval s := by
  induction e using Expr.induct with
  | var | const | cview => intro _ s; rfl
  | unary op e w ih | pow n e w ih | prodElem e w c ih | transpose e w ih | eq v e w ih | opEq op v e w c ih =>
    intro h s
    simp only [Expr.unroll, Expr.feval, ih h, (unroll_root e h).shape, (unroll_root e h).size]
  | binary op l r w ihl ihr | dot l r w ihl ihr | glue l r w ihl ihr =>
    intro h s
    simp only [Expr.unroll, Expr.feval, ihl h.1, ihr h.2, (unroll_root l h.1).shape, (unroll_root l h.1).size, (unroll_root r h.2).shape, (unroll_root r h.2).size]
  | sumIter es w ih | prodIter es w ih | reduce op es w ih =>
    intro h s
    simp only [Expr.unroll, Expr.feval, unrolls_fevals h ih]
  | ifElse c x y w ihc ihx ihy =>
    intro h s
    simp only [Expr.unroll, Expr.feval, ihc h.1, ihx h.2.1, ihy h.2.2, (unroll_root x h.2.1).ret, (unroll_root y h.2.2).ret]
  | forEach es w ih =>
    intro h s
    cases es with
    | nil => rfl
    | cons e es =>
      obtain ⟨h1, h2, h3⟩ := h
      have hm := LoopsBs.mem h1
      obtain ⟨x, hx⟩ := Exprs.exists_last (es := .cons e es) (by simp [Exprs.length])
      have hxl := (Exprs.last_spec hx).2.2.2.1
      rw [Expr.unroll, chain_feval _ _ fun y hy => ?_, loop_feval (by simp [Exprs.length]) h2 h3]
      · rw [show Exprs.cons e.unroll es.unrolls = (Exprs.cons e es).unrolls from rfl, unrolls_fevals h1 ih]
        have hx' : x.unroll ∈ (Exprs.cons e es).unrolls.last := by rw [unrolls_last]; exact Option.mem_map_of_mem _ hx
        rw [(Exprs.last_spec hx').2.2.1, (Exprs.last_spec hx).2.2.1, (unroll_root x (hm x hxl)).view]
      · rw [show Exprs.cons e.unroll es.unrolls = (Exprs.cons e es).unrolls from rfl, unrolls_toList] at hy
        obtain ⟨z, hz, rfl⟩ := List.mem_map.1 hy
        exact (unroll_root z (hm z hz)).stores.2 (h2 z hz)

/-! ### Backward evaluation -/

/-- the seeds of `ForEachNode::beval` -/
abbrev lastSeed (n : ℕ) (seed : ℕ → α) : ℕ → Ref α → Shape → St α → Option (St α × Option (ℕ → α)) :=
  fun i _ _ s => some (s, some (if i + 1 = n then seed else fun _ => 0))

theorem chain_beval (es : Exprs α) (f : Expr α) (seed : ℕ → α) (n i : ℕ) (hn : i + (Exprs.cons f es).length = n) (s : St α) :
    (es.chain f).beval seed s = (Exprs.cons f es).bevals (lastSeed n seed) (fun _ _ _ _ s => some s) i s := by
  induction es using Exprs.rec (motive_1 := fun _ => True) generalizing f i with
  | nil =>
    simp only [Exprs.length] at hn
    simp only [Exprs.chain, Exprs.bevals, Option.bind_eq_bind, Option.bind_some]
    rw [if_pos (by omega)]
    exact (Option.bind_fun_some _).symm
  | cons e es _ ih =>
    simp only [Exprs.length] at hn
    rw [Exprs.chain, ih (.glue f e e.view) (i + 1) (by simp only [Exprs.length]; omega)]
    simp only [Exprs.bevals, Expr.beval, Option.bind_eq_bind, Option.bind_some, Option.bind_assoc]
    refine Option.bind_congr fun s0 _ => ?_
    refine Option.bind_congr fun s1 _ => ?_
    rw [if_neg (by omega)]
  | _ => trivial

theorem unrolls_bevals {es : Exprs α} (hb : es.LoopsBs) (ih : ∀ x ∈ es.toList, x.LoopsB → ∀ g s, x.unroll.beval g s = x.beval g s)
    (pre : ℕ → Ref α → Shape → St α → Option (St α × Option (ℕ → α))) (post : St α → ℕ → Ref α → Shape → St α → Option (St α)) (i : ℕ)
    (s : St α) : es.unrolls.bevals pre post i s = es.bevals pre post i s := by
  induction es using Exprs.rec (motive_1 := fun _ => True) generalizing i s with
  | nil => rfl
  | cons e es _ ihs =>
    simp only [Exprs.unrolls, Exprs.bevals, ih e (by simp [Exprs.toList]) hb.1, (unroll_root e hb.1).shape, (unroll_root e hb.1).ref,
      ihs hb.2 fun x hx => ih x (by simp [Exprs.toList, hx])]
  | _ => trivial

theorem unrolls_getRefs {es : Exprs α} (hb : es.LoopsBs) : es.unrolls.getRefs = es.getRefs := by
  induction es using Exprs.rec (motive_1 := fun _ => True) with
  | nil => rfl
  | cons e es _ ihs => simp only [Exprs.unrolls, Exprs.getRefs, (unroll_root e hb.1).shape, (unroll_root e hb.1).ref, ihs hb.2]
  | _ => trivial

theorem unroll_beval (e : Expr α) : e.LoopsB → ∀ g s, e.unroll.beval g s = e.beval g s := by
  induction e using Expr.induct with
  | var | const | cview => intro _ g s; rfl
  | unary op e w ih | pow n e w ih | prodElem e w c ih | transpose e w ih | eq v e w ih | opEq op v e w c ih =>
    intro h g s
    simp only [Expr.unroll, Expr.beval, Expr.readBack, ih h, (unroll_root e h).shape, (unroll_root e h).size, (unroll_root e h).ref]
  | binary op l r w ihl ihr | dot l r w ihl ihr | glue l r w ihl ihr =>
    intro h g s
    simp only [Expr.unroll, Expr.beval, Expr.readBack, ihl h.1, ihr h.2, (unroll_root l h.1).shape, (unroll_root l h.1).size, (unroll_root r h.2).shape,
      (unroll_root r h.2).size, (unroll_root l h.1).ref, (unroll_root r h.2).ref]
  | sumIter es w ih | prodIter es w ih | reduce op es w ih =>
    intro h g s
    simp only [Expr.unroll, Expr.beval, unrolls_length, unrolls_getRefs h, unrolls_bevals h ih]
  | ifElse c x y w ihc ihx ihy =>
    intro h g s
    simp only [Expr.unroll, Expr.beval, ihx h.2.1, ihy h.2.2, (unroll_root c h.1).ref]
  | forEach es w ih =>
    intro h g s
    cases es with
    | nil => rfl
    | cons e es =>
      rw [Expr.unroll, chain_beval es.unrolls e.unroll g (Exprs.cons e es).length 0 (by simp [Exprs.length, unrolls_length]) s,
        show Exprs.cons e.unroll es.unrolls = (Exprs.cons e es).unrolls from rfl, unrolls_bevals h.1 ih]
      rfl

/-! ### Binding -/

theorem bind_stores (e : Expr α) (b : Pack) : (e.bind b).1.StoresValue ↔ e.StoresValue := by
  cases e with
  | forEach es w => simp only [Expr.bind, Expr.StoresValue, Exprs.length_bind]
  | _ => rfl

theorem bind_shape' (e : Expr α) (b : Pack) : (e.bind b).1.shape = e.shape := Expr.shape_of_strip (bind_strip e b)

theorem bind_toList (es : Exprs α) (b : Pack) : ∀ x ∈ (es.bind b).1.toList, ∃ y ∈ es.toList, ∃ c, x = (y.bind c).1 := by
  induction es using Exprs.rec (motive_1 := fun _ => True) generalizing b with
  | nil => simp [Exprs.bind, Exprs.toList]
  | cons e es _ ih =>
    intro x hx
    simp only [Exprs.bind, Exprs.toList, List.mem_cons] at hx ⊢
    rcases hx with rfl | hx
    · exact ⟨e, .inl rfl, b, rfl⟩
    · obtain ⟨y, hy, c, rfl⟩ := ih _ x hx
      exact ⟨y, .inr hy, c, rfl⟩
  | _ => trivial

theorem bind_last' (es : Exprs α) (b : Pack) : ∀ x ∈ (es.bind b).1.last, ∃ y ∈ es.last, ∃ c, x = (y.bind c).1 := by
  induction es using Exprs.rec (motive_1 := fun _ => True) generalizing b with
  | nil => simp [Exprs.bind, Exprs.last]
  | cons e es _ ih =>
    cases es with
    | nil =>
      intro x hx
      obtain rfl : (e.bind b).1 = x := by simpa [Exprs.bind, Exprs.last] using hx
      exact ⟨e, by simp [Exprs.last], b, rfl⟩
    | cons e' es => exact ih (e.bind b).2
  | _ => trivial

theorem rebind_loopsB {e : Expr α} (h : e.LoopsB) (hl : e.isLoop = false) (v a : Option ℕ) : (e.rebind v a).LoopsB := by
  cases e <;> first | exact h | simp [Expr.isLoop] at hl

theorem bind_isLoop (e : Expr α) (b : Pack) : (e.bind b).1.isLoop = e.isLoop := by
  cases e <;> rfl

theorem bind_loopsB (e : Expr α) : e.LoopsOk → ∀ b, (e.bind b).1.LoopsB := by
  have list : ∀ es : Exprs α, (∀ e ∈ es.toList, e.LoopsOk → ∀ b, (e.bind b).1.LoopsB) → es.LoopsOks → ∀ b, (es.bind b).1.LoopsBs := by
    intro es
    induction es using Exprs.rec (motive_1 := fun _ => True) with
    | nil => intro _ _ b; trivial
    | cons e es _ ih =>
      intro he hok b
      exact ⟨he e (by simp [Exprs.toList]) hok.1 b, ih (fun x hx => he x (by simp [Exprs.toList, hx])) hok.2 _⟩
    | _ => trivial
  induction e using Expr.induct with
  | var | const | cview => intro _ b; trivial
  | unary op e w ih | pow n e w ih | prodElem e w c ih | transpose e w ih | opEq op v e w c ih => intro h b; exact ih h b
  | binary op l r w ihl ihr | dot l r w ihl ihr | glue l r w ihl ihr => intro h b; exact ⟨ihl h.1 _, ihr h.2 _⟩
  | sumIter es w ih | prodIter es w ih | reduce op es w ih => intro h b; exact list es ih h b
  | ifElse c x y w ihc ihx ihy => intro h b; exact ⟨ihc h.1 _, ihx h.2.1 _, ihy h.2.2 _⟩
  | eq v e w ih => intro h b; exact rebind_loopsB (ih h.1 b) ((bind_isLoop e b).trans h.2) _ _
  | forEach es w ih =>
    intro h b
    refine ⟨list es ih h.1 b, fun x hx => ?_, fun x hx => ?_⟩
    · obtain ⟨y, hy, c, rfl⟩ := bind_toList es b x hx
      exact (bind_stores y c).2 (h.2.1 y hy)
    · obtain ⟨y, hy, c, rfl⟩ := bind_last' es b x hx
      rw [if_neg (Exprs.last_spec hy).2.2.2.2, (Exprs.last_spec hx).2.2.1, h.2.2 y hy, ← bind_shape' y c]
      rfl

theorem rebind_unroll {e : Expr α} (hl : e.isLoop = false) (v a : Option ℕ) : (e.rebind v a).unroll = e.unroll.rebind v a := by
  cases e <;> first | rfl | simp [Expr.isLoop] at hl

theorem writtenOuts_last (es : Exprs α) : es.writtenOuts.last = es.last.map Expr.writtenOut := by
  induction es using Exprs.rec (motive_1 := fun _ => True) with
  | nil => rfl
  | cons e es _ ih => cases es with
    | nil => rfl
    | cons => exact ih
  | _ => trivial

theorem writtenOut_shape (e : Expr α) : e.LoopsOk → e.writtenOut.shape = e.shape := by
  induction e using Expr.induct with
  | forEach es w ih =>
    intro h
    cases es with
    | nil => rfl
    | cons e es =>
      obtain ⟨x, hx⟩ := Exprs.exists_last (es := .cons e es) (by simp [Exprs.length])
      have hx' : x.writtenOut ∈ (Exprs.cons e es).writtenOuts.last := by rw [writtenOuts_last]; exact Option.mem_map_of_mem _ hx
      have hl := (Exprs.last_spec hx).2.2.2.1
      rw [Expr.writtenOut, glued_shape _ _ x.writtenOut hx', ih x hl (LoopsOks.mem h.1 x hl)]
      exact (h.2.2 x hx).symm
  | _ => intro h; rfl

theorem writtenOut_single {e : Expr α} (h : e.LoopsOk) (hl : e.isLoop = false) : e.writtenOut.single = e.single := by
  cases e with
  | prodElem e w c => simp only [Expr.writtenOut, Expr.single, show e.writtenOut.size = e.size from congrArg Shape.size (writtenOut_shape e h)]
  | forEach => simp [Expr.isLoop] at hl
  | _ => rfl

/-- the number of cells: bound expressions one after the other -/
theorem writtenOut_bindSize (e : Expr α) : e.LoopsOk → e.writtenOut.bindSize = e.bindSize := by
  have list : ∀ es : Exprs α, (∀ e ∈ es.toList, e.LoopsOk → e.writtenOut.bindSize = e.bindSize) → es.LoopsOks → es.writtenOuts.bindSize = es.bindSize := by
    intro es
    induction es using Exprs.rec (motive_1 := fun _ => True) with
    | nil => intro _ _; rfl
    | cons e es _ ih =>
      intro he hok
      simp only [Exprs.writtenOuts, Exprs.bindSize, he e (by simp [Exprs.toList]) hok.1, ih (fun x hx => he x (by simp [Exprs.toList, hx])) hok.2]
    | _ => trivial
  induction e using Expr.induct with
  | var | const | cview => intro _; rfl
  | unary op e w ih | pow n e w ih | transpose e w ih | opEq op v e w c ih => intro h; simp only [Expr.writtenOut, Expr.bindSize, ih h]; rfl
  | prodElem e w c ih =>
    intro h
    simp only [Expr.writtenOut, Expr.bindSize, ih h]
    congr 1
    exact writtenOut_single (e := .prodElem e w c) h rfl
  | binary op l r w ihl ihr | dot l r w ihl ihr => intro h; simp only [Expr.writtenOut, Expr.bindSize, ihl h.1, ihr h.2]; rfl
  | glue l r w ihl ihr => intro h; simp only [Expr.writtenOut, Expr.bindSize, ihl h.1, ihr h.2]
  | sumIter es w ih | prodIter es w ih | reduce op es w ih => intro h; simp only [Expr.writtenOut, Expr.bindSize, list es ih h]; rfl
  | ifElse c x y w ihc ihx ihy => intro h; simp only [Expr.writtenOut, Expr.bindSize, ihc h.1, ihx h.2.1, ihy h.2.2]
  | eq v e w ih => intro h; simp only [Expr.writtenOut, Expr.bindSize, ih h.1, writtenOut_single h.1 h.2]
  | forEach es w ih =>
    intro h
    cases es with
    | nil => rfl
    | cons e es =>
      have := list _ ih h.1
      rw [Expr.writtenOut, glued_size es.writtenOuts e.writtenOut]
      exact this

theorem glued_bind (es : Exprs α) (f : Expr α) (b : Pack) :
    (es.glued f).bind b = (((es.bind (f.bind b).2).1).chain (f.bind b).1, (es.bind (f.bind b).2).2) := by
  induction es using Exprs.rec (motive_1 := fun _ => True) generalizing f b with
  | nil => rfl
  | cons e es _ ih =>
    rw [Exprs.glued, ih]
    simp only [Expr.mkGlue, Expr.bind, Exprs.bind, Exprs.chain, View.null]
    rw [← bind_shape' e (f.bind b).2]
    rfl
  | _ => trivial

theorem writtenOut_bind (e : Expr α) : e.LoopsOk → ∀ b, e.writtenOut.bind b = ((e.bind b).1.unroll, (e.bind b).2) := by
  have list : ∀ es : Exprs α, (∀ e ∈ es.toList, e.LoopsOk → ∀ b, e.writtenOut.bind b = ((e.bind b).1.unroll, (e.bind b).2)) → es.LoopsOks →
      ∀ b, es.writtenOuts.bind b = ((es.bind b).1.unrolls, (es.bind b).2) := by
    intro es
    induction es using Exprs.rec (motive_1 := fun _ => True) with
    | nil => intro _ _ b; rfl
    | cons e es _ ih =>
      intro he hok b
      simp only [Exprs.writtenOuts, Exprs.bind, he e (by simp [Exprs.toList]) hok.1, ih (fun x hx => he x (by simp [Exprs.toList, hx])) hok.2]
      rfl
    | _ => trivial
  induction e using Expr.induct with
  | var | const | cview => intro _ b; rfl
  | unary op e w ih | pow n e w ih | transpose e w ih | opEq op v e w c ih => intro h b; simp only [Expr.writtenOut, Expr.bind, ih h]; rfl
  | prodElem e w c ih =>
    intro h b
    simp only [Expr.writtenOut, Expr.bind, ih h, show e.writtenOut.size = e.size from congrArg Shape.size (writtenOut_shape e h)]
    rfl
  | binary op l r w ihl ihr | dot l r w ihl ihr => intro h b; simp only [Expr.writtenOut, Expr.bind, ihl h.1, ihr h.2]; rfl
  | glue l r w ihl ihr =>
    intro h b
    simp only [Expr.writtenOut, Expr.bind, ihl h.1, ihr h.2, (unroll_root _ (bind_loopsB r h.2 _)).view]
    rfl
  | sumIter es w ih | prodIter es w ih | reduce op es w ih => intro h b; simp only [Expr.writtenOut, Expr.bind, list es ih h]; rfl
  | ifElse c x y w ihc ihx ihy => intro h b; simp only [Expr.writtenOut, Expr.bind, ihc h.1, ihx h.2.1, ihy h.2.2]; rfl
  | eq v e w ih =>
    intro h b
    simp only [Expr.writtenOut, Expr.bind, ih h.1, writtenOut_single h.1 h.2]
    rw [← rebind_unroll ((bind_isLoop e b).trans h.2)]
    rfl
  | forEach es w ih =>
    intro h b
    cases es with
    | nil => rfl
    | cons e es =>
      have := list _ ih h.1 b
      simp only [Exprs.writtenOuts, Exprs.bind, Prod.mk.injEq] at this
      rw [Expr.writtenOut, glued_bind]
      simp only [Exprs.unrolls, Exprs.cons.injEq] at this
      obtain ⟨⟨h1, h2⟩, h3⟩ := this
      simp only [Expr.bind, Exprs.bind, Expr.unroll]
      rw [h1, h2, h3]

/-! ### Variables -/

theorem writtenOut_vars (e : Expr α) : e.writtenOut.vars = e.vars ∧ e.writtenOut.cviews = e.cviews := by
  have list : ∀ es : Exprs α, (∀ e ∈ es.toList, e.writtenOut.vars = e.vars ∧ e.writtenOut.cviews = e.cviews) →
      es.writtenOuts.varss = es.varss ∧ es.writtenOuts.cviewss = es.cviewss := by
    intro es
    induction es using Exprs.rec (motive_1 := fun _ => True) with
    | nil => intro _; exact ⟨rfl, rfl⟩
    | cons e es _ ih =>
      intro he
      obtain ⟨h1, h2⟩ := he e (by simp [Exprs.toList])
      obtain ⟨h3, h4⟩ := ih fun x hx => he x (by simp [Exprs.toList, hx])
      exact ⟨by simp only [Exprs.writtenOuts, Exprs.varss, h1, h3], by simp only [Exprs.writtenOuts, Exprs.cviewss, h2, h4]⟩
    | _ => trivial
  induction e using Expr.induct with
  | var | const | cview => exact ⟨rfl, rfl⟩
  | unary op e w ih | pow n e w ih | prodElem e w c ih | transpose e w ih | eq v e w ih | opEq op v e w c ih =>
    exact ⟨by simp only [Expr.writtenOut, Expr.vars, ih.1], by simp only [Expr.writtenOut, Expr.cviews, ih.2]⟩
  | binary op l r w ihl ihr | dot l r w ihl ihr | glue l r w ihl ihr =>
    exact ⟨by simp only [Expr.writtenOut, Expr.vars, ihl.1, ihr.1], by simp only [Expr.writtenOut, Expr.cviews, ihl.2, ihr.2]⟩
  | sumIter es w ih | prodIter es w ih | reduce op es w ih =>
    exact ⟨by simp only [Expr.writtenOut, Expr.vars, (list es ih).1], by simp only [Expr.writtenOut, Expr.cviews, (list es ih).2]⟩
  | ifElse c x y w ihc ihx ihy =>
    exact ⟨by simp only [Expr.writtenOut, Expr.vars, ihc.1, ihx.1, ihy.1], by simp only [Expr.writtenOut, Expr.cviews, ihc.2, ihx.2, ihy.2]⟩
  | forEach es w ih =>
    cases es with
    | nil => exact ⟨rfl, rfl⟩
    | cons e es =>
      obtain ⟨h1, h2⟩ := list _ ih
      exact ⟨by rw [Expr.writtenOut, glued_vars]; exact h1, by rw [Expr.writtenOut, glued_cviews]; exact h2⟩

/-! ### The functions of the library -/

theorem writtenOut_bindExpr {e : Expr α} (h : e.LoopsOk) (qv qa : ℕ) (jv ja : ℕ → α) (s : St α) :
    bindExpr e.writtenOut qv qa jv ja s = ((bindExpr e qv qa jv ja s).1.unroll, (bindExpr e qv qa jv ja s).2) := by
  simp only [bindExpr, writtenOut_bindSize e h, writtenOut_bind e h]

theorem unroll_evaluate {e : Expr α} (h : e.LoopsB) (s : St α) : evaluate e.unroll s = evaluate e s := by
  simp only [evaluate, unroll_feval e h, (unroll_root e h).shape]

theorem unroll_autodiff {e : Expr α} (h : e.LoopsB) (g : ℕ → α) (s : St α) : autodiff e.unroll g s = autodiff e g s := by
  simp only [autodiff, evaluateAdj, unroll_evaluate h, unroll_beval e h]

end FastAD
