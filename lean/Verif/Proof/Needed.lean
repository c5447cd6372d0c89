import Verif.Proof.ProgBind
import Verif.Spec.Needed

/-!
# Cells that are needed for evaluation
-/

namespace FastAD

variable {α : Type}

/-- nothing was allocated or freed -/
def SameOk (s s' : St α) : Prop := s'.vok = s.vok ∧ s'.aok = s.aok

theorem SameOk.refl (s : St α) : SameOk s s := ⟨rfl, rfl⟩
theorem SameOk.trans {s t u : St α} (h : SameOk s t) (h' : SameOk t u) : SameOk s u := ⟨h'.1.trans h.1, h'.2.trans h.2⟩

theorem writeV_some {s s' : St α} {p : Option ℕ} {n : ℕ} {f : ℕ → α} (h : s.writeV p n f = some s') :
    accessible s.vok p n ∧ SameOk s s' := by
  unfold St.writeV at h
  split at h
  · rename_i ha
    cases h
    exact ⟨ha, rfl, rfl⟩
  · cases h

theorem assignV_some {s s' : St α} {p : Option ℕ} {n m : ℕ} {r : Ref α} {f : ℕ → α} (h : s.assignV p n r m f = some s') :
    accessible s.vok p n ∧ SameOk s s' := by
  unfold St.assignV at h
  split at h
  · exact writeV_some h
  · cases h

theorem writeA_some {s s' : St α} {p : Option ℕ} {n : ℕ} {f : ℕ → α} (h : s.writeA p n f = some s') :
    accessible s.aok p n ∧ SameOk s s' := by
  unfold St.writeA at h
  split at h
  · rename_i ha
    cases h
    exact ⟨ha, rfl, rfl⟩
  · cases h

theorem bevalVar_some [Zero α] [Add α] {v : View} {g : ℕ → α} {s s' : St α} (h : v.bevalVar g s = some s') : SameOk s s' := by
  simp only [View.bevalVar, Option.bind_eq_bind, Option.bind_eq_some_iff] at h
  obtain ⟨a, -, h⟩ := h
  exact (writeA_some h).2

theorem accessible_join {ok : ℕ → Bool} {p : Option ℕ} {a b : ℕ} (h1 : accessible ok p a) (h2 : accessible ok (p.map (· + a)) b) : accessible ok p (a + b) := by
  cases p with
  | none => simp only [accessible, Option.map_none] at h1 h2 ⊢; omega
  | some q =>
    simp only [accessible, Option.map_some] at h1 h2 ⊢
    intro k hk
    by_cases h : k < a
    · exact h1 k h
    · have := h2 (k - a) (by omega)
      rwa [show q + a + (k - a) = q + k by omega] at this

theorem accessible_zero {ok : ℕ → Bool} {p : Option ℕ} : accessible ok p 0 := by
  cases p with
  | none => rfl
  | some q => intro k hk; omega

section
variable [Zero α] [One α] [Add α] [Sub α] [Neg α] [Mul α] [Div α] [NatCast α] [IntCast α]
variable [Fn α] [HasInf α] [LinAlg α]

theorem fevals_same {k : St α → Ref α → Shape → Option (St α)} (hk : ∀ s r sh s', k s r sh = some s' → SameOk s s') (es : Exprs α)
    (ih : ∀ e ∈ es.toList, ∀ (s s' : St α) (r : Ref α), e.feval s = some (s', r) → SameOk s s') :
    ∀ (s s' : St α) rs, es.fevals k s = some (s', rs) → SameOk s s' := by
  induction es using Exprs.rec (motive_1 := fun _ => True) with
  | nil => intro s s' rs h; simp only [Exprs.fevals, Option.some.injEq, Prod.mk.injEq] at h; rw [← h.1]; exact SameOk.refl s
  | cons e es _ ihs =>
    intro s s' rs h
    simp only [Exprs.fevals, Option.bind_eq_bind, Option.bind_eq_some_iff, Prod.exists] at h
    obtain ⟨s1, r, h1, s2, h2, s3, rs', h3, h4⟩ := h
    cases h4
    exact ((ih e (by simp [Exprs.toList]) _ _ _ h1).trans (hk _ _ _ _ h2)).trans (ihs (fun x hx => ih x (by simp [Exprs.toList, hx])) _ _ _ h3)
  | _ => trivial

theorem feval_same (e : Expr α) : ∀ (s s' : St α) (r : Ref α), e.feval s = some (s', r) → SameOk s s' := by
  induction e using Expr.induct with
  | var | const | cview => intro s s' r h; simp only [Expr.feval, Option.some.injEq, Prod.mk.injEq] at h; rw [← h.1]; exact SameOk.refl s
  | unary op e w ih | pow n e w ih | transpose e w ih =>
    intro s s' r h
    simp only [Expr.feval, Option.bind_eq_bind, Option.bind_eq_some_iff, Prod.exists] at h
    obtain ⟨s1, r1, h1, x, -, s2, h2, h3⟩ := h
    cases h3
    exact (ih _ _ _ h1).trans (assignV_some h2).2
  | prodElem e w c ih =>
    intro s s' r h
    simp only [Expr.feval, Option.bind_eq_bind, Option.bind_eq_some_iff, Prod.exists] at h
    obtain ⟨s1, r1, h1, x, -, s2, h2, h3⟩ := h
    cases h3
    exact (ih _ _ _ h1).trans (writeV_some h2).2
  | binary op l r w ihl ihr =>
    intro s s' r' h
    simp only [Expr.feval, Option.bind_eq_bind, Option.bind_eq_some_iff, Prod.exists] at h
    obtain ⟨s1, r1, h1, s2, r2, h2, h⟩ := h
    split at h
    · simp only [Option.bind_eq_some_iff] at h
      obtain ⟨x, -, y, -, h⟩ := h
      split at h
      · simp only [Option.bind_eq_some_iff] at h
        obtain ⟨s3, h3, h4⟩ := h
        cases h4
        exact ((ihl _ _ _ h1).trans (ihr _ _ _ h2)).trans (assignV_some h3).2
      · cases h
    · cases h
  | dot l r w ihl ihr =>
    intro s s' r' h
    simp only [Expr.feval, Option.bind_eq_bind, Option.bind_eq_some_iff, Prod.exists] at h
    obtain ⟨s1, r1, h1, s2, r2, h2, x, -, y, -, s3, h3, h4⟩ := h
    cases h4
    exact ((ihl _ _ _ h1).trans (ihr _ _ _ h2)).trans (writeV_some h3).2
  | sumIter es w ih | prodIter es w ih =>
    intro s s' r' h
    simp only [Expr.feval, Option.bind_eq_bind, Option.bind_eq_some_iff, Prod.exists] at h
    obtain ⟨s1, h1, s2, rs, h2, h3⟩ := h
    cases h3
    refine (writeV_some h1).2.trans (fevals_same ?_ es ih _ _ _ h2)
    intro s r sh s' h
    split at h
    · simp only [Option.bind_eq_some_iff] at h
      obtain ⟨a, -, x, -, h⟩ := h
      exact (assignV_some h).2
    · cases h
  | reduce op es w ih =>
    intro s s' r' h
    simp only [Expr.feval, Option.bind_eq_bind, Option.bind_eq_some_iff, Prod.exists] at h
    obtain ⟨s1, rs, h1, args, -, v, -, s2, h2, h3⟩ := h
    cases h3
    refine (fevals_same ?_ es ih _ _ _ h1).trans (writeV_some h2).2
    intro s r sh s' h
    cases h
    exact SameOk.refl s
  | ifElse c a b w ihc iha ihb =>
    intro s s' r' h
    simp only [Expr.feval, Option.bind_eq_bind, Option.bind_eq_some_iff, Prod.exists] at h
    obtain ⟨s1, r1, h1, x, -, h⟩ := h
    split at h
    · split at h
      · exact (ihc _ _ _ h1).trans (iha _ _ _ h)
      · exact (ihc _ _ _ h1).trans (ihb _ _ _ h)
    · cases h
  | eq v e w ih =>
    intro s s' r' h
    simp only [Expr.feval, Option.bind_eq_bind, Option.bind_eq_some_iff, Prod.exists] at h
    obtain ⟨s1, r1, h1, h⟩ := h
    split at h
    · simp only [Option.bind_eq_some_iff] at h
      obtain ⟨x, -, s2, h2, s3, h3, h4⟩ := h
      cases h4
      exact ((ih _ _ _ h1).trans (assignV_some h2).2).trans (assignV_some h3).2
    · cases h
  | opEq op v e w c ih =>
    intro s s' r' h
    simp only [Expr.feval, Option.bind_eq_bind, Option.bind_eq_some_iff, Prod.exists] at h
    obtain ⟨x0, -, s1, h1, s2, r2, h2, h⟩ := h
    split at h
    · simp only [Option.bind_eq_some_iff] at h
      obtain ⟨x, -, y, -, h⟩ := h
      split at h
      · simp only [Option.bind_eq_some_iff] at h
        obtain ⟨s3, h3, h4⟩ := h
        cases h4
        exact ((assignV_some h1).2.trans (ih _ _ _ h2)).trans (assignV_some h3).2
      · cases h
    · cases h
  | glue l r w ihl ihr =>
    intro s s' r' h
    simp only [Expr.feval, Option.bind_eq_bind, Option.bind_eq_some_iff, Prod.exists] at h
    obtain ⟨s1, r1, h1, s2, r2, h2, x, -, s3, h3, h4⟩ := h
    cases h4
    exact ((ihl _ _ _ h1).trans (ihr _ _ _ h2)).trans (assignV_some h3).2
  | forEach es w ih =>
    intro s s' r' h
    simp only [Expr.feval] at h
    split at h
    · cases h
      exact SameOk.refl s
    · simp only [Option.bind_eq_bind, Option.bind_eq_some_iff, Prod.exists] at h
      obtain ⟨s1, rs, h1, h⟩ := h
      have hs := fevals_same (k := fun s _ _ => some s) (by intro s r sh s' h; cases h; exact SameOk.refl s) es ih _ _ _ h1
      split at h
      · simp only [Option.bind_eq_some_iff] at h
        obtain ⟨x, -, s2, h2, h3⟩ := h
        cases h3
        exact hs.trans (assignV_some h2).2
      · cases h

/-- a bound expression that can be evaluated has its cells; with the root bound elsewhere, the cells of the other nodes -/
structure VNeed (e : Expr α) : Prop where
  all : ∀ (b : Pack) (s s' : St α) (r : Ref α), (e.bind b).1.feval s = some (s', r) → accessible s.vok b.val e.bindSize.val
  inner : ∀ (b : Pack) (v a : Option ℕ) (s s' : St α) (r : Ref α), ((e.bind b).1.rebind v a).feval s = some (s', r) →
    accessible s.vok b.val (e.bindSize.val - e.single.val)

/-- a list of bound expressions -/
theorem fevals_need {k : St α → Ref α → Shape → Option (St α)} (hk : ∀ s r sh s', k s r sh = some s' → SameOk s s') (es : Exprs α)
    (ih : ∀ e ∈ es.toList, VNeed e) : ∀ (b : Pack) (s s' : St α) rs, (es.bind b).1.fevals k s = some (s', rs) → accessible s.vok b.val es.bindSize.val := by
  induction es using Exprs.rec (motive_1 := fun _ => True) with
  | nil => intro b s s' rs h; exact accessible_zero
  | cons e es _ ihs =>
    intro b s s' rs h
    simp only [Exprs.bind, Exprs.fevals, Option.bind_eq_bind, Option.bind_eq_some_iff, Prod.exists] at h
    obtain ⟨s1, r, h1, s2, h2, s3, rs', h3, h4⟩ := h
    have ha := (ih e (by simp [Exprs.toList])).all b _ _ _ h1
    have hb := ihs (fun x hx => ih x (by simp [Exprs.toList, hx])) _ _ _ _ h3
    rw [(hk _ _ _ _ h2).1, (feval_same _ _ _ _ h1).1, bind_adv] at hb
    exact accessible_join ha hb
  | _ => trivial

/-- a node whose own cells follow those of its operands -/
theorem VNeed.of {e : Expr α} {n : Pack → SizePack} (hn : ∀ b, e.bindSize.val = (n b).val + e.single.val)
    (hall : ∀ (b : Pack) (s s' : St α) (r : Ref α), (e.bind b).1.feval s = some (s', r) →
      accessible s.vok b.val (n b).val ∧ accessible s.vok (b.val.map (· + (n b).val)) e.single.val)
    (hin : ∀ (b : Pack) (v a : Option ℕ) (s s' : St α) (r : Ref α), ((e.bind b).1.rebind v a).feval s = some (s', r) →
      accessible s.vok b.val (n b).val) : VNeed e where
  all b s s' r h := by
    rw [hn b]
    exact accessible_join (hall b s s' r h).1 (hall b s s' r h).2
  inner b v a s s' r h := by
    rw [hn b, Nat.add_sub_cancel]
    exact hin b v a s s' r h

theorem feval_need (e : Expr α) : e.NoIf → VNeed e := by
  have list : ∀ es : Exprs α, es.NoIfs → (∀ e ∈ es.toList, e.NoIf → VNeed e) → ∀ e ∈ es.toList, VNeed e := by
    intro es
    induction es using Exprs.rec (motive_1 := fun _ => True) with
    | nil => intro _ _ e he; simp [Exprs.toList] at he
    | cons e es _ ihs =>
      intro hn hP x hx
      simp only [Exprs.toList, List.mem_cons] at hx
      rcases hx with rfl | hx
      · exact hP _ (by simp [Exprs.toList]) hn.1
      · exact ihs hn.2 (fun y hy => hP y (by simp [Exprs.toList, hy])) x hx
    | _ => trivial
  induction e using Expr.induct with
  | var | const | cview => intro _; exact ⟨fun _ _ _ _ _ => accessible_zero, fun _ _ _ _ _ _ _ => by simpa [Expr.bindSize] using accessible_zero⟩
  | unary op e w ih | transpose e w ih =>
    intro hn
    have key : ∀ (b : Pack) (w' : View) (s s' : St α) (r : Ref α), (Expr.feval (by first | exact .unary op (e.bind b).1 w' | exact .transpose (e.bind b).1 w') s) = some (s', r) →
        accessible s.vok b.val e.bindSize.val ∧ accessible s.vok w'.val w'.size := by
      intro b w' s s' r h
      simp only [Expr.feval, Option.bind_eq_bind, Option.bind_eq_some_iff, Prod.exists] at h
      obtain ⟨s1, r1, h1, x, -, s2, h2, -⟩ := h
      refine ⟨(ih hn).all b _ _ _ h1, ?_⟩
      rw [← (feval_same _ _ _ _ h1).1]
      exact (assignV_some h2).1
    refine .of (n := fun _ => e.bindSize) (fun b => ?_) (fun b s s' r h => ?_) (fun b v a s s' r h => (key b _ s s' r h).1)
    · simp only [Expr.bindSize, SizePack.add_val]; try omega
    · have := key b _ s s' r h
      rwa [bind_adv] at this
  | pow n e w ih =>
    intro hn
    have key : ∀ (b : Pack) (w' : View) (s s' : St α) (r : Ref α), (Expr.pow n (e.bind b).1 w').feval s = some (s', r) →
        accessible s.vok b.val e.bindSize.val ∧ accessible s.vok w'.val w'.size := by
      intro b w' s s' r h
      simp only [Expr.feval, Option.bind_eq_bind, Option.bind_eq_some_iff, Prod.exists] at h
      obtain ⟨s1, r1, h1, x, -, s2, h2, -⟩ := h
      refine ⟨(ih hn).all b _ _ _ h1, ?_⟩
      rw [← (feval_same _ _ _ _ h1).1]
      exact (assignV_some h2).1
    refine .of (n := fun _ => e.bindSize) (fun b => ?_) (fun b s s' r h => ?_) (fun b v a s s' r h => (key b _ s s' r h).1)
    · simp only [Expr.bindSize, SizePack.add_val]; omega
    · simp only [Expr.bind] at h
      have := key b _ s s' r h
      rw [bind_adv] at this
      refine ⟨this.1, ?_⟩
      have h2 := this.2
      simp only [Expr.single]
      split at h2 <;> rename_i hc <;> simp only [hc, if_true, if_false] <;> exact h2
  | prodElem e w c ih =>
    intro hn
    have key : ∀ (b : Pack) (w' : View) (c' : Option ℕ) (s s' : St α) (r : Ref α), (Expr.prodElem (e.bind b).1 w' c').feval s = some (s', r) →
        accessible s.vok b.val e.bindSize.val ∧ accessible s.vok w'.val w'.size := by
      intro b w' c' s s' r h
      simp only [Expr.feval, Option.bind_eq_bind, Option.bind_eq_some_iff, Prod.exists] at h
      obtain ⟨s1, r1, h1, x, -, s2, h2, -⟩ := h
      refine ⟨(ih hn).all b _ _ _ h1, ?_⟩
      rw [← (feval_same _ _ _ _ h1).1]
      exact (writeV_some h2).1
    refine .of (n := fun _ => e.bindSize) (fun b => ?_) (fun b s s' r h => ?_) (fun b v a s s' r h => (key b _ _ s s' r h).1)
    · simp only [Expr.bindSize, SizePack.add_val]
    · have := key b _ _ s s' r h
      rwa [bind_adv] at this
  | binary op l r w ihl ihr =>
    intro hn
    have key : ∀ (b : Pack) (w' : View) (s s' : St α) (t : Ref α), (Expr.binary op (l.bind b).1 (r.bind (l.bind b).2).1 w').feval s = some (s', t) →
        accessible s.vok b.val (l.bindSize + r.bindSize).val ∧ accessible s.vok w'.val w'.size := by
      intro b w' s s' t h
      simp only [Expr.feval, Option.bind_eq_bind, Option.bind_eq_some_iff, Prod.exists] at h
      obtain ⟨s1, r1, h1, s2, r2, h2, h⟩ := h
      have ha := (ihl hn.1).all b _ _ _ h1
      have hb := (ihr hn.2).all _ _ _ _ h2
      rw [(feval_same _ _ _ _ h1).1, bind_adv] at hb
      refine ⟨accessible_join ha hb, ?_⟩
      rw [← (feval_same _ _ _ _ h1).1, ← (feval_same _ _ _ _ h2).1]
      split at h
      · simp only [Option.bind_eq_some_iff] at h
        obtain ⟨x, -, y, -, h⟩ := h
        split at h
        · simp only [Option.bind_eq_some_iff] at h
          obtain ⟨s3, h3, h4⟩ := h
          exact (assignV_some h3).1
        · cases h
      · cases h
    refine .of (n := fun _ => l.bindSize + r.bindSize) (fun b => ?_) (fun b s s' t h => ?_) (fun b v a s s' t h => (key b _ s s' t h).1)
    · simp only [Expr.bindSize, SizePack.add_val]; omega
    · simp only [Expr.bind] at h
      have := key b _ s s' t h
      simp only [bind_adv, Pack.adv_adv] at this
      refine ⟨this.1, ?_⟩
      have h2 := this.2
      simp only [Expr.single]
      split at h2 <;> rename_i hc <;> simp only [hc, if_true, if_false] <;> exact h2
  | dot l r w ihl ihr =>
    intro hn
    have key : ∀ (b : Pack) (w' : View) (s s' : St α) (t : Ref α), (Expr.dot (l.bind b).1 (r.bind (l.bind b).2).1 w').feval s = some (s', t) →
        accessible s.vok b.val (l.bindSize + r.bindSize).val ∧ accessible s.vok w'.val w'.size := by
      intro b w' s s' t h
      simp only [Expr.feval, Option.bind_eq_bind, Option.bind_eq_some_iff, Prod.exists] at h
      obtain ⟨s1, r1, h1, s2, r2, h2, x, -, y, -, s3, h3, -⟩ := h
      have ha := (ihl hn.1).all b _ _ _ h1
      have hb := (ihr hn.2).all _ _ _ _ h2
      rw [(feval_same _ _ _ _ h1).1, bind_adv] at hb
      refine ⟨accessible_join ha hb, ?_⟩
      rw [← (feval_same _ _ _ _ h1).1, ← (feval_same _ _ _ _ h2).1]
      exact (writeV_some h3).1
    refine .of (n := fun _ => l.bindSize + r.bindSize) (fun b => ?_) (fun b s s' t h => ?_) (fun b v a s s' t h => (key b _ s s' t h).1)
    · simp only [Expr.bindSize, SizePack.add_val]; omega
    · have := key b _ s s' t h
      simp only [bind_adv, Pack.adv_adv] at this
      exact this
  | sumIter es w ih =>
    intro hn
    have hes := list es hn ih
    have key : ∀ (b : Pack) (w' : View) (s s' : St α) (t : Ref α), (Expr.feval (.sumIter (es.bind b).1 w') s) = some (s', t) →
        accessible s.vok b.val es.bindSize.val ∧ accessible s.vok w'.val w'.size := by
      intro b w' s s' t h
      simp only [Expr.feval, Option.bind_eq_bind, Option.bind_eq_some_iff, Prod.exists] at h
      obtain ⟨s1, h1, s2, rs, h2, h3⟩ := h
      have hb := fevals_need ?_ es hes _ _ _ _ h2
      · rw [(writeV_some h1).2.1] at hb
        exact ⟨hb, (writeV_some h1).1⟩
      · intro s r sh s' h
        split at h
        · simp only [Option.bind_eq_some_iff] at h
          obtain ⟨a, -, x, -, h⟩ := h
          exact (assignV_some h).2
        · cases h
    refine .of (n := fun _ => es.bindSize) (fun b => ?_) (fun b s s' r h => ?_) (fun b v a s s' r h => (key b _ s s' r h).1)
    · simp only [Expr.bindSize, SizePack.add_val]
    · have := key b _ s s' r h
      rwa [binds_adv] at this
  | prodIter es w ih =>
    intro hn
    have hes := list es hn ih
    have key : ∀ (b : Pack) (w' : View) (s s' : St α) (t : Ref α), (Expr.feval (.prodIter (es.bind b).1 w') s) = some (s', t) →
        accessible s.vok b.val es.bindSize.val ∧ accessible s.vok w'.val w'.size := by
      intro b w' s s' t h
      simp only [Expr.feval, Option.bind_eq_bind, Option.bind_eq_some_iff, Prod.exists] at h
      obtain ⟨s1, h1, s2, rs, h2, h3⟩ := h
      have hb := fevals_need ?_ es hes _ _ _ _ h2
      · rw [(writeV_some h1).2.1] at hb
        exact ⟨hb, (writeV_some h1).1⟩
      · intro s r sh s' h
        split at h
        · simp only [Option.bind_eq_some_iff] at h
          obtain ⟨a, -, x, -, h⟩ := h
          exact (assignV_some h).2
        · cases h
    refine .of (n := fun _ => es.bindSize) (fun b => ?_) (fun b s s' r h => ?_) (fun b v a s s' r h => (key b _ s s' r h).1)
    · simp only [Expr.bindSize, SizePack.add_val]
    · have := key b _ s s' r h
      rwa [binds_adv] at this
  | reduce op es w ih =>
    intro hn
    have hes := list es hn ih
    have key : ∀ (b : Pack) (w' : View) (s s' : St α) (t : Ref α), (Expr.reduce op (es.bind b).1 w').feval s = some (s', t) →
        accessible s.vok b.val es.bindSize.val ∧ accessible s.vok w'.val w'.size := by
      intro b w' s s' t h
      simp only [Expr.feval, Option.bind_eq_bind, Option.bind_eq_some_iff, Prod.exists] at h
      obtain ⟨s1, rs, h1, args, -, v, -, s2, h2, h3⟩ := h
      have hk : ∀ (s : St α) (r : Ref α) (sh : Shape) (s' : St α), (fun s _ _ => some s : St α → Ref α → Shape → Option (St α)) s r sh = some s' → SameOk s s' := by
        intro s r sh s' h; cases h; exact SameOk.refl s
      refine ⟨fevals_need hk es hes _ _ _ _ h1, ?_⟩
      rw [← (fevals_same hk _ (fun e _ => feval_same e) _ _ _ h1).1]
      exact (writeV_some h2).1
    refine .of (n := fun _ => es.bindSize) (fun b => ?_) (fun b s s' r h => ?_) (fun b v a s s' r h => (key b _ s s' r h).1)
    · simp only [Expr.bindSize, SizePack.add_val]
    · have := key b _ s s' r h
      rwa [binds_adv] at this
  | ifElse c a b w => intro h; exact h.elim
  | eq v e w ih =>
    intro hn
    have key : ∀ (b : Pack) (w' : View) (s s' : St α) (t : Ref α), (Expr.eq v ((e.bind b).1.rebind v.val v.adj) w').feval s = some (s', t) →
        accessible s.vok b.val (e.bindSize.val - e.single.val) := by
      intro b w' s s' t h
      simp only [Expr.feval, Option.bind_eq_bind, Option.bind_eq_some_iff, Prod.exists] at h
      obtain ⟨s1, r1, h1, -⟩ := h
      exact (ih hn).inner b _ _ _ _ _ h1
    exact ⟨fun b s s' r h => key b _ s s' r h, fun b v a s s' r h => key b _ s s' r h⟩
  | opEq op v e w c ih =>
    intro hn
    have key : ∀ (b : Pack) (w' c' : View) (s s' : St α) (t : Ref α), (Expr.opEq op v (e.bind b).1 w' c').feval s = some (s', t) →
        accessible s.vok b.val e.bindSize.val ∧ accessible s.vok c'.val c'.size := by
      intro b w' c' s s' t h
      simp only [Expr.feval, Option.bind_eq_bind, Option.bind_eq_some_iff, Prod.exists] at h
      obtain ⟨x0, -, s1, h1, s2, r2, h2, -⟩ := h
      have hb := (ih hn).all b _ _ _ h2
      rw [(assignV_some h1).2.1] at hb
      exact ⟨hb, (assignV_some h1).1⟩
    refine .of (n := fun _ => e.bindSize) (fun b => ?_) (fun b s s' r h => ?_) (fun b v a s s' r h => (key b _ _ s s' r h).1)
    · simp only [Expr.bindSize, SizePack.add_val]; omega
    · have := key b _ _ s s' r h
      rwa [bind_adv] at this
  | glue l r w ihl ihr =>
    intro hn
    have key : ∀ (b : Pack) (w' : View) (s s' : St α) (t : Ref α), (Expr.glue (l.bind b).1 (r.bind (l.bind b).2).1 w').feval s = some (s', t) →
        accessible s.vok b.val (l.bindSize + r.bindSize).val := by
      intro b w' s s' t h
      simp only [Expr.feval, Option.bind_eq_bind, Option.bind_eq_some_iff, Prod.exists] at h
      obtain ⟨s1, r1, h1, s2, r2, h2, -⟩ := h
      have ha := (ihl hn.1).all b _ _ _ h1
      have hb := (ihr hn.2).all _ _ _ _ h2
      rw [(feval_same _ _ _ _ h1).1, bind_adv] at hb
      exact accessible_join ha hb
    exact ⟨fun b s s' r h => key b _ s s' r h, fun b v a s s' r h => key b _ s s' r h⟩
  | forEach es w ih =>
    intro hn
    have hes := list es hn ih
    have key : ∀ (b : Pack) (w' : View) (s s' : St α) (t : Ref α), (Expr.forEach (es.bind b).1 w').feval s = some (s', t) →
        accessible s.vok b.val es.bindSize.val := by
      intro b w' s s' t h
      simp only [Expr.feval] at h
      split at h
      · rename_i hl
        cases es with
        | nil => exact accessible_zero
        | cons e es => simp [Exprs.bind, Exprs.length] at hl
      · simp only [Option.bind_eq_bind, Option.bind_eq_some_iff, Prod.exists] at h
        obtain ⟨s1, rs, h1, -⟩ := h
        exact fevals_need (by intro s r sh s' h; cases h; exact SameOk.refl s) es hes _ _ _ _ h1
    exact ⟨fun b s s' r h => key b _ s s' r h, fun b v a s s' r h => key b _ s s' r h⟩

theorem bevals_same {pre : ℕ → Ref α → Shape → St α → Option (St α × Option (ℕ → α))} {post : St α → ℕ → Ref α → Shape → St α → Option (St α)}
    (hpre : ∀ i r sh s s' g, pre i r sh s = some (s', g) → SameOk s s') (hpost : ∀ s0 i r sh s s', post s0 i r sh s = some s' → SameOk s s') (es : Exprs α)
    (ih : ∀ e ∈ es.toList, ∀ (g : ℕ → α) (s s' : St α), e.beval g s = some s' → SameOk s s') :
    ∀ i (s s' : St α), es.bevals pre post i s = some s' → SameOk s s' := by
  induction es using Exprs.rec (motive_1 := fun _ => True) with
  | nil => intro i s s' h; simp only [Exprs.bevals, Option.some.injEq] at h; rw [← h]; exact SameOk.refl s
  | cons e es _ ihs =>
    intro i s s' h
    simp only [Exprs.bevals, Option.bind_eq_bind, Option.bind_eq_some_iff, Prod.exists] at h
    obtain ⟨s1, h1, s2, g, h2, s3, h3, h4⟩ := h
    refine ((ihs (fun x hx => ih x (by simp [Exprs.toList, hx])) _ _ _ h1).trans (hpre _ _ _ _ _ _ h2)).trans (SameOk.trans ?_ (hpost _ _ _ _ _ _ h4))
    cases g with
    | none => cases h3; exact SameOk.refl _
    | some g => exact ih e (by simp [Exprs.toList]) _ _ _ h3
  | _ => trivial

theorem prodIterPre_same {all : List (Ref α × Shape)} {w : View} (i : ℕ) (r : Ref α) (sh : Shape) (s s' : St α) (g : Option (ℕ → α))
    (h : prodIterPre all w i r sh s = some (s', g)) : SameOk s s' := by
  simp only [prodIterPre, Option.bind_eq_bind, Option.bind_eq_some_iff] at h
  obtain ⟨x, -, a, -, h⟩ := h
  split at h
  · simp only [Option.bind_eq_some_iff] at h
    obtain ⟨xs, -, s1, h1, f, -, h2⟩ := h
    cases h2
    exact (writeV_some h1).2
  · simp only [Option.bind_eq_some_iff] at h
    obtain ⟨f, -, h2⟩ := h
    cases h2
    exact SameOk.refl s

theorem prodIterPost_same {w : View} (z : Bool) (r : Ref α) (sh : Shape) (s s' : St α) (h : prodIterPost w z r sh s = some s') : SameOk s s' := by
  unfold prodIterPost at h
  split at h
  · simp only [Option.bind_eq_bind, Option.bind_eq_some_iff] at h
    obtain ⟨x, -, f, -, h⟩ := h
    exact (writeV_some h).2
  · cases h
    exact SameOk.refl s

theorem sumPre_same {w : View} (s s' : St α) (g : Option (ℕ → α)) (h : (do let g ← s.readA w.adj w.size; some (s, some g)) = some (s', g)) : SameOk s s' := by
  simp only [Option.bind_eq_bind, Option.bind_eq_some_iff] at h
  obtain ⟨a, -, h⟩ := h
  cases h
  exact SameOk.refl s

theorem redPre_same {op : RedOp} {w : View} {rs : List (Ref α × Shape)} {c : α} (i : ℕ) (s s' : St α) (g : Option (ℕ → α))
    (h : (do
        let args ← readOperands op s rs
        let f ← readCells s.val s.vok w.val w.size
        some (s, op.bmap c args (f 0) i)) = some (s', g)) : SameOk s s' := by
  simp only [Option.bind_eq_bind, Option.bind_eq_some_iff] at h
  obtain ⟨x, -, f, -, h⟩ := h
  cases h
  exact SameOk.refl s

theorem idPost_same (s s' : St α) (h : some s = some s') : SameOk s s' := by cases h; exact SameOk.refl s

theorem beval_same (e : Expr α) : ∀ (g : ℕ → α) (s s' : St α), e.beval g s = some s' → SameOk s s' := by
  induction e using Expr.induct with
  | var v => intro g s s' h; exact bevalVar_some h
  | const | cview => intro g s s' h; simp only [Expr.beval, Option.some.injEq] at h; rw [← h]; exact SameOk.refl s
  | unary op e w ih =>
    intro g s s' h
    simp only [Expr.beval, Option.bind_eq_bind, Option.bind_eq_some_iff] at h
    obtain ⟨x, -, f, -, s1, h1, g', -, h2⟩ := h
    exact (writeA_some h1).2.trans (ih _ _ _ h2)
  | binary op l r w ihl ihr =>
    intro g s s' h
    simp only [Expr.beval] at h
    split at h
    · cases h; exact SameOk.refl s
    · simp only [Option.bind_eq_bind, Option.bind_eq_some_iff] at h
      obtain ⟨x, -, y, -, f, -, s1, h1, g', -, s2, h2, h⟩ := h
      refine ((writeA_some h1).2.trans (ihr _ _ _ h2)).trans ?_
      split at h
      · exact ihl _ _ _ h
      · simp only [Option.bind_eq_some_iff] at h
        obtain ⟨x, -, y, -, f, -, g', -, h⟩ := h
        exact ihl _ _ _ h
  | pow n e w ih =>
    intro g s s' h
    simp only [Expr.beval] at h
    split at h
    · exact ih _ _ _ h
    · split at h
      · exact ih _ _ _ h
      · simp only [Option.bind_eq_bind, Option.bind_eq_some_iff] at h
        obtain ⟨x, -, f, -, s1, h1, g', -, h2⟩ := h
        exact (writeA_some h1).2.trans (ih _ _ _ h2)
  | prodElem e w c ih =>
    intro g s s' h
    simp only [Expr.beval, Option.bind_eq_bind, Option.bind_eq_some_iff] at h
    obtain ⟨x, -, f, -, s1, h1, g', -, h2⟩ := h
    exact (writeA_some h1).2.trans (ih _ _ _ h2)
  | transpose e w ih =>
    intro g s s' h
    simp only [Expr.beval, Option.bind_eq_bind, Option.bind_eq_some_iff] at h
    obtain ⟨s1, h1, g', -, h2⟩ := h
    exact (writeA_some h1).2.trans (ih _ _ _ h2)
  | dot l r w ihl ihr =>
    intro g s s' h
    simp only [Expr.beval, Option.bind_eq_bind, Option.bind_eq_some_iff] at h
    obtain ⟨x, -, s1, h1, g', -, s2, h2, y, -, g'', -, h3⟩ := h
    exact ((writeA_some h1).2.trans (ihr _ _ _ h2)).trans (ihl _ _ _ h3)
  | sumIter es w ih =>
    intro g s s' h
    simp only [Expr.beval] at h
    split at h
    · cases h; exact SameOk.refl s
    · simp only [Option.bind_eq_bind, Option.bind_eq_some_iff] at h
      obtain ⟨s1, h1, h2⟩ := h
      exact (writeA_some h1).2.trans (bevals_same (fun _ _ _ => sumPre_same) (fun _ _ _ _ => idPost_same) es ih _ _ _ h2)
  | prodIter es w ih =>
    intro g s s' h
    simp only [Expr.beval] at h
    split at h
    · cases h; exact SameOk.refl s
    · simp only [Option.bind_eq_bind, Option.bind_eq_some_iff] at h
      obtain ⟨s1, h1, h2⟩ := h
      exact (writeA_some h1).2.trans (bevals_same prodIterPre_same (fun _ _ _ _ => prodIterPost_same _ _ _) es ih _ _ _ h2)
  | reduce op es w ih =>
    intro g s s' h
    simp only [Expr.beval] at h
    exact bevals_same (fun i _ _ => redPre_same i) (fun _ _ _ _ => idPost_same) es ih _ _ _ h
  | ifElse c a b w ihc iha ihb =>
    intro g s s' h
    simp only [Expr.beval, Option.bind_eq_bind, Option.bind_eq_some_iff] at h
    obtain ⟨x, -, h⟩ := h
    split at h
    · exact iha _ _ _ h
    · exact ihb _ _ _ h
  | eq v e w ih =>
    intro g s s' h
    simp only [Expr.beval, Option.bind_eq_bind, Option.bind_eq_some_iff] at h
    obtain ⟨s1, h1, g', -, h2⟩ := h
    exact (bevalVar_some h1).trans (ih _ _ _ h2)
  | opEq op v e w c ih =>
    intro g s s' h
    simp only [Expr.beval, Option.bind_eq_bind, Option.bind_eq_some_iff] at h
    obtain ⟨s1, h1, x0, -, s2, h2, g0, -, s3, h3, s4, h4, x, -, y, -, g', -, s5, h5, h⟩ := h
    refine (((((bevalVar_some h1).trans (assignV_some h2).2).trans (writeA_some h3).2).trans (writeA_some h4).2).trans (ih _ _ _ h5)).trans ?_
    split at h
    · exact bevalVar_some h
    · simp only [Option.bind_eq_some_iff] at h
      obtain ⟨x, -, y, -, g', -, h⟩ := h
      exact bevalVar_some h
  | glue l r w ihl ihr =>
    intro g s s' h
    simp only [Expr.beval, Option.bind_eq_bind, Option.bind_eq_some_iff] at h
    obtain ⟨s1, h1, h2⟩ := h
    exact (ihr _ _ _ h1).trans (ihl _ _ _ h2)
  | forEach es w ih =>
    intro g s s' h
    simp only [Expr.beval] at h
    exact bevals_same (fun _ _ _ s s' g h => by cases h; exact SameOk.refl s) (fun _ _ _ _ => idPost_same) es ih _ _ _ h

/-- the adjoint cells of a bound expression that can be evaluated backwards -/
structure ANeed (e : Expr α) : Prop where
  all : ∀ (b : Pack) (g : ℕ → α) (s s' : St α), (e.bind b).1.beval g s = some s' → accessible s.aok b.adj e.bindSize.adj
  inner : ∀ (b : Pack) (v a : Option ℕ) (g : ℕ → α) (s s' : St α), ((e.bind b).1.rebind v a).beval g s = some s' →
    accessible s.aok b.adj (e.bindSize.adj - e.single.adj)

/-- a list of bound expressions, if every one of them is called -/
theorem bevals_need {pre : ℕ → Ref α → Shape → St α → Option (St α × Option (ℕ → α))} {post : St α → ℕ → Ref α → Shape → St α → Option (St α)}
    (hpre : ∀ i r sh s s' g, pre i r sh s = some (s', g) → SameOk s s' ∧ g ≠ none) (hpost : ∀ s0 i r sh s s', post s0 i r sh s = some s' → SameOk s s')
    (es : Exprs α) (ih : ∀ e ∈ es.toList, ANeed e) : ∀ (b : Pack) i (s s' : St α), (es.bind b).1.bevals pre post i s = some s' →
      accessible s.aok b.adj es.bindSize.adj := by
  induction es using Exprs.rec (motive_1 := fun _ => True) with
  | nil => intro b i s s' h; exact accessible_zero
  | cons e es _ ihs =>
    intro b i s s' h
    simp only [Exprs.bind, Exprs.bevals, Option.bind_eq_bind, Option.bind_eq_some_iff, Prod.exists] at h
    obtain ⟨s1, h1, s2, g, h2, s3, h3, h4⟩ := h
    have hs := bevals_same (fun i r sh s s' g h => (hpre i r sh s s' g h).1) hpost _ (fun e _ => beval_same e) _ _ _ h1
    have hp := hpre _ _ _ _ _ _ h2
    have hb := ihs (fun x hx => ih x (by simp [Exprs.toList, hx])) _ _ _ _ h1
    cases g with
    | none => exact absurd rfl hp.2
    | some g =>
      have ha := (ih e (by simp [Exprs.toList])).all b _ _ _ h3
      rw [hp.1.2, hs.2] at ha
      rw [bind_adv] at hb
      exact accessible_join ha hb
  | _ => trivial

theorem ANeed.of {e : Expr α} {n : SizePack} (hn : e.bindSize.adj = n.adj + e.single.adj)
    (hall : ∀ (b : Pack) (g : ℕ → α) (s s' : St α), (e.bind b).1.beval g s = some s' →
      accessible s.aok b.adj n.adj ∧ accessible s.aok (b.adj.map (· + n.adj)) e.single.adj)
    (hin : ∀ (b : Pack) (v a : Option ℕ) (g : ℕ → α) (s s' : St α), ((e.bind b).1.rebind v a).beval g s = some s' →
      accessible s.aok b.adj n.adj) : ANeed e where
  all b g s s' h := by
    rw [hn]
    exact accessible_join (hall b g s s' h).1 (hall b g s s' h).2
  inner b v a g s s' h := by
    rw [hn, Nat.add_sub_cancel]
    exact hin b v a g s s' h

theorem beval_need (e : Expr α) : e.AllBack → ANeed e := by
  have list : ∀ es : Exprs α, es.AllBacks → (∀ e ∈ es.toList, e.AllBack → ANeed e) → ∀ e ∈ es.toList, ANeed e := by
    intro es
    induction es using Exprs.rec (motive_1 := fun _ => True) with
    | nil => intro _ _ e he; simp [Exprs.toList] at he
    | cons e es _ ihs =>
      intro hn hP x hx
      simp only [Exprs.toList, List.mem_cons] at hx
      rcases hx with rfl | hx
      · exact hP _ (by simp [Exprs.toList]) hn.1
      · exact ihs hn.2 (fun y hy => hP y (by simp [Exprs.toList, hy])) x hx
    | _ => trivial
  induction e using Expr.induct with
  | var | const | cview => intro _; exact ⟨fun _ _ _ _ _ => accessible_zero, fun _ _ _ _ _ _ _ => by simpa [Expr.bindSize] using accessible_zero⟩
  | unary op e w ih =>
    intro hn
    have key : ∀ (b : Pack) (w' : View) (g : ℕ → α) (s s' : St α), (Expr.unary op (e.bind b).1 w').beval g s = some s' →
        accessible s.aok b.adj e.bindSize.adj ∧ accessible s.aok w'.adj w'.size := by
      intro b w' g s s' h
      simp only [Expr.beval, Option.bind_eq_bind, Option.bind_eq_some_iff] at h
      obtain ⟨x, -, f, -, s1, h1, g', -, h2⟩ := h
      have := (ih hn).all b _ _ _ h2
      rw [(writeA_some h1).2.2] at this
      exact ⟨this, (writeA_some h1).1⟩
    refine .of (n := e.bindSize) ?_ (fun b g s s' h => ?_) (fun b v a g s s' h => (key b _ g s s' h).1)
    · simp only [Expr.bindSize, SizePack.add_adj]; omega
    · have := key b _ g s s' h
      rwa [bind_adv] at this
  | transpose e w ih =>
    intro hn
    have key : ∀ (b : Pack) (w' : View) (g : ℕ → α) (s s' : St α), (Expr.transpose (e.bind b).1 w').beval g s = some s' →
        accessible s.aok b.adj e.bindSize.adj ∧ accessible s.aok w'.adj w'.size := by
      intro b w' g s s' h
      simp only [Expr.beval, Option.bind_eq_bind, Option.bind_eq_some_iff] at h
      obtain ⟨s1, h1, g', -, h2⟩ := h
      have := (ih hn).all b _ _ _ h2
      rw [(writeA_some h1).2.2] at this
      exact ⟨this, (writeA_some h1).1⟩
    refine .of (n := e.bindSize) ?_ (fun b g s s' h => ?_) (fun b v a g s s' h => (key b _ g s s' h).1)
    · simp only [Expr.bindSize, SizePack.add_adj]
    · have := key b _ g s s' h
      rwa [bind_adv] at this
  | pow n e w ih =>
    intro hn
    have key : ∀ (b : Pack) (w' : View) (g : ℕ → α) (s s' : St α), (Expr.pow n (e.bind b).1 w').beval g s = some s' →
        accessible s.aok b.adj e.bindSize.adj ∧ (¬ (n = 0 ∨ n = 1) → accessible s.aok w'.adj w'.size) := by
      intro b w' g s s' h
      simp only [Expr.beval] at h
      split at h
      · rename_i h0
        exact ⟨(ih hn).all b _ _ _ h, fun h => (h (.inl h0)).elim⟩
      · split at h
        · rename_i h0
          exact ⟨(ih hn).all b _ _ _ h, fun h => (h (.inr h0)).elim⟩
        · simp only [Option.bind_eq_bind, Option.bind_eq_some_iff] at h
          obtain ⟨x, -, f, -, s1, h1, g', -, h2⟩ := h
          have := (ih hn).all b _ _ _ h2
          rw [(writeA_some h1).2.2] at this
          exact ⟨this, fun _ => (writeA_some h1).1⟩
    refine .of (n := e.bindSize) ?_ (fun b g s s' h => ?_) (fun b v a g s s' h => (key b _ g s s' h).1)
    · simp only [Expr.bindSize, SizePack.add_adj]; omega
    · simp only [Expr.bind] at h
      have := key b _ g s s' h
      rw [bind_adv] at this
      refine ⟨this.1, ?_⟩
      have h2 := this.2
      simp only [Expr.single]
      by_cases hc : n = 0 ∨ n = 1
      · simp only [hc, if_true]; exact accessible_zero
      · have h2 := h2 hc
        simp only [hc, if_false] at h2 ⊢
        exact h2
  | prodElem e w c ih =>
    intro hn
    have key : ∀ (b : Pack) (w' : View) (c' : Option ℕ) (g : ℕ → α) (s s' : St α), (Expr.prodElem (e.bind b).1 w' c').beval g s = some s' →
        accessible s.aok b.adj e.bindSize.adj ∧ accessible s.aok c' (e.bind b).1.size := by
      intro b w' c' g s s' h
      simp only [Expr.beval, Option.bind_eq_bind, Option.bind_eq_some_iff] at h
      obtain ⟨x, -, f, -, s1, h1, g', -, h2⟩ := h
      have := (ih hn).all b _ _ _ h2
      rw [(writeA_some h1).2.2] at this
      exact ⟨this, (writeA_some h1).1⟩
    refine .of (n := e.bindSize) ?_ (fun b g s s' h => ?_) (fun b v a g s s' h => (key b _ _ g s s' h).1)
    · simp only [Expr.bindSize, SizePack.add_adj]
    · have := key b _ _ g s s' h
      rwa [bind_adv, Expr.size, Expr.shape_of_strip (bind_strip e b)] at this
  | binary op l r w ihl ihr =>
    intro hn
    by_cases hc : op.isComparison = true
    · simp only [Expr.AllBack, hc, if_true] at hn
      have h0 : (Expr.binary op l r w).bindSize.adj = 0 := by
        simp only [Expr.bindSize, SizePack.add_adj, Expr.single, hc, if_true, hn.1, hn.2]
      refine ⟨fun b g s s' h => by rw [h0]; exact accessible_zero, fun b v a g s s' h => by rw [h0, Nat.zero_sub]; exact accessible_zero⟩
    · simp only [Expr.AllBack, hc] at hn
      have key : ∀ (b : Pack) (w' : View) (g : ℕ → α) (s s' : St α), (Expr.binary op (l.bind b).1 (r.bind (l.bind b).2).1 w').beval g s = some s' →
          accessible s.aok b.adj (l.bindSize + r.bindSize).adj ∧ accessible s.aok w'.adj w'.size := by
        intro b w' g s s' h
        simp only [Expr.beval] at h
        rw [if_neg hc] at h
        simp only [Option.bind_eq_bind, Option.bind_eq_some_iff] at h
        obtain ⟨x, -, y, -, f, -, s1, h1, g', -, s2, h2, h⟩ := h
        have hb := (ihr hn.2).all _ _ _ _ h2
        have ha : accessible s2.aok b.adj l.bindSize.adj := by
          split at h
          · exact (ihl hn.1).all _ _ _ _ h
          · simp only [Option.bind_eq_some_iff] at h
            obtain ⟨x, -, y, -, f, -, g', -, h⟩ := h
            exact (ihl hn.1).all _ _ _ _ h
        rw [(beval_same _ _ _ _ h2).2, (writeA_some h1).2.2] at ha
        rw [(writeA_some h1).2.2, bind_adv] at hb
        exact ⟨accessible_join ha hb, (writeA_some h1).1⟩
      refine .of (n := l.bindSize + r.bindSize) ?_ (fun b g s s' h => ?_) (fun b v a g s s' h => (key b _ g s s' h).1)
      · simp only [Expr.bindSize, SizePack.add_adj]; omega
      · simp only [Expr.bind, hc] at h
        have := key b _ g s s' h
        simp only [bind_adv, Pack.adv_adv] at this
        simp only [Expr.single, hc]
        exact this
  | dot l r w ihl ihr =>
    intro hn
    have key : ∀ (b : Pack) (w' : View) (g : ℕ → α) (s s' : St α), (Expr.dot (l.bind b).1 (r.bind (l.bind b).2).1 w').beval g s = some s' →
        accessible s.aok b.adj (l.bindSize + r.bindSize).adj ∧ accessible s.aok w'.adj w'.size := by
      intro b w' g s s' h
      simp only [Expr.beval, Option.bind_eq_bind, Option.bind_eq_some_iff] at h
      obtain ⟨x, -, s1, h1, g', -, s2, h2, y, -, g'', -, h3⟩ := h
      have hb := (ihr hn.2).all _ _ _ _ h2
      have ha := (ihl hn.1).all _ _ _ _ h3
      rw [(beval_same _ _ _ _ h2).2, (writeA_some h1).2.2] at ha
      rw [(writeA_some h1).2.2, bind_adv] at hb
      exact ⟨accessible_join ha hb, (writeA_some h1).1⟩
    refine .of (n := l.bindSize + r.bindSize) ?_ (fun b g s s' h => ?_) (fun b v a g s s' h => (key b _ g s s' h).1)
    · simp only [Expr.bindSize, SizePack.add_adj]; omega
    · have := key b _ g s s' h
      simp only [bind_adv, Pack.adv_adv] at this
      exact this
  | sumIter es w ih =>
    intro hn
    have hes := list es hn.2 ih
    have key : ∀ (b : Pack) (w' : View) (g : ℕ → α) (s s' : St α), (Expr.sumIter (es.bind b).1 w').beval g s = some s' →
        accessible s.aok b.adj es.bindSize.adj ∧ accessible s.aok w'.adj w'.size := by
      intro b w' g s s' h
      simp only [Expr.beval] at h
      split at h
      · rename_i hl
        cases es with
        | nil => exact (hn.1 rfl).elim
        | cons e es => simp [Exprs.bind, Exprs.length] at hl
      · simp only [Option.bind_eq_bind, Option.bind_eq_some_iff] at h
        obtain ⟨s1, h1, h2⟩ := h
        have hb := bevals_need ?_ (fun _ _ _ _ => idPost_same) es hes _ _ _ _ h2
        · rw [(writeA_some h1).2.2] at hb
          exact ⟨hb, (writeA_some h1).1⟩
        · intro i r sh s s' g h
          refine ⟨sumPre_same (w := w') s s' g h, ?_⟩
          simp only [Option.bind_eq_some_iff] at h
          obtain ⟨a, -, h⟩ := h
          cases h
          exact Option.some_ne_none _
    refine .of (n := es.bindSize) ?_ (fun b g s s' h => ?_) (fun b v a g s s' h => (key b _ g s s' h).1)
    · simp only [Expr.bindSize, SizePack.add_adj]
    · have := key b _ g s s' h
      rwa [binds_adv] at this
  | prodIter es w ih =>
    intro hn
    have hes := list es hn.2 ih
    have key : ∀ (b : Pack) (w' : View) (g : ℕ → α) (s s' : St α), (Expr.prodIter (es.bind b).1 w').beval g s = some s' →
        accessible s.aok b.adj es.bindSize.adj ∧ accessible s.aok w'.adj w'.size := by
      intro b w' g s s' h
      simp only [Expr.beval] at h
      split at h
      · rename_i hl
        cases es with
        | nil => exact (hn.1 rfl).elim
        | cons e es => simp [Exprs.bind, Exprs.length] at hl
      · simp only [Option.bind_eq_bind, Option.bind_eq_some_iff] at h
        obtain ⟨s1, h1, h2⟩ := h
        have hb := bevals_need ?_ (fun _ _ _ _ => prodIterPost_same _ _ _) es hes _ _ _ _ h2
        · rw [(writeA_some h1).2.2] at hb
          exact ⟨hb, (writeA_some h1).1⟩
        · intro i r sh s s' g h
          refine ⟨prodIterPre_same i r sh s s' g h, ?_⟩
          simp only [prodIterPre, Option.bind_eq_bind, Option.bind_eq_some_iff] at h
          obtain ⟨x, -, a, -, h⟩ := h
          split at h
          · simp only [Option.bind_eq_some_iff] at h
            obtain ⟨xs, -, s1, -, f, -, h2⟩ := h
            cases h2
            exact Option.some_ne_none _
          · simp only [Option.bind_eq_some_iff] at h
            obtain ⟨f, -, h2⟩ := h
            cases h2
            exact Option.some_ne_none _
    refine .of (n := es.bindSize) ?_ (fun b g s s' h => ?_) (fun b v a g s s' h => (key b _ g s s' h).1)
    · simp only [Expr.bindSize, SizePack.add_adj]
    · have := key b _ g s s' h
      rwa [binds_adv] at this
  | reduce op es w ih =>
    intro hn
    have key : ∀ (b : Pack) (w' : View) (g : ℕ → α) (s s' : St α), (Expr.reduce op (es.bind b).1 w').beval g s = some s' →
        accessible s.aok b.adj es.bindSize.adj := by
      intro b w' g s s' h
      rcases hn with h0 | ⟨hop, hl, hn⟩
      · rw [h0]; exact accessible_zero
      have hes := list es hn ih
      cases es with
      | nil => exact accessible_zero
      | cons e es =>
        cases es with
        | cons e2 es => simp [Exprs.length] at hl
        | nil =>
          simp only [Exprs.bind, Expr.beval, Exprs.bevals, Exprs.getRefs, readOperands, Option.bind_eq_bind, Option.bind_eq_some_iff, Option.bind_some] at h
          obtain ⟨⟨s2, g'⟩, ⟨args, ⟨x, -, h0⟩, f, -, h1⟩, s3, h3, -⟩ := h
          cases h0
          cases h1
          have ha : ∃ g', op.bmap (g 0) [((e.bind b).1.shape, x)] (f 0) 0 = some g' := by
            rcases hop with rfl | rfl <;> exact ⟨_, rfl⟩
          obtain ⟨g', hg⟩ := ha
          simp only [hg] at h3
          have := (hes e (by simp [Exprs.toList])).all b _ _ _ h3
          simpa only [Exprs.bindSize, SizePack.add_zero'] using this
    have h0 : (Expr.reduce op es w).bindSize.adj = es.bindSize.adj := by simp only [Expr.bindSize, SizePack.add_adj, Expr.single, Nat.add_zero]
    refine ⟨fun b g s s' h => by rw [h0]; exact key b _ g s s' h, fun b v a g s s' h => by rw [h0]; exact key b _ g s s' h⟩
  | ifElse c a b w => intro h; exact h.elim
  | eq v e w ih =>
    intro hn
    have key : ∀ (b : Pack) (w' : View) (g : ℕ → α) (s s' : St α), (Expr.eq v ((e.bind b).1.rebind v.val v.adj) w').beval g s = some s' →
        accessible s.aok b.adj (e.bindSize.adj - e.single.adj) := by
      intro b w' g s s' h
      simp only [Expr.beval, Option.bind_eq_bind, Option.bind_eq_some_iff] at h
      obtain ⟨s1, h1, g', -, h2⟩ := h
      have := (ih hn).inner b _ _ _ _ _ h2
      rwa [(bevalVar_some h1).2] at this
    exact ⟨fun b g s s' h => key b _ g s s' h, fun b v a g s s' h => key b _ g s s' h⟩
  | opEq op v e w c ih =>
    intro hn
    have key : ∀ (b : Pack) (w' c' : View) (g : ℕ → α) (s s' : St α), (Expr.opEq op v (e.bind b).1 w' c').beval g s = some s' →
        accessible s.aok b.adj e.bindSize.adj ∧ accessible s.aok c'.adj c'.size := by
      intro b w' c' g s s' h
      simp only [Expr.beval, Option.bind_eq_bind, Option.bind_eq_some_iff] at h
      obtain ⟨s1, h1, x0, -, s2, h2, g0, -, s3, h3, s4, h4, x, -, y, -, g', -, s5, h5, h⟩ := h
      have h12 := (bevalVar_some h1).trans (assignV_some h2).2
      have ha := (ih hn).all b _ _ _ h5
      rw [((h12.trans (writeA_some h3).2).trans (writeA_some h4).2).2] at ha
      have hc := (writeA_some h3).1
      rw [h12.2] at hc
      exact ⟨ha, hc⟩
    refine .of (n := e.bindSize) ?_ (fun b g s s' h => ?_) (fun b v a g s s' h => (key b _ _ g s s' h).1)
    · simp only [Expr.bindSize, SizePack.add_adj]; omega
    · have := key b _ _ g s s' h
      rwa [bind_adv] at this
  | glue l r w ihl ihr =>
    intro hn
    have key : ∀ (b : Pack) (w' : View) (g : ℕ → α) (s s' : St α), (Expr.glue (l.bind b).1 (r.bind (l.bind b).2).1 w').beval g s = some s' →
        accessible s.aok b.adj (l.bindSize + r.bindSize).adj := by
      intro b w' g s s' h
      simp only [Expr.beval, Option.bind_eq_bind, Option.bind_eq_some_iff] at h
      obtain ⟨s1, h1, h2⟩ := h
      have hb := (ihr hn.2).all _ _ _ _ h1
      have ha := (ihl hn.1).all _ _ _ _ h2
      rw [(beval_same _ _ _ _ h1).2] at ha
      rw [bind_adv] at hb
      exact accessible_join ha hb
    exact ⟨fun b g s s' h => key b _ g s s' h, fun b v a g s s' h => key b _ g s s' h⟩
  | forEach es w ih =>
    intro hn
    have hes := list es hn ih
    have key : ∀ (b : Pack) (w' : View) (g : ℕ → α) (s s' : St α), (Expr.forEach (es.bind b).1 w').beval g s = some s' →
        accessible s.aok b.adj es.bindSize.adj := by
      intro b w' g s s' h
      simp only [Expr.beval] at h
      exact bevals_need (fun _ _ _ s s' g h => by cases h; exact ⟨SameOk.refl s, Option.some_ne_none _⟩) (fun _ _ _ _ => idPost_same) es hes _ _ _ _ h
    exact ⟨fun b g s s' h => key b _ g s s' h, fun b v a g s s' h => key b _ g s s' h⟩

theorem evaluate_same {e : Expr α} {s s' : St α} {r : Ref α} (h : evaluate e s = some (s', r)) : SameOk s s' := by
  simp only [evaluate, Option.bind_eq_bind, Option.bind_eq_some_iff, Prod.exists] at h
  obtain ⟨s1, r1, h1, h⟩ := h
  have hs := feval_same _ _ _ _ h1
  split at h
  · simp only [Option.bind_eq_some_iff] at h
    obtain ⟨x, -, h⟩ := h
    cases h
    exact hs
  · cases h
    exact hs

/-- a node that stores its value needs the cells of its view -/
theorem feval_root {e : Expr α} (he : e.StoresValue) {s s' : St α} {r : Ref α} (h : e.feval s = some (s', r)) : accessible s.vok e.view.val e.size := by
  have hk : ∀ (s : St α) (r : Ref α) (sh : Shape) (s' : St α), (fun s _ _ => some s : St α → Ref α → Shape → Option (St α)) s r sh = some s' → SameOk s s' := by
    intro s r sh s' h; cases h; exact SameOk.refl s
  cases e with
  | var | const | cview | ifElse => exact he.elim
  | unary op e w | pow n e w | transpose e w =>
    simp only [Expr.feval, Option.bind_eq_bind, Option.bind_eq_some_iff, Prod.exists] at h
    obtain ⟨s1, r1, h1, x, -, s2, h2, -⟩ := h
    rw [← (feval_same _ _ _ _ h1).1]
    exact (assignV_some h2).1
  | prodElem e w c =>
    simp only [Expr.feval, Option.bind_eq_bind, Option.bind_eq_some_iff, Prod.exists] at h
    obtain ⟨s1, r1, h1, x, -, s2, h2, -⟩ := h
    rw [← (feval_same _ _ _ _ h1).1]
    exact (writeV_some h2).1
  | binary op l r w =>
    simp only [Expr.feval, Option.bind_eq_bind, Option.bind_eq_some_iff, Prod.exists] at h
    obtain ⟨s1, r1, h1, s2, r2, h2, h⟩ := h
    split at h
    · simp only [Option.bind_eq_some_iff] at h
      obtain ⟨x, -, y, -, h⟩ := h
      split at h
      · simp only [Option.bind_eq_some_iff] at h
        obtain ⟨s3, h3, h4⟩ := h
        rw [← (feval_same _ _ _ _ h1).1, ← (feval_same _ _ _ _ h2).1]
        exact (assignV_some h3).1
      · cases h
    · cases h
  | dot l r w =>
    simp only [Expr.feval, Option.bind_eq_bind, Option.bind_eq_some_iff, Prod.exists] at h
    obtain ⟨s1, r1, h1, s2, r2, h2, x, -, y, -, s3, h3, -⟩ := h
    rw [← (feval_same _ _ _ _ h1).1, ← (feval_same _ _ _ _ h2).1]
    exact (writeV_some h3).1
  | sumIter es w | prodIter es w =>
    simp only [Expr.feval, Option.bind_eq_bind, Option.bind_eq_some_iff, Prod.exists] at h
    obtain ⟨s1, h1, -⟩ := h
    exact (writeV_some h1).1
  | reduce op es w =>
    simp only [Expr.feval, Option.bind_eq_bind, Option.bind_eq_some_iff, Prod.exists] at h
    obtain ⟨s1, rs, h1, args, -, v, -, s2, h2, h3⟩ := h
    rw [← (fevals_same hk _ (fun e _ => feval_same e) _ _ _ h1).1]
    exact (writeV_some h2).1
  | eq v e w =>
    simp only [Expr.feval, Option.bind_eq_bind, Option.bind_eq_some_iff, Prod.exists] at h
    obtain ⟨s1, r1, h1, h⟩ := h
    split at h
    · simp only [Option.bind_eq_some_iff] at h
      obtain ⟨x, -, s2, h2, s3, h3, h4⟩ := h
      rw [← (feval_same _ _ _ _ h1).1, ← (assignV_some h2).2.1]
      exact (assignV_some h3).1
    · cases h
  | opEq op v e w c =>
    simp only [Expr.feval, Option.bind_eq_bind, Option.bind_eq_some_iff, Prod.exists] at h
    obtain ⟨x0, -, s1, h1, s2, r2, h2, h⟩ := h
    split at h
    · simp only [Option.bind_eq_some_iff] at h
      obtain ⟨x, -, y, -, h⟩ := h
      split at h
      · simp only [Option.bind_eq_some_iff] at h
        obtain ⟨s3, h3, h4⟩ := h
        rw [← (assignV_some h1).2.1, ← (feval_same _ _ _ _ h2).1]
        exact (assignV_some h3).1
      · cases h
    · cases h
  | glue l r w =>
    simp only [Expr.feval, Option.bind_eq_bind, Option.bind_eq_some_iff, Prod.exists] at h
    obtain ⟨s1, r1, h1, s2, r2, h2, x, -, s3, h3, h4⟩ := h
    rw [← (feval_same _ _ _ _ h1).1, ← (feval_same _ _ _ _ h2).1]
    exact (assignV_some h3).1
  | forEach es w =>
    simp only [Expr.feval] at h
    rw [if_neg he] at h
    simp only [Option.bind_eq_bind, Option.bind_eq_some_iff, Prod.exists] at h
    obtain ⟨s1, rs, h1, h⟩ := h
    split at h
    · simp only [Option.bind_eq_some_iff] at h
      obtain ⟨x, -, s2, h2, h3⟩ := h
      rw [← (fevals_same hk _ (fun e _ => feval_same e) _ _ _ h1).1]
      exact (assignV_some h2).1
    · cases h

end

end FastAD
