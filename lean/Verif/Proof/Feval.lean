import Verif.Proof.StatExpr

/-!
# Forward evaluation of pure expressions
-/

namespace FastAD

section
variable {α : Type}

theorem assign_add {m : ℕ → α} {v : View} {f : ℕ → α} {k : ℕ} (hk : k < v.size) : assign m v f (addr v.val + k) = f k := by
  simp [assign, hk]

theorem assign_off {m : ℕ → α} {v : View} {f : ℕ → α} {a : ℕ} (ha : a ∉ rng v.val v.size) : assign m v f a = m a := by
  rw [assign, if_neg]; simpa [mem_rng] using ha

end

section
variable {α : Type} [Zero α] [One α] [Add α] [Sub α] [Neg α] [Mul α] [Div α] [NatCast α] [IntCast α]
variable [Fn α] [HasInf α] [LinAlg α]
set_option linter.unusedSectionVars false

/-- `feval` of a bound non-`if_else` node returns a reference to what the node views -/
theorem feval_refN (e : Expr α) {s s' : St α} {r : Ref α} (hwf : e.NWF) (hif : e.isIf = false) (h : e.feval s = some (s', r)) :
    r = e.getRef := by
  cases e with
  | var v => simp only [Expr.feval, Option.some.injEq, Prod.mk.injEq] at h; exact h.2.symm
  | const sh c => simp only [Expr.feval, Option.some.injEq, Prod.mk.injEq] at h; exact h.2.symm
  | cview sh p => simp only [Expr.feval, Option.some.injEq, Prod.mk.injEq] at h; exact h.2.symm
  | ifElse => simp [Expr.isIf] at hif
  | eq => exact hwf.elim
  | opEq => exact hwf.elim
  | forEach => exact hwf.elim
  | _ =>
    simp only [Expr.feval, Option.bind_eq_bind, Option.bind_eq_some_iff, Prod.exists, Option.some.injEq, Prod.mk.injEq] at h
    repeat (first
      | exact h.symm
      | (obtain ⟨_, h⟩ := h)
      | (split at h <;> try (exact absurd h (by simp)))
      | (simp only [Option.bind_eq_some_iff, Option.some.injEq, Prod.mk.injEq] at h))

theorem Expr.getRef_of (e : Expr α) (h : ∀ sh c, e ≠ .const sh c) : e.getRef = .ptr e.view.val := by
  cases e <;> first | rfl | exact absurd rfl (h _ _)

theorem feval_ref (e : Expr α) {s s' : St α} {r : Ref α} (hwf : e.WF) (hif : e.isIf = false) (h : e.feval s = some (s', r)) :
    r = e.getRef := feval_refN e hwf.nested hif h

theorem accessible_of_read {s : St α} {p : Option ℕ} {n : ℕ} {f : ℕ → α} (h : (Ref.ptr p : Ref α).read s n = some f) :
    accessible s.vok p n ∧ ∀ k < n, s.val (addr p + k) = f k := by
  simp only [Ref.read, readCells] at h
  split at h
  · rename_i hacc
    refine ⟨hacc, fun k hk => ?_⟩
    cases h
    exact (trunc_of_lt (f := fun k => s.val (addr p + k)) hk).symm
  · cases h

theorem assign_self {s : St α} {p : Option ℕ} {n : ℕ} (h : accessible s.vok p n) :
    s.assignV p n (.ptr p) n (trunc n fun k => s.val (addr p + k)) = some s := by
  rw [assignV_eq (r := .ptr p) h (Or.inl ⟨rfl, rfl⟩)]
  congr 1
  have : fillRange s.val (addr p) n (trunc n fun k => s.val (addr p + k)) = s.val := by
    funext a
    by_cases ha : a ∈ rng p n
    · obtain ⟨k, hk, rfl⟩ := mem_rng_iff.1 ha
      rw [fillRange_add hk]
      exact trunc_of_lt hk
    · exact fillRange_not_mem ha
  rw [this]

end

variable [HasInf ℝ] [LinAlg ℝ]

omit [HasInf ℝ] [LinAlg ℝ] in
theorem Expr.defs_own {α : Type} (e : Expr α) : e.defs ⊆ e.ownV := by
  induction e using Expr.induct with
  | eq v e w => exact fun a ha => Or.inl (Or.inr ha)
  | glue l r w ihl ihr => exact fun a ha => Or.inl (ha.elim (fun h => Or.inl (ihl h)) fun h => Or.inr (ihr h))
  | _ => exact Set.empty_subset _

theorem Expr.Cached.congr {m h h' : ℕ → ℝ} (e : Expr ℝ) :
    e.Cached m h → (∀ a ∈ e.ownV ∪ e.reads, h' a = h a) → e.Cached m h' := by
  have list : ∀ (m : ℕ → ℝ) (es : Exprs ℝ), (∀ e ∈ es.toList, e.Cached m h → (∀ a ∈ e.ownV ∪ e.reads, h' a = h a) → e.Cached m h') →
      es.Cacheds m h → (∀ a ∈ es.ownVs ∪ es.readss, h' a = h a) → es.Cacheds m h' := by
    intro m es
    induction es using Exprs.rec (motive_1 := fun _ => True) with
    | nil => intros; trivial
    | cons e es _ ih =>
      intro hP hc hag
      simp only [Exprs.Cacheds] at hc ⊢
      refine ⟨hP e (by simp [Exprs.toList]) hc.1 fun a ha => hag a ?_, ih (fun x hx => hP x (by simp [Exprs.toList, hx])) hc.2 fun a ha => hag a ?_⟩
      · exact ha.elim (fun h => Or.inl (Or.inl h)) fun h => Or.inr (Or.inl h)
      · exact ha.elim (fun h => Or.inl (Or.inr h)) fun h => Or.inr (Or.inr h)
    | _ => trivial
  have root : ∀ (w : View) (f : ℕ → ℝ), (∀ a ∈ rng w.val w.size, h' a = h a) → (∀ k < w.size, h (addr w.val + k) = f k) →
      ∀ k < w.size, h' (addr w.val + k) = f k := by
    intro w f h1 h2 k hk
    rw [h1 _ (add_mem_rng hk), h2 k hk]
  induction e using Expr.induct generalizing m with
  | var v => intro hc hag a ha; rw [hag a (by simp [Expr.reads, ha]), hc a ha]
  | const => intros; trivial
  | cview sh p => intro hc hag a ha; rw [hag a (by simp [Expr.reads, ha]), hc a ha]
  | unary op e w ih | pow op e w ih | prodElem op e w ih | transpose e w ih =>
    intro hc hag
    simp only [Expr.Cached] at hc ⊢
    exact ⟨ih hc.1 fun a ha => hag a (ha.elim (fun h => Or.inl (Or.inl h)) Or.inr),
      root _ _ (fun a ha => hag a (Or.inl (Or.inr ha))) hc.2⟩
  | binary op l r w ihl ihr | dot l r w ihl ihr =>
    intro hc hag
    simp only [Expr.Cached] at hc ⊢
    exact ⟨ihl hc.1 fun a ha => hag a (ha.elim (fun h => Or.inl (Or.inl (Or.inl h))) fun h => Or.inr (Or.inl h)),
      ihr hc.2.1 fun a ha => hag a (ha.elim (fun h => Or.inl (Or.inl (Or.inr h))) fun h => Or.inr (Or.inr h)),
      root _ _ (fun a ha => hag a (Or.inl (Or.inr ha))) hc.2.2⟩
  | sumIter es w ih | prodIter es w ih | reduce op es w ih =>
    intro hc hag
    simp only [Expr.Cached] at hc ⊢
    exact ⟨list _ es (fun e he => ih e he) hc.1 fun a ha => hag a (ha.elim (fun h => Or.inl (Or.inl h)) Or.inr),
      root _ _ (fun a ha => hag a (Or.inl (Or.inr ha))) hc.2⟩
  | ifElse c x y w ihc ihx ihy =>
    intro hc hag
    simp only [Expr.Cached] at hc ⊢
    refine ⟨ihc hc.1 fun a ha => hag a (ha.elim (fun h => Or.inl (Or.inl (Or.inl h))) fun h => Or.inr (Or.inl h)), ?_⟩
    have h2 := hc.2
    split at h2 <;> rename_i hcond
    · rw [if_pos hcond]
      exact ihx h2 fun a ha => hag a
        (ha.elim (fun h => Or.inl (Or.inl (Or.inr (Or.inl h)))) fun h => Or.inr (Or.inr (Or.inl h)))
    · rw [if_neg hcond]
      exact ihy h2 fun a ha => hag a
        (ha.elim (fun h => Or.inl (Or.inl (Or.inr (Or.inr h)))) fun h => Or.inr (Or.inr (Or.inr h)))
  | eq v e w ih =>
    intro hc hag
    exact ⟨ih hc.1 fun a ha => hag a (ha.elim (fun h => Or.inl (Or.inl (Or.inl h))) Or.inr),
      root _ _ (fun a ha => hag a (Or.inl (Or.inl (Or.inr ha)))) hc.2⟩
  | opEq => intro hc; exact hc.elim
  | glue l r w ihl ihr =>
    intro hc hag
    refine ⟨ihl hc.1 fun a ha => hag a (ha.elim (fun h => Or.inl (Or.inl (Or.inl h))) fun h => Or.inr (Or.inl h)), ihr hc.2 fun a ha => ?_⟩
    rcases ha with ha | ha
    · exact hag a (Or.inl (Or.inl (Or.inr ha)))
    · by_cases hd : a ∈ l.defs
      · exact hag a (Or.inl (Or.inl (Or.inl (l.defs_own hd))))
      · exact hag a (Or.inr (Or.inr ⟨ha, hd⟩))
  | forEach => intro hc; exact hc.elim

theorem cacheds_congr {m h h' : ℕ → ℝ} (es : Exprs ℝ) :
    es.Cacheds m h → (∀ a ∈ es.ownVs ∪ es.readss, h' a = h a) → es.Cacheds m h' := by
  induction es using Exprs.rec (motive_1 := fun _ => True) with
  | nil => intros; trivial
  | cons e es _ ih =>
    intro hc hag
    exact ⟨Expr.Cached.congr e hc.1 fun a ha => hag a (ha.elim (fun h => Or.inl (Or.inl h)) fun h => Or.inr (Or.inl h)),
      ih hc.2 fun a ha => hag a (ha.elim (fun h => Or.inl (Or.inr h)) fun h => Or.inr (Or.inr h))⟩
  | _ => trivial

/-- What is known about the reference returned by `feval`: in every later state in which the cells owned and read by the expression are unchanged
it reads the value of the expression, and it does not clash with a destination outside those cells. -/
def RefOk (e : Expr ℝ) (m : ℕ → ℝ) (s : St ℝ) (r : Ref ℝ) : Prop :=
  (∀ s' : St ℝ, s'.vok = s.vok → (∀ a ∈ e.ownV ∪ e.reads, s'.val a = s.val a) →
    r.read s' e.size = some (trunc e.size (e.denote m))) ∧
  (∀ dst n, Disjoint (rng dst n) (e.ownV ∪ e.reads) → noClash dst n r e.size)

/-- Outcome of a successful `feval`. -/
structure FevalOk (e : Expr ℝ) (m : ℕ → ℝ) (s s' : St ℝ) (r : Ref ℝ) : Prop where
  run : e.feval s = some (s', r)
  adj : s'.adj = s.adj
  vok : s'.vok = s.vok
  aok : s'.aok = s.aok
  frame : ∀ a, a ∉ e.ownV → s'.val a = s.val a
  cached : e.Cached m s'.val
  ref : RefOk e m s' r

/-- the reference to the root cache of a node -/
theorem refOk_root {e : Expr ℝ} {m : ℕ → ℝ} {s : St ℝ} {p : Option ℕ} (hacc : accessible s.vok p e.size)
    (hsub : rng p e.size ⊆ e.ownV ∪ e.reads) (hval : ∀ k < e.size, s.val (addr p + k) = e.denote m k) :
    RefOk e m s (.ptr p) := by
  constructor
  · intro s' hv hag
    simp only [Ref.read]
    rw [readCells_eq' (hv ▸ hacc)]
    intro k hk
    rw [hag _ (hsub (add_mem_rng hk)), hval k hk]
  · intro dst n hd
    exact noClash_ptr (hd.mono_right hsub)

omit [HasInf ℝ] [LinAlg ℝ] in
theorem disj_left {A B : Set ℕ} (h : Disjoint A B) {a : ℕ} (ha : a ∈ A) : a ∉ B := Set.disjoint_left.1 h ha
omit [HasInf ℝ] [LinAlg ℝ] in
theorem disj_right {A B : Set ℕ} (h : Disjoint A B) {a : ℕ} (ha : a ∈ B) : a ∉ A := Set.disjoint_right.1 h ha

/-- the claim proved by induction -/
def FevalClaim (e : Expr ℝ) : Prop :=
  ∀ (m : ℕ → ℝ) (s : St ℝ), e.NWF → e.WB s.vok s.aok → Disjoint e.ownV e.reads →
    (∀ a ∈ e.reads, s.val a = m a) → ∃ s' r, FevalOk e m s s' r

/-- Nodes that evaluate one child and then assign their own cache. -/
theorem feval_one {e n : Expr ℝ} {w : View} {m : ℕ → ℝ} {s s1 : St ℝ} {r : Ref ℝ} {f : ℕ → ℝ}
    (h1 : FevalOk e m s s1 r)
    (hw : n.view = w) (hin : n.innerV = e.ownV) (hroot : n.valRoot = rng w.val w.size) (hr : n.reads = e.reads)
    (hacc : accessible s.vok w.val w.size) (hd1 : Disjoint (rng w.val w.size) e.ownV)
    (hd : Disjoint n.ownV n.reads)
    (hf : ∀ k < w.size, f k = n.denote m k)
    (hrun : n.feval s = some ({ s1 with val := fillRange s1.val (addr w.val) w.size f }, .ptr w.val))
    (hcached : ∀ h, e.Cached m h → (∀ k < w.size, h (addr w.val + k) = n.denote m k) → n.Cached m h) :
    ∃ s' r', FevalOk n m s s' r' := by
  have hsz : n.size = w.size := by simp [Expr.size, Expr.shape, hw, View.size]
  have hval : ∀ k < w.size, fillRange s1.val (addr w.val) w.size f (addr w.val + k) = n.denote m k := by
    intro k hk; rw [fillRange_add hk, hf k hk]
  have hd2 : Disjoint (rng w.val w.size) e.reads := by
    refine Disjoint.mono (fun a ha => ?_) (hr ▸ le_rfl) hd
    simp only [Expr.ownV, hroot, Set.mem_union]; tauto
  have hframe : ∀ a ∈ e.ownV ∪ e.reads, fillRange s1.val (addr w.val) w.size f a = s1.val a := by
    intro a ha
    refine fillRange_not_mem fun hmem => ?_
    rcases ha with ha | ha
    · exact disj_left hd1 hmem ha
    · exact disj_left hd2 hmem ha
  refine ⟨_, _, ⟨hrun, h1.adj, h1.vok, h1.aok, ?_, ?_, ?_⟩⟩
  · intro a ha
    have ha : a ∉ e.ownV ∪ rng w.val w.size := by rw [← hin, ← hroot]; exact ha
    rw [Set.mem_union, not_or] at ha
    dsimp only
    rw [fillRange_not_mem ha.2, h1.frame a ha.1]
  · exact hcached _ (Expr.Cached.congr e h1.cached hframe) hval
  · refine refOk_root ?_ ?_ ?_
    · rw [hsz]; show accessible s1.vok _ _; rw [h1.vok]; exact hacc
    · rw [hsz]; intro a ha; simp only [Expr.ownV, hroot, Set.mem_union]; tauto
    · rw [hsz]; exact hval

/-- two children evaluated one after the other -/
theorem feval_two {l r : Expr ℝ} {m : ℕ → ℝ} {s : St ℝ} (ihl : FevalClaim l) (ihr : FevalClaim r)
    (wfl : l.NWF) (wfr : r.NWF) (wbl : l.WB s.vok s.aok) (wbr : r.WB s.vok s.aok)
    (hlr : Disjoint l.ownV r.ownV) (hd : Disjoint (l.ownV ∪ r.ownV) (l.reads ∪ r.reads))
    (hm : ∀ a ∈ l.reads ∪ r.reads, s.val a = m a) :
    ∃ s1 lr s2 rr, FevalOk l m s s1 lr ∧ FevalOk r m s1 s2 rr ∧ l.Cached m s2.val ∧ RefOk l m s2 lr := by
  have d := Set.disjoint_left.1 hd
  obtain ⟨s1, lr, h1⟩ := ihl m s wfl wbl
    (hd.mono Set.subset_union_left Set.subset_union_left) (fun a ha => hm a (Or.inl ha))
  obtain ⟨s2, rr, h2⟩ := ihr m s1 wfr (by rw [h1.vok, h1.aok]; exact wbr)
    (hd.mono Set.subset_union_right Set.subset_union_right)
    (fun a ha => by rw [h1.frame a (fun h => d (Or.inl h) (Or.inr ha))]; exact hm a (Or.inr ha))
  have hfr : ∀ a ∈ l.ownV ∪ l.reads, s2.val a = s1.val a := by
    intro a ha
    refine h2.frame a fun hr => ?_
    rcases ha with ha | ha
    · exact disj_left hlr ha hr
    · exact d (Or.inr hr) (Or.inl ha)
  refine ⟨s1, lr, s2, rr, h1, h2, Expr.Cached.congr l h1.cached hfr, ?_, h1.ref.2⟩
  intro s' hv hag
  exact h1.ref.1 s' (hv.trans h2.vok) fun a ha => (hag a ha).trans (hfr a ha)

/-- the accumulating loops of `SumIterNode::feval` and `ProdIterNode::feval` -/
theorem fevals_acc (g : ℝ → ℝ → ℝ) (w : View) (m : ℕ → ℝ) (es : Exprs ℝ) :
    ∀ (s : St ℝ) (acc : ℕ → ℝ), (∀ e ∈ es.toList, FevalClaim e) → es.NWFs → es.WBs s.vok s.aok →
    Disjoint es.ownVs es.readss → (∀ a ∈ es.readss, s.val a = m a) → accessible s.vok w.val w.size →
    Disjoint (rng w.val w.size) es.ownVs → Disjoint (rng w.val w.size) es.readss →
    (∀ e ∈ es.toList, e.shape = w.shape) → (∀ k < w.size, s.val (addr w.val + k) = acc k) →
    ∃ s' rs, es.fevals (fun s r sh =>
        if sameDims sh w.shape then do
          let a ← readCells s.val s.vok w.val w.size
          let x ← r.read s sh.size
          s.assignV w.val w.size r sh.size (fun k => g (a k) (x k))
        else none) s = some (s', rs) ∧
      s'.adj = s.adj ∧ s'.vok = s.vok ∧ s'.aok = s.aok ∧
      (∀ a, a ∉ es.ownVs → a ∉ rng w.val w.size → s'.val a = s.val a) ∧ es.Cacheds m s'.val ∧
      ∀ k < w.size, s'.val (addr w.val + k) = (es.denotes m).foldl (fun c x => g c (x.2 k)) (acc k) := by
  induction es using Exprs.rec (motive_1 := fun _ => True) with
  | nil =>
    intro s acc _ _ _ _ _ _ _ _ _ hacc
    exact ⟨s, [], by simp [Exprs.fevals], rfl, rfl, rfl, fun _ _ _ => rfl, trivial, by simpa [Exprs.denotes] using hacc⟩
  | cons e es _ ih =>
    intro s acc hcl hwf hwb hd hm hw hwo hwr hsh hacc
    simp only [Exprs.NWFs] at hwf
    simp only [Exprs.WBs] at hwb
    have hown : (Exprs.cons e es).ownVs = e.ownV ∪ es.ownVs := rfl
    have hrds : (Exprs.cons e es).readss = e.reads ∪ es.readss := rfl
    rw [hown] at hd hwo
    rw [hrds] at hd hm hwr
    have d := Set.disjoint_left.1 hd
    obtain ⟨s1, r, h1⟩ := hcl e (by simp [Exprs.toList]) m s hwf.1 hwb.1
      (hd.mono Set.subset_union_left Set.subset_union_left) fun a ha => hm a (Or.inl ha)
    have hse : e.shape = w.shape := hsh e (by simp [Exprs.toList])
    have hsz : e.size = w.size := by simp [Expr.size, View.size, hse]
    have hwe : Disjoint (rng w.val w.size) (e.ownV ∪ e.reads) := by
      rw [Set.disjoint_union_right]
      exact ⟨hwo.mono_right Set.subset_union_left, hwr.mono_right Set.subset_union_left⟩
    have hw1 : ∀ k < w.size, s1.val (addr w.val + k) = acc k := fun k hk => by
      rw [h1.frame _ (disj_left hwo (add_mem_rng hk) ∘ Or.inl), hacc k hk]
    have hread := h1.ref.1 s1 rfl (fun _ _ => rfl)
    have hcl1 := h1.ref.2 w.val w.size hwe
    have hacc1 : accessible s1.vok w.val w.size := by rw [h1.vok]; exact hw
    have hes : e.shape.size = w.size := hsz
    set f : ℕ → ℝ := fun k => g (trunc w.size acc k) (trunc e.size (e.denote m) k) with hf
    set s2 : St ℝ := { s1 with val := fillRange s1.val (addr w.val) w.size f } with hs2
    have hfr2 : ∀ a, a ∉ rng w.val w.size → s2.val a = s1.val a := fun a ha =>
      fillRange_not_mem (heap := s1.val) (f := f) ha
    obtain ⟨s', rs, hrun, hadj, hvok, haok, hfr, hcach, hval⟩ := ih s2 (fun k => g (acc k) (e.denote m k))
      (fun x hx => hcl x (by simp [Exprs.toList, hx])) hwf.2
      (by show es.WBs s1.vok s1.aok; rw [h1.vok, h1.aok]; exact hwb.2.1)
      (hd.mono Set.subset_union_right Set.subset_union_right)
      (fun a ha => by
        rw [hfr2 a (disj_right hwr (Or.inr ha)), h1.frame a (fun h => d (Or.inl h) (Or.inr ha))]
        exact hm a (Or.inr ha))
      hacc1 (hwo.mono_right Set.subset_union_right) (hwr.mono_right Set.subset_union_right)
      (fun x hx => hsh x (by simp [Exprs.toList, hx]))
      (fun k hk => by
        rw [hs2]
        dsimp only
        rw [fillRange_add hk, hf]
        simp only [trunc_of_lt hk, hsz])
    refine ⟨s', (r, e.shape) :: rs, ?_, ?_, ?_, ?_, ?_, ?_, ?_⟩
    · rw [Exprs.fevals, h1.run]
      simp only [Option.bind_eq_bind, Option.bind_some]
      rw [if_pos (by simp [sameDims, hse]), readCells_eq' hacc1 hw1, show e.shape.size = e.size from rfl, hread]
      simp only [Option.bind_some]
      rw [assignV_eq hacc1 hcl1]
      simp only [Option.bind_some]
      exact congrArg (fun o => Option.bind o fun a => some (a.1, (r, e.shape) :: a.2)) hrun
    · rw [hadj]; exact h1.adj
    · rw [hvok]; exact h1.vok
    · rw [haok]; exact h1.aok
    · intro a ha haw
      rw [hfr a (fun h => ha (Or.inr h)) haw, hfr2 a haw, h1.frame a (fun h => ha (Or.inl h))]
    · refine ⟨Expr.Cached.congr e h1.cached fun a ha => ?_, hcach⟩
      have hna : a ∉ rng w.val w.size := disj_right hwe ha
      have hnb : a ∉ es.ownVs := by
        rcases ha with ha | ha
        · exact disj_left hwb.2.2.1 ha
        · exact fun h => d (Or.inr h) (Or.inl ha)
      rw [hfr a hnb hna, hfr2 a hna]
    · intro k hk
      rw [hval k hk]
      simp [Exprs.denotes]
  | _ => trivial

/-- evaluating a list of operands without accumulating -/
theorem fevals_id (m : ℕ → ℝ) (es : Exprs ℝ) :
    ∀ (s : St ℝ), (∀ e ∈ es.toList, FevalClaim e) → es.NWFs → es.WBs s.vok s.aok →
    Disjoint es.ownVs es.readss → (∀ a ∈ es.readss, s.val a = m a) →
    ∃ s' rs, es.fevals (fun s _ _ => some s) s = some (s', rs) ∧
      s'.adj = s.adj ∧ s'.vok = s.vok ∧ s'.aok = s.aok ∧
      (∀ a, a ∉ es.ownVs → s'.val a = s.val a) ∧ es.Cacheds m s'.val ∧
      (∀ s'' : St ℝ, s''.vok = s'.vok → (∀ a ∈ es.ownVs ∪ es.readss, s''.val a = s'.val a) →
        readAll s'' rs = some ((es.denotes m).map fun x => (x.1, trunc x.1.size x.2))) := by
  induction es using Exprs.rec (motive_1 := fun _ => True) with
  | nil =>
    intro s _ _ _ _ _
    exact ⟨s, [], by simp [Exprs.fevals], rfl, rfl, rfl, fun _ _ => rfl, trivial, fun _ _ _ => rfl⟩
  | cons e es _ ih =>
    intro s hcl hwf hwb hd hm
    simp only [Exprs.NWFs] at hwf
    simp only [Exprs.WBs] at hwb
    have hown : (Exprs.cons e es).ownVs = e.ownV ∪ es.ownVs := rfl
    have hrds : (Exprs.cons e es).readss = e.reads ∪ es.readss := rfl
    rw [hown, hrds] at hd
    rw [hrds] at hm
    have d := Set.disjoint_left.1 hd
    obtain ⟨s1, r, h1⟩ := hcl e (by simp [Exprs.toList]) m s hwf.1 hwb.1
      (hd.mono Set.subset_union_left Set.subset_union_left) fun a ha => hm a (Or.inl ha)
    obtain ⟨s', rs, hrun, hadj, hvok, haok, hfr, hcach, hval⟩ := ih s1
      (fun x hx => hcl x (by simp [Exprs.toList, hx])) hwf.2
      (by rw [h1.vok, h1.aok]; exact hwb.2.1)
      (hd.mono Set.subset_union_right Set.subset_union_right)
      (fun a ha => by
        rw [h1.frame a (fun h => d (Or.inl h) (Or.inr ha))]
        exact hm a (Or.inr ha))
    have hag : ∀ a ∈ e.ownV ∪ e.reads, s'.val a = s1.val a := by
      intro a ha
      refine hfr a ?_
      rcases ha with ha | ha
      · exact disj_left hwb.2.2.1 ha
      · exact fun h => d (Or.inr h) (Or.inl ha)
    refine ⟨s', (r, e.shape) :: rs, ?_, ?_, ?_, ?_, ?_, ⟨Expr.Cached.congr e h1.cached hag, hcach⟩, ?_⟩
    · rw [Exprs.fevals, h1.run]
      simp only [Option.bind_eq_bind, Option.bind_some]
      rw [hrun]
      rfl
    · rw [hadj]; exact h1.adj
    · rw [hvok]; exact h1.vok
    · rw [haok]; exact h1.aok
    · intro a ha
      rw [hfr a (fun h => ha (Or.inr h)), h1.frame a (fun h => ha (Or.inl h))]
    · intro s'' hv hs
      simp only [readAll]
      rw [show e.shape.size = e.size from rfl, h1.ref.1 s'' (by rw [hv, hvok]) fun a ha => by
        rw [hs a (ha.elim (fun h => Or.inl (Or.inl h)) fun h => Or.inr (Or.inl h)), hag a ha]]
      simp only [Option.bind_eq_bind, Option.bind_some]
      rw [hval s'' hv fun a ha => hs a (ha.elim (fun h => Or.inl (Or.inr h)) fun h => Or.inr (Or.inr h))]
      rfl
  | _ => trivial

/-- Nodes with a list of children that finally hold the root value. -/
theorem feval_list {es : Exprs ℝ} {n : Expr ℝ} {w : View} {m : ℕ → ℝ} {s s' : St ℝ}
    (hw : n.view = w) (hin : n.innerV = es.ownVs) (hroot : n.valRoot = rng w.val w.size)
    (hacc : accessible s.vok w.val w.size)
    (hrun : n.feval s = some (s', .ptr w.val))
    (hadj : s'.adj = s.adj) (hvok : s'.vok = s.vok) (haok : s'.aok = s.aok)
    (hfr : ∀ a, a ∉ es.ownVs → a ∉ rng w.val w.size → s'.val a = s.val a)
    (hcached : n.Cached m s'.val)
    (hval : ∀ k < w.size, s'.val (addr w.val + k) = n.denote m k) :
    ∃ s' r', FevalOk n m s s' r' := by
  have hsz : n.size = w.size := by simp [Expr.size, Expr.shape, hw, View.size]
  refine ⟨s', _, ⟨hrun, hadj, hvok, haok, ?_, hcached, ?_⟩⟩
  · intro a ha
    have ha : a ∉ es.ownVs ∪ rng w.val w.size := by rw [← hin, ← hroot]; exact ha
    rw [Set.mem_union, not_or] at ha
    exact hfr a ha.1 ha.2
  · refine refOk_root ?_ ?_ ?_
    · rw [hsz, hvok]; exact hacc
    · rw [hsz, ← hroot]; exact fun a ha => Or.inl (Or.inr ha)
    · rw [hsz]; exact hval

omit [HasInf ℝ] [LinAlg ℝ] in
/-- index arithmetic: coefficient `(k % r, k / r)` -/
theorem idx_lt {r c k : ℕ} (h : k < r * c) : k % r < r ∧ k / r < c := by
  have hr : 0 < r := by rcases Nat.eq_zero_or_pos r with h0 | h0; · simp [h0] at h
                        · exact h0
  exact ⟨Nat.mod_lt _ hr, Nat.div_lt_of_lt_mul h⟩

omit [HasInf ℝ] [LinAlg ℝ] in
theorem idx_lt' {r c i j : ℕ} (hi : i < r) (hj : j < c) : i + j * r < r * c := by
  have : j * r + r ≤ c * r := by nlinarith
  nlinarith

omit [HasInf ℝ] [LinAlg ℝ] in
theorem Shape.ofDims_ok (k : Kind) (r c : ℕ) : (Shape.ofDims k r c).Ok := by
  cases k <;> simp [Shape.ofDims, Shape.Ok]

omit [HasInf ℝ] [LinAlg ℝ] in
/-- shapes of well-formed expressions are ok -/
theorem Expr.NWF.shapeOk {α : Type} (e : Expr α) : e.NWF → e.shape.Ok := by
  induction e using Expr.induct with
  | var | const | cview => exact id
  | unary op e w ih => intro h; rw [Expr.shape, Expr.view, h.2.1]; exact ih h.1
  | binary => intro h; exact h.2.2.1
  | pow n e w ih => intro h; rw [Expr.shape, Expr.view, h.2.1]; exact ih h.1
  | prodElem e w c ih => intro h; simp [Expr.shape, Expr.view, h.2.1, Shape.scl, Shape.Ok]
  | transpose e w ih => intro h; simp [Expr.shape, Expr.view, h.2.2, Shape.mat, Shape.Ok]
  | dot l r w => intro h; obtain ⟨_, _, _, _, _, h, _⟩ := h; rw [Expr.shape, Expr.view, h]; exact Shape.ofDims_ok _ _ _
  | sumIter | prodIter => intro h; exact h.2.1
  | reduce => intro h; simp [Expr.shape, Expr.view, h.2.1, Shape.scl, Shape.Ok]
  | ifElse c a b w ihc iha ihb => intro h; obtain ⟨_, ha, _, _, _, h, _⟩ := h; rw [Expr.shape, Expr.view, ← h]; exact iha ha
  | glue l r w ihl ihr => intro h; rw [Expr.shape, Expr.view, h.2.2.1]; exact ihr h.2.1
  | eq | opEq | forEach => intro h; exact h.elim

omit [HasInf ℝ] [LinAlg ℝ] in
theorem Expr.WF.shapeOk {α : Type} (e : Expr α) (h : e.WF) : e.shape.Ok := h.nested.shapeOk

omit [HasInf ℝ] [LinAlg ℝ] in
theorem Shape.Ok.size_scl {s : Shape} (h : s.Ok) (hs : s.isScl = true) : s.size = 1 := by
  have : s.kind = .scl := by simpa [Shape.isScl] using hs
  rw [Shape.Ok, this] at h
  simp only at h
  simp [Shape.size, h.1, h.2]

omit [HasInf ℝ] [LinAlg ℝ] in
/-- reading an operand of a coefficient-wise operation -/
theorem bcast_trunc {α : Type} [Zero α] {e : Expr α} {w : Shape} (hok : e.shape.Ok) (hd : e.shape.isScl = true ∨ sameDims e.shape w)
    (f : ℕ → α) {k : ℕ} (hk : k < w.size) :
    bcast e.shape (trunc e.size f) k = f (if e.shape.isScl then 0 else k) := by
  simp only [bcast, Shape.bidx]
  by_cases hs : e.shape.isScl = true
  · simp only [hs, if_true]
    exact trunc_of_lt (by rw [Expr.size, hok.size_scl hs]; exact Nat.one_pos)
  · simp only [hs]
    apply trunc_of_lt
    have := hd.resolve_left hs
    simp only [Expr.size, Shape.size, this.1, this.2]
    exact hk

/-- Outcome of the forward evaluation of a sequence of placeholder assignments. -/
structure StmOk (t : Expr ℝ) (m : ℕ → ℝ) (s s' : St ℝ) : Prop where
  run : t.feval s = some (s', .ptr t.view.val)
  adj : s'.adj = s.adj
  vok : s'.vok = s.vok
  aok : s'.aok = s.aok
  frame : ∀ a, a ∉ t.ownV → s'.val a = s.val a
  cached : t.Cached m s'.val
  defs : ∀ a ∈ t.defs, s'.val a = t.exec m a
  acc : accessible s'.vok t.view.val t.size

/-- the claim for sequences of placeholder assignments -/
def StmClaim (t : Expr ℝ) : Prop :=
  ∀ (m : ℕ → ℝ) (s : St ℝ), t.NStm → t.WB s.vok s.aok → Disjoint t.ownV t.reads →
    (∀ a ∈ t.reads, s.val a = m a) → ∃ s', StmOk t m s s'

/-- placeholder assignments change placeholders only -/
theorem Expr.NStm.exec_off {t : Expr ℝ} : t.NStm → ∀ (m : ℕ → ℝ) {a : ℕ}, a ∉ t.defs → t.exec m a = m a := by
  induction t using Expr.induct with
  | eq v e w => intro _ m a ha; exact assign_off ha
  | glue l r w ihl ihr =>
    intro h m a ha
    show r.exec (l.exec m) a = m a
    rw [ihr h.2.1 _ (fun x => ha (Or.inr x)), ihl h.1 _ fun x => ha (Or.inl x)]
  | _ => intro h; exact h.elim

/-- what holds before the second part of a sequence -/
theorem glue_mid {l r : Expr ℝ} {w : View} {m : ℕ → ℝ} {s s1 : St ℝ} (hl : l.NStm) (h1 : StmOk l m s s1) (hlr : Disjoint l.ownV r.ownV)
    (hd : Disjoint (Expr.glue l r w).ownV (Expr.glue l r w).reads) (hm : ∀ a ∈ (Expr.glue l r w).reads, s.val a = m a) :
    Disjoint r.ownV r.reads ∧ ∀ a ∈ r.reads, s1.val a = l.exec m a := by
  have hdd : Disjoint (l.ownV ∪ r.ownV) (l.reads ∪ (r.reads \ l.defs)) := hd.mono_left fun a h => Or.inl h
  have d := Set.disjoint_left.1 hdd
  refine ⟨Set.disjoint_left.2 fun a ha hr => ?_, fun a ha => ?_⟩
  · by_cases hda : a ∈ l.defs
    · exact disj_left hlr (l.defs_own hda) ha
    · exact d (Or.inr ha) (Or.inr ⟨hr, hda⟩)
  · by_cases hda : a ∈ l.defs
    · exact h1.defs a hda
    · rw [hl.exec_off m hda, h1.frame a fun h => d (Or.inl h) (Or.inr ⟨ha, hda⟩)]
      exact hm a (Or.inr ⟨ha, hda⟩)

theorem stm_eq {v w : View} {e : Expr ℝ} (ih : FevalClaim e) : StmClaim (.eq v e w) := by
  intro m s hwf hwb hd hm
  obtain ⟨wfe, hok, hsh, hwsh, _⟩ := hwf
  obtain ⟨wbe, hav, haa, hwv, hdv, hda, hpe, hroot⟩ := hwb
  have hdd : Disjoint ((e.innerV ∪ e.valRoot) ∪ rng v.val v.size) e.reads := hd.mono_left fun a h => Or.inl h
  have hsub : e.valRoot ⊆ rng v.val v.size := by
    rcases hroot with h | h
    · rw [h.1]; exact Set.empty_subset _
    · exact h.2.2.2.1
  have hdr : Disjoint (rng v.val v.size) e.reads := hdd.mono_left fun a h => Or.inr h
  obtain ⟨s1, r, h⟩ := ih m s wfe wbe (hdd.mono_left fun a h => Or.inl h) hm
  have hread := h.ref.1 s1 rfl fun _ _ => rfl
  have hsz : e.size = v.size := by rw [Expr.size, hsh, View.size]
  have hwsz : w.size = v.size := by rw [View.size, hwsh, View.size]
  have hclash : noClash v.val v.size r e.size := by
    by_cases hre : e.valRoot = ∅
    · refine h.ref.2 _ _ (Set.disjoint_union_right.2 ⟨?_, hdr⟩)
      rw [Expr.ownV, hre, Set.union_empty]
      exact hdv.symm
    · rcases hroot with hr | hr
      · exact absurd hr.1 hre
      · rw [feval_refN e wfe hr.1 h.run, e.getRef_of fun sh c hc => hre (by rw [hc]; rfl), hr.2.1]
        exact Or.inl ⟨rfl, hsz⟩
  let f : ℕ → ℝ := trunc e.size (e.denote m)
  let s2 : St ℝ := { s1 with val := fillRange s1.val (addr v.val) v.size f }
  let s3 : St ℝ := { s2 with val := fillRange s2.val (addr v.val) v.size f }
  have hin : ∀ k < v.size, s3.val (addr v.val + k) = e.denote m k := by
    intro k hk
    show fillRange (fillRange s1.val (addr v.val) v.size f) (addr v.val) v.size f _ = _
    rw [fillRange_add hk]
    exact trunc_of_lt (hsz ▸ hk)
  have hout : ∀ a, a ∉ rng v.val v.size → s3.val a = s1.val a := by
    intro a ha
    show fillRange (fillRange s1.val (addr v.val) v.size f) (addr v.val) v.size f a = _
    rw [fillRange_not_mem ha, fillRange_not_mem ha]
  refine ⟨s3, ?_, h.adj, h.vok, h.aok, ?_, ⟨Expr.Cached.congr e h.cached ?_, hin⟩, ?_, ?_⟩
  · simp only [Expr.feval, h.run, Option.bind_eq_bind, Option.bind_some]
    rw [if_pos (by rw [hsh]; exact ⟨rfl, rfl⟩), hread]
    simp only [Option.bind_some]
    rw [assignV_eq (h.vok ▸ hav) hclash]
    simp only [Option.bind_some]
    rw [assignV_eq (s := s2) (by rw [hwv, hwsz]; exact h.vok ▸ hav) (by left; rw [hwv, hwsz]; exact ⟨rfl, rfl⟩)]
    simp only [Option.bind_some, hwv, hwsz]
    simp [Expr.view, hwv]; rfl
  · intro a ha
    have ha : a ∉ ((e.innerV ∪ e.valRoot) ∪ rng v.val v.size) ∪ ∅ := ha
    simp only [Set.union_empty, Set.mem_union, not_or] at ha
    rw [hout a ha.2]
    exact h.frame a (not_or.2 ha.1)
  · intro a ha
    by_cases hav' : a ∈ rng v.val v.size
    · rcases ha with (ha | ha) | ha
      · exact absurd hav' (disj_left hdv ha)
      · rcases hroot with hr | hr
        · rw [hr.1] at ha; exact ha.elim
        · have h2 := hread
          rw [feval_refN e wfe hr.1 h.run, e.getRef_of fun sh c hc => by rw [hc] at ha; exact ha.elim, hr.2.1] at h2
          obtain ⟨k, hk, rfl⟩ := mem_rng_iff.1 hav'
          rw [hin k hk, (accessible_of_read h2).2 k (hsz ▸ hk), trunc_of_lt (hsz ▸ hk)]
      · exact absurd ha (disj_left hdr hav')
    · exact hout a hav'
  · intro a ha
    have ha : a ∈ rng v.val v.size := ha
    obtain ⟨k, hk, rfl⟩ := mem_rng_iff.1 ha
    rw [hin k hk]
    exact (assign_add hk).symm
  · show accessible s1.vok w.val w.size
    rw [h.vok, hwv, hwsz]
    exact hav

theorem stm_glue {l r : Expr ℝ} {w : View} (ihl : StmClaim l) (ihr : StmClaim r) : StmClaim (.glue l r w) := by
  intro m s hwf hwb hd hm
  obtain ⟨wfl, wfr, hsh⟩ := hwf
  obtain ⟨wbl, wbr, hlr, _, hw⟩ := hwb
  have hdd : Disjoint (l.ownV ∪ r.ownV) (l.reads ∪ (r.reads \ l.defs)) := hd.mono_left fun a h => Or.inl h
  have d := Set.disjoint_left.1 hdd
  obtain ⟨s1, h1⟩ := ihl m s wfl wbl (hdd.mono Set.subset_union_left Set.subset_union_left) fun a ha => hm a (Or.inl ha)
  obtain ⟨hdr, hmr⟩ := glue_mid wfl h1 hlr hd hm
  obtain ⟨s2, h2⟩ := ihr (l.exec m) s1 wfr (by rw [h1.vok, h1.aok]; exact wbr) hdr hmr
  have hsz : w.size = r.size := by rw [View.size, hsh, Expr.size]
  refine ⟨s2, ?_, h2.adj.trans h1.adj, h2.vok.trans h1.vok, h2.aok.trans h1.aok, ?_, ⟨Expr.Cached.congr l h1.cached fun a ha => h2.frame a ?_, h2.cached⟩, ?_, ?_⟩
  · simp only [Expr.feval, h1.run, h2.run, Option.bind_eq_bind, Option.bind_some, Ref.read]
    rw [readCells_eq h2.acc]
    simp only [Option.bind_some]
    rw [hw, hsz, assign_self h2.acc]
    simp [Expr.view, hw]
  · intro a ha
    rw [h2.frame a fun h => ha (Or.inl (Or.inr h)), h1.frame a fun h => ha (Or.inl (Or.inl h))]
  · rcases ha with ha | ha
    · exact disj_left hlr ha
    · exact fun h => d (Or.inr h) (Or.inl ha)
  · intro a ha
    show _ = r.exec (l.exec m) a
    by_cases har : a ∈ r.defs
    · exact h2.defs a har
    · have hal : a ∈ l.defs := ha.resolve_right har
      rw [wfr.exec_off _ har, h2.frame a (disj_left hlr (l.defs_own hal)), h1.defs a hal]
  · show accessible s2.vok w.val w.size
    rw [hw, hsz]; exact h2.acc

theorem feval_glue {l r : Expr ℝ} {w : View} (ihl : StmClaim l) (ihr : FevalClaim r) : FevalClaim (.glue l r w) := by
  intro m s hwf hwb hd hm
  obtain ⟨wfl, wfr, hsh, hif, hnc⟩ := hwf
  obtain ⟨wbl, wbr, hlr, _, hw⟩ := hwb
  have hdd : Disjoint (l.ownV ∪ r.ownV) (l.reads ∪ (r.reads \ l.defs)) := hd.mono_left fun a h => Or.inl h
  have d := Set.disjoint_left.1 hdd
  obtain ⟨s1, h1⟩ := ihl m s wfl wbl (hdd.mono Set.subset_union_left Set.subset_union_left) fun a ha => hm a (Or.inl ha)
  obtain ⟨hdr, hmr⟩ := glue_mid wfl h1 hlr hd hm
  obtain ⟨s2, rr, h2⟩ := ihr (l.exec m) s1 wfr (by rw [h1.vok, h1.aok]; exact wbr) hdr hmr
  have hsz : w.size = r.size := by rw [View.size, hsh, Expr.size]
  have hrr : rr = .ptr r.view.val := by
    rw [feval_refN r wfr hif h2.run]
    exact r.getRef_of fun sh c hc => by rw [hc] at hnc; exact hnc
  subst hrr
  have hread := accessible_of_read (h2.ref.1 s2 rfl fun _ _ => rfl)
  have hsize : (Expr.glue l r w).size = r.size := hsz
  have hsub : r.ownV ∪ r.reads ⊆ (Expr.glue l r w).ownV ∪ (Expr.glue l r w).reads := by
    rintro a (ha | ha)
    · exact Or.inl (Or.inl (Or.inr ha))
    · by_cases hda : a ∈ l.defs
      · exact Or.inl (Or.inl (Or.inl (l.defs_own hda)))
      · exact Or.inr (Or.inr ⟨ha, hda⟩)
  refine ⟨s2, .ptr w.val, ?_, h2.adj.trans h1.adj, h2.vok.trans h1.vok, h2.aok.trans h1.aok, ?_, ⟨Expr.Cached.congr l h1.cached fun a ha => h2.frame a ?_, h2.cached⟩, ?_, ?_⟩
  · simp only [Expr.feval, h1.run, h2.run, Option.bind_eq_bind, Option.bind_some, Ref.read]
    rw [readCells_eq hread.1]
    simp only [Option.bind_some]
    rw [hw, hsz, assign_self hread.1]
    rfl
  · intro a ha
    rw [h2.frame a fun h => ha (Or.inl (Or.inr h)), h1.frame a fun h => ha (Or.inl (Or.inl h))]
  · rcases ha with ha | ha
    · exact disj_left hlr ha
    · exact fun h => d (Or.inr h) (Or.inl ha)
  · intro s' hv hag
    rw [hsize, hw]
    exact h2.ref.1 s' hv fun a ha => hag a (hsub ha)
  · intro dst n hdst
    rw [hsize, hw]
    exact h2.ref.2 dst n (hdst.mono_right hsub)

/-- **Forward evaluation** of a well-formed, well-bound pure expression succeeds, fills exactly its own caches with the values of
its subexpressions, and returns a reference to the expression's value. -/
theorem feval_both (e : Expr ℝ) : FevalClaim e ∧ StmClaim e := by
  induction e using Expr.induct with
  | var v =>
    refine ⟨?_, fun m s h => h.elim⟩
    intro m s hwf hwb hd hm
    refine ⟨s, .ptr v.val, ⟨rfl, rfl, rfl, rfl, fun _ _ => rfl, hm, ?_⟩⟩
    exact refOk_root hwb.1 (fun a ha => Or.inr ha) fun k hk => hm _ (add_mem_rng hk)
  | const sh c =>
    refine ⟨?_, fun m s h => h.elim⟩
    intro m s hwf hwb hd hm
    exact ⟨s, .lit c, ⟨rfl, rfl, rfl, rfl, fun _ _ => rfl, trivial, fun _ _ _ => rfl, fun _ _ _ => trivial⟩⟩
  | cview sh p =>
    refine ⟨?_, fun m s h => h.elim⟩
    intro m s hwf hwb hd hm
    refine ⟨s, .ptr p, ⟨rfl, rfl, rfl, rfl, fun _ _ => rfl, hm, ?_⟩⟩
    exact refOk_root hwb (fun a ha => Or.inr ha) fun k hk => hm _ (add_mem_rng hk)
  | unary op e w ih =>
    refine ⟨?_, fun m s h => h.elim⟩
    replace ih := ih.1
    intro m s hwf hwb hd hm
    obtain ⟨wfe, hsh, _⟩ := hwf
    obtain ⟨wbe, hav, haa, hdv, hda⟩ := hwb
    obtain ⟨s1, r, h1⟩ := ih m s wfe wbe (hd.mono_left fun a h => Or.inl h) hm
    have hsz : e.size = w.size := by simp [Expr.size, View.size, hsh]
    have hc := h1.ref.2 w.val w.size (by
      rw [Set.disjoint_union_right]; exact ⟨hdv, hd.mono_left fun a h => Or.inr h⟩)
    refine feval_one (f := fun k => op.fmap (trunc e.size (e.denote m) k)) h1 rfl rfl rfl rfl hav hdv hd ?_ ?_ ?_
    · intro k hk
      rw [trunc_of_lt (hsz ▸ hk), UOp.fmap_eq, Expr.denote]
    · rw [Expr.feval, h1.run]
      simp only [Option.bind_eq_bind, Option.bind_some]
      rw [h1.ref.1 s1 rfl fun _ _ => rfl]
      simp only [Option.bind_some]
      rw [assignV_eq (h1.vok ▸ hav) hc]
      rfl
    · exact fun h a b => ⟨a, b⟩
  | binary op l r w ihl ihr =>
    refine ⟨?_, fun m s h => h.elim⟩
    replace ihl := ihl.1
    replace ihr := ihr.1
    intro m s hwf hwb hd hm
    obtain ⟨wfl, wfr, hok, hdims, _⟩ := hwf
    obtain ⟨wbl, wbr, hlrv, hlra, hav, hdv, _⟩ := hwb
    have hdd : Disjoint (l.ownV ∪ r.ownV) (l.reads ∪ r.reads) := hd.mono_left fun a h => Or.inl h
    have hdr : Disjoint (rng w.val w.size) (l.reads ∪ r.reads) := hd.mono_left fun a h => Or.inr h
    obtain ⟨s1, lr, s2, rr, h1, h2, hcl, href⟩ := feval_two ihl ihr wfl wfr wbl wbr hlrv hdd hm
    have hcl1 := href.2 w.val w.size (by
      rw [Set.disjoint_union_right]
      exact ⟨hdv.mono_right Set.subset_union_left, hdr.mono_right Set.subset_union_left⟩)
    have hcl2 := h2.ref.2 w.val w.size (by
      rw [Set.disjoint_union_right]
      exact ⟨hdv.mono_right Set.subset_union_right, hdr.mono_right Set.subset_union_right⟩)
    have hav2 : accessible s2.vok w.val w.size := by rw [h2.vok, h1.vok]; exact hav
    have hin : (Expr.binary op l r w).innerV = l.ownV ∪ r.ownV := rfl
    set f : ℕ → ℝ := fun k => op.fmap w.shape.isScl (bcast l.shape (trunc l.size (l.denote m)) k)
      (bcast r.shape (trunc r.size (r.denote m)) k) with hf
    have hval : ∀ k < w.size, fillRange s2.val (addr w.val) w.size f (addr w.val + k)
        = (Expr.binary op l r w).denote m k := by
      intro k hk
      rw [fillRange_add hk, hf, Expr.denote]
      simp only
      rw [BOp.fmap_eq, bcast_trunc wfl.shapeOk hdims.1 _ hk, bcast_trunc wfr.shapeOk hdims.2.1 _ hk]
    have hfrm : ∀ a ∈ (l.ownV ∪ r.ownV) ∪ (l.reads ∪ r.reads),
        fillRange s2.val (addr w.val) w.size f a = s2.val a := fun a ha => fillRange_not_mem
      (ha.elim (fun h => disj_right hdv h) fun h => disj_right hdr h)
    refine ⟨{ s2 with val := fillRange s2.val (addr w.val) w.size f }, .ptr w.val,
      ⟨?_, h2.adj.trans h1.adj, h2.vok.trans h1.vok, h2.aok.trans h1.aok, ?_, ?_, ?_⟩⟩
    · rw [Expr.feval, h1.run]
      simp only [Option.bind_eq_bind, Option.bind_some]
      rw [h2.run]
      simp only [Option.bind_some]
      rw [if_pos hdims, href.1 s2 rfl fun _ _ => rfl]
      simp only [Option.bind_some]
      rw [h2.ref.1 s2 rfl fun _ _ => rfl]
      simp only [Option.bind_some]
      rw [if_pos hcl1, assignV_eq hav2 hcl2]
      rfl
    · intro a ha
      have ha : a ∉ (l.ownV ∪ r.ownV) ∪ rng w.val w.size := ha
      simp only [Set.mem_union, not_or] at ha
      dsimp only
      rw [fillRange_not_mem ha.2, h2.frame a ha.1.2, h1.frame a ha.1.1]
    · exact ⟨Expr.Cached.congr l hcl fun a ha => hfrm a (ha.elim (fun h => Or.inl (Or.inl h)) fun h => Or.inr (Or.inl h)),
        Expr.Cached.congr r h2.cached fun a ha => hfrm a (ha.elim (fun h => Or.inl (Or.inr h)) fun h => Or.inr (Or.inr h)),
        hval⟩
    · exact refOk_root hav2 (fun a ha => Or.inl (Or.inr ha)) hval
  | pow n e w ih =>
    refine ⟨?_, fun m s h => h.elim⟩
    replace ih := ih.1
    intro m s hwf hwb hd hm
    obtain ⟨wfe, hsh, _⟩ := hwf
    obtain ⟨wbe, hav, hdv, _⟩ := hwb
    obtain ⟨s1, r, h1⟩ := ih m s wfe wbe (hd.mono_left fun a h => Or.inl h) hm
    have hsz : e.size = w.size := by simp [Expr.size, View.size, hsh]
    have hc := h1.ref.2 w.val w.size (by
      rw [Set.disjoint_union_right]; exact ⟨hdv, hd.mono_left fun a h => Or.inr h⟩)
    refine feval_one (f := fun k => if w.shape.isScl then powFunc n (trunc e.size (e.denote m) k)
      else arrayPow n (trunc e.size (e.denote m) k)) h1 rfl rfl rfl rfl hav hdv hd ?_ ?_ ?_
    · intro k hk
      rw [trunc_of_lt (hsz ▸ hk), powFunc_eq, arrayPow_eq, ite_self, Expr.denote]
    · rw [Expr.feval, h1.run]
      simp only [Option.bind_eq_bind, Option.bind_some]
      rw [h1.ref.1 s1 rfl fun _ _ => rfl]
      simp only [Option.bind_some]
      rw [assignV_eq (h1.vok ▸ hav) hc]
      rfl
    · exact fun h a b => ⟨a, b⟩
  | prodElem e w c ih =>
    refine ⟨?_, fun m s h => h.elim⟩
    replace ih := ih.1
    intro m s hwf hwb hd hm
    obtain ⟨wfe, hsh, _⟩ := hwf
    obtain ⟨wbe, hav, haa, hdv, _⟩ := hwb
    obtain ⟨s1, r, h1⟩ := ih m s wfe wbe (hd.mono_left fun a h => Or.inl h) hm
    refine feval_one (f := fun _ => prodN e.size (trunc e.size (e.denote m))) h1 rfl rfl rfl rfl hav hdv hd ?_ ?_ ?_
    · intro k hk
      rw [prodN_eq, Expr.denote]
      exact Finset.prod_congr rfl fun j hj => trunc_of_lt (Finset.mem_range.1 hj)
    · rw [Expr.feval, h1.run]
      simp only [Option.bind_eq_bind, Option.bind_some]
      rw [h1.ref.1 s1 rfl fun _ _ => rfl]
      simp only [Option.bind_some]
      rw [writeV_eq (h1.vok ▸ hav)]
      rfl
    · exact fun h a b => ⟨a, b⟩
  | transpose e w ih =>
    refine ⟨?_, fun m s h => h.elim⟩
    replace ih := ih.1
    intro m s hwf hwb hd hm
    obtain ⟨wfe, hk, hsh⟩ := hwf
    obtain ⟨wbe, hav, haa, hdv, _⟩ := hwb
    obtain ⟨s1, r, h1⟩ := ih m s wfe wbe (hd.mono_left fun a h => Or.inl h) hm
    have hc := h1.ref.2 w.val w.size (by
      rw [Set.disjoint_union_right]; exact ⟨hdv, hd.mono_left fun a h => Or.inr h⟩)
    refine feval_one (f := transposed w.shape.rows w.shape.cols (trunc e.size (e.denote m))) h1 rfl rfl rfl rfl
      hav hdv hd ?_ ?_ ?_
    · intro k hk
      rw [Expr.denote, transposed]
      apply trunc_of_lt
      show _ < e.shape.rows * e.shape.cols
      have hk : k < w.shape.rows * w.shape.cols := hk
      rw [hsh, Shape.mat] at hk ⊢
      have := idx_lt hk
      exact idx_lt' this.2 this.1
    · rw [Expr.feval, h1.run]
      simp only [Option.bind_eq_bind, Option.bind_some]
      rw [h1.ref.1 s1 rfl fun _ _ => rfl]
      simp only [Option.bind_some]
      rw [assignV_eq (h1.vok ▸ hav) hc]
      rfl
    · exact fun h a b => ⟨a, b⟩
  | dot l r w ihl ihr =>
    refine ⟨?_, fun m s h => h.elim⟩
    replace ihl := ihl.1
    replace ihr := ihr.1
    intro m s hwf hwb hd hm
    obtain ⟨wfl, wfr, hkl, hkr, hcr, hsh, _⟩ := hwf
    obtain ⟨wbl, wbr, hlrv, hlra, hav, haa, hdv, _⟩ := hwb
    have hdd : Disjoint (l.ownV ∪ r.ownV) (l.reads ∪ r.reads) := hd.mono_left fun a h => Or.inl h
    have hdr : Disjoint (rng w.val w.size) (l.reads ∪ r.reads) := hd.mono_left fun a h => Or.inr h
    obtain ⟨s1, lr, s2, rr, h1, h2, hcl, href⟩ := feval_two ihl ihr wfl wfr wbl wbr hlrv hdd hm
    have hav2 : accessible s2.vok w.val w.size := by rw [h2.vok, h1.vok]; exact hav
    have hcols : r.shape.kind = .vec → r.shape.cols = 1 := by
      intro hk; have := wfr.shapeOk; rw [Shape.Ok, hk] at this; exact this
    have hwsz : w.size = l.shape.rows * r.shape.cols := by
      rw [View.size, hsh]
      cases hk : r.shape.kind
      · exact absurd hk hkr
      · simp [Shape.ofDims, Shape.size, hcols hk]
      · simp [Shape.ofDims, Shape.size]
    set f : ℕ → ℝ := matMul l.shape.rows l.shape.cols (trunc l.size (l.denote m)) (trunc r.size (r.denote m)) with hf
    have hval : ∀ k < w.size, fillRange s2.val (addr w.val) w.size f (addr w.val + k)
        = (Expr.dot l r w).denote m k := by
      intro k hk
      rw [fillRange_add hk, hf, Expr.denote, matMul, sumN_eq]
      rw [hwsz] at hk
      have hi := idx_lt hk
      refine Finset.sum_congr rfl fun q hq => ?_
      have hq := Finset.mem_range.1 hq
      rw [trunc_of_lt (n := l.size) (idx_lt' hi.1 hq), trunc_of_lt]
      show _ < r.shape.rows * r.shape.cols
      rw [← hcr]
      exact idx_lt' hq hi.2
    have hfrm : ∀ a ∈ (l.ownV ∪ r.ownV) ∪ (l.reads ∪ r.reads),
        fillRange s2.val (addr w.val) w.size f a = s2.val a := fun a ha => fillRange_not_mem
      (ha.elim (fun h => disj_right hdv h) fun h => disj_right hdr h)
    refine ⟨{ s2 with val := fillRange s2.val (addr w.val) w.size f }, .ptr w.val,
      ⟨?_, h2.adj.trans h1.adj, h2.vok.trans h1.vok, h2.aok.trans h1.aok, ?_, ?_, ?_⟩⟩
    · rw [Expr.feval, h1.run]
      simp only [Option.bind_eq_bind, Option.bind_some]
      rw [h2.run]
      simp only [Option.bind_some]
      rw [href.1 s2 rfl fun _ _ => rfl]
      simp only [Option.bind_some]
      rw [h2.ref.1 s2 rfl fun _ _ => rfl]
      simp only [Option.bind_some]
      rw [writeV_eq hav2]
      rfl
    · intro a ha
      have ha : a ∉ (l.ownV ∪ r.ownV) ∪ rng w.val w.size := ha
      simp only [Set.mem_union, not_or] at ha
      dsimp only
      rw [fillRange_not_mem ha.2, h2.frame a ha.1.2, h1.frame a ha.1.1]
    · exact ⟨Expr.Cached.congr l hcl fun a ha => hfrm a (ha.elim (fun h => Or.inl (Or.inl h)) fun h => Or.inr (Or.inl h)),
        Expr.Cached.congr r h2.cached fun a ha => hfrm a (ha.elim (fun h => Or.inl (Or.inr h)) fun h => Or.inr (Or.inr h)),
        hval⟩
    · exact refOk_root hav2 (fun a ha => Or.inl (Or.inr ha)) hval
  | sumIter es w ih =>
    refine ⟨?_, fun m s h => h.elim⟩
    replace ih := fun e he => (ih e he).1
    intro m s hwf hwb hd hm
    obtain ⟨wfs, hok, hsh⟩ := hwf
    obtain ⟨wbs, hav, haa, hdv, _⟩ := hwb
    have hdd : Disjoint es.ownVs es.readss := hd.mono_left fun a h => Or.inl h
    have hdr : Disjoint (rng w.val w.size) es.readss := hd.mono_left fun a h => Or.inr h
    obtain ⟨s', rs, hrun, hadj, hvok, haok, hfr, hcach, hval⟩ := fevals_acc (fun x y => x + y) w m es
        { s with val := fillRange s.val (addr w.val) w.size (fun _ => 0) } (fun _ => 0) ih wfs wbs hdd
        (fun a ha => (fillRange_not_mem (heap := s.val) (f := fun _ => (0 : ℝ)) (disj_right hdr ha)).trans (hm a ha)) hav hdv hdr
        hsh (fun k hk => fillRange_add (heap := s.val) (f := fun _ => (0 : ℝ)) hk)
    have hval' : ∀ k < w.size, s'.val (addr w.val + k) = (Expr.sumIter es w).denote m k := fun k hk => by
      rw [hval k hk, Expr.denote, List.sum_eq_foldl, List.foldl_map]
    refine feval_list (s' := s') rfl rfl rfl hav ?_ hadj hvok haok ?_ ⟨hcach, hval'⟩ hval'
    · rw [Expr.feval, writeV_eq hav]
      simp only [Option.bind_eq_bind, Option.bind_some]
      exact congrArg (fun o => Option.bind o fun a => some (a.1, Ref.ptr w.val)) hrun
    · intro a ha haw
      rw [hfr a ha haw]; exact fillRange_not_mem (heap := s.val) (f := fun _ => (0 : ℝ)) haw
  | prodIter es w ih =>
    refine ⟨?_, fun m s h => h.elim⟩
    replace ih := fun e he => (ih e he).1
    intro m s hwf hwb hd hm
    obtain ⟨wfs, hok, hsh⟩ := hwf
    obtain ⟨wbs, hav, haa, hdv, _⟩ := hwb
    have hdd : Disjoint es.ownVs es.readss := hd.mono_left fun a h => Or.inl h
    have hdr : Disjoint (rng w.val w.size) es.readss := hd.mono_left fun a h => Or.inr h
    obtain ⟨s', rs, hrun, hadj, hvok, haok, hfr, hcach, hval⟩ := fevals_acc (fun x y => x * y) w m es
        { s with val := fillRange s.val (addr w.val) w.size (fun _ => 1) } (fun _ => 1) ih wfs wbs hdd
        (fun a ha => (fillRange_not_mem (heap := s.val) (f := fun _ => (1 : ℝ)) (disj_right hdr ha)).trans (hm a ha)) hav hdv hdr
        (fun e he => (hsh e he).1) (fun k hk => fillRange_add (heap := s.val) (f := fun _ => (1 : ℝ)) hk)
    have hval' : ∀ k < w.size, s'.val (addr w.val + k) = (Expr.prodIter es w).denote m k := fun k hk => by
      rw [hval k hk, Expr.denote, List.prod_eq_foldl, List.foldl_map]
    refine feval_list (s' := s') rfl rfl rfl hav ?_ hadj hvok haok ?_ ⟨hcach, hval'⟩ hval'
    · rw [Expr.feval, writeV_eq hav]
      simp only [Option.bind_eq_bind, Option.bind_some]
      exact congrArg (fun o => Option.bind o fun a => some (a.1, Ref.ptr w.val)) hrun
    · intro a ha haw
      rw [hfr a ha haw]; exact fillRange_not_mem (heap := s.val) (f := fun _ => (1 : ℝ)) haw
  | reduce op es w ih =>
    refine ⟨?_, fun m s h => h.elim⟩
    replace ih := fun e he => (ih e he).1
    intro m s hwf hwb hd hm
    have hred := reduce_valueN hwf m
    obtain ⟨wfs, hsh, _⟩ := hwf
    obtain ⟨wbs, hav, hdv⟩ := hwb
    have hdd : Disjoint es.ownVs es.readss := hd.mono_left fun a h => Or.inl h
    have hdr : Disjoint (rng w.val w.size) es.readss := hd.mono_left fun a h => Or.inr h
    obtain ⟨s1, rs, hrun, hadj, hvok, haok, hfr, hcach, href⟩ := fevals_id m es s ih wfs wbs hdd hm
    have hav1 : accessible s1.vok w.val w.size := hvok ▸ hav
    set f : ℕ → ℝ := fun _ => op.reals (es.denotes m) with hf
    have hval : ∀ k < w.size, fillRange s1.val (addr w.val) w.size f (addr w.val + k)
        = (Expr.reduce op es w).denote m k := by
      intro k hk
      rw [fillRange_add hk, hf, Expr.denote]
    have hfrm : ∀ a ∈ es.ownVs ∪ es.readss, fillRange s1.val (addr w.val) w.size f a = s1.val a := fun a ha =>
      fillRange_not_mem (ha.elim (fun h => disj_right hdv h) fun h => disj_right hdr h)
    refine feval_list (s' := { s1 with val := fillRange s1.val (addr w.val) w.size f }) rfl rfl rfl hav ?_ hadj hvok haok ?_
      ⟨cacheds_congr es hcach hfrm, hval⟩ hval
    · rw [Expr.feval, hrun]
      simp only [Option.bind_eq_bind, Option.bind_some]
      rw [href s1 rfl fun _ _ => rfl]
      simp only [Option.bind_some, hred]
      rw [writeV_eq hav1]
      rfl
    · intro a ha haw
      exact (fillRange_not_mem (heap := s1.val) (f := f) haw).trans (hfr a ha)
  | ifElse c x y w ihc ihx ihy =>
    refine ⟨?_, fun m s h => h.elim⟩
    replace ihc := ihc.1
    replace ihx := ihx.1
    replace ihy := ihy.1
    intro m s hwf hwb hd hm
    obtain ⟨wfc, wfx, wfy, hkc, hic, hsx, hsy, hrk⟩ := hwf
    obtain ⟨wbc, wbx, wby, hdc, hdca, hxy, hxya⟩ := hwb
    have hdd : Disjoint (c.ownV ∪ (x.ownV ∪ y.ownV)) (c.reads ∪ (x.reads ∪ y.reads)) :=
      hd.mono_left fun a h => Or.inl h
    have d := Set.disjoint_left.1 hdd
    have hm : ∀ a ∈ c.reads ∪ (x.reads ∪ y.reads), s.val a = m a := hm
    obtain ⟨s1, r, h1⟩ := ihc m s wfc wbc (hdd.mono Set.subset_union_left Set.subset_union_left)
      fun a ha => hm a (Or.inl ha)
    have hc1 : c.size = 1 := wfc.shapeOk.size_scl (by simp [Shape.isScl, hkc])
    have hread := h1.ref.1 s1 rfl fun _ _ => rfl
    rw [hc1] at hread
    have hrun0 : ∀ br, (if c.denote m 0 ≠ 0 then x else y) = br →
        (Expr.ifElse c x y w).feval s = br.feval s1 := by
      rintro br rfl
      rw [Expr.feval, h1.run]
      simp only [Option.bind_eq_bind, Option.bind_some]
      rw [hread]
      simp only [Option.bind_some, toBool_iff, trunc_of_lt Nat.one_pos]
      rw [if_pos hrk]
      split <;> rfl
    have key : ∀ br : Expr ℝ, (if c.denote m 0 ≠ 0 then x else y) = br → FevalClaim br → br.NWF → br.WB s.vok s.aok →
        br.ownV ⊆ x.ownV ∪ y.ownV → br.reads ⊆ x.reads ∪ y.reads → br.shape = w.shape →
        ∃ s' r', FevalOk (Expr.ifElse c x y w) m s s' r' := by
      intro br hbr ihb wfb wbb hob hrb hsb
      have hsz : (Expr.ifElse c x y w).size = br.size := by
        show w.shape.size = _; rw [← hsb]; rfl
      have hden : (Expr.ifElse c x y w).denote m = br.denote m := by
        funext k; rw [Expr.denote, ← hbr]; split <;> rfl
      obtain ⟨s2, r2, h2⟩ := ihb m s1 wfb (by rw [h1.vok, h1.aok]; exact wbb)
        (hdd.mono (fun a h => Or.inr (hob h)) fun a h => Or.inr (hrb h))
        (fun a ha => by
          rw [h1.frame a fun h => d (Or.inl h) (Or.inr (hrb ha))]
          exact hm a (Or.inr (hrb ha)))
      refine ⟨s2, r2, ⟨(hrun0 br hbr).trans h2.run, h2.adj.trans h1.adj, h2.vok.trans h1.vok,
        h2.aok.trans h1.aok, ?_, ⟨?_, ?_⟩, ?_, ?_⟩⟩
      · intro a ha
        have ha : a ∉ (c.ownV ∪ (x.ownV ∪ y.ownV)) ∪ ∅ := ha
        rw [Set.union_empty, Set.mem_union, not_or] at ha
        rw [h2.frame a fun h => ha.2 (hob h), h1.frame a ha.1]
      · refine Expr.Cached.congr c h1.cached fun a ha => h2.frame a fun h => ?_
        rcases ha with ha | ha
        · exact disj_left hdc ha (hob h)
        · exact d (Or.inr (hob h)) (Or.inl ha)
      · rw [← hbr] at h2
        have h3 := h2.cached
        split at h3 <;> rename_i hcond
        · rw [if_pos hcond]; exact h3
        · rw [if_neg hcond]; exact h3
      · intro s' hv hag
        rw [hsz, hden]
        exact h2.ref.1 s' hv fun a ha => hag a
          (ha.elim (fun h => Or.inl (Or.inl (Or.inr (hob h)))) fun h => Or.inr (Or.inr (hrb h)))
      · intro dst n hdst
        rw [hsz]
        exact h2.ref.2 dst n (hdst.mono_right fun a ha =>
          ha.elim (fun h => Or.inl (Or.inl (Or.inr (hob h)))) fun h => Or.inr (Or.inr (hrb h)))
    by_cases hcond : c.denote m 0 ≠ 0
    · exact key x (if_pos hcond) ihx wfx wbx Set.subset_union_left Set.subset_union_left hsx
    · exact key y (if_neg hcond) ihy wfy wby Set.subset_union_right Set.subset_union_right hsy
  | eq v e w ih => exact ⟨fun m s h => h.elim, stm_eq ih.1⟩
  | opEq => exact ⟨fun m s h => h.elim, fun m s h => h.elim⟩
  | glue l r w ihl ihr => exact ⟨feval_glue ihl.2 ihr.1, stm_glue ihl.2 ihr.2⟩
  | forEach => exact ⟨fun m s h => h.elim, fun m s h => h.elim⟩

theorem feval_okN (e : Expr ℝ) : FevalClaim e := (feval_both e).1

/-! ### the same for pure expressions -/

theorem reduce_value {op : RedOp} {es : Exprs ℝ} {w : View} (hwf : (Expr.reduce op es w).WF) (m : ℕ → ℝ) :
    op.fmap ((es.denotes m).map fun x => (x.1, trunc x.1.size x.2)) = some (op.reals (es.denotes m)) := reduce_valueN hwf.nested m

theorem reduce_single {op : RedOp} {e : Expr ℝ} {w : View} (hwf : (Expr.reduce op (.cons e .nil) w).WF) :
    op.ShapeOk e.shape ∧ (e.isIf = true → op.usesX = false) := reduce_singleN hwf.nested

theorem feval_ok (e : Expr ℝ) (m : ℕ → ℝ) (s : St ℝ) (hwf : e.WF) (hwb : e.WB s.vok s.aok) (hd : Disjoint e.ownV e.reads)
    (hm : ∀ a ∈ e.reads, s.val a = m a) : ∃ s' r, FevalOk e m s s' r := feval_okN e m s hwf.nested hwb hd hm

end FastAD
