import Verif.Proof.GenVal

/-!
# Forward evaluation of pure expressions over an arbitrary scalar type
-/

namespace FastAD

set_option linter.unusedSectionVars false
set_option linter.unusedSimpArgs false

variable {α : Type} [Zero α] [One α] [Add α] [Sub α] [Neg α] [Mul α] [Div α] [NatCast α] [IntCast α]
variable [Fn α] [HasInf α] [LinAlg α]

theorem Expr.Stored.congr {m h h' : ℕ → α} (e : Expr α) :
    e.Stored m h → (∀ a ∈ e.ownV ∪ e.reads, h' a = h a) → e.Stored m h' := by
  have list : ∀ es : Exprs α, (∀ e ∈ es.toList, e.Stored m h → (∀ a ∈ e.ownV ∪ e.reads, h' a = h a) → e.Stored m h') →
      es.Storeds m h → (∀ a ∈ es.ownVs ∪ es.readss, h' a = h a) → es.Storeds m h' := by
    intro es
    induction es using Exprs.rec (motive_1 := fun _ => True) with
    | nil => intros; trivial
    | cons e es _ ih =>
      intro hP hc hag
      simp only [Exprs.Storeds] at hc ⊢
      refine ⟨hP e (by simp [Exprs.toList]) hc.1 fun a ha => hag a ?_, ih (fun x hx => hP x (by simp [Exprs.toList, hx])) hc.2 fun a ha => hag a ?_⟩
      · exact ha.elim (fun h => Or.inl (Or.inl h)) fun h => Or.inr (Or.inl h)
      · exact ha.elim (fun h => Or.inl (Or.inr h)) fun h => Or.inr (Or.inr h)
    | _ => trivial
  have root : ∀ (w : View) (f : ℕ → α), (∀ a ∈ rng w.val w.size, h' a = h a) → (∀ k < w.size, h (addr w.val + k) = f k) →
      ∀ k < w.size, h' (addr w.val + k) = f k := by
    intro w f h1 h2 k hk
    rw [h1 _ (add_mem_rng hk), h2 k hk]
  induction e using Expr.induct with
  | var v => intro hc hag a ha; rw [hag a (by simp [Expr.reads, ha]), hc a ha]
  | const => intros; trivial
  | cview sh p => intro hc hag a ha; rw [hag a (by simp [Expr.reads, ha]), hc a ha]
  | unary op e w ih | pow op e w ih | prodElem op e w ih | transpose e w ih =>
    intro hc hag
    simp only [Expr.Stored] at hc ⊢
    exact ⟨ih hc.1 fun a ha => hag a (ha.elim (fun h => Or.inl (Or.inl h)) Or.inr),
      root _ _ (fun a ha => hag a (Or.inl (Or.inr ha))) hc.2⟩
  | binary op l r w ihl ihr | dot l r w ihl ihr =>
    intro hc hag
    simp only [Expr.Stored] at hc ⊢
    exact ⟨ihl hc.1 fun a ha => hag a (ha.elim (fun h => Or.inl (Or.inl (Or.inl h))) fun h => Or.inr (Or.inl h)),
      ihr hc.2.1 fun a ha => hag a (ha.elim (fun h => Or.inl (Or.inl (Or.inr h))) fun h => Or.inr (Or.inr h)),
      root _ _ (fun a ha => hag a (Or.inl (Or.inr ha))) hc.2.2⟩
  | sumIter es w ih | prodIter es w ih | reduce op es w ih =>
    intro hc hag
    simp only [Expr.Stored] at hc ⊢
    exact ⟨list es ih hc.1 fun a ha => hag a (ha.elim (fun h => Or.inl (Or.inl h)) Or.inr),
      root _ _ (fun a ha => hag a (Or.inl (Or.inr ha))) hc.2⟩
  | ifElse c x y w ihc ihx ihy =>
    intro hc hag
    simp only [Expr.Stored] at hc ⊢
    refine ⟨ihc hc.1 fun a ha => hag a (ha.elim (fun h => Or.inl (Or.inl (Or.inl h))) fun h => Or.inr (Or.inl h)), ?_⟩
    have h2 := hc.2
    split at h2 <;> rename_i hcond
    · rw [if_pos hcond]
      exact ihx h2 fun a ha => hag a
        (ha.elim (fun h => Or.inl (Or.inl (Or.inr (Or.inl h)))) fun h => Or.inr (Or.inr (Or.inl h)))
    · rw [if_neg hcond]
      exact ihy h2 fun a ha => hag a
        (ha.elim (fun h => Or.inl (Or.inl (Or.inr (Or.inr h)))) fun h => Or.inr (Or.inr (Or.inr h)))
  | eq => intro hc; exact hc.elim
  | opEq => intro hc; exact hc.elim
  | glue => intro hc; exact hc.elim
  | forEach => intro hc; exact hc.elim

theorem storeds_congr {m h h' : ℕ → α} (es : Exprs α) :
    es.Storeds m h → (∀ a ∈ es.ownVs ∪ es.readss, h' a = h a) → es.Storeds m h' := by
  induction es using Exprs.rec (motive_1 := fun _ => True) with
  | nil => intros; trivial
  | cons e es _ ih =>
    intro hc hag
    exact ⟨Expr.Stored.congr e hc.1 fun a ha => hag a (ha.elim (fun h => Or.inl (Or.inl h)) fun h => Or.inr (Or.inl h)),
      ih hc.2 fun a ha => hag a (ha.elim (fun h => Or.inl (Or.inr h)) fun h => Or.inr (Or.inr h))⟩
  | _ => trivial

/-- What is known about the reference returned by `feval`: in every later state in which the cells owned and read by the expression are unchanged
it reads the value of the expression, and it does not clash with a destination outside those cells. -/
def GRefOk (e : Expr α) (m : ℕ → α) (s : St α) (r : Ref α) : Prop :=
  (∀ s' : St α, s'.vok = s.vok → (∀ a ∈ e.ownV ∪ e.reads, s'.val a = s.val a) →
    r.read s' e.size = some (trunc e.size (e.exact m))) ∧
  (∀ dst n, Disjoint (rng dst n) (e.ownV ∪ e.reads) → noClash dst n r e.size)

/-- Outcome of a successful `feval`. -/
structure GFevalOk (e : Expr α) (m : ℕ → α) (s s' : St α) (r : Ref α) : Prop where
  run : e.feval s = some (s', r)
  adj : s'.adj = s.adj
  vok : s'.vok = s.vok
  aok : s'.aok = s.aok
  frame : ∀ a, a ∉ e.ownV → s'.val a = s.val a
  stored : e.Stored m s'.val
  ref : GRefOk e m s' r
  out : r = e.outRef m

/-- the reference to the root cache of a node -/
theorem grefOk_root {e : Expr α} {m : ℕ → α} {s : St α} {p : Option ℕ} (hacc : accessible s.vok p e.size)
    (hsub : rng p e.size ⊆ e.ownV ∪ e.reads) (hval : ∀ k < e.size, s.val (addr p + k) = e.exact m k) :
    GRefOk e m s (.ptr p) := by
  constructor
  · intro s' hv hag
    simp only [Ref.read]
    rw [readCells_eq' (hv ▸ hacc)]
    intro k hk
    rw [hag _ (hsub (add_mem_rng hk)), hval k hk]
  · intro dst n hd
    exact noClash_ptr (hd.mono_right hsub)

/-- the claim proved by induction -/
def GFevalClaim (e : Expr α) : Prop :=
  ∀ (m : ℕ → α) (s : St α), e.WF → e.WB s.vok s.aok → Disjoint e.ownV e.reads →
    (∀ a ∈ e.reads, s.val a = m a) → ∃ s' r, GFevalOk e m s s' r

/-- Nodes that evaluate one child and then assign their own cache. -/
theorem gfeval_one {e n : Expr α} {w : View} {m : ℕ → α} {s s1 : St α} {r : Ref α} {f : ℕ → α}
    (h1 : GFevalOk e m s s1 r)
    (hw : n.view = w) (hin : n.innerV = e.ownV) (hroot : n.valRoot = rng w.val w.size) (hr : n.reads = e.reads)
    (hacc : accessible s.vok w.val w.size) (hd1 : Disjoint (rng w.val w.size) e.ownV)
    (hd : Disjoint n.ownV n.reads)
    (hf : ∀ k < w.size, f k = n.exact m k)
    (hrun : n.feval s = some ({ s1 with val := fillRange s1.val (addr w.val) w.size f }, .ptr w.val))
    (hcached : ∀ h, e.Stored m h → (∀ k < w.size, h (addr w.val + k) = n.exact m k) → n.Stored m h)
    (hout : n.outRef m = .ptr w.val) :
    ∃ s' r', GFevalOk n m s s' r' := by
  have hsz : n.size = w.size := by simp [Expr.size, Expr.shape, hw, View.size]
  have hval : ∀ k < w.size, fillRange s1.val (addr w.val) w.size f (addr w.val + k) = n.exact m k := by
    intro k hk; rw [fillRange_add hk, hf k hk]
  have hd2 : Disjoint (rng w.val w.size) e.reads := by
    refine Disjoint.mono (fun a ha => ?_) (hr ▸ le_rfl) hd
    simp only [Expr.ownV, hroot, Set.mem_union]; tauto
  have hframe : ∀ a ∈ e.ownV ∪ e.reads, fillRange s1.val (addr w.val) w.size f a = s1.val a := by
    intro a ha
    refine fillRange_not_mem fun hmem => ?_
    rcases ha with ha | ha
    · exact disj_left hd1 hmem ha
    · exact disj_left hd2 hmem ha
  refine ⟨_, _, ⟨hrun, h1.adj, h1.vok, h1.aok, ?_, ?_, ?_, hout.symm⟩⟩
  · intro a ha
    have ha : a ∉ e.ownV ∪ rng w.val w.size := by rw [← hin, ← hroot]; exact ha
    rw [Set.mem_union, not_or] at ha
    dsimp only
    rw [fillRange_not_mem ha.2, h1.frame a ha.1]
  · exact hcached _ (Expr.Stored.congr e h1.stored hframe) hval
  · refine grefOk_root ?_ ?_ ?_
    · rw [hsz]; show accessible s1.vok _ _; rw [h1.vok]; exact hacc
    · rw [hsz]; intro a ha; simp only [Expr.ownV, hroot, Set.mem_union]; tauto
    · rw [hsz]; exact hval

/-- two children evaluated one after the other -/
theorem gfeval_two {l r : Expr α} {m : ℕ → α} {s : St α} (ihl : GFevalClaim l) (ihr : GFevalClaim r)
    (wfl : l.WF) (wfr : r.WF) (wbl : l.WB s.vok s.aok) (wbr : r.WB s.vok s.aok)
    (hlr : Disjoint l.ownV r.ownV) (hd : Disjoint (l.ownV ∪ r.ownV) (l.reads ∪ r.reads))
    (hm : ∀ a ∈ l.reads ∪ r.reads, s.val a = m a) :
    ∃ s1 lr s2 rr, GFevalOk l m s s1 lr ∧ GFevalOk r m s1 s2 rr ∧ l.Stored m s2.val ∧ GRefOk l m s2 lr := by
  have d := Set.disjoint_left.1 hd
  obtain ⟨s1, lr, h1⟩ := ihl m s wfl wbl
    (hd.mono Set.subset_union_left Set.subset_union_left) (fun a ha => hm a (Or.inl ha))
  obtain ⟨s2, rr, h2⟩ := ihr m s1 wfr (by rw [h1.vok, h1.aok]; exact wbr)
    (hd.mono Set.subset_union_right Set.subset_union_right)
    (fun a ha => by rw [h1.frame a (fun h => d (Or.inl h) (Or.inr ha))]; exact hm a (Or.inr ha))
  have hfr : ∀ a ∈ l.ownV ∪ l.reads, s2.val a = s1.val a := by
    intro a ha
    refine h2.frame a fun hr => ?_
    rcases ha with ha | ha
    · exact disj_left hlr ha hr
    · exact d (Or.inr hr) (Or.inl ha)
  refine ⟨s1, lr, s2, rr, h1, h2, Expr.Stored.congr l h1.stored hfr, ?_, h1.ref.2⟩
  intro s' hv hag
  exact h1.ref.1 s' (hv.trans h2.vok) fun a ha => (hag a ha).trans (hfr a ha)

/-- the accumulating loops of `SumIterNode::feval` and `ProdIterNode::feval` -/
theorem gfevals_acc (g : α → α → α) (w : View) (m : ℕ → α) (es : Exprs α) :
    ∀ (s : St α) (acc : ℕ → α), (∀ e ∈ es.toList, GFevalClaim e) → es.WFs → es.WBs s.vok s.aok →
    Disjoint es.ownVs es.readss → (∀ a ∈ es.readss, s.val a = m a) → accessible s.vok w.val w.size →
    Disjoint (rng w.val w.size) es.ownVs → Disjoint (rng w.val w.size) es.readss →
    (∀ e ∈ es.toList, e.shape = w.shape) → (∀ k < w.size, s.val (addr w.val + k) = acc k) →
    ∃ s' rs, es.fevals (fun s r sh =>
        if sameDims sh w.shape then do
          let a ← readCells s.val s.vok w.val w.size
          let x ← r.read s sh.size
          s.assignV w.val w.size r sh.size (fun k => g (a k) (x k))
        else none) s = some (s', rs) ∧
      s'.adj = s.adj ∧ s'.vok = s.vok ∧ s'.aok = s.aok ∧
      (∀ a, a ∉ es.ownVs → a ∉ rng w.val w.size → s'.val a = s.val a) ∧ es.Storeds m s'.val ∧
      ∀ k < w.size, s'.val (addr w.val + k) = (es.exacts m).foldl (fun c x => g c (x.2 k)) (acc k) := by
  induction es using Exprs.rec (motive_1 := fun _ => True) with
  | nil =>
    intro s acc _ _ _ _ _ _ _ _ _ hacc
    exact ⟨s, [], by simp [Exprs.fevals], rfl, rfl, rfl, fun _ _ _ => rfl, trivial, by simpa [Exprs.exacts] using hacc⟩
  | cons e es _ ih =>
    intro s acc hcl hwf hwb hd hm hw hwo hwr hsh hacc
    simp only [Exprs.WFs] at hwf
    simp only [Exprs.WBs] at hwb
    have hown : (Exprs.cons e es).ownVs = e.ownV ∪ es.ownVs := rfl
    have hrds : (Exprs.cons e es).readss = e.reads ∪ es.readss := rfl
    rw [hown] at hd hwo
    rw [hrds] at hd hm hwr
    have d := Set.disjoint_left.1 hd
    obtain ⟨s1, r, h1⟩ := hcl e (by simp [Exprs.toList]) m s hwf.1 hwb.1
      (hd.mono Set.subset_union_left Set.subset_union_left) fun a ha => hm a (Or.inl ha)
    have hse : e.shape = w.shape := hsh e (by simp [Exprs.toList])
    have hsz : e.size = w.size := by simp [Expr.size, View.size, hse]
    have hwe : Disjoint (rng w.val w.size) (e.ownV ∪ e.reads) := by
      rw [Set.disjoint_union_right]
      exact ⟨hwo.mono_right Set.subset_union_left, hwr.mono_right Set.subset_union_left⟩
    have hw1 : ∀ k < w.size, s1.val (addr w.val + k) = acc k := fun k hk => by
      rw [h1.frame _ (disj_left hwo (add_mem_rng hk) ∘ Or.inl), hacc k hk]
    have hread := h1.ref.1 s1 rfl (fun _ _ => rfl)
    have hcl1 := h1.ref.2 w.val w.size hwe
    have hacc1 : accessible s1.vok w.val w.size := by rw [h1.vok]; exact hw
    have hes : e.shape.size = w.size := hsz
    set f : ℕ → α := fun k => g (trunc w.size acc k) (trunc e.size (e.exact m) k) with hf
    set s2 : St α := { s1 with val := fillRange s1.val (addr w.val) w.size f } with hs2
    have hfr2 : ∀ a, a ∉ rng w.val w.size → s2.val a = s1.val a := fun a ha =>
      fillRange_not_mem (heap := s1.val) (f := f) ha
    obtain ⟨s', rs, hrun, hadj, hvok, haok, hfr, hcach, hval⟩ := ih s2 (fun k => g (acc k) (e.exact m k))
      (fun x hx => hcl x (by simp [Exprs.toList, hx])) hwf.2
      (by show es.WBs s1.vok s1.aok; rw [h1.vok, h1.aok]; exact hwb.2.1)
      (hd.mono Set.subset_union_right Set.subset_union_right)
      (fun a ha => by
        rw [hfr2 a (disj_right hwr (Or.inr ha)), h1.frame a (fun h => d (Or.inl h) (Or.inr ha))]
        exact hm a (Or.inr ha))
      hacc1 (hwo.mono_right Set.subset_union_right) (hwr.mono_right Set.subset_union_right)
      (fun x hx => hsh x (by simp [Exprs.toList, hx]))
      (fun k hk => by
        rw [hs2]
        dsimp only
        rw [fillRange_add hk, hf]
        simp only [trunc_of_lt hk, hsz])
    refine ⟨s', (r, e.shape) :: rs, ?_, ?_, ?_, ?_, ?_, ?_, ?_⟩
    · rw [Exprs.fevals, h1.run]
      simp only [Option.bind_eq_bind, Option.bind_some]
      rw [if_pos (by simp [sameDims, hse]), readCells_eq' hacc1 hw1, show e.shape.size = e.size from rfl, hread]
      simp only [Option.bind_some]
      rw [assignV_eq hacc1 hcl1]
      simp only [Option.bind_some]
      exact congrArg (fun o => Option.bind o fun a => some (a.1, (r, e.shape) :: a.2)) hrun
    · rw [hadj]; exact h1.adj
    · rw [hvok]; exact h1.vok
    · rw [haok]; exact h1.aok
    · intro a ha haw
      rw [hfr a (fun h => ha (Or.inr h)) haw, hfr2 a haw, h1.frame a (fun h => ha (Or.inl h))]
    · refine ⟨Expr.Stored.congr e h1.stored fun a ha => ?_, hcach⟩
      have hna : a ∉ rng w.val w.size := disj_right hwe ha
      have hnb : a ∉ es.ownVs := by
        rcases ha with ha | ha
        · exact disj_left hwb.2.2.1 ha
        · exact fun h => d (Or.inr h) (Or.inl ha)
      rw [hfr a hnb hna, hfr2 a hna]
    · intro k hk
      rw [hval k hk]
      simp [Exprs.exacts]
  | _ => trivial

/-- evaluating a list of operands without accumulating -/
theorem gfevals_id (m : ℕ → α) (es : Exprs α) :
    ∀ (s : St α), (∀ e ∈ es.toList, GFevalClaim e) → es.WFs → es.WBs s.vok s.aok →
    Disjoint es.ownVs es.readss → (∀ a ∈ es.readss, s.val a = m a) →
    ∃ s' rs, es.fevals (fun s _ _ => some s) s = some (s', rs) ∧
      s'.adj = s.adj ∧ s'.vok = s.vok ∧ s'.aok = s.aok ∧
      (∀ a, a ∉ es.ownVs → s'.val a = s.val a) ∧ es.Storeds m s'.val ∧
      (∀ s'' : St α, s''.vok = s'.vok → (∀ a ∈ es.ownVs ∪ es.readss, s''.val a = s'.val a) →
        readAll s'' rs = some ((es.exacts m).map fun x => (x.1, trunc x.1.size x.2))) := by
  induction es using Exprs.rec (motive_1 := fun _ => True) with
  | nil =>
    intro s _ _ _ _ _
    exact ⟨s, [], by simp [Exprs.fevals], rfl, rfl, rfl, fun _ _ => rfl, trivial, fun _ _ _ => rfl⟩
  | cons e es _ ih =>
    intro s hcl hwf hwb hd hm
    simp only [Exprs.WFs] at hwf
    simp only [Exprs.WBs] at hwb
    have hown : (Exprs.cons e es).ownVs = e.ownV ∪ es.ownVs := rfl
    have hrds : (Exprs.cons e es).readss = e.reads ∪ es.readss := rfl
    rw [hown, hrds] at hd
    rw [hrds] at hm
    have d := Set.disjoint_left.1 hd
    obtain ⟨s1, r, h1⟩ := hcl e (by simp [Exprs.toList]) m s hwf.1 hwb.1
      (hd.mono Set.subset_union_left Set.subset_union_left) fun a ha => hm a (Or.inl ha)
    obtain ⟨s', rs, hrun, hadj, hvok, haok, hfr, hcach, hval⟩ := ih s1
      (fun x hx => hcl x (by simp [Exprs.toList, hx])) hwf.2
      (by rw [h1.vok, h1.aok]; exact hwb.2.1)
      (hd.mono Set.subset_union_right Set.subset_union_right)
      (fun a ha => by
        rw [h1.frame a (fun h => d (Or.inl h) (Or.inr ha))]
        exact hm a (Or.inr ha))
    have hag : ∀ a ∈ e.ownV ∪ e.reads, s'.val a = s1.val a := by
      intro a ha
      refine hfr a ?_
      rcases ha with ha | ha
      · exact disj_left hwb.2.2.1 ha
      · exact fun h => d (Or.inr h) (Or.inl ha)
    refine ⟨s', (r, e.shape) :: rs, ?_, ?_, ?_, ?_, ?_, ⟨Expr.Stored.congr e h1.stored hag, hcach⟩, ?_⟩
    · rw [Exprs.fevals, h1.run]
      simp only [Option.bind_eq_bind, Option.bind_some]
      rw [hrun]
      rfl
    · rw [hadj]; exact h1.adj
    · rw [hvok]; exact h1.vok
    · rw [haok]; exact h1.aok
    · intro a ha
      rw [hfr a (fun h => ha (Or.inr h)), h1.frame a (fun h => ha (Or.inl h))]
    · intro s'' hv hs
      simp only [readAll]
      rw [show e.shape.size = e.size from rfl, h1.ref.1 s'' (by rw [hv, hvok]) fun a ha => by
        rw [hs a (ha.elim (fun h => Or.inl (Or.inl h)) fun h => Or.inr (Or.inl h)), hag a ha]]
      simp only [Option.bind_eq_bind, Option.bind_some]
      rw [hval s'' hv fun a ha => hs a (ha.elim (fun h => Or.inl (Or.inr h)) fun h => Or.inr (Or.inr h))]
      rfl
  | _ => trivial

/-- Nodes with a list of children that finally hold the root value. -/
theorem gfeval_list {es : Exprs α} {n : Expr α} {w : View} {m : ℕ → α} {s s' : St α}
    (hw : n.view = w) (hin : n.innerV = es.ownVs) (hroot : n.valRoot = rng w.val w.size)
    (hacc : accessible s.vok w.val w.size)
    (hrun : n.feval s = some (s', .ptr w.val))
    (hadj : s'.adj = s.adj) (hvok : s'.vok = s.vok) (haok : s'.aok = s.aok)
    (hfr : ∀ a, a ∉ es.ownVs → a ∉ rng w.val w.size → s'.val a = s.val a)
    (hcached : n.Stored m s'.val)
    (hval : ∀ k < w.size, s'.val (addr w.val + k) = n.exact m k)
    (hout : n.outRef m = .ptr w.val) :
    ∃ s' r', GFevalOk n m s s' r' := by
  have hsz : n.size = w.size := by simp [Expr.size, Expr.shape, hw, View.size]
  refine ⟨s', _, ⟨hrun, hadj, hvok, haok, ?_, hcached, ?_, hout.symm⟩⟩
  · intro a ha
    have ha : a ∉ es.ownVs ∪ rng w.val w.size := by rw [← hin, ← hroot]; exact ha
    rw [Set.mem_union, not_or] at ha
    exact hfr a ha.1 ha.2
  · refine grefOk_root ?_ ?_ ?_
    · rw [hsz, hvok]; exact hacc
    · rw [hsz, ← hroot]; exact fun a ha => Or.inl (Or.inr ha)
    · rw [hsz]; exact hval

/-- **Forward evaluation** of a well-formed, well-bound pure expression succeeds, fills exactly its own caches with the values of
its subexpressions, and returns a reference to the expression's value. -/
theorem gfeval_ok (e : Expr α) : GFevalClaim e := by
  induction e using Expr.induct with
  | var v =>
    intro m s hwf hwb hd hm
    refine ⟨s, .ptr v.val, ⟨rfl, rfl, rfl, rfl, fun _ _ => rfl, hm, ?_, rfl⟩⟩
    exact grefOk_root hwb.1 (fun a ha => Or.inr ha) fun k hk => hm _ (add_mem_rng hk)
  | const sh c =>
    intro m s hwf hwb hd hm
    exact ⟨s, .lit c, ⟨rfl, rfl, rfl, rfl, fun _ _ => rfl, trivial, ⟨fun _ _ _ => rfl, fun _ _ _ => trivial⟩, rfl⟩⟩
  | cview sh p =>
    intro m s hwf hwb hd hm
    refine ⟨s, .ptr p, ⟨rfl, rfl, rfl, rfl, fun _ _ => rfl, hm, ?_, rfl⟩⟩
    exact grefOk_root hwb (fun a ha => Or.inr ha) fun k hk => hm _ (add_mem_rng hk)
  | unary op e w ih =>
    intro m s hwf hwb hd hm
    obtain ⟨wfe, hsh, _⟩ := hwf
    obtain ⟨wbe, hav, haa, hdv, hda⟩ := hwb
    obtain ⟨s1, r, h1⟩ := ih m s wfe wbe (hd.mono_left fun a h => Or.inl h) hm
    have hsz : e.size = w.size := by simp [Expr.size, View.size, hsh]
    have hc := h1.ref.2 w.val w.size (by
      rw [Set.disjoint_union_right]; exact ⟨hdv, hd.mono_left fun a h => Or.inr h⟩)
    refine gfeval_one (f := fun k => op.fmap (trunc e.size (e.exact m) k)) h1 rfl rfl rfl rfl hav hdv hd ?_ ?_ ?_ ?_
    · intro k hk
      rw [trunc_of_lt (hsz ▸ hk), Expr.exact]
    · rw [Expr.feval, h1.run]
      simp only [Option.bind_eq_bind, Option.bind_some]
      rw [h1.ref.1 s1 rfl fun _ _ => rfl]
      simp only [Option.bind_some]
      rw [assignV_eq (h1.vok ▸ hav) hc]
      rfl
    · exact fun h a b => ⟨a, b⟩
    · rfl
  | binary op l r w ihl ihr =>
    intro m s hwf hwb hd hm
    obtain ⟨wfl, wfr, hok, hdims, _⟩ := hwf
    obtain ⟨wbl, wbr, hlrv, hlra, hav, hdv, _⟩ := hwb
    have hdd : Disjoint (l.ownV ∪ r.ownV) (l.reads ∪ r.reads) := hd.mono_left fun a h => Or.inl h
    have hdr : Disjoint (rng w.val w.size) (l.reads ∪ r.reads) := hd.mono_left fun a h => Or.inr h
    obtain ⟨s1, lr, s2, rr, h1, h2, hcl, href⟩ := gfeval_two ihl ihr wfl wfr wbl wbr hlrv hdd hm
    have hcl1 := href.2 w.val w.size (by
      rw [Set.disjoint_union_right]
      exact ⟨hdv.mono_right Set.subset_union_left, hdr.mono_right Set.subset_union_left⟩)
    have hcl2 := h2.ref.2 w.val w.size (by
      rw [Set.disjoint_union_right]
      exact ⟨hdv.mono_right Set.subset_union_right, hdr.mono_right Set.subset_union_right⟩)
    have hav2 : accessible s2.vok w.val w.size := by rw [h2.vok, h1.vok]; exact hav
    have hin : (Expr.binary op l r w).innerV = l.ownV ∪ r.ownV := rfl
    set f : ℕ → α := fun k => op.fmap w.shape.isScl (bcast l.shape (trunc l.size (l.exact m)) k)
      (bcast r.shape (trunc r.size (r.exact m)) k) with hf
    have hval : ∀ k < w.size, fillRange s2.val (addr w.val) w.size f (addr w.val + k)
        = (Expr.binary op l r w).exact m k := by
      intro k hk
      rw [fillRange_add hk, hf, Expr.exact]
      simp only
      rw [bcast_trunc wfl.shapeOk hdims.1 _ hk, bcast_trunc wfr.shapeOk hdims.2.1 _ hk]
    have hfrm : ∀ a ∈ (l.ownV ∪ r.ownV) ∪ (l.reads ∪ r.reads),
        fillRange s2.val (addr w.val) w.size f a = s2.val a := fun a ha => fillRange_not_mem
      (ha.elim (fun h => disj_right hdv h) fun h => disj_right hdr h)
    refine ⟨{ s2 with val := fillRange s2.val (addr w.val) w.size f }, .ptr w.val,
      ⟨?_, h2.adj.trans h1.adj, h2.vok.trans h1.vok, h2.aok.trans h1.aok, ?_, ?_, ?_, rfl⟩⟩
    · rw [Expr.feval, h1.run]
      simp only [Option.bind_eq_bind, Option.bind_some]
      rw [h2.run]
      simp only [Option.bind_some]
      rw [if_pos hdims, href.1 s2 rfl fun _ _ => rfl]
      simp only [Option.bind_some]
      rw [h2.ref.1 s2 rfl fun _ _ => rfl]
      simp only [Option.bind_some]
      rw [if_pos hcl1, assignV_eq hav2 hcl2]
      rfl
    · intro a ha
      have ha : a ∉ (l.ownV ∪ r.ownV) ∪ rng w.val w.size := ha
      simp only [Set.mem_union, not_or] at ha
      dsimp only
      rw [fillRange_not_mem ha.2, h2.frame a ha.1.2, h1.frame a ha.1.1]
    · exact ⟨Expr.Stored.congr l hcl fun a ha => hfrm a (ha.elim (fun h => Or.inl (Or.inl h)) fun h => Or.inr (Or.inl h)),
        Expr.Stored.congr r h2.stored fun a ha => hfrm a (ha.elim (fun h => Or.inl (Or.inr h)) fun h => Or.inr (Or.inr h)),
        hval⟩
    · exact grefOk_root hav2 (fun a ha => Or.inl (Or.inr ha)) hval
  | pow n e w ih =>
    intro m s hwf hwb hd hm
    obtain ⟨wfe, hsh, _⟩ := hwf
    obtain ⟨wbe, hav, hdv, _⟩ := hwb
    obtain ⟨s1, r, h1⟩ := ih m s wfe wbe (hd.mono_left fun a h => Or.inl h) hm
    have hsz : e.size = w.size := by simp [Expr.size, View.size, hsh]
    have hc := h1.ref.2 w.val w.size (by
      rw [Set.disjoint_union_right]; exact ⟨hdv, hd.mono_left fun a h => Or.inr h⟩)
    refine gfeval_one (f := fun k => if w.shape.isScl then powFunc n (trunc e.size (e.exact m) k)
      else arrayPow n (trunc e.size (e.exact m) k)) h1 rfl rfl rfl rfl hav hdv hd ?_ ?_ ?_ ?_
    · intro k hk
      rw [trunc_of_lt (hsz ▸ hk), Expr.exact]
    · rw [Expr.feval, h1.run]
      simp only [Option.bind_eq_bind, Option.bind_some]
      rw [h1.ref.1 s1 rfl fun _ _ => rfl]
      simp only [Option.bind_some]
      rw [assignV_eq (h1.vok ▸ hav) hc]
      rfl
    · exact fun h a b => ⟨a, b⟩
    · rfl
  | prodElem e w c ih =>
    intro m s hwf hwb hd hm
    obtain ⟨wfe, hsh, _⟩ := hwf
    obtain ⟨wbe, hav, haa, hdv, _⟩ := hwb
    obtain ⟨s1, r, h1⟩ := ih m s wfe wbe (hd.mono_left fun a h => Or.inl h) hm
    refine gfeval_one (f := fun _ => prodN e.size (trunc e.size (e.exact m))) h1 rfl rfl rfl rfl hav hdv hd ?_ ?_ ?_ ?_
    · intro k hk
      rw [Expr.exact]
      exact prodN_congr fun j hj => trunc_of_lt hj
    · rw [Expr.feval, h1.run]
      simp only [Option.bind_eq_bind, Option.bind_some]
      rw [h1.ref.1 s1 rfl fun _ _ => rfl]
      simp only [Option.bind_some]
      rw [writeV_eq (h1.vok ▸ hav)]
      rfl
    · exact fun h a b => ⟨a, b⟩
    · rfl
  | transpose e w ih =>
    intro m s hwf hwb hd hm
    obtain ⟨wfe, hk, hsh⟩ := hwf
    obtain ⟨wbe, hav, haa, hdv, _⟩ := hwb
    obtain ⟨s1, r, h1⟩ := ih m s wfe wbe (hd.mono_left fun a h => Or.inl h) hm
    have hc := h1.ref.2 w.val w.size (by
      rw [Set.disjoint_union_right]; exact ⟨hdv, hd.mono_left fun a h => Or.inr h⟩)
    refine gfeval_one (f := transposed w.shape.rows w.shape.cols (trunc e.size (e.exact m))) h1 rfl rfl rfl rfl
      hav hdv hd ?_ ?_ ?_ ?_
    · intro k hk
      rw [Expr.exact, transposed]
      apply trunc_of_lt
      show _ < e.shape.rows * e.shape.cols
      have hk : k < w.shape.rows * w.shape.cols := hk
      rw [hsh, Shape.mat] at hk ⊢
      have := idx_lt hk
      exact idx_lt' this.2 this.1
    · rw [Expr.feval, h1.run]
      simp only [Option.bind_eq_bind, Option.bind_some]
      rw [h1.ref.1 s1 rfl fun _ _ => rfl]
      simp only [Option.bind_some]
      rw [assignV_eq (h1.vok ▸ hav) hc]
      rfl
    · exact fun h a b => ⟨a, b⟩
    · rfl
  | dot l r w ihl ihr =>
    intro m s hwf hwb hd hm
    obtain ⟨wfl, wfr, hkl, hkr, hcr, hsh, _⟩ := hwf
    obtain ⟨wbl, wbr, hlrv, hlra, hav, haa, hdv, _⟩ := hwb
    have hdd : Disjoint (l.ownV ∪ r.ownV) (l.reads ∪ r.reads) := hd.mono_left fun a h => Or.inl h
    have hdr : Disjoint (rng w.val w.size) (l.reads ∪ r.reads) := hd.mono_left fun a h => Or.inr h
    obtain ⟨s1, lr, s2, rr, h1, h2, hcl, href⟩ := gfeval_two ihl ihr wfl wfr wbl wbr hlrv hdd hm
    have hav2 : accessible s2.vok w.val w.size := by rw [h2.vok, h1.vok]; exact hav
    have hcols : r.shape.kind = .vec → r.shape.cols = 1 := by
      intro hk; have := wfr.shapeOk; rw [Shape.Ok, hk] at this; exact this
    have hwsz : w.size = l.shape.rows * r.shape.cols := by
      rw [View.size, hsh]
      cases hk : r.shape.kind
      · exact absurd hk hkr
      · simp [Shape.ofDims, Shape.size, hcols hk]
      · simp [Shape.ofDims, Shape.size]
    set f : ℕ → α := matMul l.shape.rows l.shape.cols (trunc l.size (l.exact m)) (trunc r.size (r.exact m)) with hf
    have hval : ∀ k < w.size, fillRange s2.val (addr w.val) w.size f (addr w.val + k)
        = (Expr.dot l r w).exact m k := by
      intro k hk
      rw [fillRange_add hk, hf, Expr.exact, matMul]
      rw [hwsz] at hk
      have hi := idx_lt hk
      refine sumN_congr fun q hq => ?_
      rw [trunc_of_lt (n := l.size) (idx_lt' hi.1 hq), trunc_of_lt]
      show _ < r.shape.rows * r.shape.cols
      rw [← hcr]
      exact idx_lt' hq hi.2
    have hfrm : ∀ a ∈ (l.ownV ∪ r.ownV) ∪ (l.reads ∪ r.reads),
        fillRange s2.val (addr w.val) w.size f a = s2.val a := fun a ha => fillRange_not_mem
      (ha.elim (fun h => disj_right hdv h) fun h => disj_right hdr h)
    refine ⟨{ s2 with val := fillRange s2.val (addr w.val) w.size f }, .ptr w.val,
      ⟨?_, h2.adj.trans h1.adj, h2.vok.trans h1.vok, h2.aok.trans h1.aok, ?_, ?_, ?_, rfl⟩⟩
    · rw [Expr.feval, h1.run]
      simp only [Option.bind_eq_bind, Option.bind_some]
      rw [h2.run]
      simp only [Option.bind_some]
      rw [href.1 s2 rfl fun _ _ => rfl]
      simp only [Option.bind_some]
      rw [h2.ref.1 s2 rfl fun _ _ => rfl]
      simp only [Option.bind_some]
      rw [writeV_eq hav2]
      rfl
    · intro a ha
      have ha : a ∉ (l.ownV ∪ r.ownV) ∪ rng w.val w.size := ha
      simp only [Set.mem_union, not_or] at ha
      dsimp only
      rw [fillRange_not_mem ha.2, h2.frame a ha.1.2, h1.frame a ha.1.1]
    · exact ⟨Expr.Stored.congr l hcl fun a ha => hfrm a (ha.elim (fun h => Or.inl (Or.inl h)) fun h => Or.inr (Or.inl h)),
        Expr.Stored.congr r h2.stored fun a ha => hfrm a (ha.elim (fun h => Or.inl (Or.inr h)) fun h => Or.inr (Or.inr h)),
        hval⟩
    · exact grefOk_root hav2 (fun a ha => Or.inl (Or.inr ha)) hval
  | sumIter es w ih =>
    intro m s hwf hwb hd hm
    obtain ⟨wfs, hok, hsh⟩ := hwf
    obtain ⟨wbs, hav, haa, hdv, _⟩ := hwb
    have hdd : Disjoint es.ownVs es.readss := hd.mono_left fun a h => Or.inl h
    have hdr : Disjoint (rng w.val w.size) es.readss := hd.mono_left fun a h => Or.inr h
    obtain ⟨s', rs, hrun, hadj, hvok, haok, hfr, hcach, hval⟩ := gfevals_acc (fun x y => x + y) w m es
        { s with val := fillRange s.val (addr w.val) w.size (fun _ => 0) } (fun _ => 0) ih wfs wbs hdd
        (fun a ha => (fillRange_not_mem (heap := s.val) (f := fun _ => (0 : α)) (disj_right hdr ha)).trans (hm a ha)) hav hdv hdr
        hsh (fun k hk => fillRange_add (heap := s.val) (f := fun _ => (0 : α)) hk)
    have hval' : ∀ k < w.size, s'.val (addr w.val + k) = (Expr.sumIter es w).exact m k := fun k hk => by
      rw [hval k hk, Expr.exact]
    refine gfeval_list (s' := s') rfl rfl rfl hav ?_ hadj hvok haok ?_ ⟨hcach, hval'⟩ hval' rfl
    · rw [Expr.feval, writeV_eq hav]
      simp only [Option.bind_eq_bind, Option.bind_some]
      exact congrArg (fun o => Option.bind o fun a => some (a.1, Ref.ptr w.val)) hrun
    · intro a ha haw
      rw [hfr a ha haw]; exact fillRange_not_mem (heap := s.val) (f := fun _ => (0 : α)) haw
  | prodIter es w ih =>
    intro m s hwf hwb hd hm
    obtain ⟨wfs, hok, hsh⟩ := hwf
    obtain ⟨wbs, hav, haa, hdv, _⟩ := hwb
    have hdd : Disjoint es.ownVs es.readss := hd.mono_left fun a h => Or.inl h
    have hdr : Disjoint (rng w.val w.size) es.readss := hd.mono_left fun a h => Or.inr h
    obtain ⟨s', rs, hrun, hadj, hvok, haok, hfr, hcach, hval⟩ := gfevals_acc (fun x y => x * y) w m es
        { s with val := fillRange s.val (addr w.val) w.size (fun _ => 1) } (fun _ => 1) ih wfs wbs hdd
        (fun a ha => (fillRange_not_mem (heap := s.val) (f := fun _ => (1 : α)) (disj_right hdr ha)).trans (hm a ha)) hav hdv hdr
        (fun e he => (hsh e he).1) (fun k hk => fillRange_add (heap := s.val) (f := fun _ => (1 : α)) hk)
    have hval' : ∀ k < w.size, s'.val (addr w.val + k) = (Expr.prodIter es w).exact m k := fun k hk => by
      rw [hval k hk, Expr.exact]
    refine gfeval_list (s' := s') rfl rfl rfl hav ?_ hadj hvok haok ?_ ⟨hcach, hval'⟩ hval' rfl
    · rw [Expr.feval, writeV_eq hav]
      simp only [Option.bind_eq_bind, Option.bind_some]
      exact congrArg (fun o => Option.bind o fun a => some (a.1, Ref.ptr w.val)) hrun
    · intro a ha haw
      rw [hfr a ha haw]; exact fillRange_not_mem (heap := s.val) (f := fun _ => (1 : α)) haw
  | reduce op es w ih =>
    intro m s hwf hwb hd hm
    have hred := reduce_some hwf m
    obtain ⟨wfs, hsh, _⟩ := hwf
    obtain ⟨wbs, hav, hdv⟩ := hwb
    have hdd : Disjoint es.ownVs es.readss := hd.mono_left fun a h => Or.inl h
    have hdr : Disjoint (rng w.val w.size) es.readss := hd.mono_left fun a h => Or.inr h
    obtain ⟨s1, rs, hrun, hadj, hvok, haok, hfr, hcach, href⟩ := gfevals_id m es s ih wfs wbs hdd hm
    have hav1 : accessible s1.vok w.val w.size := hvok ▸ hav
    set f : ℕ → α := fun _ => (Expr.reduce op es w).exact m 0 with hf
    have hval : ∀ k < w.size, fillRange s1.val (addr w.val) w.size f (addr w.val + k)
        = (Expr.reduce op es w).exact m k := by
      intro k hk
      rw [fillRange_add hk, hf, Expr.exact, Expr.exact]
    have hfrm : ∀ a ∈ es.ownVs ∪ es.readss, fillRange s1.val (addr w.val) w.size f a = s1.val a := fun a ha =>
      fillRange_not_mem (ha.elim (fun h => disj_right hdv h) fun h => disj_right hdr h)
    refine gfeval_list (s' := { s1 with val := fillRange s1.val (addr w.val) w.size f }) rfl rfl rfl hav ?_ hadj hvok haok ?_
      ⟨storeds_congr es hcach hfrm, hval⟩ hval rfl
    · rw [Expr.feval, hrun]
      simp only [Option.bind_eq_bind, Option.bind_some]
      rw [href s1 rfl fun _ _ => rfl]
      simp only [Option.bind_some, hred]
      rw [writeV_eq hav1]
      rfl
    · intro a ha haw
      exact (fillRange_not_mem (heap := s1.val) (f := f) haw).trans (hfr a ha)
  | ifElse c x y w ihc ihx ihy =>
    intro m s hwf hwb hd hm
    obtain ⟨wfc, wfx, wfy, hkc, hic, hsx, hsy, hrk⟩ := hwf
    obtain ⟨wbc, wbx, wby, hdc, hdca, hxy, hxya⟩ := hwb
    have hdd : Disjoint (c.ownV ∪ (x.ownV ∪ y.ownV)) (c.reads ∪ (x.reads ∪ y.reads)) :=
      hd.mono_left fun a h => Or.inl h
    have d := Set.disjoint_left.1 hdd
    have hm : ∀ a ∈ c.reads ∪ (x.reads ∪ y.reads), s.val a = m a := hm
    obtain ⟨s1, r, h1⟩ := ihc m s wfc wbc (hdd.mono Set.subset_union_left Set.subset_union_left)
      fun a ha => hm a (Or.inl ha)
    have hc1 : c.size = 1 := wfc.shapeOk.size_scl (by simp [Shape.isScl, hkc])
    have hread := h1.ref.1 s1 rfl fun _ _ => rfl
    rw [hc1] at hread
    have hrun0 : ∀ br, (if toBool (c.exact m 0) = true then x else y) = br →
        (Expr.ifElse c x y w).feval s = br.feval s1 := by
      rintro br rfl
      rw [Expr.feval, h1.run]
      simp only [Option.bind_eq_bind, Option.bind_some]
      rw [hread]
      simp only [Option.bind_some, trunc_of_lt Nat.one_pos]
      rw [if_pos hrk]
      split <;> rfl
    have key : ∀ br : Expr α, (if toBool (c.exact m 0) = true then x else y) = br → GFevalClaim br → br.WF → br.WB s.vok s.aok →
        br.ownV ⊆ x.ownV ∪ y.ownV → br.reads ⊆ x.reads ∪ y.reads → br.shape = w.shape →
        ∃ s' r', GFevalOk (Expr.ifElse c x y w) m s s' r' := by
      intro br hbr ihb wfb wbb hob hrb hsb
      have hsz : (Expr.ifElse c x y w).size = br.size := by
        show w.shape.size = _; rw [← hsb]; rfl
      have hden : (Expr.ifElse c x y w).exact m = br.exact m := by
        funext k; rw [Expr.exact, ← hbr]; split <;> rfl
      obtain ⟨s2, r2, h2⟩ := ihb m s1 wfb (by rw [h1.vok, h1.aok]; exact wbb)
        (hdd.mono (fun a h => Or.inr (hob h)) fun a h => Or.inr (hrb h))
        (fun a ha => by
          rw [h1.frame a fun h => d (Or.inl h) (Or.inr (hrb ha))]
          exact hm a (Or.inr (hrb ha)))
      refine ⟨s2, r2, ⟨(hrun0 br hbr).trans h2.run, h2.adj.trans h1.adj, h2.vok.trans h1.vok,
        h2.aok.trans h1.aok, ?_, ⟨?_, ?_⟩, ⟨?_, ?_⟩, ?_⟩⟩
      · intro a ha
        have ha : a ∉ (c.ownV ∪ (x.ownV ∪ y.ownV)) ∪ ∅ := ha
        rw [Set.union_empty, Set.mem_union, not_or] at ha
        rw [h2.frame a fun h => ha.2 (hob h), h1.frame a ha.1]
      · refine Expr.Stored.congr c h1.stored fun a ha => h2.frame a fun h => ?_
        rcases ha with ha | ha
        · exact disj_left hdc ha (hob h)
        · exact d (Or.inr (hob h)) (Or.inl ha)
      · rw [← hbr] at h2
        have h3 := h2.stored
        split at h3 <;> rename_i hcond
        · rw [if_pos hcond]; exact h3
        · rw [if_neg hcond]; exact h3
      · intro s' hv hag
        rw [hsz, hden]
        exact h2.ref.1 s' hv fun a ha => hag a
          (ha.elim (fun h => Or.inl (Or.inl (Or.inr (hob h)))) fun h => Or.inr (Or.inr (hrb h)))
      · intro dst n hdst
        rw [hsz]
        exact h2.ref.2 dst n (hdst.mono_right fun a ha =>
          ha.elim (fun h => Or.inl (Or.inl (Or.inr (hob h)))) fun h => Or.inr (Or.inr (hrb h)))
      · rw [h2.out, Expr.outRef, ← hbr]; split <;> rfl
    by_cases hcond : toBool (c.exact m 0) = true
    · exact key x (if_pos hcond) ihx wfx wbx Set.subset_union_left Set.subset_union_left hsx
    · exact key y (if_neg hcond) ihy wfy wby Set.subset_union_right Set.subset_union_right hsy
  | eq => intro m s hwf; exact hwf.elim
  | opEq => intro m s hwf; exact hwf.elim
  | glue => intro m s hwf; exact hwf.elim
  | forEach => intro m s hwf; exact hwf.elim

end FastAD
