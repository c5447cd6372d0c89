import Verif.Proof.StmtBind

/-!
# Trees of statements, over an arbitrary scalar type
-/

namespace FastAD

variable {α : Type} [Zero α] [One α] [Add α] [Sub α] [Neg α] [Mul α] [Div α] [NatCast α] [IntCast α]
variable [Fn α] [HasInf α] [LinAlg α]
set_option linter.unusedSectionVars false

/-- backward evaluation of a list of statements -/
def bevalL : List (Expr α) → (ℕ → α) → St α → Option (St α)
  | [], _, s => some s
  | x :: xs, seed, s => (bevalL xs seed s).bind (x.beval (if xs.isEmpty then seed else fun _ => 0))

theorem bevalL_append (l r : List (Expr α)) (hr : r ≠ []) (seed : ℕ → α) (s : St α) :
    bevalL (l ++ r) seed s = (bevalL r seed s).bind (bevalL l fun _ => 0) := by
  induction l with
  | nil => simp [bevalL]
  | cons x xs ih =>
    have h : (xs ++ r).isEmpty = false := by cases xs <;> cases r <;> simp_all
    simp only [List.cons_append, bevalL, h, ih]
    rw [Option.bind_assoc]
    simp

/-- value cells of the placeholder assigned by a statement -/
def Expr.place : Expr α → Set ℕ
  | .eq v _ _ => rng v.val v.size
  | _ => ∅

theorem StmtB.ment_out {vok aok : ℕ → Bool} {BV BA : Set ℕ} {x : Expr α} (hb : StmtB vok aok BV BA x) {a : ℕ} (ha : a ∈ x.ment) :
    a ∉ BV := by
  by_cases hs : x.isStmt = false
  · obtain ⟨hb, _, _⟩ := hb.pure hs
    have hment : x.ment = x.reads := by cases x <;> first | rfl | simp [Expr.isStmt] at hs
    exact disj_right hb.dV (hment ▸ ha)
  · cases x with
    | eq v e w => exact disj_right (EqB.dV hb) ha
    | opEq op v e w c =>
      have hb : OpB vok aok BV BA v e w c := hb
      exact ha.elim (fun h => disj_right hb.pure.dV h) fun h => disj_right hb.dV h
    | _ => simp [Expr.isStmt] at hs

theorem StmtB.lv_sub {vok aok : ℕ → Bool} {BV BA : Set ℕ} {x : Expr α} (hb : StmtB vok aok BV BA x) : x.lv ⊆ BV := by
  by_cases hs : x.isStmt = false
  · obtain ⟨hb, _, _⟩ := hb.pure hs
    rw [hb.wf.lv]; exact hb.ownV
  · cases x with
    | eq v e w => exact EqB.inV hb
    | opEq op v e w c =>
      have hb : OpB vok aok BV BA v e w c := hb
      exact Set.union_subset hb.pure.ownV hb.cV
    | _ => simp [Expr.isStmt] at hs

/-- backward evaluation of a statement leaves the caches alone -/
theorem StmtB.undo_in {vok aok : ℕ → Bool} {BV BA : Set ℕ} {x : Expr α} (hb : StmtB vok aok BV BA x) (m h : ℕ → α) {a : ℕ} (ha : a ∈ BV) :
    x.undo m h a = h a := by
  cases x with
  | opEq op v e w c =>
    have hb : OpB vok aok BV BA v e w c := hb
    simp only [Expr.undo]
    exact assign_off (disj_left hb.dV ha)
  | _ => rfl

theorem Expr.undo_congr {x : Expr α} {m h h' : ℕ → α} {a : ℕ} (heq : h a = h' a) : x.undo m h a = x.undo m h' a := by
  cases x with
  | opEq op v e w c =>
    simp only [Expr.undo, assign, heq]
  | _ => exact heq

/-- bound sequences: the caches of different statements do not overlap -/
structure SeqB (vok aok : ℕ → Bool) (BV BA : Set ℕ) (L : List (Expr α)) : Prop where
  stmt : ∀ x ∈ L, StmtB vok aok BV BA x
  disj : L.Pairwise fun x y => Disjoint x.lv y.lv

/-- one after the other, every statement returning a reference to its view -/
inductive SeqRun : List (Expr α) → St α → St α → Prop
  | nil (s) : SeqRun [] s s
  | cons {x xs s s1 s'} : x.feval s = some (s1, .ptr x.view.val) → s1.vok = s.vok → accessible s1.vok x.view.val x.size →
      SeqRun xs s1 s' → SeqRun (x :: xs) s s'

theorem SeqRun.append {l r : List (Expr α)} {s s' : St α} (h : SeqRun (l ++ r) s s') :
    ∃ s1, SeqRun l s s1 ∧ SeqRun r s1 s' := by
  induction l generalizing s with
  | nil => exact ⟨s, .nil s, h⟩
  | cons x xs ih =>
    cases h with
    | cons h1 h2 h3 h4 =>
      obtain ⟨s1, h5, h6⟩ := ih h4
      exact ⟨s1, .cons h1 h2 h3 h5, h6⟩

theorem SeqRun.vok_eq {l : List (Expr α)} {s s' : St α} (h : SeqRun l s s') : s'.vok = s.vok := by
  induction h with
  | nil s => rfl
  | cons h1 h2 h3 h4 ih => exact ih.trans h2

/-- placeholders are not mentioned before they are assigned -/
def After (x y : Expr α) : Prop := Disjoint x.ment y.place

mutual
/-- the views of the inner nodes of a bound tree are those of what they evaluate last -/
def Expr.TreeB : Expr α → Prop
  | .glue l r w => l.TreeB ∧ r.TreeB ∧ r.flat ≠ [] ∧ w.val = r.view.val ∧ w.shape = r.shape
  | .forEach es w => es.TreeBs ∧ ∀ e ∈ es.last, e.flat ≠ [] ∧ w.val = e.view.val ∧ w.shape = e.shape ∧ e.getRef = .ptr e.view.val
  | _ => True
def Exprs.TreeBs : Exprs α → Prop
  | .nil => True
  | .cons e es => e.TreeB ∧ es.TreeBs
end

/-- neither `,` nor `for_each` -/
def Expr.isLeaf : Expr α → Bool
  | .glue _ _ _ => false
  | .forEach _ _ => false
  | _ => true

theorem Expr.isLeaf.flat {e : Expr α} (h : e.isLeaf = true) : e.flat = [e] := by
  cases e <;> first | rfl | simp [Expr.isLeaf] at h

theorem Exprs.last_flats {es : Exprs α} (h : ∀ e ∈ es.last, e.flat ≠ []) (hn : es.length ≠ 0) : es.flats ≠ [] := by
  induction es using Exprs.rec (motive_1 := fun _ => True) with
  | nil => simp [Exprs.length] at hn
  | cons e es _ ih =>
    cases es with
    | nil => simpa [Exprs.flats] using h e (by simp [Exprs.last])
    | cons y ys =>
      have := ih h (by simp [Exprs.length])
      simp only [Exprs.flats] at this ⊢
      simp [this] at *
  | _ => trivial

theorem Exprs.last_spec {es : Exprs α} {e : Expr α} (h : e ∈ es.last) :
    es.lastRef = e.getRef ∧ es.lastShape = e.shape ∧ es.lastView = e.view ∧ e ∈ es.toList ∧ es.length ≠ 0 := by
  induction es using Exprs.rec (motive_1 := fun _ => True) with
  | nil => simp [Exprs.last] at h
  | cons x es _ ih =>
    cases es with
    | nil =>
      simp [Exprs.last] at h
      subst h
      exact ⟨rfl, rfl, rfl, by simp [Exprs.toList], by simp [Exprs.length]⟩
    | cons y ys =>
      obtain ⟨h1, h2, h3, h4, _⟩ := ih h
      exact ⟨h1, h2, h3, by simp only [Exprs.toList, List.mem_cons] at h4 ⊢; exact Or.inr h4, by simp [Exprs.length]⟩
  | _ => trivial

theorem Exprs.exists_last {es : Exprs α} (h : es.length ≠ 0) : ∃ e, e ∈ es.last := by
  induction es using Exprs.rec (motive_1 := fun _ => True) with
  | nil => simp [Exprs.length] at h
  | cons x es _ ih =>
    cases es with
    | nil => exact ⟨x, by simp [Exprs.last]⟩
    | cons y ys => exact ih (by simp [Exprs.length])
  | _ => trivial

/-- evaluating a tree runs its statements in order -/
def FevalTree (e : Expr α) : Prop := e.TreeB → ∀ s s', SeqRun e.flat s s' → ∃ r, e.feval s = some (s', r) ∧
  (e.flat ≠ [] → r = .ptr e.view.val ∧ accessible s'.vok e.view.val e.size)

theorem fevals_tree (es : Exprs α) (ih : ∀ e ∈ es.toList, FevalTree e) (ht : es.TreeBs) (s s' : St α) (h : SeqRun es.flats s s') :
    ∃ rs, es.fevals (fun s _ _ => some s) s = some (s', rs) ∧ ∀ e ∈ es.last, e.flat ≠ [] → accessible s'.vok e.view.val e.size := by
  induction es using Exprs.rec (motive_1 := fun _ => True) generalizing s with
  | nil => cases h; exact ⟨[], rfl, fun e he => by simp [Exprs.last] at he⟩
  | cons e es _ ihs =>
    obtain ⟨s1, h1, h2⟩ := SeqRun.append h
    obtain ⟨r, hr, hr2⟩ := ih e (by simp [Exprs.toList]) ht.1 s s1 h1
    obtain ⟨rs, hrs, hrs2⟩ := ihs (fun x hx => ih x (by simp [Exprs.toList, hx])) ht.2 s1 h2
    refine ⟨(r, e.shape) :: rs, ?_, ?_⟩
    · simp [Exprs.fevals, hr, hrs]
    · cases es with
      | nil =>
        intro x hx hne
        simp [Exprs.last] at hx
        subst hx
        cases h2
        exact (hr2 hne).2
      | cons y ys => exact hrs2
  | _ => trivial

theorem feval_tree (e : Expr α) : FevalTree e := by
  induction e using Expr.induct with
  | glue l r w ihl ihr =>
    intro ht s s' h
    obtain ⟨htl, htr, hne, hw, hsh⟩ := ht
    obtain ⟨s1, h1, h2⟩ := SeqRun.append h
    obtain ⟨r1, hr1, _⟩ := ihl htl s s1 h1
    obtain ⟨r2, hr2, hr3⟩ := ihr htr s1 s' h2
    obtain ⟨rfl, hacc⟩ := hr3 hne
    have hsz : w.size = r.size := by rw [View.size, hsh, Expr.size]
    refine ⟨.ptr w.val, ?_, fun _ => ⟨rfl, ?_⟩⟩
    · simp only [Expr.feval, hr1, hr2, Option.bind_eq_bind, Option.bind_some, Ref.read, readCells_eq hacc]
      rw [hw, hsz, assign_self hacc]
      rfl
    · show accessible _ w.val w.size
      rw [hw, hsz]
      exact hacc
  | forEach es w ih =>
    intro ht s s' h
    by_cases hn : es.length = 0
    · have : es = .nil := by
        cases es with
        | nil => rfl
        | cons => simp [Exprs.length] at hn
      subst this
      cases h
      exact ⟨.ptr w.val, rfl, fun h => absurd rfl h⟩
    · obtain ⟨e, he⟩ := Exprs.exists_last hn
      obtain ⟨hne, hw, hsh, href⟩ := ht.2 e he
      obtain ⟨l1, l2, l3, l4, _⟩ := Exprs.last_spec he
      obtain ⟨rs, hrs, hacc⟩ := fevals_tree es ih ht.1 s s' h
      have hacc := hacc e he hne
      have hsz : w.size = e.size := by rw [View.size, hsh, Expr.size]
      refine ⟨.ptr w.val, ?_, fun _ => ⟨rfl, ?_⟩⟩
      · simp only [Expr.feval, if_neg hn, hrs, Option.bind_eq_bind, Option.bind_some, l1, l2, href, Ref.read]
        rw [if_pos (by rw [hsh]; exact ⟨rfl, rfl⟩)]
        have : readCells s'.val s'.vok e.view.val e.shape.size = some (trunc e.size fun k => s'.val (addr e.view.val + k)) := readCells_eq hacc
        rw [this]
        simp only [Option.bind_some]
        rw [hw, hsz, show e.shape.size = e.size from rfl, assign_self hacc]
        rfl
      · show accessible _ w.val w.size
        rw [hw, hsz]
        exact hacc
  | _ =>
    intro _ s s' h
    cases h with
    | cons h1 h2 h3 h4 =>
      cases h4
      exact ⟨_, h1, fun _ => ⟨rfl, h3⟩⟩

/-- evaluating a tree backwards runs its statements in reverse order, all but the last with seed 0 -/
def BevalTree (e : Expr α) : Prop := e.TreeB → ∀ seed s, e.beval seed s = bevalL e.flat seed s

theorem bevals_tree (es : Exprs α) (ih : ∀ e ∈ es.toList, BevalTree e) (ht : es.TreeBs) (hl : ∀ e ∈ es.last, e.flat ≠ [])
    (seed : ℕ → α) (n i : ℕ) (hn : i + es.length = n) (s : St α) :
    es.bevals (fun i _ _ s => some (s, some (if i + 1 = n then seed else fun _ => 0))) (fun _ _ _ _ s => some s) i s =
      bevalL es.flats seed s := by
  induction es using Exprs.rec (motive_1 := fun _ => True) generalizing i with
  | nil => rfl
  | cons e es _ ihs =>
    have he := ih e (by simp [Exprs.toList]) ht.1
    simp only [Exprs.length] at hn
    cases es with
    | nil =>
      simp only [Exprs.length] at hn
      simp only [Exprs.bevals, Exprs.flats, List.append_nil, Option.bind_eq_bind, Option.bind_some]
      rw [if_pos (by omega), he]
      exact Option.bind_fun_some _
    | cons y ys =>
      have hne := Exprs.last_flats (es := .cons y ys) hl (by simp [Exprs.length])
      rw [Exprs.bevals, ihs (fun x hx => ih x (by simp [Exprs.toList] at hx ⊢; exact Or.inr hx)) ht.2 hl (i + 1) (by omega)]
      rw [show (Exprs.cons e (.cons y ys)).flats = e.flat ++ (Exprs.cons y ys).flats from rfl, bevalL_append _ _ hne]
      simp only [Option.bind_eq_bind, Option.bind_some]
      simp only [Exprs.length] at hn
      congr 1
      funext s0
      rw [if_neg (by omega), he]
      exact Option.bind_fun_some _
  | _ => trivial

theorem beval_tree (e : Expr α) : BevalTree e := by
  induction e using Expr.induct with
  | glue l r w ihl ihr =>
    intro ht seed s
    obtain ⟨htl, htr, hne, _, _⟩ := ht
    simp only [Expr.beval, Option.bind_eq_bind, Expr.flat]
    rw [bevalL_append _ _ hne, ihr htr]
    congr 1
    funext s1
    exact ihl htl _ _
  | forEach es w ih =>
    intro ht seed s
    exact bevals_tree es ih ht.1 (fun e he => (ht.2 e he).1) seed es.length 0 (by omega) s
  | _ =>
    intro _ seed s
    rfl

end FastAD
