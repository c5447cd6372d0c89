import Verif.Spec.Session
import Verif.Proof.Api

/-!
# Invariant of sessions
-/

namespace FastAD

variable [HasInf ℝ] [LinAlg ℝ]
set_option linter.unusedSectionVars false

def BoundObj.BV (o : BoundObj ℝ) : Set ℕ := blockV o.qv o.src.bindSize
def BoundObj.BA (o : BoundObj ℝ) : Set ℕ := blockA o.qa o.src.bindSize

/-- one object is in order -/
structure ObjOk (uv ua : ℕ → Bool) (s : St ℝ) (o : BoundObj ℝ) (p : Expr ℝ × Option (ℕ → ℝ)) : Prop where
  src : o.src = p.1
  bnd : Bnd o.src o.bound o.BV o.BA s.vok s.aok
  alive : o.src.Alive uv ua
  bv : ∀ a ∈ o.BV, s.vok a = true ∧ uv a = false
  ba : ∀ a ∈ o.BA, s.aok a = true ∧ ua a = false
  cached : ∀ m, p.2 = some m → ∃ h, o.bound.Cached m h ∧ (∀ a ∈ o.BV, s.val a = h a) ∧ ∀ a ∈ o.src.reads, h a = m a

/-- the invariant of sessions: `w` is the machine, `u` the user's view of it -/
structure Inv (G : Expr ℝ → (ℕ → ℝ) → (ℕ → ℝ) → ℕ → ℝ) (uv ua : ℕ → Bool) (adj0 : ℕ → ℝ) (u : User ℝ) (w : Session ℝ) : Prop where
  len : u.objs.length = w.objs.length
  objs : ∀ i (h : i < w.objs.length) (h' : i < u.objs.length), ObjOk uv ua w.st w.objs[i] u.objs[i]
  sep : ∀ i j (hi : i < w.objs.length) (hj : j < w.objs.length), i ≠ j → Disjoint w.objs[i].BV w.objs[j].BV
  vok : ∀ a, uv a = true → w.st.vok a = true
  aok : ∀ a, ua a = true → w.st.aok a = true
  val : ∀ a, uv a = true → w.st.val a = u.vals a
  adj : ∀ a, ua a = true → w.st.adj a = replayAdj G a (adj0 a) u.log

theorem replayAdj_append (G : Expr ℝ → (ℕ → ℝ) → (ℕ → ℝ) → ℕ → ℝ) (a : ℕ) (x : ℝ) (es fs : List (Event ℝ)) :
    replayAdj G a x (es ++ fs) = replayAdj G a (replayAdj G a x es) fs := by
  induction es generalizing x with
  | nil => rfl
  | cons ev es ih => cases ev <;> simp [replayAdj, ih]

omit [HasInf ℝ] [LinAlg ℝ] in
theorem reads_alive {α : Type} {uv ua : ℕ → Bool} {e : Expr α} (h : e.Alive uv ua) : ∀ a ∈ e.reads, uv a = true := by
  intro a ha
  rcases reads_cells e a ha with hr | hr
  · obtain ⟨v, hv, hr⟩ := mem_valCells.1 hr
    obtain ⟨j, hj, rfl⟩ := mem_rng_iff.1 hr
    exact accessible_mem (h.1 v hv).1 hj
  · obtain ⟨v, hv, hr⟩ := mem_constCells.1 hr
    obtain ⟨j, hj, rfl⟩ := mem_rng_iff.1 hr
    exact accessible_mem (h.2 v hv) hj

theorem ObjOk.congr {uv ua : ℕ → Bool} {s s' : St ℝ} {o : BoundObj ℝ} {p : Expr ℝ × Option (ℕ → ℝ)}
    (h : ObjOk uv ua s o p) (hv : s'.vok = s.vok) (ha : s'.aok = s.aok) (hval : ∀ a ∈ o.BV, s'.val a = s.val a) :
    ObjOk uv ua s' o p := by
  refine ⟨h.src, ?_, h.alive, ?_, ?_, ?_⟩
  · rw [hv, ha]; exact h.bnd
  · rw [hv]; exact h.bv
  · rw [ha]; exact h.ba
  · intro m hm
    obtain ⟨g, hg, h1, h2⟩ := h.cached m hm
    exact ⟨g, hg, fun a ha => (hval a ha).trans (h1 a ha), h2⟩

theorem Inv.congr {G : Expr ℝ → (ℕ → ℝ) → (ℕ → ℝ) → ℕ → ℝ} {uv ua : ℕ → Bool} {adj0 : ℕ → ℝ} {u u' : User ℝ} {w : Session ℝ} {s' : St ℝ}
    (h : Inv G uv ua adj0 u w) (hv : s'.vok = w.st.vok) (ha : s'.aok = w.st.aok)
    (hlen : u'.objs.length = u.objs.length)
    (hobj : ∀ i (h : i < w.objs.length) (h' : i < u.objs.length) (h'' : i < u'.objs.length),
      ObjOk uv ua w.st w.objs[i] u.objs[i] → ObjOk uv ua s' w.objs[i] u'.objs[i])
    (hval : ∀ a, uv a = true → s'.val a = u'.vals a)
    (hadj : ∀ a, ua a = true → s'.adj a = replayAdj G a (adj0 a) u'.log) : Inv G uv ua adj0 u' ⟨s', w.objs⟩ := by
  refine ⟨hlen.trans h.len, ?_, h.sep, ?_, ?_, hval, hadj⟩
  · intro i hi hi'
    exact hobj i hi (hlen ▸ hi') hi' (h.objs i hi (hlen ▸ hi'))
  · rw [hv]; exact h.vok
  · rw [ha]; exact h.aok

omit [HasInf ℝ] [LinAlg ℝ] in
theorem Expr.WB.mono {α : Type} {vok aok vok' aok' : ℕ → Bool} (hv : ∀ a, vok a = true → vok' a = true)
    (ha : ∀ a, aok a = true → aok' a = true) (e : Expr α) : e.WB vok aok → e.WB vok' aok' := by
  have list : ∀ es : Exprs α, (∀ e ∈ es.toList, e.WB vok aok → e.WB vok' aok') → es.WBs vok aok → es.WBs vok' aok' := by
    intro es
    induction es using Exprs.rec (motive_1 := fun _ => True) with
    | nil => intro _ h; exact h
    | cons e es _ ih =>
      intro hP h
      exact ⟨hP e (by simp [Exprs.toList]) h.1, ih (fun x hx => hP x (by simp [Exprs.toList, hx])) h.2.1, h.2.2⟩
    | _ => trivial
  induction e using Expr.induct with
  | var v => exact fun h => ⟨h.1.mono hv, h.2.mono ha⟩
  | const => exact fun h => h
  | cview => exact fun h => accessible.mono h hv
  | unary op e w ih => exact fun h => ⟨ih h.1, h.2.1.mono hv, h.2.2.1.mono ha, h.2.2.2⟩
  | binary op l r w ihl ihr =>
    exact fun h => ⟨ihl h.1, ihr h.2.1, h.2.2.1, h.2.2.2.1, h.2.2.2.2.1.mono hv, h.2.2.2.2.2.1,
      fun hc => ⟨(h.2.2.2.2.2.2 hc).1.mono ha, (h.2.2.2.2.2.2 hc).2⟩⟩
  | pow n e w ih =>
    exact fun h => ⟨ih h.1, h.2.1.mono hv, h.2.2.1, fun hc => ⟨(h.2.2.2 hc).1.mono ha, (h.2.2.2 hc).2⟩⟩
  | prodElem e w c ih => exact fun h => ⟨ih h.1, h.2.1.mono hv, h.2.2.1.mono ha, h.2.2.2⟩
  | transpose e w ih => exact fun h => ⟨ih h.1, h.2.1.mono hv, h.2.2.1.mono ha, h.2.2.2⟩
  | dot l r w ihl ihr =>
    exact fun h => ⟨ihl h.1, ihr h.2.1, h.2.2.1, h.2.2.2.1, h.2.2.2.2.1.mono hv, h.2.2.2.2.2.1.mono ha, h.2.2.2.2.2.2⟩
  | sumIter es w ih => exact fun h => ⟨list es ih h.1, h.2.1.mono hv, h.2.2.1.mono ha, h.2.2.2⟩
  | prodIter es w ih => exact fun h => ⟨list es ih h.1, h.2.1.mono hv, h.2.2.1.mono ha, h.2.2.2⟩
  | reduce op es w ih => exact fun h => ⟨list es ih h.1, h.2.1.mono hv, h.2.2⟩
  | ifElse c a b w ihc iha ihb => exact fun h => ⟨ihc h.1, iha h.2.1, ihb h.2.2.1, h.2.2.2⟩
  | eq v e w ih => exact fun h => ⟨ih h.1, h.2.1.mono hv, h.2.2.1.mono ha, h.2.2.2⟩
  | glue l r w ihl ihr => exact fun h => ⟨ihl h.1, ihr h.2.1, h.2.2⟩
  | _ => exact fun h => h.elim

omit [HasInf ℝ] [LinAlg ℝ] in
theorem Bnd.mono {α : Type} {e b : Expr α} {BV BA : Set ℕ} {vok aok vok' aok' : ℕ → Bool} (h : Bnd e b BV BA vok aok)
    (hv : ∀ a, vok a = true → vok' a = true) (ha : ∀ a, aok a = true → aok' a = true) : Bnd e b BV BA vok' aok' :=
  ⟨h.strip, h.wf, h.wb.mono hv ha, h.ownV, h.ownA, h.dV, h.dA⟩

theorem reads_leaves {e : Expr ℝ} {a : ℕ} (h : a ∈ e.reads) : a ∈ e.valCells ∪ e.constCells :=
  Finset.mem_union.2 (reads_cells e a h)

/-- every legal call is defined and preserves the invariant -/
theorem Inv.step {uv ua : ℕ → Bool} {adj0 : ℕ → ℝ} {u : User ℝ} {w : Session ℝ} (h : Inv Expr.grad uv ua adj0 u w) (c : Call ℝ)
    (hc : LegalCall uv ua u w.st c) : ∃ w', w.step c = some w' ∧ Inv Expr.grad uv ua adj0 (u.step c) w' := by
  have hmodify : ∀ (i j : ℕ) (g : Expr ℝ × Option (ℕ → ℝ) → Expr ℝ × Option (ℕ → ℝ)) (hj : j < u.objs.length)
      (hj' : j < (u.objs.modify i g).length), (u.objs.modify i g)[j] = if i = j then g u.objs[j] else u.objs[j] := by
    intro i j g hj hj'; rw [List.getElem_modify]
  -- evaluation of object `i`
  have heval : ∀ i (hi : i < w.objs.length) (s' : St ℝ), s'.vok = w.st.vok → s'.aok = w.st.aok →
      (∀ a, a ∉ w.objs[i].BV → s'.val a = w.st.val a) → (∀ m, (∀ a ∈ w.objs[i].src.reads, w.st.val a = m a) →
        w.objs[i].bound.Cached m s'.val) →
      ∀ j (hj : j < w.objs.length) (hj' : j < u.objs.length) (hj'' : j < (u.objs.modify i fun o => (o.1, some u.vals)).length),
        ObjOk uv ua w.st w.objs[j] u.objs[j] →
        ObjOk uv ua s' w.objs[j] (u.objs.modify i fun o => (o.1, some u.vals))[j] := by
    intro i hi s' hv ha hfr hcach j hj hj' hj'' ho
    rw [hmodify i j _ hj']
    by_cases hij : i = j
    · subst hij
      rw [if_pos rfl]
      refine ⟨ho.src, ?_, ho.alive, ?_, ?_, ?_⟩
      · rw [hv, ha]; exact ho.bnd
      · rw [hv]; exact ho.bv
      · rw [ha]; exact ho.ba
      · intro m hm
        obtain rfl : u.vals = m := by simpa using hm
        have hr : ∀ a ∈ w.objs[i].src.reads, w.st.val a = u.vals a := fun a ha => h.val a (reads_alive ho.alive a ha)
        refine ⟨s'.val, hcach _ hr, fun _ _ => rfl, fun a ha => ?_⟩
        rw [hfr a ?_, hr a ha]
        intro hb
        have := (ho.bv a hb).2
        rw [reads_alive ho.alive a ha] at this
        cases this
    · rw [if_neg hij]
      refine ho.congr hv ha fun a hb => hfr a fun hb' => ?_
      exact Set.disjoint_left.1 (h.sep i j hi hj hij) hb' hb
  cases c with
  | bind e qv qa jv ja =>
    obtain ⟨hwf, hal, hf⟩ := hc
    have hmv : ∀ a, w.st.vok a = true → (bindExpr e qv qa jv ja w.st).2.vok a = true := by
      intro a h; simp [bindExpr, St.allocate, h]
    have hma : ∀ a, w.st.aok a = true → (bindExpr e qv qa jv ja w.st).2.aok a = true := by
      intro a h; simp [bindExpr, St.allocate, h]
    have hval : ∀ a, w.st.vok a = true → (bindExpr e qv qa jv ja w.st).2.val a = w.st.val a := by
      intro a h
      simp only [bindExpr, St.allocate, fillRange]
      rw [if_neg]
      rintro ⟨h1, h2⟩
      have := hf.1 (a - qv) (by omega)
      rw [Nat.add_sub_cancel' h1, h] at this
      cases this
    have hadj : ∀ a, w.st.aok a = true → (bindExpr e qv qa jv ja w.st).2.adj a = w.st.adj a := by
      intro a h
      simp only [bindExpr, St.allocate, fillRange]
      rw [if_neg]
      rintro ⟨h1, h2⟩
      have := hf.2 (a - qa) (by omega)
      rw [Nat.add_sub_cancel' h1, h] at this
      cases this
    have hal' : e.Alive w.st.vok w.st.aok :=
      ⟨fun v hv => ⟨(hal.1 v hv).1.mono h.vok, (hal.1 v hv).2.mono h.aok⟩, fun c hc => (hal.2 c hc).mono h.vok⟩
    have hnew := bindExpr_bnd (jv := jv) (ja := ja) hwf hal' hf
    have hnv : ∀ a ∈ blockV qv e.bindSize, w.st.vok a = false := by
      intro a ha
      obtain ⟨k, hk, rfl⟩ := mem_rng_iff.1 ha
      exact hf.1 k hk
    have hna : ∀ a ∈ blockA qa e.bindSize, w.st.aok a = false := by
      intro a ha
      obtain ⟨k, hk, rfl⟩ := mem_rng_iff.1 ha
      exact hf.2 k hk
    refine ⟨_, rfl, ⟨?_, ?_, ?_, ?_, ?_, ?_, ?_⟩⟩
    · simp [User.step, h.len]
    · intro i hi hi'
      simp only [User.step, List.length_append, List.length_cons, List.length_nil] at hi hi' ⊢
      by_cases hlt : i < w.objs.length
      · have hlt' : i < u.objs.length := h.len ▸ hlt
        rw [List.getElem_append_left hlt, List.getElem_append_left hlt']
        have ho := h.objs i hlt hlt'
        refine ⟨ho.src, ho.bnd.mono hmv hma, ho.alive, fun a ha => ⟨hmv a (ho.bv a ha).1, (ho.bv a ha).2⟩,
          fun a ha => ⟨hma a (ho.ba a ha).1, (ho.ba a ha).2⟩, fun m hm => ?_⟩
        obtain ⟨g, hg, h1, h2⟩ := ho.cached m hm
        exact ⟨g, hg, fun a ha => (hval a (ho.bv a ha).1).trans (h1 a ha), h2⟩
      · obtain rfl : i = w.objs.length := by omega
        have : u.objs.length = w.objs.length := h.len
        rw [List.getElem_append_right (le_refl _), List.getElem_append_right (by omega)]
        simp only [Nat.sub_self, List.getElem_cons_zero, this]
        refine ⟨rfl, hnew, hal, fun a ha => ⟨?_, ?_⟩, fun a ha => ⟨?_, ?_⟩, fun m hm => by simp at hm⟩
        · obtain ⟨k, hk, rfl⟩ := mem_rng_iff.1 ha
          simp only [St.allocate, addr_some]
          simp [show k < e.bindSize.val from hk]
        · have := hnv a ha
          by_contra hc
          rw [h.vok a (by simpa using hc)] at this
          cases this
        · obtain ⟨k, hk, rfl⟩ := mem_rng_iff.1 ha
          simp only [St.allocate, addr_some]
          simp [show k < e.bindSize.adj from hk]
        · have := hna a ha
          by_contra hc
          rw [h.aok a (by simpa using hc)] at this
          cases this
    · intro i j hi hj hij
      simp only [List.length_append, List.length_cons, List.length_nil] at hi hj ⊢
      have key : ∀ k (hk : k < w.objs.length), Disjoint w.objs[k].BV (blockV qv e.bindSize) := by
        intro k hk
        rw [Set.disjoint_left]
        intro a h1 h2
        have := ((h.objs k hk (h.len ▸ hk)).bv a h1).1
        rw [hnv a h2] at this
        cases this
      by_cases hi' : i < w.objs.length
      · by_cases hj' : j < w.objs.length
        · rw [List.getElem_append_left hi', List.getElem_append_left hj']
          exact h.sep i j hi' hj' hij
        · obtain rfl : j = w.objs.length := by omega
          rw [List.getElem_append_left hi', List.getElem_append_right (le_refl _)]
          simpa using! key i hi'
      · obtain rfl : i = w.objs.length := by omega
        have hj' : j < w.objs.length := by omega
        rw [List.getElem_append_left hj', List.getElem_append_right (le_refl _)]
        simpa using! (key j hj').symm
    · exact fun a ha => hmv a (h.vok a ha)
    · exact fun a ha => hma a (h.aok a ha)
    · exact fun a ha => (hval a (h.vok a ha)).trans (h.val a ha)
    · exact fun a ha => (hadj a (h.aok a ha)).trans (h.adj a ha)
  | evaluate i =>
    have hi' : i < u.objs.length := hc
    have hi : i < w.objs.length := h.len ▸ hi'
    have ho := h.objs i hi hi'
    have hr : ∀ a ∈ w.objs[i].src.reads, w.st.val a = u.vals a := fun a ha => h.val a (reads_alive ho.alive a ha)
    obtain ⟨s', r, h1⟩ := ho.bnd.evaluate hr
    refine ⟨⟨s', w.objs⟩, ?_, h.congr h1.vok h1.aok (by simp [User.step]) ?_ ?_ ?_⟩
    · simp [Session.step, List.getElem?_eq_getElem hi, h1.run]
    · refine heval i hi s' h1.vok h1.aok h1.frame fun m hm => ?_
      obtain ⟨s2, r2, h2⟩ := ho.bnd.evaluate hm
      have : s2 = s' := by
        have := h1.run.symm.trans h2.run
        simp only [Option.some.injEq, Prod.mk.injEq] at this
        exact this.1.symm
      exact this ▸ h2.cached
    · intro a ha
      rw [h1.frame a fun hb => ?_]
      · exact h.val a ha
      · have := (ho.bv a hb).2
        rw [ha] at this; cases this
    · intro a ha
      rw [h1.adj]; exact h.adj a ha
  | autodiff i seed =>
    have hi' : i < u.objs.length := hc
    have hi : i < w.objs.length := h.len ▸ hi'
    have ho := h.objs i hi hi'
    have hr : ∀ a ∈ w.objs[i].src.reads, w.st.val a = u.vals a := fun a ha => h.val a (reads_alive ho.alive a ha)
    obtain ⟨s1, r, h1⟩ := ho.bnd.evaluate hr
    obtain ⟨s', h2⟩ := (show Bnd _ _ _ _ s1.vok s1.aok by rw [h1.vok, h1.aok]; exact ho.bnd).evaluateAdj h1.cached seed
    refine ⟨⟨s', w.objs⟩, ?_, h.congr (h2.vok.trans h1.vok) (h2.aok.trans h1.aok) (by simp [User.step]) ?_ ?_ ?_⟩
    · simp [Session.step, List.getElem?_eq_getElem hi, FastAD.autodiff, h1.run, h2.run]
    · refine heval i hi s' (h2.vok.trans h1.vok) (h2.aok.trans h1.aok) (fun a ha => by rw [h2.val, h1.frame a ha]) fun m hm => ?_
      obtain ⟨s3, r3, h3⟩ := ho.bnd.evaluate hm
      have : s3 = s1 := by
        have := h1.run.symm.trans h3.run
        simp only [Option.some.injEq, Prod.mk.injEq] at this
        exact this.1.symm
      rw [h2.val]
      exact this ▸ h3.cached
    · intro a ha
      rw [h2.val, h1.frame a fun hb => ?_]
      · exact h.val a ha
      · have := (ho.bv a hb).2
        rw [ha] at this; cases this
    · intro a ha
      have hna : a ∉ w.objs[i].BA := fun hb => by
        have := (ho.ba a hb).2
        rw [ha] at this; cases this
      rw [h2.adj a hna, h1.adj, h.adj a ha]
      simp [User.step, List.getElem?_eq_getElem hi', replayAdj_append, replayAdj, ho.src]
  | evaluateAdj i seed =>
    obtain ⟨e, m, he, hm⟩ := hc
    obtain ⟨hi', he'⟩ := List.getElem?_eq_some_iff.1 he
    have hi : i < w.objs.length := h.len ▸ hi'
    have ho := h.objs i hi hi'
    have hsrc : w.objs[i].src = e := by rw [ho.src, he']
    obtain ⟨g, hg, hg1, hg2⟩ := ho.cached m (by rw [he'])
    have hcach : w.objs[i].bound.Cached m w.st.val := by
      refine Expr.Cached.congr _ hg fun a ha => ?_
      rcases ha with ha | ha
      · exact hg1 a (ho.bnd.ownV ha)
      · rw [Expr.reads_of_strip ho.bnd.strip] at ha
        rw [h.val a (reads_alive ho.alive a ha), hg2 a ha, hm a (reads_leaves (hsrc ▸ ha))]
    obtain ⟨s', h2⟩ := ho.bnd.evaluateAdj hcach seed
    refine ⟨⟨s', w.objs⟩, ?_, h.congr h2.vok h2.aok rfl ?_ ?_ ?_⟩
    · simp [Session.step, List.getElem?_eq_getElem hi, h2.run]
    · exact fun j hj hj' hj'' hoj => hoj.congr h2.vok h2.aok fun a _ => by rw [h2.val]
    · intro a ha
      rw [h2.val]; exact h.val a ha
    · intro a ha
      have hna : a ∉ w.objs[i].BA := fun hb => by
        have := (ho.ba a hb).2
        rw [ha] at this; cases this
      rw [h2.adj a hna, h.adj a ha]
      simp [User.step, he, replayAdj_append, replayAdj, hsrc]
  | setVal a x =>
    have ha : uv a = true := hc
    have hacc : accessible w.st.vok (some a) 1 := by
      intro k hk
      obtain rfl : k = 0 := by omega
      exact h.vok a ha
    have hfill : ∀ b, fillRange w.st.val a 1 (fun _ => x) b = Function.update w.st.val a x b := by
      intro b
      simp only [fillRange, Function.update_apply]
      by_cases hb : b = a
      · subst hb; simp
      · rw [if_neg (by omega), if_neg hb]
    refine ⟨⟨{ w.st with val := fillRange w.st.val a 1 fun _ => x }, w.objs⟩, ?_, h.congr rfl rfl rfl ?_ ?_ ?_⟩
    · simp only [Session.step, writeV_eq hacc]
      rfl
    · intro j hj hj' hj'' hoj
      refine hoj.congr rfl rfl fun b hb => ?_
      have : b ≠ a := by
        rintro rfl
        have := (hoj.bv b hb).2
        rw [ha] at this; cases this
      exact (hfill b).trans (by simp [this])
    · intro b hb
      refine (hfill b).trans ?_
      simp only [User.step]
      by_cases hba : b = a
      · subst hba; simp
      · simp [hba, h.val b hb]
    · exact h.adj
  | setAdj a x =>
    have ha : ua a = true := hc
    have hacc : accessible w.st.aok (some a) 1 := by
      intro k hk
      obtain rfl : k = 0 := by omega
      exact h.aok a ha
    refine ⟨⟨{ w.st with adj := fillRange w.st.adj a 1 fun _ => x }, w.objs⟩, ?_, h.congr rfl rfl rfl ?_ ?_ ?_⟩
    · simp only [Session.step, writeA_eq hacc]
      rfl
    · exact fun j hj hj' hj'' hoj => hoj.congr rfl rfl fun b _ => rfl
    · exact h.val
    · intro b hb
      simp only [User.step, replayAdj_append, replayAdj, fillRange]
      rw [← h.adj b hb]
      by_cases hba : b = a
      · subst hba; simp
      · rw [if_neg (by omega), if_neg hba]

/-- every legal sequence of calls is defined and preserves the invariant -/
theorem Inv.run {uv ua : ℕ → Bool} {adj0 : ℕ → ℝ} (cs : List (Call ℝ)) : ∀ {u : User ℝ} {w : Session ℝ}, Inv Expr.grad uv ua adj0 u w →
    Legal uv ua u w cs → ∃ w', w.run cs = some w' ∧ Inv Expr.grad uv ua adj0 (u.run cs) w' := by
  induction cs with
  | nil => intro u w h _; exact ⟨w, rfl, h⟩
  | cons c cs ih =>
    intro u w h hl
    obtain ⟨w1, hw1, h1⟩ := h.step c hl.1
    obtain ⟨w2, hw2, h2⟩ := ih h1 (hl.2 w1 hw1)
    exact ⟨w2, by simp [Session.run, hw1, hw2], h2⟩

theorem Inv.init (s : St ℝ) : Inv Expr.grad s.vok s.aok s.adj ⟨s.val, [], []⟩ ⟨s, []⟩ :=
  ⟨rfl, fun i hi => by simp at hi, fun i j hi => by simp at hi, fun _ h => h, fun _ h => h, fun _ _ => rfl, fun _ _ => rfl⟩

omit [HasInf ℝ] [LinAlg ℝ] in
theorem adjCells_alive {α : Type} {vok aok : ℕ → Bool} {e : Expr α} (h : e.Alive vok aok) : ∀ a ∈ e.adjCells, aok a = true := by
  intro a ha
  obtain ⟨v, hv, hr⟩ := mem_adjCells.1 ha
  obtain ⟨j, hj, rfl⟩ := mem_rng_iff.1 hr
  exact accessible_mem (h.1 v hv).2 hj

/-- Outcome of binding and differentiating an expression, as seen from the memory before the binding. -/
structure BindAutoOk (e : Expr ℝ) (qv qa : ℕ) (jv ja : ℕ → ℝ) (seed : ℕ → ℝ) (s s' : St ℝ) (r : Ref ℝ) : Prop where
  run : autodiff (bindExpr e qv qa jv ja s).1 seed (bindExpr e qv qa jv ja s).2 = some (s', r)
  val : ∀ a, s.vok a = true → s'.val a = s.val a
  adj : ∀ a, s.aok a = true → s'.adj a = s.adj a + e.grad s.val seed a
  value : r.read s' e.size = some (trunc e.size (e.denote s.val))

theorem bindExpr_autodiff {e : Expr ℝ} {s : St ℝ} {qv qa : ℕ} {jv ja : ℕ → ℝ} (hwf : e.WF) (hal : e.Alive s.vok s.aok)
    (hf : Fresh s e.bindSize qv qa) (seed : ℕ → ℝ) : ∃ s' r, BindAutoOk e qv qa jv ja seed s s' r := by
  have hb := bindExpr_bnd (jv := jv) (ja := ja) hwf hal hf
  have hv : ∀ a, s.vok a = true → ¬ (qv ≤ a ∧ a < qv + e.bindSize.val) := by
    rintro a ha ⟨h1, h2⟩
    have := hf.1 (a - qv) (by omega)
    rw [Nat.add_sub_cancel' h1, ha] at this
    cases this
  have hA : ∀ a, s.aok a = true → ¬ (qa ≤ a ∧ a < qa + e.bindSize.adj) := by
    rintro a ha ⟨h1, h2⟩
    have := hf.2 (a - qa) (by omega)
    rw [Nat.add_sub_cancel' h1, ha] at this
    cases this
  have hval : ∀ a, s.vok a = true → (bindExpr e qv qa jv ja s).2.val a = s.val a := fun a ha => if_neg (hv a ha)
  obtain ⟨s', r, h⟩ := hb.autodiff (m := s.val) (fun a ha => hval a (reads_alive hal a ha)) seed
  refine ⟨s', r, h.run, fun a ha => ?_, fun a ha => ?_, h.value⟩
  · rw [h.val a (by simpa [blockV, mem_rng, addr_some] using hv a ha), hval a ha]
  · rw [h.adj a (by simpa [blockA, mem_rng, addr_some] using hA a ha)]
    congr 1
    exact if_neg (hA a ha)

end FastAD
