import Verif.Proof.Var
import Verif.Proof.Session
import Verif.Proof.Linear

/-!
# Expressions built from variables and views
-/

namespace FastAD

section
variable {α : Type} {s : St α} {A : AVars α} {w : Vars α}

/-- what is known about a living variable -/
structure LiveVar (w : Vars α) (i : ℕ) (sh : Shape) (x y : ℕ → α) (t d : Store) : Prop where
  v : w.v.slots i = some t
  a : w.a.slots i = some d
  tp : t.ptr = t.p
  dp : d.ptr = d.p
  tn : t.n = sh.size
  dn : d.n = sh.size
  shape : w.shape i = sh
  tacc : accessible w.v.ok t.p t.n
  dacc : accessible w.a.ok d.p d.n
  tval : ∀ k < sh.size, w.v.cell (addr t.p + k) = x k
  dval : ∀ k < sh.size, w.a.cell (addr d.p + k) = y k

theorem WRel.live (h : WRel s A w) {i : ℕ} {sh : Shape} {x y : ℕ → α} (hi : A.var i = some (.live sh x y)) : ∃ t d, LiveVar w i sh x y t d := by
  have hv : A.vals i = some (some x) := by rw [AVars.vals, hi]; rfl
  have ha : A.adjs i = some (some y) := by rw [AVars.adjs, hi]; rfl
  obtain ⟨t, ht⟩ := h.v.ex hv
  obtain ⟨d, hd⟩ := h.a.ex ha
  have hsh : w.shape i = sh := h.shape i _ hi
  obtain ⟨h1, h2, h3⟩ := h.v.live i x t hv ht
  obtain ⟨h4, h5, h6⟩ := h.a.live i y d ha hd
  rw [hsh] at h2 h5
  exact ⟨t, d, ht, hd, h1, h4, h2, h5, hsh, (h.v.own i t ht).1, (h.a.own i d hd).1, by rwa [← h2], by rwa [← h5]⟩

theorem LiveVar.view {i : ℕ} {sh : Shape} {x y : ℕ → α} {t d : Store} (h : LiveVar w i sh x y t d) : w.view i = some ⟨sh, t.p, d.p⟩ := by
  simp [Vars.view, h.v, h.a, h.tp, h.dp, h.shape]

/-- a leaf, in terms of the storage of its variable -/
structure LeafOf (A : AVars α) (w : Vars α) (v : View) (i : ℕ) (t d : Store) (o o' : ℕ) : Prop where
  live : ∃ sh x y, A.var i = some (.live sh x y) ∧ LiveVar w i sh x y t d
  val : v.val = t.p.map (· + o)
  adj : v.adj = d.p.map (· + o')
  same : v.size ≠ 0 → o = o'
  le : o + v.size ≤ t.n
  le' : o' + v.size ≤ d.n

theorem WRel.varLeaf (h : WRel s A w) {v : View} {i : ℕ} {sh : Shape} {x y : ℕ → α} (hi : A.var i = some (.live sh x y)) (hv : w.view i = some v) :
    ∃ t d, LeafOf A w v i t d 0 0 := by
  obtain ⟨t, d, hl⟩ := h.live hi
  rw [hl.view] at hv
  cases hv
  exact ⟨t, d, ⟨sh, x, y, hi, hl⟩, by simp, by simp, fun _ => rfl, by simp [View.size, hl.tn], by simp [View.size, hl.dn]⟩

theorem WRel.viewLeaf (h : WRel s A w) {k i : ℕ} {l : List ℕ} {sh : Shape} (hk : A.view k = some (i, l, sh)) :
    ∃ t d o o', LeafOf A w (w.subview k) i t d o o' ∧ l = List.range' o l.length ∧ l = List.range' o' l.length ∧ l.length = (w.subview k).size ∧ (w.subview k).shape = sh := by
  have hvw : A.vw k = some (i, l) := by rw [AVars.vw, hk]; rfl
  obtain ⟨x, t, o, hv, ht, hp, hl, hb⟩ := h.v.view k i l hvw
  obtain ⟨y, d, o', ha, hd, hp', hl', hb'⟩ := h.a.view k i l hvw
  obtain ⟨hsh, hlen⟩ := h.vshape k i l sh hk
  have hsz : l.length = (w.subview k).size := by rw [hlen, View.size, Vars.subview, hsh]
  obtain ⟨u, hu, hux⟩ := Option.map_eq_some_iff.1 hv
  cases u with
  | moved sh' => cases hux
  | live sh' x' y' =>
    obtain ⟨t', d', hlv⟩ := h.live hu
    obtain rfl : t = t' := by simpa using ht.symm.trans hlv.v
    obtain rfl : d = d' := by simpa using hd.symm.trans hlv.a
    have hs1 : w.shape i = sh' := hlv.shape
    rw [hs1] at hb hb'
    refine ⟨t, d, o, o', ⟨⟨sh', x', y', hu, hlv⟩, hp, hp', fun h0 => ?_, by rw [← hsz, hlv.tn]; exact hb, by rw [← hsz, hlv.dn]; exact hb'⟩, hl, hl', hsz, hsh⟩
    have h1 : 0 < l.length := by omega
    have e1 := congrArg (·[0]?) hl
    have e2 := congrArg (·[0]?) hl'
    simp only [List.getElem?_range' h1] at e1 e2
    have := e1.symm.trans e2
    simpa using this

theorem WRel.leaf (h : WRel s A w) {v : View} (hv : IsLeaf A w v) : ∃ i t d o o', LeafOf A w v i t d o o' := by
  rcases hv with ⟨i, sh, x, y, hi, hw⟩ | ⟨k, ⟨i, l, sh⟩, hk, rfl⟩
  · obtain ⟨t, d, h⟩ := h.varLeaf hi hw
    exact ⟨i, t, d, 0, 0, h⟩
  · obtain ⟨t, d, o, o', h, -⟩ := h.viewLeaf hk
    exact ⟨i, t, d, o, o', h⟩

theorem addr_map_add {p : Option ℕ} {o k n : ℕ} (hp : p = none → n = 0) (hk : k < n) : addr (p.map (· + o)) + k = addr p + (o + k) := by
  cases p with
  | none => have := hp rfl; omega
  | some q => simp [addr, Nat.add_assoc]

theorem LeafOf.cell {v : View} {i : ℕ} {t d : Store} {o o' : ℕ} (h : LeafOf A w v i t d o o') {k : ℕ} (hk : k < v.size) :
    addr v.val + k = addr t.p + (o + k) ∧ addr v.adj + k = addr d.p + (o + k) ∧ o + k < t.n ∧ o + k < d.n := by
  obtain ⟨sh, x, y, -, hl⟩ := h.live
  have ho := h.same (by omega)
  have h1 := h.le
  have h2 := h.le'
  refine ⟨?_, ?_, by omega, by omega⟩
  · rw [h.val]
    exact addr_map_add (n := t.n) (fun h0 => by have := hl.tacc; rw [h0] at this; exact this) (by omega)
  · rw [h.adj, ho]
    exact addr_map_add (n := d.n) (fun h0 => by have := hl.dacc; rw [h0] at this; exact this) (by omega)

theorem accessible_part {ok : ℕ → Bool} {p : Option ℕ} {n o m : ℕ} (h : accessible ok p n) (hle : o + m ≤ n) : accessible ok (p.map (· + o)) m := by
  cases p with
  | none => have : n = 0 := h; show m = 0; omega
  | some q =>
    intro k hk
    have := h (o + k) (by omega)
    simpa [Nat.add_assoc] using this

theorem LeafOf.alive {v : View} {i : ℕ} {t d : Store} {o o' : ℕ} (h : LeafOf A w v i t d o o') :
    accessible w.st.vok v.val v.size ∧ accessible w.st.aok v.adj v.size := by
  obtain ⟨sh, x, y, -, hl⟩ := h.live
  rw [h.val, h.adj]
  exact ⟨accessible_part hl.tacc h.le, accessible_part hl.dacc h.le'⟩

/-- element `m` of a living variable is identified by its adjoint cell -/
theorem WRel.inj (h : WRel s A w) {i j : ℕ} {sh sh' : Shape} {x y x' y' : ℕ → α} {t d t' d' : Store} (hi : LiveVar w i sh x y t d) (hj : LiveVar w j sh' x' y' t' d')
    {m m' : ℕ} (hm : m < sh.size) (hm' : m' < sh'.size) (he : addr d.p + m = addr d'.p + m') : i = j ∧ m = m' := by
  by_cases hij : i = j
  · subst hij
    obtain rfl : d = d' := by simpa using hi.a.symm.trans hj.a
    exact ⟨rfl, by omega⟩
  · have h1 := hi.dn
    have h2 := hj.dn
    exact (h.a.disj i j d d' hij hi.a hj.a (addr d.p + m) ⟨by omega, by omega⟩ ⟨by omega, by omega⟩).elim

theorem WRel.injV (h : WRel s A w) {i j : ℕ} {sh sh' : Shape} {x y x' y' : ℕ → α} {t d t' d' : Store} (hi : LiveVar w i sh x y t d) (hj : LiveVar w j sh' x' y' t' d')
    {m m' : ℕ} (hm : m < sh.size) (hm' : m' < sh'.size) (he : addr t.p + m = addr t'.p + m') : i = j ∧ m = m' := by
  by_cases hij : i = j
  · subst hij
    obtain rfl : t = t' := by simpa using hi.v.symm.trans hj.v
    exact ⟨rfl, by omega⟩
  · have h1 := hi.tn
    have h2 := hj.tn
    exact (h.v.disj i j t t' hij hi.v hj.v (addr t.p + m) ⟨by omega, by omega⟩ ⟨by omega, by omega⟩).elim

open Classical in
/-- the value cell of the variable element whose adjoint is cell `a` -/
noncomputable def Vars.pair (w : Vars α) (A : AVars α) (a : ℕ) : ℕ :=
  if h : ∃ b i m sh x y t d, A.var i = some (.live sh x y) ∧ LiveVar w i sh x y t d ∧ m < sh.size ∧ a = addr d.p + m ∧ b = addr t.p + m then h.choose else a

theorem WRel.pair_eq (h : WRel s A w) {i m : ℕ} {sh : Shape} {x y : ℕ → α} {t d : Store} (hi : A.var i = some (.live sh x y)) (hl : LiveVar w i sh x y t d) (hm : m < sh.size) :
    w.pair A (addr d.p + m) = addr t.p + m := by
  have hex : ∃ b i' m' sh' x' y' t' d', A.var i' = some (.live sh' x' y') ∧ LiveVar w i' sh' x' y' t' d' ∧ m' < sh'.size ∧ addr d.p + m = addr d'.p + m' ∧ b = addr t'.p + m' :=
    ⟨_, i, m, sh, x, y, t, d, hi, hl, hm, rfl, rfl⟩
  unfold Vars.pair
  rw [dif_pos hex]
  obtain ⟨i', m', sh', x', y', t', d', -, hl', hm', he, hb⟩ := hex.choose_spec
  obtain ⟨rfl, rfl⟩ := h.inj hl hl' hm hm' he
  obtain rfl : t = t' := by simpa using hl.v.symm.trans hl'.v
  exact hb

end

variable {s : St ℝ} {A : AVars ℝ} {w : Vars ℝ}

theorem WRel.exprAlive (h : WRel s A w) {e : Expr ℝ} (hv : ∀ v ∈ e.vars, IsLeaf A w v) (hc : ∀ c ∈ e.cviews, accessible s.vok c.2 c.1.size) : e.Alive w.st.vok w.st.aok := by
  refine ⟨fun v hv' => ?_, fun c hc' => ?_⟩
  · obtain ⟨i, t, d, o, o', hl⟩ := h.leaf (hv v hv')
    exact hl.alive
  · have := hc c hc'
    cases hp : c.2 with
    | none => rw [hp] at this; exact this
    | some q =>
      rw [hp] at this
      exact fun k hk => (h.v.base _ (this k hk)).1

theorem WRel.paired (h : WRel s A w) {e : Expr ℝ} (hv : ∀ v ∈ e.vars, IsLeaf A w v) : e.Paired (w.pair A) := by
  intro v hv' k hk
  obtain ⟨i, t, d, o, o', hl⟩ := h.leaf (hv v hv')
  obtain ⟨h1, h2, h3, h4⟩ := hl.cell hk
  obtain ⟨sh, x, y, hi, hlv⟩ := hl.live
  rw [h1, h2]
  exact h.pair_eq hi hlv (by rw [← hlv.tn]; exact h3)

/-- an adjoint cell of a leaf belongs to an element of a living variable -/
theorem WRel.adjCell (h : WRel s A w) {e : Expr ℝ} (hv : ∀ v ∈ e.vars, IsLeaf A w v) {a : ℕ} (ha : a ∈ e.adjCells) :
    ∃ i m sh x y t d, A.var i = some (.live sh x y) ∧ LiveVar w i sh x y t d ∧ m < sh.size ∧ a = addr d.p + m := by
  obtain ⟨v, hv', hr⟩ := mem_adjCells.1 ha
  obtain ⟨k, hk, rfl⟩ := mem_rng_iff.1 hr
  obtain ⟨i, t, d, o, o', hl⟩ := h.leaf (hv v hv')
  obtain ⟨h1, h2, h3, h4⟩ := hl.cell hk
  obtain ⟨sh, x, y, hi, hlv⟩ := hl.live
  exact ⟨i, o + k, sh, x, y, t, d, hi, hlv, by rw [← hlv.tn]; exact h3, h2⟩

theorem WRel.pair_inj (h : WRel s A w) {e : Expr ℝ} (hv : ∀ v ∈ e.vars, IsLeaf A w v) : Set.InjOn (w.pair A) e.adjCells := by
  intro a ha b hb hab
  obtain ⟨i, m, sh, x, y, t, d, hi, hl, hm, rfl⟩ := h.adjCell hv ha
  obtain ⟨i', m', sh', x', y', t', d', hi', hl', hm', rfl⟩ := h.adjCell hv hb
  rw [h.pair_eq hi hl hm, h.pair_eq hi' hl' hm'] at hab
  obtain ⟨rfl, rfl⟩ := h.injV hl hl' hm hm' hab
  obtain rfl : d = d' := by simpa using hl.a.symm.trans hl'.a
  rfl

theorem WRel.pair_const (h : WRel s A w) {e : Expr ℝ} (hv : ∀ v ∈ e.vars, IsLeaf A w v) (hc : ∀ c ∈ e.cviews, accessible s.vok c.2 c.1.size) :
    ∀ a ∈ e.adjCells, w.pair A a ∉ e.constCells := by
  intro a ha hb
  obtain ⟨i, m, sh, x, y, t, d, hi, hl, hm, rfl⟩ := h.adjCell hv ha
  rw [h.pair_eq hi hl hm] at hb
  obtain ⟨c, hc', hr⟩ := mem_constCells.1 hb
  obtain ⟨k, hk, he⟩ := mem_rng_iff.1 hr
  have hok : s.vok (addr t.p + m) = true := by
    rw [he]; exact accessible_mem (hc c hc') hk
  have := hl.tn
  exact (h.v.base _ hok).2.2 i t hl.v ⟨by omega, by omega⟩

/-- the adjoint of a variable element is an adjoint cell of an expression exactly if a leaf shows the element -/
theorem WRel.shown (h : WRel s A w) {e : Expr ℝ} (hv : ∀ v ∈ e.vars, IsLeaf A w v) {i m : ℕ} {sh : Shape} {x y : ℕ → ℝ} {t d : Store} (hi : A.var i = some (.live sh x y)) (hl : LiveVar w i sh x y t d)
    (hm : m < sh.size) : addr d.p + m ∈ e.adjCells ↔ ∃ v ∈ e.vars, Shows A w v i m := by
  constructor
  · intro ha
    obtain ⟨v, hv', hr⟩ := mem_adjCells.1 ha
    obtain ⟨k, hk, he⟩ := mem_rng_iff.1 hr
    refine ⟨v, hv', ?_⟩
    rcases hv v hv' with ⟨i', sh', x', y', hi', hw⟩ | ⟨k', ⟨i', l, sh'⟩, hk', rfl⟩
    · obtain ⟨t', d', hlf⟩ := h.varLeaf hi' hw
      obtain ⟨h1, h2, h3, h4⟩ := hlf.cell hk
      obtain ⟨sh2, x2, y2, hi2, hl2⟩ := hlf.live
      obtain ⟨rfl, rfl⟩ := h.inj hl hl2 hm (by rw [← hl2.tn]; exact h3) (he.trans h2)
      exact .inl ⟨hw, sh, x, y, hi, hm⟩
    · obtain ⟨t', d', o, o', hlf, hr1, hr2, hlen, hsh⟩ := h.viewLeaf hk'
      obtain ⟨h1, h2, h3, h4⟩ := hlf.cell hk
      obtain ⟨sh2, x2, y2, hi2, hl2⟩ := hlf.live
      obtain ⟨rfl, rfl⟩ := h.inj hl hl2 hm (by rw [← hl2.tn]; exact h3) (he.trans h2)
      refine .inr ⟨k', l, sh', hk', rfl, ?_⟩
      rw [hr1, List.mem_range'_1]
      omega
  · rintro ⟨v, hv', hsh⟩
    rw [mem_adjCells]
    refine ⟨v, hv', mem_rng_iff.2 ?_⟩
    rcases hsh with ⟨hw, sh', x', y', hi', hm'⟩ | ⟨k', l, sh', hk', rfl, hml⟩
    · rw [hl.view] at hw
      cases hw
      exact ⟨m, hm, rfl⟩
    · obtain ⟨t', d', o, o', hlf, hr1, hr2, hlen, hsh⟩ := h.viewLeaf hk'
      rw [hr1, List.mem_range'_1] at hml
      obtain ⟨sh2, x2, y2, hi2, hl2⟩ := hlf.live
      obtain ⟨h1, h2, h3, h4⟩ := hlf.cell (k := m - o) (by omega)
      obtain rfl : d = d' := by simpa using hl.a.symm.trans hl2.a
      exact ⟨m - o, by omega, by rw [h2]; omega⟩

end FastAD
