import Verif.Proof.Ownership
import Verif.Props.World
import Verif.Props.Objects

/-!
# C62: memory is given back exactly once

In the models a destructor that frees memory which is not allocated (any more) is undefined behaviour (`Half.free`, `St.free`), so the two theorems exclude double frees (the run
is defined) and leaks (every allocated cell has an owner that exists).
-/

namespace FastAD

section
variable [HasInf ℝ] [LinAlg ℝ]

/-- **C62.** In every legal program of variables, views and bound expressions (see `C61_programs_partial`): the run is defined, in particular no memory is freed twice; at the end (of any
prefix, the program being arbitrary) a cell is allocated if and only if it has an owner, the owner is unique and exists as the user sees it: the user, a variable, or a bound object; a
variable with `n` elements owns `n` value cells and `n` adjoint cells; and when all variables and bound objects are gone, exactly the memory that was allocated at the beginning is allocated. -/
theorem C62_programs {u : St ℝ} {cs : List (WorldAct ℝ)} {A : AWorld ℝ} {xs : List (ℕ → ℝ)} (hl : LegalActs Expr.backward u AWorld.init (World.init u) cs)
    (hs : AWorld.init.run Expr.backward u.val cs = some (A, xs)) :
    ∃ w, (World.init u).run cs = some (w, xs) ∧
      (∀ a, (w.vars.st.vok a = true ↔ ∃! o, w.HoldsV u a o) ∧ (w.vars.st.aok a = true ↔ ∃! o, w.HoldsA u a o)) ∧
      (∀ a o, w.HoldsV u a o ∨ w.HoldsA u a o → A.Exists o) ∧
      (∀ i sh x y, A.vars.var i = some (.live sh x y) → ∃ t d, w.vars.v.slots i = some t ∧ w.vars.a.slots i = some d ∧ t.n = sh.size ∧ d.n = sh.size) ∧
      ((∀ i, A.vars.var i = none) → (∀ n, A.objs n = none) → w.vars.st.vok = u.vok ∧ w.vars.st.aok = u.aok) := by
  obtain ⟨w, s, hw, h⟩ := (WInv.init u).run hl hs
  refine ⟨w, hw, fun a => ⟨?_, ?_⟩, fun a o ho => ho.elim ((h.holdsV a).2.2 o) ((h.holdsA a).2.2 o), fun i sh x y hi => ?_, fun h1 h2 => ⟨?_, ?_⟩⟩
  · obtain ⟨g1, g2, -⟩ := h.holdsV a
    exact g1.trans ⟨fun ⟨o, ho⟩ => ⟨o, ho, fun o' ho' => g2 o' o ho' ho⟩, fun ⟨o, ho, _⟩ => ⟨o, ho⟩⟩
  · obtain ⟨g1, g2, -⟩ := h.holdsA a
    exact g1.trans ⟨fun ⟨o, ho⟩ => ⟨o, ho, fun o' ho' => g2 o' o ho' ho⟩, fun ⟨o, ho, _⟩ => ⟨o, ho⟩⟩
  · obtain ⟨t, d, hl⟩ := h.rel.live hi
    exact ⟨t, d, hl.v, hl.a, hl.tn, hl.dn⟩
  · have hno : ∀ o, A.Exists o → o = .user := by
      rintro (_ | i | n) ho
      · rfl
      · simp [AWorld.Exists, h1] at ho
      · simp [AWorld.Exists, h2] at ho
    funext a
    obtain ⟨g1, -, g3⟩ := h.holdsV a
    rw [Bool.eq_iff_iff, g1]
    exact ⟨fun ⟨o, ho⟩ => by rw [hno o (g3 o ho)] at ho; exact ho, fun ha => ⟨.user, ha⟩⟩
  · have hno : ∀ o, A.Exists o → o = .user := by
      rintro (_ | i | n) ho
      · rfl
      · simp [AWorld.Exists, h1] at ho
      · simp [AWorld.Exists, h2] at ho
    funext a
    obtain ⟨g1, -, g3⟩ := h.holdsA a
    rw [Bool.eq_iff_iff, g1]
    exact ⟨fun ⟨o, ho⟩ => by rw [hno o (g3 o ho)] at ho; exact ho, fun ha => ⟨.user, ha⟩⟩

/-- **C62 for copies and moves of `ExprBind` objects.** In every legal sequence of bindings, copies, moves, destructions and uses (see `C31_sharing_partial`): the run is defined, in
particular no cache is freed twice (also when copies, which share pointers, are destroyed); a cell is allocated if and only if it has an owner, which is unique and exists;
and when all objects are gone, exactly the memory that was allocated at the beginning is allocated. -/
theorem C62_objects {s : St ℝ} {cs : List (ObjCall ℝ)} (hl : (Sharing.init s.val).Legal s.vok s.aok ⟨s, fun _ => none⟩ cs) :
    ∃ w u, (Objects.mk s fun _ => none).run cs = some w ∧ (Sharing.init s.val).run cs = some u ∧
      (∀ a, (w.st.vok a = true ↔ ∃! o, w.HoldsV s a o) ∧ (w.st.aok a = true ↔ ∃! o, w.HoldsA s a o)) ∧
      (∀ a o, w.HoldsV s a o ∨ w.HoldsA s a o → u.Exists o) ∧
      ((∀ n, u.objs n = none) → w.st.vok = s.vok ∧ w.st.aok = s.aok) := by
  obtain ⟨w, u, hw, hu, h⟩ := (OInv.init s).run cs hl
  refine ⟨w, u, hw, hu, fun a => ⟨?_, ?_⟩, fun a o ho => ho.elim ((h.holdsV a).2.2 o) ((h.holdsA a).2.2 o), fun h2 => ⟨?_, ?_⟩⟩
  · obtain ⟨g1, g2, -⟩ := h.holdsV a
    exact g1.trans ⟨fun ⟨o, ho⟩ => ⟨o, ho, fun o' ho' => g2 o' o ho' ho⟩, fun ⟨o, ho, _⟩ => ⟨o, ho⟩⟩
  · obtain ⟨g1, g2, -⟩ := h.holdsA a
    exact g1.trans ⟨fun ⟨o, ho⟩ => ⟨o, ho, fun o' ho' => g2 o' o ho' ho⟩, fun ⟨o, ho, _⟩ => ⟨o, ho⟩⟩
  · have hno : ∀ o, u.Exists o → o = .user := by
      rintro (_ | i | n) ho
      · rfl
      · exact ho.elim
      · simp [Sharing.Exists, h2] at ho
    funext a
    obtain ⟨g1, -, g3⟩ := h.holdsV a
    rw [Bool.eq_iff_iff, g1]
    exact ⟨fun ⟨o, ho⟩ => by rw [hno o (g3 o ho)] at ho; exact ho, fun ha => ⟨.user, ha⟩⟩
  · have hno : ∀ o, u.Exists o → o = .user := by
      rintro (_ | i | n) ho
      · rfl
      · exact ho.elim
      · simp [Sharing.Exists, h2] at ho
    funext a
    obtain ⟨g1, -, g3⟩ := h.holdsA a
    rw [Bool.eq_iff_iff, g1]
    exact ⟨fun ⟨o, ho⟩ => by rw [hno o (g3 o ho)] at ho; exact ho, fun ha => ⟨.user, ha⟩⟩

open SampleWorld in
/-- `Var x(2); auto f = bind(sum(sin(x))); Var y(std::move(x)); x = y; autodiff(f);` and the end of all lives: the assignment finds `x` without buffer and allocates a new one -/
def SampleWorld.cycle : List (WorldAct ℝ) :=
  [.var (.create 0 (.vec 2) 0 0 0), .var (.view 0 0 .whole), .bind 0 e0 [(0, v0)] 10 10 (fun _ => 0) (fun _ => 0), .var (.move 1 0 30 30), .var (.assign 0 1 40 40),
    .autodiff 0 (fun _ => 1), .drop 0, .var (.destroy 0), .var (.destroy 1)]

open SampleWorld in
/-- C62 applies to this program, and nothing exists at its end -/
example : LegalActs Expr.backward u0 AWorld.init (World.init u0) cycle ∧ ∃ A x, AWorld.init.run Expr.backward u0.val cycle = some (A, [x]) ∧
    (∀ i, A.vars.var i = none) ∧ ∀ n, A.objs n = none := by
  refine ⟨?_, _, _, rfl, fun i => ?_, fun n => ?_⟩
  · have noobj : ∀ (A : AWorld ℝ), A.objs = (fun _ => none) → ∀ {c : VarStep ℝ} n o, A.objs n = some o → ∀ p ∈ o.leaves, c.newView ≠ some p.1 := by
      intro A hA c n o ho
      rw [hA] at ho; cases ho
    refine ⟨⟨⟨by decide, by decide⟩, noobj _ rfl⟩, fun A1 w1 x1 x1' hA hw => ?_⟩
    cases hA; cases hw
    refine ⟨⟨trivial, noobj _ rfl⟩, fun A3 w3 x3 x3' hA hw => ?_⟩
    cases hA; cases hw
    refine ⟨⟨rfl, .inl ?_, fun p hp => ?_, fun v hv => ⟨0, ?_⟩, fun c hc => ?_, by decide, by decide⟩, fun A4 w4 x4 x4' hA hw => ?_⟩
    · simp [e0, v0, Expr.WF, Expr.mkUnary, Expr.mkReduce, Exprs.WFs, Exprs.toList, Expr.shape, Expr.view, View.null, Shape.vec, Shape.scl, Shape.Ok, Expr.isIf, RedOp.ShapeOk]
    · obtain rfl := List.mem_singleton.1 hp
      exact ⟨rfl, rfl, List.mem_singleton.2 rfl⟩
    · obtain rfl := List.mem_singleton.1 hv
      exact List.mem_singleton.2 rfl
    · cases hc
    cases hA; cases hw
    refine ⟨⟨⟨by decide, by decide⟩, by intro n o ho p hp h; cases h⟩, fun A5 w5 x5 x5' hA hw => ?_⟩
    cases hA; cases hw
    refine ⟨⟨⟨by decide, by decide⟩, by intro n o ho p hp h; cases h⟩, fun A6 w6 x6 x6' hA hw => ?_⟩
    cases hA; cases hw
    refine ⟨fun o ho p hp => ?_, fun A8 w8 x8 x8' hA hw => ⟨trivial, fun A9 w9 x9 x9' hA hw => ⟨⟨trivial, by intro n o ho p hp h; cases h⟩, fun _ _ _ _ _ _ =>
      ⟨⟨trivial, by intro n o ho p hp h; cases h⟩, fun _ _ _ _ _ _ => trivial⟩⟩⟩⟩
    obtain rfl := Option.some.inj (show some _ = some o from ho)
    obtain rfl := List.mem_singleton.1 hp
    rfl
  · by_cases h1 : i = 1
    · subst h1; rfl
    · by_cases h0 : i = 0
      · subst h0; rfl
      · simp [AVars.become, AVars.set, AVars.forget, AVars.follow, AWorld.init, AVars.none, h1, h0]
  · by_cases h0 : n = 0
    · subst h0; rfl
    · simp [AWorld.init, h0]

/-- C62 applies to a sequence that copies an object, destroys the copy and the original, and nothing exists at its end -/
example : (Sharing.init Sample.s.val).Legal Sample.s.vok Sample.s.aok ⟨Sample.s, fun _ => none⟩
      [.bind 0 Sample.expx 10 10 (fun _ => 0) (fun _ => 0), .copy 1 0 20 20, .move 2 0, .destroy 2, .destroy 0, .destroy 1] ∧
    ∃ u, (Sharing.init Sample.s.val).run [.bind 0 Sample.expx 10 10 (fun _ => 0) (fun _ => 0), .copy 1 0 20 20, .move 2 0, .destroy 2, .destroy 0, .destroy 1] = some u ∧
      ∀ n, u.objs n = none := by
  refine ⟨⟨⟨Sample.expx_wf, Sample.expx_alive, Sample.expx_fresh⟩, _, rfl, fun _ h1 => ⟨Sample.copy_fresh h1, _, rfl, fun _ _ => ⟨trivial, _, rfl, fun _ _ =>
    ⟨trivial, _, rfl, fun _ _ => ⟨trivial, _, rfl, fun _ _ => ⟨trivial, _, rfl, fun _ _ => trivial⟩⟩⟩⟩⟩⟩, _, rfl, fun n => ?_⟩
  by_cases h0 : n = 0
  · subst h0; rfl
  · by_cases h1 : n = 1
    · subst h1; rfl
    · by_cases h2 : n = 2
      · subst h2; rfl
      · simp [Sharing.init, h0, h1, h2]

/-- freeing a cache a second time is undefined behaviour in the models -/
example : ((World.init SampleWorld.u0).vars.st.free ⟨1, 1⟩ 10 10) = none := if_neg fun h => absurd (h.1 0 Nat.one_pos) (by decide)

end

end FastAD
