import Verif.Spec.Density
import Mathlib.Analysis.Calculus.FDeriv.Basic

/-!
# Log-density nodes

What it means for a log-density node to compute a log-density over its whole lifetime.
-/

namespace FastAD

noncomputable section

/-- data members of a node after its construction when the operands had the values `v0`, and evaluations at the values `h` (latest first) -/
def StatNode.run {α : Type} (N : StatNode α) (v0 : Args α) : List (Args α) → Option N.Cache
  | [] => N.ctor v0
  | v :: h => do
    let c ← N.run v0 h
    let r ← N.feval c v
    some r.1

/-- constant operands have the values they had at construction -/
def SameConsts {α : Type} (k : Kinds) (v0 v : Args α) : Prop := ∀ s, k.get s = .const → v.get s = v0.get s

/-- total seed that a list of `beval` calls hands to coefficient `i` of operand `s` -/
def seedOf (l : List (Slot × (ℕ → ℝ))) (s : Slot) (i : ℕ) : ℝ := (l.map fun c => if c.1 = s then c.2 i else 0).sum

/-- the derivative of a function of the operands, given the derivatives `D` of the operands and the seeds (`dim`: sizes of the operands) -/
def chain {E : Type} [NormedAddCommGroup E] [NormedSpace ℝ E] (dim : Slot → ℕ) (g : Slot → ℕ → ℝ) (D : Slot → ℕ → E →L[ℝ] ℝ) : E →L[ℝ] ℝ :=
  (∑ i ∈ Finset.range (dim .x), g .x i • D .x i) + (∑ i ∈ Finset.range (dim .a), g .a i • D .a i) + ∑ i ∈ Finset.range (dim .b), g .b i • D .b i

/-- The evaluation part: whatever happened before (construction at `v0`, evaluations `h`), evaluating the node at `v` is defined and gives `f v`;
`P c v` holds of the data members after it.  `Adm` are the admissible operand values, `Hist` restricts the history. -/
def Evaluates (N : StatNode ℝ) (k : Kinds) (Adm : Args ℝ → Prop) (Hist : Args ℝ → List (Args ℝ) → Prop) (f : Args ℝ → ℝ)
    (P : N.Cache → Args ℝ → Prop) : Prop :=
  ∀ v0 h v, Hist v0 (v :: h) → (∀ w ∈ v :: h, Adm w ∧ SameConsts k v0 w) → Adm v0 →
    ∃ c c', N.run v0 h = some c ∧ N.feval c v = some (c', f v) ∧ P c' v

/-- The seeds are the gradient: the operands may depend in any differentiable way on a parameter of any normed space (constants do not vary);
then `seed` times the value of the log-density has the derivative obtained by the chain rule from the seeds handed out by `beval`. -/
def SeedGradient (k : Kinds) (dim : Slot → ℕ) (Adm : Args ℝ → Prop) (f : Args ℝ → ℝ) (v : Args ℝ) (seed : ℝ) (l : List (Slot × (ℕ → ℝ))) : Prop :=
  ∀ (E : Type) [NormedAddCommGroup E] [NormedSpace ℝ E] (V : E → Args ℝ) (D : Slot → ℕ → E →L[ℝ] ℝ) (t0 : E), V t0 = v → (∀ t, Adm (V t)) →
    (∀ s, ∀ i < dim s, HasFDerivAt (fun t => (V t).get s i) (D s i) t0) →
    (∀ s, k.get s = .const → ∀ i < dim s, D s i = 0 ∧ ∀ t, (V t).get s i = v.get s i) →
    HasFDerivAt (fun t => seed * f (V t)) (chain dim (seedOf l) D) t0

/-- sizes of the operands of a node with `n` observations -/
def sdim (sa sb : Bool) (n : ℕ) : Slot → ℕ
  | .x => n
  | .a => pdim sa n
  | .b => pdim sb n

/-- sizes of the operands of a normal node with matrix sigma -/
def mdim (sm : Bool) (n : ℕ) : Slot → ℕ
  | .x => n
  | .a => pdim sm n
  | .b => n * n

/-- sizes of the operands of a Wishart node -/
def wdim (p : ℕ) : Slot → ℕ
  | .x => p * p
  | .a => p * p
  | .b => 1

/-- sizes of the operands of a Bernoulli node (there is no third operand) -/
def bdim (sp : Bool) (n : ℕ) : Slot → ℕ
  | .x => n
  | .a => pdim sp n
  | .b => 0

/-- What a Bernoulli node should do: as `Computes`, but the outcomes are discrete, so that they do not vary in the gradient. -/
def ComputesMass [HasInf ℝ] (N : StatNode ℝ) (k : Kinds) (sp : Bool) (n : ℕ) (silent : Args ℝ → Prop) : Prop :=
  Evaluates N k (fun _ => True) (fun _ _ => True) (orNegInf (MassPos sp n) (bernoulliLog sp n)) fun c v => ∀ seed,
    (MassPos sp n v → ProbSmooth sp n v →
      SeedGradient { k with x := .const } (bdim sp n) (fun _ => True) (orNegInf (MassPos sp n) (bernoulliLog sp n)) v seed (N.beval c v seed)) ∧
    (silent v ∨ seed = 0 → N.beval c v seed = [])

/-- **What a log-density node should do**: at every point of its life, evaluation is defined and gives the log-density `logp` where `valid`, and -infinity elsewhere;
the seeds handed out by the following `beval` are then the gradient (where the log-density is `Smooth`); for invalid arguments, or a zero seed, `beval` of the
operands is not called.  `Seeds` restricts the seed; it is `fun _ => True` unless stated otherwise. -/
def Computes [HasInf ℝ] (N : StatNode ℝ) (k : Kinds) (dim : Slot → ℕ) (Adm : Args ℝ → Prop) (Hist : Args ℝ → List (Args ℝ) → Prop) (valid Smooth : Args ℝ → Prop)
    (logp : Args ℝ → ℝ) (Seeds : ℝ → Prop) : Prop :=
  Evaluates N k Adm Hist (orNegInf valid logp) fun c v => ∀ seed, Seeds seed →
    (valid v → Smooth v → SeedGradient k dim Adm (orNegInf valid logp) v seed (N.beval c v seed)) ∧
    (¬ valid v ∨ seed = 0 → N.beval c v seed = [])

end

end FastAD
