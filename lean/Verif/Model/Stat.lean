import Verif.Model.Memory

/-!
# The log-density nodes

`include/fastad_bits/reverse/stat/*.hpp`.  Every log-density node keeps data members computed from its operands, some of them already in
the constructor (for operands whose type is a constant), the others at every `feval`.  A node is modelled as a state machine: the data members
are the state; the values of the operands at the time of each call are given as arguments.  Undefined behaviour (reading an operand that has no
memory yet, Eigen reductions of an empty vector that assert) is `none`.

All operands are given as coefficient functions; a scalar is coefficient 0, a matrix is stored column-major.  Coefficient types are not
distinguished (`bernoulli` and `wishart` allow integers for `x` and `n`).
-/

namespace FastAD

/-- operand values: `x`; `a` is mean/loc/min/p/v; `b` is sigma/scale/max/n -/
structure Args (α : Type) where
  x : Nat → α
  a : Nat → α
  b : Nat → α

/-- the values of one operand -/
def Args.get {α : Type} (v : Args α) : Slot → Nat → α
  | .x => v.x
  | .a => v.a
  | .b => v.b

/-- A log-density node: constructor, `feval` (returning the value assigned to the node) and `beval` (returning the calls of the operands' `beval`
in order, with their seeds). -/
structure StatNode (α : Type) where
  Cache : Type
  ctor : Args α → Option Cache
  feval : Cache → Args α → Option (Cache × α)
  beval : Cache → Args α → α → List (Slot × (Nat → α))

variable {α : Type} [Zero α] [One α] [Add α] [Sub α] [Neg α] [Mul α] [Div α] [NatCast α]
variable [Fn α] [HasInf α] [LinAlg α]

/-- `util::neg_inf<value_t>`, util/numeric.hpp -/
def negInf : α := -HasInf.inf

/-- the literal 0.5 -/
def half : α := 1 / (1 + 1)

/-- `.all()` of Eigen -/
def allN (n : Nat) (p : Nat → Bool) : Bool := (List.range n).all p

/-- `.minCoeff()` of `n + 1` coefficients -/
def minCoeff (f : Nat → α) : Nat → α
  | 0 => f 0
  | n + 1 => if Fn.blt (f (n + 1)) (minCoeff f n) then f (n + 1) else minCoeff f n

/-- `.maxCoeff()` of `n + 1` coefficients -/
def maxCoeff (f : Nat → α) : Nat → α
  | 0 => f 0
  | n + 1 => if Fn.blt (maxCoeff f n) (f (n + 1)) then f (n + 1) else maxCoeff f n

/-- `.squaredNorm()` -/
def sqNorm (n : Nat) (f : Nat → α) : α := sumN n fun i => f i * f i

/-- `feval` of a node that cannot fail -/
def ret {C : Type} (c : C) (v : α) : Option (C × α) := some (c, v)

/-! ### normal.hpp -/

/-- Case 1: scalar x, mean, sigma; normal.hpp:107-179.  The state is `log_sigma_`. -/
def normalSSS (k : Kinds) : StatNode α where
  Cache := α
  ctor v := some (if k.b.isConst then Fn.log (v.b 0) else 0)
  feval c v :=
    let s := v.b 0
    if Fn.ble s 0 then ret c negInf
    else
      let c := if k.b.isConst then c else Fn.log s
      let z := (v.x 0 - v.a 0) / s
      ret c (-half * z * z - c)
  beval _ v seed :=
    if Fn.beq seed 0 || Fn.ble (v.b 0) 0 then []
    else
      let invS := 1 / v.b 0
      let z := (v.x 0 - v.a 0) * invS
      let adj := seed * z * invS
      (if k.b.isConst then [] else [(Slot.b, fun _ => seed * (z * z - 1) * invS)]) ++ [(Slot.a, fun _ => adj), (Slot.x, fun _ => -adj)]

/-- data members of case 2, normal.hpp:293-300 -/
structure NormalVSSCache (α : Type) where
  logSigma : α
  zSq : α
  xMean : α
  xVar : α

/-- Case 2: vector x, scalar mean, scalar sigma; normal.hpp:181-301.  `mean()` of an empty vector (normal.hpp:220) reduces an empty vector, which
Eigen asserts against. -/
def normalVSS (k : Kinds) (n : Nat) : StatNode α where
  Cache := NormalVSSCache α
  ctor v :=
    let ls : α := if k.b.isConst then Fn.log (v.b 0) else 0
    if k.x.isConst then
      if n = 0 then none
      else
        let m := sumN n v.x / (n : α)
        some ⟨ls, 0, m, sqNorm n fun i => v.x i - m⟩
    else some ⟨ls, 0, 0, 0⟩
  feval c v :=
    let m := v.a 0
    let s := v.b 0
    if Fn.ble s 0 then ret c negInf
    else
      let c := if k.b.isConst then c else { c with logSigma := Fn.log s }
      if k.x.isConst then
        let centered := m - c.xMean
        let invSq := 1 / (s * s)
        ret c (-half * invSq * (c.xVar + (n : α) * centered * centered) - (n : α) * c.logSigma)
      else
        let zSq := sqNorm n (fun i => v.x i - m) / (s * s)
        ret { c with zSq := zSq } (-half * zSq - (n : α) * c.logSigma)
  beval c v seed :=
    if Fn.beq seed 0 || Fn.ble (v.b 0) 0 then []
    else
      let invS := 1 / v.b 0
      let invSq := invS * invS
      let m := v.a 0
      if k.x.isConst then
        let d := m - c.xMean
        (if k.b.isConst then [] else [(Slot.b, fun _ => seed * (((c.xVar + (n : α) * d * d) * invSq - (n : α)) * invS))]) ++
          [(Slot.a, fun _ => seed * ((n : α) * (c.xMean - m) * invSq))]
      else
        (if k.b.isConst then [] else [(Slot.b, fun _ => seed * (c.zSq - (n : α)) * invS)]) ++
          [(Slot.a, fun _ => seed * (sumN n (fun i => v.x i - m) * invSq)), (Slot.x, fun i => (seed * invSq) * (m - v.x i))]

/-- Case 3: vector x, vector mean, scalar sigma; normal.hpp:303-381.  The state is `(log_sigma_, z_sq)`. -/
def normalVVS (k : Kinds) (n : Nat) : StatNode α where
  Cache := α × α
  ctor v := some (if k.b.isConst then Fn.log (v.b 0) else 0, 0)
  feval c v :=
    let s := v.b 0
    if Fn.ble s 0 then ret c negInf
    else
      let ls := if k.b.isConst then c.1 else Fn.log s
      let zSq := sqNorm n (fun i => v.x i - v.a i) / (s * s)
      ret (ls, zSq) (-half * zSq - (n : α) * ls)
  beval c v seed :=
    if Fn.beq seed 0 || Fn.ble (v.b 0) 0 then []
    else
      let invS := 1 / v.b 0
      let invSq := invS * invS
      (if k.b.isConst then [] else [(Slot.b, fun _ => seed * (c.2 - (n : α)) * invS)]) ++
        [(Slot.a, fun i => (seed * invSq) * (v.x i - v.a i)), (Slot.x, fun i => (seed * invSq) * (v.a i - v.x i))]

/-- data members of case 4, normal.hpp:488-494 -/
structure NormalVSVCache (α : Type) where
  logSigma : α
  posDef : Bool
  sqTerm : α
  linTerm : α
  constTerm : α

/-- `update_cache()` of cases 4 and 5, normal.hpp:481-486, 568-574: returns `(log_sigma_, is_pos_def_)` -/
def normalVecUpdate (n : Nat) (s : Nat → α) (ls : α) : α × Bool :=
  if allN n (fun i => Fn.blt 0 (s i)) then (sumN n fun i => Fn.log (s i), true) else (ls, false)

/-- Case 4: vector x, scalar mean, vector sigma; normal.hpp:383-495 -/
def normalVSV (k : Kinds) (n : Nat) : StatNode α where
  Cache := NormalVSVCache α
  ctor v :=
    if k.b.isConst then
      let u := normalVecUpdate n v.b 0
      if k.x.isConst then
        some ⟨u.1, u.2, sqNorm n (fun i => v.x i / v.b i), sumN n (fun i => v.x i / (v.b i * v.b i)), sqNorm n (fun i => 1 / v.b i)⟩
      else some ⟨u.1, u.2, 0, 0, 0⟩
    else some ⟨0, false, 0, 0, 0⟩
  feval c v :=
    let m := v.a 0
    let c := if k.b.isConst then c else
      let u := normalVecUpdate n v.b c.logSigma
      { c with logSigma := u.1, posDef := u.2 }
    if c.posDef = false then ret c negInf
    else if k.x.isConst && k.b.isConst then
      ret c (-half * (c.sqTerm - (1 + 1) * m * c.linTerm + m * m * c.constTerm) - c.logSigma)
    else ret c (-half * sqNorm n (fun i => (v.x i - m) / v.b i) - c.logSigma)
  beval c v seed :=
    if Fn.beq seed 0 || !c.posDef then []
    else
      let m := v.a 0
      if k.x.isConst && k.b.isConst then [(Slot.a, fun _ => seed * (c.linTerm - m * c.constTerm))]
      else
        (if k.b.isConst then [] else
          [(Slot.b, fun i => (seed / v.b i) * (((v.x i - m) / v.b i) * ((v.x i - m) / v.b i) - 1))]) ++
          [(Slot.a, fun _ => seed * sumN n (fun i => (v.x i - m) / (v.b i * v.b i))),
           (Slot.x, fun i => (seed / (v.b i * v.b i)) * (m - v.x i))]

/-- Case 5: vector x, vector mean, vector sigma; normal.hpp:497-578.  The state is `(log_sigma_, is_pos_def_)`. -/
def normalVVV (k : Kinds) (n : Nat) : StatNode α where
  Cache := α × Bool
  ctor v := some (if k.b.isConst then normalVecUpdate n v.b 0 else (0, false))
  feval c v :=
    let c := if k.b.isConst then c else normalVecUpdate n v.b c.1
    if c.2 = false then ret c negInf
    else ret c (-half * sqNorm n (fun i => (v.x i - v.a i) / v.b i) - c.1)
  beval c v seed :=
    if Fn.beq seed 0 || !c.2 then []
    else
      (if k.b.isConst then [] else
        [(Slot.b, fun i => (seed / v.b i) * (((v.x i - v.a i) / v.b i) * ((v.x i - v.a i) / v.b i) - 1))]) ++
        [(Slot.a, fun i => seed * (v.x i - v.a i) / (v.b i * v.b i)), (Slot.x, fun i => seed * (v.a i - v.x i) / (v.b i * v.b i))]

/-- data members of cases 6 and 7, normal.hpp:670-674, 768-772 (the decomposition itself is not kept: it is not used after `update_cache`) -/
structure NormalMatCache (α : Type) where
  logDet : α
  posDef : Bool
  inv : Nat → α
  z : Nat → α

/-- `update_cache()` of cases 6 and 7, normal.hpp:658-665, 756-763 -/
def NormalMatCache.update (c : NormalMatCache α) (n : Nat) (s : Nat → α) : NormalMatCache α :=
  if LinAlg.lltOk n (trunc (n * n) s) then
    { c with logDet := Fn.log (LinAlg.lltDetL n (trunc (n * n) s)), posDef := true, inv := LinAlg.symInv n (trunc (n * n) s) }
  else { c with posDef := false }

/-- Cases 6 and 7: vector x, scalar (`sm`) or vector mean, matrix sigma; normal.hpp:580-773.  The constructor asserts that sigma is square with as many
rows as x (so `n` is the dimension).  `inv_` and `z_` are uninitialised until `update_cache` and `feval` write them; they are read only afterwards. -/
def normalMat (sm : Bool) (k : Kinds) (n : Nat) : StatNode α where
  Cache := NormalMatCache α
  ctor v :=
    let c : NormalMatCache α := ⟨0, false, fun _ => 0, fun _ => 0⟩
    some (if k.b.isConst then c.update n v.b else c)
  feval c v :=
    let c := if k.b.isConst then c else c.update n v.b
    if c.posDef = false then ret c negInf
    else
      let d := fun i => v.x i - v.a (if sm then 0 else i)
      let z := fun i => sumN n fun j => c.inv (i + j * n) * d j
      let sq := sumN n fun i => d i * z i
      ret { c with z := z } (-half * sq - c.logDet)
  beval c _ seed :=
    if Fn.beq seed 0 || !c.posDef then []
    else
      (if k.b.isConst then [] else [(Slot.b, fun q => (-half * seed) * (c.inv q - c.z (q % n) * c.z (q / n)))]) ++
        [(Slot.a, if sm then fun _ => seed * sumN n c.z else fun i => seed * c.z i), (Slot.x, fun i => (-seed) * c.z i)]

/-! ### cauchy.hpp -/

/-- Case 1: scalar x, loc, scale; cauchy.hpp:102-173.  The state is `inner_term_`. -/
def cauchySSS : StatNode α where
  Cache := α
  ctor _ := some 0
  feval c v :=
    if Fn.blt 0 (v.b 0) then
      let diff := v.x 0 - v.a 0
      let c := v.b 0 + (diff * diff) / v.b 0
      ret c (-Fn.log c)
    else ret c negInf
  beval c v seed :=
    if Fn.beq seed 0 || !Fn.blt 0 (v.b 0) then []
    else
      let diff := v.x 0 - v.a 0
      let x0Adj := (1 + 1) * diff / (v.b 0 * c)
      let xAdj := -x0Adj
      let gAdj := 1 / v.b 0 * (x0Adj * diff - 1)
      [(Slot.b, fun _ => seed * gAdj), (Slot.a, fun _ => seed * x0Adj), (Slot.x, fun _ => seed * xAdj)]

/-- Cases 2 and 4: vector x, scalar (`sl`) or vector loc, scalar scale; cauchy.hpp:175-243, 314-382.  No data members. -/
def cauchyScl (sl : Bool) (n : Nat) : StatNode α where
  Cache := Unit
  ctor _ := some ()
  feval c v :=
    if Fn.blt 0 (v.b 0) then
      let d := fun i => v.x i - v.a (if sl then 0 else i)
      ret c (-sumN n fun i => Fn.log (v.b 0 + (1 / v.b 0) * (d i * d i)))
    else ret c negInf
  beval _ v seed :=
    if Fn.beq seed 0 || !Fn.blt 0 (v.b 0) then []
    else
      let d := fun i => v.x i - v.a (if sl then 0 else i)
      let g := v.b 0
      let dx := fun i => (-(1 + 1) * seed) * d i / (g * g + d i * d i)
      [(Slot.b, fun _ => (-seed / g) * (sumN n (fun i => dx i * d i) + (n : α))),
       (Slot.a, if sl then fun _ => (-seed) * sumN n dx else fun i => (-seed) * dx i),
       (Slot.x, dx)]

/-- Cases 3 and 5: vector x, scalar (`sl`) or vector loc, vector scale; cauchy.hpp:245-312, 384-451.  No data members. -/
def cauchyVec (sl : Bool) (n : Nat) : StatNode α where
  Cache := Unit
  ctor _ := some ()
  feval c v :=
    if allN n (fun i => Fn.blt 0 (v.b i)) then
      let d := fun i => v.x i - v.a (if sl then 0 else i)
      ret c (-sumN n fun i => Fn.log (v.b i + d i * d i / v.b i))
    else ret c negInf
  beval _ v seed :=
    if Fn.beq seed 0 || !allN n (fun i => Fn.blt 0 (v.b i)) then []
    else
      let d := fun i => v.x i - v.a (if sl then 0 else i)
      let dx := fun i => (-(1 + 1) * seed) * d i / (v.b i * v.b i + d i * d i)
      [(Slot.b, if sl then fun i => (-seed) * (dx i * d i + 1) / v.b i else fun i => (-seed / v.b i) * (dx i * d i + 1)),
       (Slot.a, if sl then fun _ => (-seed) * sumN n dx else fun i => (-seed) * dx i),
       (Slot.x, dx)]

/-! ### uniform.hpp -/

/-- Case 1: scalars; uniform.hpp:101-176.  The state is `log_diff_`. -/
def uniformSSS (k : Kinds) : StatNode α where
  Cache := α
  ctor v := some (if k.a.isConst && k.b.isConst then Fn.log (v.b 0 - v.a 0) else 0)
  feval c v :=
    let c := if k.a.isConst && k.b.isConst then c else Fn.log (v.b 0 - v.a 0)
    if Fn.blt (v.a 0) (v.x 0) && Fn.blt (v.x 0) (v.b 0) then ret c (-c) else ret c negInf
  beval _ v seed :=
    if Fn.beq seed 0 || !(Fn.blt (v.a 0) (v.x 0) && Fn.blt (v.x 0) (v.b 0)) then []
    else
      let adj := seed / (v.b 0 - v.a 0)
      [(Slot.b, fun _ => -adj), (Slot.a, fun _ => adj)]

/-- data members of cases 2 to 5, uniform.hpp:267-269, 360-362, 453-455, 536-538 (each case has some of them) -/
structure UniformCache (α : Type) where
  logDiff : α
  xMin : α
  xMax : α
  below : Bool
  above : Bool

/-- `update_log_diff_cache()` of the vector cases: `sa`/`sb` say whether min/max is a scalar; uniform.hpp:253-255, 347-349, 440-442, 528-530
(`log(max - min)` for two scalars) -/
def uniformLogDiff (sa sb : Bool) (n : Nat) (v : Args α) : α :=
  if sa && sb then Fn.log (v.b 0 - v.a 0)
  else sumN n fun i => Fn.log (v.b (if sb then 0 else i) - v.a (if sa then 0 else i))

/-- `update_x_cache()` of cases 2 to 4, uniform.hpp:257-260, 351-354, 444-447.  `minCoeff`/`maxCoeff` of an empty vector asserts; `ra`, `rb`: can min and
max be read? (the vector bound is read) -/
def UniformCache.updateX (c : UniformCache α) (sa sb ra rb : Bool) : (n : Nat) → Args α → Option (UniformCache α)
  | 0, _ => none
  | m + 1, v =>
    if (sa || ra) && (sb || rb) then
      some { c with
        xMin := if sa then minCoeff v.x m else c.xMin
        xMax := if sb then maxCoeff v.x m else c.xMax
        below := if sa then c.below else allN (m + 1) fun i => Fn.blt (v.a i) (v.x i)
        above := if sb then c.above else allN (m + 1) fun i => Fn.blt (v.x i) (v.b i) }
    else none

/-- `within_range()` of cases 2 to 5, uniform.hpp:262-265, 356-358, 449-451, 532-534 -/
def UniformCache.within (c : UniformCache α) (sa sb : Bool) (v : Args α) : Bool :=
  (if sa then Fn.blt (v.a 0) c.xMin else c.below) && (if sb then Fn.blt c.xMax (v.b 0) else c.above)

/-- Cases 2 to 5: vector x; min is a scalar iff `sa`, max iff `sb`; uniform.hpp:178-270 (scalar, scalar), 272-363 (scalar, vector), 365-456 (vector, scalar),
458-539 (vector, vector: no x cache at construction, the two checks are recomputed by every `feval`). -/
def uniformVec (sa sb : Bool) (k : Kinds) (n : Nat) : StatNode α where
  Cache := UniformCache α
  ctor v :=
    let c : UniformCache α := ⟨if k.a.isConst && k.b.isConst then uniformLogDiff sa sb n v else 0, 0, 0, false, false⟩
    if (sa || sb) && k.x.isConst then c.updateX sa sb k.a.hasMemory k.b.hasMemory n v else some c
  feval c v := do
    let c := if k.a.isConst && k.b.isConst then c else { c with logDiff := uniformLogDiff sa sb n v }
    let c ← if sa || sb then (if k.x.isConst then some c else c.updateX sa sb true true n v)
      else some { c with
        below := allN n fun i => Fn.blt (v.a i) (v.x i)
        above := allN n fun i => Fn.blt (v.x i) (v.b i) }
    if c.within sa sb v then ret c (if sa && sb then -(n : α) * c.logDiff else -c.logDiff) else ret c negInf
  beval c v seed :=
    if Fn.beq seed 0 || !c.within sa sb v then []
    else if sa && sb then
      let adj := seed * (n : α) / (v.b 0 - v.a 0)
      [(Slot.b, fun _ => -adj), (Slot.a, fun _ => adj)]
    else
      let diff := fun i => v.b (if sb then 0 else i) - v.a (if sa then 0 else i)
      [(Slot.b, if sb then fun _ => (-seed) * sumN n (fun i => 1 / diff i) else fun i => (-seed) / diff i),
       (Slot.a, if sa then fun _ => seed * sumN n (fun i => 1 / diff i) else fun i => seed / diff i)]

/-! ### bernoulli.hpp -/

/-- `within_range()` of cases 1 and 2, bernoulli.hpp:169-172, 269-272 -/
def bernoulliIn (p : α) : Bool := Fn.blt 0 p && Fn.blt p 1

/-- `update_cache()` of cases 1 and 2, bernoulli.hpp:162-167, 256-261: returns `(log_p_, log_p_dual_)` -/
def bernoulliUpdate (p : α) (c : α × α) : α × α :=
  if bernoulliIn p then (Fn.log p, Fn.log (1 - p)) else c

/-- Case 1: scalar x, scalar p; bernoulli.hpp:94-176.  The state is `(log_p_, log_p_dual_)`. -/
def bernoulliSS (k : Kinds) : StatNode α where
  Cache := α × α
  ctor v := some (if k.a.isConst then bernoulliUpdate (v.a 0) (0, 0) else (0, 0))
  feval c v :=
    let c := if k.a.isConst then c else bernoulliUpdate (v.a 0) c
    let x := v.x 0
    let p := v.a 0
    if !bernoulliIn p then
      if Fn.ble p 0 then ret c (if Fn.beq x 0 then 0 else negInf)
      else ret c (if Fn.beq x 1 then 0 else negInf)
    else if Fn.beq x 0 then ret c c.2
    else if Fn.beq x 1 then ret c c.1
    else ret c negInf
  beval _ v seed :=
    let x := v.x 0
    let p := v.a 0
    if Fn.beq seed 0 || !bernoulliIn p || (!Fn.beq x 0 && !Fn.beq x 1) then []
    else [(Slot.a, fun _ => if Fn.beq x 0 then -seed / (1 - p) else seed / p)]

/-- data members of case 2, bernoulli.hpp:274-277 -/
structure BernoulliCache (α : Type) where
  logs : α × α
  zeroOne : Bool
  xSum : α

/-- `is_x_zero_one_`, bernoulli.hpp:264-265, 373-374 -/
def zeroOneN (n : Nat) (x : Nat → α) : Bool := allN n fun i => Fn.beq (x i) 0 || Fn.beq (x i) 1

/-- Case 2: vector x, scalar p; bernoulli.hpp:178-278 -/
def bernoulliVS (k : Kinds) (n : Nat) : StatNode α where
  Cache := BernoulliCache α
  ctor v :=
    some ⟨if k.a.isConst then bernoulliUpdate (v.a 0) (0, 0) else (0, 0),
      if k.x.isConst then zeroOneN n v.x else false, if k.x.isConst then sumN n v.x else 0⟩
  feval c v :=
    let p := v.a 0
    let c := if k.a.isConst then c else { c with logs := bernoulliUpdate p c.logs }
    let c := if k.x.isConst then c else { c with zeroOne := zeroOneN n v.x, xSum := sumN n v.x }
    if !bernoulliIn p then
      if Fn.ble p 0 then ret c (if Fn.beq c.xSum 0 && c.zeroOne then 0 else negInf)
      else ret c (if Fn.beq c.xSum (n : α) && c.zeroOne then 0 else negInf)
    else if c.zeroOne then ret c (c.xSum * c.logs.1 + ((n : α) - c.xSum) * c.logs.2)
    else ret c negInf
  beval c v seed :=
    let p := v.a 0
    if Fn.beq seed 0 || !bernoulliIn p || !c.zeroOne then []
    else [(Slot.a, fun _ => seed * ((c.xSum - (n : α) * p) / (p * (1 - p))))]

/-- the loop of case 3, bernoulli.hpp:330-341, over the first coefficients; `none` is the early return with -infinity -/
def bernoulliLoop (x p : Nat → α) : Nat → Option α
  | 0 => some 0
  | i + 1 => do
    let acc ← bernoulliLoop x p i
    if Fn.ble (p i) 0 && !Fn.beq (x i) 0 then none
    else if Fn.ble 1 (p i) && !Fn.beq (x i) 1 then none
    else if bernoulliIn (p i) then some (acc + (if Fn.beq (x i) 1 then Fn.log (p i) else Fn.log (1 - p i)))
    else some acc

/-- Case 3: vector x, vector p; bernoulli.hpp:280-379.  The state is `(is_p_within_range_, is_x_zero_one_)`. -/
def bernoulliVV (k : Kinds) (n : Nat) : StatNode α where
  Cache := Bool × Bool
  ctor v :=
    some (if k.a.isConst then allN n (fun i => bernoulliIn (v.a i)) else false, if k.x.isConst then zeroOneN n v.x else false)
  feval c v :=
    let c := (if k.a.isConst then c.1 else allN n (fun i => bernoulliIn (v.a i)), if k.x.isConst then c.2 else zeroOneN n v.x)
    if c.2 then
      if c.1 = false then ret c ((bernoulliLoop v.x v.a n).getD negInf)
      else ret c (sumN n fun i => Fn.log (v.x i * v.a i + (1 - v.x i) * (1 - v.a i)))
    else ret c negInf
  beval c v seed :=
    if Fn.beq seed 0 || !c.2 then []
    else [(Slot.a, fun i => if bernoulliIn (v.a i) then (if Fn.beq (v.x i) 1 then seed / v.a i else (-seed) / (1 - v.a i)) else 0)]

/-! ### wishart.hpp -/

/-- data members, wishart.hpp:226-234 -/
structure WishartCache (α : Type) where
  logX : α
  logV : α
  xOk : Bool
  vOk : Bool
  xInv : Nat → α
  vInv : Nat → α
  xvInv : Nat → α

/-- product of two `p`×`p` matrices -/
def mul2 (p : Nat) (l r : Nat → α) : Nat → α := fun q => sumN p fun j => l (q % p + j * p) * r (j + (q / p) * p)

/-- `update_v_cache()`, wishart.hpp:197-204 -/
def WishartCache.updateV (c : WishartCache α) (p : Nat) (V : Nat → α) : WishartCache α :=
  if LinAlg.lltOk p (trunc (p * p) V) then
    { c with vOk := true, logV := Fn.log (LinAlg.lltDetL p (trunc (p * p) V)), vInv := LinAlg.symInv p (trunc (p * p) V) }
  else { c with vOk := false }

/-- `update_x_cache()`, wishart.hpp:206-216 -/
def WishartCache.updateX (c : WishartCache α) (p : Nat) (X : Nat → α) : WishartCache α :=
  if c.vOk then
    if LinAlg.lltOk p (trunc (p * p) X) then
      { c with xOk := true, logX := Fn.log (LinAlg.lltDetL p (trunc (p * p) X)), xInv := LinAlg.symInv p (trunc (p * p) X), xvInv := mul2 p X c.vInv }
    else { c with xOk := false }
  else c

/-- `valid()`, wishart.hpp:218-222 -/
def WishartCache.valid (c : WishartCache α) (p : Nat) (n : α) : Bool :=
  c.xOk && c.vOk && Fn.blt (p : α) (n + 1)

/-- the Wishart node: `x` and `v` (slot `a`) are `p`×`p` matrices, `n` (slot `b`) a constant; wishart.hpp:108-235 -/
def wishart (k : Kinds) (p : Nat) : StatNode α where
  Cache := WishartCache α
  ctor v :=
    let c : WishartCache α := ⟨0, 0, false, false, fun _ => 0, fun _ => 0, fun _ => 0⟩
    let c := if k.a.isConst then c.updateV p v.a else c
    some (if k.x.isConst then c.updateX p v.x else c)
  feval c v :=
    let c := if k.a.isConst then c else c.updateV p v.a
    let c := if k.x.isConst then c else c.updateX p v.x
    let n := v.b 0
    if c.valid p n then
      ret c ((n - (p : α) - 1) * c.logX - half * sumN p (fun i => c.xvInv (i + i * p)) - n * c.logV)
    else ret c negInf
  beval c v seed :=
    let n := v.b 0
    if Fn.beq seed 0 || !c.valid p n then []
    else
      [(Slot.a, fun q => (half * seed) * (mul2 p c.vInv c.xvInv q - n * c.vInv q)),
       (Slot.x, fun q => (half * seed) * ((n - (p : α) - 1) * c.xInv q - c.vInv q))]

/-! ### Nodes inside expressions -/

/-- the node of a given specialisation; `n` is the number of rows of the first operand -/
def StatOp.node : StatOp → Kinds → Nat → StatNode α
  | .normalSSS, k, _ => FastAD.normalSSS k
  | .normalVSS, k, n => FastAD.normalVSS k n
  | .normalVVS, k, n => FastAD.normalVVS k n
  | .normalVSV, k, n => FastAD.normalVSV k n
  | .normalVVV, k, n => FastAD.normalVVV k n
  | .normalMat sm, k, n => FastAD.normalMat sm k n
  | .cauchySSS, _, _ => FastAD.cauchySSS
  | .cauchyScl sl, _, n => FastAD.cauchyScl sl n
  | .cauchyVec sl, _, n => FastAD.cauchyVec sl n
  | .uniformSSS, k, _ => FastAD.uniformSSS k
  | .uniformVec sa sb, k, n => FastAD.uniformVec sa sb k n
  | .bernoulliSS, k, _ => FastAD.bernoulliSS k
  | .bernoulliVS, k, n => FastAD.bernoulliVS k n
  | .bernoulliVV, k, n => FastAD.bernoulliVV k n
  | .wishart, k, n => FastAD.wishart k n

/-- Construction followed by one evaluation.  Inside expressions the data members of a log-density node are not kept: they are recomputed from the current operand values
(as for the decompositions of `det`).  This makes no difference as long as the constants which the constructor uses keep their values, see `stat_history_kept`; `StatOp.Fits` therefore
does not admit constant views at these positions. -/
def StatNode.once (N : StatNode α) (v : Args α) : Option (N.Cache × α) := do
  let c ← N.ctor v
  N.feval c v

/-- the operands x, mean/loc/min/p/v and (if present) sigma/scale/max/n, with the number of rows of the first -/
def statArgs : List (Shape × (Nat → α)) → Option (Nat × Args α)
  | [(sh, x), (_, a)] => some (sh.rows, ⟨x, a, fun _ => 0⟩)
  | [(sh, x), (_, a), (_, b)] => some (sh.rows, ⟨x, a, b⟩)
  | _ => none

/-- operand number `i` -/
def slotOf : Nat → Slot
  | 0 => .x
  | 1 => .a
  | _ => .b

/-- what `feval` of a log-density node assigns, given its operands -/
def StatOp.fmap (o : StatOp) (k : Kinds) (args : List (Shape × (Nat → α))) : Option α := do
  let (n, v) ← statArgs args
  let r ← (o.node k n).once v
  some r.2

/-- The seed which `beval` of a log-density node hands to operand `i`; `none` if it does not call `beval` of that operand.  (Every operand is called at most once.
The code calls them in the order sigma, mean, x, `Expr.beval` in the order of the list; for operands without assignments that makes no difference.) -/
def StatOp.bmap (o : StatOp) (k : Kinds) (seed : α) (args : List (Shape × (Nat → α))) (i : Nat) : Option (Nat → α) := do
  let (n, v) ← statArgs args
  let r ← (o.node k n).once v
  ((o.node k n).beval r.1 v seed).lookup (slotOf i)

end FastAD
