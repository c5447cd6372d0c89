/-!
# The kinds of log-density nodes

`include/fastad_bits/reverse/stat/*.hpp`: every log-density is a class template with one specialisation per combination of operand shapes.
-/

namespace FastAD

/-- the operands -/
inductive Slot where
  | x | a | b
deriving DecidableEq, Repr

/-- What the type of an operand says about it: a constant (`util::is_constant_v`, util/type_traits.hpp:124-126), a variable, or another expression.
An expression has no memory (null views) until it is bound, which happens after the construction of the node. -/
inductive ArgKind where
  | const | leaf | node
deriving DecidableEq, Repr

/-- is the operand constant? -/
def ArgKind.isConst : ArgKind → Bool
  | .const => true
  | _ => false

/-- can the operand's value be read at construction time? -/
def ArgKind.hasMemory : ArgKind → Bool
  | .node => false
  | _ => true

/-- operand types of a node -/
structure Kinds where
  x : ArgKind
  a : ArgKind
  b : ArgKind
deriving DecidableEq, Repr

/-- the type of one operand -/
def Kinds.get (k : Kinds) : Slot → ArgKind
  | .x => k.x
  | .a => k.a
  | .b => k.b

/-- The specialisations of the log-density nodes: normal.hpp:107-773, cauchy.hpp:102-451, uniform.hpp:101-539, bernoulli.hpp:94-379, wishart.hpp:108-235.  The letters
give the shapes of x and the parameters (scalar or vector); the flags say whether the mean/location/lower bound (`sm`, `sl`, `sa`) or the upper bound (`sb`) is a
scalar. -/
inductive StatOp where
  | normalSSS | normalVSS | normalVVS | normalVSV | normalVVV | normalMat (sm : Bool)
  | cauchySSS | cauchyScl (sl : Bool) | cauchyVec (sl : Bool)
  | uniformSSS | uniformVec (sa sb : Bool)
  | bernoulliSS | bernoulliVS | bernoulliVV
  | wishart
deriving DecidableEq, Repr

end FastAD
