import Mathlib.Algebra.Field.Basic

/-!
# Symbolic expressions

Model of the expression trees of `dedalus/core/field.py`, `dedalus/core/future.py`,
`dedalus/core/arithmetic.py` and `dedalus/core/operators.py`, and of the symbolic methods
`has`, `split`, `replace`, `sym_diff`, `require_linearity`, `require_first_order` and
`frechet_differential`.

A Python value handled by these methods is either a plain number or an `Operand`; both are values of
`Expr`, with `num` for the plain numbers. `none` stands for a raised exception.

Not modelled here: domains and bases (so `Add` inserts no `Convert` nodes; `Convert` nodes already in
a tree are modelled as operators of kind `passes`), data types, distributors, names.
-/

namespace Dedalus.Symb

/-- Tensor signature: tuple of coordinate systems (identified by a number).
`dedalus/core/field.py` L167 (`tensorsig`). -/
abbrev Sig := List Nat

/-- Elementwise functions: the keys of `UnaryGridFunction.ufunc_derivatives`
(`dedalus/core/operators.py` L534-556); `user n` is any other function, given without a derivative. -/
inductive UF
  | absolute | sign | exp | exp2 | log | log2 | log10 | sqrt | square | sin | cos | tan
  | arcsin | arccos | arctan | sinh | cosh | tanh | arcsinh | arccosh | arctanh | erf
  | user (n : Nat)
  deriving DecidableEq, Repr

/-- What a linear operator's `new_operand` does with a plain number instead of an operand
(`dedalus/core/operators.py`).
* `annihilates`: any number gives `0` (`Differentiate` L1407-1421 by `DifferentiateConstant`, `Gradient` L2320,
  `Divergence` L3422, `Trace` L1728, `Component` L2196, `Curl`, `Laplacian`, ...);
* `keeps`: any number is returned as it is (`Interpolate` L1080, `Average` L1234);
* `zeroOnly`: `0` gives `0`, other numbers raise (`Integrate` L1161, `Skew` L2055, `Lift`, `MulCosine` L3002);
* `rejects`: any number raises (`Lock` L823, `Copy` L1513);
* `passes`: the new operand is returned without the operator (`Convert` L1585);
* `noNewOperand`: the method is not implemented (`TimeDerivative` L999-1045, base method L671). -/
inductive Kind
  | annihilates | keeps | zeroOnly | rejects | passes | noNewOperand
  deriving DecidableEq, Repr

/-- How a linear operator changes the tensor signature. -/
inductive SigRule
  | same
  | push (cs : Nat)
  | drop (n : Nat)
  deriving DecidableEq, Repr

/-- A linear operator with its parameters: its class (for `isinstance` tests), the behaviour of
`new_operand`, and the rule for the output signature; `tag` stands for all other parameters. -/
structure Op where
  cls : Nat
  kind : Kind
  rule : SigRule
  tag : Nat
  deriving DecidableEq, Repr

/-- Output signature of a linear operator (attributes `tensorsig` set in the `__init__` methods of
`dedalus/core/operators.py`). -/
def Op.outSig (o : Op) (s : Sig) : Sig :=
  match o.rule with
  | .same => s
  | .push cs => cs :: s
  | .drop n => s.drop n

/-- The product classes of `dedalus/core/arithmetic.py`: `Multiply` L745, `DotProduct` L588 with its
index pair, `CrossProduct` L676. -/
inductive PKind
  | mul
  | dot (i j : Nat)
  | cross
  deriving DecidableEq, Repr

/-- Output signature of a product (`dedalus/core/arithmetic.py` L592-603 for the dot product,
L692 for the cross product, L820 for `MultiplyFields`). -/
def PKind.outSig (p : PKind) (s t : Sig) : Sig :=
  match p with
  | .mul => s ++ t
  | .dot i j => s.eraseIdx i ++ t.eraseIdx j
  | .cross => s

/-- Python values met by the symbolic methods: a plain number, or an operand. -/
inductive Expr (K : Type)
  /-- plain Python number -/
  | num (c : K)
  /-- `Field` object number `i` -/
  | fld (i : Nat) (s : Sig)
  /-- constant field made by `Operand.cast` from a number (a fresh object, equal to no other) -/
  | cst (s : Sig) (c : K)
  /-- `Add` -/
  | add (a b : Expr K)
  /-- `Multiply` (with a plain number first for `MultiplyNumberField`), `DotProduct`, `CrossProduct` -/
  | prod (p : PKind) (a b : Expr K)
  /-- `LinearOperator` subclasses -/
  | lin (o : Op) (a : Expr K)
  /-- `UnaryGridFunction` -/
  | un (f : UF) (a : Expr K)
  /-- `PowerFieldConstant` -/
  | pow (a : Expr K) (p : K)
  deriving DecidableEq, Repr

/-- Arguments of `has`, `split`: field objects or operator classes. -/
inductive Var
  | fld (i : Nat)
  | cls (c : Nat)
  deriving DecidableEq, Repr

/-- Numerical constants written in the derivative table: `np.log(2)`, `np.log(10)`,
`(np.pi)**(-1/2)`. -/
class Consts (K : Type) where
  ln2 : K
  ln10 : K
  rsqrtPi : K

variable {K : Type} [Field K] [DecidableEq K]

/-- `isinstance(arg, Operand)`. -/
def Expr.isOperand : Expr K → Bool
  | .num _ => false
  | _ => true

/-- `arg == c` for a number `c`: operands compare by identity, so only plain numbers can be equal. -/
def Expr.eqNum (e : Expr K) (c : K) : Bool :=
  match e with
  | .num d => d = c
  | _ => false

/-- Python truth value: zero is false, operands are true (they define no `__bool__`). -/
def Expr.truthy (e : Expr K) : Bool := !e.eqNum 0

/-- Attribute `tensorsig`. Plain numbers have none; the value `[]` given to them here is only used
for the number argument of `MultiplyNumberField` (`dedalus/core/arithmetic.py` L919: signature of the
field argument). -/
def Expr.sig : Expr K → Sig
  | .num _ => []
  | .fld _ s => s
  | .cst s _ => s
  | .add a _ => a.sig
  | .prod p a b => p.outSig a.sig b.sig
  | .lin o a => o.outSig a.sig
  | .un _ a => a.sig
  | .pow a _ => a.sig

/-- Outcome of `_preprocess_args`: `SkipDispatchException(output)` or arguments to dispatch on. -/
inductive Pre (K : Type)
  | skip (e : Expr K)
  | go (args : List (Expr K))

/-- `tools/general.py` L64-86 `unify`/`unify_attributes(args, 'tensorsig', require=False)`, for an
argument list with at least one operand. -/
def unifySig (args : List (Expr K)) : Option Sig :=
  match args.filter Expr.isOperand with
  | [] => none
  | a :: rest => if rest.all (fun b => b.sig = a.sig) then some a.sig else none

/-- `dedalus/core/field.py` L147-166 `Operand.cast`. -/
def castTo (s : Sig) (e : Expr K) : Option (Expr K) :=
  match e with
  | .num c => some (.cst s c)
  | e => if e.sig = s then some e else none

/-- The value of a plain number. -/
def Expr.numVal : Expr K → K
  | .num c => c
  | _ => 0

/-- `dedalus/core/arithmetic.py` L56-82 `Add._preprocess_args`. -/
def preAdd (args : List (Expr K)) : Option (Pre K) :=
  match args.filter (fun a => !a.eqNum 0) with
  | [x] => some (.skip x)
  | args =>
    if args.any Expr.isOperand then do
      let s ← unifySig args
      let args ← args.mapM (castTo s)
      some (.go args)
    else some (.skip (.num (args.map Expr.numVal).sum))

/-- `Add(arg0, arg1)`; also Python's `+` on plain numbers. `dedalus/core/arithmetic.py` L124,
`dedalus/core/field.py` L91-99. -/
def mkAdd (a b : Expr K) : Option (Expr K) :=
  match preAdd [a, b] with
  | some (.skip x) => some x
  | some (.go [x, y]) => some (.add x y)
  | _ => none

/-- Python's `sum(list)`, starting from the number `0`. -/
def pySum (l : List (Expr K)) : Option (Expr K) :=
  l.foldlM mkAdd (.num 0)

/-- `dedalus/core/arithmetic.py` L750-776 `Multiply._preprocess_args`. -/
def preMul (args : List (Expr K)) : Option (Pre K) :=
  match args.filter (fun a => !a.eqNum 1) with
  | [x] => some (.skip x)
  | args =>
    if args.any (fun a => a.eqNum 0) then some (.skip (.num 0))
    else if args.any Expr.isOperand then some (.go args)
    else some (.skip (.num (args.map Expr.numVal).prod))

/-- `Multiply(arg0, arg1)`; `MultiplyNumberField` puts the number first
(`dedalus/core/arithmetic.py` L908-921). -/
def mkMul (a b : Expr K) : Option (Expr K) :=
  match preMul [a, b] with
  | some (.skip x) => some x
  | some (.go [x, y]) => if y.isOperand then some (.prod .mul x y) else some (.prod .mul y x)
  | _ => none

/-- Checks made when building a dot or cross product of two operands: `DotProduct._check_indices` and
the `pop` calls (`dedalus/core/arithmetic.py` L592-603, L619-632), `CrossProduct.__init__` L681-690
(the dimension check is omitted). -/
def PKind.fits (p : PKind) (s t : Sig) : Bool :=
  match p with
  | .mul => true
  | .dot i j => i < s.length && j < t.length
  | .cross => s.length = 1 && s = t

/-- `new_operands` of the product classes: `dedalus/core/arithmetic.py` L644-647 (dot), L730-733
(cross), L792 (multiply). -/
def newProd (p : PKind) (a b : Expr K) : Option (Expr K) :=
  match p with
  | .mul => mkMul a b
  | p =>
    if a.eqNum 0 || b.eqNum 0 then some (.num 0)
    else if a.isOperand && b.isOperand && p.fits a.sig b.sig then some (.prod p a b)
    else none

/-- `new_operand` of the linear operators, by kind. -/
def newLin (o : Op) (a : Expr K) : Option (Expr K) :=
  match o.kind with
  | .noNewOperand => none
  | .passes => some a
  | .annihilates => if a.isOperand then some (.lin o a) else some (.num 0)
  | .keeps => if a.isOperand then some (.lin o a) else some a
  | .zeroOnly => if a.isOperand then some (.lin o a) else if a.eqNum 0 then some (.num 0) else none
  | .rejects => if a.isOperand then some (.lin o a) else none

/-- `UnaryGridFunction.new_operands` (`dedalus/core/operators.py` L584-588): a plain number has no
distributor, so building the node raises. -/
def newUn (f : UF) (a : Expr K) : Option (Expr K) :=
  if a.isOperand then some (.un f a) else none

/-- `Power(arg0, arg1)` (`dedalus/core/operators.py` L305-341, L387): only operand ** number is
implemented. -/
def newPow (a : Expr K) (p : K) : Option (Expr K) :=
  if a.isOperand then some (.pow a p) else none

/-- `operand ** number`: `dedalus/core/field.py` L133-140 `__pow__`. -/
def pyPow (a : Expr K) (p : K) : Option (Expr K) :=
  if p = 0 then some (.num 1)
  else if p = 1 then some a
  else newPow a p

/-- `-x`: `dedalus/core/field.py` L86-88 `__neg__`. -/
def pyNeg (a : Expr K) : Option (Expr K) := mkMul (.num (-1)) a

/-- `a - b`: `dedalus/core/field.py` L101-107 (`__sub__`, `__rsub__`). -/
def pySub (a b : Expr K) : Option (Expr K) := do
  let nb ← pyNeg b
  mkAdd a nb

/-- `has(*vars)`: `dedalus/core/field.py` L359-362 (leaves), `dedalus/core/future.py` L108-115. -/
def has (vars : List Var) : Expr K → Bool
  | .num _ => false
  | .fld i _ => vars.isEmpty || vars.contains (.fld i)
  | .cst _ _ => vars.isEmpty
  | .add a b => has vars a || has vars b
  | .prod _ a b => has vars a || has vars b
  | .lin o a => vars.contains (.cls o.cls) || has vars a
  | .un _ a => has vars a
  | .pow a _ => has vars a

/-- `split(*vars)`: leaves `dedalus/core/field.py` L364-369; `Add.split` `dedalus/core/arithmetic.py`
L127-132; `Product.split` L296-310 (a plain number splits as `(0, number)`); `LinearOperator.split`
`dedalus/core/operators.py` L675-683; `NonlinearOperator.split` L259-264. -/
def split (vars : List Var) : Expr K → Option (Expr K × Expr K)
  | .num c => some (.num 0, .num c)
  | .fld i s => if vars.contains (.fld i) then some (.fld i s, .num 0) else some (.num 0, .fld i s)
  | .cst s c => some (.num 0, .cst s c)
  | .add a b => do
    let (pa, na) ← split vars a
    let (pb, nb) ← split vars b
    let p ← pySum [pa, pb]
    let n ← pySum [na, nb]
    some (p, n)
  | .prod q a b => do
    let (pa, na) ← split vars a
    let (pb, nb) ← split vars b
    let combos := [(pa, pb), (pa, nb), (na, pb), (na, nb)]
    let dropLast := !(na.truthy && nb.truthy)
    let kept := combos.filter (fun c => c.1.truthy && c.2.truthy)
    let ops ← kept.mapM (fun c => newProd q c.1 c.2)
    let ops := if dropLast then ops ++ [.num 0] else ops
    let p ← pySum ops.dropLast
    let n ← ops.getLast?
    some (p, n)
  | .lin o a =>
    if vars.contains (.cls o.cls) then some (.lin o a, .num 0)
    else do
      let (pa, na) ← split vars a
      let p ← newLin o pa
      let n ← newLin o na
      some (p, n)
  | .un f a => if has vars (.un f a) then some (.un f a, .num 0) else some (.num 0, .un f a)
  | .pow a p => if has vars (.pow a p) then some (.pow a p, .num 0) else some (.num 0, .pow a p)

/-- `replace(old, new)` with a field `old`: leaves `dedalus/core/field.py` L371-376; `Future.replace`
`dedalus/core/future.py` L117-129; `LinearOperator.replace` `dedalus/core/operators.py` L690-702;
`Convert.replace` L1610-1613. -/
def replace (x : Nat) (r : Expr K) : Expr K → Option (Expr K)
  | .num c => some (.num c)
  | .fld i s => if i = x then some r else some (.fld i s)
  | .cst s c => some (.cst s c)
  | .add a b => do
    let a' ← replace x r a
    let b' ← replace x r b
    mkAdd a' b'
  | .prod p a b => do
    let a' ← replace x r a
    let b' ← replace x r b
    newProd p a' b'
  | .lin o a => do
    let a' ← replace x r a
    newLin o a'
  | .un f a => do
    let a' ← replace x r a
    newUn f a'
  | .pow a p => do
    let a' ← replace x r a
    newPow a' p

/-- The tree rebuilt by `replace` when nothing matches. -/
def rebuild : Expr K → Option (Expr K)
  | .num c => some (.num c)
  | .fld i s => some (.fld i s)
  | .cst s c => some (.cst s c)
  | .add a b => do
    let a' ← rebuild a
    let b' ← rebuild b
    mkAdd a' b'
  | .prod p a b => do
    let a' ← rebuild a
    let b' ← rebuild b
    newProd p a' b'
  | .lin o a => do
    let a' ← rebuild a
    newLin o a'
  | .un f a => do
    let a' ← rebuild a
    newUn f a'
  | .pow a p => do
    let a' ← rebuild a
    newPow a' p

/-- `replace(old, new)` with an operator class `old` and a function `new`. On a match
`LinearOperator.replace` (`dedalus/core/operators.py` L696-698) calls `self.operand.replace(new, old)`
with its arguments exchanged, so nothing matches inside the operand, which is only rebuilt.
`Convert.replace` (L1610-1613) goes straight to its operand. -/
def replaceCls (c : Nat) (g : Expr K → Option (Expr K)) : Expr K → Option (Expr K)
  | .num d => some (.num d)
  | .fld i s => some (.fld i s)
  | .cst s d => some (.cst s d)
  | .add a b => do
    let a' ← replaceCls c g a
    let b' ← replaceCls c g b
    mkAdd a' b'
  | .prod p a b => do
    let a' ← replaceCls c g a
    let b' ← replaceCls c g b
    newProd p a' b'
  | .lin o a =>
    if o.kind ≠ .passes ∧ o.cls = c then do
      let a' ← rebuild a
      g a'
    else do
      let a' ← replaceCls c g a
      newLin o a'
  | .un f a => do
    let a' ← replaceCls c g a
    newUn f a'
  | .pow a p => do
    let a' ← replaceCls c g a
    newPow a' p

/-- Derivative table `UnaryGridFunction.ufunc_derivatives` (`dedalus/core/operators.py` L533-556),
applied to an operand. `none` for functions without a derivative (L596-597 raises). -/
def deriv [Consts K] (f : UF) (x : Expr K) : Option (Expr K) :=
  match f with
  | .absolute => newUn .sign x
  | .sign => some (.num 0)
  | .exp => newUn .exp x
  | .exp2 => do
    let e ← newUn .exp2 x
    mkMul e (.num Consts.ln2)
  | .log => pyPow x (-1)
  | .log2 => do
    let m ← mkMul x (.num Consts.ln2)
    pyPow m (-1)
  | .log10 => do
    let m ← mkMul x (.num Consts.ln10)
    pyPow m (-1)
  | .sqrt => do
    let p ← pyPow x (-1 / 2)
    mkMul (.num (1 / 2)) p
  | .square => mkMul (.num 2) x
  | .sin => newUn .cos x
  | .cos => do
    let s ← newUn .sin x
    pyNeg s
  | .tan => do
    let c ← newUn .cos x
    pyPow c (-2)
  | .arcsin => do
    let q ← pyPow x 2
    let d ← pySub (.num 1) q
    pyPow d (-1 / 2)
  | .arccos => do
    let q ← pyPow x 2
    let d ← pySub (.num 1) q
    let r ← pyPow d (-1 / 2)
    pyNeg r
  | .arctan => do
    let q ← pyPow x 2
    let d ← mkAdd (.num 1) q
    pyPow d (-1)
  | .sinh => newUn .cosh x
  | .cosh => newUn .sinh x
  | .tanh => do
    let t ← newUn .tanh x
    let q ← pyPow t 2
    pySub (.num 1) q
  | .arcsinh => do
    let q ← pyPow x 2
    let d ← mkAdd q (.num 1)
    pyPow d (-1 / 2)
  | .arccosh => do
    let q ← pyPow x 2
    let d ← mkAdd q (.num (-1))
    pyPow d (-1 / 2)
  | .arctanh => do
    let q ← pyPow x 2
    let d ← pySub (.num 1) q
    pyPow d (-1)
  | .erf => do
    let q ← pyPow x 2
    let m ← pyNeg q
    let e ← newUn .exp m
    mkMul (.num (2 * Consts.rsqrtPi)) e
  | .user _ => none

/-- `sym_diff(var)` for a field `var`: leaves `dedalus/core/field.py` L378-383; `Add.sym_diff`
`dedalus/core/arithmetic.py` L134-137; `Product.sym_diff` L312-317; `MultiplyNumberField.sym_diff`
L975-977; `LinearOperator.sym_diff` `dedalus/core/operators.py` L685-688; `Power.sym_diff` L330-333;
`UnaryGridFunction.sym_diff` L594-599. Plain numbers have no such method. -/
def symDiff [Consts K] (x : Nat) : Expr K → Option (Expr K)
  | .num _ => none
  | .fld i _ => if i = x then some (.num 1) else some (.num 0)
  | .cst _ _ => some (.num 0)
  | .add a b => do
    let a' ← symDiff x a
    let b' ← symDiff x b
    pySum [a', b']
  | .prod .mul (.num c) b => do
    let b' ← symDiff x b
    mkMul (.num c) b'
  | .prod p a b => do
    let a' ← symDiff x a
    let t0 ← newProd p a' b
    let b' ← symDiff x b
    let t1 ← newProd p a b'
    pySum [t0, t1]
  | .lin o a => do
    let a' ← symDiff x a
    newLin o a'
  | .pow a p => do
    let q ← pyPow a (p - 1)
    let t ← mkMul (.num p) q
    let a' ← symDiff x a
    mkMul t a'
  | .un f a => do
    let d ← deriv f a
    let a' ← symDiff x a
    mkMul d a'

/-- `require_linearity(*vars, allow_affine)`, `true` when nothing is raised: leaves
`dedalus/core/field.py` L405-412; `Add.require_linearity` `dedalus/core/arithmetic.py` L147-151;
`Product.require_linearity` L331-352; `LinearOperator.require_linearity` `dedalus/core/operators.py`
L743-745; `NonlinearOperator.require_linearity` L270-283. -/
def linearOK (vars : List Var) (affine : Bool) : Expr K → Bool
  | .num _ => false
  | .fld i _ => affine || vars.contains (.fld i)
  | .cst _ _ => affine
  | .add a b => linearOK vars affine a && linearOK vars affine b
  | .prod _ a b =>
    if has vars a && has vars b then false
    else if has vars a then linearOK vars affine a
    else if has vars b then linearOK vars affine b
    else affine
  | .lin _ a => linearOK vars affine a
  | .un f a => if has vars (.un f a) then false else affine
  | .pow a p => if has vars (.pow a p) then false else affine

/-- `require_first_order(op)`: leaves `dedalus/core/field.py` L414-416; `Add` and `Product`
`dedalus/core/arithmetic.py` L153-156, L354-358; `LinearOperator.require_first_order`
`dedalus/core/operators.py` L747-757; `NonlinearOperator` and `PowerFieldConstant` L285-291, L395-398. -/
def firstOrderOK (c : Nat) : Expr K → Bool
  | .num _ => true
  | .fld _ _ => true
  | .cst _ _ => true
  | .add a b => firstOrderOK c a && firstOrderOK c b
  | .prod _ a b => firstOrderOK c a && firstOrderOK c b
  | .lin o a => if o.cls = c then !has [.cls c] a else firstOrderOK c a
  | .un _ a => firstOrderOK c a
  | .pow a _ => firstOrderOK c a

/-- The loop `for var, pert in zip(...): diff = diff.replace(var, var + epsilon*pert)`
(`dedalus/core/field.py` L288-289). Variables are given as (number, signature). -/
def perturb (eps : Nat) : List ((Nat × Sig) × Expr K) → Expr K → Option (Expr K)
  | [], e => some e
  | ((x, s), pert) :: rest, e => do
    let m ← mkMul (.fld eps []) pert
    let r ← mkAdd (.fld x s) m
    let e' ← replace x r e
    perturb eps rest e'

/-- The loop `for var, bg in zip(variables, backgrounds): diff = diff.replace(var, bg)`
(`dedalus/core/field.py` L297-299). A plain number has no `replace` method. -/
def substAll : List ((Nat × Sig) × Expr K) → Expr K → Option (Expr K)
  | [], e => some e
  | ((x, _), bg) :: rest, e =>
    if e.isOperand then do
      let e' ← replace x bg e
      substAll rest e'
    else none

/-- `dedalus/core/field.py` L260-300 `Operand.frechet_differential`. `eps` is the number of the fresh
field `epsilon`; `backgrounds = []` stands for `None` (or an empty list). -/
def frechet [Consts K] (eps : Nat) (perts : List ((Nat × Sig) × Expr K))
    (backgrounds : List ((Nat × Sig) × Expr K)) (e : Expr K) : Option (Expr K) := do
  let d ← perturb eps perts e
  let d ← symDiff eps d
  let d ← if d.truthy then do
      let d ← castTo e.sig d
      replace eps (.num 0) d
    else some d
  if d.truthy then substAll backgrounds d else some d

end Dedalus.Symb
