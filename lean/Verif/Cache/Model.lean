/-!
# Memoisation

Model of `CachedFunction`, `CachedMethod`, `serialize_call` and of the instance cache of `CachedClass`
(`dedalus/tools/cache.py`). Python values used as keys are atoms (numbers, strings, objects) or tuples;
two atoms are equal when Python's `==` and `hash` identify them. Unhashable arguments are not modelled.
-/

namespace Dedalus.Cache

/-- A hashable Python value: an atom, or a tuple as a list built from `unit` and `pair`. -/
inductive Val where
  | atom (n : Nat)
  | unit
  | pair (a b : Val)
  deriving DecidableEq

/-- The tuple with the given entries. -/
def tup : List Val → Val
  | [] => .unit
  | v :: vs => .pair v (tup vs)

/-- Arguments of a call: positional, and keywords in the order written. -/
structure Call where
  args : List Val
  kw : List (Nat × Val)

/-- `argnames` and `defaults` of the function (`dedalus/tools/cache.py` L57-62). -/
structure Sig where
  names : List Nat
  defaults : Nat → Option Val

inductive Err where
  | keyError
  | typeError
  /-- raised by the body of the function -/
  | raised (n : Nat)
  deriving DecidableEq

/-- `direct_call = (args, tuple(kw.items()))` (L66). -/
def direct (c : Call) : Val :=
  tup [tup c.args, tup (c.kw.map fun p => tup [.atom p.1, p.2])]

/-- The arguments found for the remaining names in `serialize_call` (L156-161); `none` is the `KeyError` of
`defaults[name]`. -/
def fill (defaults : Nat → Option Val) (kw : List (Nat × Val)) : List Nat → Option (List Val)
  | [] => some []
  | n :: ns =>
    match (match kw.lookup n with | some v => some v | none => defaults n) with
    | none => none
    | some v =>
      match fill defaults kw ns with
      | none => none
      | some vs => some (v :: vs)

/-- `serialize_call` (L153-162), as a list. -/
def resolve (s : Sig) (c : Call) : Option (List Val) :=
  match fill s.defaults c.kw (s.names.drop c.args.length) with
  | none => none
  | some vs => some (c.args ++ vs)

/-- An `OrderedDict`, oldest entry first. -/
abbrev Dict (R : Type) := List (Val × R)

/-- `cache[k] = v`: an existing key keeps its place. -/
def Dict.set {R : Type} (k : Val) (v : R) : Dict R → Dict R
  | [] => [(k, v)]
  | e :: es => if e.1 = k then (k, v) :: es else e :: Dict.set k v es

/-- `n >= max_size` (L82), where `none` is `np.inf`. -/
def full : Option Nat → Nat → Bool
  | none, _ => false
  | some m, n => decide (m ≤ n)

/-- `while len(cache) >= max_size: cache.popitem(last=False)` (L82-83); `none` is the `KeyError` of `popitem` on an
empty dictionary. -/
def shrink {R : Type} (max : Option Nat) : Dict R → Option (Dict R)
  | [] => if full max 0 then none else some []
  | e :: es => if full max (e :: es).length then shrink max es else some (e :: es)

/-- `CachedFunction.__call__` (L64-88): the result, and the new cache. -/
def call {R : Type} (s : Sig) (f : Call → Except Err R) (max : Option Nat) (c : Call) (d : Dict R) :
    Except Err R × Dict R :=
  match d.lookup (direct c) with
  | some r => (.ok r, d)
  | none =>
    match resolve s c with
    | none => (.error .keyError, d)
    | some vals =>
      match d.lookup (tup vals) with
      | some r => (.ok r, d.set (direct c) r)
      | none =>
        match shrink max d with
        | none => (.error .keyError, [])
        | some d' =>
          match f c with
          | .error e => (.error e, d')
          | .ok r => (.ok r, (d'.set (direct c) r).set (tup vals) r)

/-- The cache after a history of calls. -/
def history {R : Type} (s : Sig) (f : Call → Except Err R) (max : Option Nat) : List Call → Dict R → Dict R
  | [], d => d
  | c :: cs, d => history s f max cs (call s f max c d).2

/-- The instance cache of a class (`CachedClass.__call__`, L120-136): live instances by canonical arguments,
and the next object identity. -/
structure Inst where
  live : List (List Val × Nat)
  next : Nat

/-- Instantiation: `canon` is binding, defaults and `_preprocess_cache_args`, which may raise. -/
def instantiate (canon : Call → Except Err (List Val)) (c : Call) (s : Inst) : Except Err Nat × Inst :=
  match canon c with
  | .error e => (.error e, s)
  | .ok key =>
    match s.live.lookup key with
    | some i => (.ok i, s)
    | none => (.ok s.next, ⟨(key, s.next) :: s.live, s.next + 1⟩)

/-- What happens to a class: instantiations, and instances that are garbage collected (a
`WeakValueDictionary` forgets them). -/
inductive InstOp where
  | new (c : Call)
  | collect (i : Nat)

def instStep (canon : Call → Except Err (List Val)) : InstOp → Inst → Inst
  | .new c, s => (instantiate canon c s).2
  | .collect i, s => ⟨s.live.filter (fun e => e.2 ≠ i), s.next⟩

def instHistory (canon : Call → Except Err (List Val)) : List InstOp → Inst → Inst
  | [], s => s
  | o :: os, s => instHistory canon os (instStep canon o s)

end Dedalus.Cache
