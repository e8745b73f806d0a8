import Verif.Cache.Model

/-!
# Specification of memoisation: what a call without a cache does
-/

namespace Dedalus.Cache

/-- Python's binding of a call to the parameters of a function without `*args`, `**kw` and keyword-only
parameters: no surplus positional argument, no repeated, unknown or already bound keyword; `vals` lists the
values of the parameters. -/
structure Binds (s : Sig) (c : Call) (vals : List Val) : Prop where
  fits : c.args.length ≤ s.names.length
  distinct : (c.kw.map Prod.fst).Nodup
  known : ∀ p ∈ c.kw, p.1 ∈ s.names.drop c.args.length
  size : vals.length = s.names.length
  positional : ∀ i, i < c.args.length → vals[i]? = c.args[i]?
  named : ∀ i n v, c.args.length ≤ i → s.names[i]? = some n → (n, v) ∈ c.kw → vals[i]? = some v
  default : ∀ (i n : Nat), c.args.length ≤ i → s.names[i]? = some n → (∀ v, (n, v) ∉ c.kw) →
    vals[i]? = s.defaults n

/-- The function behind the cache: its body is evaluated on the bound parameters, and a call that does not bind
raises. -/
structure Calls {R : Type} (s : Sig) (body : List Val → Except Err R) (f : Call → Except Err R) : Prop where
  bound : ∀ c vals, Binds s c vals → f c = body vals
  unbound : ∀ c, (∀ vals, ¬ Binds s c vals) → f c = .error .typeError

/-- A tuple value. -/
def IsTuple (v : Val) : Prop := ∃ l, v = tup l

/-- The parameters are not a pair of tuples. -/
def NotTuplePair (vals : List Val) : Prop := ¬ ∃ a b, vals = [a, b] ∧ IsTuple a ∧ IsTuple b

end Dedalus.Cache
