/-!
# Evaluation of handler tasks

Model of `Future.evaluate`/`attempt` (`dedalus/core/future.py` L95-226) in the form used by the evaluator
(`force=False`, an evaluation id given, `STORE_OUTPUTS` and `STORE_LAST_DEFAULT` on, as in
`dedalus/dedalus.cfg`), of `Evaluator.evaluate_handlers`, `require_coeff_space`, `get_fields` and
`attempt_tasks` (`dedalus/core/evaluator.py` L95-204), and of `oscillate` (`dedalus/tools/general.py`
L49-59).

The state of a field (layout, scales, data on this process) is an element of a type `F`; what operators,
transforms and transposes do to it is given by an `Ops F`. Operators are functions of the states of
their field arguments: user functions with hidden state, locked fields and the storage of the numbers are not
modelled. Non-field arguments of an operator are part of its number.
-/

namespace Dedalus.Eval

/-- An expression: a field, or an operator object with its original operands. Operator objects are numbered;
a subexpression used twice has the same number twice. -/
inductive Expr where
  | leaf (f : Nat)
  | node (n : Nat) (args : List Expr)

/-- A field object: a field of the user, or the output field `op.out` of an operator object
(`get_out`, `dedalus/core/future.py` L208-215: built once and kept). -/
inductive Ref where
  | leaf (f : Nat)
  | out (n : Nat)
  deriving DecidableEq

/-- What the operators and the layout moves do to field states. -/
structure Ops (F : Type) where
  /-- `check_conditions` of operator `n` on its arguments -/
  chk : Nat → List F → Bool
  /-- the output of `preset_scales` and `operate` of operator `n` on its arguments -/
  run : Nat → List F → F
  /-- `change_scales(dealias)` -/
  resc : F → F
  /-- `dist.paths[i].increment` on one field -/
  up : Nat → F → F
  /-- `dist.paths[i].decrement` on one field -/
  dn : Nat → F → F
  /-- `field.layout.index` -/
  lay : F → Nat

/-- The objects of the program. -/
structure St (F : Type) where
  /-- states of the fields -/
  fs : Ref → F
  /-- `op.last_id` (with `op.last_out` the operator's output field) -/
  lastId : Nat → Option Nat
  /-- argument `i` of `op.args` has been replaced by the output field of that argument -/
  sub : Nat → Nat → Bool
  /-- the operators whose `operate` was called, latest first -/
  runs : List Nat

variable {F : Type}

/-- `self.last_id = None` (`dedalus/core/future.py` L156-159). -/
def St.clear (st : St F) (n : Nat) : St F :=
  { st with lastId := fun m => if m = n then none else st.lastId m }

/-- `a.change_scales(a.domain.dealias)` (L166-167). -/
def St.rescale (O : Ops F) (st : St F) (r : Ref) : St F :=
  { st with fs := fun q => if q = r then O.resc (st.fs q) else st.fs q }

/-- `self.args[i] = a_eval` (L170-172). -/
def St.subst (st : St F) (n i : Nat) : St F :=
  { st with sub := fun m j => if m = n ∧ j = i then true else st.sub m j }

/-- `operate(out)`, `reset()` and the update of the storage (L190-204). -/
def St.finish (st : St F) (n id : Nat) (v : F) : St F :=
  { fs := fun q => if q = .out n then v else st.fs q
    lastId := fun m => if m = n then some id else st.lastId m
    sub := fun m j => if m = n then false else st.sub m j
    runs := n :: st.runs }

/-- The field that holds an evaluated argument. -/
def Expr.ref : Expr → Ref
  | .leaf f => .leaf f
  | .node n _ => .out n

mutual

/-- `attempt(id)` (`dedalus/core/future.py` L149-206, L224-226; `dedalus/core/field.py` L399): whether an
output was returned, and the new state. -/
def attempt (O : Ops F) (id : Nat) : Expr → St F → Bool × St F
  | .leaf _, st => (true, st)
  | .node n ts, st =>
    if st.lastId n = some id then (true, st)
    else
      let r := attemptArgs O id n 0 ts (st.clear n)
      if r.1 = false then (false, r.2)
      else if O.chk n (ts.map fun t => r.2.fs t.ref) = false then (false, r.2)
      else (true, r.2.finish n id (O.run n (ts.map fun t => r.2.fs t.ref)))

/-- The loop over the arguments of operator `n`, from position `i` (L161-178). -/
def attemptArgs (O : Ops F) (id n : Nat) : Nat → List Expr → St F → Bool × St F
  | _, [], st => (true, st)
  | i, t :: ts, st =>
    match t with
    | .leaf f => attemptArgs O id n (i + 1) ts (st.rescale O (.leaf f))
    | .node m us =>
      if st.sub n i then attemptArgs O id n (i + 1) ts (st.rescale O (.out m))
      else
        let r := attempt O id (.node m us) st
        let q := attemptArgs O id n (i + 1) ts (if r.1 then r.2.subst n i else r.2)
        (r.1 && q.1, q.2)

end

mutual

/-- `atoms(Field)` (`dedalus/core/future.py` L99-106, `dedalus/core/field.py` L355-360): the arguments that
have been replaced count as fields. -/
def atoms (st : St F) : Expr → List Ref
  | .leaf f => [.leaf f]
  | .node n ts => atomsArgs st n 0 ts

def atomsArgs (st : St F) (n : Nat) : Nat → List Expr → List Ref
  | _, [] => []
  | i, t :: ts =>
    match t with
    | .leaf f => .leaf f :: atomsArgs st n (i + 1) ts
    | .node m us =>
      (if st.sub n i then [.out m] else atoms st (.node m us)) ++ atomsArgs st n (i + 1) ts

end

/-- `get_fields(tasks)` (`dedalus/core/evaluator.py` L182-192). An ordered set: only membership matters for
the moves. -/
def getFields (st : St F) (tasks : List Expr) : List Ref := tasks.flatMap (atoms st)

/-- `attempt_tasks` (`dedalus/core/evaluator.py` L194-204): the unfinished tasks. -/
def attemptTasks (O : Ops F) (id : Nat) : List Expr → St F → List Expr × St F
  | [], st => ([], st)
  | t :: ts, st =>
    let r := attempt O id t st
    let q := attemptTasks O id ts r.2
    (if r.1 then q.1 else t :: q.1, q.2)

/-- Apply a move to a set of fields. -/
def St.move (st : St F) (g : F → F) (rs : List Ref) : St F :=
  { st with fs := fun q => if q ∈ rs then g (st.fs q) else st.fs q }

/-- The loop of `require_coeff_space` (`dedalus/core/evaluator.py` L160-163): for `index` from `k` down to 1, the fields that started
in layout `index` join those already being moved, and all of them are decremented to `index-1`. -/
def coeffLoop (O : Ops F) (start : Ref → Nat) (rs : List Ref) : Nat → List Ref → St F → St F
  | 0, _, st => st
  | k + 1, cur, st =>
    let cur' := cur ++ rs.filter (fun r => start r = k + 1)
    coeffLoop O start rs k cur' (st.move (O.dn k) cur')

/-- The highest layout index of a set of fields. -/
def maxLay (lay : Ref → Nat) (rs : List Ref) : Nat := (rs.map lay).foldl max 0

/-- `require_coeff_space` (`dedalus/core/evaluator.py` L148-163); the coefficient layout has index 0. -/
def requireCoeff (O : Ops F) (rs : List Ref) (st : St F) : St F :=
  if rs.all (fun r => O.lay (st.fs r) = 0) then st
  else coeffLoop O (fun r => O.lay (st.fs r)) rs (maxLay (fun r => O.lay (st.fs r)) rs) [] st

/-- One pass of `oscillate(range(n))` (`dedalus/tools/general.py` L49-59): forward, then backward without
the two ends. -/
def oscPass (n : Nat) : List Nat := List.range n ++ ((List.range n).reverse.drop 1).dropLast

/-- `oscillate(range(n), max_passes=p)`. -/
def oscillate (n p : Nat) : List Nat := (List.replicate p (oscPass n)).flatten

/-- The loop `while tasks` (`dedalus/core/evaluator.py` L119-129); the generator running out
(`StopIteration`) is `none`. The first list is what is left of the generator, `cur` the current index. -/
def loop (O : Ops F) (id : Nat) : List Nat → Nat → List Expr → St F → Option (St F)
  | _, _, [], st => some st
  | [], _, _ :: _, _ => none
  | nxt :: rest, cur, t :: ts, st =>
    let fields := getFields st (t :: ts)
    let st := if cur < nxt then st.move (O.up cur) fields else st.move (O.dn nxt) fields
    let q := attemptTasks O id (t :: ts) st
    loop O id rest nxt q.1 q.2

/-- `evaluate_handlers` (`dedalus/core/evaluator.py` L95-133) up to the outputs in coefficient layout, for tasks in handler order. -/
def evaluate (O : Ops F) (id nLayouts : Nat) (tasks : List Expr) (st : St F) : Option (St F) :=
  let q0 := attemptTasks O id tasks st
  let st1 := requireCoeff O (getFields q0.2 q0.1) q0.2
  let q1 := attemptTasks O id q0.1 st1
  match oscillate nLayouts 10 with
  | [] => none
  | c :: rest => (loop O id rest c q1.1 q1.2).map (fun s => requireCoeff O (tasks.map Expr.ref) s)

/-- An output handed to a handler: the operator's own output field, or a copy made for task number `k`. -/
inductive Obj where
  | own (r : Ref)
  | copy (k : Nat)
  deriving DecidableEq

/-- The loop that copies redundant outputs (`dedalus/core/evaluator.py` L135-142): the output object of each task, with the field it
was copied from. -/
def assignOutputs : Nat → List Ref → List Ref → List (Obj × Ref)
  | _, _, [] => []
  | k, seen, r :: rs =>
    if r ∈ seen then (.copy k, r) :: assignOutputs (k + 1) seen rs
    else (.own r, r) :: assignOutputs (k + 1) (r :: seen) rs

/-- `handler.process` for handlers that change their outputs (`dedalus/core/evaluator.py` L144-146, L332-337): output `k` is changed by
`g k`, in place, one after the other. -/
def process (g : Nat → F → F) : Nat → List Obj → (Obj → F) → (Obj → F)
  | _, [], s => s
  | k, o :: os, s => process g (k + 1) os (fun q => if q = o then g k (s q) else s q)

/-- `SystemHandler.build_system` (`dedalus/core/evaluator.py` L343-358): every task's operator gets a new output field, which is also
stored in `handler.fields`. Output fields are numbered by task; the result is the final `op.out` of every
operator and the list `handler.fields`. -/
def buildSystem : Nat → List Nat → (Nat → Option Nat) → (Nat → Option Nat) × List Nat
  | _, [], out => (out, [])
  | k, n :: ns, out =>
    let r := buildSystem (k + 1) ns (fun m => if m = n then some k else out m)
    (r.1, k :: r.2)

end Dedalus.Eval
