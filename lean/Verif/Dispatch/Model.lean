/-!
# Dispatch of operators to implementations

Model of `MultiClass.__call__` (`dedalus/tools/dispatch.py`): calling an operator class chooses one of its subclasses by their `_check_args`,
and so on down to a class without subclasses, which is instantiated.
-/

namespace Dedalus.Dispatch

/-- Outcome of a hook: a value, a `SkipDispatchException` with its output, or another exception (`dedalus/tools/exceptions.py`). -/
inductive Hook (α V : Type) where
  | ok (a : α)
  | skip (v : V)
  | error
  deriving DecidableEq

/-- A class: its name, `stop_dispatch`, the hooks `_preprocess_args`, `_check_args`, `_postprocess_args` and the registered subclasses
(`dedalus/tools/dispatch.py` L13-56). -/
inductive Cls (A V : Type) where
  | mk (name : String) (stop : Bool) (pre : A → Hook A V) (check : A → Hook Bool V) (post : A → Hook A V) (subs : List (Cls A V))

variable {A V : Type}

def Cls.name : Cls A V → String | .mk n _ _ _ _ _ => n
def Cls.stop : Cls A V → Bool | .mk _ s _ _ _ _ => s
def Cls.pre : Cls A V → A → Hook A V | .mk _ _ p _ _ _ => p
def Cls.check : Cls A V → A → Hook Bool V | .mk _ _ _ c _ _ => c
def Cls.post : Cls A V → A → Hook A V | .mk _ _ _ _ p _ => p
def Cls.subs : Cls A V → List (Cls A V) | .mk _ _ _ _ _ l => l

/-- What a call gives: an instance of a class with its arguments, the output of a skip exception, or an exception. -/
inductive Res (A V : Type) where
  | inst (name : String) (a : A)
  | value (v : V)
  | typeError
  | notImplemented
  | degenerate
  | error

/-- The subclasses that take part (`dedalus/tools/dispatch.py` L19). -/
def active (c : Cls A V) : List (Cls A V) := c.subs.filter fun s => !s.stop

/-- The list of applicable subclasses (`dedalus/tools/dispatch.py` L26-32): an exception of a check ends the loop. -/
def applicable : List (Cls A V) → A → Hook (List (Cls A V)) V
  | [], _ => .ok []
  | s :: l, a => match s.check a with
    | .skip v => .skip v
    | .error => .error
    | .ok b => match applicable l a with
      | .skip v => .skip v
      | .error => .error
      | .ok r => .ok (if b then s :: r else r)

theorem applicable_mem {l : List (Cls A V)} {a : A} {r : List (Cls A V)} (h : applicable l a = .ok r) : ∀ s ∈ r, s ∈ l := by
  induction l generalizing r with
  | nil => simp only [applicable, Hook.ok.injEq] at h; subst h; simp
  | cons t l ih =>
    simp only [applicable] at h
    split at h <;> try simp at h
    split at h <;> try simp at h
    rename_i b _ _ r' hr'
    subst h
    intro s hs
    split at hs
    · rcases List.mem_cons.1 hs with rfl | hs
      · simp
      · exact List.mem_cons_of_mem _ (ih hr' s hs)
    · exact List.mem_cons_of_mem _ (ih hr' s hs)

/-- `MultiClass.__call__` (`dedalus/tools/dispatch.py` L13-44). -/
def call (c : Cls A V) (a : A) : Res A V :=
  match c.pre a with
  | .skip v => .value v
  | .error => .error
  | .ok a =>
    if (active c).isEmpty then
      match c.check a with
      | .skip v => .value v
      | .error => .error
      | .ok b => if b then .inst c.name a else .typeError
    else match h : applicable (active c) a with
      | .skip v => .value v
      | .error => .error
      | .ok [] => .notImplemented
      | .ok [s] => match s.post a with
        | .skip _ => .error
        | .error => .error
        | .ok a => call s a
      | .ok _ => .degenerate
termination_by sizeOf c
decreasing_by
  have hm := applicable_mem h s (by simp)
  unfold active at hm
  have hs := (List.mem_filter.1 hm).1
  cases c
  simp only [Cls.subs] at hs
  have := List.sizeOf_lt_of_mem hs
  simp only [Cls.mk.sizeOf_spec]
  omega

end Dedalus.Dispatch
