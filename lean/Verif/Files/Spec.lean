import Verif.Files.Model

/-!
# Specification for C16: what should be on disk
-/

namespace Dedalus.Files

variable {α : Type}

/-- Cut a list into consecutive pieces of `m` elements, the last one possibly shorter; without a limit,
one piece. -/
def chunksOf (m : Option Nat) : List α → List (List α)
  | [] => []
  | x :: xs =>
    match m with
    | none => [x :: xs]
    | some m => (x :: xs.take (m - 1)) :: chunksOf (some m) (xs.drop (m - 1))
termination_by l => l.length

/-- Number payloads consecutively from `n`. -/
def number (n : Nat) : List α → List (Rec α)
  | [] => []
  | p :: ps => ⟨n, p⟩ :: number (n + 1) ps

/-- The set files of a history of runs, in set order, when `n` writes came before: every run starts
a new set and cuts its writes into sets of `maxWrites`; numbering continues over runs. -/
def layoutOf (n : Nat) : List (Session α) → List (List (Rec α))
  | [] => []
  | s :: ss => chunksOf s.maxWrites (number (n + 1) s.payloads) ++ layoutOf (n + s.payloads.length) ss

end Dedalus.Files
