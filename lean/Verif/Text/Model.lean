/-!
# Splitting equation strings

Model of `split_equation` (`dedalus/tools/parsing.py` L8-36). Strings are lists of characters; `ws` says which
characters `str.strip` removes.
-/

namespace Dedalus.Text

inductive Err where
  | none
  | multiple
  deriving DecidableEq, Repr

/-- The loop over the characters (L20-28): `i` is the position and `level` the current value of `parentheses`. -/
def scan : List Char → Nat → Int → List Nat
  | [], _, _ => []
  | c :: cs, i, level =>
    if c = '(' then scan cs (i + 1) (level + 1)
    else if c = ')' then scan cs (i + 1) (level - 1)
    else if c = '=' ∧ level = 0 then i :: scan cs (i + 1) level
    else scan cs (i + 1) level

/-- `str.strip` -/
def strip (ws : Char → Bool) (s : List Char) : List Char :=
  ((s.dropWhile ws).reverse.dropWhile ws).reverse

/-- `split_equation` (L8-36). -/
def splitEquation (ws : Char → Bool) (s : List Char) : Except Err (List Char × List Char) :=
  match scan s 0 0 with
  | [] => .error .none
  | [i] => .ok (strip ws (s.take i), strip ws (s.drop (i + 1)))
  | _ => .error .multiple

end Dedalus.Text
