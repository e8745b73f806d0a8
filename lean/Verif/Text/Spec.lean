/-!
# Text of expressions

`Inner` is text whose parentheses match, as found inside a pair of parentheses; `Side` is such text without an
equals sign outside parentheses, as one side of an equation.
-/

namespace Dedalus.Text

/-- Text with matching parentheses. -/
inductive Inner : List Char → Prop where
  | nil : Inner []
  | char (c : Char) (s : List Char) : c ≠ '(' → c ≠ ')' → Inner s → Inner (c :: s)
  | group (a s : List Char) : Inner a → Inner s → Inner ('(' :: a ++ ')' :: s)

/-- Text with matching parentheses in which every equals sign is inside parentheses. -/
inductive Side : List Char → Prop where
  | nil : Side []
  | char (c : Char) (s : List Char) : c ≠ '(' → c ≠ ')' → c ≠ '=' → Side s → Side (c :: s)
  | group (a s : List Char) : Inner a → Side s → Side ('(' :: a ++ ')' :: s)

/-- `t` is `s` without the white space at both ends. -/
structure Stripped (ws : Char → Bool) (s t : List Char) : Prop where
  split : ∃ a b, s = a ++ t ++ b ∧ (∀ c ∈ a, ws c = true) ∧ (∀ c ∈ b, ws c = true)
  first : ∀ c r, t = c :: r → ws c = false
  last : ∀ c r, t = r ++ [c] → ws c = false

end Dedalus.Text
