import Verif.Text.Model
import Verif.Text.Spec

/-!
# C33: equations are split at their one top-level equals sign
-/

namespace Dedalus.Text

/-- Text with matching parentheses inside parentheses contributes nothing. -/
theorem scan_inner {a : List Char} (h : Inner a) : ∀ (rest : List Char) (i : Nat) (level : Int), 0 < level →
    scan (a ++ rest) i level = scan rest (i + a.length) level := by
  induction h with
  | nil => intro rest i level _; simp
  | char c s h1 h2 _ ih =>
    intro rest i level hl
    rw [List.cons_append, scan, if_neg h1, if_neg h2, if_neg (by omega), ih rest _ _ hl, List.length_cons]
    congr 1
    omega
  | group a s _ _ iha ihs =>
    intro rest i level hl
    rw [List.append_assoc, List.cons_append, List.cons_append, scan, if_pos rfl, iha _ _ _ (by omega), scan,
      if_neg (by decide), if_pos rfl, ihs _ _ _ (by omega)]
    congr 1
    · simp only [List.length_append, List.length_cons]; omega
    · omega

/-- One side of an equation contributes nothing. -/
theorem scan_side {a : List Char} (h : Side a) : ∀ (rest : List Char) (i : Nat),
    scan (a ++ rest) i 0 = scan rest (i + a.length) 0 := by
  induction h with
  | nil => intro rest i; simp
  | char c s h1 h2 h3 _ ih =>
    intro rest i
    rw [List.cons_append, scan, if_neg h1, if_neg h2, if_neg (fun h => h3 h.1), ih rest _, List.length_cons]
    congr 1
    omega
  | group a s ha _ ihs =>
    intro rest i
    rw [List.append_assoc, List.cons_append, List.cons_append, scan, if_pos rfl, scan_inner ha _ _ _ (by omega), scan,
      if_neg (by decide), if_pos rfl]
    have e : (0 : Int) + 1 - 1 = 0 := by omega
    rw [e, ihs]
    congr 1
    simp only [List.length_append, List.length_cons]; omega

theorem dropWhile_split (p : Char → Bool) : ∀ s : List Char, ∃ a, s = a ++ s.dropWhile p ∧ (∀ c ∈ a, p c = true) ∧
    ∀ c r, s.dropWhile p = c :: r → p c = false
  | [] => ⟨[], by simp⟩
  | c :: s => by
    obtain ⟨a, h1, h2, h3⟩ := dropWhile_split p s
    cases hc : p c with
    | true =>
      refine ⟨c :: a, ?_, ?_, ?_⟩
      · rw [List.dropWhile_cons, if_pos hc, List.cons_append, ← h1]
      · intro d hd
        rcases List.mem_cons.mp hd with e | hd
        · rw [e, hc]
        · exact h2 d hd
      · rw [List.dropWhile_cons, if_pos hc]; exact h3
    | false =>
      refine ⟨[], ?_, by simp, ?_⟩
      · rw [List.dropWhile_cons, if_neg (by simp [hc])]; rfl
      · rw [List.dropWhile_cons, if_neg (by simp [hc])]
        intro d r e
        cases e
        exact hc

theorem strip_stripped (ws : Char → Bool) (s : List Char) : Stripped ws s (strip ws s) := by
  obtain ⟨a, h1, h2, h3⟩ := dropWhile_split ws s
  obtain ⟨b, h4, h5, h6⟩ := dropWhile_split ws (s.dropWhile ws).reverse
  have e : s.dropWhile ws = strip ws s ++ b.reverse := by
    have := congrArg List.reverse h4
    rw [List.reverse_reverse, List.reverse_append] at this
    exact this
  refine ⟨⟨a, b.reverse, ?_, h2, fun c hc => h5 c (List.mem_reverse.mp hc)⟩, ?_, ?_⟩
  · rw [List.append_assoc, ← e, ← h1]
  · intro c r hc
    rw [hc] at e
    exact h3 c _ (by rw [e, List.cons_append])
  · intro c r hc
    have : ((s.dropWhile ws).reverse.dropWhile ws) = c :: r.reverse := by
      have := congrArg List.reverse hc
      rw [strip, List.reverse_reverse, List.reverse_append] at this
      exact this
    exact h6 c _ this

/-- Stripping has one result. -/
theorem stripped_unique {ws : Char → Bool} {s t : List Char} (h : Stripped ws s t) : strip ws s = t := by
  obtain ⟨a, b, e, ha, hb⟩ := h.split
  have drop : ∀ (a : List Char) (r : List Char), (∀ c ∈ a, ws c = true) → (a ++ r).dropWhile ws = r.dropWhile ws := by
    intro a
    induction a with
    | nil => intro r _; rfl
    | cons c a ih =>
      intro r hc
      rw [List.cons_append, List.dropWhile_cons, if_pos (hc c List.mem_cons_self)]
      exact ih r (fun d hd => hc d (List.mem_cons_of_mem _ hd))
  rw [strip, e, List.append_assoc, drop a _ ha]
  cases t with
  | nil =>
    have : ([] ++ b).dropWhile ws = [] := by
      have := drop b [] hb
      rw [List.append_nil] at this
      rw [List.nil_append, this]; rfl
    rw [this]; rfl
  | cons c r =>
    rw [List.cons_append, List.dropWhile_cons, if_neg (by rw [h.first c r rfl]; simp), ← List.cons_append,
      List.reverse_append, drop _ _ (fun d hd => hb d (List.mem_reverse.mp hd))]
    have key : (c :: r).reverse.dropWhile ws = (c :: r).reverse := by
      generalize hq : (c :: r).reverse = q
      cases q with
      | nil => rfl
      | cons d q' =>
        have e2 : c :: r = q'.reverse ++ [d] := by
          have := congrArg List.reverse hq
          rw [List.reverse_reverse, List.reverse_cons] at this
          exact this
        rw [List.dropWhile_cons, if_neg (by rw [h.last d q'.reverse e2]; simp)]
    rw [key, List.reverse_reverse]

/-- C33. An equation `lhs = rhs`, where both sides have matching parentheses and equals signs only inside them, is split
into its two sides without surrounding white space. -/
theorem equation_split (ws : Char → Bool) (lhs rhs l r : List Char) (hl : Side lhs) (hr : Side rhs)
    (h1 : Stripped ws lhs l) (h2 : Stripped ws rhs r) :
    splitEquation ws (lhs ++ '=' :: rhs) = .ok (l, r) := by
  have e : scan (lhs ++ '=' :: rhs) 0 0 = [lhs.length] := by
    rw [scan_side hl, scan, if_neg (by decide), if_neg (by decide), if_pos ⟨rfl, rfl⟩]
    have := scan_side hr [] (0 + lhs.length + 1)
    rw [List.append_nil] at this
    rw [this, scan, Nat.zero_add]
  unfold splitEquation
  rw [e]
  simp only
  rw [List.take_left]
  have e2 : (lhs ++ '=' :: rhs).drop (lhs.length + 1) = rhs := by
    rw [← List.drop_drop, List.drop_left]; rfl
  rw [e2, stripped_unique h1, stripped_unique h2]

/-- C33. Text without an equals sign outside parentheses is rejected. -/
theorem equation_without_equals (ws : Char → Bool) (s : List Char) (h : Side s) :
    splitEquation ws s = .error .none := by
  have := scan_side h [] 0
  rw [List.append_nil] at this
  unfold splitEquation
  rw [this]
  rfl

/-- C33. Text with two or more equals signs outside parentheses is rejected, whatever follows. -/
theorem equation_with_several (ws : Char → Bool) (a b c : List Char) (ha : Side a) (hb : Side b) :
    splitEquation ws (a ++ '=' :: (b ++ '=' :: c)) = .error .multiple := by
  unfold splitEquation
  rw [scan_side ha, scan, if_neg (by decide), if_neg (by decide), if_pos ⟨rfl, rfl⟩, scan_side hb, scan,
    if_neg (by decide), if_neg (by decide), if_pos ⟨rfl, rfl⟩]

/-- The number of open parentheses before a position. -/
def level (s : List Char) : Int := (s.count '(' : Int) - (s.count ')' : Int)

theorem scan_mem : ∀ (s : List Char) (i : Nat) (k : Int) (p : Nat),
    p ∈ scan s i k ↔ ∃ a b, s = a ++ '=' :: b ∧ k + level a = 0 ∧ p = i + a.length
  | [], i, k, p => by simp [scan]
  | c :: s, i, k, p => by
    have step : ∀ k' : Int, (p ∈ scan s (i + 1) k' ↔ ∃ a b, s = a ++ '=' :: b ∧ k' + level a = 0 ∧
        p = i + 1 + a.length) := fun k' => scan_mem s (i + 1) k' p
    have lift : ∀ k' : Int, k' = k + level [c] → ((∃ a b, s = a ++ '=' :: b ∧ k' + level a = 0 ∧
        p = i + 1 + a.length) ↔ ∃ a b, a ≠ [] ∧ c :: s = a ++ '=' :: b ∧ k + level a = 0 ∧ p = i + a.length) := by
      intro k' hk
      constructor
      · rintro ⟨a, b, h1, h2, h3⟩
        refine ⟨c :: a, b, by simp, by rw [h1]; rfl, ?_, by rw [h3, List.length_cons]; omega⟩
        rw [hk] at h2
        rw [← h2]
        simp only [level, List.count_cons, List.count_nil]
        omega
      · rintro ⟨a, b, h0, h1, h2, h3⟩
        cases a with
        | nil => exact absurd rfl h0
        | cons d a =>
          rw [List.cons_append] at h1
          cases h1
          refine ⟨a, b, rfl, ?_, by rw [h3, List.length_cons]; omega⟩
          rw [hk, ← h2]
          simp only [level, List.count_cons, List.count_nil]
          omega
    have nonempty : c ≠ '=' ∨ k ≠ 0 → ((∃ a b, a ≠ [] ∧ c :: s = a ++ '=' :: b ∧ k + level a = 0 ∧ p = i + a.length) ↔
        ∃ a b, c :: s = a ++ '=' :: b ∧ k + level a = 0 ∧ p = i + a.length) := by
      intro hc
      constructor
      · rintro ⟨a, b, _, h⟩; exact ⟨a, b, h⟩
      · rintro ⟨a, b, h1, h2, h3⟩
        refine ⟨a, b, ?_, h1, h2, h3⟩
        rintro rfl
        rw [List.nil_append] at h1
        cases h1
        rcases hc with hc | hc
        · exact hc rfl
        · apply hc; simpa [level] using h2
    rw [scan]
    split
    · rename_i h
      subst h
      rw [step, lift _ (by simp [level]), nonempty (.inl (by decide))]
    · split
      · rename_i h
        subst h
        rw [step, lift _ (by simp [level]; omega), nonempty (.inl (by decide))]
      · rename_i h1 h2
        have h0 : level [c] = 0 := by
          simp [level, h1, h2]
        split
        · rename_i h
          obtain ⟨rfl, rfl⟩ := h
          rw [List.mem_cons, step, lift _ (by rw [h0]; omega)]
          constructor
          · rintro (h | ⟨a, b, _, h⟩)
            · exact ⟨[], s, rfl, by simp [level], by simpa using h⟩
            · exact ⟨a, b, h⟩
          · rintro ⟨a, b, h1, h2, h3⟩
            cases a with
            | nil => exact .inl (by simpa using h3)
            | cons d a => exact .inr ⟨d :: a, b, by simp, h1, h2, h3⟩
        · rename_i h
          rw [step, lift _ (by rw [h0]; omega), nonempty (by
            by_cases hc : c = '='
            · exact .inr (fun hk => h ⟨hc, hk⟩)
            · exact .inl hc)]

/-- C33 for all strings: a string is accepted only when it is `a ++ "=" ++ b` for an equals sign at level zero, and no
other equals sign of the string is at level zero; the sides are `a` and `b` without surrounding white space. -/
theorem accepted_equation (ws : Char → Bool) (s l r : List Char) (h : splitEquation ws s = .ok (l, r)) :
    ∃ a b, s = a ++ '=' :: b ∧ level a = 0 ∧ Stripped ws a l ∧ Stripped ws b r ∧
      ∀ a' b', s = a' ++ '=' :: b' → level a' = 0 → a' = a := by
  unfold splitEquation at h
  split at h
  · cases h
  · rename_i i hi
    have hm : i ∈ scan s 0 0 := by rw [hi]; exact List.mem_cons_self
    obtain ⟨a, b, h1, h2, h3⟩ := (scan_mem s 0 0 i).mp hm
    rw [Nat.zero_add] at h3
    rw [Int.zero_add] at h2
    subst h3
    simp only [Except.ok.injEq, Prod.mk.injEq] at h
    have e1 : s.take a.length = a := by rw [h1, List.take_left]
    have e2 : s.drop (a.length + 1) = b := by rw [h1, ← List.drop_drop, List.drop_left]; rfl
    rw [e1, e2] at h
    refine ⟨a, b, h1, h2, h.1 ▸ strip_stripped ws a, h.2 ▸ strip_stripped ws b, ?_⟩
    intro a' b' h1' h2'
    have hm' : a'.length ∈ scan s 0 0 := (scan_mem s 0 0 _).mpr ⟨a', b', h1', by omega, by omega⟩
    rw [hi, List.mem_singleton] at hm'
    have : s.take a'.length = a' := by rw [h1', List.take_left]
    rw [← this, hm', e1]
  · cases h

theorem scan_ge : ∀ (s : List Char) (i : Nat) (k : Int) (p : Nat), p ∈ scan s i k → i ≤ p := by
  intro s i k p h
  obtain ⟨a, _, _, _, h⟩ := (scan_mem s i k p).mp h
  omega

theorem scan_nodup : ∀ (s : List Char) (i : Nat) (k : Int), (scan s i k).Nodup
  | [], _, _ => List.nodup_nil
  | c :: s, i, k => by
    rw [scan]
    split
    · exact scan_nodup _ _ _
    · split
      · exact scan_nodup _ _ _
      · split
        · rw [List.nodup_cons]
          exact ⟨fun h => absurd (scan_ge _ _ _ _ h) (by omega), scan_nodup _ _ _⟩
        · exact scan_nodup _ _ _

/-- C33 for all strings, conversely: a string with exactly one equals sign at level zero is accepted. -/
theorem equation_accepted (ws : Char → Bool) (a b : List Char) (ha : level a = 0)
    (hu : ∀ a' b', a ++ '=' :: b = a' ++ '=' :: b' → level a' = 0 → a' = a) :
    ∃ l r, splitEquation ws (a ++ '=' :: b) = .ok (l, r) := by
  have hm : ∀ p, p ∈ scan (a ++ '=' :: b) 0 0 ↔ p = a.length := by
    intro p
    rw [scan_mem]
    constructor
    · rintro ⟨a', b', h1, h2, h3⟩
      rw [Int.zero_add] at h2
      rw [h3, hu a' b' h1 h2, Nat.zero_add]
    · rintro rfl
      exact ⟨a, b, rfl, by omega, by omega⟩
  have hn := scan_nodup (a ++ '=' :: b) 0 0
  unfold splitEquation
  cases h : scan (a ++ '=' :: b) 0 0 with
  | nil =>
    have := (hm a.length).mpr rfl
    rw [h] at this
    cases this
  | cons x l =>
    cases l with
    | nil => exact ⟨_, _, rfl⟩
    | cons y l =>
      exfalso
      rw [h] at hm hn
      have e1 := (hm x).mp (by simp)
      have e2 := (hm y).mp (by simp)
      rw [List.nodup_cons] at hn
      exact hn.1 (by rw [e1, e2]; simp)

/-- `f(x, y=5) = x**2` -/
example : splitEquation (· == ' ') "f(x, y=5) = x**2".toList = .ok ("f(x, y=5)".toList, "x**2".toList) := by rfl

example : Side "f(y=5) ".toList :=
  .char _ _ (by decide) (by decide) (by decide) (.group "y=5".toList " ".toList
    (.char _ _ (by decide) (by decide) (.char _ _ (by decide) (by decide) (.char _ _ (by decide) (by decide) .nil)))
    (.char _ _ (by decide) (by decide) (by decide) .nil))

end Dedalus.Text
