import Verif.Locked.Spec
import Verif.Field.Lemmas

/-! # Lemmas for locked fields -/

namespace Dedalus.Locked

open Dedalus.Dist Dedalus.Field

variable {Dat V : Type} {E : Env Dat} {rep : V → Nat → List ℚ → Dat} {trunc : Nat → ℚ → V → V}

theorem SameLock.refl (l : LState Dat) : SameLock l l := ⟨rfl, rfl, rfl⟩
theorem SameLock.trans {a b c : LState Dat} (h : SameLock a b) (h' : SameLock b c) : SameLock a c :=
  ⟨h'.scales.trans h.scales, h'.buffer.trans h.buffer, h'.allowed.trans h.allowed⟩
theorem SameLock.permits {a b : LState Dat} (h : SameLock a b) (n : Nat) : Permits b n ↔ Permits a n := by
  unfold Permits; rw [h.allowed]

theorem towardsGrid_step (hs : Sound E rep trunc) (hc : IsChain E) {v : V} {l : LState Dat} (h : Rests E rep v l)
    (hl : l.f.layout + 1 < E.lays.length) :
    (Permits l (l.f.layout + 1) → ∃ l', towardsGrid E l = (l', none) ∧ Rests E rep v l' ∧ SameLock l l' ∧
      l'.f.layout = l.f.layout + 1) ∧
    (¬ Permits l (l.f.layout + 1) → towardsGrid E l = (l, some .value)) := by
  obtain ⟨es, he, hm⟩ := h.permitted
  obtain ⟨f', q1, q2, q3, q4, q5, _⟩ := towardsGrid_ok hs hc h.holds hl
  constructor
  · rintro ⟨es', he', hm'⟩
    rw [he] at he'; cases he'
    refine ⟨{ l with f := f' }, ?_, ⟨q2, es, he, ?_⟩, ⟨q4, q5, rfl⟩, q3⟩
    · simp only [towardsGrid]; rw [if_pos hl]; simp only [he]; rw [if_pos hm', q1]
    · show Entry.layout f'.layout ∈ es
      rw [q3]; exact hm'
  · intro hn
    have : ¬ Entry.layout (l.f.layout + 1) ∈ es := fun hh => hn ⟨es, he, hh⟩
    simp only [towardsGrid]; rw [if_pos hl]; simp only [he]; rw [if_neg this]

theorem towardsCoeff_step (hs : Sound E rep trunc) (hc : IsChain E) {v : V} {l : LState Dat} (h : Rests E rep v l)
    (hL : Lossless trunc l.f.scales) {k : Nat} (hl : l.f.layout = k + 1) :
    (Permits l k → ∃ l', towardsCoeff E l = (l', none) ∧ Rests E rep v l' ∧ SameLock l l' ∧ l'.f.layout = k) ∧
    (¬ Permits l k → towardsCoeff E l = (l, some .value)) := by
  obtain ⟨es, he, hm⟩ := h.permitted
  have hir := h.holds.inRange
  have hp : k < E.paths.length := by have := hc.length; omega
  obtain ⟨f', q1, q2, q3, q4, q5, _⟩ := towardsCoeff_ok hs hc h.holds hl (List.getElem?_eq_getElem hp)
  rw [truncPath_lossless hL] at q2
  have h0 : l.f.layout ≠ 0 := by omega
  have h1 : l.f.layout - 1 = k := by omega
  constructor
  · rintro ⟨es', he', hm'⟩
    rw [he] at he'; cases he'
    refine ⟨{ l with f := f' }, ?_, ⟨q2, es, he, ?_⟩, ⟨q4, q5, rfl⟩, q3⟩
    · simp only [towardsCoeff, he, if_neg h0, h1]; rw [if_pos hm', q1]
    · show Entry.layout f'.layout ∈ es
      rw [q3]; exact hm'
  · intro hn
    have : ¬ Entry.layout k ∈ es := fun hh => hn ⟨es, he, hh⟩
    simp only [towardsCoeff, he, if_neg h0, h1]; rw [if_neg this]

/-- How a loop towards grid space ends. -/
structure UpEnd (E : Env Dat) (rep : V → Nat → List ℚ → Dat) (v : V) (P : Nat → Bool) (l : LState Dat) (r : Res Dat) : Prop where
  rests : Rests E rep v r.1
  same : SameLock l r.1
  le : l.f.layout ≤ r.1.f.layout
  way : ∀ j, l.f.layout ≤ j → j ≤ r.1.f.layout → Permits l j
  before : ∀ j, l.f.layout ≤ j → j < r.1.f.layout → P j = true
  ends : (r.2 = none ∧ P r.1.f.layout = false) ∨
    (r.2 = some .value ∧ P r.1.f.layout = true ∧ ¬ Permits l (r.1.f.layout + 1))

theorem loopUp_end (hs : Sound E rep trunc) (hc : IsChain E) (P : Nat → Bool) {v : V} {k : Nat} (hk : k < E.lays.length)
    (hP : P k = false) : ∀ (n : Nat) (l : LState Dat), Rests E rep v l → l.f.layout ≤ k → k - l.f.layout ≤ n →
    UpEnd E rep v P l (loop P (towardsGrid E) n l) := by
  intro n
  induction n with
  | zero =>
    intro l h h1 h2
    have : l.f.layout = k := by omega
    simp only [loop, this, hP]
    exact ⟨h, SameLock.refl l, le_rfl, fun j a b => (by rw [show j = l.f.layout by simp at b; omega]; exact h.permitted),
      fun j a b => (by simp at b; omega), Or.inl ⟨rfl, by simpa [this] using hP⟩⟩
  | succ n ih =>
    intro l h h1 h2
    cases hc' : P l.f.layout with
    | false =>
      simp only [loop, hc']
      exact ⟨h, SameLock.refl l, le_rfl, fun j a b => (by rw [show j = l.f.layout by simp at b; omega]; exact h.permitted),
        fun j a b => (by simp at b; omega), Or.inl ⟨rfl, hc'⟩⟩
    | true =>
      have hne : l.f.layout ≠ k := by intro he; rw [he, hP] at hc'; cases hc'
      obtain ⟨g1, g2⟩ := towardsGrid_step hs hc h (by omega)
      by_cases hp : Permits l (l.f.layout + 1)
      · obtain ⟨l', e1, e2, e3, e4⟩ := g1 hp
        have hi := ih l' e2 (by omega) (by omega)
        simp only [loop, hc', e1]
        simp only [if_true]
        refine ⟨hi.rests, e3.trans hi.same, by have := hi.le; omega, fun j a b => ?_, fun j a b => ?_, ?_⟩
        · rcases Nat.eq_or_lt_of_le a with a | a
          · rw [← a]; exact h.permitted
          · exact (e3.permits j).1 (hi.way j (by omega) b)
        · rcases Nat.eq_or_lt_of_le a with a | a
          · rw [← a]; exact hc'
          · exact hi.before j (by omega) b
        · rcases hi.ends with he | ⟨x, y, z⟩
          · exact Or.inl he
          · exact Or.inr ⟨x, y, fun hh => z ((e3.permits _).2 hh)⟩
      · simp only [loop, hc', g2 hp]
        exact ⟨h, SameLock.refl l, le_rfl, fun j a b => (by rw [show j = l.f.layout by simp at b; omega]; exact h.permitted),
          fun j a b => (by simp at b; omega), Or.inr ⟨rfl, hc', hp⟩⟩

/-- How a loop towards coefficient space ends. -/
structure DownEnd (E : Env Dat) (rep : V → Nat → List ℚ → Dat) (v : V) (P : Nat → Bool) (l : LState Dat) (r : Res Dat) : Prop where
  rests : Rests E rep v r.1
  same : SameLock l r.1
  le : r.1.f.layout ≤ l.f.layout
  way : ∀ j, r.1.f.layout ≤ j → j ≤ l.f.layout → Permits l j
  before : ∀ j, r.1.f.layout < j → j ≤ l.f.layout → P j = true
  ends : (r.2 = none ∧ P r.1.f.layout = false) ∨
    (r.2 = some .value ∧ P r.1.f.layout = true ∧ 0 < r.1.f.layout ∧ ¬ Permits l (r.1.f.layout - 1))

theorem loopDown_end (hs : Sound E rep trunc) (hc : IsChain E) (P : Nat → Bool) {v : V} {k : Nat} (hP : P k = false) :
    ∀ (n : Nat) (l : LState Dat), Rests E rep v l → Lossless trunc l.f.scales → k ≤ l.f.layout → l.f.layout - k ≤ n →
    DownEnd E rep v P l (loop P (towardsCoeff E) n l) := by
  intro n
  induction n with
  | zero =>
    intro l h hL h1 h2
    have : l.f.layout = k := by omega
    simp only [loop, this, hP]
    exact ⟨h, SameLock.refl l, le_rfl, fun j a b => (by rw [show j = l.f.layout by simp at a; omega]; exact h.permitted),
      fun j a b => (by simp at a; omega), Or.inl ⟨rfl, by simpa [this] using hP⟩⟩
  | succ n ih =>
    intro l h hL h1 h2
    cases hc' : P l.f.layout with
    | false =>
      simp only [loop, hc']
      exact ⟨h, SameLock.refl l, le_rfl, fun j a b => (by rw [show j = l.f.layout by simp at a; omega]; exact h.permitted),
        fun j a b => (by simp at a; omega), Or.inl ⟨rfl, hc'⟩⟩
    | true =>
      have hne : l.f.layout ≠ k := by intro he; rw [he, hP] at hc'; cases hc'
      obtain ⟨m, hm⟩ : ∃ m, l.f.layout = m + 1 := ⟨l.f.layout - 1, by omega⟩
      obtain ⟨g1, g2⟩ := towardsCoeff_step hs hc h hL hm
      by_cases hp : Permits l m
      · obtain ⟨l', e1, e2, e3, e4⟩ := g1 hp
        have hi := ih l' e2 (by rw [e3.scales]; exact hL) (by omega) (by omega)
        simp only [loop, hc', e1]
        simp only [if_true]
        refine ⟨hi.rests, e3.trans hi.same, by have := hi.le; omega, fun j a b => ?_, fun j a b => ?_, ?_⟩
        · rcases Nat.eq_or_lt_of_le b with b | b
          · rw [b]; exact h.permitted
          · exact (e3.permits j).1 (hi.way j a (by omega))
        · rcases Nat.eq_or_lt_of_le b with b | b
          · rw [b]; exact hc'
          · exact hi.before j a (by omega)
        · rcases hi.ends with he | ⟨x, y, w, z⟩
          · exact Or.inl he
          · exact Or.inr ⟨x, y, w, fun hh => z ((e3.permits _).2 hh)⟩
      · simp only [loop, hc', g2 hp]
        exact ⟨h, SameLock.refl l, le_rfl, fun j a b => (by rw [show j = l.f.layout by simp at a; omega]; exact h.permitted),
          fun j a b => (by simp at a; omega), Or.inr ⟨rfl, hc', by simp only [if_true]; omega,
            by simp only [if_true]; rw [hm, Nat.add_sub_cancel]; exact hp⟩⟩

/-- What holds after any request. -/
structure After (E : Env Dat) (rep : V → Nat → List ℚ → Dat) (v : V) (l : LState Dat) (r : Res Dat) : Prop where
  rests : Rests E rep v r.1
  same : SameLock l r.1
  exc : r.2 = none ∨ r.2 = some .value

theorem UpEnd.after {v : V} {P : Nat → Bool} {l : LState Dat} {r : Res Dat} (h : UpEnd E rep v P l r) : After E rep v l r :=
  ⟨h.rests, h.same, h.ends.elim (fun h => Or.inl h.1) (fun h => Or.inr h.1)⟩
theorem DownEnd.after {v : V} {P : Nat → Bool} {l : LState Dat} {r : Res Dat} (h : DownEnd E rep v P l r) : After E rep v l r :=
  ⟨h.rests, h.same, h.ends.elim (fun h => Or.inl h.1) (fun h => Or.inr h.1)⟩

theorem changeLayout_end (hs : Sound E rep trunc) (hc : IsChain E) {v : V} {l : LState Dat} (h : Rests E rep v l)
    (hL : Lossless trunc l.f.scales) {k : Nat} (hk : k < E.lays.length) :
    After E rep v l (changeLayout E l k) ∧
    ((changeLayout E l k).2 = none ↔ ∀ j, OnTheWay l.f.layout k j → Permits l j) ∧
    ((changeLayout E l k).2 = none → (changeLayout E l k).1.f.layout = k) := by
  have hir := h.holds.inRange
  unfold changeLayout
  split_ifs with h1 h2
  · have u := loopUp_end hs hc (fun j => decide (j < k)) hk (by simp) E.fuel l h (by omega) (by simp [Env.fuel]; omega)
    refine ⟨u.after, ⟨fun hn j hj => ?_, fun hw => ?_⟩, fun hn => ?_⟩
    · rcases u.ends with ⟨_, e⟩ | ⟨e, _⟩
      · simp at e
        rcases hj with hj | hj
        · exact u.way j (by omega) (by omega)
        · omega
      · rw [hn] at e; cases e
    · rcases u.ends with ⟨e, _⟩ | ⟨_, e, e'⟩
      · exact e
      · simp at e
        exact absurd (hw _ (Or.inl ⟨by have := u.le; omega, by omega⟩)) e'
    · rcases u.ends with ⟨_, e⟩ | ⟨e, _⟩
      · simp at e
        by_contra hne
        have := u.before k (by omega) (by omega)
        simp at this
      · rw [hn] at e; cases e
  · have u := loopDown_end hs hc (fun j => decide (j > k)) (k := k) (by simp) E.fuel l h hL (by omega) (by simp [Env.fuel]; omega)
    refine ⟨u.after, ⟨fun hn j hj => ?_, fun hw => ?_⟩, fun hn => ?_⟩
    · rcases u.ends with ⟨_, e⟩ | ⟨e, _⟩
      · replace e := of_decide_eq_false e
        rcases hj with hj | hj
        · omega
        · exact u.way j (by omega) (by omega)
      · rw [hn] at e; cases e
    · rcases u.ends with ⟨e, _⟩ | ⟨_, e, e0, e'⟩
      · exact e
      · replace e := of_decide_eq_true e
        exact absurd (hw _ (Or.inr ⟨by omega, by have := u.le; omega⟩)) e'
    · rcases u.ends with ⟨_, e⟩ | ⟨e, _⟩
      · replace e := of_decide_eq_false e
        by_contra hne
        have := u.before k (by omega) (by omega)
        simp at this
      · rw [hn] at e; cases e
  · refine ⟨⟨h, SameLock.refl l, Or.inl rfl⟩, ⟨fun _ j hj => ?_, fun _ => rfl⟩, fun _ => by simp only; omega⟩
    rcases hj with hj | hj <;> omega

theorem gridFlag_last (hc : IsChain E) {a : Nat} (ha : a < E.D) : gridFlag E (E.lays.length - 1) a = some true := by
  have := (level_last hc).flag a ha
  simpa using this

theorem gridFlag_zero (hc : IsChain E) {a : Nat} (ha : a < E.D) : gridFlag E 0 a = some false := by
  have := (level_zero hc).flag a ha
  rw [this]; simp; omega

theorem gridFlag_mono (hc : IsChain E) {a i j : Nat} (ha : a < E.D) (hij : i ≤ j) (hj : j < E.lays.length)
    (h : gridFlag E i a = some true) : gridFlag E j a = some true := by
  obtain ⟨m, hm⟩ := level_exists hc i (by omega)
  obtain ⟨m', hm'⟩ := level_exists hc j hj
  have := level_mono hc hij hj hm hm'
  rw [hm.flag a ha] at h
  rw [hm'.flag a ha]
  simp at h ⊢; omega

/-- The loop condition of `require_grid_space`. -/
def needGrid (E : Env Dat) (axis : Option Nat) : Nat → Bool :=
  match axis with
  | none => fun j => (List.range E.D).any fun a => gridFlag E j a != some true
  | some a => fun j => gridFlag E j a != some true

theorem requireGrid_end (hs : Sound E rep trunc) (hc : IsChain E) {v : V} {l : LState Dat} (h : Rests E rep v l)
    {axis : Option Nat} (hax : ∀ a, axis = some a → a < E.D) :
    UpEnd E rep v (needGrid E axis) l (requireGrid E l axis) := by
  have hir := h.holds.inRange
  cases axis with
  | none =>
    refine loopUp_end hs hc _ (k := E.lays.length - 1) (by omega) ?_ E.fuel l h (by omega) (by simp [Env.fuel]; omega)
    show ((List.range E.D).any fun a => gridFlag E (E.lays.length - 1) a != some true) = false
    rw [List.any_eq_false]
    intro a ha
    rw [List.mem_range] at ha
    simp [gridFlag_last hc ha]
  | some a =>
    refine loopUp_end hs hc _ (k := E.lays.length - 1) (by omega) ?_ E.fuel l h (by omega) (by simp [Env.fuel]; omega)
    simp [needGrid, gridFlag_last hc (hax a rfl)]

/-- The loop condition of `require_coeff_space`. -/
def needCoeff (E : Env Dat) (axis : Option Nat) : Nat → Bool :=
  match axis with
  | none => fun j => (List.range E.D).any fun a => gridFlag E j a == some true
  | some a => fun j => gridFlag E j a == some true

theorem requireCoeff_end (hs : Sound E rep trunc) (hc : IsChain E) {v : V} {l : LState Dat} (h : Rests E rep v l)
    (hL : Lossless trunc l.f.scales) {axis : Option Nat} (hax : ∀ a, axis = some a → a < E.D) :
    DownEnd E rep v (needCoeff E axis) l (requireCoeff E l axis) := by
  have hir := h.holds.inRange
  cases axis with
  | none =>
    refine loopDown_end hs hc _ (k := 0) ?_ E.fuel l h hL (by omega) (by simp [Env.fuel]; omega)
    show ((List.range E.D).any fun a => gridFlag E 0 a == some true) = false
    rw [List.any_eq_false]
    intro a ha
    rw [List.mem_range] at ha
    simp [gridFlag_zero hc ha]
  | some a =>
    refine loopDown_end hs hc _ (k := 0) ?_ E.fuel l h hL (by omega) (by simp [Env.fuel]; omega)
    simp [needCoeff, gridFlag_zero hc (hax a rfl)]

theorem requireLocal_end (hs : Sound E rep trunc) (hc : IsChain E) {v : V} {l : LState Dat} (h : Rests E rep v l)
    (hL : Lossless trunc l.f.scales) {a : Nat} (ha : a < E.D) :
    (gridFlag E l.f.layout a = some true →
      DownEnd E rep v (fun j => locFlag E j a != some true) l (requireLocal E l a)) ∧
    (gridFlag E l.f.layout a ≠ some true →
      UpEnd E rep v (fun j => locFlag E j a != some true) l (requireLocal E l a)) := by
  have hir := h.holds.inRange
  obtain ⟨m, hm⟩ := level_exists hc l.f.layout hir
  have hfl := hm.flag a ha
  constructor
  · intro hg
    unfold requireLocal
    rw [if_pos hg]
    rw [hg] at hfl; simp at hfl
    obtain ⟨k, _, hk2, hk3⟩ := transform_between hc ha (Nat.zero_le _) hir (level_zero hc) hm ha (by omega)
    have := loc_at_transform hc hk3
    refine loopDown_end hs hc _ (k := k + 1) ?_ E.fuel l h hL (by omega) (by simp [Env.fuel]; omega)
    simp [this.2]
  · intro hg
    unfold requireLocal
    rw [if_neg hg]
    have hml : a < m := by
      by_contra hh
      apply hg; rw [hfl]; simp; omega
    obtain ⟨k, hk1, hk2, hk3⟩ := transform_between hc ha (show l.f.layout ≤ E.lays.length - 1 by omega) (by omega) hm
      (level_last hc) hml (by omega)
    have := loc_at_transform hc hk3
    refine loopUp_end hs hc _ (k := k) (by omega) ?_ E.fuel l h (by omega) (by simp [Env.fuel]; omega)
    simp [this.1]

theorem argmin_spec : ∀ (xs : List Nat), xs ≠ [] → ∃ i y, argmin xs = some (i, y) ∧ xs[i]? = some y ∧
    (∀ z ∈ xs, y ≤ z) ∧ ∀ j z, j < i → xs[j]? = some z → y < z := by
  intro xs
  induction xs with
  | nil => intro h; exact absurd rfl h
  | cons x xs ih =>
    intro _
    by_cases hx : xs = []
    · subst hx
      exact ⟨0, x, rfl, rfl, by simp, fun j z hj => by omega⟩
    · obtain ⟨i, y, e1, e2, e3, e4⟩ := ih hx
      by_cases hlt : y < x
      · refine ⟨i + 1, y, by simp only [argmin, e1]; rw [if_pos hlt], by simpa using e2, ?_, ?_⟩
        · intro z hz
          rcases List.mem_cons.1 hz with rfl | hz
          · omega
          · exact e3 z hz
        · intro j z hj hz
          cases j with
          | zero => simp at hz; omega
          | succ j => exact e4 j z (by omega) (by simpa using hz)
      · refine ⟨0, x, by simp only [argmin, e1]; rw [if_neg hlt], rfl, ?_, fun j z hj => by omega⟩
        intro z hz
        rcases List.mem_cons.1 hz with rfl | hz
        · exact le_rfl
        · have := e3 z hz; omega

end Dedalus.Locked
