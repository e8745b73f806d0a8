import Verif.Progress.Spec
import Mathlib.Tactic.Linarith
import Mathlib.Tactic.FieldSimp
import Mathlib.Tactic.Ring

namespace Dedalus.Progress

theorem pyRound_near (q : ℚ) : |(pyRound q : ℚ) - q| ≤ 1 / 2 := by
  have h1 := Int.floor_le q
  have h2 := Int.lt_floor_add_one q
  unfold pyRound
  rw [abs_le]
  simp only
  split
  · constructor <;> linarith
  · split
    · push_cast; constructor <;> linarith
    · split
      · constructor <;> linarith
      · push_cast; constructor <;> linarith

theorem pyRound_int (k : ℤ) : pyRound k = k := by
  unfold pyRound
  simp

theorem formatTime_seconds (q : ℚ) : (formatTime q).seconds = pyRound q := by
  unfold formatTime
  simp only [Int.fmod_eq_emod_of_nonneg _ (show (0 : ℤ) ≤ 60 by decide), Int.fdiv_eq_ediv_of_nonneg _ (show (0 : ℤ) ≤ 60 by decide)]
  split
  · simp only [Text.seconds]; omega
  · split
    · simp only [Text.seconds]; omega
    · simp only [Text.seconds]; omega

theorem items_append {α : Type} (a b : List (Event α)) : items (a ++ b) = items a ++ items b := by
  induction a with
  | nil => rfl
  | cons e a ih => cases e <;> simp [items, ih]

theorem items_messages {α : Type} (m : Option Message) : items (m.toList.map (Event.message (α := α))) = [] := by
  cases m <;> rfl

/-- The time divisor, when the period is not zero. -/
def tdiv (dt : Option ℚ) (e : ℚ) : ℤ :=
  match dt with
  | none => if e < 0 then -1 else 0
  | some d => ⌊e / d⌋

theorem timeDiv_ok {c : Cadence} (h : Sane c) (e : ℚ) : timeDiv e c.dt = .ok (tdiv c.dt e) := by
  cases hd : c.dt with
  | none => rfl
  | some d => simp only [timeDiv, if_neg (h.dt d hd).ne', tdiv]

theorem iterDiv_ok {n : ℤ} (hn : 1 ≤ n) (k : Nat) : iterDiv k n = .ok (k / n) := by
  rw [iterDiv, if_neg (by omega), Int.fdiv_eq_ediv_of_nonneg _ (by omega)]

theorem build_ok {k len : Nat} {e : ℚ} (hk : 0 < k) (hl : 0 < len) (he : e ≠ 0) :
    ∃ m, build k len e = .ok m ∧ Tells m k len e := by
  have hk' : (k : ℚ) ≠ 0 := Nat.cast_ne_zero.2 hk.ne'
  have hr : (k : ℚ) / e ≠ 0 := div_ne_zero hk' he
  have e1 : build k len e = .ok ⟨k, len, pyRound (100 * k / len), formatTime e, formatTime (len / (k / e) - e), k / e⟩ := by
    simp only [build, if_neg he, if_neg hr]
  refine ⟨_, e1, ?_⟩
  have h1 : e / k * (len - k) = len / (k / e) - e := by field_simp
  have h2 := pyRound_near (len / (k / e) - e)
  have h3 := pyRound_near e
  rw [← formatTime_seconds] at h2 h3
  exact { completed := rfl, length := rfl, percent := pyRound_near _, elapsed := h3, remaining := by rw [h1]; exact h2, rate := div_mul_cancel₀ _ he }

/-- One pass through the loop. -/
theorem after_ok {c : Cadence} (h : Sane c) {n : ℤ} (hn : 1 ≤ n) {len k : Nat} {e : ℚ} (hk : 0 < k) (hl : 0 < len)
    (he : e ≠ 0) (lt li : ℤ) :
    ((tdiv c.dt e > lt ∨ (k : ℤ) / n > li) ∨ k = len) ∧
        (∃ m, after n c.dt len k e lt li = .ok (some m, tdiv c.dt e, k / n) ∧ Tells m k len e) ∨
      ¬ ((tdiv c.dt e > lt ∨ (k : ℤ) / n > li) ∨ k = len) ∧ after n c.dt len k e lt li = .ok (none, lt, li) := by
  unfold after
  simp only [timeDiv_ok h, iterDiv_ok hn, bind, Except.bind]
  by_cases hd : (tdiv c.dt e > lt ∨ (k : ℤ) / n > li) ∨ k = len
  · obtain ⟨m, e1, hm⟩ := build_ok (len := len) hk hl he
    exact Or.inl ⟨hd, m, by rw [if_pos hd, e1]; rfl, hm⟩
  · exact Or.inr ⟨hd, by rw [if_neg hd]; rfl⟩

/-- What is remembered after `i` items: nothing, or the item divisor of the last
item and, if the clock never goes back, the time divisor at its end. -/
def Remembers (dt : Option ℚ) (n : ℤ) (i : Nat) (prev : Option ℚ) (lt li : ℤ) : Prop :=
  (i = 0 ∧ li = -1) ∨ (0 < i ∧ li = (i : ℤ) / n ∧ ∀ e, prev = some e → lt = tdiv dt e)

theorem tdiv_mono {c : Cadence} (h : Sane c) {a b : ℚ} (hab : a ≤ b) : tdiv c.dt a ≤ tdiv c.dt b := by
  cases hd : c.dt with
  | none =>
    simp only [tdiv]
    split
    · split <;> decide
    · next ha => rw [if_neg (by linarith)]
  | some d => exact Int.floor_mono (div_le_div_of_nonneg_right hab (h.dt d hd).le)

/-- The time at the end of an item, as long as the clock has not gone back. -/
def nextPrev (i : Nat) (e : ℚ) : Option ℚ → Option ℚ
  | none => if i = 0 then some e else none
  | some p => if p ≤ e then some e else none

/-- A pass keeps what is remembered. -/
theorem remembers_step {c : Cadence} (h : Sane c) {n : ℤ} (hn : 1 ≤ n) {len i : Nat} {e : ℚ} {prev : Option ℚ} {lt li : ℤ}
    (hr : Remembers c.dt n i prev lt li) (he : e ≠ 0) (hl : 0 < len) {m : Option Message} {lt' li' : ℤ}
    (ha : after n c.dt len (i + 1) e lt li = .ok (m, lt', li')) :
    Remembers c.dt n (i + 1) (nextPrev i e prev) lt' li' := by
  right
  refine ⟨Nat.succ_pos _, ?_⟩
  have hdiv : ∀ a b : ℤ, a ≤ b → a / n ≤ b / n := fun a b hab => Int.ediv_le_ediv (by omega) hab
  rcases after_ok h hn (len := len) (k := i + 1) (Nat.succ_pos i) hl he lt li with ⟨hd, m', e1, -⟩ | ⟨hd, e1⟩
  · rw [ha] at e1
    cases e1
    refine ⟨rfl, fun e' h' => ?_⟩
    cases prev with
    | none =>
      simp only [nextPrev] at h'
      split at h'
      · cases h'; rfl
      · cases h'
    | some p =>
      simp only [nextPrev] at h'
      split at h'
      · cases h'; rfl
      · cases h'
  · rw [ha] at e1
    cases e1
    push Not at hd
    obtain ⟨⟨h1, h2⟩, -⟩ := hd
    rcases hr with ⟨h0, hli⟩ | ⟨h0, hli, hlt⟩
    · have : (0 : ℤ) ≤ ((i + 1 : Nat) : ℤ) / n := Int.ediv_nonneg (by omega) (by omega)
      omega
    · refine ⟨?_, fun e' h' => ?_⟩
      · have := hdiv i (i + 1 : Nat) (by omega)
        omega
      · cases prev with
        | none =>
          simp only [nextPrev, if_neg (by omega : ¬ i = 0)] at h'
          cases h'
        | some p =>
          simp only [nextPrev] at h'
          split at h'
          · next hpe =>
            cases h'
            have := tdiv_mono h hpe
            have := hlt p rfl
            omega
          · cases h'

theorem loop_append {α : Type} {c : Cadence} (h : Sane c) {n : ℤ} (hn : 1 ≤ n) {len : Nat} (hl : 0 < len) (start : ℚ)
    (pre post : List (α × ℚ)) (ht : ∀ p ∈ pre, p.2 ≠ start) (i : Nat) (prev : Option ℚ) (lt li : ℤ)
    (hr : Remembers c.dt n i prev lt li) :
    ∃ A lt' li' prev', loop n c.dt len start (pre ++ post) i lt li =
        (A ++ (loop n c.dt len start post (i + pre.length) lt' li').1, (loop n c.dt len start post (i + pre.length) lt' li').2) ∧
      items A = pre.map Prod.fst ∧ Remembers c.dt n (i + pre.length) prev' lt' li' ∧
      ((i = 0 ∧ prev = none ∨ ∃ p, prev = some p ∧ ∀ q ∈ pre, p ≤ q.2 - start) → pre.Pairwise (fun a b => a.2 ≤ b.2) →
        (pre = [] ∧ prev' = prev) ∨ ∃ q, pre.getLast? = some q ∧ prev' = some (q.2 - start)) := by
  induction pre generalizing i prev lt li with
  | nil => exact ⟨[], lt, li, prev, rfl, rfl, hr, fun _ _ => Or.inl ⟨rfl, rfl⟩⟩
  | cons p pre ih =>
    obtain ⟨x, t⟩ := p
    have he : t - start ≠ 0 := sub_ne_zero.2 (ht (x, t) List.mem_cons_self)
    obtain ⟨m, lt1, li1, ha⟩ : ∃ m lt1 li1, after n c.dt len (i + 1) (t - start) lt li = .ok (m, lt1, li1) := by
      rcases after_ok h hn (len := len) (k := i + 1) (Nat.succ_pos i) hl he lt li with ⟨-, m', e1, -⟩ | ⟨-, e1⟩
      · exact ⟨_, _, _, e1⟩
      · exact ⟨_, _, _, e1⟩
    obtain ⟨A, lt', li', prev', e1, e2, e3, e4⟩ := ih (fun p hp => ht p (List.mem_cons_of_mem _ hp)) (i + 1) _ lt1 li1
      (remembers_step h hn hr he hl ha)
    have hidx : i + (((x, t) :: pre).length) = i + 1 + pre.length := by simp only [List.length_cons]; omega
    rw [hidx]
    refine ⟨.item x :: (m.toList.map .message ++ A), lt', li', prev', ?_, ?_, e3, ?_⟩
    · simp only [List.cons_append, loop, ha, e1, List.append_assoc]
    · simp only [items, items_append, items_messages, List.nil_append, e2, List.map_cons]
    · intro hp hmono
      right
      rw [List.pairwise_cons] at hmono
      have hprev : nextPrev i (t - start) prev = some (t - start) := by
        rcases hp with ⟨h0, rfl⟩ | ⟨p, rfl, hpq⟩
        · simp only [nextPrev, if_pos h0]
        · simp only [nextPrev, if_pos (hpq _ List.mem_cons_self)]
      rw [hprev] at e4
      rcases e4 (Or.inr ⟨_, rfl, fun q hq => sub_le_sub_right (hmono.1 q hq) _⟩) hmono.2 with ⟨h1, h2⟩ | ⟨q, h1, h2⟩
      · subst h1
        exact ⟨(x, t), rfl, h2⟩
      · refine ⟨q, ?_, h2⟩
        rw [List.getLast?_cons, h1]
        rfl

theorem every_pos {c : Cadence} (h : Sane c) {len : Nat} (hl : 0 < len) : 1 ≤ every c len := by
  have h1 : (0 : ℚ) < c.frac * len := mul_pos h.frac (Nat.cast_pos.2 hl)
  have h2 : 0 < ⌈c.frac * (len : ℚ)⌉ := Int.ceil_pos.2 h1
  unfold every
  cases hi : c.iter with
  | none => exact h2
  | some i =>
    have := h.iter i hi
    exact le_min this h2

theorem every_gap (c : Cadence) (len : Nat) : Gap c len (every c len) := by
  unfold every Gap
  cases hi : c.iter with
  | none => exact ⟨fun i h => (nomatch h), le_rfl, Or.inr rfl⟩
  | some i =>
    refine ⟨fun j h => ?_, min_le_right _ _, ?_⟩
    · cases h; exact min_le_left _ _
    · rcases min_choice i ⌈c.frac * len⌉ with h | h
      · exact Or.inl (by simp only [h])
      · exact Or.inr h

theorem gap_unique {c : Cadence} {len : Nat} {n m : ℤ} (hn : Gap c len n) (hm : Gap c len m) : n = m := by
  obtain ⟨a1, a2, a3⟩ := hn
  obtain ⟨b1, b2, b3⟩ := hm
  rcases a3 with a3 | a3 <;> rcases b3 with b3 | b3
  · rw [a3] at b3; exact Option.some.inj b3
  · have := b1 _ a3; omega
  · have := a1 _ b3; omega
  · omega

theorem div_succ (i : Nat) {n : ℤ} (hn : 1 ≤ n) : (((i + 1 : Nat) : ℤ) / n > (i : ℤ) / n) ↔ n ∣ ((i + 1 : Nat) : ℤ) := by
  rw [gt_iff_lt]
  have hpos : 0 < n := by omega
  constructor
  · intro h
    have h1 : ((i + 1 : Nat) : ℤ) / n * n ≤ ((i + 1 : Nat) : ℤ) := Int.ediv_mul_le _ hpos.ne'
    have h2 : (i : ℤ) < ((i : ℤ) / n + 1) * n := Int.lt_ediv_add_one_mul_self _ hpos
    have h3 : ((i : ℤ) / n + 1) * n ≤ ((i + 1 : Nat) : ℤ) / n * n := Int.mul_le_mul_of_nonneg_right (by omega) hpos.le
    exact ⟨((i + 1 : Nat) : ℤ) / n, by rw [Int.mul_comm]; push_cast at *; omega⟩
  · rintro ⟨q, hq⟩
    rw [hq, Int.mul_ediv_cancel_left _ hpos.ne']
    rw [Int.ediv_lt_iff_lt_mul hpos]
    rw [Int.mul_comm, ← hq]
    push_cast
    omega

theorem tdiv_quiet {c : Cadence} (h : Sane c) {a b : ℚ} (ha : 0 ≤ a) (hab : a ≤ b) :
    tdiv c.dt b > tdiv c.dt a ↔ ¬ Quiet c.dt a b := by
  cases hd : c.dt with
  | none =>
    have h1 : Quiet none a b := fun d hd => (nomatch hd)
    simp only [tdiv, if_neg (by linarith : ¬ a < 0), if_neg (by linarith : ¬ b < 0), h1, not_true, gt_iff_lt, lt_irrefl]
  | some d =>
    have hpos := h.dt d hd
    simp only [tdiv, Quiet, Option.some.injEq, forall_eq', not_forall, not_not, gt_iff_lt]
    constructor
    · intro hlt
      refine ⟨⌊b / d⌋, ?_, ?_⟩
      · rw [← div_lt_iff₀ hpos]
        exact Int.floor_lt.1 hlt
      · rw [← le_div_iff₀ hpos]
        exact Int.floor_le _
    · rintro ⟨k, h1, h2⟩
      rw [← div_lt_iff₀ hpos] at h1
      rw [← le_div_iff₀ hpos] at h2
      exact lt_of_lt_of_le (Int.floor_lt.2 h1) (Int.le_floor.2 h2)

end Dedalus.Progress
