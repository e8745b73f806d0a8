import Verif.Progress.Lemmas

/-!
# Loops with progress messages (C113)

`track` is the wrapped loop, with the reading of the clock after every item.
-/

namespace Dedalus.Progress

/-- **C113 (partial).** A loop with progress messages runs to its end over
exactly the items of the iterable, in order.  Missing: readings of the clock
equal to that at the start (`same_reading_refuted`) and other cadences
(`no_share_refuted`, `no_period_refuted`). -/
theorem items_partial {α : Type} (c : Cadence) (h : Sane c) (start : ℚ) (ps : List (α × ℚ)) (ht : ∀ p ∈ ps, p.2 ≠ start) :
    items (track c start ps).1 = ps.map Prod.fst ∧ (track c start ps).2 = none := by
  cases hps : ps with
  | nil => exact ⟨rfl, rfl⟩
  | cons p qs =>
    rw [← hps]
    have hl : 0 < ps.length := by rw [hps]; exact Nat.succ_pos _
    obtain ⟨A, lt, li, prev, e1, e2, -, -⟩ := loop_append h (every_pos h hl) hl start ps [] ht 0 none (-1) (-1) (Or.inl ⟨rfl, rfl⟩)
    rw [List.append_nil] at e1
    unfold track
    rw [e1]
    simp only [loop, List.append_nil, and_true]
    exact e2

/-- **C113 (partial).** After each item and before the next there is one message
or none, a message tells the truth about this moment, and there is one after the
first item, after the last and whenever another `n` items are done, for the
clock going forwards or backwards. -/
theorem messages_partial {α : Type} (c : Cadence) (h : Sane c) (start : ℚ) (pre post : List (α × ℚ)) (x : α) (t : ℚ)
    (ht : ∀ p ∈ pre ++ (x, t) :: post, p.2 ≠ start) (n : ℤ) (hn : Gap c (pre ++ (x, t) :: post).length n) :
    ∃ (A B : List (Event α)) (ms : List Message),
      (track c start (pre ++ (x, t) :: post)).1 = A ++ .item x :: (ms.map .message ++ B) ∧
      items A = pre.map Prod.fst ∧ items B = post.map Prod.fst ∧ (∀ m Bs, B ≠ .message m :: Bs) ∧ ms.length ≤ 1 ∧
      (∀ m ∈ ms, Tells m (pre.length + 1) (pre.length + 1 + post.length) (t - start)) ∧
      (pre = [] ∨ post = [] ∨ n ∣ (pre.length + 1 : Nat) → ms ≠ []) := by
  have hlen : (pre ++ (x, t) :: post).length = pre.length + 1 + post.length := by
    simp only [List.length_append, List.length_cons]; omega
  have hl : 0 < (pre ++ (x, t) :: post).length := by rw [hlen]; omega
  have hn' : n = every c (pre ++ (x, t) :: post).length := gap_unique hn (every_gap _ _)
  have hn1 := every_pos h hl
  obtain ⟨A, lt, li, prev, e1, e2, hr, -⟩ := loop_append h hn1 hl start pre ((x, t) :: post)
    (fun p hp => ht p (List.mem_append_left _ hp)) 0 none (-1) (-1) (Or.inl ⟨rfl, rfl⟩)
  rw [Nat.zero_add] at e1 hr
  have he : t - start ≠ 0 := sub_ne_zero.2 (ht (x, t) (List.mem_append_right _ List.mem_cons_self))
  have htail : ∀ lt' li' prev', Remembers c.dt (every c (pre ++ (x, t) :: post).length) (pre.length + 1) prev' lt' li' →
      items (loop (every c (pre ++ (x, t) :: post).length) c.dt (pre ++ (x, t) :: post).length start post (pre.length + 1) lt' li').1
        = post.map Prod.fst := by
    intro lt' li' prev' hr'
    obtain ⟨A', _, _, _, q1, q2, -, -⟩ := loop_append h hn1 hl start post []
      (fun p hp => ht p (List.mem_append_right _ (List.mem_cons_of_mem _ hp))) (pre.length + 1) prev' lt' li' hr'
    rw [List.append_nil] at q1
    rw [q1]
    simp only [loop, List.append_nil]
    exact q2
  have hnomsg : ∀ lt' li' m Bs, (loop (every c (pre ++ (x, t) :: post).length) c.dt (pre ++ (x, t) :: post).length start post
      (pre.length + 1) lt' li').1 ≠ .message m :: Bs := by
    intro lt' li' m Bs
    cases post with
    | nil => exact fun h => (nomatch h)
    | cons p post =>
      obtain ⟨y, u⟩ := p
      simp only [loop]
      split <;> exact fun h => (nomatch h)
  rcases after_ok h hn1 (len := (pre ++ (x, t) :: post).length) (k := pre.length + 1) (Nat.succ_pos _) hl he lt li with
    ⟨hd, m, ha, hm⟩ | ⟨hd, ha⟩
  · refine ⟨A, _, [m], ?_, e2, htail _ _ _ (remembers_step h hn1 hr he hl ha), hnomsg _ _, Nat.le_refl 1, ?_, ?_⟩
    · unfold track
      rw [e1]
      simp only [loop, ha]
      rfl
    · intro m' hm'
      rw [List.mem_singleton] at hm'
      rw [hm', ← hlen]
      exact hm
    · exact fun _ => List.cons_ne_nil _ _
  · refine ⟨A, _, [], ?_, e2, htail _ _ _ (remembers_step h hn1 hr he hl ha), hnomsg _ _, Nat.zero_le 1,
      fun m hm => (nomatch hm), ?_⟩
    · unfold track
      rw [e1]
      simp only [loop, ha]
      rfl
    · intro hdue
      exfalso
      apply hd
      rcases hdue with rfl | rfl | hdvd
      · left; right
        rcases hr with ⟨-, hli⟩ | ⟨h0, -⟩
        · have : (0 : ℤ) ≤ ((([] : List (α × ℚ)).length + 1 : Nat) : ℤ) / every c ([] ++ (x, t) :: post).length :=
            Int.ediv_nonneg (by omega) (by omega)
          omega
        · exact absurd h0 (lt_irrefl 0)
      · right; simp
      · left; right
        rcases hr with ⟨h0, hli⟩ | ⟨h0, hli, -⟩
        · have : (0 : ℤ) ≤ ((pre.length + 1 : Nat) : ℤ) / every c (pre ++ (x, t) :: post).length :=
            Int.ediv_nonneg (by omega) (by omega)
          omega
        · rw [hli]
          exact (div_succ _ hn1).2 (hn' ▸ hdvd)

/-- **C113 (partial).** If the clock never goes back, there is a message after an
item only if it is the first or the last, if another `n` items are done, or if a
multiple of the period has passed since the item before. -/
theorem cadence_partial {α : Type} (c : Cadence) (h : Sane c) (start : ℚ) (pre post : List (α × ℚ)) (y x : α) (u t : ℚ)
    (hu : start < u) (ht : ∀ p ∈ pre, start < p.2)
    (hmono : (pre ++ (y, u) :: (x, t) :: post).Pairwise (fun a b => a.2 ≤ b.2)) (n : ℤ)
    (hn : Gap c (pre ++ (y, u) :: (x, t) :: post).length n) :
    ∃ (A B : List (Event α)) (ms : List Message),
      (track c start (pre ++ (y, u) :: (x, t) :: post)).1 = A ++ .item x :: (ms.map .message ++ B) ∧
      items A = pre.map Prod.fst ++ [y] ∧ (∀ m Bs, B ≠ .message m :: Bs) ∧
      (ms ≠ [] ↔ post = [] ∨ n ∣ (pre.length + 2 : Nat) ∨ ¬ Quiet c.dt (u - start) (t - start)) := by
  have hsplit : pre ++ (y, u) :: (x, t) :: post = (pre ++ [(y, u)]) ++ (x, t) :: post := by simp
  have hlen : (pre ++ (y, u) :: (x, t) :: post).length = pre.length + 2 + post.length := by
    simp only [List.length_append, List.length_cons]; omega
  have hl : 0 < (pre ++ (y, u) :: (x, t) :: post).length := by rw [hlen]; omega
  have hn' : n = every c (pre ++ (y, u) :: (x, t) :: post).length := gap_unique hn (every_gap _ _)
  have hn1 := every_pos h hl
  rw [← hn'] at hn1
  have hut : u ≤ t := by
    have := (List.pairwise_append.1 hmono).2.1
    exact (List.pairwise_cons.1 this).1 (x, t) List.mem_cons_self
  have hpre : (pre ++ [(y, u)]).Pairwise (fun a b => a.2 ≤ b.2) := by
    rw [hsplit] at hmono
    exact (List.pairwise_append.1 hmono).1
  obtain ⟨A, lt, li, prev, e1, e2, hr, hlast⟩ := loop_append h hn1 hl start (pre ++ [(y, u)]) ((x, t) :: post)
    (fun p hp => by
      rw [List.mem_append, List.mem_singleton] at hp
      rcases hp with hp | rfl
      · exact (ht p hp).ne'
      · exact hu.ne') 0 none (-1) (-1) (Or.inl ⟨rfl, rfl⟩)
  have hprev : prev = some (u - start) := by
    rcases hlast (Or.inl ⟨rfl, rfl⟩) hpre with ⟨h1, -⟩ | ⟨q, h1, h2⟩
    · simp at h1
    · rw [List.getLast?_append, List.getLast?_singleton] at h1
      cases h1
      exact h2
  have hpl : 0 + (pre ++ [(y, u)]).length = pre.length + 1 := by simp
  rw [hpl] at e1 hr
  rw [← hsplit] at e1
  have he : t - start ≠ 0 := sub_ne_zero.2 (hu.trans_le hut).ne'
  rcases hr with ⟨h0, -⟩ | ⟨-, hli, hlt⟩
  · omega
  have hlt := hlt _ hprev
  have hnomsg : ∀ lt' li' m Bs, (loop n c.dt (pre ++ (y, u) :: (x, t) :: post).length start post
      (pre.length + 1 + 1) lt' li').1 ≠ .message m :: Bs := by
    intro lt' li' m Bs
    cases post with
    | nil => exact fun h => (nomatch h)
    | cons p post =>
      obtain ⟨z, v⟩ := p
      simp only [loop]
      split <;> exact fun h => (nomatch h)
  have hiff : ((tdiv c.dt (t - start) > lt ∨ ((pre.length + 1 + 1 : Nat) : ℤ) / n > li) ∨
        pre.length + 1 + 1 = (pre ++ (y, u) :: (x, t) :: post).length) ↔
      post = [] ∨ n ∣ (pre.length + 2 : Nat) ∨ ¬ Quiet c.dt (u - start) (t - start) := by
    rw [hlt, hli, tdiv_quiet h (sub_nonneg.2 hu.le) (sub_le_sub_right hut _), div_succ _ hn1, hlen]
    have hp : pre.length + 1 + 1 = pre.length + 2 + post.length ↔ post = [] := by
      rw [← List.length_eq_zero_iff]; omega
    rw [hp]
    tauto
  rcases after_ok h hn1 (len := (pre ++ (y, u) :: (x, t) :: post).length) (k := pre.length + 1 + 1) (Nat.succ_pos _) hl he lt li with
    ⟨hd, m, ha, hm⟩ | ⟨hd, ha⟩
  · refine ⟨A, _, [m], ?_, by rw [e2]; simp, hnomsg (tdiv c.dt (t - start)) (((pre.length + 1 + 1 : Nat) : ℤ) / n), ?_⟩
    · unfold track
      rw [← hn', e1]
      simp only [loop, ha]
      rfl
    · exact ⟨fun _ => hiff.1 hd, fun _ => List.cons_ne_nil _ _⟩
  · refine ⟨A, _, [], ?_, by rw [e2]; simp, hnomsg lt li, ?_⟩
    · unfold track
      rw [← hn', e1]
      simp only [loop, ha]
      rfl
    · exact ⟨fun hne => absurd rfl hne, fun hx => absurd (hiff.2 hx) hd⟩

/-- **C113 (partial).** A loop over anything ends with a message of a hundred
percent and no time remaining. -/
theorem finished_partial {α : Type} (c : Cadence) (h : Sane c) (start : ℚ) (ps : List (α × ℚ)) (ht : ∀ p ∈ ps, p.2 ≠ start)
    (hne : ps ≠ []) :
    ∃ A m, (track c start ps).1 = A ++ [.message m] ∧ m.completed = ps.length ∧ m.length = ps.length ∧ m.percent = 100 ∧
      m.remaining.seconds = 0 := by
  obtain ⟨pre, ⟨x, t⟩, rfl⟩ := List.eq_nil_or_concat ps |>.resolve_left hne |> fun ⟨a, b, e⟩ => (⟨a, b, by simpa using e⟩ : ∃ a b, ps = a ++ [b])
  obtain ⟨A, B, ms, e1, -, e3, e4, e5, e6, e7⟩ := messages_partial c h start pre [] x t ht _ (every_gap _ _)
  have hB : B = [] := by
    cases B with
    | nil => rfl
    | cons b B =>
      cases b with
      | item y => simp [items] at e3
      | message m => exact absurd rfl (e4 m B)
  subst hB
  match ms, e5, e6, e7 (Or.inr (Or.inl rfl)) with
  | [m], _, e6, _ =>
    have hT := e6 m List.mem_cons_self
    have hk : ((pre.length + 1 : Nat) : ℚ) ≠ 0 := Nat.cast_ne_zero.2 (Nat.succ_ne_zero _)
    have near : ∀ a b : ℤ, |(a : ℚ) - b| ≤ 1 / 2 → a = b := by
      intro a b hab
      rw [abs_le] at hab
      have h1 : (a : ℚ) < b + 1 := by linarith
      have h2 : (b : ℚ) < a + 1 := by linarith
      have h1' : a < b + 1 := by exact_mod_cast h1
      have h2' : b < a + 1 := by exact_mod_cast h2
      omega
    refine ⟨A ++ [.item x], m, by rw [e1]; simp, ?_, ?_, ?_, ?_⟩
    · rw [hT.completed]; simp
    · rw [hT.length]; simp
    · apply near
      have := hT.percent
      rw [List.length_nil, Nat.add_zero, mul_div_assoc, div_self hk] at this
      simpa using this
    · apply near
      have := hT.remaining
      rw [List.length_nil, Nat.add_zero, sub_self, mul_zero] at this
      simpa using this

/-- Times are written in hours, minutes and seconds, with minutes and seconds
below sixty and without leading parts that are zero, and stand for the time
rounded to a second. -/
theorem time_text (q : ℚ) :
    |((formatTime q).seconds : ℚ) - q| ≤ 1 / 2 ∧
    match formatTime q with
    | .hms h m s => h ≠ 0 ∧ 0 ≤ m ∧ m < 60 ∧ 0 ≤ s ∧ s < 60
    | .ms m s => 0 < m ∧ m < 60 ∧ 0 ≤ s ∧ s < 60
    | .sec s => 0 ≤ s ∧ s < 60 := by
  refine ⟨by rw [formatTime_seconds]; exact pyRound_near q, ?_⟩
  unfold formatTime
  simp only [Int.fmod_eq_emod_of_nonneg _ (show (0 : ℤ) ≤ 60 by decide), Int.fdiv_eq_ediv_of_nonneg _ (show (0 : ℤ) ≤ 60 by decide)]
  split
  · next a b c d e =>
    split at e
    · cases e; omega
    · split at e <;> cases e
  · next e =>
    split at e
    · cases e
    · split at e
      · cases e; omega
      · cases e
  · next e =>
    split at e
    · cases e
    · split at e
      · cases e
      · cases e; omega

/-- The cadence of the loop that builds matrices (subsystems.py L80). -/
def matrices : Cadence := ⟨none, 1/10, some 10⟩

theorem matrices_sane : Sane matrices where
  iter := fun i h => (nomatch h)
  frac := by norm_num [matrices]
  dt := fun d h => by cases h; norm_num

example : Sane matrices ∧ (∀ p ∈ [("a", (3 : ℚ)), ("b", 4), ("c", 20)], p.2 ≠ 1) ∧ Gap matrices 3 1 := by
  refine ⟨matrices_sane, ?_, fun i h => (nomatch h), ?_, Or.inr ?_⟩
  · intro p hp
    simp only [List.mem_cons, List.not_mem_nil, or_false] at hp
    rcases hp with rfl | rfl | rfl <;> norm_num
  · decide +kernel
  · decide +kernel

example : formatTime 3725 = .hms 1 2 5 ∧ formatTime (119/2) = .ms 1 0 ∧ formatTime 7 = .sec 7 := by
  refine ⟨?_, ?_, ?_⟩ <;> decide +kernel

/-- **C113 (refuted).** Not so if the clock reads the same after the first item as
at the start: the loop ends with a division by zero, and the other items are
never handed out. -/
theorem same_reading_refuted :
    ∃ (c : Cadence) (ps : List (Nat × ℚ)), Sane c ∧ items (track c 5 ps).1 = [0] ∧ ps.map Prod.fst = [0, 1] ∧
      (track c 5 ps).2 = some .zeroDivision :=
  ⟨matrices, [(0, 5), (1, 6)], matrices_sane, by decide +kernel, rfl, by decide +kernel⟩

/-- **C113 (refuted).** A share of zero, and `iter` zero, end the loop after its first item. -/
theorem no_share_refuted (α : Type) (c : Cadence) (h : c.frac = 0 ∧ (c.iter = none ∨ ∃ i, c.iter = some i ∧ 0 ≤ i) ∨
    c.iter = some 0 ∧ 0 ≤ c.frac) (start : ℚ) (x : α) (t : ℚ) (ps : List (α × ℚ)) :
    track c start ((x, t) :: ps) = ([.item x], some .zeroDivision) := by
  have h0 : every c ((x, t) :: ps).length = 0 := by
    unfold every
    rcases h with ⟨hf, hi | ⟨i, hi, hi0⟩⟩ | ⟨hi, hf⟩
    · simp [hi, hf]
    · simp [hi, hf, hi0]
    · simp only [hi]
      exact min_eq_left (Int.ceil_nonneg (mul_nonneg hf (Nat.cast_nonneg _)))
  unfold track
  rw [h0]
  simp only [loop, after, iterDiv, if_pos]
  cases timeDiv (t - start) c.dt with
  | error e => cases e; rfl
  | ok v => rfl

/-- **C113 (refuted).** A period of zero ends the loop after its first item. -/
theorem no_period_refuted (α : Type) (c : Cadence) (h : c.dt = some 0) (start : ℚ) (x : α) (t : ℚ) (ps : List (α × ℚ)) :
    track c start ((x, t) :: ps) = ([.item x], some .zeroDivision) := by
  unfold track
  simp only [loop, after, h, timeDiv, if_pos]
  rfl

end Dedalus.Progress
