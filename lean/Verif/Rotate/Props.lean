import Verif.Rotate.Model

/-!
# C34: processes take turns. C57: directories exist once their creation returns
-/

namespace Dedalus.Rotate

/-- A process is inside its body. -/
def InBody (p : Proc) : Prop := Act.start ∉ p.todo ∧ Act.finish ∈ p.todo

/-- A process has completed its body. -/
def BodyDone (p : Proc) : Prop := Act.finish ∉ p.todo

/-- A process has begun its body. -/
def BodyBegun (p : Proc) : Prop := Act.start ∉ p.todo

/-- No process leaves a barrier before all have arrived. -/
theorem left_le_arrived {n : Nat} {prog : Nat → List Act} {k : Nat} {s : Nat → Proc} (h : Run n prog k s) :
    ∀ p q, p < n → q < n → (s p).left ≤ (s q).arrived := by
  induction h with
  | init => intro p q _ _; exact Nat.le_refl _
  | @step k s t _ hst ih =>
    cases hst with
    | act r a rest hr ht he =>
      intro p q hp hq
      have h1 : ∀ q, q < n → (s q).arrived ≤ (if q = r then advance (s r) a rest else s q).arrived := by
        intro q _
        by_cases e : q = r
        · subst e
          rw [if_pos rfl]
          cases a <;> simp [advance]
        · rw [if_neg e]; exact Nat.le_refl _
      refine Nat.le_trans ?_ (h1 q hq)
      by_cases e : p = r
      · subst e
        simp only [if_true]
        cases a with
        | leave => exact he rfl q hq
        | arrive => exact ih p q hp hq
        | start => exact ih p q hp hq
        | finish => exact ih p q hp hq
      · simp only [if_neg e]; exact ih p q hp hq

/-- Where a process of rank `r` can be. -/
inductive At (n r : Nat) : Proc → Prop where
  | before (k m : Nat) : k + m = r → At n r ⟨barriers m ++ .start :: .finish :: barriers (n - r), k, k⟩
  | beforeIn (k m : Nat) : k + m + 1 = r → At n r ⟨.leave :: (barriers m ++ .start :: .finish :: barriers (n - r)), k + 1, k⟩
  | body : At n r ⟨.finish :: barriers (n - r), r, r⟩
  | after (k m : Nat) : r ≤ k → k + m = n → At n r ⟨barriers m, k, k⟩
  | afterIn (k m : Nat) : r ≤ k → k + m + 1 = n → At n r ⟨.leave :: barriers m, k + 1, k⟩

theorem advance_at {n r : Nat} (hr : r < n) {p : Proc} (h : At n r p) {a : Act} {rest : List Act}
    (ht : p.todo = a :: rest) : At n r (advance p a rest) := by
  cases h with
  | before k m e =>
    cases m with
    | zero =>
      simp only [barriers, List.nil_append] at ht
      cases ht
      have : k = r := by omega
      subst this
      exact .body
    | succ m =>
      simp only [barriers, List.cons_append] at ht
      cases ht
      exact .beforeIn k m (by omega)
  | beforeIn k m e =>
    cases ht
    exact .before (k + 1) m (by omega)
  | body =>
    cases ht
    exact .after r (n - r) (by omega) (by omega)
  | after k m h1 h2 =>
    cases m with
    | zero => cases ht
    | succ m =>
      simp only [barriers] at ht
      cases ht
      exact .afterIn k m h1 (by omega)
  | afterIn k m h1 h2 =>
    cases ht
    exact .after (k + 1) m (by omega) (by omega)

theorem run_at {n : Nat} {k : Nat} {s : Nat → Proc} (h : Run n (rotate n) k s) : ∀ r, r < n → At n r (s r) := by
  induction h with
  | init => intro r hr; exact .before 0 r (by omega)
  | @step k s t _ hst ih =>
    cases hst with
    | act p a rest hp ht he =>
      intro r hr
      by_cases e : r = p
      · subst e
        simp only [if_true]
        exact advance_at hr (ih r hr) ht
      · simp only [if_neg e]; exact ih r hr

theorem not_mem_barriers : ∀ m : Nat, Act.start ∉ barriers m ∧ Act.finish ∉ barriers m
  | 0 => by simp [barriers]
  | m + 1 => by
    obtain ⟨h1, h2⟩ := not_mem_barriers m
    simp [barriers, h1, h2]

theorem at_body {n r : Nat} {p : Proc} (h : At n r p) : InBody p → p.left = r ∧ p.arrived = r := by
  intro hb
  cases h with
  | before k m e => exact absurd (by simp) hb.1
  | beforeIn k m e => exact absurd (by simp) hb.1
  | body => exact ⟨rfl, rfl⟩
  | after k m _ _ => exact absurd hb.2 (not_mem_barriers m).2
  | afterIn k m _ _ => exact absurd hb.2 (by simp [(not_mem_barriers m).2])

theorem at_begun {n r : Nat} {p : Proc} (h : At n r p) : BodyBegun p → r ≤ p.left := by
  intro hb
  cases h with
  | before k m e => exact absurd (by simp) hb
  | beforeIn k m e => exact absurd (by simp) hb
  | body => exact Nat.le_refl _
  | after k m h _ => exact h
  | afterIn k m h _ => exact h

theorem at_done {n r : Nat} {p : Proc} (h : At n r p) : r < p.arrived → BodyDone p := by
  intro hb
  cases h with
  | before k m e => simp only at hb; omega
  | beforeIn k m e => simp only at hb; omega
  | body => simp only at hb; omega
  | after k m _ _ => exact (not_mem_barriers m).2
  | afterIn k m _ _ => intro h; exact absurd h (by simp [(not_mem_barriers m).2])

/-- C34. At most one process is in its body, in every interleaving. -/
theorem one_process_in_body {n k : Nat} {s : Nat → Proc} (h : Run n (rotate n) k s) (p q : Nat) (hp : p < n)
    (hq : q < n) (bp : InBody (s p)) (bq : InBody (s q)) : p = q := by
  have h1 := at_body (run_at h p hp) bp
  have h2 := at_body (run_at h q hq) bq
  have h3 := left_le_arrived h p q hp hq
  have h4 := left_le_arrived h q p hq hp
  omega

/-- C34. Bodies run in rank order: when a process begins its body, all processes of lower rank have completed theirs. -/
theorem bodies_in_rank_order {n k : Nat} {s : Nat → Proc} (h : Run n (rotate n) k s) (p q : Nat) (hp : p < n)
    (hqp : q < p) (bp : BodyBegun (s p)) : BodyDone (s q) := by
  have h1 := at_begun (run_at h p hp) bp
  have h2 := left_le_arrived h p q hp (by omega)
  exact at_done (run_at h q (by omega)) (by omega)

/-- The process with the fewest arrivals. -/
theorem exists_min (f : Nat → Nat) : ∀ n, 0 < n → ∃ p, p < n ∧ ∀ q, q < n → f p ≤ f q
  | 0, h => absurd h (by omega)
  | 1, _ => ⟨0, by omega, fun q hq => by have : q = 0 := by omega
                                         rw [this]; exact Nat.le_refl _⟩
  | n + 2, _ => by
    obtain ⟨p, hp, hm⟩ := exists_min f (n + 1) (by omega)
    by_cases h : f p ≤ f (n + 1)
    · refine ⟨p, by omega, fun q hq => ?_⟩
      by_cases e : q = n + 1
      · rw [e]; exact h
      · exact hm q (by omega)
    · refine ⟨n + 1, by omega, fun q hq => ?_⟩
      by_cases e : q = n + 1
      · rw [e]; exact Nat.le_refl _
      · have := hm q (by omega); omega

/-- C34. No deadlock: in every reachable state all processes are done, or some process can act. -/
theorem no_deadlock {n k : Nat} {s : Nat → Proc} (h : Run n (rotate n) k s) :
    (∀ r, r < n → (s r).todo = []) ∨ ∃ t, Step n s t := by
  by_cases hall : ∀ r, r < n → (s r).todo = []
  · exact .inl hall
  right
  by_cases hfree : ∃ r, r < n ∧ ∃ a rest, (s r).todo = a :: rest ∧ a ≠ .leave
  · obtain ⟨r, hr, a, rest, ht, ha⟩ := hfree
    exact ⟨_, .act s r a rest hr ht (fun e => absurd e ha)⟩
  · -- everybody is done or waiting to leave
    have hw : ∀ r, r < n → (s r).todo = [] ∧ (s r).arrived = n ∧ (s r).left = n ∨
        ∃ rest, (s r).todo = .leave :: rest ∧ (s r).arrived = (s r).left + 1 ∧ (s r).left < n := by
      intro r hr
      have hat := run_at h r hr
      have no : ∀ a rest, (s r).todo = a :: rest → a = .leave := by
        intro a rest ht
        cases a with
        | leave => rfl
        | arrive => exact absurd ⟨r, hr, _, _, ht, by decide⟩ hfree
        | start => exact absurd ⟨r, hr, _, _, ht, by decide⟩ hfree
        | finish => exact absurd ⟨r, hr, _, _, ht, by decide⟩ hfree
      revert no
      generalize s r = p at hat
      intro no
      cases hat with
      | before k m e =>
        cases m with
        | zero => cases no _ _ rfl
        | succ m => cases no _ _ rfl
      | beforeIn k m e => exact .inr ⟨_, rfl, rfl, by simp only; omega⟩
      | body => cases no _ _ rfl
      | after k m h1 h2 =>
        cases m with
        | zero => exact .inl ⟨rfl, by simp only; omega, by simp only; omega⟩
        | succ m => cases no _ _ rfl
      | afterIn k m h1 h2 => exact .inr ⟨_, rfl, rfl, by simp only; omega⟩
    have hex : ∃ r, r < n ∧ (s r).left < n := by
      apply Classical.byContradiction
      intro hno
      apply hall
      intro r hr
      rcases hw r hr with ⟨h3, _⟩ | ⟨_, _, _, h5⟩
      · exact h3
      · exact absurd ⟨r, hr, h5⟩ hno
    obtain ⟨r, hr, hlt⟩ := hex
    obtain ⟨p, hp, hmin⟩ := exists_min (fun r => (s r).left) n (by omega)
    have hpr : (s p).left ≤ (s r).left := hmin r hr
    rcases hw p hp with ⟨_, _, h2⟩ | ⟨rest, h1, h2, _⟩
    · omega
    · refine ⟨_, .act s p .leave rest hp h1 (fun _ q hq => ?_)⟩
      have hpq : (s p).left ≤ (s q).left := hmin q hq
      rcases hw q hq with ⟨_, h4, _⟩ | ⟨_, _, h4, _⟩
      · omega
      · omega

/-- What all processes together still have to do. -/
def remaining (s : Nat → Proc) : Nat → Nat
  | 0 => 0
  | n + 1 => remaining s n + (s n).todo.length

theorem remaining_step {s : Nat → Proc} {r : Nat} {p : Proc} (hp : p.todo.length + 1 = (s r).todo.length) :
    ∀ n, (r < n → remaining (fun q => if q = r then p else s q) n + 1 = remaining s n) ∧
      (n ≤ r → remaining (fun q => if q = r then p else s q) n = remaining s n)
  | 0 => ⟨fun h => absurd h (by omega), fun _ => rfl⟩
  | n + 1 => by
    obtain ⟨h1, h2⟩ := remaining_step hp n
    constructor
    · intro h
      by_cases e : n = r
      · subst e
        rw [remaining, h2 (Nat.le_refl _), remaining]
        simp only [if_true]
        omega
      · rw [remaining, remaining, ← h1 (by omega)]
        simp only [if_neg e]
        omega
    · intro h
      rw [remaining, remaining, h2 (by omega)]
      simp only [if_neg (show ¬ n = r by omega)]

theorem barriers_length : ∀ m, (barriers m).length = 2 * m
  | 0 => rfl
  | m + 1 => by rw [barriers, List.length_cons, List.length_cons, barriers_length m]; omega

/-- C34. Every execution ends: each step uses up one of the `n * (2 * n + 2)` actions. Together with `no_deadlock`, every
execution that cannot go on has all processes done. -/
theorem execution_bounded {n k : Nat} {s : Nat → Proc} (h : Run n (rotate n) k s) :
    k + remaining s n = n * (2 * n + 2) := by
  induction h with
  | init =>
    have : ∀ m, m ≤ n → remaining (fun r => (⟨rotate n r, 0, 0⟩ : Proc)) m = m * (2 * n + 2) := by
      intro m
      induction m with
      | zero => intro _; simp [remaining]
      | succ m ih =>
        intro hm
        rw [remaining, ih (by omega), Nat.add_mul m 1]
        simp only [rotate, List.length_append, List.length_cons, barriers_length]
        omega
    rw [this n (Nat.le_refl _)]; omega
  | @step k s t _ hst ih =>
    cases hst with
    | act r a rest hr ht he =>
      have := (remaining_step (s := s) (r := r) (p := advance (s r) a rest)
        (by rw [ht, List.length_cons]; cases a <;> rfl) n).1 hr
      omega

/-- C34. All processes pass the same number of barriers. -/
theorem same_number_of_barriers {n k : Nat} {s : Nat → Proc} (h : Run n (rotate n) k s) (r : Nat) (hr : r < n)
    (hd : (s r).todo = []) : (s r).left = n ∧ (s r).arrived = n := by
  have hat := run_at h r hr
  revert hd
  generalize s r = p at hat
  intro hd
  cases hat with
  | before k m e => simp at hd
  | beforeIn k m e => cases hd
  | body => cases hd
  | after k m h1 h2 =>
    cases m with
    | zero => exact ⟨by simp only; omega, by simp only; omega⟩
    | succ m => cases hd
  | afterIn k m h1 h2 => cases hd

/-- A run of two processes in which rank 0 is in its body. -/
example : ∃ k s, Run 2 (rotate 2) k s ∧ InBody (s 0) ∧ ¬ BodyBegun (s 1) :=
  ⟨1, _, .step .init (.act _ 0 .start _ (by decide) rfl (fun h => by cases h)), by
    simp only [InBody, BodyBegun, rotate, barriers]; decide⟩

/-! Directories -/

inductive AtDir (r : Nat) : Proc → Prop where
  | initial : AtDir r ⟨mkdir r, 0, 0⟩
  | making : r = 0 → AtDir r ⟨.finish :: barriers 1, 0, 0⟩
  | ready : AtDir r ⟨barriers 1, 0, 0⟩
  | waiting : AtDir r ⟨[.leave], 1, 0⟩
  | done : AtDir r ⟨[], 1, 1⟩

theorem run_atDir {n k : Nat} {s : Nat → Proc} (h : Run n mkdir k s) : ∀ r, AtDir r (s r) := by
  induction h with
  | init => intro r; exact .initial
  | @step k s t _ hst ih =>
    cases hst with
    | act p a rest hp ht he =>
      intro r
      by_cases e : r = p
      · subst e
        simp only [if_true]
        have := ih r
        revert ht
        generalize s r = q at this
        intro ht
        cases this with
        | initial =>
          by_cases h0 : r = 0
          · subst h0
            cases ht
            exact .making rfl
          · simp only [mkdir, if_neg h0, List.nil_append, barriers] at ht
            cases ht
            exact .waiting
        | making h0 => cases ht; exact .ready
        | ready => cases ht; exact .waiting
        | waiting => cases ht; exact .done
        | done => cases ht
      · simp only [if_neg e]; exact ih r

/-- C57. When the call returns on any process, rank 0 has made the directory. -/
theorem directory_exists {n k : Nat} {s : Nat → Proc} (h : Run n mkdir k s) (r : Nat) (hr : r < n)
    (hd : (s r).todo = []) : BodyDone (s 0) := by
  have h1 := run_atDir h r
  have h0 := run_atDir h 0
  have hl := left_le_arrived h r 0 hr (by omega)
  have hone : 1 ≤ (s 0).arrived := by
    refine Nat.le_trans ?_ hl
    revert hd
    generalize s r = q at h1
    intro hd
    cases h1 with
    | initial => simp [mkdir, barriers] at hd
    | making _ => cases hd
    | ready => cases hd
    | waiting => cases hd
    | done => exact Nat.le_refl _
  revert hone
  generalize s 0 = q at h0
  intro hone
  cases h0 with
  | initial => simp at hone
  | making _ => simp at hone
  | ready => simp at hone
  | waiting => simp [BodyDone]
  | done => simp [BodyDone]

/-- Only rank 0 makes the directory. -/
theorem directory_made_once {n k : Nat} {s : Nat → Proc} (h : Run n mkdir k s) (r : Nat) (hb : InBody (s r)) :
    r = 0 := by
  have h1 := run_atDir h r
  revert hb
  generalize s r = q at h1
  intro hb
  cases h1 with
  | initial =>
    by_cases h0 : r = 0
    · exact h0
    · exact absurd hb.2 (by simp [mkdir, h0, barriers])
  | making h0 => exact h0
  | ready => exact absurd hb.2 (by simp [barriers])
  | waiting => exact absurd hb.2 (by simp)
  | done => exact absurd hb.2 (by simp)

/-- A run of two processes in which rank 1 returns. -/
example : ∃ k s, Run 2 mkdir k s ∧ (s 1).todo = [] :=
  ⟨5, _, .step (.step (.step (.step (.step .init
    (.act _ 1 .arrive _ (by decide) rfl (fun h => by cases h)))
    (.act _ 0 .start _ (by decide) rfl (fun h => by cases h)))
    (.act _ 0 .finish _ (by decide) rfl (fun h => by cases h)))
    (.act _ 0 .arrive _ (by decide) rfl (fun h => by cases h)))
    (.act _ 1 .leave _ (by decide) rfl (fun _ q hq => by
      match q, hq with
      | 0, _ => decide
      | 1, _ => decide)), rfl⟩

end Dedalus.Rotate
