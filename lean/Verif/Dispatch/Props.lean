import Verif.Dispatch.Model

/-!
# C80: an operator call finds the one implementation that accepts the arguments

Stated with an independent description: the paths of classes from the called class to a class without subclasses such that every class on the path
accepts the arguments it is given and none of its siblings does.
-/

namespace Dedalus.Dispatch

variable {A V : Type}

/-- The arguments select the class `d` below `c`, with arguments `b` in the end: every step goes to the only subclass that accepts the arguments, and the class
reached has no subclasses and accepts them. -/
inductive Selects : Cls A V → A → Cls A V → A → Prop where
  | leaf {c : Cls A V} {a a' : A} (hp : c.pre a = .ok a') (hl : ∀ s ∈ c.subs, s.stop = true) (hc : c.check a' = .ok true) : Selects c a c a'
  | step {c s d : Cls A V} {a a' a'' b : A} (l r : List (Cls A V)) (hp : c.pre a = .ok a') (hs : c.subs.filter (fun s => !s.stop) = l ++ s :: r)
      (hc : s.check a' = .ok true) (ho : ∀ t ∈ l ++ r, t.check a' = .ok false) (hq : s.post a' = .ok a'') (h : Selects s a'' d b) : Selects c a d b

theorem active_empty (c : Cls A V) : (active c).isEmpty = true ↔ ∀ s ∈ c.subs, s.stop = true := by
  unfold active
  rw [List.isEmpty_iff, List.filter_eq_nil_iff]
  simp

theorem applicable_singleton (L : List (Cls A V)) (a : A) (s : Cls A V) :
    applicable L a = .ok [s] ↔ ∃ l r, L = l ++ s :: r ∧ s.check a = .ok true ∧ ∀ t ∈ l ++ r, t.check a = .ok false := by
  have hnil : ∀ L : List (Cls A V), applicable L a = .ok [] ↔ ∀ t ∈ L, t.check a = .ok false := by
    intro L
    induction L with
    | nil => simp [applicable]
    | cons t L ih =>
      simp only [applicable, List.mem_cons, forall_eq_or_imp, ← ih]
      cases t.check a with
      | skip v => simp
      | error => simp
      | ok b => cases applicable L a <;> cases b <;> simp
  induction L with
  | nil =>
    simp only [applicable]
    constructor
    · intro h; simp at h
    · rintro ⟨l, r, h, -⟩; simp at h
  | cons t L ih =>
    constructor
    · intro h
      simp only [applicable] at h
      cases ht : t.check a with
      | skip v => simp [ht] at h
      | error => simp [ht] at h
      | ok b =>
        cases hL : applicable L a with
        | skip v => simp [ht, hL] at h
        | error => simp [ht, hL] at h
        | ok r =>
          cases b with
          | true =>
            simp only [ht, hL, Hook.ok.injEq, if_true, List.cons.injEq] at h
            obtain ⟨rfl, rfl⟩ := h
            exact ⟨[], L, rfl, ht, by simpa using (hnil L).1 hL⟩
          | false =>
            simp only [ht, hL, Hook.ok.injEq] at h
            simp at h
            subst h
            obtain ⟨l, r, e, h1, h2⟩ := ih.1 hL
            exact ⟨t :: l, r, by rw [e]; rfl, h1, by simpa [ht] using h2⟩
    · rintro ⟨l, r, e, h1, h2⟩
      cases l with
      | nil =>
        simp only [List.nil_append, List.cons.injEq] at e
        obtain ⟨rfl, rfl⟩ := e
        simp only [applicable, h1, (hnil L).2 (by simpa using h2)]
        rfl
      | cons t' l =>
        simp only [List.cons_append, List.cons.injEq] at e
        obtain ⟨rfl, rfl⟩ := e
        have := ih.2 ⟨l, r, rfl, h1, fun u hu => h2 u (by simp at hu ⊢; exact Or.inr hu)⟩
        simp only [applicable, h2 t (by simp), this]
        rfl

theorem call_leaf {c : Cls A V} {a a' : A} (hp : c.pre a = .ok a') (hl : (active c).isEmpty = true) :
    call c a = match c.check a' with
      | .skip v => .value v
      | .error => .error
      | .ok b => if b then .inst c.name a' else .typeError := by
  rw [call, hp]
  simp only
  rw [if_pos hl]
  cases c.check a' <;> rfl

theorem call_step {c s : Cls A V} {a a' a'' : A} (hp : c.pre a = .ok a') (hl : ¬ (active c).isEmpty = true) (h : applicable (active c) a' = .ok [s]) (hq : s.post a' = .ok a'') :
    call c a = call s a'' := by
  rw [call, hp]
  simp only
  rw [if_neg hl]
  split <;> simp_all

/-- Calling an operator class makes an instance of a class exactly if the arguments select this class: it has no subclasses, it accepts the arguments, and at every
step down to it the subclass taken is the only one that accepts the arguments. -/
theorem dispatch_exact (c : Cls A V) (a : A) (n : String) (b : A) : call c a = .inst n b ↔ ∃ d, Selects c a d b ∧ d.name = n := by
  constructor
  · induction c using (measure (fun c : Cls A V => sizeOf c)).wf.induction generalizing a with
    | _ c ih =>
      intro h
      cases hp : c.pre a with
      | skip v => rw [call, hp] at h; simp at h
      | error => rw [call, hp] at h; simp at h
      | ok a' =>
        by_cases hl : (active c).isEmpty = true
        · rw [call_leaf hp hl] at h
          cases hc : c.check a' with
          | skip v => simp [hc] at h
          | error => simp [hc] at h
          | ok x =>
            cases x with
            | false => simp [hc] at h
            | true =>
              simp only [hc, if_true, Res.inst.injEq] at h
              obtain ⟨h1, rfl⟩ := h
              exact ⟨c, .leaf hp ((active_empty c).1 hl) hc, h1⟩
        · rw [call, hp] at h
          simp only at h
          rw [if_neg hl] at h
          split at h <;> try simp at h
          rename_i s hs
          cases hq : s.post a' with
          | skip v => simp [hq] at h
          | error => simp [hq] at h
          | ok a'' =>
            simp only [hq] at h
            have hlt : sizeOf s < sizeOf c := by
              have hm := applicable_mem hs s (by simp)
              unfold active at hm
              have hs' := (List.mem_filter.1 hm).1
              cases c
              simp only [Cls.subs] at hs'
              have := List.sizeOf_lt_of_mem hs'
              simp only [Cls.mk.sizeOf_spec]
              omega
            obtain ⟨d, hd, hn⟩ := ih s hlt a'' h
            obtain ⟨l, r, e, h1, h2⟩ := (applicable_singleton _ _ _).1 hs
            exact ⟨d, .step l r hp e h1 h2 hq hd, hn⟩
  · rintro ⟨d, h, rfl⟩
    induction h with
    | leaf hp hl hc =>
      rw [call_leaf hp ((active_empty _).2 hl), hc]
      rfl
    | step l r hp hs hc ho hq _ ih =>
      rw [call_step hp ?_ ((applicable_singleton _ _ _).2 ⟨l, r, hs, hc, ho⟩) hq]
      · exact ih
      · unfold active
        rw [hs]
        simp

/-- At most one class is selected. -/
theorem selection_unique {c : Cls A V} {a : A} {d d' : Cls A V} {b b' : A} (h : Selects c a d b) (h' : Selects c a d' b') : d.name = d'.name ∧ b = b' := by
  have e := (dispatch_exact c a d.name b).2 ⟨d, h, rfl⟩
  rw [(dispatch_exact c a d'.name b').2 ⟨d', h', rfl⟩] at e
  simp only [Res.inst.injEq] at e
  exact ⟨e.1.symm, e.2.symm⟩

/-- The outcome up to the order in which subclasses were registered: permuting the subclasses of a class does not change which class is
selected. -/
theorem dispatch_order (name : String) (stop : Bool) (pre post : A → Hook A V) (check : A → Hook Bool V) (subs subs' : List (Cls A V)) (hp : subs.Perm subs') (a b : A) (n : String) :
    call (.mk name stop pre check post subs) a = .inst n b ↔ call (.mk name stop pre check post subs') a = .inst n b := by
  have main : ∀ L L' : List (Cls A V), L.Perm L' → call (.mk name stop pre check post L) a = .inst n b → call (.mk name stop pre check post L') a = .inst n b := by
    intro L L' hp h
    rw [dispatch_exact] at h ⊢
    obtain ⟨d, h, hn⟩ := h
    cases h with
    | leaf hpre hl hc => exact ⟨.mk name stop pre check post L', .leaf hpre (fun s hs => hl s (hp.mem_iff.2 hs)) hc, hn⟩
    | step l r hpre hs hc ho hq h =>
      rename_i s a' a''
      have hf := hp.filter (fun s : Cls A V => !s.stop)
      simp only [Cls.subs] at hs
      rw [hs] at hf
      obtain ⟨l', r', e⟩ := List.append_of_mem (hf.mem_iff.1 (by simp : s ∈ l ++ s :: r))
      rw [e] at hf
      have hr : (l ++ r).Perm (l' ++ r') := by
        have h1 : (s :: (l ++ r)).Perm (s :: (l' ++ r')) := (List.perm_middle.symm.trans hf).trans List.perm_middle
        exact List.Perm.cons_inv h1
      exact ⟨d, .step l' r' hpre e hc (fun t ht => ho t (hr.mem_iff.2 ht)) hq h, hn⟩
  exact ⟨main _ _ hp, main _ _ hp.symm⟩

/-- No subclass accepts the arguments: NotImplementedError. Two accept them: ValueError, never a choice by order. -/
theorem dispatch_failures (c : Cls A V) (a a' : A) (hp : c.pre a = .ok a') (hne : ¬ ∀ s ∈ c.subs, s.stop = true)
    (f : Cls A V → Bool) (hf : ∀ s ∈ c.subs, s.check a' = .ok (f s)) :
    ((∀ s ∈ c.subs, s.stop = false → f s = false) → (match call c a with | .notImplemented => True | _ => False)) ∧
    (2 ≤ (c.subs.filter fun s => !s.stop && f s).length → match call c a with | .degenerate => True | _ => False) := by
  have happ : ∀ L : List (Cls A V), (∀ s ∈ L, s ∈ c.subs) → applicable L a' = .ok (L.filter f) := by
    intro L
    induction L with
    | nil => intro _; rfl
    | cons s L ih =>
      intro hL
      simp only [applicable, hf s (hL s (by simp)), ih fun t ht => hL t (by simp [ht]), List.filter_cons]
  have hact := happ (active c) fun s hs => (List.mem_filter.1 hs).1
  have hl : ¬ (active c).isEmpty = true := fun h => hne ((active_empty c).1 h)
  constructor
  · intro h
    have hnil : (active c).filter f = [] := by
      rw [List.filter_eq_nil_iff]
      intro s hs
      have := List.mem_filter.1 hs
      simp [h s this.1 (by simpa using this.2)]
    rw [hnil] at hact
    have hcall : call c a = .notImplemented := by
      rw [call, hp]
      simp only
      rw [if_neg hl]
      split <;> simp_all
    rw [hcall]
    trivial
  · intro h
    have hlen : 2 ≤ ((active c).filter f).length := by
      unfold active
      rw [List.filter_filter]
      simpa [Bool.and_comm] using h
    have hcall : call c a = .degenerate := by
      rw [call, hp]
      simp only
      rw [if_neg hl]
      generalize (active c).filter f = L at hact hlen
      split
      · rename_i e; rw [hact] at e; simp at e
      · rename_i e; rw [hact] at e; simp at e
      · rename_i e; rw [hact] at e; simp at e; subst e; simp at hlen
      · rename_i e; rw [hact] at e; simp at e; subst e; simp at hlen
      · rfl
    rw [hcall]
    trivial

/-- Three implementations by the sign of the argument, one of them abstract with its own two subclasses. -/
example : call (V := Nat) (.mk "Op" false .ok (fun _ => .ok true) .ok
    [.mk "Zero" false .ok (fun a => .ok (a == 0)) .ok [], .mk "Nonzero" false .ok (fun a => .ok (a != 0)) .ok
      [.mk "Even" false .ok (fun a => .ok (a % 2 == 0)) .ok [], .mk "Odd" false .ok (fun a => .ok (a % 2 == 1)) .ok []]]) 3 = .inst "Odd" 3 := by
  rw [dispatch_exact]
  refine ⟨.mk "Odd" false .ok (fun a => .ok (a % 2 == 1)) .ok [], ?_, rfl⟩
  refine .step [.mk "Zero" false .ok (fun a => .ok (a == 0)) .ok []] [] rfl rfl rfl (by simp [Cls.check]) rfl ?_
  refine .step [.mk "Even" false .ok (fun a => .ok (a % 2 == 0)) .ok []] [] rfl rfl rfl (by simp [Cls.check]) rfl ?_
  exact .leaf rfl (by simp [Cls.subs]) rfl

end Dedalus.Dispatch
