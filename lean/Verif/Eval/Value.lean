import Verif.Eval.Evaluate

/-!
# Values of evaluated operators
-/

namespace Dedalus.Eval

variable {F W : Type}

/-- Field states represent mathematical values: `Good x` says the state resolves its value, and then scale
changes, moves and operators compute what they should. -/
structure Represents (O : Ops F) (Good : F → Prop) (abs : F → W) (sem : Nat → List W → W) : Prop where
  resc : ∀ x, Good x → Good (O.resc x) ∧ abs (O.resc x) = abs x
  up : ∀ k x, Good x → Good (O.up k x) ∧ abs (O.up k x) = abs x
  dn : ∀ k x, Good x → Good (O.dn k x) ∧ abs (O.dn k x) = abs x
  run : ∀ n vs, (∀ v ∈ vs, Good v) → O.chk n vs = true →
    Good (O.run n vs) ∧ abs (O.run n vs) = sem n (vs.map abs)

/-- the values known in a state -/
structure AbsInv (O : Ops F) (Good : F → Prop) (abs : F → W) (sem : Nat → List W → W) (env : Nat → W)
    (id : Nat) (kids : Nat → List Expr) (S : St F) : Prop where
  leaf : ∀ f, Good (S.fs (.leaf f)) ∧ abs (S.fs (.leaf f)) = env f
  out : ∀ n, Done id S n → Good (S.fs (.out n)) ∧
    abs (S.fs (.out n)) = denote sem env (.node n (kids n))

mutual

theorem val_abs {O : Ops F} {Good : F → Prop} {abs : F → W} {sem : Nat → List W → W} {env : Nat → W}
    {id : Nat} {kids : Nat → List Expr} {S : St F} (hR : Represents O Good abs sem)
    (h : AbsInv O Good abs sem env id kids S) :
    ∀ t, Shares kids t → ∀ v, val O id S t = some v → Good v ∧ abs v = denote sem env t
  | .leaf f, _, v, hv => by
    rw [val] at hv
    cases hv
    rw [denote]
    have h1 := h.leaf f
    have h2 := hR.resc _ h1.1
    exact ⟨h2.1, h2.2.trans h1.2⟩
  | .node n ts, hs, v, hv => by
    rw [Shares] at hs
    rw [val] at hv
    by_cases hd : Done id S n
    · rw [if_pos hd] at hv
      cases hv
      have := h.out n hd
      rwa [hs.1] at this
    · rw [if_neg hd] at hv
      cases hvs : vals O id S ts with
      | none => rw [hvs] at hv; cases hv
      | some vs =>
        rw [hvs] at hv
        have hA := vals_abs hR h ts hs.2.2 vs hvs
        simp only at hv
        split at hv
        · cases hv
          have := hR.run n vs hA.1 (by assumption)
          rw [denote, ← hA.2]
          exact this
        · cases hv

theorem vals_abs {O : Ops F} {Good : F → Prop} {abs : F → W} {sem : Nat → List W → W} {env : Nat → W}
    {id : Nat} {kids : Nat → List Expr} {S : St F} (hR : Represents O Good abs sem)
    (h : AbsInv O Good abs sem env id kids S) :
    ∀ ts, SharesAll kids ts → ∀ vs, vals O id S ts = some vs →
      (∀ v ∈ vs, Good v) ∧ vs.map abs = denoteAll sem env ts
  | [], _, vs, hv => by
    rw [vals] at hv
    cases hv
    rw [denoteAll]
    exact ⟨fun _ h => absurd h (by simp), rfl⟩
  | t :: ts, hs, vs, hv => by
    rw [SharesAll] at hs
    rw [vals] at hv
    cases h1 : val O id S t with
    | none => rw [h1] at hv; cases hv
    | some v =>
      cases h2 : vals O id S ts with
      | none => rw [h1, h2] at hv; cases hv
      | some ws =>
        rw [h1, h2] at hv
        cases hv
        have a := val_abs hR h t hs.1 v h1
        have b := vals_abs hR h ts hs.2 ws h2
        rw [denoteAll]
        refine ⟨fun u hu => ?_, by rw [List.map_cons, a.2, b.2]⟩
        rcases List.mem_cons.1 hu with rfl | hu
        · exact a.1
        · exact b.1 u hu

end

theorem move_abs {O : Ops F} {Good : F → Prop} {abs : F → W} {sem : Nat → List W → W} {env : Nat → W}
    {id : Nat} {kids : Nat → List Expr} {S : St F}
    (h : AbsInv O Good abs sem env id kids S) {g : F → F}
    (hg : ∀ x, Good x → Good (g x) ∧ abs (g x) = abs x) (rs : List Ref) :
    AbsInv O Good abs sem env id kids (S.move g rs) := by
  refine ⟨fun f => ?_, fun n hd => ?_⟩
  · simp only [St.move]
    have h1 := h.leaf f
    split
    · have h2 := hg _ h1.1; exact ⟨h2.1, h2.2.trans h1.2⟩
    · exact h1
  · simp only [St.move]
    have h1 := h.out n hd
    split
    · have h2 := hg _ h1.1; exact ⟨h2.1, h2.2.trans h1.2⟩
    · exact h1

theorem dnFrom_abs {O : Ops F} {Good : F → Prop} {abs : F → W} {sem : Nat → List W → W}
    (hR : Represents O Good abs sem) : ∀ k x, Good x → Good (dnFrom O k x) ∧ abs (dnFrom O k x) = abs x
  | 0, x, h => ⟨h, rfl⟩
  | k + 1, x, h => by
    have h1 := hR.dn k x h
    have h2 := dnFrom_abs hR k _ h1.1
    exact ⟨h2.1, h2.2.trans h1.2⟩

mutual

theorem attempt_leaf {O : Ops F} (hO : Lawful O) {id f : Nat} : ∀ t, ∀ S : St F,
    (attempt O id t S).2.fs (.leaf f) = S.fs (.leaf f) ∨
      (attempt O id t S).2.fs (.leaf f) = O.resc (S.fs (.leaf f))
  | .leaf _, _ => by rw [attempt]; exact Or.inl rfl
  | .node n ts, S => by
    have hA := attemptArgs_leaf hO (id := id) (f := f) n ts 0 (S.clear n)
    have hc : (S.clear n).fs (.leaf f) = S.fs (.leaf f) := rfl
    rw [hc] at hA
    rw [attempt]
    split
    · exact Or.inl rfl
    · simp only
      split
      · exact hA
      · split
        · exact hA
        · simpa [St.finish] using hA

theorem attemptArgs_leaf {O : Ops F} (hO : Lawful O) {id f : Nat} (n : Nat) : ∀ ts i, ∀ S : St F,
    (attemptArgs O id n i ts S).2.fs (.leaf f) = S.fs (.leaf f) ∨
      (attemptArgs O id n i ts S).2.fs (.leaf f) = O.resc (S.fs (.leaf f))
  | [], _, _ => by rw [attemptArgs]; exact Or.inl rfl
  | t :: ts, i, S => by
    have comp : ∀ S1 : St F, (S1.fs (.leaf f) = S.fs (.leaf f) ∨ S1.fs (.leaf f) = O.resc (S.fs (.leaf f))) →
        ((attemptArgs O id n (i + 1) ts S1).2.fs (.leaf f) = S.fs (.leaf f) ∨
          (attemptArgs O id n (i + 1) ts S1).2.fs (.leaf f) = O.resc (S.fs (.leaf f))) := by
      intro S1 h1
      have h2 := attemptArgs_leaf hO (id := id) (f := f) n ts (i + 1) S1
      rcases h1 with h1 | h1 <;> rw [h1] at h2
      · exact h2
      · rw [hO.resc_idem] at h2
        exact Or.inr (h2.elim (fun h => h) (fun h => h))
    have hresc : ∀ r, ((S.rescale O r).fs (.leaf f) = S.fs (.leaf f) ∨
        (S.rescale O r).fs (.leaf f) = O.resc (S.fs (.leaf f))) := by
      intro r
      simp only [St.rescale]
      split
      · exact Or.inr rfl
      · exact Or.inl rfl
    cases t with
    | leaf g =>
      rw [attemptArgs]
      exact comp _ (hresc _)
    | node m us =>
      rw [attemptArgs]
      split
      · exact comp _ (hresc _)
      · simp only
        have h0 := attempt_leaf hO (id := id) (f := f) (.node m us) S
        split
        · exact comp _ h0
        · exact comp _ h0

end

theorem attemptTasks_leaf {O : Ops F} (hO : Lawful O) {id f : Nat} : ∀ ts, ∀ S : St F,
    (attemptTasks O id ts S).2.fs (.leaf f) = S.fs (.leaf f) ∨
      (attemptTasks O id ts S).2.fs (.leaf f) = O.resc (S.fs (.leaf f))
  | [], _ => by rw [attemptTasks]; exact Or.inl rfl
  | t :: ts, S => by
    have h1 := attempt_leaf hO (id := id) (f := f) t S
    have h2 := attemptTasks_leaf hO (id := id) (f := f) ts (attempt O id t S).2
    rw [attemptTasks]
    simp only
    rcases h1 with h1 | h1 <;> rw [h1] at h2
    · exact h2
    · rw [hO.resc_idem] at h2
      exact Or.inr (h2.elim (fun h => h) (fun h => h))

mutual

theorem uses_shares {kids : Nat → List Expr} {k : Nat} : ∀ t, Shares kids t → Uses k t →
    Shares kids (.node k (kids k))
  | .leaf _, _, h => by rw [Uses] at h; exact h.elim
  | .node n ts, hs, h => by
    rw [Uses] at h
    rcases h with rfl | h
    · have := hs
      rw [Shares] at this
      rw [this.1]; exact hs
    · rw [Shares] at hs
      exact usesAny_shares ts hs.2.2 h

theorem usesAny_shares {kids : Nat → List Expr} {k : Nat} : ∀ ts, SharesAll kids ts → UsesAny k ts →
    Shares kids (.node k (kids k))
  | [], _, h => by rw [UsesAny] at h; exact h.elim
  | t :: ts, hs, h => by
    rw [UsesAny] at h
    rw [SharesAll] at hs
    rcases h with h | h
    · exact uses_shares t hs.1 h
    · exact usesAny_shares ts hs.2 h

end

theorem attemptTasks_abs {O : Ops F} (hO : Lawful O) {Good : F → Prop} {abs : F → W}
    {sem : Nat → List W → W} {env : Nat → W}
    {id : Nat} {kids : Nat → List Expr} {S : St F} (hR : Represents O Good abs sem)
    (hS : Inv O id kids S) (h : AbsInv O Good abs sem env id kids S) {ts : List Expr}
    (hsh : ∀ t ∈ ts, Shares kids t) :
    AbsInv O Good abs sem env id kids (attemptTasks O id ts S).2 := by
  obtain ⟨hM, _, _, _⟩ := attemptTasks_spec hO ts (sharesAll_of hsh) S (Mid.refl hS)
  have hT := attemptTasks_track (O := O) (id := id) (U := fun k => ∃ t ∈ ts, Uses k t) ts
    (sharesAll_of hsh) (fun t ht k hk => ⟨t, ht, hk⟩) S
  refine ⟨fun f => ?_, fun n hd => ?_⟩
  · have h1 := h.leaf f
    rcases attemptTasks_leaf hO (id := id) (f := f) ts S with e | e <;> rw [e]
    · exact h1
    · have h2 := hR.resc _ h1.1
      exact ⟨h2.1, h2.2.trans h1.2⟩
  · by_cases hd0 : Done id S n
    · rw [(hM.keep n hd0).2]; exact h.out n hd0
    · have hU : ∃ t ∈ ts, Uses n t := by
        by_contra hU
        have := (hT.1.frame n hU).1
        exact hd0 (this.symm.trans hd)
      obtain ⟨t, ht, hu⟩ := hU
      exact val_abs hR h _ (uses_shares t (hsh t ht) hu) _ (hM.new n hd0 hd)

theorem stepMove_abs {O : Ops F} {Good : F → Prop} {abs : F → W} {sem : Nat → List W → W}
    (hR : Represents O Good abs sem) (a b : Nat) (x : F) (h : Good x) :
    Good (stepMove O a b x) ∧ abs (stepMove O a b x) = abs x := by
  unfold stepMove
  split
  · exact hR.up _ _ h
  · exact hR.dn _ _ h

theorem loop_abs {O : Ops F} (hO : Lawful O) {Good : F → Prop} {abs : F → W}
    {sem : Nat → List W → W} {env : Nat → W} {id : Nat} {kids : Nat → List Expr}
    (hR : Represents O Good abs sem) : ∀ idx cur ts (S S' : St F), Inv O id kids S →
      AbsInv O Good abs sem env id kids S → (∀ t ∈ ts, Shares kids t) →
      loop O id idx cur ts S = some S' → AbsInv O Good abs sem env id kids S'
  | idx, cur, [], S, S', _, hA, _, h => by
    rw [loop_nil] at h
    cases h
    exact hA
  | [], cur, t :: ts, S, S', _, _, _, h => by rw [loop] at h; cases h
  | nxt :: rest, cur, t :: ts, S, S', hS, hA, hsh, h => by
    rw [loop_cons O id nxt rest cur _ (List.cons_ne_nil _ _)] at h
    have hS1 : Inv O id kids (S.move (stepMove O cur nxt) (getFields S (t :: ts))) :=
      move_inv hS (stepMove_resc hO cur nxt) _
    have hA1 : AbsInv O Good abs sem env id kids (S.move (stepMove O cur nxt) (getFields S (t :: ts))) :=
      move_abs hA (stepMove_abs hR cur nxt) _
    have h2 := stage_inv hO hS1 hsh
    exact loop_abs hO hR rest nxt _ _ _ h2.1 (attemptTasks_abs hO hR hS1 hA1 hsh)
      (fun u hu => hsh u (h2.2.1 u hu)) h

end Dedalus.Eval
