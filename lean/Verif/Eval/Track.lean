import Mathlib.Data.List.Nodup
import Verif.Eval.Osc

/-!
# What an evaluation computes and leaves behind
-/

namespace Dedalus.Eval

variable {F : Type}

/-- Bookkeeping from `S` to `S'`, when only operators in `U` are touched. -/
structure Track (id : Nat) (U : Nat → Prop) (S S' : St F) : Prop where
  runs : ∃ new : List Nat, S'.runs = new ++ S.runs ∧ new.Nodup ∧
    (∀ k ∈ new, ¬ Done id S k ∧ Done id S' k) ∧ ∀ k, Done id S' k → Done id S k ∨ k ∈ new
  done : ∀ k, Done id S k → Done id S' k
  frame : ∀ k, ¬ U k → S'.lastId k = S.lastId k ∧ ∀ i, S'.sub k i = S.sub k i
  ids : ∀ k j, S'.lastId k = some j → j = id ∨ S.lastId k = some j

theorem Track.refl (id : Nat) (U : Nat → Prop) (S : St F) : Track id U S S :=
  ⟨⟨[], rfl, List.nodup_nil, fun _ h => absurd h (by simp), fun _ h => Or.inl h⟩, fun _ h => h,
    fun _ _ => ⟨rfl, fun _ => rfl⟩, fun _ _ h => Or.inr h⟩

theorem Track.trans {id : Nat} {U : Nat → Prop} {S T V : St F} (h1 : Track id U S T)
    (h2 : Track id U T V) : Track id U S V := by
  obtain ⟨n1, a1, b1, c1, d1⟩ := h1.runs
  obtain ⟨n2, a2, b2, c2, d2⟩ := h2.runs
  refine ⟨⟨n2 ++ n1, ?_, ?_, ?_, ?_⟩, fun k h => h2.done k (h1.done k h), fun k h => ?_, fun k j h => ?_⟩
  · rw [a2, a1, List.append_assoc]
  · rw [List.nodup_append]
    refine ⟨b2, b1, ?_⟩
    intro a ha b hb e
    subst e
    exact (c2 a ha).1 (c1 a hb).2
  · intro k hk
    rcases List.mem_append.1 hk with hk | hk
    · exact ⟨fun e => (c2 k hk).1 (h1.done k e), (c2 k hk).2⟩
    · exact ⟨(c1 k hk).1, h2.done k (c1 k hk).2⟩
  · intro k hk
    rcases d2 k hk with h | h
    · rcases d1 k h with h | h
      · exact Or.inl h
      · exact Or.inr (List.mem_append_right _ h)
    · exact Or.inr (List.mem_append_left _ h)
  · have e1 := h1.frame k h
    have e2 := h2.frame k h
    exact ⟨e2.1.trans e1.1, fun i => (e2.2 i).trans (e1.2 i)⟩
  · rcases h2.ids k j h with h | h
    · exact Or.inl h
    · exact h1.ids k j h

/-- Steps that touch only field states. -/
theorem Track.fields {id : Nat} {U : Nat → Prop} {S S' : St F} (h1 : S'.lastId = S.lastId)
    (h2 : S'.sub = S.sub) (h3 : S'.runs = S.runs) : Track id U S S' := by
  have hd : ∀ k, Done id S' k ↔ Done id S k := fun k => by unfold Done; rw [h1]
  refine ⟨⟨[], by rw [h3]; rfl, List.nodup_nil, fun _ h => absurd h (by simp), fun k h => Or.inl ((hd k).1 h)⟩,
    fun k h => (hd k).2 h, fun k _ => ⟨by rw [h1], fun i => by rw [h2]⟩, fun k j h => Or.inr (by rw [← h1]; exact h)⟩

theorem Track.rescale {O : Ops F} (id : Nat) (U : Nat → Prop) (S : St F) (r : Ref) :
    Track id U S (S.rescale O r) := Track.fields rfl rfl rfl

theorem Track.move (id : Nat) (U : Nat → Prop) (S : St F) (g : F → F) (rs : List Ref) :
    Track id U S (S.move g rs) := Track.fields rfl rfl rfl

theorem not_usesAny_self {kids : Nat → List Expr} {n : Nat} {ts : List Expr} (hk : kids n = ts)
    (hs : SharesAll kids ts) : ¬ UsesAny n ts := by
  intro h
  have := usesAny_size ts hs h
  rw [hk] at this
  simp only [Expr.node.sizeOf_spec] at this
  omega

mutual

theorem attempt_track {O : Ops F} {id : Nat} {kids : Nat → List Expr} {U : Nat → Prop} :
    ∀ t, Shares kids t → (∀ k, Uses k t → U k) → ∀ S : St F, Track id U S (attempt O id t S).2
  | .leaf _, _, _, S => by rw [attempt]; exact Track.refl _ _ _
  | .node n ts, hs, hU, S => by
    rw [Shares] at hs
    have hUn : U n := hU n (by rw [Uses]; exact Or.inl rfl)
    have hUa : ∀ k, UsesAny k ts → U k := fun k h => hU k (by rw [Uses]; exact Or.inr h)
    rw [attempt]
    split
    · exact Track.refl _ _ _
    · rename_i hd
      have hc : Track id U S (S.clear n) := by
        have hdd : ∀ k, Done id (S.clear n) k ↔ Done id S k := by
          intro k
          unfold Done St.clear
          by_cases e : k = n
          · subst e; simpa using hd
          · simp [e]
        refine ⟨⟨[], rfl, List.nodup_nil, fun _ h => absurd h (by simp), fun k h => Or.inl ((hdd k).1 h)⟩,
          fun k h => (hdd k).2 h, fun k hk => ?_, fun k j h => ?_⟩
        · have e : k ≠ n := fun e => hk (e ▸ hUn)
          exact ⟨by simp [St.clear, e], fun _ => rfl⟩
        · by_cases e : k = n
          · simp [St.clear, e] at h
          · simp only [St.clear, if_neg e] at h; exact Or.inr h
      have hA := attemptArgs_track (O := O) (id := id) n hUn ts hs.2.2 hUa 0 (S.clear n)
      have hnd : ¬ Done id (attemptArgs O id n 0 ts (S.clear n)).2 n := by
        unfold Done
        rw [attemptArgs_frame n ts (not_usesAny_self hs.1 hs.2.2)]
        simp [St.clear]
      simp only
      split
      · exact hc.trans hA
      · split
        · exact hc.trans hA
        · refine (hc.trans hA).trans ?_
          set T := (attemptArgs O id n 0 ts (S.clear n)).2 with hT
          have hdf : ∀ k v, Done id (T.finish n id v) k ↔ (k = n ∨ Done id T k) := by
            intro k v
            unfold Done St.finish
            by_cases e : k = n <;> simp [e]
          refine ⟨⟨[n], rfl, List.nodup_singleton _, ?_, ?_⟩, ?_, ?_, ?_⟩
          · intro k hk
            rw [List.mem_singleton.1 hk]
            exact ⟨hnd, (hdf n _).2 (Or.inl rfl)⟩
          · intro k hk
            rcases (hdf k _).1 hk with h | h
            · exact Or.inr (List.mem_singleton.2 h)
            · exact Or.inl h
          · exact fun k hk => (hdf k _).2 (Or.inr hk)
          · intro k hk
            have e : k ≠ n := fun e => hk (e ▸ hUn)
            exact ⟨by simp [St.finish, e], fun i => by simp [St.finish, e]⟩
          · intro k j h
            by_cases e : k = n
            · simp only [St.finish, if_pos e, Option.some.injEq] at h; exact Or.inl h.symm
            · simp only [St.finish, if_neg e] at h; exact Or.inr h

theorem attemptArgs_track {O : Ops F} {id : Nat} {kids : Nat → List Expr} {U : Nat → Prop} (n : Nat)
    (hUn : U n) :
    ∀ ts, SharesAll kids ts → (∀ k, UsesAny k ts → U k) → ∀ i, ∀ S : St F,
      Track id U S (attemptArgs O id n i ts S).2
  | [], _, _, _, S => by rw [attemptArgs]; exact Track.refl _ _ _
  | t :: ts, hs, hU, i, S => by
    rw [SharesAll] at hs
    have hU1 : ∀ k, Uses k t → U k := fun k h => hU k (by rw [UsesAny]; exact Or.inl h)
    have hU2 : ∀ k, UsesAny k ts → U k := fun k h => hU k (by rw [UsesAny]; exact Or.inr h)
    cases t with
    | leaf f =>
      rw [attemptArgs]
      exact (Track.rescale id U S _).trans (attemptArgs_track n hUn ts hs.2 hU2 (i + 1) _)
    | node m us =>
      rw [attemptArgs]
      split
      · exact (Track.rescale id U S _).trans (attemptArgs_track n hUn ts hs.2 hU2 (i + 1) _)
      · simp only
        refine (attempt_track (O := O) (id := id) (.node m us) hs.1 hU1 S).trans
          (Track.trans ?_ (attemptArgs_track n hUn ts hs.2 hU2 (i + 1) _))
        split
        · refine ⟨⟨[], rfl, List.nodup_nil, fun _ h => absurd h (by simp), fun k h => Or.inl h⟩,
            fun k h => h, fun k hk => ⟨rfl, fun j => ?_⟩, fun k j h => Or.inr h⟩
          have e : k ≠ n := fun e => hk (e ▸ hUn)
          simp [St.subst, e]
        · exact Track.refl _ _ _

end

theorem attemptTasks_track {O : Ops F} {id : Nat} {kids : Nat → List Expr} {U : Nat → Prop} :
    ∀ ts, SharesAll kids ts → (∀ t ∈ ts, ∀ k, Uses k t → U k) → ∀ S : St F,
      Track id U S (attemptTasks O id ts S).2 ∧ ∀ t ∈ (attemptTasks O id ts S).1, t ∈ ts
  | [], _, _, S => by rw [attemptTasks]; exact ⟨Track.refl _ _ _, fun _ h => h⟩
  | t :: ts, hs, hU, S => by
    rw [SharesAll] at hs
    rw [attemptTasks]
    have h1 := attempt_track (O := O) (id := id) t hs.1 (hU t List.mem_cons_self) S
    have h2 := attemptTasks_track (O := O) (id := id) ts hs.2
      (fun u hu => hU u (List.mem_cons_of_mem _ hu)) (attempt O id t S).2
    refine ⟨h1.trans h2.1, ?_⟩
    simp only
    intro u hu
    split at hu
    · exact List.mem_cons_of_mem _ (h2.2 u hu)
    · rcases List.mem_cons.1 hu with rfl | hu
      · exact List.mem_cons_self
      · exact List.mem_cons_of_mem _ (h2.2 u hu)

theorem loop_track {O : Ops F} {id : Nat} {kids : Nat → List Expr} {U : Nat → Prop} :
    ∀ idx cur ts, SharesAll kids ts → (∀ t ∈ ts, ∀ k, Uses k t → U k) → ∀ S S' : St F,
      loop O id idx cur ts S = some S' → Track id U S S'
  | idx, cur, [], _, _, S, S', h => by
    rw [loop_nil] at h
    cases h
    exact Track.refl _ _ _
  | [], cur, t :: ts, _, _, S, S', h => by rw [loop] at h; cases h
  | nxt :: rest, cur, t :: ts, hs, hU, S, S', h => by
    rw [loop_cons O id nxt rest cur _ (List.cons_ne_nil _ _)] at h
    have h1 := attemptTasks_track (O := O) (id := id) (t :: ts) hs hU
      (S.move (stepMove O cur nxt) (getFields S (t :: ts)))
    have hs' : SharesAll kids (attemptTasks O id (t :: ts)
        (S.move (stepMove O cur nxt) (getFields S (t :: ts)))).1 :=
      sharesAll_of fun u hu => hs.mem u (h1.2 u hu)
    exact ((Track.move id U S _ _).trans h1.1).trans
      (loop_track rest nxt _ hs' (fun u hu => hU u (h1.2 u hu)) _ _ h)

theorem evaluate_eq (O : Ops F) (nL : Nat) (hn : 2 ≤ nL) : ∃ rest, List.IsChain Adj (0 :: rest) ∧
    ∀ id tasks (S : St F), evaluate O id nL tasks S =
      (loop O id rest 0
        (attemptTasks O id (attemptTasks O id tasks S).1
          ((attemptTasks O id tasks S).2.move (toC O)
            (getFields (attemptTasks O id tasks S).2 (attemptTasks O id tasks S).1))).1
        (attemptTasks O id (attemptTasks O id tasks S).1
          ((attemptTasks O id tasks S).2.move (toC O)
            (getFields (attemptTasks O id tasks S).2 (attemptTasks O id tasks S).1))).2).map
      (fun s => s.move (toC O) (tasks.map Expr.ref)) := by
  obtain ⟨rest, hr⟩ := oscillate_head nL 9 hn
  have hc := oscillate_chain nL hn 10
  rw [hr] at hc
  refine ⟨rest, hc, fun id tasks S => ?_⟩
  unfold evaluate
  rw [hr]
  simp only [requireCoeff_eq]

theorem evaluate_track {O : Ops F} {id nL : Nat} (hn : 2 ≤ nL) {kids : Nat → List Expr} {U : Nat → Prop}
    {tasks : List Expr} (hs : SharesAll kids tasks) (hU : ∀ t ∈ tasks, ∀ k, Uses k t → U k) {S S' : St F}
    (h : evaluate O id nL tasks S = some S') : Track id U S S' := by
  obtain ⟨rest, _, he⟩ := evaluate_eq O nL hn
  rw [he, Option.map_eq_some_iff] at h
  obtain ⟨T, h1, rfl⟩ := h
  have a0 := attemptTasks_track (O := O) (id := id) tasks hs hU S
  have hs0 : SharesAll kids (attemptTasks O id tasks S).1 := sharesAll_of fun u hu => hs.mem u (a0.2 u hu)
  have hU0 : ∀ t ∈ (attemptTasks O id tasks S).1, ∀ k, Uses k t → U k := fun u hu => hU u (a0.2 u hu)
  have a1 := attemptTasks_track (O := O) (id := id) _ hs0 hU0
    ((attemptTasks O id tasks S).2.move (toC O)
            (getFields (attemptTasks O id tasks S).2 (attemptTasks O id tasks S).1))
  have a2 := loop_track _ _ _ (sharesAll_of fun u hu => hs0.mem u (a1.2 u hu))
    (fun u hu => hU0 u (a1.2 u hu)) _ _ h1
  exact (((a0.1.trans (Track.move id U _ _ _)).trans a1.1).trans a2).trans (Track.move id U _ _ _)

end Dedalus.Eval
