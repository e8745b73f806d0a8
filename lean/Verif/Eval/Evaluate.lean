import Verif.Eval.Track

/-!
# A whole evaluation
-/

namespace Dedalus.Eval

variable {F : Type}

theorem inv_init {O : Ops F} {id : Nat} {kids : Nat → List Expr} {S : St F} (hc : Clean S) (hf : Fresh id S) :
    Inv O id kids S := by
  refine ⟨fun n i m us h => ?_, fun n h => absurd h (hf n), fun n h => absurd h (hf n),
    fun n m us h => absurd h (hf n)⟩
  rw [hc n i] at h; cases h

mutual

theorem init_live {O : Ops F} {id id' : Nat} {S A : St F} (hf : Fresh id S) (hf' : Fresh id' A) :
    ∀ t, (∀ f, Reads f t → A.fs (.leaf f) = S.fs (.leaf f)) →
      Live2 (RPre O (fun _ => True)) id id' S A t
  | .leaf f, h => by
    rw [Live2]
    exact ⟨by rw [h f (by rw [Reads])], trivial⟩
  | .node n ts, h => by
    rw [Live2]
    refine ⟨⟨fun e => absurd e (hf n), fun e => absurd e (hf' n)⟩, fun e => absurd e (hf n), fun _ => ?_⟩
    exact init_liveAll hf hf' ts (fun f hr => h f (by rw [Reads]; exact hr))

theorem init_liveAll {O : Ops F} {id id' : Nat} {S A : St F} (hf : Fresh id S) (hf' : Fresh id' A) :
    ∀ ts, (∀ f, ReadsAny f ts → A.fs (.leaf f) = S.fs (.leaf f)) →
      Live2All (RPre O (fun _ => True)) id id' S A ts
  | [], _ => by rw [Live2All]; trivial
  | t :: ts, h => by
    rw [Live2All]
    exact ⟨init_live hf hf' t (fun f hr => h f (by rw [ReadsAny]; exact Or.inl hr)),
      init_liveAll hf hf' ts (fun f hr => h f (by rw [ReadsAny]; exact Or.inr hr))⟩

end

theorem run_true {O : Ops F} : ∀ (n : Nat) (vs : List F), vs ≠ [] → (∀ v ∈ vs, (fun _ : F => True) v) →
    O.chk n vs = true → (fun _ : F => True) (O.run n vs) := fun _ _ _ _ _ => trivial

theorem toC_at {O : Ops F} (hO : Lawful O) (x y : F) (h : RPost O (fun _ => True) x y) :
    RAt O 0 (toC O x) (toC O y) := by
  obtain ⟨rfl, h1, _⟩ := h
  exact ⟨rfl, dnFrom_resc hO _ _ h1, toC_lay hO _⟩

theorem toC_resc {O : Ops F} (hO : Lawful O) (x : F) (h : O.resc x = x) : O.resc (toC O x) = toC O x :=
  dnFrom_resc hO _ _ h

/-- one stage of an evaluation: attempt the tasks -/
theorem stage {O : Ops F} (hO : Lawful O) {id id' : Nat} {kids : Nat → List Expr} {S A : St F}
    {P : F → Prop} (hP : ∀ n vs, vs ≠ [] → (∀ v ∈ vs, P v) → O.chk n vs = true → P (O.run n vs))
    (hS : Inv O id kids S) (hA : Inv O id' kids A) {ts : List Expr} (hsh : ∀ t ∈ ts, Shares kids t)
    {n : Nat} {us : List Expr} (hm : Expr.node n us ∈ ts) (hl : Live2 (RPre O P) id id' S A (.node n us)) :
    (Expr.node n us ∈ (attemptTasks O id ts S).1 ∧ (attemptTasks O id' [.node n us] A).1 = [.node n us] ∧
      Pend O (RPost O P) id id' kids (attemptTasks O id ts S).2 (attemptTasks O id' [.node n us] A).2
        (.node n us)) ∨
    (Expr.node n us ∉ (attemptTasks O id ts S).1 ∧ (attemptTasks O id' [.node n us] A).1 = [] ∧
      Done id (attemptTasks O id ts S).2 n ∧ Done id' (attemptTasks O id' [.node n us] A).2 n ∧
      (attemptTasks O id ts S).2.fs (.out n) = (attemptTasks O id' [.node n us] A).2.fs (.out n)) := by
  obtain ⟨hM, _, hu, hp⟩ := attemptTasks_spec hO ts (sharesAll_of hsh) S (Mid.refl hS)
  obtain ⟨hMA, _, huA, hpA⟩ := attemptTasks_spec hO [.node n us]
    (sharesAll_of fun t ht => by rw [List.mem_singleton.1 ht]; exact hsh _ hm) A (Mid.refl hA)
  rcases Pend.pass hP hS hA hM hMA (hsh _ hm) hl (hp n us hm) (hpA n us (List.mem_singleton.2 rfl)) with h | h
  · left
    refine ⟨?_, ?_, h.2.2⟩
    · rw [hu, List.mem_filter, h.1]; exact ⟨hm, rfl⟩
    · rw [huA, List.filter_cons, h.2.1]; rfl
  · right
    refine ⟨?_, ?_, h.2.2.1, h.2.2.2.1, h.2.2.2.2⟩
    · rw [hu, List.mem_filter]
      rintro ⟨_, e⟩
      have := h.1
      cases hv : val O id S (.node n us) with
      | none => rw [hv] at this; cases this
      | some v => rw [hv] at e; cases e
    · rw [huA, List.filter_cons]
      have := h.2.1
      cases hv : val O id' A (.node n us) with
      | none => rw [hv] at this; cases this
      | some v => rfl

theorem stage_inv {O : Ops F} (hO : Lawful O) {id : Nat} {kids : Nat → List Expr} {S : St F}
    (hS : Inv O id kids S) {ts : List Expr} (hsh : ∀ t ∈ ts, Shares kids t) :
    Inv O id kids (attemptTasks O id ts S).2 ∧ (∀ t ∈ (attemptTasks O id ts S).1, t ∈ ts) ∧
    ∀ n, Done id S n → Done id (attemptTasks O id ts S).2 n ∧
      (attemptTasks O id ts S).2.fs (.out n) = S.fs (.out n) := by
  obtain ⟨hM, _, hu, hp⟩ := attemptTasks_spec hO ts (sharesAll_of hsh) S (Mid.refl hS)
  refine ⟨hM.inv, fun t ht => ?_, hM.keep⟩
  rw [hu] at ht
  exact (List.mem_filter.1 ht).1

theorem St.move_nil (S : St F) (g : F → F) : S.move g [] = S := by
  unfold St.move
  simp

theorem evaluate_sim {O : Ops F} (hO : Lawful O) {id nL : Nat} (hn : 2 ≤ nL) {kids : Nat → List Expr}
    {tasks : List Expr} (hsh : ∀ t ∈ tasks, Shares kids t) (hnode : ∀ t ∈ tasks, ∃ n us, t = .node n us)
    {S : St F} (hc : Clean S) (hf : Fresh id S) :
    (∀ S', evaluate O id nL tasks S = some S' →
      Inv O id kids S' ∧ ∀ n us, Expr.node n us ∈ tasks → Done id S' n ∧ ∀ id' A, Clean A → Fresh id' A →
        (∀ f, Reads f (.node n us) → A.fs (.leaf f) = S.fs (.leaf f)) →
        ∃ A', evaluate O id' nL [.node n us] A = some A' ∧ A'.fs (.out n) = S'.fs (.out n)) ∧
    (evaluate O id nL tasks S = none → ∃ n us, Expr.node n us ∈ tasks ∧ ∀ id' A, Clean A → Fresh id' A →
        (∀ f, Reads f (.node n us) → A.fs (.leaf f) = S.fs (.leaf f)) →
        evaluate O id' nL [.node n us] A = none) := by
  obtain ⟨rest, hch, hrest⟩ := evaluate_eq O nL hn
  rw [hrest]
  have hI0 : Inv O id kids S := inv_init hc hf
  obtain ⟨hI1, hsub1, hk1⟩ := stage_inv hO hI0 hsh
  have hp1 := pend_after hO (run_true (O := O)) hI0 (fun t ht => ⟨hsh t ht, hnode t ht⟩)
    (fun t _ => init_live hf hf t (fun _ _ => rfl))
  set q0 := attemptTasks O id tasks S with hq0
  set rs := getFields q0.2 q0.1 with hrs
  have hI1' : Inv O id kids (q0.2.move (toC O) rs) := move_inv hI1 (toC_resc hO) _
  have hsh1 : ∀ t ∈ q0.1, Shares kids t := fun t ht => hsh t (hsub1 t ht)
  have hl1 : ∀ t ∈ q0.1, Live2 (RAt O 0) id id (q0.2.move (toC O) rs) (q0.2.move (toC O) rs) t := by
    intro t ht
    obtain ⟨n, us, rfl⟩ := hnode t (hsub1 t ht)
    exact Pend.move hI1 hI1 (toC_at hO) (hp1 _ ht) (getFields_mem ht) (getFields_mem ht)
  obtain ⟨hI2, hsub2, hk2⟩ := stage_inv hO hI1' hsh1
  have hp2 := pend_after hO (run_lay hO 0) hI1' (fun t ht => ⟨hsh1 t ht, hnode t (hsub1 t ht)⟩)
    (fun t ht => Live2.imp (fun x y => RPost.pre) t (hl1 t ht))
  set S1 := q0.2.move (toC O) rs with hS1
  set q1 := attemptTasks O id q0.1 S1 with hq1
  obtain ⟨hsome, hnone⟩ := loop_sim hO rest 0 q1.1 q1.2 hch hI2 hp2
  have htoC1 : ∀ r, toC O (S1.fs r) = toC O (q0.2.fs r) := move_toC (fun r _ => toC_toC hO _)
  -- what happens to one task, in both runs
  have hboth : ∀ n us, Expr.node n us ∈ tasks → ∀ id' A, Clean A → Fresh id' A →
      (∀ f, Reads f (.node n us) → A.fs (.leaf f) = S.fs (.leaf f)) →
      (∃ A2 : St F, Inv O id' kids A2 ∧ Expr.node n us ∈ q1.1 ∧ Pend O (RAt O 0) id id' kids q1.2 A2 (.node n us) ∧
        evaluate O id' nL [.node n us] A =
          (loop O id' rest 0 [.node n us] A2).map (fun s => s.move (toC O) [.out n])) ∨
      (∃ A2 : St F, Done id q1.2 n ∧ toC O (q1.2.fs (.out n)) = toC O (A2.fs (.out n)) ∧ Expr.node n us ∉ q1.1 ∧
        evaluate O id' nL [.node n us] A = some (A2.move (toC O) [.out n])) := by
    intro n us hm id' A hcA hfA hag
    have hIA0 : Inv O id' kids A := inv_init hcA hfA
    have hshA : ∀ t ∈ [Expr.node n us], Shares kids t := fun t ht => by
      rw [List.mem_singleton.1 ht]; exact hsh _ hm
    obtain ⟨hIA1, _, hkA1⟩ := stage_inv hO hIA0 hshA
    rw [hrest id' [.node n us] A]
    rcases stage hO (run_true (O := O)) hI0 hIA0 hsh hm (init_live hf hfA _ hag) with h | h
    · obtain ⟨h1, h2, h3⟩ := h
      rw [h2]
      set A1 := (attemptTasks O id' [.node n us] A).2 with hA1
      have hl := Pend.move hI1 hIA1 (toC_at hO) h3 (getFields_mem h1)
        (rs' := getFields A1 [.node n us]) (getFields_mem (List.mem_singleton.2 rfl))
      have hIA1' : Inv O id' kids (A1.move (toC O) (getFields A1 [.node n us])) :=
        move_inv hIA1 (toC_resc hO) _
      obtain ⟨hIA2, _, _⟩ := stage_inv hO hIA1' hshA
      rcases stage hO (run_lay hO 0) hI1' hIA1' hsh1 h1 (Live2.imp (fun x y => RPost.pre) _ hl) with h | h
      · left
        obtain ⟨g1, g2, g3⟩ := h
        rw [g2]
        exact ⟨_, hIA2, g1, g3, rfl⟩
      · right
        obtain ⟨g1, g2, g3, g4, g5⟩ := h
        rw [g2, loop_nil]
        exact ⟨_, g3, by rw [g5], g1, rfl⟩
    · right
      obtain ⟨h1, h2, h3, h4, h5⟩ := h
      rw [h2]
      have e0 : attemptTasks O id' [] ((attemptTasks O id' [.node n us] A).2.move (toC O)
          (getFields (attemptTasks O id' [.node n us] A).2 [])) =
          ([], (attemptTasks O id' [.node n us] A).2) := by
        rw [attemptTasks]
        unfold getFields
        rw [List.flatMap_nil, St.move_nil]
      rw [e0, loop_nil]
      have hd1 : Done id S1 n := h3
      have := hk2 n hd1
      refine ⟨_, this.1, ?_, fun e => h1 (hsub2 _ e), rfl⟩
      rw [this.2, htoC1, h5]
  have hfin : ∀ (T : St F) n us, Expr.node n us ∈ tasks →
      (T.move (toC O) (tasks.map Expr.ref)).fs (.out n) = toC O (T.fs (.out n)) := by
    intro T n us hm
    simp only [St.move]
    have hmem : Ref.out n ∈ tasks.map Expr.ref := List.mem_map.2 ⟨_, hm, rfl⟩
    rw [if_pos hmem]
  have hfin1 : ∀ (T : St F) n, (T.move (toC O) [.out n]).fs (.out n) = toC O (T.fs (.out n)) := by
    intro T n
    simp [St.move]
  constructor
  · intro S' hS'
    rw [Option.map_eq_some_iff] at hS'
    obtain ⟨T, hT, rfl⟩ := hS'
    obtain ⟨hIT, hkT, htT⟩ := hsome T hT
    refine ⟨move_inv hIT (toC_resc hO) _, fun n us hm => ⟨?_, fun id' A hcA hfA hag => ?_⟩⟩
    · have : Done id T n := by
        rcases hboth n us hm id S hc hf (fun _ _ => rfl) with ⟨_, _, h, _⟩ | ⟨_, h, _⟩
        · exact (htT n us h).1
        · exact (hkT n h).1
      exact this
    · rw [hfin T n us hm]
      rcases hboth n us hm id' A hcA hfA hag with ⟨A2, h1, h2, h3, h4⟩ | ⟨A2, h1, h2, h3, h4⟩
      · obtain ⟨A', e1, e2, e3⟩ := (htT n us h2).2 id' A2 h1 h3
        refine ⟨_, by rw [h4, e1]; rfl, ?_⟩
        rw [hfin1, e3]
      · refine ⟨_, h4, ?_⟩
        rw [hfin1, ← h2, (hkT n h1).2]
  · intro h
    rw [Option.map_eq_none_iff] at h
    obtain ⟨n, us, hm, hall⟩ := hnone h
    refine ⟨n, us, hsub1 _ (hsub2 _ hm), fun id' A hcA hfA hag => ?_⟩
    rcases hboth n us (hsub1 _ (hsub2 _ hm)) id' A hcA hfA hag with ⟨A2, h1, h2, h3, h4⟩ | ⟨A2, h1, h2, h3, h4⟩
    · rw [h4, hall id' A2 h1 h3]; rfl
    · exact absurd hm h3

end Dedalus.Eval
