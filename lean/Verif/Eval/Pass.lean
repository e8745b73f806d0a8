import Mathlib.Tactic.Common
import Verif.Eval.Spec

/-!
# One attempt pass
-/

namespace Dedalus.Eval

variable {F : Type}

/-- operator `n` has been evaluated with this id -/
def Done (id : Nat) (st : St F) (n : Nat) : Prop := st.lastId n = some id

instance (id : Nat) (st : St F) (n : Nat) : Decidable (Done id st n) := by unfold Done; infer_instance

mutual

/-- The value an expression will have after an attempt pass that starts in `S`. -/
def val (O : Ops F) (id : Nat) (S : St F) : Expr → Option F
  | .leaf f => some (O.resc (S.fs (.leaf f)))
  | .node n ts =>
    if Done id S n then some (S.fs (.out n))
    else
      match vals O id S ts with
      | none => none
      | some vs => if O.chk n vs = true then some (O.run n vs) else none

def vals (O : Ops F) (id : Nat) (S : St F) : List Expr → Option (List F)
  | [] => some []
  | t :: ts =>
    match val O id S t, vals O id S ts with
    | some v, some vs => some (v :: vs)
    | _, _ => none

end

/-- Invariant of every state that occurs during an evaluation. -/
structure Inv (O : Ops F) (id : Nat) (kids : Nat → List Expr) (S : St F) : Prop where
  sub_done : ∀ n i m us, S.sub n i = true → (kids n)[i]? = some (.node m us) → Done id S m
  fixed : ∀ n, Done id S n → O.resc (S.fs (.out n)) = S.fs (.out n)
  reset : ∀ n, Done id S n → ∀ i, S.sub n i = false
  closed : ∀ n m us, Done id S n → Expr.node m us ∈ kids n → Done id S m

/-- `S'` occurs in an attempt pass that started in `S`. -/
structure Mid (O : Ops F) (id : Nat) (kids : Nat → List Expr) (S S' : St F) : Prop where
  inv : Inv O id kids S'
  keep : ∀ n, Done id S n → Done id S' n ∧ S'.fs (.out n) = S.fs (.out n)
  new : ∀ n, ¬ Done id S n → Done id S' n → val O id S (.node n (kids n)) = some (S'.fs (.out n))
  leaf : ∀ f, O.resc (S'.fs (.leaf f)) = O.resc (S.fs (.leaf f))

/-- What later states of a pass keep. -/
structure Mono (O : Ops F) (id : Nat) (S S' : St F) : Prop where
  done : ∀ n, Done id S n → Done id S' n
  out : ∀ n, Done id S n → O.resc (S.fs (.out n)) = S.fs (.out n) → S'.fs (.out n) = S.fs (.out n)
  res : ∀ f, O.resc (S.fs (.leaf f)) = S.fs (.leaf f) → S'.fs (.leaf f) = S.fs (.leaf f)
  sub : ∀ n i, ¬ Done id S' n → S.sub n i = true → S'.sub n i = true

theorem Mono.refl (O : Ops F) (id : Nat) (S : St F) : Mono O id S S :=
  ⟨fun _ h => h, fun _ _ _ => rfl, fun _ _ => rfl, fun _ _ _ h => h⟩

theorem Mono.trans {O : Ops F} {id : Nat} {S T U : St F} (h1 : Mono O id S T) (h2 : Mono O id T U) :
    Mono O id S U := by
  refine ⟨fun n h => h2.done n (h1.done n h), fun n h hr => ?_, fun f hr => ?_, fun n i hn h => ?_⟩
  · have e := h1.out n h hr
    rw [h2.out n (h1.done n h) (by rw [e]; exact hr), e]
  · have e := h1.res f hr
    rw [h2.res f (by rw [e]; exact hr), e]
  · exact h2.sub n i hn (h1.sub n i (fun hd => hn (h2.done n hd)) h)

theorem Mid.refl {O : Ops F} {id : Nat} {kids : Nat → List Expr} {S : St F} (h : Inv O id kids S) :
    Mid O id kids S S :=
  ⟨h, fun _ hd => ⟨hd, rfl⟩, fun _ hn hd => absurd hd hn, fun _ => rfl⟩

/-- A node that is done has its pass value. -/
theorem Mid.val {O : Ops F} {id : Nat} {kids : Nat → List Expr} {S S' : St F} (h : Mid O id kids S S')
    {n : Nat} {ts : List Expr} (hk : kids n = ts) (hd : Done id S' n) :
    Eval.val O id S (.node n ts) = some (S'.fs (.out n)) := by
  by_cases hS : Done id S n
  · rw [Eval.val, if_pos hS, (h.keep n hS).2]
  · rw [← hk]; exact h.new n hS hd

mutual

/-- What holds of the live part of an expression once it has been attempted in the pass from `S`: leaves
have the dealias scales, everything that can be evaluated is evaluated and substituted. -/
def Post (O : Ops F) (id : Nat) (S S' : St F) : Expr → Prop
  | .leaf f => O.resc (S'.fs (.leaf f)) = S'.fs (.leaf f)
  | .node n ts => Done id S' n ∨ (val O id S (.node n ts) = none ∧ PostArgs O id S S' n 0 ts)

def PostArgs (O : Ops F) (id : Nat) (S S' : St F) (n : Nat) : Nat → List Expr → Prop
  | _, [] => True
  | i, t :: ts =>
    Post O id S S' t ∧
      (∀ m us, t = .node m us → val O id S (.node m us) = none ∨ (Done id S' m ∧ S'.sub n i = true)) ∧
      PostArgs O id S S' n (i + 1) ts

end

/-- A node whose pass value does not exist is not evaluated in the pass. -/
theorem Mid.not_done {O : Ops F} {id : Nat} {kids : Nat → List Expr} {S S' : St F}
    (h : Mid O id kids S S') {n : Nat} {ts : List Expr} (hk : kids n = ts)
    (hv : Eval.val O id S (.node n ts) = none) : ¬ Done id S' n := by
  intro hd
  rw [h.val hk hd] at hv
  exact absurd hv (by simp)

mutual

theorem Post.mono {O : Ops F} {id : Nat} {kids : Nat → List Expr} {S S' S'' : St F}
    (hM : Mid O id kids S S'') (hm : Mono O id S' S'') :
    ∀ t, Shares kids t → Post O id S S' t → Post O id S S'' t
  | .leaf f, _, h => by
    rw [Post] at h ⊢
    rw [hm.res f h]; exact h
  | .node n ts, hs, h => by
    rw [Post] at h ⊢
    rcases h with h | ⟨hv, h⟩
    · exact Or.inl (hm.done n h)
    · rw [Shares] at hs
      exact Or.inr ⟨hv, PostArgs.mono hM hm n (hM.not_done hs.1 hv) ts 0 hs.2.2 h⟩

theorem PostArgs.mono {O : Ops F} {id : Nat} {kids : Nat → List Expr} {S S' S'' : St F}
    (hM : Mid O id kids S S'') (hm : Mono O id S' S'') (n : Nat) (hn : ¬ Done id S'' n) :
    ∀ ts i, SharesAll kids ts → PostArgs O id S S' n i ts → PostArgs O id S S'' n i ts
  | [], _, _, _ => by rw [PostArgs]; trivial
  | t :: ts, i, hs, h => by
    rw [SharesAll] at hs
    rw [PostArgs] at h ⊢
    refine ⟨Post.mono hM hm t hs.1 h.1, ?_, PostArgs.mono hM hm n hn ts (i + 1) hs.2 h.2.2⟩
    intro m us e
    rcases h.2.1 m us e with h' | ⟨h1, h2⟩
    · exact Or.inl h'
    · exact Or.inr ⟨hm.done m h1, hm.sub n i hn h2⟩

end

theorem clear_mid {O : Ops F} {id : Nat} {kids : Nat → List Expr} {S S' : St F} (h : Mid O id kids S S')
    {n : Nat} (hn : ¬ Done id S' n) : Mid O id kids S (S'.clear n) ∧ Mono O id S' (S'.clear n) := by
  have hd : ∀ m, Done id (S'.clear n) m ↔ Done id S' m := by
    intro m
    unfold Done St.clear
    by_cases hm : m = n
    · subst hm
      simpa [Done] using hn
    · simp [hm]
  refine ⟨⟨⟨?_, ?_, ?_, ?_⟩, ?_, ?_, ?_⟩, ⟨?_, ?_, ?_, ?_⟩⟩
  · intro k i m us h1 h2; rw [hd]; exact h.inv.sub_done k i m us h1 h2
  · intro m h1; rw [hd] at h1; exact h.inv.fixed m h1
  · intro m h1; rw [hd] at h1; exact h.inv.reset m h1
  · intro m k us h1 h2; rw [hd] at h1 ⊢; exact h.inv.closed m k us h1 h2
  · intro m h1; rw [hd]; exact h.keep m h1
  · intro m h1 h2; rw [hd] at h2; exact h.new m h1 h2
  · exact h.leaf
  · intro m h1; rw [hd]; exact h1
  · intro m _ _; rfl
  · intro m _; rfl
  · intro m i _ h1; exact h1

theorem rescale_leaf_mid {O : Ops F} (hO : Lawful O) {id : Nat} {kids : Nat → List Expr} {S S' : St F}
    (h : Mid O id kids S S') (f : Nat) :
    Mid O id kids S (S'.rescale O (.leaf f)) ∧ Mono O id S' (S'.rescale O (.leaf f)) ∧
      O.resc ((S'.rescale O (.leaf f)).fs (.leaf f)) = (S'.rescale O (.leaf f)).fs (.leaf f) := by
  have hout : ∀ m, (S'.rescale O (.leaf f)).fs (.out m) = S'.fs (.out m) := by
    intro m; simp [St.rescale]
  refine ⟨⟨⟨?_, ?_, ?_, ?_⟩, ?_, ?_, ?_⟩, ⟨?_, ?_, ?_, ?_⟩, ?_⟩
  · exact h.inv.sub_done
  · intro m h1; rw [hout]; exact h.inv.fixed m h1
  · exact h.inv.reset
  · exact h.inv.closed
  · intro m h1; rw [hout]; exact h.keep m h1
  · intro m h1 h2; rw [hout]; exact h.new m h1 h2
  · intro g
    by_cases hg : g = f
    · subst hg; simp [St.rescale, hO.resc_idem, h.leaf]
    · simp [St.rescale, hg, h.leaf]
  · exact fun m h1 => h1
  · intro m _ _; exact hout m
  · intro g hr
    by_cases hg : g = f
    · subst hg; simp [St.rescale, hr]
    · simp [St.rescale, hg]
  · exact fun m i _ h1 => h1
  · simp [St.rescale, hO.resc_idem]

theorem rescale_out_mid {O : Ops F} {id : Nat} {kids : Nat → List Expr} {S S' : St F}
    (h : Mid O id kids S S') {m : Nat} (hm : Done id S' m) : S'.rescale O (.out m) = S' := by
  have : (fun q => if q = Ref.out m then O.resc (S'.fs q) else S'.fs q) = S'.fs := by
    funext q
    by_cases hq : q = .out m
    · subst hq; simp [h.inv.fixed m hm]
    · simp [hq]
  simp [St.rescale, this]

theorem subst_mid {O : Ops F} {id : Nat} {kids : Nat → List Expr} {S S' : St F}
    (h : Mid O id kids S S') {n i m : Nat} {us : List Expr} (hn : ¬ Done id S' n)
    (hi : (kids n)[i]? = some (.node m us)) (hm : Done id S' m) :
    Mid O id kids S (S'.subst n i) ∧ Mono O id S' (S'.subst n i) := by
  refine ⟨⟨⟨?_, ?_, ?_, ?_⟩, ?_, ?_, ?_⟩, ⟨?_, ?_, ?_, ?_⟩⟩
  · intro k j m' us' h1 h2
    by_cases hk : k = n ∧ j = i
    · obtain ⟨rfl, rfl⟩ := hk
      rw [hi] at h2
      simp only [Option.some.injEq, Expr.node.injEq] at h2
      rw [← h2.1]; exact hm
    · simp only [St.subst, if_neg hk] at h1
      exact h.inv.sub_done k j m' us' h1 h2
  · exact h.inv.fixed
  · intro k hk j
    have : k ≠ n := fun e => hn (e ▸ hk)
    simp only [St.subst, this, false_and, if_false]
    exact h.inv.reset k hk j
  · exact h.inv.closed
  · exact h.keep
  · exact h.new
  · exact h.leaf
  · exact fun m h1 => h1
  · exact fun _ _ _ => rfl
  · exact fun _ _ => rfl
  · intro k j _ h1
    simp only [St.subst]
    split
    · rfl
    · exact h1

theorem finish_mid {O : Ops F} (hO : Lawful O) {id : Nat} {kids : Nat → List Expr} {S S' : St F}
    (h : Mid O id kids S S') {n : Nat} (hn : ¬ Done id S' n) (vs : List F)
    (hv : val O id S (.node n (kids n)) = some (O.run n vs))
    (hall : ∀ m us, Expr.node m us ∈ kids n → Done id S' m) :
    Mid O id kids S (S'.finish n id (O.run n vs)) ∧ Mono O id S' (S'.finish n id (O.run n vs)) ∧
      Done id (S'.finish n id (O.run n vs)) n := by
  have hdn : Done id (S'.finish n id (O.run n vs)) n := by simp [Done, St.finish]
  have hd : ∀ m, m ≠ n → (Done id (S'.finish n id (O.run n vs)) m ↔ Done id S' m) := by
    intro m hm; simp [Done, St.finish, hm]
  have hdm : ∀ m, Done id S' m → Done id (S'.finish n id (O.run n vs)) m := by
    intro m hm
    by_cases e : m = n
    · subst e; exact hdn
    · exact (hd m e).2 hm
  have hout : ∀ m, m ≠ n → (S'.finish n id (O.run n vs)).fs (.out m) = S'.fs (.out m) := by
    intro m hm; simp [St.finish, hm]
  have houtn : (S'.finish n id (O.run n vs)).fs (.out n) = O.run n vs := by simp [St.finish]
  have hlf : ∀ f, (S'.finish n id (O.run n vs)).fs (.leaf f) = S'.fs (.leaf f) := by
    intro f; simp [St.finish]
  have hne : ∀ m, Done id S' m → m ≠ n := fun m hm e => hn (e ▸ hm)
  refine ⟨⟨⟨?_, ?_, ?_, ?_⟩, ?_, ?_, ?_⟩, ⟨?_, ?_, ?_, ?_⟩, hdn⟩
  · intro k i m us h1 h2
    by_cases hk : k = n
    · simp [St.finish, hk] at h1
    · simp only [St.finish, if_neg hk] at h1
      exact hdm m (h.inv.sub_done k i m us h1 h2)
  · intro m h1
    by_cases e : m = n
    · subst e; rw [houtn, hO.resc_run]
    · rw [hout m e]; exact h.inv.fixed m ((hd m e).1 h1)
  · intro m h1 i
    by_cases e : m = n
    · simp [St.finish, e]
    · simp only [St.finish, if_neg e]
      exact h.inv.reset m ((hd m e).1 h1) i
  · intro m k us h1 h2
    by_cases e : m = n
    · subst e; exact hdm k (hall k us h2)
    · exact hdm k (h.inv.closed m k us ((hd m e).1 h1) h2)
  · intro m h1
    have := h.keep m h1
    refine ⟨hdm m this.1, ?_⟩
    rw [hout m (hne m this.1)]; exact this.2
  · intro m h1 h2
    by_cases e : m = n
    · subst e; rw [houtn]; exact hv
    · rw [hout m e]; exact h.new m h1 ((hd m e).1 h2)
  · intro f; rw [hlf]; exact h.leaf f
  · exact hdm
  · intro m h1 _; exact hout m (hne m h1)
  · intro f _; exact hlf f
  · intro m i hm h1
    have e : m ≠ n := fun e => hm (e ▸ hdn)
    simp only [St.finish, if_neg e]; exact h1

/-- Evaluated arguments hold their pass values. -/
theorem args_vals {O : Ops F} {id : Nat} {kids : Nat → List Expr} {S S' : St F} (h : Mid O id kids S S') :
    ∀ ts, SharesAll kids ts →
      (∀ t ∈ ts, match t with
        | .leaf f => O.resc (S'.fs (.leaf f)) = S'.fs (.leaf f)
        | .node m _ => Done id S' m) →
      vals O id S ts = some (ts.map fun t => S'.fs t.ref)
  | [], _, _ => by rw [vals]; rfl
  | t :: ts, hs, hd => by
    rw [SharesAll] at hs
    rw [vals, args_vals h ts hs.2 (fun u hu => hd u (List.mem_cons_of_mem _ hu))]
    have h0 := hd t List.mem_cons_self
    have : val O id S t = some (S'.fs t.ref) := by
      cases t with
      | leaf f =>
        simp only at h0
        rw [val, ← h.leaf f, h0]; rfl
      | node m us =>
        have hs1 := hs.1
        rw [Shares] at hs1
        exact h.val hs1.1 h0
    rw [this]
    rfl

theorem vals_isSome {O : Ops F} {id : Nat} {S : St F} :
    ∀ ts, (vals O id S ts).isSome = ts.all (fun t => (val O id S t).isSome)
  | [] => by rw [vals]; rfl
  | t :: ts => by
    rw [vals, List.all_cons, ← vals_isSome ts]
    cases val O id S t <;> cases vals O id S ts <;> rfl

mutual

theorem attempt_frame {O : Ops F} {id k : Nat} : ∀ t, ¬ Uses k t → ∀ S : St F,
    (attempt O id t S).2.lastId k = S.lastId k
  | .leaf _, _, _ => by rw [attempt]
  | .node n ts, hu, S => by
    rw [Uses, not_or] at hu
    have hA := attemptArgs_frame (O := O) (id := id) n ts hu.2 0 (S.clear n)
    have hc : (S.clear n).lastId k = S.lastId k := by simp [St.clear, hu.1]
    rw [hc] at hA
    rw [attempt]
    split
    · rfl
    · simp only
      split
      · exact hA
      · split
        · exact hA
        · simp only [St.finish, if_neg hu.1]; exact hA

theorem attemptArgs_frame {O : Ops F} {id k : Nat} (n : Nat) : ∀ ts, ¬ UsesAny k ts → ∀ i, ∀ S : St F,
    (attemptArgs O id n i ts S).2.lastId k = S.lastId k
  | [], _, _, _ => by rw [attemptArgs]
  | t :: ts, hu, i, S => by
    rw [UsesAny, not_or] at hu
    cases t with
    | leaf f =>
      rw [attemptArgs]
      exact attemptArgs_frame n ts hu.2 (i + 1) _
    | node m us =>
      rw [attemptArgs]
      split
      · exact attemptArgs_frame n ts hu.2 (i + 1) _
      · simp only
        rw [attemptArgs_frame n ts hu.2 (i + 1)]
        have h0 := attempt_frame (O := O) (id := id) (.node m us) hu.1 S
        split <;> exact h0

end

mutual

theorem uses_size {kids : Nat → List Expr} {k : Nat} : ∀ t, Shares kids t → Uses k t →
    sizeOf (Expr.node k (kids k)) ≤ sizeOf t
  | .leaf _, _, h => by rw [Uses] at h; exact h.elim
  | .node n ts, hs, h => by
    rw [Uses] at h
    rw [Shares] at hs
    rcases h with rfl | h
    · exact Nat.le_of_eq (by rw [hs.1])
    · have := usesAny_size ts hs.2.2 h
      simp only [Expr.node.sizeOf_spec] at this ⊢
      omega

theorem usesAny_size {kids : Nat → List Expr} {k : Nat} : ∀ ts, SharesAll kids ts → UsesAny k ts →
    sizeOf (Expr.node k (kids k)) ≤ sizeOf ts
  | [], _, h => by rw [UsesAny] at h; exact h.elim
  | t :: ts, hs, h => by
    rw [UsesAny] at h
    rw [SharesAll] at hs
    simp only [List.cons.sizeOf_spec]
    rcases h with h | h
    · have := uses_size t hs.1 h; omega
    · have := usesAny_size ts hs.2 h; omega

end

/-- No operator occurs inside its own arguments. -/
theorem not_uses_self {kids : Nat → List Expr} {n : Nat} {t : Expr} (hs : Shares kids t)
    (ht : t ∈ kids n) : ¬ Uses n t := by
  intro hu
  have h1 := uses_size t hs hu
  have h2 := List.sizeOf_lt_of_mem ht
  simp only [Expr.node.sizeOf_spec] at h1
  omega

mutual

/-- An attempt, anywhere in a pass, succeeds exactly when the pass value exists. -/
theorem attempt_spec {O : Ops F} (hO : Lawful O) {id : Nat} {kids : Nat → List Expr} {S : St F} :
    ∀ t, Shares kids t → ∀ S', Mid O id kids S S' →
      Mid O id kids S (attempt O id t S').2 ∧ Mono O id S' (attempt O id t S').2 ∧
      (attempt O id t S').1 = (val O id S t).isSome ∧
      (∀ n ts, t = .node n ts → (attempt O id t S').1 = true → Done id (attempt O id t S').2 n) ∧
      (∀ n ts, t = .node n ts → Post O id S (attempt O id t S').2 t)
  | .leaf f, _, S', hM => by
    rw [attempt, val]
    exact ⟨hM, Mono.refl _ _ _, rfl, (fun _ _ h => by cases h), (fun _ _ h => by cases h)⟩
  | .node n ts, hs, S', hM => by
    have hs' := hs
    rw [Shares] at hs'
    obtain ⟨hk, _, hsa⟩ := hs'
    by_cases hd : Done id S' n
    · have hd' : S'.lastId n = some id := hd
      have e : attempt O id (.node n ts) S' = (true, S') := by rw [attempt, if_pos hd']
      rw [e, hM.val hk hd]
      refine ⟨hM, Mono.refl _ _ _, rfl, fun m us he _ => ?_, fun m us he => ?_⟩
      · cases he; exact hd
      · rw [Post]; exact Or.inl hd
    · have hd' : ¬ S'.lastId n = some id := hd
      obtain ⟨hMc, hmc⟩ := clear_mid hM hd
      have hdc : ¬ Done id (S'.clear n) n := by simp [Done, St.clear]
      have hA := attemptArgs_spec hO n hk (hS := S) ts 0 (by simp [hk]) hsa (S'.clear n) hMc hdc
      obtain ⟨hM1, hm1, hn1, h1, h1d, h1p⟩ := hA
      have hne : ¬ Done id S n := fun h => hd (hM.keep n h).1
      rw [attempt, if_neg hd']
      set r := attemptArgs O id n 0 ts (S'.clear n) with hr
      have hmr : Mono O id S' r.2 := hmc.trans hm1
      simp only
      by_cases hr1 : r.1 = false
      · rw [if_pos hr1]
        have hvs : vals O id S ts = none := by
          rw [hr1, eq_comm, ← vals_isSome] at h1
          simpa using h1
        have hv : val O id S (.node n ts) = none := by
          rw [val, if_neg hne, hvs]
        rw [hv]
        refine ⟨hM1, hmr, rfl, fun _ _ _ h => absurd h (by simp), fun m us he => ?_⟩
        rw [Post]
        exact Or.inr ⟨hv, h1p⟩
      · rw [if_neg hr1]
        have hr1' : r.1 = true := by simpa using hr1
        have hvs := args_vals hM1 ts hsa (h1d hr1')
        by_cases hc : O.chk n (ts.map fun t => r.2.fs t.ref) = false
        · rw [if_pos hc]
          have hv : val O id S (.node n ts) = none := by
            rw [val, if_neg hne, hvs]
            simp [hc]
          rw [hv]
          refine ⟨hM1, hmr, rfl, fun _ _ _ h => absurd h (by simp), fun m us he => ?_⟩
          rw [Post]
          exact Or.inr ⟨hv, h1p⟩
        · rw [if_neg hc]
          have hv : val O id S (.node n ts) = some (O.run n (ts.map fun t => r.2.fs t.ref)) := by
            rw [val, if_neg hne, hvs]
            simp only
            rw [if_pos (by simpa using hc)]
          obtain ⟨hMf, hmf, hdf⟩ := finish_mid hO hM1 hn1 (ts.map fun t => r.2.fs t.ref) (by rw [hk]; exact hv)
            (fun m us hm => by rw [hk] at hm; exact h1d hr1' _ hm)
          rw [hv]
          refine ⟨hMf, hmr.trans hmf, rfl, fun m us he _ => ?_, fun m us he => ?_⟩
          · cases he; exact hdf
          · rw [Post]; exact Or.inl hdf

theorem attemptArgs_spec {O : Ops F} (hO : Lawful O) {id : Nat} {kids : Nat → List Expr} {hS : St F}
    (n : Nat) {all : List Expr} (hk : kids n = all) :
    ∀ ts i, (∀ j, ts[j]? = all[i + j]?) → SharesAll kids ts → ∀ S', Mid O id kids hS S' → ¬ Done id S' n →
      Mid O id kids hS (attemptArgs O id n i ts S').2 ∧ Mono O id S' (attemptArgs O id n i ts S').2 ∧
      ¬ Done id (attemptArgs O id n i ts S').2 n ∧
      (attemptArgs O id n i ts S').1 = ts.all (fun t => (val O id hS t).isSome) ∧
      ((attemptArgs O id n i ts S').1 = true →
        ∀ t ∈ ts, match t with
          | .leaf f => O.resc ((attemptArgs O id n i ts S').2.fs (.leaf f)) =
              (attemptArgs O id n i ts S').2.fs (.leaf f)
          | .node m _ => Done id (attemptArgs O id n i ts S').2 m) ∧
      PostArgs O id hS (attemptArgs O id n i ts S').2 n i ts
  | [], _, _, _, S', hM, hn => by
    rw [attemptArgs, PostArgs]
    exact ⟨hM, Mono.refl _ _ _, hn, rfl, fun _ _ h => absurd h (by simp), trivial⟩
  | t :: ts, i, hj, hs, S', hM, hn => by
    have hj' : ∀ j, ts[j]? = all[(i + 1) + j]? := by
      intro j
      have := hj (j + 1)
      rw [List.getElem?_cons_succ] at this
      rw [this]; congr 1; omega
    have h0 : (kids n)[i]? = some t := by
      have := hj 0
      rw [List.getElem?_cons_zero] at this
      rw [hk]; simpa using this.symm
    rw [SharesAll] at hs
    cases t with
    | leaf f =>
      obtain ⟨hM1, hm1, hr1⟩ := rescale_leaf_mid hO hM f
      obtain ⟨a, b, c, d, e, g⟩ := attemptArgs_spec hO n hk ts (i + 1) hj' hs.2 _ hM1 hn
      rw [attemptArgs]
      refine ⟨a, hm1.trans b, c, ?_, ?_, ?_⟩
      · rw [d, List.all_cons, val]; simp
      · intro hT u hu
        rcases List.mem_cons.1 hu with rfl | hu
        · simp only
          rw [b.res f hr1]; exact hr1
        · exact e hT u hu
      · rw [PostArgs]
        refine ⟨?_, (fun _ _ h => by cases h), g⟩
        rw [Post, b.res f hr1]; exact hr1
    | node m us =>
      by_cases hsub : S'.sub n i = true
      · have hdm := hM.inv.sub_done n i m us hsub h0
        have e0 := rescale_out_mid hM hdm
        have hkm := hs.1
        rw [Shares] at hkm
        obtain ⟨a, b, c, d, e, g⟩ := attemptArgs_spec hO n hk ts (i + 1) hj' hs.2 S' hM hn
        rw [attemptArgs]
        simp only [if_pos hsub, e0]
        refine ⟨a, b, c, ?_, ?_, ?_⟩
        · rw [d, List.all_cons, hM.val hkm.1 hdm]; simp
        · intro hT u hu
          rcases List.mem_cons.1 hu with rfl | hu
          · exact b.done m hdm
          · exact e hT u hu
        · rw [PostArgs]
          refine ⟨?_, ?_, g⟩
          · rw [Post]; exact Or.inl (b.done m hdm)
          · intro m' us' he
            cases he
            exact Or.inr ⟨b.done m hdm, b.sub n i c hsub⟩
      · obtain ⟨a0, b0, c0, d0, p0⟩ := attempt_spec hO (.node m us) hs.1 S' hM
        have hp := p0 m us rfl
        have hn1 : ¬ Done id (attempt O id (.node m us) S').2 n := by
          have := attempt_frame (O := O) (id := id) (.node m us)
            (not_uses_self hs.1 (List.mem_of_getElem? h0)) S'
          unfold Done
          rw [this]; exact hn
        rw [attemptArgs]
        simp only [if_neg hsub]
        set r := attempt O id (.node m us) S' with hr
        by_cases hr1 : r.1 = true
        · have hdm := d0 m us rfl hr1
          obtain ⟨hM2, hm2⟩ := subst_mid a0 hn1 h0 hdm
          have hn2 : ¬ Done id (r.2.subst n i) n := hn1
          obtain ⟨a, b, c, d, e, g⟩ := attemptArgs_spec hO n hk ts (i + 1) hj' hs.2 _ hM2 hn2
          simp only [if_pos hr1]
          refine ⟨a, (b0.trans hm2).trans b, c, ?_, ?_, ?_⟩
          · rw [d, List.all_cons, ← c0]
          · intro hT u hu
            rw [hr1, Bool.true_and] at hT
            rcases List.mem_cons.1 hu with rfl | hu
            · exact b.done m hdm
            · exact e hT u hu
          · rw [PostArgs]
            refine ⟨?_, ?_, g⟩
            · rw [Post]; exact Or.inl (b.done m hdm)
            · intro m' us' he
              cases he
              exact Or.inr ⟨b.done m hdm, b.sub n i c (by simp [St.subst])⟩
        · have hv : val O id hS (.node m us) = none := by
            rw [c0] at hr1; simpa using hr1
          obtain ⟨a, b, c, d, e, g⟩ := attemptArgs_spec hO n hk ts (i + 1) hj' hs.2 _ a0 hn1
          simp only [if_neg hr1]
          refine ⟨a, b0.trans b, c, ?_, ?_, ?_⟩
          · rw [d, List.all_cons, ← c0]
          · intro hT
            rw [Bool.and_eq_true] at hT
            exact absurd hT.1 hr1
          · rw [PostArgs]
            refine ⟨Post.mono a b _ hs.1 hp, ?_, g⟩
            intro m' us' he
            cases he
            exact Or.inl hv

end

end Dedalus.Eval
