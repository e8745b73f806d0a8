import Verif.Eval.Value

/-!
# C26, C55: evaluation of tasks
-/

namespace Dedalus.Eval

variable {F W : Type}

/-- C26. Evaluating tasks together gives every task the value it gets when it is evaluated alone.

For all operators, transforms and layouts (`Lawful`), all task lists whose operators may share
subexpressions, and all field states: if the joint evaluation succeeds, then for every task `t`, the
evaluation of `t` alone also succeeds, with the same coefficients in its output field. The evaluation alone
may start from any other clean state `A`, with another evaluation id, that only has the same data in the
fields `t` reads: outputs of earlier evaluations have no influence. If the joint evaluation runs out of
passes, then so does the evaluation of some task alone. -/
theorem tasks_together_as_alone {O : Ops F} (hO : Lawful O) {id nLayouts : Nat} (hn : 2 ≤ nLayouts)
    {kids : Nat → List Expr} {tasks : List Expr} (hsh : ∀ t ∈ tasks, Shares kids t)
    (hnode : ∀ t ∈ tasks, ∃ n us, t = .node n us) {S : St F} (hc : Clean S) (hf : Fresh id S) :
    (∀ S', evaluate O id nLayouts tasks S = some S' → ∀ t ∈ tasks, ∀ id' A, Clean A → Fresh id' A →
      (∀ f, Reads f t → A.fs (.leaf f) = S.fs (.leaf f)) →
      ∃ A', evaluate O id' nLayouts [t] A = some A' ∧ A'.fs t.ref = S'.fs t.ref) ∧
    (evaluate O id nLayouts tasks S = none → ∃ t ∈ tasks, ∀ id' A, Clean A → Fresh id' A →
      (∀ f, Reads f t → A.fs (.leaf f) = S.fs (.leaf f)) → evaluate O id' nLayouts [t] A = none) := by
  obtain ⟨h1, h2⟩ := evaluate_sim hO hn hsh hnode hc hf
  refine ⟨fun S' hS' t ht => ?_, fun h => ?_⟩
  · obtain ⟨n, us, rfl⟩ := hnode t ht
    exact ((h1 S' hS').2 n us ht).2
  · obtain ⟨n, us, hm, h⟩ := h2 h
    exact ⟨_, hm, h⟩

mutual

theorem uses_done {O : Ops F} {id : Nat} {kids : Nat → List Expr} {S : St F} (hS : Inv O id kids S) {k : Nat} :
    ∀ n ts, Shares kids (.node n ts) → Done id S n → Uses k (.node n ts) → Done id S k
  | n, ts, hs, hd, h => by
    rw [Uses] at h
    rw [Shares] at hs
    rcases h with rfl | h
    · exact hd
    · exact usesAny_done hS n hd ts (fun t ht => by rw [hs.1]; exact ht) hs.2.2 h

theorem usesAny_done {O : Ops F} {id : Nat} {kids : Nat → List Expr} {S : St F} (hS : Inv O id kids S)
    {k : Nat} (n : Nat) (hd : Done id S n) :
    ∀ ts, (∀ t ∈ ts, t ∈ kids n) → SharesAll kids ts → UsesAny k ts → Done id S k
  | [], _, _, h => by rw [UsesAny] at h; exact h.elim
  | t :: ts, hk, hs, h => by
    rw [UsesAny] at h
    rw [SharesAll] at hs
    rcases h with h | h
    · cases t with
      | leaf f => rw [Uses] at h; exact h.elim
      | node m us => exact uses_done hS m us hs.1 (hS.closed n m us hd (hk _ List.mem_cons_self)) h
    · exact usesAny_done hS n hd ts (fun t ht => hk t (List.mem_cons_of_mem _ ht)) hs.2 h

end

/-- C26. In one evaluation every operator of the tasks is computed exactly once, however often it is
shared, and no other operator is computed. -/
theorem evaluated_once {O : Ops F} (hO : Lawful O) {id nLayouts : Nat} (hn : 2 ≤ nLayouts)
    {kids : Nat → List Expr} {tasks : List Expr} (hsh : ∀ t ∈ tasks, Shares kids t)
    (hnode : ∀ t ∈ tasks, ∃ n us, t = .node n us) {S S' : St F} (hc : Clean S) (hf : Fresh id S)
    (h : evaluate O id nLayouts tasks S = some S') :
    ∃ new : List Nat, S'.runs = new ++ S.runs ∧ new.Nodup ∧ ∀ k, k ∈ new ↔ ∃ t ∈ tasks, Uses k t := by
  have hT := evaluate_track hn (U := fun k => ∃ t ∈ tasks, Uses k t) (sharesAll_of hsh)
    (fun t ht k hk => ⟨t, ht, hk⟩) h
  obtain ⟨new, h1, h2, h3, h4⟩ := hT.runs
  obtain ⟨hI, hroot⟩ := (evaluate_sim hO hn hsh hnode hc hf).1 S' h
  refine ⟨new, h1, h2, fun k => ⟨fun hk => ?_, ?_⟩⟩
  · by_contra hU
    have := (hT.frame k hU).1
    exact (h3 k hk).1 (this.symm.trans (h3 k hk).2)
  · rintro ⟨t, ht, hu⟩
    obtain ⟨n, us, rfl⟩ := hnode t ht
    rcases h4 k (uses_done hI n us (hsh _ ht) (hroot n us ht).1 hu) with h | h
    · exact absurd h (hf k)
    · exact h

/-- C26. A completed evaluation leaves no argument replaced, and no id but its own is recorded. -/
theorem evaluation_leaves_clean {O : Ops F} (hO : Lawful O) {id nLayouts : Nat} (hn : 2 ≤ nLayouts)
    {kids : Nat → List Expr} {tasks : List Expr} (hsh : ∀ t ∈ tasks, Shares kids t)
    (hnode : ∀ t ∈ tasks, ∃ n us, t = .node n us) {S S' : St F} (hc : Clean S) (hf : Fresh id S)
    (h : evaluate O id nLayouts tasks S = some S') :
    Clean S' ∧ ∀ id', id' ≠ id → Fresh id' S → Fresh id' S' := by
  have hT := evaluate_track hn (U := fun k => ∃ t ∈ tasks, Uses k t) (sharesAll_of hsh)
    (fun t ht k hk => ⟨t, ht, hk⟩) h
  obtain ⟨hI, hroot⟩ := (evaluate_sim hO hn hsh hnode hc hf).1 S' h
  refine ⟨fun n i => ?_, fun id' hne hf' n e => ?_⟩
  · by_cases hU : ∃ t ∈ tasks, Uses n t
    · obtain ⟨t, ht, hu⟩ := hU
      obtain ⟨m, us, rfl⟩ := hnode t ht
      exact hI.reset n (uses_done hI m us (hsh _ ht) (hroot m us ht).1 hu) i
    · rw [(hT.frame n hU).2 i]; exact hc n i
  · rcases hT.ids n id' e with h | h
    · exact hne h
    · exact hf' n h

/-- C26. A completed evaluation hands over every output in coefficient layout, from any state. -/
theorem outputs_in_coefficient_layout {O : Ops F} (hO : Lawful O) {id nLayouts : Nat} (hn : 2 ≤ nLayouts)
    {tasks : List Expr} {S S' : St F} (h : evaluate O id nLayouts tasks S = some S') :
    ∀ t ∈ tasks, O.lay (S'.fs t.ref) = 0 := by
  obtain ⟨rest, _, he⟩ := evaluate_eq O nLayouts hn
  rw [he, Option.map_eq_some_iff] at h
  obtain ⟨T, _, rfl⟩ := h
  intro t ht
  have hm : t.ref ∈ tasks.map Expr.ref := List.mem_map_of_mem ht
  have e : (T.move (toC O) (tasks.map Expr.ref)).fs t.ref = toC O (T.fs t.ref) := if_pos hm
  rw [e]
  exact toC_lay hO _

/-- What happens in a program: evaluations, each with a new id, and arbitrary changes to field data. -/
inductive Event (F : Type) where
  | evaluate (id : Nat) (tasks : List Expr)
  | write (fs : (Ref → F) → Ref → F)

/-- A history of evaluations (all completed) and writes. -/
def runHistory (O : Ops F) (nLayouts : Nat) : List (Event F) → St F → Option (St F)
  | [], S => some S
  | .evaluate id ts :: es, S =>
    match evaluate O id nLayouts ts S with
    | none => none
    | some S' => runHistory O nLayouts es S'
  | .write w :: es, S => runHistory O nLayouts es { S with fs := w S.fs }

/-- the ids of a history -/
def historyIds : List (Event F) → List Nat
  | [] => []
  | .evaluate id _ :: es => id :: historyIds es
  | .write _ :: es => historyIds es

theorem history_clean {O : Ops F} (hO : Lawful O) {nLayouts : Nat} (hn : 2 ≤ nLayouts)
    {kids : Nat → List Expr} : ∀ (es : List (Event F)) (S S' : St F),
    (∀ e ∈ es, ∀ id ts, e = .evaluate id ts → ∀ t ∈ ts, Shares kids t ∧ ∃ n us, t = .node n us) →
    (historyIds es).Nodup → Clean S → (∀ i ∈ historyIds es, Fresh i S) →
    runHistory O nLayouts es S = some S' →
    Clean S' ∧ ∀ i, i ∉ historyIds es → Fresh i S → Fresh i S'
  | [], S, S', _, _, hc, _, h => by
    rw [runHistory] at h
    cases h
    exact ⟨hc, fun _ _ h => h⟩
  | .write w :: es, S, S', hw, hnd, hc, hf, h => by
    rw [runHistory] at h
    exact history_clean hO hn es { S with fs := w S.fs } S'
      (fun e he => hw e (List.mem_cons_of_mem _ he)) hnd hc hf h
  | .evaluate id ts :: es, S, S', hw, hnd, hc, hf, h => by
    rw [historyIds, List.nodup_cons] at hnd
    rw [runHistory] at h
    have hts := hw _ List.mem_cons_self id ts rfl
    cases hev : evaluate O id nLayouts ts S with
    | none => rw [hev] at h; cases h
    | some T =>
      rw [hev] at h
      simp only at h
      have hfid : Fresh id S := hf id (by rw [historyIds]; exact List.mem_cons_self)
      obtain ⟨hcT, hfT⟩ := evaluation_leaves_clean hO hn (fun t ht => (hts t ht).1)
        (fun t ht => (hts t ht).2) hc hfid hev
      have hfes : ∀ i ∈ historyIds es, Fresh i T := fun i hi =>
        hfT i (fun e => hnd.1 (e ▸ hi)) (hf i (by rw [historyIds]; exact List.mem_cons_of_mem _ hi))
      obtain ⟨h1, h2⟩ := history_clean hO hn es T S' (fun e he => hw e (List.mem_cons_of_mem _ he))
        hnd.2 hcT hfes h
      refine ⟨h1, fun i hi hfi => ?_⟩
      rw [historyIds, List.mem_cons, not_or] at hi
      exact h2 i hi.2 (hfT i hi.1 hfi)

/-- C26. No evaluation leaks into a later one: after any history of completed evaluations with distinct ids
and arbitrary changes of field data, an evaluation with a new id gives each task what it would get alone
in a program where nothing has been evaluated before (`A`), with the present data of the fields it reads. -/
theorem no_leak_between_evaluations {O : Ops F} (hO : Lawful O) {nLayouts : Nat} (hn : 2 ≤ nLayouts)
    {kids : Nat → List Expr} (es : List (Event F)) (S T : St F) (hc : Clean S)
    (hes : ∀ e ∈ es, ∀ id ts, e = .evaluate id ts → ∀ t ∈ ts, Shares kids t ∧ ∃ n us, t = .node n us)
    (hids : (historyIds es).Nodup) (hf : ∀ i, Fresh i S) (hT : runHistory O nLayouts es S = some T)
    {id : Nat} (hid : id ∉ historyIds es) {tasks : List Expr} (hsh : ∀ t ∈ tasks, Shares kids t)
    (hnode : ∀ t ∈ tasks, ∃ n us, t = .node n us) {T' : St F}
    (hT' : evaluate O id nLayouts tasks T = some T') :
    ∀ t ∈ tasks, ∀ A : St F, (∀ n, A.lastId n = none) → Clean A →
      (∀ f, Reads f t → A.fs (.leaf f) = T.fs (.leaf f)) →
      ∃ A', evaluate O 0 nLayouts [t] A = some A' ∧ A'.fs t.ref = T'.fs t.ref := by
  obtain ⟨h1, h2⟩ := history_clean hO hn es S T hes hids hc (fun i _ => hf i) hT
  intro t ht A hA hcA hag
  exact (tasks_together_as_alone hO hn hsh hnode h1 (h2 id hid (hf id))).1 T' hT' t ht 0 A hcA
    (fun n e => by rw [hA n] at e; cases e) hag

/-- C26. When every state that arises resolves its value (no truncation loses anything), the output of every
task represents the mathematical value of its expression. -/
theorem evaluation_value {O : Ops F} (hO : Lawful O) {id nLayouts : Nat} (hn : 2 ≤ nLayouts)
    {kids : Nat → List Expr} {tasks : List Expr} (hsh : ∀ t ∈ tasks, Shares kids t)
    (hnode : ∀ t ∈ tasks, ∃ n us, t = .node n us) {S S' : St F} (hc : Clean S) (hf : Fresh id S)
    (h : evaluate O id nLayouts tasks S = some S') {Good : F → Prop} {abs : F → W}
    {sem : Nat → List W → W} (hR : Represents O Good abs sem) (hgood : ∀ f, Good (S.fs (.leaf f))) :
    ∀ t ∈ tasks, abs (S'.fs t.ref) = denote sem (fun f => abs (S.fs (.leaf f))) t := by
  obtain ⟨rest, _, he⟩ := evaluate_eq O nLayouts hn
  have hroot := ((evaluate_sim hO hn hsh hnode hc hf).1 S' h).2
  have h0 := h
  rw [he, Option.map_eq_some_iff] at h
  obtain ⟨T, hT, rfl⟩ := h
  have hI0 : Inv O id kids S := inv_init hc hf
  have hA0 : AbsInv O Good abs sem (fun f => abs (S.fs (.leaf f))) id kids S :=
    ⟨fun f => ⟨hgood f, rfl⟩, fun n hd => absurd hd (hf n)⟩
  have hA1 := attemptTasks_abs hO hR hI0 hA0 hsh
  obtain ⟨hI1, hsub1, _⟩ := stage_inv hO hI0 hsh
  have hI1' := move_inv hI1 (toC_resc hO)
    (getFields (attemptTasks O id tasks S).2 (attemptTasks O id tasks S).1)
  have hA1' := move_abs hA1 (fun x hx => dnFrom_abs hR (O.lay x) x hx)
    (getFields (attemptTasks O id tasks S).2 (attemptTasks O id tasks S).1)
  have hsh1 : ∀ t ∈ (attemptTasks O id tasks S).1, Shares kids t := fun t ht => hsh t (hsub1 t ht)
  obtain ⟨hI2, hsub2, _⟩ := stage_inv hO hI1' hsh1
  have hA2 := attemptTasks_abs hO hR hI1' hA1' hsh1
  have hAT := loop_abs hO hR _ _ _ _ _ hI2 hA2 (fun t ht => hsh1 t (hsub2 t ht)) hT
  have hfin := move_abs hAT (fun x hx => dnFrom_abs hR (O.lay x) x hx) (tasks.map Expr.ref)
  intro t ht
  obtain ⟨n, us, rfl⟩ := hnode t ht
  have hk : kids n = us := by have := hsh _ ht; rw [Shares] at this; exact this.1
  have := (hfin.out n (hroot n us ht).1).2
  rw [hk] at this
  exact this

theorem assignOutputs_spec : ∀ (rs : List Ref) (k : Nat) (seen : List Ref),
    (assignOutputs k seen rs).map Prod.snd = rs ∧
    ((assignOutputs k seen rs).map Prod.fst).Nodup ∧
    ∀ o ∈ assignOutputs k seen rs, (∃ r, o.1 = .own r ∧ o.2 = r ∧ r ∉ seen) ∨ ∃ j, o.1 = .copy j ∧ k ≤ j
  | [], _, _ => ⟨rfl, List.nodup_nil, fun _ h => absurd h (by simp [assignOutputs])⟩
  | r :: rs, k, seen => by
    rw [assignOutputs]
    split
    · rename_i hr
      obtain ⟨h1, h2, h3⟩ := assignOutputs_spec rs (k + 1) seen
      refine ⟨by rw [List.map_cons, h1], ?_, ?_⟩
      · rw [List.map_cons, List.nodup_cons]
        refine ⟨?_, h2⟩
        intro hm
        obtain ⟨o, ho, e⟩ := List.mem_map.1 hm
        rcases h3 o ho with ⟨r', e', _⟩ | ⟨j, e', hj⟩
        · rw [e'] at e; cases e
        · rw [e'] at e
          simp only [Obj.copy.injEq] at e
          omega
      · intro o ho
        rcases List.mem_cons.1 ho with rfl | ho
        · exact Or.inr ⟨k, rfl, Nat.le_refl _⟩
        · rcases h3 o ho with h | ⟨j, e, hj⟩
          · exact Or.inl h
          · exact Or.inr ⟨j, e, by omega⟩
    · rename_i hr
      obtain ⟨h1, h2, h3⟩ := assignOutputs_spec rs (k + 1) (r :: seen)
      refine ⟨by rw [List.map_cons, h1], ?_, ?_⟩
      · rw [List.map_cons, List.nodup_cons]
        refine ⟨?_, h2⟩
        intro hm
        obtain ⟨o, ho, e⟩ := List.mem_map.1 hm
        rcases h3 o ho with ⟨r', e', _, hs⟩ | ⟨j, e', hj⟩
        · rw [e'] at e
          simp only [Obj.own.injEq] at e
          exact hs (e ▸ List.mem_cons_self)
        · rw [e'] at e; cases e
      · intro o ho
        rcases List.mem_cons.1 ho with rfl | ho
        · exact Or.inl ⟨r, rfl, rfl, hr⟩
        · rcases h3 o ho with ⟨r', e1, e2, hs⟩ | ⟨j, e, hj⟩
          · exact Or.inl ⟨r', e1, e2, fun h => hs (List.mem_cons_of_mem _ h)⟩
          · exact Or.inr ⟨j, e, by omega⟩

theorem process_spec {g : Nat → F → F} : ∀ (os : List Obj) (k : Nat) (s : Obj → F), os.Nodup →
    (∀ o, o ∉ os → process g k os s o = s o) ∧
    ∀ i o, os[i]? = some o → process g k os s o = g (k + i) (s o)
  | [], _, _, _ => ⟨fun _ _ => rfl, fun _ _ h => absurd h (by simp)⟩
  | a :: os, k, s, hnd => by
    rw [List.nodup_cons] at hnd
    obtain ⟨h1, h2⟩ := process_spec (g := g) os (k + 1) (fun q => if q = a then g k (s q) else s q) hnd.2
    rw [process]
    refine ⟨fun o ho => ?_, fun i o ho => ?_⟩
    · rw [List.mem_cons, not_or] at ho
      rw [h1 o ho.2, if_neg ho.1]
    · cases i with
      | zero =>
        rw [List.getElem?_cons_zero, Option.some.injEq] at ho
        subst ho
        rw [h1 a hnd.1, if_pos rfl]; rfl
      | succ i =>
        rw [List.getElem?_cons_succ] at ho
        rw [h2 i o ho, if_neg]
        · congr 1; omega
        · intro e
          subst e
          exact hnd.1 (List.mem_of_getElem? ho)

/-- C26. The outputs handed to the handlers are independent: whatever each handler does to the outputs of its
tasks (`g i` on the output of task `i`, in place), the output of every task ends up as `g i` of the evaluated
value, even when several tasks are the same operator. `s` is the store of output objects, in which copies start
with the value they were copied from. -/
theorem outputs_processed_independently (rs : List Ref) (fs : Ref → F) (g : Nat → F → F) (s : Obj → F)
    (hs : ∀ o ∈ assignOutputs 0 [] rs, s o.1 = fs o.2) (i : Nat) (r : Ref) (hi : rs[i]? = some r) :
    ∃ o, (assignOutputs 0 [] rs)[i]? = some (o, r) ∧
      process g 0 ((assignOutputs 0 [] rs).map Prod.fst) s o = g i (fs r) := by
  obtain ⟨h1, h2, _⟩ := assignOutputs_spec rs 0 []
  have hi' : ((assignOutputs 0 [] rs).map Prod.snd)[i]? = some r := by rw [h1]; exact hi
  rw [List.getElem?_map, Option.map_eq_some_iff] at hi'
  obtain ⟨⟨o, r'⟩, ho, e⟩ := hi'
  simp only at e
  subst e
  refine ⟨o, ho, ?_⟩
  have := (process_spec (g := g) _ 0 s h2).2 i o (by rw [List.getElem?_map, ho]; rfl)
  rw [this, Nat.zero_add]
  congr 1
  exact hs _ (List.mem_of_getElem? ho)

theorem buildSystem_out : ∀ (ns : List Nat) (k : Nat) (out : Nat → Option Nat) (m : Nat), m ∉ ns →
    (buildSystem k ns out).1 m = out m
  | [], _, _, _, _ => rfl
  | n :: ns, k, out, m, h => by
    rw [List.mem_cons, not_or] at h
    rw [buildSystem]
    simp only
    rw [buildSystem_out ns (k + 1) _ m h.2, if_neg h.1]

/-- C55, for distinct right-hand sides: the fields the solver reads are the output fields of the operators. -/
theorem system_fields_partial : ∀ (ns : List Nat) (k : Nat) (out : Nat → Option Nat), ns.Nodup →
    ∀ (i n : Nat), ns[i]? = some n → ∃ f, (buildSystem k ns out).2[i]? = some f ∧ (buildSystem k ns out).1 n = some f
  | [], _, _, _, _, _, h => absurd h (by simp)
  | a :: ns, k, out, hnd, i, n, h => by
    rw [List.nodup_cons] at hnd
    rw [buildSystem]
    simp only
    cases i with
    | zero =>
      rw [List.getElem?_cons_zero, Option.some.injEq] at h
      subst h
      refine ⟨k, rfl, ?_⟩
      rw [buildSystem_out ns (k + 1) _ a hnd.1, if_pos rfl]
    | succ i =>
      rw [List.getElem?_cons_succ] at h
      rw [List.getElem?_cons_succ]
      exact system_fields_partial ns (k + 1) _ hnd.2 i n h

/-- C55 fails when two equations have the same operator object as right-hand side: the first field the solver
reads is no longer the output field of the operator, so nothing is ever written to it. -/
theorem system_fields_refuted : ¬ ∀ (ns : List Nat) (i n : Nat), ns[i]? = some n →
    ∃ f, (buildSystem 0 ns (fun _ => none)).2[i]? = some f ∧
      (buildSystem 0 ns (fun _ => none)).1 n = some f := by
  intro h
  obtain ⟨f, h1, h2⟩ := h [7, 7] 0 7 rfl
  revert h1 h2
  simp only [buildSystem]
  intro h1 h2
  simp at h1 h2
  omega

namespace Example

/-- Fields are pairs (layout, value) in layouts 0 and 1. Operator 0 needs layout 0, operator 1 needs layout 1,
operator 2 works anywhere; they add 1, multiply and add their arguments. -/
def ops : Ops (Nat × Nat) where
  chk n vs :=
    match n with
    | 0 => vs.all (fun v => v.1 = 0)
    | 1 => vs.all (fun v => v.1 = 1)
    | _ => match vs with
      | v :: vs => vs.all (fun w => w.1 = v.1)
      | [] => true
  run n vs :=
    match n, vs with
    | 0, v :: _ => (v.1, v.2 + 1)
    | 1, v :: vs => (v.1, vs.foldl (fun a w => a * w.2) v.2)
    | _, v :: vs => (v.1, vs.foldl (fun a w => a + w.2) v.2)
    | _, [] => (0, 0)
  resc x := x
  up k x := (k + 1, x.2)
  dn k x := (k, x.2)
  lay x := x.1

theorem lawful : Lawful ops where
  resc_idem _ := rfl
  resc_run _ _ := rfl
  resc_up _ _ _ := rfl
  resc_dn _ _ _ := rfl
  lay_up _ _ := rfl
  lay_dn _ _ := rfl
  lay_run n vs k hne hk _ := by
    cases vs with
    | nil => exact absurd rfl hne
    | cons v vs =>
      have := hk v List.mem_cons_self
      match n with
      | 0 => exact this
      | 1 => exact this
      | _ + 2 => exact this
  dn_up k x _ h := by
    obtain ⟨a, b⟩ := x
    have h' : a = k := h
    subst h'
    rfl

/-- `h = f + 1`, in coefficient layout -/
def h : Expr := .node 0 [.leaf 0]
/-- `h * g` on the grid -/
def p : Expr := .node 1 [h, .leaf 1]
/-- `h * g + h`, with the same `h` -/
def t : Expr := .node 2 [p, h]

def kids : Nat → List Expr
  | 0 => [.leaf 0]
  | 1 => [h, .leaf 1]
  | _ => [p, h]

def start : St (Nat × Nat) := ⟨fun r => match r with | .leaf 0 => (0, 4) | _ => (1, 3), fun _ => none,
  fun _ _ => false, []⟩

example : Clean start ∧ Fresh 1 start := ⟨fun _ _ => rfl, fun _ => by simp [start]⟩
example : ∀ e ∈ [t, p, t], Shares kids e := by
  simp [t, p, h, Shares, SharesAll, kids]
example : ((evaluate ops 1 2 [t, p, t] start).map fun s => (s.fs (.out 2), s.fs (.out 1), s.runs)) =
    some ((0, 20), (0, 15), [2, 1, 0]) := by decide +kernel
example : denote (fun n vs => match n, vs with
    | 0, v :: _ => v + 1
    | 1, v :: vs => vs.foldl (fun a w => a * w) v
    | _, v :: vs => vs.foldl (fun a w => a + w) v
    | _, [] => 0) (fun f => if f = 0 then 4 else 3) t = 20 := by decide
example : Represents (W := Nat) ops (fun _ => True) Prod.snd (fun n vs => match n, vs with
    | 0, v :: _ => v + 1
    | 1, v :: vs => vs.foldl (fun a w => a * w) v
    | _, v :: vs => vs.foldl (fun a w => a + w) v
    | _, [] => 0) where
  resc _ _ := ⟨trivial, rfl⟩
  up _ _ _ := ⟨trivial, rfl⟩
  dn _ _ _ := ⟨trivial, rfl⟩
  run n vs _ _ := by
    refine ⟨trivial, ?_⟩
    have hmul : ∀ (l : List (Nat × Nat)) (a : Nat),
        l.foldl (fun a w => a * w.2) a = (l.map Prod.snd).foldl (fun a w => a * w) a := by
      intro l
      induction l with
      | nil => intro a; rfl
      | cons b l ih => intro a; rw [List.foldl_cons, ih, List.map_cons, List.foldl_cons]
    have hadd : ∀ (l : List (Nat × Nat)) (a : Nat),
        l.foldl (fun a w => a + w.2) a = (l.map Prod.snd).foldl (fun a w => a + w) a := by
      intro l
      induction l with
      | nil => intro a; rfl
      | cons b l ih => intro a; rw [List.foldl_cons, ih, List.map_cons, List.foldl_cons]
    cases vs with
    | nil =>
      match n with
      | 0 => rfl
      | 1 => rfl
      | _ + 2 => rfl
    | cons v vs =>
      match n with
      | 0 => rfl
      | 1 => exact hmul vs v.2
      | _ + 2 => exact hadd vs v.2

/-- a history with two evaluations and a write between them -/
example : ((runHistory ops 2 [.evaluate 1 [t], .write (fun fs r => if r = .leaf 0 then (1, 9) else fs r),
    .evaluate 2 [t]] start).map fun s => s.fs (.out 2)) = some (0, 40) := by decide +kernel

end Example

/-- C26 needs every evaluation to complete: if an evaluation is interrupted after an attempt pass (an
exception in some operator, for instance), arguments stay replaced, and a later evaluation of the same
task, with a new id and new field data, still uses the old value of the subexpression. Here the first pass
with `f = 4` is interrupted, then `f` is set to 9: the task `(f + 1) * g + (f + 1)` with `g = 3` gives
20 instead of 40. -/
theorem interrupted_evaluation_refuted :
    ¬ ∀ (O : Ops (Nat × Nat)) (t : Expr) (S A S' : St (Nat × Nat)) (v : Ref → Nat × Nat), Lawful O →
      Clean S → (∀ n, S.lastId n = none) → Clean A → (∀ n, A.lastId n = none) → (∀ r, A.fs r = v r) →
      evaluate O 2 2 [t] { (attemptTasks O 1 [t] S).2 with fs := fun r => match r with
        | .leaf f => v (.leaf f)
        | .out n => (attemptTasks O 1 [t] S).2.fs (.out n) } = some S' →
      ∃ A', evaluate O 2 2 [t] A = some A' ∧ A'.fs t.ref = S'.fs t.ref := by
  intro hall
  have h0 : (evaluate Example.ops 2 2 [Example.t]
      { (attemptTasks Example.ops 1 [Example.t] Example.start).2 with fs := fun r => match r with
        | .leaf f => if Ref.leaf f = .leaf 0 then (0, 9) else (1, 3)
        | .out n => (attemptTasks Example.ops 1 [Example.t] Example.start).2.fs (.out n) }).map
        (fun s => s.fs (.out 2)) = some (0, 20) := by decide +kernel
  rw [Option.map_eq_some_iff] at h0
  obtain ⟨S', hS', hv⟩ := h0
  obtain ⟨A', hA', e⟩ := hall Example.ops Example.t Example.start
    ⟨fun r => if r = .leaf 0 then (0, 9) else (1, 3), fun _ => none, fun _ _ => false, []⟩ S'
    (fun r => if r = .leaf 0 then (0, 9) else (1, 3)) Example.lawful (fun _ _ => rfl) (fun _ => rfl)
    (fun _ _ => rfl) (fun _ => rfl) (fun _ => rfl)
    hS'
  have h1 : (evaluate Example.ops 2 2 [Example.t]
    ⟨fun r => if r = .leaf 0 then (0, 9) else (1, 3), fun _ => none, fun _ _ => false, []⟩).map
        (fun s => s.fs (.out 2)) = some (0, 40) := by decide +kernel
  rw [hA'] at h1
  have h2 : A'.fs (.out 2) = (0, 40) := by simpa using h1
  have e' : A'.fs (.out 2) = S'.fs (.out 2) := e
  rw [e', hv] at h2
  exact absurd h2 (by decide)

end Dedalus.Eval
