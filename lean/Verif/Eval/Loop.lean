import Verif.Eval.Live

/-!
# Passes, moves and the loop
-/

namespace Dedalus.Eval

variable {F : Type}

theorem attemptTasks_spec {O : Ops F} (hO : Lawful O) {id : Nat} {kids : Nat → List Expr} {S : St F} :
    ∀ ts, SharesAll kids ts → ∀ S', Mid O id kids S S' →
      Mid O id kids S (attemptTasks O id ts S').2 ∧ Mono O id S' (attemptTasks O id ts S').2 ∧
      (attemptTasks O id ts S').1 = ts.filter (fun t => (val O id S t).isNone) ∧
      (∀ n us, Expr.node n us ∈ ts → Post O id S (attemptTasks O id ts S').2 (.node n us))
  | [], _, S', hM => by
    rw [attemptTasks]
    exact ⟨hM, Mono.refl _ _ _, rfl, fun _ _ h => absurd h (by simp)⟩
  | t :: ts, hs, S', hM => by
    rw [SharesAll] at hs
    obtain ⟨a, b, c, _, p⟩ := attempt_spec hO t hs.1 S' hM
    obtain ⟨a', b', c', p'⟩ := attemptTasks_spec hO ts hs.2 _ a
    rw [attemptTasks]
    refine ⟨a', b.trans b', ?_, ?_⟩
    · rw [List.filter_cons]
      simp only
      rw [c, c']
      cases val O id S t <;> rfl
    · intro n us hm
      rcases List.mem_cons.1 hm with e | hm
      · exact Post.mono a' b' _ (by rw [e]; exact hs.1) (by rw [e]; exact p n us e.symm)
      · exact p' n us hm

/-- `k` decrements, from layout `k` to the coefficient layout -/
def dnFrom (O : Ops F) : Nat → F → F
  | 0, x => x
  | k + 1, x => dnFrom O k (O.dn k x)

/-- The coefficient form of a field. -/
def toC (O : Ops F) (x : F) : F := dnFrom O (O.lay x) x

theorem dnFrom_resc {O : Ops F} (hO : Lawful O) : ∀ k x, O.resc x = x → O.resc (dnFrom O k x) = dnFrom O k x
  | 0, _, h => h
  | k + 1, x, h => dnFrom_resc hO k _ (hO.resc_dn k x h)

theorem dnFrom_lay {O : Ops F} (hO : Lawful O) : ∀ k x, O.lay x = k → O.lay (dnFrom O k x) = 0
  | 0, _, h => h
  | k + 1, x, _ => dnFrom_lay hO k _ (hO.lay_dn k x)

theorem toC_lay {O : Ops F} (hO : Lawful O) (x : F) : O.lay (toC O x) = 0 := dnFrom_lay hO _ x rfl

theorem toC_of_lay {O : Ops F} {x : F} (h : O.lay x = 0) : toC O x = x := by
  unfold toC; rw [h]; rfl

theorem toC_toC {O : Ops F} (hO : Lawful O) (x : F) : toC O (toC O x) = toC O x :=
  toC_of_lay (toC_lay hO x)

theorem toC_dn {O : Ops F} (hO : Lawful O) {k : Nat} {x : F} (h : O.lay x = k + 1) :
    toC O (O.dn k x) = toC O x := by
  unfold toC; rw [hO.lay_dn, h]; rfl

theorem toC_up {O : Ops F} (hO : Lawful O) {k : Nat} {x : F} (h : O.lay x = k) (hr : O.resc x = x) :
    toC O (O.up k x) = toC O x := by
  unfold toC; rw [hO.lay_up, h, dnFrom, hO.dn_up k x hr h]

/-- What the loop of `require_coeff_space` does to each field. -/
theorem coeffLoop_spec {O : Ops F} (start : Ref → Nat) (rs : List Ref) : ∀ k cur (st : St F),
    (∀ r ∈ cur, k < start r) →
    coeffLoop O start rs k cur st =
      ⟨fun r => if r ∈ cur then dnFrom O k (st.fs r)
        else if r ∈ rs ∧ start r ≤ k then dnFrom O (start r) (st.fs r) else st.fs r,
        st.lastId, st.sub, st.runs⟩
  | 0, cur, st, _ => by
    rw [coeffLoop]
    have : (fun r => if r ∈ cur then dnFrom O 0 (st.fs r)
      else if r ∈ rs ∧ start r ≤ 0 then dnFrom O (start r) (st.fs r) else st.fs r) = st.fs := by
      funext r
      split
      · rfl
      · split
        · rename_i h
          have : start r = 0 := by omega
          rw [this]; rfl
        · rfl
    rw [this]
  | k + 1, cur, st, hc => by
    rw [coeffLoop]
    rw [coeffLoop_spec start rs k _ _ ?_]
    · simp only [St.move]
      congr 1
      funext r
      by_cases h1 : r ∈ cur
      · have h2 : r ∈ cur ++ rs.filter (fun r => start r = k + 1) := List.mem_append_left _ h1
        rw [if_pos h2, if_pos h1, if_pos h2]; rfl
      · rw [if_neg h1]
        by_cases h3 : r ∈ rs ∧ start r = k + 1
        · have h2 : r ∈ cur ++ rs.filter (fun r => start r = k + 1) := by
            apply List.mem_append_right
            rw [List.mem_filter]
            exact ⟨h3.1, by simpa using h3.2⟩
          rw [if_pos h2, if_pos h2, if_pos ⟨h3.1, by omega⟩, h3.2]; rfl
        · have h2 : ¬ r ∈ cur ++ rs.filter (fun r => start r = k + 1) := by
            rw [List.mem_append, List.mem_filter]
            rintro (h | h)
            · exact h1 h
            · exact h3 ⟨h.1, by simpa using h.2⟩
          rw [if_neg h2, if_neg h2]
          by_cases h4 : r ∈ rs ∧ start r ≤ k
          · rw [if_pos h4, if_pos ⟨h4.1, by omega⟩]
          · rw [if_neg h4, if_neg]
            rintro ⟨h5, h6⟩
            by_cases h7 : start r = k + 1
            · exact h3 ⟨h5, h7⟩
            · exact h4 ⟨h5, by omega⟩
    · intro r hr
      rcases List.mem_append.1 hr with h | h
      · have := hc r h; omega
      · have := (List.mem_filter.1 h).2
        simp at this; omega

theorem le_foldl_max : ∀ (l : List Nat) (a : Nat), a ≤ l.foldl max a ∧ ∀ x ∈ l, x ≤ l.foldl max a
  | [], a => ⟨Nat.le_refl _, fun _ h => absurd h (by simp)⟩
  | b :: l, a => by
    have h := le_foldl_max l (max a b)
    rw [List.foldl_cons]
    refine ⟨by omega, fun x hx => ?_⟩
    rcases List.mem_cons.1 hx with rfl | hx
    · omega
    · exact h.2 x hx

theorem requireCoeff_eq {O : Ops F} (rs : List Ref) (st : St F) :
    requireCoeff O rs st = st.move (toC O) rs := by
  unfold requireCoeff
  split
  · rename_i h
    rw [List.all_eq_true] at h
    have : (fun q => if q ∈ rs then toC O (st.fs q) else st.fs q) = st.fs := by
      funext q
      split
      · rename_i hq
        exact toC_of_lay (by simpa using h q hq)
      · rfl
    unfold St.move
    rw [this]
  · rw [coeffLoop_spec _ _ _ _ _ (fun r h => absurd h (by simp))]
    unfold St.move
    congr 1
    funext r
    rw [if_neg (by simp)]
    by_cases h : r ∈ rs
    · have : O.lay (st.fs r) ≤ maxLay (fun r => O.lay (st.fs r)) rs :=
        (le_foldl_max _ 0).2 _ (List.mem_map.2 ⟨r, h, rfl⟩)
      rw [if_pos ⟨h, this⟩, if_pos h]; rfl
    · rw [if_neg (fun e => h e.1), if_neg h]

/-- at layout `cur`, with the dealias scales, and equal -/
abbrev RAt (O : Ops F) (cur : Nat) : F → F → Prop := RPost O (fun x => O.lay x = cur)

theorem run_lay {O : Ops F} (hO : Lawful O) (cur : Nat) : ∀ n vs, vs ≠ [] → (∀ v ∈ vs, O.lay v = cur) →
    O.chk n vs = true → O.lay (O.run n vs) = cur := fun n vs => hO.lay_run n vs cur

/-- A pending task, in two runs, between moves at layout `cur`. -/
structure Pend (O : Ops F) (R : F → F → Prop) (id id' : Nat) (kids : Nat → List Expr) (S A : St F)
    (t : Expr) : Prop where
  shares : Shares kids t
  node : ∃ n ts, t = .node n ts ∧ ¬ Done id S n
  live : Live2 R id id' S A t
  subS : Subd id S t
  subA : Subd id' A t

/-- An attempt pass on a pending task, in two runs. -/
theorem Pend.pass {O : Ops F} {id id' : Nat} {kids : Nat → List Expr} {S A S' A' : St F}
    {P : F → Prop} (hP : ∀ n vs, vs ≠ [] → (∀ v ∈ vs, P v) → O.chk n vs = true → P (O.run n vs))
    (hS : Inv O id kids S) (hA : Inv O id' kids A) (hMS : Mid O id kids S S') (hMA : Mid O id' kids A A')
    {n : Nat} {ts : List Expr} (hs : Shares kids (.node n ts))
    (hl : Live2 (RPre O P) id id' S A (.node n ts))
    (hpS : Post O id S S' (.node n ts)) (hpA : Post O id' A A' (.node n ts)) :
    (val O id S (.node n ts) = none ∧ val O id' A (.node n ts) = none ∧
      Pend O (RPost O P) id id' kids S' A' (.node n ts)) ∨
    ((val O id S (.node n ts)).isSome ∧ (val O id' A (.node n ts)).isSome ∧ Done id S' n ∧ Done id' A' n ∧
      S'.fs (.out n) = A'.fs (.out n)) := by
  have hv := val_same hS hA _ hl
  have hl' := pass_live hP hS hA hMS hMA _ hs hl hpS hpA
  have hk : kids n = ts := by rw [Shares] at hs; exact hs.1
  by_cases hd : Done id S' n
  · right
    have h1 := hMS.val hk hd
    rw [Live2] at hl'
    refine ⟨by rw [h1]; rfl, by rw [← hv, h1]; rfl, hd, hl'.1.1 hd, (hl'.2.1 hd).1⟩
  · left
    have h1 : val O id S (.node n ts) = none := by
      rw [Post] at hpS
      rcases hpS with h | h
      · exact absurd h hd
      · exact h.1
    exact ⟨h1, by rw [← hv]; exact h1, ⟨hs, ⟨n, ts, rfl, hd⟩, hl', Post.subd hMS _ hs hpS,
      Post.subd hMA _ hs hpA⟩⟩

/-- A move of all fields of a pending task, in two runs. -/
theorem Pend.move {O : Ops F} {id id' : Nat} {kids : Nat → List Expr} {S A : St F}
    (hS : Inv O id kids S) (hA : Inv O id' kids A) {R R' : F → F → Prop} {g : F → F}
    (hR : ∀ x y, R x y → R' (g x) (g y)) {n : Nat} {ts : List Expr}
    (h : Pend O R id id' kids S A (.node n ts)) {rs rs' : List Ref}
    (hrs : ∀ r ∈ atoms S (.node n ts), r ∈ rs) (hrs' : ∀ r ∈ atoms A (.node n ts), r ∈ rs') :
    Live2 R' id id' (S.move g rs) (A.move g rs') (.node n ts) := by
  obtain ⟨m, us, e, hd⟩ := h.node
  cases e
  exact move_live hR hS hA n ts h.shares hd h.live h.subS h.subA hrs hrs'

/-- The move of one pass of the loop. -/
def stepMove (O : Ops F) (cur nxt : Nat) : F → F := if cur < nxt then O.up cur else O.dn nxt

theorem stepMove_resc {O : Ops F} (hO : Lawful O) (cur nxt : Nat) (x : F) (h : O.resc x = x) :
    O.resc (stepMove O cur nxt x) = stepMove O cur nxt x := by
  unfold stepMove
  split
  · exact hO.resc_up _ _ h
  · exact hO.resc_dn _ _ h

/-- neighbouring layouts -/
def Adj (a b : Nat) : Prop := b = a + 1 ∨ a = b + 1

theorem stepMove_at {O : Ops F} (hO : Lawful O) {cur nxt : Nat} (h : Adj cur nxt) (x y : F)
    (hx : RAt O cur x y) : RAt O nxt (stepMove O cur nxt x) (stepMove O cur nxt y) := by
  obtain ⟨rfl, h1, h2⟩ := hx
  refine ⟨rfl, stepMove_resc hO _ _ _ h1, ?_⟩
  unfold stepMove
  rcases h with h | h
  · rw [if_pos (by omega), hO.lay_up]; omega
  · rw [if_neg (by omega), hO.lay_dn]

theorem stepMove_toC {O : Ops F} (hO : Lawful O) {cur nxt : Nat} (h : Adj cur nxt) (x : F)
    (hx : RAt O cur x x) : toC O (stepMove O cur nxt x) = toC O x := by
  obtain ⟨_, h1, h2⟩ := hx
  unfold stepMove
  rcases h with h | h
  · rw [if_pos (by omega), toC_up hO h2 h1]
  · rw [if_neg (by omega), toC_dn hO (by omega)]

theorem move_toC {O : Ops F} {S : St F} {g : F → F} {rs : List Ref}
    (h : ∀ r ∈ rs, toC O (g (S.fs r)) = toC O (S.fs r)) (r : Ref) :
    toC O ((S.move g rs).fs r) = toC O (S.fs r) := by
  simp only [St.move]
  split
  · exact h r (by assumption)
  · rfl

theorem loop_nil (O : Ops F) (id : Nat) (idx : List Nat) (cur : Nat) (S : St F) :
    loop O id idx cur [] S = some S := by cases idx <;> rfl

theorem loop_cons (O : Ops F) (id : Nat) (nxt : Nat) (rest : List Nat) (cur : Nat) (ts : List Expr)
    (h : ts ≠ []) (S : St F) :
    loop O id (nxt :: rest) cur ts S =
      loop O id rest nxt (attemptTasks O id ts (S.move (stepMove O cur nxt) (getFields S ts))).1
        (attemptTasks O id ts (S.move (stepMove O cur nxt) (getFields S ts))).2 := by
  cases ts with
  | nil => exact absurd rfl h
  | cons t ts =>
    rw [loop]
    simp only [stepMove]
    split <;> rfl

theorem sharesAll_of {kids : Nat → List Expr} : ∀ {ts : List Expr}, (∀ t ∈ ts, Shares kids t) → SharesAll kids ts
  | [], _ => by rw [SharesAll]; trivial
  | t :: ts, h => by
    rw [SharesAll]
    exact ⟨h t List.mem_cons_self, sharesAll_of (fun u hu => h u (List.mem_cons_of_mem _ hu))⟩

theorem SharesAll.mem {kids : Nat → List Expr} : ∀ {ts : List Expr}, SharesAll kids ts → ∀ t ∈ ts, Shares kids t
  | t :: ts, h, u, hu => by
    rw [SharesAll] at h
    rcases List.mem_cons.1 hu with rfl | hu
    · exact h.1
    · exact SharesAll.mem h.2 u hu

theorem getFields_mem {S : St F} {ts : List Expr} {t : Expr} (h : t ∈ ts) :
    ∀ r ∈ atoms S t, r ∈ getFields S ts := by
  intro r hr
  exact List.mem_flatMap.2 ⟨t, h, hr⟩

/-- Fields of pending tasks are where they should be. -/
theorem fields_at {O : Ops F} {id : Nat} {kids : Nat → List Expr} {S : St F} {R : F → F → Prop}
    (hS : Inv O id kids S) {ts : List Expr} (h : ∀ t ∈ ts, Pend O R id id kids S S t) :
    ∀ r ∈ getFields S ts, R (S.fs r) (S.fs r) := by
  intro r hr
  obtain ⟨t, ht, hr⟩ := List.mem_flatMap.1 hr
  have hp := h t ht
  obtain ⟨n, us, rfl, hd⟩ := hp.node
  exact atoms_prop hS n us hp.shares hd hp.live hp.subS r hr

/-- The pending tasks after a pass, in one run. -/
theorem pend_after {O : Ops F} (hO : Lawful O) {id : Nat} {kids : Nat → List Expr} {S : St F}
    {P : F → Prop} (hP : ∀ n vs, vs ≠ [] → (∀ v ∈ vs, P v) → O.chk n vs = true → P (O.run n vs))
    (hS : Inv O id kids S) {ts : List Expr} (hn : ∀ t ∈ ts, Shares kids t ∧ ∃ n us, t = .node n us)
    (hl : ∀ t ∈ ts, Live2 (RPre O P) id id S S t) :
    ∀ t ∈ (attemptTasks O id ts S).1,
      Pend O (RPost O P) id id kids (attemptTasks O id ts S).2 (attemptTasks O id ts S).2 t := by
  obtain ⟨hM, _, hu, hp⟩ := attemptTasks_spec hO ts (sharesAll_of fun t ht => (hn t ht).1) S (Mid.refl hS)
  intro t ht
  rw [hu, List.mem_filter] at ht
  obtain ⟨hs, n, us, rfl⟩ := hn t ht.1
  rcases Pend.pass hP hS hS hM hM hs (hl _ ht.1) (hp n us ht.1) (hp n us ht.1) with h | h
  · exact h.2.2
  · have h1 := h.1
    have h2 := ht.2
    cases hv : val O id S (.node n us) with
    | none => rw [hv] at h1; cases h1
    | some v => rw [hv] at h2; cases h2

/-- The loop on many tasks and on each task alone. -/
theorem loop_sim {O : Ops F} (hO : Lawful O) {id : Nat} {kids : Nat → List Expr} :
    ∀ idx cur ts (S : St F), List.IsChain Adj (cur :: idx) → Inv O id kids S →
      (∀ t ∈ ts, Pend O (RAt O cur) id id kids S S t) →
      (∀ S', loop O id idx cur ts S = some S' →
        Inv O id kids S' ∧
        (∀ n, Done id S n → Done id S' n ∧ toC O (S'.fs (.out n)) = toC O (S.fs (.out n))) ∧
        ∀ n us, Expr.node n us ∈ ts → Done id S' n ∧ ∀ id' A, Inv O id' kids A →
          Pend O (RAt O cur) id id' kids S A (.node n us) →
          ∃ A', loop O id' idx cur [.node n us] A = some A' ∧ Done id' A' n ∧
            toC O (S'.fs (.out n)) = toC O (A'.fs (.out n))) ∧
      (loop O id idx cur ts S = none → ∃ n us, Expr.node n us ∈ ts ∧ ∀ id' A, Inv O id' kids A →
          Pend O (RAt O cur) id id' kids S A (.node n us) → loop O id' idx cur [.node n us] A = none)
  | idx, cur, [], S, _, hS, _ => by
    rw [loop_nil]
    refine ⟨fun S' h => ?_, (fun h => by cases h)⟩
    cases h
    exact ⟨hS, fun n hd => ⟨hd, rfl⟩, fun _ _ h => absurd h (by simp)⟩
  | [], cur, t :: ts, S, _, _, hp => by
    refine ⟨(fun S' h => by rw [loop] at h; cases h), fun _ => ?_⟩
    obtain ⟨n, us, rfl, _⟩ := (hp t List.mem_cons_self).node
    exact ⟨n, us, List.mem_cons_self, fun id' A _ _ => by rw [loop]⟩
  | nxt :: rest, cur, t0 :: ts0, S, hc, hS, hp => by
    generalize htsd : t0 :: ts0 = ts at hp
    have hne : ts ≠ [] := by rw [← htsd]; exact List.cons_ne_nil _ _
    rw [List.isChain_cons_cons] at hc
    rw [loop_cons O id nxt rest cur ts hne S]
    set g := stepMove O cur nxt with hg
    set S1 := S.move g (getFields S ts) with hS1
    have hat := stepMove_at hO hc.1
    have hI1 : Inv O id kids S1 := move_inv hS (stepMove_resc hO cur nxt) _
    have hsh : ∀ t ∈ ts, Shares kids t ∧ ∃ n us, t = .node n us := by
      intro t ht
      obtain ⟨n, us, e, _⟩ := (hp t ht).node
      exact ⟨(hp t ht).shares, n, us, e⟩
    have hl1 : ∀ t ∈ ts, Live2 (RAt O nxt) id id S1 S1 t := by
      intro t ht
      obtain ⟨n, us, rfl, _⟩ := (hp t ht).node
      exact Pend.move hS hS hat (hp _ ht) (getFields_mem ht) (getFields_mem ht)
    have hp2 := pend_after hO (run_lay hO nxt) hI1 hsh
      (fun t ht => Live2.imp (fun x y => RPost.pre) t (hl1 t ht))
    obtain ⟨hM, hm, hu, hpo⟩ :=
      attemptTasks_spec hO ts (sharesAll_of fun t ht => (hsh t ht).1) S1 (Mid.refl hI1)
    set q := attemptTasks O id ts S1 with hq
    have ih := loop_sim hO rest nxt q.1 q.2 hc.2 hM.inv hp2
    have htoC : ∀ n, Done id S n → Done id q.2 n ∧ toC O (q.2.fs (.out n)) = toC O (S.fs (.out n)) := by
      intro n hd
      have hd1 : Done id S1 n := hd
      have e := (hM.keep n hd1)
      refine ⟨e.1, ?_⟩
      rw [e.2]
      exact move_toC (fun r hr => stepMove_toC hO hc.1 _ (fields_at hS hp r hr)) _
    -- one step of a task alone
    have hstep : ∀ n us, Expr.node n us ∈ ts → ∀ id' A, Inv O id' kids A →
        Pend O (RAt O cur) id id' kids S A (.node n us) →
        ∃ A2, Inv O id' kids A2 ∧
          ((Expr.node n us ∈ q.1 ∧ Pend O (RAt O nxt) id id' kids q.2 A2 (.node n us) ∧
            loop O id' (nxt :: rest) cur [.node n us] A = loop O id' rest nxt [.node n us] A2) ∨
          (Done id q.2 n ∧ Done id' A2 n ∧ q.2.fs (.out n) = A2.fs (.out n) ∧
            loop O id' (nxt :: rest) cur [.node n us] A = some A2)) := by
      intro n us hmem id' A hA hpA
      have hl := Pend.move hS hA hat hpA (getFields_mem hmem)
        (rs' := getFields A [.node n us]) (getFields_mem (List.mem_singleton.2 rfl))
      have hIA : Inv O id' kids (A.move g (getFields A [.node n us])) :=
        move_inv hA (stepMove_resc hO cur nxt) _
      obtain ⟨hMA, _, huA, hpoA⟩ := attemptTasks_spec hO [.node n us]
        (sharesAll_of fun t ht => by rw [List.mem_singleton.1 ht]; exact hpA.shares) _ (Mid.refl hIA)
      refine ⟨_, hMA.inv, ?_⟩
      rw [loop_cons O id' nxt rest cur _ (by simp), ← hg, huA]
      rcases Pend.pass (run_lay hO nxt) hI1 hIA hM hMA hpA.shares
        (Live2.imp (fun x y => RPost.pre) _ hl) (hpo n us hmem)
        (hpoA n us (List.mem_singleton.2 rfl)) with h | h
      · left
        refine ⟨?_, h.2.2, ?_⟩
        · rw [hu, List.mem_filter, h.1]; exact ⟨hmem, rfl⟩
        · rw [List.filter_cons, h.2.1]; rfl
      · right
        refine ⟨h.2.2.1, h.2.2.2.1, h.2.2.2.2, ?_⟩
        rw [List.filter_cons]
        have : (val O id' (A.move g (getFields A [.node n us])) (.node n us)).isNone = false := by
          have := h.2.1
          cases hv : val O id' (A.move g (getFields A [.node n us])) (.node n us) with
          | none => rw [hv] at this; cases this
          | some v => rfl
        rw [this]
        simp only [Bool.false_eq_true, if_false, List.filter_nil]
        exact loop_nil _ _ _ _ _
    refine ⟨fun S' hS' => ?_, fun hnone => ?_⟩
    · obtain ⟨hI', hk', ht'⟩ := ih.1 S' hS'
      refine ⟨hI', fun n hd => ?_, fun n us hmem => ⟨?_, fun id' A hA hpA => ?_⟩⟩
      · have h1 := htoC n hd
        have h2 := hk' n h1.1
        exact ⟨h2.1, h2.2.trans h1.2⟩
      · have hpo' := hpo n us hmem
        rw [Post] at hpo'
        rcases hpo' with h | h
        · exact (hk' n h).1
        · refine (ht' n us ?_).1
          rw [hu, List.mem_filter, h.1]; exact ⟨hmem, rfl⟩
      · obtain ⟨A2, hA2, h | h⟩ := hstep n us hmem id' A hA hpA
        · obtain ⟨A', e1, e2, e3⟩ := (ht' n us h.1).2 id' A2 hA2 h.2.1
          exact ⟨A', by rw [h.2.2, e1], e2, e3⟩
        · refine ⟨A2, h.2.2.2, h.2.1, ?_⟩
          rw [(hk' n h.1).2, h.2.2.1]
    · obtain ⟨n, us, hmem, hall⟩ := ih.2 hnone
      have hmem0 := hmem
      rw [hu, List.mem_filter] at hmem0
      refine ⟨n, us, hmem0.1, fun id' A hA hpA => ?_⟩
      obtain ⟨A2, hA2, h | h⟩ := hstep n us hmem0.1 id' A hA hpA
      · rw [h.2.2]; exact hall id' A2 hA2 h.2.1
      · have hk : kids n = us := by have := hpA.shares; rw [Shares] at this; exact this.1
        have h2 := hM.val hk h.1
        rw [h2] at hmem0
        exact absurd hmem0.2 (by simp)

end Dedalus.Eval
