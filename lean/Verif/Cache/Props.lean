import Verif.Cache.Spec

/-!
# C30, C56: memoisation
-/

namespace Dedalus.Cache

variable {R : Type}

theorem tup_inj : ∀ {l m : List Val}, tup l = tup m → l = m
  | [], [], _ => rfl
  | [], _ :: _, h => by simp [tup] at h
  | _ :: _, [], h => by simp [tup] at h
  | a :: l, b :: m, h => by
    simp only [tup, Val.pair.injEq] at h
    rw [h.1, tup_inj h.2]

theorem direct_inj {c c' : Call} (h : direct c = direct c') : c = c' := by
  have h := tup_inj h
  simp only [List.cons.injEq, and_true] at h
  obtain ⟨h1, h2⟩ := h
  have h1 := tup_inj h1
  have h2 := tup_inj h2
  have h3 : ∀ (l m : List (Nat × Val)), l.map (fun p => tup [.atom p.1, p.2]) = m.map (fun p => tup [.atom p.1, p.2]) →
      l = m := by
    intro l
    induction l with
    | nil => intro m h; cases m with
      | nil => rfl
      | cons _ _ => simp at h
    | cons a l ih => intro m h; cases m with
      | nil => simp at h
      | cons b m =>
        simp only [List.map_cons, List.cons.injEq] at h
        have := tup_inj h.1
        simp only [List.cons.injEq, Val.atom.injEq, and_true] at this
        rw [ih m h.2, Prod.ext this.1 this.2]
  cases c; cases c'
  simp only at h1 h2
  rw [h1, h3 _ _ h2]

theorem lookup_mem {α β : Type} [BEq α] [LawfulBEq α] {k : α} {v : β} : ∀ {l : List (α × β)}, l.lookup k = some v → (k, v) ∈ l
  | [], h => by simp at h
  | (a, b) :: l, h => by
    rw [List.lookup_cons] at h
    split at h
    · rename_i e
      have := eq_of_beq e
      subst this
      cases h
      exact List.mem_cons_self
    · exact List.mem_cons_of_mem _ (lookup_mem h)

theorem mem_lookup {α β : Type} [BEq α] [LawfulBEq α] {k : α} {v : β} : ∀ {l : List (α × β)}, (l.map Prod.fst).Nodup → (k, v) ∈ l →
    l.lookup k = some v
  | [], _, h => by simp at h
  | (a, b) :: l, hnd, h => by
    rw [List.map_cons, List.nodup_cons] at hnd
    rw [List.lookup_cons]
    rcases List.mem_cons.1 h with e | h'
    · cases e
      rw [beq_self_eq_true]
    · have : (k == a) = false := by
        rw [beq_eq_false_iff_ne]
        rintro rfl
        exact hnd.1 (List.mem_map.2 ⟨_, h', rfl⟩)
      rw [this]
      exact mem_lookup hnd.2 h'

theorem lookup_none {α β : Type} [BEq α] [LawfulBEq α] {k : α} : ∀ {l : List (α × β)}, l.lookup k = none → ∀ v, (k, v) ∉ l
  | [], _, _ => by simp
  | (a, b) :: l, h, v => by
    rw [List.lookup_cons] at h
    split at h
    · cases h
    · rename_i e
      intro hm
      rcases List.mem_cons.1 hm with e' | hm
      · cases e'; rw [beq_self_eq_true] at e; cases e
      · exact lookup_none h v hm

theorem mem_set {k k' : Val} {v v' : R} : ∀ {d : Dict R}, (k', v') ∈ d.set k v → (k', v') = (k, v) ∨ (k', v') ∈ d
  | [], h => by
    rw [Dict.set] at h
    exact Or.inl (List.mem_singleton.1 h)
  | e :: es, h => by
    rw [Dict.set] at h
    split at h
    · rcases List.mem_cons.1 h with h | h
      · exact Or.inl h
      · exact Or.inr (List.mem_cons_of_mem _ h)
    · rcases List.mem_cons.1 h with h | h
      · exact Or.inr (h ▸ List.mem_cons_self)
      · rcases mem_set h with h | h
        · exact Or.inl h
        · exact Or.inr (List.mem_cons_of_mem _ h)

theorem mem_shrink {max : Option Nat} : ∀ {d d' : Dict R}, shrink max d = some d' → ∀ e ∈ d', e ∈ d
  | [], d', h, e, he => by
    rw [shrink] at h
    split at h
    · cases h
    · cases h; exact he
  | a :: as, d', h, e, he => by
    rw [shrink] at h
    split at h
    · exact List.mem_cons_of_mem _ (mem_shrink h e he)
    · cases h; exact he

theorem shrink_length {m : Nat} : ∀ {d d' : Dict R}, shrink (some m) d = some d' → d'.length < m
  | [], d', h => by
    rw [shrink] at h
    split at h <;> rename_i hm
    · cases h
    · cases h
      simp only [full, decide_eq_true_eq] at hm
      simp only [List.length_nil]
      omega
  | a :: as, d', h => by
    rw [shrink] at h
    split at h <;> rename_i hm
    · exact shrink_length h
    · cases h
      simp only [full, decide_eq_true_eq] at hm
      omega

theorem shrink_some {max : Option Nat} (hm : max ≠ some 0) : ∀ d : Dict R, ∃ d', shrink max d = some d'
  | [] => by
    rw [shrink]
    split
    · rename_i h
      cases max with
      | none => simp [full] at h
      | some m =>
        simp only [full, decide_eq_true_eq] at h
        exact absurd (by rw [Nat.le_zero.1 h]) hm
    · exact ⟨_, rfl⟩
  | a :: as => by
    rw [shrink]
    split
    · exact shrink_some hm as
    · exact ⟨_, rfl⟩

theorem fill_spec {defaults : Nat → Option Val} {kw : List (Nat × Val)} : ∀ {ns : List Nat} {vs : List Val},
    fill defaults kw ns = some vs → vs.length = ns.length ∧ ∀ (i n : Nat), ns[i]? = some n →
      vs[i]? = (match kw.lookup n with | some v => some v | none => defaults n)
  | [], vs, h => by
    rw [fill] at h
    cases h
    exact ⟨rfl, fun i n h => by simp at h⟩
  | m :: ns, vs, h => by
    rw [fill] at h
    split at h
    · cases h
    · rename_i v hv
      split at h
      · cases h
      · rename_i us hus
        cases h
        obtain ⟨h1, h2⟩ := fill_spec hus
        refine ⟨by rw [List.length_cons, List.length_cons, h1], fun i n hi => ?_⟩
        cases i with
        | zero =>
          rw [List.getElem?_cons_zero, Option.some.injEq] at hi
          subst hi
          rw [List.getElem?_cons_zero]
          exact hv.symm
        | succ i =>
          rw [List.getElem?_cons_succ] at hi ⊢
          exact h2 i n hi

theorem fill_total {defaults : Nat → Option Val} {kw : List (Nat × Val)} : ∀ {ns : List Nat},
    (∀ n ∈ ns, (match kw.lookup n with | some v => some v | none => defaults n) ≠ none) →
    ∃ vs, fill defaults kw ns = some vs
  | [], _ => ⟨[], rfl⟩
  | m :: ns, h => by
    obtain ⟨vs, hvs⟩ := fill_total (ns := ns) (fun n hn => h n (List.mem_cons_of_mem _ hn))
    have h1 := h m List.mem_cons_self
    rw [fill]
    split
    · contradiction
    · rw [hvs]; exact ⟨_, rfl⟩

/-- the resolved call of a call that binds is the list of its parameters -/
theorem resolve_binds {s : Sig} {c : Call} {vals : List Val} (h : Binds s c vals) : resolve s c = some vals := by
  have key : ∀ i n, c.args.length ≤ i → s.names[i]? = some n →
      (match c.kw.lookup n with | some v => some v | none => s.defaults n) = vals[i]? := by
    intro i n hi hn
    cases hl : c.kw.lookup n with
    | none => exact (h.default i n hi hn (lookup_none hl)).symm
    | some v => exact (h.named i n v hi hn (lookup_mem hl)).symm
  obtain ⟨vs, hvs⟩ := fill_total (defaults := s.defaults) (kw := c.kw) (ns := s.names.drop c.args.length) (by
    intro n hn
    obtain ⟨i, hi⟩ := List.getElem?_of_mem hn
    rw [List.getElem?_drop] at hi
    rw [key _ n (Nat.le_add_right _ _) hi]
    have : c.args.length + i < s.names.length := by
      rw [List.getElem?_eq_some_iff] at hi
      exact hi.1
    rw [List.getElem?_eq_getElem (by rw [h.size]; exact this)]
    simp)
  rw [resolve, hvs]
  obtain ⟨h1, h2⟩ := fill_spec hvs
  simp only [Option.some.injEq]
  apply List.ext_getElem?
  intro i
  by_cases hi : i < c.args.length
  · rw [List.getElem?_append_left hi, h.positional i hi]
  · rw [List.getElem?_append_right (by omega)]
    by_cases hj : i < s.names.length
    · have hn : s.names[i]? = some s.names[i] := List.getElem?_eq_getElem hj
      have := h2 (i - c.args.length) s.names[i] (by
        rw [List.getElem?_drop, show c.args.length + (i - c.args.length) = i by omega]; exact hn)
      rw [this, key i _ (by omega) hn]
    · rw [List.getElem?_eq_none (by rw [h1, List.length_drop]; omega),
        List.getElem?_eq_none (by rw [h.size]; omega)]

/-- what is true of the entries of the cache at all times -/
def Good (s : Sig) (body : List Val → Except Err R) (d : Dict R) : Prop :=
  ∀ k r, (k, r) ∈ d → (∃ vals, k = tup vals ∧ NotTuplePair vals ∧ body vals = .ok r) ∨
    ∃ c vals, k = direct c ∧ resolve s c = some vals ∧ body vals = .ok r

theorem direct_ne_tup {c : Call} {vals : List Val} (h : NotTuplePair vals) : direct c ≠ tup vals := by
  intro e
  have e := tup_inj e
  exact h ⟨_, _, e.symm, ⟨_, rfl⟩, ⟨_, rfl⟩⟩

theorem call_good {s : Sig} {body : List Val → Except Err R} {f : Call → Except Err R} (hf : Calls s body f)
    {max : Option Nat} {c : Call} {d : Dict R} (hd : Good s body d)
    (hc : ∀ vals, resolve s c = some vals → NotTuplePair vals) : Good s body (call s f max c d).2 := by
  rw [call]
  split
  · exact hd
  · split
    · exact hd
    · rename_i vals hv
      have hnp := hc vals hv
      split
      · rename_i r hr
        intro k r' hm
        rcases mem_set hm with e | hm
        · cases e
          rcases hd _ _ (lookup_mem hr) with ⟨vals', e, _, hb⟩ | ⟨c', _, e, _⟩
          · exact Or.inr ⟨c, vals, rfl, hv, tup_inj e ▸ hb⟩
          · exact absurd e.symm (direct_ne_tup hnp)
        · exact hd _ _ hm
      · split
        · intro k r h; simp at h
        · rename_i d' hd'
          have hd1 : Good s body d' := fun k r h => hd k r (mem_shrink hd' _ h)
          split
          · exact hd1
          · rename_i r hr
            have hb : body vals = .ok r := by
              by_cases hB : ∃ vals', Binds s c vals'
              · obtain ⟨vals', hB⟩ := hB
                have := resolve_binds hB
                rw [hv, Option.some.injEq] at this
                rw [this, ← hf.bound c vals' hB]; exact hr
              · rw [hf.unbound c (fun v h => hB ⟨v, h⟩)] at hr
                cases hr
            intro k r' hm
            rcases mem_set hm with e | hm
            · cases e; exact Or.inl ⟨vals, rfl, hnp, hb⟩
            · rcases mem_set hm with e | hm
              · cases e; exact Or.inr ⟨c, vals, rfl, hv, hb⟩
              · exact hd1 _ _ hm

theorem history_good {s : Sig} {body : List Val → Except Err R} {f : Call → Except Err R} (hf : Calls s body f)
    {max : Option Nat} : ∀ (cs : List Call) (d : Dict R), Good s body d →
    (∀ c ∈ cs, ∀ vals, resolve s c = some vals → NotTuplePair vals) → Good s body (history s f max cs d)
  | [], _, hd, _ => hd
  | c :: cs, d, hd, h => by
    rw [history]
    exact history_good hf cs _ (call_good hf hd (h c List.mem_cons_self))
      (fun c' hc' => h c' (List.mem_cons_of_mem _ hc'))

theorem call_correct {s : Sig} {body : List Val → Except Err R} {f : Call → Except Err R} (hf : Calls s body f)
    {max : Option Nat} (hmax : max ≠ some 0) {d : Dict R} (hd : Good s body d) {c : Call} {vals : List Val}
    (hB : Binds s c vals) (hnp : NotTuplePair vals) : (call s f max c d).1 = body vals := by
  have hv := resolve_binds hB
  rw [call]
  split
  · rename_i r hr
    rcases hd _ _ (lookup_mem hr) with ⟨vals', e, hn, _⟩ | ⟨c', vals', e, hr', hb⟩
    · exact absurd e (direct_ne_tup hn)
    · have := direct_inj e
      subst this
      rw [hv, Option.some.injEq] at hr'
      rw [hr', hb]
  · rw [hv]
    simp only
    split
    · rename_i r hr
      rcases hd _ _ (lookup_mem hr) with ⟨vals', e, hn, hb⟩ | ⟨c', vals', e, _, _⟩
      · rw [tup_inj e, hb]
      · exact absurd e.symm (direct_ne_tup hnp)
    · obtain ⟨d', hd'⟩ := shrink_some hmax d
      rw [hd']
      simp only
      rw [hf.bound c vals hB]
      cases body vals <;> rfl

/-- C30, for functions whose parameters are not a pair of tuples: after any history of calls, valid or not, a call
that binds, in whatever way its arguments are passed, returns (or raises) what the function without cache would. -/
theorem cached_function_transparent_partial {s : Sig} {body : List Val → Except Err R}
    {f : Call → Except Err R} (hf : Calls s body f) (max : Option Nat) (hmax : max ≠ some 0)
    (cs : List Call) (hcs : ∀ c ∈ cs, ∀ vals, resolve s c = some vals → NotTuplePair vals)
    (c : Call) (vals : List Val) (hB : Binds s c vals) (hnp : NotTuplePair vals) :
    (call s f max c (history s f max cs [])).1 = body vals :=
  call_correct hf hmax (history_good hf cs [] (fun k r h => by simp at h) hcs) hB hnp

/-- A method called on an object. -/
def CalledOn (self : Nat) (c : Call) : Prop := ∃ args, c.args = .atom self :: args

theorem called_on_not_pair {s : Sig} {self : Nat} {c : Call} (h : CalledOn self c) {vals : List Val}
    (hv : resolve s c = some vals) : NotTuplePair vals := by
  obtain ⟨args, h⟩ := h
  rw [resolve, h] at hv
  split at hv
  · cases hv
  · cases hv
    rintro ⟨a, b, e, ⟨l, hl⟩, _⟩
    simp only [List.cons_append, List.cons.injEq] at e
    rw [← e.1] at hl
    cases l <;> simp [tup] at hl

/-- C30, for methods: after any history of calls on the object, a call that binds returns what the method without
cache would. -/
theorem cached_method_transparent {s : Sig} {body : List Val → Except Err R} {f : Call → Except Err R}
    (hf : Calls s body f) (max : Option Nat) (hmax : max ≠ some 0) (self : Nat) (cs : List Call)
    (hcs : ∀ c ∈ cs, CalledOn self c) (c : Call) (hc : CalledOn self c) (vals : List Val)
    (hB : Binds s c vals) : (call s f max c (history s f max cs [])).1 = body vals :=
  cached_function_transparent_partial hf max hmax cs
    (fun c' hc' _ hv => called_on_not_pair (hcs c' hc') hv) c vals hB
    (called_on_not_pair hc (resolve_binds hB))

/-- a signature `f(a, b=7)` and its function, which returns its parameters -/
def exSig : Sig := ⟨[10, 11], fun n => if n = 11 then some (.atom 7) else none⟩

theorem exists_calls (s : Sig) (body : List Val → Except Err R) : ∃ f, Calls s body f := by
  classical
  refine ⟨fun c => if h : ∃ vals, Binds s c vals then body h.choose else .error .typeError, ?_, ?_⟩
  · intro c vals hB
    have h : ∃ vals, Binds s c vals := ⟨vals, hB⟩
    rw [dif_pos h]
    have h1 := resolve_binds hB
    have h2 := resolve_binds h.choose_spec
    rw [h1, Option.some.injEq] at h2
    rw [← h2]
  · intro c h
    rw [dif_neg]
    rintro ⟨v, hv⟩
    exact h v hv

theorem ex_binds (a b : Val) : Binds exSig ⟨[a, b], []⟩ [a, b] where
  fits := Nat.le_refl _
  distinct := List.nodup_nil
  known := by simp
  size := rfl
  positional _ _ := rfl
  named _ _ _ _ _ h := by simp at h
  default i n hi hn _ := by
    have : i < exSig.names.length := by
      rw [List.getElem?_eq_some_iff] at hn; exact hn.1
    simp only [exSig, List.length_cons, List.length_nil] at this hi
    omega

/-- a valid call with a keyword and a default: `f(a=3)` has parameters 3 and 7 -/
example : Binds exSig ⟨[], [(10, .atom 3)]⟩ [.atom 3, .atom 7] ∧ NotTuplePair [.atom 3, .atom 7] := by
  refine ⟨⟨by simp, by simp, by simp [exSig], rfl, by simp, ?_, ?_⟩, ?_⟩
  · intro i n v _ hn hm
    simp only [List.mem_singleton, Prod.mk.injEq] at hm
    obtain ⟨rfl, rfl⟩ := hm
    match i with
    | 0 => rfl
    | 1 => simp [exSig] at hn
    | i + 2 => simp [exSig] at hn
  · intro i n _ hn hm
    match i with
    | 0 =>
      simp [exSig] at hn
      subst hn
      exact absurd (List.mem_singleton.2 rfl) (hm (.atom 3))
    | 1 =>
      simp [exSig] at hn
      subst hn
      rfl
    | i + 2 => simp [exSig] at hn
  · rintro ⟨a, b, h, ⟨l, hl⟩, _⟩
    simp only [List.cons.injEq] at h
    rw [← h.1] at hl
    cases l <;> simp [tup] at hl

/-- C30 fails for functions of two parameters called with tuples: after `f(1, 2)`, the call `f((1, 2), ())`
returns the value of `f(1, 2)`, since the key of the first call as written is `((1, 2), ())`. -/
theorem cached_function_transparent_refuted :
    ¬ ∀ (s : Sig) (body : List Val → Except Err (List Val)) (f : Call → Except Err (List Val)), Calls s body f →
      ∀ (cs : List Call), (∀ c ∈ cs, ∃ vals, Binds s c vals) → ∀ (c : Call) (vals : List Val), Binds s c vals →
        (call s f none c (history s f none cs [])).1 = body vals := by
  intro hall
  obtain ⟨f, hf⟩ := exists_calls (R := List Val) exSig (fun vals => .ok vals)
  have h := hall exSig _ f hf [⟨[.atom 1, .atom 2], []⟩]
    (fun c hc => by rw [List.mem_singleton] at hc; subst hc; exact ⟨_, ex_binds _ _⟩)
    ⟨[tup [.atom 1, .atom 2], .unit], []⟩ [tup [.atom 1, .atom 2], .unit] (ex_binds _ _)
  have h1 : f ⟨[.atom 1, .atom 2], []⟩ = .ok [.atom 1, .atom 2] := hf.bound _ _ (ex_binds _ _)
  have e1 : resolve exSig ⟨[.atom 1, .atom 2], []⟩ = some [.atom 1, .atom 2] := resolve_binds (ex_binds _ _)
  have e2 : resolve exSig ⟨[tup [.atom 1, .atom 2], .unit], []⟩ = some [tup [.atom 1, .atom 2], .unit] :=
    resolve_binds (ex_binds _ _)
  have e0 : shrink (R := List Val) none [] = some [] := rfl
  have ed : history exSig f none [⟨[.atom 1, .atom 2], []⟩] [] =
      [(direct ⟨[.atom 1, .atom 2], []⟩, [.atom 1, .atom 2]), (tup [.atom 1, .atom 2], [.atom 1, .atom 2])] := by
    rw [history, history, call]
    simp only [List.lookup, e1, e0, h1]
    rfl
  rw [ed, call, e2] at h
  have h : (Except.ok [Val.atom 1, Val.atom 2] : Except Err (List Val)) =
      .ok [tup [.atom 1, .atom 2], .unit] := h
  simp [tup] at h

/-- C30 fails for calls that do not bind: after `f(1, 2)`, the call `f(1, 2, c=3)` with an unknown keyword returns
the cached value instead of raising. -/
theorem cached_function_rejects_refuted :
    ¬ ∀ (s : Sig) (body : List Val → Except Err (List Val)) (f : Call → Except Err (List Val)), Calls s body f →
      ∀ (cs : List Call), (∀ c ∈ cs, ∃ vals, Binds s c vals) → ∀ (c : Call), (∀ vals, ¬ Binds s c vals) →
        ∃ e, (call s f none c (history s f none cs [])).1 = .error e := by
  intro hall
  obtain ⟨f, hf⟩ := exists_calls (R := List Val) exSig (fun vals => .ok vals)
  obtain ⟨e, h⟩ := hall exSig _ f hf [⟨[.atom 1, .atom 2], []⟩]
    (fun c hc => by rw [List.mem_singleton] at hc; subst hc; exact ⟨_, ex_binds _ _⟩)
    ⟨[.atom 1, .atom 2], [(12, .atom 3)]⟩
    (fun vals h => by have := h.known (12, .atom 3) (List.mem_singleton.2 rfl); simp [exSig] at this)
  have h1 : f ⟨[.atom 1, .atom 2], []⟩ = .ok [.atom 1, .atom 2] := hf.bound _ _ (ex_binds _ _)
  have e1 : resolve exSig ⟨[.atom 1, .atom 2], []⟩ = some [.atom 1, .atom 2] := resolve_binds (ex_binds _ _)
  have e2 : resolve exSig ⟨[.atom 1, .atom 2], [(12, .atom 3)]⟩ = some [.atom 1, .atom 2] := by
    rfl
  have e0 : shrink (R := List Val) none [] = some [] := rfl
  have ed : history exSig f none [⟨[.atom 1, .atom 2], []⟩] [] =
      [(direct ⟨[.atom 1, .atom 2], []⟩, [.atom 1, .atom 2]), (tup [.atom 1, .atom 2], [.atom 1, .atom 2])] := by
    rw [history, history, call]
    simp only [List.lookup, e1, e0, h1]
    rfl
  rw [ed, call, e2] at h
  revert h
  simp only [Dict.set]
  intro h
  have : (Except.ok [Val.atom 1, Val.atom 2] : Except Err (List Val)) = .error e := h
  cases this

theorem set_length {k : Val} {v : R} : ∀ d : Dict R, (d.set k v).length ≤ d.length + 1
  | [] => by simp [Dict.set]
  | e :: es => by
    rw [Dict.set]
    split
    · simp
    · simp only [List.length_cons]
      have := set_length (k := k) (v := v) es
      omega

/-- C30, size: after a call that computes the function, at most one entry more than the bound is stored. -/
theorem cache_size_partial (s : Sig) (f : Call → Except Err R) (m : Nat) (c : Call) (d : Dict R)
    (h1 : d.lookup (direct c) = none) (vals : List Val) (hv : resolve s c = some vals)
    (h2 : d.lookup (tup vals) = none) : (call s f (some m) c d).2.length ≤ m + 1 := by
  rw [call, h1, hv]
  simp only
  rw [h2]
  simp only
  split
  · simp
  · rename_i d' hd'
    have := shrink_length hd'
    split
    · simp only; omega
    · rename_i r _
      simp only
      have h3 := set_length (k := direct c) (v := r) d'
      have h4 := set_length (k := tup vals) (v := r) (d'.set (direct c) r)
      omega

/-- C30, size: the bound itself is not kept. One call fills a cache of size 1 with two entries, and calls that find
the resolved key add entries without any check: with bound 1, three ways to write one call leave four. -/
theorem cache_size_refuted :
    ¬ ∀ (s : Sig) (f : Call → Except Err Nat) (m : Nat) (cs : List Call), m ≠ 0 →
      (history s f (some m) cs []).length ≤ m + 2 := by
  intro h
  have := h exSig (fun _ => .ok 0) 1 [⟨[.atom 1, .atom 2], []⟩, ⟨[.atom 1], [(11, .atom 2)]⟩,
    ⟨[], [(10, .atom 1), (11, .atom 2)]⟩] (by decide)
  revert this
  decide

/-! ## C56: one object per argument tuple -/

theorem nodup_map_inj {α β : Type} {g : α → β} : ∀ {l : List α}, (l.map g).Nodup → ∀ {x y : α}, x ∈ l → y ∈ l →
    g x = g y → x = y
  | [], _, _, _, hx, _, _ => by simp at hx
  | a :: l, h, x, y, hx, hy, e => by
    rw [List.map_cons, List.nodup_cons] at h
    rcases List.mem_cons.1 hx with hx' | hx' <;> rcases List.mem_cons.1 hy with hy' | hy'
    · rw [hx', hy']
    · exact absurd (List.mem_map.2 ⟨y, hy', by rw [← hx', e]⟩) h.1
    · exact absurd (List.mem_map.2 ⟨x, hx', by rw [← hy', e]⟩) h.1
    · exact nodup_map_inj h.2 hx' hy' e

/-- what is true of the live instances of a class at all times -/
def InstGood (s : Inst) : Prop :=
  (s.live.map Prod.fst).Nodup ∧ (s.live.map Prod.snd).Nodup ∧ ∀ e ∈ s.live, e.2 < s.next

theorem instStep_good {canon : Call → Except Err (List Val)} {o : InstOp} {s : Inst} (h : InstGood s) :
    InstGood (instStep canon o s) := by
  obtain ⟨h1, h2, h3⟩ := h
  cases o with
  | collect i =>
    refine ⟨?_, ?_, fun e he => h3 e (List.mem_filter.1 he).1⟩
    · exact h1.sublist (List.filter_sublist.map _)
    · exact h2.sublist (List.filter_sublist.map _)
  | new c =>
    rw [instStep, instantiate]
    split
    · exact ⟨h1, h2, h3⟩
    · rename_i key _
      split
      · exact ⟨h1, h2, h3⟩
      · rename_i hl
        refine ⟨?_, ?_, ?_⟩
        · rw [List.map_cons, List.nodup_cons]
          refine ⟨fun hm => ?_, h1⟩
          obtain ⟨e, he, e'⟩ := List.mem_map.1 hm
          have e' : e.1 = key := e'
          exact lookup_none hl e.2 (by rw [← e']; exact he)
        · rw [List.map_cons, List.nodup_cons]
          refine ⟨fun hm => ?_, h2⟩
          obtain ⟨e, he, e'⟩ := List.mem_map.1 hm
          have := h3 e he
          simp only at e'
          omega
        · intro e he
          rcases List.mem_cons.1 he with rfl | he
          · exact Nat.lt_succ_self _
          · exact Nat.lt_succ_of_lt (h3 e he)

theorem instHistory_good {canon : Call → Except Err (List Val)} : ∀ (os : List InstOp) (s : Inst),
    InstGood s → InstGood (instHistory canon os s)
  | [], _, h => h
  | _ :: os, _, h => instHistory_good os _ (instStep_good h)

/-- the instance was not collected in the meantime -/
def NotCollected (i : Nat) (os : List InstOp) : Prop := InstOp.collect i ∉ os

theorem instHistory_live {canon : Call → Except Err (List Val)} {key : List Val} {i : Nat} :
    ∀ (os : List InstOp) (s : Inst), (key, i) ∈ s.live → NotCollected i os →
      (key, i) ∈ (instHistory canon os s).live
  | [], _, h, _ => h
  | o :: os, s, h, hn => by
    have hn' : NotCollected i os := fun h => hn (List.mem_cons_of_mem _ h)
    refine instHistory_live os _ ?_ hn'
    cases o with
    | collect j =>
      have : i ≠ j := fun e => hn (e ▸ List.mem_cons_self)
      exact List.mem_filter.2 ⟨h, by simpa using this⟩
    | new c =>
      rw [instStep, instantiate]
      split
      · exact h
      · split
        · exact h
        · exact List.mem_cons_of_mem _ h

theorem instantiate_live {canon : Call → Except Err (List Val)} {c : Call} {s : Inst} {i : Nat}
    (h : (instantiate canon c s).1 = .ok i) : ∃ key, canon c = .ok key ∧ (key, i) ∈ (instantiate canon c s).2.live := by
  rw [instantiate] at h ⊢
  split at h
  · cases h
  · rename_i key hk
    refine ⟨key, hk, ?_⟩
    split at h
    · rename_i j hj
      cases h
      simp only
      exact lookup_mem hj
    · cases h
      simp only
      exact List.mem_cons_self

/-- C56. In any history of instantiations and collections, two calls whose first instance has not been collected in
between return the same object exactly when their canonical arguments are equal. -/
theorem same_arguments_same_object (canon : Call → Except Err (List Val)) (before between : List InstOp)
    (c c' : Call) (i j : Nat) (key key' : List Val) (hk : canon c = .ok key) (hk' : canon c' = .ok key')
    (hi : (instantiate canon c (instHistory canon before ⟨[], 0⟩)).1 = .ok i)
    (hn : NotCollected i between)
    (hj : (instantiate canon c' (instHistory canon between
      (instantiate canon c (instHistory canon before ⟨[], 0⟩)).2)).1 = .ok j) : i = j ↔ key = key' := by
  have hg0 : InstGood (instHistory canon before ⟨[], 0⟩) := instHistory_good before _ ⟨by simp, by simp, by simp⟩
  have hg1 : InstGood (instantiate canon c (instHistory canon before ⟨[], 0⟩)).2 :=
    instStep_good (o := .new c) hg0
  obtain ⟨k, hk1, hl⟩ := instantiate_live hi
  rw [hk] at hk1; cases hk1
  have hl2 := instHistory_live (canon := canon) between _ hl hn
  have hg2 := instHistory_good (canon := canon) between _ hg1
  generalize instHistory canon between (instantiate canon c (instHistory canon before ⟨[], 0⟩)).2 = s at *
  have hg3 : InstGood (instantiate canon c' s).2 := instStep_good (o := .new c') hg2
  have hl3 : (key, i) ∈ (instantiate canon c' s).2.live :=
    instHistory_live (canon := canon) [.new c'] s hl2 (fun h => by simp at h)
  obtain ⟨k', hk2, hl'⟩ := instantiate_live hj
  rw [hk'] at hk2; cases hk2
  constructor
  · intro e
    subst e
    have h := hg3.2.1
    have := nodup_map_inj h hl3 hl' rfl
    exact congrArg Prod.fst this
  · intro e
    subst e
    have h := hg3.1
    have := nodup_map_inj h hl3 hl' rfl
    exact congrArg Prod.snd this

/-- two instantiations with equal arguments, one written with a keyword, and a third with others -/
example : let canon : Call → Except Err (List Val) := fun c =>
      match resolve exSig c with | none => .error .typeError | some v => .ok v
    let s := instHistory canon [.new ⟨[.atom 1], []⟩, .new ⟨[.atom 2], []⟩] ⟨[], 0⟩
    (instantiate canon ⟨[], [(11, .atom 7), (10, .atom 1)]⟩ s).1.toOption = some 0 ∧
    (instantiate canon ⟨[.atom 1, .atom 8], []⟩ s).1.toOption = some 2 := by decide

end Dedalus.Cache
