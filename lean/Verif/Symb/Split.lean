import Verif.Symb.Lemmas

/-! Helper lemmas for `split`. -/

namespace Dedalus.Symb

variable {K X : Type} [Field K] [DecidableEq K]

omit [Field K] in
theorem has_of_mentions {vars : List Var} {v : Var} (hv : v ∈ vars) {e : Expr K} (h : Mentions v e) :
    has vars e = true := by
  induction e with
  | num c => exact h.elim
  | fld i s => simp only [Mentions] at h; subst h; simp [has, hv]
  | cst s c => exact h.elim
  | add a b iha ihb => rcases h with h | h <;> simp [has, iha, ihb, h]
  | prod p a b iha ihb => rcases h with h | h <;> simp [has, iha, ihb, h]
  | lin o a iha =>
    rcases h with h | h
    · subst h; simp [has, hv]
    · simp [has, iha h]
  | un f a iha => simp [has, iha h]
  | pow a p iha => simp [has, iha h]

omit [Field K] in
theorem mentions_of_has {vars : List Var} (hne : vars ≠ []) {e : Expr K} (h : has vars e = true) :
    ∃ v ∈ vars, Mentions v e := by
  have he : vars.isEmpty = false := by cases vars <;> simp_all
  induction e with
  | num c => simp [has] at h
  | fld i s => simp [has, he] at h; exact ⟨_, h, rfl⟩
  | cst s c => simp [has, he] at h
  | add a b iha ihb =>
    simp only [has, Bool.or_eq_true] at h
    rcases h with h | h
    · obtain ⟨v, hv, m⟩ := iha h; exact ⟨v, hv, Or.inl m⟩
    · obtain ⟨v, hv, m⟩ := ihb h; exact ⟨v, hv, Or.inr m⟩
  | prod p a b iha ihb =>
    simp only [has, Bool.or_eq_true] at h
    rcases h with h | h
    · obtain ⟨v, hv, m⟩ := iha h; exact ⟨v, hv, Or.inl m⟩
    · obtain ⟨v, hv, m⟩ := ihb h; exact ⟨v, hv, Or.inr m⟩
  | lin o a iha =>
    simp only [has, Bool.or_eq_true] at h
    rcases h with h | h
    · exact ⟨_, by simpa using h, Or.inl rfl⟩
    · obtain ⟨v, hv, m⟩ := iha h; exact ⟨v, hv, Or.inr m⟩
  | un f a iha => exact iha (by simpa [has] using h)
  | pow a p iha => exact iha (by simpa [has] using h)

/-! Mentions of the results of the constructors. -/

omit [Field K] [DecidableEq K] in
theorem castTo_mentions {v : Var} {s : Sig} {a x : Expr K} (h : castTo s a = some x) :
    Mentions v x ↔ Mentions v a := by
  cases a <;> simp_all [castTo] <;> (try (obtain ⟨_, rfl⟩ := h; rfl)) <;> subst h <;> simp [Mentions]

omit [Field K] [DecidableEq K] in
theorem castTo_operand {s : Sig} {a x : Expr K} (h : castTo s a = some x) (ho : a.isOperand = true) : x = a := by
  cases a <;> simp_all [castTo]

/-- `mkAdd` on two nonzero operands builds the sum. -/
theorem mkAdd_operands {a b r : Expr K} (ha : a.isOperand = true) (hb : b.isOperand = true)
    (h : mkAdd a b = some r) : r = .add a b := by
  rw [mkAdd_ne (by rintro rfl; simp at ha) (by rintro rfl; simp at hb)] at h
  simp only [ha, hb, Bool.or_self, if_true] at h
  cases hu : unifySig [a, b] with
  | none => simp [hu] at h
  | some s =>
    simp only [hu] at h
    cases hca : castTo s a with
    | none => simp [hca] at h
    | some x =>
      cases hcb : castTo s b with
      | none => simp [hca, hcb] at h
      | some y =>
        simp only [hca, hcb, Option.some.injEq] at h
        rw [castTo_operand hca ha, castTo_operand hcb hb] at h
        exact h.symm

theorem mkAdd_mentions {v : Var} {a b r : Expr K} (h : mkAdd a b = some r) (hm : Mentions v r) :
    Mentions v a ∨ Mentions v b := by
  by_cases ha : a = .num 0
  · subst ha; rw [mkAdd_zero_left] at h; obtain rfl := Option.some.inj h; exact Or.inr hm
  by_cases hb : b = .num 0
  · subst hb; rw [mkAdd_zero_right] at h; obtain rfl := Option.some.inj h; exact Or.inl hm
  rw [mkAdd_ne ha hb] at h
  split at h
  · cases hu : unifySig [a, b] with
    | none => simp [hu] at h
    | some s =>
      simp only [hu] at h
      cases hca : castTo s a with
      | none => simp [hca] at h
      | some x =>
        cases hcb : castTo s b with
        | none => simp [hca, hcb] at h
        | some y =>
          simp only [hca, hcb, Option.some.injEq] at h
          subst h
          rcases hm with hm | hm
          · exact Or.inl ((castTo_mentions hca).1 hm)
          · exact Or.inr ((castTo_mentions hcb).1 hm)
  · simp only [Option.some.injEq] at h; subst h; exact hm.elim

theorem mkMul_mentions {v : Var} {a b r : Expr K} (h : mkMul a b = some r) (hm : Mentions v r) :
    Mentions v a ∨ Mentions v b := by
  rcases mkMul_cases a b with ⟨rfl, e⟩ | ⟨rfl, e⟩ | ⟨h0, e⟩ | ⟨_, _, _, e⟩ | ⟨_, _, _, e⟩ | ⟨c, d, rfl, rfl, e⟩ <;>
    rw [e] at h <;> obtain rfl := Option.some.inj h
  · exact Or.inr hm
  · exact Or.inl hm
  · exact hm.elim
  · exact hm
  · exact hm.symm
  · exact hm.elim

theorem newProd_mentions {v : Var} {p : PKind} {a b r : Expr K} (h : newProd p a b = some r)
    (hm : Mentions v r) : Mentions v a ∨ Mentions v b := by
  unfold newProd at h
  split at h
  · exact mkMul_mentions h hm
  · split at h
    · obtain rfl := Option.some.inj h; exact hm.elim
    · split at h
      · obtain rfl := Option.some.inj h; exact hm
      · simp at h

theorem newLin_cases {o : Op} {a r : Expr K} (h : newLin o a = some r) :
    (o.kind = .passes ∧ r = a) ∨ (a.isOperand = true ∧ r = .lin o a) ∨
      (a.isOperand = false ∧ (r = .num 0 ∨ r = a)) := by
  unfold newLin at h
  split at h
  · simp at h
  · obtain rfl := Option.some.inj h; exact Or.inl ⟨by assumption, rfl⟩
  · split at h <;> obtain rfl := Option.some.inj h
    · exact Or.inr (Or.inl ⟨by assumption, rfl⟩)
    · exact Or.inr (Or.inr ⟨by simp_all, Or.inl rfl⟩)
  · split at h <;> obtain rfl := Option.some.inj h
    · exact Or.inr (Or.inl ⟨by assumption, rfl⟩)
    · exact Or.inr (Or.inr ⟨by simp_all, Or.inr rfl⟩)
  · split at h
    · obtain rfl := Option.some.inj h; exact Or.inr (Or.inl ⟨by assumption, rfl⟩)
    · split at h
      · obtain rfl := Option.some.inj h; exact Or.inr (Or.inr ⟨by simp_all, Or.inl rfl⟩)
      · simp at h
  · split at h
    · obtain rfl := Option.some.inj h; exact Or.inr (Or.inl ⟨by assumption, rfl⟩)
    · simp at h

theorem newLin_mentions {v : Var} {o : Op} {a r : Expr K} (h : newLin o a = some r)
    (hm : Mentions v r) : v = .cls o.cls ∨ Mentions v a := by
  rcases newLin_cases h with ⟨_, rfl⟩ | ⟨_, rfl⟩ | ⟨_, rfl | rfl⟩
  · exact Or.inr hm
  · exact hm
  · exact hm.elim
  · exact Or.inr hm

/-- First part of a split: zero, or an operand all of whose terms mention a variable. -/
def PPart (vars : List Var) (p : Expr K) : Prop :=
  p = .num 0 ∨ (p.isOperand = true ∧ (∃ v ∈ vars, Mentions v p) ∧ ∀ t ∈ terms p, ∃ v ∈ vars, Mentions v t)

theorem PPart.single {vars : List Var} {p : Expr K} (ho : p.isOperand = true)
    (ht : terms p = [p]) (hm : ∃ v ∈ vars, Mentions v p) : PPart vars p :=
  Or.inr ⟨ho, hm, by intro t h; rw [ht] at h; simp at h; subst h; exact hm⟩

theorem PPart.add {vars : List Var} {a b r : Expr K} (ha : PPart vars a) (hb : PPart vars b)
    (h : mkAdd a b = some r) : PPart vars r := by
  rcases ha with rfl | ⟨oa, ⟨v, hv, ma⟩, ta⟩
  · rw [mkAdd_zero_left] at h; obtain rfl := Option.some.inj h; exact hb
  rcases hb with rfl | ⟨ob, mb, tb⟩
  · rw [mkAdd_zero_right] at h; obtain rfl := Option.some.inj h; exact Or.inr ⟨oa, ⟨v, hv, ma⟩, ta⟩
  rw [mkAdd_operands oa ob h]
  refine Or.inr ⟨rfl, ⟨v, hv, Or.inl ma⟩, ?_⟩
  intro t ht
  simp only [terms, List.mem_append] at ht
  exact ht.elim (ta t) (tb t)

theorem PPart.prod {vars : List Var} {q : PKind} {a b r : Expr K} (h : newProd q a b = some r)
    (ha : a ≠ .num 0) (hb : b ≠ .num 0) (hab : PPart vars a ∨ PPart vars b) : PPart vars r := by
  have one : (1 : K) ≠ 0 := one_ne_zero
  have men : ∀ q : PKind, PPart vars (Expr.prod q a b) := by
    intro q
    refine PPart.single rfl rfl ?_
    rcases hab with h | h
    · rcases h with rfl | ⟨_, ⟨v, hv, m⟩, _⟩
      · exact absurd rfl ha
      · exact ⟨v, hv, Or.inl m⟩
    · rcases h with rfl | ⟨_, ⟨v, hv, m⟩, _⟩
      · exact absurd rfl hb
      · exact ⟨v, hv, Or.inr m⟩
  have notnum : ∀ (c : K), c ≠ 0 → ¬ PPart vars (.num c) := by
    intro c hc h
    rcases h with h | ⟨h, _⟩
    · simp at h; exact hc h
    · simp at h
  unfold newProd at h
  split at h
  · rcases mkMul_cases a b with ⟨rfl, e⟩ | ⟨rfl, e⟩ | ⟨h0, e⟩ | ⟨_, _, _, e⟩ | ⟨_, _, ⟨c, rfl, hc⟩, e⟩ | ⟨c, d, rfl, rfl, e⟩ <;>
      rw [e] at h <;> obtain rfl := Option.some.inj h
    · exact hab.resolve_left (notnum 1 one)
    · exact hab.resolve_right (notnum 1 one)
    · exact Or.inl rfl
    · exact men _
    · have hp := hab.resolve_right (notnum c hc)
      refine PPart.single rfl rfl ?_
      rcases hp with rfl | ⟨_, ⟨v, hv, m⟩, _⟩
      · exact absurd rfl ha
      · exact ⟨v, hv, Or.inr m⟩
    · exfalso
      rcases hab with h | h
      · exact notnum c (by simpa using ha) h
      · exact notnum d (by simpa using hb) h
  · split at h
    · obtain rfl := Option.some.inj h; exact Or.inl rfl
    · split at h
      · obtain rfl := Option.some.inj h; exact men _
      · simp at h

theorem PPart.lin {vars : List Var} {o : Op} {a r : Expr K} (ha : PPart vars a) (h : newLin o a = some r) :
    PPart vars r := by
  rcases newLin_cases h with ⟨_, rfl⟩ | ⟨oa, rfl⟩ | ⟨_, rfl | rfl⟩
  · exact ha
  · refine PPart.single rfl rfl ?_
    rcases ha with rfl | ⟨_, ⟨v, hv, m⟩, _⟩
    · simp at oa
    · exact ⟨v, hv, Or.inr m⟩
  · exact Or.inl rfl
  · exact ha

/-- Product terms of a split, zero arguments giving zero. -/
def prodTerm (q : PKind) (a b : Expr K) : Option (Expr K) :=
  if a.truthy && b.truthy then newProd q a b else some (.num 0)

/-- The product case of `split` as a sum of four product terms. -/
theorem split_prod {vars : List Var} {q : PKind} {a b : Expr K} {pa na pb nb p n : Expr K}
    (ha : split vars a = some (pa, na)) (hb : split vars b = some (pb, nb))
    (h : split vars (.prod q a b) = some (p, n)) :
    ∃ t1 t2 t3 t12, prodTerm q pa pb = some t1 ∧ prodTerm q pa nb = some t2 ∧ prodTerm q na pb = some t3 ∧
      prodTerm q na nb = some n ∧ mkAdd t1 t2 = some t12 ∧ mkAdd t12 t3 = some p := by
  simp only [split, ha, hb, Option.bind_eq_bind, Option.bind_some] at h
  cases h1 : pa.truthy <;> cases h2 : na.truthy <;> cases h3 : pb.truthy <;> cases h4 : nb.truthy <;>
    simp only [List.filter, h1, h2, h3, h4, Bool.and_self, Bool.and_false, Bool.false_and, Bool.and_true,
      List.mapM_cons, List.mapM_nil, Option.bind_eq_bind, Option.bind_eq_some_iff, Option.pure_def,
      Option.bind_some, Bool.not_true, Bool.not_false, if_true, Option.some.injEq, pySum] at h <;>
    simp only [prodTerm, h1, h2, h3, h4, Bool.and_self, Bool.and_false, Bool.false_and, Bool.and_true,
      if_true]
  all_goals simp [mkAdd_zero_left, mkAdd_zero_right, Option.bind_eq_some_iff] at h ⊢
  all_goals grind [mkAdd_zero_left, mkAdd_zero_right]

theorem prodTerm_eval (S : Sem K X) (env : Nat → X → K) {q : PKind} {a b r : Expr K}
    (h : prodTerm q a b = some r) :
    eval S env r = S.bil q a.sig b.sig (eval S env a) (eval S env b) := by
  have z : (fun _ => (0 : K)) = (0 : X → K) := rfl
  unfold prodTerm at h
  split at h
  · exact newProd_eval S env h
  · rename_i h0
    obtain rfl := Option.some.inj h
    simp only [Bool.and_eq_true, not_and_or, Bool.not_eq_true, truthy_false] at h0
    rcases h0 with rfl | rfl <;> simp only [eval, z, map_zero, LinearMap.zero_apply]

theorem prodTerm_ty {G : Nat → Sig} {q : PKind} {s t : Sig} {a b r : Expr K} (ha : Ty G s a) (hb : Ty G t b)
    (hf : q.fits s t = true) (h : prodTerm q a b = some r) : Ty G (q.outSig s t) r := by
  unfold prodTerm at h
  split at h
  · obtain ⟨r', e, ht⟩ := newProd_ty ha hb hf
    rw [e] at h; obtain rfl := Option.some.inj h; exact ht
  · obtain rfl := Option.some.inj h; exact Ty.zero

theorem prodTerm_ppart {vars : List Var} {q : PKind} {a b r : Expr K} (h : prodTerm q a b = some r)
    (hab : PPart vars a ∨ PPart vars b) : PPart vars r := by
  unfold prodTerm at h
  split at h
  · rename_i h0
    simp only [Bool.and_eq_true] at h0
    exact PPart.prod h (by rintro rfl; simp [Expr.truthy] at h0) (by rintro rfl; simp [Expr.truthy] at h0) hab
  · obtain rfl := Option.some.inj h; exact Or.inl rfl

theorem prodTerm_mentions {v : Var} {q : PKind} {a b r : Expr K} (h : prodTerm q a b = some r)
    (hm : Mentions v r) : Mentions v a ∨ Mentions v b := by
  unfold prodTerm at h
  split at h
  · exact newProd_mentions h hm
  · obtain rfl := Option.some.inj h; exact hm.elim

/-- Everything `split` guarantees, for well-formed trees and plain numbers. -/
theorem split_spec {G : Nat → Sig} {vars : List Var} {e p n : Expr K} (hw : WF G e ∨ ∃ c, e = .num c)
    (h : split vars e = some (p, n)) :
    Ty G e.sig p ∧ Ty G e.sig n ∧
    (∀ {X : Type} (S : Sem K X) (env : Nat → X → K), eval S env p + eval S env n = eval S env e) ∧
    (∀ v ∈ vars, ¬ Mentions v n) ∧ (vars ≠ [] → PPart vars p) := by
  have z0 : ∀ {X : Type} (v : X → K), (fun _ => (0 : K)) + v = v := by intro X v; funext x; simp
  have z1 : ∀ {X : Type} (v : X → K), v + (fun _ => (0 : K)) = v := by intro X v; funext x; simp
  induction e generalizing p n with
  | num c =>
    simp only [split, Option.some.injEq, Prod.mk.injEq] at h
    obtain ⟨rfl, rfl⟩ := h
    exact ⟨Ty.zero, Or.inr (Or.inl ⟨c, rfl, rfl⟩), by intro X S env; simp [eval, z0], by simp [Mentions],
      fun _ => Or.inl rfl⟩
  | fld i s =>
    have hw : WF G (.fld i s : Expr K) := by simpa using hw
    simp only [split] at h
    split at h <;> simp only [Option.some.injEq, Prod.mk.injEq] at h <;> obtain ⟨rfl, rfl⟩ := h
    · rename_i hc
      exact ⟨Ty.of_wf hw, Ty.zero, by intro X S env; simp [eval, z1], by simp [Mentions],
        fun _ => PPart.single rfl rfl ⟨.fld i, by simpa using hc, rfl⟩⟩
    · rename_i hc
      refine ⟨Ty.zero, Ty.of_wf hw, by intro X S env; simp [eval, z0], ?_, fun _ => Or.inl rfl⟩
      rintro v hv rfl; simp [hv] at hc
  | cst s c =>
    simp only [split, Option.some.injEq, Prod.mk.injEq] at h
    obtain ⟨rfl, rfl⟩ := h
    exact ⟨Ty.zero, Ty.of_wf (by simpa using hw), by intro X S env; simp [eval, z0], by simp [Mentions],
      fun _ => Or.inl rfl⟩
  | add a b iha ihb =>
    have hw : WF G a ∧ WF G b ∧ a.sig = b.sig := by simpa [WF] using hw
    simp only [split, Option.bind_eq_bind, Option.bind_eq_some_iff, pySum_two, Option.some.injEq,
      Prod.mk.injEq, Prod.exists] at h
    obtain ⟨pa, na, ha, pb, nb, hb, p', hp, n', hn, rfl, rfl⟩ := h
    obtain ⟨tpa, tna, va, ma, qa⟩ := iha (Or.inl hw.1) ha
    obtain ⟨tpb, tnb, vb, mb, qb⟩ := ihb (Or.inl hw.2.1) hb
    rw [← hw.2.2] at tpb tnb
    obtain ⟨r, e1, t1⟩ := mkAdd_ty tpa tpb
    rw [e1] at hp; obtain rfl := Option.some.inj hp
    obtain ⟨r', e2, t2⟩ := mkAdd_ty tna tnb
    rw [e2] at hn; obtain rfl := Option.some.inj hn
    refine ⟨t1, t2, ?_, ?_, fun hv => (qa hv).add (qb hv) e1⟩
    · intro X S env
      rw [mkAdd_eval S env e1, mkAdd_eval S env e2]
      simp only [eval]; rw [← va S env, ← vb S env]; abel
    · intro v hv hm
      rcases mkAdd_mentions e2 hm with hm | hm
      · exact ma v hv hm
      · exact mb v hv hm
  | prod q a b iha ihb =>
    have hw' : WF G (.prod q a b) := by simpa using hw
    obtain ⟨hwa, hwb, hf⟩ := wf_prod_args hw'
    have h' := h
    simp only [split, Option.bind_eq_bind, Option.bind_eq_some_iff, Prod.exists] at h'
    obtain ⟨pa, na, ha, pb, nb, hb, _⟩ := h'
    obtain ⟨t1, t2, t3, t12, h1, h2, h3, h4, h5, h6⟩ := split_prod ha hb h
    obtain ⟨tpa, tna, va, ma, qa⟩ := iha hwa ha
    obtain ⟨tpb, tnb, vb, mb, qb⟩ := ihb (Or.inl hwb) hb
    have y1 := prodTerm_ty tpa tpb hf h1
    have y2 := prodTerm_ty tpa tnb hf h2
    have y3 := prodTerm_ty tna tpb hf h3
    have y4 := prodTerm_ty tna tnb hf h4
    obtain ⟨r, e5, y5⟩ := mkAdd_ty y1 y2
    rw [h5] at e5; obtain rfl := Option.some.inj e5
    obtain ⟨r, e6, y6⟩ := mkAdd_ty y5 y3
    rw [h6] at e6; obtain rfl := Option.some.inj e6
    refine ⟨y6, y4, ?_, ?_, ?_⟩
    · intro X S env
      rw [mkAdd_eval S env h6, mkAdd_eval S env h5, prodTerm_eval S env h1, prodTerm_eval S env h2,
        prodTerm_eval S env h3, prodTerm_eval S env h4, bil_ty S env tpa tpb, bil_ty S env tpa tnb,
        bil_ty S env tna tpb, bil_ty S env tna tnb]
      simp only [eval]; rw [← va S env, ← vb S env]
      simp only [map_add, LinearMap.add_apply]; abel
    · intro v hv hm
      rcases prodTerm_mentions h4 hm with hm | hm
      · exact ma v hv hm
      · exact mb v hv hm
    · intro hv
      exact (((prodTerm_ppart h1 (Or.inl (qa hv))).add (prodTerm_ppart h2 (Or.inl (qa hv))) h5)).add
        (prodTerm_ppart h3 (Or.inr (qb hv))) h6
  | lin o a iha =>
    have hw : WF G a ∧ ((o.kind = .keeps ∨ o.kind = .passes) → o.rule = .same) := by simpa [WF] using hw
    simp only [split] at h
    split at h
    · rename_i hc
      simp only [Option.some.injEq, Prod.mk.injEq] at h; obtain ⟨rfl, rfl⟩ := h
      exact ⟨Ty.of_wf hw, Ty.zero, by intro X S env; simp only [eval]; rw [z1], by simp [Mentions],
        fun _ => PPart.single rfl rfl ⟨.cls o.cls, by simpa using hc, Or.inl rfl⟩⟩
    · rename_i hc
      simp only [Option.bind_eq_bind, Option.bind_eq_some_iff, Option.some.injEq, Prod.mk.injEq,
        Prod.exists] at h
      obtain ⟨pa, na, ha, p', hp, n', hn, rfl, rfl⟩ := h
      obtain ⟨tpa, tna, va, ma, qa⟩ := iha (Or.inl hw.1) ha
      refine ⟨newLin_ty tpa hw.2 hp, newLin_ty tna hw.2 hn, ?_, ?_, fun hv => (qa hv).lin hp⟩
      · intro X S env
        rw [newLin_eval S env hp, newLin_eval S env hn, lin_ty S env tpa, lin_ty S env tna, ← map_add,
          va S env]
        rfl
      · intro v hv hm
        rcases newLin_mentions hn hm with rfl | hm
        · simp [hv] at hc
        · exact ma v hv hm
  | un f a iha =>
    have hw' : WF G (.un f a : Expr K) := by simpa using hw
    simp only [split] at h
    split at h <;> simp only [Option.some.injEq, Prod.mk.injEq] at h <;> obtain ⟨rfl, rfl⟩ := h
    · rename_i hc
      exact ⟨Ty.of_wf hw', Ty.zero, by intro X S env; simp only [eval]; rw [z1], by simp [Mentions],
        fun hv => PPart.single rfl rfl (mentions_of_has hv hc)⟩
    · rename_i hc
      refine ⟨Ty.zero, Ty.of_wf hw', by intro X S env; simp only [eval]; rw [z0], ?_, fun _ => Or.inl rfl⟩
      intro v hv hm; exact hc (has_of_mentions hv hm)
  | pow a k iha =>
    have hw' : WF G (.pow a k : Expr K) := by simpa using hw
    simp only [split] at h
    split at h <;> simp only [Option.some.injEq, Prod.mk.injEq] at h <;> obtain ⟨rfl, rfl⟩ := h
    · rename_i hc
      exact ⟨Ty.of_wf hw', Ty.zero, by intro X S env; simp only [eval]; rw [z1], by simp [Mentions],
        fun hv => PPart.single rfl rfl (mentions_of_has hv hc)⟩
    · rename_i hc
      refine ⟨Ty.zero, Ty.of_wf hw', by intro X S env; simp only [eval]; rw [z0], ?_, fun _ => Or.inl rfl⟩
      intro v hv hm; exact hc (has_of_mentions hv hm)

end Dedalus.Symb
