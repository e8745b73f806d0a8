import Verif.Symb.Deriv

/-! Helper lemmas for the Frechet differential. -/

namespace Dedalus.Symb

variable {X : Type}

/-- The value given to field `i` by a list of assignments, or its old value. -/
noncomputable def assigned (S : Sem ℝ X) (l : List ((Nat × Sig) × Expr ℝ)) (env old : Nat → X → ℝ) (i : Nat) :
    X → ℝ :=
  match l.find? (fun a => a.1.1 = i) with
  | some a => eval S env a.2
  | none => old i

/-! ### Properties kept by the constructors -/

theorem mkAdd_hered {K : Type} [Field K] [DecidableEq K] {P : Expr K → Prop} (pc : ∀ s c, P (.cst s c))
    (pa : ∀ a b, P a → P b → P (.add a b)) (pn : ∀ c, P (.num c)) {a b r : Expr K} (ha : P a) (hb : P b)
    (h : mkAdd a b = some r) : P r := by
  have cast : ∀ {s : Sig} {a x : Expr K}, P a → castTo s a = some x → P x := by
    intro s a x ha h
    cases hc : a.isOperand with
    | true => rw [castTo_operand h hc]; exact ha
    | false =>
      obtain ⟨c, rfl⟩ := not_operand hc
      rw [castTo_num] at h; obtain rfl := Option.some.inj h; exact pc _ _
  by_cases ha0 : a = .num 0
  · subst ha0; rw [mkAdd_zero_left] at h; obtain rfl := Option.some.inj h; exact hb
  by_cases hb0 : b = .num 0
  · subst hb0; rw [mkAdd_zero_right] at h; obtain rfl := Option.some.inj h; exact ha
  rw [mkAdd_ne ha0 hb0] at h
  split at h
  · cases hu : unifySig [a, b] with
    | none => simp [hu] at h
    | some s =>
      simp only [hu] at h
      cases hca : castTo s a with
      | none => simp [hca] at h
      | some a' =>
        cases hcb : castTo s b with
        | none => simp [hca, hcb] at h
        | some b' =>
          simp only [hca, hcb, Option.some.injEq] at h
          subst h
          exact pa _ _ (cast ha hca) (cast hb hcb)
  · obtain rfl := Option.some.inj h; exact pn _

theorem mkMul_hered {K : Type} [Field K] [DecidableEq K] {P : Expr K → Prop} (pn : ∀ c, P (.num c))
    (pp : ∀ q a b, P a → P b → P (.prod q a b)) {a b r : Expr K} (ha : P a) (hb : P b)
    (h : mkMul a b = some r) : P r := by
  rcases mkMul_cases a b with ⟨rfl, e⟩ | ⟨rfl, e⟩ | ⟨_, e⟩ | ⟨_, _, _, e⟩ | ⟨_, _, _, e⟩ | ⟨c, d, rfl, rfl, e⟩ <;>
    rw [e] at h <;> obtain rfl := Option.some.inj h
  · exact hb
  · exact ha
  · exact pn _
  · exact pp _ _ _ ha hb
  · exact pp _ _ _ hb ha
  · exact pn _

theorem newProd_hered {K : Type} [Field K] [DecidableEq K] {P : Expr K → Prop} (pn : ∀ c, P (.num c))
    (pp : ∀ q a b, P a → P b → P (.prod q a b)) {q : PKind} {a b r : Expr K} (ha : P a) (hb : P b)
    (h : newProd q a b = some r) : P r := by
  unfold newProd at h
  split at h
  · exact mkMul_hered pn pp ha hb h
  · split at h
    · obtain rfl := Option.some.inj h; exact pn _
    · split at h
      · obtain rfl := Option.some.inj h; exact pp _ _ _ ha hb
      · simp at h

theorem newLin_hered {K : Type} [Field K] [DecidableEq K] {P : Expr K → Prop} (pn : ∀ c, P (.num c))
    {o : Op} (pl : ∀ a, P a → P (.lin o a)) {a r : Expr K} (ha : P a)
    (h : newLin o a = some r) : P r := by
  rcases newLin_cases h with ⟨_, rfl⟩ | ⟨_, rfl⟩ | ⟨_, rfl | rfl⟩
  · exact ha
  · exact pl _ ha
  · exact pn _
  · exact ha

theorem replace_scalarFns {G : Nat → Sig} {x : Nat} {r e e' : Expr ℝ} (hr : Ty G (G x) r)
    (hsr : ScalarFns r) (hw : WF G e ∨ ∃ c, e = .num c) (hs : ScalarFns e)
    (h : replace x r e = some e') : ScalarFns e' := by
  have pn : ∀ c : ℝ, ScalarFns (.num c) := fun _ => trivial
  have pp : ∀ q (a b : Expr ℝ), ScalarFns a → ScalarFns b → ScalarFns (.prod q a b) := fun _ _ _ a b => ⟨a, b⟩
  induction e generalizing e' with
  | num c => simp only [replace, Option.some.injEq] at h; subst h; exact hs
  | fld i s =>
    simp only [replace] at h
    split at h <;> obtain rfl := Option.some.inj h
    · exact hsr
    · exact hs
  | cst s c => simp only [replace, Option.some.injEq] at h; subst h; exact hs
  | add a b iha ihb =>
    have hw : WF G a ∧ WF G b ∧ a.sig = b.sig := by simpa [WF] using hw
    simp only [replace, Option.bind_eq_bind, Option.bind_eq_some_iff] at h
    obtain ⟨a', ha, b', hb, h⟩ := h
    exact mkAdd_hered (fun _ _ => trivial) (fun _ _ a b => ⟨a, b⟩) pn (iha (Or.inl hw.1) hs.1 ha)
      (ihb (Or.inl hw.2.1) hs.2 hb) h
  | prod p a b iha ihb =>
    have hw' : WF G (.prod p a b) := by simpa using hw
    obtain ⟨hwa, hwb, hf⟩ := wf_prod_args hw'
    simp only [replace, Option.bind_eq_bind, Option.bind_eq_some_iff] at h
    obtain ⟨a', ha, b', hb, h⟩ := h
    exact newProd_hered pn pp (iha hwa hs.1 ha) (ihb (Or.inl hwb) hs.2 hb) h
  | lin o a iha =>
    have hw : WF G a ∧ ((o.kind = .keeps ∨ o.kind = .passes) → o.rule = .same) := by simpa [WF] using hw
    simp only [replace, Option.bind_eq_bind, Option.bind_eq_some_iff] at h
    obtain ⟨a', ha, h⟩ := h
    exact newLin_hered pn (fun _ a => a) (iha (Or.inl hw.1) hs ha) h
  | un f a iha =>
    have hw : WF G a := by simpa [WF] using hw
    simp only [replace, Option.bind_eq_bind, Option.bind_eq_some_iff] at h
    obtain ⟨a', ha, h⟩ := h
    obtain ⟨ho, rfl⟩ := newUn_eq h
    exact ⟨iha (Or.inl hw) hs.1 ha, ((replace_spec hr (Or.inl hw) ha).1.operand ho).2.trans hs.2⟩
  | pow a p iha =>
    have hw : WF G a := by simpa [WF] using hw
    simp only [replace, Option.bind_eq_bind, Option.bind_eq_some_iff] at h
    obtain ⟨a', ha, h⟩ := h
    obtain ⟨ho, rfl⟩ := newPow_eq h
    exact ⟨iha (Or.inl hw) hs.1 ha, ((replace_spec hr (Or.inl hw) ha).1.operand ho).2.trans hs.2⟩

theorem replace_inDomain {G : Nat → Sig} {x : Nat} {r e e' : Expr ℝ} (S : Sem ℝ X) (env : Nat → X → ℝ)
    (hr : Ty G (G x) r) (hdr : InDomain S env r) (hw : WF G e ∨ ∃ c, e = .num c)
    (hd : InDomain S (setVal env x (eval S env r)) e)
    (h : replace x r e = some e') : InDomain S env e' := by
  have pn : ∀ c : ℝ, InDomain S env (.num c) := fun _ => trivial
  have pp : ∀ q (a b : Expr ℝ), InDomain S env a → InDomain S env b → InDomain S env (.prod q a b) :=
    fun _ _ _ a b => ⟨a, b⟩
  induction e generalizing e' with
  | num c => simp only [replace, Option.some.injEq] at h; subst h; exact pn c
  | fld i s =>
    simp only [replace] at h
    split at h <;> obtain rfl := Option.some.inj h
    · exact hdr
    · trivial
  | cst s c => simp only [replace, Option.some.injEq] at h; subst h; trivial
  | add a b iha ihb =>
    have hw : WF G a ∧ WF G b ∧ a.sig = b.sig := by simpa [WF] using hw
    simp only [replace, Option.bind_eq_bind, Option.bind_eq_some_iff] at h
    obtain ⟨a', ha, b', hb, h⟩ := h
    exact mkAdd_hered (fun _ _ => trivial) (fun _ _ a b => ⟨a, b⟩) pn (iha (Or.inl hw.1) hd.1 ha)
      (ihb (Or.inl hw.2.1) hd.2 hb) h
  | prod p a b iha ihb =>
    have hw' : WF G (.prod p a b) := by simpa using hw
    obtain ⟨hwa, hwb, hf⟩ := wf_prod_args hw'
    simp only [replace, Option.bind_eq_bind, Option.bind_eq_some_iff] at h
    obtain ⟨a', ha, b', hb, h⟩ := h
    exact newProd_hered pn pp (iha hwa hd.1 ha) (ihb (Or.inl hwb) hd.2 hb) h
  | lin o a iha =>
    have hw : WF G a ∧ ((o.kind = .keeps ∨ o.kind = .passes) → o.rule = .same) := by simpa [WF] using hw
    simp only [replace, Option.bind_eq_bind, Option.bind_eq_some_iff] at h
    obtain ⟨a', ha, h⟩ := h
    exact newLin_hered pn (fun _ a => a) (iha (Or.inl hw.1) hd ha) h
  | un f a iha =>
    have hw : WF G a := by simpa [WF] using hw
    simp only [replace, Option.bind_eq_bind, Option.bind_eq_some_iff] at h
    obtain ⟨a', ha, h⟩ := h
    obtain ⟨ho, rfl⟩ := newUn_eq h
    refine ⟨iha (Or.inl hw) hd.1 ha, ?_⟩
    rw [(replace_spec hr (Or.inl hw) ha).2.1 S env]; exact hd.2
  | pow a p iha =>
    have hw : WF G a := by simpa [WF] using hw
    simp only [replace, Option.bind_eq_bind, Option.bind_eq_some_iff] at h
    obtain ⟨a', ha, h⟩ := h
    obtain ⟨ho, rfl⟩ := newPow_eq h
    refine ⟨iha (Or.inl hw) hd.1 ha, ?_⟩
    rw [(replace_spec hr (Or.inl hw) ha).2.1 S env]; exact hd.2

theorem inDomain_congr (S : Sem ℝ X) {e : Expr ℝ} {env env' : Nat → X → ℝ}
    (h : ∀ i, Mentions (.fld i) e → env i = env' i) (hd : InDomain S env e) : InDomain S env' e := by
  induction e with
  | num c => trivial
  | fld i s => trivial
  | cst s c => trivial
  | add a b iha ihb => exact ⟨iha (fun i m => h i (Or.inl m)) hd.1, ihb (fun i m => h i (Or.inr m)) hd.2⟩
  | prod p a b iha ihb => exact ⟨iha (fun i m => h i (Or.inl m)) hd.1, ihb (fun i m => h i (Or.inr m)) hd.2⟩
  | lin o a iha => exact iha (fun i m => h i (Or.inr m)) hd
  | un f a iha =>
    refine ⟨iha h hd.1, ?_⟩
    rw [← eval_congr (e := a) S h]; exact hd.2
  | pow a p iha =>
    refine ⟨iha h hd.1, ?_⟩
    rw [← eval_congr (e := a) S h]; exact hd.2

/-! ### The perturbed expression -/

/-- Every variable moved by `epsilon` times its perturbation. -/
noncomputable def perturbed (S : Sem ℝ X) (eps : Nat) (l : List ((Nat × Sig) × Expr ℝ)) (env : Nat → X → ℝ) :
    Nat → X → ℝ :=
  fun i => env i + fun p => env eps p * assigned S l env 0 i p

theorem assigned_not_mem (S : Sem ℝ X) {l : List ((Nat × Sig) × Expr ℝ)} {env old : Nat → X → ℝ} {i : Nat}
    (h : i ∉ l.map (·.1.1)) : assigned S l env old i = old i := by
  unfold assigned
  rw [List.find?_eq_none.2]
  intro a ha
  simp only [decide_eq_true_eq]
  rintro rfl
  exact h (List.mem_map.2 ⟨a, ha, rfl⟩)

theorem assigned_cons_self (S : Sem ℝ X) {l : List ((Nat × Sig) × Expr ℝ)} {env old : Nat → X → ℝ} {x : Nat}
    {s : Sig} {p : Expr ℝ} : assigned S (((x, s), p) :: l) env old x = eval S env p := by
  simp [assigned]

theorem assigned_cons_ne (S : Sem ℝ X) {l : List ((Nat × Sig) × Expr ℝ)} {env old : Nat → X → ℝ} {x i : Nat}
    {s : Sig} {p : Expr ℝ} (h : i ≠ x) :
    assigned S (((x, s), p) :: l) env old i = assigned S l env old i := by
  simp [assigned, List.find?_cons, Ne.symm h]

theorem perturb_spec {G : Nat → Sig} {eps : Nat} (heps : G eps = []) {l : List ((Nat × Sig) × Expr ℝ)}
    (hnd : (l.map (·.1.1)).Nodup) (hne : eps ∉ l.map (·.1.1))
    (hsig : ∀ a ∈ l, a.1.2 = G a.1.1 ∧ WF G a.2 ∧ a.2.sig = G a.1.1 ∧ ScalarFns a.2)
    (hfree : ∀ a ∈ l, ∀ i, Mentions (.fld i) a.2 → i ≠ eps ∧ i ∉ l.map (·.1.1))
    {e d : Expr ℝ} (hw : WF G e ∨ ∃ c, e = .num c) (hs : ScalarFns e) (h : perturb eps l e = some d) :
    Ty G e.sig d ∧ ScalarFns d ∧
      ∀ (S : Sem ℝ X) (env : Nat → X → ℝ), eval S env d = eval S (perturbed S eps l env) e ∧
        ((∀ a ∈ l, InDomain S env a.2) → InDomain S (perturbed S eps l env) e → InDomain S env d) := by
  induction l generalizing e with
  | nil =>
    simp only [perturb, Option.some.injEq] at h; subst h
    have : ∀ (S : Sem ℝ X) (env : Nat → X → ℝ), perturbed S eps [] env = env := by
      intro S env; funext i p; simp [perturbed, assigned]
    exact ⟨arg_ty hw, hs, fun S env => by simp [this]⟩
  | cons a l ih =>
    obtain ⟨⟨x, s⟩, p⟩ := a
    obtain ⟨hsx, wp, sp, fp⟩ := hsig _ List.mem_cons_self
    replace hsx : s = G x := hsx
    subst hsx
    simp only [perturb, Option.bind_eq_bind, Option.bind_eq_some_iff] at h
    obtain ⟨m, hm, r, hr, e', he, h⟩ := h
    have teps : Ty G [] (.fld eps [] : Expr ℝ) := Ty.of_wf (by simp [WF, heps])
    have tx : Ty G (G x) (.fld x (G x) : Expr ℝ) := Ty.of_wf (by simp [WF])
    have tp : Ty G (G x) p := by rw [← sp]; exact Ty.of_wf wp
    obtain ⟨m', q, tm⟩ := mkMul_ty teps tp
    obtain rfl : m' = m := Option.some.inj (q.symm.trans hm)
    rw [List.nil_append] at tm
    obtain ⟨r', q', tr⟩ := mkAdd_ty tx tm
    obtain rfl : r' = r := Option.some.inj (q'.symm.trans hr)
    have sr : ScalarFns r' := mkAdd_hered (fun _ _ => trivial) (fun _ _ a b => ⟨a, b⟩) (fun _ => trivial)
      (by trivial) (mkMul_hered (P := ScalarFns) (fun _ => trivial) (fun _ _ _ a b => ⟨a, b⟩) (by trivial) fp hm) hr
    obtain ⟨te, ve, _⟩ := replace_spec tr hw he
    have hw' : WF G e' ∨ ∃ c, e' = .num c := by
      rcases te with rfl | ⟨c, rfl, _⟩ | ⟨w, _⟩
      · exact Or.inr ⟨0, rfl⟩
      · exact Or.inr ⟨c, rfl⟩
      · exact Or.inl w
    simp only [List.map_cons, List.nodup_cons] at hnd
    simp only [List.map_cons, List.mem_cons, not_or] at hne
    obtain ⟨td, sd, vd⟩ := ih hnd.2 hne.2 (fun a ha => hsig a (List.mem_cons_of_mem _ ha))
      (fun a ha i m => ⟨(hfree a (List.mem_cons_of_mem _ ha) i m).1, fun hi =>
        (hfree a (List.mem_cons_of_mem _ ha) i m).2 (List.mem_cons_of_mem _ hi)⟩)
      hw' (replace_scalarFns tr sr hw hs he) h
    refine ⟨?_, sd, ?_⟩
    · rcases te with rfl | ⟨c, rfl, hc⟩ | ⟨w, hc⟩
      · have : d = .num 0 := by
          clear vd sd td ih hsig hfree hnd hne he hw'
          induction l with
          | nil => simp [perturb] at h; exact h.symm
          | cons a l ih =>
            obtain ⟨⟨y, s⟩, p⟩ := a
            simp only [perturb, Option.bind_eq_bind, Option.bind_eq_some_iff, replace,
              Option.some.injEq] at h
            obtain ⟨_, _, _, _, _, rfl, h⟩ := h
            exact ih h
        rw [this]; exact Ty.zero
      · rw [hc]; exact td
      · rw [← hc]; exact td
    · intro S env
      have hpe : ∀ i, Mentions (.fld i) p → perturbed S eps l env i = env i := by
        intro i m
        have := (hfree _ List.mem_cons_self i m).2
        simp only [List.map_cons, List.mem_cons, not_or] at this
        funext y
        simp [perturbed, assigned_not_mem S this.2]
      have key : setVal (perturbed S eps l env) x (eval S (perturbed S eps l env) r') =
          perturbed S eps (((x, G x), p) :: l) env := by
        funext i
        unfold setVal
        split
        · rename_i hi; subst hi
          rw [mkAdd_eval S _ hr, mkMul_eval S _ hm]
          funext y
          simp only [Expr.sig, S.mul_left, eval, Pi.add_apply]
          rw [eval_congr S hpe]
          simp only [perturbed, assigned_cons_self, assigned_not_mem S hnd.1, assigned_not_mem S hne.2]
          simp
        · rename_i hi
          funext y
          simp only [perturbed, assigned_cons_ne S hi]
      constructor
      · rw [(vd S env).1, ve, key]
      · intro hp hd
        apply (vd S env).2 (fun a ha => hp a (List.mem_cons_of_mem _ ha))
        refine replace_inDomain S _ tr ?_ hw (by rw [key]; exact hd) he
        exact mkAdd_hered (P := InDomain S _) (fun _ _ => trivial) (fun _ _ a b => ⟨a, b⟩) (fun _ => trivial)
          (by trivial) (mkMul_hered (P := InDomain S _) (fun _ => trivial) (fun _ _ _ a b => ⟨a, b⟩) (by trivial)
            (inDomain_congr S (fun i m => (hpe i m).symm) (hp _ List.mem_cons_self)) hm) hr

/-! ### Substitution of the backgrounds -/

theorem substAll_spec {G : Nat → Sig} {l : List ((Nat × Sig) × Expr ℝ)}
    (hnd : (l.map (·.1.1)).Nodup)
    (hsig : ∀ a ∈ l, Ty G (G a.1.1) a.2)
    (hlater : l.Pairwise (fun a b => ¬ Mentions (.fld b.1.1) a.2))
    {e d : Expr ℝ} (hw : WF G e) (h : substAll l e = some d) :
    Ty G e.sig d ∧ ∀ (S : Sem ℝ X) (env : Nat → X → ℝ), eval S env d = eval S (assigned S l env env) e := by
  induction l generalizing e with
  | nil =>
    simp only [substAll, Option.some.injEq] at h; subst h
    exact ⟨Ty.of_wf hw, fun S env => by congr 1⟩
  | cons a l ih =>
    obtain ⟨⟨x, s⟩, p⟩ := a
    simp only [substAll, wf_operand hw, if_true, Option.bind_eq_bind, Option.bind_eq_some_iff] at h
    obtain ⟨e', he, h⟩ := h
    obtain ⟨te, ve, _⟩ := replace_spec (hsig _ List.mem_cons_self) (Or.inl hw) he
    simp only [List.map_cons, List.nodup_cons] at hnd
    rw [List.pairwise_cons] at hlater
    have key : ∀ (S : Sem ℝ X) (env : Nat → X → ℝ),
        setVal (assigned S l env env) x (eval S (assigned S l env env) p) =
          assigned S (((x, s), p) :: l) env env := by
      intro S env; funext i
      unfold setVal
      split
      · rename_i hi; subst hi
        rw [assigned_cons_self]
        apply eval_congr
        intro j m
        apply assigned_not_mem
        intro hj
        obtain ⟨b, hb, rfl⟩ := List.mem_map.1 hj
        exact hlater.1 b hb m
      · rename_i hi
        rw [assigned_cons_ne S hi]
    cases ho : e'.isOperand with
    | true =>
      obtain ⟨we, se⟩ := te.operand ho
      obtain ⟨td, vd⟩ := ih hnd.2 (fun a ha => hsig a (List.mem_cons_of_mem _ ha)) hlater.2 we h
      exact ⟨by rw [← se]; exact td, fun S env => by rw [vd, ve, key]⟩
    | false =>
      cases l with
      | nil =>
        simp only [substAll, Option.some.injEq] at h; subst h
        refine ⟨te, fun S env => ?_⟩
        rw [ve]
        have := key S env
        have hn : assigned S [] env env = env := rfl
        rw [hn] at this
        rw [← this]
      | cons b l =>
        obtain ⟨⟨_, _⟩, _⟩ := b
        simp [substAll, ho] at h

/-- The differential is the directional derivative. -/
theorem frechet_ty [Fintype X] {G : Nat → Sig} {S : Sem ℝ X} (hS : Analytic S) {eps : Nat} (heps : G eps = [])
    {perts bgs : List ((Nat × Sig) × Expr ℝ)}
    (hnd : (perts.map (·.1.1)).Nodup) (hne : eps ∉ perts.map (·.1.1))
    (hsig : ∀ a ∈ perts, a.1.2 = G a.1.1 ∧ WF G a.2 ∧ a.2.sig = G a.1.1 ∧ ScalarFns a.2)
    (hfree : ∀ a ∈ perts, ∀ i, Mentions (.fld i) a.2 → i ≠ eps ∧ i ∉ perts.map (·.1.1))
    (hvars : ∀ i ∈ bgs.map (·.1.1), i ∈ perts.map (·.1.1))
    (hndb : (bgs.map (·.1.1)).Nodup)
    (hsigb : ∀ a ∈ bgs, Ty G (G a.1.1) a.2)
    (hlater : bgs.Pairwise (fun a b => ¬ Mentions (.fld b.1.1) a.2))
    {e d : Expr ℝ} (hw : WF G e) (hee : ¬ Mentions (.fld eps) e) (hs : ScalarFns e)
    (env : Nat → X → ℝ)
    (hdp : ∀ a ∈ perts, InDomain S env a.2) (hd : InDomain S (assigned S bgs env env) e)
    (h : frechet eps perts bgs e = some d) :
    Ty G e.sig d ∧ HasDerivAt (fun t : ℝ => eval S (assigned S bgs env env + t • assigned S perts env 0) e) (eval S env d) 0 := by
  unfold frechet at h
  simp only [Option.bind_eq_bind, Option.bind_eq_some_iff] at h
  obtain ⟨P, hP, d1, hd1, h⟩ := h
  have h' : ∃ d3, (if d1.truthy = true then (castTo e.sig d1).bind (replace eps (.num 0)) else some d1) = some d3 ∧
      (if d3.truthy = true then substAll bgs d3 else some d3) = some d := by
    split at h
    · rename_i hz
      simp only [Option.bind_eq_some_iff] at h
      obtain ⟨d2, h2, d3, h3, h4⟩ := h
      exact ⟨d3, by simp [hz, h2, h3], h4⟩
    · rename_i hz
      exact ⟨d1, by simp [hz], by simpa using h⟩
  obtain ⟨d3, hd3, hd4⟩ := h'
  obtain ⟨tP, sP, vP⟩ := perturb_spec (X := X) heps hnd hne hsig hfree (Or.inl hw) hs hP
  have wP : WF G P := by
    rcases tP with rfl | ⟨c, rfl, _⟩ | ⟨w, _⟩
    · simp [symDiff] at hd1
    · simp [symDiff] at hd1
    · exact w
  have sigP : P.sig = e.sig := by
    rcases tP with rfl | ⟨c, rfl, _⟩ | ⟨_, s⟩
    · exact wP.elim
    · exact wP.elim
    · exact s
  -- the environment of the background, with epsilon zero
  let env1 : Nat → X → ℝ := setVal (assigned S bgs env env) eps 0
  have hbgeps : eps ∉ bgs.map (·.1.1) := fun h => hne (hvars _ h)
  have pe : ∀ a ∈ perts, ∀ i, Mentions (.fld i) a.2 → env i = env1 i := by
    intro a ha i m
    obtain ⟨h1, h2⟩ := hfree a ha i m
    simp only [env1, setVal, h1, if_false]
    rw [assigned_not_mem]
    intro hi; exact h2 (hvars i hi)
  have pas : ∀ i, assigned S perts env1 0 i = assigned S perts env 0 i := by
    intro i
    unfold assigned
    cases hf : perts.find? (fun a => a.1.1 = i) with
    | none => rfl
    | some a => exact (eval_congr S (pe a (List.mem_of_find?_eq_some hf))).symm
  have pas' : ∀ t i, assigned S perts (moved env1 eps t) 0 i = assigned S perts env 0 i := by
    intro t i
    rw [← pas]
    unfold assigned
    cases hf : perts.find? (fun a => a.1.1 = i) with
    | none => rfl
    | some a =>
      apply eval_congr
      intro j m
      have := (hfree a (List.mem_of_find?_eq_some hf) j m).1
      simp [moved, setVal, this]
  have step : ∀ t : ℝ, ∀ i, i ≠ eps → perturbed S eps perts (moved env1 eps t) i =
      (assigned S bgs env env + t • assigned S perts env 0) i := by
    intro t i hi
    funext y
    simp only [perturbed, pas', Pi.add_apply, Pi.smul_apply, smul_eq_mul]
    simp [moved, setVal, hi, env1]
  have curve : (fun t : ℝ => eval S (moved env1 eps t) P) =
      fun t : ℝ => eval S (assigned S bgs env env + t • assigned S perts env 0) e := by
    funext t
    rw [(vP S _).1]
    apply eval_congr
    intro i m
    apply step
    rintro rfl; exact hee m
  have dP : InDomain S env1 P := by
    apply (vP S env1).2
    · intro a ha; exact inDomain_congr S (pe a ha) (hdp a ha)
    · refine inDomain_congr S ?_ hd
      intro i m
      have hi : i ≠ eps := by rintro rfl; exact hee m
      have := step 0 i hi
      rw [moved_zero] at this
      rw [this]; simp
  obtain ⟨t1, D⟩ := symDiff_spec hS env1 heps wP sP dP hd1
  rw [curve] at D
  have val : Ty G e.sig d ∧ eval S env d = eval S env1 d1 := by
    have v3 : Ty G e.sig d3 ∧ eval S (assigned S bgs env env) d3 = eval S env1 d1 := by
      split at hd3
      · simp only [Option.bind_eq_some_iff] at hd3
        obtain ⟨d2, hd2, hd3⟩ := hd3
        have w2 : WF G d2 := by
          cases ho : d1.isOperand with
          | true => rw [castTo_operand hd2 ho]; exact (t1.operand ho).1
          | false =>
            obtain ⟨c, rfl⟩ := not_operand ho
            rw [castTo_num] at hd2; obtain rfl := Option.some.inj hd2; trivial
        have s2 : d2.sig = e.sig := by
          cases ho : d1.isOperand with
          | true => rw [castTo_operand hd2 ho]; exact (t1.operand ho).2.trans sigP
          | false =>
            obtain ⟨c, rfl⟩ := not_operand ho
            rw [castTo_num] at hd2; obtain rfl := Option.some.inj hd2; rfl
        obtain ⟨t3, v3, _⟩ := replace_spec (x := eps) (r := .num 0) Ty.zero (Or.inl w2) hd3
        refine ⟨by rw [← s2]; exact t3, ?_⟩
        rw [v3, ← castTo_eval S _ hd2]; rfl
      · rename_i hz
        obtain rfl := Option.some.inj hd3
        have : d1 = .num 0 := truthy_false.1 (by simpa using hz)
        subst this
        exact ⟨Ty.zero, rfl⟩
    split at hd4
    · rename_i hz
      cases ho : d3.isOperand with
      | true =>
        obtain ⟨t4, v4⟩ := substAll_spec (X := X) hndb hsigb hlater (v3.1.operand ho).1 hd4
        rw [(v3.1.operand ho).2] at t4
        exact ⟨t4, by rw [v4, v3.2]⟩
      | false =>
        cases bgs with
        | nil =>
          simp only [substAll, Option.some.injEq] at hd4; subst hd4
          have : assigned S [] env env = env := rfl
          exact ⟨v3.1, by rw [← v3.2, this]⟩
        | cons b l =>
          obtain ⟨⟨_, _⟩, _⟩ := b
          simp [substAll, ho] at hd4
    · rename_i hz
      obtain rfl := Option.some.inj hd4
      have : d3 = .num 0 := truthy_false.1 (by simpa using hz)
      subst this
      exact ⟨Ty.zero, by rw [← v3.2]; rfl⟩
  exact ⟨val.1, by rw [val.2]; exact D⟩

theorem frechet_spec [Fintype X] {G : Nat → Sig} {S : Sem ℝ X} (hS : Analytic S) {eps : Nat} (heps : G eps = [])
    {perts bgs : List ((Nat × Sig) × Expr ℝ)}
    (hnd : (perts.map (·.1.1)).Nodup) (hne : eps ∉ perts.map (·.1.1))
    (hsig : ∀ a ∈ perts, a.1.2 = G a.1.1 ∧ WF G a.2 ∧ a.2.sig = G a.1.1 ∧ ScalarFns a.2)
    (hfree : ∀ a ∈ perts, ∀ i, Mentions (.fld i) a.2 → i ≠ eps ∧ i ∉ perts.map (·.1.1))
    (hvars : ∀ i ∈ bgs.map (·.1.1), i ∈ perts.map (·.1.1))
    (hndb : (bgs.map (·.1.1)).Nodup)
    (hsigb : ∀ a ∈ bgs, Ty G (G a.1.1) a.2)
    (hlater : bgs.Pairwise (fun a b => ¬ Mentions (.fld b.1.1) a.2))
    {e d : Expr ℝ} (hw : WF G e) (hee : ¬ Mentions (.fld eps) e) (hs : ScalarFns e)
    (env : Nat → X → ℝ)
    (hdp : ∀ a ∈ perts, InDomain S env a.2) (hd : InDomain S (assigned S bgs env env) e)
    (h : frechet eps perts bgs e = some d) :
    HasDerivAt (fun t : ℝ => eval S (assigned S bgs env env + t • assigned S perts env 0) e) (eval S env d) 0 :=
  (frechet_ty hS heps hnd hne hsig hfree hvars hndb hsigb hlater hw hee hs env hdp hd h).2

end Dedalus.Symb
