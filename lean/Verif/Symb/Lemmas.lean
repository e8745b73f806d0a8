import Mathlib.Tactic.Ring
import Mathlib.Tactic.Abel
import Verif.Symb.Spec

/-! Helper lemmas: values and signatures of the results of the smart constructors. -/

namespace Dedalus.Symb

variable {K X : Type} [Field K] [DecidableEq K]

omit [DecidableEq K] in
theorem not_operand {e : Expr K} (h : e.isOperand = false) : ∃ c, e = .num c := by
  cases e <;> simp_all [Expr.isOperand]

@[simp] theorem eqNum_num (c d : K) : (Expr.num c).eqNum d = decide (c = d) := rfl

omit [Field K] [DecidableEq K] in
@[simp] theorem isOperand_num (c : K) : (Expr.num c).isOperand = false := rfl

theorem eqNum_iff {e : Expr K} {c : K} : e.eqNum c = true ↔ e = .num c := by
  cases e <;> simp [Expr.eqNum]

theorem eqNum_false {e : Expr K} {c : K} : e.eqNum c = false ↔ e ≠ .num c := by
  rw [← Bool.not_eq_true, eqNum_iff]

theorem operand_eqNum {e : Expr K} (h : e.isOperand = true) (c : K) : e.eqNum c = false := by
  cases e <;> simp_all [Expr.isOperand, Expr.eqNum]

theorem truthy_false {e : Expr K} : e.truthy = false ↔ e = .num 0 := by
  simp [Expr.truthy, eqNum_iff]

/-- Typing of a result: the number zero fits every signature, other numbers are scalars. -/
def Ty (G : Nat → Sig) (s : Sig) (r : Expr K) : Prop :=
  r = .num 0 ∨ (∃ c, r = .num c ∧ s = []) ∨ (WF G r ∧ r.sig = s)

omit [Field K] [DecidableEq K] in
theorem wf_operand {G : Nat → Sig} {e : Expr K} (h : WF G e) : e.isOperand = true := by
  cases e <;> simp_all [Expr.isOperand, WF]

omit [DecidableEq K] in
theorem Ty.zero {G : Nat → Sig} {s : Sig} : Ty G s (.num (0 : K)) := Or.inl rfl

omit [DecidableEq K] in
theorem Ty.of_wf {G : Nat → Sig} {e : Expr K} (h : WF G e) : Ty G e.sig e := Or.inr (Or.inr ⟨h, rfl⟩)

omit [Field K] [DecidableEq K] in
theorem wf_prod {G : Nat → Sig} {p : PKind} {a b : Expr K} :
    WF G (.prod p a b) ↔ (∃ c, a = .num c ∧ p = .mul ∧ WF G b) ∨
      (WF G a ∧ WF G b ∧ p.fits a.sig b.sig = true) := by
  cases a <;> simp [WF]

/-! ### Sums -/

theorem mkAdd_zero_left (b : Expr K) : mkAdd (.num 0) b = some b := by
  unfold mkAdd preAdd
  by_cases h : b.eqNum 0 = true
  · rw [eqNum_iff] at h; subst h; simp [List.filter]
  · simp [List.filter, h]

theorem mkAdd_zero_right (a : Expr K) : mkAdd a (.num 0) = some a := by
  unfold mkAdd preAdd
  by_cases h : a.eqNum 0 = true
  · rw [eqNum_iff] at h; subst h; simp [List.filter]
  · simp [List.filter, h]

/-- What `mkAdd` builds from two nonzero arguments. -/
theorem mkAdd_ne {a b : Expr K} (ha : a ≠ .num 0) (hb : b ≠ .num 0) :
    mkAdd a b =
      if a.isOperand || b.isOperand then
        (match unifySig [a, b] with
          | none => none
          | some s =>
            match castTo s a, castTo s b with
            | some x, some y => some (.add x y)
            | _, _ => none)
      else some (.num (a.numVal + b.numVal)) := by
  have ha' := eqNum_false.2 ha
  have hb' := eqNum_false.2 hb
  unfold mkAdd preAdd
  simp only [List.filter, ha', hb', Bool.not_false, List.any_cons, List.any_nil, Bool.or_false]
  by_cases h : (a.isOperand || b.isOperand) = true
  · simp only [h, if_true]
    cases hu : unifySig [a, b] with
    | none => simp [hu]
    | some s =>
      cases hca : castTo s a with
      | none => simp [hca]
      | some x =>
        cases hcb : castTo s b with
        | none => simp [hca, hcb]
        | some y => simp [hca, hcb]
  · simp [h]

omit [Field K] [DecidableEq K] in
theorem castTo_num (s : Sig) (c : K) : castTo s (.num c) = some (.cst s c) := rfl

omit [DecidableEq K] in
theorem castTo_eval (S : Sem K X) (env : Nat → X → K) {s : Sig} {a x : Expr K}
    (h : castTo s a = some x) : eval S env x = eval S env a := by
  cases a <;> simp_all [castTo, eval] <;> (try (obtain ⟨_, rfl⟩ := h; rfl)) <;> subst h <;> rfl

theorem mkAdd_eval (S : Sem K X) (env : Nat → X → K) {a b r : Expr K} (h : mkAdd a b = some r) :
    eval S env r = eval S env a + eval S env b := by
  by_cases ha : a = .num 0
  · subst ha; rw [mkAdd_zero_left] at h; obtain rfl := Option.some.inj h
    funext x; simp [eval]
  by_cases hb : b = .num 0
  · subst hb; rw [mkAdd_zero_right] at h; obtain rfl := Option.some.inj h
    funext x; simp [eval]
  rw [mkAdd_ne ha hb] at h
  split at h
  · cases hu : unifySig [a, b] with
    | none => simp [hu] at h
    | some s =>
      simp only [hu] at h
      cases hca : castTo s a with
      | none => simp [hca] at h
      | some x =>
        cases hcb : castTo s b with
        | none => simp [hca, hcb] at h
        | some y =>
          simp only [hca, hcb, Option.some.injEq] at h
          subst h
          simp only [eval]
          rw [castTo_eval S env hca, castTo_eval S env hcb]
  · rename_i hop
    simp only [Bool.or_eq_true, not_or, Bool.not_eq_true] at hop
    obtain ⟨c, rfl⟩ := not_operand hop.1
    obtain ⟨d, rfl⟩ := not_operand hop.2
    simp only [Option.some.injEq] at h
    subst h
    funext x; simp [eval, Expr.numVal]

theorem mkAdd_ty {G : Nat → Sig} {s : Sig} {a b : Expr K} (ha : Ty G s a) (hb : Ty G s b) :
    ∃ r, mkAdd a b = some r ∧ Ty G s r := by
  by_cases ha0 : a = .num 0
  · exact ⟨b, by rw [ha0, mkAdd_zero_left], hb⟩
  by_cases hb0 : b = .num 0
  · exact ⟨a, by rw [hb0, mkAdd_zero_right], ha⟩
  rw [mkAdd_ne ha0 hb0]
  rcases ha with h | ⟨c, rfl, rfl⟩ | ⟨wa, sa⟩
  · exact absurd h ha0
  · rcases hb with h | ⟨d, rfl, _⟩ | ⟨wb, sb⟩
    · exact absurd h hb0
    · exact ⟨.num (c + d), by simp [Expr.numVal], Or.inr (Or.inl ⟨_, rfl, rfl⟩)⟩
    · have ob := wf_operand wb
      have hu : unifySig [.num c, b] = some [] := by simp [unifySig, List.filter, ob, sb]
      have hc : castTo [] b = some b := by
        cases b <;> simp_all [castTo, Expr.isOperand]
      refine ⟨.add (.cst [] c) b, by simp [ob, hu, castTo_num, hc], Or.inr (Or.inr ⟨?_, rfl⟩)⟩
      exact ⟨trivial, wb, by simp [Expr.sig, sb]⟩
  · have oa := wf_operand wa
    have hca : castTo s a = some a := by cases a <;> simp_all [castTo, Expr.isOperand]
    rcases hb with h | ⟨d, rfl, rfl⟩ | ⟨wb, sb⟩
    · exact absurd h hb0
    · have hu : unifySig [a, .num d] = some [] := by simp [unifySig, List.filter, oa, sa]
      refine ⟨.add a (.cst [] d), by simp [oa, hu, castTo_num, hca], Or.inr (Or.inr ⟨?_, sa⟩)⟩
      exact ⟨wa, trivial, by simp [Expr.sig, sa]⟩
    · have ob := wf_operand wb
      have hu : unifySig [a, b] = some s := by simp [unifySig, List.filter, oa, ob, sa, sb]
      have hcb : castTo s b = some b := by cases b <;> simp_all [castTo, Expr.isOperand]
      exact ⟨.add a b, by simp [oa, hu, hca, hcb], Or.inr (Or.inr ⟨⟨wa, wb, sa.trans sb.symm⟩, sa⟩)⟩

/-! ### Products -/

theorem mkMul_cases (a b : Expr K) :
    (a = .num 1 ∧ mkMul a b = some b) ∨
    (b = .num 1 ∧ mkMul a b = some a) ∨
    ((a = .num 0 ∨ b = .num 0) ∧ mkMul a b = some (.num 0)) ∨
    (a ≠ .num 0 ∧ b ≠ .num 0 ∧ b.isOperand = true ∧ mkMul a b = some (.prod .mul a b)) ∨
    (a ≠ .num 0 ∧ a.isOperand = true ∧ (∃ c, b = .num c ∧ c ≠ 0) ∧ mkMul a b = some (.prod .mul b a)) ∨
    (∃ c d, a = .num c ∧ b = .num d ∧ mkMul a b = some (.num (c * d))) := by
  by_cases ha1 : a = .num 1
  · left; refine ⟨ha1, ?_⟩; subst ha1
    unfold mkMul preMul
    by_cases h : b.eqNum 1 = true
    · rw [eqNum_iff] at h; subst h; simp [List.filter]
    · simp [List.filter, h]
  right
  by_cases hb1 : b = .num 1
  · left; refine ⟨hb1, ?_⟩; subst hb1
    have h := eqNum_false.2 ha1
    unfold mkMul preMul
    simp [List.filter, h]
  right
  have ha1' := eqNum_false.2 ha1
  have hb1' := eqNum_false.2 hb1
  by_cases h0 : a = .num 0 ∨ b = .num 0
  · left; refine ⟨h0, ?_⟩
    have h0' : (a.eqNum 0 || b.eqNum 0) = true := by
      rcases h0 with h | h <;> simp [eqNum_iff.2 h]
    unfold mkMul preMul
    simp only [List.filter, ha1', hb1', Bool.not_false, List.any_cons, List.any_nil, Bool.or_false, h0',
      if_true]
  right
  have ha0 : a ≠ .num 0 := fun h => h0 (Or.inl h)
  have hb0 : b ≠ .num 0 := fun h => h0 (Or.inr h)
  have ha0' := eqNum_false.2 ha0
  have hb0' := eqNum_false.2 hb0
  have key : mkMul a b = if a.isOperand || b.isOperand then
      (if b.isOperand then some (.prod .mul a b) else some (.prod .mul b a))
      else some (.num (a.numVal * b.numVal)) := by
    unfold mkMul preMul
    simp only [List.filter, ha1', hb1', Bool.not_false, List.any_cons, List.any_nil, Bool.or_false,
      ha0', hb0']
    by_cases h : (a.isOperand || b.isOperand) = true
    · simp [h]
    · simp [h]
  rw [key]
  by_cases hb : b.isOperand = true
  · left; exact ⟨ha0, hb0, hb, by simp [hb]⟩
  right
  obtain ⟨d, rfl⟩ := not_operand (by simpa using hb)
  by_cases ha : a.isOperand = true
  · left; exact ⟨ha0, ha, ⟨d, rfl, fun h => hb0 (by rw [h])⟩, by simp [ha]⟩
  right
  obtain ⟨c, rfl⟩ := not_operand (by simpa using ha)
  exact ⟨c, d, rfl, rfl, by simp [Expr.isOperand, Expr.numVal]⟩

theorem mkMul_eval (S : Sem K X) (env : Nat → X → K) {a b r : Expr K} (h : mkMul a b = some r) :
    eval S env r = S.bil .mul a.sig b.sig (eval S env a) (eval S env b) := by
  have z : (fun _ => (0 : K)) = (0 : X → K) := rfl
  rcases mkMul_cases a b with ⟨rfl, e⟩ | ⟨rfl, e⟩ | ⟨h0, e⟩ | ⟨_, _, _, e⟩ | ⟨_, _, ⟨c, rfl, _⟩, e⟩ | ⟨c, d, rfl, rfl, e⟩ <;>
    rw [e] at h <;> obtain rfl := Option.some.inj h
  · simp [Expr.sig, S.mul_left, eval]
  · simp [Expr.sig, S.mul_right, eval]
  · rcases h0 with rfl | rfl <;> simp only [eval, z, map_zero, LinearMap.zero_apply]
  · rfl
  · simp only [eval, Expr.sig, S.mul_left, S.mul_right]; funext x; ring
  · simp [Expr.sig, S.mul_left, eval]

theorem mkMul_ty {G : Nat → Sig} {s t : Sig} {a b : Expr K} (ha : Ty G s a) (hb : Ty G t b) :
    ∃ r, mkMul a b = some r ∧ Ty G (s ++ t) r := by
  rcases mkMul_cases a b with ⟨rfl, e⟩ | ⟨rfl, e⟩ | ⟨h0, e⟩ | ⟨h0, h0', ho, e⟩ | ⟨h0, ho, ⟨c, rfl, hc⟩, e⟩ | ⟨c, d, rfl, rfl, e⟩ <;>
    refine ⟨_, e, ?_⟩
  · rcases ha with h | ⟨c, h, rfl⟩ | ⟨h, _⟩
    · simp at h
    · simpa using hb
    · exact absurd h (by simp [WF])
  · rcases hb with h | ⟨c, h, rfl⟩ | ⟨h, _⟩
    · simp at h
    · simpa using ha
    · exact absurd h (by simp [WF])
  · exact Ty.zero
  · have hb' : WF G b ∧ b.sig = t := by
      rcases hb with h | ⟨c, rfl, _⟩ | h
      · exact absurd h h0'
      · simp [Expr.isOperand] at ho
      · exact h
    rcases ha with h | ⟨c, rfl, rfl⟩ | ⟨wa, sa⟩
    · exact absurd h h0
    · exact Or.inr (Or.inr ⟨⟨rfl, hb'.1⟩, by simp [Expr.sig, PKind.outSig, hb'.2]⟩)
    · exact Or.inr (Or.inr ⟨wf_prod.2 (Or.inr ⟨wa, hb'.1, rfl⟩), by simp [Expr.sig, PKind.outSig, sa, hb'.2]⟩)
  · have ha' : WF G a ∧ a.sig = s := by
      rcases ha with h | ⟨c, rfl, _⟩ | h
      · exact absurd h h0
      · simp [Expr.isOperand] at ho
      · exact h
    have ht : t = [] := by
      rcases hb with h | ⟨c, _, h⟩ | ⟨h, _⟩
      · simp at h; exact absurd h hc
      · exact h
      · exact absurd h (by simp [WF])
    subst ht
    exact Or.inr (Or.inr ⟨⟨rfl, ha'.1⟩, by simp [Expr.sig, PKind.outSig, ha'.2]⟩)
  · by_cases hc : c = 0
    · exact Or.inl (by simp [hc])
    by_cases hd : d = 0
    · exact Or.inl (by simp [hd])
    have hs : s = [] := by
      rcases ha with h | ⟨c, _, h⟩ | ⟨h, _⟩
      · simp at h; exact absurd h hc
      · exact h
      · exact absurd h (by simp [WF])
    have ht : t = [] := by
      rcases hb with h | ⟨c, _, h⟩ | ⟨h, _⟩
      · simp at h; exact absurd h hd
      · exact h
      · exact absurd h (by simp [WF])
    exact Or.inr (Or.inl ⟨_, rfl, by simp [hs, ht]⟩)

theorem newProd_eval (S : Sem K X) (env : Nat → X → K) {p : PKind} {a b r : Expr K}
    (h : newProd p a b = some r) :
    eval S env r = S.bil p a.sig b.sig (eval S env a) (eval S env b) := by
  have z : (fun _ => (0 : K)) = (0 : X → K) := rfl
  unfold newProd at h
  split at h
  · exact mkMul_eval S env h
  · split at h
    · rename_i h0
      obtain rfl := Option.some.inj h
      simp only [Bool.or_eq_true, eqNum_iff] at h0
      rcases h0 with rfl | rfl <;> simp only [eval, z, map_zero, LinearMap.zero_apply]
    · split at h
      · obtain rfl := Option.some.inj h; rfl
      · simp at h

theorem newProd_ty {G : Nat → Sig} {p : PKind} {s t : Sig} {a b : Expr K} (ha : Ty G s a) (hb : Ty G t b)
    (hf : p.fits s t = true) : ∃ r, newProd p a b = some r ∧ Ty G (p.outSig s t) r := by
  have key : p ≠ .mul → ∃ r, (if a.eqNum 0 || b.eqNum 0 then some (.num 0)
      else if a.isOperand && b.isOperand && p.fits a.sig b.sig then some (.prod p a b)
      else none) = some r ∧ Ty G (p.outSig s t) r := by
    intro hp
    by_cases h0 : (a.eqNum 0 || b.eqNum 0) = true
    · exact ⟨.num 0, by simp [h0], Ty.zero⟩
    · simp only [Bool.or_eq_true, eqNum_iff, not_or] at h0
      have ha' : WF G a ∧ a.sig = s := by
        rcases ha with h | ⟨c, rfl, rfl⟩ | h
        · exact absurd h h0.1
        · cases p <;> simp [PKind.fits] at hf hp
        · exact h
      have hb' : WF G b ∧ b.sig = t := by
        rcases hb with h | ⟨c, rfl, rfl⟩ | h
        · exact absurd h h0.2
        · cases p with
          | mul => exact absurd rfl hp
          | dot => simp [PKind.fits] at hf
          | cross => simp [PKind.fits] at hf; rcases hf with ⟨h1, rfl⟩; simp at h1
        · exact h
      refine ⟨.prod p a b, ?_, Or.inr (Or.inr ⟨wf_prod.2 (Or.inr ⟨ha'.1, hb'.1, ?_⟩), ?_⟩)⟩
      · simp [eqNum_false.2 h0.1, eqNum_false.2 h0.2, wf_operand ha'.1, wf_operand hb'.1, ha'.2, hb'.2, hf]
      · rw [ha'.2, hb'.2]; exact hf
      · simp [Expr.sig, ha'.2, hb'.2]
  cases p with
  | mul => exact mkMul_ty ha hb
  | dot i j => exact key (by simp)
  | cross => exact key (by simp)

/-! ### Linear operators, functions, powers -/

theorem newLin_eval (S : Sem K X) (env : Nat → X → K) {o : Op} {a r : Expr K} (h : newLin o a = some r) :
    eval S env r = S.lin o a.sig (eval S env a) := by
  have z : (fun _ => (0 : K)) = (0 : X → K) := rfl
  unfold newLin at h
  split at h
  · simp at h
  · rename_i hk; obtain rfl := Option.some.inj h; rw [S.passes _ _ hk]; rfl
  · rename_i hk
    split at h
    · obtain rfl := Option.some.inj h; rfl
    · rename_i ho
      obtain ⟨c, rfl⟩ := not_operand (by simpa using ho)
      obtain rfl := Option.some.inj h
      simp only [eval, Expr.sig]; rw [S.annihilates o c hk]; rfl
  · rename_i hk
    split at h
    · obtain rfl := Option.some.inj h; rfl
    · rename_i ho
      obtain ⟨c, rfl⟩ := not_operand (by simpa using ho)
      obtain rfl := Option.some.inj h
      simp only [eval, Expr.sig]; rw [S.keeps o c hk]
  · split at h
    · obtain rfl := Option.some.inj h; rfl
    · split at h
      · rename_i h0
        rw [eqNum_iff] at h0; subst h0
        obtain rfl := Option.some.inj h
        simp only [eval, z, map_zero]
      · simp at h
  · split at h
    · obtain rfl := Option.some.inj h; rfl
    · simp at h

theorem newLin_ty {G : Nat → Sig} {o : Op} {s : Sig} {a r : Expr K} (ha : Ty G s a)
    (ho : (o.kind = .keeps ∨ o.kind = .passes) → o.rule = .same) (h : newLin o a = some r) :
    Ty G (o.outSig s) r := by
  have opnd : a.isOperand = true → Ty G (o.outSig s) (.lin o a) := by
    intro h
    rcases ha with rfl | ⟨c, rfl, _⟩ | ⟨wa, sa⟩
    · simp [Expr.isOperand] at h
    · simp [Expr.isOperand] at h
    · exact Or.inr (Or.inr ⟨⟨wa, ho⟩, by simp [Expr.sig, sa]⟩)
  unfold newLin at h
  split at h
  · simp at h
  · rename_i hk; obtain rfl := Option.some.inj h
    have : o.outSig s = s := by simp [Op.outSig, ho (Or.inr hk)]
    rw [this]; exact ha
  · split at h <;> obtain rfl := Option.some.inj h
    · exact opnd (by assumption)
    · exact Ty.zero
  · rename_i hk
    split at h <;> obtain rfl := Option.some.inj h
    · exact opnd (by assumption)
    · have : o.outSig s = s := by simp [Op.outSig, ho (Or.inl hk)]
      rw [this]; exact ha
  · split at h
    · obtain rfl := Option.some.inj h; exact opnd (by assumption)
    · split at h
      · obtain rfl := Option.some.inj h; exact Ty.zero
      · simp at h
  · split at h
    · obtain rfl := Option.some.inj h; exact opnd (by assumption)
    · simp at h

omit [DecidableEq K] in
/-- A result that fits a signature can be used at that signature in a bilinear map. -/
theorem bil_ty (S : Sem K X) (env : Nat → X → K) {G : Nat → Sig} {p : PKind} {s t : Sig} {a b : Expr K}
    (ha : Ty G s a) (hb : Ty G t b) :
    S.bil p a.sig b.sig (eval S env a) (eval S env b) = S.bil p s t (eval S env a) (eval S env b) := by
  have z : (fun _ => (0 : K)) = (0 : X → K) := rfl
  rcases ha with rfl | ⟨c, rfl, rfl⟩ | ⟨_, rfl⟩
  · simp only [eval, z, map_zero, LinearMap.zero_apply]
  · rcases hb with rfl | ⟨d, rfl, rfl⟩ | ⟨_, rfl⟩
    · simp only [eval, z, map_zero]
    · rfl
    · rfl
  · rcases hb with rfl | ⟨d, rfl, rfl⟩ | ⟨_, rfl⟩
    · simp only [eval, z, map_zero]
    · rfl
    · rfl

omit [DecidableEq K] in
theorem lin_ty (S : Sem K X) (env : Nat → X → K) {G : Nat → Sig} {o : Op} {s : Sig} {a : Expr K}
    (ha : Ty G s a) : S.lin o a.sig (eval S env a) = S.lin o s (eval S env a) := by
  have z : (fun _ => (0 : K)) = (0 : X → K) := rfl
  rcases ha with rfl | ⟨c, rfl, rfl⟩ | ⟨_, rfl⟩
  · simp only [eval, z, map_zero]
  · rfl
  · rfl

theorem pySum_two (a b : Expr K) : pySum [a, b] = mkAdd a b := by
  simp [pySum, mkAdd_zero_left]

omit [DecidableEq K] in
theorem arg_ty {G : Nat → Sig} {e : Expr K} (h : WF G e ∨ ∃ c, e = .num c) : Ty G e.sig e := by
  rcases h with h | ⟨c, rfl⟩
  · exact Ty.of_wf h
  · exact Or.inr (Or.inl ⟨c, rfl, rfl⟩)

omit [Field K] [DecidableEq K] in
theorem wf_prod_args {G : Nat → Sig} {p : PKind} {a b : Expr K} (h : WF G (.prod p a b)) :
    (WF G a ∨ ∃ c, a = .num c) ∧ WF G b ∧ p.fits a.sig b.sig = true := by
  rcases wf_prod.1 h with ⟨c, rfl, rfl, hb⟩ | ⟨ha, hb, hf⟩
  · exact ⟨Or.inr ⟨c, rfl⟩, hb, rfl⟩
  · exact ⟨Or.inl ha, hb, hf⟩

end Dedalus.Symb
