import Verif.Eval.Pass

/-!
# The live part of a task, in two runs
-/

namespace Dedalus.Eval

variable {F : Type}

mutual

/-- Two states agree, up to `R`, on the part of the expression that is still to be evaluated: the same
operators are done, and the fields that will be read are related. -/
def Live2 (R : F → F → Prop) (id id' : Nat) (S A : St F) : Expr → Prop
  | .leaf f => R (S.fs (.leaf f)) (A.fs (.leaf f))
  | .node n ts =>
    (Done id S n ↔ Done id' A n) ∧ (Done id S n → R (S.fs (.out n)) (A.fs (.out n))) ∧
      (¬ Done id S n → Live2All R id id' S A ts)

def Live2All (R : F → F → Prop) (id id' : Nat) (S A : St F) : List Expr → Prop
  | [] => True
  | t :: ts => Live2 R id id' S A t ∧ Live2All R id id' S A ts

end

mutual

theorem Live2.imp {R R' : F → F → Prop} (h : ∀ x y, R x y → R' x y) {id id' : Nat} {S A : St F} :
    ∀ t, Live2 R id id' S A t → Live2 R' id id' S A t
  | .leaf f, hl => by rw [Live2] at hl ⊢; exact h _ _ hl
  | .node n ts, hl => by
    rw [Live2] at hl ⊢
    exact ⟨hl.1, fun hd => h _ _ (hl.2.1 hd), fun hd => Live2All.imp h ts (hl.2.2 hd)⟩

theorem Live2All.imp {R R' : F → F → Prop} (h : ∀ x y, R x y → R' x y) {id id' : Nat} {S A : St F} :
    ∀ ts, Live2All R id id' S A ts → Live2All R' id id' S A ts
  | [], _ => by rw [Live2All]; trivial
  | t :: ts, hl => by
    rw [Live2All] at hl ⊢
    exact ⟨Live2.imp h t hl.1, Live2All.imp h ts hl.2⟩

end

/-- related before a pass -/
def RPre (O : Ops F) (P : F → Prop) (x y : F) : Prop := O.resc x = O.resc y ∧ P (O.resc x)

/-- related after a pass -/
def RPost (O : Ops F) (P : F → Prop) (x y : F) : Prop := x = y ∧ O.resc x = x ∧ P x

theorem RPost.pre {O : Ops F} {P : F → Prop} {x y : F} (h : RPost O P x y) : RPre O P x y := by
  obtain ⟨rfl, h1, h2⟩ := h
  exact ⟨rfl, by rw [h1]; exact h2⟩

mutual

theorem val_same {O : Ops F} {id id' : Nat} {kids : Nat → List Expr} {S A : St F} {P : F → Prop}
    (hS : Inv O id kids S) (hA : Inv O id' kids A) :
    ∀ t, Live2 (RPre O P) id id' S A t → val O id S t = val O id' A t
  | .leaf f, h => by
    rw [Live2] at h
    rw [val, val, h.1]
  | .node n ts, h => by
    rw [Live2] at h
    rw [val, val]
    by_cases hd : Done id S n
    · have hd' := h.1.1 hd
      have := (h.2.1 hd).1
      rw [if_pos hd, if_pos hd', ← hS.fixed n hd, ← hA.fixed n hd', this]
    · have hd' : ¬ Done id' A n := fun e => hd (h.1.2 e)
      rw [if_neg hd, if_neg hd', vals_same hS hA ts (h.2.2 hd)]

theorem vals_same {O : Ops F} {id id' : Nat} {kids : Nat → List Expr} {S A : St F} {P : F → Prop}
    (hS : Inv O id kids S) (hA : Inv O id' kids A) :
    ∀ ts, Live2All (RPre O P) id id' S A ts → vals O id S ts = vals O id' A ts
  | [], _ => by rw [vals, vals]
  | t :: ts, h => by
    rw [Live2All] at h
    rw [vals, vals, val_same hS hA t h.1, vals_same hS hA ts h.2]

end

mutual

theorem val_prop {O : Ops F} {id id' : Nat} {kids : Nat → List Expr} {S A : St F} {P : F → Prop}
    (hP : ∀ n vs, vs ≠ [] → (∀ v ∈ vs, P v) → O.chk n vs = true → P (O.run n vs))
    (hS : Inv O id kids S) :
    ∀ t, Shares kids t → Live2 (RPre O P) id id' S A t → ∀ v, val O id S t = some v → P v
  | .leaf f, _, h, v, hv => by
    rw [Live2] at h
    rw [val] at hv
    cases hv
    exact h.2
  | .node n ts, hs, h, v, hv => by
    rw [Live2] at h
    rw [Shares] at hs
    rw [val] at hv
    by_cases hd : Done id S n
    · rw [if_pos hd] at hv
      cases hv
      have := (h.2.1 hd).2
      rwa [hS.fixed n hd] at this
    · rw [if_neg hd] at hv
      cases hvs : vals O id S ts with
      | none => rw [hvs] at hv; cases hv
      | some vs =>
        rw [hvs] at hv
        simp only at hv
        have hall := vals_prop hP hS ts hs.2.2 (h.2.2 hd) vs hvs
        split at hv
        · cases hv
          refine hP n vs ?_ hall.1 (by assumption)
          intro e
          have := hall.2
          rw [e] at this
          exact hs.2.1 (List.length_eq_zero_iff.1 this)
        · cases hv

theorem vals_prop {O : Ops F} {id id' : Nat} {kids : Nat → List Expr} {S A : St F} {P : F → Prop}
    (hP : ∀ n vs, vs ≠ [] → (∀ v ∈ vs, P v) → O.chk n vs = true → P (O.run n vs))
    (hS : Inv O id kids S) :
    ∀ ts, SharesAll kids ts → Live2All (RPre O P) id id' S A ts → ∀ vs, vals O id S ts = some vs →
      (∀ v ∈ vs, P v) ∧ ts.length = vs.length
  | [], _, _, vs, hv => by
    rw [vals] at hv
    cases hv
    exact ⟨fun v h => absurd h (by simp), rfl⟩
  | t :: ts, hs, h, vs, hv => by
    rw [SharesAll] at hs
    rw [Live2All] at h
    rw [vals] at hv
    cases h1 : val O id S t with
    | none => rw [h1] at hv; cases hv
    | some v =>
      cases h2 : vals O id S ts with
      | none => rw [h1, h2] at hv; cases hv
      | some ws =>
        rw [h1, h2] at hv
        cases hv
        have := vals_prop hP hS ts hs.2 h.2 ws h2
        refine ⟨fun u hu => ?_, by simp [this.2]⟩
        rcases List.mem_cons.1 hu with rfl | hu
        · exact val_prop hP hS t hs.1 h.1 _ h1
        · exact this.1 u hu

end

mutual

/-- A pass keeps two runs together. -/
theorem pass_live {O : Ops F} {id id' : Nat} {kids : Nat → List Expr} {S A S' A' : St F} {P : F → Prop}
    (hP : ∀ n vs, vs ≠ [] → (∀ v ∈ vs, P v) → O.chk n vs = true → P (O.run n vs))
    (hS : Inv O id kids S) (hA : Inv O id' kids A) (hMS : Mid O id kids S S') (hMA : Mid O id' kids A A') :
    ∀ t, Shares kids t → Live2 (RPre O P) id id' S A t → Post O id S S' t → Post O id' A A' t →
      Live2 (RPost O P) id id' S' A' t
  | .leaf f, _, h, p, q => by
    rw [Live2] at h ⊢
    rw [Post] at p q
    have e : S'.fs (.leaf f) = O.resc (S.fs (.leaf f)) := by rw [← hMS.leaf f, p]
    have e' : A'.fs (.leaf f) = O.resc (A.fs (.leaf f)) := by rw [← hMA.leaf f, q]
    exact ⟨by rw [e, e', h.1], p, by rw [e]; exact h.2⟩
  | .node n ts, hs, h, p, q => by
    have hsame := val_same hS hA _ h
    have hprop := val_prop hP hS _ hs h
    rw [Live2] at h ⊢
    rw [Shares] at hs
    rw [Post] at p q
    by_cases hd : Done id S' n
    · have hv := hMS.val hs.1 hd
      have hd' : Done id' A' n := by
        rcases q with q | ⟨q, _⟩
        · exact q
        · rw [← hsame, hv] at q; cases q
      have hv' := hMA.val hs.1 hd'
      refine ⟨⟨fun _ => hd', fun _ => hd⟩, fun _ => ?_, fun hn => absurd hd hn⟩
      refine ⟨?_, hMS.inv.fixed n hd, hprop _ hv⟩
      rw [hsame, hv'] at hv
      exact (Option.some.inj hv).symm
    · rcases p with p | ⟨hv, p⟩
      · exact absurd p hd
      · have hv' := hv
        rw [hsame] at hv'
        have hd' : ¬ Done id' A' n := hMA.not_done hs.1 hv'
        rcases q with q | ⟨_, q⟩
        · exact absurd q hd'
        · refine ⟨⟨fun e => absurd e hd, fun e => absurd e hd'⟩, fun e => absurd e hd, fun _ => ?_⟩
          have hdS : ¬ Done id S n := fun e => hd (hMS.keep n e).1
          exact pass_liveArgs hP hS hA hMS hMA n ts 0 hs.2.2 (h.2.2 hdS) p q

theorem pass_liveArgs {O : Ops F} {id id' : Nat} {kids : Nat → List Expr} {S A S' A' : St F} {P : F → Prop}
    (hP : ∀ n vs, vs ≠ [] → (∀ v ∈ vs, P v) → O.chk n vs = true → P (O.run n vs))
    (hS : Inv O id kids S) (hA : Inv O id' kids A) (hMS : Mid O id kids S S') (hMA : Mid O id' kids A A')
    (n : Nat) :
    ∀ ts i, SharesAll kids ts → Live2All (RPre O P) id id' S A ts → PostArgs O id S S' n i ts →
      PostArgs O id' A A' n i ts → Live2All (RPost O P) id id' S' A' ts
  | [], _, _, _, _, _ => by rw [Live2All]; trivial
  | t :: ts, i, hs, h, p, q => by
    rw [Live2All] at h ⊢
    rw [SharesAll] at hs
    rw [PostArgs] at p q
    exact ⟨pass_live hP hS hA hMS hMA t hs.1 h.1 p.1 q.1,
      pass_liveArgs hP hS hA hMS hMA n ts (i + 1) hs.2 h.2 p.2.2 q.2.2⟩

end

mutual

/-- Evaluated arguments of pending operators have been substituted. -/
def Subd (id : Nat) (S : St F) : Expr → Prop
  | .leaf _ => True
  | .node n ts => ¬ Done id S n → SubdArgs id S n 0 ts

def SubdArgs (id : Nat) (S : St F) (n : Nat) : Nat → List Expr → Prop
  | _, [] => True
  | i, t :: ts => Subd id S t ∧ (∀ m us, t = .node m us → Done id S m → S.sub n i = true) ∧
      SubdArgs id S n (i + 1) ts

end

mutual

theorem Post.subd {O : Ops F} {id : Nat} {kids : Nat → List Expr} {S S' : St F} (hM : Mid O id kids S S') :
    ∀ t, Shares kids t → Post O id S S' t → Subd id S' t
  | .leaf _, _, _ => by rw [Subd]; trivial
  | .node n ts, hs, p => by
    rw [Subd]
    rw [Shares] at hs
    rw [Post] at p
    intro hd
    rcases p with p | ⟨_, p⟩
    · exact absurd p hd
    · exact PostArgs.subd hM n ts 0 hs.2.2 p

theorem PostArgs.subd {O : Ops F} {id : Nat} {kids : Nat → List Expr} {S S' : St F}
    (hM : Mid O id kids S S') (n : Nat) :
    ∀ ts i, SharesAll kids ts → PostArgs O id S S' n i ts → SubdArgs id S' n i ts
  | [], _, _, _ => by rw [SubdArgs]; trivial
  | t :: ts, i, hs, p => by
    rw [SubdArgs]
    rw [SharesAll] at hs
    rw [PostArgs] at p
    refine ⟨Post.subd hM t hs.1 p.1, ?_, PostArgs.subd hM n ts (i + 1) hs.2 p.2.2⟩
    intro m us e hd
    subst e
    rw [Shares] at hs
    rcases p.2.1 m us rfl with h | h
    · exact absurd hd (hM.not_done hs.1.1 h)
    · exact h.2

end

/-- The move keeps what it should keep about outputs. -/
theorem move_inv {O : Ops F} {id : Nat} {kids : Nat → List Expr} {S : St F} (h : Inv O id kids S)
    {g : F → F} (hg : ∀ x, O.resc x = x → O.resc (g x) = g x) (rs : List Ref) :
    Inv O id kids (S.move g rs) := by
  refine ⟨h.sub_done, fun n hd => ?_, h.reset, h.closed⟩
  simp only [St.move]
  split
  · exact hg _ (h.fixed n hd)
  · exact h.fixed n hd

mutual

/-- Moving all fields of a pending task, in two runs. -/
theorem move_live {O : Ops F} {id id' : Nat} {kids : Nat → List Expr} {S A : St F}
    {R R' : F → F → Prop} {g g' : F → F} (hR : ∀ x y, R x y → R' (g x) (g' y)) {rs rs' : List Ref}
    (hS : Inv O id kids S) (hA : Inv O id' kids A) :
    ∀ n ts, Shares kids (.node n ts) → ¬ Done id S n → Live2 R id id' S A (.node n ts) →
      Subd id S (.node n ts) → Subd id' A (.node n ts) →
      (∀ r ∈ atoms S (.node n ts), r ∈ rs) → (∀ r ∈ atoms A (.node n ts), r ∈ rs') →
      Live2 R' id id' (S.move g rs) (A.move g' rs') (.node n ts)
  | n, ts, hs, hd, h, hsu, hsu', ha, ha' => by
    rw [Live2] at h ⊢
    rw [Shares] at hs
    rw [Subd] at hsu hsu'
    rw [atoms] at ha ha'
    have hd' : ¬ Done id' A n := fun e => hd (h.1.2 e)
    refine ⟨⟨fun e => absurd e hd, fun e => absurd e hd'⟩, fun e => absurd e hd, fun _ => ?_⟩
    exact move_liveArgs hR hS hA n hs.1 hd ts 0 (by simp) hs.2.2 (h.2.2 hd) (hsu hd) (hsu' hd') ha ha'

theorem move_liveArgs {O : Ops F} {id id' : Nat} {kids : Nat → List Expr} {S A : St F}
    {R R' : F → F → Prop} {g g' : F → F} (hR : ∀ x y, R x y → R' (g x) (g' y)) {rs rs' : List Ref}
    (hS : Inv O id kids S) (hA : Inv O id' kids A) (n : Nat) {all : List Expr} (hk : kids n = all)
    (hd : ¬ Done id S n) :
    ∀ ts i, (∀ j, ts[j]? = all[i + j]?) → SharesAll kids ts → Live2All R id id' S A ts →
      SubdArgs id S n i ts → SubdArgs id' A n i ts →
      (∀ r ∈ atomsArgs S n i ts, r ∈ rs) → (∀ r ∈ atomsArgs A n i ts, r ∈ rs') →
      Live2All R' id id' (S.move g rs) (A.move g' rs') ts
  | [], _, _, _, _, _, _, _, _ => by rw [Live2All]; trivial
  | t :: ts, i, hj, hs, h, hsu, hsu', ha, ha' => by
    have hj' : ∀ j, ts[j]? = all[(i + 1) + j]? := by
      intro j
      have := hj (j + 1)
      rw [List.getElem?_cons_succ] at this
      rw [this]; congr 1; omega
    have h0 : (kids n)[i]? = some t := by
      have := hj 0
      rw [List.getElem?_cons_zero] at this
      rw [hk]; simpa using this.symm
    rw [Live2All] at h ⊢
    rw [SharesAll] at hs
    rw [SubdArgs] at hsu hsu'
    cases t with
    | leaf f =>
      rw [atomsArgs] at ha ha'
      simp only [List.mem_cons, forall_eq_or_imp] at ha ha'
      refine ⟨?_, move_liveArgs hR hS hA n hk hd ts (i + 1) hj' hs.2 h.2 hsu.2.2 hsu'.2.2 ha.2 ha'.2⟩
      have h1 := h.1
      rw [Live2] at h1 ⊢
      simp only [St.move, if_pos ha.1, if_pos ha'.1]
      exact hR _ _ h1
    | node m us =>
      rw [atomsArgs] at ha ha'
      simp only [List.mem_append] at ha ha'
      have ih := move_liveArgs hR hS hA n hk hd ts (i + 1) hj' hs.2 h.2 hsu.2.2 hsu'.2.2
        (fun r hr => ha r (Or.inr hr)) (fun r hr => ha' r (Or.inr hr))
      refine ⟨?_, ih⟩
      have h1 := h.1
      by_cases hdm : Done id S m
      · have hdm' : Done id' A m := by rw [Live2] at h1; exact h1.1.1 hdm
        have hs1 := hsu.2.1 m us rfl hdm
        have hs2 := hsu'.2.1 m us rfl hdm'
        rw [Live2] at h1 ⊢
        refine ⟨⟨fun _ => hdm', fun _ => hdm⟩, fun _ => ?_, fun e => absurd hdm e⟩
        have m1 := ha (.out m) (Or.inl (by simp [hs1]))
        have m2 := ha' (.out m) (Or.inl (by simp [hs2]))
        simp only [St.move, if_pos m1, if_pos m2]
        exact hR _ _ (h1.2.1 hdm)
      · have hdm' : ¬ Done id' A m := by rw [Live2] at h1; exact fun e => hdm (h1.1.2 e)
        have hs1 : ¬ S.sub n i = true := fun e => hdm (hS.sub_done n i m us e h0)
        have hs2 : ¬ A.sub n i = true := fun e => hdm' (hA.sub_done n i m us e h0)
        refine move_live hR hS hA m us hs.1 hdm h1 hsu.1 hsu'.1 (fun r hr => ha r (Or.inl ?_))
          (fun r hr => ha' r (Or.inl ?_))
        · rw [if_neg hs1]; exact hr
        · rw [if_neg hs2]; exact hr

end

mutual

/-- The fields of a pending task are live. -/
theorem atoms_prop {O : Ops F} {id : Nat} {kids : Nat → List Expr} {S : St F} {R : F → F → Prop}
    (hS : Inv O id kids S) :
    ∀ n ts, Shares kids (.node n ts) → ¬ Done id S n → Live2 R id id S S (.node n ts) →
      Subd id S (.node n ts) → ∀ r ∈ atoms S (.node n ts), R (S.fs r) (S.fs r)
  | n, ts, hs, hd, h, hsu, r, hr => by
    rw [Live2] at h
    rw [Shares] at hs
    rw [Subd] at hsu
    rw [atoms] at hr
    exact atomsArgs_prop hS n hs.1 ts 0 (by simp) hs.2.2 (h.2.2 hd) (hsu hd) r hr

theorem atomsArgs_prop {O : Ops F} {id : Nat} {kids : Nat → List Expr} {S : St F} {R : F → F → Prop}
    (hS : Inv O id kids S) (n : Nat) {all : List Expr} (hk : kids n = all) :
    ∀ ts i, (∀ j, ts[j]? = all[i + j]?) → SharesAll kids ts → Live2All R id id S S ts →
      SubdArgs id S n i ts → ∀ r ∈ atomsArgs S n i ts, R (S.fs r) (S.fs r)
  | [], _, _, _, _, _, r, hr => by rw [atomsArgs] at hr; cases hr
  | t :: ts, i, hj, hs, h, hsu, r, hr => by
    have hj' : ∀ j, ts[j]? = all[(i + 1) + j]? := by
      intro j
      have := hj (j + 1)
      rw [List.getElem?_cons_succ] at this
      rw [this]; congr 1; omega
    have h0 : (kids n)[i]? = some t := by
      have := hj 0
      rw [List.getElem?_cons_zero] at this
      rw [hk]; simpa using this.symm
    rw [Live2All] at h
    rw [SharesAll] at hs
    rw [SubdArgs] at hsu
    cases t with
    | leaf f =>
      rw [atomsArgs] at hr
      rcases List.mem_cons.1 hr with rfl | hr
      · have h1 := h.1
        rw [Live2] at h1; exact h1
      · exact atomsArgs_prop hS n hk ts (i + 1) hj' hs.2 h.2 hsu.2.2 r hr
    | node m us =>
      rw [atomsArgs] at hr
      rcases List.mem_append.1 hr with hr | hr
      · by_cases hsub : S.sub n i = true
        · rw [if_pos hsub] at hr
          have hdm := hS.sub_done n i m us hsub h0
          have h1 := h.1
          rw [Live2] at h1
          rw [List.mem_singleton.1 hr]
          exact h1.2.1 hdm
        · rw [if_neg hsub] at hr
          have hdm : ¬ Done id S m := fun e => hsub (hsu.2.1 m us rfl e)
          exact atoms_prop hS m us hs.1 hdm h.1 hsu.1 r hr
      · exact atomsArgs_prop hS n hk ts (i + 1) hj' hs.2 h.2 hsu.2.2 r hr

end

end Dedalus.Eval
