import Verif.Buffers.Spec
import Verif.Dist.BlockLemmas
import Verif.Field.Props
import Mathlib.Tactic.Linarith

namespace Dedalus.Buffers

open Dedalus.Dist

theorem scatter_some (fill : Nat) (ls : List Bool) (vs : List Nat) (h : ls.count false = vs.length) :
    ∃ ms, scatterNonlocal fill ls vs = some ms ∧ ms.length = ls.length := by
  induction ls generalizing vs with
  | nil =>
    have : vs = [] := List.eq_nil_of_length_eq_zero h.symm
    subst this
    exact ⟨[], rfl, rfl⟩
  | cons b ls ih =>
    cases b with
    | true =>
      obtain ⟨ms, e, hl⟩ := ih vs (by simpa using h)
      exact ⟨fill :: ms, by simp [scatterNonlocal, e], by simp [hl]⟩
    | false =>
      cases vs with
      | nil => simp at h
      | cons v vs =>
        obtain ⟨ms, e, hl⟩ := ih vs (by simpa using h)
        exact ⟨v :: ms, by simp [scatterNonlocal, e], by simp [hl]⟩

theorem axes_some (n : Nat) (ls : List Bool) (ns cs ms : List Nat) (ks : List Bool) (h1 : ls.length = n)
    (h2 : ns.length = n) (h3 : cs.length = n) (h4 : ms.length = n) (h5 : ks.length = n) :
    ∃ as, axesOf ls ns cs ms ks = some as := by
  induction n generalizing ls ns cs ms ks with
  | zero =>
    rw [List.length_eq_zero_iff] at h1 h2 h3 h4 h5
    subst h1 h2 h3 h4 h5
    exact ⟨[], rfl⟩
  | succ n ih =>
    match ls, ns, cs, ms, ks, h1, h2, h3, h4, h5 with
    | l :: ls, x :: ns, c :: cs, m :: ms, k :: ks, h1, h2, h3, h4, h5 =>
      obtain ⟨as, e⟩ := ih ls ns cs ms ks (Nat.succ.inj h1) (Nat.succ.inj h2) (Nat.succ.inj h3)
        (Nat.succ.inj h4) (Nat.succ.inj h5)
      exact ⟨⟨l, x, c, m, k⟩ :: as, by simp [axesOf, e]⟩

theorem localShape_ok {D : Nat} {W : World} (h : Ok D W) {l : Lay} (hl : l ∈ W.lays) {s : List ℚ} (hs : s.length = D) :
    ∃ shape, localShape W l s = .ok shape := by
  obtain ⟨h1, h2, h3⟩ := h.lays l hl
  obtain ⟨ms, e1, l1⟩ := scatter_some 1 l.loc W.mesh h3
  obtain ⟨cs, e2, l2⟩ := scatter_some 0 l.loc W.coords (h3.trans h.coords.symm)
  obtain ⟨as, e3⟩ := axes_some D l.loc (globalShape W l s) (chunkShape W l) ms W.constant h1
    (by simp [globalShape, h2, hs, h.sizes]) (by simp [chunkShape, h2, h.chunks]) (l1.trans h1) h.constant
  refine ⟨(List.zipWith (localElements false) as cs).map List.length, ?_⟩
  simp only [localShape, layoutElements, e1, e2, e3, Option.map_some]

theorem mapM_ok {α β ε : Type} (f : α → Except ε β) (xs : List α) (h : ∀ x ∈ xs, ∃ y, f x = .ok y) :
    ∃ ys, xs.mapM f = .ok ys ∧ List.Forall₂ (fun x y => f x = .ok y) xs ys := by
  induction xs with
  | nil => exact ⟨[], rfl, .nil⟩
  | cons x xs ih =>
    obtain ⟨y, hy⟩ := h x List.mem_cons_self
    obtain ⟨ys, e, hf⟩ := ih fun z hz => h z (List.mem_cons_of_mem _ hz)
    refine ⟨y :: ys, ?_, .cons hy hf⟩
    rw [List.mapM_cons, hy, e]
    rfl

theorem bufferSize_ok {D : Nat} {W : World} (h : Ok D W) {s : List ℚ} (hs : s.length = D) :
    ∃ n, bufferSize W s = .ok n ∧ (∀ l ∈ W.lays, ∃ shape, localShape W l s = .ok shape ∧ shape.prod * W.itemsize ≤ n) ∧
      ∃ l ∈ W.lays, ∃ shape, localShape W l s = .ok shape ∧ shape.prod * W.itemsize = n := by
  have hb : ∀ l ∈ W.lays, ∃ n, layoutBytes W s l = .ok n := by
    intro l hl
    obtain ⟨shape, e⟩ := localShape_ok h hl hs
    exact ⟨shape.prod * W.itemsize, by simp only [layoutBytes, e]; rfl⟩
  obtain ⟨ys, e, hf⟩ := mapM_ok _ _ hb
  have key : ∀ l n, layoutBytes W s l = .ok n → ∃ shape, localShape W l s = .ok shape ∧ shape.prod * W.itemsize = n := by
    intro l n hn
    unfold layoutBytes at hn
    cases hsh : localShape W l s with
    | error x => rw [hsh] at hn; cases hn
    | ok shape => rw [hsh] at hn; cases hn; exact ⟨shape, rfl, rfl⟩
  have hne : ys ≠ [] := by
    intro e0
    rw [e0] at hf
    exact h.some_layout (List.eq_nil_of_length_eq_zero hf.length_eq)
  obtain ⟨m, hm⟩ : ∃ m, ys.max? = some m := by
    cases ys with
    | nil => exact absurd rfl hne
    | cons y ys => exact ⟨_, rfl⟩
  refine ⟨m, ?_, ?_, ?_⟩
  · simp only [bufferSize, e, bind, Except.bind, hm]
    rfl
  · intro l hl
    obtain ⟨i, hi, rfl⟩ := List.getElem_of_mem hl
    have hy := hf.get hi (by rw [← hf.length_eq]; exact hi)
    obtain ⟨shape, e1, e2⟩ := key _ _ hy
    exact ⟨shape, e1, e2 ▸ (List.max?_eq_some_iff.1 hm).2 _ (List.getElem_mem _)⟩
  · obtain ⟨i, hi, hmi⟩ := List.getElem_of_mem (List.max?_eq_some_iff.1 hm).1
    have hi' : i < W.lays.length := by rw [hf.length_eq]; exact hi
    have hy := hf.get hi' hi
    obtain ⟨shape, e1, e2⟩ := key _ _ hy
    refine ⟨_, List.getElem_mem hi', shape, e1, ?_⟩
    rw [e2]
    exact hmi

theorem createBuffer_eq (n : Nat) (h : 8 ∣ n) : createBuffer n = n := by
  unfold createBuffer
  split
  · next e => exact e.symm
  · exact Nat.mul_div_cancel' h

/-- The buffer holds the data of every layout at the current scales. -/
def Fit (D : Nat) (W : World) (f : State) : Prop :=
  f.layout < W.lays.length ∧ ∃ s n, f.scales = some s ∧ s.length = D ∧ bufferSize W s = .ok n ∧ W.ncomp * n ≤ f.bytes

theorem presetLayout_fit {D : Nat} {W : World} (h : Ok D W) {f : State} {s : List ℚ} {n : Nat} (hs : s.length = D)
    (hb : bufferSize W s = .ok n) (hn : W.ncomp * n ≤ f.bytes) {i : Nat} (hi : i < W.lays.length) :
    presetLayout W i s f = .ok { f with layout := i } := by
  obtain ⟨n', e, hall, -⟩ := bufferSize_ok h hs
  rw [hb] at e
  cases e
  obtain ⟨shape, e1, e2⟩ := hall W.lays[i] (List.getElem_mem hi)
  have hle : W.ncomp * shape.prod * W.itemsize ≤ f.bytes := by
    rw [Nat.mul_assoc]
    exact (Nat.mul_le_mul_left _ e2).trans hn
  simp only [presetLayout, List.getElem?_eq_getElem hi, e1, bind, Except.bind, if_pos hle]
  rfl

theorem dvd_bufferSize {D : Nat} {W : World} (h : Ok D W) (h8 : 8 ∣ W.itemsize) {s : List ℚ} (hs : s.length = D) {n : Nat}
    (hb : bufferSize W s = .ok n) : 8 ∣ W.ncomp * n := by
  obtain ⟨n', e, -, l, -, shape, -, e2⟩ := bufferSize_ok h hs
  rw [hb] at e
  cases e
  rw [← e2]
  exact Dvd.dvd.mul_left (Dvd.dvd.mul_left h8 _) _

theorem presetScales_fit {D : Nat} {W : World} (h : Ok D W) (h8 : 8 ∣ W.itemsize) {f : State}
    (hf : f.layout < W.lays.length) (hold : ∀ s, f.scales = some s → Fit D W f) {s : List ℚ} (hs : s.length = D) :
    ∃ f', presetScales W s f = .ok f' ∧ Fit D W f' ∧ f'.scales = some s ∧ f'.layout = f.layout := by
  unfold presetScales
  by_cases he : some s = f.scales
  · rw [if_pos he]
    exact ⟨f, rfl, hold s he.symm, he.symm, rfl⟩
  · rw [if_neg he]
    obtain ⟨n, e, -⟩ := bufferSize_ok h hs
    obtain ⟨d, e', -⟩ := bufferSize_ok h h.dealias
    simp only [e, e', bind, Except.bind]
    have h1 := createBuffer_eq _ (dvd_bufferSize h h8 hs e)
    have h2 := createBuffer_eq _ (dvd_bufferSize h h8 h.dealias e')
    split
    · next hle =>
      have hn : W.ncomp * n ≤ createBuffer (W.ncomp * d) := by
        rw [h2]; exact Nat.mul_le_mul_left _ hle
      rw [presetLayout_fit h hs e (f := { f with scales := some s, buffer := 0, bytes := createBuffer (W.ncomp * d) }) hn hf]
      exact ⟨_, rfl, ⟨hf, s, n, rfl, hs, e, hn⟩, rfl, rfl⟩
    · have hn : W.ncomp * n ≤ createBuffer (W.ncomp * n) := by rw [h1]
      rw [presetLayout_fit h hs e (f := { f with scales := some s, buffer := f.fresh, bytes := createBuffer (W.ncomp * n), fresh := f.fresh + 1 }) hn hf]
      exact ⟨_, rfl, ⟨hf, s, n, rfl, hs, e, hn⟩, rfl, rfl⟩

theorem run_fit {D : Nat} {W : World} (h : Ok D W) (h8 : 8 ∣ W.itemsize) (ops : List Op)
    (hl : ∀ o ∈ ops, Legal D W o) (f : State) (hf : Fit D W f) : ∃ f', run W ops f = .ok f' ∧ Fit D W f' := by
  induction ops generalizing f with
  | nil => exact ⟨f, rfl, hf⟩
  | cons o os ih =>
    have ho := hl o List.mem_cons_self
    have hstep : ∃ f1, run1 W o f = .ok f1 ∧ Fit D W f1 := by
      cases o with
      | scales s =>
        obtain ⟨f1, e, hfit, -⟩ := presetScales_fit h h8 hf.1 (fun _ _ => hf) (s := s) ho
        exact ⟨f1, e, hfit⟩
      | layout i =>
        obtain ⟨-, s, n, e1, e2, e3, e4⟩ := hf
        refine ⟨{ f with layout := i }, ?_, ho, s, n, e1, e2, e3, e4⟩
        simp only [run1, e1]
        rw [presetLayout_fit h e2 e3 e4 ho, e1]
    obtain ⟨f1, e, hfit⟩ := hstep
    obtain ⟨f', e', hfit'⟩ := ih (fun o ho => hl o (List.mem_cons_of_mem _ ho)) f1 hfit
    refine ⟨f', ?_, hfit'⟩
    show (run1 W o f).bind _ = _
    rw [e]
    exact e'

/-! ### One process -/

theorem prod_mono {xs ys : List Nat} (h : List.Forall₂ (· ≤ ·) xs ys) : xs.prod ≤ ys.prod := by
  induction h with
  | nil => exact Nat.le_refl _
  | cons hxy _ ih => rw [List.prod_cons, List.prod_cons]; exact Nat.mul_le_mul hxy ih

theorem gridSize_mono {s d : ℚ} (h : s ≤ d) (n : Nat) : gridSize s n ≤ gridSize d n := by
  unfold gridSize
  split
  · exact Nat.le_refl _
  · have : s * n ≤ d * n := mul_le_mul_of_nonneg_right h (Nat.cast_nonneg n)
    have := Int.ceil_mono this
    omega

theorem shape_mono (gs : List Bool) (s d : List ℚ) (ns : List Nat) (h : Below s d) :
    List.Forall₂ (· ≤ ·) (List.zipWith (fun (gs : Bool × ℚ) n => if gs.1 then gridSize gs.2 n else n) (gs.zip s) ns)
      (List.zipWith (fun (gs : Bool × ℚ) n => if gs.1 then gridSize gs.2 n else n) (gs.zip d) ns) := by
  induction h generalizing gs ns with
  | nil => simp
  | cons hxy _ ih =>
    cases gs with
    | nil => simp
    | cons g gs =>
      cases ns with
      | nil => simp
      | cons n ns =>
        simp only [List.zip_cons_cons, List.zipWith_cons_cons]
        refine .cons ?_ (ih gs ns)
        cases g with
        | false => exact Nat.le_refl _
        | true => exact gridSize_mono hxy n

theorem localSize_mono (l : Bool) (hl : l = true) (n n' c m : Nat) (k : Bool) (r : Nat) (h : n ≤ n') :
    (localElements false ⟨l, n, c, m, k⟩ r).length ≤ (localElements false ⟨l, n', c, m, k⟩ r).length := by
  subst hl
  rw [localElements_eq, localElements_eq, List.length_range', List.length_range']
  apply Nat.mul_le_mul_left
  simp only [startChunk, stopChunk, if_true, Nat.sub_zero]
  unfold ceilDiv
  exact Nat.div_le_div_right (by omega)

theorem elements_mono (ls : List Bool) (hl : ∀ l ∈ ls, l = true) (ns ns' cs ms : List Nat) (ks : List Bool) (co : List Nat)
    (h : List.Forall₂ (· ≤ ·) ns ns') (as as' : List Axis)
    (e : axesOf ls ns cs ms ks = some as) (e' : axesOf ls ns' cs ms ks = some as') :
    List.Forall₂ (· ≤ ·) ((List.zipWith (localElements false) as co).map List.length)
      ((List.zipWith (localElements false) as' co).map List.length) := by
  induction h generalizing ls cs ms ks co as as' with
  | nil =>
    cases ls <;> cases cs <;> cases ms <;> cases ks <;> simp_all [axesOf]
  | @cons n n' ns ns' hn hns ih =>
    match ls, cs, ms, ks, e, e', hl with
    | l :: ls, c :: cs, m :: ms, k :: ks, e, e', hl =>
      simp only [axesOf, Option.map_eq_some_iff] at e e'
      obtain ⟨bs, eb, rfl⟩ := e
      obtain ⟨bs', eb', rfl⟩ := e'
      cases co with
      | nil => simp
      | cons r co =>
        simp only [List.zipWith_cons_cons, List.map_cons]
        exact .cons (localSize_mono l (hl l List.mem_cons_self) n n' c m k r hn)
          (ih ls (fun x hx => hl x (List.mem_cons_of_mem _ hx)) cs ms ks co bs bs' eb eb')

theorem localShape_mono {D : Nat} {W : World} (h : Ok D W) (hm : W.mesh = []) {l : Lay} (hl : l ∈ W.lays) {s : List ℚ}
    (hb : Below s W.dealias) {a b : List Nat} (ha : localShape W l s = .ok a) (hb' : localShape W l W.dealias = .ok b) :
    List.Forall₂ (· ≤ ·) a b := by
  have hloc : ∀ x ∈ l.loc, x = true := by
    have h0 := (h.lays l hl).2.2
    rw [hm, List.length_nil, List.count_eq_zero] at h0
    intro x hx
    cases x with
    | true => rfl
    | false => exact absurd hx h0
  unfold localShape layoutElements at ha hb'
  cases e1 : scatterNonlocal 1 l.loc W.mesh with
  | none => rw [e1] at ha; cases ha
  | some ms =>
    cases e2 : scatterNonlocal 0 l.loc W.coords with
    | none => rw [e1, e2] at ha; cases ha
    | some co =>
      rw [e1, e2] at ha hb'
      simp only at ha hb'
      cases e3 : axesOf l.loc (globalShape W l s) (chunkShape W l) ms W.constant with
      | none => rw [e3] at ha; cases ha
      | some as =>
        cases e4 : axesOf l.loc (globalShape W l W.dealias) (chunkShape W l) ms W.constant with
        | none => rw [e4] at hb'; cases hb'
        | some as' =>
          rw [e3] at ha
          rw [e4] at hb'
          cases ha
          cases hb'
          exact elements_mono l.loc hloc _ _ _ _ _ co (shape_mono l.grid s W.dealias W.sizes hb) as as' e3 e4

theorem bufferSize_mono {D : Nat} {W : World} (h : Ok D W) (hm : W.mesh = []) {s : List ℚ} (hs : s.length = D)
    (hb : Below s W.dealias) {n d : Nat} (hn : bufferSize W s = .ok n) (hd : bufferSize W W.dealias = .ok d) : n ≤ d := by
  obtain ⟨n', e, -, l, hl, shape, e1, e2⟩ := bufferSize_ok h hs
  rw [hn] at e
  cases e
  obtain ⟨d', e', hall, -⟩ := bufferSize_ok h h.dealias
  rw [hd] at e'
  cases e'
  obtain ⟨shape', e1', e2'⟩ := hall l hl
  rw [← e2]
  exact (Nat.mul_le_mul_right _ (prod_mono (localShape_mono h hm hl hb e1 e1'))).trans e2'

end Dedalus.Buffers
