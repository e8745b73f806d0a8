import Verif.Buffers.Lemmas

/-!
# Memory of fields (C112)

`create` and `run` are what field operations do to the memory of a field on one
process.  `Needs` are the bytes its data take in a layout.
-/

namespace Dedalus.Buffers

open Dedalus.Dist

theorem ones_length {D : Nat} {W : World} (h : Ok D W) : (W.sizes.map fun _ => (1 : ℚ)).length = D := by
  rw [List.length_map, h.sizes]

theorem create_fit {D : Nat} {W : World} (h : Ok D W) (h8 : 8 ∣ W.itemsize) :
    ∃ f, create W = .ok f ∧ Fit D W f := by
  have hpos : 0 < W.lays.length := List.length_pos_iff.2 h.some_layout
  obtain ⟨f, e, hf, -⟩ := presetScales_fit h h8 (f := ⟨none, 0, 0, 0, 1⟩) hpos (fun s hs => (nomatch hs)) (ones_length h)
  exact ⟨f, e, hf⟩

/-- **C112 (partial).** Numbers of a multiple of eight bytes: fields can be
created and moved to any layout and any scales in any order, on any process,
and their buffer always holds their data in every layout at the current
scales.  Missing: other number types (`small_numbers_refuted`). -/
theorem buffer_holds_partial (D : Nat) (W : World) (h : Ok D W) (h8 : 8 ∣ W.itemsize) (ops : List Op)
    (hl : ∀ o ∈ ops, Legal D W o) :
    ∃ f0 f s, create W = .ok f0 ∧ run W ops f0 = .ok f ∧ f.scales = some s ∧
      ∀ i, i < W.lays.length → ∃ n, Needs W s i n ∧ n ≤ f.bytes := by
  obtain ⟨f0, e0, hf0⟩ := create_fit h h8
  obtain ⟨f, e, -, s, n, e1, e2, e3, e4⟩ := run_fit h h8 ops hl f0 hf0
  refine ⟨f0, f, s, e0, e, e1, fun i hi => ?_⟩
  obtain ⟨n', e', hall, -⟩ := bufferSize_ok h e2
  rw [e3] at e'
  cases e'
  obtain ⟨shape, q1, q2⟩ := hall _ (List.getElem_mem hi)
  exact ⟨_, ⟨_, shape, List.getElem?_eq_getElem hi, q1, rfl⟩, (Nat.mul_le_mul_left _ q2).trans e4⟩

/-- **C112 (partial).** On one process a field whose scales never exceed the
dealias scales stays in one buffer for its whole life.  Missing: several
processes (`one_buffer_refuted`). -/
theorem one_buffer_partial (D : Nat) (W : World) (h : Ok D W) (h8 : 8 ∣ W.itemsize) (hm : W.mesh = [])
    (h1 : Below (W.sizes.map fun _ => 1) W.dealias) (ops : List Op) (hl : ∀ o ∈ ops, Legal D W o)
    (hb : ∀ s, .scales s ∈ ops → Below s W.dealias) :
    ∃ f0 f, create W = .ok f0 ∧ run W ops f0 = .ok f ∧ f0.buffer = 0 ∧ f.buffer = 0 := by
  have step : ∀ (s : List ℚ) (f f' : State), s.length = D → Below s W.dealias → (f.scales = none ∨ f.buffer = 0) →
      presetScales W s f = .ok f' → f'.buffer = 0 := by
    intro s f f' hs hbs hf e
    unfold presetScales at e
    by_cases he : some s = f.scales
    · rw [if_pos he] at e
      cases e
      rcases hf with hf | hf
      · rw [hf] at he; cases he
      · exact hf
    · rw [if_neg he] at e
      obtain ⟨n, e1, -⟩ := bufferSize_ok h hs
      obtain ⟨d, e2, -⟩ := bufferSize_ok h h.dealias
      simp only [e1, e2, bind, Except.bind, if_pos (bufferSize_mono h hm hs hbs e1 e2)] at e
      unfold presetLayout at e
      cases hlay : W.lays[f.layout]? with
      | none => rw [hlay] at e; cases e
      | some l =>
        obtain ⟨shape, e3⟩ := localShape_ok h (List.mem_of_getElem? hlay) hs
        rw [hlay] at e
        simp only [e3, bind, Except.bind] at e
        split at e
        · cases e; rfl
        · cases e
  obtain ⟨f0, e0, hf0⟩ := create_fit h h8
  have hz : f0.buffer = 0 := step _ _ f0 (ones_length h) h1 (Or.inl rfl) e0
  have key : ∀ (ops : List Op), (∀ o ∈ ops, Legal D W o) → (∀ s, .scales s ∈ ops → Below s W.dealias) →
      ∀ f, Fit D W f → f.buffer = 0 → ∃ f', run W ops f = .ok f' ∧ f'.buffer = 0 := by
    intro ops
    induction ops with
    | nil => intro _ _ f _ hf; exact ⟨f, rfl, hf⟩
    | cons o os ih =>
      intro hl hb f hfit hf
      obtain ⟨f1, e1, hfit1⟩ := run_fit h h8 [o] (fun x hx => hl x (by
        rw [List.mem_singleton] at hx; rw [hx]; exact List.mem_cons_self)) f hfit
      have e1' : run1 W o f = .ok f1 := by
        cases hr : run1 W o f with
        | error x => simp only [run, hr, bind, Except.bind] at e1; cases e1
        | ok y => simp only [run, hr, bind, Except.bind] at e1; exact congrArg _ (by cases e1; rfl)
      have hf1 : f1.buffer = 0 := by
        cases o with
        | scales s => exact step s f f1 (hl _ List.mem_cons_self) (hb s List.mem_cons_self) (Or.inr hf) e1'
        | layout i =>
          obtain ⟨-, s, n, q1, q2, q3, q4⟩ := hfit
          simp only [run1, q1] at e1'
          rw [presetLayout_fit h q2 q3 q4 (hl _ List.mem_cons_self)] at e1'
          cases e1'
          exact hf
      obtain ⟨f', e', hf'⟩ := ih (fun o ho => hl o (List.mem_cons_of_mem _ ho))
        (fun s hs => hb s (List.mem_cons_of_mem _ hs)) f1 hfit1 hf1
      refine ⟨f', ?_, hf'⟩
      show (run1 W o f).bind _ = _
      rw [e1']
      exact e'
  obtain ⟨f, e, hf⟩ := key ops hl hb f0 hf0 hz
  exact ⟨f0, f, e0, e, hz, hf⟩

/-- Scales that need no more memory than the dealias scales share its buffer;
otherwise a buffer of its own is allocated at every change of scales. -/
theorem buffer_choice (D : Nat) (W : World) (h : Ok D W) (h8 : 8 ∣ W.itemsize) (f : State) (hf : f.layout < W.lays.length)
    (s : List ℚ) (hs : s.length = D) (hnew : f.scales ≠ some s) :
    ∃ f', presetScales W s f = .ok f' ∧
      (f'.buffer = 0 ∧ fits W s = true ∨ f'.buffer = f.fresh ∧ f'.fresh = f.fresh + 1 ∧ fits W s = false) := by
  obtain ⟨n, e, -⟩ := bufferSize_ok h hs
  obtain ⟨d, e', -⟩ := bufferSize_ok h h.dealias
  have h1 := createBuffer_eq _ (dvd_bufferSize h h8 hs e)
  have h2 := createBuffer_eq _ (dvd_bufferSize h h8 h.dealias e')
  by_cases hle : n ≤ d
  · refine ⟨{ f with scales := some s, buffer := 0, bytes := createBuffer (W.ncomp * d) }, ?_, Or.inl ⟨rfl, ?_⟩⟩
    · unfold presetScales
      rw [if_neg (fun x => hnew x.symm)]
      simp only [e, e', bind, Except.bind, if_pos hle]
      exact presetLayout_fit h hs e (by rw [h2]; exact Nat.mul_le_mul_left _ hle) hf
    · simp only [fits, e, e', decide_eq_true hle]
  · refine ⟨{ f with scales := some s, buffer := f.fresh, bytes := createBuffer (W.ncomp * n), fresh := f.fresh + 1 }, ?_,
      Or.inr ⟨rfl, rfl, ?_⟩⟩
    · unfold presetScales
      rw [if_neg (fun x => hnew x.symm)]
      simp only [e, e', bind, Except.bind, if_neg hle]
      exact presetLayout_fit h hs e (by rw [h1]) hf
    · simp only [fits, e, e', decide_eq_false hle]

theorem local_length (n c m : Nat) (k : Bool) (r : Nat) (hc : c ∣ n) (h0 : 0 < c) :
    (localElements false ⟨true, n, c, m, k⟩ r).length = n := by
  obtain ⟨q, rfl⟩ := hc
  rw [localElements_eq, List.length_range']
  simp only [startChunk, stopChunk, if_true, Nat.sub_zero]
  have : ceilDiv (c * q) c = q := by
    unfold ceilDiv
    rw [show c * q + c - 1 = (c - 1) + c * q by omega, Nat.add_mul_div_left _ _ h0, Nat.div_eq_of_lt (by omega), Nat.zero_add]
  rw [this]

theorem elements_length (ls : List Bool) (hl : ∀ l ∈ ls, l = true) (ns cs ms : List Nat) (ks : List Bool) (co : List Nat)
    (hco : co.length = ls.length) (hd : List.Forall₂ (fun n c => c ∣ n ∧ 0 < c) ns cs) (as : List Axis)
    (e : axesOf ls ns cs ms ks = some as) : (List.zipWith (localElements false) as co).map List.length = ns := by
  induction hd generalizing ls ms ks co as with
  | nil =>
    cases ls <;> cases ms <;> cases ks <;> simp_all [axesOf]
  | @cons n c ns cs hn _ ih =>
    match ls, ms, ks, co, e, hl, hco with
    | l :: ls, m :: ms, k :: ks, r :: co, e, hl, hco =>
      simp only [axesOf, Option.map_eq_some_iff] at e
      obtain ⟨bs, eb, rfl⟩ := e
      have h1 := hl l List.mem_cons_self
      subst h1
      simp only [List.zipWith_cons_cons, List.map_cons]
      rw [local_length n c m k r hn.1 hn.2,
        ih ls (fun x hx => hl x (List.mem_cons_of_mem _ hx)) ms ks co (Nat.succ.inj hco) bs eb]

theorem shape_chunks (gs : List Bool) (s : List ℚ) (ns cs : List Nat) (h1 : gs.length = s.length) (h2 : ns.length = s.length)
    (hd : List.Forall₂ (fun n c => c ∣ n ∧ 0 < c) ns cs) :
    List.Forall₂ (fun n c => c ∣ n ∧ 0 < c)
      (List.zipWith (fun (gs : Bool × ℚ) n => if gs.1 then gridSize gs.2 n else n) (gs.zip s) ns)
      (List.zipWith (fun (g : Bool) c => if g then 1 else c) gs cs) := by
  induction hd generalizing gs s with
  | nil => simp
  | @cons n c ns cs hn _ ih =>
    match s, gs, h1, h2 with
    | x :: s, [], h1, _ => exact absurd h1 (by simp)
    | x :: s, g :: gs, h1, h2 =>
      simp only [List.zip_cons_cons, List.zipWith_cons_cons]
      refine .cons ?_ (ih gs s (Nat.succ.inj h1) (Nat.succ.inj h2))
      cases g with
      | false => exact hn
      | true => exact ⟨Nat.one_dvd _, Nat.one_pos⟩

/-- On one process, when coefficients come in whole chunks, the data of a field
have along every axis in grid space as many points as the grid of the current
scale, one if the size is one, and in coefficient space as many as the size. -/
theorem serial_shape (D : Nat) (W : World) (h : Ok D W) (hm : W.mesh = [])
    (hd : List.Forall₂ (fun n c => c ∣ n ∧ 0 < c) W.sizes W.chunks) (l : Lay) (hl : l ∈ W.lays) (s : List ℚ)
    (hs : s.length = D) :
    ∃ shape, localShape W l s = .ok shape ∧ shape.length = D ∧
      ∀ (i : Nat) (g : Bool) (x : ℚ) (n : Nat), l.grid[i]? = some g → s[i]? = some x → W.sizes[i]? = some n →
        shape[i]? = some (if g then (if n = 1 then 1 else ⌈x * n⌉.toNat) else n) := by
  obtain ⟨h1, h2, h3⟩ := h.lays l hl
  have hloc : ∀ x ∈ l.loc, x = true := by
    rw [hm, List.length_nil, List.count_eq_zero] at h3
    intro x hx
    cases x with
    | true => rfl
    | false => exact absurd hx h3
  obtain ⟨ms, e1, l1⟩ := scatter_some 1 l.loc W.mesh h3
  obtain ⟨cs, e2, l2⟩ := scatter_some 0 l.loc W.coords (h3.trans h.coords.symm)
  obtain ⟨as, e3⟩ := axes_some D l.loc (globalShape W l s) (chunkShape W l) ms W.constant h1
    (by simp [globalShape, h2, hs, h.sizes]) (by simp [chunkShape, h2, h.chunks]) (l1.trans h1) h.constant
  have key := elements_length l.loc hloc _ _ ms W.constant cs l2
    (shape_chunks l.grid s W.sizes W.chunks (h2.trans hs.symm) (h.sizes.trans hs.symm) hd) as e3
  refine ⟨globalShape W l s, ?_, by simp [globalShape, h2, hs, h.sizes], ?_⟩
  · simp only [localShape, layoutElements, e1, e2, e3, Option.map_some, key]
    rfl
  · intro i g x n hg hx hn
    simp only [globalShape, List.getElem?_zipWith, List.getElem?_zip_eq_some, hn,
      (List.getElem?_zip_eq_some (z := (g, x))).2 ⟨hg, hx⟩]
    rfl

/-! ### Two axes on four processes -/

/-- Layouts of two axes, the first distributed over four processes in
coefficient space. -/
def twoLays : List Lay :=
  [⟨[false, true], [false, false]⟩, ⟨[false, true], [false, true]⟩, ⟨[true, false], [false, true]⟩,
    ⟨[true, false], [true, true]⟩]

example : (buildLayouts 2 4 [4]).map Prod.fst = some twoLays := by decide

/-- A real Fourier basis of size 14 and a basis of size 4, dealias scales 3/2,
on the last of four processes. -/
def uneven : World where
  lays := twoLays
  mesh := [4]
  coords := [3]
  sizes := [14, 4]
  chunks := [2, 1]
  constant := [false, false]
  dealias := [3/2, 3/2]
  itemsize := 8
  ncomp := 1

theorem uneven_ok : Ok 2 uneven where
  sizes := rfl
  chunks := rfl
  constant := rfl
  dealias := rfl
  coords := rfl
  lays := by
    intro l hl
    simp only [uneven, twoLays, List.mem_cons, List.not_mem_nil, or_false] at hl
    rcases hl with rfl | rfl | rfl | rfl <;> exact ⟨rfl, rfl, rfl⟩
  some_layout := fun h => (nomatch h)

/-- The same on one process. -/
def serial : World :=
  { uneven with
    lays := [⟨[true, true], [false, false]⟩, ⟨[true, true], [false, true]⟩, ⟨[true, true], [true, true]⟩]
    mesh := []
    coords := [] }

theorem serial_ok : Ok 2 serial where
  sizes := rfl
  chunks := rfl
  constant := rfl
  dealias := rfl
  coords := rfl
  lays := by
    intro l hl
    simp only [serial, List.mem_cons, List.not_mem_nil, or_false] at hl
    rcases hl with rfl | rfl | rfl <;> exact ⟨rfl, rfl, rfl⟩
  some_layout := fun h => (nomatch h)

theorem below_dealias : Below [1, 1] [3/2, 3/2] := .cons (by norm_num) (.cons (by norm_num) .nil)

example : Ok 2 serial ∧ serial.mesh = [] ∧ Below (serial.sizes.map fun _ => 1) serial.dealias ∧
    ∀ o ∈ [Op.scales [3/2, 3/2], .layout 2, .scales [1, 1]], Legal 2 serial o :=
  ⟨serial_ok, rfl, below_dealias, by
    intro o ho
    simp only [List.mem_cons, List.not_mem_nil, or_false] at ho
    rcases ho with rfl | rfl | rfl
    · rfl
    · exact (by decide : 2 < 3)
    · rfl⟩

example : bufferSize serial [1, 1] = .ok 448 ∧ bufferSize serial [3/2, 3/2] = .ok 1008 := by
  constructor <;> decide +kernel

example : List.Forall₂ (fun n c => c ∣ n ∧ 0 < c) serial.sizes serial.chunks :=
  .cons (by decide) (.cons (by decide) .nil)

/-- The data at scales one take more memory than at the dealias scales: 14
numbers in grid space, where this process has one row at scales one and none at
the dealias scales, against 12. -/
theorem uneven_sizes : bufferSize uneven [1, 1] = .ok 112 ∧ bufferSize uneven [3/2, 3/2] = .ok 96 := by
  constructor <;> decide +kernel

/-- **C112 (refuted).** On several processes a field whose scales never exceed
the dealias scales need not stay in one buffer: going to the dealias scales and
back moves it to two further buffers. -/
theorem one_buffer_refuted :
    ¬ ∀ (D : Nat) (W : World), Ok D W → 8 ∣ W.itemsize → Below (W.sizes.map fun _ => 1) W.dealias →
      ∀ ops, (∀ o ∈ ops, Legal D W o) → (∀ s, .scales s ∈ ops → Below s W.dealias) →
        ∃ f0 f, create W = .ok f0 ∧ run W ops f0 = .ok f ∧ f.buffer = f0.buffer := by
  intro hall
  obtain ⟨f0, f, e0, e, hbuf⟩ := hall 2 uneven uneven_ok (by decide) below_dealias [.scales [3/2, 3/2], .scales [1, 1]]
    (by
      intro o ho
      simp only [List.mem_cons, List.not_mem_nil, or_false] at ho
      rcases ho with rfl | rfl <;> rfl)
    (by
      intro s hs
      simp only [List.mem_cons, List.not_mem_nil, or_false, Op.scales.injEq] at hs
      rcases hs with rfl | rfl
      · exact .cons le_rfl (.cons le_rfl .nil)
      · exact below_dealias)
  have h1 : (create uneven).toOption.map (·.buffer) = some 1 := by decide +kernel
  have h2 : ((create uneven).bind (run uneven [.scales [3/2, 3/2], .scales [1, 1]])).toOption.map (·.buffer) = some 2 := by
    decide +kernel
  rw [e0] at h1 h2
  have h2' : (run uneven [.scales [3/2, 3/2], .scales [1, 1]] f0).toOption.map (·.buffer) = some 2 := h2
  rw [e] at h2'
  have a : f0.buffer = 1 := Option.some.inj h1
  have b : f.buffer = 2 := Option.some.inj h2'
  omega

/-- Fields as in `Verif.Field.Model` on this process, with raw data a single
number that transforms leave alone, and the rule for buffers computed from the
sizes. -/
def unevenEnv : Field.Env ℚ where
  D := 2
  lays := twoLays
  paths := [⟨.transform, 1⟩, ⟨.transpose, 0⟩, ⟨.transform, 0⟩]
  up := fun _ _ d => d
  down := fun _ _ d => d
  fits := fits uneven
  junk := 0

example : (buildLayouts 2 4 [4]).map Prod.snd = some unevenEnv.paths := by decide

/-- **C112 (refuted).** On this process a step of a solver whose right-hand
side takes the field to the dealias scales writes its solution into a buffer
the field has left: after a step that adds one the user still finds zero.  No
scales above the dealias scales are involved. -/
theorem solution_lost_refuted :
    (Below [1, 1] uneven.dealias ∧ Below [3/2, 3/2] uneven.dealias) ∧
    (create uneven).toOption.map (fun f => (f.buffer, f.fresh)) = some (1, 2) ∧
    (Field.runSolver unevenEnv ⟨⟨fun _ => 0, 1, 2, 0, [1, 1]⟩, none⟩
      [.step [.changeScales (.num (3/2))] (· + 1), .user (.get (0, none))]).map (·.2) = some [some 0, some 0] ∧
    (create serial).toOption.map (fun f => (f.buffer, f.fresh)) = some (0, 1) ∧
    (Field.runSolver { unevenEnv with fits := fits serial } ⟨⟨fun _ => 0, 0, 1, 0, [1, 1]⟩, none⟩
      [.step [.changeScales (.num (3/2))] (· + 1), .user (.get (0, none))]).map (·.2) = some [some 0, some 1] :=
  ⟨⟨below_dealias, .cons le_rfl (.cons le_rfl .nil)⟩, by decide +kernel, by decide +kernel, by decide +kernel,
    by decide +kernel⟩

/-- **C112 (refuted).** A field of four-byte numbers that is constant along all
axes cannot be created: its buffer has half a double, which is none. -/
theorem small_numbers_refuted :
    ∃ W : World, Ok 1 W ∧ W.itemsize = 4 ∧ create W = .error .tooSmall := by
  refine ⟨⟨[⟨[true], [false]⟩, ⟨[true], [true]⟩], [], [], [1], [1], [true], [1], 4, 1⟩, ⟨rfl, rfl, rfl, rfl, rfl, ?_, fun h => (nomatch h)⟩, rfl, ?_⟩
  · intro l hl
    simp only [List.mem_cons, List.not_mem_nil, or_false] at hl
    rcases hl with rfl | rfl <;> exact ⟨rfl, rfl, rfl⟩
  · decide +kernel

end Dedalus.Buffers
