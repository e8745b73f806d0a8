import Verif.Orders.Model

/-! What a user expects of a distributed colatitude or radial transform. Coefficients are named by order `m`, degree (or radial
mode) `l` and part (0 cosine, 1 minus sine; always 0 for complex data), grid rows by order and part. -/

namespace Dedalus.Orders.Spec

/-- A sphere basis that is accepted (`Nphi = 1`, or divisible by 2, for real data by 4) and has no more azimuthal than resolved
orders: `Nphi ≤ 2 Ntheta`. -/
def Allowed (d : Dtype) (Nphi Ntheta : Nat) : Prop :=
  0 < Ntheta ∧ (Nphi = 1 ∨ (0 < Nphi ∧ 2 * d.parts ∣ Nphi ∧ Nphi ≤ 2 * Ntheta))

/-- On a process with the global coefficient rows `rows` (of `W` columns) and the global grid rows `grows`, the loops of the transforms
over `maps` do the following. `G r j` names coefficient `(r, j)`; grid row `r` has order `w r` and part `part r`. -/
structure Transforms (G : Nat → Nat → Option (Int × Int)) (w : Nat → Int) (part : Nat → Nat) (b : Nat) (rows grows : List Nat)
    (W L : Nat) (maps : List Entry) : Prop where
  /-- every order occurs once -/
  once : (maps.map (·.m)).Nodup
  /-- the slices have the sizes of the matrices -/
  widths : ∀ e ∈ maps, e.m.natAbs ≤ L ∧ e.cols.2 - e.cols.1 = L + 1 - e.m.natAbs ∧ e.rows.2 = e.rows.1 + b ∧ e.grid.2 = e.grid.1 + b
  /-- forward: for grid data with row `u m part` for order and part, the coefficient named `(m, l)` becomes row `l - |m|` of the
  transform of order `m` of the row of the same order and part -/
  forward : ∀ (V : Type) [Zero V] (T : Int → (Nat → V) → Nat → V) (u : Int → Nat → Nat → V) (g : Nat → Nat → V),
    (∀ i r, grows[i]? = some r → g i = u (w r) (part r)) → ∀ i r j, rows[i]? = some r → j < W →
      ∃ m l, G r j = some (m, l) ∧ |m| ≤ l ∧ l ≤ L ∧ Orders.forward maps L T g i j = T m (u m (r % b)) (l - |m|).toNat
  /-- backward: for coefficients `a m l part`, every grid row of order `m` becomes the transform of order `m` of the coefficients of degrees
  `|m|` to `L` of the same part, in this order, and zero if there are none -/
  backward : ∀ (V : Type) [Zero V] (S : Int → List V → Nat → V) (a : Int → Int → Nat → V) (c : Nat → Nat → V),
    (∀ i r j m l, rows[i]? = some r → j < W → G r j = some (m, l) → c i j = a m l (r % b)) → ∀ i r x, grows[i]? = some r →
      Orders.backward maps L S c i x = if |w r| ≤ (L : Int) then
        S (w r) ((List.range (L + 1 - (w r).natAbs)).map fun k : Nat => a (w r) (|w r| + (k : Int)) (part r)) x else 0

/-- The same for a disk or annulus with `N` radial modes, of which order `m` has those from `nm m` on; orders above `lim` are not
transformed. Both layouts have the rows `rows`. -/
structure Radial (w : Nat → Int) (part : Nat → Nat) (b : Nat) (rows : List Nat) (nm : Int → Nat) (N lim : Nat) (maps : List Entry) :
    Prop where
  once : (maps.map (·.m)).Nodup
  widths : ∀ e ∈ maps, e.cols = (nm e.m, N) ∧ e.reversed = false ∧ e.rows.2 = e.rows.1 + b ∧ e.grid.2 = e.grid.1 + b
  forward : ∀ (V : Type) [Zero V] (T : Int → (Nat → V) → Nat → V) (u : Int → Nat → Nat → V) (g : Nat → Nat → V),
    (∀ i r, rows[i]? = some r → g i = u (w r) (part r)) → ∀ i r n, rows[i]? = some r → n < N →
      Orders.forward maps lim T g i n =
        if |w r| ≤ (lim : Int) ∧ nm (w r) ≤ n then T (w r) (u (w r) (part r)) (n - nm (w r)) else 0
  /-- coefficient row `i` has the same order and part as grid row `i` -/
  backward : ∀ (V : Type) [Zero V] (S : Int → List V → Nat → V) (c : Nat → Nat → V) i r x, rows[i]? = some r →
      Orders.backward maps lim S c i x = if |w r| ≤ (lim : Int) then
        S (w r) ((List.range (N - nm (w r))).map fun k => c i (nm (w r) + k)) x else 0

end Dedalus.Orders.Spec
