import Mathlib.Analysis.SpecialFunctions.Trigonometric.Basic
import Mathlib.Algebra.BigOperators.Group.Finset.Basic

/-!
# Fourier transforms

Model of the Fourier transforms of `dedalus/core/transforms.py` along one axis. Floating point numbers are real and
complex numbers. Arrays are functions of their indices together with their lengths; slices are resolved by
Python's rules, and assignments between slices of different lengths raise (`none`). The FFT libraries are what
their documentation says they compute (`dft`, `idft`, `rfft`, ...). Arrays for results may hold anything.
-/

namespace Dedalus.Fourier

open Complex

/-! ## Slices -/

/-- A resolved slice: the number of its elements and their indices. -/
structure Slice where
  count : Nat
  index : Nat → Nat

/-- A bound of a slice of an array of length `n` (the `slice` objects of `axslice`, `dedalus/tools/array.py` L47-49). -/
def bound (n : Nat) (i : Int) : Nat := if i < 0 then (i + n).toNat else min i.toNat n

/-- `slice(start, stop, step)` with a positive step; `none` is `None`. -/
def slice (n : Nat) (start : Int) (stop : Option Int) (step : Nat) : Slice :=
  let s := bound n start
  let e := match stop with | none => n | some e => bound n e
  ⟨(e - s + (step - 1)) / step, fun t => s + t * step⟩

/-- `slice(start, stop, -1)` for negative `start` and `stop`. -/
def sliceDown (n : Nat) (start stop : Int) : Slice :=
  let s := max (start + n) (-1)
  let e := max (stop + n) (-1)
  ⟨(s - e).toNat, fun t => (s - t).toNat⟩

/-- Writing elements one by one. -/
def put {α : Type} (dst : Nat → α) (index : Nat → Nat) (vals : Nat → α) : Nat → Nat → α
  | 0 => dst
  | c + 1 => fun i => if i = index c then vals c else put dst index vals c i

/-- `dst[d] = vals` for `count` values. -/
def assign {α : Type} (dst : Nat → α) (d : Slice) (count : Nat) (vals : Nat → α) : Option (Nat → α) :=
  if count = d.count then some (put dst d.index vals count) else none

/-- `dst[d] = v` for a scalar. -/
def fillSlice {α : Type} (dst : Nat → α) (d : Slice) (v : α) : Nat → α := put dst d.index (fun _ => v) d.count

/-! ## Complex Fourier transforms -/

/-- `KN` and `KM` (`dedalus/core/transforms.py` L194-199). -/
def halfSize (n : Nat) : Nat := (n - 1) / 2

/-- `Kmax` (`dedalus/core/transforms.py` L194-199). -/
def kmax (N M : Nat) : Nat := min (halfSize N) (halfSize M)

/-- `wavenumbers` (`dedalus/core/transforms.py` L201-208). -/
def wavenumber (M m : Nat) : Int := (((m + halfSize M) % M : Nat) : Int) - halfSize M

/-- `np.exp(1j*K*X/dX)` with `dX = N / 2 / np.pi` (`dedalus/core/transforms.py` L215-237). -/
noncomputable def wave (N : Nat) (K X : Int) : ℂ :=
  Complex.exp (Complex.I * K * X / ((N : ℂ) / 2 / (Real.pi : ℂ)))

/-- `ComplexFourierMMT.forward_matrix` (`dedalus/core/transforms.py` L215-225). -/
noncomputable def forwardMatrix (N M : Nat) (m x : Nat) : ℂ :=
  if |wavenumber M m| ≤ kmax N M then wave N (-wavenumber M m) x / N else 0

/-- `ComplexFourierMMT.backward_matrix` (`dedalus/core/transforms.py` L227-237). -/
noncomputable def backwardMatrix (N M : Nat) (x m : Nat) : ℂ :=
  if |wavenumber M m| ≤ kmax N M then wave N (wavenumber M m) x else 0

/-- The matrix transforms (`dedalus/core/transforms.py` L63-84, `SeparableMatrixTransform`). -/
noncomputable def forwardMMT (N M : Nat) (g : Nat → ℂ) (m : Nat) : ℂ :=
  ∑ x ∈ Finset.range N, forwardMatrix N M m x * g x

noncomputable def backwardMMT (N M : Nat) (c : Nat → ℂ) (x : Nat) : ℂ :=
  ∑ m ∈ Finset.range M, backwardMatrix N M x m * c m

/-- `scipy.fft.fft`, and `plan.forward` of FFTW. -/
noncomputable def dft (N : Nat) (g : Nat → ℂ) (j : Nat) : ℂ :=
  ∑ x ∈ Finset.range N, g x * Complex.exp (-(2 * Real.pi * Complex.I * j * x / N))

/-- `plan.backward` of FFTW: the unnormalised inverse. -/
noncomputable def idft (N : Nat) (c : Nat → ℂ) (x : Nat) : ℂ :=
  ∑ j ∈ Finset.range N, c j * Complex.exp (2 * Real.pi * Complex.I * j * x / N)

/-- `scipy.fft.ifft` -/
noncomputable def ifft (N : Nat) (c : Nat → ℂ) (x : Nat) : ℂ := idft N c x / N

/-- `ComplexFFT.resize_coeffs` (`dedalus/core/transforms.py` L243-267) from an array of length `P` to one of length `Q`; `rescale` is multiplication by
the factor. -/
def resizeCoeffs (K P Q : Nat) (rescale : ℂ → ℂ) (src dst : Nat → ℂ) : Option (Nat → ℂ) :=
  if K = 0 then
    let s := slice P 0 (some 1) 1
    (assign dst (slice Q 0 (some 1) 1) s.count (fun t => rescale (src (s.index t)))).map fun d =>
      fillSlice d (slice Q 1 none 1) 0
  else
    let s := slice P 0 (some (K + 1 : Nat)) 1
    let n := slice P (-(K : Int)) none 1
    (assign dst (slice Q 0 (some (K + 1 : Nat)) 1) s.count (fun t => rescale (src (s.index t)))).bind fun d =>
      assign (fillSlice d (slice Q (K + 1 : Nat) (some (-(K : Int))) 1) 0) (slice Q (-(K : Int)) none 1) n.count
        (fun t => rescale (src (n.index t)))

/-- `ScipyComplexFFT.forward` and `FFTWComplexFFT.forward` (`dedalus/core/transforms.py` L274-279, L316-322): FFT, then resizing into `cdata`. -/
noncomputable def forwardFFT (N M : Nat) (g cdata : Nat → ℂ) : Option (Nat → ℂ) :=
  resizeCoeffs (kmax N M) N M (fun v => v * (1 / N)) (dft N g) cdata

/-- `ScipyComplexFFT.backward` (`dedalus/core/transforms.py` L281-289), where `temp` is the uninitialised temporary. -/
noncomputable def backwardScipy (N M : Nat) (c temp : Nat → ℂ) : Option (Nat → ℂ) :=
  (resizeCoeffs (kmax N M) M N (fun v => v * N) c temp).map (ifft N)

/-- `FFTWComplexFFT.backward` (`dedalus/core/transforms.py` L324-330), where `temp` holds what earlier transforms left in it. -/
noncomputable def backwardFFTW (N M : Nat) (c temp : Nat → ℂ) : Option (Nat → ℂ) :=
  (resizeCoeffs (kmax N M) M N id c temp).map (idft N)

/-! ## Real Fourier transforms -/

/-- `np.cos(K*X/dX)`, `dX = N / 2 / np.pi` (`dedalus/core/transforms.py` L391-424) -/
noncomputable def cosWave (N : Nat) (K X : Nat) : ℝ := Real.cos ((K : ℝ) * X / ((N : ℝ) / 2 / Real.pi))

/-- `np.sin(K*X/dX)` (`dedalus/core/transforms.py` L391-424) -/
noncomputable def sinWave (N : Nat) (K X : Nat) : ℝ := Real.sin ((K : ℝ) * X / ((N : ℝ) / 2 / Real.pi))

/-- `RealFourierMMT.forward_matrix` (`dedalus/core/transforms.py` L391-407) for even `M`: rows `2k` and `2k+1` belong to wavenumber `k`. -/
noncomputable def realForwardMatrix (N M : Nat) (m x : Nat) : ℝ :=
  if m / 2 ≤ kmax N M then
    if m = 0 then 1 / N
    else if m % 2 = 0 then (2 / N) * cosWave N (m / 2) x
    else -(2 / N) * sinWave N (m / 2) x
  else 0

/-- `RealFourierMMT.backward_matrix` (`dedalus/core/transforms.py` L409-424). -/
noncomputable def realBackwardMatrix (N M : Nat) (x m : Nat) : ℝ :=
  if m / 2 ≤ kmax N M then
    if m % 2 = 0 then cosWave N (m / 2) x else -sinWave N (m / 2) x
  else 0

noncomputable def realForwardMMT (N M : Nat) (g : Nat → ℝ) (m : Nat) : ℝ :=
  ∑ x ∈ Finset.range N, realForwardMatrix N M m x * g x

noncomputable def realBackwardMMT (N M : Nat) (c : Nat → ℝ) (x : Nat) : ℝ :=
  ∑ m ∈ Finset.range M, realBackwardMatrix N M x m * c m

/-- `scipy.fft.rfft`, and `plan.forward` of FFTW for real data: entries `0` to `N // 2`. -/
noncomputable def rfft (N : Nat) (g : Nat → ℝ) (k : Nat) : ℂ := dft N (fun x => (g x : ℂ)) k

/-- `plan.backward` of FFTW for real data: the entries are taken as half of a Hermitian array, the imaginary parts of the
entries `0` and `N / 2` are ignored. -/
noncomputable def irdft (N : Nat) (t : Nat → ℂ) (x : Nat) : ℝ :=
  (t 0).re + ∑ k ∈ Finset.range (halfSize N),
    2 * ((t (k + 1)).re * Real.cos (2 * Real.pi * (k + 1 : Nat) * x / N) -
      (t (k + 1)).im * Real.sin (2 * Real.pi * (k + 1 : Nat) * x / N)) +
    (if N % 2 = 0 then (t (N / 2)).re * Real.cos (Real.pi * x) else 0)

/-- `scipy.fft.irfft` with `n=N` -/
noncomputable def irfft (N : Nat) (t : Nat → ℂ) (x : Nat) : ℝ := irdft N t x / N

/-- `RealFFT.unpack_rescale` (`dedalus/core/transforms.py` L472-487); `cdata` has length `M`, `temp` has length `N // 2 + 1`. -/
noncomputable def unpack (K N M : Nat) (rescale : ℝ) (temp : Nat → ℂ) (cdata : Nat → ℝ) : Option (Nat → ℝ) :=
  let L := N / 2 + 1
  let mean := slice L 0 (some 1) 1
  let pos := slice L 1 (some (K + 1 : Nat)) 1
  (assign cdata (slice M 0 (some 1) 1) mean.count (fun t => (temp (mean.index t)).re * rescale)).bind fun c1 =>
  (assign (fillSlice c1 (slice M 1 (some 2) 1) 0) (slice M 2 (some (2 * (K + 1) : Nat)) 2) pos.count
    (fun t => (temp (pos.index t)).re * (2 * rescale))).bind fun c2 =>
  (assign c2 (slice M 3 (some (2 * (K + 1) : Nat)) 2) pos.count
    (fun t => (temp (pos.index t)).im * (2 * rescale))).map fun c3 =>
  fillSlice c3 (slice M (2 * (K + 1) : Nat) none 1) 0

/-- `ScipyRealFFT.forward` and `FFTWRealFFT.forward` (`dedalus/core/transforms.py` L516-521, L551-557). -/
noncomputable def realForwardFFT (N M : Nat) (g cdata : Nat → ℝ) : Option (Nat → ℝ) :=
  unpack (kmax N M) N M (1 / N) (rfft N g) cdata

/-- `RealFFT.repack_rescale` (`dedalus/core/transforms.py` L489-509), with factors `r0` for the mean and `r1` for the other modes (`rescale` and
`rescale / 2`, or `1` and `1 / 2` without rescaling). Real and imaginary parts are written separately. -/
noncomputable def repack (K N M : Nat) (r0 r1 : ℝ) (cdata : Nat → ℝ) (temp : Nat → ℂ) : Option (Nat → ℂ) :=
  let L := N / 2 + 1
  let mean := slice M 0 (some 1) 1
  let cos := slice M 2 (some (2 * (K + 1) : Nat)) 2
  let msin := slice M 3 (some (2 * (K + 1) : Nat)) 2
  let pos := slice L 1 (some (K + 1 : Nat)) 1
  (assign temp (slice L 0 (some 1) 1) mean.count (fun t => ((cdata (mean.index t) * r0 : ℝ) : ℂ))).bind fun t1 =>
  (assign t1 pos cos.count (fun t => (⟨cdata (cos.index t) * r1, (t1 (pos.index t)).im⟩ : ℂ))).bind fun t2 =>
  (assign t2 pos msin.count (fun t => (⟨(t2 (pos.index t)).re, cdata (msin.index t) * r1⟩ : ℂ))).map fun t3 =>
  fillSlice t3 (slice L (K + 1 : Nat) none 1) 0

/-- `ScipyRealFFT.backward` (`dedalus/core/transforms.py` L523-534). -/
noncomputable def realBackwardScipy (N M : Nat) (c : Nat → ℝ) (temp : Nat → ℂ) : Option (Nat → ℝ) :=
  (repack (kmax N M) N M N (N / 2) c temp).map (irfft N)

/-- `FFTWRealFFT.backward` (`dedalus/core/transforms.py` L559-565). -/
noncomputable def realBackwardFFTW (N M : Nat) (c : Nat → ℝ) (temp : Nat → ℂ) : Option (Nat → ℝ) :=
  (repack (kmax N M) N M 1 (1 / 2) c temp).map (irdft N)

/-- `scipy.fftpack.rfft`: `[y(0), Re(y(1)), Im(y(1)), ...]` -/
noncomputable def packedRfft (N : Nat) (g : Nat → ℝ) (j : Nat) : ℝ :=
  if j % 2 = 1 then (rfft N g ((j + 1) / 2)).re
  else if j = 0 then (rfft N g 0).re else (rfft N g (j / 2)).im

/-- `scipy.fftpack.irfft` -/
noncomputable def packedIrfft (N : Nat) (t : Nat → ℝ) (x : Nat) : ℝ :=
  irfft N (fun k => if k = 0 then (t 0 : ℂ) else ⟨t (2 * k - 1), t (2 * k)⟩) x

/-- `FFTPACKRealFFT.forward` (`dedalus/core/transforms.py` L431-447). -/
noncomputable def forwardPack (N M : Nat) (g cdata : Nat → ℝ) : Option (Nat → ℝ) :=
  let K := kmax N M
  let temp := packedRfft N g
  let mean := slice N 0 (some 1) 1
  let pos := slice N 1 (some (2 * (K + 1) - 1 : Nat)) 1
  (assign cdata (slice M 0 (some 1) 1) mean.count (fun t => temp (mean.index t) * (1 / N))).bind fun c1 =>
  (assign (fillSlice c1 (slice M 1 (some 2) 1) 0) (slice M 2 (some (2 * (K + 1) : Nat)) 1) pos.count
    (fun t => temp (pos.index t) * (2 / N))).map fun c2 =>
  fillSlice c2 (slice M (2 * (K + 1) : Nat) none 1) 0

/-- `FFTPACKRealFFT.backward` (`dedalus/core/transforms.py` L449-466). -/
noncomputable def backwardPack (N M : Nat) (c temp : Nat → ℝ) : Option (Nat → ℝ) :=
  let K := kmax N M
  let mean := slice M 0 (some 1) 1
  let pos := slice M 2 (some (2 * (K + 1) : Nat)) 1
  (assign temp (slice N 0 (some 1) 1) mean.count (fun t => c (mean.index t) * N)).bind fun t1 =>
  (assign t1 (slice N 1 (some (2 * (K + 1) - 1 : Nat)) 1) pos.count (fun t => c (pos.index t) * (N / 2))).map fun t2 =>
  packedIrfft N (fillSlice t2 (slice N (2 * (K + 1) - 1 : Nat) none 1) 0)

/-- The half-complex format of FFTW: `[r0, r1, ..., i2, i1]`. -/
noncomputable def r2hc (N : Nat) (g : Nat → ℝ) (j : Nat) : ℝ :=
  if j ≤ N / 2 then (rfft N g j).re else (rfft N g (N - j)).im

/-- The unnormalised inverse of the half-complex transform. -/
noncomputable def hc2r (N : Nat) (t : Nat → ℝ) (x : Nat) : ℝ :=
  irdft N (fun k => if k = 0 then (t 0 : ℂ) else ⟨t k, t (N - k)⟩) x

/-- `FFTWHalfComplexFFT.unpack_rescale` after the plan (`dedalus/core/transforms.py` L581-597, L615-621). -/
noncomputable def forwardHalf (N M : Nat) (g cdata : Nat → ℝ) : Option (Nat → ℝ) :=
  let K := kmax N M
  let temp := r2hc N g
  let mean := slice N 0 (some 1) 1
  let pos := slice N 1 (some (K + 1 : Nat)) 1
  let neg := sliceDown N (-1) (-(K + 1 : Nat))
  (assign cdata (slice M 0 (some 1) 1) mean.count (fun t => temp (mean.index t) * (1 / N))).bind fun c1 =>
  (assign (fillSlice c1 (slice M 1 (some 2) 1) 0) (slice M 2 (some (2 * (K + 1) : Nat)) 2) pos.count
    (fun t => temp (pos.index t) * (2 * (1 / N)))).bind fun c2 =>
  (assign c2 (slice M 3 (some (2 * (K + 1) : Nat)) 2) neg.count
    (fun t => temp (neg.index t) * (2 * (1 / N)))).map fun c3 =>
  fillSlice c3 (slice M (2 * (K + 1) : Nat) none 1) 0

/-- `FFTWHalfComplexFFT.repack` followed by the plan (`dedalus/core/transforms.py` L599-613, L623-629). -/
noncomputable def backwardHalf (N M : Nat) (c temp : Nat → ℝ) : Option (Nat → ℝ) :=
  let K := kmax N M
  let mean := slice M 0 (some 1) 1
  let cos := slice M 2 (some (2 * (K + 1) : Nat)) 2
  let msin := slice M 3 (some (2 * (K + 1) : Nat)) 2
  (assign temp (slice N 0 (some 1) 1) mean.count (fun t => c (mean.index t))).bind fun t1 =>
  (assign t1 (slice N 1 (some (K + 1 : Nat)) 1) cos.count (fun t => c (cos.index t) * (1 / 2))).bind fun t2 =>
  (assign t2 (sliceDown N (-1) (-(K + 1 : Nat))) msin.count (fun t => c (msin.index t) * (1 / 2))).map fun t3 =>
  hc2r N (fillSlice t3 (slice N (K + 1 : Nat) (some (-(K : Int))) 1) 0)

end Dedalus.Fourier
