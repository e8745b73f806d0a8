import Verif.Agree.Lemmas
import Verif.Agree.Model
import Verif.Agree.Props
import Verif.Agree.Spec
import Verif.Apply.Lemmas
import Verif.Apply.Model
import Verif.Apply.Props
import Verif.Apply.Sparse
import Verif.Apply.Spec
import Verif.Average.Lemmas
import Verif.Average.Model
import Verif.Average.Props
import Verif.Average.Spec
import Verif.Ball.Calculus
import Verif.Ball.Model
import Verif.Ball.Props
import Verif.BasisOps.Lemmas
import Verif.BasisOps.Model
import Verif.BasisOps.Props
import Verif.BasisOps.Spec
import Verif.Buffers.Lemmas
import Verif.Buffers.Model
import Verif.Buffers.Props
import Verif.Buffers.Spec
import Verif.Bvp.Eigen
import Verif.Bvp.Lemmas
import Verif.Bvp.Model
import Verif.Bvp.Props
import Verif.Bvp.Spec
import Verif.Cache.Model
import Verif.Cache.Props
import Verif.Cache.Spec
import Verif.Cart.Integrals
import Verif.Cart.Lemmas
import Verif.Cart.Model
import Verif.Cart.Multi
import Verif.Cart.Props
import Verif.Cart.Spec
import Verif.Cfl.Model
import Verif.Cfl.Props
import Verif.Cfl.Spec
import Verif.Clenshaw.Model
import Verif.Clenshaw.Props
import Verif.Combine.Lemmas
import Verif.Combine.Model
import Verif.Combine.Props
import Verif.Combine.Spec
import Verif.Conditions.Lemmas
import Verif.Conditions.Model
import Verif.Conditions.Props
import Verif.Conditions.Spec
import Verif.Contract.Lemmas
import Verif.Contract.Model
import Verif.Contract.Props
import Verif.Cosine.Lemmas
import Verif.Cosine.Model
import Verif.Cosine.Props
import Verif.Cosine.Spec
import Verif.Csr.Lemmas
import Verif.Csr.Model
import Verif.Csr.Props
import Verif.Csr.Spec
import Verif.Dispatch.Model
import Verif.Dispatch.Props
import Verif.Dist.Block
import Verif.Dist.BlockLemmas
import Verif.Dist.BlockProps
import Verif.Dist.Chain
import Verif.Dist.ChainLemmas
import Verif.Dist.ChainProps
import Verif.Dist.ChainSpec
import Verif.Domain.Lemmas
import Verif.Domain.Model
import Verif.Domain.Props
import Verif.Eval.Evaluate
import Verif.Eval.Live
import Verif.Eval.Loop
import Verif.Eval.Model
import Verif.Eval.Osc
import Verif.Eval.Pass
import Verif.Eval.Props
import Verif.Eval.Spec
import Verif.Eval.Track
import Verif.Eval.Value
import Verif.Field.Lemmas
import Verif.Field.Model
import Verif.Field.Props
import Verif.Field.Spec
import Verif.Files.Lemmas
import Verif.Files.Model
import Verif.Files.Props
import Verif.Files.Spec
import Verif.Flow.Model
import Verif.Flow.Props
import Verif.Fourier.Calculus
import Verif.Fourier.ComplexLemmas
import Verif.Fourier.Model
import Verif.Fourier.OpsLemmas
import Verif.Fourier.OpsModel
import Verif.Fourier.Props
import Verif.Fourier.RealLemmas
import Verif.Fourier.Spec
import Verif.Fourier.Waves
import Verif.Ghost.Lemmas
import Verif.Ghost.Model
import Verif.Ghost.Props
import Verif.Ghost.Spec
import Verif.Global.Lemmas
import Verif.Global.Lemmas2
import Verif.Global.Model
import Verif.Global.Props
import Verif.Global.Spec
import Verif.Grids.Lemmas
import Verif.Grids.Model
import Verif.Grids.Props
import Verif.Grids.Spec
import Verif.Hermitian.Lemmas
import Verif.Hermitian.Model
import Verif.Hermitian.Polar
import Verif.Hermitian.Props
import Verif.Hermitian.Spec
import Verif.Hermitian.Sphere
import Verif.Hermitian.Volume
import Verif.Integral.Lemmas
import Verif.Integral.Model
import Verif.Integral.Props
import Verif.Integral.Spec
import Verif.Interleave.Model
import Verif.Interleave.Props
import Verif.Interleave.Spec
import Verif.Interp.Lemmas
import Verif.Interp.Model
import Verif.Interp.Props
import Verif.Interp.Spec
import Verif.Jacobi.Chebyshev
import Verif.Jacobi.Eigen
import Verif.Jacobi.Gauss
import Verif.Jacobi.Integral
import Verif.Jacobi.Interior
import Verif.Jacobi.Lemmas
import Verif.Jacobi.Model
import Verif.Jacobi.Ncc
import Verif.Jacobi.Norms
import Verif.Jacobi.Operators
import Verif.Jacobi.Props
import Verif.Jacobi.Quadrature
import Verif.Jacobi.Recursion
import Verif.Jacobi.Spec
import Verif.Jacobi.Transform
import Verif.Jacobi.Upper
import Verif.Locked.Lemmas
import Verif.Locked.Model
import Verif.Locked.Props
import Verif.Locked.Spec
import Verif.Maps.Lemmas
import Verif.Maps.Model
import Verif.Maps.Props
import Verif.Maps.Spec
import Verif.Mats.Assemble
import Verif.Mats.Expr
import Verif.Mats.Kron
import Verif.Mats.Lemmas
import Verif.Mats.Model
import Verif.Mats.Props
import Verif.Mats.Spec
import Verif.Matsolv.Lemmas
import Verif.Matsolv.Model
import Verif.Matsolv.Props
import Verif.Matsolv.Spec
import Verif.Modes.Lemmas
import Verif.Modes.Model
import Verif.Modes.Props
import Verif.Modes.Read
import Verif.Orders.Inst
import Verif.Orders.Lemmas
import Verif.Orders.Model
import Verif.Orders.Pack
import Verif.Orders.Polar
import Verif.Orders.Props
import Verif.Orders.Spec
import Verif.Orders.Zonal
import Verif.Output.Lemmas
import Verif.Output.Lemmas2
import Verif.Output.Model
import Verif.Output.Props
import Verif.Output.Spec
import Verif.Perm.Lemmas
import Verif.Perm.Model
import Verif.Perm.Props
import Verif.Perm.Spec
import Verif.Plot.Figure
import Verif.Plot.Lemmas
import Verif.Plot.Model
import Verif.Plot.Props
import Verif.Plot.Spec
import Verif.PolarField.Lemmas
import Verif.PolarField.Model
import Verif.PolarField.Plans
import Verif.PolarField.Props
import Verif.PolarField.Spec
import Verif.Post.Lemmas
import Verif.Post.Model
import Verif.Post.Props
import Verif.Post.Spec
import Verif.Progress.Lemmas
import Verif.Progress.Model
import Verif.Progress.Props
import Verif.Progress.Spec
import Verif.RadialInterp.Lemmas
import Verif.RadialInterp.Model
import Verif.RadialInterp.Props
import Verif.RadialInterp.Spec
import Verif.Random.Lemmas
import Verif.Random.Model
import Verif.Random.Props
import Verif.Random.Spec
import Verif.Regularity.Count
import Verif.Regularity.Gradient
import Verif.Regularity.Invariant
import Verif.Regularity.Lemmas
import Verif.Regularity.Model
import Verif.Regularity.Ortho
import Verif.Regularity.Props
import Verif.Regularity.Spec
import Verif.Restart.Continue
import Verif.Restart.Lemmas
import Verif.Restart.Model
import Verif.Restart.Props
import Verif.Restart.Spec
import Verif.Rotate.Model
import Verif.Rotate.Props
import Verif.Sched.Lemmas
import Verif.Sched.Model
import Verif.Sched.Props
import Verif.Shell.Expand
import Verif.Shell.Integrals
import Verif.Shell.Lemmas
import Verif.Shell.Model
import Verif.Shell.Props
import Verif.Shell.Radial
import Verif.Shell.Spec
import Verif.Solver.Lemmas
import Verif.Solver.Model
import Verif.Solver.Props
import Verif.Solver.Spec
import Verif.Sphere.Calculus
import Verif.Sphere.Harmonic
import Verif.Sphere.Integrals
import Verif.Sphere.Ladder
import Verif.Sphere.Lemmas
import Verif.Sphere.Model
import Verif.Sphere.Ncc
import Verif.Sphere.NccProps
import Verif.Sphere.Pack
import Verif.Sphere.Props
import Verif.Sphere.Sine
import Verif.Sphere.Spec
import Verif.Sphere.Transform
import Verif.SphereField.Lemmas
import Verif.SphereField.Model
import Verif.SphereField.Props
import Verif.SphereField.Spec
import Verif.Spin.Lemmas
import Verif.Spin.Model
import Verif.Spin.Props
import Verif.Spin.Real
import Verif.Spin.Recombine
import Verif.Step.Coeffs
import Verif.Step.CoeffsLemmas
import Verif.Step.CoeffsProps
import Verif.Step.CoeffsSpec
import Verif.Step.Multistep
import Verif.Step.MultistepLemmas
import Verif.Step.MultistepProps
import Verif.Step.RK
import Verif.Step.RKLemmas
import Verif.Step.RKProps
import Verif.Step.RKSpec
import Verif.Step.TableauProps
import Verif.Subsys.Lemmas
import Verif.Subsys.Model
import Verif.Subsys.Props
import Verif.Subsys.SliceLemmas
import Verif.Subsys.Spec
import Verif.Symb.BvpLemmas
import Verif.Symb.BvpProps
import Verif.Symb.Deriv
import Verif.Symb.DerivSpec
import Verif.Symb.EvpLemmas
import Verif.Symb.EvpProps
import Verif.Symb.Frechet
import Verif.Symb.Hered
import Verif.Symb.Lemmas
import Verif.Symb.Linear
import Verif.Symb.Model
import Verif.Symb.Problem
import Verif.Symb.ProblemLemmas
import Verif.Symb.ProblemProps
import Verif.Symb.ProblemSpec
import Verif.Symb.Props
import Verif.Symb.Spec
import Verif.Symb.Split
import Verif.Symb.Total
import Verif.Tensor.Model
import Verif.Tensor.Props
import Verif.Text.Model
import Verif.Text.Props
import Verif.Text.Spec
import Verif.Transpose.Lemmas
import Verif.Transpose.Model
import Verif.Transpose.Plan
import Verif.Transpose.PlanLemmas
import Verif.Transpose.PlanProps
import Verif.Transpose.Props
import Verif.VolumeField.Lemmas
import Verif.VolumeField.Model
import Verif.VolumeField.Plans
import Verif.VolumeField.Props
import Verif.VolumeField.Spec
import Verif.Zernike.Calculus
import Verif.Zernike.DiskProps
import Verif.Zernike.Lemmas
import Verif.Zernike.Model
import Verif.Zernike.Ortho
import Verif.Zernike.Props
import Verif.Zernike.Spec
import Verif.Zernike.Transform
import Verif.Zncc.Entries
import Verif.Zncc.Lemmas
import Verif.Zncc.Model
import Verif.Zncc.Product
import Verif.Zncc.Props
import Verif.Zncc.Spec
