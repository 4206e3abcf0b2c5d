import Verif.PyList
import Verif.Dofs.Model
import Verif.Dofs.Lemmas
import Verif.Dofs.Props
import Verif.Graph.Witness
import Verif.Deriv.Align
import Verif.Util.Props
import Verif.FD.ParProps
import Verif.Mpi.Props
import Verif.Objectives.MpiProps
import Verif.LeastSquares.Witness
import Verif.Constrained.Lengths
import Verif.Coils.Field
import Verif.Coils.Current
import Verif.Coils.FieldDeriv
import Verif.Makegrid.Fit
import Verif.Curves.XYZ
import Verif.Gson.Props
import Verif.Caches.Witness
import Verif.MakeOpt.Witness
import Verif.Descriptor.Props
import Verif.Curves.Geometry
import Verif.Curves.Planar
import Verif.Curves.RZ
import Verif.Curves.Symm
import Verif.Distance.Surface
import Verif.Penalties.Model
import Verif.Penalties.Grad
import Verif.Penalties.Values
import Verif.Curves.Rotated
import Verif.Penalties.Linking
import Verif.Coils.Vjp
import Verif.Flux.Model
import Verif.Flux.Props
import Verif.Surfaces.RZModel
import Verif.Surfaces.RZDofs
import Verif.Surfaces.RZShape
import Verif.Surfaces.RZJac
import Verif.Surfaces.RZOps
import Verif.Surfaces.RZSym
import Verif.Surfaces.RZRes
import Verif.Surfaces.Generic
import Verif.Surfaces.GenericProps
import Verif.Surfaces.GenericRadii
import Verif.Surfaces.GenericRZ
import Verif.Surfaces.Torus
import Verif.Surfaces.Grid
import Verif.Surfaces.GridSym
import Verif.Surfaces.Tools
import Verif.Magnets.MwPGP
import Verif.Magnets.Prox
import Verif.Magnets.Greedy
import Verif.Magnets.Connect
import Verif.Magnets.Backtrack
import Verif.Magnets.BacktrackProps
import Verif.Magnets.ArbBack
import Verif.Magnets.Multi
import Verif.Wireframe.Model
import Verif.Wireframe.Topology
import Verif.Wireframe.Loops
import Verif.Wireframe.Currents
import Verif.Wireframe.Witness
import Verif.Wireframe.Constraints
import Verif.Wireframe.ConsInv
import Verif.Wireframe.Implicit
import Verif.Wireframe.ConsProps
import Verif.Wireframe.ConsOps
import Verif.Wireframe.NoCross
import Verif.Wireframe.Gsco
import Verif.Wireframe.GscoStep
import Verif.Wireframe.GscoInv
import Verif.Wireframe.GscoWire
import Verif.Wireframe.GscoProps
import Verif.Wireframe.GscoGreedy
import Verif.Rcls.Model
import Verif.Rcls.Solve
import Verif.Rcls.Exists
import Verif.Rcls.Wire
import Verif.Rcls.Dual
import Verif.Rcls.Rank
import Verif.Rcls.Island
import Verif.Mhd.Profiles
import Verif.Mhd.Vmec
import Verif.Mhd.VmecInv
import Verif.Mhd.VmecProps
import Verif.Mhd.Boozer
import Verif.Util.Trig
import Verif.Mhd.Quasi
import Verif.Fields.Model
import Verif.Fields.Lemmas
import Verif.Fields.Toroidal
import Verif.Fields.PolMirror
import Verif.Fields.Elliptic
import Verif.Fields.CoilModel
import Verif.Fields.CoilDeriv
import Verif.Fields.CoilProps
import Verif.Fields.CoilViol
import Verif.Fields.CoilA
import Verif.Fields.Reiman
import Verif.Fields.Dipole
import Verif.Fields.DipoleSym
import Verif.Fields.DomRadial
import Verif.Fields.DomModel
import Verif.Fields.DomDeriv
import Verif.Fields.Cyl
import Verif.Fields.DomProps
import Verif.Fields.DomRace
import Verif.Fields.Derived
import Verif.Fields.Algebra
import Verif.Fields.Potential
import Verif.Interp.Model
import Verif.Interp.Lemmas
import Verif.Interp.Props
import Verif.Interp.Bounds
import Verif.Interp.Field
import Verif.Interp.World
import Verif.Boozer.Model
import Verif.Boozer.Props
import Verif.Boozer.DB
import Verif.Boozer.Penalty
import Verif.Boozer.Solve
import Verif.Boozer.SolveEx
import Verif.Boozer.Adjoint
import Verif.Boozer.ExactVjp
import Verif.Boozer.QS
import Verif.Boozer.Ex
import Verif.Tracing.Model
import Verif.Tracing.Angle
import Verif.Tracing.Loop
import Verif.Tracing.Stop
import Verif.Tracing.Rhs
import Verif.Tracing.Res
import Verif.WField.Model
import Verif.WField.Kernel
import Verif.WField.Field
import Verif.WField.Torus
import Verif.WField.Sym
import Verif.Solve.Model
import Verif.Solve.Lsq
import Verif.Solve.Constr
import Verif.FourInt.Model
import Verif.FourInt.Props
import Verif.Frames.Model
import Verif.Frames.Ortho
import Verif.Frames.Dash
import Verif.Frames.Torsion
import Verif.Frames.Filament
import Verif.Frames.DashVjp
import Verif.Frames.Examples
import Verif.Strain.Model
import Verif.Strain.Props
import Verif.Strain.Examples
import Verif.BField.Analytic
import Verif.BField.Radial
import Verif.BField.ComputeK
import Verif.Garabedian.Model
import Verif.Garabedian.Props
import Verif.Garabedian.More
import Verif.Henneberg.Model
import Verif.Henneberg.Shape
import Verif.Henneberg.More
import Verif.Henneberg.From
import Verif.XYZ.Frame
import Verif.XYZ.Model
import Verif.XYZ.Shape
import Verif.XYZ.TensorModel
import Verif.XYZ.Tensor
import Verif.XYZ.Mask
import Verif.NField.Transform
import Verif.NField.Ortho
import Verif.NField.Values
import Verif.NField.Half
import Verif.NField.Model
import Verif.NField.Index
import Verif.NField.Props
import Verif.NField.Field
import Verif.NField.Violations
import Verif.NField.Coil
import Verif.NField.Reduced
import Verif.Labels.Path
import Verif.Labels.Model
import Verif.Labels.Props
import Verif.Labels.Curvature
import Verif.Labels.Examples
import Verif.Labels.Points
import Verif.Labels.Qfm
import Verif.Perturb.Sampler
import Verif.Perturb.Curve
import Verif.MGrid.Model
import Verif.MGrid.Props
import Verif.Force.Model
import Verif.Force.Self
import Verif.Force.Joint
import Verif.Force.Props
import Verif.Force.Smooth
import Verif.Force.Limit
import Verif.Force.Examples
import Verif.Sampling.Basic
import Verif.Sampling.Props
import Verif.Coilset.Ring
import Verif.Coilset.Even
import Verif.Coilset.Set
import Verif.Coilset.Reduced
import Verif.Coilset.PlanarRing
import Verif.Ports.Model
import Verif.Ports.Props
import Verif.Ports.Sym
import Verif.Ports.Files
import Verif.Functions.Basic
import Verif.QSRatio.Model
import Verif.QSRatio.Props
import Verif.QSRatio.Metrics
import Verif.QSRatio.BCart
import Verif.Spec.Arrays
import Verif.Spec.Profiles
import Verif.Spec.Currents
import Verif.Spec.Run
import Verif.Spec.Setters
import Verif.Bootstrap.Trapped
import Verif.Bootstrap.Redl
import Verif.Bootstrap.Mismatch
import Verif.Axis.Iota
import Verif.VCasing.Extend
import Verif.Polar.Sets
import Verif.Polar.Discretize
import Verif.Polar.Focus
import Verif.VmecGeo.Fourier
import Verif.VmecGeo.Basis
import Verif.VmecGeo.Normalized
import Verif.VmecGeo.FieldLines
import Verif.Adjoint.Metrics
import Verif.Adjoint.Props
import Verif.Wireframe.TFCoils
import Verif.Wireframe.Breaks
import Verif.Spec.Guess
import Verif.Interp.Boozer
import Verif.Coils.FourierFile
import Verif.Configs.Zoo
import Verif.Surfaces.FixRange
import Verif.Surfaces.Nml
