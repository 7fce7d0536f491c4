import Verif.Py
import Verif.Model.Grid
import Verif.Model.Params
import Verif.Model.Particle
import Verif.Model.Constit
import Verif.Model.Integrators
import Verif.Model.NewIntegrator
import Verif.Model.MPList
import Verif.Model.Main
import Verif.Spec
import Verif.Examples
import Verif.ExRun
import Verif.Lemmas.Basic
import Verif.Lemmas.Geometry
import Verif.Lemmas.Scatter
import Verif.Lemmas.Lists
import Verif.Lemmas.Points
import Verif.Lemmas.Grid
import Verif.Lemmas.Locate
import Verif.Lemmas.Stress
import Verif.Lemmas.Step
import Verif.Lemmas.Total
import Verif.Lemmas.Move
import Verif.Lemmas.Slices
import Verif.Lemmas.Frame
import Verif.Lemmas.Index
import Verif.Lemmas.Track
import Verif.Lemmas.Run
import Verif.Props.Mapping
import Verif.Props.Transfer
import Verif.Props.Strain
import Verif.Props.Motion
import Verif.Props.Boundary
import Verif.Props.Silo
import Verif.Props.Volume
import Verif.Props.Lists
import Verif.Lemmas.MatClosed
import Verif.Lemmas.History
import Verif.Lemmas.Hat
import Verif.Props.History
import Verif.Props.Planar
import Verif.Props.Balance
import Verif.Lemmas.Ops
import Verif.Lemmas.Law
import Verif.Props.Solids
import Verif.Lemmas.XF
import Verif.Props.Fluids
import Verif.Lemmas.Limiter
import Verif.Lemmas.KT
import Verif.Props.Segregation
import Verif.Model.Loop
import Verif.Props.Loop
import Verif.Model.Init
import Verif.Props.Init
import Verif.Model.Output
import Verif.Props.Output
import Verif.Model.Measure
import Verif.Props.Measure
import Verif.Props.Obstacles
import Verif.Props.Surcharge
import Verif.Props.Initial
import Verif.Props.Scheme
import Verif.Props.Box
import Verif.Props.Diffusion
import Verif.Props.NewIntegrator
import Verif.Props.Fields
import Verif.Props.Energy
import Verif.Props.Laws
import Verif.Model.NT
import Verif.Props.NT
import Verif.Props.Unused
import Verif.Lemmas.Equiv
import Verif.Props.Translate
import Verif.Props.Cyclic
import Verif.Lemmas.Reorder
import Verif.Props.Order
import Verif.Props.Boost
import Verif.Model.Inputs
import Verif.Lemmas.Layout
import Verif.Props.Layout
import Verif.Props.Sizes
import Verif.Model.Forces
import Verif.Props.Forces
import Verif.Props.Steer
import Verif.Props.Listed
import Verif.Model.Slope
import Verif.Props.Slope
import Verif.Props.Fall
import Verif.Props.Work
import Verif.Lemmas.Scale
import Verif.Lemmas.ScaleLaw
import Verif.Lemmas.ScaleStep
import Verif.Lemmas.ScaleRun
import Verif.Props.Units
import Verif.Props.Light
import Verif.Props.SizeTransfer
import Verif.Lemmas.Axes
import Verif.Lemmas.AxesLaw
import Verif.Lemmas.Sym
import Verif.Lemmas.SymGrid
import Verif.Lemmas.SymSeg
import Verif.Lemmas.SymStep
import Verif.Lemmas.SymMarch
import Verif.Lemmas.Transpose
import Verif.Lemmas.KTMirror
import Verif.Lemmas.Mirror
import Verif.Props.Swap
import Verif.Props.Reflect
import Verif.Props.Ending
import Verif.Props.Kinetic
import Verif.Props.Limiters
import Verif.Model.Figures
import Verif.Props.Figures
import Verif.Props.Saved
import Verif.Props.Dissipation
import Verif.Props.Density
import Verif.Props.Run
import Verif.Lemmas.Tilt
import Verif.Props.Rest
import Verif.Props.Bed
import Verif.Lemmas.Moment
import Verif.Props.Patch
import Verif.Props.Deep
import Verif.Model.Scatter
import Verif.Props.Scatter
import Verif.Model.SegLoop
import Verif.Props.SegLoop
import Verif.Model.Round
import Verif.Props.Round
import Verif.Props.Cut
import Verif.Props.Holes
import Verif.Lemmas.Local
import Verif.Props.Separate
import Verif.Lemmas.Agree
import Verif.Props.Restart
import Verif.Model.Shipped
import Verif.Props.Shipped
import Verif.Props.Stall
import Verif.Props.Adaptive
import Verif.Props.Float
import Verif.Model.FloatMap
import Verif.Props.FloatMap
import Verif.Model.FloatStep
import Verif.Props.FloatStep
import Verif.Model.FloatLaw
import Verif.Model.FloatSeg
import Verif.Lemmas.FloatFluid
import Verif.Lemmas.FloatScale
import Verif.Lemmas.FloatScaleStep
import Verif.Lemmas.FloatLawScale
import Verif.Props.FloatUnits
import Verif.Props.FloatLaw
import Verif.Lemmas.FloatTrack
import Verif.Props.FloatRun
import Verif.Model.FloatRange
import Verif.Props.FloatRange
import Verif.Props.FloatBalance
import Verif.Props.FloatFluid
import Verif.Props.FloatSeg
import Verif.Props.FloatYield
import Verif.Props.NTGrid
import Verif.Props.FloatYieldRun
import Verif.Props.FloatSize
import Verif.Props.FloatDp
import Verif.Props.FloatInit
import Verif.Props.FloatWhole
import Verif.Props.FloatForces
import Verif.Props.FloatGradient
import Verif.Props.FloatDiffusion
