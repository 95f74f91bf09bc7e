import Verif.Base.Inst
import Verif.Model.Particles
import Verif.Props.Weights
import Verif.Props.Symmetry
import Verif.Props.Pick
import Verif.Props.History
import Verif.Props.Safety
import Verif.Props.Time
import Verif.Props.TimeReal
import Verif.Props.Target
import Verif.Spec.Demo
import Verif.Spec.Time
import Verif.Lemmas.Records
import Verif.Lemmas.Bisim
import Verif.Lemmas.Measure
import Verif.Lemmas.Moves
import Verif.Lemmas.Hist
import Verif.Lemmas.Total
import Verif.Lemmas.Safe
import Verif.Lemmas.Time
import Verif.Lemmas.Loop
import Verif.Model.Stmt
import Verif.Model.RunStmt
import Verif.Spec.Seed
import Verif.Lemmas.Seed
import Verif.Lemmas.PyM
import Verif.Lemmas.Vars
import Verif.Lemmas.RunStmt
import Verif.Lemmas.Stmt
import Verif.Lemmas.SeedMeasure
import Verif.Props.Seed
import Verif.Props.Init
import Verif.Model.Coords
import Verif.Lemmas.Coords
import Verif.Lemmas.Float
import Verif.Props.Coords
import Verif.Model.Exposure
import Verif.Spec.Post
import Verif.Lemmas.Exposure
import Verif.Props.Exposure
import Verif.Model.Nourish
import Verif.Lemmas.Nourish
import Verif.Props.Nourish
import Verif.Props.Pipeline
import Verif.Props.Unstruct
import Verif.Props.Flux
import Verif.Props.Parallel
import Verif.Props.Slices
import Verif.Props.Stepper
import Verif.Props.Curve
import Verif.Props.Accept
import Verif.Props.Unsteady
import Verif.Props.Percentile
import Verif.Props.Mad
import Verif.Props.SpatialRun
import Verif.Props.Logging
import Verif.Props.Sharing
import Verif.Props.SharingCases
import Verif.Props.Api
import Verif.Props.Plots
import Verif.Props.Figures
import Verif.Props.Law
import Verif.Props.StepperTuples
import Verif.Props.Density
import Verif.Props.Maps
import Verif.Props.SpatialPlot
import Verif.Props.Georef
import Verif.Props.Build
import Verif.Props.RegionKind
import Verif.Props.Resume
import Verif.Props.PercentileMaps
import Verif.Props.SpatialThresholds
import Verif.Props.TimeScale
import Verif.Props.SymmetryLaw
import Verif.Props.SymmetryWalks
import Verif.Lemmas.First
import Verif.Props.Exceptions
import Verif.Props.Steepest
import Verif.Props.Draws
import Verif.Props.Alone
import Verif.Props.Outputs
import Verif.Props.Continue
import Verif.Props.Notes
import Verif.Spec.Steady
import Verif.Props.Steady
import Verif.Spec.Pool
import Verif.Lemmas.Pool
import Verif.Props.Pool
import Verif.Props.Balance
import Verif.Props.Notices
import Verif.Props.Fit
import Verif.Props.Delay
import Verif.Props.Course
import Verif.Props.SeededCourse
import Verif.Props.ExposureLaw
import Verif.Props.Ensemble
import Verif.Props.Split
import Verif.Spec.Plan
import Verif.Lemmas.Plan
import Verif.Props.Single
import Verif.Spec.Sessions
import Verif.Lemmas.Renew
import Verif.Props.Sessions
import Verif.Props.Units
import Verif.Props.Crop
import Verif.Props.Estimate
import Verif.Props.AreaMap
import Verif.Props.InputCheck
import Verif.Props.Leave
import Verif.Props.Arrival
import Verif.Props.Final
import Verif.Props.SymmetryTime
import Verif.Props.StayMap
import Verif.Props.Downstream
import Verif.Props.Outlet
import Verif.Props.Elsewhere
import Verif.Props.Throughflow
import Verif.Props.Steer
import Verif.Props.Ground
import Verif.Props.Spread
import Verif.Props.Tracking
import Verif.Props.Limit
import Verif.Props.Scatter
import Verif.Props.StandardError
import Verif.Props.SeedParts
import Verif.Props.CoordUnits
import Verif.Props.GridIndex
import Verif.Props.UniformFlow
import Verif.Audit
