import Verif.Np
import Verif.Model.HealpixIndex
import Verif.Model.HealpixCoords
import Verif.Model.HealpixBoundary
import Verif.Model.RandomsUsphere
import Verif.Props.Healpix
import Verif.Props.HealpixRandoms
import Verif.Props.Coords
import Verif.Props.PolarRotate
import Verif.Props.Remap
import Verif.Props.OneD
import Verif.Props.Grids
import Verif.Props.Randoms
import Verif.Props.Subsample
import Verif.Props.Shapes
import Verif.Props.Progress
import Verif.Props.DgBox2Ring
import Verif.Props.DgRemap64
import Verif.Props.DgCube64
import Verif.Props.OneD64
import Verif.Props.Box2RingCalls
import Verif.Props.Box2RingMask
import Verif.Props.Box2RingSetup
import Verif.Props.Linear
import Verif.Props.McBox2Ring
import Verif.Props.McCube2Shell
import Verif.Props.PointOfView
import Verif.Props.Heal2Ortho
import Verif.Props.DgCube2Shell
import Verif.Props.DgCubeAttrs
import Verif.Props.HealSky
import Verif.Props.HealpixSky
import Verif.Props.Plots
import Verif.Props.SkyGroup
import Verif.Props.RotateMethods
import Verif.Props.McLimit
import Verif.Props.HealpixNeigh
import Verif.Props.DgLimit
import Verif.Props.DgRate
import Verif.Props.DgCubeLimit
import Verif.Props.Float64
import Verif.Props.RemapNan
import Verif.Props.Conversions64
import Verif.Props.McCubeLimit
import Verif.Props.McMoments
import Verif.Props.McReads
import Verif.Props.Remap64
import Verif.Props.RemapRound
import Verif.Props.ObjectCalls
import Verif.Props.RadialErrors
import Verif.Props.Rejected
import Verif.Props.Grids64
import Verif.Props.Randoms64
import Verif.Props.Means64
import Verif.Props.RemapScale
import Verif.Props.RebinSelf
import Verif.Props.Draws
import Verif.Props.Independent
import Verif.Props.Degenerate
import Verif.Props.DegenerateCube
import Verif.Props.Pointwise
import Verif.Props.OrthoLimit
import Verif.Props.ProfileLimit
import Verif.Props.Spline
import Verif.Props.Cumulative64
import Verif.Props.Units
import Verif.Props.Weights
import Verif.Props.View
import Verif.Props.Mono
import Verif.Props.Missing
import Verif.Props.MissingCube
import Verif.Props.MissingSky
import Verif.Props.Lines
import Verif.Props.MissingRing
import Verif.Props.MissingBin
import Verif.Props.MissingSum
import Verif.Props.MissingError
import Verif.Props.Mirror
import Verif.Props.Conserve
import Verif.Props.Split
import Verif.Props.Turned
