import Verif.Num
import Verif.XR
import Verif.Model.Prim
import Verif.Model.Constraint
import Verif.Model.Sketch
import Verif.Model.Solver
import Verif.Model.Decompose
import Verif.Model.Api
import Verif.Test.Replay
import Verif.Spec
import Verif.SpecReal
import Verif.Lemmas.Frame
import Verif.Lemmas.Data
import Verif.Lemmas.Hist
import Verif.Lemmas.Chunk
import Verif.Lemmas.Exact
import Verif.Lemmas.Loss
import Verif.Lemmas.Force
import Verif.Lemmas.FinCons
import Verif.Lemmas.Grad
import Verif.Lemmas.Deriv
import Verif.Lemmas.Param
import Verif.Lemmas.Solver
import Verif.XRLaws
import Verif.Lemmas.Bfgs
import Verif.Lemmas.ExFix
import Verif.Lemmas.ExRun
import Verif.Lemmas.Newton
import Verif.Props.Bookkeeping
import Verif.Props.Data
import Verif.Props.Loss
import Verif.Props.Gradient
import Verif.Props.Solver
import Verif.Props.SolverExact
import Verif.SpecRing
import Verif.Lemmas.Ring
import Verif.Lemmas.Polygon
import Verif.Props.Rings
import Verif.Props.RingsExact
import Verif.Props.Polygon
import Verif.Lemmas.Sim
import Verif.Lemmas.Grid
import Verif.Props.Unused
import Verif.Props.HardLeft
import Verif.Props.GradFree
import Verif.Props.Faces
import Verif.Model.Multi
import Verif.Props.Clone
import Verif.Model.Serde
import Verif.Lemmas.Serde
import Verif.Props.Serde
import Verif.Props.SerdeFaces
import Verif.Model.Borrow
import Verif.Model.BorrowApi
import Verif.Lemmas.Borrow
import Verif.Lemmas.BorrowSketch
import Verif.Lemmas.BorrowFaces
import Verif.Props.Borrow
import Verif.Lemmas.NewtonStep
import Verif.Lemmas.GenInv
import Verif.Props.Newton
import Verif.Lemmas.Diff
import Verif.Props.Contract
import Verif.Round
import Verif.B64
import Verif.B64Laws
import Verif.Lemmas.Float
import Verif.Props.Float
import Verif.Lemmas.FloatBound
import Verif.Lemmas.FloatCons
import Verif.Props.FloatPanic
import Verif.Model.Examples
import Verif.Lemmas.Layout
import Verif.Lemmas.FinLoss
import Verif.Props.Stairs
import Verif.Props.Rectangles
import Verif.Props.Rotated
import Verif.Props.Circle
import Verif.Model.Setters
import Verif.Props.Setters
import Verif.Lemmas.NonFinite
import Verif.Props.NonFinite
import Verif.Lemmas.GridArc
import Verif.Props.Arcs
import Verif.Props.RingCompare
import Verif.Lemmas.Linear
import Verif.Lemmas.LinearSearch
import Verif.Lemmas.LinearGD
import Verif.Props.Linear
import Verif.Props.StairsDescent
import Verif.Lemmas.LinearBFGS
import Verif.Props.LinearBFGS
import Verif.SpecLocal
import Verif.Lemmas.Resid
import Verif.Lemmas.SketchResid
import Verif.Lemmas.Local
import Verif.Lemmas.LocalGD
import Verif.Lemmas.LocalTame
import Verif.Props.Local
import Verif.SpecCut
import Verif.Lemmas.Cut
import Verif.Props.Cut
import Verif.Props.Damped
import Verif.SpecLeft
import Verif.Lemmas.Left
import Verif.Lemmas.LeftWalk
import Verif.Lemmas.LeftGrid
import Verif.Props.Left
import Verif.Lemmas.LeftMap
import Verif.Props.LeftMove
import Verif.SpecSmooth
import Verif.Lemmas.Smooth
import Verif.Lemmas.Forest
import Verif.Props.Smooth
import Verif.Props.Forest
import Verif.SpecChord
import Verif.Lemmas.Chord
import Verif.Lemmas.Midpoint
import Verif.Props.Chord
import Verif.Props.Midpoint
import Verif.Props.Witness
import Verif.SpecAlike
import Verif.Lemmas.Alike
import Verif.Lemmas.MoveBy
import Verif.Lemmas.AnyOrder
import Verif.Lemmas.Reorder
import Verif.Lemmas.ReorderCut
import Verif.Props.MoveBy
import Verif.Props.AnyOrder
import Verif.Props.Reorder
import Verif.Lemmas.Check
import Verif.Props.Check
import Verif.SpecTurn
import Verif.Lemmas.Turn
import Verif.Lemmas.TurnMat
import Verif.Lemmas.TurnRun
import Verif.Lemmas.TurnNewton
import Verif.Props.Turn
import Verif.Props.StopExact
import Verif.SpecFloat
import Verif.Lemmas.FloatErr
import Verif.Lemmas.FloatLoss
import Verif.Lemmas.FloatWithin
import Verif.Lemmas.FloatMet
import Verif.Props.FloatOk
import Verif.Props.FloatNumber
import Verif.SpecApart
import Verif.Lemmas.Apart
import Verif.Props.Apart
import Verif.SpecPart
import Verif.Lemmas.Part
import Verif.Props.Part
import Verif.SpecConflict
import Verif.Lemmas.Conflict
import Verif.Props.Conflict
import Verif.SpecCount
import Verif.Lemmas.Tree
import Verif.Lemmas.LeastSquares
import Verif.Props.LeastSquares
import Verif.SpecResume
import Verif.Lemmas.Resume
import Verif.Props.Resume
import Verif.SpecStill
import Verif.Lemmas.Still
import Verif.Props.Still
import Verif.SpecNear
import Verif.Lemmas.FloatNear
import Verif.Lemmas.FloatGrad
import Verif.Lemmas.FloatKinds
import Verif.Lemmas.FloatAngle
import Verif.Lemmas.FloatSum
import Verif.Lemmas.FloatNearLoss
import Verif.Props.FloatClose
import Verif.SpecClear
import Verif.Lemmas.RingSim
import Verif.Lemmas.FloatTurn
import Verif.Lemmas.FloatWalk
import Verif.Lemmas.FloatArea
import Verif.Props.FloatRings
import Verif.SpecDescent
import Verif.Lemmas.Noise
import Verif.Lemmas.FloatAcc
import Verif.Lemmas.FloatLinear
import Verif.Lemmas.FloatNoisy
import Verif.Lemmas.FloatSearch
import Verif.Lemmas.FloatStep
import Verif.Lemmas.FloatDescent
import Verif.Props.FloatDescent
import Verif.Lemmas.FloatStairs
import Verif.Lemmas.StairsAny
import Verif.Props.FloatStairs
import Verif.Props.FloatStairsRun
import Verif.SpecAlone
import Verif.Lemmas.Alone
import Verif.Lemmas.AloneStep
import Verif.Props.Alone
import Verif.Props.StaleStep
import Verif.Props.AddGradient
import Verif.SpecDelete
import Verif.Lemmas.Deleted
import Verif.Props.Deleted
import Verif.SpecNearest
import Verif.Lemmas.Nearest
import Verif.Lemmas.NearestNewton
import Verif.Props.Nearest
import Verif.SpecLong
import Verif.Lemmas.TurnRate
import Verif.Lemmas.LongLines
import Verif.Lemmas.LongSearch
import Verif.Props.LongLines
import Verif.SpecSwap
import Verif.Lemmas.Swap
import Verif.Props.Swap
import Verif.SpecMet
import Verif.Lemmas.FloatSmall
import Verif.Props.Met
import Verif.SpecUnit
import Verif.Lemmas.Unit
import Verif.Props.Unit
import Verif.SpecEdit
import Verif.Props.Edit
import Verif.SpecPath
import Verif.Lemmas.Path
import Verif.Props.Path
import Verif.SpecSelf
import Verif.Lemmas.Self
import Verif.Props.Self
import Verif.Props.AxisRing
import Verif.SpecSym
import Verif.Lemmas.Rename
import Verif.Lemmas.Sym
import Verif.Props.Sym
import Verif.SpecBalance
import Verif.Lemmas.Balance
import Verif.Props.Balance
import Verif.SpecTorque
import Verif.Lemmas.Torque
import Verif.Props.Torque
import Verif.SpecSpread
import Verif.Lemmas.Spread
import Verif.Props.Spread
import Verif.SpecWay
import Verif.Lemmas.Way
import Verif.Props.Way
import Verif.Lemmas.Leap
import Verif.Props.Leap
