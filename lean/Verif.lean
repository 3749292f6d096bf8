import Verif.Lemmas.Angles
import Verif.Lemmas.Calculus
import Verif.Lemmas.Chain
import Verif.Lemmas.ChainKin
import Verif.Lemmas.Corner
import Verif.Lemmas.Dynamics
import Verif.Lemmas.Frames
import Verif.Lemmas.HybridDynamics
import Verif.Lemmas.Inertia
import Verif.Lemmas.JacDot
import Verif.Lemmas.Lagrange
import Verif.Lemmas.Leg
import Verif.Lemmas.Lma
import Verif.Lemmas.Macie
import Verif.Lemmas.MassMatrix
import Verif.Lemmas.NewtonEuler
import Verif.Lemmas.NewtonStep
import Verif.Lemmas.NonFinite
import Verif.Lemmas.Ownership
import Verif.Lemmas.OwnershipRead
import Verif.Lemmas.Path
import Verif.Lemmas.Rall
import Verif.Lemmas.Recurrence
import Verif.Lemmas.RotLog
import Verif.Lemmas.Rotations
import Verif.Lemmas.Rounding
import Verif.Lemmas.RoundingDyn
import Verif.Lemmas.RoundingIk
import Verif.Lemmas.RoundingMass
import Verif.Lemmas.Svd
import Verif.Lemmas.SvdAccum
import Verif.Lemmas.SvdConv
import Verif.Lemmas.SvdDiag
import Verif.Lemmas.SvdInv
import Verif.Lemmas.SvdReduce
import Verif.Lemmas.SvdReflect
import Verif.Lemmas.SvdRun
import Verif.Lemmas.SvdSort
import Verif.Lemmas.SvdTotal
import Verif.Lemmas.SvdTwo
import Verif.Lemmas.TextIo
import Verif.Lemmas.TrajExample
import Verif.Lemmas.Tree
import Verif.Lemmas.TreeDynamics
import Verif.Lemmas.TreeIk
import Verif.Lemmas.TreeKin
import Verif.Lemmas.VelocityProfile
import Verif.Model.Calculus
import Verif.Model.Chain
import Verif.Model.ChainKin
import Verif.Model.Dynamics
import Verif.Model.Errors
import Verif.Model.FrameVel
import Verif.Model.FrameVelOps
import Verif.Model.Frames
import Verif.Model.Geometry
import Verif.Model.Hash
import Verif.Model.HybridDynamics
import Verif.Model.IkPos
import Verif.Model.IkVel
import Verif.Model.InPlace
import Verif.Model.InPlaceHybrid
import Verif.Model.InPlaceTree
import Verif.Model.Inertia
import Verif.Model.JacDotUpdate
import Verif.Model.JntArray
import Verif.Model.KinfamIo
import Verif.Model.Lma
import Verif.Model.LmaDemo
import Verif.Model.Macie
import Verif.Model.Make4x4
import Verif.Model.NonFinite
import Verif.Model.NonFiniteLma
import Verif.Model.NonFiniteTree
import Verif.Model.Ownership
import Verif.Model.Path
import Verif.Model.PyBind
import Verif.Model.PyLife
import Verif.Model.PyView
import Verif.Model.Rall
import Verif.Model.RallNested
import Verif.Model.RallOps
import Verif.Model.Rk4
import Verif.Model.RobotPrograms
import Verif.Model.Robots
import Verif.Model.Rounding
import Verif.Model.RoundingDH
import Verif.Model.RoundingDyn
import Verif.Model.RoundingDynParam
import Verif.Model.RoundingIk
import Verif.Model.RoundingJac
import Verif.Model.RoundingMass
import Verif.Model.RoundingRbi
import Verif.Model.RoundingRot
import Verif.Model.RoundingTree
import Verif.Model.RoundingVel
import Verif.Model.ScopedPtr
import Verif.Model.SolverErrors
import Verif.Model.Stiffness
import Verif.Model.Storage
import Verif.Model.Svd
import Verif.Model.TextIo
import Verif.Model.TrajExample
import Verif.Model.Tree
import Verif.Model.TreeDynamics
import Verif.Model.TreeIk
import Verif.Model.VelIo
import Verif.Model.VelocityProfile
import Verif.Model.WrenchEstimator
import Verif.Props.AxisAngle
import Verif.Props.ChainOps
import Verif.Props.CommentEnd
import Verif.Props.CyclicPath
import Verif.Props.Descript
import Verif.Props.DhConventions
import Verif.Props.DualNumbers
import Verif.Props.Duality
import Verif.Props.Dynamics
import Verif.Props.Energy
import Verif.Props.Equal
import Verif.Props.Errors
import Verif.Props.EulerAngles
import Verif.Props.EulerBand
import Verif.Props.ForwardDynamics
import Verif.Props.ForwardKinematics
import Verif.Props.FrameGroup
import Verif.Props.FrameVelAcc
import Verif.Props.FrameVelOps
import Verif.Props.FramesIo
import Verif.Props.Geometry
import Verif.Props.Hash
import Verif.Props.HybridDynamics
import Verif.Props.IkPos
import Verif.Props.IkPosDefault
import Verif.Props.IkVel
import Verif.Props.InPlace
import Verif.Props.InPlaceHybrid
import Verif.Props.InPlaceSolvers
import Verif.Props.InPlaceTree
import Verif.Props.Inertia
import Verif.Props.Integrate
import Verif.Props.JacDotUpdate
import Verif.Props.JacobianDot
import Verif.Props.JacobianOps
import Verif.Props.JntArrays
import Verif.Props.Joining
import Verif.Props.JointSegment
import Verif.Props.KinfamIo
import Verif.Props.KukaDynamics
import Verif.Props.Lagrange
import Verif.Props.LinearSolve
import Verif.Props.Lma
import Verif.Props.LmaDemo
import Verif.Props.LmaGradient
import Verif.Props.Lumping
import Verif.Props.Macie
import Verif.Props.Make4x4
import Verif.Props.MotionIo
import Verif.Props.MotionIoErrors
import Verif.Props.Newton
import Verif.Props.NewtonLoop
import Verif.Props.NewtonPinv
import Verif.Props.NonFinite
import Verif.Props.NonFiniteLma
import Verif.Props.NonFiniteTree
import Verif.Props.Ownership
import Verif.Props.PathCircle
import Verif.Props.PathComposite
import Verif.Props.PathLine
import Verif.Props.Planar
import Verif.Props.PyItems
import Verif.Props.PyLife
import Verif.Props.PyPickle
import Verif.Props.PyView
import Verif.Props.Quaternion
import Verif.Props.RallNested
import Verif.Props.RallOps
import Verif.Props.Regauge
import Verif.Props.Rk4
import Verif.Props.RobotPrograms
import Verif.Props.Robots
import Verif.Props.RotationConstructors
import Verif.Props.RoundedComposite
import Verif.Props.RoundedIo
import Verif.Props.RoundedSpeed
import Verif.Props.Rounding
import Verif.Props.RoundingArm
import Verif.Props.RoundingDH
import Verif.Props.RoundingDyn
import Verif.Props.RoundingDynParam
import Verif.Props.RoundingIk
import Verif.Props.RoundingJac
import Verif.Props.RoundingMass
import Verif.Props.RoundingMassSym
import Verif.Props.RoundingRbi
import Verif.Props.RoundingRot
import Verif.Props.RoundingTree
import Verif.Props.RoundingVel
import Verif.Props.ScopedPtr
import Verif.Props.SimpleProfiles
import Verif.Props.SolverErrors
import Verif.Props.Stiffness
import Verif.Props.Storage
import Verif.Props.Svd
import Verif.Props.TimeScaling
import Verif.Props.TrajExample
import Verif.Props.Trajectory
import Verif.Props.TrapHalfProfile
import Verif.Props.TrapProfile
import Verif.Props.TreeDynamics
import Verif.Props.TreeEnergy
import Verif.Props.TreeIkOnline
import Verif.Props.TreeIkPos
import Verif.Props.TreeIkVel
import Verif.Props.TreeKin
import Verif.Props.TreeNumbering
import Verif.Props.VectorNorm
import Verif.Props.VelIo
import Verif.Props.WrenchEstimator
