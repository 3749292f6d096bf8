import Verif.Model.TextIo

/-! The exception classes of `/repo/orocos_kdl/src/utilities/error.h` and the classes of what the functions of the other models throw. -/

namespace KDL.Err

/-- The classes, utilities/error.h:56–243. -/
inductive Cls
  | Error
  | Error_IO
  | Error_BasicIO
  | Error_BasicIO_File
  | Error_BasicIO_Exp_Delim
  | Error_BasicIO_Not_A_Space
  | Error_BasicIO_Unexpected
  | Error_BasicIO_ToBig
  | Error_BasicIO_Not_Opened
  | Error_FrameIO
  | Error_Frame_Vector_Unexpected_id
  | Error_Frame_Frame_Unexpected_id
  | Error_Frame_Rotation_Unexpected_id
  | Error_ChainIO
  | Error_Chain_Unexpected_id
  | Error_RedundancyIO
  | Error_Redundancy_Illegal_Resolutiontype
  | Error_Redundancy
  | Error_Redundancy_Unavoidable
  | Error_Redundancy_Low_Manip
  | Error_MotionIO
  | Error_MotionIO_Unexpected_MotProf
  | Error_MotionIO_Unexpected_Traj
  | Error_MotionPlanning
  | Error_MotionPlanning_Circle_ToSmall
  | Error_MotionPlanning_Circle_No_Plane
  | Error_MotionPlanning_Incompatible
  | Error_MotionPlanning_Not_Feasible
  | Error_MotionPlanning_Not_Applicable
  | Error_Integrator
  | Error_Stepsize_Underflow
  | Error_To_Many_Steps
  | Error_Stepsize_To_Small
  | Error_Criterium
  | Error_Criterium_Unexpected_id
  | Error_Limits
  | Error_Limits_Unexpected_id
  | Error_Not_Implemented
  deriving DecidableEq

/-- The base class, utilities/error.h:69–239 (`class X : public Y`). -/
def Cls.base : Cls → Option Cls
  | .Error => none
  | .Error_IO => some .Error
  | .Error_BasicIO => some .Error_IO
  | .Error_BasicIO_File => some .Error_BasicIO
  | .Error_BasicIO_Exp_Delim => some .Error_BasicIO
  | .Error_BasicIO_Not_A_Space => some .Error_BasicIO
  | .Error_BasicIO_Unexpected => some .Error_BasicIO
  | .Error_BasicIO_ToBig => some .Error_BasicIO
  | .Error_BasicIO_Not_Opened => some .Error_BasicIO
  | .Error_FrameIO => some .Error_IO
  | .Error_Frame_Vector_Unexpected_id => some .Error_FrameIO
  | .Error_Frame_Frame_Unexpected_id => some .Error_FrameIO
  | .Error_Frame_Rotation_Unexpected_id => some .Error_FrameIO
  | .Error_ChainIO => some .Error
  | .Error_Chain_Unexpected_id => some .Error_ChainIO
  | .Error_RedundancyIO => some .Error_IO
  | .Error_Redundancy_Illegal_Resolutiontype => some .Error_RedundancyIO
  | .Error_Redundancy => some .Error
  | .Error_Redundancy_Unavoidable => some .Error_Redundancy
  | .Error_Redundancy_Low_Manip => some .Error_Redundancy
  | .Error_MotionIO => some .Error
  | .Error_MotionIO_Unexpected_MotProf => some .Error_MotionIO
  | .Error_MotionIO_Unexpected_Traj => some .Error_MotionIO
  | .Error_MotionPlanning => some .Error
  | .Error_MotionPlanning_Circle_ToSmall => some .Error_MotionPlanning
  | .Error_MotionPlanning_Circle_No_Plane => some .Error_MotionPlanning
  | .Error_MotionPlanning_Incompatible => some .Error_MotionPlanning
  | .Error_MotionPlanning_Not_Feasible => some .Error_MotionPlanning
  | .Error_MotionPlanning_Not_Applicable => some .Error_MotionPlanning
  | .Error_Integrator => some .Error
  | .Error_Stepsize_Underflow => some .Error_Integrator
  | .Error_To_Many_Steps => some .Error_Integrator
  | .Error_Stepsize_To_Small => some .Error_Integrator
  | .Error_Criterium => some .Error
  | .Error_Criterium_Unexpected_id => some .Error_Criterium
  | .Error_Limits => some .Error
  | .Error_Limits_Unexpected_id => some .Error_Limits
  | .Error_Not_Implemented => some .Error

/-- `k` is `b` or derived from it: a handler `catch (b&)` takes an exception of class `k`. -/
inductive Cls.Isa : Cls → Cls → Prop
  | refl (k) : Isa k k
  | step {k k' b} : k.base = some k' → Isa k' b → Isa k b

/-- An exception object: its class and its members.  `msg`, `typenr`: members of `Error_IO` (utilities/error.h:70–71), `reason`: member of
`Error_MotionPlanning_Not_Feasible` (:183), an `int`; `none` is a member that was never written. -/
structure Exc where
  cls : Cls
  msg : Option String
  typenr : Option ℤ
  reason : Option ℤ

/-- The constructor of `Error_IO`, utilities/error.h:73: the parameter `typenr` hides the member of that name and is not used, so the
member is left without a value. -/
def Exc.io (msg : String := "Unspecified I/O Error") (_typenr : ℤ := 0) : Exc := ⟨.Error_IO, some msg, none, none⟩

/-- Default construction of the classes that have a default constructor: the base class part of a class derived from `Error_IO` is made by
`Error_IO()`. -/
def Exc.default (k : Cls) : Exc := { Exc.io with cls := k }

/-- `Error_MotionPlanning_Not_Feasible(reason)`, utilities/error.h:185. -/
def Exc.notFeasible (reason : ℤ) : Exc := ⟨.Error_MotionPlanning_Not_Feasible, none, none, some reason⟩

/-- The constants returned by the overriders of `GetType`, utilities/error.h:65–242. -/
def Cls.constType : Cls → Option ℤ
  | .Error => some 0
  | .Error_BasicIO_File => some 1
  | .Error_BasicIO_Exp_Delim => some 2
  | .Error_BasicIO_Not_A_Space => some 3
  | .Error_BasicIO_Unexpected => some 4
  | .Error_BasicIO_ToBig => some 5
  | .Error_BasicIO_Not_Opened => some 6
  | .Error_Frame_Vector_Unexpected_id => some 101
  | .Error_Frame_Frame_Unexpected_id => some 102
  | .Error_Frame_Rotation_Unexpected_id => some 103
  | .Error_Chain_Unexpected_id => some 201
  | .Error_Redundancy_Illegal_Resolutiontype => some 301
  | .Error_Redundancy_Unavoidable => some 1002
  | .Error_Redundancy_Low_Manip => some 1003
  | .Error_MotionIO_Unexpected_MotProf => some 2001
  | .Error_MotionIO_Unexpected_Traj => some 2002
  | .Error_MotionPlanning_Circle_ToSmall => some 3001
  | .Error_MotionPlanning_Circle_No_Plane => some 3002
  | .Error_MotionPlanning_Incompatible => some 3003
  | .Error_MotionPlanning_Not_Applicable => some 3004
  | .Error_Stepsize_Underflow => some 4001
  | .Error_To_Many_Steps => some 4002
  | .Error_Stepsize_To_Small => some 4003
  | .Error_Criterium_Unexpected_id => some 5001
  | .Error_Limits_Unexpected_id => some 6001
  | .Error_Not_Implemented => some 7000
  | _ => none

/-- The strings returned by the overriders of `Description`, utilities/error.h:63–241. -/
def Cls.constDescr : Cls → Option String
  | .Error => some "Unspecified Error\n"
  | .Error_BasicIO_File => some "Error while reading stream"
  | .Error_BasicIO_Exp_Delim => some "Expected Delimiter not encountered"
  | .Error_BasicIO_Not_A_Space => some "Expected space,tab or newline not encountered"
  | .Error_BasicIO_Unexpected => some "Unexpected character"
  | .Error_BasicIO_ToBig => some "Word that is read out of stream is bigger than maxsize"
  | .Error_BasicIO_Not_Opened => some "File cannot be opened"
  | .Error_Frame_Vector_Unexpected_id => some "Unexpected identifier, expecting a vector (explicit or ZERO)"
  | .Error_Frame_Frame_Unexpected_id => some "Unexpected identifier, expecting a Frame (explicit or DH)"
  | .Error_Frame_Rotation_Unexpected_id =>
    some "Unexpected identifier, expecting a Rotation (explicit or EULERZYX, EULERZYZ, RPY,ROT,IDENTITY)"
  | .Error_Chain_Unexpected_id => some "Unexpected identifier, expecting TRANS or ROT"
  | .Error_Redundancy_Illegal_Resolutiontype => some "Illegal Resolutiontype is used in I/O with ResolutionTask"
  | .Error_Redundancy_Unavoidable => some "Joint limits cannot be avoided"
  | .Error_Redundancy_Low_Manip => some "Manipulability is very low"
  | .Error_MotionIO_Unexpected_MotProf => some "Wrong keyword while reading motion profile"
  | .Error_MotionIO_Unexpected_Traj => some "Trajectory type keyword not known"
  | .Error_MotionPlanning_Circle_ToSmall => some "Circle : radius is to small"
  | .Error_MotionPlanning_Circle_No_Plane => some "Circle : Plane for motion is not properly defined"
  | .Error_MotionPlanning_Incompatible => some "Acceleration of a rectangular velocityprofile cannot be used"
  | .Error_MotionPlanning_Not_Feasible => some "Motion Profile with requested parameters is not feasible"
  | .Error_MotionPlanning_Not_Applicable => some "Method is not applicable for this derived object"
  | .Error_Stepsize_Underflow => some "Stepsize Underflow"
  | .Error_To_Many_Steps => some "To many steps"
  | .Error_Stepsize_To_Small => some "Stepsize to small"
  | .Error_Criterium_Unexpected_id => some "Unexpected identifier while reading a criterium"
  | .Error_Limits_Unexpected_id => some "Unexpected identifier while reading a jointlimits"
  | .Error_Not_Implemented => some "The requested object/method/function is not implemented"
  | _ => none

/-- What a call of `GetType()` gives. -/
inductive Res
  | val (n : ℤ)
  /-- an indeterminate value, or overflow of `int` -/
  | ub
  deriving DecidableEq

/-- `GetType()` as the class `k` implements it for the object `x`; `none`: not overridden there.  `Error_IO` returns the member
(utilities/error.h:75), `Error_MotionPlanning_Not_Feasible` returns `3100+reason` (:189). -/
def Cls.ownType (x : Exc) : Cls → Option Res
  | .Error_IO => some (match x.typenr with | some n => .val n | none => .ub)
  | .Error_MotionPlanning_Not_Feasible => some (match x.reason with
    | some n => if 3100 + n < 2 ^ 31 then .val (3100 + n) else .ub
    | none => .ub)
  | k => k.constType.map .val

/-- `Description()` as the class implements it: `Error_IO` returns the message, utilities/error.h:74. -/
def Cls.ownDescr (x : Exc) : Cls → Option (Option String)
  | .Error_IO => some x.msg
  | k => k.constDescr.map some

/-- Virtual call: the overrider nearest to the class of the object.  The inheritance is at most four classes deep. -/
def dispatch {α : Type} (own : Cls → Option α) : ℕ → Cls → Option α
  | 0, _ => none
  | n + 1, k =>
    match own k with
    | some a => some a
    | none => match k.base with
      | some b => dispatch own n b
      | none => none

/-- `x.GetType()`. -/
def Exc.getType (x : Exc) : Option Res := dispatch (Cls.ownType x) 4 x.cls
/-- `x.Description()`. -/
def Exc.description (x : Exc) : Option (Option String) := dispatch (Cls.ownDescr x) 4 x.cls

/-- The classes of the exceptions of the reading functions (Model/TextIo.lean); what the constructor of a path throws is known there only
to be an `Error_MotionPlanning`. -/
def ioCls : TextIo.IoErr → Cls
  | .file => .Error_BasicIO_File
  | .expDelim => .Error_BasicIO_Exp_Delim
  | .notASpace => .Error_BasicIO_Not_A_Space
  | .unexpected => .Error_BasicIO_Unexpected
  | .vectorId => .Error_Frame_Vector_Unexpected_id
  | .rotationId => .Error_Frame_Rotation_Unexpected_id
  | .frameId => .Error_Frame_Frame_Unexpected_id
  | .unexpectedTraj => .Error_MotionIO_Unexpected_Traj
  | .unexpectedProf => .Error_MotionIO_Unexpected_MotProf
  | .notImplemented => .Error_Not_Implemented
  | .planning => .Error_MotionPlanning

/-- The exception of a planning function (Model/Path.lean). -/
def planExc {α : Type} : PathRes α → Option Exc
  | .ok _ => none
  | .tooSmall => some (.default .Error_MotionPlanning_Circle_ToSmall)
  | .noPlane => some (.default .Error_MotionPlanning_Circle_No_Plane)
  | .notFeasible k => some (.notFeasible k)
  | .nan => none

end KDL.Err
