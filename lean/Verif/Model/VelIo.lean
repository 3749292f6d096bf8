import Verif.Model.TextIo
import Verif.Model.FrameVel
import Verif.Model.Rall

/-!
# Display of velocity and acceleration types and of dual numbers

Model of framevel_io.hpp, frameacc_io.hpp, utilities/rall1d_io.h and utilities/rall2d_io.h (citations relative to
orocos_kdl/src).  The stream has the default flags; the conversion of numbers to text is a parameter, see Model/TextIo.lean.
`std::endl` is a newline.  There are no input operators for these types.
-/

noncomputable section
namespace KDL.VelIo
open TextIo
variable (N : NumIo)

/-- `<< VectorVel`, framevel_io.hpp:29. -/
def writeVecVel (r : VecVel) : List Char := '{' :: writeVec N r.p ++ ',' :: writeVec N r.v ++ ['}', '\n']
/-- `<< RotationVel`, framevel_io.hpp:34. -/
def writeRotVel (r : RotVel) : List Char :=
  '{' :: '\n' :: writeRot N r.R ++ ',' :: '\n' :: writeVec N r.w ++ ['\n', '}', '\n']
/-- `<< FrameVel`, framevel_io.hpp:40. -/
def writeFrameVel (r : FrameVel) : List Char :=
  '{' :: '\n' :: writeRotVel N r.M ++ ',' :: '\n' :: writeVecVel N r.p ++ ['\n', '}', '\n']
/-- `<< TwistVel`, framevel_io.hpp:45. -/
def writeTwistVel (r : TwistVel) : List Char :=
  '{' :: '\n' :: writeVecVel N r.vel ++ ',' :: '\n' :: writeVecVel N r.rot ++ ['\n', '}', '\n']

/-- `<< VectorAcc`, frameacc_io.hpp:32. -/
def writeVecAcc (r : VecAcc) : List Char :=
  '{' :: writeVec N r.p ++ ',' :: writeVec N r.v ++ ',' :: writeVec N r.dv ++ ['}', '\n']
/-- `<< RotationAcc`, frameacc_io.hpp:37. -/
def writeRotAcc (r : RotAcc) : List Char :=
  '{' :: '\n' :: writeRot N r.R ++ ',' :: '\n' :: writeVec N r.w ++ ',' :: '\n' :: writeVec N r.dw ++ ['\n', '}', '\n']
/-- `<< FrameAcc`, frameacc_io.hpp:44. -/
def writeFrameAcc (r : FrameAcc) : List Char :=
  '{' :: '\n' :: writeRotAcc N r.M ++ ',' :: '\n' :: writeVecAcc N r.p ++ ['}', '\n']
/-- `<< TwistAcc`, frameacc_io.hpp:48. -/
def writeTwistAcc (r : TwistAcc) : List Char :=
  '{' :: '\n' :: writeVecAcc N r.vel ++ ',' :: '\n' :: writeVecAcc N r.rot ++ ['\n', '}', '\n']

/-- `<< Rall1d<double>`, utilities/rall1d_io.h:28; `ty` is `typeid(double).name()`, which depends on the compiler. -/
def writeRall1d (ty : List Char) (r : Rall1d) : List Char :=
  "Rall1d<".toList ++ ty ++ ", ".toList ++ ty ++ ", ".toList ++ ty ++ ">(".toList ++ N.fmt r.t ++ ',' :: N.fmt r.grad ++ [')']
/-- `<< Rall2d<double>`, utilities/rall2d_io.h:29. -/
def writeRall2d (ty : List Char) (r : Rall2d) : List Char :=
  "Rall2d<".toList ++ ty ++ ", ".toList ++ ty ++ ", ".toList ++ ty ++ ">(".toList ++ N.fmt r.t ++ ',' :: N.fmt r.d ++
    ',' :: N.fmt r.dd ++ [')']
end KDL.VelIo
