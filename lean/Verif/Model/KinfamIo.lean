import Verif.Model.TextIo
import Verif.Model.Tree
import Verif.Model.Dynamics

/-!
# Display of joints, segments, chains, trees and matrices

Model of orocos_kdl/src/kinfam_io.cpp (citations relative to orocos_kdl/src).  The stream has the default flags; the
conversion of numbers to text is a parameter, see Model/TextIo.lean.  `<< JntArray` and the `>>` operators, which do nothing,
are in Model/TextIo.lean.
-/

noncomputable section
namespace KDL.KinfamIo
open TextIo

/-- `Joint::getTypeName`, joint.hpp:169. -/
def typeName : JointType → String
  | .RotAxis => "RotAxis"
  | .TransAxis => "TransAxis"
  | .RotX => "RotX"
  | .RotY => "RotY"
  | .RotZ => "RotZ"
  | .TransX => "TransX"
  | .TransY => "TransY"
  | .TransZ => "TransZ"
  | .Fixed => "Fixed"

variable (N : NumIo)

/-- `<< Joint`, kinfam_io.cpp:27. -/
def writeJoint (j : Joint) : List Char :=
  j.name.toList ++ ":[".toList ++ (typeName j.type).toList ++ ", axis: ".toList ++ writeVec N j.jointAxis ++
    ", origin".toList ++ writeVec N j.jointOrigin ++ "]".toList
/-- `<< Segment`, kinfam_io.cpp:36. -/
def writeSegment (s : Segment) : List Char :=
  s.name.toList ++ ":[".toList ++ writeJoint N s.joint ++ ",\n tip: \n".toList ++ writeFrame N s.getFrameToTip ++ "]".toList
/-- `<< Chain`, kinfam_io.cpp:45. -/
def writeChain (c : Chain) : List Char :=
  '[' :: (c.segments.flatMap fun s => writeSegment N s ++ ['\n']) ++ [']']

/-- The loops kinfam_io.cpp:89–93 and :103–107 over a matrix with `rows` rows and `cols` columns. -/
def writeMatrix (rows cols : ℕ) (m : ℕ → ℕ → ℝ) : List Char :=
  '[' :: ((List.range rows).flatMap fun i => ((List.range cols).flatMap fun j => pad (N.fmt (m i j))) ++ ['\n']) ++ [']']
/-- `jac(i,j)`, jacobian.cpp:59, for a Jacobian with that column; the loops do not leave it. -/
def jacEntry (J : Jac) (i j : ℕ) : ℝ :=
  let t := J.getD j 0
  if i = 0 then t.vel.x else if i = 1 then t.vel.y else if i = 2 then t.vel.z
  else if i = 3 then t.rot.x else if i = 4 then t.rot.y else t.rot.z
/-- `<< Jacobian`, kinfam_io.cpp:87; there are always 6 rows. -/
def writeJac (J : Jac) : List Char := writeMatrix N 6 J.length (jacEntry J)
/-- `<< JntSpaceInertiaMatrix`, kinfam_io.cpp:101. -/
def writeJMat (H : JMat) : List Char := writeMatrix N H.n H.n H.d

/-- `<< SegmentMap::const_iterator`, kinfam_io.cpp:62: the segment `n` and what hangs below it.  `none`: an iterator that does
not exist, or a recursion deeper than `fuel` (shown impossible). -/
def writeElem (t : Tree) : ℕ → String → Option (List Char)
  | 0, _ => none
  | fuel + 1, n => do
    let e ← t.find n
    let parts ← e.children.mapM (writeElem t fuel)
    return e.name.toList ++ "(q_nr: ".toList ++ N.fmtInt e.q_nr ++ ")".toList ++ "\n \t".toList ++
      (parts.flatMap fun p => p ++ ['\t']) ++ ['\n']
/-- `<< Tree`, kinfam_io.cpp:57. -/
def writeTree (t : Tree) : Option (List Char) := writeElem N t t.segments.length t.root_name

/-- `tree2str(it, separator, preamble, level)`, kinfam_io.cpp:117. -/
def elem2str (t : Tree) (separator preamble : List Char) : ℕ → ℕ → String → Option (List Char)
  | 0, _, _ => none
  | fuel + 1, level, n => do
    let e ← t.find n
    let parts ← e.children.mapM (elem2str t separator preamble fuel (level + 1))
    return preamble ++ (List.replicate level separator).flatten ++ e.name.toList ++ "(q_nr: ".toList ++
      N.fmtInt e.q_nr ++ ")\n".toList ++ parts.flatten
/-- `tree2str(tree, separator, preamble)`, kinfam_io.cpp:128. -/
def tree2str (t : Tree) (separator preamble : List Char) : Option (List Char) :=
  elem2str N t separator preamble t.segments.length 0 t.root_name
end KDL.KinfamIo
