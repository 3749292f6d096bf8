import Verif.Model.FrameVel

/-! Model of the overloads of framevel.hpp / framevel.inl and frameacc.hpp / frameacc.inl that `Verif.Model.FrameVel` leaves
out: constructors from constants, assignments, operators in place, operators with one constant operand, `Equal`.  `==` is `Equal`
with the tolerance `epsilon` (framevel.inl:84–115, 369–401, 413–445, 460–492, since utilities/kdl-config.h:33 defines
`KDL_USE_EQUAL`), `!=` its negation.

An operator that changes its object is the function from the object before (and the argument) to the object after. -/

noncomputable section
namespace KDL

/-! ## Velocity types -/

namespace VecVel
/-- `Zero()`, framevel.inl:346. -/
def zero : VecVel := ⟨0, 0⟩
/-- `ReverseSign()`, framevel.inl:349. -/
def reverseSign (a : VecVel) : VecVel := ⟨-a.p, -a.v⟩
/-- `SetToZero`, framevel.inl:274. -/
def setToZero (_ : VecVel) : VecVel := ⟨0, 0⟩
/-- `operator=(const Vector&)`, framevel.inl:330. -/
def assignVec (_ : VecVel) (arg : Vec) : VecVel := ⟨arg, 0⟩
/-- `operator+=`, framevel.inl:335. -/
def addAssign (a arg : VecVel) : VecVel := ⟨a.p + arg.p, a.v + arg.v⟩
/-- `operator-=`, framevel.inl:340. -/
def subAssign (a arg : VecVel) : VecVel := ⟨a.p - arg.p, a.v - arg.v⟩
/-- `Equal`, framevel.inl:360. -/
def equal (a b : VecVel) (eps : ℝ) : Prop := Vec.equal a.p b.p eps ∧ Vec.equal a.v b.v eps
/-- framevel.inl:363. -/
def equalL (a : Vec) (b : VecVel) (eps : ℝ) : Prop := Vec.equal a b.p eps ∧ Vec.equal 0 b.v eps
/-- framevel.inl:366. -/
def equalR (a : VecVel) (b : Vec) (eps : ℝ) : Prop := Vec.equal a.p b eps ∧ Vec.equal a.v 0 eps
end VecVel

namespace RotVel
/-- `Identity()`, framevel.inl:166. -/
def identity : RotVel := ⟨1, 0⟩
/-- `operator=(const Rotation&)`, framevel.inl:146. -/
def assignRot (_ : RotVel) (arg : Rot) : RotVel := ⟨arg, 0⟩
/-- `operator*(const Twist&)`, framevel.inl:617. -/
def appTwistR (a : RotVel) (x : Twist) : TwistVel := ⟨a.appR x.vel, a.appR x.rot⟩
/-- `Inverse(const Twist&)`, framevel.inl:612. -/
def invTwistR (a : RotVel) (x : Twist) : TwistVel := ⟨a.invVecR x.vel, a.invVecR x.rot⟩
/-- `Equal`, framevel.inl:404. -/
def equal (a b : RotVel) (eps : ℝ) : Prop := Vec.equal a.w b.w eps ∧ Rot.equal a.R b.R eps
/-- framevel.inl:407. -/
def equalL (a : Rot) (b : RotVel) (eps : ℝ) : Prop := Vec.equal 0 b.w eps ∧ Rot.equal a b.R eps
/-- framevel.inl:410. -/
def equalR (a : RotVel) (b : Rot) (eps : ℝ) : Prop := Vec.equal a.w 0 eps ∧ Rot.equal a.R b eps
end RotVel

namespace TwistVel
/-- `TwistVel(const Twist&)`, framevel.hpp:282. -/
def ofTwist (p : Twist) : TwistVel := ⟨.ofVec p.vel, .ofVec p.rot⟩
/-- `TwistVel(const Twist&, const Twist&)`, framevel.hpp:281. -/
def ofTwists (p v : Twist) : TwistVel := ⟨⟨p.vel, v.vel⟩, ⟨p.rot, v.rot⟩⟩
/-- `Zero()`, framevel.inl:505. -/
def zero : TwistVel := ⟨.zero, .zero⟩
/-- `ReverseSign()`, framevel.inl:511. -/
def reverseSign (a : TwistVel) : TwistVel := ⟨a.vel.reverseSign, a.rot.reverseSign⟩
/-- `SetToZero`, framevel.inl:592. -/
def setToZero (a : TwistVel) : TwistVel := ⟨a.vel.setToZero, a.rot.setToZero⟩
/-- `operator-=`, framevel.inl:527. -/
def subAssign (a arg : TwistVel) : TwistVel := ⟨a.vel.subAssign arg.vel, a.rot.subAssign arg.rot⟩
/-- `operator+=`, framevel.inl:534. -/
def addAssign (a arg : TwistVel) : TwistVel := ⟨a.vel.addAssign arg.vel, a.rot.addAssign arg.rot⟩
/-- framevel.inl:547 (and :542). -/
def smulL (c : ℝ) (a : TwistVel) : TwistVel := ⟨.smulL c a.vel, .smulL c a.rot⟩
/-- framevel.inl:552. -/
def divR (a : TwistVel) (c : ℝ) : TwistVel := ⟨a.vel.divR c, a.rot.divR c⟩
/-- `Equal`, framevel.inl:448. -/
def equal (a b : TwistVel) (eps : ℝ) : Prop := VecVel.equal a.rot b.rot eps ∧ VecVel.equal a.vel b.vel eps
/-- framevel.inl:452. -/
def equalL (a : Twist) (b : TwistVel) (eps : ℝ) : Prop := VecVel.equalL a.rot b.rot eps ∧ VecVel.equalL a.vel b.vel eps
/-- framevel.inl:456. -/
def equalR (a : TwistVel) (b : Twist) (eps : ℝ) : Prop := VecVel.equalR a.rot b.rot eps ∧ VecVel.equalR a.vel b.vel eps
end TwistVel

namespace FrameVel
/-- `Identity()`, framevel.inl:28. -/
def identity : FrameVel := ⟨.identity, .zero⟩
/-- `operator=(const Frame&)`, framevel.inl:70. -/
def assignFrame (a : FrameVel) (arg : Frame) : FrameVel := ⟨a.M.assignRot arg.M, a.p.assignVec arg.p⟩
/-- `operator*(const Twist&)`, framevel.inl:631. -/
def appTwistR (a : FrameVel) (x : Twist) : TwistVel :=
  let rot := a.M.appR x.rot
  ⟨(a.M.appR x.vel).add (a.p.cross rot), rot⟩
/-- `Inverse(const Twist&)`, framevel.inl:647. -/
def invTwistR (a : FrameVel) (x : Twist) : TwistVel :=
  ⟨a.M.invVec (VecVel.subL x.vel (a.p.crossR x.rot)), a.M.invVecR x.rot⟩
/-- `Equal`, framevel.inl:75. -/
def equal (a b : FrameVel) (eps : ℝ) : Prop := RotVel.equal a.M b.M eps ∧ VecVel.equal a.p b.p eps
/-- framevel.inl:78. -/
def equalL (a : Frame) (b : FrameVel) (eps : ℝ) : Prop := RotVel.equalL a.M b.M eps ∧ VecVel.equalL a.p b.p eps
/-- framevel.inl:81. -/
def equalR (a : FrameVel) (b : Frame) (eps : ℝ) : Prop := RotVel.equalR a.M b.M eps ∧ VecVel.equalR a.p b.p eps
end FrameVel

/-! ## Acceleration types -/

namespace VecAcc
/-- `VectorAcc(const Vector&, const Vector&)`, frameacc.hpp:70. -/
def ofVecs (p v : Vec) : VecAcc := ⟨p, v, 0⟩
/-- `Zero()`, frameacc.inl:119. -/
def zero : VecAcc := ⟨0, 0, 0⟩
/-- `ReverseSign()`, frameacc.inl:123. -/
def reverseSign (a : VecAcc) : VecAcc := ⟨-a.p, -a.v, -a.dv⟩
/-- `operator=(const Vector&)`, frameacc.inl:99. -/
def assignVec (_ : VecAcc) (arg : Vec) : VecAcc := ⟨arg, 0, 0⟩
/-- `operator+=`, frameacc.inl:106. -/
def addAssign (a arg : VecAcc) : VecAcc := ⟨a.p + arg.p, a.v + arg.v, a.dv + arg.dv⟩
/-- `operator-=`, frameacc.inl:112. -/
def subAssign (a arg : VecAcc) : VecAcc := ⟨a.p - arg.p, a.v - arg.v, a.dv - arg.dv⟩
/-- frameacc.inl:31. -/
def addL (a : Vec) (b : VecAcc) : VecAcc := ⟨a + b.p, b.v, b.dv⟩
/-- frameacc.inl:42. -/
def subR (a : VecAcc) (b : Vec) : VecAcc := ⟨a.p - b, a.v, a.dv⟩
/-- frameacc.inl:180: `r1*(1.0/r2)`. -/
def divR (a : VecAcc) (c : ℝ) : VecAcc := smulL (1 / c) a
/-- frameacc.inl:144. -/
def dotR (a : VecAcc) (b : Vec) : Rall2d := ⟨a.p.dot b, a.v.dot b, a.dv.dot b⟩
/-- frameacc.inl:151. -/
def dotL (a : Vec) (b : VecAcc) : Rall2d := ⟨a.dot b.p, a.dot b.v, a.dot b.dv⟩
/-- `Equal`, frameacc.inl:159. -/
def equal (a b : VecAcc) (eps : ℝ) : Prop := Vec.equal a.p b.p eps ∧ Vec.equal a.v b.v eps ∧ Vec.equal a.dv b.dv eps
/-- frameacc.inl:166. -/
def equalL (a : Vec) (b : VecAcc) (eps : ℝ) : Prop := Vec.equal a b.p eps ∧ Vec.equal 0 b.v eps ∧ Vec.equal 0 b.dv eps
/-- frameacc.inl:173. -/
def equalR (a : VecAcc) (b : Vec) (eps : ℝ) : Prop := Vec.equal a.p b eps ∧ Vec.equal a.v 0 eps ∧ Vec.equal a.dv 0 eps
end VecAcc

namespace RotAcc
/-- `Identity()`, frameacc.inl:220. -/
def identity : RotAcc := ⟨1, 0, 0⟩
/-- `operator=(const Rotation&)`, frameacc.inl:213. -/
def assignRot (_ : RotAcc) (arg : Rot) : RotAcc := ⟨arg, 0, 0⟩
/-- `operator*(const TwistAcc&)`, frameacc.inl:530. -/
def appTwist (a : RotAcc) (x : TwistAcc) : TwistAcc := ⟨a.app x.vel, a.app x.rot⟩
/-- `Inverse(const TwistAcc&)`, frameacc.inl:525. -/
def invTwist (a : RotAcc) (x : TwistAcc) : TwistAcc := ⟨a.invVec x.vel, a.invVec x.rot⟩
/-- `operator*(const Twist&)`, frameacc.inl:540. -/
def appTwistR (a : RotAcc) (x : Twist) : TwistAcc := ⟨a.appR x.vel, a.appR x.rot⟩
/-- `Inverse(const Twist&)`, frameacc.inl:535. -/
def invTwistR (a : RotAcc) (x : Twist) : TwistAcc := ⟨a.invVecR x.vel, a.invVecR x.rot⟩
/-- `Equal`, frameacc.inl:323. -/
def equal (a b : RotAcc) (eps : ℝ) : Prop := Vec.equal a.w b.w eps ∧ Rot.equal a.R b.R eps ∧ Vec.equal a.dw b.dw eps
/-- frameacc.inl:326. -/
def equalL (a : Rot) (b : RotAcc) (eps : ℝ) : Prop := Vec.equal 0 b.w eps ∧ Rot.equal a b.R eps ∧ Vec.equal 0 b.dw eps
/-- frameacc.inl:330. -/
def equalR (a : RotAcc) (b : Rot) (eps : ℝ) : Prop := Vec.equal a.w 0 eps ∧ Rot.equal a.R b eps ∧ Vec.equal a.dw 0 eps
end RotAcc

namespace TwistAcc
/-- `Zero()`, frameacc.inl:434. -/
def zero : TwistAcc := ⟨.zero, .zero⟩
/-- `ReverseSign()`, frameacc.inl:440. -/
def reverseSign (a : TwistAcc) : TwistAcc := ⟨a.vel.reverseSign, a.rot.reverseSign⟩
/-- `operator-=`, frameacc.inl:456. -/
def subAssign (a arg : TwistAcc) : TwistAcc := ⟨a.vel.subAssign arg.vel, a.rot.subAssign arg.rot⟩
/-- `operator+=`, frameacc.inl:463. -/
def addAssign (a arg : TwistAcc) : TwistAcc := ⟨a.vel.addAssign arg.vel, a.rot.addAssign arg.rot⟩
/-- Unary minus, frameacc.inl:516. -/
def neg (a : TwistAcc) : TwistAcc := ⟨a.vel.neg, a.rot.neg⟩
/-- frameacc.inl:476 (and :471). -/
def smulL (c : ℝ) (a : TwistAcc) : TwistAcc := ⟨.smulL c a.vel, .smulL c a.rot⟩
/-- frameacc.inl:481. -/
def divR (a : TwistAcc) (c : ℝ) : TwistAcc := ⟨a.vel.divR c, a.rot.divR c⟩
/-- frameacc.inl:497. -/
def div (a : TwistAcc) (c : Rall2d) : TwistAcc := ⟨a.vel.div c, a.rot.div c⟩
/-- `GetTwist`, `GetTwistDot`, frameacc.inl:578–584. -/
def getTwist (a : TwistAcc) : Twist := ⟨a.vel.p, a.rot.p⟩
def getTwistDot (a : TwistAcc) : Twist := ⟨a.vel.v, a.rot.v⟩
/-- `Equal`, frameacc.inl:586. -/
def equal (a b : TwistAcc) (eps : ℝ) : Prop := VecAcc.equal a.rot b.rot eps ∧ VecAcc.equal a.vel b.vel eps
/-- frameacc.inl:590. -/
def equalL (a : Twist) (b : TwistAcc) (eps : ℝ) : Prop := VecAcc.equalL a.rot b.rot eps ∧ VecAcc.equalL a.vel b.vel eps
/-- frameacc.inl:594. -/
def equalR (a : TwistAcc) (b : Twist) (eps : ℝ) : Prop := VecAcc.equalR a.rot b.rot eps ∧ VecAcc.equalR a.vel b.vel eps
end TwistAcc

namespace FrameAcc
/-- `FrameAcc(const Frame&)`, frameacc.hpp:169 with :69 and :117 (`dw` is set to zero by the constructor of `Vector`,
frames.hpp:167). -/
def ofFrame (T : Frame) : FrameAcc := ⟨.ofRot T.M, .ofVec T.p⟩
/-- `FrameAcc(const Frame&, const Twist&, const Twist&)`, frameacc.hpp:170. -/
def ofFrameTwists (T : Frame) (t dt : Twist) : FrameAcc := ⟨⟨T.M, t.rot, dt.rot⟩, ⟨T.p, t.vel, dt.vel⟩⟩
/-- `Identity()`, frameacc.inl:344. -/
def identity : FrameAcc := ⟨.identity, .zero⟩
/-- `operator=(const Frame&)`, frameacc.inl:386. -/
def assignFrame (a : FrameAcc) (arg : Frame) : FrameAcc := ⟨a.M.assignRot arg.M, a.p.assignVec arg.p⟩
/-- `operator*(const Vector&)`, frameacc.inl:366. -/
def appR (a : FrameAcc) (x : Vec) : VecAcc := (a.M.appR x).add a.p
/-- `Inverse(const Vector&)`, frameacc.inl:376. -/
def invVecR (a : FrameAcc) (x : Vec) : VecAcc := a.M.invVec (VecAcc.subL x a.p)
/-- `operator*(const Twist&)`, frameacc.inl:554. -/
def appTwistR (a : FrameAcc) (x : Twist) : TwistAcc :=
  let rot := a.M.appR x.rot
  ⟨(a.M.appR x.vel).add (a.p.cross rot), rot⟩
/-- `Inverse(const Twist&)`, frameacc.inl:570. -/
def invTwistR (a : FrameAcc) (x : Twist) : TwistAcc :=
  ⟨a.M.invVec (VecAcc.subL x.vel (a.p.crossR x.rot)), a.M.invVecR x.rot⟩
/-- `Equal`, frameacc.inl:393. -/
def equal (a b : FrameAcc) (eps : ℝ) : Prop := RotAcc.equal a.M b.M eps ∧ VecAcc.equal a.p b.p eps
/-- frameacc.inl:396. -/
def equalL (a : Frame) (b : FrameAcc) (eps : ℝ) : Prop := RotAcc.equalL a.M b.M eps ∧ VecAcc.equalL a.p b.p eps
/-- frameacc.inl:399. -/
def equalR (a : FrameAcc) (b : Frame) (eps : ℝ) : Prop := RotAcc.equalR a.M b.M eps ∧ VecAcc.equalR a.p b.p eps
end FrameAcc

end KDL
