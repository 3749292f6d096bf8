import Verif.Model.Rall
import Verif.Model.Calculus

/-! Model of framevel.hpp / framevel.inl and frameacc.hpp / frameacc.inl.

Simplifications: `doubleVel = Rall1d<double>`, `doubleAcc = Rall2d<double>` over the reals.  Comparison operators,
assignments and the remaining overloads are in `Verif.Model.FrameVelOps`, `random` in `Verif.Model.Stiffness`; stream output is
not modelled.  Overloads in which one operand is a
constant (`Vector`, `Rotation`, `Frame`, `Twist`, `double`) are modelled as separate functions with the suffix `L` or `R`
naming the side of the constant operand. -/

noncomputable section
namespace KDL

/-! ## Velocity types -/

/-- `VectorVel`, framevel.hpp:84. -/
@[ext] structure VecVel where
  p : Vec
  v : Vec

/-- `RotationVel`, framevel.hpp:146. -/
@[ext] structure RotVel where
  R : Rot
  w : Vec

/-- `FrameVel`, framevel.hpp:209. -/
@[ext] structure FrameVel where
  M : RotVel
  p : VecVel

/-- `TwistVel`, framevel.hpp:269. -/
@[ext] structure TwistVel where
  vel : VecVel
  rot : VecVel

namespace VecVel
/-- `VectorVel(const Vector&)`, framevel.hpp:96. -/
def ofVec (p : Vec) : VecVel := ⟨p, 0⟩
/-- framevel.inl:245. -/
def add (a b : VecVel) : VecVel := ⟨a.p + b.p, a.v + b.v⟩
/-- framevel.inl:249. -/
def sub (a b : VecVel) : VecVel := ⟨a.p - b.p, a.v - b.v⟩
/-- framevel.inl:253. -/
def addR (a : VecVel) (b : Vec) : VecVel := ⟨a.p + b, a.v⟩
/-- framevel.inl:257. -/
def subR (a : VecVel) (b : Vec) : VecVel := ⟨a.p - b, a.v⟩
/-- framevel.inl:261. -/
def addL (a : Vec) (b : VecVel) : VecVel := ⟨a + b.p, b.v⟩
/-- framevel.inl:265. -/
def subL (a : Vec) (b : VecVel) : VecVel := ⟨a - b.p, -b.v⟩
/-- framevel.inl:270. -/
def neg (a : VecVel) : VecVel := ⟨-a.p, -a.v⟩
/-- Cross product, framevel.inl:280. -/
def cross (a b : VecVel) : VecVel := ⟨a.p * b.p, a.p * b.v + a.v * b.p⟩
/-- framevel.inl:284. -/
def crossR (a : VecVel) (b : Vec) : VecVel := ⟨a.p * b, a.v * b⟩
/-- framevel.inl:288. -/
def crossL (a : Vec) (b : VecVel) : VecVel := ⟨a * b.p, a * b.v⟩
/-- framevel.inl:295 (and :299). -/
def smulL (c : ℝ) (a : VecVel) : VecVel := ⟨c • a.p, c • a.v⟩
/-- framevel.inl:305 (and :309). -/
def smul (c : Rall1d) (a : VecVel) : VecVel := ⟨c.t • a.p, c.t • a.v + c.grad • a.p⟩
/-- framevel.inl:313. -/
def divR (a : VecVel) (c : ℝ) : VecVel := ⟨a.p / c, a.v / c⟩
/-- framevel.inl:317. -/
def div (a : VecVel) (c : Rall1d) : VecVel := ⟨a.p / c.t, a.v / c.t - (c.grad • a.p) / c.t / c.t⟩
/-- `Rotation * VectorVel`, framevel.inl:321. -/
def rotL (R : Rot) (x : VecVel) : VecVel := ⟨R * x.p, R * x.v⟩
/-- `VectorVel::Norm(eps)`, framevel.inl:353. -/
def norm (x : VecVel) (eps : ℝ := epsilon) : Rall1d :=
  let n := x.p.norm eps
  if n < eps then ⟨0, 0⟩ else ⟨n, x.p.dot x.v / n⟩
/-- `dot(VectorVel,VectorVel)`, framevel.inl:495. -/
def dot (a b : VecVel) : Rall1d := ⟨a.p.dot b.p, a.p.dot b.v + a.v.dot b.p⟩
/-- framevel.inl:498. -/
def dotR (a : VecVel) (b : Vec) : Rall1d := ⟨a.p.dot b, a.v.dot b⟩
/-- framevel.inl:501. -/
def dotL (a : Vec) (b : VecVel) : Rall1d := ⟨a.dot b.p, a.dot b.v⟩
/-- Specification: value and velocity of a curve. -/
def Rep (x : VecVel) (f : ℝ → Vec) (τ : ℝ) : Prop := x.p = f τ ∧ Vec.HasDeriv f x.v τ
end VecVel

namespace RotVel
/-- `RotationVel(const Rotation&)`, framevel.hpp:157. -/
def ofRot (R : Rot) : RotVel := ⟨R, 0⟩
/-- framevel.inl:129. -/
def mul (a b : RotVel) : RotVel := ⟨a.R * b.R, a.w + a.R * b.w⟩
/-- framevel.inl:133. -/
def mulL (a : Rot) (b : RotVel) : RotVel := ⟨a * b.R, a * b.w⟩
/-- framevel.inl:137. -/
def mulR (a : RotVel) (b : Rot) : RotVel := ⟨a.R * b, a.w⟩
/-- framevel.inl:152–162. -/
def unitX (a : RotVel) : VecVel := ⟨a.R.unitX, a.w * a.R.unitX⟩
def unitY (a : RotVel) : VecVel := ⟨a.R.unitY, a.w * a.R.unitY⟩
def unitZ (a : RotVel) : VecVel := ⟨a.R.unitZ, a.w * a.R.unitZ⟩
/-- framevel.inl:170. -/
def inv (a : RotVel) : RotVel := ⟨a.R.inv, -(a.R.invVec a.w)⟩
/-- `Inverse(VectorVel)`, framevel.inl:174. -/
def invVec (a : RotVel) (x : VecVel) : VecVel := ⟨a.R.invVec x.p, a.R.invVec (x.v - a.w * x.p)⟩
/-- `Inverse(Vector)`, framevel.inl:181. -/
def invVecR (a : RotVel) (x : Vec) : VecVel := ⟨a.R.invVec x, a.R.invVec (-a.w * x)⟩
/-- `operator*(VectorVel)`, framevel.inl:189. -/
def app (a : RotVel) (x : VecVel) : VecVel := let tmp := a.R * x.p; ⟨tmp, a.w * tmp + a.R * x.v⟩
/-- `operator*(Vector)`, framevel.inl:194. -/
def appR (a : RotVel) (x : Vec) : VecVel := let tmp := a.R * x; ⟨tmp, a.w * tmp⟩
/-- `DoRotX`, framevel.inl:204: `w` is updated with the old `R`. -/
def doRotX (a : RotVel) (q : Rall1d) : RotVel := ⟨a.R.doRotX q.t, a.w + a.R * (⟨q.grad, 0, 0⟩ : Vec)⟩
/-- `DoRotY`, framevel.inl:212. -/
def doRotY (a : RotVel) (q : Rall1d) : RotVel := ⟨a.R.doRotY q.t, a.w + a.R * (⟨0, q.grad, 0⟩ : Vec)⟩
/-- `DoRotZ`, framevel.inl:220. -/
def doRotZ (a : RotVel) (q : Rall1d) : RotVel := ⟨a.R.doRotZ q.t, a.w + a.R * (⟨0, 0, q.grad⟩ : Vec)⟩
/-- `RotX`, framevel.inl:208. -/
def rotX (q : Rall1d) : RotVel := ⟨Rot.rotX q.t, ⟨q.grad, 0, 0⟩⟩
/-- `RotY`, framevel.inl:216–218.  The code calls `Rotation::RotX`. -/
def rotY (q : Rall1d) : RotVel := ⟨Rot.rotX q.t, ⟨0, q.grad, 0⟩⟩
/-- `RotZ`, framevel.inl:224. -/
def rotZ (q : Rall1d) : RotVel := ⟨Rot.rotZ q.t, ⟨0, 0, q.grad⟩⟩
/-- `Rot(rotvec, angle)`, framevel.inl:229. -/
def rot (axis : Vec) (q : Rall1d) : RotVel :=
  let v := axis.normalize.1
  ⟨Rot.rot2 v q.t, q.grad • v⟩
/-- `Rot2(rotvec, angle)`, framevel.inl:238. -/
def rot2 (axis : Vec) (q : Rall1d) : RotVel := ⟨Rot.rot2 axis q.t, q.grad • axis⟩
/-- `operator*(TwistVel)`, framevel.inl:607. -/
def appTwist (a : RotVel) (x : TwistVel) : TwistVel := ⟨a.app x.vel, a.app x.rot⟩
/-- `Inverse(TwistVel)`, framevel.inl:602. -/
def invTwist (a : RotVel) (x : TwistVel) : TwistVel := ⟨a.invVec x.vel, a.invVec x.rot⟩
/-- Specification: value and angular velocity of a curve of rotations. -/
def Rep (x : RotVel) (f : ℝ → Rot) (τ : ℝ) : Prop := x.R = f τ ∧ Rot.HasAngVel f x.w τ
end RotVel

namespace TwistVel
/-- framevel.inl:576. -/
def add (a b : TwistVel) : TwistVel := ⟨a.vel.add b.vel, a.rot.add b.rot⟩
/-- framevel.inl:581. -/
def sub (a b : TwistVel) : TwistVel := ⟨a.vel.sub b.vel, a.rot.sub b.rot⟩
/-- framevel.inl:587. -/
def neg (a : TwistVel) : TwistVel := ⟨a.vel.neg, a.rot.neg⟩
/-- framevel.inl:563 (and :558). -/
def smul (c : Rall1d) (a : TwistVel) : TwistVel := ⟨a.vel.smul c, a.rot.smul c⟩
/-- framevel.inl:568. -/
def div (a : TwistVel) (c : Rall1d) : TwistVel := ⟨a.vel.div c, a.rot.div c⟩
/-- `RefPoint`, framevel.inl:517. -/
def refPoint (a : TwistVel) (v : VecVel) : TwistVel := ⟨a.vel.add (a.rot.cross v), a.rot⟩
/-- framevel.inl:655–661. -/
def getTwist (a : TwistVel) : Twist := ⟨a.vel.p, a.rot.p⟩
def getTwistDot (a : TwistVel) : Twist := ⟨a.vel.v, a.rot.v⟩
/-- Specification. -/
def Rep (x : TwistVel) (f : ℝ → Twist) (τ : ℝ) : Prop :=
  x.vel.Rep (fun s => (f s).vel) τ ∧ x.rot.Rep (fun s => (f s).rot) τ
end TwistVel

namespace FrameVel
/-- `FrameVel(const Frame&)`, framevel.hpp:223. -/
def ofFrame (F : Frame) : FrameVel := ⟨RotVel.ofRot F.M, VecVel.ofVec F.p⟩
/-- `FrameVel(const Frame&, const Twist&)`, framevel.hpp:226. -/
def ofFrameTwist (F : Frame) (t : Twist) : FrameVel := ⟨⟨F.M, t.rot⟩, ⟨F.p, t.vel⟩⟩
/-- framevel.inl:33. -/
def mul (a b : FrameVel) : FrameVel := ⟨a.M.mul b.M, (a.M.app b.p).add a.p⟩
/-- framevel.inl:37. -/
def mulR (a : FrameVel) (b : Frame) : FrameVel := ⟨a.M.mulR b.M, (a.M.appR b.p).add a.p⟩
/-- framevel.inl:41. -/
def mulL (a : Frame) (b : FrameVel) : FrameVel := ⟨RotVel.mulL a.M b.M, (VecVel.rotL a.M b.p).addR a.p⟩
/-- framevel.inl:46. -/
def app (a : FrameVel) (x : VecVel) : VecVel := (a.M.app x).add a.p
/-- framevel.inl:50. -/
def appR (a : FrameVel) (x : Vec) : VecVel := (a.M.appR x).add a.p
/-- framevel.inl:55. -/
def invVec (a : FrameVel) (x : VecVel) : VecVel := a.M.invVec (x.sub a.p)
/-- framevel.inl:60. -/
def invVecR (a : FrameVel) (x : Vec) : VecVel := a.M.invVec (VecVel.subL x a.p)
/-- framevel.inl:65. -/
def inv (a : FrameVel) : FrameVel := ⟨a.M.inv, (a.M.invVec a.p).neg⟩
/-- framevel.inl:120–126. -/
def getFrame (a : FrameVel) : Frame := ⟨a.M.R, a.p.p⟩
def getTwist (a : FrameVel) : Twist := ⟨a.p.v, a.M.w⟩
/-- `operator*(TwistVel)`, framevel.inl:623. -/
def appTwist (a : FrameVel) (x : TwistVel) : TwistVel :=
  let rot := a.M.app x.rot
  ⟨(a.M.app x.vel).add (a.p.cross rot), rot⟩
/-- `Inverse(TwistVel)`, framevel.inl:639. -/
def invTwist (a : FrameVel) (x : TwistVel) : TwistVel :=
  ⟨a.M.invVec (x.vel.sub (a.p.cross x.rot)), a.M.invVec x.rot⟩
/-- Specification: value and velocity of a curve of frames. -/
def Rep (x : FrameVel) (f : ℝ → Frame) (τ : ℝ) : Prop :=
  x.M.Rep (fun s => (f s).M) τ ∧ x.p.Rep (fun s => (f s).p) τ
end FrameVel

/-! ### diff / addDelta on velocity types, framevel.hpp:346–370 -/

/-- framevel.hpp:346. -/
def VecVel.diff (a b : VecVel) (dt : ℝ) : VecVel := ⟨Vec.diff a.p b.p dt, Vec.diff a.v b.v dt⟩
/-- framevel.hpp:350. -/
def VecVel.addDelta (a da : VecVel) (dt : ℝ) : VecVel := ⟨Vec.addDelta a.p da.p dt, Vec.addDelta a.v da.v dt⟩
/-- framevel.hpp:353. -/
def RotVel.diff (a b : RotVel) (dt : ℝ) : VecVel := ⟨Rot.diff a.R b.R dt, Vec.diff a.w b.w dt⟩
/-- framevel.hpp:357. -/
def RotVel.addDelta (a : RotVel) (da : VecVel) (dt : ℝ) : RotVel :=
  ⟨Rot.addDelta a.R da.p dt, Vec.addDelta a.w da.v dt⟩
/-- framevel.hpp:361: the two `VectorVel` arguments are passed in the order rotation, translation, while the constructor
`TwistVel(vel, rot)` (framevel.hpp:280) takes translation first. -/
def FrameVel.diff (a b : FrameVel) (dt : ℝ) : TwistVel := ⟨RotVel.diff a.M b.M dt, VecVel.diff a.p b.p dt⟩
/-- framevel.hpp:365. -/
def FrameVel.addDelta (a : FrameVel) (da : TwistVel) (dt : ℝ) : FrameVel :=
  ⟨RotVel.addDelta a.M da.rot dt, VecVel.addDelta a.p da.vel dt⟩

/-! ## Acceleration types -/

/-- `VectorAcc`, frameacc.hpp:61. -/
@[ext] structure VecAcc where
  p : Vec
  v : Vec
  dv : Vec
/-- `RotationAcc`, frameacc.hpp:109. -/
@[ext] structure RotAcc where
  R : Rot
  w : Vec
  dw : Vec
/-- `FrameAcc`, frameacc.hpp:162. -/
@[ext] structure FrameAcc where
  M : RotAcc
  p : VecAcc
/-- `TwistAcc`, frameacc.hpp:200. -/
@[ext] structure TwistAcc where
  vel : VecAcc
  rot : VecAcc

namespace VecAcc
def ofVec (p : Vec) : VecAcc := ⟨p, 0, 0⟩
/-- frameacc.inl:24. -/
def add (a b : VecAcc) : VecAcc := ⟨a.p + b.p, a.v + b.v, a.dv + b.dv⟩
/-- frameacc.inl:28. -/
def sub (a b : VecAcc) : VecAcc := ⟨a.p - b.p, a.v - b.v, a.dv - b.dv⟩
/-- frameacc.inl:35. -/
def subL (a : Vec) (b : VecAcc) : VecAcc := ⟨a - b.p, -b.v, -b.dv⟩
/-- frameacc.inl:38. -/
def addR (a : VecAcc) (b : Vec) : VecAcc := ⟨a.p + b, a.v, a.dv⟩
/-- frameacc.inl:47. -/
def neg (a : VecAcc) : VecAcc := ⟨-a.p, -a.v, -a.dv⟩
/-- Cross product, frameacc.inl:52. -/
def cross (a b : VecAcc) : VecAcc :=
  ⟨a.p * b.p, a.p * b.v + a.v * b.p, a.dv * b.p + ((2 : ℝ) • a.v) * b.v + a.p * b.dv⟩
/-- frameacc.inl:59. -/
def crossR (a : VecAcc) (b : Vec) : VecAcc := ⟨a.p * b, a.v * b, a.dv * b⟩
/-- frameacc.inl:63. -/
def crossL (a : Vec) (b : VecAcc) : VecAcc := ⟨a * b.p, a * b.v, a * b.dv⟩
/-- frameacc.inl:70 (and :74). -/
def smulL (c : ℝ) (a : VecAcc) : VecAcc := ⟨c • a.p, c • a.v, c • a.dv⟩
/-- frameacc.inl:78 (and :85). -/
def smul (c : Rall2d) (a : VecAcc) : VecAcc :=
  ⟨c.t • a.p, c.t • a.v + c.d • a.p, c.t • a.dv + (2 * c.d) • a.v + c.dd • a.p⟩
/-- frameacc.inl:184: `r2*(1.0/r1)`. -/
def div (a : VecAcc) (c : Rall2d) : VecAcc := smul (Rall2d.sdiv 1 c) a
/-- `VectorAcc::Norm(eps)`, frameacc.inl:129.  `none` is the outcome with a division by zero (NaN in C++): there is no
guard for a zero norm, unlike `VectorVel::Norm`. -/
def norm (x : VecAcc) (eps : ℝ := epsilon) : Option Rall2d :=
  let t := x.p.norm eps
  if t = 0 then none
  else
    let d := x.p.dot x.v / t
    some ⟨t, d, (x.p.dot x.dv + x.v.dot x.v - d * d) / t⟩
/-- frameacc.inl:137. -/
def dot (a b : VecAcc) : Rall2d :=
  ⟨a.p.dot b.p, a.p.dot b.v + a.v.dot b.p, a.p.dot b.dv + 2 * a.v.dot b.v + a.dv.dot b.p⟩
/-- `Rotation * VectorAcc`, frameacc.inl:254. -/
def rotL (R : Rot) (x : VecAcc) : VecAcc := ⟨R * x.p, R * x.v, R * x.dv⟩
/-- Specification: value, velocity and acceleration of a curve. -/
def Rep (x : VecAcc) (f : ℝ → Vec) (τ : ℝ) : Prop :=
  ∃ f' : ℝ → Vec, (∀ᶠ s in nhds τ, Vec.HasDeriv f (f' s) s) ∧ Vec.HasDeriv f' x.dv τ ∧ x.p = f τ ∧ x.v = f' τ
end VecAcc

namespace RotAcc
def ofRot (R : Rot) : RotAcc := ⟨R, 0, 0⟩
/-- frameacc.inl:192. -/
def mul (a b : RotAcc) : RotAcc :=
  ⟨a.R * b.R, a.w + a.R * b.w, a.dw + a.w * (a.R * b.w) + a.R * b.dw⟩
/-- frameacc.inl:199. -/
def mulL (a : Rot) (b : RotAcc) : RotAcc := ⟨a * b.R, a * b.w, a * b.dw⟩
/-- frameacc.inl:203. -/
def mulR (a : RotAcc) (b : Rot) : RotAcc := ⟨a.R * b, a.w, a.dw⟩
/-- frameacc.inl:224. -/
def inv (a : RotAcc) : RotAcc := ⟨a.R.inv, -(a.R.invVec a.w), -(a.R.invVec a.dw)⟩
/-- `Inverse(VectorAcc)`, frameacc.inl:228. -/
def invVec (a : RotAcc) (x : VecAcc) : VecAcc :=
  let p := a.R.invVec x.p
  let v := a.R.invVec (x.v - a.w * x.p)
  ⟨p, v, a.R.invVec (x.dv - a.dw * x.p - a.w * (x.v + a.R * v))⟩
/-- `Inverse(Vector)`, frameacc.inl:236. -/
def invVecR (a : RotAcc) (x : Vec) : VecAcc :=
  let p := a.R.invVec x
  let v := a.R.invVec (-a.w * x)
  ⟨p, v, a.R.invVec (-a.dw * x - a.w * (a.R * v))⟩
/-- `operator*(VectorAcc)`, frameacc.inl:245; the field `dv` serves as a temporary. -/
def app (a : RotAcc) (x : VecAcc) : VecAcc :=
  let p := a.R * x.p
  let dv := a.R * x.v
  let v := a.w * p + dv
  let dv := a.dw * p + a.w * (v + dv) + a.R * x.dv
  ⟨p, v, dv⟩
/-- `operator*(Vector)`, frameacc.inl:258. -/
def appR (a : RotAcc) (x : Vec) : VecAcc :=
  let p := a.R * x
  let v := a.w * p
  ⟨p, v, a.dw * p + a.w * v⟩
/-- Specification: value, angular velocity and angular acceleration of a curve of rotations. -/
def Rep (x : RotAcc) (f : ℝ → Rot) (τ : ℝ) : Prop :=
  ∃ w : ℝ → Vec, (∀ᶠ s in nhds τ, Rot.HasAngVel f (w s) s) ∧ Vec.HasDeriv w x.dw τ ∧ x.R = f τ ∧ x.w = w τ
end RotAcc

namespace TwistAcc
/-- frameacc.inl:505. -/
def add (a b : TwistAcc) : TwistAcc := ⟨a.vel.add b.vel, a.rot.add b.rot⟩
/-- frameacc.inl:510. -/
def sub (a b : TwistAcc) : TwistAcc := ⟨a.vel.sub b.vel, a.rot.sub b.rot⟩
/-- `RefPoint`, frameacc.inl:446. -/
def refPoint (a : TwistAcc) (v : VecAcc) : TwistAcc := ⟨a.vel.add (a.rot.cross v), a.rot⟩
/-- frameacc.inl:492 (and :487). -/
def smul (c : Rall2d) (a : TwistAcc) : TwistAcc := ⟨a.vel.smul c, a.rot.smul c⟩
/-- Specification. -/
def Rep (x : TwistAcc) (f : ℝ → Twist) (τ : ℝ) : Prop :=
  x.vel.Rep (fun s => (f s).vel) τ ∧ x.rot.Rep (fun s => (f s).rot) τ
end TwistAcc

namespace FrameAcc
/-- frameacc.inl:349. -/
def mul (a b : FrameAcc) : FrameAcc := ⟨a.M.mul b.M, (a.M.app b.p).add a.p⟩
/-- frameacc.inl:353. -/
def mulR (a : FrameAcc) (b : Frame) : FrameAcc := ⟨a.M.mulR b.M, (a.M.appR b.p).add a.p⟩
/-- frameacc.inl:357. -/
def mulL (a : Frame) (b : FrameAcc) : FrameAcc := ⟨RotAcc.mulL a.M b.M, (VecAcc.rotL a.M b.p).addR a.p⟩
/-- frameacc.inl:362. -/
def app (a : FrameAcc) (x : VecAcc) : VecAcc := (a.M.app x).add a.p
/-- frameacc.inl:371. -/
def invVec (a : FrameAcc) (x : VecAcc) : VecAcc := a.M.invVec (x.sub a.p)
/-- frameacc.inl:381. -/
def inv (a : FrameAcc) : FrameAcc := ⟨a.M.inv, (a.M.invVec a.p).neg⟩
/-- frameacc.inl:404–416. -/
def getFrame (a : FrameAcc) : Frame := ⟨a.M.R, a.p.p⟩
def getTwist (a : FrameAcc) : Twist := ⟨a.p.v, a.M.w⟩
def getAccTwist (a : FrameAcc) : Twist := ⟨a.p.dv, a.M.dw⟩
/-- `operator*(TwistAcc)`, frameacc.inl:546. -/
def appTwist (a : FrameAcc) (x : TwistAcc) : TwistAcc :=
  let rot := a.M.app x.rot
  ⟨(a.M.app x.vel).add (a.p.cross rot), rot⟩
/-- `Inverse(TwistAcc)`, frameacc.inl:562. -/
def invTwist (a : FrameAcc) (x : TwistAcc) : TwistAcc :=
  ⟨a.M.invVec (x.vel.sub (a.p.cross x.rot)), a.M.invVec x.rot⟩
/-- Specification. -/
def Rep (x : FrameAcc) (f : ℝ → Frame) (τ : ℝ) : Prop :=
  x.M.Rep (fun s => (f s).M) τ ∧ x.p.Rep (fun s => (f s).p) τ
end FrameAcc

end KDL
