import Verif.Model.Frames
import Mathlib.Analysis.Calculus.Deriv.Basic

/-! Specification vocabulary: derivatives of curves of vectors, rotations and frames (no C++ counterpart).
A curve is differentiable with a given derivative when every stored `double` is. -/

namespace KDL

/-- `f' ` is the derivative of the vector curve `f` at `t`. -/
structure Vec.HasDeriv (f : ℝ → Vec) (f' : Vec) (t : ℝ) : Prop where
  x : HasDerivAt (fun s => (f s).x) f'.x t
  y : HasDerivAt (fun s => (f s).y) f'.y t
  z : HasDerivAt (fun s => (f s).z) f'.z t

/-- Entrywise derivative of a curve of 3×3 matrices. -/
structure Rot.HasDeriv (f : ℝ → Rot) (f' : Rot) (t : ℝ) : Prop where
  m00 : HasDerivAt (fun s => (f s).m00) f'.m00 t
  m01 : HasDerivAt (fun s => (f s).m01) f'.m01 t
  m02 : HasDerivAt (fun s => (f s).m02) f'.m02 t
  m10 : HasDerivAt (fun s => (f s).m10) f'.m10 t
  m11 : HasDerivAt (fun s => (f s).m11) f'.m11 t
  m12 : HasDerivAt (fun s => (f s).m12) f'.m12 t
  m20 : HasDerivAt (fun s => (f s).m20) f'.m20 t
  m21 : HasDerivAt (fun s => (f s).m21) f'.m21 t
  m22 : HasDerivAt (fun s => (f s).m22) f'.m22 t

/-- The skew-symmetric matrix `[v]ₓ`. -/
def Rot.skew (v : Vec) : Rot := ⟨0, -v.z, v.y, v.z, 0, -v.x, -v.y, v.x, 0⟩

/-- `w` is the angular velocity (in base coordinates) of the rotation curve `R` at `t`: `Ṙ = [w]ₓ R`. -/
def Rot.HasAngVel (R : ℝ → Rot) (w : Vec) (t : ℝ) : Prop := Rot.HasDeriv R (Rot.skew w * R t) t

/-- `v` is the twist of the moving frame `F` at `t`: linear velocity of its origin and angular velocity, both expressed
in the base.  This is the meaning documented for `Twist` in frames.hpp and `FrameVel::GetTwist`. -/
structure Frame.HasTwist (F : ℝ → Frame) (v : Twist) (t : ℝ) : Prop where
  vel : Vec.HasDeriv (fun s => (F s).p) v.vel t
  rot : Rot.HasAngVel (fun s => (F s).M) v.rot t

/-- Derivative of a twist curve. -/
structure Twist.HasDeriv (f : ℝ → Twist) (f' : Twist) (t : ℝ) : Prop where
  vel : Vec.HasDeriv (fun s => (f s).vel) f'.vel t
  rot : Vec.HasDeriv (fun s => (f s).rot) f'.rot t

/-- Derivative of a wrench curve. -/
structure Wrench.HasDeriv (f : ℝ → Wrench) (f' : Wrench) (t : ℝ) : Prop where
  force : Vec.HasDeriv (fun s => (f s).force) f'.force t
  torque : Vec.HasDeriv (fun s => (f s).torque) f'.torque t

end KDL
