import Verif.Model.IkPos
import Verif.Model.IkVel

/-!
# Doubles with infinities and NaN

The other model files take `double` as the real numbers and treat non-finite values as separate outcomes.  This file models
what the values that IEEE 754 adds do in the position kinematics and in the loops of the Newton-Raphson solvers: the number
is either a finite real, an infinity or NaN.  Rounding and overflow are still left out.  Zeros carry no sign; where the
modelled code divides by a zero, the zero is `sqrt(+0)`, `Norm()` or a sum of squares, that is `+0`.

Citations are relative to `/repo/orocos_kdl/src`.
-/

noncomputable section

namespace KDL

/-- A `double` without rounding.  `inf true` is the negative infinity. -/
inductive Dbl where
  | fin (x : ℝ)
  | inf (neg : Bool)
  | nan

namespace Dbl

/-- The value is finite. -/
def IsFin : Dbl → Prop
  | fin _ => True
  | _ => False

/-- Addition of IEEE 754, exact on finite values. -/
def add : Dbl → Dbl → Dbl
  | fin x, fin y => fin (x + y)
  | nan, _ => nan
  | _, nan => nan
  | inf s, inf t => if s = t then inf s else nan
  | inf s, fin _ => inf s
  | fin _, inf t => inf t
instance : Add Dbl := ⟨add⟩

/-- Negation. -/
def neg : Dbl → Dbl
  | fin x => fin (-x)
  | inf s => inf !s
  | nan => nan
instance : Neg Dbl := ⟨neg⟩
/-- Subtraction is addition of the negated value. -/
instance : Sub Dbl := ⟨fun a b => a + -b⟩

/-- An infinity with sign `s` times a finite number. -/
def infMul (s : Bool) (x : ℝ) : Dbl := if x = 0 then nan else if 0 < x then inf s else inf !s
/-- Multiplication of IEEE 754. -/
def mul : Dbl → Dbl → Dbl
  | fin x, fin y => fin (x * y)
  | nan, _ => nan
  | _, nan => nan
  | inf s, inf t => inf (xor s t)
  | inf s, fin x => infMul s x
  | fin x, inf s => infMul s x
instance : Mul Dbl := ⟨mul⟩

/-- Division of IEEE 754 (zeros are `+0`). -/
def div : Dbl → Dbl → Dbl
  | fin x, fin y => if y = 0 then infMul false x else fin (x / y)
  | nan, _ => nan
  | _, nan => nan
  | inf _, inf _ => nan
  | inf s, fin x => if 0 ≤ x then inf s else inf !s
  | fin _, inf _ => fin 0
instance : Div Dbl := ⟨div⟩

/-- `a < b`: false if an argument is NaN. -/
def lt : Dbl → Dbl → Prop
  | fin x, fin y => x < y
  | fin _, inf t => t = false
  | inf s, fin _ => s = true
  | inf s, inf t => s = true ∧ t = false
  | _, _ => False
/-- `a <= b`: false if an argument is NaN. -/
def le : Dbl → Dbl → Prop
  | fin x, fin y => x ≤ y
  | fin _, inf t => t = false
  | inf s, fin _ => s = true
  | inf s, inf t => s = true ∨ t = false
  | _, _ => False
instance : LT Dbl := ⟨lt⟩
instance : LE Dbl := ⟨le⟩

/-- `std::abs`, `fabs`. -/
def abs : Dbl → Dbl
  | fin x => fin |x|
  | inf _ => inf false
  | nan => nan
/-- `sqrt`. -/
def sqrt : Dbl → Dbl
  | fin x => if x < 0 then nan else fin (Real.sqrt x)
  | inf s => if s then nan else inf false
  | nan => nan
/-- `sin`. -/
def sin : Dbl → Dbl
  | fin x => fin (Real.sin x)
  | _ => nan
/-- `cos`. -/
def cos : Dbl → Dbl
  | fin x => fin (Real.cos x)
  | _ => nan
/-- `atan2` with the special cases of C (F.10.1.4 of the standard). -/
def atan2 : Dbl → Dbl → Dbl
  | fin y, fin x => fin (KDL.atan2 y x)
  | nan, _ => nan
  | _, nan => nan
  | inf s, fin _ => fin (if s then -(Real.pi / 2) else Real.pi / 2)
  | fin y, inf s => fin (if s then (if 0 ≤ y then Real.pi else -Real.pi) else 0)
  | inf s, inf t =>
    let a := if t then 3 * Real.pi / 4 else Real.pi / 4
    fin (if s then -a else a)

end Dbl

open Dbl

/-! ## Vectors, rotations, frames -/

/-- `KDL::Vector` with non-finite values. -/
@[ext] structure DVec where
  x : Dbl
  y : Dbl
  z : Dbl
/-- `KDL::Rotation` with non-finite values. -/
@[ext] structure DRot where
  m00 : Dbl
  m01 : Dbl
  m02 : Dbl
  m10 : Dbl
  m11 : Dbl
  m12 : Dbl
  m20 : Dbl
  m21 : Dbl
  m22 : Dbl
/-- `KDL::Frame` with non-finite values. -/
@[ext] structure DFrame where
  M : DRot
  p : DVec
/-- `KDL::Twist` with non-finite values. -/
@[ext] structure DTwist where
  vel : DVec
  rot : DVec

/-- The vector, rotation, frame, twist whose entries are finite. -/
def Vec.toD (v : Vec) : DVec := ⟨fin v.x, fin v.y, fin v.z⟩
/-- See `Vec.toD`. -/
def Rot.toD (R : Rot) : DRot :=
  ⟨fin R.m00, fin R.m01, fin R.m02, fin R.m10, fin R.m11, fin R.m12, fin R.m20, fin R.m21, fin R.m22⟩
/-- See `Vec.toD`. -/
def Frame.toD (F : Frame) : DFrame := ⟨F.M.toD, F.p.toD⟩
/-- See `Vec.toD`. -/
def Twist.toD (t : Twist) : DTwist := ⟨t.vel.toD, t.rot.toD⟩

namespace DVec
/-- All components are finite. -/
def IsFin (v : DVec) : Prop := v.x.IsFin ∧ v.y.IsFin ∧ v.z.IsFin
/-- frames.inl:57. -/
instance : Add DVec := ⟨fun a b => ⟨a.x + b.x, a.y + b.y, a.z + b.z⟩⟩
/-- frames.inl:66. -/
instance : Sub DVec := ⟨fun a b => ⟨a.x - b.x, a.y - b.y, a.z - b.z⟩⟩
/-- `operator*(Vector,double)`, frames.inl:83. -/
def scale (a : DVec) (c : Dbl) : DVec := ⟨a.x * c, a.y * c, a.z * c⟩
/-- `operator/(Vector,double)`, frames.inl:101. -/
def divBy (a : DVec) (c : Dbl) : DVec := ⟨a.x / c, a.y / c, a.z / c⟩

open Classical in
/-- `Vector::Norm(eps)`, frames.cpp:117–142. -/
def norm (v : DVec) : Dbl :=
  let len := fun (m a b : Dbl) => m.abs * Dbl.sqrt (fin 1 + a / m * (a / m) + b / m * (b / m))
  if v.y.abs ≤ v.x.abs then
    if v.z.abs ≤ v.x.abs then
      if v.x.abs < fin epsilon then fin 0 else len v.x v.y v.z
    else len v.z v.x v.y
  else if v.z.abs < v.y.abs then len v.y v.x v.z
  else len v.z v.x v.y

open Classical in
/-- `Vector::Normalize()`, frames.cpp:147, new value of `*this`. -/
def normalize (v : DVec) : DVec := if v.norm < fin epsilon then ⟨fin 1, fin 0, fin 0⟩ else v.divBy v.norm
end DVec

namespace DRot
/-- All entries are finite. -/
def IsFin (R : DRot) : Prop :=
  R.m00.IsFin ∧ R.m01.IsFin ∧ R.m02.IsFin ∧ R.m10.IsFin ∧ R.m11.IsFin ∧ R.m12.IsFin ∧ R.m20.IsFin ∧ R.m21.IsFin ∧ R.m22.IsFin
/-- `operator*(Rotation,Rotation)`, frames.cpp:173. -/
instance : Mul DRot := ⟨fun l r =>
  ⟨l.m00 * r.m00 + l.m01 * r.m10 + l.m02 * r.m20, l.m00 * r.m01 + l.m01 * r.m11 + l.m02 * r.m21,
   l.m00 * r.m02 + l.m01 * r.m12 + l.m02 * r.m22,
   l.m10 * r.m00 + l.m11 * r.m10 + l.m12 * r.m20, l.m10 * r.m01 + l.m11 * r.m11 + l.m12 * r.m21,
   l.m10 * r.m02 + l.m11 * r.m12 + l.m12 * r.m22,
   l.m20 * r.m00 + l.m21 * r.m10 + l.m22 * r.m20, l.m20 * r.m01 + l.m21 * r.m11 + l.m22 * r.m21,
   l.m20 * r.m02 + l.m21 * r.m12 + l.m22 * r.m22⟩⟩
/-- `Rotation::operator*(Vector)`, frames.inl:526. -/
def app (R : DRot) (v : DVec) : DVec :=
  ⟨R.m00 * v.x + R.m01 * v.y + R.m02 * v.z, R.m10 * v.x + R.m11 * v.y + R.m12 * v.z,
   R.m20 * v.x + R.m21 * v.y + R.m22 * v.z⟩
/-- `Rotation::Inverse()`, frames.inl:655. -/
def inv (R : DRot) : DRot := ⟨R.m00, R.m10, R.m20, R.m01, R.m11, R.m21, R.m02, R.m12, R.m22⟩
/-- `Rotation::RotX`, frames.inl:604. -/
def rotX (a : Dbl) : DRot := ⟨fin 1, fin 0, fin 0, fin 0, a.cos, -a.sin, fin 0, a.sin, a.cos⟩
/-- `Rotation::RotY`, frames.inl:610. -/
def rotY (a : Dbl) : DRot := ⟨a.cos, fin 0, a.sin, fin 0, fin 1, fin 0, -a.sin, fin 0, a.cos⟩
/-- `Rotation::RotZ`, frames.inl:615. -/
def rotZ (a : Dbl) : DRot := ⟨a.cos, -a.sin, fin 0, a.sin, a.cos, fin 0, fin 0, fin 0, fin 1⟩
/-- `Rotation::Rot2`, frames.cpp:303, for an axis with finite components. -/
def rot2 (v : Vec) (angle : Dbl) : DRot :=
  let ct := angle.cos
  let st := angle.sin
  let vt := fin 1 - ct
  let m_vt_0 := vt * fin v.x
  let m_vt_1 := vt * fin v.y
  let m_vt_2 := vt * fin v.z
  let m_st_0 := fin v.x * st
  let m_st_1 := fin v.y * st
  let m_st_2 := fin v.z * st
  let m_vt_0_1 := m_vt_0 * fin v.y
  let m_vt_0_2 := m_vt_0 * fin v.z
  let m_vt_1_2 := m_vt_1 * fin v.z
  ⟨ct + m_vt_0 * fin v.x, -m_st_2 + m_vt_0_1, m_st_1 + m_vt_0_2,
   m_st_2 + m_vt_0_1, ct + m_vt_1 * fin v.y, -m_st_0 + m_vt_1_2,
   -m_st_1 + m_vt_0_2, m_st_0 + m_vt_1_2, ct + m_vt_2 * fin v.z⟩

open Classical in
/-- `Rotation::GetRot()`, frames.cpp:336, with `GetRotAngle(axis, epsilon)`, frames.cpp:358–428. -/
def getRot (R : DRot) : DVec :=
  let eps := fin epsilon
  let eps2 := eps * fin 10
  if (R.m01 - R.m10).abs < eps ∧ (R.m02 - R.m20).abs < eps ∧ (R.m12 - R.m21).abs < eps then
    if (R.m01 + R.m10).abs < eps2 ∧ (R.m02 + R.m20).abs < eps2 ∧ (R.m12 + R.m21).abs < eps2
        ∧ (R.m00 + R.m11 + R.m22 - fin 3).abs < eps2 then
      (DVec.mk (fin 0) (fin 0) (fin 1)).scale (fin 0)
    else
      let xx := (R.m00 + fin 1) / fin 2
      let yy := (R.m11 + fin 1) / fin 2
      let zz := (R.m22 + fin 1) / fin 2
      let xy := (R.m01 + R.m10) / fin 4
      let xz := (R.m02 + R.m20) / fin 4
      let yz := (R.m12 + R.m21) / fin 4
      if yy < xx ∧ zz < xx then
        let x := xx.sqrt
        (DVec.mk x (xy / x) (xz / x)).scale (fin Real.pi)
      else if zz < yy then
        let y := yy.sqrt
        (DVec.mk (xy / y) y (yz / y)).scale (fin Real.pi)
      else
        let z := zz.sqrt
        (DVec.mk (xz / z) (yz / z) z).scale (fin Real.pi)
  else
    let f := (R.m00 + R.m11 + R.m22 - fin 1) / fin 2
    let axis : DVec := ⟨R.m21 - R.m12, R.m02 - R.m20, R.m10 - R.m01⟩
    axis.normalize.scale (Dbl.atan2 (axis.norm / fin 2) f)
end DRot

namespace DFrame
/-- All entries are finite. -/
def IsFin (F : DFrame) : Prop := F.M.IsFin ∧ F.p.IsFin
/-- `operator*(Frame,Frame)`, frames.inl:406. -/
instance : Mul DFrame := ⟨fun l r => ⟨l.M * r.M, l.M.app r.p + l.p⟩⟩
/-- `diff(Frame,Frame,dt)` with `dt = 1`, frames.inl:1129–1142. -/
def diff (a b : DFrame) : DTwist :=
  ⟨(b.p - a.p).divBy (fin 1), (a.M.app (a.M.inv * b.M).getRot).divBy (fin 1)⟩
end DFrame

/-- `Equal(double,double,eps)`, utilities/utility.h:268. -/
def Dbl.equal (a b eps : Dbl) : Prop := a - b < eps ∧ -eps < a - b
/-- `Equal(Vector,Vector,eps)`, frames.inl:1032. -/
def DVec.equal (a b : DVec) (eps : Dbl) : Prop := Dbl.equal a.x b.x eps ∧ Dbl.equal a.y b.y eps ∧ Dbl.equal a.z b.z eps
/-- `Equal(Twist,Twist,eps)`, frames.inl:1049. -/
def DTwist.equal (a b : DTwist) (eps : Dbl) : Prop := DVec.equal a.rot b.rot eps ∧ DVec.equal a.vel b.vel eps

/-! ## Forward kinematics -/

/-- `Joint::pose`, joint.cpp:69, of a joint with finite parameters. -/
def Joint.poseD (j : Joint) (q : Dbl) : DFrame :=
  let a := fin j.scale * q + fin j.offset
  match j.type with
  | .RotAxis => ⟨DRot.rot2 j.axis a, j.origin.toD⟩
  | .RotX => ⟨DRot.rotX a, (0 : Vec).toD⟩
  | .RotY => ⟨DRot.rotY a, (0 : Vec).toD⟩
  | .RotZ => ⟨DRot.rotZ a, (0 : Vec).toD⟩
  | .TransAxis => ⟨(1 : Rot).toD, j.origin.toD + j.axis.toD.scale a⟩
  | .TransX => ⟨(1 : Rot).toD, ⟨a, fin 0, fin 0⟩⟩
  | .TransY => ⟨(1 : Rot).toD, ⟨fin 0, a, fin 0⟩⟩
  | .TransZ => ⟨(1 : Rot).toD, ⟨fin 0, fin 0, a⟩⟩
  | .Fixed => (1 : Frame).toD
/-- `Segment::pose`, segment.cpp:57. -/
def Segment.poseD (s : Segment) (q : Dbl) : DFrame := s.joint.poseD q * s.f_tip.toD

/-- Loop of chainfksolverpos_recursive.cpp:49–58. -/
def fkLoopD (q : List Dbl) : List Segment → ℕ → DFrame → Option DFrame
  | [], _, p => some p
  | s :: ss, j, p =>
    if s.moving then do
      let qj ← q[j]?
      fkLoopD q ss (j + 1) (p * s.poseD qj)
    else fkLoopD q ss j (p * s.poseD (fin 0))

/-- `ChainFkSolverPos_recursive::JntToCart(q_in, p_out)`, chainfksolverpos_recursive.cpp:34, for the whole chain. -/
def fkPosD (c : Chain) (q : List Dbl) : Option (Int × DFrame) :=
  if q.length ≠ c.nrOfJoints then some (E_SIZE_MISMATCH, (1 : Frame).toD)
  else do
    let p ← fkLoopD q (c.segments.take c.nrOfSegments) 0 (1 : Frame).toD
    some (E_NOERROR, p)

/-! ## Newton-Raphson loops -/

/-- `Add(JntArray,JntArray,JntArray)`, jntarray.cpp:80. -/
def jntAddD (a b : List Dbl) : Option (List Dbl) := if a.length = b.length then some (List.zipWith (· + ·) a b) else none

/-- An inverse velocity solver as in `VelSolver`. -/
abbrev VelSolverD := ℕ → List Dbl → DTwist → Option (Int × List Dbl)

open Classical in
/-- Loop of `ChainIkSolverPos_NR::CartToJnt`, chainiksolverpos_nr.cpp:53–67, with the recursive forward solver.  Result:
returned code and `q_out` (the member `error` is in the model `nrLoop`). -/
def nrLoopD (c : Chain) (ik : VelSolverD) (p_in : DFrame) (eps : Dbl) : ℕ → ℕ → List Dbl → Option (Int × List Dbl)
  | 0, _, q => some (E_MAX_ITERATIONS_EXCEEDED, q)
  | n + 1, i, q => do
    let (e, f) ← fkPosD c q
    if e < E_NOERROR then some (E_FKSOLVERPOS_FAILED, q)
    else do
      let delta_twist := DFrame.diff f p_in
      let (rc, delta_q) ← ik i q delta_twist
      if rc < E_NOERROR then some (E_IKSOLVER_FAILED, q)
      else do
        let q' ← jntAddD q delta_q
        if DTwist.equal delta_twist (0 : Twist).toD eps then some (if rc > E_NOERROR then E_DEGRADED else E_NOERROR, q')
        else nrLoopD c ik p_in eps n (i + 1) q'

open Classical in
/-- The two loops of chainiksolverpos_nr_jl.cpp:85–94. -/
def clampLowD (q lo : List Dbl) : List Dbl := List.zipWith (fun x l => if x < l then l else x) q lo
open Classical in
/-- See `clampLowD`. -/
def clampHighD (q hi : List Dbl) : List Dbl := List.zipWith (fun x h => if h < x then h else x) q hi

open Classical in
/-- Loop of `ChainIkSolverPos_NR_JL::CartToJnt`, chainiksolverpos_nr_jl.cpp:73–100, with the recursive forward solver. -/
def jlLoopD (c : Chain) (ik : VelSolverD) (p_in : DFrame) (eps : Dbl) (q_min q_max : List Dbl) :
    ℕ → ℕ → List Dbl → Option (Int × List Dbl)
  | 0, _, q => some (E_MAX_ITERATIONS_EXCEEDED, q)
  | n + 1, i, q => do
    let (e, f) ← fkPosD c q
    if e < 0 then some (E_FKSOLVERPOS_FAILED, q)
    else
      let delta_twist := DFrame.diff f p_in
      if DTwist.equal delta_twist (0 : Twist).toD eps then some (E_NOERROR, q)
      else do
        let (rc, delta_q) ← ik i q delta_twist
        if rc < 0 then some (E_IKSOLVER_FAILED, q)
        else do
          let q' ← jntAddD q delta_q
          jlLoopD c ik p_in eps q_min q_max n (i + 1) (clampHighD (clampLowD q' q_min) q_max)

/-! ## The weighted damped least squares solver on finite arguments -/

open Classical in
/-- `tmp(i)`, chainiksolvervel_wdls.cpp:166–195; `ls` is `lambda_scaled`. -/
def wdlsTmpD {n : ℕ} (Wx : Matrix (Fin 6) (Fin 6) ℝ) (U : Matrix (Fin 6) (Fin n) ℝ) (S : Fin n → ℝ) (eps ls : ℝ) (v : Twist)
    (i : Fin n) : Dbl :=
  let sum : ℝ := if (i : ℕ) < 6 then ∑ j, (∑ k, Wx j k * U k i) * v.comp j else 0
  if |S i| < eps then
    if (i : ℕ) < 6 then fin sum * (fin (S i) / fin (S i * S i + ls * ls)) else fin 0
  else fin sum / fin (S i)

open Classical in
/-- `ChainIkSolverVel_wdls::CartToJnt`, chainiksolvervel_wdls.cpp:116, on finite arguments, for a solver that is up to date
(sizes as expected, at least six joints).  The product with `V` adds the terms from the left. -/
def wdlsD (s : WdlsState) (c : Chain) (svd : (n : ℕ) → Matrix (Fin 6) (Fin n) ℝ → SvdOut 6 n) (jac0 : Jac) (q_in : List ℝ)
    (v_in : Twist) : Option (Int × List Dbl) := do
  let (err, J) ← jntToJac c (List.replicate s.nj false) q_in jac0 (-1)
  if err < E_NOERROR then none
  else
    let r := svd s.nj (s.Wx * (jacMat s.nj J * s.Wq))
    if r.code ≠ 0 then some (E_SVD_FAILED, List.replicate s.nj (fin 0))
    else if h : 6 ≤ s.nj then
      let ls := lambdaScaled (r.S ⟨5, by omega⟩) s.eps s.lambda
      some (pinvCode r.S s.eps, List.ofFn fun i : Fin s.nj =>
        (List.finRange s.nj).foldl
          (fun acc j => acc + fin ((s.Wq * r.V) i j) * wdlsTmpD s.Wx r.U r.S s.eps ls v_in j) (fin 0))
    else none

end KDL
