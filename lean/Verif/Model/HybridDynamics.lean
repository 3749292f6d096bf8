import Verif.Model.Dynamics
import Verif.Model.IkVel

/-!
# Model of `chainhdsolver_vereshchagin.cpp`

All citations are relative to `/repo/orocos_kdl/src`.

A column of the matrices `E`, `E_tilde` (torques above forces) is a `Wrench`; `E.transpose()*vZ` is then the column-wise
`Twist.dot`.  The matrix `M` and the vectors `G`, `EZ`, `nu` have `nc` rows.  `results[i+1]` of the three sweeps is the
`i`th element of a list.  `svd_eigen_HH` is a parameter.  The members `A`, `biasAccComp`, `qdotdot_sum`, `alfa_N`,
`alfa_N2`, `beta_N` are never read and left out.
-/

noncomputable section

namespace KDL

open Matrix

/-- What `initial_upwards_sweep` stores in `results[i+1]` (chainhdsolver_vereshchagin.hpp:469): `F`, `F_base`, `Z`, `v`,
`C`, `U`; `H` is the inertia of the segment. -/
structure HdLink where
  seg : Segment
  F : Frame
  base : Frame
  Z : Twist
  v : Twist
  C : Twist
  U : Wrench

/-- `initial_upwards_sweep`, chainhdsolver_vereshchagin.cpp:78.  `Ft` is `F_total`, `prev` is `results[i].v`, `none` for
`i == 0`.  `q(j)` and `qdot(j)` are read for every segment, also for a fixed one. -/
def hdUp (q qd : List ℝ) (fext : List Wrench) : List Segment → ℕ → ℕ → Frame → Option Twist → Option (List HdLink)
  | [], _, _, _, _ => some []
  | s :: ss, i, j, Ft, prev => do
    let qj ← q[j]?
    let qdj ← qd[j]?
    let fe ← fext[i]?
    let F := s.pose qj
    let Ft := Ft * F
    let vj := F.M.invTwist (s.twist qj qdj)
    let Z := F * F.M.invTwist (s.twist qj 1)
    let v : Twist := match prev with
      | some v0 => F.invTwist v0 + vj
      | none => vj
    let C := F * (v * vj)
    let U : Wrench := v * (ABI.ofRBI s.I * v) - Ft.M.inv * fe
    let rest ← hdUp q qd fext ss (i + 1) (if s.moving then j + 1 else j) Ft (some v)
    some (⟨s, F, Ft, Z, v, C, U⟩ :: rest)

/-- The reads `ff_torques(j)` of the downward sweep, chainhdsolver_vereshchagin.cpp:129, :231, :239: over the segments
from the last to the first; `j` is an `int` that becomes `-1` below the first moving joint. -/
def hdFf (ff : List ℝ) : List Segment → ℤ → Option (List ℝ)
  | [], _ => some []
  | s :: ss, j => do
    let t ← getJnt ff j
    let rest ← hdFf ff ss (if s.moving then j - 1 else j)
    some (t :: rest)

/-- `P_tilde`, `R_tilde`, `E_tilde`, `M`, `G` of one element of `results`. -/
structure HdTilde (nc : ℕ) where
  P : ABI
  R : Wrench
  E : Fin nc → Wrench
  M : Matrix (Fin nc) (Fin nc) ℝ
  G : Fin nc → ℝ

/-- What `downwards_sweep` stores in `results[i]` for `i != 0`, besides the tilde quantities used only there. -/
structure HdArt (nc : ℕ) where
  link : HdLink
  P : ABI
  R : Wrench
  E : Fin nc → Wrench
  M : Matrix (Fin nc) (Fin nc) ℝ
  G : Fin nc → ℝ
  PZ : Wrench
  D : ℝ
  PC : Wrench
  u : ℝ
  EZ : Fin nc → ℝ

/-- `ArticulatedBodyInertia(PZDPZt.bottomRightCorner, topRightCorner, topLeftCorner)` with `PZDPZt = vPZ*vPZ'/D`,
chainhdsolver_vereshchagin.cpp:171–180. -/
def hdPZ (PZ : Wrench) (D : ℝ) : ABI :=
  ⟨(1 / D) • Mat3.outer PZ.force PZ.force, (1 / D) • Mat3.outer PZ.torque PZ.force,
    (1 / D) • Mat3.outer PZ.torque PZ.torque⟩

/-- The branch `i != ns` of `downwards_sweep`, chainhdsolver_vereshchagin.cpp:164–202, for an element of `results` with
inertia `H` and bias force `U`. -/
def hdTilde {nc : ℕ} (H : ABI) (U : Wrench) (ch : HdArt nc) : HdTilde nc :=
  ⟨H + ch.P - hdPZ ch.PZ ch.D, U + ch.R + ch.PC + ch.u • (ch.PZ / ch.D), fun c => ch.E c - ch.EZ c • (ch.PZ / ch.D),
    fun c d => ch.M c d - ch.EZ c * ch.EZ d / ch.D,
    fun c => ch.G c + (ch.link.C + ch.u • (ch.link.Z / ch.D)).dot (ch.E c)⟩

/-- The part of `downwards_sweep` for `i != 0`, chainhdsolver_vereshchagin.cpp:203–249. -/
def hdJoint {nc : ℕ} (l : HdLink) (ff : ℝ) (t : HdTilde nc) : HdArt nc :=
  let P := l.F * t.P
  let R := l.F * t.R
  let E := fun c => l.F * t.E c
  let PZ := P * l.Z
  let D := if l.seg.moving then l.seg.joint.inertia + l.Z.dot PZ else l.Z.dot PZ
  let PC := P * l.C
  ⟨l, P, R, E, t.M, t.G, PZ, D, PC, ff + -(l.Z.dot (R + PC)), fun c => l.Z.dot (E c)⟩

/-- `downwards_sweep`, chainhdsolver_vereshchagin.cpp:127, for the elements `results[1] … results[ns]`, with the reads of
`hdFf`.  `EN` are the columns of `E_tilde` of the last element.  The loop runs from the last element to the first. -/
def hdDown {nc : ℕ} (EN : Fin nc → Wrench) : List (HdLink × ℝ) → List (HdArt nc)
  | [] => []
  | (l, ff) :: ls =>
    let rest := hdDown EN ls
    let t : HdTilde nc := match rest with
      | [] => ⟨ABI.ofRBI l.seg.I, l.U, EN, 0, 0⟩
      | ch :: _ => hdTilde (ABI.ofRBI l.seg.I) l.U ch
    hdJoint l ff t :: rest

/-- `results[0]` after `downwards_sweep`; its `H` and `U` are never set and zero. -/
def hdBase {nc : ℕ} (EN : Fin nc → Wrench) : List (HdArt nc) → HdTilde nc
  | [] => ⟨⟨0, 0, 0⟩, 0, EN, 0, 0⟩
  | ch :: _ => hdTilde ⟨0, 0, 0⟩ 0 ch

open Classical in
/-- `constraint_calculation`, chainhdsolver_vereshchagin.cpp:254: the return code of `svd_eigen_HH` is ignored. -/
def hdNu {nc : ℕ} (svd : (n : ℕ) → Matrix (Fin n) (Fin n) ℝ → SvdOut n n) (acc : Twist) (t : HdTilde nc)
    (beta : Fin nc → ℝ) : Fin nc → ℝ :=
  let r := svd nc t.M
  let S : Fin nc → ℝ := fun i => if r.S i < 1 / 10 ^ 14 then 0 else 1 / r.S i
  (r.V * diagonal S * r.Uᵀ) *ᵥ fun c => -(acc.dot (t.E c)) + beta c - t.G c

/-- What the final sweep leaves behind: `q_dotdot`, `constraint_torques`, `total_torques` and the `acc` of the segments. -/
structure HdOut where
  qdd : List ℝ
  ct : List ℝ
  tt : List ℝ
  acc : List Twist

/-- `s.E*nu`, chainhdsolver_vereshchagin.cpp:316. -/
def hdE {nc : ℕ} (E : Fin nc → Wrench) (nu : Fin nc → ℝ) : Wrench :=
  ⟨⟨∑ c, (E c).force.x * nu c, ∑ c, (E c).force.y * nu c, ∑ c, (E c).force.z * nu c⟩,
    ⟨∑ c, (E c).torque.x * nu c, ∑ c, (E c).torque.y * nu c, ∑ c, (E c).torque.z * nu c⟩⟩

/-- `final_upwards_sweep`, chainhdsolver_vereshchagin.cpp:293; `ap` is `a_p`. -/
def hdFinal {nc : ℕ} (nu : Fin nc → ℝ) : List (HdArt nc) → ℕ → Twist → HdOut → Option HdOut
  | [], _, _, o => some o
  | s :: ss, j, ap, o => do
    let pf := -(s.link.Z.dot (s.P * ap))
    let ctj := -(s.link.Z.dot (hdE s.E nu))
    let ct ← setJnt o.ct j ctj
    let tt ← setJnt o.tt j (s.u + pf + ctj)
    let x := s.u / s.D + pf / s.D + ctj / s.D
    let qdd ← setJnt o.qdd j x
    let acc := s.link.F.invTwist (ap + x • s.link.Z + s.link.C)
    hdFinal nu ss (if s.link.seg.moving then j + 1 else j) acc ⟨qdd, ct, tt, o.acc ++ [acc]⟩

/-- The members of a `ChainHdSolver_Vereshchagin` that outlive a call and matter for the next: `ns`, `nc`, the size of
`total_torques` and the root acceleration. -/
structure HdState where
  ns : ℕ
  nc : ℕ
  tt : ℕ
  acc : Twist

/-- chainhdsolver_vereshchagin.cpp:31. -/
def HdState.new (c : Chain) (acc : Twist) (nc : ℕ) : HdState := ⟨c.nrOfSegments, nc, c.nrOfJoints, acc⟩
/-- `updateInternalDataStructures`, chainhdsolver_vereshchagin.cpp:48. -/
def HdState.update (s : HdState) (c : Chain) : HdState := { s with ns := c.nrOfSegments, tt := c.nrOfJoints }

/-- Outcome of a call. -/
inductive HdResult (nc : ℕ)
  /-- a size check failed; nothing was written -/
  | err (code : Int)
  /-- the results hold infinities or NaNs: one of the divisors `D` is zero -/
  | nan
  /-- return code 0; the constraint force magnitudes `nu`, the poses `F_base` of the segments and the outputs -/
  | ok (nu : Fin nc → ℝ) (base : List Frame) (out : HdOut)

open Classical in
/-- `ChainHdSolver_Vereshchagin::CartToJnt`, chainhdsolver_vereshchagin.cpp:55.  `tt0` are the old contents of
`total_torques`.  `none`: undefined behaviour. -/
def HdState.cartToJnt (s : HdState) (c : Chain) (svd : (n : ℕ) → Matrix (Fin n) (Fin n) ℝ → SvdOut n n) (tt0 : ℕ → ℝ)
    (q qd qdd : List ℝ) (alfa : Jac) (beta : List ℝ) (fext : List Wrench) (ff ct : List ℝ) : Option (HdResult s.nc) :=
  let nj := c.nrOfJoints
  if s.ns ≠ c.nrOfSegments then some (.err E_NOT_UP_TO_DATE)
  else if q.length ≠ nj ∨ qd.length ≠ nj ∨ qdd.length ≠ nj ∨ ff.length ≠ nj ∨ ct.length ≠ nj ∨ fext.length ≠ s.ns then
    some (.err E_SIZE_MISMATCH)
  else if alfa.length ≠ s.nc ∨ beta.length ≠ s.nc then some (.err E_SIZE_MISMATCH)
  else do
    let segs := c.segments.take s.ns
    let links ← hdUp q qd fext segs 0 0 1 none
    let ffs ← hdFf ff segs.reverse ((nj : ℤ) - 1)
    -- chainhdsolver_vereshchagin.cpp:149–162; `F_total` is the pose of the last segment
    let Ft : Frame := (links.getLast?.map (·.base)).getD 1
    let EN : Fin s.nc → Wrench := fun k =>
      let t := alfa.getD k 0
      Ft.M.inv * (⟨t.vel, t.rot⟩ : Wrench)
    let arts := hdDown EN (links.zip ffs.reverse)
    let nu := hdNu svd s.acc (hdBase EN arts) (fun k => beta.getD k 0)
    let out ← hdFinal nu arts 0 s.acc ⟨qdd, ct, (List.range s.tt).map tt0, []⟩
    if ∃ a ∈ arts, a.D = 0 then some .nan else some (.ok nu (links.map (·.base)) out)

end KDL
