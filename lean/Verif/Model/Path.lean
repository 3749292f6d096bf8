import Mathlib.Analysis.SpecialFunctions.Trigonometric.Inverse
import Verif.Model.Frames
import Verif.Model.VelocityProfile

/-!
# Model of the geometric paths and the trajectories

`rotational_interpolation_sa.cpp`, `path_line.cpp`, `path_circle.cpp`, `path_point.cpp`, `path_composite.cpp`,
`path_roundedcomposite.cpp`, `path_cyclic_closed.cpp`, `trajectory_segment.cpp`, `trajectory_composite.cpp`,
`trajectory_stationary.hpp`.  All citations are relative to `/repo/orocos_kdl/src`.

Doubles are reals.  The only implementation of the interface `RotationalInterpolation` is
`RotationalInterpolation_SingleAxis`, which is therefore used directly.  Ownership flags (`aggregate`), stream output and
input are not modelled.
-/

noncomputable section

namespace KDL

/-! ## `RotationalInterpolation_SingleAxis` -/

/-- Members, rotational_interpolation_sa.hpp:65–68.  `angle = none`: not initialised. -/
structure RotInterp where
  start : Rot
  stop : Rot
  axis : Vec
  angle : Option ℝ

namespace RotInterp
/-- Constructor, rotational_interpolation_sa.cpp:49: members default constructed (identity, identity, zero), `angle`
left uninitialised. -/
def new : RotInterp := ⟨1, 1, 0, none⟩
/-- `SetStartEnd`, rotational_interpolation_sa.cpp:52; it overwrites every member. -/
def setStartEnd (start stop : Rot) : RotInterp :=
  let r := (start.inv * stop).getRotAngle
  ⟨start, stop, r.1, some r.2⟩
/-- `Pos`, rotational_interpolation_sa.cpp:59. -/
def pos (o : RotInterp) (theta : ℝ) : Rot := o.start * Rot.rot2 o.axis theta
/-- `Vel`, rotational_interpolation_sa.cpp:63. -/
def vel (o : RotInterp) (_theta thetad : ℝ) : Vec := o.start * (thetad • o.axis)
/-- `Acc`, rotational_interpolation_sa.cpp:67. -/
def acc (o : RotInterp) (_theta _thetad thetadd : ℝ) : Vec := o.start * (thetadd • o.axis)
/-- `Clone`, rotational_interpolation_sa.cpp:83: a new, unset object. -/
def clone (_o : RotInterp) : RotInterp := new
end RotInterp

/-! ## The interface `Path` -/

/-- A path as seen through the interface path.hpp:58–131, for objects whose const members depend on nothing but their
arguments (all but `Path_Composite`, whose lookup cache is modelled below). -/
structure PathI where
  length : ℝ
  pos : ℝ → Frame
  vel : ℝ → ℝ → Twist
  acc : ℝ → ℝ → ℝ → Twist

/-- Outcome of a planning function. -/
inductive PathRes (α : Type)
  | ok (a : α)
  /-- `Error_MotionPlanning_Circle_ToSmall` -/
  | tooSmall
  /-- `Error_MotionPlanning_Circle_No_Plane` -/
  | noPlane
  /-- `Error_MotionPlanning_Not_Feasible(reason)` -/
  | notFeasible (reason : ℕ)
  /-- a division by zero left an infinity or a NaN in a member -/
  | nan

/-! ## `Path_Line` -/

/-- Members of `Path_Line`, path_line.hpp:61–74. -/
structure PathLine where
  orient : RotInterp
  V_base_start : Vec
  V_base_end : Vec
  V_start_end : Vec
  eqradius : ℝ
  pathlength : ℝ
  scalelin : ℝ
  scalerot : ℝ

namespace PathLine
open Classical in
/-- `(pathlength, scalerot, scalelin)` of path_line.cpp:67–83 (and 108–124).  In the first case `eqradius` and
`alpha*eqradius` are not zero because `dist ≥ 0`. -/
def scales (alpha dist eqradius : ℝ) : ℝ × ℝ × ℝ :=
  if alpha ≠ 0 ∧ alpha * eqradius > dist then (alpha * eqradius, 1 / eqradius, dist / (alpha * eqradius))
  else if dist ≠ 0 then (dist, alpha / dist, 1)
  else (0, 1, 1)

/-- Common part of the two constructors: start and end positions and orientations. -/
def build (p0 p1 : Vec) (M0 M1 : Rot) (eqradius : ℝ) : PathLine :=
  let n := (p1 - p0).normalize
  let o := RotInterp.setStartEnd M0 M1
  let sc := scales (M0.inv * M1).getRotAngle.2 n.2 eqradius
  ⟨o, p0, p1, n.1, eqradius, sc.1, sc.2.2, sc.2.1⟩

/-- `Path_Line(startpos, endpos, orient, eqradius)`, path_line.cpp:47; `orient` is overwritten by `SetStartEnd`. -/
def ofFrames (startpos endpos : Frame) (eqradius : ℝ) : PathLine := build startpos.p endpos.p startpos.M endpos.M eqradius
/-- `Path_Line(startpos, starttwist, orient, eqradius)`, path_line.cpp:86. -/
def ofTwist (startpos : Frame) (t : Twist) (eqradius : ℝ) : PathLine :=
  build startpos.p (startpos.p + t.vel) startpos.M (startpos * (⟨Rot.rot t.rot t.rot.norm, t.vel⟩ : Frame)).M eqradius
/-- `LengthToS`, path_line.cpp:129; `none`: division by zero. -/
def lengthToS (l : PathLine) (length : ℝ) : Option ℝ :=
  open Classical in if l.scalelin = 0 then none else some (length / l.scalelin)
/-- `Pos`, path_line.cpp:135. -/
def pos (l : PathLine) (s : ℝ) : Frame :=
  ⟨l.orient.pos (s * l.scalerot), l.V_base_start + (s * l.scalelin) • l.V_start_end⟩
/-- `Vel`, path_line.cpp:139. -/
def vel (l : PathLine) (s sd : ℝ) : Twist :=
  ⟨(sd * l.scalelin) • l.V_start_end, l.orient.vel (s * l.scalerot) (sd * l.scalerot)⟩
/-- `Acc`, path_line.cpp:143. -/
def acc (l : PathLine) (s sd sdd : ℝ) : Twist :=
  ⟨(sdd * l.scalelin) • l.V_start_end, l.orient.acc (s * l.scalerot) (sd * l.scalerot) (sdd * l.scalerot)⟩
/-- The object through the interface; `PathLength` is path_line.cpp:132. -/
def toPath (l : PathLine) : PathI := ⟨l.pathlength, l.pos, l.vel, l.acc⟩
/-- `Clone`, path_line.cpp:153 (both branches construct from the same frames). -/
def clone (l : PathLine) : PathLine :=
  ofFrames ⟨l.orient.pos 0, l.V_base_start⟩ ⟨l.orient.pos (l.pathlength * l.scalerot), l.V_base_end⟩ l.eqradius
end PathLine

/-! ## `Path_Circle` -/

/-- Members of `Path_Circle`, path_circle.hpp:63–76. -/
structure PathCircle where
  orient : RotInterp
  radius : ℝ
  F_base_center : Frame
  eqradius : ℝ
  pathlength : ℝ
  scalelin : ℝ
  scalerot : ℝ

namespace PathCircle
/-- `deg2rad`, utilities/utility.cxx:19: the literal approximates `π/180`; modelled as that number. -/
def deg2rad : ℝ := Real.pi / 180

open Classical in
/-- Constructor, path_circle.cpp:48.  With a zero path length one of the quotients of lines 88–95 has a zero divisor. -/
def new (F_base_start : Frame) (V_base_center V_base_p : Vec) (R_base_end : Rot) (alpha eqradius : ℝ) :
    PathRes PathCircle :=
  let o := RotInterp.setStartEnd F_base_start.M R_base_end
  let oalpha := (F_base_start.M.inv * R_base_end).getRotAngle.2
  let nx := (F_base_start.p - V_base_center).normalize
  let x := nx.1
  let radius := nx.2
  if radius < epsilon then .tooSmall
  else
    let tmpv := (V_base_p - V_base_center).normalize.1
    let nz := (x * tmpv).normalize
    let z := nz.1
    if nz.2 < epsilon then .noPlane
    else
      let C : Frame := ⟨Rot.ofCols x (z * x) z, V_base_center⟩
      let dist := alpha * radius
      if oalpha * eqradius > dist then
        if oalpha * eqradius = 0 then .nan
        else .ok ⟨o, radius, C, eqradius, oalpha * eqradius, dist / (oalpha * eqradius), 1 / eqradius⟩
      else
        if dist = 0 then .nan
        else .ok ⟨o, radius, C, eqradius, dist, 1, oalpha / dist⟩

/-- `LengthToS`, path_circle.cpp:100. -/
def lengthToS (c : PathCircle) (length : ℝ) : Option ℝ :=
  open Classical in if c.scalelin = 0 then none else some (length / c.scalelin)
/-- `Pos`, path_circle.cpp:109. -/
def pos (c : PathCircle) (s : ℝ) : Frame :=
  let p := s * c.scalelin / c.radius
  ⟨c.orient.pos (s * c.scalerot), c.F_base_center * (⟨c.radius * Real.cos p, c.radius * Real.sin p, 0⟩ : Vec)⟩
/-- `Vel`, path_circle.cpp:117. -/
def vel (c : PathCircle) (s sd : ℝ) : Twist :=
  let p := s * c.scalelin / c.radius
  let v := sd * c.scalelin / c.radius
  ⟨c.F_base_center.M * (⟨-c.radius * Real.sin p * v, c.radius * Real.cos p * v, 0⟩ : Vec),
    c.orient.vel (s * c.scalerot) (sd * c.scalerot)⟩
/-- `Acc`, path_circle.cpp:125. -/
def acc (c : PathCircle) (s sd sdd : ℝ) : Twist :=
  let p := s * c.scalelin / c.radius
  let cp := Real.cos p
  let sp := Real.sin p
  let v := sd * c.scalelin / c.radius
  let a := sdd * c.scalelin / c.radius
  ⟨c.F_base_center.M * (⟨-c.radius * cp * v * v - c.radius * sp * a, -c.radius * sp * v * v + c.radius * cp * a, 0⟩ : Vec),
    c.orient.acc (s * c.scalerot) (sd * c.scalerot) (sdd * c.scalerot)⟩
/-- The object through the interface; `PathLength` is path_circle.cpp:105. -/
def toPath (c : PathCircle) : PathI := ⟨c.pathlength, c.pos, c.vel, c.acc⟩
/-- `Clone`, path_circle.cpp:140. -/
def clone (c : PathCircle) : PathRes PathCircle :=
  new (c.pos 0) c.F_base_center.p c.F_base_center.M.unitY (c.orient.pos (c.pathlength * c.scalerot))
    (c.pathlength * c.scalelin / c.radius / deg2rad) c.eqradius
end PathCircle

/-! ## `Path_Point` -/

/-- `Path_Point`, path_point.cpp:47–72. -/
def pathPoint (F : Frame) : PathI := ⟨0, fun _ => F, fun _ _ => 0, fun _ _ _ => 0⟩

/-! ## `Path_Composite` -/

/-- Members of `Path_Composite`, path_composite.hpp:70–80.  The three cached members are `mutable`. -/
structure PathComposite where
  gv : List PathI
  dv : List ℝ
  pathlength : ℝ
  cachedStarts : ℝ
  cachedEnds : ℝ
  cachedIndex : ℕ

namespace PathComposite
/-- Constructor, path_composite.cpp:75. -/
def new : PathComposite := ⟨[], [], 0, 0, 0, 0⟩
/-- `Add`, path_composite.cpp:82. -/
def add (c : PathComposite) (g : PathI) : PathComposite :=
  { c with pathlength := c.pathlength + g.length, dv := c.dv ++ [c.pathlength + g.length], gv := c.gv ++ [g] }

open Classical in
/-- Loop of `Lookup`, path_composite.cpp:62–71, over the rest of `dv` from index `i`: relative length, index, start, end.
`none`: the loop ended without a hit. -/
def lookupLoop (s : ℝ) : List ℝ → ℕ → ℝ → Option (ℝ × ℕ × ℝ × ℝ)
  | [], _, _ => none
  | e :: es, i, prev =>
    if s ≤ e ∨ es = [] then some (s - prev, i, prev, e) else lookupLoop s es (i + 1) e

open Classical in
/-- `Lookup`, path_composite.cpp:55: relative path length and the object with its cache.  `none`: an assertion fails
(lines 57–58). -/
def lookup (c : PathComposite) (s : ℝ) : Option (ℝ × PathComposite) :=
  if s ≥ -(1 / 10 ^ 12) ∧ s ≤ c.pathlength + 1 / 10 ^ 12 then
    if c.cachedStarts ≤ s ∧ s ≤ c.cachedEnds then some (s - c.cachedStarts, c)
    else
      match lookupLoop s c.dv 0 0 with
      | some (r, i, a, b) => some (r, { c with cachedIndex := i, cachedStarts := a, cachedEnds := b })
      | none => some (0, c)
  else none
/-- `Pos`, path_composite.cpp:98: result and the object afterwards.  `none` also for `gv[cached_index]` out of bounds. -/
def pos (c : PathComposite) (s : ℝ) : Option (Frame × PathComposite) := do
  let (r, c') ← c.lookup s
  let g ← c'.gv[c'.cachedIndex]?
  some (g.pos r, c')
/-- `Vel`, path_composite.cpp:103. -/
def vel (c : PathComposite) (s sd : ℝ) : Option (Twist × PathComposite) := do
  let (r, c') ← c.lookup s
  let g ← c'.gv[c'.cachedIndex]?
  some (g.vel r sd, c')
/-- `Acc`, path_composite.cpp:108. -/
def acc (c : PathComposite) (s sd sdd : ℝ) : Option (Twist × PathComposite) := do
  let (r, c') ← c.lookup s
  let g ← c'.gv[c'.cachedIndex]?
  some (g.acc r sd sdd, c')
/-- `GetCurrentSegmentLocation`, path_composite.cpp:146. -/
def currentSegment (c : PathComposite) (s : ℝ) : Option (ℕ × ℝ × PathComposite) := do
  let (r, c') ← c.lookup s
  some (c'.cachedIndex, r, c')
/-- `GetSegment`, path_composite.cpp:133; `none`: the assertions fail. -/
def getSegment (c : PathComposite) (i : ℕ) : Option PathI := if i < c.dv.length then c.gv[i]? else none
/-- `GetLengthToEndOfSegment`, path_composite.cpp:139. -/
def lengthToEnd (c : PathComposite) (i : ℕ) : Option ℝ := c.dv[i]?
/-- `Clone`, path_composite.cpp:113; `cl` stands for the virtual `Clone` of the segments. -/
def clone (cl : PathI → PathI) (c : PathComposite) : PathComposite := c.gv.foldl (fun d g => d.add (cl g)) new
end PathComposite

/-! ## `Path_RoundedComposite` -/

/-- Members of `Path_RoundedComposite`, path_roundedcomposite.hpp:63–73. -/
structure RoundedComposite where
  comp : PathComposite
  radius : ℝ
  eqradius : ℝ
  F_base_start : Frame
  F_base_via : Frame
  nrofpoints : ℕ

namespace RoundedComposite
open Classical in
/-- Constructor, path_roundedcomposite.cpp:61; the frames are default constructed. -/
def new (radius eqradius : ℝ) : PathRes RoundedComposite :=
  if eqradius ≤ 0 then .notFeasible 1 else .ok ⟨.new, radius, eqradius, 1, 1, 0⟩

/-- `alpha` of path_roundedcomposite.cpp:90: `std::max(-1., std::min(x, 1.))`. -/
def cornerAngle (ab bc : Vec) : ℝ := Real.arccos (max (-1) (min (ab.dot bc / ab.norm / bc.norm) 1))

/-- Lines 103–130 of path_roundedcomposite.cpp: line and circle of a corner, and the end of the circle.  A line is added
to the composite before the constructor of the circle can throw, hence the pair. -/
def corner (radius eqradius alpha d : ℝ) (F_start F_via F_point : Frame) : Option (PathLine × PathRes PathCircle × Frame) :=
  let ab := F_via.p - F_start.p
  let bc := F_point.p - F_via.p
  let line1 := PathLine.ofFrames F_start F_via eqradius
  let line2 := PathLine.ofFrames F_via F_point eqradius
  match line1.lengthToS (ab.norm - d), line2.lengthToS d with
  | some s1, some s2 =>
    let circlestart := line1.pos s1
    let circleend := line2.pos s2
    let t := (ab * (ab * bc)).normalize.1
    some (PathLine.ofFrames F_start circlestart eqradius,
      PathCircle.new circlestart (circlestart.p - radius • t) circleend.p circleend.M alpha eqradius, circleend)
  | _, _ => none

open Classical in
/-- `Add`, path_roundedcomposite.cpp:70: outcome and the object afterwards (also after an exception). -/
def add (r : RoundedComposite) (F : Frame) : PathRes Unit × RoundedComposite :=
  if r.nrofpoints = 0 then (.ok (), { r with F_base_start := F, nrofpoints := r.nrofpoints + 1 })
  else if r.nrofpoints = 1 then (.ok (), { r with F_base_via := F, nrofpoints := r.nrofpoints + 1 })
  else
    let ab := r.F_base_via.p - r.F_base_start.p
    let bc := F.p - r.F_base_via.p
    let abdist := ab.norm
    let bcdist := bc.norm
    if abdist < 1 / 10 ^ 7 then (.notFeasible 2, r)
    else if bcdist < 1 / 10 ^ 7 then (.notFeasible 3, r)
    else
      let alpha := cornerAngle ab bc
      if Real.pi - alpha < 1 / 10 ^ 7 then (.notFeasible 4, r)
      else if alpha < 1 / 10 ^ 7 then
        (.ok (), { r with comp := r.comp.add (PathLine.ofFrames r.F_base_start r.F_base_via r.eqradius).toPath,
                          F_base_start := r.F_base_via, F_base_via := F, nrofpoints := r.nrofpoints + 1 })
      else
        let d := r.radius / Real.tan ((Real.pi - alpha) / 2)
        if d ≥ abdist then (.notFeasible 5, r)
        else if d ≥ bcdist then (.notFeasible 6, r)
        else
          match corner r.radius r.eqradius alpha d r.F_base_start r.F_base_via F with
          | none => (.nan, r)
          | some (l, c, e) =>
            let comp1 := r.comp.add l.toPath
            match c with
            | .ok c => (.ok (), { r with comp := comp1.add c.toPath, F_base_start := e, F_base_via := F,
                                         nrofpoints := r.nrofpoints + 1 })
            | .tooSmall => (.tooSmall, { r with comp := comp1 })
            | .noPlane => (.noPlane, { r with comp := comp1 })
            | .notFeasible k => (.notFeasible k, { r with comp := comp1 })
            | .nan => (.nan, { r with comp := comp1 })

/-- `Finish`, path_roundedcomposite.cpp:139. -/
def finish (r : RoundedComposite) : RoundedComposite :=
  if r.nrofpoints ≥ 1 then
    { r with comp := r.comp.add (PathLine.ofFrames r.F_base_start r.F_base_via r.eqradius).toPath }
  else r

/-- `Clone`, path_roundedcomposite.cpp:198 with the private constructor 55: the two remembered frames are not copied.
`cloneComp` stands for `comp->Clone()`. -/
def clone (cloneComp : PathComposite → PathComposite) (r : RoundedComposite) : RoundedComposite :=
  ⟨cloneComp r.comp, r.radius, r.eqradius, 1, 1, r.nrofpoints⟩
end RoundedComposite

/-! ## `Path_Cyclic_Closed` -/

/-- `fmod(x,y)` for `y ≠ 0`: the remainder of the quotient truncated towards zero. -/
def fmod (x y : ℝ) : ℝ := x - y * (if 0 ≤ x / y then (⌊x / y⌋ : ℝ) else (⌈x / y⌉ : ℝ))

/-- `Path_Cyclic_Closed`, path_cyclic_closed.hpp:62–63. -/
structure CyclicClosed where
  times : ℤ
  geom : PathI

namespace CyclicClosed
/-- `PathLength`, path_cyclic_closed.cpp:56. -/
def length (c : CyclicClosed) : ℝ := c.geom.length * c.times
/-- `fmod(s, geom->PathLength())`; `none`: NaN. -/
def reduce (c : CyclicClosed) (s : ℝ) : Option ℝ :=
  open Classical in if c.geom.length = 0 then none else some (fmod s c.geom.length)
/-- `Pos`, path_cyclic_closed.cpp:60. -/
def pos (c : CyclicClosed) (s : ℝ) : Option Frame := (c.reduce s).map c.geom.pos
/-- `Vel`, path_cyclic_closed.cpp:64. -/
def vel (c : CyclicClosed) (s sd : ℝ) : Option Twist := (c.reduce s).map fun x => c.geom.vel x sd
/-- `Acc`, path_cyclic_closed.cpp:68. -/
def acc (c : CyclicClosed) (s sd sdd : ℝ) : Option Twist := (c.reduce s).map fun x => c.geom.acc x sd sdd
end CyclicClosed

/-! ## Trajectories -/

/-- A velocity profile through the interface velocityprofile.hpp:55–130. -/
structure ProfI where
  duration : ℝ
  pos : ℝ → ℝ
  vel : ℝ → Eval
  acc : ℝ → Eval

/-- A trajectory through the interface trajectory.hpp:60–100.  `none`: an exception. -/
structure TrajI where
  duration : ℝ
  pos : ℝ → Frame
  vel : ℝ → Option Twist
  acc : ℝ → Option Twist

/-- `Trajectory_Segment`, trajectory_segment.cpp:62–80 (constructor :49). -/
def trajSegment (geom : PathI) (prof : ProfI) : TrajI where
  duration := prof.duration
  pos := fun t => geom.pos (prof.pos t)
  vel := fun t => match prof.vel t with
    | .val v => some (geom.vel (prof.pos t) v)
    | .throws => none
  acc := fun t => match prof.vel t, prof.acc t with
    | .val v, .val a => some (geom.acc (prof.pos t) v a)
    | _, _ => none

/-- `VelocityProfile_Trap` and `VelocityProfile_TrapHalf` through the interface. -/
def Quad3.toProf (q : Quad3) : ProfI := ⟨q.duration, q.pos, fun t => .val (q.vel t), fun t => .val (q.acc t)⟩
/-- `VelocityProfile_Rectangular` through the interface. -/
def RectProfile.toProf (r : RectProfile) : ProfI := ⟨r.d, r.pos, fun t => .val (r.vel t), r.acc⟩
/-- `VelocityProfile_Spline` through the interface. -/
def SplineProfile.toProf (r : SplineProfile) : ProfI := ⟨r.duration, r.pos, fun t => .val (r.vel t), fun t => .val (r.acc t)⟩

/-- `Trajectory_Stationary`, trajectory_stationary.hpp:26–45. -/
def trajStationary (duration : ℝ) (F : Frame) : TrajI := ⟨duration, fun _ => F, fun _ => some 0, fun _ => some 0⟩

/-- Members of `Trajectory_Composite`, trajectory_composite.hpp:36–38. -/
structure TrajComposite where
  vt : List TrajI
  vd : List ℝ
  duration : ℝ

namespace TrajComposite
/-- Constructor, trajectory_composite.cpp:21. -/
def new : TrajComposite := ⟨[], [], 0⟩
/-- `Add`, trajectory_composite.cpp:89. -/
def add (c : TrajComposite) (e : TrajI) : TrajComposite :=
  ⟨c.vt ++ [e], c.vd ++ [c.duration + e.duration], c.duration + e.duration⟩
/-- `Destroy`, trajectory_composite.cpp:95. -/
def destroy (c : TrajComposite) : TrajComposite := { c with vt := [], vd := [] }

open Classical in
/-- Loop of trajectory_composite.cpp:38–44 over both vectors: the element and the local time; `none` = not found. -/
def findLoop (time : ℝ) : List TrajI → List ℝ → ℝ → Option (TrajI × ℝ)
  | e :: es, d :: ds, prev => if time < d then some (e, time - prev) else findLoop time es ds d
  | _, _, _ => none

open Classical in
/-- The element and the local time at which it is evaluated, trajectory_composite.cpp:35–46.  `none`: `vt[0]` or
`vt[vt.size()-1]` of an empty vector. -/
def find (c : TrajComposite) (time : ℝ) : Option (TrajI × ℝ) :=
  if time < 0 then c.vt.head?.map fun e => (e, 0)
  else
    match findLoop time c.vt c.vd 0 with
    | some r => some r
    | none => c.vt.getLast?.map fun e => (e, e.duration)
/-- `Pos`, trajectory_composite.cpp:29. -/
def pos (c : TrajComposite) (time : ℝ) : Option Frame := (c.find time).map fun r => r.1.pos r.2
/-- `Vel`, trajectory_composite.cpp:50; the outer `none` is undefined behaviour, the inner an exception. -/
def vel (c : TrajComposite) (time : ℝ) : Option (Option Twist) := (c.find time).map fun r => r.1.vel r.2
/-- `Acc`, trajectory_composite.cpp:69. -/
def acc (c : TrajComposite) (time : ℝ) : Option (Option Twist) := (c.find time).map fun r => r.1.acc r.2
end TrajComposite

end KDL
