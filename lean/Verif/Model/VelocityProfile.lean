import Mathlib.Analysis.Real.Sqrt
import Verif.Model.Frames

/-!
# Model of the velocity profiles

`velocityprofile_rect.{hpp,cpp}`, `velocityprofile_trap.{hpp,cpp}`, `velocityprofile_traphalf.{hpp,cpp}`,
`velocityprofile_spline.{hpp,cpp}`, `velocityprofile_dirac.{hpp,cpp}`; citations relative to
`/repo/orocos_kdl/src`.  `double` is modelled by `ℝ`.  A member holding NaN is modelled where it can be reached with
admissible arguments (`Option ℝ`, `none` being NaN); setters whose arithmetic leaves the finite numbers in another way
return `Plan.nan`.
-/

noncomputable section

namespace KDL

open Classical

/-- Outcome of a planning member function. -/
inductive Plan (α : Type) where
  /-- the object after the call -/
  | ok (a : α)
  /-- a member that is used later became NaN or infinite -/
  | nan
  /-- arguments outside the documented range whose effect is not modelled -/
  | unmodelled

/-- Outcome of an evaluation member function (`Vel`, `Acc`). -/
inductive Eval where
  | val (x : ℝ)
  /-- `throw Error_MotionPlanning_Incompatible()` -/
  | throws

/-- `sign(double)`, utilities/utility.h:251: `(arg<0) ? -1 : 1`. -/
def sgn (x : ℝ) : ℝ := if x < 0 then -1 else 1

/-- The comparison `time < t` where `t` may be NaN; every comparison with NaN is false. -/
def ltN (time : ℝ) (t : Option ℝ) : Prop := ∃ y, t = some y ∧ time < y

/-! ## Rectangular profile -/

/-- Members of `VelocityProfile_Rectangular`, velocityprofile_rect.hpp:60–62. -/
structure RectProfile where
  d : ℝ
  p : ℝ
  v : ℝ
  maxvel : ℝ

namespace RectProfile

/-- `SetProfile(pos1,pos2)`, velocityprofile_rect.cpp:49–68.  With `maxvel = 0` the quotient `diff/v` is infinite. -/
def setProfile (r : RectProfile) (pos1 pos2 : ℝ) : Plan RectProfile :=
  let diff := pos2 - pos1
  if diff ≠ 0 then
    let v := if diff > 0 then r.maxvel else -r.maxvel
    if v = 0 then .nan else .ok { r with v := v, p := pos1, d := diff / v }
  else .ok { r with v := 0, p := pos1, d := 0 }

/-- `SetProfileDuration(pos1,pos2,duration)`, velocityprofile_rect.cpp:76–95.  `diff/duration` with `duration == 0` is
infinite, but then the `safety` branch overwrites it. -/
def setProfileDuration (r : RectProfile) (pos1 pos2 duration : ℝ) : Plan RectProfile :=
  let diff := pos2 - pos1
  if diff ≠ 0 then
    let v := if diff / duration > r.maxvel ∨ duration = 0 then r.maxvel else diff / duration
    if v = 0 then .nan else .ok { r with v := v, p := pos1, d := diff / v }
  else .ok { r with v := 0, p := pos1, d := duration }

/-- `Duration`, velocityprofile_rect.cpp:97. -/
def duration (r : RectProfile) : ℝ := r.d

/-- `Pos`, velocityprofile_rect.cpp:101–109. -/
def pos (r : RectProfile) (time : ℝ) : ℝ :=
  if time < 0 then r.p else if time > r.d then r.v * r.d + r.p else r.v * time + r.p

/-- `Vel`, velocityprofile_rect.cpp:111–119. -/
def vel (r : RectProfile) (time : ℝ) : ℝ :=
  if time < 0 then 0 else if time > r.d then 0 else r.v

/-- `Acc`, velocityprofile_rect.cpp:121–124: always throws. -/
def acc (_r : RectProfile) (_time : ℝ) : Eval := .throws

/-- `Clone`, velocityprofile_rect.hpp:78–82. -/
def clone (r : RectProfile) : Plan RectProfile :=
  setProfileDuration { d := 0, p := 0, v := 0, maxvel := r.maxvel } r.p (r.p + r.v * r.d) r.d

end RectProfile

/-! ## Profiles made of three quadratic pieces -/

/-- The members shared by `VelocityProfile_Trap` (velocityprofile_trap.hpp:63–73) and `VelocityProfile_TrapHalf`
(velocityprofile_traphalf.hpp:66–74).  `t1`, `t2` become NaN in `VelocityProfile_Trap::SetProfileDuration` of a profile
without displacement, hence `Option`. -/
structure Quad3 where
  a1 : ℝ
  a2 : ℝ
  a3 : ℝ
  b1 : ℝ
  b2 : ℝ
  b3 : ℝ
  c1 : ℝ
  c2 : ℝ
  c3 : ℝ
  duration : ℝ
  t1 : Option ℝ
  t2 : Option ℝ
  startpos : ℝ
  endpos : ℝ

namespace Quad3

/-- `Pos`, velocityprofile_trap.cpp:139–151 and velocityprofile_traphalf.cpp:144–156 (identical). -/
def pos (q : Quad3) (time : ℝ) : ℝ :=
  if time < 0 then q.startpos
  else if ltN time q.t1 then q.a1 + time * (q.a2 + q.a3 * time)
  else if ltN time q.t2 then q.b1 + time * (q.b2 + q.b3 * time)
  else if time ≤ q.duration then q.c1 + time * (q.c2 + q.c3 * time)
  else q.endpos

/-- `Vel`, velocityprofile_trap.cpp:152–164 and velocityprofile_traphalf.cpp:157–169. -/
def vel (q : Quad3) (time : ℝ) : ℝ :=
  if time < 0 then 0
  else if ltN time q.t1 then q.a2 + 2 * q.a3 * time
  else if ltN time q.t2 then q.b2 + 2 * q.b3 * time
  else if time ≤ q.duration then q.c2 + 2 * q.c3 * time
  else 0

/-- `Acc`, velocityprofile_trap.cpp:166–178 and velocityprofile_traphalf.cpp:171–183. -/
def acc (q : Quad3) (time : ℝ) : ℝ :=
  if time < 0 then 0
  else if ltN time q.t1 then 2 * q.a3
  else if ltN time q.t2 then 2 * q.b3
  else if time ≤ q.duration then 2 * q.c3
  else 0

end Quad3

/-! ## Trapezoidal profile -/

/-- `VelocityProfile_Trap`, velocityprofile_trap.hpp:60–73. -/
structure TrapProfile where
  q : Quad3
  maxvel : ℝ
  maxacc : ℝ

namespace TrapProfile

/-- Constructor, velocityprofile_trap.cpp:49–57. -/
def new (maxvel maxacc : ℝ) : TrapProfile where
  q := { a1 := 0, a2 := 0, a3 := 0, b1 := 0, b2 := 0, b3 := 0, c1 := 0, c2 := 0, c3 := 0, duration := 0,
         t1 := some 0, t2 := some 0, startpos := 0, endpos := 0 }
  maxvel := maxvel
  maxacc := maxacc

/-- The coefficients computed by velocityprofile_trap.cpp:78–88 from the switching times. -/
def coefs (s maxacc startpos endpos t1 t2 duration : ℝ) : Quad3 :=
  let a3 := s * maxacc / 2
  let a2 := 0
  let a1 := startpos
  let b3 := 0
  let b2 := a2 + 2 * a3 * t1 - 2 * b3 * t1
  let b1 := a1 + t1 * (a2 + a3 * t1) - t1 * (b2 + t1 * b3)
  let c3 := -s * maxacc / 2
  let c2 := b2 + 2 * b3 * t2 - 2 * c3 * t2
  let c1 := b1 + t2 * (b2 + b3 * t2) - t2 * (c2 + t2 * c3)
  { a1 := a1, a2 := a2, a3 := a3, b1 := b1, b2 := b2, b3 := b3, c1 := c1, c2 := c2, c3 := c3,
    duration := duration, t1 := some t1, t2 := some t2, startpos := startpos, endpos := endpos }

/-- `SetProfile(pos1,pos2)`, velocityprofile_trap.cpp:61–89.  `maxvel = 0` or `maxacc = 0` (the defaults of the
constructor) divide by zero; negative maxima are not modelled. -/
def setProfile (p : TrapProfile) (pos1 pos2 : ℝ) : Plan TrapProfile :=
  if p.maxvel = 0 ∨ p.maxacc = 0 then .nan
  else if p.maxvel < 0 ∨ p.maxacc < 0 then .unmodelled
  else
    let t1 := p.maxvel / p.maxacc
    let s := sgn (pos2 - pos1)
    let deltax1 := s * p.maxacc * t1 ^ 2 / 2
    let deltaT := (pos2 - pos1 - 2 * deltax1) / (s * p.maxvel)
    if deltaT > 0 then
      let duration := 2 * t1 + deltaT
      let t2 := duration - t1
      .ok { p with q := coefs s p.maxacc pos1 pos2 t1 t2 duration }
    else
      let t1 := Real.sqrt ((pos2 - pos1) / s / p.maxacc)
      let duration := t1 * 2
      let t2 := t1
      .ok { p with q := coefs s p.maxacc pos1 pos2 t1 t2 duration }

/-- Division of a time by `factor`; `0/0` is NaN.  (A nonzero time over a zero factor cannot occur: `factor` is a
quotient of the duration, which is zero only if the times are.) -/
def divTime (t : Option ℝ) (factor : ℝ) : Option ℝ :=
  t.bind fun y => if factor = 0 then none else some (y / factor)

/-- Scaling of the coefficients, velocityprofile_trap.cpp:100–108 and 119–127. -/
def scale (q : Quad3) (factor duration : ℝ) : Quad3 :=
  { q with
    a2 := q.a2 * factor, a3 := q.a3 * (factor * factor)
    b2 := q.b2 * factor, b3 := q.b3 * (factor * factor)
    c2 := q.c2 * factor, c3 := q.c3 * (factor * factor)
    duration := duration
    t1 := divTime q.t1 factor, t2 := divTime q.t2 factor }

/-- `SetProfileDuration(pos1,pos2,newduration)`, velocityprofile_trap.cpp:91–109.  With `newduration == 0` the factor
is `+inf` (duration positive: the early return is taken) or NaN (duration zero: all coefficients become NaN). -/
def setProfileDuration (p : TrapProfile) (pos1 pos2 newduration : ℝ) : Plan TrapProfile :=
  match p.setProfile pos1 pos2 with
  | .nan => .nan
  | .unmodelled => .unmodelled
  | .ok p1 =>
    if newduration = 0 then
      if p1.q.duration > 0 then .ok p1 else .nan
    else
      let factor := p1.q.duration / newduration
      if factor > 1 then .ok p1
      else .ok { p1 with q := scale p1.q factor newduration }

/-- `SetProfileVelocity(pos1,pos2,newvelocity)`, velocityprofile_trap.cpp:111–128. -/
def setProfileVelocity (p : TrapProfile) (pos1 pos2 newvelocity : ℝ) : Plan TrapProfile :=
  match p.setProfile pos1 pos2 with
  | .nan => .nan
  | .unmodelled => .unmodelled
  | .ok p1 =>
    let factor := newvelocity
    let factor := if 1 < factor then 1 else factor
    let factor := if epsilon > factor then epsilon else factor
    .ok { p1 with q := scale p1.q factor (p1.q.duration / factor) }

/-- `SetMax`, velocityprofile_trap.cpp:130. -/
def setMax (p : TrapProfile) (maxvel maxacc : ℝ) : TrapProfile := { p with maxvel := maxvel, maxacc := maxacc }

/-- `Clone`, velocityprofile_trap.cpp:180–184. -/
def clone (p : TrapProfile) : Plan TrapProfile :=
  (new p.maxvel p.maxacc).setProfileDuration p.q.startpos p.q.endpos p.q.duration

end TrapProfile

/-! ## Half trapezoidal profile -/

/-- The persistent state of `VelocityProfile_TrapHalf`, velocityprofile_traphalf.hpp:76–79.  The planned members are
uninitialised after construction, so a planned profile is a separate `Quad3`. -/
structure TrapHalf where
  maxvel : ℝ
  maxacc : ℝ
  starting : Bool

namespace TrapHalf

/-- `PlanProfile1`, velocityprofile_traphalf.cpp:58–68. -/
def plan1 (startpos endpos t1 t2 duration v a : ℝ) : Quad3 where
  a3 := 0
  a2 := 0
  a1 := startpos
  b3 := a / 2
  b2 := -a * t1
  b1 := startpos + a * t1 * t1 / 2
  c3 := 0
  c2 := v
  c1 := endpos - v * duration
  duration := duration
  t1 := some t1
  t2 := some t2
  startpos := startpos
  endpos := endpos

/-- `PlanProfile2`, velocityprofile_traphalf.cpp:70–80. -/
def plan2 (startpos endpos t1 t2 duration v a : ℝ) : Quad3 where
  a3 := 0
  a2 := v
  a1 := startpos
  b3 := -a / 2
  b2 := a * t2
  b1 := endpos - a * t2 * t2 / 2
  c3 := 0
  c2 := 0
  c1 := endpos
  duration := duration
  t1 := some t1
  t2 := some t2
  startpos := startpos
  endpos := endpos

/-- `SetProfile(pos1,pos2)`, velocityprofile_traphalf.cpp:82–98.  The maxima are documented as positive.  Without
displacement `vel` is zero and `duration` is `0/0`, NaN. -/
def setProfile (h : TrapHalf) (pos1 pos2 : ℝ) : Plan Quad3 :=
  if h.maxvel ≤ 0 ∨ h.maxacc ≤ 0 then .unmodelled
  else
    let s := sgn (pos2 - pos1)
    let vel := min h.maxvel (Real.sqrt (2 * s * (pos2 - pos1) * h.maxacc))
    if vel = 0 then .nan
    else
      let duration := s * (pos2 - pos1) / vel + vel / h.maxacc / 2
      if h.starting then
        .ok (plan1 pos1 pos2 0 (vel / h.maxacc) duration (vel * s) (h.maxacc * s))
      else
        .ok (plan2 pos1 pos2 (duration - vel / h.maxacc) duration duration (s * vel) (s * h.maxacc))

/-- `SetProfileDuration(pos1,pos2,newduration)`, velocityprofile_traphalf.cpp:100–138.  `newduration == 0` makes the
factor infinite, so the early return is taken.  A zero divisor in the acceleration gives `nan`. -/
def setProfileDuration (h : TrapHalf) (pos1 pos2 newduration : ℝ) : Plan Quad3 :=
  match h.setProfile pos1 pos2 with
  | .nan => .nan
  | .unmodelled => .unmodelled
  | .ok q =>
    if newduration = 0 ∨ q.duration / newduration > 1 then .ok q
    else
      let s := sgn (pos2 - pos1)
      let tmp := 2 * s * (pos2 - pos1) / h.maxvel
      let v := s * h.maxvel
      let duration := newduration
      if tmp > duration then
        if v * duration - (pos2 - pos1) = 0 then .nan
        else
          let a := v * v / 2 / (v * duration - (pos2 - pos1))
          if h.starting then .ok (plan1 pos1 pos2 0 (v / a) duration v a)
          else .ok (plan2 pos1 pos2 (duration - v / a) duration duration v a)
      else
        let a := v * v / 2 / (pos2 - pos1)
        if h.starting then .ok (plan1 pos1 pos2 (duration - v / a) duration duration v a)
        else .ok (plan2 pos1 pos2 0 (v / a) duration v a)

end TrapHalf

/-! ## Spline profile -/

/-- `VelocityProfile_Spline`, velocityprofile_spline.hpp:63–64. -/
@[ext] structure SplineProfile where
  c0 : ℝ
  c1 : ℝ
  c2 : ℝ
  c3 : ℝ
  c4 : ℝ
  c5 : ℝ
  duration : ℝ

namespace SplineProfile

/-- `std::numeric_limits<double>::epsilon()`. -/
def machEps : ℝ := 1 / 2 ^ 52

/-- Constructor, velocityprofile_spline.cpp:18–30. -/
def new : SplineProfile := ⟨0, 0, 0, 0, 0, 0, 0⟩

/-- `SetProfile`, velocityprofile_spline.cpp:51–54: does nothing. -/
def setProfile (p : SplineProfile) (_pos1 _pos2 : ℝ) : SplineProfile := p

/-- Linear `SetProfileDuration(pos1,pos2,duration)`, velocityprofile_spline.cpp:56–78. -/
def setLinear (_p : SplineProfile) (pos1 pos2 duration : ℝ) : SplineProfile :=
  if duration ≤ machEps then ⟨pos1, 0, 0, 0, 0, 0, duration⟩
  else ⟨pos1, (pos2 - pos1) / duration, 0, 0, 0, 0, duration⟩

/-- Cubic `SetProfileDuration`, velocityprofile_spline.cpp:80–105; the powers of `generatePowers` (8–16) are written
as products. -/
def setCubic (_p : SplineProfile) (pos1 vel1 pos2 vel2 duration : ℝ) : SplineProfile :=
  let T1 := 1 * duration
  let T2 := T1 * duration
  let T3 := T2 * duration
  if duration ≤ machEps then ⟨pos2, vel2, 0, 0, 0, 0, duration⟩
  else ⟨pos1, vel1, (-3 * pos1 + 3 * pos2 - 2 * vel1 * T1 - vel2 * T1) / T2,
    (2 * pos1 - 2 * pos2 + vel1 * T1 + vel2 * T1) / T3, 0, 0, duration⟩

/-- Quintic `SetProfileDuration`, velocityprofile_spline.cpp:107–135. -/
def setQuintic (_p : SplineProfile) (pos1 vel1 acc1 pos2 vel2 acc2 duration : ℝ) : SplineProfile :=
  let T1 := 1 * duration
  let T2 := T1 * duration
  let T3 := T2 * duration
  let T4 := T3 * duration
  let T5 := T4 * duration
  if duration ≤ machEps then ⟨pos2, vel2, 0.5 * acc2, 0, 0, 0, duration⟩
  else ⟨pos1, vel1, 0.5 * acc1,
    (-20 * pos1 + 20 * pos2 - 3 * acc1 * T2 + acc2 * T2 - 12 * vel1 * T1 - 8 * vel2 * T1) / (2 * T3),
    (30 * pos1 - 30 * pos2 + 3 * acc1 * T2 - 2 * acc2 * T2 + 16 * vel1 * T1 + 14 * vel2 * T1) / (2 * T4),
    (-12 * pos1 + 12 * pos2 - acc1 * T2 + acc2 * T2 - 6 * vel1 * T1 - 6 * vel2 * T1) / (2 * T5), duration⟩

/-- `Pos`, velocityprofile_spline.cpp:142–155. -/
def pos (p : SplineProfile) (t : ℝ) : ℝ :=
  1 * p.c0 + t * p.c1 + (t * t) * p.c2 + (t * t * t) * p.c3 + (t * t * t * t) * p.c4 + (t * t * t * t * t) * p.c5

/-- `Vel`, velocityprofile_spline.cpp:157–169. -/
def vel (p : SplineProfile) (t : ℝ) : ℝ :=
  1 * p.c1 + 2 * t * p.c2 + 3 * (t * t) * p.c3 + 4 * (t * t * t) * p.c4 + 5 * (t * t * t * t) * p.c5

/-- `Acc`, velocityprofile_spline.cpp:171–182. -/
def acc (p : SplineProfile) (t : ℝ) : ℝ :=
  2 * 1 * p.c2 + 6 * t * p.c3 + 12 * (t * t) * p.c4 + 20 * (t * t * t) * p.c5

/-- `Clone`, velocityprofile_spline.cpp:190–193 through the copy constructor 32–44. -/
def clone (p : SplineProfile) : SplineProfile := ⟨p.c0, p.c1, p.c2, p.c3, p.c4, p.c5, p.duration⟩

end SplineProfile

/-! ## Dirac profile -/

/-- `VelocityProfile_Dirac`, velocityprofile_dirac.hpp:50. -/
structure DiracProfile where
  p1 : ℝ
  p2 : ℝ
  t : ℝ

namespace DiracProfile

/-- `SetProfile`, velocityprofile_dirac.cpp:33–41. -/
def setProfile (pos1 pos2 : ℝ) : DiracProfile := ⟨pos1, pos2, 0⟩
/-- `SetProfileDuration`, velocityprofile_dirac.cpp:44–49. -/
def setProfileDuration (pos1 pos2 duration : ℝ) : DiracProfile := { setProfile pos1 pos2 with t := duration }
/-- `Duration`, velocityprofile_dirac.cpp:51. -/
def duration (p : DiracProfile) : ℝ := p.t
/-- `Pos`, velocityprofile_dirac.cpp:55–65. -/
def pos (p : DiracProfile) (time : ℝ) : ℝ :=
  if p.t = 0 then (if time ≤ 0 then p.p1 else p.p2)
  else if time < 0 then p.p1
  else if time ≤ p.t then p.p1 + ((p.p2 - p.p1) / p.t) * time
  else p.p2
/-- `Vel`, velocityprofile_dirac.cpp:67–76. -/
def vel (p : DiracProfile) (time : ℝ) : Eval :=
  if p.t = 0 then .throws
  else if 0 < time ∧ time < p.t then .val ((p.p2 - p.p1) / p.t)
  else .val 0
/-- `Acc`, velocityprofile_dirac.cpp:78–81. -/
def acc (_p : DiracProfile) (_time : ℝ) : Eval := .throws
/-- `Clone`, velocityprofile_dirac.hpp:59–63. -/
def clone (p : DiracProfile) : DiracProfile := setProfileDuration p.p1 p.p2 p.t

end DiracProfile

end KDL
