import Verif.Model.Frames
import Mathlib.Analysis.SpecialFunctions.Trigonometric.Inverse
import Mathlib.Analysis.SpecialFunctions.Trigonometric.Arctan
import Mathlib.Analysis.SpecialFunctions.Pow.Real
import Mathlib.Analysis.Calculus.Deriv.Basic

/-! Model of `utilities/rall1d.h` and `utilities/rall2d.h` (automatic differentiation), instantiated with
`T = V = S = double`, i.e. the types `doubleVel` (framevel.hpp) and `doubleAcc` (frameacc.hpp).

Simplifications: doubles are reals; nested instantiations (`Rall1d<Rall1d<double>>`) are not modelled; the C++ division
by zero (inf/NaN) is not distinguished, so every theorem carries the hypothesis that denominators are nonzero.  In-place
operators are state transformers written assignment by assignment, so that reads of already updated fields are visible.
The scalar in-place operators, `LinComb`, `LinCombR`, `SetToZero`, `SetToIdentity`, `Norm`, the comparisons and the
in-place operators applied to the object itself are in `Verif/Model/RallOps.lean`.  `abs` (rall1d.h:409, rall2d.h:465)
is not modelled: it calls `Sign` on, and multiplies by, the whole object instead of its value, and there is no `Sign` in
the library (utility.h:251 has `sign`), so it does not instantiate. -/

noncomputable section
namespace KDL

/-- `Rall1d<double>`, rall1d.h:46–60. -/
@[ext] structure Rall1d where
  t : ℝ
  grad : ℝ

namespace Rall1d
/-- `Rall1d(c)`, rall1d.h:68 (and `operator=(S)`, :97). -/
def const (c : ℝ) : Rall1d := ⟨c, 0⟩
/-- rall1d.h:217. -/
def div (l r : Rall1d) : Rall1d := ⟨l.t / r.t, (l.grad * r.t - l.t * r.grad) / (r.t * r.t)⟩
/-- rall1d.h:223. -/
def mul (l r : Rall1d) : Rall1d := ⟨l.t * r.t, r.t * l.grad + l.t * r.grad⟩
/-- rall1d.h:229. -/
def add (l r : Rall1d) : Rall1d := ⟨l.t + r.t, l.grad + r.grad⟩
/-- rall1d.h:236. -/
def sub (l r : Rall1d) : Rall1d := ⟨l.t - r.t, l.grad - r.grad⟩
/-- rall1d.h:242. -/
def neg (a : Rall1d) : Rall1d := ⟨-a.t, -a.grad⟩
/-- rall1d.h:248 (and the mirrored :254). -/
def smul (s : ℝ) (v : Rall1d) : Rall1d := ⟨s * v.t, s * v.grad⟩
/-- rall1d.h:260 (and :266). -/
def sadd (s : ℝ) (v : Rall1d) : Rall1d := ⟨s + v.t, v.grad⟩
/-- rall1d.h:272. -/
def ssub (s : ℝ) (v : Rall1d) : Rall1d := ⟨s - v.t, -v.grad⟩
/-- rall1d.h:278. -/
def subs (v : Rall1d) (s : ℝ) : Rall1d := ⟨v.t - s, v.grad⟩
/-- rall1d.h:284. -/
def sdiv (s : ℝ) (v : Rall1d) : Rall1d := ⟨s / v.t, (-s * v.grad) / (v.t * v.t)⟩
/-- rall1d.h:290. -/
def divs (v : Rall1d) (s : ℝ) : Rall1d := ⟨v.t / s, v.grad / s⟩
/-- `operator/=(Rall1d)`, rall1d.h:103: two assignments in order. -/
def divAssign (this rhs : Rall1d) : Rall1d :=
  let grad := (rhs.t * this.grad + -this.t * rhs.grad) / (rhs.t * rhs.t)
  let t := this.t / rhs.t
  ⟨t, grad⟩
/-- `operator*=(Rall1d)`, rall1d.h:110. -/
def mulAssign (this rhs : Rall1d) : Rall1d :=
  let grad := rhs.t * this.grad + this.t * rhs.grad
  let t := this.t * rhs.t
  ⟨t, grad⟩
/-- `operator+=(Rall1d)`, rall1d.h:117. -/
def addAssign (this rhs : Rall1d) : Rall1d :=
  let grad := this.grad + rhs.grad
  let t := this.t + rhs.t
  ⟨t, grad⟩
/-- `operator-=(Rall1d)`, rall1d.h:124. -/
def subAssign (this rhs : Rall1d) : Rall1d :=
  let grad := this.grad - rhs.grad
  let t := this.t - rhs.t
  ⟨t, grad⟩
/-- rall1d.h:297. -/
def exp (a : Rall1d) : Rall1d := let v := Real.exp a.t; ⟨v, v * a.grad⟩
/-- rall1d.h:305. -/
def log (a : Rall1d) : Rall1d := ⟨Real.log a.t, a.grad / a.t⟩
/-- rall1d.h:313. -/
def sin (a : Rall1d) : Rall1d := ⟨Real.sin a.t, Real.cos a.t * a.grad⟩
/-- rall1d.h:321. -/
def cos (a : Rall1d) : Rall1d := ⟨Real.cos a.t, -Real.sin a.t * a.grad⟩
/-- rall1d.h:329. -/
def tan (a : Rall1d) : Rall1d := ⟨Real.tan a.t, a.grad / Real.cos a.t ^ 2⟩
/-- rall1d.h:337. -/
def sinh (a : Rall1d) : Rall1d := ⟨Real.sinh a.t, Real.cosh a.t * a.grad⟩
/-- rall1d.h:345. -/
def cosh (a : Rall1d) : Rall1d := ⟨Real.cosh a.t, Real.sinh a.t * a.grad⟩
/-- rall1d.h:353. -/
def sqr (a : Rall1d) : Rall1d := ⟨a.t * a.t, (2 * a.t) * a.grad⟩
/-- rall1d.h:361. -/
def pow (a : Rall1d) (m : ℝ) : Rall1d := let v := a.t ^ m; ⟨v, (m * v / a.t) * a.grad⟩
/-- rall1d.h:369. -/
def sqrt (a : Rall1d) : Rall1d := let v := Real.sqrt a.t; ⟨v, (0.5 / v) * a.grad⟩
/-- rall1d.h:377. -/
def atan (x : Rall1d) : Rall1d := ⟨Real.arctan x.t, x.grad / (1 + x.t ^ 2)⟩
/-- rall1d.h:385. -/
def hypot (y x : Rall1d) : Rall1d :=
  let v := Real.sqrt (y.t ^ 2 + x.t ^ 2); ⟨v, (x.t / v) * x.grad + (y.t / v) * y.grad⟩
/-- rall1d.h:393. -/
def asin (x : Rall1d) : Rall1d := ⟨Real.arcsin x.t, x.grad / Real.sqrt (1 - x.t ^ 2)⟩
/-- rall1d.h:401. -/
def acos (x : Rall1d) : Rall1d := ⟨Real.arccos x.t, -x.grad / Real.sqrt (1 - x.t ^ 2)⟩
/-- rall1d.h:424. -/
def tanh (a : Rall1d) : Rall1d := ⟨Real.tanh a.t, a.grad / Real.cosh a.t ^ 2⟩
/-- rall1d.h:431. -/
def atan2 (y x : Rall1d) : Rall1d :=
  let v := x.t * x.t + y.t * y.t
  ⟨KDL.atan2 y.t x.t, (x.t * y.grad - y.t * x.grad) / v⟩

/-- Specification: `d` holds the value and the derivative of `f` at `τ`. -/
def Rep (d : Rall1d) (f : ℝ → ℝ) (τ : ℝ) : Prop := d.t = f τ ∧ HasDerivAt f d.grad τ
end Rall1d

/-- `Rall2d<double>`, rall2d.h:53–59. -/
@[ext] structure Rall2d where
  t : ℝ
  d : ℝ
  dd : ℝ

namespace Rall2d
/-- `Rall2d(c)`, rall2d.h:64. -/
def const (c : ℝ) : Rall2d := ⟨c, 0, 0⟩
/-- rall2d.h:226. -/
def div (l r : Rall2d) : Rall2d :=
  let t := l.t / r.t
  let d := (l.d - t * r.d) / r.t
  let dd := (l.dd - 2 * d * r.d - t * r.dd) / r.t
  ⟨t, d, dd⟩
/-- rall2d.h:236. -/
def mul (l r : Rall2d) : Rall2d :=
  ⟨l.t * r.t, l.d * r.t + l.t * r.d, l.dd * r.t + 2 * l.d * r.d + l.t * r.dd⟩
/-- rall2d.h:246. -/
def add (l r : Rall2d) : Rall2d := ⟨l.t + r.t, l.d + r.d, l.dd + r.dd⟩
/-- rall2d.h:252. -/
def sub (l r : Rall2d) : Rall2d := ⟨l.t - r.t, l.d - r.d, l.dd - r.dd⟩
/-- rall2d.h:258. -/
def neg (a : Rall2d) : Rall2d := ⟨-a.t, -a.d, -a.dd⟩
/-- rall2d.h:264 (and :270). -/
def smul (s : ℝ) (v : Rall2d) : Rall2d := ⟨s * v.t, s * v.d, s * v.dd⟩
/-- rall2d.h:276 (and :282). -/
def sadd (s : ℝ) (v : Rall2d) : Rall2d := ⟨s + v.t, v.d, v.dd⟩
/-- rall2d.h:288. -/
def ssub (s : ℝ) (v : Rall2d) : Rall2d := ⟨s - v.t, -v.d, -v.dd⟩
/-- rall2d.h:294. -/
def subs (v : Rall2d) (s : ℝ) : Rall2d := ⟨v.t - s, v.d, v.dd⟩
/-- rall2d.h:300. -/
def sdiv (s : ℝ) (r : Rall2d) : Rall2d :=
  let t := s / r.t
  let d := (-t * r.d) / r.t
  let dd := (-2 * d * r.d - t * r.dd) / r.t
  ⟨t, d, dd⟩
/-- rall2d.h:311. -/
def divs (v : Rall2d) (s : ℝ) : Rall2d := ⟨v.t / s, v.d / s, v.dd / s⟩
/-- `operator/=(Rall2d)`, rall2d.h:107: three assignments in order, each reading the fields already written. -/
def divAssign (this rhs : Rall2d) : Rall2d :=
  let t := this.t / rhs.t
  let d := (this.d - t * rhs.d) / rhs.t
  let dd := (this.dd - 2 * d * rhs.d - t * rhs.dd) / rhs.t
  ⟨t, d, dd⟩
/-- `operator*=(Rall2d)`, rall2d.h:115: `t` is overwritten before `d` and `dd` are computed from it, and `d` is
overwritten before `dd`. -/
def mulAssign (this rhs : Rall2d) : Rall2d :=
  let t := this.t * rhs.t
  let d := this.d * rhs.t + t * rhs.d
  let dd := this.dd * rhs.t + 2 * d * rhs.d + t * rhs.dd
  ⟨t, d, dd⟩
/-- `operator+=`, rall2d.h:123. -/
def addAssign (this rhs : Rall2d) : Rall2d :=
  let t := this.t + rhs.t
  let d := this.d + rhs.d
  let dd := this.dd + rhs.dd
  ⟨t, d, dd⟩
/-- `operator-=`, rall2d.h:131. -/
def subAssign (this rhs : Rall2d) : Rall2d :=
  let t := this.t - rhs.t
  let d := this.d - rhs.d
  let dd := this.dd - rhs.dd
  ⟨t, d, dd⟩
/-- rall2d.h:318. -/
def exp (a : Rall2d) : Rall2d :=
  let t := Real.exp a.t
  let d := t * a.d
  ⟨t, d, d * a.d + t * a.dd⟩
/-- rall2d.h:328. -/
def log (a : Rall2d) : Rall2d :=
  let d := a.d / a.t
  ⟨Real.log a.t, d, (a.dd - d * a.d) / a.t⟩
/-- rall2d.h:338. -/
def sin (a : Rall2d) : Rall2d :=
  let v1 := Real.sin a.t
  let v2 := Real.cos a.t
  ⟨v1, v2 * a.d, v2 * a.dd - (v1 * a.d) * a.d⟩
/-- rall2d.h:346. -/
def cos (a : Rall2d) : Rall2d :=
  let v1 := Real.cos a.t
  let v2 := -Real.sin a.t
  ⟨v1, v2 * a.d, v2 * a.dd - (v1 * a.d) * a.d⟩
/-- rall2d.h:354. -/
def tan (a : Rall2d) : Rall2d :=
  let v1 := Real.tan a.t
  let v2 := 1 + v1 ^ 2
  ⟨v1, v2 * a.d, v2 * (a.dd + (2 * v1 * a.d ^ 2))⟩
/-- rall2d.h:362. -/
def sinh (a : Rall2d) : Rall2d :=
  let v1 := Real.sinh a.t
  let v2 := Real.cosh a.t
  ⟨v1, v2 * a.d, v2 * a.dd + (v1 * a.d) * a.d⟩
/-- rall2d.h:370. -/
def cosh (a : Rall2d) : Rall2d :=
  let v1 := Real.cosh a.t
  let v2 := Real.sinh a.t
  ⟨v1, v2 * a.d, v2 * a.dd + (v1 * a.d) * a.d⟩
/-- rall2d.h:378. -/
def tanh (a : Rall2d) : Rall2d :=
  let v1 := Real.tanh a.t
  let v2 := 1 - v1 ^ 2
  ⟨v1, v2 * a.d, v2 * (a.dd - (2 * v1 * a.d ^ 2))⟩
/-- rall2d.h:386. -/
def sqr (a : Rall2d) : Rall2d := ⟨a.t * a.t, (2 * a.t) * a.d, 2 * (a.d ^ 2 + a.t * a.dd)⟩
/-- rall2d.h:395. -/
def pow (a : Rall2d) (m : ℝ) : Rall2d :=
  let t := a.t ^ m
  let v2 := (m / a.t) * t
  let d := v2 * a.d
  ⟨t, d, ((m - 1) / a.t) * d * a.d + v2 * a.dd⟩
/-- rall2d.h:406. -/
def sqrt (a : Rall2d) : Rall2d :=
  let t := Real.sqrt a.t
  let d := (0.5 / t) * a.d
  ⟨t, d, (0.5 * a.dd - d ^ 2) / t⟩
/-- rall2d.h:417. -/
def asin (a : Rall2d) : Rall2d :=
  let t := Real.arcsin a.t
  let v := Real.cos t
  let d := a.d / v
  ⟨t, d, (a.dd + a.t * d ^ 2) / v⟩
/-- rall2d.h:429. -/
def acos (a : Rall2d) : Rall2d :=
  let t := Real.arccos a.t
  let v := -Real.sin t
  let d := a.d / v
  ⟨t, d, (a.dd + a.t * d ^ 2) / v⟩
/-- rall2d.h:442. -/
def atan (x : Rall2d) : Rall2d :=
  let v := 1 + x.t ^ 2
  let d := x.d / v
  ⟨Real.arctan x.t, d, x.dd / v - (2 * x.t) * d ^ 2⟩
/-- rall2d.h:454. -/
def atan2 (y x : Rall2d) : Rall2d :=
  let v := y.t ^ 2 + x.t ^ 2
  let d := (x.t * y.d - x.d * y.t) / v
  ⟨KDL.atan2 y.t x.t, d, (x.t * y.dd - x.dd * y.t - 2 * (x.t * x.d + y.t * y.d) * d) / v⟩
/-- rall2d.h:472. -/
def hypot (y x : Rall2d) : Rall2d :=
  let t := Real.sqrt (y.t ^ 2 + x.t ^ 2)
  let d := (x.t * x.d + y.t * y.d) / t
  ⟨t, d, (x.d ^ 2 + x.t * x.dd + y.d ^ 2 + y.t * y.dd - d ^ 2) / t⟩

/-- Specification: `x` holds the value, first and second derivative of `f` at `τ`. -/
def Rep (x : Rall2d) (f : ℝ → ℝ) (τ : ℝ) : Prop :=
  ∃ f' : ℝ → ℝ, (∀ᶠ s in nhds τ, HasDerivAt f (f' s) s) ∧ HasDerivAt f' x.dd τ ∧ x.t = f τ ∧ x.d = f' τ
end Rall2d

end KDL
