import Mathlib.Analysis.Calculus.Deriv.Basic
import Mathlib.Analysis.Calculus.Deriv.Add
import Mathlib.Analysis.Calculus.Deriv.Mul
import Mathlib.Analysis.Calculus.Deriv.Pow
import Mathlib.Tactic.Linarith
import Mathlib.Tactic.Positivity
import Mathlib.Tactic.FieldSimp
import Verif.Model.VelocityProfile

/-! # Piecewise functions and the coefficients of the velocity profiles -/

noncomputable section

namespace KDL

open Classical

theorem ltN_some (t y : ℝ) : ltN t (some y) ↔ t < y := by simp [ltN]

theorem ltN_none (t : ℝ) : ¬ ltN t none := by simp [ltN]

theorem sgn_ne (x : ℝ) : sgn x ≠ 0 := by unfold sgn; split_ifs <;> norm_num

theorem sgn_sq (x : ℝ) : sgn x * sgn x = 1 := by unfold sgn; split_ifs <;> norm_num

theorem sgn_mul (x : ℝ) : sgn x * x = |x| := by
  unfold sgn; split_ifs with h
  · rw [abs_of_neg h]; ring
  · rw [abs_of_nonneg (not_lt.mp h)]; ring

theorem sgn_abs (x : ℝ) : sgn x * |x| = x := by
  rw [← sgn_mul, ← mul_assoc, sgn_sq, one_mul]

theorem abs_sgn (x : ℝ) : |sgn x| = 1 := by unfold sgn; split_ifs <;> norm_num

theorem div_sgn (x : ℝ) : x / sgn x = |x| := by
  rw [div_eq_iff (sgn_ne x), mul_comm, sgn_abs]

/-- Two differentiable functions whose values and derivatives agree at `c` glue to a differentiable function. -/
theorem hasDerivAt_glue {g h g' h' : ℝ → ℝ} {c : ℝ} (hg : ∀ x, HasDerivAt g (g' x) x)
    (hh : ∀ x, HasDerivAt h (h' x) x) (e : g c = h c) (e' : g' c = h' c) (x : ℝ) :
    HasDerivAt (fun t => if t < c then g t else h t) (if x < c then g' x else h' x) x := by
  rcases lt_trichotomy x c with hx | hx | hx
  · rw [if_pos hx]
    refine (hg x).congr_of_eventuallyEq ?_
    filter_upwards [Iio_mem_nhds hx] with t ht
    exact if_pos ht
  · subst hx
    rw [if_neg (lt_irrefl _)]
    have h1 : HasDerivWithinAt (fun t => if t < x then g t else h t) (h' x) (Set.Iic x) x := by
      refine ((e' ▸ hg x).hasDerivWithinAt).congr ?_ ?_
      · intro t ht
        rcases lt_or_eq_of_le (Set.mem_Iic.mp ht) with h | h
        · exact if_pos h
        · simp [h, e]
      · simp [e]
    have h2 : HasDerivWithinAt (fun t => if t < x then g t else h t) (h' x) (Set.Ici x) x := by
      refine ((hh x).hasDerivWithinAt).congr ?_ ?_
      · intro t ht
        exact if_neg (not_lt.mpr ht)
      · simp
    have := h1.union h2
    rwa [Set.Iic_union_Ici, hasDerivWithinAt_univ] at this
  · rw [if_neg hx.not_gt]
    refine (hh x).congr_of_eventuallyEq ?_
    filter_upwards [Ioi_mem_nhds hx] with t ht
    exact if_neg (not_lt.mpr (le_of_lt ht))

/-- The same with `≤`. -/
theorem hasDerivAt_glue_le {g h g' h' : ℝ → ℝ} {c : ℝ} (hg : ∀ x, HasDerivAt g (g' x) x)
    (hh : ∀ x, HasDerivAt h (h' x) x) (e : g c = h c) (e' : g' c = h' c) (x : ℝ) :
    HasDerivAt (fun t => if t ≤ c then g t else h t) (if x ≤ c then g' x else h' x) x := by
  have k := hasDerivAt_glue hg hh e e' x
  have e1 : (fun t => if t ≤ c then g t else h t) = fun t => if t < c then g t else h t := by
    funext t
    rcases lt_trichotomy t c with h | h | h
    · rw [if_pos h.le, if_pos h]
    · subst h; simp [e]
    · rw [if_neg h.not_ge, if_neg h.not_gt]
  have e2 : (if x ≤ c then g' x else h' x) = if x < c then g' x else h' x := by
    rcases lt_trichotomy x c with h | h | h
    · rw [if_pos h.le, if_pos h]
    · subst h; simp [e']
    · rw [if_neg h.not_ge, if_neg h.not_gt]
  rw [e1, e2]; exact k

theorem hasDerivAt_quad (a b c t : ℝ) :
    HasDerivAt (fun t => a + t * (b + c * t)) (b + 2 * c * t) t := by
  have h1 : HasDerivAt (fun t : ℝ => t) 1 t := hasDerivAt_id t
  have := (h1.mul ((h1.const_mul c).const_add b)).const_add a
  refine this.congr_deriv ?_
  ring

theorem hasDerivAt_lin (b c t : ℝ) : HasDerivAt (fun t => b + 2 * c * t) (2 * c) t := by
  have h1 : HasDerivAt (fun t : ℝ => t) 1 t := hasDerivAt_id t
  exact ((h1.const_mul (2 * c)).const_add b).congr_deriv (by ring)

namespace Quad3

/-- the three quadratic pieces and their derivatives -/
def A (q : Quad3) (t : ℝ) : ℝ := q.a1 + t * (q.a2 + q.a3 * t)
def A' (q : Quad3) (t : ℝ) : ℝ := q.a2 + 2 * q.a3 * t
def B (q : Quad3) (t : ℝ) : ℝ := q.b1 + t * (q.b2 + q.b3 * t)
def B' (q : Quad3) (t : ℝ) : ℝ := q.b2 + 2 * q.b3 * t
def C (q : Quad3) (t : ℝ) : ℝ := q.c1 + t * (q.c2 + q.c3 * t)
def C' (q : Quad3) (t : ℝ) : ℝ := q.c2 + 2 * q.c3 * t

/-- The pieces fit together at the switching times. -/
structure Fits (q : Quad3) (t1 t2 : ℝ) : Prop where
  e1 : q.t1 = some t1
  e2 : q.t2 = some t2
  h0 : 0 ≤ t1
  h1 : t1 ≤ t2
  h2 : t2 ≤ q.duration
  ab : q.A t1 = q.B t1
  ab' : q.A' t1 = q.B' t1
  bc : q.B t2 = q.C t2
  bc' : q.B' t2 = q.C' t2
  /-- the first piece that is actually run starts at `startpos`; if it is empty the second one does, and so on -/
  s : q.A 0 = q.startpos
  e : q.C q.duration = q.endpos

/-- The three pieces, extended beyond `[0,duration]`. -/
def core (q : Quad3) (t1 t2 t : ℝ) : ℝ := if t < t1 then q.A t else if t < t2 then q.B t else q.C t
def core' (q : Quad3) (t1 t2 t : ℝ) : ℝ := if t < t1 then q.A' t else if t < t2 then q.B' t else q.C' t

theorem Fits.core_hasDerivAt {q : Quad3} {t1 t2 : ℝ} (f : q.Fits t1 t2) (t : ℝ) :
    HasDerivAt (q.core t1 t2) (q.core' t1 t2 t) t := by
  have hBC : ∀ x, HasDerivAt (fun t => if t < t2 then q.B t else q.C t) (if x < t2 then q.B' x else q.C' x) x :=
    hasDerivAt_glue (fun x => hasDerivAt_quad _ _ _ x) (fun x => hasDerivAt_quad _ _ _ x) f.bc f.bc'
  refine hasDerivAt_glue (g := q.A) (g' := q.A') (fun x => hasDerivAt_quad _ _ _ x) hBC ?_ ?_ t
  · by_cases h : t1 < t2
    · rw [if_pos h]; exact f.ab
    · have : t1 = t2 := le_antisymm f.h1 (not_lt.mp h)
      rw [if_neg h, f.ab, this, f.bc]
  · by_cases h : t1 < t2
    · simp only [if_pos h]; exact f.ab'
    · have : t1 = t2 := le_antisymm f.h1 (not_lt.mp h)
      simp only [if_neg h]; rw [f.ab', this, f.bc']

theorem Fits.pos_eq {q : Quad3} {t1 t2 : ℝ} (f : q.Fits t1 t2) (t : ℝ) :
    q.pos t = if t < 0 then q.startpos else if t ≤ q.duration then q.core t1 t2 t else q.endpos := by
  unfold pos core
  simp only [f.e1, f.e2, ltN_some]
  have := f.h1; have := f.h2
  split_ifs <;> first | rfl | linarith

theorem Fits.vel_eq {q : Quad3} {t1 t2 : ℝ} (f : q.Fits t1 t2) (t : ℝ) :
    q.vel t = if t < 0 then 0 else if t ≤ q.duration then q.core' t1 t2 t else 0 := by
  unfold vel core'
  simp only [f.e1, f.e2, ltN_some]
  have := f.h1; have := f.h2
  split_ifs <;> first | rfl | linarith

theorem Fits.dur_nonneg {q : Quad3} {t1 t2 : ℝ} (f : q.Fits t1 t2) : 0 ≤ q.duration :=
  f.h0.trans (f.h1.trans f.h2)

theorem Fits.core_zero {q : Quad3} {t1 t2 : ℝ} (f : q.Fits t1 t2) : q.core t1 t2 0 = q.startpos := by
  unfold core
  have := f.h0; have := f.h1
  by_cases h : 0 < t1
  · rw [if_pos h, f.s]
  · have h1 : t1 = 0 := le_antisymm (not_lt.mp h) f.h0
    rw [if_neg h]
    by_cases h2 : 0 < t2
    · rw [if_pos h2, ← f.s, ← h1, f.ab]
    · have h3 : t2 = 0 := le_antisymm (not_lt.mp h2) (f.h0.trans f.h1)
      rw [if_neg h2, ← f.s, ← h3, ← f.bc, h3, ← h1, f.ab]

theorem Fits.core_dur {q : Quad3} {t1 t2 : ℝ} (f : q.Fits t1 t2) : q.core t1 t2 q.duration = q.endpos := by
  unfold core
  have := f.h2; have := f.h1
  rw [if_neg (by linarith), if_neg (by linarith), f.e]

/-- Inside the motion `Vel` is the derivative of `Pos`. -/
theorem Fits.hasDerivAt_inside {q : Quad3} {t1 t2 : ℝ} (f : q.Fits t1 t2) {t : ℝ} (h0 : 0 < t)
    (hd : t < q.duration) : HasDerivAt q.pos (q.vel t) t := by
  have hv : q.vel t = q.core' t1 t2 t := by
    rw [f.vel_eq, if_neg h0.not_gt, if_pos hd.le]
  rw [hv]
  refine (f.core_hasDerivAt t).congr_of_eventuallyEq ?_
  filter_upwards [Ioo_mem_nhds h0 hd] with x hx
  rw [f.pos_eq, if_neg hx.1.not_gt, if_pos hx.2.le]

/-- If the motion also starts and ends at rest, `Vel` is the derivative of `Pos` at every time. -/
theorem Fits.hasDerivAt {q : Quad3} {t1 t2 : ℝ} (f : q.Fits t1 t2) (hs : q.core' t1 t2 0 = 0)
    (he : q.core' t1 t2 q.duration = 0) (t : ℝ) : HasDerivAt q.pos (q.vel t) t := by
  have e1 : q.pos = fun t => if t < 0 then q.startpos
      else if t ≤ q.duration then q.core t1 t2 t else q.endpos := funext f.pos_eq
  rw [e1, f.vel_eq]
  have k : ∀ x, HasDerivAt (fun t => if t ≤ q.duration then q.core t1 t2 t else q.endpos)
      (if x ≤ q.duration then q.core' t1 t2 x else 0) x :=
    hasDerivAt_glue_le (h := fun _ => q.endpos) (h' := fun _ => 0) f.core_hasDerivAt
      (fun x => hasDerivAt_const x _) f.core_dur he
  refine hasDerivAt_glue (g := fun _ => q.startpos) (g' := fun _ => 0) (fun x => hasDerivAt_const x _) k ?_ ?_ t
  · simp only [if_pos f.dur_nonneg, f.core_zero]
  · simp only [if_pos f.dur_nonneg, hs]

/-- `Acc` is the derivative of `Vel` away from the switching times. -/
theorem hasDerivAt_vel {q : Quad3} {t1 t2 : ℝ} (e1 : q.t1 = some t1) (e2 : q.t2 = some t2) {t : ℝ} (n0 : t ≠ 0)
    (n1 : t ≠ t1) (n2 : t ≠ t2) (nd : t ≠ q.duration) : HasDerivAt q.vel (q.acc t) t := by
  unfold acc
  simp only [e1, e2, ltN_some]
  have ev : q.vel = fun time => if time < 0 then 0
      else if time < t1 then q.a2 + 2 * q.a3 * time
      else if time < t2 then q.b2 + 2 * q.b3 * time
      else if time ≤ q.duration then q.c2 + 2 * q.c3 * time else 0 := by
    funext x; unfold vel; simp only [e1, e2, ltN_some]
  rw [ev]
  rcases lt_or_gt_of_ne n0 with h0 | h0
  · rw [if_pos h0]
    refine (hasDerivAt_const t (0:ℝ)).congr_of_eventuallyEq ?_
    filter_upwards [Iio_mem_nhds h0] with x hx
    exact if_pos hx
  rw [if_neg h0.not_gt]
  rcases lt_or_gt_of_ne n1 with h1 | h1
  · rw [if_pos h1]
    refine (hasDerivAt_lin q.a2 q.a3 t).congr_of_eventuallyEq ?_
    filter_upwards [Ioi_mem_nhds h0, Iio_mem_nhds h1] with x hx hx1
    rw [if_neg (Set.mem_Ioi.mp hx).not_gt, if_pos (Set.mem_Iio.mp hx1)]
  rw [if_neg h1.not_gt]
  rcases lt_or_gt_of_ne n2 with h2 | h2
  · rw [if_pos h2]
    refine (hasDerivAt_lin q.b2 q.b3 t).congr_of_eventuallyEq ?_
    filter_upwards [Ioi_mem_nhds h0, Ioi_mem_nhds h1, Iio_mem_nhds h2] with x hx hx1 hx2
    rw [if_neg (Set.mem_Ioi.mp hx).not_gt, if_neg (Set.mem_Ioi.mp hx1).not_gt, if_pos (Set.mem_Iio.mp hx2)]
  rw [if_neg h2.not_gt]
  rcases lt_or_gt_of_ne nd with h3 | h3
  · rw [if_pos h3.le]
    refine (hasDerivAt_lin q.c2 q.c3 t).congr_of_eventuallyEq ?_
    filter_upwards [Ioi_mem_nhds h0, Ioi_mem_nhds h1, Ioi_mem_nhds h2, Iio_mem_nhds h3] with x hx hx1 hx2 hx3
    rw [if_neg (Set.mem_Ioi.mp hx).not_gt, if_neg (Set.mem_Ioi.mp hx1).not_gt,
      if_neg (Set.mem_Ioi.mp hx2).not_gt, if_pos (le_of_lt hx3)]
  · rw [if_neg h3.not_ge]
    refine (hasDerivAt_const t (0:ℝ)).congr_of_eventuallyEq ?_
    filter_upwards [Ioi_mem_nhds h0, Ioi_mem_nhds h1, Ioi_mem_nhds h2, Ioi_mem_nhds h3] with x hx hx1 hx2 hx3
    rw [if_neg (Set.mem_Ioi.mp hx).not_gt, if_neg (Set.mem_Ioi.mp hx1).not_gt,
      if_neg (Set.mem_Ioi.mp hx2).not_gt, if_neg (not_le.mpr hx3)]

end Quad3

/-! ## Trapezoidal profile -/
namespace TrapProfile

/-- What `SetProfile` computes, for positive maxima: the plateau time `T1` and whether there is a plateau. -/
theorem setProfile_eq (p : TrapProfile) (hv : 0 < p.maxvel) (ha : 0 < p.maxacc) (pos1 pos2 : ℝ) :
    ∃ t1 t2 D, 0 ≤ t1 ∧ t1 ≤ t2 ∧ D = t1 + t2 ∧ p.maxacc * t1 ≤ p.maxvel ∧
      p.maxacc * t1 * t2 = |pos2 - pos1| ∧ (t1 = t2 ∨ p.maxacc * t1 = p.maxvel) ∧
      p.setProfile pos1 pos2 = .ok { p with q := coefs (sgn (pos2 - pos1)) p.maxacc pos1 pos2 t1 t2 D } := by
  have hne : ¬ (p.maxvel = 0 ∨ p.maxacc = 0) := by
    rintro (h | h)
    · exact hv.ne' h
    · exact ha.ne' h
  have hnn : ¬ (p.maxvel < 0 ∨ p.maxacc < 0) := by
    rintro (h | h) <;> linarith
  have ss := sgn_ne (pos2 - pos1)
  have dT : (pos2 - pos1 - 2 * (sgn (pos2 - pos1) * p.maxacc * (p.maxvel / p.maxacc) ^ 2 / 2))
      / (sgn (pos2 - pos1) * p.maxvel) = |pos2 - pos1| / p.maxvel - p.maxvel / p.maxacc := by
    have key : ∀ s d : ℝ, s ≠ 0 → (s * d - 2 * (s * p.maxacc * (p.maxvel / p.maxacc) ^ 2 / 2))
        / (s * p.maxvel) = d / p.maxvel - p.maxvel / p.maxacc := by
      intro s d hs
      have hv' := hv.ne'
      have ha' := ha.ne'
      field_simp
    have := key _ |pos2 - pos1| ss
    rwa [sgn_abs] at this
  unfold setProfile
  rw [if_neg hne, if_neg hnn]
  dsimp only
  rw [dT]
  by_cases h : |pos2 - pos1| / p.maxvel - p.maxvel / p.maxacc > 0
  · rw [if_pos h]
    refine ⟨p.maxvel / p.maxacc, |pos2 - pos1| / p.maxvel, p.maxvel / p.maxacc + |pos2 - pos1| / p.maxvel,
      by positivity, by linarith, rfl, ?_, ?_, ?_, ?_⟩
    · rw [mul_div_cancel₀ _ ha.ne']
    · rw [mul_div_cancel₀ _ ha.ne', mul_div_cancel₀ _ hv.ne']
    · right; rw [mul_div_cancel₀ _ ha.ne']
    · congr 3 <;> ring
  · rw [if_neg h, div_sgn]
    have hq : 0 ≤ |pos2 - pos1| / p.maxacc := by positivity
    have hs := Real.mul_self_sqrt hq
    refine ⟨Real.sqrt (|pos2 - pos1| / p.maxacc), Real.sqrt (|pos2 - pos1| / p.maxacc), _, Real.sqrt_nonneg _, le_rfl,
      rfl, ?_, ?_, Or.inl rfl, ?_⟩
    · have h2 : |pos2 - pos1| / p.maxacc ≤ (p.maxvel / p.maxacc) ^ 2 := by
        have : |pos2 - pos1| / p.maxvel ≤ p.maxvel / p.maxacc := by linarith
        rw [div_le_iff₀ hv] at this
        rw [div_le_iff₀ ha]
        calc |pos2 - pos1| ≤ p.maxvel / p.maxacc * p.maxvel := this
          _ = (p.maxvel / p.maxacc) ^ 2 * p.maxacc := by field_simp
      have h3 : Real.sqrt (|pos2 - pos1| / p.maxacc) ≤ p.maxvel / p.maxacc :=
        Real.sqrt_le_iff.mpr ⟨by positivity, h2⟩
      calc p.maxacc * Real.sqrt (|pos2 - pos1| / p.maxacc) ≤ p.maxacc * (p.maxvel / p.maxacc) :=
            mul_le_mul_of_nonneg_left h3 ha.le
        _ = p.maxvel := mul_div_cancel₀ _ ha.ne'
    · rw [mul_assoc, hs, mul_div_cancel₀ _ ha.ne']
    · congr 3; ring

theorem coefs_fits {s A pos1 pos2 t1 t2 : ℝ} (h0 : 0 ≤ t1) (h1 : t1 ≤ t2)
    (hd : s * (A * t1 * t2) = pos2 - pos1) : (coefs s A pos1 pos2 t1 t2 (t1 + t2)).Fits t1 t2 where
  e1 := rfl
  e2 := rfl
  h0 := h0
  h1 := h1
  h2 := by simp only [coefs]; linarith
  ab := by simp only [coefs, Quad3.A, Quad3.B]; ring
  ab' := by simp only [coefs, Quad3.A', Quad3.B']; ring
  bc := by simp only [coefs, Quad3.B, Quad3.C]; ring
  bc' := by simp only [coefs, Quad3.B', Quad3.C']; ring
  s := by simp only [coefs, Quad3.A]; ring
  e := by simp only [coefs, Quad3.C]; linear_combination hd

theorem coefs_core' (s A pos1 pos2 t1 t2 t : ℝ) :
    (coefs s A pos1 pos2 t1 t2 (t1 + t2)).core' t1 t2 t
      = s * A * (if t < t1 then t else if t < t2 then t1 else t1 + t2 - t) := by
  simp only [coefs, Quad3.core', Quad3.A', Quad3.B', Quad3.C']
  split_ifs <;> ring

/-- Closed form of the trapezoid. -/
theorem coefs_vel {s A pos1 pos2 t1 t2 : ℝ} (h0 : 0 ≤ t1) (h1 : t1 ≤ t2)
    (hd : s * (A * t1 * t2) = pos2 - pos1) (t : ℝ) :
    (coefs s A pos1 pos2 t1 t2 (t1 + t2)).vel t = s * A * max 0 (min (min t t1) (t1 + t2 - t)) := by
  rw [(coefs_fits h0 h1 hd).vel_eq, coefs_core']
  have hD : (coefs s A pos1 pos2 t1 t2 (t1 + t2)).duration = t1 + t2 := rfl
  rw [hD]
  by_cases c0 : t < 0
  · rw [if_pos c0, max_eq_left, mul_zero]
    exact (min_le_left _ _).trans ((min_le_left _ _).trans c0.le)
  rw [if_neg c0]
  push Not at c0
  by_cases c1 : t ≤ t1 + t2
  · rw [if_pos c1]
    congr 1
    by_cases c2 : t < t1
    · rw [if_pos c2, min_eq_left c2.le, min_eq_left (by linarith), max_eq_right c0]
    rw [if_neg c2]
    push Not at c2
    by_cases c3 : t < t2
    · rw [if_pos c3, min_eq_right c2, min_eq_left (by linarith), max_eq_right h0]
    · push Not at c3
      rw [if_neg c3.not_gt, min_eq_right c2, min_eq_right (by linarith), max_eq_right (by linarith)]
  · rw [if_neg c1]
    push Not at c1
    rw [max_eq_left, mul_zero]
    exact (min_le_right _ _).trans (by linarith)

/-- Time scaling by a positive factor. -/
theorem scale_pos (q : Quad3) {t1 t2 f : ℝ} (e1 : q.t1 = some t1) (e2 : q.t2 = some t2) (hf : 0 < f) {T : ℝ}
    (hT : T = q.duration / f) (t : ℝ) :
    (scale q f T).pos t = q.pos (f * t) ∧ (scale q f T).vel t = f * q.vel (f * t) ∧
      (scale q f T).acc t = f * f * q.acc (f * t) := by
  have k0 : (f * t < 0) ↔ t < 0 := by
    constructor
    · intro h; by_contra h'; push Not at h'; nlinarith
    · intro h; nlinarith
  have k : ∀ y, (f * t < y) ↔ t < y / f := fun y => by rw [lt_div_iff₀ hf, mul_comm]
  have kd : (f * t ≤ q.duration) ↔ t ≤ T := by rw [hT, le_div_iff₀ hf, mul_comm]
  simp only [scale, Quad3.pos, Quad3.vel, Quad3.acc, divTime, e1, e2, Option.bind_some, if_neg hf.ne', ltN_some, k0, k,
    kd]
  refine ⟨?_, ?_, ?_⟩ <;> split_ifs <;> ring

end TrapProfile

end KDL
