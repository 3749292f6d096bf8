import Verif.Lemmas.VelocityProfile

/-!
# C55, C58, C59: rectangular, spline and Dirac velocity profiles
-/

noncomputable section

namespace KDL

open Classical

/-! ## C55: `VelocityProfile_Rectangular` -/

/-- A constant velocity motion from `pos1` to `pos2`. -/
structure ConstLaw (r : RectProfile) (pos1 pos2 V : ℝ) : Prop where
  start : ∀ t ≤ 0, r.pos t = pos1
  arrive : ∀ t, r.duration ≤ t → r.pos t = pos2
  dur : 0 ≤ r.duration
  /-- `Vel` is the derivative of `Pos` except at the two ends -/
  deriv : ∀ t, t ≠ 0 → t ≠ r.duration → HasDerivAt r.pos (r.vel t) t
  /-- during the motion the velocity does not change -/
  const : ∀ t u, 0 ≤ t → t ≤ r.duration → 0 ≤ u → u ≤ r.duration → r.vel t = r.vel u
  vmax : ∀ t, |r.vel t| ≤ V

theorem rect_law {r : RectProfile} {pos1 pos2 V : ℝ} (hp : r.p = pos1) (hd : 0 ≤ r.d)
    (he : r.v * r.d + r.p = pos2) (hV : |r.v| ≤ V) : ConstLaw r pos1 pos2 V := by
  have hV0 : 0 ≤ V := (abs_nonneg _).trans hV
  refine ⟨?_, ?_, hd, ?_, ?_, ?_⟩
  · intro t ht
    unfold RectProfile.pos
    rcases lt_or_eq_of_le ht with h | h
    · rw [if_pos h, hp]
    · subst h
      rw [if_neg (lt_irrefl _), if_neg (not_lt.mpr hd), hp]; ring
  · intro t ht
    unfold RectProfile.pos
    have ht' : r.d ≤ t := ht
    rw [if_neg (not_lt.mpr (hd.trans ht'))]
    rcases lt_or_eq_of_le ht' with h | h
    · rw [if_pos h, he]
    · rw [if_neg (by rw [h]; exact lt_irrefl _), ← h, he]
  · intro t h0 h1
    have h1' : t ≠ r.d := h1
    unfold RectProfile.vel
    rcases lt_or_gt_of_ne h0 with h | h
    · rw [if_pos h]
      refine (hasDerivAt_const t r.p).congr_of_eventuallyEq ?_
      filter_upwards [Iio_mem_nhds h] with x hx
      exact if_pos hx
    · rw [if_neg h.not_gt]
      rcases lt_or_gt_of_ne h1' with h' | h'
      · rw [if_neg h'.not_gt]
        have k : HasDerivAt (fun t => r.v * t + r.p) r.v t := by
          simpa using ((hasDerivAt_id t).const_mul r.v).add_const r.p
        refine k.congr_of_eventuallyEq ?_
        filter_upwards [Ioo_mem_nhds h h'] with x hx
        unfold RectProfile.pos
        rw [if_neg hx.1.not_gt, if_neg hx.2.not_gt]
      · rw [if_pos h']
        refine (hasDerivAt_const t (r.v * r.d + r.p)).congr_of_eventuallyEq ?_
        filter_upwards [Ioi_mem_nhds h, Ioi_mem_nhds h'] with x hx hx'
        unfold RectProfile.pos
        rw [if_neg (Set.mem_Ioi.mp hx).not_gt, if_pos (Set.mem_Ioi.mp hx')]
  · intro t u h0 h1 h2 h3
    unfold RectProfile.vel
    have h1' : t ≤ r.d := h1
    have h3' : u ≤ r.d := h3
    rw [if_neg (not_lt.mpr h0), if_neg (not_lt.mpr h1'), if_neg (not_lt.mpr h2), if_neg (not_lt.mpr h3')]
  · intro t
    unfold RectProfile.vel
    split_ifs
    · simpa using hV0
    · simpa using hV0
    · exact hV

/-- **C55 (SetProfile).**  For a positive maximum the motion runs from `pos1` to `pos2` at the maximum velocity. -/
theorem C55_setProfile (r : RectProfile) (hm : 0 < r.maxvel) (pos1 pos2 : ℝ) :
    ∃ r', r.setProfile pos1 pos2 = .ok r' ∧ ConstLaw r' pos1 pos2 r.maxvel ∧
      r'.duration = |pos2 - pos1| / r.maxvel := by
  unfold RectProfile.setProfile
  dsimp only
  by_cases h : pos2 - pos1 = 0
  · rw [if_neg (not_not.mpr h)]
    refine ⟨_, rfl, rect_law rfl le_rfl ?_ ?_, ?_⟩
    · simp only; linarith
    · simpa using hm.le
    · rw [h]; simp [RectProfile.duration]
  · rw [if_pos h]
    have hs : (if pos2 - pos1 > 0 then r.maxvel else -r.maxvel) = sgn (pos2 - pos1) * r.maxvel := by
      unfold sgn
      rcases lt_or_gt_of_ne h with c | c
      · rw [if_neg c.not_gt, if_pos c]; ring
      · rw [if_pos c, if_neg c.not_gt]; ring
    rw [hs]
    have hv : sgn (pos2 - pos1) * r.maxvel ≠ 0 := mul_ne_zero (sgn_ne _) hm.ne'
    rw [if_neg hv]
    have hd : (pos2 - pos1) / (sgn (pos2 - pos1) * r.maxvel) = |pos2 - pos1| / r.maxvel := by
      rw [← div_div, div_sgn]
    refine ⟨_, rfl, rect_law rfl ?_ ?_ ?_, ?_⟩
    · show 0 ≤ (pos2 - pos1) / (sgn (pos2 - pos1) * r.maxvel)
      rw [hd]; positivity
    · show sgn (pos2 - pos1) * r.maxvel * ((pos2 - pos1) / (sgn (pos2 - pos1) * r.maxvel)) + pos1 = pos2
      rw [mul_div_cancel₀ _ hv]; ring
    · show |sgn (pos2 - pos1) * r.maxvel| ≤ r.maxvel
      rw [abs_mul, abs_sgn, one_mul, abs_of_pos hm]
    · exact hd

/-- The claim for `SetProfileDuration`: a motion that keeps the limit, for every requested duration. -/
def RectDurationKeepsLimit : Prop :=
  ∀ (r : RectProfile) (pos1 pos2 T : ℝ), 0 < r.maxvel → 0 ≤ T →
    ∃ r', r.setProfileDuration pos1 pos2 T = .ok r' ∧ ConstLaw r' pos1 pos2 r.maxvel

/-- **C55, violated (limit):** the test `v > maxvel` ignores negative velocities; moving from 0 to -10 in 1 s with
maximum velocity 1 is planned with velocity -10. -/
theorem C55_limit_violated : ¬ RectDurationKeepsLimit := by
  intro H
  obtain ⟨r', e, l⟩ := H ⟨0, 0, 0, 1⟩ 0 (-10) 1 one_pos (by norm_num)
  have k : RectProfile.setProfileDuration ⟨0, 0, 0, 1⟩ 0 (-10) 1 = .ok ⟨1, 0, -10, 1⟩ := by
    simp only [RectProfile.setProfileDuration]; norm_num
  rw [k] at e; cases e
  have := l.vmax 0
  simp only [RectProfile.vel] at this
  norm_num at this

/-- **C55, violated (duration):** moving backwards with a requested duration of zero, the `safety` branch takes the
positive maximum velocity and the duration becomes negative. -/
theorem C55_duration_violated (r : RectProfile) (hm : 0 < r.maxvel) (pos1 pos2 : ℝ) (h : pos2 < pos1) :
    ∃ r', r.setProfileDuration pos1 pos2 0 = .ok r' ∧ r'.duration < 0 := by
  have hne : pos2 - pos1 ≠ 0 := (sub_neg.mpr h).ne
  unfold RectProfile.setProfileDuration
  dsimp only
  rw [if_pos hne, if_pos (Or.inr rfl), if_neg hm.ne']
  exact ⟨_, rfl, div_neg_of_neg_of_pos (sub_neg.mpr h) hm⟩

/-- **C55, what holds:** for a forward motion, or a backward one that is slow enough, `SetProfileDuration` keeps the
limit; it takes the requested time if that is possible and the minimal time otherwise. -/
theorem C55_setProfileDuration_partial (r : RectProfile) (hm : 0 < r.maxvel) (pos1 pos2 T : ℝ) (h0 : 0 ≤ T)
    (h : pos1 ≤ pos2 ∨ pos1 - pos2 ≤ r.maxvel * T) :
    ∃ r', r.setProfileDuration pos1 pos2 T = .ok r' ∧ ConstLaw r' pos1 pos2 r.maxvel ∧
      r'.duration = max T (|pos2 - pos1| / r.maxvel) := by
  unfold RectProfile.setProfileDuration
  dsimp only
  by_cases hx : pos2 - pos1 = 0
  · rw [if_neg (not_not.mpr hx)]
    refine ⟨_, rfl, rect_law rfl h0 ?_ ?_, ?_⟩
    · simp only; linarith
    · simpa using hm.le
    · rw [hx]; simp [RectProfile.duration, h0]
  · rw [if_pos hx]
    by_cases c : (pos2 - pos1) / T > r.maxvel ∨ T = 0
    · rw [if_pos c, if_neg hm.ne']
      have hpos : 0 < pos2 - pos1 := by
        rcases c with c | c
        · by_contra hn
          have := div_nonpos_of_nonpos_of_nonneg (not_lt.mp hn) h0
          linarith
        · subst c
          rcases h with h | h
          · exact lt_of_le_of_ne (sub_nonneg.mpr h) (Ne.symm hx)
          · have h1 : 0 ≤ pos2 - pos1 := by linarith
            exact lt_of_le_of_ne h1 (Ne.symm hx)
      refine ⟨_, rfl, rect_law rfl (by positivity) ?_ ?_, ?_⟩
      · show r.maxvel * ((pos2 - pos1) / r.maxvel) + pos1 = pos2
        rw [mul_div_cancel₀ _ hm.ne']; ring
      · rw [abs_of_pos hm]
      · show (pos2 - pos1) / r.maxvel = _
        rw [abs_of_pos hpos, max_eq_right]
        rcases c with c | c
        · have hT : 0 < T := by
            rcases lt_or_eq_of_le h0 with h | h
            · exact h
            · rw [← h, div_zero] at c; linarith
          rw [gt_iff_lt, lt_div_iff₀ hT] at c
          rw [le_div_iff₀ hm]; linarith
        · rw [c]; positivity
    · rw [if_neg c]
      push Not at c
      have hT : 0 < T := lt_of_le_of_ne h0 (Ne.symm c.2)
      have hv : (pos2 - pos1) / T ≠ 0 := div_ne_zero hx hT.ne'
      have hd : (pos2 - pos1) / ((pos2 - pos1) / T) = T := by field_simp
      rw [if_neg hv]
      have hle : |pos2 - pos1| ≤ r.maxvel * T := by
        have h1 := (div_le_iff₀ hT).mp c.1
        rw [abs_le]
        refine ⟨?_, by linarith⟩
        rcases h with h | h
        · have : 0 ≤ r.maxvel * T := by positivity
          linarith
        · linarith
      refine ⟨_, rfl, rect_law rfl ?_ ?_ ?_, ?_⟩
      · show 0 ≤ (pos2 - pos1) / ((pos2 - pos1) / T)
        rw [hd]; exact h0
      · show (pos2 - pos1) / T * ((pos2 - pos1) / ((pos2 - pos1) / T)) + pos1 = pos2
        rw [mul_div_cancel₀ _ hv]; ring
      · show |(pos2 - pos1) / T| ≤ r.maxvel
        rw [abs_div, abs_of_pos hT, div_le_iff₀ hT]; exact hle
      · show (pos2 - pos1) / ((pos2 - pos1) / T) = _
        rw [hd, max_eq_left]
        rw [div_le_iff₀ hm]; linarith

/-- **C55 (Clone).**  The clone of a planned profile is a copy, after either planning function. -/
theorem C55_clone (r r' : RectProfile) (pos1 pos2 : ℝ) (hm : 0 < r.maxvel)
    (h : r.setProfile pos1 pos2 = .ok r' ∨ ∃ T, r.setProfileDuration pos1 pos2 T = .ok r') : r'.clone = .ok r' := by
  have key : ∀ d v, v ≠ 0 → d ≠ 0 → v ≤ r.maxvel →
      RectProfile.clone ⟨d, pos1, v, r.maxvel⟩ = .ok ⟨d, pos1, v, r.maxvel⟩ := by
    intro d v hv hd hle
    unfold RectProfile.clone RectProfile.setProfileDuration
    have e1 : pos1 + v * d - pos1 = v * d := by ring
    have e2 : v * d / d = v := by field_simp
    have e3 : v * d / v = d := by field_simp
    dsimp only
    have hc : ¬ (v > r.maxvel ∨ d = 0) := by push Not; exact ⟨hle, hd⟩
    rw [e1, if_pos (mul_ne_zero hv hd), e2, if_neg hc, if_neg hv, e3]
  have key0 : ∀ d, RectProfile.clone ⟨d, pos1, 0, r.maxvel⟩ = .ok ⟨d, pos1, 0, r.maxvel⟩ := by
    intro d
    unfold RectProfile.clone RectProfile.setProfileDuration
    simp
  rcases h with h | ⟨T, h⟩
  · unfold RectProfile.setProfile at h
    dsimp only at h
    by_cases hx : pos2 - pos1 = 0
    · rw [if_neg (not_not.mpr hx)] at h; cases h; exact key0 0
    · rw [if_pos hx] at h
      have hle : (if pos2 - pos1 > 0 then r.maxvel else -r.maxvel) ≤ r.maxvel := by split_ifs <;> linarith
      generalize (if pos2 - pos1 > 0 then r.maxvel else -r.maxvel) = v at *
      by_cases hv : v = 0
      · rw [if_pos hv] at h; cases h
      · rw [if_neg hv] at h; cases h
        exact key _ _ hv (div_ne_zero hx hv) hle
  · unfold RectProfile.setProfileDuration at h
    dsimp only at h
    by_cases hx : pos2 - pos1 = 0
    · rw [if_neg (not_not.mpr hx)] at h; cases h; exact key0 T
    · rw [if_pos hx] at h
      have hle : (if (pos2 - pos1) / T > r.maxvel ∨ T = 0 then r.maxvel else (pos2 - pos1) / T) ≤ r.maxvel := by
        split_ifs with c
        · exact le_rfl
        · push Not at c; exact c.1
      generalize (if (pos2 - pos1) / T > r.maxvel ∨ T = 0 then r.maxvel else (pos2 - pos1) / T) = v at *
      by_cases hv : v = 0
      · rw [if_pos hv] at h; cases h
      · rw [if_neg hv] at h; cases h
        exact key _ _ hv (div_ne_zero hx hv) hle

/-- **C55 (Acc).**  `Acc` is not available: it always throws. -/
theorem C55_acc (r : RectProfile) (t : ℝ) : r.acc t = .throws := rfl

/-- Non-vacuity: from 3 to 1 at velocity 2 takes 1 s. -/
example : RectProfile.setProfile ⟨0, 0, 0, 2⟩ 3 1 = .ok ⟨1, 3, -2, 2⟩ := by
  simp only [RectProfile.setProfile]; norm_num

/-! ## C58: `VelocityProfile_Spline` -/

/-- **C58 (derivatives).**  `Vel` is the derivative of `Pos` and `Acc` the derivative of `Vel`, at every time and for
all coefficients. -/
theorem C58_deriv (p : SplineProfile) (t : ℝ) :
    HasDerivAt p.pos (p.vel t) t ∧ HasDerivAt p.vel (p.acc t) t := by
  have h1 : HasDerivAt (fun t : ℝ => t) 1 t := hasDerivAt_id t
  have h2 := h1.mul h1
  have h3 := h2.mul h1
  have h4 := h3.mul h1
  have h5 := h4.mul h1
  constructor
  · have := (((((hasDerivAt_const t (1 * p.c0)).add (h1.mul_const p.c1)).add (h2.mul_const p.c2)).add
      (h3.mul_const p.c3)).add (h4.mul_const p.c4)).add (h5.mul_const p.c5)
    refine this.congr_deriv ?_
    unfold SplineProfile.vel
    simp only [Pi.mul_apply]
    ring
  · have := ((((hasDerivAt_const t (1 * p.c1)).add ((h1.const_mul 2).mul_const p.c2)).add
      ((h2.const_mul 3).mul_const p.c3)).add ((h3.const_mul 4).mul_const p.c4)).add ((h4.const_mul 5).mul_const p.c5)
    refine this.congr_deriv ?_
    unfold SplineProfile.acc
    simp only [Pi.mul_apply]
    ring

/-- **C58 (cubic).**  For every duration above the machine epsilon the cubic meets position and velocity at both
ends. -/
theorem C58_cubic (p : SplineProfile) (pos1 vel1 pos2 vel2 T : ℝ) (hT : SplineProfile.machEps < T) :
    let q := p.setCubic pos1 vel1 pos2 vel2 T
    q.duration = T ∧ q.pos 0 = pos1 ∧ q.vel 0 = vel1 ∧ q.pos T = pos2 ∧ q.vel T = vel2 := by
  have hpos : 0 < T := lt_trans (by unfold SplineProfile.machEps; positivity) hT
  have hne := hpos.ne'
  simp only [SplineProfile.setCubic, if_neg (not_le.mpr hT), SplineProfile.pos, SplineProfile.vel]
  refine ⟨trivial, by ring, by ring, ?_, ?_⟩
  · field_simp; ring
  · field_simp; ring

/-- **C58 (quintic).**  For every duration above the machine epsilon the quintic meets position, velocity and
acceleration at both ends. -/
theorem C58_quintic (p : SplineProfile) (pos1 vel1 acc1 pos2 vel2 acc2 T : ℝ) (hT : SplineProfile.machEps < T) :
    let q := p.setQuintic pos1 vel1 acc1 pos2 vel2 acc2 T
    q.duration = T ∧ q.pos 0 = pos1 ∧ q.vel 0 = vel1 ∧ q.acc 0 = acc1 ∧
      q.pos T = pos2 ∧ q.vel T = vel2 ∧ q.acc T = acc2 := by
  have hpos : 0 < T := lt_trans (by unfold SplineProfile.machEps; positivity) hT
  have hne := hpos.ne'
  simp only [SplineProfile.setQuintic, if_neg (not_le.mpr hT), SplineProfile.pos, SplineProfile.vel,
    SplineProfile.acc]
  refine ⟨trivial, by ring, by ring, by ring, ?_, ?_, ?_⟩
  · field_simp; ring
  · field_simp; ring
  · field_simp; ring

/-- **C58 (linear).**  Missing: durations up to the machine epsilon, see `C58_linear_arrives_violated`. -/
theorem C58_linear_partial (p : SplineProfile) (pos1 pos2 T : ℝ) (hT : SplineProfile.machEps < T) :
    let q := p.setLinear pos1 pos2 T
    q.duration = T ∧ q.pos 0 = pos1 ∧ q.pos T = pos2 ∧ ∀ t, q.acc t = 0 := by
  have hpos : 0 < T := lt_trans (by unfold SplineProfile.machEps; positivity) hT
  have hne := hpos.ne'
  simp only [SplineProfile.setLinear, if_neg (not_le.mpr hT), SplineProfile.pos, SplineProfile.acc]
  refine ⟨trivial, by ring, ?_, fun t => by ring⟩
  field_simp; ring

/-- **C58 (tiny durations).**  For durations up to the machine epsilon the cubic and quintic variants take the final
boundary values at time 0. -/
theorem C58_tiny (p : SplineProfile) (pos1 vel1 acc1 pos2 vel2 acc2 T : ℝ) (hT : T ≤ SplineProfile.machEps) :
    (let q := p.setCubic pos1 vel1 pos2 vel2 T; q.pos 0 = pos2 ∧ q.vel 0 = vel2 ∧ q.duration = T) ∧
    (let q := p.setQuintic pos1 vel1 acc1 pos2 vel2 acc2 T;
      q.pos 0 = pos2 ∧ q.vel 0 = vel2 ∧ q.acc 0 = acc2 ∧ q.duration = T) := by
  simp only [SplineProfile.setQuintic, SplineProfile.setCubic, if_pos hT, SplineProfile.pos, SplineProfile.vel,
    SplineProfile.acc]
  refine ⟨⟨by ring, by ring, trivial⟩, by ring, by ring, by ring, trivial⟩

/-- The claim that a linear profile reaches its end position. -/
def SplineLinearArrives : Prop :=
  ∀ (p : SplineProfile) (pos1 pos2 T : ℝ), 0 ≤ T →
    (p.setLinear pos1 pos2 T).pos (p.setLinear pos1 pos2 T).duration = pos2

/-- **C58, violated (linear variant):** for durations up to the machine epsilon the linear variant stays in the *start*
position for ever, unlike the cubic and quintic variants. -/
theorem C58_linear_arrives_violated : ¬ SplineLinearArrives := by
  intro H
  have := H SplineProfile.new 0 1 0 le_rfl
  have h : (0:ℝ) ≤ SplineProfile.machEps := by unfold SplineProfile.machEps; positivity
  simp only [SplineProfile.setLinear, if_pos h, SplineProfile.pos] at this
  norm_num at this

/-- **C58 (SetProfile).**  `SetProfile` has no effect at all. -/
theorem C58_setProfile_noop (p : SplineProfile) (pos1 pos2 : ℝ) : p.setProfile pos1 pos2 = p := rfl

/-- **C58 (Clone).** -/
theorem C58_clone (p : SplineProfile) : p.clone = p := rfl

/-- Non-vacuity: the cubic from rest to rest over one second is `3t² - 2t³`. -/
example : SplineProfile.new.setCubic 0 0 1 0 1 = ⟨0, 0, 3, -2, 0, 0, 1⟩ := by
  have : ¬ ((1:ℝ) ≤ SplineProfile.machEps) := by unfold SplineProfile.machEps; norm_num
  simp only [SplineProfile.setCubic, if_neg this]
  norm_num

/-! ## C59: `VelocityProfile_Dirac` -/

/-- **C59 (jump).**  Without a duration the position jumps: `Pos(t) = pos1` for `t ≤ 0` and `pos2` for `t > 0`.
Missing: `Vel` and `Acc`, see `C59_documented_violated`. -/
theorem C59_jump_partial (pos1 pos2 t : ℝ) :
    (DiracProfile.setProfile pos1 pos2).duration = 0 ∧
    (DiracProfile.setProfile pos1 pos2).pos t = if t ≤ 0 then pos1 else pos2 := by
  simp [DiracProfile.setProfile, DiracProfile.pos, DiracProfile.duration]

/-- **C59 (given duration).**  With a positive duration the motion is linear between the positions, and `Vel` is the
derivative of `Pos` away from the two ends. -/
theorem C59_duration (pos1 pos2 T : ℝ) (hT : 0 < T) :
    let p := DiracProfile.setProfileDuration pos1 pos2 T
    p.duration = T ∧ (∀ t ≤ 0, p.pos t = pos1) ∧ (∀ t, T ≤ t → p.pos t = pos2) ∧
      ∀ t, t ≠ 0 → t ≠ T → ∃ v, p.vel t = .val v ∧ HasDerivAt p.pos v t := by
  have hne := hT.ne'
  have ep : ∀ x, (DiracProfile.setProfileDuration pos1 pos2 T).pos x
      = if x < 0 then pos1 else if x ≤ T then pos1 + ((pos2 - pos1) / T) * x else pos2 := by
    intro x
    exact if_neg hne
  have ev : ∀ x, (DiracProfile.setProfileDuration pos1 pos2 T).vel x
      = if 0 < x ∧ x < T then .val ((pos2 - pos1) / T) else .val 0 := by
    intro x
    exact if_neg hne
  refine ⟨rfl, ?_, ?_, ?_⟩
  · intro t ht
    rw [ep]
    rcases lt_or_eq_of_le ht with h | h
    · rw [if_pos h]
    · rw [h, if_neg (lt_irrefl _), if_pos hT.le]; ring
  · intro t ht
    rw [ep, if_neg (not_lt.mpr (hT.le.trans ht))]
    rcases lt_or_eq_of_le ht with h | h
    · rw [if_neg (not_le.mpr h)]
    · rw [← h, if_pos le_rfl]; field_simp; ring
  · intro t h0 h1
    rw [ev]
    rcases lt_or_gt_of_ne h0 with h | h
    · refine ⟨0, if_neg (fun c => absurd c.1 h.not_gt), ?_⟩
      refine (hasDerivAt_const t pos1).congr_of_eventuallyEq ?_
      filter_upwards [Iio_mem_nhds h] with x hx
      rw [ep]; exact if_pos hx
    · rcases lt_or_gt_of_ne h1 with h' | h'
      · refine ⟨_, if_pos ⟨h, h'⟩, ?_⟩
        have k : HasDerivAt (fun t => pos1 + (pos2 - pos1) / T * t) ((pos2 - pos1) / T) t := by
          simpa using ((hasDerivAt_id t).const_mul ((pos2 - pos1) / T)).const_add pos1
        refine k.congr_of_eventuallyEq ?_
        filter_upwards [Ioo_mem_nhds h h'] with x hx
        rw [ep, if_neg hx.1.not_gt, if_pos hx.2.le]
      · refine ⟨0, if_neg (fun c => absurd c.2 h'.not_gt), ?_⟩
        refine (hasDerivAt_const t pos2).congr_of_eventuallyEq ?_
        filter_upwards [Ioi_mem_nhds h, Ioi_mem_nhds h'] with x hx hx'
        rw [ep, if_neg (Set.mem_Ioi.mp hx).not_gt, if_neg (not_le.mpr (Set.mem_Ioi.mp hx'))]

/-- The documentation (velocityprofile_dirac.hpp:38–41): for every `t`, `Vel(t) == 0` and `Acc(t) == 0`. -/
def DiracDocumented : Prop :=
  ∀ pos1 pos2 t : ℝ, (DiracProfile.setProfile pos1 pos2).vel t = .val 0 ∧
    (DiracProfile.setProfile pos1 pos2).acc t = .val 0

/-- **C59, violated:** both functions throw instead, for every time. -/
theorem C59_documented_violated : ¬ DiracDocumented ∧
    ∀ pos1 pos2 t : ℝ, (DiracProfile.setProfile pos1 pos2).vel t = .throws ∧
      (DiracProfile.setProfile pos1 pos2).acc t = .throws := by
  have k : ∀ pos1 pos2 t : ℝ, (DiracProfile.setProfile pos1 pos2).vel t = .throws ∧
      (DiracProfile.setProfile pos1 pos2).acc t = .throws := by
    intro pos1 pos2 t
    simp [DiracProfile.setProfile, DiracProfile.vel, DiracProfile.acc]
  refine ⟨fun H => ?_, k⟩
  have := (H 0 0 0).1
  rw [(k 0 0 0).1] at this
  cases this

/-- **C59 (Clone).** -/
theorem C59_clone (p : DiracProfile) : p.clone = p := rfl

end KDL
