import Verif.Lemmas.VelocityProfile

/-!
# C57: half trapezoidal velocity profile

`VelocityProfile_TrapHalf`, velocityprofile_traphalf.cpp: acceleration from rest (`starting`) or deceleration to rest.
-/

noncomputable section

namespace KDL

open Classical

/-- A motion from `pos1` to `pos2` that leaves its rest position smoothly (`starting`) or arrives in it smoothly
(otherwise), with the other end run through at velocity `v`. -/
structure HalfLaw (q : Quad3) (starting : Bool) (pos1 pos2 v V A : ℝ) : Prop where
  start : ∀ t ≤ 0, q.pos t = pos1
  arrive : ∀ t, q.duration ≤ t → q.pos t = pos2
  dur : 0 ≤ q.duration
  /-- `Vel` is the derivative of `Pos`, up to the end that is run through -/
  deriv : ∀ t, (if starting then t < q.duration else 0 < t) → HasDerivAt q.pos (q.vel t) t
  /-- and the one sided derivative there -/
  left : starting = true → HasDerivWithinAt q.pos (q.vel q.duration) (Set.Icc 0 q.duration) q.duration
  right : starting = false → HasDerivWithinAt q.pos (q.vel 0) (Set.Icc 0 q.duration) 0
  /-- velocities at the two ends -/
  vel0 : q.vel 0 = if starting then 0 else v
  velD : q.vel q.duration = if starting then v else 0
  vmax : ∀ t, |q.vel t| ≤ V
  amax : ∀ t, |q.acc t| ≤ A
  dir : ∀ t, 0 ≤ (pos2 - pos1) * q.vel t

theorem plan1_fits {pos1 pos2 t1 t2 D v a : ℝ} (h0 : 0 ≤ t1) (h1 : t1 ≤ t2) (h2 : t2 ≤ D)
    (hv : v = a * (t2 - t1)) (hd : pos2 - pos1 = v * (D - t2) + a * (t2 - t1) ^ 2 / 2) :
    (TrapHalf.plan1 pos1 pos2 t1 t2 D v a).Fits t1 t2 where
  e1 := rfl
  e2 := rfl
  h0 := h0
  h1 := h1
  h2 := h2
  ab := by simp only [TrapHalf.plan1, Quad3.A, Quad3.B]; ring
  ab' := by simp only [TrapHalf.plan1, Quad3.A', Quad3.B']; ring
  bc := by simp only [TrapHalf.plan1, Quad3.B, Quad3.C]; linear_combination -hd
  bc' := by simp only [TrapHalf.plan1, Quad3.B', Quad3.C']; linear_combination -hv
  s := by simp only [TrapHalf.plan1, Quad3.A]; ring
  e := by simp only [TrapHalf.plan1, Quad3.C]; ring

theorem plan2_fits {pos1 pos2 t1 t2 D v a : ℝ} (h0 : 0 ≤ t1) (h1 : t1 ≤ t2) (h2 : t2 ≤ D)
    (hv : v = a * (t2 - t1)) (hd : pos2 - pos1 = v * t1 + a * (t2 - t1) ^ 2 / 2) :
    (TrapHalf.plan2 pos1 pos2 t1 t2 D v a).Fits t1 t2 where
  e1 := rfl
  e2 := rfl
  h0 := h0
  h1 := h1
  h2 := h2
  ab := by simp only [TrapHalf.plan2, Quad3.A, Quad3.B]; linear_combination -hd
  ab' := by simp only [TrapHalf.plan2, Quad3.A', Quad3.B']; linear_combination hv
  bc := by simp only [TrapHalf.plan2, Quad3.B, Quad3.C]; ring
  bc' := by simp only [TrapHalf.plan2, Quad3.B', Quad3.C']; ring
  s := by simp only [TrapHalf.plan2, Quad3.A]; ring
  e := by simp only [TrapHalf.plan2, Quad3.C]; ring

theorem fits_start {q : Quad3} {t1 t2 : ℝ} (F : q.Fits t1 t2) (t : ℝ) (ht : t ≤ 0) : q.pos t = q.startpos := by
  rw [F.pos_eq]
  rcases lt_or_eq_of_le ht with h | h
  · rw [if_pos h]
  · rw [h, if_neg (lt_irrefl _), if_pos F.dur_nonneg, F.core_zero]

theorem fits_arrive {q : Quad3} {t1 t2 : ℝ} (F : q.Fits t1 t2) (t : ℝ) (ht : q.duration ≤ t) : q.pos t = q.endpos := by
  rw [F.pos_eq, if_neg (not_lt.mpr (F.dur_nonneg.trans ht))]
  rcases lt_or_eq_of_le ht with h | h
  · rw [if_neg (not_le.mpr h)]
  · rw [← h, if_pos le_rfl, F.core_dur]

/-- On `[0,duration]` the one sided derivatives are given by `Vel` too. -/
theorem fits_within {q : Quad3} {t1 t2 : ℝ} (F : q.Fits t1 t2) (t : ℝ) (ht : t ∈ Set.Icc 0 q.duration) :
    HasDerivWithinAt q.pos (q.vel t) (Set.Icc 0 q.duration) t := by
  have hv : q.vel t = q.core' t1 t2 t := by
    rw [F.vel_eq, if_neg (not_lt.mpr ht.1), if_pos ht.2]
  rw [hv]
  refine (F.core_hasDerivAt t).hasDerivWithinAt.congr ?_ ?_
  · intro x hx
    rw [F.pos_eq, if_neg (not_lt.mpr hx.1), if_pos hx.2]
  · rw [F.pos_eq, if_neg (not_lt.mpr ht.1), if_pos ht.2]

theorem plan1_core' {pos1 pos2 t1 t2 D v a : ℝ} (hv : v = a * (t2 - t1)) (h1 : t1 ≤ t2) (t : ℝ) :
    (TrapHalf.plan1 pos1 pos2 t1 t2 D v a).core' t1 t2 t = a * (min (max t t1) t2 - t1) := by
  simp only [TrapHalf.plan1, Quad3.core', Quad3.A', Quad3.B', Quad3.C']
  split_ifs with c1 c2
  · rw [max_eq_right c1.le, min_eq_left h1]; ring
  · rw [max_eq_left (not_lt.mp c1), min_eq_left c2.le]; ring
  · rw [max_eq_left (not_lt.mp c1), min_eq_right (not_lt.mp c2), hv]; ring

theorem plan2_core' {pos1 pos2 t1 t2 D v a : ℝ} (hv : v = a * (t2 - t1)) (h1 : t1 ≤ t2) (t : ℝ) :
    (TrapHalf.plan2 pos1 pos2 t1 t2 D v a).core' t1 t2 t = a * (t2 - min (max t t1) t2) := by
  simp only [TrapHalf.plan2, Quad3.core', Quad3.A', Quad3.B', Quad3.C']
  split_ifs with c1 c2
  · rw [max_eq_right c1.le, min_eq_left h1, hv]; ring
  · rw [max_eq_left (not_lt.mp c1), min_eq_left c2.le]; ring
  · rw [max_eq_left (not_lt.mp c1), min_eq_right (not_lt.mp c2)]; ring

theorem plan1_law {pos1 pos2 t1 t2 D v a V : ℝ} (h0 : 0 ≤ t1) (h1 : t1 ≤ t2) (h2 : t2 ≤ D) (hD : 0 < D)
    (hv : v = a * (t2 - t1)) (hd : pos2 - pos1 = v * (D - t2) + a * (t2 - t1) ^ 2 / 2) (hV : |v| ≤ V)
    (ha : 0 ≤ (pos2 - pos1) * a) :
    HalfLaw (TrapHalf.plan1 pos1 pos2 t1 t2 D v a) true pos1 pos2 v V |a| := by
  have F := plan1_fits h0 h1 h2 hv hd
  have hcl : ∀ t, 0 ≤ min (max t t1) t2 - t1 ∧ min (max t t1) t2 - t1 ≤ t2 - t1 := fun t =>
    ⟨sub_nonneg.mpr (le_min (le_max_right _ _) h1), sub_le_sub_right (min_le_right _ _) _⟩
  have hc0 : (TrapHalf.plan1 pos1 pos2 t1 t2 D v a).core' t1 t2 0 = 0 := by
    rw [plan1_core' hv h1, max_eq_right h0, min_eq_left h1]; ring
  have hvel : ∀ t, (TrapHalf.plan1 pos1 pos2 t1 t2 D v a).vel t = 0 ∨
      (TrapHalf.plan1 pos1 pos2 t1 t2 D v a).vel t = a * (min (max t t1) t2 - t1) := by
    intro t
    rw [F.vel_eq, plan1_core' hv h1]
    split_ifs
    · exact Or.inl rfl
    · exact Or.inr rfl
    · exact Or.inl rfl
  have hV0 : 0 ≤ V := (abs_nonneg v).trans hV
  refine ⟨fits_start F, fits_arrive F, F.dur_nonneg, ?_, fun _ => fits_within F _ ⟨F.dur_nonneg, le_rfl⟩, ?_, ?_, ?_,
    ?_, ?_, ?_⟩
  · intro t ht
    rw [if_pos rfl] at ht
    rcases lt_or_ge 0 t with h | h
    · exact F.hasDerivAt_inside h ht
    · have hv0 : (TrapHalf.plan1 pos1 pos2 t1 t2 D v a).vel t = 0 := by
        rw [F.vel_eq]
        rcases lt_or_eq_of_le h with h | h
        · rw [if_pos h]
        · rw [h, if_neg (lt_irrefl _), if_pos F.dur_nonneg, hc0]
      rw [hv0]
      have k := hasDerivAt_glue (g := fun _ => pos1) (g' := fun _ => 0) (c := 0)
        (fun x => hasDerivAt_const x pos1) F.core_hasDerivAt F.core_zero.symm hc0.symm t
      have e : (if t < 0 then (0:ℝ) else (TrapHalf.plan1 pos1 pos2 t1 t2 D v a).core' t1 t2 t) = 0 := by
        rcases lt_or_eq_of_le h with h | h
        · rw [if_pos h]
        · rw [h, if_neg (lt_irrefl _), hc0]
      rw [e] at k
      refine k.congr_of_eventuallyEq ?_
      filter_upwards [Iio_mem_nhds (lt_of_le_of_lt h hD)] with x hx
      have hx' : x ≤ (TrapHalf.plan1 pos1 pos2 t1 t2 D v a).duration := le_of_lt hx
      rw [F.pos_eq, if_pos hx']
      rfl
  · intro h; cases h
  · rw [F.vel_eq, if_neg (lt_irrefl _), if_pos F.dur_nonneg, hc0]; rfl
  · rw [F.vel_eq, if_neg (not_lt.mpr F.dur_nonneg), if_pos le_rfl, plan1_core' hv h1]
    have hD' : (TrapHalf.plan1 pos1 pos2 t1 t2 D v a).duration = D := rfl
    rw [hD', max_eq_left (h1.trans h2), min_eq_right h2, ← hv]; rfl
  · intro t
    rcases hvel t with h | h <;> rw [h]
    · simpa using hV0
    · rw [abs_mul, abs_of_nonneg (hcl t).1]
      calc |a| * (min (max t t1) t2 - t1) ≤ |a| * (t2 - t1) := mul_le_mul_of_nonneg_left (hcl t).2 (abs_nonneg _)
        _ = |v| := by rw [hv, abs_mul, abs_of_nonneg (sub_nonneg.mpr h1)]
        _ ≤ V := hV
  · intro t
    unfold Quad3.acc
    split_ifs <;> simp [TrapHalf.plan1]
    rw [abs_div, abs_two]; linarith
  · intro t
    rcases hvel t with h | h <;> rw [h]
    · simp
    · rw [← mul_assoc]; exact mul_nonneg ha (hcl t).1

theorem plan2_law {pos1 pos2 t1 t2 D v a V : ℝ} (h0 : 0 ≤ t1) (h1 : t1 ≤ t2) (h2 : t2 ≤ D) (hD : 0 < D)
    (hv : v = a * (t2 - t1)) (hd : pos2 - pos1 = v * t1 + a * (t2 - t1) ^ 2 / 2) (hV : |v| ≤ V)
    (ha : 0 ≤ (pos2 - pos1) * a) :
    HalfLaw (TrapHalf.plan2 pos1 pos2 t1 t2 D v a) false pos1 pos2 v V |a| := by
  have F := plan2_fits h0 h1 h2 hv hd
  have hcl : ∀ t, 0 ≤ t2 - min (max t t1) t2 ∧ t2 - min (max t t1) t2 ≤ t2 - t1 := fun t =>
    ⟨sub_nonneg.mpr (min_le_right _ _), sub_le_sub_left (le_min (le_max_right _ _) h1) _⟩
  have hD' : (TrapHalf.plan2 pos1 pos2 t1 t2 D v a).duration = D := rfl
  have hcD : (TrapHalf.plan2 pos1 pos2 t1 t2 D v a).core' t1 t2 (TrapHalf.plan2 pos1 pos2 t1 t2 D v a).duration
      = 0 := by
    rw [plan2_core' hv h1, hD', max_eq_left (h1.trans h2), min_eq_right h2]; ring
  have hvel : ∀ t, (TrapHalf.plan2 pos1 pos2 t1 t2 D v a).vel t = 0 ∨
      (TrapHalf.plan2 pos1 pos2 t1 t2 D v a).vel t = a * (t2 - min (max t t1) t2) := by
    intro t
    rw [F.vel_eq, plan2_core' hv h1]
    split_ifs
    · exact Or.inl rfl
    · exact Or.inr rfl
    · exact Or.inl rfl
  have hV0 : 0 ≤ V := (abs_nonneg v).trans hV
  refine ⟨fits_start F, fits_arrive F, F.dur_nonneg, ?_, ?_, fun _ => fits_within F _ ⟨le_rfl, F.dur_nonneg⟩, ?_, ?_,
    ?_, ?_, ?_⟩
  · intro t ht
    rw [if_neg (by simp)] at ht
    have k := hasDerivAt_glue_le (h := fun _ => pos2) (h' := fun _ => 0)
        (c := (TrapHalf.plan2 pos1 pos2 t1 t2 D v a).duration) F.core_hasDerivAt
        (fun x => hasDerivAt_const x pos2) F.core_dur hcD t
    rw [F.vel_eq, if_neg ht.not_gt]
    refine k.congr_of_eventuallyEq ?_
    filter_upwards [Ioi_mem_nhds ht] with x hx
    rw [F.pos_eq, if_neg (Set.mem_Ioi.mp hx).not_gt]
    rfl
  · intro h; cases h
  · rw [F.vel_eq, if_neg (lt_irrefl _), if_pos F.dur_nonneg, plan2_core' hv h1, max_eq_right h0, min_eq_left h1, ← hv]
    rfl
  · rw [F.vel_eq, if_neg (not_lt.mpr F.dur_nonneg), if_pos le_rfl, hcD]; rfl
  · intro t
    rcases hvel t with h | h <;> rw [h]
    · simpa using hV0
    · rw [abs_mul, abs_of_nonneg (hcl t).1]
      calc |a| * (t2 - min (max t t1) t2) ≤ |a| * (t2 - t1) := mul_le_mul_of_nonneg_left (hcl t).2 (abs_nonneg _)
        _ = |v| := by rw [hv, abs_mul, abs_of_nonneg (sub_nonneg.mpr h1)]
        _ ≤ V := hV
  · intro t
    unfold Quad3.acc
    split_ifs <;> simp [TrapHalf.plan2]
    rw [abs_div, abs_two, abs_neg]; linarith
  · intro t
    rcases hvel t with h | h <;> rw [h]
    · simp
    · rw [← mul_assoc]; exact mul_nonneg ha (hcl t).1

/-- The velocity reached: the maximum, or less if the distance is too short. -/
def reachable (h : TrapHalf) (dx : ℝ) : ℝ := min h.maxvel (Real.sqrt (2 * |dx| * h.maxacc))

/-- The time `SetProfile` needs. -/
def halfDuration (h : TrapHalf) (dx : ℝ) : ℝ :=
  |dx| / reachable h dx + reachable h dx / h.maxacc / 2

theorem reachable_pos (h : TrapHalf) (hv : 0 < h.maxvel) (ha : 0 < h.maxacc) {dx : ℝ} (hx : dx ≠ 0) :
    0 < reachable h dx :=
  lt_min hv (Real.sqrt_pos.mpr (by have := abs_pos.mpr hx; positivity))

theorem reachable_sq (h : TrapHalf) (hv : 0 < h.maxvel) (ha : 0 < h.maxacc) {dx : ℝ} (hx : dx ≠ 0) :
    reachable h dx ^ 2 ≤ 2 * |dx| * h.maxacc := by
  have h1 : reachable h dx ≤ Real.sqrt (2 * |dx| * h.maxacc) := min_le_right _ _
  have h2 := (reachable_pos h hv ha hx).le
  calc reachable h dx ^ 2 ≤ Real.sqrt (2 * |dx| * h.maxacc) ^ 2 := by gcongr
    _ = 2 * |dx| * h.maxacc := Real.sq_sqrt (by have := abs_pos.mpr hx; positivity)

theorem setProfile_half_eq (h : TrapHalf) (hv : 0 < h.maxvel) (ha : 0 < h.maxacc) (pos1 pos2 : ℝ)
    (hne : pos1 ≠ pos2) :
    h.setProfile pos1 pos2 = .ok (if h.starting then
      TrapHalf.plan1 pos1 pos2 0 (reachable h (pos2 - pos1) / h.maxacc) (halfDuration h (pos2 - pos1))
        (reachable h (pos2 - pos1) * sgn (pos2 - pos1)) (h.maxacc * sgn (pos2 - pos1))
      else TrapHalf.plan2 pos1 pos2 (halfDuration h (pos2 - pos1) - reachable h (pos2 - pos1) / h.maxacc)
        (halfDuration h (pos2 - pos1)) (halfDuration h (pos2 - pos1))
        (sgn (pos2 - pos1) * reachable h (pos2 - pos1)) (sgn (pos2 - pos1) * h.maxacc)) := by
  have hx : pos2 - pos1 ≠ 0 := sub_ne_zero.mpr (Ne.symm hne)
  have hn : ¬ (h.maxvel ≤ 0 ∨ h.maxacc ≤ 0) := by rintro (h | h) <;> linarith
  have hr : min h.maxvel (Real.sqrt (2 * sgn (pos2 - pos1) * (pos2 - pos1) * h.maxacc)) = reachable h (pos2 - pos1) := by
    unfold reachable; rw [mul_assoc 2, sgn_mul]
  unfold TrapHalf.setProfile
  rw [if_neg hn]
  dsimp only
  rw [hr, if_neg (reachable_pos h hv ha hx).ne', sgn_mul]
  cases h.starting <;> rfl

theorem half_times (h : TrapHalf) (hv : 0 < h.maxvel) (ha : 0 < h.maxacc) {dx : ℝ} (hx : dx ≠ 0) :
    reachable h dx / h.maxacc ≤ halfDuration h dx := by
  have hp := reachable_pos h hv ha hx
  have h2 := reachable_sq h hv ha hx
  have : reachable h dx / h.maxacc / 2 ≤ |dx| / reachable h dx := by
    rw [le_div_iff₀ hp, div_div, div_mul_eq_mul_div, div_le_iff₀ (by positivity)]
    nlinarith
  unfold halfDuration
  linarith

/-- **C57 (SetProfile).**  With a displacement, the planned motion leaves rest in `pos1` (or arrives at rest in
`pos2`), passes the other end with the largest velocity that the distance and the limits allow, and keeps both
limits. -/
theorem C57_setProfile (h : TrapHalf) (hv : 0 < h.maxvel) (ha : 0 < h.maxacc) (pos1 pos2 : ℝ) (hne : pos1 ≠ pos2) :
    ∃ q, h.setProfile pos1 pos2 = .ok q ∧ q.duration = halfDuration h (pos2 - pos1) ∧
      HalfLaw q h.starting pos1 pos2 (sgn (pos2 - pos1) * reachable h (pos2 - pos1)) h.maxvel h.maxacc := by
  have hx : pos2 - pos1 ≠ 0 := sub_ne_zero.mpr (Ne.symm hne)
  have hp := reachable_pos h hv ha hx
  have ht := half_times h hv ha hx
  have hq : 0 < reachable h (pos2 - pos1) / h.maxacc := div_pos hp ha
  have haa : |sgn (pos2 - pos1) * h.maxacc| = h.maxacc := by rw [abs_mul, abs_sgn, one_mul, abs_of_pos ha]
  have hvv : |sgn (pos2 - pos1) * reachable h (pos2 - pos1)| ≤ h.maxvel := by
    rw [abs_mul, abs_sgn, one_mul, abs_of_pos hp]; exact min_le_left _ _
  have hdir : 0 ≤ (pos2 - pos1) * (sgn (pos2 - pos1) * h.maxacc) := by
    rw [← mul_assoc, mul_comm (pos2 - pos1), sgn_mul]; positivity
  have ha' := ha.ne'
  have hp' := hp.ne'
  have hdisp : ∀ s d r : ℝ, r ≠ 0 → s * r * (d / r + r / h.maxacc / 2 - r / h.maxacc)
      + s * h.maxacc * (r / h.maxacc) ^ 2 / 2 = s * d := by
    intro s d r hr
    field_simp
    ring
  refine ⟨_, setProfile_half_eq h hv ha pos1 pos2 hne, ?_, ?_⟩
  · cases h.starting <;> rfl
  · cases hs : h.starting
    · rw [if_neg (by simp)]
      conv => arg 7; rw [← haa]
      refine plan2_law (by linarith) (by linarith) le_rfl (hq.trans_le ht) ?_ ?_ hvv hdir
      · rw [sub_sub_cancel, mul_assoc, mul_div_cancel₀ _ ha']
      · rw [sub_sub_cancel]
        have := hdisp (sgn (pos2 - pos1)) |pos2 - pos1| _ hp'
        rw [sgn_abs] at this
        exact this.symm
    · rw [if_pos rfl, mul_comm (reachable h (pos2 - pos1)), mul_comm h.maxacc]
      conv => arg 7; rw [← haa]
      refine plan1_law le_rfl hq.le ht (hq.trans_le ht) ?_ ?_ hvv hdir
      · rw [sub_zero, mul_assoc, mul_div_cancel₀ _ ha']
      · rw [sub_zero]
        have := hdisp (sgn (pos2 - pos1)) |pos2 - pos1| _ hp'
        rw [sgn_abs] at this
        exact this.symm

/-- The acceleration that `SetProfileDuration` uses for a prolonged profile of duration `T`. -/
def prolongedAcc (h : TrapHalf) (dx T : ℝ) : ℝ :=
  if 2 * |dx| / h.maxvel > T then h.maxvel ^ 2 / (2 * (h.maxvel * T - |dx|)) else h.maxvel ^ 2 / (2 * |dx|)

theorem half_room (h : TrapHalf) (hv : 0 < h.maxvel) (ha : 0 < h.maxacc) {dx T : ℝ} (hx : dx ≠ 0)
    (hT : halfDuration h dx ≤ T) : |dx| < h.maxvel * T := by
  have hp := reachable_pos h hv ha hx
  have hr : reachable h dx ≤ h.maxvel := min_le_left _ _
  have h1 : |dx| / h.maxvel ≤ |dx| / reachable h dx := by
    apply div_le_div_of_nonneg_left (abs_nonneg _) hp hr
  have h2 : 0 < reachable h dx / h.maxacc / 2 := by positivity
  have h3 : |dx| / h.maxvel < T := by unfold halfDuration at hT; linarith
  rw [div_lt_iff₀ hv] at h3
  linarith

/-- **C57 (SetProfileDuration, prolonging).**  For a requested duration that is not shorter than the minimal one, the
profile takes exactly that long, connects the positions, and passes the moving end with the maximum velocity.  The
acceleration is `prolongedAcc`; nothing bounds it by `maxacc`, see below. -/
theorem C57_prolong (h : TrapHalf) (hv : 0 < h.maxvel) (ha : 0 < h.maxacc) (pos1 pos2 T : ℝ) (hne : pos1 ≠ pos2)
    (hT : halfDuration h (pos2 - pos1) ≤ T) :
    ∃ q, h.setProfileDuration pos1 pos2 T = .ok q ∧ q.duration = T ∧
      HalfLaw q h.starting pos1 pos2 (sgn (pos2 - pos1) * h.maxvel) h.maxvel
        (prolongedAcc h (pos2 - pos1) T) := by
  have hx : pos2 - pos1 ≠ 0 := sub_ne_zero.mpr (Ne.symm hne)
  have hp := reachable_pos h hv ha hx
  have ht := half_times h hv ha hx
  have hq : 0 < reachable h (pos2 - pos1) / h.maxacc := div_pos hp ha
  have hTp : 0 < T := hq.trans_le (ht.trans hT)
  have room := half_room h hv ha hx hT
  have hs := sgn_ne (pos2 - pos1)
  have hax : 0 < |pos2 - pos1| := abs_pos.mpr hx
  obtain ⟨q0, e0, ed, -⟩ := C57_setProfile h hv ha pos1 pos2 hne
  unfold TrapHalf.setProfileDuration
  rw [e0]
  dsimp only
  have hnf : ¬ (T = 0 ∨ q0.duration / T > 1) := by
    rintro (h | h)
    · exact hTp.ne' h
    · rw [ed, gt_iff_lt, one_lt_div hTp] at h; linarith
  rw [if_neg hnf]
  have e1 : 2 * sgn (pos2 - pos1) * (pos2 - pos1) = 2 * |pos2 - pos1| := by rw [mul_assoc, sgn_mul]
  have e2 : sgn (pos2 - pos1) * h.maxvel * T - (pos2 - pos1) = sgn (pos2 - pos1) * (h.maxvel * T - |pos2 - pos1|) := by
    rw [mul_sub, sgn_abs]; ring
  have e3 : sgn (pos2 - pos1) * h.maxvel * (sgn (pos2 - pos1) * h.maxvel) = h.maxvel ^ 2 := by
    linear_combination h.maxvel ^ 2 * sgn_sq (pos2 - pos1)
  have hroom : 0 < h.maxvel * T - |pos2 - pos1| := by linarith
  have hvv : |sgn (pos2 - pos1) * h.maxvel| ≤ h.maxvel := by
    rw [abs_mul, abs_sgn, one_mul, abs_of_pos hv]
  have sinv : ∀ x y : ℝ, x / 2 / (sgn (pos2 - pos1) * y) = sgn (pos2 - pos1) * (x / (2 * y)) := fun x y => by
    have : (sgn (pos2 - pos1))⁻¹ = sgn (pos2 - pos1) := by
      exact inv_eq_of_mul_eq_one_left (sgn_sq _)
    rw [div_eq_mul_inv, mul_inv, this, div_eq_mul_inv, div_eq_mul_inv, mul_inv]; ring
  rw [e1, e2, e3]
  have hsa : ∀ y : ℝ, 0 < y → |sgn (pos2 - pos1) * y| = y := fun y hy => by
    rw [abs_mul, abs_sgn, one_mul, abs_of_pos hy]
  have hdir : ∀ y : ℝ, 0 < y → 0 ≤ (pos2 - pos1) * (sgn (pos2 - pos1) * y) := fun y hy => by
    rw [← mul_assoc, mul_comm (pos2 - pos1), sgn_mul]; positivity
  have svd : ∀ y : ℝ, y ≠ 0 → sgn (pos2 - pos1) * h.maxvel / (sgn (pos2 - pos1) * y) = h.maxvel / y := fun y hy => by
    rw [mul_div_mul_left _ _ hs]
  have hv' := hv.ne'
  unfold prolongedAcc
  by_cases c : 2 * |pos2 - pos1| / h.maxvel > T
  · rw [if_pos c, if_neg (mul_ne_zero hs hroom.ne'), sinv, if_pos c]
    set A := h.maxvel ^ 2 / (2 * (h.maxvel * T - |pos2 - pos1|)) with hA
    have hAp : 0 < A := by positivity
    rw [svd A hAp.ne']
    have et : h.maxvel / A = 2 * (h.maxvel * T - |pos2 - pos1|) / h.maxvel := by
      rw [hA]; field_simp
    have etp : 0 < h.maxvel / A := div_pos hv hAp
    have etT : h.maxvel / A ≤ T := by
      rw [et, div_le_iff₀ hv]
      rw [gt_iff_lt, lt_div_iff₀ hv] at c
      linarith
    have disp : sgn (pos2 - pos1) * h.maxvel * (T - h.maxvel / A)
        + sgn (pos2 - pos1) * A * (h.maxvel / A) ^ 2 / 2 = pos2 - pos1 := by
      have : h.maxvel * (T - h.maxvel / A) + A * (h.maxvel / A) ^ 2 / 2 = |pos2 - pos1| := by
        have : A * (h.maxvel / A) ^ 2 / 2 = h.maxvel * (h.maxvel / A) / 2 := by field_simp
        rw [this, et]
        field_simp
        ring
      have k := sgn_abs (pos2 - pos1)
      rw [← this] at k
      linear_combination k
    cases hs : h.starting
    · refine ⟨_, rfl, rfl, ?_⟩
      conv => arg 7; rw [← hsa A hAp]
      refine plan2_law (by linarith) (by linarith) le_rfl hTp ?_ ?_ hvv (hdir A hAp)
      · rw [sub_sub_cancel, mul_assoc, mul_div_cancel₀ _ hAp.ne']
      · rw [sub_sub_cancel]; exact disp.symm
    · refine ⟨_, rfl, rfl, ?_⟩
      conv => arg 7; rw [← hsa A hAp]
      refine plan1_law le_rfl etp.le etT hTp ?_ ?_ hvv (hdir A hAp)
      · rw [sub_zero, mul_assoc, mul_div_cancel₀ _ hAp.ne']
      · rw [sub_zero]; exact disp.symm
  · rw [if_neg c, if_neg c]
    have ea : h.maxvel ^ 2 / 2 / (pos2 - pos1) = sgn (pos2 - pos1) * (h.maxvel ^ 2 / (2 * |pos2 - pos1|)) := by
      have := sinv (h.maxvel ^ 2) |pos2 - pos1|
      rwa [sgn_abs] at this
    rw [ea]
    set A := h.maxvel ^ 2 / (2 * |pos2 - pos1|) with hA
    have hAp : 0 < A := by positivity
    rw [svd A hAp.ne']
    have et : h.maxvel / A = 2 * |pos2 - pos1| / h.maxvel := by
      rw [hA]; field_simp
    have etp : 0 < h.maxvel / A := div_pos hv hAp
    have etT : h.maxvel / A ≤ T := by rw [et]; exact not_lt.mp c
    have disp : sgn (pos2 - pos1) * A * (h.maxvel / A) ^ 2 / 2 = pos2 - pos1 := by
      have : A * (h.maxvel / A) ^ 2 / 2 = |pos2 - pos1| := by
        have : A * (h.maxvel / A) ^ 2 / 2 = h.maxvel * (h.maxvel / A) / 2 := by field_simp
        rw [this, et]
        field_simp
      rw [mul_assoc, mul_div_assoc, this, sgn_abs]
    cases hs : h.starting
    · refine ⟨_, rfl, rfl, ?_⟩
      conv => arg 7; rw [← hsa A hAp]
      refine plan2_law le_rfl etp.le etT hTp ?_ ?_ hvv (hdir A hAp)
      · rw [sub_zero, mul_assoc, mul_div_cancel₀ _ hAp.ne']
      · rw [sub_zero, mul_zero, zero_add]; exact disp.symm
    · refine ⟨_, rfl, rfl, ?_⟩
      conv => arg 7; rw [← hsa A hAp]
      refine plan1_law (by linarith) (by linarith) le_rfl hTp ?_ ?_ hvv (hdir A hAp)
      · rw [sub_sub_cancel, mul_assoc, mul_div_cancel₀ _ hAp.ne']
      · rw [sub_sub_cancel, sub_self, mul_zero, zero_add]; exact disp.symm

/-- **C57 (SetProfileDuration, short requests).**  A request below the minimal duration gives the `SetProfile`
result. -/
theorem C57_short (h : TrapHalf) (hv : 0 < h.maxvel) (ha : 0 < h.maxacc) (pos1 pos2 T : ℝ) (hne : pos1 ≠ pos2)
    (h0 : 0 ≤ T) (hT : T < halfDuration h (pos2 - pos1)) :
    h.setProfileDuration pos1 pos2 T = h.setProfile pos1 pos2 := by
  obtain ⟨q0, e0, ed, -⟩ := C57_setProfile h hv ha pos1 pos2 hne
  unfold TrapHalf.setProfileDuration
  rw [e0]
  dsimp only
  rw [if_pos]
  by_cases c : T = 0
  · exact Or.inl c
  · right
    have : 0 < T := lt_of_le_of_ne h0 (Ne.symm c)
    rw [ed, gt_iff_lt, one_lt_div this]; exact hT

/-- The documented limit: the acceleration of every planned profile is at most `maxacc`. -/
def HalfAccBounded : Prop :=
  ∀ (h : TrapHalf) (pos1 pos2 T : ℝ) (q : Quad3), 0 < h.maxvel → 0 < h.maxacc → pos1 ≠ pos2 → 0 < T →
    h.setProfileDuration pos1 pos2 T = .ok q → ∀ t, |q.acc t| ≤ h.maxacc

/-- **C57, violated:** prolonging a short motion exceeds the maximum acceleration.  With limits 10 and 1, a distance of
1 and a requested duration of 2 the acceleration is 50. -/
theorem C57_acc_bounded_violated : ¬ HalfAccBounded := by
  intro H
  set h : TrapHalf := ⟨10, 1, true⟩ with hh
  have hv : 0 < h.maxvel := by simp [hh]
  have ha : 0 < h.maxacc := by simp [hh]
  have hr : reachable h (1 - 0) = Real.sqrt 2 := by
    unfold reachable
    simp only [hh, sub_zero, abs_one, mul_one]
    rw [min_eq_right]
    rw [Real.sqrt_le_iff]
    norm_num
  have hd : halfDuration h (1 - 0) ≤ 2 := by
    unfold halfDuration
    rw [hr]
    have h1 : (0:ℝ) < Real.sqrt 2 := by positivity
    have h2 : Real.sqrt 2 * Real.sqrt 2 = 2 := Real.mul_self_sqrt (by norm_num)
    have h3 : Real.sqrt 2 ≤ 3 / 2 := by rw [Real.sqrt_le_iff]; norm_num
    have h4 : 1 / Real.sqrt 2 = Real.sqrt 2 / 2 := by
      rw [div_eq_div_iff h1.ne' (by norm_num), one_mul, h2]
    simp only [hh, sub_zero, abs_one, div_one]
    rw [h4]; linarith
  have hset : h.setProfileDuration 0 1 2 = .ok (TrapHalf.plan1 0 1 (2 - 10 / 50) 2 2 10 50) := by
    obtain ⟨q0, e0, ed, -⟩ := C57_setProfile h hv ha 0 1 (by norm_num)
    unfold TrapHalf.setProfileDuration
    rw [e0]
    dsimp only
    rw [if_neg]
    · simp only [hh, sgn]
      norm_num
    · rintro (h | h)
      · norm_num at h
      · rw [ed, gt_iff_lt, one_lt_div (by norm_num)] at h; linarith
  have := H h 0 1 2 _ hv ha (by norm_num) (by norm_num) hset 1.9
  have e : (TrapHalf.plan1 0 1 (2 - 10 / 50) 2 2 10 50).acc 1.9 = 50 := by
    simp only [Quad3.acc, TrapHalf.plan1, ltN_some]
    norm_num
  rw [e] at this
  simp only [hh] at this
  norm_num at this

/-- **C57, what holds:** if the distance suffices to reach the maximum velocity, every prolonged profile keeps the
acceleration limit. -/
theorem C57_acc_bounded_partial (h : TrapHalf) (hv : 0 < h.maxvel) (ha : 0 < h.maxacc) (pos1 pos2 T : ℝ)
    (hne : pos1 ≠ pos2) (hfull : h.maxvel ^ 2 ≤ 2 * |pos2 - pos1| * h.maxacc) (h0 : 0 ≤ T) (q : Quad3)
    (hq : h.setProfileDuration pos1 pos2 T = .ok q) :
    HalfLaw q h.starting pos1 pos2 (sgn (pos2 - pos1) * h.maxvel) h.maxvel h.maxacc ∧
      q.duration = max T (halfDuration h (pos2 - pos1)) := by
  have hx : pos2 - pos1 ≠ 0 := sub_ne_zero.mpr (Ne.symm hne)
  have hax : 0 < |pos2 - pos1| := abs_pos.mpr hx
  have hr : reachable h (pos2 - pos1) = h.maxvel := by
    unfold reachable
    exact min_eq_left (Real.le_sqrt_of_sq_le hfull)
  by_cases hT : halfDuration h (pos2 - pos1) ≤ T
  · obtain ⟨q', e, ed, l⟩ := C57_prolong h hv ha pos1 pos2 T hne hT
    rw [hq] at e; cases e
    refine ⟨?_, by rw [ed, max_eq_left hT]⟩
    have hA : prolongedAcc h (pos2 - pos1) T ≤ h.maxacc := by
      unfold prolongedAcc
      split_ifs
      · have room := half_room h hv ha hx hT
        rw [div_le_iff₀ (by linarith)]
        unfold halfDuration at hT
        rw [hr] at hT
        have : |pos2 - pos1| + h.maxvel ^ 2 / h.maxacc / 2 ≤ h.maxvel * T := by
          calc |pos2 - pos1| + h.maxvel ^ 2 / h.maxacc / 2
              = h.maxvel * (|pos2 - pos1| / h.maxvel + h.maxvel / h.maxacc / 2) := by field_simp
            _ ≤ _ := mul_le_mul_of_nonneg_left hT hv.le
        have h3 : h.maxvel ^ 2 / h.maxacc / 2 ≤ h.maxvel * T - |pos2 - pos1| := by linarith
        rw [div_div, div_le_iff₀ (by positivity)] at h3
        linarith
      · rw [div_le_iff₀ (by positivity)]
        linarith
    exact ⟨l.start, l.arrive, l.dur, l.deriv, l.left, l.right, l.vel0, l.velD, l.vmax,
      fun t => (l.amax t).trans hA, l.dir⟩
  · push Not at hT
    rw [C57_short h hv ha pos1 pos2 T hne h0 hT] at hq
    obtain ⟨q', e, ed, l⟩ := C57_setProfile h hv ha pos1 pos2 hne
    rw [hq] at e; cases e
    rw [hr] at l
    exact ⟨l, by rw [ed, max_eq_right hT.le]⟩

/-- **C57 (no displacement).**  Planning a motion without displacement computes `0/0` for the duration. -/
theorem C57_zero_displacement (h : TrapHalf) (hv : 0 < h.maxvel) (ha : 0 < h.maxacc) (x : ℝ) :
    h.setProfile x x = .nan := by
  have hn : ¬ (h.maxvel ≤ 0 ∨ h.maxacc ≤ 0) := by rintro (h | h) <;> linarith
  unfold TrapHalf.setProfile
  rw [if_neg hn]
  simp [hv.le]

/-- Non-vacuity: from 0 to 1 with limits 1 and 1, starting from rest, takes 1.5 s and ends with speed 1. -/
example : halfDuration ⟨1, 1, true⟩ (1 - 0) = 3 / 2 ∧ reachable ⟨1, 1, true⟩ (1 - 0) = 1 := by
  have hr : reachable ⟨1, 1, true⟩ (1 - 0) = 1 := by
    unfold reachable
    rw [min_eq_left]
    apply Real.le_sqrt_of_sq_le
    norm_num
  refine ⟨?_, hr⟩
  unfold halfDuration
  rw [hr]; norm_num

end KDL
