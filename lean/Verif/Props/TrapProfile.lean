import Mathlib.Analysis.Calculus.Deriv.MeanValue
import Verif.Lemmas.VelocityProfile

/-!
# C56: trapezoidal velocity profile

`VelocityProfile_Trap`, velocityprofile_trap.cpp.  Throughout `maxvel` and `maxacc` are positive.
-/

noncomputable section

namespace KDL

open Classical

/-- what a rest-to-rest motion law from `pos1` to `pos2` within the limits `V` on the velocity and `A` on the
acceleration has to satisfy -/
structure MotionLaw (q : Quad3) (pos1 pos2 V A : ℝ) : Prop where
  /-- the motion has not started before time 0 … -/
  start : ∀ t ≤ 0, q.pos t = pos1
  /-- … and has arrived at `Duration()` -/
  arrive : ∀ t, q.duration ≤ t → q.pos t = pos2
  dur : 0 ≤ q.duration
  /-- `Vel` is the derivative of `Pos` at every time -/
  deriv : ∀ t, HasDerivAt q.pos (q.vel t) t
  /-- velocity limit -/
  vmax : ∀ t, |q.vel t| ≤ V
  /-- the velocity changes at a rate of at most `A`; in particular it is continuous -/
  lip : ∀ t u, |q.vel t - q.vel u| ≤ A * |t - u|
  /-- acceleration limit for the reported acceleration -/
  amax : ∀ t, |q.acc t| ≤ A
  /-- the motion never goes backwards: velocity and displacement have the same sign -/
  dir : ∀ t, 0 ≤ (pos2 - pos1) * q.vel t

theorem lip_trap (D t1 t u : ℝ) :
    |max 0 (min (min t t1) (D - t)) - max 0 (min (min u t1) (D - u))| ≤ |t - u| := by
  have h1 : |max 0 (min (min t t1) (D - t)) - max 0 (min (min u t1) (D - u))|
      ≤ |min (min t t1) (D - t) - min (min u t1) (D - u)| := by
    refine (abs_max_sub_max_le_max _ _ _ _).trans (max_le ?_ le_rfl)
    simp
  refine h1.trans ((abs_min_sub_min_le_max _ _ _ _).trans (max_le ?_ ?_))
  · refine (abs_min_sub_min_le_max _ _ _ _).trans (max_le le_rfl ?_)
    simp
  · rw [abs_sub_comm t u]
    apply le_of_eq; congr 1; ring

theorem coefs_law {A V pos1 pos2 t1 t2 : ℝ} (hA : 0 < A) (h0 : 0 ≤ t1) (h1 : t1 ≤ t2)
    (hV : A * t1 ≤ V) (hd : A * t1 * t2 = |pos2 - pos1|) :
    MotionLaw (TrapProfile.coefs (sgn (pos2 - pos1)) A pos1 pos2 t1 t2 (t1 + t2)) pos1 pos2 V A := by
  have hd' : sgn (pos2 - pos1) * (A * t1 * t2) = pos2 - pos1 := by rw [hd, sgn_abs]
  have F := TrapProfile.coefs_fits (s := sgn (pos2 - pos1)) (A := A) h0 h1 hd'
  have hvel := TrapProfile.coefs_vel (s := sgn (pos2 - pos1)) (A := A) h0 h1 hd'
  have hm : ∀ t, 0 ≤ max 0 (min (min t t1) (t1 + t2 - t)) ∧ max 0 (min (min t t1) (t1 + t2 - t)) ≤ t1 := fun t =>
    ⟨le_max_left _ _, max_le h0 ((min_le_left _ _).trans (min_le_right _ _))⟩
  refine ⟨?_, ?_, F.dur_nonneg, ?_, ?_, ?_, ?_, ?_⟩
  · intro t ht
    rw [F.pos_eq]
    rcases lt_or_eq_of_le ht with h | h
    · rw [if_pos h]; rfl
    · rw [h, if_neg (lt_irrefl _), if_pos F.dur_nonneg, F.core_zero]; rfl
  · intro t ht
    rw [F.pos_eq, if_neg (not_lt.mpr (F.dur_nonneg.trans ht))]
    rcases lt_or_eq_of_le ht with h | h
    · rw [if_neg (not_le.mpr h)]; rfl
    · rw [← h, if_pos le_rfl, F.core_dur]; rfl
  · refine F.hasDerivAt ?_ ?_
    · rw [TrapProfile.coefs_core']
      split_ifs with c1 c2
      · ring
      · have : t1 = 0 := le_antisymm (not_lt.mp c1) h0
        rw [this]; ring
      · have e1 : t1 = 0 := le_antisymm (not_lt.mp c1) h0
        have e2 : t2 = 0 := le_antisymm (not_lt.mp c2) (h0.trans h1)
        rw [e1, e2]; ring
    · rw [TrapProfile.coefs_core']
      have hD : (TrapProfile.coefs (sgn (pos2 - pos1)) A pos1 pos2 t1 t2 (t1 + t2)).duration = t1 + t2 := rfl
      rw [hD, if_neg (by linarith), if_neg (by linarith)]; ring
  · intro t
    rw [hvel, abs_mul, abs_mul, abs_sgn, one_mul, abs_of_pos hA, abs_of_nonneg (hm t).1]
    exact (mul_le_mul_of_nonneg_left (hm t).2 hA.le).trans hV
  · intro t u
    rw [hvel, hvel, ← mul_sub, abs_mul, abs_mul, abs_sgn, one_mul, abs_of_pos hA]
    exact mul_le_mul_of_nonneg_left (lip_trap _ _ _ _) hA.le
  · intro t
    have key : ∀ x, (x = 0 ∨ x = sgn (pos2 - pos1) * A ∨ x = -(sgn (pos2 - pos1) * A)) → |x| ≤ A := by
      rintro x (h | h | h) <;> rw [h]
      · simp [hA.le]
      · rw [abs_mul, abs_sgn, one_mul, abs_of_pos hA]
      · rw [abs_neg, abs_mul, abs_sgn, one_mul, abs_of_pos hA]
    unfold Quad3.acc
    split_ifs <;> apply key <;> simp only [TrapProfile.coefs]
    · exact Or.inl trivial
    · right; left; ring
    · left; ring
    · right; right; ring
    · exact Or.inl trivial
  · intro t
    rw [hvel]
    have : (pos2 - pos1) * (sgn (pos2 - pos1) * A * max 0 (min (min t t1) (t1 + t2 - t)))
        = (sgn (pos2 - pos1) * (pos2 - pos1)) * (A * max 0 (min (min t t1) (t1 + t2 - t))) := by ring
    rw [this, sgn_mul]
    exact mul_nonneg (abs_nonneg _) (mul_nonneg hA.le (hm t).1)

/-- **C56 (SetProfile).**  The planned motion starts at rest in `pos1`, ends at rest in `pos2` at `Duration()`, `Vel` is
the derivative of `Pos` at every time, the velocity and acceleration limits are kept and the motion never reverses. -/
theorem C56_setProfile (p : TrapProfile) (hv : 0 < p.maxvel) (ha : 0 < p.maxacc) (pos1 pos2 : ℝ) :
    ∃ p', p.setProfile pos1 pos2 = .ok p' ∧ MotionLaw p'.q pos1 pos2 p.maxvel p.maxacc := by
  obtain ⟨t1, t2, D, h0, h1, hD, hV, hd, -, e⟩ := p.setProfile_eq hv ha pos1 pos2
  subst hD
  exact ⟨_, e, coefs_law ha h0 h1 hV hd⟩

/-- **C56 (Acc).**  Away from the four switching times `Acc` is the derivative of `Vel`. -/
theorem C56_acc (p p' : TrapProfile) (hv : 0 < p.maxvel) (ha : 0 < p.maxacc) (pos1 pos2 : ℝ)
    (h : p.setProfile pos1 pos2 = .ok p') :
    ∃ t1 t2, p'.q.t1 = some t1 ∧ p'.q.t2 = some t2 ∧
      ∀ t, t ≠ 0 → t ≠ t1 → t ≠ t2 → t ≠ p'.q.duration → HasDerivAt p'.q.vel (p'.q.acc t) t := by
  obtain ⟨t1, t2, D, h0, h1, hD, hV, hd, -, e⟩ := p.setProfile_eq hv ha pos1 pos2
  rw [e] at h; cases h
  exact ⟨t1, t2, rfl, rfl, fun t n0 n1 n2 nd => Quad3.hasDerivAt_vel rfl rfl n0 n1 n2 nd⟩

theorem sub_le_sub_of_deriv_le {g g' h h' : ℝ → ℝ} {a b : ℝ} (hab : a ≤ b)
    (hg : ∀ t ∈ Set.Icc a b, HasDerivWithinAt g (g' t) (Set.Icc a b) t)
    (hh : ∀ t, HasDerivAt h (h' t) t) (le : ∀ t ∈ Set.Icc a b, g' t ≤ h' t) : g b - g a ≤ h b - h a := by
  have hd : ∀ t ∈ Set.Icc a b, HasDerivWithinAt (fun t => h t - g t) (h' t - g' t) (Set.Icc a b) t :=
    fun t ht => (hh t).hasDerivWithinAt.sub (hg t ht)
  have mono : MonotoneOn (fun t => h t - g t) (Set.Icc a b) := by
    refine monotoneOn_of_hasDerivWithinAt_nonneg (f' := fun t => h' t - g' t) (convex_Icc a b)
      (fun t ht => (hd t ht).continuousWithinAt) ?_ ?_
    · intro t ht
      exact (hd t (interior_subset ht)).mono interior_subset
    · intro t ht
      have := le t (interior_subset ht)
      simpa using this
  have := mono (Set.left_mem_Icc.mpr hab) (Set.right_mem_Icc.mpr hab) hab
  dsimp only at this
  linarith

/-- **C56 (time optimality).**  No motion from `pos1` to `pos2` that starts and ends at rest and keeps the velocity and
acceleration limits is faster than the one planned by `SetProfile`. -/
theorem C56_time_optimal (p p' : TrapProfile) (hv : 0 < p.maxvel) (ha : 0 < p.maxacc) (pos1 pos2 : ℝ)
    (h : p.setProfile pos1 pos2 = .ok p') (f f' : ℝ → ℝ) (T : ℝ) (hT : 0 ≤ T)
    (hf : ∀ t ∈ Set.Icc 0 T, HasDerivWithinAt f (f' t) (Set.Icc 0 T) t)
    (f0 : f 0 = pos1) (fT : f T = pos2) (r0 : f' 0 = 0) (rT : f' T = 0)
    (hV : ∀ t ∈ Set.Icc 0 T, |f' t| ≤ p.maxvel)
    (hA : ∀ t ∈ Set.Icc 0 T, ∀ u ∈ Set.Icc 0 T, |f' t - f' u| ≤ p.maxacc * |t - u|) :
    p'.q.duration ≤ T := by
  obtain ⟨t1, t2, D, h0, h1, hD, hV1, hd, hc, e⟩ := p.setProfile_eq hv ha pos1 pos2
  rw [e] at h; cases h
  have goalD : (TrapProfile.coefs (sgn (pos2 - pos1)) p.maxacc pos1 pos2 t1 t2 D).duration = t1 + t2 := hD
  show (TrapProfile.coefs (sgn (pos2 - pos1)) p.maxacc pos1 pos2 t1 t2 D).duration ≤ T
  rw [goalD]
  set A := p.maxacc with hAdef
  set V := p.maxvel with hVdef
  set s := sgn (pos2 - pos1) with hs
  have hdx : s * f T - s * f 0 = |pos2 - pos1| := by rw [f0, fT, ← mul_sub, hs, sgn_mul]
  -- bounds on the signed velocity
  have sabs : ∀ x, s * x ≤ |x| := fun x => by
    calc s * x ≤ |s * x| := le_abs_self _
      _ = |x| := by rw [abs_mul, hs, abs_sgn, one_mul]
  have m0 : (0:ℝ) ∈ Set.Icc 0 T := Set.left_mem_Icc.mpr hT
  have mT : T ∈ Set.Icc 0 T := Set.right_mem_Icc.mpr hT
  have b1 : ∀ t ∈ Set.Icc 0 T, s * f' t ≤ A * t := fun t ht => by
    have := hA t ht 0 m0
    rw [r0, sub_zero, sub_zero, abs_of_nonneg ht.1] at this
    exact (sabs _).trans this
  have b2 : ∀ t ∈ Set.Icc 0 T, s * f' t ≤ A * (T - t) := fun t ht => by
    have := hA t ht T mT
    rw [rT, sub_zero, abs_sub_comm t T, abs_of_nonneg (show 0 ≤ T - t by linarith [ht.2])] at this
    exact (sabs _).trans this
  have b3 : ∀ t ∈ Set.Icc 0 T, s * f' t ≤ V := fun t ht => (sabs _).trans (hV t ht)
  have sub : ∀ a b, 0 ≤ a → b ≤ T → Set.Icc a b ⊆ Set.Icc 0 T := fun a b ha hb t ht =>
    ⟨ha.trans ht.1, ht.2.trans hb⟩
  have dg : ∀ a b, 0 ≤ a → b ≤ T → ∀ t ∈ Set.Icc a b,
      HasDerivWithinAt (fun t => s * f t) (s * f' t) (Set.Icc a b) t := fun a b ha hb t ht =>
    ((hf t (sub a b ha hb ht)).mono (sub a b ha hb)).const_mul s
  have q1 : ∀ t, HasDerivAt (fun t => 0 + t * (0 + A / 2 * t)) (A * t) t := fun t =>
    (hasDerivAt_quad 0 0 (A / 2) t).congr_deriv (by ring)
  have q2 : ∀ t, HasDerivAt (fun t => 0 + t * (A * T + -(A / 2) * t)) (A * (T - t)) t := fun t =>
    (hasDerivAt_quad 0 (A * T) (-(A / 2)) t).congr_deriv (by ring)
  have q3 : ∀ t, HasDerivAt (fun t => 0 + t * (V + 0 * t)) V t := fun t =>
    (hasDerivAt_quad 0 V 0 t).congr_deriv (by ring)
  have acc1 : ∀ τ, 0 ≤ τ → τ ≤ T → s * f τ - s * f 0 ≤ A * τ ^ 2 / 2 := fun τ h0 h1 => by
    have := sub_le_sub_of_deriv_le (g := fun t => s * f t) (g' := fun t => s * f' t) h0 (dg 0 τ le_rfl h1) q1
      (fun t ht => b1 t (sub 0 τ le_rfl h1 ht))
    nlinarith [this]
  have acc2 : ∀ τ, 0 ≤ τ → τ ≤ T → s * f T - s * f τ ≤ A * (T - τ) ^ 2 / 2 := fun τ h0 h1 => by
    have := sub_le_sub_of_deriv_le (g := fun t => s * f t) (g' := fun t => s * f' t) h1 (dg τ T h0 le_rfl) q2
      (fun t ht => b2 t (sub τ T h0 le_rfl ht))
    nlinarith [this]
  have vel1 : ∀ a b, 0 ≤ a → a ≤ b → b ≤ T → s * f b - s * f a ≤ V * (b - a) := fun a b h0 hab h1 => by
    have := sub_le_sub_of_deriv_le (g := fun t => s * f t) (g' := fun t => s * f' t) hab (dg a b h0 h1) q3
      (fun t ht => b3 t (sub a b h0 h1 ht))
    linarith [this]
  have tri : A * t1 * t2 ≤ A * T ^ 2 / 4 := by
    have k1 := acc1 (T / 2) (by linarith) (by linarith)
    have k2 := acc2 (T / 2) (by linarith) (by linarith)
    rw [hd, ← hdx]
    nlinarith
  by_contra hlt
  push Not at hlt
  have hApos : 0 < A := ha
  rcases hc with hc | hc
  · subst hc
    have : A * t1 * t1 > A * T ^ 2 / 4 := by
      have h2 : T / 2 < t1 := by linarith
      have h3 : (T / 2) * (T / 2) < t1 * t1 := mul_self_lt_mul_self (by linarith) h2
      nlinarith
    linarith
  · by_cases hT2 : T < 2 * t1
    · have h2 : T / 2 < t1 := by linarith
      have h3 : (T / 2) * (T / 2) < t1 * t1 := mul_self_lt_mul_self (by linarith) h2
      have h4 : t1 * t1 ≤ t1 * t2 := mul_le_mul_of_nonneg_left h1 h0
      have : A * ((T / 2) * (T / 2)) < A * (t1 * t2) := mul_lt_mul_of_pos_left (by linarith) hApos
      nlinarith
    · push Not at hT2
      have k1 := acc1 t1 h0 (by linarith)
      have k2 := acc2 (T - t1) (by linarith) (by linarith)
      have k3 := vel1 t1 (T - t1) h0 (by linarith) (by linarith)
      have k4 : A * t1 * t2 ≤ A * t1 ^ 2 + V * (T - 2 * t1) := by
        rw [hd, ← hdx]
        have e1 : T - (T - t1) = t1 := by ring
        rw [e1] at k2
        linarith
      rw [hc] at k4
      have k5 : A * t1 ^ 2 = V * t1 := by rw [← hc]; ring
      rw [k5] at k4
      have k6 : V * t2 ≤ V * (T - t1) := by linarith
      have k7 := le_of_mul_le_mul_left k6 hv
      linarith

/-- A profile run at the fraction `f` of its speed. -/
structure SlowedBy (q q0 : Quad3) (f : ℝ) : Prop where
  dur : q.duration = q0.duration / f
  pos : ∀ t, q.pos t = q0.pos (f * t)
  vel : ∀ t, q.vel t = f * q0.vel (f * t)
  acc : ∀ t, q.acc t = f * f * q0.acc (f * t)

theorem SlowedBy.law {q q0 : Quad3} {f pos1 pos2 V A : ℝ} (h : SlowedBy q q0 f) (hf : 0 < f)
    (l : MotionLaw q0 pos1 pos2 V A) : MotionLaw q pos1 pos2 (f * V) (f ^ 2 * A) where
  start t ht := by rw [h.pos]; exact l.start _ (mul_nonpos_of_nonneg_of_nonpos hf.le ht)
  arrive t ht := by
    rw [h.pos]; apply l.arrive
    rw [h.dur, div_le_iff₀ hf] at ht
    linarith
  dur := by rw [h.dur]; exact div_nonneg l.dur hf.le
  deriv t := by
    rw [h.vel]
    have e : q.pos = fun t => q0.pos (f * t) := funext h.pos
    rw [e]
    have h1 : HasDerivAt (fun t : ℝ => f * t) f t := by simpa using (hasDerivAt_id t).const_mul f
    exact ((l.deriv (f * t)).comp t h1).congr_deriv (by ring)
  vmax t := by
    rw [h.vel, abs_mul, abs_of_pos hf]
    exact mul_le_mul_of_nonneg_left (l.vmax _) hf.le
  lip t u := by
    rw [h.vel, h.vel, ← mul_sub, abs_mul, abs_of_pos hf]
    have := mul_le_mul_of_nonneg_left (l.lip (f * t) (f * u)) hf.le
    rw [← mul_sub, abs_mul, abs_of_pos hf] at this
    linarith [this]
  amax t := by
    rw [h.acc, abs_mul, abs_of_pos (mul_pos hf hf)]
    have := mul_le_mul_of_nonneg_left (l.amax (f * t)) (mul_pos hf hf).le
    linarith [this]
  dir t := by
    rw [h.vel]
    have := mul_nonneg hf.le (l.dir (f * t))
    linarith [this]

theorem MotionLaw.mono {q : Quad3} {pos1 pos2 V A V' A' : ℝ} (l : MotionLaw q pos1 pos2 V A) (hV : V ≤ V')
    (hA : A ≤ A') : MotionLaw q pos1 pos2 V' A' where
  start := l.start
  arrive := l.arrive
  dur := l.dur
  deriv := l.deriv
  vmax t := (l.vmax t).trans hV
  lip t u := (l.lip t u).trans (mul_le_mul_of_nonneg_right hA (abs_nonneg _))
  amax t := (l.amax t).trans hA
  dir := l.dir

theorem setProfile_times (p : TrapProfile) (hv : 0 < p.maxvel) (ha : 0 < p.maxacc) (pos1 pos2 : ℝ) :
    ∃ p0 t1 t2, p.setProfile pos1 pos2 = .ok p0 ∧ p0.q.t1 = some t1 ∧ p0.q.t2 = some t2 ∧
      p0.maxvel = p.maxvel ∧ p0.maxacc = p.maxacc ∧ p0.q.startpos = pos1 ∧ p0.q.endpos = pos2 ∧
      (pos1 ≠ pos2 → 0 < p0.q.duration) ∧
      (pos1 = pos2 → p0.q.duration = 0 ∧ t1 = 0 ∧ t2 = 0 ∧ p0.q.c1 = pos1) ∧
      MotionLaw p0.q pos1 pos2 p.maxvel p.maxacc := by
  obtain ⟨t1, t2, D, h0, h1, hD, hV, hd, hc, e⟩ := p.setProfile_eq hv ha pos1 pos2
  subst hD
  refine ⟨_, t1, t2, e, rfl, rfl, rfl, rfl, rfl, rfl, ?_, ?_, coefs_law ha h0 h1 hV hd⟩
  · intro hne
    have : 0 < |pos2 - pos1| := abs_pos.mpr (sub_ne_zero.mpr (Ne.symm hne))
    rw [← hd] at this
    show 0 < t1 + t2
    by_contra hc
    push Not at hc
    have e1 : t1 = 0 := by linarith
    rw [e1] at this
    simp at this
  · intro heq
    subst heq
    rw [sub_self, abs_zero] at hd
    have : t1 = 0 ∧ t2 = 0 := by
      rcases hc with hc | hc
      · subst hc
        have : t1 = 0 := by
          by_contra hne
          have : 0 < t1 := lt_of_le_of_ne h0 (Ne.symm hne)
          have := mul_pos (mul_pos ha this) this
          linarith
        exact ⟨this, this⟩
      · rw [hc] at hd
        have : t2 = 0 := by
          rcases mul_eq_zero.mp hd with h | h
          · linarith
          · exact h
        exact ⟨by linarith, this⟩
    obtain ⟨e1, e2⟩ := this
    subst e1; subst e2
    refine ⟨by simp [TrapProfile.coefs], rfl, rfl, ?_⟩
    simp [TrapProfile.coefs]

/-- **C56 (SetProfileDuration).**  For a positive requested duration the profile takes the requested time if the
limits allow it and the minimal time otherwise; it still starts and ends as asked and keeps the limits. -/
theorem C56_setProfileDuration (p p0 : TrapProfile) (hv : 0 < p.maxvel) (ha : 0 < p.maxacc) (pos1 pos2 T : ℝ)
    (h : p.setProfile pos1 pos2 = .ok p0) (hT : 0 < T) :
    ∃ p', p.setProfileDuration pos1 pos2 T = .ok p' ∧ p'.q.duration = max p0.q.duration T ∧
      MotionLaw p'.q pos1 pos2 p.maxvel p.maxacc ∧
      (p0.q.duration ≤ T → pos1 ≠ pos2 → SlowedBy p'.q p0.q (p0.q.duration / T)) := by
  obtain ⟨p0', t1, t2, e, e1, e2, ev, ea, es, ee, hpos, hz, law⟩ := setProfile_times p hv ha pos1 pos2
  rw [h] at e; cases e
  unfold TrapProfile.setProfileDuration
  rw [h]
  dsimp only
  rw [if_neg hT.ne']
  by_cases hf : p0.q.duration / T > 1
  · rw [if_pos hf]
    have hf' : T < p0.q.duration := by rwa [gt_iff_lt, one_lt_div hT] at hf
    exact ⟨p0, rfl, (max_eq_left hf'.le).symm, law, fun h => absurd h (not_le.mpr hf')⟩
  · rw [if_neg hf]
    have hf' : p0.q.duration ≤ T := by
      rw [gt_iff_lt, one_lt_div hT, not_lt] at hf; exact hf
    by_cases hne : pos1 = pos2
    · obtain ⟨d0, z1, z2, zc⟩ := hz hne
      subst hne
      refine ⟨_, rfl, (max_eq_right hf').symm, ?_, fun _ h => absurd rfl h⟩
      have kt1 : (TrapProfile.scale p0.q (p0.q.duration / T) T).t1 = none := by
        simp [TrapProfile.scale, TrapProfile.divTime, e1, d0]
      have kt2 : (TrapProfile.scale p0.q (p0.q.duration / T) T).t2 = none := by
        simp [TrapProfile.scale, TrapProfile.divTime, e2, d0]
      have kpos : ∀ t, (TrapProfile.scale p0.q (p0.q.duration / T) T).pos t = pos1 := by
        intro t
        simp only [Quad3.pos, kt1, kt2, if_neg (ltN_none t)]
        simp [TrapProfile.scale, d0, es, ee, zc]
      have kvel : ∀ t, (TrapProfile.scale p0.q (p0.q.duration / T) T).vel t = 0 := by
        intro t
        simp only [Quad3.vel, kt1, kt2, if_neg (ltN_none t)]
        simp [TrapProfile.scale, d0]
      have kacc : ∀ t, (TrapProfile.scale p0.q (p0.q.duration / T) T).acc t = 0 := by
        intro t
        simp only [Quad3.acc, kt1, kt2, if_neg (ltN_none t)]
        simp [TrapProfile.scale, d0]
      refine ⟨fun t _ => kpos t, fun t _ => kpos t, hT.le, ?_, ?_, ?_, ?_, ?_⟩
      · intro t
        rw [show (TrapProfile.scale p0.q (p0.q.duration / T) T).pos = fun _ => pos1 from funext kpos, kvel]
        exact hasDerivAt_const t _
      · intro t; rw [kvel, abs_zero]; exact hv.le
      · intro t u; rw [kvel, kvel, sub_zero, abs_zero]; positivity
      · intro t; rw [kacc, abs_zero]; exact ha.le
      · intro t; rw [kvel, mul_zero]
    · have hd := hpos hne
      have hfp : 0 < p0.q.duration / T := div_pos hd hT
      have hTd : T = p0.q.duration / (p0.q.duration / T) := by
        field_simp
      have sl : SlowedBy (TrapProfile.scale p0.q (p0.q.duration / T) T) p0.q (p0.q.duration / T) :=
        ⟨hTd, fun t => (TrapProfile.scale_pos p0.q e1 e2 hfp hTd t).1,
          fun t => (TrapProfile.scale_pos p0.q e1 e2 hfp hTd t).2.1,
          fun t => (TrapProfile.scale_pos p0.q e1 e2 hfp hTd t).2.2⟩
      refine ⟨_, rfl, (max_eq_right hf').symm, ?_, fun _ _ => sl⟩
      have hle : p0.q.duration / T ≤ 1 := (div_le_one hT).mpr hf'
      refine (sl.law hfp law).mono ?_ ?_
      · calc p0.q.duration / T * p.maxvel ≤ 1 * p.maxvel := mul_le_mul_of_nonneg_right hle hv.le
          _ = p.maxvel := one_mul _
      · have : (p0.q.duration / T) ^ 2 ≤ 1 := pow_le_one₀ hfp.le hle
        calc (p0.q.duration / T) ^ 2 * p.maxacc ≤ 1 * p.maxacc := mul_le_mul_of_nonneg_right this ha.le
          _ = p.maxacc := one_mul _

/-- **C56 (SetProfileVelocity).**  The profile is the fastest one run at the requested fraction of its speed, the
fraction being clamped to `[epsilon, 1]`. -/
theorem C56_setProfileVelocity (p p0 : TrapProfile) (hv : 0 < p.maxvel) (ha : 0 < p.maxacc) (pos1 pos2 w : ℝ)
    (h : p.setProfile pos1 pos2 = .ok p0) :
    ∃ p', p.setProfileVelocity pos1 pos2 w = .ok p' ∧ SlowedBy p'.q p0.q (max epsilon (min 1 w)) ∧
      MotionLaw p'.q pos1 pos2 (max epsilon (min 1 w) * p.maxvel) (max epsilon (min 1 w) ^ 2 * p.maxacc) := by
  obtain ⟨p0', t1, t2, e, e1, e2, ev, ea, es, ee, hpos, hz, law⟩ := setProfile_times p hv ha pos1 pos2
  rw [h] at e; cases e
  unfold TrapProfile.setProfileVelocity
  rw [h]
  dsimp only
  have heps : (0:ℝ) < epsilon := by unfold epsilon; norm_num
  have k1 : (if 1 < w then (1:ℝ) else w) = min 1 w := by
    split_ifs with c
    · rw [min_eq_left c.le]
    · rw [min_eq_right (not_lt.mp c)]
  have k2 : ∀ x : ℝ, (if epsilon > x then epsilon else x) = max epsilon x := fun x => by
    split_ifs with c
    · rw [max_eq_left (le_of_lt c)]
    · rw [max_eq_right (not_lt.mp c)]
  rw [k1, k2]
  have hfp : 0 < max epsilon (min 1 w) := lt_max_of_lt_left heps
  have sl : SlowedBy (TrapProfile.scale p0.q (max epsilon (min 1 w)) (p0.q.duration / max epsilon (min 1 w))) p0.q
      (max epsilon (min 1 w)) :=
    ⟨rfl, fun t => (TrapProfile.scale_pos p0.q e1 e2 hfp rfl t).1,
      fun t => (TrapProfile.scale_pos p0.q e1 e2 hfp rfl t).2.1,
      fun t => (TrapProfile.scale_pos p0.q e1 e2 hfp rfl t).2.2⟩
  exact ⟨_, rfl, sl, sl.law hfp law⟩

/-- **C56 (short requests).**  A requested duration of zero, or one that is too short, gives the fastest profile when
there is something to move. -/
theorem C56_short_duration (p p0 : TrapProfile) (hv : 0 < p.maxvel) (ha : 0 < p.maxacc) (pos1 pos2 T : ℝ)
    (h : p.setProfile pos1 pos2 = .ok p0) (hne : pos1 ≠ pos2) (h0 : 0 ≤ T) (hT : T < p0.q.duration) :
    p.setProfileDuration pos1 pos2 T = .ok p0 := by
  obtain ⟨p0', t1, t2, e, e1, e2, ev, ea, es, ee, hpos, hz, law⟩ := setProfile_times p hv ha pos1 pos2
  rw [h] at e; cases e
  unfold TrapProfile.setProfileDuration
  rw [h]
  dsimp only
  by_cases c : T = 0
  · rw [if_pos c, if_pos (hpos hne)]
  · have : 0 < T := lt_of_le_of_ne h0 (Ne.symm c)
    rw [if_neg c, if_pos]
    rwa [gt_iff_lt, one_lt_div this]

/-- The full claim about the duration: every requested duration gives a motion law. -/
def TrapDurationTotal : Prop :=
  ∀ (p : TrapProfile) (pos1 pos2 T : ℝ), 0 < p.maxvel → 0 < p.maxacc →
    ∃ p', p.setProfileDuration pos1 pos2 T = .ok p' ∧ MotionLaw p'.q pos1 pos2 p.maxvel p.maxacc

/-- **C56, violated without displacement:** `SetProfileDuration(x, x, 0)` computes `0/0` and all coefficients become
NaN. -/
theorem C56_duration_total_violated : ¬ TrapDurationTotal := by
  intro H
  obtain ⟨p', e, -⟩ := H (TrapProfile.new 1 1) 0 0 0 (by simp [TrapProfile.new]) (by simp [TrapProfile.new])
  obtain ⟨p0, t1, t2, e0, -, -, -, -, -, -, -, hz, -⟩ := setProfile_times (TrapProfile.new 1 1)
    (by simp [TrapProfile.new]) (by simp [TrapProfile.new]) 0 0
  unfold TrapProfile.setProfileDuration at e
  rw [e0] at e
  dsimp only at e
  rw [if_pos rfl, if_neg (by rw [(hz rfl).1]; exact lt_irrefl _)] at e
  cases e

/-- **C56, negative requests are not rejected:** they give a profile with a negative duration. -/
theorem C56_negative_duration (p : TrapProfile) (hv : 0 < p.maxvel) (ha : 0 < p.maxacc) (pos1 pos2 T : ℝ)
    (hT : T < 0) : ∃ p', p.setProfileDuration pos1 pos2 T = .ok p' ∧ p'.q.duration = T := by
  obtain ⟨p0, t1, t2, e, e1, e2, ev, ea, es, ee, hpos, hz, law⟩ := setProfile_times p hv ha pos1 pos2
  unfold TrapProfile.setProfileDuration
  rw [e]
  dsimp only
  rw [if_neg hT.ne, if_neg]
  · exact ⟨_, rfl, rfl⟩
  · have := div_nonpos_of_nonneg_of_nonpos law.dur hT.le
    linarith

/-- What `Clone` promises: a copy of the current object. -/
def TrapCloneCopies : Prop :=
  ∀ (p p' : TrapProfile) (pos1 pos2 : ℝ), 0 < p.maxvel → 0 < p.maxacc → p.setProfile pos1 pos2 = .ok p' →
    p'.clone = .ok p'

theorem scale_one (q : Quad3) {t1 t2 : ℝ} (e1 : q.t1 = some t1) (e2 : q.t2 = some t2) :
    TrapProfile.scale q 1 q.duration = q := by
  cases q
  simp_all [TrapProfile.scale, TrapProfile.divTime]

/-- **C56 (Clone), violated:** the clone of a planned profile without displacement is full of NaN. -/
theorem C56_clone_violated : ¬ TrapCloneCopies := by
  intro H
  obtain ⟨p0, t1, t2, e0, -, -, ev, ea, es, ee, -, hz, -⟩ := setProfile_times (TrapProfile.new 1 1)
    (by simp [TrapProfile.new]) (by simp [TrapProfile.new]) 0 0
  have := H _ p0 0 0 (by simp [TrapProfile.new]) (by simp [TrapProfile.new]) e0
  unfold TrapProfile.clone at this
  rw [ev, ea, es, ee, (hz rfl).1] at this
  unfold TrapProfile.setProfileDuration at this
  rw [show TrapProfile.new (TrapProfile.new 1 1).maxvel (TrapProfile.new 1 1).maxacc = TrapProfile.new 1 1 from rfl,
    e0] at this
  dsimp only at this
  rw [if_pos rfl, if_neg (by rw [(hz rfl).1]; exact lt_irrefl _)] at this
  cases this

theorem setProfile_congr (p p2 : TrapProfile) (hv : p2.maxvel = p.maxvel) (ha : p2.maxacc = p.maxacc)
    (pos1 pos2 : ℝ) : p2.setProfile pos1 pos2 = p.setProfile pos1 pos2 := by
  unfold TrapProfile.setProfile
  rw [hv, ha]

/-- **C56 (Clone), what holds:** with a displacement, the clone equals the original after each of the three planning
functions. -/
theorem C56_clone_partial (p p' : TrapProfile) (hv : 0 < p.maxvel) (ha : 0 < p.maxacc) (pos1 pos2 : ℝ)
    (hne : pos1 ≠ pos2)
    (h : p.setProfile pos1 pos2 = .ok p' ∨ (∃ T, p.setProfileDuration pos1 pos2 T = .ok p') ∨
      ∃ w, p.setProfileVelocity pos1 pos2 w = .ok p') : p'.clone = .ok p' := by
  obtain ⟨p0, t1, t2, e, e1, e2, ev, ea, es, ee, hpos, hz, law⟩ := setProfile_times p hv ha pos1 pos2
  have hd := hpos hne
  -- the clone of the fastest profile scaled by `f`
  have key : ∀ f T, 0 < f ∨ f < 0 → f ≤ 1 → T = p0.q.duration / f →
      ({ p0 with q := TrapProfile.scale p0.q f T } : TrapProfile).clone
        = .ok { p0 with q := TrapProfile.scale p0.q f T } := by
    intro f T hf hf1 hT
    have fne : f ≠ 0 := by rcases hf with h | h <;> [exact h.ne'; exact h.ne]
    have Tne : T ≠ 0 := by rw [hT]; exact div_ne_zero hd.ne' fne
    have back : p0.q.duration / T = f := by rw [hT]; field_simp
    unfold TrapProfile.clone TrapProfile.setProfileDuration
    have k := setProfile_congr p (TrapProfile.new p0.maxvel p0.maxacc) ev ea pos1 pos2
    have eS : (TrapProfile.scale p0.q f T).startpos = pos1 := es
    have eE : (TrapProfile.scale p0.q f T).endpos = pos2 := ee
    have eD : (TrapProfile.scale p0.q f T).duration = T := rfl
    simp only [eS, eE, eD]
    rw [k, e]
    dsimp only
    rw [if_neg Tne, back, if_neg (not_lt.mpr hf1)]
  have key0 : p0.clone = .ok p0 := by
    have := key 1 p0.q.duration (Or.inl one_pos) le_rfl (by rw [div_one])
    rw [scale_one p0.q e1 e2] at this
    exact this
  rcases h with h | ⟨T, h⟩ | ⟨w, h⟩
  · rw [e] at h; cases h; exact key0
  · unfold TrapProfile.setProfileDuration at h
    rw [e] at h
    dsimp only at h
    split_ifs at h with c1 c2 c2
    · cases h; exact key0
    · cases h; exact key0
    · cases h
      refine key _ T ?_ (not_lt.mp c2) ?_
      · rcases lt_or_gt_of_ne c1 with h | h
        · exact Or.inr (div_neg_of_pos_of_neg hd h)
        · exact Or.inl (div_pos hd h)
      · field_simp
  · unfold TrapProfile.setProfileVelocity at h
    rw [e] at h
    dsimp only at h
    cases h
    have heps : (0:ℝ) < epsilon := by unfold epsilon; norm_num
    have heps1 : epsilon ≤ (1:ℝ) := by unfold epsilon; norm_num
    refine key _ _ (Or.inl ?_) ?_ rfl
    · split_ifs <;> linarith
    · split_ifs <;> linarith

/-- **C56 (defaults).**  A profile with a zero limit, such as a default constructed one, plans NaN. -/
theorem C56_default (pos1 pos2 : ℝ) : (TrapProfile.new 0 0).setProfile pos1 pos2 = .nan := by
  simp [TrapProfile.setProfile, TrapProfile.new]

/-- Non-vacuity: a plan with a plateau: from 0 to 2 with unit limits takes 3 s, and at 1.5 s the speed is 1. -/
example : ∃ p', (TrapProfile.new 1 1).setProfile 0 2 = .ok p' ∧ p'.q.duration = 3 ∧ p'.q.vel (3 / 2) = 1 := by
  refine ⟨{ TrapProfile.new 1 1 with q := TrapProfile.coefs 1 1 0 2 1 2 3 }, ?_, rfl, ?_⟩
  · simp only [TrapProfile.setProfile, TrapProfile.new, sgn]
    norm_num
  · simp only [Quad3.vel, TrapProfile.coefs, ltN_some]
    norm_num

end KDL
