import Verif.Lemmas.Rotations

/-!
# C69: `Frame::Integrate`
-/

noncomputable section

namespace KDL

/-- The step that `Frame::Integrate` is meant to make: the twist, expressed in the frame, acts for the time `1/freq`; the
rotation is the one by the angle `|ω|/freq` about `ω`. -/
def IntegrateStep (F : Frame) (t : Twist) (freq : ℝ) (G : Frame) : Prop :=
  ∃ u : Vec, u.dot u = 1 ∧ t.rot = t.rot.len • u ∧ G.M = F.M * Rot.rot2 u (t.rot.len / freq) ∧
    G.p = F.p + F.M * (t.vel / freq)

theorem norm_len (v : Vec) (h : epsilon ≤ v.norm) : v.norm = v.len := by
  have := Vec.norm_eq v epsilon epsilon_pos
  split_ifs at this with hc
  · rw [this] at h
    exact absurd h (not_le.mpr epsilon_pos)
  · exact this

/-- The position is advanced by `M v / freq` in every case. -/
theorem C69_position (F : Frame) (t : Twist) (freq : ℝ) :
    (F.integrate t freq).p = F.p + F.M * (t.vel / freq) := by
  unfold Frame.integrate
  dsimp only
  split_ifs with h
  · rfl
  · simp [add_comm]

/-- A proper frame stays proper. -/
theorem C69_proper (F : Frame) (hF : F.IsProper) (t : Twist) (freq : ℝ) : (F.integrate t freq).IsProper := by
  unfold Frame.integrate
  dsimp only
  split_ifs with h
  · exact hF
  · exact Frame.IsProper.mul hF (Rot.isProper_rot _ _)

/-- The step is the intended one when both the angular velocity and the angle of the step are at least `epsilon`, and for
`ω = 0`.  Partial: the claim for every twist and every frequency is refuted by `C69_stall_violated` and
`C69_axis_violated`. -/
theorem C69_step_partial (F : Frame) (t : Twist) (freq : ℝ)
    (h : (epsilon ≤ t.rot.norm ∧ epsilon ≤ t.rot.norm / freq) ∨ t.rot = 0) :
    IntegrateStep F t freq (F.integrate t freq) := by
  rcases h with ⟨h1, h2⟩ | h
  · have hl := norm_len _ h1
    have hpos : 0 < t.rot.len := hl ▸ lt_of_lt_of_le epsilon_pos h1
    have hne := ne_of_gt hpos
    refine ⟨t.rot / t.rot.len, ?_, ?_, ?_, C69_position F t freq⟩
    · rw [← Vec.len_sq, Vec.len_div _ _ hpos, div_self hne, one_pow]
    · ext <;> simp <;> field_simp
    · unfold Frame.integrate
      dsimp only
      rw [if_neg (not_lt.mpr h2)]
      simp only [Frame.mul_M, Rot.rot, Vec.normalize]
      rw [if_neg (not_lt.mpr h1), hl]
  · refine ⟨⟨1, 0, 0⟩, by simp [Vec.dot], ?_, ?_, C69_position F t freq⟩
    · rw [h]; ext <;> simp [Vec.len]
    · have hz : (0 : Vec).norm = 0 := by simp [Vec.norm, epsilon]
      have hz' : (0 : Vec).len = 0 := by simp [Vec.len]
      unfold Frame.integrate
      dsimp only
      rw [h, hz, zero_div, if_pos epsilon_pos, hz', zero_div, Rot.rot2_zero, mul_one]

/-- Slow rotations at a high sampling frequency are lost altogether: at 10 kHz an angular velocity of 0.001 rad/s never
turns the frame, however many steps are made (exact integration of the same steps turns it by one radian after 10⁷ of
them), so the step is not the intended one. -/
theorem C69_stall_violated (F : Frame) (hF : F.IsProper) (v : Vec) :
    (∀ k : ℕ, ((fun G : Frame => G.integrate ⟨v, ⟨0, 0, 1 / 1000⟩⟩ 10000)^[k] F).M = F.M) ∧
    F.M * Rot.rot2 ⟨0, 0, 1⟩ (10 ^ 7 * ((1 / 1000) / 10000)) ≠ F.M ∧
    ¬ IntegrateStep F ⟨v, ⟨0, 0, 1 / 1000⟩⟩ 10000 (F.integrate ⟨v, ⟨0, 0, 1 / 1000⟩⟩ 10000) := by
  have hn : (⟨0, 0, 1 / 1000⟩ : Vec).norm = 1 / 1000 := by
    unfold Vec.norm
    norm_num
  have hM : ∀ G : Frame, (G.integrate ⟨v, ⟨0, 0, 1 / 1000⟩⟩ 10000).M = G.M := by
    intro G
    unfold Frame.integrate
    dsimp only
    rw [hn, if_pos (by norm_num [epsilon])]
  have hcancel : ∀ R : Rot, F.M * R = F.M → R = 1 := by
    intro R h
    have := congrArg (F.M.inv * ·) h
    have hi : F.M.inv * F.M = 1 := Rot.IsProper.inv_mul_self hF
    simpa [← mul_assoc, hi] using this
  refine ⟨fun k => ?_, fun h => ?_, ?_⟩
  · induction k with
    | zero => rfl
    | succ k ih => rw [Function.iterate_succ_apply', hM, ih]
  · have h1 := hcancel _ h
    have h2 := congrArg Rot.m01 h1
    simp [Rot.rot2] at h2
    norm_num at h2
    have : 0 < Real.sin 1 := Real.sin_pos_of_pos_of_lt_pi one_pos (by linarith [Real.two_le_pi])
    exact this.ne' h2
  · rintro ⟨u, hu, hd, h, -⟩
    rw [hM] at h
    have h1 := hcancel _ h.symm
    have hlen : (⟨0, 0, 1 / 1000⟩ : Vec).len = 1 / 1000 := by
      have := norm_len ⟨0, 0, 1 / 1000⟩ (by rw [hn]; norm_num [epsilon])
      rw [← this, hn]
    dsimp only at hd h1
    rw [hlen] at hd h1
    have hx := congrArg Vec.x hd
    have hz := congrArg Vec.z hd
    simp at hx hz
    have h2 := congrArg Rot.m01 h1
    simp [Rot.rot2, hx] at h2
    have : 0 < Real.sin (1000⁻¹ / 10000) := Real.sin_pos_of_pos_of_lt_pi (by norm_num)
      (lt_of_lt_of_le (by norm_num) Real.two_le_pi)
    rcases h2 with h2 | h2
    · rw [h2] at hz; norm_num at hz
    · exact this.ne' h2

/-- With a sampling frequency below 1 Hz a small angular velocity is turned about the wrong axis: here `ω` points along z
and the frame is turned about x. -/
theorem C69_axis_violated :
    ((1 : Frame).integrate ⟨0, ⟨0, 0, 1 / 10 ^ 7⟩⟩ (1 / 1000)).M = Rot.rotX (1 / 10 ^ 4) ∧
    ¬ IntegrateStep 1 ⟨0, ⟨0, 0, 1 / 10 ^ 7⟩⟩ (1 / 1000) ((1 : Frame).integrate ⟨0, ⟨0, 0, 1 / 10 ^ 7⟩⟩ (1 / 1000)) := by
  have hn : (⟨0, 0, 1 / 10 ^ 7⟩ : Vec).norm = 1 / 10 ^ 7 := by
    unfold Vec.norm
    norm_num
  have hM : ((1 : Frame).integrate ⟨0, ⟨0, 0, 1 / 10 ^ 7⟩⟩ (1 / 1000)).M = Rot.rotX (1 / 10 ^ 4) := by
    unfold Frame.integrate
    dsimp only
    rw [hn, if_neg (by norm_num [epsilon])]
    simp only [Frame.mul_M, Rot.rot, Vec.normalize]
    rw [hn, if_pos (by norm_num [epsilon]), Rot.rotX_eq]
    norm_num
  refine ⟨hM, ?_⟩
  rintro ⟨u, hu, hd, h, -⟩
  rw [hM] at h
  have hx := congrArg Vec.x hd
  have hz := congrArg Vec.z hd
  simp at hx hz
  have hl : (⟨0, 0, 1 / 10 ^ 7⟩ : Vec).len ≠ 0 := by
    intro h0
    have h1 := Vec.len_sq ⟨0, 0, 1 / 10 ^ 7⟩
    rw [h0] at h1
    norm_num [Vec.dot] at h1
  have hy := congrArg Vec.y hd
  simp at hy
  have h10 : (10 ^ 7 : ℝ)⁻¹ = 1 / 10 ^ 7 := by norm_num
  rw [h10] at hx hy
  have h2 := congrArg Rot.m21 h
  simp only [Rot.rotX, Rot.rot2, Frame.one_M, one_mul, hx.resolve_left hl, hy.resolve_left hl] at h2
  simp only [mul_zero, zero_mul, add_zero] at h2
  have : 0 < Real.sin (1 / 10 ^ 4) := Real.sin_pos_of_pos_of_lt_pi (by norm_num)
      (lt_of_lt_of_le (by norm_num) Real.two_le_pi)
  linarith

/-- `C69_step_partial` is not vacuous. -/
example : epsilon ≤ (⟨0, 0, 1⟩ : Vec).norm ∧ epsilon ≤ (⟨0, 0, 1⟩ : Vec).norm / 100 := by
  unfold Vec.norm
  norm_num [epsilon]

end KDL
