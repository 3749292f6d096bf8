import Verif.Lemmas.Leg
import Verif.Model.TrajExample
import Mathlib.Analysis.Real.Pi.Bounds
import Mathlib.Analysis.SpecialFunctions.Trigonometric.Bounds

/-! The numbers of the program `trajectory_example.cpp`. -/

noncomputable section
namespace KDL.TrajExample
open Real

theorem eps_val : epsilon = 1 / 10 ^ 6 := by norm_num [epsilon]

/-- The distance of the touching points from the corner. -/
theorem touch (r c d : ℝ) (hr : 0 < r) (h1 : -1 < c) (h2 : c < 1) (hd : d = r / tan ((π - arccos c) / 2)) :
    0 < d ∧ d ^ 2 * (1 + c) = r ^ 2 * (1 - c) := by
  have e : (π - arccos c) / 2 = π / 2 - arccos c / 2 := by ring
  have ha0 : 0 < arccos c := arccos_pos.mpr h2
  have ha1 : arccos c < π := by
    rcases (arccos_le_pi c).lt_or_eq with k | k
    · exact k
    · have := cos_arccos h1.le h2.le; rw [k, cos_pi] at this; linarith
  have ht : 0 < tan (arccos c / 2) := tan_pos_of_pos_of_lt_pi_div_two (by linarith) (by linarith)
  rw [e, tan_pi_div_two_sub, div_inv_eq_mul] at hd
  have hcos : 0 < cos (arccos c / 2) := cos_pos_of_mem_Ioo ⟨by linarith [pi_pos], by linarith⟩
  have k1 := cos_sq (arccos c / 2)
  rw [show 2 * (arccos c / 2) = arccos c by ring, cos_arccos h1.le h2.le] at k1
  have k2 := sin_sq (arccos c / 2)
  have k3 := tan_mul_cos hcos.ne'
  refine ⟨by rw [hd]; positivity, ?_⟩
  rw [hd]
  have : (1 + c) = 2 * cos (arccos c / 2) ^ 2 := by linarith
  rw [this]
  calc (r * tan (arccos c / 2)) ^ 2 * (2 * cos (arccos c / 2) ^ 2)
      = 2 * r ^ 2 * (tan (arccos c / 2) * cos (arccos c / 2)) ^ 2 := by ring
    _ = r ^ 2 * (1 - c) := by rw [k3, k2]; linear_combination (-2 * r ^ 2) * k1

theorem sin_big {x : ℝ} (h0 : 1 / 1000 ≤ x) (h1 : x ≤ π / 2) : epsilon ≤ sin x := by
  have h := mul_le_sin (by linarith) h1
  have hp := pi_lt_d2
  have : 1 / 2 ≤ 2 / π := by rw [div_le_div_iff₀ (by norm_num) pi_pos]; linarith
  rw [eps_val]
  nlinarith

theorem turns {g : Leg} {o : ℝ} (h0 : 1 / 1000 ≤ o / g.L * g.θ) (h1 : o / g.L * g.θ ≤ π / 2) : g.Turns o :=
  Or.inr ⟨by linarith [pi_pos], sin_big h0 h1⟩

theorem two_turns (a b : Vec) (ha : a.dot a = 1) (hb : b.dot b = 1) (p q : ℝ) (hp : 0 ≤ p) (hq : 0 ≤ q) (h : p + q ≤ 1)
    (hd : p + 1 / 100 ≤ q ∨ q + 1 / 100 ≤ p) : (Rot.rot2 a p * Rot.rot2 b q).Resolved := by
  have hpi := pi_gt_three
  refine Or.inl (Rot.mul_regular a b ha hb p q hp hq (by linarith) ?_)
  have hc : 1 / 2 ≤ cos ((p + q) / 2) := by
    have := one_sub_sq_div_two_le_cos (x := (p + q) / 2)
    nlinarith
  have hs : 2 * epsilon ≤ |sin ((p - q) / 2)| := by
    have he := eps_val
    have key : ∀ y : ℝ, 1 / 200 ≤ y → y ≤ 1 → 2 * epsilon ≤ sin y := by
      intro y y0 y1
      have h := mul_le_sin (by linarith) (show y ≤ π / 2 by linarith)
      have hp := pi_lt_d2
      have : 1 / 2 ≤ 2 / π := by rw [div_le_div_iff₀ (by norm_num) pi_pos]; linarith
      rw [he]
      nlinarith
    rcases hd with hd | hd
    · have := key ((q - p) / 2) (by linarith) (by linarith)
      rw [show (p - q) / 2 = -((q - p) / 2) by ring, sin_neg, abs_neg]
      exact this.trans (le_abs_self _)
    · exact (key ((p - q) / 2) (by linarith) (by linarith)).trans (le_abs_self _)
  have := epsilon_pos
  nlinarith

/-- A rotation with known trace as a turn about an axis. -/
theorem as_turn (R : Rot) (h : R.IsProper) (k : ℝ) (hk : R.m00 + R.m11 + R.m22 = 1 + 2 * k) (h0 : 0 ≤ k) (h1 : k ≤ 9 / 10) :
    ∃ a θ, a.dot a = 1 ∧ 0 ≤ θ ∧ θ ≤ π / 2 ∧ cos θ = k ∧ R = Rot.rot2 a θ := by
  have he := eps_val
  have hr : R.Regular epsilon := h.regular_of_trace (by rw [hk, he]; nlinarith)
  have e := C08_roundtrip_regular R h epsilon le_rfl hr
  obtain ⟨r0, r1⟩ := C08_angle_range R epsilon
  have hu := C08_axis_unit R epsilon epsilon_pos (by rw [he]; norm_num) (Or.inl hr)
  have ht := Rot.rot2_trace _ hu (R.getRotAngle epsilon).2
  rw [e, hk] at ht
  have hc : cos (R.getRotAngle epsilon).2 = k := by linarith
  refine ⟨_, _, hu, r0, ?_, hc, e.symm⟩
  by_contra hlt
  have := cos_neg_of_pi_div_two_lt_of_lt (not_le.mp hlt) (by linarith [pi_pos])
  linarith

/-! ### sine and cosine of 0.7 -/

theorem c7 : 0.7595 ≤ cos 0.7 ∧ cos 0.7 ≤ 0.7655 := by
  have h := cos_bound (x := 0.35) (by norm_num [abs_le])
  have e : cos 0.7 = 2 * cos 0.35 ^ 2 - 1 := by rw [← cos_two_mul]; norm_num
  obtain ⟨h1, h2⟩ := abs_le.mp h
  norm_num [abs_of_pos] at h1 h2
  rw [e]
  constructor <;> nlinarith

theorem s7 : 0 ≤ sin 0.7 ∧ 0.643 ≤ sin 0.7 ∧ sin 0.7 ≤ 0.651 := by
  obtain ⟨h1, h2⟩ := c7
  have h0 : 0 ≤ sin 0.7 := sin_nonneg_of_nonneg_of_le_pi (by norm_num) (by linarith [pi_gt_three])
  have e := sin_sq_add_cos_sq 0.7
  refine ⟨h0, ?_, ?_⟩ <;> nlinarith

theorem c62 : cos 0.62 ≤ 0.82 := by
  have h := cos_bound (x := 0.31) (by norm_num [abs_le])
  have e : cos 0.62 = 2 * cos 0.31 ^ 2 - 1 := by rw [← cos_two_mul]; norm_num
  obtain ⟨h1, h2⟩ := abs_le.mp h
  norm_num [abs_of_pos] at h1 h2
  rw [e]
  nlinarith

theorem root3 : 1.732 < √3 ∧ √3 < 1.7321 := ⟨lt_sqrt_of_sq_lt (by norm_num), (sqrt_lt' (by norm_num)).mpr (by norm_num)⟩
theorem root174 : 1.319 < √1.74 ∧ √1.74 < 1.3192 :=
  ⟨lt_sqrt_of_sq_lt (by norm_num), (sqrt_lt' (by norm_num)).mpr (by norm_num)⟩
theorem root74 : 0.8602 < √0.74 ∧ √0.74 < 0.8603 :=
  ⟨lt_sqrt_of_sq_lt (by norm_num), (sqrt_lt' (by norm_num)).mpr (by norm_num)⟩

/-! ### corners -/

theorem turns' {g : Leg} (hg : g.Ok) {x : ℝ} (h1 : g.L / 10 ≤ x) (h2 : x ≤ g.L) (h3 : 1 / 10 ≤ g.θ) (h4 : g.θ ≤ π / 2) : g.Turns x := by
  have hL := hg.long
  have k1 : 1 / 10 ≤ x / g.L := by rw [le_div_iff₀ hL]; linarith
  have k2 : x / g.L ≤ 1 := by rw [div_le_one hL]; exact h2
  apply turns <;> nlinarith [pi_pos]

theorem bend {c : ℝ} (h1 : -0.7 ≤ c) (h2 : c ≤ 0.7) : 1 / 2 ≤ sin (arccos c) := by
  rw [sin_arccos]
  apply le_sqrt_of_sq_le
  nlinarith

theorem fits (g h : Leg) (hg : g.Ok) (hh : h.Ok) (o c d lo hi : ℝ) (hc : g.u.dot h.u = c) (h1 : -0.7 ≤ c) (h2 : c ≤ 0.7)
    (hd : d = 0.2 / tan ((π - arccos c) / 2)) (hlo : 0 < lo) (hlo' : lo ^ 2 * (1 + c) ≤ 0.04 * (1 - c)) (hhi : 0 < hi)
    (hhi' : 0.04 * (1 - c) ≤ hi ^ 2 * (1 + c)) (ho : 0 ≤ o) (hb : 0.2 ≤ g.L - hi - o) (hgL : g.L ≤ 2) (ha : hi + 0.1 ≤ h.L)
    (t1 : 1 / 10 ≤ g.θ) (t2 : g.θ ≤ π / 2) (t3 : 1 / 10 ≤ h.θ) (t4 : h.θ ≤ π / 2) (hs : hi / g.L * g.θ + hi / h.L * h.θ ≤ 1)
    (hdiff : hi / g.L * g.θ + 1 / 100 ≤ lo / h.L * h.θ ∨ hi / h.L * h.θ + 1 / 100 ≤ lo / g.L * g.θ) :
    CornerFits 0.2 g h o d ∧ lo ≤ d ∧ d ≤ hi := by
  have he := eps_val
  obtain ⟨d0, d1⟩ := touch 0.2 c d (by norm_num) (by linarith) (by linarith) hd
  have hl : lo ≤ d := by
    by_contra k
    have : d ^ 2 < lo ^ 2 := pow_lt_pow_left₀ (not_le.mp k) d0.le (by norm_num)
    nlinarith
  have hh' : d ≤ hi := by
    by_contra k
    have : hi ^ 2 < d ^ 2 := pow_lt_pow_left₀ (not_le.mp k) hhi.le (by norm_num)
    nlinarith
  have hbd := bend h1 h2
  have hL := hg.long
  have hL' := hh.long
  have m1 : 0 ≤ g.θ / g.L := div_nonneg hg.turn hL.le
  have m2 : 0 ≤ h.θ / h.L := div_nonneg hh.turn hL'.le
  have f1 : ∀ x, x / g.L * g.θ = x * (g.θ / g.L) := fun x => by ring
  have f2 : ∀ x, x / h.L * h.θ = x * (h.θ / h.L) := fun x => by ring
  refine ⟨⟨by rw [hc]; exact hd, by rw [he]; norm_num, by rw [hc, he]; linarith, ?_, by rw [he]; linarith, by linarith,
    by rw [he]; linarith, turns' hg (by linarith) (by linarith) t1 t2, turns' hg (by linarith) (by linarith) t1 t2,
    turns' hh (by linarith) le_rfl t3 t4, ?_⟩, hl, hh'⟩
  · rw [hc, he]
    have k1 : 0.2 ^ 2 ≤ (g.L - o) ^ 2 := pow_le_pow_left₀ (by norm_num) (by linarith) 2
    have k2 : 0.2 ^ 2 * 0.1 ≤ (g.L - o) ^ 2 * h.L := mul_le_mul k1 (by linarith) (by norm_num) (sq_nonneg _)
    have k3 : 0.2 ^ 2 * 0.1 * (1 / 2) ≤ (g.L - o) ^ 2 * h.L * sin (arccos c) :=
      mul_le_mul k2 hbd (by norm_num) (by positivity)
    exact le_trans (by norm_num) k3
  · rw [f1, f2] at hs
    simp only [f1, f2] at hdiff ⊢
    have k1 := mul_le_mul_of_nonneg_right hh' m1
    have k2 := mul_le_mul_of_nonneg_right hh' m2
    have k3 := mul_le_mul_of_nonneg_right hl m1
    have k4 := mul_le_mul_of_nonneg_right hl m2
    apply two_turns _ _ hg.axis hh.axis _ _ (mul_nonneg d0.le m1) (mul_nonneg d0.le m2) (by linarith)
    rcases hdiff with k | k
    · left; linarith
    · right; linarith

/-! ### the five legs -/

def leg1 : Leg := ⟨⟨Rot.rpy π 0 0, ⟨-1, 0, 0⟩⟩, ⟨1, 0, 0⟩, 0.5, ⟨-1, 0, 0⟩, π / 2⟩
def leg2 : Leg := ⟨⟨Rot.rpy (π / 2) 0 0, ⟨-0.5, 0, 0⟩⟩, ⟨1, 0, 0⟩, 0.5, ⟨-1, 0, 0⟩, π / 2⟩
def leg3 (a : Vec) (τ : ℝ) : Leg := ⟨⟨Rot.rpy 0 0 0, ⟨0, 0, 0⟩⟩, ⟨1 / √3, 1 / √3, 1 / √3⟩, √3, a, τ⟩
def leg4 (b : Vec) (σ : ℝ) : Leg := ⟨⟨Rot.rpy 0.7 0.7 0.7, ⟨1, 1, 1⟩⟩, ⟨0.5 / √1.74, -0.7 / √1.74, -1 / √1.74⟩, √1.74, b, σ⟩
def leg5 : Leg := ⟨⟨Rot.rpy 0 0.7 0, ⟨1.5, 0.3, 0⟩⟩, ⟨-0.5 / √0.74, 0.7 / √0.74, 0⟩, √0.74, ⟨1, 0, 0⟩, 0.7⟩

theorem leg_end (g : Leg) (hg : g.Ok) (B : Frame) (hM : g.A.M * Rot.rot2 g.a g.θ = B.M) (hp : g.A.p + g.L • g.u = B.p) :
    g.at g.L = B := by
  unfold Leg.at
  rw [div_self hg.long.ne', one_mul, hM, hp]

theorem ok1 : leg1.Ok := ⟨Rot.isProper_rpy _ _ _, by norm_num [leg1, Vec.dot], by norm_num [leg1, Vec.dot], by norm_num [leg1],
  by simp only [leg1]; positivity⟩
theorem ok2 : leg2.Ok := ⟨Rot.isProper_rpy _ _ _, by norm_num [leg2, Vec.dot], by norm_num [leg2, Vec.dot], by norm_num [leg2],
  by simp only [leg2]; positivity⟩
theorem ok3 {a : Vec} {τ : ℝ} (ha : a.dot a = 1) (h : 0 ≤ τ) : (leg3 a τ).Ok := by
  have hr := root3
  have hq : √3 * √3 = 3 := mul_self_sqrt (by norm_num)
  have hpos : 0 < √3 := by linarith
  refine ⟨Rot.isProper_rpy _ _ _, ?_, ha, hpos, h⟩
  simp only [leg3, Vec.dot]
  field_simp
  linarith
theorem ok4 {b : Vec} {σ : ℝ} (hb : b.dot b = 1) (h : 0 ≤ σ) : (leg4 b σ).Ok := by
  have hr := root174
  have hq : √1.74 * √1.74 = 1.74 := mul_self_sqrt (by norm_num)
  have hpos : 0 < √1.74 := by linarith
  refine ⟨Rot.isProper_rpy _ _ _, ?_, hb, hpos, h⟩
  simp only [leg4, Vec.dot]
  rw [div_mul_div_comm, div_mul_div_comm, div_mul_div_comm, hq]
  norm_num
theorem ok5 : leg5.Ok := by
  have hr := root74
  have hq : √0.74 * √0.74 = 0.74 := mul_self_sqrt (by norm_num)
  have hpos : 0 < √0.74 := by linarith
  refine ⟨Rot.isProper_rpy _ _ _, ?_, by norm_num [leg5, Vec.dot], hpos, by norm_num [leg5]⟩
  simp only [leg5, Vec.dot]
  rw [div_mul_div_comm, div_mul_div_comm, hq]
  norm_num

theorem end1 : leg1.at leg1.L = leg2.A := by
  apply leg_end _ ok1
  · ext <;> simp [leg1, leg2, Rot.rpy, Rot.rot2]
  · ext <;> norm_num [leg1, leg2]
theorem end2 (a : Vec) (τ : ℝ) : leg2.at leg2.L = (leg3 a τ).A := by
  apply leg_end _ ok2
  · ext <;> simp [leg3, leg2, Rot.rpy, Rot.rot2]
  · ext <;> norm_num [leg3, leg2]
theorem end5 : leg5.at leg5.L = ⟨Rot.rpy 0.7 0.7 0, ⟨1, 1, 0⟩⟩ := by
  have hr := root74
  have hpos : √0.74 ≠ 0 := by linarith [hr.1]
  apply leg_end _ ok5
  · ext <;> simp [leg5, Rot.rpy, Rot.rot2]
  · ext <;> simp [leg5]
    · field_simp; norm_num
    · field_simp; norm_num

/-- The turn from the third to the fourth frame. -/
theorem turn3 : ∃ a τ, a.dot a = 1 ∧ 0.97 ≤ τ ∧ τ ≤ π / 2 ∧ (leg3 a τ).at (leg3 a τ).L = ⟨Rot.rpy 0.7 0.7 0.7, ⟨1, 1, 1⟩⟩ := by
  obtain ⟨c1, c2⟩ := c7
  obtain ⟨s0, s1, s2⟩ := s7
  set c := cos 0.7 with hc
  set s := sin 0.7 with hs
  obtain ⟨a, τ, ha, h0, h1, h2, h3⟩ := as_turn (Rot.rpy 0.7 0.7 0.7) (Rot.isProper_rpy _ _ _) ((3 * c ^ 2 + s ^ 3 - 1) / 2)
    (by simp only [Rot.rpy, ← hc, ← hs]; ring) (by nlinarith [pow_nonneg s0 3]) (by
      have : s ^ 3 ≤ 0.651 ^ 3 := pow_le_pow_left₀ s0 s2 3
      nlinarith)
  have hτ : 0.97 ≤ τ := by
    have k := one_sub_sq_div_two_le_cos (x := τ)
    have : s ^ 3 ≤ 0.651 ^ 3 := pow_le_pow_left₀ s0 s2 3
    by_contra hlt
    have hlt := not_le.mp hlt
    nlinarith
  refine ⟨a, τ, ha, hτ, h1, leg_end _ (ok3 ha h0) _ ?_ ?_⟩
  · show Rot.rpy 0 0 0 * Rot.rot2 a τ = _
    rw [← h3]
    have : Rot.rpy 0 0 0 = 1 := by ext <;> simp [Rot.rpy]
    rw [this, one_mul]
  · have hr := root3
    have hpos : √3 ≠ 0 := by linarith [hr.1]
    ext <;> simp [leg3, hpos]

/-- The turn from the fourth to the fifth frame. -/
theorem turn4 : ∃ b σ, b.dot b = 1 ∧ 0.44 ≤ σ ∧ σ ≤ 0.62 ∧ (leg4 b σ).at (leg4 b σ).L = ⟨Rot.rpy 0 0.7 0, ⟨1.5, 0.3, 0⟩⟩ := by
  obtain ⟨c1, c2⟩ := c7
  obtain ⟨s0, s1, s2⟩ := s7
  have hsc := sin_sq_add_cos_sq 0.7
  set c := cos 0.7 with hc
  set s := sin 0.7 with hs
  have hP : (Rot.rpy 0.7 0.7 0.7).IsProper := Rot.isProper_rpy _ _ _
  have w1 : 0.954 ≤ (1 + c + s * (1 - c)) / 2 := by nlinarith
  have w2 : (1 + c + s * (1 - c)) / 2 ≤ 0.9615 := by nlinarith
  obtain ⟨b, σ, hb, h0, h1, h2, h3⟩ := as_turn ((Rot.rpy 0.7 0.7 0.7).inv * Rot.rpy 0 0.7 0) (hP.inv.mul (Rot.isProper_rpy _ _ _))
    (2 * ((1 + c + s * (1 - c)) / 2) ^ 2 - 1)
    (by
      simp only [Rot.rpy, Rot.mul_m00, Rot.mul_m11, Rot.mul_m22, Rot.inv, ← hc, ← hs, sin_zero, cos_zero]
      linear_combination (2 * c + 2 * s) * hsc)
    (by nlinarith) (by nlinarith)
  have hσ : 0.44 ≤ σ := by
    have k := one_sub_sq_div_two_le_cos (x := σ)
    by_contra hlt
    have hlt := not_le.mp hlt
    nlinarith
  have hσ' : σ ≤ 0.62 := by
    by_contra hlt
    have := cos_lt_cos_of_nonneg_of_le_pi_div_two (show (0:ℝ) ≤ 0.62 by norm_num) h1 (not_le.mp hlt)
    have := c62
    nlinarith
  refine ⟨b, σ, hb, hσ, hσ', leg_end _ (ok4 hb h0) _ ?_ ?_⟩
  · show Rot.rpy 0.7 0.7 0.7 * Rot.rot2 b σ = _
    rw [← h3, ← mul_assoc, hP.1, one_mul]
  · have hr := root174
    have hpos : √1.74 ≠ 0 := by linarith [hr.1]
    ext <;> simp [leg4]
    · field_simp; norm_num
    · field_simp; norm_num
    · field_simp; norm_num

/-! ### the three corners -/

theorem corner1 {a : Vec} {τ : ℝ} (ha : a.dot a = 1) (t1 : 0.97 ≤ τ) (t2 : τ ≤ π / 2) :
    ∃ d, CornerFits 0.2 leg2 (leg3 a τ) 0 d ∧ 0.1 ≤ d ∧ d ≤ 0.11 := by
  obtain ⟨r1, r2⟩ := root3
  have hpos : 0 < √3 := by linarith
  have hp := pi_gt_three
  have hp' := pi_lt_d2
  have hq : √3 * √3 = 3 := mul_self_sqrt (by norm_num)
  have hc1 : 0.577 ≤ 1 / √3 := by rw [le_div_iff₀ hpos]; linarith
  have hc2 : 1 / √3 ≤ 0.578 := by rw [div_le_iff₀ hpos]; linarith
  have hdot : leg2.u.dot (leg3 a τ).u = 1 / √3 := by simp [leg2, leg3, Vec.dot]
  refine ⟨_, fits leg2 (leg3 a τ) ok2 (ok3 ha (by linarith)) 0 (1 / √3) _ 0.1 0.11 hdot (by linarith) (by linarith) rfl (by norm_num)
    (by linarith) (by norm_num) (by linarith) le_rfl (by norm_num [leg2]) (by norm_num [leg2]) ?_ ?_ ?_ ?_ ?_ ?_ ?_⟩
  · show 0.11 + 0.1 ≤ √3; linarith
  · show 1 / 10 ≤ π / 2; linarith
  · exact le_refl (π / 2)
  · show 1 / 10 ≤ τ; linarith
  · exact t2
  · show 0.11 / 0.5 * (π / 2) + 0.11 / √3 * τ ≤ 1
    have : 0.11 / √3 ≤ 0.1 := by rw [div_le_iff₀ hpos]; linarith
    nlinarith
  · right
    show 0.11 / √3 * τ + 1 / 100 ≤ 0.1 / 0.5 * (π / 2)
    have : 0.11 / √3 ≤ 0.1 := by rw [div_le_iff₀ hpos]; linarith
    nlinarith

theorem corner2 {a b : Vec} {τ σ o : ℝ} (ha : a.dot a = 1) (t1 : 0.97 ≤ τ) (t2 : τ ≤ π / 2) (hb : b.dot b = 1) (u1 : 0.44 ≤ σ)
    (u2 : σ ≤ 0.62) (o1 : 0 ≤ o) (o2 : o ≤ 0.11) :
    ∃ d, CornerFits 0.2 (leg3 a τ) (leg4 b σ) o d ∧ 0.35 ≤ d ∧ d ≤ 0.37 := by
  obtain ⟨r1, r2⟩ := root3
  obtain ⟨q1, q2⟩ := root174
  have hpos : 0 < √3 := by linarith
  have hpos' : 0 < √1.74 := by linarith
  have hp := pi_gt_three
  have hp' := pi_lt_d2
  have hprod : 0 < √3 * √1.74 := mul_pos hpos hpos'
  have m1 : 2.2845 ≤ √3 * √1.74 := by nlinarith
  have m2 : √3 * √1.74 ≤ 2.285 := by nlinarith
  have hc1 : -0.5255 ≤ -1.2 / (√3 * √1.74) := by rw [le_div_iff₀ hprod]; linarith
  have hc2 : -1.2 / (√3 * √1.74) ≤ -0.525 := by rw [div_le_iff₀ hprod]; linarith
  have hdot : (leg3 a τ).u.dot (leg4 b σ).u = -1.2 / (√3 * √1.74) := by
    simp only [leg4, leg3, Vec.dot]
    field_simp; norm_num
  refine ⟨_, fits (leg3 a τ) (leg4 b σ) (ok3 ha (by linarith)) (ok4 hb (by linarith)) o _ _ 0.35 0.37 hdot (by linarith) (by linarith)
    rfl (by norm_num) (by linarith) (by norm_num) (by linarith) o1 ?_ ?_ ?_ ?_ ?_ ?_ ?_ ?_ ?_⟩
  · show 0.2 ≤ √3 - 0.37 - o; linarith
  · show √3 ≤ 2; linarith
  · show 0.37 + 0.1 ≤ √1.74; linarith
  · show 1 / 10 ≤ τ; linarith
  · exact t2
  · show 1 / 10 ≤ σ; linarith
  · show σ ≤ π / 2; linarith
  · show 0.37 / √3 * τ + 0.37 / √1.74 * σ ≤ 1
    have k1 : 0.37 / √3 ≤ 0.22 := by rw [div_le_iff₀ hpos]; linarith
    have k2 : 0.37 / √1.74 ≤ 0.29 := by rw [div_le_iff₀ hpos']; linarith
    nlinarith
  · right
    show 0.37 / √1.74 * σ + 1 / 100 ≤ 0.35 / √3 * τ
    have k1 : 0.2 ≤ 0.35 / √3 := by rw [le_div_iff₀ hpos]; linarith
    have k2 : 0.37 / √1.74 ≤ 0.281 := by rw [div_le_iff₀ hpos']; linarith
    nlinarith

theorem corner3 {b : Vec} {σ o : ℝ} (hb : b.dot b = 1) (u1 : 0.44 ≤ σ) (u2 : σ ≤ 0.62) (o1 : 0 ≤ o) (o2 : o ≤ 0.37) :
    ∃ d, CornerFits 0.2 (leg4 b σ) leg5 o d ∧ 0.43 ≤ d ∧ d ≤ 0.44 := by
  obtain ⟨r1, r2⟩ := root74
  obtain ⟨q1, q2⟩ := root174
  have hpos : 0 < √0.74 := by linarith
  have hpos' : 0 < √1.74 := by linarith
  have hp := pi_gt_three
  have hprod : 0 < √1.74 * √0.74 := mul_pos hpos' hpos
  have m1 : 1.1346 ≤ √1.74 * √0.74 := by nlinarith
  have m2 : √1.74 * √0.74 ≤ 1.135 := by nlinarith
  have hc1 : -0.6523 ≤ -0.74 / (√1.74 * √0.74) := by rw [le_div_iff₀ hprod]; linarith
  have hc2 : -0.74 / (√1.74 * √0.74) ≤ -0.6518 := by rw [div_le_iff₀ hprod]; linarith
  have hdot : (leg4 b σ).u.dot leg5.u = -0.74 / (√1.74 * √0.74) := by
    simp only [leg4, leg5, Vec.dot]
    field_simp; norm_num
  refine ⟨_, fits (leg4 b σ) leg5 (ok4 hb (by linarith)) ok5 o _ _ 0.43 0.44 hdot (by linarith) (by linarith)
    rfl (by norm_num) (by linarith) (by norm_num) (by linarith) o1 ?_ ?_ ?_ ?_ ?_ ?_ ?_ ?_ ?_⟩
  · show 0.2 ≤ √1.74 - 0.44 - o; linarith
  · show √1.74 ≤ 2; linarith
  · show 0.44 + 0.1 ≤ √0.74; linarith
  · show 1 / 10 ≤ σ; linarith
  · show σ ≤ π / 2; linarith
  · show (1 / 10 : ℝ) ≤ 0.7; norm_num
  · show (0.7 : ℝ) ≤ π / 2; linarith
  · show 0.44 / √1.74 * σ + 0.44 / √0.74 * 0.7 ≤ 1
    have k1 : 0.44 / √1.74 ≤ 0.34 := by rw [div_le_iff₀ hpos']; linarith
    have k2 : 0.44 / √0.74 ≤ 0.52 := by rw [div_le_iff₀ hpos]; linarith
    nlinarith
  · left
    show 0.44 / √1.74 * σ + 1 / 100 ≤ 0.43 / √0.74 * 0.7
    have k1 : 0.44 / √1.74 ≤ 0.34 := by rw [div_le_iff₀ hpos']; linarith
    have k2 : 0.49 ≤ 0.43 / √0.74 := by rw [le_div_iff₀ hpos]; linarith
    nlinarith

end KDL.TrajExample
