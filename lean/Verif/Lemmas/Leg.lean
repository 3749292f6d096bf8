import Verif.Props.RoundedComposite
import Verif.Model.TextIo

/-! Legs of a rounded path: straight motion with a uniform turn, and the corner between two legs. -/

noncomputable section
namespace KDL
open Real

namespace Rot

theorem IsProper.vee_sq {R : Rot} (h : R.IsProper) :
    (R.m21 - R.m12) ^ 2 + (R.m02 - R.m20) ^ 2 + (R.m10 - R.m01) ^ 2 =
      (3 - (R.m00 + R.m11 + R.m22)) * (1 + (R.m00 + R.m11 + R.m22)) := by
  obtain ⟨⟨c0, c1, c2⟩, ⟨c3, c4, c5⟩, ⟨c6, c7, c8⟩⟩ := h.cof
  obtain ⟨⟨r0, r1, r2⟩, r01, r02, r12⟩ := h.rows
  linear_combination r0 + r1 + r2 + 2 * c0 + 2 * c4 + 2 * c8

/-- A rotation whose trace is away from `3` and `-1` is outside the tolerance band of `GetRotAngle`. -/
theorem IsProper.regular_of_trace {R : Rot} (h : R.IsProper)
    (ht : 3 * epsilon ^ 2 ≤ (3 - (R.m00 + R.m11 + R.m22)) * (1 + (R.m00 + R.m11 + R.m22))) : R.Regular epsilon := by
  rintro ⟨h1, h2, h3⟩
  have hv := h.vee_sq
  have he := epsilon_pos
  have a1 : (R.m10 - R.m01) ^ 2 < epsilon ^ 2 := by
    rw [abs_sub_comm] at h1
    exact sq_lt_sq' (by linarith [(abs_lt.mp h1).1]) (abs_lt.mp h1).2
  have a2 : (R.m02 - R.m20) ^ 2 < epsilon ^ 2 := sq_lt_sq' (by linarith [(abs_lt.mp h2).1]) (abs_lt.mp h2).2
  have a3 : (R.m21 - R.m12) ^ 2 < epsilon ^ 2 := by
    rw [abs_sub_comm] at h3
    exact sq_lt_sq' (by linarith [(abs_lt.mp h3).1]) (abs_lt.mp h3).2
  linarith

theorem rot2_trace (a : Vec) (ha : a.dot a = 1) (p : ℝ) :
    (rot2 a p).m00 + (rot2 a p).m11 + (rot2 a p).m22 = 1 + 2 * cos p := by
  simp only [Vec.dot] at ha
  simp only [rot2]
  linear_combination (1 - cos p) * ha

theorem rot2_regular (a : Vec) (ha : a.dot a = 1) (p : ℝ) (h : epsilon ≤ sin p) : (rot2 a p).Regular epsilon := by
  apply (isProper_rot2 a ha p).regular_of_trace
  rw [rot2_trace a ha]
  have he := epsilon_pos
  have := sin_sq_add_cos_sq p
  nlinarith

theorem trace_mul (a b : Vec) (ha : a.dot a = 1) (hb : b.dot b = 1) (p q : ℝ) :
    (rot2 a p * rot2 b q).m00 + (rot2 a p * rot2 b q).m11 + (rot2 a p * rot2 b q).m22 =
      4 * (cos (p / 2) * cos (q / 2) - a.dot b * (sin (p / 2) * sin (q / 2))) ^ 2 - 1 := by
  have h1 : (rot2 a p * rot2 b q).m00 + (rot2 a p * rot2 b q).m11 + (rot2 a p * rot2 b q).m22 =
      3 * (cos p * cos q) + cos p * (1 - cos q) * b.dot b + (1 - cos p) * cos q * a.dot a - 2 * sin p * sin q * a.dot b +
        (1 - cos p) * (1 - cos q) * (a.dot b) ^ 2 := by
    simp only [mul_m00, mul_m11, mul_m22, rot2, Vec.dot]; ring
  rw [h1, ha, hb]
  have e1 : cos p = 1 - 2 * sin (p / 2) ^ 2 := by
    have := cos_two_mul (p / 2); rw [show 2 * (p / 2) = p by ring] at this; rw [this, cos_sq']; ring
  have e2 : cos q = 1 - 2 * sin (q / 2) ^ 2 := by
    have := cos_two_mul (q / 2); rw [show 2 * (q / 2) = q by ring] at this; rw [this, cos_sq']; ring
  have e3 : sin p = 2 * sin (p / 2) * cos (p / 2) := by rw [← sin_two_mul]; congr 1; ring
  have e4 : sin q = 2 * sin (q / 2) * cos (q / 2) := by rw [← sin_two_mul]; congr 1; ring
  have f1 := sin_sq_add_cos_sq (p / 2)
  have f2 := sin_sq_add_cos_sq (q / 2)
  rw [e1, e2, e3, e4]
  generalize sin (p / 2) = S at *
  generalize sin (q / 2) = T at *
  generalize cos (p / 2) = C at *
  generalize cos (q / 2) = D at *
  generalize a.dot b = k
  linear_combination (-4 * D ^ 2) * f1 + (-4 + 4 * S ^ 2) * f2

theorem dot_unit_le (a b : Vec) (ha : a.dot a = 1) (hb : b.dot b = 1) : -1 ≤ a.dot b ∧ a.dot b ≤ 1 := by
  simp only [Vec.dot] at *
  constructor <;> nlinarith [sq_nonneg (a.x - b.x), sq_nonneg (a.y - b.y), sq_nonneg (a.z - b.z), sq_nonneg (a.x + b.x),
    sq_nonneg (a.y + b.y), sq_nonneg (a.z + b.z)]

/-- Two turns by different angles, one after the other, amount to a turn outside the tolerance band, whatever the axes. -/
theorem mul_regular (a b : Vec) (ha : a.dot a = 1) (hb : b.dot b = 1) (p q : ℝ) (hp : 0 ≤ p) (hq : 0 ≤ q) (hpq : p + q ≤ π)
    (h : epsilon ≤ cos ((p + q) / 2) * |sin ((p - q) / 2)|) : (rot2 a p * rot2 b q).Regular epsilon := by
  apply ((isProper_rot2 a ha p).mul (isProper_rot2 b hb q)).regular_of_trace
  rw [trace_mul a b ha hb]
  obtain ⟨k1, k2⟩ := dot_unit_le a b ha hb
  have he := epsilon_pos
  have c1 : cos ((p + q) / 2) = cos (p / 2) * cos (q / 2) - sin (p / 2) * sin (q / 2) := by
    rw [← cos_add]; congr 1; ring
  have c2 : cos ((p - q) / 2) = cos (p / 2) * cos (q / 2) + sin (p / 2) * sin (q / 2) := by
    rw [← cos_sub]; congr 1; ring
  have s1 : 0 ≤ sin (p / 2) * sin (q / 2) :=
    mul_nonneg (sin_nonneg_of_nonneg_of_le_pi (by linarith) (by linarith [pi_pos]))
      (sin_nonneg_of_nonneg_of_le_pi (by linarith) (by linarith [pi_pos]))
  have c0 : 0 ≤ cos ((p + q) / 2) := cos_nonneg_of_neg_pi_div_two_le_of_le (by linarith [pi_pos]) (by linarith)
  set w := cos (p / 2) * cos (q / 2) - a.dot b * (sin (p / 2) * sin (q / 2)) with hw
  have w1 : cos ((p + q) / 2) ≤ w := by rw [c1, hw]; nlinarith
  have w2 : w ≤ cos ((p - q) / 2) := by rw [c2, hw]; nlinarith
  have t1 : cos ((p + q) / 2) ^ 2 ≤ w ^ 2 := by nlinarith
  have t2 : w ^ 2 ≤ cos ((p - q) / 2) ^ 2 := by nlinarith
  have t3 : sin ((p - q) / 2) ^ 2 ≤ 1 - w ^ 2 := by have := sin_sq_add_cos_sq ((p - q) / 2); linarith
  have t4 : epsilon ^ 2 ≤ cos ((p + q) / 2) ^ 2 * sin ((p - q) / 2) ^ 2 := by
    rw [← sq_abs (sin _), ← mul_pow]
    exact pow_le_pow_left₀ he.le h 2
  have t5 : cos ((p + q) / 2) ^ 2 * sin ((p - q) / 2) ^ 2 ≤ w ^ 2 * (1 - w ^ 2) :=
    mul_le_mul t1 t3 (sq_nonneg _) (sq_nonneg _)
  nlinarith [sq_nonneg epsilon]

end Rot

/-! ### legs -/

/-- A straight motion over the distance `L` in direction `u` with a uniform turn by `θ` about the axis `a` of the start
orientation. -/
structure Leg where
  A : Frame
  u : Vec
  L : ℝ
  a : Vec
  θ : ℝ

/-- The frame at distance `o` from the start. -/
def Leg.at (g : Leg) (o : ℝ) : Frame := ⟨g.A.M * Rot.rot2 g.a (o / g.L * g.θ), g.A.p + o • g.u⟩

structure Leg.Ok (g : Leg) : Prop where
  proper : g.A.IsProper
  dir : g.u.dot g.u = 1
  axis : g.a.dot g.a = 1
  long : 0 < g.L
  turn : 0 ≤ g.θ

/-- The turn over the distance `o` is nothing or outside the tolerance band of `GetRotAngle`. -/
def Leg.Turns (g : Leg) (o : ℝ) : Prop := g.θ = 0 ∨ (o / g.L * g.θ < π ∧ epsilon ≤ sin (o / g.L * g.θ))

namespace Leg
variable {g : Leg}

theorem at_zero (g : Leg) : g.at 0 = g.A := by
  unfold Leg.at
  rw [zero_div, zero_mul, Rot.rot2_zero]
  ext <;> simp

theorem Ok.proper_at (h : g.Ok) (o : ℝ) : (g.at o).IsProper := Rot.IsProper.mul h.proper (Rot.isProper_rot2 _ h.axis _)

/-- Relative orientation of two frames of a leg. -/
theorem Ok.rel (h : g.Ok) (o1 o2 : ℝ) : (g.at o1).M.inv * (g.at o2).M = Rot.rot2 g.a ((o2 - o1) / g.L * g.θ) := by
  have e : (g.at o2).M = (g.at o1).M * Rot.rot2 g.a ((o2 - o1) / g.L * g.θ) := by
    unfold Leg.at
    dsimp only
    rw [mul_assoc, Rot.rot2_mul _ h.axis]
    congr 2
    ring
  rw [e, ← mul_assoc, Rot.IsProper.inv_mul_self (h.proper_at o1), one_mul]

theorem disp (g : Leg) (o1 o2 : ℝ) : (g.at o2).p - (g.at o1).p = (o2 - o1) • g.u := by
  unfold Leg.at
  dsimp only
  rw [sub_smul]; abel

theorem Ok.normalize (h : g.Ok) (o1 o2 : ℝ) (ho : 2 * epsilon ≤ o2 - o1) :
    ((g.at o2).p - (g.at o1).p).normalize = (g.u, o2 - o1) := by
  have hpos : 0 < o2 - o1 := by have := epsilon_pos; linarith
  rw [disp]
  have hl := dir_smul _ g.u hpos h.dir
  have hn : epsilon ≤ ((o2 - o1) • g.u).norm := norm_of_len _ (by rw [hl.2]; exact ho)
  have := (Vec.normalize_of_le _ hn).1
  rw [this, hl.2]
  refine Prod.ext ?_ rfl
  show ((o2 - o1) • g.u) / (o2 - o1) = g.u
  rw [Vec.div_eq_smul, smul_smul, inv_mul_cancel₀ hpos.ne', one_smul]

/-- The axis and angle found for two frames of a leg. -/
theorem Ok.angle (h : g.Ok) (o1 o2 : ℝ) (ho : 0 < o2 - o1) (ht : g.Turns (o2 - o1)) :
    ((g.at o1).M.inv * (g.at o2).M).getRotAngle.2 = (o2 - o1) / g.L * g.θ ∧
      ∀ x, Rot.rot2 ((g.at o1).M.inv * (g.at o2).M).getRotAngle.1 (x * ((o2 - o1) / g.L * g.θ)) =
        Rot.rot2 g.a (x * ((o2 - o1) / g.L * g.θ)) := by
  rw [h.rel]
  rcases ht with ht | ⟨ht1, ht2⟩
  · rw [ht, mul_zero, Rot.rot2_zero, Rot.getRotAngle_one]
    refine ⟨rfl, fun x => ?_⟩
    rw [mul_zero, Rot.rot2_zero, Rot.rot2_zero]
  · have hp : 0 < (o2 - o1) / g.L * g.θ := by
      have h0 : 0 ≤ (o2 - o1) / g.L * g.θ := mul_nonneg (div_nonneg ho.le h.long.le) h.turn
      rcases h0.lt_or_eq with k | k
      · exact k
      · rw [← k, sin_zero] at ht2
        exact absurd ht2 (not_le.mpr epsilon_pos)
    rw [C08_recovers g.a h.axis _ ⟨hp, ht1⟩ epsilon le_rfl (Rot.rot2_regular _ h.axis _ ht2)]
    exact ⟨rfl, fun x => rfl⟩

theorem Turns.resolved (h : g.Ok) {o1 o2 : ℝ} (ht : g.Turns (o2 - o1)) : ((g.at o1).M.inv * (g.at o2).M).Resolved := by
  rw [h.rel]
  rcases ht with ht | ht
  · rw [ht, mul_zero, Rot.rot2_zero]; exact Rot.one_resolved
  · exact Or.inl (Rot.rot2_regular _ h.axis _ ht.2)

theorem Ok.lineOk (h : g.Ok) {o1 o2 : ℝ} (ho : 2 * epsilon ≤ o2 - o1) (ht : g.Turns (o2 - o1)) : LineOk (g.at o1) (g.at o2) := by
  refine ⟨h.proper_at _, h.proper_at _, ?_, ht.resolved h⟩
  right
  by_contra hc
  push Not at hc
  have hn : epsilon ≤ ((g.at o2).p - (g.at o1).p).norm := norm_of_len _ (by
    rw [disp, (dir_smul _ g.u (by have := epsilon_pos; linarith) h.dir).2]; exact ho)
  have hl := (Vec.normalize_of_le _ hn).2
  have hl2 := Vec.len_sq ((g.at o2).p - (g.at o1).p)
  rw [← hl] at hl2
  have hlen : ((g.at o2).p - (g.at o1).p).norm = o2 - o1 := by
    rw [hl, disp, (dir_smul _ g.u (by have := epsilon_pos; linarith) h.dir).2]
  have he := epsilon_pos
  obtain ⟨h1, h2, h3⟩ := hc
  have b : ∀ {x : ℝ}, |x| < epsilon → x ^ 2 < epsilon ^ 2 := fun {x} hx =>
    sq_lt_sq' (by linarith [(abs_lt.mp hx).1]) (abs_lt.mp hx).2
  have q1 := b h1
  have q2 := b h2
  have q3 := b h3
  rw [hlen] at hl2
  simp only [Vec.dot] at hl2
  nlinarith

/-- A line between two frames of a leg runs along the leg. -/
theorem Ok.line (h : g.Ok) (o1 o2 eq len : ℝ) (ho : 2 * epsilon ≤ o2 - o1) (ht : g.Turns (o2 - o1)) :
    ∃ s, (PathLine.ofFrames (g.at o1) (g.at o2) eq).lengthToS len = some s ∧
      (PathLine.ofFrames (g.at o1) (g.at o2) eq).pos s = g.at (o1 + len) := by
  have hpos : 0 < o2 - o1 := by have := epsilon_pos; linarith
  obtain ⟨h1, h2⟩ := h.angle o1 o2 hpos ht
  have hn := h.normalize o1 o2 ho
  have hp0 : 0 ≤ (o2 - o1) / g.L * g.θ := mul_nonneg (div_nonneg hpos.le h.long.le) h.turn
  set l := PathLine.ofFrames (g.at o1) (g.at o2) eq with hl
  have hsc : l.scalelin ≠ 0 ∧ len / l.scalelin * l.scalelin = len ∧
      len / l.scalelin * l.scalerot = len / (o2 - o1) * ((o2 - o1) / g.L * g.θ) := by
    have e1 : l.scalelin = (PathLine.scales ((g.at o1).M.inv * (g.at o2).M).getRotAngle.2
      ((g.at o2).p - (g.at o1).p).normalize.2 eq).2.2 := rfl
    have e2 : l.scalerot = (PathLine.scales ((g.at o1).M.inv * (g.at o2).M).getRotAngle.2
      ((g.at o2).p - (g.at o1).p).normalize.2 eq).2.1 := rfl
    rw [e1, e2, h1, hn]
    unfold PathLine.scales
    dsimp only
    generalize (o2 - o1) / g.L * g.θ = φ at *
    by_cases hc : φ ≠ 0 ∧ φ * eq > o2 - o1
    · rw [if_pos hc]
      have heq : 0 < φ * eq := lt_trans hpos hc.2
      have heq0 : eq ≠ 0 := by rintro rfl; simp at heq
      dsimp only
      have hφ := hc.1
      refine ⟨(div_pos hpos heq).ne', ?_, ?_⟩
      · field_simp
      · field_simp
    · rw [if_neg hc, if_pos hpos.ne']
      dsimp only
      refine ⟨one_ne_zero, by ring, ?_⟩
      field_simp
  refine ⟨len / l.scalelin, ?_, ?_⟩
  · unfold PathLine.lengthToS
    rw [if_neg hsc.1]
  · have e : l.pos (len / l.scalelin) = ⟨(g.at o1).M * Rot.rot2 ((g.at o1).M.inv * (g.at o2).M).getRotAngle.1
        (len / l.scalelin * l.scalerot), (g.at o1).p + (len / l.scalelin * l.scalelin) •
          ((g.at o2).p - (g.at o1).p).normalize.1⟩ := rfl
    rw [e, hsc.2.1, hsc.2.2, h2, hn]
    unfold Leg.at
    dsimp only
    congr 1
    · rw [mul_assoc, Rot.rot2_mul _ h.axis]
      congr 2
      field_simp
    · rw [add_smul]; abel

end Leg

/-- Construction of a circle succeeds for any orientations. -/
theorem circle_ok (F : Frame) (ctr p : Vec) (Rend : Rot) (alpha eq : ℝ) (ha : 0 < alpha)
    (h1 : epsilon ≤ (F.p - ctr).norm) (h2 : epsilon ≤ ((F.p - ctr).normalize.1 * (p - ctr).normalize.1).norm) :
    ∃ C, PathCircle.new F ctr p Rend alpha eq = .ok C := by
  obtain ⟨n1, l1⟩ := Vec.normalize_of_le _ h1
  obtain ⟨n2, l2⟩ := Vec.normalize_of_le _ h2
  have hp : 0 < (F.p - ctr).len := l1 ▸ lt_of_lt_of_le epsilon_pos h1
  have e1 : ¬ (F.p - ctr).normalize.2 < epsilon := by rw [n1, ← l1]; exact not_lt.mpr h1
  have e2 : ¬ ((F.p - ctr).normalize.1 * (p - ctr).normalize.1).normalize.2 < epsilon := by
    rw [n2, ← l2]; exact not_lt.mpr h2
  have e3 : (F.p - ctr).normalize.2 = (F.p - ctr).len := by rw [n1]
  unfold PathCircle.new
  dsimp only
  rw [if_neg e1, if_neg e2, e3]
  have : 0 < alpha * (F.p - ctr).len := mul_pos ha hp
  by_cases hc : (F.M.inv * Rend).getRotAngle.2 * eq > alpha * (F.p - ctr).len
  · rw [if_pos hc, if_neg (lt_trans this hc).ne']
    exact ⟨_, rfl⟩
  · rw [if_neg hc, if_neg this.ne']
    exact ⟨_, rfl⟩

/-! ### a corner between two legs -/

theorem cornerAngle_smul (k m : ℝ) (u w : Vec) (hu : u.dot u = 1) (hw : w.dot w = 1) (hk : 2 * epsilon ≤ k) (hm : 2 * epsilon ≤ m) :
    RoundedComposite.cornerAngle (k • u) (m • w) = arccos (u.dot w) := by
  have he := epsilon_pos
  have hk0 : 0 < k := by linarith
  have hm0 : 0 < m := by linarith
  have a1 := dir_smul k u hk0 hu
  have a2 := dir_smul m w hm0 hw
  have n1 : (k • u).norm = k := by
    rw [(normalize_dir _ (norm_of_len _ (by rw [a1.2]; exact hk))).2.2, a1.2]
  have n2 : (m • w).norm = m := by
    rw [(normalize_dir _ (norm_of_len _ (by rw [a2.2]; exact hm))).2.2, a2.2]
  obtain ⟨b1, b2⟩ := Rot.dot_unit_le u w hu hw
  unfold RoundedComposite.cornerAngle
  rw [n1, n2, Vec.smul_dot, Vec.dot_smul]
  have : k * (m * u.dot w) / k / m = u.dot w := by field_simp
  rw [this, min_eq_left b2, max_eq_right b1]

theorem normal_len (k m : ℝ) (u w : Vec) (hu : u.dot u = 1) (hw : w.dot w = 1) (hm : 0 ≤ m) :
    (k • u * (k • u * m • w)).len = k ^ 2 * m * sin (arccos (u.dot w)) := by
  have e : (k • u * (k • u * m • w)).dot (k • u * (k • u * m • w)) = (k ^ 2 * m) ^ 2 * (1 - (u.dot w) ^ 2) := by
    have : (k • u * (k • u * m • w)).dot (k • u * (k • u * m • w)) =
        (k ^ 2 * m) ^ 2 * (u.dot u * (u.dot u * w.dot w - (u.dot w) ^ 2)) := by
      simp [Vec.dot]; ring
    rw [this, hu, hw]; ring
  rw [Vec.len_eq_sqrt_dot, e, sqrt_mul (sq_nonneg _), sqrt_sq (by positivity), sin_arccos]

/-- Side conditions of the corner between the legs `g` and `h`, reached from offset `o` of `g` with rounding radius `r`;
`d` is the distance from the corner at which the circle touches the legs. -/
structure CornerFits (r : ℝ) (g h : Leg) (o d : ℝ) : Prop where
  dist : d = r / tan ((π - arccos (g.u.dot h.u)) / 2)
  radius : 2 * epsilon ≤ r
  bend : 2 * epsilon ≤ sin (arccos (g.u.dot h.u))
  area : 2 * epsilon ≤ (g.L - o) ^ 2 * h.L * sin (arccos (g.u.dot h.u))
  before : 2 * epsilon ≤ g.L - d - o
  after : d < h.L
  long : 2 * epsilon ≤ h.L
  /-- the turns are outside the tolerance band of `GetRotAngle` -/
  turn1 : g.Turns (g.L - o)
  turn2 : g.Turns (g.L - d - o)
  turn3 : h.Turns h.L
  turn4 : (Rot.rot2 g.a (d / g.L * g.θ) * Rot.rot2 h.a (d / h.L * h.θ)).Resolved

theorem CornerFits.d_pos {r : ℝ} {g h : Leg} {o d : ℝ} (hc : CornerFits r g h o d) : 0 < d := by
  have he := epsilon_pos
  have hs : 0 < sin (arccos (g.u.dot h.u)) := by linarith [hc.bend]
  have h0 : 0 < arccos (g.u.dot h.u) := by
    rcases (arccos_nonneg (g.u.dot h.u)).lt_or_eq with k | k
    · exact k
    · rw [← k, sin_zero] at hs; exact absurd hs (lt_irrefl _)
  have h1 : arccos (g.u.dot h.u) < π := by
    rcases (arccos_le_pi (g.u.dot h.u)).lt_or_eq with k | k
    · exact k
    · rw [k, sin_pi] at hs; exact absurd hs (lt_irrefl _)
  rw [hc.dist]
  exact div_pos (by linarith [hc.radius]) (tan_pos_of_pos_of_lt_pi_div_two (by linarith) (by linarith))

/-- Adding the end of the leg `h` at a corner. -/
theorem Leg.corner (R : RoundedComposite) (g h : Leg) (hg : g.Ok) (hh : h.Ok) (o d : ℝ) (h2 : 2 ≤ R.nrofpoints)
    (hS : R.F_base_start = g.at o) (hV : R.F_base_via = g.at g.L) (hA : h.A = g.at g.L) (hc : CornerFits R.radius g h o d) :
    0 < d ∧ StepOk R (h.at h.L) ∧ ∃ C : PathCircle, C.pos 0 = g.at (g.L - d) ∧
      TextIo.addedParts R (h.at h.L) = [.inl (PathLine.ofFrames (g.at o) (g.at (g.L - d)) R.eqradius), .inr C] ∧
      R.add (h.at h.L) = (.ok (), { R with
        comp := (R.comp.add (PathLine.ofFrames (g.at o) (g.at (g.L - d)) R.eqradius).toPath).add C.toPath
        F_base_start := h.at d, F_base_via := h.at h.L, nrofpoints := R.nrofpoints + 1 }) := by
  have he := epsilon_pos
  have hev : epsilon = 1 / 10 ^ 6 := by norm_num [epsilon]
  have hA0 : h.at 0 = g.at g.L := by rw [Leg.at_zero, hA]
  have hab : (g.at g.L).p - (g.at o).p = (g.L - o) • g.u := Leg.disp g o g.L
  have hbc : (h.at h.L).p - (g.at g.L).p = h.L • h.u := by rw [← hA0, Leg.disp, sub_zero]
  have hα : RoundedComposite.cornerAngle ((g.at g.L).p - (g.at o).p) ((h.at h.L).p - (g.at g.L).p) =
      arccos (g.u.dot h.u) := by
    rw [hab, hbc]
    exact cornerAngle_smul _ _ _ _ hg.dir hh.dir (by linarith [hc.before, hc.d_pos]) hc.long
  have l1 := dir_smul (g.L - o) g.u (by linarith [hc.before, hc.d_pos]) hg.dir
  have l2 := dir_smul h.L h.u hh.long hh.dir
  have hok : CornerOk R.radius ((g.at g.L).p - (g.at o).p) ((h.at h.L).p - (g.at g.L).p) := by
    refine ⟨hc.radius, norm_of_len _ ?_, norm_of_len _ ?_, norm_of_len _ ?_⟩
    · rw [hab, l1.2]; linarith [hc.before, hc.d_pos]
    · rw [hbc, l2.2]; exact hc.long
    · rw [hab, hbc, normal_len _ _ _ _ hg.dir hh.dir hh.long.le]; exact hc.area
  obtain ⟨t, t', G⟩ := corner_geo R.radius _ _ hok
  rw [hα, ← hc.dist] at G
  have hd := G.d_pos
  have hgl : 2 * epsilon ≤ g.L - o := by linarith [hc.before]
  obtain ⟨s1, e1, f1⟩ := hg.line o g.L R.eqradius (g.L - o - d) hgl hc.turn1
  obtain ⟨s2, e2, f2⟩ := hh.line 0 h.L R.eqradius d (by rw [sub_zero]; exact hc.long) (by rw [sub_zero]; exact hc.turn3)
  rw [show o + (g.L - o - d) = g.L - d by ring] at f1
  rw [zero_add] at f2
  rw [hA0] at e2 f2
  have n1 : ((g.at g.L).p - (g.at o).p).norm = g.L - o := by rw [G.la, hab, l1.2]
  have n2 : ((h.at h.L).p - (g.at g.L).p).norm = h.L := by rw [G.lb, hbc, l2.2]
  have d1 : dir ((g.at g.L).p - (g.at o).p) = g.u := by rw [hab, l1.1]
  have d2 : dir ((h.at h.L).p - (g.at g.L).p) = h.u := by rw [hbc, l2.1]
  have hcs : (g.at (g.L - d)).p = (g.at g.L).p - d • g.u := by
    unfold Leg.at; dsimp only; rw [sub_smul]; abel
  have hE : (h.at d).p = (g.at g.L).p + d • h.u := by
    rw [← hA0]; unfold Leg.at; dsimp only; rw [zero_smul ℝ]; abel
  have hxt : (g.at (g.L - d)).p - ((g.at (g.L - d)).p - R.radius • t) = R.radius • t := by abel
  have hxt' : (h.at d).p - ((g.at (g.L - d)).p - R.radius • t) = R.radius • t' := by
    rw [← G.centre, d1, d2, hE, hcs]; abel
  have dt := dir_smul _ t G.r_pos G.t_unit
  have dt' := dir_smul _ t' G.r_pos G.t_unit'
  have nt : epsilon ≤ (R.radius • t).norm := norm_of_len _ (by rw [dt.2]; exact hc.radius)
  have nt' : epsilon ≤ (R.radius • t').norm := norm_of_len _ (by rw [dt'.2]; exact hc.radius)
  have ht : (R.radius • t).normalize.1 = t := by rw [(normalize_dir _ nt).1, dt.1]
  have ht' : (R.radius • t').normalize.1 = t' := by rw [(normalize_dir _ nt').1, dt'.1]
  obtain ⟨C, hC⟩ := circle_ok (g.at (g.L - d)) ((g.at (g.L - d)).p - R.radius • t) (h.at d).p (h.at d).M
    (arccos (g.u.dot h.u)) R.eqradius G.pos (by rw [hxt]; exact nt) (by
      rw [hxt, hxt', ht, ht', G.cross]
      exact norm_of_len _ (by rw [G.cross_len]; exact hc.bend))
  have hC0 := C61_start _ _ _ _ _ _ _ hC
  have hcorner : RoundedComposite.corner R.radius R.eqradius (arccos (g.u.dot h.u)) d (g.at o) (g.at g.L) (h.at h.L) =
      some (PathLine.ofFrames (g.at o) (g.at (g.L - d)) R.eqradius, .ok C, h.at d) := by
    unfold RoundedComposite.corner
    dsimp only
    rw [n1, e1, e2]
    dsimp only
    rw [f1, f2, G.normal, hC]
  have hstep : StepOk R (h.at h.L) := by
    intro _
    rw [hS, hV, hα, ← hc.dist]
    refine ⟨fun k => ?_, fun _ l C' E hcor => ?_⟩
    · have := sin_le G.pos.le
      have := hc.bend
      rw [hev] at this
      norm_num at this k
      linarith
    · rw [hcorner] at hcor
      simp only [Option.some.injEq, Prod.mk.injEq, PathRes.ok.injEq] at hcor
      obtain ⟨-, rfl, rfl⟩ := hcor
      refine ⟨hok, ?_, hh.proper_at _, ?_⟩
      · rw [hC0]; exact hg.lineOk (by linarith [hc.before]) (by
          have := hc.turn2
          exact this)
      · rw [hC0]
        have r1 := hg.rel (g.L - d) g.L
        have r2 := hh.rel 0 d
        rw [hA0, sub_zero] at r2
        rw [show g.L - (g.L - d) = d by ring] at r1
        have hp := Rot.IsProper.inv_mul_self (hg.proper_at g.L)
        have hq : (g.at g.L).M * (g.at g.L).M.inv = 1 := (hg.proper_at g.L).1
        have : (g.at (g.L - d)).M.inv * (h.at d).M =
            ((g.at (g.L - d)).M.inv * (g.at g.L).M) * ((g.at g.L).M.inv * (h.at d).M) := by
          rw [mul_assoc, ← mul_assoc (g.at g.L).M, hq, one_mul]
        rw [this, r1, r2]
        exact hc.turn4
  have hs1 : sin (arccos (g.u.dot h.u)) ≤ arccos (g.u.dot h.u) := sin_le G.pos.le
  have hs2 : sin (arccos (g.u.dot h.u)) ≤ π - arccos (g.u.dot h.u) := by
    rw [← sin_pi_sub]; exact sin_le (by linarith [G.lt_pi])
  have hsm : (1 : ℝ) / 10 ^ 7 ≤ epsilon := by rw [hev]; norm_num
  have hsin := hc.bend
  have k1 := not_lt.mpr (hsm.trans hok.first)
  have k2 := not_lt.mpr (hsm.trans hok.second)
  have k3 : ¬ (π - arccos (g.u.dot h.u) < 1 / 10 ^ 7) := by rw [hev] at hsin; norm_num at hsin ⊢; linarith
  have k4 : ¬ (arccos (g.u.dot h.u) < 1 / 10 ^ 7) := by rw [hev] at hsin; norm_num at hsin ⊢; linarith
  have k5 : ¬ (d ≥ ((g.at g.L).p - (g.at o).p).norm) := by rw [n1]; exact not_le.mpr (by linarith [hc.before])
  have k6 : ¬ (d ≥ ((h.at h.L).p - (g.at g.L).p).norm) := by rw [n2]; exact not_le.mpr hc.after
  refine ⟨hd, hstep, C, hC0, ?_, ?_⟩
  · unfold TextIo.addedParts
    rw [if_neg (by omega), if_neg (by omega), hS, hV]
    dsimp only
    rw [hα, if_neg (by tauto), if_neg k4, ← hc.dist, if_neg (by tauto), hcorner]
  · unfold RoundedComposite.add
    rw [if_neg (by omega), if_neg (by omega), hS, hV]
    dsimp only
    rw [if_neg k1, if_neg k2, hα, if_neg k3, if_neg k4, ← hc.dist, if_neg k5, if_neg k6, hcorner]

/-- Adding the end of a leg that continues in the same direction. -/
theorem Leg.straight (R : RoundedComposite) (g h : Leg) (hg : g.Ok) (hh : h.Ok) (h2 : 2 ≤ R.nrofpoints)
    (hS : R.F_base_start = g.at 0) (hV : R.F_base_via = g.at g.L) (hA : h.A = g.at g.L) (hu : h.u = g.u)
    (hgL : 2 * epsilon ≤ g.L) (hhL : 2 * epsilon ≤ h.L) (ht : g.Turns g.L) :
    StepOk R (h.at h.L) ∧
      TextIo.addedParts R (h.at h.L) = [.inl (PathLine.ofFrames (g.at 0) (g.at g.L) R.eqradius)] ∧
      R.add (h.at h.L) = (.ok (), { R with
        comp := R.comp.add (PathLine.ofFrames (g.at 0) (g.at g.L) R.eqradius).toPath
        F_base_start := h.at 0, F_base_via := h.at h.L, nrofpoints := R.nrofpoints + 1 }) := by
  have hA0 : h.at 0 = g.at g.L := by rw [Leg.at_zero, hA]
  have hab : (g.at g.L).p - (g.at 0).p = g.L • g.u := by rw [Leg.disp g 0 g.L, sub_zero]
  have hbc : (h.at h.L).p - (g.at g.L).p = h.L • g.u := by rw [← hA0, Leg.disp, sub_zero, hu]
  have hα : RoundedComposite.cornerAngle ((g.at g.L).p - (g.at 0).p) ((h.at h.L).p - (g.at g.L).p) = 0 := by
    rw [hab, hbc, cornerAngle_smul _ _ _ _ hg.dir hg.dir hgL hhL, hg.dir, arccos_one]
  have hsm : (1 : ℝ) / 10 ^ 7 ≤ epsilon := by norm_num [epsilon]
  have k1 : ¬ (((g.at g.L).p - (g.at 0).p).norm < 1 / 10 ^ 7) := not_lt.mpr (hsm.trans (norm_of_len _ (by
    rw [hab, (dir_smul _ _ hg.long hg.dir).2]; exact hgL)))
  have k2 : ¬ (((h.at h.L).p - (g.at g.L).p).norm < 1 / 10 ^ 7) := not_lt.mpr (hsm.trans (norm_of_len _ (by
    rw [hbc, (dir_smul _ _ hh.long hg.dir).2]; exact hhL)))
  have k3 : ¬ (π - (0 : ℝ) < 1 / 10 ^ 7) := by have := pi_gt_three; norm_num; linarith
  have k4 : (0 : ℝ) < 1 / 10 ^ 7 := by norm_num
  refine ⟨fun _ => ?_, ?_, ?_⟩
  · rw [hS, hV, hα]
    refine ⟨fun _ => hg.lineOk (by rw [sub_zero]; exact hgL) (by rw [sub_zero]; exact ht), fun k => absurd k4 (not_lt.mpr k)⟩
  · unfold TextIo.addedParts
    rw [if_neg (by omega), if_neg (by omega), hS, hV]
    dsimp only
    rw [hα, if_neg (by tauto), if_pos k4]
  · unfold RoundedComposite.add
    rw [if_neg (by omega), if_neg (by omega), hS, hV]
    dsimp only
    rw [if_neg k1, if_neg k2, hα, if_neg k3, if_pos k4, hA0]

end KDL
