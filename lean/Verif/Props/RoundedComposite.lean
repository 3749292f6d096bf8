import Verif.Lemmas.Corner
import Verif.Props.PathComposite

/-!
# C63: `Path_RoundedComposite`

Between two lines a circle of the given radius is inserted that is tangent to both, so that the path is continuous and
its direction is too.
-/

noncomputable section
namespace KDL
open Real

/-- Unit vector in the direction of `v`. -/
def dir (v : Vec) : Vec := (1 / v.len) • v

/-! ### helpers -/

theorem dir_unit (v : Vec) (h : 0 < v.len) : (dir v).dot (dir v) = 1 := by
  unfold dir
  rw [Vec.smul_dot, Vec.dot_smul, ← Vec.len_sq]
  field_simp

theorem len_dir (v : Vec) (h : 0 < v.len) : v = v.len • dir v := by
  unfold dir
  rw [smul_smul, mul_one_div_cancel h.ne', one_smul]

theorem normalize_dir (v : Vec) (h : epsilon ≤ v.norm) : v.normalize.1 = dir v ∧ 0 < v.len ∧ v.norm = v.len := by
  obtain ⟨h1, h2⟩ := Vec.normalize_of_le v h
  refine ⟨?_, h2 ▸ lt_of_lt_of_le epsilon_pos h, h2⟩
  rw [h1]; unfold dir
  rw [Vec.div_eq_smul, one_div]

theorem dir_smul (k : ℝ) (t : Vec) (hk : 0 < k) (ht : t.dot t = 1) : dir (k • t) = t ∧ (k • t).len = k := by
  have hl : (k • t).len = k := by rw [Vec.len_smul_unit k t ht, abs_of_pos hk]
  refine ⟨?_, hl⟩
  unfold dir
  rw [hl, smul_smul, one_div_mul_cancel hk.ne', one_smul]

theorem norm_of_len (v : Vec) (h : 2 * epsilon ≤ v.len) : epsilon ≤ v.norm := by
  rw [Vec.norm_eq _ _ epsilon_pos]
  have he := epsilon_pos
  split_ifs with hc
  · exfalso
    obtain ⟨h1, h2, h3⟩ := hc
    have hl : v.len ^ 2 = v.dot v := Vec.len_sq v
    have a1 : v.x ^ 2 < epsilon ^ 2 := sq_lt_sq' (by linarith [abs_lt.mp h3]) (abs_lt.mp h3).2
    have a2 : v.y ^ 2 < epsilon ^ 2 := by
      have := lt_of_le_of_lt h1 h3
      exact sq_lt_sq' (by linarith [abs_lt.mp this]) (abs_lt.mp this).2
    have a3 : v.z ^ 2 < epsilon ^ 2 := by
      have := lt_of_le_of_lt h2 h3
      exact sq_lt_sq' (by linarith [abs_lt.mp this]) (abs_lt.mp this).2
    have a4 : (2 * epsilon) ^ 2 ≤ v.len ^ 2 := pow_le_pow_left₀ (by linarith) h 2
    rw [hl] at a4
    simp only [Vec.dot] at a4
    nlinarith
  · linarith

theorem line_at (A B : Frame) (eq len s : ℝ) (h : (PathLine.ofFrames A B eq).lengthToS len = some s) :
    ((PathLine.ofFrames A B eq).pos s).p = A.p + len • (B.p - A.p).normalize.1 := by
  unfold PathLine.lengthToS at h
  split_ifs at h with hc
  injection h with h
  subst h
  have : ((PathLine.ofFrames A B eq).pos (len / (PathLine.ofFrames A B eq).scalelin)).p = A.p +
    (len / (PathLine.ofFrames A B eq).scalelin * (PathLine.ofFrames A B eq).scalelin) • (B.p - A.p).normalize.1 := rfl
  rw [this, div_mul_cancel₀ _ hc]

/-- The angle used for a corner is the angle between the two segments. -/
theorem cornerAngle_cos (ab bc : Vec) (ha : epsilon ≤ ab.norm) (hb : epsilon ≤ bc.norm) :
    cos (RoundedComposite.cornerAngle ab bc) = (dir ab).dot (dir bc) := by
  obtain ⟨-, pa, na⟩ := normalize_dir ab ha
  obtain ⟨-, pb, nb⟩ := normalize_dir bc hb
  have ua := dir_unit ab pa
  have ub := dir_unit bc pb
  have hq : ab.dot bc / ab.norm / bc.norm = (dir ab).dot (dir bc) := by
    rw [na, nb]; unfold dir; rw [Vec.smul_dot, Vec.dot_smul]; field_simp
  have hcs : ((dir ab).dot (dir bc)) ^ 2 ≤ 1 := by
    have : ((dir ab) * (dir bc)).dot ((dir ab) * (dir bc)) =
        (dir ab).dot (dir ab) * (dir bc).dot (dir bc) - ((dir ab).dot (dir bc)) ^ 2 := by
      simp [Vec.dot]; ring
    have h2 : 0 ≤ ((dir ab) * (dir bc)).dot ((dir ab) * (dir bc)) := by
      simp only [Vec.dot]; nlinarith [sq_nonneg ((dir ab) * (dir bc)).x, sq_nonneg ((dir ab) * (dir bc)).y,
        sq_nonneg ((dir ab) * (dir bc)).z]
    rw [this, ua, ub] at h2
    linarith
  obtain ⟨h1, h2⟩ := abs_le.mp ((sq_le_one_iff_abs_le_one _).mp hcs)
  unfold RoundedComposite.cornerAngle
  rw [hq, min_eq_left h2, max_eq_right h1, cos_arccos h1 h2]

/-! ### C63 -/

/-- Numerical side conditions of a corner: the two segments, their double cross product and the radius are outside the
tolerance bands of `Normalize`, and the segments are not parallel. -/
structure CornerOk (r : ℝ) (a b : Vec) : Prop where
  radius : 2 * epsilon ≤ r
  first : epsilon ≤ a.norm
  second : epsilon ≤ b.norm
  normal : epsilon ≤ (a * (a * b)).norm

/-- Facts about the geometry of a corner: `t` and `t'` are the unit vectors from the centre to the two tangent points. -/
structure CornerGeo (r : ℝ) (a b t t' : Vec) (alpha d : ℝ) : Prop where
  r_pos : 0 < r
  na : a.normalize.1 = dir a
  nb : b.normalize.1 = dir b
  la : a.norm = a.len
  lb : b.norm = b.len
  pa : 0 < a.len
  pb : 0 < b.len
  cos : Real.cos alpha = (dir a).dot (dir b)
  pos : 0 < alpha
  lt_pi : alpha < π
  sin_pos : 0 < Real.sin alpha
  d_pos : 0 < d
  normal : (a * (a * b)).normalize.1 = t
  t_def : t = (1 / Real.sin alpha) • (((dir a).dot (dir b)) • dir a - dir b)
  t_unit : t.dot t = 1
  t_unit' : t'.dot t' = 1
  centre : d • dir b + d • dir a + r • t = r • t'
  cross : t * t' = dir a * dir b
  cross_len : (dir a * dir b).len = Real.sin alpha
  frame : ((1 / Real.sin alpha) • (dir a * dir b)) * t = dir a
  turn : Rot.rot2 ((1 / Real.sin alpha) • (dir a * dir b)) alpha * t = t'

theorem corner_geo (r : ℝ) (a b : Vec) (h : CornerOk r a b) : ∃ t t', CornerGeo r a b t t'
    (RoundedComposite.cornerAngle a b) (r / tan ((π - RoundedComposite.cornerAngle a b) / 2)) := by
  set alpha := RoundedComposite.cornerAngle a b with halpha
  set d := r / tan ((π - alpha) / 2) with hdef
  set u := dir a with hudef
  set w := dir b with hwdef
  obtain ⟨na, pa, la⟩ := normalize_dir _ h.first
  obtain ⟨nb, pb, lb⟩ := normalize_dir _ h.second
  obtain ⟨nn, pn, ln⟩ := normalize_dir _ h.normal
  have hr : 0 < r := lt_of_lt_of_le (by have := epsilon_pos; linarith) h.radius
  have hu : u.dot u = 1 := dir_unit _ pa
  have hw : w.dot w = 1 := dir_unit _ pb
  have hcos : cos alpha = u.dot w := cornerAngle_cos _ _ h.first h.second
  have hab : a = a.len • u := len_dir _ pa
  have hbc : b = b.len • w := len_dir _ pb
  have ha0 : 0 ≤ alpha := arccos_nonneg _
  have ha1 : alpha ≤ π := arccos_le_pi _
  have hdd : a * (a * b) =
      (a.len ^ 2 * b.len) • ((u.dot w) • u - w) := by
    have e1 : u * (u * w) = (u.dot w) • u - w := by
      simp only [Vec.dot] at hu ⊢
      ext <;> simp
      · linear_combination w.x * -hu
      · linear_combination w.y * -hu
      · linear_combination w.z * -hu
    conv_lhs => rw [hab, hbc]
    rw [Vec.smul_cross, Vec.cross_smul, Vec.smul_cross, Vec.cross_smul, Vec.cross_smul, e1, smul_smul, smul_smul, pow_two]
    congr 1; ring
  have hsin : 0 < sin alpha := by
    rcases (sin_nonneg_of_nonneg_of_le_pi ha0 ha1).lt_or_eq with k | k
    · exact k
    · exfalso
      have k2 : u.dot w ^ 2 = 1 := by
        have := sin_sq_add_cos_sq alpha
        rw [← k, hcos] at this; linarith
      have k3 : ((u.dot w) • u - w).dot ((u.dot w) • u - w) = 0 := by
        have : ((u.dot w) • u - w).dot ((u.dot w) • u - w) =
            u.dot w ^ 2 * u.dot u - 2 * (u.dot w) * (u.dot w) + w.dot w := by
          simp only [Vec.dot, Vec.sub_x, Vec.sub_y, Vec.sub_z, Vec.smul_x, Vec.smul_y, Vec.smul_z]; ring
        rw [this, hu, hw]; linarith
      have k4 : (a * (a * b)).len = 0 := by
        rw [Vec.len_eq_sqrt_dot, hdd, Vec.smul_dot, Vec.dot_smul, k3]; simp
      linarith
  have h0 : 0 < alpha := lt_of_le_of_ne ha0 (fun e => by rw [← e, sin_zero] at hsin; exact lt_irrefl _ hsin)
  have h1 : alpha < π := lt_of_le_of_ne ha1 (fun e => by rw [e, sin_pi] at hsin; exact lt_irrefl _ hsin)
  have hs2 : sin alpha ^ 2 = 1 - (u.dot w) ^ 2 := by
    have := sin_sq_add_cos_sq alpha
    rw [hcos] at this; linarith
  have hd := corner_dist r alpha h0 h1
  have hd0 : 0 < d := by
    have hcl : cos alpha < 1 := by
      have := cos_lt_cos_of_nonneg_of_le_pi le_rfl h1.le h0
      rwa [cos_zero] at this
    have : 0 < d * sin alpha := by rw [hd]; exact mul_pos hr (by linarith)
    exact pos_of_mul_pos_left this hsin.le
  obtain ⟨t1, t2⟩ := corner_t u w (u.dot w) (sin alpha) hu hw rfl hs2 hsin
  obtain ⟨t3, t4⟩ := corner_t' u w (u.dot w) (sin alpha) hu hw rfl hs2 hsin
  obtain ⟨z1, z2⟩ := corner_z u w (u.dot w) (sin alpha) hu hw rfl hs2 hsin
  have zf := corner_frame u w (u.dot w) (sin alpha) hu hw rfl hs2 hsin
  obtain ⟨r1, r2⟩ := corner_turn u w (u.dot w) (sin alpha) hu hw rfl hs2 hsin alpha hcos rfl
  set t := (1 / sin alpha) • ((u.dot w) • u - w) with ht
  set t' := (1 / sin alpha) • (u - (u.dot w) • w) with ht'
  have hddt : a * (a * b) = (a.len ^ 2 * b.len * sin alpha) • t := by
    rw [hdd, ht, smul_smul]; congr 1; field_simp
  have hnt : (a * (a * b)).normalize.1 = t := by
    rw [nn, hddt]; exact (dir_smul _ t (by positivity) t1).1
  refine ⟨t, t', ⟨hr, na, nb, la, lb, pa, pb, hcos, h0, h1, hsin, hd0, hnt, ht, t1, t3, ?_, z1, ?_, zf, r1⟩⟩
  · have k1 : d * sin alpha = r * (1 - u.dot w) := by rw [← hcos]; exact hd
    have k2 : d = r * (1 - u.dot w) / sin alpha := by rw [← k1]; field_simp
    rw [ht, ht', k2]
    ext <;> simp <;> field_simp <;> ring
  · rw [Vec.len_eq_sqrt_dot, z2, sqrt_sq hsin.le]

/-- The inserted circle.  With `u`, `w` the directions of the two segments and `d = r / tan((π-α)/2)`: it has the requested
radius, starts on the first segment at distance `d` before the corner in direction `u`, and ends on the second segment at
distance `d` after the corner in direction `w`.  So position and direction are continuous at both joints. -/
theorem C63_corner_partial (r eq : ℝ) (S V P : Frame) (h : CornerOk r (V.p - S.p) (P.p - V.p))
    (l : PathLine) (C : PathCircle) (E : Frame)
    (hc : RoundedComposite.corner r eq (RoundedComposite.cornerAngle (V.p - S.p) (P.p - V.p))
      (r / tan ((π - RoundedComposite.cornerAngle (V.p - S.p) (P.p - V.p)) / 2)) S V P = some (l, .ok C, E)) :
    let alpha := RoundedComposite.cornerAngle (V.p - S.p) (P.p - V.p)
    let d := r / tan ((π - alpha) / 2)
    let u := dir (V.p - S.p)
    let w := dir (P.p - V.p)
    l = PathLine.ofFrames S (C.pos 0) eq ∧ C.radius = r ∧ cos alpha = u.dot w ∧ 0 < alpha ∧ alpha < π ∧ 0 < d ∧
      (C.pos 0).p = V.p - d • u ∧ (∀ sd, (C.vel 0 sd).vel = (sd * C.scalelin) • u) ∧
      E.p = V.p + d • w ∧ (C.pos C.pathlength).p = E.p ∧ (∀ sd, (C.vel C.pathlength sd).vel = (sd * C.scalelin) • w) ∧
      ∀ s, ((C.pos s).p - C.F_base_center.p).len = r := by
  intro alpha d u w
  obtain ⟨t, t', g⟩ := corner_geo r _ _ h
  obtain ⟨hr, na, nb, la, lb, pa, pb, hcos, h0, h1, hsin, hd0, hnt, ht, t1, t3, hctr, z1, z2, zf, r1⟩ := g
  have hab : V.p - S.p = (V.p - S.p).len • u := len_dir _ pa
  -- unfold the construction
  unfold RoundedComposite.corner at hc
  dsimp only at hc
  rcases hl1 : (PathLine.ofFrames S V eq).lengthToS ((V.p - S.p).norm - d) with _ | s1
  · rw [hl1] at hc; cases hc
  rcases hl2 : (PathLine.ofFrames V P eq).lengthToS d with _ | s2
  · rw [hl1, hl2] at hc; cases hc
  rw [hl1, hl2, hnt] at hc
  simp only [Option.some.injEq, Prod.mk.injEq] at hc
  obtain ⟨e1, e2, e3⟩ := hc
  have q1 := line_at S V eq _ s1 hl1
  have q2 := line_at V P eq _ s2 hl2
  rw [na, la] at q1
  rw [nb, e3] at q2
  have hE : E.p = V.p + d • w := q2
  have hst := C61_start _ _ _ _ _ _ _ e2
  have hq1 : (C.pos 0).p = V.p - d • u := by
    rw [hst, q1, sub_smul, ← hab]; abel
  obtain ⟨sp, hM, hz⟩ := circle_spec _ _ _ _ _ _ _ e2
  obtain ⟨nz, pz, lz⟩ := normalize_dir _ hz
  have hrt : ((PathLine.ofFrames S V eq).pos s1).p - (((PathLine.ofFrames S V eq).pos s1).p - r • t) = r • t := by abel
  have hrad : C.radius = r := by rw [sp.radius, hrt]; exact (dir_smul r t hr t1).2
  have hx : C.F_base_center.M.unitX = t := by
    have := sp.unitX
    rw [hrt, hrad] at this
    have h2 := congrArg (fun v => (1 / r) • v) this
    simp only [smul_smul, one_div_mul_cancel hr.ne', one_smul] at h2
    exact h2.symm
  have hx' : (((PathLine.ofFrames S V eq).pos s1).p - (((PathLine.ofFrames S V eq).pos s1).p - r • t)).normalize.1 = t := by
    have : C.F_base_center.M.unitX =
      (((PathLine.ofFrames S V eq).pos s1).p - (((PathLine.ofFrames S V eq).pos s1).p - r • t)).normalize.1 := by
      rw [hM]; rfl
    rw [← this, hx]
  have hEc : E.p - (((PathLine.ofFrames S V eq).pos s1).p - r • t) = r • t' := by
    have hq : ((PathLine.ofFrames S V eq).pos s1).p = V.p - d • u := by rw [← hst]; exact hq1
    rw [hE, hq]
    have : V.p + d • w - (V.p - d • u - r • t) = d • w + d • u + r • t := by abel
    rw [this]
    exact hctr
  have hy' : (E.p - (((PathLine.ofFrames S V eq).pos s1).p - r • t)).normalize.1 = t' := by
    rw [hEc]
    have hd' := dir_smul r t' hr t3
    rw [(normalize_dir (r • t') (norm_of_len _ (by rw [hd'.2]; exact h.radius))).1, hd'.1]
  have hzz : C.F_base_center.M.unitZ = (1 / sin alpha) • (u * w) := by
    have : C.F_base_center.M.unitZ = (t * t').normalize.1 := by
      rw [hM, hx']
      rw [show ((PathLine.ofFrames V P eq).pos s2) = E from e3, hy']; rfl
    rw [this]
    rw [hx', show ((PathLine.ofFrames V P eq).pos s2) = E from e3, hy'] at nz
    rw [nz, z1]
    show (1 / (dir (V.p - S.p) * dir (P.p - V.p)).len) • _ = _
    rw [z2]
  have hyy : C.F_base_center.M.unitY = u := by
    have : C.F_base_center.M.unitY = C.F_base_center.M.unitZ * C.F_base_center.M.unitX := by
      rw [hM]; rfl
    rw [this, hzz, hx, zf]
  have hend : C.pathlength * C.scalelin / C.radius = alpha := by
    rw [sp.lin]; exact mul_div_cancel_right₀ _ sp.radius_pos.ne'
  have hvel : ∀ s sd, (C.vel s sd).vel = (sd * C.scalelin) •
      (-sin (s * C.scalelin / C.radius) • C.F_base_center.M.unitX + cos (s * C.scalelin / C.radius) • C.F_base_center.M.unitY) := by
    intro s sd
    unfold PathCircle.vel
    dsimp only
    have := sp.radius_pos.ne'
    ext <;> simp [Rot.unitX, Rot.unitY] <;> field_simp
  refine ⟨?_, hrad, hcos, h0, h1, hd0, hq1, ?_, hE, ?_, ?_, ?_⟩
  · rw [← e1, hst]
  · intro sd
    rw [hvel, zero_mul, zero_div, sin_zero, cos_zero, hyy]
    simp
  · rw [circle_pos C _ _ _ _ _ sp, hend, hzz, hrt, Rot.app_smul, r1]
    rw [← hEc]; abel
  · intro sd
    rw [hvel, hend, hx, hyy, hcos]
    congr 1
    rw [ht]
    ext <;> simp <;> field_simp <;> ring
  · intro s
    have := C61_on_circle _ _ _ _ _ _ _ e2 s
    rw [sp.center, this.2.1, hrt]
    exact (dir_smul r t hr t1).2

/-! ### pure translations: every step can be evaluated -/

private theorem same_angle (M : Rot) (hM : M.IsProper) : (M.inv * M).getRotAngle = (⟨0, 0, 1⟩, 0) := by
  rw [hM.inv_mul_self, Rot.getRotAngle_one]

theorem line_trans (M : Rot) (hM : M.IsProper) (A B : Vec) (eq len : ℝ) (h : epsilon ≤ (B - A).norm) :
    (PathLine.ofFrames ⟨M, A⟩ ⟨M, B⟩ eq).lengthToS len = some len ∧
      (PathLine.ofFrames ⟨M, A⟩ ⟨M, B⟩ eq).pos len = ⟨M, A + len • dir (B - A)⟩ := by
  obtain ⟨n, p, l⟩ := normalize_dir _ h
  have hn2 : (B - A).normalize.2 ≠ 0 := by
    rw [(Vec.normalize_of_le _ h).1]; exact p.ne'
  have hs : PathLine.scales (M.inv * M).getRotAngle.2 (B - A).normalize.2 eq =
      ((B - A).normalize.2, 0, 1) := by
    rw [same_angle M hM]
    unfold PathLine.scales
    rw [if_neg (fun k => k.1 rfl), if_pos hn2]
    simp
  have hb : PathLine.ofFrames ⟨M, A⟩ ⟨M, B⟩ eq =
      ⟨RotInterp.setStartEnd M M, A, B, dir (B - A), eq, (B - A).normalize.2, 1, 0⟩ := by
    unfold PathLine.ofFrames PathLine.build
    dsimp only
    rw [hs, n]
  rw [hb]
  constructor
  · unfold PathLine.lengthToS
    rw [if_neg one_ne_zero, div_one]
  · unfold PathLine.pos
    dsimp only
    rw [mul_zero, mul_one, C66_start]

theorem circle_trans (M : Rot) (hM : M.IsProper) (A ctr p : Vec) (alpha eq : ℝ) (ha : 0 < alpha)
    (h1 : epsilon ≤ (A - ctr).norm) (h2 : epsilon ≤ ((A - ctr).normalize.1 * (p - ctr).normalize.1).norm) :
    ∃ C, PathCircle.new ⟨M, A⟩ ctr p M alpha eq = .ok C := by
  obtain ⟨n1, l1⟩ := Vec.normalize_of_le _ h1
  obtain ⟨n2, l2⟩ := Vec.normalize_of_le _ h2
  have hp : 0 < (A - ctr).len := l1 ▸ lt_of_lt_of_le epsilon_pos h1
  have e1 : ¬ (A - ctr).normalize.2 < epsilon := by rw [n1, ← l1]; exact not_lt.mpr h1
  have e2 : ¬ ((A - ctr).normalize.1 * (p - ctr).normalize.1).normalize.2 < epsilon := by
    rw [n2, ← l2]; exact not_lt.mpr h2
  have e3 : (A - ctr).normalize.2 = (A - ctr).len := by rw [n1]
  unfold PathCircle.new
  dsimp only
  rw [if_neg e1, if_neg e2, same_angle M hM, e3]
  dsimp only
  have : 0 < alpha * (A - ctr).len := mul_pos ha hp
  rw [zero_mul, if_neg (not_lt.mpr this.le), if_neg this.ne']
  exact ⟨_, rfl⟩

/-- Rounding is feasible for pure translations: when the two segments are longer than the distance needed for the rounding
and are neither parallel nor opposite (`sin α ≥ 2e-6`), `Add` accepts the point and appends a line and a circle. -/
theorem C63_feasible (R : RoundedComposite) (M : Rot) (hM : M.IsProper) (S V P : Vec) (h2 : 2 ≤ R.nrofpoints)
    (hS : R.F_base_start = ⟨M, S⟩) (hV : R.F_base_via = ⟨M, V⟩) (h : CornerOk R.radius (V - S) (P - V))
    (hsin : 2 * epsilon ≤ sin (RoundedComposite.cornerAngle (V - S) (P - V)))
    (hd1 : R.radius / tan ((π - RoundedComposite.cornerAngle (V - S) (P - V)) / 2) < (V - S).len)
    (hd2 : R.radius / tan ((π - RoundedComposite.cornerAngle (V - S) (P - V)) / 2) < (P - V).len) :
    ∃ l C E, RoundedComposite.corner R.radius R.eqradius (RoundedComposite.cornerAngle (V - S) (P - V))
        (R.radius / tan ((π - RoundedComposite.cornerAngle (V - S) (P - V)) / 2)) ⟨M, S⟩ ⟨M, V⟩ ⟨M, P⟩ = some (l, .ok C, E) ∧
      C.pos 0 = ⟨M, V - (R.radius / tan ((π - RoundedComposite.cornerAngle (V - S) (P - V)) / 2)) • dir (V - S)⟩ ∧
      E = ⟨M, V + (R.radius / tan ((π - RoundedComposite.cornerAngle (V - S) (P - V)) / 2)) • dir (P - V)⟩ ∧
      R.add ⟨M, P⟩ = (.ok (), { R with comp := (R.comp.add l.toPath).add C.toPath, F_base_start := E,
                                        F_base_via := ⟨M, P⟩, nrofpoints := R.nrofpoints + 1 }) := by
  obtain ⟨t, t', g⟩ := corner_geo R.radius _ _ h
  have he := epsilon_pos
  have hev : epsilon = 1 / 10 ^ 6 := by norm_num [epsilon]
  set alpha := RoundedComposite.cornerAngle (V - S) (P - V) with halpha
  set d := R.radius / tan ((π - alpha) / 2) with hd
  have hl1 := line_trans M hM S V R.eqradius ((V - S).norm - d) h.first
  have hl2 := line_trans M hM V P R.eqradius d h.second
  have hcs : S + ((V - S).norm - d) • dir (V - S) = V - d • dir (V - S) := by
    rw [g.la, sub_smul, ← len_dir _ g.pa]; abel
  have hE : (V + d • dir (P - V)) - ((V - d • dir (V - S)) - R.radius • t) = R.radius • t' := by
    rw [← g.centre]; abel
  have hx : (V - d • dir (V - S)) - ((V - d • dir (V - S)) - R.radius • t) = R.radius • t := by abel
  have dt := dir_smul _ t g.r_pos g.t_unit
  have dt' := dir_smul _ t' g.r_pos g.t_unit'
  have nt : epsilon ≤ (R.radius • t).norm := norm_of_len _ (by rw [dt.2]; exact h.radius)
  have nt' : epsilon ≤ (R.radius • t').norm := norm_of_len _ (by rw [dt'.2]; exact h.radius)
  have ht : (R.radius • t).normalize.1 = t := by rw [(normalize_dir _ nt).1, dt.1]
  have ht' : (R.radius • t').normalize.1 = t' := by rw [(normalize_dir _ nt').1, dt'.1]
  obtain ⟨C, hC⟩ := circle_trans M hM (V - d • dir (V - S)) ((V - d • dir (V - S)) - R.radius • t)
    (V + d • dir (P - V)) alpha R.eqradius g.pos (by rw [hx]; exact nt) (by
      rw [hx, hE, ht, ht', g.cross]
      exact norm_of_len _ (by rw [g.cross_len]; exact hsin))
  have hcorner : RoundedComposite.corner R.radius R.eqradius alpha d ⟨M, S⟩ ⟨M, V⟩ ⟨M, P⟩ =
      some (PathLine.ofFrames ⟨M, S⟩ ⟨M, V - d • dir (V - S)⟩ R.eqradius, .ok C, ⟨M, V + d • dir (P - V)⟩) := by
    unfold RoundedComposite.corner
    dsimp only
    rw [hl1.1, hl2.1]
    dsimp only
    rw [hl1.2, hl2.2, g.normal, hcs]
    dsimp only
    rw [hC]
  refine ⟨_, C, _, hcorner, C61_start _ _ _ _ _ _ _ hC, rfl, ?_⟩
  have hs1 : sin alpha ≤ alpha := sin_le g.pos.le
  have hs2 : sin alpha ≤ π - alpha := by
    rw [← sin_pi_sub]; exact sin_le (by linarith [g.lt_pi])
  have hsm : (1 : ℝ) / 10 ^ 7 ≤ epsilon := by rw [hev]; norm_num
  unfold RoundedComposite.add
  rw [if_neg (by omega), if_neg (by omega), hS, hV]
  dsimp only
  rw [if_neg (not_lt.mpr (hsm.trans h.first)),
    if_neg (not_lt.mpr (hsm.trans h.second)), ← halpha,
    if_neg (by rw [hev] at hsin; norm_num at hsin ⊢; linarith), if_neg (by rw [hev] at hsin; norm_num at hsin ⊢; linarith),
    ← hd, if_neg (by rw [g.la]; exact not_le.mpr hd1), if_neg (by rw [g.lb]; exact not_le.mpr hd2), hcorner]

/-! ### the whole path -/

/-- Numerical side conditions of one call of `Add` (only the third point and later ones create segments): the line and the
circle that are created are outside the tolerance bands. -/
def StepOk (R : RoundedComposite) (F : Frame) : Prop :=
  2 ≤ R.nrofpoints →
    (RoundedComposite.cornerAngle (R.F_base_via.p - R.F_base_start.p) (F.p - R.F_base_via.p) < 1 / 10 ^ 7 →
      LineOk R.F_base_start R.F_base_via) ∧
    (1 / 10 ^ 7 ≤ RoundedComposite.cornerAngle (R.F_base_via.p - R.F_base_start.p) (F.p - R.F_base_via.p) →
      ∀ l C E, RoundedComposite.corner R.radius R.eqradius
        (RoundedComposite.cornerAngle (R.F_base_via.p - R.F_base_start.p) (F.p - R.F_base_via.p))
        (R.radius / tan ((π - RoundedComposite.cornerAngle (R.F_base_via.p - R.F_base_start.p) (F.p - R.F_base_via.p)) / 2))
        R.F_base_start R.F_base_via F = some (l, .ok C, E) →
      CornerOk R.radius (R.F_base_via.p - R.F_base_start.p) (F.p - R.F_base_via.p) ∧ LineOk R.F_base_start (C.pos 0) ∧
        E.IsProper ∧ ((C.pos 0).M.inv * E.M).Resolved)

/-- `Built R pts`: the object was constructed and the points `pts` were added without exception, outside the tolerance
bands. -/
inductive Built : RoundedComposite → List Frame → Prop
  | new {radius eqradius R} (h : RoundedComposite.new radius eqradius = .ok R) : Built R []
  | add {R R' pts F} (h : Built R pts) (ha : R.add F = (.ok (), R')) (hs : StepOk R F) : Built R' (pts ++ [F])

/-- The composite is a continuous path from `A` to `B`. -/
structure Runs (c : PathComposite) (A B : Frame) : Prop where
  reach : PathComposite.Reach c
  nonneg : ∀ g ∈ c.gv, 0 ≤ g.length
  joined : Joined c.gv
  first : ∀ g, c.gv.head? = some g → g.pos 0 = A
  last : ∀ g, c.gv.getLast? = some g → g.pos g.length = B
  empty : c.gv = [] → A = B

theorem Runs.add {c : PathComposite} {A B D : Frame} (h : Runs c A B) (g : PathI) (h0 : g.pos 0 = B) (h1 : g.pos g.length = D)
    (hl : 0 ≤ g.length) : Runs (c.add g) A D := by
  refine ⟨h.reach.add g, ?_, ?_, ?_, ?_, ?_⟩
  · intro x hx
    simp only [PathComposite.add, List.mem_append, List.mem_singleton] at hx
    rcases hx with hx | rfl
    · exact h.nonneg x hx
    · exact hl
  · intro i x y hx hy
    simp only [PathComposite.add] at hx hy
    have hyl := (List.getElem?_eq_some_iff.mp hy).1
    simp only [List.length_append, List.length_cons, List.length_nil] at hyl
    rw [List.getElem?_append_left (by omega)] at hx
    rcases Nat.lt_or_ge (i + 1) c.gv.length with k | k
    · rw [List.getElem?_append_left k] at hy
      exact h.joined i x y hx hy
    · have hi : i + 1 = c.gv.length := by omega
      rw [hi] at hy
      simp at hy
      subst hy
      rw [h0]
      apply h.last
      rw [List.getLast?_eq_getElem?, show c.gv.length - 1 = i by omega]
      exact hx
  · intro x hx
    simp only [PathComposite.add] at hx
    rcases hc : c.gv with _ | ⟨y, ys⟩
    · rw [hc] at hx
      simp at hx
      subst hx
      rw [h0]; exact (h.empty hc).symm
    · rw [hc] at hx
      simp at hx
      subst hx
      exact h.first y (by rw [hc]; rfl)
  · intro x hx
    simp only [PathComposite.add] at hx
    simp at hx
    subst hx
    exact h1
  · intro he
    simp [PathComposite.add] at he

theorem Runs.line {c : PathComposite} {A B D : Frame} (h : Runs c A B) (eq : ℝ) (he : 0 < eq) (hl : LineOk B D) :
    Runs (c.add (PathLine.ofFrames B D eq).toPath) A D := by
  refine h.add _ (C60_start B D eq) (C60_stop_partial B D eq hl (Or.inl he)) ?_
  show 0 ≤ (PathLine.ofFrames B D eq).pathlength
  rw [C60_length B D eq hl.disp]
  exact le_max_of_le_left (Vec.len_nonneg _)

theorem corner_circle (r eq alpha d : ℝ) (S V P : Frame) (l : PathLine) (C : PathCircle) (E : Frame)
    (h : RoundedComposite.corner r eq alpha d S V P = some (l, .ok C, E)) :
    ∃ F ctr, PathCircle.new F ctr E.p E.M alpha eq = .ok C := by
  unfold RoundedComposite.corner at h
  dsimp only at h
  split at h
  · simp only [Option.some.injEq, Prod.mk.injEq] at h
    obtain ⟨-, h2, h3⟩ := h
    rw [← h3]
    exact ⟨_, _, h2⟩
  · cases h

/-- What `Built` guarantees. -/
structure BuiltSpec (R : RoundedComposite) (pts : List Frame) : Prop where
  count : R.nrofpoints = pts.length
  eq_pos : 0 < R.eqradius
  zero : pts = [] → R.comp = .new
  runs : ∀ A, pts.head? = some A → Runs R.comp A R.F_base_start
  via : 2 ≤ pts.length → pts.getLast? = some R.F_base_via

theorem Built.spec {R : RoundedComposite} {pts : List Frame} (h : Built R pts) : BuiltSpec R pts := by
  induction h with
  | @new radius eqradius R h =>
    unfold RoundedComposite.new at h
    split_ifs at h with he
    injection h with h
    subst h
    exact ⟨rfl, not_le.mp he, fun _ => rfl, by simp, by simp⟩
  | @add R R' pts F _ ha hs ih =>
    rcases Nat.lt_or_ge pts.length 2 with hlt | hge
    · -- first or second point
      unfold RoundedComposite.add at ha
      rw [ih.count] at ha
      by_cases h0 : pts.length = 0
      · rw [if_pos h0] at ha
        have hp : pts = [] := List.length_eq_zero_iff.mp h0
        simp only [Prod.mk.injEq, true_and] at ha
        subst ha
        refine ⟨by simp, ih.eq_pos, by simp, ?_, by simp [hp]⟩
        intro A hA
        rw [hp] at hA
        simp at hA
        subst hA
        dsimp only
        rw [ih.zero hp]
        exact ⟨.new, by simp [PathComposite.new], by intro i g k; simp [PathComposite.new],
          by simp [PathComposite.new], by simp [PathComposite.new], fun _ => rfl⟩
      · rw [if_neg h0] at ha
        have h1 : pts.length = 1 := by omega
        rw [if_pos h1] at ha
        simp only [Prod.mk.injEq, true_and] at ha
        subst ha
        refine ⟨by simp, ih.eq_pos, by simp, ?_, by simp⟩
        intro A hA
        obtain ⟨B, rfl⟩ := List.length_eq_one_iff.mp h1
        exact ih.runs A (by simpa using hA)
    · have hn : 2 ≤ R.nrofpoints := by rw [ih.count]; exact hge
      obtain ⟨hs1, hs2⟩ := hs hn
      have hhead : ∀ A, (pts ++ [F]).head? = some A → pts.head? = some A := by
        intro A hA
        rcases pts with _ | ⟨B, bs⟩
        · simp at hge
        · simpa using hA
      unfold RoundedComposite.add at ha
      rw [if_neg (by omega), if_neg (by omega)] at ha
      dsimp only at ha
      by_cases c1 : (R.F_base_via.p - R.F_base_start.p).norm < 1 / 10 ^ 7
      · rw [if_pos c1] at ha; cases ha
      rw [if_neg c1] at ha
      by_cases c2 : (F.p - R.F_base_via.p).norm < 1 / 10 ^ 7
      · rw [if_pos c2] at ha; cases ha
      rw [if_neg c2] at ha
      by_cases c3 : π - RoundedComposite.cornerAngle (R.F_base_via.p - R.F_base_start.p) (F.p - R.F_base_via.p) < 1 / 10 ^ 7
      · rw [if_pos c3] at ha; cases ha
      rw [if_neg c3] at ha
      by_cases c4 : RoundedComposite.cornerAngle (R.F_base_via.p - R.F_base_start.p) (F.p - R.F_base_via.p) < 1 / 10 ^ 7
      · rw [if_pos c4] at ha
        simp only [Prod.mk.injEq, true_and] at ha
        subst ha
        refine ⟨by simp [ih.count], ih.eq_pos, by simp, ?_, by simp⟩
        intro A hA
        exact (ih.runs A (hhead A hA)).line _ ih.eq_pos (hs1 c4)
      rw [if_neg c4] at ha
      split_ifs at ha
      · cases ha
      · cases ha
      · split at ha
        · cases ha
        · rename_i l cres E hcorner
          split at ha
          · rename_i C
            simp only [Prod.mk.injEq, true_and] at ha
            subst ha
            obtain ⟨k1, k2, k3, k4⟩ := hs2 (not_lt.mp c4) l C E hcorner
            refine ⟨by simp [ih.count], ih.eq_pos, by simp, ?_, by simp⟩
            intro A hA
            obtain ⟨q1, q2, q3, q4, q5, q6, q7, q8, q9, q10, q11, q12⟩ := C63_corner_partial _ _ _ _ _ k1 l C E hcorner
            have r1 := (ih.runs A (hhead A hA)).line _ ih.eq_pos k2
            rw [← q1] at r1
            obtain ⟨S, ctr, hnew⟩ := corner_circle _ _ _ _ _ _ _ _ _ _ hcorner
            have hS := C61_start _ _ _ _ _ _ _ hnew
            rw [← hS] at hnew
            have hstop := C61_stop_partial _ _ _ _ _ _ _ hnew k2.stop k3 k4
            refine r1.add _ rfl ?_ ?_
            · show C.pos C.pathlength = E
              exact Frame.ext hstop.2 q10
            · show 0 ≤ C.pathlength
              have sp := (circle_spec _ _ _ _ _ _ _ hnew).1
              rw [sp.length]
              exact le_max_of_le_left (mul_nonneg q4.le sp.radius_pos.le)
          all_goals cases ha

/-- The finished path: the composite is a continuous sequence of segments that starts at the first point and ends at the last
point that was added. -/
theorem C63_path_partial (R : RoundedComposite) (pts : List Frame) (h : Built R pts) (A B : Frame)
    (h2 : 2 ≤ pts.length) (hA : pts.head? = some A) (hB : pts.getLast? = some B) (hl : LineOk R.F_base_start R.F_base_via) :
    PathComposite.Reach R.finish.comp ∧ Joined R.finish.comp.gv ∧ (∀ g ∈ R.finish.comp.gv, 0 ≤ g.length) ∧
      (∃ c, R.finish.comp.pos 0 = some (A, c)) ∧ ∃ c, R.finish.comp.pos R.finish.comp.pathlength = some (B, c) := by
  have sp := h.spec
  have hv : R.F_base_via = B := by
    have := sp.via h2
    rw [hB] at this
    exact (Option.some.inj this).symm
  have hf : R.finish = { R with comp := R.comp.add (PathLine.ofFrames R.F_base_start R.F_base_via R.eqradius).toPath } := by
    unfold RoundedComposite.finish
    rw [if_pos (by rw [sp.count]; omega)]
  have hr := (sp.runs A hA).line _ sp.eq_pos hl
  rw [hf]
  refine ⟨hr.reach, hr.joined, hr.nonneg, ?_⟩
  obtain ⟨a, ha⟩ : ∃ a, (R.comp.add (PathLine.ofFrames R.F_base_start R.F_base_via R.eqradius).toPath).gv.head? = some a := by
    cases hc : (R.comp.add (PathLine.ofFrames R.F_base_start R.F_base_via R.eqradius).toPath).gv with
    | nil => simp [PathComposite.add] at hc
    | cons x xs => exact ⟨x, rfl⟩
  obtain ⟨e1, e2⟩ := C62_endpoints _ hr.reach R.comp.gv a _ hr.nonneg hr.joined ha rfl
  refine ⟨?_, ?_⟩
  · rw [hr.first a ha] at e1; exact e1
  · rw [hr.last _ (by simp [PathComposite.add])] at e2
    obtain ⟨c, e2⟩ := e2
    exact ⟨c, e2.trans (by rw [hv])⟩

/-- With a single point `Finish` adds a line to a frame that was never given (the identity). -/
theorem C63_finish_violated (radius eqradius : ℝ) (R R' : RoundedComposite) (A : Frame)
    (h : RoundedComposite.new radius eqradius = .ok R) (ha : R.add A = (.ok (), R')) (hl : LineOk A 1) :
    Built R' [A] ∧ ∃ c, R'.finish.comp.pos R'.finish.comp.pathlength = some ((1 : Frame), c) := by
  have hb : Built R' ([] ++ [A]) := .add (.new h) ha (by
    intro h2
    have := (Built.new h).spec.count
    simp at this; omega)
  refine ⟨hb, ?_⟩
  have sp := (Built.new h).spec
  have he := sp.eq_pos
  have hz := sp.zero rfl
  have hR : R.F_base_via = 1 := by
    unfold RoundedComposite.new at h
    split_ifs at h
    injection h with h
    rw [← h]
  unfold RoundedComposite.add at ha
  rw [if_pos (by simpa using sp.count)] at ha
  simp only [Prod.mk.injEq, true_and] at ha
  have hf : R'.finish.comp = R'.comp.add (PathLine.ofFrames A 1 R.eqradius).toPath := by
    rw [← ha]
    unfold RoundedComposite.finish
    rw [if_pos (by simp), hR]
  have hr := ((hb.spec.runs A rfl)).line R.eqradius he (D := 1) (by rw [← ha]; exact hl)
  have hst : R'.F_base_start = A := by rw [← ha]
  rw [hst] at hr
  rw [hf]
  obtain ⟨a, ha'⟩ : ∃ a, (R'.comp.add (PathLine.ofFrames A 1 R.eqradius).toPath).gv.head? = some a := by
    cases hc : (R'.comp.add (PathLine.ofFrames A 1 R.eqradius).toPath).gv with
    | nil => simp [PathComposite.add] at hc
    | cons x xs => exact ⟨x, rfl⟩
  obtain ⟨-, e2⟩ := C62_endpoints _ hr.reach R'.comp.gv a _ hr.nonneg hr.joined ha' rfl
  rw [hr.last _ (by simp [PathComposite.add])] at e2
  exact e2

private theorem normalize_axis (v t : Vec) (k : ℝ) (hv : v = k • t) (hk : epsilon ≤ k) (ht : t = ⟨1, 0, 0⟩ ∨ t = ⟨0, 1, 0⟩ ∨ t = ⟨0, 0, 1⟩) :
    v.normalize = (t, k) ∧ v.norm = k := by
  have he := epsilon_pos
  have hu : t.dot t = 1 := by rcases ht with rfl | rfl | rfl <;> simp [Vec.dot]
  have hn : epsilon ≤ v.norm := by
    subst hv
    apply Vec.norm_of_comp
    have hk' : epsilon ≤ |k| := hk.trans (le_abs_self k)
    rcases ht with rfl | rfl | rfl
    · left; simpa using hk'
    · right; left; simpa using hk'
    · right; right; simpa using hk'
  obtain ⟨h1, h2⟩ := Vec.normalize_of_le v hn
  obtain ⟨d1, d2⟩ := dir_smul k t (lt_of_lt_of_le he hk) hu
  obtain ⟨n1, -, -⟩ := normalize_dir v hn
  rw [hv] at h1 h2 n1 ⊢
  refine ⟨?_, h2.trans d2⟩
  rw [Prod.ext_iff]
  exact ⟨n1.trans d1, by rw [h1]; exact d2⟩

private theorem small_corner :
    let S : Frame := 1
    let V : Frame := ⟨1, ⟨1 / 200, 0, 0⟩⟩
    let P : Frame := ⟨1, ⟨1 / 200, 1 / 200, 0⟩⟩
    ∃ l C E, RoundedComposite.corner (1 / 1000) 1 (RoundedComposite.cornerAngle (V.p - S.p) (P.p - V.p))
        ((1 / 1000) / tan ((π - RoundedComposite.cornerAngle (V.p - S.p) (P.p - V.p)) / 2)) S V P = some (l, .ok C, E) ∧
      RoundedComposite.cornerAngle (V.p - S.p) (P.p - V.p) = π / 2 ∧
      E.p = ⟨1 / 200, 1 / 1000, 0⟩ ∧ (C.pos C.pathlength).p = ⟨3 / 1000, 1 / 1000, 0⟩ := by
  intro S V P
  have hab : V.p - S.p = (1 / 200 : ℝ) • (⟨1, 0, 0⟩ : Vec) := by
    show (⟨1 / 200, 0, 0⟩ : Vec) - 0 = _
    ext <;> simp
  have hbc : P.p - V.p = (1 / 200 : ℝ) • (⟨0, 1, 0⟩ : Vec) := by
    show (⟨1 / 200, 1 / 200, 0⟩ : Vec) - ⟨1 / 200, 0, 0⟩ = _
    ext <;> simp
  have he : epsilon = 1 / 10 ^ 6 := by unfold epsilon; norm_num
  obtain ⟨nab, lab⟩ := normalize_axis _ _ _ hab (by rw [he]; norm_num) (Or.inl rfl)
  obtain ⟨nbc, lbc⟩ := normalize_axis _ _ _ hbc (by rw [he]; norm_num) (Or.inr (Or.inl rfl))
  have hal : RoundedComposite.cornerAngle (V.p - S.p) (P.p - V.p) = π / 2 := by
    unfold RoundedComposite.cornerAngle
    have : (V.p - S.p).dot (P.p - V.p) = 0 := by rw [hab, hbc]; simp [Vec.dot]
    rw [this, zero_div, zero_div]
    norm_num
  have hd : (1 / 1000 : ℝ) / tan ((π - π / 2) / 2) = 1 / 1000 := by
    rw [show (π - π / 2) / 2 = π / 4 by ring, tan_pi_div_four, div_one]
  rw [hal, hd]
  have p1 : epsilon ≤ (V.p - S.p).norm := by rw [lab, he]; norm_num
  have p2 : epsilon ≤ (P.p - V.p).norm := by rw [lbc, he]; norm_num
  obtain ⟨a1, a2⟩ := line_trans 1 Rot.IsProper.one S.p V.p 1 (1 / 200 - 1 / 1000) p1
  obtain ⟨b1, b2⟩ := line_trans 1 Rot.IsProper.one V.p P.p 1 (1 / 1000) p2
  have dab : dir (V.p - S.p) = ⟨1, 0, 0⟩ := ((normalize_dir _ p1).1).symm.trans (by rw [nab])
  have dbc : dir (P.p - V.p) = ⟨0, 1, 0⟩ := ((normalize_dir _ p2).1).symm.trans (by rw [nbc])
  have ea : S.p + (1 / 200 - 1 / 1000 : ℝ) • dir (V.p - S.p) = ⟨1 / 250, 0, 0⟩ := by
    rw [dab]; show (0 : Vec) + _ = _
    ext <;> simp; norm_num
  have eb : V.p + (1 / 1000 : ℝ) • dir (P.p - V.p) = ⟨1 / 200, 1 / 1000, 0⟩ := by
    rw [dbc]; show (⟨1 / 200, 0, 0⟩ : Vec) + _ = _
    ext <;> simp
  rw [ea] at a2
  rw [eb] at b2
  have hS : S = ⟨1, S.p⟩ := rfl
  have hV : V = ⟨1, V.p⟩ := rfl
  have hP : P = ⟨1, P.p⟩ := rfl
  have ht : ((V.p - S.p) * ((V.p - S.p) * (P.p - V.p))).normalize.1 = ⟨1, 0, 0⟩ := by
    have hsm : ((V.p - S.p) * ((V.p - S.p) * (P.p - V.p))).norm < epsilon := by
      have hv : (V.p - S.p) * ((V.p - S.p) * (P.p - V.p)) = (1 / 200 ^ 3 : ℝ) • (⟨0, -1, 0⟩ : Vec) := by
        rw [hab, hbc]
        ext <;> simp; norm_num
      have hl := Vec.len_smul_unit (1 / 200 ^ 3) ⟨0, -1, 0⟩ (by simp [Vec.dot])
      rw [hv, Vec.norm_eq _ _ epsilon_pos]
      split_ifs
      · exact epsilon_pos
      · rw [hl, he, abs_of_pos (by norm_num)]; norm_num
    unfold Vec.normalize
    rw [if_pos hsm]
  obtain ⟨nx, -⟩ := normalize_axis ((⟨1 / 250, 0, 0⟩ : Vec) - ((⟨1 / 250, 0, 0⟩ : Vec) - (1 / 1000 : ℝ) • (⟨1, 0, 0⟩ : Vec))) ⟨1, 0, 0⟩
    (1 / 1000) (by ext <;> simp) (by rw [he]; norm_num) (Or.inl rfl)
  set q : Vec := (⟨1 / 200, 1 / 1000, 0⟩ : Vec) - ((⟨1 / 250, 0, 0⟩ : Vec) - (1 / 1000 : ℝ) • (⟨1, 0, 0⟩ : Vec)) with hq
  have hq' : q = ⟨1 / 500, 1 / 1000, 0⟩ := by rw [hq]; ext <;> simp; norm_num
  have nq : epsilon ≤ q.norm := by
    apply Vec.norm_of_comp; right; left; rw [hq', he]; norm_num
  obtain ⟨dq, lq, -⟩ := normalize_dir q nq
  have lq1 : q.len ≤ 1 := by
    have h1 := Vec.len_sq q
    have h2 : q.dot q = 5 / 10 ^ 6 := by rw [hq']; simp [Vec.dot]; norm_num
    rw [h2] at h1
    nlinarith
  have hk : epsilon ≤ 1 / q.len * (1 / 1000) := by
    have : 1 ≤ 1 / q.len := by rw [le_div_iff₀ lq]; linarith
    rw [he]; linarith
  obtain ⟨nz, -⟩ := normalize_axis ((⟨1, 0, 0⟩ : Vec) * q.normalize.1) ⟨0, 0, 1⟩ (1 / q.len * (1 / 1000))
    (by rw [dq]; unfold dir; generalize q.len = L; rw [hq']; ext <;> simp) hk (Or.inr (Or.inr rfl))
  have hC : PathCircle.new ⟨1, ⟨1 / 250, 0, 0⟩⟩ ((⟨1 / 250, 0, 0⟩ : Vec) - (1 / 1000 : ℝ) • (⟨1, 0, 0⟩ : Vec)) ⟨1 / 200, 1 / 1000, 0⟩ 1 (π / 2) 1 =
      .ok ⟨RotInterp.setStartEnd 1 1, 1 / 1000, ⟨Rot.ofCols ⟨1, 0, 0⟩ ((⟨0, 0, 1⟩ : Vec) * ⟨1, 0, 0⟩) ⟨0, 0, 1⟩,
        (⟨1 / 250, 0, 0⟩ : Vec) - (1 / 1000 : ℝ) • (⟨1, 0, 0⟩ : Vec)⟩, 1, π / 2 * (1 / 1000), 1, 0 / (π / 2 * (1 / 1000))⟩ := by
    unfold PathCircle.new
    dsimp only
    rw [nx, ← hq, nz, same_angle 1 Rot.IsProper.one]
    dsimp only
    rw [if_neg (by rw [he]; norm_num), if_neg (not_lt.mpr hk),
      if_neg (by simp only [gt_iff_lt, not_lt, zero_mul]; positivity), if_neg (show π / 2 * (1 / 1000 : ℝ) ≠ 0 by positivity)]
  obtain ⟨C, hC, hp⟩ : ∃ C, PathCircle.new ⟨1, ⟨1 / 250, 0, 0⟩⟩ ((⟨1 / 250, 0, 0⟩ : Vec) - (1 / 1000 : ℝ) • (⟨1, 0, 0⟩ : Vec))
      ⟨1 / 200, 1 / 1000, 0⟩ 1 (π / 2) 1 = .ok C ∧ (C.pos C.pathlength).p = ⟨3 / 1000, 1 / 1000, 0⟩ := by
    refine ⟨_, hC, ?_⟩
    unfold PathCircle.pos
    dsimp only
    rw [show π / 2 * (1 / 1000) * 1 / (1 / 1000) = π / 2 by ring, cos_pi_div_two, sin_pi_div_two]
    show Rot.ofCols _ _ _ * _ + ((⟨1 / 250, 0, 0⟩ : Vec) - (1 / 1000 : ℝ) • (⟨1, 0, 0⟩ : Vec)) = _
    ext <;> simp [Rot.ofCols]; norm_num
  refine ⟨PathLine.ofFrames S ⟨1, ⟨1 / 250, 0, 0⟩⟩ 1, C, ⟨1, ⟨1 / 200, 1 / 1000, 0⟩⟩, ?_, rfl, rfl, hp⟩
  unfold RoundedComposite.corner
  dsimp only
  rw [ht, lab, hS, hV, hP, a1, b1]
  dsimp only
  rw [a2, b2]
  dsimp only
  rw [hC]

/-- A corner with two segments of 5 mm (in metres) and rounding radius 1 mm is accepted, but the circle ends 2 mm beside
the point where the next segment begins: the rounded path is not continuous. -/
theorem C63_small_violated :
    let S : Frame := 1
    let V : Frame := ⟨1, ⟨1 / 200, 0, 0⟩⟩
    let P : Frame := ⟨1, ⟨1 / 200, 1 / 200, 0⟩⟩
    ∃ R0 R1 R2 R3 : RoundedComposite, RoundedComposite.new (1 / 1000) 1 = .ok R0 ∧ R0.add S = (.ok (), R1) ∧
      R1.add V = (.ok (), R2) ∧ R2.add P = (.ok (), R3) ∧
      R3.F_base_start.p = ⟨1 / 200, 1 / 1000, 0⟩ ∧
      ∃ g, R3.comp.gv.getLast? = some g ∧ (g.pos g.length).p = ⟨3 / 1000, 1 / 1000, 0⟩ := by
  intro S V P
  obtain ⟨l, C, E, hcor, hal, hE, hC⟩ := small_corner
  have he : epsilon = 1 / 10 ^ 6 := by unfold epsilon; norm_num
  have hab : V.p - S.p = (1 / 200 : ℝ) • (⟨1, 0, 0⟩ : Vec) := by
    show (⟨1 / 200, 0, 0⟩ : Vec) - 0 = _
    ext <;> simp
  have hbc : P.p - V.p = (1 / 200 : ℝ) • (⟨0, 1, 0⟩ : Vec) := by
    show (⟨1 / 200, 1 / 200, 0⟩ : Vec) - ⟨1 / 200, 0, 0⟩ = _
    ext <;> simp
  obtain ⟨-, lab⟩ := normalize_axis _ _ _ hab (by rw [he]; norm_num) (Or.inl rfl)
  obtain ⟨-, lbc⟩ := normalize_axis _ _ _ hbc (by rw [he]; norm_num) (Or.inr (Or.inl rfl))
  have hd : (1 / 1000 : ℝ) / tan ((π - π / 2) / 2) = 1 / 1000 := by
    rw [show (π - π / 2) / 2 = π / 4 by ring, tan_pi_div_four, div_one]
  have hpi := pi_gt_three
  refine ⟨⟨.new, 1 / 1000, 1, 1, 1, 0⟩, ⟨.new, 1 / 1000, 1, S, 1, 1⟩, ⟨.new, 1 / 1000, 1, S, V, 2⟩,
    ⟨(PathComposite.new.add l.toPath).add C.toPath, 1 / 1000, 1, E, P, 3⟩, ?_, ?_, ?_, ?_, hE, C.toPath, ?_, hC⟩
  · unfold RoundedComposite.new
    rw [if_neg (by norm_num)]
  · unfold RoundedComposite.add
    rw [if_pos rfl]
  · unfold RoundedComposite.add
    rw [if_neg (by norm_num), if_pos rfl]
  · unfold RoundedComposite.add
    rw [if_neg (by norm_num), if_neg (by norm_num)]
    dsimp only
    rw [lab, lbc, if_neg (by norm_num), if_neg (by norm_num), hcor]
    rw [hal, if_neg (by norm_num; linarith), if_neg (by norm_num; linarith), hd, if_neg (by norm_num), if_neg (by norm_num)]
  · simp [PathComposite.add]

/-- With a nearly straight corner (`1e-7 ≤ α`, but `sin α` below the tolerance of the circle) `Add` throws
`Error_MotionPlanning_Circle_No_Plane`, which its documentation does not list, and the line has been appended already: a
further `Add` continues from the old corner. -/
theorem C63_no_plane_violated (R : RoundedComposite) (M : Rot) (hM : M.IsProper) (S V P : Vec) (h2 : 2 ≤ R.nrofpoints)
    (hS : R.F_base_start = ⟨M, S⟩) (hV : R.F_base_via = ⟨M, V⟩) (h : CornerOk R.radius (V - S) (P - V))
    (ha : 1 / 10 ^ 7 ≤ RoundedComposite.cornerAngle (V - S) (P - V))
    (hpi : 1 / 10 ^ 7 ≤ π - RoundedComposite.cornerAngle (V - S) (P - V))
    (hsin : sin (RoundedComposite.cornerAngle (V - S) (P - V)) < epsilon)
    (hd1 : R.radius / tan ((π - RoundedComposite.cornerAngle (V - S) (P - V)) / 2) < (V - S).len)
    (hd2 : R.radius / tan ((π - RoundedComposite.cornerAngle (V - S) (P - V)) / 2) < (P - V).len) :
    ∃ l : PathLine, R.add ⟨M, P⟩ = (.noPlane, { R with comp := R.comp.add l.toPath }) ∧
      (∃ g, (R.add ⟨M, P⟩).2.comp.gv.getLast? = some g) ∧ (R.add ⟨M, P⟩).2.F_base_start = R.F_base_start := by
  obtain ⟨t, t', g⟩ := corner_geo R.radius _ _ h
  have he := epsilon_pos
  have hev : epsilon = 1 / 10 ^ 6 := by norm_num [epsilon]
  set alpha := RoundedComposite.cornerAngle (V - S) (P - V) with halpha
  set d := R.radius / tan ((π - alpha) / 2) with hd
  have hl1 := line_trans M hM S V R.eqradius ((V - S).norm - d) h.first
  have hl2 := line_trans M hM V P R.eqradius d h.second
  have hcs : S + ((V - S).norm - d) • dir (V - S) = V - d • dir (V - S) := by
    rw [g.la, sub_smul, ← len_dir _ g.pa]; abel
  have hE : (V + d • dir (P - V)) - ((V - d • dir (V - S)) - R.radius • t) = R.radius • t' := by
    rw [← g.centre]; abel
  have hx : (V - d • dir (V - S)) - ((V - d • dir (V - S)) - R.radius • t) = R.radius • t := by abel
  have dt := dir_smul _ t g.r_pos g.t_unit
  have dt' := dir_smul _ t' g.r_pos g.t_unit'
  have nt : epsilon ≤ (R.radius • t).norm := norm_of_len _ (by rw [dt.2]; exact h.radius)
  have nt' : epsilon ≤ (R.radius • t').norm := norm_of_len _ (by rw [dt'.2]; exact h.radius)
  have ht : (R.radius • t).normalize.1 = t := by rw [(normalize_dir _ nt).1, dt.1]
  have ht' : (R.radius • t').normalize.1 = t' := by rw [(normalize_dir _ nt').1, dt'.1]
  have hC : PathCircle.new ⟨M, V - d • dir (V - S)⟩ ((V - d • dir (V - S)) - R.radius • t)
      (V + d • dir (P - V)) M alpha R.eqradius = .noPlane := by
    unfold PathCircle.new
    dsimp only
    rw [hx, hE, ht', ht, g.cross, if_neg, if_pos]
    · unfold Vec.normalize
      have hn : (dir (V - S) * dir (P - V)).norm < epsilon := by
        rw [Vec.norm_eq _ _ epsilon_pos]
        split_ifs
        · exact he
        · rw [g.cross_len]; exact hsin
      rw [if_pos hn]
      exact he
    · obtain ⟨n1, n2⟩ := Vec.normalize_of_le _ nt
      rw [n1]; dsimp only; rw [← n2]; exact not_lt.mpr nt
  have hcorner : RoundedComposite.corner R.radius R.eqradius alpha d ⟨M, S⟩ ⟨M, V⟩ ⟨M, P⟩ =
      some (PathLine.ofFrames ⟨M, S⟩ ⟨M, V - d • dir (V - S)⟩ R.eqradius, .noPlane, ⟨M, V + d • dir (P - V)⟩) := by
    unfold RoundedComposite.corner
    dsimp only
    rw [hl1.1, hl2.1]
    dsimp only
    rw [hl1.2, hl2.2, g.normal, hcs]
    dsimp only
    rw [hC]
  have hsm : (1 : ℝ) / 10 ^ 7 ≤ epsilon := by rw [hev]; norm_num
  have hadd : R.add ⟨M, P⟩ = (.noPlane, { R with comp := R.comp.add (PathLine.ofFrames ⟨M, S⟩ ⟨M, V - d • dir (V - S)⟩ R.eqradius).toPath }) := by
    unfold RoundedComposite.add
    rw [if_neg (by omega), if_neg (by omega), hS, hV]
    dsimp only
    rw [if_neg (not_lt.mpr (hsm.trans h.first)),
      if_neg (not_lt.mpr (hsm.trans h.second)), ← halpha, if_neg (not_lt.mpr hpi), if_neg (not_lt.mpr ha),
      ← hd, if_neg (by rw [g.la]; exact not_le.mpr hd1), if_neg (by rw [g.lb]; exact not_le.mpr hd2), hcorner]
  refine ⟨_, hadd, ?_, ?_⟩
  · rw [hadd]; simp [PathComposite.add]
  · rw [hadd]

/-! ### the premises can be met -/

private theorem unit_corner (M : Rot) : CornerOk (1 / 4) ((⟨1, 0, 0⟩ : Vec) - 0) ((⟨1, 1, 0⟩ : Vec) - ⟨1, 0, 0⟩) := by
  have he : epsilon = 1 / 10 ^ 6 := by unfold epsilon; norm_num
  refine ⟨by rw [he]; norm_num, ?_, ?_, ?_⟩
  · exact Vec.norm_of_comp _ (Or.inl (by rw [he]; norm_num))
  · exact Vec.norm_of_comp _ (Or.inr (Or.inl (by rw [he]; norm_num)))
  · exact Vec.norm_of_comp _ (Or.inr (Or.inl (by rw [he]; norm_num)))

private theorem unit_angle : RoundedComposite.cornerAngle ((⟨1, 0, 0⟩ : Vec) - 0) ((⟨1, 1, 0⟩ : Vec) - ⟨1, 0, 0⟩) = π / 2 := by
  unfold RoundedComposite.cornerAngle
  have : ((⟨1, 0, 0⟩ : Vec) - 0).dot ((⟨1, 1, 0⟩ : Vec) - ⟨1, 0, 0⟩) = 0 := by simp [Vec.dot]
  rw [this, zero_div, zero_div]
  norm_num

private theorem unit_d : (1 / 4 : ℝ) / tan ((π - π / 2) / 2) = 1 / 4 := by
  rw [show (π - π / 2) / 2 = π / 4 by ring, tan_pi_div_four, div_one]

private theorem unit_lens : ((⟨1, 0, 0⟩ : Vec) - 0).len = 1 ∧ ((⟨1, 1, 0⟩ : Vec) - ⟨1, 0, 0⟩).len = 1 := by
  constructor <;> simp [Vec.len]

/-- A right angle with unit segments, rounding radius 1/4: all hypotheses of `C63_feasible` and `C63_path_partial` hold. -/
example : ∃ R, Built R [⟨1, 0⟩, ⟨1, ⟨1, 0, 0⟩⟩, ⟨1, ⟨1, 1, 0⟩⟩] ∧ LineOk R.F_base_start R.F_base_via ∧
    R.comp.gv.length = 2 := by
  have he : epsilon = 1 / 10 ^ 6 := by unfold epsilon; norm_num
  have hz : ∀ (R R' : RoundedComposite) F, R.nrofpoints < 2 → R.add F = (.ok (), R') → StepOk R F :=
    fun R R' F h _ h2 => absurd h2 (not_le.mpr h)
  have h0 : RoundedComposite.new (1 / 4) 1 = .ok ⟨.new, 1 / 4, 1, 1, 1, 0⟩ := by
    unfold RoundedComposite.new
    rw [if_neg (by norm_num)]
  have h1 : RoundedComposite.add ⟨.new, 1 / 4, 1, 1, 1, 0⟩ ⟨1, 0⟩ = (.ok (), ⟨.new, 1 / 4, 1, ⟨1, 0⟩, 1, 1⟩) := by
    unfold RoundedComposite.add
    rw [if_pos rfl]
  have h2 : RoundedComposite.add ⟨.new, 1 / 4, 1, ⟨1, 0⟩, 1, 1⟩ ⟨1, ⟨1, 0, 0⟩⟩ =
      (.ok (), ⟨.new, 1 / 4, 1, ⟨1, 0⟩, ⟨1, ⟨1, 0, 0⟩⟩, 2⟩) := by
    unfold RoundedComposite.add
    rw [if_neg (by norm_num), if_pos rfl]
  have b1 := (Built.new h0).add h1 (hz _ _ _ (by norm_num) h1)
  have b2 := b1.add h2 (hz _ _ _ (by norm_num) h2)
  obtain ⟨l, C, E, hc, hC, hE, hadd⟩ := C63_feasible ⟨.new, 1 / 4, 1, ⟨1, 0⟩, ⟨1, ⟨1, 0, 0⟩⟩, 2⟩ 1 Rot.IsProper.one 0 ⟨1, 0, 0⟩
    ⟨1, 1, 0⟩ le_rfl rfl rfl (unit_corner 1) (by rw [unit_angle, sin_pi_div_two, he]; norm_num)
    (by dsimp only; rw [unit_angle, unit_d, unit_lens.1]; norm_num) (by dsimp only; rw [unit_angle, unit_d, unit_lens.2]; norm_num)
  dsimp only at hc hC hE hadd
  rw [unit_angle, unit_d] at hc hC hE
  have d1 : dir ((⟨1, 0, 0⟩ : Vec) - 0) = ⟨1, 0, 0⟩ := by
    unfold dir; rw [unit_lens.1]; ext <;> simp
  have d2 : dir ((⟨1, 1, 0⟩ : Vec) - ⟨1, 0, 0⟩) = ⟨0, 1, 0⟩ := by
    unfold dir; rw [unit_lens.2]; ext <;> simp
  rw [d1] at hC
  rw [d2] at hE
  refine ⟨_, b2.add hadd ?_, ?_, ?_⟩
  · intro _
    dsimp only
    refine ⟨fun hlt => ?_, fun _ l' C' E' hc' => ?_⟩
    · exfalso
      rw [unit_angle] at hlt
      have := pi_gt_three
      norm_num at hlt
      linarith
    · rw [unit_angle, unit_d, hc] at hc'
      simp only [Option.some.injEq, Prod.mk.injEq, PathRes.ok.injEq] at hc'
      obtain ⟨rfl, rfl, rfl⟩ := hc'
      refine ⟨unit_corner 1, ⟨Rot.IsProper.one, ?_, ?_, ?_⟩, ?_, ?_⟩
      · rw [hC]; exact Rot.IsProper.one
      · rw [hC]; right; left; rw [he]; simp; norm_num
      · rw [hC]; show (Rot.inv 1 * 1).Resolved; rw [Rot.inv_one, mul_one]; exact Rot.one_resolved
      · rw [hE]; exact Rot.IsProper.one
      · rw [hE, hC]; show (Rot.inv 1 * 1).Resolved; rw [Rot.inv_one, mul_one]; exact Rot.one_resolved
  · refine ⟨?_, Rot.IsProper.one, ?_, ?_⟩
    · show E.IsProper; rw [hE]; exact Rot.IsProper.one
    · show ((⟨1, 1, 0⟩ : Vec) - E.p).Resolved
      rw [hE]; right; right; left; rw [he]; simp; norm_num
    · show (E.M.inv * 1).Resolved
      rw [hE]; show (Rot.inv 1 * 1).Resolved; rw [Rot.inv_one, mul_one]; exact Rot.one_resolved
  · simp [PathComposite.add, PathComposite.new]

/-- A corner of `5e-7` rad between segments of ten metres: the hypotheses of `C63_no_plane_violated` hold. -/
example : ∃ P : Vec, CornerOk (1 / 4) ((⟨10, 0, 0⟩ : Vec) - 0) (P - ⟨10, 0, 0⟩) ∧
    1 / 10 ^ 7 ≤ RoundedComposite.cornerAngle ((⟨10, 0, 0⟩ : Vec) - 0) (P - ⟨10, 0, 0⟩) ∧
    1 / 10 ^ 7 ≤ π - RoundedComposite.cornerAngle ((⟨10, 0, 0⟩ : Vec) - 0) (P - ⟨10, 0, 0⟩) ∧
    sin (RoundedComposite.cornerAngle ((⟨10, 0, 0⟩ : Vec) - 0) (P - ⟨10, 0, 0⟩)) < epsilon ∧
    (1 / 4) / tan ((π - RoundedComposite.cornerAngle ((⟨10, 0, 0⟩ : Vec) - 0) (P - ⟨10, 0, 0⟩)) / 2) < ((⟨10, 0, 0⟩ : Vec) - 0).len ∧
    (1 / 4) / tan ((π - RoundedComposite.cornerAngle ((⟨10, 0, 0⟩ : Vec) - 0) (P - ⟨10, 0, 0⟩)) / 2) < (P - ⟨10, 0, 0⟩).len := by
  have he : epsilon = 1 / 10 ^ 6 := by unfold epsilon; norm_num
  set a : ℝ := 5 / 10 ^ 7 with ha
  have hpi := pi_gt_three
  have s1 : sin a ≤ a := sin_le (by rw [ha]; norm_num)
  have s2 : a - a ^ 3 / 6 < sin a := sin_gt_sub_cube (by rw [ha]; norm_num)
  have s3 : 4 / 10 ^ 7 ≤ sin a := by rw [ha] at s2 ⊢; norm_num at s2 ⊢; linarith
  have hcs := sin_sq_add_cos_sq a
  have hw : (⟨10 + 10 * cos a, 10 * sin a, 0⟩ : Vec) - ⟨10, 0, 0⟩ = (10 : ℝ) • (⟨cos a, sin a, 0⟩ : Vec) := by
    ext <;> simp
  have hu : (⟨10, 0, 0⟩ : Vec) - 0 = (10 : ℝ) • (⟨1, 0, 0⟩ : Vec) := by ext <;> simp
  have uw : (⟨cos a, sin a, 0⟩ : Vec).dot ⟨cos a, sin a, 0⟩ = 1 := by simp [Vec.dot]; linarith
  have uu : (⟨1, 0, 0⟩ : Vec).dot ⟨1, 0, 0⟩ = 1 := by simp [Vec.dot]
  have dw := dir_smul 10 _ (by norm_num) uw
  have du := dir_smul 10 _ (by norm_num) uu
  have nw : epsilon ≤ ((10 : ℝ) • (⟨cos a, sin a, 0⟩ : Vec)).norm := norm_of_len _ (by rw [dw.2, he]; norm_num)
  have nu : epsilon ≤ ((10 : ℝ) • (⟨1, 0, 0⟩ : Vec)).norm := norm_of_len _ (by rw [du.2, he]; norm_num)
  have hal : RoundedComposite.cornerAngle ((10 : ℝ) • (⟨1, 0, 0⟩ : Vec)) ((10 : ℝ) • (⟨cos a, sin a, 0⟩ : Vec)) = a := by
    have := cornerAngle_cos _ _ nu nw
    rw [du.1, dw.1] at this
    have h2 : (⟨1, 0, 0⟩ : Vec).dot ⟨cos a, sin a, 0⟩ = cos a := by simp [Vec.dot]
    rw [h2] at this
    refine injOn_cos ⟨?_, ?_⟩ ⟨by rw [ha]; norm_num, by rw [ha]; norm_num; linarith⟩ this
    · exact arccos_nonneg _
    · exact arccos_le_pi _
  have htan : 1 ≤ tan ((π - a) / 2) := by
    rw [← tan_pi_div_four]
    refine (tan_lt_tan_of_lt_of_lt_pi_div_two (by linarith) (by rw [ha]; norm_num; linarith) ?_).le
    rw [ha]; norm_num; linarith
  have hd : (1 / 4) / tan ((π - a) / 2) < 10 := by
    rw [div_lt_iff₀ (by linarith)]; linarith
  refine ⟨⟨10 + 10 * cos a, 10 * sin a, 0⟩, ?_⟩
  rw [hw, hu, hal, dw.2, du.2]
  refine ⟨⟨by rw [he]; norm_num, nu, nw, ?_⟩, by rw [ha]; norm_num, by rw [ha]; norm_num; linarith, ?_, hd, hd⟩
  · apply Vec.norm_of_comp
    right; left
    have : ((10 : ℝ) • (⟨1, 0, 0⟩ : Vec) * ((10 : ℝ) • (⟨1, 0, 0⟩ : Vec) * (10 : ℝ) • (⟨cos a, sin a, 0⟩ : Vec))).y = -(1000 * sin a) := by
      simp; ring
    rw [this, abs_neg, abs_of_pos (by positivity), he]
    norm_num at s3 ⊢; linarith
  · refine lt_of_le_of_lt s1 ?_
    rw [he, ha]; norm_num

end KDL
