import Verif.Props.PathLine

/-!
# C61: circular arcs (`Path_Circle`)

The arc starts at the start frame, lies on the circle around the centre in the plane spanned by start and `V_base_p`,
sweeps the angle `alpha` towards `V_base_p`, and ends with orientation `R_base_end`; `Vel` and `Acc` are the derivatives.
-/

noncomputable section
namespace KDL
open Real

/-! ### helpers -/

theorem ofCols_proper (x z : Vec) (hx : x.dot x = 1) (hz : z.dot z = 1) (hxz : x.dot z = 0) :
    (Rot.ofCols x (z * x) z).IsProper := by
  simp only [Vec.dot] at hx hz hxz
  have h : (Rot.ofCols x (z * x) z).inv.IsProper := by
    constructor
    · rw [Rot.inv_inv]
      ext <;> simp [Rot.ofCols]
      · linear_combination hx
      · ring
      · linear_combination hxz
      · ring
      · linear_combination (x.x * x.x + x.y * x.y + x.z * x.z) * hz + hx - (x.x * z.x + x.y * z.y + x.z * z.z) * hxz
      · ring
      · linear_combination hxz
      · ring
      · linear_combination hz
    · simp [Rot.ofCols, Rot.det]
      linear_combination (x.x * x.x + x.y * x.y + x.z * x.z) * hz + hx - (x.x * z.x + x.y * z.y + x.z * z.z) * hxz
  exact h.inv

private theorem frame_app (F : Frame) (v : Vec) : F * v = F.M * v + F.p := rfl

/-- The components of `v` along the three columns. -/
theorem Rot.IsProper.cols_expand {R : Rot} (h : R.IsProper) (v : Vec) :
    v = (v.dot R.unitX) • R.unitX + (v.dot R.unitY) • R.unitY + (v.dot R.unitZ) • R.unitZ := by
  have := h.app_inv_app v
  rw [← this]
  generalize hw : R.inv * v = w
  have e := h.inv_app_app w
  rw [Vec.ext_iff] at e
  simp at e
  obtain ⟨e1, e2, e3⟩ := e
  have a1 : (R * w).dot R.unitX = w.x := by rw [← e1]; simp [Vec.dot, Rot.unitX]
  have a2 : (R * w).dot R.unitY = w.y := by rw [← e2]; simp [Vec.dot, Rot.unitY]
  have a3 : (R * w).dot R.unitZ = w.z := by rw [← e3]; simp [Vec.dot, Rot.unitZ]
  rw [a1, a2, a3]
  ext <;> simp [Rot.unitX, Rot.unitY, Rot.unitZ] <;> ring

/-- What is known about a circle that the constructor accepted. -/
structure CircleSpec (F : Frame) (ctr : Vec) (R : Rot) (alpha eq : ℝ) (C : PathCircle) : Prop where
  orient : C.orient = RotInterp.setStartEnd F.M R
  center : C.F_base_center.p = ctr
  frame : C.F_base_center.M.IsProper
  radius : C.radius = (F.p - ctr).len
  radius_pos : 0 < C.radius
  unitX : F.p - ctr = C.radius • C.F_base_center.M.unitX
  len_ne : C.pathlength ≠ 0
  lin : C.pathlength * C.scalelin = alpha * C.radius
  rot : C.pathlength * C.scalerot = (F.M.inv * R).getRotAngle.2
  length : C.pathlength = max (alpha * C.radius) ((F.M.inv * R).getRotAngle.2 * eq)

private theorem normalize_snd_ge (v : Vec) (h : ¬ v.normalize.2 < epsilon) : epsilon ≤ v.norm := by
  by_contra hc
  apply h
  unfold Vec.normalize
  dsimp only
  rw [if_pos (not_le.mp hc)]
  exact epsilon_pos

theorem circle_spec (F : Frame) (ctr p : Vec) (R : Rot) (alpha eq : ℝ) (C : PathCircle)
    (h : PathCircle.new F ctr p R alpha eq = .ok C) : CircleSpec F ctr R alpha eq C ∧
      C.F_base_center.M = Rot.ofCols (F.p - ctr).normalize.1
        (((F.p - ctr).normalize.1 * (p - ctr).normalize.1).normalize.1 * (F.p - ctr).normalize.1)
        ((F.p - ctr).normalize.1 * (p - ctr).normalize.1).normalize.1 ∧
        epsilon ≤ ((F.p - ctr).normalize.1 * (p - ctr).normalize.1).norm := by
  unfold PathCircle.new at h
  dsimp only at h
  by_cases h1 : (F.p - ctr).normalize.2 < epsilon
  · rw [if_pos h1] at h; cases h
  rw [if_neg h1] at h
  by_cases h2 : ((F.p - ctr).normalize.1 * (p - ctr).normalize.1).normalize.2 < epsilon
  · rw [if_pos h2] at h; cases h
  rw [if_neg h2] at h
  have e1 := normalize_snd_ge _ h1
  have e2 := normalize_snd_ge _ h2
  obtain ⟨n1, n2⟩ := Vec.normalize_of_le _ e1
  obtain ⟨m1, m2⟩ := Vec.normalize_of_le _ e2
  have hx := Vec.normalize_unit (F.p - ctr)
  have hz := Vec.normalize_unit ((F.p - ctr).normalize.1 * (p - ctr).normalize.1)
  have hpos : 0 < (F.p - ctr).len := by rw [← n2]; exact lt_of_lt_of_le epsilon_pos e1
  have hxz : (F.p - ctr).normalize.1.dot ((F.p - ctr).normalize.1 * (p - ctr).normalize.1).normalize.1 = 0 := by
    rw [m1]
    simp only [Vec.dot, Vec.div_x, Vec.div_y, Vec.div_z, Vec.mul_x, Vec.mul_y, Vec.mul_z]
    ring
  have hr : (F.p - ctr).normalize.2 = (F.p - ctr).len := by rw [n1]
  have hxx : F.p - ctr = (F.p - ctr).len • (F.p - ctr).normalize.1 := by
    rw [n1]; ext <;> simp <;> field_simp
  have hP := ofCols_proper _ _ hx hz hxz
  have ho := (C08_angle_range (F.M.inv * R) epsilon).1
  rw [hr] at h
  by_cases h3 : (F.M.inv * R).getRotAngle.2 * eq > alpha * (F.p - ctr).len
  · rw [if_pos h3] at h
    by_cases h4 : (F.M.inv * R).getRotAngle.2 * eq = 0
    · rw [if_pos h4] at h; cases h
    · rw [if_neg h4] at h
      injection h with h
      subst h
      have h5 : eq ≠ 0 := fun e => h4 (by rw [e, mul_zero])
      refine ⟨⟨rfl, rfl, hP, rfl, hpos, hxx, h4, ?_, ?_, ?_⟩, rfl, e2⟩
      · dsimp only; rw [mul_div_cancel₀ _ h4]
      · dsimp only; field_simp
      · dsimp only; rw [max_eq_right h3.le]
  · rw [if_neg h3] at h
    by_cases h4 : alpha * (F.p - ctr).len = 0
    · rw [if_pos h4] at h; cases h
    · rw [if_neg h4] at h
      injection h with h
      subst h
      refine ⟨⟨rfl, rfl, hP, rfl, hpos, hxx, h4, ?_, ?_, ?_⟩, rfl, e2⟩
      · dsimp only; rw [mul_one]
      · dsimp only; rw [mul_div_cancel₀ _ h4]
      · dsimp only; rw [max_eq_left (not_lt.mp h3)]

/-! ### C61 -/

/-- The arc starts at the start frame. -/
theorem C61_start (F : Frame) (ctr p : Vec) (R : Rot) (alpha eq : ℝ) (C : PathCircle)
    (h : PathCircle.new F ctr p R alpha eq = .ok C) : C.pos 0 = F := by
  obtain ⟨sp, -⟩ := circle_spec F ctr p R alpha eq C h
  have hp : (C.pos 0).p = F.p := by
    have e : F.p = C.radius • C.F_base_center.M.unitX + C.F_base_center.p := by
      rw [← sp.unitX, sp.center]; abel
    rw [e]
    unfold PathCircle.pos
    ext <;> simp [Rot.unitX, frame_app] <;> ring
  have hM : (C.pos 0).M = F.M := by
    unfold PathCircle.pos
    dsimp only
    rw [sp.orient, zero_mul, C66_start]
  exact Frame.ext hM hp

/-- Every point of the path lies on the circle: at distance `radius` from the centre and in the plane through the centre
with normal `UnitZ` of the circle frame; the start point does too, and `radius` is its distance. -/
theorem C61_on_circle (F : Frame) (ctr p : Vec) (R : Rot) (alpha eq : ℝ) (C : PathCircle)
    (h : PathCircle.new F ctr p R alpha eq = .ok C) (s : ℝ) :
    C.radius = (F.p - ctr).len ∧ ((C.pos s).p - ctr).len = (F.p - ctr).len ∧
      ((C.pos s).p - ctr).dot C.F_base_center.M.unitZ = 0 := by
  obtain ⟨sp, -⟩ := circle_spec F ctr p R alpha eq C h
  have hv : (C.pos s).p - ctr = C.F_base_center.M *
      (⟨C.radius * cos (s * C.scalelin / C.radius), C.radius * sin (s * C.scalelin / C.radius), 0⟩ : Vec) := by
    rw [← sp.center]; unfold PathCircle.pos; dsimp only
    ext <;> simp [frame_app]
  refine ⟨sp.radius, ?_, ?_⟩
  · rw [hv, Rot.IsProper.len sp.frame, ← sp.radius]
    unfold Vec.len
    dsimp only
    have : (C.radius * cos (s * C.scalelin / C.radius)) ^ 2 + (C.radius * sin (s * C.scalelin / C.radius)) ^ 2 + 0 ^ 2
      = C.radius ^ 2 := by
      linear_combination C.radius ^ 2 * (sin_sq_add_cos_sq (s * C.scalelin / C.radius))
    rw [this, sqrt_sq sp.radius_pos.le]
  · have hz : C.F_base_center.M.unitZ = C.F_base_center.M * (⟨0, 0, 1⟩ : Vec) := by
      ext <;> simp [Rot.unitZ]
    rw [hv, hz, sp.frame.dot]
    simp [Vec.dot]

/-- The plane contains `V_base_p`, on the side towards which the arc sweeps (positive `UnitY`). -/
theorem C61_plane_partial (F : Frame) (ctr p : Vec) (R : Rot) (alpha eq : ℝ) (C : PathCircle)
    (h : PathCircle.new F ctr p R alpha eq = .ok C) (hp : epsilon ≤ (p - ctr).norm) :
    (p - ctr).dot C.F_base_center.M.unitZ = 0 ∧ 0 < (p - ctr).dot C.F_base_center.M.unitY := by
  obtain ⟨sp, hM, he⟩ := circle_spec F ctr p R alpha eq C h
  obtain ⟨m1, m2⟩ := Vec.normalize_of_le _ he
  obtain ⟨q1, q2⟩ := Vec.normalize_of_le _ hp
  have hq : 0 < (p - ctr).len := by rw [← q2]; exact lt_of_lt_of_le epsilon_pos hp
  have hpq : p - ctr = (p - ctr).len • (p - ctr).normalize.1 := by
    rw [q1]; ext <;> simp <;> field_simp
  have hw : 0 < ((F.p - ctr).normalize.1 * (p - ctr).normalize.1).len := by
    rw [← m2]; exact lt_of_lt_of_le epsilon_pos he
  rw [hM]
  have uz : ∀ a b c : Vec, (Rot.ofCols a b c).unitZ = c := fun a b c => rfl
  have uy : ∀ a b c : Vec, (Rot.ofCols a b c).unitY = b := fun a b c => rfl
  have e0 : ∀ w, (p - ctr).dot w = (p - ctr).len * (p - ctr).normalize.1.dot w := fun w => by
    conv_lhs => rw [hpq, Vec.smul_dot]
  rw [uz, uy, m1, e0, e0]
  dsimp only
  have hl := Vec.len_sq ((F.p - ctr).normalize.1 * (p - ctr).normalize.1)
  clear hpq q1 m1 e0
  generalize (F.p - ctr).normalize.1 = x at *
  generalize (p - ctr).normalize.1 = q at *
  generalize (x * q).len = L at *
  constructor
  · simp only [Vec.dot, Vec.div_x, Vec.div_y, Vec.div_z, Vec.mul_x, Vec.mul_y, Vec.mul_z]
    ring
  · have e : q.dot ((x * q / L) * x) = L := by
      have : L * q.dot ((x * q / L) * x) = L ^ 2 := by
        rw [hl]
        simp only [Vec.dot, Vec.div_x, Vec.div_y, Vec.div_z, Vec.mul_x, Vec.mul_y, Vec.mul_z]
        field_simp
        ring
      have hL : L ≠ 0 := hw.ne'
      exact mul_left_cancel₀ hL (by rw [this, pow_two])
    rw [e]
    exact mul_pos hq hw

/-- Position as a rotation of the start point about the normal. -/
theorem circle_pos (C : PathCircle) (F : Frame) (ctr : Vec) (R : Rot) (alpha eq : ℝ) (sp : CircleSpec F ctr R alpha eq C)
    (s : ℝ) :
    (C.pos s).p = ctr + Rot.rot2 C.F_base_center.M.unitZ (s * C.scalelin / C.radius) * (F.p - ctr) := by
  have e : (C.pos s).p = C.F_base_center.M *
      (⟨C.radius * cos (s * C.scalelin / C.radius), C.radius * sin (s * C.scalelin / C.radius), 0⟩ : Vec) + ctr := by
    unfold PathCircle.pos; dsimp only; rw [← sp.center]; rfl
  rw [e, sp.unitX]
  generalize s * C.scalelin / C.radius = a
  have hc := Rot.rot2_conj C.F_base_center.M sp.frame ⟨0, 0, 1⟩ a
  have hz : C.F_base_center.M * (⟨0, 0, 1⟩ : Vec) = C.F_base_center.M.unitZ := by ext <;> simp [Rot.unitZ]
  have hx : C.F_base_center.M.unitX = C.F_base_center.M * (⟨1, 0, 0⟩ : Vec) := by ext <;> simp [Rot.unitX]
  have hk : Rot.rot2 C.F_base_center.M.unitZ a * (C.radius • C.F_base_center.M.unitX) =
      C.F_base_center.M * (Rot.rot2 ⟨0, 0, 1⟩ a * (C.radius • (⟨1, 0, 0⟩ : Vec))) := by
    rw [hx, ← hz, ← hc, ← Rot.app_smul, Rot.mul_app, Rot.mul_app, sp.frame.inv_app_app]
  have hl : Rot.rot2 ⟨0, 0, 1⟩ a * (C.radius • (⟨1, 0, 0⟩ : Vec)) = ⟨C.radius * cos a, C.radius * sin a, 0⟩ := by
    ext <;> simp [Rot.rot2] <;> ring
  rw [hk, hl, add_comm]

/-- The arc ends at angle `alpha` (radians, measured from the start point about the normal) with orientation
`R_base_end`. -/
theorem C61_stop_partial (F : Frame) (ctr p : Vec) (R : Rot) (alpha eq : ℝ) (C : PathCircle)
    (h : PathCircle.new F ctr p R alpha eq = .ok C) (hF : F.IsProper) (hR : R.IsProper)
    (hres : (F.M.inv * R).Resolved) :
    (C.pos C.pathlength).p = ctr + Rot.rot2 C.F_base_center.M.unitZ alpha * (F.p - ctr) ∧
      (C.pos C.pathlength).M = R := by
  obtain ⟨sp, -⟩ := circle_spec F ctr p R alpha eq C h
  constructor
  · have ha : C.pathlength * C.scalelin / C.radius = alpha := by
      rw [sp.lin]; have := sp.radius_pos.ne'; field_simp
    rw [circle_pos C F ctr R alpha eq sp, ha]
  · obtain ⟨a, ha, -, -, hs⟩ := C66_stop_partial F.M R hF hR hres
    have ha' : (F.M.inv * R).getRotAngle.2 = a := Option.some.inj ha
    unfold PathCircle.pos
    dsimp only
    rw [sp.rot, ha', sp.orient, hs]

/-- `Vel` is the twist of the moving frame. -/
theorem C61_vel (F : Frame) (ctr p : Vec) (R : Rot) (alpha eq : ℝ) (C : PathCircle)
    (h : PathCircle.new F ctr p R alpha eq = .ok C) (hF : F.IsProper) (hR : R.IsProper)
    (hres : (F.M.inv * R).Resolved) (s : ℝ → ℝ) (t sd : ℝ) (hs : HasDerivAt s sd t) :
    Frame.HasTwist (fun t => C.pos (s t)) (C.vel (s t) sd) t := by
  obtain ⟨sp, -⟩ := circle_spec F ctr p R alpha eq C h
  have hq : HasDerivAt (fun t => s t * C.scalelin / C.radius) (sd * C.scalelin / C.radius) t :=
    (hs.mul_const _).div_const _
  constructor
  · have hv : Vec.HasDeriv (fun t => (⟨C.radius * cos (s t * C.scalelin / C.radius),
        C.radius * sin (s t * C.scalelin / C.radius), 0⟩ : Vec))
        ⟨-C.radius * sin (s t * C.scalelin / C.radius) * (sd * C.scalelin / C.radius),
          C.radius * cos (s t * C.scalelin / C.radius) * (sd * C.scalelin / C.radius), 0⟩ t :=
      ⟨(hq.cos.const_mul _).congr_deriv (by ring), (hq.sin.const_mul _).congr_deriv (by ring), hasDerivAt_const _ _⟩
    have := ((Rot.HasAngVel.const (t := t) C.F_base_center.M).app hv).add (Vec.HasDeriv.const C.F_base_center.p)
    exact this.congr_deriv (by ext <;> simp [PathCircle.vel])
  · have := C66_vel F.M R hF hR hres (fun t => s t * C.scalerot) t _ (hs.mul_const _)
    rw [← sp.orient] at this
    exact this

/-- `Acc` is the derivative of `Vel`. -/
theorem C61_acc (F : Frame) (ctr p : Vec) (R : Rot) (alpha eq : ℝ) (C : PathCircle)
    (h : PathCircle.new F ctr p R alpha eq = .ok C) (s sd : ℝ → ℝ) (t sdd : ℝ)
    (hs : HasDerivAt s (sd t) t) (hsd : HasDerivAt sd sdd t) :
    Twist.HasDeriv (fun t => C.vel (s t) (sd t)) (C.acc (s t) (sd t) sdd) t := by
  obtain ⟨sp, -⟩ := circle_spec F ctr p R alpha eq C h
  have hq : HasDerivAt (fun t => s t * C.scalelin / C.radius) (sd t * C.scalelin / C.radius) t :=
    (hs.mul_const _).div_const _
  have hv : HasDerivAt (fun t => sd t * C.scalelin / C.radius) (sdd * C.scalelin / C.radius) t :=
    (hsd.mul_const _).div_const _
  constructor
  · have hv : Vec.HasDeriv (fun t =>
        (⟨-C.radius * sin (s t * C.scalelin / C.radius) * (sd t * C.scalelin / C.radius),
          C.radius * cos (s t * C.scalelin / C.radius) * (sd t * C.scalelin / C.radius), 0⟩ : Vec))
        ⟨-C.radius * cos (s t * C.scalelin / C.radius) * (sd t * C.scalelin / C.radius) * (sd t * C.scalelin / C.radius)
            - C.radius * sin (s t * C.scalelin / C.radius) * (sdd * C.scalelin / C.radius),
          -C.radius * sin (s t * C.scalelin / C.radius) * (sd t * C.scalelin / C.radius) * (sd t * C.scalelin / C.radius)
            + C.radius * cos (s t * C.scalelin / C.radius) * (sdd * C.scalelin / C.radius), 0⟩ t :=
      ⟨((hq.sin.const_mul _).mul hv).congr_deriv (by ring), ((hq.cos.const_mul _).mul hv).congr_deriv (by ring),
        hasDerivAt_const _ _⟩
    have := (Rot.HasAngVel.const (t := t) C.F_base_center.M).app hv
    exact this.congr_deriv (by ext <;> simp [PathCircle.acc])
  · have := C66_acc F.M R (fun t => s t * C.scalerot) (fun t => sd t * C.scalerot) t _ (hsd.mul_const _)
    rw [← sp.orient] at this
    exact this

/-- Meaning of `eqradius` for `alpha ≥ 0`: neither the linear speed nor the speed of a point at distance `eqradius` from
the rotation axis exceeds `|ds|`, and one of the two is equal to it.  The path length is the longer of the two motions. -/
theorem C61_speed (F : Frame) (ctr p : Vec) (R : Rot) (alpha eq : ℝ) (C : PathCircle)
    (h : PathCircle.new F ctr p R alpha eq = .ok C) (hF : F.IsProper) (hR : R.IsProper)
    (hres : (F.M.inv * R).Resolved) (ha : 0 ≤ alpha) (he : 0 ≤ eq) (s sd : ℝ) :
    C.pathlength = max (alpha * (F.p - ctr).len) ((F.M.inv * R).getRotAngle.2 * eq) ∧
      (C.vel s sd).vel.len ≤ |sd| ∧ eq * (C.vel s sd).rot.len ≤ |sd| ∧
      ((C.vel s sd).vel.len = |sd| ∨ eq * (C.vel s sd).rot.len = |sd|) := by
  obtain ⟨sp, -⟩ := circle_spec F ctr p R alpha eq C h
  have hu := Rot.resolved_axis (F.M.inv * R) (Rot.IsProper.mul (Rot.IsProper.inv hF) hR) hres
  have hr := sp.radius_pos
  have h1 : (C.vel s sd).vel.len = |sd| * |C.scalelin| := by
    have e : (C.vel s sd).vel = C.F_base_center.M *
      (⟨-C.radius * sin (s * C.scalelin / C.radius) * (sd * C.scalelin / C.radius),
        C.radius * cos (s * C.scalelin / C.radius) * (sd * C.scalelin / C.radius), 0⟩ : Vec) := rfl
    rw [e, Rot.IsProper.len sp.frame, Vec.len]
    dsimp only
    rw [show (-C.radius * sin (s * C.scalelin / C.radius) * (sd * C.scalelin / C.radius)) ^ 2 +
      (C.radius * cos (s * C.scalelin / C.radius) * (sd * C.scalelin / C.radius)) ^ 2 + 0 ^ 2 =
      (C.radius * (sd * C.scalelin / C.radius)) ^ 2 by
        linear_combination (C.radius * (sd * C.scalelin / C.radius)) ^ 2 *
          (sin_sq_add_cos_sq (s * C.scalelin / C.radius))]
    rw [mul_div_cancel₀ _ hr.ne', sqrt_sq_eq_abs, abs_mul]
  have h2 : (C.vel s sd).rot.len = |sd| * |C.scalerot| := by
    have : (C.vel s sd).rot = F.M * ((sd * C.scalerot) • (F.M.inv * R).getRotAngle.1) := by
      unfold PathCircle.vel; rw [sp.orient]; rfl
    rw [this, Rot.IsProper.len hF, Vec.len_smul_unit _ _ hu, abs_mul]
  refine ⟨sp.radius ▸ sp.length, ?_⟩
  rw [h1, h2]
  have ho := (C08_angle_range (F.M.inv * R) epsilon).1
  have l1 := sp.lin
  have l2 := sp.rot
  have l3 := sp.length
  have l4 := sp.len_ne
  generalize (F.M.inv * R).getRotAngle.2 = o at *
  generalize C.pathlength = L at *
  generalize C.scalelin = a at *
  generalize C.scalerot = b at *
  have hd : 0 ≤ alpha * C.radius := mul_nonneg ha hr.le
  have hoe : 0 ≤ o * eq := mul_nonneg ho he
  have hL : 0 < L := lt_of_le_of_ne (l3 ▸ le_max_of_le_left hd) (Ne.symm l4)
  have ha0 : |a| = alpha * C.radius / L := by
    rw [← l1]; rw [mul_div_cancel_left₀ _ l4, abs_of_nonneg]
    exact nonneg_of_mul_nonneg_right (l1 ▸ hd) hL
  have hb0 : |b| = o / L := by
    rw [← l2]; rw [mul_div_cancel_left₀ _ l4, abs_of_nonneg]
    exact nonneg_of_mul_nonneg_right (l2 ▸ ho) hL
  have hs := abs_nonneg sd
  have m1 : alpha * C.radius / L ≤ 1 := (div_le_one hL).mpr (l3 ▸ le_max_left _ _)
  have m2 : o * eq / L ≤ 1 := (div_le_one hL).mpr (l3 ▸ le_max_right _ _)
  have e2 : eq * (|sd| * |b|) = |sd| * (o * eq / L) := by rw [hb0]; ring
  rw [e2, ha0]
  refine ⟨by nlinarith, by nlinarith, ?_⟩
  rcases max_choice (alpha * C.radius) (o * eq) with k | k
  · left; rw [← k, ← l3, div_self l4, mul_one]
  · right; rw [← k, ← l3, div_self l4, mul_one]

/-- `LengthToS` gives the parameter at which the arc covered has the given physical length: the position is the start
turned about the normal by `len / radius`. -/
theorem C61_lengthToS (F : Frame) (ctr p : Vec) (R : Rot) (alpha eq len : ℝ) (C : PathCircle)
    (h : PathCircle.new F ctr p R alpha eq = .ok C) (ha : alpha ≠ 0) :
    ∃ s, C.lengthToS len = some s ∧ s * C.scalelin / C.radius = len / (F.p - ctr).len ∧
      (C.pos s).p = ctr + Rot.rot2 C.F_base_center.M.unitZ (len / (F.p - ctr).len) * (F.p - ctr) := by
  obtain ⟨sp, -⟩ := circle_spec F ctr p R alpha eq C h
  have hs : C.scalelin ≠ 0 := by
    intro e
    have := sp.lin
    rw [e, mul_zero] at this
    exact (mul_ne_zero ha sp.radius_pos.ne') this.symm
  have e1 : len / C.scalelin * C.scalelin / C.radius = len / (F.p - ctr).len := by
    rw [div_mul_cancel₀ _ hs, sp.radius]
  refine ⟨len / C.scalelin, by unfold PathCircle.lengthToS; rw [if_neg hs], e1, ?_⟩
  rw [circle_pos C F ctr R alpha eq sp, e1]

/-- A start point closer than `1e-6` (in every coordinate) to the centre is rejected; a start point with some coordinate
at least `1e-6` away is not rejected for this reason. -/
theorem C61_too_small (F : Frame) (ctr p : Vec) (R : Rot) (alpha eq : ℝ) :
    PathCircle.new F ctr p R alpha eq = .tooSmall ↔ (F.p - ctr).norm < epsilon := by
  unfold PathCircle.new
  dsimp only
  constructor
  · intro h
    by_contra hc
    have e := (Vec.normalize_of_le _ (not_lt.mp hc))
    have h1 : ¬ (F.p - ctr).normalize.2 < epsilon := by rw [e.1, ← e.2]; exact hc
    rw [if_neg h1] at h
    split_ifs at h
  · intro h
    have : (F.p - ctr).normalize.2 < epsilon := by
      unfold Vec.normalize; dsimp only; rw [if_pos h]; exact epsilon_pos
    rw [if_pos this]

/-- If start, centre and `V_base_p` are collinear (with `V_base_p` away from the centre) the constructor throws. -/
theorem C61_no_plane_partial (F : Frame) (ctr p : Vec) (R : Rot) (alpha eq : ℝ) (hs : epsilon ≤ (F.p - ctr).norm)
    (hp : epsilon ≤ (p - ctr).norm) (hcol : (F.p - ctr) * (p - ctr) = 0) :
    PathCircle.new F ctr p R alpha eq = .noPlane := by
  have e := Vec.normalize_of_le _ hs
  have f := Vec.normalize_of_le _ hp
  unfold PathCircle.new
  dsimp only
  have h1 : ¬ (F.p - ctr).normalize.2 < epsilon := by rw [e.1, ← e.2]; exact not_lt.mpr hs
  rw [if_neg h1]
  have hz : (F.p - ctr).normalize.1 * (p - ctr).normalize.1 = 0 := by
    rw [e.1, f.1]
    dsimp only
    rw [Vec.div_eq_smul, Vec.div_eq_smul, Vec.smul_cross, Vec.cross_smul, hcol]
    simp
  rw [hz, Vec.normalize_zero, if_pos epsilon_pos]

private theorem normalize_one (v : Vec) (h : v.len = 1) (hc : epsilon ≤ |v.x| ∨ epsilon ≤ |v.y| ∨ epsilon ≤ |v.z|) :
    v.normalize = (v, 1) := by
  rw [(Vec.normalize_of_le v (Vec.norm_of_comp v hc)).1, h]
  ext <;> simp

private theorem eps_le_one : epsilon ≤ (1 : ℝ) := by norm_num [epsilon]

theorem circle_nX : (⟨1, 0, 0⟩ : Vec).normalize = (⟨1, 0, 0⟩, 1) :=
  normalize_one _ (by simp [Vec.len]) (Or.inl (by simpa using eps_le_one))
theorem circle_nY : (⟨0, 1, 0⟩ : Vec).normalize = (⟨0, 1, 0⟩, 1) :=
  normalize_one _ (by simp [Vec.len]) (Or.inr (Or.inl (by simpa using eps_le_one)))
theorem circle_nZ : (⟨0, 0, 1⟩ : Vec).normalize = (⟨0, 0, 1⟩, 1) :=
  normalize_one _ (by simp [Vec.len]) (Or.inr (Or.inr (by simpa using eps_le_one)))
theorem circle_nXm : (⟨-1, 0, 0⟩ : Vec).normalize = (⟨-1, 0, 0⟩, 1) :=
  normalize_one _ (by simp [Vec.len]) (Or.inl (by simpa using eps_le_one))
theorem circle_nZm : (⟨0, 0, -1⟩ : Vec).normalize = (⟨0, 0, -1⟩, 1) :=
  normalize_one _ (by simp [Vec.len]) (Or.inr (Or.inr (by simpa using eps_le_one)))

/-- The constructor without change of orientation, for unit vectors. -/
theorem circle_new_one (P ctr p x q z : Vec) (alpha eq : ℝ) (ha : 0 < alpha)
    (hx : (P - ctr).normalize = (x, 1)) (hq : (p - ctr).normalize.1 = q) (hz : (x * q).normalize = (z, 1)) :
    PathCircle.new ⟨1, P⟩ ctr p 1 alpha eq =
      .ok ⟨RotInterp.setStartEnd 1 1, 1, ⟨Rot.ofCols x (z * x) z, ctr⟩, eq, alpha, 1, 0⟩ := by
  have h0 : ((1 : Rot).inv * 1).getRotAngle.2 = 0 := by
    rw [Rot.inv_one, mul_one, Rot.getRotAngle_one]
  have he : ¬ (1 : ℝ) < epsilon := not_lt.mpr eps_le_one
  unfold PathCircle.new
  dsimp only
  rw [hx, hq]
  dsimp only
  rw [hz, h0]
  dsimp only
  rw [if_neg he, if_neg he, if_neg (by rw [zero_mul, mul_one]; exact not_lt.mpr ha.le),
    if_neg (by rw [mul_one]; exact ha.ne'), mul_one, zero_div]

/-- But if `V_base_p` is the centre itself, so that no plane is determined, no exception is thrown and an arbitrary plane is
used: here the circle around the origin through `(0,1,0)` is drawn in the `xy` plane. -/
theorem C61_no_plane_violated : ∃ C,
    PathCircle.new ⟨1, ⟨0, 1, 0⟩⟩ 0 0 1 1 1 = .ok C ∧ ((⟨0, 1, 0⟩ : Vec) - 0) * ((0 : Vec) - 0) = 0 := by
  refine ⟨_, circle_new_one ⟨0, 1, 0⟩ 0 0 ⟨0, 1, 0⟩ ⟨1, 0, 0⟩ ⟨0, 0, -1⟩ 1 1 one_pos ?_ ?_ ?_, ?_⟩
  · rw [sub_zero, circle_nY]
  · rw [sub_zero, Vec.normalize_zero]
  · rw [show ((⟨0, 1, 0⟩ : Vec) * (⟨1, 0, 0⟩ : Vec)) = ⟨0, 0, -1⟩ by ext <;> simp, circle_nZm]
  · ext <;> simp

/-- Arc of one radian in the `xy` plane from `(1,0,0)` about the origin. -/
def exArc : PathRes PathCircle := PathCircle.new ⟨1, ⟨1, 0, 0⟩⟩ 0 ⟨0, 1, 0⟩ 1 1 1

theorem arc_ok (alpha eq : ℝ) (ha : 0 < alpha) : PathCircle.new ⟨1, ⟨1, 0, 0⟩⟩ 0 ⟨0, 1, 0⟩ 1 alpha eq =
    .ok ⟨RotInterp.setStartEnd 1 1, 1, ⟨1, 0⟩, eq, alpha, 1, 0⟩ := by
  rw [circle_new_one ⟨1, 0, 0⟩ 0 ⟨0, 1, 0⟩ ⟨1, 0, 0⟩ ⟨0, 1, 0⟩ ⟨0, 0, 1⟩ alpha eq ha]
  · have : Rot.ofCols ⟨1, 0, 0⟩ ((⟨0, 0, 1⟩ : Vec) * (⟨1, 0, 0⟩ : Vec)) ⟨0, 0, 1⟩ = 1 := by
      ext <;> simp [Rot.ofCols]
    rw [this]
  · rw [sub_zero, circle_nX]
  · rw [sub_zero, circle_nY]
  · rw [show ((⟨1, 0, 0⟩ : Vec) * (⟨0, 1, 0⟩ : Vec)) = ⟨0, 0, 1⟩ by ext <;> simp, circle_nZ]

/-- `Clone` is not a copy: the opening angle is passed in degrees although the constructor takes radians. The clone of an
arc of one radian has 180/π times its length. -/
theorem C61_clone_violated : ∃ C D, exArc = .ok C ∧ C.clone = .ok D ∧ C.pathlength = 1 ∧ D.pathlength = 180 / π := by
  have hC := arc_ok 1 1 one_pos
  refine ⟨_, ⟨RotInterp.setStartEnd 1 1, 1, ⟨1, 0⟩, 1, 180 / π, 1, 0⟩, hC, ?_, rfl, rfl⟩
  unfold PathCircle.clone
  have h0 := C61_start _ _ _ _ _ _ _ hC
  rw [h0]
  dsimp only
  have hu : (1 : Rot).unitY = ⟨0, 1, 0⟩ := by ext <;> simp [Rot.unitY]
  have ha : (1 : ℝ) * 1 / 1 / PathCircle.deg2rad = 180 / π := by
    unfold PathCircle.deg2rad; field_simp
  rw [mul_zero, C66_start, hu, ha]
  exact arc_ok (180 / π) 1 (by positivity)

/-- `Clone` also passes the direction `UnitY` where a point is expected, so the plane changes in general: a circle around
`(0,1,0)` with normal `-x` is cloned to one with normal `y`. -/
theorem C61_clone_point_violated : ∃ C D, PathCircle.new ⟨1, ⟨0, 1, 1⟩⟩ ⟨0, 1, 0⟩ ⟨0, 2, 0⟩ 1 1 1 = .ok C ∧
    C.clone = .ok D ∧ C.F_base_center.M.unitZ = ⟨-1, 0, 0⟩ ∧ D.F_base_center.M.unitZ = ⟨0, 1, 0⟩ := by
  have hC := circle_new_one ⟨0, 1, 1⟩ ⟨0, 1, 0⟩ ⟨0, 2, 0⟩ ⟨0, 0, 1⟩ ⟨0, 1, 0⟩ ⟨-1, 0, 0⟩ 1 1 one_pos
    (by rw [show (⟨0, 1, 1⟩ : Vec) - ⟨0, 1, 0⟩ = ⟨0, 0, 1⟩ by ext <;> simp, circle_nZ])
    (by rw [show (⟨0, 2, 0⟩ : Vec) - ⟨0, 1, 0⟩ = ⟨0, 1, 0⟩ by ext <;> simp; norm_num, circle_nY])
    (by rw [show ((⟨0, 0, 1⟩ : Vec) * (⟨0, 1, 0⟩ : Vec)) = ⟨-1, 0, 0⟩ by ext <;> simp, circle_nXm])
  have h0 := C61_start _ _ _ _ _ _ _ hC
  refine ⟨_, ⟨RotInterp.setStartEnd 1 1, 1, ⟨Rot.ofCols ⟨0, 0, 1⟩ ((⟨0, 1, 0⟩ : Vec) * (⟨0, 0, 1⟩ : Vec)) ⟨0, 1, 0⟩,
    ⟨0, 1, 0⟩⟩, 1, 180 / π, 1, 0⟩, hC, ?_, rfl, rfl⟩
  · unfold PathCircle.clone
    rw [h0]
    dsimp only
    have hu : (Rot.ofCols ⟨0, 0, 1⟩ ((⟨-1, 0, 0⟩ : Vec) * (⟨0, 0, 1⟩ : Vec)) ⟨-1, 0, 0⟩).unitY = ⟨0, 1, 0⟩ := by
      ext <;> simp [Rot.unitY, Rot.ofCols]
    have ha : (1 : ℝ) * 1 / 1 / PathCircle.deg2rad = 180 / π := by
      unfold PathCircle.deg2rad; field_simp
    rw [mul_zero, C66_start, hu, ha]
    exact circle_new_one ⟨0, 1, 1⟩ ⟨0, 1, 0⟩ ⟨0, 1, 0⟩ ⟨0, 0, 1⟩ ⟨1, 0, 0⟩ ⟨0, 1, 0⟩ (180 / π) 1 (by positivity)
      (by rw [show (⟨0, 1, 1⟩ : Vec) - ⟨0, 1, 0⟩ = ⟨0, 0, 1⟩ by ext <;> simp, circle_nZ])
      (by rw [sub_self, Vec.normalize_zero])
      (by rw [show ((⟨0, 0, 1⟩ : Vec) * (⟨1, 0, 0⟩ : Vec)) = ⟨0, 1, 0⟩ by ext <;> simp, circle_nY])

/-- Without change of orientation a zero or negative opening angle divides by zero. -/
theorem C61_zero_violated (alpha eq : ℝ) (ha : alpha ≤ 0) :
    PathCircle.new ⟨1, ⟨1, 0, 0⟩⟩ 0 ⟨0, 1, 0⟩ 1 alpha eq = .nan := by
  have h0 : ((1 : Rot).inv * 1).getRotAngle.2 = 0 := by
    rw [Rot.inv_one, mul_one, Rot.getRotAngle_one]
  have he : ¬ (1 : ℝ) < epsilon := not_lt.mpr eps_le_one
  unfold PathCircle.new
  dsimp only
  rw [sub_zero, sub_zero, circle_nX, circle_nY]
  dsimp only
  rw [show ((⟨1, 0, 0⟩ : Vec) * (⟨0, 1, 0⟩ : Vec)) = ⟨0, 0, 1⟩ by ext <;> simp, circle_nZ, h0]
  dsimp only
  rw [if_neg he, if_neg he, zero_mul, mul_one]
  by_cases h : alpha = 0
  · rw [if_neg (by rw [h]; exact lt_irrefl _), if_pos h]
  · rw [if_pos (lt_of_le_of_ne ha h), if_pos rfl]

/-- The hypotheses of the theorems hold for the example arc, and for one that also turns. -/
example : ∃ C, exArc = .ok C ∧ ((1 : Rot).inv * 1).Resolved ∧ (1 : Rot).IsProper ∧
    epsilon ≤ ((⟨0, 1, 0⟩ : Vec) - 0).norm :=
  ⟨_, arc_ok 1 1 one_pos, by rw [Rot.inv_one, mul_one]; exact Rot.one_resolved, Rot.IsProper.one,
    Vec.norm_of_comp _ (Or.inr (Or.inl (by simpa using eps_le_one)))⟩

end KDL
