import Verif.Props.ForwardDynamics
import Verif.Props.TimeScaling

/-! C105: scale and offset of the joints are a change of the joint coordinates.  A chain whose joints measure their positions
in other units and from other zero positions describes the same robot: the solvers give the same motion, and torques,
Jacobian columns and inertias in the new units. -/

noncomputable section
namespace KDL
open Finset

/-- The segment whose joint is driven by a coordinate `x` with `k * x + o` the old one.  The rotor inertia is the same rotor in
the new unit. -/
def Segment.regauged (k o : ℝ) (s : Segment) : Segment :=
  { s with joint := { s.joint with scale := s.joint.scale * k, offset := s.joint.scale * o + s.joint.offset,
                                   inertia := k ^ 2 * s.joint.inertia } }
/-- Segments from joint number `j` on with the coordinates of joint `i` changed by `k i`, `o i`. -/
def regauge (k o : ℕ → ℝ) : List Segment → ℕ → List Segment
  | [], _ => []
  | s :: ss, j => s.regauged (k j) (o j) :: regauge k o ss (if s.moving then j + 1 else j)
/-- The chain in other joint coordinates. -/
def Chain.regauged (k o : ℕ → ℝ) (c : Chain) : Chain := { c with segments := regauge k o c.segments 0 }
/-- The old coordinates of joint positions. -/
def oldPos (k o : ℕ → ℝ) (q : List ℝ) : List ℝ := q.mapIdx fun j x => k j * x + o j
/-- Joint-wise multiplication: the old rates of joint rates, the new torques of torques. -/
def byJoint (k : ℕ → ℝ) (x : List ℝ) : List ℝ := x.mapIdx fun j y => k j * y

/-! ### Helpers -/

theorem oldPos_length (k o : ℕ → ℝ) (q : List ℝ) : (oldPos k o q).length = q.length := by simp [oldPos]
theorem byJoint_length (k : ℕ → ℝ) (q : List ℝ) : (byJoint k q).length = q.length := by simp [byJoint]
theorem oldPos_get (k o : ℕ → ℝ) (q : List ℝ) (j : ℕ) : (oldPos k o q)[j]? = q[j]?.map fun x => k j * x + o j := by
  simp [oldPos, List.getElem?_mapIdx]
theorem byJoint_get (k : ℕ → ℝ) (q : List ℝ) (j : ℕ) : (byJoint k q)[j]? = q[j]?.map fun x => k j * x := by
  simp [byJoint, List.getElem?_mapIdx]
theorem byJoint_getD (k : ℕ → ℝ) (q : List ℝ) (j : ℕ) : (byJoint k q).getD j 0 = k j * q.getD j 0 := by
  rw [List.getD_eq_getElem?_getD, byJoint_get, List.getD_eq_getElem?_getD]
  cases q[j]? <;> simp
theorem rd_byJoint (k : ℕ → ℝ) (q : List ℝ) : rd (byJoint k q) = fun j => k j * rd q j := by
  funext j; exact byJoint_getD k q j

theorem regauged_moving (k o : ℝ) (s : Segment) : (s.regauged k o).moving = s.moving := rfl
theorem regauged_pose (k o x : ℝ) (s : Segment) : (s.regauged k o).pose x = s.pose (k * x + o) := by
  have e : s.joint.scale * k * x + (s.joint.scale * o + s.joint.offset) = s.joint.scale * (k * x + o) + s.joint.offset := by ring
  unfold Segment.pose Segment.regauged Joint.pose
  dsimp only
  rw [e]
theorem regauged_twist (k o x y : ℝ) (s : Segment) : (s.regauged k o).twist x y = s.twist (k * x + o) (k * y) := by
  have e : s.joint.scale * k * x + (s.joint.scale * o + s.joint.offset) = s.joint.scale * (k * x + o) + s.joint.offset := by ring
  have e' : s.joint.scale * k * y = s.joint.scale * (k * y) := by ring
  unfold Segment.twist Segment.regauged Joint.pose Joint.twist
  dsimp only
  rw [e, e']
theorem still_pose {s : Segment} (h : ¬ s.moving = true) (x y : ℝ) : s.pose x = s.pose y := by
  have : s.joint.type = .Fixed := by simpa [Segment.moving, Joint.moving] using h
  simp [Segment.pose, Joint.pose, this]
theorem still_twist {s : Segment} (h : ¬ s.moving = true) (x y x' y' : ℝ) : s.twist x y = s.twist x' y' := by
  have : s.joint.type = .Fixed := by simpa [Segment.moving, Joint.moving] using h
  simp [Segment.twist, Joint.pose, Joint.twist, this]
theorem twist_scale (s : Segment) (x k : ℝ) : s.twist x k = k • s.twist x 1 := by
  unfold Segment.twist Joint.twist
  cases s.joint.type <;> ext <;> simp <;> ring

theorem regauge_take (k o : ℕ → ℝ) : ∀ (L : List Segment) (n j : ℕ), (regauge k o L j).take n = regauge k o (L.take n) j := by
  intro L
  induction L with
  | nil => intro n j; simp [regauge]
  | cons s L ih => intro n j; cases n with
    | zero => simp [regauge]
    | succ n => simp [regauge, ih]
theorem regauge_length (k o : ℕ → ℝ) : ∀ (L : List Segment) (j : ℕ), (regauge k o L j).length = L.length := by
  intro L
  induction L with
  | nil => intro j; rfl
  | cons s L ih => intro j; simp [regauge, ih]
theorem regauge_nMoving (k o : ℕ → ℝ) : ∀ (L : List Segment) (j : ℕ), nMoving (regauge k o L j) = nMoving L := by
  intro L
  induction L with
  | nil => intro j; rfl
  | cons s L ih => intro j; rw [regauge, nMoving_cons, nMoving_cons, ih]; rfl
theorem regauge_mem (k o : ℕ → ℝ) : ∀ (L : List Segment) (j : ℕ) {x : Segment}, x ∈ regauge k o L j →
    ∃ i, ∃ s ∈ L, x = s.regauged (k i) (o i) := by
  intro L
  induction L with
  | nil => intro j x h; simp [regauge] at h
  | cons s L ih =>
    intro j x h
    rw [regauge, List.mem_cons] at h
    rcases h with rfl | h
    · exact ⟨j, s, by simp, rfl⟩
    · obtain ⟨i, y, hy, e⟩ := ih _ h
      exact ⟨i, y, by simp [hy], e⟩
theorem regauged_WF {c : Chain} (hc : c.WF) (k o : ℕ → ℝ) : (c.regauged k o).WF := by
  refine ⟨?_, ?_⟩
  · simp only [Chain.regauged, regauge_length]; exact hc.1
  · simp only [Chain.regauged, regauge_nMoving]; exact hc.2
theorem regauged_valid {c : Chain} (hv : c.Valid) (k o : ℕ → ℝ) : (c.regauged k o).Valid := by
  intro x hx
  obtain ⟨i, s, hs, rfl⟩ := regauge_mem k o _ _ hx
  exact ⟨(hv s hs).1, (hv s hs).2⟩
theorem regauged_symm {c : Chain} (hI : c.SymmI) (k o : ℕ → ℝ) : (c.regauged k o).SymmI := by
  intro x hx
  obtain ⟨i, s, hs, rfl⟩ := regauge_mem k o _ _ hx
  exact hI s hs

theorem fkLoop_regauge (k o : ℕ → ℝ) (q : List ℝ) : ∀ (L : List Segment) (j : ℕ) (p : Frame),
    fkLoop q (regauge k o L j) j p = fkLoop (oldPos k o q) L j p := by
  intro L
  induction L with
  | nil => intro j p; rfl
  | cons s L ih =>
    intro j p
    rw [regauge, fkLoop, fkLoop, regauged_moving]
    by_cases hm : s.moving = true
    · rw [if_pos hm, if_pos hm, if_pos hm, oldPos_get]
      simp only [Option.bind_eq_bind]
      cases q[j]? with
      | none => rfl
      | some x => simp only [Option.bind_some, Option.map_some, regauged_pose, ih]
    · rw [if_neg hm, if_neg hm, if_neg hm, regauged_pose, still_pose hm _ 0, ih]

theorem fkVelLoop_regauge (k o : ℕ → ℝ) (q qd : List ℝ) : ∀ (L : List Segment) (j : ℕ) (p : FrameVel),
    fkVelLoop q qd (regauge k o L j) j p = fkVelLoop (oldPos k o q) (byJoint k qd) L j p := by
  intro L
  induction L with
  | nil => intro j p; rfl
  | cons s L ih =>
    intro j p
    rw [regauge, fkVelLoop, fkVelLoop, regauged_moving]
    by_cases hm : s.moving = true
    · rw [if_pos hm, if_pos hm, if_pos hm, oldPos_get, byJoint_get]
      simp only [Option.bind_eq_bind]
      cases q[j]? with
      | none => rfl
      | some x =>
        simp only [Option.bind_some, Option.map_some]
        cases qd[j]? with
        | none => rfl
        | some y => simp only [Option.bind_some, Option.map_some, regauged_pose, regauged_twist, ih]
    · rw [if_neg hm, if_neg hm, if_neg hm, regauged_pose, regauged_twist, still_pose hm _ 0, still_twist hm _ _ 0 0, ih]

/-- The columns of a Jacobian multiplied by numbers. -/
def byColumn (σ : ℕ → ℝ) (J : Jac) : Jac := J.mapIdx fun i t => σ i • t

theorem byColumn_get (σ : ℕ → ℝ) (J : Jac) (i : ℕ) : (byColumn σ J)[i]? = J[i]?.map fun t => σ i • t := by
  simp [byColumn, List.getElem?_mapIdx]

theorem byColumn_ref (σ : ℕ → ℝ) (J : Jac) (p : Vec) : (byColumn σ J).changeRefPoint p = byColumn σ (J.changeRefPoint p) := by
  apply List.ext_getElem?
  intro i
  simp only [Jac.changeRefPoint, List.getElem?_map, byColumn_get]
  cases J[i]? with
  | none => rfl
  | some t =>
    simp only [Option.map_some, Option.some.injEq]
    ext <;> simp <;> ring

theorem byColumn_set (σ : ℕ → ℝ) (J : Jac) (i : ℕ) (t : Twist) :
    (byColumn σ J).setColumn i (σ i • t) = (J.setColumn i t).map (byColumn σ) := by
  unfold Jac.setColumn
  have hl : (byColumn σ J).length = J.length := by simp [byColumn]
  rw [hl]
  by_cases h : i < J.length
  · rw [if_pos h, if_pos h, Option.map_some, Option.some.injEq]
    apply List.ext_getElem?
    intro n
    rw [byColumn_get]
    by_cases hn : i = n
    · subst hn
      rw [List.getElem?_set_self (by omega), List.getElem?_set_self h]; rfl
    · rw [List.getElem?_set_ne hn, List.getElem?_set_ne hn, byColumn_get]
  · rw [if_neg h, if_neg h]; rfl

theorem jacLoop_regauge (k o σ : ℕ → ℝ) (q : List ℝ) (locked : List Bool)
    (hσ : ∀ j, locked[j]? = some false → σ ((locked.take j).count false) = k j) : ∀ (L : List Segment) (j : ℕ) (T : Frame) (J : Jac),
    jacLoop q locked (regauge k o L j) j ((locked.take j).count false) T (byColumn σ J) =
      (jacLoop (oldPos k o q) locked L j ((locked.take j).count false) T J).map fun r => (r.1, byColumn σ r.2) := by
  intro L
  induction L with
  | nil => intro j T J; rfl
  | cons s L ih =>
    intro j T J
    rw [regauge, jacLoop, jacLoop, regauged_moving]
    by_cases hm : s.moving = true
    · rw [if_pos hm, if_pos hm, if_pos hm, oldPos_get]
      simp only [Option.bind_eq_bind]
      cases q[j]? with
      | none => rfl
      | some x =>
        simp only [Option.bind_some, Option.map_some]
        cases hl : locked[j]? with
        | none => rfl
        | some lk =>
          simp only [Option.bind_some, regauged_pose, byColumn_ref, regauged_twist]
          have htake : locked.take (j + 1) = locked.take j ++ [lk] := by
            rw [List.take_add_one, hl]; rfl
          cases lk with
          | true =>
            have hcnt : (locked.take (j + 1)).count false = (locked.take j).count false := by simp [htake]
            rw [if_pos rfl, if_pos rfl]
            have := ih (j + 1) (T * s.pose (k j * x + o j)) (J.changeRefPoint ((T * s.pose (k j * x + o j)).p - T.p))
            rw [hcnt] at this
            exact this
          | false =>
            have hcnt : (locked.take (j + 1)).count false = (locked.take j).count false + 1 := by simp [htake]
            rw [if_neg (by simp), if_neg (by simp)]
            have e : T.M * s.twist (k j * x + o j) (k j * 1) =
                σ ((locked.take j).count false) • (T.M * s.twist (k j * x + o j) 1) := by
              rw [mul_one, twist_scale, hσ j hl]
              generalize s.twist (k j * x + o j) 1 = u
              ext <;> simp <;> ring
            rw [e, byColumn_set]
            cases (J.changeRefPoint ((T * s.pose (k j * x + o j)).p - T.p)).setColumn ((locked.take j).count false)
                (T.M * s.twist (k j * x + o j) 1) with
            | none => rfl
            | some J2 =>
              simp only [Option.bind_some, Option.map_some]
              have := ih (j + 1) (T * s.pose (k j * x + o j)) J2
              rw [hcnt] at this
              exact this
    · rw [if_neg hm, if_neg hm, if_neg hm]
      simp only [regauged_pose, still_pose hm (k j * 0 + o j) 0, byColumn_ref]
      exact ih _ _ _

/-! ### Kinematics -/

/-- Positions: the chain in the new coordinates is where the old one is at the old coordinates (also the return codes). -/
theorem C105_position (c : Chain) (k o : ℕ → ℝ) (q : List ℝ) (n : ℤ) :
    fkPos (c.regauged k o) q n = fkPos c (oldPos k o q) n := by
  unfold fkPos
  have e1 : segmentNr (c.regauged k o) n = segmentNr c n := rfl
  dsimp only
  rw [e1, oldPos_length, show (c.regauged k o).segments = regauge k o c.segments 0 from rfl, regauge_take, fkLoop_regauge]
  rfl

/-- Velocities. -/
theorem C105_velocity (c : Chain) (k o : ℕ → ℝ) (q qd : List ℝ) (n : ℤ) :
    fkVel (c.regauged k o) q qd n = fkVel c (oldPos k o q) (byJoint k qd) n := by
  unfold fkVel
  have e1 : segmentNr (c.regauged k o) n = segmentNr c n := rfl
  dsimp only
  rw [e1, oldPos_length, byJoint_length, show (c.regauged k o).segments = regauge k o c.segments 0 from rfl, regauge_take,
    fkVelLoop_regauge]
  rfl

/-- Jacobian: the column of a joint is multiplied by the factor of the joint, also when other joints are locked.  `σ i` is the
factor of the `i`th joint that is not locked. -/
theorem C105_jacobian (c : Chain) (k o σ : ℕ → ℝ) (locked : List Bool)
    (hσ : ∀ j, locked[j]? = some false → σ ((locked.take j).count false) = k j) (q : List ℝ) (J0 J : Jac) (n : ℤ)
    (h : jntToJac c locked (oldPos k o q) J0 n = some (E_NOERROR, J)) :
    jntToJac (c.regauged k o) locked q J0 n = some (E_NOERROR, byColumn σ J) := by
  unfold jntToJac at h ⊢
  have e1 : segmentNr (c.regauged k o) n = segmentNr c n := rfl
  have e2 : (c.regauged k o).nrOfJoints = c.nrOfJoints := rfl
  have e3 : (c.regauged k o).nrOfSegments = c.nrOfSegments := rfl
  dsimp only at h ⊢
  rw [oldPos_length] at h
  rw [e1, e2, e3]
  by_cases h1 : locked.length ≠ c.nrOfJoints
  · rw [if_pos h1] at h; simp [E_NOT_UP_TO_DATE, E_NOERROR] at h
  rw [if_neg h1] at h ⊢
  by_cases h2 : q.length ≠ c.nrOfJoints ∨ J0.length ≠ c.nrOfJoints
  · rw [if_pos h2] at h; simp [E_SIZE_MISMATCH, E_NOERROR] at h
  rw [if_neg h2] at h ⊢
  by_cases h3 : segmentNr c n > c.nrOfSegments
  · rw [if_pos h3] at h; simp [E_OUT_OF_RANGE, E_NOERROR] at h
  rw [if_neg h3] at h ⊢
  simp only [Option.bind_eq_bind] at h ⊢
  rw [Option.bind_eq_some_iff] at h
  obtain ⟨r, hr, h⟩ := h
  simp only [Option.some.injEq, Prod.mk.injEq, true_and] at h
  have hz : J0.setToZero = byColumn σ J0.setToZero := by
    apply List.ext_getElem?
    intro i
    rw [byColumn_get]
    simp only [Jac.setToZero, List.getElem?_map]
    cases J0[i]? with
    | none => rfl
    | some t => simp only [Option.map_some, Option.some.injEq]; ext <;> simp
  have key := jacLoop_regauge k o σ q locked hσ (c.segments.take (segmentNr c n)) 0 1 J0.setToZero
  simp only [List.take_zero, List.count_nil] at key
  rw [hr, ← hz] at key
  rw [show (c.regauged k o).segments = regauge k o c.segments 0 from rfl, regauge_take, key]
  simp [h]

/-! ### Dynamics -/

theorem Xs_regauged (k o q Q : ℕ → ℝ) (s : Segment) (j : ℕ) (h : s.moving = true → Q j = k j * q j + o j) :
    Xs q (s.regauged (k j) (o j)) j = Xs Q s j := by
  unfold Xs qv
  rw [regauged_pose, regauged_moving]
  by_cases hm : s.moving = true
  · rw [if_pos hm, if_pos hm, h hm]
  · rw [if_neg hm, if_neg hm]; exact still_pose hm _ _
theorem Ss_regauged (k o q Q : ℕ → ℝ) (s : Segment) (j : ℕ) (h : s.moving = true → Q j = k j * q j + o j) :
    Ss q (s.regauged (k j) (o j)) j = k j • Ss Q s j := by
  unfold Ss
  rw [Xs_regauged k o q Q s j h, regauged_twist, mul_one, twist_scale]
  have e : s.twist (k j * qv (s.regauged (k j) (o j)) q j + o j) 1 = s.twist (qv s Q j) 1 := by
    unfold qv
    rw [regauged_moving]
    by_cases hm : s.moving = true
    · rw [if_pos hm, if_pos hm, h hm]
    · exact still_twist hm _ _ _ _
  rw [e]
  generalize s.twist (qv s Q j) 1 = u
  ext <;> simp [Rot.invTwist, Rot.invVec] <;> ring
theorem qv_regauged (k o : ℝ) (s : Segment) (r : ℕ → ℝ) (j : ℕ) : qv (s.regauged k o) r j = qv s r j := rfl
theorem qv_mul (k r : ℕ → ℝ) (s : Segment) (j : ℕ) : qv s (fun i => k i * r i) j = k j * qv s r j := by
  unfold qv; split_ifs <;> ring
theorem up_regauged (k o q Q δ : ℕ → ℝ) (s : Segment) (j : ℕ) (h : s.moving = true → Q j = k j * q j + o j) (u : Twist) :
    up q δ (s.regauged (k j) (o j)) j u = up Q (fun i => k i * δ i) s j u := by
  unfold up
  rw [Xs_regauged k o q Q s j h, Ss_regauged k o q Q s j h, qv_regauged, qv_mul]
  generalize (Xs Q s j).invTwist u = x
  generalize Ss Q s j = y
  ext <;> simp <;> ring
theorem ap_regauged (k o q Q qd qdd : ℕ → ℝ) (s : Segment) (j : ℕ) (h : s.moving = true → Q j = k j * q j + o j) (v a : Twist) :
    ap q qd qdd (s.regauged (k j) (o j)) j v a = ap Q (fun i => k i * qd i) (fun i => k i * qdd i) s j v a := by
  unfold ap
  rw [up_regauged k o q Q qd s j h, Xs_regauged k o q Q s j h, Ss_regauged k o q Q s j h, qv_regauged, qv_regauged, qv_mul, qv_mul]
  generalize (Xs Q s j).invTwist a = x
  generalize Ss Q s j = y
  generalize up Q _ s j v = z
  ext <;> simp <;> ring

theorem rneF_regauge (k o q Q qd qdd : ℕ → ℝ) : ∀ (ss : List Segment) (fes : List Wrench) (j : ℕ) (v a : Twist),
    (∀ i, i < j + nMoving ss → Q i = k i * q i + o i) →
    rneF q qd qdd (regauge k o ss j) fes j v a =
      ((rneF Q (fun i => k i * qd i) (fun i => k i * qdd i) ss fes j v a).1.mapIdx fun i x => k (j + i) * x,
        (rneF Q (fun i => k i * qd i) (fun i => k i * qdd i) ss fes j v a).2) := by
  intro ss
  induction ss with
  | nil => intro fes j v a _; simp [regauge, rneF]
  | cons s ss ih =>
    intro fes j v a hQ
    cases fes with
    | nil => simp [regauge, rneF]
    | cons fe fes =>
      rw [nMoving_cons] at hQ
      have h1 : s.moving = true → Q j = k j * q j + o j := fun hm => hQ j (by rw [if_pos hm]; omega)
      have hfl : ∀ (k o : ℝ) (v a : Twist), fl (s.regauged k o) v a fe = fl s v a fe := fun _ _ _ _ => rfl
      have hnx : nx (s.regauged (k j) (o j)) j = nx s j := rfl
      have hi := ih fes (nx s j) (up Q (fun i => k i * qd i) s j v) (ap Q (fun i => k i * qd i) (fun i => k i * qdd i) s j v a)
        (fun i h => hQ i (by unfold nx at h; split_ifs at h ⊢ <;> omega))
      rw [regauge, show (if s.moving = true then j + 1 else j) = nx s j from rfl]
      simp only [rneF, hnx, up_regauged k o q Q qd s j h1, ap_regauged k o q Q qd qdd s j h1, hfl, hi, Xs_regauged k o q Q s j h1,
        Ss_regauged k o q Q s j h1, regauged_moving]
      generalize fl s _ _ fe = g
      generalize rneF Q _ _ ss fes (nx s j) _ _ = r
      congr 1
      by_cases hm : s.moving = true
      · rw [if_pos hm, if_pos hm, List.mapIdx_cons]
        have e0 : nx s j = j + 1 := by unfold nx; rw [if_pos hm]
        rw [e0, add_zero]
        congr 1
        · have : (s.regauged (k j) (o j)).joint.inertia = k j ^ 2 * s.joint.inertia := rfl
          rw [this]
          generalize Ss Q s j = y
          simp only [Twist.dot, Vec.dot, Twist.smul_vel, Twist.smul_rot, Vec.smul_x, Vec.smul_y, Vec.smul_z]
          ring
        · apply List.ext_getElem?
          intro n
          simp only [List.getElem?_mapIdx]
          rw [show j + 1 + n = j + (n + 1) by omega]
      · rw [if_neg hm, if_neg hm]
        have e0 : nx s j = j := by unfold nx; rw [if_neg hm]
        rw [e0]

theorem rd_oldPos (k o : ℕ → ℝ) (q : List ℝ) {i : ℕ} (h : i < q.length) : rd (oldPos k o q) i = k i * rd q i + o i := by
  unfold rd
  rw [List.getD_eq_getElem?_getD, oldPos_get, List.getD_eq_getElem?_getD, List.getElem?_eq_getElem h]; rfl

/-- Inverse dynamics: the torque of joint `j` is multiplied by `k j`, so that torque times rate, the power, is the same. -/
theorem C105_inverse (c : Chain) (hc : c.WF) (k o : ℕ → ℝ) (grav : Vec) (q qd qdd : List ℝ) (fext : List Wrench) (τ0 : List ℝ)
    (hq : q.length = c.nrOfJoints) (hqd : qd.length = c.nrOfJoints) (hqdd : qdd.length = c.nrOfJoints)
    (hf : fext.length = c.nrOfSegments) (hτ : τ0.length = c.nrOfJoints) :
    ∃ τ, idRne c c.nrOfJoints c.nrOfSegments grav (oldPos k o q) (byJoint k qd) (byJoint k qdd) fext τ0 = some (E_NOERROR, τ) ∧
      idRne (c.regauged k o) c.nrOfJoints c.nrOfSegments grav q qd qdd fext τ0 = some (E_NOERROR, byJoint k τ) := by
  refine ⟨_, idRne_eq c hc grav _ _ _ fext τ0 (by rw [oldPos_length]; exact hq) (by rw [byJoint_length]; exact hqd)
    (by rw [byJoint_length]; exact hqdd) hτ hf, ?_⟩
  have e := idRne_eq (c.regauged k o) (regauged_WF hc k o) grav q qd qdd fext τ0 hq hqd hqdd hτ hf
  have s := rneF_regauge k o (rd q) (rd (oldPos k o q)) (rd qd) (rd qdd) c.segments fext 0 0 (-⟨grav, 0⟩)
    (fun i hi => rd_oldPos k o q (by rw [hq, hc.2]; omega))
  rw [show (c.regauged k o).segments = regauge k o c.segments 0 from rfl, s] at e
  rw [rd_byJoint, rd_byJoint]
  refine e.trans ?_
  simp only [zero_add]
  rfl

/-- Coriolis and gravity torques. -/
theorem C105_bias (c : Chain) (hc : c.WF) (k o : ℕ → ℝ) (grav : Vec) (q qd C0 G0 : List ℝ)
    (hq : q.length = c.nrOfJoints) (hqd : qd.length = c.nrOfJoints) (hC : C0.length = c.nrOfJoints) (hG : G0.length = c.nrOfJoints) :
    (∃ C, (DynState.new c grav).coriolis c (oldPos k o q) (byJoint k qd) C0 = some (E_NOERROR, C) ∧
      (DynState.new (c.regauged k o) grav).coriolis (c.regauged k o) q qd C0 = some (E_NOERROR, byJoint k C)) ∧
    (∃ G, (DynState.new c grav).gravity c (oldPos k o q) G0 = some (E_NOERROR, G) ∧
      (DynState.new (c.regauged k o) grav).gravity (c.regauged k o) q G0 = some (E_NOERROR, byJoint k G)) := by
  have z : byJoint k (List.replicate c.nrOfJoints 0) = List.replicate c.nrOfJoints 0 := by
    apply List.ext_getElem?
    intro i
    rw [byJoint_get, List.getElem?_replicate]
    split_ifs <;> simp
  constructor
  · have := C105_inverse c hc k o 0 q qd (List.replicate c.nrOfJoints 0) (List.replicate c.nrOfSegments 0) C0 hq hqd (by simp)
      (by simp) hC
    rw [z] at this
    exact this
  · have := C105_inverse c hc k o grav q (List.replicate c.nrOfJoints 0) (List.replicate c.nrOfJoints 0)
      (List.replicate c.nrOfSegments 0) G0 hq (by simp) (by simp) (by simp) hG
    rw [z] at this
    exact this

theorem regauged_massive {c : Chain} (hM : c.Massive) {k : ℕ → ℝ} (hk : ∀ i, k i ≠ 0) (o : ℕ → ℝ) :
    (c.regauged k o).Massive := by
  obtain ⟨h1, h2⟩ := hM
  refine ⟨fun x hx => ?_, ?_⟩
  · obtain ⟨i, s, hs, rfl⟩ := regauge_mem k o _ _ hx
    exact ⟨(h1 s hs).1, mul_nonneg (sq_nonneg _) (h1 s hs).2⟩
  · rcases h2 with h2 | h2
    · left
      intro x hx hm
      obtain ⟨i, s, hs, rfl⟩ := regauge_mem k o _ _ hx
      exact mul_pos (by have := hk i; positivity) (h2 s hs hm)
    · right
      intro x hx hm
      obtain ⟨i, s, hs, rfl⟩ := regauge_mem k o _ _ hx
      exact ⟨(h2 s hs hm).1, mul_ne_zero (h2 s hs hm).2 (hk i)⟩

/-- Forward dynamics: under the torques in the new units the chain has the same accelerations, in the new units. -/
theorem C105_forward (c : Chain) (hc : c.WF) (hv : c.Valid) (hI : c.SymmI) (hM : c.Massive) (k o : ℕ → ℝ) (hk : ∀ i, k i ≠ 0)
    (grav : Vec) (q qd τ : List ℝ) (fext : List Wrench) (qdd0 : List ℝ) (H0 : ℕ → ℕ → ℝ) (T0 : ℕ → ℝ) (L0 : LDL) (r0 x0 : ℕ → ℝ)
    (hq : q.length = c.nrOfJoints) (hqd : qd.length = c.nrOfJoints) (hqdd : qdd0.length = c.nrOfJoints)
    (hτ : τ.length = c.nrOfJoints) (hf : fext.length = c.nrOfSegments) :
    ∃ qdd, fdRne (.new (c.regauged k o) grav) (c.regauged k o) q qd (byJoint k τ) fext qdd0 H0 T0 L0 r0 x0 =
        some (.ret E_NOERROR qdd) ∧
      fdRne (.new c grav) c (oldPos k o q) (byJoint k qd) τ fext qdd0 H0 T0 L0 r0 x0 = some (.ret E_NOERROR (byJoint k qdd)) := by
  have hw := regauged_WF hc k o
  have hv' := regauged_valid hv k o
  have hI' := regauged_symm hI k o
  obtain ⟨qdd, e⟩ := C42_total (c.regauged k o) hw hv' hI' (regauged_massive hM hk o) grav q qd (byJoint k τ) fext qdd0 H0 T0 L0
    r0 x0 hq hqd hqdd (by rw [byJoint_length]; exact hτ) hf
  refine ⟨qdd, e, ?_⟩
  obtain ⟨-, hl, hid⟩ := C42_id_of_fd (c.regauged k o) hw hv' hI' grav q qd (byJoint k τ) _ qdd0 τ H0 T0 L0 r0 x0 hq hqd hqdd
    (by rw [byJoint_length]; exact hτ) hf hτ _ qdd e
  obtain ⟨σ, s1, s2⟩ := C105_inverse c hc k o grav q qd qdd fext τ hq hqd hl hf hτ
  have hid' : idRne (c.regauged k o) c.nrOfJoints c.nrOfSegments grav q qd qdd fext τ = some (E_NOERROR, byJoint k τ) := hid
  rw [s2] at hid'
  simp only [Option.some.injEq, Prod.mk.injEq, true_and] at hid'
  have hστ : σ = τ := by
    have hl2 := congrArg List.length hid'
    rw [byJoint_length, byJoint_length] at hl2
    refine List.ext_getElem hl2 fun i h1 h2 => ?_
    have := congrArg (fun l => l[i]?) hid'
    simp only [byJoint_get, List.getElem?_eq_getElem h1, List.getElem?_eq_getElem h2, Option.map_some, Option.some.injEq] at this
    exact mul_left_cancel₀ (hk i) this
  rw [hστ] at s1
  obtain ⟨ρ, t1, t2⟩ := C42_fd_of_id c hc hv hI hM grav (oldPos k o q) (byJoint k qd) (byJoint k qdd) fext qdd0 τ H0 T0 L0 r0 x0
    (by rw [oldPos_length]; exact hq) (by rw [byJoint_length]; exact hqd) (by rw [byJoint_length]; exact hl) hqdd hf hτ
  rw [s1] at t1; cases t1
  exact t2

/-- Mass matrix: entry `(i, j)` is multiplied by both factors, so that the kinetic energy is the same. -/
theorem C105_mass (c : Chain) (hc : c.WF) (hv : c.Valid) (hI : c.SymmI) (k o : ℕ → ℝ) (grav : Vec) (q : List ℝ) (H0 : JMat)
    (hq : q.length = c.nrOfJoints) (hH : H0.n = c.nrOfJoints) :
    ∃ H H', (DynState.new c grav).mass c (oldPos k o q) H0 = some (E_NOERROR, H) ∧
      (DynState.new (c.regauged k o) grav).mass (c.regauged k o) q H0 = some (E_NOERROR, H') ∧
      H.n = c.nrOfJoints ∧ H'.n = c.nrOfJoints ∧
      ∀ i < c.nrOfJoints, ∀ j < c.nrOfJoints, H'.d i j = k i * H.d i j * k j := by
  have hz : (List.replicate c.nrOfJoints (0:ℝ)).length = c.nrOfJoints := by simp
  have hz0 : ∀ l, (List.replicate c.nrOfJoints (0:ℝ)).getD l 0 = 0 := fun l => by
    simp only [List.getD_eq_getElem?_getD, List.getElem?_replicate]; split_ifs <;> rfl
  have hbz : byJoint k (List.replicate c.nrOfJoints 0) = List.replicate c.nrOfJoints 0 := by
    apply List.ext_getElem?
    intro i
    rw [byJoint_get, List.getElem?_replicate]
    split_ifs <;> simp
  have D := fun qdd (h : List.length qdd = c.nrOfJoints) => C39_decomposition c hc hv hI grav (oldPos k o q)
    (List.replicate c.nrOfJoints 0) qdd (List.replicate c.nrOfSegments 0) (List.replicate c.nrOfJoints 0)
    (List.replicate c.nrOfJoints 0) (List.replicate c.nrOfJoints 0) H0 (by rw [oldPos_length]; exact hq) hz h (by simp) hz hz hz hH
  have D' := fun qdd (h : List.length qdd = c.nrOfJoints) => C39_decomposition (c.regauged k o) (regauged_WF hc k o)
    (regauged_valid hv k o) (regauged_symm hI k o) grav q
    (List.replicate c.nrOfJoints 0) qdd (List.replicate c.nrOfSegments 0) (List.replicate c.nrOfJoints 0)
    (List.replicate c.nrOfJoints 0) (List.replicate c.nrOfJoints 0) H0 hq hz h (by simp [Chain.regauged]) hz hz hz hH
  have E := fun qdd (h : List.length qdd = c.nrOfJoints) => C105_inverse c hc k o grav q (List.replicate c.nrOfJoints 0) qdd
    (List.replicate c.nrOfSegments 0) (List.replicate c.nrOfJoints 0) hq hz h (by simp) hz
  simp only [hbz] at E
  obtain ⟨τ, H, C, G, a1, a2, a3, a4, -, -, -, a8, a9⟩ := D (byJoint k (List.replicate c.nrOfJoints 0)) (by rw [byJoint_length]; exact hz)
  rw [hbz] at a1 a9
  obtain ⟨τ', H', C', G', b1, b2, b3, b4, -, -, -, b8, b9⟩ := D' (List.replicate c.nrOfJoints 0) hz
  refine ⟨H, H', a2, b2, a8, b8, fun i hi l hl => ?_⟩
  have hu : (unitJnt c.nrOfJoints l).length = c.nrOfJoints := unitJnt_length _ _
  obtain ⟨σ, K, C1, G1, c1, c2, c3, c4, -, -, -, -, c9⟩ := D (byJoint k (unitJnt c.nrOfJoints l)) (by rw [byJoint_length]; exact hu)
  obtain ⟨σ', K', C1', G1', d1, d2, d3, d4, -, -, -, -, d9⟩ := D' (unitJnt c.nrOfJoints l) hu
  rw [a2] at c2; cases c2
  rw [a3] at c3; cases c3
  rw [a4] at c4; cases c4
  rw [b2] at d2; cases d2
  rw [b3] at d3; cases d3
  rw [b4] at d4; cases d4
  obtain ⟨x, x1, x2⟩ := E _ hz
  rw [hbz, a1] at x1; cases x1
  have b1' : idRne (c.regauged k o) c.nrOfJoints c.nrOfSegments grav q (List.replicate c.nrOfJoints 0)
    (List.replicate c.nrOfJoints 0) (List.replicate c.nrOfSegments 0) (List.replicate c.nrOfJoints 0) = some (E_NOERROR, τ') := b1
  rw [b1'] at x2
  obtain ⟨y, y1, y2⟩ := E _ hu
  rw [c1] at y1; cases y1
  have d1' : idRne (c.regauged k o) c.nrOfJoints c.nrOfSegments grav q (List.replicate c.nrOfJoints 0)
    (unitJnt c.nrOfJoints l) (List.replicate c.nrOfSegments 0) (List.replicate c.nrOfJoints 0) = some (E_NOERROR, σ') := d1
  rw [d1'] at y2
  simp only [Option.some.injEq, Prod.mk.injEq, true_and] at x2 y2
  have g1 := byJoint_getD k τ i
  have g2 := byJoint_getD k σ i
  rw [← x2, a9 i hi] at g1
  rw [← y2, c9 i hi] at g2
  have b9' := b9 i hi
  have d9' := d9 i hi
  have hn : (c.regauged k o).nrOfJoints = c.nrOfJoints := rfl
  rw [hn] at b9' d9'
  rw [b9'] at g1
  rw [d9'] at g2
  have un : ∀ m, (unitJnt c.nrOfJoints l).getD m 0 = if m = l then 1 else 0 := fun m => by
    have := congrFun (rd_unitJnt c.nrOfJoints l hl) m
    simp only [rd, unitRate] at this
    rw [this]
  simp only [byJoint_getD, un, hz0, mul_zero, sum_const_zero, mul_ite, mul_one, sum_ite_eq', mem_range, if_pos hl] at g1 g2
  linear_combination g2 - g1


/-! ### Trees -/

/-- Element of a tree in other joint coordinates. -/
def TreeElem.regauged (k o : ℕ → ℝ) (e : TreeElem) : TreeElem :=
  { e with segment := if e.moving then e.segment.regauged (k e.q_nr) (o e.q_nr) else e.segment }
/-- Tree in other joint coordinates. -/
def Tree.regauged (k o : ℕ → ℝ) (t : Tree) : Tree := { t with segments := t.segments.map (TreeElem.regauged k o) }

theorem TreeElem.regauged_name (k o : ℕ → ℝ) (e : TreeElem) : (e.regauged k o).name = e.name := by
  unfold TreeElem.regauged TreeElem.name; split_ifs <;> rfl
theorem TreeElem.regauged_moving (k o : ℕ → ℝ) (e : TreeElem) : (e.regauged k o).moving = e.moving := by
  unfold TreeElem.regauged TreeElem.moving; split_ifs <;> rfl
theorem TreeElem.regauged_I (k o : ℕ → ℝ) (e : TreeElem) : (e.regauged k o).segment.I = e.segment.I := by
  unfold TreeElem.regauged; split_ifs <;> rfl
theorem TreeElem.regauged_valid (k o : ℕ → ℝ) {e : TreeElem} (h : e.segment.Valid) : (e.regauged k o).segment.Valid := by
  unfold TreeElem.regauged
  dsimp only
  split_ifs
  · exact ⟨h.1, h.2⟩
  · exact h

theorem regauged_find (k o : ℕ → ℝ) (t : Tree) (n : String) : (t.regauged k o).find n = (t.find n).map (TreeElem.regauged k o) := by
  unfold Tree.find Tree.regauged
  dsimp only
  rw [List.find?_map]
  congr 2
  funext e
  simp only [Function.comp, TreeElem.regauged_name]

theorem regauged_names (k o : ℕ → ℝ) (t : Tree) : (t.regauged k o).names = t.names := by
  unfold Tree.names Tree.regauged
  rw [List.map_map]
  exact List.map_congr_left fun e _ => TreeElem.regauged_name k o e

theorem regauged_add (k o : ℕ → ℝ) (t : Tree) (s : Segment) (hook : String) :
    (t.addSegment s hook).2.regauged k o = ((t.regauged k o).addSegment
      (if s.moving then s.regauged (k t.nrOfJoints) (o t.nrOfJoints) else s) hook).2 := by
  have hn : (if s.moving = true then s.regauged (k t.nrOfJoints) (o t.nrOfJoints) else s).name = s.name := by split_ifs <;> rfl
  have hmv : (if s.moving = true then s.regauged (k t.nrOfJoints) (o t.nrOfJoints) else s).moving = s.moving := by split_ifs <;> rfl
  unfold Tree.addSegment
  rw [regauged_find, regauged_find, hn, hmv]
  cases t.find hook with
  | none => rfl
  | some e =>
    cases t.find s.name with
    | some e' => rfl
    | none =>
      simp only [Option.map_some, Option.map_none, Tree.regauged, Tree.mk.injEq, and_true, Tree.attach, hn]
      rw [List.map_append, List.map_map, List.map_map]
      congr 1
      · refine List.map_congr_left fun x _ => ?_
        simp only [Function.comp, TreeElem.regauged_name]
        split_ifs
        · rfl
        · rfl
      · simp only [List.map_cons, List.map_nil, TreeElem.regauged, TreeElem.moving]
        by_cases hm : s.moving = true
        · simp only [if_pos hm]
        · simp only [if_neg hm]

theorem regauged_reach (k o : ℕ → ℝ) {t : Tree} (h : t.Reach) : (t.regauged k o).Reach := by
  induction h with
  | new r => exact Tree.Reach.new r
  | add s hook _ ih => rw [regauged_add]; exact .add _ _ ih

theorem regauged_path (k o : ℕ → ℝ) {t : Tree} {n : String} {l : List TreeElem} (h : Tree.Path t n l) :
    Tree.Path (t.regauged k o) n (l.map (TreeElem.regauged k o)) := by
  induction h with
  | @root r hr =>
    have : (t.regauged k o).find (t.regauged k o).root_name = some (r.regauged k o) := by
      rw [regauged_find]; exact congrArg (Option.map _) hr
    exact Tree.Path.root this
  | step hn hne hp _ ih =>
    rw [List.map_append]
    refine Tree.Path.step ?_ hne hp ih
    rw [regauged_find, hn]; rfl

theorem up_regauged' (k o q Q δ : ℕ → ℝ) (e : TreeElem) (h : e.moving = true → Q e.q_nr = k e.q_nr * q e.q_nr + o e.q_nr) (u : Twist) :
    up q δ (e.regauged k o).segment e.q_nr u = up Q (fun i => k i * δ i) e.segment e.q_nr u := by
  unfold TreeElem.regauged
  dsimp only
  by_cases hm : e.moving = true
  · rw [if_pos hm]; exact up_regauged k o q Q δ _ _ h u
  · rw [if_neg hm]
    have hm' : ¬ e.segment.moving = true := hm
    unfold up Ss Xs qv
    simp only [if_neg hm']
theorem ap_regauged' (k o q Q qd qdd : ℕ → ℝ) (e : TreeElem) (h : e.moving = true → Q e.q_nr = k e.q_nr * q e.q_nr + o e.q_nr)
    (v a : Twist) : ap q qd qdd (e.regauged k o).segment e.q_nr v a =
      ap Q (fun i => k i * qd i) (fun i => k i * qdd i) e.segment e.q_nr v a := by
  unfold TreeElem.regauged
  dsimp only
  by_cases hm : e.moving = true
  · rw [if_pos hm]; exact ap_regauged k o q Q qd qdd _ _ h v a
  · rw [if_neg hm]
    have hm' : ¬ e.segment.moving = true := hm
    unfold ap up Ss Xs qv
    simp only [if_neg hm']
open Tree in
theorem fkP_regauged (k o q Q : ℕ → ℝ) (l : List TreeElem)
    (h : ∀ e ∈ l, e.moving = true → Q e.q_nr = k e.q_nr * q e.q_nr + o e.q_nr) :
    fkP q (l.map (TreeElem.regauged k o)) = fkP Q l := by
  unfold fkP
  rw [List.map_map]
  congr 1
  refine List.map_congr_left fun e he => ?_
  simp only [Function.comp]
  unfold TreeElem.regauged
  dsimp only
  by_cases hm : e.moving = true
  · rw [if_pos hm, regauged_pose, h e he hm]
  · rw [if_neg hm]; exact still_pose hm _ _
theorem uT_regauged (k o q Q δ : ℕ → ℝ) (l : List TreeElem) : (∀ e ∈ l, e.moving = true → Q e.q_nr = k e.q_nr * q e.q_nr + o e.q_nr) →
    uT q δ (l.map (TreeElem.regauged k o)) = uT Q (fun i => k i * δ i) l := by
  induction l using List.reverseRecOn with
  | nil => intro _; rfl
  | append_singleton l e ih =>
    intro h
    rw [List.map_append, List.map_cons, List.map_nil, uT_append, uT_append, ih fun x hx => h x (by simp [hx])]
    exact up_regauged' k o q Q δ e (h e (by simp)) _
theorem vaT_regauged (k o q Q qd qdd : ℕ → ℝ) (l : List TreeElem) :
    (∀ e ∈ l, e.moving = true → Q e.q_nr = k e.q_nr * q e.q_nr + o e.q_nr) →
    vaT q qd qdd 0 (l.map (TreeElem.regauged k o)) = vaT Q (fun i => k i * qd i) (fun i => k i * qdd i) 0 l := by
  induction l using List.reverseRecOn with
  | nil => intro _; rfl
  | append_singleton l e ih =>
    intro h
    rw [List.map_append, List.map_cons, List.map_nil, vaT_append, vaT_append, ih fun x hx => h x (by simp [hx])]
    have e1 := up_regauged' k o q Q qd e (h e (by simp))
    have e2 := ap_regauged' k o q Q qd qdd e (h e (by simp))
    exact Prod.ext (e1 _) (e2 _ _)

open Tree in
/-- Inverse dynamics of a tree: the torque of joint `j` is multiplied by `k j`. -/
theorem C105_tree (t : Tree) (h : t.Reach) (hv : ∀ x ∈ t.segments, x.segment.Valid) (k o : ℕ → ℝ) (grav : Vec) (s s' : TreeRne)
    (hag : s.ag = -⟨grav, 0⟩) (hag' : s'.ag = -⟨grav, 0⟩) (hs : s.Ready t) (hs' : s'.Ready (t.regauged k o))
    (q qd qdd : List ℝ) (fext : String → Option Wrench) (τ0 : List ℝ) (hq : q.length = t.nrOfJoints)
    (hqd : qd.length = t.nrOfJoints) (hqdd : qdd.length = t.nrOfJoints) (hτ : τ0.length = t.nrOfJoints) :
    ∃ τ, s.cartToJnt t false (oldPos k o q) (byJoint k qd) (byJoint k qdd) fext τ0 = some (E_NOERROR, τ) ∧
      s'.cartToJnt (t.regauged k o) false q qd qdd fext τ0 = some (E_NOERROR, byJoint k τ) := by
  obtain ⟨path, hpath⟩ := exists_paths h
  have hv' : ∀ x ∈ (t.regauged k o).segments, x.segment.Valid := by
    intro x hx
    obtain ⟨e, he, rfl⟩ := List.mem_map.mp hx
    exact TreeElem.regauged_valid k o (hv e he)
  obtain ⟨τ, e1, l1, w1⟩ := tree_work t h hv s grav hag hs path hpath (oldPos k o q) (byJoint k qd) (byJoint k qdd) fext τ0
    (by rw [oldPos_length]; exact hq) (by rw [byJoint_length]; exact hqd) (by rw [byJoint_length]; exact hqdd) hτ
  obtain ⟨σ, e2, l2, w2⟩ := tree_work (t.regauged k o) (regauged_reach k o h) hv' s' grav hag' hs'
    (fun n => (path n).map (TreeElem.regauged k o)) (fun n hn => regauged_path k o (hpath n (by rwa [regauged_names] at hn)))
    q qd qdd fext τ0 hq hqd hqdd hτ
  refine ⟨τ, e1, ?_⟩
  rw [e2]
  have hqn : ∀ x ∈ t.segments, x.moving = true →
      rd (oldPos k o q) x.q_nr = k x.q_nr * rd q x.q_nr + o x.q_nr := fun x hx hm =>
    rd_oldPos k o q (by
      have : x.q_nr ∈ (t.segments.filter TreeElem.moving).map TreeElem.q_nr := List.mem_map_of_mem (List.mem_filter.mpr ⟨hx, hm⟩)
      rw [h.wf.numbering, List.mem_range] at this
      rw [hq]; exact this)
  have key : ∀ δ : ℕ → ℝ, ∑ i ∈ range t.nrOfJoints, δ i * σ.getD i 0 = ∑ i ∈ range t.nrOfJoints, (k i * δ i) * τ.getD i 0 := by
    intro δ
    have w2' := w2 δ
    rw [show (t.regauged k o).nrOfJoints = t.nrOfJoints from rfl] at w2'
    rw [w2', w1 (fun i => k i * δ i)]
    simp only [show (t.regauged k o).segments = t.segments.map (TreeElem.regauged k o) from rfl, List.map_map, List.filter_map]
    congr 1
    · congr 1
      refine List.map_congr_left fun x hx => ?_
      have hp := hpath _ (List.mem_map_of_mem hx)
      have hxv : ∀ e ∈ path x.name, e.segment.Valid := fun e he => hv e (hp.mem e he)
      have hxv' : ∀ e ∈ (path x.name).map (TreeElem.regauged k o), e.segment.Valid := by
        intro e he
        obtain ⟨y, hy, rfl⟩ := List.mem_map.mp he
        exact TreeElem.regauged_valid k o (hxv y hy)
      have hpq := fun e he => hqn e (hp.mem e he)
      simp only [Function.comp, TreeElem.regauged_name, TreeElem.regauged_I]
      rw [← uT_eq _ _ _ hxv, ← uT_eq _ _ _ hxv, ← uT_eq _ _ _ hxv', ← uT_eq _ _ _ hxv',
        uT_regauged k o _ _ δ _ hpq, uT_regauged k o _ _ (rd qd) _ hpq, vaT_regauged k o _ _ _ _ _ hpq,
        fkP_regauged k o _ _ _ hpq, rd_byJoint, rd_byJoint]
    · have hf : (TreeElem.moving ∘ TreeElem.regauged k o) = TreeElem.moving := by
        funext x; exact TreeElem.regauged_moving k o x
      rw [hf]
      congr 1
      refine List.map_congr_left fun x hx => ?_
      have hm : x.moving = true := (List.mem_filter.mp hx).2
      have ei : (x.regauged k o).segment.joint.inertia = k x.q_nr ^ 2 * x.segment.joint.inertia := by
        unfold TreeElem.regauged; dsimp only; rw [if_pos hm]; rfl
      have eq : (x.regauged k o).q_nr = x.q_nr := rfl
      simp only [Function.comp, ei, eq, rd_byJoint]
      ring
  congr 2
  refine List.ext_getElem (by rw [byJoint_length, l1]; exact l2) fun n hn hn' => ?_
  have hl2 : σ.length = t.nrOfJoints := l2
  have hk2 : n < t.nrOfJoints := by omega
  have u := key (unitRate n)
  have one : ∀ f : List ℝ, ∑ i ∈ range t.nrOfJoints, unitRate n i * f.getD i 0 = f.getD n 0 := by
    intro f
    rw [sum_eq_single n]
    · simp [unitRate]
    · intro i _ hne; simp [unitRate, hne]
    · intro hne; exact absurd (mem_range.mpr hk2) hne
  have two : ∑ i ∈ range t.nrOfJoints, k i * unitRate n i * τ.getD i 0 = k n * τ.getD n 0 := by
    rw [sum_eq_single n]
    · simp [unitRate]
    · intro i _ hne; simp [unitRate, hne]
    · intro hne; exact absurd (mem_range.mpr hk2) hne
  rw [one, two] at u
  have g : ∀ (f : List ℝ) (hf : n < f.length), f.getD n 0 = f[n] := fun f hf => by simp [List.getD_eq_getElem?_getD, hf]
  rw [← g σ hn, ← g _ hn', byJoint_getD, u]

/-! ### Examples -/

/-- A joint in degrees instead of radians, and a slide measured in millimetres from another zero. -/
example (a b : ℝ) : ∃ qdd, fdRne (.new (exChain.regauged (fun j => if j = 0 then Real.pi / 180 else 1 / 1000) (fun j => j)) 0)
      (exChain.regauged (fun j => if j = 0 then Real.pi / 180 else 1 / 1000) (fun j => j)) [a, b] [1, 2]
      (byJoint (fun j => if j = 0 then Real.pi / 180 else 1 / 1000) [3, 4]) [0, 0, 0] [0, 0] (fun _ _ => 7) (fun _ => 7)
      ⟨fun _ _ => 7, fun _ => 7⟩ (fun _ => 7) (fun _ => 7) = some (.ret 0 qdd) ∧
    fdRne (.new exChain 0) exChain (oldPos (fun j => if j = 0 then Real.pi / 180 else 1 / 1000) (fun j => j) [a, b])
      (byJoint (fun j => if j = 0 then Real.pi / 180 else 1 / 1000) [1, 2]) [3, 4] [0, 0, 0] [0, 0] (fun _ _ => 7) (fun _ => 7)
      ⟨fun _ _ => 7, fun _ => 7⟩ (fun _ => 7) (fun _ => 7) =
        some (.ret 0 (byJoint (fun j => if j = 0 then Real.pi / 180 else 1 / 1000) qdd)) := by
  obtain ⟨h1, h2, h3, h4⟩ := exChain_ok
  refine C105_forward exChain h1 h2 h3 h4 _ _ (fun i => ?_) 0 _ _ _ _ _ _ _ _ _ _ rfl rfl rfl rfl rfl
  split_ifs
  · have := Real.pi_pos; positivity
  · norm_num
/-- Locked first joint: the only column left belongs to the second joint. -/
example (a b : ℝ) (J : Jac) (h : jntToJac exChain [true, false] (oldPos (fun j => j + 2) (fun _ => 1) [a, b]) [0, 0] (-1) = some (0, J)) :
    jntToJac (exChain.regauged (fun j => j + 2) (fun _ => 1)) [true, false] [a, b] [0, 0] (-1) =
      some (0, byColumn (fun i => i + 3) J) := by
  refine C105_jacobian exChain (fun j => j + 2) _ (fun i => i + 3) _ (fun j hj => ?_) _ _ _ _ h
  match j, hj with
  | 1, _ => simp; norm_num
open Tree in
example (grav : Vec) (a b c x y z : ℝ) (fext : String → Option Wrench) : ∃ τ,
    (TreeRne.new exTree grav).cartToJnt exTree false (oldPos (fun j => j) (fun _ => 1) [a, b, c]) (byJoint (fun j => j) [x, y, z])
      (byJoint (fun j => j) [1, 2, 3]) fext [0, 0, 0] = some (E_NOERROR, τ) ∧
    (TreeRne.new (exTree.regauged (fun j => j) (fun _ => 1)) grav).cartToJnt (exTree.regauged (fun j => j) (fun _ => 1)) false
      [a, b, c] [x, y, z] [1, 2, 3] fext [0, 0, 0] = some (E_NOERROR, byJoint (fun j => j) τ) := by
  have hnj : exTree.nrOfJoints = 3 := by rw [exTree_eq]
  have hr : ∀ (t : Tree) g, (TreeRne.new t g).Ready t := fun t g => ⟨rfl, rfl, (C36_keys t g (TreeRne.new t g)).1⟩
  exact C105_tree exTree exTree_reach exTree_valid _ _ grav _ _ rfl rfl (hr _ _) (hr _ _) [a, b, c] [x, y, z] [1, 2, 3] fext
    [0, 0, 0] (by rw [hnj]; rfl) (by rw [hnj]; rfl) (by rw [hnj]; rfl) (by rw [hnj]; rfl)

end KDL
