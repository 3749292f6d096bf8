import Verif.Props.Lumping

/-! C107: two chains joined by `Chain::addChain`.  Pose, velocity and Jacobian of the joined chain are composed of those of
the two parts; with the first part at rest the second one needs the torques it needs alone, in the gravity seen from its own
base; a second part without mass leaves the torques of the first one as they are. -/

noncomputable section
namespace KDL
open Finset

/-! ### Helpers -/

section
variable {q q' : ℕ → ℝ} {m : ℕ}

theorem fkF_reindex : ∀ (ss : List Segment) (j : ℕ), (∀ i, j ≤ i → i < j + nMoving ss → q (m + i) = q' i) →
    fkF q ss (m + j) = fkF q' ss j := by
  intro ss
  induction ss with
  | nil => intro j _; rfl
  | cons s ss ih =>
    intro j h
    rw [nMoving_cons] at h
    unfold fkF
    split_ifs with hm
    · rw [if_pos hm] at h
      rw [h j le_rfl (by omega), Nat.add_assoc, ih (j + 1) (fun i h1 h2 => h i (by omega) (by omega))]
    · rw [if_neg hm] at h
      rw [ih j h]

theorem colsF_reindex : ∀ (ss : List Segment) (j : ℕ) (T : Frame),
    (∀ i, j ≤ i → i < j + nMoving ss → q (m + i) = q' i) → colsF q ss (m + j) T = colsF q' ss j T := by
  intro ss
  induction ss with
  | nil => intro j T _; rfl
  | cons s ss ih =>
    intro j T h
    have hf := fkF_reindex (s :: ss) j h
    rw [nMoving_cons] at h
    unfold colsF
    split_ifs with hm
    · rw [if_pos hm] at h
      rw [hf, h j le_rfl (by omega), Nat.add_assoc, ih (j + 1) _ (fun i h1 h2 => h i (by omega) (by omega))]
    · rw [if_neg hm] at h
      rw [ih j _ h]

theorem fkVelF_reindex {r r' : ℕ → ℝ} : ∀ (ss : List Segment) (j : ℕ) (p : FrameVel),
    (∀ i, j ≤ i → i < j + nMoving ss → q (m + i) = q' i ∧ r (m + i) = r' i) →
    fkVelF q r ss (m + j) p = fkVelF q' r' ss j p := by
  intro ss
  induction ss with
  | nil => intro j p _; rfl
  | cons s ss ih =>
    intro j p h
    rw [nMoving_cons] at h
    unfold fkVelF
    split_ifs with hm
    · rw [if_pos hm] at h
      obtain ⟨h1, h2⟩ := h j le_rfl (by omega)
      rw [h1, h2, Nat.add_assoc, ih (j + 1) _ (fun i h1 h2 => h i (by omega) (by omega))]
    · rw [if_neg hm] at h
      rw [ih j _ h]

theorem rneF_reindex {r r' a a' : ℕ → ℝ} : ∀ (ss : List Segment) (fes : List Wrench) (j : ℕ) (v w : Twist),
    (∀ i, j ≤ i → i < j + nMoving ss → q (m + i) = q' i ∧ r (m + i) = r' i ∧ a (m + i) = a' i) →
    rneF q r a ss fes (m + j) v w = rneF q' r' a' ss fes j v w := by
  intro ss
  induction ss with
  | nil => intro fes j v w _; simp [rneF]
  | cons s ss ih =>
    intro fes j v w h
    cases fes with
    | nil => simp [rneF]
    | cons fe fes =>
      rw [nMoving_cons] at h
      by_cases hm : s.moving = true
      · rw [if_pos hm] at h
        obtain ⟨h1, h2, h3⟩ := h j le_rfl (by omega)
        have n1 : nx s (m + j) = m + (j + 1) := by simp only [nx, if_pos hm]; omega
        have n2 : nx s j = j + 1 := by simp only [nx, if_pos hm]
        simp only [rneF, up, ap, Ss, Xs, qv, if_pos hm, h1, h2, h3, n1, n2]
        rw [ih _ _ _ _ (fun i h1 h2 => h i (by omega) (by omega))]
      · rw [if_neg hm] at h
        have n1 : nx s (m + j) = m + j := by simp only [nx, if_neg hm]
        have n2 : nx s j = j := by simp only [nx, if_neg hm]
        simp only [rneF, up, ap, Ss, Xs, qv, if_neg hm, n1, n2]
        rw [ih _ _ _ _ (fun i h1 h2 => h i (by omega) (by omega))]
end

theorem rd_append_left {a b : List ℝ} {i : ℕ} (h : i < a.length) : rd (a ++ b) i = rd a i := by
  simp [rd, List.getD_eq_getElem?_getD, List.getElem?_append_left h]
theorem rd_append_right (a b : List ℝ) (i : ℕ) : rd (a ++ b) (a.length + i) = rd b i := by
  simp [rd, List.getD_eq_getElem?_getD, List.getElem?_append_right]

theorem frameVel_mul_assoc (a b c : FrameVel) (h : a.M.R.IsProper) : (a.mul b).mul c = a.mul (b.mul c) := by
  obtain ⟨⟨aR, aw⟩, ap, av⟩ := a
  obtain ⟨⟨bR, bw⟩, bp, bv⟩ := b
  obtain ⟨⟨cR, cw⟩, cp, cv⟩ := c
  have hx := fun x y => Rot.IsProper.cross (R := aR) h x y
  simp only [FrameVel.mul, RotVel.mul, RotVel.app, VecVel.add, Rot.app_add, Rot.mul_app, Vec.add_cross, Vec.cross_add, ← hx,
    mul_assoc]
  congr 2
  · abel
  · abel
  · abel
theorem fkVelF_start (q qd : ℕ → ℝ) : ∀ (ss : List Segment) (j : ℕ) (p r : FrameVel),
    p.M.R.IsProper → fkVelF q qd ss j (p.mul r) = p.mul (fkVelF q qd ss j r) := by
  intro ss
  induction ss with
  | nil => intro j p r _; rfl
  | cons s ss ih =>
    intro j p r h
    unfold fkVelF
    split_ifs
    · rw [frameVel_mul_assoc _ _ _ h, ih _ _ _ h]
    · rw [frameVel_mul_assoc _ _ _ h, ih _ _ _ h]
theorem frameVel_mul_one (a : FrameVel) : a.mul (FrameVel.ofFrame 1) = a := by
  obtain ⟨⟨aR, aw⟩, ap, av⟩ := a
  simp only [FrameVel.ofFrame, RotVel.ofRot, VecVel.ofVec, FrameVel.mul, RotVel.mul, RotVel.app, VecVel.add]
  ext <;> simp

theorem colsF_append (q : ℕ → ℝ) : ∀ (a b : List Segment) (j : ℕ) (T : Frame),
    colsF q (a ++ b) j T =
      (colsF q a j T).map (fun t : Twist => t.refPoint ((T * fkF q (a ++ b) j).p - (T * fkF q a j).p)) ++
      colsF q b (j + nMoving a) (T * fkF q a j) := by
  intro a
  induction a with
  | nil => intro b j T; simp [colsF, fkF]
  | cons s a ih =>
    intro b j T
    rw [List.cons_append, colsF, colsF, nMoving_cons]
    by_cases hm : s.moving = true
    · rw [if_pos hm, if_pos hm, if_pos hm, ih]
      have e1 : fkF q (s :: (a ++ b)) j = s.pose (q j) * fkF q (a ++ b) (j + 1) := by rw [fkF, if_pos hm]
      have e2 : fkF q (s :: a) j = s.pose (q j) * fkF q a (j + 1) := by rw [fkF, if_pos hm]
      rw [e1, e2, ← mul_assoc, ← mul_assoc, List.map_cons, List.cons_append, ← Nat.add_assoc,
        Nat.add_right_comm j (nMoving a) 1]
      congr 1
      ext <;> simp <;> ring
    · rw [if_neg hm, if_neg hm, if_neg hm, ih]
      have e1 : fkF q (s :: (a ++ b)) j = s.pose 0 * fkF q (a ++ b) j := by rw [fkF, if_neg hm]
      have e2 : fkF q (s :: a) j = s.pose 0 * fkF q a j := by rw [fkF, if_neg hm]
      rw [e1, e2, ← mul_assoc, ← mul_assoc]

/-- With the first part at rest, the second part moves as on a base that is only accelerated by gravity. -/
theorem rneF_append_rest (q qd qdd : ℕ → ℝ) (B : List Segment) (fb : List Wrench) :
    ∀ (A : List Segment) (fa : List Wrench) (j : ℕ) (a : Twist), fa.length = A.length → (∀ s ∈ A, s.Valid) →
      (∀ i, j ≤ i → i < j + nMoving A → qd i = 0 ∧ qdd i = 0) →
      (rneF q qd qdd (A ++ B) (fa ++ fb) j 0 a).1.drop (nMoving A) =
        (rneF q qd qdd B fb (j + nMoving A) 0 ((fkF q A j).invTwist a)).1 := by
  intro A
  induction A with
  | nil =>
    intro fa j a hl _ _
    rw [List.length_nil, List.length_eq_zero_iff] at hl
    subst hl
    have : (fkF q [] j).invTwist a = a := by rw [fkF]; ext <;> simp [Frame.invTwist, Rot.invVec]
    rw [this]
    simp
  | cons s A ih =>
    intro fa j a hl hv h0
    cases fa with
    | nil => simp at hl
    | cons fe fa =>
      have hl' : fa.length = A.length := by simpa using hl
      have hv' : ∀ x ∈ A, x.Valid := fun x hx => hv x (by simp [hx])
      have hs := hv s (by simp)
      rw [nMoving_cons] at h0 ⊢
      have z1 : qv s qd j = 0 := by
        unfold qv
        split_ifs with hm
        · rw [if_pos hm] at h0; exact (h0 j le_rfl (by omega)).1
        · rfl
      have z2 : qv s qdd j = 0 := by
        unfold qv
        split_ifs with hm
        · rw [if_pos hm] at h0; exact (h0 j le_rfl (by omega)).2
        · rfl
      have eu : up q qd s j 0 = 0 := by simp [up, z1, Frame.invTwist_zero]
      have ee : ∀ t : Twist, t * (0 : Twist) = 0 := fun t => by ext <;> simp
      have ea : ap q qd qdd s j 0 a = (Xs q s j).invTwist a := by simp [ap, z1, z2, ee]
      simp only [List.cons_append, rneF, eu, ea]
      by_cases hm : s.moving = true
      · rw [if_pos hm] at h0
        have n2 : nx s j = j + 1 := by simp only [nx, if_pos hm]
        have eX : Xs q s j = s.pose (q j) := by simp only [Xs, qv, if_pos hm]
        rw [if_pos hm, if_pos hm, n2, List.drop_succ_cons, ih fa (j + 1) _ hl' hv' (fun i a b => h0 i (by omega) (by omega)), eX,
          fkF, if_pos hm, Frame.invTwist_mul _ _ (Segment.isProper_pose hs _), Nat.add_assoc, Nat.add_comm 1]
      · rw [if_neg hm] at h0
        have n2 : nx s j = j := by simp only [nx, if_neg hm]
        have eX : Xs q s j = s.pose 0 := by simp only [Xs, qv, if_neg hm]
        rw [if_neg hm, if_neg hm, n2, ih fa j _ hl' hv' h0, eX, fkF, if_neg hm,
          Frame.invTwist_mul _ _ (Segment.isProper_pose hs _)]

/-- A part that passes no wrench on does not change the torques before it. -/
theorem rneF_append_light (q qd qdd : ℕ → ℝ) (B : List Segment) (fb : List Wrench)
    (hB : ∀ j v a, (rneF q qd qdd B fb j v a).2 = 0) :
    ∀ (A : List Segment) (fa : List Wrench) (j : ℕ) (v a : Twist), fa.length = A.length →
      ∃ v' a', rneF q qd qdd (A ++ B) (fa ++ fb) j v a =
        ((rneF q qd qdd A fa j v a).1 ++ (rneF q qd qdd B fb (j + nMoving A) v' a').1, (rneF q qd qdd A fa j v a).2) := by
  intro A
  induction A with
  | nil =>
    intro fa j v a hl
    rw [List.length_nil, List.length_eq_zero_iff] at hl
    subst hl
    refine ⟨v, a, ?_⟩
    have := hB j v a
    simp only [List.nil_append, rneF, nMoving_nil, Nat.add_zero]
    rw [← this]
  | cons s A ih =>
    intro fa j v a hl
    cases fa with
    | nil => simp at hl
    | cons fe fa =>
      have hl' : fa.length = A.length := by simpa using hl
      obtain ⟨v', a', e⟩ := ih fa (nx s j) (up q qd s j v) (ap q qd qdd s j v a) hl'
      refine ⟨v', a', ?_⟩
      have n2 : nx s j + nMoving A = j + nMoving (s :: A) := by rw [nMoving_cons]; unfold nx; split_ifs <;> omega
      simp only [List.cons_append, rneF]
      rw [e, n2]
      split_ifs <;> rfl

/-- Bodies without mass that carry no load: only the rotors of the motors are left, whatever the motion. -/
theorem rneF_massless (q qd qdd : ℕ → ℝ) : ∀ (B : List Segment), (∀ s ∈ B, ∀ t : Twist, s.I * t = (0 : Wrench)) →
    ∀ (j : ℕ) (v a : Twist), (rneF q qd qdd B (List.replicate B.length 0) j v a).2 = 0 ∧
      ∀ (v' a' : Twist), (rneF q qd qdd B (List.replicate B.length 0) j v a).1 =
        (rneF q qd qdd B (List.replicate B.length 0) j v' a').1 := by
  have w0 : ∀ t : Twist, t * (0 : Wrench) = 0 := fun t => by ext <;> simp
  have F0 : ∀ F : Frame, F * (0 : Wrench) = 0 := fun F => by ext <;> simp
  intro B
  induction B with
  | nil => intro _ j v a; simp [rneF]
  | cons s B ih =>
    intro hB j v a
    have hs := hB s (by simp)
    have ih := ih (fun x hx => hB x (by simp [hx]))
    have ef : ∀ v a : Twist, fl s v a 0 = 0 := fun v a => by
      unfold fl; rw [hs, hs, w0]; ext <;> simp
    have e0 : (0 : Wrench) + 0 = 0 := by ext <;> simp
    simp only [List.length_cons, List.replicate_succ, rneF, ef, (ih _ _ _).1, e0, F0, true_and]
    intro v' a'
    rw [(ih (nx s j) (up q qd s j v) (ap q qd qdd s j v a)).2 (up q qd s j v') (ap q qd qdd s j v' a')]

/-! ### C107 -/

section
variable {c d e : Chain} (hc : c.WF) (hd : d.WF) (he : c.addChain d = some e)
include hc hd he

/-- The counts of the joined chain. -/
theorem joined_counts : e.segments = c.segments ++ d.segments ∧ e.nrOfSegments = c.nrOfSegments + d.nrOfSegments ∧
    e.nrOfJoints = c.nrOfJoints + d.nrOfJoints ∧ e.WF := by
  obtain ⟨e', h3, h4, h5, h6⟩ := C24_addChain c d hc hd
  rw [h3] at he; cases he
  refine ⟨h4, h5, h6, ?_, ?_⟩
  · rw [h5, h4, List.length_append, hc.1, hd.1]
  · rw [h6, h4, nMoving_append, hc.2, hd.2]

/-- The pose of the joined chain is the pose of the first part times that of the second … -/
theorem C107_position (qc q2 : List ℝ) (hq1 : qc.length = c.nrOfJoints) (hq2 : q2.length = d.nrOfJoints) :
    ∃ F G, fkPos c qc (-1) = some (E_NOERROR, F) ∧ fkPos d q2 (-1) = some (E_NOERROR, G) ∧
      fkPos e (qc ++ q2) (-1) = some (E_NOERROR, F * G) := by
  obtain ⟨g1, g2, g3, g4⟩ := joined_counts hc hd he
  have H : ∀ (x : Chain) (q : List ℝ), x.WF → q.length = x.nrOfJoints →
      fkPos x q (-1) = some (E_NOERROR, fkF (rd q) x.segments 0) := by
    intro x q hx hq
    have hs : segmentNr x (-1) = x.nrOfSegments := by simp [segmentNr]
    unfold fkPos
    dsimp only
    rw [hs, if_neg (not_not.mpr hq), if_neg (by omega), hx.1, List.take_length, fkLoop_eq q _ 0 1 (by rw [hq, hx.2]; omega)]
    simp only [Option.bind_eq_bind, Option.bind_some, one_mul]
  refine ⟨_, _, H c qc hc hq1, H d q2 hd hq2, ?_⟩
  rw [H e _ g4 (by simp; omega), g1, fkF_append]
  have e1 : fkF (rd (qc ++ q2)) c.segments 0 = fkF (rd qc) c.segments 0 :=
    fkF_congr _ _ _ _ (fun i _ hi => rd_append_left (by rw [hq1, hc.2]; omega))
  have e2 : fkF (rd (qc ++ q2)) d.segments (qc.length + 0) = fkF (rd q2) d.segments 0 :=
    fkF_reindex _ _ (fun i _ _ => rd_append_right _ _ _)
  rw [e1, ← e2, hq1, hc.2, Nat.zero_add, Nat.add_zero]

/-- … the velocity is the product of the two velocities … -/
theorem C107_velocity (hv : c.Valid) (qc q2 rc r2 : List ℝ) (hq1 : qc.length = c.nrOfJoints) (hq2 : q2.length = d.nrOfJoints)
    (hr1 : rc.length = c.nrOfJoints) (hr2 : r2.length = d.nrOfJoints) :
    ∃ V W, fkVel c qc rc (-1) = some (E_NOERROR, V) ∧ fkVel d q2 r2 (-1) = some (E_NOERROR, W) ∧
      fkVel e (qc ++ q2) (rc ++ r2) (-1) = some (E_NOERROR, V.mul W) ∧
      (V.mul W).getTwist = V.getTwist.refPoint (V.getFrame.M * W.getFrame.p) + V.getFrame.M * W.getTwist := by
  obtain ⟨g1, g2, g3, g4⟩ := joined_counts hc hd he
  have H : ∀ (x : Chain) (q r : List ℝ), x.WF → q.length = x.nrOfJoints → r.length = x.nrOfJoints →
      fkVel x q r (-1) = some (E_NOERROR, fkVelF (rd q) (rd r) x.segments 0 (.ofFrame 1)) := by
    intro x q r hx hq hr
    have hs : segmentNr x (-1) = x.nrOfSegments := by simp [segmentNr]
    unfold fkVel
    dsimp only
    rw [hs, if_neg (not_not.mpr ⟨hq, hr⟩), if_neg (by omega), hx.1, List.take_length,
      fkVelLoop_eq q r _ 0 _ (by rw [hq, hx.2]; omega) (by rw [hr, hx.2]; omega)]
    simp only [Option.bind_eq_bind, Option.bind_some]
  refine ⟨_, _, H c qc rc hc hq1 hr1, H d q2 r2 hd hq2 hr2, ?_, ?_⟩
  · rw [H e _ _ g4 (by simp; omega) (by simp; omega), g1, fkVelF_append]
    have e1 : fkVelF (rd (qc ++ q2)) (rd (rc ++ r2)) c.segments (0 + 0) (.ofFrame 1) =
        fkVelF (rd qc) (rd rc) c.segments 0 (.ofFrame 1) :=
      fkVelF_reindex _ _ _ (fun i _ hi => by
        rw [Nat.zero_add]
        exact ⟨rd_append_left (by rw [hq1, hc.2]; omega), rd_append_left (by rw [hr1, hc.2]; omega)⟩)
    have hn : qc.length = rc.length := by omega
    have e2 : ∀ p, fkVelF (rd (qc ++ q2)) (rd (rc ++ r2)) d.segments (qc.length + 0) p =
        fkVelF (rd q2) (rd r2) d.segments 0 p := fun p =>
      fkVelF_reindex _ _ _ (fun i _ _ => ⟨rd_append_right _ _ _, by rw [hn]; exact rd_append_right _ _ _⟩)
    have hp : (fkVelF (rd qc) (rd rc) c.segments 0 (.ofFrame 1)).M.R.IsProper :=
      fkVelF_isProper (rd qc) (rd rc) c.segments hv
    rw [Nat.add_zero] at e1
    rw [e1, ← frameVel_mul_one (fkVelF (rd qc) (rd rc) c.segments 0 (.ofFrame 1)),
      fkVelF_start _ _ _ _ _ _ hp, frameVel_mul_one, ← e2, hq1,
      hc.2, Nat.zero_add, Nat.add_zero]
  · obtain ⟨V, hV⟩ : ∃ V, V = fkVelF (rd qc) (rd rc) c.segments 0 (.ofFrame 1) := ⟨_, rfl⟩
    obtain ⟨W, hW⟩ : ∃ W, W = fkVelF (rd q2) (rd r2) d.segments 0 (.ofFrame 1) := ⟨_, rfl⟩
    rw [← hV, ← hW]
    simp only [FrameVel.getTwist, FrameVel.getFrame, FrameVel.mul, RotVel.mul, RotVel.app, VecVel.add]
    ext <;> simp <;> ring

/-- … and the Jacobian has the columns of the first part, referred to the new tip, followed by those of the second part,
turned by the pose of the first. -/
theorem C107_jacobian (hv : c.Valid) (qc q2 : List ℝ) (hq1 : qc.length = c.nrOfJoints) (hq2 : q2.length = d.nrOfJoints)
    (J0 J1 J2 : Jac) (h0 : J0.length = e.nrOfJoints) (h1 : J1.length = c.nrOfJoints) (h2 : J2.length = d.nrOfJoints) :
    ∃ F G Jc Jd, fkPos c qc (-1) = some (E_NOERROR, F) ∧ fkPos d q2 (-1) = some (E_NOERROR, G) ∧
      jntToJac c (List.replicate c.nrOfJoints false) qc J1 (-1) = some (E_NOERROR, Jc) ∧
      jntToJac d (List.replicate d.nrOfJoints false) q2 J2 (-1) = some (E_NOERROR, Jd) ∧
      jntToJac e (List.replicate e.nrOfJoints false) (qc ++ q2) J0 (-1) = some (E_NOERROR,
        Jc.map (fun t : Twist => t.refPoint (F.M * G.p)) ++ Jd.map (fun t : Twist => F.M * t)) := by
  obtain ⟨g1, g2, g3, g4⟩ := joined_counts hc hd he
  have H : ∀ (x : Chain) (q : List ℝ), x.WF → q.length = x.nrOfJoints →
      fkPos x q (-1) = some (E_NOERROR, fkF (rd q) x.segments 0) := by
    intro x q hx hq
    have hs : segmentNr x (-1) = x.nrOfSegments := by simp [segmentNr]
    unfold fkPos
    dsimp only
    rw [hs, if_neg (not_not.mpr hq), if_neg (by omega), hx.1, List.take_length, fkLoop_eq q _ 0 1 (by rw [hq, hx.2]; omega)]
    simp only [Option.bind_eq_bind, Option.bind_some, one_mul]
  have K : ∀ (x : Chain) (q : List ℝ) (J : Jac), x.WF → q.length = x.nrOfJoints → J.length = x.nrOfJoints →
      jntToJac x (List.replicate x.nrOfJoints false) q J (-1) = some (E_NOERROR, colsF (rd q) x.segments 0 1) := by
    intro x q J hx hq hJ
    have hs : segmentNr x (-1) = x.nrOfSegments := by simp [segmentNr]
    rw [jntToJac_unlocked x hx q J (-1) hq hJ (by omega), hs, hx.1, List.take_length, ← hx.2]
    simp
  refine ⟨_, _, _, _, H c qc hc hq1, H d q2 hd hq2, K c qc J1 hc hq1 h1, K d q2 J2 hd hq2 h2, ?_⟩
  rw [K e _ J0 g4 (by simp; omega) h0, g1, colsF_append, fkF_append]
  have e1 : fkF (rd (qc ++ q2)) c.segments 0 = fkF (rd qc) c.segments 0 :=
    fkF_congr _ _ _ _ (fun i _ hi => rd_append_left (by rw [hq1, hc.2]; omega))
  have e2 : fkF (rd (qc ++ q2)) d.segments (qc.length + 0) = fkF (rd q2) d.segments 0 :=
    fkF_reindex _ _ (fun i _ _ => rd_append_right _ _ _)
  have e3 : colsF (rd (qc ++ q2)) c.segments (0 + 0) 1 = colsF (rd qc) c.segments 0 1 :=
    colsF_reindex _ _ _ (fun i _ hi => by rw [Nat.zero_add]; exact rd_append_left (by rw [hq1, hc.2]; omega))
  have e4 : ∀ T, colsF (rd (qc ++ q2)) d.segments (qc.length + 0) T = colsF (rd q2) d.segments 0 T := fun T =>
    colsF_reindex _ _ _ (fun i _ _ => rd_append_right _ _ _)
  have hp : (fkF (rd qc) c.segments 0).IsProper := isProper_fkF _ _ _ hv
  rw [Nat.add_zero] at e2 e3 e4
  rw [e1, e3, Nat.zero_add, ← hc.2, ← hq1, e2, e4, one_mul, one_mul, ← colsF_rotate _ _ _ _ _ hp, mul_one]
  congr 4
  funext t
  congr 1
  ext <;> simp <;> ring

/-- With the first part at rest, the second part needs the torques it needs alone, in the gravity seen from its own base. -/
theorem C107_inverse (hv : c.Valid) (grav : Vec) (qc q2 r2 a2 τ0 τ1 : List ℝ) (f1 f2 : List Wrench)
    (hq1 : qc.length = c.nrOfJoints) (hq2 : q2.length = d.nrOfJoints) (hr2 : r2.length = d.nrOfJoints)
    (ha2 : a2.length = d.nrOfJoints) (hτ0 : τ0.length = e.nrOfJoints) (hτ1 : τ1.length = d.nrOfJoints)
    (hf1 : f1.length = c.nrOfSegments) (hf2 : f2.length = d.nrOfSegments) :
    ∃ F τ σ, fkPos c qc (-1) = some (E_NOERROR, F) ∧
      idRne d d.nrOfJoints d.nrOfSegments (F.M.inv * grav) q2 r2 a2 f2 τ1 = some (E_NOERROR, σ) ∧
      idRne e e.nrOfJoints e.nrOfSegments grav (qc ++ q2) (List.replicate c.nrOfJoints 0 ++ r2)
        (List.replicate c.nrOfJoints 0 ++ a2) (f1 ++ f2) τ0 = some (E_NOERROR, τ) ∧
      τ.length = e.nrOfJoints ∧ σ.length = d.nrOfJoints ∧ τ.drop c.nrOfJoints = σ := by
  obtain ⟨g1, g2, g3, g4⟩ := joined_counts hc hd he
  obtain ⟨F, -, hF, -, -⟩ := C107_position hc hd he qc q2 hq1 hq2
  have hF' : F = fkF (rd qc) c.segments 0 := by
    have hs : segmentNr c (-1) = c.nrOfSegments := by simp [segmentNr]
    unfold fkPos at hF
    dsimp only at hF
    rw [hs, if_neg (not_not.mpr hq1), if_neg (by omega), hc.1, List.take_length,
      fkLoop_eq qc _ 0 1 (by rw [hq1, hc.2]; omega)] at hF
    simp only [Option.bind_eq_bind, Option.bind_some, one_mul, Option.some.injEq, Prod.mk.injEq, true_and] at hF
    exact hF.symm
  have hp : F.IsProper := by rw [hF']; exact isProper_fkF _ _ _ hv
  refine ⟨F, _, _, hF, idRne_eq d hd _ q2 r2 a2 f2 τ1 hq2 hr2 ha2 hτ1 hf2,
    idRne_eq e g4 grav _ _ _ _ τ0 (by simp; omega) (by simp; omega) (by simp; omega) hτ0 (by simp; omega), ?_, ?_, ?_⟩
  · rw [rneF_length _ _ _ _ _ _ _ _ (by rw [← g4.1]; simp; omega), g4.2]
  · rw [rneF_length _ _ _ _ _ _ _ _ (by rw [← hd.1]; exact hf2), hd.2]
  · have hz : (List.replicate c.nrOfJoints (0:ℝ)).length = c.nrOfJoints := by simp
    have z0 : ∀ (x : List ℝ) i, i < c.nrOfJoints → rd (List.replicate c.nrOfJoints 0 ++ x) i = 0 := fun x i hi => by
      rw [rd_append_left (by simpa using hi)]
      simp [rd, List.getD_eq_getElem?_getD, hi]
    have R := rneF_append_rest (rd (qc ++ q2)) (rd (List.replicate c.nrOfJoints 0 ++ r2))
      (rd (List.replicate c.nrOfJoints 0 ++ a2)) d.segments f2 c.segments f1 0 (-⟨grav, 0⟩) (by rw [← hc.1]; exact hf1) hv
      (fun i _ hi => ⟨z0 _ _ (by rw [hc.2]; omega), z0 _ _ (by rw [hc.2]; omega)⟩)
    rw [← hc.2] at R
    rw [g1, R]
    have e1 : fkF (rd (qc ++ q2)) c.segments 0 = F := by
      rw [hF']
      exact fkF_congr _ _ _ _ (fun i _ hi => rd_append_left (by rw [hq1, hc.2]; omega))
    have ea : F.invTwist (-⟨grav, 0⟩) = -⟨F.M.inv * grav, 0⟩ := by
      rw [(C04_inverse_overloads _ _ 0 hp).1]
      ext <;> simp
      <;> ring
    rw [e1, ea, Nat.zero_add]
    have S := rneF_reindex (m := c.nrOfJoints) (q := rd (qc ++ q2)) (q' := rd q2)
      (r := rd (List.replicate c.nrOfJoints 0 ++ r2)) (r' := rd r2)
      (a := rd (List.replicate c.nrOfJoints 0 ++ a2)) (a' := rd a2) d.segments f2 0 0 (-⟨F.M.inv * grav, 0⟩)
      (fun i _ _ => by
        refine ⟨by rw [← hq1]; exact rd_append_right _ _ _, ?_, ?_⟩
        · have := rd_append_right (List.replicate c.nrOfJoints 0) r2 i; rwa [hz] at this
        · have := rd_append_right (List.replicate c.nrOfJoints 0) a2 i; rwa [hz] at this)
    rw [Nat.add_zero] at S
    rw [S]

/-- The gravity torques of the second part are those of the second part alone, in the gravity seen from its own base. -/
theorem C107_gravity (hv : c.Valid) (grav : Vec) (qc q2 G0 G1 : List ℝ)
    (hq1 : qc.length = c.nrOfJoints) (hq2 : q2.length = d.nrOfJoints) (hG0 : G0.length = e.nrOfJoints)
    (hG1 : G1.length = d.nrOfJoints) :
    ∃ F G K, fkPos c qc (-1) = some (E_NOERROR, F) ∧
      (DynState.new d (F.M.inv * grav)).gravity d q2 G1 = some (E_NOERROR, K) ∧
      (DynState.new e grav).gravity e (qc ++ q2) G0 = some (E_NOERROR, G) ∧ G.drop c.nrOfJoints = K := by
  obtain ⟨g1, g2, g3, g4⟩ := joined_counts hc hd he
  obtain ⟨F, τ, σ, h1, h2, h3, -, -, h4⟩ := C107_inverse hc hd he hv grav qc q2 (List.replicate d.nrOfJoints 0)
    (List.replicate d.nrOfJoints 0) G0 G1 (List.replicate c.nrOfSegments 0) (List.replicate d.nrOfSegments 0) hq1 hq2
    (by simp) (by simp) hG0 hG1 (by simp) (by simp)
  rw [← List.replicate_add, ← List.replicate_add, ← g2, ← g3] at h3
  exact ⟨F, τ, σ, h1, h2, h3, h4⟩

/-- The block of the mass matrix that belongs to the second part is the mass matrix of the second part alone: it does not
depend on the position of the first part. -/
theorem C107_mass (hv : c.Valid) (hv2 : d.Valid) (hI : c.SymmI) (hI2 : d.SymmI) (grav : Vec) (qc q2 : List ℝ)
    (hq1 : qc.length = c.nrOfJoints) (hq2 : q2.length = d.nrOfJoints) (H0 H1 : JMat) (hH0 : H0.n = e.nrOfJoints)
    (hH1 : H1.n = d.nrOfJoints) :
    ∃ H K, (DynState.new e grav).mass e (qc ++ q2) H0 = some (E_NOERROR, H) ∧
      (DynState.new d grav).mass d q2 H1 = some (E_NOERROR, K) ∧
      ∀ k < d.nrOfJoints, ∀ l < d.nrOfJoints, H.d (c.nrOfJoints + k) (c.nrOfJoints + l) = K.d k l := by
  obtain ⟨g1, g2, g3, g4⟩ := joined_counts hc hd he
  have gv : e.Valid := C24_valid c d e hd hv hv2 he
  have gI : e.SymmI := by
    intro s hs
    rw [g1, List.mem_append] at hs
    rcases hs with hs | hs
    · exact hI s hs
    · exact hI2 s hs
  have hqe : (qc ++ q2).length = e.nrOfJoints := by simp; omega
  have hz : ∀ n, (List.replicate n (0:ℝ)).length = n := fun n => by simp
  have hz0 : ∀ n l, (List.replicate n (0:ℝ)).getD l 0 = 0 := fun n l => by
    simp only [List.getD_eq_getElem?_getD, List.getElem?_replicate]; split_ifs <;> rfl
  obtain ⟨F, -, hF, -, -⟩ := C107_position hc hd he qc q2 hq1 hq2
  have D := fun qdd (h : List.length qdd = e.nrOfJoints) => C39_decomposition e g4 gv gI grav (qc ++ q2)
    (List.replicate e.nrOfJoints 0) qdd (List.replicate e.nrOfSegments 0) (List.replicate e.nrOfJoints 0)
    (List.replicate e.nrOfJoints 0) (List.replicate e.nrOfJoints 0) H0 hqe (hz _) h (by simp) (hz _) (hz _) (hz _) hH0
  have D' := fun qdd (h : List.length qdd = d.nrOfJoints) => C39_decomposition d hd hv2 hI2 (F.M.inv * grav) q2
    (List.replicate d.nrOfJoints 0) qdd (List.replicate d.nrOfSegments 0) (List.replicate d.nrOfJoints 0)
    (List.replicate d.nrOfJoints 0) (List.replicate d.nrOfJoints 0) H1 hq2 (hz _) h (by simp) (hz _) (hz _) (hz _) hH1
  have E := fun a2 (h : List.length a2 = d.nrOfJoints) => C107_inverse hc hd he hv grav qc q2 (List.replicate d.nrOfJoints 0)
    a2 (List.replicate e.nrOfJoints 0) (List.replicate d.nrOfJoints 0) (List.replicate c.nrOfSegments 0)
    (List.replicate d.nrOfSegments 0) hq1 hq2 (hz _) h (hz _) (hz _) (by simp) (by simp)
  rw [← List.replicate_add, ← List.replicate_add, ← g2, ← g3] at E
  have hle : ∀ a2 : List ℝ, a2.length = d.nrOfJoints → (List.replicate c.nrOfJoints 0 ++ a2).length = e.nrOfJoints := by
    intro a2 h; simp; omega
  obtain ⟨τ, H, C, G, a1, a2, a3, a4, -, -, -, a8, a9⟩ := D _ (hle _ (hz _))
  obtain ⟨τ', H', C', G', b1, b2, b3, b4, -, -, -, b8, b9⟩ := D' _ (hz _)
  refine ⟨H, H', a2, b2, fun k hk l hl => ?_⟩
  have hu : (unitJnt d.nrOfJoints l).length = d.nrOfJoints := unitJnt_length _ _
  obtain ⟨σ, K, C1, G1, c1, c2, c3, c4, -, -, -, -, c9⟩ := D _ (hle _ hu)
  obtain ⟨σ', K', C1', G1', d1, d2, d3, d4, -, -, -, -, d9⟩ := D' _ hu
  rw [a2] at c2; cases c2
  rw [a3] at c3; cases c3
  rw [a4] at c4; cases c4
  rw [b2] at d2; cases d2
  rw [b3] at d3; cases d3
  rw [b4] at d4; cases d4
  obtain ⟨F1, x, x', x1, x2, x3, x4, x5, x6⟩ := E _ (hz _)
  rw [hF] at x1; cases x1
  rw [a1] at x3; cases x3
  rw [b1] at x2; cases x2
  obtain ⟨F2, y, y', y1, y2, y3, y4, y5, y6⟩ := E _ hu
  rw [hF] at y1; cases y1
  rw [c1] at y3; cases y3
  rw [d1] at y2; cases y2
  have dr : ∀ (L M : List ℝ), L.drop c.nrOfJoints = M → L.getD (c.nrOfJoints + k) 0 = M.getD k 0 := by
    intro L M h; rw [← h]; simp [List.getD_eq_getElem?_getD]
  have u : ∀ A : ℕ → ℝ, ∑ m ∈ range d.nrOfJoints, A m * (unitJnt d.nrOfJoints l).getD m 0 = A l := by
    intro A
    rw [sum_eq_single l]
    · have := congrFun (rd_unitJnt d.nrOfJoints l hl) l
      simp only [rd, unitRate] at this
      rw [this]; simp
    · intro m _ hne
      have := congrFun (rd_unitJnt d.nrOfJoints l hl) m
      simp only [rd, unitRate] at this
      rw [this]; simp [hne]
    · intro h; exact absurd (mem_range.mpr hl) h
  have up2 : ∀ (A : ℕ → ℝ) (x : List ℝ), ∑ m ∈ range e.nrOfJoints, A m * (List.replicate c.nrOfJoints 0 ++ x).getD m 0 =
      ∑ m ∈ range d.nrOfJoints, A (c.nrOfJoints + m) * x.getD m 0 := by
    intro A x
    rw [g3, sum_range_add]
    have z : ∑ m ∈ range c.nrOfJoints, A m * (List.replicate c.nrOfJoints 0 ++ x).getD m 0 = 0 := by
      refine sum_eq_zero (fun m hm => ?_)
      have := rd_append_left (a := List.replicate c.nrOfJoints 0) (b := x) (i := m) (by simpa using hm)
      simp only [rd] at this
      rw [this, hz0, mul_zero]
    rw [z, zero_add]
    refine sum_congr rfl (fun m _ => ?_)
    have := rd_append_right (List.replicate c.nrOfJoints 0) x m
    rw [hz] at this
    simp only [rd] at this
    rw [this]
  have p1 := a9 (c.nrOfJoints + k) (by omega)
  have p2 := c9 (c.nrOfJoints + k) (by omega)
  have p3 := b9 k hk
  have p4 := d9 k hk
  rw [up2, dr _ _ x6] at p1
  rw [up2, dr _ _ y6] at p2
  simp only [u] at p2 p4
  simp only [hz0, mul_zero, sum_const_zero] at p1 p3
  linarith

/-- A second part without mass and load leaves the torques of the first part as they are, whatever both do; it needs only
the torques for the rotors of its own motors, as alone. -/
theorem C107_massless (hm : ∀ s ∈ d.segments, ∀ t : Twist, s.I * t = (0 : Wrench)) (grav grav' : Vec)
    (qc q2 rc r2 ac a2 τ0 τ1 τ2 : List ℝ) (f1 : List Wrench)
    (hq1 : qc.length = c.nrOfJoints) (hq2 : q2.length = d.nrOfJoints) (hr1 : rc.length = c.nrOfJoints)
    (hr2 : r2.length = d.nrOfJoints) (ha1 : ac.length = c.nrOfJoints) (ha2 : a2.length = d.nrOfJoints)
    (hτ0 : τ0.length = e.nrOfJoints) (hτ1 : τ1.length = c.nrOfJoints) (hτ2 : τ2.length = d.nrOfJoints)
    (hf1 : f1.length = c.nrOfSegments) :
    ∃ τ σ, idRne c c.nrOfJoints c.nrOfSegments grav qc rc ac f1 τ1 = some (E_NOERROR, τ) ∧
      idRne d d.nrOfJoints d.nrOfSegments grav' q2 r2 a2 (List.replicate d.nrOfSegments 0) τ2 = some (E_NOERROR, σ) ∧
      idRne e e.nrOfJoints e.nrOfSegments grav (qc ++ q2) (rc ++ r2) (ac ++ a2) (f1 ++ List.replicate d.nrOfSegments 0) τ0 =
        some (E_NOERROR, τ ++ σ) := by
  obtain ⟨g1, g2, g3, g4⟩ := joined_counts hc hd he
  refine ⟨_, _, idRne_eq c hc grav _ _ _ _ τ1 hq1 hr1 ha1 hτ1 hf1,
    idRne_eq d hd grav' _ _ _ _ τ2 hq2 hr2 ha2 hτ2 (by simp), ?_⟩
  rw [idRne_eq e g4 grav _ _ _ _ τ0 (by simp; omega) (by simp; omega) (by simp; omega) hτ0 (by simp; omega), g1]
  have M := rneF_massless (rd (qc ++ q2)) (rd (rc ++ r2)) (rd (ac ++ a2)) d.segments hm
  obtain ⟨v', a', L⟩ := rneF_append_light (rd (qc ++ q2)) (rd (rc ++ r2)) (rd (ac ++ a2)) d.segments
    (List.replicate d.segments.length 0) (fun j v a => (M j v a).1) c.segments f1 0 0 (-⟨grav, 0⟩) (by rw [← hc.1]; exact hf1)
  rw [hd.1, L]
  have e1 : rneF (rd (qc ++ q2)) (rd (rc ++ r2)) (rd (ac ++ a2)) c.segments f1 (0 + 0) 0 (-⟨grav, 0⟩) =
      rneF (rd qc) (rd rc) (rd ac) c.segments f1 0 0 (-⟨grav, 0⟩) :=
    rneF_reindex _ _ _ _ _ (fun i _ hi => by
      rw [Nat.zero_add]
      exact ⟨rd_append_left (by rw [hq1, hc.2]; omega), rd_append_left (by rw [hr1, hc.2]; omega),
        rd_append_left (by rw [ha1, hc.2]; omega)⟩)
  have e2 : rneF (rd (qc ++ q2)) (rd (rc ++ r2)) (rd (ac ++ a2)) d.segments (List.replicate d.segments.length 0)
      (c.nrOfJoints + 0) 0 (-⟨grav', 0⟩) =
      rneF (rd q2) (rd r2) (rd a2) d.segments (List.replicate d.segments.length 0) 0 0 (-⟨grav', 0⟩) :=
    rneF_reindex _ _ _ _ _ (fun i _ hi => by
      refine ⟨?_, ?_, ?_⟩
      · rw [← hq1]; exact rd_append_right _ _ _
      · rw [← hr1]; exact rd_append_right _ _ _
      · rw [← ha1]; exact rd_append_right _ _ _)
  rw [Nat.add_zero] at e1 e2
  rw [e1, Nat.zero_add, ← hc.2, (M c.nrOfJoints v' a').2 0 (-⟨grav', 0⟩), e2]

end

/-! ### Examples -/

/-- The example chain behind another copy of itself. -/
def exTwice : Chain := ⟨4, 6, exChain.segments ++ exChain.segments⟩
theorem exTwice_ok : exChain.addChain exChain = some exTwice := by
  obtain ⟨e, h1, h2, h3, h4⟩ := C24_addChain exChain exChain exChain_ok.1 exChain_ok.1
  rw [h1]
  obtain ⟨a, b, l⟩ := e
  dsimp only at h2 h3 h4
  rw [h2, h3, h4]
  rfl
example (a b x y : ℝ) (g : Vec) : ∃ H K,
    (DynState.new exTwice g).mass exTwice [a, b, x, y] ⟨4, fun _ _ => 7⟩ = some (E_NOERROR, H) ∧
    (DynState.new exChain g).mass exChain [x, y] ⟨2, fun _ _ => 7⟩ = some (E_NOERROR, K) ∧
    ∀ k < 2, ∀ l < 2, H.d (2 + k) (2 + l) = K.d k l := by
  obtain ⟨h1, h2, h3, h4⟩ := exChain_ok
  exact C107_mass h1 h1 exTwice_ok h2 h2 h3 h3 g [a, b] [x, y] rfl rfl ⟨4, fun _ _ => 7⟩ ⟨2, fun _ _ => 7⟩ rfl rfl
example (a b x y : ℝ) (g : Vec) (w : Wrench) : ∃ F τ σ, fkPos exChain [a, b] (-1) = some (E_NOERROR, F) ∧
    idRne exChain 2 3 (F.M.inv * g) [x, y] [1, 2] [3, 4] [0, 0, w] [0, 0] = some (E_NOERROR, σ) ∧
    idRne exTwice 4 6 g [a, b, x, y] [0, 0, 1, 2] [0, 0, 3, 4] [0, 0, 0, 0, 0, w] [0, 0, 0, 0] = some (E_NOERROR, τ) ∧
    τ.drop 2 = σ := by
  obtain ⟨h1, h2, h3, h4⟩ := exChain_ok
  obtain ⟨F, τ, σ, e1, e2, e3, -, -, e4⟩ := C107_inverse h1 h1 exTwice_ok h2 g [a, b] [x, y] [1, 2] [3, 4] [0, 0, 0, 0] [0, 0]
    [0, 0, 0] [0, 0, w] rfl rfl rfl rfl rfl rfl rfl rfl
  exact ⟨F, τ, σ, e1, e2, e3, e4⟩

/-- A pointer without mass: a fixed segment with the inertia zero. -/
def exPointer : Chain := ⟨0, 1, [⟨"p", ⟨"p", .Fixed, 1, 0, 0, 0, 0, 0, 0⟩, RBI.zero, ⟨1, ⟨0, 0, 1⟩⟩⟩]⟩
example (g : Vec) (a b : ℝ) (e : Chain) (he : exChain.addChain exPointer = some e) : ∃ τ,
    idRne exChain 2 3 g [a, b] [1, 2] [3, 4] [0, 0, 0] [0, 0] = some (E_NOERROR, τ) ∧
    idRne e e.nrOfJoints e.nrOfSegments g [a, b] [1, 2] [3, 4] [0, 0, 0, 0] [0, 0] = some (E_NOERROR, τ) := by
  have hp : exPointer.WF := ⟨rfl, rfl⟩
  obtain ⟨g1, g2, g3, g4⟩ := joined_counts exChain_ok.1 hp he
  obtain ⟨τ, σ, h1, h2, h3⟩ := C107_massless exChain_ok.1 hp he (by
    intro s hs t
    simp only [exPointer, List.mem_singleton] at hs
    subst hs
    ext <;> simp [RBI.mul_twist, RBI.zero, RBI.ofCog, rotationalInertia, Mat3.outer, HSub.hSub, Sub.sub, HSMul.hSMul, SMul.smul])
    g g [a, b] [] [1, 2] [] [3, 4] [] [0, 0] [0, 0] [] [0, 0, 0] rfl rfl rfl rfl rfl rfl (by rw [g3]; rfl) rfl rfl rfl
  have hσ : σ = [] := by
    rw [idRne_eq exPointer hp g [] [] [] _ [] rfl rfl rfl rfl (by simp)] at h2
    simp only [Option.some.injEq, Prod.mk.injEq, true_and] at h2
    rw [← h2]
    rfl
  rw [hσ, List.append_nil τ] at h3
  exact ⟨τ, h1, h3⟩

end KDL
