import Verif.Lemmas.JacDot
import Verif.Props.ForwardKinematics

/-! C28: time derivative of the Jacobian in the three representations. -/

noncomputable section
namespace KDL
open Real

/-- State of a solver for `c` without locked joints: what the constructor and `setRepresentation` establish. -/
structure JacDotState.Fresh (c : Chain) (st : JacDotState) : Prop where
  locked : st.locked = List.replicate c.nrOfJoints false
  nr : st.nrUnlocked = c.nrOfJoints
  jacLocked : st.jacLocked = List.replicate c.nrOfJoints false
  jac : st.jac.length = c.nrOfJoints
  jacDot : st.jacDot.length = c.nrOfJoints

theorem JacDotState.fresh_init (c : Chain) (r : JacRep) : ({ JacDotState.init c with rep := r }).Fresh c := by
  constructor <;> simp [JacDotState.init, Jac.zeros]

theorem dsum_changeBase (qd : ℕ → ℝ) (R : Rot) : ∀ (J : List Twist) (j : ℕ),
    dsum qd (Jac.changeBase J R) j = R * dsum qd J j := by
  intro J
  induction J with
  | nil => intro j; ext <;> simp [dsum, Jac.changeBase]
  | cons c J ih =>
    intro j
    have := ih (j + 1)
    simp only [Jac.changeBase, List.map_cons, dsum] at this ⊢
    rw [this]
    ext <;> simp <;> ring

theorem dsum_changeRefPoint (qd : ℕ → ℝ) (v : Vec) : ∀ (J : List Twist) (j : ℕ),
    dsum qd (Jac.changeRefPoint J v) j = (dsum qd J j).refPoint v := by
  intro J
  induction J with
  | nil => intro j; ext <;> simp [dsum, Jac.changeRefPoint, Twist.refPoint]
  | cons c J ih =>
    intro j
    have := ih (j + 1)
    simp only [Jac.changeRefPoint, List.map_cons, dsum] at this ⊢
    rw [this]
    ext <;> simp [Twist.refPoint] <;> ring

theorem getD_changeBase (J : Jac) (R : Rot) (k : ℕ) : (J.changeBase R).getD k 0 = R * J.getD k 0 := by
  have : R * (0 : Twist) = 0 := by ext <;> simp
  simp only [Jac.changeBase, List.getD_eq_getElem?_getD, List.getElem?_map]
  cases J[k]? <;> simp [this]
theorem getD_changeRefPoint (J : Jac) (v : Vec) (k : ℕ) : (J.changeRefPoint v).getD k 0 = (J.getD k 0).refPoint v := by
  simp only [Jac.changeRefPoint, List.getD_eq_getElem?_getD, List.getElem?_map]
  cases J[k]? <;> simp [Twist.zero_refPoint]

theorem toRep_hasDeriv {F : ℝ → Frame} {J : ℝ → Jac} {qd : ℕ → ℝ} {τ : ℝ} {N : ℕ} (hJ : ∀ t, (J t).length = N)
    (hF : (F τ).IsProper) (hT : Frame.HasTwist F (dsum qd (J τ) 0) τ) (k : ℕ)
    (hc : Twist.HasDeriv (fun t => (J t).getD k 0)
      (colDot 0 (dsum (lo qd k) (J τ) 0) (dsum (hi qd k) (J τ) 0) ((J τ).getD k 0)) τ) (r : JacRep) :
    Twist.HasDeriv (fun t => (toRep r (F t) (J t)).getD k 0) (pdSum r (toRep r (F τ) (J τ)) qd k N) τ := by
  have hM : (F τ).M.IsProper := hF
  cases r with
  | hybrid =>
    simp only [toRep]
    rw [pdSum_hybrid _ _ _ _ (hJ τ).ge, List.take_of_length_le (hJ τ).le]
    exact hc
  | bodyFixed =>
    simp only [toRep]
    rw [pdSum_bodyFixed _ _ _ _ (by simp [Jac.changeBase, hJ]), List.take_of_length_le (by simp [Jac.changeBase, hJ])]
    simp only [dsum_changeBase, getD_changeBase]
    refine ⟨(hT.rot.invApp hc.vel hM).congr_deriv ?_, (hT.rot.invApp hc.rot hM).congr_deriv ?_⟩
    · generalize dsum (lo qd k) (J τ) 0 = A
      generalize dsum (hi qd k) (J τ) 0 = B
      generalize dsum qd (J τ) 0 = E
      generalize (J τ).getD k 0 = c
      generalize hR : (F τ).M.inv = R
      have hRp : R.IsProper := hR ▸ hM.inv
      show R * ((0 + A.rot) * c.vel + c.rot * B.vel - E.rot * c.vel) =
        ((0 + R * A.rot) * (R * c.vel) + (R * c.rot) * (R * B.vel)) - (R * E.rot) * (R * c.vel)
      rw [zero_add, zero_add, hRp.cross, hRp.cross, hRp.cross, ← Rot.app_add, ← Rot.app_sub]
    · generalize dsum (lo qd k) (J τ) 0 = A
      generalize dsum (hi qd k) (J τ) 0 = B
      generalize dsum qd (J τ) 0 = E
      generalize (J τ).getD k 0 = c
      generalize hR : (F τ).M.inv = R
      have hRp : R.IsProper := hR ▸ hM.inv
      show R * ((0 + A.rot) * c.rot - E.rot * c.rot) = (0 + R * A.rot) * (R * c.rot) - (R * E.rot) * (R * c.rot)
      rw [zero_add, zero_add, hRp.cross, hRp.cross, ← Rot.app_sub]
  | inertial =>
    simp only [toRep]
    rw [pdSum_inertial _ _ _ _ (by simp [Jac.changeRefPoint, hJ]),
      List.take_of_length_le (by simp [Jac.changeRefPoint, hJ])]
    simp only [dsum_changeRefPoint, getD_changeRefPoint]
    have hsum := dsum_lo_add_hi qd k (J τ) 0
    refine ⟨(hc.vel.add (hc.rot.cross hT.vel.neg)).congr_deriv ?_, hc.rot.congr_deriv ?_⟩
    · rw [← hsum]
      generalize dsum (lo qd k) (J τ) 0 = A
      generalize dsum (hi qd k) (J τ) 0 = B
      generalize (J τ).getD k 0 = c
      ext <;> simp [colDot, Twist.refPoint] <;> ring
    · simp [colDot, Twist.refPoint]

/-- The main theorem.  For a solver without locked joints, in each representation: no undefined behaviour, the reported
matrix has one column per joint, and column `i` is the time derivative, along every differentiable joint motion, of
column `i` of the Jacobian in that representation. -/
theorem C28_jacDot_partial (c : Chain) (hc : c.WF) (hv : c.Valid) (st : JacDotState) (hst : st.Fresh c)
    (Q : ℝ → List ℝ) (qd : List ℝ) (τ : ℝ) (jdot J0 : Jac) (k : ℤ)
    (hQ : ∀ t, (Q t).length = c.nrOfJoints) (hqd : qd.length = c.nrOfJoints)
    (hd : ∀ j, HasDerivAt (fun t => (Q t).getD j 0) (qd.getD j 0) τ)
    (hjd : jdot.length = c.nrOfJoints) (hJ0 : J0.length = c.nrOfJoints) (hk : segmentNr c k ≤ c.nrOfSegments) :
    ∃ (J : ℝ → Jac) (F : ℝ → Frame) (D : Jac),
      (∀ t, jntToJac c (List.replicate c.nrOfJoints false) (Q t) J0 k = some (E_NOERROR, J t)) ∧
      (∀ t, fkPos c (Q t) k = some (E_NOERROR, F t)) ∧
      jntToJacDot c st (Q τ) qd jdot k = some (E_NOERROR, D) ∧ D.length = c.nrOfJoints ∧
      ∀ i, Twist.HasDeriv (fun t => (toRep st.rep (F t) (J t)).getD i 0) (D.getD i 0) τ := by
  set n := segmentNr c k with hn
  set ss := c.segments.take n with hss
  set N := c.nrOfJoints with hN
  have hb : nMoving ss ≤ N := by rw [hN, hc.2]; exact nMoving_take_le _ _
  have hvs : ∀ s ∈ ss, s.Valid := fun s hs => hv s (List.mem_of_mem_take hs)
  let J : ℝ → Jac := fun t => colsF (rd (Q t)) ss 0 1 ++ List.replicate (N - nMoving ss) 0
  let F : ℝ → Frame := fun t => fkF (rd (Q t)) ss 0
  have hJl : ∀ t, (J t).length = N := by intro t; simp [J, colsF_length]; omega
  have hdJ : ∀ (w : ℕ → ℝ) t, dsum w (J t) 0 = dsum w (colsF (rd (Q t)) ss 0 1) 0 := by
    intro w t; simp only [J]; rw [dsum_append, dsum_zeros, add_zero]
  have hFp : ∀ t, (F t).IsProper := fun t => isProper_fkF _ _ _ hvs
  have hone : Frame.HasTwist (fun _ => (1 : Frame)) 0 τ := ⟨Vec.HasDeriv.const 0, Rot.HasAngVel.const 1⟩
  have hFt : Frame.HasTwist F (dsum (rd qd) (J τ) 0) τ := by
    have := hone.mul_fkF Frame.IsProper.one (Q := fun t => rd (Q t)) (qd := rd qd) hd ss hvs 0
    simp only [one_mul] at this
    rw [Twist.zero_refPoint, zero_add] at this
    rw [hdJ]; exact this
  have hcol : ∀ i, Twist.HasDeriv (fun t => (J t).getD i 0)
      (colDot 0 (dsum (lo (rd qd) i) (J τ) 0) (dsum (hi (rd qd) i) (J τ) 0) ((J τ).getD i 0)) τ := by
    intro i
    by_cases hi : i < nMoving ss
    · have hg : ∀ t, (J t).getD i 0 = (colsF (rd (Q t)) ss 0 1).getD i 0 := by
        intro t
        simp only [J, List.getD_eq_getElem?_getD]
        rw [List.getElem?_append_left (by rw [colsF_length]; exact hi)]
      simp only [hg, hdJ]
      exact colsF_hasDeriv (Q := fun t => rd (Q t)) (qd := rd qd) hd ss 0 (fun _ => 1) 0 hvs
        (fun _ => Frame.IsProper.one) hone i (by omega) (by omega)
    · have hg : ∀ t, (J t).getD i 0 = 0 := by
        intro t
        simp only [J, List.getD_eq_getElem?_getD]
        rw [List.getElem?_append_right (by rw [colsF_length]; omega), List.getElem?_replicate]
        split_ifs <;> rfl
      simp only [hg]
      refine Twist.HasDeriv.congr_deriv (a := 0) ⟨Vec.HasDeriv.const _, Vec.HasDeriv.const _⟩ ?_
      ext <;> simp [colDot]
  have hmain := fun i => toRep_hasDeriv hJl (hFp τ) hFt i (hcol i) st.rep
  have hrepl : (toRep st.rep (F τ) (J τ)).length = N := by
    cases st.rep <;> simp [toRep, Jac.changeBase, Jac.changeRefPoint, hJl]
  have hfk : ∀ t, fkPos c (Q t) k = some (E_NOERROR, F t) := by
    intro t
    rw [C25_fk c hc, if_neg (by simp [hQ, hN]), if_neg (by omega), ← fkF_eq_spec c _ _ (by rw [← hc.1]; exact hk)]
  have hloop := jacDotLoop_eq st.rep (toRep st.rep (F τ) (J τ)) st.locked qd N
    (by intro i hi; rw [hst.locked]; simp [List.getElem?_replicate]; omega) hrepl hqd ss [] N (by simp) hb
  refine ⟨J, F, (List.range' 0 (nMoving ss)).map (fun k => pdSum st.rep (toRep st.rep (F τ) (J τ)) (rd qd) k N) ++
    List.replicate (N - nMoving ss) 0, ?_, hfk, ?_, ?_, ?_⟩
  · intro t; exact jntToJac_unlocked c hc (Q t) J0 k (hQ t) hJ0 hk
  · unfold jntToJacDot
    rw [if_neg (by simp [hst.locked])]
    simp only [← hn]
    rw [if_neg (by simp [hQ, hst.nr, hjd, hN]), if_neg (by omega)]
    have hnn : segmentNr c (n : ℤ) = n := segmentNr_ofNat c n
    rw [hst.jacLocked, jntToJac_unlocked c hc (Q τ) st.jac n (hQ τ) hst.jac (by rw [hnn]; exact hk), hnn]
    have hfk' : fkPos c (Q τ) n = some (E_NOERROR, F τ) := by
      rw [← hfk τ]; unfold fkPos; rw [hnn]
    rw [hfk']
    simp only [Option.bind_eq_bind, Option.bind_some]
    rw [if_neg (by simp), if_neg (by simp)]
    have hz : jdot.setToZero = List.replicate N 0 := by simp [Jac.setToZero, hjd]
    rw [hz]
    simp only [List.length_nil, List.nil_append] at hloop
    rw [hloop]
    rfl
  · simp; omega
  · intro i
    refine (hmain i).congr_deriv ?_
    by_cases hi : i < nMoving ss
    · rw [List.getD_eq_getElem?_getD, List.getElem?_append_left (by simpa using hi)]
      simp [hi]
    · have h0 : (toRep st.rep (F τ) (J τ)).getD i 0 = 0 := by
        have hg : (J τ).getD i 0 = 0 := by
          simp only [J, List.getD_eq_getElem?_getD]
          rw [List.getElem?_append_right (by rw [colsF_length]; omega), List.getElem?_replicate]
          split_ifs <;> rfl
        cases st.rep
        · exact hg
        · simp only [toRep, getD_changeBase, hg]; ext <;> simp
        · simp only [toRep, getD_changeRefPoint, hg, Twist.zero_refPoint]
      have hpd : ∀ (r : JacRep) (x : Twist) (a b : ℕ), pd r x 0 a b = 0 := by
        intro r x a b
        cases r <;> simp only [pd, pdHybrid, pdBodyFixed, pdInertial] <;> split_ifs <;> ext <;> simp
      have : pdSum st.rep (toRep st.rep (F τ) (J τ)) (rd qd) i N = 0 := by
        unfold pdSum
        simp only [h0, hpd, smul_zero]
        simp
      rw [this, List.getD_eq_getElem?_getD, List.getElem?_append_right (by simp; omega), List.getElem?_replicate]
      split_ifs <;> rfl

/-- The twist overload reports `J̇ q̇`. -/
theorem C28_twist (c : Chain) (st : JacDotState) (q qd : List ℝ) (k : ℤ) (D : Jac)
    (h : jntToJacDot c st q qd st.jacDot k = some (E_NOERROR, D)) (hD : D.length = qd.length) :
    jntToJacDotTwist c st q qd k = some (E_NOERROR, multiplyJacobian D qd) := by
  unfold jntToJacDotTwist
  rw [h, multiplyJacobian_eq D qd hD]
  simp only [Option.bind_eq_bind, Option.bind_some]
  rw [if_neg (by simp), multiplyJacobian_eq D qd hD]
  rfl

/-- Error outcomes that the code does check. -/
theorem C28_errors (c : Chain) (st : JacDotState) (q qd : List ℝ) (jdot : Jac) (k : ℤ) :
    (st.locked.length ≠ c.nrOfJoints → jntToJacDot c st q qd jdot k = some (E_NOT_UP_TO_DATE, jdot)) ∧
    (st.locked.length = c.nrOfJoints → (q.length ≠ c.nrOfJoints ∨ st.nrUnlocked ≠ jdot.length) →
      jntToJacDot c st q qd jdot k = some (E_SIZE_MISMATCH, jdot.setToZero)) ∧
    (st.locked.length = c.nrOfJoints → q.length = c.nrOfJoints → st.nrUnlocked = jdot.length →
      segmentNr c k > c.nrOfSegments → jntToJacDot c st q qd jdot k = some (E_OUT_OF_RANGE, jdot.setToZero)) := by
  refine ⟨?_, ?_, ?_⟩
  · intro h; unfold jntToJacDot; rw [if_pos h]
  · intro h h'; unfold jntToJacDot; rw [if_neg (by simp [h])]; simp only; rw [if_pos h']
  · intro h h1 h2 h3; unfold jntToJacDot; rw [if_neg (by simp [h])]; simp only
    rw [if_neg (by simp [h1, h2]), if_pos h3]

/-- `setLockedJoints` takes a list with one entry per joint, counts the unlocked ones and rejects every other list without
effect. -/
theorem C28_setLocked (st : JacDotState) (b : List Bool) :
    (b.length = st.locked.length → st.setLocked b = (E_NOERROR, { st with locked := b, nrUnlocked := b.count false })) ∧
    (b.length ≠ st.locked.length → st.setLocked b = (E_SIZE_MISMATCH, st)) := by
  refine ⟨fun h => ?_, fun h => ?_⟩
  · unfold JacDotState.setLocked
    rw [if_neg (by simp [h])]
    have : b.countP (fun b => !b) = b.count false := by
      unfold List.count
      congr 1
      funext x
      cases x <;> rfl
    rw [this]
  · unfold JacDotState.setLocked
    rw [if_pos h]
example (c : Chain) : ((JacDotState.init c).setLocked (List.replicate c.nrOfJoints true)).2.nrUnlocked = 0 := by
  rw [(C28_setLocked _ _).1 (by simp [JacDotState.init])]
  simp [List.count_replicate]

/-- Locked joints do not select columns: once any joint is locked, a request for the whole chain is never answered —
every destination is either rejected or overrun. -/
theorem C28_locked_violated (c : Chain) (hc : c.WF) (st : JacDotState) (hst : st.Fresh c) (b : List Bool)
    (hb : b.length = c.nrOfJoints) (hl : true ∈ b) (q qd : List ℝ) (hq : q.length = c.nrOfJoints) (jdot : Jac) :
    jntToJacDot c (st.setLocked b).2 q qd jdot (-1) = none ∨
    jntToJacDot c (st.setLocked b).2 q qd jdot (-1) = some (E_SIZE_MISMATCH, jdot.setToZero) := by
  have hset : st.setLocked b = (E_NOERROR, { st with locked := b, nrUnlocked := b.countP (fun x => !x) }) := by
    unfold JacDotState.setLocked
    rw [if_neg (by simp [hst.locked, hb])]
  rw [hset]
  have hlt : b.countP (fun x => !x) < c.nrOfJoints := by
    rw [← hb]
    refine lt_of_le_of_ne List.countP_le_length ?_
    intro h
    rw [List.countP_eq_length] at h
    have := h true hl
    simp at this
  have hsn : segmentNr c (-1) = c.nrOfSegments := by simp [segmentNr]
  by_cases hj : b.countP (fun x => !x) = jdot.length
  · left
    have hnn : segmentNr c (c.nrOfSegments : ℤ) = c.nrOfSegments := segmentNr_ofNat c _
    unfold jntToJacDot
    simp only [hsn]
    rw [if_neg (by simp [hb]), if_neg (by simp [hq, hj]), if_neg (by simp), hst.jacLocked,
      jntToJac_unlocked c hc q st.jac c.nrOfSegments hq hst.jac (by rw [hnn]), hnn, C25_fk c hc, hnn,
      if_neg (by simp [hq]), if_neg (by simp)]
    simp only [Option.bind_eq_bind, Option.bind_some]
    rw [if_neg (by simp), if_neg (by simp)]
    rw [Option.bind_eq_none_iff]
    intro D hD
    exfalso
    have := jacDotLoop_room _ _ _ _ _ _ _ _ _ hD (by omega)
    have hall : c.segments.take c.nrOfSegments = c.segments := by rw [hc.1]; simp
    rw [hall, ← hc.2] at this
    simp [Jac.setToZero] at this
    omega
  · right
    exact (C28_errors c _ q qd jdot (-1)).2.1 hb (Or.inr hj)

/-- The size of `qdot` is not checked: a short rate array is read past its end instead of being reported. -/
theorem C28_qdot_violated : ∃ (c : Chain) (q : List ℝ) (jdot : Jac), c.Reach ∧ q.length = c.nrOfJoints ∧
    jdot.length = c.nrOfJoints ∧ jntToJacDot c (JacDotState.init c) q [] jdot (-1) = none := by
  refine ⟨Chain.empty.addSegment ⟨"a", ⟨"j", .RotZ, 1, 0, 0, 0, 0, 0, 0⟩, RBI.zero, 1⟩, [0], [0],
    .addSegment _ .empty, rfl, rfl, ?_⟩
  rfl

/-- Non-vacuity: a unit link turning at unit rate: the hybrid Jacobian column `(0,1,0)` moves with `(-1,0,0)`. -/
example : ∃ (c : Chain) (D : Jac), c.Reach ∧
    jntToJacDot c (JacDotState.init c) [0] [1] [0] (-1) = some (E_NOERROR, D) ∧ D = [⟨⟨-1, 0, 0⟩, 0⟩] := by
  refine ⟨Chain.empty.addSegment ⟨"a", ⟨"j", .RotZ, 1, 0, 0, 0, 0, 0, 0⟩, RBI.zero, Frame.ofVec ⟨1, 0, 0⟩⟩,
    _, .addSegment _ .empty, rfl, ?_⟩
  simp [toRep, JacDotState.init, pd, pdHybrid, Jac.setToZero, Jac.changeRefPoint, Segment.twist, Joint.twist,
    Segment.pose, Joint.pose, Frame.ofVec, Frame.ofRot, Twist.ext_iff, Vec.ext_iff, Rot.rotZ]

end KDL
