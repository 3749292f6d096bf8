import Verif.Lemmas.ChainKin
import Verif.Props.ChainOps

/-! C25 (forward position), C26 (forward velocity), C27 (Jacobian). -/

noncomputable section
namespace KDL
open Real

/-! ## C25 -/

/-- Specification: pose of the `i`-th segment of the chain; a moving segment takes the joint value whose index is the
number of moving segments before it. -/
def segPoseSpec (c : Chain) (q : List ℝ) (i : ℕ) : Frame :=
  match c.segments[i]? with
  | some s => s.pose (if s.moving then q.getD (nMoving (c.segments.take i)) 0 else 0)
  | none => 1
/-- Specification: ordered product of the first `n` segment poses. -/
def fkSpec (c : Chain) (q : List ℝ) (n : ℕ) : Frame := ((List.range n).map (segPoseSpec c q)).prod

theorem fkF_eq_spec (c : Chain) (q : List ℝ) (n : ℕ) (hn : n ≤ c.segments.length) :
    fkF (rd q) (c.segments.take n) 0 = fkSpec c q n := by
  induction n with
  | zero => simp [fkF, fkSpec]
  | succ n ih =>
    have hlt : n < c.segments.length := by omega
    rw [List.take_succ_eq_append_getElem hlt, fkF_append, ih (by omega)]
    unfold fkSpec
    rw [List.range_succ, List.map_append, List.prod_append]
    congr 1
    simp only [fkF, List.map_cons, List.map_nil, List.prod_cons, List.prod_nil, mul_one, segPoseSpec,
      List.getElem?_eq_getElem hlt, rd, Nat.zero_add]
    split_ifs <;> rfl

theorem segmentNr_ofNat (c : Chain) (n : ℕ) : segmentNr c (n : ℤ) = n := by
  simp [segmentNr]

/-- Full behaviour of the single-frame solver: never undefined, and the three outcomes. -/
theorem C25_fk (c : Chain) (hc : c.WF) (q : List ℝ) (k : ℤ) :
    fkPos c q k = some (
      if q.length ≠ c.nrOfJoints then (E_SIZE_MISMATCH, 1)
      else if segmentNr c k > c.nrOfSegments then (E_OUT_OF_RANGE, 1)
      else (E_NOERROR, fkSpec c q (segmentNr c k))) := by
  unfold fkPos
  split_ifs with h1 h2
  · rfl
  · simp only; rw [if_pos h2]
  · push Not at h1 h2
    simp only
    rw [if_neg (by omega)]
    have hb : nMoving (c.segments.take (segmentNr c k)) ≤ q.length := by
      rw [h1, hc.2]; exact nMoving_take_le _ _
    rw [fkLoop_eq q _ 0 1 (by omega), one_mul, fkF_eq_spec c q _ (by rw [← hc.1]; exact h2)]
    rfl
/-- A negative segment number means the whole chain. -/
theorem C25_negative (c : Chain) (q : List ℝ) (k : ℤ) (hk : k < 0) : fkPos c q k = fkPos c q c.nrOfSegments := by
  have : segmentNr c k = segmentNr c c.nrOfSegments := by rw [segmentNr_ofNat]; simp [segmentNr, hk]
  unfold fkPos; rw [this]
/-- The result is a proper frame. -/
theorem C25_proper (c : Chain) (hv : c.Valid) (q : List ℝ) (n : ℕ) (hn : n ≤ c.segments.length) :
    (fkSpec c q n).IsProper := by
  rw [← fkF_eq_spec c q n hn]
  exact isProper_fkF _ _ _ (fun s hs => hv s (List.mem_of_mem_take hs))
/-- One more segment multiplies on the right. -/
theorem C25_succ (c : Chain) (q : List ℝ) (n : ℕ) : fkSpec c q (n + 1) = fkSpec c q n * segPoseSpec c q n := by
  simp [fkSpec, List.range_succ]

theorem fkAllLoop_eq (q : List ℝ) : ∀ (ss : List Segment) (j : ℕ) (p : Frame), j + nMoving ss ≤ q.length →
    ∃ l, fkAllLoop q ss j p = some l ∧ l.length = ss.length ∧
      ∀ i, i < ss.length → l[i]? = some (p * fkF (rd q) (ss.take (i + 1)) j) := by
  intro ss
  induction ss with
  | nil => intro j p _; exact ⟨[], rfl, rfl, by simp⟩
  | cons s ss ih =>
    intro j p h
    rw [nMoving_cons] at h
    unfold fkAllLoop
    by_cases hm : s.moving
    · rw [if_pos hm] at h ⊢
      rw [getElem?_eq_rd (by omega)]
      simp only [Option.bind_eq_bind, Option.bind_some]
      obtain ⟨l, h1, h2, h3⟩ := ih (j + 1) (p * s.pose (rd q j)) (by omega)
      refine ⟨_, by rw [h1]; rfl, by simp [h2], ?_⟩
      intro i hi
      cases i with
      | zero => simp [fkF, hm]
      | succ i =>
        simp only [List.length_cons, add_lt_add_iff_right] at hi
        simp [h3 i hi, fkF, hm, mul_assoc]
    · rw [if_neg hm] at h ⊢
      simp only [Option.bind_eq_bind]
      obtain ⟨l, h1, h2, h3⟩ := ih j (p * s.pose 0) h
      refine ⟨_, by rw [h1]; rfl, by simp [h2], ?_⟩
      intro i hi
      cases i with
      | zero => simp [fkF, hm]
      | succ i =>
        simp only [List.length_cons, add_lt_add_iff_right] at hi
        simp [h3 i hi, fkF, hm, mul_assoc]

/-- The all-frames overload: `-1` exactly in the error cases (including an empty request), otherwise entry `i` is what
the single-frame overload computes for `i+1` segments. -/
theorem C25_all (c : Chain) (hc : c.WF) (q : List ℝ) (m : ℕ) (k : ℤ) :
    (q.length = c.nrOfJoints ∧ segmentNr c k ≤ c.nrOfSegments ∧ m = segmentNr c k ∧ segmentNr c k ≠ 0 →
      ∃ l, fkPosAll c q m k = some (0, some l) ∧ l.length = m ∧
        ∀ i, i < m → ∃ F, l[i]? = some F ∧ fkPos c q ((i + 1 : ℕ) : ℤ) = some (E_NOERROR, F)) ∧
    (¬ (q.length = c.nrOfJoints ∧ segmentNr c k ≤ c.nrOfSegments ∧ m = segmentNr c k ∧ segmentNr c k ≠ 0) →
      fkPosAll c q m k = some (-1, none)) := by
  constructor
  · rintro ⟨h1, h2, h3, h4⟩
    subst h3
    set n := segmentNr c k with hn
    have hlen : n ≤ c.segments.length := by rw [← hc.1]; exact h2
    have hb : nMoving (c.segments.take n) ≤ q.length := by
      rw [h1, hc.2]; exact nMoving_take_le _ _
    have hfk : ∀ i, i < n → fkPos c q ((i + 1 : ℕ) : ℤ) =
        some (E_NOERROR, fkF (rd q) ((c.segments.take n).take (i + 1)) 0) := by
      intro i hi
      rw [C25_fk c hc, segmentNr_ofNat, if_neg (by simp [h1]), if_neg (by omega),
        ← fkF_eq_spec c q (i + 1) (by omega), List.take_take, min_eq_left (by omega)]
    unfold fkPosAll
    simp only [← hn]
    rw [if_neg (by simp [h1]), if_neg (by omega), if_neg (by simp), if_neg h4]
    have hne : (c.segments.take n).length = n := by simp [hlen]
    generalize hl : c.segments.take n = l0 at hne hb hfk
    cases l0 with
    | nil => simp at hne; omega
    | cons s ss =>
      simp only
      simp only [List.length_cons] at hne
      rw [nMoving_cons] at hb
      by_cases hm : s.moving
      · rw [if_pos hm] at hb ⊢
        rw [getElem?_eq_rd (by omega)]
        simp only [Option.bind_eq_bind, Option.bind_some]
        obtain ⟨l, e1, e2, e3⟩ := fkAllLoop_eq q ss 1 (s.pose (rd q 0)) (by omega)
        refine ⟨_, by rw [e1]; rfl, by simp [e2]; omega, ?_⟩
        intro i hi
        refine ⟨_, ?_, hfk i hi⟩
        cases i with
        | zero => simp [fkF, hm]
        | succ i => simp [e3 i (by omega), fkF, hm]
      · rw [if_neg hm] at hb ⊢
        simp only [Option.bind_eq_bind]
        obtain ⟨l, e1, e2, e3⟩ := fkAllLoop_eq q ss 0 (s.pose 0) (by omega)
        refine ⟨_, by rw [e1]; rfl, by simp [e2]; omega, ?_⟩
        intro i hi
        refine ⟨_, ?_, hfk i hi⟩
        cases i with
        | zero => simp [fkF, hm]
        | succ i => simp [e3 i (by omega), fkF, hm]
  · intro h
    unfold fkPosAll
    simp only
    split_ifs with a1 a2 a3 a4
    · rfl
    · rfl
    · rfl
    · rfl
    · exfalso; apply h; push Not at a1 a2 a3; exact ⟨a1, a2, a3, a4⟩

/-- Concatenated chains compose. -/
theorem C25_addChain (c d e : Chain) (hc : c.WF) (hd : d.WF) (he : c.addChain d = some e) (qc qd : List ℝ)
    (h1 : qc.length = c.nrOfJoints) :
    fkSpec e (qc ++ qd) e.nrOfSegments = fkSpec c qc c.nrOfSegments * fkSpec d qd d.nrOfSegments := by
  obtain ⟨e', h3, h4, h5, h6⟩ := C24_addChain c d hc hd
  rw [h3] at he; cases he
  have hall : ∀ x : Chain, x.WF → x.segments.take x.nrOfSegments = x.segments := by
    intro x hx; rw [hx.1]; simp
  have hee : e.nrOfSegments = e.segments.length := by rw [h5, h4, List.length_append, hc.1, hd.1]
  rw [← fkF_eq_spec e _ _ hee.le, ← fkF_eq_spec c qc _ hc.1.le, ← fkF_eq_spec d qd _ hd.1.le, hall c hc, hall d hd,
    hee, List.take_length, h4, fkF_append]
  congr 1
  · refine fkF_congr _ _ _ _ ?_
    intro i _ hi
    rw [Nat.zero_add, ← hc.2, ← h1] at hi
    simp [rd, List.getElem?_append_left hi]
  · have hj : nMoving c.segments = qc.length := by rw [h1, hc.2]
    rw [Nat.zero_add, hj]
    suffices H : ∀ (ss : List Segment) (j : ℕ),
        fkF (rd (qc ++ qd)) ss (qc.length + j) = fkF (rd qd) ss j by simpa using H d.segments 0
    intro ss
    induction ss with
    | nil => intro j; rfl
    | cons s ss ih =>
      intro j
      unfold fkF
      rw [show qc.length + j + 1 = qc.length + (j + 1) by omega, ih, ih]
      simp [rd, List.getElem?_append_right]

/-- Non-vacuity: two perpendicular unit links driven by one joint. -/
example : ∃ (c : Chain) (q : List ℝ), c.Reach ∧ fkPos c q (-1) = some (E_NOERROR, ⟨Rot.rotZ 0, ⟨1, 1, 0⟩⟩) := by
  refine ⟨(Chain.empty.addSegment ⟨"a", ⟨"j", .RotZ, 1, 0, 0, 0, 0, 0, 0⟩, RBI.zero, Frame.ofVec ⟨1, 0, 0⟩⟩).addSegment
    ⟨"b", ⟨"j", .Fixed, 1, 0, 0, 0, 0, 0, 0⟩, RBI.zero, Frame.ofVec ⟨0, 1, 0⟩⟩, [0],
    .addSegment _ (.addSegment _ .empty), ?_⟩
  simp [fkPos, segmentNr, Chain.empty, Chain.addSegment, Segment.moving, Joint.moving, fkLoop, Segment.pose, Joint.pose,
    Frame.ofVec, Frame.ofRot]
  ext <;> simp [Rot.rotZ]

/-! ## C26 -/

/-- Velocity kinematics: same validity conditions; the frame is the position solver's, and the twist is the derivative
of the position solver's frame along every differentiable joint motion through `(q, qdot)`. -/
theorem C26_fkVel (c : Chain) (hc : c.WF) (hv : c.Valid) (Q : ℝ → List ℝ) (qd : List ℝ) (τ : ℝ)
    (hQ : ∀ t, (Q t).length = c.nrOfJoints) (hqd : qd.length = c.nrOfJoints)
    (hd : ∀ j, HasDerivAt (fun t => (Q t).getD j 0) (qd.getD j 0) τ) (k : ℤ) (hk : segmentNr c k ≤ c.nrOfSegments) :
    ∃ (F : ℝ → Frame) (v : FrameVel), (∀ t, fkPos c (Q t) k = some (E_NOERROR, F t)) ∧
      fkVel c (Q τ) qd k = some (E_NOERROR, v) ∧ v.getFrame = F τ ∧ Frame.HasTwist F v.getTwist τ := by
  set n := segmentNr c k with hn
  have hb : nMoving (c.segments.take n) ≤ c.nrOfJoints := by rw [hc.2]; exact nMoving_take_le _ _
  refine ⟨fun t => fkF (rd (Q t)) (c.segments.take n) 0,
    fkVelF (rd (Q τ)) (rd qd) (c.segments.take n) 0 (.ofFrame 1), ?_, ?_, ?_⟩
  · intro t
    rw [C25_fk c hc, if_neg (by simp [hQ]), if_neg (by omega), ← fkF_eq_spec c _ _ (by rw [← hc.1]; exact hk)]
  · unfold fkVel
    simp only [← hn]
    rw [if_neg (by simp [hQ, hqd]), if_neg (by omega), fkVelLoop_eq _ _ _ _ _ (by rw [hQ]; omega) (by omega)]
    rfl
  · have := fkVelF_rep (fun t => rd (Q t)) (rd qd) τ hd (c.segments.take n) 0 (.ofFrame 1) (fun _ => 1)
      (fun s hs => hv s (List.mem_of_mem_take hs)) ⟨C18_rot_const 1, C18_vec_const 0⟩ Frame.IsProper.one
    simp only [one_mul] at this
    exact C18_frame_getTwist this
/-- Error outcomes of the velocity solver. -/
theorem C26_errors (c : Chain) (q qd : List ℝ) (k : ℤ) :
    (¬ (q.length = c.nrOfJoints ∧ qd.length = c.nrOfJoints) →
      fkVel c q qd k = some (E_SIZE_MISMATCH, .ofFrame 1)) ∧
    (q.length = c.nrOfJoints ∧ qd.length = c.nrOfJoints → segmentNr c k > c.nrOfSegments →
      fkVel c q qd k = some (E_OUT_OF_RANGE, .ofFrame 1)) := by
  constructor
  · intro h; unfold fkVel; rw [if_pos h]
  · intro h h'; unfold fkVel; simp only; rw [if_neg (not_not.mpr h), if_pos h']

theorem fkVelAllLoop_eq (q qd : List ℝ) : ∀ (ss : List Segment) (j : ℕ) (p : FrameVel),
    j + nMoving ss ≤ q.length → j + nMoving ss ≤ qd.length →
    ∃ l, fkVelAllLoop q qd ss j p = some l ∧ l.length = ss.length ∧
      ∀ i, i < ss.length → l[i]? = some (fkVelF (rd q) (rd qd) (ss.take (i + 1)) j p) := by
  intro ss
  induction ss with
  | nil => intro j p _ _; exact ⟨[], rfl, rfl, by simp⟩
  | cons s ss ih =>
    intro j p h h'
    rw [nMoving_cons] at h h'
    unfold fkVelAllLoop
    by_cases hm : s.moving
    · rw [if_pos hm] at h h' ⊢
      rw [getElem?_eq_rd (by omega), getElem?_eq_rd (q := qd) (by omega)]
      simp only [Option.bind_eq_bind, Option.bind_some]
      obtain ⟨l, h1, h2, h3⟩ := ih (j + 1) (p.mul (.ofTwist (s.pose (rd q j)) (s.twist (rd q j) (rd qd j))))
        (by omega) (by omega)
      refine ⟨_, by rw [h1]; rfl, by simp [h2], ?_⟩
      intro i hi
      cases i with
      | zero => simp [fkVelF, hm]
      | succ i =>
        simp only [List.length_cons, add_lt_add_iff_right] at hi
        simp [h3 i hi, fkVelF, hm]
    · rw [if_neg hm] at h h' ⊢
      simp only [Option.bind_eq_bind]
      obtain ⟨l, h1, h2, h3⟩ := ih j (p.mul (.ofTwist (s.pose 0) (s.twist 0 0))) h h'
      refine ⟨_, by rw [h1]; rfl, by simp [h2], ?_⟩
      intro i hi
      cases i with
      | zero => simp [fkVelF, hm]
      | succ i =>
        simp only [List.length_cons, add_lt_add_iff_right] at hi
        simp [h3 i hi, fkVelF, hm]

/-- The first segment of the all-frames velocity solver is not multiplied onto the identity; the value is the same. -/
theorem FrameVel.one_mul_ofTwist (F : Frame) (t : Twist) :
    (FrameVel.ofFrame 1).mul (.ofTwist F t) = .ofTwist F t := by
  ext <;> simp [FrameVel.mul, FrameVel.ofFrame, FrameVel.ofTwist, RotVel.mul, RotVel.app, VecVel.add, RotVel.ofRot,
    VecVel.ofVec]

/-- The all-frames velocity overload agrees with the single-frame one. -/
theorem C26_all (c : Chain) (hc : c.WF) (q qd : List ℝ) (k : ℤ) (h1 : q.length = c.nrOfJoints)
    (h1' : qd.length = c.nrOfJoints) (h2 : segmentNr c k ≤ c.nrOfSegments) (h4 : segmentNr c k ≠ 0) :
    ∃ l, fkVelAll c q qd (segmentNr c k) k = some (0, some l) ∧ l.length = segmentNr c k ∧
      ∀ i, i < segmentNr c k → ∃ F, l[i]? = some F ∧ fkVel c q qd ((i + 1 : ℕ) : ℤ) = some (E_NOERROR, F) := by
  set n := segmentNr c k with hn
  have hlen : n ≤ c.segments.length := by rw [← hc.1]; exact h2
  have hb : nMoving (c.segments.take n) ≤ c.nrOfJoints := by rw [hc.2]; exact nMoving_take_le _ _
  have hfk : ∀ i, i < n → fkVel c q qd ((i + 1 : ℕ) : ℤ) =
      some (E_NOERROR, fkVelF (rd q) (rd qd) ((c.segments.take n).take (i + 1)) 0 (.ofFrame 1)) := by
    intro i hi
    have hbi : nMoving (c.segments.take (i + 1)) ≤ c.nrOfJoints := by rw [hc.2]; exact nMoving_take_le _ _
    unfold fkVel
    simp only [segmentNr_ofNat]
    rw [if_neg (by simp [h1, h1']), if_neg (by omega), fkVelLoop_eq _ _ _ _ _ (by omega) (by omega),
      List.take_take, min_eq_left (by omega)]
    rfl
  unfold fkVelAll
  simp only [← hn]
  rw [if_neg (by simp [h1, h1']), if_neg (by omega), if_neg (by simp), if_neg h4]
  have hne : (c.segments.take n).length = n := by simp [hlen]
  generalize hl : c.segments.take n = l0 at hne hb hfk
  cases l0 with
  | nil => simp at hne; omega
  | cons s ss =>
    simp only
    simp only [List.length_cons] at hne
    rw [nMoving_cons] at hb
    by_cases hm : s.moving
    · rw [if_pos hm] at hb ⊢
      rw [getElem?_eq_rd (by omega), getElem?_eq_rd (q := qd) (by omega)]
      simp only [Option.bind_eq_bind, Option.bind_some]
      obtain ⟨l, e1, e2, e3⟩ := fkVelAllLoop_eq q qd ss 1 (.ofTwist (s.pose (rd q 0)) (s.twist (rd q 0) (rd qd 0)))
        (by omega) (by omega)
      refine ⟨_, by rw [e1]; rfl, by simp [e2]; omega, ?_⟩
      intro i hi
      refine ⟨_, ?_, hfk i hi⟩
      cases i with
      | zero => simp [fkVelF, hm, FrameVel.one_mul_ofTwist]
      | succ i => simp [e3 i (by omega), fkVelF, hm, FrameVel.one_mul_ofTwist]
    · rw [if_neg hm] at hb ⊢
      simp only [Option.bind_eq_bind]
      obtain ⟨l, e1, e2, e3⟩ := fkVelAllLoop_eq q qd ss 0 (.ofTwist (s.pose 0) (s.twist 0 0)) (by omega) (by omega)
      refine ⟨_, by rw [e1]; rfl, by simp [e2]; omega, ?_⟩
      intro i hi
      refine ⟨_, ?_, hfk i hi⟩
      cases i with
      | zero => simp [fkVelF, hm, FrameVel.one_mul_ofTwist]
      | succ i => simp [e3 i (by omega), fkVelF, hm, FrameVel.one_mul_ofTwist]

/-- Non-vacuity: a unit link turning at rate two has tip velocity two. -/
example : ∃ (c : Chain) (v : FrameVel), c.Reach ∧ c.Valid ∧
    fkVel c [0] [2] (-1) = some (E_NOERROR, v) ∧ v.getTwist = ⟨⟨0, 2, 0⟩, ⟨0, 0, 2⟩⟩ := by
  refine ⟨Chain.empty.addSegment ⟨"a", ⟨"j", .RotZ, 1, 0, 0, 0, 0, 0, 0⟩, RBI.zero, Frame.ofVec ⟨1, 0, 0⟩⟩,
    _, .addSegment _ .empty, ?_, rfl, ?_⟩
  · intro s hs
    simp only [Chain.addSegment, Chain.empty, List.nil_append, List.mem_singleton] at hs
    subst hs
    exact ⟨by intro h; simp at h, Rot.IsProper.one⟩
  · ext <;> simp [FrameVel.getTwist, FrameVel.mul, FrameVel.ofFrame, FrameVel.ofTwist, Segment.twist, Joint.twist,
      Joint.pose, RotVel.mul, RotVel.app, VecVel.add, RotVel.ofRot, VecVel.ofVec, Frame.ofVec, Frame.ofRot, Rot.rotZ]

/-! ## C27 -/

/-- Without locked joints: no undefined behaviour, and the Jacobian times the joint rates is the tip twist of the
velocity solver — for every segment number. -/
theorem C27_jac (c : Chain) (hc : c.WF) (q qd : List ℝ) (J0 : Jac) (k : ℤ) (hq : q.length = c.nrOfJoints)
    (hqd : qd.length = c.nrOfJoints) (hJ : J0.length = c.nrOfJoints) (hk : segmentNr c k ≤ c.nrOfSegments) :
    ∃ (J : Jac) (v : FrameVel), jntToJac c (List.replicate c.nrOfJoints false) q J0 k = some (E_NOERROR, J) ∧
      J.length = c.nrOfJoints ∧ fkVel c q qd k = some (E_NOERROR, v) ∧ multiplyJacobian J qd = some v.getTwist := by
  set n := segmentNr c k with hn
  have hb : nMoving (c.segments.take n) ≤ c.nrOfJoints := by rw [hc.2]; exact nMoving_take_le _ _
  have hz : J0.setToZero = [] ++ List.replicate c.nrOfJoints 0 := by
    simp [Jac.setToZero, hJ]
  have hkeep : keep (fun i => (List.replicate c.nrOfJoints false).getD i false)
      (colsF (rd q) (c.segments.take n) 0 1) 0 = colsF (rd q) (c.segments.take n) 0 1 := by
    refine keep_false _ _ _ ?_
    intro i _ _
    simp [List.getD_eq_getElem?_getD, List.getElem?_replicate]
    split_ifs <;> rfl
  have hloop := jacLoop_eq q (List.replicate c.nrOfJoints false) (c.segments.take n) 0 1 [] c.nrOfJoints (by omega)
    (by simp; omega) (by rw [hkeep, colsF_length]; exact hb)
  rw [hkeep, colsF_length] at hloop
  have htw := fkVelF_twist (rd q) (rd qd) (c.segments.take n) 0 (.ofFrame 1)
  refine ⟨colsF (rd q) (c.segments.take n) 0 1 ++ List.replicate (c.nrOfJoints - nMoving (c.segments.take n)) 0,
    fkVelF (rd q) (rd qd) (c.segments.take n) 0 (.ofFrame 1), ?_, ?_, ?_, ?_⟩
  · unfold jntToJac
    rw [if_neg (by simp)]
    simp only [← hn]
    rw [if_neg (by simp [hq, hJ]), if_neg (by omega), hz]
    rw [show (0 : ℕ) = ([] : Jac).length from rfl] at hloop
    simp only [List.length_nil] at hloop
    rw [hloop]
    simp [Jac.changeRefPoint]
  · simp [colsF_length]; omega
  · unfold fkVel
    simp only [← hn]
    rw [if_neg (by simp [hq, hqd]), if_neg (by omega), fkVelLoop_eq _ _ _ _ _ (by omega) (by omega)]
    rfl
  · rw [multiplyJacobian_eq _ _ (by simp [colsF_length]; omega), dsum_append, dsum_zeros, add_zero, htw.2]
    have e0 : (FrameVel.ofFrame 1).getTwist = 0 := rfl
    have e1 : (FrameVel.ofFrame 1).getFrame = 1 := rfl
    rw [e0, e1, Twist.zero_refPoint, zero_add]

/-- Therefore `J qdot` is the derivative of the forward position solver: the Jacobian is the derivative. -/
theorem C27_derivative (c : Chain) (hc : c.WF) (hv : c.Valid) (Q : ℝ → List ℝ) (qd : List ℝ) (τ : ℝ) (J0 : Jac)
    (hQ : ∀ t, (Q t).length = c.nrOfJoints) (hqd : qd.length = c.nrOfJoints) (hJ : J0.length = c.nrOfJoints)
    (hd : ∀ j, HasDerivAt (fun t => (Q t).getD j 0) (qd.getD j 0) τ) (k : ℤ) (hk : segmentNr c k ≤ c.nrOfSegments) :
    ∃ (J : Jac) (F : ℝ → Frame) (t : Twist),
      jntToJac c (List.replicate c.nrOfJoints false) (Q τ) J0 k = some (E_NOERROR, J) ∧
      (∀ s, fkPos c (Q s) k = some (E_NOERROR, F s)) ∧ multiplyJacobian J qd = some t ∧ Frame.HasTwist F t τ := by
  obtain ⟨J, v, h1, _, h3, h4⟩ := C27_jac c hc (Q τ) qd J0 k (hQ τ) hqd hJ hk
  obtain ⟨F, v', h5, h6, _, h8⟩ := C26_fkVel c hc hv Q qd τ hQ hqd hd k hk
  rw [h3] at h6
  cases h6
  exact ⟨J, F, _, h1, h5, h4, h8⟩

/-- Locked joints: no column for a locked joint; the remaining columns are those of the full Jacobian, in order, moved to
the front; the tail is zero. -/
theorem C27_locked (c : Chain) (hc : c.WF) (q : List ℝ) (locked : List Bool) (J0 : Jac) (k : ℤ)
    (hq : q.length = c.nrOfJoints) (hl : locked.length = c.nrOfJoints) (hJ : J0.length = c.nrOfJoints)
    (hk : segmentNr c k ≤ c.nrOfSegments) :
    ∃ J Jl : Jac, jntToJac c (List.replicate c.nrOfJoints false) q J0 k = some (E_NOERROR, J) ∧
      jntToJac c locked q J0 k = some (E_NOERROR, Jl) ∧
      Jl = ((J.zip locked).filter (fun x => !x.2)).map (·.1) ++ List.replicate (locked.countP id) 0 := by
  set n := segmentNr c k with hn
  have hb : nMoving (c.segments.take n) ≤ c.nrOfJoints := by rw [hc.2]; exact nMoving_take_le _ _
  have hz : J0.setToZero = [] ++ List.replicate c.nrOfJoints 0 := by
    simp [Jac.setToZero, hJ]
  set C := colsF (rd q) (c.segments.take n) 0 1 with hC
  have hCl : C.length = nMoving (c.segments.take n) := colsF_length _ _ _ _
  have key : ∀ b : List Bool, b.length = c.nrOfJoints → jntToJac c b q J0 k = some (E_NOERROR,
      keep (fun i => b.getD i false) C 0 ++
        List.replicate (c.nrOfJoints - (keep (fun i => b.getD i false) C 0).length) 0) := by
    intro b hbl
    have hle := keep_length_le (fun i => b.getD i false) C 0
    have hloop := jacLoop_eq q b (c.segments.take n) 0 1 [] c.nrOfJoints (by omega)
      (by omega) (by rw [← hC]; omega)
    unfold jntToJac
    rw [if_neg (by simp [hbl])]
    simp only [← hn]
    rw [if_neg (by simp [hq, hJ]), if_neg (by omega), hz]
    simp only [List.length_nil] at hloop
    rw [hloop, ← hC]
    simp [Jac.changeRefPoint]
  have hfull : keep (fun i => (List.replicate c.nrOfJoints false).getD i false) C 0 = C := by
    refine keep_false _ _ _ ?_
    intro i _ _
    simp [List.getD_eq_getElem?_getD, List.getElem?_replicate]
    split_ifs <;> rfl
  refine ⟨_, _, key _ (by simp), key _ hl, ?_⟩
  rw [hfull, ← List.drop_zero (l := locked), ← keep_eq_filter locked _ 0 (by simp [hl]; omega), List.drop_zero,
    keep_append, List.append_assoc]
  congr 1
  have hz : ∀ (m j : ℕ), keep (fun i => locked.getD i false) (List.replicate m (0 : Twist)) j =
      List.replicate (keep (fun i => locked.getD i false) (List.replicate m (0 : Twist)) j).length 0 := by
    intro m
    induction m with
    | zero => intro j; simp [keep]
    | succ m ih =>
      intro j
      rw [List.replicate_succ]
      unfold keep
      split_ifs
      · exact ih _
      · rw [List.length_cons, List.replicate_succ]; congr 1; exact ih _
  rw [hz, ← List.replicate_add]
  congr 1
  have hcount : ∀ (α : Type) (l : List α) (j : ℕ), j + l.length = locked.length →
      (keep (fun i => locked.getD i false) l j).length + (locked.drop j).countP id = l.length := by
    intro α l
    induction l with
    | nil => intro j hj; simp only [List.length_nil, Nat.add_zero] at hj; subst hj; simp [keep]
    | cons a l ih =>
      intro j hj
      simp only [List.length_cons] at hj
      have hjl : j < locked.length := by omega
      have := ih (j + 1) (by omega)
      rw [List.drop_eq_getElem_cons hjl, List.countP_cons]
      unfold keep
      simp only [List.getD_eq_getElem?_getD, List.getElem?_eq_getElem hjl, Option.getD_some] at this ⊢
      cases locked[j] <;> simp <;> omega
  have h1 := hcount Twist (C ++ List.replicate (c.nrOfJoints - C.length) 0) 0 (by simp; omega)
  rw [keep_append, List.length_append, List.drop_zero] at h1
  simp only [List.length_append, List.length_replicate] at h1
  rw [Nat.zero_add] at h1 ⊢
  omega

/-- Error outcomes of the Jacobian solver. -/
theorem C27_errors (c : Chain) (locked : List Bool) (q : List ℝ) (J0 : Jac) (k : ℤ) :
    (locked.length ≠ c.nrOfJoints → jntToJac c locked q J0 k = some (E_NOT_UP_TO_DATE, J0)) ∧
    (locked.length = c.nrOfJoints → (q.length ≠ c.nrOfJoints ∨ J0.length ≠ c.nrOfJoints) →
      ∃ J, jntToJac c locked q J0 k = some (E_SIZE_MISMATCH, J)) ∧
    (locked.length = c.nrOfJoints → q.length = c.nrOfJoints → J0.length = c.nrOfJoints →
      segmentNr c k > c.nrOfSegments → ∃ J, jntToJac c locked q J0 k = some (E_OUT_OF_RANGE, J)) := by
  refine ⟨?_, ?_, ?_⟩
  · intro h; unfold jntToJac; rw [if_pos h]
  · intro h h'; unfold jntToJac; rw [if_neg (by simp [h])]; simp only; rw [if_pos h']; exact ⟨_, rfl⟩
  · intro h h1 h2 h3; unfold jntToJac; rw [if_neg (by simp [h])]; simp only
    rw [if_neg (by simp [h1, h2]), if_pos h3]; exact ⟨_, rfl⟩
/-- After the chain changed, `updateInternalDataStructures` makes the solver usable again and keeps earlier locks; joints
that are new are not locked. -/
theorem C27_update (c : Chain) (locked : List Bool) :
    (lockedResize locked c.nrOfJoints).length = c.nrOfJoints ∧
    (∀ i, i < locked.length → i < c.nrOfJoints → (lockedResize locked c.nrOfJoints)[i]? = locked[i]?) ∧
    ∀ i, locked.length ≤ i → i < c.nrOfJoints → (lockedResize locked c.nrOfJoints)[i]? = some false := by
  unfold lockedResize
  refine ⟨by simp; omega, ?_, ?_⟩
  · intro i h1 h2
    rw [List.getElem?_append_left (by simp; omega), List.getElem?_take_of_lt h2]
  · intro i h1 h2
    rw [List.getElem?_append_right (by simp; omega), List.getElem?_replicate, if_pos (by simp; omega)]

/-- Setting the locked joints: refused, with the old setting kept, when the solver is out of date or the size is wrong;
otherwise the setting is taken over, and the solver accepts the chain as before. -/
theorem C27_setLocked (c : Chain) (locked arg : List Bool) :
    ((setLockedJoints c locked arg).1 = E_NOERROR ↔ locked.length = c.nrOfJoints ∧ arg.length = c.nrOfJoints) ∧
    ((setLockedJoints c locked arg).1 = E_NOERROR → (setLockedJoints c locked arg).2 = arg) ∧
    ((setLockedJoints c locked arg).1 ≠ E_NOERROR → (setLockedJoints c locked arg).2 = locked) ∧
    ((setLockedJoints c locked arg).1 = E_NOT_UP_TO_DATE ↔ locked.length ≠ c.nrOfJoints) ∧
    ((setLockedJoints c locked arg).1 = E_SIZE_MISMATCH ↔ locked.length = c.nrOfJoints ∧ arg.length ≠ c.nrOfJoints) := by
  unfold setLockedJoints
  split_ifs with h1 h2
  · simp [E_NOT_UP_TO_DATE, E_NOERROR, E_SIZE_MISMATCH, h1]
  · push Not at h1
    rw [h1] at h2
    simp [E_NOT_UP_TO_DATE, E_NOERROR, E_SIZE_MISMATCH, h1, h2]
  · push Not at h1 h2
    rw [h1] at h2
    simp [E_NOT_UP_TO_DATE, E_NOERROR, E_SIZE_MISMATCH, h1, h2]

/-- Non-vacuity: the two-joint planar arm with the second joint locked has one nonzero column. -/
example : ∃ (c : Chain) (J : Jac), c.Reach ∧ jntToJac c [false, true] [0, 0] [0, 0] (-1) = some (E_NOERROR, J) ∧
    J = [⟨⟨0, 2, 0⟩, ⟨0, 0, 1⟩⟩, 0] := by
  refine ⟨(Chain.empty.addSegment ⟨"a", ⟨"j", .RotZ, 1, 0, 0, 0, 0, 0, 0⟩, RBI.zero, Frame.ofVec ⟨1, 0, 0⟩⟩).addSegment
    ⟨"b", ⟨"k", .RotZ, 1, 0, 0, 0, 0, 0, 0⟩, RBI.zero, Frame.ofVec ⟨1, 0, 0⟩⟩, _,
    .addSegment _ (.addSegment _ .empty), rfl, ?_⟩
  simp [Jac.setToZero, Jac.changeRefPoint, Segment.twist, Joint.twist, Segment.pose, Joint.pose,
    Frame.ofVec, Frame.ofRot, Twist.ext_iff, Vec.ext_iff, Rot.rotZ]
  norm_num

end KDL
