import Verif.Lemmas.ChainKin

/-! Derivatives of Jacobian columns. -/

noncomputable section
namespace KDL
open Real

theorem Twist.HasDeriv.congr_deriv {f : ℝ → Twist} {a b : Twist} {t : ℝ} (h : Twist.HasDeriv f a t) (e : a = b) :
    Twist.HasDeriv f b t := e ▸ h

/-- Weights below / from index `k`. -/
def lo (qd : ℕ → ℝ) (k : ℕ) : ℕ → ℝ := fun l => if l < k then qd l else 0
/-- See `lo`. -/
def hi (qd : ℕ → ℝ) (k : ℕ) : ℕ → ℝ := fun l => if l < k then 0 else qd l

theorem dsum_congr (f g : ℕ → ℝ) : ∀ (L : List Twist) (j : ℕ), (∀ i, j ≤ i → f i = g i) → dsum f L j = dsum g L j := by
  intro L
  induction L with
  | nil => intro j _; rfl
  | cons c L ih => intro j h; simp only [dsum]; rw [h j le_rfl, ih (j + 1) (fun i hi => h i (by omega))]

theorem dsum_zero (L : List Twist) (j : ℕ) : dsum (fun _ => 0) L j = 0 := by
  induction L generalizing j with
  | nil => rfl
  | cons c L ih => simp [dsum, ih]

theorem dsum_lo_add_hi (qd : ℕ → ℝ) (k : ℕ) (L : List Twist) (j : ℕ) :
    dsum (lo qd k) L j + dsum (hi qd k) L j = dsum qd L j := by
  induction L generalizing j with
  | nil => simp [dsum]
  | cons c L ih =>
    simp only [dsum, ← ih (j + 1), lo, hi]
    split_ifs <;> simp <;> abel

/-- Time derivative of a column in terms of the motion of the links before (`A`) and after (`B`). -/
def colDot (w : Vec) (A B c : Twist) : Twist := ⟨(w + A.rot) * c.vel + c.rot * B.vel, (w + A.rot) * c.rot⟩

theorem Joint.axis_cross (j : Joint) (x : ℝ) : (j.twist x).rot * (j.twist x).vel = 0 := by
  cases ht : j.type <;> ext <;> simp [Joint.twist, ht]

theorem Frame.HasTwist.mul_segment {T : ℝ → Frame} {tw : Twist} {τ : ℝ} (hT : Frame.HasTwist T tw τ)
    (hP : (T τ).IsProper) {s : Segment} (h : s.joint.Valid) {q : ℝ → ℝ} {q' : ℝ} (hq : HasDerivAt q q' τ) :
    Frame.HasTwist (fun t => T t * s.pose (q t))
      (tw.refPoint ((T τ * s.pose (q τ)).p - (T τ).p) + (T τ).M * s.twist (q τ) q') τ := by
  have hr : (FrameVel.ofTwist (T τ) tw).Rep T τ := ⟨⟨rfl, hT.rot⟩, ⟨rfl, hT.vel⟩⟩
  have := (C18_frame_getTwist (C18_frame_mul hP hr (rep_segment h hq))).2
  rw [FrameVel.getTwist_mul_ofTwist] at this
  exact this

theorem Frame.HasTwist.mul_fkF {T : ℝ → Frame} {tw : Twist} {τ : ℝ} (hT : Frame.HasTwist T tw τ)
    (hP : (T τ).IsProper) {Q : ℝ → ℕ → ℝ} {qd : ℕ → ℝ} (hq : JntHasDeriv Q qd τ) (ss : List Segment)
    (hv : ∀ s ∈ ss, s.Valid) (j : ℕ) :
    Frame.HasTwist (fun t => T t * fkF (Q t) ss j)
      (tw.refPoint ((T τ * fkF (Q τ) ss j).p - (T τ).p) + dsum qd (colsF (Q τ) ss j (T τ)) j) τ := by
  have hr : (FrameVel.ofTwist (T τ) tw).Rep T τ := ⟨⟨rfl, hT.rot⟩, ⟨rfl, hT.vel⟩⟩
  have := (C18_frame_getTwist (fkVelF_rep Q qd τ hq ss j _ T hv hr hP)).2
  rw [(fkVelF_twist _ _ _ _ _).2] at this
  exact this

/-- Derivative of the column contributed by a moving segment. -/
theorem col_hasDeriv {T : ℝ → Frame} {tw S : Twist} {τ : ℝ} (hT : Frame.HasTwist T tw τ)
    (hP : ∀ t, (T t).IsProper) {s : Segment} (h : s.joint.Valid) {q : ℝ → ℝ} {q' : ℝ} (hq : HasDerivAt q q' τ)
    {e : ℝ → Vec} (he : Vec.HasDeriv e (tw.vel + tw.rot * (e τ - (T τ).p) + S.vel) τ) :
    Twist.HasDeriv (fun t => ((T t).M * s.twist (q t) 1).refPoint (e t - (T t * s.pose (q t)).p))
      (colDot tw.rot 0 S (((T τ).M * s.twist (q τ) 1).refPoint (e τ - (T τ * s.pose (q τ)).p))) τ := by
  have hj := Joint.hasTwist h hq
  -- origin of the joint
  have ho : Vec.HasDeriv (fun t => (T t).M * (s.joint.pose (q t)).p + (T t).p)
      (tw.rot * ((T τ).M * (s.joint.pose (q τ)).p) + (T τ).M * (s.joint.twist q').vel + tw.vel) τ :=
    (hT.rot.app hj.vel).add hT.vel
  have har := hT.rot.app (Vec.HasDeriv.const (s.joint.twist 1).rot)
  have hav := hT.rot.app (Vec.HasDeriv.const (s.joint.twist 1).vel)
  have hc : ∀ t, ((T t).M * s.twist (q t) 1).refPoint (e t - (T t * s.pose (q t)).p) =
      ⟨(T t).M * (s.joint.twist 1).vel +
      ((T t).M * (s.joint.twist 1).rot) * (e t - ((T t).M * (s.joint.pose (q t)).p + (T t).p)),
      (T t).M * (s.joint.twist 1).rot⟩ := by
    intro t
    have e1 : (T t * s.pose (q t)).p =
        (T t).M * ((s.joint.pose (q t)).M * s.f_tip.p) + ((T t).M * (s.joint.pose (q t)).p + (T t).p) := by
      show (T t).M * ((s.joint.pose (q t)).M * s.f_tip.p + (s.joint.pose (q t)).p) + (T t).p = _
      rw [Rot.app_add]; abel
    have e2 : (T t).M * s.twist (q t) 1 = ⟨(T t).M * (s.joint.twist 1).vel + ((T t).M * (s.joint.twist 1).rot) *
        ((T t).M * ((s.joint.pose (q t)).M * s.f_tip.p)), (T t).M * (s.joint.twist 1).rot⟩ := by
      show (⟨(T t).M * ((s.joint.twist 1).vel + (s.joint.twist 1).rot * ((s.joint.pose (q t)).M * s.f_tip.p)), _⟩
        : Twist) = _
      rw [Rot.app_add, (hP t).cross]; rfl
    rw [e1, e2]
    show (⟨_ + _, _⟩ : Twist) = _
    congr 1
    rw [add_assoc, ← Vec.cross_add]
    congr 2; abel
  simp only [hc]
  have hax : (T τ).M * (s.joint.twist 1).rot * ((T τ).M * (s.joint.twist q').vel) = 0 := by
    have := Joint.twist_smul s.joint q' 1
    rw [mul_one] at this
    rw [this]
    have h0 := Joint.axis_cross s.joint 1
    show (T τ).M * (s.joint.twist 1).rot * ((T τ).M * (q' • (s.joint.twist 1).vel)) = 0
    rw [Rot.app_smul, Vec.cross_smul, (hP τ).cross, h0]; ext <;> simp
  refine ⟨(hav.add (har.cross (he.sub ho))).congr_deriv ?_, har.congr_deriv ?_⟩
  · simp only [colDot]
    generalize (T τ).M * (s.joint.twist 1).rot = r at *
    generalize (T τ).M * (s.joint.twist 1).vel = v at *
    generalize (T τ).M * (s.joint.twist q').vel = u at *
    generalize (T τ).M * (s.joint.pose (q τ)).p = o at *
    have hx := congrArg Vec.x hax
    have hy := congrArg Vec.y hax
    have hz := congrArg Vec.z hax
    simp at hx hy hz
    ext
    · simp; linear_combination -hx
    · simp; linear_combination -hy
    · simp; linear_combination -hz
  · simp [colDot]

theorem colsF_hasDeriv {Q : ℝ → ℕ → ℝ} {qd : ℕ → ℝ} {τ : ℝ} (hq : JntHasDeriv Q qd τ) :
    ∀ (ss : List Segment) (j : ℕ) (T : ℝ → Frame) (tw : Twist), (∀ s ∈ ss, s.Valid) → (∀ t, (T t).IsProper) →
      Frame.HasTwist T tw τ → ∀ k, j ≤ k → k < j + nMoving ss →
      Twist.HasDeriv (fun t => (colsF (Q t) ss j (T t)).getD (k - j) 0)
        (colDot tw.rot (dsum (lo qd k) (colsF (Q τ) ss j (T τ)) j) (dsum (hi qd k) (colsF (Q τ) ss j (T τ)) j)
          ((colsF (Q τ) ss j (T τ)).getD (k - j) 0)) τ := by
  intro ss
  induction ss with
  | nil => intro j T tw _ _ _ k h1 h2; simp [nMoving] at h2; omega
  | cons s ss ih =>
    intro j T tw hv hP hT k h1 h2
    have hs := hv s (by simp)
    have hvs : ∀ x ∈ ss, x.Valid := fun x hx => hv x (by simp [hx])
    rw [nMoving_cons] at h2
    by_cases hm : s.moving
    · rw [if_pos hm] at h2
      have hcols : ∀ (q : ℕ → ℝ) (T : Frame), colsF q (s :: ss) j T =
          (T.M * s.twist (q j) 1).refPoint ((T * fkF q (s :: ss) j).p - (T * s.pose (q j)).p)
            :: colsF q ss (j + 1) (T * s.pose (q j)) := by
        intro q T
        conv_lhs => unfold colsF
        rw [if_pos hm]
      have hend := hT.mul_fkF (hP τ) hq (s :: ss) hv j
      rcases Nat.lt_or_ge j k with hk | hk
      · have hi1 : k - j = (k - (j + 1)) + 1 := by omega
        have := ih (j + 1) (fun t => T t * s.pose (Q t j)) _ hvs
          (fun t => Frame.IsProper.mul (hP t) (Segment.isProper_pose hs _))
          (hT.mul_segment (hP τ) hs.1 (hq j)) k (by omega) (by omega)
        simp only [hcols, hi1, List.getD_cons_succ]
        refine this.congr_deriv ?_
        have elo : lo qd k j = qd j := by simp [lo, hk]
        have ehi : hi qd k j = 0 := by simp [hi, hk]
        simp only [dsum, elo, ehi, zero_smul, zero_add]
        rw [Segment.twist_eq_smul]
        simp only [colDot]
        have er : (tw.refPoint ((T τ * s.pose (Q τ j)).p - (T τ).p) + (T τ).M * (qd j • s.twist (Q τ j) 1)).rot =
          tw.rot + qd j • ((T τ).M * (s.twist (Q τ j) 1).rot) := by
          show tw.rot + (T τ).M * (qd j • (s.twist (Q τ j) 1).rot) = _
          rw [Rot.app_smul]
        rw [er, add_assoc]
        rfl
      · obtain rfl : j = k := by omega
        simp only [Nat.sub_self, hcols, List.getD_cons_zero]
        have elo : dsum (lo qd j) (colsF (Q τ) (s :: ss) j (T τ)) j = 0 := by
          rw [dsum_congr (lo qd j) (fun _ => 0) _ j (by intro i hi; simp [lo]; omega), dsum_zero]
        have ehi : dsum (hi qd j) (colsF (Q τ) (s :: ss) j (T τ)) j = dsum qd (colsF (Q τ) (s :: ss) j (T τ)) j :=
          dsum_congr _ _ _ j (by intro i hi; simp [KDL.hi]; omega)
        rw [← hcols, elo, ehi]
        exact col_hasDeriv hT hP hs.1 (hq j) hend.vel
    · rw [if_neg hm] at h2
      have hcols : ∀ (q : ℕ → ℝ) (T : Frame), colsF q (s :: ss) j T = colsF q ss j (T * s.pose 0) := by
        intro q T
        conv_lhs => unfold colsF
        rw [if_neg hm]
      simp only [hcols]
      have := ih j (fun t => T t * s.pose 0) _ hvs
          (fun t => Frame.IsProper.mul (hP t) (Segment.isProper_pose hs _))
          (hT.mul_segment (hP τ) hs.1 (q := fun _ => 0) (hasDerivAt_const τ 0)) k h1 h2
      refine this.congr_deriv ?_
      have er : (tw.refPoint ((T τ * s.pose 0).p - (T τ).p) + (T τ).M * s.twist 0 0).rot = tw.rot := by
        rw [Segment.twist_eq_smul]
        show tw.rot + (T τ).M * ((0 : ℝ) • (s.twist 0 1).rot) = _
        rw [Rot.app_smul]; simp
      simp only [colDot, er]

/-! ### The sums formed by the code -/

/-- Sum of the first `n` partial derivatives for column `k`. -/
def pdSum (r : JacRep) (J : Jac) (qd : ℕ → ℝ) (k n : ℕ) : Twist :=
  ((List.range n).map fun l => qd l • pd r (J.getD l 0) (J.getD k 0) l k).sum

theorem pdSum_succ (r : JacRep) (J : Jac) (qd : ℕ → ℝ) (k n : ℕ) :
    pdSum r J qd k (n + 1) = pdSum r J qd k n + qd n • pd r (J.getD n 0) (J.getD k 0) n k := by
  simp [pdSum, List.range_succ]

theorem dsum_succ (qd : ℕ → ℝ) (J : List Twist) (n : ℕ) (hn : n < J.length) :
    dsum qd (J.take (n + 1)) 0 = dsum qd (J.take n) 0 + qd n • J.getD n 0 := by
  rw [List.take_succ_eq_append_getElem hn, dsum_append]
  simp [dsum, List.getD_eq_getElem?_getD, List.getElem?_eq_getElem hn, Nat.min_eq_left hn.le]

/-- `A` = masked sums over the first `n` columns. -/
theorem pdSum_hybrid (J : Jac) (qd : ℕ → ℝ) (k n : ℕ) (hn : n ≤ J.length) :
    pdSum .hybrid J qd k n =
      colDot 0 (dsum (lo qd k) (J.take n) 0) (dsum (hi qd k) (J.take n) 0) (J.getD k 0) := by
  induction n with
  | zero => ext <;> simp [pdSum, dsum, colDot]
  | succ n ih =>
    rw [pdSum_succ, ih (by omega), dsum_succ _ _ _ (by omega), dsum_succ _ _ _ (by omega)]
    simp only [pd, pdHybrid, lo, hi]
    rcases Nat.lt_trichotomy n k with h | h | h
    · rw [if_pos h, if_pos h, if_pos h]
      ext <;> simp [colDot] <;> ring
    · subst h
      simp only [lt_irrefl, if_false, gt_iff_lt]
      ext <;> simp [colDot] <;> ring
    · rw [if_neg (by omega), if_pos h, if_neg (by omega), if_neg (by omega)]
      ext <;> simp [colDot] <;> ring

theorem pdSum_bodyFixed (J : Jac) (qd : ℕ → ℝ) (k n : ℕ) (hn : n ≤ J.length) :
    pdSum .bodyFixed J qd k n =
      colDot 0 (dsum (lo qd k) (J.take n) 0) (dsum (hi qd k) (J.take n) 0) (J.getD k 0) -
        (⟨(dsum qd (J.take n) 0).rot * (J.getD k 0).vel, (dsum qd (J.take n) 0).rot * (J.getD k 0).rot⟩ : Twist) := by
  induction n with
  | zero => ext <;> simp [pdSum, dsum, colDot]
  | succ n ih =>
    rw [pdSum_succ, ih (by omega), dsum_succ _ _ _ (by omega), dsum_succ _ _ _ (by omega), dsum_succ _ _ _ (by omega)]
    simp only [pd, pdBodyFixed, lo, hi]
    rcases Nat.lt_trichotomy n k with h | h | h
    · rw [if_neg (by omega), if_pos h, if_pos h]
      ext <;> simp [colDot] <;> ring
    · subst h
      simp only [lt_irrefl, if_false, gt_iff_lt]
      ext <;> simp [colDot] <;> ring
    · rw [if_pos (by omega), if_neg (by omega), if_neg (by omega)]
      ext <;> simp [colDot] <;> ring

theorem pdSum_inertial (J : Jac) (qd : ℕ → ℝ) (k n : ℕ) (hn : n ≤ J.length) :
    pdSum .inertial J qd k n =
      (⟨(dsum (lo qd k) (J.take n) 0).rot * (J.getD k 0).vel + (dsum (lo qd k) (J.take n) 0).vel * (J.getD k 0).rot,
        (dsum (lo qd k) (J.take n) 0).rot * (J.getD k 0).rot⟩ : Twist) := by
  induction n with
  | zero => ext <;> simp [pdSum, dsum]
  | succ n ih =>
    rw [pdSum_succ, ih (by omega), dsum_succ _ _ _ (by omega)]
    simp only [pd, pdInertial, lo]
    split_ifs with h
    · ext <;> simp <;> ring
    · ext <;> simp

theorem jacDotCol_eq (r : JacRep) (J : Jac) (b : List Bool) (qd : List ℝ) (k N : ℕ) (hb : ∀ i, i < N → b[i]? = some false)
    (hJ : J.length = N) (hqd : qd.length = N) (hk : k < N) : ∀ (n j : ℕ), j + n = N →
    jacDotCol r J b qd k j n (pdSum r J (rd qd) k j) = some (pdSum r J (rd qd) k N) := by
  intro n
  induction n with
  | zero => intro j h; simp only [Nat.add_zero] at h; subst h; rfl
  | succ n ih =>
    intro j h
    unfold jacDotCol
    rw [hb j (by omega)]
    have e1 : ∀ i, i < N → J[i]? = some (J.getD i 0) := by
      intro i hi
      simp [List.getD_eq_getElem?_getD, List.getElem?_eq_getElem (l := J) (i := i) (by omega)]
    rw [e1 j (by omega), e1 k hk, getElem?_eq_rd (q := qd) (by omega)]
    simp only [Option.bind_eq_bind, Option.bind_some, Bool.false_eq_true, if_false]
    rw [← pdSum_succ]
    exact ih (j + 1) (by omega)

theorem jacDotLoop_eq (r : JacRep) (J : Jac) (b : List Bool) (qd : List ℝ) (N : ℕ)
    (hb : ∀ i, i < N → b[i]? = some false) (hJ : J.length = N) (hqd : qd.length = N) :
    ∀ (ss : List Segment) (A : Jac) (m : ℕ), A.length + m = N → nMoving ss ≤ m →
      jacDotLoop r N J b qd ss A.length (A ++ List.replicate m 0) =
        some (A ++ (List.range' A.length (nMoving ss)).map (fun k => pdSum r J (rd qd) k N) ++
          List.replicate (m - nMoving ss) 0) := by
  intro ss
  induction ss with
  | nil => intro A m _ _; simp [jacDotLoop, nMoving]
  | cons s ss ih =>
    intro A m hA hm
    rw [nMoving_cons] at hm ⊢
    unfold jacDotLoop
    by_cases hmv : s.moving
    · simp only [hmv, if_true] at hm ⊢
      obtain ⟨m', rfl⟩ : ∃ m', m = m' + 1 := ⟨m - 1, by omega⟩
      have h0 : jacDotCol r J b qd A.length 0 N 0 = some (pdSum r J (rd qd) A.length N) :=
        jacDotCol_eq r J b qd A.length N hb hJ hqd (by omega) N 0 (by omega)
      have hset : Jac.setColumn (A ++ List.replicate (m' + 1) 0) A.length (pdSum r J (rd qd) A.length N) =
          some ((A ++ [pdSum r J (rd qd) A.length N]) ++ List.replicate m' 0) := by
        unfold Jac.setColumn
        rw [if_pos (by simp)]
        congr 1
        rw [List.set_append_right _ _ le_rfl, Nat.sub_self, List.replicate_succ]
        simp
      rw [h0]
      simp only [Option.bind_eq_bind, Option.bind_some]
      rw [hset]
      simp only [Option.bind_some]
      have := ih (A ++ [pdSum r J (rd qd) A.length N]) m' (by simp; omega) (by omega)
      rw [show (A ++ [pdSum r J (rd qd) A.length N]).length = A.length + 1 by simp] at this
      rw [this, List.range'_succ]
      simp
    · simp only [hmv, Bool.false_eq_true, if_false, Nat.zero_add] at hm ⊢
      exact ih A m hA hm

/-- If the loop finishes, every moving segment had a column. -/
theorem jacDotLoop_room (r : JacRep) (J : Jac) (b : List Bool) (qd : List ℝ) (N : ℕ) :
    ∀ (ss : List Segment) (k : ℕ) (D D' : Jac), jacDotLoop r N J b qd ss k D = some D' → k ≤ D.length →
      k + nMoving ss ≤ D.length := by
  intro ss
  induction ss with
  | nil => intro k D D' _ hk; simpa [nMoving] using hk
  | cons s ss ih =>
    intro k D D' h hk
    unfold jacDotLoop at h
    rw [nMoving_cons]
    by_cases hm : s.moving
    · simp only [hm, if_true] at h ⊢
      simp only [Option.bind_eq_bind, Option.bind_eq_some_iff] at h
      obtain ⟨t, _, D1, h1, h2⟩ := h
      unfold Jac.setColumn at h1
      split_ifs at h1 with hlt
      cases h1
      have := ih (k + 1) _ _ h2 (by simp; omega)
      simp at this
      omega
    · simp only [hm, Bool.false_eq_true, if_false, Nat.zero_add] at h ⊢
      exact ih k D D' h hk

/-- The Jacobian solver without locks. -/
theorem jntToJac_unlocked (c : Chain) (hc : c.WF) (q : List ℝ) (J0 : Jac) (k : ℤ) (hq : q.length = c.nrOfJoints)
    (hJ : J0.length = c.nrOfJoints) (hk : segmentNr c k ≤ c.nrOfSegments) :
    jntToJac c (List.replicate c.nrOfJoints false) q J0 k = some (E_NOERROR,
      colsF (rd q) (c.segments.take (segmentNr c k)) 0 1 ++
        List.replicate (c.nrOfJoints - nMoving (c.segments.take (segmentNr c k))) 0) := by
  set n := segmentNr c k with hn
  have hb : nMoving (c.segments.take n) ≤ c.nrOfJoints := by rw [hc.2]; exact nMoving_take_le _ _
  have hz : J0.setToZero = [] ++ List.replicate c.nrOfJoints 0 := by
    simp [Jac.setToZero, hJ]
  have hkeep : keep (fun i => (List.replicate c.nrOfJoints false).getD i false)
      (colsF (rd q) (c.segments.take n) 0 1) 0 = colsF (rd q) (c.segments.take n) 0 1 := by
    refine keep_false _ _ _ ?_
    intro i _ _
    simp [List.getD_eq_getElem?_getD, List.getElem?_replicate]
    split_ifs <;> rfl
  have hloop := jacLoop_eq q (List.replicate c.nrOfJoints false) (c.segments.take n) 0 1 [] c.nrOfJoints (by omega)
    (by simp; omega) (by rw [hkeep, colsF_length]; exact hb)
  rw [hkeep, colsF_length] at hloop
  unfold jntToJac
  rw [if_neg (by simp)]
  simp only [← hn]
  rw [if_neg (by simp [hq, hJ]), if_neg (by omega), hz]
  simp only [List.length_nil] at hloop
  rw [hloop]
  simp [Jac.changeRefPoint]

end KDL
