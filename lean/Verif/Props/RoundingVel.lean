import Verif.Model.RoundingVel
import Verif.Props.RoundingJac

/-! C108: rounding errors of the forward velocity kinematics. -/

noncomputable section
namespace KDL

/-! ## vocabulary -/

/-- Error after `m` steps that add `S` each and round once. -/
def sumErr (u S : ℝ) (m : ℕ) : ℝ := m * ((1 + u) ^ m * S)
/-- What a segment adds to the error of the angular velocity: `A` is the error of its own contribution, `a` its length, `n` the
number of segments. -/
def rotStep (u a A : ℝ) (n : ℕ) : ℝ := A + u * (n * a)
/-- What a segment adds to the error of the linear velocity: `W` is the error of the angular velocity, `T` that of the vector to
the next tip, `B` that of the segment's own contribution; `a`, `b` bound the angular and linear velocity of a segment, `l` its
length, `n` their number. -/
def velStep (u g a b B W l T : ℝ) (n : ℕ) : ℝ :=
  (1 + u) * (crossErr g (n * a) W l T + B) + u * (n * a * l + b) + u * (n * (n * a * l + b))

/-- The frame with velocity `v` is near `w`: rotation, position, angular and linear velocity. -/
def VelNear (d e W V : ℝ) (v w : FrameVel) : Prop :=
  Near d e v.getFrame w.getFrame ∧ vdist v.getTwist.rot w.getTwist.rot ≤ W ∧ vdist v.getTwist.vel w.getTwist.vel ≤ V

/-- The twists computed for `s` at the given positions and rates are near those of the ideal segment. -/
def RateNear (F : Fl) (q qd : List ℝ) (t t' a b : ℝ) (s s' : Segment) : Prop :=
  ∀ x y, (x ∈ q ∧ y ∈ qd) ∨ (x = 0 ∧ y = 0) → ColNear t t' a b (F.segTwist s x y) (s'.twist x y)

/-! ## helpers -/

theorem add_near {F : Fl} (hF : F.Ok) {p q p' q' : Vec} {e f y : ℝ} (hp : vdist p p' ≤ e) (hq : vdist q q' ≤ f)
    (hl : vlen (p' + q') ≤ y) : vdist (F.vecAdd p q) (p' + q') ≤ (1 + F.u) * (e + f) + F.u * y := by
  have a1 := Fl.vecAdd_err hF p q
  have a2 := vdist_add p q p' q'
  have a3 := vdist_triangle (F.vecAdd p q) (p + q) (p' + q')
  have a4 := vlen_le (p + q) (p' + q')
  have a5 : F.u * vlen (p + q) ≤ F.u * (y + (e + f)) := mul_le_mul_of_nonneg_left (by linarith) hF.nonneg
  linarith

theorem sumErr_nonneg {u S : ℝ} (u0 : 0 ≤ u) (S0 : 0 ≤ S) (m : ℕ) : 0 ≤ sumErr u S m := by unfold sumErr; positivity
theorem sumErr_mono {u S : ℝ} (u0 : 0 ≤ u) (S0 : 0 ≤ S) {m n : ℕ} (h : m ≤ n) : sumErr u S m ≤ sumErr u S n := by
  unfold sumErr
  have h1 : (1 + u) ^ m ≤ (1 + u) ^ n := pow_le_pow_right₀ (by linarith) h
  have h2 : (m : ℝ) ≤ n := by exact_mod_cast h
  exact mul_le_mul h2 (mul_le_mul_of_nonneg_right h1 S0) (by positivity) (by positivity)
theorem sumErr_step {u S s y : ℝ} (u0 : 0 ≤ u) (s0 : 0 ≤ s) (y0 : 0 ≤ y) (h : s + u * y ≤ S) (m : ℕ) :
    (1 + u) * (sumErr u S m + s) + u * y ≤ sumErr u S (m + 1) := by
  unfold sumErr
  have p1 : 1 ≤ (1 + u) ^ m := one_le_pow₀ (by linarith)
  have uy : 0 ≤ u * y := mul_nonneg u0 y0
  have e : ((m + 1 : ℕ) : ℝ) * ((1 + u) ^ (m + 1) * S) = (1 + u) * (m * ((1 + u) ^ m * S)) + (1 + u) ^ (m + 1) * S := by
    push_cast; ring
  rw [e]
  have p2 : 1 + u ≤ (1 + u) ^ (m + 1) := by rw [pow_succ]; nlinarith
  have p3 : (1 + u) * (s + u * y) ≤ (1 + u) ^ (m + 1) * S := mul_le_mul p2 h (by positivity) (by positivity)
  nlinarith

section loop
variable {F : Fl} (hF : F.Ok) {r r' l a b t t' : ℝ} (h0 : (0 ≤ r ∧ 0 ≤ r') ∧ 0 ≤ l ∧ (0 ≤ a ∧ 0 ≤ b) ∧ 0 ≤ t ∧ 0 ≤ t') (N : ℕ)
include hF h0

/-- One product. -/
theorem vel_step {κ A B T W : ℝ} (hκ : κ = r + F.g3 * (Real.sqrt 3 + r)) (hA : A = mapErr F.g3 (rotErr κ N) a t)
    (hB : B = mapErr F.g3 (rotErr κ N) b t') (hT : T = mapErr F.g3 (rotErr κ N) l r')
    (hW : W = sumErr F.u (rotStep F.u a A N) N) {m : ℕ} (hm : m + 1 ≤ N) {v w : FrameVel} {R Q : Frame} {x y : Twist}
    (hw : w.getFrame.M.IsProper) (hQ : Q.M.IsProper) (hwp : vlen w.getFrame.p ≤ m * l)
    (hw1 : vlen w.getTwist.rot ≤ m * a) (hw2 : vlen w.getTwist.vel ≤ m * (N * a * l + b))
    (h : VelNear (rotErr κ m) (posErr F.u F.g3 κ l r' m) (sumErr F.u (rotStep F.u a A N) m)
      (sumErr F.u (velStep F.u F.g3 a b B W l T N) m) v w)
    (hR : Near r r' R Q) (hl : vlen Q.p ≤ l) (hx : ColNear t t' a b x y) :
    VelNear (rotErr κ (m + 1)) (posErr F.u F.g3 κ l r' (m + 1)) (sumErr F.u (rotStep F.u a A N) (m + 1))
      (sumErr F.u (velStep F.u F.g3 a b B W l T N) (m + 1)) (F.frameVelMul v (.ofTwist R x)) (w.mul (.ofTwist Q y)) ∧
    (w.mul (.ofTwist Q y)).getFrame.M.IsProper ∧ vlen (w.mul (.ofTwist Q y)).getFrame.p ≤ (m + 1 : ℕ) * l ∧
    vlen (w.mul (.ofTwist Q y)).getTwist.rot ≤ (m + 1 : ℕ) * a ∧
    vlen (w.mul (.ofTwist Q y)).getTwist.vel ≤ (m + 1 : ℕ) * (N * a * l + b) := by
  have u0 := hF.nonneg
  have g0 := Fl.g3_nonneg hF
  have s0 := Real.sqrt_nonneg 3
  obtain ⟨⟨r0, r0'⟩, l0, ⟨a0, b0⟩, t0, t0'⟩ := h0
  have k0 : 0 ≤ κ := by rw [hκ]; positivity
  have d0 := rotErr_nonneg k0 N
  have A0 : 0 ≤ A := by rw [hA]; exact mapErr_nonneg g0 d0 a0 t0
  have B0 : 0 ≤ B := by rw [hB]; exact mapErr_nonneg g0 d0 b0 t0'
  have T0 : 0 ≤ T := by rw [hT]; exact mapErr_nonneg g0 d0 l0 r0'
  have S0 : 0 ≤ rotStep F.u a A N := by unfold rotStep; positivity
  have W0 : 0 ≤ W := by rw [hW]; exact sumErr_nonneg u0 S0 N
  have hmN : (m : ℝ) + 1 ≤ N := by exact_mod_cast hm
  have mN : (m : ℝ) ≤ N := by linarith
  have m0 : (0 : ℝ) ≤ m := Nat.cast_nonneg m
  have C0 : 0 ≤ crossErr F.g3 (N * a) W l T := by unfold crossErr; positivity
  obtain ⟨hP, h1, h2⟩ := h
  have hd : rdist v.getFrame.M w.getFrame.M ≤ rotErr κ N := hP.1.trans (rotErr_mono k0 (by omega))
  obtain ⟨c1, c2, c3⟩ := near_step hF hw hQ hwp hl (by rw [← hκ]; exact hP) hR
  rw [← hκ] at c1
  obtain ⟨⟨x1, x2⟩, x3, x4⟩ := hx
  -- angular velocity
  have n1 := map_near hF hw hd x1 x3
  rw [← hA] at n1
  have hma : (m : ℝ) * a + a = (m + 1 : ℕ) * a := by push_cast; ring
  have q1 : vlen (w.getTwist.rot + w.getFrame.M * y.rot) ≤ (m + 1 : ℕ) * a := by
    have := vlen_add w.getTwist.rot (w.getFrame.M * y.rot)
    rw [vlen_mul_proper hw] at this
    linarith
  have q1' : vlen (w.getTwist.rot + w.getFrame.M * y.rot) ≤ N * a :=
    q1.trans (mul_le_mul_of_nonneg_right (by push_cast; exact hmN) a0)
  have n2 := add_near hF h1 n1 q1'
  have n3 := sumErr_step u0 A0 (by positivity : 0 ≤ (N : ℝ) * a) (le_refl (A + F.u * (N * a))) m
  -- the vector to the next tip
  have n4 := map_near hF hw hd hR.2 hl
  rw [← hT] at n4
  have q2 : vlen (w.getFrame.M * Q.p) ≤ l := by rw [vlen_mul_proper hw]; exact hl
  have q3 : vlen w.getTwist.rot ≤ N * a := hw1.trans (mul_le_mul_of_nonneg_right mN a0)
  have n5 := cross_near hF (h1.trans (sumErr_mono u0 S0 (by omega : m ≤ N))) n4 q3 q2
  rw [← hW] at n5
  have n6 := map_near hF hw hd x2 x4
  rw [← hB] at n6
  have q4 : vlen (w.getTwist.rot * (w.getFrame.M * Q.p) + w.getFrame.M * y.vel) ≤ N * a * l + b := by
    have z1 := vlen_add (w.getTwist.rot * (w.getFrame.M * Q.p)) (w.getFrame.M * y.vel)
    have z2 := vlen_cross w.getTwist.rot (w.getFrame.M * Q.p)
    have z3 : vlen w.getTwist.rot * vlen (w.getFrame.M * Q.p) ≤ N * a * l := mul_le_mul q3 q2 (vlen_nonneg _) (by positivity)
    have z4 : vlen (w.getFrame.M * y.vel) ≤ b := by rw [vlen_mul_proper hw]; exact x4
    linarith
  have n7 := add_near hF n5 n6 q4
  have q5 : vlen (w.getTwist.rot * (w.getFrame.M * Q.p) + w.getFrame.M * y.vel + w.getTwist.vel) ≤ (m + 1 : ℕ) * (N * a * l + b) := by
    have := vlen_add (w.getTwist.rot * (w.getFrame.M * Q.p) + w.getFrame.M * y.vel) w.getTwist.vel
    push_cast
    linarith
  have y0 : 0 ≤ (N : ℝ) * a * l + b := by positivity
  have q6 : vlen (w.getTwist.rot * (w.getFrame.M * Q.p) + w.getFrame.M * y.vel + w.getTwist.vel) ≤ N * (N * a * l + b) :=
    q5.trans (mul_le_mul_of_nonneg_right (by push_cast; exact hmN) y0)
  have n8 := add_near hF n7 h2 q6
  have n9 := sumErr_step u0 (by positivity : 0 ≤ (1 + F.u) * (crossErr F.g3 (N * a) W l T + B) + F.u * (N * a * l + b))
    (by positivity : 0 ≤ (N : ℝ) * (N * a * l + b)) (le_refl ((1 + F.u) * (crossErr F.g3 (N * a) W l T + B) +
      F.u * (N * a * l + b) + F.u * (N * (N * a * l + b)))) m
  refine ⟨⟨c1, n2.trans n3, ?_⟩, c2, c3, q1, q5⟩
  refine n8.trans ?_
  rw [add_comm ((1 + F.u) * (crossErr F.g3 (N * a) W l T + B) + F.u * (N * a * l + b))]
  exact n9

theorem fkVelLoop_near {q qd : List ℝ} {ss ss' : List Segment}
    (h : List.Forall₂ (fun s s' => SegNear F q r r' l s s' ∧ RateNear F q qd t t' a b s s') ss ss') {κ A B T W : ℝ}
    (hκ : κ = r + F.g3 * (Real.sqrt 3 + r)) (hA : A = mapErr F.g3 (rotErr κ N) a t)
    (hB : B = mapErr F.g3 (rotErr κ N) b t') (hT : T = mapErr F.g3 (rotErr κ N) l r')
    (hW : W = sumErr F.u (rotStep F.u a A N) N) :
    ∀ (j m : ℕ) (v w : FrameVel), j + nMoving ss ≤ q.length → j + nMoving ss ≤ qd.length → m + ss.length ≤ N →
    w.getFrame.M.IsProper → vlen w.getFrame.p ≤ m * l → vlen w.getTwist.rot ≤ m * a →
    vlen w.getTwist.vel ≤ m * (N * a * l + b) →
    VelNear (rotErr κ m) (posErr F.u F.g3 κ l r' m) (sumErr F.u (rotStep F.u a A N) m)
      (sumErr F.u (velStep F.u F.g3 a b B W l T N) m) v w →
    ∃ v1 w1, F.fkVelLoop q qd ss j v = some v1 ∧ fkVelLoop q qd ss' j w = some w1 ∧
      VelNear (rotErr κ (m + ss.length)) (posErr F.u F.g3 κ l r' (m + ss.length))
        (sumErr F.u (rotStep F.u a A N) (m + ss.length)) (sumErr F.u (velStep F.u F.g3 a b B W l T N) (m + ss.length)) v1 w1 := by
  induction h with
  | nil =>
    intro j m v w _ _ _ _ _ _ _ hv
    exact ⟨v, w, rfl, rfl, by simpa using hv⟩
  | @cons s s' ss ss' h1 h2 ih =>
    intro j m v w hj hj' hm p1 p2 p3 p4 hv
    obtain ⟨⟨hmv, hval, hx⟩, ht⟩ := h1
    rw [List.length_cons] at hm
    rw [List.length_cons, show m + (ss.length + 1) = m + 1 + ss.length by omega]
    rw [Fl.fkVelLoop, fkVelLoop, ← hmv]
    by_cases hs : s.moving
    · rw [if_pos hs, if_pos hs]
      have hn : nMoving (s :: ss) = 1 + nMoving ss := by simp [nMoving, hs]; omega
      have hjl : j < q.length := by omega
      have hjl' : j < qd.length := by omega
      rw [List.getElem?_eq_getElem hjl, List.getElem?_eq_getElem hjl']
      simp only [Option.bind_eq_bind, Option.bind_some]
      obtain ⟨hR, hl⟩ := hx q[j] (.inl (List.getElem_mem hjl))
      obtain ⟨e1, e2, e3, e4, e5⟩ := vel_step hF h0 N hκ hA hB hT hW (by omega : m + 1 ≤ N) p1 (Segment.isProper_pose hval _) p2
        p3 p4 hv hR hl (ht q[j] qd[j] (.inl ⟨List.getElem_mem hjl, List.getElem_mem hjl'⟩))
      exact ih (j + 1) (m + 1) _ _ (by omega) (by omega) (by omega) e2 e3 e4 e5 e1
    · rw [if_neg hs, if_neg hs]
      have hn : nMoving (s :: ss) = nMoving ss := by simp [nMoving, hs]
      obtain ⟨hR, hl⟩ := hx 0 (.inr rfl)
      obtain ⟨e1, e2, e3, e4, e5⟩ := vel_step hF h0 N hκ hA hB hT hW (by omega : m + 1 ≤ N) p1 (Segment.isProper_pose hval _) p2
        p3 p4 hv hR hl (ht 0 0 (.inr ⟨rfl, rfl⟩))
      exact ih j (m + 1) _ _ (by omega) (by omega) (by omega) e2 e3 e4 e5 e1

end loop

/-! ## C108 -/

/-- The velocity solver in floating point arithmetic, on a chain whose segments are near the ideal ones: errors are reported as
without rounding, and otherwise pose and twist are near those of the ideal chain, with an error that grows with the number of
segments. -/
theorem C108_vel (F : Fl) (hF : F.Ok) (c c' : Chain) (hc : c.WF) (hc' : c'.WF) (q qd : List ℝ)
    (r r' l a b t t' κ A B T W : ℝ) (h0 : (0 ≤ r ∧ 0 ≤ r') ∧ 0 ≤ l ∧ (0 ≤ a ∧ 0 ≤ b) ∧ 0 ≤ t ∧ 0 ≤ t')
    (h : List.Forall₂ (fun s s' => SegNear F q r r' l s s' ∧ RateNear F q qd t t' a b s s') c.segments c'.segments) (k : ℤ)
    (hκ : κ = r + F.g3 * (Real.sqrt 3 + r)) (hA : A = mapErr F.g3 (rotErr κ (segmentNr c k)) a t)
    (hB : B = mapErr F.g3 (rotErr κ (segmentNr c k)) b t') (hT : T = mapErr F.g3 (rotErr κ (segmentNr c k)) l r')
    (hW : W = sumErr F.u (rotStep F.u a A (segmentNr c k)) (segmentNr c k)) :
    (¬ (q.length = c.nrOfJoints ∧ qd.length = c.nrOfJoints) ∨ segmentNr c k > c.nrOfSegments →
      F.fkVel c q qd k = fkVel c q qd k) ∧
    (q.length = c.nrOfJoints → qd.length = c.nrOfJoints → segmentNr c k ≤ c.nrOfSegments →
      ∃ v w, F.fkVel c q qd k = some (E_NOERROR, v) ∧ fkVel c' q qd k = some (E_NOERROR, w) ∧
        VelNear (rotErr κ (segmentNr c k)) (posErr F.u F.g3 κ l r' (segmentNr c k)) W
          (sumErr F.u (velStep F.u F.g3 a b B W l T (segmentNr c k)) (segmentNr c k)) v w) := by
  constructor
  · intro he
    unfold Fl.fkVel fkVel
    dsimp only
    by_cases h1 : ¬ (q.length = c.nrOfJoints ∧ qd.length = c.nrOfJoints)
    · rw [if_pos h1, if_pos h1]
    · have h3 : segmentNr c k > c.nrOfSegments := by tauto
      rw [if_neg h1, if_neg h1, if_pos h3, if_pos h3]
  · intro hq hqd hk
    have hlen := h.length_eq
    have hnS : c'.nrOfSegments = c.nrOfSegments := by rw [hc.1, hc'.1, hlen]
    have hnJ : c'.nrOfJoints = c.nrOfJoints := by
      rw [hc.2, hc'.2]
      generalize c.segments = x at h
      generalize c'.segments = y at h
      clear hlen
      induction h with
      | nil => rfl
      | cons h1 _ ih => rw [nMoving_cons, nMoving_cons, ih, h1.1.1]
    have hsn : segmentNr c' k = segmentNr c k := by unfold segmentNr; rw [hnS]
    obtain ⟨n, hn⟩ : ∃ n, n = segmentNr c k := ⟨_, rfl⟩
    rw [← hn] at hA hB hT hW hk hsn ⊢
    have hnl : n ≤ c.segments.length := by rw [← hc.1]; exact hk
    have ht := List.forall₂_take n h
    have hb : nMoving (c.segments.take n) ≤ c.nrOfJoints := by rw [hc.2]; exact nMoving_take_le _ _
    have z : vlen (0 : Vec) = 0 := by simp [vlen]
    obtain ⟨v, w, e1, e2, hJJ⟩ := fkVelLoop_near hF h0 n ht hκ hA hB hT hW 0 0 (.ofFrame 1) (.ofFrame 1) (by omega) (by omega)
      (by simp [Nat.min_eq_left hnl]) Rot.IsProper.one
      (by show vlen (0 : Vec) ≤ _; rw [z]; simp) (by show vlen (0 : Vec) ≤ _; rw [z]; simp) (by show vlen (0 : Vec) ≤ _; rw [z]; simp)
      ⟨⟨by simp [rdist, rotErr], by simp [vdist, posErr]⟩, by simp [vdist, sumErr], by simp [vdist, sumErr]⟩
    refine ⟨v, w, ?_, ?_, ?_⟩
    · unfold Fl.fkVel
      dsimp only
      rw [if_neg (not_not.mpr ⟨hq, hqd⟩), ← hn, if_neg (by omega), e1]
      rfl
    · unfold fkVel
      dsimp only
      rw [hnJ, hnS, hsn, if_neg (not_not.mpr ⟨hq, hqd⟩), if_neg (by omega), e2]
      rfl
    · rw [hW]
      rw [hW] at hJJ
      simpa [List.length_take, Nat.min_eq_left hnl] using hJJ

/-- The twist returned is that close to the true derivative of the pose of the ideal chain. -/
theorem C108_derivative (F : Fl) (hF : F.Ok) (c c' : Chain) (hc : c.WF) (hc' : c'.WF) (Q : ℝ → List ℝ) (qd : List ℝ) (τ : ℝ)
    (r r' l a b t t' κ A B T W : ℝ) (h0 : (0 ≤ r ∧ 0 ≤ r') ∧ 0 ≤ l ∧ (0 ≤ a ∧ 0 ≤ b) ∧ 0 ≤ t ∧ 0 ≤ t')
    (h : List.Forall₂ (fun s s' => SegNear F (Q τ) r r' l s s' ∧ RateNear F (Q τ) qd t t' a b s s') c.segments c'.segments) (k : ℤ)
    (hκ : κ = r + F.g3 * (Real.sqrt 3 + r)) (hA : A = mapErr F.g3 (rotErr κ (segmentNr c k)) a t)
    (hB : B = mapErr F.g3 (rotErr κ (segmentNr c k)) b t') (hT : T = mapErr F.g3 (rotErr κ (segmentNr c k)) l r')
    (hW : W = sumErr F.u (rotStep F.u a A (segmentNr c k)) (segmentNr c k))
    (hQ : ∀ s, (Q s).length = c.nrOfJoints) (hqd : qd.length = c.nrOfJoints)
    (hd : ∀ j, HasDerivAt (fun s => (Q s).getD j 0) (qd.getD j 0) τ) (hk : segmentNr c k ≤ c.nrOfSegments) :
    ∃ (G : ℝ → Frame) (v : FrameVel) (x : Twist), (∀ s, fkPos c' (Q s) k = some (E_NOERROR, G s)) ∧ Frame.HasTwist G x τ ∧
      F.fkVel c (Q τ) qd k = some (E_NOERROR, v) ∧
      Near (rotErr κ (segmentNr c k)) (posErr F.u F.g3 κ l r' (segmentNr c k)) v.getFrame (G τ) ∧
      vdist v.getTwist.rot x.rot ≤ W ∧
      vdist v.getTwist.vel x.vel ≤ sumErr F.u (velStep F.u F.g3 a b B W l T (segmentNr c k)) (segmentNr c k) := by
  obtain ⟨v, w, e1, e2, ⟨e3, e4, e5⟩⟩ := (C108_vel F hF c c' hc hc' (Q τ) qd r r' l a b t t' κ A B T W h0 h k hκ hA hB hT hW).2
    (hQ τ) hqd hk
  have hlen := h.length_eq
  have hnS : c'.nrOfSegments = c.nrOfSegments := by rw [hc.1, hc'.1, hlen]
  have hsn : segmentNr c' k = segmentNr c k := by unfold segmentNr; rw [hnS]
  have hnJ : c'.nrOfJoints = c.nrOfJoints := by
    rw [hc.2, hc'.2]
    clear hlen
    generalize c.segments = x at h
    generalize c'.segments = y at h
    induction h with
    | nil => rfl
    | cons h1 _ ih => rw [nMoving_cons, nMoving_cons, ih, h1.1.1]
  have hv : c'.Valid := by
    unfold Chain.Valid
    clear hlen
    generalize c.segments = x at h
    generalize c'.segments = y at h
    induction h with
    | nil => simp
    | cons h1 _ ih =>
      intro s hs
      rcases List.mem_cons.mp hs with rfl | hs
      · exact h1.1.2.1
      · exact ih s hs
  obtain ⟨G, w', f1, f2, f3, f4⟩ := C26_fkVel c' hc' hv Q qd τ (fun s => by rw [hQ, hnJ]) (by rw [hqd, hnJ]) hd k (by rw [hsn, hnS]; exact hk)
  rw [e2] at f2
  cases f2
  exact ⟨G, v, w.getTwist, f1, f4, e1, by rw [← f3]; exact e3, e4, e5⟩

/-- The frame the velocity solver returns is, rounding by rounding, the one of the position solver. -/
theorem C108_frame (F : Fl) (c : Chain) (hc : c.WF) (q qd : List ℝ) (k : ℤ) (hqd : qd.length = c.nrOfJoints) :
    (F.fkVel c q qd k).map (fun x => (x.1, x.2.getFrame)) = F.fkPos c q k := by
  have hm : ∀ (v : FrameVel) (R : Frame) (x : Twist), (F.frameVelMul v (.ofTwist R x)).getFrame = F.frameMul v.getFrame R :=
    fun v R x => rfl
  have L : ∀ (ss : List Segment) (j : ℕ) (v : FrameVel), j + nMoving ss ≤ qd.length →
      (F.fkVelLoop q qd ss j v).map FrameVel.getFrame = F.fkLoop q ss j v.getFrame := by
    intro ss
    induction ss with
    | nil => intro j v _; rfl
    | cons s ss ih =>
      intro j v hj
      rw [nMoving_cons] at hj
      rw [Fl.fkVelLoop, Fl.fkLoop]
      by_cases hs : s.moving
      · rw [if_pos hs] at hj
        rw [if_pos hs, if_pos hs, List.getElem?_eq_getElem (by omega : j < qd.length)]
        cases q[j]? with
        | none => rfl
        | some x =>
          simp only [Option.bind_eq_bind, Option.bind_some]
          rw [ih _ _ (by omega), hm]
      · rw [if_neg hs] at hj
        rw [if_neg hs, if_neg hs, ih _ _ hj, hm]
  unfold Fl.fkVel Fl.fkPos
  dsimp only
  by_cases hq : q.length = c.nrOfJoints
  · rw [if_neg (not_not.mpr ⟨hq, hqd⟩), if_neg (not_not.mpr hq)]
    split_ifs with hk
    · rfl
    · have hb : nMoving (c.segments.take (segmentNr c k)) ≤ c.nrOfJoints := by rw [hc.2]; exact nMoving_take_le _ _
      have := L (c.segments.take (segmentNr c k)) 0 (.ofFrame 1) (by omega)
      have e1 : (FrameVel.ofFrame 1).getFrame = 1 := rfl
      rw [e1] at this
      rw [← this]
      cases F.fkVelLoop q qd (c.segments.take (segmentNr c k)) 0 (.ofFrame 1) <;> rfl
  · rw [if_pos (by tauto), if_pos hq]
    rfl

/-- With exact arithmetic the model is the one of C26. -/
theorem C108_exact (u : ℝ) (c : Chain) (q qd : List ℝ) (k : ℤ) :
    (Fl.mk u id Real.sin Real.cos).fkVel c q qd k = fkVel c q qd k := by
  obtain ⟨F, hF⟩ : ∃ F, F = Fl.mk u id Real.sin Real.cos := ⟨_, rfl⟩
  rw [← hF]
  have hm : ∀ a b : Frame, F.frameMul a b = a * b := fun a b => by rw [hF]; rfl
  have hj : ∀ (j : Joint) (x : ℝ), F.jointPose j x = j.pose x := by
    intro j x
    rw [hF]
    unfold Fl.jointPose Joint.pose
    cases j.type <;> first | rfl | skip
    all_goals
      simp only [Frame.ofVec, Fl.vecAdd, Fl.vecScale, Fl.arg, id]
      ext <;> simp <;> ring
  have hs : ∀ (s : Segment) (x : ℝ), F.segPose s x = s.pose x := by
    intro s x
    show F.frameMul _ _ = _
    rw [hm, hj]
    rfl
  have hjt : ∀ (j : Joint) (x : ℝ), F.jointTwist j x = j.twist x := by
    intro j x
    rw [hF]
    unfold Fl.jointTwist Joint.twist
    cases j.type <;> first | rfl | skip
    all_goals
      simp only [Fl.vecScale, id]
      ext <;> simp <;> ring
  have ht : ∀ (s : Segment) (x y : ℝ), F.segTwist s x y = s.twist x y := by
    intro s x y
    show F.refPoint _ _ = _
    rw [hj, hjt, hF]
    rfl
  have hv : ∀ a b : FrameVel, F.frameVelMul a b = a.mul b := fun a b => by rw [hF]; rfl
  have hl : ∀ (ss : List Segment) (j : ℕ) (v : FrameVel), F.fkVelLoop q qd ss j v = fkVelLoop q qd ss j v := by
    intro ss
    induction ss with
    | nil => intro j v; rfl
    | cons s ss ih =>
      intro j v
      rw [Fl.fkVelLoop, fkVelLoop]
      simp only [hs, ht, hv, ih]
  unfold Fl.fkVel fkVel
  simp only [hl]

/-! ## the twists of a joint and of a segment -/

/-- The twist of a joint at the rate `y`; `j` with the numbers stored, `j'` the ideal one.  `σ` bounds its speed. -/
theorem C108_joint (F : Fl) (hF : F.Ok) (j j' : Joint) (hty : j.type = j'.type) (hsc : j.scale = j'.scale) (hv : j'.Valid)
    (t σ y : ℝ) (ht : t ≤ 1 / 16) (hu : F.u ≤ t) (hσ : |j.scale * y| ≤ σ)
    (hax : (j.type = .RotAxis ∨ j.type = .TransAxis) →
      |j.axis.x - j'.axis.x| ≤ t ∧ |j.axis.y - j'.axis.y| ≤ t ∧ |j.axis.z - j'.axis.z| ≤ t) :
    ColNear (8 * t * σ) (8 * t * σ) σ σ (F.jointTwist j y) (j'.twist y) := by
  have h := C99_joint F hF { j with scale := j.scale * y } { j' with scale := j'.scale * y } hty (by dsimp only; rw [hsc]) hv t σ ht hu hσ
    hax
  have e1 : F.jointTwist { j with scale := j.scale * y } 1 = F.jointTwist j y := by unfold Fl.jointTwist; dsimp only; rw [mul_one]
  have e2 : Joint.twist { j' with scale := j'.scale * y } 1 = j'.twist y := by unfold Joint.twist; dsimp only; rw [mul_one]
  rw [e1, e2] at h
  exact h

/-- The twist of a segment, from that of its joint (see `C108_joint`), the pose of the joint (see `C98_joint`) and the tip. -/
theorem C108_segment (F : Fl) (hF : F.Ok) (s s' : Segment) (hs : s'.Valid) (x y d e r r' m A B a b : ℝ)
    (hj : Near d e (F.jointPose s.joint x) (s'.joint.pose x)) (ht : Near r r' s.f_tip s'.f_tip) (hm : vlen s'.f_tip.p ≤ m)
    (hw : ColNear A B a b (F.jointTwist s.joint y) (s'.joint.twist y)) :
    ColNear A ((1 + F.u) * (B + crossErr F.g3 a A m (mapErr F.g3 d m r')) + F.u * (b + a * m)) a (b + a * m)
      (F.segTwist s x y) (s'.twist x y) := by
  have hp := Joint.isProper_pose hs.1 x
  refine col_step hF hw (map_near hF hp hj.1 ht.2 hm) ?_
  rw [vlen_mul_proper hp]
  exact hm

/-! ## with the numbers of `double` -/

theorem segClose_rate {F : Fl} (hF : F.Ok) (hu : F.u = 1 / 2 ^ 53) {q qd : List ℝ} {s s' : Segment} (hs : SegClose q s s')
    (hsc : ∀ y ∈ qd, |s.joint.scale * y| ≤ 1) : RateNear F q qd (3 / 10 ^ 14) (1 / 10 ^ 11) 1 31 s s' := by
  have hg : F.g3 ≤ 34 / 10 ^ 17 := by rw [Fl.g3, hu]; norm_num
  have g0 := Fl.g3_nonneg hF
  have s3 := sqrt3_le
  intro x y hxy
  have hx : x ∈ q ∨ x = 0 := by tauto
  have hy : |s.joint.scale * y| ≤ 1 := by
    rcases hxy with ⟨-, h⟩ | ⟨-, rfl⟩
    · exact hsc y h
    · simp
  have hj := C98_joint F hF s.joint s'.joint hs.type hs.scale hs.offset hs.origin hs.valid.1 (3 / 10 ^ 15) 10 10 x (by norm_num)
    hs.axis (hs.arg x hx) hs.orig (by rw [hu]; norm_num)
  have hw := C108_joint F hF s.joint s'.joint hs.type hs.scale hs.valid.1 (3 / 10 ^ 15) 1 y (by norm_num) (by rw [hu]; norm_num) hy hs.axis
  refine (C108_segment F hF s s' hs.valid x y _ _ _ _ 30 _ _ _ _ hj hs.tip hs.length hw).mono (by norm_num) ?_ le_rfl (by norm_num)
  have m1 : mapErr F.g3 (78 * (3 / 10 ^ 15)) 30 (1 / 10 ^ 14) ≤ 8 / 10 ^ 12 :=
    (mapErr_le g0 (by norm_num) (by norm_num) (by norm_num) hg le_rfl s3).trans (by norm_num)
  have m0 : 0 ≤ mapErr F.g3 (78 * (3 / 10 ^ 15)) 30 (1 / 10 ^ 14) := mapErr_nonneg g0 (by norm_num) (by norm_num) (by norm_num)
  have m2 := crossErr_mono g0 (zero_le_one) (by norm_num : (0 : ℝ) ≤ 8 * (3 / 10 ^ 15) * 1) (by norm_num : (0 : ℝ) ≤ 30) m0 hg le_rfl m1
  have m3 : crossErr (34 / 10 ^ 17) 1 (8 * (3 / 10 ^ 15) * 1) 30 (8 / 10 ^ 12) ≤ 9 / 10 ^ 12 := by unfold crossErr; norm_num
  have m4 := m2.trans m3
  rw [hu]
  norm_num at m4 ⊢
  linarith

theorem segClose_pose {F : Fl} (hF : F.Ok) (hu : F.u = 1 / 2 ^ 53) {q : List ℝ} {s s' : Segment} (hs : SegClose q s s') :
    SegNear F q (3 / 10 ^ 13) (1 / 10 ^ 11) 60 s s' := by
  have hg : F.g3 ≤ 34 / 10 ^ 17 := by rw [Fl.g3, hu]; norm_num
  have g0 := Fl.g3_nonneg hF
  have s0 := Real.sqrt_nonneg 3
  have s3 := sqrt3_le
  refine ⟨?_, hs.valid, fun x hx => ?_⟩
  · simp [Segment.moving, Joint.moving, hs.type]
  · have hj := C98_joint F hF s.joint s'.joint hs.type hs.scale hs.offset hs.origin hs.valid.1 (3 / 10 ^ 15) 10 10 x (by norm_num)
      hs.axis (hs.arg x hx) hs.orig (by rw [hu]; norm_num)
    have hl : vlen (s'.joint.pose x).p ≤ 30 := by
      refine joint_length hs.valid.1 ?_ ?_
      · rw [← hs.scale, ← hs.offset]; exact hs.arg x hx
      · rw [← hs.origin]; exact hs.orig
    obtain ⟨a1, a2⟩ := C98_segment F hF s s' hs.valid x _ _ _ _ 30 hj hs.tip hs.length hl
    refine ⟨a1.mono ?_ ?_, a2.trans (by norm_num)⟩
    · have : F.g3 * (Real.sqrt 3 + 1 / 10 ^ 14) ≤ 34 / 10 ^ 17 * (1733 / 1000 + 1 / 10 ^ 14) :=
        mul_le_mul hg (by linarith) (by positivity) (by norm_num)
      have h2 : 1 / 10 ^ 14 + F.g3 * (Real.sqrt 3 + 1 / 10 ^ 14) ≤ 11 / 10 ^ 15 := by norm_num at this ⊢; linarith
      have h3 : (Real.sqrt 3 + 78 * (3 / 10 ^ 15)) * (1 / 10 ^ 14 + F.g3 * (Real.sqrt 3 + 1 / 10 ^ 14)) ≤
          (1733 / 1000 + 78 * (3 / 10 ^ 15)) * (11 / 10 ^ 15) :=
        mul_le_mul (by linarith) h2 (by positivity) (by norm_num)
      norm_num at h3 ⊢
      linarith
    · have : F.g3 * (Real.sqrt 3 + 78 * (3 / 10 ^ 15)) ≤ 34 / 10 ^ 17 * (1733 / 1000 + 78 * (3 / 10 ^ 15)) :=
        mul_le_mul hg (by linarith) (by positivity) (by norm_num)
      rw [hu]
      norm_num at this ⊢
      linarith

theorem segClose_all {F : Fl} (hF : F.Ok) (hu : F.u = 1 / 2 ^ 53) {q qd : List ℝ} {x y : List Segment}
    (h : List.Forall₂ (SegClose q) x y) (hσ : ∀ s ∈ x, ∀ r ∈ qd, |s.joint.scale * r| ≤ 1) :
    List.Forall₂ (fun s s' => SegNear F q (3 / 10 ^ 13) (1 / 10 ^ 11) 60 s s' ∧ RateNear F q qd (3 / 10 ^ 14) (1 / 10 ^ 11) 1 31 s s') x y := by
  induction h with
  | nil => exact .nil
  | cons h1 _ ih =>
    exact .cons ⟨segClose_pose hF hu h1, segClose_rate hF hu h1 (hσ _ (by simp))⟩ (ih fun s hs => hσ s (by simp [hs]))

/-- In double precision, a chain of at most ten segments within the ranges of `SegClose`, each joint moving at no more than one unit
per second: the angular velocity returned is within `1e-9` and the linear velocity within `1e-6` of those of the ideal chain. -/
theorem C108_double (F : Fl) (hF : F.Ok) (hu : F.u = 1 / 2 ^ 53) (c c' : Chain) (hc : c.WF) (hc' : c'.WF) (q qd : List ℝ)
    (h : List.Forall₂ (SegClose q) c.segments c'.segments) (hσ : ∀ s ∈ c.segments, ∀ y ∈ qd, |s.joint.scale * y| ≤ 1)
    (k : ℤ) (hq : q.length = c.nrOfJoints) (hqd : qd.length = c.nrOfJoints)
    (hk : segmentNr c k ≤ c.nrOfSegments) (hn : c.nrOfSegments ≤ 10) :
    ∃ v w, F.fkVel c q qd k = some (E_NOERROR, v) ∧ fkVel c' q qd k = some (E_NOERROR, w) ∧
      VelNear (1 / 10 ^ 11) (1 / 10 ^ 8) (1 / 10 ^ 9) (1 / 10 ^ 6) v w := by
  have hg : F.g3 ≤ 34 / 10 ^ 17 := by rw [Fl.g3, hu]; norm_num
  have g0 := Fl.g3_nonneg hF
  have u0 := hF.nonneg
  have s0 := Real.sqrt_nonneg 3
  have s3 := sqrt3_le
  obtain ⟨κ, hκ⟩ : ∃ κ, κ = 3 / 10 ^ 13 + F.g3 * (Real.sqrt 3 + 3 / 10 ^ 13) := ⟨_, rfl⟩
  obtain ⟨A, hA⟩ : ∃ A, A = mapErr F.g3 (rotErr κ (segmentNr c k)) 1 (3 / 10 ^ 14) := ⟨_, rfl⟩
  obtain ⟨B, hB⟩ : ∃ B, B = mapErr F.g3 (rotErr κ (segmentNr c k)) 31 (1 / 10 ^ 11) := ⟨_, rfl⟩
  obtain ⟨T, hT⟩ : ∃ T, T = mapErr F.g3 (rotErr κ (segmentNr c k)) 60 (1 / 10 ^ 11) := ⟨_, rfl⟩
  obtain ⟨W, hW⟩ : ∃ W, W = sumErr F.u (rotStep F.u 1 A (segmentNr c k)) (segmentNr c k) := ⟨_, rfl⟩
  obtain ⟨v, w, e1, e2, e3, e4, e5⟩ := (C108_vel F hF c c' hc hc' q qd (3 / 10 ^ 13) (1 / 10 ^ 11) 60 1 31 (3 / 10 ^ 14) (1 / 10 ^ 11)
    κ A B T W (by norm_num) (segClose_all hF hu h hσ) k hκ hA hB hT hW).2 hq hqd hk
  obtain ⟨n, hnd⟩ : ∃ n, n = segmentNr c k := ⟨_, rfl⟩
  rw [← hnd] at hA hB hT hW hk e3 e5
  have k0 : 0 ≤ κ := by rw [hκ]; positivity
  have k1 : κ ≤ 31 / 10 ^ 14 := by
    have : F.g3 * (Real.sqrt 3 + 3 / 10 ^ 13) ≤ 34 / 10 ^ 17 * (1733 / 1000 + 3 / 10 ^ 13) :=
      mul_le_mul hg (by linarith) (by positivity) (by norm_num)
    rw [hκ]
    norm_num at this ⊢
    linarith
  have p1 : (1 + κ) ^ n ≤ 1 + 32 / 10 ^ 13 :=
    calc (1 + κ) ^ n ≤ (1 + κ) ^ 10 := pow_le_pow_right₀ (by linarith) (by omega)
      _ ≤ (1 + 31 / 10 ^ 14) ^ 10 := pow_le_pow_left₀ (by linarith) (by linarith) 10
      _ ≤ _ := by norm_num
  have p0 : 1 ≤ (1 + κ) ^ n := one_le_pow₀ (by linarith)
  have r0 : 0 ≤ rotErr κ n := rotErr_nonneg k0 n
  have r1 : rotErr κ n ≤ 56 / 10 ^ 13 := by
    have : rotErr κ n ≤ 1733 / 1000 * (32 / 10 ^ 13) := mul_le_mul s3 (by linarith) (by linarith) (by norm_num)
    norm_num at this ⊢
    linarith
  have n10 : (n : ℝ) ≤ 10 := by
    have : n ≤ 10 := by omega
    exact_mod_cast this
  have n0 : (0 : ℝ) ≤ n := Nat.cast_nonneg n
  have w1 : F.g3 * (Real.sqrt 3 * (1 + κ) ^ n) ≤ 34 / 10 ^ 17 * (1733 / 1000 * (1 + 32 / 10 ^ 13)) :=
    mul_le_mul hg (mul_le_mul s3 p1 (by linarith) (by norm_num)) (by positivity) (by norm_num)
  have w0 := (posStep_mono hF.nonneg g0 k0 (by norm_num : (0 : ℝ) ≤ 60) (by norm_num : (0 : ℝ) ≤ 1 / 10 ^ 11) n
    (u := F.u) (g := F.g3)).1
  have w2 : posStep F.u F.g3 κ 60 (1 / 10 ^ 11) n ≤ 4 / 10 ^ 10 := by
    rw [posStep, hu]
    norm_num at w1 r1 ⊢
    linarith
  have w3 : (1 + F.u) ^ n ≤ 2 :=
    calc (1 + F.u) ^ n ≤ (1 + F.u) ^ 10 := pow_le_pow_right₀ (by linarith [hF.nonneg]) (by omega)
      _ ≤ 2 := by rw [hu]; norm_num
  have w3' : 0 ≤ (1 + F.u) ^ n := by positivity
  have w4 : (1 + F.u) ^ n * posStep F.u F.g3 κ 60 (1 / 10 ^ 11) n ≤ 2 * (4 / 10 ^ 10) := mul_le_mul w3 w2 w0 (by norm_num)
  have w5 : 0 ≤ (1 + F.u) ^ n * posStep F.u F.g3 κ 60 (1 / 10 ^ 11) n := mul_nonneg w3' w0
  have w6 : posErr F.u F.g3 κ 60 (1 / 10 ^ 11) n ≤ 8 / 10 ^ 9 := by
    have : posErr F.u F.g3 κ 60 (1 / 10 ^ 11) n ≤ 10 * (2 * (4 / 10 ^ 10)) := mul_le_mul n10 w4 w5 (by norm_num)
    exact this.trans (by norm_num)
  have A0 : 0 ≤ A := by rw [hA]; exact mapErr_nonneg g0 r0 (by norm_num) (by norm_num)
  have A1 : A ≤ 6 / 10 ^ 12 := by
    rw [hA]; exact (mapErr_le g0 r0 (by norm_num) (by norm_num) hg r1 s3).trans (by norm_num)
  have B0 : 0 ≤ B := by rw [hB]; exact mapErr_nonneg g0 r0 (by norm_num) (by norm_num)
  have B1 : B ≤ 2 / 10 ^ 10 := by
    rw [hB]; exact (mapErr_le g0 r0 (by norm_num) (by norm_num) hg r1 s3).trans (by norm_num)
  have T0 : 0 ≤ T := by rw [hT]; exact mapErr_nonneg g0 r0 (by norm_num) (by norm_num)
  have T1 : T ≤ 4 / 10 ^ 10 := by
    rw [hT]; exact (mapErr_le g0 r0 (by norm_num) (by norm_num) hg r1 s3).trans (by norm_num)
  have R0 : 0 ≤ rotStep F.u 1 A n := by unfold rotStep; positivity
  have R1 : rotStep F.u 1 A n ≤ 61 / 10 ^ 13 := by
    unfold rotStep
    rw [hu]
    norm_num at A1 ⊢
    linarith
  have W0 : 0 ≤ W := by rw [hW]; exact sumErr_nonneg u0 R0 n
  have W1 : W ≤ 13 / 10 ^ 11 := by
    have v4 : (1 + F.u) ^ n * rotStep F.u 1 A n ≤ 2 * (61 / 10 ^ 13) := mul_le_mul w3 R1 R0 (by norm_num)
    have v6 : sumErr F.u (rotStep F.u 1 A n) n ≤ 10 * (2 * (61 / 10 ^ 13)) := mul_le_mul n10 v4 (mul_nonneg w3' R0) (by norm_num)
    rw [hW]
    exact v6.trans (by norm_num)
  have c0 : 0 ≤ crossErr F.g3 (n * 1) W 60 T := by unfold crossErr; positivity
  have c1 : crossErr F.g3 (n * 1) W 60 T ≤ crossErr F.g3 10 W 60 T := by
    unfold crossErr
    have z1 : F.g3 * ((n * 1 + W) * (60 + T)) ≤ F.g3 * ((10 + W) * (60 + T)) :=
      mul_le_mul_of_nonneg_left (mul_le_mul_of_nonneg_right (by linarith) (by linarith)) g0
    have z2 : (n : ℝ) * 1 * T ≤ 10 * T := mul_le_mul_of_nonneg_right (by linarith) T0
    linarith
  have c2 := crossErr_mono g0 (by norm_num : (0 : ℝ) ≤ 10) W0 (by norm_num : (0 : ℝ) ≤ 60) T0 hg W1 T1
  have c3 : crossErr (34 / 10 ^ 17) 10 (13 / 10 ^ 11) 60 (4 / 10 ^ 10) ≤ 13 / 10 ^ 9 := by unfold crossErr; norm_num
  have c4 := c1.trans (c2.trans c3)
  have V0 : 0 ≤ velStep F.u F.g3 1 31 B W 60 T n := by unfold velStep; positivity
  have V1 : velStep F.u F.g3 1 31 B W 60 T n ≤ 2 / 10 ^ 8 := by
    unfold velStep
    generalize crossErr F.g3 (n * 1) W 60 T = C at c0 c4
    have z : (n : ℝ) * (n * 1 * 60 + 31) ≤ 10 * 631 := mul_le_mul n10 (by linarith) (by positivity) (by norm_num)
    rw [hu]
    norm_num at c4 B1 z ⊢
    linarith
  have v4 : (1 + F.u) ^ n * velStep F.u F.g3 1 31 B W 60 T n ≤ 2 * (2 / 10 ^ 8) := mul_le_mul w3 V1 V0 (by norm_num)
  have v6 : sumErr F.u (velStep F.u F.g3 1 31 B W 60 T n) n ≤ 10 * (2 * (2 / 10 ^ 8)) :=
    mul_le_mul n10 v4 (mul_nonneg w3' V0) (by norm_num)
  exact ⟨v, w, e1, e2, e3.mono (r1.trans (by norm_num)) (w6.trans (by norm_num)), e4.trans (W1.trans (by norm_num)),
    e5.trans (v6.trans (by norm_num))⟩

/-! ## the assumptions can be met -/

/-- A hinge with a skew axis that turns; the stored tip differs from the ideal one. -/
example : ∃ (c c' : Chain) (Q : ℝ → List ℝ) (qd : List ℝ), c.WF ∧ c'.WF ∧ c ≠ c' ∧ c.nrOfSegments = 1 ∧
    List.Forall₂ (SegClose (Q 0)) c.segments c'.segments ∧ (∀ s ∈ c.segments, ∀ y ∈ qd, |s.joint.scale * y| ≤ 1) ∧
    List.Forall₂ (fun s s' => SegNear sloppy (Q 0) (3 / 10 ^ 13) (1 / 10 ^ 11) 60 s s' ∧
      RateNear sloppy (Q 0) qd (3 / 10 ^ 14) (1 / 10 ^ 11) 1 31 s s') c.segments c'.segments ∧
    (∀ s, (Q s).length = c.nrOfJoints) ∧ qd.length = c.nrOfJoints ∧
    (∀ j, HasDerivAt (fun s => (Q s).getD j 0) (qd.getD j 0) 0) ∧ segmentNr c (-1) ≤ c.nrOfSegments ∧
    qd ≠ [0] ∧ c.segments.any Segment.moving = true ∧ sloppy.Ok := by
  obtain ⟨j, hj⟩ : ∃ j : Joint, j = ⟨"", .RotAxis, 1, 0, 0, 0, 0, ⟨3 / 5, 4 / 5, 0⟩, ⟨1, 2, 3⟩⟩ := ⟨_, rfl⟩
  obtain ⟨s', hs'⟩ : ∃ s : Segment, s = ⟨"", j, RBI.zero, ⟨1, ⟨1, 0, 0⟩⟩⟩ := ⟨_, rfl⟩
  obtain ⟨s, hs⟩ : ∃ s : Segment, s = ⟨"", j, RBI.zero, ⟨1, ⟨1 + 1 / 10 ^ 15, 0, 0⟩⟩⟩ := ⟨_, rfl⟩
  have vj : j.Valid := fun _ => by rw [hj]; simp [Vec.dot]; norm_num
  have hcl : SegClose [(0 : ℝ)] s s' := by
    refine ⟨by rw [hs, hs'], by rw [hs, hs'], by rw [hs, hs'], by rw [hs, hs'], ?_, fun _ => by simp [hs, hs']; norm_num, ?_, ?_, ⟨?_, ?_⟩, ?_⟩
    · rw [hs']; exact ⟨vj, Rot.IsProper.one⟩
    · intro x hx
      have : x = 0 := by simpa using hx
      rw [this, hs, hj]
      norm_num
    · simp [hs, hj]; norm_num
    · simp [rdist, hs, hs']
    · refine vdist_le (e := 1 / (2 * 10 ^ 14)) ⟨?_, ?_, ?_⟩ |>.trans (by norm_num) <;> simp [hs, hs'] <;> norm_num
    · exact vlen_le_sum (a := 1) (b := 0) (c := 0) (by simp [hs']) (by simp [hs']) (by simp [hs']) (by norm_num) (by norm_num)
  have hsc : ∀ x ∈ [s], ∀ y ∈ [(1 : ℝ)], |x.joint.scale * y| ≤ 1 := by
    intro x hx y hy
    rw [List.mem_singleton] at hx hy
    rw [hx, hy, hs, hj]
    norm_num
  refine ⟨⟨1, 1, [s]⟩, ⟨1, 1, [s']⟩, fun x => [x], [1], ⟨rfl, ?_⟩, ⟨rfl, ?_⟩, ?_, rfl, .cons hcl .nil, hsc,
    segClose_all sloppy_ok rfl (.cons hcl .nil) hsc, fun _ => rfl, rfl, fun i => ?_, by simp [segmentNr], by norm_num, ?_, sloppy_ok⟩
  · simp [nMoving, hs, Segment.moving, Joint.moving, hj]
  · simp [nMoving, hs', Segment.moving, Joint.moving, hj]
  · intro h
    have : s.f_tip.p.x = s'.f_tip.p.x := by
      have h2 : [s] = [s'] := congrArg Chain.segments h
      have h3 : s = s' := by simpa using h2
      rw [h3]
    rw [hs, hs'] at this
    norm_num at this
  · rcases i with _ | i
    · exact hasDerivAt_id' (0 : ℝ)
    · simpa using hasDerivAt_const (0 : ℝ) (0 : ℝ)
  · simp [hs, Segment.moving, Joint.moving, hj]

end KDL
