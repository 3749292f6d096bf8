import Verif.Props.NewtonLoop
import Verif.Props.IkVel
import Mathlib.LinearAlgebra.Matrix.Rank
import Mathlib.Algebra.Order.Chebyshev

/-! C101, third part: the Newton-Raphson solvers with the pseudo-inverse velocity solver of the library. -/

noncomputable section
namespace KDL
open Real Matrix

/-- `ChainIkSolverVel_pinv` as the velocity solver of a position solver.  `jac0` and `qdot0` are what its member `jac` and the caller's array hold before
the call of iteration `i`. -/
def pinvVel (c : Chain) (svd : (n : ℕ) → Matrix (Fin 6) (Fin n) ℝ → SvdOut 6 n) (eps : ℝ) (jac0 : ℕ → Jac) (qdot0 : ℕ → List ℝ) : VelSolver :=
  fun i q t => ((PinvState.new c eps).cartToJnt c svd (jac0 i) q t (qdot0 i)).bind fun
    | .done code qd => some (code, qd)
    | .nonfinite _ => none

/-- Every twist is reached by joint rates of at most `κ` times its Euclidean norm: the smallest singular value of the Jacobian is at least `1/κ`. -/
def Conditioned (c : Chain) (q : List ℝ) (κ : ℝ) : Prop :=
  ∀ t : Twist, ∃ d, d.length = c.nrOfJoints ∧ Solves c q d t ∧ (d.map fun x => x ^ 2).sum ≤ κ ^ 2 * (vlen t.vel ^ 2 + vlen t.rot ^ 2)

/-! ## helpers -/

theorem sqn_ofFn {n : ℕ} (f : Fin n → ℝ) : ((List.ofFn f).map fun x => x ^ 2).sum = sqn f := by
  rw [List.map_ofFn, List.sum_ofFn]
  unfold sqn
  exact Finset.sum_congr rfl fun i _ => by simp [pow_two]

theorem sqn_comp (t : Twist) : sqn t.comp = vlen t.vel ^ 2 + vlen t.rot ^ 2 := by
  rw [vlen_sq, vlen_sq]
  unfold sqn
  simp [Fin.sum_univ_succ, Twist.comp]
  ring

theorem exists_comp (f : Fin 6 → ℝ) : ∃ t : Twist, t.comp = f := by
  refine ⟨⟨⟨f 0, f 1, f 2⟩, ⟨f 3, f 4, f 5⟩⟩, ?_⟩
  funext i
  fin_cases i <;> rfl

/-- A non-zero singular value of a matrix with a bounded right inverse is bounded from below. -/
theorem singular_ge {m n : ℕ} {A : Matrix (Fin m) (Fin n) ℝ} {r : SvdOut m n} (h : IsDec A r) {κ : ℝ} (hκ : 0 < κ)
    (hA : ∀ y : Fin m → ℝ, ∃ x, A *ᵥ x = y ∧ sqn x ≤ κ ^ 2 * sqn y) (i : Fin n) (hi : r.S i ≠ 0) : 1 / κ ≤ r.S i := by
  obtain ⟨x, hx, hb⟩ := hA fun k => r.U k i
  have hu : sqn (fun k => r.U k i) = 1 := by
    have := h.orthU i i hi hi
    simpa [sqn] using this
  rw [hu, mul_one] at hb
  have e1 : ∑ k, r.U k i * (A *ᵥ x) k = r.S i * (r.Vᵀ *ᵥ x) i := by
    have e2 : A *ᵥ x = r.U *ᵥ (diagonal r.S *ᵥ (r.Vᵀ *ᵥ x)) := by
      conv_lhs => rw [h.fact]
      rw [Matrix.mulVec_mulVec, Matrix.mulVec_mulVec, Matrix.mul_assoc]
    rw [e2]
    generalize r.Vᵀ *ᵥ x = z
    have e3 : ∀ k, (r.U *ᵥ (diagonal r.S *ᵥ z)) k = ∑ j, r.U k j * (r.S j * z j) := by
      intro k
      simp [Matrix.mulVec, dotProduct, Matrix.mulVec_diagonal, Matrix.diagonal_apply]
    simp only [e3, Finset.mul_sum]
    rw [Finset.sum_comm]
    have e4 : ∀ j, ∑ k, r.U k i * (r.U k j * (r.S j * z j)) = if i = j then r.S i * z i else 0 := by
      intro j
      have : ∑ k, r.U k i * (r.U k j * (r.S j * z j)) = (∑ k, r.U k i * r.U k j) * (r.S j * z j) := by
        rw [Finset.sum_mul]; exact Finset.sum_congr rfl fun k _ => by ring
      rw [this]
      by_cases hj : r.S j = 0
      · have hij : i ≠ j := fun e => hi (e ▸ hj)
        simp [hj, hij]
      · rw [h.orthU i j hi hj]
        split_ifs with e
        · subst e; ring
        · ring
    simp [e4]
  rw [hx] at e1
  have e5 : r.S i * (r.Vᵀ *ᵥ x) i = 1 := by
    rw [← e1]
    simpa [sqn] using hu
  have e6 : (r.Vᵀ *ᵥ x) i ^ 2 ≤ κ ^ 2 := by
    have cs := Finset.sum_mul_sq_le_sq_mul_sq Finset.univ (fun k => r.V k i) x
    have hv : ∑ k, r.V k i ^ 2 = 1 := by
      have := h.orthV' i i hi hi
      simpa [pow_two] using this
    rw [hv, one_mul] at cs
    have : (r.Vᵀ *ᵥ x) i = ∑ k, r.V k i * x k := rfl
    rw [this]
    refine cs.trans (le_trans (le_of_eq ?_) hb)
    unfold sqn
    exact Finset.sum_congr rfl fun k _ => by ring
  have e7 := abs_le_of_sq_le_sq e6 hκ.le
  have e8 := (abs_le.mp e7).2
  rw [div_le_iff₀ hκ]
  have := mul_le_mul_of_nonneg_left e8 (h.nonneg i)
  linarith

open Classical in
theorem singular_count {n : ℕ} {A : Matrix (Fin 6) (Fin n) ℝ} {r : SvdOut 6 n} (h : IsDec A r) {κ eps : ℝ} (hκ : 0 < κ)
    (hA : ∀ y : Fin 6 → ℝ, ∃ x, A *ᵥ x = y ∧ sqn x ≤ κ ^ 2 * sqn y) (he : eps * κ ≤ 1) :
    6 ≤ (Finset.univ.filter fun i => eps ≤ |r.S i|).card := by
  have hr : A.rank = 6 := by
    have : LinearMap.range A.mulVecLin = ⊤ := by
      rw [LinearMap.range_eq_top]
      intro y
      obtain ⟨x, hx, _⟩ := hA y
      exact ⟨x, hx⟩
    rw [Matrix.rank, this, finrank_top]
    simp
  have h1 : A.rank ≤ (diagonal r.S).rank := by
    rw [h.fact]
    exact (Matrix.rank_mul_le_left _ _).trans (Matrix.rank_mul_le_right _ _)
  rw [hr, Matrix.rank_diagonal, Fintype.card_subtype] at h1
  refine h1.trans (Finset.card_le_card fun i hi => ?_)
  simp only [Finset.mem_filter, Finset.mem_univ, true_and] at hi ⊢
  have := singular_ge h hκ hA i hi
  rw [div_le_iff₀ hκ] at this
  refine le_trans ?_ (le_abs_self _)
  exact le_of_mul_le_mul_right (he.trans this) hκ

theorem turn_slide_le {σ : ℝ} (d : ℕ → ℝ) : ∀ (ss : List Segment) (j : ℕ), (∀ s ∈ ss, |s.joint.scale| ≤ σ) →
    turnSum d ss j + slideSum d ss j ≤ σ * ∑ i ∈ Finset.range (nMoving ss), |d (j + i)| := by
  intro ss
  induction ss with
  | nil => intro j _; simp [turnSum, slideSum, nMoving]
  | cons s ss ih =>
    intro j h
    have h1 := h s (by simp)
    have h2 : ∀ x ∈ ss, |x.joint.scale| ≤ σ := fun x hx => h x (by simp [hx])
    unfold turnSum slideSum
    by_cases hm : s.moving = true
    · rw [if_pos hm, if_pos hm]
      have hn : nMoving (s :: ss) = nMoving ss + 1 := by simp [nMoving, hm]
      rw [hn, Finset.sum_range_succ']
      have e : ∑ i ∈ Finset.range (nMoving ss), |d (j + (i + 1))| = ∑ i ∈ Finset.range (nMoving ss), |d (j + 1 + i)| :=
        Finset.sum_congr rfl fun i _ => by rw [show j + (i + 1) = j + 1 + i by omega]
      rw [e, add_zero]
      have := ih (j + 1) h2
      have hts : s.joint.turns (d j) + s.joint.slides (d j) ≤ σ * |d j| := by
        have hb : |s.joint.scale * d j| ≤ σ * |d j| := by
          rw [abs_mul]; exact mul_le_mul_of_nonneg_right h1 (abs_nonneg _)
        have h0 : 0 ≤ σ * |d j| := (abs_nonneg _).trans hb
        unfold Joint.turns Joint.slides
        cases s.joint.type <;> simp only [add_zero, zero_add] <;> assumption
      linarith
    · rw [if_neg hm, if_neg hm]
      have hn : nMoving (s :: ss) = nMoving ss := by simp [nMoving, hm]
      rw [hn]
      exact ih j h2

/-- Near a well conditioned Jacobian the pseudo-inverse solver returns `E_NOERROR` and a solution of its equation. -/
theorem pinvVel_solves (c : Chain) (hc : c.WF) (hn : c.nrOfJoints < 2 ^ 32) (svd : (n : ℕ) → Matrix (Fin 6) (Fin n) ℝ → SvdOut 6 n) (hs : GoodDec svd)
    (hsvd : ∀ A, (svd c.nrOfJoints A).code = 0) (eps : ℝ) (he : 0 < eps) (jac0 : ℕ → Jac) (hj : ∀ i, (jac0 i).length = c.nrOfJoints)
    (qdot0 : ℕ → List ℝ) (hqd : ∀ i, (qdot0 i).length = c.nrOfJoints) (q : List ℝ) (hq : q.length = c.nrOfJoints) (κ : ℝ) (hκ : 0 < κ)
    (hcond : Conditioned c q κ) (hek : eps * κ ≤ 1) (i : ℕ) (t : Twist) :
    ∃ d, pinvVel c svd eps jac0 qdot0 i q t = some (E_NOERROR, d) ∧ d.length = c.nrOfJoints ∧ Solves c q d t ∧
      (d.map fun x => x ^ 2).sum ≤ κ ^ 2 * (vlen t.vel ^ 2 + vlen t.rot ^ 2) := by
  obtain ⟨J, hJl, hJ, _, h2⟩ := C49_solution c hc svd hs eps he (jac0 i) q t (qdot0 i) (hj i) hq (hqd i)
  have hcode := hsvd (jacMat c.nrOfJoints J)
  obtain ⟨qd, h3, _, h4⟩ := h2 hcode
  have hsv := hs _ _ hcode
  have hz : (Jac.zeros c.nrOfJoints).length = c.nrOfJoints := by simp [Jac.zeros]
  have hk : segmentNr c (-1) ≤ c.nrOfSegments := by simp [segmentNr]
  have hJ0 : jntToJac c (List.replicate c.nrOfJoints false) q (Jac.zeros c.nrOfJoints) (-1) = some (E_NOERROR, J) := by
    rw [← hJ, jntToJac_unlocked c hc q _ (-1) hq hz hk, jntToJac_unlocked c hc q _ (-1) hq (hj i) hk]
  have hright : ∀ y : Fin 6 → ℝ, ∃ x, jacMat c.nrOfJoints J *ᵥ x = y ∧ sqn x ≤ κ ^ 2 * sqn y := by
    intro y
    obtain ⟨s, rfl⟩ := exists_comp y
    obtain ⟨d, k1, ⟨J', k2, k3⟩, k4⟩ := hcond s
    rw [hJ0] at k2
    simp only [Option.some.injEq, Prod.mk.injEq, true_and] at k2
    subst k2
    obtain ⟨f, rfl⟩ : ∃ f : Fin c.nrOfJoints → ℝ, d = List.ofFn f := ⟨fun i => d.get ⟨i, by omega⟩, by
      apply List.ext_get
      · simp [k1]
      · intro n h1 h2; simp⟩
    refine ⟨f, funext fun r => mulVec_multiplyJacobian J _ hJl f s k3 r, ?_⟩
    rw [sqn_ofFn] at k4
    rw [sqn_comp]
    exact k4
  have hcount := singular_count hsv hκ hright hek
  have h6 : 6 ≤ c.nrOfJoints := hcount.trans ((Finset.card_le_univ _).trans (by simp))
  have hcd := (C49_code_partial h6 hn (svd _ (jacMat c.nrOfJoints J)).S eps).2.mpr hcount
  have hmin := h4 (fun i hi => by
    by_contra h0
    have h5 := singular_ge hsv hκ hright i h0
    rw [div_le_iff₀ hκ] at h5
    have := mul_lt_mul_of_pos_right hi hκ
    linarith)
  obtain ⟨x, hx1, hx2⟩ := hright t.comp
  have hex : jacMat c.nrOfJoints J *ᵥ qd = t.comp := by
    have := hmin.1 x
    rw [hx1, sub_self] at this
    have h0 : sqn (jacMat c.nrOfJoints J *ᵥ qd - t.comp) = 0 := by
      refine le_antisymm (this.trans (le_of_eq (by simp [sqn]))) ?_
      exact Finset.sum_nonneg fun i _ => mul_self_nonneg _
    have h1 : jacMat c.nrOfJoints J *ᵥ qd - t.comp = 0 := by
      funext r
      have := (Finset.sum_eq_zero_iff_of_nonneg (fun i _ => mul_self_nonneg _)).mp h0 r (Finset.mem_univ _)
      exact mul_self_eq_zero.mp this
    exact sub_eq_zero.mp h1
  refine ⟨List.ofFn qd, ?_, by simp, ⟨J, hJ0, ?_⟩, ?_⟩
  · unfold pinvVel
    rw [h3, hcd]
    rfl
  · have hm : ∃ s, multiplyJacobian J (List.ofFn qd) = some s := by
      unfold multiplyJacobian
      rw [if_pos (by simpa using hJl)]
      exact ⟨_, rfl⟩
    obtain ⟨s, hm⟩ := hm
    rw [hm]
    congr 1
    refine Twist.ext_comp _ _ fun r => ?_
    rw [← mulVec_multiplyJacobian J _ hJl qd s hm r, hex]
  · rw [sqn_ofFn, ← sqn_comp]
    refine (hmin.2 x ?_).trans hx2
    rw [hx1, hex]

theorem travel_le (c : Chain) (hc : c.WF) {σ : ℝ} (hσ : ∀ s ∈ c.segments, |s.joint.scale| ≤ σ) (h0 : 0 ≤ σ) (d : List ℝ) (hd : d.length = c.nrOfJoints) :
    turning c d + sliding c d ≤ σ * √(c.nrOfJoints * (d.map fun x => x ^ 2).sum) := by
  have h := turn_slide_le (rd d) c.segments 0 hσ
  refine h.trans (mul_le_mul_of_nonneg_left ?_ h0)
  rw [← hc.2]
  refine Real.le_sqrt_of_sq_le ?_
  have cs := sq_sum_le_card_mul_sum_sq (s := Finset.range c.nrOfJoints) (f := fun i => |rd d (0 + i)|)
  rw [Finset.card_range] at cs
  refine cs.trans (le_of_eq ?_)
  congr 1
  obtain ⟨f, rfl⟩ : ∃ f : Fin c.nrOfJoints → ℝ, d = List.ofFn f := ⟨fun i => d.get ⟨i, by omega⟩, by
    apply List.ext_get
    · simp [hd]
    · intro n h1 h2; simp⟩
  rw [sqn_ofFn, Finset.sum_range]
  unfold sqn
  refine Finset.sum_congr rfl fun i _ => ?_
  rw [sq_abs, pow_two]
  simp [rd]

/-! ## the theorem -/

/-- `ChainIkSolverPos_NR` with `ChainIkSolverVel_pinv`: if near the start every twist is reached by joint rates of at most `κ` times its norm (the
singular values of the Jacobian are at least `1/κ`), none of them below the threshold `veps` of the velocity solver, and the start is near the goal,
then success is returned after at most 11 iterations and the goal is reached.  `K = σ √n κ` with a bound `σ` of the scales of the joints. -/
theorem C101_pinv (c : Chain) (hc : c.WF) (hv : c.Valid) (hn : c.nrOfJoints < 2 ^ 32) (svd : (n : ℕ) → Matrix (Fin 6) (Fin n) ℝ → SvdOut 6 n)
    (hs : GoodDec svd) (hsvd : ∀ A, (svd c.nrOfJoints A).code = 0) (veps : ℝ) (hve : 0 < veps) (jac0 : ℕ → Jac)
    (hj : ∀ i, (jac0 i).length = c.nrOfJoints) (qdot0 : ℕ → List ℝ) (hqd : ∀ i, (qdot0 i).length = c.nrOfJoints)
    (G : Frame) (hG : G.M.IsProper) (q0 : List ℝ) (hq0 : q0.length = c.nrOfJoints) (eps M L κ σ K : ℝ) (hκ : 0 < κ) (hek : veps * κ ≤ 1)
    (hσ : ∀ s ∈ c.segments, |s.joint.scale| ≤ σ) (hK : K = σ * √c.nrOfJoints * κ) (hK0 : 0 < K) (hL : 0 ≤ L) (hM0 : 1 / 10 ^ 5 ≤ M) (hM1 : M ≤ 1 / 10)
    (hclose : (L + 3) * K ^ 2 * M ≤ 1 / 4) (htol : (L + 3) * K ^ 2 * (41 / 10 ^ 12) ≤ eps)
    (hstart : ∀ X, fkPos c q0 (-1) = some (E_NOERROR, X) → dev X G ≤ M)
    (hcond : ∀ q, NearStart c q0 (K * (3 / 2 * M + 4 / 10 ^ 5)) q → Conditioned c q κ)
    (hreach : ∀ q q', NearStart c q0 (K * (3 / 2 * M + 4 / 10 ^ 5)) q → NearStart c q0 (K * (3 / 2 * M + 4 / 10 ^ 5)) q' → reach c q q' ≤ L)
    (maxiter : ℕ) (hm : 11 ≤ maxiter) (err : Int) (q_out : List ℝ) (ho : q_out.length = c.nrOfJoints) :
    NewtonSetting c (pinvVel c svd veps jac0 qdot0) G q0 eps M K L ∧
    ∃ q X, NrState.cartToJnt ⟨c.nrOfJoints, maxiter, eps, err⟩ c (fkOf c) (pinvVel c svd veps jac0 qdot0) q0 G q_out = some ⟨E_NOERROR, err, q⟩ ∧
      q.length = c.nrOfJoints ∧ apart c q0 q ≤ K * (3 / 2 * M + 4 / 10 ^ 5) ∧ fkPos c q (-1) = some (E_NOERROR, X) ∧
      vdist X.p G.p ≤ (7 * L + 21) * K ^ 2 * eps ^ 2 ∧
      vdist X.p G.p + rdist X.M G.M ≤ (7 * L + 21) * K ^ 2 * eps ^ 2 + 1733 / 10 ^ 9 := by
  have hσ0 : 0 ≤ σ := by
    by_contra h
    push Not at h
    have := Real.sqrt_nonneg (c.nrOfJoints : ℝ)
    have h1 : σ * √c.nrOfJoints * κ ≤ 0 := mul_nonpos_of_nonpos_of_nonneg (mul_nonpos_of_nonpos_of_nonneg h.le this) hκ.le
    linarith
  have hset : NewtonSetting c (pinvVel c svd veps jac0 qdot0) G q0 eps M K L := by
    refine ⟨hc, hv, hG, hK0, hL, hM0, hM1, hclose, htol, hq0, hstart, ?_, hreach⟩
    intro i q X hq hX
    obtain ⟨d, k1, k2, k3, k4⟩ := pinvVel_solves c hc hn svd hs hsvd veps hve jac0 hj qdot0 hqd q hq.1 κ hκ (hcond q hq) hek i (Frame.diff X G 1)
    refine ⟨d, k1, k2, k3, (travel_le c hc hσ hσ0 d k2).trans ?_⟩
    have v0 := vlen_nonneg (Frame.diff X G 1).vel
    have r0 := vlen_nonneg (Frame.diff X G 1).rot
    have h1 : √(c.nrOfJoints * (d.map fun x => x ^ 2).sum) ≤ √c.nrOfJoints * (κ * (vlen (Frame.diff X G 1).vel + vlen (Frame.diff X G 1).rot)) := by
      rw [Real.sqrt_mul (Nat.cast_nonneg _)]
      refine mul_le_mul_of_nonneg_left ?_ (Real.sqrt_nonneg _)
      rw [Real.sqrt_le_left (by positivity)]
      refine k4.trans ?_
      rw [mul_pow]
      refine mul_le_mul_of_nonneg_left ?_ (sq_nonneg κ)
      nlinarith
    rw [hK]
    have := mul_le_mul_of_nonneg_left h1 hσ0
    linarith
  exact ⟨hset, C101_converges c _ G q0 eps M K L hset maxiter hm err q_out ho⟩

/-! ## an instance -/

/-- A joint without offset. -/
def plainSegment (t : JointType) : Segment := ⟨"", ⟨"", t, 1, 0, 0, 0, 0, ⟨0, 0, 0⟩, ⟨0, 0, 0⟩⟩, RBI.zero, ⟨1, ⟨0, 0, 0⟩⟩⟩

/-- A Cartesian robot with a wrist of three intersecting axes. -/
def portal : Chain := ⟨6, 6, [plainSegment .TransX, plainSegment .TransY, plainSegment .TransZ, plainSegment .RotX, plainSegment .RotY, plainSegment .RotZ]⟩

theorem portal_fk (x y z a b c : ℝ) : fkPos portal [x, y, z, a, b, c] (-1) =
    some (E_NOERROR, ⟨Rot.rotX a * (Rot.rotY b * Rot.rotZ c), ⟨x, y, z⟩⟩) := by
  simp only [fkPos, portal, plainSegment, segmentNr, fkLoop, Segment.moving, Joint.moving]
  simp [fkLoop, Segment.pose, Joint.pose, Segment.moving, Joint.moving]
  ext <;> simp [Frame.ofRot, Frame.ofVec] <;> ring

theorem portal_jac (x y z a b c : ℝ) : jntToJac portal (List.replicate 6 false) [x, y, z, a, b, c] (Jac.zeros 6) (-1) =
    some (0, [⟨⟨1, 0, 0⟩, 0⟩, ⟨⟨0, 1, 0⟩, 0⟩, ⟨⟨0, 0, 1⟩, 0⟩, ⟨0, ⟨1, 0, 0⟩⟩, ⟨0, ⟨0, cos a, sin a⟩⟩, ⟨0, ⟨sin b, -(sin a * cos b), cos a * cos b⟩⟩]) := by
  simp [jntToJac, portal, plainSegment, segmentNr, jacLoop, Segment.moving, Joint.moving, Segment.pose, Joint.pose, Segment.twist, Joint.twist, E_NOERROR,
    Jac.setToZero, Jac.setColumn, Jac.changeRefPoint, Frame.ofRot, Frame.ofVec, List.replicate, Jac.zeros]
  refine ⟨?_, ?_, ?_, ?_, ?_, ?_⟩ <;> ext <;> simp [Rot.rotX, Rot.rotY, Rot.rotZ]

theorem portal_conditioned (x y z a b c : ℝ) (hb : |b| ≤ 1 / 10) : Conditioned portal [x, y, z, a, b, c] 2 := by
  intro t
  obtain ⟨⟨v1, v2, v3⟩, ⟨w1, w2, w3⟩⟩ := t
  have hcos : 9 / 10 ≤ cos b := by
    have := Real.one_sub_sq_div_two_le_cos (x := b)
    have h2 : b ^ 2 ≤ (1 / 10) ^ 2 := sq_le_sq' (by linarith [(abs_le.mp hb).1]) (abs_le.mp hb).2
    linarith
  have hc0 : cos b ≠ 0 := by linarith
  have hsin := sin_sq_add_cos_sq b
  have hsa := sin_sq_add_cos_sq a
  obtain ⟨p, hp⟩ : ∃ p, p = cos a * w2 + sin a * w3 := ⟨_, rfl⟩
  obtain ⟨r, hr⟩ : ∃ r, r = (-sin a * w2 + cos a * w3) / cos b := ⟨_, rfl⟩
  have hr' : r * cos b = -sin a * w2 + cos a * w3 := by rw [hr]; field_simp
  refine ⟨[v1, v2, v3, w1 - r * sin b, p, r], rfl, ⟨_, portal_jac x y z a b c, ?_⟩, ?_⟩
  · simp only [multiplyJacobian, List.length_cons, List.length_nil, if_true, List.zipWith_cons_cons, List.zipWith_nil_left, List.foldr_cons, List.foldr_nil]
    congr 1
    ext <;> simp
    · have : cos a * p - sin a * (r * cos b) = w2 := by rw [hr', hp]; linear_combination w2 * hsa
      linarith
    · have : sin a * p + cos a * (r * cos b) = w3 := by rw [hr', hp]; linear_combination w3 * hsa
      linarith
  · rw [vlen_sq, vlen_sq]
    simp only [List.map_cons, List.map_nil, List.sum_cons, List.sum_nil]
    have hpr : p ^ 2 + (r * cos b) ^ 2 = w2 ^ 2 + w3 ^ 2 := by rw [hr', hp]; linear_combination (w2 ^ 2 + w3 ^ 2) * hsa
    have h1 : 81 / 100 * r ^ 2 ≤ (r * cos b) ^ 2 := by
      have h4 : 81 / 100 ≤ cos b ^ 2 := by nlinarith
      rw [mul_pow, mul_comm]
      exact mul_le_mul_of_nonneg_left h4 (sq_nonneg r)
    have h2 : (w1 - r * sin b) ^ 2 ≤ 2 * w1 ^ 2 + 2 * (r * sin b) ^ 2 := by nlinarith [sq_nonneg (w1 + r * sin b)]
    have h3 : (r * sin b) ^ 2 ≤ 19 / 100 * r ^ 2 := by
      rw [mul_pow]
      have : sin b ^ 2 ≤ 19 / 100 := by nlinarith
      nlinarith [sq_nonneg r]
    nlinarith [sq_nonneg v1, sq_nonneg v2, sq_nonneg v3, sq_nonneg w1, sq_nonneg p]

theorem portal_near {q : List ℝ} {ρ : ℝ} (h : NearStart portal [0, 0, 0, 0, 0, 0] ρ q) :
    ∃ x y z a b c, q = [x, y, z, a, b, c] ∧ |a| + |b| + |c| + (|x| + |y| + |z|) ≤ ρ := by
  obtain ⟨h1, h2⟩ := h
  match q, h1 with
  | [x, y, z, a, b, c], _ =>
    refine ⟨x, y, z, a, b, c, rfl, ?_⟩
    simp [apart, portal, plainSegment, turnSum, slideSum, Segment.moving, Joint.moving, Joint.turns, Joint.slides, rd] at h2
    linarith

/-- The hypotheses of `C101_pinv` can be met. -/
example : ∃ svd veps jac0 qdot0, ∃ q X, NrState.cartToJnt ⟨6, 11, 1 / 10 ^ 6, 0⟩ portal (fkOf portal) (pinvVel portal svd veps jac0 qdot0)
      [0, 0, 0, 0, 0, 0] ⟨1, ⟨1 / 1000, 0, 0⟩⟩ (List.replicate 6 7) = some ⟨E_NOERROR, 0, q⟩ ∧ fkPos portal q (-1) = some (E_NOERROR, X) ∧
      rdist X.M 1 ≤ 2 / 10 ^ 6 := by
  obtain ⟨svd, hs, hcode⟩ := exists_goodSvd
  refine ⟨svd, 1 / 10 ^ 5, fun _ => Jac.zeros 6, fun _ => List.replicate 6 0, ?_⟩
  have hK2 : (1 * √((6 : ℕ) : ℝ) * 2) ^ 2 = 24 := by
    rw [mul_pow, mul_pow, Real.sq_sqrt (by norm_num)]; norm_num
  have hK0 : 0 < 1 * √((6 : ℕ) : ℝ) * 2 := by positivity
  have hK5 : 1 * √((6 : ℕ) : ℝ) * 2 ≤ 5 := by nlinarith
  have hρ : 1 * √((6 : ℕ) : ℝ) * 2 * (3 / 2 * (1 / 1000) + 4 / 10 ^ 5) ≤ 1 / 10 := by
    have := mul_le_mul_of_nonneg_right hK5 (by norm_num : (0 : ℝ) ≤ 3 / 2 * (1 / 1000) + 4 / 10 ^ 5)
    norm_num at this ⊢
    linarith
  obtain ⟨K, hK⟩ : ∃ K, K = 1 * √((6 : ℕ) : ℝ) * 2 := ⟨_, rfl⟩
  rw [← hK] at hK2 hK0 hρ
  obtain ⟨_, q, X, h1, _, _, h2, _, h3⟩ := C101_pinv portal
    (by exact ⟨rfl, by simp [portal, plainSegment, nMoving, Segment.moving, Joint.moving]⟩)
    (by
      intro s hs'
      simp only [portal, List.mem_cons, List.not_mem_nil, or_false] at hs'
      rcases hs' with rfl | rfl | rfl | rfl | rfl | rfl <;> exact ⟨fun h => by simp [plainSegment] at h, Rot.IsProper.one⟩)
    (by norm_num [portal]) svd hs.dec (hcode _) (1 / 10 ^ 5) (by norm_num) (fun _ => Jac.zeros 6) (fun _ => by simp [Jac.zeros, portal])
    (fun _ => List.replicate 6 0) (fun _ => by simp [portal]) ⟨1, ⟨1 / 1000, 0, 0⟩⟩ Rot.IsProper.one [0, 0, 0, 0, 0, 0] rfl (1 / 10 ^ 6) (1 / 1000) 1 2 1 K
    (by norm_num) (by norm_num)
    (by
      intro s hs'
      simp only [portal, List.mem_cons, List.not_mem_nil, or_false] at hs'
      rcases hs' with rfl | rfl | rfl | rfl | rfl | rfl <;> simp [plainSegment])
    hK hK0 (by norm_num) (by norm_num) (by norm_num) (by rw [hK2]; norm_num) (by rw [hK2]; norm_num)
    (by
      intro X hX
      rw [portal_fk] at hX
      simp only [Option.some.injEq, Prod.mk.injEq, true_and] at hX
      subst hX
      have e : Rot.rotX 0 * (Rot.rotY 0 * Rot.rotZ 0) = 1 := by ext <;> simp [Rot.rotX, Rot.rotY, Rot.rotZ]
      have h2 : vdist ⟨0, 0, 0⟩ ⟨1 / 1000, 0, 0⟩ = 1 / 1000 := by
        unfold vdist
        rw [Real.sqrt_eq_iff_mul_self_eq (by positivity) (by positivity)]
        norm_num
      unfold dev
      simp only [e, h2]
      simp [rdist])
    (by
      intro q hq
      obtain ⟨x, y, z, a, b, c, rfl, h⟩ := portal_near hq
      have := abs_nonneg a; have := abs_nonneg c; have := abs_nonneg x; have := abs_nonneg y; have := abs_nonneg z
      exact portal_conditioned x y z a b c (by linarith))
    (by
      intro q q' hq hq'
      obtain ⟨x, y, z, a, b, c, rfl, h⟩ := portal_near hq
      obtain ⟨x', y', z', a', b', c', rfl, h'⟩ := portal_near hq'
      have e : reach portal [x, y, z, a, b, c] [x', y', z', a', b', c'] = |x| + |x'| + (|y| + |y'| + (|z| + |z'|)) := by
        simp [reach, portal, plainSegment, spanSum, Segment.span, Joint.extension, Segment.moving, Joint.moving, rd, vlen]
      rw [e]
      have := abs_nonneg a; have := abs_nonneg b; have := abs_nonneg c
      have := abs_nonneg a'; have := abs_nonneg b'; have := abs_nonneg c'
      linarith)
    11 le_rfl 0 (List.replicate 6 7) rfl
  refine ⟨q, X, h1, h2, ?_⟩
  have := vdist_nonneg' X.p ⟨1 / 1000, 0, 0⟩
  rw [hK2] at h3
  norm_num at h3 ⊢
  linarith

end KDL
