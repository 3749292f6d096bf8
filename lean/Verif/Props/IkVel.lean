import Verif.Model.IkVel
import Verif.Lemmas.Svd
import Verif.Lemmas.JacDot
import Verif.Props.ForwardKinematics
import Mathlib.Algebra.BigOperators.Field

/-!
# C49–C51: inverse velocity solvers
-/

noncomputable section

namespace KDL

open Matrix

/-- What the solvers use of the decomposition: `A = U diag(S) Vᵀ` with an orthogonal `V`, columns of `U` that are orthonormal
where the singular value does not vanish, and non-negative singular values. -/
structure IsDec {m n : ℕ} (A : Matrix (Fin m) (Fin n) ℝ) (r : SvdOut m n) : Prop where
  fact : A = r.U * diagonal r.S * r.Vᵀ
  orthV : r.Vᵀ * r.V = 1
  orthU : OrthOn r.U r.S
  nonneg : ∀ i, 0 ≤ r.S i

/-- The same with sorted singular values: `svd_eigen_HH` sorts, `SVD_HH::calculate` does not. -/
structure IsSvd {m n : ℕ} (A : Matrix (Fin m) (Fin n) ℝ) (r : SvdOut m n) : Prop extends IsDec A r where
  sorted : Antitone r.S

/-- A decomposition routine that keeps the promise of `IsDec` whenever it returns 0. -/
def GoodDec (svd : (n : ℕ) → Matrix (Fin 6) (Fin n) ℝ → SvdOut 6 n) : Prop :=
  ∀ n A, (svd n A).code = 0 → IsDec A (svd n A)

/-- The same with sorted singular values. -/
def GoodSvd (svd : (n : ℕ) → Matrix (Fin 6) (Fin n) ℝ → SvdOut 6 n) : Prop :=
  ∀ n A, (svd n A).code = 0 → IsSvd A (svd n A)

theorem GoodSvd.dec {svd : (n : ℕ) → Matrix (Fin 6) (Fin n) ℝ → SvdOut 6 n} (h : GoodSvd svd) : GoodDec svd :=
  fun n A hc => (h n A hc).toIsDec

/-- Square of the Euclidean norm. -/
def sqn {ι : Type*} [Fintype ι] (x : ι → ℝ) : ℝ := ∑ i, x i * x i

/-- `q` is a least-squares solution of `A q = v`, and of all of them the one of least Euclidean norm. -/
def MinNormLsq {m n : ℕ} (A : Matrix (Fin m) (Fin n) ℝ) (v : Fin m → ℝ) (q : Fin n → ℝ) : Prop :=
  (∀ q', sqn (A *ᵥ q - v) ≤ sqn (A *ᵥ q' - v)) ∧
    ∀ q', sqn (A *ᵥ q' - v) = sqn (A *ᵥ q - v) → sqn q ≤ sqn q'

/-- The matrix with the singular values below `eps` set to zero. -/
def truncMat {m n : ℕ} (r : SvdOut m n) (eps : ℝ) : Matrix (Fin m) (Fin n) ℝ := r.U * diagonal (truncS r.S eps) * r.Vᵀ

theorem IsDec.orthV' {m n : ℕ} {A : Matrix (Fin m) (Fin n) ℝ} {r : SvdOut m n} (h : IsDec A r) : OrthOn r.V r.S := by
  intro i j _ _
  have := congrFun (congrFun h.orthV i) j
  rw [Matrix.mul_apply, Matrix.one_apply] at this
  simpa [Matrix.transpose_apply] using this

theorem IsDec.trunc_eq {n : ℕ} {A : Matrix (Fin 6) (Fin n) ℝ} {r : SvdOut 6 n} (h : IsDec A r) (eps : ℝ)
    (hs : ∀ i, r.S i < eps → r.S i = 0) : truncMat r eps = A := by
  rw [truncMat, KDL.trunc_eq (S := r.S) (fun i hi => hs i (by rwa [abs_of_nonneg (h.nonneg i)] at hi)), ← h.fact]

theorem minNorm_pinv {m n : ℕ} {A : Matrix (Fin m) (Fin n) ℝ} {r : SvdOut m n} (h : IsDec A r) (eps : ℝ) (he : 0 < eps)
    (v : Fin m → ℝ) : MinNormLsq (truncMat r eps) v ((r.V * diagonal (invS r.S eps) * r.Uᵀ) *ᵥ v) := by
  obtain ⟨h1, y, hy⟩ := pinv_normal r.U r.S r.V h.orthU h.orthV' eps he v
  obtain ⟨h2, h3⟩ := lsq_of_normal _ _ _ h1
  exact ⟨h2, fun q' hq' => h3 y hy q' hq'.le⟩

theorem pinvQdot_eq {n : ℕ} (U : Matrix (Fin 6) (Fin n) ℝ) (S : Fin n → ℝ) (V : Matrix (Fin n) (Fin n) ℝ) (eps : ℝ)
    (v : Twist) : pinvQdot U S V eps v = (V * diagonal (invS S eps) * Uᵀ) *ᵥ v.comp := by
  funext i
  rw [Matrix.mul_assoc, ← Matrix.mulVec_mulVec]
  unfold pinvQdot Matrix.mulVec dotProduct
  refine Finset.sum_congr rfl fun j _ => ?_
  congr 1
  unfold pinvTmp
  simp only [Matrix.diagonal_mul, Matrix.transpose_apply, invS]
  split_ifs
  · simp
  · rw [Finset.sum_div]
    exact Finset.sum_congr rfl fun r _ => by ring

theorem jac_ok (c : Chain) (hc : c.WF) (q : List ℝ) (hq : q.length = c.nrOfJoints) (jac0 : Jac)
    (h0 : jac0.length = c.nrOfJoints) : ∃ J : Jac, J.length = c.nrOfJoints ∧
      jntToJac c (List.replicate c.nrOfJoints false) q jac0 (-1) = some (E_NOERROR, J) := by
  have hk : segmentNr c (-1) ≤ c.nrOfSegments := by simp [segmentNr]
  refine ⟨_, ?_, jntToJac_unlocked c hc q jac0 (-1) hq h0 hk⟩
  have hb : nMoving (c.segments.take (segmentNr c (-1))) ≤ c.nrOfJoints := by rw [hc.2]; exact nMoving_take_le _ _
  simp [colsF_length]; omega

theorem Twist.comp_add (a b : Twist) (r : Fin 6) : (a + b).comp r = a.comp r + b.comp r := by
  fin_cases r <;> simp [Twist.comp]
theorem Twist.comp_smul (x : ℝ) (a : Twist) (r : Fin 6) : (x • a).comp r = x * a.comp r := by
  fin_cases r <;> simp [Twist.comp]
theorem Twist.comp_zero (r : Fin 6) : (0 : Twist).comp r = 0 := by fin_cases r <;> simp [Twist.comp]
theorem Twist.ext_comp (a b : Twist) (h : ∀ r, a.comp r = b.comp r) : a = b := by
  have h0 := h 0; have h1 := h 1; have h2 := h 2; have h3 := h 3; have h4 := h 4; have h5 := h 5
  simp only [Twist.comp] at h0 h1 h2 h3 h4 h5
  ext <;> assumption

/-- The product of the Jacobian matrix with a vector is `MultiplyJacobian`. -/
theorem mulVec_multiplyJacobian (J : Jac) (n : ℕ) (hJ : J.length = n) (qd : Fin n → ℝ) (t : Twist)
    (h : multiplyJacobian J (List.ofFn qd) = some t) (r : Fin 6) : (jacMat n J *ᵥ qd) r = t.comp r := by
  unfold multiplyJacobian at h
  rw [if_pos (by simpa using hJ), Option.some.injEq] at h
  rw [← h]
  clear h
  induction J generalizing n with
  | nil => subst hJ; simp [Matrix.mulVec, dotProduct, Twist.comp_zero]
  | cons a J ih =>
    obtain ⟨k, rfl⟩ : ∃ k, n = k + 1 := ⟨n - 1, by simp at hJ; omega⟩
    have := ih k (by simpa using hJ) (fun i => qd i.succ)
    simp only [List.ofFn_succ, List.zipWith_cons_cons, List.foldr_cons, Twist.comp_add, Twist.comp_smul, ← this]
    simp only [Matrix.mulVec, dotProduct, Fin.sum_univ_succ, jacMat]
    simp [mul_comm]

/-! ## C49 -/

open Classical in
theorem pinv_cart (s : PinvState) (c : Chain) (svd : (n : ℕ) → Matrix (Fin 6) (Fin n) ℝ → SvdOut 6 n) (jac0 J : Jac)
    (q : List ℝ) (v : Twist) (qdot : List ℝ) (hn : s.nj = c.nrOfJoints) (hq : q.length = s.nj) (hqd : qdot.length = s.nj)
    (hJ : jntToJac c (List.replicate s.nj false) q jac0 (-1) = some (E_NOERROR, J)) :
    s.cartToJnt c svd jac0 q v qdot =
      if (svd s.nj (jacMat s.nj J)).code ≠ 0 then some (.done E_SVD_FAILED (List.replicate s.nj 0))
      else if ∃ i, ¬ |(svd s.nj (jacMat s.nj J)).S i| < s.eps ∧ (svd s.nj (jacMat s.nj J)).S i = 0 then
        some (.nonfinite (pinvCode (svd s.nj (jacMat s.nj J)).S s.eps))
      else some (.done (pinvCode (svd s.nj (jacMat s.nj J)).S s.eps)
        (List.ofFn (pinvQdot (svd s.nj (jacMat s.nj J)).U (svd s.nj (jacMat s.nj J)).S (svd s.nj (jacMat s.nj J)).V
          s.eps v))) := by
  unfold PinvState.cartToJnt
  rw [if_neg (by simp [hn]), if_neg (by simp [hq, hqd]), hJ]
  exact if_neg (c := E_NOERROR < E_NOERROR) (t := some (VelOut.done E_NOERROR qdot)) (by simp [E_NOERROR])

/-- `ChainIkSolverVel_pinv::CartToJnt` on consistent sizes and `eps > 0`: defined behaviour and finite; if the
decomposition fails the answer is `E_SVD_FAILED` with zero velocities; otherwise the joint velocity is the minimum norm
least-squares solution for the Jacobian with the singular values below `eps` discarded, and for the Jacobian itself if
its non-zero singular values are at least `eps`. -/
theorem C49_solution (c : Chain) (hc : c.WF) (svd : (n : ℕ) → Matrix (Fin 6) (Fin n) ℝ → SvdOut 6 n) (hs : GoodDec svd)
    (eps : ℝ) (he : 0 < eps) (jac0 : Jac) (q : List ℝ) (v : Twist) (qdot : List ℝ) (h0 : jac0.length = c.nrOfJoints)
    (hq : q.length = c.nrOfJoints) (hqd : qdot.length = c.nrOfJoints) :
    ∃ J : Jac, J.length = c.nrOfJoints ∧
      jntToJac c (List.replicate c.nrOfJoints false) q jac0 (-1) = some (E_NOERROR, J) ∧
      ((svd _ (jacMat c.nrOfJoints J)).code ≠ 0 → (PinvState.new c eps).cartToJnt c svd jac0 q v qdot =
        some (.done E_SVD_FAILED (List.replicate c.nrOfJoints 0))) ∧
      ((svd _ (jacMat c.nrOfJoints J)).code = 0 → ∃ qd : Fin c.nrOfJoints → ℝ,
        (PinvState.new c eps).cartToJnt c svd jac0 q v qdot =
          some (.done (pinvCode (svd _ (jacMat c.nrOfJoints J)).S eps) (List.ofFn qd)) ∧
        MinNormLsq (truncMat (svd _ (jacMat c.nrOfJoints J)) eps) v.comp qd ∧
        ((∀ i, (svd _ (jacMat c.nrOfJoints J)).S i < eps → (svd _ (jacMat c.nrOfJoints J)).S i = 0) →
          MinNormLsq (jacMat c.nrOfJoints J) v.comp qd)) := by
  obtain ⟨J, hJl, hJ⟩ := jac_ok c hc q hq jac0 h0
  have hp := pinv_cart (PinvState.new c eps) c svd jac0 J q v qdot rfl hq hqd hJ
  refine ⟨J, hJl, hJ, fun hcode => hp.trans (if_pos hcode), fun hcode => ?_⟩
  · have hsv := hs _ _ hcode
    refine ⟨pinvQdot (svd _ (jacMat c.nrOfJoints J)).U (svd _ (jacMat c.nrOfJoints J)).S
      (svd _ (jacMat c.nrOfJoints J)).V eps v, ?_, ?_, ?_⟩
    · refine hp.trans ((if_neg (not_not.mpr hcode)).trans (if_neg ?_))
      rintro ⟨i, h1, h2⟩
      rw [h2, abs_zero] at h1
      exact h1 he
    · rw [pinvQdot_eq]
      exact minNorm_pinv hsv eps he _
    · intro ht
      rw [pinvQdot_eq]
      have := minNorm_pinv hsv eps he v.comp
      rwa [hsv.trunc_eq eps ht] at this

open Classical in
/-- For 6 joints and more the code tells exactly whether fewer than six singular values reach `eps`.  Partial: the claim for
every number of joints, that the singular code is returned iff the Jacobian loses rank, is refuted for fewer than six joints
by `C49_singular_violated`. -/
theorem C49_code_partial {n : ℕ} (h6 : 6 ≤ n) (hn : n < 2 ^ 32) (S : Fin n → ℝ) (eps : ℝ) :
    (pinvCode S eps = E_CONVERGE_PINV_SINGULAR ↔ (Finset.univ.filter fun i => eps ≤ |S i|).card < 6) ∧
    (pinvCode S eps = E_NOERROR ↔ 6 ≤ (Finset.univ.filter fun i => eps ≤ |S i|).card) := by
  have h1 : uSub n 6 = n - 6 := by unfold uSub; omega
  have h2 : nrZeroSigmas S eps + (Finset.univ.filter fun i => eps ≤ |S i|).card = n := by
    have := Finset.card_filter_add_card_filter_not (s := (Finset.univ : Finset (Fin n))) (fun i => |S i| < eps)
    simp only [not_lt, Finset.card_univ, Fintype.card_fin] at this
    unfold nrZeroSigmas
    convert this
  unfold pinvCode
  rw [h1]
  split_ifs with h
  · simp only [E_CONVERGE_PINV_SINGULAR, E_NOERROR, true_iff, Int.reduceEq, false_iff]; omega
  · simp only [E_CONVERGE_PINV_SINGULAR, E_NOERROR, true_iff, Int.reduceEq, false_iff]; omega

theorem full_rank {n : ℕ} {A : Matrix (Fin 6) (Fin n) ℝ} {r : SvdOut 6 n} (h : IsDec A r) (eps : ℝ) (he : 0 < eps)
    (hr : open Classical in 6 ≤ (Finset.univ.filter fun i => eps ≤ |r.S i|).card) (v : Fin 6 → ℝ) :
    A *ᵥ ((r.V * diagonal (invS r.S eps) * r.Uᵀ) *ᵥ v) = v := by
  classical
  obtain ⟨t, ht, hcard⟩ := Finset.exists_subset_card_eq hr
  let e := t.orderEmbOfFin hcard
  have hmem : ∀ a, eps ≤ |r.S (e a)| := fun a => by
    have := ht (Finset.orderEmbOfFin_mem t hcard a)
    exact (Finset.mem_filter.mp this).2
  have hne : ∀ a, r.S (e a) ≠ 0 := fun a h0 => by have := hmem a; rw [h0, abs_zero] at this; linarith
  let W : Matrix (Fin 6) (Fin 6) ℝ := fun x a => r.U x (e a)
  have hW : Wᵀ * W = 1 := by
    ext a b
    rw [Matrix.mul_apply, Matrix.one_apply]
    refine (h.orthU (e a) (e b) (hne a) (hne b)).trans ?_
    simp [e.injective.eq_iff]
  have hW' : W * Wᵀ = 1 := mul_eq_one_comm.mp hW
  -- a preimage of `v` under the truncated matrix
  let z : Fin n → ℝ := fun i => ∑ a, if i = e a then (Wᵀ *ᵥ v) a / r.S i else 0
  have hz : truncMat r eps *ᵥ (r.V *ᵥ z) = v := by
    unfold truncMat
    rw [Matrix.mulVec_mulVec, Matrix.mul_assoc, Matrix.mul_assoc, h.orthV, Matrix.mul_one, ← Matrix.mulVec_mulVec]
    funext x
    simp only [Matrix.mulVec, dotProduct, Matrix.diagonal_apply, ite_mul, zero_mul, Finset.sum_ite_eq, Finset.mem_univ,
      if_true]
    have : ∀ i, r.U x i * (truncS r.S eps i * z i) = ∑ a, if i = e a then W x a * (Wᵀ *ᵥ v) a else 0 := by
      intro i
      simp only [z, Finset.mul_sum]
      refine Finset.sum_congr rfl fun a _ => ?_
      split_ifs with hi
      · subst hi
        have : truncS r.S eps (e a) = r.S (e a) := by unfold truncS; rw [if_neg (not_lt.mpr (hmem a))]
        rw [this, mul_div_cancel₀ _ (hne a)]
      · simp
    rw [Finset.sum_congr rfl fun i _ => this i, Finset.sum_comm]
    simp only [Finset.sum_ite_eq', Finset.mem_univ, if_true]
    have := congrFun (congrArg (· *ᵥ v) hW') x
    simp only [← Matrix.mulVec_mulVec, Matrix.one_mulVec] at this
    exact this
  -- hence the least-squares error is zero
  have hm := (minNorm_pinv h eps he v).1 (r.V *ᵥ z)
  rw [hz, sub_self] at hm
  have h0 : truncMat r eps *ᵥ ((r.V * diagonal (invS r.S eps) * r.Uᵀ) *ᵥ v) - v = 0 := by
    have hnn := dot_self_nonneg' (truncMat r eps *ᵥ ((r.V * diagonal (invS r.S eps) * r.Uᵀ) *ᵥ v) - v)
    refine dotProduct_self_eq_zero.mp (le_antisymm ?_ hnn)
    refine le_trans (le_of_eq ?_) (hm.trans (le_of_eq ?_))
    · simp [sqn, dotProduct]
    · simp [sqn]
  have h1 : A *ᵥ ((r.V * diagonal (invS r.S eps) * r.Uᵀ) *ᵥ v) =
      truncMat r eps *ᵥ ((r.V * diagonal (invS r.S eps) * r.Uᵀ) *ᵥ v) := by
    rw [Matrix.mulVec_mulVec, Matrix.mulVec_mulVec]
    congr 1
    conv_lhs => rw [h.fact]
    unfold truncMat
    have e1 : r.U * diagonal r.S * r.Vᵀ * (r.V * diagonal (invS r.S eps) * r.Uᵀ) =
        r.U * (diagonal r.S * (r.Vᵀ * r.V) * diagonal (invS r.S eps)) * r.Uᵀ := by simp only [Matrix.mul_assoc]
    have e2 : r.U * diagonal (truncS r.S eps) * r.Vᵀ * (r.V * diagonal (invS r.S eps) * r.Uᵀ) =
        r.U * (diagonal (truncS r.S eps) * (r.Vᵀ * r.V) * diagonal (invS r.S eps)) * r.Uᵀ := by
      simp only [Matrix.mul_assoc]
    rw [e1, e2, h.orthV, Matrix.mul_one, Matrix.mul_one, Matrix.diagonal_mul_diagonal, Matrix.diagonal_mul_diagonal]
    congr 3
    funext i
    rw [mul_comm, (trunc_mul_inv he i).2.2.1]
  rw [h1]
  exact sub_eq_zero.mp h0

/-- For 6 joints and more, `E_NOERROR` means that the requested twist is achieved exactly: the forward velocity solver
applied to `q_in` and the returned joint velocity gives `v_in`. -/
theorem C49_exact (c : Chain) (hc : c.WF) (svd : (n : ℕ) → Matrix (Fin 6) (Fin n) ℝ → SvdOut 6 n) (hs : GoodDec svd)
    (eps : ℝ) (he : 0 < eps) (jac0 : Jac) (q : List ℝ) (v : Twist) (qdot out : List ℝ)
    (h0 : jac0.length = c.nrOfJoints) (hq : q.length = c.nrOfJoints) (hqd : qdot.length = c.nrOfJoints)
    (h6 : 6 ≤ c.nrOfJoints) (hn : c.nrOfJoints < 2 ^ 32)
    (h : (PinvState.new c eps).cartToJnt c svd jac0 q v qdot = some (.done E_NOERROR out)) :
    ∃ F : FrameVel, fkVel c q out (-1) = some (E_NOERROR, F) ∧ F.getTwist = v := by
  obtain ⟨J, hJl, hJ⟩ := jac_ok c hc q hq jac0 h0
  rw [pinv_cart (PinvState.new c eps) c svd jac0 J q v qdot rfl hq hqd hJ] at h
  by_cases hcode : (svd _ (jacMat c.nrOfJoints J)).code ≠ 0
  · have h := (if_pos hcode).symm.trans h
    simp [E_SVD_FAILED, E_NOERROR] at h
  have h := (if_neg hcode).symm.trans h
  have hsv := hs _ _ (not_not.mp hcode)
  have h := (if_neg (by
    rintro ⟨i, h1, h2⟩
    rw [h2, abs_zero] at h1
    exact h1 he)).symm.trans h
  simp only [Option.some.injEq, VelOut.done.injEq] at h
  obtain ⟨hc0, hout⟩ := h
  have hfull := full_rank hsv eps he (((C49_code_partial h6 hn _ _).2.mp hc0)) v.comp
  rw [← pinvQdot_eq] at hfull
  have hol : out.length = c.nrOfJoints := by rw [← hout]; exact List.length_ofFn
  obtain ⟨J', F, hJ', _, hF, hm⟩ := C27_jac c hc q out jac0 (-1) hq hol h0 (by simp [segmentNr])
  rw [hJ] at hJ'
  cases hJ'
  refine ⟨F, hF, Twist.ext_comp _ _ fun x => ?_⟩
  rw [← hout] at hm
  exact (mulVec_multiplyJacobian J _ hJl _ _ hm x).symm.trans (congrFun hfull x)

/-- Below 6 joints the code never reports a singular Jacobian, because `jac.columns() - jac.rows()` wraps around. -/
theorem C49_code_small {n : ℕ} (h6 : n < 6) (S : Fin n → ℝ) (eps : ℝ) : pinvCode S eps = E_NOERROR := by
  unfold pinvCode
  refine if_neg ?_
  have h1 : nrZeroSigmas S eps ≤ n := by
    unfold nrZeroSigmas
    exact (Finset.card_le_univ _).trans (by simp)
  have h2 : uSub n 6 = 2 ^ 32 + n - 6 := by unfold uSub; omega
  rw [h2]
  omega


/-- There is a decomposition routine that keeps the promise and never fails, so the hypotheses of this file can be met. -/
theorem exists_goodSvd : ∃ svd, GoodSvd svd ∧ ∀ n A, (svd n A).code = 0 := by
  have h : ∀ n (A : Matrix (Fin 6) (Fin n) ℝ), ∃ r : SvdOut 6 n, IsSvd A r ∧ r.code = 0 := by
    intro n A
    obtain ⟨U, S, V, h1, h2, h3, h4, h5⟩ := exists_svd A
    exact ⟨⟨0, U, S, V⟩, ⟨⟨h1, h2, h3, h4⟩, h5⟩, rfl⟩
  choose f hf using h
  exact ⟨f, fun n A _ => (hf n A).1, fun n A => (hf n A).2⟩

theorem svd_zero_of_kernel {m n : ℕ} {A : Matrix (Fin m) (Fin n) ℝ} {r : SvdOut m n} (h : IsDec A r) (x : Fin n → ℝ)
    (hx : x ≠ 0) (hA : A *ᵥ x = 0) : ∃ i, r.S i = 0 := by
  by_contra hne
  push Not at hne
  have s1 := sandwich h.orthU r.S r.S (fun i _ => hne i) (fun i _ => hne i)
  have h1 : (diagonal (fun i => r.S i * r.S i)) *ᵥ (r.Vᵀ *ᵥ x) = 0 := by
    rw [← s1, Matrix.mulVec_mulVec]
    have : diagonal r.S * (r.Uᵀ * r.U) * diagonal r.S * r.Vᵀ = diagonal r.S * r.Uᵀ * A := by
      conv_rhs => rw [h.fact]
      simp only [Matrix.mul_assoc]
    rw [this, ← Matrix.mulVec_mulVec, hA, Matrix.mulVec_zero]
  have h2 : r.Vᵀ *ᵥ x = 0 := by
    funext i
    have := congrFun h1 i
    rw [Matrix.mulVec_diagonal] at this
    simpa [hne i] using this
  apply hx
  have h3 : r.V * r.Vᵀ = 1 := mul_eq_one_comm.mp h.orthV
  have h4 := congrArg (r.V *ᵥ ·) h2
  simp only [Matrix.mulVec_mulVec, h3, Matrix.one_mulVec, Matrix.mulVec_zero] at h4
  exact h4

/-- A segment that translates along the x axis and has no length. -/
def slideX : Segment := ⟨"x", ⟨"x", .TransX, 1, 0, 0, 0, 0, 0, 0⟩, RBI.zero, 1⟩
/-- A chain of `n` such segments. -/
def slides (n : ℕ) : Chain := ⟨n, n, List.replicate n slideX⟩

theorem slides_wf (n : ℕ) : (slides n).WF := by
  have hm : slideX.moving = true := rfl
  refine ⟨by simp [slides], ?_⟩
  simp [slides, nMoving, List.countP_replicate, hm]

theorem slides_cols (q : ℕ → ℝ) (n j : ℕ) (T : Frame) (hT : T.M = 1) :
    colsF q (List.replicate n slideX) j T = List.replicate n ⟨⟨1, 0, 0⟩, 0⟩ := by
  have hm : slideX.moving = true := rfl
  induction n generalizing j T with
  | zero => rfl
  | succ n ih =>
    rw [List.replicate_succ]
    unfold colsF
    rw [if_pos hm, ih _ _ (by simp [hT, Segment.pose, Joint.pose, slideX, Frame.ofVec, Frame.mul_M]), List.replicate_succ]
    congr 1
    rw [hT]
    simp only [Segment.twist, Joint.twist, slideX]
    ext <;> simp

theorem slides_jac (n : ℕ) (q : List ℝ) (hq : q.length = n) (jac0 : Jac) (h0 : jac0.length = n) :
    jntToJac (slides n) (List.replicate n false) q jac0 (-1) = some (E_NOERROR, List.replicate n ⟨⟨1, 0, 0⟩, 0⟩) := by
  have h := jntToJac_unlocked (slides n) (slides_wf n) q jac0 (-1) hq h0 (by simp [segmentNr])
  refine h.trans ?_
  have hs : (slides n).segments.take (segmentNr (slides n) (-1)) = List.replicate n slideX := by
    simp [slides, segmentNr]
  have hm : nMoving (List.replicate n slideX) = n := by simp [nMoving, List.countP_replicate, show slideX.moving = true from rfl]
  rw [hs, slides_cols _ _ _ _ rfl, hm]
  simp [slides]

theorem slides_singular (n : ℕ) (hn : 2 ≤ n) {r : SvdOut 6 n}
    (h : IsDec (jacMat n (List.replicate n ⟨⟨1, 0, 0⟩, 0⟩)) r) : ∃ i, r.S i = 0 := by
  obtain ⟨m, rfl⟩ : ∃ m, n = m + 2 := ⟨n - 2, by omega⟩
  refine svd_zero_of_kernel h (fun i => if i = 0 then 1 else if i = 1 then -1 else 0) ?_ ?_
  · intro h0
    have := congrFun h0 0
    simp at this
  · funext x
    simp only [Matrix.mulVec, dotProduct, jacMat, Pi.zero_apply, List.getD_eq_getElem?_getD, List.getElem?_replicate]
    simp only [Fin.is_lt, if_true, Option.getD_some]
    rw [← Finset.mul_sum, Fin.sum_univ_succ, Fin.sum_univ_succ]
    have h1 : ∀ i : Fin m, (if i.succ.succ = (0 : Fin (m + 2)) then (1 : ℝ) else if i.succ.succ = 1 then -1 else 0) = 0 := by
      intro i
      rw [if_neg (Fin.succ_ne_zero _), if_neg]
      intro hc
      rw [← Fin.succ_zero_eq_one] at hc
      exact Fin.succ_ne_zero _ (Fin.succ_injective _ hc)
    rw [Finset.sum_eq_zero fun i _ => h1 i]
    simp

/-- The wrap-around hides a singular Jacobian: for the chain of two parallel prismatic joints (rank 1), every `q_in` and
every decomposition that keeps its promise, a singular value is zero and the code is nevertheless `E_NOERROR`. -/
theorem C49_singular_violated (svd : (n : ℕ) → Matrix (Fin 6) (Fin n) ℝ → SvdOut 6 n) (hs : GoodDec svd)
    (hok : ∀ n A, (svd n A).code = 0) (eps : ℝ) (he : 0 < eps) (q : List ℝ) (hq : q.length = 2) (v : Twist) :
    ∃ J out, jntToJac (slides 2) [false, false] q [0, 0] (-1) = some (E_NOERROR, J) ∧
      (∃ i, (svd 2 (jacMat 2 J)).S i = 0) ∧
      (PinvState.new (slides 2) eps).cartToJnt (slides 2) svd [0, 0] q v [0, 0] = some (.done E_NOERROR out) := by
  obtain ⟨J, hJl, hJ, _, h2⟩ := C49_solution (slides 2) (slides_wf 2) svd hs eps he [0, 0] q v [0, 0] rfl hq rfl
  have hJ' := slides_jac 2 q hq [0, 0] rfl
  have hJJ : J = List.replicate 2 ⟨⟨1, 0, 0⟩, 0⟩ := by
    have := hJ.symm.trans hJ'
    simpa using this
  obtain ⟨qd, hqd, _⟩ := h2 (hok _ _)
  refine ⟨J, List.ofFn qd, hJ, ?_, hqd.trans ?_⟩
  · subst hJJ
    exact slides_singular 2 (le_refl _) (hs _ _ (hok _ _))
  · rw [C49_code_small (by simp [slides])]

/-- The hypotheses of the theorems above can be met: there is such a decomposition, for every chain. -/
example (c : Chain) (hc : c.WF) (v : Twist) (eps : ℝ) (he : 0 < eps) : ∃ svd qd J, GoodSvd svd ∧
    (PinvState.new c eps).cartToJnt c svd (List.replicate c.nrOfJoints 0) (List.replicate c.nrOfJoints 0) v
      (List.replicate c.nrOfJoints 0) = some (.done (pinvCode (svd c.nrOfJoints (jacMat c.nrOfJoints J)).S eps) qd) := by
  obtain ⟨svd, hs, h0⟩ := exists_goodSvd
  obtain ⟨J, _, _, _, h2⟩ := C49_solution c hc svd hs.dec eps he (List.replicate c.nrOfJoints 0)
    (List.replicate c.nrOfJoints 0) v (List.replicate c.nrOfJoints 0) (by simp) (by simp) (by simp)
  obtain ⟨qd, hqd, _⟩ := h2 (h0 _ _)
  exact ⟨svd, List.ofFn qd, J, hs, hqd⟩

/-! ## C50 -/

/-- The matrix that the damped solver decomposes. -/
def WdlsState.A (s : WdlsState) (J : Jac) : Matrix (Fin 6) (Fin s.nj) ℝ := s.Wx * (jacMat s.nj J * s.Wq)

open Classical in
theorem wdls_cart (s : WdlsState) (c : Chain) (svd : (n : ℕ) → Matrix (Fin 6) (Fin n) ℝ → SvdOut 6 n) (jac0 J : Jac)
    (q : List ℝ) (v : Twist) (qdot : List ℝ) (hn : s.nj = c.nrOfJoints) (hq : q.length = s.nj) (hqd : qdot.length = s.nj)
    (hw : s.shapes) (hJ : jntToJac c (List.replicate s.nj false) q jac0 (-1) = some (E_NOERROR, J)) :
    s.cartToJnt c svd jac0 q v qdot =
      if (svd s.nj (s.A J)).code ≠ 0 then some (.done E_SVD_FAILED (List.replicate s.nj 0))
      else if h : 6 ≤ s.nj then
        if ∃ i, (¬ |(svd s.nj (s.A J)).S i| < s.eps ∧ (svd s.nj (s.A J)).S i = 0) ∨ (|(svd s.nj (s.A J)).S i| < s.eps ∧
            (i : ℕ) < 6 ∧ (svd s.nj (s.A J)).S i * (svd s.nj (s.A J)).S i +
              lambdaScaled ((svd s.nj (s.A J)).S ⟨5, by omega⟩) s.eps s.lambda *
              lambdaScaled ((svd s.nj (s.A J)).S ⟨5, by omega⟩) s.eps s.lambda = 0) then
          some (.nonfinite (pinvCode (svd s.nj (s.A J)).S s.eps))
        else
          some (.done (pinvCode (svd s.nj (s.A J)).S s.eps) (List.ofFn fun i =>
            ∑ j, (s.Wq * (svd s.nj (s.A J)).V) i j * wdlsTmp s.Wx (svd s.nj (s.A J)).U (svd s.nj (s.A J)).S s.eps
              (lambdaScaled ((svd s.nj (s.A J)).S ⟨5, by omega⟩) s.eps s.lambda) v j))
      else none := by
  unfold WdlsState.cartToJnt
  rw [if_neg (by simp [hn]), if_neg (by simp [hq, hqd]), hJ]
  refine (if_neg (c := E_NOERROR < E_NOERROR) (t := some (VelOut.done E_NOERROR qdot)) (by simp [E_NOERROR])).trans ?_
  exact if_neg (c := ¬ s.shapes) (t := none) (not_not.mpr hw)

theorem wdls_shapes (s : WdlsState) (c : Chain) (svd : (n : ℕ) → Matrix (Fin 6) (Fin n) ℝ → SvdOut 6 n) (jac0 J : Jac)
    (q : List ℝ) (v : Twist) (qdot : List ℝ) (hn : s.nj = c.nrOfJoints) (hq : q.length = s.nj) (hqd : qdot.length = s.nj)
    (hw : ¬ s.shapes) (hJ : jntToJac c (List.replicate s.nj false) q jac0 (-1) = some (E_NOERROR, J)) :
    s.cartToJnt c svd jac0 q v qdot = none := by
  unfold WdlsState.cartToJnt
  rw [if_neg (by simp [hn]), if_neg (by simp [hq, hqd]), hJ]
  refine (if_neg (c := E_NOERROR < E_NOERROR) (t := some (VelOut.done E_NOERROR qdot)) (by simp [E_NOERROR])).trans ?_
  exact if_pos (c := ¬ s.shapes) (t := none) hw

/-- Below six joints the damped solver has undefined behaviour whenever the decomposition succeeds
(`U.topLeftCorner(6,6)` of a matrix with fewer than six columns): here for the chain of one prismatic joint. -/
theorem C50_small_violated (svd : (n : ℕ) → Matrix (Fin 6) (Fin n) ℝ → SvdOut 6 n)
    (hok : ∀ n A, (svd n A).code = 0) (eps : ℝ) (x : ℝ) (v : Twist) :
    (slides 1).WF ∧ (WdlsState.new (slides 1) eps).cartToJnt (slides 1) svd [0] [x] v [0] = none := by
  refine ⟨slides_wf 1, ?_⟩
  refine (wdls_cart (WdlsState.new (slides 1) eps) (slides 1) svd [0] _ [x] v [0] rfl rfl rfl ⟨rfl, rfl, rfl, rfl⟩
    (slides_jac 1 [x] rfl [0] rfl)).trans ?_
  refine (if_neg (not_not.mpr (hok _ _))).trans (dif_neg ?_)
  show ¬ 6 ≤ 1
  omega

theorem EMat_identity_matrix (n : ℕ) : (fun i j : Fin n => (EMat.identity n).get i j) = (1 : Matrix (Fin n) (Fin n) ℝ) := by
  funext i j
  simp [EMat.identity, Matrix.one_apply, Fin.ext_iff]

/-- With the defaults (`lambda = 0`, identity weights) an exactly singular Jacobian makes the damped solver divide 0 by 0:
here for six parallel prismatic joints, every configuration, every twist, every `eps > 0` and every decomposition that
keeps its promise. -/
theorem C50_default_violated (svd : (n : ℕ) → Matrix (Fin 6) (Fin n) ℝ → SvdOut 6 n) (hs : GoodSvd svd)
    (hok : ∀ n A, (svd n A).code = 0) (eps : ℝ) (he : 0 < eps) (q : List ℝ) (hq : q.length = 6) (v : Twist) :
    ∃ code, (WdlsState.new (slides 6) eps).cartToJnt (slides 6) svd (List.replicate 6 0) q v (List.replicate 6 0) =
      some (.nonfinite code) := by
  set s := WdlsState.new (slides 6) eps with hsdef
  have hA : s.A (List.replicate 6 ⟨⟨1, 0, 0⟩, 0⟩) = jacMat 6 (List.replicate 6 ⟨⟨1, 0, 0⟩, 0⟩) := by
    have h1 : s.Wq = 1 := EMat_identity_matrix 6
    have h2 : s.Wx = 1 := EMat_identity_matrix 6
    unfold WdlsState.A
    rw [h1, h2]
    simp only [Matrix.mul_one, Matrix.one_mul]
    rfl
  refine ⟨_, (wdls_cart s (slides 6) svd _ _ q v _ rfl hq (by simp; rfl) ⟨rfl, rfl, rfl, rfl⟩
    (slides_jac 6 q hq (List.replicate 6 0) (by simp))).trans ((if_neg (not_not.mpr (hok _ _))).trans
      ((dif_pos (show 6 ≤ 6 from le_refl _)).trans (if_pos ?_)))⟩
  have hsv : IsSvd (jacMat 6 (List.replicate 6 ⟨⟨1, 0, 0⟩, 0⟩)) (svd 6 (jacMat 6 (List.replicate 6 ⟨⟨1, 0, 0⟩, 0⟩))) :=
    hs _ _ (hok _ _)
  obtain ⟨i, hi⟩ := slides_singular 6 (by omega) hsv.toIsDec
  refine ⟨i, Or.inr ⟨?_, i.2, ?_⟩⟩
  · have : (svd s.nj (s.A (List.replicate 6 ⟨⟨1, 0, 0⟩, 0⟩))).S i = 0 := by
      rw [hA]; exact hi
    rw [this, abs_zero]; exact he
  · have : (svd s.nj (s.A (List.replicate 6 ⟨⟨1, 0, 0⟩, 0⟩))).S i = 0 := by
      rw [hA]; exact hi
    rw [this]
    have hl : s.lambda = 0 := rfl
    unfold lambdaScaled
    rw [hl]
    simp

/-- The weight setters compare only the number of coefficients: a `1 × 36` matrix is accepted as the joint weight of a
chain with 6 joints, and the next call has undefined behaviour. -/
theorem C50_weight_violated (svd : (n : ℕ) → Matrix (Fin 6) (Fin n) ℝ → SvdOut 6 n) (eps : ℝ) (q : List ℝ)
    (hq : q.length = 6) (v : Twist) (m : EMat) (hr : m.rows = 1) (hc : m.cols = 36) :
    ∃ s, (WdlsState.new (slides 6) eps).setWeightJS (slides 6) m = (E_NOERROR, s) ∧
      s.cartToJnt (slides 6) svd (List.replicate 6 0) q v (List.replicate 6 0) = none := by
  refine ⟨⟨6, eps, 0, m, EMat.identity 6⟩, ?_, ?_⟩
  · refine (if_neg (not_not.mpr rfl)).trans ((if_neg (not_not.mpr ?_)).trans rfl)
    simp [EMat.size, hr, hc, WdlsState.new, EMat.identity, slides]
  · refine wdls_shapes _ (slides 6) svd _ _ q v _ rfl hq rfl ?_ (slides_jac 6 q hq (List.replicate 6 0) (by simp))
    intro h
    have h1 : m.rows = 6 := h.1
    omega

/-- The joint coordinates `z = Vᵀ y` that the damped solver computes. -/
theorem wdls_z {n : ℕ} (h6 : 6 ≤ n) (Wx : Matrix (Fin 6) (Fin 6) ℝ) (hx : Wxᵀ = Wx) {A : Matrix (Fin 6) (Fin n) ℝ}
    {r : SvdOut 6 n} (h : IsSvd A r) (eps ls : ℝ) (he : 0 < eps) (v : Twist)
    (hfin : ∀ i : Fin n, |r.S i| < eps → (i : ℕ) < 6 → r.S i * r.S i + ls * ls ≠ 0) (i : Fin n) :
    wdlsTmp Wx r.U r.S eps ls v i * (r.S i * r.S i + (if r.S i < eps then ls else 0) * (if r.S i < eps then ls else 0)) =
      r.S i * (r.Uᵀ *ᵥ (Wx *ᵥ v.comp)) i := by
  have hsum : ∑ j, (∑ k, Wx j k * r.U k i) * v.comp j = (r.Uᵀ *ᵥ (Wx *ᵥ v.comp)) i := by
    rw [Matrix.mulVec_mulVec]
    simp only [Matrix.mulVec, dotProduct, Matrix.mul_apply, Matrix.transpose_apply]
    refine Finset.sum_congr rfl fun j _ => ?_
    congr 1
    refine Finset.sum_congr rfl fun k _ => ?_
    have := congrFun (congrFun hx j) k
    rw [Matrix.transpose_apply] at this
    rw [this]; ring
  have habs : |r.S i| = r.S i := abs_of_nonneg (h.nonneg i)
  unfold wdlsTmp
  dsimp only
  rw [habs]
  by_cases hi : (i : ℕ) < 6
  · rw [if_pos hi, if_pos hi, hsum]
    by_cases hlt : r.S i < eps
    · have := hfin i (by rwa [habs]) hi
      rw [if_pos hlt, if_pos hlt, mul_assoc, div_mul_cancel₀ _ this]
      ring
    · have : r.S i ≠ 0 := fun h0 => by rw [h0] at hlt; exact hlt he
      rw [if_neg hlt, if_neg hlt]
      field_simp
      ring
  · have h0 := svd_tail r.U r.S h.orthU h.nonneg h.sorted i (by omega)
    rw [h0, if_pos he, if_neg hi]
    simp

/-- The damped solver, in general: with six joints or more, `eps > 0`, weights of the right sizes, a symmetric task space
weight and `lambda ≠ 0`, the call is defined and finite.  If the decomposition fails the answer is `E_SVD_FAILED` with zero
velocities.  Otherwise `qdot = Wq y` where `y` minimises the damped cost `‖Wx J Wq y - Wx v‖² + Σ λᵢ² (Vᵀ y)ᵢ²`; the damping
`λᵢ` is 0 along the singular directions with singular value at least `eps`, and `lambda √(1 - (S₅/eps)²)` along the others.  Partial: without the assumptions on the number of joints and on `lambda`
the claim is refuted by `C50_small_violated` and `C50_default_violated`. -/
theorem C50_damped_partial (s : WdlsState) (c : Chain) (hc : c.WF) (svd : (n : ℕ) → Matrix (Fin 6) (Fin n) ℝ → SvdOut 6 n)
    (hs : GoodSvd svd) (hn : s.nj = c.nrOfJoints) (h6 : 6 ≤ s.nj) (he : 0 < s.eps) (hw : s.shapes) (hx : s.Wxᵀ = s.Wx)
    (hl : s.lambda ≠ 0) (jac0 : Jac) (q : List ℝ) (v : Twist) (qdot : List ℝ) (h0 : jac0.length = c.nrOfJoints)
    (hq : q.length = c.nrOfJoints) (hqd : qdot.length = c.nrOfJoints) :
    ∃ J : Jac, J.length = c.nrOfJoints ∧
      jntToJac c (List.replicate c.nrOfJoints false) q jac0 (-1) = some (E_NOERROR, J) ∧
      ((svd _ (s.A J)).code ≠ 0 → s.cartToJnt c svd jac0 q v qdot =
        some (.done E_SVD_FAILED (List.replicate s.nj 0))) ∧
      ((svd _ (s.A J)).code = 0 → ∃ y : Fin s.nj → ℝ,
        s.cartToJnt c svd jac0 q v qdot = some (.done (pinvCode (svd _ (s.A J)).S s.eps) (List.ofFn (s.Wq *ᵥ y))) ∧
        ∀ d : Fin s.nj → ℝ, (∀ i, d i = if (svd _ (s.A J)).S i < s.eps then
            Real.sqrt (1 - ((svd _ (s.A J)).S ⟨5, by omega⟩ / s.eps) ^ 2) * s.lambda else 0) →
          ∀ y' : Fin s.nj → ℝ,
            sqn (s.A J *ᵥ y - s.Wx *ᵥ v.comp) + sqn (fun i => d i * ((svd _ (s.A J)).Vᵀ *ᵥ y) i) ≤
            sqn (s.A J *ᵥ y' - s.Wx *ᵥ v.comp) + sqn (fun i => d i * ((svd _ (s.A J)).Vᵀ *ᵥ y') i)) := by
  obtain ⟨J, hJl, hJ⟩ := jac_ok c hc q hq jac0 h0
  have hp := wdls_cart s c svd jac0 J q v qdot hn (by omega) (by omega) hw (by rw [hn]; exact hJ)
  refine ⟨J, hJl, hJ, fun hcode => hp.trans (if_pos hcode), fun hcode => ?_⟩
  have hsv := hs _ _ hcode
  set r := svd s.nj (s.A J) with hr
  set ls := lambdaScaled (r.S ⟨5, by omega⟩) s.eps s.lambda with hls
  have hfin : ∀ i : Fin s.nj, |r.S i| < s.eps → (i : ℕ) < 6 → r.S i * r.S i + ls * ls ≠ 0 := by
    intro i _ hi h
    have h1 : r.S i = 0 := by nlinarith [mul_self_nonneg (r.S i), mul_self_nonneg ls]
    have h2 : ls = 0 := by nlinarith [mul_self_nonneg (r.S i), mul_self_nonneg ls]
    have h5 : r.S ⟨5, by omega⟩ = 0 := by
      have := hsv.sorted (show i ≤ ⟨5, by omega⟩ by show (i : ℕ) ≤ 5; omega)
      have h3 := hsv.nonneg ⟨5, by omega⟩
      linarith
    rw [hls, h5] at h2
    unfold lambdaScaled at h2
    rw [if_pos he] at h2
    simp at h2
    exact hl h2
  refine ⟨r.V *ᵥ wdlsTmp s.Wx r.U r.S s.eps ls v, ?_, ?_⟩
  · refine hp.trans ((if_neg (not_not.mpr hcode)).trans ((dif_pos h6).trans ((if_neg ?_).trans ?_)))
    · rintro ⟨i, h | h⟩
      · rw [h.2, abs_zero] at h; exact h.1 he
      · exact hfin i h.1 h.2.1 h.2.2
    · congr 2
      rw [Matrix.mulVec_mulVec]
      rfl
  · intro d hd y'
    have hd' : ∀ i, d i = if r.S i < s.eps then ls else 0 := by
      intro i
      rw [hd i]
      split_ifs with h
      · rw [hls]
        unfold lambdaScaled
        by_cases h5 : r.S ⟨5, by omega⟩ < s.eps
        · rw [if_pos h5, sq]
        · rw [if_neg h5, Real.sqrt_eq_zero_of_nonpos, zero_mul]
          have : 1 ≤ r.S ⟨5, by omega⟩ / s.eps := (one_le_div he).mpr (not_lt.mp h5)
          nlinarith
      · rfl
    have := damped_min r.U r.S d (wdlsTmp s.Wx r.U r.S s.eps ls v) r.V hsv.orthU hsv.orthV (s.Wx *ᵥ v.comp)
      (fun i => by rw [hd' i]; exact wdls_z h6 s.Wx hx hsv s.eps ls he v hfin i) y'
    simp only [← hsv.fact] at this
    simp only [Matrix.mulVec_diagonal, dotProduct] at this
    exact this

theorem unit_cancel {n : ℕ} {W : Matrix (Fin 6) (Fin 6) ℝ} (hW : IsUnit W) (M : Matrix (Fin 6) (Fin n) ℝ) (x : Fin n → ℝ)
    (b : Fin 6 → ℝ) (h : (W * M) *ᵥ x = W *ᵥ b) : M *ᵥ x = b := by
  obtain ⟨W, rfl⟩ := hW
  have h1 := congrArg ((↑W⁻¹ : Matrix (Fin 6) (Fin 6) ℝ) *ᵥ ·) h
  simp only [Matrix.mulVec_mulVec, ← Matrix.mul_assoc, Units.inv_mul, Matrix.one_mul, Matrix.one_mulVec] at h1
  exact h1

theorem sixth_of_card {n : ℕ} (h6 : 6 ≤ n) (S : Fin n → ℝ) (h0 : ∀ i, 0 ≤ S i) (hs : Antitone S) (eps : ℝ)
    (h : open Classical in 6 ≤ (Finset.univ.filter fun i => eps ≤ |S i|).card) : eps ≤ S ⟨5, by omega⟩ := by
  classical
  by_contra hlt
  push Not at hlt
  have hsub : (Finset.univ.filter fun i => eps ≤ |S i|) ⊆ Finset.univ.filter fun i : Fin n => (i : ℕ) < 5 := by
    intro i hi
    simp only [Finset.mem_filter, Finset.mem_univ, true_and] at hi ⊢
    by_contra h5
    have := hs (show (⟨5, by omega⟩ : Fin n) ≤ i by show 5 ≤ (i : ℕ); omega)
    rw [abs_of_nonneg (h0 i)] at hi
    linarith
  have h1 := Finset.card_le_card hsub
  have h2 : (Finset.univ.filter fun i : Fin n => (i : ℕ) < 5).card ≤ 5 := by
    have : (Finset.univ.filter fun i : Fin n => (i : ℕ) < 5).card ≤ (Finset.range 5).card := by
      refine Finset.card_le_card_of_injOn (fun i => (i : ℕ)) ?_ ?_
      · intro i hi
        simpa using hi
      · intro a _ b _ hab
        exact Fin.ext hab
    simpa using this
  omega

/-- For 6 joints and more, `E_NOERROR` means that the requested twist is achieved exactly, for every `lambda` and every
invertible symmetric task space weight: the forward velocity solver applied to `q_in` and the returned joint velocity gives
`v_in`. -/
theorem C50_exact (s : WdlsState) (c : Chain) (hc : c.WF) (svd : (n : ℕ) → Matrix (Fin 6) (Fin n) ℝ → SvdOut 6 n)
    (hs : GoodSvd svd) (hn : s.nj = c.nrOfJoints) (h6 : 6 ≤ s.nj) (h32 : s.nj < 2 ^ 32) (he : 0 < s.eps) (hw : s.shapes)
    (hx : s.Wxᵀ = s.Wx) (hinv : IsUnit s.Wx) (jac0 : Jac) (q : List ℝ) (v : Twist) (qdot out : List ℝ)
    (h0 : jac0.length = c.nrOfJoints) (hq : q.length = c.nrOfJoints) (hqd : qdot.length = c.nrOfJoints)
    (h : s.cartToJnt c svd jac0 q v qdot = some (.done E_NOERROR out)) :
    ∃ F : FrameVel, fkVel c q out (-1) = some (E_NOERROR, F) ∧ F.getTwist = v := by
  obtain ⟨J, hJl, hJ⟩ := jac_ok c hc q hq jac0 h0
  have hp := wdls_cart s c svd jac0 J q v qdot hn (by omega) (by omega) hw (by rw [hn]; exact hJ)
  have h := hp.symm.trans h
  by_cases hcode : (svd s.nj (s.A J)).code ≠ 0
  · have h := (if_pos hcode).symm.trans h
    simp [E_SVD_FAILED, E_NOERROR] at h
  have h := (if_neg hcode).symm.trans h
  have h := (dif_pos h6).symm.trans h
  have hsv := hs _ _ (not_not.mp hcode)
  set r := svd s.nj (s.A J) with hr
  set ls := lambdaScaled (r.S ⟨5, by omega⟩) s.eps s.lambda with hls
  split_ifs at h with hnf
  · simp at h
  simp only [Option.some.injEq, VelOut.done.injEq] at h
  obtain ⟨hc0, hout⟩ := h
  have hcard := (C49_code_partial h6 h32 _ _).2.mp hc0
  have h5 := sixth_of_card h6 r.S hsv.nonneg hsv.sorted s.eps hcard
  have hfull := full_rank hsv.toIsDec s.eps he hcard (s.Wx *ᵥ v.comp)
  have htmp : ∀ i, wdlsTmp s.Wx r.U r.S s.eps ls v i = invS r.S s.eps i * (r.Uᵀ *ᵥ (s.Wx *ᵥ v.comp)) i := by
    intro i
    have hz := wdls_z h6 s.Wx hx hsv s.eps ls he v (fun i h1 h2 h3 => hnf ⟨i, Or.inr ⟨h1, h2, h3⟩⟩) i
    by_cases hi : (i : ℕ) < 6
    · have hge : ¬ r.S i < s.eps := by
        have := hsv.sorted (show i ≤ ⟨5, by omega⟩ by show (i : ℕ) ≤ 5; omega)
        intro hh; linarith
      have hne : r.S i ≠ 0 := fun hh => by rw [hh] at hge; exact hge he
      rw [if_neg hge] at hz
      unfold invS
      rw [abs_of_nonneg (hsv.nonneg i), if_neg hge]
      have : r.S i * (r.S i * wdlsTmp s.Wx r.U r.S s.eps ls v i - (r.Uᵀ *ᵥ (s.Wx *ᵥ v.comp)) i) = 0 := by
        linear_combination hz
      have := (mul_eq_zero.mp this).resolve_left hne
      field_simp
      linarith
    · have hz0 := svd_tail r.U r.S hsv.orthU hsv.nonneg hsv.sorted i (by omega)
      unfold invS wdlsTmp
      dsimp only
      rw [hz0, abs_zero, if_pos he, if_pos he, if_neg hi]
      simp
  have hy : (fun i => ∑ j, (s.Wq * r.V) i j * wdlsTmp s.Wx r.U r.S s.eps ls v j) =
      s.Wq *ᵥ ((r.V * diagonal (invS r.S s.eps) * r.Uᵀ) *ᵥ (s.Wx *ᵥ v.comp)) := by
    have e : wdlsTmp s.Wx r.U r.S s.eps ls v = diagonal (invS r.S s.eps) *ᵥ (r.Uᵀ *ᵥ (s.Wx *ᵥ v.comp)) := by
      funext i
      rw [htmp i, Matrix.mulVec_diagonal]
    have e2 : (fun i => ∑ j, (s.Wq * r.V) i j * wdlsTmp s.Wx r.U r.S s.eps ls v j) =
      (s.Wq * r.V) *ᵥ wdlsTmp s.Wx r.U r.S s.eps ls v := rfl
    rw [e2, e]
    simp only [Matrix.mulVec_mulVec, Matrix.mul_assoc]
  rw [hy] at hout
  have hJv : jacMat s.nj J *ᵥ (s.Wq *ᵥ ((r.V * diagonal (invS r.S s.eps) * r.Uᵀ) *ᵥ (s.Wx *ᵥ v.comp))) = v.comp := by
    rw [Matrix.mulVec_mulVec]
    exact unit_cancel hinv _ _ _ hfull
  have hol : out.length = c.nrOfJoints := by rw [← hout, ← hn]; exact List.length_ofFn
  obtain ⟨J', F, hJ', _, hF, hm⟩ := C27_jac c hc q out jac0 (-1) hq hol h0 (by simp [segmentNr])
  rw [hJ] at hJ'
  cases hJ'
  refine ⟨F, hF, Twist.ext_comp _ _ fun x => ?_⟩
  rw [← hout] at hm
  exact (mulVec_multiplyJacobian J _ (hJl.trans hn.symm) _ _ hm x).symm.trans (congrFun hJv x)

/-- A gantry: three prismatic and three rotational joints along the axes, no lengths. -/
def gantry : Chain := ⟨6, 6, [JointType.TransX, .TransY, .TransZ, .RotX, .RotY, .RotZ].map fun t =>
  ⟨"s", ⟨"j", t, 1, 0, 0, 0, 0, 0, 0⟩, RBI.zero, 1⟩⟩

theorem gantry_wf : gantry.WF := ⟨rfl, rfl⟩

theorem gantry_jac : ∃ J, jntToJac gantry (List.replicate 6 false) (List.replicate 6 0) (List.replicate 6 0) (-1) =
    some (E_NOERROR, J) ∧ jacMat 6 J = 1 := by
  refine ⟨[⟨⟨1, 0, 0⟩, 0⟩, ⟨⟨0, 1, 0⟩, 0⟩, ⟨⟨0, 0, 1⟩, 0⟩, ⟨0, ⟨1, 0, 0⟩⟩, ⟨0, ⟨0, 1, 0⟩⟩, ⟨0, ⟨0, 0, 1⟩⟩],
    (jntToJac_unlocked gantry gantry_wf (List.replicate 6 0) (List.replicate 6 0) (-1) rfl rfl
    (by simp [segmentNr])).trans ?_, ?_⟩
  · have hq : ∀ j, rd (List.replicate 6 0) j = 0 := by
      intro j
      simp only [rd, List.getD_eq_getElem?_getD, List.getElem?_replicate]
      split_ifs <;> rfl
    have hs : gantry.segments.take (segmentNr gantry (-1)) = gantry.segments := rfl
    have hp : ∀ s ∈ gantry.segments, s.pose 0 = 1 ∧ s.moving = true := by
      intro s hs
      simp only [gantry, List.map_cons, List.map_nil, List.mem_cons, List.not_mem_nil, or_false] at hs
      rcases hs with rfl | rfl | rfl | rfl | rfl | rfl <;> refine ⟨?_, rfl⟩ <;>
        simp only [Segment.pose, Joint.pose, Frame.ofVec, Frame.ofRot] <;> ext <;> simp [Rot.rotX, Rot.rotY, Rot.rotZ]
    have hfk : ∀ (l : List Segment), (∀ s ∈ l, s.pose 0 = 1 ∧ s.moving = true) → ∀ j,
        fkF (rd (List.replicate 6 0)) l j = 1 := by
      intro l
      induction l with
      | nil => intro _ j; rfl
      | cons s l ih =>
        intro hl j
        unfold fkF
        rw [if_pos (hl s (by simp)).2, hq, (hl s (by simp)).1, ih (fun t ht => hl t (by simp [ht]))]
        ext <;> simp
    have hcol : ∀ (l : List Segment), (∀ s ∈ l, s.pose 0 = 1 ∧ s.moving = true) → ∀ j,
        colsF (rd (List.replicate 6 0)) l j 1 = l.map fun s => s.twist 0 1 := by
      intro l
      induction l with
      | nil => intro _ j; rfl
      | cons s l ih =>
        intro hl j
        unfold colsF
        rw [if_pos (hl s (by simp)).2, hfk _ hl, hq, (hl s (by simp)).1]
        have h1 : (1 : Frame) * 1 = 1 := by ext <;> simp
        rw [h1, ih (fun t ht => hl t (by simp [ht])), List.map_cons]
        congr 1
        ext <;> simp
    rw [hs, hcol _ hp]
    have hm : gantry.nrOfJoints - nMoving gantry.segments = 0 := rfl
    rw [hm]
    simp only [gantry, List.map_cons, List.map_nil, List.replicate_zero, List.append_nil, Segment.twist, Joint.twist]
    congr 2
    simp only [List.cons.injEq, and_true]
    refine ⟨?_, ?_, ?_, ?_, ?_, ?_⟩ <;> ext <;> simp
  · ext i j
    rw [Matrix.one_apply]
    fin_cases j <;> fin_cases i <;> simp [jacMat, Twist.comp]

theorem svd_of_one {r : SvdOut 6 6} (h : IsSvd 1 r) (i : Fin 6) : r.S i = 1 := by
  have hne : ∀ i, r.S i ≠ 0 := by
    intro i hi
    have h1 : (1 : Matrix (Fin 6) (Fin 6) ℝ) *ᵥ (r.V *ᵥ Pi.single i 1) = 0 := by
      conv_lhs => rw [h.fact]
      rw [Matrix.mulVec_mulVec, Matrix.mul_assoc, Matrix.mul_assoc, h.orthV, Matrix.mul_one, ← Matrix.mulVec_mulVec]
      have : diagonal r.S *ᵥ Pi.single i 1 = 0 := by
        funext j
        rw [Matrix.mulVec_diagonal]
        by_cases hj : j = i
        · subst hj; simp [hi]
        · simp [hj]
      rw [this, Matrix.mulVec_zero]
    rw [Matrix.one_mulVec] at h1
    have h2 := congrArg (r.Vᵀ *ᵥ ·) h1
    simp only [Matrix.mulVec_mulVec, h.orthV, Matrix.one_mulVec, Matrix.mulVec_zero] at h2
    have := congrFun h2 i
    simp at this
  have s1 := sandwich h.orthU r.S r.S (fun i _ => hne i) (fun i _ => hne i)
  have h1 : diagonal (fun i => r.S i * r.S i) = 1 := by
    have e : (1 : Matrix (Fin 6) (Fin 6) ℝ)ᵀ * 1 = r.V * diagonal (fun i => r.S i * r.S i) * r.Vᵀ := by
      conv_lhs => rw [h.fact]
      rw [← s1]
      simp only [Matrix.transpose_mul, Matrix.transpose_transpose, Matrix.diagonal_transpose, Matrix.mul_assoc]
    rw [Matrix.transpose_one, Matrix.one_mul] at e
    have e2 : r.Vᵀ * (r.V * diagonal (fun i => r.S i * r.S i) * r.Vᵀ) * r.V = 1 := by
      rw [← e, Matrix.mul_one, h.orthV]
    rw [← Matrix.mul_assoc, ← Matrix.mul_assoc, h.orthV, Matrix.one_mul, Matrix.mul_assoc, h.orthV, Matrix.mul_one] at e2
    exact e2
  have h2 := congrFun (congrFun h1 i) i
  rw [Matrix.diagonal_apply_eq, Matrix.one_apply_eq] at h2
  nlinarith [h.nonneg i]

theorem done_congr {a b : Int} {o : List ℝ} (h : a = b) : some (VelOut.done a o) = some (VelOut.done b o) := by rw [h]

/-- `C49_exact` and `C50_exact` are not vacuous: on the gantry at zero, with any `eps ≤ 1`, both solvers return `E_NOERROR`. -/
example (v : Twist) (eps : ℝ) (he : 0 < eps) (he1 : eps ≤ 1) : ∃ svd o1 o2, GoodSvd svd ∧
    (PinvState.new gantry eps).cartToJnt gantry svd (List.replicate 6 0) (List.replicate 6 0) v (List.replicate 6 0) =
      some (.done E_NOERROR o1) ∧
    (WdlsState.new gantry eps).cartToJnt gantry svd (List.replicate 6 0) (List.replicate 6 0) v (List.replicate 6 0) =
      some (.done E_NOERROR o2) := by
  obtain ⟨svd, hs, hok⟩ := exists_goodSvd
  obtain ⟨J, hJ, h1⟩ := gantry_jac
  have hone : ∀ r : SvdOut 6 6, (∀ i, r.S i = 1) → pinvCode r.S eps = E_NOERROR := by
    intro r hr
    refine (C49_code_partial (le_refl 6) (by norm_num) _ _).2.mpr ?_
    rw [Finset.filter_true_of_mem]
    · simp
    · intro i _; rw [hr i, abs_one]; exact he1
  have hS : ∀ i, (svd 6 (jacMat 6 J)).S i = 1 := by
    have h := hs _ _ (hok 6 (jacMat 6 J))
    revert h
    generalize svd 6 (jacMat 6 J) = r
    rw [h1]
    exact fun h => svd_of_one h
  have hA : (WdlsState.new gantry eps).A J = jacMat 6 J := by
    have h1 : (WdlsState.new gantry eps).Wq = 1 := EMat_identity_matrix 6
    have h2 : (WdlsState.new gantry eps).Wx = 1 := EMat_identity_matrix 6
    unfold WdlsState.A
    rw [h1, h2]
    simp only [Matrix.mul_one, Matrix.one_mul]
    rfl
  have hS' : ∀ i, (svd (WdlsState.new gantry eps).nj ((WdlsState.new gantry eps).A J)).S i = 1 := by
    rw [hA]; exact hS
  refine ⟨svd, _, _, hs, (pinv_cart (PinvState.new gantry eps) gantry svd _ J _ v _ rfl rfl rfl hJ).trans
      ((if_neg (not_not.mpr (hok _ _))).trans ((if_neg ?_).trans
        (done_congr (hone (svd 6 (jacMat 6 J)) hS)))),
    (wdls_cart (WdlsState.new gantry eps) gantry svd _ J _ v _ rfl rfl rfl ⟨rfl, rfl, rfl, rfl⟩ hJ).trans
      ((if_neg (not_not.mpr (hok _ _))).trans ((dif_pos (show 6 ≤ 6 from le_refl _)).trans ((if_neg ?_).trans
        (done_congr (hone (svd 6 ((WdlsState.new gantry eps).A J)) hS')))))⟩
  · rintro ⟨i, h, h0⟩
    exact one_ne_zero ((hS i).symm.trans h0)
  · rintro ⟨i, h⟩
    rw [hS' i] at h
    rcases h with h | h
    · exact one_ne_zero h.2
    · have := h.1
      have e : (WdlsState.new gantry eps).eps = eps := rfl
      rw [e, abs_one] at this
      linarith

/-! ## C51 -/

/-- The cost whose gradient the null space criterion follows decreases to first order along `n` at the rate `Σ wᵢ (qᵢ -
optᵢ) nᵢ`. -/
theorem nsoG_deriv {n : ℕ} (q opt w x : Fin n → ℝ) :
    HasDerivAt (fun t : ℝ => nsoG (fun i => q i + t * x i) opt w) (∑ i, w i * (q i - opt i) * x i) 0 := by
  unfold nsoG
  have : ∀ i ∈ (Finset.univ : Finset (Fin n)), HasDerivAt
      (fun t : ℝ => 1 / 2 * ((q i + t * x i - opt i) * (q i + t * x i - opt i)) * w i) (w i * (q i - opt i) * x i) 0 := by
    intro i _
    have h1 : HasDerivAt (fun t : ℝ => q i + t * x i - opt i) (x i) 0 := by
      have := (((hasDerivAt_id (0 : ℝ)).mul_const (x i)).const_add (q i)).sub_const (opt i)
      simpa using this
    have := ((h1.mul h1).const_mul (1 / 2)).mul_const (w i)
    refine HasDerivAt.congr_deriv this ?_
    ring
  exact HasDerivAt.fun_sum this

theorem nso_cart (s : NsoState) (c : Chain) (svd : (n : ℕ) → Matrix (Fin 6) (Fin n) ℝ → SvdOut 6 n) (jac0 J : Jac)
    (q : List ℝ) (v : Twist) (qdot : List ℝ) (hn : s.nj = c.nrOfJoints) (hq : q.length = s.nj) (hqd : qdot.length = s.nj)
    (ho : s.opt_pos.length = s.nj) (hw : s.weights.length = s.nj)
    (hJ : jntToJac c (List.replicate s.nj false) q jac0 (-1) = some (E_NOERROR, J)) (h6 : 6 ≤ s.nj) (he : 0 < s.eps) :
    s.cartToJnt c svd jac0 q v qdot =
      if (svd s.nj (jacMat s.nj J)).code ≠ 0 then some (.done E_SVD_FAILED (List.replicate s.nj 0))
      else some (.done E_NOERROR (List.ofFn (nsoQdot (svd s.nj (jacMat s.nj J)).U (svd s.nj (jacMat s.nj J)).S
        (svd s.nj (jacMat s.nj J)).V s.eps s.alpha (vecOf s.nj q) (vecOf s.nj s.opt_pos) (vecOf s.nj s.weights) v))) := by
  unfold NsoState.cartToJnt
  rw [if_neg (by simp [hn]), if_neg (by simp [hq, hqd, ho, hw]), hJ]
  refine (if_neg (c := E_NOERROR < E_NOERROR) (t := some (VelOut.done E_NOERROR qdot)) (by simp [E_NOERROR])).trans ?_
  by_cases hcode : (svd s.nj (jacMat s.nj J)).code ≠ 0
  · rw [if_pos hcode]
    exact if_pos hcode
  · rw [if_neg hcode]
    refine (if_neg hcode).trans ((if_neg (by omega)).trans (if_neg ?_))
    rintro ⟨i, h1, h2⟩
    rw [h2, abs_zero] at h1
    exact h1 he

theorem nsoSinv_eq {n : ℕ} (S : Fin n → ℝ) (eps : ℝ) : nsoSinv S eps = invS S eps := rfl

/-- The null space projector of the nso solver. -/
theorem nso_proj {n : ℕ} {A : Matrix (Fin 6) (Fin n) ℝ} {r : SvdOut 6 n} (h : IsSvd A r) (eps : ℝ) :
    r.V * diagonal (invS r.S eps) * r.Uᵀ * r.U * diagonal r.S * r.Vᵀ =
      r.V * diagonal (fun i => invS r.S eps i * r.S i) * r.Vᵀ := by
  rw [← sandwich h.orthU (invS r.S eps) r.S inv_ne (fun _ h => h)]
  simp only [Matrix.mul_assoc]

/-- `ChainIkSolverVel_pinv_nso::CartToJnt` for six joints and more, `eps > 0` and consistent sizes: defined and finite.
If the decomposition fails the answer is `E_SVD_FAILED` with zero velocities; otherwise the code is `E_NOERROR` and the
joint velocity is that of `ChainIkSolverVel_pinv` plus a term `x` that the truncated Jacobian maps to zero (the Jacobian
itself if its non-zero singular values are at least `eps`), along which the weighted distance to the optimal position does
not increase to first order if `alpha` and the weights are non-negative.  Partial: for fewer than six joints the claim is
refuted by `C51_small_violated`. -/
theorem C51_nullspace_partial (s : NsoState) (c : Chain) (hc : c.WF) (svd : (n : ℕ) → Matrix (Fin 6) (Fin n) ℝ → SvdOut 6 n)
    (hs : GoodSvd svd) (hn : s.nj = c.nrOfJoints) (h6 : 6 ≤ s.nj) (he : 0 < s.eps) (ho : s.opt_pos.length = s.nj)
    (hw : s.weights.length = s.nj) (jac0 : Jac) (q : List ℝ) (v : Twist) (qdot : List ℝ)
    (h0 : jac0.length = c.nrOfJoints) (hq : q.length = c.nrOfJoints) (hqd : qdot.length = c.nrOfJoints) :
    ∃ J : Jac, J.length = c.nrOfJoints ∧
      jntToJac c (List.replicate c.nrOfJoints false) q jac0 (-1) = some (E_NOERROR, J) ∧
      ((svd _ (jacMat s.nj J)).code ≠ 0 → s.cartToJnt c svd jac0 q v qdot =
        some (.done E_SVD_FAILED (List.replicate s.nj 0))) ∧
      ((svd _ (jacMat s.nj J)).code = 0 → ∃ x : Fin s.nj → ℝ,
        s.cartToJnt c svd jac0 q v qdot = some (.done E_NOERROR (List.ofFn fun i =>
          pinvQdot (svd _ (jacMat s.nj J)).U (svd _ (jacMat s.nj J)).S (svd _ (jacMat s.nj J)).V s.eps v i + x i)) ∧
        truncMat (svd _ (jacMat s.nj J)) s.eps *ᵥ x = 0 ∧
        ((∀ i, (svd _ (jacMat s.nj J)).S i < s.eps → (svd _ (jacMat s.nj J)).S i = 0) → jacMat s.nj J *ᵥ x = 0) ∧
        (0 ≤ s.alpha → (∀ i, 0 ≤ vecOf s.nj s.weights i) → ∃ rate ≤ 0, HasDerivAt
          (fun t : ℝ => nsoG (fun i => vecOf s.nj q i + t * x i) (vecOf s.nj s.opt_pos) (vecOf s.nj s.weights)) rate 0)) := by
  obtain ⟨J, hJl, hJ⟩ := jac_ok c hc q hq jac0 h0
  have hp := nso_cart s c svd jac0 J q v qdot hn (by omega) (by omega) ho hw (by rw [hn]; exact hJ) h6 he
  refine ⟨J, hJl, hJ, fun hcode => hp.trans (if_pos hcode), fun hcode => ?_⟩
  have hsv := hs _ _ hcode
  set r := svd s.nj (jacMat s.nj J) with hr
  generalize vecOf s.nj q = qv at *
  generalize vecOf s.nj s.opt_pos = ov at *
  generalize vecOf s.nj s.weights = wv at *
  have hp := hp.trans (if_neg (not_not.mpr hcode))
  -- the projector
  set P := r.V * diagonal (fun i => invS r.S s.eps i * r.S i) * r.Vᵀ with hP
  have hidem : ∀ i, (invS r.S s.eps i * r.S i) * (invS r.S s.eps i * r.S i) = invS r.S s.eps i * r.S i := by
    intro i
    have h1 := (trunc_mul_inv (S := r.S) he i).2.2.1
    have h2 := (trunc_mul_inv (S := r.S) he i).2.1
    rw [h1]
    linear_combination (truncS r.S s.eps i) * h2
  have hPt : Pᵀ = P := by
    rw [hP]
    simp only [Matrix.transpose_mul, Matrix.transpose_transpose, Matrix.diagonal_transpose, Matrix.mul_assoc]
  have hPP : P * P = P := by
    rw [hP]
    have : r.V * diagonal (fun i => invS r.S s.eps i * r.S i) * r.Vᵀ *
        (r.V * diagonal (fun i => invS r.S s.eps i * r.S i) * r.Vᵀ) =
        r.V * (diagonal (fun i => invS r.S s.eps i * r.S i) * (r.Vᵀ * r.V) *
          diagonal (fun i => invS r.S s.eps i * r.S i)) * r.Vᵀ := by simp only [Matrix.mul_assoc]
    rw [this, hsv.orthV, Matrix.mul_one, Matrix.diagonal_mul_diagonal]
    congr 3
    funext i
    exact hidem i
  have hTP : truncMat r s.eps * P = truncMat r s.eps := by
    rw [hP, truncMat]
    have : r.U * diagonal (truncS r.S s.eps) * r.Vᵀ * (r.V * diagonal (fun i => invS r.S s.eps i * r.S i) * r.Vᵀ) =
        r.U * (diagonal (truncS r.S s.eps) * (r.Vᵀ * r.V) * diagonal (fun i => invS r.S s.eps i * r.S i)) * r.Vᵀ := by
      simp only [Matrix.mul_assoc]
    rw [this, hsv.orthV, Matrix.mul_one, Matrix.diagonal_mul_diagonal]
    congr 3
    funext i
    rw [(trunc_mul_inv (S := r.S) he i).2.2.1, (trunc_mul_inv (S := r.S) he i).1]
  by_cases hA : nsoA qv ov wv > 1 / 10 ^ 9
  · have hApos : 0 < nsoA qv ov wv := lt_trans (by norm_num) hA
    set tmp : Fin s.nj → ℝ := fun i => wv i * (qv i - ov i) / nsoA qv ov wv with htmp
    set x : Fin s.nj → ℝ := (-2 * s.alpha * nsoG qv ov wv) • (tmp - P *ᵥ tmp) with hx
    have hTx : truncMat r s.eps *ᵥ x = 0 := by
      rw [hx, Matrix.mulVec_smul, Matrix.mulVec_sub, Matrix.mulVec_mulVec, hTP, sub_self, smul_zero]
    refine ⟨x, ?_, hTx, ?_, ?_⟩
    · rw [hp]
      congr 3
      funext i
      unfold nsoQdot
      dsimp only
      rw [if_pos hA, pinvQdot_eq, nsoSinv_eq, nso_proj hsv, ← hP]
      rfl
    · intro ht
      rwa [hsv.trunc_eq _ ht] at hTx
    · intro ha hw0
      refine ⟨_, ?_, nsoG_deriv _ _ _ _⟩
      have hg : 0 ≤ nsoG qv ov wv := Finset.sum_nonneg fun i _ =>
        mul_nonneg (mul_nonneg (by norm_num) (mul_self_nonneg _)) (hw0 i)
      have e : ∑ i, wv i * (qv i - ov i) * x i =
          nsoA qv ov wv * (-2 * s.alpha * nsoG qv ov wv) * (tmp ⬝ᵥ (tmp - P *ᵥ tmp)) := by
        rw [dotProduct, Finset.mul_sum]
        refine Finset.sum_congr rfl fun i _ => ?_
        have h1 : wv i * (qv i - ov i) = nsoA qv ov wv * tmp i := by rw [htmp]; field_simp
        have h2 : x i = (-2 * s.alpha * nsoG qv ov wv) * (tmp - P *ᵥ tmp) i := rfl
        rw [h1, h2]; ring
      have hsq : tmp ⬝ᵥ (tmp - P *ᵥ tmp) = (tmp - P *ᵥ tmp) ⬝ᵥ (tmp - P *ᵥ tmp) := by
        have h1 : (P *ᵥ tmp) ⬝ᵥ (tmp - P *ᵥ tmp) = 0 := by
          have : (P *ᵥ tmp) ⬝ᵥ (tmp - P *ᵥ tmp) = tmp ⬝ᵥ (P *ᵥ (tmp - P *ᵥ tmp)) := by
            rw [Matrix.dotProduct_mulVec, ← Matrix.mulVec_transpose, hPt]
          rw [this, Matrix.mulVec_sub, Matrix.mulVec_mulVec, hPP, sub_self, dotProduct_zero]
        rw [sub_dotProduct tmp, h1, sub_zero]
      rw [e, hsq]
      have hn0 := dot_self_nonneg' (tmp - P *ᵥ tmp)
      have h3 : 0 ≤ nsoA qv ov wv * (2 * s.alpha * nsoG qv ov wv) * ((tmp - P *ᵥ tmp) ⬝ᵥ (tmp - P *ᵥ tmp)) :=
        mul_nonneg (mul_nonneg hApos.le (mul_nonneg (mul_nonneg (by norm_num) ha) hg)) hn0
      linarith
  · refine ⟨0, ?_, Matrix.mulVec_zero _, fun _ => Matrix.mulVec_zero _, fun _ _ => ⟨_, ?_, nsoG_deriv _ _ _ _⟩⟩
    · rw [hp]
      congr 3
      funext i
      unfold nsoQdot
      dsimp only
      rw [if_neg hA, pinvQdot_eq, nsoSinv_eq]
      simp
    · simp

/-- The null space term in full, under the hypotheses of `C51_nullspace_partial`: with the criterion `g = ½ ∑ wᵢ eᵢ²`, `e` the distance
to the optimal position, and its gradient `wᵢ eᵢ`, the term is `-(2 alpha g / |gradient|²) y`, where `y` is the orthogonal projection of the
gradient on the null space of the truncated Jacobian; it is left out if `|gradient|² ≤ 1e-9`.  A gradient inside the null space is
reduced at the rate `2 alpha g`. -/
theorem C51_descent_partial (s : NsoState) (c : Chain) (hc : c.WF) (svd : (n : ℕ) → Matrix (Fin 6) (Fin n) ℝ → SvdOut 6 n)
    (hs : GoodSvd svd) (hn : s.nj = c.nrOfJoints) (h6 : 6 ≤ s.nj) (he : 0 < s.eps) (ho : s.opt_pos.length = s.nj)
    (hw : s.weights.length = s.nj) (jac0 : Jac) (q : List ℝ) (v : Twist) (qdot : List ℝ)
    (h0 : jac0.length = c.nrOfJoints) (hq : q.length = c.nrOfJoints) (hqd : qdot.length = c.nrOfJoints) (J : Jac)
    (hJ : jntToJac c (List.replicate c.nrOfJoints false) q jac0 (-1) = some (E_NOERROR, J))
    (hcode : (svd _ (jacMat s.nj J)).code = 0) (e grad : Fin s.nj → ℝ) (g : ℝ)
    (hee : ∀ i, e i = vecOf s.nj q i - vecOf s.nj s.opt_pos i) (hgrad : ∀ i, grad i = vecOf s.nj s.weights i * e i)
    (hg : g = 1 / 2 * ∑ i, vecOf s.nj s.weights i * e i ^ 2) :
    ∃ x y : Fin s.nj → ℝ,
      s.cartToJnt c svd jac0 q v qdot = some (.done E_NOERROR (List.ofFn fun i =>
        pinvQdot (svd _ (jacMat s.nj J)).U (svd _ (jacMat s.nj J)).S (svd _ (jacMat s.nj J)).V s.eps v i + x i)) ∧
      truncMat (svd _ (jacMat s.nj J)) s.eps *ᵥ y = 0 ∧
      (∀ z, truncMat (svd _ (jacMat s.nj J)) s.eps *ᵥ z = 0 → (grad - y) ⬝ᵥ z = 0) ∧
      (1 / 10 ^ 9 < grad ⬝ᵥ grad → x = -(2 * s.alpha * g / (grad ⬝ᵥ grad)) • y) ∧ (grad ⬝ᵥ grad ≤ 1 / 10 ^ 9 → x = 0) ∧
      (1 / 10 ^ 9 < grad ⬝ᵥ grad → truncMat (svd _ (jacMat s.nj J)) s.eps *ᵥ grad = 0 → grad ⬝ᵥ x = -(2 * s.alpha * g)) := by
  have hp := nso_cart s c svd jac0 J q v qdot hn (by omega) (by omega) ho hw (by rw [hn]; exact hJ) h6 he
  have hsv := hs _ _ hcode
  set r := svd s.nj (jacMat s.nj J) with hr
  have hp := hp.trans (if_neg (not_not.mpr hcode))
  set P := r.V * diagonal (fun i => invS r.S s.eps i * r.S i) * r.Vᵀ with hP
  have hPt : Pᵀ = P := by
    rw [hP]
    simp only [Matrix.transpose_mul, Matrix.transpose_transpose, Matrix.diagonal_transpose, Matrix.mul_assoc]
  have hTP : truncMat r s.eps * P = truncMat r s.eps := by
    rw [hP, truncMat]
    have : r.U * diagonal (truncS r.S s.eps) * r.Vᵀ * (r.V * diagonal (fun i => invS r.S s.eps i * r.S i) * r.Vᵀ) =
        r.U * (diagonal (truncS r.S s.eps) * (r.Vᵀ * r.V) * diagonal (fun i => invS r.S s.eps i * r.S i)) * r.Vᵀ := by
      simp only [Matrix.mul_assoc]
    rw [this, hsv.orthV, Matrix.mul_one, Matrix.diagonal_mul_diagonal]
    congr 3
    funext i
    rw [(trunc_mul_inv (S := r.S) he i).2.2.1, (trunc_mul_inv (S := r.S) he i).1]
  have hPT : P = r.V * diagonal (invS r.S s.eps) * r.Uᵀ * truncMat r s.eps := by
    have h1 := sandwich hsv.orthU (invS r.S s.eps) (truncS r.S s.eps) inv_ne (fun i h => by
      intro h'
      exact h (by unfold truncS; rw [h']; simp))
    rw [truncMat, hP]
    have h2 : (fun i => invS r.S s.eps i * r.S i) = fun i => invS r.S s.eps i * truncS r.S s.eps i := by
      funext i; exact ((trunc_mul_inv (S := r.S) he i).2.2.1).trans (mul_comm _ _)
    rw [h2, ← h1]
    simp only [Matrix.mul_assoc]
  have hA : nsoA (vecOf s.nj q) (vecOf s.nj s.opt_pos) (vecOf s.nj s.weights) = grad ⬝ᵥ grad := by
    unfold nsoA
    rw [dotProduct]
    refine Finset.sum_congr rfl fun i _ => ?_
    rw [hgrad, hee]; ring
  have hG : nsoG (vecOf s.nj q) (vecOf s.nj s.opt_pos) (vecOf s.nj s.weights) = g := by
    unfold nsoG
    rw [hg, Finset.mul_sum]
    refine Finset.sum_congr rfl fun i _ => ?_
    rw [hee]; ring
  have hy : truncMat r s.eps *ᵥ (grad - P *ᵥ grad) = 0 := by rw [Matrix.mulVec_sub, Matrix.mulVec_mulVec, hTP, sub_self]
  have hker : ∀ z, truncMat r s.eps *ᵥ z = 0 → P *ᵥ z = 0 := fun z hz => by
    rw [hPT, ← Matrix.mulVec_mulVec, hz, Matrix.mulVec_zero]
  have horth : ∀ z, truncMat r s.eps *ᵥ z = 0 → (grad - (grad - P *ᵥ grad)) ⬝ᵥ z = 0 := by
    intro z hz
    rw [sub_sub_cancel]
    have : (P *ᵥ grad) ⬝ᵥ z = grad ⬝ᵥ (P *ᵥ z) := by
      rw [Matrix.dotProduct_mulVec, ← Matrix.mulVec_transpose, hPt]
    rw [this, hker z hz, dotProduct_zero]
  by_cases hbig : 1 / 10 ^ 9 < grad ⬝ᵥ grad
  · have hpos : 0 < grad ⬝ᵥ grad := lt_trans (by norm_num) hbig
    refine ⟨-(2 * s.alpha * g / (grad ⬝ᵥ grad)) • (grad - P *ᵥ grad), grad - P *ᵥ grad, ?_, hy, horth, fun _ => rfl,
      fun h => absurd hbig (not_lt.mpr h), fun _ hz => ?_⟩
    · rw [hp]
      congr 3
      funext i
      unfold nsoQdot
      dsimp only
      rw [if_pos (by rw [hA]; exact hbig), pinvQdot_eq, nsoSinv_eq, nso_proj hsv, ← hP, hA, hG]
      have ht : (fun i => vecOf s.nj s.weights i * (vecOf s.nj q i - vecOf s.nj s.opt_pos i) / (grad ⬝ᵥ grad)) =
          (1 / (grad ⬝ᵥ grad)) • grad := by
        funext i
        rw [Pi.smul_apply, hgrad, hee, smul_eq_mul]; ring
      rw [ht, Matrix.mulVec_smul]
      simp only [Pi.smul_apply, Pi.sub_apply, smul_eq_mul]
      rw [show vecOf s.nj s.weights i * (vecOf s.nj q i - vecOf s.nj s.opt_pos i) = grad i by rw [hgrad, hee]]
      ring
    · rw [hker grad hz, sub_zero, dotProduct_smul, smul_eq_mul]
      field_simp
  · refine ⟨0, grad - P *ᵥ grad, ?_, hy, horth, fun h => absurd h hbig, fun _ => rfl, fun h => absurd h hbig⟩
    rw [hp]
    congr 3
    funext i
    unfold nsoQdot
    dsimp only
    rw [if_neg (by rw [hA]; exact hbig), pinvQdot_eq, nsoSinv_eq]
    simp

/-- Below six joints the null space solver writes outside an array whenever the decomposition succeeds: here for the chain
of one prismatic joint. -/
theorem C51_small_violated (svd : (n : ℕ) → Matrix (Fin 6) (Fin n) ℝ → SvdOut 6 n)
    (hok : ∀ n A, (svd n A).code = 0) (o w eps alpha x : ℝ) (v : Twist) :
    (slides 1).WF ∧ (NsoState.new (slides 1) [o] [w] eps alpha).cartToJnt (slides 1) svd [0] [x] v [0] = none := by
  refine ⟨slides_wf 1, ?_⟩
  have hJ : jntToJac (slides 1) (List.replicate (NsoState.new (slides 1) [o] [w] eps alpha).nj false) [x] [0] (-1) = _ :=
    slides_jac 1 [x] rfl [0] rfl
  unfold NsoState.cartToJnt
  refine (if_neg (not_not.mpr rfl)).trans ((if_neg ?_).trans ?_)
  · simp [NsoState.new, slides]
  rw [hJ]
  refine (if_neg (c := E_NOERROR < E_NOERROR) (t := some (VelOut.done E_NOERROR [0])) (by simp [E_NOERROR])).trans ?_
  refine (if_neg (not_not.mpr (hok _ _))).trans (if_pos ?_)
  show 1 < 6
  omega

/-- The solver built with the second constructor refuses every call until `updateInternalDataStructures` or the setters
have been called; after the update it has zero optimal positions and unit weights of the right length. -/
theorem C51_default (c : Chain) (hn : c.nrOfJoints ≠ 0) (eps alpha : ℝ)
    (svd : (n : ℕ) → Matrix (Fin 6) (Fin n) ℝ → SvdOut 6 n) (jac0 : Jac) (q : List ℝ) (v : Twist) (qdot : List ℝ) :
    (NsoState.newDefault c eps alpha).cartToJnt c svd jac0 q v qdot = some (.done E_SIZE_MISMATCH qdot) ∧
    (NsoState.newDefault c eps alpha).update c =
      ⟨c.nrOfJoints, eps, alpha, List.replicate c.nrOfJoints 1, List.replicate c.nrOfJoints 0⟩ := by
  constructor
  · unfold NsoState.cartToJnt
    refine (if_neg (not_not.mpr rfl)).trans (if_pos ?_)
    right; right; left
    simpa [NsoState.newDefault] using hn
  · simp [NsoState.newDefault, NsoState.update]

/-- The setters accept exactly vectors with one entry per joint and change nothing else. -/
theorem C51_setters (s : NsoState) (l : List ℝ) :
    (l.length = s.nj → s.setWeights l = (E_NOERROR, { s with weights := l }) ∧
      s.setOptPos l = (E_NOERROR, { s with opt_pos := l })) ∧
    (l.length ≠ s.nj → s.setWeights l = (E_SIZE_MISMATCH, s) ∧ s.setOptPos l = (E_SIZE_MISMATCH, s)) := by
  refine ⟨fun h => ⟨?_, ?_⟩, fun h => ⟨?_, ?_⟩⟩
  · exact if_neg (by simp [h])
  · exact if_neg (by simp [h])
  · exact if_pos (Ne.symm h)
  · exact if_pos (Ne.symm h)

/-- The first constructor keeps its arguments; `setAlpha` always succeeds and changes nothing else. -/
theorem C51_new (c : Chain) (opt_pos weights : List ℝ) (eps alpha a : ℝ) (s : NsoState) :
    (NsoState.new c opt_pos weights eps alpha).nj = c.nrOfJoints ∧ (NsoState.new c opt_pos weights eps alpha).opt_pos = opt_pos ∧
    (NsoState.new c opt_pos weights eps alpha).weights = weights ∧ (NsoState.new c opt_pos weights eps alpha).eps = eps ∧
    (NsoState.new c opt_pos weights eps alpha).alpha = alpha ∧ s.setAlpha a = (0, ⟨s.nj, s.eps, a, s.weights, s.opt_pos⟩) :=
  ⟨rfl, rfl, rfl, rfl, rfl, rfl⟩

/-- `C51_nullspace_partial` and `C51_descent_partial` (same hypotheses) are not vacuous. -/
example (v : Twist) : ∃ svd out, GoodSvd svd ∧
    (NsoState.new (slides 7) (List.replicate 7 1) (List.replicate 7 1) 1 1).cartToJnt (slides 7) svd (List.replicate 7 0)
      (List.replicate 7 0) v (List.replicate 7 0) = some (.done E_NOERROR out) := by
  obtain ⟨svd, hs, hok⟩ := exists_goodSvd
  obtain ⟨J, _, _, _, h⟩ := C51_nullspace_partial (NsoState.new (slides 7) (List.replicate 7 1) (List.replicate 7 1) 1 1) (slides 7)
    (slides_wf 7) svd hs rfl (by show 6 ≤ 7; omega) (by show (0 : ℝ) < 1; norm_num) rfl rfl (List.replicate 7 0)
    (List.replicate 7 0) v (List.replicate 7 0) rfl rfl rfl
  obtain ⟨x, hx, _⟩ := h (hok _ _)
  exact ⟨svd, _, hs, hx⟩

/-! ## Argument checks of the three solvers -/

/-- C50: after `updateInternalDataStructures` the weights fit the changed chain: the sizes are those of the chain, the
weights of joints that were there before are kept and every new joint gets the weight 1 without coupling. -/
theorem C50_update (s : WdlsState) (c : Chain) (hs : s.shapes) :
    (s.update c).nj = c.nrOfJoints ∧ (s.update c).shapes ∧ (s.update c).Wx = s.Wx ∧
    (s.update c).lambda = s.lambda ∧ (s.update c).eps = s.eps ∧
    (∀ i j : Fin c.nrOfJoints, ∀ hi : (i : ℕ) < s.nj, ∀ hj : (j : ℕ) < s.nj, (s.update c).Wq i j = s.Wq ⟨i, hi⟩ ⟨j, hj⟩) ∧
    ∀ i j : Fin c.nrOfJoints, s.nj ≤ i ∨ s.nj ≤ j → (s.update c).Wq i j = (1 : Matrix _ _ ℝ) i j := by
  obtain ⟨h1, h2, h3, h4⟩ := hs
  refine ⟨rfl, ⟨rfl, rfl, h3, h4⟩, rfl, rfl, rfl, ?_, ?_⟩
  · intro i j hi hj
    show (if (i : ℕ) < s.wjs.rows ∧ (j : ℕ) < s.wjs.cols then _ else _) = _
    rw [if_pos ⟨by omega, by omega⟩]
    rfl
  · intro i j h
    show (if (i : ℕ) < s.wjs.rows ∧ (j : ℕ) < s.wjs.cols then _ else _) = _
    rw [if_neg (by omega), Matrix.one_apply]
    simp only [Fin.ext_iff]

/-- C50: a freshly constructed solver that is updated after its chain has changed is the solver constructed for the changed
chain. -/
theorem C50_update_new (c c' : Chain) (eps : ℝ) : (WdlsState.new c eps).update c' = WdlsState.new c' eps := by
  simp only [WdlsState.update, WdlsState.new, EMat.resizeLikeIdentity, EMat.identity, WdlsState.mk.injEq, EMat.mk.injEq,
    true_and, and_true]
  funext i j
  by_cases h : i < c.nrOfJoints ∧ j < c.nrOfJoints
  · exact if_pos h
  · exact if_neg h

/-- After the chain changed, `updateInternalDataStructures` brings the solver into the state of a new one for that chain. -/
theorem C49_update (s : PinvState) (c c' : Chain) (eps : ℝ) : (PinvState.new c eps).update c' = PinvState.new c' eps ∧
    (s.update c').nj = c'.nrOfJoints ∧ (s.update c').eps = s.eps := ⟨rfl, rfl, rfl⟩

/-- After the chain changed, `updateInternalDataStructures` makes the solver usable again: optimal positions and weights have
one entry per joint, those of earlier joints are kept, new ones are 0 and 1. -/
theorem C51_update (s : NsoState) (c : Chain) :
    (s.update c).nj = c.nrOfJoints ∧ (s.update c).eps = s.eps ∧ (s.update c).alpha = s.alpha ∧
    (s.update c).opt_pos.length = c.nrOfJoints ∧ (s.update c).weights.length = c.nrOfJoints ∧
    ∀ i, i < c.nrOfJoints →
      (s.update c).opt_pos[i]? = (if i < s.opt_pos.length then s.opt_pos[i]? else some 0) ∧
      (s.update c).weights[i]? = (if i < s.weights.length then s.weights[i]? else some 1) := by
  have e : ∀ (l : List ℝ) (x : ℝ) (n i : ℕ), i < n →
      (l.take n ++ List.replicate (n - l.length) x)[i]? = if i < l.length then l[i]? else some x := by
    intro l x n i hi
    split_ifs with h
    · rw [List.getElem?_append_left (by simp; omega), List.getElem?_take_of_lt hi]
    · rw [List.getElem?_append_right (by simp; omega), List.getElem?_replicate, if_pos (by simp; omega)]
  refine ⟨rfl, rfl, rfl, ?_, ?_, fun i hi => ⟨e _ _ _ _ hi, e _ _ _ _ hi⟩⟩ <;> simp [NsoState.update] <;> omega

/-- Not up to date, then size mismatch, before anything is computed and with `qdot_out` untouched. -/
theorem C49_guards (s : PinvState) (c : Chain) (svd : (n : ℕ) → Matrix (Fin 6) (Fin n) ℝ → SvdOut 6 n) (jac0 : Jac)
    (q : List ℝ) (v : Twist) (qdot : List ℝ) :
    (s.nj ≠ c.nrOfJoints → s.cartToJnt c svd jac0 q v qdot = some (.done E_NOT_UP_TO_DATE qdot)) ∧
    (s.nj = c.nrOfJoints → (s.nj ≠ q.length ∨ s.nj ≠ qdot.length) →
      s.cartToJnt c svd jac0 q v qdot = some (.done E_SIZE_MISMATCH qdot)) ∧
    (s.update c).nj = c.nrOfJoints :=
  ⟨fun h => if_pos h, fun h h' => (if_neg (not_not.mpr h)).trans (if_pos h'), rfl⟩

theorem C50_guards (s : WdlsState) (c : Chain) (svd : (n : ℕ) → Matrix (Fin 6) (Fin n) ℝ → SvdOut 6 n) (jac0 : Jac)
    (q : List ℝ) (v : Twist) (qdot : List ℝ) :
    (s.nj ≠ c.nrOfJoints → s.cartToJnt c svd jac0 q v qdot = some (.done E_NOT_UP_TO_DATE qdot)) ∧
    (s.nj = c.nrOfJoints → (s.nj ≠ q.length ∨ s.nj ≠ qdot.length) →
      s.cartToJnt c svd jac0 q v qdot = some (.done E_SIZE_MISMATCH qdot)) ∧
    (s.wts.rows = 6 → s.wts.cols = 6 → (s.update c).shapes ∧ (s.update c).nj = c.nrOfJoints) :=
  ⟨fun h => if_pos h, fun h h' => (if_neg (not_not.mpr h)).trans (if_pos h'), fun h1 h2 => ⟨⟨rfl, rfl, h1, h2⟩, rfl⟩⟩

/-- The setters store the weight they are given under its own name, change nothing else, and refuse a matrix with another
number of coefficients; `setLambda` sets the damping only. -/
theorem C50_setters (s : WdlsState) (c : Chain) (m : EMat) (l : ℝ) :
    (m.size = s.wts.size → s.setWeightTS m = (E_NOERROR, ⟨s.nj, s.eps, s.lambda, s.wjs, m⟩)) ∧
    (m.size ≠ s.wts.size → s.setWeightTS m = (E_SIZE_MISMATCH, s)) ∧
    (s.nj ≠ c.nrOfJoints → s.setWeightJS c m = (E_NOT_UP_TO_DATE, s)) ∧
    (s.nj = c.nrOfJoints → m.size = s.wjs.size → s.setWeightJS c m = (E_NOERROR, ⟨s.nj, s.eps, s.lambda, m, s.wts⟩)) ∧
    (s.nj = c.nrOfJoints → m.size ≠ s.wjs.size → s.setWeightJS c m = (E_SIZE_MISMATCH, s)) ∧
    s.setLambda l = ⟨s.nj, s.eps, l, s.wjs, s.wts⟩ :=
  ⟨fun h => if_neg (not_not.mpr h), fun h => if_pos h, fun h => if_pos h,
    fun h h' => (if_neg (not_not.mpr h)).trans (if_neg (not_not.mpr h')),
    fun h h' => (if_neg (not_not.mpr h)).trans (if_pos h'), rfl⟩

theorem C51_guards (s : NsoState) (c : Chain) (svd : (n : ℕ) → Matrix (Fin 6) (Fin n) ℝ → SvdOut 6 n) (jac0 : Jac)
    (q : List ℝ) (v : Twist) (qdot : List ℝ) :
    (s.nj ≠ c.nrOfJoints → s.cartToJnt c svd jac0 q v qdot = some (.done E_NOT_UP_TO_DATE qdot)) ∧
    (s.nj = c.nrOfJoints →
      (s.nj ≠ q.length ∨ s.nj ≠ qdot.length ∨ s.nj ≠ s.opt_pos.length ∨ s.nj ≠ s.weights.length) →
      s.cartToJnt c svd jac0 q v qdot = some (.done E_SIZE_MISMATCH qdot)) ∧
    ((s.update c).nj = c.nrOfJoints ∧ (s.update c).opt_pos.length = c.nrOfJoints ∧
      (s.update c).weights.length = c.nrOfJoints) := by
  refine ⟨fun h => if_pos h, fun h h' => (if_neg (not_not.mpr h)).trans (if_pos h'), rfl, ?_, ?_⟩
  · simp [NsoState.update]; omega
  · simp [NsoState.update]; omega

end KDL
