import Verif.Lemmas.Lma
import Verif.Props.ForwardKinematics
import Verif.Props.IkPos
import Verif.Lemmas.RotLog

/-!
# Levenberg-Marquardt position solver (C52)
-/

noncomputable section
namespace KDL
open Matrix

/-! ### Specification -/

/-- What the interface of the thin decomposition promises. -/
structure IsThinSvd {n : ℕ} (A : Matrix (Fin 6) (Fin n) ℝ) (r : ThinSvd n) : Prop where
  factor : A = r.U * diagonal r.S * r.Vᵀ
  orthU : OrthOn r.U r.S
  orthV : OrthOn r.V r.S

/-- A decomposition routine that keeps the promise for every matrix. -/
def GoodThinSvd (svd : ThinSvdFn) : Prop := ∀ n A, IsThinSvd A (svd n A)

/-- Geometric Jacobian of the end of the chain (see `C52_jacobian`). -/
def geoJac (c : Chain) (q : List ℝ) : Jac := colsF (rd q) c.segments 0 1
/-- Its rows multiplied with the weights. -/
def wJac (c : Chain) (L : Fin 6 → ℝ) (q : List ℝ) : Matrix (Fin 6) (Fin c.nrOfJoints) ℝ :=
  fun r i => L r * ((geoJac c q).getD i 0).comp r
/-- The weighted pose error. -/
def wErr (c : Chain) (L : Fin 6 → ℝ) (goal : Frame) (q : List ℝ) : Fin 6 → ℝ :=
  fun r => L r * (Frame.diff (endF c q) goal 1).comp r
/-- Its norm. -/
def wDist (c : Chain) (L : Fin 6 → ℝ) (goal : Frame) (q : List ℝ) : ℝ := Real.sqrt (sqn (wErr c L goal q))

/-- `x` is the minimiser of `|J y − d|² + λ |y|²`. -/
def DampedStep {m n : ℕ} (J : Matrix (Fin m) (Fin n) ℝ) (d : Fin m → ℝ) (lam : ℝ) (x : Fin n → ℝ) : Prop :=
  ∀ y, sqn (J *ᵥ x - d) + lam * sqn x ≤ sqn (J *ᵥ y - d) + lam * sqn y ∧
    (sqn (J *ᵥ y - d) + lam * sqn y = sqn (J *ᵥ x - d) + lam * sqn x → y = x)

/-- Ratio of the actual to the predicted decrease of the squared error. -/
def gainRatio (c : Chain) (L : Fin 6 → ℝ) (goal : Frame) (q : List ℝ) (x : Fin c.nrOfJoints → ℝ) : ℝ :=
  (wDist c L goal q ^ 2 - wDist c L goal (jsum q (List.ofFn x)) ^ 2) /
    (sqn (wErr c L goal q) - sqn (wJac c L q *ᵥ x - wErr c L goal q))

/-- The textbook algorithm: state after `k` iterations (joint values, damping, growth factor). -/
inductive LmaRun (c : Chain) (L : Fin 6 → ℝ) (goal : Frame) (q0 : List ℝ) : ℕ → List ℝ → ℝ → ℝ → Prop
  | start : LmaRun c L goal q0 0 q0 10 2
  | accept {k : ℕ} {q : List ℝ} {lam v : ℝ} {x : Fin c.nrOfJoints → ℝ} : LmaRun c L goal q0 k q lam v →
      DampedStep (wJac c L q) (wErr c L goal q) lam x → wDist c L goal (jsum q (List.ofFn x)) < wDist c L goal q →
      LmaRun c L goal q0 (k + 1) (jsum q (List.ofFn x)) (lam * max (1 / 3) (1 - (2 * gainRatio c L goal q x - 1) ^ 3)) 2
  | reject {k : ℕ} {q : List ℝ} {lam v : ℝ} {x : Fin c.nrOfJoints → ℝ} : LmaRun c L goal q0 k q lam v →
      DampedStep (wJac c L q) (wErr c L goal q) lam x → ¬ wDist c L goal (jsum q (List.ofFn x)) < wDist c L goal q →
      LmaRun c L goal q0 (k + 1) q (lam * v) (2 * v)

/-! ### Kinematics -/

/-- The solver's own forward kinematics and Jacobian agree with the position solver and the Jacobian solver. -/
theorem C52_jacobian (c : Chain) (hc : c.WF) (q : List ℝ) (hq : q.length = c.nrOfJoints) (w : LmaFk)
    (hw : w.Sized c) (J0 : Jac) (hJ : J0.length = c.nrOfJoints) :
    ∃ w', lmaFwdpos c q w = some w' ∧ w'.Sized c ∧ w'.head = endF c q ∧ fkPos c q (-1) = some (E_NOERROR, w'.head) ∧
      lmaJacobian c q w' J0 = some (geoJac c q) ∧
      jntToJac c (List.replicate c.nrOfJoints false) q J0 (-1) = some (E_NOERROR, geoJac c q) := by
  have hs : segmentNr c (-1) = c.nrOfSegments := rfl
  have ht : c.segments.take c.nrOfSegments = c.segments := by rw [hc.1]; exact List.take_length
  refine ⟨_, lmaFwdpos_eq c hc q hq w hw, ⟨?_, ?_⟩, rfl, ?_, lmaJacobian_eq c hc q hq J0 hJ, ?_⟩
  · rw [rootsF_length, hc.2]
  · rw [tipsF_length, hc.2]
  · have h := fkLoop_eq q c.segments 0 1 (by rw [hq, hc.2]; omega)
    unfold fkPos
    simp only [hs, ht]
    rw [if_neg (by simp [hq]), if_neg (by simp), h]
    simp [endF]
  · rw [jntToJac_unlocked c hc q J0 (-1) hq hJ (by rw [hs]), hs, ht, ← hc.2]
    simp [geoJac]

/-! ### One step -/

theorem sqn_eq_dot {ι : Type*} [Fintype ι] (x : ι → ℝ) : sqn x = x ⬝ᵥ x := rfl

theorem lmaStep_eq {n : ℕ} (r : ThinSvd n) (lam : ℝ) (t : Twist) :
    lmaStep r lam t = (r.V * diagonal (fun k => r.S k / (r.S k * r.S k + lam)) * r.Uᵀ) *ᵥ t.comp := by
  funext i
  rw [Matrix.mul_assoc, ← Matrix.mulVec_mulVec]
  unfold lmaStep Matrix.mulVec dotProduct
  refine Finset.sum_congr rfl fun k _ => ?_
  simp only [Matrix.diagonal_mul, Matrix.transpose_apply, mul_assoc, ← Finset.mul_sum]

/-- The step solves the damped normal equations. -/
theorem lmaStep_normal {n : ℕ} {A : Matrix (Fin 6) (Fin n) ℝ} {r : ThinSvd n} (h : IsThinSvd A r) (lam : ℝ) (hl : 0 < lam)
    (t : Twist) : Aᵀ *ᵥ (A *ᵥ lmaStep r lam t) + lam • lmaStep r lam t = Aᵀ *ᵥ t.comp := by
  have hpos : ∀ k, r.S k * r.S k + lam ≠ 0 := fun k => by nlinarith [mul_self_nonneg (r.S k)]
  set d : Fin (min 6 n) → ℝ := fun k => r.S k / (r.S k * r.S k + lam) with hd
  have hd0 : ∀ i, d i ≠ 0 → r.S i ≠ 0 := fun i hi h0 => hi (by simp [hd, h0])
  have e1 : Aᵀ * (A * (r.V * diagonal d * r.Uᵀ)) = r.V * diagonal (fun k => r.S k * (r.S k * d k)) * r.Uᵀ := by
    have s1 := sandwich h.orthU r.S r.S (fun _ x => x) (fun _ x => x)
    have s2 := sandwich h.orthV (fun k => r.S k * r.S k) d (fun i hi h0 => hi (by simp [h0])) hd0
    calc Aᵀ * (A * (r.V * diagonal d * r.Uᵀ))
        = r.V * ((diagonal r.S * (r.Uᵀ * r.U) * diagonal r.S) * (r.Vᵀ * r.V) * diagonal d) * r.Uᵀ := by
          rw [h.factor]
          simp only [Matrix.transpose_mul, Matrix.transpose_transpose, Matrix.diagonal_transpose, Matrix.mul_assoc]
      _ = _ := by
          rw [s1, s2]
          congr 2
          ext k
          simp [mul_assoc]
  have e2 : lam • (r.V * diagonal d * r.Uᵀ) = r.V * diagonal (fun k => lam * d k) * r.Uᵀ := by
    have : diagonal (fun k => lam * d k) = lam • diagonal d := by
      ext i j; simp [Matrix.diagonal_apply]
    rw [this]; simp
  have e3 : Aᵀ = r.V * diagonal r.S * r.Uᵀ := by
    rw [h.factor]
    simp only [Matrix.transpose_mul, Matrix.transpose_transpose, Matrix.diagonal_transpose, Matrix.mul_assoc]
  rw [lmaStep_eq, ← Matrix.smul_mulVec, Matrix.mulVec_mulVec, Matrix.mulVec_mulVec, ← Matrix.add_mulVec, ← hd, Matrix.mul_assoc, e1, e2,
    ← Matrix.add_mul, ← Matrix.mul_add, Matrix.diagonal_add, e3]
  congr 4
  ext k
  simp only [hd]
  field_simp [hpos k]

/-- Solutions of the damped normal equations are the strict minimisers. -/
theorem damped_of_normal {m n : ℕ} {A : Matrix (Fin m) (Fin n) ℝ} {d : Fin m → ℝ} {lam : ℝ} (hl : 0 < lam) {x : Fin n → ℝ}
    (h : Aᵀ *ᵥ (A *ᵥ x) + lam • x = Aᵀ *ᵥ d) : DampedStep A d lam x := by
  intro y
  have key : sqn (A *ᵥ y - d) + lam * sqn y = sqn (A *ᵥ x - d) + lam * sqn x + sqn (A *ᵥ (y - x)) + lam * sqn (y - x) := by
    obtain ⟨z, rfl⟩ : ∃ z, y = x + z := ⟨y - x, by abel⟩
    have hz := congrArg (fun w => w ⬝ᵥ z) h
    simp only [add_dotProduct, smul_dotProduct, smul_eq_mul] at hz
    have t1 : (Aᵀ *ᵥ (A *ᵥ x)) ⬝ᵥ z = (A *ᵥ x) ⬝ᵥ (A *ᵥ z) := by
      rw [dotProduct_mulVec, ← Matrix.mulVec_transpose]
    have t2 : (Aᵀ *ᵥ d) ⬝ᵥ z = d ⬝ᵥ (A *ᵥ z) := by
      rw [dotProduct_mulVec, ← Matrix.mulVec_transpose]
    rw [t1, t2] at hz
    simp only [sqn_eq_dot, add_sub_cancel_left, Matrix.mulVec_add, sub_dotProduct, dotProduct_sub, add_dotProduct,
      dotProduct_add]
    rw [dotProduct_comm (A *ᵥ z) (A *ᵥ x), dotProduct_comm (A *ᵥ z) d, dotProduct_comm z x,
      dotProduct_comm (A *ᵥ x) d]
    linear_combination 2 * hz
  have n1 : 0 ≤ sqn (A *ᵥ (y - x)) := dot_self_nonneg' _
  have n2 : 0 ≤ sqn (y - x) := dot_self_nonneg' _
  refine ⟨by rw [key]; nlinarith [mul_nonneg hl.le n2], fun he => ?_⟩
  have h0 : sqn (y - x) = 0 := by
    rw [key] at he
    have : lam * sqn (y - x) = 0 := by nlinarith [mul_nonneg hl.le n2]
    rcases mul_eq_zero.mp this with h1 | h1
    · exact absurd h1 hl.ne'
    · exact h1
  have := dotProduct_self_eq_zero.mp h0
  exact sub_eq_zero.mp this

/-- Predicted decrease: the denominator of `rho`. -/
theorem rho_den {n : ℕ} {A : Matrix (Fin 6) (Fin n) ℝ} {t : Twist} {lam : ℝ} {x : Fin n → ℝ}
    (h : Aᵀ *ᵥ (A *ᵥ x) + lam • x = Aᵀ *ᵥ t.comp) :
    ∑ i, x i * (lam * x i + lmaGrad A t i) = sqn t.comp - sqn (A *ᵥ x - t.comp) ∧
    ∑ i, x i * (lam * x i + lmaGrad A t i) = sqn (A *ᵥ x) + 2 * lam * sqn x := by
  have hg : lmaGrad A t = Aᵀ *ᵥ t.comp := by
    funext i; simp [lmaGrad, Matrix.mulVec, dotProduct]
  have h0 : ∑ i, x i * (lam * x i + lmaGrad A t i) = lam * sqn x + x ⬝ᵥ (Aᵀ *ᵥ t.comp) := by
    rw [← hg]
    simp only [sqn, dotProduct, Finset.mul_sum, ← Finset.sum_add_distrib]
    exact Finset.sum_congr rfl fun i _ => by ring
  have t1 : x ⬝ᵥ (Aᵀ *ᵥ t.comp) = (A *ᵥ x) ⬝ᵥ t.comp := by
    rw [dotProduct_mulVec, Matrix.vecMul_transpose]
  have t2 : x ⬝ᵥ (Aᵀ *ᵥ t.comp) = sqn (A *ᵥ x) + lam * sqn x := by
    rw [← h, dotProduct_add, dotProduct_smul, smul_eq_mul, sqn_eq_dot, sqn_eq_dot]
    congr 1
    rw [dotProduct_mulVec, Matrix.vecMul_transpose]
  refine ⟨?_, by rw [h0, t2]; ring⟩
  rw [h0]
  simp only [sqn_eq_dot, sub_dotProduct, dotProduct_sub] at *
  rw [dotProduct_comm t.comp (A *ᵥ x)]
  linarith

/-! ### The run -/

theorem weigh_comp (L : Fin 6 → ℝ) (t : Twist) (r : Fin 6) : (t.weigh L).comp r = L r * t.comp r := by
  fin_cases r <;> rfl
theorem norm6_eq (t : Twist) : t.norm6 = Real.sqrt (sqn t.comp) := by
  unfold Twist.norm6 sqn
  congr 1
  simp only [Fin.sum_univ_six, Twist.comp, Vec.dot]
  ring
theorem weigh_wErr (c : Chain) (L : Fin 6 → ℝ) (goal : Frame) (q : List ℝ) :
    ((Frame.diff (endF c q) goal 1).weigh L).comp = wErr c L goal q := funext fun r => weigh_comp L _ r
theorem norm_wDist (c : Chain) (L : Fin 6 → ℝ) (goal : Frame) (q : List ℝ) :
    ((Frame.diff (endF c q) goal 1).weigh L).norm6 = wDist c L goal q := by
  rw [norm6_eq, weigh_wErr]; rfl
theorem jacMat_wJac (c : Chain) (L : Fin 6 → ℝ) (q : List ℝ) :
    jacMat c.nrOfJoints ((geoJac c q).map (Twist.weigh L)) = wJac c L q := by
  ext r i
  have h0 : Twist.weigh L 0 = 0 := by ext <;> simp [Twist.weigh]
  have : ((geoJac c q).map (Twist.weigh L)).getD i 0 = ((geoJac c q).getD i 0).weigh L := by
    rw [List.getD_eq_getElem?_getD, List.getD_eq_getElem?_getD, List.getElem?_map]
    cases (geoJac c q)[(i : ℕ)]? <;> simp [h0]
  simp only [jacMat, wJac, this, weigh_comp]
theorem geoJac_length (c : Chain) (hc : c.WF) (q : List ℝ) : (geoJac c q).length = c.nrOfJoints := by
  rw [geoJac, colsF_length, hc.2]
theorem wDist_nonneg (c : Chain) (L : Fin 6 → ℝ) (goal : Frame) (q : List ℝ) : 0 ≤ wDist c L goal q := Real.sqrt_nonneg _
theorem wDist_sq (c : Chain) (L : Fin 6 → ℝ) (goal : Frame) (q : List ℝ) :
    wDist c L goal q ^ 2 = sqn (wErr c L goal q) := Real.sq_sqrt (dot_self_nonneg' _)

theorem infNorm_lt (l : List ℝ) (e : ℝ) : infNorm l < e ↔ 0 < e ∧ ∀ x ∈ l, |x| < e := by
  have : ∀ (l : List ℝ) (m : ℝ), l.foldl (fun m x => max m |x|) m < e ↔ m < e ∧ ∀ x ∈ l, |x| < e := by
    intro l
    induction l with
    | nil => intro m; simp
    | cons a l ih => intro m; simp [List.foldl_cons, ih, and_assoc]
  exact this l 0

theorem jsum_length {a b : List ℝ} (h : a.length = b.length) : (jsum a b).length = a.length := by
  simp [jsum, h]
theorem jsum_zero (n : ℕ) (q : List ℝ) (h : q.length = n) : jsum q (List.ofFn (0 : Fin n → ℝ)) = q := by
  refine List.ext_getElem (by simp [jsum, h]) fun i h1 h2 => ?_
  simp [jsum]

/-- Acceptance test. -/
theorem rhoPos_iff {c : Chain} {L : Fin 6 → ℝ} {goal : Frame} {q : List ℝ} (hq : q.length = c.nrOfJoints) {lam : ℝ}
    (hl : 0 < lam) {x : Fin c.nrOfJoints → ℝ} {t : Twist} (ht : t.comp = wErr c L goal q)
    (h : (wJac c L q)ᵀ *ᵥ (wJac c L q *ᵥ x) + lam • x = (wJac c L q)ᵀ *ᵥ t.comp) :
    (rhoPos (lmaRho lam x (lmaGrad (wJac c L q) t) (wDist c L goal q) (wDist c L goal (jsum q (List.ofFn x)))) ↔
      wDist c L goal (jsum q (List.ofFn x)) < wDist c L goal q) ∧
    (wDist c L goal (jsum q (List.ofFn x)) < wDist c L goal q →
      lmaFactor (lmaRho lam x (lmaGrad (wJac c L q) t) (wDist c L goal q) (wDist c L goal (jsum q (List.ofFn x)))) =
        max (1 / 3) (1 - (2 * gainRatio c L goal q x - 1) ^ 3)) := by
  obtain ⟨d1, d2⟩ := rho_den h
  have n1 : 0 ≤ sqn (wJac c L q *ᵥ x) := dot_self_nonneg' _
  have n2 : 0 ≤ sqn x := dot_self_nonneg' _
  have w1 := wDist_nonneg c L goal q
  have w2 := wDist_nonneg c L goal (jsum q (List.ofFn x))
  by_cases hx : x = 0
  · have e : jsum q (List.ofFn x) = q := by rw [hx]; exact jsum_zero _ _ hq
    rw [e]
    refine ⟨?_, fun h => absurd h (lt_irrefl _)⟩
    simp [rhoPos, lmaRho, hx]
  · have hpos : 0 < sqn x := lt_of_le_of_ne n2 fun h0 => hx (dotProduct_self_eq_zero.mp h0.symm)
    have hd : 0 < ∑ i, x i * (lam * x i + lmaGrad (wJac c L q) t i) := by
      rw [d2]; nlinarith [mul_pos hl hpos]
    have hne := hd.ne'
    constructor
    · unfold rhoPos lmaRho
      dsimp only
      rw [if_neg hne, gt_iff_lt, lt_div_iff₀ hd, zero_mul, sub_pos]
      exact ⟨fun h => by nlinarith, fun h => by nlinarith⟩
    · intro _
      unfold lmaFactor lmaRho
      dsimp only
      rw [if_neg hne]
      have : gainRatio c L goal q x = (wDist c L goal q * wDist c L goal q - wDist c L goal (jsum q (List.ofFn x)) *
          wDist c L goal (jsum q (List.ofFn x))) / ∑ i, x i * (lam * x i + lmaGrad (wJac c L q) t i) := by
        rw [d1, gainRatio, ht]
        congr 1; ring
      rw [this]
      congr 1; ring

/-- Settings and sizes of the solver that a call does not change. -/
structure LmaSame (c : Chain) (s s' : LmaState) : Prop where
  nj : s'.nj = s.nj
  maxiter : s'.maxiter = s.maxiter
  eps : s'.eps = s.eps
  eps_joints : s'.eps_joints = s.eps_joints
  L : s'.L = s.L
  fk : s'.fk.Sized c
  jac : s'.jac.length = c.nrOfJoints

/-- What a search reports. -/
structure LmaDone (c : Chain) (svd : ThinSvdFn) (goal : Frame) (s : LmaState) (q0 : List ℝ) (o : LmaOut) : Prop where
  same : LmaSame c s o.st
  error : o.st.error = o.ret
  dist : o.st.lastDifference = wDist c s.L goal o.q_out
  diff : o.ret ≠ E_MAX_ITERATIONS_EXCEEDED →
    o.st.lastTransDiff = (Frame.diff (endF c o.q_out) goal 1).vel.norm3 ∧
    o.st.lastRotDiff = (Frame.diff (endF c o.q_out) goal 1).rot.norm3
  diffMax : o.ret = E_MAX_ITERATIONS_EXCEEDED →
    o.st.lastTransDiff = ((Frame.diff (endF c o.q_out) goal 1).weigh s.L).vel.norm3 ∧
    o.st.lastRotDiff = ((Frame.diff (endF c o.q_out) goal 1).weigh s.L).rot.norm3
  cases : (o.ret = E_NOERROR ∧ wDist c s.L goal o.q_out < s.eps ∧ o.st.lastNrOfIter < s.maxiter ∧
      ∃ lam v, LmaRun c s.L goal q0 (o.st.lastNrOfIter + 1) o.q_out lam v) ∨
    (o.ret = E_INCREMENT_JOINTS_TOO_SMALL ∧ s.eps ≤ wDist c s.L goal o.q_out ∧ o.st.lastNrOfIter < s.maxiter ∧
      ∃ lam v x, LmaRun c s.L goal q0 o.st.lastNrOfIter o.q_out lam v ∧
        DampedStep (wJac c s.L o.q_out) (wErr c s.L goal o.q_out) lam x ∧ 0 < s.eps_joints ∧ ∀ i, |x i| < s.eps_joints) ∨
    (o.ret = E_GRADIENT_JOINTS_TOO_SMALL ∧ s.eps ≤ wDist c s.L goal o.q_out ∧ o.st.lastNrOfIter < s.maxiter ∧
      sqn ((wJac c s.L o.q_out)ᵀ *ᵥ wErr c s.L goal o.q_out) < s.eps_joints ^ 2 ∧
      ∃ lam v x, LmaRun c s.L goal q0 o.st.lastNrOfIter o.q_out lam v ∧
        DampedStep (wJac c s.L o.q_out) (wErr c s.L goal o.q_out) lam x ∧ ¬ (0 < s.eps_joints ∧ ∀ i, |x i| < s.eps_joints)) ∨
    (o.ret = E_MAX_ITERATIONS_EXCEEDED ∧ s.eps ≤ wDist c s.L goal o.q_out ∧ o.st.lastNrOfIter = s.maxiter ∧
      ∃ lam v, LmaRun c s.L goal q0 s.maxiter o.q_out lam v)
  sv : s.maxiter ≠ 0 → ∃ q lam v,
    LmaRun c s.L goal q0 (if o.ret = E_MAX_ITERATIONS_EXCEEDED then s.maxiter - 1 else o.st.lastNrOfIter) q lam v ∧
    o.st.lastSV = List.ofFn (svd c.nrOfJoints (wJac c s.L q)).S ∧
    (o.ret = E_INCREMENT_JOINTS_TOO_SMALL ∨ o.ret = E_GRADIENT_JOINTS_TOO_SMALL → q = o.q_out)

theorem lmaFactor_pos (r : ℝ × ℝ) : 0 < lmaFactor r := by
  unfold lmaFactor
  split_ifs
  · norm_num
  · exact lt_of_lt_of_le (by norm_num) (le_max_left _ _)

theorem grad_eq {n : ℕ} (A : Matrix (Fin 6) (Fin n) ℝ) (t : Twist) : lmaGrad A t = Aᵀ *ᵥ t.comp := by
  funext i; simp [lmaGrad, Matrix.mulVec, dotProduct]

theorem lmaLoop_run (c : Chain) (hc : c.WF) (svd : ThinSvdFn) (hsvd : GoodThinSvd svd) (goal : Frame) (s0 : LmaState)
    (q0 : List ℝ) : ∀ (fuel i : ℕ) (s : LmaState) (it : LmaIt), LmaSame c s0 s → s0.nj = c.nrOfJoints →
    s.jac = (geoJac c it.q).map (Twist.weigh s0.L) → it.delta = (Frame.diff (endF c it.q) goal 1).weigh s0.L →
    it.norm = wDist c s0.L goal it.q → 0 < it.lambda → 0 < it.v → it.q.length = c.nrOfJoints →
    LmaRun c s0.L goal q0 i it.q it.lambda it.v → ¬ wDist c s0.L goal it.q < s0.eps → i + fuel = s0.maxiter →
    (fuel ≠ 0 ∨ s.sv.isSome) →
    (i ≠ 0 → ∃ q lam v, LmaRun c s0.L goal q0 (i - 1) q lam v ∧ s.sv = some (List.ofFn (svd c.nrOfJoints (wJac c s0.L q)).S)) →
    ∃ o, lmaLoop c svd goal fuel i s it = some o ∧ LmaDone c svd goal s0 q0 o := by
  intro fuel
  induction fuel with
  | zero =>
    intro i s it hs hnj hjac hdelta hnorm hlam hv hq hrun hne hi hsv hrec
    obtain ⟨sv, hsv⟩ := Option.isSome_iff_exists.mp (hsv.resolve_left (by simp))
    refine ⟨_, by unfold lmaLoop; rw [hsv]; simp only [Option.bind_eq_bind, Option.bind_some]; rfl, ?_⟩
    refine ⟨⟨hs.nj, hs.maxiter, hs.eps, hs.eps_joints, hs.L, hs.fk, hs.jac⟩, rfl, hnorm, fun h => absurd rfl h,
      fun _ => ?_, .inr (.inr (.inr ⟨rfl, le_of_not_gt hne, hs.maxiter, it.lambda, it.v, ?_⟩)), fun hm => ?_⟩
    · rw [← hdelta]; exact ⟨rfl, rfl⟩
    · rw [← hi]; exact hrun
    · obtain ⟨q, lam, v, h1, h2⟩ := hrec (by omega)
      rw [hsv] at h2
      refine ⟨q, lam, v, ?_, Option.some.inj h2, fun h => ?_⟩
      · rw [if_pos rfl, ← hi]; exact h1
      · simp [E_INCREMENT_JOINTS_TOO_SMALL, E_GRADIENT_JOINTS_TOO_SMALL, E_MAX_ITERATIONS_EXCEEDED] at h
  | succ fuel ih =>
    intro i s it hs hnj hjac hdelta hnorm hlam hv hq hrun hne hi _ _
    obtain ⟨nj, maxiter, eps, eps_joints, L, fk, jac, sv, n1, n2, n3, n4, n5, err⟩ := s
    obtain ⟨e1, e2, e3, e4, e5, hfk, hjl⟩ := hs
    dsimp only at e1 e2 e3 e4 e5 hfk hjl hjac
    rw [hnj] at e1
    subst e1 e2 e3 e4 e5
    obtain ⟨q, delta, norm, lam, v⟩ := it
    dsimp only at hjac hdelta hnorm hlam hv hq hrun hne
    unfold lmaLoop
    simp only [Option.bind_eq_bind]
    have hA : jacMat c.nrOfJoints jac = wJac c s0.L q := by rw [hjac, jacMat_wJac]
    rw [hA]
    set r := svd c.nrOfJoints (wJac c s0.L q) with hr
    have hn := lmaStep_normal (hsvd c.nrOfJoints (wJac c s0.L q)) lam hlam delta
    rw [← hr] at hn
    set x := lmaStep r lam delta with hx
    have hcomp : delta.comp = wErr c s0.L goal q := by rw [hdelta, weigh_wErr]
    have hstep : DampedStep (wJac c s0.L q) (wErr c s0.L goal q) lam x := by
      rw [← hcomp]; exact damped_of_normal hlam hn
    have hfwd := lmaFwdpos_eq c hc q hq fk hfk
    have hsz : ∀ q', (⟨endF c q', rootsF (rd q') c.segments 0 1, tipsF (rd q') c.segments 0 1⟩ : LmaFk).Sized c := by
      intro q'
      exact ⟨by rw [rootsF_length, hc.2], by rw [tipsF_length, hc.2]⟩
    have hsmall : (infNorm (List.ofFn x) < s0.eps_joints) ↔ (0 < s0.eps_joints ∧ ∀ i, |x i| < s0.eps_joints) := by
      rw [infNorm_lt]; simp [List.mem_ofFn]
    by_cases h1 : infNorm (List.ofFn x) < s0.eps_joints
    · rw [if_pos h1, hfwd]
      simp only [Option.bind_some]
      refine ⟨_, rfl, ⟨hnj.symm, rfl, rfl, rfl, rfl, hsz q, hjl⟩, rfl, hnorm, fun _ => ⟨rfl, rfl⟩, fun h => ?_, ?_,
        fun _ => ⟨q, lam, v, by rw [if_neg (by simp [E_INCREMENT_JOINTS_TOO_SMALL, E_MAX_ITERATIONS_EXCEEDED])]; exact hrun,
          rfl, fun _ => rfl⟩⟩
      · simp [E_INCREMENT_JOINTS_TOO_SMALL, E_MAX_ITERATIONS_EXCEEDED] at h
      · exact .inr (.inl ⟨rfl, le_of_not_gt hne, by dsimp only; omega, lam, v, x, hrun, hstep, hsmall.mp h1⟩)
    rw [if_neg h1]
    by_cases h2 : ∑ k, lmaGrad (wJac c s0.L q) delta k * lmaGrad (wJac c s0.L q) delta k < s0.eps_joints * s0.eps_joints
    · rw [if_pos h2, hfwd]
      simp only [Option.bind_some]
      refine ⟨_, rfl, ⟨hnj.symm, rfl, rfl, rfl, rfl, hsz q, hjl⟩, rfl, hnorm, fun _ => ⟨rfl, rfl⟩, fun h => ?_, ?_,
        fun _ => ⟨q, lam, v, by rw [if_neg (by simp [E_GRADIENT_JOINTS_TOO_SMALL, E_MAX_ITERATIONS_EXCEEDED])]; exact hrun,
          rfl, fun _ => rfl⟩⟩
      · simp [E_GRADIENT_JOINTS_TOO_SMALL, E_MAX_ITERATIONS_EXCEEDED] at h
      · refine .inr (.inr (.inl ⟨rfl, le_of_not_gt hne, by dsimp only; omega, ?_, lam, v, x, hrun, hstep,
          fun h => h1 (hsmall.mpr h)⟩))
        rw [grad_eq, hcomp] at h2
        rw [pow_two]; exact h2
    rw [if_neg h2]
    have hadd : jntAdd q (List.ofFn x) = some (jsum q (List.ofFn x)) := by
      rw [jntAdd_eq]; exact ⟨by simp [hq], rfl⟩
    rw [hadd]
    simp only [Option.bind_some]
    set q' := jsum q (List.ofFn x) with hq'
    have hql : q'.length = c.nrOfJoints := by rw [hq', jsum_length (by simp [hq]), hq]
    rw [lmaFwdpos_eq c hc q' hql fk hfk]
    simp only [Option.bind_some]
    rw [norm_wDist, hnorm]
    obtain ⟨k1, k2⟩ := rhoPos_iff hq hlam hcomp hn
    rw [← hq'] at k1 k2
    by_cases h3 : wDist c s0.L goal q' < wDist c s0.L goal q
    · rw [if_pos (k1.mpr h3)]
      have hrun' := LmaRun.accept hrun hstep h3
      by_cases h4 : wDist c s0.L goal q' < s0.eps
      · rw [if_pos h4]
        refine ⟨_, rfl, ⟨hnj.symm, rfl, rfl, rfl, rfl, hsz q', hjl⟩, rfl, rfl, fun _ => ⟨rfl, rfl⟩, fun h => ?_, ?_,
          fun _ => ⟨q, lam, v, by rw [if_neg (by simp [E_NOERROR, E_MAX_ITERATIONS_EXCEEDED])]; exact hrun, rfl,
            fun h => by simp [E_NOERROR, E_INCREMENT_JOINTS_TOO_SMALL, E_GRADIENT_JOINTS_TOO_SMALL] at h⟩⟩
        · simp [E_NOERROR, E_MAX_ITERATIONS_EXCEEDED] at h
        · exact .inl ⟨rfl, h4, by dsimp only; omega, _, _, hrun'⟩
      · rw [if_neg h4, lmaJacobian_eq c hc q' hql jac hjl]
        simp only [Option.bind_some]
        rw [k2 h3]
        refine ih (i + 1) _ _ ⟨hnj.symm, rfl, rfl, rfl, rfl, hsz q', ?_⟩ hnj rfl rfl rfl ?_ two_pos hql hrun' h4 (by omega)
          (.inr rfl) fun _ => ⟨q, lam, v, hrun, rfl⟩
        · simp only [List.length_map]; rw [colsF_length, hc.2]
        · exact mul_pos hlam (lt_of_lt_of_le (by norm_num) (le_max_left _ _))
    · rw [if_neg fun h => h3 (k1.mp h)]
      exact ih (i + 1) _ _ ⟨hnj.symm, rfl, rfl, rfl, rfl, hsz q', hjl⟩ hnj hjac hdelta rfl (mul_pos hlam hv)
        (mul_pos two_pos hv) hq (LmaRun.reject hrun hstep h3) hne (by omega) (.inr rfl)
        fun _ => ⟨q, lam, v, hrun, rfl⟩

theorem LmaRun.pos {c : Chain} {L : Fin 6 → ℝ} {goal : Frame} {q0 : List ℝ} {k : ℕ} {q : List ℝ} {lam v : ℝ}
    (h : LmaRun c L goal q0 k q lam v) : 0 < lam ∧ 0 < v := by
  induction h with
  | start => norm_num
  | accept _ _ _ ih => exact ⟨mul_pos ih.1 (lt_of_lt_of_le (by norm_num) (le_max_left _ _)), two_pos⟩
  | reject _ _ _ ih => exact ⟨mul_pos ih.1 ih.2, mul_pos two_pos ih.2⟩

/-- Along the textbook algorithm the weighted error never grows, and it is strictly smaller as soon as the joint values
have changed; the damping stays positive. -/
theorem C52_descent {c : Chain} {L : Fin 6 → ℝ} {goal : Frame} {q0 : List ℝ} {k : ℕ} {q : List ℝ} {lam v : ℝ}
    (h : LmaRun c L goal q0 k q lam v) :
    wDist c L goal q ≤ wDist c L goal q0 ∧ (q = q0 ∨ wDist c L goal q < wDist c L goal q0) ∧ 0 < lam := by
  refine ⟨?_, ?_, h.pos.1⟩
  · induction h with
    | start => exact le_rfl
    | accept _ _ h ih => exact (h.trans_le ih).le
    | reject _ _ _ ih => exact ih
  · induction h with
    | start => exact .inl rfl
    | accept _ _ h ih =>
      refine .inr ?_
      rcases ih with e | e
      · rw [e] at h; rw [e]; exact h
      · exact h.trans e
    | reject _ _ _ ih => exact ih

/-- Argument checks. -/
theorem C52_guards (s : LmaState) (c : Chain) (svd : ThinSvdFn) (q_init : List ℝ) (goal : Frame) (q_out : List ℝ) :
    (s.nj ≠ c.nrOfJoints → s.cartToJnt c svd q_init goal q_out =
      some ⟨E_NOT_UP_TO_DATE, q_out, { s with error := E_NOT_UP_TO_DATE }⟩) ∧
    (s.nj = c.nrOfJoints → q_init.length ≠ s.nj ∨ q_out.length ≠ s.nj → s.cartToJnt c svd q_init goal q_out =
      some ⟨E_SIZE_MISMATCH, q_out, { s with error := E_SIZE_MISMATCH }⟩) := by
  refine ⟨fun h => if_pos h, fun h h' => (if_neg (not_not.mpr h)).trans (if_pos (h'.imp Ne.symm Ne.symm))⟩

/-- The first call with a start position within the tolerance: it is returned unchanged.  `lastDifference` is then the
unweighted error and `lastSV` comes from whatever the member `jac` held. -/
theorem C52_immediate (s : LmaState) (c : Chain) (hc : c.WF) (svd : ThinSvdFn) (q_init : List ℝ) (goal : Frame)
    (q_out : List ℝ) (hnj : s.nj = c.nrOfJoints) (hfk : s.fk.Sized c) (hq : q_init.length = c.nrOfJoints)
    (ho : q_out.length = c.nrOfJoints) (h : wDist c s.L goal q_init < s.eps) :
    ∃ st, s.cartToJnt c svd q_init goal q_out = some ⟨E_NOERROR, q_init, st⟩ ∧ st.error = E_NOERROR ∧
      st.lastNrOfIter = 0 ∧ st.lastDifference = (Frame.diff (endF c q_init) goal 1).norm6 ∧
      st.lastTransDiff = (Frame.diff (endF c q_init) goal 1).vel.norm3 ∧
      st.lastRotDiff = (Frame.diff (endF c q_init) goal 1).rot.norm3 ∧
      st.lastSV = List.ofFn (svd s.nj (jacMat s.nj s.jac)).S ∧ st.sv = some st.lastSV ∧ st.jac = s.jac ∧ st.fk.Sized c ∧
      st.nj = s.nj ∧ st.maxiter = s.maxiter ∧ st.eps = s.eps ∧ st.eps_joints = s.eps_joints ∧ st.L = s.L := by
  unfold LmaState.cartToJnt
  rw [if_neg (not_not.mpr hnj), if_neg (by simp [hnj, hq, ho]), lmaFwdpos_eq c hc q_init hq s.fk hfk]
  simp only [Option.bind_eq_bind, Option.bind_some]
  rw [norm_wDist, if_pos h]
  exact ⟨_, rfl, rfl, rfl, rfl, rfl, rfl, rfl, rfl, rfl,
    ⟨by dsimp only [LmaState.setDiff]; rw [rootsF_length, hc.2], by dsimp only [LmaState.setDiff]; rw [tipsF_length, hc.2]⟩,
    rfl, rfl, rfl, rfl, rfl⟩

/-- Otherwise the call carries out the textbook algorithm and stops for one of four reasons, which the return code tells. -/
theorem C52_search (s : LmaState) (c : Chain) (hc : c.WF) (svd : ThinSvdFn) (hsvd : GoodThinSvd svd) (q_init : List ℝ)
    (goal : Frame) (q_out : List ℝ) (hnj : s.nj = c.nrOfJoints) (hfk : s.fk.Sized c) (hjac : s.jac.length = c.nrOfJoints)
    (hq : q_init.length = c.nrOfJoints) (ho : q_out.length = c.nrOfJoints) (h : s.eps ≤ wDist c s.L goal q_init)
    (hm : s.maxiter ≠ 0 ∨ s.sv.isSome) :
    ∃ o, s.cartToJnt c svd q_init goal q_out = some o ∧ LmaDone c svd goal s q_init o := by
  unfold LmaState.cartToJnt
  rw [if_neg (not_not.mpr hnj), if_neg (by simp [hnj, hq, ho]), lmaFwdpos_eq c hc q_init hq s.fk hfk]
  simp only [Option.bind_eq_bind, Option.bind_some]
  rw [norm_wDist, if_neg (not_lt.mpr h), lmaJacobian_eq c hc q_init hq s.jac hjac]
  simp only [Option.bind_some]
  refine lmaLoop_run c hc svd hsvd goal s q_init s.maxiter 0 _ _ ⟨rfl, rfl, rfl, rfl, rfl, ⟨?_, ?_⟩, ?_⟩ hnj rfl rfl rfl
    (by norm_num) two_pos hq .start (not_lt.mpr h) (by omega) hm (fun h => absurd rfl h)
  · rw [rootsF_length, hc.2]
  · rw [tipsF_length, hc.2]
  · simp only [List.length_map]; rw [colsF_length, hc.2]

/-- Both cases together: the return code is `E_NOERROR` exactly if the returned joint values meet the tolerance, the
weighted error never grows, and the solver object can be used again. -/
theorem C52_sound (s : LmaState) (c : Chain) (hc : c.WF) (svd : ThinSvdFn) (hsvd : GoodThinSvd svd) (q_init : List ℝ)
    (goal : Frame) (q_out : List ℝ) (hnj : s.nj = c.nrOfJoints) (hfk : s.fk.Sized c) (hjac : s.jac.length = c.nrOfJoints)
    (hq : q_init.length = c.nrOfJoints) (ho : q_out.length = c.nrOfJoints) (hm : s.maxiter ≠ 0 ∨ s.sv.isSome) :
    ∃ o, s.cartToJnt c svd q_init goal q_out = some o ∧ LmaSame c s o.st ∧ o.st.error = o.ret ∧
      (o.ret = E_NOERROR ↔ wDist c s.L goal o.q_out < s.eps) ∧ (o.ret = E_NOERROR ∨ o.ret = E_INCREMENT_JOINTS_TOO_SMALL ∨
        o.ret = E_GRADIENT_JOINTS_TOO_SMALL ∨ o.ret = E_MAX_ITERATIONS_EXCEEDED) ∧
      wDist c s.L goal o.q_out ≤ wDist c s.L goal q_init ∧
      (o.q_out = q_init ∨ wDist c s.L goal o.q_out < wDist c s.L goal q_init) := by
  by_cases h : wDist c s.L goal q_init < s.eps
  · obtain ⟨st, e, g1, g2, g3, g4, g5, g6, g7, g8, g9, g10, g11, g12, g13, g14⟩ :=
      C52_immediate s c hc svd q_init goal q_out hnj hfk hq ho h
    exact ⟨_, e, ⟨g10, g11, g12, g13, g14, g9, by rw [g8]; exact hjac⟩, g1, by simp [h], .inl rfl, le_rfl, .inl rfl⟩
  · obtain ⟨o, e, d⟩ := C52_search s c hc svd hsvd q_init goal q_out hnj hfk hjac hq ho (not_lt.mp h) hm
    refine ⟨o, e, d.same, d.error, ?_⟩
    rcases d.cases with ⟨h1, h2, -, lam, v, h3⟩ | ⟨h1, h2, -, lam, v, x, h3, -⟩ | ⟨h1, h2, -, -, lam, v, x, h3, -⟩ |
      ⟨h1, h2, -, lam, v, h3⟩ <;> obtain ⟨d1, d2, -⟩ := C52_descent h3
    · exact ⟨by simp [h1, h2], .inl h1, d1, d2⟩
    · exact ⟨by rw [h1]; simp [E_NOERROR, E_INCREMENT_JOINTS_TOO_SMALL, h2], .inr (.inl h1), d1, d2⟩
    · exact ⟨by rw [h1]; simp [E_NOERROR, E_GRADIENT_JOINTS_TOO_SMALL, h2], .inr (.inr (.inl h1)), d1, d2⟩
    · exact ⟨by rw [h1]; simp [E_NOERROR, E_MAX_ITERATIONS_EXCEEDED, h2], .inr (.inr (.inr h1)), d1, d2⟩

/-- The constructors and `updateInternalDataStructures` establish the sizes the theorems above ask for (`jac0` is the
uninitialised `6 × nj` matrix, `jacNew` its new columns). -/
theorem C52_sizes (c : Chain) (l : Fin 6 → ℝ) (eps : ℝ) (maxiter : ℤ) (ej : ℝ) (jac0 : Jac) (sv0 : List ℝ)
    (h0 : jac0.length = c.nrOfJoints) (s : LmaState) (jacNew : Jac) (svNew : List ℝ)
    (h1 : c.nrOfJoints ≤ s.jac.length + jacNew.length) :
    ((LmaState.new c l eps maxiter ej jac0 sv0).nj = c.nrOfJoints ∧ (LmaState.new c l eps maxiter ej jac0 sv0).fk.Sized c ∧
      (LmaState.new c l eps maxiter ej jac0 sv0).jac.length = c.nrOfJoints ∧
      (LmaState.new c l eps maxiter ej jac0 sv0).L = l ∧ (LmaState.new c l eps maxiter ej jac0 sv0).eps = eps ∧
      (LmaState.new c l eps maxiter ej jac0 sv0).eps_joints = ej ∧
      (0 ≤ maxiter → maxiter < 2 ^ 32 → ((LmaState.new c l eps maxiter ej jac0 sv0).maxiter : ℤ) = maxiter)) ∧
    (LmaState.newDefault c eps maxiter ej jac0 sv0 =
      LmaState.new c ![1, 1, 1, 1 / 100, 1 / 100, 1 / 100] eps maxiter ej jac0 sv0) ∧
    (s.update c jacNew svNew).nj = c.nrOfJoints ∧ (s.update c jacNew svNew).fk.Sized c ∧
    (s.update c jacNew svNew).jac.length = c.nrOfJoints ∧ (s.update c jacNew svNew).L = s.L ∧
    (s.update c jacNew svNew).maxiter = s.maxiter ∧ (s.update c jacNew svNew).eps = s.eps ∧
    (s.update c jacNew svNew).eps_joints = s.eps_joints ∧
    (min 6 c.nrOfJoints ≤ s.lastSV.length + svNew.length →
      (s.update c jacNew svNew).lastSV.length = min 6 c.nrOfJoints) := by
  refine ⟨⟨rfl, ⟨by simp [LmaState.new], by simp [LmaState.new]⟩, h0, rfl, rfl, rfl, fun a b => ?_⟩, rfl, rfl,
    ⟨?_, ?_⟩, ?_, rfl, rfl, rfl, rfl, fun h => ?_⟩
  · simp only [LmaState.new]
    rw [Int.emod_eq_of_lt a b]; exact Int.toNat_of_nonneg a
  · simp only [LmaState.update, List.length_append, List.length_take, List.length_replicate]; omega
  · simp only [LmaState.update, List.length_append, List.length_take, List.length_replicate]; omega
  · simp only [LmaState.update, List.length_append, List.length_take]; omega
  · simp only [LmaState.update, List.length_append, List.length_take]; omega

/-- The four ways a call can end have different codes, as documented in chainiksolverpos_lma.hpp and solveri.hpp. -/
theorem C52_codes : [E_NOERROR, E_GRADIENT_JOINTS_TOO_SMALL, E_INCREMENT_JOINTS_TOO_SMALL, E_MAX_ITERATIONS_EXCEEDED,
    E_NOT_UP_TO_DATE, E_SIZE_MISMATCH].Nodup ∧ E_GRADIENT_JOINTS_TOO_SMALL < 0 ∧ E_INCREMENT_JOINTS_TOO_SMALL < 0 ∧
    E_MAX_ITERATIONS_EXCEEDED < 0 ∧ E_NOERROR = 0 := by
  refine ⟨?_, ?_, ?_, ?_, rfl⟩ <;> decide

/-- The vector whose size decides about `E_GRADIENT_JOINTS_TOO_SMALL` is, up to the factor −2, the gradient of the squared
weighted error, if the three rotational weights are equal, and the rotation error is outside the tolerance band of
`GetRotAngle` or does not count.  (With different rotational weights the rotation vector, which the solver linearises by the
angular velocity, has another derivative.) -/
theorem C52_gradient (c : Chain) (hc : c.WF) (hv : c.Valid) (L : Fin 6 → ℝ) (h4 : L 4 = L 3) (h5 : L 5 = L 3)
    (goal : Frame) (hg : goal.IsProper) (Q : ℝ → List ℝ) (qd : Fin c.nrOfJoints → ℝ) (τ : ℝ) (hQ : (Q τ).length = c.nrOfJoints)
    (hd : ∀ j, HasDerivAt (fun t => (Q t).getD j 0) ((List.ofFn qd).getD j 0) τ)
    (hr : L 3 = 0 ∨ ((endF c (Q τ)).M.inv * goal.M).Apart) :
    HasDerivAt (fun t => sqn (wErr c L goal (Q t)))
      (-2 * ((wJac c L (Q τ))ᵀ *ᵥ wErr c L goal (Q τ)) ⬝ᵥ qd) τ := by
  have hid : Frame.HasTwist (fun _ => (1 : Frame)) 0 τ := ⟨Vec.HasDeriv.const _, Rot.HasAngVel.const _⟩
  have ht := hid.mul_fkF Frame.IsProper.one (Q := fun t => rd (Q t)) (qd := rd (List.ofFn qd)) hd c.segments hv 0
  simp only [one_mul, Twist.zero_refPoint, zero_add] at ht
  have hJ := geoJac_length c hc (Q τ)
  have hm := multiplyJacobian_eq (geoJac c (Q τ)) (List.ofFn qd) (by simp [hJ])
  have hmv := fun r => mulVec_multiplyJacobian (geoJac c (Q τ)) c.nrOfJoints hJ qd _ hm r
  set w := dsum (rd (List.ofFn qd)) (geoJac c (Q τ)) 0 with hw
  have hwJ : ∀ r, (wJac c L (Q τ) *ᵥ qd) r = L r * w.comp r := by
    intro r
    rw [← hmv r]
    simp only [Matrix.mulVec, dotProduct, wJac, jacMat, Finset.mul_sum, mul_assoc]
  have e1 : ((wJac c L (Q τ))ᵀ *ᵥ wErr c L goal (Q τ)) ⬝ᵥ qd = ∑ r, wErr c L goal (Q τ) r * (L r * w.comp r) := by
    rw [Matrix.mulVec_transpose, ← dotProduct_mulVec]
    exact Finset.sum_congr rfl fun r _ => by rw [hwJ]
  have e2 : (fun t => sqn (wErr c L goal (Q t))) = fun t =>
      (L 0 * (goal.p.x - (endF c (Q t)).p.x)) ^ 2 + (L 1 * (goal.p.y - (endF c (Q t)).p.y)) ^ 2 +
        (L 2 * (goal.p.z - (endF c (Q t)).p.z)) ^ 2 +
        L 3 ^ 2 * (Rot.diff (endF c (Q t)).M goal.M 1).dot (Rot.diff (endF c (Q t)).M goal.M 1) := by
    funext t
    simp only [sqn, wErr, Fin.sum_univ_six, Twist.comp, Frame.diff, Vec.diff, h4, h5, Vec.dot]
    simp
    ring
  have x1 : HasDerivAt (fun t => (endF c (Q t)).p.x) w.vel.x τ := ht.vel.x
  have x2 : HasDerivAt (fun t => (endF c (Q t)).p.y) w.vel.y τ := ht.vel.y
  have x3 : HasDerivAt (fun t => (endF c (Q t)).p.z) w.vel.z τ := ht.vel.z
  have x4 : HasDerivAt (fun t => L 3 ^ 2 * (Rot.diff (endF c (Q t)).M goal.M 1).dot (Rot.diff (endF c (Q t)).M goal.M 1))
      (L 3 ^ 2 * (-2 * w.rot.dot (Rot.diff (endF c (Q τ)).M goal.M 1))) τ := by
    rcases hr with h0 | ha
    · simp only [h0]
      simpa using hasDerivAt_const τ (0 : ℝ)
    · have hpr : ∀ t, (endF c (Q t)).M.IsProper := fun t => isProper_fkF _ _ _ hv
      exact (Rot.diff_sq_deriv hpr ht.rot hg ha).const_mul _
  rw [e1, e2]
  have y1 := (((x1.const_sub goal.p.x).const_mul (L 0)).pow 2).add (((x2.const_sub goal.p.y).const_mul (L 1)).pow 2)
  have y2 := (y1.add (((x3.const_sub goal.p.z).const_mul (L 2)).pow 2)).add x4
  refine y2.congr_deriv ?_
  simp only [wErr, Fin.sum_univ_six, Twist.comp, Frame.diff, Vec.diff, h4, h5, Vec.dot]
  simp
  ring

/-! ### Where the documentation is not met -/

/-- The hypotheses are satisfiable with rotational weights: goal turned by a right angle. -/
example : ((1 : Rot).inv * Rot.rotZ (Real.pi / 2)).Apart ∧ (⟨Rot.rotZ (Real.pi / 2), ⟨1, 2, 3⟩⟩ : Frame).IsProper := by
  refine ⟨Or.inl ?_, Rot.isProper_rotZ _⟩
  simp [Rot.rotZ, Rot.inv, epsilon]
  norm_num

/-- All weights two. -/
def twoL : Fin 6 → ℝ := fun _ => 2

theorem x_end (x : ℝ) : endF xChain [x] = ⟨1, ⟨x, 0, 0⟩⟩ := by
  have h := x_fk 0 x
  have h2 := C52_jacobian xChain ⟨rfl, rfl⟩ [x] rfl ⟨1, [1], [1]⟩ ⟨rfl, rfl⟩ [0] rfl
  obtain ⟨w, -, -, e, e2, -⟩ := h2
  rw [e] at e2
  have h' : fkPos xChain [x] (-1) = some (0, ⟨1, ⟨x, 0, 0⟩⟩) := h
  rw [h', Option.some.injEq, Prod.mk.injEq] at e2
  exact e2.2.symm

theorem x_geo (x : ℝ) : geoJac xChain [x] = [⟨⟨1, 0, 0⟩, 0⟩] := by
  have hm : xSlide.moving = true := rfl
  have ht : xSlide.twist (rd [x] 0) 1 = ⟨⟨1, 0, 0⟩, 0⟩ := by
    simp only [Segment.twist, Joint.twist, xSlide]
    ext <;> simp [Twist.refPoint]
  simp only [geoJac, xChain, colsF, hm, if_true, ht]
  congr 1
  ext <;> simp [Twist.refPoint]

theorem x_diff (x g : ℝ) : Frame.diff (endF xChain [x]) ⟨1, ⟨g, 0, 0⟩⟩ 1 = ⟨⟨g - x, 0, 0⟩, 0⟩ := by
  rw [x_end]
  simp only [Frame.diff, rot_diff_one, Vec.diff]
  ext <;> simp

theorem x_dist (x g : ℝ) : wDist xChain twoL ⟨1, ⟨g, 0, 0⟩⟩ [x] = 2 * |g - x| := by
  have : sqn (wErr xChain twoL ⟨1, ⟨g, 0, 0⟩⟩ [x]) = (2 * |g - x|) ^ 2 := by
    simp only [sqn, wErr, x_diff, Fin.sum_univ_six, Twist.comp, twoL]
    rw [mul_pow, sq_abs]
    simp; ring
  rw [wDist, this, Real.sqrt_sq (by positivity)]

theorem goodThinSvd_exists : ∃ svd, GoodThinSvd svd := by
  have : ∀ n (A : Matrix (Fin 6) (Fin n) ℝ), ∃ r, IsThinSvd A r := by
    intro n A
    by_cases h : n ≤ 6
    · have e : min 6 n = n := by omega
      obtain ⟨U, S, V, h1, h2, h3, -, -⟩ := exists_svd A
      have hV : OrthOn V S := by
        intro i j _ _
        have := congrFun (congrFun h2 i) j
        rw [Matrix.mul_apply, Matrix.one_apply] at this
        simpa [Matrix.transpose_apply] using this
      have key : ∀ k, k = n → ∃ (U : Matrix (Fin 6) (Fin k) ℝ) (S : Fin k → ℝ) (V : Matrix (Fin n) (Fin k) ℝ),
          A = U * diagonal S * Vᵀ ∧ OrthOn U S ∧ OrthOn V S := by
        rintro k rfl; exact ⟨U, S, V, h1, h3, hV⟩
      obtain ⟨U, S, V, a, b, c⟩ := key _ e
      exact ⟨⟨U, S, V⟩, a, b, c⟩
    · have e : min 6 n = 6 := by omega
      obtain ⟨U, S, V, h1, h2, h3, -, -⟩ := exists_svd Aᵀ
      have hV : OrthOn V S := by
        intro i j _ _
        have := congrFun (congrFun h2 i) j
        rw [Matrix.mul_apply, Matrix.one_apply] at this
        simpa [Matrix.transpose_apply] using this
      have h4 : A = V * diagonal S * Uᵀ := by
        rw [← Matrix.transpose_transpose A, h1]
        simp only [Matrix.transpose_mul, Matrix.transpose_transpose, Matrix.diagonal_transpose, Matrix.mul_assoc]
      have key : ∀ k, k = 6 → ∃ (U : Matrix (Fin 6) (Fin k) ℝ) (S : Fin k → ℝ) (V : Matrix (Fin n) (Fin k) ℝ),
          A = U * diagonal S * Vᵀ ∧ OrthOn U S ∧ OrthOn V S := by
        rintro k rfl; exact ⟨V, S, U, h4, hV, h3⟩
      obtain ⟨U, S, V, a, b, c⟩ := key _ e
      exact ⟨⟨U, S, V⟩, a, b, c⟩
  exact ⟨fun n A => (this n A).choose, fun n A => (this n A).choose_spec⟩

/-- "contains the last value for E": if the start position meets the tolerance, `lastDifference` is the unweighted error. -/
theorem C52_lastDifference_violated (svd : ThinSvdFn) :
    ∃ st, (LmaState.new xChain twoL 10 500 (1 / 10 ^ 15) [0] []).cartToJnt xChain svd [0] ⟨1, ⟨3, 0, 0⟩⟩ [0] =
      some ⟨E_NOERROR, [0], st⟩ ∧ st.lastDifference = 3 ∧ wDist xChain twoL ⟨1, ⟨3, 0, 0⟩⟩ [0] = 6 := by
  have hd : wDist xChain twoL ⟨1, ⟨3, 0, 0⟩⟩ [0] = 6 := by rw [x_dist]; norm_num
  obtain ⟨st, e, -, -, h, -⟩ := C52_immediate (LmaState.new xChain twoL 10 500 (1 / 10 ^ 15) [0] []) xChain ⟨rfl, rfl⟩ svd
    [0] ⟨1, ⟨3, 0, 0⟩⟩ [0] rfl ⟨rfl, rfl⟩ rfl rfl
    (by show wDist xChain twoL _ _ < (10 : ℝ); rw [hd]; norm_num)
  refine ⟨st, e, ?_, hd⟩
  rw [h, x_diff]
  simp only [Twist.norm6, Vec.dot]
  rw [show (3 - 0 : ℝ) * (3 - 0) + 0 * 0 + 0 * 0 + ((0 : Vec).x * (0 : Vec).x + (0 : Vec).y * (0 : Vec).y +
    (0 : Vec).z * (0 : Vec).z) = 3 ^ 2 by simp; norm_num, Real.sqrt_sq (by norm_num)]

theorem thin_zero {n : ℕ} {r : ThinSvd n} (h : IsThinSvd 0 r) (i : Fin (min 6 n)) : r.S i = 0 := by
  have s1 := sandwich h.orthU r.S r.S (fun _ x => x) (fun _ x => x)
  have s2 := sandwich h.orthV (fun k => r.S k * r.S k) r.S (fun i hi h0 => hi (by simp [h0])) (fun _ x => x)
  have s3 : diagonal r.S * r.Uᵀ * (0 : Matrix (Fin 6) (Fin n) ℝ) * (r.V * diagonal r.S) =
      diagonal (fun k => r.S k * r.S k * r.S k) := by
    rw [h.factor, ← s2, ← s1]
    simp only [Matrix.mul_assoc]
  simp only [Matrix.mul_zero, Matrix.zero_mul] at s3
  have := congrFun (congrFun s3 i) i
  simpa using this.symm

/-- "contains the last values for the singular values of the weighted Jacobian": if the start position meets the
tolerance, `lastSV` stems from a matrix that has nothing to do with the call (here the initial contents of `jac`). -/
theorem C52_lastSV_violated (svd : ThinSvdFn) (hsvd : GoodThinSvd svd) :
    ∃ st, (LmaState.new xChain twoL 10 500 (1 / 10 ^ 15) [0] []).cartToJnt xChain svd [0] ⟨1, ⟨3, 0, 0⟩⟩ [0] =
      some ⟨E_NOERROR, [0], st⟩ ∧ st.lastSV = [0] ∧ List.ofFn (svd 1 (wJac xChain twoL [0])).S ≠ [0] := by
  have hd : wDist xChain twoL ⟨1, ⟨3, 0, 0⟩⟩ [0] = 6 := by rw [x_dist]; norm_num
  obtain ⟨st, e, -, -, -, -, -, h, -⟩ := C52_immediate (LmaState.new xChain twoL 10 500 (1 / 10 ^ 15) [0] []) xChain
    ⟨rfl, rfl⟩ svd [0] ⟨1, ⟨3, 0, 0⟩⟩ [0] rfl ⟨rfl, rfl⟩ rfl rfl
    (by show wDist xChain twoL _ _ < (10 : ℝ); rw [hd]; norm_num)
  have hof : ∀ S : Fin (min 6 1) → ℝ, List.ofFn S = [0] ↔ ∀ i, S i = 0 := by
    intro S
    have : ∀ S : Fin 1 → ℝ, List.ofFn S = [0] ↔ ∀ i, S i = 0 := by
      intro S; simp [List.ofFn_succ]
    exact this S
  refine ⟨st, e, ?_, ?_⟩
  · rw [h]
    have e1 : jacMat 1 [(0 : Twist)] = 0 := by
      ext r k
      have : k = 0 := Subsingleton.elim _ _
      subst this
      simp [jacMat, Twist.comp_zero]
    exact (hof _).mpr (thin_zero (e1 ▸ hsvd 1 (jacMat 1 [0])))
  · intro h0
    have hz := hsvd 1 (wJac xChain twoL [0])
    have hS : (svd 1 (wJac xChain twoL [0])).S = 0 := funext ((hof _).mp h0)
    have hf := hz.factor
    rw [hS] at hf
    have := congrFun (congrFun hf 0) (⟨0, one_pos⟩ : Fin 1)
    simp [wJac, x_geo, Twist.comp, twoL] at this

theorem x_step {x : Fin 1 → ℝ}
    (h : DampedStep (wJac xChain twoL [0]) (wErr xChain twoL ⟨1, ⟨3, 0, 0⟩⟩ [0]) 10 x) : x 0 = 6 / 7 := by
  have hf : ∀ y : Fin 1 → ℝ, sqn (wJac xChain twoL [0] *ᵥ y - wErr xChain twoL ⟨1, ⟨3, 0, 0⟩⟩ [0]) + 10 * sqn y =
      (2 * y 0 - 6) ^ 2 + 10 * y 0 ^ 2 := by
    intro y
    have hJ : ∀ r, (wJac xChain twoL [0] *ᵥ y) r = 2 * (⟨⟨1, 0, 0⟩, 0⟩ : Twist).comp r * y 0 := by
      intro r
      unfold Matrix.mulVec dotProduct
      rw [show (∑ i : Fin xChain.nrOfJoints, wJac xChain twoL [0] r i * y i) =
        ∑ i : Fin 1, wJac xChain twoL [0] r i * y i from rfl, Fin.sum_univ_one]
      simp [wJac, x_geo, twoL]
    have hy : sqn y = y 0 ^ 2 := by simp [sqn, pow_two]
    rw [hy]
    congr 1
    simp only [sqn, Pi.sub_apply, hJ, wErr, x_diff, Fin.sum_univ_six, Twist.comp, twoL]
    simp; ring
  have := (h fun _ => 6 / 7).1
  have := (le_of_eq (hf x).symm).trans (this.trans (le_of_eq (hf fun _ => 6 / 7)))
  nlinarith [sq_nonneg (x 0 - 6 / 7)]

/-- "contains the last value for the (unweighted) translational difference": after `E_MAX_ITERATIONS_EXCEEDED` it is the
weighted one (here twice the true distance). -/
theorem C52_lastTransDiff_violated (svd : ThinSvdFn) (hsvd : GoodThinSvd svd) :
    ∃ o, (LmaState.new xChain twoL 1 1 (1 / 10 ^ 15) [0] []).cartToJnt xChain svd [0] ⟨1, ⟨3, 0, 0⟩⟩ [0] = some o ∧
      o.ret = E_MAX_ITERATIONS_EXCEEDED ∧ o.q_out = [6 / 7] ∧
      (Frame.diff (endF xChain o.q_out) ⟨1, ⟨3, 0, 0⟩⟩ 1).vel.norm3 = 15 / 7 ∧ o.st.lastTransDiff = 30 / 7 := by
  have hd : wDist xChain twoL ⟨1, ⟨3, 0, 0⟩⟩ [0] = 6 := by rw [x_dist]; norm_num
  have hd2 : wDist xChain twoL ⟨1, ⟨3, 0, 0⟩⟩ [6 / 7] = 30 / 7 := by
    rw [x_dist, abs_of_pos (by norm_num)]; norm_num
  set s := LmaState.new xChain twoL 1 1 (1 / 10 ^ 15) [0] [] with hs
  have hmi : s.maxiter = 1 := rfl
  have hL : s.L = twoL := rfl
  have heps : s.eps = 1 := rfl
  have hej : s.eps_joints = 1 / 10 ^ 15 := rfl
  obtain ⟨o, e, d⟩ := C52_search s xChain ⟨rfl, rfl⟩ svd hsvd [0] ⟨1, ⟨3, 0, 0⟩⟩ [0] rfl ⟨rfl, rfl⟩ rfl rfl rfl
    (by rw [hL, heps, hd]; norm_num) (.inl (by rw [hmi]; norm_num))
  have hjs : ∀ x : Fin 1 → ℝ, x 0 = 6 / 7 → jsum [0] (List.ofFn x) = [6 / 7] := by
    intro x hx; simp [jsum, List.ofFn_succ, hx]
  have h0 : ∀ {q lam v}, LmaRun xChain twoL ⟨1, ⟨3, 0, 0⟩⟩ [0] 0 q lam v → q = [0] ∧ lam = 10 := by
    intro q lam v h; cases h; exact ⟨rfl, rfl⟩
  have h1 : ∀ {q lam v}, LmaRun xChain twoL ⟨1, ⟨3, 0, 0⟩⟩ [0] 1 q lam v → q = [6 / 7] := by
    intro q lam v h
    cases h with
    | accept h1 h2 h3 =>
      obtain ⟨rfl, rfl⟩ := h0 h1
      exact hjs _ (x_step h2)
    | reject h1 h2 h3 =>
      obtain ⟨rfl, rfl⟩ := h0 h1
      have := hjs _ (x_step h2)
      exfalso; apply h3
      have := (congrArg (wDist xChain twoL ⟨1, ⟨3, 0, 0⟩⟩) this).trans hd2
      rw [hd]
      exact (le_of_eq this).trans_lt (by norm_num)
  have hc := d.cases
  rw [hL, heps, hej, hmi] at hc
  rcases hc with ⟨-, g2, g3, lam, v, g4⟩ | ⟨-, -, g3, lam, v, x, g4, g5, -, g6⟩ | ⟨-, -, g3, g4, lam, v, x, g5, -⟩ |
    ⟨g1, -, -, lam, v, g4⟩
  · exfalso
    have hk : o.st.lastNrOfIter = 0 := by omega
    rw [hk] at g4
    rw [h1 g4, hd2] at g2
    norm_num at g2
  · exfalso
    have hk : o.st.lastNrOfIter = 0 := by omega
    rw [hk] at g4
    obtain ⟨a, rfl⟩ := h0 g4
    rw [a] at g5
    have := g6 (0 : Fin 1)
    rw [x_step g5] at this
    norm_num at this
  · exfalso
    have hk : o.st.lastNrOfIter = 0 := by omega
    rw [hk] at g5
    obtain ⟨a, rfl⟩ := h0 g5
    rw [a] at g4
    have : sqn ((wJac xChain twoL [0])ᵀ *ᵥ wErr xChain twoL ⟨1, ⟨3, 0, 0⟩⟩ [0]) = 144 := by
      have hg : ∀ i, ((wJac xChain twoL [0])ᵀ *ᵥ wErr xChain twoL ⟨1, ⟨3, 0, 0⟩⟩ [0]) i = 12 := by
        intro i
        simp only [Matrix.mulVec, dotProduct, Matrix.transpose_apply, wJac, x_geo, wErr, x_diff, Fin.sum_univ_six, twoL]
        have hi : i.val = 0 := Nat.lt_one_iff.mp i.isLt
        simp [Twist.comp, hi]; norm_num
      simp only [sqn, hg]
      rw [show (∑ i : Fin xChain.nrOfJoints, (12 : ℝ) * 12) = ∑ i : Fin 1, (12 : ℝ) * 12 from rfl, Fin.sum_univ_one]
      norm_num
    rw [this] at g4
    norm_num at g4
  · have hq := h1 g4
    refine ⟨o, e, g1, hq, ?_, ?_⟩
    · rw [hq, x_diff]
      simp only [Vec.norm3, Vec.dot]
      rw [show (3 - 6 / 7 : ℝ) * (3 - 6 / 7) + 0 * 0 + 0 * 0 = (15 / 7) ^ 2 by norm_num, Real.sqrt_sq (by norm_num)]
    · rw [(d.diffMax g1).1, hq, x_diff, hL]
      simp only [Vec.norm3, Vec.dot, Twist.weigh, twoL]
      rw [show (2 * (3 - 6 / 7) : ℝ) * (2 * (3 - 6 / 7)) + 2 * 0 * (2 * 0) + 2 * 0 * (2 * 0) = (30 / 7) ^ 2 by norm_num,
        Real.sqrt_sq (by norm_num)]

/-- With `maxiter` 0 a new solver reads singular values that were never computed (undefined behaviour), unless the start
position meets the tolerance. -/
theorem C52_maxiter_zero_violated (c : Chain) (hc : c.WF) (svd : ThinSvdFn) (l : Fin 6 → ℝ) (eps ej : ℝ) (jac0 : Jac)
    (hj : jac0.length = c.nrOfJoints) (sv0 q_init q_out : List ℝ) (goal : Frame) (hq : q_init.length = c.nrOfJoints)
    (ho : q_out.length = c.nrOfJoints) (h : eps ≤ wDist c l goal q_init) :
    (LmaState.new c l eps 0 ej jac0 sv0).cartToJnt c svd q_init goal q_out = none := by
  unfold LmaState.cartToJnt
  rw [if_neg (show ¬(LmaState.new c l eps 0 ej jac0 sv0).nj ≠ c.nrOfJoints from not_not.mpr rfl),
    if_neg (by simp [LmaState.new, hq, ho]), lmaFwdpos_eq c hc q_init hq _ ⟨by simp [LmaState.new],
    by simp [LmaState.new]⟩]
  simp only [Option.bind_eq_bind, Option.bind_some]
  rw [norm_wDist, if_neg (show ¬ wDist c (LmaState.new c l eps 0 ej jac0 sv0).L goal q_init <
      (LmaState.new c l eps 0 ej jac0 sv0).eps from not_lt.mpr h),
    lmaJacobian_eq c hc q_init hq (LmaState.new c l eps 0 ej jac0 sv0).jac hj]
  rfl

/-- So does a solver after `updateInternalDataStructures`, which makes a new decomposition object, whatever was computed
before. -/
theorem C52_maxiter_zero_update_violated (c : Chain) (hc : c.WF) (svd : ThinSvdFn) (s : LmaState) (hm : s.maxiter = 0)
    (jacNew : Jac) (svNew : List ℝ) (h1 : c.nrOfJoints ≤ s.jac.length + jacNew.length) (q_init q_out : List ℝ) (goal : Frame)
    (hq : q_init.length = c.nrOfJoints) (ho : q_out.length = c.nrOfJoints) (h : s.eps ≤ wDist c s.L goal q_init) :
    (s.update c jacNew svNew).cartToJnt c svd q_init goal q_out = none := by
  unfold LmaState.cartToJnt
  obtain ⟨-, -, u1, u2, u3, -⟩ := C52_sizes c (fun _ => 1) 0 0 0 (List.replicate c.nrOfJoints 0) [] (by simp) s jacNew svNew h1
  have hL : (s.update c jacNew svNew).L = s.L := rfl
  have hE : (s.update c jacNew svNew).eps = s.eps := rfl
  have hM : (s.update c jacNew svNew).maxiter = 0 := hm
  rw [if_neg (not_not.mpr u1), if_neg (by rw [u1, hq, ho]; simp), lmaFwdpos_eq c hc q_init hq _ u2]
  simp only [Option.bind_eq_bind, Option.bind_some]
  rw [norm_wDist, if_neg (by rw [hL, hE]; exact not_lt.mpr h), lmaJacobian_eq c hc q_init hq _ u3, hM]
  rfl

/-- The hypotheses of `C52_search`/`C52_sound` can be met, with a call that moves the joint (see
`C52_lastTransDiff_violated` for its result). -/
example : ∃ svd, GoodThinSvd svd ∧
    ∃ o, (LmaState.new xChain twoL 1 1 (1 / 10 ^ 15) [0] []).cartToJnt xChain svd [0] ⟨1, ⟨3, 0, 0⟩⟩ [0] = some o ∧
      o.ret = E_MAX_ITERATIONS_EXCEEDED ∧ o.q_out ≠ [0] := by
  obtain ⟨svd, h⟩ := goodThinSvd_exists
  obtain ⟨o, e, h1, h2, -⟩ := C52_lastTransDiff_violated svd h
  refine ⟨svd, h, o, e, h1, ?_⟩
  rw [h2]; norm_num

end KDL
