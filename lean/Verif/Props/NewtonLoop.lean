import Verif.Props.Newton

/-! C101, second part: the loops of the two Newton-Raphson solvers, started near the goal, end with success. -/

noncomputable section
namespace KDL
open Real

/-! ## the statement's vocabulary -/

/-- How far two joint positions are apart: turnings plus slides of all joints. -/
def apart (c : Chain) (q q' : List ℝ) : ℝ :=
  turnSum (fun i => rd q' i - rd q i) c.segments 0 + slideSum (fun i => rd q' i - rd q i) c.segments 0

/-- Joint positions at most `ρ` away from `q0`. -/
def NearStart (c : Chain) (q0 : List ℝ) (ρ : ℝ) (q : List ℝ) : Prop := q.length = c.nrOfJoints ∧ apart c q0 q ≤ ρ

/-- Deviation of a pose from the goal: distance of the origins plus Frobenius distance of the rotations. -/
def dev (X G : Frame) : ℝ := vdist X.p G.p + rdist X.M G.M

/-- The inverse velocity solver solves the equation for the twist towards the goal near `q0`, with displacements bounded by `K` times the
twist. -/
def SolvesNear (c : Chain) (ik : VelSolver) (G : Frame) (q0 : List ℝ) (ρ K : ℝ) : Prop :=
  ∀ i q X, NearStart c q0 ρ q → fkPos c q (-1) = some (E_NOERROR, X) →
    ∃ d, ik i q (Frame.diff X G 1) = some (E_NOERROR, d) ∧ d.length = c.nrOfJoints ∧ Solves c q d (Frame.diff X G 1) ∧
      turning c d + sliding c d ≤ K * (vlen (Frame.diff X G 1).vel + vlen (Frame.diff X G 1).rot)

/-- The setting of the convergence theorems. -/
structure NewtonSetting (c : Chain) (ik : VelSolver) (G : Frame) (q0 : List ℝ) (eps M K L : ℝ) : Prop where
  wf : c.WF
  valid : c.Valid
  goal : G.M.IsProper
  K0 : 0 < K
  L0 : 0 ≤ L
  M0 : 1 / 10 ^ 5 ≤ M
  M1 : M ≤ 1 / 10
  /-- the start is near the goal, compared with the curvature `(L + 3) K²` -/
  close : (L + 3) * K ^ 2 * M ≤ 1 / 4
  /-- the tolerance is not below what the tolerance of `GetRotAngle` permits -/
  tol : (L + 3) * K ^ 2 * (41 / 10 ^ 12) ≤ eps
  len : q0.length = c.nrOfJoints
  start : ∀ X, fkPos c q0 (-1) = some (E_NOERROR, X) → dev X G ≤ M
  solver : SolvesNear c ik G q0 (K * (3 / 2 * M + 4 / 10 ^ 5)) K
  reach : ∀ q q', NearStart c q0 (K * (3 / 2 * M + 4 / 10 ^ 5)) q → NearStart c q0 (K * (3 / 2 * M + 4 / 10 ^ 5)) q' → reach c q q' ≤ L

/-! ## distances of joint positions -/

theorem Joint.turns_nonneg (j : Joint) (x : ℝ) : 0 ≤ j.turns x := by
  unfold Joint.turns; split <;> positivity
theorem Joint.slides_nonneg (j : Joint) (x : ℝ) : 0 ≤ j.slides x := by
  unfold Joint.slides; split <;> positivity
theorem Joint.turns_add (j : Joint) (x y : ℝ) : j.turns (x + y) ≤ j.turns x + j.turns y := by
  unfold Joint.turns; split <;> first | (rw [mul_add]; exact abs_add_le _ _) | simp
theorem Joint.slides_add (j : Joint) (x y : ℝ) : j.slides (x + y) ≤ j.slides x + j.slides y := by
  unfold Joint.slides; split <;> first | (rw [mul_add]; exact abs_add_le _ _) | simp

theorem turnSum_nonneg (d : ℕ → ℝ) : ∀ (ss : List Segment) (j : ℕ), 0 ≤ turnSum d ss j := by
  intro ss
  induction ss with
  | nil => intro j; exact le_rfl
  | cons s ss ih =>
    intro j
    unfold turnSum
    split_ifs
    · exact add_nonneg (Joint.turns_nonneg _ _) (ih _)
    · exact ih _
theorem slideSum_nonneg (d : ℕ → ℝ) : ∀ (ss : List Segment) (j : ℕ), 0 ≤ slideSum d ss j := by
  intro ss
  induction ss with
  | nil => intro j; exact le_rfl
  | cons s ss ih =>
    intro j
    unfold slideSum
    split_ifs
    · exact add_nonneg (Joint.slides_nonneg _ _) (ih _)
    · exact ih _
theorem turnSum_add (d e : ℕ → ℝ) : ∀ (ss : List Segment) (j : ℕ), turnSum (fun i => d i + e i) ss j ≤ turnSum d ss j + turnSum e ss j := by
  intro ss
  induction ss with
  | nil => intro j; simp [turnSum]
  | cons s ss ih =>
    intro j
    unfold turnSum
    split_ifs
    · have := ih (j + 1)
      have := Joint.turns_add s.joint (d j) (e j)
      linarith
    · exact ih _
theorem slideSum_add (d e : ℕ → ℝ) : ∀ (ss : List Segment) (j : ℕ), slideSum (fun i => d i + e i) ss j ≤ slideSum d ss j + slideSum e ss j := by
  intro ss
  induction ss with
  | nil => intro j; simp [slideSum]
  | cons s ss ih =>
    intro j
    unfold slideSum
    split_ifs
    · have := ih (j + 1)
      have := Joint.slides_add s.joint (d j) (e j)
      linarith
    · exact ih _

theorem apart_step (c : Chain) {q0 q d : List ℝ} (h : q.length = d.length) :
    apart c q0 (jsum q d) ≤ apart c q0 q + (turning c d + sliding c d) := by
  have e : (fun i => rd (jsum q d) i - rd q0 i) = fun i => (rd q i - rd q0 i) + rd d i := by
    funext i
    have := rd_add h 1 i
    simp only [one_mul] at this
    have e2 : rd (jsum q d) i = rd q i + rd d i := this
    rw [e2]; ring
  unfold apart turning sliding
  rw [e]
  have := turnSum_add (fun i => rd q i - rd q0 i) (rd d) c.segments 0
  have := slideSum_add (fun i => rd q i - rd q0 i) (rd d) c.segments 0
  linarith

theorem turnSum_zero : ∀ (ss : List Segment) (j : ℕ), turnSum (fun _ => 0) ss j = 0 := by
  intro ss
  induction ss with
  | nil => intro j; rfl
  | cons s ss ih =>
    intro j
    unfold turnSum
    split_ifs
    · rw [ih]; simp only [Joint.turns]; split <;> simp
    · exact ih _
theorem slideSum_zero : ∀ (ss : List Segment) (j : ℕ), slideSum (fun _ => 0) ss j = 0 := by
  intro ss
  induction ss with
  | nil => intro j; rfl
  | cons s ss ih =>
    intro j
    unfold slideSum
    split_ifs
    · rw [ih]; simp only [Joint.slides]; split <;> simp
    · exact ih _
theorem apart_self (c : Chain) (q : List ℝ) : apart c q q = 0 := by
  simp [apart, turnSum_zero, slideSum_zero]

/-! ## one step -/

theorem vdist_nonneg' (a b : Vec) : 0 ≤ vdist a b := Real.sqrt_nonneg _
theorem rdist_nonneg' (a b : Rot) : 0 ≤ rdist a b := Real.sqrt_nonneg _

theorem quad_bound {L S T : ℝ} (hL : 0 ≤ L) (hS : 0 ≤ S) (hT : 0 ≤ T) :
    L * S ^ 2 / 2 + S * T + √3 * S ^ 2 ≤ (L / 2 + 17321 / 10000) * (S + T) ^ 2 := by
  have h3 : √3 ≤ 17321 / 10000 := by
    rw [Real.sqrt_le_left (by norm_num)]; norm_num
  have a1 : √3 * S ^ 2 ≤ 17321 / 10000 * S ^ 2 := mul_le_mul_of_nonneg_right h3 (sq_nonneg S)
  have := mul_nonneg hS hT
  have := mul_nonneg hL (mul_nonneg hS hT)
  have := mul_nonneg hL (sq_nonneg T)
  have := sq_nonneg T
  nlinarith

theorem converged_of_small {X G : Frame} {e eps : ℝ} (h1 : vlen (Frame.diff X G 1).vel ≤ e) (h2 : vlen (Frame.diff X G 1).rot ≤ e) (h : e < eps) :
    Converged X G eps := by
  have key : ∀ v : Vec, vlen v ≤ e → Vec.equal v 0 eps := by
    intro v hv
    have a1 := Real.abs_le_sqrt (x := v.x) (y := v.x ^ 2 + v.y ^ 2 + v.z ^ 2) (by nlinarith [sq_nonneg v.y, sq_nonneg v.z])
    have a2 := Real.abs_le_sqrt (x := v.y) (y := v.x ^ 2 + v.y ^ 2 + v.z ^ 2) (by nlinarith [sq_nonneg v.x, sq_nonneg v.z])
    have a3 := Real.abs_le_sqrt (x := v.z) (y := v.x ^ 2 + v.y ^ 2 + v.z ^ 2) (by nlinarith [sq_nonneg v.y, sq_nonneg v.x])
    rw [abs_le] at a1 a2 a3
    unfold vlen at hv
    refine ⟨⟨?_, ?_⟩, ⟨?_, ?_⟩, ⟨?_, ?_⟩⟩ <;> simp <;> linarith
  exact ⟨key _ h2, key _ h1⟩

theorem vlen_of_equal {v : Vec} {eps : ℝ} (h : Vec.equal v 0 eps) : vlen v ≤ 17321 / 10000 * eps := by
  obtain ⟨⟨a, b⟩, ⟨c, d⟩, ⟨e, f⟩⟩ := h
  simp at a b c d e f
  have he : 0 < eps := by linarith
  unfold vlen
  rw [Real.sqrt_le_left (by positivity)]
  have h1 : v.x ^ 2 ≤ eps ^ 2 := sq_le_sq' (by linarith) (by linarith)
  have h2 : v.y ^ 2 ≤ eps ^ 2 := sq_le_sq' (by linarith) (by linarith)
  have h3 : v.z ^ 2 ≤ eps ^ 2 := sq_le_sq' (by linarith) (by linarith)
  nlinarith

theorem diff_len {X G : Frame} (hX : X.M.IsProper) (hG : G.M.IsProper) (hn : rdist X.M G.M ≤ 1) :
    vlen (Frame.diff X G 1).vel = vdist X.p G.p ∧ vlen (Frame.diff X G 1).rot ≤ 112 / 100 * rdist X.M G.M := by
  constructor
  · rw [diff_vel, vdist_eq_vlen]
    unfold vlen
    congr 1
    simp
    ring
  · by_cases hr : (X.M.inv * G.M).Regular epsilon
    · exact (diff_regular hX hG hr).2
    · rw [(diff_band hX hG hr hn).1, vlen_zero]
      exact mul_nonneg (by norm_num) (rdist_nonneg' _ _)

variable {c : Chain} {ik : VelSolver} {G : Frame} {q0 : List ℝ} {eps M K L : ℝ}

/-- What one step does. -/
theorem NewtonSetting.step (h : NewtonSetting c ik G q0 eps M K L) (i : ℕ) {q : List ℝ} {X : Frame}
    (hq : NearStart c q0 (K * (3 / 2 * M + 4 / 10 ^ 5)) q) (hX : fkPos c q (-1) = some (E_NOERROR, X)) {e : ℝ} (he : dev X G ≤ e) (heM : e ≤ M)
    (hb : apart c q0 q + 112 / 100 * K * e ≤ K * (3 / 2 * M + 4 / 10 ^ 5)) :
    ∃ d X', ik i q (Frame.diff X G 1) = some (E_NOERROR, d) ∧ q.length = d.length ∧ (jsum q d).length = c.nrOfJoints ∧
      apart c q0 (jsum q d) ≤ apart c q0 q + 112 / 100 * K * e ∧ fkPos c (jsum q d) (-1) = some (E_NOERROR, X') ∧ X'.M.IsProper ∧
      dev X' G ≤ (L + 3) * K ^ 2 * e ^ 2 + 1733 / 10 ^ 9 ∧ vdist X'.p G.p ≤ (L + 3) * K ^ 2 * e ^ 2 ∧
      ((X.M.inv * G.M).Regular epsilon → dev X' G ≤ (L + 3) * K ^ 2 * e ^ 2) ∧
      (Converged X G eps → vdist X'.p G.p ≤ (7 * L + 21) * K ^ 2 * eps ^ 2 ∧
        dev X' G ≤ (7 * L + 21) * K ^ 2 * eps ^ 2 + 1733 / 10 ^ 9) := by
  obtain ⟨d, k1, k2, k3, k4⟩ := h.solver i q X hq hX
  have hqd : q.length = d.length := by rw [hq.1, k2]
  have hXp : X.M.IsProper := by
    obtain ⟨Y, _, _, e1, _, _, _, _, _, e2, _⟩ := C101_expansion c h.wf h.valid q d hq.1 k2
    rw [hX] at e1
    simp only [Option.some.injEq, Prod.mk.injEq, true_and] at e1
    rw [e1]; exact e2
  have v0 := vdist_nonneg' X.p G.p
  have r0 := rdist_nonneg' X.M G.M
  have hn : rdist X.M G.M ≤ 1 := by
    have := h.M1
    unfold dev at he
    linarith
  obtain ⟨l1, l2⟩ := diff_len hXp h.goal hn
  have S0 : 0 ≤ turning c d := turnSum_nonneg _ _ _
  have T0 : 0 ≤ sliding c d := slideSum_nonneg _ _ _
  have e0 : 0 ≤ e := le_trans (add_nonneg v0 r0) he
  have hST : turning c d + sliding c d ≤ 112 / 100 * K * e := by
    refine k4.trans ?_
    unfold dev at he
    have : vlen (Frame.diff X G 1).vel + vlen (Frame.diff X G 1).rot ≤ 112 / 100 * e := by linarith
    have := mul_le_mul_of_nonneg_left this h.K0.le
    linarith
  have hlen : (jsum q d).length = c.nrOfJoints := by simp [jsum, ← hqd, hq.1]
  have hap := apart_step c (q0 := q0) hqd
  have hq' : NearStart c q0 (K * (3 / 2 * M + 4 / 10 ^ 5)) (jsum q d) := ⟨hlen, by linarith⟩
  obtain ⟨X', m1, m2, m3, m4, m5⟩ := C101_step c h.wf h.valid q d hq.1 k2 X G hX h.goal hn k3
  have hre := h.reach q _ hq hq'
  have hpos : vdist X'.p G.p ≤ L * turning c d ^ 2 / 2 + turning c d * sliding c d := by
    have := mul_le_mul_of_nonneg_right hre (sq_nonneg (turning c d))
    linarith
  have hqb := quad_bound h.L0 S0 T0
  have h30 : 0 ≤ √3 * turning c d ^ 2 := by positivity
  have hall : vdist X'.p G.p + √3 * turning c d ^ 2 ≤ (L / 2 + 17321 / 10000) * (turning c d + sliding c d) ^ 2 := by linarith
  have hL2 : 0 ≤ L / 2 + 17321 / 10000 := by have := h.L0; linarith
  have hsq : (L / 2 + 17321 / 10000) * (turning c d + sliding c d) ^ 2 ≤ (L + 3) * K ^ 2 * e ^ 2 := by
    have a1 := pow_le_pow_left₀ (add_nonneg S0 T0) hST 2
    have a2 := mul_le_mul_of_nonneg_left a1 hL2
    refine a2.trans ?_
    have a3 : (L / 2 + 17321 / 10000) * (112 / 100 * K * e) ^ 2 = ((L / 2 + 17321 / 10000) * (112 / 100) ^ 2) * (K ^ 2 * e ^ 2) := by ring
    rw [a3, mul_assoc (L + 3)]
    refine mul_le_mul_of_nonneg_right ?_ (by positivity)
    have := h.L0
    linarith
  have hdev : ∀ b : ℝ, (L / 2 + 17321 / 10000) * (turning c d + sliding c d) ^ 2 ≤ b → vdist X'.p G.p ≤ b ∧ dev X' G ≤ b + 1733 / 10 ^ 9 := by
    intro b hb
    refine ⟨by linarith, ?_⟩
    unfold dev
    by_cases hr : (X.M.inv * G.M).Regular epsilon
    · have := m4 hr
      norm_num at *
      linarith
    · obtain ⟨_, n1, n2⟩ := m5 hr
      linarith
  refine ⟨d, X', k1, hqd, hlen, by linarith, m1, m2, (hdev _ hsq).2, (hdev _ hsq).1, ?_, ?_⟩
  · intro hr
    have := m4 hr
    unfold dev
    linarith
  · intro hc
    refine hdev _ ?_
    have a1 := vlen_of_equal hc.1
    have a2 := vlen_of_equal hc.2
    have ep : 0 ≤ eps := by have := vlen_nonneg (Frame.diff X G 1).rot; linarith
    have a3 : turning c d + sliding c d ≤ K * (34642 / 10000 * eps) := by
      refine k4.trans (mul_le_mul_of_nonneg_left ?_ h.K0.le)
      linarith
    have a4 := pow_le_pow_left₀ (add_nonneg S0 T0) a3 2
    refine (mul_le_mul_of_nonneg_left a4 hL2).trans ?_
    have a5 : (L / 2 + 17321 / 10000) * (K * (34642 / 10000 * eps)) ^ 2 = ((L / 2 + 17321 / 10000) * (34642 / 10000) ^ 2) * (K ^ 2 * eps ^ 2) := by ring
    rw [a5, mul_assoc (7 * L + 21)]
    refine mul_le_mul_of_nonneg_right ?_ (by positivity)
    have := h.L0
    linarith

/-! ## counting the iterations -/

/-- Bound of the deviation at an iterate from which `m` more steps are needed at most. -/
def devBound (M : ℝ) : ℕ → ℝ
  | 0 => 6 / 10 ^ 6
  | 1 => 6 / 10 ^ 6
  | k + 2 => 4 ^ k * (M / 4 ^ 8) + 232 / 10 ^ 8

/-- Sum of `devBound M 0 … devBound M m`. -/
def devSum (M : ℝ) : ℕ → ℝ
  | 0 => devBound M 0
  | m + 1 => devSum M m + devBound M (m + 1)

/-- A pose from which at most `m` steps are needed. -/
structure StepsLeft (G : Frame) (eps M : ℝ) (m : ℕ) (X : Frame) : Prop where
  proper : X.M.IsProper
  dev : dev X G ≤ devBound M m
  devM : KDL.dev X G ≤ M
  phase : Converged X G eps ∨ 2 ≤ m ∨ (m = 1 ∧ (X.M.inv * G.M).Regular epsilon)

theorem devBound_pos (hM : 0 ≤ M) (m : ℕ) : 0 ≤ devBound M m := by
  unfold devBound; split <;> positivity

theorem StepsLeft.next (h : NewtonSetting c ik G q0 eps M K L) {m : ℕ} {X X' : Frame} (hX : StepsLeft G eps M (m + 1) X) (hn : ¬ Converged X G eps)
    (hp : X'.M.IsProper)
    (h1 : KDL.dev X' G ≤ (L + 3) * K ^ 2 * KDL.dev X G ^ 2 + 1733 / 10 ^ 9) (h2 : vdist X'.p G.p ≤ (L + 3) * K ^ 2 * KDL.dev X G ^ 2)
    (h3 : (X.M.inv * G.M).Regular epsilon → KDL.dev X' G ≤ (L + 3) * K ^ 2 * KDL.dev X G ^ 2) : StepsLeft G eps M m X' := by
  have hC : 0 < (L + 3) * K ^ 2 := by
    have := h.L0
    have := h.K0
    positivity
  obtain ⟨C, hCe⟩ : ∃ C, C = (L + 3) * K ^ 2 := ⟨_, rfl⟩
  have hcl := h.close
  have htol := h.tol
  rw [← hCe] at h1 h2 h3 hC hcl htol
  have d0 : 0 ≤ KDL.dev X G := add_nonneg (vdist_nonneg' _ _) (rdist_nonneg' _ _)
  have d1 := hX.devM
  have hM0 := h.M0
  have hM1 := h.M1
  have hq : C * KDL.dev X G ^ 2 ≤ KDL.dev X G / 4 := by
    have a1 : C * KDL.dev X G ≤ 1 / 4 := (mul_le_mul_of_nonneg_left d1 hC.le).trans hcl
    have a2 := mul_le_mul_of_nonneg_right a1 d0
    linarith [a2, (by ring : C * KDL.dev X G * KDL.dev X G = C * KDL.dev X G ^ 2)]
  have hM' : KDL.dev X' G ≤ M := by
    norm_num at h1 hM0 ⊢
    linarith
  have v0 := vdist_nonneg' X'.p G.p
  have hr1 : rdist X'.M G.M ≤ 1 := by unfold KDL.dev at hM'; linarith
  obtain ⟨l1, l2⟩ := diff_len hp h.goal hr1
  have hsmall : KDL.dev X G ≤ 6 / 10 ^ 6 → C * KDL.dev X G ^ 2 ≤ C * (36 / 10 ^ 12) := by
    intro hd
    have := pow_le_pow_left₀ d0 hd 2
    refine mul_le_mul_of_nonneg_left (this.trans (by norm_num)) hC.le
  have hde := hX.dev
  match m, hX, hde with
  | 0, hX, hde =>
    have hr : (X.M.inv * G.M).Regular epsilon := by
      rcases hX.phase with h | h | h
      · exact absurd h hn
      · omega
      · exact h.2
    simp only [devBound] at hde
    have k1 := h3 hr
    have k2 : vdist X'.p G.p + rdist X'.M G.M ≤ C * (36 / 10 ^ 12) := k1.trans (hsmall hde)
    refine ⟨hp, ?_, hM', .inl ?_⟩
    · simp only [devBound]; norm_num at h1 hde ⊢; linarith
    · have r0 := rdist_nonneg' X'.M G.M
      refine converged_of_small (e := C * (4032 / 10 ^ 14)) ?_ ?_ ?_
      · rw [l1]; linarith
      · linarith
      · norm_num at htol ⊢; linarith
  | 1, hX, hde =>
    simp only [devBound] at hde
    have hd6 : KDL.dev X G ≤ 6 / 10 ^ 6 := by norm_num at hde ⊢; linarith
    refine ⟨hp, ?_, hM', ?_⟩
    · simp only [devBound]; norm_num at h1 hd6 ⊢; linarith
    by_cases hr : (X'.M.inv * G.M).Regular epsilon
    · exact .inr (.inr ⟨rfl, hr⟩)
    · left
      have hb := (diff_band hp h.goal hr hr1).1
      have k2 := hsmall hd6
      refine converged_of_small (e := C * (36 / 10 ^ 12)) ?_ ?_ ?_
      · rw [l1]; linarith
      · rw [hb, vlen_zero]; positivity
      · norm_num at htol ⊢; linarith
  | k + 2, hX, hde =>
    simp only [devBound] at hde
    refine ⟨hp, ?_, hM', .inr (.inl (by omega))⟩
    simp only [devBound]
    rw [pow_succ] at hde
    generalize (4 : ℝ) ^ k = x at *
    norm_num at h1 hde ⊢
    linarith

theorem NewtonSetting.first (h : NewtonSetting c ik G q0 eps M K L) :
    ∃ X, fkPos c q0 (-1) = some (E_NOERROR, X) ∧ StepsLeft G eps M 10 X := by
  refine ⟨_, fkPos_whole h.wf h.len, ?_⟩
  have := h.start _ (fkPos_whole h.wf h.len)
  refine ⟨(isProper_fkF _ _ _ h.valid), ?_, this, .inr (.inl (by omega))⟩
  simp only [devBound]
  norm_num
  linarith

theorem devSum_ten (M : ℝ) (h : 0 ≤ M) : 112 / 100 * devSum M 10 ≤ 3 / 2 * M + 4 / 10 ^ 5 := by
  simp only [devSum, devBound]
  norm_num
  linarith

/-- The loop of `ChainIkSolverPos_NR`. -/
theorem NewtonSetting.nr (h : NewtonSetting c ik G q0 eps M K L) (err : Int) : ∀ (m n i : ℕ) (q : List ℝ) (X : Frame), m + 1 ≤ n →
    q.length = c.nrOfJoints → fkPos c q (-1) = some (E_NOERROR, X) → StepsLeft G eps M m X →
    apart c q0 q + 112 / 100 * K * devSum M m ≤ K * (3 / 2 * M + 4 / 10 ^ 5) →
    ∃ q' X', nrLoop (fkOf c) ik G eps err n i q = some ⟨E_NOERROR, err, q'⟩ ∧ q'.length = c.nrOfJoints ∧
      NearStart c q0 (K * (3 / 2 * M + 4 / 10 ^ 5)) q' ∧ fkPos c q' (-1) = some (E_NOERROR, X') ∧
      vdist X'.p G.p ≤ (7 * L + 21) * K ^ 2 * eps ^ 2 ∧ dev X' G ≤ (7 * L + 21) * K ^ 2 * eps ^ 2 + 1733 / 10 ^ 9 := by
  have M0 : 0 ≤ M := le_trans (by norm_num) h.M0
  have K0 := h.K0
  have sum0 : ∀ m, 0 ≤ devSum M m := by
    intro m
    induction m with
    | zero => exact devBound_pos M0 0
    | succ m ih => exact add_nonneg ih (devBound_pos M0 _)
  intro m
  induction m with
  | zero =>
    intro n i q X hn hq hX hw hb
    obtain ⟨n, rfl⟩ : ∃ k, n = k + 1 := ⟨n - 1, by omega⟩
    have hc : Converged X G eps := by
      rcases hw.phase with h | h | h
      · exact h
      · omega
      · omega
    have hbe : apart c q0 q + 112 / 100 * K * dev X G ≤ K * (3 / 2 * M + 4 / 10 ^ 5) := by
      have := mul_le_mul_of_nonneg_left hw.dev (by positivity : 0 ≤ 112 / 100 * K)
      simp only [devSum] at hb
      linarith
    have hd0 : 0 ≤ dev X G := add_nonneg (vdist_nonneg' _ _) (rdist_nonneg' _ _)
    have hK0 : 0 ≤ 112 / 100 * K * dev X G := by positivity
    obtain ⟨d, X', s1, s2, s3, s4, s5, s6, s7, s8, s9, s10⟩ := h.step i ⟨hq, by linarith⟩ hX le_rfl hw.devM hbe
    refine ⟨jsum q d, X', ?_, s3, ⟨s3, by linarith⟩, s5, s10 hc⟩
    have hc' : Twist.equal (Frame.diff X G 1) 0 eps := hc
    simp only [nrLoop, fkOf, hX, Option.bind_eq_bind, Option.bind_some, s1, lt_irrefl, if_false, jntAdd, s2, if_true, hc', jsum]
  | succ m ih =>
    intro n i q X hn hq hX hw hb
    obtain ⟨n, rfl⟩ : ∃ k, n = k + 1 := ⟨n - 1, by omega⟩
    have hsm := sum0 m
    have hKs : 0 ≤ 112 / 100 * K * devSum M m := by positivity
    have hbe : apart c q0 q + 112 / 100 * K * dev X G + 112 / 100 * K * devSum M m ≤ K * (3 / 2 * M + 4 / 10 ^ 5) := by
      have := mul_le_mul_of_nonneg_left hw.dev (by positivity : 0 ≤ 112 / 100 * K)
      simp only [devSum] at hb
      linarith
    have hd0 : 0 ≤ dev X G := add_nonneg (vdist_nonneg' _ _) (rdist_nonneg' _ _)
    have hK0 : 0 ≤ 112 / 100 * K * dev X G := by positivity
    obtain ⟨d, X', s1, s2, s3, s4, s5, s6, s7, s8, s9, s10⟩ := h.step i ⟨hq, by linarith⟩ hX le_rfl hw.devM (by linarith)
    by_cases hc : Converged X G eps
    · refine ⟨jsum q d, X', ?_, s3, ⟨s3, by linarith⟩, s5, s10 hc⟩
      have hc' : Twist.equal (Frame.diff X G 1) 0 eps := hc
      simp only [nrLoop, fkOf, hX, Option.bind_eq_bind, Option.bind_some, s1, lt_irrefl, if_false, jntAdd, s2, if_true, hc', jsum]
    · have hw' := hw.next h hc s6 s7 s8 s9
      obtain ⟨q', X'', t1, t2⟩ := ih n (i + 1) (jsum q d) X' (by omega) s3 s5 hw' (by linarith)
      refine ⟨q', X'', ?_, t2⟩
      have hc' : ¬ Twist.equal (Frame.diff X G 1) 0 eps := hc
      rw [← t1]
      conv_lhs => rw [nrLoop]
      simp only [fkOf, hX, Option.bind_eq_bind, Option.bind_some, s1, lt_irrefl, if_false, jntAdd, s2, if_true, hc', jsum]

/-- The loop of `ChainIkSolverPos_NR_JL` while the limits do not bind. -/
theorem NewtonSetting.jl (h : NewtonSetting c ik G q0 eps M K L) {lo hi : List ℝ}
    (hlim : ∀ q, NearStart c q0 (K * (3 / 2 * M + 4 / 10 ^ 5)) q → WithinLimits q lo hi) : ∀ (m n i : ℕ) (q : List ℝ) (X : Frame), m + 1 ≤ n →
    q.length = c.nrOfJoints → fkPos c q (-1) = some (E_NOERROR, X) → StepsLeft G eps M m X →
    apart c q0 q + 112 / 100 * K * devSum M m ≤ K * (3 / 2 * M + 4 / 10 ^ 5) →
    ∃ q' X', NrJlState.loop (fkOf c) ik G eps lo hi n i q = some ⟨E_NOERROR, E_NOERROR, q'⟩ ∧ q'.length = c.nrOfJoints ∧
      NearStart c q0 (K * (3 / 2 * M + 4 / 10 ^ 5)) q' ∧ fkPos c q' (-1) = some (E_NOERROR, X') ∧ Converged X' G eps ∧ dev X' G ≤ M := by
  have M0 : 0 ≤ M := le_trans (by norm_num) h.M0
  have K0 := h.K0
  have sum0 : ∀ m, 0 ≤ devSum M m := by
    intro m
    induction m with
    | zero => exact devBound_pos M0 0
    | succ m ih => exact add_nonneg ih (devBound_pos M0 _)
  intro m
  induction m with
  | zero =>
    intro n i q X hn hq hX hw hb
    obtain ⟨n, rfl⟩ : ∃ k, n = k + 1 := ⟨n - 1, by omega⟩
    have hc : Converged X G eps := by
      rcases hw.phase with h | h | h
      · exact h
      · omega
      · omega
    have hs := sum0 0
    have : 0 ≤ 112 / 100 * K * devSum M 0 := by positivity
    refine ⟨q, X, ?_, hq, ⟨hq, by linarith⟩, hX, hc, hw.devM⟩
    have hc' : Twist.equal (Frame.diff X G 1) 0 eps := hc
    simp [NrJlState.loop, fkOf, hX, hc', E_NOERROR]
  | succ m ih =>
    intro n i q X hn hq hX hw hb
    obtain ⟨n, rfl⟩ : ∃ k, n = k + 1 := ⟨n - 1, by omega⟩
    have hsm := sum0 m
    have hKs : 0 ≤ 112 / 100 * K * devSum M m := by positivity
    have hbe : apart c q0 q + 112 / 100 * K * dev X G + 112 / 100 * K * devSum M m ≤ K * (3 / 2 * M + 4 / 10 ^ 5) := by
      have := mul_le_mul_of_nonneg_left hw.dev (by positivity : 0 ≤ 112 / 100 * K)
      simp only [devSum] at hb
      linarith
    have hd0 : 0 ≤ dev X G := add_nonneg (vdist_nonneg' _ _) (rdist_nonneg' _ _)
    have hK0 : 0 ≤ 112 / 100 * K * dev X G := by positivity
    by_cases hc : Converged X G eps
    · refine ⟨q, X, ?_, hq, ⟨hq, by linarith⟩, hX, hc, hw.devM⟩
      have hc' : Twist.equal (Frame.diff X G 1) 0 eps := hc
      simp [NrJlState.loop, fkOf, hX, hc', E_NOERROR]
    · obtain ⟨d, X', s1, s2, s3, s4, s5, s6, s7, s8, s9, s10⟩ := h.step i ⟨hq, by linarith⟩ hX le_rfl hw.devM (by linarith)
      have hw' := hw.next h hc s6 s7 s8 s9
      obtain ⟨q', X'', t1, t2⟩ := ih n (i + 1) (jsum q d) X' (by omega) s3 s5 hw' (by linarith)
      refine ⟨q', X'', ?_, t2⟩
      have hl := hlim (jsum q d) ⟨s3, by linarith⟩
      have hcl : NrJlState.clampHigh (NrJlState.clampLow (jsum q d) lo) hi = jsum q d := by
        refine IsClamp.unique (isClamp_clamp _ _ _ hl.1 hl.2.1) ⟨rfl, fun i hi' => ?_⟩
        have := hl.2.2 i hi'
        rw [max_eq_left this.1, min_eq_left this.2]
      have hc' : ¬ Twist.equal (Frame.diff X G 1) 0 eps := hc
      rw [← t1]
      conv_lhs => rw [NrJlState.loop]
      simp only [fkOf, hX, Option.bind_eq_bind, Option.bind_some, s1, E_NOERROR, lt_irrefl, if_false, jntAdd, s2, if_true, hc', jsum]
      rw [← jsum, hcl]

/-! ## the theorems -/

/-- `ChainIkSolverPos_NR`, started near the goal, with an inverse velocity solver that solves its equation: after at most 11 iterations the solver
returns success, and the joint positions it returns reach the goal up to `(7 L + 21) K² eps²` and the tolerance of `GetRotAngle`.  The step
taken after the test has succeeded, which in general can spoil the answer (`C48_sound_violated`), here improves it. -/
theorem C101_converges (c : Chain) (ik : VelSolver) (G : Frame) (q0 : List ℝ) (eps M K L : ℝ) (h : NewtonSetting c ik G q0 eps M K L)
    (maxiter : ℕ) (hm : 11 ≤ maxiter) (err : Int) (q_out : List ℝ) (ho : q_out.length = c.nrOfJoints) :
    ∃ q X, NrState.cartToJnt ⟨c.nrOfJoints, maxiter, eps, err⟩ c (fkOf c) ik q0 G q_out = some ⟨E_NOERROR, err, q⟩ ∧
      q.length = c.nrOfJoints ∧ apart c q0 q ≤ K * (3 / 2 * M + 4 / 10 ^ 5) ∧ fkPos c q (-1) = some (E_NOERROR, X) ∧
      vdist X.p G.p ≤ (7 * L + 21) * K ^ 2 * eps ^ 2 ∧
      vdist X.p G.p + rdist X.M G.M ≤ (7 * L + 21) * K ^ 2 * eps ^ 2 + 1733 / 10 ^ 9 := by
  obtain ⟨X0, f1, f2⟩ := h.first
  have hs := devSum_ten M (le_trans (by norm_num) h.M0)
  have hs' := mul_le_mul_of_nonneg_left hs h.K0.le
  obtain ⟨q, X, r1, r2, r3, r4, r5, r6⟩ := h.nr err 10 maxiter 0 q0 X0 (by omega) h.len f1 f2 (by rw [apart_self]; linarith)
  refine ⟨q, X, ?_, r2, r3.2, r4, r5, r6⟩
  unfold NrState.cartToJnt
  rw [if_neg (by simp), if_neg (by simp [h.len, ho]), r1]

/-- The same for `ChainIkSolverPos_NR_JL` with limits that do not bind near the start: success within 11 iterations, at a pose that passes the
termination test. -/
theorem C101_converges_jl (c : Chain) (ik : VelSolver) (G : Frame) (q0 : List ℝ) (eps M K L : ℝ) (h : NewtonSetting c ik G q0 eps M K L)
    (lo hi : List ℝ) (hlim : ∀ q, NearStart c q0 (K * (3 / 2 * M + 4 / 10 ^ 5)) q → WithinLimits q lo hi)
    (maxiter : ℕ) (hm : 11 ≤ maxiter) (err : Int) (q_out : List ℝ) (ho : q_out.length = c.nrOfJoints) :
    ∃ q X, NrJlState.cartToJnt ⟨c.nrOfJoints, lo, hi, maxiter, eps, err⟩ c (fkOf c) ik q0 G q_out = some ⟨E_NOERROR, E_NOERROR, q⟩ ∧
      q.length = c.nrOfJoints ∧ apart c q0 q ≤ K * (3 / 2 * M + 4 / 10 ^ 5) ∧ fkPos c q (-1) = some (E_NOERROR, X) ∧ Converged X G eps ∧
      vdist X.p G.p + rdist X.M G.M ≤ M := by
  obtain ⟨X0, f1, f2⟩ := h.first
  have hs := devSum_ten M (le_trans (by norm_num) h.M0)
  have hs' := mul_le_mul_of_nonneg_left hs h.K0.le
  obtain ⟨q, X, r1, r2, r3, r4, r5, r6⟩ := h.jl hlim 10 maxiter 0 q0 X0 (by omega) h.len f1 f2 (by rw [apart_self]; linarith)
  refine ⟨q, X, ?_, r2, r3.2, r4, r5, r6⟩
  have hl := hlim q0 ⟨h.len, by rw [apart_self]; have := h.K0; have := h.M0; have : 0 ≤ M := le_trans (by norm_num) h.M0; positivity⟩
  have l1 := hl.1
  have l2 := hl.2.1
  have l3 := h.len
  unfold NrJlState.cartToJnt
  rw [if_neg (by simp), if_neg (by simp only; omega), r1]

/-! ## an instance -/

/-- A joint turning about X followed by one sliding along X. -/
def screw : Chain := ⟨2, 2, [⟨"", ⟨"", .RotX, 1, 0, 0, 0, 0, ⟨0, 0, 0⟩, ⟨0, 0, 0⟩⟩, RBI.zero, ⟨1, ⟨0, 0, 0⟩⟩⟩,
  ⟨"", ⟨"", .TransX, 1, 0, 0, 0, 0, ⟨0, 0, 0⟩, ⟨0, 0, 0⟩⟩, RBI.zero, ⟨1, ⟨0, 0, 0⟩⟩⟩]⟩

theorem screw_fk (a b : ℝ) : fkPos screw [a, b] (-1) = some (E_NOERROR, ⟨Rot.rotX a, ⟨b, 0, 0⟩⟩) := by
  simp only [fkPos, screw, segmentNr, fkLoop, Segment.moving, Joint.moving]
  simp [fkLoop, Segment.pose, Joint.pose, Segment.moving, Joint.moving]
  ext <;> simp [Frame.ofRot, Frame.ofVec, Rot.rotX]

theorem screw_jac (a b : ℝ) : jntToJac screw [false, false] [a, b] [0, 0] (-1) = some (0, [⟨0, ⟨1, 0, 0⟩⟩, ⟨⟨1, 0, 0⟩, 0⟩]) := by
  simp [jntToJac, screw, segmentNr, jacLoop, Segment.moving, Joint.moving, Segment.pose, Joint.pose, Segment.twist, Joint.twist, E_NOERROR,
    Jac.setToZero, Jac.setColumn, Jac.changeRefPoint, Frame.ofRot, Frame.ofVec]
  constructor <;> ext <;> simp [Rot.rotX]

theorem screw_diff (a b g h : ℝ) (hn : rdist (Rot.rotX a) (Rot.rotX g) ≤ 1) :
    ∃ x, Frame.diff ⟨Rot.rotX a, ⟨b, 0, 0⟩⟩ ⟨Rot.rotX g, ⟨h, 0, 0⟩⟩ 1 = ⟨⟨h - b, 0, 0⟩, ⟨x, 0, 0⟩⟩ := by
  have hp : ∀ x, (Rot.rotX x).IsProper := fun x => Rot.isProper_rotX x
  obtain ⟨t, ht⟩ : ∃ t, t = Frame.diff ⟨Rot.rotX a, ⟨b, 0, 0⟩⟩ ⟨Rot.rotX g, ⟨h, 0, 0⟩⟩ 1 := ⟨_, rfl⟩
  have hv : t.vel = ⟨h - b, 0, 0⟩ := by
    rw [ht, diff_vel]; ext <;> simp
  by_cases hr : ((Rot.rotX a).inv * Rot.rotX g).Regular epsilon
  · have hrot := diff_rot ⟨Rot.rotX a, ⟨b, 0, 0⟩⟩ ⟨Rot.rotX g, ⟨h, 0, 0⟩⟩
    rw [← ht] at hrot
    have hg : ((Rot.rotX a).inv * Rot.rotX g).getRot.y = 0 ∧ ((Rot.rotX a).inv * Rot.rotX g).getRot.z = 0 := by
      unfold Rot.getRot Rot.getRotAngle
      dsimp only
      rw [if_neg hr]
      unfold Vec.normalize
      dsimp only
      split_ifs <;> simp [Rot.rotX]
    refine ⟨t.rot.x, ?_⟩
    rw [← ht]
    ext
    · rw [hv]
    · rw [hv]
    · rw [hv]
    · rfl
    · rw [hrot]; simp [hg]; simp [Rot.rotX]
    · rw [hrot]; simp [hg]; simp [Rot.rotX]
  · refine ⟨0, ?_⟩
    have := (diff_band (X := ⟨Rot.rotX a, ⟨b, 0, 0⟩⟩) (G := ⟨Rot.rotX g, ⟨h, 0, 0⟩⟩) (hp a) (hp g) hr hn).1
    rw [← ht] at this ⊢
    ext <;> simp [hv, this]

theorem rdist_rotX (a g : ℝ) : rdist (Rot.rotX a) (Rot.rotX g) ≤ 142 / 100 * |a - g| := by
  have h : rdist (Rot.rotX a) (Rot.rotX g) = √(4 * (1 - cos (a - g))) := by
    unfold rdist
    congr 1
    rw [cos_sub]
    simp only [Rot.rotX]
    nlinarith [sin_sq_add_cos_sq a, sin_sq_add_cos_sq g]
  rw [h, Real.sqrt_le_left (by positivity), mul_pow, sq_abs]
  have := Real.one_sub_sq_div_two_le_cos (x := a - g)
  nlinarith [sq_nonneg (a - g)]

theorem screw_near {q : List ℝ} {ρ : ℝ} (h : NearStart screw [0, 0] ρ q) : ∃ a b, q = [a, b] ∧ |a| + |b| ≤ ρ := by
  obtain ⟨h1, h2⟩ := h
  match q, h1 with
  | [a, b], _ =>
    refine ⟨a, b, rfl, ?_⟩
    simpa [apart, screw, turnSum, slideSum, Segment.moving, Joint.moving, Joint.turns, Joint.slides, rd] using h2

/-- The setting of the theorems is not empty: the goal is turned by `1/40` and moved by `1/50` from the start; the tolerance is the default one. -/
theorem screw_setting : NewtonSetting screw (fun _ _ t => some (E_NOERROR, [t.rot.x, t.vel.x])) ⟨Rot.rotX (1 / 40), ⟨1 / 50, 0, 0⟩⟩ [0, 0]
    (1 / 10 ^ 6) (1 / 14) 1 (1 / 2) where
  wf := by
    refine ⟨rfl, ?_⟩
    simp [screw, nMoving, Segment.moving, Joint.moving]
  valid := by
    intro s hs
    simp only [screw, List.mem_cons, List.not_mem_nil, or_false] at hs
    rcases hs with rfl | rfl
    · exact ⟨fun h => by simp at h, Rot.IsProper.one⟩
    · exact ⟨fun h => by simp at h, Rot.IsProper.one⟩
  goal := Rot.isProper_rotX _
  K0 := one_pos
  L0 := by norm_num
  M0 := by norm_num
  M1 := by norm_num
  close := by norm_num
  tol := by norm_num
  len := rfl
  start := by
    intro X hX
    rw [screw_fk] at hX
    simp only [Option.some.injEq, Prod.mk.injEq, true_and] at hX
    subst hX
    have h1 := rdist_rotX 0 (1 / 40)
    have h2 : vdist ⟨0, 0, 0⟩ ⟨1 / 50, 0, 0⟩ = 1 / 50 := by
      unfold vdist
      rw [Real.sqrt_eq_iff_mul_self_eq (by positivity) (by positivity)]
      norm_num
    unfold dev
    simp only [h2]
    norm_num [abs_of_pos] at h1 ⊢
    linarith
  solver := by
    intro i q X hq hX
    obtain ⟨a, b, rfl, hab⟩ := screw_near hq
    rw [screw_fk] at hX
    simp only [Option.some.injEq, Prod.mk.injEq, true_and] at hX
    subst hX
    have hn : rdist (Rot.rotX a) (Rot.rotX (1 / 40)) ≤ 1 := by
      refine (rdist_rotX _ _).trans ?_
      have h1 := abs_sub a (1 / 40)
      have h2 : |(1 : ℝ) / 40| = 1 / 40 := abs_of_pos (by norm_num)
      have := abs_nonneg b
      norm_num at hab h1 h2 ⊢
      linarith
    obtain ⟨x, hx⟩ := screw_diff a b (1 / 40) (1 / 50) hn
    rw [hx]
    refine ⟨_, rfl, rfl, ⟨_, screw_jac a b, ?_⟩, ?_⟩
    · simp [multiplyJacobian]
      ext <;> simp
    · have e1 : vlen ⟨1 / 50 - b, 0, 0⟩ = |1 / 50 - b| := by simp [vlen, Real.sqrt_sq_eq_abs]
      have e2 : vlen ⟨x, 0, 0⟩ = |x| := by simp [vlen, Real.sqrt_sq_eq_abs]
      rw [e1, e2]
      simp [turning, sliding, screw, turnSum, slideSum, Segment.moving, Joint.moving, Joint.turns, Joint.slides, rd, add_comm]
  reach := by
    intro q q' hq hq'
    obtain ⟨a, b, rfl, h1⟩ := screw_near hq
    obtain ⟨a', b', rfl, h2⟩ := screw_near hq'
    have : reach screw [a, b] [a', b'] = |b| + |b'| := by
      simp [reach, screw, spanSum, Segment.span, Joint.extension, Segment.moving, Joint.moving, rd, vlen]
    rw [this]
    have := abs_nonneg a
    have := abs_nonneg a'
    norm_num at h1 h2 ⊢
    linarith

example : ∃ q X, NrState.cartToJnt ⟨2, 11, 1 / 10 ^ 6, 0⟩ screw (fkOf screw) (fun _ _ t => some (E_NOERROR, [t.rot.x, t.vel.x])) [0, 0]
      ⟨Rot.rotX (1 / 40), ⟨1 / 50, 0, 0⟩⟩ [7, 7] = some ⟨E_NOERROR, 0, q⟩ ∧ fkPos screw q (-1) = some (E_NOERROR, X) ∧
      rdist X.M (Rot.rotX (1 / 40)) ≤ 2 / 10 ^ 6 := by
  obtain ⟨q, X, h1, _, _, h2, _, h3⟩ := C101_converges _ _ _ _ _ _ _ _ screw_setting 11 le_rfl 0 [7, 7] rfl
  refine ⟨q, X, h1, h2, ?_⟩
  have := vdist_nonneg' X.p ⟨1 / 50, 0, 0⟩
  norm_num at h3 ⊢
  linarith

example : ∃ q X, NrJlState.cartToJnt ⟨2, [-1, -1], [1, 1], 11, 1 / 10 ^ 6, 0⟩ screw (fkOf screw) (fun _ _ t => some (E_NOERROR, [t.rot.x, t.vel.x]))
      [0, 0] ⟨Rot.rotX (1 / 40), ⟨1 / 50, 0, 0⟩⟩ [7, 7] = some ⟨E_NOERROR, E_NOERROR, q⟩ ∧ fkPos screw q (-1) = some (E_NOERROR, X) ∧
      Converged X ⟨Rot.rotX (1 / 40), ⟨1 / 50, 0, 0⟩⟩ (1 / 10 ^ 6) := by
  obtain ⟨q, X, h1, _, _, h2, h3, _⟩ := C101_converges_jl _ _ _ _ _ _ _ _ screw_setting [-1, -1] [1, 1] (by
    intro q hq
    obtain ⟨a, b, rfl, hab⟩ := screw_near hq
    have h1 := abs_nonneg a
    have h2 := abs_nonneg b
    have h3 : |a| ≤ 1 := by norm_num at hab; linarith
    have h4 : |b| ≤ 1 := by norm_num at hab; linarith
    rw [abs_le] at h3 h4
    refine ⟨rfl, rfl, fun i hi => ?_⟩
    match i, hi with
    | 0, _ => simpa using h3
    | 1, _ => simpa using h4) 11 le_rfl 0 [7, 7] rfl
  exact ⟨q, X, h1, h2, h3⟩

/-- Instance for `C101_expansion` and `C101_step`. -/
example : ∃ d X', Solves screw [0, 0] d (Frame.diff ⟨Rot.rotX 0, ⟨0, 0, 0⟩⟩ ⟨Rot.rotX (1 / 40), ⟨1 / 50, 0, 0⟩⟩ 1) ∧
      fkPos screw (jsum [0, 0] d) (-1) = some (E_NOERROR, X') ∧
      vdist X'.p ⟨1 / 50, 0, 0⟩ ≤ reach screw [0, 0] (jsum [0, 0] d) * turning screw d ^ 2 / 2 + turning screw d * sliding screw d := by
  have h := screw_setting
  have h0 : NearStart screw [0, 0] (1 * (3 / 2 * (1 / 14) + 4 / 10 ^ 5)) [0, 0] := ⟨rfl, by rw [apart_self]; norm_num⟩
  obtain ⟨d, _, h2, h3, _⟩ := h.solver 0 [0, 0] _ h0 (screw_fk 0 0)
  have hd := h.start _ (screw_fk 0 0)
  have hn : rdist (Rot.rotX 0) (Rot.rotX (1 / 40)) ≤ 1 := by
    have := vdist_nonneg' ⟨0, 0, 0⟩ ⟨1 / 50, 0, 0⟩
    unfold dev at hd
    norm_num at hd ⊢
    linarith
  obtain ⟨X', k1, _, k2, _⟩ := C101_step screw h.wf h.valid [0, 0] d rfl h2 _ _ (screw_fk 0 0) h.goal hn h3
  exact ⟨d, X', h3, k1, k2⟩

end KDL
