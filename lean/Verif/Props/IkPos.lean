import Verif.Model.IkPos
import Verif.Lemmas.ChainKin
import Mathlib.Tactic.NormNum
import Mathlib.Tactic.Linarith

/-!
# C47, C48: Newton-Raphson inverse position solvers
-/

noncomputable section

namespace KDL

/-- The sum of two joint arrays of the same size. -/
def jsum (a b : List ℝ) : List ℝ := List.zipWith (· + ·) a b

theorem jntAdd_eq (a b : List ℝ) (q : List ℝ) : jntAdd a b = some q ↔ a.length = b.length ∧ q = jsum a b := by
  unfold jntAdd jsum
  split_ifs with h
  · simp [h, eq_comm]
  · simp [h]

/-- The pose `f` is within `eps` of the target `p`, in the sense of the code's termination test. -/
def Converged (f p : Frame) (eps : ℝ) : Prop := Twist.equal (Frame.diff f p 1) 0 eps

/-- The forward position solver of the library on the whole chain. -/
def fkOf (c : Chain) : PosSolver := fun _ q => fkPos c q (-1)

/-! ## C48 -/

/-- `q` is the value of `q_out` after `i` updates, none of which started from a converged pose. -/
inductive NrReaches (fk : PosSolver) (ik : VelSolver) (p : Frame) (eps : ℝ) (q0 : List ℝ) : ℕ → List ℝ → Prop
  | start : NrReaches fk ik p eps q0 0 q0
  | step {i : ℕ} {q : List ℝ} {c : Int} {f : Frame} {rc : Int} {dq : List ℝ} :
      NrReaches fk ik p eps q0 i q → fk i q = some (c, f) → 0 ≤ c →
      ik i q (Frame.diff f p 1) = some (rc, dq) → 0 ≤ rc → q.length = dq.length → ¬ Converged f p eps →
      NrReaches fk ik p eps q0 (i + 1) (jsum q dq)

theorem nrLoop_cases {fk : PosSolver} {ik : VelSolver} {p : Frame} {eps : ℝ} {q0 : List ℝ} {err : Int} {r : IkResult} :
    ∀ (n i : ℕ) (q : List ℝ), NrReaches fk ik p eps q0 i q → nrLoop fk ik p eps err n i q = some r →
      (r.ret = -5 ∧ r.error = -5 ∧ NrReaches fk ik p eps q0 (i + n) r.q_out) ∨
      ∃ k q c f, k < i + n ∧ NrReaches fk ik p eps q0 k q ∧ fk k q = some (c, f) ∧
        ((c < 0 ∧ r = ⟨-101, -101, q⟩) ∨
          0 ≤ c ∧ ∃ rc dq, ik k q (Frame.diff f p 1) = some (rc, dq) ∧
            ((rc < 0 ∧ r = ⟨-100, -100, q⟩) ∨
              0 ≤ rc ∧ Converged f p eps ∧ q.length = dq.length ∧
                r = ⟨if 0 < rc then 1 else 0, err, jsum q dq⟩)) := by
  intro n
  induction n with
  | zero =>
    intro i q hq h
    simp only [nrLoop, Option.some.injEq] at h
    subst h
    exact Or.inl ⟨rfl, rfl, hq⟩
  | succ n ih =>
    intro i q hq h
    rw [nrLoop] at h
    rcases hfk : fk i q with _ | ⟨c, f⟩
    · rw [hfk] at h; simp at h
    rw [hfk] at h
    simp only [Option.bind_eq_bind, Option.bind_some] at h
    by_cases hc : c < E_NOERROR
    · rw [if_pos hc] at h
      simp only [Option.some.injEq] at h
      exact Or.inr ⟨i, q, c, f, by omega, hq, hfk, Or.inl ⟨hc, h.symm⟩⟩
    rw [if_neg hc] at h
    replace hc : ¬ c < 0 := hc
    rcases hik : ik i q (Frame.diff f p 1) with _ | ⟨rc, dq⟩
    · rw [hik] at h; simp at h
    rw [hik] at h
    simp only [Option.bind_some] at h
    by_cases hrc : rc < E_NOERROR
    · rw [if_pos hrc] at h
      simp only [Option.some.injEq] at h
      exact Or.inr ⟨i, q, c, f, by omega, hq, hfk, Or.inr ⟨by omega, rc, dq, hik, Or.inl ⟨hrc, h.symm⟩⟩⟩
    rw [if_neg hrc] at h
    replace hrc : ¬ rc < 0 := hrc
    rcases ha : jntAdd q dq with _ | q'
    · rw [ha] at h; simp at h
    rw [ha] at h
    simp only [Option.bind_some] at h
    obtain ⟨hl, hq'⟩ := (jntAdd_eq _ _ _).mp ha
    subst hq'
    by_cases hcv : Twist.equal (Frame.diff f p 1) 0 eps
    · rw [if_pos hcv] at h
      simp only [Option.some.injEq] at h
      exact Or.inr ⟨i, q, c, f, by omega, hq, hfk, Or.inr ⟨by omega, rc, dq, hik,
        Or.inr ⟨by omega, hcv, hl, h.symm⟩⟩⟩
    · rw [if_neg hcv] at h
      have := ih (i + 1) _ (.step hq hfk (by omega) hik (by omega) hl hcv) h
      rwa [show i + 1 + n = i + (n + 1) by omega] at this

/-- After the chain changed, `updateInternalDataStructures` brings the solver into the state of a new one for that chain, and
otherwise keeps its parameters: a call is no longer refused with "not up to date" by the solver itself. -/
theorem C48_update (s : NrState) (c c' : Chain) (maxiter : ℕ) (eps : ℝ) :
    (NrState.new c maxiter eps).update c' = NrState.new c' maxiter eps ∧
    (s.update c').nj = c'.nrOfJoints ∧ (s.update c').maxiter = s.maxiter ∧ (s.update c').eps = s.eps ∧
    (s.update c').error = s.error := ⟨rfl, rfl, rfl, rfl, rfl⟩

/-- Argument checks: the codes of the two guards, with `q_out` untouched, and otherwise the iteration runs. -/
theorem C48_guards (s : NrState) (c : Chain) (fk : PosSolver) (ik : VelSolver) (q_init : List ℝ) (p : Frame)
    (q_out : List ℝ) :
    (s.nj ≠ c.nrOfJoints → s.cartToJnt c fk ik q_init p q_out = some ⟨E_NOT_UP_TO_DATE, E_NOT_UP_TO_DATE, q_out⟩) ∧
    (s.nj = c.nrOfJoints → (q_init.length ≠ s.nj ∨ q_out.length ≠ s.nj) →
      s.cartToJnt c fk ik q_init p q_out = some ⟨E_SIZE_MISMATCH, E_SIZE_MISMATCH, q_out⟩) := by
  constructor
  · intro h; exact if_pos h
  · intro h h'
    unfold NrState.cartToJnt
    rw [if_neg (by simpa using h), if_pos h']

theorem nr_run {s : NrState} {c : Chain} {fk : PosSolver} {ik : VelSolver} {q_init : List ℝ} {p : Frame}
    {q_out : List ℝ} {r : IkResult} (h : s.cartToJnt c fk ik q_init p q_out = some r) :
    (r = ⟨-3, -3, q_out⟩ ∧ s.nj ≠ c.nrOfJoints) ∨ (r = ⟨-4, -4, q_out⟩ ∧ (q_init.length ≠ s.nj ∨ q_out.length ≠ s.nj)) ∨
      nrLoop fk ik p s.eps s.error s.maxiter 0 q_init = some r := by
  unfold NrState.cartToJnt at h
  split_ifs at h with h1 h2
  · left; exact ⟨by simpa [E_NOT_UP_TO_DATE, eq_comm] using h, h1⟩
  · right; left; exact ⟨by simpa [E_SIZE_MISMATCH, eq_comm] using h, h2⟩
  · right; right; exact h

/-- What success means.  A code ≥ 0 is returned only when, after fewer than `maxiter` updates, an iterate `q` was
reached whose forward kinematics is within `eps` of the target; `q_out` is `q` plus *one more* increment of the
velocity solver, and the code is `E_DEGRADED` exactly if that last call of the velocity solver returned a positive code.
Partial: the full claim is `Converged` for the forward kinematics of the returned `q_out`, which `C48_sound_violated`
refutes. -/
theorem C48_converged_partial (s : NrState) (c : Chain) (fk : PosSolver) (ik : VelSolver) (q_init : List ℝ) (p : Frame)
    (q_out : List ℝ) (r : IkResult) (h : s.cartToJnt c fk ik q_init p q_out = some r) (h0 : 0 ≤ r.ret) :
    ∃ k q fc f rc dq, k < s.maxiter ∧ NrReaches fk ik p s.eps q_init k q ∧ fk k q = some (fc, f) ∧ 0 ≤ fc ∧
      Converged f p s.eps ∧ ik k q (Frame.diff f p 1) = some (rc, dq) ∧ 0 ≤ rc ∧ q.length = dq.length ∧
      r.q_out = jsum q dq ∧ (r.ret = E_DEGRADED ∨ r.ret = E_NOERROR) ∧ (r.ret = E_DEGRADED ↔ 0 < rc) := by
  rcases nr_run h with h | h | h
  · rw [h.1] at h0; simp at h0
  · rw [h.1] at h0; simp at h0
  rcases nrLoop_cases s.maxiter 0 q_init .start h with h | ⟨k, q, fc, f, hk, hr, hfk, h⟩
  · rw [h.1] at h0; simp at h0
  rcases h with ⟨_, h⟩ | ⟨hfc, rc, dq, hik, ⟨_, h⟩ | ⟨hrc, hcv, hl, h⟩⟩
  · rw [h] at h0; simp at h0
  · rw [h] at h0; simp at h0
  refine ⟨k, q, fc, f, rc, dq, by omega, hr, hfk, hfc, hcv, hik, hrc, hl, by rw [h], ?_, ?_⟩
  · rw [h]; dsimp only; split_ifs
    · exact Or.inl rfl
    · exact Or.inr rfl
  · rw [h]; dsimp only [E_DEGRADED]; split_ifs with h1
    · simp [h1]
    · simp [h1]

/-- If the inner velocity solver never moves a converged pose out of the tolerance, success is sound: the forward
kinematics of the returned `q_out` is within `eps` of the target. -/
theorem C48_sound_of_stable (s : NrState) (c : Chain) (fk : PosSolver) (ik : VelSolver) (q_init : List ℝ) (p : Frame)
    (q_out : List ℝ) (r : IkResult)
    (hst : ∀ k q fc f rc dq, fk k q = some (fc, f) → 0 ≤ fc → Converged f p s.eps →
      ik k q (Frame.diff f p 1) = some (rc, dq) → 0 ≤ rc →
      ∀ k', ∃ fc' f', fk k' (jsum q dq) = some (fc', f') ∧ Converged f' p s.eps)
    (h : s.cartToJnt c fk ik q_init p q_out = some r) (h0 : 0 ≤ r.ret) :
    ∀ k', ∃ fc' f', fk k' r.q_out = some (fc', f') ∧ Converged f' p s.eps := by
  obtain ⟨k, q, fc, f, rc, dq, _, _, hfk, hfc, hcv, hik, hrc, _, hq, _⟩ := C48_converged_partial s c fk ik q_init p q_out r h h0
  rw [hq]
  exact hst k q fc f rc dq hfk hfc hcv hik hrc

/-- Failure codes.  `E_MAX_ITERATIONS_EXCEEDED` means that `maxiter` updates were made, each from a pose that was not
converged; `E_FKSOLVERPOS_FAILED` and `E_IKSOLVER_FAILED` mean that an inner solver returned a negative code at the
returned `q_out`, which was reached by the iteration; no other negative code comes out of the iteration. -/
theorem C48_failure (s : NrState) (c : Chain) (fk : PosSolver) (ik : VelSolver) (q_init : List ℝ) (p : Frame)
    (q_out : List ℝ) (r : IkResult) (h : s.cartToJnt c fk ik q_init p q_out = some r) :
    (r.ret = E_MAX_ITERATIONS_EXCEEDED → NrReaches fk ik p s.eps q_init s.maxiter r.q_out) ∧
    (r.ret = E_FKSOLVERPOS_FAILED → ∃ k fc f, k < s.maxiter ∧ NrReaches fk ik p s.eps q_init k r.q_out ∧
      fk k r.q_out = some (fc, f) ∧ fc < 0) ∧
    (r.ret = E_IKSOLVER_FAILED → ∃ k fc f rc dq, k < s.maxiter ∧ NrReaches fk ik p s.eps q_init k r.q_out ∧
      fk k r.q_out = some (fc, f) ∧ 0 ≤ fc ∧ ik k r.q_out (Frame.diff f p 1) = some (rc, dq) ∧ rc < 0) ∧
    (r.ret < 0 → r.ret ∈ [E_NOT_UP_TO_DATE, E_SIZE_MISMATCH, E_MAX_ITERATIONS_EXCEEDED, E_FKSOLVERPOS_FAILED,
      E_IKSOLVER_FAILED]) := by
  simp only [E_NOT_UP_TO_DATE, E_SIZE_MISMATCH, E_MAX_ITERATIONS_EXCEEDED, E_FKSOLVERPOS_FAILED, E_IKSOLVER_FAILED]
  rcases nr_run h with h | h | h
  · rw [h.1]; simp
  · rw [h.1]; simp
  rcases nrLoop_cases s.maxiter 0 q_init .start h with h | ⟨k, q, fc, f, hk, hr, hfk, h⟩
  · rw [h.1]; simp only [Nat.zero_add] at h; simpa using h.2.2
  rw [Nat.zero_add] at hk
  rcases h with ⟨hfc, h⟩ | ⟨hfc, rc, dq, hik, ⟨hrc, h⟩ | ⟨hrc, hcv, hl, h⟩⟩
  · subst h
    simp only [Int.reduceNeg, Int.reduceEq, false_imp_iff, forall_const, true_and, List.mem_cons, List.not_mem_nil,
      or_false, or_true, false_or, imp_self, and_true, true_or, implies_true]
    exact ⟨k, fc, f, hk, hr, hfk, hfc⟩
  · subst h
    simp only [Int.reduceNeg, Int.reduceEq, false_imp_iff, forall_const, true_and, List.mem_cons, List.not_mem_nil,
      or_false, or_true, false_or, imp_self, and_true, true_or, implies_true]
    exact ⟨k, fc, f, rc, dq, hk, hr, hfk, hfc, hik, hrc⟩
  · subst h
    dsimp only
    split_ifs <;> simp

/-- Whenever an inner solver fails at a reached iterate, the call returns the corresponding code (errors are
propagated, never swallowed). -/
theorem C48_propagates (s : NrState) (c : Chain) (fk : PosSolver) (ik : VelSolver) (q_init : List ℝ) (p : Frame)
    (q_out : List ℝ) (h1 : s.nj = c.nrOfJoints) (h2 : q_init.length = s.nj) (h3 : q_out.length = s.nj) (k : ℕ)
    (q : List ℝ) (hk : k < s.maxiter) (hr : NrReaches fk ik p s.eps q_init k q) (fc : Int) (f : Frame)
    (hf : fk k q = some (fc, f)) :
    (fc < 0 → s.cartToJnt c fk ik q_init p q_out = some ⟨E_FKSOLVERPOS_FAILED, E_FKSOLVERPOS_FAILED, q⟩) ∧
    (0 ≤ fc → ∀ rc dq, ik k q (Frame.diff f p 1) = some (rc, dq) → rc < 0 →
      s.cartToJnt c fk ik q_init p q_out = some ⟨E_IKSOLVER_FAILED, E_IKSOLVER_FAILED, q⟩) := by
  have key : ∀ k q, NrReaches fk ik p s.eps q_init k q → ∀ n, k ≤ n →
      nrLoop fk ik p s.eps s.error n 0 q_init = nrLoop fk ik p s.eps s.error (n - k) k q := by
    intro k q hr
    induction hr with
    | start => intro n _; rfl
    | @step i q c f rc dq _ hf hc hik hrc hl hcv ih =>
      intro n hn
      rw [ih n (by omega), show n - i = n - (i + 1) + 1 by omega]
      conv_lhs => rw [nrLoop]
      simp only [hf, Option.bind_eq_bind, Option.bind_some]
      rw [if_neg (by simpa [E_NOERROR] using hc)]
      simp only [hik, Option.bind_some]
      rw [if_neg (by simpa [E_NOERROR] using hrc), (jntAdd_eq _ _ _).mpr ⟨hl, rfl⟩]
      simp only [Option.bind_some]
      exact if_neg hcv
  have hrun : s.cartToJnt c fk ik q_init p q_out = nrLoop fk ik p s.eps s.error (s.maxiter - k) k q := by
    unfold NrState.cartToJnt
    rw [if_neg (by simpa using h1), if_neg (by simp [h2, h3])]
    exact key k q hr _ hk.le
  rw [hrun, show s.maxiter - k = s.maxiter - (k + 1) + 1 by omega, nrLoop, hf]
  simp only [Option.bind_eq_bind, Option.bind_some]
  constructor
  · intro h; exact if_pos h
  · intro h rc dq hik hrc
    rw [if_neg (by simpa [E_NOERROR] using h), hik]
    simp only [Option.bind_some]
    exact if_pos hrc

/-- `getError()` after a call: equal to the returned code if that code is negative.  On success the member is not
written and keeps its value from before the call (`C48_getError_violated`).
Partial: the full claim is `r.error = r.ret` in all cases. -/
theorem C48_getError_partial (s : NrState) (c : Chain) (fk : PosSolver) (ik : VelSolver) (q_init : List ℝ) (p : Frame)
    (q_out : List ℝ) (r : IkResult) (h : s.cartToJnt c fk ik q_init p q_out = some r) :
    (r.ret < 0 → r.error = r.ret) ∧ (0 ≤ r.ret → r.error = s.error) := by
  rcases nr_run h with h | h | h
  · rw [h.1]; simp
  · rw [h.1]; simp
  rcases nrLoop_cases s.maxiter 0 q_init .start h with h | ⟨k, q, fc, f, hk, hr, hfk, h⟩
  · rw [h.1, h.2.1]; simp
  rcases h with ⟨_, h⟩ | ⟨hfc, rc, dq, hik, ⟨_, h⟩ | ⟨hrc, hcv, hl, h⟩⟩
  · rw [h]; simp
  · rw [h]; simp
  · subst h; dsimp only; split_ifs <;> simp

/-- If the inner solvers have defined behaviour on arrays of the chain's size and return arrays of that size, the call
has defined behaviour, and `q_out` keeps that size. -/
theorem C48_total (s : NrState) (c : Chain) (fk : PosSolver) (ik : VelSolver) (q_init : List ℝ) (p : Frame)
    (q_out : List ℝ) (hfk : ∀ k q, q.length = s.nj → ∃ fc f, fk k q = some (fc, f))
    (hik : ∀ k q t, q.length = s.nj → ∃ rc dq, ik k q t = some (rc, dq) ∧ dq.length = s.nj) :
    ∃ r, s.cartToJnt c fk ik q_init p q_out = some r ∧ r.q_out.length = q_out.length := by
  unfold NrState.cartToJnt
  split_ifs with h1 h2
  all_goals first | exact ⟨_, rfl, rfl⟩ | skip
  all_goals
    push Not at h2
    have key : ∀ n i q, q.length = s.nj → ∃ r, nrLoop fk ik p s.eps s.error n i q = some r ∧ r.q_out.length = s.nj := by
      intro n
      induction n with
      | zero => intro i q hq; exact ⟨_, rfl, hq⟩
      | succ n ih =>
        intro i q hq
        obtain ⟨fc, f, hf⟩ := hfk i q hq
        obtain ⟨rc, dq, hi, hl⟩ := hik i q (Frame.diff f p 1) hq
        rw [nrLoop]
        have hl' : (jsum q dq).length = s.nj := by simp [jsum, hq, hl]
        simp only [hf, Option.bind_eq_bind, Option.bind_some]
        by_cases g1 : fc < E_NOERROR
        · rw [if_pos g1]; exact ⟨_, rfl, hq⟩
        rw [if_neg g1]
        simp only [hi, Option.bind_some]
        by_cases g2 : rc < E_NOERROR
        · rw [if_pos g2]; exact ⟨_, rfl, hq⟩
        rw [if_neg g2, (jntAdd_eq q dq _).mpr ⟨by omega, rfl⟩]
        simp only [Option.bind_some]
        by_cases g3 : Twist.equal (Frame.diff f p 1) 0 s.eps
        · rw [if_pos g3]; exact ⟨_, rfl, hl'⟩
        · rw [if_neg g3]; exact ih _ _ hl'
    obtain ⟨r, hr, hl⟩ := key s.maxiter 0 q_init h2.1
    exact ⟨r, hr, by omega⟩

/-- One prismatic joint along the unit vector `(-5/13, 12/13, 0)`. -/
def slide : Segment := ⟨"s", ⟨"j", .TransAxis, 1, 0, 0, 0, 0, ⟨-5/13, 12/13, 0⟩, 0⟩, RBI.zero, 1⟩
def slideChain : Chain := ⟨1, 1, [slide]⟩

/-- The least-squares velocity solver of `slideChain`: its Jacobian is the constant column `(a, 0)` with `|a| = 1`, so the
pseudo-inverse solution is `a · v`. -/
def slideIk : VelSolver := fun _ q t => if q.length = 1 then some (0, [-5/13 * t.vel.x + 12/13 * t.vel.y]) else none

theorem slide_pose (x : ℝ) : slide.pose x = ⟨1, ⟨-5/13 * x, 12/13 * x, 0⟩⟩ := by
  simp only [Segment.pose, Joint.pose, slide, Frame.ofVec]
  ext <;> simp <;> ring

theorem slide_fk (k : ℕ) (x : ℝ) : fkOf slideChain k [x] = some (0, ⟨1, ⟨-5/13 * x, 12/13 * x, 0⟩⟩) := by
  have hm : slide.moving = true := rfl
  simp [fkOf, fkPos, slideChain, segmentNr, fkLoop, hm, slide_pose, E_NOERROR]

theorem slide_jac (x : ℝ) : jntToJac slideChain [false] [x] [0] (-1) = some (0, [⟨⟨-5/13, 12/13, 0⟩, 0⟩]) := by
  have hm : slide.moving = true := rfl
  have ht : slide.twist x 1 = ⟨⟨-5/13, 12/13, 0⟩, 0⟩ := by
    simp only [Segment.twist, Joint.twist, slide]
    ext <;> simp
  simp [jntToJac, slideChain, segmentNr, jacLoop, hm, slide_pose, E_NOERROR, ht, Jac.setToZero, Jac.setColumn, Jac.changeRefPoint]
  ext <;> simp

theorem rot_diff_one : Rot.diff 1 1 1 = 0 := by
  have h : ((1 : Rot).inv * 1).getRot = 0 := by
    have : ((1 : Rot).inv * 1) = 1 := by ext <;> simp
    rw [this]
    unfold Rot.getRot Rot.getRotAngle
    have he := epsilon_pos
    dsimp only
    rw [if_pos (by simp [he]), if_pos (by simp; norm_num [he])]
    simp
  unfold Rot.diff
  rw [h]
  ext <;> simp

theorem converged_iff (v p : Vec) (eps : ℝ) (he : 0 < eps) :
    Converged ⟨1, v⟩ ⟨1, p⟩ eps ↔ |p.x - v.x| < eps ∧ |p.y - v.y| < eps ∧ |p.z - v.z| < eps := by
  simp only [Converged, Twist.equal, Frame.diff, rot_diff_one, Vec.equal, realEqual, Vec.diff]
  simp [abs_lt, he]
  constructor <;> rintro ⟨h1, h2, h3⟩ <;> refine ⟨⟨?_, ?_⟩, ⟨?_, ?_⟩, ⟨?_, ?_⟩⟩ <;> linarith [h1.1, h1.2, h2.1, h2.2, h3.1, h3.2]

/-- Square of the Euclidean norm of a twist as a vector of ℝ⁶. -/
def Twist.sq (t : Twist) : ℝ := t.vel.dot t.vel + t.rot.dot t.rot

/-- Counterexample to soundness with the library's forward solver and an inner solver that solves the velocity problem
exactly in the least-squares sense (so it is the pseudo-inverse): for every tolerance and every `maxiter ≥ 1` there is a
target for which `E_NOERROR` is returned although the forward kinematics of `q_out` is not within `eps`.  The start was
within `eps`; the additional update after the test minimises the Euclidean error and pushes one coordinate out. -/
theorem C48_sound_violated (eps : ℝ) (he : 0 < eps) (maxiter : ℕ) (hm : 1 ≤ maxiter) :
    (∀ x, ∃ J, jntToJac slideChain [false] [x] [0] (-1) = some (0, [J]) ∧
      ∀ k t, ∃ d, slideIk k [x] t = some (0, [d]) ∧ ∀ δ : ℝ, (d • J - t).sq ≤ (δ • J - t).sq) ∧
    ∃ p r f, (NrState.new slideChain maxiter eps).cartToJnt slideChain (fkOf slideChain) slideIk [0] p [0] = some r ∧
      r.ret = E_NOERROR ∧ (∀ k, fkOf slideChain k r.q_out = some (0, f)) ∧ ¬ Converged f p eps := by
  constructor
  · intro x
    refine ⟨_, slide_jac x, fun k t => ⟨_, rfl, fun δ => ?_⟩⟩
    simp only [Twist.sq, Vec.dot]
    simp
    nlinarith [sq_nonneg (δ - (-5/13 * t.vel.x + 12/13 * t.vel.y))]
  · obtain ⟨n, rfl⟩ : ∃ n, maxiter = n + 1 := ⟨maxiter - 1, by omega⟩
    have hc : Converged ⟨1, ⟨-5/13 * 0, 12/13 * 0, 0⟩⟩ ⟨1, ⟨9/10 * eps, 9/10 * eps, 0⟩⟩ eps := by
      rw [converged_iff _ _ _ he]
      norm_num [abs_of_pos he]
      constructor <;> linarith
    have hd : (Frame.diff ⟨1, ⟨-5/13 * 0, 12/13 * 0, 0⟩⟩ ⟨1, ⟨9/10 * eps, 9/10 * eps, 0⟩⟩ 1).vel =
        ⟨9/10 * eps, 9/10 * eps, 0⟩ := by
      simp only [Frame.diff, Vec.diff]; ext <;> simp
    refine ⟨⟨1, ⟨9/10 * eps, 9/10 * eps, 0⟩⟩, ⟨0, 0, [0 + (-5/13 * (9/10 * eps) + 12/13 * (9/10 * eps))]⟩, _, ?_, rfl,
      fun k => slide_fk k _, ?_⟩
    · unfold NrState.cartToJnt
      rw [if_neg (by simp [NrState.new]), if_neg (by simp [NrState.new, slideChain])]
      show nrLoop _ _ _ eps 0 (n + 1) 0 [0] = _
      rw [nrLoop, slide_fk]
      simp only [Option.bind_eq_bind, Option.bind_some]
      rw [if_neg (by simp [E_NOERROR])]
      simp only [slideIk, List.length_singleton, if_true, Option.bind_some]
      rw [if_neg (by simp [E_NOERROR])]
      simp only [jntAdd, List.length_singleton, if_true, Option.bind_some]
      refine (if_pos hc).trans ?_
      rw [hd]
      rfl
    · rw [converged_iff _ _ _ he]
      rintro ⟨h, _⟩
      rw [abs_lt] at h
      dsimp only at h
      nlinarith [h.2]

/-- `getError()` can differ from the code just returned: a rejected call with a wrong array size followed by a successful
call leaves `E_SIZE_MISMATCH` in `getError()`. -/
theorem C48_getError_violated (eps : ℝ) (he : 0 < eps) :
    ∃ r r', (NrState.new slideChain 100 eps).cartToJnt slideChain (fkOf slideChain) slideIk [] 1 [0] = some r ∧
      r.ret = E_SIZE_MISMATCH ∧ ({ NrState.new slideChain 100 eps with error := r.error }).cartToJnt slideChain
        (fkOf slideChain) slideIk [0] 1 [0] = some r' ∧ r'.ret = E_NOERROR ∧ r'.error = E_SIZE_MISMATCH := by
  refine ⟨⟨-4, -4, [0]⟩, ⟨0, -4, [0 + (-5/13 * 0 + 12/13 * 0)]⟩, ?_, rfl, ?_, rfl, rfl⟩
  · unfold NrState.cartToJnt
    rw [if_neg (by simp [NrState.new]), if_pos (by simp [NrState.new, slideChain])]
    rfl
  · have hc : Converged ⟨1, ⟨-5/13 * 0, 12/13 * 0, 0⟩⟩ 1 eps := by
      refine (converged_iff _ 0 _ he).mpr ?_
      simp [he]
    have hd : (Frame.diff ⟨1, ⟨-5/13 * 0, 12/13 * 0, 0⟩⟩ 1 1).vel = 0 := by
      simp only [Frame.diff, Vec.diff]; ext <;> simp
    unfold NrState.cartToJnt
    rw [if_neg (by simp [NrState.new]), if_neg (by simp [NrState.new, slideChain])]
    show nrLoop _ _ _ eps (-4) (99 + 1) 0 [0] = _
    rw [nrLoop, slide_fk]
    simp only [Option.bind_eq_bind, Option.bind_some]
    rw [if_neg (by simp [E_NOERROR])]
    simp only [slideIk, List.length_singleton, if_true, Option.bind_some]
    rw [if_neg (by simp [E_NOERROR])]
    simp only [jntAdd, List.length_singleton, if_true, Option.bind_some]
    refine (if_pos hc).trans ?_
    rw [hd]
    rfl

/-- The hypotheses of the positive theorems are met by a run that really iterates: one update from 0 towards a target on
the rail reaches it. -/
example : NrReaches (fkOf slideChain) slideIk ⟨1, ⟨-5, 12, 0⟩⟩ 1 [0] 1 (jsum [0] [13]) := by
  have hd : (Frame.diff ⟨1, ⟨-5/13 * 0, 12/13 * 0, 0⟩⟩ ⟨1, ⟨-5, 12, 0⟩⟩ 1).vel = ⟨-5, 12, 0⟩ := by
    simp only [Frame.diff, Vec.diff]; ext <;> simp
  refine .step .start (slide_fk 0 0) le_rfl (rc := 0) ?_ le_rfl rfl ?_
  · simp only [slideIk, hd, List.length_singleton, if_true]; norm_num
  · rw [converged_iff _ _ _ one_pos]; norm_num

/-! ## C47 -/

/-- The limits as intervals: entry `i` of `q` lies in `[q_min i, q_max i]`. -/
def WithinLimits (q lo hi : List ℝ) : Prop :=
  q.length = lo.length ∧ q.length = hi.length ∧
    ∀ i, i < q.length → lo.getD i 0 ≤ q.getD i 0 ∧ q.getD i 0 ≤ hi.getD i 0

/-- Projection of an array onto the box: entry `i` is the entry of `q` if that lies within the limits, and otherwise the
nearest limit. -/
def IsClamp (q lo hi q' : List ℝ) : Prop :=
  q'.length = q.length ∧ ∀ i, i < q.length →
    q'.getD i 0 = min (max (q.getD i 0) (lo.getD i 0)) (hi.getD i 0)

/-- `q` is the value of `q_out` after `i` updates of the joint limited solver, none of which started from a converged
pose. -/
inductive JlReaches (fk : PosSolver) (ik : VelSolver) (p : Frame) (eps : ℝ) (lo hi q0 : List ℝ) : ℕ → List ℝ → Prop
  | start : JlReaches fk ik p eps lo hi q0 0 q0
  | step {i : ℕ} {q : List ℝ} {c : Int} {f : Frame} {rc : Int} {dq q' : List ℝ} :
      JlReaches fk ik p eps lo hi q0 i q → fk i q = some (c, f) → 0 ≤ c → ¬ Converged f p eps →
      ik i q (Frame.diff f p 1) = some (rc, dq) → 0 ≤ rc → q.length = dq.length → IsClamp (jsum q dq) lo hi q' →
      JlReaches fk ik p eps lo hi q0 (i + 1) q'

theorem isClamp_clamp (q lo hi : List ℝ) (h1 : q.length = lo.length) (h2 : q.length = hi.length) :
    IsClamp q lo hi (NrJlState.clampHigh (NrJlState.clampLow q lo) hi) := by
  refine ⟨by simp [NrJlState.clampHigh, NrJlState.clampLow]; omega, fun i hi' => ?_⟩
  have e1 : lo[i]? = some (lo.getD i 0) := by simp [List.getD, List.getElem?_eq_getElem (h1 ▸ hi')]
  have e2 : hi[i]? = some (hi.getD i 0) := by simp [List.getD, List.getElem?_eq_getElem (h2 ▸ hi')]
  have e3 : q[i]? = some (q.getD i 0) := by simp [List.getD, List.getElem?_eq_getElem hi']
  generalize lo.getD i 0 = l at *
  generalize hi.getD i 0 = h at *
  generalize q.getD i 0 = x at *
  simp only [List.getD, NrJlState.clampHigh, NrJlState.clampLow, List.getElem?_zipWith, e1, e2, e3]
  simp only [Option.getD_some]
  have : (if x < l then l else x) = max x l := by
    rw [max_def]; split_ifs <;> linarith
  rw [this, min_def]
  split_ifs <;> linarith

theorem IsClamp.unique {q lo hi a b : List ℝ} (ha : IsClamp q lo hi a) (hb : IsClamp q lo hi b) : a = b := by
  refine List.ext_getElem (ha.1.trans hb.1.symm) fun i h1 h2 => ?_
  have := (ha.2 i (by rw [← ha.1]; exact h1)).trans (hb.2 i (by rw [← ha.1]; exact h1)).symm
  simpa [List.getD, List.getElem?_eq_getElem h1, List.getElem?_eq_getElem h2] using this

theorem jl_step {fk : PosSolver} {ik : VelSolver} {p : Frame} {eps : ℝ} {lo hi : List ℝ} {n i : ℕ} {q : List ℝ}
    {r : IkResult} (h : NrJlState.loop fk ik p eps lo hi (n + 1) i q = some r) :
    ∃ c f, fk i q = some (c, f) ∧ ((c < 0 ∧ r = ⟨-101, -101, q⟩) ∨ 0 ≤ c ∧
      ((Converged f p eps ∧ r = ⟨0, 0, q⟩) ∨ (¬ Converged f p eps ∧
        ∃ rc dq, ik i q (Frame.diff f p 1) = some (rc, dq) ∧ ((rc < 0 ∧ r = ⟨-100, -100, q⟩) ∨
          (0 ≤ rc ∧ q.length = dq.length ∧ NrJlState.loop fk ik p eps lo hi n (i + 1)
            (NrJlState.clampHigh (NrJlState.clampLow (jsum q dq) lo) hi) = some r))))) := by
  rw [NrJlState.loop] at h
  rcases hfk : fk i q with _ | ⟨c, f⟩
  · rw [hfk] at h; simp at h
  rw [hfk] at h
  simp only [Option.bind_eq_bind, Option.bind_some] at h
  refine ⟨c, f, rfl, ?_⟩
  by_cases hc : c < 0
  · rw [if_pos hc] at h
    exact Or.inl ⟨hc, (Option.some.inj h).symm⟩
  rw [if_neg hc] at h
  refine Or.inr ⟨by omega, ?_⟩
  by_cases hcv : Twist.equal (Frame.diff f p 1) 0 eps
  · rw [if_pos hcv] at h
    exact Or.inl ⟨hcv, (Option.some.inj h).symm⟩
  rw [if_neg hcv] at h
  refine Or.inr ⟨hcv, ?_⟩
  rcases hik : ik i q (Frame.diff f p 1) with _ | ⟨rc, dq⟩
  · rw [hik] at h; simp at h
  rw [hik] at h
  simp only [Option.bind_some] at h
  refine ⟨rc, dq, rfl, ?_⟩
  by_cases hrc : rc < 0
  · rw [if_pos hrc] at h
    exact Or.inl ⟨hrc, (Option.some.inj h).symm⟩
  rw [if_neg hrc] at h
  rcases ha : jntAdd q dq with _ | q'
  · rw [ha] at h; simp at h
  rw [ha] at h
  simp only [Option.bind_some] at h
  obtain ⟨hl, rfl⟩ := (jntAdd_eq _ _ _).mp ha
  exact Or.inr ⟨by omega, hl, h⟩

theorem jlLoop_cases {fk : PosSolver} {ik : VelSolver} {p : Frame} {eps : ℝ} {lo hi q0 : List ℝ} {r : IkResult}
    (hlo : q0.length = lo.length) (hhi : q0.length = hi.length) :
    ∀ (n i : ℕ) (q : List ℝ), q.length = q0.length → JlReaches fk ik p eps lo hi q0 i q →
      NrJlState.loop fk ik p eps lo hi n i q = some r → r.q_out.length = q0.length ∧
      ((r.ret = -5 ∧ r.error = -5 ∧ JlReaches fk ik p eps lo hi q0 (i + n) r.q_out) ∨
      ∃ k c f, k < i + n ∧ JlReaches fk ik p eps lo hi q0 k r.q_out ∧ fk k r.q_out = some (c, f) ∧
        ((c < 0 ∧ r.ret = -101 ∧ r.error = -101) ∨
          0 ≤ c ∧ ((Converged f p eps ∧ r.ret = 0 ∧ r.error = 0) ∨ ¬ Converged f p eps ∧
            ∃ rc dq, ik k r.q_out (Frame.diff f p 1) = some (rc, dq) ∧ rc < 0 ∧ r.ret = -100 ∧ r.error = -100))) := by
  intro n
  induction n with
  | zero =>
    intro i q hl hq h
    rw [NrJlState.loop, Option.some.injEq] at h
    subst h
    exact ⟨hl, Or.inl ⟨rfl, rfl, hq⟩⟩
  | succ n ih =>
    intro i q hl hq h
    obtain ⟨c, f, hfk, ⟨hc, rfl⟩ | ⟨hc, ⟨hcv, rfl⟩ | ⟨hcv, rc, dq, hik, ⟨hrc, rfl⟩ | ⟨hrc, hld, h⟩⟩⟩⟩ := jl_step h
    · exact ⟨hl, Or.inr ⟨i, c, f, by omega, hq, hfk, Or.inl ⟨hc, rfl, rfl⟩⟩⟩
    · exact ⟨hl, Or.inr ⟨i, c, f, by omega, hq, hfk, Or.inr ⟨hc, Or.inl ⟨hcv, rfl, rfl⟩⟩⟩⟩
    · exact ⟨hl, Or.inr ⟨i, c, f, by omega, hq, hfk, Or.inr ⟨hc, Or.inr ⟨hcv, rc, dq, hik, hrc, rfl, rfl⟩⟩⟩⟩
    · have hls : (jsum q dq).length = q0.length := by simp [jsum]; omega
      have hcl := isClamp_clamp (jsum q dq) lo hi (by omega) (by omega)
      have := ih (i + 1) _ (hcl.1.trans hls) (.step hq hfk hc hcv hik hrc hld hcl) h
      rwa [show i + 1 + n = i + (n + 1) by omega] at this

theorem jl_run {s : NrJlState} {c : Chain} {fk : PosSolver} {ik : VelSolver} {q_init : List ℝ} {p : Frame}
    {q_out : List ℝ} {r : IkResult} (h : s.cartToJnt c fk ik q_init p q_out = some r) :
    (r = ⟨-3, -3, q_out⟩ ∧ s.nj ≠ c.nrOfJoints) ∨ (r = ⟨-4, -4, q_out⟩ ∧ s.nj = c.nrOfJoints ∧ ¬ (s.nj = q_init.length ∧
      s.nj = q_out.length ∧ s.nj = s.q_min.length ∧ s.nj = s.q_max.length)) ∨
      (s.nj = c.nrOfJoints ∧ s.nj = q_init.length ∧ s.nj = q_out.length ∧ s.nj = s.q_min.length ∧ s.nj = s.q_max.length ∧
      NrJlState.loop fk ik p s.eps s.q_min s.q_max s.maxiter 0 q_init = some r) := by
  unfold NrJlState.cartToJnt at h
  split_ifs at h with h1 h2
  · left; exact ⟨by simpa [E_NOT_UP_TO_DATE, eq_comm] using h, h1⟩
  · right; left; exact ⟨by simpa [E_SIZE_MISMATCH, eq_comm] using h, by tauto, by tauto⟩
  · right; right; push Not at h2; exact ⟨by tauto, h2.1, h2.2.1, h2.2.2.1, h2.2.2.2, h⟩

/-- Success is sound: `E_NOERROR` is returned only if the forward solver, called on the returned `q_out`, did not fail and
gave a pose within `eps` of the target; the number of updates is less than `maxiter`. -/
theorem C47_success (s : NrJlState) (c : Chain) (fk : PosSolver) (ik : VelSolver) (q_init : List ℝ) (p : Frame)
    (q_out : List ℝ) (r : IkResult) (h : s.cartToJnt c fk ik q_init p q_out = some r) (h0 : 0 ≤ r.ret) :
    r.ret = E_NOERROR ∧ ∃ k fc f, k < s.maxiter ∧ JlReaches fk ik p s.eps s.q_min s.q_max q_init k r.q_out ∧
      fk k r.q_out = some (fc, f) ∧ 0 ≤ fc ∧ Converged f p s.eps := by
  rcases jl_run h with h | h | ⟨h0', h1, h2, h3, h4, h⟩
  · rw [h.1] at h0; simp at h0
  · rw [h.1] at h0; simp at h0
  rcases (jlLoop_cases (by omega) (by omega) s.maxiter 0 q_init rfl .start h).2 with
    h | ⟨k, fc, f, hk, hr, hfk, ⟨_, h, _⟩ | ⟨hc, ⟨hcv, h, _⟩ | ⟨_, _, _, _, _, h, _⟩⟩⟩
  · rw [h.1] at h0; simp at h0
  · rw [h] at h0; simp at h0
  · exact ⟨h, k, fc, f, by omega, hr, hfk, hc, hcv⟩
  · rw [h] at h0; simp at h0

/-- With the forward solver of the library: success means that the pose of the chain at the returned joint values is
within `eps` of the target. -/
theorem C47_success_chain (s : NrJlState) (c : Chain) (ik : VelSolver) (q_init : List ℝ) (p : Frame) (q_out : List ℝ)
    (r : IkResult) (h : s.cartToJnt c (fkOf c) ik q_init p q_out = some r) (h0 : 0 ≤ r.ret) :
    ∃ f, fkPos c r.q_out (-1) = some (E_NOERROR, f) ∧ Converged f p s.eps := by
  obtain ⟨_, k, fc, f, _, _, hfk, hc, hcv⟩ := C47_success s c (fkOf c) ik q_init p q_out r h h0
  have : fc = 0 := by
    unfold fkOf fkPos at hfk
    dsimp only at hfk
    split_ifs at hfk
    · simp only [E_SIZE_MISMATCH, Option.some.injEq, Prod.mk.injEq] at hfk; omega
    · simp only [E_OUT_OF_RANGE, Option.some.injEq, Prod.mk.injEq] at hfk; omega
    · rcases hl : fkLoop r.q_out (c.segments.take (segmentNr c (-1))) 0 1 with _ | P
      · rw [hl] at hfk; simp at hfk
      · rw [hl] at hfk; simp [E_NOERROR] at hfk; exact hfk.1.symm
  subst this
  exact ⟨f, hfk, hcv⟩

/-- Every array reached by at least one update respects the upper limits, and the lower limits wherever these do not
exceed the upper ones (where they do, the joint is put on `q_max`). -/
theorem C47_limits (fk : PosSolver) (ik : VelSolver) (p : Frame) (eps : ℝ) (lo hi q0 : List ℝ) (k : ℕ) (q : List ℝ)
    (h : JlReaches fk ik p eps lo hi q0 k q) (hk : 1 ≤ k) :
    ∀ i, i < q.length → q.getD i 0 ≤ hi.getD i 0 ∧ (lo.getD i 0 ≤ hi.getD i 0 → lo.getD i 0 ≤ q.getD i 0) ∧
      (hi.getD i 0 < lo.getD i 0 → q.getD i 0 = hi.getD i 0) := by
  cases h with
  | start => omega
  | step _ _ _ _ _ _ _ hcl =>
    intro i hi'
    rw [hcl.2 i (by rw [← hcl.1]; exact hi')]
    refine ⟨min_le_right _ _, fun hle => le_min (le_max_right _ _) hle, fun hlt => min_eq_right ?_⟩
    exact hlt.le.trans (le_max_right _ _)

/-- Whatever code is returned by the iteration: the returned array is the initial guess (no update was made) or it lies
within the limits, provided `q_min ≤ q_max`. -/
theorem C47_within (s : NrJlState) (c : Chain) (fk : PosSolver) (ik : VelSolver) (q_init : List ℝ) (p : Frame)
    (q_out : List ℝ) (r : IkResult) (hlim : ∀ i, s.q_min.getD i 0 ≤ s.q_max.getD i 0)
    (h : s.cartToJnt c fk ik q_init p q_out = some r) (h3 : r.ret ≠ E_NOT_UP_TO_DATE) (h4 : r.ret ≠ E_SIZE_MISMATCH) :
    r.q_out = q_init ∨ WithinLimits r.q_out s.q_min s.q_max := by
  rcases jl_run h with h | h | ⟨_, e1, e2, e3, e4, h⟩
  · rw [h.1] at h3; exact absurd rfl h3
  · rw [h.1] at h4; exact absurd rfl h4
  obtain ⟨hl, h⟩ := jlLoop_cases (by omega) (by omega) s.maxiter 0 q_init rfl .start h
  have key : ∃ k, JlReaches fk ik p s.eps s.q_min s.q_max q_init k r.q_out := by
    rcases h with h | ⟨k, _, _, _, hr, _⟩
    · exact ⟨_, h.2.2⟩
    · exact ⟨k, hr⟩
  obtain ⟨k, hr⟩ := key
  rcases Nat.eq_zero_or_pos k with rfl | hk
  · cases hr; exact Or.inl rfl
  · right
    refine ⟨by omega, by omega, fun i hi => ?_⟩
    have := C47_limits fk ik p s.eps _ _ _ k _ hr hk i hi
    exact ⟨this.2.1 (hlim i), this.1⟩

/-- Failure codes, and `getError()` always equals the returned code. -/
theorem C47_failure (s : NrJlState) (c : Chain) (fk : PosSolver) (ik : VelSolver) (q_init : List ℝ) (p : Frame)
    (q_out : List ℝ) (r : IkResult) (h : s.cartToJnt c fk ik q_init p q_out = some r) :
    r.error = r.ret ∧
    (r.ret = E_MAX_ITERATIONS_EXCEEDED → JlReaches fk ik p s.eps s.q_min s.q_max q_init s.maxiter r.q_out) ∧
    (r.ret = E_FKSOLVERPOS_FAILED → ∃ k fc f, k < s.maxiter ∧
      JlReaches fk ik p s.eps s.q_min s.q_max q_init k r.q_out ∧ fk k r.q_out = some (fc, f) ∧ fc < 0) ∧
    (r.ret = E_IKSOLVER_FAILED → ∃ k fc f rc dq, k < s.maxiter ∧
      JlReaches fk ik p s.eps s.q_min s.q_max q_init k r.q_out ∧ fk k r.q_out = some (fc, f) ∧
      ik k r.q_out (Frame.diff f p 1) = some (rc, dq) ∧ rc < 0) ∧
    (r.ret = E_NOT_UP_TO_DATE ↔ s.nj ≠ c.nrOfJoints) ∧
    (r.ret = E_SIZE_MISMATCH ↔ s.nj = c.nrOfJoints ∧ ¬ (s.nj = q_init.length ∧ s.nj = q_out.length ∧
      s.nj = s.q_min.length ∧ s.nj = s.q_max.length)) := by
  simp only [E_NOT_UP_TO_DATE, E_SIZE_MISMATCH, E_MAX_ITERATIONS_EXCEEDED, E_FKSOLVERPOS_FAILED, E_IKSOLVER_FAILED]
  rcases jl_run h with h | h | ⟨e0, e1, e2, e3, e4, h⟩
  · rw [h.1]; simp [h.2]
  · have h2 := h.2
    rw [h.1]
    exact ⟨rfl, by simp, by simp, by simp, by simp [h2.1], by simpa using h2⟩
  have hno : ¬ (s.nj ≠ c.nrOfJoints) := by simpa using e0
  have hno' : ¬ (s.nj = c.nrOfJoints ∧ ¬ (s.nj = q_init.length ∧ s.nj = q_out.length ∧
      s.nj = s.q_min.length ∧ s.nj = s.q_max.length)) := by tauto
  rcases (jlLoop_cases (by omega) (by omega) s.maxiter 0 q_init rfl .start h).2 with
    h | ⟨k, fc, f, hk, hr, hfk, ⟨hc, h, h'⟩ | ⟨hc, ⟨hcv, h, h'⟩ | ⟨_, rc, dq, hik, hrc, h, h'⟩⟩⟩
  · rw [h.1, h.2.1]
    simp only [Nat.zero_add] at h
    exact ⟨rfl, fun _ => h.2.2, by simp, by simp, by simpa using hno, by simpa using hno'⟩
  · rw [Nat.zero_add] at hk
    rw [h, h']
    exact ⟨rfl, by simp, fun _ => ⟨k, fc, f, hk, hr, hfk, hc⟩, by simp, by simpa using hno, by simpa using hno'⟩
  · rw [h, h']
    exact ⟨rfl, by simp, by simp, by simp, by simpa using hno, by simpa using hno'⟩
  · rw [Nat.zero_add] at hk
    rw [h, h']
    exact ⟨rfl, by simp, by simp, fun _ => ⟨k, fc, f, rc, dq, hk, hr, hfk, hik, hrc⟩, by simpa using hno,
      by simpa using hno'⟩

theorem dblMin_pos : 0 < dblMin := by unfold dblMin; positivity
theorem one_lt_dblMax : (1 : ℝ) < dblMax := by
  unfold dblMax
  have h4 : ((2 : ℝ) ^ 52)⁻¹ ≤ 1 := by rw [inv_le_one₀ (by positivity)]; exact one_le_pow₀ (by norm_num)
  have h5 : (2 : ℝ) ≤ 2 ^ 1023 := by
    rw [pow_succ]
    have : (1 : ℝ) ≤ 2 ^ 1022 := one_le_pow₀ (by norm_num)
    generalize (2 : ℝ) ^ 1022 = B at *
    linarith
  generalize (2 : ℝ) ^ 1023 = B at *
  generalize ((2 : ℝ) ^ 52)⁻¹ = x at *
  nlinarith

theorem dblMin_lt_dblMax : dblMin < dblMax := by
  have h1 : dblMin ≤ 1 := by
    unfold dblMin
    rw [inv_le_one₀ (by positivity)]
    exact one_le_pow₀ (by norm_num)
  linarith [one_lt_dblMax]

/-- A prismatic joint along X. -/
def xSlide : Segment := ⟨"s", ⟨"j", .TransX, 1, 0, 0, 0, 0, 0, 0⟩, RBI.zero, 1⟩
def xChain : Chain := ⟨1, 1, [xSlide]⟩
/-- Its exact velocity solver. -/
def xIk : VelSolver := fun _ q t => if q.length = 1 then some (0, [t.vel.x]) else none

theorem x_fk (k : ℕ) (x : ℝ) : fkOf xChain k [x] = some (0, ⟨1, ⟨x, 0, 0⟩⟩) := by
  have hm : xSlide.moving = true := rfl
  have hp : xSlide.pose x = ⟨1, ⟨x, 0, 0⟩⟩ := by
    simp only [Segment.pose, Joint.pose, xSlide, Frame.ofVec]
    ext <;> simp
  simp [fkOf, fkPos, xChain, segmentNr, fkLoop, hm, hp, E_NOERROR]

/-- The constructor without limits does restrict the joints: the lower limit is the smallest *positive* double
(`numeric_limits<double>::min()`), so that no update can make a joint value negative or zero. -/
theorem C47_default_positive (c : Chain) (maxiter : ℕ) (eps : ℝ) (fk : PosSolver) (ik : VelSolver) (q_init : List ℝ)
    (p : Frame) (q_out : List ℝ) (r : IkResult)
    (h : (NrJlState.newDefault c maxiter eps).cartToJnt c fk ik q_init p q_out = some r)
    (h4 : r.ret ≠ E_SIZE_MISMATCH) : r.q_out = q_init ∨ ∀ x ∈ r.q_out, 0 < x := by
  have hlim : ∀ i, (NrJlState.newDefault c maxiter eps).q_min.getD i 0 ≤ (NrJlState.newDefault c maxiter eps).q_max.getD i 0 := by
    intro i
    simp only [NrJlState.newDefault, List.getD, List.getElem?_replicate]
    split_ifs
    · exact dblMin_lt_dblMax.le
    · exact le_rfl
  have h3 : r.ret ≠ E_NOT_UP_TO_DATE := by
    rw [Ne, (C47_failure _ _ _ _ _ _ _ _ h).2.2.2.2.1]
    simp [NrJlState.newDefault]
  refine (C47_within _ _ _ _ _ _ _ _ hlim h h3 h4).imp id fun hw x hx => ?_
  obtain ⟨i, hi, rfl⟩ := List.getElem_of_mem hx
  have := (hw.2.2 i hi).1
  have hl := hw.1
  simp only [NrJlState.newDefault, List.length_replicate] at hl
  simp only [NrJlState.newDefault, List.getD, List.getElem?_replicate, List.getElem?_eq_getElem hi] at this
  rw [if_pos (by omega)] at this
  exact lt_of_lt_of_le dblMin_pos this

/-- Consequence: with the default limits the solver misses solutions that exist.  For the prismatic chain along X with
its exact velocity solver, started at 0, the target at `x = -1` is reached by `q = -1`, but whatever `maxiter` is the
solver answers `E_MAX_ITERATIONS_EXCEEDED`; with wide limits two iterations suffice. -/
theorem C47_default_limits_violated (eps : ℝ) (he : 0 < eps) (he1 : eps ≤ 1) :
    fkOf xChain 0 [-1] = some (0, ⟨1, ⟨-1, 0, 0⟩⟩) ∧
    (∀ maxiter, ∃ q, (NrJlState.newDefault xChain maxiter eps).cartToJnt xChain (fkOf xChain) xIk [0] ⟨1, ⟨-1, 0, 0⟩⟩ [0] =
      some ⟨E_MAX_ITERATIONS_EXCEEDED, E_MAX_ITERATIONS_EXCEEDED, q⟩) ∧
    (NrJlState.new xChain [-dblMax] [dblMax] 2 eps).cartToJnt xChain (fkOf xChain) xIk [0] ⟨1, ⟨-1, 0, 0⟩⟩ [0] =
      some ⟨E_NOERROR, E_NOERROR, [-1]⟩ := by
  have hstep : ∀ n i x, ¬ Converged ⟨1, ⟨x, 0, 0⟩⟩ ⟨1, ⟨-1, 0, 0⟩⟩ eps → ∀ lo hi,
      NrJlState.loop (fkOf xChain) xIk ⟨1, ⟨-1, 0, 0⟩⟩ eps [lo] [hi] (n + 1) i [x] =
      NrJlState.loop (fkOf xChain) xIk ⟨1, ⟨-1, 0, 0⟩⟩ eps [lo] [hi] n (i + 1) [min (max (-1) lo) hi] := by
    intro n i x hx lo hi
    have hd : (Frame.diff ⟨1, ⟨x, 0, 0⟩⟩ ⟨1, ⟨-1, 0, 0⟩⟩ 1).vel = ⟨-1 - x, 0, 0⟩ := by
      simp only [Frame.diff, Vec.diff]; ext <;> simp
    have hcl := (isClamp_clamp (jsum [x] [-1 - x]) [lo] [hi] rfl rfl).2 0 (by simp [jsum])
    rw [NrJlState.loop, x_fk]
    simp only [Option.bind_eq_bind, Option.bind_some]
    rw [if_neg (by simp)]
    refine (if_neg hx).trans ?_
    simp only [xIk, List.length_singleton, if_true, Option.bind_some, hd]
    rw [if_neg (by simp)]
    simp only [jntAdd, List.length_singleton, if_true, Option.bind_some]
    congr 1
    simpa [NrJlState.clampHigh, NrJlState.clampLow, jsum] using hcl
  refine ⟨x_fk _ _, fun maxiter => ?_, ?_⟩
  · have key : ∀ n i x, 0 ≤ x → ∃ q, NrJlState.loop (fkOf xChain) xIk ⟨1, ⟨-1, 0, 0⟩⟩ eps [dblMin] [dblMax] n i [x] =
        some ⟨E_MAX_ITERATIONS_EXCEEDED, E_MAX_ITERATIONS_EXCEEDED, q⟩ := by
      intro n
      induction n with
      | zero => intro i x _; exact ⟨_, rfl⟩
      | succ n ih =>
        intro i x hx
        rw [hstep n i x]
        · refine ih _ _ (le_min ?_ ?_)
          · exact le_max_of_le_right dblMin_pos.le
          · exact (dblMin_pos.trans dblMin_lt_dblMax).le
        · rw [converged_iff _ _ _ he]
          rintro ⟨h, _⟩
          rw [abs_lt] at h
          dsimp only at h
          linarith [h.1]
    obtain ⟨q, hq⟩ := key maxiter 0 0 le_rfl
    refine ⟨q, ?_⟩
    unfold NrJlState.cartToJnt
    rw [if_neg (by simp [NrJlState.newDefault]), if_neg (by simp [NrJlState.newDefault, xChain])]
    exact hq
  · have h1 := one_lt_dblMax
    unfold NrJlState.cartToJnt
    rw [if_neg (by simp [NrJlState.new]), if_neg (by simp [NrJlState.new, xChain])]
    show NrJlState.loop (fkOf xChain) xIk ⟨1, ⟨-1, 0, 0⟩⟩ eps [-dblMax] [dblMax] (1 + 1) 0 [0] = _
    rw [hstep]
    · rw [max_eq_left (by linarith), min_eq_left (by linarith), NrJlState.loop, x_fk]
      simp only [Option.bind_eq_bind, Option.bind_some]
      rw [if_neg (by simp)]
      refine if_pos ?_
      have : Converged ⟨1, ⟨-1, 0, 0⟩⟩ ⟨1, ⟨-1, 0, 0⟩⟩ eps := by rw [converged_iff _ _ _ he]; simp [he]
      exact this
    · rw [converged_iff _ _ _ he]
      rintro ⟨h, _⟩
      rw [abs_lt] at h
      dsimp only at h
      linarith [h.1]

/-- `updateInternalDataStructures` keeps the limits of the existing joints and gives every new joint the same positive
lower limit. -/
theorem C47_update (s : NrJlState) (c : Chain) :
    (s.update c).nj = c.nrOfJoints ∧ (s.update c).q_min.length = c.nrOfJoints ∧
    (s.update c).q_max.length = c.nrOfJoints ∧
    ∀ i, i < c.nrOfJoints → (s.update c).q_min[i]? = (if i < s.q_min.length then s.q_min[i]? else some dblMin) ∧
      (s.update c).q_max[i]? = (if i < s.q_max.length then s.q_max[i]? else some dblMax) := by
  have hl : ∀ x (q : List ℝ) n, (NrJlState.resizeWith x q n).length = n := by
    intro x q n; simp [NrJlState.resizeWith]; omega
  have hi : ∀ x (q : List ℝ) n i, i < n → (NrJlState.resizeWith x q n)[i]? = if i < q.length then q[i]? else some x := by
    intro x q n i hi
    unfold NrJlState.resizeWith
    rw [List.getElem?_append]
    simp only [List.length_take, List.getElem?_take, List.getElem?_replicate]
    split_ifs <;> first | rfl | omega
  exact ⟨rfl, hl _ _ _, hl _ _ _, fun i h => ⟨hi _ _ _ _ h, hi _ _ _ _ h⟩⟩

/-- `setJointLimits` takes over both arrays or, if a size is wrong, leaves the limits alone and reports it. -/
theorem C47_setJointLimits (s : NrJlState) (lo hi : List ℝ) :
    (lo.length = s.nj ∧ hi.length = s.nj → s.setJointLimits lo hi = (E_NOERROR, { s with q_min := lo, q_max := hi, error := E_NOERROR })) ∧
    (¬ (lo.length = s.nj ∧ hi.length = s.nj) → s.setJointLimits lo hi = (E_SIZE_MISMATCH, { s with error := E_SIZE_MISMATCH })) := by
  constructor
  · rintro ⟨h1, h2⟩; exact if_neg (by simp [h1, h2])
  · intro h; exact if_pos (by tauto)

/-- The initial guess is not checked against the limits: if it is a solution, it is returned with `E_NOERROR` even if it
violates them. -/
theorem C47_initial_guess_unclamped (eps : ℝ) (he : 0 < eps) (x lo hi : ℝ) (n : ℕ) :
    (NrJlState.new xChain [lo] [hi] (n + 1) eps).cartToJnt xChain (fkOf xChain) xIk [x] ⟨1, ⟨x, 0, 0⟩⟩ [0] =
      some ⟨E_NOERROR, E_NOERROR, [x]⟩ := by
  unfold NrJlState.cartToJnt
  rw [if_neg (by simp [NrJlState.new]), if_neg (by simp [NrJlState.new, xChain])]
  show NrJlState.loop (fkOf xChain) xIk _ eps [lo] [hi] (n + 1) 0 [x] = _
  rw [NrJlState.loop, x_fk]
  simp only [Option.bind_eq_bind, Option.bind_some]
  rw [if_neg (by simp)]
  refine if_pos ?_
  have : Converged ⟨1, ⟨x, 0, 0⟩⟩ ⟨1, ⟨x, 0, 0⟩⟩ eps := by rw [converged_iff _ _ _ he]; simp [he]
  exact this

/-- Non-vacuity of `C47_limits`/`C47_within`: an update that hits the limit. -/
example : JlReaches (fkOf xChain) xIk ⟨1, ⟨5, 0, 0⟩⟩ 1 [-2] [2] [0] 1 [2] := by
  have hd : (Frame.diff ⟨1, ⟨0, 0, 0⟩⟩ ⟨1, ⟨5, 0, 0⟩⟩ 1).vel = ⟨5, 0, 0⟩ := by
    simp only [Frame.diff, Vec.diff]; ext <;> simp
  refine .step .start (x_fk 0 0) le_rfl ?_ (rc := 0) (dq := [5]) ?_ le_rfl rfl ⟨by simp [jsum], ?_⟩
  · rw [converged_iff _ _ _ one_pos]; norm_num
  · simp only [xIk, hd, List.length_singleton, if_true]
  · intro i hi
    have : i = 0 := by simp [jsum] at hi; exact hi
    subst this
    simp [jsum]; norm_num

end KDL
