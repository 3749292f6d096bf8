import Verif.Model.Rk4
import Verif.Props.HybridDynamics

/-!
# C72: Runge-Kutta integration of the forward dynamics
-/

noncomputable section

namespace KDL

/-- A step of the classical fourth-order Runge-Kutta method for `y' = F y`. -/
def rk4Step {E : Type*} [AddCommGroup E] [Module ℝ E] (F : E → E) (h : ℝ) (y : E) : E :=
  let k1 := F y
  let k2 := F (y + (h / 2) • k1)
  let k3 := F (y + (h / 2) • k2)
  let k4 := F (y + h • k3)
  y + (h / 6) • (k1 + (2 : ℝ) • k2 + (2 : ℝ) • k3 + k4)

/-- Positions and velocities. -/
abbrev JState (n : ℕ) := (Fin n → ℝ) × (Fin n → ℝ)

/-- `q' = v, v' = acc(q, v)`. -/
def secondOrder {n : ℕ} (acc : (Fin n → ℝ) → (Fin n → ℝ) → Fin n → ℝ) (y : JState n) : JState n := (y.2, acc y.1 y.2)

/-- The solver computes `acc`, whatever `q_dotdot` contains. -/
def Computes {n : ℕ} (fd : ℕ → List ℝ → List ℝ → List ℝ → Option FdResult) (acc : (Fin n → ℝ) → (Fin n → ℝ) → Fin n → ℝ) : Prop :=
  ∀ (k : ℕ) (q v : Fin n → ℝ) (z : List ℝ), z.length = n → fd k (List.ofFn q) (List.ofFn v) z = some (.ret E_NOERROR (List.ofFn (acc q v)))

theorem fillTo_eq {n : ℕ} (a : List ℝ) (ha : a.length = n) (f : ℕ → ℝ) : fillTo n a f = List.ofFn fun i : Fin n => f i := by
  unfold fillTo
  rw [List.drop_of_length_le (by omega), List.append_nil]
  apply List.ext_getElem <;> simp

theorem ofFn_getD {n : ℕ} (f : Fin n → ℝ) (i : Fin n) : (List.ofFn f).getD i 0 = f i := by
  simp [List.getD]

/-- The accelerations found in a step of the classical method. -/
def acc1 {n : ℕ} (acc : (Fin n → ℝ) → (Fin n → ℝ) → Fin n → ℝ) (q v : Fin n → ℝ) : Fin n → ℝ := acc q v
def acc2 {n : ℕ} (acc : (Fin n → ℝ) → (Fin n → ℝ) → Fin n → ℝ) (h : ℝ) (q v : Fin n → ℝ) : Fin n → ℝ :=
  acc (q + (h / 2) • v) (v + (h / 2) • acc q v)
def acc3 {n : ℕ} (acc : (Fin n → ℝ) → (Fin n → ℝ) → Fin n → ℝ) (h : ℝ) (q v : Fin n → ℝ) : Fin n → ℝ :=
  acc (q + (h / 2) • (v + (h / 2) • acc q v)) (v + (h / 2) • acc2 acc h q v)
def acc4 {n : ℕ} (acc : (Fin n → ℝ) → (Fin n → ℝ) → Fin n → ℝ) (h : ℝ) (q v : Fin n → ℝ) : Fin n → ℝ :=
  acc (q + h • (v + (h / 2) • acc2 acc h q v)) (v + h • acc3 acc h q v)

theorem rk4Step_eq {n : ℕ} (acc : (Fin n → ℝ) → (Fin n → ℝ) → Fin n → ℝ) (h : ℝ) (q v : Fin n → ℝ) :
    rk4Step (secondOrder acc) h (q, v) =
      (q + h • v + (h ^ 2 / 6) • (acc1 acc q v + acc2 acc h q v + acc3 acc h q v),
        v + (h / 6) • (acc1 acc q v + (2 : ℝ) • acc2 acc h q v + (2 : ℝ) • acc3 acc h q v + acc4 acc h q v)) := by
  simp only [rk4Step, secondOrder, Prod.smul_mk, Prod.mk_add_mk]
  refine Prod.ext ?_ ?_
  · ext i
    simp only [acc1, acc2, acc3, Pi.add_apply, Pi.smul_apply, smul_eq_mul]
    ring
  · rfl

/-- What a step computes: the velocities of the classical method, but other positions. -/
theorem C72_step {n : ℕ} (fd : ℕ → List ℝ → List ℝ → List ℝ → Option FdResult) (acc : (Fin n → ℝ) → (Fin n → ℝ) → Fin n → ℝ)
    (hfd : Computes fd acc) (dt : ℝ) (q v : Fin n → ℝ) (s : Rk4) (hq : s.q = List.ofFn q) (hv : s.qd = List.ofFn v) (h1 : s.qdd.length = n)
    (h2 : s.dq.length = n) (h3 : s.dqd.length = n) (h4 : s.qt.length = n) (h5 : s.qdt.length = n) :
    ∃ s', rk4Integrator fd n dt s = some (.ret s') ∧
      s'.q = List.ofFn (q + dt • v + (dt ^ 2 / 6) • (acc2 acc dt q v + (3 : ℝ) • acc3 acc dt q v)) ∧
      s'.qd = List.ofFn (rk4Step (secondOrder acc) dt (q, v)).2 ∧ s'.qdd = List.ofFn (acc4 acc dt q v) := by
  obtain ⟨_, _, qdd, dq, dqd, qt, qdt⟩ := s
  subst hq hv
  dsimp only at h1 h2 h3 h4 h5
  have e1 : Rk4.stage (fd 0) n true (Rk4.loop1 n dt) ⟨List.ofFn q, List.ofFn v, qdd, dq, dqd, qt, qdt⟩ =
      some (.ret ⟨List.ofFn q, List.ofFn v, List.ofFn (acc1 acc q v), List.ofFn v, List.ofFn (acc1 acc q v), List.ofFn (q + (dt / 2) • v),
        List.ofFn (v + (dt / 2) • acc q v)⟩) := by
    unfold Rk4.stage
    simp only [if_true, hfd _ q v qdd h1, Option.bind_eq_bind, Option.bind_some]
    rw [if_pos ⟨by simp, by simp, by simp, by simp [h2], by simp [h3], by simp [h4], by simp [h5]⟩]
    simp only [Rk4.loop1, fillTo_eq _ h2, fillTo_eq _ h3, fillTo_eq _ h4, fillTo_eq _ h5, ofFn_getD]
    congr 3
    · congr 1; ext i; simp; ring
    · congr 1; ext i; simp; ring
  have e2 : Rk4.stage (fd 1) n false (Rk4.loop2 n dt) ⟨List.ofFn q, List.ofFn v, List.ofFn (acc1 acc q v), List.ofFn v, List.ofFn (acc1 acc q v),
        List.ofFn (q + (dt / 2) • v), List.ofFn (v + (dt / 2) • acc q v)⟩ =
      some (.ret ⟨List.ofFn q, List.ofFn v, List.ofFn (acc2 acc dt q v), List.ofFn (v + (2 : ℝ) • (v + (dt / 2) • acc2 acc dt q v)),
        List.ofFn (acc1 acc q v + (2 : ℝ) • acc2 acc dt q v), List.ofFn (q + (dt / 2) • (v + (dt / 2) • acc q v)),
        List.ofFn (v + (dt / 2) • acc2 acc dt q v)⟩) := by
    unfold Rk4.stage
    simp only [Bool.false_eq_true, if_false, hfd _ _ _ _ (List.length_ofFn), Option.bind_eq_bind, Option.bind_some]
    rw [if_pos (by simp [Rk4.Big])]
    simp only [Rk4.loop2, fillTo_eq _ (List.length_ofFn), ofFn_getD]
    congr 3
    all_goals (congr 1; funext i; simp only [acc2, Pi.add_apply, Pi.smul_apply, smul_eq_mul]; try ring)
  have e3 : Rk4.stage (fd 2) n false (Rk4.loop3 n dt) ⟨List.ofFn q, List.ofFn v, List.ofFn (acc2 acc dt q v),
        List.ofFn (v + (2 : ℝ) • (v + (dt / 2) • acc2 acc dt q v)),
        List.ofFn (acc1 acc q v + (2 : ℝ) • acc2 acc dt q v), List.ofFn (q + (dt / 2) • (v + (dt / 2) • acc q v)),
        List.ofFn (v + (dt / 2) • acc2 acc dt q v)⟩ =
      some (.ret ⟨List.ofFn q, List.ofFn v, List.ofFn (acc3 acc dt q v),
        List.ofFn (v + (2 : ℝ) • (v + (dt / 2) • acc2 acc dt q v) + (2 : ℝ) • (v + dt • acc3 acc dt q v)),
        List.ofFn (acc1 acc q v + (2 : ℝ) • acc2 acc dt q v + (2 : ℝ) • acc3 acc dt q v), List.ofFn (q + dt • (v + (dt / 2) • acc2 acc dt q v)),
        List.ofFn (v + dt • acc3 acc dt q v)⟩) := by
    unfold Rk4.stage
    simp only [Bool.false_eq_true, if_false, hfd _ _ _ _ (List.length_ofFn), Option.bind_eq_bind, Option.bind_some]
    rw [if_pos (by simp [Rk4.Big])]
    simp only [Rk4.loop3, fillTo_eq _ (List.length_ofFn), ofFn_getD]
    congr 3
    all_goals (congr 1; funext i; simp only [acc3, Pi.add_apply, Pi.smul_apply, smul_eq_mul]; try ring)
  unfold rk4Integrator
  simp only [e1, Option.bind_eq_bind, Option.bind_some, Rk4Result.andThen]
  simp only [e2, Option.bind_some]
  simp only [e3, Option.bind_some]
  unfold Rk4.stage
  simp only [Bool.false_eq_true, if_false, hfd _ _ _ _ (List.length_ofFn), Option.bind_eq_bind, Option.bind_some]
  rw [if_pos (by simp [Rk4.Big])]
  refine ⟨_, rfl, ?_, ?_, rfl⟩
  · simp only [Rk4.loop4, fillTo_eq _ (List.length_ofFn), ofFn_getD]
    congr 1; ext i; simp; ring
  · rw [rk4Step_eq]
    simp only [Rk4.loop4, fillTo_eq _ (List.length_ofFn), ofFn_getD]
    congr 1; ext i; simp [acc4]; ring

/-- A step with arrays of the right size. -/
structure Rk4.Sized {n : ℕ} (s : Rk4) (q v : Fin n → ℝ) : Prop where
  q : s.q = List.ofFn q
  v : s.qd = List.ofFn v
  qdd : s.qdd.length = n
  dq : s.dq.length = n
  dqd : s.dqd.length = n
  qt : s.qt.length = n
  qdt : s.qdt.length = n

/-- The full statement: for a solver that computes the accelerations `acc`, `RK4Integrator` makes a step of the fourth-order
Runge-Kutta method for `q' = v, v' = acc(q, v)`. -/
def Rk4Correct (n : ℕ) (fd : ℕ → List ℝ → List ℝ → List ℝ → Option FdResult) (acc : (Fin n → ℝ) → (Fin n → ℝ) → Fin n → ℝ) : Prop :=
  ∀ (dt : ℝ) (q v : Fin n → ℝ) (s : Rk4), s.Sized q v → ∃ s', rk4Integrator fd n dt s = some (.ret s') ∧
    s'.q = List.ofFn (rk4Step (secondOrder acc) dt (q, v)).1 ∧ s'.qd = List.ofFn (rk4Step (secondOrder acc) dt (q, v)).2

/-- What holds of it: the velocities.  Missing: the positions, see `C72_position_violated`. -/
theorem C72_velocity_partial {n : ℕ} (fd : ℕ → List ℝ → List ℝ → List ℝ → Option FdResult)
    (acc : (Fin n → ℝ) → (Fin n → ℝ) → Fin n → ℝ) (hfd : Computes fd acc) (dt : ℝ) (q v : Fin n → ℝ) (s : Rk4) (hs : s.Sized q v) :
    ∃ s', rk4Integrator fd n dt s = some (.ret s') ∧ s'.qd = List.ofFn (rk4Step (secondOrder acc) dt (q, v)).2 := by
  obtain ⟨s', h1, -, h2, -⟩ := C72_step fd acc hfd dt q v s hs.q hs.v hs.qdd hs.dq hs.dqd hs.qt hs.qdt
  exact ⟨s', h1, h2⟩

/-- The error of the positions: `dt²/6 · (2 a₃ − a₁)` with the accelerations of the first and third call; the second and the
third position increment are formed with the velocity of the next stage. -/
theorem C72_position_error {n : ℕ} (fd : ℕ → List ℝ → List ℝ → List ℝ → Option FdResult)
    (acc : (Fin n → ℝ) → (Fin n → ℝ) → Fin n → ℝ) (hfd : Computes fd acc) (dt : ℝ) (q v : Fin n → ℝ) (s : Rk4) (hs : s.Sized q v) :
    ∃ s', rk4Integrator fd n dt s = some (.ret s') ∧ s'.q = List.ofFn ((rk4Step (secondOrder acc) dt (q, v)).1 +
      (dt ^ 2 / 6) • ((2 : ℝ) • acc3 acc dt q v - acc1 acc q v)) := by
  obtain ⟨s', h1, h2, -, -⟩ := C72_step fd acc hfd dt q v s hs.q hs.v hs.qdd hs.dq hs.dqd hs.qt hs.qdt
  refine ⟨s', h1, ?_⟩
  rw [h2, rk4Step_eq]
  congr 1
  ext i
  simp
  ring

/-- The positions are those of the method exactly if the acceleration of the first call is twice that of the third. -/
theorem C72_position_iff {n : ℕ} (fd : ℕ → List ℝ → List ℝ → List ℝ → Option FdResult)
    (acc : (Fin n → ℝ) → (Fin n → ℝ) → Fin n → ℝ) (hfd : Computes fd acc) (dt : ℝ) (hdt : dt ≠ 0) (q v : Fin n → ℝ) (s : Rk4) (hs : s.Sized q v) :
    (∃ s', rk4Integrator fd n dt s = some (.ret s') ∧ s'.q = List.ofFn (rk4Step (secondOrder acc) dt (q, v)).1) ↔
      acc q v = (2 : ℝ) • acc3 acc dt q v := by
  obtain ⟨s', h1, h2⟩ := C72_position_error fd acc hfd dt q v s hs
  have hd : dt ^ 2 / 6 ≠ 0 := by positivity
  constructor
  · rintro ⟨s'', e, h⟩
    rw [h1] at e
    obtain rfl : s' = s'' := by cases e; rfl
    rw [h2] at h
    have := List.ofFn_injective h
    have h3 := add_eq_left.mp this
    have := (smul_eq_zero.mp h3).resolve_left hd
    exact (sub_eq_zero.mp this).symm
  · intro h
    refine ⟨s', h1, ?_⟩
    rw [h2, ← h, acc1, sub_self, smul_zero, add_zero]

/-- The accelerations of the forward dynamics solver, for every valid chain with positive definite inertias: they solve the
equations of motion and do not depend on the contents of the work arrays. -/
theorem C72_solver (c : Chain) (hc : c.WF) (hv : c.Valid) (hI : c.SymmI) (hM : c.Massive) (grav : Vec) (τ : List ℝ) (fext : List Wrench)
    (hτ : τ.length = c.nrOfJoints) (hf : fext.length = c.nrOfSegments) :
    ∃ acc : (Fin c.nrOfJoints → ℝ) → (Fin c.nrOfJoints → ℝ) → Fin c.nrOfJoints → ℝ,
      (∀ q v τ0, τ0.length = c.nrOfJoints →
        idRne c c.nrOfJoints c.nrOfSegments grav (List.ofFn q) (List.ofFn v) (List.ofFn (acc q v)) fext τ0 = some (E_NOERROR, τ)) ∧
      ∀ (H0 : ℕ → ℕ → ℕ → ℝ) (T0 : ℕ → ℕ → ℝ) (L0 : ℕ → LDL) (r0 x0 : ℕ → ℕ → ℝ),
        Computes (fun k q v z => fdRne (.new c grav) c q v τ fext z (H0 k) (T0 k) (L0 k) (r0 k) (x0 k)) acc := by
  have key : ∀ q v : Fin c.nrOfJoints → ℝ, ∃ a : Fin c.nrOfJoints → ℝ,
      (∀ τ0, τ0.length = c.nrOfJoints →
        idRne c c.nrOfJoints c.nrOfSegments grav (List.ofFn q) (List.ofFn v) (List.ofFn a) fext τ0 = some (E_NOERROR, τ)) ∧
      ∀ (z : List ℝ) (H0 : ℕ → ℕ → ℝ) (T0 : ℕ → ℝ) (L0 : LDL) (r0 x0 : ℕ → ℝ), z.length = c.nrOfJoints →
        fdRne (.new c grav) c (List.ofFn q) (List.ofFn v) τ fext z H0 T0 L0 r0 x0 = some (.ret E_NOERROR (List.ofFn a)) := by
    intro q v
    have lq : (List.ofFn q).length = c.nrOfJoints := List.length_ofFn
    have lv : (List.ofFn v).length = c.nrOfJoints := List.length_ofFn
    obtain ⟨qdd, e⟩ := C42_total c hc hv hI hM grav _ _ τ fext (List.ofFn q) (fun _ _ => 0) (fun _ => 0) ⟨fun _ _ => 0, fun _ => 0⟩
      (fun _ => 0) (fun _ => 0) lq lv lq hτ hf
    have hid := fun τ0 hτ0 => C42_id_of_fd c hc hv hI grav _ _ τ fext (List.ofFn q) τ0 (fun _ _ => 0) (fun _ => 0) ⟨fun _ _ => 0, fun _ => 0⟩
      (fun _ => 0) (fun _ => 0) lq lv lq hτ hf hτ0 _ _ e
    have hl := (hid (List.ofFn q) lq).2.1
    have ha : qdd = List.ofFn (fun i : Fin c.nrOfJoints => qdd.getD i 0) := by
      apply List.ext_getElem
      · simp [hl]
      · intro i h1 h2; simp [List.getD, h1]
    refine ⟨fun i => qdd.getD i 0, fun τ0 hτ0 => ?_, fun z H0 T0 L0 r0 x0 hz => ?_⟩
    · rw [← ha]; exact (hid τ0 hτ0).2.2
    · obtain ⟨τ', e1, e2⟩ := C42_fd_of_id c hc hv hI hM grav _ _ qdd fext z (List.ofFn q) H0 T0 L0 r0 x0 lq lv hl hz hf lq
      rw [(hid _ lq).2.2] at e1
      obtain rfl : τ = τ' := by simpa using e1
      rw [← ha]; exact e2
  choose acc h1 h2 using key
  exact ⟨acc, h1, fun H0 T0 L0 r0 x0 k q v z hz => h2 q v z _ _ _ _ _ hz⟩

theorem slide_X (q : ℕ → ℝ) (j : ℕ) : Xs q hdSlide j = ⟨1, ⟨q j, 0, 0⟩⟩ := by
  simp only [Xs, qv, show hdSlide.moving = true from rfl, if_true]
  ext <;> simp [Segment.pose, hdSlide, Joint.pose, Frame.ofVec]

theorem slide_S (q : ℕ → ℝ) (j : ℕ) : Ss q hdSlide j = ⟨⟨1, 0, 0⟩, 0⟩ := by
  simp only [Ss, slide_X]
  simp [Segment.twist, hdSlide, Joint.twist, Joint.pose]
  ext <;> simp [Rot.invTwist, Rot.invVec]

/-- A body of mass 1 on a slider, without gravity, pushed with force 1. -/
theorem slide_acc {acc : (Fin 1 → ℝ) → (Fin 1 → ℝ) → Fin 1 → ℝ}
    (h : ∀ q v τ0, τ0.length = (hdSlides 1).nrOfJoints →
        idRne (hdSlides 1) 1 1 0 (List.ofFn q) (List.ofFn v) (List.ofFn (acc q v)) [0] τ0 = some (E_NOERROR, [1])) (q v : Fin 1 → ℝ) :
    acc q v = fun _ => 1 := by
  have := h q v [0] rfl
  have e := idRne_eq (hdSlides 1) (hdSlide_ok 1).1 0 (List.ofFn q) (List.ofFn v) (List.ofFn (acc q v)) [0] [0] rfl rfl rfl rfl rfl
  rw [show idRne (hdSlides 1) 1 1 0 _ _ _ [0] [0] = _ from e] at this
  simp only [hdSlides, List.replicate, rneF, show hdSlide.moving = true from rfl, if_true, show hdSlide.joint.inertia = 0 from rfl,
    Option.some.injEq, Prod.mk.injEq, true_and, List.cons.injEq, and_true] at this
  have ha : rd (List.ofFn (acc q v)) 0 = acc q v 0 := by simp [rd]
  funext i
  rw [Subsingleton.elim i 0, ← ha]
  generalize rd (List.ofFn (acc q v)) = a at this ⊢
  generalize rd (List.ofFn q) = q at this
  generalize rd (List.ofFn v) = v at this
  have h0 : ∀ p : Vec, (⟨1, p⟩ : Frame).invTwist (-⟨0, 0⟩) = 0 := fun p => by
    ext <;> simp [Frame.invTwist, Rot.invVec]
  simp only [fl, up, ap, slide_S, slide_X, h0, Frame.invTwist_zero, zero_add, qv, show hdSlide.moving = true from rfl, if_true] at this
  simpa [Twist.dot, Vec.dot, hdSlide, RBI.ofCog, rotationalInertia, RBI.mul_twist] using this

/-- The negation of the full statement, for the solver itself: a body of mass 1 on a slider without gravity and damping, starting
from rest at the origin and pushed with force 1, ends up at `2/3·dt²` instead of `1/2·dt²`, whatever the work arrays contain. -/
theorem C72_position_violated : ∃ acc : (Fin 1 → ℝ) → (Fin 1 → ℝ) → Fin 1 → ℝ,
    (∀ q v, acc q v = fun _ => 1) ∧
    ∀ (H0 : ℕ → ℕ → ℕ → ℝ) (T0 : ℕ → ℕ → ℝ) (L0 : ℕ → LDL) (r0 x0 : ℕ → ℕ → ℝ),
      let fd := fun k q v z => fdRne (.new (hdSlides 1) 0) (hdSlides 1) q v [1] [0] z (H0 k) (T0 k) (L0 k) (r0 k) (x0 k)
      Computes fd acc ∧ ¬ Rk4Correct 1 fd acc ∧
      ∀ (dt : ℝ) (s : Rk4), s.Sized (n := 1) 0 0 → ∃ s', rk4Integrator fd 1 dt s = some (.ret s') ∧ s'.q = [2 / 3 * dt ^ 2] ∧ s'.qd = [dt] ∧
        (rk4Step (secondOrder acc) dt (0, 0)).1 = (fun _ => 1 / 2 * dt ^ 2) := by
  obtain ⟨c1, c2, c3, c4, -⟩ := hdSlide_ok 1
  have hsol : ∃ acc : (Fin 1 → ℝ) → (Fin 1 → ℝ) → Fin 1 → ℝ, (∀ q v τ0, τ0.length = (hdSlides 1).nrOfJoints →
        idRne (hdSlides 1) 1 1 0 (List.ofFn q) (List.ofFn v) (List.ofFn (acc q v)) [0] τ0 = some (E_NOERROR, [1])) ∧
      ∀ (H0 : ℕ → ℕ → ℕ → ℝ) (T0 : ℕ → ℕ → ℝ) (L0 : ℕ → LDL) (r0 x0 : ℕ → ℕ → ℝ),
        Computes (fun k q v z => fdRne (.new (hdSlides 1) 0) (hdSlides 1) q v [1] [0] z (H0 k) (T0 k) (L0 k) (r0 k) (x0 k)) acc :=
    C72_solver (hdSlides 1) c1 c2 c3 c4 0 [1] [0] rfl rfl
  obtain ⟨acc, h1, h2⟩ := hsol
  have ha := slide_acc h1
  refine ⟨acc, ha, fun H0 T0 L0 r0 x0 => ?_⟩
  intro fd
  have hfd : Computes fd acc := h2 H0 T0 L0 r0 x0
  have hst : ∀ (dt : ℝ) (s : Rk4), s.Sized (n := 1) 0 0 → ∃ s', rk4Integrator fd 1 dt s = some (.ret s') ∧ s'.q = [2 / 3 * dt ^ 2] ∧ s'.qd = [dt] ∧
        (rk4Step (secondOrder acc) dt (0, 0)).1 = (fun _ => 1 / 2 * dt ^ 2) := by
    intro dt s hs
    obtain ⟨s', e, e1, e2, -⟩ := C72_step fd acc hfd dt 0 0 s hs.q hs.v hs.qdd hs.dq hs.dqd hs.qt hs.qdt
    refine ⟨s', e, ?_, ?_, ?_⟩
    · rw [e1]; simp [acc2, acc3, ha]; ring
    · rw [e2, rk4Step_eq]; simp [acc1, acc2, acc3, acc4, ha]; ring
    · rw [rk4Step_eq]; funext i; simp [acc1, acc2, acc3, ha]; ring
  refine ⟨hfd, fun h => ?_, hst⟩
  have hs : (⟨[0], [0], [0], [0], [0], [0], [0]⟩ : Rk4).Sized (n := 1) 0 0 := ⟨by simp, by simp, rfl, rfl, rfl, rfl, rfl⟩
  obtain ⟨s', e, e1, -⟩ := h 1 0 0 _ hs
  obtain ⟨s'', e', e2, -, e3⟩ := hst 1 _ hs
  rw [e] at e'
  obtain rfl : s' = s'' := by cases e'; rfl
  rw [e3, e2] at e1
  norm_num at e1

/-- The full statement about failures of the solver: a step changes the positions and velocities only if no call of the solver
reports an error. -/
def Rk4StopsOnError : Prop :=
  ∀ (c : Chain) (q v τ z : List ℝ) (fext : List Wrench) (dt : ℝ) (dq dqd qt qdt : List ℝ) (H0 : ℕ → ℕ → ℕ → ℝ) (T0 : ℕ → ℕ → ℝ) (L0 : ℕ → LDL)
    (r0 x0 : ℕ → ℕ → ℝ) (s' : Rk4),
    (∀ k q v z, ∃ e, e ≠ E_NOERROR ∧
      fdRne (.new c 0) c q v τ fext z (H0 k) (T0 k) (L0 k) (r0 k) (x0 k) = some (.ret e z)) →
    rk4Integrator (fun k q v z => fdRne (.new c 0) c q v τ fext z (H0 k) (T0 k) (L0 k) (r0 k) (x0 k)) c.nrOfJoints dt ⟨q, v, z, dq, dqd, qt, qdt⟩ =
      some (.ret s') → s'.q = q ∧ s'.qd = v

/-- Its negation: with a missing external wrench all four calls return E_SIZE_MISMATCH; the step takes what `q_dotdot`
happens to contain for the accelerations. -/
theorem C72_error_violated : ¬ Rk4StopsOnError ∧
    ∀ (a dt : ℝ) (H0 : ℕ → ℕ → ℕ → ℝ) (T0 : ℕ → ℕ → ℝ) (L0 : ℕ → LDL) (r0 x0 : ℕ → ℕ → ℝ),
      let fd := fun k q v z => fdRne (.new (hdSlides 1) 0) (hdSlides 1) q v [1] [] z (H0 k) (T0 k) (L0 k) (r0 k) (x0 k)
      (∀ k q v z, fd k q v z = some (.ret E_SIZE_MISMATCH z)) ∧
      ∃ s', rk4Integrator fd 1 dt ⟨[0], [0], [a], [0], [0], [0], [0]⟩ = some (.ret s') ∧ s'.qd = [a * dt] := by
  have key : ∀ (a dt : ℝ) (H0 : ℕ → ℕ → ℕ → ℝ) (T0 : ℕ → ℕ → ℝ) (L0 : ℕ → LDL) (r0 x0 : ℕ → ℕ → ℝ),
      let fd := fun k q v z => fdRne (.new (hdSlides 1) 0) (hdSlides 1) q v [1] [] z (H0 k) (T0 k) (L0 k) (r0 k) (x0 k)
      (∀ k q v z, fd k q v z = some (.ret E_SIZE_MISMATCH z)) ∧
      ∃ s', rk4Integrator fd 1 dt ⟨[0], [0], [a], [0], [0], [0], [0]⟩ = some (.ret s') ∧ s'.qd = [a * dt] := by
    intro a dt H0 T0 L0 r0 x0 fd
    have h : ∀ k q v z, fd k q v z = some (.ret E_SIZE_MISMATCH z) := fun k q v z =>
      (C42_errors (.new (hdSlides 1) 0) (hdSlides 1) q v [1] [] z _ _ _ _ _).2 rfl rfl (by simp [FdState.new, hdSlides])
    refine ⟨h, ?_⟩
    unfold rk4Integrator Rk4.stage
    simp only [h, Rk4Result.andThen, Rk4.Big, Rk4.loop1, Rk4.loop2, Rk4.loop3, Rk4.loop4, fillTo]
    simp
    ring
  refine ⟨fun h => ?_, key⟩
  obtain ⟨h1, s', h2, h3⟩ := key 1 1 (fun _ _ _ => 0) (fun _ _ => 0) (fun _ => ⟨fun _ _ => 0, fun _ => 0⟩) (fun _ _ => 0) (fun _ _ => 0)
  have := (h (hdSlides 1) [0] [0] [1] [1] [] 1 [0] [0] [0] [0] (fun _ _ _ => 0) (fun _ _ => 0) (fun _ => ⟨fun _ _ => 0, fun _ => 0⟩)
    (fun _ _ => 0) (fun _ _ => 0) s' (fun k q v z => ⟨E_SIZE_MISMATCH, by decide, h1 k q v z⟩) h2).2
  rw [h3] at this
  norm_num at this

/-- What holds: as long as the solver computes the accelerations, nothing else depends on the contents of `q_dotdot`, `dq`,
`dq_dot`, `q_temp` and `q_dot_temp` before the step.  Missing: the failing calls, see `C72_error_violated`. -/
theorem C72_work_arrays_partial {n : ℕ} (fd : ℕ → List ℝ → List ℝ → List ℝ → Option FdResult)
    (acc : (Fin n → ℝ) → (Fin n → ℝ) → Fin n → ℝ) (hfd : Computes fd acc) (dt : ℝ) (q v : Fin n → ℝ) (s t : Rk4) (hs : s.Sized q v)
    (ht : t.Sized q v) : ∃ s' t', rk4Integrator fd n dt s = some (.ret s') ∧ rk4Integrator fd n dt t = some (.ret t') ∧
      s'.q = t'.q ∧ s'.qd = t'.qd ∧ s'.qdd = t'.qdd := by
  obtain ⟨s', h1, h2, h3, h4⟩ := C72_step fd acc hfd dt q v s hs.q hs.v hs.qdd hs.dq hs.dqd hs.qt hs.qdt
  obtain ⟨t', h1', h2', h3', h4'⟩ := C72_step fd acc hfd dt q v t ht.q ht.v ht.qdd ht.dq ht.dqd ht.qt ht.qdt
  exact ⟨s', t', h1, h1', by rw [h2, h2'], by rw [h3, h3'], by rw [h4, h4']⟩

/-- If the arrays are too short for `nj` the step has undefined behaviour (unless the solver leaves NaNs). -/
theorem C72_short (fd : ℕ → List ℝ → List ℝ → List ℝ → Option FdResult) (nj : ℕ) (dt : ℝ) (s : Rk4)
    (h : s.q.length < nj ∨ s.qd.length < nj ∨ s.dq.length < nj ∨ s.dqd.length < nj ∨ s.qt.length < nj ∨ s.qdt.length < nj) (e : Int) (z : List ℝ)
    (hfd : fd 0 s.q s.qd s.qdd = some (.ret e z)) : rk4Integrator fd nj dt s = none := by
  unfold rk4Integrator Rk4.stage
  simp only [if_true, hfd, Option.bind_eq_bind, Option.bind_some]
  rw [if_neg (by simp only [Rk4.Big]; omega)]
  rfl

theorem fillTo_big {n m : ℕ} (a : List ℝ) (h : n ≤ a.length) (f : ℕ → ℝ) (hm : m = n) : m ≤ (fillTo n a f).length := by
  unfold fillTo
  rw [List.length_append, List.length_map, List.length_range]
  omega

theorem stage_defined {fd : List ℝ → List ℝ → List ℝ → Option FdResult} {nj : ℕ}
    (hfd : ∀ a b z, ∃ r, fd a b z = some r ∧ ∀ e z', r = .ret e z' → nj ≤ z'.length) (first : Bool) {loop : Rk4 → Rk4}
    (hl : ∀ s, Rk4.Big nj s → Rk4.Big nj (loop s)) {s : Rk4} (hs : s.Big nj) :
    ∃ r, s.stage fd nj first loop = some r ∧ ∀ s', r = .ret s' → s'.Big nj := by
  obtain ⟨r, h1, h2⟩ : ∃ r, (if first then fd s.q s.qd s.qdd else fd s.qt s.qdt s.qdd) = some r ∧
      ∀ e z', r = .ret e z' → nj ≤ z'.length := by
    cases first
    · exact hfd _ _ _
    · exact hfd _ _ _
  unfold Rk4.stage
  rw [h1]
  simp only [Option.bind_eq_bind, Option.bind_some]
  cases r with
  | nan => exact ⟨.nan, rfl, fun s' h => by cases h⟩
  | ret e z =>
    have hb : Rk4.Big nj { s with qdd := z } := ⟨hs.1, hs.2.1, h2 e z rfl, hs.2.2.2⟩
    dsimp only
    rw [if_pos hb]
    exact ⟨_, rfl, fun s' h => by cases h; exact hl _ hb⟩

/-- With arrays that are long enough and a solver that always comes back (with accelerations or with NaNs) the integrator comes
back too; NaNs of the first call end the step whatever the arrays are. -/
theorem C72_defined (fd : ℕ → List ℝ → List ℝ → List ℝ → Option FdResult) (nj : ℕ) (dt : ℝ) (s : Rk4) :
    ((∀ k a b z, ∃ r, fd k a b z = some r ∧ ∀ e z', r = .ret e z' → nj ≤ z'.length) → s.Big nj →
      ∃ r, rk4Integrator fd nj dt s = some r ∧ ∀ s', r = .ret s' → s'.Big nj) ∧
    (fd 0 s.q s.qd s.qdd = some .nan → rk4Integrator fd nj dt s = some .nan) := by
  constructor
  · intro hfd hs
    have hl : ∀ {loop : Rk4 → Rk4} (k : ℕ), (∀ s, Rk4.Big nj s → Rk4.Big nj (loop s)) → ∀ r : Rk4Result, (∀ s', r = .ret s' → s'.Big nj) →
        ∃ r', (r.andThen fun s => s.stage (fd k) nj false loop) = some r' ∧ ∀ s', r' = .ret s' → s'.Big nj := by
      intro loop k h r hr
      cases r with
      | nan => exact ⟨.nan, rfl, fun s' h => by cases h⟩
      | ret s => exact stage_defined (hfd k) false h (hr s rfl)
    have b1 : ∀ s, Rk4.Big nj s → Rk4.Big nj (Rk4.loop1 nj dt s) := fun s h =>
      ⟨h.1, h.2.1, h.2.2.1, fillTo_big _ h.2.2.2.1 _ rfl, fillTo_big _ h.2.2.2.2.1 _ rfl, fillTo_big _ h.2.2.2.2.2.1 _ rfl,
        fillTo_big _ h.2.2.2.2.2.2 _ rfl⟩
    have b2 : ∀ s, Rk4.Big nj s → Rk4.Big nj (Rk4.loop2 nj dt s) := fun s h =>
      ⟨h.1, h.2.1, h.2.2.1, fillTo_big _ h.2.2.2.1 _ rfl, fillTo_big _ h.2.2.2.2.1 _ rfl, fillTo_big _ h.2.2.2.2.2.1 _ rfl,
        fillTo_big _ h.2.2.2.2.2.2 _ rfl⟩
    have b3 : ∀ s, Rk4.Big nj s → Rk4.Big nj (Rk4.loop3 nj dt s) := fun s h =>
      ⟨h.1, h.2.1, h.2.2.1, fillTo_big _ h.2.2.2.1 _ rfl, fillTo_big _ h.2.2.2.2.1 _ rfl, fillTo_big _ h.2.2.2.2.2.1 _ rfl,
        fillTo_big _ h.2.2.2.2.2.2 _ rfl⟩
    have b4 : ∀ s, Rk4.Big nj s → Rk4.Big nj (Rk4.loop4 nj dt s) := fun s h =>
      ⟨fillTo_big _ h.1 _ rfl, fillTo_big _ h.2.1 _ rfl, h.2.2.1, fillTo_big _ h.2.2.2.1 _ rfl, fillTo_big _ h.2.2.2.2.1 _ rfl,
        h.2.2.2.2.2.1, h.2.2.2.2.2.2⟩
    obtain ⟨r1, e1, h1⟩ := stage_defined (hfd 0) true b1 hs
    obtain ⟨r2, e2, h2⟩ := hl 1 b2 r1 h1
    obtain ⟨r3, e3, h3⟩ := hl 2 b3 r2 h2
    obtain ⟨r4, e4, h4⟩ := hl 3 b4 r3 h3
    refine ⟨r4, ?_, h4⟩
    unfold rk4Integrator
    simp only [Option.bind_eq_bind]
    rw [e1, Option.bind_some, e2, Option.bind_some, e3, Option.bind_some, e4]
  · intro h
    unfold rk4Integrator Rk4.stage
    rw [if_pos rfl, h]
    rfl

/-- A solver that fails with NaNs at the second call only. -/
example : ∃ (fd : ℕ → List ℝ → List ℝ → List ℝ → Option FdResult) (s : Rk4), s.Big 1 ∧
    (∀ k a b z, ∃ r, fd k a b z = some r ∧ ∀ e z', r = .ret e z' → 1 ≤ z'.length) ∧ fd 1 [0] [0] [0] = some .nan ∧
    fd 0 s.q s.qd s.qdd ≠ some .nan :=
  ⟨fun k _ _ _ => if k = 1 then some .nan else some (.ret E_NOERROR [0]), ⟨[0], [0], [0], [0], [0], [0], [0]⟩, by simp [Rk4.Big],
    fun k a b z => by
      by_cases h : k = 1
      · exact ⟨.nan, by simp [h], fun e z' h => by cases h⟩
      · exact ⟨.ret E_NOERROR [0], by simp [h], fun e z' h => by cases h; simp⟩,
    by simp, by simp⟩

/-- The hypotheses are satisfiable: the example chain with gravity. -/
example (τ1 τ2 : ℝ) : ∃ acc : (Fin 2 → ℝ) → (Fin 2 → ℝ) → Fin 2 → ℝ, ∃ fd : ℕ → List ℝ → List ℝ → List ℝ → Option FdResult,
    (fd = fun _ q v z => fdRne (.new exChain ⟨0, 0, -9.81⟩) exChain q v [τ1, τ2] [0, 0, 0] z (fun _ _ => 7) (fun _ => 7)
      ⟨fun _ _ => 7, fun _ => 7⟩ (fun _ => 7) (fun _ => 7)) ∧ Computes fd acc ∧
    (⟨[1, 2], [3, 4], [5, 6], [7, 8], [9, 10], [11, 12], [13, 14]⟩ : Rk4).Sized ![1, 2] ![3, 4] := by
  obtain ⟨h1, h2, h3, h4⟩ := exChain_ok
  obtain ⟨acc, -, h⟩ := C72_solver exChain h1 h2 h3 h4 ⟨0, 0, -9.81⟩ [τ1, τ2] [0, 0, 0] rfl rfl
  exact ⟨acc, _, rfl, h (fun _ _ _ => 7) (fun _ _ => 7) (fun _ => ⟨fun _ _ => 7, fun _ => 7⟩) (fun _ _ => 7) (fun _ _ => 7),
    by simp, by simp, rfl, rfl, rfl, rfl, rfl⟩

end KDL
