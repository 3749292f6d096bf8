import Verif.Model.Stiffness
import Verif.Props.EulerAngles
import Verif.Lemmas.Rotations

/-! C75: diagonal stiffness.  C77: random objects. -/

namespace KDL
open Real

/-! ## C75 -/

/-- **C75, `Inverse` undoes the product**, both ways, if no entry is zero.  Missing: zero entries (`C75_inverse_violated`). -/
theorem C75_inverse_partial (s : Stiffness) (h : ∀ i, s.data i ≠ 0) :
    (∀ t, s.inverse (s.mulTwist t) = some t) ∧ ∀ w, ∃ t, s.inverse w = some t ∧ s.mulTwist t = w := by
  have h0 := h 0; have h1 := h 1; have h2 := h 2; have h3 := h 3; have h4 := h 4; have h5 := h 5
  constructor
  · intro t
    simp only [Stiffness.inverse, Stiffness.quo, if_neg h0, if_neg h1, if_neg h2, if_neg h3, if_neg h4, if_neg h5]
    refine congrArg some ?_
    ext <;> simp only [Stiffness.mulTwist] <;> field_simp
  · intro w
    simp only [Stiffness.inverse, Stiffness.quo, if_neg h0, if_neg h1, if_neg h2, if_neg h3, if_neg h4, if_neg h5]
    refine ⟨_, rfl, ?_⟩
    ext <;> simp only [Stiffness.mulTwist] <;> field_simp

/-- **C75 fails for a stiffness with a zero entry**, such as the one default constructed: whatever the wrench, `Inverse`
divides by zero. -/
theorem C75_inverse_violated (s : Stiffness) (i : Fin 6) (h : s.data i = 0) (w : Wrench) : s.inverse w = none := by
  unfold Stiffness.inverse Stiffness.quo
  fin_cases i <;> simp at h <;> simp only [h, if_true]
  all_goals
    split_ifs <;> rfl

/-- The product is linear in the twist … -/
theorem C75_linear (s : Stiffness) (a : ℝ) (t u : Twist) : s.mulTwist (a • t + u) = a • s.mulTwist t + s.mulTwist u := by
  ext <;> simp [Stiffness.mulTwist] <;> ring

/-- … and in the stiffness (springs in parallel). -/
theorem C75_add (a b : Stiffness) (t : Twist) : (a.add b).mulTwist t = a.mulTwist t + b.mulTwist t := by
  ext <;> simp [Stiffness.mulTwist, Stiffness.add] <;> ring

/-- The product is self-adjoint, as the derivative of a potential is. -/
theorem C75_symmetric (s : Stiffness) (t u : Twist) : t.dot (s.mulTwist u) = u.dot (s.mulTwist t) := by
  simp only [Twist.dot, Vec.dot, Stiffness.mulTwist]; ring

/-- Deflecting a spring with non-negative entries takes work, with positive entries a positive amount unless the
deflection is zero. -/
theorem C75_work (s : Stiffness) (t : Twist) :
    ((∀ i, 0 ≤ s.data i) → 0 ≤ t.dot (s.mulTwist t)) ∧ ((∀ i, 0 < s.data i) → t ≠ 0 → 0 < t.dot (s.mulTwist t)) := by
  have e : t.dot (s.mulTwist t) = s.data 0 * t.vel.x ^ 2 + s.data 1 * t.vel.y ^ 2 + s.data 2 * t.vel.z ^ 2 +
      s.data 3 * t.rot.x ^ 2 + s.data 4 * t.rot.y ^ 2 + s.data 5 * t.rot.z ^ 2 := by
    simp only [Twist.dot, Vec.dot, Stiffness.mulTwist]; ring
  constructor
  · intro h
    rw [e]
    have h0 := h 0; have h1 := h 1; have h2 := h 2; have h3 := h 3; have h4 := h 4; have h5 := h 5
    positivity
  · intro h ht
    rw [e]
    have h0 := h 0; have h1 := h 1; have h2 := h 2; have h3 := h 3; have h4 := h 4; have h5 := h 5
    by_contra hc
    refine ht ?_
    have p0 : 0 ≤ s.data 0 * t.vel.x ^ 2 := by positivity
    have p1 : 0 ≤ s.data 1 * t.vel.y ^ 2 := by positivity
    have p2 : 0 ≤ s.data 2 * t.vel.z ^ 2 := by positivity
    have p3 : 0 ≤ s.data 3 * t.rot.x ^ 2 := by positivity
    have p4 : 0 ≤ s.data 4 * t.rot.y ^ 2 := by positivity
    have p5 : 0 ≤ s.data 5 * t.rot.z ^ 2 := by positivity
    have z : ∀ {a b : ℝ}, 0 < a → a * b ^ 2 = 0 → b = 0 := fun ha h => by
      rcases mul_eq_zero.mp h with h | h
      · exact absurd h ha.ne'
      · exact pow_eq_zero_iff (two_ne_zero) |>.mp h
    ext
    · exact z h0 (by linarith)
    · exact z h1 (by linarith)
    · exact z h2 (by linarith)
    · exact z h3 (by linarith)
    · exact z h4 (by linarith)
    · exact z h5 (by linarith)

/-- Construction and access: entry `i` of the six given is the stiffness against component `i`; the array constructor reads
six values, the default constructor sets zeros. -/
theorem C75_entries (x y z rx ry rz : ℝ) (l : List ℝ) :
    Stiffness.ofArray (x :: y :: z :: rx :: ry :: rz :: l) = some (.mk6 x y z rx ry rz) ∧
    (Stiffness.mk6 x y z rx ry rz).mulTwist ⟨⟨1, 1, 1⟩, ⟨1, 1, 1⟩⟩ = ⟨⟨x, y, z⟩, ⟨rx, ry, rz⟩⟩ ∧
    (Stiffness.mk6 x y z rx ry rz).get 0 = some x ∧ (Stiffness.mk6 x y z rx ry rz).get 1 = some y ∧
    (Stiffness.mk6 x y z rx ry rz).get 2 = some z ∧ (Stiffness.mk6 x y z rx ry rz).get 3 = some rx ∧
    (Stiffness.mk6 x y z rx ry rz).get 4 = some ry ∧ (Stiffness.mk6 x y z rx ry rz).get 5 = some rz ∧
    (∀ i, Stiffness.zero.data i = 0) ∧
    (∀ (s : Stiffness) i, (0 ≤ i ∧ i < 6) ↔ (s.get i).isSome) ∧
    ∀ d : List ℝ, 6 ≤ d.length ↔ (Stiffness.ofArray d).isSome := by
  refine ⟨rfl, ?_, rfl, rfl, rfl, rfl, rfl, rfl, ?_, ?_, ?_⟩
  · ext <;> simp [Stiffness.mulTwist, Stiffness.mk6]
  · intro i; fin_cases i <;> rfl
  · intro s i
    unfold Stiffness.get
    split_ifs with h <;> simp [h]
  · intro d
    rcases d with _ | ⟨a, _ | ⟨b, _ | ⟨c, _ | ⟨d, _ | ⟨e, _ | ⟨f, l⟩⟩⟩⟩⟩⟩ <;> simp [Stiffness.ofArray]

/-- Springs in series: the deflections under the same wrench add up, and equal that of the one spring whose inverse entries
are the sums. -/
theorem C75_series (a b c : Stiffness) (ha : ∀ i, a.data i ≠ 0) (hb : ∀ i, b.data i ≠ 0) (hc : ∀ i, c.data i ≠ 0)
    (h : ∀ i, (c.data i)⁻¹ = (a.data i)⁻¹ + (b.data i)⁻¹) (w : Wrench) :
    ∃ t u v, a.inverse w = some t ∧ b.inverse w = some u ∧ c.inverse w = some v ∧ v = t + u := by
  have e : ∀ s : Stiffness, (∀ i, s.data i ≠ 0) → s.inverse w = some ⟨⟨w.force.x / s.data 0, w.force.y / s.data 1,
      w.force.z / s.data 2⟩, ⟨w.torque.x / s.data 3, w.torque.y / s.data 4, w.torque.z / s.data 5⟩⟩ := fun s hs => by
    simp only [Stiffness.inverse, Stiffness.quo, if_neg (hs 0), if_neg (hs 1), if_neg (hs 2), if_neg (hs 3), if_neg (hs 4),
      if_neg (hs 5)]; rfl
  refine ⟨_, _, _, e a ha, e b hb, e c hc, ?_⟩
  ext <;> simp [div_eq_mul_inv, h] <;> ring

example : ∃ s : Stiffness, (∀ i, s.data i ≠ 0) ∧ ∀ i, 0 < s.data i :=
  ⟨⟨fun _ => 2⟩, fun _ => by norm_num, fun _ => by norm_num⟩

/-! ## C77

`rand` gives any sequence of numbers between 0 and 1. -/

namespace Random

/-- The values of `rand()/(double)RAND_MAX`. -/
def Draws (ω : ℕ → ℝ) : Prop := ∀ n, 0 ≤ ω n ∧ ω n ≤ 1

/-- All components between `a` and `b`. -/
def In (a b : ℝ) (v : Vec) : Prop := (a ≤ v.x ∧ v.x ≤ b) ∧ (a ≤ v.y ∧ v.y ≤ b) ∧ (a ≤ v.z ∧ v.z ≤ b)

theorem random_eq (ω : ℕ → ℝ) (n : ℕ) : random ω n = (1.98 * ω n - 0.99, n + 1) := rfl
theorem posrandom_eq (ω : ℕ → ℝ) (n : ℕ) : posrandom ω n = (0.001 + 0.99 * ω n, n + 1) := rfl

theorem in_random {ω : ℕ → ℝ} (h : Draws ω) (n : ℕ) : -0.99 ≤ 1.98 * ω n - 0.99 ∧ 1.98 * ω n - 0.99 ≤ 0.99 := by
  obtain ⟨h1, h2⟩ := h n
  constructor <;> norm_num <;> linarith
theorem in_posrandom {ω : ℕ → ℝ} (h : Draws ω) (n : ℕ) : 0.001 ≤ 0.001 + 0.99 * ω n ∧ 0.001 + 0.99 * ω n ≤ 0.991 := by
  obtain ⟨h1, h2⟩ := h n
  constructor <;> norm_num <;> linarith

/-- **C77, ranges.**  Components drawn by `random` lie between -0.99 and 0.99, rotations are proper … -/
theorem C77_random (ω : ℕ → ℝ) (h : Draws ω) (n : ℕ) :
    In (-0.99) 0.99 (randomVec ω n).1 ∧
    (In (-0.99) 0.99 (randomTwist ω n).1.vel ∧ In (-0.99) 0.99 (randomTwist ω n).1.rot) ∧
    (In (-0.99) 0.99 (randomWrench ω n).1.force ∧ In (-0.99) 0.99 (randomWrench ω n).1.torque) ∧
    (randomRot ω n).1.IsProper ∧ (randomFrame ω n).1.M.IsProper ∧ In (-0.99) 0.99 (randomFrame ω n).1.p ∧
    (randomFrameVel ω n).1.M.R.IsProper ∧ In (-0.99) 0.99 (randomFrameVel ω n).1.M.w ∧
    In (-0.99) 0.99 (randomFrameVel ω n).1.p.p ∧ In (-0.99) 0.99 (randomFrameVel ω n).1.p.v ∧
    In (-0.99) 0.99 (randomTwistVel ω n).1.vel.p ∧ In (-0.99) 0.99 (randomTwistVel ω n).1.vel.v ∧
    In (-0.99) 0.99 (randomTwistVel ω n).1.rot.p ∧ In (-0.99) 0.99 (randomTwistVel ω n).1.rot.v ∧
    (-0.99 ≤ (randomDoubleVel ω n).1.t ∧ (randomDoubleVel ω n).1.t ≤ 0.99) ∧
    (-0.99 ≤ (randomDoubleVel ω n).1.grad ∧ (randomDoubleVel ω n).1.grad ≤ 0.99) := by
  have hv : ∀ n, In (-0.99) 0.99 (randomVec ω n).1 := fun n => ⟨in_random h _, in_random h _, in_random h _⟩
  have hr : ∀ n, (randomRot ω n).1.IsProper := fun n => Rot.isProper_rpy _ _ _
  exact ⟨hv _, ⟨hv _, hv _⟩, ⟨hv _, hv _⟩, hr _, hr _, hv _, hr _, hv _, hv _, hv _, hv _, hv _, hv _, hv _, in_random h _,
    in_random h _⟩

/-- … and components drawn by `posrandom` are positive, between 0.001 and 0.991.  Missing: frames, for which `posrandom` draws
as `random` does (`C77_posframe_violated`). -/
theorem C77_posrandom_partial (ω : ℕ → ℝ) (h : Draws ω) (n : ℕ) :
    In 0.001 0.991 (posrandomVec ω n).1 ∧
    (In 0.001 0.991 (posrandomTwist ω n).1.vel ∧ In 0.001 0.991 (posrandomTwist ω n).1.rot) ∧
    (In 0.001 0.991 (posrandomWrench ω n).1.force ∧ In 0.001 0.991 (posrandomWrench ω n).1.torque) ∧
    (posrandomRot ω n).1.IsProper ∧ (posrandomFrameVel ω n).1.M.R.IsProper ∧
    In 0.001 0.991 (posrandomFrameVel ω n).1.M.w ∧ In 0.001 0.991 (posrandomFrameVel ω n).1.p.p ∧
    In 0.001 0.991 (posrandomFrameVel ω n).1.p.v ∧
    (In 0.001 0.991 (posrandomTwistVel ω n).1.vel.p ∧ In 0.001 0.991 (posrandomTwistVel ω n).1.vel.v) ∧
    (In 0.001 0.991 (posrandomTwistVel ω n).1.rot.p ∧ In 0.001 0.991 (posrandomTwistVel ω n).1.rot.v) ∧
    ((0.001 ≤ (posrandomDoubleVel ω n).1.t ∧ (posrandomDoubleVel ω n).1.t ≤ 0.991) ∧
      0.001 ≤ (posrandomDoubleVel ω n).1.grad ∧ (posrandomDoubleVel ω n).1.grad ≤ 0.991) ∧
    ∀ i, 0.001 ≤ (posrandomStiffness ω n).1.data i ∧ (posrandomStiffness ω n).1.data i ≤ 0.991 := by
  have hv : ∀ n, In 0.001 0.991 (posrandomVec ω n).1 := fun n => ⟨in_posrandom h _, in_posrandom h _, in_posrandom h _⟩
  have hr : ∀ n, (posrandomRot ω n).1.IsProper := fun n => Rot.isProper_rpy _ _ _
  refine ⟨hv _, ⟨hv _, hv _⟩, ⟨hv _, hv _⟩, hr _, hr _, hv _, hv _, hv _, ⟨hv _, hv _⟩, ⟨hv _, hv _⟩,
    ⟨in_posrandom h _, in_posrandom h _⟩, fun i => ?_⟩
  fin_cases i <;> exact in_posrandom h _

/-- A random stiffness can be inverted. -/
theorem C77_stiffness (ω : ℕ → ℝ) (h : Draws ω) (n : ℕ) (w : Wrench) :
    ∃ t, (posrandomStiffness ω n).1.inverse w = some t ∧ (posrandomStiffness ω n).1.mulTwist t = w :=
  (C75_inverse_partial _ fun i => by
    have := ((C77_posrandom_partial ω h n).2.2.2.2.2.2.2.2.2.2.2 i).1
    intro e
    rw [e] at this
    norm_num at this).2 w

/-- **C77 fails for `posrandom(Frame&)`**: a frame with negative coordinates can be drawn. -/
theorem C77_posframe_violated : ∃ ω, Draws ω ∧ ∀ n, (posrandomFrame ω n).1.p.x < 0 ∧ (posrandomFrame ω n).1.p.y < 0 ∧
    (posrandomFrame ω n).1.p.z < 0 := by
  refine ⟨fun _ => 0, fun _ => ⟨le_rfl, zero_le_one⟩, fun n => ?_⟩
  have e : (posrandomFrame (fun _ => 0) n).1.p = ⟨1.98 * 0 - 0.99, 1.98 * 0 - 0.99, 1.98 * 0 - 0.99⟩ := rfl
  rw [e]
  norm_num

/-- What `posrandom(Frame&)` does establish: a proper rotation, and coordinates between -0.99 and 0.99. -/
theorem C77_posframe_partial (ω : ℕ → ℝ) (h : Draws ω) (n : ℕ) :
    (posrandomFrame ω n).1.M.IsProper ∧ In (-0.99) 0.99 (posrandomFrame ω n).1.p :=
  ⟨Rot.isProper_rpy _ _ _, in_random h _, in_random h _, in_random h _⟩

/-- **C77, independence.**  Each component has a call of `rand` of its own, in the order of the source, and all values in the
range are possible: given any objects in the range there are draws that produce them. -/
theorem C77_reach (n : ℕ) (a b c d : Vec) (ha : In (-0.99) 0.99 a) (hb : In (-0.99) 0.99 b) (hc : In (-0.99) 0.99 c)
    (hd : In (-0.99) 0.99 d) :
    ∃ ω, Draws ω ∧ randomVec ω n = (a, n + 3) ∧ randomTwist ω n = (⟨b, a⟩, n + 6) ∧ randomWrench ω n = (⟨b, a⟩, n + 6) ∧
      randomRot ω n = (Rot.eulerZYX a.x a.y a.z, n + 3) ∧ randomFrame ω n = (⟨Rot.eulerZYX a.x a.y a.z, b⟩, n + 6) ∧
      randomVecVel ω n = (⟨a, b⟩, n + 6) ∧ randomTwistVel ω n = (⟨⟨a, b⟩, ⟨c, d⟩⟩, n + 12) ∧
      randomRotVel ω n = (⟨Rot.eulerZYX a.x a.y a.z, b⟩, n + 6) ∧
      randomFrameVel ω n = (⟨⟨Rot.eulerZYX a.x a.y a.z, b⟩, ⟨c, d⟩⟩, n + 12) ∧
      randomDoubleVel ω n = (⟨a.x, a.y⟩, n + 2) := by
  let l : List ℝ := [a.x, a.y, a.z, b.x, b.y, b.z, c.x, c.y, c.z, d.x, d.y, d.z]
  let ω : ℕ → ℝ := fun k => (l.getD (k - n) 0 + 0.99) / 1.98
  have hl : ∀ x ∈ l, -0.99 ≤ x ∧ x ≤ 0.99 := by
    intro x hx
    simp only [l, List.mem_cons, List.not_mem_nil, or_false] at hx
    obtain ⟨a1, a2, a3⟩ := ha
    obtain ⟨b1, b2, b3⟩ := hb
    obtain ⟨c1, c2, c3⟩ := hc
    obtain ⟨d1, d2, d3⟩ := hd
    rcases hx with rfl | rfl | rfl | rfl | rfl | rfl | rfl | rfl | rfl | rfl | rfl | rfl <;> assumption
  have hω : Draws ω := by
    intro k
    have : -0.99 ≤ l.getD (k - n) 0 ∧ l.getD (k - n) 0 ≤ 0.99 := by
      rw [List.getD_eq_getElem?_getD]
      cases h : l[k - n]? with
      | none => norm_num
      | some x => exact hl x (List.mem_of_getElem? h)
    simp only [ω]
    norm_num at this ⊢
    constructor <;> linarith
  have key : ∀ k, random ω (n + k) = (l.getD k 0, n + k + 1) := by
    intro k
    rw [random_eq]
    simp only [ω, Nat.add_sub_cancel_left]
    refine Prod.ext ?_ rfl
    norm_num
    ring
  have k0 : random ω n = (a.x, n + 1) := key 0
  have k1 : random ω (n + 1) = (a.y, n + 2) := key 1
  have k2 : random ω (n + 2) = (a.z, n + 3) := key 2
  have k3 : random ω (n + 3) = (b.x, n + 4) := key 3
  have k4 : random ω (n + 4) = (b.y, n + 5) := key 4
  have k5 : random ω (n + 5) = (b.z, n + 6) := key 5
  have k6 : random ω (n + 6) = (c.x, n + 7) := key 6
  have k7 : random ω (n + 7) = (c.y, n + 8) := key 7
  have k8 : random ω (n + 8) = (c.z, n + 9) := key 8
  have k9 : random ω (n + 9) = (d.x, n + 10) := key 9
  have k10 : random ω (n + 10) = (d.y, n + 11) := key 10
  have k11 : random ω (n + 11) = (d.z, n + 12) := key 11
  have vec : ∀ m x y z, random ω m = (x, m + 1) → random ω (m + 1) = (y, m + 2) → random ω (m + 2) = (z, m + 3) →
      randomVec ω m = (⟨x, y, z⟩, m + 3) ∧ randomRot ω m = (Rot.eulerZYX x y z, m + 3) := by
    intro m x y z h1 h2 h3
    refine ⟨?_, ?_⟩
    · simp only [randomVec, bind, StateT.bind, pure, StateT.pure, h1, h2, h3]
    · simp only [randomRot, bind, StateT.bind, pure, StateT.pure, h1, h2, h3]
  obtain ⟨v0, r0⟩ := vec n _ _ _ k0 k1 k2
  obtain ⟨v3, -⟩ := vec (n + 3) _ _ _ k3 k4 k5
  obtain ⟨v6, -⟩ := vec (n + 6) _ _ _ k6 k7 k8
  obtain ⟨v9, -⟩ := vec (n + 9) _ _ _ k9 k10 k11
  have vv0 : randomVecVel ω n = (⟨a, b⟩, n + 6) := by
    simp only [randomVecVel, bind, StateT.bind, pure, StateT.pure, v0, v3]
  have vv6 : randomVecVel ω (n + 6) = (⟨c, d⟩, n + 12) := by
    simp only [randomVecVel, bind, StateT.bind, pure, StateT.pure, v6, v9]
  have rv : randomRotVel ω n = (⟨Rot.eulerZYX a.x a.y a.z, b⟩, n + 6) := by
    simp only [randomRotVel, bind, StateT.bind, pure, StateT.pure, r0, v3]
  refine ⟨ω, hω, v0, ?_, ?_, r0, ?_, vv0, ?_, rv, ?_, ?_⟩
  · simp only [randomTwist, bind, StateT.bind, pure, StateT.pure, v0, v3]
  · simp only [randomWrench, bind, StateT.bind, pure, StateT.pure, v0, v3]
  · simp only [randomFrame, bind, StateT.bind, pure, StateT.pure, r0, v3]
  · simp only [randomTwistVel, bind, StateT.bind, pure, StateT.pure, vv0, vv6]
  · simp only [randomFrameVel, bind, StateT.bind, pure, StateT.pure, rv, vv6]
  · simp only [randomDoubleVel, bind, StateT.bind, pure, StateT.pure, k0, k1]

/-- The same for `posrandom`. -/
theorem C77_posreach_partial (n : ℕ) (a b c d : Vec) (ha : In 0.001 0.991 a) (hb : In 0.001 0.991 b) (hc : In 0.001 0.991 c)
    (hd : In 0.001 0.991 d) :
    ∃ ω, Draws ω ∧ posrandomVec ω n = (a, n + 3) ∧ posrandomTwist ω n = (⟨b, a⟩, n + 6) ∧
      posrandomWrench ω n = (⟨b, a⟩, n + 6) ∧ posrandomRot ω n = (Rot.eulerZYX a.x a.y a.z, n + 3) ∧
      posrandomStiffness ω n = (.mk6 a.x a.y a.z b.x b.y b.z, n + 6) ∧
      posrandomVecVel ω n = (⟨a, b⟩, n + 6) ∧
      posrandomFrameVel ω n = (⟨⟨Rot.eulerZYX a.x a.y a.z, b⟩, ⟨c, d⟩⟩, n + 12) ∧
      posrandomTwistVel ω n = (⟨⟨a, b⟩, ⟨c, d⟩⟩, n + 12) ∧ posrandomDoubleVel ω n = (⟨a.x, a.y⟩, n + 2) := by
  let l : List ℝ := [a.x, a.y, a.z, b.x, b.y, b.z, c.x, c.y, c.z, d.x, d.y, d.z]
  let ω : ℕ → ℝ := fun k => (l.getD (k - n) 0.001 - 0.001) / 0.99
  have hl : ∀ x ∈ l, 0.001 ≤ x ∧ x ≤ 0.991 := by
    intro x hx
    simp only [l, List.mem_cons, List.not_mem_nil, or_false] at hx
    obtain ⟨a1, a2, a3⟩ := ha
    obtain ⟨b1, b2, b3⟩ := hb
    obtain ⟨c1, c2, c3⟩ := hc
    obtain ⟨d1, d2, d3⟩ := hd
    rcases hx with rfl | rfl | rfl | rfl | rfl | rfl | rfl | rfl | rfl | rfl | rfl | rfl <;> assumption
  have hω : Draws ω := by
    intro k
    have : 0.001 ≤ l.getD (k - n) 0.001 ∧ l.getD (k - n) 0.001 ≤ 0.991 := by
      rw [List.getD_eq_getElem?_getD]
      cases h : l[k - n]? with
      | none => norm_num
      | some x => exact hl x (List.mem_of_getElem? h)
    simp only [ω]
    norm_num at this ⊢
    constructor <;> linarith
  have key : ∀ k, posrandom ω (n + k) = (l.getD k 0.001, n + k + 1) := by
    intro k
    rw [posrandom_eq]
    simp only [ω, Nat.add_sub_cancel_left]
    refine Prod.ext ?_ rfl
    norm_num
    ring
  have k0 : posrandom ω n = (a.x, n + 1) := key 0
  have k1 : posrandom ω (n + 1) = (a.y, n + 2) := key 1
  have k2 : posrandom ω (n + 2) = (a.z, n + 3) := key 2
  have k3 : posrandom ω (n + 3) = (b.x, n + 4) := key 3
  have k4 : posrandom ω (n + 4) = (b.y, n + 5) := key 4
  have k5 : posrandom ω (n + 5) = (b.z, n + 6) := key 5
  have k6 : posrandom ω (n + 6) = (c.x, n + 7) := key 6
  have k7 : posrandom ω (n + 7) = (c.y, n + 8) := key 7
  have k8 : posrandom ω (n + 8) = (c.z, n + 9) := key 8
  have k9 : posrandom ω (n + 9) = (d.x, n + 10) := key 9
  have k10 : posrandom ω (n + 10) = (d.y, n + 11) := key 10
  have k11 : posrandom ω (n + 11) = (d.z, n + 12) := key 11
  have vec : ∀ m x y z, posrandom ω m = (x, m + 1) → posrandom ω (m + 1) = (y, m + 2) → posrandom ω (m + 2) = (z, m + 3) →
      posrandomVec ω m = (⟨x, y, z⟩, m + 3) ∧ posrandomRot ω m = (Rot.eulerZYX x y z, m + 3) := by
    intro m x y z h1 h2 h3
    refine ⟨?_, ?_⟩
    · simp only [posrandomVec, bind, StateT.bind, pure, StateT.pure, h1, h2, h3]
    · simp only [posrandomRot, bind, StateT.bind, pure, StateT.pure, h1, h2, h3]
  obtain ⟨v0, r0⟩ := vec n _ _ _ k0 k1 k2
  obtain ⟨v3, -⟩ := vec (n + 3) _ _ _ k3 k4 k5
  obtain ⟨v6, -⟩ := vec (n + 6) _ _ _ k6 k7 k8
  obtain ⟨v9, -⟩ := vec (n + 9) _ _ _ k9 k10 k11
  have vv0 : posrandomVecVel ω n = (⟨a, b⟩, n + 6) := by
    simp only [posrandomVecVel, bind, StateT.bind, pure, StateT.pure, v0, v3]
  have vv6 : posrandomVecVel ω (n + 6) = (⟨c, d⟩, n + 12) := by
    simp only [posrandomVecVel, bind, StateT.bind, pure, StateT.pure, v6, v9]
  have rv : posrandomRotVel ω n = (⟨Rot.eulerZYX a.x a.y a.z, b⟩, n + 6) := by
    simp only [posrandomRotVel, bind, StateT.bind, pure, StateT.pure, r0, v3]
  refine ⟨ω, hω, v0, ?_, ?_, r0, ?_, vv0, ?_, ?_, ?_⟩
  · simp only [posrandomTwist, bind, StateT.bind, pure, StateT.pure, v0, v3]
  · simp only [posrandomWrench, bind, StateT.bind, pure, StateT.pure, v0, v3]
  · simp only [posrandomStiffness, bind, StateT.bind, pure, StateT.pure, k0, k1, k2, k3, k4, k5]; rfl
  · simp only [posrandomFrameVel, bind, StateT.bind, pure, StateT.pure, rv, vv6]
  · simp only [posrandomTwistVel, bind, StateT.bind, pure, StateT.pure, vv0, vv6]
  · simp only [posrandomDoubleVel, bind, StateT.bind, pure, StateT.pure, k0, k1]

/-- **C77, angles.**  The angles drawn for a rotation are those `GetRPY` recovers: the rotation is away from the singularity of the
angles.  (In particular most rotations are never drawn.) -/
theorem C77_rotation_angles (ω : ℕ → ℝ) (h : Draws ω) (n : ℕ) :
    (randomRot ω n).1.getRPY = ⟨1.98 * ω (n + 2) - 0.99, 1.98 * ω (n + 1) - 0.99, 1.98 * ω n - 0.99⟩ := by
  have e : (randomRot ω n).1 = Rot.rpy (1.98 * ω (n + 2) - 0.99) (1.98 * ω (n + 1) - 0.99) (1.98 * ω n - 0.99) := rfl
  rw [e]
  have hpi := two_le_pi
  have h0 := in_random h n
  have h1 := in_random h (n + 1)
  have h2 := in_random h (n + 2)
  norm_num at h0 h1 h2
  refine C06_rpy_left_inverse _ _ _ ⟨?_, ?_⟩ ⟨?_, ?_⟩ (abs_le.mpr ⟨?_, ?_⟩) <;> norm_num <;> linarith

example : ∃ ω, Draws ω := ⟨fun _ => 1, fun _ => ⟨zero_le_one, le_rfl⟩⟩

end Random
end KDL
