import Verif.Model.JntArray
import Verif.Props.DualNumbers

/-! C30: joint array operations. -/

noncomputable section
namespace KDL
open JHeap JField
variable {n : ℕ}

/-! Each theorem compares entry `i` of the destination afterwards with the sources before the call; `at1`/`at2` read an
entry as a dual number, whose arithmetic is the sum/product/quotient rule (C16, C17). -/

/-- Sums and differences: right for every choice of objects, including destination = source. -/
theorem C30_add_sub (h : JHeap n) (a b d : ℕ) (r : ℕ × JField) (i : Fin n) :
    (addVel a b d h).at1 d i = (h.at1 a i).add (h.at1 b i) ∧
    (subVel a b d h).at1 d i = (h.at1 a i).sub (h.at1 b i) ∧
    (addVelJnt a r d h).at1 d i = ⟨h a q i + h r.1 r.2 i, h a qdot i⟩ ∧
    (subVelJnt a r d h).at1 d i = ⟨h a q i - h r.1 r.2 i, h a qdot i⟩ ∧
    (addAcc a b d h).at2 d i = (h.at2 a i).add (h.at2 b i) ∧
    (subAcc a b d h).at2 d i = (h.at2 a i).sub (h.at2 b i) ∧
    (addAccVel a b d h).at2 d i = ⟨h a q i + h b q i, h a qdot i + h b qdot i, h a qdotdot i⟩ ∧
    (subAccVel a b d h).at2 d i = ⟨h a q i - h b q i, h a qdot i - h b qdot i, h a qdotdot i⟩ ∧
    (addAccJnt a r d h).at2 d i = ⟨h a q i + h r.1 r.2 i, h a qdot i, h a qdotdot i⟩ ∧
    (subAccJnt a r d h).at2 d i = ⟨h a q i - h r.1 r.2 i, h a qdot i, h a qdotdot i⟩ := by
  refine ⟨?_, ?_, ?_, ?_, ?_, ?_, ?_, ?_, ?_, ?_⟩ <;>
    simp [addVel, subVel, addVelJnt, subVelJnt, addAcc, subAcc, addAccVel, subAccVel, addAccJnt, subAccJnt, at1, at2,
      add, sub, assign, JHeap.set, Rall1d.add, Rall1d.sub, Rall2d.add, Rall2d.sub]

/-- Plain scalar factors: right for every choice of objects. -/
theorem C30_scale (h : JHeap n) (a d : ℕ) (c : ℝ) (i : Fin n) :
    (mulVelDouble a c d h).at1 d i = ⟨c * h a q i, c * h a qdot i⟩ ∧
    (divVelDouble a c d h).at1 d i = ⟨h a q i / c, h a qdot i / c⟩ ∧
    (mulAccDouble a c d h).at2 d i = ⟨c * h a q i, c * h a qdot i, c * h a qdotdot i⟩ ∧
    (divAccDouble a c d h).at2 d i = ⟨h a q i / c, h a qdot i / c, h a qdotdot i / c⟩ := by
  refine ⟨?_, ?_, ?_, ?_⟩ <;>
    simp [mulVelDouble, divVelDouble, mulAccDouble, divAccDouble, at1, at2, mul, div, JHeap.set]

/-- Factors that carry derivatives, destination different from the source: the product and quotient rules.
The full property asks for the same when the destination is the source; that fails (below). -/
theorem C30_dual_partial (h : JHeap n) (a d : ℕ) (hne : a ≠ d) (i : Fin n) (c : Rall1d) (e : Rall2d) :
    (mulVelVel a c d h).at1 d i = (h.at1 a i).mul c ∧
    (c.t ≠ 0 → (divVelVel a c d h).at1 d i = (h.at1 a i).div c) ∧
    (mulAccVel a c d h).at2 d i = (h.at2 a i).mul ⟨c.t, c.grad, 0⟩ ∧
    (mulAccAcc a e d h).at2 d i = (h.at2 a i).mul e ∧
    (c.t ≠ 0 → (divAccVel a c d h).at2 d i = (h.at2 a i).div ⟨c.t, c.grad, 0⟩) ∧
    (e.t ≠ 0 → (divAccAcc a e d h).at2 d i = (h.at2 a i).div e) := by
  refine ⟨?_, ?_, ?_, ?_, ?_, ?_⟩
  · ext <;> simp [mulVelVel, at1, add, mul, JHeap.set, hne, Rall1d.mul] <;> ring
  · intro hc
    ext <;> simp [divVelVel, at1, sub, mul, div, JHeap.set, hne, Rall1d.div] <;> field_simp
  · ext <;> simp [mulAccVel, at2, add, mul, JHeap.set, hne, Rall2d.mul] <;> ring
  · ext <;> simp [mulAccAcc, at2, add, mul, JHeap.set, hne, Rall2d.mul] <;> ring
  · intro hc
    ext <;> simp [divAccVel, at2, add, sub, mul, div, JHeap.set, hne, Rall2d.div] <;> field_simp <;> ring
  · intro hc
    ext <;> simp [divAccAcc, at2, add, sub, mul, div, JHeap.set, hne, Rall2d.div] <;> field_simp <;> ring

/-- Spelled out: if entry `i` of the source represents the motion `f` and the factor represents `g`, the destination
represents `f g` / `f / g`, to second order. -/
theorem C30_motion_partial (h : JHeap n) (a d : ℕ) (hne : a ≠ d) (i : Fin n) (e : Rall2d) (f g : ℝ → ℝ) (τ : ℝ)
    (hf : (h.at2 a i).Rep f τ) (hg : e.Rep g τ) :
    ((mulAccAcc a e d h).at2 d i).Rep (fun s => f s * g s) τ ∧
    (g τ ≠ 0 → ((divAccAcc a e d h).at2 d i).Rep (fun s => f s / g s) τ) := by
  obtain ⟨_, _, _, h4, _, h6⟩ := C30_dual_partial h a d hne i ⟨0, 0⟩ e
  refine ⟨h4 ▸ C17_mul hf hg, fun h0 => ?_⟩
  have he : e.t ≠ 0 := by obtain ⟨g', _, _, h3, _⟩ := hg; rw [h3]; exact h0
  rw [h6 he]
  exact C17_div hf hg he
/-- The same to first order. -/
theorem C30_motion_vel_partial (h : JHeap n) (a d : ℕ) (hne : a ≠ d) (i : Fin n) (e : Rall1d) (f g : ℝ → ℝ) (τ : ℝ)
    (hf : (h.at1 a i).Rep f τ) (hg : e.Rep g τ) :
    ((mulVelVel a e d h).at1 d i).Rep (fun s => f s * g s) τ ∧
    (g τ ≠ 0 → ((divVelVel a e d h).at1 d i).Rep (fun s => f s / g s) τ) := by
  obtain ⟨h1, h2, _⟩ := C30_dual_partial h a d hne i e ⟨0, 0, 0⟩
  refine ⟨h1 ▸ C16_mul hf hg, fun h0 => ?_⟩
  have he : e.t ≠ 0 := by rw [hg.1]; exact h0
  rw [h2 he]
  exact C16_div hf hg he

/-- Sources other than the destination are not written. -/
theorem C30_frame (h : JHeap n) (a b d o : ℕ) (hne : o ≠ d) (c : ℝ) (e : Rall1d) (x : Rall2d) (r : ℕ × JField) :
    addVel a b d h o = h o ∧ subVel a b d h o = h o ∧ addVelJnt a r d h o = h o ∧ subVelJnt a r d h o = h o ∧
    mulVelDouble a c d h o = h o ∧ divVelDouble a c d h o = h o ∧ mulVelVel a e d h o = h o ∧
    divVelVel a e d h o = h o ∧ addAcc a b d h o = h o ∧ subAcc a b d h o = h o ∧ mulAccVel a e d h o = h o ∧
    mulAccAcc a x d h o = h o ∧ divAccVel a e d h o = h o ∧ divAccAcc a x d h o = h o ∧
    addAccVel a b d h o = h o ∧ subAccVel a b d h o = h o ∧ addAccJnt a r d h o = h o ∧ subAccJnt a r d h o = h o ∧
    mulAccDouble a c d h o = h o ∧ divAccDouble a c d h o = h o := by
  refine ⟨?_, ?_, ?_, ?_, ?_, ?_, ?_, ?_, ?_, ?_, ?_, ?_, ?_, ?_, ?_, ?_, ?_, ?_, ?_, ?_⟩ <;> funext f k <;>
    simp [addAccVel, subAccVel, addAccJnt, subAccJnt, mulAccDouble, divAccDouble, addVel, subVel, addVelJnt, subVelJnt, mulVelDouble, divVelDouble, mulVelVel, divVelVel, addAcc, subAcc,
      mulAccVel, mulAccAcc, divAccVel, divAccAcc, add, sub, mul, div, assign, JHeap.set, hne]

/-- In place: what `Multiply(a, factor, a)` and `Divide(a, factor, a)` leave behind for velocities: the rate is right,
the value carries the factor's rate instead of only its value. -/
theorem C30_inplace (h : JHeap n) (a : ℕ) (c : Rall1d) (i : Fin n) :
    (mulVelVel a c a h).at1 a i = ⟨c.t * (c.grad * h a q i), ((h.at1 a i).mul c).grad⟩ ∧
    (divVelVel a c a h).at1 a i = ⟨c.grad / c.t / c.t * h a q i / c.t, h a qdot i / c.t - c.grad / c.t / c.t * h a q i⟩ := by
  constructor
  · ext <;> simp [mulVelVel, at1, add, mul, JHeap.set, Rall1d.mul]
    ring
  · ext <;> simp [divVelVel, at1, sub, mul, div, JHeap.set]
/-- In-place multiplication is right exactly when the factor's rate is one or the product vanishes. -/
theorem C30_inplace_condition (h : JHeap n) (a : ℕ) (c : Rall1d) (i : Fin n) :
    (mulVelVel a c a h).at1 a i = (h.at1 a i).mul c ↔ c.t = 0 ∨ h a q i = 0 ∨ c.grad = 1 := by
  rw [(C30_inplace h a c i).1]
  constructor
  · intro e
    have := congrArg Rall1d.t e
    simp only [Rall1d.mul, at1] at this
    have h2 : c.t * (h a q i * (c.grad - 1)) = 0 := by linear_combination this
    rcases mul_eq_zero.mp h2 with h3 | h3
    · exact Or.inl h3
    · rcases mul_eq_zero.mp h3 with h4 | h4
      · exact Or.inr (Or.inl h4)
      · exact Or.inr (Or.inr (by linarith))
  · intro e
    ext
    · simp only [Rall1d.mul, at1]
      rcases e with e | e | e <;> rw [e] <;> ring
    · rfl
/-- The witness: doubling in place a resting joint at position 1 by the constant 2 yields 0. -/
theorem C30_inplace_violated : ∃ (h : JHeap 1) (c : Rall1d) (e : Rall2d),
    (mulVelVel 0 c 0 h).at1 0 0 ≠ (h.at1 0 0).mul c ∧ (c.t ≠ 0 ∧ (divVelVel 0 c 0 h).at1 0 0 ≠ (h.at1 0 0).div c) ∧
    (mulAccVel 0 c 0 h).at2 0 0 ≠ (h.at2 0 0).mul ⟨c.t, c.grad, 0⟩ ∧ (mulAccAcc 0 e 0 h).at2 0 0 ≠ (h.at2 0 0).mul e ∧
    (divAccVel 0 c 0 h).at2 0 0 ≠ (h.at2 0 0).div ⟨c.t, c.grad, 0⟩ ∧
    (e.t ≠ 0 ∧ (divAccAcc 0 e 0 h).at2 0 0 ≠ (h.at2 0 0).div e) := by
  refine ⟨fun _ f _ => match f with | .q => 1 | _ => 0, ⟨2, 0⟩, ⟨2, 0, 0⟩, ?_, ⟨by norm_num, ?_⟩, ?_, ?_, ?_,
    ⟨by norm_num, ?_⟩⟩ <;> intro e <;>
    simp [mulVelVel, divVelVel, mulAccVel, mulAccAcc, divAccVel, divAccAcc, at1, at2, add, sub, mul, div, JHeap.set,
      Rall1d.mul, Rall1d.div, Rall2d.mul, Rall2d.div] at e

/-- `Equal` is reflexive for nonnegative tolerance, symmetric, false for different sizes, and adds tolerances. -/
theorem C30_equal (a b c : List ℝ) (eps δ : ℝ) :
    (0 ≤ eps → jntEqual a a eps) ∧ (jntEqual a b eps ↔ jntEqual b a eps) ∧
    (a.length ≠ b.length → ¬ jntEqual a b eps) ∧
    (jntEqual a b eps → jntEqual b c δ → jntEqual a c (eps + δ)) := by
  refine ⟨?_, ?_, ?_, ?_⟩
  · intro h; exact ⟨rfl, fun i _ => by simpa using h⟩
  · constructor
    · rintro ⟨h1, h2⟩; exact ⟨h1.symm, fun i hi => by rw [abs_sub_comm]; exact h2 i (by omega)⟩
    · rintro ⟨h1, h2⟩; exact ⟨h1.symm, fun i hi => by rw [abs_sub_comm]; exact h2 i (by omega)⟩
  · intro h h'; exact h h'.1
  · rintro ⟨h1, h2⟩ ⟨h3, h4⟩
    refine ⟨by omega, fun i hi => ?_⟩
    calc |a.getD i 0 - c.getD i 0| = |(a.getD i 0 - b.getD i 0) + (b.getD i 0 - c.getD i 0)| := by congr 1; ring
      _ ≤ _ := (abs_add_le _ _).trans (add_le_add (h2 i hi) (h4 i (by omega)))

/-- `Equal` compares entry by entry with exactly the given tolerance. -/
theorem C30_equal_entries (eps x y : ℝ) (a b : List ℝ) :
    jntEqual [] [] eps ∧ (jntEqual [x] [y] eps ↔ |x - y| ≤ eps) ∧
    (jntEqual (x :: a) (y :: b) eps ↔ |x - y| ≤ eps ∧ jntEqual a b eps) := by
  have hc : jntEqual (x :: a) (y :: b) eps ↔ |x - y| ≤ eps ∧ jntEqual a b eps := by
    unfold jntEqual
    constructor
    · rintro ⟨h1, h2⟩
      refine ⟨by simpa using h2 0 (by simp), by simpa using h1, fun i hi => ?_⟩
      simpa using h2 (i + 1) (by simpa using hi)
    · rintro ⟨h0, h1, h2⟩
      refine ⟨by simpa using h1, fun i hi => ?_⟩
      rcases i with _ | i
      · simpa using h0
      · simpa using h2 i (by simpa using hi)
  have hn : jntEqual [] [] eps := ⟨rfl, fun i hi => by simp at hi⟩
  refine ⟨hn, ?_, hc⟩
  unfold jntEqual
  constructor
  · rintro ⟨-, h2⟩
    simpa using h2 0 (by simp)
  · intro h
    refine ⟨rfl, fun i hi => ?_⟩
    have : i = 0 := by simpa using hi
    subst this
    simpa using h
example : jntEqual [1, 2] [1, 5 / 2] (1 / 2) ∧ ¬ jntEqual [1, 2] [1, 5 / 2] (1 / 4) := by
  rw [(C30_equal_entries _ 1 1 [2] [5 / 2]).2.2, (C30_equal_entries _ 2 (5 / 2) [] []).2.1,
    (C30_equal_entries _ 1 1 [2] [5 / 2]).2.2, (C30_equal_entries _ 2 (5 / 2) [] []).2.1]
  norm_num [abs_le]

/-- `resize` keeps the common prefix and fills with zeros. -/
theorem C30_resize (a : List ℝ) (m i : ℕ) :
    (jntResize a m).length = m ∧ (i < m → (jntResize a m)[i]? = some (a.getD i 0)) := by
  unfold jntResize
  refine ⟨by simp; omega, fun hi => ?_⟩
  by_cases h : i < a.length
  · rw [List.getElem?_append_left (by simp; omega), List.getElem?_take_of_lt hi]
    simp [List.getD_eq_getElem?_getD, List.getElem?_eq_getElem h]
  · rw [List.getElem?_append_right (by simp; omega), List.getElem?_replicate, if_pos (by simp; omega)]
    simp [List.getD_eq_getElem?_getD, List.getElem?_eq_none (Nat.le_of_not_lt h)]

/-- Non-vacuity: position 3, rate 5, times `2 + 7 s`. -/
example : (mulVelVel 0 ⟨2, 7⟩ 1 (fun _ f (_ : Fin 1) => match f with | .q => 3 | _ => 5)).at1 1 0 = ⟨6, 31⟩ := by
  rw [(C30_dual_partial _ 0 1 (by norm_num) 0 ⟨2, 7⟩ ⟨0, 0, 0⟩).1]
  ext <;> simp [Rall1d.mul, at1] <;> norm_num

end KDL
