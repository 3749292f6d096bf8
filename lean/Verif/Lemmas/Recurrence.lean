import Mathlib.Analysis.SpecificLimits.Normed
import Mathlib.Analysis.SpecialFunctions.Sqrt

/-!
# Stable linear recurrences
-/

namespace KDL
open Filter Topology

/-- A contraction with a geometrically vanishing disturbance. -/
theorem tendsto_of_contraction (x : ℕ → ℝ) (r C : ℝ) (h0 : 0 < r) (h1 : r < 1)
    (h : ∀ k, |x (k + 1)| ≤ r * |x k| + C * r ^ k) : Tendsto x atTop (𝓝 0) := by
  have hb : ∀ k : ℕ, |x k| ≤ (|x 0| + k * (C / r)) * r ^ k := by
    intro k
    induction k with
    | zero => simp
    | succ k ih =>
      refine (h k).trans ?_
      have := mul_le_mul_of_nonneg_left ih h0.le
      have e : (|x 0| + (k + 1 : ℕ) * (C / r)) * r ^ (k + 1) = r * ((|x 0| + k * (C / r)) * r ^ k) + C * r ^ k := by
        push_cast; field_simp; ring
      rw [e]; linarith
  have t1 : Tendsto (fun k : ℕ => |x 0| * r ^ k) atTop (𝓝 0) := by
    simpa using (tendsto_pow_atTop_nhds_zero_of_lt_one h0.le h1).const_mul |x 0|
  have t2 : Tendsto (fun k : ℕ => C / r * (k * r ^ k)) atTop (𝓝 0) := by
    simpa using (tendsto_self_mul_const_pow_of_lt_one h0.le h1).const_mul (C / r)
  have t3 := t1.add t2
  rw [add_zero] at t3
  refine squeeze_zero_norm (fun k => ?_) t3
  rw [Real.norm_eq_abs]
  exact (hb k).trans (le_of_eq (by ring))

/-- The second order recurrence is stable inside the triangle of Jury's criterion. -/
theorem tendsto_second_order (x : ℕ → ℝ) (T D : ℝ) (hD : |D| < 1) (hT : |T| < 1 + D)
    (h : ∀ k, x (k + 2) = T * x (k + 1) - D * x k) : Tendsto x atTop (𝓝 0) := by
  obtain ⟨hD1, hD2⟩ := abs_lt.mp hD
  obtain ⟨hT1, hT2⟩ := abs_lt.mp hT
  by_cases hc : T ^ 2 < 4 * D
  · -- complex roots: an invariant quadratic form
    have hDp : 0 < D := by nlinarith [sq_nonneg T]
    have hQ : ∀ k, x (k + 1) ^ 2 - T * x (k + 1) * x k + D * x k ^ 2 = D ^ k * (x 1 ^ 2 - T * x 1 * x 0 + D * x 0 ^ 2) := by
      intro k
      induction k with
      | zero => simp
      | succ k ih =>
        rw [pow_succ, show k + 1 + 1 = k + 2 from rfl, h k]
        linear_combination D * ih
    generalize x 1 ^ 2 - T * x 1 * x 0 + D * x 0 ^ 2 = Q at hQ
    have hm : 0 < D - T ^ 2 / 4 := by linarith
    have hb : ∀ k, x k ^ 2 ≤ Q / (D - T ^ 2 / 4) * D ^ k := by
      intro k
      rw [div_mul_eq_mul_div, le_div_iff₀ hm, mul_comm Q, ← hQ k]
      nlinarith [sq_nonneg (x (k + 1) - T / 2 * x k)]
    have t : Tendsto (fun k : ℕ => Q / (D - T ^ 2 / 4) * D ^ k) atTop (𝓝 0) := by
      simpa using (tendsto_pow_atTop_nhds_zero_of_lt_one hDp.le hD2).const_mul (Q / (D - T ^ 2 / 4))
    have t2 : Tendsto (fun k => x k ^ 2) atTop (𝓝 0) := squeeze_zero (fun k => sq_nonneg _) hb t
    have t3 := t2.sqrt
    rw [Real.sqrt_zero] at t3
    refine squeeze_zero_norm (fun k => ?_) t3
    rw [Real.norm_eq_abs, Real.sqrt_sq_eq_abs]
  · -- real roots
    set s := Real.sqrt (T ^ 2 - 4 * D) with hs
    have hss : s * s = T ^ 2 - 4 * D := Real.mul_self_sqrt (by linarith)
    have hs0 : 0 ≤ s := Real.sqrt_nonneg _
    obtain ⟨l, hl⟩ : ∃ l, l = (T + s) / 2 := ⟨_, rfl⟩
    obtain ⟨m, hm⟩ : ∃ m, m = (T - s) / 2 := ⟨_, rfl⟩
    have hsum : l + m = T := by rw [hl, hm]; ring
    have hprod : l * m = D := by rw [hl, hm]; linear_combination -hss / 4
    have hlm : m ≤ l := by rw [hl, hm]; linarith
    have p1 : 0 < (1 - l) * (1 - m) := by nlinarith
    have p2 : 0 < (1 + l) * (1 + m) := by nlinarith
    have hl1 : l < 1 := by
      by_contra hh
      push Not at hh
      have h1 : 1 < m := by
        by_contra h2; push Not at h2; nlinarith
      nlinarith
    have hm1 : -1 < m := by
      by_contra hh
      push Not at hh
      have h1 : l < -1 := by
        by_contra h2; push Not at h2; nlinarith
      nlinarith
    have hy : ∀ k, x (k + 1) - l * x k = m ^ k * (x 1 - l * x 0) := by
      intro k
      induction k with
      | zero => simp
      | succ k ih =>
        rw [pow_succ, show k + 1 + 1 = k + 2 from rfl, h k, ← hsum, ← hprod]
        linear_combination m * ih
    obtain ⟨r, hr0, hr1, hrl, hrm⟩ : ∃ r : ℝ, 0 < r ∧ r < 1 ∧ |l| ≤ r ∧ |m| ≤ r := by
      have : |l| < 1 := abs_lt.mpr ⟨by linarith, hl1⟩
      have : |m| < 1 := abs_lt.mpr ⟨hm1, by linarith⟩
      refine ⟨max (max |l| |m|) (1 / 2), ?_, ?_, ?_, ?_⟩
      · exact lt_of_lt_of_le (by norm_num) (le_max_right _ _)
      · exact max_lt (max_lt ‹_› ‹_›) (by norm_num)
      · exact (le_max_left _ _).trans (le_max_left _ _)
      · exact (le_max_right _ _).trans (le_max_left _ _)
    refine tendsto_of_contraction x r |x 1 - l * x 0| hr0 hr1 fun k => ?_
    have e : x (k + 1) = l * x k + m ^ k * (x 1 - l * x 0) := by rw [← hy k]; ring
    rw [e]
    refine (abs_add_le _ _).trans ?_
    rw [abs_mul, abs_mul, abs_pow]
    refine add_le_add (mul_le_mul_of_nonneg_right hrl (abs_nonneg _)) ?_
    rw [mul_comm]
    exact mul_le_mul_of_nonneg_left (pow_le_pow_left₀ (abs_nonneg _) hrm k) (abs_nonneg _)

/-- A first order observer with a first order filter behind it. -/
theorem tendsto_observer (e f : ℕ → ℝ) (a c t : ℝ) (hc : |c| < 1) (ha : 0 < a) (ha' : (1 - c) * a < 2 * (1 + c))
    (he : ∀ k, e (k + 1) = e k + a * (t - f k)) (hf : ∀ k, f (k + 1) = c * f k + (1 - c) * e (k + 1)) :
    Tendsto f atTop (𝓝 t) := by
  obtain ⟨h1, h2⟩ := abs_lt.mp hc
  have key := tendsto_second_order (fun k => f k - t) (1 + c - (1 - c) * a) c hc
    (abs_lt.mpr ⟨by nlinarith, by nlinarith⟩) (fun k => by
      rw [show k + 2 = (k + 1) + 1 from rfl, hf (k + 1), he (k + 1)]
      linear_combination -(hf k))
  have := key.add_const t
  simpa using this

end KDL
