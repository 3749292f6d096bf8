import Verif.Model.Svd
import Mathlib.Algebra.BigOperators.Field
import Mathlib.Algebra.BigOperators.Fin
import Mathlib.LinearAlgebra.Matrix.Notation
import Mathlib.Tactic.LinearCombination
import Mathlib.Tactic.FieldSimp
import Mathlib.Tactic.Positivity

/-! Lemmas about the Householder reduction and the accumulation of the transformations. -/

noncomputable section

namespace KDL
namespace Svd

open Matrix Finset

theorem pythag_nonneg (a b : ℝ) : 0 ≤ pythag a b := by
  unfold pythag; split_ifs <;> positivity

theorem pythag_sq (a b : ℝ) : pythag a b * pythag a b = a * a + b * b := by
  unfold pythag
  have ha := abs_mul_abs_self a
  have hb := abs_mul_abs_self b
  split_ifs with h1 h2
  · have : |a| ≠ 0 := (lt_of_le_of_lt (abs_nonneg b) h1).ne'
    rw [show ∀ x y : ℝ, x * y * (x * y) = x * x * (y * y) from fun _ _ => by ring, Real.mul_self_sqrt (by positivity)]
    field_simp
    nlinarith
  · push Not at h1
    have : |a| = 0 := le_antisymm (h1.trans h2.le) (abs_nonneg a)
    rw [h2] at hb; rw [this] at ha; linarith
  · rw [show ∀ x y : ℝ, x * y * (x * y) = x * x * (y * y) from fun _ _ => by ring, Real.mul_self_sqrt (by positivity)]
    field_simp
    nlinarith

theorem pythag_eq_zero {a b : ℝ} : pythag a b = 0 ↔ a = 0 ∧ b = 0 := by
  have h := pythag_sq a b
  constructor
  · intro h0
    rw [h0] at h
    constructor <;> nlinarith
  · rintro ⟨rfl, rfl⟩
    simpa using h

theorem SIGN_sq (a b : ℝ) : SIGN a b * SIGN a b = a * a := by
  unfold SIGN; split_ifs <;> nlinarith [abs_mul_abs_self a]

theorem mul_SIGN (a b : ℝ) : b * SIGN a b = |b| * |a| := by
  unfold SIGN; split_ifs with h
  · rw [abs_of_nonneg h]
  · rw [abs_of_neg (not_le.mp h)]; ring

theorem SIGN_eq_zero {a b : ℝ} (h : SIGN a b = 0) : a = 0 := by
  have := SIGN_sq a b; rw [h] at this; nlinarith

theorem add_SIGN_ne {a b : ℝ} (h : a ≠ 0) : b + SIGN a b ≠ 0 := by
  intro h0
  have h1 := mul_SIGN a b
  have h2 : SIGN a b = -b := by linarith
  have h3 : 0 ≤ |b| * |a| := by positivity
  rw [h2] at h1
  have : b = 0 := by nlinarith
  apply h
  apply SIGN_eq_zero (b := b)
  rw [h2, this]; ring

/-! ## the Householder vector -/

/-- The vector the code builds from `x` on `[p, N)`: `x` with `σ` taken off the pivot. -/
def hvec (x : ℕ → ℝ) (p : ℕ) (σ : ℝ) : ℕ → ℝ := fun k => if k = p then x p - σ else x k

theorem house {x : ℕ → ℝ} {p N : ℕ} (hp : p < N) (h0 : ∑ k ∈ Ico p N, |x k| ≠ 0) :
    let scale := ∑ k ∈ Ico p N, |x k|
    let s := ∑ k ∈ Ico p N, x k / scale * (x k / scale)
    let f := x p / scale
    let g := -SIGN (Real.sqrt s) f
    let σ := scale * g
    0 ≤ s ∧ σ * σ = ∑ k ∈ Ico p N, x k * x k ∧ σ ≠ 0 ∧ x p - σ ≠ 0 ∧ (f - g) * scale = x p - σ ∧
      (f * g - s) * (scale * scale) = σ * (x p - σ) ∧ f * g - s ≠ 0 ∧
      ∑ k ∈ Ico p N, hvec x p σ k * x k = -(σ * (x p - σ)) ∧
      ∑ k ∈ Ico p N, hvec x p σ k * hvec x p σ k = -(2 * (σ * (x p - σ))) := by
  intro scale s f g σ
  have hs0 : 0 ≤ s := sum_nonneg fun k _ => mul_self_nonneg _
  have hsc : s * (scale * scale) = ∑ k ∈ Ico p N, x k * x k := by
    rw [sum_mul]
    apply sum_congr rfl
    intro k _
    field_simp [show scale ≠ 0 from h0]
  have hgg : g * g = s := by
    have := SIGN_sq (Real.sqrt s) f
    rw [Real.mul_self_sqrt hs0] at this
    simp only [g]; linarith
  have hσ : σ * σ = ∑ k ∈ Ico p N, x k * x k := by rw [← hsc, ← hgg]; ring
  have hσ0 : σ ≠ 0 := by
    intro h
    rw [h, mul_zero] at hσ
    have := (sum_eq_zero_iff_of_nonneg fun k _ => mul_self_nonneg (x k)).mp hσ.symm
    apply h0
    apply sum_eq_zero
    intro k hk
    rw [mul_self_eq_zero.mp (this k hk), abs_zero]
  have hg0 : g ≠ 0 := fun h => hσ0 (by simp only [σ, h, mul_zero])
  have hfg : (f - g) * scale = x p - σ := by
    rw [sub_mul, div_mul_cancel₀ _ h0]; ring
  have hfg0 : f - g ≠ 0 := by
    have : Real.sqrt s ≠ 0 := by
      intro h
      apply hg0
      have := SIGN_sq (Real.sqrt s) f
      rw [h, mul_zero] at this
      simp only [g, mul_self_eq_zero.mp this, h]
      simpa [h] using this
    have := add_SIGN_ne (b := f) this
    simpa [g] using this
  have hu0 : x p - σ ≠ 0 := by rw [← hfg]; exact mul_ne_zero hfg0 h0
  have hh : (f * g - s) * (scale * scale) = σ * (x p - σ) := by
    rw [← hfg, ← hgg]; simp only [σ]; ring
  have hh0 : f * g - s ≠ 0 := by
    intro h
    rw [h, zero_mul] at hh
    exact mul_ne_zero hσ0 hu0 hh.symm
  have hpm : p ∈ Ico p N := by simp [hp]
  refine ⟨hs0, hσ, hσ0, hu0, hfg, hh, hh0, ?_, ?_⟩
  · have : ∀ k, hvec x p σ k * x k = x k * x k - (if k = p then σ * x p else 0) := by
      intro k; unfold hvec; split_ifs with h
      · subst h; ring
      · ring
    simp only [this]
    rw [sum_sub_distrib, sum_ite_eq' (Ico p N) p, if_pos hpm, ← hσ]; ring
  · have : ∀ k, hvec x p σ k * hvec x p σ k = x k * x k - (if k = p then 2 * σ * x p - σ * σ else 0) := by
      intro k; unfold hvec; split_ifs with h
      · subst h; ring
      · ring
    simp only [this]
    rw [sum_sub_distrib, sum_ite_eq' (Ico p N) p, if_pos hpm, ← hσ]; ring

/-- What the column part does. -/
structure ColRefl (m i : ℕ) (U U' : Mat) (σ : ℝ) : Prop where
  ne : σ ≠ 0
  sq : σ * σ = ∑ k ∈ Ico i m, U k i * U k i
  pivot : U' i i = U i i - σ
  pne : U' i i ≠ 0
  low : ∀ k, i < k → U' k i = U k i
  upd : ∀ k j, i ≤ k → i < j → U' k j = U k j + (∑ l ∈ Ico i m, U' l i * U l j) / (σ * U' i i) * U' k i
  keep : ∀ k j, k < i ∨ j < i → U' k j = U k j
  dot : ∑ k ∈ Ico i m, U' k i * U k i = -(σ * U' i i)
  self : ∑ k ∈ Ico i m, U' k i * U' k i = -(2 * (σ * U' i i))

theorem hhCol_spec (T : Tests) (hb : ∀ x, T.big x → x ≠ 0) {m i : ℕ} (n : ℕ) (him : i < m) (U : Mat) :
    ∃ U' σ, hhCol T m n i U = .ok (U', σ) ∧
      ((T.big (∑ k ∈ Ico i m, |U k i|) ∧ ColRefl m i U U' σ) ∨ (¬ T.big (∑ k ∈ Ico i m, |U k i|) ∧ U' = U ∧ σ = 0)) := by
  unfold hhCol
  rw [if_pos him]
  dsimp only
  by_cases hB : T.big (∑ k ∈ Ico i m, |U k i|)
  · rw [if_pos hB]
    have h0 := hb _ hB
    obtain ⟨a1, a2, a3, a4, a5, a6, a7, a8, a9⟩ := house (x := fun k => U k i) him h0
    generalize hsc : ∑ k ∈ Ico i m, |U k i| = scale at *
    have hs : ∑ k ∈ Ico i m, colDiv U i scale k i * colDiv U i scale k i = ∑ k ∈ Ico i m, U k i / scale * (U k i / scale) := by
      apply sum_congr rfl
      intro k hk
      simp only [colDiv]
      rw [if_pos ⟨trivial, (mem_Ico.mp hk).1⟩]
    rw [hs, show colDiv U i scale i i = U i i / scale by simp [colDiv]]
    generalize hS : ∑ k ∈ Ico i m, U k i / scale * (U k i / scale) = s at *
    generalize hg : -SIGN (Real.sqrt s) (U i i / scale) = g at *
    rw [if_neg (by simpa using a1), if_neg (by intro h; exact a7 h.2)]
    refine ⟨_, _, rfl, Or.inl ⟨hB, ?_⟩⟩
    set U2 := put (colDiv U i scale) i i (U i i / scale - g) with hU2
    have hcol : ∀ k, i ≤ k → U2 k i = hvec (fun k => U k i) i (scale * g) k / scale := by
      intro k hk
      simp only [hU2, put, colDiv, hvec, and_true, true_and]
      split_ifs
      · rw [← a5, mul_div_cancel_right₀ _ h0]
      · rfl
    have hoth : ∀ k j, j ≠ i → U2 k j = U k j := by
      intro k j hj
      simp only [hU2, put, colDiv]
      rw [if_neg (fun h => hj h.2), if_neg (fun h => hj h.1)]
    set U' := colMul (colUpd m U2 i (U i i / scale * g - s)) i scale with hU'
    have c1 : ∀ k, i ≤ k → U' k i = hvec (fun k => U k i) i (scale * g) k := by
      intro k hk
      simp only [hU', colMul, colUpd]
      rw [if_pos ⟨trivial, hk⟩, if_neg (fun h => lt_irrefl _ h.1), hcol k hk, div_mul_cancel₀ _ h0]
    have cp : U' i i = U i i - scale * g := by rw [c1 i le_rfl]; simp [hvec]
    refine ⟨a3, a2, cp, by rw [cp]; exact a4, ?_, ?_, ?_, ?_, ?_⟩
    · intro k hk
      rw [c1 k hk.le]; unfold hvec; rw [if_neg (by omega)]
    · intro k j hk hj
      have hji : ¬ j = i := by omega
      rw [show (∑ l ∈ Ico i m, U' l i * U l j) = ∑ l ∈ Ico i m, hvec (fun k => U k i) i (scale * g) l * U l j from
        sum_congr rfl fun l hl => by rw [c1 l (mem_Ico.mp hl).1], c1 k hk, cp]
      simp only [hU', colMul, colUpd]
      rw [if_neg (fun h => hji h.1), if_pos ⟨hj, hk⟩, hoth k j hji, hcol k hk]
      have : (∑ l ∈ Ico i m, U2 l i * U2 l j) = (∑ l ∈ Ico i m, hvec (fun k => U k i) i (scale * g) l * U l j) / scale := by
        rw [sum_div]
        apply sum_congr rfl
        intro l hl
        rw [hcol l (mem_Ico.mp hl).1, hoth l j hji]; ring
      rw [this, ← a6]
      field_simp
    · intro k j h
      simp only [hU', colMul, colUpd]
      rw [if_neg (by omega), if_neg (by omega)]
      simp only [hU2, put, colDiv]
      rw [if_neg (by omega), if_neg (by omega)]
    · rw [cp, ← a8]
      exact sum_congr rfl fun l hl => by rw [c1 l (mem_Ico.mp hl).1]
    · rw [cp, ← a9]
      exact sum_congr rfl fun l hl => by rw [c1 l (mem_Ico.mp hl).1]
  · rw [if_neg hB]
    exact ⟨_, _, rfl, Or.inr ⟨hB, rfl, mul_zero _⟩⟩

/-- What the row part does. -/
structure RowRefl (n i : ℕ) (U U' : Mat) (τ : ℝ) : Prop where
  ne : τ ≠ 0
  sq : τ * τ = ∑ k ∈ Ico (i + 1) n, U i k * U i k
  pivot : U' i (i + 1) = U i (i + 1) - τ
  pne : U' i (i + 1) ≠ 0
  right : ∀ k, i + 1 < k → U' i k = U i k
  upd : ∀ j k, i < j → i < k → U' j k = U j k + (∑ l ∈ Ico (i + 1) n, U j l * U' i l) / (τ * U' i (i + 1)) * U' i k
  keep : ∀ j k, j < i ∨ k ≤ i → U' j k = U j k
  dot : ∑ k ∈ Ico (i + 1) n, U' i k * U i k = -(τ * U' i (i + 1))
  self : ∑ k ∈ Ico (i + 1) n, U' i k * U' i k = -(2 * (τ * U' i (i + 1)))

theorem hhRow_spec (T : Tests) (hb : ∀ x, T.big x → x ≠ 0) {m n i : ℕ} (him : i < m) (hin : i + 1 < n) (U : Mat) (tmp : ℕ → ℝ) :
    ∃ U' tmp' τ, hhRow T m n i U tmp = .ok (U', tmp', τ) ∧ (∀ k ≤ i, tmp' k = tmp k) ∧
      ((T.big (∑ k ∈ Ico (i + 1) n, |U i k|) ∧ RowRefl n i U U' τ) ∨
        (¬ T.big (∑ k ∈ Ico (i + 1) n, |U i k|) ∧ U' = U ∧ τ = 0)) := by
  unfold hhRow
  rw [if_pos ⟨him, hin.ne⟩]
  dsimp only
  by_cases hB : T.big (∑ k ∈ Ico (i + 1) n, |U i k|)
  · rw [if_pos hB]
    have h0 := hb _ hB
    obtain ⟨a1, a2, a3, a4, a5, a6, a7, a8, a9⟩ := house (x := fun k => U i k) hin h0
    generalize hsc : ∑ k ∈ Ico (i + 1) n, |U i k| = scale at *
    have hs : ∑ k ∈ Ico (i + 1) n, rowDiv U i scale i k * rowDiv U i scale i k =
        ∑ k ∈ Ico (i + 1) n, U i k / scale * (U i k / scale) := by
      apply sum_congr rfl
      intro k hk
      simp only [rowDiv]
      rw [if_pos ⟨trivial, (mem_Ico.mp hk).1⟩]
    rw [hs, show rowDiv U i scale i (i + 1) = U i (i + 1) / scale by simp [rowDiv]]
    generalize hS : ∑ k ∈ Ico (i + 1) n, U i k / scale * (U i k / scale) = s at *
    generalize hg : -SIGN (Real.sqrt s) (U i (i + 1) / scale) = g at *
    rw [if_neg (by simpa using a1), if_neg a7]
    refine ⟨_, _, _, rfl, fun k hk => if_neg (by omega), Or.inl ⟨hB, ?_⟩⟩
    set U2 := put (rowDiv U i scale) i (i + 1) (U i (i + 1) / scale - g) with hU2
    have hrow : ∀ k, i < k → U2 i k = hvec (fun k => U i k) (i + 1) (scale * g) k / scale := by
      intro k hk
      simp only [hU2, put, rowDiv, hvec, true_and]
      split_ifs
      · rw [← a5, mul_div_cancel_right₀ _ h0]
      · rfl
    have hoth : ∀ j k, j ≠ i → U2 j k = U j k := by
      intro j k hj
      simp only [hU2, put, rowDiv]
      rw [if_neg (fun h => hj h.1), if_neg (fun h => hj h.1)]
    set U' := rowMul (rowUpd n U2 (fun k => if i < k then U2 i k / (U i (i + 1) / scale * g - s) else tmp k) i) i scale with hU'
    have c1 : ∀ k, i < k → U' i k = hvec (fun k => U i k) (i + 1) (scale * g) k := by
      intro k hk
      simp only [hU', rowMul, rowUpd]
      rw [if_pos ⟨trivial, hk⟩, if_neg (fun h => lt_irrefl _ h.1), hrow k hk, div_mul_cancel₀ _ h0]
    have cp : U' i (i + 1) = U i (i + 1) - scale * g := by rw [c1 (i + 1) (by omega)]; simp [hvec]
    refine ⟨a3, a2, cp, by rw [cp]; exact a4, ?_, ?_, ?_, ?_, ?_⟩
    · intro k hk
      rw [c1 k (by omega)]; unfold hvec; rw [if_neg (by omega)]
    · intro j k hj hk
      have hji : ¬ j = i := by omega
      rw [show (∑ l ∈ Ico (i + 1) n, U j l * U' i l) = ∑ l ∈ Ico (i + 1) n, U j l * hvec (fun k => U i k) (i + 1) (scale * g) l from
        sum_congr rfl fun l hl => by rw [c1 l (mem_Ico.mp hl).1], c1 k hk, cp]
      simp only [hU', rowMul, rowUpd]
      rw [if_neg (fun h => hji h.1), if_pos ⟨hj, hk⟩, if_pos hk, hoth j k hji, hrow k hk]
      have : (∑ l ∈ Ico (i + 1) n, U2 j l * U2 i l) =
          (∑ l ∈ Ico (i + 1) n, U j l * hvec (fun k => U i k) (i + 1) (scale * g) l) / scale := by
        rw [sum_div]
        apply sum_congr rfl
        intro l hl
        rw [hrow l (mem_Ico.mp hl).1, hoth j l hji]; ring
      rw [this, ← a6]
      field_simp
    · intro j k h
      simp only [hU', rowMul, rowUpd]
      rw [if_neg (by omega), if_neg (by omega)]
      simp only [hU2, put, rowDiv]
      rw [if_neg (by omega), if_neg (by omega)]
    · rw [cp, ← a8]
      exact sum_congr rfl fun l hl => by rw [c1 l (mem_Ico.mp hl).1]
    · rw [cp, ← a9]
      exact sum_congr rfl fun l hl => by rw [c1 l (mem_Ico.mp hl).1]
  · rw [if_neg hB]
    exact ⟨_, _, _, rfl, fun _ _ => rfl, Or.inr ⟨hB, rfl, mul_zero _⟩⟩

end Svd
end KDL
