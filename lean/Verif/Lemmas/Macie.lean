import Verif.Model.Macie
import Mathlib.Tactic.Linarith
import Mathlib.Tactic.FieldSimp
import Mathlib.Tactic.Ring
import Mathlib.Tactic.Positivity
import Mathlib.Tactic.LinearCombination

/-! # Lemmas about plane rotations, sweeps and the loop of `svd_eigen_Macie` -/

noncomputable section

namespace KDL

open Matrix

variable {ρ σ κ α : Type*} [Fintype ρ] [DecidableEq κ]

theorem colsDot_comm (X : Matrix ρ κ ℝ) (i j : κ) : colsDot X i j = colsDot X j i := by
  simp only [colsDot, mul_comm]
theorem colsDot_self_nonneg (X : Matrix ρ κ ℝ) (i : κ) : 0 ≤ colsDot X i i := Finset.sum_nonneg fun _ _ => mul_self_nonneg _

/-- What a plane rotation does to the two columns: it is a rotation, and the rotated columns are orthogonal, the first one
being the longer. -/
theorem planeRot_turn {thr p qi qj c s : ℝ} (h : planeRot thr p qi qj = .turn c s) :
    c ^ 2 + s ^ 2 = 1 ∧ -c * s * qi + (c ^ 2 - s ^ 2) * p + c * s * qj = 0 ∧
      s ^ 2 * qi - 2 * c * s * p + c ^ 2 * qj ≤ c ^ 2 * qi + 2 * c * s * p + s ^ 2 * qj := by
  unfold planeRot at h
  by_cases h1 : qi * qj ≠ 0 ∧ p ^ 2 / (qi * qj) < thr
  · rw [if_pos h1] at h; exact absurd h (by simp)
  rw [if_neg h1] at h
  dsimp only at h
  set d := Real.sqrt (4 * p ^ 2 + (qi - qj) ^ 2) with hd
  by_cases h2 : d = 0
  · rw [if_pos h2] at h; exact absurd h (by simp)
  rw [if_neg h2] at h
  have hdn : 0 ≤ d := Real.sqrt_nonneg _
  have hdp : 0 < d := lt_of_le_of_ne hdn (Ne.symm h2)
  have hd2 : d ^ 2 = 4 * p ^ 2 + (qi - qj) ^ 2 := Real.sq_sqrt (by positivity)
  have key : ∀ c s : ℝ, d * c ^ 2 * 2 = d + (qi - qj) → d * c * s = p → c ≠ 0 → c ^ 2 + s ^ 2 = 1 ∧
      -c * s * qi + (c ^ 2 - s ^ 2) * p + c * s * qj = 0 ∧
      s ^ 2 * qi - 2 * c * s * p + c ^ 2 * qj ≤ c ^ 2 * qi + 2 * c * s * p + s ^ 2 * qj := by
    intro c s e1 e2 hc
    have hc2 : 0 < c ^ 2 := by positivity
    have e3 : d * s ^ 2 * 2 = d - (qi - qj) := by
      have : d * c ^ 2 * 2 * (d * s ^ 2 * 2) = d * c ^ 2 * 2 * (d - (qi - qj)) := by
        have h4 : d * c ^ 2 * 2 * (d * s ^ 2 * 2) = 4 * p ^ 2 := by rw [← e2]; ring
        rw [h4, e1]; linear_combination -hd2
      exact mul_left_cancel₀ (by positivity) this
    have r1 : c ^ 2 + s ^ 2 = 1 := by
      have : d * (c ^ 2 + s ^ 2) * 2 = d * 1 * 2 := by linear_combination e1 + e3
      exact mul_left_cancel₀ h2 (by linarith)
    refine ⟨r1, ?_, ?_⟩
    · have : d * (-c * s * qi + (c ^ 2 - s ^ 2) * p + c * s * qj) = d * 0 := by
        linear_combination (-(qi - qj)) * e2 + p / 2 * e1 - p / 2 * e3
      exact mul_left_cancel₀ h2 this
    · have : 0 ≤ d * ((c ^ 2 - s ^ 2) * (qi - qj) + 4 * (c * s) * p) := by
        have e : d * ((c ^ 2 - s ^ 2) * (qi - qj) + 4 * (c * s) * p) = d ^ 2 := by
          linear_combination (qi - qj) / 2 * e1 - (qi - qj) / 2 * e3 + 4 * p * e2 - hd2
        rw [e]; positivity
      have := nonneg_of_mul_nonneg_right this hdp
      linarith
  have hq : |qi - qj| ≤ d := Real.abs_le_sqrt (by nlinarith [sq_nonneg p])
  by_cases h3 : qi - qj ≥ 0
  · rw [if_pos h3] at h
    simp only [PlaneRot.turn.injEq] at h
    obtain ⟨hc, hs⟩ := h
    have hpos : 0 < (d + (qi - qj)) / (2 * d) := by positivity
    have hcp : 0 < c := hc ▸ Real.sqrt_pos.2 hpos
    have hc2 : c ^ 2 = (d + (qi - qj)) / (2 * d) := by rw [← hc]; exact Real.sq_sqrt hpos.le
    rw [hc] at hs
    exact key c s (by rw [hc2]; field_simp) (by rw [← hs]; field_simp) hcp.ne'
  · rw [if_neg h3] at h
    simp only [PlaneRot.turn.injEq] at h
    obtain ⟨hc, hs⟩ := h
    push Not at h3
    have hpos : 0 < (d - (qi - qj)) / (2 * d) := div_pos (by linarith) (by linarith)
    have hs2 : s ^ 2 = (d - (qi - qj)) / (2 * d) := by
      rw [← hs]
      split_ifs
      · rw [neg_sq]; exact Real.sq_sqrt hpos.le
      · exact Real.sq_sqrt hpos.le
    have hs0 : s ≠ 0 := by
      intro h0; rw [← hs2, h0] at hpos; norm_num at hpos
    rw [hs] at hc
    have e1 : d * s ^ 2 * 2 = d - (qi - qj) := by rw [hs2]; field_simp
    have e2 : d * c * s = p := by rw [← hc]; field_simp
    have hsp : 0 < s ^ 2 := by positivity
    have e3 : d * c ^ 2 * 2 = d + (qi - qj) := by
      have : d * s ^ 2 * 2 * (d * c ^ 2 * 2) = d * s ^ 2 * 2 * (d + (qi - qj)) := by
        have h4 : d * s ^ 2 * 2 * (d * c ^ 2 * 2) = 4 * p ^ 2 := by rw [← e2]; ring
        rw [h4, e1]; linear_combination -hd2
      exact mul_left_cancel₀ (by positivity) this
    have r1 : c ^ 2 + s ^ 2 = 1 := by
      have : d * (c ^ 2 + s ^ 2) * 2 = d * 1 * 2 := by linear_combination e1 + e3
      exact mul_left_cancel₀ h2 (by linarith)
    refine ⟨r1, ?_, ?_⟩
    · have : d * (-c * s * qi + (c ^ 2 - s ^ 2) * p + c * s * qj) = d * 0 := by
        linear_combination (-(qi - qj)) * e2 + p / 2 * e3 - p / 2 * e1
      exact mul_left_cancel₀ h2 this
    · have : 0 ≤ d * ((c ^ 2 - s ^ 2) * (qi - qj) + 4 * (c * s) * p) := by
        have e : d * ((c ^ 2 - s ^ 2) * (qi - qj) + 4 * (c * s) * p) = d ^ 2 := by
          linear_combination (qi - qj) / 2 * e3 - (qi - qj) / 2 * e1 + 4 * p * e2 - hd2
        rw [e]; positivity
      have := nonneg_of_mul_nonneg_right this hdp
      linarith

/-- The pair of columns `i`, `j` is left alone. -/
def SkipPair (thr : ℝ) (X : Matrix ρ κ ℝ) (ij : κ × κ) : Prop :=
  colsDot X ij.1 ij.1 * colsDot X ij.2 ij.2 ≠ 0 ∧
    colsDot X ij.1 ij.2 ^ 2 / (colsDot X ij.1 ij.1 * colsDot X ij.2 ij.2) < thr

theorem planeRot_skip {thr p qi qj : ℝ} (h : planeRot thr p qi qj = .skip) : qi * qj ≠ 0 ∧ p ^ 2 / (qi * qj) < thr := by
  by_contra h1
  unfold planeRot at h
  rw [if_neg h1] at h
  dsimp only at h
  split_ifs at h <;> simp at h

theorem planeRot_of_skip {thr p qi qj : ℝ} (h : qi * qj ≠ 0 ∧ p ^ 2 / (qi * qj) < thr) : planeRot thr p qi qj = .skip :=
  if_pos h

/-- Properties kept by every rotation are kept by a fold over pairs; the number of rotations stays the same only if every
pair has been left alone. -/
theorem macieFold_spec (thr : ℝ) (P : MacieWork ρ σ κ → Prop) (pairs : List (κ × κ))
    (hP : ∀ w i j c s, (i, j) ∈ pairs → c ^ 2 + s ^ 2 = 1 → P w → P ⟨turnCols w.B i j c s, turnCols w.W i j c s⟩) :
    ∀ (w w' : MacieWork ρ σ κ) (k k' : ℕ), pairs.foldlM (macieStep thr) (w, k) = some (w', k') →
      k ≤ k' ∧ (P w → P w') ∧ (k' = k → w' = w ∧ ∀ ij ∈ pairs, SkipPair thr w.B ij) := by
  induction pairs with
  | nil =>
    intro w w' k k' h
    simp only [List.foldlM_nil] at h
    obtain ⟨rfl, rfl⟩ := Prod.mk.inj (Option.some.inj h)
    exact ⟨le_rfl, id, fun _ => ⟨rfl, by simp⟩⟩
  | cons ij pairs ih =>
    intro w w' k k' h
    have hP' : ∀ w i j c s, (i, j) ∈ pairs → c ^ 2 + s ^ 2 = 1 → P w → P ⟨turnCols w.B i j c s, turnCols w.W i j c s⟩ :=
      fun w i j c s hm => hP w i j c s (List.mem_cons_of_mem _ hm)
    rw [List.foldlM_cons] at h
    unfold macieStep at h
    dsimp only at h
    cases hr : planeRot thr (colsDot w.B ij.1 ij.2) (colsDot w.B ij.1 ij.1) (colsDot w.B ij.2 ij.2) with
    | skip =>
      rw [hr] at h
      obtain ⟨h1, h2, h3⟩ := ih hP' w w' k k' h
      refine ⟨h1, h2, fun e => ⟨(h3 e).1, ?_⟩⟩
      intro x hx
      rcases List.mem_cons.1 hx with rfl | hx
      · exact planeRot_skip hr
      · exact (h3 e).2 x hx
    | nan => rw [hr] at h; exact absurd h (by simp)
    | turn c s =>
      rw [hr] at h
      obtain ⟨h1, h2, -⟩ := ih hP' _ w' (k + 1) k' h
      refine ⟨by omega, fun hw => h2 ?_, fun e => by omega⟩
      exact hP w ij.1 ij.2 c s List.mem_cons_self (planeRot_turn hr).1 hw

theorem macieSweep_skip (thr : ℝ) (pairs : List (κ × κ)) (w : MacieWork ρ σ κ) (h : ∀ ij ∈ pairs, SkipPair thr w.B ij) :
    macieSweep thr pairs w = some (w, 0) := by
  unfold macieSweep
  induction pairs with
  | nil => rfl
  | cons ij pairs ih =>
    rw [List.foldlM_cons]
    have : macieStep thr (w, 0) ij = some (w, 0) := by
      unfold macieStep
      rw [planeRot_of_skip (h ij List.mem_cons_self)]
    rw [this]
    exact ih fun x hx => h x (List.mem_cons_of_mem _ hx)

/-- What is known when the loop has returned. -/
theorem macieLoop_spec (thr : ℝ) (P : MacieWork ρ σ κ → Prop) (pairs : List (κ × κ)) (upd : Matrix ρ κ ℝ → α)
    (hP : ∀ w i j c s, (i, j) ∈ pairs → c ^ 2 + s ^ 2 = 1 → P w → P ⟨turnCols w.B i j c s, turnCols w.W i j c s⟩)
    (fuel : ℕ) : ∀ (w w' : MacieWork ρ σ κ) (a a' : α) (k k' : ℕ), P w →
      macieLoop thr pairs upd fuel w a k = .done (w', a') k' →
      P w' ∧ (∀ ij ∈ pairs, SkipPair thr w'.B ij) ∧
        ((k' = k ∧ w' = w ∧ a' = a) ∨ (k < k' ∧ a' = upd w'.B ∧ ¬ ∀ ij ∈ pairs, SkipPair thr w.B ij)) := by
  induction fuel with
  | zero => intro w w' a a' k k' _ h; exact absurd h (by simp [macieLoop])
  | succ fuel ih =>
    intro w w' a a' k k' hw h
    unfold macieLoop at h
    cases hs : macieSweep thr pairs w with
    | none => rw [hs] at h; exact absurd h (by simp)
    | some r =>
      obtain ⟨w1, n⟩ := r
      rw [hs] at h
      dsimp only at h
      obtain ⟨-, h2, h3⟩ := macieFold_spec thr P pairs hP w w1 0 n hs
      by_cases hn : n ≠ 0
      · rw [if_pos hn] at h
        obtain ⟨g1, g2, g3⟩ := ih w1 w' (upd w1.B) a' (k + 1) k' (h2 hw) h
        refine ⟨g1, g2, Or.inr ?_⟩
        have hsk : ¬ ∀ ij ∈ pairs, SkipPair thr w.B ij := by
          intro hall
          rw [macieSweep_skip thr pairs w hall] at hs
          exact hn (Prod.mk.inj (Option.some.inj hs)).2.symm
        rcases g3 with ⟨rfl, rfl, rfl⟩ | ⟨g3, g4, -⟩
        · exact ⟨by omega, rfl, hsk⟩
        · exact ⟨by omega, g4, hsk⟩
      · rw [if_neg hn] at h
        obtain ⟨hr, rfl⟩ := MacieRes.done.inj h
        obtain ⟨rfl, rfl⟩ := Prod.mk.inj hr
        obtain ⟨rfl, h5⟩ := h3 (by omega)
        exact ⟨hw, h5, Or.inl ⟨rfl, rfl, rfl⟩⟩

/-- More fuel does not change the outcome of a loop that has returned. -/
theorem macieLoop_mono (thr : ℝ) (pairs : List (κ × κ)) (upd : Matrix ρ κ ℝ → α) (fuel : ℕ) :
    ∀ (w : MacieWork ρ σ κ) (a : α) (k : ℕ) (r : MacieWork ρ σ κ × α) (k' : ℕ) (f : ℕ), fuel ≤ f →
      macieLoop thr pairs upd fuel w a k = .done r k' → macieLoop thr pairs upd f w a k = .done r k' := by
  induction fuel with
  | zero => intro w a k r k' f _ h; exact absurd h (by simp [macieLoop])
  | succ fuel ih =>
    intro w a k r k' f hf h
    obtain ⟨f, rfl⟩ : ∃ g, f = g + 1 := ⟨f - 1, by omega⟩
    unfold macieLoop at h ⊢
    cases hs : macieSweep thr pairs w with
    | none => rw [hs] at h; exact absurd h (by simp)
    | some x =>
      obtain ⟨w1, n⟩ := x
      rw [hs] at h
      dsimp only at h ⊢
      by_cases hn : n ≠ 0
      · rw [if_pos hn] at h ⊢; exact ih w1 _ _ r k' f (by omega) h
      · rw [if_neg hn] at h ⊢; exact h

/-! ## Rotations of columns -/

/-- The rotation as a matrix, multiplied from the right. -/
theorem mul_turnCols {τ : Type*} [Fintype τ] (A : Matrix σ τ ℝ) (X : Matrix τ κ ℝ) (i j : κ) (c s : ℝ) :
    A * turnCols X i j c s = turnCols (A * X) i j c s := by
  ext r k
  simp only [Matrix.mul_apply, turnCols]
  split_ifs
  · simp only [Finset.mul_sum, ← Finset.sum_add_distrib]
    exact Finset.sum_congr rfl fun t _ => by ring
  · simp only [Finset.mul_sum, ← Finset.sum_add_distrib]
    exact Finset.sum_congr rfl fun t _ => by ring
  · rfl

/-- `X Xᵀ` does not change. -/
theorem turnCols_mul_transpose [Fintype κ] (X : Matrix σ κ ℝ) (i j : κ) (hij : i ≠ j) (c s : ℝ) (h : c ^ 2 + s ^ 2 = 1) :
    turnCols X i j c s * (turnCols X i j c s)ᵀ = X * Xᵀ := by
  ext r t
  simp only [Matrix.mul_apply, Matrix.transpose_apply]
  rw [← Finset.add_sum_erase _ _ (Finset.mem_univ i), ← Finset.add_sum_erase _ _ (Finset.mem_univ i),
    ← Finset.add_sum_erase (Finset.univ.erase i) _ (Finset.mem_erase.2 ⟨hij.symm, Finset.mem_univ j⟩),
    ← Finset.add_sum_erase (Finset.univ.erase i) _ (Finset.mem_erase.2 ⟨hij.symm, Finset.mem_univ j⟩)]
  have : ∀ k ∈ (Finset.univ.erase i).erase j, turnCols X i j c s r k * turnCols X i j c s t k = X r k * X t k := by
    intro k hk
    simp only [Finset.mem_erase, Finset.mem_univ, and_true] at hk
    simp [turnCols, hk.1, hk.2]
  rw [Finset.sum_congr rfl this]
  have h1 : ∀ r, turnCols X i j c s r i = c * X r i + s * X r j := fun r => by simp [turnCols]
  have h2 : ∀ r, turnCols X i j c s r j = -s * X r i + c * X r j := fun r => by simp [turnCols, hij.symm]
  rw [h1, h1, h2, h2]
  linear_combination (X r i * X t i + X r j * X t j) * h

theorem mem_maciePairs {n : ℕ} (ij : Fin n × Fin n) : ij ∈ maciePairs n ↔ ij.1 < ij.2 := by
  unfold maciePairs
  simp only [List.mem_flatMap, List.mem_finRange, List.mem_map, List.mem_filter, true_and, decide_eq_true_eq]
  constructor
  · rintro ⟨i, j, h, rfl⟩; exact h
  · intro h; exact ⟨ij.1, ij.2, h, rfl⟩

/-! ## Nearly orthogonal columns are independent -/

/-- All pairs of different columns pass the orthogonality test. -/
def NearOrth {n : ℕ} (thr : ℝ) (X : Matrix ρ (Fin n) ℝ) : Prop := ∀ i j, i ≠ j → SkipPair thr X (i, j)

theorem SkipPair.symm {thr : ℝ} {X : Matrix ρ κ ℝ} {i j : κ} (h : SkipPair thr X (i, j)) : SkipPair thr X (j, i) := by
  obtain ⟨h1, h2⟩ := h
  dsimp only at h1 h2
  refine ⟨?_, ?_⟩
  · dsimp only; rwa [mul_comm]
  · dsimp only; rwa [colsDot_comm X j i, mul_comm (colsDot X j j)]

theorem SkipPair.bound {thr : ℝ} {X : Matrix ρ κ ℝ} {i j : κ} (h : SkipPair thr X (i, j)) :
    0 < colsDot X i i ∧ 0 < colsDot X j j ∧
      |colsDot X i j| ≤ Real.sqrt thr * (Real.sqrt (colsDot X i i) * Real.sqrt (colsDot X j j)) := by
  obtain ⟨h1, h2⟩ := h
  dsimp only at h1 h2
  have hi := colsDot_self_nonneg X i
  have hj := colsDot_self_nonneg X j
  have hi' : 0 < colsDot X i i := lt_of_le_of_ne hi fun e => h1 (by rw [← e]; ring)
  have hj' : 0 < colsDot X j j := lt_of_le_of_ne hj fun e => h1 (by rw [← e]; ring)
  refine ⟨hi', hj', ?_⟩
  rw [div_lt_iff₀ (by positivity)] at h2
  have hthr : 0 ≤ thr := by
    by_contra hn
    push Not at hn
    have : thr * (colsDot X i i * colsDot X j j) < 0 := mul_neg_of_neg_of_pos hn (by positivity)
    nlinarith [sq_nonneg (colsDot X i j)]
  rw [← Real.sqrt_mul hi, ← Real.sqrt_mul hthr]
  exact Real.abs_le_sqrt h2.le

theorem NearOrth.indep {n : ℕ} {thr : ℝ} (hthr : (n : ℝ) * Real.sqrt thr < 1) {X : Matrix ρ (Fin n) ℝ} (hn : 2 ≤ n)
    (h : NearOrth thr X) (y : Fin n → ℝ) (hy : X *ᵥ y = 0) : y = 0 := by
  have hpos : ∀ i, 0 < colsDot X i i := by
    intro i
    obtain ⟨j, hj⟩ : ∃ j : Fin n, i ≠ j := by
      by_cases h0 : (i : ℕ) = 0
      · exact ⟨⟨1, by omega⟩, fun e => by rw [Fin.ext_iff] at e; simp at e; omega⟩
      · exact ⟨⟨0, by omega⟩, fun e => by rw [Fin.ext_iff] at e; simp at e; omega⟩
    exact (h i j hj).bound.1
  set z : Fin n → ℝ := fun i => |Real.sqrt (colsDot X i i) * y i| with hz
  haveI : Nonempty (Fin n) := ⟨⟨0, by omega⟩⟩
  obtain ⟨i, hi⟩ := Finite.exists_max z
  have hq := Real.sqrt_pos.2 (hpos i)
  have hrow : ∑ j, colsDot X i j * y j = 0 := by
    have : ∑ j, colsDot X i j * y j = ∑ r, X r i * (X *ᵥ y) r := by
      simp only [colsDot, Matrix.mulVec, dotProduct, Finset.sum_mul, Finset.mul_sum]
      rw [Finset.sum_comm]
      exact Finset.sum_congr rfl fun r _ => Finset.sum_congr rfl fun j _ => by ring
    rw [this, hy]; simp
  rw [← Finset.add_sum_erase _ _ (Finset.mem_univ i)] at hrow
  have hs : |colsDot X i i * y i| ≤ ∑ j ∈ Finset.univ.erase i, Real.sqrt thr * (Real.sqrt (colsDot X i i) * z i) := by
    have e : colsDot X i i * y i = -∑ j ∈ Finset.univ.erase i, colsDot X i j * y j := by linarith
    rw [e, abs_neg]
    refine (Finset.abs_sum_le_sum_abs _ _).trans (Finset.sum_le_sum fun j hj => ?_)
    have hij : i ≠ j := fun e => (Finset.mem_erase.1 hj).1 e.symm
    have hb := (h i j hij).bound.2.2
    rw [abs_mul]
    calc |colsDot X i j| * |y j| ≤ Real.sqrt thr * (Real.sqrt (colsDot X i i) * Real.sqrt (colsDot X j j)) * |y j| :=
          mul_le_mul_of_nonneg_right hb (abs_nonneg _)
      _ = Real.sqrt thr * (Real.sqrt (colsDot X i i) * z j) := by
          simp only [hz, abs_mul, abs_of_nonneg (Real.sqrt_nonneg (colsDot X j j))]; ring
      _ ≤ _ := by
          have := hi j
          gcongr
  rw [Finset.sum_const, Finset.card_erase_of_mem (Finset.mem_univ i), Finset.card_univ, Fintype.card_fin,
    nsmul_eq_mul] at hs
  have e : |colsDot X i i * y i| = Real.sqrt (colsDot X i i) * z i := by
    simp only [hz]
    rw [abs_mul, abs_mul, abs_of_pos (hpos i), abs_of_pos hq, ← mul_assoc, Real.mul_self_sqrt (hpos i).le]
  rw [e] at hs
  have hz0 : z i = 0 := by
    by_contra hne
    have hzp : 0 < z i := lt_of_le_of_ne (abs_nonneg _) (Ne.symm hne)
    have h1 : Real.sqrt (colsDot X i i) * z i ≤ (n : ℝ) * Real.sqrt thr * (Real.sqrt (colsDot X i i) * z i) := by
      refine hs.trans ?_
      rw [mul_assoc]
      have : ((n - 1 : ℕ) : ℝ) ≤ n := by exact_mod_cast Nat.sub_le n 1
      gcongr
    have h2 : 0 < Real.sqrt (colsDot X i i) * z i := by positivity
    nlinarith
  funext j
  have h1 : z j ≤ 0 := hz0 ▸ hi j
  have h2 : z j = 0 := le_antisymm h1 (abs_nonneg _)
  simp only [hz, abs_eq_zero] at h2
  exact (mul_eq_zero.1 h2).resolve_left (Real.sqrt_pos.2 (hpos j)).ne'

end KDL
