import Mathlib.Data.Matrix.Mul
import Mathlib.Data.Matrix.Diagonal
import Mathlib.Data.Real.Basic
import Mathlib.Data.Fintype.BigOperators
import Mathlib.LinearAlgebra.Matrix.DotProduct
import Mathlib.LinearAlgebra.Matrix.Rank
import Mathlib.Algebra.Order.BigOperators.Ring.Finset
import Mathlib.Analysis.Matrix.Spectrum
import Mathlib.Data.Fin.Tuple.Sort
import Mathlib.Tactic.Linarith
import Mathlib.Tactic.LinearCombination

/-!
# Linear algebra of pseudo-inverses computed from a singular value decomposition
-/

namespace KDL

open Matrix

variable {m n k : Type*} [Fintype m] [Fintype n] [Fintype k] [DecidableEq m] [DecidableEq n] [DecidableEq k]

/-- Columns of `U` are orthonormal where `S` does not vanish. -/
def OrthOn (U : Matrix m k ℝ) (S : k → ℝ) : Prop :=
  ∀ i j, S i ≠ 0 → S j ≠ 0 → ∑ r, U r i * U r j = if i = j then 1 else 0

theorem sandwich {U : Matrix m k ℝ} {S : k → ℝ} (h : OrthOn U S) (a b : k → ℝ) (ha : ∀ i, a i ≠ 0 → S i ≠ 0)
    (hb : ∀ i, b i ≠ 0 → S i ≠ 0) : diagonal a * (Uᵀ * U) * diagonal b = diagonal fun i => a i * b i := by
  ext i j
  rw [Matrix.mul_diagonal, Matrix.diagonal_mul, Matrix.mul_apply, Matrix.diagonal_apply]
  simp only [Matrix.transpose_apply]
  by_cases h1 : a i = 0
  · simp [h1]
  by_cases h2 : b j = 0
  · rw [h2]; split_ifs with e
    · rw [e, h2]; ring
    · ring
  rw [h i j (ha i h1) (hb j h2)]
  split_ifs with e
  · rw [e]; ring
  · ring

theorem dot_self_nonneg' {ι : Type*} [Fintype ι] (x : ι → ℝ) : 0 ≤ x ⬝ᵥ x := Finset.sum_nonneg fun i _ => mul_self_nonneg _

/-- Solutions of the normal equations in the row space are the least-squares solutions of least norm. -/
theorem lsq_of_normal (A : Matrix m n ℝ) (v : m → ℝ) (q : n → ℝ) (h1 : Aᵀ *ᵥ (A *ᵥ q - v) = 0) :
    (∀ q', (A *ᵥ q - v) ⬝ᵥ (A *ᵥ q - v) ≤ (A *ᵥ q' - v) ⬝ᵥ (A *ᵥ q' - v)) ∧
    ∀ y, q = Aᵀ *ᵥ y → ∀ q', (A *ᵥ q' - v) ⬝ᵥ (A *ᵥ q' - v) ≤ (A *ᵥ q - v) ⬝ᵥ (A *ᵥ q - v) → q ⬝ᵥ q ≤ q' ⬝ᵥ q' := by
  have key : ∀ q', (A *ᵥ q' - v) ⬝ᵥ (A *ᵥ q' - v) =
      (A *ᵥ q - v) ⬝ᵥ (A *ᵥ q - v) + (A *ᵥ (q' - q)) ⬝ᵥ (A *ᵥ (q' - q)) := by
    intro q'
    have e : A *ᵥ q' - v = (A *ᵥ q - v) + A *ᵥ (q' - q) := by rw [Matrix.mulVec_sub]; abel
    have o : (A *ᵥ q - v) ⬝ᵥ (A *ᵥ (q' - q)) = 0 := by
      rw [Matrix.dotProduct_mulVec, ← Matrix.mulVec_transpose, h1, zero_dotProduct]
    rw [e, add_dotProduct, dotProduct_add, dotProduct_add, o, dotProduct_comm (A *ᵥ (q' - q)) (A *ᵥ q - v), o]
    ring
  constructor
  · intro q'; rw [key q']; linarith [dot_self_nonneg' (A *ᵥ (q' - q))]
  · intro y hy q' hq'
    rw [key q'] at hq'
    have hz : A *ᵥ (q' - q) = 0 := dotProduct_self_eq_zero.mp (le_antisymm (by linarith) (dot_self_nonneg' _))
    have o : q ⬝ᵥ (q' - q) = 0 := by
      calc q ⬝ᵥ (q' - q) = (Aᵀ *ᵥ y) ⬝ᵥ (q' - q) := by rw [← hy]
        _ = y ⬝ᵥ (A *ᵥ (q' - q)) := by rw [Matrix.mulVec_transpose, ← Matrix.dotProduct_mulVec]
        _ = 0 := by rw [hz, dotProduct_zero]
    have e : q' = q + (q' - q) := by abel
    rw [e, add_dotProduct, dotProduct_add, dotProduct_add, o, dotProduct_comm (q' - q) q, o]
    linarith [dot_self_nonneg' (q' - q)]

/-- `S` with the entries below `eps` replaced by zero. -/
noncomputable def truncS (S : k → ℝ) (eps : ℝ) (i : k) : ℝ := open Classical in if |S i| < eps then 0 else S i
/-- Inverse of `truncS`. -/
noncomputable def invS (S : k → ℝ) (eps : ℝ) (i : k) : ℝ := open Classical in if |S i| < eps then 0 else 1 / S i

theorem trunc_ne {S : k → ℝ} {eps : ℝ} (i : k) (h : truncS S eps i ≠ 0) : S i ≠ 0 := by
  unfold truncS at h; split_ifs at h with h1
  · exact absurd rfl h
  · exact h
theorem inv_ne {S : k → ℝ} {eps : ℝ} (i : k) (h : invS S eps i ≠ 0) : S i ≠ 0 := by
  unfold invS at h; split_ifs at h with h1
  · exact absurd rfl h
  · intro h0; rw [h0] at h; simp at h
theorem trunc_mul_inv {S : k → ℝ} {eps : ℝ} (he : 0 < eps) (i : k) :
    truncS S eps i * (truncS S eps i * invS S eps i) = truncS S eps i ∧
    truncS S eps i * (invS S eps i * invS S eps i) = invS S eps i ∧
    invS S eps i * S i = truncS S eps i * invS S eps i ∧ S i * (invS S eps i * S i) = truncS S eps i := by
  unfold truncS invS
  split_ifs with h1
  · simp
  · have : S i ≠ 0 := by intro h0; rw [h0, abs_zero] at h1; exact h1 he
    refine ⟨?_, ?_, ?_, ?_⟩ <;> field_simp
theorem trunc_eq {S : k → ℝ} {eps : ℝ} (h : ∀ i, |S i| < eps → S i = 0) : truncS S eps = S := by
  funext i; unfold truncS; split_ifs with h1
  · exact (h i h1).symm
  · rfl

/-- The pseudo-inverse assembled from the decomposition satisfies the normal equations of the truncated matrix, and its
range is the row space of that matrix. -/
theorem pinv_normal (U : Matrix m k ℝ) (S : k → ℝ) (V : Matrix n k ℝ) (hU : OrthOn U S) (hV : OrthOn V S) (eps : ℝ)
    (he : 0 < eps) (v : m → ℝ) :
    let Ae := U * diagonal (truncS S eps) * Vᵀ
    let q := (V * diagonal (invS S eps) * Uᵀ) *ᵥ v
    Aeᵀ *ᵥ (Ae *ᵥ q - v) = 0 ∧ ∃ y, q = Aeᵀ *ᵥ y := by
  intro Ae q
  have hAt : Aeᵀ = V * diagonal (truncS S eps) * Uᵀ := by
    simp only [Ae, Matrix.transpose_mul, Matrix.transpose_transpose, Matrix.diagonal_transpose, Matrix.mul_assoc]
  have s1 := sandwich hV (truncS S eps) (invS S eps) trunc_ne inv_ne
  have s2 := sandwich hU (truncS S eps) (fun i => truncS S eps i * invS S eps i) trunc_ne
    (fun i h => trunc_ne i (left_ne_zero_of_mul h))
  have s3 := sandwich hU (truncS S eps) (fun i => invS S eps i * invS S eps i) trunc_ne
    (fun i h => inv_ne i (left_ne_zero_of_mul h))
  have e2 : (fun i => truncS S eps i * (truncS S eps i * invS S eps i)) = truncS S eps :=
    funext fun i => (trunc_mul_inv he i).1
  have e3 : (fun i => truncS S eps i * (invS S eps i * invS S eps i)) = invS S eps :=
    funext fun i => (trunc_mul_inv he i).2.1
  rw [e2] at s2
  rw [e3] at s3
  constructor
  · have : Aeᵀ * (Ae * (V * diagonal (invS S eps) * Uᵀ)) = Aeᵀ := by
      rw [hAt]
      calc V * diagonal (truncS S eps) * Uᵀ * (Ae * (V * diagonal (invS S eps) * Uᵀ))
          = V * (diagonal (truncS S eps) * (Uᵀ * U) * (diagonal (truncS S eps) * (Vᵀ * V) * diagonal (invS S eps))) * Uᵀ := by
            simp only [Ae, Matrix.mul_assoc]
        _ = _ := by rw [s1, s2]
    rw [Matrix.mulVec_sub, Matrix.mulVec_mulVec, Matrix.mulVec_mulVec, Matrix.mul_assoc, this, sub_self]
  · refine ⟨(U * diagonal (fun i => invS S eps i * invS S eps i) * Uᵀ) *ᵥ v, ?_⟩
    rw [Matrix.mulVec_mulVec, hAt]
    have : V * diagonal (truncS S eps) * Uᵀ * (U * diagonal (fun i => invS S eps i * invS S eps i) * Uᵀ) =
        V * (diagonal (truncS S eps) * (Uᵀ * U) * diagonal (fun i => invS S eps i * invS S eps i)) * Uᵀ := by
      simp only [Matrix.mul_assoc]
    rw [this, s3]

/-- More orthonormal columns than rows are impossible: the singular values from the number of rows on vanish. -/
theorem svd_tail {a b : ℕ} (U : Matrix (Fin a) (Fin b) ℝ) (S : Fin b → ℝ) (hU : OrthOn U S) (h0 : ∀ i, 0 ≤ S i)
    (hs : Antitone S) (i : Fin b) (hi : a ≤ i) : S i = 0 := by
  by_contra hne
  have hpos : ∀ j : Fin b, j ≤ i → S j ≠ 0 := fun j hj h => by
    have := hs hj
    have h1 := h0 i
    exact hne (le_antisymm (by linarith) h1)
  let e : Fin (a + 1) → Fin b := fun j => ⟨j, by have := i.2; have := j.2; omega⟩
  have he : ∀ j, S (e j) ≠ 0 := fun j => hpos _ (by show (j : ℕ) ≤ i; have := j.2; omega)
  let W : Matrix (Fin a) (Fin (a + 1)) ℝ := fun x j => U x (e j)
  have hW : Wᵀ * W = 1 := by
    ext x y
    rw [Matrix.mul_apply, Matrix.one_apply]
    refine (hU (e x) (e y) (he x) (he y)).trans ?_
    have : e x = e y ↔ x = y := by simp [e, Fin.ext_iff]
    simp [this]
  have h1 := Matrix.rank_mul_le_right Wᵀ W
  rw [hW, Matrix.rank_one, Fintype.card_fin] at h1
  have h2 := W.rank_le_card_height
  rw [Fintype.card_fin] at h2
  omega

/-- Every real matrix has a singular value decomposition with sorted singular values. -/
theorem exists_svd {a b : ℕ} (A : Matrix (Fin a) (Fin b) ℝ) :
    ∃ (U : Matrix (Fin a) (Fin b) ℝ) (S : Fin b → ℝ) (V : Matrix (Fin b) (Fin b) ℝ),
      A = U * diagonal S * Vᵀ ∧ Vᵀ * V = 1 ∧ OrthOn U S ∧ (∀ i, 0 ≤ S i) ∧ Antitone S := by
  have hA : (Aᵀ * A).IsHermitian := by
    have := Matrix.isHermitian_conjTranspose_mul_self A
    simpa using this
  let lam := hA.eigenvalues
  let σ := Tuple.sort (fun i => -lam i)
  have hmono : Monotone ((fun i => -lam i) ∘ σ) := Tuple.monotone_sort _
  let P : Matrix (Fin b) (Fin b) ℝ := (hA.eigenvectorUnitary : Matrix _ _ ℝ)
  have hP : Pᵀ * P = 1 := by
    have := hA.eigenvectorUnitary.2
    have := (Matrix.mem_unitaryGroup_iff'.mp this)
    simpa [Matrix.star_eq_conjTranspose] using this
  have hev : ∀ j, (Aᵀ * A) *ᵥ (fun i => P i j) = lam j • (fun i => P i j) := fun j => by
    have := hA.mulVec_eigenvectorBasis j
    simpa [P, lam, funext_iff] using this
  let V : Matrix (Fin b) (Fin b) ℝ := fun i j => P i (σ j)
  have hV : Vᵀ * V = 1 := by
    ext i j
    have := congrFun (congrFun hP (σ i)) (σ j)
    rw [Matrix.mul_apply, Matrix.one_apply] at this ⊢
    refine Eq.trans this ?_
    simp
  let B := A * V
  have hB : ∀ i j, ∑ r, B r i * B r j = if i = j then lam (σ i) else 0 := by
    intro i j
    have h1 : Bᵀ * B = Vᵀ * ((Aᵀ * A) * V) := by simp only [B, Matrix.transpose_mul, Matrix.mul_assoc]
    have h2 : (Aᵀ * A) * V = V * diagonal (fun j => lam (σ j)) := by
      ext x y
      rw [Matrix.mul_diagonal, Matrix.mul_apply]
      have := congrFun (hev (σ y)) x
      simp only [Matrix.mulVec, dotProduct, Pi.smul_apply, smul_eq_mul] at this
      rw [show ∑ j, (Aᵀ * A) x j * V j y = _ from this]
      exact mul_comm _ _
    rw [h2, ← Matrix.mul_assoc Vᵀ V, hV, Matrix.one_mul] at h1
    have := congrFun (congrFun h1 i) j
    rw [Matrix.mul_apply, Matrix.diagonal_apply] at this
    exact this
  have hl : ∀ i, 0 ≤ lam (σ i) := fun i => by
    have := hB i i
    rw [if_pos rfl] at this
    rw [← this]
    exact Finset.sum_nonneg fun r _ => mul_self_nonneg _
  let S : Fin b → ℝ := fun i => Real.sqrt (lam (σ i))
  have hss : ∀ i, S i * S i = lam (σ i) := fun i => Real.mul_self_sqrt (hl i)
  let U : Matrix (Fin a) (Fin b) ℝ := fun r i => B r i / S i
  have hUS : U * diagonal S = B := by
    ext r i
    rw [Matrix.mul_diagonal]
    show B r i / S i * S i = B r i
    by_cases h : S i = 0
    · rw [h, mul_zero]
      have h1 := hB i i
      rw [if_pos rfl, ← hss, h, mul_zero] at h1
      have := (Finset.sum_eq_zero_iff_of_nonneg (fun r _ => mul_self_nonneg (B r i))).mp h1 r (Finset.mem_univ _)
      exact (mul_self_eq_zero.mp this).symm
    · exact div_mul_cancel₀ _ h
  refine ⟨U, S, V, ?_, hV, ?_, fun i => Real.sqrt_nonneg _, ?_⟩
  · rw [hUS]
    have : V * Vᵀ = 1 := mul_eq_one_comm.mp hV
    show A = A * V * Vᵀ
    rw [Matrix.mul_assoc, this, Matrix.mul_one]
  · intro i j h1 h2
    have e : ∀ r, U r i * U r j = B r i * B r j / (S i * S j) := fun r => by
      show B r i / S i * (B r j / S j) = _
      field_simp
    simp only [e]
    rw [← Finset.sum_div, hB]
    split_ifs with h
    · subst h; rw [hss, div_self]; rw [← hss]; exact mul_ne_zero h1 h1
    · simp
  · intro i j hij
    have := hmono hij
    simp only [Function.comp] at this
    exact Real.sqrt_le_sqrt (by linarith)

/-- Damped least squares in the coordinates of the decomposition. -/
theorem damped_min (U : Matrix m k ℝ) (S d z : k → ℝ) (V : Matrix k k ℝ) (hU : OrthOn U S) (hV : Vᵀ * V = 1) (b : m → ℝ)
    (hz : ∀ i, z i * (S i * S i + d i * d i) = S i * (Uᵀ *ᵥ b) i) (y' : k → ℝ) :
    let A := U * diagonal S * Vᵀ
    (A *ᵥ (V *ᵥ z) - b) ⬝ᵥ (A *ᵥ (V *ᵥ z) - b) + (diagonal d *ᵥ (Vᵀ *ᵥ (V *ᵥ z))) ⬝ᵥ (diagonal d *ᵥ (Vᵀ *ᵥ (V *ᵥ z))) ≤
      (A *ᵥ y' - b) ⬝ᵥ (A *ᵥ y' - b) + (diagonal d *ᵥ (Vᵀ *ᵥ y')) ⬝ᵥ (diagonal d *ᵥ (Vᵀ *ᵥ y')) := by
  intro A
  have hAt : Aᵀ = V * diagonal S * Uᵀ := by
    simp only [A, Matrix.transpose_mul, Matrix.transpose_transpose, Matrix.diagonal_transpose, Matrix.mul_assoc]
  set y := V *ᵥ z with hy
  set D := diagonal d * Vᵀ with hD
  have hDt : Dᵀ = V * diagonal d := by
    simp only [hD, Matrix.transpose_mul, Matrix.transpose_transpose, Matrix.diagonal_transpose]
  have s1 := sandwich hU S S (fun _ h => h) (fun _ h => h)
  have h1 : Aᵀ *ᵥ (A *ᵥ y - b) + Dᵀ *ᵥ (D *ᵥ y) = 0 := by
    have e1 : Aᵀ * (A * V) = V * diagonal fun i => S i * S i := by
      rw [hAt, ← s1]
      simp only [A, Matrix.mul_assoc, hV, Matrix.mul_one]
    have e2 : Dᵀ * (D * V) = V * diagonal fun i => d i * d i := by
      rw [hDt, hD, Matrix.mul_assoc (diagonal d), hV, Matrix.mul_one, Matrix.mul_assoc, Matrix.diagonal_mul_diagonal]
    have e3 : Aᵀ *ᵥ b = V *ᵥ (diagonal S *ᵥ (Uᵀ *ᵥ b)) := by
      rw [hAt]; simp only [Matrix.mulVec_mulVec, Matrix.mul_assoc]
    rw [Matrix.mulVec_sub, e3, hy]
    simp only [Matrix.mulVec_mulVec]
    rw [e1, e2, ← Matrix.mulVec_mulVec, ← Matrix.mulVec_mulVec,
      ← Matrix.mulVec_mulVec, ← Matrix.mulVec_mulVec z V (diagonal fun i => d i * d i), ← Matrix.mulVec_sub,
      ← Matrix.mulVec_add]
    convert Matrix.mulVec_zero V
    funext i
    simp only [Pi.add_apply, Pi.sub_apply, Matrix.mulVec_diagonal, Pi.zero_apply, ← Matrix.mulVec_mulVec]
    have := hz i
    linear_combination this
  have o : (A *ᵥ y - b) ⬝ᵥ (A *ᵥ (y' - y)) + (D *ᵥ y) ⬝ᵥ (D *ᵥ (y' - y)) = 0 := by
    rw [Matrix.dotProduct_mulVec, ← Matrix.mulVec_transpose, Matrix.dotProduct_mulVec (D *ᵥ y), ← Matrix.mulVec_transpose,
      ← add_dotProduct, h1, zero_dotProduct]
  have eA : A *ᵥ y' - b = (A *ᵥ y - b) + A *ᵥ (y' - y) := by rw [Matrix.mulVec_sub]; abel
  have eD : D *ᵥ y' = D *ᵥ y + D *ᵥ (y' - y) := by rw [Matrix.mulVec_sub]; abel
  rw [show diagonal d *ᵥ (Vᵀ *ᵥ y) = D *ᵥ y by rw [Matrix.mulVec_mulVec],
    show diagonal d *ᵥ (Vᵀ *ᵥ y') = D *ᵥ y' by rw [Matrix.mulVec_mulVec], eD, eA]
  simp only [add_dotProduct, dotProduct_add]
  have n1 := dot_self_nonneg' (A *ᵥ (y' - y))
  have n2 := dot_self_nonneg' (D *ᵥ (y' - y))
  have c1 := dotProduct_comm (A *ᵥ (y' - y)) (A *ᵥ y - b)
  have c2 := dotProduct_comm (D *ᵥ (y' - y)) (D *ᵥ y)
  linarith

end KDL
