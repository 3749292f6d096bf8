import Verif.Lemmas.SvdAccum
import Mathlib.Analysis.InnerProductSpace.PiL2
import Mathlib.LinearAlgebra.Matrix.Trace
import Mathlib.LinearAlgebra.Matrix.NonsingularInverse

/-! Frobenius norm, plane rotations, and the invariant of the diagonalisation. -/

noncomputable section

namespace KDL
namespace Svd

open Matrix Finset

/-- Frobenius norm. -/
def fro {m n : ℕ} (M : Matrix (Fin m) (Fin n) ℝ) : ℝ := Real.sqrt (∑ i, ∑ j, M i j * M i j)

variable {m n : ℕ}

theorem fro_eq_norm (M : Matrix (Fin m) (Fin n) ℝ) :
    fro M = ‖(WithLp.toLp 2 fun p : Fin m × Fin n => M p.1 p.2 : EuclideanSpace ℝ (Fin m × Fin n))‖ := by
  rw [fro, EuclideanSpace.norm_eq, Fintype.sum_prod_type]
  congr 1
  apply sum_congr rfl; intro i _; apply sum_congr rfl; intro j _
  simp [sq]

theorem fro_nonneg (M : Matrix (Fin m) (Fin n) ℝ) : 0 ≤ fro M := Real.sqrt_nonneg _

theorem fro_add (M N : Matrix (Fin m) (Fin n) ℝ) : fro (M + N) ≤ fro M + fro N := by
  rw [fro_eq_norm, fro_eq_norm, fro_eq_norm]
  exact norm_add_le (WithLp.toLp 2 fun p : Fin m × Fin n => M p.1 p.2 : EuclideanSpace ℝ (Fin m × Fin n))
    (WithLp.toLp 2 fun p : Fin m × Fin n => N p.1 p.2 : EuclideanSpace ℝ (Fin m × Fin n))

theorem fro_neg (M : Matrix (Fin m) (Fin n) ℝ) : fro (-M) = fro M := by simp [fro]

theorem fro_zero : fro (0 : Matrix (Fin m) (Fin n) ℝ) = 0 := by simp [fro]

theorem fro_sq (M : Matrix (Fin m) (Fin n) ℝ) : fro M * fro M = ∑ i, ∑ j, M i j * M i j :=
  Real.mul_self_sqrt (sum_nonneg fun _ _ => sum_nonneg fun _ _ => mul_self_nonneg _)

theorem fro_eq_zero {M : Matrix (Fin m) (Fin n) ℝ} (h : fro M = 0) : M = 0 := by
  have := fro_sq M
  rw [h, mul_zero] at this
  have h1 := (sum_eq_zero_iff_of_nonneg fun i _ => sum_nonneg fun j _ => mul_self_nonneg (M i j)).mp this.symm
  ext i j
  have h2 := (sum_eq_zero_iff_of_nonneg fun j _ => mul_self_nonneg (M i j)).mp (h1 i (mem_univ i)) j (mem_univ j)
  exact mul_self_eq_zero.mp h2

theorem abs_le_fro (M : Matrix (Fin m) (Fin n) ℝ) (i : Fin m) (j : Fin n) : |M i j| ≤ fro M := by
  apply Real.abs_le_sqrt
  rw [sq]
  calc M i j * M i j ≤ ∑ j, M i j * M i j := single_le_sum (f := fun j => M i j * M i j) (fun j _ => mul_self_nonneg _) (mem_univ j)
    _ ≤ _ := single_le_sum (f := fun i => ∑ j, M i j * M i j) (fun i _ => sum_nonneg fun j _ => mul_self_nonneg _) (mem_univ i)

theorem trace_self (M : Matrix (Fin m) (Fin n) ℝ) : (Mᵀ * M).trace = ∑ i, ∑ j, M i j * M i j := by
  rw [Matrix.trace, sum_comm]
  apply sum_congr rfl; intro j _
  rw [diag_apply, mul_apply]
  rfl

theorem fro_trace (M : Matrix (Fin m) (Fin n) ℝ) : fro M = Real.sqrt (Mᵀ * M).trace := by rw [trace_self]; rfl

/-- A matrix with a single entry of size at most `δ`. -/
theorem fro_single {M : Matrix (Fin m) (Fin n) ℝ} {i : Fin m} {j : Fin n} {δ : ℝ} (h0 : ∀ r c, (r, c) ≠ (i, j) → M r c = 0)
    (h : |M i j| ≤ δ) : fro M ≤ δ := by
  have : fro M = |M i j| := by
    rw [fro, sum_eq_single i, sum_eq_single j, Real.sqrt_mul_self_eq_abs]
    · intro c _ hc; rw [h0 i c (by simp [hc]), mul_zero]
    · intro h; exact absurd (mem_univ _) h
    · intro r _ hr
      apply sum_eq_zero; intro c _
      rw [h0 r c (by simp [hr]), mul_zero]
    · intro h; exact absurd (mem_univ _) h
  rw [this]; exact h

theorem fro_mul_left {k : ℕ} {G : Matrix (Fin k) (Fin m) ℝ} (h : Gᵀ * G = 1) (M : Matrix (Fin m) (Fin n) ℝ) : fro (G * M) = fro M := by
  rw [fro_trace, fro_trace, transpose_mul, Matrix.mul_assoc, ← Matrix.mul_assoc Gᵀ, h, Matrix.one_mul]

theorem fro_mul_right {k : ℕ} {H : Matrix (Fin n) (Fin k) ℝ} (h : H * Hᵀ = 1) (M : Matrix (Fin m) (Fin n) ℝ) : fro (M * H) = fro M := by
  rw [fro_trace, fro_trace, transpose_mul, Matrix.trace_mul_comm, Matrix.mul_assoc, ← Matrix.mul_assoc H, h, Matrix.one_mul,
    Matrix.trace_mul_comm]

/-- A projection does not lengthen. -/
theorem fro_proj {P : Matrix (Fin m) (Fin m) ℝ} (hs : Pᵀ = P) (hp : P * P = P) (M : Matrix (Fin m) (Fin n) ℝ) :
    fro (P * M) ≤ fro M := by
  rw [fro_trace, fro_trace]
  apply Real.sqrt_le_sqrt
  have h1 : (P * M)ᵀ * (P * M) = Mᵀ * P * M := by
    rw [transpose_mul, hs, Matrix.mul_assoc, ← Matrix.mul_assoc P, hp, Matrix.mul_assoc]
  have h2 : ((1 - P) * M)ᵀ * ((1 - P) * M) = Mᵀ * M - Mᵀ * P * M := by
    have e : (1 - P) * (1 - P) = 1 - P := by
      rw [Matrix.sub_mul, Matrix.mul_sub, Matrix.mul_sub, hp]; simp
    rw [transpose_mul, transpose_sub, hs, transpose_one, Matrix.mul_assoc, ← Matrix.mul_assoc (1 - P), e, Matrix.sub_mul,
      Matrix.mul_sub, Matrix.one_mul, Matrix.mul_assoc]
  have h3 : 0 ≤ (((1 - P) * M)ᵀ * ((1 - P) * M)).trace := by
    rw [trace_self]; exact sum_nonneg fun _ _ => sum_nonneg fun _ _ => mul_self_nonneg _
  rw [h2, Matrix.trace_sub] at h3
  rw [h1]; linarith

/-! ## rotations -/

/-- Rotation of the rows `a` and `b`. -/
def rotRows (K : Mat) (a b : ℕ) (c s : ℝ) : Mat := fun r j =>
  if r = a then c * K a j + s * K b j else if r = b then c * K b j - s * K a j else K r j

/-- The part of an array inside the bounds. -/
def M (m n : ℕ) (U : Mat) : Matrix (Fin m) (Fin n) ℝ := fun r c => U r c

/-- Plane rotation. -/
def Gv (n a b : ℕ) (c s : ℝ) : Matrix (Fin n) (Fin n) ℝ := M n n (rotCols (fun r j => if r = j then 1 else 0) a b c s)

theorem M_rotCols (U : Mat) {a b : ℕ} (ha : a < n) (hb : b < n) (hab : a ≠ b) (c s : ℝ) :
    M m n (rotCols U a b c s) = M m n U * Gv n a b c s := by
  ext r j
  rw [mul_apply]
  simp only [M, Gv, rotCols]
  by_cases h1 : (j : ℕ) = a
  · simp only [if_pos h1]
    rw [Fin.sum_univ_eq_sum_range (fun l => U r l * ((if l = a then 1 else 0) * c + (if l = b then 1 else 0) * s)) n]
    simp only [mul_add, sum_add_distrib, ite_mul, one_mul, zero_mul, mul_ite, mul_zero]
    rw [sum_ite_eq', sum_ite_eq', if_pos (mem_range.mpr ha), if_pos (mem_range.mpr hb)]
  · simp only [if_neg h1]
    by_cases h2 : (j : ℕ) = b
    · simp only [if_pos h2]
      rw [Fin.sum_univ_eq_sum_range (fun l => U r l * ((if l = b then 1 else 0) * c - (if l = a then 1 else 0) * s)) n]
      simp only [mul_sub, sum_sub_distrib, ite_mul, one_mul, zero_mul, mul_ite, mul_zero]
      rw [sum_ite_eq', sum_ite_eq', if_pos (mem_range.mpr ha), if_pos (mem_range.mpr hb)]
    · simp only [if_neg h2]
      rw [Fin.sum_univ_eq_sum_range (fun l => U r l * (if l = (j : ℕ) then 1 else 0)) n]
      simp only [mul_ite, mul_one, mul_zero]
      rw [sum_ite_eq', if_pos (mem_range.mpr j.2)]

theorem M_rotRows (K : Mat) {a b : ℕ} (ha : a < n) (hb : b < n) (hab : a ≠ b) (c s : ℝ) :
    M n m (rotRows K a b c s) = (Gv n a b c s)ᵀ * M n m K := by
  have h := M_rotCols (m := m) (fun r j => K j r) ha hb hab c s
  have h' := congrArg transpose h
  rw [transpose_mul] at h'
  rw [show M n m K = (M m n fun r j => K j r)ᵀ from rfl, ← h']
  ext r j
  simp only [M, rotRows, rotCols, transpose_apply]
  split_ifs <;> ring

theorem Gv_mul {a b : ℕ} (ha : a < n) (hb : b < n) (hab : a ≠ b) {c s : ℝ} (h : c * c + s * s = 1) :
    (Gv n a b c s)ᵀ * Gv n a b c s = 1 := by
  have h1 := M_rotRows (m := n) (rotCols (fun r j => if r = j then 1 else 0) a b c s) ha hb hab c s
  rw [show (Gv n a b c s)ᵀ * Gv n a b c s = M n n (rotRows (rotCols (fun r j => if r = j then 1 else 0) a b c s) a b c s) from h1.symm]
  have hba : ¬ b = a := fun h => hab h.symm
  ext r j
  simp only [M, rotRows, rotCols, one_apply, Fin.ext_iff]
  by_cases hr : (r : ℕ) = a
  · rw [if_pos hr]
    by_cases hj : (j : ℕ) = a
    · simp only [if_pos hj, hr, hj, if_true, if_neg hba, if_neg hab]; linear_combination h
    · by_cases hj' : (j : ℕ) = b
      · simp only [hr, hj', if_neg hba, if_neg hab, if_true]; ring
      · simp only [if_neg hj, if_neg hj', hr, if_neg (fun e : a = (j : ℕ) => hj e.symm), if_neg (fun e : b = (j : ℕ) => hj' e.symm)]
        ring
  · rw [if_neg hr]
    by_cases hr' : (r : ℕ) = b
    · rw [if_pos hr']
      by_cases hj : (j : ℕ) = a
      · simp only [hr', hj, if_neg hba, if_neg hab, if_true]; ring
      · by_cases hj' : (j : ℕ) = b
        · simp only [hr', hj', if_neg hba, if_neg hab, if_true]; linear_combination h
        · simp only [if_neg hj, if_neg hj', hr', if_neg (fun e : a = (j : ℕ) => hj e.symm), if_neg (fun e : b = (j : ℕ) => hj' e.symm)]
          ring
    · rw [if_neg hr']
      simp only [if_neg hr, if_neg hr']
      by_cases hj : (j : ℕ) = a
      · rw [if_pos hj, hj, if_neg hr]; ring
      · rw [if_neg hj]
        by_cases hj' : (j : ℕ) = b
        · rw [if_pos hj', hj', if_neg hr']; ring
        · rw [if_neg hj']

theorem Gv_mul' {a b : ℕ} (ha : a < n) (hb : b < n) (hab : a ≠ b) {c s : ℝ} (h : c * c + s * s = 1) :
    Gv n a b c s * (Gv n a b c s)ᵀ = 1 := mul_eq_one_comm.mp (Gv_mul ha hb hab h)

/-! ## the invariant -/

/-- `A = U K Vᵀ` with an orthogonal `V`, a partial isometry `U` and `K` in its initial space. -/
structure Fact (A U : Matrix (Fin m) (Fin n) ℝ) (V K : Matrix (Fin n) (Fin n) ℝ) : Prop where
  fact : A = U * K * Vᵀ
  orth : Vᵀ * V = 1
  idem : Uᵀ * U * (Uᵀ * U) = Uᵀ * U
  proj : Uᵀ * U * K = K
  full : n ≤ m → Uᵀ * U = 1

theorem Fact.left {A U : Matrix (Fin m) (Fin n) ℝ} {V K G : Matrix (Fin n) (Fin n) ℝ} (h : Fact A U V K) (hG : Gᵀ * G = 1) :
    Fact A (U * G) V (Gᵀ * K) := by
  have hG' := mul_eq_one_comm.mp hG
  have e : (U * G)ᵀ * (U * G) = Gᵀ * (Uᵀ * U) * G := by rw [transpose_mul]; simp only [Matrix.mul_assoc]
  have cancel : ∀ {k : ℕ} (X : Matrix (Fin n) (Fin k) ℝ), G * (Gᵀ * X) = X := fun X => by
    rw [← Matrix.mul_assoc, hG', Matrix.one_mul]
  refine ⟨?_, h.orth, ?_, ?_, ?_⟩
  · rw [h.fact]; simp only [Matrix.mul_assoc, cancel]
  · rw [e]
    have := h.idem
    generalize Uᵀ * U = P at this ⊢
    simp only [Matrix.mul_assoc, cancel]
    rw [← Matrix.mul_assoc P P, this]
  · rw [e]
    have := h.proj
    generalize Uᵀ * U = P at this ⊢
    simp only [Matrix.mul_assoc, cancel]
    rw [this]
  · intro hnm; rw [e, h.full hnm, Matrix.mul_one, hG]

theorem Fact.right {A U : Matrix (Fin m) (Fin n) ℝ} {V K H : Matrix (Fin n) (Fin n) ℝ} (h : Fact A U V K) (hH : Hᵀ * H = 1) :
    Fact A U (V * H) (K * H) := by
  have hH' := mul_eq_one_comm.mp hH
  refine ⟨?_, ?_, h.idem, ?_, h.full⟩
  · rw [h.fact, transpose_mul]
    have cancel : ∀ {k : ℕ} (X : Matrix (Fin n) (Fin k) ℝ), H * (Hᵀ * X) = X := fun X => by
      rw [← Matrix.mul_assoc, hH', Matrix.one_mul]
    simp only [Matrix.mul_assoc, cancel]
  · rw [transpose_mul, Matrix.mul_assoc, ← Matrix.mul_assoc Vᵀ, h.orth, Matrix.one_mul, hH]
  · rw [← Matrix.mul_assoc, h.proj]

theorem Fact.norm {A U : Matrix (Fin m) (Fin n) ℝ} {V K : Matrix (Fin n) (Fin n) ℝ} (h : Fact A U V K) : fro K = fro A := by
  rw [h.fact, fro_mul_right (by rw [transpose_transpose]; exact h.orth), fro_trace, fro_trace, transpose_mul, Matrix.mul_assoc,
    ← Matrix.mul_assoc Uᵀ, h.proj]

/-- The same up to an error of Frobenius norm at most `ε`. -/
def Near (A U : Matrix (Fin m) (Fin n) ℝ) (V C : Matrix (Fin n) (Fin n) ℝ) (ε : ℝ) : Prop :=
  ∃ E, Fact A U V (C + E) ∧ fro E ≤ ε

theorem Near.left {A U : Matrix (Fin m) (Fin n) ℝ} {V C G : Matrix (Fin n) (Fin n) ℝ} {ε : ℝ} (h : Near A U V C ε) (hG : Gᵀ * G = 1) :
    Near A (U * G) V (Gᵀ * C) ε := by
  obtain ⟨E, h1, h2⟩ := h
  refine ⟨Gᵀ * E, ?_, ?_⟩
  · rw [← Matrix.mul_add]; exact h1.left hG
  · rw [fro_mul_left (by rw [transpose_transpose]; exact mul_eq_one_comm.mp hG)]; exact h2

theorem Near.right {A U : Matrix (Fin m) (Fin n) ℝ} {V C H : Matrix (Fin n) (Fin n) ℝ} {ε : ℝ} (h : Near A U V C ε) (hH : Hᵀ * H = 1) :
    Near A U (V * H) (C * H) ε := by
  obtain ⟨E, h1, h2⟩ := h
  refine ⟨E * H, ?_, ?_⟩
  · rw [← Matrix.add_mul]; exact h1.right hH
  · rw [fro_mul_right (mul_eq_one_comm.mp hH)]; exact h2

theorem Near.drop {A U : Matrix (Fin m) (Fin n) ℝ} {V C C' : Matrix (Fin n) (Fin n) ℝ} {ε δ : ℝ} (h : Near A U V C ε)
    (hd : fro (C - C') ≤ δ) : Near A U V C' (ε + δ) := by
  obtain ⟨E, h1, h2⟩ := h
  refine ⟨(C - C') + E, ?_, ?_⟩
  · rw [show C' + (C - C' + E) = C + E by abel]; exact h1
  · linarith [fro_add (C - C') E]

theorem Near.mono {A U : Matrix (Fin m) (Fin n) ℝ} {V C : Matrix (Fin n) (Fin n) ℝ} {ε ε' : ℝ} (h : Near A U V C ε) (he : ε ≤ ε') :
    Near A U V C ε' := by
  obtain ⟨E, h1, h2⟩ := h; exact ⟨E, h1, h2.trans he⟩

theorem Near.entry {A U : Matrix (Fin m) (Fin n) ℝ} {V C : Matrix (Fin n) (Fin n) ℝ} {ε : ℝ} (h : Near A U V C ε) (i j : Fin n) :
    |C i j| ≤ fro A + ε := by
  obtain ⟨E, h1, h2⟩ := h
  have h3 := fro_add (C + E) (-E)
  rw [add_neg_cancel_right, h1.norm, fro_neg] at h3
  linarith [abs_le_fro C i j]

theorem Near.rotU {A : Matrix (Fin m) (Fin n) ℝ} {V : Matrix (Fin n) (Fin n) ℝ} {U C : Mat} {ε : ℝ} (h : Near A (M m n U) V (M n n C) ε)
    {a b : ℕ} (ha : a < n) (hb : b < n) (hab : a ≠ b) {c s : ℝ} (hcs : c * c + s * s = 1) :
    Near A (M m n (rotCols U a b c s)) V (M n n (rotRows C a b c s)) ε := by
  rw [M_rotCols U ha hb hab, M_rotRows C ha hb hab]; exact h.left (Gv_mul ha hb hab hcs)

theorem Near.rotV {A U : Matrix (Fin m) (Fin n) ℝ} {V C : Mat} {ε : ℝ} (h : Near A U (M n n V) (M n n C) ε)
    {a b : ℕ} (ha : a < n) (hb : b < n) (hab : a ≠ b) {c s : ℝ} (hcs : c * c + s * s = 1) :
    Near A U (M n n (rotCols V a b c s)) (M n n (rotCols C a b c s)) ε := by
  rw [M_rotCols V ha hb hab, M_rotCols C ha hb hab]; exact h.right (Gv_mul ha hb hab hcs)

theorem Near.congr {A U : Matrix (Fin m) (Fin n) ℝ} {V : Matrix (Fin n) (Fin n) ℝ} {C C' : Mat} {ε : ℝ} (h : Near A U V (M n n C) ε)
    (he : ∀ r < n, ∀ c < n, C r c = C' r c) : Near A U V (M n n C') ε := by
  rwa [show M n n C' = M n n C from by ext r c; exact (he r r.2 c c.2).symm]

/-- Changing one entry. -/
theorem Near.put {A U : Matrix (Fin m) (Fin n) ℝ} {V : Matrix (Fin n) (Fin n) ℝ} {C C' : Mat} {ε δ : ℝ} (h : Near A U V (M n n C) ε)
    {i j : ℕ} (hi : i < n) (hj : j < n) (he : ∀ r c, ¬ (r = i ∧ c = j) → C r c = C' r c) (hd : |C i j - C' i j| ≤ δ) :
    Near A U V (M n n C') (ε + δ) := by
  apply h.drop
  apply fro_single (i := ⟨i, hi⟩) (j := ⟨j, hj⟩)
  · intro r c hrc
    show C r c - C' r c = 0
    rw [he r c, sub_self]
    rintro ⟨h1, h2⟩
    exact hrc (by ext <;> simpa)
  · exact hd

/-- `V` is orthogonal and `U` a partial isometry (an isometry if it is not wide). -/
structure Iso (m n : ℕ) (U V : Mat) : Prop where
  orth : (M n n V)ᵀ * M n n V = 1
  idem : (M m n U)ᵀ * M m n U * ((M m n U)ᵀ * M m n U) = (M m n U)ᵀ * M m n U
  full : n ≤ m → (M m n U)ᵀ * M m n U = 1

theorem Iso.rotU {U V : Mat} (h : Iso m n U V) {a b : ℕ} (ha : a < n) (hb : b < n) (hab : a ≠ b) {c s : ℝ}
    (hcs : c * c + s * s = 1) : Iso m n (rotCols U a b c s) V := by
  have hG := Gv_mul ha hb hab hcs
  have hG' := mul_eq_one_comm.mp hG
  refine ⟨h.orth, ?_, ?_⟩
  · rw [M_rotCols U ha hb hab, show ((M m n U) * Gv n a b c s)ᵀ * (M m n U * Gv n a b c s) =
      (Gv n a b c s)ᵀ * ((M m n U)ᵀ * M m n U) * Gv n a b c s by rw [transpose_mul]; simp only [Matrix.mul_assoc]]
    have := h.idem
    have hc : ∀ {k : ℕ} (X : Matrix (Fin n) (Fin k) ℝ), Gv n a b c s * ((Gv n a b c s)ᵀ * X) = X := fun X => by
      rw [← Matrix.mul_assoc, hG', Matrix.one_mul]
    generalize (M m n U)ᵀ * M m n U = P at this ⊢
    simp only [Matrix.mul_assoc, hc]
    rw [← Matrix.mul_assoc P P, this]
  · intro hnm
    rw [M_rotCols U ha hb hab, transpose_mul, Matrix.mul_assoc, ← Matrix.mul_assoc _ (M m n U), h.full hnm, Matrix.one_mul, hG]

theorem Iso.rotV {U V : Mat} (h : Iso m n U V) {a b : ℕ} (ha : a < n) (hb : b < n) (hab : a ≠ b) {c s : ℝ}
    (hcs : c * c + s * s = 1) : Iso m n U (rotCols V a b c s) := by
  refine ⟨?_, h.idem, h.full⟩
  rw [M_rotCols V ha hb hab, transpose_mul, Matrix.mul_assoc, ← Matrix.mul_assoc _ (M n n V), h.orth, Matrix.one_mul,
    Gv_mul ha hb hab hcs]

/-- Sign of column `k` changed. -/
def flipCol (V : Mat) (k : ℕ) : Mat := fun r j => if j = k then -V r j else V r j

theorem M_flipCol (V : Mat) (k : ℕ) :
    M m n (flipCol V k) = M m n V * Matrix.diagonal fun j : Fin n => if (j : ℕ) = k then (-1 : ℝ) else 1 := by
  ext r j
  rw [mul_diagonal]
  simp only [M, flipCol]
  split_ifs <;> ring

theorem flip_orth (k : ℕ) : (Matrix.diagonal fun j : Fin n => if (j : ℕ) = k then (-1 : ℝ) else 1)ᵀ *
    (Matrix.diagonal fun j : Fin n => if (j : ℕ) = k then (-1 : ℝ) else 1) = 1 := by
  rw [diagonal_transpose, diagonal_mul_diagonal, ← diagonal_one]
  congr 1
  ext j
  split_ifs <;> norm_num

theorem Iso.flip {U V : Mat} (h : Iso m n U V) (k : ℕ) : Iso m n U (flipCol V k) := by
  refine ⟨?_, h.idem, h.full⟩
  rw [M_flipCol, transpose_mul, Matrix.mul_assoc, ← Matrix.mul_assoc _ (M n n V), h.orth, Matrix.one_mul, flip_orth]

theorem Near.flip {A U : Matrix (Fin m) (Fin n) ℝ} {V C : Mat} {ε : ℝ} (h : Near A U (M n n V) (M n n C) ε) (k : ℕ) :
    Near A U (M n n (flipCol V k)) (M n n (flipCol C k)) ε := by
  rw [M_flipCol, M_flipCol]; exact h.right (flip_orth k)

end Svd
end KDL
