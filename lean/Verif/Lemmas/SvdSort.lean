import Verif.Lemmas.SvdTotal
import Mathlib.Logic.Equiv.Basic

/-! The sort permutes the triples consistently and sorts the values. -/

noncomputable section

namespace KDL
namespace Svd

open Matrix Finset

variable {m n : ℕ}

theorem findMax_spec (S : ℕ → ℝ) : ∀ d j im, (findMax S d j im = im ∨ (j ≤ findMax S d j im ∧ findMax S d j im < j + d)) ∧
    S im ≤ S (findMax S d j im) ∧ ∀ i, j ≤ i → i < j + d → S i ≤ S (findMax S d j im)
  | 0, j, im => ⟨Or.inl rfl, le_rfl, fun i _ _ => by omega⟩
  | d + 1, j, im => by
    rw [findMax]
    obtain ⟨h1, h2, h3⟩ := findMax_spec S d (j + 1) (if S j > S im then j else im)
    generalize findMax S d (j + 1) (if S j > S im then j else im) = r at h1 h2 h3
    split_ifs at h1 h2 with h
    · refine ⟨Or.inr ?_, by linarith, ?_⟩
      · rcases h1 with h1 | h1 <;> omega
      · intro i hi hi'
        by_cases e : i = j
        · rw [e]; exact h2
        · exact h3 i (by omega) (by omega)
    · refine ⟨?_, h2, ?_⟩
      · rcases h1 with h1 | h1
        · left; exact h1
        · right; omega
      · intro i hi hi'
        by_cases e : i = j
        · rw [e]; exact (not_lt.mp h).trans h2
        · exact h3 i (by omega) (by omega)

theorem swap_val (i j : Fin n) (k : Fin n) : ((Equiv.swap i j k : Fin n) : ℕ) = swapIdx i j k := by
  rw [Equiv.swap_apply_def, swapIdx]
  by_cases h1 : k = i
  · rw [if_pos h1, if_pos (by rw [h1])]
  · rw [if_neg h1, if_neg (fun h => h1 (Fin.ext h))]
    by_cases h2 : k = j
    · rw [if_pos h2, if_pos (by rw [h2])]
    · rw [if_neg h2, if_neg (fun h => h2 (Fin.ext h))]

/-- The sort. -/
theorem sortLoop_spec (st : Dg) : ∀ t ≤ n, ∃ σ : Equiv.Perm (Fin n), (∀ k : Fin n, (sortLoop n st t).S k = st.S (σ k)) ∧
    (∀ r, ∀ k : Fin n, (sortLoop n st t).U r k = st.U r (σ k)) ∧ (∀ r, ∀ k : Fin n, (sortLoop n st t).V r k = st.V r (σ k)) ∧
    ∀ i < t, ∀ j, i < j → j < n → (sortLoop n st t).S j ≤ (sortLoop n st t).S i
  | 0, _ => ⟨1, fun _ => rfl, fun _ _ => rfl, fun _ _ => rfl, fun i hi => by omega⟩
  | t + 1, ht => by
    obtain ⟨σ, h1, h2, h3, h4⟩ := sortLoop_spec st t (by omega)
    rw [sortLoop]
    generalize sortLoop n st t = s at h1 h2 h3 h4
    obtain ⟨f1, f2, f3⟩ := findMax_spec s.S (n - (t + 1)) (t + 1) t
    rw [sortStep]
    generalize findMax s.S (n - (t + 1)) (t + 1) t = im at f1 f2 f3
    have f4 : im < n := by omega
    have f5 : t ≤ im := by omega
    by_cases him : im ≠ t
    · rw [if_pos him]
      dsimp only
      let i' : Fin n := ⟨t, by omega⟩
      let j' : Fin n := ⟨im, f4⟩
      have hv : ∀ k : Fin n, swapIdx t im k = (Equiv.swap i' j' k : Fin n) := fun k => (swap_val i' j' k).symm
      refine ⟨(Equiv.swap i' j').trans σ, ?_, ?_, ?_, ?_⟩
      · intro k; rw [hv, h1]; rfl
      · intro r k; rw [hv, h2]; rfl
      · intro r k; rw [hv, h3]; rfl
      · intro i hi j hij hj
        simp only [swapIdx]
        by_cases e1 : i = t
        · rw [if_neg (by omega), if_pos e1]
          by_cases e2 : j = im
          · rw [if_pos e2]; exact f2
          · rw [if_neg e2]; exact f3 j (by omega) (by omega)
        · have e0 : i < t := by omega
          rw [if_neg e1, if_neg (show ¬ i = im by omega)]
          split_ifs
          · exact h4 i e0 im (by omega) f4
          · exact h4 i e0 t e0 (by omega)
          · exact h4 i e0 j hij hj
    · rw [if_neg him]
      refine ⟨σ, h1, h2, h3, ?_⟩
      intro i hi j hij hj
      push Not at him
      by_cases e1 : i = t
      · rw [e1, ← him]; exact f3 j (by omega) (by omega)
      · exact h4 i (by omega) j hij hj

theorem fro_submatrix (K : Matrix (Fin m) (Fin n) ℝ) (ρ : Equiv.Perm (Fin m)) (σ : Equiv.Perm (Fin n)) :
    fro (K.submatrix ρ σ) = fro K := by
  unfold fro
  congr 1
  simp only [submatrix_apply]
  rw [Equiv.sum_comp ρ (fun r => ∑ c, K r (σ c) * K r (σ c))]
  exact sum_congr rfl fun r _ => Equiv.sum_comp σ (fun c => K r c * K r c)

/-- The properties of a decomposition without those of the values themselves, up to `ε`. -/
structure Dec (A U : Matrix (Fin m) (Fin n) ℝ) (S : Fin n → ℝ) (V : Matrix (Fin n) (Fin n) ℝ) (ε : ℝ) : Prop where
  err : fro (A - U * diagonal S * Vᵀ) ≤ ε
  proj : fro (Uᵀ * U * diagonal S - diagonal S) ≤ ε

theorem Near.dec {A U : Matrix (Fin m) (Fin n) ℝ} {V : Matrix (Fin n) (Fin n) ℝ} {S tm : ℕ → ℝ} {ε : ℝ}
    (h : Near A U V (M n n (Bk 0 S tm)) ε) : Dec A U (fun j => S j) V ε := by
  obtain ⟨E, hf, hE⟩ := h
  have hB : M n n (Bk 0 S tm) = diagonal fun j : Fin n => S j := by
    ext r c
    simp only [M, Bk, diagonal_apply, Fin.ext_iff, Nat.not_lt_zero, and_false, if_false]
    by_cases h : (c : ℕ) = r
    · rw [if_pos h, if_pos h.symm]
    · rw [if_neg h, if_neg (fun e => h e.symm)]
  rw [hB] at hf
  have hP : (Uᵀ * U)ᵀ = Uᵀ * U := by rw [transpose_mul, transpose_transpose]
  constructor
  · have e1 : A - U * (diagonal fun j : Fin n => S j) * Vᵀ = U * E * Vᵀ := by
      rw [hf.fact, Matrix.mul_add, Matrix.add_mul]; abel
    rw [e1, fro_mul_right (by rw [transpose_transpose]; exact hf.orth)]
    have e2 : fro (U * E) = fro (Uᵀ * U * E) := by
      rw [fro_trace, fro_trace]
      congr 2
      calc (U * E)ᵀ * (U * E) = Eᵀ * (Uᵀ * U) * E := by rw [transpose_mul]; simp only [Matrix.mul_assoc]
        _ = Eᵀ * (Uᵀ * U * (Uᵀ * U)) * E := by rw [hf.idem]
        _ = (Uᵀ * U * E)ᵀ * (Uᵀ * U * E) := by rw [transpose_mul, hP]; simp only [Matrix.mul_assoc]
    rw [e2]
    exact (fro_proj hP hf.idem E).trans hE
  · have e1 : Uᵀ * U * (diagonal fun j : Fin n => S j) - (diagonal fun j : Fin n => S j) = (1 - Uᵀ * U) * E := by
      have := hf.proj
      rw [Matrix.mul_add] at this
      rw [Matrix.sub_mul, Matrix.one_mul, sub_eq_sub_iff_add_eq_add, this, add_comm]
    rw [e1]
    refine (fro_proj ?_ ?_ E).trans hE
    · rw [transpose_sub, transpose_one, hP]
    · rw [Matrix.sub_mul, Matrix.mul_sub, Matrix.mul_sub, hf.idem]; simp

theorem Dec.perm {A U : Matrix (Fin m) (Fin n) ℝ} {S : Fin n → ℝ} {V : Matrix (Fin n) (Fin n) ℝ} {ε : ℝ} (h : Dec A U S V ε)
    (σ : Equiv.Perm (Fin n)) : Dec A (U.submatrix id σ) (S ∘ σ) (V.submatrix id σ) ε := by
  have hd : diagonal (S ∘ σ) = (diagonal S).submatrix σ σ := (submatrix_diagonal_equiv S σ).symm
  constructor
  · have : U.submatrix id σ * diagonal (S ∘ σ) * (V.submatrix id σ)ᵀ = U * diagonal S * Vᵀ := by
      rw [hd, transpose_submatrix, submatrix_mul_equiv, submatrix_mul_equiv, submatrix_id_id]
    rw [this]; exact h.err
  · have : (U.submatrix id σ)ᵀ * U.submatrix id σ * diagonal (S ∘ σ) - diagonal (S ∘ σ) =
        (Uᵀ * U * diagonal S - diagonal S).submatrix σ σ := by
      rw [hd, transpose_submatrix, ← submatrix_mul (Uᵀ) U σ id σ Function.bijective_id, submatrix_mul_equiv]
      rfl
    rw [this, fro_submatrix]; exact h.proj

theorem Iso.perm {U V : Mat} (h : Iso m n U V) (σ : Equiv.Perm (Fin n)) :
    ((M n n V).submatrix id σ)ᵀ * (M n n V).submatrix id σ = 1 ∧
    ((M m n U).submatrix id σ)ᵀ * (M m n U).submatrix id σ * (((M m n U).submatrix id σ)ᵀ * (M m n U).submatrix id σ) =
      ((M m n U).submatrix id σ)ᵀ * (M m n U).submatrix id σ ∧
    (n ≤ m → ((M m n U).submatrix id σ)ᵀ * (M m n U).submatrix id σ = 1) := by
  have e : ∀ {k : ℕ} (W : Matrix (Fin k) (Fin n) ℝ), (W.submatrix id σ)ᵀ * W.submatrix id σ = (Wᵀ * W).submatrix σ σ := by
    intro k W
    rw [transpose_submatrix, ← submatrix_mul Wᵀ W σ id σ Function.bijective_id]
  refine ⟨?_, ?_, ?_⟩
  · rw [e, h.orth, submatrix_one_equiv]
  · rw [e, submatrix_mul_equiv, h.idem]
  · intro hnm; rw [e, h.full hnm, submatrix_one_equiv]

end Svd
end KDL
