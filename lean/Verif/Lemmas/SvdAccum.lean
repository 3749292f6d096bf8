import Verif.Lemmas.SvdReflect

/-! The accumulated transformations are the products of the reflections. -/

noncomputable section

namespace KDL
namespace Svd

open Matrix Finset

open Classical in
/-- The reflection of column `i`, if the accumulation uses it. -/
def QL (T : Tests) (m : ℕ) (U : Mat) (S : ℕ → ℝ) (i : ℕ) : Matrix (Fin m) (Fin m) ℝ :=
  if T.big (S i) then refl (colV m U i) (S i * U i i) else 1
open Classical in
/-- The reflection of row `i`, if the accumulation uses it. -/
def QR (T : Tests) (n : ℕ) (U : Mat) (tm : ℕ → ℝ) (i : ℕ) : Matrix (Fin n) (Fin n) ℝ :=
  if i + 1 < n ∧ T.big (tm (i + 1)) then refl (rowV n U i) (tm (i + 1) * U i (i + 1)) else 1

/-- `V` holds `M` from index `t` on. -/
structure RepR (n t : ℕ) (V : Mat) (M : Matrix (Fin n) (Fin n) ℝ) : Prop where
  val : ∀ r c : Fin n, t ≤ (r : ℕ) → t ≤ (c : ℕ) → V r c = M r c
  one : ∀ r c : Fin n, (r : ℕ) < t ∨ (c : ℕ) < t → M r c = (1 : Matrix (Fin n) (Fin n) ℝ) r c

theorem accRStep_spec (T : Tests) (hb : ∀ x, T.big x → x ≠ 0) {n t : ℕ} (ht : t < n) (U : Mat) (tm : ℕ → ℝ)
    (hu : t + 1 < n → T.big (tm (t + 1)) → U t (t + 1) ≠ 0) (V : Mat) (M : Matrix (Fin n) (Fin n) ℝ) (h : RepR n (t + 1) V M) :
    ∃ V', accRStep T n U tm t V = .ok V' ∧ RepR n t V' (QR T n U tm t * M) := by
  have hone : ∀ N : Matrix (Fin n) (Fin n) ℝ, ∀ r c : Fin n, (r : ℕ) < t ∨ (c : ℕ) < t → (r : ℕ) < t + 1 ∨ (c : ℕ) < t + 1 :=
    fun _ r c h => by omega
  unfold accRStep
  by_cases h1 : t + 1 < n
  · rw [if_pos h1]
    by_cases h2 : T.big (tm (t + 1))
    · have hg := hb _ h2
      have hp := hu h1 h2
      simp only [bind, Except.bind, if_pos h2, if_neg hp]
      refine ⟨_, rfl, ?_⟩
      rw [QR, if_pos ⟨h1, h2⟩]
      -- the sums
      have hs : ∀ c : Fin n, t < (c : ℕ) → ∑ l, rowV n U t l * M l c = ∑ l ∈ Ico (t + 1) n, U t l * V l c := by
        intro c hc
        rw [← sum_fin_Ico (t + 1) n (fun l => U t l * V l c)]
        apply sum_congr rfl
        intro l _
        simp only [rowV]
        split_ifs with hl
        · rw [h.val l c hl hc]
        · ring
      have hs0 : ∀ c : Fin n, (c : ℕ) < t + 1 → ∑ l, rowV n U t l * M l c = 0 := by
        intro c hc
        apply sum_eq_zero
        intro l _
        simp only [rowV]
        split_ifs with hl
        · rw [h.one l c (Or.inr hc), one_apply_ne (by rintro rfl; omega), mul_zero]
        · ring
      constructor
      · intro r c hr hc
        rw [refl_mul_apply]
        by_cases hct : (c : ℕ) = t
        · rw [hs0 c (by omega), h.one r c (Or.inr (by omega))]
          by_cases hrt : (r : ℕ) = t
          · have : r = c := Fin.ext (by omega)
            rw [if_pos ⟨hrt, hct⟩, this, one_apply_eq]; ring
          · have : r ≠ c := fun e => hrt (by rw [e]; exact hct)
            rw [if_neg (fun h => hrt h.1), if_pos (Or.inr ⟨hct, by omega⟩), one_apply_ne this]; ring
        · by_cases hrt : (r : ℕ) = t
          · have : r ≠ c := fun e => hct (by rw [← e]; exact hrt)
            rw [if_neg (fun h => hct h.2), if_pos (Or.inl ⟨hrt, by omega⟩), h.one r c (Or.inl (by omega)), one_apply_ne this]
            simp only [rowV]
            rw [if_neg (by omega)]; ring
          · rw [if_neg (fun h => hct h.2), if_neg (by omega), if_pos ⟨by omega, by omega⟩, if_neg (fun h => hct h.1),
              if_pos ⟨trivial, by omega⟩, hs c (by omega), h.val r c (by omega) (by omega)]
            simp only [rowV]
            rw [if_pos (by omega)]
            congr 1
            rw [sum_congr rfl (fun l _ => by rw [if_neg (fun h => hct h.1)])]
            field_simp
      · intro r c hrc
        rw [refl_mul_apply]
        rcases hrc with hr | hc
        · rw [h.one r c (Or.inl (by omega))]
          simp only [rowV]
          rw [if_neg (by omega)]; ring
        · rw [hs0 c (by omega), h.one r c (Or.inr (by omega))]; ring
    · simp only [bind, Except.bind, if_neg h2]
      refine ⟨_, rfl, ?_⟩
      rw [QR, if_neg (fun h => h2 h.2), Matrix.one_mul]
      constructor
      · intro r c hr hc
        by_cases hct : (c : ℕ) = t
        · rw [h.one r c (Or.inr (by omega))]
          by_cases hrt : (r : ℕ) = t
          · have : r = c := Fin.ext (by omega)
            rw [if_pos ⟨hrt, hct⟩, this, one_apply_eq]
          · have : r ≠ c := fun e => hrt (by rw [e]; exact hct)
            rw [if_neg (fun h => hrt h.1), if_pos (Or.inr ⟨hct, by omega⟩), one_apply_ne this]
        · by_cases hrt : (r : ℕ) = t
          · have : r ≠ c := fun e => hct (by rw [← e]; exact hrt)
            rw [if_neg (fun h => hct h.2), if_pos (Or.inl ⟨hrt, by omega⟩), h.one r c (Or.inl (by omega)), one_apply_ne this]
          · rw [if_neg (fun h => hct h.2), if_neg (by omega), h.val r c (by omega) (by omega)]
      · intro r c hrc
        exact h.one r c (by omega)
  · rw [if_neg h1]
    simp only [bind, Except.bind]
    refine ⟨_, rfl, ?_⟩
    rw [QR, if_neg (fun h => h1 h.1), Matrix.one_mul]
    constructor
    · intro r c hr hc
      have hrt : (r : ℕ) = t := by have := r.2; omega
      have hct : (c : ℕ) = t := by have := c.2; omega
      have : r = c := Fin.ext (by omega)
      rw [if_pos ⟨hrt, hct⟩, h.one r c (Or.inl (by omega)), this, one_apply_eq]
    · intro r c hrc
      exact h.one r c (by omega)

/-- Product of the reflections used for `V`. -/
def prodQR (T : Tests) (n : ℕ) (U : Mat) (tm : ℕ → ℝ) : ℕ → Matrix (Fin n) (Fin n) ℝ
  | 0 => 1
  | t + 1 => prodQR T n U tm t * QR T n U tm t

theorem accR_spec (T : Tests) (hb : ∀ x, T.big x → x ≠ 0) {n : ℕ} (U : Mat) (tm : ℕ → ℝ)
    (hu : ∀ i, i + 1 < n → T.big (tm (i + 1)) → U i (i + 1) ≠ 0) : ∀ t ≤ n, ∀ (V : Mat) (M : Matrix (Fin n) (Fin n) ℝ), RepR n t V M →
    ∃ V', accR T n U tm t V = .ok V' ∧ (fun r c => V' r c : Matrix (Fin n) (Fin n) ℝ) = prodQR T n U tm t * M
  | 0, _, V, M, h => ⟨V, rfl, by
      ext r c; rw [prodQR, Matrix.one_mul]; exact h.val r c (by omega) (by omega)⟩
  | t + 1, ht, V, M, h => by
    obtain ⟨V1, e1, h1⟩ := accRStep_spec T hb (by omega : t < n) U tm (hu t) V M h
    obtain ⟨V2, e2, h2⟩ := accR_spec T hb U tm hu t (by omega) V1 _ h1
    refine ⟨V2, ?_, ?_⟩
    · rw [accR, e1]; exact e2
    · rw [h2, prodQR, Matrix.mul_assoc]

/-! ## left -/

/-- The rectangular identity. -/
def idm (m n : ℕ) : Matrix (Fin m) (Fin n) ℝ := fun r c => if (r : ℕ) = c then 1 else 0

/-- `U` holds `M` from index `t` on and the reflections `U0` before. -/
structure RepL (m n t : ℕ) (U0 U : Mat) (M : Matrix (Fin m) (Fin n) ℝ) : Prop where
  val : ∀ (r : Fin m) (c : Fin n), t ≤ (r : ℕ) → t ≤ (c : ℕ) → U r c = M r c
  one : ∀ (r : Fin m) (c : Fin n), (r : ℕ) < t ∨ (c : ℕ) < t → M r c = idm m n r c
  old : ∀ k i, i < t → i ≤ k → U k i = U0 k i

theorem accLStep_spec (T : Tests) (hb : ∀ x, T.big x → x ≠ 0) {m n t : ℕ} (htm : t < m) (htn : t < n) (U0 : Mat) (S : ℕ → ℝ)
    (hu : T.big (S t) → U0 t t ≠ 0) (U : Mat) (M : Matrix (Fin m) (Fin n) ℝ) (h : RepL m n (t + 1) U0 U M) :
    ∃ U', accLStep T m n S t U = .ok U' ∧ RepL m n t U0 U' (QL T m U0 S t * M) := by
  have hold : ∀ k, t ≤ k → U k t = U0 k t := fun k hk => h.old k t (by omega) hk
  unfold accLStep
  by_cases h2 : T.big (S t)
  · have hg := hb _ h2
    have hp := hu h2
    have hp' : U t t ≠ 0 := by rw [hold t le_rfl]; exact hp
    have hz : (if t = t ∧ t < t then (0 : ℝ) else U t t) = U t t := if_neg (fun h => lt_irrefl _ h.2)
    simp only [bind, Except.bind, if_pos h2, lt_irrefl, and_false, if_false, and_true]
    rw [if_neg (fun h => hp' h.2)]
    refine ⟨_, rfl, ?_⟩
    rw [QL, if_pos h2]
    have hs : ∀ c : Fin n, t < (c : ℕ) → ∑ l, colV m U0 t l * M l c = ∑ l ∈ Ico (t + 1) m, U l t * U l c := by
      intro c hc
      rw [← sum_fin_Ico (t + 1) m (fun l => U l t * U l c)]
      apply sum_congr rfl
      intro l _
      simp only [colV]
      by_cases hl : (l : ℕ) < t
      · rw [if_neg (by omega), if_neg (by omega)]; ring
      · by_cases hl' : (l : ℕ) = t
        · rw [if_pos (by omega), if_neg (by omega), h.one l c (Or.inl (by omega)), idm, if_neg (by omega)]; ring
        · rw [if_pos (by omega), if_pos (by omega), h.val l c (by omega) (by omega), hold l (by omega)]
    have hs0 : ∀ c : Fin n, (c : ℕ) < t → ∑ l, colV m U0 t l * M l c = 0 := by
      intro c hc
      apply sum_eq_zero
      intro l _
      simp only [colV]
      split_ifs with hl
      · rw [h.one l c (Or.inr (by omega)), idm, if_neg (by omega), mul_zero]
      · ring
    have hst : ∀ c : Fin n, (c : ℕ) = t → ∑ l, colV m U0 t l * M l c = U0 t t := by
      intro c hc
      rw [sum_eq_single (⟨t, htm⟩ : Fin m)]
      · simp only [colV]
        rw [if_pos le_rfl, h.one _ c (Or.inr (by omega)), idm, if_pos hc.symm, mul_one]
      · intro l _ hl
        rw [h.one l c (Or.inr (by omega)), idm, if_neg, mul_zero]
        intro e; apply hl; apply Fin.ext; simp only; omega
      · intro h; exact absurd (mem_univ _) h
    refine ⟨?_, ?_, ?_⟩
    · intro r c hr hc
      rw [refl_mul_apply, show colV m U0 t r = U0 r t from if_pos hr]
      by_cases hct : (c : ℕ) = t
      · have e1 : ¬ (t < (c : ℕ) ∧ t ≤ (r : ℕ)) := by omega
        have e2 : ¬ ((r : ℕ) = t ∧ t < (c : ℕ)) := by omega
        have e3 : (c : ℕ) = t ∧ t ≤ (r : ℕ) := ⟨hct, hr⟩
        simp only [if_neg e1, if_neg e2, if_pos e3]
        rw [hst c hct, hct, hold r hr, h.one r c (Or.inr (by omega)), idm]
        by_cases hrt : (r : ℕ) = t
        · rw [if_pos ⟨hrt, rfl⟩, if_pos (by omega), hrt]; field_simp; ring
        · rw [if_neg (fun h => hrt h.1), if_neg (by omega)]; field_simp; ring
      · rw [if_neg (by omega), if_neg (by omega), if_pos ⟨by omega, hr⟩, hs c (by omega), hold t le_rfl, hold r hr]
        rw [show (∑ l ∈ Ico (t + 1) m, U l t * if l = t ∧ t < (c : ℕ) then 0 else U l c) = ∑ l ∈ Ico (t + 1) m, U l t * U l c from
          sum_congr rfl fun l hl => by
            rw [if_neg]
            rintro ⟨rfl, _⟩
            exact absurd (mem_Ico.mp hl).1 (by omega)]
        by_cases hrt : (r : ℕ) = t
        · rw [if_pos ⟨hrt, by omega⟩, h.one r c (Or.inl (by omega)), idm, if_neg (by omega), hrt]; field_simp
        · rw [if_neg (fun h => hrt h.1), h.val r c (by omega) (by omega)]; field_simp
    · intro r c hrc
      rw [refl_mul_apply]
      rcases hrc with hr | hc
      · rw [h.one r c (Or.inl (by omega))]
        simp only [colV]
        rw [if_neg (by omega)]; ring
      · rw [hs0 c hc, h.one r c (Or.inr (by omega))]; ring
    · intro k i hi hk
      rw [if_neg (by omega), if_neg (by omega), if_neg (by omega), if_neg (by omega), h.old k i (by omega) hk]
  · simp only [bind, Except.bind, if_neg h2]
    refine ⟨_, rfl, ?_⟩
    rw [QL, if_neg h2, Matrix.one_mul]
    refine ⟨?_, ?_, ?_⟩
    · intro r c hr hc
      by_cases hct : (c : ℕ) = t
      · have e3 : (c : ℕ) = t ∧ t ≤ (r : ℕ) := ⟨hct, hr⟩
        simp only [if_pos e3]
        rw [h.one r c (Or.inr (by omega)), idm]
        by_cases hrt : (r : ℕ) = t
        · rw [if_pos ⟨hrt, hct⟩, if_pos (by omega)]; ring
        · rw [if_neg (fun h => hrt h.1), if_neg (by omega)]
      · rw [if_neg (by omega), if_neg (by omega)]
        by_cases hrt : (r : ℕ) = t
        · rw [if_pos ⟨hrt, by omega⟩, h.one r c (Or.inl (by omega)), idm, if_neg (by omega)]
        · rw [if_neg (fun h => hrt h.1), h.val r c (by omega) (by omega)]
    · intro r c hrc
      exact h.one r c (by omega)
    · intro k i hi hk
      rw [if_neg (by omega), if_neg (by omega), if_neg (by omega), h.old k i (by omega) hk]

/-- Product of the reflections used for `U`. -/
def prodQL (T : Tests) (m : ℕ) (U : Mat) (S : ℕ → ℝ) : ℕ → Matrix (Fin m) (Fin m) ℝ
  | 0 => 1
  | t + 1 => prodQL T m U S t * QL T m U S t

theorem accL_spec (T : Tests) (hb : ∀ x, T.big x → x ≠ 0) {m n : ℕ} (U0 : Mat) (S : ℕ → ℝ)
    (hu : ∀ i, i < n → T.big (S i) → U0 i i ≠ 0) : ∀ t ≤ min n m, ∀ (U : Mat) (M : Matrix (Fin m) (Fin n) ℝ), RepL m n t U0 U M →
    ∃ U', accL T m n S t U = .ok U' ∧ (fun r c => U' r c : Matrix (Fin m) (Fin n) ℝ) = prodQL T m U0 S t * M
  | 0, _, U, M, h => ⟨U, rfl, by
      ext r c; rw [prodQL, Matrix.one_mul]; exact h.val r c (by omega) (by omega)⟩
  | t + 1, ht, U, M, h => by
    obtain ⟨U1, e1, h1⟩ := accLStep_spec T hb (by omega : t < m) (by omega : t < n) U0 S (hu t (by omega)) U M h
    obtain ⟨U2, e2, h2⟩ := accL_spec T hb U0 S hu t (by omega) U1 _ h1
    refine ⟨U2, ?_, ?_⟩
    · rw [accL, e1]; exact e2
    · rw [h2, prodQL, Matrix.mul_assoc]

end Svd
end KDL
