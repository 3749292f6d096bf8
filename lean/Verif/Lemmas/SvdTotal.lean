import Verif.Lemmas.SvdAccum
import Verif.Lemmas.SvdRun

/-! Reduction, accumulation and diagonalisation together. -/

noncomputable section

namespace KDL
namespace Svd

open Matrix Finset

variable {m n : ℕ}

theorem QL_orth (T : Tests) (hb : ∀ x, T.big x → x ≠ 0) (U : Mat) (S : ℕ → ℝ) (i : ℕ)
    (h : S i ≠ 0 → i < m ∧ U i i ≠ 0 ∧ ∑ k ∈ Ico i m, U k i * U k i = -(2 * (S i * U i i))) :
    (QL T m U S i)ᵀ * QL T m U S i = 1 := by
  unfold QL
  by_cases hT : T.big (S i)
  · rw [if_pos hT, refl_transpose]
    obtain ⟨_, h2, h3⟩ := h (hb _ hT)
    apply refl_mul_self (mul_ne_zero (hb _ hT) h2)
    rw [← h3, ← sum_fin_Ico i m (fun l => U l i * U l i)]
    apply sum_congr rfl
    intro l _
    simp only [colV]
    split_ifs <;> ring
  · rw [if_neg hT]; simp

theorem QR_orth (T : Tests) (hb : ∀ x, T.big x → x ≠ 0) (U : Mat) (tm : ℕ → ℝ) (i : ℕ)
    (h : i + 1 < n → tm (i + 1) ≠ 0 → U i (i + 1) ≠ 0 ∧ ∑ k ∈ Ico (i + 1) n, U i k * U i k = -(2 * (tm (i + 1) * U i (i + 1)))) :
    (QR T n U tm i)ᵀ * QR T n U tm i = 1 := by
  unfold QR
  by_cases hT : i + 1 < n ∧ T.big (tm (i + 1))
  · rw [if_pos hT, refl_transpose]
    obtain ⟨h2, h3⟩ := h hT.1 (hb _ hT.2)
    apply refl_mul_self (mul_ne_zero (hb _ hT.2) h2)
    rw [← h3, ← sum_fin_Ico (i + 1) n (fun l => U i l * U i l)]
    apply sum_congr rfl
    intro l _
    simp only [rowV]
    split_ifs <;> ring
  · rw [if_neg hT]; simp

theorem prodQL_orth (T : Tests) (hb : ∀ x, T.big x → x ≠ 0) (U : Mat) (S : ℕ → ℝ) : ∀ t,
    (∀ i < t, S i ≠ 0 → i < m ∧ U i i ≠ 0 ∧ ∑ k ∈ Ico i m, U k i * U k i = -(2 * (S i * U i i))) →
    (prodQL T m U S t)ᵀ * prodQL T m U S t = 1
  | 0, _ => by simp [prodQL]
  | t + 1, h => by
    rw [prodQL, transpose_mul, Matrix.mul_assoc, ← Matrix.mul_assoc _ (prodQL T m U S t),
      prodQL_orth T hb U S t fun i hi => h i (by omega), Matrix.one_mul, QL_orth T hb U S t (h t (by omega))]

theorem prodQR_orth (T : Tests) (hb : ∀ x, T.big x → x ≠ 0) (U : Mat) (tm : ℕ → ℝ) : ∀ t,
    (∀ i < t, i + 1 < n → tm (i + 1) ≠ 0 → U i (i + 1) ≠ 0 ∧ ∑ k ∈ Ico (i + 1) n, U i k * U i k = -(2 * (tm (i + 1) * U i (i + 1)))) →
    (prodQR T n U tm t)ᵀ * prodQR T n U tm t = 1
  | 0, _ => by simp [prodQR]
  | t + 1, h => by
    rw [prodQR, transpose_mul, Matrix.mul_assoc, ← Matrix.mul_assoc _ (prodQR T n U tm t),
      prodQR_orth T hb U tm t fun i hi => h i (by omega), Matrix.one_mul, QR_orth T hb U tm t (h t (by omega))]

theorem prodL_eq (T : Tests) (hT : ∀ x, T.big x ↔ x ≠ 0) (U : Mat) (S : ℕ → ℝ) : ∀ t, prodL m U S t = prodQL T m U S t
  | 0 => rfl
  | t + 1 => by
    rw [prodL, prodQL, prodL_eq T hT U S t]
    congr 1
    unfold PL QL
    by_cases h : S t = 0
    · rw [if_pos h, if_neg (by rw [hT]; simpa using h)]
    · rw [if_neg h, if_pos ((hT _).mpr h)]

theorem prodR_eq (T : Tests) (hT : ∀ x, T.big x ↔ x ≠ 0) (U : Mat) (tm tm' : ℕ → ℝ) : ∀ t,
    (∀ i < t, tm' (i + 1) ≠ 0 → i + 1 < n) → (∀ i < t, i + 1 < n → tm (i + 1) = tm' (i + 1)) → prodR n U tm' t = prodQR T n U tm t
  | 0, _, _ => rfl
  | t + 1, h, h' => by
    rw [prodR, prodQR, prodR_eq T hT U tm tm' t (fun i hi => h i (by omega)) (fun i hi => h' i (by omega))]
    congr 1
    unfold PR QR
    by_cases h1 : tm' (t + 1) = 0
    · rw [if_pos h1, if_neg]
      rintro ⟨h2, h3⟩
      rw [hT, h' t (by omega) h2] at h3
      exact h3 h1
    · rw [if_neg h1, if_pos ⟨h t (by omega) h1, by rw [hT, h' t (by omega) (h t (by omega) h1)]; exact h1⟩,
        h' t (by omega) (h t (by omega) h1)]

theorem prodL_min (U : Mat) (S : ℕ → ℝ) (h : ∀ i < n, S i ≠ 0 → i < m) : prodL m U S n = prodL m U S (min n m) := by
  have key : ∀ d, ∀ t, t = min n m + d → t ≤ n → prodL m U S t = prodL m U S (min n m) := by
    intro d
    induction d with
    | zero => intro t ht _; rw [ht]; rfl
    | succ d ih =>
      intro t ht htn
      obtain ⟨t, rfl⟩ : ∃ t', t = t' + 1 := ⟨t - 1, by omega⟩
      rw [prodL, ih t (by omega) (by omega), PL, if_pos, Matrix.mul_one]
      by_contra hne
      have := h t (by omega) hne
      omega
  exact key (n - min n m) n (by omega) le_rfl

theorem idm_mul (K : Matrix (Fin n) (Fin n) ℝ) (r : Fin m) (c : Fin n) :
    (idm m n * K) r c = if h : (r : ℕ) < n then K ⟨r, h⟩ c else 0 := by
  rw [mul_apply]
  split_ifs with h
  · rw [sum_eq_single (⟨r, h⟩ : Fin n)]
    · simp [idm]
    · intro l _ hl
      rw [idm, if_neg, zero_mul]
      intro e; exact hl (Fin.ext e.symm)
    · intro h; exact absurd (mem_univ _) h
  · apply sum_eq_zero
    intro l _
    rw [idm, if_neg (by omega), zero_mul]

theorem idm_sq : (idm m n)ᵀ * idm m n = Matrix.diagonal fun l : Fin n => if (l : ℕ) < m then (1 : ℝ) else 0 := by
  ext r c
  rw [mul_apply]
  simp only [transpose_apply, idm]
  by_cases hrc : r = c
  · subst hrc
    rw [diagonal_apply_eq]
    split_ifs with h
    · rw [sum_eq_single (⟨r, h⟩ : Fin m)]
      · simp
      · intro l _ hl
        rw [if_neg, zero_mul]
        intro e; exact hl (Fin.ext e)
      · intro h; exact absurd (mem_univ _) h
    · apply sum_eq_zero
      intro l _
      rw [if_neg (by omega), zero_mul]
  · rw [diagonal_apply_ne _ hrc]
    apply sum_eq_zero
    intro l _
    by_cases h : (l : ℕ) = r
    · rw [if_neg (show ¬ (l : ℕ) = c from fun e => hrc (Fin.ext (by omega))), mul_zero]
    · rw [if_neg h, zero_mul]

/-- What the routine relies on of its comparisons: nothing zero is big, and zero is negligible. -/
structure Tests.Sound (T : Tests) : Prop where
  big : ∀ x, T.big x → x ≠ 0
  tiny : ∀ a, a = 0 ∨ a = 1 → T.tiny a 0
  tinyS : ∀ a, a = 0 ∨ a = 1 → T.tinyS a 0

/-- The state before the diagonalisation. -/
theorem run_start (T : Tests) (hT : T.Sound) (m n : ℕ) (maxiter : Int) (A V0 : Mat) (S0 tmp0 : ℕ → ℝ) :
    ∃ a st, run T m n maxiter A V0 S0 tmp0 = diagAll T a maxiter n [] st ∧ (a = 0 ∨ a = 1) ∧ Iso m n st.U st.V ∧
      (n ≠ 0 → st.tmp 0 = 0) ∧ (a = 0 → ∀ i < n, st.S i = 0 ∧ st.tmp i = 0) ∧
      ((∀ x, ¬ T.big x → x = 0) → Near (M m n A) (M m n st.U) (M n n st.V) (M n n (Bk n st.S st.tmp)) 0) := by
  obtain ⟨h, e1, hR⟩ := red_loop T hT.big (m := m) (n := n) A S0 tmp0 n le_rfl
  have htm : ∀ i, i + 1 < n → h.tmp (i + 1) = set h.tmp n h.e (i + 1) := fun i hi => (set_ne _ _ (by omega)).symm
  have hQR : ∀ i < n, i + 1 < n → h.tmp (i + 1) ≠ 0 → h.U i (i + 1) ≠ 0 ∧
      ∑ k ∈ Ico (i + 1) n, h.U i k * h.U i k = -(2 * (h.tmp (i + 1) * h.U i (i + 1))) := by
    intro i h1 h2 h3
    have := hR.right i h1 (by rw [← htm i h2]; exact h3)
    rw [← htm i h2] at this
    exact ⟨this.2.2.1, this.2.2.2⟩
  obtain ⟨V, e2, hV⟩ := accR_spec T hT.big h.U h.tmp (fun i h1 h2 => (hQR i (by omega) h1 (hT.big _ h2)).1) n le_rfl V0 1
    ⟨fun r c h1 => absurd r.2 (by omega), fun r c _ => rfl⟩
  obtain ⟨U, e3, hU⟩ := accL_spec T hT.big h.U h.S (fun i h1 h2 => (hR.left i h1 (hT.big _ h2)).2.1) (min n m) le_rfl h.U (idm m n)
    ⟨fun r c h1 h2 => by have := r.2; have := c.2; omega, fun r c _ => rfl, fun _ _ _ _ => rfl⟩
  have hVo := prodQR_orth T hT.big h.U h.tmp n hQR
  have hUo := prodQL_orth (m := m) T hT.big h.U h.S (min n m) (fun i hi => hR.left i (by omega))
  have hUU : (M m n U)ᵀ * M m n U = Matrix.diagonal fun l : Fin n => if (l : ℕ) < m then (1 : ℝ) else 0 := by
    rw [show M m n U = _ from hU, transpose_mul, Matrix.mul_assoc, ← Matrix.mul_assoc _ (prodQL T m h.U h.S _), hUo, Matrix.one_mul, idm_sq]
  have hVV : (M n n V)ᵀ * M n n V = 1 := by
    rw [show M n n V = _ from hV, Matrix.mul_one]; exact hVo
  have hI : Iso m n U V := by
    refine ⟨hVV, ?_, ?_⟩
    · rw [hUU, diagonal_mul_diagonal]; congr 1; ext l; split_ifs <;> simp
    · intro hnm
      rw [hUU, ← diagonal_one]
      congr 1; ext l; rw [if_pos (by have := l.2; omega)]
  have ht0 : n ≠ 0 → h.tmp 0 = 0 := by
    intro hn
    have := hR.zero
    rwa [set_ne _ _ (by omega)] at this
  have ha : h.anorm = 0 ∨ h.anorm = 1 := by rcases hR.anorm with h | h <;> tauto
  have hrun : run T m n maxiter A V0 S0 tmp0 = diagAll T h.anorm maxiter n [] ⟨U, h.S, V, h.tmp⟩ := by
    unfold run
    rw [e1]
    simp only [bind, Except.bind]
    rw [e2]
    simp only
    rw [e3]
  refine ⟨h.anorm, ⟨U, h.S, V, h.tmp⟩, hrun, ha, hI, ht0, ?_, ?_⟩
  · intro h0 i hi
    rcases hR.anorm with h1 | ⟨-, h1⟩
    · rw [h0] at h1; norm_num at h1
    · obtain ⟨h2, h3⟩ := h1 i hi
      try rw [set_ne _ _ (by omega)] at h3
      exact ⟨h2, h3⟩
  intro hx
  have hx' : ∀ x, T.big x ↔ x ≠ 0 := fun x => ⟨hT.big x, fun h => by by_contra h'; exact h (hx x h')⟩
  refine ⟨0, ⟨?_, hVV, hI.idem, ?_, hI.full⟩, by rw [fro_zero]⟩
  · have hW : Wm m n n h.S (set h.tmp n h.e) h.U = idm m n * M n n (Bk n h.S h.tmp) := by
      ext r c
      rw [idm_mul]
      simp only [Wm]
      by_cases hr : (r : ℕ) < n
      · rw [if_pos hr, dif_pos hr]
        simp only [M, Bk]
        by_cases h1 : (c : ℕ) = r
        · rw [if_pos h1, if_pos h1]
        · rw [if_neg h1, if_neg h1]
          by_cases h2 : (c : ℕ) = r + 1
          · rw [if_pos h2, if_pos ⟨h2, c.2⟩, set_ne _ _ (by have := c.2; omega)]
          · rw [if_neg h2, if_neg (fun h => h2 h.1)]
      · rw [if_neg hr, dif_neg hr, if_pos c.2]
    have hf := hR.fact fun x => (hx' x).mpr
    rw [show M m n A = _ from hf, prodL_min h.U h.S (fun i hi hne => (hR.left i hi hne).1), prodL_eq T hx',
      prodR_eq T hx' h.U h.tmp (set h.tmp n h.e) n (fun i hi hne => (hR.right i hi hne).2.1) (fun i _ hi => htm i hi),
      show M m n U = _ from hU, show M n n V = _ from hV, Matrix.mul_one, add_zero, hW]
    simp only [Matrix.mul_assoc]
  · rw [hUU, add_zero]
    ext r c
    rw [diagonal_mul]
    by_cases hr : (r : ℕ) < m
    · rw [if_pos hr, one_mul]
    · rw [if_neg hr, zero_mul]
      simp only [M, Bk]
      have hS : h.S r = 0 := by
        by_contra hne; exact hr (hR.left r r.2 hne).1
      by_cases h1 : (c : ℕ) = r
      · rw [if_pos h1, hS]
      · rw [if_neg h1]
        by_cases h2 : (c : ℕ) = r + 1 ∧ (c : ℕ) < n
        · rw [if_pos h2]
          by_contra hne
          have h3 : h.tmp (r + 1) ≠ 0 := fun h0 => hne (by rw [h2.1, h0])
          exact hr (hR.right r r.2 (by rw [← htm r (by omega)]; exact h3)).1
        · rw [if_neg h2]

/-- The routine up to the end of the diagonalisation. -/
theorem run_spec (T : Tests) (hT : T.Sound) (m n : ℕ) (maxiter : Int) (A V0 : Mat) (S0 tmp0 : ℕ → ℝ) (δ E : ℝ) :
    ∃ l st, run T m n maxiter A V0 S0 tmp0 = .ok (l, st) ∧ l.length = n ∧ (0 < n → l.head? = some 1) ∧
      (∀ x ∈ l, 1 ≤ x ∧ x ≤ 1 + maxiter.toNat) ∧ Iso m n st.U st.V ∧
      ((∀ x ∈ l, x < 1 + maxiter.toNat) → ∀ j < n, 0 ≤ st.S j) ∧
      ((∀ x, ¬ T.big x → x = 0) → (∀ a x, a = 0 ∨ a = 1 → T.tiny a x → |x| ≤ δ) →
        (∀ a x, a = 0 ∨ a = 1 → |x| ≤ fro (M m n A) + E → T.tinyS a x → |x| ≤ δ) → 3 * δ * maxiter.toNat * n ≤ E →
        (∀ x ∈ l, x < 1 + maxiter.toNat) →
        Near (M m n A) (M m n st.U) (M n n st.V) (M n n (Bk 0 st.S st.tmp)) (3 * δ * maxiter.toNat * n)) := by
  obtain ⟨a, st0, hrun, ha, hI, ht0, -, hN0⟩ := run_start T hT m n maxiter A V0 S0 tmp0
  rcases Nat.eq_zero_or_pos n with hn | hn
  · subst hn
    refine ⟨[], st0, by rw [hrun]; rfl, rfl, fun h => absurd h (by omega), by simp, hI, fun _ j hj => absurd hj (by omega), ?_⟩
    intro _ _ _ _ _
    refine ⟨0, ⟨?_, hI.orth, hI.idem, ?_, hI.full⟩, ?_⟩
    · ext r c; exact c.elim0
    · ext r c; exact c.elim0
    · rw [fro_zero]; simp
  obtain ⟨l, st, e4, d1, d2, d3, d4, _, d5, d6⟩ := diagAll_spec T a (hT.tiny _ ha) (hT.tinyS _ ha) hT.big (A := M m n A) δ E maxiter n
    [] st0 0 le_rfl (ht0 (by omega))
  rw [List.append_nil] at e4
  refine ⟨l, st, by rw [hrun, e4], d1, d2, d3, d4 hI, d5, ?_⟩
  intro hx hd hdS hE hc
  have := d6 hx (fun x => hd _ x ha) (fun x => hdS _ x ha) (by rw [zero_add]; exact hE) (hN0 hx) hc
  rwa [zero_add] at this

end Svd
end KDL
