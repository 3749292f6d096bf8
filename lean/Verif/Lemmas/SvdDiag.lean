import Verif.Lemmas.SvdInv

/-! The diagonalisation keeps the factorisation, up to the entries that the tests neglect. -/

noncomputable section

namespace KDL
namespace Svd

open Matrix Finset

variable {m n : ℕ}

/-- The bidiagonal matrix of the first `t` columns' superdiagonal. -/
def Bk (t : ℕ) (S tm : ℕ → ℝ) : Mat := fun r c => if c = r then S r else if c = r + 1 ∧ c < t then tm c else 0

/-- The same during the cancellation of row `nm`, before pass `i`. -/
def Ck (t nm i : ℕ) (c s : ℝ) (S tm : ℕ → ℝ) : Mat := fun r q =>
  (if q = r then (if r = nm then 0 else S r) else if q = r + 1 ∧ q < t then (if q = i then c * tm q else tm q) else 0) +
    (if r = nm ∧ q = i ∧ i < t then s * tm i else 0)

theorem Ck_step {t nm i : ℕ} (hi : nm < i) {c s : ℝ} {S tm : ℕ → ℝ} (hz : nm + 1 < i → tm (nm + 1) = 0)
    (hc : i = nm + 1 → c = 0) (hit : i < t) {h : ℝ} (h0 : h ≠ 0)
    (hh : h * h = (s * tm i) * (s * tm i) + S i * S i) (r q : ℕ) :
    rotRows (Ck t nm i c s S tm) nm i (S i * (1 / h)) (-(s * tm i) * (1 / h)) r q =
      Ck t nm (i + 1) (S i * (1 / h)) (-(s * tm i) * (1 / h)) (set S i h) (set tm i (c * tm i)) r q := by
  have hin : ¬ i = nm := by omega
  have e1 : ∀ q, Ck t nm i c s S tm nm q = if q = i then s * tm i else 0 := by
    intro q
    unfold Ck
    by_cases h1 : q = i
    · subst h1
      rw [if_neg hin, if_pos (show nm = nm ∧ q = q ∧ q < t from ⟨rfl, rfl, hit⟩)]
      by_cases h2 : q = nm + 1
      · rw [if_pos (show q = nm + 1 ∧ q < t from ⟨h2, hit⟩), if_pos rfl, hc h2, if_pos rfl]; ring
      · rw [if_neg (show ¬ (q = nm + 1 ∧ q < t) from fun h => h2 h.1), if_pos rfl]; ring
    · rw [if_neg (show ¬ (nm = nm ∧ q = i ∧ i < t) from fun h => h1 h.2.1)]
      by_cases h2 : q = nm
      · rw [if_pos h2, if_pos rfl, if_neg h1]; ring
      · rw [if_neg h2]
        split_ifs with h3
        · rw [h3.1, hz (by omega)]; ring
        · ring
  have e2 : ∀ q, Ck t nm i c s S tm i q = if q = i then S i else if q = i + 1 ∧ q < t then tm q else 0 := by
    intro q
    simp only [Ck, if_neg hin, if_neg (fun h : i = nm ∧ q = i ∧ i < t => hin h.1), add_zero]
    by_cases h1 : q = i
    · rw [if_pos h1, if_pos h1]
    · rw [if_neg h1, if_neg h1, if_neg h1]
  simp only [rotRows]
  by_cases hr : r = nm
  · subst hr
    rw [if_pos rfl, e1, e2]
    simp only [Ck]
    by_cases h1 : q = i
    · subst h1
      rw [if_pos rfl, if_pos rfl, if_neg hin]
      simp only [show ¬ q = q + 1 by omega, false_and, and_false, if_false, add_zero]
      by_cases h2 : q = r + 1
      · rw [if_pos ⟨h2, hit⟩, set_same, hc h2]; ring
      · rw [if_neg (fun h => h2 h.1)]; ring
    · rw [if_neg h1, if_neg h1]
      simp only [true_and, if_true]
      by_cases h2 : q = i + 1
      · subst h2
        simp only [show ¬ i + 1 = r by omega, show ¬ (i + 1 = r + 1) by omega, true_and, false_and, if_false, zero_add]
        by_cases h3 : i + 1 < t
        · rw [if_pos h3, if_pos h3, set_ne _ _ (by omega)]; ring
        · rw [if_neg h3, if_neg h3]; ring
      · simp only [h2, false_and, if_false, add_zero]
        by_cases h3 : q = r
        · rw [if_pos h3]; ring
        · rw [if_neg h3]
          by_cases h4 : q = r + 1 ∧ q < t
          · rw [if_pos h4, set_ne _ _ h1, h4.1, hz (by omega)]; ring
          · rw [if_neg h4]; ring
  · rw [if_neg hr]
    by_cases hri : r = i
    · subst hri
      rw [if_pos rfl, e1, e2]
      simp only [Ck, if_neg hr, if_neg (fun h : r = nm ∧ _ => hr h.1), add_zero]
      by_cases h1 : q = r
      · subst h1
        rw [if_pos rfl, if_pos rfl, if_pos rfl, set_same]
        field_simp
        linear_combination -hh
      · rw [if_neg h1, if_neg h1, if_neg h1]
        split_ifs with h2 h3
        · rw [set_ne _ _ h1]; ring
        · omega
        · ring
    · rw [if_neg hri]
      simp only [Ck, if_neg hr, if_neg (fun h : r = nm ∧ _ => hr h.1), add_zero]
      by_cases h1 : q = r
      · rw [if_pos h1, if_pos h1, set_ne _ _ hri]
      · rw [if_neg h1, if_neg h1]
        split_ifs with h2 h3 h4 h5
        · omega
        · rw [h3, set_same]
        · omega
        · rw [set_ne _ _ h3]
        · rfl

/-- What the cancellation does. -/
theorem cancel_spec (T : Tests) (a : ℝ) (h0 : T.tiny a 0) {A : Matrix (Fin m) (Fin n) ℝ} {nm k : ℕ} (hk : k < n) (V : Mat)
    (δ : ℝ) : ∀ (d i : ℕ) (c s : ℝ) (st : Dg) (ε : ℝ), d + i = k + 1 → nm < i → st.V = V →
    (nm + 1 < i → st.tmp (nm + 1) = 0) → (i = nm + 1 → c = 0 ∧ s = 1) → (nm + 1 < i → c ≠ 0 ∧ s ≠ 0 ∨ k < i) →
    (∀ j, i ≤ j → j ≤ k → st.tmp j ≠ 0) → (∀ j, nm < j → j < k → st.S j ≠ 0) → (∀ j, nm + 1 < j → j < i → st.tmp j ≠ 0) →
    ∃ st', cancel T a nm d i c s st = .ok st' ∧ st'.V = V ∧ st'.S nm = st.S nm ∧ (∀ j, j ≤ nm → st'.tmp j = st.tmp j) ∧
      (∀ j, k < j → st'.tmp j = st.tmp j ∧ st'.S j = st.S j) ∧ (∀ j, j ≤ nm → st'.S j = st.S j) ∧
      (∀ j, nm + 1 < j → j ≤ k → st'.tmp j ≠ 0) ∧ (∀ j, nm < j → j < k → st'.S j ≠ 0) ∧
      (Iso m n st.U V → Iso m n st'.U V) ∧
      ((∀ x, T.tiny a x → |x| ≤ δ) → Near A (M m n st.U) (M n n V) (M n n (Ck (k + 1) nm i c s st.S st.tmp)) ε →
        Near A (M m n st'.U) (M n n V) (M n n (Bk (k + 1) (set st'.S nm 0) (set st'.tmp (nm + 1) 0))) (ε + δ))
  | 0, i, c, s, st, ε, hd, hi, hV, hz, _, _, _, hS, htm => by
    have hz' : nm + 1 < i → st.tmp (nm + 1) = 0 := hz
    refine ⟨st, rfl, hV, rfl, fun _ _ => rfl, fun _ _ => ⟨rfl, rfl⟩, fun _ _ => rfl, fun j h1 h2 => htm j h1 (by omega), hS, id, ?_⟩
    intro ht h
    have hδ : 0 ≤ δ := (abs_nonneg _).trans (ht _ h0)
    refine (h.congr ?_).mono (by linarith)
    intro r _ q _
    simp only [Ck, Bk, if_neg (show ¬ (r = nm ∧ q = i ∧ i < k + 1) by omega), add_zero]
    by_cases h1 : q = r
    · rw [if_pos h1, if_pos h1]
      by_cases h2 : r = nm
      · rw [if_pos h2, h2, set_same]
      · rw [if_neg h2, set_ne _ _ h2]
    · rw [if_neg h1, if_neg h1]
      split_ifs with h2 h3
      · omega
      · by_cases h4 : q = nm + 1
        · rw [h4, set_same, hz (by omega)]
        · rw [set_ne _ _ h4]
      · rfl
  | d + 1, i, c, s, st, ε, hd, hi, hV, hz, hc1, hc2, hti, hS, htm => by
    have hik : i ≤ k := by omega
    have hs0 : s ≠ 0 := by
      by_cases h : i = nm + 1
      · rw [(hc1 h).2]; norm_num
      · rcases hc2 (by omega) with h | h
        · exact h.2
        · omega
    have hc0 : nm + 1 < i → c ≠ 0 := fun h => by
      rcases hc2 h with h | h
      · exact h.1
      · omega
    rw [cancel]
    dsimp only
    by_cases h1 : T.tiny a (s * st.tmp i)
    · rw [if_pos h1]
      refine ⟨_, rfl, hV, rfl, ?_, ?_, fun _ _ => rfl, ?_, hS, id, ?_⟩
      · intro j hj; exact set_ne _ _ (by omega)
      · intro j hj; exact ⟨set_ne _ _ (by omega), rfl⟩
      · intro j h2 h3
        by_cases h4 : j = i
        · rw [h4]; simp only [set_same]; exact mul_ne_zero (hc0 (by omega)) (hti i le_rfl hik)
        · simp only [set_ne _ _ h4]
          by_cases h5 : j < i
          · exact htm j h2 h5
          · exact hti j (by omega) h3
      · intro ht h
        refine h.put (i := nm) (j := i) (by omega) (by omega) ?_ ?_
        · intro r q hrq
          simp only [Ck, Bk]
          rw [if_neg (show ¬ (r = nm ∧ q = i ∧ i < k + 1) from fun h => hrq ⟨h.1, h.2.1⟩), add_zero]
          by_cases h2 : q = r
          · rw [if_pos h2, if_pos h2]
            by_cases h3 : r = nm
            · rw [if_pos h3, h3, set_same]
            · rw [if_neg h3, set_ne _ _ h3]
          · rw [if_neg h2, if_neg h2]
            by_cases h3 : q = r + 1 ∧ q < k + 1
            · rw [if_pos h3, if_pos h3]
              by_cases h4 : q = i
              · rw [if_pos h4, set_ne _ _ (by omega), h4, set_same]
              · rw [if_neg h4]
                by_cases h5 : q = nm + 1
                · rw [h5, set_same, hz (by omega)]
                · rw [set_ne _ _ h5, set_ne _ _ h4]
            · rw [if_neg h3, if_neg h3]
        · have h3 : i < k + 1 := by omega
          simp only [Ck, Bk, show ¬ i = nm by omega, if_false, true_and, h3, if_true, and_true]
          by_cases h2 : i = nm + 1
          · rw [if_pos h2, if_pos h2, (hc1 h2).1, h2, set_same, ← h2]
            simpa using ht _ h1
          · rw [if_neg h2, if_neg h2]
            simpa using ht _ h1
    · rw [if_neg h1]
      have hf : s * st.tmp i ≠ 0 := mul_ne_zero hs0 (hti i le_rfl hik)
      have hh : pythag (s * st.tmp i) (st.S i) ≠ 0 := fun h => hf (pythag_eq_zero.mp h).1
      have hsq := pythag_sq (s * st.tmp i) (st.S i)
      rw [if_neg hh]
      generalize pythag (s * st.tmp i) (st.S i) = h at hh hsq ⊢
      obtain ⟨st', e, r1, r2, r3, r4, r5, r6, r7, r7', r8⟩ := cancel_spec T a h0 (A := A) (nm := nm) hk V δ d (i + 1) (st.S i * (1 / h)) (-(s * st.tmp i) * (1 / h))
        { st with U := rotCols st.U nm i (st.S i * (1 / h)) (-(s * st.tmp i) * (1 / h)), S := set st.S i h,
                  tmp := set st.tmp i (c * st.tmp i) } ε (by omega) (by omega) hV
        (by
          intro _
          by_cases h2 : i = nm + 1
          · simp only [← h2, set_same, (hc1 h2).1, zero_mul]
          · simp only [set_ne _ _ (show nm + 1 ≠ i by omega)]; exact hz (by omega))
        (by intro h; omega)
        (by
          intro _
          by_cases h2 : i = k
          · right; omega
          · left
            exact ⟨mul_ne_zero (hS i hi (by omega)) (one_div_ne_zero hh), mul_ne_zero (neg_ne_zero.mpr hf) (one_div_ne_zero hh)⟩)
        (by
          intro j h2 h3
          simp only [set_ne _ _ (show j ≠ i by omega)]
          exact hti j (by omega) h3)
        (by
          intro j h2 h3
          by_cases h4 : j = i
          · simp only [h4, set_same]; exact hh
          · simp only [set_ne _ _ h4]; exact hS j h2 h3)
        (by
          intro j h2 h3
          by_cases h4 : j = i
          · simp only [h4, set_same]; exact mul_ne_zero (hc0 (by omega)) (hti i le_rfl hik)
          · simp only [set_ne _ _ h4]; exact htm j h2 (by omega))
      have hcs : st.S i * (1 / h) * (st.S i * (1 / h)) + -(s * st.tmp i) * (1 / h) * (-(s * st.tmp i) * (1 / h)) = 1 := by
        field_simp; linear_combination -hsq
      refine ⟨st', e, r1, ?_, ?_, ?_, ?_, r6, r7, fun hI => r7' (hI.rotU (by omega) (by omega) (by omega) hcs), ?_⟩
      · rw [r2]; exact set_ne _ _ (by omega)
      · intro j hj; rw [r3 j hj]; exact set_ne _ _ (by omega)
      · intro j hj; rw [(r4 j hj).1, (r4 j hj).2]; exact ⟨set_ne _ _ (by omega), set_ne _ _ (by omega)⟩
      · intro j hj; rw [r5 j hj]; exact set_ne _ _ (by omega)
      · intro ht hN
        apply r8 ht
        refine (hN.rotU (by omega : nm < n) (by omega : i < n) (by omega) hcs).congr ?_
        intro r _ q _
        exact Ck_step hi (fun h => hz h) (fun h => (hc1 h).1) (by omega) hh hsq r q

/-- The matrix during the QR transformation of the block `p … t-1`, before pass `j`. -/
def Qk (t p j : ℕ) (f x c s : ℝ) (S tm : ℕ → ℝ) : Mat := fun r q =>
  (if q = r then (if r = j then x else S r)
    else if q = r + 1 ∧ q < t then (if q = p then 0 else if q = j then f else if q = j + 1 then c * tm q else tm q) else 0) +
    (if p < j ∧ r + 1 = j ∧ q = j + 1 ∧ q < t then s * tm q else 0)

theorem Qk_step {t p j : ℕ} (hp : p ≤ j) (hj : j + 1 < t) {f x c s : ℝ} {S tm : ℕ → ℝ} {z c1 s1 z2 c2 s2 : ℝ}
    (h1 : p < j → f * c1 + s * tm (j + 1) * s1 = z) (h2 : p < j → s * tm (j + 1) * c1 = f * s1)
    (h3 : (x * c1 + c * tm (j + 1) * s1) * c2 + S (j + 1) * s1 * s2 = z2)
    (h4 : c2 * (S (j + 1) * s1) = s2 * (x * c1 + c * tm (j + 1) * s1)) (r q : ℕ) :
    rotRows (rotCols (Qk t p j f x c s S tm) j (j + 1) c1 s1) j (j + 1) c2 s2 r q =
      Qk t p (j + 1) (c2 * (c * tm (j + 1) * c1 - x * s1) + s2 * (S (j + 1) * c1))
        (c2 * (S (j + 1) * c1) - s2 * (c * tm (j + 1) * c1 - x * s1)) c2 s2 (set S j z2) (set tm j z) r q := by
  have q1 : ∀ q, Qk t p j f x c s S tm j q = if q = j then x else if q = j + 1 then c * tm (j + 1) else 0 := by
    intro q
    simp only [Qk, show ¬ j + 1 = j by omega, false_and, and_false, if_false, add_zero, if_true]
    by_cases e1 : q = j
    · rw [if_pos e1, if_pos e1]
    · simp only [if_neg e1]
      by_cases e2 : q = j + 1
      · rw [if_pos ⟨e2, by omega⟩, if_neg (by omega), if_pos e2, if_pos e2, e2]
      · rw [if_neg (show ¬ (q = j + 1 ∧ q < t) from fun h => e2 h.1), if_neg e2]
  have q2 : ∀ q, Qk t p j f x c s S tm (j + 1) q = if q = j + 1 then S (j + 1) else if q = j + 2 ∧ q < t then tm q else 0 := by
    intro q
    simp only [Qk, show ¬ j + 1 = j by omega, show ¬ j + 1 + 1 = j by omega, false_and, and_false, if_false, add_zero]
    by_cases e1 : q = j + 1
    · rw [if_pos e1, if_pos e1]
    · simp only [if_neg e1]
      by_cases e2 : q = j + 2 ∧ q < t
      · rw [if_pos (show q = j + 1 + 1 ∧ q < t from e2), if_pos e2, if_neg (by omega), if_neg (by omega)]
      · rw [if_neg (show ¬ (q = j + 1 + 1 ∧ q < t) from e2), if_neg e2]
  have q3 : ∀ r q, r ≠ j → r + 1 ≠ j → Qk t p j f x c s S tm r q =
      if q = r then S r else if q = r + 1 ∧ q < t then (if q = p then 0 else tm q) else 0 := by
    intro r q e1 e2
    simp only [Qk, if_neg e1, if_neg (fun h : p < j ∧ r + 1 = j ∧ q = j + 1 ∧ q < t => e2 h.2.1), add_zero]
    by_cases e3 : q = r
    · rw [if_pos e3, if_pos e3]
    · rw [if_neg e3, if_neg e3]
      by_cases e4 : q = r + 1 ∧ q < t
      · rw [if_pos e4, if_pos e4]
        by_cases e5 : q = p
        · rw [if_pos e5, if_pos e5]
        · rw [if_neg e5, if_neg e5, if_neg (by omega), if_neg (by omega)]
      · rw [if_neg e4, if_neg e4]
  have q4 : ∀ r q, r + 1 = j → Qk t p j f x c s S tm r q =
      if q = r then S r else if q = j then (if p = j then 0 else f) else if q = j + 1 then (if p = j then 0 else s * tm (j + 1)) else 0 := by
    intro r q e1
    simp only [Qk, e1, show ¬ r = j by omega, if_false, true_and]
    by_cases e2 : q = r
    · rw [if_pos e2, if_pos e2, if_neg (by omega), add_zero]
    · rw [if_neg e2, if_neg e2]
      by_cases e3 : q = j
      · subst e3
        simp only [true_and, show q < t by omega, if_true, show ¬ q = q + 1 by omega, false_and, and_false, if_false, add_zero]
        by_cases e4 : p = q
        · rw [if_pos e4.symm, if_pos e4]
        · rw [if_neg (fun h => e4 h.symm), if_neg e4]
      · rw [if_neg (show ¬ (q = j ∧ q < t) by omega), if_neg e3]
        by_cases e4 : q = j + 1
        · rw [if_pos e4]
          by_cases e5 : p = j
          · rw [if_neg (by omega), if_pos e5, add_zero]
          · rw [if_pos (by omega), if_neg e5, e4, zero_add]
        · rw [if_neg (by omega), if_neg e4, add_zero]
  have hjj : ¬ j + 1 = j := by omega
  have hjj' : ¬ j = j + 1 := by omega
  have hj2 : ¬ j = j + 2 := by omega
  have hj3 : ¬ j + 1 = j + 2 := by omega
  simp only [rotRows]
  by_cases hr : r = j
  · subst hr
    simp only [if_true, rotCols, q1, q2, hjj, hjj', hj2, hj3, false_and, if_false]
    simp only [Qk]
    by_cases e1 : q = r
    · subst e1
      simp only [if_true, hjj', if_false, show ¬ q = q + 1 + 1 by omega, false_and, and_false, add_zero, set_same]
      linear_combination h3
    · simp only [e1, if_false]
      by_cases e2 : q = r + 1
      · subst e2
        simp only [if_true, show ¬ r + 1 = p by omega, hj, show ¬ r + 1 = r + 1 + 1 by omega, if_false, and_true, false_and, and_false, add_zero]
        ring
      · simp only [e2, if_false, false_and, zero_add, true_and, show p < r + 1 by omega]
        by_cases e3 : q = r + 2
        · subst e3
          by_cases e4 : r + 2 < t
          · simp only [e4, if_true, and_true]; rw [set_ne _ _ (by omega)]; ring
          · simp only [e4, if_false, and_false]; ring
        · simp only [show ¬ q = r + 1 + 1 from e3, e3, false_and, if_false]; ring
  · rw [if_neg hr]
    by_cases hr1 : r = j + 1
    · subst hr1
      simp only [if_true, rotCols, q1, q2, hjj, hjj', hj2, hj3, false_and, if_false]
      simp only [Qk, show ¬ j + 1 + 1 = j + 1 by omega, false_and, and_false, if_false, add_zero, if_true]
      by_cases e1 : q = j
      · subst e1
        simp only [if_true, hjj', if_false, show ¬ q = q + 1 + 1 by omega, false_and]
        linear_combination h4
      · by_cases e2 : q = j + 1
        · subst e2
          simp only [hjj, if_true, if_false]
          ring
        · simp only [e1, e2, if_false]
          by_cases e3 : q = j + 2
          · subst e3
            by_cases e4 : j + 2 < t
            · simp only [e4, and_self, if_true, show ¬ j + 2 = p by omega, if_false]
              rw [set_ne _ _ (by omega)]; ring
            · simp only [e4, and_false, if_false]; ring
          · simp only [show ¬ q = j + 1 + 1 from e3, e3, false_and, if_false]; ring
    · rw [if_neg hr1]
      by_cases hr2 : r + 1 = j
      · simp only [rotCols, q4 _ _ hr2]
        simp only [Qk, hr1, if_false, show ¬ r + 1 = j + 1 by omega, false_and, and_false, add_zero]
        have n1 : ¬ j = r := by omega
        have n2 : ¬ j + 1 = r := by omega
        by_cases e1 : q = j
        · subst e1
          simp only [if_true, n1, n2, hjj, if_false, hr2, show q < t by omega, and_self, hjj', set_same, show ¬ q = q + 1 + 1 by omega]
          by_cases e2 : p = q
          · rw [if_pos e2, if_pos e2, if_pos e2.symm]; ring
          · rw [if_neg e2, if_neg e2, if_neg (fun h => e2 h.symm)]; exact h1 (by omega)
        · by_cases e2 : q = j + 1
          · subst e2
            simp only [if_true, n1, n2, hjj, if_false, show ¬ j + 1 = r + 1 by omega, false_and]
            by_cases e3 : p = j
            · rw [if_pos e3, if_pos e3]; ring
            · rw [if_neg e3, if_neg e3]; linear_combination h2 (by omega)
          · simp only [e1, e2, if_false, show ¬ q = r + 1 by omega, false_and]
            by_cases e3 : q = r
            · rw [if_pos e3, if_pos e3, set_ne _ _ hr]
            · rw [if_neg e3, if_neg e3]
      · simp only [rotCols, q3 _ _ hr hr2]
        simp only [Qk, hr1, if_false, show ¬ r + 1 = j + 1 by omega, false_and, and_false, add_zero]
        have n1 : ¬ j = r := by omega
        have n2 : ¬ j + 1 = r := by omega
        have n3 : ¬ j = r + 1 := by omega
        have n4 : ¬ j + 1 = r + 1 := by omega
        by_cases e1 : q = j
        · subst e1
          simp only [if_true, n1, n2, n3, n4, if_false, false_and]; ring
        · by_cases e2 : q = j + 1
          · subst e2
            simp only [if_true, n1, n2, n3, n4, hjj, if_false, false_and]; ring
          · simp only [e1, e2, if_false]
            by_cases e3 : q = r
            · rw [if_pos e3, if_pos e3, set_ne _ _ hr]
            · rw [if_neg e3, if_neg e3]
              by_cases e4 : q = r + 1 ∧ q < t
              · rw [if_pos e4, if_pos e4]
                by_cases e5 : q = p
                · rw [if_pos e5, if_pos e5]
                · rw [if_neg e5, if_neg e5, set_ne _ _ e1, if_neg (by omega)]
              · rw [if_neg e4, if_neg e4]

/-- What the QR transformation does. -/
theorem qr_spec (T : Tests) (hb : ∀ x, T.big x → x ≠ 0) {A : Matrix (Fin m) (Fin n) ℝ} {p k : ℕ} (hk : k < n) (ε : ℝ) :
    ∀ (d j : ℕ) (f x c s : ℝ) (st : Dg), d + j = k → p ≤ j → (j < k → s ≠ 0) → (∀ i, j < i → i ≤ k → st.tmp i ≠ 0) →
    (∀ i, j < i → i < k → st.S i ≠ 0) →
    ∃ f' x' c' s' st', qr T d j f x c s st = .ok (f', x', st') ∧ (∀ i, i < p → st'.tmp i = st.tmp i ∧ st'.S i = st.S i) ∧
      (∀ i, k < i → st'.tmp i = st.tmp i ∧ st'.S i = st.S i) ∧ (Iso m n st.U st.V → Iso m n st'.U st'.V) ∧
      ((∀ x, ¬ T.big x → x = 0) → Near A (M m n st.U) (M n n st.V) (M n n (Qk (k + 1) p j f x c s st.S st.tmp)) ε →
        Near A (M m n st'.U) (M n n st'.V) (M n n (Qk (k + 1) p k f' x' c' s' st'.S st'.tmp)) ε)
  | 0, j, f, x, c, s, st, hd, _, _, _, _ => by
    have : j = k := by omega
    subst this
    exact ⟨f, x, c, s, st, rfl, fun _ _ => ⟨rfl, rfl⟩, fun _ _ => ⟨rfl, rfl⟩, id, fun _ h => h⟩
  | d + 1, j, f, x, c, s, st, hd, hp, hs, ht, hS => by
    have hjk : j < k := by omega
    have h1 : s * st.tmp (j + 1) ≠ 0 := mul_ne_zero (hs hjk) (ht _ (by omega) (by omega))
    have hz : pythag f (s * st.tmp (j + 1)) ≠ 0 := fun h => h1 (pythag_eq_zero.mp h).2
    have hsq := pythag_sq f (s * st.tmp (j + 1))
    rw [qr]
    dsimp only
    rw [if_neg hz]
    generalize pythag f (s * st.tmp (j + 1)) = z at hz hsq ⊢
    have hc1 : f / z * (f / z) + s * st.tmp (j + 1) / z * (s * st.tmp (j + 1) / z) = 1 := by
      field_simp; linear_combination -hsq
    have h2 : f * (f / z) + s * st.tmp (j + 1) * (s * st.tmp (j + 1) / z) = z := by field_simp; linear_combination -hsq
    have h3 : s * st.tmp (j + 1) * (f / z) = f * (s * st.tmp (j + 1) / z) := by ring
    have hs1 : s * st.tmp (j + 1) / z ≠ 0 := div_ne_zero h1 hz
    generalize f / z = c1 at hc1 h2 h3 ⊢
    generalize s * st.tmp (j + 1) / z = s1 at hc1 h2 h3 hs1 ⊢
    generalize hg : c * st.tmp (j + 1) = g
    have hsq2 := pythag_sq (x * c1 + g * s1) (st.S (j + 1) * s1)
    have hz20 : pythag (x * c1 + g * s1) (st.S (j + 1) * s1) = 0 → x * c1 + g * s1 = 0 ∧ st.S (j + 1) * s1 = 0 := pythag_eq_zero.mp
    generalize pythag (x * c1 + g * s1) (st.S (j + 1) * s1) = z2 at hsq2 hz20 ⊢
    have key : ∀ c2 s2 : ℝ, (j + 1 < k → s2 ≠ 0) → c2 * c2 + s2 * s2 = 1 →
        ((∀ x, ¬ T.big x → x = 0) → (x * c1 + g * s1) * c2 + st.S (j + 1) * s1 * s2 = z2 ∧
          c2 * (st.S (j + 1) * s1) = s2 * (x * c1 + g * s1)) →
        ∃ f' x' c' s' st', qr T d (j + 1) (c2 * (g * c1 - x * s1) + s2 * (st.S (j + 1) * c1))
            (c2 * (st.S (j + 1) * c1) - s2 * (g * c1 - x * s1)) c2 s2
            ⟨rotCols st.U j (j + 1) c2 s2, set st.S j z2, rotCols st.V j (j + 1) c1 s1, set st.tmp j z⟩ = .ok (f', x', st') ∧
          (∀ i, i < p → st'.tmp i = st.tmp i ∧ st'.S i = st.S i) ∧ (∀ i, k < i → st'.tmp i = st.tmp i ∧ st'.S i = st.S i) ∧
          (Iso m n st.U st.V → Iso m n st'.U st'.V) ∧
          ((∀ x, ¬ T.big x → x = 0) → Near A (M m n st.U) (M n n st.V) (M n n (Qk (k + 1) p j f x c s st.S st.tmp)) ε →
            Near A (M m n st'.U) (M n n st'.V) (M n n (Qk (k + 1) p k f' x' c' s' st'.S st'.tmp)) ε) := by
      intro c2 s2 hs2 hcs2 hex
      obtain ⟨f', x', c', s', st', e, r1, r2, r2', r3⟩ := qr_spec T hb (A := A) (p := p) hk ε d (j + 1)
        (c2 * (g * c1 - x * s1) + s2 * (st.S (j + 1) * c1)) (c2 * (st.S (j + 1) * c1) - s2 * (g * c1 - x * s1)) c2 s2
        ⟨rotCols st.U j (j + 1) c2 s2, set st.S j z2, rotCols st.V j (j + 1) c1 s1, set st.tmp j z⟩ (by omega) (by omega) hs2
        (by intro i e1 e2; dsimp only; rw [set_ne _ _ (by omega)]; exact ht i (by omega) e2)
        (by intro i e1 e2; dsimp only; rw [set_ne _ _ (by omega)]; exact hS i (by omega) e2)
      refine ⟨f', x', c', s', st', e, ?_, ?_,
        fun hI => r2' ((hI.rotV (by omega : j < n) (by omega : j + 1 < n) (by omega) hc1).rotU (by omega) (by omega) (by omega) hcs2), ?_⟩
      · intro i hi; rw [(r1 i hi).1, (r1 i hi).2]; exact ⟨set_ne _ _ (by omega), set_ne _ _ (by omega)⟩
      · intro i hi; rw [(r2 i hi).1, (r2 i hi).2]; exact ⟨set_ne _ _ (by omega), set_ne _ _ (by omega)⟩
      · intro hx hN
        apply r3 hx
        obtain ⟨e2, e3⟩ := hex hx
        refine ((hN.rotV (by omega : j < n) (by omega : j + 1 < n) (by omega) hc1).rotU (by omega : j < n) (by omega : j + 1 < n)
          (by omega) hcs2).congr ?_
        intro r _ q _
        subst hg
        exact Qk_step hp (by omega) (fun _ => h2) (fun _ => h3) e2 e3 r q
    by_cases hz2 : T.big z2
    · rw [if_pos hz2]
      have h0 := hb _ hz2
      refine key _ _ ?_ ?_ ?_
      · intro h; exact mul_ne_zero (mul_ne_zero (hS _ (by omega) h) hs1) (one_div_ne_zero h0)
      · field_simp; linear_combination -hsq2
      · intro _
        refine ⟨?_, ?_⟩
        · field_simp; linear_combination -hsq2
        · ring
    · rw [if_neg hz2]
      refine key _ _ (fun _ => hs1) hc1 ?_
      intro hx
      obtain ⟨e1, e2⟩ := hz20 (hx _ hz2)
      refine ⟨?_, ?_⟩
      · rw [e1, e2, hx _ hz2]; ring
      · rw [e1, e2]; ring

end Svd
end KDL
