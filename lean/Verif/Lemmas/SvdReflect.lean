import Verif.Lemmas.SvdReduce

/-! The Householder reduction as a product of reflections. -/

noncomputable section

namespace KDL
namespace Svd

open Matrix Finset

theorem sum_fin_Ico (i m : ℕ) (f : ℕ → ℝ) : (∑ l : Fin m, if i ≤ (l : ℕ) then f l else 0) = ∑ l ∈ Ico i m, f l := by
  rw [Fin.sum_univ_eq_sum_range (fun l => if i ≤ l then f l else 0) m, ← sum_filter]
  apply sum_congr _ fun _ _ => rfl
  ext l; simp only [mem_filter, mem_range, mem_Ico]; omega

/-- The reflection `1 + u uᵀ / d`. -/
def refl {m : ℕ} (u : Fin m → ℝ) (d : ℝ) : Matrix (Fin m) (Fin m) ℝ := 1 + (1 / d) • vecMulVec u u

theorem refl_transpose {m : ℕ} (u : Fin m → ℝ) (d : ℝ) : (refl u d)ᵀ = refl u d := by
  ext r c
  simp only [refl, transpose_apply, Matrix.add_apply, Matrix.smul_apply, vecMulVec_apply, smul_eq_mul, one_apply]
  rw [mul_comm (u c)]
  congr 1
  simp only [eq_comm]

theorem refl_mul_apply {m n : ℕ} (u : Fin m → ℝ) (d : ℝ) (M : Matrix (Fin m) (Fin n) ℝ) (r : Fin m) (c : Fin n) :
    (refl u d * M) r c = M r c + (∑ l, u l * M l c) / d * u r := by
  rw [refl, Matrix.add_mul, Matrix.one_mul, Matrix.add_apply, Matrix.smul_mul, Matrix.smul_apply, mul_apply]
  simp only [vecMulVec_apply, smul_eq_mul]
  congr 1
  rw [mul_sum, sum_div, sum_mul]
  exact sum_congr rfl fun l _ => by ring

theorem mul_refl_apply {m n : ℕ} (u : Fin n → ℝ) (d : ℝ) (M : Matrix (Fin m) (Fin n) ℝ) (r : Fin m) (c : Fin n) :
    (M * refl u d) r c = M r c + (∑ l, M r l * u l) / d * u c := by
  rw [refl, Matrix.mul_add, Matrix.mul_one, Matrix.add_apply, Matrix.mul_smul, Matrix.smul_apply, mul_apply]
  simp only [vecMulVec_apply, smul_eq_mul]
  congr 1
  rw [mul_sum, sum_div, sum_mul]
  exact sum_congr rfl fun l _ => by ring

theorem refl_mul_self {m : ℕ} {u : Fin m → ℝ} {d : ℝ} (hd : d ≠ 0) (h : ∑ l, u l * u l = -(2 * d)) :
    refl u d * refl u d = 1 := by
  ext r c
  rw [refl_mul_apply]
  have : ∑ l, u l * refl u d l c = -(u c) := by
    have e := mul_refl_apply u d (Matrix.of fun (_ : Fin 1) l => u l) 0 c
    rw [mul_apply] at e
    simp only [Matrix.of_apply] at e
    rw [e, h]; field_simp; ring
  rw [this]
  simp only [refl, Matrix.add_apply, Matrix.smul_apply, vecMulVec_apply, smul_eq_mul]
  field_simp
  ring

/-- The vector stored in column `i`. -/
def colV (m : ℕ) (U : Mat) (i : ℕ) : Fin m → ℝ := fun k => if i ≤ (k : ℕ) then U k i else 0
/-- The vector stored in row `i`. -/
def rowV (n : ℕ) (U : Mat) (i : ℕ) : Fin n → ℝ := fun k => if i + 1 ≤ (k : ℕ) then U i k else 0

open Classical in
/-- The reflection of the column part of pass `i`. -/
def PL (m : ℕ) (U : Mat) (σ : ℝ) (i : ℕ) : Matrix (Fin m) (Fin m) ℝ := if σ = 0 then 1 else refl (colV m U i) (σ * U i i)
open Classical in
/-- The reflection of the row part of pass `i`. -/
def PR (n : ℕ) (U : Mat) (τ : ℝ) (i : ℕ) : Matrix (Fin n) (Fin n) ℝ := if τ = 0 then 1 else refl (rowV n U i) (τ * U i (i + 1))

theorem PL_transpose (m : ℕ) (U : Mat) (σ : ℝ) (i : ℕ) : (PL m U σ i)ᵀ = PL m U σ i := by
  unfold PL; split_ifs
  · exact transpose_one
  · exact refl_transpose _ _
theorem PR_transpose (m : ℕ) (U : Mat) (σ : ℝ) (i : ℕ) : (PR m U σ i)ᵀ = PR m U σ i := by
  unfold PR; split_ifs
  · exact transpose_one
  · exact refl_transpose _ _

/-- The matrix that the arrays stand for after `t` passes. -/
def Wm (m n t : ℕ) (S tm : ℕ → ℝ) (U : Mat) : Matrix (Fin m) (Fin n) ℝ := fun r c =>
  if (r : ℕ) < t then (if (c : ℕ) = r then S r else if (c : ℕ) = r + 1 then tm c else 0)
  else if (c : ℕ) < t then 0 else U r c

/-- The same between the column and the row part of pass `t`. -/
def Wc (m n t : ℕ) (S tm : ℕ → ℝ) (σ : ℝ) (U : Mat) : Matrix (Fin m) (Fin n) ℝ := fun r c =>
  if (r : ℕ) < t then (if (c : ℕ) = r then S r else if (c : ℕ) = r + 1 then tm c else 0)
  else if (c : ℕ) < t then 0 else if (c : ℕ) = t then (if (r : ℕ) = t then σ else 0) else U r c

theorem ColRefl.mul {m n i : ℕ} {U U' : Mat} {σ : ℝ} (h : ColRefl m i U U' σ) (S tm : ℕ → ℝ) :
    PL m U' σ i * Wm m n i S tm U = Wc m n i S tm σ U' := by
  ext r c
  rw [PL, if_neg h.ne, refl_mul_apply]
  have hsum : ∑ l, colV m U' i l * Wm m n i S tm U l c =
      if (c : ℕ) < i then 0 else ∑ l ∈ Ico i m, U' l i * U l c := by
    rw [← sum_fin_Ico i m (fun l => U' l i * U l c)]
    split_ifs with hc
    · apply sum_eq_zero
      intro l _
      simp only [colV, Wm]
      split_ifs <;> first | omega | simp
    · apply sum_congr rfl
      intro l _
      simp only [colV, Wm]
      split_ifs <;> first | omega | simp
  rw [hsum]
  simp only [colV, Wm, Wc]
  by_cases hr : (r : ℕ) < i
  · rw [if_pos hr, if_pos hr, if_neg (show ¬ i ≤ (r : ℕ) by omega)]; ring
  · rw [if_neg hr, if_neg hr, if_pos (not_lt.mp hr)]
    by_cases hc : (c : ℕ) < i
    · simp [hc]
    · rw [if_neg hc, if_neg hc, if_neg hc]
      by_cases hci : (c : ℕ) = i
      · rw [if_pos hci, hci, h.dot]
        have hne := mul_ne_zero h.ne h.pne
        rw [neg_div, div_self hne]
        split_ifs with hri
        · rw [hri, h.pivot]; ring
        · rw [h.low r (by omega)]; ring
      · rw [if_neg hci, h.upd r c (not_lt.mp hr) (by omega)]

theorem RowRefl.mul {m n i : ℕ} {U U' : Mat} {τ : ℝ} (h : RowRefl n i U U' τ) (S tm : ℕ → ℝ) (σ : ℝ) :
    Wc m n i S tm σ U * PR n U' τ i = Wm m n (i + 1) (set S i σ) (set tm (i + 1) τ) U' := by
  ext r c
  rw [PR, if_neg h.ne, mul_refl_apply]
  have hsum : ∑ l, Wc m n i S tm σ U r l * rowV n U' i l =
      if (r : ℕ) < i then 0 else ∑ l ∈ Ico (i + 1) n, U r l * U' i l := by
    rw [← sum_fin_Ico (i + 1) n (fun l => U r l * U' i l)]
    split_ifs with hr
    · apply sum_eq_zero
      intro l _
      simp only [rowV, Wc]
      split_ifs <;> first | omega | simp
    · apply sum_congr rfl
      intro l _
      simp only [rowV, Wc]
      split_ifs <;> first | omega | simp
  rw [hsum]
  simp only [rowV, Wm, Wc, set]
  have hne := mul_ne_zero h.ne h.pne
  by_cases hr : (r : ℕ) < i
  · rw [if_pos hr, if_pos hr, if_pos (show (r : ℕ) < i + 1 by omega)]
    split_ifs <;> first | omega | simp
  · rw [if_neg hr, if_neg hr]
    by_cases hri : (r : ℕ) = i
    · have hrlt : (r : ℕ) < i + 1 := by omega
      rw [if_pos hrlt, hri]
      rw [show (∑ l ∈ Ico (i + 1) n, U i l * U' i l) = ∑ l ∈ Ico (i + 1) n, U' i l * U i l from
        sum_congr rfl fun _ _ => mul_comm _ _, h.dot, neg_div, div_self hne]
      by_cases h1 : (c : ℕ) < i
      · rw [if_pos h1, if_neg (show ¬ i + 1 ≤ (c : ℕ) by omega), if_neg (show ¬ (c : ℕ) = i by omega),
          if_neg (show ¬ (c : ℕ) = i + 1 by omega)]; ring
      · rw [if_neg h1]
        by_cases h2 : (c : ℕ) = i
        · simp [h2]
        · rw [if_neg h2, if_neg h2, if_pos (show i + 1 ≤ (c : ℕ) by omega)]
          by_cases h3 : (c : ℕ) = i + 1
          · rw [if_pos h3, if_pos h3, h3, h.pivot]; ring
          · rw [if_neg h3, h.right c (by omega)]; ring
    · rw [if_neg (show ¬ (r : ℕ) < i + 1 by omega), if_neg hri]
      by_cases h1 : (c : ℕ) < i
      · rw [if_pos h1, if_pos (show (c : ℕ) < i + 1 by omega), if_neg (show ¬ i + 1 ≤ (c : ℕ) by omega)]; ring
      · rw [if_neg h1]
        by_cases h2 : (c : ℕ) = i
        · simp [h2]
        · rw [if_neg h2, if_neg (show ¬ (c : ℕ) < i + 1 by omega), if_pos (show i + 1 ≤ (c : ℕ) by omega),
            h.upd r c (by omega) (by omega)]

theorem Wc_of_zero {m n i : ℕ} {U : Mat} (h : ∀ k, i ≤ k → k < m → U k i = 0) (S tm : ℕ → ℝ) :
    Wm m n i S tm U = Wc m n i S tm 0 U := by
  ext r c
  simp only [Wm, Wc]
  by_cases h1 : (r : ℕ) < i
  · rw [if_pos h1, if_pos h1]
  · rw [if_neg h1, if_neg h1]
    by_cases h2 : (c : ℕ) < i
    · rw [if_pos h2, if_pos h2]
    · rw [if_neg h2, if_neg h2]
      by_cases h3 : (c : ℕ) = i
      · rw [if_pos h3, h3, h r (by omega) r.2]; split_ifs <;> rfl
      · rw [if_neg h3]

theorem Wm_of_zero {m n i : ℕ} {U : Mat} (h : ∀ k, i < k → k < n → i < m → U i k = 0) (S tm : ℕ → ℝ) (σ : ℝ)
    (hm : m ≤ i → σ = 0) :
    Wc m n i S tm σ U = Wm m n (i + 1) (set S i σ) (set tm (i + 1) 0) U := by
  ext r c
  have hr := r.2
  have hc := c.2
  simp only [Wm, Wc, set]
  by_cases hr1 : (r : ℕ) < i
  · rw [if_pos hr1, if_pos (show (r : ℕ) < i + 1 by omega)]
    split_ifs <;> first | omega | rfl
  · rw [if_neg hr1]
    by_cases hri : (r : ℕ) = i
    · rw [if_pos (by omega : (r : ℕ) < i + 1), hri]
      by_cases h1 : (c : ℕ) < i
      · rw [if_pos h1, if_neg (by omega), if_neg (by omega)]
      · rw [if_neg h1]
        by_cases h2 : (c : ℕ) = i
        · simp [h2]
        · rw [if_neg h2, if_neg h2, h c (by omega) hc (by omega)]
          split_ifs <;> rfl
    · rw [if_neg (by omega : ¬ (r : ℕ) < i + 1)]
      split_ifs <;> first | omega | rfl

/-- Product of the reflections of the columns. -/
def prodL (m : ℕ) (U : Mat) (S : ℕ → ℝ) : ℕ → Matrix (Fin m) (Fin m) ℝ
  | 0 => 1
  | t + 1 => prodL m U S t * PL m U (S t) t
/-- Product of the reflections of the rows. -/
def prodR (n : ℕ) (U : Mat) (tm : ℕ → ℝ) : ℕ → Matrix (Fin n) (Fin n) ℝ
  | 0 => 1
  | t + 1 => prodR n U tm t * PR n U (tm (t + 1)) t

theorem PL_congr {m i : ℕ} {U U' : Mat} {σ σ' : ℝ} (hU : ∀ k, i ≤ k → U' k i = U k i) (hS : σ' = σ) : PL m U' σ' i = PL m U σ i := by
  have : colV m U' i = colV m U i := by
    funext k; simp only [colV]; split_ifs with h
    · exact hU k h
    · rfl
  unfold PL; rw [this, hU i le_rfl, hS]
theorem PR_congr {n i : ℕ} {U U' : Mat} {τ τ' : ℝ} (hU : ∀ k, i < k → U' i k = U i k) (hS : τ' = τ) : PR n U' τ' i = PR n U τ i := by
  have : rowV n U' i = rowV n U i := by
    funext k; simp only [rowV]; split_ifs with h
    · exact hU k h
    · rfl
  unfold PR; rw [this, hU (i + 1) (by omega), hS]

theorem prodL_congr {m : ℕ} {U U' : Mat} {S S' : ℕ → ℝ} : ∀ t, (∀ i < t, (∀ k, i ≤ k → U' k i = U k i) ∧ S' i = S i) →
    prodL m U' S' t = prodL m U S t
  | 0, _ => rfl
  | t + 1, h => by
    rw [prodL, prodL, prodL_congr t fun i hi => h i (by omega), PL_congr (h t (by omega)).1 (h t (by omega)).2]
theorem prodR_congr {n : ℕ} {U U' : Mat} {S S' : ℕ → ℝ} : ∀ t,
    (∀ i < t, (∀ k, i < k → U' i k = U i k) ∧ S' (i + 1) = S (i + 1)) → prodR n U' S' t = prodR n U S t
  | 0, _ => rfl
  | t + 1, h => by
    rw [prodR, prodR, prodR_congr t fun i hi => h i (by omega), PR_congr (h t (by omega)).1 (h t (by omega)).2]

/-- What holds after `t` passes of the reduction of `A`. -/
structure Red (T : Tests) (m n : ℕ) (A : Mat) (t : ℕ) (st : HH) : Prop where
  left : ∀ i < t, st.S i ≠ 0 → i < m ∧ st.U i i ≠ 0 ∧ ∑ k ∈ Ico i m, st.U k i * st.U k i = -(2 * (st.S i * st.U i i))
  right : ∀ i < t, set st.tmp t st.e (i + 1) ≠ 0 → i < m ∧ i + 1 < n ∧ st.U i (i + 1) ≠ 0 ∧
    ∑ k ∈ Ico (i + 1) n, st.U i k * st.U i k = -(2 * (set st.tmp t st.e (i + 1) * st.U i (i + 1)))
  zero : set st.tmp t st.e 0 = 0
  anorm : (st.anorm = 1 ∨ st.anorm = 0 ∧ ∀ i < t, st.S i = 0 ∧ st.tmp i = 0)
  fact : (∀ x, x ≠ 0 → T.big x) → (fun r c => A r c : Matrix (Fin m) (Fin n) ℝ) =
    prodL m st.U st.S t * Wm m n t st.S (set st.tmp t st.e) st.U * (prodR n st.U (set st.tmp t st.e) t)ᵀ

theorem red_zero (T : Tests) (m n : ℕ) (A : Mat) (S0 tmp0 : ℕ → ℝ) : Red T m n A 0 ⟨A, S0, tmp0, 0, 0⟩ where
  left i hi := absurd hi (by omega)
  right i hi := absurd hi (by omega)
  zero := by simp [set]
  anorm := Or.inr ⟨rfl, fun i hi => absurd hi (by omega)⟩
  fact _ := by
    ext r c
    simp [prodL, prodR, Wm]

theorem set_same (v : ℕ → ℝ) (i : ℕ) (x : ℝ) : set v i x i = x := if_pos rfl
theorem set_ne (v : ℕ → ℝ) {i j : ℕ} (x : ℝ) (h : j ≠ i) : set v i x j = v j := if_neg h

theorem hhRow_none (T : Tests) {m n i : ℕ} (h : ¬ (i < m ∧ i + 1 ≠ n)) (U : Mat) (tmp : ℕ → ℝ) :
    hhRow T m n i U tmp = .ok (U, tmp, 0) := by
  unfold hhRow; rw [if_neg h]

/-- The effect of a pass. -/
theorem hhStep_spec (T : Tests) (hb : ∀ x, T.big x → x ≠ 0) {m n t : ℕ} (ht : t < n) (st : HH) :
    ∃ U1 σ U2 tmp2 τ, hhStep T m n t st =
        .ok ⟨U2, set st.S t σ, tmp2, τ, if st.anorm ≠ 0 ∨ |σ| + |tmp2 t| ≠ 0 then 1 else 0⟩ ∧
      (∀ k ≤ t, tmp2 k = set st.tmp t st.e k) ∧
      ((t < m ∧ ColRefl m t st.U U1 σ) ∨ (σ = 0 ∧ U1 = st.U ∧
        ((∀ x, x ≠ 0 → T.big x) → ∀ k, t ≤ k → k < m → st.U k t = 0))) ∧
      ((t < m ∧ t + 1 < n ∧ RowRefl n t U1 U2 τ) ∨ (τ = 0 ∧ U2 = U1 ∧
        ((∀ x, x ≠ 0 → T.big x) → ∀ k, t < k → k < n → t < m → U1 t k = 0))) := by
  have h1 : ∃ U1 σ, hhCol T m n t st.U = .ok (U1, σ) ∧
      ((t < m ∧ ColRefl m t st.U U1 σ) ∨ (σ = 0 ∧ U1 = st.U ∧
        ((∀ x, x ≠ 0 → T.big x) → ∀ k, t ≤ k → k < m → st.U k t = 0))) := by
    by_cases htm : t < m
    · obtain ⟨U1, σ, e, h⟩ := hhCol_spec T hb n htm st.U
      refine ⟨U1, σ, e, ?_⟩
      rcases h with ⟨_, h⟩ | ⟨h1, h2, h3⟩
      · exact Or.inl ⟨htm, h⟩
      · refine Or.inr ⟨h3, h2, fun hx k hk hkm => ?_⟩
        have : ∑ k ∈ Ico t m, |st.U k t| = 0 := by
          by_contra h; exact h1 (hx _ h)
        have := (sum_eq_zero_iff_of_nonneg fun _ _ => abs_nonneg _).mp this k (mem_Ico.mpr ⟨hk, hkm⟩)
        exact abs_eq_zero.mp this
    · refine ⟨st.U, 0, ?_, Or.inr ⟨rfl, rfl, fun _ k hk hkm => absurd hkm (by omega)⟩⟩
      unfold hhCol; rw [if_neg htm]
  obtain ⟨U1, σ, e1, h1⟩ := h1
  have h2 : ∃ U2 tmp2 τ, hhRow T m n t U1 (set st.tmp t st.e) = .ok (U2, tmp2, τ) ∧ (∀ k ≤ t, tmp2 k = set st.tmp t st.e k) ∧
      ((t < m ∧ t + 1 < n ∧ RowRefl n t U1 U2 τ) ∨ (τ = 0 ∧ U2 = U1 ∧
        ((∀ x, x ≠ 0 → T.big x) → ∀ k, t < k → k < n → t < m → U1 t k = 0))) := by
    by_cases htm : t < m ∧ t + 1 < n
    · obtain ⟨U2, tmp2, τ, e, hk, h⟩ := hhRow_spec T hb htm.1 htm.2 U1 (set st.tmp t st.e)
      refine ⟨U2, tmp2, τ, e, hk, ?_⟩
      rcases h with ⟨_, h⟩ | ⟨h1, h2, h3⟩
      · exact Or.inl ⟨htm.1, htm.2, h⟩
      · refine Or.inr ⟨h3, h2, fun hx k hk hkm _ => ?_⟩
        have : ∑ k ∈ Ico (t + 1) n, |U1 t k| = 0 := by
          by_contra h; exact h1 (hx _ h)
        have := (sum_eq_zero_iff_of_nonneg fun _ _ => abs_nonneg _).mp this k (mem_Ico.mpr ⟨hk, hkm⟩)
        exact abs_eq_zero.mp this
    · refine ⟨U1, _, 0, hhRow_none T (by omega) U1 _, fun _ _ => rfl, Or.inr ⟨rfl, rfl, fun _ k hk hkn hm => ?_⟩⟩
      omega
  obtain ⟨U2, tmp2, τ, e2, hk, h2⟩ := h2
  refine ⟨U1, σ, U2, tmp2, τ, ?_, hk, h1, h2⟩
  unfold hhStep
  rw [e1]
  simp only [bind, Except.bind]
  rw [e2]
  simp only [set_same]

theorem red_step (T : Tests) (hb : ∀ x, T.big x → x ≠ 0) {m n t : ℕ} (ht : t < n) {A : Mat} {st : HH} (h : Red T m n A t st) :
    ∃ st', hhStep T m n t st = .ok st' ∧ Red T m n A (t + 1) st' := by
  obtain ⟨U1, σ, U2, tmp2, τ, e, hk, h1, h2⟩ := hhStep_spec T hb ht st
  refine ⟨_, e, ?_⟩
  -- what stays
  have k1 : ∀ k j, k < t ∨ j < t → U1 k j = st.U k j := by
    intro k j hkj
    rcases h1 with ⟨_, h1⟩ | ⟨_, h1, _⟩
    · exact h1.keep k j hkj
    · rw [h1]
  have k2 : ∀ k j, k < t ∨ j ≤ t → U2 k j = U1 k j := by
    intro k j hkj
    rcases h2 with ⟨_, _, h2⟩ | ⟨_, h2, _⟩
    · exact h2.keep k j hkj
    · rw [h2]
  have k3 : ∀ k j, k < t ∨ j < t → U2 k j = st.U k j := fun k j hkj => by
    rw [k2 k j (by omega), k1 k j hkj]
  have kt : ∀ i < t, set tmp2 (t + 1) τ (i + 1) = set st.tmp t st.e (i + 1) := by
    intro i hi
    rw [set_ne _ _ (by omega), hk (i + 1) (by omega)]
  refine ⟨?_, ?_, ?_, ?_, ?_⟩ <;> dsimp only
  · intro i hi hS
    by_cases hit : i = t
    · subst hit
      rw [set_same] at hS ⊢
      rcases h1 with ⟨hm, h1⟩ | ⟨h1, _⟩
      · refine ⟨hm, ?_, ?_⟩
        · rw [k2 i i (by omega)]; exact h1.pne
        · rw [k2 i i (by omega), ← h1.self]
          exact sum_congr rfl fun k _ => by rw [k2 k i (by omega)]
      · exact absurd h1 hS
    · rw [set_ne _ _ hit] at hS ⊢
      obtain ⟨a, b, c⟩ := h.left i (by omega) hS
      refine ⟨a, ?_, ?_⟩
      · rw [k3 i i (by omega)]; exact b
      · rw [k3 i i (by omega), ← c]
        exact sum_congr rfl fun k _ => by rw [k3 k i (by omega)]
  · intro i hi hS
    by_cases hit : i = t
    · subst hit
      rw [set_same] at hS ⊢
      rcases h2 with ⟨hm, hn, h2⟩ | ⟨h2, _⟩
      · exact ⟨hm, hn, h2.pne, h2.self⟩
      · exact absurd h2 hS
    · rw [kt i (by omega)] at hS ⊢
      obtain ⟨a, a', b, c⟩ := h.right i (by omega) hS
      refine ⟨a, a', ?_, ?_⟩
      · rw [k3 i _ (by omega)]; exact b
      · rw [k3 i _ (by omega), ← c]
        exact sum_congr rfl fun k _ => by rw [k3 i k (by omega)]
  · rw [set_ne _ _ (by omega), hk 0 (by omega)]; exact h.zero
  · by_cases hz : st.anorm ≠ 0 ∨ |σ| + |tmp2 t| ≠ 0
    · left; rw [if_pos hz]
    · right
      rw [if_neg hz]
      push Not at hz
      refine ⟨rfl, fun i hi => ?_⟩
      have hs0 : σ = 0 := abs_eq_zero.mp (by have := abs_nonneg σ; have := abs_nonneg (tmp2 t); linarith [hz.2])
      have ht0 : tmp2 t = 0 := abs_eq_zero.mp (by have := abs_nonneg σ; have := abs_nonneg (tmp2 t); linarith [hz.2])
      by_cases hit : i = t
      · subst hit; rw [set_same]; exact ⟨hs0, ht0⟩
      · rw [set_ne _ _ hit, hk i (by omega), set_ne _ _ hit]
        rcases h.anorm with h' | ⟨_, h'⟩
        · rw [hz.1] at h'; norm_num at h'
        · exact h' i (by omega)
  · intro hx
    rw [h.fact hx, prodL, prodR, set_same, set_same,
      prodL_congr (U' := U2) (U := st.U) (S' := set st.S t σ) (S := st.S) t
        (fun i hi => ⟨fun k _ => k3 k i (by omega), set_ne _ _ (by omega)⟩),
      prodR_congr (U' := U2) (U := st.U) (S' := set tmp2 (t + 1) τ) (S := set st.tmp t st.e) t
        (fun i hi => ⟨fun k _ => k3 i k (by omega), kt i hi⟩)]
    -- the two reflections
    have hL : PL m U2 σ t = PL m U1 σ t := PL_congr (fun k _ => k2 k t (by omega)) rfl
    have e1 : PL m U1 σ t * Wm m n t st.S (set st.tmp t st.e) st.U = Wc m n t st.S (set st.tmp t st.e) σ U1 := by
      rcases h1 with ⟨_, h1⟩ | ⟨a, b, c⟩
      · exact h1.mul _ _
      · rw [a, b, PL, if_pos rfl, Matrix.one_mul]
        exact Wc_of_zero (c hx) _ _
    have hm0 : m ≤ t → σ = 0 := by
      intro hmt
      rcases h1 with ⟨h, _⟩ | ⟨h, _⟩
      · omega
      · exact h
    have e2 : Wc m n t st.S (set st.tmp t st.e) σ U1 * PR n U2 τ t =
        Wm m n (t + 1) (set st.S t σ) (set (set st.tmp t st.e) (t + 1) τ) U2 := by
      rcases h2 with ⟨_, _, h2⟩ | ⟨a, b, c⟩
      · exact h2.mul _ _ _
      · rw [a, b, PR, if_pos rfl, Matrix.mul_one]
        exact Wm_of_zero (c hx) _ _ _ hm0
    have e3 : Wm m n (t + 1) (set st.S t σ) (set (set st.tmp t st.e) (t + 1) τ) U2 =
        Wm m n (t + 1) (set st.S t σ) (set tmp2 (t + 1) τ) U2 := by
      ext r c
      simp only [Wm]
      by_cases hr : (r : ℕ) < t + 1
      · rw [if_pos hr, if_pos hr]
        split_ifs with h1 h2
        · rfl
        · by_cases hc : (c : ℕ) = t + 1
          · rw [hc, set_same, set_same]
          · rw [set_ne _ _ hc, set_ne _ _ hc, hk c (by omega)]
        · rfl
      · rw [if_neg hr, if_neg hr]
    have sL : PL m U1 σ t * PL m U1 σ t = 1 := by
      rcases h1 with ⟨_, h1⟩ | ⟨a, _⟩
      · rw [PL, if_neg h1.ne]
        apply refl_mul_self (mul_ne_zero h1.ne h1.pne)
        rw [← h1.self, ← sum_fin_Ico t m (fun k => U1 k t * U1 k t)]
        exact sum_congr rfl fun l _ => by simp only [colV]; split_ifs <;> simp
      · rw [a, PL, if_pos rfl, Matrix.one_mul]
    have sR : PR n U2 τ t * PR n U2 τ t = 1 := by
      rcases h2 with ⟨_, _, h2⟩ | ⟨a, _⟩
      · rw [PR, if_neg h2.ne]
        apply refl_mul_self (mul_ne_zero h2.ne h2.pne)
        rw [← h2.self, ← sum_fin_Ico (t + 1) n (fun k => U2 t k * U2 t k)]
        exact sum_congr rfl fun l _ => by simp only [rowV]; split_ifs <;> simp
      · rw [a, PR, if_pos rfl, Matrix.one_mul]
    rw [← e3, ← e2, ← e1, hL, transpose_mul, PR_transpose]
    generalize PL m U1 σ t = P at *
    generalize PR n U2 τ t = Q at *
    generalize prodL m st.U st.S t = X
    generalize (prodR n st.U (set st.tmp t st.e) t)ᵀ = Y
    generalize Wm m n t st.S (set st.tmp t st.e) st.U = W
    calc X * W * Y = X * (P * P) * W * (Q * Q) * Y := by rw [sL, sR, Matrix.mul_one, Matrix.mul_one]
      _ = _ := by simp only [Matrix.mul_assoc]

theorem red_loop (T : Tests) (hb : ∀ x, T.big x → x ≠ 0) {m n : ℕ} (A : Mat) (S0 tmp0 : ℕ → ℝ) :
    ∀ t ≤ n, ∃ st, hhLoop T m n ⟨A, S0, tmp0, 0, 0⟩ t = .ok st ∧ Red T m n A t st
  | 0, _ => ⟨_, rfl, red_zero T m n A S0 tmp0⟩
  | t + 1, ht => by
    obtain ⟨st, e, h⟩ := red_loop T hb (m := m) (n := n) A S0 tmp0 t (by omega)
    obtain ⟨st', e', h'⟩ := red_step T hb (by omega : t < n) h
    exact ⟨st', by rw [hhLoop, e]; exact e', h'⟩

end Svd
end KDL
