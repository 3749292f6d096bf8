import Verif.Lemmas.Macie
import Verif.Props.IkVel
import Mathlib.LinearAlgebra.Matrix.Rank

/-!
# C68: `svd_eigen_Macie` and `ChainIkSolverVel_pinv_givens`
-/

noncomputable section

namespace KDL

open Matrix

/-! ## The decomposition -/

/-- A plane rotation makes the two columns orthogonal and puts the longer one first; it changes neither the other columns
nor `X Xᵀ`. -/
theorem C68_rotation {ρ κ : Type*} [Fintype ρ] [Fintype κ] [DecidableEq κ] (thr : ℝ) (X : Matrix ρ κ ℝ) (i j : κ)
    (hij : i ≠ j) (c s : ℝ) (h : planeRot thr (colsDot X i j) (colsDot X i i) (colsDot X j j) = .turn c s) :
    colsDot (turnCols X i j c s) i j = 0 ∧
    colsDot (turnCols X i j c s) j j ≤ colsDot (turnCols X i j c s) i i ∧
    (∀ k, k ≠ i → k ≠ j → ∀ r, turnCols X i j c s r k = X r k) ∧
    turnCols X i j c s * (turnCols X i j c s)ᵀ = X * Xᵀ := by
  obtain ⟨h1, h2, h3⟩ := planeRot_turn h
  have hi : ∀ r, turnCols X i j c s r i = c * X r i + s * X r j := fun r => by simp [turnCols]
  have hj : ∀ r, turnCols X i j c s r j = -s * X r i + c * X r j := fun r => by simp [turnCols, hij.symm]
  have e1 : colsDot (turnCols X i j c s) i j =
      -c * s * colsDot X i i + (c ^ 2 - s ^ 2) * colsDot X i j + c * s * colsDot X j j := by
    simp only [colsDot, hi, hj, Finset.mul_sum, ← Finset.sum_add_distrib]
    exact Finset.sum_congr rfl fun r _ => by ring
  have e2 : colsDot (turnCols X i j c s) i i = c ^ 2 * colsDot X i i + 2 * c * s * colsDot X i j + s ^ 2 * colsDot X j j := by
    simp only [colsDot, hi, Finset.mul_sum, ← Finset.sum_add_distrib]
    exact Finset.sum_congr rfl fun r _ => by ring
  have e3 : colsDot (turnCols X i j c s) j j = s ^ 2 * colsDot X i i - 2 * c * s * colsDot X i j + c ^ 2 * colsDot X j j := by
    simp only [colsDot, hj, Finset.mul_sum, ← Finset.sum_add_distrib, ← Finset.sum_sub_distrib]
    exact Finset.sum_congr rfl fun r _ => by ring
  refine ⟨e1.trans h2, by rw [e2, e3]; exact h3, fun k hk1 hk2 r => by simp [turnCols, hk1, hk2],
    turnCols_mul_transpose X i j hij c s h1⟩

theorem nearOrth_of_pairs {ρ : Type*} [Fintype ρ] {n : ℕ} {thr : ℝ} {X : Matrix ρ (Fin n) ℝ}
    (h : ∀ ij ∈ maciePairs n, SkipPair thr X ij) : NearOrth thr X := by
  intro i j hij
  rcases lt_or_gt_of_ne hij with hl | hl
  · exact h (i, j) ((mem_maciePairs _).2 hl)
  · exact (h (j, i) ((mem_maciePairs _).2 hl)).symm

/-- The call with `toggle` true, if it returns.  `V` is orthogonal if it was before; the columns of `A V` pass the
orthogonality test; and if there was a rotation, `A` is the product of the first `n` columns of `U`, `diag S` and the
transpose of `V`, the columns of `U` being the normalised columns of `A V`.

The full claim, that `U`, `S`, `V` is a singular value decomposition of `A`, is missing two things: without a rotation `U`
and `S` keep their old values (`C68_stale_violated`), and orthogonality of the columns of `U` holds within the threshold
only. -/
theorem C68_cols_partial {m n : ℕ} (h : n ≤ m) (thr : ℝ) (A : Matrix (Fin m) (Fin n) ℝ) (o o' : MacieOut m n) (fuel k : ℕ)
    (hV : o.V * o.Vᵀ = 1) (hr : macie h thr true A o fuel = .done o' k) :
    o'.V * o'.Vᵀ = 1 ∧ NearOrth thr (A * o'.V) ∧
    (k = 0 → o' = o) ∧
    (0 < k → (∀ i, o'.S i = Real.sqrt (colsDot (A * o'.V) i i)) ∧
      (∀ r i, (A * o'.V) r i = o'.U r (i.castLE h) * o'.S i) ∧
      (∀ r (i : Fin m), n ≤ (i : ℕ) → o'.U r i = 0) ∧
      A = o'.U.submatrix id (Fin.castLE h) * diagonal o'.S * o'.Vᵀ) := by
  unfold macie at hr
  rw [if_pos rfl] at hr
  cases hl : macieLoop thr (maciePairs n) macieUpdCols fuel ⟨A * o.V, o.V⟩ (o.U, o.S) 0 with
  | nan => rw [hl] at hr; exact absurd hr (by simp)
  | running => rw [hl] at hr; exact absurd hr (by simp)
  | done r k' =>
    obtain ⟨w, US⟩ := r
    rw [hl] at hr
    dsimp only at hr
    obtain ⟨rfl, rfl⟩ := MacieRes.done.inj hr
    obtain ⟨⟨hB, hW⟩, h2, h3⟩ := macieLoop_spec thr
      (fun w : MacieWork (Fin m) (Fin n) (Fin n) => w.B = A * w.W ∧ w.W * w.Wᵀ = 1) (maciePairs n) macieUpdCols
      (by
        rintro w i j c s hm hcs ⟨h1, h2⟩
        have hij : i ≠ j := (((mem_maciePairs _).1 hm : i < j)).ne
        exact ⟨by dsimp only; rw [h1, mul_turnCols], by dsimp only; rw [turnCols_mul_transpose _ _ _ hij _ _ hcs, h2]⟩)
      fuel _ _ _ _ _ _ ⟨rfl, hV⟩ hl
    dsimp only
    rw [← hB]
    refine ⟨hW, nearOrth_of_pairs h2, ?_, ?_⟩
    · intro hk
      rcases h3 with ⟨-, rfl, rfl⟩ | ⟨h3, -, -⟩
      · rfl
      · omega
    · intro hk
      rcases h3 with ⟨h3, -, -⟩ | ⟨-, rfl, -⟩
      · omega
      have e : ∀ r i, w.B r i = (macieUpdCols w.B).1 r (i.castLE h) * (macieUpdCols w.B).2 i := by
        intro r i
        simp only [macieUpdCols, Fin.val_castLE, Fin.is_lt, dite_true, Fin.eta]
        by_cases h0 : Real.sqrt (colsDot w.B i i) = 0
        · rw [if_pos h0, h0, mul_zero]
          rw [Real.sqrt_eq_zero (colsDot_self_nonneg _ _)] at h0
          have := (Finset.sum_eq_zero_iff_of_nonneg (fun _ _ => mul_self_nonneg _)).1 h0 r (Finset.mem_univ r)
          exact mul_self_eq_zero.1 this
        · rw [if_neg h0, div_mul_cancel₀ _ h0]
      refine ⟨fun i => rfl, e, ?_, ?_⟩
      · intro r i hi
        simp only [macieUpdCols]
        rw [dif_neg (by omega)]
      · have : (macieUpdCols w.B).1.submatrix id (Fin.castLE h) * diagonal (macieUpdCols w.B).2 = w.B := by
          ext r i
          rw [Matrix.mul_diagonal, Matrix.submatrix_apply]
          exact (e r i).symm
        rw [this, hB, Matrix.mul_assoc, hW, Matrix.mul_one]

theorem castLE_pairs {m n : ℕ} (h : n ≤ m) (i j : Fin m)
    (hm : (i, j) ∈ (maciePairs n).map fun ij => (ij.1.castLE h, ij.2.castLE h)) : i < j ∧ (j : ℕ) < n := by
  simp only [List.mem_map, Prod.mk.injEq] at hm
  obtain ⟨ij, h1, rfl, rfl⟩ := hm
  exact ⟨(mem_maciePairs _).1 h1, ij.2.2⟩

/-- The call with `toggle` false, if it returns.  `U Uᵀ` does not change; columns of `U` from `n` on do not change; the
first `n` rows of `Uᵀ A` pass the orthogonality test; and if there was a rotation, these rows are the product of `diag S`
and the transpose of `V`.  If `U` was orthogonal and `A` is square, `A` is the product of `U`, `diag S` and the transpose
of `V`.

The full claim, that `U`, `S`, `V` is a singular value decomposition of `A`, fails for `m > n` (`C68_rows_violated`) and
without a rotation (`C68_stale_violated`), and orthogonality of the columns of `V` holds within the threshold only. -/
theorem C68_rows_partial {m n : ℕ} (h : n ≤ m) (thr : ℝ) (A : Matrix (Fin m) (Fin n) ℝ) (o o' : MacieOut m n) (fuel k : ℕ)
    (hr : macie h thr false A o fuel = .done o' k) :
    o'.U * o'.Uᵀ = o.U * o.Uᵀ ∧ (∀ r (i : Fin m), n ≤ (i : ℕ) → o'.U r i = o.U r i) ∧
    NearOrth thr ((Aᵀ * o'.U).submatrix id (Fin.castLE h)) ∧
    (k = 0 → o' = o) ∧
    (0 < k → (∀ i, o'.S i = Real.sqrt (colsDot (Aᵀ * o'.U) (i.castLE h) (i.castLE h))) ∧
      (Aᵀ * o'.U).submatrix id (Fin.castLE h) = o'.V * diagonal o'.S) := by
  unfold macie at hr
  rw [if_neg (by simp)] at hr
  cases hl : macieLoop thr ((maciePairs n).map fun ij => (ij.1.castLE h, ij.2.castLE h)) (macieUpdRows h) fuel
      ⟨(o.Uᵀ * A)ᵀ, o.U⟩ (o.V, o.S) 0 with
  | nan => rw [hl] at hr; exact absurd hr (by simp)
  | running => rw [hl] at hr; exact absurd hr (by simp)
  | done r k' =>
    obtain ⟨w, US⟩ := r
    rw [hl] at hr
    dsimp only at hr
    obtain ⟨rfl, rfl⟩ := MacieRes.done.inj hr
    obtain ⟨⟨hB, hW, hk'⟩, h2, h3⟩ := macieLoop_spec thr
      (fun w : MacieWork (Fin n) (Fin m) (Fin m) => w.B = Aᵀ * w.W ∧ w.W * w.Wᵀ = o.U * o.Uᵀ ∧
        ∀ r (i : Fin m), n ≤ (i : ℕ) → w.W r i = o.U r i)
      ((maciePairs n).map fun ij => (ij.1.castLE h, ij.2.castLE h)) (macieUpdRows h)
      (by
        rintro w i j c s hm hcs ⟨h1, h2, h3⟩
        obtain ⟨hij, hjn⟩ := castLE_pairs h i j hm
        refine ⟨by dsimp only; rw [h1, mul_turnCols],
          by dsimp only; rw [turnCols_mul_transpose _ _ _ hij.ne _ _ hcs, h2], fun r a ha => ?_⟩
        have e1 : a ≠ i := fun e => by rw [e] at ha; have : (i : ℕ) < j := hij; omega
        have e2 : a ≠ j := fun e => by rw [e] at ha; omega
        simp only [turnCols, e1, e2, if_false]
        exact h3 r a ha)
      fuel _ _ _ _ _ _ ⟨by dsimp only; rw [Matrix.transpose_mul, Matrix.transpose_transpose], rfl, fun _ _ _ => rfl⟩ hl
    dsimp only
    rw [← hB]
    refine ⟨hW, hk', nearOrth_of_pairs fun ij hij => ?_, ?_, ?_⟩
    · exact h2 (ij.1.castLE h, ij.2.castLE h) (List.mem_map.2 ⟨ij, hij, rfl⟩)
    · intro hk
      rcases h3 with ⟨-, rfl, rfl⟩ | ⟨h3, -, -⟩
      · rfl
      · omega
    · intro hk
      rcases h3 with ⟨h3, -, -⟩ | ⟨-, rfl, -⟩
      · omega
      refine ⟨fun i => rfl, ?_⟩
      ext r i
      rw [Matrix.mul_diagonal, Matrix.submatrix_apply]
      simp only [macieUpdRows, id]
      by_cases h0 : Real.sqrt (colsDot w.B (i.castLE h) (i.castLE h)) = 0
      · rw [if_pos h0, h0, mul_zero]
        rw [Real.sqrt_eq_zero (colsDot_self_nonneg _ _)] at h0
        have := (Finset.sum_eq_zero_iff_of_nonneg (fun _ _ => mul_self_nonneg _)).1 h0 r (Finset.mem_univ r)
        exact mul_self_eq_zero.1 this
      · rw [if_neg h0, div_mul_cancel₀ _ h0]

theorem C68_rows_square_partial {n : ℕ} (thr : ℝ) (A : Matrix (Fin n) (Fin n) ℝ) (o o' : MacieOut n n) (fuel k : ℕ)
    (hU : o.U * o.Uᵀ = 1) (hk : 0 < k) (hr : macie le_rfl thr false A o fuel = .done o' k) :
    o'.U * o'.Uᵀ = 1 ∧ A = o'.U * diagonal o'.S * o'.Vᵀ := by
  obtain ⟨h1, -, -, -, h2⟩ := C68_rows_partial le_rfl thr A o o' fuel k hr
  have h3 := (h2 hk).2
  refine ⟨h1.trans hU, ?_⟩
  have e : (Aᵀ * o'.U).submatrix id (Fin.castLE le_rfl) = Aᵀ * o'.U := by ext r i; rfl
  rw [e] at h3
  have h4 : A = (Aᵀ * (o'.U * o'.Uᵀ))ᵀ := by rw [h1, hU, Matrix.mul_one, Matrix.transpose_transpose]
  rw [h4, ← Matrix.mul_assoc, h3]
  simp only [Matrix.transpose_mul, Matrix.transpose_transpose, Matrix.diagonal_transpose, Matrix.mul_assoc]

theorem rows_zero {m n : ℕ} (h : n ≤ m) (thr : ℝ) (A : Matrix (Fin m) (Fin n) ℝ) (o o' : MacieOut m n) (fuel k : ℕ)
    (hU : o.U = 1) (hr : macie h thr false A o fuel = .done o' k) (r : Fin m) (hrn : n ≤ (r : ℕ)) (i : Fin n) :
    o'.U r (i.castLE h) = 0 := by
  obtain ⟨h1, h2, -⟩ := C68_rows_partial h thr A o o' fuel k hr
  rw [hU, Matrix.transpose_one, Matrix.one_mul] at h1
  have h3 : o'.Uᵀ * o'.U = 1 := mul_eq_one_comm.1 h1
  have h4 := congrFun (congrFun h3 r) (i.castLE h)
  have hne : r ≠ i.castLE h := fun e => by
    have := congrArg Fin.val e; rw [Fin.val_castLE] at this; have := i.2; omega
  rw [Matrix.one_apply_ne hne, Matrix.mul_apply] at h4
  have : ∀ t, o'.Uᵀ r t = if t = r then 1 else 0 := fun t => by
    rw [Matrix.transpose_apply, h2 t r hrn, hU, Matrix.one_apply]
  simp only [this] at h4
  simpa using h4

/-- With `toggle` false and `U` the identity before the call, the rows of `A` from `n` on are ignored: if one of them is not
zero the result of a returning call is not a decomposition of `A`. -/
theorem C68_rows_violated {m n : ℕ} (h : n ≤ m) (thr : ℝ) (A : Matrix (Fin m) (Fin n) ℝ) (o o' : MacieOut m n) (fuel k : ℕ)
    (hU : o.U = 1) (r : Fin m) (hrn : n ≤ (r : ℕ)) (j : Fin n) (hA : A r j ≠ 0)
    (hr : macie h thr false A o fuel = .done o' k) :
    A ≠ o'.U.submatrix id (Fin.castLE h) * diagonal o'.S * o'.Vᵀ := by
  have hz := rows_zero h thr A o o' fuel k hU hr r hrn
  intro hc
  apply hA
  rw [hc, Matrix.mul_assoc, Matrix.mul_apply]
  exact Finset.sum_eq_zero fun i _ => by rw [Matrix.submatrix_apply]; simp [hz]

/-- If the columns that the routine looks at pass the test already, nothing is computed: `U`, `S` and `V` come back
unchanged, whatever `A` is. -/
theorem C68_stale_violated {m n : ℕ} (h : n ≤ m) (thr : ℝ) (A : Matrix (Fin m) (Fin n) ℝ) (o : MacieOut m n) (fuel : ℕ) :
    (NearOrth thr (A * o.V) → macie h thr true A o (fuel + 1) = .done o 0) ∧
    (NearOrth thr ((Aᵀ * o.U).submatrix id (Fin.castLE h)) → macie h thr false A o (fuel + 1) = .done o 0) := by
  constructor
  · intro hN
    unfold macie
    rw [if_pos rfl]
    unfold macieLoop
    rw [macieSweep_skip thr (maciePairs n) _ fun ij hij => hN ij.1 ij.2 ((mem_maciePairs _).1 hij).ne]
    rfl
  · intro hN
    unfold macie
    rw [if_neg (by simp)]
    unfold macieLoop
    rw [macieSweep_skip thr _ _ fun ij hij => ?_]
    · rfl
    · obtain ⟨ab, h1, rfl⟩ := List.mem_map.1 hij
      have := hN ab.1 ab.2 ((mem_maciePairs _).1 h1).ne
      rw [Matrix.transpose_mul, Matrix.transpose_transpose]
      exact this

/-- For two columns or more the routine does not return if the columns of `A` are dependent: no number of sweeps is
enough. -/
theorem C68_singular_violated {m n : ℕ} (h : n ≤ m) (hn : 2 ≤ n) (thr : ℝ) (hthr : (n : ℝ) * Real.sqrt thr < 1)
    (A : Matrix (Fin m) (Fin n) ℝ) (x : Fin n → ℝ) (hx : x ≠ 0) (hA : A *ᵥ x = 0) (toggle : Bool) (o : MacieOut m n)
    (hV : toggle = true → o.V * o.Vᵀ = 1) (fuel k : ℕ) (o' : MacieOut m n) :
    macie h thr toggle A o fuel ≠ .done o' k := by
  intro hr
  cases toggle with
  | true =>
    obtain ⟨h1, h2, -⟩ := C68_cols_partial h thr A o o' fuel k (hV rfl) hr
    have h3 := h2.indep hthr hn (o'.Vᵀ *ᵥ x) (by
      rw [Matrix.mulVec_mulVec, Matrix.mul_assoc, h1, Matrix.mul_one]; exact hA)
    apply hx
    have : o'.V *ᵥ (o'.Vᵀ *ᵥ x) = x := by rw [Matrix.mulVec_mulVec, h1, Matrix.one_mulVec]
    rw [← this, h3, Matrix.mulVec_zero]
  | false =>
    obtain ⟨-, -, h2, -⟩ := C68_rows_partial h thr A o o' fuel k hr
    set Z := (Aᵀ * o'.U).submatrix id (Fin.castLE h) with hZ
    have hinj : Function.Injective Z.mulVec := by
      intro a b hab
      have := h2.indep hthr hn (a - b) (by rw [Matrix.mulVec_sub]; exact sub_eq_zero.2 hab)
      exact sub_eq_zero.1 this
    have hu : IsUnit Z := Matrix.mulVec_injective_iff_isUnit.1 hinj
    apply hx
    have hz : Zᵀ *ᵥ x = 0 := by
      funext i
      have : (Zᵀ *ᵥ x) i = ∑ t, o'.U t (i.castLE h) * (A *ᵥ x) t := by
        simp only [Matrix.mulVec, dotProduct, Matrix.transpose_apply, hZ, Matrix.submatrix_apply, id, Matrix.mul_apply,
          Finset.sum_mul, Finset.mul_sum]
        rw [Finset.sum_comm]
        exact Finset.sum_congr rfl fun t _ => Finset.sum_congr rfl fun j _ => by ring
      rw [this, hA]; simp
    have hut : IsUnit Zᵀ := (Matrix.isUnit_transpose _).2 hu
    have hinj' : Function.Injective Zᵀ.mulVec := Matrix.mulVec_injective_iff_isUnit.2 hut
    exact hinj' (hz.trans (Matrix.mulVec_zero _).symm)

/-- With `toggle` false and `U` the identity before the call (the first call of the solver) the routine does not return if
the first `n` rows of `A` are dependent, whatever the other rows are. -/
theorem C68_first_violated {m n : ℕ} (h : n ≤ m) (hn : 2 ≤ n) (thr : ℝ) (hthr : (n : ℝ) * Real.sqrt thr < 1)
    (A : Matrix (Fin m) (Fin n) ℝ) (x : Fin n → ℝ) (hx : x ≠ 0) (hA : ∀ i : Fin m, (i : ℕ) < n → (A *ᵥ x) i = 0)
    (o : MacieOut m n) (hU : o.U = 1) (fuel k : ℕ) (o' : MacieOut m n) : macie h thr false A o fuel ≠ .done o' k := by
  intro hr
  obtain ⟨-, -, h2, -⟩ := C68_rows_partial h thr A o o' fuel k hr
  have hz := rows_zero h thr A o o' fuel k hU hr
  set Z := (Aᵀ * o'.U).submatrix id (Fin.castLE h) with hZ
  have hinj : Function.Injective Z.mulVec := by
    intro a b hab
    have := h2.indep hthr hn (a - b) (by rw [Matrix.mulVec_sub]; exact sub_eq_zero.2 hab)
    exact sub_eq_zero.1 this
  have hu : IsUnit Z := Matrix.mulVec_injective_iff_isUnit.1 hinj
  apply hx
  have hz : Zᵀ *ᵥ x = 0 := by
    funext i
    have : (Zᵀ *ᵥ x) i = ∑ t, o'.U t (i.castLE h) * (A *ᵥ x) t := by
      simp only [Matrix.mulVec, dotProduct, Matrix.transpose_apply, hZ, Matrix.submatrix_apply, id, Matrix.mul_apply,
        Finset.sum_mul, Finset.mul_sum]
      rw [Finset.sum_comm]
      exact Finset.sum_congr rfl fun t _ => Finset.sum_congr rfl fun j _ => by ring
    rw [this]
    refine Finset.sum_eq_zero fun t _ => ?_
    by_cases ht : (t : ℕ) < n
    · rw [hA t ht, mul_zero]
    · rw [hz t (by omega) i, zero_mul]
  have hut : IsUnit Zᵀ := (Matrix.isUnit_transpose _).2 hu
  have hinj' : Function.Injective Zᵀ.mulVec := Matrix.mulVec_injective_iff_isUnit.2 hut
  exact hinj' (hz.trans (Matrix.mulVec_zero _).symm)

/-- Two columns: if they are independent the call with `toggle` true returns after at most one rotation, and after a
rotation the result is an exact singular value decomposition with sorted singular values. -/
theorem C68_two_partial {m : ℕ} (h : 2 ≤ m) (thr : ℝ) (hthr : 0 < thr) (A : Matrix (Fin m) (Fin 2) ℝ) (o : MacieOut m 2)
    (hV : o.V * o.Vᵀ = 1)
    (hA : colsDot (A * o.V) 0 1 ^ 2 < colsDot (A * o.V) 0 0 * colsDot (A * o.V) 1 1) (fuel : ℕ) :
    ∃ o' k, macie h thr true A o (fuel + 2) = .done o' k ∧
      (k = 0 ∧ o' = o ∨ k = 1 ∧ A = o'.U.submatrix id (Fin.castLE h) * diagonal o'.S * o'.Vᵀ ∧ o'.Vᵀ * o'.V = 1 ∧
        (o'.U.submatrix id (Fin.castLE h))ᵀ * o'.U.submatrix id (Fin.castLE h) = 1 ∧ 0 < o'.S 1 ∧ o'.S 1 ≤ o'.S 0) := by
  have hpairs : maciePairs 2 = [(0, 1)] := by decide
  have hpos : 0 < colsDot (A * o.V) 0 0 * colsDot (A * o.V) 1 1 := lt_of_le_of_lt (sq_nonneg _) hA
  cases hp : planeRot thr (colsDot (A * o.V) 0 1) (colsDot (A * o.V) 0 0) (colsDot (A * o.V) 1 1) with
  | skip =>
    refine ⟨o, 0, (C68_stale_violated h thr A o (fuel + 1)).1 ?_, Or.inl ⟨rfl, rfl⟩⟩
    refine nearOrth_of_pairs fun ij hij => ?_
    rw [hpairs, List.mem_singleton] at hij
    subst hij
    exact planeRot_skip hp
  | nan =>
    exfalso
    unfold planeRot at hp
    by_cases h1 : colsDot (A * o.V) 0 0 * colsDot (A * o.V) 1 1 ≠ 0 ∧
        colsDot (A * o.V) 0 1 ^ 2 / (colsDot (A * o.V) 0 0 * colsDot (A * o.V) 1 1) < thr
    · rw [if_pos h1] at hp; exact absurd hp (by simp)
    rw [if_neg h1] at hp
    dsimp only at hp
    by_cases h2 : Real.sqrt (4 * colsDot (A * o.V) 0 1 ^ 2 + (colsDot (A * o.V) 0 0 - colsDot (A * o.V) 1 1) ^ 2) = 0
    · rw [Real.sqrt_eq_zero (by positivity)] at h2
      apply h1
      have : colsDot (A * o.V) 0 1 ^ 2 = 0 := by
        have g1 := sq_nonneg (colsDot (A * o.V) 0 1)
        have g2 := sq_nonneg (colsDot (A * o.V) 0 0 - colsDot (A * o.V) 1 1)
        linarith
      exact ⟨hpos.ne', by rw [this, zero_div]; exact hthr⟩
    · rw [if_neg h2] at hp
      split_ifs at hp
  | turn c s =>
    obtain ⟨t1, t2, -, -⟩ := C68_rotation thr (A * o.V) 0 1 (by decide) c s hp
    obtain ⟨hcs, -, -⟩ := planeRot_turn hp
    set B := turnCols (A * o.V) 0 1 c s with hB
    have hB0 : ∀ r, B r 0 = c * (A * o.V) r 0 + s * (A * o.V) r 1 := fun r => by simp [hB, turnCols]
    have hB1 : ∀ r, B r 1 = -s * (A * o.V) r 0 + c * (A * o.V) r 1 := fun r => by simp [hB, turnCols]
    have e2 : colsDot B 0 0 = c ^ 2 * colsDot (A * o.V) 0 0 + 2 * c * s * colsDot (A * o.V) 0 1 +
        s ^ 2 * colsDot (A * o.V) 1 1 := by
      simp only [colsDot, hB0, Finset.mul_sum, ← Finset.sum_add_distrib]
      exact Finset.sum_congr rfl fun r _ => by ring
    have e3 : colsDot B 1 1 = s ^ 2 * colsDot (A * o.V) 0 0 - 2 * c * s * colsDot (A * o.V) 0 1 +
        c ^ 2 * colsDot (A * o.V) 1 1 := by
      simp only [colsDot, hB1, Finset.mul_sum, ← Finset.sum_add_distrib, ← Finset.sum_sub_distrib]
      exact Finset.sum_congr rfl fun r _ => by ring
    have e1 : colsDot B 0 1 = -c * s * colsDot (A * o.V) 0 0 + (c ^ 2 - s ^ 2) * colsDot (A * o.V) 0 1 +
        c * s * colsDot (A * o.V) 1 1 := by
      simp only [colsDot, hB0, hB1, Finset.mul_sum, ← Finset.sum_add_distrib]
      exact Finset.sum_congr rfl fun r _ => by ring
    have hdet : colsDot B 0 0 * colsDot B 1 1 =
        colsDot (A * o.V) 0 0 * colsDot (A * o.V) 1 1 - colsDot (A * o.V) 0 1 ^ 2 := by
      have : colsDot B 0 0 * colsDot B 1 1 - colsDot B 0 1 ^ 2 =
          colsDot (A * o.V) 0 0 * colsDot (A * o.V) 1 1 - colsDot (A * o.V) 0 1 ^ 2 := by
        rw [e1, e2, e3]
        linear_combination (colsDot (A * o.V) 0 0 * colsDot (A * o.V) 1 1 - colsDot (A * o.V) 0 1 ^ 2) *
          (c ^ 2 + s ^ 2 + 1) * hcs
      rw [t1] at this
      linarith
    have hprod : 0 < colsDot B 0 0 * colsDot B 1 1 := by rw [hdet]; linarith
    have h0 : 0 < colsDot B 0 0 := lt_of_le_of_ne (colsDot_self_nonneg _ _) fun e => by rw [← e] at hprod; simp at hprod
    have h1 : 0 < colsDot B 1 1 := lt_of_le_of_ne (colsDot_self_nonneg _ _) fun e => by rw [← e] at hprod; simp at hprod
    have hrun : macie h thr true A o (fuel + 2) =
        .done ⟨(macieUpdCols B).1, (macieUpdCols B).2, turnCols o.V 0 1 c s⟩ 1 := by
      unfold macie
      rw [if_pos rfl]
      have s1 : macieSweep thr (maciePairs 2) (⟨A * o.V, o.V⟩ : MacieWork (Fin m) (Fin 2) (Fin 2)) =
          some (⟨B, turnCols o.V 0 1 c s⟩, 1) := by
        unfold macieSweep
        rw [hpairs, List.foldlM_cons]
        unfold macieStep
        dsimp only
        rw [hp]
        rfl
      have s2 : macieSweep thr (maciePairs 2) (⟨B, turnCols o.V 0 1 c s⟩ : MacieWork (Fin m) (Fin 2) (Fin 2)) =
          some (⟨B, turnCols o.V 0 1 c s⟩, 0) := by
        refine macieSweep_skip _ _ _ fun ij hij => ?_
        rw [hpairs, List.mem_singleton] at hij
        subst hij
        refine ⟨hprod.ne', ?_⟩
        dsimp only
        rw [t1]
        simpa using hthr
      unfold macieLoop
      rw [s1]
      dsimp only
      rw [if_pos one_ne_zero]
      unfold macieLoop
      rw [s2]
      rfl
    obtain ⟨g1, g2, -, g4⟩ := C68_cols_partial h thr A o _ _ _ hV hrun
    obtain ⟨g5, g6, -, g7⟩ := g4 one_pos
    have hBV : A * turnCols o.V 0 1 c s = B := mul_turnCols A o.V 0 1 c s
    refine ⟨_, 1, hrun, Or.inr ⟨rfl, g7, mul_eq_one_comm.1 g1, ?_, ?_, ?_⟩⟩
    · dsimp only
      have hu : ∀ r (i : Fin 2), (macieUpdCols B).1 r (i.castLE h) = B r i / Real.sqrt (colsDot B i i) := by
        intro r i
        have hi : 0 < colsDot B i i := by fin_cases i <;> assumption
        simp only [macieUpdCols, Fin.val_castLE, Fin.is_lt, dite_true, Fin.eta]
        rw [if_neg (Real.sqrt_pos.2 hi).ne']
      have hG : ∀ i j : Fin 2, ((((macieUpdCols B).1.submatrix id (Fin.castLE h))ᵀ *
          (macieUpdCols B).1.submatrix id (Fin.castLE h)) i j) =
          colsDot B i j / (Real.sqrt (colsDot B i i) * Real.sqrt (colsDot B j j)) := by
        intro i j
        rw [Matrix.mul_apply]
        simp only [Matrix.transpose_apply, Matrix.submatrix_apply, id, hu, colsDot, Finset.sum_div]
        exact Finset.sum_congr rfl fun r _ => by rw [div_mul_div_comm]
      ext i j
      rw [hG, Matrix.one_apply]
      fin_cases i <;> fin_cases j
      · simp [Real.mul_self_sqrt h0.le, h0.ne']
      · simp [t1]
      · simp [colsDot_comm B 1 0, t1]
      · simp [Real.mul_self_sqrt h1.le, h1.ne']
    · exact Real.sqrt_pos.2 h1
    · exact Real.sqrt_le_sqrt t2

/-- `C68_two_partial` is not vacuous: two columns of length 1 that are not orthogonal. -/
example : ∃ o' : MacieOut 3 2, macie (by norm_num) (1 / 10 ^ 15) true !![1, 3/5; 0, 4/5; 0, 0] ⟨1, 0, 1⟩ 2 = .done o' 1 := by
  have e : ∀ i j, ((!![1, 3/5; 0, 4/5; 0, 0] : Matrix (Fin 3) (Fin 2) ℝ) * (1 : Matrix (Fin 2) (Fin 2) ℝ)) i j =
      (!![1, 3/5; 0, 4/5; 0, 0] : Matrix (Fin 3) (Fin 2) ℝ) i j := fun i j => by rw [Matrix.mul_one]
  obtain ⟨o', k, h1, h2⟩ := C68_two_partial (m := 3) (by norm_num) (1 / 10 ^ 15) (by norm_num)
    !![1, 3/5; 0, 4/5; 0, 0] ⟨1, 0, 1⟩ (by simp) (by
      simp only [colsDot, e, Fin.sum_univ_three]
      simp [Matrix.of_apply]
      norm_num) 0
  rcases h2 with ⟨rfl, rfl⟩ | ⟨rfl, -⟩
  · exfalso
    obtain ⟨-, h3, -⟩ := C68_cols_partial _ _ _ _ _ _ _ (by simp) h1
    have := (h3 0 1 (by decide)).2
    simp only [colsDot, e, Fin.sum_univ_three] at this
    simp [Matrix.of_apply] at this
    norm_num at this
  · exact ⟨o', h1⟩

/-! ## The solver -/

theorem sqrt_thr : Real.sqrt (1 / 10 ^ 15) ≤ 1 / 10 ^ 7 := by
  rw [show (1 / 10 ^ 7 : ℝ) = Real.sqrt ((1 / 10 ^ 7) ^ 2) by rw [Real.sqrt_sq (by positivity)]]
  exact Real.sqrt_le_sqrt (by norm_num)

theorem six_thr (nj : ℕ) : ((min 6 nj : ℕ) : ℝ) * Real.sqrt (1 / 10 ^ 15) < 1 := by
  have h1 : ((min 6 nj : ℕ) : ℝ) ≤ 6 := by exact_mod_cast min_le_left _ _
  have h2 := sqrt_thr
  have h3 := Real.sqrt_nonneg (1 / 10 ^ 15 : ℝ)
  calc ((min 6 nj : ℕ) : ℝ) * Real.sqrt (1 / 10 ^ 15) ≤ 6 * (1 / 10 ^ 7) := by gcongr
    _ < 1 := by norm_num

theorem givens_cart (s : GivensState) (c : Chain) (fuel : ℕ) (jac0 J : Jac) (q : List ℝ) (v : Twist) (qdot : List ℝ)
    (hn : s.nj = c.nrOfJoints) (hq : q.length = s.nj) (hqd : qdot.length = s.nj)
    (hJ : jntToJac c (List.replicate s.nj false) q jac0 (-1) = some (E_NOERROR, J)) :
    s.cartToJnt c fuel jac0 q v qdot =
      match macie (min_le_max_six s.nj) (1 / 10 ^ 15) (!s.toggle) (jacEigen s.nj (jacMat s.nj J)) s.o fuel with
      | .done o _ => some (.done E_NOERROR (List.ofFn (givensQdot s.nj o v)), { s with toggle := !s.toggle, o := o })
      | .nan => some (.nan, { s with toggle := !s.toggle })
      | .running => some (.running, { s with toggle := !s.toggle }) := by
  unfold GivensState.cartToJnt
  rw [if_neg (by simp [hn]), if_neg (by simp [hq, hqd])]
  dsimp only
  rw [hJ]
  simp only [Option.bind_eq_bind, Option.bind_some]
  rw [if_neg (by simp [E_NOERROR])]
  cases macie (min_le_max_six s.nj) (1 / 10 ^ 15) (!s.toggle) (jacEigen s.nj (jacMat s.nj J)) s.o fuel <;> rfl

theorem jacEigen_small (nj : ℕ) (h : ¬ nj > 6) (A : Matrix (Fin 6) (Fin nj) ℝ) :
    jacEigen nj A = A.submatrix (finCongr (by omega)) (finCongr (by omega)) := by
  ext i j; simp only [jacEigen, dif_neg h, Matrix.submatrix_apply]; rfl
theorem jacEigen_large (nj : ℕ) (h : nj > 6) (A : Matrix (Fin 6) (Fin nj) ℝ) :
    jacEigen nj A = Aᵀ.submatrix (finCongr (by omega)) (finCongr (by omega)) := by
  ext i j; simp only [jacEigen, dif_pos h, Matrix.submatrix_apply]; rfl
theorem jacEigen_rank (nj : ℕ) (A : Matrix (Fin 6) (Fin nj) ℝ) : (jacEigen nj A).rank = A.rank := by
  by_cases h : nj > 6
  · rw [jacEigen_large nj h, Matrix.rank_submatrix, Matrix.rank_transpose]
  · rw [jacEigen_small nj h, Matrix.rank_submatrix]

theorem exists_kernel {m n : ℕ} (A : Matrix (Fin m) (Fin n) ℝ) (h : A.rank < n) : ∃ x : Fin n → ℝ, x ≠ 0 ∧ A *ᵥ x = 0 := by
  by_contra hc
  push Not at hc
  have hinj : Function.Injective A.mulVecLin := by
    intro a b hab
    by_contra hne
    refine hc (a - b) (sub_ne_zero.2 hne) ?_
    rw [Matrix.mulVec_sub]
    exact sub_eq_zero.2 hab
  have := LinearMap.finrank_range_of_inj hinj
  rw [Module.finrank_pi, Fintype.card_fin] at this
  exact h.ne this

theorem one_orth (n : ℕ) : (1 : Matrix (Fin n) (Fin n) ℝ) * 1ᵀ = 1 := by simp

/-- A chain of at least two joints whose Jacobian does not have full rank at `q`: `CartToJnt` does not return. -/
theorem C68_solver_singular_violated (s : GivensState) (c : Chain) (hc : c.WF) (hn : s.nj = c.nrOfJoints) (h2 : 2 ≤ s.nj)
    (hV : s.o.V * s.o.Vᵀ = 1) (jac0 J : Jac) (q : List ℝ) (v : Twist) (qdot : List ℝ) (hq : q.length = s.nj)
    (hqd : qdot.length = s.nj) (hJ : jntToJac c (List.replicate s.nj false) q jac0 (-1) = some (E_NOERROR, J))
    (hrank : (jacMat s.nj J).rank < min 6 s.nj) (fuel : ℕ) (ret : Int) (out : List ℝ) (s' : GivensState) :
    s.cartToJnt c fuel jac0 q v qdot ≠ some (.done ret out, s') := by
  rw [givens_cart s c fuel jac0 J q v qdot hn hq hqd hJ]
  obtain ⟨x, hx, hA⟩ := exists_kernel (jacEigen s.nj (jacMat s.nj J)) (by rw [jacEigen_rank]; exact hrank)
  cases hm : macie (min_le_max_six s.nj) (1 / 10 ^ 15) (!s.toggle) (jacEigen s.nj (jacMat s.nj J)) s.o fuel with
  | done o k =>
    exact absurd hm (C68_singular_violated _ (by omega) _ (six_thr _) _ x hx hA _ s.o (fun _ => hV) fuel k o)
  | nan => simp
  | running => simp

/-- Two parallel prismatic joints: no call returns (`C68_solver_singular_violated` is not vacuous). -/
theorem C68_parallel_violated (S0 : Fin (min 6 (slides 2).nrOfJoints) → ℝ) (q1 q2 : ℝ) (v : Twist) (fuel : ℕ) (ret : Int)
    (out : List ℝ) (s' : GivensState) :
    (GivensState.new (slides 2) S0).cartToJnt (slides 2) fuel [0, 0] [q1, q2] v [0, 0] ≠ some (.done ret out, s') := by
  refine C68_solver_singular_violated _ (slides 2) (slides_wf 2) rfl (le_refl _)
    (one_orth (min 6 (slides 2).nrOfJoints)) _ _ _ v _ rfl rfl
    (slides_jac 2 [q1, q2] rfl [0, 0] rfl) ?_ fuel ret out s'
  have h : jacMat 2 (List.replicate 2 ⟨⟨1, 0, 0⟩, 0⟩) = Matrix.vecMulVec (Pi.single 0 1 : Fin 6 → ℝ) (fun _ : Fin 2 => (1 : ℝ)) := by
    ext r i
    fin_cases r <;> fin_cases i <;> simp [jacMat, Twist.comp, Matrix.vecMulVec_apply]
  have := Matrix.rank_vecMulVec_le (Pi.single 0 1 : Fin 6 → ℝ) (fun _ : Fin 2 => (1 : ℝ))
  rw [← h] at this
  show (jacMat 2 (List.replicate 2 ⟨⟨1, 0, 0⟩, 0⟩)).rank < 2
  omega

/-- Two perpendicular prismatic joints along y and z. -/
def slidesYZ : Chain := ⟨2, 2, [JointType.TransY, .TransZ].map fun t =>
  ⟨"s", ⟨"j", t, 1, 0, 0, 0, 0, 0, 0⟩, RBI.zero, 1⟩⟩

theorem slidesYZ_jac (q1 q2 : ℝ) : jntToJac slidesYZ [false, false] [q1, q2] [0, 0] (-1) =
    some (E_NOERROR, [⟨⟨0, 1, 0⟩, 0⟩, ⟨⟨0, 0, 1⟩, 0⟩]) := by
  refine (jntToJac_unlocked slidesYZ ⟨rfl, rfl⟩ [q1, q2] [0, 0] (-1) rfl rfl (by simp [segmentNr])).trans ?_
  have hs : slidesYZ.segments.take (segmentNr slidesYZ (-1)) = slidesYZ.segments := rfl
  have hm : slidesYZ.nrOfJoints - nMoving slidesYZ.segments = 0 := rfl
  rw [hs, hm]
  simp only [slidesYZ, List.map_cons, List.map_nil, colsF, fkF, Segment.moving, Joint.moving, Segment.pose, Segment.twist, Joint.pose,
    Joint.twist, List.replicate_zero, List.append_nil]
  congr 2
  simp [rd]
  refine ⟨?_, ?_⟩ <;> ext <;> simp [Frame.ofVec]

/-- A chain of two to six joints: the first call of the solver looks at the first `nj` of the six rows of the Jacobian only,
and does not return if they are dependent, whatever the rank of the Jacobian is. -/
theorem C68_solver_first_violated (c : Chain) (S0 : Fin (min 6 c.nrOfJoints) → ℝ) (h2 : 2 ≤ c.nrOfJoints)
    (h6 : c.nrOfJoints ≤ 6) (jac0 J : Jac) (q : List ℝ) (v : Twist) (qdot : List ℝ) (hq : q.length = c.nrOfJoints)
    (hqd : qdot.length = c.nrOfJoints)
    (hJ : jntToJac c (List.replicate c.nrOfJoints false) q jac0 (-1) = some (E_NOERROR, J)) (x : Fin c.nrOfJoints → ℝ)
    (hx : x ≠ 0) (hA : ∀ i : Fin 6, (i : ℕ) < c.nrOfJoints → (jacMat c.nrOfJoints J *ᵥ x) i = 0) (fuel : ℕ) (ret : Int)
    (out : List ℝ) (s' : GivensState) :
    (GivensState.new c S0).cartToJnt c fuel jac0 q v qdot ≠ some (.done ret out, s') := by
  rw [givens_cart (GivensState.new c S0) c fuel jac0 J q v qdot rfl hq hqd hJ]
  have hn : ¬ c.nrOfJoints > 6 := by omega
  have e1 : min 6 c.nrOfJoints = c.nrOfJoints := by omega
  have e2 : max 6 c.nrOfJoints = 6 := by omega
  cases hm : macie (min_le_max_six (GivensState.new c S0).nj) (1 / 10 ^ 15) (!(GivensState.new c S0).toggle)
      (jacEigen (GivensState.new c S0).nj (jacMat (GivensState.new c S0).nj J)) (GivensState.new c S0).o fuel with
  | done o k =>
    exfalso
    have hm' : macie (min_le_max_six c.nrOfJoints) (1 / 10 ^ 15) false (jacEigen c.nrOfJoints (jacMat c.nrOfJoints J))
        ⟨1, S0, 1⟩ fuel = .done o k := hm
    refine C68_first_violated (m := max 6 c.nrOfJoints) (n := min 6 c.nrOfJoints) _ (by omega) _ (six_thr _) _
      (x ∘ finCongr e1) ?_ ?_ _ rfl fuel k o hm'
    · intro h
      apply hx
      funext i
      have := congrFun h ((finCongr e1).symm i)
      simpa using this
    · intro i hi
      rw [jacEigen_small _ hn, Matrix.submatrix_mulVec_equiv]
      have : (x ∘ finCongr e1) ∘ (finCongr e1).symm = x := by funext i; simp
      rw [Function.comp_apply, this]
      exact hA _ (by simpa [e1] using hi)
  | nan => simp
  | running => simp

/-- Two perpendicular prismatic joints along y and z, the simplest regular robot: the first call of the solver does not
return, because it looks at the rows for x and y of the Jacobian only. -/
theorem C68_perpendicular_violated (S0 : Fin (min 6 slidesYZ.nrOfJoints) → ℝ) (q1 q2 : ℝ) (v : Twist) (fuel : ℕ)
    (ret : Int) (out : List ℝ) (s' : GivensState) :
    (GivensState.new slidesYZ S0).cartToJnt slidesYZ fuel [0, 0] [q1, q2] v [0, 0] ≠ some (.done ret out, s') ∧
    (jacMat 2 [⟨⟨0, 1, 0⟩, 0⟩, ⟨⟨0, 0, 1⟩, 0⟩]).rank = 2 := by
  constructor
  · refine C68_solver_first_violated slidesYZ S0 (le_refl _) (by norm_num [slidesYZ]) _ _ _ v _ rfl rfl (slidesYZ_jac q1 q2)
      (Pi.single (1 : Fin 2) 1) (fun h => ?_) (fun i hi => ?_) fuel ret out s'
    · have := (Pi.single_eq_same (M := fun _ : Fin 2 => ℝ) (1 : Fin 2) (1 : ℝ)).symm.trans (congrFun h (1 : Fin 2))
      exact one_ne_zero this
    · have hi : (i : ℕ) < 2 := hi
      refine (congrFun (Matrix.mulVec_single_one (jacMat 2 [⟨⟨0, 1, 0⟩, 0⟩, ⟨⟨0, 0, 1⟩, 0⟩]) (1 : Fin 2)) i).trans ?_
      obtain ⟨i, hi6⟩ := i
      interval_cases i <;> simp [jacMat, Twist.comp]
  · apply le_antisymm (Matrix.rank_le_width _)
    have h := Matrix.rank_submatrix_le (jacMat 2 [⟨⟨0, 1, 0⟩, 0⟩, ⟨⟨0, 0, 1⟩, 0⟩]) ![1, 2] (id : Fin 2 → Fin 2)
    have e : (jacMat 2 [⟨⟨0, 1, 0⟩, 0⟩, ⟨⟨0, 0, 1⟩, 0⟩]).submatrix ![1, 2] (id : Fin 2 → Fin 2) = 1 := by
      ext r i
      fin_cases r <;> fin_cases i <;> simp [jacMat, Twist.comp]
    rw [e, Matrix.rank_one] at h
    simpa using h

/-- The gantry at zero, whose Jacobian is the identity: the first call returns `E_NOERROR` with the requested velocity
divided by whatever the uninitialised vector `S` contains (here the same `x` in all its entries). -/
theorem C68_uninitialised_violated (x : ℝ) (hx : x ≠ 0) (v : Twist) (fuel : ℕ) :
    ∃ s', (GivensState.new gantry fun _ => x).cartToJnt gantry (fuel + 1) (List.replicate 6 0) (List.replicate 6 0) v
      (List.replicate 6 0) = some (.done E_NOERROR (List.ofFn fun r => 1 / x * v.comp r), s') := by
  obtain ⟨J, hJ, h1⟩ := gantry_jac
  refine ⟨⟨6, false, ⟨1, fun _ => x, 1⟩⟩, ?_⟩
  rw [givens_cart (GivensState.new gantry fun _ => x) gantry (fuel + 1) _ J _ v _ rfl rfl rfl hJ]
  have hm : macie (min_le_max_six 6) (1 / 10 ^ 15) false (jacEigen 6 (jacMat 6 J)) ⟨1, fun _ => x, 1⟩ (fuel + 1) =
      .done ⟨1, fun _ => x, 1⟩ 0 := by
    refine (C68_stale_violated _ _ _ _ _).2 ?_
    have hX : ∀ i j, colsDot (((jacEigen 6 (jacMat 6 J))ᵀ * (1 : Matrix (Fin (max 6 6)) (Fin (max 6 6)) ℝ)).submatrix id
        (Fin.castLE (min_le_max_six 6))) i j = if i = j then 1 else 0 := by
      intro i j
      rw [Matrix.mul_one, h1]
      simp only [colsDot, Matrix.submatrix_apply, Matrix.transpose_apply, jacEigen, id]
      have : ∀ (r : Fin (min 6 6)) (i : Fin (min 6 6)), (if h : 6 > 6 then
          (1 : Matrix (Fin 6) (Fin 6) ℝ) ⟨r, by have := r.2; omega⟩ ⟨(Fin.castLE (min_le_max_six 6) i : ℕ), by omega⟩
          else (1 : Matrix (Fin 6) (Fin 6) ℝ) ⟨(Fin.castLE (min_le_max_six 6) i : ℕ), by have := i.2; simp only [Fin.val_castLE]; omega⟩
            ⟨r, by have := r.2; omega⟩) = if i = r then 1 else 0 := by
        intro r i
        rw [dif_neg (by omega), Matrix.one_apply]
        simp only [Fin.ext_iff, Fin.val_castLE]
      simp only [this]
      simp
    intro i j hij
    refine ⟨?_, ?_⟩
    · dsimp only; rw [hX, hX]; simp
    · dsimp only; rw [hX i j, if_neg hij]; norm_num
  have hm' : macie (min_le_max_six (GivensState.new gantry fun _ => x).nj) (1 / 10 ^ 15)
      (!(GivensState.new gantry fun _ => x).toggle) (jacEigen (GivensState.new gantry fun _ => x).nj
        (jacMat (GivensState.new gantry fun _ => x).nj J)) (GivensState.new gantry fun _ => x).o (fuel + 1) =
      .done ⟨1, fun _ => x, 1⟩ 0 := hm
  rw [hm']
  dsimp only
  have hq : givensQdot 6 ⟨1, fun _ => x, 1⟩ v = fun r => 1 / x * v.comp r := by
    funext r
    unfold givensQdot
    rw [dif_neg (by omega)]
    have h2 : ∀ i : Fin (min 6 6), ∑ k : Fin 6, (1 : Matrix (Fin (max 6 6)) (Fin (max 6 6)) ℝ) ⟨k, by have := k.2; omega⟩
        ⟨i, by have := i.2; omega⟩ * v.comp k = v.comp ⟨i, by have := i.2; omega⟩ := by
      intro i
      rw [Finset.sum_eq_single ⟨i, by have := i.2; omega⟩]
      · rw [Matrix.one_apply_eq, one_mul]
      · intro b _ hb
        rw [Matrix.one_apply_ne (fun e => hb (Fin.ext (by simpa using congrArg Fin.val e))), zero_mul]
      · intro h; exact absurd (Finset.mem_univ _) h
    simp only [h2]
    rw [Finset.sum_eq_single ⟨r, by have := r.2; omega⟩]
    · rw [Matrix.one_apply_eq, one_mul, givensSuy, if_pos hx]
    · intro b _ hb
      rw [Matrix.one_apply_ne hb.symm, zero_mul]
    · intro h; exact absurd (Finset.mem_univ _) h
  exact congrArg (fun f => some (GivensRes.done E_NOERROR (List.ofFn f), _)) hq

/-- More than six joints: if the first call returns, the joints from the seventh on stand still.  So a solution of least
norm that moves one of them is not found. -/
theorem C68_redundant_violated (c : Chain) (S0 : Fin (min 6 c.nrOfJoints) → ℝ) (h6 : 6 < c.nrOfJoints) (jac0 J : Jac)
    (q : List ℝ) (v : Twist) (qdot : List ℝ) (hq : q.length = c.nrOfJoints) (hqd : qdot.length = c.nrOfJoints)
    (hJ : jntToJac c (List.replicate c.nrOfJoints false) q jac0 (-1) = some (E_NOERROR, J)) (fuel : ℕ) (ret : Int)
    (out : List ℝ) (s' : GivensState)
    (hr : (GivensState.new c S0).cartToJnt c fuel jac0 q v qdot = some (.done ret out, s')) :
    ∃ qd : Fin c.nrOfJoints → ℝ, out = List.ofFn qd ∧ (∀ j : Fin c.nrOfJoints, 6 ≤ (j : ℕ) → qd j = 0) ∧
      ∀ qm, MinNormLsq (jacMat c.nrOfJoints J) v.comp qm → (∃ j : Fin c.nrOfJoints, 6 ≤ (j : ℕ) ∧ qm j ≠ 0) → qd ≠ qm := by
  rw [givens_cart (GivensState.new c S0) c fuel jac0 J q v qdot rfl hq hqd hJ] at hr
  cases hm : macie (min_le_max_six (GivensState.new c S0).nj) (1 / 10 ^ 15) (!(GivensState.new c S0).toggle)
      (jacEigen (GivensState.new c S0).nj (jacMat (GivensState.new c S0).nj J)) (GivensState.new c S0).o fuel with
  | nan => rw [hm] at hr; simp at hr
  | running => rw [hm] at hr; simp at hr
  | done o k =>
    rw [hm] at hr
    simp only [Option.some.injEq, Prod.mk.injEq, GivensRes.done.injEq] at hr
    have hm' : macie (min_le_max_six c.nrOfJoints) (1 / 10 ^ 15) false (jacEigen c.nrOfJoints (jacMat c.nrOfJoints J))
        ⟨1, S0, 1⟩ fuel = .done o k := hm
    have hz : ∀ j : Fin c.nrOfJoints, 6 ≤ (j : ℕ) → givensQdot c.nrOfJoints o v j = 0 := by
      intro j hj
      unfold givensQdot
      rw [dif_pos h6]
      refine Finset.sum_eq_zero fun i _ => ?_
      have := rows_zero (m := max 6 c.nrOfJoints) (n := min 6 c.nrOfJoints) _ _ _ _ _ _ _ rfl hm'
        ⟨j, by have := j.2; omega⟩ (by show min 6 c.nrOfJoints ≤ (j : ℕ); omega) i
      exact mul_eq_zero_of_left this _
    refine ⟨givensQdot c.nrOfJoints o v, hr.1.2.symm, hz, ?_⟩
    rintro qm - ⟨j, hj, hne⟩ he
    exact hne (he ▸ hz j hj)

/-- Columns that are orthonormal up to `δ`: the residual of `U Uᵀ v` is orthogonal to the range of `U` up to a relative
error of `10⁻⁶`. -/
theorem near_lsq {m n : ℕ} (hn : n ≤ 6) (U : Matrix (Fin m) (Fin n) ℝ) (δ : ℝ) (hδ : 0 ≤ δ) (hδ2 : δ ^ 2 ≤ 1 / 10 ^ 15)
    (hd : ∀ i, colsDot U i i = 1) (ho : ∀ i j, i ≠ j → |colsDot U i j| ≤ δ) (v : Fin m → ℝ) (y : Fin n → ℝ) :
    ((U *ᵥ y) ⬝ᵥ (U *ᵥ (Uᵀ *ᵥ v) - v)) ^ 2 ≤ 1 / 10 ^ 12 * (sqn (U *ᵥ y) * sqn v) := by
  set a : Fin n → ℝ := Uᵀ *ᵥ v with ha
  have hδ7 : δ ≤ 1 / 10 ^ 7 := by
    rw [← abs_of_nonneg hδ, ← abs_of_nonneg (show (0 : ℝ) ≤ 1 / 10 ^ 7 by positivity)]
    exact sq_le_sq.1 (hδ2.trans (by norm_num))
  have hvs : 0 ≤ sqn v := Finset.sum_nonneg fun _ _ => mul_self_nonneg _
  have hUs : 0 ≤ sqn (U *ᵥ y) := Finset.sum_nonneg fun _ _ => mul_self_nonneg _
  set Y := ∑ i, |y i| with hY
  set Aa := ∑ i, |a i| with hAa
  have hY0 : 0 ≤ Y := Finset.sum_nonneg fun _ _ => abs_nonneg _
  have hA0 : 0 ≤ Aa := Finset.sum_nonneg fun _ _ => abs_nonneg _
  have hn6 : (n : ℝ) ≤ 6 := by exact_mod_cast hn
  have hsq : ∀ z : Fin n → ℝ, (∑ i, |z i|) ^ 2 ≤ 6 * ∑ i, z i ^ 2 := by
    intro z
    have := Finset.sum_mul_sq_le_sq_mul_sq Finset.univ (fun _ : Fin n => (1 : ℝ)) (fun i => |z i|)
    simp only [one_mul, one_pow, Finset.sum_const, Finset.card_univ, Fintype.card_fin, nsmul_eq_mul, mul_one, sq_abs] at this
    refine this.trans (mul_le_mul_of_nonneg_right hn6 (Finset.sum_nonneg fun _ _ => sq_nonneg _))
  -- products of combinations of columns
  have hcomb : ∀ y z : Fin n → ℝ, (U *ᵥ y) ⬝ᵥ (U *ᵥ z) = ∑ i, ∑ j, y i * z j * colsDot U i j := by
    intro y z
    have h1 : (U *ᵥ y) ⬝ᵥ (U *ᵥ z) = ∑ r, ∑ i, ∑ j, U r i * y i * (U r j * z j) :=
      Finset.sum_congr rfl fun r _ =>
        Finset.sum_mul_sum Finset.univ Finset.univ (fun i => U r i * y i) fun j => U r j * z j
    rw [h1, Finset.sum_comm]
    refine Finset.sum_congr rfl fun i _ => ?_
    rw [Finset.sum_comm]
    refine Finset.sum_congr rfl fun j _ => ?_
    rw [colsDot, Finset.mul_sum]
    exact Finset.sum_congr rfl fun r _ => by ring
  have hoff : ∀ y z : Fin n → ℝ, |(U *ᵥ y) ⬝ᵥ (U *ᵥ z) - ∑ i, y i * z i| ≤ δ * ((∑ i, |y i|) * ∑ i, |z i|) := by
    intro y z
    have e : (U *ᵥ y) ⬝ᵥ (U *ᵥ z) - ∑ i, y i * z i = ∑ i, ∑ j, y i * z j * (if i = j then 0 else colsDot U i j) := by
      rw [hcomb, ← Finset.sum_sub_distrib]
      refine Finset.sum_congr rfl fun i _ => ?_
      have : y i * z i = ∑ j, y i * z j * (if i = j then 1 else 0) := by simp
      rw [this, ← Finset.sum_sub_distrib]
      refine Finset.sum_congr rfl fun j _ => ?_
      by_cases hij : i = j
      · subst hij; rw [if_pos rfl, if_pos rfl, hd]; ring
      · rw [if_neg hij, if_neg hij]; ring
    rw [e, Finset.sum_mul_sum, Finset.mul_sum]
    refine (Finset.abs_sum_le_sum_abs _ _).trans (Finset.sum_le_sum fun i _ => ?_)
    rw [Finset.mul_sum]
    refine (Finset.abs_sum_le_sum_abs _ _).trans (Finset.sum_le_sum fun j _ => ?_)
    rw [abs_mul, abs_mul, mul_comm δ]
    by_cases hij : i = j
    · rw [if_pos hij, abs_zero, mul_zero]; positivity
    · rw [if_neg hij]
      exact mul_le_mul_of_nonneg_left (ho i j hij) (by positivity)
  have hYb : Y ^ 2 ≤ 7 * sqn (U *ᵥ y) := by
    have h1 := hoff y y
    have h2 : (U *ᵥ y) ⬝ᵥ (U *ᵥ y) = sqn (U *ᵥ y) := rfl
    rw [h2] at h1
    have h3 := (abs_le.1 h1).1
    have h4 := hsq y
    have h5 : ∑ i, y i * y i = ∑ i, y i ^ 2 := Finset.sum_congr rfl fun i _ => by ring
    rw [h5] at h3
    rw [← hY] at h3 h4
    have h6 : δ * (Y * Y) ≤ 1 / 10 ^ 7 * (Y * Y) := mul_le_mul_of_nonneg_right hδ7 (mul_nonneg hY0 hY0)
    nlinarith [mul_nonneg hY0 hY0]
  have hAb : Aa ^ 2 ≤ 36 * sqn v := by
    have h1 : ∀ i, a i ^ 2 ≤ sqn v := by
      intro i
      have h2 := Finset.sum_mul_sq_le_sq_mul_sq Finset.univ (fun r => U r i) v
      have h3 : a i = ∑ r, U r i * v r := by simp [ha, Matrix.mulVec, dotProduct]
      have h4 : ∑ r, U r i ^ 2 = 1 := by rw [← hd i]; exact Finset.sum_congr rfl fun r _ => by ring
      have h5 : ∑ r, v r ^ 2 = sqn v := Finset.sum_congr rfl fun r _ => by ring
      rw [h4, h5, one_mul] at h2
      rw [h3]; exact h2
    have h2 : ∑ i, a i ^ 2 ≤ 6 * sqn v := by
      refine (Finset.sum_le_sum fun i _ => h1 i).trans ?_
      rw [Finset.sum_const, Finset.card_univ, Fintype.card_fin, nsmul_eq_mul]
      exact mul_le_mul_of_nonneg_right hn6 hvs
    have := hsq a
    linarith
  have hmain : |(U *ᵥ y) ⬝ᵥ (U *ᵥ a - v)| ≤ δ * (Y * Aa) := by
    have h1 := hoff y a
    have h2 : (U *ᵥ y) ⬝ᵥ v = ∑ i, y i * a i := by
      simp only [ha, Matrix.mulVec, dotProduct, Matrix.transpose_apply, Finset.sum_mul, Finset.mul_sum]
      rw [Finset.sum_comm]
      exact Finset.sum_congr rfl fun i _ => Finset.sum_congr rfl fun r _ => by ring
    rw [dotProduct_sub, h2]
    exact h1
  calc ((U *ᵥ y) ⬝ᵥ (U *ᵥ a - v)) ^ 2 = |(U *ᵥ y) ⬝ᵥ (U *ᵥ a - v)| ^ 2 := (sq_abs _).symm
    _ ≤ (δ * (Y * Aa)) ^ 2 := by gcongr
    _ = δ ^ 2 * (Y ^ 2 * Aa ^ 2) := by ring
    _ ≤ 1 / 10 ^ 15 * (7 * sqn (U *ᵥ y) * (36 * sqn v)) := by gcongr
    _ ≤ _ := by nlinarith [mul_nonneg hUs hvs]

theorem near_lsq_solver (nj : ℕ) (h6 : nj ≤ 6) (J : Matrix (Fin 6) (Fin nj) ℝ) (o : MacieOut (max 6 nj) (min 6 nj))
    (hV : o.V * o.Vᵀ = 1) (hN : NearOrth (1 / 10 ^ 15) (jacEigen nj J * o.V))
    (hS : ∀ i, o.S i = Real.sqrt (colsDot (jacEigen nj J * o.V) i i))
    (hU : ∀ r i, (jacEigen nj J * o.V) r i = o.U r (i.castLE (min_le_max_six nj)) * o.S i) (v : Twist) (q' : Fin nj → ℝ) :
    ((J *ᵥ q') ⬝ᵥ (J *ᵥ givensQdot nj o v - v.comp)) ^ 2 ≤ 1 / 10 ^ 12 * (sqn (J *ᵥ q') * sqn v.comp) := by
  have h6' : ¬ nj > 6 := by omega
  have e1 : min 6 nj = nj := by omega
  have e2 : max 6 nj = 6 := by omega
  set f1 : Fin (min 6 nj) ≃ Fin nj := finCongr e1 with hf1
  set f2 : Fin (max 6 nj) ≃ Fin 6 := finCongr e2 with hf2
  have hA : jacEigen nj J = J.submatrix f2 f1 := jacEigen_small nj h6' J
  set U6 : Matrix (Fin 6) (Fin (min 6 nj)) ℝ := o.U.submatrix f2.symm (Fin.castLE (min_le_max_six nj)) with hU6
  set B : Matrix (Fin 6) (Fin (min 6 nj)) ℝ := J.submatrix id f1 * o.V with hB
  have hBe : ∀ r i, (jacEigen nj J * o.V) r i = B (f2 r) i := by
    intro r i
    rw [hA, hB, Matrix.mul_apply, Matrix.mul_apply]
    rfl
  have hBd : ∀ i j, colsDot (jacEigen nj J * o.V) i j = colsDot B i j := by
    intro i j
    simp only [colsDot, hBe]
    exact Equiv.sum_comp f2 fun r => B r i * B r j
  have hBU : B = U6 * diagonal o.S := by
    ext r i
    rw [Matrix.mul_diagonal, hU6, Matrix.submatrix_apply, ← hU, hBe, Equiv.apply_symm_apply]
  -- velocities
  have hJx : ∀ x : Fin nj → ℝ, J *ᵥ x = B *ᵥ (o.Vᵀ *ᵥ (x ∘ f1)) := by
    intro x
    rw [hB, Matrix.mulVec_mulVec, Matrix.mul_assoc, hV, Matrix.mul_one, Matrix.submatrix_mulVec_equiv]
    have : (x ∘ f1) ∘ f1.symm = x := by funext i; simp
    rw [this]; rfl
  have hJq : ∀ x : Fin nj → ℝ, J *ᵥ x = U6 *ᵥ (diagonal o.S *ᵥ (o.Vᵀ *ᵥ (x ∘ f1))) := by
    intro x
    rw [hJx, hBU, ← Matrix.mulVec_mulVec]
  by_cases hz : ∃ i, o.S i = 0
  · obtain ⟨i, hi⟩ := hz
    have hone : ∀ j, o.S j = 0 := by
      intro j
      by_cases hij : i = j
      · rwa [← hij]
      · exfalso
        rw [hS, Real.sqrt_eq_zero (colsDot_self_nonneg _ _)] at hi
        exact (hN i j hij).bound.1.ne' hi
    have : J *ᵥ q' = 0 := by
      rw [hJq]
      have : diagonal o.S = 0 := by ext a b; rw [Matrix.diagonal_apply]; split_ifs <;> simp [hone]
      rw [this, Matrix.zero_mulVec, Matrix.mulVec_zero]
    rw [this, zero_dotProduct]
    simp [sqn]
  · push Not at hz
    have hSp : ∀ i, 0 < o.S i := fun i => lt_of_le_of_ne (by rw [hS]; exact Real.sqrt_nonneg _) (hz i).symm
    have hS2 : ∀ i, o.S i * o.S i = colsDot B i i := by
      intro i; rw [hS, Real.mul_self_sqrt (colsDot_self_nonneg _ _), hBd]
    have hG : ∀ i j, colsDot B i j = o.S i * o.S j * colsDot U6 i j := by
      intro i j
      rw [hBU]
      simp only [colsDot, Matrix.mul_diagonal, Finset.mul_sum]
      exact Finset.sum_congr rfl fun r _ => by ring
    have hqd : givensQdot nj o v ∘ f1 = o.V *ᵥ fun i => 1 / o.S i * (U6ᵀ *ᵥ v.comp) i := by
      funext r
      simp only [Function.comp_apply, givensQdot, dif_neg h6', Matrix.mulVec, dotProduct, Matrix.transpose_apply]
      refine Finset.sum_congr rfl fun i _ => ?_
      rw [givensSuy, if_pos (hz i)]
      rfl
    have hJqd : J *ᵥ givensQdot nj o v = U6 *ᵥ (U6ᵀ *ᵥ v.comp) := by
      rw [hJq, hqd, Matrix.mulVec_mulVec _ o.Vᵀ, mul_eq_one_comm.1 hV, Matrix.one_mulVec]
      congr 1
      funext i
      rw [Matrix.mulVec_diagonal, ← mul_assoc, mul_one_div_cancel (hz i), one_mul]
    rw [hJqd, hJq q']
    refine near_lsq (by omega) U6 (Real.sqrt (1 / 10 ^ 15)) (Real.sqrt_nonneg _)
      (Real.sq_sqrt (by positivity)).le ?_ ?_ v.comp _
    · intro i
      have := hG i i
      rw [← hS2] at this
      exact (mul_left_cancel₀ (mul_pos (hSp i) (hSp i)).ne' (by rw [mul_one]; exact this)).symm
    · intro i j hij
      have hb := (hN i j hij).bound.2.2
      rw [← hS, ← hS, hBd, hG, abs_mul, abs_of_pos (mul_pos (hSp i) (hSp j)), mul_comm] at hb
      exact le_of_mul_le_mul_right hb (mul_pos (hSp i) (hSp j))

/-- Up to six joints, every second call (`toggle` true), if it returns: the code is `E_NOERROR`, `V` stays orthogonal, and
unless the columns of the rotated Jacobian passed the orthogonality test already at the start (`C68_stale_violated`), the
residual `J qdot - v` is orthogonal to every velocity the robot can reach up to a relative error of `10⁻⁶`: `qdot` is a
least-squares solution to that precision.

Missing from the full claim: the other calls (`C68_solver_first_violated`), calls that do not return
(`C68_solver_singular_violated`) and calls without a rotation (`C68_uninitialised_violated`). -/
theorem C68_lsq_partial (s : GivensState) (c : Chain) (hn : s.nj = c.nrOfJoints) (h6 : s.nj ≤ 6) (ht : s.toggle = false)
    (hV : s.o.V * s.o.Vᵀ = 1) (jac0 J : Jac) (q : List ℝ) (v : Twist) (qdot : List ℝ) (hq : q.length = s.nj)
    (hqd : qdot.length = s.nj) (hJ : jntToJac c (List.replicate s.nj false) q jac0 (-1) = some (E_NOERROR, J)) (fuel : ℕ)
    (ret : Int) (out : List ℝ) (s' : GivensState)
    (hr : s.cartToJnt c fuel jac0 q v qdot = some (.done ret out, s')) :
    ∃ (qd : Fin s.nj → ℝ) (o : MacieOut (max 6 s.nj) (min 6 s.nj)), ret = E_NOERROR ∧ out = List.ofFn qd ∧
      s' = ⟨s.nj, true, o⟩ ∧ o.V * o.Vᵀ = 1 ∧
      (NearOrth (1 / 10 ^ 15) (jacEigen s.nj (jacMat s.nj J) * s.o.V) ∧ o = s.o ∨
        ∀ q', ((jacMat s.nj J *ᵥ q') ⬝ᵥ (jacMat s.nj J *ᵥ qd - v.comp)) ^ 2 ≤
          1 / 10 ^ 12 * (sqn (jacMat s.nj J *ᵥ q') * sqn v.comp)) := by
  rw [givens_cart s c fuel jac0 J q v qdot hn hq hqd hJ, ht] at hr
  cases hm : macie (min_le_max_six s.nj) (1 / 10 ^ 15) true (jacEigen s.nj (jacMat s.nj J)) s.o fuel with
  | nan => rw [Bool.not_false, hm] at hr; simp at hr
  | running => rw [Bool.not_false, hm] at hr; simp at hr
  | done o k =>
    rw [Bool.not_false, hm] at hr
    simp only [Option.some.injEq, Prod.mk.injEq, GivensRes.done.injEq] at hr
    obtain ⟨⟨hret, hout⟩, hs'⟩ := hr
    obtain ⟨g1, g2, g3, g4⟩ := C68_cols_partial _ _ _ s.o o fuel k hV hm
    refine ⟨givensQdot s.nj o v, o, hret.symm, hout.symm, hs'.symm, g1, ?_⟩
    rcases Nat.eq_zero_or_pos k with hk | hk
    · left
      rw [g3 hk] at g2
      exact ⟨g2, g3 hk⟩
    right
    obtain ⟨g5, g6, -, -⟩ := g4 hk
    exact near_lsq_solver s.nj h6 _ o g1 g2 g5 g6 v

/-- Two prismatic joints that are not perpendicular. -/
def slidesOblique : Chain := ⟨2, 2, [⟨"s", ⟨"j", .TransX, 1, 0, 0, 0, 0, 0, 0⟩, RBI.zero, 1⟩,
  ⟨"s", ⟨"j", .TransAxis, 1, 0, 0, 0, 0, ⟨3/5, 4/5, 0⟩, 0⟩, RBI.zero, 1⟩]⟩

theorem slidesOblique_jac (q1 q2 : ℝ) : jntToJac slidesOblique [false, false] [q1, q2] [0, 0] (-1) =
    some (E_NOERROR, [⟨⟨1, 0, 0⟩, 0⟩, ⟨⟨3/5, 4/5, 0⟩, 0⟩]) := by
  refine (jntToJac_unlocked slidesOblique ⟨rfl, rfl⟩ [q1, q2] [0, 0] (-1) rfl rfl (by simp [segmentNr])).trans ?_
  have hs : slidesOblique.segments.take (segmentNr slidesOblique (-1)) = slidesOblique.segments := rfl
  have hm : slidesOblique.nrOfJoints - nMoving slidesOblique.segments = 0 := rfl
  rw [hs, hm]
  simp only [slidesOblique, colsF, fkF, Segment.moving, Joint.moving, Segment.pose, Segment.twist, Joint.pose,
    Joint.twist, List.replicate_zero, List.append_nil]
  congr 2
  simp [rd]
  refine ⟨?_, ?_⟩ <;> ext <;> simp [Frame.ofVec]

/-- `C68_lsq_partial` is not vacuous: on two oblique prismatic joints the second call returns, and it makes a rotation. -/
example (q1 q2 : ℝ) (v : Twist) : ∃ out s', (⟨2, false, ⟨1, 0, 1⟩⟩ : GivensState).cartToJnt slidesOblique 2 [0, 0] [q1, q2] v
    [0, 0] = some (.done E_NOERROR out, s') ∧
    ¬ NearOrth (1 / 10 ^ 15) (jacEigen 2 (jacMat 2 [⟨⟨1, 0, 0⟩, 0⟩, ⟨⟨3/5, 4/5, 0⟩, 0⟩]) *
      (1 : Matrix (Fin (min 6 2)) (Fin (min 6 2)) ℝ)) := by
  have hX : ∀ i j : Fin 2, colsDot (jacEigen 2 (jacMat 2 [⟨⟨1, 0, 0⟩, 0⟩, ⟨⟨3/5, 4/5, 0⟩, 0⟩]) *
      (1 : Matrix (Fin (min 6 2)) (Fin (min 6 2)) ℝ)) i j = if i = j then 1 else 3 / 5 := by
    intro i j
    rw [Matrix.mul_one]
    refine (Fin.sum_univ_six (f := fun r : Fin 6 => jacMat 2 [⟨⟨1, 0, 0⟩, 0⟩, ⟨⟨3/5, 4/5, 0⟩, 0⟩] r i *
      jacMat 2 [⟨⟨1, 0, 0⟩, 0⟩, ⟨⟨3/5, 4/5, 0⟩, 0⟩] r j)).trans ?_
    fin_cases i <;> fin_cases j <;> simp [jacMat, Twist.comp] <;> norm_num
  have h01 : (0 : Fin 2) ≠ 1 := by decide
  obtain ⟨o', k, h1, -⟩ := C68_two_partial (m := max 6 2) (min_le_max_six 2) (1 / 10 ^ 15) (by norm_num)
    (jacEigen 2 (jacMat 2 [⟨⟨1, 0, 0⟩, 0⟩, ⟨⟨3/5, 4/5, 0⟩, 0⟩])) ⟨1, 0, 1⟩ (one_orth 2)
    ((congrArg₂ (· < ·) (congrArg (· ^ 2) (hX 0 1)) (congrArg₂ (· * ·) (hX 0 0) (hX 1 1))).mpr (by norm_num)) 0
  refine ⟨List.ofFn (givensQdot 2 o' v), ⟨2, true, o'⟩, (givens_cart ⟨2, false, ⟨1, 0, 1⟩⟩ slidesOblique 2 [0, 0] _ [q1, q2] v [0, 0] rfl rfl rfl
    (slidesOblique_jac q1 q2)).trans ?_, ?_⟩
  · have h1' : macie (min_le_max_six 2) (1 / 10 ^ 15) (!false)
        (jacEigen 2 (jacMat 2 [⟨⟨1, 0, 0⟩, 0⟩, ⟨⟨3/5, 4/5, 0⟩, 0⟩])) ⟨1, 0, 1⟩ 2 = .done o' k := h1
    dsimp only
    rw [h1']
    rfl
  · intro hN
    have := (hN (0 : Fin 2) (1 : Fin 2) h01).2
    dsimp only at this
    rw [hX 0 1, hX 0 0, hX 1 1, if_neg h01] at this
    norm_num at this

/-- Pseudo-inverse with the exact test for zero singular values. -/
theorem minNorm_exact {m n : ℕ} {κ : Type*} [Fintype κ] [DecidableEq κ] (U : Matrix (Fin m) κ ℝ) (S : κ → ℝ)
    (V : Matrix (Fin n) κ ℝ) (hU : OrthOn U S) (hV : OrthOn V S) (v : Fin m → ℝ) (q : Fin n → ℝ)
    (hq : ∀ r, q r = ∑ i, V r i * givensSuy (S i) (∑ k, U k i * v k)) : MinNormLsq (U * diagonal S * Vᵀ) v q := by
  obtain ⟨eps, he, hS⟩ : ∃ eps > 0, ∀ i, |S i| < eps → S i = 0 := by
    by_cases hne : (Finset.univ.filter fun i => S i ≠ 0).Nonempty
    · obtain ⟨i0, h0, hmin⟩ := Finset.exists_min_image _ (fun i => |S i|) hne
      refine ⟨|S i0|, abs_pos.mpr (by simpa using h0), fun i hi => ?_⟩
      by_contra hc
      exact absurd (hmin i (by simpa using hc)) (not_le.mpr hi)
    · refine ⟨1, one_pos, fun i _ => ?_⟩
      by_contra hc
      exact hne ⟨i, by simpa using hc⟩
  obtain ⟨h1, y, hy⟩ := pinv_normal U S V hU hV eps he v
  rw [trunc_eq hS] at h1 hy
  have e : (V * diagonal (invS S eps) * Uᵀ) *ᵥ v = q := by
    funext r
    rw [hq, Matrix.mul_assoc, ← Matrix.mulVec_mulVec]
    unfold Matrix.mulVec dotProduct
    refine Finset.sum_congr rfl fun i _ => ?_
    congr 1
    simp only [Matrix.diagonal_mul, Matrix.transpose_apply, givensSuy, invS, mul_assoc, ← Finset.mul_sum]
    congr 1
    by_cases hi : |S i| < eps
    · rw [if_pos hi, if_neg (not_not.mpr (hS i hi))]
    · have : S i ≠ 0 := fun h0 => hi (by rw [h0, abs_zero]; exact he)
      rw [if_neg hi, if_pos this]
  rw [e] at h1 hy
  obtain ⟨h2, h3⟩ := lsq_of_normal _ _ _ h1
  exact ⟨h2, fun q' hq' => h3 y hy q' hq'.le⟩

/-- What the solver does with a decomposition: if `U`, `S`, `V` decompose the (transposed) Jacobian exactly, with `V`
orthogonal and the columns of `U` orthonormal where the singular value does not vanish, the joint rates are the least-squares
solution of least norm — for any number of joints and also for vanishing singular values. -/
theorem C68_pinv (nj : ℕ) (J : Matrix (Fin 6) (Fin nj) ℝ) (o : MacieOut (max 6 nj) (min 6 nj))
    (hf : jacEigen nj J = o.U.submatrix id (Fin.castLE (min_le_max_six nj)) * diagonal o.S * o.Vᵀ) (hV : o.V * o.Vᵀ = 1)
    (hU : OrthOn (o.U.submatrix id (Fin.castLE (min_le_max_six nj))) o.S) (v : Twist) :
    MinNormLsq J v.comp (givensQdot nj o v) := by
  have hV' : OrthOn o.V o.S := by
    intro i j _ _
    have hV2 : o.Vᵀ * o.V = 1 := mul_eq_one_comm.mp hV
    have := congrFun (congrFun hV2 i) j
    rw [Matrix.mul_apply, Matrix.one_apply] at this
    simpa [Matrix.transpose_apply] using this
  have hreU : ∀ {a b : ℕ} {κ : Type} [Fintype κ] [DecidableEq κ] (e : a = b) (X : Matrix (Fin b) κ ℝ) (S : κ → ℝ), OrthOn X S →
      OrthOn (X.submatrix (finCongr e) id) S := by
    intro a b κ _ _ e X S h
    subst e
    exact h
  by_cases h : nj > 6
  · have h1 : max 6 nj = nj := by omega
    have h2 : min 6 nj = 6 := by omega
    have hJ : J = o.V.submatrix (finCongr h2.symm) id * diagonal o.S *
        ((o.U.submatrix id (Fin.castLE (min_le_max_six nj))).submatrix (finCongr h1.symm) id)ᵀ := by
      ext r i
      have := congrFun (congrFun hf (finCongr h1.symm i)) (finCongr h2.symm r)
      rw [jacEigen_large nj h] at this
      have e : J r i = (Jᵀ.submatrix (finCongr (by omega)) (finCongr (by omega)) : Matrix (Fin (max 6 nj)) (Fin (min 6 nj)) ℝ)
        (finCongr h1.symm i) (finCongr h2.symm r) := rfl
      rw [e, this, Matrix.mul_apply, Matrix.mul_apply]
      refine Finset.sum_congr rfl fun k _ => ?_
      simp only [Matrix.mul_diagonal, Matrix.transpose_apply, Matrix.submatrix_apply, id]
      ring
    rw [hJ]
    refine minNorm_exact _ _ _ (hreU h2.symm _ _ hV') (hreU h1.symm _ _ hU) _ _ fun r => ?_
    unfold givensQdot
    rw [dif_pos h]
    rfl
  · have h1 : max 6 nj = 6 := by omega
    have h2 : min 6 nj = nj := by omega
    have hJ : J = ((o.U.submatrix id (Fin.castLE (min_le_max_six nj))).submatrix (finCongr h1.symm) id) * diagonal o.S *
        (o.V.submatrix (finCongr h2.symm) id)ᵀ := by
      ext r i
      have := congrFun (congrFun hf (finCongr h1.symm r)) (finCongr h2.symm i)
      rw [jacEigen_small nj h] at this
      have e : J r i = (J.submatrix (finCongr (by omega)) (finCongr (by omega)) : Matrix (Fin (max 6 nj)) (Fin (min 6 nj)) ℝ)
        (finCongr h1.symm r) (finCongr h2.symm i) := rfl
      rw [e, this, Matrix.mul_apply, Matrix.mul_apply]
      refine Finset.sum_congr rfl fun k _ => ?_
      simp only [Matrix.mul_diagonal, Matrix.transpose_apply, Matrix.submatrix_apply, id]
    rw [hJ]
    refine minNorm_exact _ _ _ (hreU h1.symm _ _ hU) (hreU h2.symm _ _ hV') _ _ fun r => ?_
    unfold givensQdot
    rw [dif_neg h]
    rfl

/-- `C68_pinv` covers a zero singular value and more than six joints: a zero Jacobian of seven joints. -/
example (v : Twist) : MinNormLsq (0 : Matrix (Fin 6) (Fin 7) ℝ) v.comp (givensQdot 7 ⟨1, 0, 1⟩ v) := by
  refine C68_pinv 7 0 ⟨1, 0, 1⟩ ?_ (by simp) (fun i j h => absurd rfl h) v
  rw [jacEigen_large 7 (by norm_num)]
  ext i j
  simp

/-- Not up to date, then size mismatch, before anything is computed and with `qdot_out` untouched. -/
theorem C68_guards (s : GivensState) (c : Chain) (fuel : ℕ) (jac0 : Jac) (q : List ℝ) (v : Twist) (qdot : List ℝ) :
    (s.nj ≠ c.nrOfJoints → s.cartToJnt c fuel jac0 q v qdot = some (.done E_NOT_UP_TO_DATE qdot, s)) ∧
    (s.nj = c.nrOfJoints → (s.nj ≠ q.length ∨ s.nj ≠ qdot.length) →
      s.cartToJnt c fuel jac0 q v qdot = some (.done E_SIZE_MISMATCH qdot, s)) ∧
    (s.nj = c.nrOfJoints → s.nj = q.length → s.nj = qdot.length → ∀ err J,
      jntToJac c (List.replicate s.nj false) q jac0 (-1) = some (err, J) → err < E_NOERROR →
      s.cartToJnt c fuel jac0 q v qdot = some (.done err qdot, { s with toggle := !s.toggle })) := by
  refine ⟨fun h => if_pos h, fun h h' => (if_neg (not_not.mpr h)).trans (if_pos h'), ?_⟩
  intro h1 h2 h3 err J hJ he
  unfold GivensState.cartToJnt
  rw [if_neg (not_not.mpr h1), if_neg (by simp [← h2, ← h3])]
  simp only [hJ, Option.bind_eq_bind, Option.bind_some, if_pos he]

end KDL
