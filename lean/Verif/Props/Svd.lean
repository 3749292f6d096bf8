import Verif.Props.IkVel
import Verif.Lemmas.SvdConv

/-!
# C54: singular value decomposition

`svd_eigen_HH` and `SVD_HH::calculate`.  The comparisons with `anorm` are made by an arbitrary relation `eqv`, so that the
theorems hold whatever rounding makes of `(fabs(x)+anorm) == anorm`; all other arithmetic is exact.
-/

noncomputable section

namespace KDL

open Matrix Svd

/-- The diagonalisation left the inner loop by its test for every singular value, and not because the iterations ran out. -/
def SvdConverged (T : Tests) {rows cols : ℕ} (maxiter : Int) (V0 : Mat) (S0 tmp0 : ℕ → ℝ) (A : Matrix (Fin rows) (Fin cols) ℝ) : Prop :=
  ∃ l st, run T rows cols maxiter (ofMatrix A) V0 S0 tmp0 = .ok (l, st) ∧ ∀ its ∈ l, its ≤ maxiter

/-- Frobenius norm. -/
def frob {m n : ℕ} (A : Matrix (Fin m) (Fin n) ℝ) : ℝ := Real.sqrt (∑ i, ∑ j, A i j ^ 2)

theorem frob_eq {m n : ℕ} (A : Matrix (Fin m) (Fin n) ℝ) : frob A = fro A := by
  simp only [frob, fro, sq]

theorem M_ofMatrix {m n : ℕ} (A : Matrix (Fin m) (Fin n) ℝ) : M m n (ofMatrix A) = A := by
  ext r c
  simp only [M, ofMatrix]
  rw [dif_pos ⟨r.2, c.2⟩]

theorem eigen_sound {eps : ℝ} (he : 0 ≤ eps) {eqv : ℝ → ℝ → Prop} (h0 : eqv 0 0) (h1 : eqv 1 1) : (Tests.eigen eps eqv).Sound := by
  refine ⟨fun x hx => ?_, fun a ha => ?_, fun a ha => ?_⟩
  · intro h; rw [h] at hx; simp only [Tests.eigen, abs_zero] at hx; linarith
  · rcases ha with rfl | rfl <;> simpa [Tests.eigen]
  · rcases ha with rfl | rfl <;> simpa [Tests.eigen]

theorem hh_sound {eqv : ℝ → ℝ → Prop} (h0 : eqv 0 0) (h1 : eqv 1 1) : (Tests.hh eqv).Sound := by
  refine ⟨fun x hx => hx, fun a ha => ?_, fun a ha => ?_⟩
  · rcases ha with rfl | rfl <;> simpa [Tests.hh]
  · rcases ha with rfl | rfl <;> simpa [Tests.hh]

/-- The code of a call that does not fail. -/
def svdCode (cols : ℕ) (maxiter : Int) : Int := if maxiter = (if cols = 0 then -1 else 1) then -2 else 0

theorem retCode_eq {n : ℕ} {maxiter : Int} {l : List Int} (h1 : l.length = n) (h2 : 0 < n → l.head? = some 1) :
    retCode maxiter l = svdCode n maxiter := by
  unfold retCode svdCode
  rcases l with _ | ⟨x, l⟩
  · obtain rfl : n = 0 := h1.symm
    simp only [List.headD_nil, if_true]
    exact if_congr eq_comm rfl rfl
  · have : x = 1 := by simpa using h2 (by simp at h1; omega)
    subst this
    rw [if_neg (show ¬ n = 0 by simp at h1; omega)]
    simp only [List.headD_cons]
    exact if_congr eq_comm rfl rfl

/-- What holds of the matrices of every result. -/
structure Orthonormal {rows cols : ℕ} (r : SvdOut rows cols) : Prop where
  V : r.Vᵀ * r.V = 1
  /-- as many orthonormal columns as there can be -/
  U : cols ≤ rows → r.Uᵀ * r.U = 1
  /-- in any case `Uᵀ U` is a projection -/
  proj : r.Uᵀ * r.U * (r.Uᵀ * r.U) = r.Uᵀ * r.U

/-- The result is a decomposition up to an error `ε`. -/
structure Approx {rows cols : ℕ} (A : Matrix (Fin rows) (Fin cols) ℝ) (r : SvdOut rows cols) (ε : ℝ) : Prop where
  fact : frob (A - r.U * diagonal r.S * r.Vᵀ) ≤ ε
  /-- columns of `U` are orthonormal where the singular value does not vanish -/
  orthU : frob (r.Uᵀ * r.U * diagonal r.S - diagonal r.S) ≤ ε
  nonneg : ∀ i, 0 ≤ r.S i

theorem Approx.isDec {rows cols : ℕ} {A : Matrix (Fin rows) (Fin cols) ℝ} {r : SvdOut rows cols} (h : Approx A r 0)
    (ho : Orthonormal r) : IsDec A r := by
  have h1 := h.fact
  have h2 := h.orthU
  rw [frob_eq] at h1 h2
  have h1' := fro_eq_zero (le_antisymm h1 (fro_nonneg _))
  have h2' := fro_eq_zero (le_antisymm h2 (fro_nonneg _))
  refine ⟨sub_eq_zero.mp h1', ho.V, ?_, h.nonneg⟩
  intro i j hi hj
  have := congrFun (congrFun h2' i) j
  rw [Matrix.sub_apply, mul_diagonal, Matrix.zero_apply, diagonal_apply] at this
  rw [mul_apply] at this
  simp only [transpose_apply] at this
  by_cases e : i = j
  · rw [if_pos e, e] at this
    rw [if_pos e, e]
    have h3 : (∑ x, r.U x j * r.U x j - 1) * r.S j = 0 := by linarith
    rcases mul_eq_zero.mp h3 with h | h
    · linarith
    · exact absurd h hj
  · rw [if_neg e] at this
    rw [if_neg e]
    have h3 : (∑ x, r.U x i * r.U x j) * r.S j = 0 := by linarith
    rcases mul_eq_zero.mp h3 with h | h
    · exact h
    · exact absurd h hj

theorem core_hh (T : Tests) (hT : T.Sound) {m n : ℕ} (maxiter : Int) (V0 : Mat) (S0 tmp0 : ℕ → ℝ) (A : Matrix (Fin m) (Fin n) ℝ) (δ : ℝ) :
    ∃ l st, run T m n maxiter (ofMatrix A) V0 S0 tmp0 = .ok (l, st) ∧ retCode maxiter l = svdCode n maxiter ∧ Iso m n st.U st.V ∧
      (SvdConverged T maxiter V0 S0 tmp0 A → (∀ j : Fin n, 0 ≤ st.S j) ∧
        ((∀ x, ¬ T.big x → x = 0) → (∀ a x, a = 0 ∨ a = 1 → T.tiny a x → |x| ≤ δ) →
          (∀ a x, a = 0 ∨ a = 1 → |x| ≤ fro A + 3 * δ * maxiter.toNat * n → T.tinyS a x → |x| ≤ δ) →
          Dec A (M m n st.U) (fun j => st.S j) (M n n st.V) (3 * δ * maxiter.toNat * n))) := by
  obtain ⟨l, st, h1, h2, h3, h4, h5, h6, h7⟩ := run_spec T hT m n maxiter (ofMatrix A) V0 S0 tmp0 δ (3 * δ * maxiter.toNat * n)
  refine ⟨l, st, h1, retCode_eq h2 h3, h5, ?_⟩
  rintro ⟨l', st', e, hc⟩
  rw [h1] at e
  obtain ⟨rfl, rfl⟩ := Prod.mk.inj (Except.ok.inj e)
  have hc' : ∀ x ∈ l, x < 1 + maxiter.toNat := by
    intro x hx
    have := hc x hx
    have := (h4 x hx).1
    omega
  refine ⟨fun j => h6 hc' j j.2, fun hb hd hs => ?_⟩
  rw [M_ofMatrix] at h7
  exact (h7 hb hd hs le_rfl hc').dec

theorem svdHH_eq (eqv : ℝ → ℝ → Prop) {m n : ℕ} (maxiter : Int) (V0 : Mat) (S0 tmp0 : ℕ → ℝ) (A : Matrix (Fin m) (Fin n) ℝ)
    {l : List Int} {st : Dg} (h : run (Tests.hh eqv) m n maxiter (ofMatrix A) V0 S0 tmp0 = .ok (l, st)) :
    svdHH eqv maxiter V0 S0 tmp0 A = .ok (st.out m n (retCode maxiter l)) := by
  unfold svdHH
  rw [h]
  rfl

theorem svdEigen_eq (eps : ℝ) (eqv : ℝ → ℝ → Prop) {m n : ℕ} (maxiter : Int) (V0 : Mat) (S0 tmp0 : ℕ → ℝ) (A : Matrix (Fin m) (Fin n) ℝ)
    {l : List Int} {st : Dg} (h : run (Tests.eigen eps eqv) m n maxiter (ofMatrix A) V0 S0 tmp0 = .ok (l, st)) :
    ∃ σ : Equiv.Perm (Fin n), svdEigenHH eqv eps maxiter V0 S0 tmp0 A =
      .ok ⟨retCode maxiter l, (M m n st.U).submatrix id σ, (fun j : Fin n => st.S j) ∘ σ, (M n n st.V).submatrix id σ⟩ ∧
      Antitone ((fun j : Fin n => st.S j) ∘ σ) := by
  obtain ⟨σ, h1, h2, h3, h4⟩ := sortLoop_spec (n := n) st n le_rfl
  refine ⟨σ, ?_, ?_⟩
  · unfold svdEigenHH
    rw [h]
    simp only [bind, Except.bind]
    rw [Dg.out]
    congr 2
    · ext r j; exact h2 r j
    · ext j; exact h1 j
    · ext r j; exact h3 r j
  · intro i j hij
    simp only [Function.comp]
    rw [← h1, ← h1]
    rcases eq_or_lt_of_le hij with rfl | hlt
    · exact le_rfl
    · exact h4 i i.2 j hlt j.2

/-- `svd_eigen_HH` never divides by zero, never reads outside its arrays and never returns one of the codes −3…−13, whatever
the matrix, the comparisons, the contents of the arrays and the number of iterations are; `V` is orthogonal, the columns of
`U` are orthonormal as far as possible, and the singular values are sorted.  The code depends on `maxiter` alone. -/
theorem C54_total (eqv : ℝ → ℝ → Prop) (h0 : eqv 0 0) (h1 : eqv 1 1) (eps : ℝ) (he : 0 ≤ eps) (maxiter : Int) (V0 : Mat)
    (S0 tmp0 : ℕ → ℝ) {rows cols : ℕ} (A : Matrix (Fin rows) (Fin cols) ℝ) :
    ∃ r, svdEigenHH eqv eps maxiter V0 S0 tmp0 A = .ok r ∧ r.code = svdCode cols maxiter ∧ Orthonormal r ∧ Antitone r.S ∧
      (SvdConverged (Tests.eigen eps eqv) maxiter V0 S0 tmp0 A → ∀ i, 0 ≤ r.S i) := by
  obtain ⟨l, st, e, hc, hI, hC⟩ := core_hh _ (eigen_sound he h0 h1) maxiter V0 S0 tmp0 A 0
  obtain ⟨σ, e', ha⟩ := svdEigen_eq eps eqv maxiter V0 S0 tmp0 A e
  obtain ⟨p1, p2, p3⟩ := hI.perm σ
  exact ⟨_, e', hc, ⟨p1, p3, p2⟩, ha, fun h i => (hC h).1 _⟩

/-- The same of `SVD_HH::calculate`, which does not sort. -/
theorem C54_total_HH (eqv : ℝ → ℝ → Prop) (h0 : eqv 0 0) (h1 : eqv 1 1) (maxiter : Int) (V0 : Mat)
    (S0 tmp0 : ℕ → ℝ) {rows cols : ℕ} (A : Matrix (Fin rows) (Fin cols) ℝ) :
    ∃ r, svdHH eqv maxiter V0 S0 tmp0 A = .ok r ∧ r.code = svdCode cols maxiter ∧ Orthonormal r ∧
      (SvdConverged (Tests.hh eqv) maxiter V0 S0 tmp0 A → ∀ i, 0 ≤ r.S i) := by
  obtain ⟨l, st, e, hc, hI, hC⟩ := core_hh _ (hh_sound h0 h1) maxiter V0 S0 tmp0 A 0
  exact ⟨_, svdHH_eq eqv maxiter V0 S0 tmp0 A e, hc, ⟨hI.orth, hI.full, hI.idem⟩, fun h i => (hC h).1 _⟩

/-- Comparisons that hold only of numbers that differ by at most `δ`. -/
def Within (eqv : ℝ → ℝ → Prop) (δ : ℝ) : Prop := ∀ x a, eqv x a → |x - a| ≤ δ

theorem within_tiny {eqv : ℝ → ℝ → Prop} {δ : ℝ} (h : Within eqv δ) (a x : ℝ) (ht : eqv (|x| + a) a) : |x| ≤ δ := by
  have := h _ _ ht
  rwa [add_sub_cancel_right, abs_abs] at this

theorem within_tinyS {eqv : ℝ → ℝ → Prop} {δ : ℝ} (h : Within eqv δ) (a x : ℝ) (ha : a = 0 ∨ a = 1) {B : ℝ} (hB : B + δ < 2) (hx : |x| ≤ B)
    (ht : eqv |x + a| a) : |x| ≤ δ := by
  have := h _ _ ht
  rcases ha with rfl | rfl
  · rwa [add_zero, sub_zero, abs_abs] at this
  · have h1 := abs_le.mp hx
    have h2 := abs_le.mp this
    rcases abs_cases (x + 1) with ⟨h3, h4⟩ | ⟨h3, h4⟩ <;> rw [h3] at h2
    · exact abs_le.mpr (by constructor <;> linarith)
    · exfalso; linarith

/-- If comparisons tell numbers apart that differ by more than `δ`, the threshold `epsilon` is zero, the iterations do not run
out and the norm of the matrix is below 2 by a margin, `svd_eigen_HH` decomposes the matrix up to an error of
`3 δ maxiter cols`.
Missing from the full statement (every matrix, the default `epsilon = 1e-300`): see `C54_split_violated`,
`C54_scale_violated` and `C54_eps_violated`; that the iterations do not run out is `C54_converges`. -/
theorem C54_error_partial (eqv : ℝ → ℝ → Prop) (h0 : eqv 0 0) (h1 : eqv 1 1) (δ : ℝ) (hw : Within eqv δ) (maxiter : Int)
    (V0 : Mat) (S0 tmp0 : ℕ → ℝ) {rows cols : ℕ} (A : Matrix (Fin rows) (Fin cols) ℝ)
    (hA : frob A + 3 * δ * maxiter.toNat * cols + δ < 2) (hc : SvdConverged (Tests.eigen 0 eqv) maxiter V0 S0 tmp0 A) :
    ∃ r, svdEigenHH eqv 0 maxiter V0 S0 tmp0 A = .ok r ∧ r.code = svdCode cols maxiter ∧ Orthonormal r ∧ Antitone r.S ∧
      Approx A r (3 * δ * maxiter.toNat * cols) := by
  obtain ⟨l, st, e, hco, hI, hC⟩ := core_hh _ (eigen_sound le_rfl h0 h1) maxiter V0 S0 tmp0 A δ
  obtain ⟨σ, e', ha⟩ := svdEigen_eq 0 eqv maxiter V0 S0 tmp0 A e
  obtain ⟨p1, p2, p3⟩ := hI.perm σ
  obtain ⟨hn, hD⟩ := hC hc
  have hd := (hD (fun x hx => by simpa [Tests.eigen] using hx) (fun a x _ => within_tiny hw a x)
    (fun a x ha hx => within_tinyS hw a x ha (by rw [← frob_eq]; exact hA) hx)).perm σ
  exact ⟨_, e', hco, ⟨p1, p3, p2⟩, ha, by rw [frob_eq]; exact hd.err, by rw [frob_eq]; exact hd.proj, fun i => hn _⟩

/-- The same of `SVD_HH::calculate`, which does not sort and has no threshold. -/
theorem C54_error_HH_partial (eqv : ℝ → ℝ → Prop) (h0 : eqv 0 0) (h1 : eqv 1 1) (δ : ℝ) (hw : Within eqv δ) (maxiter : Int)
    (V0 : Mat) (S0 tmp0 : ℕ → ℝ) {rows cols : ℕ} (A : Matrix (Fin rows) (Fin cols) ℝ)
    (hA : frob A + 3 * δ * maxiter.toNat * cols + δ < 2) (hc : SvdConverged (Tests.hh eqv) maxiter V0 S0 tmp0 A) :
    ∃ r, svdHH eqv maxiter V0 S0 tmp0 A = .ok r ∧ r.code = svdCode cols maxiter ∧ Orthonormal r ∧
      Approx A r (3 * δ * maxiter.toNat * cols) := by
  obtain ⟨l, st, e, hco, hI, hC⟩ := core_hh _ (hh_sound h0 h1) maxiter V0 S0 tmp0 A δ
  obtain ⟨hn, hD⟩ := hC hc
  have hd := hD (fun x hx => by simpa [Tests.hh] using hx) (fun a x _ => within_tiny hw a x)
    (fun a x ha hx => within_tinyS hw a x ha (by rw [← frob_eq]; exact hA) hx)
  exact ⟨_, svdHH_eq eqv maxiter V0 S0 tmp0 A e, hco, ⟨hI.orth, hI.full, hI.idem⟩, by rw [frob_eq]; exact hd.err,
    by rw [frob_eq]; exact hd.proj, fun i => hn _⟩

theorem within_eq : Within (· = ·) 0 := fun x a h => by rw [h, sub_self, abs_zero]

theorem converged_two (T : Tests) (hT : T.Sound) (hx : ∀ x, ¬ T.big x → x = 0) (maxiter : Int) (hm : 2 ≤ maxiter) (V0 : Mat)
    (S0 tmp0 : ℕ → ℝ) {rows cols : ℕ} (hcols : cols ≤ 2) (A : Matrix (Fin rows) (Fin cols) ℝ) : SvdConverged T maxiter V0 S0 tmp0 A := by
  obtain ⟨l, st, h1, -⟩ := run_spec T hT rows cols maxiter (ofMatrix A) V0 S0 tmp0 0 0
  exact ⟨l, st, h1, run_two T hT hx rows cols hcols maxiter hm _ V0 S0 tmp0 h1⟩

/-- With exact comparisons, a matrix of at most two columns and of norm below 2 is decomposed exactly, with two iterations. -/
theorem C54_two_columns (maxiter : Int) (hm : 2 ≤ maxiter) (V0 : Mat) (S0 tmp0 : ℕ → ℝ) {rows cols : ℕ} (hcols : cols ≤ 2)
    (A : Matrix (Fin rows) (Fin cols) ℝ) (hA : frob A < 2) :
    ∃ r, svdEigenHH (· = ·) 0 maxiter V0 S0 tmp0 A = .ok r ∧ r.code = 0 ∧ IsSvd A r := by
  obtain ⟨r, e, hc, ho, hs, ha⟩ := C54_error_partial (· = ·) rfl rfl 0 within_eq maxiter V0 S0 tmp0 A (by simpa using hA)
    (converged_two _ (eigen_sound le_rfl rfl rfl) (fun x hx => by simpa [Tests.eigen] using hx) maxiter hm V0 S0 tmp0 hcols A)
  rw [mul_zero, zero_mul, zero_mul] at ha
  refine ⟨r, e, ?_, ha.isDec ho, hs⟩
  rw [hc, svdCode, if_neg]
  split_ifs <;> omega

/-- The same of `SVD_HH::calculate`. -/
theorem C54_two_columns_HH (maxiter : Int) (hm : 2 ≤ maxiter) (V0 : Mat) (S0 tmp0 : ℕ → ℝ) {rows cols : ℕ} (hcols : cols ≤ 2)
    (A : Matrix (Fin rows) (Fin cols) ℝ) (hA : frob A < 2) :
    ∃ r, svdHH (· = ·) maxiter V0 S0 tmp0 A = .ok r ∧ r.code = 0 ∧ IsDec A r := by
  obtain ⟨r, e, hc, ho, ha⟩ := C54_error_HH_partial (· = ·) rfl rfl 0 within_eq maxiter V0 S0 tmp0 A (by simpa using hA)
    (converged_two _ (hh_sound rfl rfl) (fun x hx => by simpa [Tests.hh] using hx) maxiter hm V0 S0 tmp0 hcols A)
  rw [mul_zero, zero_mul, zero_mul] at ha
  refine ⟨r, e, ?_, ha.isDec ho⟩
  rw [hc, svdCode, if_neg]
  split_ifs <;> omega

/-- The iterations do not run out: with Wilkinson's shift each of them multiplies
`(S(k-1)·tmp(k))²·|S(k-2)·tmp(k-1)|` by 4/5 at most, so `q + 3` iterations suffice for every singular value once
`(4/5)^q` has brought a bound of that product to the sixth power of a number that the comparisons cannot tell from zero
beside 1.  (The constant is that of the worst case; for doubles `q` is about 1030, above the default `maxiter`.) -/
theorem C54_converges (eqv : ℝ → ℝ → Prop) (h0 : eqv 0 0) (δ₀ δ : ℝ) (hδ : 0 ≤ δ₀) (hδ' : δ₀ < 1) (hn : ∀ y, |y - 1| ≤ δ₀ → eqv y 1)
    (hw : Within eqv δ) (maxiter : Int) (V0 : Mat) (S0 tmp0 : ℕ → ℝ) {rows cols : ℕ} (A : Matrix (Fin rows) (Fin cols) ℝ)
    (hA : frob A + 3 * δ * maxiter.toNat * cols + δ < 2) (q : ℕ) (hq : (q : Int) + 3 ≤ maxiter) (hB : 64 * (4 / 5) ^ q ≤ δ₀ ^ 6) :
    SvdConverged (Tests.eigen 0 eqv) maxiter V0 S0 tmp0 A ∧ SvdConverged (Tests.hh eqv) maxiter V0 S0 tmp0 A := by
  have h1 : eqv 1 1 := hn 1 (by simpa using hδ)
  have hδ2 : 0 ≤ δ := (abs_nonneg _).trans (hw _ _ h1)
  have t1 : ∀ x : ℝ, |x| ≤ δ₀ → eqv (|x| + 1) 1 := fun x hx => hn _ (by rwa [add_sub_cancel_right, abs_abs])
  have t2 : ∀ x : ℝ, |x| ≤ δ₀ → eqv |x + 1| 1 := by
    intro x hx
    have := abs_le.mp hx
    rw [abs_of_pos (by linarith)]
    exact hn _ (by rwa [add_sub_cancel_right])
  have hB' : (fro (M rows cols (ofMatrix A)) + 3 * δ * maxiter.toNat * cols) ^ 6 * (4 / 5) ^ q ≤ δ₀ ^ 6 := by
    refine le_trans ?_ hB
    rw [show (64 : ℝ) = 2 ^ 6 by norm_num, M_ofMatrix, ← frob_eq]
    have : 0 ≤ frob A := Real.sqrt_nonneg _
    gcongr
    linarith
  refine ⟨?_, ?_⟩
  · exact run_conv _ (eigen_sound le_rfl h0 h1) (fun x hx => by simpa [Tests.eigen] using hx) rows cols maxiter _ V0 S0 tmp0 hδ t1 t2
      (within_tiny hw 1) (fun x hx => within_tinyS hw 1 x (Or.inr rfl) (by rw [M_ofMatrix, ← frob_eq]; exact hA) hx) q hq hB'
  · exact run_conv _ (hh_sound h0 h1) (fun x hx => by simpa [Tests.hh] using hx) rows cols maxiter _ V0 S0 tmp0 hδ t1 t2
      (within_tiny hw 1) (fun x hx => within_tinyS hw 1 x (Or.inr rfl) (by rw [M_ofMatrix, ← frob_eq]; exact hA) hx) q hq hB'

/-- Without any assumption on the course of the iterations: comparisons that hold beside 1 of numbers that differ by at most
`δ₀` and of none that differ by more than `δ`, and sufficiently many iterations, give a decomposition up to
`3 δ maxiter cols` of every matrix whose norm is below 2 by a margin. -/
theorem C54_decomposes_partial (eqv : ℝ → ℝ → Prop) (h0 : eqv 0 0) (δ₀ δ : ℝ) (hδ : 0 ≤ δ₀) (hδ' : δ₀ < 1) (hn : ∀ y, |y - 1| ≤ δ₀ → eqv y 1)
    (hw : Within eqv δ) (maxiter : Int) (V0 : Mat) (S0 tmp0 : ℕ → ℝ) {rows cols : ℕ} (A : Matrix (Fin rows) (Fin cols) ℝ)
    (hA : frob A + 3 * δ * maxiter.toNat * cols + δ < 2) (q : ℕ) (hq : (q : Int) + 3 ≤ maxiter) (hB : 64 * (4 / 5) ^ q ≤ δ₀ ^ 6) :
    (∃ r, svdEigenHH eqv 0 maxiter V0 S0 tmp0 A = .ok r ∧ r.code = 0 ∧ Orthonormal r ∧ Antitone r.S ∧
      Approx A r (3 * δ * maxiter.toNat * cols)) ∧
    ∃ r, svdHH eqv maxiter V0 S0 tmp0 A = .ok r ∧ r.code = 0 ∧ Orthonormal r ∧ Approx A r (3 * δ * maxiter.toNat * cols) := by
  have h1 : eqv 1 1 := hn 1 (by simpa using hδ)
  obtain ⟨c1, c2⟩ := C54_converges eqv h0 δ₀ δ hδ hδ' hn hw maxiter V0 S0 tmp0 A hA q hq hB
  have hcode : svdCode cols maxiter = 0 := by
    rw [svdCode, if_neg]
    split_ifs <;> omega
  constructor
  · obtain ⟨r, e, hc, ho, hs, ha⟩ := C54_error_partial eqv h0 h1 δ hw maxiter V0 S0 tmp0 A hA c1
    exact ⟨r, e, hc.trans hcode, ho, hs, ha⟩
  · obtain ⟨r, e, hc, ho, ha⟩ := C54_error_HH_partial eqv h0 h1 δ hw maxiter V0 S0 tmp0 A hA c2
    exact ⟨r, e, hc.trans hcode, ho, ha⟩

/-- Non-vacuity: comparisons with a tolerance of `2⁻²⁰`, 400 iterations, any 6×3 matrix of norm at most 1. -/
example (V0 : Mat) (S0 tmp0 : ℕ → ℝ) (A : Matrix (Fin 6) (Fin 3) ℝ) (hA : frob A ≤ 1) :
    ∃ r, svdEigenHH (fun x a => |x - a| ≤ 1 / 2 ^ 20) 0 400 V0 S0 tmp0 A = .ok r ∧ r.code = 0 ∧ Approx A r (1 / 250) := by
  have hp : 64 * (4 / 5 : ℝ) ^ 396 ≤ (1 / 2 ^ 20) ^ 6 := by
    have h1 : (4 / 5 : ℝ) ^ 132 ≤ 1 / 2 ^ 42 := by norm_num
    calc 64 * (4 / 5 : ℝ) ^ 396 = 64 * ((4 / 5) ^ 132) ^ 3 := by rw [← pow_mul]
      _ ≤ 64 * (1 / 2 ^ 42) ^ 3 := by gcongr
      _ ≤ _ := by norm_num
  obtain ⟨⟨r, h1, h2, -, -, h3⟩, -⟩ := C54_decomposes_partial (fun x a => |x - a| ≤ 1 / 2 ^ 20) (by norm_num) (1 / 2 ^ 20) (1 / 2 ^ 20) (by norm_num)
    (by norm_num) (fun y hy => hy) (fun x a h => h) 400 V0 S0 tmp0 A (by push_cast; norm_num; linarith) 396 (by norm_num) hp
  refine ⟨r, h1, h2, ?_, ?_, h3.nonneg⟩
  · exact h3.fact.trans (by push_cast; norm_num)
  · exact h3.orthU.trans (by push_cast; norm_num)

/-! ## Where the decomposition fails -/

/-- `[[a, b], [0, d]]` above rows of zeros. -/
def triMat (k : ℕ) (a b d : ℝ) : Matrix (Fin (k + 2)) (Fin 2) ℝ := fun r c =>
  if (r : ℕ) = 0 then (if c = 0 then a else b) else if (r : ℕ) = 1 then (if c = 0 then 0 else d) else 0

theorem triMat_of (k : ℕ) (a b d : ℝ) : ofMatrix (triMat k a b d) 0 0 = a ∧ ofMatrix (triMat k a b d) 0 1 = b ∧
    ofMatrix (triMat k a b d) 1 1 = d ∧ (∀ i, 0 < i → i < k + 2 → ofMatrix (triMat k a b d) i 0 = 0) ∧
    ∀ i, 1 < i → i < k + 2 → ofMatrix (triMat k a b d) i 1 = 0 := by
  refine ⟨?_, ?_, ?_, ?_, ?_⟩
  · simp [ofMatrix, triMat]
  · simp [ofMatrix, triMat]
  · simp [ofMatrix, triMat]
  · intro i h1 h2
    simp [ofMatrix, triMat, h2, show ¬ i = 0 by omega]
  · intro i h1 h2
    simp [ofMatrix, triMat, show ¬ i = 0 by omega, show ¬ i = 1 by omega]

theorem triMat_sq (k : ℕ) (a b d : ℝ) : (triMat k a b d)ᵀ * triMat k a b d = !![a * a, a * b; a * b, b * b + d * d] := by
  ext i j
  rw [mul_apply, Fin.sum_univ_succ, Fin.sum_univ_succ, Finset.sum_eq_zero (fun r _ => by simp [triMat])]
  fin_cases i <;> fin_cases j <;> simp [triMat, mul_comm]

/-- The determinant and the trace of `AᵀA` from the singular values. -/
theorem gram_two {m : ℕ} {A : Matrix (Fin m) (Fin 2) ℝ} {r : SvdOut m 2} (hU : r.Uᵀ * r.U = 1) (hV : r.Vᵀ * r.V = 1)
    (h : A = r.U * diagonal r.S * r.Vᵀ) : (Aᵀ * A).det = (r.S 0 * r.S 1) ^ 2 ∧ (Aᵀ * A).trace = r.S 0 ^ 2 + r.S 1 ^ 2 := by
  have e : Aᵀ * A = r.V * (diagonal r.S * diagonal r.S) * r.Vᵀ := by
    rw [h]
    simp only [transpose_mul, transpose_transpose, diagonal_transpose, Matrix.mul_assoc]
    rw [← Matrix.mul_assoc r.Uᵀ, hU, Matrix.one_mul]
  constructor
  · have hd : r.V.det * r.V.det = 1 := by
      have := congrArg det hV
      rwa [det_mul, det_transpose, det_one] at this
    rw [e, det_mul, det_mul, det_transpose, diagonal_mul_diagonal, det_diagonal, Fin.prod_univ_two]
    linear_combination (r.S 0 * r.S 1) ^ 2 * hd
  · rw [e, Matrix.trace_mul_comm, ← Matrix.mul_assoc, hV, Matrix.one_mul, diagonal_mul_diagonal, trace_diagonal, Fin.sum_univ_two]
    ring

theorem perm_two (σ : Equiv.Perm (Fin 2)) (f : Fin 2 → ℝ) : (f (σ 0) = f 0 ∧ f (σ 1) = f 1) ∨ (f (σ 0) = f 1 ∧ f (σ 1) = f 0) := by
  have h01 : σ 0 ≠ σ 1 := fun h => absurd (σ.injective h) (by decide)
  have h2 : ∀ x : Fin 2, x = 0 ∨ x = 1 := by decide
  rcases h2 (σ 0) with h | h <;> rcases h2 (σ 1) with h' | h'
  · exact absurd (h.trans h'.symm) h01
  · left; rw [h, h']; exact ⟨rfl, rfl⟩
  · right; rw [h, h']; exact ⟨rfl, rfl⟩
  · exact absurd (h.trans h'.symm) h01

/-- The test for splitting takes the absolute value of the wrong expression, `fabs(S(nm)+anorm) == anorm`, and `anorm` is 1
for every matrix but zero, so a value of −2 passes for zero.  Whatever the comparisons make of rounding, the matrix
`[[2,3],[0,4]]` (above any number of rows of zeros) is given the singular values 5 and 2, with code 0 — but their product is
not 8. -/
theorem C54_split_violated (eqv : ℝ → ℝ → Prop) (h0 : eqv 0 0) (h1 : eqv 1 1) (h4 : ¬ eqv 4 1) (eps : ℝ) (he : 0 ≤ eps)
    (he' : eps < 2) (maxiter : Int) (hm : 2 ≤ maxiter) (V0 : Mat) (S0 tmp0 : ℕ → ℝ) (k : ℕ) :
    ∃ r, svdEigenHH eqv eps maxiter V0 S0 tmp0 (triMat k 2 3 4) = .ok r ∧ r.code = 0 ∧ r.S 0 = 5 ∧ r.S 1 = 2 ∧
      triMat k 2 3 4 ≠ r.U * diagonal r.S * r.Vᵀ := by
  have hT := eigen_sound he h0 h1
  obtain ⟨a1, a2, a3, a4, a5⟩ := triMat_of k 2 3 4
  obtain ⟨st, e, s0, s1⟩ := run_split (Tests.eigen eps eqv) hT (m := k + 2) (by omega) (by norm_num : (3 : ℝ) ≠ 0) (by norm_num) a1 a2 a3 a4 a5
    (by simp [Tests.eigen]; linarith) (by simp [Tests.eigen]; linarith) (by simp [Tests.eigen]; linarith)
    (by simp only [Tests.eigen]; norm_num; exact h4) (by simp only [Tests.eigen]; norm_num; exact h1) maxiter (by omega) V0 S0 tmp0
  have h5 : pythag 3 4 = 5 := by
    have h := pythag_sq 3 4
    have hp := pythag_nonneg 3 4
    nlinarith
  rw [h5] at s1
  obtain ⟨r, e', hc, ho, hs, -⟩ := C54_total eqv h0 h1 eps he maxiter V0 S0 tmp0 (triMat k 2 3 4)
  obtain ⟨σ, e2, ha⟩ := svdEigen_eq eps eqv maxiter V0 S0 tmp0 _ e
  rw [e'] at e2
  have hr := Except.ok.inj e2
  have hS : r.S = (fun j : Fin 2 => st.S j) ∘ σ := by rw [hr]
  have hS0 : r.S 0 = 5 ∧ r.S 1 = 2 := by
    have h01 : r.S 1 ≤ r.S 0 := hs (by decide)
    rw [hS] at h01 ⊢
    simp only [Function.comp] at h01 ⊢
    rcases perm_two σ (fun j : Fin 2 => st.S j) with ⟨p, q⟩ | ⟨p, q⟩ <;> rw [p, q] at h01 ⊢ <;>
      simp only [Fin.val_zero, Fin.val_one, s0, s1] at h01 ⊢
    · norm_num at h01
    · trivial
  refine ⟨r, e', ?_, hS0.1, hS0.2, ?_⟩
  · rw [hc, svdCode, if_neg (by simp; omega)]
  · intro h
    have := (gram_two (ho.U (by omega)) ho.V h).1
    rw [triMat_sq, det_fin_two, hS0.1, hS0.2] at this
    norm_num at this

/-- The same of `SVD_HH::calculate`, so the hypothesis `GoodDec` of the theorems about the pseudo-inverse solvers does not
hold of it for every matrix. -/
theorem C54_split_HH_violated (eqv : ℝ → ℝ → Prop) (h0 : eqv 0 0) (h1 : eqv 1 1) (h4 : ¬ eqv 4 1) (maxiter : Int) (hm : 2 ≤ maxiter)
    (V0 : Mat) (S0 tmp0 : ℕ → ℝ) (k : ℕ) :
    ∃ r, svdHH eqv maxiter V0 S0 tmp0 (triMat k 2 3 4) = .ok r ∧ r.code = 0 ∧ r.S 0 = 2 ∧ r.S 1 = 5 ∧
      triMat k 2 3 4 ≠ r.U * diagonal r.S * r.Vᵀ := by
  have hT := hh_sound h0 h1
  obtain ⟨a1, a2, a3, a4, a5⟩ := triMat_of k 2 3 4
  obtain ⟨st, e, s0, s1⟩ := run_split (Tests.hh eqv) hT (m := k + 2) (by omega) (by norm_num : (3 : ℝ) ≠ 0) (by norm_num) a1 a2 a3 a4 a5
    (by simp [Tests.hh]) (by simp [Tests.hh]) (by simp [Tests.hh])
    (by simp only [Tests.hh]; norm_num; exact h4) (by simp only [Tests.hh]; norm_num; exact h1) maxiter (by omega) V0 S0 tmp0
  have h5 : pythag 3 4 = 5 := by
    have h := pythag_sq 3 4
    have hp := pythag_nonneg 3 4
    nlinarith
  rw [h5] at s1
  obtain ⟨r, e', hc, ho, -⟩ := C54_total_HH eqv h0 h1 maxiter V0 S0 tmp0 (triMat k 2 3 4)
  have e2 := svdHH_eq eqv maxiter V0 S0 tmp0 _ e
  rw [e'] at e2
  have hr := Except.ok.inj e2
  have hS : r.S 0 = 2 ∧ r.S 1 = 5 := by rw [hr]; exact ⟨s0, s1⟩
  refine ⟨r, e', ?_, hS.1, hS.2, ?_⟩
  · rw [hc, svdCode, if_neg (by simp; omega)]
  · intro h
    have := (gram_two (ho.U (by omega)) ho.V h).1
    rw [triMat_sq, det_fin_two, hS.1, hS.2] at this
    norm_num at this

/-- `SVD_HH::calculate` as the decomposition routine of the pseudo-inverse solvers does not keep the promise `GoodDec`. -/
theorem C54_good_violated (eqv : ℝ → ℝ → Prop) (h0 : eqv 0 0) (h1 : eqv 1 1) (h4 : ¬ eqv 4 1) (maxiter : Int) (hm : 2 ≤ maxiter)
    (V0 : Mat) (S0 tmp0 : ℕ → ℝ) (svd : (n : ℕ) → Matrix (Fin 6) (Fin n) ℝ → SvdOut 6 n)
    (hsvd : ∀ n A, svdHH eqv maxiter V0 S0 tmp0 A = .ok (svd n A)) : ¬ GoodDec svd := by
  intro h
  obtain ⟨r, e, hc, -, -, hne⟩ := C54_split_HH_violated eqv h0 h1 h4 maxiter hm V0 S0 tmp0 4
  have := hsvd 2 (triMat 4 2 3 4)
  rw [e] at this
  have hr := Except.ok.inj this
  exact hne (by rw [hr]; exact (h 2 (triMat 4 2 3 4) (by rw [← hr]; exact hc)).fact)

/-- Elements are compared with 1, not with the norm of the matrix (`maxarg1` is a `bool`), so a matrix of elements that do not
count beside 1 is not diagonalised: the singular values of `[[u,u],[0,u]]` are given as `u`, `u`, with code 0, but the sum of
their squares is not `3u²`. -/
theorem C54_scale_violated (eqv : ℝ → ℝ → Prop) (h0 : eqv 0 0) (h1 : eqv 1 1) (u : ℝ) (hu : 0 < u) (hu' : eqv (u + 1) 1) (eps : ℝ)
    (he : 0 ≤ eps) (he' : eps < u) (maxiter : Int) (hm : 2 ≤ maxiter) (V0 : Mat) (S0 tmp0 : ℕ → ℝ) (k : ℕ) :
    ∃ r, svdEigenHH eqv eps maxiter V0 S0 tmp0 (triMat k u u u) = .ok r ∧ r.code = 0 ∧ r.S 0 = u ∧ r.S 1 = u ∧
      triMat k u u u ≠ r.U * diagonal r.S * r.Vᵀ := by
  have hT := eigen_sound he h0 h1
  obtain ⟨a1, a2, a3, a4, a5⟩ := triMat_of k u u u
  have hb : (Tests.eigen eps eqv).big |u| := by simp [Tests.eigen, abs_of_pos hu]; linarith
  obtain ⟨st, e, s0, s1⟩ := run_tiny (Tests.eigen eps eqv) hT (m := k + 2) (by omega) hu.ne' hu.ne' hu.ne' a1 a2 a3 a4 a5 hb hb hb
    (by simp only [Tests.eigen]; rw [abs_of_pos hu]; exact hu') maxiter (by omega) V0 S0 tmp0
  rw [abs_of_pos hu] at s0 s1
  obtain ⟨r, e', hc, ho, hs, -⟩ := C54_total eqv h0 h1 eps he maxiter V0 S0 tmp0 (triMat k u u u)
  obtain ⟨σ, e2, ha⟩ := svdEigen_eq eps eqv maxiter V0 S0 tmp0 _ e
  rw [e'] at e2
  have hr := Except.ok.inj e2
  have hS : r.S = (fun j : Fin 2 => st.S j) ∘ σ := by rw [hr]
  have hS0 : r.S 0 = u ∧ r.S 1 = u := by
    rw [hS]
    simp only [Function.comp]
    rcases perm_two σ (fun j : Fin 2 => st.S j) with ⟨p, q⟩ | ⟨p, q⟩ <;> rw [p, q] <;> simp [s0, s1]
  refine ⟨r, e', ?_, hS0.1, hS0.2, ?_⟩
  · rw [hc, svdCode, if_neg (by simp; omega)]
  · intro h
    have := (gram_two (ho.U (by omega)) ho.V h).2
    rw [triMat_sq, trace_fin_two, hS0.1, hS0.2] at this
    simp at this
    nlinarith

/-- The code −2 is documented as "maximum number of iterations exceeded".  It is returned exactly if `maxiter` is 1 (or −1 and
there are no columns), which says nothing about the iterations: a decomposition that succeeds gets it, and a call that stops
without a single iteration, leaving a negative singular value, does not. -/
theorem C54_code_violated (V0 : Mat) (S0 tmp0 : ℕ → ℝ) :
    (∃ r, svdEigenHH (· = ·) 0 1 V0 S0 tmp0 (1 : Matrix (Fin 1) (Fin 1) ℝ) = .ok r ∧ r.code = -2 ∧ IsSvd 1 r) ∧
    ∀ maxiter : Int, maxiter ≤ 0 → ∃ r, svdEigenHH (· = ·) 0 maxiter V0 S0 tmp0 (triMat 0 1 1 1) = .ok r ∧ r.code = 0 ∧
      ¬ IsDec (triMat 0 1 1 1) r := by
  constructor
  · have hT : (Tests.eigen 0 (· = ·)).Sound := eigen_sound le_rfl rfl rfl
    have hconv : SvdConverged (Tests.eigen 0 (· = ·)) 1 V0 S0 tmp0 (1 : Matrix (Fin 1) (Fin 1) ℝ) := by
      obtain ⟨l, st, h1, h2, h3, -⟩ := run_spec _ hT 1 1 1 (ofMatrix (1 : Matrix (Fin 1) (Fin 1) ℝ)) V0 S0 tmp0 0 0
      refine ⟨l, st, h1, ?_⟩
      rcases l with _ | ⟨x, _ | _⟩
      · simp
      · have : x = 1 := by simpa using h3
        simp [this]
      · simp at h2
    obtain ⟨r, e, hc, ho, hs, ha⟩ := C54_error_partial (· = ·) rfl rfl 0 within_eq 1 V0 S0 tmp0 (1 : Matrix (Fin 1) (Fin 1) ℝ)
      (by simp [frob]) hconv
    rw [mul_zero, zero_mul, zero_mul] at ha
    exact ⟨r, e, by rw [hc]; rfl, ha.isDec ho, hs⟩
  · intro maxiter hm
    have hT : (Tests.eigen 0 (· = ·)).Sound := eigen_sound le_rfl rfl rfl
    obtain ⟨a1, a2, a3, a4, a5⟩ := triMat_of 0 1 1 1
    have hb : (Tests.eigen 0 (· = ·)).big |1| := by simp [Tests.eigen]
    obtain ⟨st, e, s0, s1⟩ := run_none _ hT (m := 2) le_rfl one_ne_zero one_ne_zero one_ne_zero a1 a2 a3 a4 a5 hb hb hb maxiter hm V0 S0 tmp0
    obtain ⟨σ, e2, ha⟩ := svdEigen_eq 0 (· = ·) maxiter V0 S0 tmp0 _ e
    refine ⟨_, e2, ?_, ?_⟩
    · show retCode maxiter [1, 1] = 0
      unfold retCode
      exact if_neg (show ¬ (1 : Int) = maxiter by omega)
    · intro h
      have h0 := h.nonneg (σ.symm 0)
      simp only [Function.comp, Equiv.apply_symm_apply, Fin.val_zero, s0] at h0
      norm_num at h0

/-- A column whose sum of absolute values exceeds `epsilon` is reflected in the reduction, but the reflection is left out of
`U` if its Euclidean norm does not exceed `epsilon` (`fabs(g)>epsilon` for `g = S(i)`).  So for every positive threshold there
are matrices, with the other column as large as one likes, that are decomposed wrongly: `U diag(S) Vᵀ` has 0 for an element
`-r`, with code 0. -/
theorem C54_eps_violated (eqv : ℝ → ℝ → Prop) (h0 : eqv 0 0) (h1 : eqv 1 1) (eps : ℝ) (he : 0 < eps) (r : ℝ) (hr : eps ≤ r)
    (maxiter : Int) (hm : 2 ≤ maxiter) (V0 : Mat) (S0 tmp0 : ℕ → ℝ) :
    ∃ R, svdEigenHH eqv eps maxiter V0 S0 tmp0 !![3 / 5 * eps, -r; 3 / 5 * eps, r] = .ok R ∧ R.code = 0 ∧
      (R.U * diagonal R.S * R.Vᵀ) 0 1 = 0 := by
  have hrp : 0 < r := by linarith
  have hT := eigen_sound he.le h0 h1
  let w := Real.sqrt (1 / 2)
  have hw2 : w * w = 1 / 2 := Real.mul_self_sqrt (by norm_num)
  have hw : 0 < w := Real.sqrt_pos.mpr (by norm_num)
  have hw5 : 1 / 2 < w := by nlinarith
  have hw6 : w ≤ 5 / 6 := by nlinarith
  have hwr : 0 < 2 * w * r := by positivity
  have hbig : eps < 2 * w * r := by nlinarith
  have hsm : 2 * (3 / 5 * eps) * w ≤ eps := by nlinarith
  have hsp : 0 < 2 * (3 / 5 * eps) * w := by positivity
  obtain ⟨l, st, e, p1, p2⟩ := run_eps (Tests.eigen eps eqv) hT (A := ofMatrix !![3 / 5 * eps, -r; 3 / 5 * eps, r]) (t := 3 / 5 * eps) (r := r)
    (by positivity) hrp hw hw2 (by simp [ofMatrix]) (by simp [ofMatrix]) (by simp [ofMatrix]) (by simp [ofMatrix])
    (by simp only [Tests.eigen]; rw [abs_of_pos (by positivity)]; linarith)
    (by simp only [Tests.eigen]; rw [abs_neg, abs_of_pos hsp]; linarith)
    (by simp only [Tests.eigen]; rw [abs_zero]; linarith)
    (by simp only [Tests.eigen]; rw [abs_of_pos hwr]; exact hbig)
    (by simp only [Tests.eigen]; rw [abs_neg, abs_of_pos hwr]; exact hbig) maxiter (by omega) V0 S0 tmp0
  obtain ⟨R, e', hc, -⟩ := C54_total eqv h0 h1 eps he.le maxiter V0 S0 tmp0 !![3 / 5 * eps, -r; 3 / 5 * eps, r]
  obtain ⟨σ, e2, -⟩ := svdEigen_eq eps eqv maxiter V0 S0 tmp0 _ e
  rw [e'] at e2
  have hR := Except.ok.inj e2
  refine ⟨R, e', ?_, ?_⟩
  · rw [hc, svdCode, if_neg (by simp; omega)]
  · rw [hR]
    simp only
    rw [mul_apply]
    simp only [mul_diagonal, transpose_apply, submatrix_apply, id, Function.comp]
    rw [Equiv.sum_comp σ (fun x => M 2 2 st.U 0 x * st.S x * M 2 2 st.V 1 x), Fin.sum_univ_two]
    simp only [M, Fin.val_zero, Fin.val_one, p1, p2]
    ring

/-! ## The hypotheses can be met -/

/-- `C54_error_partial` with comparisons that are not exact and the default number of iterations. -/
example (V0 : Mat) (S0 tmp0 : ℕ → ℝ) : ∃ r, svdEigenHH (fun x a => |x - a| ≤ 1 / 100000) 0 150 V0 S0 tmp0 (triMat 4 (1 / 2) 1 (1 / 2)) = .ok r ∧
    r.code = 0 ∧ Approx (triMat 4 (1 / 2) 1 (1 / 2)) r (9 / 1000) := by
  have hT : (Tests.eigen 0 (fun x a => |x - a| ≤ 1 / 100000)).Sound := eigen_sound le_rfl (by norm_num) (by norm_num)
  have h150 : ((150 : Int).toNat : ℝ) = 150 := by rw [show (150 : Int).toNat = 150 from rfl]; norm_num
  have hA : frob (triMat 4 (1 / 2) 1 (1 / 2)) < 3 / 2 := by
    rw [frob, Real.sqrt_lt' (by norm_num)]
    simp only [triMat, Fin.sum_univ_succ, Fin.sum_univ_two]
    norm_num
  obtain ⟨r, e, hc, -, -, ha⟩ := C54_error_partial (fun x a => |x - a| ≤ 1 / 100000) (by norm_num) (by norm_num) (1 / 100000)
    (fun x a h => h) 150 V0 S0 tmp0 (triMat 4 (1 / 2) 1 (1 / 2)) (by rw [h150]; norm_num at hA ⊢; linarith)
    (converged_two _ hT (fun x hx => by simpa [Tests.eigen] using hx) 150 (by norm_num) V0 S0 tmp0 le_rfl _)
  refine ⟨r, e, by rw [hc]; decide, ?_⟩
  convert ha using 1
  rw [h150]; norm_num

/-- The hypotheses of `C54_scale_violated`. -/
example : ∃ (eqv : ℝ → ℝ → Prop) (u : ℝ), eqv 0 0 ∧ eqv 1 1 ∧ ¬ eqv 4 1 ∧ 0 < u ∧ eqv (u + 1) 1 :=
  ⟨fun x a => |x - a| ≤ 1 / 100000, 1 / 100000, by norm_num, by norm_num, by norm_num, by norm_num, by norm_num⟩

end KDL
