import Verif.Model.Dynamics
import Mathlib.Algebra.BigOperators.Intervals
import Mathlib.Algebra.Order.BigOperators.Ring.Finset
import Mathlib.Tactic.Linarith
import Mathlib.Tactic.LinearCombination
import Mathlib.Tactic.FieldSimp

/-! C41: the `L D Lᵀ` solver. -/

noncomputable section
namespace KDL
open Finset

/-! ## auxiliary -/

theorem ldlD_eq (s : LDL) (i : ℕ) : ∀ m d, ldlD s i m d = d - ∑ j ∈ range m, s.D j * s.L i j * s.L i j := by
  intro m; induction m with
  | zero => intro d; simp [ldlD]
  | succ m ih => intro d; unfold ldlD; rw [ih, sum_range_succ]; ring
theorem ldlL_eq (s : LDL) (j i : ℕ) (Di : ℝ) : ∀ m x, ldlL s j i Di m x = x - ∑ k ∈ range m, s.L j k * s.L i k * s.D k / Di := by
  intro m; induction m with
  | zero => intro d; simp [ldlL]
  | succ m ih => intro d; unfold ldlL; rw [ih, sum_range_succ]; ring
theorem ldlCol_eq (A : ℕ → ℕ → ℝ) (i : ℕ) (s : LDL) : ∀ m, (ldlCol A i m s).D = s.D ∧ ∀ a b, (ldlCol A i m s).L a b =
    if b = i ∧ i < a ∧ a < m then A i a / s.D i - ∑ k ∈ range i, s.L a k * s.L i k * s.D k / s.D i else s.L a b := by
  intro m
  induction m with
  | zero => exact ⟨rfl, fun a b => by simp [ldlCol]⟩
  | succ m ih =>
    obtain ⟨e1, e2⟩ := ih
    by_cases hi : i < m
    · unfold ldlCol
      simp only [if_pos hi]
      refine ⟨e1, fun a b => ?_⟩
      by_cases hb : b = i
      · by_cases ha : a = m
        · rw [if_pos ⟨ha, hb⟩, if_pos ⟨hb, by omega, by omega⟩, ldlL_eq, e1, ha]
          congr 1
          refine sum_congr rfl fun k hk => ?_
          have hk' : k < i := by simpa using hk
          rw [e2, e2, if_neg (by omega), if_neg (by omega)]
        · rw [if_neg (by tauto), e2]
          by_cases h : b = i ∧ i < a ∧ a < m
          · rw [if_pos h, if_pos ⟨h.1, h.2.1, by omega⟩]
          · rw [if_neg h, if_neg (by omega)]
      · rw [if_neg (by tauto), e2, if_neg (by tauto), if_neg (by tauto)]
    · unfold ldlCol
      simp only [if_neg hi]
      refine ⟨e1, fun a b => ?_⟩
      rw [e2, if_neg (by omega), if_neg (by omega)]

/-- The defining equations of the first `m` columns. -/
structure IsLDL (A : ℕ → ℕ → ℝ) (n m : ℕ) (s : LDL) : Prop where
  diag : ∀ i < m, s.D i = A i i - ∑ j ∈ range i, s.D j * s.L i j * s.L i j
  low : ∀ i < m, ∀ j, i < j → j < n → s.D i * s.L j i = A i j - ∑ k ∈ range i, s.L j k * s.L i k * s.D k

theorem ldlFactor_isLDL (A : ℕ → ℕ → ℝ) (n : ℕ) (s0 : LDL) : ∀ m s, ldlFactor A n m s0 = some s →
    IsLDL A n m s ∧ ∀ i < m, s.D i ≠ 0 := by
  intro m
  induction m with
  | zero => intro s _; exact ⟨⟨by simp, by simp⟩, by simp⟩
  | succ m ih =>
    intro s h
    unfold ldlFactor at h
    cases h0 : ldlFactor A n m s0 with
    | none => simp [h0] at h
    | some r =>
      obtain ⟨⟨dg, lo⟩, ne⟩ := ih r h0
      simp only [h0, Option.bind_eq_bind, Option.bind_some] at h
      split_ifs at h with hd
      injection h with h
      subst h
      obtain ⟨e1, e2⟩ := ldlCol_eq A m ⟨r.L, fun a => if a = m then ldlD r m m (A m m) else r.D a⟩ n
      generalize ldlCol A m n ⟨r.L, fun a => if a = m then ldlD r m m (A m m) else r.D a⟩ = s at *
      have eD : ∀ i < m, s.D i = r.D i := fun i hi => by rw [e1]; simp only; rw [if_neg (by omega)]
      have eDm : s.D m = ldlD r m m (A m m) := by rw [e1]; simp
      have eL : ∀ a, ∀ b < m, s.L a b = r.L a b := fun a b hb => by rw [e2, if_neg (by omega)]
      have eLm : ∀ a, m < a → a < n → s.L a m = A m a / s.D m - ∑ k ∈ range m, s.L a k * s.L m k * s.D k / s.D m := by
        intro a h1 h2
        rw [e2, if_pos ⟨rfl, h1, h2⟩, e1]
        simp only [if_true]
        congr 1
        refine sum_congr rfl fun k hk => ?_
        have hk' : k < m := by simpa using hk
        rw [if_neg (by omega), eL a k hk', eL m k hk']
      refine ⟨⟨fun i hi => ?_, fun i hi j hij hj => ?_⟩, fun i hi => ?_⟩
      · rcases Nat.lt_succ_iff_lt_or_eq.mp hi with h | rfl
        · rw [eD i h, dg i h]
          congr 1
          refine sum_congr rfl fun k hk => ?_
          have hk' : k < i := by simpa using hk
          rw [eD k (by omega), eL i k (by omega)]
        · rw [eDm, ldlD_eq]
          congr 1
          refine sum_congr rfl fun k hk => ?_
          have hk' : k < i := by simpa using hk
          rw [eD k (by omega), eL i k (by omega)]
      · rcases Nat.lt_succ_iff_lt_or_eq.mp hi with h | rfl
        · rw [eD i h, eL j i h, lo i h j hij hj]
          congr 1
          refine sum_congr rfl fun k hk => ?_
          have hk' : k < i := by simpa using hk
          rw [eD k (by omega), eL i k (by omega), eL j k (by omega)]
        · have hne : s.D i ≠ 0 := by rw [eDm]; exact hd
          rw [eLm j hij hj, mul_sub, mul_div_cancel₀ _ hne, mul_sum]
          congr 1
          refine sum_congr rfl fun k hk => ?_
          field_simp
      · rcases Nat.lt_succ_iff_lt_or_eq.mp hi with h | rfl
        · rw [eD i h]; exact ne i h
        · rw [eDm]; exact hd

/-- The unit lower triangular factor. -/
def unitLow (L : ℕ → ℕ → ℝ) (a b : ℕ) : ℝ := if a = b then 1 else if a < b then 0 else L a b

theorem sum_unitLow (L : ℕ → ℕ → ℝ) (p i : ℕ) (hi : i < p) (f : ℕ → ℝ) :
    ∑ k ∈ range p, unitLow L i k * f k = f i + ∑ k ∈ range i, L i k * f k := by
  rw [← sum_subset (s₁ := range (i + 1)) (fun x hx => by simp at *; omega)]
  · rw [sum_range_succ]
    have : ∑ k ∈ range i, unitLow L i k * f k = ∑ k ∈ range i, L i k * f k := by
      refine sum_congr rfl fun k hk => ?_
      have : k < i := by simpa using hk
      rw [unitLow, if_neg (by omega), if_neg (by omega)]
    rw [this]
    simp [unitLow, add_comm]
  · intro k _ hk
    have : i < k := by simpa using hk
    rw [unitLow, if_neg (by omega), if_pos this, zero_mul]

/-- Columns of the factor. -/
theorem sum_unitLow' (L : ℕ → ℕ → ℝ) (p k : ℕ) (hk : k < p) (f : ℕ → ℝ) :
    ∑ j ∈ range p, unitLow L j k * f j = f k + ∑ t ∈ range (p - 1 - k), L (k + 1 + t) k * f (k + 1 + t) := by
  rw [← sum_range_add_sum_Ico _ (Nat.succ_le_of_lt hk), sum_range_succ, sum_eq_zero, zero_add, sum_Ico_eq_sum_range,
    show p - k.succ = p - 1 - k by omega]
  · congr 1
    · simp [unitLow]
    · refine sum_congr rfl fun t _ => ?_
      rw [unitLow, if_neg (by omega), if_neg (by omega)]
  · intro j hj
    have : j < k := by simpa using hj
    rw [unitLow, if_neg (by omega), if_pos this, zero_mul]

theorem IsLDL.eq_factor {A : ℕ → ℕ → ℝ} {n p : ℕ} {s : LDL} (h : IsLDL A n p s) (hp : p ≤ n)
    (hA : ∀ i < n, ∀ j < n, A i j = A j i) (i j : ℕ) (hi : i < p) (hj : j < p) :
    A i j = ∑ k ∈ range p, unitLow s.L i k * (s.D k * unitLow s.L j k) := by
  -- the case `i ≤ j`
  have key : ∀ i j, i ≤ j → j < p → A i j = ∑ k ∈ range p, unitLow s.L i k * (s.D k * unitLow s.L j k) := by
    intro i j hij hj
    rw [sum_unitLow _ _ _ (by omega)]
    have e : ∑ k ∈ range i, s.L i k * (s.D k * unitLow s.L j k) = ∑ k ∈ range i, s.L j k * s.L i k * s.D k := by
      refine sum_congr rfl fun k hk => ?_
      have : k < i := by simpa using hk
      rw [unitLow, if_neg (by omega), if_neg (by omega)]; ring
    rw [e]
    rcases Nat.lt_or_eq_of_le hij with hlt | rfl
    · rw [unitLow, if_neg (by omega), if_neg (by omega), h.low i (by omega) j hlt (by omega)]; ring
    · rw [unitLow, if_pos rfl, mul_one, h.diag i hj]
      have : ∑ k ∈ range i, s.L i k * s.L i k * s.D k = ∑ k ∈ range i, s.D k * s.L i k * s.L i k :=
        sum_congr rfl fun k _ => by ring
      rw [this]; ring
  rcases Nat.le_total i j with hij | hij
  · exact key i j hij hj
  · rw [hA i (by omega) j (by omega), key j i hij hi]
    exact sum_congr rfl fun k _ => by ring

theorem ldlFwdAcc_eq (L : ℕ → ℕ → ℝ) (w : ℕ → ℝ) (i : ℕ) : ∀ m x, ldlFwdAcc L w i m x = x - ∑ j ∈ range m, L i j * w j := by
  intro m; induction m with
  | zero => intro d; simp [ldlFwdAcc]
  | succ m ih => intro d; unfold ldlFwdAcc; rw [ih, sum_range_succ]; ring
theorem ldlBwdAcc_eq (L : ℕ → ℕ → ℝ) (x : ℕ → ℝ) (i : ℕ) : ∀ m y, ldlBwdAcc L x i m y =
    y - ∑ t ∈ range m, L (i + 1 + t) i * x (i + 1 + t) := by
  intro m; induction m with
  | zero => intro d; simp [ldlBwdAcc]
  | succ m ih => intro d; unfold ldlBwdAcc; rw [ih, sum_range_succ]; ring

theorem ldlFwd_eq (L : ℕ → ℕ → ℝ) (v w0 : ℕ → ℝ) : ∀ m, ∀ i < m,
    ldlFwd L v m w0 i = v i - ∑ j ∈ range i, L i j * ldlFwd L v m w0 j := by
  intro m
  induction m with
  | zero => intro i hi; omega
  | succ m ih =>
    have e : ∀ i < m, ldlFwd L v (m + 1) w0 i = ldlFwd L v m w0 i := fun i hi => by
      conv_lhs => unfold ldlFwd
      simp only; rw [if_neg (by omega)]
    have em : ldlFwd L v (m + 1) w0 m = v m - ∑ j ∈ range m, L m j * ldlFwd L v m w0 j := by
      conv_lhs => unfold ldlFwd
      simp only; rw [if_pos trivial, ldlFwdAcc_eq]
    intro i hi
    rcases Nat.lt_succ_iff_lt_or_eq.mp hi with h | rfl
    · rw [e i h, ih i h]
      congr 1
      refine sum_congr rfl fun k hk => ?_
      have : k < i := by simpa using hk
      rw [e k (by omega)]
    · rw [em]
      congr 1
      refine sum_congr rfl fun k hk => ?_
      have : k < i := by simpa using hk
      rw [e k (by omega)]

theorem ldlBwd_eq (s : LDL) (w x0 : ℕ → ℝ) (n : ℕ) : ∀ m ≤ n, ∀ i < n, n - m ≤ i →
    ldlBwd s w n m x0 i = w i / s.D i - ∑ t ∈ range (n - 1 - i), s.L (i + 1 + t) i * ldlBwd s w n m x0 (i + 1 + t) := by
  intro m
  induction m with
  | zero => intro _ i hi h; omega
  | succ m ih =>
    intro hm
    have e : ∀ i < n, n - m ≤ i → ldlBwd s w n (m + 1) x0 i = ldlBwd s w n m x0 i := fun i _ hi => by
      conv_lhs => unfold ldlBwd
      simp only; rw [if_neg (by omega)]
    have em : ldlBwd s w n (m + 1) x0 (n - 1 - m) = w (n - 1 - m) / s.D (n - 1 - m) -
        ∑ t ∈ range (n - 1 - (n - 1 - m)), s.L (n - 1 - m + 1 + t) (n - 1 - m) * ldlBwd s w n m x0 (n - 1 - m + 1 + t) := by
      conv_lhs => unfold ldlBwd
      simp only; rw [if_pos trivial, ldlBwdAcc_eq]
    intro i hi h
    by_cases h' : n - m ≤ i
    · rw [e i hi h', ih (by omega) i hi h']
      congr 1
      refine sum_congr rfl fun t ht => ?_
      have : t < n - 1 - i := by simpa using ht
      rw [e (i + 1 + t) (by omega) (by omega)]
    · have : i = n - 1 - m := by omega
      subst this
      rw [em]
      congr 1
      refine sum_congr rfl fun t ht => ?_
      have : t < n - 1 - (n - 1 - m) := by simpa using ht
      rw [e (n - 1 - m + 1 + t) (by omega) (by omega)]

theorem ldlSolve_of {n : ℕ} {A : ℕ → ℕ → ℝ} (v : ℕ → ℝ) {s0 s : LDL} (w0 x0 : ℕ → ℝ) (e : ldlFactor A n n s0 = some s) :
    ldlSolve n A v s0 w0 x0 = some (ldlBwd s (ldlFwd s.L v n w0) n n x0,
      ⟨fun a b => if a < n ∧ b < n then (if a = b then 1 else if a < b then 0 else s.L a b) else s.L a b, s.D⟩) := by
  unfold ldlSolve; simp only [e, Option.bind_eq_bind, Option.bind_some]

/-! ## C41 -/

/-- Whenever the solver meets no zero pivot, its result solves the system and the returned factors are a factorisation:
`A x = v`, `A = L D Lᵀ`, `L` unit lower triangular, `D` without zeros. -/
theorem C41_solve (n : ℕ) (A : ℕ → ℕ → ℝ) (hA : ∀ i < n, ∀ j < n, A i j = A j i) (v : ℕ → ℝ) (s0 : LDL) (w0 x0 : ℕ → ℝ)
    (x : ℕ → ℝ) (r : LDL) (h : ldlSolve n A v s0 w0 x0 = some (x, r)) :
    (∀ i < n, ∑ j ∈ range n, A i j * x j = v i) ∧
    (∀ i < n, ∀ j < n, A i j = ∑ k ∈ range n, r.L i k * r.D k * r.L j k) ∧
    (∀ i < n, ∀ j < n, r.L i i = 1 ∧ (i < j → r.L i j = 0)) ∧ (∀ i < n, r.D i ≠ 0) := by
  unfold ldlSolve at h
  cases hf : ldlFactor A n n s0 with
  | none => simp [hf] at h
  | some s =>
    simp only [hf, Option.bind_eq_bind, Option.bind_some, Option.some.injEq, Prod.mk.injEq] at h
    obtain ⟨hx, hr⟩ := h
    obtain ⟨hs, hne⟩ := ldlFactor_isLDL A n s0 n s hf
    have hrD : r.D = s.D := by rw [← hr]
    have hrL : ∀ i < n, ∀ j < n, r.L i j = unitLow s.L i j := fun i hi j hj => by
      rw [← hr]; simp only [unitLow]; rw [if_pos ⟨hi, hj⟩]
    have hfac := fun i j hi hj => hs.eq_factor le_rfl hA i j hi hj
    refine ⟨fun i hi => ?_, fun i hi j hj => ?_, fun i hi j hj => ⟨?_, fun hij => ?_⟩, fun i hi => ?_⟩
    · have hb := ldlBwd_eq s (ldlFwd s.L v n w0) x0 n n le_rfl
      have hw := ldlFwd_eq s.L v w0 n
      rw [hx] at hb
      generalize ldlFwd s.L v n w0 = w at *
      have hcol : ∀ k < n, ∑ j ∈ range n, unitLow s.L j k * x j = w k / s.D k := fun k hk => by
        rw [sum_unitLow' _ _ _ hk, hb k hk (by omega)]; ring
      calc ∑ j ∈ range n, A i j * x j
          = ∑ j ∈ range n, ∑ k ∈ range n, unitLow s.L i k * (s.D k * (unitLow s.L j k * x j)) := by
            refine sum_congr rfl fun j hj => ?_
            rw [hfac i j hi (by simpa using hj), sum_mul]
            exact sum_congr rfl fun k _ => by ring
        _ = ∑ k ∈ range n, unitLow s.L i k * (s.D k * ∑ j ∈ range n, unitLow s.L j k * x j) := by
            rw [sum_comm]
            refine sum_congr rfl fun k _ => ?_
            rw [mul_sum, mul_sum]
        _ = ∑ k ∈ range n, unitLow s.L i k * w k := by
            refine sum_congr rfl fun k hk => ?_
            have hk' : k < n := by simpa using hk
            rw [hcol k hk', mul_div_cancel₀ _ (hne k hk')]
        _ = v i := by rw [sum_unitLow _ _ _ hi, hw i hi]; ring
    · rw [hfac i j hi hj]
      refine sum_congr rfl fun k hk => ?_
      have hk' : k < n := by simpa using hk
      rw [hrL i hi k hk', hrL j hj k hk', hrD]; ring
    · rw [hrL i hi i hi, unitLow, if_pos rfl]
    · rw [hrL i hi j hj, unitLow, if_neg (by omega), if_pos hij]
    · rw [hrD]; exact hne i hi

/-- `A` is positive definite on vectors of length `n`. -/
def PosDefOn (n : ℕ) (A : ℕ → ℕ → ℝ) : Prop :=
  ∀ x : ℕ → ℝ, (∃ i < n, x i ≠ 0) → 0 < ∑ i ∈ range n, ∑ j ∈ range n, x i * A i j * x j

/-- The next pivot is the value of the quadratic form at some vector that is not zero. -/
theorem pivot_eq {A : ℕ → ℕ → ℝ} {n m : ℕ} {s : LDL} (h : IsLDL A n m s) (hm : m < n)
    (hA : ∀ i < n, ∀ j < n, A i j = A j i) :
    ∃ x : ℕ → ℝ, x m = 1 ∧ ∑ i ∈ range n, ∑ j ∈ range n, x i * A i j * x j = ldlD s m m (A m m) := by
  set d := ldlD s m m (A m m) with hd
  let e : ℕ → ℝ := fun i => if i = m then 1 else 0
  let y := ldlBwd ⟨s.L, fun _ => 1⟩ e (m + 1) (m + 1) (fun _ => 0)
  let x : ℕ → ℝ := fun i => if i < m + 1 then y i else 0
  have hy := ldlBwd_eq ⟨s.L, fun _ => 1⟩ e (fun _ => 0) (m + 1) (m + 1) le_rfl
  have hcol : ∀ k < m + 1, ∑ j ∈ range (m + 1), unitLow s.L j k * y j = e k := fun k hk => by
    rw [sum_unitLow' _ _ _ hk]
    have := hy k hk (by omega)
    simp only [div_one] at this
    show y k + _ = _
    rw [show y k = _ from this]
    ring
  let D' : ℕ → ℝ := fun k => if k = m then d else s.D k
  have hfac : ∀ i < m + 1, ∀ j < m + 1, A i j = ∑ k ∈ range (m + 1), unitLow s.L i k * (D' k * unitLow s.L j k) := by
    intro i hi j hj
    have h' : IsLDL A (m + 1) (m + 1) ⟨s.L, D'⟩ := by
      refine ⟨fun i hi => ?_, fun i hi j hij hj => ?_⟩
      · rcases Nat.lt_succ_iff_lt_or_eq.mp hi with h1 | rfl
        · simp only [D', if_neg (show i ≠ m by omega)]
          rw [h.diag i h1]
          congr 1
          refine sum_congr rfl fun k hk => ?_
          have : k < i := by simpa using hk
          rw [if_neg (by omega)]
        · simp only [D', if_true]
          conv_lhs => rw [hd, ldlD_eq]
          congr 1
          refine sum_congr rfl fun k hk => ?_
          have : k < i := by simpa using hk
          rw [if_neg (by omega)]
      · have h1 : i < m := by omega
        simp only [D', if_neg (show i ≠ m by omega)]
        rw [h.low i h1 j hij (by omega)]
        congr 1
        refine sum_congr rfl fun k hk => ?_
        have : k < i := by simpa using hk
        rw [if_neg (by omega)]
    exact h'.eq_factor le_rfl (fun i hi j hj => hA i (by omega) j (by omega)) i j hi hj
  have hxy : ∀ f : ℕ → ℝ, ∑ i ∈ range n, x i * f i = ∑ i ∈ range (m + 1), y i * f i := by
    intro f
    rw [← sum_subset (s₁ := range (m + 1)) (fun z hz => by simp at *; omega)]
    · refine sum_congr rfl fun i hi => ?_
      have : i < m + 1 := by simpa using hi
      simp only [x]; rw [if_pos this]
    · intro i _ hi
      have : ¬ i < m + 1 := by simpa using hi
      simp only [x]; rw [if_neg this, zero_mul]
  refine ⟨x, ?_, ?_⟩
  · simp only [x]
    rw [if_pos (by omega)]
    have := hy m (by omega) (by omega)
    simp only [div_one, show m + 1 - 1 - m = 0 by omega, range_zero, sum_empty, sub_zero] at this
    show y m = 1
    rw [show y m = _ from this]
    simp [e]
  · calc ∑ i ∈ range n, ∑ j ∈ range n, x i * A i j * x j
        = ∑ i ∈ range n, x i * ∑ j ∈ range n, x j * A i j := by
          refine sum_congr rfl fun i _ => ?_
          rw [mul_sum]
          exact sum_congr rfl fun j _ => by ring
      _ = ∑ i ∈ range (m + 1), y i * ∑ j ∈ range (m + 1), y j * A i j := by
          rw [hxy]
          exact sum_congr rfl fun i _ => by rw [hxy]
      _ = ∑ i ∈ range (m + 1), ∑ j ∈ range (m + 1), ∑ k ∈ range (m + 1),
            (unitLow s.L i k * y i) * (D' k * (unitLow s.L j k * y j)) := by
          refine sum_congr rfl fun i hi => ?_
          rw [mul_sum]
          refine sum_congr rfl fun j hj => ?_
          rw [hfac i (by simpa using hi) j (by simpa using hj), mul_sum, mul_sum]
          exact sum_congr rfl fun k _ => by ring
      _ = ∑ i ∈ range (m + 1), ∑ k ∈ range (m + 1),
            (unitLow s.L i k * y i) * (D' k * e k) := by
          refine sum_congr rfl fun i _ => ?_
          rw [sum_comm]
          refine sum_congr rfl fun k hk => ?_
          rw [← mul_sum, ← mul_sum, hcol k (by simpa using hk)]
      _ = ∑ k ∈ range (m + 1), e k * (D' k * e k) := by
          rw [sum_comm]
          refine sum_congr rfl fun k hk => ?_
          rw [← sum_mul, hcol k (by simpa using hk)]
      _ = d := by
          rw [sum_range_succ, sum_eq_zero]
          · simp [e, D']
          · intro k hk
            have : k < m := by simpa using hk
            simp only [e]; rw [if_neg (by omega), zero_mul]

/-- On a positive definite matrix no pivot vanishes: the solver succeeds, and all pivots are positive. -/
theorem C41_posdef (n : ℕ) (A : ℕ → ℕ → ℝ) (hA : ∀ i < n, ∀ j < n, A i j = A j i) (hP : PosDefOn n A) (v : ℕ → ℝ)
    (s0 : LDL) (w0 x0 : ℕ → ℝ) :
    ∃ x r, ldlSolve n A v s0 w0 x0 = some (x, r) ∧ ∀ i < n, 0 < r.D i := by
  have key : ∀ m ≤ n, ∃ s, ldlFactor A n m s0 = some s ∧ ∀ i < m, 0 < s.D i := by
    intro m
    induction m with
    | zero => intro _; exact ⟨s0, rfl, by simp⟩
    | succ m ih =>
      intro hm
      obtain ⟨s, e, hpos⟩ := ih (by omega)
      obtain ⟨x, x1, x2⟩ := pivot_eq (ldlFactor_isLDL A n s0 m s e).1 hm hA
      have hd : 0 < ldlD s m m (A m m) := by rw [← x2]; exact hP x ⟨m, hm, by rw [x1]; norm_num⟩
      refine ⟨ldlCol A m n ⟨s.L, fun a => if a = m then ldlD s m m (A m m) else s.D a⟩, ?_, fun i hi => ?_⟩
      · unfold ldlFactor
        simp only [e, Option.bind_eq_bind, Option.bind_some]
        rw [if_neg hd.ne']
      · rw [(ldlCol_eq A m _ n).1]
        rcases Nat.lt_succ_iff_lt_or_eq.mp hi with h | rfl
        · simp only [if_neg (show i ≠ m by omega)]; exact hpos i h
        · simpa using hd
  obtain ⟨s, e, hpos⟩ := key n le_rfl
  exact ⟨_, _, ldlSolve_of v w0 x0 e, fun i hi => hpos i hi⟩

/-- Conversely a zero pivot shows that the matrix is not definite: some nonzero vector has `xᵀ A x = 0`. -/
theorem C41_zero_pivot (n : ℕ) (A : ℕ → ℕ → ℝ) (hA : ∀ i < n, ∀ j < n, A i j = A j i) (v : ℕ → ℝ)
    (s0 : LDL) (w0 x0 : ℕ → ℝ) (h : ldlSolve n A v s0 w0 x0 = none) :
    ∃ x : ℕ → ℝ, (∃ i < n, x i ≠ 0) ∧ ∑ i ∈ range n, ∑ j ∈ range n, x i * A i j * x j = 0 := by
  have hf : ldlFactor A n n s0 = none := by
    unfold ldlSolve at h
    cases hf : ldlFactor A n n s0 with
    | none => rfl
    | some s => simp [hf] at h
  have key : ∀ m ≤ n, ldlFactor A n m s0 = none →
      ∃ x : ℕ → ℝ, (∃ i < n, x i ≠ 0) ∧ ∑ i ∈ range n, ∑ j ∈ range n, x i * A i j * x j = 0 := by
    intro m
    induction m with
    | zero => intro _ h; simp [ldlFactor] at h
    | succ m ih =>
      intro hm h
      unfold ldlFactor at h
      cases hf : ldlFactor A n m s0 with
      | none => exact ih (by omega) hf
      | some s =>
        simp only [hf, Option.bind_eq_bind, Option.bind_some] at h
        split_ifs at h with hd
        obtain ⟨x, x1, x2⟩ := pivot_eq (ldlFactor_isLDL A n s0 m s hf).1 hm hA
        exact ⟨x, ⟨m, hm, by rw [x1]; norm_num⟩, by rw [x2, hd]⟩
  exact key n le_rfl hf

/-- Symmetry is needed: only one triangle of the matrix is read, so an unsymmetric system is not solved. -/
theorem C41_needs_symm : ∃ (A : ℕ → ℕ → ℝ) (v : ℕ → ℝ) (x : ℕ → ℝ) (r : LDL),
    ldlSolve 2 A v ⟨fun _ _ => 0, fun _ => 0⟩ (fun _ => 0) (fun _ => 0) = some (x, r) ∧
    ¬ ∀ i < 2, ∑ j ∈ range 2, A i j * x j = v i := by
  let A : ℕ → ℕ → ℝ := fun i j => if i = j then 1 else if i = 1 then 1 else 0
  let s0 : LDL := ⟨fun _ _ => 0, fun _ => 0⟩
  have hf : ∃ s, ldlFactor A 2 2 s0 = some s ∧ s.D 0 = 1 ∧ s.D 1 = 1 ∧ s.L 1 0 = 0 := by
    simp [ldlFactor, ldlD, ldlCol, ldlL, A, s0]
  obtain ⟨s, e, d0, d1, l⟩ := hf
  have hs := ldlSolve_of (fun _ => 1) (fun _ => 0) (fun _ => 0) e
  refine ⟨A, fun _ => 1, _, _, hs, ?_⟩
  intro h
  have := h 1 (by norm_num)
  simp [sum_range_succ, ldlBwd, ldlBwdAcc, ldlFwd, ldlFwdAcc, A, d0, d1, l] at this

/-- A concrete indefinite system on which the solver succeeds, and a positive definite matrix. -/
example : PosDefOn 2 (fun i j => if i = j then 2 else 1) := by
  intro x ⟨i, hi, hx⟩
  simp only [sum_range_succ, sum_range_zero]
  norm_num
  have : x 0 * x 0 + x 1 * x 1 > 0 := by
    have hi' : i = 0 ∨ i = 1 := by omega
    rcases hi' with rfl | rfl
    · have := mul_self_pos.mpr hx; nlinarith [mul_self_nonneg (x 1)]
    · have := mul_self_pos.mpr hx; nlinarith [mul_self_nonneg (x 0)]
  nlinarith [mul_self_nonneg (x 0 + x 1)]
example : ∃ x r, ldlSolve 2 (fun i j => if i = j then 1 else 2) (fun _ => 3) ⟨fun _ _ => 0, fun _ => 0⟩ (fun _ => 0)
    (fun _ => 0) = some (x, r) ∧ x 0 = 1 ∧ x 1 = 1 := by
  let A : ℕ → ℕ → ℝ := fun i j => if i = j then 1 else 2
  let s0 : LDL := ⟨fun _ _ => 0, fun _ => 0⟩
  have hf : ∃ s, ldlFactor A 2 2 s0 = some s := by
    simp [ldlFactor, ldlD, ldlCol, ldlL, A, s0]; norm_num
  obtain ⟨s, e⟩ := hf
  have hs := ldlSolve_of (fun _ => 3) (fun _ => 0) (fun _ => 0) e
  have h := (C41_solve 2 A (fun i _ j _ => by simp only [A, eq_comm]) _ _ _ _ _ _ hs).1
  refine ⟨_, _, hs, ?_⟩
  have h0 := h 0 (by norm_num)
  have h1 := h 1 (by norm_num)
  simp only [sum_range_succ, sum_range_zero, A] at h0 h1
  norm_num at h0 h1
  constructor <;> linarith

end KDL
