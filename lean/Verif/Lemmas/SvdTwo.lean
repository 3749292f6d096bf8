import Verif.Lemmas.SvdSort

/-! Two columns: the shift is exact, so one sweep is enough; and a family of examples. -/

noncomputable section

namespace KDL
namespace Svd

open Matrix Finset

/-- An iteration that splits at `k` is the last one. -/
theorem diagK_last (T : Tests) (a : ℝ) (h0 : T.tiny a 0) (h0' : T.tinyS a 0) {k : ℕ} (N : ℕ) (its : Int) (st : Dg) (ht0 : st.tmp 0 = 0)
    (hp : T.tiny a (st.tmp k) ∨ ∃ j, k = j + 1 ∧ T.tinyS a (st.S j)) : ∃ st', diagK T a k (N + 1) its st = .ok (its, st') := by
  obtain ⟨p, nm, st1, e1, e2, _⟩ := front_spec (m := 0) (n := k + 1) T a h0 h0' (A := 0) (k := k) (by omega) 0 0 0 st ht0
  have hpk : p = k := by
    rcases k with _ | k
    · obtain ⟨p', nm', e3, h3, _⟩ := split_spec T a (S := st.S) (tmp := st.tmp) (by rw [ht0]; exact h0) 0
      rw [e1] at e3
      obtain ⟨rfl, rfl⟩ := Prod.mk.inj (Option.some.inj e3)
      omega
    · rw [split] at e1
      by_cases h1 : T.tiny a (st.tmp (k + 1))
      · rw [if_pos h1] at e1; exact (Prod.mk.inj (Option.some.inj e1)).1.symm
      · rw [if_neg h1] at e1
        rcases hp with hp | ⟨j, hj, hp⟩
        · exact absurd hp h1
        · obtain rfl : k = j := by omega
          rw [if_pos hp] at e1; exact (Prod.mk.inj (Option.some.inj e1)).1.symm
  rw [diagK, e1]
  dsimp only
  rw [e2]
  simp only [bind, Except.bind]
  rw [if_pos hpk]
  split_ifs
  · exact ⟨_, rfl⟩
  · exact ⟨_, rfl⟩

/-- The shift of a block of two columns is exact. -/
theorem shift_exact {y z h : ℝ} (hy : y ≠ 0) (hh : h ≠ 0) :
    let f := ((y - z) * (y + z) + (0 - h) * (0 + h)) / (2 * h * y)
    let d := f + SIGN (pythag f 1) f
    let F := ((y - z) * (y + z) + h * (y / d - h)) / y
    y * h * (F * F - h * h) + F * h * (h * h - y * y + z * z) = 0 := by
  intro f d F
  have hp : pythag f 1 ≠ 0 := fun h => one_ne_zero (pythag_eq_zero.mp h).2
  have hd : d ≠ 0 := add_SIGN_ne hp
  have hs : SIGN (pythag f 1) f * SIGN (pythag f 1) f = f * f + 1 := by
    rw [SIGN_sq, pythag_sq]; ring
  have hd2 : (d - f) * (d - f) = f * f + 1 := by
    rw [show d - f = SIGN (pythag f 1) f by simp only [d]; ring]; exact hs
  have hf : y * y - z * z - h * h = 2 * h * y * f := by
    simp only [f]; field_simp; ring
  have hF : F = h * d := by
    have e : (y - z) * (y + z) + h * (y / d - h) = (y * y - z * z - h * h) + h * y / d := by ring
    simp only [F]
    rw [e, hf]
    field_simp
    linear_combination -hd2
  rw [hF]
  have : h * h - y * y + z * z = -(2 * h * y * f) := by linarith
  rw [this]
  linear_combination y * h * h * h * hd2

/-- With exact tests the second singular value takes at most two iterations. -/
theorem diagK_two (T : Tests) (hb : ∀ x, T.big x ↔ x ≠ 0) (a : ℝ) (h0 : T.tiny a 0) (h0' : T.tinyS a 0) (N : ℕ) (its : Int) (st : Dg)
    (ht0 : st.tmp 0 = 0) : ∃ its' st', diagK T a 1 (N + 2) its st = .ok (its', st') ∧ its' ≤ its + 1 := by
  by_cases hl : T.tiny a (st.tmp 1) ∨ T.tinyS a (st.S 0)
  · obtain ⟨st', h⟩ := diagK_last T a h0 h0' (k := 1) (N + 1) its st ht0 (hl.imp id fun h => ⟨0, rfl, h⟩)
    exact ⟨its, st', h, by omega⟩
  · push Not at hl
    have hh : st.tmp 1 ≠ 0 := fun h => hl.1 (by rw [h]; exact h0)
    have hy : st.S 0 ≠ 0 := fun h => hl.2 (by rw [h]; exact h0')
    have e1 : split T a st.S st.tmp 1 = some (0, none) := by
      rw [split, if_neg hl.1, if_neg hl.2, split, if_pos (by rw [ht0]; exact h0)]
    rw [diagK, e1]
    dsimp only [cancelIf]
    simp only [bind, Except.bind]
    rw [if_neg (by omega)]
    simp only [Nat.sub_self, Nat.sub_zero]
    rw [if_neg (by tauto), if_neg hy, if_neg (add_SIGN_ne fun h => one_ne_zero (pythag_eq_zero.mp h).2)]
    have hsh := shift_exact (z := st.S 1) hy hh
    rw [ht0]
    dsimp only at hsh
    generalize ((st.S 0 - st.S 1) * (st.S 0 + st.S 1) + _) / st.S 0 = F at hsh ⊢
    have hz : pythag F (st.tmp 1) ≠ 0 := fun h => hh (pythag_eq_zero.mp h).2
    have hz' := pythag_sq F (st.tmp 1)
    rw [qr]
    dsimp only
    rw [zero_add, one_mul (st.tmp 1), if_neg hz]
    generalize pythag F (st.tmp 1) = w at hz hz' ⊢
    have hsq2 := pythag_sq (st.S 0 * (F / w) + st.tmp 1 * (st.tmp 1 / w)) (st.S 1 * (st.tmp 1 / w))
    generalize hz2 : pythag (st.S 0 * (F / w) + st.tmp 1 * (st.tmp 1 / w)) (st.S 1 * (st.tmp 1 / w)) = z2 at hsq2 ⊢
    simp only [qr]
    have fin : ∀ f x c s : ℝ, f = 0 ∨ z2 = 0 → ∃ its' st', diagK T a 1 (N + 1) (its + 1)
        { U := rotCols st.U 0 1 c s, S := set (set st.S 0 z2) 1 x, V := rotCols st.V 0 1 (F / w) (st.tmp 1 / w),
          tmp := set (set (set st.tmp 0 w) 0 0) 1 f } = .ok (its', st') ∧ its' ≤ its + 1 := by
      intro f x c s hf
      obtain ⟨st', h⟩ := diagK_last T a h0 h0' (k := 1) N (its + 1)
        { U := rotCols st.U 0 1 c s, S := set (set st.S 0 z2) 1 x, V := rotCols st.V 0 1 (F / w) (st.tmp 1 / w),
          tmp := set (set (set st.tmp 0 w) 0 0) 1 f } (by simp [set])
        (by
          rcases hf with hf | hf
          · left; simp only [set_same, hf]; exact h0
          · right; refine ⟨0, rfl, ?_⟩
            dsimp only
            rw [set_ne _ _ (by omega), set_same, hf]; exact h0')
      exact ⟨_, st', h, le_rfl⟩
    by_cases hbz : T.big z2
    · rw [if_pos hbz]
      apply fin
      left
      have hzn := (hb _).mp hbz
      field_simp
      linear_combination hsh
    · rw [if_neg hbz]
      apply fin
      right
      by_contra h; exact hbz ((hb _).mpr h)

/-- With exact tests two columns converge within two iterations. -/
theorem run_two (T : Tests) (hT : T.Sound) (hx : ∀ x, ¬ T.big x → x = 0) (m n : ℕ) (hn : n ≤ 2) (maxiter : Int) (hm : 2 ≤ maxiter)
    (A V0 : Mat) (S0 tmp0 : ℕ → ℝ) {l : List Int} {st : Dg} (h : run T m n maxiter A V0 S0 tmp0 = .ok (l, st)) :
    ∀ x ∈ l, x ≤ maxiter := by
  obtain ⟨l', st', e, h1, h2, h3, _⟩ := run_spec T hT m n maxiter A V0 S0 tmp0 0 0
  rw [h] at e
  obtain ⟨rfl, rfl⟩ := Prod.mk.inj (Except.ok.inj e)
  have hb : ∀ x, T.big x ↔ x ≠ 0 := fun x => ⟨hT.big x, fun h => by by_contra h'; exact h (hx x h')⟩
  rcases l with _ | ⟨x, l⟩
  · simp
  have hx1 : x = 1 := by simpa using h2 (by simp at h1; omega)
  subst hx1
  rcases l with _ | ⟨x, l⟩
  · simp; omega
  have hl : l = [] := by
    simp at h1; exact List.length_eq_zero_iff.mp (by omega)
  subst hl
  have hn2 : n = 2 := by simpa using h1.symm
  subst hn2
  -- the value of the first inner loop
  obtain ⟨hh, e1, hR⟩ := red_loop T hT.big (m := m) (n := 2) A S0 tmp0 2 le_rfl
  unfold run at h
  rw [e1] at h
  simp only [bind, Except.bind] at h
  cases e2 : accR T 2 hh.U hh.tmp 2 V0 with
  | error _ => rw [e2] at h; simp at h
  | ok V =>
    rw [e2] at h
    simp only at h
    cases e3 : accL T m 2 hh.S (min 2 m) hh.U with
    | error _ => rw [e3] at h; simp at h
    | ok U =>
      rw [e3] at h
      simp only at h
      have ha : hh.anorm = 0 ∨ hh.anorm = 1 := by rcases hR.anorm with h | h <;> tauto
      obtain ⟨N, hN⟩ : ∃ N, maxiter.toNat = N + 2 := ⟨maxiter.toNat - 2, by omega⟩
      have ht0 : hh.tmp 0 = 0 := by
        have := hR.zero
        rwa [set_ne _ _ (by omega)] at this
      obtain ⟨its', st1, e4, h4⟩ := diagK_two T hb hh.anorm (hT.tiny _ ha) (hT.tinyS _ ha) N 1 ⟨U, hh.S, V, hh.tmp⟩ ht0
      rw [diagAll, hN, e4] at h
      simp only [bind, Except.bind] at h
      rw [diagAll] at h
      simp only [bind, Except.bind] at h
      cases e5 : diagK T hh.anorm 0 maxiter.toNat 1 st1 with
      | error _ => rw [e5] at h; simp at h
      | ok r =>
        rw [e5] at h
        simp only [diagAll] at h
        have := (Prod.mk.inj (Except.ok.inj h)).1
        have h5 : its' = x := by
          have := List.cons.inj this
          exact (List.cons.inj this.2).1
        intro y hy
        simp at hy
        rcases hy with rfl | rfl <;> omega

/-! ## matrices that are already bidiagonal -/

theorem SIGN_one (a : ℝ) (ha : a ≠ 0) : SIGN (Real.sqrt 1) (a / |a|) = a / |a| := by
  rcases lt_or_gt_of_ne ha with h | h
  · rw [abs_of_neg h, SIGN, Real.sqrt_one, if_neg] <;> [skip; skip]
    · rw [abs_one]; field_simp
    · have : a / -a = -1 := by field_simp
      rw [this]; norm_num
  · rw [abs_of_pos h, div_self ha, SIGN, Real.sqrt_one, if_pos (by norm_num), abs_one]

theorem unit_sq (a : ℝ) (ha : a ≠ 0) : a / |a| * (a / |a|) = 1 := by
  have h1 : |a| ≠ 0 := abs_ne_zero.mpr ha
  field_simp
  rw [sq_abs]

theorem hhCol_simple (T : Tests) {m n i : ℕ} (him : i < m) {U : Mat} {a : ℝ} (ha : a ≠ 0) (hU : U i i = a) (hb : T.big |a|)
    (hz : ∀ k, i < k → k < m → U k i = 0) : ∃ U', hhCol T m n i U = .ok (U', -a) ∧ (∀ j, i < j → U' i j = -U i j) ∧
      ∀ k, i < k → k < m → ∀ j, i < j → U' k j = U k j := by
  have hs : ∀ f : ℕ → ℝ, (∀ k, i < k → k < m → f k = 0) → ∑ k ∈ Ico i m, f k = f i := by
    intro f hf
    apply sum_eq_single
    · intro k hk hne; rw [mem_Ico] at hk; exact hf k (by omega) hk.2
    · intro h; exact absurd (mem_Ico.mpr ⟨le_rfl, him⟩) h
  have h1 : ∑ k ∈ Ico i m, |U k i| = |a| := by
    rw [hs _ fun k h1 h2 => by rw [hz k h1 h2, abs_zero], hU]
  have hcd : ∀ k, i ≤ k → colDiv U i |a| k i = U k i / |a| := fun k hk => by rw [colDiv, if_pos ⟨rfl, hk⟩]
  have h2 : ∑ k ∈ Ico i m, colDiv U i |a| k i * colDiv U i |a| k i = 1 := by
    rw [hs _ fun k h1 h2 => by rw [hcd k (by omega), hz k h1 h2]; simp, hcd i le_rfl, hU, unit_sq a ha]
  unfold hhCol
  rw [if_pos him]
  dsimp only
  rw [h1, if_pos hb, h2, if_neg (by norm_num), hcd i le_rfl, hU, SIGN_one a ha]
  have h3 : a / |a| * -(a / |a|) - 1 = -2 := by linear_combination -unit_sq a ha
  rw [h3, if_neg (by norm_num)]
  have h4 : |a| * -(a / |a|) = -a := by
    have : |a| ≠ 0 := abs_ne_zero.mpr ha
    field_simp
  rw [h4]
  refine ⟨_, rfl, ?_, ?_⟩
  · intro j hj
    have hji : ¬ j = i := by omega
    simp only [colMul, colUpd, put, colDiv, hji, false_and, and_false, if_false, hj, le_refl, and_self, if_true]
    rw [hs _ fun k h1 h2 => by
      have : ¬ k = i := by omega
      simp only [this, false_and, if_false, true_and, h1.le, if_true, hz k h1 h2]; ring]
    simp only [and_self, if_true]
    linear_combination (-2 * U i j) * unit_sq a ha
  · intro k hk hkm j hj
    have hji : ¬ j = i := by omega
    have hki : ¬ k = i := by omega
    simp only [colMul, colUpd, put, colDiv, hji, hki, false_and, and_false, if_false, hj, hk.le, and_self, if_true]
    rw [hz k hk hkm]; ring

theorem hhRow_simple (T : Tests) {m n i : ℕ} (him : i < m) (hin : i + 1 < n) {U : Mat} {b : ℝ} (hb0 : b ≠ 0) (hU : U i (i + 1) = b)
    (hb : T.big |b|) (hz : ∀ k, i + 1 < k → k < n → U i k = 0) (tmp : ℕ → ℝ) : ∃ U' tmp', hhRow T m n i U tmp = .ok (U', tmp', -b) ∧
      (∀ j, i < j → U' j (i + 1) = -U j (i + 1)) ∧ (∀ j, i < j → ∀ k, i + 1 < k → k < n → U' j k = U j k) ∧ ∀ k ≤ i, tmp' k = tmp k := by
  have hs : ∀ f : ℕ → ℝ, (∀ k, i + 1 < k → k < n → f k = 0) → ∑ k ∈ Ico (i + 1) n, f k = f (i + 1) := by
    intro f hf
    apply sum_eq_single
    · intro k hk hne; rw [mem_Ico] at hk; exact hf k (by omega) hk.2
    · intro h; exact absurd (mem_Ico.mpr ⟨le_rfl, hin⟩) h
  have h1 : ∑ k ∈ Ico (i + 1) n, |U i k| = |b| := by
    rw [hs _ fun k h1 h2 => by rw [hz k h1 h2, abs_zero], hU]
  have hcd : ∀ k, i < k → rowDiv U i |b| i k = U i k / |b| := fun k hk => by rw [rowDiv, if_pos ⟨rfl, hk⟩]
  have h2 : ∑ k ∈ Ico (i + 1) n, rowDiv U i |b| i k * rowDiv U i |b| i k = 1 := by
    rw [hs _ fun k h1 h2 => by rw [hcd k (by omega), hz k h1 h2]; simp, hcd (i + 1) (by omega), hU, unit_sq b hb0]
  unfold hhRow
  rw [if_pos ⟨him, by omega⟩]
  dsimp only
  rw [h1, if_pos hb, h2, if_neg (by norm_num), hcd (i + 1) (by omega), hU, SIGN_one b hb0]
  have h3 : b / |b| * -(b / |b|) - 1 = -2 := by linear_combination -unit_sq b hb0
  rw [h3, if_neg (by norm_num)]
  have h4 : |b| * -(b / |b|) = -b := by
    have : |b| ≠ 0 := abs_ne_zero.mpr hb0
    field_simp
  rw [h4]
  refine ⟨_, _, rfl, ?_, ?_, ?_⟩
  · intro j hj
    have hji : ¬ j = i := by omega
    simp only [rowMul, rowUpd, put, rowDiv, hji, false_and, and_false, if_false, hj, lt_add_one, and_self, if_true, and_true, true_and]
    rw [hs _ fun k h1 h2 => by
      have : ¬ k = i + 1 := by omega
      rw [if_neg (fun h => this h), if_pos (by omega), hz k h1 h2]; ring]
    simp only [if_true]
    linear_combination (-2 * U j (i + 1)) * unit_sq b hb0
  · intro j hj k hk hkn
    have hji : ¬ j = i := by omega
    have hki : ¬ k = i + 1 := by omega
    simp only [rowMul, rowUpd, put, rowDiv, hji, hki, false_and, and_false, if_false, hj, show i < k by omega, and_self, if_true, true_and]
    rw [hz k hk hkn]; ring
  · intro k hk
    simp only [show ¬ i < k by omega, if_false]

/-- The reduction of an upper triangular matrix with two columns. -/
theorem hhLoop_tri (T : Tests) {m : ℕ} (hm : 2 ≤ m) {A : Mat} {a b d : ℝ} (ha : a ≠ 0) (hb : b ≠ 0) (hd : d ≠ 0) (hA0 : A 0 0 = a)
    (hA1 : A 0 1 = b) (hA2 : A 1 1 = d) (hz0 : ∀ k, 0 < k → k < m → A k 0 = 0) (hz1 : ∀ k, 1 < k → k < m → A k 1 = 0)
    (ba : T.big |a|) (bb : T.big |b|) (bd : T.big |d|) (S0 tmp0 : ℕ → ℝ) :
    ∃ st, hhLoop T m 2 ⟨A, S0, tmp0, 0, 0⟩ 2 = .ok st ∧ st.S 0 = -a ∧ st.S 1 = d ∧ st.tmp 0 = 0 ∧ st.tmp 1 = b ∧ st.anorm = 1 := by
  obtain ⟨U1, e1, p1, p2⟩ := hhCol_simple T (n := 2) (by omega : 0 < m) ha hA0 ba hz0
  obtain ⟨U2, tm, e2, q1, q2, q3⟩ := hhRow_simple T (n := 2) (i := 0) (by omega : 0 < m) (by omega) (b := -b) (U := U1) (neg_ne_zero.mpr hb)
    (by rw [p1 1 (by omega), hA1]) (by rwa [abs_neg]) (fun k h1 h2 => by omega) (set tmp0 0 0)
  obtain ⟨U3, e3, r1, r2⟩ := hhCol_simple T (n := 2) (i := 1) (by omega : 1 < m) (a := -d) (U := U2) (neg_ne_zero.mpr hd)
    (by rw [q1 1 (by omega), zero_add, p2 1 (by omega) (by omega) 1 (by omega), hA2]) (by rwa [abs_neg])
    (fun k h1 h2 => by rw [show (1 : ℕ) = 0 + 1 from rfl, q1 k (by omega), zero_add, p2 k (by omega) h2 1 (by omega), hz1 k h1 h2, neg_zero])
  have s1 : hhLoop T m 2 ⟨A, S0, tmp0, 0, 0⟩ 1 = .ok ⟨U2, set S0 0 (-a), tm, b, 1⟩ := by
    rw [hhLoop, hhLoop]
    simp only [bind, Except.bind, hhStep]
    rw [e1]
    simp only
    rw [e2]
    simp only [set_same, neg_neg]
    rw [if_pos]
    right
    have : 0 < |-a| := abs_pos.mpr (neg_ne_zero.mpr ha)
    have := abs_nonneg (tm 0)
    linarith
  refine ⟨⟨U3, set (set S0 0 (-a)) 1 d, set tm 1 b, 0, 1⟩, ?_, ?_, ?_, ?_, ?_, rfl⟩
  · rw [hhLoop, s1]
    simp only [bind, Except.bind, hhStep]
    rw [e3]
    simp only
    rw [hhRow_none T (by omega)]
    simp only [neg_neg]
    rw [if_pos (Or.inl one_ne_zero)]
  · dsimp only; rw [set_ne _ _ (by omega), set_same]
  · dsimp only; rw [set_same]
  · dsimp only; rw [set_ne _ _ (by omega), q3 0 le_rfl, set_same]
  · dsimp only; rw [set_same]

/-- An iteration that splits at `k` makes the value non-negative. -/
theorem diagK_end (T : Tests) (a : ℝ) {k : ℕ} (N : ℕ) (its : Int) {st st1 : Dg} {nm : Option ℕ} (h1 : split T a st.S st.tmp k = some (k, nm))
    (h2 : cancelIf T a k k nm st = .ok st1) : ∃ st', diagK T a k (N + 1) its st = .ok (its, st') ∧ st'.S k = |st1.S k| ∧
      (∀ j, j ≠ k → st'.S j = st1.S j) ∧ st'.tmp = st1.tmp := by
  rw [diagK, h1]
  dsimp only
  rw [h2]
  simp only [bind, Except.bind]
  rw [if_pos trivial]
  split_ifs with h
  · refine ⟨_, rfl, ?_, ?_, rfl⟩
    · dsimp only; rw [set_same, abs_of_neg h]
    · intro j hj; dsimp only; rw [set_ne _ _ hj]
  · exact ⟨_, rfl, (abs_of_nonneg (not_lt.mp h)).symm, fun _ _ => rfl, rfl⟩

/-- The run on an upper triangular matrix with two columns, up to the diagonalisation. -/
theorem run_tri (T : Tests) (hT : T.Sound) {m : ℕ} (hm : 2 ≤ m) {A : Mat} {a b d : ℝ} (ha : a ≠ 0) (hb : b ≠ 0) (hd : d ≠ 0) (hA0 : A 0 0 = a)
    (hA1 : A 0 1 = b) (hA2 : A 1 1 = d) (hz0 : ∀ k, 0 < k → k < m → A k 0 = 0) (hz1 : ∀ k, 1 < k → k < m → A k 1 = 0)
    (ba : T.big |a|) (bb : T.big |b|) (bd : T.big |d|) (maxiter : Int) (V0 : Mat) (S0 tmp0 : ℕ → ℝ) :
    ∃ st, run T m 2 maxiter A V0 S0 tmp0 = diagAll T 1 maxiter 2 [] st ∧ st.S 0 = -a ∧ st.S 1 = d ∧ st.tmp 0 = 0 ∧ st.tmp 1 = b := by
  obtain ⟨l, st, e, -⟩ := run_spec T hT m 2 maxiter A V0 S0 tmp0 0 0
  obtain ⟨hh, e1, h1, h2, h3, h4, h5⟩ := hhLoop_tri T hm ha hb hd hA0 hA1 hA2 hz0 hz1 ba bb bd S0 tmp0
  unfold run at e ⊢
  rw [e1] at e ⊢
  simp only [bind, Except.bind] at e ⊢
  cases e2 : accR T 2 hh.U hh.tmp 2 V0 with
  | error _ => rw [e2] at e; simp at e
  | ok V =>
    rw [e2] at e
    simp only at e ⊢
    cases e3 : accL T m 2 hh.S (min 2 m) hh.U with
    | error _ => rw [e3] at e; simp at e
    | ok U =>
      simp only
      rw [h5]
      exact ⟨_, rfl, h1, h2, h3, h4⟩

/-- The diagonalisation of two columns that splits at once. -/
theorem diagAll_two (T : Tests) (hT : T.Sound) (maxiter : Int) (hm : 1 ≤ maxiter) {st st1 : Dg} {nm : Option ℕ}
    (h1 : split T 1 st.S st.tmp 1 = some (1, nm)) (h2 : cancelIf T 1 1 1 nm st = .ok st1) (h3 : st1.tmp 0 = 0) :
    ∃ st', diagAll T 1 maxiter 2 [] st = .ok ([1, 1], st') ∧ st'.S 0 = |st1.S 0| ∧ st'.S 1 = |st1.S 1| := by
  obtain ⟨N, hN⟩ : ∃ N, maxiter.toNat = N + 1 := ⟨maxiter.toNat - 1, by omega⟩
  obtain ⟨s, e1, p1, p2, p3⟩ := diagK_end T 1 N 1 h1 h2
  have e3 : split T 1 s.S s.tmp 0 = some (0, none) := by
    rw [split, p3, h3, if_pos (hT.tiny 1 (Or.inr rfl))]
  obtain ⟨s', e2, q1, q2, q3⟩ := diagK_end T 1 N 1 e3 (st1 := s) rfl
  refine ⟨s', ?_, ?_, ?_⟩
  · rw [diagAll, hN, e1]
    simp only [bind, Except.bind]
    rw [diagAll, hN, e2]
    simp only [bind, Except.bind, diagAll]
  · rw [q1, p2 0 (by omega)]
  · rw [q2 1 (by omega), p1]

/-- A first singular value of exactly −2 passes for zero. -/
theorem run_split (T : Tests) (hT : T.Sound) {m : ℕ} (hm : 2 ≤ m) {A : Mat} {b d : ℝ} (hb : b ≠ 0) (hd : d ≠ 0) (hA0 : A 0 0 = 2)
    (hA1 : A 0 1 = b) (hA2 : A 1 1 = d) (hz0 : ∀ k, 0 < k → k < m → A k 0 = 0) (hz1 : ∀ k, 1 < k → k < m → A k 1 = 0)
    (ba : T.big |2|) (bb : T.big |b|) (bd : T.big |d|) (ht : ¬ T.tiny 1 b) (hs : T.tinyS 1 (-2)) (maxiter : Int) (hmax : 1 ≤ maxiter)
    (V0 : Mat) (S0 tmp0 : ℕ → ℝ) :
    ∃ st, run T m 2 maxiter A V0 S0 tmp0 = .ok ([1, 1], st) ∧ st.S 0 = 2 ∧ st.S 1 = pythag b d := by
  obtain ⟨st, e, h1, h2, h3, h4⟩ := run_tri T hT hm two_ne_zero hb hd hA0 hA1 hA2 hz0 hz1 ba bb bd maxiter V0 S0 tmp0
  have e1 : split T 1 st.S st.tmp 1 = some (1, some 0) := by
    rw [split, zero_add, h4, if_neg ht, h1, if_pos hs]
  have hp : pythag b d ≠ 0 := fun h => hb (pythag_eq_zero.mp h).1
  have e2 : cancelIf T 1 1 1 (some 0) st = .ok ⟨rotCols st.U 0 1 (d * (1 / pythag b d)) (-b * (1 / pythag b d)), set st.S 1 (pythag b d), st.V,
      set st.tmp 1 (0 * b)⟩ := by
    rw [cancelIf, cancel]
    dsimp only
    rw [h4, one_mul, if_neg ht, h2, if_neg hp, cancel]
  obtain ⟨s, e3, p1, p2⟩ := diagAll_two T hT maxiter hmax e1 e2 (by dsimp only; rw [set_ne _ _ (by omega), h3])
  refine ⟨s, e.trans e3, ?_, ?_⟩
  · rw [p1]; dsimp only; rw [set_ne _ _ (by omega), h1]; simp
  · rw [p2]; dsimp only; rw [set_same, abs_of_nonneg (pythag_nonneg _ _)]

/-- An element above the diagonal that passes for zero. -/
theorem run_tiny (T : Tests) (hT : T.Sound) {m : ℕ} (hm : 2 ≤ m) {A : Mat} {a b d : ℝ} (ha : a ≠ 0) (hb : b ≠ 0) (hd : d ≠ 0) (hA0 : A 0 0 = a)
    (hA1 : A 0 1 = b) (hA2 : A 1 1 = d) (hz0 : ∀ k, 0 < k → k < m → A k 0 = 0) (hz1 : ∀ k, 1 < k → k < m → A k 1 = 0)
    (ba : T.big |a|) (bb : T.big |b|) (bd : T.big |d|) (ht : T.tiny 1 b) (maxiter : Int) (hmax : 1 ≤ maxiter)
    (V0 : Mat) (S0 tmp0 : ℕ → ℝ) :
    ∃ st, run T m 2 maxiter A V0 S0 tmp0 = .ok ([1, 1], st) ∧ st.S 0 = |a| ∧ st.S 1 = |d| := by
  obtain ⟨st, e, h1, h2, h3, h4⟩ := run_tri T hT hm ha hb hd hA0 hA1 hA2 hz0 hz1 ba bb bd maxiter V0 S0 tmp0
  have e1 : split T 1 st.S st.tmp 1 = some (1, none) := by
    rw [split, zero_add, h4, if_pos ht]
  obtain ⟨s, e3, p1, p2⟩ := diagAll_two T hT maxiter hmax e1 (st1 := st) rfl h3
  exact ⟨s, e.trans e3, by rw [p1, h1, abs_neg], by rw [p2, h2]⟩

/-- No iteration at all. -/
theorem run_none (T : Tests) (hT : T.Sound) {m : ℕ} (hm : 2 ≤ m) {A : Mat} {a b d : ℝ} (ha : a ≠ 0) (hb : b ≠ 0) (hd : d ≠ 0) (hA0 : A 0 0 = a)
    (hA1 : A 0 1 = b) (hA2 : A 1 1 = d) (hz0 : ∀ k, 0 < k → k < m → A k 0 = 0) (hz1 : ∀ k, 1 < k → k < m → A k 1 = 0)
    (ba : T.big |a|) (bb : T.big |b|) (bd : T.big |d|) (maxiter : Int) (hmax : maxiter ≤ 0) (V0 : Mat) (S0 tmp0 : ℕ → ℝ) :
    ∃ st, run T m 2 maxiter A V0 S0 tmp0 = .ok ([1, 1], st) ∧ st.S 0 = -a ∧ st.S 1 = d := by
  obtain ⟨st, e, h1, h2, h3, h4⟩ := run_tri T hT hm ha hb hd hA0 hA1 hA2 hz0 hz1 ba bb bd maxiter V0 S0 tmp0
  refine ⟨st, ?_, h1, h2⟩
  rw [e]
  have : maxiter.toNat = 0 := by omega
  simp only [diagAll, this, diagK, bind, Except.bind]

theorem diagK_end' (T : Tests) (a : ℝ) {k : ℕ} (N : ℕ) (its : Int) {st : Dg} (h1 : split T a st.S st.tmp k = some (k, none)) :
    ∃ st', diagK T a k (N + 1) its st = .ok (its, st') ∧ st'.U = st.U ∧ st'.tmp = st.tmp ∧ ∀ r j, st.V r j = 0 → st'.V r j = 0 := by
  rw [diagK, h1]
  dsimp only [cancelIf]
  simp only [bind, Except.bind]
  rw [if_pos trivial]
  split_ifs with h
  · refine ⟨_, rfl, rfl, rfl, ?_⟩
    intro r j hj
    dsimp only
    split_ifs <;> simp [hj]
  · exact ⟨_, rfl, rfl, rfl, fun _ _ h => h⟩

/-- A reflection that is applied in the reduction but left out of the accumulation. -/
theorem run_eps (T : Tests) (hT : T.Sound) {A : Mat} {t r w : ℝ} (ht : 0 < t) (hr : 0 < r) (hw : 0 < w) (hw2 : w * w = 1 / 2) (hA0 : A 0 0 = t)
    (hA1 : A 0 1 = -r) (hA2 : A 1 0 = t) (hA3 : A 1 1 = r) (b1 : T.big (2 * t)) (b2 : ¬ T.big (-(2 * t * w))) (b3 : ¬ T.big 0)
    (b4 : T.big (2 * w * r)) (b5 : T.big (-(2 * w * r))) (maxiter : Int) (hmax : 1 ≤ maxiter) (V0 : Mat) (S0 tmp0 : ℕ → ℝ) :
    ∃ l st, run T 2 2 maxiter A V0 S0 tmp0 = .ok (l, st) ∧ st.U 0 1 = 0 ∧ st.V 1 0 = 0 := by
  have hI : Ico 0 2 = {0, 1} := by decide
  have hI1 : Ico 1 2 = {1} := by decide
  have hI2 : Ico 2 2 = (∅ : Finset ℕ) := by decide
  have sw : Real.sqrt (1 / 2) = w := by
    rw [← hw2, Real.sqrt_mul_self hw.le]
  have hwp : -1 - w ≠ 0 := by linarith
  obtain ⟨U1, e1, u1, u2⟩ : ∃ U1, hhCol T 2 2 0 A = .ok (U1, -(2 * t * w)) ∧ U1 0 1 = 0 ∧ U1 1 1 = 2 * w * r := by
    have s1 : ∑ k ∈ Ico 0 2, |A k 0| = 2 * t := by
      rw [hI, sum_pair (by decide), hA0, hA2, abs_of_pos ht]; ring
    have c0 : colDiv A 0 (2 * t) 0 0 = 1 / 2 := by rw [colDiv, if_pos (by omega), hA0]; field_simp
    have c1 : colDiv A 0 (2 * t) 1 0 = 1 / 2 := by rw [colDiv, if_pos (by omega), hA2]; field_simp
    have s2 : ∑ k ∈ Ico 0 2, colDiv A 0 (2 * t) k 0 * colDiv A 0 (2 * t) k 0 = 1 / 2 := by
      rw [hI, sum_pair (by decide), c0, c1]; norm_num
    have sg : SIGN w (1 / 2) = w := by rw [SIGN, if_pos (by norm_num), abs_of_pos hw]
    unfold hhCol
    rw [if_pos (by omega)]
    dsimp only
    have ht2 : t / (2 * t) = 2⁻¹ := by field_simp
    have this : (-((2⁻¹ + w) * r) + 2⁻¹ * r) / (-(2⁻¹ * w) - 2⁻¹) = 4 * w * r - 2 * r := by
      have h1 : -(2⁻¹ * w) - 2⁻¹ ≠ 0 := by linarith
      rw [div_eq_iff h1]
      linear_combination (2 * r) * hw2
    rw [s1, if_pos b1, s2, if_neg (by norm_num), sw, c0, sg, if_neg]
    · refine ⟨_, by rw [show 2 * t * -w = -(2 * t * w) by ring], ?_, ?_⟩
      · simp only [colMul, colUpd, put, colDiv, hI]
        simp [hA0, hA1, hA2, hA3]
        rw [ht2, this]
        linear_combination (4 * r) * hw2
      · simp only [colMul, colUpd, put, colDiv, hI]
        simp [hA0, hA1, hA2, hA3]
        rw [ht2, this]
        ring
    · rintro ⟨-, h⟩
      have : 0 < w / 2 + 1 / 2 := by positivity
      linarith
  have e2 : hhRow T 2 2 0 U1 (set tmp0 0 0) = .ok (U1, set tmp0 0 0, 0) := by
    unfold hhRow
    rw [if_pos (by omega)]
    dsimp only
    rw [zero_add, hI1, sum_singleton, u1, abs_zero, if_neg b3, zero_mul]
  obtain ⟨U3, e3, -, -⟩ := hhCol_simple T (m := 2) (n := 2) (i := 1) (by omega) (a := 2 * w * r) (U := U1) (by positivity) u2
    (by rw [abs_of_pos (by positivity)]; exact b4) (fun k h1 h2 => by omega)
  have s1 : hhLoop T 2 2 ⟨A, S0, tmp0, 0, 0⟩ 1 = .ok ⟨U1, set S0 0 (-(2 * t * w)), set tmp0 0 0, 0, 1⟩ := by
    rw [hhLoop, hhLoop]
    simp only [bind, Except.bind, hhStep]
    rw [e1]
    simp only
    rw [e2]
    simp only [set_same]
    rw [if_pos]
    right
    have : 0 < |-(2 * t * w)| := abs_pos.mpr (by have : 0 < 2 * t * w := by positivity
                                                 linarith)
    simp only [abs_zero, add_zero]
    exact this.ne'
  have s2 : hhLoop T 2 2 ⟨A, S0, tmp0, 0, 0⟩ 2 = .ok ⟨U3, set (set S0 0 (-(2 * t * w))) 1 (-(2 * w * r)), set (set tmp0 0 0) 1 0, 0, 1⟩ := by
    rw [hhLoop, s1]
    simp only [bind, Except.bind, hhStep]
    rw [e3]
    simp only
    rw [hhRow_none T (by omega)]
    simp only
    rw [if_pos (Or.inl one_ne_zero)]
  obtain ⟨V, e4, v1⟩ : ∃ V, accR T 2 U3 (set (set tmp0 0 0) 1 0) 2 V0 = .ok V ∧ V 1 0 = 0 := by
    simp only [accR, accRStep, bind, Except.bind]
    rw [if_neg (show ¬ 1 + 1 < 2 by omega)]
    simp only
    rw [if_pos (show 0 + 1 < 2 by omega)]
    rw [if_neg (by rw [zero_add, set_same]; exact b3)]
    exact ⟨_, rfl, by simp⟩
  obtain ⟨U, e5, v2⟩ : ∃ U, accL T 2 2 (set (set S0 0 (-(2 * t * w))) 1 (-(2 * w * r))) 2 U3 = .ok U ∧ U 0 1 = 0 := by
    simp only [accL, accLStep, bind, Except.bind]
    rw [if_pos (show T.big (set (set S0 0 (-(2 * t * w))) 1 (-(2 * w * r)) 1) by rw [set_same]; exact b5),
      if_neg (show ¬ (1 + 1 < 2 ∧ _) by omega)]
    simp only
    rw [if_neg (show ¬ T.big (set (set S0 0 (-(2 * t * w))) 1 (-(2 * w * r)) 0) by rw [set_ne _ _ (by omega), set_same]; exact b2)]
    exact ⟨_, rfl, by simp⟩
  obtain ⟨N, hN⟩ : ∃ N, maxiter.toNat = N + 1 := ⟨maxiter.toNat - 1, by omega⟩
  have h0 := hT.tiny 1 (Or.inr rfl)
  obtain ⟨st1, f1, f2, f3, f4⟩ := diagK_end' T 1 (k := 1) N 1 (st := ⟨U, set (set S0 0 (-(2 * t * w))) 1 (-(2 * w * r)), V, set (set tmp0 0 0) 1 0⟩)
    (by dsimp only; rw [split, zero_add, set_same, if_pos h0])
  obtain ⟨st2, g1, g2, g3, g4⟩ := diagK_end' T 1 (k := 0) N 1 (st := st1)
    (by rw [split, if_pos (show T.tiny 1 (st1.tmp 0) by rw [f3]; dsimp only; rw [set_ne _ _ (by omega), set_same]; exact h0)])
  refine ⟨[1, 1], st2, ?_, by rw [g2, f2]; exact v2, g4 _ _ (f4 _ _ v1)⟩
  unfold run
  rw [s2]
  simp only [bind, Except.bind]
  rw [e4]
  simp only
  rw [show min 2 2 = 2 from rfl, e5]
  simp only
  rw [diagAll, hN, f1]
  simp only [bind, Except.bind]
  rw [diagAll, hN, g1]
  simp only [bind, Except.bind, diagAll]

end Svd
end KDL
