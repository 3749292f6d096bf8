import Verif.Lemmas.SvdTwo

/-! Convergence of the diagonalisation: a sweep with Wilkinson's shift reduces a product of elements by a constant factor. -/

noncomputable section

namespace KDL
namespace Svd

open Matrix Finset

/-- What the sweep with the shift `σ` keeps before a pass: `W` is the element of the Gram matrix beside the bulge, over `tmp`. -/
structure Pass (σ W f x c s : ℝ) : Prop where
  shift : x * (x * s - c * f) = σ * s
  ne : s ≠ 0
  gram : (c * c + s * s = 1 ∧ W = f * s + x * c) ∨ (c = 1 ∧ s = 1 ∧ W = x)

/-- A pass; `C`, `Z` are the right rotation. -/
theorem Pass.step {σ W f x c s e d C Z w c' s' : ℝ} (h : Pass σ W f x c s) (hCZ : C * C + Z * Z = 1) (hfe : C * (s * e) = Z * f)
    (hw : w ≠ 0) (hw2 : w * w = (x * C + c * e * Z) * (x * C + c * e * Z) + d * Z * (d * Z)) (hd : d ≠ 0) (hZ : Z ≠ 0)
    (hc' : c' = (x * C + c * e * Z) * (1 / w)) (hs' : s' = d * Z * (1 / w)) :
    Pass σ (C * d) (c' * (c * e * C - x * Z) + s' * (d * C)) (c' * (d * C) - s' * (c * e * C - x * Z)) c' s' ∧ s' * w = d * Z := by
  have e1 : c' * w = x * C + c * e * Z := by rw [hc']; field_simp
  have e2 : s' * w = d * Z := by rw [hs']; field_simp
  have e3 : c' * c' + s' * s' = 1 := by
    have : (c' * c' + s' * s' - 1) * (w * w) = 0 := by
      linear_combination (c' * w + (x * C + c * e * Z)) * e1 + (s' * w + d * Z) * e2 - hw2
    rcases mul_eq_zero.mp this with h | h
    · linarith
    · exact absurd h (mul_ne_zero hw hw)
  have e4 : (c' * (d * C) - s' * (c * e * C - x * Z)) * w = d * x := by
    linear_combination (d * C) * e1 - (c * e * C - x * Z) * e2 + d * x * hCZ
  have e5 : -(x * (c * e * C - x * Z)) = σ * Z := by
    have : (-(x * (c * e * C - x * Z)) - σ * Z) * s = 0 := by
      linear_combination (-(x * c)) * hfe + Z * h.shift
    rcases mul_eq_zero.mp this with h1 | h1
    · linarith
    · exact absurd h1 h.ne
  refine ⟨⟨?_, ?_, ?_⟩, e2⟩
  · have e6 : (c' * (d * C) - s' * (c * e * C - x * Z)) * s' - c' * (c' * (c * e * C - x * Z) + s' * (d * C)) = -(c * e * C - x * Z) := by
      linear_combination (-(c * e * C - x * Z)) * e3
    rw [e6]
    have : ((c' * (d * C) - s' * (c * e * C - x * Z)) * -(c * e * C - x * Z) - σ * s') * w = 0 := by
      linear_combination (-(c * e * C - x * Z)) * e4 + d * e5 - σ * e2
    rcases mul_eq_zero.mp this with h1 | h1
    · linarith
    · exact absurd h1 hw
  · rw [hs']; exact mul_ne_zero (mul_ne_zero hd hZ) (one_div_ne_zero hw)
  · left
    exact ⟨e3, by linear_combination (-(C * d)) * e3⟩

/-- The element that the pass leaves above the diagonal. -/
theorem Pass.out {σ W f x c s e d C Z w c' s' : ℝ} (h : Pass σ W f x c s) (hfe : C * (s * e) = Z * f)
    (e1 : c' * w = x * C + c * e * Z) (e2 : s' * w = d * Z) :
    (c' * (c * e * C - x * Z) + s' * (d * C)) * w = Z * (C * (d * d + e * e - σ) - Z * (W * e)) := by
  have : ((c' * (c * e * C - x * Z) + s' * (d * C)) * w - Z * (C * (d * d + e * e - σ) - Z * (W * e))) * s = 0 := by
    have k : (c' * (c * e * C - x * Z) + s' * (d * C)) * w = (x * C + c * e * Z) * (c * e * C - x * Z) + d * Z * (d * C) := by
      linear_combination (c * e * C - x * Z) * e1 + (d * C) * e2
    rw [k]
    rcases h.gram with ⟨g1, g2⟩ | ⟨g1, g2, g3⟩
    · rw [g2]
      linear_combination (x * c * C - Z * s * e * s) * hfe - Z * C * h.shift + (Z * C * s * e * e) * g1
    · have h1 := h.shift
      subst g1 g2 g3
      linear_combination (W * C) * hfe - Z * C * h1
  rcases mul_eq_zero.mp this with h1 | h1
  · linarith
  · exact absurd h1 h.ne

/-- A pass of the sweep. -/
theorem qr_pass (T : Tests) (hb : ∀ x, T.big x ↔ x ≠ 0) (d j : ℕ) {f x c s : ℝ} {st : Dg} (hs : s ≠ 0) (he : st.tmp (j + 1) ≠ 0) :
    ∃ z C Z w c' s' U V, C * C + Z * Z = 1 ∧ C * (s * st.tmp (j + 1)) = Z * f ∧ Z * z = s * st.tmp (j + 1) ∧ Z ≠ 0 ∧
      w * w = (x * C + c * st.tmp (j + 1) * Z) * (x * C + c * st.tmp (j + 1) * Z) + st.S (j + 1) * Z * (st.S (j + 1) * Z) ∧
      (w ≠ 0 → c' = (x * C + c * st.tmp (j + 1) * Z) * (1 / w) ∧ s' = st.S (j + 1) * Z * (1 / w)) ∧
      qr T (d + 1) j f x c s st = qr T d (j + 1) (c' * (c * st.tmp (j + 1) * C - x * Z) + s' * (st.S (j + 1) * C))
        (c' * (st.S (j + 1) * C) - s' * (c * st.tmp (j + 1) * C - x * Z)) c' s' ⟨U, set st.S j w, V, set st.tmp j z⟩ := by
  have h1 : s * st.tmp (j + 1) ≠ 0 := mul_ne_zero hs he
  have hz : pythag f (s * st.tmp (j + 1)) ≠ 0 := fun h => h1 (pythag_eq_zero.mp h).2
  have hsq := pythag_sq f (s * st.tmp (j + 1))
  rw [qr]
  dsimp only
  rw [if_neg hz]
  generalize pythag f (s * st.tmp (j + 1)) = z at hz hsq ⊢
  have hc1 : f / z * (f / z) + s * st.tmp (j + 1) / z * (s * st.tmp (j + 1) / z) = 1 := by
    field_simp; linear_combination -hsq
  have h3 : f / z * (s * st.tmp (j + 1)) = s * st.tmp (j + 1) / z * f := by ring
  have h4 : s * st.tmp (j + 1) / z * z = s * st.tmp (j + 1) := by field_simp
  have hs1 : s * st.tmp (j + 1) / z ≠ 0 := div_ne_zero h1 hz
  generalize f / z = C at hc1 h3 ⊢
  generalize s * st.tmp (j + 1) / z = Z at hc1 h3 h4 hs1 ⊢
  refine ⟨z, C, Z, pythag (x * C + c * st.tmp (j + 1) * Z) (st.S (j + 1) * Z), _, _, _, _, hc1, h3, h4, hs1, pythag_sq _ _, ?_, rfl⟩
  intro hw
  rw [if_pos ((hb _).mpr hw)]
  exact ⟨rfl, rfl⟩

/-- The factor by which two passes reduce the product. -/
theorem factor_le {C1 Z1 C2 Z2 : ℝ} (h1 : C1 * C1 + Z1 * Z1 = 1) (h2 : C2 * C2 + Z2 * Z2 = 1) :
    Z2 * Z2 * (Z1 * Z1) * (|C2| + |Z2| * |C1|) ≤ 4 / 5 := by
  have k : ∀ a : ℝ, 0 ≤ a → a * (1 - a * a) ≤ 2 / 5 := by
    intro a ha
    nlinarith [mul_nonneg ha (sq_nonneg (a - 3 / 5)), sq_nonneg (a - 3 / 5), sq_nonneg (a - 1)]
  have a1 : |C1| * |C1| = C1 * C1 := abs_mul_abs_self _
  have a2 : |C2| * |C2| = C2 * C2 := abs_mul_abs_self _
  have b2 : |Z2| * |Z2| = Z2 * Z2 := abs_mul_abs_self _
  have k1 := k |C1| (abs_nonneg _)
  have k2 := k |C2| (abs_nonneg _)
  rw [a1] at k1
  rw [a2] at k2
  have e1 : Z1 * Z1 = 1 - C1 * C1 := by linarith
  have e2 : Z2 * Z2 = 1 - C2 * C2 := by linarith
  have p1 : 0 ≤ Z1 * Z1 := mul_self_nonneg _
  have p2 : 0 ≤ Z2 * Z2 := mul_self_nonneg _
  have q1 : Z1 * Z1 ≤ 1 := by nlinarith [mul_self_nonneg C1]
  have q2 : Z2 * Z2 ≤ 1 := by nlinarith [mul_self_nonneg C2]
  have r2 : |Z2| ≤ 1 := by nlinarith [abs_nonneg Z2]
  rw [← e1] at k1
  rw [← e2] at k2
  have t1 : Z2 * Z2 * (Z1 * Z1) * |C2| ≤ 2 / 5 := by
    have : |C2| * (Z2 * Z2) * (Z1 * Z1) ≤ 2 / 5 * 1 := mul_le_mul k2 q1 p1 (by norm_num)
    linarith
  have t2 : Z2 * Z2 * (Z1 * Z1) * (|Z2| * |C1|) ≤ 2 / 5 := by
    have h3 : Z2 * Z2 * |Z2| ≤ 1 := by nlinarith [abs_nonneg Z2]
    have : |C1| * (Z1 * Z1) * (Z2 * Z2 * |Z2|) ≤ 2 / 5 * 1 := mul_le_mul k1 h3 (mul_nonneg p2 (abs_nonneg _)) (by norm_num)
    linarith
  linarith

/-- The sum of bounds for the last two passes. -/
theorem two_bound {a a' σ b b2 C1 Z1 C2 Z2 π2 π1 : ℝ} (hC1 : C1 * C1 + Z1 * Z1 = 1) (hC2 : C2 * C2 + Z2 * Z2 = 1) (hb : b ≠ 0)
    (hab : |a - σ| ≤ |b|) (haa : (a' - σ) * (a - σ) = b * b) (h2 : C2 * b = Z2 * π1) (hπ1 : π1 = C1 * (a' - σ) - Z1 * b2)
    (hπ2 : π2 = C2 * (a - σ) - Z2 * (C1 * b)) {X : ℝ} (hX : |X| * |Z2| = |Z1| * |b|) {B2 : ℝ} (hB : |b2| ≤ B2) :
    Z2 * π2 * (Z2 * π2) * |X| ≤ 4 / 5 * (b * b * B2) := by
  have e1 : |π2| ≤ |b| * (|C2| + |Z2| * |C1|) := by
    rw [hπ2]
    calc |C2 * (a - σ) - Z2 * (C1 * b)| ≤ |C2 * (a - σ)| + |Z2 * (C1 * b)| := abs_sub _ _
      _ = |C2| * |a - σ| + |Z2| * (|C1| * |b|) := by rw [abs_mul, abs_mul, abs_mul]
      _ ≤ |C2| * |b| + |Z2| * (|C1| * |b|) := by nlinarith [abs_nonneg C2]
      _ = _ := by ring
  have e2 : b * π2 = -(Z2 * (Z1 * (b2 * (a - σ)))) := by
    rw [hπ2]
    have : b * (C2 * (a - σ)) = Z2 * π1 * (a - σ) := by rw [← h2]; ring
    have h3 : b * (C2 * (a - σ) - Z2 * (C1 * b)) = Z2 * π1 * (a - σ) - Z2 * (C1 * (b * b)) := by linear_combination this
    rw [h3, hπ1, ← haa]; ring
  have hbp : 0 < |b| := abs_pos.mpr hb
  have e3 : |π2| ≤ |Z2| * |Z1| * B2 := by
    have := congrArg abs e2
    rw [abs_neg, abs_mul, abs_mul, abs_mul, abs_mul] at this
    have h4 : |b2| * |a - σ| ≤ B2 * |b| := mul_le_mul hB hab (abs_nonneg _) ((abs_nonneg _).trans hB)
    have h5 : |Z2| * (|Z1| * (|b2| * |a - σ|)) ≤ |Z2| * (|Z1| * (B2 * |b|)) :=
      mul_le_mul_of_nonneg_left (mul_le_mul_of_nonneg_left h4 (abs_nonneg _)) (abs_nonneg _)
    rw [← this] at h5
    have h6 : |b| * |π2| ≤ |b| * (|Z2| * |Z1| * B2) := by linarith
    exact le_of_mul_le_mul_left h6 hbp
  have hB0 : 0 ≤ B2 := (abs_nonneg _).trans hB
  have z2 : |Z2| * |Z2| = Z2 * Z2 := abs_mul_abs_self _
  have z1 : |Z1| * |Z1| = Z1 * Z1 := abs_mul_abs_self _
  have bb : |b| * |b| = b * b := abs_mul_abs_self _
  have pp : |π2| * |π2| = π2 * π2 := abs_mul_abs_self _
  calc Z2 * π2 * (Z2 * π2) * |X| = |Z2| * (|π2| * |π2|) * (|X| * |Z2|) := by
        rw [pp, show |Z2| * (π2 * π2) * (|X| * |Z2|) = |Z2| * |Z2| * (π2 * π2) * |X| by ring, z2]; ring
    _ = (|π2| * |π2|) * (|Z2| * (|Z1| * |b|)) := by rw [hX]; ring
    _ ≤ (|b| * (|C2| + |Z2| * |C1|) * (|Z2| * |Z1| * B2)) * (|Z2| * (|Z1| * |b|)) := by
        apply mul_le_mul_of_nonneg_right
        · exact mul_le_mul e1 e3 (abs_nonneg _) (by positivity)
        · positivity
    _ = (|Z2| * |Z2|) * (|Z1| * |Z1|) * (|C2| + |Z2| * |C1|) * ((|b| * |b|) * B2) := by ring
    _ ≤ 4 / 5 * (b * b * B2) := by
        rw [z2, z1, bb]
        exact mul_le_mul_of_nonneg_right (factor_le hC1 hC2) (mul_nonneg (mul_self_nonneg _) hB0)

theorem abs_le_one_of_sq {C Z : ℝ} (h : C * C + Z * Z = 1) : |C| ≤ 1 := by
  nlinarith [abs_mul_abs_self C, mul_self_nonneg Z, abs_nonneg C]

theorem ne_zero_of_sq {w a b : ℝ} (h : w * w = a * a + b * b) (hb : b ≠ 0) : w ≠ 0 := by
  intro h0
  rw [h0] at h
  have : 0 < b * b := mul_self_pos.mpr hb
  nlinarith [mul_self_nonneg a]

/-- A sweep over at least three columns. -/
theorem qr_conv (T : Tests) (hb : ∀ x, T.big x ↔ x ≠ 0) {k : ℕ} {σ : ℝ} : ∀ (d j : ℕ) (f x c s : ℝ) (st : Dg) (W : ℝ), d + j = k →
    Pass σ W f x c s → |W| ≤ |st.S j| → (∀ i, j < i → i ≤ k + 2 → st.tmp i ≠ 0) → (∀ i, j < i → i < k + 2 → st.S i ≠ 0) →
    |st.S (k + 2) * st.S (k + 2) + st.tmp (k + 2) * st.tmp (k + 2) - σ| ≤ |st.S (k + 1) * st.tmp (k + 2)| →
    (st.S (k + 1) * st.S (k + 1) + st.tmp (k + 1) * st.tmp (k + 1) - σ) * (st.S (k + 2) * st.S (k + 2) + st.tmp (k + 2) * st.tmp (k + 2) - σ) =
      st.S (k + 1) * st.tmp (k + 2) * (st.S (k + 1) * st.tmp (k + 2)) →
    ∀ f' x' st', qr T (d + 2) j f x c s st = .ok (f', x', st') →
      st'.S (k + 1) * f' * (st'.S (k + 1) * f') * |st'.S k * st'.tmp (k + 1)| ≤
        4 / 5 * (st.S (k + 1) * st.tmp (k + 2) * (st.S (k + 1) * st.tmp (k + 2)) * |st.S k * st.tmp (k + 1)|)
  | 0, j, f, x, c, s, st, W, hd, hP, hW, ht, hS, hab, haa, f', x', st', hq => by
    have : j = k := by omega
    subst this
    have t1 := ht (j + 1) (by omega) (by omega)
    have t2 := ht (j + 2) (by omega) (by omega)
    have d1 := hS (j + 1) (by omega) (by omega)
    obtain ⟨z, C1, Z1, w, c1, s1, U, V, p1, p2, p3, p4, p5, p6, e1⟩ := qr_pass T hb 1 j (f := f) (x := x) (c := c) hP.ne t1
    have hw : w ≠ 0 := ne_zero_of_sq p5 (mul_ne_zero d1 p4)
    obtain ⟨hc1, hs1⟩ := p6 hw
    obtain ⟨hP1, es1⟩ := hP.step p1 p2 hw p5 d1 p4 hc1 hs1
    have ec1 : c1 * w = x * C1 + c * st.tmp (j + 1) * Z1 := by rw [hc1]; field_simp
    have o1 := hP.out p2 ec1 es1
    rw [zero_add, e1] at hq
    generalize c1 * (c * st.tmp (j + 1) * C1 - x * Z1) + s1 * (st.S (j + 1) * C1) = f1 at hP1 o1 hq
    generalize c1 * (st.S (j + 1) * C1) - s1 * (c * st.tmp (j + 1) * C1 - x * Z1) = x1 at hP1 hq
    obtain ⟨z', C2, Z2, w2, c2, s2, U', V', q1, q2, q3, q4, q5, q6, e2⟩ := qr_pass T hb 0 (j + 1) (f := f1) (x := x1) (c := c1) (s := s1)
      (st := ⟨U, set st.S j w, V, set st.tmp j z⟩) hP1.ne (by dsimp only; rw [set_ne _ _ (by omega)]; exact t2)
    dsimp only at e2 q2 q3 q5 q6
    rw [set_ne _ _ (show j + 1 + 1 ≠ j by omega), set_ne _ _ (show j + 1 + 1 ≠ j by omega)] at e2
    rw [set_ne _ _ (show j + 1 + 1 ≠ j by omega)] at q2 q3
    rw [set_ne _ _ (show j + 1 + 1 ≠ j by omega), set_ne _ _ (show j + 1 + 1 ≠ j by omega)] at q5 q6
    rw [e2] at hq
    simp only [qr] at hq
    obtain ⟨hf, hq'⟩ := Prod.mk.inj (Except.ok.inj hq)
    obtain ⟨-, hst⟩ := Prod.mk.inj hq'
    have g1 : st'.S (j + 1) = w2 := by rw [← hst]; dsimp only; rw [set_same]
    have g2 : st'.S j = w := by rw [← hst]; dsimp only; rw [set_ne _ _ (by omega), set_same]
    have g3 : st'.tmp (j + 1) = z' := by rw [← hst]; dsimp only; rw [set_same]
    rw [g1, g2, g3]
    by_cases hw2 : w2 = 0
    · rw [hw2]; simp only [zero_mul]; exact mul_nonneg (by norm_num) (mul_nonneg (mul_self_nonneg _) (abs_nonneg _))
    obtain ⟨hc2, hs2⟩ := q6 hw2
    have ec2 : c2 * w2 = x1 * C2 + c1 * st.tmp (j + 1 + 1) * Z2 := by rw [hc2]; field_simp
    have es2 : s2 * w2 = st.S (j + 1 + 1) * Z2 := by rw [hs2]; field_simp
    have o2 := hP1.out q2 ec2 es2
    rw [hf] at o2
    have hbn : st.S (j + 1) * st.tmp (j + 2) ≠ 0 := mul_ne_zero d1 t2
    have key := two_bound (a := st.S (j + 2) * st.S (j + 2) + st.tmp (j + 2) * st.tmp (j + 2))
      (a' := st.S (j + 1) * st.S (j + 1) + st.tmp (j + 1) * st.tmp (j + 1)) (σ := σ) (b := st.S (j + 1) * st.tmp (j + 2)) (b2 := W * st.tmp (j + 1))
      p1 q1 hbn hab haa (π1 := C1 * (st.S (j + 1) * st.S (j + 1) + st.tmp (j + 1) * st.tmp (j + 1) - σ) - Z1 * (W * st.tmp (j + 1)))
      ?_ rfl rfl (X := w * z') ?_ (B2 := |st.S j * st.tmp (j + 1)|) ?_
    · have hl : w2 * f' = Z2 * (C2 * (st.S (j + 2) * st.S (j + 2) + st.tmp (j + 2) * st.tmp (j + 2) - σ) -
          Z2 * (C1 * (st.S (j + 1) * st.tmp (j + 2)))) := by
        rw [mul_comm, o2]; ring
      rw [hl]
      exact key
    · have h1 : Z1 * (C2 * (st.S (j + 1) * st.tmp (j + 2)) - Z2 * (C1 * (st.S (j + 1) * st.S (j + 1) + st.tmp (j + 1) * st.tmp (j + 1) - σ) -
          Z1 * (W * st.tmp (j + 1)))) = 0 := by
        linear_combination w * q2 + Z2 * o1 - C2 * st.tmp (j + 2) * es1
      rcases mul_eq_zero.mp h1 with h | h
      · exact absurd h p4
      · linarith
    · rw [← abs_mul, ← abs_mul]
      congr 1
      linear_combination w * q3 + st.tmp (j + 2) * es1
    · rw [abs_mul, abs_mul]
      exact mul_le_mul_of_nonneg_right hW (abs_nonneg _)
  | d + 1, j, f, x, c, s, st, W, hd, hP, hW, ht, hS, hab, haa, f', x', st', hq => by
    have t1 := ht (j + 1) (by omega) (by omega)
    have d1 := hS (j + 1) (by omega) (by omega)
    obtain ⟨z, C1, Z1, w, c1, s1, U, V, p1, p2, p3, p4, p5, p6, e1⟩ := qr_pass T hb (d + 2) j (f := f) (x := x) (c := c) hP.ne t1
    have hw : w ≠ 0 := ne_zero_of_sq p5 (mul_ne_zero d1 p4)
    obtain ⟨hc1, hs1⟩ := p6 hw
    obtain ⟨hP1, es1⟩ := hP.step p1 p2 hw p5 d1 p4 hc1 hs1
    rw [show d + 1 + 2 = d + 2 + 1 by ring, e1] at hq
    have hset : ∀ (g : ℕ → ℝ) (v : ℝ) i, j < i → set g j v i = g i := fun g v i hi => set_ne _ _ (by omega)
    have := qr_conv T hb (k := k) (σ := σ) d (j + 1) _ _ c1 s1 ⟨U, set st.S j w, V, set st.tmp j z⟩ (C1 * st.S (j + 1)) (by omega) hP1
      (by dsimp only; rw [hset _ _ (j + 1) (by omega), abs_mul]; nlinarith [abs_le_one_of_sq p1, abs_nonneg (st.S (j + 1))])
      (by intro i h1 h2; dsimp only; rw [hset _ _ i (by omega)]; exact ht i (by omega) h2)
      (by intro i h1 h2; dsimp only; rw [hset _ _ i (by omega)]; exact hS i (by omega) h2)
      (by dsimp only; rw [hset _ _ (k + 2) (by omega), hset _ _ (k + 2) (by omega), hset _ _ (k + 1) (by omega)]; exact hab)
      (by
        dsimp only
        rw [hset _ _ (k + 1) (by omega), hset _ _ (k + 1) (by omega), hset _ _ (k + 2) (by omega), hset _ _ (k + 2) (by omega)]
        exact haa) f' x' st' hq
    dsimp only at this
    rwa [hset _ _ (k + 1) (by omega), hset _ _ (k + 1) (by omega), hset _ _ (k + 2) (by omega), hset _ _ k (by omega)] at this

/-- The shift is the eigenvalue of the last two rows and columns of the Gram matrix that is closer to its last element. -/
theorem wilkinson {x y z g h : ℝ} (hx : x ≠ 0) (hy : y ≠ 0) (hh : h ≠ 0) :
    let f := ((y - z) * (y + z) + (g - h) * (g + h)) / (2 * h * y)
    let D := f + SIGN (pythag f 1) f
    let F := ((x - z) * (x + z) + h * (y / D - h)) / x
    ∃ σ, Pass σ x F x 1 1 ∧ |z * z + h * h - σ| ≤ |y * h| ∧ (y * y + g * g - σ) * (z * z + h * h - σ) = y * h * (y * h) := by
  intro f D F
  have hp : pythag f 1 ≠ 0 := fun h => one_ne_zero (pythag_eq_zero.mp h).2
  have hD : D ≠ 0 := add_SIGN_ne hp
  have hs : SIGN (pythag f 1) f * SIGN (pythag f 1) f = f * f + 1 := by
    rw [SIGN_sq, pythag_sq]; ring
  have hd2 : (D - f) * (D - f) = f * f + 1 := by
    rw [show D - f = SIGN (pythag f 1) f by simp only [D]; ring]; exact hs
  have hf : y * y - z * z + g * g - h * h = 2 * h * y * f := by
    simp only [f]; field_simp; ring
  have hD1 : 1 ≤ |D| := by
    have h1 : 0 ≤ f * SIGN (pythag f 1) f := by
      unfold SIGN
      split_ifs with h
      · exact mul_nonneg h (abs_nonneg _)
      · have : f ≤ 0 := by linarith
        nlinarith [abs_nonneg (pythag f 1)]
    have h2 : 1 ≤ D * D := by
      have : D * D = f * f + 2 * (f * SIGN (pythag f 1) f) + SIGN (pythag f 1) f * SIGN (pythag f 1) f := by simp only [D]; ring
      rw [this, hs]
      nlinarith [mul_self_nonneg f]
    nlinarith [abs_mul_abs_self D, abs_nonneg D]
  refine ⟨z * z + h * h - h * (y / D), ⟨?_, one_ne_zero, Or.inr ⟨rfl, rfl, rfl⟩⟩, ?_, ?_⟩
  · simp only [F]; field_simp; ring
  · rw [show z * z + h * h - (z * z + h * h - h * (y / D)) = y * h / D by ring, abs_div]
    exact div_le_self (abs_nonneg _) hD1
  · have e : y * y + g * g - (z * z + h * h - h * (y / D)) = y * h * D := by
      have : y * y + g * g - (z * z + h * h - h * (y / D)) = 2 * h * y * f + h * (y / D) := by linarith
      rw [this]; field_simp
      linear_combination -hd2
    rw [e]; field_simp; ring

/-- Cancellation keeps the elements of the Gram matrix beside the diagonal. -/
theorem cancel_prod (T : Tests) (a : ℝ) (nm : ℕ) : ∀ (d i : ℕ) (c s : ℝ) (st st' : Dg), cancel T a nm d i c s st = .ok st' →
    (∀ q, q < i → st'.S q = st.S q ∧ st'.tmp q = st.tmp q) ∧ (0 < d → st'.tmp i = c * st.tmp i) ∧
    ∀ q, i ≤ q → q + 1 < i + d → st'.S q * st'.tmp (q + 1) = st.S q * st.tmp (q + 1)
  | 0, i, c, s, st, st', h => by
    rw [cancel] at h
    obtain rfl := Except.ok.inj h
    exact ⟨fun _ _ => ⟨rfl, rfl⟩, fun h => absurd h (by omega), fun q h1 h2 => by omega⟩
  | d + 1, i, c, s, st, st', h => by
    rw [cancel] at h
    dsimp only at h
    by_cases h1 : T.tiny a (s * st.tmp i)
    · rw [if_pos h1] at h
      obtain rfl := Except.ok.inj h
      refine ⟨fun q hq => ⟨rfl, set_ne _ _ (by omega)⟩, fun _ => set_same _ _ _, ?_⟩
      intro q h1 h2
      dsimp only
      rw [set_ne _ _ (by omega)]
    · rw [if_neg h1] at h
      by_cases h2 : pythag (s * st.tmp i) (st.S i) = 0
      · rw [if_pos h2] at h; cases h
      · rw [if_neg h2] at h
        obtain ⟨r1, r2, r3⟩ := cancel_prod T a nm d (i + 1) _ _ _ st' h
        dsimp only at r1 r2 r3
        refine ⟨?_, ?_, ?_⟩
        · intro q hq; rw [(r1 q (by omega)).1, (r1 q (by omega)).2, set_ne _ _ (by omega), set_ne _ _ (by omega)]; exact ⟨rfl, rfl⟩
        · intro _; rw [(r1 i (by omega)).2, set_same]
        · intro q q1 q2
          by_cases hq : q = i
          · subst hq
            rw [(r1 q (by omega)).1, set_same, r2 (by omega), set_ne _ _ (by omega)]
            field_simp
          · rw [r3 q (by omega) (by omega), set_ne _ _ hq, set_ne _ _ (by omega)]

/-- The sweep of a block of two columns whose shift is exact. -/
theorem qr_two (T : Tests) (hb : ∀ x, T.big x ↔ x ≠ 0) {p : ℕ} {σ f : ℝ} {st : Dg} (hP : Pass σ (st.S p) f (st.S p) 1 1) (hx : st.S p ≠ 0)
    (he : st.tmp (p + 1) ≠ 0)
    (haa : (st.S p * st.S p - σ) * (st.S (p + 1) * st.S (p + 1) + st.tmp (p + 1) * st.tmp (p + 1) - σ) =
      st.S p * st.tmp (p + 1) * (st.S p * st.tmp (p + 1))) {f' x' : ℝ} {st' : Dg} (hq : qr T 1 p f (st.S p) 1 1 st = .ok (f', x', st')) :
    st'.S p * f' = 0 := by
  obtain ⟨z, C, Z, w, c1, s1, U, V, p1, p2, p3, p4, p5, p6, e1⟩ := qr_pass T hb 0 p (f := f) (x := st.S p) (c := 1) hP.ne he
  rw [e1] at hq
  simp only [qr] at hq
  obtain ⟨hf, hq'⟩ := Prod.mk.inj (Except.ok.inj hq)
  obtain ⟨-, hst⟩ := Prod.mk.inj hq'
  have g1 : st'.S p = w := by rw [← hst]; dsimp only; rw [set_same]
  rw [g1]
  by_cases hw : w = 0
  · rw [hw, zero_mul]
  obtain ⟨hc1, hs1⟩ := p6 hw
  have ec1 : c1 * w = st.S p * C + 1 * st.tmp (p + 1) * Z := by rw [hc1]; field_simp
  have es1 : s1 * w = st.S (p + 1) * Z := by rw [hs1]; field_simp
  have o := hP.out p2 ec1 es1
  rw [hf] at o
  have h1 := hP.shift
  have : (w * f') * (st.S p * st.tmp (p + 1)) = 0 := by
    linear_combination (st.S p * st.tmp (p + 1)) * o + Z * Z * haa +
      Z * (st.S (p + 1) * st.S (p + 1) + st.tmp (p + 1) * st.tmp (p + 1) - σ) * (st.S p * p2 - Z * h1)
  rcases mul_eq_zero.mp this with h | h
  · exact h
  · exact absurd h (mul_ne_zero hx he)

/-- The shift that the routine computes. -/
def shiftF (st : Dg) (p k : ℕ) : ℝ :=
  let x := st.S p
  let z := st.S k
  let y := st.S (k - 1)
  let g := st.tmp (k - 1)
  let h := st.tmp k
  let f := ((y - z) * (y + z) + (g - h) * (g + h)) / (2 * h * y)
  ((x - z) * (x + z) + h * (y / (f + SIGN (pythag f 1) f) - h)) / x

/-- An iteration that is not the last one. -/
theorem diagK_sweep (T : Tests) (hb : ∀ x, T.big x ↔ x ≠ 0) (a : ℝ) (h0 : T.tiny a 0) (h0' : T.tinyS a 0) {k : ℕ} (N : ℕ) (its : Int) (st : Dg)
    (ht0 : st.tmp 0 = 0) {p : ℕ} {nm : Option ℕ} (hsp : split T a st.S st.tmp k = some (p, nm)) (hp : p < k) :
    ∃ st1 f' x' st2, cancelIf T a k p nm st = .ok st1 ∧ (∀ i, p < i → i ≤ k → st1.tmp i ≠ 0) ∧ (∀ i, p ≤ i → i < k → st1.S i ≠ 0) ∧
      qr T (k - p) p (shiftF st1 p k) (st1.S p) 1 1 st1 = .ok (f', x', st2) ∧
      set (set st2.tmp p 0) k f' 0 = 0 ∧
      diagK T a k (N + 1) its st = diagK T a k N (its + 1) { st2 with tmp := set (set st2.tmp p 0) k f', S := set st2.S k x' } := by
  obtain ⟨p', nm', st1, e1, e2, hp', c1, c2, c3, c4, c5, c6, c7⟩ := front_spec (m := 0) (n := k + 1) T a h0 h0' (A := 0) (k := k) (by omega) 0 0 0 st ht0
  rw [hsp] at e1
  obtain ⟨rfl, rfl⟩ := Prod.mk.inj (Option.some.inj e1)
  have hxk : st1.tmp k ≠ 0 := c4 k hp le_rfl
  have hy : st1.S (k - 1) ≠ 0 := c5 _ (by omega) (by omega)
  obtain ⟨f', x', c', s', st2, q1, q2, q3, q4, q5⟩ := qr_spec (m := 0) (n := k + 1) T (fun x => (hb x).mp) (A := 0) (p := p) (k := k) (by omega) 0
    (k - p) p (shiftF st1 p k) (st1.S p) 1 1 st1 (by omega) le_rfl (fun _ => one_ne_zero) c4 (fun i d1 d2 => c5 i (by omega) d2)
  refine ⟨st1, f', x', st2, e2, c4, c5, q1, ?_, ?_⟩
  · rw [set_ne _ _ (by omega)]
    by_cases d1 : p = 0
    · rw [d1, set_same]
    · rw [set_ne _ _ (by omega), (q2 0 (by omega)).1, c2]
  · rw [diagK, hsp]
    dsimp only
    rw [e2]
    simp only [bind, Except.bind]
    rw [if_neg (show ¬ p = k by omega), if_neg (by tauto), if_neg (c5 p le_rfl hp),
      if_neg (add_SIGN_ne fun h => one_ne_zero (pythag_eq_zero.mp h).2)]
    unfold shiftF at q1
    dsimp only at q1
    rw [q1]

/-- A block of two columns beside an element that is zero takes one sweep. -/
theorem conv_exact (T : Tests) (hb : ∀ x, T.big x ↔ x ≠ 0) (a : ℝ) (h0 : T.tiny a 0) (h0' : T.tinyS a 0) {p : ℕ} (N : ℕ) (its : Int) (st : Dg)
    (ht0 : st.tmp 0 = 0) (htp : st.tmp p = 0) : ∃ its' st', diagK T a (p + 1) (N + 2) its st = .ok (its', st') ∧ its' ≤ its + 1 := by
  by_cases hl : T.tiny a (st.tmp (p + 1)) ∨ T.tinyS a (st.S p)
  · obtain ⟨st', h⟩ := diagK_last T a h0 h0' (k := p + 1) (N + 1) its st ht0 (hl.imp id fun h => ⟨p, rfl, h⟩)
    exact ⟨its, st', h, by omega⟩
  · push Not at hl
    have hsp : split T a st.S st.tmp (p + 1) = some (p, none) := by
      rw [split, if_neg hl.1, if_neg hl.2]
      rcases p with _ | p
      · rw [split, if_pos (by rw [htp]; exact h0)]
      · rw [split, if_pos (by rw [htp]; exact h0)]
    obtain ⟨st1, f', x', st2, e1, c4, c5, q1, t0, e2⟩ := diagK_sweep T hb a h0 h0' (N + 1) its st ht0 hsp (by omega)
    obtain rfl : st = st1 := Except.ok.inj e1
    have hx := c5 p le_rfl (by omega)
    have hh := c4 (p + 1) (by omega) le_rfl
    obtain ⟨σ, hP, -, haa⟩ := wilkinson (x := st.S p) (y := st.S p) (z := st.S (p + 1)) (g := st.tmp p) (h := st.tmp (p + 1)) hx hx hh
    rw [Nat.add_sub_cancel_left] at q1
    rw [htp, mul_zero, add_zero] at haa
    have hz := qr_two T hb (f := shiftF st p (p + 1)) hP hx hh haa q1
    rw [e2]
    obtain ⟨st', h⟩ := diagK_last T a h0 h0' (k := p + 1) N (its + 1)
      { st2 with tmp := set (set st2.tmp p 0) (p + 1) f', S := set st2.S (p + 1) x' } t0
      (by
        rcases mul_eq_zero.mp hz with h | h
        · right; refine ⟨p, rfl, ?_⟩
          dsimp only
          rw [set_ne _ _ (by omega), h]; exact h0'
        · left; dsimp only; rw [set_same, h]; exact h0)
    exact ⟨_, st', h, le_rfl⟩

/-- A block of two columns takes two. -/
theorem conv_two (T : Tests) (hb : ∀ x, T.big x ↔ x ≠ 0) (a : ℝ) (h0 : T.tiny a 0) (h0' : T.tinyS a 0) {p : ℕ} (N : ℕ) (its : Int) (st : Dg)
    (ht0 : st.tmp 0 = 0) (hp : T.tiny a (st.tmp p) ∨ ∃ q, p = q + 1 ∧ T.tinyS a (st.S q)) :
    ∃ its' st', diagK T a (p + 1) (N + 3) its st = .ok (its', st') ∧ its' ≤ its + 2 := by
  by_cases hl : T.tiny a (st.tmp (p + 1)) ∨ T.tinyS a (st.S p)
  · obtain ⟨st', h⟩ := diagK_last T a h0 h0' (k := p + 1) (N + 2) its st ht0 (hl.imp id fun h => ⟨p, rfl, h⟩)
    exact ⟨its, st', h, by omega⟩
  · push Not at hl
    obtain ⟨nm, hsp⟩ : ∃ nm, split T a st.S st.tmp (p + 1) = some (p, nm) := by
      rw [split, if_neg hl.1, if_neg hl.2]
      rcases p with _ | p
      · rw [split, if_pos (by rw [ht0]; exact h0)]; exact ⟨_, rfl⟩
      · rw [split]
        split_ifs with h1 h2
        · exact ⟨_, rfl⟩
        · exact ⟨_, rfl⟩
        · rcases hp with hp | ⟨q, hq, hp⟩
          · exact absurd hp h1
          · obtain rfl : p = q := by omega
            exact absurd hp h2
    obtain ⟨st1, f', x', st2, e1, c4, c5, q1, t0, e2⟩ := diagK_sweep T hb a h0 h0' (N + 2) its st ht0 hsp (by omega)
    rw [e2]
    obtain ⟨its', st', h, h'⟩ := conv_exact T hb a h0 h0' (p := p) N (its + 1)
      { st2 with tmp := set (set st2.tmp p 0) (p + 1) f', S := set st2.S (p + 1) x' } t0
      (by dsimp only; rw [set_ne _ _ (by omega), set_same])
    exact ⟨its', st', h, by omega⟩

/-- The product that decreases. -/
def Phi (k : ℕ) (st : Dg) : ℝ := st.S (k + 1) * st.tmp (k + 2) * (st.S (k + 1) * st.tmp (k + 2)) * |st.S k * st.tmp (k + 1)|

/-- Convergence, if the tests hold of all numbers up to `δ`. -/
theorem conv_main (T : Tests) (hb : ∀ x, T.big x ↔ x ≠ 0) (a : ℝ) {δ : ℝ} (hδ : 0 ≤ δ) (h1 : ∀ x, |x| ≤ δ → T.tiny a x)
    (h2 : ∀ x, |x| ≤ δ → T.tinyS a x) (k : ℕ) : ∀ (n N : ℕ) (its : Int) (st : Dg), st.tmp 0 = 0 → Phi k st * (4 / 5) ^ n ≤ δ ^ 6 → n + 3 ≤ N →
    ∃ its' st', diagK T a (k + 2) N its st = .ok (its', st') ∧ its' ≤ its + n + 2 := by
  intro n
  have h0 : T.tiny a 0 := h1 0 (by simpa using hδ)
  have h0' : T.tinyS a 0 := h2 0 (by simpa using hδ)
  induction n with
  | zero =>
    intro N its st ht0 hΦ hN
    obtain ⟨N, rfl⟩ : ∃ N', N = N' + 3 := ⟨N - 3, by omega⟩
    rw [pow_zero, mul_one] at hΦ
    by_cases e1 : T.tiny a (st.tmp (k + 2)) ∨ T.tinyS a (st.S (k + 1))
    · obtain ⟨st', h⟩ := diagK_last T a h0 h0' (k := k + 2) (N + 2) its st ht0 (e1.imp id fun h => ⟨k + 1, rfl, h⟩)
      exact ⟨its, st', h, by omega⟩
    · by_cases e2 : T.tiny a (st.tmp (k + 1)) ∨ T.tinyS a (st.S k)
      · obtain ⟨its', st', h, h'⟩ := conv_two T hb a h0 h0' (p := k + 1) N its st ht0 (e2.imp id fun h => ⟨k, rfl, h⟩)
        exact ⟨its', st', h, by push_cast; omega⟩
      · exfalso
        push Not at e1 e2
        have a1 : δ < |st.tmp (k + 2)| := by by_contra h; exact e1.1 (h1 _ (not_lt.mp h))
        have a2 : δ < |st.S (k + 1)| := by by_contra h; exact e1.2 (h2 _ (not_lt.mp h))
        have a3 : δ < |st.tmp (k + 1)| := by by_contra h; exact e2.1 (h1 _ (not_lt.mp h))
        have a4 : δ < |st.S k| := by by_contra h; exact e2.2 (h2 _ (not_lt.mp h))
        have : Phi k st = |st.S (k + 1)| * |st.tmp (k + 2)| * (|st.S (k + 1)| * |st.tmp (k + 2)|) * (|st.S k| * |st.tmp (k + 1)|) := by
          rw [Phi, ← abs_mul (st.S (k + 1)) (st.tmp (k + 2)), ← abs_mul (st.S k) (st.tmp (k + 1)), abs_mul_abs_self]
        rw [this] at hΦ
        have b1 : δ * δ < |st.S (k + 1)| * |st.tmp (k + 2)| := mul_lt_mul'' a2 a1 hδ hδ
        have b2 : δ * δ < |st.S k| * |st.tmp (k + 1)| := mul_lt_mul'' a4 a3 hδ hδ
        have hd : 0 ≤ δ * δ := mul_nonneg hδ hδ
        have b3 := mul_lt_mul'' (mul_lt_mul'' b1 b1 hd hd) b2 (mul_nonneg hd hd) hd
        have : δ * δ * (δ * δ) * (δ * δ) = δ ^ 6 := by ring
        linarith
  | succ n ih =>
    intro N its st ht0 hΦ hN
    obtain ⟨N, rfl⟩ : ∃ N', N = N' + 3 := ⟨N - 3, by omega⟩
    by_cases e1 : T.tiny a (st.tmp (k + 2)) ∨ T.tinyS a (st.S (k + 1))
    · obtain ⟨st', h⟩ := diagK_last T a h0 h0' (k := k + 2) (N + 2) its st ht0 (e1.imp id fun h => ⟨k + 1, rfl, h⟩)
      exact ⟨its, st', h, by omega⟩
    by_cases e2 : T.tiny a (st.tmp (k + 1)) ∨ T.tinyS a (st.S k)
    · obtain ⟨its', st', h, h'⟩ := conv_two T hb a h0 h0' (p := k + 1) N its st ht0 (e2.imp id fun h => ⟨k, rfl, h⟩)
      exact ⟨its', st', h, by push_cast; omega⟩
    push Not at e1 e2
    obtain ⟨p, nm, hsp, hp, r1, r2, r3⟩ := split_spec T a (S := st.S) (tmp := st.tmp) (by rw [ht0]; exact h0) (k + 2)
    have hpk : p ≤ k := by
      have hsp' := hsp
      rw [split, if_neg e1.1, if_neg e1.2, split, if_neg e2.1, if_neg e2.2] at hsp'
      obtain ⟨p', nm', e3, h3, _⟩ := split_spec T a (S := st.S) (tmp := st.tmp) (by rw [ht0]; exact h0) k
      rw [e3] at hsp'
      obtain ⟨rfl, rfl⟩ := Prod.mk.inj (Option.some.inj hsp')
      exact h3
    obtain ⟨st1, f', x', st2, c1, c4, c5, q1, t0, e3⟩ := diagK_sweep T hb a h0 h0' (N + 2) its st ht0 hsp (by omega)
    have hΦ1 : Phi k st1 = Phi k st := by
      rcases r3 with ⟨rfl, -⟩ | ⟨q, rfl, rfl, -⟩
      · obtain rfl : st = st1 := Except.ok.inj c1
        rfl
      · obtain ⟨-, -, h3⟩ := cancel_prod T a q _ _ _ _ _ _ c1
        unfold Phi
        rw [h3 (k + 1) (by omega) (by omega), h3 k (by omega) (by omega)]
    have hx := c5 p le_rfl (by omega)
    have hy := c5 (k + 1) (by omega) (by omega)
    have hh := c4 (k + 2) (by omega) le_rfl
    obtain ⟨σ, hP, hab, haa⟩ := wilkinson (x := st1.S p) (y := st1.S (k + 1)) (z := st1.S (k + 2)) (g := st1.tmp (k + 1)) (h := st1.tmp (k + 2))
      hx hy hh
    rw [show k + 2 - p = k - p + 2 by omega] at q1
    have hdec := qr_conv T hb (k - p) p (shiftF st1 p (k + 2)) (st1.S p) 1 1 st1 (st1.S p) (by omega) hP le_rfl c4 (fun i a b => c5 i (by omega) b)
      hab haa f' x' st2 q1
    rw [e3]
    obtain ⟨its', st', h, h'⟩ := ih (N + 2) (its + 1) { st2 with tmp := set (set st2.tmp p 0) (k + 2) f', S := set st2.S (k + 2) x' } t0
      (by
        have : Phi k { st2 with tmp := set (set st2.tmp p 0) (k + 2) f', S := set st2.S (k + 2) x' } =
            st2.S (k + 1) * f' * (st2.S (k + 1) * f') * |st2.S k * st2.tmp (k + 1)| := by
          unfold Phi
          dsimp only
          rw [set_ne _ _ (show k + 1 ≠ k + 2 by omega), set_same, set_ne _ _ (show k ≠ k + 2 by omega),
            set_ne _ _ (show k + 1 ≠ k + 2 by omega), set_ne _ _ (show k + 1 ≠ p by omega)]
        rw [this]
        have hle : st2.S (k + 1) * f' * (st2.S (k + 1) * f') * |st2.S k * st2.tmp (k + 1)| ≤ 4 / 5 * Phi k st := by rw [← hΦ1]; exact hdec
        calc _ ≤ 4 / 5 * Phi k st * (4 / 5) ^ n := mul_le_mul_of_nonneg_right hle (by positivity)
          _ = Phi k st * (4 / 5) ^ (n + 1) := by ring
          _ ≤ _ := hΦ) (by omega)
    exact ⟨its', st', h, by push_cast; omega⟩

theorem diagK_zero (T : Tests) (a : ℝ) (h0 : T.tiny a 0) {k : ℕ} (N : ℕ) (its : Int) (st : Dg) (hS : st.S k = 0) (ht : st.tmp k = 0) :
    diagK T a k (N + 1) its st = .ok (its, st) := by
  have hsp : split T a st.S st.tmp k = some (k, none) := by
    rcases k with _ | k <;> rw [split, if_pos (by rw [ht]; exact h0)]
  rw [diagK, hsp]
  simp only [bind, Except.bind, cancelIf]
  rw [if_pos trivial, hS, if_neg (lt_irrefl _)]

theorem diagAll_zero (T : Tests) (a : ℝ) (h0 : T.tiny a 0) (maxiter : Int) (hm : 1 ≤ maxiter) : ∀ (t : ℕ) (l : List Int) (st : Dg),
    (∀ i < t, st.S i = 0 ∧ st.tmp i = 0) → ∃ l2, diagAll T a maxiter t l st = .ok (l2 ++ l, st) ∧ ∀ x ∈ l2, x = 1
  | 0, l, st, _ => ⟨[], rfl, by simp⟩
  | t + 1, l, st, h => by
    obtain ⟨N, hN⟩ : ∃ N, maxiter.toNat = N + 1 := ⟨maxiter.toNat - 1, by omega⟩
    obtain ⟨h1, h2⟩ := h t (by omega)
    rw [diagAll, hN, diagK_zero T a h0 N 1 st h1 h2]
    simp only [bind, Except.bind]
    obtain ⟨l2, e, h3⟩ := diagAll_zero T a h0 maxiter hm t (1 :: l) st (fun i hi => h i (by omega))
    refine ⟨l2 ++ [1], by rw [e, List.append_assoc]; rfl, ?_⟩
    intro x hx
    rcases List.mem_append.mp hx with h | h
    · exact h3 x h
    · exact List.mem_singleton.mp h

theorem Phi_le {k : ℕ} {st : Dg} {B : ℝ} (h1 : |st.S (k + 1)| ≤ B) (h2 : |st.tmp (k + 2)| ≤ B) (h3 : |st.S k| ≤ B) (h4 : |st.tmp (k + 1)| ≤ B) :
    Phi k st ≤ B ^ 6 := by
  have : Phi k st = |st.S (k + 1)| * |st.tmp (k + 2)| * (|st.S (k + 1)| * |st.tmp (k + 2)|) * (|st.S k| * |st.tmp (k + 1)|) := by
    rw [Phi, ← abs_mul (st.S (k + 1)) (st.tmp (k + 2)), ← abs_mul (st.S k) (st.tmp (k + 1)), abs_mul_abs_self]
  rw [this, show B ^ 6 = B * B * (B * B) * (B * B) by ring]
  have hB : 0 ≤ B := (abs_nonneg _).trans h1
  gcongr

/-- The iterations do not run out. -/
theorem diagAll_conv {m n : ℕ} (T : Tests) (hb : ∀ x, T.big x ↔ x ≠ 0) (a : ℝ) {δ δ' E : ℝ} (hδ : 0 ≤ δ) (h1 : ∀ x, |x| ≤ δ → T.tiny a x)
    (h2 : ∀ x, |x| ≤ δ → T.tinyS a x) {A : Matrix (Fin m) (Fin n) ℝ} (hd : ∀ x, T.tiny a x → |x| ≤ δ')
    (hdS : ∀ x, |x| ≤ fro A + E → T.tinyS a x → |x| ≤ δ') (maxiter : Int) (q : ℕ) (hq : (q : Int) + 3 ≤ maxiter)
    (hB : (fro A + E) ^ 6 * (4 / 5) ^ q ≤ δ ^ 6) : ∀ (t : ℕ) (l : List Int) (st : Dg) (ε : ℝ), t ≤ n → st.tmp 0 = 0 →
    ε + 3 * δ' * maxiter.toNat * t ≤ E → Near A (M m n st.U) (M n n st.V) (M n n (Bk t st.S st.tmp)) ε →
    ∃ l2 st', diagAll T a maxiter t l st = .ok (l2 ++ l, st') ∧ ∀ x ∈ l2, x ≤ maxiter
  | 0, l, st, ε, _, _, _, _ => ⟨[], st, rfl, by simp⟩
  | t + 1, l, st, ε, ht, ht0, hE, hN => by
    have h0 : T.tiny a 0 := h1 0 (by simpa using hδ)
    have h0' : T.tinyS a 0 := h2 0 (by simpa using hδ)
    have hδ' : 0 ≤ δ' := (abs_nonneg _).trans (hd _ h0)
    have hm : 0 ≤ δ' * maxiter.toNat * t := by positivity
    have hm' : 0 ≤ δ' * maxiter.toNat := by positivity
    push_cast at hE
    obtain ⟨its, st1, e1, c1, c2, c3, c3', c4, c5, c6, c7⟩ :=
      diagK_spec T a h0 h0' (fun x => (hb x).mp) (A := A) (by omega : t < n) δ' E maxiter.toNat 1 st ε ht0
    have hits : its ≤ maxiter := by
      rcases t with _ | _ | k
      · rw [c3' rfl]; omega
      · obtain ⟨N, hN⟩ : ∃ N, maxiter.toNat = N + 3 := ⟨maxiter.toNat - 3, by omega⟩
        obtain ⟨its', st', e, h⟩ := conv_two T hb a h0 h0' (p := 0) N 1 st ht0 (Or.inl (by rw [ht0]; exact h0))
        rw [hN, e] at e1
        obtain ⟨rfl, rfl⟩ := Prod.mk.inj (Except.ok.inj e1)
        omega
      · have hent := fun i j => (hN.entry i j).trans (show fro A + ε ≤ fro A + E by push_cast at hE; nlinarith)
        have s0 : |st.S k| ≤ fro A + E := by
          simpa [M, Bk] using hent ⟨k, by omega⟩ ⟨k, by omega⟩
        have s1 : |st.S (k + 1)| ≤ fro A + E := by
          simpa [M, Bk] using hent ⟨k + 1, by omega⟩ ⟨k + 1, by omega⟩
        have t1 : |st.tmp (k + 1)| ≤ fro A + E := by
          simpa [M, Bk] using hent ⟨k, by omega⟩ ⟨k + 1, by omega⟩
        have t2 : |st.tmp (k + 2)| ≤ fro A + E := by
          simpa [M, Bk] using hent ⟨k + 1, by omega⟩ ⟨k + 2, by omega⟩
        obtain ⟨its', st', e, h⟩ := conv_main T hb a hδ h1 h2 k q maxiter.toNat 1 st ht0
          ((mul_le_mul_of_nonneg_right (Phi_le s1 t2 s0 t1) (by positivity)).trans hB) (by omega)
        rw [e] at e1
        obtain ⟨rfl, rfl⟩ := Prod.mk.inj (Except.ok.inj e1)
        omega
    have hN1 := c7 (fun x hx => by by_contra h; exact hx ((hb x).mpr h)) hd hdS (by nlinarith) hN (by omega)
    rw [diagAll, e1]
    simp only [bind, Except.bind]
    obtain ⟨l2, st2, e2, d1⟩ := diagAll_conv T hb a hδ h1 h2 hd hdS maxiter q hq hB t (its :: l) st1 (ε + 3 * δ' * maxiter.toNat)
      (by omega) c1 (by nlinarith) hN1
    refine ⟨l2 ++ [its], st2, by rw [e2, List.append_assoc]; rfl, ?_⟩
    intro x hx
    rcases List.mem_append.mp hx with h | h
    · exact d1 x h
    · rw [List.mem_singleton.mp h]; exact hits

theorem run_conv (T : Tests) (hT : T.Sound) (hx : ∀ x, ¬ T.big x → x = 0) (m n : ℕ) (maxiter : Int) (A V0 : Mat) (S0 tmp0 : ℕ → ℝ) {δ δ' : ℝ}
    (hδ : 0 ≤ δ) (h1 : ∀ x, |x| ≤ δ → T.tiny 1 x) (h2 : ∀ x, |x| ≤ δ → T.tinyS 1 x) (hd : ∀ x, T.tiny 1 x → |x| ≤ δ')
    (hdS : ∀ x, |x| ≤ fro (M m n A) + 3 * δ' * maxiter.toNat * n → T.tinyS 1 x → |x| ≤ δ') (q : ℕ) (hq : (q : Int) + 3 ≤ maxiter)
    (hB : (fro (M m n A) + 3 * δ' * maxiter.toNat * n) ^ 6 * (4 / 5) ^ q ≤ δ ^ 6) :
    ∃ l st, run T m n maxiter A V0 S0 tmp0 = .ok (l, st) ∧ ∀ x ∈ l, x ≤ maxiter := by
  have hb : ∀ x, T.big x ↔ x ≠ 0 := fun x => ⟨hT.big x, fun h => by by_contra h'; exact h (hx x h')⟩
  obtain ⟨a, st0, hrun, ha, hI, ht0, hz, hN0⟩ := run_start T hT m n maxiter A V0 S0 tmp0
  rcases Nat.eq_zero_or_pos n with hn | hn
  · subst hn
    exact ⟨[], st0, by rw [hrun]; rfl, by simp⟩
  rcases ha with rfl | rfl
  · obtain ⟨l, e, h⟩ := diagAll_zero T 0 (hT.tiny _ (Or.inl rfl)) maxiter (by omega) n [] st0 (hz rfl)
    exact ⟨l, st0, by rw [hrun, e, List.append_nil], fun x hx => by rw [h x hx]; omega⟩
  · obtain ⟨l, st, e, h⟩ := diagAll_conv T hb 1 hδ h1 h2 hd hdS maxiter q hq hB n [] st0 0 le_rfl (ht0 (by omega)) (by rw [zero_add]) (hN0 hx)
    exact ⟨l, st, by rw [hrun, e, List.append_nil], h⟩

end Svd
end KDL
