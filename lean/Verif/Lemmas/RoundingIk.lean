import Verif.Model.RoundingIk
import Verif.Props.RoundingJac
import Mathlib.Analysis.Real.Pi.Bounds

/-! # Rounding errors of the norm of a vector and of the rotation vector of a matrix -/

noncomputable section
namespace KDL

/-- The vector `2 sin(angle) axis` of a rotation. -/
def skv (R : Rot) : Vec := ⟨R.m21 - R.m12, R.m02 - R.m20, R.m10 - R.m01⟩
/-- Trace. -/
def tr (R : Rot) : ℝ := R.m00 + R.m11 + R.m22

theorem skv_sq {Q : Rot} (h : Q.IsProper) : vlen (skv Q) ^ 2 = (3 - tr Q) * (1 + tr Q) := by
  obtain ⟨⟨c0, c1, c2⟩, ⟨c3, c4, c5⟩, ⟨c6, c7, c8⟩⟩ := h.cof
  have o := fro_proper h
  have o2 : fro Q ^ 2 = 3 := by rw [o]; exact Real.sq_sqrt (by norm_num)
  rw [fro_sq] at o2
  rw [vlen_sq]
  simp only [skv, tr]
  linear_combination o2 + 2 * c0 + 2 * c4 + 2 * c8

theorem rdist_one_sq {Q : Rot} (h : Q.IsProper) : rdist Q 1 ^ 2 = 2 * (3 - tr Q) := by
  have o := fro_proper h
  have o2 : fro Q ^ 2 = 3 := by rw [o]; exact Real.sq_sqrt (by norm_num)
  rw [fro_sq] at o2
  rw [rdist, Real.sq_sqrt (by positivity)]
  simp only [tr, Rot.one_m00, Rot.one_m01, Rot.one_m02, Rot.one_m10, Rot.one_m11, Rot.one_m12, Rot.one_m20, Rot.one_m21, Rot.one_m22]
  linear_combination o2

theorem tr_bounds {Q : Rot} (h : Q.IsProper) : -1 ≤ tr Q ∧ tr Q ≤ 3 := by
  have h1 := rdist_one_sq h
  have h2 := skv_sq h
  have h3 : tr Q ≤ 3 := by nlinarith [sq_nonneg (rdist Q 1)]
  refine ⟨?_, h3⟩
  by_contra hc
  push Not at hc
  have : (3 - tr Q) * (1 + tr Q) < 0 := mul_neg_of_pos_of_neg (by linarith) (by linarith)
  have := sq_nonneg (vlen (skv Q))
  linarith

/-- Turns of at most 90 degrees are not farther from the identity than the length of this vector. -/
theorem rdist_one_le {Q : Rot} (h : Q.IsProper) (ht : 1 ≤ tr Q) : rdist Q 1 ≤ vlen (skv Q) := by
  refine abs_le_of_sq_le_sq' ?_ (vlen_nonneg _) |>.2
  rw [rdist_one_sq h, skv_sq h]
  nlinarith [(tr_bounds h).2]

theorem skv_dist (R Q : Rot) : vdist (skv R) (skv Q) ≤ 2 * rdist R Q := by
  refine Real.sqrt_le_iff.mpr ⟨by have := rdist_nonneg R Q; linarith, ?_⟩
  rw [mul_pow, rdist, Real.sq_sqrt (by positivity)]
  simp only [skv]
  have s : ∀ a b c d : ℝ, (a - b - (c - d)) ^ 2 ≤ 2 * ((a - c) ^ 2 + (b - d) ^ 2) := by
    intro a b c d
    nlinarith [sq_nonneg ((a - c) + (b - d))]
  have s1 := s R.m21 R.m12 Q.m21 Q.m12
  have s2 := s R.m02 R.m20 Q.m02 Q.m20
  have s3 := s R.m10 R.m01 Q.m10 Q.m01
  nlinarith [sq_nonneg (R.m00 - Q.m00), sq_nonneg (R.m11 - Q.m11), sq_nonneg (R.m22 - Q.m22), sq_nonneg (R.m21 - Q.m21),
    sq_nonneg (R.m12 - Q.m12), sq_nonneg (R.m02 - Q.m02), sq_nonneg (R.m20 - Q.m20), sq_nonneg (R.m10 - Q.m10), sq_nonneg (R.m01 - Q.m01)]

theorem entry_dist (R Q : Rot) : |R.m00 - Q.m00| ≤ rdist R Q ∧ |R.m11 - Q.m11| ≤ rdist R Q ∧ |R.m22 - Q.m22| ≤ rdist R Q ∧
    |tr R - tr Q| ≤ 2 * rdist R Q := by
  have hr := rdist_nonneg R Q
  have hs : rdist R Q ^ 2 = ((R.m00 - Q.m00) ^ 2 + (R.m01 - Q.m01) ^ 2 + (R.m02 - Q.m02) ^ 2 +
    ((R.m10 - Q.m10) ^ 2 + (R.m11 - Q.m11) ^ 2 + (R.m12 - Q.m12) ^ 2) +
    ((R.m20 - Q.m20) ^ 2 + (R.m21 - Q.m21) ^ 2 + (R.m22 - Q.m22) ^ 2)) := Real.sq_sqrt (by positivity)
  have p0 := sq_nonneg (R.m00 - Q.m00); have p1 := sq_nonneg (R.m01 - Q.m01); have p2 := sq_nonneg (R.m02 - Q.m02)
  have p3 := sq_nonneg (R.m10 - Q.m10); have p4 := sq_nonneg (R.m11 - Q.m11); have p5 := sq_nonneg (R.m12 - Q.m12)
  have p6 := sq_nonneg (R.m20 - Q.m20); have p7 := sq_nonneg (R.m21 - Q.m21); have p8 := sq_nonneg (R.m22 - Q.m22)
  refine ⟨abs_le_of_sq_le_sq (by linarith) hr, abs_le_of_sq_le_sq (by linarith) hr, abs_le_of_sq_le_sq (by linarith) hr,
    abs_le_of_sq_le_sq ?_ (by linarith)⟩
  simp only [tr]
  nlinarith [sq_nonneg ((R.m00 - Q.m00) - (R.m11 - Q.m11)), sq_nonneg ((R.m00 - Q.m00) - (R.m22 - Q.m22)),
    sq_nonneg ((R.m11 - Q.m11) - (R.m22 - Q.m22))]

namespace FlM
variable {F : FlM}

/-- A vector rounded coordinate by coordinate. -/
theorem rnd_vec (hF : F.toFl.Ok) (v : Vec) : vdist ⟨F.rnd v.x, F.rnd v.y, F.rnd v.z⟩ v ≤ F.u * vlen v := by
  refine Real.sqrt_le_iff.mpr ⟨mul_nonneg hF.nonneg (vlen_nonneg _), ?_⟩
  rw [mul_pow, vlen_sq]
  have s : ∀ x, (F.rnd x - x) ^ 2 ≤ F.u ^ 2 * x ^ 2 := by
    intro x
    rw [← sq_abs, ← sq_abs x, ← mul_pow]
    exact pow_le_pow_left₀ (abs_nonneg _) (hF.rnd x) 2
  simp only
  linarith [s v.x, s v.y, s v.z]

theorem vlen_smul (c : ℝ) (v : Vec) : vlen (c • v) = |c| * vlen v := by
  rw [vlen, vlen, ← Real.sqrt_sq (abs_nonneg c), ← Real.sqrt_mul (sq_nonneg _), sq_abs]
  congr 1
  simp
  ring

theorem rnd_vec_lower (hF : F.toFl.Ok) (v : Vec) : (1 - F.u) * vlen v ≤ vlen ⟨F.rnd v.x, F.rnd v.y, F.rnd v.z⟩ := by
  have h1 := rnd_vec hF v
  have h2 := vlen_le v ⟨F.rnd v.x, F.rnd v.y, F.rnd v.z⟩
  have h3 : vdist v ⟨F.rnd v.x, F.rnd v.y, F.rnd v.z⟩ = vdist ⟨F.rnd v.x, F.rnd v.y, F.rnd v.z⟩ v := by
    rw [vdist, vdist]; congr 1; ring
  linarith

theorem vecScale_lower (hF : F.toFl.Ok) (v : Vec) (c : ℝ) : (1 - F.u) * (|c| * vlen v) ≤ vlen (F.vecScale v c) := by
  rw [← vlen_smul]
  have : F.vecScale v c = ⟨F.rnd (c • v).x, F.rnd (c • v).y, F.rnd (c • v).z⟩ := by
    simp [Fl.vecScale, mul_comm]
  rw [this]
  exact rnd_vec_lower hF _

/-- A number against the number it approximates. -/
theorem rnd_lower (hF : F.toFl.Ok) (x : ℝ) : (1 - F.u) * |x| ≤ |F.rnd x| := by
  have := hF.rnd x
  have h2 := abs_sub_abs_le_abs_sub x (F.rnd x)
  rw [abs_sub_comm] at h2
  linarith

/-- Relative error `w` of `y` as an approximation of `x`. -/
def Rel (w x y : ℝ) : Prop := 0 ≤ x ∧ |y - x| ≤ w * x

theorem Rel.rnd (hF : F.toFl.Ok) {k x y : ℝ} (hu : F.u ≤ 1 / 1000) (hk : k ≤ 100) (h : Rel (k * F.u) x y) :
    Rel ((k + 11 / 10) * F.u) x (F.rnd y) := by
  obtain ⟨x0, h⟩ := h
  have u0 := hF.nonneg
  refine ⟨x0, ?_⟩
  have h1 := Fl.rnd_add hF h
  rw [abs_of_nonneg x0] at h1
  have h3 : k * F.u ≤ 1 / 10 := by nlinarith
  have h2 : F.u * (k * F.u * x) ≤ F.u * (1 / 10 * x) :=
    mul_le_mul_of_nonneg_left (mul_le_mul_of_nonneg_right h3 x0) u0
  linarith

theorem Rel.add {w x y x' y' : ℝ} (h : Rel w x y) (h' : Rel w x' y') : Rel w (x + x') (y + y') := by
  refine ⟨add_nonneg h.1 h'.1, ?_⟩
  rw [show y + y' - (x + x') = (y - x) + (y' - x') by ring]
  have := abs_add_le (y - x) (y' - x')
  linarith [h.2, h'.2]

theorem Rel.mono {w w' x y : ℝ} (h : Rel w x y) (hw : w ≤ w') : Rel w' x y :=
  ⟨h.1, h.2.trans (mul_le_mul_of_nonneg_right hw h.1)⟩

theorem Rel.sqrt {w x y : ℝ} (hw : w ≤ 1) (h : Rel w x y) : 0 ≤ y ∧ Rel w (Real.sqrt x) (Real.sqrt y) := by
  obtain ⟨x0, h⟩ := h
  have hb := abs_le.mp h
  have y0 : 0 ≤ y := by nlinarith
  refine ⟨y0, Real.sqrt_nonneg _, ?_⟩
  have sx := Real.sqrt_nonneg x
  have sy := Real.sqrt_nonneg y
  have ex := Real.sq_sqrt x0
  have ey := Real.sq_sqrt y0
  by_cases h0 : Real.sqrt x = 0
  · have : x = 0 := by nlinarith
    have : y = 0 := by rw [this] at h; simpa using h
    rw [h0, this]; simp
  · have px : 0 < Real.sqrt x := lt_of_le_of_ne sx (Ne.symm h0)
    have e : |Real.sqrt y - Real.sqrt x| * (Real.sqrt y + Real.sqrt x) = |y - x| := by
      rw [← abs_of_nonneg (by linarith : 0 ≤ Real.sqrt y + Real.sqrt x), ← abs_mul]
      congr 1
      nlinarith
    have p := abs_nonneg (Real.sqrt y - Real.sqrt x)
    have e2 : |Real.sqrt y - Real.sqrt x| * Real.sqrt x ≤ w * Real.sqrt x * Real.sqrt x := by nlinarith
    exact le_of_mul_le_mul_right e2 px

theorem scaled_err (hF : F.Ok) (hu : F.u ≤ 1 / 1000) (a b m : ℝ) (hm : m ≠ 0) :
    |F.scaled a b m - Real.sqrt (a ^ 2 + b ^ 2 + m ^ 2)| ≤ 8 * F.u * Real.sqrt (a ^ 2 + b ^ 2 + m ^ 2) := by
  have u0 := hF.fl.nonneg
  have sq : ∀ x : ℝ, Rel (32 / 10 * F.u) (x ^ 2) (F.rnd (F.rnd x * F.rnd x)) := by
    intro x
    have h1 := hF.fl.rnd x
    have h2 : Rel (21 / 10 * F.u) (x ^ 2) (F.rnd x * F.rnd x) := by
      refine ⟨sq_nonneg _, ?_⟩
      have h3 : |F.rnd x| ≤ |x| + F.u * |x| := by
        have := abs_sub_abs_le_abs_sub (F.rnd x) x
        linarith
      rw [show F.rnd x * F.rnd x - x ^ 2 = (F.rnd x - x) * (F.rnd x + x) by ring, abs_mul]
      have h4 : |F.rnd x + x| ≤ 2 * |x| + F.u * |x| := (abs_add_le _ _).trans (by linarith)
      have h5 := mul_le_mul h1 h4 (abs_nonneg _) (mul_nonneg u0 (abs_nonneg _))
      have h6 : x ^ 2 = |x| * |x| := by rw [← sq, sq_abs]
      have h7 : 0 ≤ |x| * |x| := by positivity
      have h8 : F.u * F.u * (|x| * |x|) ≤ F.u * (1 / 1000) * (|x| * |x|) :=
        mul_le_mul_of_nonneg_right (mul_le_mul_of_nonneg_left hu u0) h7
      rw [h6]
      nlinarith
    have := h2.rnd hF.fl hu (by norm_num)
    exact this.mono (by nlinarith)
  have one : Rel (32 / 10 * F.u) 1 1 := ⟨by norm_num, by simp; positivity⟩
  have h1 := (one.add (sq (a / m))).rnd hF.fl hu (by norm_num)
  have h2 := (h1.add ((sq (b / m)).mono (w' := (32 / 10 + 11 / 10) * F.u) (by nlinarith))).rnd hF.fl hu (by norm_num)
  set y := F.rnd (F.rnd (1 + F.rnd (F.rnd (a / m) * F.rnd (a / m))) + F.rnd (F.rnd (b / m) * F.rnd (b / m))) with hy
  set x := 1 + (a / m) ^ 2 + (b / m) ^ 2 with hx
  obtain ⟨y0, h3⟩ := h2.sqrt (by nlinarith)
  have h4 : Rel (65 / 10 * F.u) (Real.sqrt x) (F.sqrt y) := by
    refine ⟨Real.sqrt_nonneg _, ?_⟩
    have g1 := hF.sqrt y y0
    have g2 := h3.2
    have sx := Real.sqrt_nonneg x
    have g3 : Real.sqrt y ≤ Real.sqrt x + (32 / 10 + 11 / 10 + 11 / 10) * F.u * Real.sqrt x := by
      have := (abs_le.mp g2).2; linarith
    have g4 := abs_sub_le (F.sqrt y) (Real.sqrt y) (Real.sqrt x)
    have g5 := mul_le_mul_of_nonneg_left g3 u0
    have g6 : F.u * F.u * Real.sqrt x ≤ F.u * (1 / 1000) * Real.sqrt x :=
      mul_le_mul_of_nonneg_right (mul_le_mul_of_nonneg_left hu u0) sx
    have g7 : 0 ≤ F.u * Real.sqrt x := mul_nonneg u0 sx
    nlinarith
  have h5 : Rel (65 / 10 * F.u) (|m| * Real.sqrt x) (|m| * F.sqrt y) := by
    refine ⟨mul_nonneg (abs_nonneg _) (Real.sqrt_nonneg _), ?_⟩
    rw [← mul_sub, abs_mul, abs_abs]
    have := mul_le_mul_of_nonneg_left h4.2 (abs_nonneg m)
    linarith
  have h6 := h5.rnd hF.fl hu (by norm_num)
  have e : |m| * Real.sqrt x = Real.sqrt (a ^ 2 + b ^ 2 + m ^ 2) := by
    rw [← Real.sqrt_sq (abs_nonneg m), ← Real.sqrt_mul (sq_nonneg _), sq_abs, hx]
    congr 1
    field_simp
    ring
  rw [e] at h6
  have h7 := (h6.mono (w' := 8 * F.u) (by nlinarith)).2
  exact h7

theorem eps0_bounds (hF : F.Ok) (hu : F.u ≤ 1 / 1000) : 999 / 10 ^ 9 ≤ F.eps0 ∧ F.eps0 ≤ 1001 / 10 ^ 9 := by
  have h := hF.fl.rnd epsilon
  have e : |epsilon| = 1 / 1000000 := by rw [epsilon, abs_of_pos (by norm_num)]
  rw [e] at h
  have h2 : F.u * (1 / 1000000) ≤ 1 / 1000 * (1 / 1000000) := mul_le_mul_of_nonneg_right hu (by norm_num)
  have h3 := abs_le.mp (h.trans h2)
  simp only [epsilon] at h3
  unfold eps0
  simp only [epsilon]
  constructor
  · norm_num at h3 ⊢; linarith [h3.1]
  · norm_num at h3 ⊢; linarith [h3.2]

/-- The computed length: accurate, or 0 for vectors of at most about the tolerance. -/
theorem norm_err (hF : F.Ok) (hu : F.u ≤ 1 / 1000) (v : Vec) :
    (F.norm v = 0 ∧ vlen v ≤ 174 / 10 ^ 8) ∨ |F.norm v - vlen v| ≤ 8 * F.u * vlen v := by
  obtain ⟨e1, e2⟩ := eps0_bounds hF hu
  have perm1 : vlen v = Real.sqrt (v.y ^ 2 + v.z ^ 2 + v.x ^ 2) := by rw [vlen]; congr 1; ring
  have perm2 : vlen v = Real.sqrt (v.x ^ 2 + v.z ^ 2 + v.y ^ 2) := by rw [vlen]; congr 1; ring
  unfold norm
  split_ifs with h1 h2 h3 h4
  · left
    refine ⟨rfl, vlen_le_sum (a := 1001 / 10 ^ 9) (b := 1001 / 10 ^ 9) (c := 1001 / 10 ^ 9) ?_ ?_ ?_ (by norm_num) (by norm_num)⟩ <;> linarith
  · right
    have : v.x ≠ 0 := by
      intro h
      rw [h, abs_zero] at h3
      norm_num at e1
      linarith
    rw [perm1]
    exact scaled_err hF hu _ _ _ this
  · right
    have : v.z ≠ 0 := by
      intro h
      rw [h, abs_zero] at h2
      exact h2 (abs_nonneg _)
    exact scaled_err hF hu _ _ _ this
  · right
    have : v.y ≠ 0 := by
      intro h
      rw [h, abs_zero] at h4
      exact absurd h4 (not_lt.mpr (abs_nonneg _))
    rw [perm2]
    exact scaled_err hF hu _ _ _ this
  · right
    have : v.z ≠ 0 := by
      intro h
      rw [h, abs_zero] at h4
      have : |v.y| ≤ 0 := not_lt.mp h4
      exact h1 (this.trans (abs_nonneg _))
    exact scaled_err hF hu _ _ _ this

/-- The normalised vector is not much shorter than 1. -/
theorem normalize_lower (hF : F.Ok) (hu : F.u ≤ 1 / 1000) (v : Vec) : 99 / 100 ≤ vlen (F.normalize v) := by
  have u0 := hF.fl.nonneg
  obtain ⟨e1, e2⟩ := eps0_bounds hF hu
  unfold normalize
  dsimp only
  split_ifs with h
  · simp [vlen]; norm_num
  · have hn : 0 < F.norm v := lt_of_lt_of_le (lt_of_lt_of_le (by norm_num) e1) (not_lt.mp h)
    rcases norm_err hF hu v with h1 | h1
    · rw [h1.1] at hn; exact absurd hn (lt_irrefl _)
    · set n := F.norm v with hnd
      have h2 : n ≤ vlen v + 8 * F.u * vlen v := by have := (abs_le.mp h1).2; linarith
      have v0 := vlen_nonneg v
      have h3 : n ≤ 1008 / 1000 * vlen v := by nlinarith
      have h4 : F.vecDiv v n = ⟨F.rnd ((1 / n) • v).x, F.rnd ((1 / n) • v).y, F.rnd ((1 / n) • v).z⟩ := by
        simp [vecDiv, div_eq_mul_inv, mul_comm]
      rw [h4]
      refine le_trans ?_ (rnd_vec_lower hF.fl _)
      rw [vlen_smul, abs_of_pos (by positivity)]
      have h5 : 1000 / 1008 ≤ 1 / n * vlen v := by
        rw [one_div, inv_mul_eq_div, le_div_iff₀ hn]
        linarith
      nlinarith

theorem round_trace (hF : F.toFl.Ok) (hu : F.u ≤ 1 / 1000) {R : Rot} (h0 : |R.m00| ≤ 1001 / 1000) (h1 : |R.m11| ≤ 1001 / 1000)
    (h2 : |R.m22| ≤ 1001 / 1000) : |F.rnd (F.rnd (R.m00 + R.m11) + R.m22) - tr R| ≤ 53 / 10 * F.u ∧
    |F.rnd (F.rnd (F.rnd (F.rnd (R.m00 + R.m11) + R.m22) - 1) / 2) - (tr R - 1) / 2| ≤ 7 * F.u := by
  have u0 := hF.nonneg
  have a1 : |R.m00 + R.m11| ≤ 2002 / 1000 := (abs_add_le _ _).trans (by linarith)
  have a2 : |tr R| ≤ 3003 / 1000 := (abs_add_le _ _).trans (by linarith)
  have b1 : |F.rnd (R.m00 + R.m11) + R.m22 - tr R| ≤ F.u * (2002 / 1000) := by
    rw [show F.rnd (R.m00 + R.m11) + R.m22 - tr R = F.rnd (R.m00 + R.m11) - (R.m00 + R.m11) by rw [tr]; ring]
    exact (hF.rnd _).trans (mul_le_mul_of_nonneg_left a1 u0)
  have b2 := Fl.rnd_add hF b1
  have c1 : F.u * |tr R| ≤ F.u * (3003 / 1000) := mul_le_mul_of_nonneg_left a2 u0
  have c2 : F.u * F.u ≤ F.u * (1 / 1000) := mul_le_mul_of_nonneg_left hu u0
  have b3 : |F.rnd (F.rnd (R.m00 + R.m11) + R.m22) - tr R| ≤ 53 / 10 * F.u := by nlinarith
  refine ⟨b3, ?_⟩
  have b4 : |F.rnd (F.rnd (R.m00 + R.m11) + R.m22) - 1 - (tr R - 1)| ≤ 53 / 10 * F.u := by
    rw [show F.rnd (F.rnd (R.m00 + R.m11) + R.m22) - 1 - (tr R - 1) = F.rnd (F.rnd (R.m00 + R.m11) + R.m22) - tr R by ring]
    exact b3
  have b5 := Fl.rnd_add hF b4
  have a3 : |tr R - 1| ≤ 4003 / 1000 := (abs_sub _ _).trans (by rw [abs_one]; linarith)
  have c3 : F.u * |tr R - 1| ≤ F.u * (4003 / 1000) := mul_le_mul_of_nonneg_left a3 u0
  have b6 : |F.rnd (F.rnd (F.rnd (R.m00 + R.m11) + R.m22) - 1) - (tr R - 1)| ≤ 94 / 10 * F.u := by nlinarith
  have b7 : |F.rnd (F.rnd (F.rnd (R.m00 + R.m11) + R.m22) - 1) / 2 - (tr R - 1) / 2| ≤ 47 / 10 * F.u := by
    rw [← sub_div, abs_div, abs_two]
    linarith
  have b8 := Fl.rnd_add hF b7
  have a4 : |(tr R - 1) / 2| ≤ 2002 / 1000 := by rw [abs_div, abs_two]; linarith
  have c4 : F.u * |(tr R - 1) / 2| ≤ F.u * (2002 / 1000) := mul_le_mul_of_nonneg_left a4 u0
  nlinarith

theorem atan2_polar (m f : ℝ) : ∃ ρ, 0 ≤ ρ ∧ m = ρ * Real.sin (KDL.atan2 m f) ∧ f = ρ * Real.cos (KDL.atan2 m f) := by
  refine ⟨‖(⟨f, m⟩ : ℂ)‖, norm_nonneg _, ?_, ?_⟩
  · have := Complex.norm_mul_sin_arg (⟨f, m⟩ : ℂ)
    exact this.symm
  · have := Complex.norm_mul_cos_arg (⟨f, m⟩ : ℂ)
    exact this.symm

theorem half_diag (hF : F.toFl.Ok) (hu : F.u ≤ 1 / 1000) {x : ℝ} (h : |x| ≤ 1001 / 1000) :
    |F.rnd (F.rnd (x + 1) / 2) - (x + 1) / 2| ≤ 21 / 10000 := by
  have u0 := hF.nonneg
  have a1 : |x + 1| ≤ 2001 / 1000 := (abs_add_le _ _).trans (by rw [abs_one]; linarith)
  have a2 := hF.rnd (x + 1)
  have a3 : F.u * |x + 1| ≤ F.u * (2001 / 1000) := mul_le_mul_of_nonneg_left a1 u0
  have a4 : |F.rnd (x + 1) / 2 - (x + 1) / 2| ≤ F.u * (20011 / 20000) := by
    rw [← sub_div, abs_div, abs_two]; linarith
  have a5 := Fl.rnd_add hF a4
  have a6 : |(x + 1) / 2| ≤ 2001 / 2000 := by rw [abs_div, abs_two]; linarith
  have a7 : F.u * |(x + 1) / 2| ≤ F.u * (2001 / 2000) := mul_le_mul_of_nonneg_left a6 u0
  have a8 : F.u * F.u ≤ F.u * (1 / 1000) := mul_le_mul_of_nonneg_left hu u0
  nlinarith

theorem sqrt_diag (hF : F.Ok) (hu : F.u ≤ 1 / 1000) {x : ℝ} (h : 329 / 1000 ≤ x) : 57 / 100 ≤ F.sqrt x := by
  have h1 := (abs_le.mp (hF.sqrt x (by linarith))).1
  have h2 : 5735 / 10000 ≤ Real.sqrt x := Real.le_sqrt_of_sq_le (by norm_num; linarith)
  have h3 : F.u * Real.sqrt x ≤ 1 / 1000 * Real.sqrt x := mul_le_mul_of_nonneg_right hu (Real.sqrt_nonneg _)
  linarith

theorem coord_le (v : Vec) : |v.x| ≤ vlen v ∧ |v.y| ≤ vlen v ∧ |v.z| ≤ vlen v := by
  have h := vlen_sq v
  refine ⟨abs_le_of_sq_le_sq ?_ (vlen_nonneg _), abs_le_of_sq_le_sq ?_ (vlen_nonneg _), abs_le_of_sq_le_sq ?_ (vlen_nonneg _)⟩ <;>
    nlinarith [sq_nonneg v.x, sq_nonneg v.y, sq_nonneg v.z]

/-- Away from the turns by 180 degrees the computed matrix determines the distance to the identity. -/
theorem rdist_of_skv {R Q : Rot} (hQ : Q.IsProper) {δ S : ℝ} (h : rdist R Q ≤ δ) (hS : vlen (skv R) ≤ S) :
    vlen (skv Q) ≤ S + 2 * δ ∧ (1 ≤ tr Q → rdist Q 1 ≤ S + 2 * δ) ∧ (S + 2 * δ ≤ 42 / 100 → tr Q < 1 → tr Q ≤ -9 / 10) := by
  have h1 := skv_dist R Q
  have h2 := vlen_le (skv Q) (skv R)
  have h3 : vdist (skv Q) (skv R) = vdist (skv R) (skv Q) := by rw [vdist, vdist]; congr 1; ring
  have h4 : vlen (skv Q) ≤ S + 2 * δ := by linarith
  refine ⟨h4, fun ht => (rdist_one_le hQ ht).trans h4, fun hb ht => ?_⟩
  have h5 := skv_sq hQ
  have h6 : vlen (skv Q) ^ 2 ≤ (42 / 100) ^ 2 := pow_le_pow_left₀ (vlen_nonneg _) (h4.trans hb) 2
  have h7 := (tr_bounds hQ).1
  nlinarith

theorem verdict_general (hF : F.Ok) (hu : F.u ≤ 1 / 1000) {R Q : Rot} (hQ : Q.IsProper) {δ L : ℝ} (hδ : δ ≤ 1 / 1000)
    (h : rdist R Q ≤ δ) (L0 : 0 ≤ L) (hL2 : L ≤ 19 / 100) {axis : Vec} {m f : ℝ}
    (hax : axis = ⟨F.rnd (R.m21 - R.m12), F.rnd (R.m02 - R.m20), F.rnd (R.m10 - R.m01)⟩) (hm : m = F.rnd (F.norm axis / 2))
    (t2 : |f - (tr R - 1) / 2| ≤ 7 * F.u) (hα : |F.atan2 m f| ≤ 1012 / 1000 * L) :
    rdist Q 1 ≤ 211 / 100 * L + 9 * F.u + 18 / 10 ^ 7 + 2 * δ := by
  have u0 := hF.fl.nonneg
  have δ0 := (rdist_nonneg _ _).trans h
  have tq := tr_bounds hQ
  have htr : |tr R - tr Q| ≤ 2 * δ := (entry_dist R Q).2.2.2.trans (by linarith)
  have hθ : |KDL.atan2 m f| ≤ 1012 / 1000 * L + 4 * F.u := by
    have q1 := hF.atan2 m f
    have q2 := abs_sub_abs_le_abs_sub (KDL.atan2 m f) (F.atan2 m f)
    rw [abs_sub_comm] at q2
    linarith
  set θ := KDL.atan2 m f with hθd
  obtain ⟨ρ, ρ0, p1, p2⟩ := atan2_polar m f
  rw [← hθd] at p1 p2
  have hθ2 : |θ| ≤ 1963 / 10000 := by linarith
  have hcos : 98 / 100 ≤ Real.cos θ := by
    have q1 := Real.one_sub_sq_div_two_le_cos (x := θ)
    have q2 : θ ^ 2 ≤ (1963 / 10000) ^ 2 := by rw [← sq_abs]; exact pow_le_pow_left₀ (abs_nonneg _) hθ2 2
    norm_num at q2
    linarith
  have hsin : |Real.sin θ| ≤ |θ| := Real.abs_sin_le_abs
  have f0 : 98 / 100 * ρ ≤ f := by rw [p2]; nlinarith
  have hf1 := abs_le.mp t2
  have hf2 := abs_le.mp htr
  have hρ : ρ ≤ 1031 / 1000 := by linarith [tq.2]
  have hm1 : |m| ≤ 1031 / 1000 * (1012 / 1000 * L + 4 * F.u) := by
    rw [p1, abs_mul, abs_of_nonneg ρ0]
    exact mul_le_mul hρ (hsin.trans hθ) (abs_nonneg _) (by norm_num)
  have hS0 : (1 - F.u) * vlen (skv R) ≤ vlen axis := by rw [hax]; exact rnd_vec_lower hF.fl (skv R)
  have s0 := vlen_nonneg (skv R)
  have hS1 : vlen (skv R) ≤ 10011 / 10000 * vlen axis := by
    have : F.u * vlen (skv R) ≤ 1 / 1000 * vlen (skv R) := mul_le_mul_of_nonneg_right hu s0
    linarith
  have hS : vlen (skv R) ≤ 211 / 100 * L + 9 * F.u + 18 / 10 ^ 7 := by
    rcases norm_err hF hu axis with ⟨_, q⟩ | q
    · norm_num at q ⊢
      linarith
    · have q1 := (abs_le.mp q).1
      have q2 := vlen_nonneg axis
      have q3 : F.u * vlen axis ≤ 1 / 1000 * vlen axis := mul_le_mul_of_nonneg_right hu q2
      have q4 := rnd_lower hF.fl (F.norm axis / 2)
      rw [← hm] at q4
      have q5 : |F.norm axis / 2| = F.norm axis / 2 := abs_of_nonneg (by linarith)
      rw [q5] at q4
      have q6 : F.u * (F.norm axis / 2) ≤ 1 / 1000 * (F.norm axis / 2) := mul_le_mul_of_nonneg_right hu (by linarith)
      norm_num
      linarith
  obtain ⟨k1, k2, k3⟩ := rdist_of_skv hQ h hS
  by_cases ht : 1 ≤ tr Q
  · exact k2 ht
  · exfalso
    have k4 := k3 (by norm_num; linarith) (not_le.mp ht)
    linarith

/-- A short rotation vector computed for a matrix near a rotation `Q`: then `Q` is near the identity. -/
theorem getRot_verdict (hF : F.Ok) (hu : F.u ≤ 1 / 1000) {R Q : Rot} (hQ : Q.IsProper) {δ L : ℝ} (hδ : δ ≤ 1 / 1000)
    (h : rdist R Q ≤ δ) (hL : vlen (F.getRot R) ≤ L) (hL2 : L ≤ 19 / 100) :
    rdist Q 1 ≤ 211 / 100 * L + 9 * F.u + 18 / 10 ^ 7 + 2 * δ := by
  have u0 := hF.fl.nonneg
  have L0 := (vlen_nonneg _).trans hL
  have δ0 := (rdist_nonneg _ _).trans h
  obtain ⟨e1, e2⟩ := eps0_bounds hF hu
  have hent := entry_dist R Q
  have qd : |Q.m00| ≤ 1 ∧ |Q.m11| ≤ 1 ∧ |Q.m22| ≤ 1 := by
    obtain ⟨r1, _, _, r2, _, r3⟩ := hQ.rows_orth
    refine ⟨abs_le_one_iff_mul_self_le_one.mpr ?_, abs_le_one_iff_mul_self_le_one.mpr ?_, abs_le_one_iff_mul_self_le_one.mpr ?_⟩
    · nlinarith [mul_self_nonneg Q.m01, mul_self_nonneg Q.m02]
    · nlinarith [mul_self_nonneg Q.m10, mul_self_nonneg Q.m12]
    · nlinarith [mul_self_nonneg Q.m20, mul_self_nonneg Q.m21]
  have near : ∀ a b : ℝ, |a - b| ≤ rdist R Q → |b| ≤ 1 → |a| ≤ 1001 / 1000 := by
    intro a b h1 h2
    have := abs_sub_abs_le_abs_sub a b
    linarith
  have d0 := near _ _ hent.1 qd.1
  have d1 := near _ _ hent.2.1 qd.2.1
  have d2 := near _ _ hent.2.2.1 qd.2.2
  have htr : |tr R - tr Q| ≤ 2 * δ := hent.2.2.2.trans (by linarith)
  obtain ⟨t1, t2⟩ := round_trace hF.fl hu d0 d1 d2
  have tq := tr_bounds hQ
  have small : ∀ x, |F.rnd x| < F.eps0 → |x| ≤ 1003 / 10 ^ 9 := by
    intro x hx
    have := rnd_lower hF.fl x
    have p : F.u * |x| ≤ 1 / 1000 * |x| := mul_le_mul_of_nonneg_right hu (abs_nonneg _)
    linarith
  have hsc := vecScale_lower hF.fl (F.getRotAngle R).1 (F.getRotAngle R).2
  have hsc2 : (1 - F.u) * (|(F.getRotAngle R).2| * vlen (F.getRotAngle R).1) ≤ L := hsc.trans hL
  have hprod : |(F.getRotAngle R).2| * vlen (F.getRotAngle R).1 ≤ 10011 / 10000 * L := by
    have p0 : 0 ≤ |(F.getRotAngle R).2| * vlen (F.getRotAngle R).1 := mul_nonneg (abs_nonneg _) (vlen_nonneg _)
    have : F.u * (|(F.getRotAngle R).2| * vlen (F.getRotAngle R).1) ≤ 1 / 1000 * (|(F.getRotAngle R).2| * vlen (F.getRotAngle R).1) :=
      mul_le_mul_of_nonneg_right hu p0
    linarith
  clear hsc hsc2 hL
  unfold getRotAngle at hprod
  dsimp only at hprod
  by_cases hc : |F.rnd (R.m01 - R.m10)| < F.eps0 ∧ |F.rnd (R.m02 - R.m20)| < F.eps0 ∧ |F.rnd (R.m12 - R.m21)| < F.eps0
  · -- the antisymmetric part vanishes
    rw [if_pos hc] at hprod
    have s1 := small _ hc.1
    have s2 := small _ hc.2.1
    have s3 := small _ hc.2.2
    have hS : vlen (skv R) ≤ 175 / 10 ^ 8 := by
      refine vlen_le_sum (a := 1003 / 10 ^ 9) (b := 1003 / 10 ^ 9) (c := 1003 / 10 ^ 9) ?_ s2 ?_ (by norm_num) (by norm_num)
      · rw [abs_sub_comm] at s3; exact s3
      · rw [abs_sub_comm] at s1; exact s1
    obtain ⟨k1, k2, k3⟩ := rdist_of_skv hQ h hS
    by_cases ht : 1 ≤ tr Q
    · have := k2 ht
      norm_num at this ⊢
      linarith
    · exfalso
      have k4 := k3 (by norm_num; linarith) (not_le.mp ht)
      split_ifs at hprod with g1 g2 g3
      · have g4 := g1.2.2.2
        have g5 := rnd_lower hF.fl (F.rnd (F.rnd (R.m00 + R.m11) + R.m22) - 3)
        have g6 := hF.fl.rnd (F.eps0 * 10)
        have g7 : |F.eps0 * 10| ≤ 1001 / 10 ^ 8 := by rw [abs_of_nonneg (by norm_num at e1 ⊢; linarith)]; norm_num at e2 ⊢; linarith
        have g8 : F.u * |F.eps0 * 10| ≤ 1 / 1000 * (1001 / 10 ^ 8) := mul_le_mul hu g7 (abs_nonneg _) (by norm_num)
        have g9 : F.u * |F.rnd (F.rnd (R.m00 + R.m11) + R.m22) - 3| ≤ 1 / 1000 * |F.rnd (F.rnd (R.m00 + R.m11) + R.m22) - 3| :=
          mul_le_mul_of_nonneg_right hu (abs_nonneg _)
        have g10 := (abs_le.mp g6).2
        have g11 := neg_abs_le (F.rnd (F.rnd (R.m00 + R.m11) + R.m22) - 3)
        have g12 := (abs_le.mp t1).2
        have g13 := (abs_le.mp htr).2
        linarith
      all_goals
        have x1 := half_diag hF.fl hu d0
        have x2 := half_diag hF.fl hu d1
        have x3 := half_diag hF.fl hu d2
        have y1 := (abs_le.mp x1).1
        have y2 := (abs_le.mp x2).1
        have y3 := (abs_le.mp x3).1
        have g13 := (abs_le.mp htr).1
        have hsum : tr R = R.m00 + R.m11 + R.m22 := rfl
        have hpi : 199 / 100 ≤ |F.rnd Real.pi| := by
          have q1 := rnd_lower hF.fl Real.pi
          have q2 := Real.two_le_pi
          rw [abs_of_pos Real.pi_pos] at q1
          have q3 : F.u * Real.pi ≤ 1 / 1000 * Real.pi := mul_le_mul_of_nonneg_right hu Real.pi_pos.le
          linarith
        have fin : ∀ v : Vec, 57 / 100 ≤ vlen v → |F.rnd Real.pi| * vlen v ≤ 10011 / 10000 * L → False := by
          intro v hv hw
          have := mul_le_mul hpi hv (by norm_num) (abs_nonneg _)
          linarith
        refine fin _ ?_ hprod
      · have z := sqrt_diag hF hu (x := F.rnd (F.rnd (R.m00 + 1) / 2)) (by linarith [g2.1, g2.2])
        exact (z.trans (le_abs_self _)).trans (coord_le ⟨_, _, _⟩).1
      · have : F.rnd (F.rnd (R.m00 + 1) / 2) ≤ F.rnd (F.rnd (R.m11 + 1) / 2) := by
          by_contra hh
          push Not at hh
          exact g2 ⟨hh, g3.trans hh⟩
        have z := sqrt_diag hF hu (x := F.rnd (F.rnd (R.m11 + 1) / 2)) (by linarith)
        exact (z.trans (le_abs_self _)).trans (coord_le ⟨_, _, _⟩).2.1
      · have : F.rnd (F.rnd (R.m00 + 1) / 2) ≤ F.rnd (F.rnd (R.m22 + 1) / 2) := by
          by_contra hh
          push Not at hh
          exact g2 ⟨(not_lt.mp g3).trans_lt hh, hh⟩
        have z := sqrt_diag hF hu (x := F.rnd (F.rnd (R.m22 + 1) / 2)) (by linarith [not_lt.mp g3])
        exact (z.trans (le_abs_self _)).trans (coord_le ⟨_, _, _⟩).2.2
  · rw [if_neg hc] at hprod
    dsimp only at hprod
    have hn := normalize_lower hF hu ⟨F.rnd (R.m21 - R.m12), F.rnd (R.m02 - R.m20), F.rnd (R.m10 - R.m01)⟩
    refine verdict_general hF hu hQ hδ h L0 hL2 rfl rfl t2 ?_
    have q := (mul_le_mul_of_nonneg_left hn (abs_nonneg _)).trans hprod
    linarith

/-! ## from above -/

theorem normalize_upper (hF : F.Ok) (hu : F.u ≤ 1 / 1000) (v : Vec) : vlen (F.normalize v) ≤ 102 / 100 := by
  have u0 := hF.fl.nonneg
  obtain ⟨e1, e2⟩ := eps0_bounds hF hu
  unfold normalize
  dsimp only
  split_ifs with h
  · simp [vlen]; norm_num
  · have hn : 0 < F.norm v := lt_of_lt_of_le (lt_of_lt_of_le (by norm_num) e1) (not_lt.mp h)
    rcases norm_err hF hu v with h1 | h1
    · rw [h1.1] at hn; exact absurd hn (lt_irrefl _)
    · set n := F.norm v with hnd
      have v0 := vlen_nonneg v
      have h2 : vlen v - 8 * F.u * vlen v ≤ n := by have := (abs_le.mp h1).1; linarith
      have h3 : 992 / 1000 * vlen v ≤ n := by nlinarith
      have h4 : F.vecDiv v n = ⟨F.rnd ((1 / n) • v).x, F.rnd ((1 / n) • v).y, F.rnd ((1 / n) • v).z⟩ := by
        simp [vecDiv, div_eq_mul_inv, mul_comm]
      rw [h4]
      have h5 := rnd_vec hF.fl ((1 / n) • v)
      have h6 := vlen_le ⟨F.rnd ((1 / n) • v).x, F.rnd ((1 / n) • v).y, F.rnd ((1 / n) • v).z⟩ ((1 / n) • v)
      rw [vlen_smul, abs_of_pos (by positivity)] at h5 h6
      have h7 : 1 / n * vlen v ≤ 1000 / 992 := by
        rw [one_div, inv_mul_eq_div, div_le_iff₀ hn]
        linarith
      have h8 : F.u * (1 / n * vlen v) ≤ 1 / 1000 * (1000 / 992) :=
        mul_le_mul hu h7 (by positivity) (by norm_num)
      linarith

theorem atan2_small {m f : ℝ} (hf : 97 / 100 ≤ f) : |KDL.atan2 m f| ≤ 163 / 100 * |m| := by
  have h1 : |KDL.atan2 m f| ≤ Real.pi / 2 := atan2_abs_le (by linarith)
  obtain ⟨ρ, ρ0, p1, p2⟩ := atan2_polar m f
  set θ := KDL.atan2 m f with hθ
  have h2 : f ≤ ρ := by
    have := mul_le_mul_of_nonneg_left (Real.cos_le_one θ) ρ0
    linarith
  have h3 : 2 / Real.pi * |θ| ≤ |Real.sin θ| := Real.mul_abs_le_abs_sin h1
  have h4 : |m| = ρ * |Real.sin θ| := by
    conv_lhs => rw [p1]
    rw [abs_mul, abs_of_nonneg ρ0]
  have h5 : 97 / 100 * |Real.sin θ| ≤ |m| := by
    rw [h4]; exact mul_le_mul_of_nonneg_right (by linarith) (abs_nonneg _)
  have h6 : |θ| ≤ Real.pi / 2 * |Real.sin θ| := by
    have e : |θ| = Real.pi / 2 * (2 / Real.pi * |θ|) := by
      have := Real.pi_pos.ne'
      field_simp
    rw [e]
    exact mul_le_mul_of_nonneg_left h3 (by have := Real.pi_pos; linarith)
  have h7 : Real.pi / 2 * |Real.sin θ| ≤ 3142 / 2000 * |Real.sin θ| :=
    mul_le_mul_of_nonneg_right (by have := Real.pi_lt_d4; norm_num at this ⊢; linarith) (abs_nonneg _)
  linarith [abs_nonneg m]

/-- Off-diagonal entries. -/
theorem entry_dist' (R Q : Rot) : |R.m01 - Q.m01| ≤ rdist R Q ∧ |R.m10 - Q.m10| ≤ rdist R Q ∧ |R.m02 - Q.m02| ≤ rdist R Q ∧
    |R.m20 - Q.m20| ≤ rdist R Q ∧ |R.m12 - Q.m12| ≤ rdist R Q ∧ |R.m21 - Q.m21| ≤ rdist R Q := by
  have hr := rdist_nonneg R Q
  have hs : rdist R Q ^ 2 = ((R.m00 - Q.m00) ^ 2 + (R.m01 - Q.m01) ^ 2 + (R.m02 - Q.m02) ^ 2 +
    ((R.m10 - Q.m10) ^ 2 + (R.m11 - Q.m11) ^ 2 + (R.m12 - Q.m12) ^ 2) +
    ((R.m20 - Q.m20) ^ 2 + (R.m21 - Q.m21) ^ 2 + (R.m22 - Q.m22) ^ 2)) := Real.sq_sqrt (by positivity)
  have p0 := sq_nonneg (R.m00 - Q.m00); have p1 := sq_nonneg (R.m01 - Q.m01); have p2 := sq_nonneg (R.m02 - Q.m02)
  have p3 := sq_nonneg (R.m10 - Q.m10); have p4 := sq_nonneg (R.m11 - Q.m11); have p5 := sq_nonneg (R.m12 - Q.m12)
  have p6 := sq_nonneg (R.m20 - Q.m20); have p7 := sq_nonneg (R.m21 - Q.m21); have p8 := sq_nonneg (R.m22 - Q.m22)
  refine ⟨abs_le_of_sq_le_sq ?_ hr, abs_le_of_sq_le_sq ?_ hr, abs_le_of_sq_le_sq ?_ hr, abs_le_of_sq_le_sq ?_ hr,
    abs_le_of_sq_le_sq ?_ hr, abs_le_of_sq_le_sq ?_ hr⟩ <;> linarith

/-- The rotation vector computed for a matrix near a rotation near the identity is short. -/
theorem getRot_upper (hF : F.Ok) (hu : F.u ≤ 1 / 10 ^ 7) {R Q : Rot} (hQ : Q.IsProper) {δ r : ℝ} (hδ : δ ≤ 1 / 10 ^ 7)
    (h : rdist R Q ≤ δ) (hr : rdist Q 1 ≤ r) (hr2 : r ≤ 1 / 10) : vlen (F.getRot R) ≤ 125 / 100 * r + 18 / 10 * δ + 42 / 10 * F.u := by
  have u0 := hF.fl.nonneg
  have hu3 : F.u ≤ 1 / 1000 := hu.trans (by norm_num)
  have δ0 := (rdist_nonneg _ _).trans h
  have r0 := (rdist_nonneg _ _).trans hr
  obtain ⟨e1, e2⟩ := eps0_bounds hF hu3
  have hent := entry_dist R Q
  have qd : |Q.m00| ≤ 1 ∧ |Q.m11| ≤ 1 ∧ |Q.m22| ≤ 1 := by
    obtain ⟨r1, _, _, r2, _, r3⟩ := hQ.rows_orth
    refine ⟨abs_le_one_iff_mul_self_le_one.mpr ?_, abs_le_one_iff_mul_self_le_one.mpr ?_, abs_le_one_iff_mul_self_le_one.mpr ?_⟩
    · nlinarith [mul_self_nonneg Q.m01, mul_self_nonneg Q.m02]
    · nlinarith [mul_self_nonneg Q.m10, mul_self_nonneg Q.m12]
    · nlinarith [mul_self_nonneg Q.m20, mul_self_nonneg Q.m21]
  have near : ∀ a b : ℝ, |a - b| ≤ rdist R Q → |b| ≤ 1 → |a| ≤ 1001 / 1000 := by
    intro a b h1 h2
    have := abs_sub_abs_le_abs_sub a b
    norm_num at hδ
    linarith
  have d0 := near _ _ hent.1 qd.1
  have d1 := near _ _ hent.2.1 qd.2.1
  have d2 := near _ _ hent.2.2.1 qd.2.2
  have htr : |tr R - tr Q| ≤ 2 * δ := hent.2.2.2.trans (by linarith)
  obtain ⟨t1, t2⟩ := round_trace hF.fl hu3 d0 d1 d2
  have tq := tr_bounds hQ
  have hsq := rdist_one_sq hQ
  have hs2 := skv_sq hQ
  have q0 := rdist_nonneg Q 1
  have htq : 299 / 100 ≤ tr Q := by nlinarith
  have hsk : vlen (skv Q) ≤ 1415 / 1000 * r := by
    refine abs_le_of_sq_le_sq' ?_ (by positivity) |>.2
    have : rdist Q 1 ^ 2 ≤ r ^ 2 := pow_le_pow_left₀ q0 hr 2
    nlinarith
  have hskR : vlen (skv R) ≤ 1415 / 1000 * r + 2 * δ := by
    have := vlen_le (skv R) (skv Q)
    have := skv_dist R Q
    linarith
  unfold getRot
  have hz : F.rnd 0 = 0 := by
    have := hF.fl.rnd 0
    simpa using this
  by_cases hc : |F.rnd (R.m01 - R.m10)| < F.eps0 ∧ |F.rnd (R.m02 - R.m20)| < F.eps0 ∧ |F.rnd (R.m12 - R.m21)| < F.eps0
  · have small : ∀ x, |F.rnd x| < F.eps0 → |x| ≤ 1003 / 10 ^ 9 := by
      intro x hx
      have := rnd_lower hF.fl x
      have p : F.u * |x| ≤ 1 / 1000 * |x| := mul_le_mul_of_nonneg_right hu3 (abs_nonneg _)
      linarith
    have s1 := small _ hc.1
    have s2 := small _ hc.2.1
    have s3 := small _ hc.2.2
    have hS : vlen (skv R) ≤ 175 / 10 ^ 8 := by
      refine vlen_le_sum (a := 1003 / 10 ^ 9) (b := 1003 / 10 ^ 9) (c := 1003 / 10 ^ 9) ?_ s2 ?_ (by norm_num) (by norm_num)
      · rw [abs_sub_comm] at s3; exact s3
      · rw [abs_sub_comm] at s1; exact s1
    have hη := (rdist_of_skv hQ h hS).2.1 (by linarith)
    have hη2 : rdist Q 1 ≤ 195 / 10 ^ 8 := by norm_num at hη hδ ⊢; linarith
    obtain ⟨o1, o2, o3, o4, o5, o6⟩ := entry_dist' R Q
    obtain ⟨i1, i2, i3, i4, i5, i6⟩ := entry_dist' Q 1
    simp only [Rot.one_m01, Rot.one_m02, Rot.one_m10, Rot.one_m12, Rot.one_m20, Rot.one_m21, sub_zero] at i1 i2 i3 i4 i5 i6
    have heps2 : 99 / 10 ^ 7 ≤ F.rnd (F.eps0 * 10) := by
      have g6 := (abs_le.mp (hF.fl.rnd (F.eps0 * 10))).1
      have g7 : 0 ≤ F.eps0 * 10 := by norm_num at e1 ⊢; linarith
      rw [abs_of_nonneg g7] at g6
      have g8 : F.u * (F.eps0 * 10) ≤ 1 / 1000 * (F.eps0 * 10) := mul_le_mul_of_nonneg_right hu3 g7
      norm_num at e1 ⊢
      linarith
    have up : ∀ x : ℝ, |F.rnd x| ≤ 1001 / 1000 * |x| := by
      intro x
      have a1 := hF.fl.rnd x
      have a2 := abs_sub_abs_le_abs_sub (F.rnd x) x
      have a3 : F.u * |x| ≤ 1 / 1000 * |x| := mul_le_mul_of_nonneg_right hu3 (abs_nonneg _)
      linarith
    have off : ∀ a b a' b' : ℝ, |a - a'| ≤ rdist R Q → |b - b'| ≤ rdist R Q → |a'| ≤ rdist Q 1 → |b'| ≤ rdist Q 1 →
        |F.rnd (a + b)| < F.rnd (F.eps0 * 10) := by
      intro a b a' b' k1 k2 k3 k4
      have l1 := abs_sub_abs_le_abs_sub a a'
      have l2 := abs_sub_abs_le_abs_sub b b'
      have l3 := abs_add_le a b
      have l4 := up (a + b)
      norm_num at heps2 hδ hη2
      linarith
    have hc2 : |F.rnd (R.m01 + R.m10)| < F.rnd (F.eps0 * 10) ∧ |F.rnd (R.m02 + R.m20)| < F.rnd (F.eps0 * 10) ∧
        |F.rnd (R.m12 + R.m21)| < F.rnd (F.eps0 * 10) ∧
        |F.rnd (F.rnd (F.rnd (R.m00 + R.m11) + R.m22) - 3)| < F.rnd (F.eps0 * 10) := by
      refine ⟨off _ _ _ _ o1 o2 i1 i2, off _ _ _ _ o3 o4 i3 i4, off _ _ _ _ o5 o6 i5 i6, ?_⟩
      have l1 := up (F.rnd (F.rnd (R.m00 + R.m11) + R.m22) - 3)
      have l2 : |F.rnd (F.rnd (R.m00 + R.m11) + R.m22) - 3| ≤ 53 / 10 * F.u + 2 * δ + (3 - tr Q) := by
        rw [show F.rnd (F.rnd (R.m00 + R.m11) + R.m22) - 3 =
          (F.rnd (F.rnd (R.m00 + R.m11) + R.m22) - tr R) + ((tr R - tr Q) + (tr Q - 3)) by ring]
        refine (abs_add_le _ _).trans ?_
        have := abs_add_le (tr R - tr Q) (tr Q - 3)
        have e : |tr Q - 3| = 3 - tr Q := by rw [abs_sub_comm]; exact abs_of_nonneg (by linarith [tq.2])
        linarith
      have l3 : 3 - tr Q ≤ 1 / 10 ^ 7 := by
        have : rdist Q 1 ^ 2 ≤ (195 / 10 ^ 8) ^ 2 := pow_le_pow_left₀ q0 hη2 2
        norm_num at this ⊢
        linarith
      norm_num at heps2 hδ hu l3
      linarith
    have e : F.getRotAngle R = (⟨0, 0, 1⟩, 0) := by
      unfold getRotAngle
      dsimp only
      rw [if_pos hc, if_pos hc2]
    rw [e]
    have : vlen (F.vecScale (⟨0, 0, 1⟩ : Vec) 0) = 0 := by simp [Fl.vecScale, hz, vlen]
    rw [this]
    positivity
  · have e : F.getRotAngle R = (F.normalize ⟨F.rnd (R.m21 - R.m12), F.rnd (R.m02 - R.m20), F.rnd (R.m10 - R.m01)⟩,
        F.atan2 (F.rnd (F.norm ⟨F.rnd (R.m21 - R.m12), F.rnd (R.m02 - R.m20), F.rnd (R.m10 - R.m01)⟩ / 2))
          (F.rnd (F.rnd (F.rnd (F.rnd (R.m00 + R.m11) + R.m22) - 1) / 2))) := by
      unfold getRotAngle
      dsimp only
      rw [if_neg hc]
    rw [e]
    generalize F.rnd (F.rnd (F.rnd (F.rnd (R.m00 + R.m11) + R.m22) - 1) / 2) = f at t2
    have hax : vlen (⟨F.rnd (R.m21 - R.m12), F.rnd (R.m02 - R.m20), F.rnd (R.m10 - R.m01)⟩ : Vec) ≤ 1001 / 1000 * vlen (skv R) := by
      have a1 := rnd_vec hF.fl (skv R)
      have a2 := vlen_le ⟨F.rnd (skv R).x, F.rnd (skv R).y, F.rnd (skv R).z⟩ (skv R)
      have a3 : F.u * vlen (skv R) ≤ 1 / 1000 * vlen (skv R) := mul_le_mul_of_nonneg_right hu3 (vlen_nonneg _)
      simp only [skv] at a1 a2 a3 ⊢
      linarith
    generalize (⟨F.rnd (R.m21 - R.m12), F.rnd (R.m02 - R.m20), F.rnd (R.m10 - R.m01)⟩ : Vec) = axis at hax
    have hn := normalize_upper hF hu3 axis
    have n0 := vlen_nonneg (F.normalize axis)
    have hf : 97 / 100 ≤ f := by
      have a1 := (abs_le.mp t2).1
      have a2 := (abs_le.mp htr).1
      norm_num at hδ
      linarith
    have hm : |F.rnd (F.norm axis / 2)| ≤ 51 / 100 * vlen (skv R) := by
      have s0 := vlen_nonneg (skv R)
      have x0 := vlen_nonneg axis
      have a1 := hF.fl.rnd (F.norm axis / 2)
      have a2 := abs_sub_abs_le_abs_sub (F.rnd (F.norm axis / 2)) (F.norm axis / 2)
      have a3 : F.u * |F.norm axis / 2| ≤ 1 / 1000 * |F.norm axis / 2| := mul_le_mul_of_nonneg_right hu3 (abs_nonneg _)
      have a4 : |F.norm axis| ≤ 1008 / 1000 * vlen axis := by
        rcases norm_err hF hu3 axis with k | k
        · rw [k.1, abs_zero]; positivity
        · have b1 := abs_sub_abs_le_abs_sub (F.norm axis) (vlen axis)
          rw [abs_of_nonneg x0] at b1
          have b2 : F.u * vlen axis ≤ 1 / 1000 * vlen axis := mul_le_mul_of_nonneg_right hu3 x0
          linarith
      have a5 : |F.norm axis / 2| = |F.norm axis| / 2 := by rw [abs_div, abs_two]
      rw [a5] at a1 a2 a3
      linarith
    generalize F.rnd (F.norm axis / 2) = m at hm
    have hα : |F.atan2 m f| ≤ 84 / 100 * vlen (skv R) + 4 * F.u := by
      have a1 := atan2_small (m := m) hf
      have a2 := hF.atan2 m f
      have a3 := abs_sub_abs_le_abs_sub (F.atan2 m f) (KDL.atan2 m f)
      have := vlen_nonneg (skv R)
      linarith
    have hv : vlen (F.vecScale (F.normalize axis) (F.atan2 m f)) ≤ 1001 / 1000 * (|F.atan2 m f| * vlen (F.normalize axis)) := by
      have e : F.vecScale (F.normalize axis) (F.atan2 m f) = ⟨F.rnd (F.atan2 m f • F.normalize axis).x,
          F.rnd (F.atan2 m f • F.normalize axis).y, F.rnd (F.atan2 m f • F.normalize axis).z⟩ := by
        simp [Fl.vecScale, mul_comm]
      have a1 := rnd_vec hF.fl (F.atan2 m f • F.normalize axis)
      have a2 := vlen_le ⟨F.rnd (F.atan2 m f • F.normalize axis).x, F.rnd (F.atan2 m f • F.normalize axis).y,
        F.rnd (F.atan2 m f • F.normalize axis).z⟩ (F.atan2 m f • F.normalize axis)
      rw [← e] at a1 a2
      rw [vlen_smul] at a1 a2
      have a3 : F.u * (|F.atan2 m f| * vlen (F.normalize axis)) ≤ 1 / 1000 * (|F.atan2 m f| * vlen (F.normalize axis)) :=
        mul_le_mul_of_nonneg_right hu3 (by positivity)
      linarith
    have hp : |F.atan2 m f| * vlen (F.normalize axis) ≤ (84 / 100 * vlen (skv R) + 4 * F.u) * (102 / 100) :=
      mul_le_mul hα hn n0 ((abs_nonneg _).trans hα)
    refine hv.trans ?_
    linarith

end FlM
end KDL
