import Verif.Model.Rounding
import Verif.Lemmas.Frames
import Mathlib.Analysis.InnerProductSpace.PiL2

/-! # Distances between matrices and between vectors, and the error of single operations -/

noncomputable section
namespace KDL

/-- Euclidean length. -/
def vlen (v : Vec) : ℝ := Real.sqrt (v.x ^ 2 + v.y ^ 2 + v.z ^ 2)
/-- Euclidean distance. -/
def vdist (v w : Vec) : ℝ := Real.sqrt ((v.x - w.x) ^ 2 + (v.y - w.y) ^ 2 + (v.z - w.z) ^ 2)
/-- Frobenius norm: root of the sum of the squares of the entries. -/
def fro (A : Rot) : ℝ :=
  Real.sqrt (A.m00 ^ 2 + A.m01 ^ 2 + A.m02 ^ 2 + (A.m10 ^ 2 + A.m11 ^ 2 + A.m12 ^ 2) + (A.m20 ^ 2 + A.m21 ^ 2 + A.m22 ^ 2))
/-- Distance in the Frobenius norm. -/
def rdist (A B : Rot) : ℝ :=
  Real.sqrt ((A.m00 - B.m00) ^ 2 + (A.m01 - B.m01) ^ 2 + (A.m02 - B.m02) ^ 2 +
    ((A.m10 - B.m10) ^ 2 + (A.m11 - B.m11) ^ 2 + (A.m12 - B.m12) ^ 2) +
    ((A.m20 - B.m20) ^ 2 + (A.m21 - B.m21) ^ 2 + (A.m22 - B.m22) ^ 2))

def vflat (v : Vec) : EuclideanSpace ℝ (Fin 3) := !₂[v.x, v.y, v.z]
def rflat (A : Rot) : EuclideanSpace ℝ (Fin 9) := !₂[A.m00, A.m01, A.m02, A.m10, A.m11, A.m12, A.m20, A.m21, A.m22]

theorem vlen_eq (v : Vec) : vlen v = ‖vflat v‖ := by
  rw [EuclideanSpace.norm_eq, vlen]
  congr 1
  simp [vflat, Fin.sum_univ_succ]
  ring
theorem vdist_eq (v w : Vec) : vdist v w = ‖vflat v - vflat w‖ := by
  rw [EuclideanSpace.norm_eq, vdist]
  congr 1
  simp [vflat, Fin.sum_univ_succ]
  ring
theorem fro_eq (A : Rot) : fro A = ‖rflat A‖ := by
  rw [EuclideanSpace.norm_eq, fro]
  congr 1
  simp [rflat, Fin.sum_univ_succ]
  ring
theorem rdist_eq (A B : Rot) : rdist A B = ‖rflat A - rflat B‖ := by
  rw [EuclideanSpace.norm_eq, rdist]
  congr 1
  simp [rflat, Fin.sum_univ_succ]
  ring

theorem vdist_triangle (a b c : Vec) : vdist a c ≤ vdist a b + vdist b c := by
  simp only [vdist_eq]; exact norm_sub_le_norm_sub_add_norm_sub _ _ _
theorem rdist_triangle (a b c : Rot) : rdist a c ≤ rdist a b + rdist b c := by
  simp only [rdist_eq]; exact norm_sub_le_norm_sub_add_norm_sub _ _ _
theorem vlen_le (a b : Vec) : vlen a ≤ vlen b + vdist a b := by
  simp only [vlen_eq, vdist_eq]; exact norm_le_insert' _ _
theorem fro_le (a b : Rot) : fro a ≤ fro b + rdist a b := by
  simp only [fro_eq, rdist_eq]; exact norm_le_insert' _ _
theorem vlen_add (a b : Vec) : vlen (a + b) ≤ vlen a + vlen b := by
  have e : vflat (a + b) = vflat a + vflat b := by ext i; fin_cases i <;> simp [vflat]
  simp only [vlen_eq, e]; exact norm_add_le _ _
theorem vdist_add (a b c d : Vec) : vdist (a + b) (c + d) ≤ vdist a c + vdist b d := by
  have e : ∀ a b, vflat (a + b) = vflat a + vflat b := fun a b => by ext i; fin_cases i <;> simp [vflat]
  simp only [vdist_eq, e]
  rw [show vflat a + vflat b - (vflat c + vflat d) = (vflat a - vflat c) + (vflat b - vflat d) by abel]
  exact norm_add_le _ _
theorem vlen_nonneg (v : Vec) : 0 ≤ vlen v := Real.sqrt_nonneg _
theorem vdist_nonneg (v w : Vec) : 0 ≤ vdist v w := Real.sqrt_nonneg _
theorem fro_nonneg (A : Rot) : 0 ≤ fro A := Real.sqrt_nonneg _
theorem rdist_nonneg (A B : Rot) : 0 ≤ rdist A B := Real.sqrt_nonneg _
theorem vlen_sq (v : Vec) : vlen v ^ 2 = v.x ^ 2 + v.y ^ 2 + v.z ^ 2 := Real.sq_sqrt (by positivity)
theorem vdist_sq (v w : Vec) : vdist v w ^ 2 = (v.x - w.x) ^ 2 + (v.y - w.y) ^ 2 + (v.z - w.z) ^ 2 :=
  Real.sq_sqrt (by positivity)
theorem fro_sq (A : Rot) : fro A ^ 2 =
    A.m00 ^ 2 + A.m01 ^ 2 + A.m02 ^ 2 + (A.m10 ^ 2 + A.m11 ^ 2 + A.m12 ^ 2) + (A.m20 ^ 2 + A.m21 ^ 2 + A.m22 ^ 2) :=
  Real.sq_sqrt (by positivity)

/-! ## orthogonal matrices -/

theorem Rot.IsProper.rows_orth {Q : Rot} (h : Q.IsProper) :
    Q.m00 * Q.m00 + Q.m01 * Q.m01 + Q.m02 * Q.m02 = 1 ∧ Q.m00 * Q.m10 + Q.m01 * Q.m11 + Q.m02 * Q.m12 = 0 ∧
    Q.m00 * Q.m20 + Q.m01 * Q.m21 + Q.m02 * Q.m22 = 0 ∧ Q.m10 * Q.m10 + Q.m11 * Q.m11 + Q.m12 * Q.m12 = 1 ∧
    Q.m10 * Q.m20 + Q.m11 * Q.m21 + Q.m12 * Q.m22 = 0 ∧ Q.m20 * Q.m20 + Q.m21 * Q.m21 + Q.m22 * Q.m22 = 1 := by
  have o := h.orth
  rw [Rot.ext_iff] at o
  simp at o
  obtain ⟨h1, h2, h3, h4, h5, h6, h7, h8, h9⟩ := o
  exact ⟨h1, h2, h3, h5, h6, h9⟩

theorem fro_proper {Q : Rot} (h : Q.IsProper) : fro Q = Real.sqrt 3 := by
  obtain ⟨h1, _, _, h4, _, h6⟩ := h.rows_orth
  rw [fro]
  congr 1
  linear_combination h1 + h4 + h6

theorem vdist_mul_proper {Q : Rot} (h : Q.IsProper) (v w : Vec) : vdist (Q * v) (Q * w) = vdist v w := by
  obtain ⟨h1, h2, h3, h4, h5, h6⟩ := h.inv.rows_orth
  simp at h1 h2 h3 h4 h5 h6
  rw [vdist, vdist]
  congr 1
  simp
  linear_combination (v.x - w.x) ^ 2 * h1 + 2 * (v.x - w.x) * (v.y - w.y) * h2 + 2 * (v.x - w.x) * (v.z - w.z) * h3 +
    (v.y - w.y) ^ 2 * h4 + 2 * (v.y - w.y) * (v.z - w.z) * h5 + (v.z - w.z) ^ 2 * h6

theorem vlen_mul_proper {Q : Rot} (h : Q.IsProper) (v : Vec) : vlen (Q * v) = vlen v := by
  obtain ⟨h1, h2, h3, h4, h5, h6⟩ := h.inv.rows_orth
  simp at h1 h2 h3 h4 h5 h6
  rw [vlen, vlen]
  congr 1
  simp
  linear_combination v.x ^ 2 * h1 + 2 * v.x * v.y * h2 + 2 * v.x * v.z * h3 +
    v.y ^ 2 * h4 + 2 * v.y * v.z * h5 + v.z ^ 2 * h6

theorem row_proper {Q : Rot} (h : Q.IsProper) (x y z : ℝ) :
    (x * Q.m00 + y * Q.m10 + z * Q.m20) ^ 2 + (x * Q.m01 + y * Q.m11 + z * Q.m21) ^ 2 + (x * Q.m02 + y * Q.m12 + z * Q.m22) ^ 2 =
      x ^ 2 + y ^ 2 + z ^ 2 := by
  obtain ⟨h1, h2, h3, h4, h5, h6⟩ := h.rows_orth
  linear_combination x ^ 2 * h1 + 2 * x * y * h2 + 2 * x * z * h3 + y ^ 2 * h4 + 2 * y * z * h5 + z ^ 2 * h6

theorem rdist_mul_proper {Q : Rot} (h : Q.IsProper) (A B : Rot) : rdist (A * Q) (B * Q) = rdist A B := by
  rw [rdist, rdist]
  congr 1
  have r1 := row_proper h (A.m00 - B.m00) (A.m01 - B.m01) (A.m02 - B.m02)
  have r2 := row_proper h (A.m10 - B.m10) (A.m11 - B.m11) (A.m12 - B.m12)
  have r3 := row_proper h (A.m20 - B.m20) (A.m21 - B.m21) (A.m22 - B.m22)
  simp
  linear_combination r1 + r2 + r3

/-! ## products -/

theorem cs3 (a b c x y z : ℝ) : (a * x + b * y + c * z) ^ 2 ≤ (a ^ 2 + b ^ 2 + c ^ 2) * (x ^ 2 + y ^ 2 + z ^ 2) := by
  nlinarith [sq_nonneg (a * y - b * x), sq_nonneg (a * z - c * x), sq_nonneg (b * z - c * y)]

theorem rdist_mul_left (A B C : Rot) : rdist (A * B) (A * C) ≤ fro A * rdist B C := by
  refine Real.sqrt_le_iff.mpr ⟨mul_nonneg (fro_nonneg _) (rdist_nonneg _ _), ?_⟩
  rw [mul_pow, fro_sq, rdist, Real.sq_sqrt (by positivity)]
  simp
  have k := fun a b c x y z x' y' z' => cs3 a b c (x - x') (y - y') (z - z')
  have e : ∀ a b c x y z x' y' z' : ℝ, a * x + b * y + c * z - (a * x' + b * y + c * z) = a * (x - x') := by intros; ring
  have s : ∀ a b c x y z x' y' z' : ℝ, (a * x + b * y + c * z - (a * x' + b * y' + c * z')) ^ 2 ≤
      (a ^ 2 + b ^ 2 + c ^ 2) * ((x - x') ^ 2 + (y - y') ^ 2 + (z - z') ^ 2) := by
    intro a b c x y z x' y' z'
    refine le_trans (le_of_eq ?_) (k a b c x y z x' y' z')
    ring
  have s1 := s A.m00 A.m01 A.m02 B.m00 B.m10 B.m20 C.m00 C.m10 C.m20
  have s2 := s A.m00 A.m01 A.m02 B.m01 B.m11 B.m21 C.m01 C.m11 C.m21
  have s3 := s A.m00 A.m01 A.m02 B.m02 B.m12 B.m22 C.m02 C.m12 C.m22
  have s4 := s A.m10 A.m11 A.m12 B.m00 B.m10 B.m20 C.m00 C.m10 C.m20
  have s5 := s A.m10 A.m11 A.m12 B.m01 B.m11 B.m21 C.m01 C.m11 C.m21
  have s6 := s A.m10 A.m11 A.m12 B.m02 B.m12 B.m22 C.m02 C.m12 C.m22
  have s7 := s A.m20 A.m21 A.m22 B.m00 B.m10 B.m20 C.m00 C.m10 C.m20
  have s8 := s A.m20 A.m21 A.m22 B.m01 B.m11 B.m21 C.m01 C.m11 C.m21
  have s9 := s A.m20 A.m21 A.m22 B.m02 B.m12 B.m22 C.m02 C.m12 C.m22
  linarith

theorem vdist_mul_right (A B : Rot) (v : Vec) : vdist (A * v) (B * v) ≤ rdist A B * vlen v := by
  refine Real.sqrt_le_iff.mpr ⟨mul_nonneg (rdist_nonneg _ _) (vlen_nonneg _), ?_⟩
  rw [mul_pow, vlen_sq, rdist, Real.sq_sqrt (by positivity)]
  simp
  have s : ∀ a b c a' b' c' : ℝ, (a * v.x + b * v.y + c * v.z - (a' * v.x + b' * v.y + c' * v.z)) ^ 2 ≤
      ((a - a') ^ 2 + (b - b') ^ 2 + (c - c') ^ 2) * (v.x ^ 2 + v.y ^ 2 + v.z ^ 2) := by
    intro a b c a' b' c'
    refine le_trans (le_of_eq ?_) (cs3 (a - a') (b - b') (c - c') v.x v.y v.z)
    ring
  have s1 := s A.m00 A.m01 A.m02 B.m00 B.m01 B.m02
  have s2 := s A.m10 A.m11 A.m12 B.m10 B.m11 B.m12
  have s3 := s A.m20 A.m21 A.m22 B.m20 B.m21 B.m22
  linarith

theorem vlen_mul (A : Rot) (v : Vec) : vlen (A * v) ≤ fro A * vlen v := by
  refine Real.sqrt_le_iff.mpr ⟨mul_nonneg (fro_nonneg _) (vlen_nonneg _), ?_⟩
  rw [mul_pow, vlen_sq, fro_sq]
  simp
  have s1 := cs3 A.m00 A.m01 A.m02 v.x v.y v.z
  have s2 := cs3 A.m10 A.m11 A.m12 v.x v.y v.z
  have s3 := cs3 A.m20 A.m21 A.m22 v.x v.y v.z
  linarith

/-! ## errors of the operations -/

namespace Fl
variable {F : Fl}

/-- Relative error of three roundings in a row. -/
def g3 (F : Fl) : ℝ := (1 + F.u) ^ 3 - 1

theorem g3_nonneg (h : F.Ok) : 0 ≤ F.g3 := by
  have := h.nonneg
  rw [g3]
  nlinarith [pow_le_pow_left₀ (by norm_num : (0 : ℝ) ≤ 1) (by linarith : 1 ≤ 1 + F.u) 3]

theorem rnd_add (h : F.Ok) {x x' e : ℝ} (hx : |x - x'| ≤ e) : |F.rnd x - x'| ≤ (1 + F.u) * e + F.u * |x'| := by
  have h1 := h.rnd x
  have h2 : |x| ≤ |x'| + e := by
    have := abs_sub_abs_le_abs_sub x x'
    linarith
  have h3 : |F.rnd x - x'| ≤ |F.rnd x - x| + |x - x'| := abs_sub_le _ _ _
  have h4 : F.u * |x| ≤ F.u * (|x'| + e) := mul_le_mul_of_nonneg_left h2 h.nonneg
  nlinarith

theorem dot3_err (h : F.Ok) (a x b y c z : ℝ) :
    |F.dot3 a x b y c z - (a * x + b * y + c * z)| ≤ F.g3 * (|a| * |x| + |b| * |y| + |c| * |z|) := by
  have hu := h.nonneg
  set p := |a| * |x| with hp
  set q := |b| * |y| with hq
  set r := |c| * |z| with hr
  have p0 : 0 ≤ p := by positivity
  have q0 : 0 ≤ q := by positivity
  have r0 : 0 ≤ r := by positivity
  have e1 : |F.rnd (a * x) - a * x| ≤ F.u * p := by rw [hp, ← abs_mul]; exact h.rnd _
  have e2 : |F.rnd (b * y) - b * y| ≤ F.u * q := by rw [hq, ← abs_mul]; exact h.rnd _
  have e3 : |F.rnd (c * z) - c * z| ≤ F.u * r := by rw [hr, ← abs_mul]; exact h.rnd _
  have m1 : |a * x + b * y| ≤ p + q := by rw [hp, hq, ← abs_mul, ← abs_mul]; exact abs_add_le _ _
  have m2 : |a * x + b * y + c * z| ≤ p + q + r := by
    refine (abs_add_le _ _).trans ?_
    rw [abs_mul c z]
    linarith
  have s1 : |F.rnd (a * x) + F.rnd (b * y) - (a * x + b * y)| ≤ F.u * p + F.u * q := by
    rw [show F.rnd (a * x) + F.rnd (b * y) - (a * x + b * y) = (F.rnd (a * x) - a * x) + (F.rnd (b * y) - b * y) by ring]
    exact (abs_add_le _ _).trans (add_le_add e1 e2)
  have s2 := rnd_add h s1
  set w := F.rnd (F.rnd (a * x) + F.rnd (b * y)) with hw
  have s3 : |w + F.rnd (c * z) - (a * x + b * y + c * z)| ≤ (1 + F.u) * (F.u * p + F.u * q) + F.u * (p + q) + F.u * r := by
    rw [show w + F.rnd (c * z) - (a * x + b * y + c * z) = (w - (a * x + b * y)) + (F.rnd (c * z) - c * z) by ring]
    refine (abs_add_le _ _).trans (add_le_add (s2.trans ?_) e3)
    have := mul_le_mul_of_nonneg_left m1 hu
    linarith
  have s4 := rnd_add h s3
  refine s4.trans ?_
  have := mul_le_mul_of_nonneg_left m2 hu
  have : 0 ≤ F.u * r := by positivity
  have : 0 ≤ F.u * F.u * r := by positivity
  have : 0 ≤ F.u * F.u * F.u * r := by positivity
  rw [g3]
  nlinarith

theorem dot3_err_sq (h : F.Ok) (a x b y c z : ℝ) :
    (F.dot3 a x b y c z - (a * x + b * y + c * z)) ^ 2 ≤ F.g3 ^ 2 * ((a ^ 2 + b ^ 2 + c ^ 2) * (x ^ 2 + y ^ 2 + z ^ 2)) := by
  have h1 := dot3_err h a x b y c z
  have h2 := cs3 |a| |b| |c| |x| |y| |z|
  simp only [sq_abs] at h2
  calc _ = |F.dot3 a x b y c z - (a * x + b * y + c * z)| ^ 2 := (sq_abs _).symm
    _ ≤ (F.g3 * (|a| * |x| + |b| * |y| + |c| * |z|)) ^ 2 := pow_le_pow_left₀ (abs_nonneg _) h1 2
    _ = F.g3 ^ 2 * (|a| * |x| + |b| * |y| + |c| * |z|) ^ 2 := by ring
    _ ≤ _ := mul_le_mul_of_nonneg_left h2 (sq_nonneg _)

theorem rotMul_err (h : F.Ok) (A B : Rot) : rdist (F.rotMul A B) (A * B) ≤ F.g3 * fro A * fro B := by
  refine Real.sqrt_le_iff.mpr ⟨mul_nonneg (mul_nonneg (g3_nonneg h) (fro_nonneg _)) (fro_nonneg _), ?_⟩
  rw [mul_pow, mul_pow, fro_sq, fro_sq]
  have s := fun a x b y c z => dot3_err_sq h a x b y c z
  have s1 := s A.m00 B.m00 A.m01 B.m10 A.m02 B.m20
  have s2 := s A.m00 B.m01 A.m01 B.m11 A.m02 B.m21
  have s3 := s A.m00 B.m02 A.m01 B.m12 A.m02 B.m22
  have s4 := s A.m10 B.m00 A.m11 B.m10 A.m12 B.m20
  have s5 := s A.m10 B.m01 A.m11 B.m11 A.m12 B.m21
  have s6 := s A.m10 B.m02 A.m11 B.m12 A.m12 B.m22
  have s7 := s A.m20 B.m00 A.m21 B.m10 A.m22 B.m20
  have s8 := s A.m20 B.m01 A.m21 B.m11 A.m22 B.m21
  have s9 := s A.m20 B.m02 A.m21 B.m12 A.m22 B.m22
  simp [rotMul]
  linarith

theorem rotVec_err (h : F.Ok) (A : Rot) (v : Vec) : vdist (F.rotVec A v) (A * v) ≤ F.g3 * fro A * vlen v := by
  refine Real.sqrt_le_iff.mpr ⟨mul_nonneg (mul_nonneg (g3_nonneg h) (fro_nonneg _)) (vlen_nonneg _), ?_⟩
  rw [mul_pow, mul_pow, fro_sq, vlen_sq]
  have s1 := dot3_err_sq h A.m00 v.x A.m01 v.y A.m02 v.z
  have s2 := dot3_err_sq h A.m10 v.x A.m11 v.y A.m12 v.z
  have s3 := dot3_err_sq h A.m20 v.x A.m21 v.y A.m22 v.z
  simp [rotVec]
  linarith

theorem vecAdd_err (h : F.Ok) (a b : Vec) : vdist (F.vecAdd a b) (a + b) ≤ F.u * vlen (a + b) := by
  refine Real.sqrt_le_iff.mpr ⟨mul_nonneg h.nonneg (vlen_nonneg _), ?_⟩
  rw [mul_pow, vlen_sq]
  have s : ∀ x, (F.rnd x - x) ^ 2 ≤ F.u ^ 2 * x ^ 2 := by
    intro x
    have := pow_le_pow_left₀ (abs_nonneg _) (h.rnd x) 2
    rwa [mul_pow, sq_abs, sq_abs] at this
  have s1 := s (a.x + b.x)
  have s2 := s (a.y + b.y)
  have s3 := s (a.z + b.z)
  simp [vecAdd]
  linarith

end Fl
end KDL
