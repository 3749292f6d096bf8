import Verif.Model.NonFinite
import Verif.Lemmas.Frames

/-! # Arithmetic with infinities and NaN: what finite results say about the arguments -/

noncomputable section
namespace KDL
namespace Dbl

@[simp] theorem isFin_fin (x : ℝ) : (fin x).IsFin := trivial
@[simp] theorem not_isFin_inf (s : Bool) : ¬ (inf s).IsFin := id
@[simp] theorem not_isFin_nan : ¬ nan.IsFin := id
theorem isFin_iff {a : Dbl} : a.IsFin ↔ ∃ x, a = fin x := by
  cases a <;> simp

@[simp] theorem fin_add (x y : ℝ) : fin x + fin y = fin (x + y) := rfl
@[simp] theorem nan_add (a : Dbl) : nan + a = nan := by cases a <;> rfl
@[simp] theorem add_nan (a : Dbl) : a + nan = nan := by cases a <;> rfl
@[simp] theorem inf_add_fin (s : Bool) (x : ℝ) : inf s + fin x = inf s := rfl
@[simp] theorem fin_add_inf (s : Bool) (x : ℝ) : fin x + inf s = inf s := rfl
@[simp] theorem fin_neg (x : ℝ) : -fin x = fin (-x) := rfl
@[simp] theorem inf_neg (s : Bool) : -inf s = inf !s := rfl
@[simp] theorem nan_neg : -nan = nan := rfl
@[simp] theorem fin_sub (x y : ℝ) : fin x - fin y = fin (x - y) := congrArg fin (sub_eq_add_neg x y).symm
@[simp] theorem nan_sub (a : Dbl) : nan - a = nan := nan_add _
@[simp] theorem sub_nan (a : Dbl) : a - nan = nan := add_nan _
@[simp] theorem fin_mul (x y : ℝ) : fin x * fin y = fin (x * y) := rfl
@[simp] theorem nan_mul (a : Dbl) : nan * a = nan := by cases a <;> rfl
@[simp] theorem mul_nan (a : Dbl) : a * nan = nan := by cases a <;> rfl
@[simp] theorem nan_div (a : Dbl) : nan / a = nan := by cases a <;> rfl
@[simp] theorem div_nan (a : Dbl) : a / nan = nan := by cases a <;> rfl
@[simp] theorem inf_div_inf (s t : Bool) : inf s / inf t = nan := rfl
@[simp] theorem fin_div_inf (x : ℝ) (t : Bool) : fin x / inf t = fin 0 := rfl
theorem fin_div (x : ℝ) {y : ℝ} (hy : y ≠ 0) : fin x / fin y = fin (x / y) := if_neg hy
@[simp] theorem fin_lt (x y : ℝ) : fin x < fin y ↔ x < y := Iff.rfl
@[simp] theorem fin_le (x y : ℝ) : fin x ≤ fin y ↔ x ≤ y := Iff.rfl
@[simp] theorem not_nan_lt (a : Dbl) : ¬ nan < a := by cases a <;> exact id
@[simp] theorem not_lt_nan (a : Dbl) : ¬ a < nan := by cases a <;> exact id
@[simp] theorem not_nan_le (a : Dbl) : ¬ nan ≤ a := by cases a <;> exact id
@[simp] theorem not_le_nan (a : Dbl) : ¬ a ≤ nan := by cases a <;> exact id
@[simp] theorem fin_lt_inf (x : ℝ) (s : Bool) : fin x < inf s ↔ s = false := Iff.rfl
@[simp] theorem inf_lt_fin (x : ℝ) (s : Bool) : inf s < fin x ↔ s = true := Iff.rfl
@[simp] theorem inf_lt_inf (s t : Bool) : inf s < inf t ↔ s = true ∧ t = false := Iff.rfl
@[simp] theorem fin_le_inf (x : ℝ) (s : Bool) : fin x ≤ inf s ↔ s = false := Iff.rfl
@[simp] theorem inf_le_fin (x : ℝ) (s : Bool) : inf s ≤ fin x ↔ s = true := Iff.rfl
@[simp] theorem inf_le_inf (s t : Bool) : inf s ≤ inf t ↔ s = true ∨ t = false := Iff.rfl
@[simp] theorem abs_fin (x : ℝ) : (fin x).abs = fin |x| := rfl
@[simp] theorem abs_inf (s : Bool) : (inf s).abs = inf false := rfl
@[simp] theorem abs_nan : nan.abs = nan := rfl
@[simp] theorem sqrt_nan : nan.sqrt = nan := rfl
theorem sqrt_fin {x : ℝ} (h : 0 ≤ x) : (fin x).sqrt = fin (Real.sqrt x) := if_neg (not_lt.mpr h)
@[simp] theorem atan2_nan (a : Dbl) : Dbl.atan2 nan a = nan := by cases a <;> rfl
@[simp] theorem atan2_fin (x y : ℝ) : Dbl.atan2 (fin x) (fin y) = fin (KDL.atan2 x y) := rfl
@[simp] theorem sin_fin (x : ℝ) : (fin x).sin = fin (Real.sin x) := rfl
@[simp] theorem cos_fin (x : ℝ) : (fin x).cos = fin (Real.cos x) := rfl

@[simp] theorem isFin_add (a b : Dbl) : (a + b).IsFin ↔ a.IsFin ∧ b.IsFin := by
  cases a <;> cases b <;> simp
  rename_i s t
  show ¬ IsFin (if s = t then inf s else nan)
  split_ifs <;> simp
@[simp] theorem isFin_neg (a : Dbl) : (-a).IsFin ↔ a.IsFin := by cases a <;> simp
@[simp] theorem isFin_sub (a b : Dbl) : (a - b).IsFin ↔ a.IsFin ∧ b.IsFin := by
  show (a + -b).IsFin ↔ _
  simp
theorem not_isFin_infMul (s : Bool) (x : ℝ) : ¬ (infMul s x).IsFin := by
  unfold infMul; split_ifs <;> simp
@[simp] theorem isFin_mul (a b : Dbl) : (a * b).IsFin ↔ a.IsFin ∧ b.IsFin := by
  cases a <;> cases b <;> simp
  · exact not_isFin_infMul _ _
  · exact not_isFin_infMul _ _
  · exact id
theorem isFin_div (a : Dbl) {c : ℝ} (hc : c ≠ 0) : (a / fin c).IsFin ↔ a.IsFin := by
  cases a with
  | fin x => rw [fin_div x hc]; simp
  | nan => simp
  | inf s =>
    show IsFin (if 0 ≤ c then inf s else inf !s) ↔ _
    split_ifs <;> simp
/-- A quotient of finite numbers is not finite if the divisor is zero. -/
theorem not_isFin_div_zero (x : ℝ) : ¬ (fin x / fin 0).IsFin := by
  show ¬ IsFin (if (0 : ℝ) = 0 then infMul false x else _)
  rw [if_pos rfl]; exact not_isFin_infMul _ _
@[simp] theorem isFin_abs (a : Dbl) : a.abs.IsFin ↔ a.IsFin := by cases a <;> simp
@[simp] theorem isFin_sin (a : Dbl) : a.sin.IsFin ↔ a.IsFin := by cases a <;> simp [sin]
@[simp] theorem isFin_cos (a : Dbl) : a.cos.IsFin ↔ a.IsFin := by cases a <;> simp [cos]
/-- An absolute value below a finite bound is finite. -/
theorem isFin_of_abs_lt {a : Dbl} {e : ℝ} (h : a.abs < fin e) : a.IsFin := by cases a <;> simp_all

/-- `Equal` holds only for finite numbers. -/
theorem equal_isFin {a b e : Dbl} (h : Dbl.equal a b e) : a.IsFin ∧ b.IsFin := by
  rw [← isFin_sub]
  unfold Dbl.equal at h
  generalize a - b = d at h
  obtain ⟨h1, h2⟩ := h
  cases d with
  | fin x => trivial
  | nan => simp at h1
  | inf s => cases e <;> simp_all

theorem equal_fin (x y e : ℝ) : Dbl.equal (fin x) (fin y) (fin e) ↔ realEqual x y e := by
  unfold Dbl.equal realEqual; simp

end Dbl

open Dbl

theorem DVec.isFin_iff {v : DVec} : v.IsFin ↔ ∃ w : Vec, v = w.toD := by
  constructor
  · rintro ⟨hx, hy, hz⟩
    obtain ⟨x, hx⟩ := Dbl.isFin_iff.mp hx
    obtain ⟨y, hy⟩ := Dbl.isFin_iff.mp hy
    obtain ⟨z, hz⟩ := Dbl.isFin_iff.mp hz
    exact ⟨⟨x, y, z⟩, DVec.ext hx hy hz⟩
  · rintro ⟨w, rfl⟩; exact ⟨trivial, trivial, trivial⟩

theorem DRot.isFin_iff {R : DRot} : R.IsFin ↔ ∃ S : Rot, R = S.toD := by
  constructor
  · rintro ⟨h0, h1, h2, h3, h4, h5, h6, h7, h8⟩
    obtain ⟨a, h0⟩ := Dbl.isFin_iff.mp h0
    obtain ⟨b, h1⟩ := Dbl.isFin_iff.mp h1
    obtain ⟨c, h2⟩ := Dbl.isFin_iff.mp h2
    obtain ⟨d, h3⟩ := Dbl.isFin_iff.mp h3
    obtain ⟨e, h4⟩ := Dbl.isFin_iff.mp h4
    obtain ⟨f, h5⟩ := Dbl.isFin_iff.mp h5
    obtain ⟨g, h6⟩ := Dbl.isFin_iff.mp h6
    obtain ⟨h, h7⟩ := Dbl.isFin_iff.mp h7
    obtain ⟨i, h8⟩ := Dbl.isFin_iff.mp h8
    exact ⟨⟨a, b, c, d, e, f, g, h, i⟩, DRot.ext h0 h1 h2 h3 h4 h5 h6 h7 h8⟩
  · rintro ⟨S, rfl⟩; simp [DRot.IsFin, Rot.toD]

theorem DFrame.isFin_iff {F : DFrame} : F.IsFin ↔ ∃ G : Frame, F = G.toD := by
  constructor
  · rintro ⟨h1, h2⟩
    obtain ⟨M, h1⟩ := DRot.isFin_iff.mp h1
    obtain ⟨p, h2⟩ := DVec.isFin_iff.mp h2
    exact ⟨⟨M, p⟩, DFrame.ext h1 h2⟩
  · rintro ⟨G, rfl⟩; exact ⟨DRot.isFin_iff.mpr ⟨_, rfl⟩, DVec.isFin_iff.mpr ⟨_, rfl⟩⟩

/-! ## products -/

theorem DRot.isFin_mul (A B : DRot) : (A * B).IsFin ↔ A.IsFin ∧ B.IsFin := by
  show DRot.IsFin (DRot.mk _ _ _ _ _ _ _ _ _) ↔ _
  simp only [DRot.IsFin, Dbl.isFin_add, Dbl.isFin_mul]
  tauto

theorem DRot.isFin_inv (A : DRot) : A.inv.IsFin ↔ A.IsFin := by
  simp only [DRot.IsFin, DRot.inv]; tauto

theorem DFrame.isFin_mul (A B : DFrame) : (A * B).IsFin ↔ A.IsFin ∧ B.IsFin := by
  show DFrame.IsFin (DFrame.mk _ _) ↔ _
  unfold DFrame.IsFin
  dsimp only
  rw [DRot.isFin_mul]
  show _ ∧ DVec.IsFin (DVec.mk _ _ _) ↔ _
  simp only [DVec.IsFin, DRot.app, Dbl.isFin_add, Dbl.isFin_mul, DRot.IsFin]
  tauto

theorem Rot.toD_mul (A B : Rot) : (A * B).toD = A.toD * B.toD := by
  show Rot.toD (Rot.mk _ _ _ _ _ _ _ _ _) = DRot.mk _ _ _ _ _ _ _ _ _
  simp [Rot.toD]
theorem Rot.toD_app (A : Rot) (v : Vec) : (A * v).toD = A.toD.app v.toD := by
  show Vec.toD (Vec.mk _ _ _) = DVec.mk _ _ _
  simp [Rot.toD, Vec.toD]
theorem Rot.toD_inv (A : Rot) : A.inv.toD = A.toD.inv := rfl
theorem Frame.toD_mul (A B : Frame) : (A * B).toD = A.toD * B.toD := by
  show Frame.toD (Frame.mk _ _) = DFrame.mk _ _
  rw [Frame.toD]
  dsimp only
  rw [Rot.toD_mul]
  congr 1

/-! ## norm -/

/-- Two components that are not finite make the norm NaN. -/
theorem DVec.norm_nan (v : DVec) (h : (¬ v.x.IsFin ∧ ¬ v.y.IsFin) ∨ (¬ v.x.IsFin ∧ ¬ v.z.IsFin) ∨ (¬ v.y.IsFin ∧ ¬ v.z.IsFin)) :
    v.norm = nan := by
  obtain ⟨x, y, z⟩ := v
  cases x <;> cases y <;> cases z <;> simp_all [DVec.norm]

theorem DVec.norm_fin (v : Vec) : v.toD.norm = fin v.norm := by
  have hl : ∀ {m : ℝ} (a b : ℝ), m ≠ 0 →
      (fin m).abs * Dbl.sqrt (fin 1 + fin a / fin m * (fin a / fin m) + fin b / fin m * (fin b / fin m)) =
        fin (|m| * Real.sqrt (1 + (a / m) ^ 2 + (b / m) ^ 2)) := by
    intro m a b hm
    rw [fin_div _ hm, fin_div _ hm, fin_mul, fin_mul, fin_add, fin_add, sqrt_fin (by nlinarith [sq_nonneg (a / m), sq_nonneg (b / m)]),
      abs_fin, fin_mul, pow_two, pow_two]
  unfold DVec.norm Vec.norm
  simp only [Vec.toD, abs_fin, fin_le, fin_lt, ge_iff_le, gt_iff_lt]
  have hl' := fun (m a b : ℝ) (hm : m ≠ 0) => hl a b hm
  simp only [abs_fin] at hl'
  by_cases h1 : |v.y| ≤ |v.x|
  · rw [if_pos h1, if_pos h1]
    by_cases h2 : |v.z| ≤ |v.x|
    · rw [if_pos h2, if_pos h2]
      by_cases h3 : |v.x| < epsilon
      · rw [if_pos h3, if_pos h3]
      · rw [if_neg h3, if_neg h3]
        refine hl' _ _ _ fun h => h3 ?_
        rw [h, abs_zero]; unfold epsilon; norm_num
    · rw [if_neg h2, if_neg h2]
      refine hl' _ _ _ fun h => h2 ?_
      rw [h, abs_zero]; exact abs_nonneg _
  · rw [if_neg h1, if_neg h1]
    by_cases h2 : |v.z| < |v.y|
    · rw [if_pos h2, if_pos h2]
      refine hl' _ _ _ fun h => h1 ?_
      rw [h, abs_zero]; exact abs_nonneg _
    · rw [if_neg h2, if_neg h2]
      refine hl' _ _ _ fun h => h1 ?_
      rw [h, abs_zero] at h2
      exact (not_lt.mp h2).trans (abs_nonneg _)

theorem DVec.normalize_fin (v : Vec) : v.toD.normalize = v.normalize.1.toD := by
  unfold DVec.normalize Vec.normalize
  rw [DVec.norm_fin, fin_lt]
  by_cases h : v.norm < epsilon
  · rw [if_pos h]; dsimp only; rw [if_pos h]; rfl
  · have hn : v.norm ≠ 0 := fun h0 => h (by rw [h0]; unfold epsilon; norm_num)
    rw [if_neg h]; dsimp only; rw [if_neg h]
    show DVec.mk (fin v.x / fin v.norm) (fin v.y / fin v.norm) (fin v.z / fin v.norm) = _
    rw [fin_div _ hn, fin_div _ hn, fin_div _ hn]; rfl

theorem DVec.scale_nan (v : DVec) : v.scale nan = ⟨nan, nan, nan⟩ := by simp [DVec.scale]

theorem DVec.scale_fin (v : Vec) (c : ℝ) : v.toD.scale (fin c) = (c • v).toD := by
  show DVec.mk (fin (v.x * c)) (fin (v.y * c)) (fin (v.z * c)) = Vec.toD (Vec.mk (c * v.x) (c * v.y) (c * v.z))
  simp only [Vec.toD, mul_comm]

/-! ## rotation vector -/

/-- A row or a column that is not finite makes the rotation vector NaN. -/
theorem DRot.getRot_nan (R : DRot)
    (h : (¬ R.m01.IsFin ∧ ¬ R.m02.IsFin) ∨ (¬ R.m10.IsFin ∧ ¬ R.m12.IsFin) ∨ (¬ R.m20.IsFin ∧ ¬ R.m21.IsFin) ∨
      (¬ R.m10.IsFin ∧ ¬ R.m20.IsFin) ∨ (¬ R.m01.IsFin ∧ ¬ R.m21.IsFin) ∨ (¬ R.m02.IsFin ∧ ¬ R.m12.IsFin)) :
    R.getRot = ⟨nan, nan, nan⟩ := by
  unfold DRot.getRot
  dsimp only
  rw [if_neg]
  · rw [DVec.norm_nan]
    · simp [DVec.scale]
    · dsimp only
      simp only [Dbl.isFin_sub]
      tauto
  · rintro ⟨h1, h2, h3⟩
    have h1 := Dbl.isFin_of_abs_lt h1
    have h2 := Dbl.isFin_of_abs_lt h2
    have h3 := Dbl.isFin_of_abs_lt h3
    rw [Dbl.isFin_sub] at h1 h2 h3
    tauto

/-- The rotation vector of a finite matrix: that of the real model, or not finite. -/
theorem DRot.getRot_real (R : Rot) (h : R.toD.getRot.IsFin) : R.toD.getRot = R.getRot.toD := by
  have hsel : ∀ {a : ℝ} (b : ℝ), ((fin a).sqrt).IsFin → (fin b / (fin a).sqrt).IsFin →
      0 ≤ a ∧ Real.sqrt a ≠ 0 := by
    intro a b h1 h2
    have ha : 0 ≤ a := by
      by_contra hn
      have : (fin a).sqrt = nan := if_pos (not_le.mp hn)
      rw [this] at h1; exact h1
    refine ⟨ha, fun h0 => ?_⟩
    rw [sqrt_fin ha, h0] at h2
    exact not_isFin_div_zero _ h2
  unfold DRot.getRot Rot.getRot Rot.getRotAngle at *
  simp only [Rot.toD, fin_sub, fin_add, fin_mul, abs_fin, fin_lt, gt_iff_lt, fin_div _ (two_ne_zero (α := ℝ)),
    fin_div _ (four_ne_zero (α := ℝ))] at h ⊢
  by_cases c1 : |R.m01 - R.m10| < epsilon ∧ |R.m02 - R.m20| < epsilon ∧ |R.m12 - R.m21| < epsilon
  · rw [if_pos c1] at h ⊢
    rw [if_pos c1]
    by_cases c2 : |R.m01 + R.m10| < epsilon * 10 ∧ |R.m02 + R.m20| < epsilon * 10 ∧ |R.m12 + R.m21| < epsilon * 10
        ∧ |R.m00 + R.m11 + R.m22 - 3| < epsilon * 10
    · rw [if_pos c2] at h ⊢
      rw [if_pos c2]
      exact DVec.scale_fin ⟨0, 0, 1⟩ 0
    · rw [if_neg c2] at h ⊢
      rw [if_neg c2]
      by_cases c3 : (R.m11 + 1) / 2 < (R.m00 + 1) / 2 ∧ (R.m22 + 1) / 2 < (R.m00 + 1) / 2
      · rw [if_pos c3] at h ⊢
        rw [if_pos c3]
        simp only [DVec.IsFin, DVec.scale, Dbl.isFin_mul] at h
        obtain ⟨p1, p2⟩ := hsel ((R.m01 + R.m10) / 4) h.1.1 h.2.1.1
        rw [sqrt_fin p1, fin_div _ p2, fin_div _ p2]
        exact DVec.scale_fin ⟨_, _, _⟩ _
      · rw [if_neg c3] at h ⊢
        rw [if_neg c3]
        by_cases c4 : (R.m22 + 1) / 2 < (R.m11 + 1) / 2
        · rw [if_pos c4] at h ⊢
          rw [if_pos c4]
          simp only [DVec.IsFin, DVec.scale, Dbl.isFin_mul] at h
          obtain ⟨p1, p2⟩ := hsel ((R.m01 + R.m10) / 4) h.2.1.1 h.1.1
          rw [sqrt_fin p1, fin_div _ p2, fin_div _ p2]
          exact DVec.scale_fin ⟨_, _, _⟩ _
        · rw [if_neg c4] at h ⊢
          rw [if_neg c4]
          simp only [DVec.IsFin, DVec.scale, Dbl.isFin_mul] at h
          obtain ⟨p1, p2⟩ := hsel ((R.m02 + R.m20) / 4) h.2.2.1 h.1.1
          rw [sqrt_fin p1, fin_div _ p2, fin_div _ p2]
          exact DVec.scale_fin ⟨_, _, _⟩ _
  · rw [if_neg c1] at h ⊢
    rw [if_neg c1]
    have e : (DVec.mk (fin (R.m21 - R.m12)) (fin (R.m02 - R.m20)) (fin (R.m10 - R.m01))) =
      (Vec.mk (R.m21 - R.m12) (R.m02 - R.m20) (R.m10 - R.m01)).toD := rfl
    rw [e, DVec.norm_fin, DVec.normalize_fin, fin_div _ two_ne_zero, atan2_fin]
    exact DVec.scale_fin _ _

/-- The rotation vector of a finite matrix is finite if a diagonal entry is above `-1`. -/
theorem DRot.getRot_isFin (R : Rot) (h : -3 < R.m00 + R.m11 + R.m22) : R.toD.getRot.IsFin := by
  have hsel : ∀ {a : ℝ}, 0 < a → (fin a).sqrt = fin (Real.sqrt a) ∧ Real.sqrt a ≠ 0 := fun ha =>
    ⟨sqrt_fin ha.le, (Real.sqrt_pos.mpr ha).ne'⟩
  unfold DRot.getRot
  simp only [Rot.toD, fin_sub, fin_add, fin_mul, abs_fin, fin_lt, fin_div _ (two_ne_zero (α := ℝ)),
    fin_div _ (four_ne_zero (α := ℝ))]
  split_ifs with c1 c2 c3 c4
  · simp [DVec.IsFin, DVec.scale]
  · obtain ⟨p1, p2⟩ := hsel (a := (R.m00 + 1) / 2) (by linarith [c3.1, c3.2])
    rw [p1, fin_div _ p2, fin_div _ p2]
    simp [DVec.IsFin, DVec.scale]
  · obtain ⟨p1, p2⟩ := hsel (a := (R.m11 + 1) / 2) (by
      rw [not_and_or, not_lt, not_lt] at c3
      rcases c3 with c3 | c3 <;> linarith)
    rw [p1, fin_div _ p2, fin_div _ p2]
    simp [DVec.IsFin, DVec.scale]
  · obtain ⟨p1, p2⟩ := hsel (a := (R.m22 + 1) / 2) (by
      rw [not_and_or, not_lt, not_lt] at c3
      rcases c3 with c3 | c3 <;> linarith)
    rw [p1, fin_div _ p2, fin_div _ p2]
    simp [DVec.IsFin, DVec.scale]
  · have e : (DVec.mk (fin (R.m21 - R.m12)) (fin (R.m02 - R.m20)) (fin (R.m10 - R.m01))) =
      (Vec.mk (R.m21 - R.m12) (R.m02 - R.m20) (R.m10 - R.m01)).toD := rfl
    rw [e, DVec.norm_fin, DVec.normalize_fin, fin_div _ two_ne_zero, atan2_fin, DVec.scale_fin]
    exact ⟨trivial, trivial, trivial⟩

theorem Rot.IsProper.trace_gt {R : Rot} (h : R.IsProper) : -3 < R.m00 + R.m11 + R.m22 := by
  have a0 : R.m00 * R.m00 + R.m01 * R.m01 + R.m02 * R.m02 = 1 := congrArg Rot.m00 h.orth
  have a1 : R.m10 * R.m10 + R.m11 * R.m11 + R.m12 * R.m12 = 1 := congrArg Rot.m11 h.orth
  have a2 : R.m20 * R.m20 + R.m21 * R.m21 + R.m22 * R.m22 = 1 := congrArg Rot.m22 h.orth
  have b0 : -1 ≤ R.m00 := by nlinarith [sq_nonneg R.m01, sq_nonneg R.m02, sq_nonneg (R.m00 - 1)]
  have b1 : -1 ≤ R.m11 := by nlinarith [sq_nonneg R.m10, sq_nonneg R.m12]
  have b2 : -1 ≤ R.m22 := by nlinarith [sq_nonneg R.m20, sq_nonneg R.m21]
  by_contra hn
  have c0 : R.m00 = -1 := by linarith
  have c1 : R.m11 = -1 := by linarith
  have c2 : R.m22 = -1 := by linarith
  have d01 : R.m01 = 0 := by nlinarith [sq_nonneg R.m01, sq_nonneg R.m02]
  have d02 : R.m02 = 0 := by nlinarith [sq_nonneg R.m01, sq_nonneg R.m02]
  have d10 : R.m10 = 0 := by nlinarith [sq_nonneg R.m10, sq_nonneg R.m12]
  have d12 : R.m12 = 0 := by nlinarith [sq_nonneg R.m10, sq_nonneg R.m12]
  have hd := h.det
  unfold Rot.det at hd
  rw [c0, c1, c2, d01, d02, d10, d12] at hd
  norm_num at hd

/-- Sums of terms of which one is not finite. -/
theorem Dbl.foldl_add {ι : Type} (t : ι → Dbl) : ∀ (l : List ι) (a : Dbl),
    (l.foldl (fun acc j => acc + t j) a).IsFin ↔ a.IsFin ∧ ∀ j ∈ l, (t j).IsFin := by
  intro l
  induction l with
  | nil => intro a; simp
  | cons j l ih => intro a; rw [List.foldl_cons, ih, isFin_add]; simp [and_assoc]

theorem Dbl.foldl_fin {ι : Type} (u : ι → ℝ) : ∀ (l : List ι) (a : ℝ),
    l.foldl (fun acc j => acc + fin (u j)) (fin a) = fin (a + (l.map u).sum) := by
  intro l
  induction l with
  | nil => intro a; simp
  | cons j l ih => intro a; rw [List.foldl_cons, fin_add, ih, List.map_cons, List.sum_cons, add_assoc]

theorem Dbl.foldl_nan {ι : Type} (t : ι → Dbl) : ∀ (l : List ι) (a : Dbl), (a = nan ∨ ∃ j ∈ l, t j = nan) →
    l.foldl (fun acc j => acc + t j) a = nan := by
  intro l
  induction l with
  | nil => intro a h; simpa using h
  | cons j l ih =>
    intro a h
    rw [List.foldl_cons]
    refine ih _ ?_
    rcases h with rfl | ⟨k, hk, h⟩
    · exact Or.inl (by simp)
    · rcases List.mem_cons.mp hk with rfl | hk
      · exact Or.inl (by rw [h]; simp)
      · exact Or.inr ⟨k, hk, h⟩

end KDL
