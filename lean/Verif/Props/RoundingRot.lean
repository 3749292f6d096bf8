import Verif.Model.RoundingRot
import Verif.Props.RoundingDH
import Verif.Lemmas.Rotations
import Verif.Lemmas.RoundingIk

/-! C112: rounding errors of rotation matrices made from angles and quaternions, and of turns in place. -/

namespace KDL

/-! ## bounds -/

/-- Sine or cosine of a rounded angle of magnitude at most 4. -/
def scB : VErr := ⟨6 / 2 ^ 53, 1⟩
def u53 : ℚ := 1 / 2 ^ 53
/-- An entry with a product of three and one of two. -/
def rpyB : VErr := ((scB.mul u53 scB).mul u53 scB).add u53 (scB.mul u53 scB)
theorem rpyB_le : rpyB.e ≤ 4 / 10 ^ 15 := by decide +kernel
theorem sc2_le : (scB.mul u53 scB).e ≤ 4 / 10 ^ 15 := by decide +kernel
theorem sc1_le : scB.e ≤ 4 / 10 ^ 15 := by decide +kernel
/-- Squares and doubled products of numbers of magnitude at most 1. -/
def quB : VErr := ⟨1 / 2 ^ 53, 1⟩
def diagB : VErr :=
  (((quB.mul u53 quB).add u53 (quB.mul u53 quB)).add u53 (quB.mul u53 quB)).add u53 (quB.mul u53 quB)
def twB : VErr := (VErr.mul u53 ⟨0, 2⟩ quB).mul u53 quB
theorem diagB_le : diagB.e ≤ 3 / 10 ^ 15 := by decide +kernel
theorem offB_le : (twB.add u53 twB).e ≤ 3 / 10 ^ 15 := by decide +kernel
/-- A turn of entries of magnitude at most 1.001. -/
def turnB : VErr := (scB.mul u53 ⟨0, 1001 / 1000⟩).add u53 (scB.mul u53 ⟨0, 1001 / 1000⟩)
theorem turnB_le : turnB.e ≤ 2 / 10 ^ 15 := by decide +kernel

noncomputable section

/-! ## vocabulary -/

/-- A turn about an axis of the moving frame. -/
inductive Turn | X | Y | Z

/-- The rotation of a turn. -/
def Turn.rot : Turn → ℝ → Rot
  | .X, a => Rot.rotX a
  | .Y, a => Rot.rotY a
  | .Z, a => Rot.rotZ a
/-- The function that makes it in place. -/
def Turn.run (F : Fl) : Turn → Rot → ℝ → Rot
  | .X, R, a => F.doRotX R a
  | .Y, R, a => F.doRotY R a
  | .Z, R, a => F.doRotZ R a

/-- The angle `a` is the angle `a'` rounded. -/
def Angle (F : Fl) (a a' : ℝ) : Prop := Rounded F.u a a' ∧ |a'| ≤ 4

/-! ## helpers -/

section
variable {F : Fl} (hF : F.Ok) (hu : F.u = 1 / 2 ^ 53)
include hF hu

theorem u53_ge : F.u ≤ u53 := by rw [hu, u53]; push_cast; exact le_rfl

theorem angle_dist {a a' : ℝ} (h : Angle F a a') : |a - a'| ≤ 4 / 2 ^ 53 := by
  obtain ⟨h1, h2⟩ := h
  unfold Rounded at h1
  rw [hu] at h1
  norm_num at h1 h2 ⊢
  linarith
theorem sb_sin {a a' : ℝ} (h : Angle F a a') : SB scB (F.sin a) (Real.sin a') := by
  refine ⟨?_, by simpa [scB] using Real.abs_sin_le_one a'⟩
  have h1 := hF.sin a
  have h2 := (sin_near a a').trans (angle_dist hF hu h)
  have h3 := abs_add_le (F.sin a - Real.sin a) (Real.sin a - Real.sin a')
  rw [sub_add_sub_cancel] at h3
  rw [hu] at h1
  simp only [scB]
  push_cast
  norm_num at h1 h2 h3 ⊢
  linarith
theorem sb_cos {a a' : ℝ} (h : Angle F a a') : SB scB (F.cos a) (Real.cos a') := by
  refine ⟨?_, by simpa [scB] using Real.abs_cos_le_one a'⟩
  have h1 := hF.cos a
  have h2 := (cos_near a a').trans (angle_dist hF hu h)
  have h3 := abs_add_le (F.cos a - Real.cos a) (Real.cos a - Real.cos a')
  rw [sub_add_sub_cancel] at h3
  rw [hu] at h1
  simp only [scB]
  push_cast
  norm_num at h1 h2 h3 ⊢
  linarith

omit hu in
theorem full_ok : (FlD.mk F fun I v => F.rotVec (asRot I) v).Ok := C109_matvec F hF

theorem r_mul {x y : VErr} {a a' b b' : ℝ} (h1 : SB x a a') (h2 : SB y b b') : SB (x.mul u53 y) (F.rnd (a * b)) (a' * b') :=
  SB.mul (full_ok hF) (u53_ge hF hu) h1 h2
theorem r_add {x y : VErr} {a a' b b' : ℝ} (h1 : SB x a a') (h2 : SB y b b') : SB (x.add u53 y) (F.rnd (a + b)) (a' + b') :=
  SB.add (full_ok hF) (u53_ge hF hu) h1 h2
theorem r_sub {x y : VErr} {a a' b b' : ℝ} (h1 : SB x a a') (h2 : SB y b b') : SB (x.add u53 y) (F.rnd (a - b)) (a' - b') :=
  SB.sub (full_ok hF) (u53_ge hF hu) h1 h2

omit hF hu in
theorem SB.le {x : VErr} {a a' : ℝ} {e : ℚ} (h : SB x a a') (hx : x.e ≤ e) : |a - a'| ≤ e := h.1.trans (by exact_mod_cast hx)

theorem m3 {a a' b b' c c' d d' f f' : ℝ} (ha : SB scB a a') (hb : SB scB b b') (hc : SB scB c c') (hd : SB scB d d') (hf : SB scB f f') :
    |F.rnd (F.rnd (F.rnd (a * b) * c) + F.rnd (d * f)) - (a' * b' * c' + d' * f')| ≤ 4 / 10 ^ 15 ∧
    |F.rnd (F.rnd (F.rnd (a * b) * c) - F.rnd (d * f)) - (a' * b' * c' - d' * f')| ≤ 4 / 10 ^ 15 := by
  have h1 := (r_add hF hu (r_mul hF hu (r_mul hF hu ha hb) hc) (r_mul hF hu hd hf)).le rpyB_le
  have h2 := (r_sub hF hu (r_mul hF hu (r_mul hF hu ha hb) hc) (r_mul hF hu hd hf)).le rpyB_le
  push_cast at h1 h2
  exact ⟨h1, h2⟩
theorem m2 {a a' b b' : ℝ} (ha : SB scB a a') (hb : SB scB b b') : |F.rnd (a * b) - a' * b'| ≤ 4 / 10 ^ 15 := by
  have h := (r_mul hF hu ha hb).le sc2_le
  push_cast at h
  exact h
omit hF hu in
theorem m1 {a a' : ℝ} (ha : SB scB a a') : |a - a'| ≤ 4 / 10 ^ 15 := by
  have h := ha.le sc1_le
  push_cast at h
  exact h

omit hF hu in
/-- The entries of a proper rotation. -/
theorem entry_le {R : Rot} (h : R.IsProper) : |R.m00| ≤ 1 ∧ |R.m01| ≤ 1 ∧ |R.m02| ≤ 1 ∧ |R.m10| ≤ 1 ∧ |R.m11| ≤ 1 ∧ |R.m12| ≤ 1 ∧
    |R.m20| ≤ 1 ∧ |R.m21| ≤ 1 ∧ |R.m22| ≤ 1 := by
  have o := h.orth
  have o0 := congrArg Rot.m00 o
  have o1 := congrArg Rot.m11 o
  have o2 := congrArg Rot.m22 o
  simp at o0 o1 o2
  refine ⟨?_, ?_, ?_, ?_, ?_, ?_, ?_, ?_, ?_⟩ <;> refine abs_le_one_iff_mul_self_le_one.mpr ?_ <;>
    nlinarith [sq_nonneg R.m00, sq_nonneg R.m01, sq_nonneg R.m02, sq_nonneg R.m10, sq_nonneg R.m11, sq_nonneg R.m12, sq_nonneg R.m20,
      sq_nonneg R.m21, sq_nonneg R.m22]
end

/-! ## C112 -/

/-- Roll, pitch and yaw: the matrix made from rounded angles of magnitude at most 4 is within `12e-15` of the ideal rotation, about the
fixed axes x, y, z in this order. -/
theorem C112_rpy (F : Fl) (hF : F.Ok) (hu : F.u = 1 / 2 ^ 53) (r p y r' p' y' : ℝ) (hr : Angle F r r') (hp : Angle F p p') (hy : Angle F y y') :
    rdist (F.rpy r p y) (Rot.rotZ y' * Rot.rotY p' * Rot.rotX r') ≤ 12 / 10 ^ 15 := by
  rw [← Rot.rpy_eq]
  have ca := sb_cos hF hu hy
  have sa := sb_sin hF hu hy
  have cb := sb_cos hF hu hp
  have sb := sb_sin hF hu hp
  have cc := sb_cos hF hu hr
  have sc := sb_sin hF hu hr
  exact (rdist_le (e := 4 / 10 ^ 15) ⟨m2 hF hu ca cb, (m3 hF hu ca sb sc sa cc).2, (m3 hF hu ca sb cc sa sc).1, m2 hF hu sa cb,
    (m3 hF hu sa sb sc ca cc).1, (m3 hF hu sa sb cc ca sc).2, m1 sb.neg, m2 hF hu cb sc, m2 hF hu cb cc⟩).trans (by norm_num)

/-- Euler angles z, y, x about the moving axes. -/
theorem C112_eulerZYX (F : Fl) (hF : F.Ok) (hu : F.u = 1 / 2 ^ 53) (a b c a' b' c' : ℝ) (ha : Angle F a a') (hb : Angle F b b') (hc : Angle F c c') :
    rdist (F.eulerZYX a b c) (Rot.rotZ a' * Rot.rotY b' * Rot.rotX c') ≤ 12 / 10 ^ 15 := C112_rpy F hF hu c b a c' b' a' hc hb ha

/-- Euler angles z, y, z about the moving axes. -/
theorem C112_eulerZYZ (F : Fl) (hF : F.Ok) (hu : F.u = 1 / 2 ^ 53) (a b c a' b' c' : ℝ) (ha : Angle F a a') (hb : Angle F b b') (hc : Angle F c c') :
    rdist (F.eulerZYZ a b c) (Rot.rotZ a' * Rot.rotY b' * Rot.rotZ c') ≤ 12 / 10 ^ 15 := by
  rw [← Rot.eulerZYZ_eq]
  have ca := sb_cos hF hu ha
  have sa := sb_sin hF hu ha
  have cb := sb_cos hF hu hb
  have sb := sb_sin hF hu hb
  have cg := sb_cos hF hu hc
  have sg := sb_sin hF hu hc
  exact (rdist_le (e := 4 / 10 ^ 15) ⟨(m3 hF hu ca cb cg sa sg).2, (m3 hF hu ca.neg cb sg sa cg).2, m2 hF hu ca sb, (m3 hF hu sa cb cg ca sg).1,
    (m3 hF hu sa.neg cb sg ca cg).1, m2 hF hu sa sb, m2 hF hu sb.neg cg, m2 hF hu sb sg, m1 cb⟩).trans (by norm_num)

/-- The matrix of a unit quaternion whose coordinates are rounded: it is within `9e-15` of the ideal one, a proper rotation. -/
theorem C112_quaternion (F : Fl) (hF : F.Ok) (hu : F.u = 1 / 2 ^ 53) (x y z w x' y' z' w' : ℝ) (hx : Rounded F.u x x') (hy : Rounded F.u y y')
    (hz : Rounded F.u z z') (hw : Rounded F.u w w') (h1 : x' * x' + y' * y' + z' * z' + w' * w' = 1) :
    rdist (F.quaternion x y z w) (Rot.quaternion x' y' z' w') ≤ 9 / 10 ^ 15 ∧ (Rot.quaternion x' y' z' w').IsProper := by
  refine ⟨?_, Rot.isProper_quaternion x' y' z' w' h1⟩
  have q : ∀ {a a' : ℝ}, Rounded F.u a a' → a' * a' ≤ 1 → SB quB a a' := by
    intro a a' h l
    have l' := abs_le_one_iff_mul_self_le_one.mpr l
    refine ⟨?_, by simpa [quB] using l'⟩
    unfold Rounded at h
    rw [hu] at h
    simp only [quB]
    push_cast
    norm_num at h ⊢
    linarith
  have sx := q hx (by nlinarith [mul_self_nonneg y', mul_self_nonneg z', mul_self_nonneg w'])
  have sy := q hy (by nlinarith [mul_self_nonneg x', mul_self_nonneg z', mul_self_nonneg w'])
  have sz := q hz (by nlinarith [mul_self_nonneg x', mul_self_nonneg y', mul_self_nonneg w'])
  have sw := q hw (by nlinarith [mul_self_nonneg x', mul_self_nonneg y', mul_self_nonneg z'])
  have s2 : SB ⟨0, 2⟩ 2 2 := ⟨by simp, by simp⟩
  have t : ∀ {a a' b b' : ℝ}, SB quB a a' → SB quB b b' → SB twB (F.twice a b) (2 * a' * b') :=
    fun ha hb => r_mul hF hu (r_mul hF hu s2 ha) hb
  have off : ∀ {a a' b b' : ℝ}, SB twB a a' → SB twB b b' → |F.rnd (a + b) - (a' + b')| ≤ 3 / 10 ^ 15 ∧ |F.rnd (a - b) - (a' - b')| ≤ 3 / 10 ^ 15 := by
    intro a a' b b' ha hb
    have h1 := (r_add hF hu ha hb).le offB_le
    have h2 := (r_sub hF hu ha hb).le offB_le
    push_cast at h1 h2
    exact ⟨h1, h2⟩
  have dg : ∀ {a a' : ℝ}, SB diagB a a' → |a - a'| ≤ 3 / 10 ^ 15 := by
    intro a a' h
    have h1 := h.le diagB_le
    push_cast at h1
    exact h1
  have xx := r_mul hF hu sx sx
  have yy := r_mul hF hu sy sy
  have zz := r_mul hF hu sz sz
  have ww := r_mul hF hu sw sw
  have d0 := dg (r_sub hF hu (r_sub hF hu (r_add hF hu ww xx) yy) zz)
  have d1 := dg (r_sub hF hu (r_add hF hu (r_sub hF hu ww xx) yy) zz)
  have d2 := dg (r_add hF hu (r_sub hF hu (r_sub hF hu ww xx) yy) zz)
  exact (rdist_le (e := 3 / 10 ^ 15) ⟨d0, (off (t sx sy) (t sw sz)).2, (off (t sx sz) (t sw sy)).1,
    (off (t sx sy) (t sw sz)).1, d1, (off (t sy sz) (t sw sx)).2,
    (off (t sx sz) (t sw sy)).2, (off (t sy sz) (t sw sx)).1, d2⟩).trans (by norm_num)

/-- One turn in place adds at most `6e-15` to the distance from the ideal rotation, if that distance is at most 0.001. -/
theorem C112_turn (F : Fl) (hF : F.Ok) (hu : F.u = 1 / 2 ^ 53) (t : Turn) (R R' : Rot) (h : R'.IsProper) (hd : rdist R R' ≤ 1 / 1000) (a a' : ℝ)
    (ha : Angle F a a') : rdist (t.run F R a) (R' * t.rot a') ≤ rdist R R' + 6 / 10 ^ 15 := by
  obtain ⟨l00, l01, l02, l10, l11, l12, l20, l21, l22⟩ := entry_le h
  obtain ⟨d00, d11, d22, -⟩ := entry_dist R R'
  obtain ⟨d01, d10, d02, d20, d12, d21⟩ := FlM.entry_dist' R R'
  have sb : ∀ {x x' : ℝ}, |x'| ≤ 1 → |x - x'| ≤ rdist R R' → SB ⟨0, 1001 / 1000⟩ x x := by
    intro x x' l d
    refine ⟨by simp, ?_⟩
    have := abs_add_le (x - x') x'
    rw [sub_add_cancel] at this
    push_cast
    linarith
  have c := sb_cos hF hu ha
  have s := sb_sin hF hu ha
  have ad : ∀ {x y p p' q q' : ℝ}, SB scB p p' → SB scB q q' → SB ⟨0, 1001 / 1000⟩ x x → SB ⟨0, 1001 / 1000⟩ y y →
      |F.comb p x q y - (x * p' + y * q')| ≤ 2 / 10 ^ 15 ∧ |F.rnd (F.rnd (p * x) - F.rnd (q * y)) - (x * p' - y * q')| ≤ 2 / 10 ^ 15 := by
    intro x y p p' q q' hp hq hx hy
    have h1 := (r_add hF hu (r_mul hF hu hp hx) (r_mul hF hu hq hy)).le turnB_le
    have h2 := (r_sub hF hu (r_mul hF hu hp hx) (r_mul hF hu hq hy)).le turnB_le
    push_cast at h1 h2
    rw [mul_comm p' x, mul_comm q' y] at h1 h2
    exact ⟨h1, h2⟩
  have z : |(0 : ℝ)| ≤ 2 / 10 ^ 15 := by norm_num
  have k : rdist (t.run F R a) (R * t.rot a') ≤ 3 * (2 / 10 ^ 15) := by
    have b00 := sb l00 d00
    have b01 := sb l01 d01
    have b02 := sb l02 d02
    have b10 := sb l10 d10
    have b11 := sb l11 d11
    have b12 := sb l12 d12
    have b20 := sb l20 d20
    have b21 := sb l21 d21
    have b22 := sb l22 d22
    cases t
    · have e : R * Rot.rotX a' = ⟨R.m00, R.m01 * Real.cos a' + R.m02 * Real.sin a', R.m01 * -Real.sin a' + R.m02 * Real.cos a',
          R.m10, R.m11 * Real.cos a' + R.m12 * Real.sin a', R.m11 * -Real.sin a' + R.m12 * Real.cos a',
          R.m20, R.m21 * Real.cos a' + R.m22 * Real.sin a', R.m21 * -Real.sin a' + R.m22 * Real.cos a'⟩ := by
        ext <;> simp [Rot.rotX]
      show rdist (F.doRotX R a) (R * Rot.rotX a') ≤ _
      rw [e]
      refine rdist_le ⟨?_, (ad c s b01 b02).1, (ad s.neg c b01 b02).1, ?_, (ad c s b11 b12).1, (ad s.neg c b11 b12).1,
        ?_, (ad c s b21 b22).1, (ad s.neg c b21 b22).1⟩ <;> simpa [Fl.doRotX] using z
    · have e : R * Rot.rotY a' = ⟨R.m00 * Real.cos a' - R.m02 * Real.sin a', R.m01, R.m00 * Real.sin a' + R.m02 * Real.cos a',
          R.m10 * Real.cos a' - R.m12 * Real.sin a', R.m11, R.m10 * Real.sin a' + R.m12 * Real.cos a',
          R.m20 * Real.cos a' - R.m22 * Real.sin a', R.m21, R.m20 * Real.sin a' + R.m22 * Real.cos a'⟩ := by
        ext <;> simp [Rot.rotY] <;> ring
      show rdist (F.doRotY R a) (R * Rot.rotY a') ≤ _
      rw [e]
      refine rdist_le ⟨(ad c s b00 b02).2, ?_, (ad s c b00 b02).1, (ad c s b10 b12).2, ?_, (ad s c b10 b12).1,
        (ad c s b20 b22).2, ?_, (ad s c b20 b22).1⟩ <;> simpa [Fl.doRotY] using z
    · have e : R * Rot.rotZ a' = ⟨R.m00 * Real.cos a' + R.m01 * Real.sin a', R.m00 * -Real.sin a' + R.m01 * Real.cos a', R.m02,
          R.m10 * Real.cos a' + R.m11 * Real.sin a', R.m10 * -Real.sin a' + R.m11 * Real.cos a', R.m12,
          R.m20 * Real.cos a' + R.m21 * Real.sin a', R.m20 * -Real.sin a' + R.m21 * Real.cos a', R.m22⟩ := by
        ext <;> simp [Rot.rotZ]
      show rdist (F.doRotZ R a) (R * Rot.rotZ a') ≤ _
      rw [e]
      refine rdist_le ⟨(ad c s b00 b01).1, (ad s.neg c b00 b01).1, ?_, (ad c s b10 b11).1, (ad s.neg c b10 b11).1, ?_,
        (ad c s b20 b21).1, (ad s.neg c b20 b21).1, ?_⟩ <;> simpa [Fl.doRotZ] using z
  have hp : (t.rot a').IsProper := by
    cases t
    exacts [Rot.isProper_rotX a', Rot.isProper_rotY a', Rot.isProper_rotZ a']
  have h2 := rdist_triangle (t.run F R a) (R * t.rot a') (R' * t.rot a')
  rw [rdist_mul_proper hp] at h2
  linarith

/-- A sequence of turns in place, at most `10^11` of them, starting from an exact proper rotation: the error grows at most linearly. -/
theorem C112_turns (F : Fl) (hF : F.Ok) (hu : F.u = 1 / 2 ^ 53) (R : Rot) (h : R.IsProper) (ts : List (Turn × ℝ × ℝ))
    (ht : ∀ t ∈ ts, Angle F t.2.1 t.2.2) (hn : ts.length ≤ 10 ^ 11) :
    rdist (ts.foldl (fun Q t => t.1.run F Q t.2.1) R) (ts.foldl (fun Q t => Q * t.1.rot t.2.2) R) ≤ ts.length * (6 / 10 ^ 15) := by
  have key : ∀ (ts : List (Turn × ℝ × ℝ)) (n : ℕ) (P Q : Rot), (∀ t ∈ ts, Angle F t.2.1 t.2.2) → n + ts.length ≤ 10 ^ 11 → Q.IsProper →
      rdist P Q ≤ n * (6 / 10 ^ 15) →
      rdist (ts.foldl (fun Q t => t.1.run F Q t.2.1) P) (ts.foldl (fun Q t => Q * t.1.rot t.2.2) Q) ≤ (n + ts.length : ℕ) * (6 / 10 ^ 15) := by
    intro ts
    induction ts with
    | nil => intro n P Q _ _ _ hd; simpa using hd
    | cons t ts ih =>
      intro n P Q ht hn hQ hd
      rw [List.length_cons] at hn
      have n1 : (n : ℝ) ≤ 10 ^ 11 := by exact_mod_cast (by omega : n ≤ 10 ^ 11)
      have hd' : rdist P Q ≤ 1 / 1000 := by
        refine hd.trans ((mul_le_mul_of_nonneg_right n1 (by norm_num)).trans ?_)
        norm_num
      have k := C112_turn F hF hu t.1 P Q hQ hd' t.2.1 t.2.2 (ht t (by simp))
      have hp : (Q * t.1.rot t.2.2).IsProper := by
        rcases t with ⟨_ | _ | _, a, a'⟩
        exacts [hQ.mul (Rot.isProper_rotX a'), hQ.mul (Rot.isProper_rotY a'), hQ.mul (Rot.isProper_rotZ a')]
      have := ih (n + 1) (t.1.run F P t.2.1) (Q * t.1.rot t.2.2) (fun s hs => ht s (by simp [hs])) (by omega) hp (by push_cast; linarith)
      rw [List.foldl_cons, List.foldl_cons, List.length_cons, show n + (ts.length + 1) = n + 1 + ts.length by omega]
      exact this
  have := key ts 0 R R ht (by omega) h (by simp [rdist])
  rwa [zero_add] at this

/-- Exact arithmetic is the program over the reals. -/
theorem C112_exact (u a b c d : ℝ) (R : Rot) :
    (Fl.mk u id Real.sin Real.cos).rpy a b c = Rot.rpy a b c ∧ (Fl.mk u id Real.sin Real.cos).eulerZYX a b c = Rot.eulerZYX a b c ∧
    (Fl.mk u id Real.sin Real.cos).eulerZYZ a b c = Rot.eulerZYZ a b c ∧
    (Fl.mk u id Real.sin Real.cos).quaternion a b c d = Rot.quaternion a b c d ∧
    (Fl.mk u id Real.sin Real.cos).doRotX R a = R.doRotX a ∧ (Fl.mk u id Real.sin Real.cos).doRotY R a = R.doRotY a ∧
    (Fl.mk u id Real.sin Real.cos).doRotZ R a = R.doRotZ a := ⟨rfl, rfl, rfl, rfl, rfl, rfl, rfl⟩

/-- Non-vacuity: a machine that rounds every number up; a unit quaternion, an angle and a sequence of turns. -/
example : ∃ F : Fl, F.Ok ∧ F.u = 1 / 2 ^ 53 ∧ F.rnd 1 ≠ 1 ∧ Angle F 3 3 ∧ (∃ a, a ≠ 3 ∧ Angle F a 3) ∧
    Rounded F.u (F.rnd 0.6) 0.6 ∧ Rounded F.u (F.rnd 0.8) 0.8 ∧ (0.6 * 0.6 + 0.8 * 0.8 + 0 * 0 + 0 * 0 : ℝ) = 1 ∧
    (∀ t ∈ [((.X : Turn), (3 : ℝ), (3 : ℝ)), (.Y, 3, 3)], Angle F t.2.1 t.2.2) := by
  have h3 : Angle sloppy 3 3 := ⟨by simp [Rounded, sloppy], by norm_num⟩
  refine ⟨sloppy, sloppy_ok, rfl, by simp [sloppy], h3, ⟨3 + 1 / 2 ^ 53, by norm_num, ?_, by norm_num⟩, sloppy_ok.rnd _, sloppy_ok.rnd _, by norm_num, ?_⟩
  · norm_num [Rounded, sloppy]
  · intro t ht
    simp only [List.mem_cons, List.not_mem_nil, or_false] at ht
    rcases ht with rfl | rfl <;> exact h3

end
end KDL
