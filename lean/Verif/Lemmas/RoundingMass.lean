import Verif.Model.RoundingMass
import Verif.Props.RoundingTree
import Verif.Props.RoundingIk

/-! Error bounds of matrices, measured by the Frobenius norm. -/

namespace KDL

namespace VErr
/-- Product of two matrices. -/
def mmul (u : ℚ) (x y : VErr) : VErr := ⟨gq u * (x.l + x.e) * (y.l + y.e) + (x.l + x.e) * y.e + x.e * y.l, x.l * y.l⟩
/-- Cross product matrix of a vector, number times identity. -/
def skw (x : VErr) : VErr := ⟨3 / 2 * x.e, 3 / 2 * x.l⟩
def dia (u : ℚ) (x : VErr) : VErr := ⟨7 / 4 * (u * (x.l + x.e) + x.e), 7 / 4 * x.l⟩
end VErr

/-- The three matrices of an articulated body inertia. -/
structure AErr where
  m : VErr
  h : VErr
  i : VErr

namespace AErr
def ofRBI (u : ℚ) (m h n : VErr) : AErr := ⟨m.dia u, h.skw, n⟩
def add (u : ℚ) (x y : AErr) : AErr := ⟨x.m.add u y.m, x.h.add u y.h, x.i.add u y.i⟩
def twist (u : ℚ) (x : AErr) (t : TErr) : TErr :=
  ⟨(VErr.matE u x.m t.a).add u (VErr.matE u x.h t.b), (VErr.matE u x.i t.b).add u (VErr.matE u x.h t.a)⟩
def frame (u d : ℚ) (p : VErr) (x : AErr) : AErr :=
  let r := (p.map u d).skw
  let hr := x.h.add u (r.mmul u x.m)
  ⟨(x.m.map u d).map u d, (hr.map u d).map u d, (((x.i.add u (r.mmul u x.h)).add u (hr.mmul u r)).map u d).map u d⟩
end AErr

noncomputable section

def NB (x : VErr) (A A' : Mat3) : Prop := rdist (asRot A) (asRot A') ≤ x.e ∧ fro (asRot A') ≤ x.l
structure AB (x : AErr) (A A' : ABI) : Prop where
  m : NB x.m A.M A'.M
  h : NB x.h A.H A'.H
  i : NB x.i A.I A'.I

theorem NB.nonneg {x : VErr} {A A' : Mat3} (h : NB x A A') : (0 : ℝ) ≤ x.e ∧ (0 : ℝ) ≤ x.l :=
  ⟨(rdist_nonneg _ _).trans h.1, (fro_nonneg _).trans h.2⟩
theorem NB.size {x : VErr} {A A' : Mat3} (h : NB x A A') : fro (asRot A) ≤ x.l + x.e := (fro_le _ _).trans (add_le_add h.2 h.1)
theorem NB.tr {x : VErr} {A A' : Mat3} (h : NB x A A') : NB x A.tr A'.tr :=
  ⟨(rdist_transpose (asRot A) (asRot A')).le.trans h.1, (fro_transpose (asRot A')).le.trans h.2⟩

theorem fro_mul (A B : Rot) : fro (A * B) ≤ fro A * fro B := by
  have h := rdist_mul_left A B ⟨0, 0, 0, 0, 0, 0, 0, 0, 0⟩
  have z : ∀ A : Rot, rdist A ⟨0, 0, 0, 0, 0, 0, 0, 0, 0⟩ = fro A := fun A => by unfold rdist fro; simp
  have e : A * (⟨0, 0, 0, 0, 0, 0, 0, 0, 0⟩ : Rot) = ⟨0, 0, 0, 0, 0, 0, 0, 0, 0⟩ := by ext <;> simp
  rwa [e, z, z] at h
theorem fro_proper_left {Q : Rot} (hQ : Q.IsProper) (A : Rot) : fro (Q * A) = fro A := by
  have h := rdist_proper_left hQ A ⟨0, 0, 0, 0, 0, 0, 0, 0, 0⟩
  have z : ∀ A : Rot, rdist A ⟨0, 0, 0, 0, 0, 0, 0, 0, 0⟩ = fro A := fun A => by unfold rdist fro; simp
  have e : Q * (⟨0, 0, 0, 0, 0, 0, 0, 0, 0⟩ : Rot) = ⟨0, 0, 0, 0, 0, 0, 0, 0, 0⟩ := by ext <;> simp
  rwa [e, z, z] at h
theorem rot_mul_tr (A B : Rot) : (A * B).inv = B.inv * A.inv := by ext <;> simp [Rot.inv] <;> ring

theorem asRot_mul (A B : Mat3) : asRot (A * B) = asRot A * asRot B := by ext <;> rfl
theorem asRot_matMul (F : FlD) (A B : Mat3) : asRot (F.matMul A B) = F.rotMul (asRot A) (asRot B) := rfl

section
variable {F : FlD} (hF : F.Ok) {u : ℚ} (hu : F.u ≤ u)
include hF hu

theorem rmul_near {x y : VErr} {A A' B B' : Rot} (h1 : rdist A A' ≤ x.e) (h2 : fro A' ≤ x.l) (k1 : rdist B B' ≤ y.e) (k2 : fro B' ≤ y.l) :
    rdist (F.rotMul A B) (A' * B') ≤ (x.mmul u y).e ∧ fro (A' * B') ≤ (x.mmul u y).l := by
  have e1 : (0 : ℝ) ≤ x.e := (rdist_nonneg _ _).trans h1
  have l1 : (0 : ℝ) ≤ x.l := (fro_nonneg _).trans h2
  have g := gq_ge hF hu
  have g0 := Fl.g3_nonneg hF.base
  have s1 : fro A ≤ x.l + x.e := (fro_le _ _).trans (add_le_add h2 h1)
  have s2 : fro B ≤ y.l + y.e := (fro_le _ _).trans (add_le_add k2 k1)
  have b1 : F.g3 * fro A * fro B ≤ gq u * (x.l + x.e) * (y.l + y.e) :=
    mul_le_mul (mul_le_mul g s1 (fro_nonneg _) (g0.trans g)) s2 (fro_nonneg _) (mul_nonneg (g0.trans g) (by linarith))
  have b2 : fro A * rdist B B' ≤ (x.l + x.e) * y.e := mul_le_mul s1 k1 (rdist_nonneg _ _) (by linarith)
  have b3 : rdist A A' * fro B' ≤ x.e * y.l := mul_le_mul h1 k2 (fro_nonneg _) e1
  have t1 := (Fl.rotMul_err hF.base A B).trans b1
  have t2 := (rdist_mul_left A B B').trans b2
  have t3 := (rdist_mul_right A A' B').trans b3
  have t5 := (rdist_triangle (A * B) (A * B') (A' * B')).trans (add_le_add t2 t3)
  have t4 := (rdist_triangle (F.rotMul A B) (A * B) (A' * B')).trans (add_le_add t1 t5)
  refine ⟨t4.trans (le_of_eq ?_), ((fro_mul _ _).trans (mul_le_mul h2 k2 (fro_nonneg _) l1)).trans (le_of_eq ?_)⟩ <;> unfold VErr.mmul <;> push_cast <;>
    ring

theorem rrot_near {y : VErr} {A A' B B' : Rot} {d : ℚ} (hA : A'.IsProper) (hd : rdist A A' ≤ d) (k1 : rdist B B' ≤ y.e) (k2 : fro B' ≤ y.l) :
    rdist (F.rotMul A B) (A' * B') ≤ (y.map u d).e ∧ fro (A' * B') ≤ (y.map u d).l := by
  have d0 : (0 : ℝ) ≤ d := (rdist_nonneg _ _).trans hd
  have g := gq_ge hF hu
  have g0 := Fl.g3_nonneg hF.base
  have s2 : fro B ≤ y.l + y.e := (fro_le _ _).trans (add_le_add k2 k1)
  have s1 : fro A ≤ 7 / 4 + d := by
    have a := fro_le A A'
    rw [fro_proper hA] at a
    have b := sqrt3_le
    linarith
  have b1 : F.g3 * fro A * fro B ≤ gq u * (7 / 4 + d) * (y.l + y.e) :=
    mul_le_mul (mul_le_mul g s1 (fro_nonneg _) (g0.trans g)) s2 (fro_nonneg _) (mul_nonneg (g0.trans g) (by linarith))
  have b3 : rdist A A' * fro B ≤ d * (y.l + y.e) := mul_le_mul hd s2 (fro_nonneg _) d0
  have t1 := (Fl.rotMul_err hF.base A B).trans b1
  have t2 := (rdist_proper_left hA B B').le.trans k1
  have t3 := (rdist_mul_right A A' B).trans b3
  have t5 := (rdist_triangle (A * B) (A' * B) (A' * B')).trans (add_le_add t3 t2)
  have t4 := (rdist_triangle (F.rotMul A B) (A * B) (A' * B')).trans (add_le_add t1 t5)
  refine ⟨t4.trans (le_of_eq ?_), (fro_proper_left hA B').le.trans k2⟩
  unfold VErr.map
  push_cast
  ring

theorem NB.mul {x y : VErr} {A A' B B' : Mat3} (h : NB x A A') (k : NB y B B') : NB (x.mmul u y) (F.matMul A B) (A' * B') := by
  unfold NB
  rw [asRot_mul, asRot_matMul]
  exact rmul_near hF hu h.1 h.2 k.1 k.2

theorem NB.rotL {y : VErr} {E E' B B' : Mat3} {d : ℚ} (hE : (asRot E').IsProper) (hd : rdist (asRot E) (asRot E') ≤ d) (k : NB y B B') :
    NB (y.map u d) (F.matMul E B) (E' * B') := by
  unfold NB
  rw [asRot_mul, asRot_matMul]
  exact rrot_near hF hu hE hd k.1 k.2

theorem NB.rotR {y : VErr} {E E' B B' : Mat3} {d : ℚ} (hE : (asRot E').IsProper) (hd : rdist (asRot E) (asRot E') ≤ d) (k : NB y B B') :
    NB (y.map u d) (F.matMul B E.tr) (B' * E'.tr) := by
  have h := (NB.rotL hF hu hE hd k.tr).tr
  have e1 : (F.matMul E B.tr).tr = F.matMul B E.tr := by
    simp only [FlD.matMul, Mat3.tr, Fl.dot3, mul_comm]
  have e2 : (E' * B'.tr).tr = B' * E'.tr := by
    show Mat3.mk (_ * _ + _ * _ + _ * _) (_ * _ + _ * _ + _ * _) (_ * _ + _ * _ + _ * _) (_ * _ + _ * _ + _ * _) (_ * _ + _ * _ + _ * _)
      (_ * _ + _ * _ + _ * _) (_ * _ + _ * _ + _ * _) (_ * _ + _ * _ + _ * _) (_ * _ + _ * _ + _ * _) = Mat3.mk _ _ _ _ _ _ _ _ _
    simp only [Mat3.tr, mul_comm]
  rwa [e1, e2] at h

theorem NB.add {x y : VErr} {A A' B B' : Mat3} (h : NB x A A') (k : NB y B B') : NB (x.add u y) (F.matAdd A B) (A' + B') := by
  have u0 := hF.base.nonneg
  obtain ⟨e1, l1⟩ := h.nonneg
  obtain ⟨e2, l2⟩ := k.nonneg
  have fa : ∀ A B : Mat3, fro (asRot (A + B)) ≤ fro (asRot A) + fro (asRot B) := by
    intro A B
    rw [fro_eq, fro_eq, fro_eq]
    have : rflat (asRot (A + B)) = rflat (asRot A) + rflat (asRot B) := by
      ext i; fin_cases i <;> rfl
    rw [this]
    exact norm_add_le _ _
  have ra : rdist (asRot (A + B)) (asRot (A' + B')) ≤ x.e + y.e := by
    refine le_trans ?_ (add_le_add h.1 k.1)
    rw [rdist_eq, rdist_eq, rdist_eq]
    have : rflat (asRot (A + B)) - rflat (asRot (A' + B')) = rflat (asRot A) - rflat (asRot A') + (rflat (asRot B) - rflat (asRot B')) := by
      have e : ∀ A B : Mat3, rflat (asRot (A + B)) = rflat (asRot A) + rflat (asRot B) := fun A B => by ext i; fin_cases i <;> rfl
      rw [e, e]; abel
    rw [this]
    exact norm_add_le _ _
  have hl : fro (asRot (A' + B')) ≤ x.l + y.l := (fa _ _).trans (add_le_add h.2 k.2)
  have hl' : fro (asRot (A + B)) ≤ x.l + y.l + (x.e + y.e) := (fro_le _ _).trans (add_le_add hl ra)
  have r1 : rdist (asRot (F.matAdd A B)) (asRot (A + B)) ≤ F.u * fro (asRot (A + B)) := by
    have q : ∀ t : ℝ, (F.rnd t - t) ^ 2 ≤ F.u ^ 2 * t ^ 2 := by
      intro t
      have := hF.base.rnd t
      rw [← mul_pow, ← sq_abs (F.rnd t - t), ← sq_abs (F.u * t), abs_mul, abs_of_nonneg u0]
      exact pow_le_pow_left₀ (abs_nonneg _) this 2
    refine Real.sqrt_le_iff.mpr ⟨mul_nonneg u0 (fro_nonneg _), ?_⟩
    rw [mul_pow, fro_sq]
    have q0 := q (A.a00 + B.a00)
    have q1 := q (A.a01 + B.a01)
    have q2 := q (A.a02 + B.a02)
    have q3 := q (A.a10 + B.a10)
    have q4 := q (A.a11 + B.a11)
    have q5 := q (A.a12 + B.a12)
    have q6 := q (A.a20 + B.a20)
    have q7 := q (A.a21 + B.a21)
    have q8 := q (A.a22 + B.a22)
    show (F.rnd (A.a00 + B.a00) - (A.a00 + B.a00)) ^ 2 + (F.rnd (A.a01 + B.a01) - (A.a01 + B.a01)) ^ 2 + (F.rnd (A.a02 + B.a02) - (A.a02 + B.a02)) ^ 2 +
      ((F.rnd (A.a10 + B.a10) - (A.a10 + B.a10)) ^ 2 + (F.rnd (A.a11 + B.a11) - (A.a11 + B.a11)) ^ 2 + (F.rnd (A.a12 + B.a12) - (A.a12 + B.a12)) ^ 2) +
      ((F.rnd (A.a20 + B.a20) - (A.a20 + B.a20)) ^ 2 + (F.rnd (A.a21 + B.a21) - (A.a21 + B.a21)) ^ 2 + (F.rnd (A.a22 + B.a22) - (A.a22 + B.a22)) ^ 2) ≤
      F.u ^ 2 * ((A.a00 + B.a00) ^ 2 + (A.a01 + B.a01) ^ 2 + (A.a02 + B.a02) ^ 2 + ((A.a10 + B.a10) ^ 2 + (A.a11 + B.a11) ^ 2 + (A.a12 + B.a12) ^ 2) +
      ((A.a20 + B.a20) ^ 2 + (A.a21 + B.a21) ^ 2 + (A.a22 + B.a22) ^ 2))
    linarith
  have r2 : F.u * fro (asRot (A + B)) ≤ u * (x.l + y.l + (x.e + y.e)) := mul_le_mul hu hl' (fro_nonneg _) (u0.trans hu)
  have r3 := rdist_triangle (asRot (F.matAdd A B)) (asRot (A + B)) (asRot (A' + B'))
  refine ⟨?_, ?_⟩ <;> unfold VErr.add <;> push_cast
  · linarith
  · exact hl

theorem NB.sub {x y : VErr} {A A' B B' : Mat3} (h : NB x A A') (k : NB y B B') : NB (x.add u y) (F.matSub A B) (A' - B') := by
  have kn : NB y ⟨-B.a00, -B.a01, -B.a02, -B.a10, -B.a11, -B.a12, -B.a20, -B.a21, -B.a22⟩
      ⟨-B'.a00, -B'.a01, -B'.a02, -B'.a10, -B'.a11, -B'.a12, -B'.a20, -B'.a21, -B'.a22⟩ := by
    refine ⟨le_trans (le_of_eq ?_) k.1, le_trans (le_of_eq ?_) k.2⟩
    · unfold rdist asRot; dsimp only; congr 1; ring
    · unfold fro asRot; dsimp only; congr 1; ring
  have := NB.add hF hu h kn
  have e1 : F.matSub A B = F.matAdd A ⟨-B.a00, -B.a01, -B.a02, -B.a10, -B.a11, -B.a12, -B.a20, -B.a21, -B.a22⟩ := by
    simp only [FlD.matSub, FlD.matAdd, sub_eq_add_neg]
  have e2 : A' - B' = A' + ⟨-B'.a00, -B'.a01, -B'.a02, -B'.a10, -B'.a11, -B'.a12, -B'.a20, -B'.a21, -B'.a22⟩ := by
    show Mat3.mk _ _ _ _ _ _ _ _ _ = Mat3.mk _ _ _ _ _ _ _ _ _
    simp only [sub_eq_add_neg]
  rw [e1, e2]
  exact this

theorem SB.dia {x : VErr} {m m' : ℝ} (h : SB x m m') : NB (x.dia u) (F.diag m) (m' • (1 : Mat3)) := by
  obtain ⟨e1, l1⟩ := h.nonneg
  have u0 := hF.base.nonneg
  have z : F.rnd 0 = 0 := by have := hF.base.rnd 0; simpa using this
  have r := hF.base.rnd m
  have am : |m| ≤ x.l + x.e := by
    have : m = m' + (m - m') := by ring
    rw [this]
    exact (abs_add_le _ _).trans (add_le_add h.2 h.1)
  have r2 : F.u * |m| ≤ u * (x.l + x.e) := mul_le_mul hu am (abs_nonneg _) (u0.trans hu)
  have b : |F.rnd m - m'| ≤ u * (x.l + x.e) + x.e := by
    have : F.rnd m - m' = (F.rnd m - m) + (m - m') := by ring
    rw [this]
    exact (abs_add_le _ _).trans (add_le_add (r.trans r2) h.1)
  have w : ∀ {t c : ℝ}, |t| ≤ c → 3 * t ^ 2 ≤ (7 / 4 * c) ^ 2 := by
    intro t c hc
    have : t ^ 2 ≤ c ^ 2 := by rw [← sq_abs t]; exact pow_le_pow_left₀ (abs_nonneg _) hc 2
    nlinarith [sq_nonneg c]
  refine ⟨?_, ?_⟩ <;> unfold VErr.dia <;> push_cast
  · refine Real.sqrt_le_iff.mpr ⟨by have := (abs_nonneg _).trans b; linarith, le_trans (le_of_eq ?_) (w b)⟩
    show (F.rnd (m * 1) - m' * 1) ^ 2 + (F.rnd (m * 0) - m' * 0) ^ 2 + (F.rnd (m * 0) - m' * 0) ^ 2 + ((F.rnd (m * 0) - m' * 0) ^ 2 + (F.rnd (m * 1) - m' * 1) ^ 2 + (F.rnd (m * 0) - m' * 0) ^ 2) +
      ((F.rnd (m * 0) - m' * 0) ^ 2 + (F.rnd (m * 0) - m' * 0) ^ 2 + (F.rnd (m * 1) - m' * 1) ^ 2) = _
    rw [mul_one, mul_zero, mul_one, mul_zero, z]
    ring
  · refine Real.sqrt_le_iff.mpr ⟨by linarith, le_trans (le_of_eq ?_) (w h.2)⟩
    show (m' * 1) ^ 2 + (m' * 0) ^ 2 + (m' * 0) ^ 2 + ((m' * 0) ^ 2 + (m' * 1) ^ 2 + (m' * 0) ^ 2) + ((m' * 0) ^ 2 + (m' * 0) ^ 2 + (m' * 1) ^ 2) = _
    ring

omit hF hu in
theorem VB.skw {x : VErr} {v v' : Vec} (h : VB x v v') : NB x.skw (Mat3.skew v) (Mat3.skew v') := by
  obtain ⟨e1, l1⟩ := h.nonneg
  have s1 := vdist_sq v v'
  have s2 := vlen_sq v'
  have w1 : vdist v v' ^ 2 ≤ (x.e : ℝ) ^ 2 := pow_le_pow_left₀ (vdist_nonneg _ _) h.1 2
  have w2 : vlen v' ^ 2 ≤ (x.l : ℝ) ^ 2 := pow_le_pow_left₀ (vlen_nonneg _) h.2 2
  rw [s1] at w1
  rw [s2] at w2
  refine ⟨?_, ?_⟩ <;> unfold VErr.skw <;> push_cast
  · refine Real.sqrt_le_iff.mpr ⟨by linarith, ?_⟩
    simp only [asRot, Mat3.skew]
    nlinarith [sq_nonneg (x.e : ℝ)]
  · refine Real.sqrt_le_iff.mpr ⟨by linarith, ?_⟩
    simp only [asRot, Mat3.skew]
    nlinarith [sq_nonneg (x.l : ℝ)]

theorem AB.ofRBI {m h n : VErr} {I I' : RBI} (h1 : SB m I.m I'.m) (h2 : VB h I.h I'.h) (h3 : NB n I.I I'.I) :
    AB (.ofRBI u m h n) (F.abiOfRBI I) (ABI.ofRBI I') := ⟨h1.dia hF hu, h2.skw, h3⟩
theorem AB.add {x y : AErr} {A A' B B' : ABI} (h : AB x A A') (k : AB y B B') : AB (x.add u y) (F.abiAdd A B) (A' + B') :=
  ⟨NB.add hF hu h.m k.m, NB.add hF hu h.h k.h, NB.add hF hu h.i k.i⟩
theorem AB.twist {x : AErr} {y : TErr} {A A' : ABI} {t t' : Twist} (h : AB x A A') (k : TB y t t') :
    WB (x.twist u y) (F.abiTwist A t) (A' * t') :=
  ⟨VB.add hF hu (VB.matE hF hu h.m.1 h.m.2 k.1) (VB.matE hF hu h.h.tr.1 h.h.tr.2 k.2),
   VB.add hF hu (VB.matE hF hu h.i.1 h.i.2 k.2) (VB.matE hF hu h.h.1 h.h.2 k.1)⟩
theorem AB.frame {x : AErr} {A A' : ABI} {T T' : Frame} {d : ℚ} {p : VErr} (hX : T'.M.IsProper) (hP : rdist T.M T'.M ≤ d) (hp : VB p T.p T'.p)
    (h : AB x A A') : AB (x.frame u d p) (F.frameAbi T A) (T' * A') := by
  have hr : NB (p.map u d).skw (Mat3.skew (-F.rotInvVec T.M T.p)) (Mat3.skew (-T'.M.invVec T'.p)) := (VB.mapInv hF hu hX hP hp).neg.skw
  have hE : (asRot (Mat3.mapRot T'.M.inv)).IsProper := hX
  have hd : rdist (asRot (Mat3.mapRot T.M.inv)) (asRot (Mat3.mapRot T'.M.inv)) ≤ d := hP
  have hH := NB.sub hF hu h.h (NB.mul hF hu hr h.m)
  exact ⟨NB.rotR hF hu hE hd (NB.rotL hF hu hE hd h.m), NB.rotR hF hu hE hd (NB.rotL hF hu hE hd hH),
    NB.rotR hF hu hE hd (NB.rotL hF hu hE hd (NB.add hF hu (NB.sub hF hu h.i (NB.mul hF hu hr h.h.tr)) (NB.mul hF hu hH hr)))⟩
end
end
end KDL
