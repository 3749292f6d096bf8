import Verif.Model.RoundingDyn
import Verif.Props.RoundingVel

/-!
Error bounds that are computed along with the operations.  A bound is a pair of rational numbers: the distance between the computed
and the ideal value, and the length of the ideal value.
-/

namespace KDL

/-- Distance from the ideal vector and length of the ideal vector. -/
structure VErr where
  e : ℚ
  l : ℚ

/-- Bounds of two vectors: velocity and angular velocity, or force and torque. -/
structure TErr where
  a : VErr
  b : VErr

/-- Relative error of three roundings with unit roundoff `u`. -/
def gq (u : ℚ) : ℚ := (1 + u) ^ 3 - 1

namespace VErr
def add (u : ℚ) (x y : VErr) : VErr := ⟨(1 + u) * (x.e + y.e) + u * (x.l + y.l), x.l + y.l⟩
def cross (u : ℚ) (x y : VErr) : VErr := ⟨(2 * gq u * (x.l + x.e) + x.e) * (y.l + y.e) + x.l * y.e, x.l * y.l⟩
/-- Times a number of magnitude at most `c`. -/
def scale (u : ℚ) (x : VErr) (c : ℚ) : VErr := ⟨(1 + u) * (c * x.e) + u * (c * x.l), c * x.l⟩
/-- Times a rotation matrix with error `d`. -/
def map (u d : ℚ) (x : VErr) : VErr := ⟨x.e + (d + gq u * (7 / 4 + d)) * (x.l + x.e), x.l⟩
/-- Times a matrix of norm at most `n`. -/
def mat (u n : ℚ) (x : VErr) : VErr := ⟨n * x.e + gq u * n * (x.l + x.e), n * x.l⟩
/-- Times a number, times a matrix, with errors of their own. -/
def scaleE (u : ℚ) (x c : VErr) : VErr := ⟨(x.scale u (c.l + c.e)).e + c.e * x.l, c.l * x.l⟩
def matE (u : ℚ) (n x : VErr) : VErr := ⟨(x.mat u (n.l + n.e)).e + n.e * x.l, n.l * x.l⟩
/-- Scalar product. -/
def dot (u : ℚ) (x y : VErr) : VErr := ⟨(gq u * (x.l + x.e) + x.e) * (y.l + y.e) + x.l * y.e, x.l * y.l⟩
end VErr

namespace TErr
def add (u : ℚ) (x y : TErr) : TErr := ⟨x.a.add u y.a, x.b.add u y.b⟩
def scale (u : ℚ) (x : TErr) (c : ℚ) : TErr := ⟨x.a.scale u c, x.b.scale u c⟩
def inv (u d : ℚ) (x : TErr) : TErr := ⟨x.a.map u d, x.b.map u d⟩
def finv (u d : ℚ) (p : VErr) (x : TErr) : TErr := ⟨(x.a.add u (p.cross u x.b)).map u d, x.b.map u d⟩
def cross (u : ℚ) (x y : TErr) : TErr := ⟨(x.b.cross u y.a).add u (x.a.cross u y.b), x.b.cross u y.b⟩
def wrench (u : ℚ) (x y : TErr) : TErr := ⟨x.b.cross u y.a, (x.b.cross u y.b).add u (x.a.cross u y.a)⟩
def rbi (u : ℚ) (m h n : VErr) (x : TErr) : TErr :=
  ⟨(x.a.scaleE u m).add u (h.cross u x.b), (VErr.matE u n x.b).add u (h.cross u x.a)⟩
def frame (u d : ℚ) (p : VErr) (x : TErr) : TErr := ⟨x.a.map u d, (x.b.map u d).add u (p.cross u (x.a.map u d))⟩
def dot (u : ℚ) (x y : TErr) : VErr := (x.a.dot u y.a).add u (x.b.dot u y.b)
end TErr

noncomputable section

/-- The entries of a `Mat3` as a `Rot`, to speak of its norm. -/
def asRot (I : Mat3) : Rot := ⟨I.a00, I.a01, I.a02, I.a10, I.a11, I.a12, I.a20, I.a21, I.a22⟩

/-- Standard model, and the product with a matrix has the error of three roundings at most. -/
structure FlD.Ok (F : FlD) : Prop where
  base : F.toFl.Ok
  mat : ∀ I v, vdist (F.matVec I v) (I * v) ≤ F.g3 * fro (asRot I) * vlen v

def VB (x : VErr) (v v' : Vec) : Prop := vdist v v' ≤ x.e ∧ vlen v' ≤ x.l
def SB (x : VErr) (v v' : ℝ) : Prop := |v - v'| ≤ x.e ∧ |v'| ≤ x.l
def TB (x : TErr) (t t' : Twist) : Prop := VB x.a t.vel t'.vel ∧ VB x.b t.rot t'.rot
def WB (x : TErr) (w w' : Wrench) : Prop := VB x.a w.force w'.force ∧ VB x.b w.torque w'.torque

theorem VB.nonneg {x : VErr} {v v' : Vec} (h : VB x v v') : (0 : ℝ) ≤ x.e ∧ (0 : ℝ) ≤ x.l :=
  ⟨(vdist_nonneg _ _).trans h.1, (vlen_nonneg _).trans h.2⟩
theorem SB.nonneg {x : VErr} {v v' : ℝ} (h : SB x v v') : (0 : ℝ) ≤ x.e ∧ (0 : ℝ) ≤ x.l :=
  ⟨(abs_nonneg _).trans h.1, (abs_nonneg _).trans h.2⟩

theorem vb_self {v : Vec} {l : ℚ} (h : vlen v ≤ l) : VB ⟨0, l⟩ v v := ⟨by rw [vdist_self]; simp, h⟩

theorem vlen_neg (v : Vec) : vlen (-v) = vlen v := by unfold vlen; simp
theorem vdist_neg (v w : Vec) : vdist (-v) (-w) = vdist v w := by
  unfold vdist; congr 1; simp only [Vec.neg_x, Vec.neg_y, Vec.neg_z]; ring
theorem VB.neg {x : VErr} {v v' : Vec} (h : VB x v v') : VB x (-v) (-v') := ⟨by rw [vdist_neg]; exact h.1, by rw [vlen_neg]; exact h.2⟩

section
variable {F : FlD} (hF : F.Ok) {u : ℚ} (hu : F.u ≤ u)
include hF hu

theorem gq_ge : F.g3 ≤ gq u := by
  have := hF.base.nonneg
  unfold Fl.g3 gq
  push_cast
  have : (1 + F.u) ^ 3 ≤ (1 + (u : ℝ)) ^ 3 := pow_le_pow_left₀ (by linarith) (by linarith) 3
  linarith

theorem VB.add {x y : VErr} {a a' b b' : Vec} (h1 : VB x a a') (h2 : VB y b b') : VB (x.add u y) (F.vecAdd a b) (a' + b') := by
  have u0 := hF.base.nonneg
  obtain ⟨e1, l1⟩ := h1.nonneg
  obtain ⟨e2, l2⟩ := h2.nonneg
  have hl : vlen (a' + b') ≤ x.l + y.l := (vlen_add _ _).trans (add_le_add h1.2 h2.2)
  refine ⟨(add_near hF.base h1.1 h2.1 hl).trans ?_, ?_⟩
  · unfold VErr.add
    push_cast
    gcongr
  · unfold VErr.add
    push_cast
    exact hl

theorem VB.sub {x y : VErr} {a a' b b' : Vec} (h1 : VB x a a') (h2 : VB y b b') : VB (x.add u y) (F.vecSub a b) (a' - b') := by
  have h := VB.add hF hu h1 h2.neg
  have e1 : F.vecSub a b = F.vecAdd a (-b) := by unfold Fl.vecSub Fl.vecAdd; simp [sub_eq_add_neg]
  have e2 : a' - b' = a' + -b' := by ext <;> simp [sub_eq_add_neg]
  rw [e1, e2]
  exact h

theorem VB.cross {x y : VErr} {a a' b b' : Vec} (h1 : VB x a a') (h2 : VB y b b') : VB (x.cross u y) (F.cross a b) (a' * b') := by
  obtain ⟨e1, l1⟩ := h1.nonneg
  obtain ⟨e2, l2⟩ := h2.nonneg
  have g := gq_ge hF hu
  have g0 := Fl.g3_nonneg hF.base
  refine ⟨(cross_near hF.base h1.1 h2.1 h1.2 h2.2).trans ((crossErr_mono g0 l1 e1 l2 e2 g le_rfl le_rfl).trans ?_), ?_⟩
  · unfold VErr.cross crossErr
    push_cast
    exact le_rfl
  · unfold VErr.cross
    push_cast
    exact (vlen_cross _ _).trans (mul_le_mul h1.2 h2.2 (vlen_nonneg _) l1)

theorem VB.scale {x : VErr} {a a' : Vec} {c : ℝ} {k : ℚ} (h : VB x a a') (hc : |c| ≤ k) :
    VB (x.scale u k) (F.vecScale a c) (c • a') := by
  obtain ⟨e1, l1⟩ := h.nonneg
  have u0 := hF.base.nonneg
  have k0 : (0 : ℝ) ≤ k := (abs_nonneg _).trans hc
  have sm : ∀ v : Vec, vlen (c • v) = |c| * vlen v := by
    intro v
    unfold vlen
    rw [← Real.sqrt_sq_eq_abs, ← Real.sqrt_mul (sq_nonneg c)]
    congr 1
    simp only [Vec.smul_x, Vec.smul_y, Vec.smul_z]
    ring
  have d1 : vdist (c • a) (c • a') ≤ k * x.e := by
    have : c • a - c • a' = c • (a - a') := by ext <;> simp <;> ring
    rw [vdist_eq_vlen, this, sm, ← vdist_eq_vlen]
    exact mul_le_mul hc h.1 (vdist_nonneg _ _) k0
  have d2 : vlen (c • a') ≤ k * x.l := by rw [sm]; exact mul_le_mul hc h.2 (vlen_nonneg _) k0
  have z : vdist (0 : Vec) 0 ≤ 0 := by rw [vdist_self]
  have e : F.vecScale a c = F.vecAdd (c • a) 0 := by unfold Fl.vecScale Fl.vecAdd; simp [mul_comm]
  have e' : c • a' + 0 = c • a' := by ext <;> simp
  have n := add_near hF.base d1 z (y := k * x.l) (by rw [e']; exact d2)
  rw [e', ← e] at n
  refine ⟨n.trans ?_, ?_⟩
  · unfold VErr.scale
    push_cast
    rw [add_zero]
    have : 0 ≤ (k : ℝ) * x.e := mul_nonneg k0 e1
    have : 0 ≤ (k : ℝ) * x.l := mul_nonneg k0 l1
    gcongr
  · unfold VErr.scale
    push_cast
    exact d2

theorem VB.map {x : VErr} {a a' : Vec} {P X : Rot} {d : ℚ} (hX : X.IsProper) (hP : rdist P X ≤ d) (h : VB x a a') :
    VB (x.map u d) (F.rotVec P a) (X * a') := by
  obtain ⟨e1, l1⟩ := h.nonneg
  have d0 : (0 : ℝ) ≤ d := (rdist_nonneg _ _).trans hP
  have g := gq_ge hF hu
  have g0 := Fl.g3_nonneg hF.base
  have s3 : Real.sqrt 3 ≤ 7 / 4 := sqrt3_le.trans (by norm_num)
  refine ⟨(map_near hF.base hX hP h.1 h.2).trans ((mapErr_le g0 d0 l1 e1 g le_rfl s3).trans ?_), ?_⟩
  · unfold VErr.map
    push_cast
    exact le_rfl
  · unfold VErr.map
    dsimp only
    rw [vlen_mul_proper hX]
    exact h.2

theorem VB.mapInv {x : VErr} {a a' : Vec} {P X : Rot} {d : ℚ} (hX : X.IsProper) (hP : rdist P X ≤ d) (h : VB x a a') :
    VB (x.map u d) (F.rotInvVec P a) (X.invVec a') := by
  have e1 : F.rotInvVec P a = F.rotVec P.inv a := rfl
  have e2 : X.invVec a' = X.inv * a' := rfl
  have e3 : rdist P.inv X.inv = rdist P X := by unfold rdist Rot.inv; dsimp only; congr 1; ring
  rw [e1, e2]
  exact VB.map hF hu hX.inv (by rw [e3]; exact hP) h

theorem VB.mat {x : VErr} {a a' : Vec} {I : Mat3} {n : ℚ} (hI : fro (asRot I) ≤ n) (h : VB x a a') :
    VB (x.mat u n) (F.matVec I a) (I * a') := by
  obtain ⟨e1, l1⟩ := h.nonneg
  have n0 : (0 : ℝ) ≤ n := (fro_nonneg _).trans hI
  have g := gq_ge hF hu
  have g0 := Fl.g3_nonneg hF.base
  have ev : ∀ v : Vec, I * v = asRot I * v := fun v => rfl
  have k1 := hF.mat I a
  have k2 := vdist_triangle (F.matVec I a) (I * a) (I * a')
  have k3 : vdist (I * a) (I * a') ≤ n * x.e := by
    have : I * a - I * a' = asRot I * (a - a') := by rw [ev, ev]; ext <;> simp <;> ring
    rw [vdist_eq_vlen, this]
    refine (vlen_mul _ _).trans ?_
    rw [← vdist_eq_vlen]
    exact mul_le_mul hI h.1 (vdist_nonneg _ _) n0
  have k4 : vlen a ≤ x.l + x.e := (vlen_le a a').trans (add_le_add h.2 h.1)
  have k5 : F.g3 * fro (asRot I) * vlen a ≤ gq u * n * (x.l + x.e) :=
    mul_le_mul (mul_le_mul g hI (fro_nonneg _) (g0.trans g)) k4 (vlen_nonneg _) (mul_nonneg (g0.trans g) n0)
  refine ⟨?_, ?_⟩
  · unfold VErr.mat
    push_cast
    linarith
  · unfold VErr.mat
    push_cast
    rw [ev]
    exact (vlen_mul _ _).trans (mul_le_mul hI h.2 (vlen_nonneg _) n0)

theorem VB.dot {x y : VErr} {a a' b b' : Vec} (h1 : VB x a a') (h2 : VB y b b') :
    SB (x.dot u y) (F.vecDot a b) (a'.dot b') := by
  obtain ⟨e1, l1⟩ := h1.nonneg
  obtain ⟨e2, l2⟩ := h2.nonneg
  have g := gq_ge hF hu
  have g0 := Fl.g3_nonneg hF.base
  have cs : ∀ p q : Vec, |p.dot q| ≤ vlen p * vlen q := by
    intro p q
    refine abs_le_of_sq_le_sq ?_ (mul_nonneg (vlen_nonneg _) (vlen_nonneg _))
    rw [mul_pow, vlen_sq, vlen_sq]
    unfold Vec.dot
    nlinarith [sq_nonneg (p.x * q.y - p.y * q.x), sq_nonneg (p.x * q.z - p.z * q.x), sq_nonneg (p.y * q.z - p.z * q.y)]
  have a1 : vlen a ≤ x.l + x.e := (vlen_le a a').trans (add_le_add h1.2 h1.1)
  have a2 : vlen b ≤ y.l + y.e := (vlen_le b b').trans (add_le_add h2.2 h2.1)
  have k1 : |F.vecDot a b - a.dot b| ≤ F.g3 * (vlen a * vlen b) := by
    have := Fl.dot3_err_sq hF.base b.x a.x b.y a.y b.z a.z
    refine abs_le_of_sq_le_sq ?_ (mul_nonneg g0 (mul_nonneg (vlen_nonneg _) (vlen_nonneg _)))
    rw [mul_pow, mul_pow, vlen_sq, vlen_sq, mul_comm (a.x ^ 2 + _ + _)]
    exact this
  have k2 : |a.dot b - a'.dot b'| ≤ x.e * (y.l + y.e) + x.l * y.e := by
    have : a.dot b - a'.dot b' = (a - a').dot b + a'.dot (b - b') := by simp [Vec.dot]; ring
    rw [this]
    refine (abs_add_le _ _).trans (add_le_add ((cs _ _).trans ?_) ((cs _ _).trans ?_))
    · rw [← vdist_eq_vlen]
      exact mul_le_mul h1.1 a2 (vlen_nonneg _) e1
    · rw [← vdist_eq_vlen]
      exact mul_le_mul h1.2 h2.1 (vdist_nonneg _ _) l1
  have k3 : F.g3 * (vlen a * vlen b) ≤ gq u * ((x.l + x.e) * (y.l + y.e)) :=
    mul_le_mul g (mul_le_mul a1 a2 (vlen_nonneg _) (by linarith)) (mul_nonneg (vlen_nonneg _) (vlen_nonneg _)) (g0.trans g)
  have k4 := abs_sub_le (F.vecDot a b) (a.dot b) (a'.dot b')
  refine ⟨?_, ?_⟩
  · unfold VErr.dot
    push_cast
    linarith
  · unfold VErr.dot
    push_cast
    exact (cs _ _).trans (mul_le_mul h1.2 h2.2 (vlen_nonneg _) l1)

theorem SB.add {x y : VErr} {a a' b b' : ℝ} (h1 : SB x a a') (h2 : SB y b b') : SB (x.add u y) (F.rnd (a + b)) (a' + b') := by
  obtain ⟨e1, l1⟩ := h1.nonneg
  obtain ⟨e2, l2⟩ := h2.nonneg
  have u0 := hF.base.nonneg
  have u0' : (0 : ℝ) ≤ u := u0.trans hu
  have k : |a + b - (a' + b')| ≤ x.e + y.e := by
    rw [show a + b - (a' + b') = (a - a') + (b - b') by ring]
    exact (abs_add_le _ _).trans (add_le_add h1.1 h2.1)
  have hl : |a' + b'| ≤ x.l + y.l := (abs_add_le _ _).trans (add_le_add h1.2 h2.2)
  refine ⟨(Fl.rnd_add hF.base k).trans ?_, ?_⟩
  · unfold VErr.add
    push_cast
    gcongr
  · unfold VErr.add
    push_cast
    exact hl

theorem SB.rnd {a : ℝ} {k : ℚ} (h : |a| ≤ k) : SB ⟨u * k, k⟩ (F.rnd a) a := by
  have u0 := hF.base.nonneg
  refine ⟨(hF.base.rnd a).trans ?_, h⟩
  push_cast
  exact mul_le_mul hu h (abs_nonneg _) (u0.trans hu)

theorem TB.add {x y : TErr} {a a' b b' : Twist} (h1 : TB x a a') (h2 : TB y b b') : TB (x.add u y) (F.twistAdd a b) (a' + b') :=
  ⟨VB.add hF hu h1.1 h2.1, VB.add hF hu h1.2 h2.2⟩
theorem WB.add {x y : TErr} {a a' b b' : Wrench} (h1 : WB x a a') (h2 : WB y b b') : WB (x.add u y) (F.wrenchAdd a b) (a' + b') :=
  ⟨VB.add hF hu h1.1 h2.1, VB.add hF hu h1.2 h2.2⟩
theorem WB.sub {x y : TErr} {a a' b b' : Wrench} (h1 : WB x a a') (h2 : WB y b b') : WB (x.add u y) (F.wrenchSub a b) (a' - b') :=
  ⟨VB.sub hF hu h1.1 h2.1, VB.sub hF hu h1.2 h2.2⟩
theorem TB.scale {x : TErr} {a a' : Twist} {c : ℝ} {k : ℚ} (h : TB x a a') (hc : |c| ≤ k) :
    TB (x.scale u k) (F.twistScale a c) (c • a') := ⟨VB.scale hF hu h.1 hc, VB.scale hF hu h.2 hc⟩
theorem TB.inv {x : TErr} {a a' : Twist} {P X : Rot} {d : ℚ} (hX : X.IsProper) (hP : rdist P X ≤ d) (h : TB x a a') :
    TB (x.inv u d) (F.rotInvTwist P a) (X.invTwist a') := ⟨VB.mapInv hF hu hX hP h.1, VB.mapInv hF hu hX hP h.2⟩
theorem TB.finv {x : TErr} {a a' : Twist} {P X : Frame} {d : ℚ} {p : VErr} (hX : X.M.IsProper) (hP : rdist P.M X.M ≤ d)
    (hp : VB p P.p X.p) (h : TB x a a') : TB (x.finv u d p) (F.frameInvTwist P a) (X.invTwist a') :=
  ⟨VB.mapInv hF hu hX hP (VB.sub hF hu h.1 (VB.cross hF hu hp h.2)), VB.mapInv hF hu hX hP h.2⟩
theorem TB.cross {x y : TErr} {a a' b b' : Twist} (h1 : TB x a a') (h2 : TB y b b') : TB (x.cross u y) (F.twistCross a b) (a' * b') :=
  ⟨VB.add hF hu (VB.cross hF hu h1.2 h2.1) (VB.cross hF hu h1.1 h2.2), VB.cross hF hu h1.2 h2.2⟩
theorem TB.wrench {x y : TErr} {a a' : Twist} {b b' : Wrench} (h1 : TB x a a') (h2 : WB y b b') :
    WB (x.wrench u y) (F.twistWrench a b) (a' * b') :=
  ⟨VB.cross hF hu h1.2 h2.1, VB.add hF hu (VB.cross hF hu h1.2 h2.2) (VB.cross hF hu h1.1 h2.1)⟩
theorem VB.scaleE {x c : VErr} {a a' : Vec} {k k' : ℝ} (h : VB x a a') (hc : SB c k k') :
    VB (x.scaleE u c) (F.vecScale a k) (k' • a') := by
  obtain ⟨e1, l1⟩ := h.nonneg
  obtain ⟨e2, l2⟩ := hc.nonneg
  have hk : |k| ≤ ((c.l + c.e : ℚ) : ℝ) := by
    have := abs_add_le (k - k') k'
    rw [sub_add_cancel] at this
    push_cast
    linarith [hc.1, hc.2]
  have sm : ∀ (r : ℝ) (v : Vec), vlen (r • v) = |r| * vlen v := by
    intro r v
    unfold vlen
    rw [← Real.sqrt_sq_eq_abs, ← Real.sqrt_mul (sq_nonneg r)]
    congr 1
    simp only [Vec.smul_x, Vec.smul_y, Vec.smul_z]
    ring
  have k1 := (VB.scale hF hu h hk).1
  have k2 : vdist (k • a') (k' • a') ≤ c.e * x.l := by
    have : k • a' - k' • a' = (k - k') • a' := by ext <;> simp <;> ring
    rw [vdist_eq_vlen, this, sm]
    exact mul_le_mul hc.1 h.2 (vlen_nonneg _) e2
  refine ⟨(vdist_triangle _ (k • a') _).trans ?_, ?_⟩
  · unfold VErr.scaleE
    push_cast at k1 ⊢
    linarith
  · unfold VErr.scaleE
    rw [sm]
    push_cast
    exact mul_le_mul hc.2 h.2 (vlen_nonneg _) l2

theorem VB.matE {x n : VErr} {a a' : Vec} {I I' : Mat3} (hI : rdist (asRot I) (asRot I') ≤ n.e) (hn : fro (asRot I') ≤ n.l) (h : VB x a a') :
    VB (VErr.matE u n x) (F.matVec I a) (I' * a') := by
  obtain ⟨e1, l1⟩ := h.nonneg
  have n0 : (0 : ℝ) ≤ n.e := (rdist_nonneg _ _).trans hI
  have n1 : (0 : ℝ) ≤ n.l := (fro_nonneg _).trans hn
  have hk : fro (asRot I) ≤ ((n.l + n.e : ℚ) : ℝ) := by
    have := fro_le (asRot I) (asRot I')
    push_cast
    linarith
  have ev : ∀ (J : Mat3) (v : Vec), J * v = asRot J * v := fun _ _ => rfl
  have k1 := (VB.mat hF hu hk h).1
  have k2 : vdist (I * a') (I' * a') ≤ n.e * x.l := by
    rw [ev, ev]
    exact (vdist_mul_right _ _ _).trans (mul_le_mul hI h.2 (vlen_nonneg _) n0)
  refine ⟨(vdist_triangle _ (I * a') _).trans ?_, ?_⟩
  · unfold VErr.matE
    push_cast at k1 ⊢
    linarith
  · unfold VErr.matE
    rw [ev]
    push_cast
    exact (vlen_mul _ _).trans (mul_le_mul hn h.2 (vlen_nonneg _) n1)

theorem TB.rbi {x : TErr} {a a' : Twist} {i i' : RBI} {m h n : VErr} (hm : SB m i.m i'.m) (hh : VB h i.h i'.h)
    (hn : rdist (asRot i.I) (asRot i'.I) ≤ n.e ∧ fro (asRot i'.I) ≤ n.l)
    (h1 : TB x a a') : WB (x.rbi u m h n) (F.rbiTwist i a) (i' * a') :=
  ⟨VB.sub hF hu (VB.scaleE hF hu h1.1 hm) (VB.cross hF hu hh h1.2),
    VB.add hF hu (VB.matE hF hu hn.1 hn.2 h1.2) (VB.cross hF hu hh h1.1)⟩
theorem WB.frame {x : TErr} {a a' : Wrench} {P X : Frame} {d : ℚ} {p : VErr} (hX : X.M.IsProper) (hP : rdist P.M X.M ≤ d)
    (hp : VB p P.p X.p) (h : WB x a a') : WB (x.frame u d p) (F.frameWrench P a) (X * a') :=
  ⟨VB.map hF hu hX hP h.1, VB.add hF hu (VB.map hF hu hX hP h.2) (VB.cross hF hu hp (VB.map hF hu hX hP h.1))⟩
theorem TB.dot {x y : TErr} {a a' : Twist} {b b' : Wrench} (h1 : TB x a a') (h2 : WB y b b') :
    SB (x.dot u y) (F.twistDot a b) (a'.dot b') := SB.add hF hu (VB.dot hF hu h1.1 h2.1) (VB.dot hF hu h1.2 h2.2)

end
end
end KDL
