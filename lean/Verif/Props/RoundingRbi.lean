import Verif.Model.RoundingRbi
import Verif.Props.RoundingRot

/-! C113: rounding errors of moving the inertia of a rigid body. -/

namespace KDL

/-! ## bounds -/

/-- Three products, summed. -/
def VErr.dot3 (u : ℚ) (x y : VErr) : VErr := ((x.mul u y).add u (x.mul u y)).add u (x.mul u y)

/-- Bounds of the arguments: unit roundoff, entries of the rotation, coordinates of the origin, mass, coordinates of the first moment,
entries of the inertia. -/
structure MoveB where
  u : ℚ
  d : VErr
  p : VErr
  m : VErr
  h : VErr
  i : VErr

namespace MoveB
variable (b : MoveB)
/-- The first moment and the inertia about a point with the coordinates of `r`. -/
def hmr (r : VErr) : VErr := b.h.add b.u (r.mul b.u b.m)
def ref (r : VErr) : VErr :=
  (b.i.add b.u ((b.h.mul b.u r).add b.u ((r.dot3 b.u b.h).mul b.u ⟨0, 1⟩))).add b.u
    ((r.mul b.u (b.hmr r)).add b.u (((b.hmr r).dot3 b.u r).mul b.u ⟨0, 1⟩))
/-- Coordinates of the origin of the inverse frame. -/
def r : VErr := b.d.dot3 b.u b.p
def h' : VErr := b.d.dot3 b.u (b.hmr b.r)
def i' : VErr := b.d.dot3 b.u ((b.ref b.r).dot3 b.u b.d)
/-- A rotation alone. -/
def hr : VErr := b.d.dot3 b.u b.h
def ir : VErr := b.d.dot3 b.u (b.i.dot3 b.u b.d)
end MoveB

/-- Sizes of a robot: origin within half a metre, mass at most 18, first moment at most 8, inertia at most 6. -/
def dblM : MoveB where
  u := u53
  d := ⟨24 / 10 ^ 16, 1⟩
  p := ⟨8 / 10 ^ 16, 1 / 2⟩
  m := ⟨1 / 10 ^ 14, 18⟩
  h := ⟨1 / 10 ^ 14, 8⟩
  i := ⟨5 / 10 ^ 14, 6⟩
theorem dblM_h : dblM.h'.e ≤ 8 / 10 ^ 13 := by decide +kernel
theorem dblM_i : dblM.i'.e ≤ 4 / 10 ^ 11 := by decide +kernel

noncomputable section

/-! ## vocabulary -/

/-- The entries of a rotation as a matrix. -/
def asMat (R : Rot) : Mat3 := ⟨R.m00, R.m01, R.m02, R.m10, R.m11, R.m12, R.m20, R.m21, R.m22⟩

/-- The three coordinates, the nine entries within the same bound. -/
def CB (x : VErr) (v v' : Vec) : Prop := SB x v.x v'.x ∧ SB x v.y v'.y ∧ SB x v.z v'.z
structure MB (x : VErr) (A A' : Mat3) : Prop where
  a00 : SB x A.a00 A'.a00
  a01 : SB x A.a01 A'.a01
  a02 : SB x A.a02 A'.a02
  a10 : SB x A.a10 A'.a10
  a11 : SB x A.a11 A'.a11
  a12 : SB x A.a12 A'.a12
  a20 : SB x A.a20 A'.a20
  a21 : SB x A.a21 A'.a21
  a22 : SB x A.a22 A'.a22

/-- Inertia as stored and ideal. -/
structure IB (m h i : VErr) (I I' : RBI) : Prop where
  mass : SB m I.m I'.m
  moment : CB h I.h I'.h
  inertia : MB i I.I I'.I

/-! ## helpers -/

section
variable {F : FlD} (hF : F.Ok) {u : ℚ} (hu : F.u ≤ u)
include hF hu

theorem SB.dot3 {x y : VErr} {a a' b b' c c' p p' q q' r r' : ℝ} (ha : SB x a a') (hb : SB x b b') (hc : SB x c c') (hp : SB y p p') (hq : SB y q q')
    (hr : SB y r r') : SB (x.dot3 u y) (F.dot3 a p b q c r) (a' * p' + b' * q' + c' * r') :=
  SB.add hF hu (SB.add hF hu (SB.mul hF hu ha hp) (SB.mul hF hu hb hq)) (SB.mul hF hu hc hr)
theorem SB.dot3' {x y : VErr} {a a' b b' c c' p p' q q' r r' : ℝ} (ha : SB x a a') (hb : SB x b b') (hc : SB x c c') (hp : SB y p p') (hq : SB y q q')
    (hr : SB y r r') : SB (x.dot3 u y) (F.dot3 p a q b r c) (p' * a' + q' * b' + r' * c') := by
  have h := SB.dot3 hF hu ha hb hc hp hq hr
  have e : F.dot3 p a q b r c = F.dot3 a p b q c r := by unfold Fl.dot3; rw [mul_comm p, mul_comm q, mul_comm r]
  rw [e, mul_comm p', mul_comm q', mul_comm r']
  exact h
theorem MB.mul {x y : VErr} {A A' B B' : Mat3} (h : MB x A A') (k : MB y B B') : MB (x.dot3 u y) (F.matMul A B) (A' * B') :=
  ⟨SB.dot3 hF hu h.a00 h.a01 h.a02 k.a00 k.a10 k.a20, SB.dot3 hF hu h.a00 h.a01 h.a02 k.a01 k.a11 k.a21,
   SB.dot3 hF hu h.a00 h.a01 h.a02 k.a02 k.a12 k.a22, SB.dot3 hF hu h.a10 h.a11 h.a12 k.a00 k.a10 k.a20,
   SB.dot3 hF hu h.a10 h.a11 h.a12 k.a01 k.a11 k.a21, SB.dot3 hF hu h.a10 h.a11 h.a12 k.a02 k.a12 k.a22,
   SB.dot3 hF hu h.a20 h.a21 h.a22 k.a00 k.a10 k.a20, SB.dot3 hF hu h.a20 h.a21 h.a22 k.a01 k.a11 k.a21,
   SB.dot3 hF hu h.a20 h.a21 h.a22 k.a02 k.a12 k.a22⟩
theorem MB.add {x y : VErr} {A A' B B' : Mat3} (h : MB x A A') (k : MB y B B') : MB (x.add u y) (F.matAdd A B) (A' + B') :=
  ⟨SB.add hF hu h.a00 k.a00, SB.add hF hu h.a01 k.a01, SB.add hF hu h.a02 k.a02, SB.add hF hu h.a10 k.a10, SB.add hF hu h.a11 k.a11,
   SB.add hF hu h.a12 k.a12, SB.add hF hu h.a20 k.a20, SB.add hF hu h.a21 k.a21, SB.add hF hu h.a22 k.a22⟩
theorem CB.dot {x y : VErr} {a a' b b' : Vec} (h : CB x a a') (k : CB y b b') : SB (x.dot3 u y) (F.vecDot a b) (a'.dot b') :=
  SB.dot3' hF hu h.1 h.2.1 h.2.2 k.1 k.2.1 k.2.2
theorem CB.map {x y : VErr} {A A' : Rot} {v v' : Vec} (h : MB x (asMat A) (asMat A')) (k : CB y v v') : CB (x.dot3 u y) (F.rotVec A v) (A' * v') :=
  ⟨SB.dot3 hF hu h.a00 h.a01 h.a02 k.1 k.2.1 k.2.2, SB.dot3 hF hu h.a10 h.a11 h.a12 k.1 k.2.1 k.2.2, SB.dot3 hF hu h.a20 h.a21 h.a22 k.1 k.2.1 k.2.2⟩
theorem CB.mapInv {x y : VErr} {A A' : Rot} {v v' : Vec} (h : MB x (asMat A) (asMat A')) (k : CB y v v') :
    CB (x.dot3 u y) (-F.rotInvVec A v) (-A'.invVec v') :=
  ⟨(SB.dot3 hF hu h.a00 h.a10 h.a20 k.1 k.2.1 k.2.2).neg, (SB.dot3 hF hu h.a01 h.a11 h.a21 k.1 k.2.1 k.2.2).neg,
    (SB.dot3 hF hu h.a02 h.a12 h.a22 k.1 k.2.1 k.2.2).neg⟩
theorem CB.hmr {x y m : VErr} {h h' p p' : Vec} {k k' : ℝ} (h1 : CB x h h') (h2 : CB y p p') (h3 : SB m k k') :
    CB (x.add u (y.mul u m)) (F.vecSub h (F.vecScale p k)) (h' - k' • p') := by
  have e : ∀ {a a' b b' : ℝ}, SB x a a' → SB y b b' → SB (x.add u (y.mul u m)) (F.rnd (a - F.rnd (b * k))) (a' - k' * b') := by
    intro a a' b b' g1 g2
    rw [mul_comm k']
    exact SB.sub hF hu g1 (SB.mul hF hu g2 h3)
  exact ⟨e h1.1 h2.1, e h1.2.1 h2.2.1, e h1.2.2 h2.2.2⟩
theorem CB.out {x y d : VErr} {a a' b b' : Vec} {k k' : ℝ} (h1 : CB x a a') (h2 : CB y b b') (h3 : SB d k k') :
    MB ((x.mul u y).add u (d.mul u ⟨0, 1⟩)) (F.outSub a b k) (Mat3.outer a' b' - k' • (1 : Mat3)) := by
  have o : SB ⟨0, 1⟩ 1 1 := ⟨by simp, by simp⟩
  have z : SB ⟨0, 1⟩ 0 0 := ⟨by simp, by simp⟩
  have e : ∀ {p p' q q' δ : ℝ}, SB x p p' → SB y q q' → SB ⟨0, 1⟩ δ δ → SB ((x.mul u y).add u (d.mul u ⟨0, 1⟩)) (F.outEntry p q k δ) (p' * q' - k' * δ) :=
    fun g1 g2 g3 => SB.sub hF hu (SB.mul hF hu g1 g2) (SB.mul hF hu h3 g3)
  exact ⟨e h1.1 h2.1 o, e h1.1 h2.2.1 z, e h1.1 h2.2.2 z, e h1.2.1 h2.1 z, e h1.2.1 h2.2.1 o, e h1.2.1 h2.2.2 z, e h1.2.2 h2.1 z, e h1.2.2 h2.2.1 z,
    e h1.2.2 h2.2.2 o⟩
end

/-! ## C113 -/

/-- Another reference point. -/
theorem C113_refPoint (F : FlD) (hF : F.Ok) (b : MoveB) (hu : F.u ≤ b.u) (r : VErr) (I I' : RBI) (p p' : Vec) (hI : IB b.m b.h b.i I I')
    (hp : CB r p p') : IB b.m (b.hmr r) (b.ref r) (F.refPoint I p) (I'.refPoint p') := by
  have k := CB.hmr hF hu hI.moment hp hI.mass
  exact ⟨hI.mass, k, MB.add hF hu (MB.add hF hu hI.inertia (CB.out hF hu hI.moment hp (CB.dot hF hu hp hI.moment)))
    (CB.out hF hu hp k (CB.dot hF hu k hp))⟩

/-- Another frame. -/
theorem C113_frame (F : FlD) (hF : F.Ok) (b : MoveB) (hu : F.u ≤ b.u) (T T' : Frame) (I I' : RBI) (hI : IB b.m b.h b.i I I')
    (hM : MB b.d (asMat T.M) (asMat T'.M)) (hp : CB b.p T.p T'.p) : IB b.m b.h' b.i' (F.frameRbi T I) (T' * I') := by
  have hr := CB.mapInv hF hu hM hp
  have k := CB.hmr hF hu hI.moment hr hI.mass
  have hA := MB.add hF hu (MB.add hF hu hI.inertia (CB.out hF hu hI.moment hr (CB.dot hF hu hr hI.moment))) (CB.out hF hu hr k (CB.dot hF hu k hr))
  have hR : MB b.d (Mat3.mapRot T.M.inv) (Mat3.mapRot T'.M.inv) :=
    ⟨hM.a00, hM.a01, hM.a02, hM.a10, hM.a11, hM.a12, hM.a20, hM.a21, hM.a22⟩
  have hRt : MB b.d (Mat3.mapRot T.M.inv).tr (Mat3.mapRot T'.M.inv).tr :=
    ⟨hM.a00, hM.a10, hM.a20, hM.a01, hM.a11, hM.a21, hM.a02, hM.a12, hM.a22⟩
  exact ⟨hI.mass, CB.map hF hu hM k, MB.mul hF hu hR (MB.mul hF hu hA hRt)⟩

/-- Another orientation. -/
theorem C113_rotation (F : FlD) (hF : F.Ok) (b : MoveB) (hu : F.u ≤ b.u) (M M' : Rot) (I I' : RBI) (hI : IB b.m b.h b.i I I')
    (hM : MB b.d (asMat M) (asMat M')) : IB b.m b.hr b.ir (F.rotRbi M I) (M' * I') := by
  have hR : MB b.d (Mat3.mapRot M) (Mat3.mapRot M') :=
    ⟨hM.a00, hM.a10, hM.a20, hM.a01, hM.a11, hM.a21, hM.a02, hM.a12, hM.a22⟩
  have hRt : MB b.d (Mat3.mapRot M).tr (Mat3.mapRot M').tr :=
    ⟨hM.a00, hM.a01, hM.a02, hM.a10, hM.a11, hM.a12, hM.a20, hM.a21, hM.a22⟩
  exact ⟨hI.mass, CB.map hF hu hM hI.moment, MB.mul hF hu hRt (MB.mul hF hu hI.inertia hR)⟩

/-- In double precision, for sizes of a robot: a frame as computed by C111 and the mass data of C111 give a first moment within `16e-13` and an
inertia within `12e-11` of the ideal ones. -/
theorem C113_double (F : FlD) (hF : F.Ok) (hu : F.u = 1 / 2 ^ 53) (T T' : Frame) (I I' : RBI) (hT : Near (24 / 10 ^ 16) (8 / 10 ^ 16) T T')
    (hp : T'.IsProper) (hl : vlen T'.p ≤ 1 / 2) (hI : MassNear I I') (lm : |I'.m| ≤ 18) (lh : vlen I'.h ≤ 8) (li : fro (asRot I'.I) ≤ 6) :
    (F.frameRbi T I).m = I.m ∧ vdist (F.frameRbi T I).h (T' * I' : RBI).h ≤ 16 / 10 ^ 13 ∧
    rdist (asRot (F.frameRbi T I).I) (asRot (T' * I' : RBI).I) ≤ 12 / 10 ^ 11 := by
  have cb : ∀ {v v' : Vec} {e l : ℚ}, vdist v v' ≤ e → vlen v' ≤ l → CB ⟨e, l⟩ v v' := by
    intro v v' e l h1 h2
    have s1 := vdist_sq v v'
    have s2 := vlen_sq v'
    have n1 := vdist_nonneg v v'
    have n2 := vlen_nonneg v'
    refine ⟨⟨(abs_le_of_sq_le_sq ?_ n1).trans h1, (abs_le_of_sq_le_sq ?_ n2).trans h2⟩,
      ⟨(abs_le_of_sq_le_sq ?_ n1).trans h1, (abs_le_of_sq_le_sq ?_ n2).trans h2⟩,
      ⟨(abs_le_of_sq_le_sq ?_ n1).trans h1, (abs_le_of_sq_le_sq ?_ n2).trans h2⟩⟩
    · rw [s1]; linarith [sq_nonneg (v.y - v'.y), sq_nonneg (v.z - v'.z)]
    · rw [s2]; linarith [sq_nonneg v'.y, sq_nonneg v'.z]
    · rw [s1]; linarith [sq_nonneg (v.x - v'.x), sq_nonneg (v.z - v'.z)]
    · rw [s2]; linarith [sq_nonneg v'.x, sq_nonneg v'.z]
    · rw [s1]; linarith [sq_nonneg (v.x - v'.x), sq_nonneg (v.y - v'.y)]
    · rw [s2]; linarith [sq_nonneg v'.x, sq_nonneg v'.y]
  have fr : ∀ (A : Rot), |A.m00| ≤ fro A ∧ |A.m01| ≤ fro A ∧ |A.m02| ≤ fro A ∧ |A.m10| ≤ fro A ∧ |A.m11| ≤ fro A ∧ |A.m12| ≤ fro A ∧
      |A.m20| ≤ fro A ∧ |A.m21| ≤ fro A ∧ |A.m22| ≤ fro A := by
    intro A
    have z : rdist A ⟨0, 0, 0, 0, 0, 0, 0, 0, 0⟩ = fro A := by unfold rdist fro; simp
    obtain ⟨d00, d11, d22, -⟩ := entry_dist A ⟨0, 0, 0, 0, 0, 0, 0, 0, 0⟩
    obtain ⟨d01, d10, d02, d20, d12, d21⟩ := FlM.entry_dist' A ⟨0, 0, 0, 0, 0, 0, 0, 0, 0⟩
    simp only [sub_zero, z] at *
    exact ⟨d00, d01, d02, d10, d11, d12, d20, d21, d22⟩
  have hM : MB ⟨24 / 10 ^ 16, 1⟩ (asMat T.M) (asMat T'.M) := by
    obtain ⟨l00, l01, l02, l10, l11, l12, l20, l21, l22⟩ := entry_le hp
    obtain ⟨d00, d11, d22, -⟩ := entry_dist T.M T'.M
    obtain ⟨d01, d10, d02, d20, d12, d21⟩ := FlM.entry_dist' T.M T'.M
    have t := hT.1
    constructor <;> refine ⟨?_, ?_⟩ <;> push_cast
    exacts [d00.trans t, l00, d01.trans t, l01, d02.trans t, l02, d10.trans t, l10, d11.trans t, l11, d12.trans t, l12, d20.trans t, l20, d21.trans t, l21,
      d22.trans t, l22]
  have hi : MB ⟨5 / 10 ^ 14, 6⟩ I.I I'.I := by
    obtain ⟨l00, l01, l02, l10, l11, l12, l20, l21, l22⟩ := fr (asRot I'.I)
    obtain ⟨d00, d11, d22, -⟩ := entry_dist (asRot I.I) (asRot I'.I)
    obtain ⟨d01, d10, d02, d20, d12, d21⟩ := FlM.entry_dist' (asRot I.I) (asRot I'.I)
    have t := hI.inertia
    constructor <;> refine ⟨?_, ?_⟩ <;> push_cast
    exacts [d00.trans t, l00.trans li, d01.trans t, l01.trans li, d02.trans t, l02.trans li, d10.trans t, l10.trans li, d11.trans t, l11.trans li,
      d12.trans t, l12.trans li, d20.trans t, l20.trans li, d21.trans t, l21.trans li, d22.trans t, l22.trans li]
  have hm : SB ⟨1 / 10 ^ 14, 18⟩ I.m I'.m := by
    refine ⟨?_, ?_⟩ <;> push_cast
    exacts [hI.mass, lm]
  obtain ⟨-, k2, k3⟩ := C113_frame F hF dblM (by rw [hu]; simp [dblM, u53]) T T' I I'
    ⟨hm, cb (by push_cast; exact hI.moment) (by push_cast; exact lh), hi⟩ hM (cb (by push_cast; exact hT.2) (by push_cast; exact hl))
  refine ⟨rfl, ?_, ?_⟩
  · have e := fun {x x' : ℝ} (h : SB dblM.h' x x') => h.le dblM_h
    push_cast at e
    exact (vdist_le (e := 8 / 10 ^ 13) ⟨e k2.1, e k2.2.1, e k2.2.2⟩).trans (by norm_num)
  · have e := fun {x x' : ℝ} (h : SB dblM.i' x x') => h.le dblM_i
    push_cast at e
    exact (rdist_le (e := 4 / 10 ^ 11) ⟨e k3.a00, e k3.a01, e k3.a02, e k3.a10, e k3.a11, e k3.a12, e k3.a20, e k3.a21, e k3.a22⟩).trans (by norm_num)

/-- Exact arithmetic is the program over the reals. -/
theorem C113_exact (u : ℝ) (T : Frame) (M : Rot) (I : RBI) (p : Vec) :
    (FlD.mk ⟨u, id, Real.sin, Real.cos⟩ fun I v => I * v).frameRbi T I = T * I ∧
    (FlD.mk ⟨u, id, Real.sin, Real.cos⟩ fun I v => I * v).rotRbi M I = M * I ∧
    (FlD.mk ⟨u, id, Real.sin, Real.cos⟩ fun I v => I * v).refPoint I p = I.refPoint p := by
  obtain ⟨F, hF⟩ : ∃ F, F = FlD.mk ⟨u, id, Real.sin, Real.cos⟩ (fun I v => I * v) := ⟨_, rfl⟩
  have h1 : ∀ (h p : Vec) (k : ℝ), F.vecSub h (F.vecScale p k) = h - k • p := by
    intro h p k
    rw [hF]
    ext <;> simp [Fl.vecSub, Fl.vecScale] <;> ring
  rw [← hF]
  refine ⟨?_, by rw [hF]; rfl, ?_⟩
  · show (⟨I.m, F.rotVec T.M (F.vecSub I.h (F.vecScale (F.frameInv T).p I.m)), _⟩ : RBI) = _
    rw [h1, hF]
    rfl
  · show (⟨I.m, F.vecSub I.h (F.vecScale p I.m), F.matAdd (F.matAdd I.I (F.outSub I.h p (F.vecDot p I.h)))
      (F.outSub p (F.vecSub I.h (F.vecScale p I.m)) (F.vecDot (F.vecSub I.h (F.vecScale p I.m)) p))⟩ : RBI) = _
    rw [h1, hF]
    rfl

/-- Not vacuous: a machine that rounds every number up, a shift, a body whose stored mass is not the ideal one. -/
example : ∃ (F : FlD) (T T' : Frame) (I I' : RBI), F.Ok ∧ F.u = 1 / 2 ^ 53 ∧ F.rnd 1 ≠ 1 ∧ Near (24 / 10 ^ 16) (8 / 10 ^ 16) T T' ∧ T'.IsProper ∧
    vlen T'.p ≤ 1 / 2 ∧ T'.p ≠ 0 ∧ MassNear I I' ∧ |I'.m| ≤ 18 ∧ vlen I'.h ≤ 8 ∧ fro (asRot I'.I) ≤ 6 ∧ I ≠ I' := by
  refine ⟨⟨sloppy, fun I v => sloppy.rotVec (asRot I) v⟩, ⟨1, ⟨1 / 2, 0, 0⟩⟩, ⟨1, ⟨1 / 2, 0, 0⟩⟩,
    ⟨2, ⟨1, 0, 0⟩, ⟨1, 0, 0, 0, 1, 0, 0, 0, 1⟩⟩, ⟨2 + 1 / 10 ^ 15, ⟨1, 0, 0⟩, ⟨1, 0, 0, 0, 1, 0, 0, 0, 1⟩⟩, C109_matvec _ sloppy_ok, rfl, ?_, ⟨?_, ?_⟩,
    Rot.IsProper.one, ?_, ?_, ⟨?_, ?_, ?_⟩, ?_, ?_, ?_, ?_⟩
  · simp [sloppy]
  · norm_num [rdist]
  · rw [vdist_self]; norm_num
  · refine Real.sqrt_le_iff.mpr ⟨by norm_num, ?_⟩
    norm_num
  · intro h
    have := congrArg Vec.x h
    norm_num at this
  · norm_num [abs_le]
  · rw [vdist_self]; norm_num
  · norm_num [rdist]
  · norm_num [abs_le]
  · refine Real.sqrt_le_iff.mpr ⟨by norm_num, ?_⟩
    norm_num
  · refine Real.sqrt_le_iff.mpr ⟨by norm_num, ?_⟩
    norm_num [asRot]
  · intro h
    have := congrArg RBI.m h
    norm_num at this

end
end KDL
