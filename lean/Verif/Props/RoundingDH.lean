import Verif.Model.RoundingDH
import Verif.Props.RoundingTree
import Verif.Props.RoundingArm
import Mathlib.Analysis.Real.Pi.Bounds

/-! C111: rounding errors in the construction of segments from Denavit-Hartenberg parameters, and of the Puma 560. -/

noncomputable section
namespace KDL

/-! ## helpers -/

theorem sin_near (x y : ℝ) : |Real.sin x - Real.sin y| ≤ |x - y| := by
  have h := Real.sin_sub_sin x y
  rw [h, abs_mul, abs_mul, abs_two]
  have h1 : |Real.sin ((x - y) / 2)| ≤ |(x - y) / 2| := Real.abs_sin_le_abs
  have h2 := Real.abs_cos_le_one ((x + y) / 2)
  have h3 : |(x - y) / 2| = |x - y| / 2 := by rw [abs_div, abs_two]
  have h4 := abs_nonneg (Real.sin ((x - y) / 2))
  nlinarith [abs_nonneg (Real.cos ((x + y) / 2))]
theorem cos_near (x y : ℝ) : |Real.cos x - Real.cos y| ≤ |x - y| := by
  rw [← Real.sin_pi_div_two_sub, ← Real.sin_pi_div_two_sub]
  refine (sin_near _ _).trans (le_of_eq ?_)
  rw [show Real.pi / 2 - x - (Real.pi / 2 - y) = -(x - y) by ring, abs_neg]

/-- A rounded product of two numbers with errors, the second of magnitude at most 1. -/
theorem prod_near {F : Fl} (hF : F.Ok) {t m x x' y y' : ℝ} (hu : F.u ≤ t / 2) (ht : t ≤ 1 / 64) (hm : 0 ≤ m) (hx : |x - x'| ≤ t * m)
    (hx' : |x'| ≤ m) (hy : |y - y'| ≤ t) (hy' : |y'| ≤ 1) : |F.rnd (x * y) - x' * y'| ≤ 13 / 5 * t * m := by
  have u0 := hF.nonneg
  have t0 : 0 ≤ t := (abs_nonneg _).trans hy
  have x1 : |x| ≤ (1 + t) * m := by
    have := abs_add_le (x - x') x'
    rw [sub_add_cancel] at this
    linarith
  have y1 : |y| ≤ 1 + t := by
    have := abs_add_le (y - y') y'
    rw [sub_add_cancel] at this
    linarith
  have a1 := abs_add_le (F.rnd (x * y) - x * y) (x * y - x' * y')
  rw [sub_add_sub_cancel] at a1
  have a2 := hF.rnd (x * y)
  have a3 : |x * y - x' * y'| ≤ t * m * (1 + t) + m * t := by
    have e : x * y - x' * y' = (x - x') * y + x' * (y - y') := by ring
    rw [e]
    refine (abs_add_le _ _).trans ?_
    rw [abs_mul, abs_mul]
    exact add_le_add (mul_le_mul hx y1 (abs_nonneg _) (by positivity)) (mul_le_mul hx' hy (abs_nonneg _) hm)
  have a4 : F.u * |x * y| ≤ t / 2 * ((1 + t) * m * (1 + t)) := by
    rw [abs_mul]
    exact mul_le_mul hu (mul_le_mul x1 y1 (abs_nonneg _) (by positivity)) (by positivity) (by positivity)
  have a5 : t * m * (1 + t) + m * t + t / 2 * ((1 + t) * m * (1 + t)) ≤ 13 / 5 * t * m := by
    have : (1 + t) + 1 + 1 / 2 * ((1 + t) * (1 + t)) ≤ 13 / 5 := by nlinarith
    have := mul_le_mul_of_nonneg_left this (mul_nonneg t0 hm)
    nlinarith
  linarith

theorem sq_bound {x c : ℝ} (h : |x| ≤ c) : x ^ 2 ≤ c ^ 2 := by rw [← sq_abs x]; exact pow_le_pow_left₀ (abs_nonneg _) h 2

section
variable {F : FlD} (hF : F.Ok) {e t x x' : ℝ} (hx : |x - x'| ≤ e) (ht : e + 2 * F.u ≤ t)
include hF hx ht
theorem fsin_near : |F.sin x - Real.sin x'| ≤ t := by
  have := abs_add_le (F.sin x - Real.sin x) (Real.sin x - Real.sin x')
  rw [sub_add_sub_cancel] at this
  linarith [hF.base.sin x, sin_near x x']
theorem fcos_near : |F.cos x - Real.cos x'| ≤ t := by
  have := abs_add_le (F.cos x - Real.cos x) (Real.cos x - Real.cos x')
  rw [sub_add_sub_cancel] at this
  linarith [hF.base.cos x, cos_near x x']
end

/-- `x` is `x'` rounded. -/
def Rounded (u x x' : ℝ) : Prop := |x - x'| ≤ u * |x'|

/-- Mass data as computed and ideal. -/
structure MassNear (I I' : RBI) : Prop where
  mass : |I.m - I'.m| ≤ 1 / 10 ^ 14
  moment : vdist I.h I'.h ≤ 1 / 10 ^ 14
  inertia : rdist (asRot I.I) (asRot I'.I) ≤ 5 / 10 ^ 14

def VErr.mul (u : ℚ) (x y : VErr) : VErr := ⟨(1 + u) * (x.e * (y.l + y.e) + x.l * y.e) + u * (x.l * y.l), x.l * y.l⟩

theorem SB.mul {F : FlD} (hF : F.Ok) {u : ℚ} (hu : F.u ≤ u) {x y : VErr} {a a' b b' : ℝ} (h1 : SB x a a') (h2 : SB y b b') :
    SB (x.mul u y) (F.rnd (a * b)) (a' * b') := by
  obtain ⟨e1, l1⟩ := h1.nonneg
  obtain ⟨e2, l2⟩ := h2.nonneg
  have u0 := hF.base.nonneg
  have u0' : (0 : ℝ) ≤ u := u0.trans hu
  have hb : |b| ≤ y.l + y.e := by
    have := abs_add_le (b - b') b'
    rw [sub_add_cancel] at this
    linarith [h2.1, h2.2]
  have k : |a * b - a' * b'| ≤ x.e * (y.l + y.e) + x.l * y.e := by
    rw [show a * b - a' * b' = (a - a') * b + a' * (b - b') by ring]
    refine (abs_add_le _ _).trans ?_
    rw [abs_mul, abs_mul]
    exact add_le_add (mul_le_mul h1.1 hb (abs_nonneg _) e1) (mul_le_mul h1.2 h2.1 (abs_nonneg _) l1)
  have hl : |a' * b'| ≤ x.l * y.l := by rw [abs_mul]; exact mul_le_mul h1.2 h2.2 (abs_nonneg _) l1
  refine ⟨(Fl.rnd_add hF.base k).trans ?_, ?_⟩
  · unfold VErr.mul
    push_cast
    gcongr
  · unfold VErr.mul
    push_cast
    exact hl
theorem SB.neg {x : VErr} {a a' : ℝ} (h : SB x a a') : SB x (-a) (-a') :=
  ⟨by rw [show -a - -a' = -(a - a') by ring, abs_neg]; exact h.1, by rw [abs_neg]; exact h.2⟩
theorem SB.sub {F : FlD} (hF : F.Ok) {u : ℚ} (hu : F.u ≤ u) {x y : VErr} {a a' b b' : ℝ} (h1 : SB x a a') (h2 : SB y b b') :
    SB (x.add u y) (F.rnd (a - b)) (a' - b') := by
  rw [sub_eq_add_neg, sub_eq_add_neg]
  exact SB.add hF hu h1 h2.neg

/-- The bounds of `cogEntry`: mass at most 18, coordinates at most 2/5, entry at most 1. -/
def cogB : VErr :=
  let u : ℚ := 1 / 2 ^ 53
  let c : VErr := ⟨u * (2 / 5), 2 / 5⟩
  let cc := c.mul u c
  let dd := (cc.add u cc).add u cc
  VErr.add u ⟨u, 1⟩ (VErr.mul u ⟨u * 18, 18⟩ (cc.add u (dd.mul u ⟨0, 1⟩)))
theorem cogB_le : cogB.e ≤ 16 / 10 ^ 15 := by decide +kernel

/-! ## C111 -/

/-- Mass data computed in double precision from rounded numbers: masses at most 18, coordinates of the centre of mass at most 0.4, entries
of the rotational inertia at most 1. -/
theorem C111_mass (F : FlD) (hF : F.Ok) (hu : F.u = 1 / 2 ^ 53) (m m' : ℝ) (c c' : Vec) (I I' : Mat3) (hm : Rounded F.u m m') (lm : |m'| ≤ 18)
    (hx : Rounded F.u c.x c'.x) (hy : Rounded F.u c.y c'.y) (hz : Rounded F.u c.z c'.z) (lx : |c'.x| ≤ 2 / 5) (ly : |c'.y| ≤ 2 / 5) (lz : |c'.z| ≤ 2 / 5)
    (h00 : Rounded F.u I.a00 I'.a00 ∧ |I'.a00| ≤ 1) (h01 : Rounded F.u I.a01 I'.a01 ∧ |I'.a01| ≤ 1) (h02 : Rounded F.u I.a02 I'.a02 ∧ |I'.a02| ≤ 1)
    (h10 : Rounded F.u I.a10 I'.a10 ∧ |I'.a10| ≤ 1) (h11 : Rounded F.u I.a11 I'.a11 ∧ |I'.a11| ≤ 1) (h12 : Rounded F.u I.a12 I'.a12 ∧ |I'.a12| ≤ 1)
    (h20 : Rounded F.u I.a20 I'.a20 ∧ |I'.a20| ≤ 1) (h21 : Rounded F.u I.a21 I'.a21 ∧ |I'.a21| ≤ 1) (h22 : Rounded F.u I.a22 I'.a22 ∧ |I'.a22| ≤ 1) :
    |(F.ofCog m c I).m - (RBI.ofCog m' c' I').m| ≤ 1 / 10 ^ 14 ∧ vdist (F.ofCog m c I).h (RBI.ofCog m' c' I').h ≤ 1 / 10 ^ 14 ∧
    rdist (asRot (F.ofCog m c I).I) (asRot (RBI.ofCog m' c' I').I) ≤ 5 / 10 ^ 14 := by
  obtain ⟨u, hue⟩ : ∃ u : ℚ, u = 1 / 2 ^ 53 := ⟨_, rfl⟩
  have hu' : F.u ≤ (u : ℝ) := by rw [hu, hue]; push_cast; exact le_rfl
  have sb : ∀ {x x' : ℝ} {l : ℚ}, Rounded F.u x x' → |x'| ≤ l → SB ⟨u * l, l⟩ x x' := by
    intro x x' l h1 h2
    refine ⟨h1.trans ?_, h2⟩
    push_cast
    exact mul_le_mul hu' h2 (abs_nonneg _) (hF.base.nonneg.trans hu')
  have sm : SB ⟨u * 18, 18⟩ m m' := sb hm (by exact_mod_cast lm)
  have sx : SB ⟨u * (2 / 5), 2 / 5⟩ c.x c'.x := sb hx (by push_cast; exact lx)
  have sy : SB ⟨u * (2 / 5), 2 / 5⟩ c.y c'.y := sb hy (by push_cast; exact ly)
  have sz : SB ⟨u * (2 / 5), 2 / 5⟩ c.z c'.z := sb hz (by push_cast; exact lz)
  have hd := SB.add hF hu' (SB.add hF hu' (SB.mul hF hu' sx sx) (SB.mul hF hu' sy sy)) (SB.mul hF hu' sz sz)
  have ent : ∀ {i i' a a' b b' δ : ℝ}, (Rounded F.u i i' ∧ |i'| ≤ 1) → SB ⟨u * (2 / 5), 2 / 5⟩ a a' → SB ⟨u * (2 / 5), 2 / 5⟩ b b' → |δ| ≤ 1 →
      |F.cogEntry m i a b (F.vecDot c c) δ - (i' - m' * (a' * b' - (c'.x * c'.x + c'.y * c'.y + c'.z * c'.z) * δ))| ≤ 16 / 10 ^ 15 := by
    intro i i' a a' b b' δ hi ha hb hδ
    have si : SB ⟨u, 1⟩ i i' := by have := sb (l := 1) hi.1 (by exact_mod_cast hi.2); rwa [mul_one] at this
    have sδ : SB ⟨0, 1⟩ δ δ := ⟨by simp, by simpa using hδ⟩
    have h := (SB.sub hF hu' si (SB.mul hF hu' sm (SB.sub hF hu' (SB.mul hF hu' ha hb) (SB.mul hF hu' hd sδ)))).1
    rw [hue] at h
    have k : ((cogB.e : ℚ) : ℝ) ≤ ((16 / 10 ^ 15 : ℚ) : ℝ) := by exact_mod_cast cogB_le
    push_cast at k
    exact h.trans k
  refine ⟨?_, ?_, ?_⟩
  · have h := sm.1
    rw [hue] at h
    refine h.trans ?_
    norm_num
  · have v : ∀ {a a' : ℝ}, SB ⟨u * (2 / 5), 2 / 5⟩ a a' → |F.rnd (a * m) - m' * a'| ≤ 1 / (2 * 10 ^ 14) := by
      intro a a' ha
      have h := (SB.mul hF hu' ha sm).1
      rw [hue] at h
      rw [mul_comm m' a']
      refine h.trans ?_
      norm_num [VErr.mul]
    exact (vdist_le (e := 1 / (2 * 10 ^ 14)) ⟨v sx, v sy, v sz⟩).trans (by norm_num)
  · have e1 : |(1 : ℝ)| ≤ 1 := by norm_num
    have e0 : |(0 : ℝ)| ≤ 1 := by norm_num
    exact (rdist_le (e := 16 / 10 ^ 15) ⟨ent h00 sx sx e1, ent h01 sx sy e0, ent h02 sx sz e0, ent h10 sy sx e0, ent h11 sy sy e1, ent h12 sy sz e0,
      ent h20 sz sx e0, ent h21 sz sy e0, ent h22 sz sz e1⟩).trans (by norm_num)

/-- Frames in Denavit-Hartenberg parameters.  `e` bounds the errors of the angles, `t * m` those of the lengths, `m` the lengths. -/
theorem C111_dh (F : FlD) (hF : F.Ok) (a a' α α' d d' θ θ' e t m : ℝ) (hα : |α - α'| ≤ e) (hθ : |θ - θ'| ≤ e) (ht : e + 2 * F.u ≤ t)
    (ht' : t ≤ 1 / 64) (ha : |a - a'| ≤ t * m) (hd : |d - d'| ≤ t * m) (ha' : |a'| ≤ m) (hd' : |d'| ≤ m) :
    Near (6 * t) (4 * t * m) (F.dh a α d θ) (Frame.dh a' α' d' θ') ∧
    Near (6 * t) (4 * t * m) (F.dhCraig a α d θ) (Frame.dhCraig a' α' d' θ') := by
  have u0 := hF.base.nonneg
  have e0 : 0 ≤ e := (abs_nonneg _).trans hα
  have t0 : 0 ≤ t := by linarith
  have m0 : 0 ≤ m := (abs_nonneg _).trans ha'
  have hu : F.u ≤ t / 2 := by linarith
  have s1 := fsin_near hF hα ht
  have c1 := fcos_near hF hα ht
  have s2 := fsin_near hF hθ ht
  have c2 := fcos_near hF hθ ht
  have ls1 := Real.abs_sin_le_one α'
  have lc1 := Real.abs_cos_le_one α'
  have ls2 := Real.abs_sin_le_one θ'
  have lc2 := Real.abs_cos_le_one θ'
  have neg : ∀ {x y : ℝ}, |x - y| ≤ t → |-x - -y| ≤ t := fun {x y} h => by rw [show -x - -y = -(x - y) by ring, abs_neg]; exact h
  have pr : ∀ {x x' y y' : ℝ}, |x - x'| ≤ t → |x'| ≤ 1 → |y - y'| ≤ t → |y'| ≤ 1 → (F.rnd (x * y) - x' * y') ^ 2 ≤ 169 / 25 * t ^ 2 :=
    fun h1 h2 h3 h4 => by
      have := prod_near hF.base hu ht' (zero_le_one) (by rw [mul_one]; exact h1) h2 h3 h4
      rw [mul_one] at this
      exact (sq_bound this).trans (le_of_eq (by ring))
  have pl : ∀ {x x' y y' : ℝ}, |x - x'| ≤ t * m → |x'| ≤ m → |y - y'| ≤ t → |y'| ≤ 1 → (F.rnd (x * y) - x' * y') ^ 2 ≤ 169 / 25 * (t * m) ^ 2 :=
    fun h1 h2 h3 h4 => (sq_bound (prod_near hF.base hu ht' m0 h1 h2 h3 h4)).trans (le_of_eq (by ring))
  have qs1 := sq_bound s1
  have qc1 := sq_bound c1
  have qs2 := sq_bound s2
  have qc2 := sq_bound c2
  have tt : 0 ≤ t ^ 2 := sq_nonneg _
  have mm : 0 ≤ (t * m) ^ 2 := sq_nonneg _
  have z6 : (6 * t) ^ 2 = 36 * t ^ 2 := by ring
  have z4 : (4 * t * m) ^ 2 = 16 * (t * m) ^ 2 := by ring
  refine ⟨⟨?_, ?_⟩, ⟨?_, ?_⟩⟩
  · refine Real.sqrt_le_iff.mpr ⟨by linarith, ?_⟩
    have q1 := pr (neg s2) (by rwa [abs_neg]) c1 lc1
    have q2 := pr s2 ls2 s1 ls1
    have q3 := pr c2 lc2 c1 lc1
    have q4 := pr (neg c2) (by rwa [abs_neg]) s1 ls1
    simp only [FlD.dh, Frame.dh, sub_self, z6]
    linarith
  · refine Real.sqrt_le_iff.mpr ⟨by positivity, ?_⟩
    have q1 := pl ha ha' c2 lc2
    have q2 := pl ha ha' s2 ls2
    have q3 := sq_bound hd
    simp only [FlD.dh, Frame.dh, z4]
    linarith
  · refine Real.sqrt_le_iff.mpr ⟨by linarith, ?_⟩
    have q1 := pr s2 ls2 c1 lc1
    have q2 := pr c2 lc2 c1 lc1
    have q3 := pr s2 ls2 s1 ls1
    have q4 := pr c2 lc2 s1 ls1
    have n1 := sq_bound (neg s2)
    have n2 := sq_bound (neg s1)
    simp only [FlD.dhCraig, Frame.dhCraig, sub_self, z6]
    linarith
  · refine Real.sqrt_le_iff.mpr ⟨by positivity, ?_⟩
    have q1 := pl hd hd' (neg s1) (by rwa [abs_neg])
    have q2 := pl hd hd' c1 lc1
    have q3 := sq_bound ha
    simp only [FlD.dhCraig, Frame.dhCraig, z4]
    rw [mul_comm d, mul_comm d'] at q1 q2
    linarith

/-- A segment with a joint about z (scale 1, offset 0) or a fixed one, built in double precision from a tip frame with errors: the stored
tip frame is within `5e-15` of the one given; the mass data are those given. -/
theorem C111_segment (F : FlD) (hF : F.Ok) (hu : F.u = 1 / 2 ^ 53) (ty : JointType) (hty : ty = .RotZ ∨ ty = .Fixed) (X X' : Frame)
    (hX : Near (24 / 10 ^ 16) (8 / 10 ^ 16) X X') (hp : X'.IsProper) (hl : vlen X'.p ≤ 1 / 2) (I I' : RBI) (hI : MassNear I I') :
    Stored (F.ofJoint (.simple ty) X I) (Segment.ofJoint (.simple ty) X' I') ∧
    (Segment.ofJoint (.simple ty) X' I').f_tip = X' := by
  have r0 : F.rnd 0 = 0 := by simpa using hF.base.rnd 0
  have e' : (Segment.ofJoint (.simple ty) X' I').f_tip = X' := by
    rcases hty with rfl | rfl
    · rw [ofJoint_rotZ]
    · rw [ofJoint_fixed]
  have hu' : F.u ≤ ((1 / 2 ^ 53 : ℚ) : ℝ) := by rw [hu]; push_cast; exact le_rfl
  have hj : FB ⟨45 / 10 ^ 17, ⟨0, 0⟩⟩ (F.jointPose (.simple ty) 0) 1 := by
    rcases hty with rfl | rfl
    · have hs := hF.base.sin 0
      have hc := hF.base.cos 0
      rw [Real.sin_zero, hu] at hs
      rw [Real.cos_zero, hu] at hc
      have k1 := sq_bound hs
      have k2 := sq_bound hc
      have ea : F.arg (.simple .RotZ) 0 = 0 := by simp [Fl.arg, Joint.simple, r0]
      have ej : F.jointPose (.simple .RotZ) 0 = ⟨⟨F.cos 0, -F.sin 0, 0, F.sin 0, F.cos 0, 0, 0, 0, 1⟩, ⟨0, 0, 0⟩⟩ := by
        unfold Fl.jointPose
        rw [ea]
        rfl
      rw [ej]
      refine ⟨Real.sqrt_le_iff.mpr ⟨by norm_num, ?_⟩, ⟨by simp [vdist], by simp [vlen]⟩, Rot.IsProper.one⟩
      simp only [Frame.one_M, Rot.one_m00, Rot.one_m01, Rot.one_m02, Rot.one_m10, Rot.one_m11, Rot.one_m12, Rot.one_m20, Rot.one_m21, Rot.one_m22]
      push_cast
      norm_num at k1 k2 ⊢
      nlinarith
    · have ej : F.jointPose (.simple .Fixed) 0 = 1 := rfl
      rw [ej]
      exact ⟨by norm_num [rdist], ⟨by simp [vdist], by simp [vlen]⟩, Rot.IsProper.one⟩
  have hi : FB ⟨45 / 10 ^ 17, ⟨0, 0⟩⟩ (F.frameInv (F.jointPose (.simple ty) 0)) 1 := by
    have k := VB.mapInv hF hu' hj.proper hj.rot hj.origin
    refine ⟨?_, ?_, Rot.IsProper.one⟩
    · have := rdist_transpose (F.jointPose (.simple ty) 0).M 1
      have o : (1 : Rot).inv = 1 := by ext <;> simp
      rw [o] at this
      show rdist (F.jointPose (.simple ty) 0).M.inv 1 ≤ _
      rw [this]
      exact hj.rot
    · have k2 := k.neg
      have o : -((1 : Frame).M.invVec (1 : Frame).p) = (1 : Frame).p := by ext <;> simp [Rot.invVec]
      rw [o] at k2
      have o2 : VErr.map (1 / 2 ^ 53) (45 / 10 ^ 17) ⟨0, 0⟩ = ⟨0, 0⟩ := by simp [VErr.map]
      rw [o2] at k2
      exact k2
  have hx : FB ⟨24 / 10 ^ 16, ⟨8 / 10 ^ 16, 1 / 2⟩⟩ X X' := by
    refine ⟨?_, ⟨?_, ?_⟩, hp⟩ <;> push_cast
    · exact hX.1
    · exact hX.2
    · exact hl
  have h := FB.mulL hF hu' hi hx
  rw [one_mul] at h
  refine ⟨⟨rfl, rfl, rfl, rfl, hI.mass, hI.moment, hI.inertia, ?_⟩, e'⟩
  rw [e']
  refine ⟨h.rot.trans ?_, h.origin.1.trans ?_⟩
  · norm_num [FErr.mulL, gq]
  · norm_num [FErr.mulL, VErr.add, VErr.map, gq]

theorem pi2_near {F : FlD} (hF : F.Ok) (hu : F.u = 1 / 2 ^ 53) : |F.pi2 - Real.pi / 2| ≤ 175 / 10 ^ 18 := by
  have h := hF.base.rnd 1.570796326794896619231321691639751442
  have h1 := Real.pi_gt_d20
  have h2 := Real.pi_lt_d20
  rw [hu] at h
  unfold FlD.pi2
  have h3 : |(1.570796326794896619231321691639751442 : ℝ) - Real.pi / 2| ≤ 1 / 10 ^ 19 := by
    rw [abs_le]
    constructor <;> norm_num at h1 h2 ⊢ <;> linarith
  have h4 := abs_add_le (F.rnd 1.570796326794896619231321691639751442 - 1.570796326794896619231321691639751442)
    (1.570796326794896619231321691639751442 - Real.pi / 2)
  rw [sub_add_sub_cancel] at h4
  have h5 : 1 / 2 ^ 53 * |(1.570796326794896619231321691639751442 : ℝ)| ≤ 1745 / 10 ^ 19 := by
    rw [abs_of_pos (by norm_num)]
    norm_num
  have h6 : (1745 / 10 ^ 19 + 1 / 10 ^ 19 : ℝ) ≤ 175 / 10 ^ 18 := by norm_num
  linarith

theorem stored_dh {F : FlD} (hF : F.Ok) (hu : F.u = 1 / 2 ^ 53) {a a' α α' d d' : ℝ} (ha : |a - a'| ≤ 1 / 2 ^ 53 * |a'|)
    (hα : |α - α'| ≤ 175 / 10 ^ 18) (hd : |d - d'| ≤ 1 / 2 ^ 53 * |d'|) (hl : a' ^ 2 + d' ^ 2 ≤ 1 / 4) {I I' : RBI}
    (hI : MassNear I I') : Stored (F.ofJoint (.simple .RotZ) (F.dh a α d 0) I) (Segment.ofJoint (.simple .RotZ) (Frame.dh a' α' d' 0) I') := by
  have la : |a'| ≤ 1 / 2 := abs_le_of_sq_le_sq (by linarith [sq_nonneg d', show ((1 : ℝ) / 2) ^ 2 = 1 / 4 by norm_num]) (by norm_num)
  have ld : |d'| ≤ 1 / 2 := abs_le_of_sq_le_sq (by linarith [sq_nonneg a', show ((1 : ℝ) / 2) ^ 2 = 1 / 4 by norm_num]) (by norm_num)
  have hX := (C111_dh F hF a a' α α' d d' 0 0 (175 / 10 ^ 18) (4 / 10 ^ 16) (1 / 2) hα (by norm_num) (by rw [hu]; norm_num) (by norm_num)
    (by norm_num at ha la ⊢; linarith) (by norm_num at hd ld ⊢; linarith) la ld).1
  refine (C111_segment F hF hu .RotZ (.inl rfl) _ _ (hX.mono (by norm_num) (by norm_num)) (C11_proper a' α' d' 0).1 ?_ I I' hI).1
  refine Real.sqrt_le_iff.mpr ⟨by norm_num, ?_⟩
  simp only [Frame.dh, Real.cos_zero, Real.sin_zero]
  nlinarith

/-- Mass data with a diagonal rotational inertia. -/
theorem mass_diag {F : FlD} (hF : F.Ok) (hu : F.u = 1 / 2 ^ 53) {m m' : ℝ} {c c' : Vec} {x y z x' y' z' : ℝ} (hm : Rounded F.u m m') (lm : |m'| ≤ 18)
    (hx : Rounded F.u c.x c'.x) (hy : Rounded F.u c.y c'.y) (hz : Rounded F.u c.z c'.z) (lx : |c'.x| ≤ 2 / 5) (ly : |c'.y| ≤ 2 / 5) (lz : |c'.z| ≤ 2 / 5)
    (h00 : Rounded F.u x x') (h11 : Rounded F.u y y') (h22 : Rounded F.u z z') (l0 : |x'| ≤ 1) (l1 : |y'| ≤ 1) (l2 : |z'| ≤ 1) :
    MassNear (F.ofCog m c (rotationalInertia x y z 0 0 0)) (RBI.ofCog m' c' (rotationalInertia x' y' z' 0 0 0)) := by
  have o : Rounded F.u 0 0 ∧ |(0 : ℝ)| ≤ 1 := ⟨by simp [Rounded], by simp⟩
  obtain ⟨a, b, d⟩ := C111_mass F hF hu m m' c c' (rotationalInertia x y z 0 0 0) (rotationalInertia x' y' z' 0 0 0) hm lm hx hy hz lx ly lz
    ⟨h00, l0⟩ o o o ⟨h11, l1⟩ o o o ⟨h22, l2⟩
  exact ⟨a, b, d⟩

theorem stored_default {F : FlD} (hF : F.Ok) (hu : F.u = 1 / 2 ^ 53) : Stored F.defaultSegment .default :=
  (C111_segment F hF hu .Fixed (.inr rfl) 1 1 ⟨by norm_num [rdist], by rw [vdist_self]; norm_num⟩ Frame.IsProper.one (by simp [vlen]) _ _
    (mass_diag hF hu (by simp [Rounded]) (by simp) (by simp [Rounded]) (by simp [Rounded]) (by simp [Rounded]) (by simp; norm_num) (by simp; norm_num)
      (by simp; norm_num) (by simp [Rounded]) (by simp [Rounded]) (by simp [Rounded]) (by simp) (by simp) (by simp))).1

/-- The Puma 560 built by `Puma560()` in double precision is the ideal one up to errors of at most `5e-15` in the tip frames, `1e-14` in mass and
first moment, `5e-14` in the inertia (`Stored`). -/
theorem C111_puma (F : FlD) (hF : F.Ok) (hu : F.u = 1 / 2 ^ 53) :
    F.puma560.WF ∧ F.puma560.nrOfJoints = 6 ∧ F.puma560.nrOfSegments = 11 ∧ List.Forall₂ Stored F.puma560.segments puma560.segments := by
  have z : ∀ {x : ℝ}, |F.rnd x - x| ≤ 1 / 2 ^ 53 * |x| := fun {x} => by rw [← hu]; exact hF.base.rnd x
  have o : |(0 : ℝ) - 0| ≤ 1 / 2 ^ 53 * |(0 : ℝ)| := by simp
  have p1 := pi2_near hF hu
  have p2 : |-F.pi2 - -(Real.pi / 2)| ≤ 175 / 10 ^ 18 := by rw [show -F.pi2 - -(Real.pi / 2) = -(F.pi2 - Real.pi / 2) by ring, abs_neg]; exact p1
  have p0 : |(0 : ℝ) - 0| ≤ 175 / 10 ^ 18 := by norm_num
  have d := stored_default hF hu
  have o' : Rounded F.u 0 0 := by simp [Rounded]
  have r : ∀ {x : ℝ}, Rounded F.u (F.rnd x) x := fun {x} => hF.base.rnd x
  have n : ∀ {x : ℝ}, Rounded F.u (-F.rnd x) (-x) := fun {x} => by
    unfold Rounded
    rw [show -F.rnd x - -x = -(F.rnd x - x) by ring, abs_neg, abs_neg]
    exact hF.base.rnd x
  refine ⟨⟨rfl, rfl⟩, rfl, rfl, ?_⟩
  refine .cons d (.cons (stored_dh hF hu o p1 o (by norm_num) ?_) (.cons (stored_dh hF hu z p0 o (by norm_num) ?_) (.cons d
    (.cons (stored_dh hF hu z p2 z (by norm_num) ?_) (.cons (stored_dh hF hu o p1 z (by norm_num) ?_) (.cons d (.cons d
    (.cons (stored_dh hF hu o p2 o (by norm_num) ?_) (.cons (stored_dh hF hu o p0 o (by norm_num) ?_) (.cons d .nil))))))))))
  · exact mass_diag hF hu o' (by norm_num) o' o' o' (by norm_num) (by norm_num) (by norm_num) o' r o' (by norm_num) (by norm_num [abs_le]) (by norm_num)
  · exact mass_diag hF hu r (by norm_num [abs_le]) n r r (by norm_num [abs_le]) (by norm_num [abs_le]) (by norm_num [abs_le]) r r r
      (by norm_num [abs_le]) (by norm_num [abs_le]) (by norm_num [abs_le])
  · exact mass_diag hF hu r (by norm_num [abs_le]) n n r (by norm_num [abs_le]) (by norm_num [abs_le]) (by norm_num [abs_le]) r r r
      (by norm_num [abs_le]) (by norm_num [abs_le]) (by norm_num [abs_le])
  · exact mass_diag hF hu r (by norm_num [abs_le]) o' r o' (by norm_num [abs_le]) (by norm_num [abs_le]) (by norm_num [abs_le]) r r r
      (by norm_num [abs_le]) (by norm_num [abs_le]) (by norm_num [abs_le])
  · exact mass_diag hF hu r (by norm_num [abs_le]) o' o' o' (by norm_num) (by norm_num) (by norm_num) r r r
      (by norm_num [abs_le]) (by norm_num [abs_le]) (by norm_num [abs_le])
  · exact mass_diag hF hu r (by norm_num [abs_le]) o' o' r (by norm_num [abs_le]) (by norm_num [abs_le]) (by norm_num [abs_le]) r r r
      (by norm_num [abs_le]) (by norm_num [abs_le]) (by norm_num [abs_le])

/-- Its torques, for joint angles at most 4, rates and accelerations at most 1, loads at most 100 and gravity at most 10. -/
theorem C111_puma_torques (F : FlD) (hF : F.Ok) (hu : F.u = 1 / 2 ^ 53) (grav : Vec) (hg : vlen grav ≤ 10) (q qd qdd τ : List ℝ)
    (fext : List Wrench) (hq : q.length = 6 ∧ ∀ x ∈ q, |x| ≤ 4) (hqd : qd.length = 6 ∧ ∀ y ∈ qd, |y| ≤ 1)
    (hk : qdd.length = 6 ∧ ∀ z ∈ qdd, |z| ≤ 1) (hτ : τ.length = 6)
    (hf : fext.length = 11 ∧ ∀ w ∈ fext, vlen w.force ≤ 100 ∧ vlen w.torque ≤ 100) :
    ∃ σ σ', F.idRne F.puma560 6 11 grav q qd qdd fext τ = some (E_NOERROR, σ) ∧
      idRne puma560 6 11 grav q qd qdd fext τ = some (E_NOERROR, σ') ∧ List.Forall₂ (fun x y => |x - y| ≤ 1 / 10 ^ 6) σ σ' :=
  C109_puma F hF hu F.puma560 (C111_puma F hF hu).1 (C111_puma F hF hu).2.2.2 grav hg q qd qdd τ fext hq hqd hk hτ hf

/-- Its poses, for joint angles at most 4: every segment is within `3e-12` (rotation, Frobenius norm) and `3e-11` metres of the ideal pose. -/
theorem C111_puma_pose (F : FlD) (hF : F.Ok) (hu : F.u = 1 / 2 ^ 53) (q : List ℝ) (hq : q.length = 6 ∧ ∀ x ∈ q, |x| ≤ 4) (k : ℤ)
    (hk : segmentNr F.puma560 k ≤ 11) :
    ∃ P, F.fkPos F.puma560 q k = some (E_NOERROR, P) ∧ Near (3 / 10 ^ 12) (3 / 10 ^ 11) P (fkSpec puma560 q (segmentNr F.puma560 k)) := by
  obtain ⟨w1, w2, w3, w4⟩ := C111_puma F hF hu
  have hb := hF.base
  have hg : F.g3 ≤ 34 / 10 ^ 17 := by rw [Fl.g3, hu]; norm_num
  have g0 := Fl.g3_nonneg hb
  have s0 := Real.sqrt_nonneg 3
  have s3 := sqrt3_le
  have hseg : List.Forall₂ (SegNear F.toFl q (11 / 10 ^ 14) (1 / 10 ^ 13) (1 / 2)) F.puma560.segments puma560.segments := by
    have ha := puma_arm
    generalize F.puma560.segments = x at w4
    generalize puma560.segments = y at w4 ha
    induction w4 with
    | nil => exact .nil
    | cons g1 _ ih =>
      have h := arm_near hF hu (qd := []) hq.2 (by simp) g1 (ha _ (by simp))
      refine .cons ⟨h.moving, h.valid, fun x hx => ?_⟩ (ih fun s hs => ha s (by simp [hs]))
      obtain ⟨a1, a2, a3⟩ := h.pose x hx
      simp only [armB] at a1 a2 a3
      push_cast at a1 a2 a3
      exact ⟨⟨a1, a2⟩, a3⟩
  obtain ⟨P, e, hP⟩ := (C98_fk F.toFl hb F.puma560 puma560 w1 C76_puma_shape.2.2.1 q _ _ _ hseg k).2.2 (by rw [hq.1, w2]) (by rw [w3]; exact hk)
  refine ⟨P, e, hP.mono ?_ ?_⟩
  all_goals
    obtain ⟨n, hn⟩ : ∃ n, n = segmentNr F.puma560 k := ⟨_, rfl⟩
    obtain ⟨κ, hκ⟩ : ∃ κ : ℝ, κ = 11 / 10 ^ 14 + F.g3 * (Real.sqrt 3 + 11 / 10 ^ 14) := ⟨_, rfl⟩
    rw [← hn] at hk ⊢
    rw [← hκ]
    have k0 : 0 ≤ κ := by rw [hκ]; positivity
    have k1 : κ ≤ 12 / 10 ^ 14 := by
      have : F.g3 * (Real.sqrt 3 + 11 / 10 ^ 14) ≤ 34 / 10 ^ 17 * (1733 / 1000 + 11 / 10 ^ 14) :=
        mul_le_mul hg (by linarith) (by positivity) (by norm_num)
      rw [hκ]
      norm_num at this ⊢
      linarith
    have p1 : (1 + κ) ^ n ≤ 1 + 14 / 10 ^ 13 :=
      calc (1 + κ) ^ n ≤ (1 + κ) ^ 11 := pow_le_pow_right₀ (by linarith) hk
        _ ≤ (1 + 12 / 10 ^ 14) ^ 11 := pow_le_pow_left₀ (by linarith) (by linarith) 11
        _ ≤ _ := by norm_num
    have p0 : 1 ≤ (1 + κ) ^ n := one_le_pow₀ (by linarith)
    have r1 : rotErr κ n ≤ 3 / 10 ^ 12 := by
      have : rotErr κ n ≤ 1733 / 1000 * (14 / 10 ^ 13) := mul_le_mul s3 (by linarith) (by linarith) (by norm_num)
      norm_num at this ⊢
      linarith
  · exact r1
  · have n11 : (n : ℝ) ≤ 11 := by exact_mod_cast hk
    have n0 : (0 : ℝ) ≤ n := Nat.cast_nonneg n
    have w1 : F.g3 * (Real.sqrt 3 * (1 + κ) ^ n) ≤ 34 / 10 ^ 17 * (1733 / 1000 * (1 + 14 / 10 ^ 13)) :=
      mul_le_mul hg (mul_le_mul s3 p1 (by linarith) (by norm_num)) (by positivity) (by norm_num)
    have w0 := (posStep_mono hb.nonneg g0 k0 (by norm_num : (0 : ℝ) ≤ 1 / 2) (by norm_num : (0 : ℝ) ≤ 1 / 10 ^ 13) n
      (u := F.u) (g := F.g3)).1
    have w2 : posStep F.u F.g3 κ (1 / 2) (1 / 10 ^ 13) n ≤ 2 / 10 ^ 12 := by
      rw [posStep, hu]
      norm_num at w1 r1 ⊢
      linarith
    have w3 : (1 + F.u) ^ n ≤ 1001 / 1000 :=
      calc (1 + F.u) ^ n ≤ (1 + F.u) ^ 11 := pow_le_pow_right₀ (by linarith [hb.nonneg]) hk
        _ ≤ 1001 / 1000 := by rw [hu]; norm_num
    have w4 : (1 + F.u) ^ n * posStep F.u F.g3 κ (1 / 2) (1 / 10 ^ 13) n ≤ 1001 / 1000 * (2 / 10 ^ 12) := mul_le_mul w3 w2 w0 (by norm_num)
    have w5 : 0 ≤ (1 + F.u) ^ n * posStep F.u F.g3 κ (1 / 2) (1 / 10 ^ 13) n := mul_nonneg (by have := hb.nonneg; positivity) w0
    have w6 : posErr F.u F.g3 κ (1 / 2) (1 / 10 ^ 13) n ≤ 11 * (1001 / 1000 * (2 / 10 ^ 12)) := mul_le_mul n11 w4 w5 (by norm_num)
    exact w6.trans (by norm_num)

/-- Exact arithmetic is the program over the reals. -/
theorem C111_exact (u : ℝ) (a α d θ : ℝ) (j : Joint) (X : Frame) (I : RBI) (m : ℝ) (c : Vec) (Ic : Mat3) :
    (FlD.mk ⟨u, id, Real.sin, Real.cos⟩ fun I v => I * v).dh a α d θ = Frame.dh a α d θ ∧
    (FlD.mk ⟨u, id, Real.sin, Real.cos⟩ fun I v => I * v).dhCraig a α d θ = Frame.dhCraig a α d θ ∧
    (FlD.mk ⟨u, id, Real.sin, Real.cos⟩ fun I v => I * v).ofJoint j X I = Segment.ofJoint j X I ∧
    (FlD.mk ⟨u, id, Real.sin, Real.cos⟩ fun I v => I * v).ofCog m c Ic = RBI.ofCog m c Ic := by
  refine ⟨rfl, rfl, ?_, ?_⟩
  swap
  · simp only [FlD.ofCog, RBI.ofCog, FlD.cogEntry, Fl.vecScale, FlD.vecDot, Fl.dot3, id, Mat3.sub_def, Mat3.smul_def, Mat3.outer, Mat3.one_def, Vec.dot,
      RBI.mk.injEq, true_and]
    refine ⟨?_, trivial⟩
    ext <;> simp <;> ring
  obtain ⟨F, hF⟩ : ∃ F, F = FlD.mk ⟨u, id, Real.sin, Real.cos⟩ (fun I v => I * v) := ⟨_, rfl⟩
  rw [← hF]
  have hj : ∀ (j : Joint) (x : ℝ), F.jointPose j x = j.pose x := by
    intro j x
    rw [hF]
    unfold Fl.jointPose Joint.pose
    cases j.type <;> first | rfl | skip
    all_goals
      simp only [Frame.ofVec, Fl.vecAdd, Fl.vecScale, Fl.arg, id]
      ext <;> simp <;> ring
  show (⟨"NoName", j, I, F.frameMul (F.frameInv (F.jointPose j 0)) X⟩ : Segment) = _
  rw [hj, hF]
  rfl

/-- Non-vacuity: a machine that rounds every number up meets the assumptions; parameters of `C111_dh` and `C111_segment`. -/
example : ∃ F : FlD, F.Ok ∧ F.u = 1 / 2 ^ 53 ∧ F.rnd 1 ≠ 1 ∧ (175 / 10 ^ 18 + 2 * F.u ≤ 4 / 10 ^ 16) ∧ (4 / 10 ^ 16 : ℝ) ≤ 1 / 64 ∧
    |F.pi2 - Real.pi / 2| ≤ 175 / 10 ^ 18 ∧ vlen (Frame.dh (1 / 4) 1 (1 / 4) 2).p ≤ 1 / 2 ∧
    MassNear ⟨2, ⟨1, 0, 0⟩, 1⟩ ⟨2 + 1 / 10 ^ 15, ⟨1, 0, 0⟩, 1⟩ ∧ (∃ x, x ≠ 1 ∧ Rounded F.u x 1) ∧ (Frame.dh (1 / 4) 1 (1 / 4) 2).IsProper := by
  refine ⟨⟨sloppy, fun I v => sloppy.rotVec (asRot I) v⟩, C109_matvec _ sloppy_ok, rfl, ?_, ?_, by norm_num, pi2_near (C109_matvec _ sloppy_ok) rfl,
    ?_, ⟨?_, ?_, ?_⟩, ⟨1 + 1 / 2 ^ 53, by norm_num, ?_⟩, (C11_proper _ _ _ _).1⟩
  · simp [sloppy]
  · norm_num [sloppy]
  · refine Real.sqrt_le_iff.mpr ⟨by norm_num, ?_⟩
    simp only [Frame.dh]
    nlinarith [Real.sin_sq_add_cos_sq (2 : ℝ)]
  · norm_num [abs_le]
  · rw [vdist_self]; norm_num
  · norm_num [rdist]
  · simp [Rounded, sloppy]

end KDL
