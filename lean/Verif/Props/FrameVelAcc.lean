import Verif.Model.FrameVel
import Verif.Lemmas.Calculus
import Verif.Props.DualNumbers
import Verif.Props.AxisAngle

/-! C18, C19, C20: frames, rotations, vectors and twists with first and second derivatives. -/

namespace KDL
open Real Filter Topology

/-! ## C18: velocity types -/
section vel
variable {τ : ℝ}

/-! ### helpers -/
private theorem lenDeriv {f : ℝ → Vec} {f' : Vec} (h : Vec.HasDeriv f f' τ) (hp : 0 < (f τ).len) :
    HasDerivAt (fun s => (f s).len) ((f τ).dot f' / (f τ).len) τ := by
  have hd := h.dot h
  have hne : (f τ).dot (f τ) ≠ 0 := by
    rw [← Vec.len_sq]; positivity
  have hs := hd.sqrt hne
  have e : (fun s => (f s).len) = fun s => √((f s).dot (f s)) := by
    funext s; exact Vec.len_eq_sqrt_dot _
  rw [e]
  refine hs.congr_deriv ?_
  rw [← Vec.len_eq_sqrt_dot, Vec.dot_comm f' (f τ)]
  field_simp
  ring

private theorem norm_pos_eq (v : Vec) (eps : ℝ) (he : 0 < eps) (h : 0 < v.norm eps) : v.norm eps = v.len := by
  have hh := Vec.norm_eq v eps he
  split_ifs at hh with hc
  · rw [hh] at h; exact absurd h (lt_irrefl _)
  · exact hh

/-! ### vectors -/
variable {a b : VecVel} {f g : ℝ → Vec} {c : Rall1d} {k : ℝ → ℝ}

theorem C18_vec_const (v : Vec) : (VecVel.ofVec v).Rep (fun _ => v) τ := ⟨rfl, Vec.HasDeriv.const v⟩
theorem C18_vec_add (ha : a.Rep f τ) (hb : b.Rep g τ) : (a.add b).Rep (fun s => f s + g s) τ :=
  ⟨by simp [VecVel.add, ha.1, hb.1], ha.2.add hb.2⟩
theorem C18_vec_sub (ha : a.Rep f τ) (hb : b.Rep g τ) : (a.sub b).Rep (fun s => f s - g s) τ :=
  ⟨by simp [VecVel.sub, ha.1, hb.1], ha.2.sub hb.2⟩
theorem C18_vec_neg (ha : a.Rep f τ) : a.neg.Rep (fun s => -f s) τ :=
  ⟨by simp [VecVel.neg, ha.1], ha.2.neg⟩
theorem C18_vec_cross (ha : a.Rep f τ) (hb : b.Rep g τ) : (a.cross b).Rep (fun s => f s * g s) τ :=
  ⟨by simp [VecVel.cross, ha.1, hb.1],
   (ha.2.cross hb.2).congr_deriv (by simp only [VecVel.cross, ha.1, hb.1]; abel)⟩
theorem C18_vec_smul (hc : c.Rep k τ) (ha : a.Rep f τ) : (a.smul c).Rep (fun s => k s • f s) τ :=
  ⟨by simp [VecVel.smul, ha.1, hc.1],
   (Vec.HasDeriv.smul hc.2 ha.2).congr_deriv (by simp only [VecVel.smul, ha.1, hc.1]; abel)⟩
theorem C18_vec_div (hc : c.Rep k τ) (ha : a.Rep f τ) (h0 : c.t ≠ 0) : (a.div c).Rep (fun s => f s / k s) τ := by
  have h := C18_vec_smul (C16_scalar 1 hc |>.2.2.2.2.1 h0) ha
  have e : a.div c = a.smul (Rall1d.sdiv 1 c) := by
    ext <;> simp [VecVel.div, VecVel.smul, Rall1d.sdiv] <;> ring
  rw [e]
  have e2 : (fun s => f s / k s) = fun s => (1 / k s) • f s := by
    funext s; ext <;> simp <;> ring
  rw [e2]; exact h
theorem C18_vec_dot (ha : a.Rep f τ) (hb : b.Rep g τ) : (a.dot b).Rep (fun s => (f s).dot (g s)) τ :=
  ⟨by simp [VecVel.dot, ha.1, hb.1],
   (ha.2.dot hb.2).congr_deriv (by simp only [VecVel.dot, ha.1, hb.1]; ring)⟩
/-- The norm and its rate, for vectors not answered with zero by the tolerance test. -/
theorem C18_vec_norm (eps : ℝ) (he : 0 < eps) (ha : a.Rep f τ) (hn : eps ≤ a.p.norm eps) :
    (a.norm eps).Rep (fun s => (f s).len) τ := by
  have hp : 0 < a.p.norm eps := lt_of_lt_of_le he hn
  have hl := norm_pos_eq _ _ he hp
  unfold VecVel.norm
  simp only [not_lt.mpr hn, if_false]
  refine ⟨by simp only [hl]; rw [ha.1], ?_⟩
  have hlen : 0 < (f τ).len := by rw [← ha.1, ← hl]; exact hp
  refine (lenDeriv ha.2 hlen).congr_deriv ?_
  simp only [hl]; rw [ha.1]

/-- Overloads with one constant operand equal the full operator on the constant lifted to zero velocity. -/
theorem C18_vec_mixed (a : VecVel) (v : Vec) (s : ℝ) (R : Rot) :
    a.addR v = a.add (.ofVec v) ∧ a.subR v = a.sub (.ofVec v) ∧ VecVel.addL v a = VecVel.add (.ofVec v) a ∧
    VecVel.subL v a = VecVel.sub (.ofVec v) a ∧ a.crossR v = a.cross (.ofVec v) ∧
    VecVel.crossL v a = VecVel.cross (.ofVec v) a ∧ a.smulL s = a.smul (.const s) ∧
    (s ≠ 0 → a.divR s = a.div (.const s)) ∧ a.dotR v = a.dot (.ofVec v) ∧ VecVel.dotL v a = VecVel.dot (.ofVec v) a ∧
    VecVel.rotL R a = (RotVel.ofRot R).app a := by
  refine ⟨?_, ?_, ?_, ?_, ?_, ?_, ?_, ?_, ?_, ?_, ?_⟩
  · ext <;> simp [VecVel.addR, VecVel.add, VecVel.ofVec]
  · ext <;> simp [VecVel.subR, VecVel.sub, VecVel.ofVec]
  · ext <;> simp [VecVel.addL, VecVel.add, VecVel.ofVec]
  · ext <;> simp [VecVel.subL, VecVel.sub, VecVel.ofVec]
  · ext <;> simp [VecVel.crossR, VecVel.cross, VecVel.ofVec]
  · ext <;> simp [VecVel.crossL, VecVel.cross, VecVel.ofVec]
  · ext <;> simp [VecVel.smulL, VecVel.smul, Rall1d.const]
  · intro _; ext <;> simp [VecVel.divR, VecVel.div, Rall1d.const]
  · ext <;> simp [VecVel.dotR, VecVel.dot, VecVel.ofVec, Vec.dot]
  · ext <;> simp [VecVel.dotL, VecVel.dot, VecVel.ofVec, Vec.dot]
  · ext <;> simp [VecVel.rotL, RotVel.app, RotVel.ofRot]

/-! ### rotations -/
variable {x y : RotVel} {R S : ℝ → Rot}

theorem C18_rot_const (M : Rot) : (RotVel.ofRot M).Rep (fun _ => M) τ := ⟨rfl, Rot.HasAngVel.const M⟩
theorem C18_rot_mul (hR : (R τ).IsProper) (hx : x.Rep R τ) (hy : y.Rep S τ) :
    (x.mul y).Rep (fun s => R s * S s) τ :=
  ⟨by simp [RotVel.mul, hx.1, hy.1],
   (Rot.HasAngVel.mul hx.2 hy.2 hR).congr_vel (by simp [RotVel.mul, hx.1])⟩
theorem C18_rot_inv (hR : (R τ).IsProper) (hx : x.Rep R τ) : x.inv.Rep (fun s => (R s).inv) τ :=
  ⟨by simp [RotVel.inv, hx.1], (Rot.HasAngVel.inv hx.2 hR).congr_vel (by simp [RotVel.inv, hx.1, Rot.invVec_eq])⟩
theorem C18_rot_app (hx : x.Rep R τ) (ha : a.Rep f τ) : (x.app a).Rep (fun s => R s * f s) τ :=
  ⟨by simp [RotVel.app, hx.1, ha.1],
   (Rot.HasAngVel.app hx.2 ha.2).congr_deriv (by simp [RotVel.app, hx.1, ha.1])⟩
theorem C18_rot_invVec (hR : (R τ).IsProper) (hx : x.Rep R τ) (ha : a.Rep f τ) :
    (x.invVec a).Rep (fun s => (R s).invVec (f s)) τ := by
  refine ⟨by simp [RotVel.invVec, hx.1, ha.1], ?_⟩
  simp only [Rot.invVec_eq]
  exact (Rot.HasAngVel.invApp hx.2 ha.2 hR).congr_deriv (by simp [RotVel.invVec, Rot.invVec_eq, hx.1, ha.1])
theorem C18_rot_units (hx : x.Rep R τ) :
    x.unitX.Rep (fun s => (R s).unitX) τ ∧ x.unitY.Rep (fun s => (R s).unitY) τ ∧
    x.unitZ.Rep (fun s => (R s).unitZ) τ := by
  have key : ∀ e : Vec, (x.app (.ofVec e)).Rep (fun s => R s * e) τ := fun e =>
    C18_rot_app hx (C18_vec_const e)
  have e1 : ∀ M : Rot, M * (⟨1, 0, 0⟩ : Vec) = M.unitX := by intro M; ext <;> simp [Rot.unitX]
  have e2 : ∀ M : Rot, M * (⟨0, 1, 0⟩ : Vec) = M.unitY := by intro M; ext <;> simp [Rot.unitY]
  have e3 : ∀ M : Rot, M * (⟨0, 0, 1⟩ : Vec) = M.unitZ := by intro M; ext <;> simp [Rot.unitZ]
  refine ⟨?_, ?_, ?_⟩
  · have := key ⟨1, 0, 0⟩
    simp only [e1] at this
    have e : x.app (.ofVec ⟨1, 0, 0⟩) = x.unitX := by
      simp only [RotVel.app, VecVel.ofVec, e1, RotVel.unitX]; congr 1; ext <;> simp
    rwa [e] at this
  · have := key ⟨0, 1, 0⟩
    simp only [e2] at this
    have e : x.app (.ofVec ⟨0, 1, 0⟩) = x.unitY := by
      simp only [RotVel.app, VecVel.ofVec, e2, RotVel.unitY]; congr 1; ext <;> simp
    rwa [e] at this
  · have := key ⟨0, 0, 1⟩
    simp only [e3] at this
    have e : x.app (.ofVec ⟨0, 0, 1⟩) = x.unitZ := by
      simp only [RotVel.app, VecVel.ofVec, e3, RotVel.unitZ]; congr 1; ext <;> simp
    rwa [e] at this
theorem C18_rot_mixed (x : RotVel) (M : Rot) (v : Vec) :
    RotVel.mulL M x = RotVel.mul (.ofRot M) x ∧ x.mulR M = x.mul (.ofRot M) ∧
    x.appR v = x.app (.ofVec v) ∧ x.invVecR v = x.invVec (.ofVec v) := by
  refine ⟨?_, ?_, ?_, ?_⟩
  · ext <;> simp [RotVel.mulL, RotVel.mul, RotVel.ofRot]
  · ext <;> simp [RotVel.mulR, RotVel.mul, RotVel.ofRot]
  · ext <;> simp [RotVel.appR, RotVel.app, VecVel.ofVec]
  · ext <;> simp [RotVel.invVecR, RotVel.invVec, VecVel.ofVec, Rot.invVec] <;> ring

/-- Elementary rotations with a moving angle.  Full statement: also `RotY`.
Missing: `RotY`, refuted by `C18_rotY_violated`. -/
theorem C18_rot_elementary_partial (hc : c.Rep k τ) (u : Vec) :
    (RotVel.rotX c).Rep (fun s => Rot.rotX (k s)) τ ∧ (RotVel.rotZ c).Rep (fun s => Rot.rotZ (k s)) τ ∧
    (RotVel.rot u c).Rep (fun s => Rot.rot u (k s)) τ ∧
    (u.dot u = 1 → (RotVel.rot2 u c).Rep (fun s => Rot.rot2 u (k s)) τ) := by
  refine ⟨?_, ?_, ?_, ?_⟩
  · refine ⟨by simp [RotVel.rotX, hc.1], ?_⟩
    simp only [Rot.rotX_eq]
    exact (Rot.HasAngVel.rot2 ⟨1, 0, 0⟩ (by simp [Vec.dot]) hc.2).congr_vel (by ext <;> simp [RotVel.rotX])
  · refine ⟨by simp [RotVel.rotZ, hc.1], ?_⟩
    simp only [Rot.rotZ_eq]
    exact (Rot.HasAngVel.rot2 ⟨0, 0, 1⟩ (by simp [Vec.dot]) hc.2).congr_vel (by ext <;> simp [RotVel.rotZ])
  · refine ⟨by simp [RotVel.rot, Rot.rot, hc.1], ?_⟩
    exact (Rot.HasAngVel.rot2 u.normalize.1 (Vec.normalize_dot _ _ epsilon_pos) hc.2).congr_vel rfl
  · intro hu
    exact ⟨by simp [RotVel.rot2, hc.1], (Rot.HasAngVel.rot2 u hu hc.2).congr_vel rfl⟩

/-- The in-place rotations compose on the right; here all three axes are right. -/
theorem C18_rot_doRot (hR : (R τ).IsProper) (hx : x.Rep R τ) (hc : c.Rep k τ) :
    (x.doRotX c).Rep (fun s => (R s).doRotX (k s)) τ ∧ (x.doRotY c).Rep (fun s => (R s).doRotY (k s)) τ ∧
    (x.doRotZ c).Rep (fun s => (R s).doRotZ (k s)) τ := by
  have eX : ∀ (M : Rot) q, M.doRotX q = M * Rot.rot2 ⟨1, 0, 0⟩ q := by
    intro M q; ext <;> simp [Rot.doRotX, Rot.rot2] <;> ring
  have eY : ∀ (M : Rot) q, M.doRotY q = M * Rot.rot2 ⟨0, 1, 0⟩ q := by
    intro M q; ext <;> simp [Rot.doRotY, Rot.rot2] <;> ring
  have eZ : ∀ (M : Rot) q, M.doRotZ q = M * Rot.rot2 ⟨0, 0, 1⟩ q := by
    intro M q; ext <;> simp [Rot.doRotZ, Rot.rot2] <;> ring
  have key : ∀ u : Vec, u.dot u = 1 →
      Rot.HasAngVel (fun s => R s * Rot.rot2 u (k s)) (x.w + R τ * (c.grad • u)) τ := fun u hu =>
    Rot.HasAngVel.mul hx.2 (Rot.HasAngVel.rot2 u hu hc.2) hR
  refine ⟨⟨by simp [RotVel.doRotX, hx.1, hc.1], ?_⟩, ⟨by simp [RotVel.doRotY, hx.1, hc.1], ?_⟩,
    ⟨by simp [RotVel.doRotZ, hx.1, hc.1], ?_⟩⟩
  · simp only [eX]
    refine (key ⟨1, 0, 0⟩ (by simp [Vec.dot])).congr_vel ?_
    simp only [RotVel.doRotX, hx.1]; congr 2; ext <;> simp
  · simp only [eY]
    refine (key ⟨0, 1, 0⟩ (by simp [Vec.dot])).congr_vel ?_
    simp only [RotVel.doRotY, hx.1]; congr 2; ext <;> simp
  · simp only [eZ]
    refine (key ⟨0, 0, 1⟩ (by simp [Vec.dot])).congr_vel ?_
    simp only [RotVel.doRotZ, hx.1]; congr 2; ext <;> simp

/-- **Violation.**  `RotationVel::RotY(q)` returns a rotation about X: for the angle `π/2` the value part is not
`Rotation::RotY(π/2)`, and it is not even the value part of `Identity().DoRotY(q)`. -/
theorem C18_rotY_violated :
    ∃ (c : Rall1d) (k : ℝ → ℝ) (τ : ℝ), c.Rep k τ ∧ ¬ (RotVel.rotY c).Rep (fun s => Rot.rotY (k s)) τ ∧
      (RotVel.rotY c).R ≠ ((RotVel.ofRot 1).doRotY c).R := by
  refine ⟨⟨π / 2, 1⟩, fun s => s, π / 2, ⟨rfl, hasDerivAt_id _⟩, ?_, ?_⟩
  · rintro ⟨h, _⟩
    have := congrArg Rot.m00 h
    simp [RotVel.rotY, Rot.rotX, Rot.rotY] at this
  · intro h
    have := congrArg Rot.m00 h
    simp [RotVel.rotY, Rot.rotX, RotVel.doRotY, RotVel.ofRot, Rot.doRotY] at this

/-- The angular velocity of `RotationVel::RotY(q)` is the one of a rotation about Y. Missing: its value part, refuted by
`C18_rotY_violated`. -/
theorem C18_rotY_partial (hc : c.Rep k τ) : Rot.HasAngVel (fun s => Rot.rotY (k s)) (RotVel.rotY c).w τ := by
  simp only [Rot.rotY_eq]
  exact (Rot.HasAngVel.rot2 ⟨0, 1, 0⟩ (by simp [Vec.dot]) hc.2).congr_vel (by ext <;> simp [RotVel.rotY])

/-! ### twists -/
variable {t u : TwistVel} {T U : ℝ → Twist}

theorem C18_twist_ops (ht : t.Rep T τ) (hu : u.Rep U τ) (hc : c.Rep k τ) (ha : a.Rep f τ) :
    (t.add u).Rep (fun s => T s + U s) τ ∧ (t.sub u).Rep (fun s => T s - U s) τ ∧
    t.neg.Rep (fun s => -T s) τ ∧ (t.smul c).Rep (fun s => k s • T s) τ ∧
    (t.refPoint a).Rep (fun s => (T s).refPoint (f s)) τ :=
  ⟨⟨C18_vec_add ht.1 hu.1, C18_vec_add ht.2 hu.2⟩, ⟨C18_vec_sub ht.1 hu.1, C18_vec_sub ht.2 hu.2⟩,
   ⟨C18_vec_neg ht.1, C18_vec_neg ht.2⟩, ⟨C18_vec_smul hc ht.1, C18_vec_smul hc ht.2⟩,
   ⟨C18_vec_add ht.1 (C18_vec_cross ht.2 ha), ht.2⟩⟩

theorem C18_twist_div (ht : t.Rep T τ) (hc : c.Rep k τ) (h0 : c.t ≠ 0) :
    (t.div c).Rep (fun s => ⟨(T s).vel / k s, (T s).rot / k s⟩) τ :=
  ⟨C18_vec_div hc ht.1 h0, C18_vec_div hc ht.2 h0⟩
/-- `GetTwist` and `GetTwistDot` are the value and the derivative of the twist represented. -/
theorem C18_twist_get (ht : t.Rep T τ) : t.getTwist = T τ ∧ Vec.HasDeriv (fun s => (T s).vel) t.getTwistDot.vel τ ∧
    Vec.HasDeriv (fun s => (T s).rot) t.getTwistDot.rot τ :=
  ⟨by ext <;> simp [TwistVel.getTwist, ht.1.1, ht.2.1], ht.1.2, ht.2.2⟩

theorem C18_rot_twist (hR : (R τ).IsProper) (hx : x.Rep R τ) (ht : t.Rep T τ) :
    (x.appTwist t).Rep (fun s => R s * T s) τ ∧ (x.invTwist t).Rep (fun s => (R s).invTwist (T s)) τ :=
  ⟨⟨C18_rot_app hx ht.1, C18_rot_app hx ht.2⟩, ⟨C18_rot_invVec hR hx ht.1, C18_rot_invVec hR hx ht.2⟩⟩

/-! ### frames -/
variable {F G : ℝ → Frame} {p q : FrameVel}

theorem C18_frame_mul (hF : (F τ).IsProper) (hp : p.Rep F τ) (hq : q.Rep G τ) :
    (p.mul q).Rep (fun s => F s * G s) τ :=
  ⟨C18_rot_mul hF hp.1 hq.1, C18_vec_add (C18_rot_app hp.1 hq.2) hp.2⟩
theorem C18_frame_app (hp : p.Rep F τ) (ha : a.Rep f τ) : (p.app a).Rep (fun s => F s * f s) τ :=
  C18_vec_add (C18_rot_app hp.1 ha) hp.2
theorem C18_frame_invVec (hF : (F τ).IsProper) (hp : p.Rep F τ) (ha : a.Rep f τ) :
    (p.invVec a).Rep (fun s => (F s).invVec (f s)) τ :=
  C18_rot_invVec hF hp.1 (C18_vec_sub ha hp.2)
theorem C18_frame_inv (hF : (F τ).IsProper) (hp : p.Rep F τ) : p.inv.Rep (fun s => (F s).inv) τ :=
  ⟨C18_rot_inv hF hp.1, C18_vec_neg (C18_rot_invVec hF hp.1 hp.2)⟩
theorem C18_frame_twist (hF : (F τ).IsProper) (hp : p.Rep F τ) (ht : t.Rep T τ) :
    (p.appTwist t).Rep (fun s => F s * T s) τ ∧ (p.invTwist t).Rep (fun s => (F s).invTwist (T s)) τ :=
  ⟨⟨C18_vec_add (C18_rot_app hp.1 ht.1) (C18_vec_cross hp.2 (C18_rot_app hp.1 ht.2)), C18_rot_app hp.1 ht.2⟩,
   ⟨C18_rot_invVec hF hp.1 (C18_vec_sub ht.1 (C18_vec_cross hp.2 ht.2)), C18_rot_invVec hF hp.1 ht.2⟩⟩
theorem C18_frame_mixed (p : FrameVel) (F : Frame) (v : Vec) :
    p.mulR F = p.mul (.ofFrame F) ∧ FrameVel.mulL F p = FrameVel.mul (.ofFrame F) p ∧
    p.appR v = p.app (.ofVec v) ∧ p.invVecR v = p.invVec (.ofVec v) := by
  refine ⟨?_, ?_, ?_, ?_⟩
  · ext <;> simp [FrameVel.mulR, FrameVel.mul, RotVel.mulR, RotVel.mul, RotVel.ofRot, FrameVel.ofFrame, RotVel.app,
      RotVel.appR, VecVel.add, VecVel.ofVec]
  · ext <;> simp [FrameVel.mulL, FrameVel.mul, RotVel.mulL, RotVel.mul, RotVel.ofRot, FrameVel.ofFrame, RotVel.app,
      VecVel.rotL, VecVel.add, VecVel.addR, VecVel.ofVec]
  · ext <;> simp [FrameVel.appR, FrameVel.app, RotVel.app, RotVel.appR, VecVel.add, VecVel.ofVec]
  · ext <;> simp [FrameVel.invVecR, FrameVel.invVec, RotVel.invVec, VecVel.sub, VecVel.subL, VecVel.ofVec]
/-- `GetTwist` of a frame with velocity is the twist of the curve it represents. -/
theorem C18_frame_getTwist (hp : p.Rep F τ) : p.getFrame = F τ ∧ Frame.HasTwist F p.getTwist τ :=
  ⟨by simp [FrameVel.getFrame, hp.1.1, hp.2.1], ⟨hp.2.2, hp.1.2⟩⟩

/-- Non-vacuity: a frame turning about Z while translating, composed with its own inverse, has zero twist. -/
example (τ : ℝ) : let q : FrameVel := ⟨⟨Rot.rotZ τ, ⟨0, 0, 1⟩⟩, ⟨⟨τ, 0, 0⟩, ⟨1, 0, 0⟩⟩⟩
    q.Rep (fun s => ⟨Rot.rotZ s, ⟨s, 0, 0⟩⟩) τ := by
  intro q
  have hc : (⟨τ, 1⟩ : Rall1d).Rep (fun s => s) τ := ⟨rfl, hasDerivAt_id τ⟩
  refine ⟨(C18_rot_elementary_partial hc 0).2.1, rfl, ?_, ?_, ?_⟩
  · exact hasDerivAt_id τ
  · exact hasDerivAt_const _ _
  · exact hasDerivAt_const _ _
end vel

/-! ## C19: acceleration types -/
section acc
variable {τ : ℝ} {a b : VecAcc} {f g : ℝ → Vec} {c : Rall2d} {k : ℝ → ℝ}

theorem C19_vec_const (v : Vec) : (VecAcc.ofVec v).Rep (fun _ => v) τ :=
  ⟨fun _ => 0, Eventually.of_forall fun _ => Vec.HasDeriv.const v, Vec.HasDeriv.const 0, rfl, rfl⟩
theorem C19_vec_add (ha : a.Rep f τ) (hb : b.Rep g τ) : (a.add b).Rep (fun s => f s + g s) τ := by
  obtain ⟨f', h1, h2, h3, h4⟩ := ha
  obtain ⟨g', k1, k2, k3, k4⟩ := hb
  refine ⟨fun s => f' s + g' s, ?_, h2.add k2, by simp [VecAcc.add, h3, k3], by simp [VecAcc.add, h4, k4]⟩
  filter_upwards [h1, k1] with s e1 e2 using e1.add e2
theorem C19_vec_neg (ha : a.Rep f τ) : a.neg.Rep (fun s => -f s) τ := by
  obtain ⟨f', h1, h2, h3, h4⟩ := ha
  refine ⟨fun s => -f' s, ?_, h2.neg, by simp [VecAcc.neg, h3], by simp [VecAcc.neg, h4]⟩
  filter_upwards [h1] with s e1 using e1.neg
theorem C19_vec_sub (ha : a.Rep f τ) (hb : b.Rep g τ) : (a.sub b).Rep (fun s => f s - g s) τ := by
  obtain ⟨f', h1, h2, h3, h4⟩ := ha
  obtain ⟨g', k1, k2, k3, k4⟩ := hb
  refine ⟨fun s => f' s - g' s, ?_, h2.sub k2, by simp [VecAcc.sub, h3, k3], by simp [VecAcc.sub, h4, k4]⟩
  filter_upwards [h1, k1] with s e1 e2 using e1.sub e2
theorem C19_vec_cross (ha : a.Rep f τ) (hb : b.Rep g τ) : (a.cross b).Rep (fun s => f s * g s) τ := by
  obtain ⟨f', h1, h2, h3, h4⟩ := ha
  obtain ⟨g', k1, k2, k3, k4⟩ := hb
  refine ⟨fun s => f' s * g s + f s * g' s, ?_, ?_, by simp [VecAcc.cross, h3, k3], ?_⟩
  · filter_upwards [h1, k1] with s e1 e2 using e1.cross e2
  · refine ((h2.cross k1.self_of_nhds).add (h1.self_of_nhds.cross k2)).congr_deriv ?_
    simp only [VecAcc.cross, h3, h4, k3, k4]; ext <;> simp <;> ring
  · simp only [VecAcc.cross, h3, h4, k3, k4]; abel
theorem C19_vec_smul (hc : c.Rep k τ) (ha : a.Rep f τ) : (a.smul c).Rep (fun s => k s • f s) τ := by
  obtain ⟨f', h1, h2, h3, h4⟩ := ha
  obtain ⟨k', k1, k2, k3, k4⟩ := hc
  refine ⟨fun s => k' s • f s + k s • f' s, ?_, ?_, by simp [VecAcc.smul, h3, k3], ?_⟩
  · filter_upwards [h1, k1] with s e1 e2 using Vec.HasDeriv.smul e2 e1
  · refine ((Vec.HasDeriv.smul k2 h1.self_of_nhds).add (Vec.HasDeriv.smul k1.self_of_nhds h2)).congr_deriv ?_
    simp only [VecAcc.smul, h3, h4, k3, k4, mul_smul, two_smul]; abel
  · simp only [VecAcc.smul, h3, h4, k3, k4]; abel
theorem C19_vec_div (hc : c.Rep k τ) (ha : a.Rep f τ) (h0 : c.t ≠ 0) : (a.div c).Rep (fun s => f s / k s) τ := by
  have e2 : (fun s => f s / k s) = fun s => (1 / k s) • f s := by
    funext s; ext <;> simp <;> ring
  rw [e2]
  exact C19_vec_smul ((C17_scalar 1 hc).2.2.2.2.1 h0) ha
theorem C19_vec_dot (ha : a.Rep f τ) (hb : b.Rep g τ) : (a.dot b).Rep (fun s => (f s).dot (g s)) τ := by
  obtain ⟨f', h1, h2, h3, h4⟩ := ha
  obtain ⟨g', k1, k2, k3, k4⟩ := hb
  refine ⟨fun s => (f' s).dot (g s) + (f s).dot (g' s), ?_, ?_, by simp [VecAcc.dot, h3, k3], ?_⟩
  · filter_upwards [h1, k1] with s e1 e2 using e1.dot e2
  · refine ((h2.dot k1.self_of_nhds).add (h1.self_of_nhds.dot k2)).congr_deriv ?_
    simp only [VecAcc.dot, h3, h4, k3, k4]; ring
  · simp only [VecAcc.dot, h3, h4, k3, k4]; ring

/-- The norm with its first two derivatives, when the norm is not rounded to zero.  Missing: norms rounded to zero, see
`C19_vec_norm_violated`. -/
theorem C19_vec_norm_partial (eps : ℝ) (he : 0 < eps) (ha : a.Rep f τ) (hn : a.p.norm eps ≠ 0) :
    ∃ d, a.norm eps = some d ∧ d.Rep (fun s => (f s).len) τ := by
  have hp : 0 < a.p.norm eps := lt_of_le_of_ne (Vec.norm_nonneg _ _ he) (Ne.symm hn)
  have hl := norm_pos_eq _ _ he hp
  refine ⟨_, by unfold VecAcc.norm; rw [if_neg hn], ?_⟩
  have hd := C19_vec_dot ha ha
  have hpos : 0 < (a.dot a).t := by
    show 0 < a.p.dot a.p
    rw [← Vec.len_sq, ← hl]; positivity
  have hs := C17_sqrt hd hpos
  have e : (fun s => (f s).len) = fun s => √((f s).dot (f s)) := by
    funext s; exact Vec.len_eq_sqrt_dot _
  rw [e]
  have hlne : a.p.len ≠ 0 := by rw [← hl]; exact hn
  refine hs.congr ?_
  have e5 : (0.5 : ℝ) = 1 / 2 := by norm_num
  ext
  · simp only [hl, Rall2d.sqrt, VecAcc.dot, ← Vec.len_eq_sqrt_dot]
  · simp only [hl, Rall2d.sqrt, VecAcc.dot, ← Vec.len_eq_sqrt_dot, e5, Vec.dot_comm a.v a.p]; field_simp; ring
  · simp only [hl, Rall2d.sqrt, VecAcc.dot, ← Vec.len_eq_sqrt_dot, e5, Vec.dot_comm a.v a.p, Vec.dot_comm a.dv a.p]
    field_simp; ring

/-- **Violation** of totality: for a (nearly) zero vector the acceleration version divides by zero, whereas the velocity
version answers `(0,0)`. -/
theorem C19_vec_norm_violated :
    (⟨0, ⟨1, 0, 0⟩, 0⟩ : VecAcc).norm = none ∧ (⟨0, ⟨1, 0, 0⟩⟩ : VecVel).norm = ⟨0, 0⟩ := by
  have h0 : (0 : Vec).norm = 0 := by rw [Vec.norm_eq _ _ epsilon_pos]; simp [epsilon_pos]
  constructor
  · unfold VecAcc.norm; rw [if_pos h0]
  · unfold VecVel.norm; rw [if_pos (by rw [h0]; exact epsilon_pos)]

variable {x y : RotAcc} {R S : ℝ → Rot}

theorem C19_rot_const (M : Rot) : (RotAcc.ofRot M).Rep (fun _ => M) τ :=
  ⟨fun _ => 0, Eventually.of_forall fun _ => Rot.HasAngVel.const M, Vec.HasDeriv.const 0, rfl, rfl⟩
theorem C19_rot_mul (hR : ∀ s, (R s).IsProper) (hx : x.Rep R τ) (hy : y.Rep S τ) :
    (x.mul y).Rep (fun s => R s * S s) τ := by
  obtain ⟨w, h1, h2, h3, h4⟩ := hx
  obtain ⟨v, k1, k2, k3, k4⟩ := hy
  refine ⟨fun s => w s + R s * v s, ?_, ?_, by simp [RotAcc.mul, h3, k3], by simp [RotAcc.mul, h3, h4, k4]⟩
  · filter_upwards [h1, k1] with s e1 e2 using Rot.HasAngVel.mul e1 e2 (hR s)
  · refine (h2.add (Rot.HasAngVel.app h1.self_of_nhds k2)).congr_deriv ?_
    simp only [RotAcc.mul, h3, h4, k4]; abel
theorem C19_rot_inv (hR : ∀ s, (R s).IsProper) (hx : x.Rep R τ) : x.inv.Rep (fun s => (R s).inv) τ := by
  obtain ⟨w, h1, h2, h3, h4⟩ := hx
  refine ⟨fun s => -((R s).inv * w s), ?_, ?_, by simp [RotAcc.inv, h3],
    by simp [RotAcc.inv, h3, h4, Rot.invVec_eq]⟩
  · filter_upwards [h1] with s e1 using Rot.HasAngVel.inv e1 (hR s)
  · refine (Rot.HasAngVel.invApp h1.self_of_nhds h2 (hR τ)).neg.congr_deriv ?_
    simp [RotAcc.inv, h3, Rot.invVec_eq]
theorem C19_rot_app (hx : x.Rep R τ) (ha : a.Rep f τ) : (x.app a).Rep (fun s => R s * f s) τ := by
  obtain ⟨w, h1, h2, h3, h4⟩ := hx
  obtain ⟨v, k1, k2, k3, k4⟩ := ha
  refine ⟨fun s => w s * (R s * f s) + R s * v s, ?_, ?_, by simp [RotAcc.app, h3, k3],
    by simp [RotAcc.app, h3, h4, k3, k4]⟩
  · filter_upwards [h1, k1] with s e1 e2 using Rot.HasAngVel.app e1 e2
  · refine ((h2.cross (Rot.HasAngVel.app h1.self_of_nhds k1.self_of_nhds)).add
      (Rot.HasAngVel.app h1.self_of_nhds k2)).congr_deriv ?_
    simp only [RotAcc.app, h3, h4, k3, k4, Vec.cross_add]; abel
theorem C19_rot_invVec (hR : ∀ s, (R s).IsProper) (hx : x.Rep R τ) (ha : a.Rep f τ) :
    (x.invVec a).Rep (fun s => (R s).invVec (f s)) τ := by
  obtain ⟨w, h1, h2, h3, h4⟩ := hx
  obtain ⟨v, k1, k2, k3, k4⟩ := ha
  simp only [Rot.invVec_eq]
  refine ⟨fun s => (R s).inv * (v s - w s * f s), ?_, ?_, by simp [RotAcc.invVec, Rot.invVec_eq, h3, k3],
    by simp [RotAcc.invVec, Rot.invVec_eq, h3, h4, k3, k4]⟩
  · filter_upwards [h1, k1] with s e1 e2 using Rot.HasAngVel.invApp e1 e2 (hR s)
  · refine (Rot.HasAngVel.invApp h1.self_of_nhds (k2.sub (h2.cross k1.self_of_nhds)) (hR τ)).congr_deriv ?_
    simp only [RotAcc.invVec, Rot.invVec_eq, h3, h4, k3, k4, (hR τ).app_inv_app]
    congr 1
    simp only [Vec.cross_add, Vec.cross_sub]; abel
theorem C19_rot_mixed (x : RotAcc) (M : Rot) (v : Vec) :
    RotAcc.mulL M x = RotAcc.mul (.ofRot M) x ∧ x.mulR M = x.mul (.ofRot M) ∧
    x.appR v = x.app (.ofVec v) ∧ x.invVecR v = x.invVec (.ofVec v) := by
  refine ⟨?_, ?_, ?_, ?_⟩
  · ext <;> simp [RotAcc.mulL, RotAcc.mul, RotAcc.ofRot]
  · ext <;> simp [RotAcc.mulR, RotAcc.mul, RotAcc.ofRot]
  · ext <;> simp [RotAcc.appR, RotAcc.app, VecAcc.ofVec]
  · have e1 : -x.w * v = 0 - x.w * v := by rw [Vec.neg_cross, zero_sub]
    have e2 : -x.dw * v = 0 - x.dw * v := by rw [Vec.neg_cross, zero_sub]
    simp only [RotAcc.invVecR, RotAcc.invVec, VecAcc.ofVec, e1, e2, zero_add]

variable {t u : TwistAcc} {T U : ℝ → Twist} {F G : ℝ → Frame} {p q : FrameAcc}

theorem C19_twist_ops (ht : t.Rep T τ) (hu : u.Rep U τ) (hc : c.Rep k τ) (ha : a.Rep f τ) :
    (t.add u).Rep (fun s => T s + U s) τ ∧ (t.sub u).Rep (fun s => T s - U s) τ ∧
    (t.smul c).Rep (fun s => k s • T s) τ ∧ (t.refPoint a).Rep (fun s => (T s).refPoint (f s)) τ :=
  ⟨⟨C19_vec_add ht.1 hu.1, C19_vec_add ht.2 hu.2⟩, ⟨C19_vec_sub ht.1 hu.1, C19_vec_sub ht.2 hu.2⟩,
   ⟨C19_vec_smul hc ht.1, C19_vec_smul hc ht.2⟩, ⟨C19_vec_add ht.1 (C19_vec_cross ht.2 ha), ht.2⟩⟩
theorem C19_frame_mul (hF : ∀ s, (F s).IsProper) (hp : p.Rep F τ) (hq : q.Rep G τ) :
    (p.mul q).Rep (fun s => F s * G s) τ :=
  ⟨C19_rot_mul hF hp.1 hq.1, C19_vec_add (C19_rot_app hp.1 hq.2) hp.2⟩
theorem C19_frame_app (hp : p.Rep F τ) (ha : a.Rep f τ) : (p.app a).Rep (fun s => F s * f s) τ :=
  C19_vec_add (C19_rot_app hp.1 ha) hp.2
theorem C19_frame_invVec (hF : ∀ s, (F s).IsProper) (hp : p.Rep F τ) (ha : a.Rep f τ) :
    (p.invVec a).Rep (fun s => (F s).invVec (f s)) τ := C19_rot_invVec hF hp.1 (C19_vec_sub ha hp.2)
theorem C19_frame_inv (hF : ∀ s, (F s).IsProper) (hp : p.Rep F τ) : p.inv.Rep (fun s => (F s).inv) τ :=
  ⟨C19_rot_inv hF hp.1, C19_vec_neg (C19_rot_invVec hF hp.1 hp.2)⟩
theorem C19_frame_twist (hF : ∀ s, (F s).IsProper) (hp : p.Rep F τ) (ht : t.Rep T τ) :
    (p.appTwist t).Rep (fun s => F s * T s) τ ∧ (p.invTwist t).Rep (fun s => (F s).invTwist (T s)) τ :=
  ⟨⟨C19_vec_add (C19_rot_app hp.1 ht.1) (C19_vec_cross hp.2 (C19_rot_app hp.1 ht.2)), C19_rot_app hp.1 ht.2⟩,
   ⟨C19_rot_invVec hF hp.1 (C19_vec_sub ht.1 (C19_vec_cross hp.2 ht.2)), C19_rot_invVec hF hp.1 ht.2⟩⟩
theorem C19_frame_mixed (p : FrameAcc) (F : Frame) :
    p.mulR F = p.mul ⟨.ofRot F.M, .ofVec F.p⟩ ∧ FrameAcc.mulL F p = FrameAcc.mul ⟨.ofRot F.M, .ofVec F.p⟩ p := by
  constructor
  · ext <;> simp [FrameAcc.mulR, FrameAcc.mul, RotAcc.mulR, RotAcc.mul, RotAcc.ofRot, RotAcc.app, RotAcc.appR,
      VecAcc.add, VecAcc.ofVec]
  · ext <;> simp [FrameAcc.mulL, FrameAcc.mul, RotAcc.mulL, RotAcc.mul, RotAcc.ofRot, RotAcc.app, VecAcc.rotL,
      VecAcc.add, VecAcc.addR, VecAcc.ofVec]

/-- Non-vacuity: a uniformly accelerated rotation about Z. -/
example (τ : ℝ) : (⟨Rot.rotZ (τ ^ 2), ⟨0, 0, 2 * τ⟩, ⟨0, 0, 2⟩⟩ : RotAcc).Rep (fun s => Rot.rotZ (s ^ 2)) τ := by
  refine ⟨fun s => ⟨0, 0, 2 * s⟩, Eventually.of_forall fun s => ?_, ⟨?_, ?_, ?_⟩, rfl, rfl⟩
  · simp only [Rot.rotZ_eq]
    have h : HasDerivAt (fun s : ℝ => s ^ 2) (2 * s) s := by simpa using hasDerivAt_pow 2 s
    exact (Rot.HasAngVel.rot2 ⟨0, 0, 1⟩ (by simp [Vec.dot]) h).congr_vel (by ext <;> simp)
  · exact hasDerivAt_const _ _
  · exact hasDerivAt_const _ _
  · simpa using (hasDerivAt_id τ).const_mul 2
end acc

/-! ## C20: diff / addDelta on frames with velocity -/

theorem C20_vec (a b : VecVel) (dt : ℝ) (h : dt ≠ 0) : VecVel.addDelta a (VecVel.diff a b dt) dt = b := by
  simp [VecVel.addDelta, VecVel.diff, C09_vec _ _ _ h]

/-- Rotations with velocity, under the restriction of C09.  Full statement: for all proper rotations. -/
theorem C20_rot_partial (a b : RotVel) (ha : a.R.IsProper) (hb : b.R.IsProper) (dt : ℝ) (hdt : dt ≠ 0)
    (h : ((a.R.inv * b.R).Regular epsilon ∧ 2 * epsilon ≤ (a.R.inv * b.R).getRotAngle.2) ∨
      ((a.R.inv * b.R).m01 = (a.R.inv * b.R).m10 ∧ (a.R.inv * b.R).m02 = (a.R.inv * b.R).m20 ∧
        (a.R.inv * b.R).m12 = (a.R.inv * b.R).m21)) :
    RotVel.addDelta a (RotVel.diff a b dt) dt = b := by
  simp only [RotVel.addDelta, RotVel.diff, C09_rot_partial a.R b.R ha hb dt hdt h, C09_vec _ _ _ hdt]

/-- **Violation.**  For frames with velocity the translation difference is stored in the rotation slot and vice versa:
two frames with equal orientation whose origins differ by the unit vector along Z are answered with a rotation by one
radian and no translation. -/
theorem C20_frame_violated :
    ∃ a b : FrameVel, a.M = b.M ∧ a.M = .ofRot 1 ∧
      (FrameVel.diff a b 1).vel = .ofVec 0 ∧ (FrameVel.diff a b 1).rot = .ofVec ⟨0, 0, 1⟩ ∧
      FrameVel.addDelta a (FrameVel.diff a b 1) 1 ≠ b ∧
      (FrameVel.addDelta a (FrameVel.diff a b 1) 1).p = a.p := by
  have h1 : (1 : Rot).inv * 1 = 1 := by ext <;> simp [Rot.inv]
  have hg : (1 : Rot).getRot = 0 := by
    have h3 : ((1 : ℝ) + 1 + 1 - 3) = 0 := by norm_num
    simp [Rot.getRot, Rot.getRotAngle, epsilon_pos, h3]
  have hd : Rot.diff 1 1 1 = 0 := by
    rw [Rot.diff, h1, hg]; ext <;> simp
  refine ⟨⟨.ofRot 1, .ofVec 0⟩, ⟨.ofRot 1, .ofVec ⟨0, 0, 1⟩⟩, rfl, rfl, ?_, ?_, ?_, ?_⟩
  · simp only [FrameVel.diff, RotVel.diff, RotVel.ofRot, hd, VecVel.ofVec]
    ext <;> simp [Vec.diff]
  · simp only [FrameVel.diff, VecVel.diff, VecVel.ofVec]
    ext <;> simp [Vec.diff]
  · intro h
    have := congrArg (fun q => q.p.p.z) h
    simp [FrameVel.addDelta, FrameVel.diff, RotVel.diff, RotVel.ofRot, hd, VecVel.addDelta, Vec.addDelta,
      VecVel.ofVec] at this
  · simp only [FrameVel.addDelta, FrameVel.diff, RotVel.diff, RotVel.ofRot, hd, VecVel.addDelta, VecVel.ofVec]
    ext <;> simp [Vec.addDelta, Vec.diff]

/-- Exactly what is exchanged: the "translation" slot of `diff` holds the rotation difference. -/
theorem C20_frame_slots (a b : FrameVel) (dt : ℝ) :
    (FrameVel.diff a b dt).vel = RotVel.diff a.M b.M dt ∧ (FrameVel.diff a b dt).rot = VecVel.diff a.p b.p dt :=
  ⟨rfl, rfl⟩

end KDL
