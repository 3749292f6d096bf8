import Verif.Model.FrameVelOps
import Verif.Props.FrameVelAcc
import Verif.Props.Equal

/-! C18, C19 and C15 for the remaining overloads: constants, assignments, operators in place, operators with one constant
operand, and `Equal` on the types with derivatives. -/

namespace KDL
open Real Filter Topology

/-! ## C18 -/
section vel
variable {τ : ℝ} {a b : VecVel} {f g : ℝ → Vec} {c : Rall1d} {k : ℝ → ℝ} {x : RotVel} {R : ℝ → Rot}
  {t u : TwistVel} {T U : ℝ → Twist} {p : FrameVel} {F : ℝ → Frame}

/-- **C18, constants and assignments of constants** represent the constant curve. -/
theorem C18_const (a : VecVel) (x : RotVel) (p : FrameVel) (v : Vec) (M : Rot) (A : Frame) (w : Twist) (y : TwistVel) :
    VecVel.zero.Rep (fun _ => 0) τ ∧ a.setToZero.Rep (fun _ => 0) τ ∧ (a.assignVec v).Rep (fun _ => v) τ ∧
    RotVel.identity.Rep (fun _ => 1) τ ∧ (x.assignRot M).Rep (fun _ => M) τ ∧
    FrameVel.identity.Rep (fun _ => 1) τ ∧ (FrameVel.ofFrame A).Rep (fun _ => A) τ ∧ (p.assignFrame A).Rep (fun _ => A) τ ∧
    TwistVel.zero.Rep (fun _ => 0) τ ∧ y.setToZero.Rep (fun _ => 0) τ ∧ (TwistVel.ofTwist w).Rep (fun _ => w) τ := by
  have hv : ∀ v : Vec, (⟨v, 0⟩ : VecVel).Rep (fun _ => v) τ := fun v => ⟨rfl, Vec.HasDeriv.const v⟩
  have hR : ∀ M : Rot, (⟨M, 0⟩ : RotVel).Rep (fun _ => M) τ := fun M => ⟨rfl, Rot.HasAngVel.const M⟩
  exact ⟨hv 0, hv 0, hv v, hR 1, hR M, ⟨hR 1, hv 0⟩, ⟨hR A.M, hv A.p⟩, ⟨hR A.M, hv A.p⟩, ⟨hv 0, hv 0⟩, ⟨hv 0, hv 0⟩,
    ⟨hv w.vel, hv w.rot⟩⟩

/-- **C18, a frame and its twist** represent every curve that has the frame as value and the twist as its twist. -/
theorem C18_frame_of (t : Twist) (h : Frame.HasTwist F t τ) : (FrameVel.ofFrameTwist (F τ) t).Rep F τ :=
  ⟨⟨rfl, h.2⟩, ⟨rfl, h.1⟩⟩
/-- **C18, a twist and its derivative.** -/
theorem C18_twist_of (d : Twist) (h1 : Vec.HasDeriv (fun s => (T s).vel) d.vel τ) (h2 : Vec.HasDeriv (fun s => (T s).rot) d.rot τ) :
    (TwistVel.ofTwists (T τ) d).Rep T τ := ⟨⟨rfl, h1⟩, ⟨rfl, h2⟩⟩

/-- **C18, operators in place** leave the object that represents the changed curve. -/
theorem C18_inplace (ha : a.Rep f τ) (hb : b.Rep g τ) (ht : t.Rep T τ) (hu : u.Rep U τ) :
    (a.addAssign b).Rep (fun s => f s + g s) τ ∧ (a.subAssign b).Rep (fun s => f s - g s) τ ∧
    a.reverseSign.Rep (fun s => -f s) τ ∧
    (t.addAssign u).Rep (fun s => T s + U s) τ ∧ (t.subAssign u).Rep (fun s => T s - U s) τ ∧
    t.reverseSign.Rep (fun s => -T s) τ :=
  ⟨C18_vec_add ha hb, C18_vec_sub ha hb, C18_vec_neg ha, ⟨C18_vec_add ht.1 hu.1, C18_vec_add ht.2 hu.2⟩,
    ⟨C18_vec_sub ht.1 hu.1, C18_vec_sub ht.2 hu.2⟩, ⟨C18_vec_neg ht.1, C18_vec_neg ht.2⟩⟩

/-- **C18, twists and real numbers.** -/
theorem C18_twist_scalar (r : ℝ) (ht : t.Rep T τ) : (TwistVel.smulL r t).Rep (fun s => r • T s) τ ∧
    (r ≠ 0 → (t.divR r).Rep (fun s => ⟨(T s).vel / r, (T s).rot / r⟩) τ) := by
  have hc : (⟨r, 0⟩ : Rall1d).Rep (fun _ => r) τ := ⟨rfl, hasDerivAt_const _ _⟩
  have m : ∀ v : VecVel, VecVel.smulL r v = v.smul ⟨r, 0⟩ := fun v => by ext <;> simp [VecVel.smulL, VecVel.smul]
  have d : ∀ v : VecVel, v.divR r = v.div ⟨r, 0⟩ := fun v => by ext <;> simp [VecVel.divR, VecVel.div]
  refine ⟨⟨?_, ?_⟩, fun h0 => ⟨?_, ?_⟩⟩
  · simp only [TwistVel.smulL, m]; exact C18_vec_smul hc ht.1
  · simp only [TwistVel.smulL, m]; exact C18_vec_smul hc ht.2
  · simp only [TwistVel.divR, d]; exact C18_vec_div hc ht.1 h0
  · simp only [TwistVel.divR, d]; exact C18_vec_div hc ht.2 h0

/-- **C18, constant twists** seen from a moving frame. -/
theorem C18_twist_mixed (hR : (R τ).IsProper) (hx : x.Rep R τ) (hF : (F τ).IsProper) (hp : p.Rep F τ) (w : Twist) :
    (x.appTwistR w).Rep (fun s => R s * w) τ ∧ (x.invTwistR w).Rep (fun s => (R s).invTwist w) τ ∧
    (p.appTwistR w).Rep (fun s => F s * w) τ ∧ (p.invTwistR w).Rep (fun s => (F s).invTwist w) τ := by
  have hw : (TwistVel.ofTwist w).Rep (fun _ => w) τ := ⟨⟨rfl, Vec.HasDeriv.const _⟩, ⟨rfl, Vec.HasDeriv.const _⟩⟩
  have m1 : ∀ (x : RotVel) (v : Vec), x.appR v = x.app (.ofVec v) := fun x v => by
    ext <;> simp [RotVel.appR, RotVel.app, VecVel.ofVec]
  have m2 : ∀ (x : RotVel) (v : Vec), x.invVecR v = x.invVec (.ofVec v) := fun x v => by
    ext <;> simp [RotVel.invVecR, RotVel.invVec, VecVel.ofVec]
  have m3 : ∀ (v : Vec) (b : VecVel), VecVel.subL v b = VecVel.sub (.ofVec v) b := fun v b => by
    ext <;> simp [VecVel.subL, VecVel.sub, VecVel.ofVec]
  have m4 : ∀ (a : VecVel) (v : Vec), a.crossR v = a.cross (.ofVec v) := fun a v => by
    ext <;> simp [VecVel.crossR, VecVel.cross, VecVel.ofVec]
  obtain ⟨r1, r2⟩ := C18_rot_twist hR hx hw
  obtain ⟨r3, r4⟩ := C18_frame_twist hF hp hw
  refine ⟨?_, ?_, ?_, ?_⟩
  · simp only [RotVel.appTwistR, m1]; exact r1
  · simp only [RotVel.invTwistR, m2]; exact r2
  · simp only [FrameVel.appTwistR, m1]; exact r3
  · simp only [FrameVel.invTwistR, m2, m3, m4]; exact r4
end vel

/-! ## C19 -/
section acc
variable {τ : ℝ} {a b : VecAcc} {f g : ℝ → Vec} {c : Rall2d} {k : ℝ → ℝ} {x : RotAcc} {R : ℝ → Rot}
  {t u : TwistAcc} {T U : ℝ → Twist} {p : FrameAcc} {F : ℝ → Frame}

/-- **C19, constants and assignments of constants.** -/
theorem C19_const (a : VecAcc) (x : RotAcc) (p : FrameAcc) (v : Vec) (M : Rot) (A : Frame) :
    VecAcc.zero.Rep (fun _ => 0) τ ∧ (a.assignVec v).Rep (fun _ => v) τ ∧ (VecAcc.ofVec v).Rep (fun _ => v) τ ∧
    RotAcc.identity.Rep (fun _ => 1) τ ∧ (x.assignRot M).Rep (fun _ => M) τ ∧ (RotAcc.ofRot M).Rep (fun _ => M) τ ∧
    FrameAcc.identity.Rep (fun _ => 1) τ ∧ (FrameAcc.ofFrame A).Rep (fun _ => A) τ ∧ (p.assignFrame A).Rep (fun _ => A) τ ∧
    TwistAcc.zero.Rep (fun _ => 0) τ :=
  ⟨C19_vec_const 0, C19_vec_const v, C19_vec_const v, C19_rot_const 1, C19_rot_const M, C19_rot_const M,
    ⟨C19_rot_const 1, C19_vec_const 0⟩, ⟨C19_rot_const A.M, C19_vec_const A.p⟩, ⟨C19_rot_const A.M, C19_vec_const A.p⟩,
    ⟨C19_vec_const 0, C19_vec_const 0⟩⟩

/-- **C19, a vector and its velocity**: a motion without acceleration. -/
theorem C19_vec_of (p v : Vec) : (VecAcc.ofVecs p v).Rep (fun s => p + (s - τ) • v) τ := by
  refine ⟨fun _ => v, Eventually.of_forall fun s => ⟨?_, ?_, ?_⟩, Vec.HasDeriv.const v, by ext <;> simp [VecAcc.ofVecs], rfl⟩
  · simpa using (((hasDerivAt_id s).sub_const τ).mul_const v.x).const_add p.x
  · simpa using (((hasDerivAt_id s).sub_const τ).mul_const v.y).const_add p.y
  · simpa using (((hasDerivAt_id s).sub_const τ).mul_const v.z).const_add p.z
/-- **C19, a frame, its twist and the derivative of the twist.** -/
theorem C19_frame_of (V : ℝ → Twist) (d : Twist) (h : ∀ᶠ s in 𝓝 τ, Frame.HasTwist F (V s) s)
    (h1 : Vec.HasDeriv (fun s => (V s).vel) d.vel τ) (h2 : Vec.HasDeriv (fun s => (V s).rot) d.rot τ) :
    (FrameAcc.ofFrameTwists (F τ) (V τ) d).Rep F τ :=
  ⟨⟨fun s => (V s).rot, h.mono fun _ e => e.2, h2, rfl, rfl⟩, ⟨fun s => (V s).vel, h.mono fun _ e => e.1, h1, rfl, rfl⟩⟩
/-- **C19, `GetFrame`, `GetTwist`, `GetAccTwist`** of a frame: its value, its twist and the derivative of the twist. -/
theorem C19_frame_get (hp : p.Rep F τ) : p.getFrame = F τ ∧ ∃ V : ℝ → Twist, (∀ᶠ s in 𝓝 τ, Frame.HasTwist F (V s) s) ∧
    p.getTwist = V τ ∧ Vec.HasDeriv (fun s => (V s).vel) p.getAccTwist.vel τ ∧
    Vec.HasDeriv (fun s => (V s).rot) p.getAccTwist.rot τ := by
  obtain ⟨⟨w, h1, h2, h3, h4⟩, ⟨v, k1, k2, k3, k4⟩⟩ := hp
  refine ⟨by simp [FrameAcc.getFrame, h3, k3], fun s => ⟨v s, w s⟩, ?_, by simp [FrameAcc.getTwist, h4, k4], k2, h2⟩
  filter_upwards [h1, k1] with s e1 e2 using ⟨e2, e1⟩
/-- **C19, `GetTwist`, `GetTwistDot`** of a twist: value and first derivative. -/
theorem C19_twist_get (ht : t.Rep T τ) : t.getTwist = T τ ∧ Vec.HasDeriv (fun s => (T s).vel) t.getTwistDot.vel τ ∧
    Vec.HasDeriv (fun s => (T s).rot) t.getTwistDot.rot τ := by
  obtain ⟨⟨w, h1, h2, h3, h4⟩, ⟨v, k1, k2, k3, k4⟩⟩ := ht
  refine ⟨by ext <;> simp [TwistAcc.getTwist, h3, k3], ?_, ?_⟩
  · simpa only [TwistAcc.getTwistDot, h4] using h1.self_of_nhds
  · simpa only [TwistAcc.getTwistDot, k4] using k1.self_of_nhds

/-- **C19, operators in place.** -/
theorem C19_inplace (ha : a.Rep f τ) (hb : b.Rep g τ) (ht : t.Rep T τ) (hu : u.Rep U τ) :
    (a.addAssign b).Rep (fun s => f s + g s) τ ∧ (a.subAssign b).Rep (fun s => f s - g s) τ ∧
    a.reverseSign.Rep (fun s => -f s) τ ∧
    (t.addAssign u).Rep (fun s => T s + U s) τ ∧ (t.subAssign u).Rep (fun s => T s - U s) τ ∧
    t.reverseSign.Rep (fun s => -T s) τ ∧ t.neg.Rep (fun s => -T s) τ :=
  ⟨C19_vec_add ha hb, C19_vec_sub ha hb, C19_vec_neg ha, ⟨C19_vec_add ht.1 hu.1, C19_vec_add ht.2 hu.2⟩,
    ⟨C19_vec_sub ht.1 hu.1, C19_vec_sub ht.2 hu.2⟩, ⟨C19_vec_neg ht.1, C19_vec_neg ht.2⟩, ⟨C19_vec_neg ht.1, C19_vec_neg ht.2⟩⟩

/-- **C19, vectors with a constant operand.** -/
theorem C19_vec_mixed (ha : a.Rep f τ) (v : Vec) (r : ℝ) :
    (a.addR v).Rep (fun s => f s + v) τ ∧ (VecAcc.addL v a).Rep (fun s => v + f s) τ ∧
    (a.subR v).Rep (fun s => f s - v) τ ∧ (VecAcc.subL v a).Rep (fun s => v - f s) τ ∧
    (a.crossR v).Rep (fun s => f s * v) τ ∧ (VecAcc.crossL v a).Rep (fun s => v * f s) τ ∧
    (VecAcc.smulL r a).Rep (fun s => r • f s) τ ∧ (r ≠ 0 → (a.divR r).Rep (fun s => f s / r) τ) ∧
    (a.dotR v).Rep (fun s => (f s).dot v) τ ∧ (VecAcc.dotL v a).Rep (fun s => v.dot (f s)) τ := by
  have hv := C19_vec_const (τ := τ) v
  have hc : ∀ r : ℝ, (⟨r, 0, 0⟩ : Rall2d).Rep (fun _ => r) τ := fun r =>
    ⟨fun _ => 0, Eventually.of_forall fun _ => hasDerivAt_const _ _, hasDerivAt_const _ _, rfl, rfl⟩
  have m : ∀ (r : ℝ), VecAcc.smulL r a = a.smul ⟨r, 0, 0⟩ := fun r => by ext <;> simp [VecAcc.smulL, VecAcc.smul]
  refine ⟨?_, ?_, ?_, ?_, ?_, ?_, ?_, fun _ => ?_, ?_, ?_⟩
  · simpa [VecAcc.add, VecAcc.addR, VecAcc.ofVec] using C19_vec_add ha hv
  · simpa [VecAcc.add, VecAcc.addL, VecAcc.ofVec] using C19_vec_add hv ha
  · simpa [VecAcc.sub, VecAcc.subR, VecAcc.ofVec] using C19_vec_sub ha hv
  · simpa [VecAcc.sub, VecAcc.subL, VecAcc.ofVec] using C19_vec_sub hv ha
  · simpa [VecAcc.cross, VecAcc.crossR, VecAcc.ofVec] using C19_vec_cross ha hv
  · simpa [VecAcc.cross, VecAcc.crossL, VecAcc.ofVec] using C19_vec_cross hv ha
  · rw [m]; exact C19_vec_smul (hc r) ha
  · have e : (fun s => f s / r) = fun s => (1 / r) • f s := by funext s; ext <;> simp <;> ring
    rw [VecAcc.divR, m, e]; exact C19_vec_smul (hc _) ha
  · simpa [VecAcc.dot, VecAcc.dotR, VecAcc.ofVec] using C19_vec_dot ha hv
  · simpa [VecAcc.dot, VecAcc.dotL, VecAcc.ofVec] using C19_vec_dot hv ha

/-- **C19, twists and numbers.** -/
theorem C19_twist_scalar (r : ℝ) (ht : t.Rep T τ) (hc : c.Rep k τ) : (TwistAcc.smulL r t).Rep (fun s => r • T s) τ ∧
    (r ≠ 0 → (t.divR r).Rep (fun s => ⟨(T s).vel / r, (T s).rot / r⟩) τ) ∧
    (c.t ≠ 0 → (t.div c).Rep (fun s => ⟨(T s).vel / k s, (T s).rot / k s⟩) τ) :=
  ⟨⟨(C19_vec_mixed ht.1 0 r).2.2.2.2.2.2.1, (C19_vec_mixed ht.2 0 r).2.2.2.2.2.2.1⟩,
    fun h0 => ⟨(C19_vec_mixed ht.1 0 r).2.2.2.2.2.2.2.1 h0, (C19_vec_mixed ht.2 0 r).2.2.2.2.2.2.2.1 h0⟩,
    fun h0 => ⟨C19_vec_div hc ht.1 h0, C19_vec_div hc ht.2 h0⟩⟩

/-- **C19, twists seen from a moving orientation.** -/
theorem C19_rot_twist (hR : ∀ s, (R s).IsProper) (hx : x.Rep R τ) (ht : t.Rep T τ) :
    (x.appTwist t).Rep (fun s => R s * T s) τ ∧ (x.invTwist t).Rep (fun s => (R s).invTwist (T s)) τ :=
  ⟨⟨C19_rot_app hx ht.1, C19_rot_app hx ht.2⟩, ⟨C19_rot_invVec hR hx ht.1, C19_rot_invVec hR hx ht.2⟩⟩

/-- **C19, constant vectors and twists** seen from a moving frame. -/
theorem C19_twist_mixed (hR : ∀ s, (R s).IsProper) (hx : x.Rep R τ) (hF : ∀ s, (F s).IsProper) (hp : p.Rep F τ) (v : Vec) (w : Twist) :
    (p.appR v).Rep (fun s => F s * v) τ ∧ (p.invVecR v).Rep (fun s => (F s).invVec v) τ ∧
    (x.appTwistR w).Rep (fun s => R s * w) τ ∧ (x.invTwistR w).Rep (fun s => (R s).invTwist w) τ ∧
    (p.appTwistR w).Rep (fun s => F s * w) τ ∧ (p.invTwistR w).Rep (fun s => (F s).invTwist w) τ := by
  have hw : (⟨.ofVec w.vel, .ofVec w.rot⟩ : TwistAcc).Rep (fun _ => w) τ := ⟨C19_vec_const _, C19_vec_const _⟩
  have m1 : ∀ (x : RotAcc) (v : Vec), x.appR v = x.app (.ofVec v) := fun x v => (C19_rot_mixed x 1 v).2.2.1
  have m2 : ∀ (x : RotAcc) (v : Vec), x.invVecR v = x.invVec (.ofVec v) := fun x v => (C19_rot_mixed x 1 v).2.2.2
  have m3 : ∀ (v : Vec) (b : VecAcc), VecAcc.subL v b = VecAcc.sub (.ofVec v) b := fun v b => by
    ext <;> simp [VecAcc.subL, VecAcc.sub, VecAcc.ofVec]
  have m4 : ∀ (a : VecAcc) (v : Vec), a.crossR v = a.cross (.ofVec v) := fun a v => by
    ext <;> simp [VecAcc.crossR, VecAcc.cross, VecAcc.ofVec]
  obtain ⟨r1, r2⟩ := C19_rot_twist hR hx hw
  obtain ⟨r3, r4⟩ := C19_frame_twist hF hp hw
  refine ⟨?_, ?_, ?_, ?_, ?_, ?_⟩
  · simp only [FrameAcc.appR, m1]; exact C19_frame_app hp (C19_vec_const v)
  · simp only [FrameAcc.invVecR, m3]; exact C19_frame_invVec hF hp (C19_vec_const v)
  · simp only [RotAcc.appTwistR, m1]; exact r1
  · simp only [RotAcc.invTwistR, m2]; exact r2
  · simp only [FrameAcc.appTwistR, m1]; exact r3
  · simp only [FrameAcc.invTwistR, m2, m3, m4]; exact r4
end acc

/-! ## C15: `Equal` on types with derivatives -/

private theorem tol_and {α β γ : Type} {e : β → β → ℝ → Prop} {e' : γ → γ → ℝ → Prop} (h : IsTolerance e) (h' : IsTolerance e')
    (l : α → β) (r : α → γ) (hx : ∀ a b, l a = l b → r a = r b → a = b) :
    IsTolerance fun a b eps => e (l a) (l b) eps ∧ e' (r a) (r b) eps where
  symm _ _ _ k := ⟨h.symm _ _ _ k.1, h'.symm _ _ _ k.2⟩
  refl _ _ k := ⟨h.refl _ _ k, h'.refl _ _ k⟩
  mono _ _ _ _ k k1 := ⟨h.mono _ _ _ _ k k1.1, h'.mono _ _ _ _ k k1.2⟩
  triangle _ _ _ _ _ k1 k2 := ⟨h.triangle _ _ _ _ _ k1.1 k2.1, h'.triangle _ _ _ _ _ k1.2 k2.2⟩
  exact _ _ k := hx _ _ (h.exact _ _ fun e he => (k e he).1) (h'.exact _ _ fun e he => (k e he).2)
  empty _ _ _ he k := h.empty _ _ _ he k.1

/-- **C15 for the velocity types.** -/
theorem C15_vel : IsTolerance VecVel.equal ∧ IsTolerance RotVel.equal ∧ IsTolerance TwistVel.equal ∧ IsTolerance FrameVel.equal := by
  have hv : IsTolerance VecVel.equal := tol_and C15_vec C15_vec VecVel.p VecVel.v fun _ _ => VecVel.ext
  have hr : IsTolerance RotVel.equal := tol_and C15_vec C15_rot RotVel.w RotVel.R fun _ _ h1 h2 => RotVel.ext h2 h1
  exact ⟨hv, hr, tol_and hv hv TwistVel.rot TwistVel.vel fun _ _ h1 h2 => TwistVel.ext h2 h1,
    tol_and hr hv FrameVel.M FrameVel.p fun _ _ => FrameVel.ext⟩

/-- **C15 for the acceleration types.** -/
theorem C15_acc : IsTolerance VecAcc.equal ∧ IsTolerance RotAcc.equal ∧ IsTolerance TwistAcc.equal ∧ IsTolerance FrameAcc.equal := by
  have h2 : IsTolerance fun (a b : Vec × Vec) eps => Vec.equal a.1 b.1 eps ∧ Vec.equal a.2 b.2 eps :=
    tol_and C15_vec C15_vec Prod.fst Prod.snd fun _ _ => Prod.ext
  have h3 : IsTolerance fun (a b : Rot × Vec) eps => Rot.equal a.1 b.1 eps ∧ Vec.equal a.2 b.2 eps :=
    tol_and C15_rot C15_vec Prod.fst Prod.snd fun _ _ => Prod.ext
  have hv : IsTolerance VecAcc.equal := tol_and C15_vec h2 VecAcc.p (fun a => (a.v, a.dv)) fun _ _ e1 e2 =>
    VecAcc.ext e1 (Prod.ext_iff.1 e2).1 (Prod.ext_iff.1 e2).2
  have hr : IsTolerance RotAcc.equal := tol_and C15_vec h3 RotAcc.w (fun a => (a.R, a.dw)) fun _ _ e1 e2 =>
    RotAcc.ext (Prod.ext_iff.1 e2).1 e1 (Prod.ext_iff.1 e2).2
  exact ⟨hv, hr, tol_and hv hv TwistAcc.rot TwistAcc.vel fun _ _ h1 h2 => TwistAcc.ext h2 h1,
    tol_and hr hv FrameAcc.M FrameAcc.p fun _ _ => FrameAcc.ext⟩

/-- **C15, what is compared**: values, velocities and accelerations all have to agree within the same tolerance
(`C15_components` spells out the comparison of vectors and matrices). -/
theorem C15_components_deriv (eps : ℝ) :
    (∀ a b : VecVel, a.equal b eps ↔ a.p.equal b.p eps ∧ a.v.equal b.v eps) ∧
    (∀ a b : RotVel, a.equal b eps ↔ a.R.equal b.R eps ∧ a.w.equal b.w eps) ∧
    (∀ a b : TwistVel, a.equal b eps ↔ (a.vel.p.equal b.vel.p eps ∧ a.vel.v.equal b.vel.v eps) ∧
      a.rot.p.equal b.rot.p eps ∧ a.rot.v.equal b.rot.v eps) ∧
    (∀ a b : FrameVel, a.equal b eps ↔ (a.M.R.equal b.M.R eps ∧ a.M.w.equal b.M.w eps) ∧
      a.p.p.equal b.p.p eps ∧ a.p.v.equal b.p.v eps) ∧
    (∀ a b : VecAcc, a.equal b eps ↔ a.p.equal b.p eps ∧ a.v.equal b.v eps ∧ a.dv.equal b.dv eps) ∧
    (∀ a b : RotAcc, a.equal b eps ↔ a.R.equal b.R eps ∧ a.w.equal b.w eps ∧ a.dw.equal b.dw eps) ∧
    (∀ a b : TwistAcc, a.equal b eps ↔ (a.vel.p.equal b.vel.p eps ∧ a.vel.v.equal b.vel.v eps ∧ a.vel.dv.equal b.vel.dv eps) ∧
      a.rot.p.equal b.rot.p eps ∧ a.rot.v.equal b.rot.v eps ∧ a.rot.dv.equal b.rot.dv eps) ∧
    (∀ a b : FrameAcc, a.equal b eps ↔ (a.M.R.equal b.M.R eps ∧ a.M.w.equal b.M.w eps ∧ a.M.dw.equal b.M.dw eps) ∧
      a.p.p.equal b.p.p eps ∧ a.p.v.equal b.p.v eps ∧ a.p.dv.equal b.p.dv eps) := by
  simp only [VecVel.equal, RotVel.equal, TwistVel.equal, FrameVel.equal, VecAcc.equal, RotAcc.equal, TwistAcc.equal,
    FrameAcc.equal]
  refine ⟨fun a b => ?_, fun a b => ?_, fun a b => ?_, fun a b => ?_, fun a b => ?_, fun a b => ?_, fun a b => ?_,
    fun a b => ?_⟩ <;> tauto

/-- **C15, comparison with a constant** is the comparison with the constant curve. -/
theorem C15_vel_mixed (eps : ℝ) :
    (∀ v a, VecVel.equalL v a eps ↔ VecVel.equal ⟨v, 0⟩ a eps) ∧ (∀ a v, VecVel.equalR a v eps ↔ VecVel.equal a ⟨v, 0⟩ eps) ∧
    (∀ M x, RotVel.equalL M x eps ↔ RotVel.equal ⟨M, 0⟩ x eps) ∧ (∀ x M, RotVel.equalR x M eps ↔ RotVel.equal x ⟨M, 0⟩ eps) ∧
    (∀ w t, TwistVel.equalL w t eps ↔ TwistVel.equal ⟨⟨w.vel, 0⟩, ⟨w.rot, 0⟩⟩ t eps) ∧
    (∀ t w, TwistVel.equalR t w eps ↔ TwistVel.equal t ⟨⟨w.vel, 0⟩, ⟨w.rot, 0⟩⟩ eps) ∧
    (∀ A p, FrameVel.equalL A p eps ↔ FrameVel.equal ⟨⟨A.M, 0⟩, ⟨A.p, 0⟩⟩ p eps) ∧
    (∀ p A, FrameVel.equalR p A eps ↔ FrameVel.equal p ⟨⟨A.M, 0⟩, ⟨A.p, 0⟩⟩ eps) :=
  ⟨fun _ _ => Iff.rfl, fun _ _ => Iff.rfl, fun _ _ => Iff.rfl, fun _ _ => Iff.rfl, fun _ _ => Iff.rfl, fun _ _ => Iff.rfl,
    fun _ _ => Iff.rfl, fun _ _ => Iff.rfl⟩
theorem C15_acc_mixed (eps : ℝ) :
    (∀ v a, VecAcc.equalL v a eps ↔ VecAcc.equal ⟨v, 0, 0⟩ a eps) ∧ (∀ a v, VecAcc.equalR a v eps ↔ VecAcc.equal a ⟨v, 0, 0⟩ eps) ∧
    (∀ M x, RotAcc.equalL M x eps ↔ RotAcc.equal ⟨M, 0, 0⟩ x eps) ∧ (∀ x M, RotAcc.equalR x M eps ↔ RotAcc.equal x ⟨M, 0, 0⟩ eps) ∧
    (∀ w t, TwistAcc.equalL w t eps ↔ TwistAcc.equal ⟨⟨w.vel, 0, 0⟩, ⟨w.rot, 0, 0⟩⟩ t eps) ∧
    (∀ t w, TwistAcc.equalR t w eps ↔ TwistAcc.equal t ⟨⟨w.vel, 0, 0⟩, ⟨w.rot, 0, 0⟩⟩ eps) ∧
    (∀ A p, FrameAcc.equalL A p eps ↔ FrameAcc.equal ⟨⟨A.M, 0, 0⟩, ⟨A.p, 0, 0⟩⟩ p eps) ∧
    (∀ p A, FrameAcc.equalR p A eps ↔ FrameAcc.equal p ⟨⟨A.M, 0, 0⟩, ⟨A.p, 0, 0⟩⟩ eps) :=
  ⟨fun _ _ => Iff.rfl, fun _ _ => Iff.rfl, fun _ _ => Iff.rfl, fun _ _ => Iff.rfl, fun _ _ => Iff.rfl, fun _ _ => Iff.rfl,
    fun _ _ => Iff.rfl, fun _ _ => Iff.rfl⟩

/-- Non-vacuity: the velocity takes part in the comparison. -/
example : VecVel.equal ⟨0, 0⟩ ⟨0, ⟨0.5, 0, 0⟩⟩ 1 ∧ ¬ VecVel.equal ⟨0, 0⟩ ⟨0, ⟨0.5, 0, 0⟩⟩ 0.5 := by
  constructor
  · refine ⟨C15_vec.refl _ _ one_pos, ?_, ?_, ?_⟩ <;> rw [C15_scalar] <;> norm_num [abs_lt]
  · rintro ⟨_, h, _⟩
    rw [C15_scalar] at h
    norm_num [abs_lt] at h
/-- Non-vacuity: a uniform motion, moved by another one. -/
example (τ : ℝ) : ((VecAcc.ofVecs ⟨1, 0, 0⟩ ⟨0, 1, 0⟩).addAssign (.ofVecs 0 ⟨0, 0, 1⟩)).Rep
    (fun s => (⟨1, 0, 0⟩ + (s - τ) • ⟨0, 1, 0⟩ : Vec) + (0 + (s - τ) • ⟨0, 0, 1⟩)) τ :=
  C19_vec_add (C19_vec_of _ _) (C19_vec_of _ _)

end KDL
