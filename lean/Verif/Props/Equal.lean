import Verif.Lemmas.Frames

/-! C15: `Equal`. -/

namespace KDL

/-- One family of statements for each compared type. -/
structure IsTolerance {α : Type} (eq : α → α → ℝ → Prop) : Prop where
  symm : ∀ a b eps, eq a b eps → eq b a eps
  refl : ∀ a eps, 0 < eps → eq a a eps
  mono : ∀ a b e₁ e₂, e₁ ≤ e₂ → eq a b e₁ → eq a b e₂
  triangle : ∀ a b c e₁ e₂, eq a b e₁ → eq b c e₂ → eq a c (e₁ + e₂)
  exact : ∀ a b, (∀ eps, 0 < eps → eq a b eps) → a = b
  empty : ∀ a b eps, eps ≤ 0 → ¬ eq a b eps

/-- Scalar comparison means: the difference is strictly smaller than the tolerance. -/
theorem C15_scalar (a b eps : ℝ) : realEqual a b eps ↔ |a - b| < eps := by
  rw [abs_lt, realEqual, and_comm]

/-- What `Equal` says: every pair of corresponding components differs by strictly less than the given tolerance. -/
theorem C15_components (eps : ℝ) :
    (∀ a b : Vec, a.equal b eps ↔ |a.x - b.x| < eps ∧ |a.y - b.y| < eps ∧ |a.z - b.z| < eps) ∧
    (∀ a b : Rot, a.equal b eps ↔
      (|a.m00 - b.m00| < eps ∧ |a.m01 - b.m01| < eps ∧ |a.m02 - b.m02| < eps) ∧
      (|a.m10 - b.m10| < eps ∧ |a.m11 - b.m11| < eps ∧ |a.m12 - b.m12| < eps) ∧
      (|a.m20 - b.m20| < eps ∧ |a.m21 - b.m21| < eps ∧ |a.m22 - b.m22| < eps)) ∧
    (∀ a b : Frame, a.equal b eps ↔ a.M.equal b.M eps ∧ a.p.equal b.p eps) ∧
    (∀ a b : Twist, a.equal b eps ↔ a.vel.equal b.vel eps ∧ a.rot.equal b.rot eps) ∧
    (∀ a b : Wrench, a.equal b eps ↔ a.force.equal b.force eps ∧ a.torque.equal b.torque eps) := by
  simp only [Vec.equal, Rot.equal, Frame.equal, Twist.equal, Wrench.equal, C15_scalar]
  refine ⟨fun a b => ?_, fun a b => ?_, fun a b => ?_, fun a b => ?_, fun a b => ?_⟩ <;> tauto

private theorem real_tol : IsTolerance realEqual where
  symm a b e h := by rw [C15_scalar] at *; rwa [abs_sub_comm]
  refl a e h := by rw [C15_scalar]; simpa using h
  mono a b e₁ e₂ h h1 := by rw [C15_scalar] at *; linarith
  triangle a b c e₁ e₂ h1 h2 := by
    rw [C15_scalar] at *
    calc |a - c| ≤ |a - b| + |b - c| := abs_sub_le a b c
      _ < e₁ + e₂ := by linarith
  exact a b h := by
    by_contra hne
    have h0 : 0 < |a - b| := abs_pos.mpr (sub_ne_zero.mpr hne)
    have := (C15_scalar a b _).mp (h _ h0)
    exact absurd this (lt_irrefl _)
  empty a b e he h := by
    rw [C15_scalar] at h
    linarith [abs_nonneg (a - b)]

theorem C15_vec : IsTolerance Vec.equal where
  symm a b e h := ⟨real_tol.symm _ _ _ h.1, real_tol.symm _ _ _ h.2.1, real_tol.symm _ _ _ h.2.2⟩
  refl a e h := ⟨real_tol.refl _ _ h, real_tol.refl _ _ h, real_tol.refl _ _ h⟩
  mono a b e₁ e₂ h h1 :=
    ⟨real_tol.mono _ _ _ _ h h1.1, real_tol.mono _ _ _ _ h h1.2.1, real_tol.mono _ _ _ _ h h1.2.2⟩
  triangle a b c e₁ e₂ h1 h2 := ⟨real_tol.triangle _ _ _ _ _ h1.1 h2.1,
    real_tol.triangle _ _ _ _ _ h1.2.1 h2.2.1, real_tol.triangle _ _ _ _ _ h1.2.2 h2.2.2⟩
  exact a b h := by
    ext
    · exact real_tol.exact _ _ fun e he => (h e he).1
    · exact real_tol.exact _ _ fun e he => (h e he).2.1
    · exact real_tol.exact _ _ fun e he => (h e he).2.2
  empty a b e he h := real_tol.empty _ _ e he h.1

theorem C15_rot : IsTolerance Rot.equal where
  symm a b e h := by
    obtain ⟨h1, h2, h3, h4, h5, h6, h7, h8, h9⟩ := h
    exact ⟨real_tol.symm _ _ _ h1, real_tol.symm _ _ _ h2, real_tol.symm _ _ _ h3, real_tol.symm _ _ _ h4,
      real_tol.symm _ _ _ h5, real_tol.symm _ _ _ h6, real_tol.symm _ _ _ h7, real_tol.symm _ _ _ h8,
      real_tol.symm _ _ _ h9⟩
  refl a e h := by
    refine ⟨?_, ?_, ?_, ?_, ?_, ?_, ?_, ?_, ?_⟩ <;> exact real_tol.refl _ _ h
  mono a b e₁ e₂ h h1 := by
    obtain ⟨h1, h2, h3, h4, h5, h6, h7, h8, h9⟩ := h1
    refine ⟨?_, ?_, ?_, ?_, ?_, ?_, ?_, ?_, ?_⟩ <;>
      exact real_tol.mono _ _ _ _ h (by assumption)
  triangle a b c e₁ e₂ h h' := by
    obtain ⟨h1, h2, h3, h4, h5, h6, h7, h8, h9⟩ := h
    obtain ⟨k1, k2, k3, k4, k5, k6, k7, k8, k9⟩ := h'
    exact ⟨real_tol.triangle _ _ _ _ _ h1 k1, real_tol.triangle _ _ _ _ _ h2 k2,
      real_tol.triangle _ _ _ _ _ h3 k3, real_tol.triangle _ _ _ _ _ h4 k4,
      real_tol.triangle _ _ _ _ _ h5 k5, real_tol.triangle _ _ _ _ _ h6 k6,
      real_tol.triangle _ _ _ _ _ h7 k7, real_tol.triangle _ _ _ _ _ h8 k8,
      real_tol.triangle _ _ _ _ _ h9 k9⟩
  exact a b h := by
    ext
    · exact real_tol.exact _ _ fun e he => (h e he).1
    · exact real_tol.exact _ _ fun e he => (h e he).2.1
    · exact real_tol.exact _ _ fun e he => (h e he).2.2.1
    · exact real_tol.exact _ _ fun e he => (h e he).2.2.2.1
    · exact real_tol.exact _ _ fun e he => (h e he).2.2.2.2.1
    · exact real_tol.exact _ _ fun e he => (h e he).2.2.2.2.2.1
    · exact real_tol.exact _ _ fun e he => (h e he).2.2.2.2.2.2.1
    · exact real_tol.exact _ _ fun e he => (h e he).2.2.2.2.2.2.2.1
    · exact real_tol.exact _ _ fun e he => (h e he).2.2.2.2.2.2.2.2
  empty a b e he h := real_tol.empty _ _ e he h.1

theorem C15_frame : IsTolerance Frame.equal where
  symm a b e h := ⟨C15_vec.symm _ _ _ h.1, C15_rot.symm _ _ _ h.2⟩
  refl a e h := ⟨C15_vec.refl _ _ h, C15_rot.refl _ _ h⟩
  mono a b e₁ e₂ h h1 := ⟨C15_vec.mono _ _ _ _ h h1.1, C15_rot.mono _ _ _ _ h h1.2⟩
  triangle a b c e₁ e₂ h1 h2 := ⟨C15_vec.triangle _ _ _ _ _ h1.1 h2.1, C15_rot.triangle _ _ _ _ _ h1.2 h2.2⟩
  exact a b h := by
    have h1 := C15_vec.exact a.p b.p fun e he => (h e he).1
    have h2 := C15_rot.exact a.M b.M fun e he => (h e he).2
    cases a; cases b; simp_all
  empty a b e he h := C15_vec.empty _ _ e he h.1

theorem C15_wrench : IsTolerance Wrench.equal where
  symm a b e h := ⟨C15_vec.symm _ _ _ h.1, C15_vec.symm _ _ _ h.2⟩
  refl a e h := ⟨C15_vec.refl _ _ h, C15_vec.refl _ _ h⟩
  mono a b e₁ e₂ h h1 := ⟨C15_vec.mono _ _ _ _ h h1.1, C15_vec.mono _ _ _ _ h h1.2⟩
  triangle a b c e₁ e₂ h1 h2 := ⟨C15_vec.triangle _ _ _ _ _ h1.1 h2.1, C15_vec.triangle _ _ _ _ _ h1.2 h2.2⟩
  exact a b h := by
    have h1 := C15_vec.exact a.force b.force fun e he => (h e he).1
    have h2 := C15_vec.exact a.torque b.torque fun e he => (h e he).2
    cases a; cases b; simp_all
  empty a b e he h := C15_vec.empty _ _ e he h.1

theorem C15_twist : IsTolerance Twist.equal where
  symm a b e h := ⟨C15_vec.symm _ _ _ h.1, C15_vec.symm _ _ _ h.2⟩
  refl a e h := ⟨C15_vec.refl _ _ h, C15_vec.refl _ _ h⟩
  mono a b e₁ e₂ h h1 := ⟨C15_vec.mono _ _ _ _ h h1.1, C15_vec.mono _ _ _ _ h h1.2⟩
  triangle a b c e₁ e₂ h1 h2 := ⟨C15_vec.triangle _ _ _ _ _ h1.1 h2.1, C15_vec.triangle _ _ _ _ _ h1.2 h2.2⟩
  exact a b h := by
    have h1 := C15_vec.exact a.vel b.vel fun e he => (h e he).2
    have h2 := C15_vec.exact a.rot b.rot fun e he => (h e he).1
    cases a; cases b; simp_all
  empty a b e he h := C15_vec.empty _ _ e he h.1

/-- The comparison is not the trivial relation on either side. -/
example : Vec.equal ⟨1, 2, 3⟩ ⟨1, 2, 3.5⟩ 1 ∧ ¬ Vec.equal ⟨1, 2, 3⟩ ⟨1, 2, 3.5⟩ 0.5 := by
  constructor
  · refine ⟨?_, ?_, ?_⟩ <;> rw [C15_scalar] <;> norm_num [abs_lt]
  · rintro ⟨_, _, h⟩
    rw [C15_scalar] at h
    norm_num [abs_lt] at h

end KDL
