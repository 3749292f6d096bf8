import Verif.Model.Calculus
import Verif.Lemmas.Rotations
import Mathlib.Analysis.Calculus.Deriv.Mul
import Mathlib.Analysis.Calculus.Deriv.Add
import Mathlib.Analysis.SpecialFunctions.Trigonometric.Deriv

/-! Product rules for the componentwise derivative predicates. -/

namespace KDL

namespace Vec.HasDeriv
variable {f g : ℝ → Vec} {f' g' : Vec} {t : ℝ}

theorem congr_deriv {f'' : Vec} (h : HasDeriv f f' t) (e : f' = f'') : HasDeriv f f'' t := e ▸ h

theorem const (v : Vec) : HasDeriv (fun _ => v) 0 t :=
  ⟨hasDerivAt_const _ _, hasDerivAt_const _ _, hasDerivAt_const _ _⟩
theorem add (hf : HasDeriv f f' t) (hg : HasDeriv g g' t) :
    HasDeriv (fun s => f s + g s) (f' + g') t :=
  ⟨hf.x.add hg.x, hf.y.add hg.y, hf.z.add hg.z⟩
theorem sub (hf : HasDeriv f f' t) (hg : HasDeriv g g' t) :
    HasDeriv (fun s => f s - g s) (f' - g') t :=
  ⟨hf.x.sub hg.x, hf.y.sub hg.y, hf.z.sub hg.z⟩
theorem neg (hf : HasDeriv f f' t) : HasDeriv (fun s => -f s) (-f') t :=
  ⟨hf.x.neg, hf.y.neg, hf.z.neg⟩
theorem smul {c : ℝ → ℝ} {c' : ℝ} (hc : HasDerivAt c c' t) (hf : HasDeriv f f' t) :
    HasDeriv (fun s => c s • f s) (c' • f t + c t • f') t :=
  ⟨hc.mul hf.x, hc.mul hf.y, hc.mul hf.z⟩
theorem cross (hf : HasDeriv f f' t) (hg : HasDeriv g g' t) :
    HasDeriv (fun s => f s * g s) (f' * g t + f t * g') t := by
  refine ⟨?_, ?_, ?_⟩
  · exact ((hf.y.mul hg.z).sub (hf.z.mul hg.y)).congr_deriv (by simp; ring)
  · exact ((hf.z.mul hg.x).sub (hf.x.mul hg.z)).congr_deriv (by simp; ring)
  · exact ((hf.x.mul hg.y).sub (hf.y.mul hg.x)).congr_deriv (by simp; ring)
theorem dot (hf : HasDeriv f f' t) (hg : HasDeriv g g' t) :
    HasDerivAt (fun s => (f s).dot (g s)) (f'.dot (g t) + (f t).dot g') t := by
  exact (((hg.x.mul hf.x).add (hg.y.mul hf.y)).add (hg.z.mul hf.z)).congr_deriv
    (by simp [Vec.dot]; ring)
theorem unique {f'' : Vec} (h : HasDeriv f f' t) (k : HasDeriv f f'' t) : f' = f'' := by
  ext
  · exact h.x.unique k.x
  · exact h.y.unique k.y
  · exact h.z.unique k.z
end Vec.HasDeriv

namespace Rot
theorem skew_app (v w : Vec) : skew v * w = v * w := by ext <;> simp [skew] <;> ring

/-- entrywise sum of matrices (helper for derivatives) -/
def madd (a b : Rot) : Rot :=
  ⟨a.m00 + b.m00, a.m01 + b.m01, a.m02 + b.m02, a.m10 + b.m10, a.m11 + b.m11, a.m12 + b.m12,
   a.m20 + b.m20, a.m21 + b.m21, a.m22 + b.m22⟩
theorem madd_app (a b : Rot) (v : Vec) : madd a b * v = a * v + b * v := by
  ext <;> simp [madd] <;> ring
theorem skew_add (a b : Vec) : skew (a + b) = madd (skew a) (skew b) := by
  ext <;> simp [skew, madd] <;> ring
end Rot

namespace Rot.HasDeriv
variable {f g : ℝ → Rot} {f' g' : Rot} {t : ℝ}

theorem congr_deriv {f'' : Rot} (h : HasDeriv f f' t) (e : f' = f'') : HasDeriv f f'' t := e ▸ h

theorem mul (hf : HasDeriv f f' t) (hg : HasDeriv g g' t) :
    HasDeriv (fun s => f s * g s) (madd (f' * g t) (f t * g')) t := by
  refine ⟨?_, ?_, ?_, ?_, ?_, ?_, ?_, ?_, ?_⟩
  · exact (((hf.m00.mul hg.m00).add (hf.m01.mul hg.m10)).add (hf.m02.mul hg.m20)).congr_deriv
      (by simp [madd]; ring)
  · exact (((hf.m00.mul hg.m01).add (hf.m01.mul hg.m11)).add (hf.m02.mul hg.m21)).congr_deriv
      (by simp [madd]; ring)
  · exact (((hf.m00.mul hg.m02).add (hf.m01.mul hg.m12)).add (hf.m02.mul hg.m22)).congr_deriv
      (by simp [madd]; ring)
  · exact (((hf.m10.mul hg.m00).add (hf.m11.mul hg.m10)).add (hf.m12.mul hg.m20)).congr_deriv
      (by simp [madd]; ring)
  · exact (((hf.m10.mul hg.m01).add (hf.m11.mul hg.m11)).add (hf.m12.mul hg.m21)).congr_deriv
      (by simp [madd]; ring)
  · exact (((hf.m10.mul hg.m02).add (hf.m11.mul hg.m12)).add (hf.m12.mul hg.m22)).congr_deriv
      (by simp [madd]; ring)
  · exact (((hf.m20.mul hg.m00).add (hf.m21.mul hg.m10)).add (hf.m22.mul hg.m20)).congr_deriv
      (by simp [madd]; ring)
  · exact (((hf.m20.mul hg.m01).add (hf.m21.mul hg.m11)).add (hf.m22.mul hg.m21)).congr_deriv
      (by simp [madd]; ring)
  · exact (((hf.m20.mul hg.m02).add (hf.m21.mul hg.m12)).add (hf.m22.mul hg.m22)).congr_deriv
      (by simp [madd]; ring)

theorem app {v : ℝ → Vec} {v' : Vec} (hf : HasDeriv f f' t) (hv : Vec.HasDeriv v v' t) :
    Vec.HasDeriv (fun s => f s * v s) (f' * v t + f t * v') t := by
  refine ⟨?_, ?_, ?_⟩
  · exact (((hf.m00.mul hv.x).add (hf.m01.mul hv.y)).add (hf.m02.mul hv.z)).congr_deriv
      (by simp; ring)
  · exact (((hf.m10.mul hv.x).add (hf.m11.mul hv.y)).add (hf.m12.mul hv.z)).congr_deriv
      (by simp; ring)
  · exact (((hf.m20.mul hv.x).add (hf.m21.mul hv.y)).add (hf.m22.mul hv.z)).congr_deriv
      (by simp; ring)

theorem inv (hf : HasDeriv f f' t) : HasDeriv (fun s => (f s).inv) f'.inv t :=
  ⟨hf.m00, hf.m10, hf.m20, hf.m01, hf.m11, hf.m21, hf.m02, hf.m12, hf.m22⟩

theorem const (R : Rot) : HasDeriv (fun _ => R) ⟨0, 0, 0, 0, 0, 0, 0, 0, 0⟩ t :=
  ⟨hasDerivAt_const _ _, hasDerivAt_const _ _, hasDerivAt_const _ _, hasDerivAt_const _ _,
   hasDerivAt_const _ _, hasDerivAt_const _ _, hasDerivAt_const _ _, hasDerivAt_const _ _,
   hasDerivAt_const _ _⟩
end Rot.HasDeriv

namespace Rot.HasAngVel
variable {R S : ℝ → Rot} {a b : Vec} {t : ℝ}

theorem congr_vel {c : Vec} (h : HasAngVel R a t) (e : a = c) : HasAngVel R c t := e ▸ h

theorem const (M : Rot) : HasAngVel (fun _ => M) 0 t :=
  (Rot.HasDeriv.const M).congr_deriv (by ext <;> simp [skew])

/-- angular velocities add, the second one rotated into the base -/
theorem mul (h : HasAngVel R a t) (k : HasAngVel S b t) (hR : (R t).IsProper) :
    HasAngVel (fun s => R s * S s) (a + R t * b) t := by
  refine (Rot.HasDeriv.mul h k).congr_deriv ?_
  apply ext_app; intro v
  rw [madd_app]
  simp only [mul_app, skew_app, Vec.add_cross]
  rw [← hR.cross]

theorem app {v : ℝ → Vec} {v' : Vec} (h : HasAngVel R a t) (hv : Vec.HasDeriv v v' t) :
    Vec.HasDeriv (fun s => R s * v s) (a * (R t * v t) + R t * v') t :=
  (Rot.HasDeriv.app h hv).congr_deriv (by rw [mul_app, skew_app])

theorem inv (h : HasAngVel R a t) (hR : (R t).IsProper) :
    HasAngVel (fun s => (R s).inv) (-((R t).inv * a)) t := by
  refine (Rot.HasDeriv.inv h).congr_deriv ?_
  apply ext_app; intro v
  rw [inv_mul]
  simp only [mul_app, skew_app]
  have : (skew a).inv * v = -(a * v) := by ext <;> simp [skew] <;> ring
  rw [this, app_neg, Vec.neg_cross, hR.inv.cross]

theorem invApp {v : ℝ → Vec} {v' : Vec} (h : HasAngVel R a t) (hv : Vec.HasDeriv v v' t)
    (hR : (R t).IsProper) :
    Vec.HasDeriv (fun s => (R s).inv * v s) ((R t).inv * (v' - a * v t)) t := by
  refine ((h.inv hR).app hv).congr_deriv ?_
  rw [Vec.neg_cross, hR.inv.cross, app_sub]; abel

/-- rotating about a fixed unit axis -/
theorem rot2 (u : Vec) (hu : u.dot u = 1) {q : ℝ → ℝ} {q' : ℝ} (hq : HasDerivAt q q' t) :
    HasAngVel (fun s => Rot.rot2 u (q s)) (q' • u) t := by
  have hc := hq.cos
  have hs := hq.sin
  have h1 : u.x * u.x + u.y * u.y + u.z * u.z = 1 := hu
  unfold HasAngVel
  refine ⟨?_, ?_, ?_, ?_, ?_, ?_, ?_, ?_, ?_⟩ <;> simp only [Rot.rot2]
  · exact ((hc.add (((hc.const_sub 1).mul_const u.x).mul_const u.x))).congr_deriv
      (by simp [skew]; linear_combination (Real.sin (q t) * q') * h1)
  · exact (((hs.const_mul u.z).neg.add (((hc.const_sub 1).mul_const u.x).mul_const u.y))).congr_deriv
      (by simp [skew]; ring)
  · exact (((hs.const_mul u.y).add (((hc.const_sub 1).mul_const u.x).mul_const u.z))).congr_deriv
      (by simp [skew]; ring)
  · exact (((hs.const_mul u.z).add (((hc.const_sub 1).mul_const u.x).mul_const u.y))).congr_deriv
      (by simp [skew]; ring)
  · exact ((hc.add (((hc.const_sub 1).mul_const u.y).mul_const u.y))).congr_deriv
      (by simp [skew]; linear_combination (Real.sin (q t) * q') * h1)
  · exact (((hs.const_mul u.x).neg.add (((hc.const_sub 1).mul_const u.y).mul_const u.z))).congr_deriv
      (by simp [skew]; ring)
  · exact (((hs.const_mul u.y).neg.add (((hc.const_sub 1).mul_const u.x).mul_const u.z))).congr_deriv
      (by simp [skew]; ring)
  · exact (((hs.const_mul u.x).add (((hc.const_sub 1).mul_const u.y).mul_const u.z))).congr_deriv
      (by simp [skew]; ring)
  · exact ((hc.add (((hc.const_sub 1).mul_const u.z).mul_const u.z))).congr_deriv
      (by simp [skew]; linear_combination (Real.sin (q t) * q') * h1)

/-- the angular velocity is determined by the curve -/
theorem unique (h : HasAngVel R a t) (k : HasAngVel R b t) (hR : (R t).IsProper) : a = b := by
  have key : skew a * R t = skew b * R t := by
    ext
    · exact h.m00.unique k.m00
    · exact h.m01.unique k.m01
    · exact h.m02.unique k.m02
    · exact h.m10.unique k.m10
    · exact h.m11.unique k.m11
    · exact h.m12.unique k.m12
    · exact h.m20.unique k.m20
    · exact h.m21.unique k.m21
    · exact h.m22.unique k.m22
  have : skew a = skew b := by
    calc skew a = skew a * R t * (R t).inv := by rw [mul_assoc, hR.orth, mul_one]
      _ = skew b * R t * (R t).inv := by rw [key]
      _ = skew b := by rw [mul_assoc, hR.orth, mul_one]
  rw [Rot.ext_iff] at this
  simp [skew] at this
  obtain ⟨hz, hy, _, hx, _, _⟩ := this
  ext <;> simp_all
end Rot.HasAngVel

end KDL
