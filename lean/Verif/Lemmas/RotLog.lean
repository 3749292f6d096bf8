import Verif.Props.AxisAngle
import Verif.Lemmas.Calculus
import Mathlib.Analysis.SpecialFunctions.Trigonometric.InverseDeriv

/-! Derivative of the squared rotation angle. -/

namespace KDL
open Real

/-- Some entry of the skew part exceeds the tolerance of the library. -/
def Rot.Apart (R : Rot) : Prop := epsilon < |R.m01 - R.m10| ∨ epsilon < |R.m02 - R.m20| ∨ epsilon < |R.m12 - R.m21|

theorem Rot.Apart.regular {R : Rot} (h : R.Apart) : R.Regular epsilon := by
  rintro ⟨h1, h2, h3⟩
  rcases h with h | h | h <;> linarith

/-- Twice the vector of the skew part. -/
def Rot.vee (R : Rot) : Vec := ⟨R.m21 - R.m12, R.m02 - R.m20, R.m10 - R.m01⟩

theorem Rot.vee_conj {M : Rot} (hM : M.IsProper) (G : Rot) : M * (M.inv * G).vee = (G * M.inv).vee := by
  obtain ⟨⟨c0, c1, c2⟩, ⟨c3, c4, c5⟩, ⟨c6, c7, c8⟩⟩ := hM.cof
  ext <;> simp [Rot.vee]
  · linear_combination -(G.m10 * c6 + G.m11 * c7 + G.m12 * c8) + (G.m20 * c3 + G.m21 * c4 + G.m22 * c5)
  · linear_combination (G.m00 * c6 + G.m01 * c7 + G.m02 * c8) - (G.m20 * c0 + G.m21 * c1 + G.m22 * c2)
  · linear_combination -(G.m00 * c3 + G.m01 * c4 + G.m02 * c5) + (G.m10 * c0 + G.m11 * c1 + G.m12 * c2)

theorem Rot.regular_getRot {R : Rot} (h : R.IsProper) (hr : R.Regular epsilon) :
    R.getRot = (arccos ((R.m00 + R.m11 + R.m22 - 1) / 2) / R.vee.len) • R.vee ∧
      R.getRot.dot R.getRot = arccos ((R.m00 + R.m11 + R.m22 - 1) / 2) ^ 2 ∧ 0 < R.vee.len ∧
      sqrt (1 - ((R.m00 + R.m11 + R.m22 - 1) / 2) ^ 2) = R.vee.len / 2 := by
  obtain ⟨hpos, hax, hsin, hcos, hl2⟩ := Rot.regular_core R h epsilon le_rfl hr
  have hrange := C08_angle_range R epsilon
  have harc : arccos ((R.m00 + R.m11 + R.m22 - 1) / 2) = (R.getRotAngle epsilon).2 := by
    rw [← hcos, arccos_cos hrange.1 hrange.2]
  have hv : R.vee.len ≠ 0 := hpos.ne'
  have hg : R.getRot = (arccos ((R.m00 + R.m11 + R.m22 - 1) / 2) / R.vee.len) • R.vee := by
    unfold Rot.getRot
    dsimp only
    rw [harc, hax]
    ext <;> simp [Rot.vee] <;> ring
  refine ⟨hg, ?_, hpos, ?_⟩
  · have h2 : R.vee.dot R.vee = R.vee.len ^ 2 := (Vec.len_sq _).symm
    rw [hg]
    have : ∀ (k : ℝ) (v : Vec), (k • v).dot (k • v) = k ^ 2 * v.dot v := by intro k v; simp [Vec.dot]; ring
    rw [this, h2]
    field_simp
  · rw [← hcos, ← Real.sin_sq, Real.sqrt_sq (by rw [hsin]; exact (half_pos hpos).le), hsin]
    rfl

/-- The derivative of the squared length of `diff(M, G)` while `M` moves with angular velocity `w`. -/
theorem Rot.diff_sq_deriv {M : ℝ → Rot} {w : Vec} {τ : ℝ} (hM : ∀ t, (M t).IsProper) (hd : Rot.HasAngVel M w τ) {G : Rot} (hG : G.IsProper)
    (ha : ((M τ).inv * G).Apart) :
    HasDerivAt (fun t => (Rot.diff (M t) G 1).dot (Rot.diff (M t) G 1)) (-2 * w.dot (Rot.diff (M τ) G 1)) τ := by
  have hp : ∀ t, ((M t).inv * G).IsProper := fun t => (hM t).inv.mul hG
  have hdiff : ∀ t, Rot.diff (M t) G 1 = M t * ((M t).inv * G).getRot := by
    intro t; unfold Rot.diff; ext <;> simp
  -- the entries of `Mᵀ G` are continuous
  have hc : ∀ i j : ℝ → ℝ, ContinuousAt i τ → ContinuousAt j τ → epsilon < |i τ - j τ| → ∀ᶠ t in nhds τ, epsilon < |i t - j t| :=
    fun i j hi hj h => (hi.sub hj).abs.eventually_const_lt h
  have hev : ∀ᶠ t in nhds τ, ((M t).inv * G).Regular epsilon := by
    have k := fun a b c (ha : ContinuousAt a τ) (hb : ContinuousAt b τ) (hc : ContinuousAt c τ) (x y z : ℝ) =>
      (((ha.mul (continuousAt_const (y := x))).add (hb.mul (continuousAt_const (y := y)))).add (hc.mul (continuousAt_const (y := z))) :
        ContinuousAt (fun t => a t * x + b t * y + c t * z) τ)
    have m00 := hd.m00.continuousAt; have m01 := hd.m01.continuousAt; have m02 := hd.m02.continuousAt
    have m10 := hd.m10.continuousAt; have m11 := hd.m11.continuousAt; have m12 := hd.m12.continuousAt
    have m20 := hd.m20.continuousAt; have m21 := hd.m21.continuousAt; have m22 := hd.m22.continuousAt
    rcases ha with h | h | h
    · filter_upwards [hc _ _ (k _ _ _ m00 m10 m20 G.m01 G.m11 G.m21) (k _ _ _ m01 m11 m21 G.m00 G.m10 G.m20) h] with t ht
      exact Rot.Apart.regular (Or.inl ht)
    · filter_upwards [hc _ _ (k _ _ _ m00 m10 m20 G.m02 G.m12 G.m22) (k _ _ _ m02 m12 m22 G.m00 G.m10 G.m20) h] with t ht
      exact Rot.Apart.regular (Or.inr (Or.inl ht))
    · filter_upwards [hc _ _ (k _ _ _ m01 m11 m21 G.m02 G.m12 G.m22) (k _ _ _ m02 m12 m22 G.m01 G.m11 G.m21) h] with t ht
      exact Rot.Apart.regular (Or.inr (Or.inr ht))
  obtain ⟨e1, e2, e3, e4⟩ := Rot.regular_getRot (hp τ) ha.regular
  set f : ℝ → ℝ := fun t => (((M t).inv * G).m00 + ((M t).inv * G).m11 + ((M t).inv * G).m22 - 1) / 2 with hf
  have hfun : (fun t => (Rot.diff (M t) G 1).dot (Rot.diff (M t) G 1)) =ᶠ[nhds τ] fun t => arccos (f t) ^ 2 := by
    filter_upwards [hev] with t ht
    rw [hdiff, (hM t).dot]
    exact (Rot.regular_getRot (hp t) ht).2.1
  refine HasDerivAt.congr_of_eventuallyEq ?_ hfun
  have hfd : HasDerivAt f (w.dot (M τ * ((M τ).inv * G).vee) / 2) τ := by
    have k := fun (a b c : ℝ → ℝ) (a' b' c' : ℝ) (ha : HasDerivAt a a' τ) (hb : HasDerivAt b b' τ) (hc : HasDerivAt c c' τ) (x y z : ℝ) =>
      (((ha.mul_const x).add (hb.mul_const y)).add (hc.mul_const z) : HasDerivAt (fun t => a t * x + b t * y + c t * z) _ τ)
    have h1 := (((k _ _ _ _ _ _ hd.m00 hd.m10 hd.m20 G.m00 G.m10 G.m20).add (k _ _ _ _ _ _ hd.m01 hd.m11 hd.m21 G.m01 G.m11 G.m21)).add
      (k _ _ _ _ _ _ hd.m02 hd.m12 hd.m22 G.m02 G.m12 G.m22)).sub_const 1 |>.div_const 2
    refine h1.congr_deriv ?_
    rw [Rot.vee_conj (hM τ)]
    simp [Rot.skew, Rot.vee, Vec.dot]
    ring
  have hlt : f τ ^ 2 < 1 := by
    by_contra h
    have : sqrt (1 - f τ ^ 2) = 0 := Real.sqrt_eq_zero_of_nonpos (by linarith)
    rw [show sqrt (1 - f τ ^ 2) = _ from e4] at this
    linarith
  have h1 : f τ ≠ -1 := by intro h; rw [h] at hlt; norm_num at hlt
  have h2 : f τ ≠ 1 := by intro h; rw [h] at hlt; norm_num at hlt
  have := ((Real.hasDerivAt_arccos h1 h2).comp τ hfd).pow 2
  refine this.congr_deriv ?_
  rw [hdiff, e1, show sqrt (1 - f τ ^ 2) = _ from e4]
  have hl : ((M τ).inv * G).vee.len ≠ 0 := e3.ne'
  have : M τ * ((arccos (f τ) / ((M τ).inv * G).vee.len) • ((M τ).inv * G).vee) =
      (arccos (f τ) / ((M τ).inv * G).vee.len) • (M τ * ((M τ).inv * G).vee) := by ext <;> simp <;> ring
  rw [this, Vec.dot_smul]
  simp only [Function.comp]
  field_simp
  ring

end KDL
