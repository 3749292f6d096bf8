import Verif.Lemmas.Rall

/-! C16, C17: the automatic differentiation types compute true derivatives. -/

namespace KDL
open Real Filter Topology

/-! ## C16: `Rall1d` -/
section first
open Rall1d
variable {x y : Rall1d} {f g : ℝ → ℝ} {τ : ℝ}

theorem C16_const (c : ℝ) : (Rall1d.const c).Rep (fun _ => c) τ := ⟨rfl, hasDerivAt_const τ c⟩

theorem C16_add (hx : x.Rep f τ) (hy : y.Rep g τ) : (x.add y).Rep (fun s => f s + g s) τ :=
  ⟨by simp [Rall1d.add, hx.1, hy.1], hx.2.add hy.2⟩

theorem C16_sub (hx : x.Rep f τ) (hy : y.Rep g τ) : (x.sub y).Rep (fun s => f s - g s) τ :=
  ⟨by simp [Rall1d.sub, hx.1, hy.1], hx.2.sub hy.2⟩

theorem C16_neg (hx : x.Rep f τ) : x.neg.Rep (fun s => -f s) τ :=
  ⟨by simp [Rall1d.neg, hx.1], hx.2.neg⟩

theorem C16_mul (hx : x.Rep f τ) (hy : y.Rep g τ) : (x.mul y).Rep (fun s => f s * g s) τ :=
  ⟨by simp [Rall1d.mul, hx.1, hy.1],
   (hx.2.mul hy.2).congr_deriv (by simp [Rall1d.mul, hx.1, hy.1]; ring)⟩

theorem C16_div (hx : x.Rep f τ) (hy : y.Rep g τ) (h : y.t ≠ 0) : (x.div y).Rep (fun s => f s / g s) τ :=
  ⟨by simp [Rall1d.div, hx.1, hy.1],
   (hx.2.div hy.2 (hy.1 ▸ h)).congr_deriv (by simp [Rall1d.div, hx.1, hy.1]; ring)⟩

theorem C16_scalar (s : ℝ) (hx : x.Rep f τ) :
    (x.smul s |>.Rep (fun u => s * f u) τ) ∧ (x.sadd s |>.Rep (fun u => s + f u) τ) ∧
    (x.ssub s |>.Rep (fun u => s - f u) τ) ∧ ((x.subs s).Rep (fun u => f u - s) τ) ∧
    (x.t ≠ 0 → (x.sdiv s).Rep (fun u => s / f u) τ) ∧ (x.divs s).Rep (fun u => f u / s) τ := by
  refine ⟨⟨by simp [Rall1d.smul, hx.1], hx.2.const_mul s⟩, ⟨by simp [Rall1d.sadd, hx.1], hx.2.const_add s⟩,
    ⟨by simp [Rall1d.ssub, hx.1], hx.2.const_sub s⟩, ⟨by simp [Rall1d.subs, hx.1], hx.2.sub_const s⟩, ?_,
    ⟨by simp [Rall1d.divs, hx.1], hx.2.div_const s⟩⟩
  intro h
  refine ⟨by simp [Rall1d.sdiv, hx.1], ?_⟩
  refine ((hasDerivAt_const τ s).div hx.2 (hx.1 ▸ h)).congr_deriv ?_
  simp [Rall1d.sdiv, hx.1]; ring

/-- The in-place operators agree with the binary ones (and are therefore correct, also when the right-hand side is the
object itself). -/
theorem C16_inplace (x y : Rall1d) :
    x.mulAssign y = x.mul y ∧ x.divAssign y = x.div y ∧ x.addAssign y = x.add y ∧
    x.subAssign y = x.sub y := by
  refine ⟨?_, ?_, ?_, ?_⟩ <;> ext <;>
    simp [Rall1d.mulAssign, Rall1d.mul, Rall1d.divAssign, Rall1d.div, Rall1d.addAssign, Rall1d.add,
      Rall1d.subAssign, Rall1d.sub]
  ring

theorem C16_exp (hx : x.Rep f τ) : x.exp.Rep (fun s => Real.exp (f s)) τ :=
  ⟨by simp [Rall1d.exp, hx.1], hx.2.exp.congr_deriv (by simp [Rall1d.exp, hx.1])⟩
theorem C16_log (hx : x.Rep f τ) (h : x.t ≠ 0) : x.log.Rep (fun s => Real.log (f s)) τ :=
  ⟨by simp [Rall1d.log, hx.1], (hx.2.log (hx.1 ▸ h)).congr_deriv (by simp [Rall1d.log, hx.1])⟩
theorem C16_sin (hx : x.Rep f τ) : x.sin.Rep (fun s => Real.sin (f s)) τ :=
  ⟨by simp [Rall1d.sin, hx.1], hx.2.sin.congr_deriv (by simp [Rall1d.sin, hx.1])⟩
theorem C16_cos (hx : x.Rep f τ) : x.cos.Rep (fun s => Real.cos (f s)) τ :=
  ⟨by simp [Rall1d.cos, hx.1], hx.2.cos.congr_deriv (by simp [Rall1d.cos, hx.1])⟩
theorem C16_tan (hx : x.Rep f τ) (h : Real.cos x.t ≠ 0) : x.tan.Rep (fun s => Real.tan (f s)) τ :=
  ⟨by simp [Rall1d.tan, hx.1],
   ((Real.hasDerivAt_tan (hx.1 ▸ h)).comp τ hx.2).congr_deriv (by simp [Rall1d.tan, hx.1]; ring)⟩
theorem C16_sinh (hx : x.Rep f τ) : x.sinh.Rep (fun s => Real.sinh (f s)) τ :=
  ⟨by simp [Rall1d.sinh, hx.1], hx.2.sinh.congr_deriv (by simp [Rall1d.sinh, hx.1])⟩
theorem C16_cosh (hx : x.Rep f τ) : x.cosh.Rep (fun s => Real.cosh (f s)) τ :=
  ⟨by simp [Rall1d.cosh, hx.1], hx.2.cosh.congr_deriv (by simp [Rall1d.cosh, hx.1])⟩

private theorem hasDerivAt_tanh' (u : ℝ) : HasDerivAt Real.tanh (1 / Real.cosh u ^ 2) u := by
  have hc := (Real.cosh_pos u).ne'
  have h := (Real.hasDerivAt_sinh u).div (Real.hasDerivAt_cosh u) hc
  have e : (fun v => Real.sinh v / Real.cosh v) = Real.tanh := by
    funext v; rw [Real.tanh_eq_sinh_div_cosh]
  have e' : (Real.sinh / Real.cosh) = Real.tanh := e
  rw [e'] at h
  refine h.congr_deriv ?_
  rw [← Real.cosh_sq_sub_sinh_sq u]; ring

theorem C16_tanh (hx : x.Rep f τ) : x.tanh.Rep (fun s => Real.tanh (f s)) τ :=
  ⟨by simp [Rall1d.tanh, hx.1],
   ((hasDerivAt_tanh' (f τ)).comp τ hx.2).congr_deriv (by simp [Rall1d.tanh, hx.1]; ring)⟩
theorem C16_sqr (hx : x.Rep f τ) : x.sqr.Rep (fun s => f s ^ 2) τ :=
  ⟨by simp [Rall1d.sqr, hx.1]; ring, (hx.2.pow 2).congr_deriv (by simp [Rall1d.sqr, hx.1])⟩
theorem C16_pow (m : ℝ) (hx : x.Rep f τ) (h : 0 < x.t) : (x.pow m).Rep (fun s => f s ^ m) τ := by
  refine ⟨by simp [Rall1d.pow, hx.1], ?_⟩
  have hf : f τ ≠ 0 := by rw [← hx.1]; exact h.ne'
  refine (hx.2.rpow_const (p := m) (Or.inl hf)).congr_deriv ?_
  simp only [Rall1d.pow, hx.1, Real.rpow_sub_one hf]
  field_simp
theorem C16_sqrt (hx : x.Rep f τ) (h : 0 < x.t) : x.sqrt.Rep (fun s => Real.sqrt (f s)) τ :=
  ⟨by simp [Rall1d.sqrt, hx.1],
   (hx.2.sqrt (hx.1 ▸ h.ne')).congr_deriv (by simp [Rall1d.sqrt, hx.1]; norm_num; ring)⟩
theorem C16_atan (hx : x.Rep f τ) : x.atan.Rep (fun s => Real.arctan (f s)) τ :=
  ⟨by simp [Rall1d.atan, hx.1], hx.2.arctan.congr_deriv (by simp [Rall1d.atan, hx.1]; ring)⟩
theorem C16_asin (hx : x.Rep f τ) (h : -1 < x.t ∧ x.t < 1) : x.asin.Rep (fun s => Real.arcsin (f s)) τ := by
  refine ⟨by simp [Rall1d.asin, hx.1], ?_⟩
  rw [hx.1] at h
  refine ((Real.hasDerivAt_arcsin h.1.ne' h.2.ne).comp τ hx.2).congr_deriv ?_
  simp [Rall1d.asin, hx.1]; ring
theorem C16_acos (hx : x.Rep f τ) (h : -1 < x.t ∧ x.t < 1) : x.acos.Rep (fun s => Real.arccos (f s)) τ := by
  refine ⟨by simp [Rall1d.acos, hx.1], ?_⟩
  rw [hx.1] at h
  refine ((Real.hasDerivAt_arccos h.1.ne' h.2.ne).comp τ hx.2).congr_deriv ?_
  simp [Rall1d.acos, hx.1]; ring
theorem C16_hypot (hx : x.Rep f τ) (hy : y.Rep g τ) (h : y.t ^ 2 + x.t ^ 2 ≠ 0) :
    (Rall1d.hypot y x).Rep (fun s => Real.sqrt (g s ^ 2 + f s ^ 2)) τ := by
  refine ⟨by simp [Rall1d.hypot, hx.1, hy.1], ?_⟩
  rw [hx.1, hy.1] at h
  refine (((hy.2.pow 2).add (hx.2.pow 2)).sqrt h).congr_deriv ?_
  have : Real.sqrt (g τ ^ 2 + f τ ^ 2) ≠ 0 := by
    rw [Real.sqrt_ne_zero']; exact lt_of_le_of_ne (by positivity) (Ne.symm h)
  simp [Rall1d.hypot, hx.1, hy.1]; field_simp; ring
/-- `atan2` away from the cut (negative x-axis), where the C++ function itself jumps. -/
theorem C16_atan2 (hx : x.Rep f τ) (hy : y.Rep g τ) (h : 0 < x.t ∨ y.t ≠ 0) :
    (Rall1d.atan2 y x).Rep (fun s => KDL.atan2 (g s) (f s)) τ := by
  refine ⟨by simp [Rall1d.atan2, hx.1, hy.1], ?_⟩
  rw [hx.1, hy.1] at h
  exact (hasDerivAt_atan2 hx.2 hy.2 h).congr_deriv (by simp [Rall1d.atan2, hx.1, hy.1])

/-- Compositionality in use: the derivative of `sin(s²)·exp(s)` at every point. -/
example (τ : ℝ) : let v : Rall1d := ⟨τ, 1⟩
    HasDerivAt (fun s => Real.sin (s ^ 2) * Real.exp s) ((v.sqr.sin).mul v.exp).grad τ := by
  intro v
  have hv : v.Rep (fun s => s) τ := ⟨rfl, hasDerivAt_id τ⟩
  exact (C16_mul (C16_sin (C16_sqr hv)) (C16_exp hv)).2
end first

/-! ## C17: `Rall2d` -/
section second
open Rall2d
variable {x y : Rall2d} {f g : ℝ → ℝ} {τ : ℝ}

theorem C17_const (c : ℝ) : (Rall2d.const c).Rep (fun _ => c) τ := Rep.const c τ
theorem C17_add (hx : x.Rep f τ) (hy : y.Rep g τ) : (x.add y).Rep (fun s => f s + g s) τ := hx.add hy
theorem C17_neg (hx : x.Rep f τ) : x.neg.Rep (fun s => -f s) τ := hx.neg
theorem C17_mul (hx : x.Rep f τ) (hy : y.Rep g τ) : (x.mul y).Rep (fun s => f s * g s) τ := hx.mul hy
theorem C17_sub (hx : x.Rep f τ) (hy : y.Rep g τ) : (x.sub y).Rep (fun s => f s - g s) τ := by
  have h := (hx.add hy.neg).congr (y := x.sub y) (by ext <;> simp [Rall2d.sub, Rall2d.add, Rall2d.neg] <;> ring)
  simpa only [sub_eq_add_neg] using h
theorem C17_div (hx : x.Rep f τ) (hy : y.Rep g τ) (h : y.t ≠ 0) : (x.div y).Rep (fun s => f s / g s) τ := by
  have h := (hx.mul (hy.inv h)).congr (y := x.div y) (by
    ext <;> simp [Rall2d.div, Rall2d.mul] <;> field_simp <;> ring)
  simpa only [div_eq_mul_inv] using h

theorem C17_scalar (s : ℝ) (hx : x.Rep f τ) :
    ((x.smul s).Rep (fun u => s * f u) τ) ∧ ((x.sadd s).Rep (fun u => s + f u) τ) ∧
    ((x.ssub s).Rep (fun u => s - f u) τ) ∧ ((x.subs s).Rep (fun u => f u - s) τ) ∧
    (x.t ≠ 0 → (x.sdiv s).Rep (fun u => s / f u) τ) ∧ (x.divs s).Rep (fun u => f u / s) τ := by
  have hc := Rep.const s τ
  refine ⟨?_, ?_, ?_, ?_, ?_, ?_⟩
  · exact (hc.mul hx).congr (by ext <;> simp [Rall2d.smul, Rall2d.mul, Rall2d.const])
  · exact (hc.add hx).congr (by ext <;> simp [Rall2d.sadd, Rall2d.add, Rall2d.const])
  · exact (C17_sub hc hx).congr (by ext <;> simp [Rall2d.ssub, Rall2d.sub, Rall2d.const])
  · exact (C17_sub hx hc).congr (by ext <;> simp [Rall2d.subs, Rall2d.sub, Rall2d.const])
  · intro h
    exact (C17_div hc hx h).congr (by
      ext <;> simp [Rall2d.sdiv, Rall2d.div, Rall2d.const])
  · have h := (Rep.const s⁻¹ τ).mul hx
    have h := h.congr (y := x.divs s) (by
      ext <;> simp [Rall2d.divs, Rall2d.mul, Rall2d.const] <;> ring)
    simpa only [div_eq_inv_mul] using h

theorem C17_exp (hx : x.Rep f τ) : x.exp.Rep (fun s => Real.exp (f s)) τ :=
  (hx.comp (g := Real.exp) (g' := Real.exp) (Eventually.of_forall Real.hasDerivAt_exp) (Real.hasDerivAt_exp _)).congr
    (by ext <;> simp [Rall2d.exp]; ring)
theorem C17_sin (hx : x.Rep f τ) : x.sin.Rep (fun s => Real.sin (f s)) τ :=
  (hx.comp (g := Real.sin) (g' := Real.cos) (Eventually.of_forall Real.hasDerivAt_sin) (Real.hasDerivAt_cos _)).congr
    (by ext <;> simp [Rall2d.sin]; ring)
theorem C17_cos (hx : x.Rep f τ) : x.cos.Rep (fun s => Real.cos (f s)) τ :=
  (hx.comp (g := Real.cos) (g' := fun u => -Real.sin u) (Eventually.of_forall Real.hasDerivAt_cos)
    (Real.hasDerivAt_sin _).neg).congr (by ext <;> simp [Rall2d.cos]; ring)
theorem C17_sinh (hx : x.Rep f τ) : x.sinh.Rep (fun s => Real.sinh (f s)) τ :=
  (hx.comp (g := Real.sinh) (g' := Real.cosh) (Eventually.of_forall Real.hasDerivAt_sinh)
    (Real.hasDerivAt_cosh _)).congr (by ext <;> simp [Rall2d.sinh]; ring)
theorem C17_cosh (hx : x.Rep f τ) : x.cosh.Rep (fun s => Real.cosh (f s)) τ :=
  (hx.comp (g := Real.cosh) (g' := Real.sinh) (Eventually.of_forall Real.hasDerivAt_cosh)
    (Real.hasDerivAt_sinh _)).congr (by ext <;> simp [Rall2d.cosh]; ring)
theorem C17_log (hx : x.Rep f τ) (h : x.t ≠ 0) : x.log.Rep (fun s => Real.log (f s)) τ := by
  refine (hx.comp (g := Real.log) (g' := fun u => u⁻¹) ?_ (hasDerivAt_inv h)).congr ?_
  · filter_upwards [eventually_ne_nhds h] with u hu using Real.hasDerivAt_log hu
  · ext <;> simp [Rall2d.log] <;> field_simp; ring
theorem C17_tan (hx : x.Rep f τ) (h : Real.cos x.t ≠ 0) : x.tan.Rep (fun s => Real.tan (f s)) τ := by
  have key : ∀ u, Real.cos u ≠ 0 → HasDerivAt Real.tan (1 + Real.tan u ^ 2) u := by
    intro u hu
    refine (Real.hasDerivAt_tan hu).congr_deriv ?_
    rw [Real.tan_eq_sin_div_cos]; field_simp
    linear_combination -Real.sin_sq_add_cos_sq u
  refine (hx.comp (g := Real.tan) (g' := fun u => 1 + Real.tan u ^ 2)
    (g'' := 2 * Real.tan x.t * (1 + Real.tan x.t ^ 2)) ?_ ?_).congr ?_
  · have : ∀ᶠ u in 𝓝 x.t, Real.cos u ≠ 0 := Real.continuous_cos.continuousAt.eventually_ne h
    filter_upwards [this] with u hu using key u hu
  · exact (((key _ h).pow 2).const_add 1).congr_deriv (by push_cast; ring)
  · ext <;> simp [Rall2d.tan]; ring
theorem C17_tanh (hx : x.Rep f τ) : x.tanh.Rep (fun s => Real.tanh (f s)) τ := by
  have key : ∀ u, HasDerivAt Real.tanh (1 - Real.tanh u ^ 2) u := by
    intro u
    refine (hasDerivAt_tanh' u).congr_deriv ?_
    have := (Real.cosh_pos u).ne'
    rw [Real.tanh_eq_sinh_div_cosh]; field_simp
    linear_combination -Real.cosh_sq_sub_sinh_sq u
  refine (hx.comp (g := Real.tanh) (g' := fun u => 1 - Real.tanh u ^ 2)
    (g'' := -(2 * Real.tanh x.t * (1 - Real.tanh x.t ^ 2))) (Eventually.of_forall key) ?_).congr ?_
  · exact (((key x.t).pow 2).const_sub 1).congr_deriv (by push_cast; ring)
  · ext <;> simp [Rall2d.tanh]; ring
theorem C17_sqr (hx : x.Rep f τ) : x.sqr.Rep (fun s => f s ^ 2) τ := by
  have h := (hx.mul hx).congr (y := x.sqr) (by ext <;> simp [Rall2d.sqr, Rall2d.mul] <;> ring)
  simpa only [pow_two] using h
theorem C17_pow (m : ℝ) (hx : x.Rep f τ) (h : 0 < x.t) : (x.pow m).Rep (fun s => f s ^ m) τ := by
  refine (hx.comp (g := fun u => u ^ m) (g' := fun u => m * u ^ (m - 1))
    (g'' := m * ((m - 1) * x.t ^ (m - 1 - 1))) ?_ ?_).congr ?_
  · filter_upwards [eventually_ne_nhds h.ne'] with u hu using Real.hasDerivAt_rpow_const (Or.inl hu)
  · exact (Real.hasDerivAt_rpow_const (Or.inl h.ne')).const_mul m
  · have h0 := h.ne'
    ext <;> simp only [Rall2d.pow, Real.rpow_sub_one h0] <;> field_simp
theorem C17_sqrt (hx : x.Rep f τ) (h : 0 < x.t) : x.sqrt.Rep (fun s => Real.sqrt (f s)) τ := by
  refine (hx.comp (g := Real.sqrt) (g' := fun u => 1 / (2 * Real.sqrt u))
    (g'' := -(2 * (1 / (2 * Real.sqrt x.t))) / (2 * Real.sqrt x.t) ^ 2) ?_ ?_).congr ?_
  · filter_upwards [eventually_ne_nhds h.ne'] with u hu using Real.hasDerivAt_sqrt hu
  · have h1 := (Real.hasDerivAt_sqrt h.ne').const_mul 2
    have h2 : 2 * Real.sqrt x.t ≠ 0 := by positivity
    simp only [one_div]
    refine (h1.inv h2).congr_deriv ?_
    simp only [one_div]
  · have h0 : Real.sqrt x.t ≠ 0 := (Real.sqrt_pos.mpr h).ne'
    have e5 : (0.5 : ℝ) = 1 / 2 := by norm_num
    ext <;> simp only [Rall2d.sqrt, e5] <;> field_simp <;> ring
theorem C17_atan (hx : x.Rep f τ) : x.atan.Rep (fun s => Real.arctan (f s)) τ := by
  refine (hx.comp (g := Real.arctan) (g' := fun u => 1 / (1 + u ^ 2))
    (g'' := -(2 * x.t) / (1 + x.t ^ 2) ^ 2) (Eventually.of_forall fun u => Real.hasDerivAt_arctan u) ?_).congr ?_
  · have h1 : HasDerivAt (fun u : ℝ => 1 + u ^ 2) (2 * x.t) x.t := by
      simpa using (hasDerivAt_pow 2 x.t).const_add 1
    simp only [one_div]
    exact h1.inv (by positivity)
  · have h0 : 1 + x.t ^ 2 ≠ 0 := by positivity
    ext <;> simp only [Rall2d.atan] <;> field_simp; ring
theorem C17_asin (hx : x.Rep f τ) (h : -1 < x.t ∧ x.t < 1) : x.asin.Rep (fun s => Real.arcsin (f s)) τ := by
  have hp : 0 < 1 - x.t ^ 2 := by nlinarith [h.1, h.2]
  refine (hx.comp (g := Real.arcsin) (g' := fun u => 1 / Real.sqrt (1 - u ^ 2))
    (g'' := x.t / (Real.sqrt (1 - x.t ^ 2)) ^ 3) ?_ ?_).congr ?_
  · filter_upwards [eventually_gt_nhds h.1, eventually_lt_nhds h.2] with u h1 h2
      using Real.hasDerivAt_arcsin h1.ne' h2.ne
  · have h1 : HasDerivAt (fun u : ℝ => 1 - u ^ 2) (-(2 * x.t)) x.t := by
      simpa using (hasDerivAt_pow 2 x.t).const_sub 1
    have h0 : Real.sqrt (1 - x.t ^ 2) ≠ 0 := (Real.sqrt_pos.mpr hp).ne'
    have h2 := (h1.sqrt hp.ne').inv h0
    simp only [one_div]
    refine h2.congr_deriv ?_
    field_simp
  · have h0 : Real.sqrt (1 - x.t ^ 2) ≠ 0 := (Real.sqrt_pos.mpr hp).ne'
    have hc : Real.cos (Real.arcsin x.t) = Real.sqrt (1 - x.t ^ 2) := Real.cos_arcsin x.t
    ext <;> simp only [Rall2d.asin, hc] <;> field_simp; ring
theorem C17_acos (hx : x.Rep f τ) (h : -1 < x.t ∧ x.t < 1) : x.acos.Rep (fun s => Real.arccos (f s)) τ := by
  have hp : 0 < 1 - x.t ^ 2 := by nlinarith [h.1, h.2]
  have h0 : Real.sqrt (1 - x.t ^ 2) ≠ 0 := (Real.sqrt_pos.mpr hp).ne'
  refine (hx.comp (g := Real.arccos) (g' := fun u => -(1 / Real.sqrt (1 - u ^ 2)))
    (g'' := -(x.t / (Real.sqrt (1 - x.t ^ 2)) ^ 3)) ?_ ?_).congr ?_
  · filter_upwards [eventually_gt_nhds h.1, eventually_lt_nhds h.2] with u h1 h2
      using Real.hasDerivAt_arccos h1.ne' h2.ne
  · have h1 : HasDerivAt (fun u : ℝ => 1 - u ^ 2) (-(2 * x.t)) x.t := by
      simpa using (hasDerivAt_pow 2 x.t).const_sub 1
    have h2 := ((h1.sqrt hp.ne').inv h0).neg
    simp only [one_div]
    refine h2.congr_deriv ?_
    field_simp
  · have hc : Real.sin (Real.arccos x.t) = Real.sqrt (1 - x.t ^ 2) := Real.sin_arccos x.t
    ext <;> simp only [Rall2d.acos, hc] <;> field_simp; ring
theorem C17_hypot (hx : x.Rep f τ) (hy : y.Rep g τ) (h : y.t ^ 2 + x.t ^ 2 ≠ 0) :
    (Rall2d.hypot y x).Rep (fun s => Real.sqrt (g s ^ 2 + f s ^ 2)) τ := by
  have hp : 0 < (y.sqr.add x.sqr).t := by
    have : 0 < y.t ^ 2 + x.t ^ 2 := lt_of_le_of_ne (by positivity) (Ne.symm h)
    simp only [Rall2d.add, Rall2d.sqr]; linarith
  refine (C17_sqrt ((C17_sqr hy).add (C17_sqr hx)) hp).congr ?_
  have h0 : Real.sqrt (y.t ^ 2 + x.t ^ 2) ≠ 0 := by
    rw [Real.sqrt_ne_zero']; exact lt_of_le_of_ne (by positivity) (Ne.symm h)
  have e5 : (0.5 : ℝ) = 1 / 2 := by norm_num
  ext <;> simp only [Rall2d.sqrt, Rall2d.add, Rall2d.sqr, Rall2d.hypot, ← pow_two, e5] <;> field_simp <;> ring
theorem C17_atan2 (hx : x.Rep f τ) (hy : y.Rep g τ) (h : 0 < x.t ∨ y.t ≠ 0) :
    (Rall2d.atan2 y x).Rep (fun s => KDL.atan2 (g s) (f s)) τ := by
  obtain ⟨f', hf, hf', ht, hd⟩ := hx
  obtain ⟨g', hg, hg', ht2, hd2⟩ := hy
  have hf0 := hf.self_of_nhds
  have hg0 := hg.self_of_nhds
  have hne : f τ * f τ + g τ * g τ ≠ 0 := by
    rw [← ht, ← ht2]
    rcases h with h | h
    · have := mul_pos h h; nlinarith [mul_self_nonneg y.t]
    · have := mul_self_pos.mpr h; nlinarith [mul_self_nonneg x.t]
  refine ⟨fun s => (f s * g' s - g s * f' s) / (f s * f s + g s * g s), ?_, ?_, ?_, ?_⟩
  · have hopen : ∀ᶠ s in 𝓝 τ, 0 < f s ∨ g s ≠ 0 := by
      rcases h with h | h
      · rw [ht] at h
        filter_upwards [hf0.continuousAt.eventually_const_lt h] with s hs using Or.inl hs
      · rw [ht2] at h
        filter_upwards [hg0.continuousAt.eventually_ne h] with s hs using Or.inr hs
    filter_upwards [hf, hg, hopen] with s h1 h2 h3 using hasDerivAt_atan2 h1 h2 h3
  · have hnum := (hf0.mul hg').sub (hg0.mul hf')
    have hden := (hf0.mul hf0).add (hg0.mul hg0)
    refine (hnum.div hden hne).congr_deriv ?_
    have hne' : g τ ^ 2 + f τ ^ 2 ≠ 0 := by intro hh; apply hne; linarith
    simp only [Rall2d.atan2, ht, ht2, hd, hd2, Pi.mul_apply, Pi.sub_apply, Pi.add_apply]
    rw [show f τ * f τ + g τ * g τ = g τ ^ 2 + f τ ^ 2 by ring]
    field_simp
    ring
  · simp only [Rall2d.atan2, ht, ht2]
  · simp only [Rall2d.atan2, ht, ht2, hd, hd2]
    congr 1 <;> ring

/-- In-place forms other than `*=` agree with the binary operators.  Full statement: also `*=`.
Missing: `*=`, refuted by `C17_mulAssign_violated`. -/
theorem C17_inplace_partial (x y : Rall2d) :
    x.divAssign y = x.div y ∧ x.addAssign y = x.add y ∧ x.subAssign y = x.sub y := ⟨rfl, rfl, rfl⟩

/-- **Violation.**  `x *= y` computes the derivative from the already multiplied value: with `x = y = s` at `s = 2`
(i.e. the triple `(2,1,0)`) it leaves `(4, 6, 12)` instead of the value and derivatives `(4, 4, 2)` of `s²`. -/
theorem C17_mulAssign_violated :
    ∃ (x y : Rall2d) (f g : ℝ → ℝ) (τ : ℝ), x.Rep f τ ∧ y.Rep g τ ∧
      ¬ (x.mulAssign y).Rep (fun s => f s * g s) τ := by
  have hid : (⟨2, 1, 0⟩ : Rall2d).Rep (fun s => s) 2 :=
    ⟨fun _ => 1, Eventually.of_forall fun s => hasDerivAt_id s, hasDerivAt_const 2 1, rfl, rfl⟩
  refine ⟨⟨2, 1, 0⟩, ⟨2, 1, 0⟩, fun s => s, fun s => s, 2, hid, hid, ?_⟩
  rintro ⟨h', hh, _, _, hd⟩
  obtain ⟨k', hk, _, _, kd⟩ := C17_mul hid hid
  have e := hh.self_of_nhds.unique hk.self_of_nhds
  rw [← hd, ← kd] at e
  norm_num [Rall2d.mulAssign, Rall2d.mul] at e

/-- `*=` is right in the value; in the first derivative exactly if that of the factor vanishes or one of the values is
trivial; altogether exactly in the cases listed last (for instance for constant factors). -/
theorem C17_mulAssign_condition (x y : Rall2d) :
    (x.mulAssign y).t = (x.mul y).t ∧
    ((x.mulAssign y).d = (x.mul y).d ↔ x.t = 0 ∨ y.t = 1 ∨ y.d = 0) ∧
    (x.mulAssign y = x.mul y ↔
      x.t = 0 ∧ (x.d = 0 ∨ y.t = 1 ∨ y.d = 0) ∨ y.d = 0 ∧ (y.t = 1 ∨ y.dd = 0)) := by
  have first : (x.mulAssign y).d = (x.mul y).d ↔ x.t = 0 ∨ y.t = 1 ∨ y.d = 0 := by
    simp only [Rall2d.mulAssign, Rall2d.mul]
    constructor
    · intro h
      have : x.t * ((y.t - 1) * y.d) = 0 := by linear_combination h
      rcases mul_eq_zero.mp this with h1 | h1
      · exact Or.inl h1
      · rcases mul_eq_zero.mp h1 with h2 | h2
        · exact Or.inr (Or.inl (by linarith))
        · exact Or.inr (Or.inr h2)
    · rintro (h | h | h) <;> rw [h] <;> ring
  refine ⟨rfl, first, ?_⟩
  constructor
  · intro h
    have hd := first.mp (congrArg Rall2d.d h)
    have hh := congrArg Rall2d.dd h
    simp only [Rall2d.mulAssign, Rall2d.mul] at hh
    rcases hd with h0 | h1 | h2
    · left
      refine ⟨h0, ?_⟩
      rw [h0] at hh
      have : x.d * ((y.t - 1) * y.d) = 0 := by linear_combination hh / 2
      rcases mul_eq_zero.mp this with h1 | h1
      · exact Or.inl h1
      · rcases mul_eq_zero.mp h1 with h2 | h2
        · exact Or.inr (Or.inl (by linarith))
        · exact Or.inr (Or.inr h2)
    · rw [h1] at hh
      have : x.t * (y.d * y.d) = 0 := by linear_combination hh / 2
      rcases mul_eq_zero.mp this with h0 | h0
      · exact Or.inl ⟨h0, Or.inr (Or.inl h1)⟩
      · exact Or.inr ⟨mul_self_eq_zero.mp h0, Or.inl h1⟩
    · rw [h2] at hh
      have : x.t * ((y.t - 1) * y.dd) = 0 := by linear_combination hh
      rcases mul_eq_zero.mp this with h0 | h0
      · exact Or.inl ⟨h0, Or.inr (Or.inr h2)⟩
      · rcases mul_eq_zero.mp h0 with h3 | h3
        · exact Or.inr ⟨h2, Or.inl (by linarith)⟩
        · exact Or.inr ⟨h2, Or.inr h3⟩
  · rintro (⟨h0, h1 | h1 | h1⟩ | ⟨h0, h1 | h1⟩) <;>
      (ext <;> simp only [Rall2d.mulAssign, Rall2d.mul, h0, h1] <;> ring)

/-- Compositionality in use. -/
example (τ : ℝ) : let v : Rall2d := ⟨τ, 1, 0⟩
    ((v.sqr.sin).mul v.exp).Rep (fun s => Real.sin (s ^ 2) * Real.exp s) τ := by
  intro v
  have hv : v.Rep (fun s => s) τ :=
    ⟨fun _ => 1, Eventually.of_forall fun s => hasDerivAt_id s, hasDerivAt_const τ 1, rfl, rfl⟩
  exact C17_mul (C17_sin (C17_sqr hv)) (C17_exp hv)
end second

end KDL
