import Verif.Model.Rall
import Mathlib.Analysis.Calculus.Deriv.Mul
import Mathlib.Analysis.Calculus.Deriv.Inv
import Mathlib.Analysis.Calculus.Deriv.Prod
import Mathlib.Analysis.SpecialFunctions.Trigonometric.ArctanDeriv
import Mathlib.Analysis.SpecialFunctions.Trigonometric.InverseDeriv
import Mathlib.Analysis.SpecialFunctions.Trigonometric.Deriv
import Mathlib.Analysis.SpecialFunctions.Trigonometric.DerivHyp
import Mathlib.Analysis.SpecialFunctions.Pow.Deriv
import Mathlib.Analysis.SpecialFunctions.Sqrt
import Mathlib.Analysis.SpecialFunctions.Complex.LogDeriv

namespace KDL
open Real Filter Topology

/-- Derivative of the two argument arctangent along a curve that avoids the cut. -/
theorem hasDerivAt_atan2 {x y : ℝ → ℝ} {x' y' τ : ℝ} (hx : HasDerivAt x x' τ) (hy : HasDerivAt y y' τ)
    (hs : 0 < x τ ∨ y τ ≠ 0) :
    HasDerivAt (fun s => atan2 (y s) (x s)) ((x τ * y' - y τ * x') / (x τ * x τ + y τ * y τ)) τ := by
  have hz : HasDerivAt (fun s => ((x s : ℂ) + (y s : ℂ) * Complex.I)) ((x' : ℂ) + (y' : ℂ) * Complex.I) τ := by
    exact hx.ofReal_comp.add (hy.ofReal_comp.mul_const Complex.I)
  have hmem : ((x τ : ℂ) + (y τ : ℂ) * Complex.I) ∈ Complex.slitPlane := by
    rw [Complex.mem_slitPlane_iff]
    simpa using hs
  have hl := hz.clog_real hmem
  have him := (Complex.imCLM.hasFDerivAt.comp_hasDerivAt τ hl)
  have e1 : (fun s => atan2 (y s) (x s)) = Complex.imCLM ∘ fun s => Complex.log ((x s : ℂ) + (y s : ℂ) * Complex.I) := by
    funext s
    simp only [Function.comp, Complex.imCLM_apply, Complex.log_im, atan2]
    congr 1
    apply Complex.ext <;> simp
  rw [e1]
  refine HasDerivAt.congr_deriv him ?_
  simp only [Complex.imCLM_apply, Complex.div_im, Complex.add_re, Complex.add_im, Complex.mul_re, Complex.mul_im,
    Complex.ofReal_re, Complex.ofReal_im, Complex.I_re, Complex.I_im, Complex.normSq_apply]
  simp only [mul_zero, mul_one, zero_mul, add_zero, zero_add, sub_zero]
  ring

namespace Rall2d

/-- Chain rule to second order for a function given with its first two derivatives. -/
theorem Rep.comp {x : Rall2d} {f : ℝ → ℝ} {τ : ℝ} (h : x.Rep f τ) {g g' : ℝ → ℝ} {g'' : ℝ}
    (hg : ∀ᶠ u in 𝓝 x.t, HasDerivAt g (g' u) u) (hg' : HasDerivAt g' g'' x.t) :
    Rep ⟨g x.t, g' x.t * x.d, g'' * x.d ^ 2 + g' x.t * x.dd⟩ (fun s => g (f s)) τ := by
  obtain ⟨f', hf, hf', ht, hd⟩ := h
  have hfτ : HasDerivAt f (f' τ) τ := hf.self_of_nhds
  refine ⟨fun s => g' (f s) * f' s, ?_, ?_, ?_, ?_⟩
  · have hcont : Tendsto f (𝓝 τ) (𝓝 x.t) := by rw [ht]; exact hfτ.continuousAt
    filter_upwards [hf, hcont.eventually hg] with s h1 h2
    exact h2.comp s h1
  · have h1 : HasDerivAt (fun s => g' (f s)) (g'' * f' τ) τ := by
      rw [ht] at hg'
      exact hg'.comp τ hfτ
    refine (h1.mul hf').congr_deriv ?_
    simp only [ht, hd]; ring
  · simp only [ht]
  · simp only [ht, hd]

theorem Rep.congr {x y : Rall2d} {f : ℝ → ℝ} {τ : ℝ} (h : x.Rep f τ) (e : y = x) : y.Rep f τ := e ▸ h

theorem Rep.const (c τ : ℝ) : Rep (Rall2d.const c) (fun _ => c) τ :=
  ⟨fun _ => 0, Eventually.of_forall fun s => hasDerivAt_const s c, hasDerivAt_const τ 0, rfl, rfl⟩

theorem Rep.add {x y : Rall2d} {f g : ℝ → ℝ} {τ : ℝ} (hx : x.Rep f τ) (hy : y.Rep g τ) :
    (x.add y).Rep (fun s => f s + g s) τ := by
  obtain ⟨f', hf, hf', ht, hd⟩ := hx
  obtain ⟨g', hg, hg', ht2, hd2⟩ := hy
  refine ⟨fun s => f' s + g' s, ?_, hf'.add hg', ?_, ?_⟩
  · filter_upwards [hf, hg] with s h1 h2 using h1.add h2
  · simp [Rall2d.add, ht, ht2]
  · simp [Rall2d.add, hd, hd2]

theorem Rep.neg {x : Rall2d} {f : ℝ → ℝ} {τ : ℝ} (hx : x.Rep f τ) : x.neg.Rep (fun s => -f s) τ := by
  obtain ⟨f', hf, hf', ht, hd⟩ := hx
  refine ⟨fun s => -f' s, ?_, hf'.neg, ?_, ?_⟩
  · filter_upwards [hf] with s h1 using h1.neg
  · simp [Rall2d.neg, ht]
  · simp [Rall2d.neg, hd]

theorem Rep.mul {x y : Rall2d} {f g : ℝ → ℝ} {τ : ℝ} (hx : x.Rep f τ) (hy : y.Rep g τ) :
    (x.mul y).Rep (fun s => f s * g s) τ := by
  obtain ⟨f', hf, hf', ht, hd⟩ := hx
  obtain ⟨g', hg, hg', ht2, hd2⟩ := hy
  refine ⟨fun s => f' s * g s + f s * g' s, ?_, ?_, ?_, ?_⟩
  · filter_upwards [hf, hg] with s h1 h2 using h1.mul h2
  · refine ((hf'.mul hg.self_of_nhds).add (hf.self_of_nhds.mul hg')).congr_deriv ?_
    simp only [Rall2d.mul, ht, ht2, hd, hd2]; ring
  · simp [Rall2d.mul, ht, ht2]
  · simp [Rall2d.mul, ht, ht2, hd, hd2]

theorem Rep.inv {x : Rall2d} {f : ℝ → ℝ} {τ : ℝ} (hx : x.Rep f τ) (h : x.t ≠ 0) :
    Rep ⟨(x.t)⁻¹, -(x.t ^ 2)⁻¹ * x.d, 2 / x.t ^ 3 * x.d ^ 2 + -(x.t ^ 2)⁻¹ * x.dd⟩ (fun s => (f s)⁻¹) τ := by
  refine hx.comp (g := fun u => u⁻¹) (g' := fun u => -(u ^ 2)⁻¹) ?_ ?_
  · filter_upwards [eventually_ne_nhds h] with u hu using hasDerivAt_inv hu
  · have h1 : HasDerivAt (fun u : ℝ => u ^ 2) (2 * x.t) x.t := by simpa using hasDerivAt_pow 2 x.t
    refine ((h1.inv (pow_ne_zero 2 h)).neg).congr_deriv ?_
    field_simp

end Rall2d
end KDL
