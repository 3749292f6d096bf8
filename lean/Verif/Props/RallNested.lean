import Verif.Model.RallNested
import Verif.Props.DualNumbers
import Verif.Props.Equal
import Mathlib.Analysis.Calculus.IteratedDeriv.Lemmas
import Mathlib.Analysis.Calculus.ContDiff.Basic

/-! C82: nested dual numbers carry derivatives of any order, dual numbers with a vector as gradient carry the gradient. -/

namespace KDL
open Filter Topology RallN

/-! ## Specification vocabulary -/

/-- The number stored at a position: at each level the gradient (`true`) or the value (`false`). -/
def leaf : (n : ℕ) → Nd n → List Bool → ℝ
  | 0, x, _ => x
  | n + 1, x, [] => leaf n (Dual.t (V := Nd n) x) []
  | n + 1, x, true :: p => leaf n (Dual.grad (T := Nd n) x) p
  | n + 1, x, false :: p => leaf n (Dual.t (V := Nd n) x) p

/-- `x` holds the derivatives of `f` at `τ` up to order `n`: behind `k` gradients stands the `k`-th derivative. -/
def HoldsDerivs (n : ℕ) (x : Nd n) (f : ℝ → ℝ) (τ : ℝ) : Prop :=
  ∀ p : List Bool, p.length = n → leaf n x p = iteratedDeriv (p.count true) f τ

/-! ## Proofs -/

/-- Recursive form of `HoldsDerivs`. -/
private def Rep : (n : ℕ) → Nd n → (ℝ → ℝ) → ℝ → Prop
  | 0, x, f, τ => x = f τ
  | n + 1, x, f, τ => Rep n (Dual.t (V := Nd n) x) f τ ∧
      ∃ f' : ℝ → ℝ, (∀ᶠ s in 𝓝 τ, HasDerivAt f (f' s) s) ∧ Rep n (Dual.grad (T := Nd n) x) f' τ

private theorem Rep.holds {n : ℕ} {x : Nd n} {f : ℝ → ℝ} {τ : ℝ} (h : Rep n x f τ) : HoldsDerivs n x f τ := by
  induction n generalizing f with
  | zero =>
    intro p hp
    rw [List.length_eq_zero_iff.mp hp]
    simp only [leaf, List.count_nil, iteratedDeriv_zero]
    exact h
  | succ n ih =>
    obtain ⟨h1, f', h2, h3⟩ := h
    intro p hp
    match p, hp with
    | true :: p, hp =>
      have e := ih h3 p (by simpa using hp)
      have hd : f' =ᶠ[𝓝 τ] deriv f := h2.mono fun s hs => hs.deriv.symm
      simp only [leaf, List.count_cons_self]
      rw [e, iteratedDeriv_succ', hd.iteratedDeriv_eq]
    | false :: p, hp =>
      simp only [leaf]
      rw [ih h1 p (by simpa using hp), List.count_cons_of_ne (by decide)]

private theorem HoldsDerivs.rep {n : ℕ} {x : Nd n} {f : ℝ → ℝ} {τ : ℝ} (hf : ContDiffAt ℝ n f τ) (h : HoldsDerivs n x f τ) :
    Rep n x f τ := by
  induction n generalizing f with
  | zero =>
    have := h [] rfl
    simp only [leaf, List.count_nil, iteratedDeriv_zero] at this
    exact this
  | succ n ih =>
    refine ⟨ih (hf.of_le (by exact_mod_cast Nat.le_succ n)) fun p hp => ?_, deriv f, ?_, ih ?_ fun p hp => ?_⟩
    · have := h (false :: p) (by simpa using hp)
      simp only [leaf] at this
      rw [this, List.count_cons_of_ne (by decide)]
    · have := hf.eventually (by simp)
      filter_upwards [this] with s hs
      exact (hs.differentiableAt (by simp)).hasDerivAt
    · exact (hf.fderiv_right (m := n) (by push_cast; exact le_rfl)).clm_apply contDiffAt_const
    · have := h (true :: p) (by simpa using hp)
      simp only [leaf, List.count_cons_self] at this
      rw [this, iteratedDeriv_succ']

private theorem Rep.val {n : ℕ} {x : Nd (n + 1)} {f : ℝ → ℝ} {τ : ℝ} (h : Rep (n + 1) x f τ) :
    Rep n (Dual.t (V := Nd n) x) f τ := h.1

private theorem Rep.cont {n : ℕ} {x : Nd (n + 1)} {f : ℝ → ℝ} {τ : ℝ} (h : Rep (n + 1) x f τ) : ContinuousAt f τ := by
  obtain ⟨-, f', h2, -⟩ := h
  exact h2.self_of_nhds.continuousAt

section ops
variable {n : ℕ} {x y : Nd n} {f g : ℝ → ℝ} {τ : ℝ}

private theorem rep_congr (h : Rep n x f τ) (e : f =ᶠ[𝓝 τ] g) : Rep n x g τ := by
  induction n generalizing f g with
  | zero => exact Eq.trans h e.self_of_nhds
  | succ n ih =>
    obtain ⟨h1, f', h2, h3⟩ := h
    refine ⟨ih h1 e, f', ?_, h3⟩
    filter_upwards [h2, e.eventuallyEq_nhds] with s hs he
    exact hs.congr_of_eventuallyEq he.symm

private theorem rep_assignS (c : ℝ) : Rep n ((ops n).assignS x c) (fun _ => c) τ ∧ Rep n ((ops n).setToZero x) (fun _ => 0) τ := by
  induction n generalizing c with
  | zero => exact ⟨rfl, rfl⟩
  | succ n ih =>
    exact ⟨⟨(ih c).1, fun _ => 0, .of_forall fun s => hasDerivAt_const s c, (ih 0).2⟩,
      ⟨(ih 0).2, fun _ => 0, .of_forall fun s => hasDerivAt_const s 0, (ih 0).2⟩⟩

private theorem rep_setToIdentity : Rep n ((ops n).setToIdentity x) (fun _ => 1) τ := by
  induction n with
  | zero => exact rfl
  | succ n ih => exact ⟨ih, fun _ => 0, .of_forall fun s => hasDerivAt_const s 1, (rep_assignS 0).2⟩

private theorem rep_add (hx : Rep n x f τ) (hy : Rep n y g τ) : Rep n ((ops n).add x y) (fun s => f s + g s) τ := by
  induction n generalizing f g with
  | zero => exact congrArg₂ (· + ·) hx hy
  | succ n ih =>
    obtain ⟨h1, f', h2, h3⟩ := hx
    obtain ⟨k1, g', k2, k3⟩ := hy
    exact ⟨ih h1 k1, fun s => f' s + g' s, by filter_upwards [h2, k2] with s a b using a.add b, ih h3 k3⟩

private theorem rep_sub (hx : Rep n x f τ) (hy : Rep n y g τ) : Rep n ((ops n).sub x y) (fun s => f s - g s) τ := by
  induction n generalizing f g with
  | zero => exact congrArg₂ (· - ·) hx hy
  | succ n ih =>
    obtain ⟨h1, f', h2, h3⟩ := hx
    obtain ⟨k1, g', k2, k3⟩ := hy
    exact ⟨ih h1 k1, fun s => f' s - g' s, by filter_upwards [h2, k2] with s a b using a.sub b, ih h3 k3⟩

private theorem rep_neg (hx : Rep n x f τ) : Rep n ((ops n).neg x) (fun s => -f s) τ := by
  induction n generalizing f with
  | zero => exact congrArg (fun a : ℝ => -a) hx
  | succ n ih =>
    obtain ⟨h1, f', h2, h3⟩ := hx
    exact ⟨ih h1, fun s => -f' s, by filter_upwards [h2] with s a using a.neg, ih h3⟩

private theorem rep_smul (c : ℝ) (hx : Rep n x f τ) :
    Rep n ((ops n).smul c x) (fun s => c * f s) τ ∧ Rep n ((ops n).muls x c) (fun s => f s * c) τ := by
  induction n generalizing f with
  | zero => exact ⟨congrArg (fun a : ℝ => c * a) hx, congrArg (fun a : ℝ => a * c) hx⟩
  | succ n ih =>
    obtain ⟨h1, f', h2, h3⟩ := hx
    exact ⟨⟨(ih h1).1, fun s => c * f' s, by filter_upwards [h2] with s a using a.const_mul c, (ih h3).1⟩,
      ⟨(ih h1).2, fun s => f' s * c, by filter_upwards [h2] with s a using a.mul_const c, (ih h3).2⟩⟩

private theorem rep_divs (c : ℝ) (hx : Rep n x f τ) : Rep n ((ops n).divs x c) (fun s => f s / c) τ := by
  induction n generalizing f with
  | zero => exact congrArg (fun a : ℝ => a / c) hx
  | succ n ih =>
    obtain ⟨h1, f', h2, h3⟩ := hx
    exact ⟨ih h1, fun s => f' s / c, by filter_upwards [h2] with s a using a.div_const c, ih h3⟩

private theorem rep_sadd (c : ℝ) (hx : Rep n x f τ) :
    Rep n ((ops n).sadd c x) (fun s => c + f s) τ ∧ Rep n ((ops n).adds x c) (fun s => f s + c) τ ∧
    Rep n ((ops n).ssub c x) (fun s => c - f s) τ ∧ Rep n ((ops n).subs x c) (fun s => f s - c) τ := by
  induction n generalizing f with
  | zero =>
    exact ⟨congrArg (fun a : ℝ => c + a) hx, congrArg (fun a : ℝ => a + c) hx, congrArg (fun a : ℝ => c - a) hx,
      congrArg (fun a : ℝ => a - c) hx⟩
  | succ n ih =>
    obtain ⟨h1, f', h2, h3⟩ := hx
    exact ⟨⟨(ih h1).1, f', by filter_upwards [h2] with s a using a.const_add c, h3⟩,
      ⟨(ih h1).2.1, f', by filter_upwards [h2] with s a using a.add_const c, h3⟩,
      ⟨(ih h1).2.2.1, fun s => -f' s, by filter_upwards [h2] with s a using a.const_sub c, rep_neg h3⟩,
      ⟨(ih h1).2.2.2, f', by filter_upwards [h2] with s a using a.sub_const c, h3⟩⟩

private theorem rep_mul (hx : Rep n x f τ) (hy : Rep n y g τ) : Rep n ((ops n).mul x y) (fun s => f s * g s) τ := by
  induction n generalizing f g with
  | zero => exact congrArg₂ (· * ·) hx hy
  | succ n ih =>
    obtain ⟨h1, f', h2, h3⟩ := hx
    obtain ⟨k1, g', k2, k3⟩ := hy
    refine ⟨ih h1 k1, fun s => g s * f' s + f s * g' s, ?_, rep_add (ih k1 h3) (ih h1 k3)⟩
    filter_upwards [h2, k2] with s a b
    exact (a.mul b).congr_deriv (by ring)

private theorem rep_sqr (hx : Rep n x f τ) : Rep n ((ops n).sqr x) (fun s => f s * f s) τ := by
  cases n with
  | zero => exact congrArg (fun a : ℝ => a * a) hx
  | succ n =>
    obtain ⟨h1, f', h2, h3⟩ := hx
    refine ⟨rep_mul h1 h1, fun s => 2 * f s * f' s, ?_, rep_mul (rep_smul 2 h1).1 h3⟩
    filter_upwards [h2] with s a
    exact (a.mul a).congr_deriv (by ring)

private theorem rep_div (hx : Rep n x f τ) (hy : Rep n y g τ) (h0 : g τ ≠ 0) :
    Rep n ((ops n).div x y) (fun s => f s / g s) τ := by
  induction n generalizing f g with
  | zero => exact congrArg₂ (· / ·) hx hy
  | succ n ih =>
    have hc := hy.cont.eventually_ne h0
    obtain ⟨h1, f', h2, h3⟩ := hx
    obtain ⟨k1, g', k2, k3⟩ := hy
    refine ⟨ih h1 k1 h0, fun s => (f' s * g s - f s * g' s) / (g s * g s), ?_,
      ih (rep_sub (rep_mul h3 k1) (rep_mul h1 k3)) (rep_mul k1 k1) (mul_ne_zero h0 h0)⟩
    filter_upwards [h2, k2, hc] with s a b c
    exact (a.div b c).congr_deriv (by rw [sq])

private theorem rep_sdiv (c : ℝ) (hy : Rep n y g τ) (h0 : g τ ≠ 0) :
    Rep n ((ops n).sdiv c y) (fun s => c / g s) τ := by
  induction n generalizing g with
  | zero => exact congrArg (fun a : ℝ => c / a) hy
  | succ n ih =>
    have hc := hy.cont.eventually_ne h0
    obtain ⟨k1, g', k2, k3⟩ := hy
    refine ⟨?_, fun s => (-c * g' s) / (g s * g s), ?_, rep_div (rep_smul (-c) k3).1 (rep_mul k1 k1) (mul_ne_zero h0 h0)⟩
    · exact ih k1 h0
    · filter_upwards [k2, hc] with s b e
      exact ((hasDerivAt_const s c).div b e).congr_deriv (by rw [sq]; ring)

private theorem rep_exp (hx : Rep n x f τ) : Rep n ((ops n).exp x) (fun s => Real.exp (f s)) τ := by
  induction n generalizing f with
  | zero => exact congrArg Real.exp hx
  | succ n ih =>
    obtain ⟨h1, f', h2, h3⟩ := hx
    exact ⟨ih h1, fun s => Real.exp (f s) * f' s, by filter_upwards [h2] with s a using a.exp, rep_mul (ih h1) h3⟩

private theorem rep_log (hx : Rep n x f τ) (h0 : f τ ≠ 0) : Rep n ((ops n).log x) (fun s => Real.log (f s)) τ := by
  induction n generalizing f with
  | zero => exact congrArg Real.log hx
  | succ n ih =>
    have hc := hx.cont.eventually_ne h0
    obtain ⟨h1, f', h2, h3⟩ := hx
    exact ⟨ih h1 h0, fun s => f' s / f s, by filter_upwards [h2, hc] with s a e using a.log e, rep_div h3 h1 h0⟩

private theorem rep_sincos (hx : Rep n x f τ) :
    Rep n ((ops n).sin x) (fun s => Real.sin (f s)) τ ∧ Rep n ((ops n).cos x) (fun s => Real.cos (f s)) τ := by
  induction n generalizing f with
  | zero => exact ⟨congrArg Real.sin hx, congrArg Real.cos hx⟩
  | succ n ih =>
    obtain ⟨h1, f', h2, h3⟩ := hx
    exact ⟨⟨(ih h1).1, fun s => Real.cos (f s) * f' s, by filter_upwards [h2] with s a using a.sin, rep_mul (ih h1).2 h3⟩,
      ⟨(ih h1).2, fun s => -Real.sin (f s) * f' s, by filter_upwards [h2] with s a using a.cos,
        rep_mul (rep_neg (ih h1).1) h3⟩⟩

private theorem rep_sinhcosh (hx : Rep n x f τ) :
    Rep n ((ops n).sinh x) (fun s => Real.sinh (f s)) τ ∧ Rep n ((ops n).cosh x) (fun s => Real.cosh (f s)) τ := by
  induction n generalizing f with
  | zero => exact ⟨congrArg Real.sinh hx, congrArg Real.cosh hx⟩
  | succ n ih =>
    obtain ⟨h1, f', h2, h3⟩ := hx
    exact ⟨⟨(ih h1).1, fun s => Real.cosh (f s) * f' s, by filter_upwards [h2] with s a using a.sinh, rep_mul (ih h1).2 h3⟩,
      ⟨(ih h1).2, fun s => Real.sinh (f s) * f' s, by filter_upwards [h2] with s a using a.cosh, rep_mul (ih h1).1 h3⟩⟩

private theorem rep_tan (hx : Rep n x f τ) (h0 : Real.cos (f τ) ≠ 0) :
    Rep n ((ops n).tan x) (fun s => Real.tan (f s)) τ := by
  induction n generalizing f with
  | zero => exact congrArg Real.tan hx
  | succ n ih =>
    have hc := (Real.continuous_cos.continuousAt.comp hx.cont).eventually_ne h0
    obtain ⟨h1, f', h2, h3⟩ := hx
    refine ⟨ih h1 h0, fun s => f' s / (Real.cos (f s) * Real.cos (f s)), ?_,
      rep_div h3 (rep_sqr (rep_sincos h1).2) (mul_ne_zero h0 h0)⟩
    filter_upwards [h2, hc] with s a e
    exact ((Real.hasDerivAt_tan e).comp s a).congr_deriv (by rw [sq]; ring)

private theorem rep_tanh (hx : Rep n x f τ) : Rep n ((ops n).tanh x) (fun s => Real.tanh (f s)) τ := by
  induction n generalizing f with
  | zero => exact congrArg Real.tanh hx
  | succ n ih =>
    obtain ⟨h1, f', h2, h3⟩ := hx
    have hp := (Real.cosh_pos (f τ)).ne'
    refine ⟨ih h1, fun s => f' s / (Real.cosh (f s) * Real.cosh (f s)), ?_,
      rep_div h3 (rep_sqr (rep_sinhcosh h1).2) (mul_ne_zero hp hp)⟩
    filter_upwards [h2] with s a
    have := (C16_tanh (x := ⟨f s, f' s⟩) ⟨rfl, a⟩).2
    exact this.congr_deriv (by simp only [Rall1d.tanh]; rw [sq])

private theorem rep_pow (m : ℝ) (hx : Rep n x f τ) (h0 : 0 < f τ) : Rep n ((ops n).pow x m) (fun s => f s ^ m) τ := by
  induction n generalizing f with
  | zero => exact congrArg (fun a : ℝ => a ^ m) hx
  | succ n ih =>
    have hc := hx.cont.eventually (lt_mem_nhds h0)
    obtain ⟨h1, f', h2, h3⟩ := hx
    refine ⟨ih h1 h0, fun s => m * f s ^ m / f s * f' s, ?_, rep_mul (rep_div (rep_smul m (ih h1 h0)).1 h1 h0.ne') h3⟩
    filter_upwards [h2, hc] with s a e
    exact (C16_pow m (x := ⟨f s, f' s⟩) ⟨rfl, a⟩ e).2

private theorem rep_sqrt (hx : Rep n x f τ) (h0 : 0 < f τ) : Rep n ((ops n).sqrt x) (fun s => Real.sqrt (f s)) τ := by
  induction n generalizing f with
  | zero => exact congrArg Real.sqrt hx
  | succ n ih =>
    have hc := hx.cont.eventually (lt_mem_nhds h0)
    obtain ⟨h1, f', h2, h3⟩ := hx
    refine ⟨ih h1 h0, fun s => 0.5 / Real.sqrt (f s) * f' s, ?_,
      rep_mul (rep_sdiv 0.5 (ih h1 h0) (Real.sqrt_pos.mpr h0).ne') h3⟩
    filter_upwards [h2, hc] with s a e
    exact (C16_sqrt (x := ⟨f s, f' s⟩) ⟨rfl, a⟩ e).2

private theorem rep_atan (hx : Rep n x f τ) : Rep n ((ops n).atan x) (fun s => Real.arctan (f s)) τ := by
  induction n generalizing f with
  | zero => exact congrArg Real.arctan hx
  | succ n ih =>
    obtain ⟨h1, f', h2, h3⟩ := hx
    have hp : (1 : ℝ) + f τ * f τ ≠ 0 := by nlinarith [mul_self_nonneg (f τ)]
    refine ⟨ih h1, fun s => f' s / (1 + f s * f s), ?_, rep_div h3 (rep_sadd 1 (rep_sqr h1)).1 hp⟩
    filter_upwards [h2] with s a
    exact (C16_atan (x := ⟨f s, f' s⟩) ⟨rfl, a⟩).2.congr_deriv (by simp only [Rall1d.atan]; rw [sq])

private theorem one_sub_pos {a : ℝ} (h : -1 < a ∧ a < 1) : 0 < 1 - a * a := by nlinarith [h.1, h.2]

private theorem rep_asin (hx : Rep n x f τ) (h0 : -1 < f τ ∧ f τ < 1) :
    Rep n ((ops n).asin x) (fun s => Real.arcsin (f s)) τ := by
  induction n generalizing f with
  | zero => exact congrArg Real.arcsin hx
  | succ n ih =>
    have hc := hx.cont.eventually (Ioo_mem_nhds h0.1 h0.2)
    obtain ⟨h1, f', h2, h3⟩ := hx
    refine ⟨ih h1 h0, fun s => f' s / Real.sqrt (1 - f s * f s), ?_,
      rep_div h3 (rep_sqrt (rep_sadd 1 (rep_sqr h1)).2.2.1 (one_sub_pos h0)) (Real.sqrt_pos.mpr (one_sub_pos h0)).ne'⟩
    filter_upwards [h2, hc] with s a e
    exact (C16_asin (x := ⟨f s, f' s⟩) ⟨rfl, a⟩ e).2.congr_deriv (by simp only [Rall1d.asin]; rw [sq])

private theorem rep_acos (hx : Rep n x f τ) (h0 : -1 < f τ ∧ f τ < 1) :
    Rep n ((ops n).acos x) (fun s => Real.arccos (f s)) τ := by
  induction n generalizing f with
  | zero => exact congrArg Real.arccos hx
  | succ n ih =>
    have hc := hx.cont.eventually (Ioo_mem_nhds h0.1 h0.2)
    obtain ⟨h1, f', h2, h3⟩ := hx
    refine ⟨ih h1 h0, fun s => -f' s / Real.sqrt (1 - f s * f s), ?_,
      rep_div (rep_neg h3) (rep_sqrt (rep_sadd 1 (rep_sqr h1)).2.2.1 (one_sub_pos h0)) (Real.sqrt_pos.mpr (one_sub_pos h0)).ne'⟩
    filter_upwards [h2, hc] with s a e
    exact (C16_acos (x := ⟨f s, f' s⟩) ⟨rfl, a⟩ e).2.congr_deriv (by simp only [Rall1d.acos]; rw [sq])

private theorem rep_hypot (hy : Rep n y g τ) (hx : Rep n x f τ) (h0 : g τ ^ 2 + f τ ^ 2 ≠ 0) :
    Rep n ((ops n).hypot y x) (fun s => Real.sqrt (g s ^ 2 + f s ^ 2)) τ := by
  induction n generalizing f g with
  | zero => exact congrArg₂ (fun a b : ℝ => Real.sqrt (a ^ 2 + b ^ 2)) hy hx
  | succ n ih =>
    have hc := ((hy.cont.pow 2).add (hx.cont.pow 2)).eventually_ne h0
    obtain ⟨h1, f', h2, h3⟩ := hx
    obtain ⟨k1, g', k2, k3⟩ := hy
    have hp : Real.sqrt (g τ ^ 2 + f τ ^ 2) ≠ 0 := by
      rw [Real.sqrt_ne_zero']; exact lt_of_le_of_ne (by positivity) (Ne.symm h0)
    have hv := ih k1 h1 h0
    refine ⟨hv, fun s => f s / Real.sqrt (g s ^ 2 + f s ^ 2) * f' s + g s / Real.sqrt (g s ^ 2 + f s ^ 2) * g' s, ?_,
      rep_add (rep_mul (rep_div h1 hv hp) h3) (rep_mul (rep_div k1 hv hp) k3)⟩
    filter_upwards [h2, k2, hc] with s a b e
    exact (C16_hypot (x := ⟨f s, f' s⟩) (y := ⟨g s, g' s⟩) ⟨rfl, a⟩ ⟨rfl, b⟩ e).2

private theorem rep_atan2 (hy : Rep n y g τ) (hx : Rep n x f τ) (h0 : 0 < f τ ∨ g τ ≠ 0) :
    Rep n ((ops n).atan2 y x) (fun s => KDL.atan2 (g s) (f s)) τ := by
  induction n generalizing f g with
  | zero => exact congrArg₂ (fun a b : ℝ => KDL.atan2 a b) hy hx
  | succ n ih =>
    have hc : ∀ᶠ s in 𝓝 τ, 0 < f s ∨ g s ≠ 0 := by
      rcases h0 with h | h
      · exact (hx.cont.eventually (lt_mem_nhds h)).mono fun _ => Or.inl
      · exact (hy.cont.eventually_ne h).mono fun _ => Or.inr
    obtain ⟨h1, f', h2, h3⟩ := hx
    obtain ⟨k1, g', k2, k3⟩ := hy
    have hp : f τ * f τ + g τ * g τ ≠ 0 := by
      rcases h0 with h | h
      · nlinarith [mul_self_nonneg (g τ), mul_pos h h]
      · nlinarith [mul_self_nonneg (f τ), mul_self_pos.mpr h]
    refine ⟨ih k1 h1 h0, fun s => (f s * g' s - g s * f' s) / (f s * f s + g s * g s), ?_,
      rep_div (rep_sub (rep_mul h1 k3) (rep_mul k1 h3)) (rep_add (rep_mul h1 h1) (rep_mul k1 k1)) hp⟩
    filter_upwards [h2, k2, hc] with s a b e
    exact hasDerivAt_atan2 a b e
end ops

/-! ## Nested dual numbers -/

section nested
variable {n : ℕ} {x y : Nd n} {f g : ℝ → ℝ} {τ : ℝ}

/-- The number built from a value and derivatives (rallNd.h:21–24, :34–37) holds exactly these. -/
theorem C82_construct (n : ℕ) (d : ℕ → ℝ) (p : List Bool) (hp : p.length = n) : leaf n (ofDerivs n d) p = d (p.count true) := by
  induction n generalizing d p with
  | zero => rw [List.length_eq_zero_iff.mp hp]; rfl
  | succ n ih =>
    match p, hp with
    | true :: p, hp =>
      simp only [List.count_cons_self]
      exact ih (fun k => d (k + 1)) p (by simpa using hp)
    | false :: p, hp =>
      rw [List.count_cons_of_ne (by decide)]
      exact ih d p (by simpa using hp)

/-- A number is given by what it holds. -/
theorem C82_unique (h : ∀ p : List Bool, p.length = n → leaf n x p = leaf n y p) : x = y := by
  induction n with
  | zero => exact h [] rfl
  | succ n ih =>
    exact Dual.ext (ih fun p hp => h (false :: p) (by simpa using hp)) (ih fun p hp => h (true :: p) (by simpa using hp))

/-- Constants: assignment of a scalar, `SetToZero`, `SetToIdentity`. -/
theorem C82_const (c : ℝ) : HoldsDerivs n ((ops n).assignS x c) (fun _ => c) τ ∧ HoldsDerivs n ((ops n).setToZero x) (fun _ => 0) τ ∧
    HoldsDerivs n ((ops n).setToIdentity x) (fun _ => 1) τ :=
  ⟨(rep_assignS c).1.holds, (rep_assignS 0).2.holds, rep_setToIdentity.holds⟩

/-- The constructor from a value takes it as a constant of the last level of nesting. -/
theorem C82_ofVal (hf : ContDiffAt ℝ n f τ) (hx : HoldsDerivs n x f τ) (p : List Bool) (hp : p.length = n) :
    leaf (n + 1) (ofVal (ops n).self x : Dual (Nd n) (Nd n)) (false :: p) = iteratedDeriv (p.count true) f τ ∧
    leaf (n + 1) (ofVal (ops n).self x : Dual (Nd n) (Nd n)) (true :: p) = 0 := by
  refine ⟨hx p hp, ?_⟩
  have := (rep_assignS (x := (ops n).self.default) (τ := τ) 0).2.holds p hp
  refine Eq.trans this ?_
  rcases Nat.eq_zero_or_pos (p.count true) with h | h
  · rw [h, iteratedDeriv_zero]
  · rw [iteratedDeriv_fun_const_zero]

theorem C82_add (hf : ContDiffAt ℝ n f τ) (hg : ContDiffAt ℝ n g τ) (hx : HoldsDerivs n x f τ) (hy : HoldsDerivs n y g τ) :
    HoldsDerivs n ((ops n).add x y) (fun s => f s + g s) τ := (rep_add (hx.rep hf) (hy.rep hg)).holds
theorem C82_sub (hf : ContDiffAt ℝ n f τ) (hg : ContDiffAt ℝ n g τ) (hx : HoldsDerivs n x f τ) (hy : HoldsDerivs n y g τ) :
    HoldsDerivs n ((ops n).sub x y) (fun s => f s - g s) τ := (rep_sub (hx.rep hf) (hy.rep hg)).holds
theorem C82_mul (hf : ContDiffAt ℝ n f τ) (hg : ContDiffAt ℝ n g τ) (hx : HoldsDerivs n x f τ) (hy : HoldsDerivs n y g τ) :
    HoldsDerivs n ((ops n).mul x y) (fun s => f s * g s) τ := (rep_mul (hx.rep hf) (hy.rep hg)).holds
theorem C82_div (hf : ContDiffAt ℝ n f τ) (hg : ContDiffAt ℝ n g τ) (hx : HoldsDerivs n x f τ) (hy : HoldsDerivs n y g τ) (h0 : g τ ≠ 0) :
    HoldsDerivs n ((ops n).div x y) (fun s => f s / g s) τ := (rep_div (hx.rep hf) (hy.rep hg) h0).holds
theorem C82_neg (hf : ContDiffAt ℝ n f τ) (hx : HoldsDerivs n x f τ) :
    HoldsDerivs n ((ops n).neg x) (fun s => -f s) τ := (rep_neg (hx.rep hf)).holds

/-- Operators with a scalar. -/
theorem C82_scalar (c : ℝ) (hf : ContDiffAt ℝ n f τ) (hx : HoldsDerivs n x f τ) :
    HoldsDerivs n ((ops n).smul c x) (fun s => c * f s) τ ∧ HoldsDerivs n ((ops n).muls x c) (fun s => f s * c) τ ∧
    HoldsDerivs n ((ops n).sadd c x) (fun s => c + f s) τ ∧ HoldsDerivs n ((ops n).adds x c) (fun s => f s + c) τ ∧
    HoldsDerivs n ((ops n).ssub c x) (fun s => c - f s) τ ∧ HoldsDerivs n ((ops n).subs x c) (fun s => f s - c) τ ∧
    HoldsDerivs n ((ops n).divs x c) (fun s => f s / c) τ ∧ (f τ ≠ 0 → HoldsDerivs n ((ops n).sdiv c x) (fun s => c / f s) τ) :=
  have h := hx.rep hf
  ⟨(rep_smul c h).1.holds, (rep_smul c h).2.holds, (rep_sadd c h).1.holds, (rep_sadd c h).2.1.holds,
    (rep_sadd c h).2.2.1.holds, (rep_sadd c h).2.2.2.holds, (rep_divs c h).holds, fun h0 => (rep_sdiv c h h0).holds⟩

/-- The operators that assign give the result of the binary ones. -/
theorem C82_inplace (n : ℕ) (x y : Nd n) (c : ℝ) :
    (ops n).addAssign x y = (ops n).add x y ∧ (ops n).subAssign x y = (ops n).sub x y ∧
    (ops n).mulAssignS x c = (ops n).muls x c ∧ (ops n).divAssignS x c = (ops n).divs x c ∧
    (ops n).addAssignS x c = (ops n).adds x c ∧ (ops n).subAssignS x c = (ops n).subs x c := by
  induction n with
  | zero => exact ⟨rfl, rfl, rfl, rfl, rfl, rfl⟩
  | succ n ih =>
    have h1 := ih (Dual.t (V := Nd n) x) (Dual.t (V := Nd n) y)
    have h2 := ih (Dual.grad (T := Nd n) x) (Dual.grad (T := Nd n) y)
    exact ⟨Dual.ext h1.1 h2.1, Dual.ext h1.2.1 h2.2.1, Dual.ext h1.2.2.1 h2.2.2.1, Dual.ext h1.2.2.2.1 h2.2.2.2.1,
      Dual.ext h1.2.2.2.2.1 rfl, Dual.ext h1.2.2.2.2.2 rfl⟩

theorem C82_exp (hf : ContDiffAt ℝ n f τ) (hx : HoldsDerivs n x f τ) :
    HoldsDerivs n ((ops n).exp x) (fun s => Real.exp (f s)) τ := (rep_exp (hx.rep hf)).holds
theorem C82_log (hf : ContDiffAt ℝ n f τ) (hx : HoldsDerivs n x f τ) (h0 : f τ ≠ 0) :
    HoldsDerivs n ((ops n).log x) (fun s => Real.log (f s)) τ := (rep_log (hx.rep hf) h0).holds
theorem C82_sin (hf : ContDiffAt ℝ n f τ) (hx : HoldsDerivs n x f τ) :
    HoldsDerivs n ((ops n).sin x) (fun s => Real.sin (f s)) τ := (rep_sincos (hx.rep hf)).1.holds
theorem C82_cos (hf : ContDiffAt ℝ n f τ) (hx : HoldsDerivs n x f τ) :
    HoldsDerivs n ((ops n).cos x) (fun s => Real.cos (f s)) τ := (rep_sincos (hx.rep hf)).2.holds
theorem C82_tan (hf : ContDiffAt ℝ n f τ) (hx : HoldsDerivs n x f τ) (h0 : Real.cos (f τ) ≠ 0) :
    HoldsDerivs n ((ops n).tan x) (fun s => Real.tan (f s)) τ := (rep_tan (hx.rep hf) h0).holds
theorem C82_sinh (hf : ContDiffAt ℝ n f τ) (hx : HoldsDerivs n x f τ) :
    HoldsDerivs n ((ops n).sinh x) (fun s => Real.sinh (f s)) τ := (rep_sinhcosh (hx.rep hf)).1.holds
theorem C82_cosh (hf : ContDiffAt ℝ n f τ) (hx : HoldsDerivs n x f τ) :
    HoldsDerivs n ((ops n).cosh x) (fun s => Real.cosh (f s)) τ := (rep_sinhcosh (hx.rep hf)).2.holds
theorem C82_tanh (hf : ContDiffAt ℝ n f τ) (hx : HoldsDerivs n x f τ) :
    HoldsDerivs n ((ops n).tanh x) (fun s => Real.tanh (f s)) τ := (rep_tanh (hx.rep hf)).holds
theorem C82_sqr (hf : ContDiffAt ℝ n f τ) (hx : HoldsDerivs n x f τ) : HoldsDerivs n ((ops n).sqr x) (fun s => f s ^ 2) τ := by
  simp only [sq]; exact (rep_sqr (hx.rep hf)).holds
theorem C82_pow (m : ℝ) (hf : ContDiffAt ℝ n f τ) (hx : HoldsDerivs n x f τ) (h0 : 0 < f τ) :
    HoldsDerivs n ((ops n).pow x m) (fun s => f s ^ m) τ := (rep_pow m (hx.rep hf) h0).holds
theorem C82_sqrt (hf : ContDiffAt ℝ n f τ) (hx : HoldsDerivs n x f τ) (h0 : 0 < f τ) :
    HoldsDerivs n ((ops n).sqrt x) (fun s => Real.sqrt (f s)) τ := (rep_sqrt (hx.rep hf) h0).holds
theorem C82_atan (hf : ContDiffAt ℝ n f τ) (hx : HoldsDerivs n x f τ) :
    HoldsDerivs n ((ops n).atan x) (fun s => Real.arctan (f s)) τ := (rep_atan (hx.rep hf)).holds
theorem C82_asin (hf : ContDiffAt ℝ n f τ) (hx : HoldsDerivs n x f τ) (h0 : -1 < f τ ∧ f τ < 1) :
    HoldsDerivs n ((ops n).asin x) (fun s => Real.arcsin (f s)) τ := (rep_asin (hx.rep hf) h0).holds
theorem C82_acos (hf : ContDiffAt ℝ n f τ) (hx : HoldsDerivs n x f τ) (h0 : -1 < f τ ∧ f τ < 1) :
    HoldsDerivs n ((ops n).acos x) (fun s => Real.arccos (f s)) τ := (rep_acos (hx.rep hf) h0).holds
theorem C82_hypot (hf : ContDiffAt ℝ n f τ) (hg : ContDiffAt ℝ n g τ) (hx : HoldsDerivs n x f τ) (hy : HoldsDerivs n y g τ) (h0 : f τ ^ 2 + g τ ^ 2 ≠ 0) :
    HoldsDerivs n ((ops n).hypot x y) (fun s => Real.sqrt (f s ^ 2 + g s ^ 2)) τ := (rep_hypot (hx.rep hf) (hy.rep hg) h0).holds
/-- The first argument of `atan2` is the `y` coordinate. -/
theorem C82_atan2 (hf : ContDiffAt ℝ n f τ) (hg : ContDiffAt ℝ n g τ) (hx : HoldsDerivs n x f τ) (hy : HoldsDerivs n y g τ) (h0 : 0 < g τ ∨ f τ ≠ 0) :
    HoldsDerivs n ((ops n).atan2 x y) (fun s => KDL.atan2 (f s) (g s)) τ := (rep_atan2 (hx.rep hf) (hy.rep hg) h0).holds

/-- `Norm` is the absolute value of the value. -/
theorem C82_norm (hx : HoldsDerivs n x f τ) : (ops n).norm x = |f τ| := by
  have h := hx (List.replicate n false) List.length_replicate
  rw [List.count_replicate, if_neg (by decide), iteratedDeriv_zero] at h
  rw [← h]
  clear h hx
  induction n with
  | zero => rfl
  | succ n ih => exact ih

/-- `Equal` compares every number held. -/
theorem C82_equal (n : ℕ) (x y : Nd n) (eps : ℝ) :
    (ops n).equal x y eps ↔ ∀ p : List Bool, p.length = n → |leaf n x p - leaf n y p| < eps := by
  induction n with
  | zero =>
    constructor
    · intro h p _; exact (C15_scalar x y eps).mp h
    · intro h; exact (C15_scalar x y eps).mpr (h [] rfl)
  | succ n ih =>
    constructor
    · intro h p hp
      rw [abs_sub_comm]
      match p, hp with
      | true :: p, hp => exact (ih _ _).mp h.2 p (by simpa using hp)
      | false :: p, hp => exact (ih _ _).mp h.1 p (by simpa using hp)
    · intro h
      exact ⟨(ih _ _).mpr fun p hp => by rw [abs_sub_comm]; exact h (false :: p) (by simpa using hp),
        (ih _ _).mpr fun p hp => by rw [abs_sub_comm]; exact h (true :: p) (by simpa using hp)⟩

/-- The first level is `Rall1d<double>`. -/
theorem C82_first (x y : Rall1d) : (ops 1).mul (⟨x.t, x.grad⟩ : Dual ℝ ℝ) (⟨y.t, y.grad⟩ : Dual ℝ ℝ) =
    (⟨(x.mul y).t, (x.mul y).grad⟩ : Dual ℝ ℝ) := rfl
end nested

/-- The third derivative of `exp (sin s)` at `0` through three levels of nesting. -/
example : HoldsDerivs 3 ((ops 3).exp ((ops 3).sin (ofDerivs 3 fun k => if k = 0 then 0 else if k = 1 then 1 else 0)))
    (fun s => Real.exp (Real.sin s)) 0 := by
  have hid : HoldsDerivs 3 (ofDerivs 3 fun k => if k = 0 then 0 else if k = 1 then 1 else 0) (fun s => s) 0 := by
    intro p hp
    rw [C82_construct 3 _ p hp]
    rcases p.count true with _ | _ | k
    · simp
    · simp [iteratedDeriv_one]
    · rw [iteratedDeriv_succ', iteratedDeriv_succ']
      simp
  exact C82_exp Real.contDiff_sin.contDiffAt (C82_sin contDiffAt_id hid)

/-! ## Gradients in a vector -/

/-- `x` holds the value and the gradient of `F` at `p`. -/
def HoldsGrad {N : ℕ} (x : Dual ℝ (Fin N → ℝ)) (F : (Fin N → ℝ) → ℝ) (p : Fin N → ℝ) : Prop :=
  x.t = F p ∧ HasFDerivAt F (∑ i, x.grad i • ContinuousLinearMap.proj (R := ℝ) (φ := fun _ : Fin N => ℝ) i) p

section gradient
variable {N : ℕ} {x y : Dual ℝ (Fin N → ℝ)} {F G : (Fin N → ℝ) → ℝ} {p : Fin N → ℝ}

/-- The operations on `Rall1d<double, V>` with a vector `V`. -/
local notation "gops" => dualOps realOps (vecOps N)

private abbrev lin (v : Fin N → ℝ) : (Fin N → ℝ) →L[ℝ] ℝ :=
  ∑ i, v i • ContinuousLinearMap.proj (R := ℝ) (φ := fun _ : Fin N => ℝ) i

private theorem lin_apply (v u : Fin N → ℝ) : lin v u = ∑ i, v i * u i := by
  simp [lin, ContinuousLinearMap.sum_apply]

private theorem grad_comp {φ : ℝ → ℝ} {v : Fin N → ℝ} (φ' : ℝ) (hx : HoldsGrad x F p) (hφ : HasDerivAt φ φ' x.t)
    (hv : ∀ i, v i = φ' * x.grad i) : HoldsGrad ⟨φ x.t, v⟩ (fun q => φ (F q)) p := by
  refine ⟨congrArg φ hx.1, ?_⟩
  rw [hx.1] at hφ
  refine (hφ.comp_hasFDerivAt p hx.2).congr_fderiv ?_
  ext u
  rw [ContinuousLinearMap.smul_apply, smul_eq_mul]
  erw [lin_apply, lin_apply]
  rw [Finset.mul_sum]
  exact Finset.sum_congr rfl fun i _ => by simp only [hv]; ring

private theorem grad_congr {v w : Fin N → ℝ} {t : ℝ} (h : HoldsGrad ⟨t, v⟩ F p) (e : ∀ i, w i = v i) :
    HoldsGrad ⟨t, w⟩ F p := by rw [show w = v from funext e]; exact h

/-- An independent variable holds a unit vector. -/
theorem C82_grad_var (p : Fin N → ℝ) (i : Fin N) :
    HoldsGrad ⟨p i, fun j => if j = i then 1 else 0⟩ (fun q => q i) p := by
  refine ⟨rfl, ?_⟩
  have h := (ContinuousLinearMap.proj (R := ℝ) (φ := fun _ : Fin N => ℝ) i).hasFDerivAt (x := p)
  refine h.congr_fderiv ?_
  ext u
  erw [lin_apply]
  simp

theorem C82_grad_const (c : ℝ) : HoldsGrad (ofVal (vecOps N) c) (fun _ => c) p ∧ HoldsGrad ((gops).assignS x c) (fun _ => c) p ∧
    HoldsGrad ((gops).setToZero x) (fun _ => 0) p ∧ HoldsGrad ((gops).setToIdentity x) (fun _ => 1) p := by
  have key : ∀ c : ℝ, HoldsGrad ⟨c, fun _ : Fin N => 0⟩ (fun _ => c) p := by
    intro c
    refine ⟨rfl, (hasFDerivAt_const c p).congr_fderiv ?_⟩
    ext u
    erw [lin_apply]
    simp
  exact ⟨key c, key c, key 0, key 1⟩

theorem C82_grad_add (hx : HoldsGrad x F p) (hy : HoldsGrad y G p) : HoldsGrad ((gops).add x y) (fun q => F q + G q) p := by
  refine ⟨congrArg₂ (· + ·) hx.1 hy.1, (hx.2.add hy.2).congr_fderiv ?_⟩
  rw [← Finset.sum_add_distrib]
  exact Finset.sum_congr rfl fun i _ => (add_smul _ _ _).symm

theorem C82_grad_neg (hx : HoldsGrad x F p) : HoldsGrad ((gops).neg x) (fun q => -F q) p :=
  grad_comp (φ := fun a => -a) (-1) hx (hasDerivAt_neg x.t) fun i => by simp [vecOps]

theorem C82_grad_sub (hx : HoldsGrad x F p) (hy : HoldsGrad y G p) : HoldsGrad ((gops).sub x y) (fun q => F q - G q) p := by
  have := C82_grad_add hx (C82_grad_neg hy)
  simp only [← sub_eq_add_neg] at this
  exact ⟨by rw [← this.1]; exact sub_eq_add_neg _ _, this.2.congr_fderiv (Finset.sum_congr rfl fun i _ => by
    congr 1)⟩

theorem C82_grad_mul (hx : HoldsGrad x F p) (hy : HoldsGrad y G p) : HoldsGrad ((gops).mul x y) (fun q => F q * G q) p := by
  refine ⟨congrArg₂ (· * ·) hx.1 hy.1, (hx.2.mul hy.2).congr_fderiv ?_⟩
  rw [← hx.1, ← hy.1]
  ext u
  rw [ContinuousLinearMap.add_apply, ContinuousLinearMap.smul_apply, ContinuousLinearMap.smul_apply, smul_eq_mul, smul_eq_mul]
  erw [lin_apply, lin_apply, lin_apply]
  rw [Finset.mul_sum, Finset.mul_sum, ← Finset.sum_add_distrib]
  exact Finset.sum_congr rfl fun i _ => by simp only [dualOps, vecOps]; ring

/-- The gradient of `F / G`. -/
theorem C82_grad_div (hx : HoldsGrad x F p) (hy : HoldsGrad y G p) (h0 : G p ≠ 0) :
    HoldsGrad ((gops).div x y) (fun q => F q / G q) p := by
  have h1 : y.t ≠ 0 := by rw [hy.1]; exact h0
  have hi := grad_comp (φ := fun a => a⁻¹) (v := fun i => -(y.t ^ 2)⁻¹ * y.grad i) _ hy (hasDerivAt_inv h1) fun i => rfl
  have := C82_grad_mul hx hi
  simp only [← div_eq_mul_inv] at this
  refine ⟨?_, this.2.congr_fderiv (Finset.sum_congr rfl fun i _ => ?_)⟩
  · rw [← this.1]; exact div_eq_mul_inv _ _
  · congr 1
    simp only [dualOps, vecOps, realOps]
    field_simp
    exact (sub_eq_add_neg _ _).symm

/-- Operators with a scalar. -/
theorem C82_grad_scalar (c : ℝ) (hx : HoldsGrad x F p) :
    HoldsGrad ((gops).smul c x) (fun q => c * F q) p ∧ HoldsGrad ((gops).muls x c) (fun q => F q * c) p ∧
    HoldsGrad ((gops).sadd c x) (fun q => c + F q) p ∧ HoldsGrad ((gops).adds x c) (fun q => F q + c) p ∧
    HoldsGrad ((gops).ssub c x) (fun q => c - F q) p ∧ HoldsGrad ((gops).subs x c) (fun q => F q - c) p ∧
    HoldsGrad ((gops).divs x c) (fun q => F q / c) p ∧ (F p ≠ 0 → HoldsGrad ((gops).sdiv c x) (fun q => c / F q) p) := by
  have hid := hasDerivAt_id x.t
  refine ⟨grad_comp (φ := fun a => c * a) (c * 1) hx (hid.const_mul c) fun i => by simp [vecOps],
    grad_comp (φ := fun a => a * c) (1 * c) hx (hid.mul_const c) fun i => by simp [vecOps, mul_comm],
    grad_comp (φ := fun a => c + a) 1 hx (hid.const_add c) fun i => by simp,
    grad_comp (φ := fun a => a + c) 1 hx (hid.add_const c) fun i => by simp,
    grad_comp (φ := fun a => c - a) (-1) hx (hid.const_sub c) fun i => by simp [vecOps],
    grad_comp (φ := fun a => a - c) 1 hx (hid.sub_const c) fun i => by simp,
    grad_comp (φ := fun a => a / c) (1 / c) hx (hid.div_const c) fun i => by simp [vecOps]; ring, fun h0 => ?_⟩
  have h1 : x.t ≠ 0 := by rw [hx.1]; exact h0
  refine grad_comp (φ := fun a => c / a) _ hx ((hasDerivAt_const x.t c).div hid h1) fun i => ?_
  simp only [vecOps, realOps, id]
  ring

theorem C82_grad_exp (hx : HoldsGrad x F p) : HoldsGrad ((gops).exp x) (fun q => Real.exp (F q)) p :=
  grad_comp _ hx (Real.hasDerivAt_exp x.t) fun i => by simp only [vecOps, realOps, sq]
theorem C82_grad_log (hx : HoldsGrad x F p) (h0 : F p ≠ 0) : HoldsGrad ((gops).log x) (fun q => Real.log (F q)) p :=
  grad_comp _ hx (Real.hasDerivAt_log (by rw [hx.1]; exact h0)) fun i => by simp only [vecOps, realOps, sq]; ring
theorem C82_grad_sin (hx : HoldsGrad x F p) : HoldsGrad ((gops).sin x) (fun q => Real.sin (F q)) p :=
  grad_comp _ hx (Real.hasDerivAt_sin x.t) fun i => by simp only [vecOps, realOps, sq]
theorem C82_grad_cos (hx : HoldsGrad x F p) : HoldsGrad ((gops).cos x) (fun q => Real.cos (F q)) p :=
  grad_comp _ hx (Real.hasDerivAt_cos x.t) fun i => by simp only [vecOps, realOps, sq]
theorem C82_grad_tan (hx : HoldsGrad x F p) (h0 : Real.cos (F p) ≠ 0) : HoldsGrad ((gops).tan x) (fun q => Real.tan (F q)) p :=
  grad_comp _ hx (Real.hasDerivAt_tan (by rw [hx.1]; exact h0)) fun i => by simp only [vecOps, realOps, sq]; ring
theorem C82_grad_sinh (hx : HoldsGrad x F p) : HoldsGrad ((gops).sinh x) (fun q => Real.sinh (F q)) p :=
  grad_comp _ hx (Real.hasDerivAt_sinh x.t) fun i => by simp only [vecOps, realOps, sq]
theorem C82_grad_cosh (hx : HoldsGrad x F p) : HoldsGrad ((gops).cosh x) (fun q => Real.cosh (F q)) p :=
  grad_comp _ hx (Real.hasDerivAt_cosh x.t) fun i => by simp only [vecOps, realOps, sq]
theorem C82_grad_sqrt (hx : HoldsGrad x F p) (h0 : 0 < F p) : HoldsGrad ((gops).sqrt x) (fun q => Real.sqrt (F q)) p :=
  grad_comp _ hx (Real.hasDerivAt_sqrt (by rw [hx.1]; exact h0.ne')) fun i => by simp only [vecOps, realOps, sq]; ring
theorem C82_grad_atan (hx : HoldsGrad x F p) : HoldsGrad ((gops).atan x) (fun q => Real.arctan (F q)) p :=
  grad_comp _ hx (Real.hasDerivAt_arctan x.t) fun i => by simp only [vecOps, realOps, sq]; ring
theorem C82_grad_asin (hx : HoldsGrad x F p) (h0 : -1 < F p ∧ F p < 1) : HoldsGrad ((gops).asin x) (fun q => Real.arcsin (F q)) p :=
  grad_comp _ hx (Real.hasDerivAt_arcsin (by rw [hx.1]; exact h0.1.ne') (by rw [hx.1]; exact h0.2.ne)) fun i => by simp only [vecOps, realOps, sq]; ring
theorem C82_grad_acos (hx : HoldsGrad x F p) (h0 : -1 < F p ∧ F p < 1) : HoldsGrad ((gops).acos x) (fun q => Real.arccos (F q)) p :=
  grad_comp _ hx (Real.hasDerivAt_arccos (by rw [hx.1]; exact h0.1.ne') (by rw [hx.1]; exact h0.2.ne)) fun i => by simp only [vecOps, realOps, sq]; ring
theorem C82_grad_tanh (hx : HoldsGrad x F p) : HoldsGrad ((gops).tanh x) (fun q => Real.tanh (F q)) p :=
  grad_comp (φ := Real.tanh) _ hx (C16_tanh (x := ⟨x.t, 1⟩) ⟨rfl, hasDerivAt_id x.t⟩).2 fun i => by
    simp only [vecOps, realOps, Rall1d.tanh, sq]; ring
theorem C82_grad_sqr (hx : HoldsGrad x F p) : HoldsGrad ((gops).sqr x) (fun q => F q ^ 2) p := by
  have := grad_comp (v := ((gops).sqr x).grad) _ hx (hasDerivAt_pow 2 x.t) fun i => by simp [dualOps, vecOps, realOps]
  exact ⟨by rw [← this.1]; exact (sq x.t).symm, this.2⟩
theorem C82_grad_pow (m : ℝ) (hx : HoldsGrad x F p) (h0 : 0 < F p) : HoldsGrad ((gops).pow x m) (fun q => F q ^ m) p :=
  grad_comp (φ := fun a => a ^ m) _ hx (C16_pow m (x := ⟨x.t, 1⟩) ⟨rfl, hasDerivAt_id x.t⟩ (by rw [hx.1]; exact h0)).2
    fun i => by simp only [vecOps, realOps, Rall1d.pow]; ring

theorem C82_grad_hypot (hy : HoldsGrad y G p) (hx : HoldsGrad x F p) (h0 : G p ^ 2 + F p ^ 2 ≠ 0) :
    HoldsGrad ((gops).hypot y x) (fun q => Real.sqrt (G q ^ 2 + F q ^ 2)) p := by
  have hs := C82_grad_add (C82_grad_sqr hy) (C82_grad_sqr hx)
  have := C82_grad_sqrt hs (lt_of_le_of_ne (by positivity) (Ne.symm h0))
  refine ⟨?_, this.2.congr_fderiv (Finset.sum_congr rfl fun i _ => ?_)⟩
  · simp only [dualOps, realOps, hx.1, hy.1]
  · congr 1
    simp only [dualOps, vecOps, realOps, ← sq]
    ring

/-- The gradient of `atan2 (G, F)` with the `y` coordinate `G` first. -/
theorem C82_grad_atan2 (hy : HoldsGrad y G p) (hx : HoldsGrad x F p) (h0 : 0 < F p ∨ G p ≠ 0) :
    HoldsGrad ((gops).atan2 y x) (fun q => KDL.atan2 (G q) (F q)) p := by
  refine ⟨congrArg₂ KDL.atan2 hy.1 hx.1, ?_⟩
  have hd : DifferentiableAt ℝ (fun q => KDL.atan2 (G q) (F q)) p := by
    have hmem : ((F p : ℂ) + (G p : ℂ) * Complex.I) ∈ Complex.slitPlane := by
      rw [Complex.mem_slitPlane_iff]; simpa using h0
    have hz : DifferentiableAt ℝ (fun q => ((F q : ℂ) + (G q : ℂ) * Complex.I)) p :=
      (Complex.ofRealCLM.differentiableAt.comp p hx.2.differentiableAt).add
        ((Complex.ofRealCLM.differentiableAt.comp p hy.2.differentiableAt).mul_const Complex.I)
    have hl := ((Complex.hasStrictFDerivAt_log_real hmem).hasFDerivAt.differentiableAt).comp p hz
    have hi := Complex.imCLM.differentiableAt.comp p hl
    have e : (fun q => KDL.atan2 (G q) (F q)) = Complex.imCLM ∘ Complex.log ∘ fun q => ((F q : ℂ) + (G q : ℂ) * Complex.I) := by
      funext q
      simp only [Function.comp, Complex.imCLM_apply, Complex.log_im, KDL.atan2]
      congr 1
      apply Complex.ext <;> simp
    rw [e]; exact hi
  refine hd.hasFDerivAt.congr_fderiv ?_
  ext u
  have hl : HasDerivAt (fun s : ℝ => p + s • u) u 0 := by
    simpa using ((hasDerivAt_id (0 : ℝ)).smul_const u).const_add p
  have hp0 : p + (0 : ℝ) • u = p := by simp
  have h1 : HasDerivAt (fun s : ℝ => KDL.atan2 (G (p + s • u)) (F (p + s • u))) _ 0 :=
    HasFDerivAt.comp_hasDerivAt (l := fun q => KDL.atan2 (G q) (F q)) (f := fun s : ℝ => p + s • u) 0
      (show HasFDerivAt (fun q => KDL.atan2 (G q) (F q)) (fderiv ℝ (fun q => KDL.atan2 (G q) (F q)) p) (p + (0 : ℝ) • u) from by
        rw [hp0]; exact hd.hasFDerivAt) hl
  have hF : HasDerivAt (fun s : ℝ => F (p + s • u)) _ 0 :=
    (show HasFDerivAt F _ (p + (0 : ℝ) • u) from by rw [hp0]; exact hx.2).comp_hasDerivAt 0 hl
  have hG : HasDerivAt (fun s : ℝ => G (p + s • u)) _ 0 :=
    (show HasFDerivAt G _ (p + (0 : ℝ) • u) from by rw [hp0]; exact hy.2).comp_hasDerivAt 0 hl
  have h2 := hasDerivAt_atan2 hF hG (by rw [hp0]; exact h0)
  rw [h1.unique h2]
  rw [hp0, ← hx.1, ← hy.1]
  erw [lin_apply, lin_apply, lin_apply]
  rw [Finset.mul_sum, Finset.mul_sum, ← Finset.sum_sub_distrib, div_eq_mul_inv, Finset.sum_mul]
  exact Finset.sum_congr rfl fun i _ => by simp only [dualOps, vecOps, realOps]; ring

/-- The operators that assign give the result of the binary ones. -/
theorem C82_grad_inplace (x y : Dual ℝ (Fin N → ℝ)) (c : ℝ) :
    (gops).addAssign x y = (gops).add x y ∧ (gops).subAssign x y = (gops).sub x y ∧
    (gops).mulAssignS x c = (gops).muls x c ∧ (gops).divAssignS x c = (gops).divs x c ∧
    (gops).addAssignS x c = (gops).adds x c ∧ (gops).subAssignS x c = (gops).subs x c := ⟨rfl, rfl, rfl, rfl, rfl, rfl⟩

/-- `Equal` compares the value and every entry of the gradient, `Norm` is the absolute value of the value. -/
theorem C82_grad_equal (x y : Dual ℝ (Fin N → ℝ)) (eps : ℝ) :
    ((gops).equal x y eps ↔ |x.t - y.t| < eps ∧ ∀ i, |x.grad i - y.grad i| < eps) ∧ (gops).norm x = |x.t| := by
  refine ⟨?_, rfl⟩
  simp only [dualOps, realOps, vecOps, C15_scalar, abs_sub_comm y.t, abs_sub_comm (y.grad _)]
end gradient

/-- The gradient of `sqrt (x² + y²)` at `(3, 4)`. -/
example : HoldsGrad ((dualOps realOps (vecOps 2)).hypot ⟨3, fun j => if j = 0 then 1 else 0⟩ ⟨4, fun j => if j = 1 then 1 else 0⟩)
    (fun q => Real.sqrt (q 0 ^ 2 + q 1 ^ 2)) ![3, 4] := by
  have h0 := C82_grad_var ![(3 : ℝ), 4] 0
  have h1 := C82_grad_var ![(3 : ℝ), 4] 1
  exact C82_grad_hypot h0 h1 (by simp; norm_num)
end KDL
