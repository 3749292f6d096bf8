import Verif.Model.RallOps
import Verif.Props.DualNumbers
import Verif.Props.Equal

/-! C15, C16, C17 for the remaining members of the automatic differentiation types: scalar in-place operators, linear
combinations, constants, comparisons, and in-place operators whose right-hand side is the object itself. -/

namespace KDL

section first
variable {x y : Rall1d} {f g : ℝ → ℝ} {τ : ℝ}

/-- The constants, and assignment of a number: the derivative is zero whatever the object held before. -/
theorem C16_constants (x : Rall1d) (c : ℝ) :
    (x.assignS c).Rep (fun _ => c) τ ∧ x.setToZero.Rep (fun _ => 0) τ ∧ x.setToIdentity.Rep (fun _ => 1) τ ∧
    Rall1d.zero.Rep (fun _ => 0) τ ∧ Rall1d.identity.Rep (fun _ => 1) τ :=
  ⟨⟨rfl, hasDerivAt_const τ c⟩, ⟨rfl, hasDerivAt_const τ 0⟩, ⟨rfl, hasDerivAt_const τ 1⟩,
   ⟨rfl, hasDerivAt_const τ 0⟩, ⟨rfl, hasDerivAt_const τ 1⟩⟩

/-- In-place operators with a number on the right. -/
theorem C16_inplace_scalar (s : ℝ) (hx : x.Rep f τ) :
    (x.mulAssignS s).Rep (fun u => f u * s) τ ∧ (s ≠ 0 → (x.divAssignS s).Rep (fun u => f u / s) τ) ∧
    (x.addAssignS s).Rep (fun u => f u + s) τ ∧ (x.subAssignS s).Rep (fun u => f u - s) τ := by
  obtain ⟨ht, hd⟩ := hx
  refine ⟨⟨?_, hd.mul_const s⟩, fun _ => ⟨?_, hd.div_const s⟩, ⟨?_, hd.add_const s⟩, ⟨?_, hd.sub_const s⟩⟩
  · simp only [Rall1d.mulAssignS, ht]
  · simp only [Rall1d.divAssignS, ht]
  · simp only [Rall1d.addAssignS, ht]
  · simp only [Rall1d.subAssignS, ht]

/-- `LinComb` and `LinCombR`, also when the result object is one of the operands, and whatever the result held. -/
theorem C16_linComb (alfa beta : ℝ) (r : Rall1d) (hx : x.Rep f τ) (hy : y.Rep g τ) :
    (Rall1d.linComb alfa x beta y).Rep (fun u => alfa * f u + beta * g u) τ ∧
    (Rall1d.linCombR alfa x beta y r).Rep (fun u => alfa * f u + beta * g u) τ ∧
    (Rall1d.linCombRFst alfa x beta y).Rep (fun u => alfa * f u + beta * g u) τ ∧
    (Rall1d.linCombRSnd alfa x beta y).Rep (fun u => alfa * f u + beta * g u) τ := by
  have h : (Rall1d.linComb alfa x beta y).Rep (fun u => alfa * f u + beta * g u) τ :=
    ⟨by simp only [Rall1d.linComb, hx.1, hy.1], (hx.2.const_mul alfa).add (hy.2.const_mul beta)⟩
  exact ⟨h, h, h, h⟩

/-- In-place operators applied to the object itself. -/
theorem C16_inplace_self (hx : x.Rep f τ) :
    x.mulAssignSelf.Rep (fun u => f u * f u) τ ∧ (x.t ≠ 0 → x.divAssignSelf.Rep (fun u => f u / f u) τ) ∧
    x.addAssignSelf.Rep (fun u => f u + f u) τ ∧ x.subAssignSelf.Rep (fun u => f u - f u) τ := by
  refine ⟨?_, fun h => ?_, C16_add hx hx, C16_sub hx hx⟩
  · exact C16_mul hx hx
  · have := C16_div hx hx h
    have e : x.divAssignSelf = x.div x := by
      ext
      · rfl
      · simp only [Rall1d.divAssignSelf, Rall1d.div]; congr 1; ring
    rw [e]; exact this

/-- `Norm` is the absolute value of the value part. -/
theorem C16_norm (hx : x.Rep f τ) : x.norm = |f τ| := by rw [← hx.1]; rfl

/-- `Equal` on `Rall1d` is a tolerance: symmetric, reflexive, monotone, triangle inequality, exact in the limit. -/
theorem C15_rall1d : IsTolerance Rall1d.equal where
  symm a b e h := by
    simp only [Rall1d.equal, C15_scalar] at *; exact ⟨abs_sub_comm b.t a.t ▸ h.1, abs_sub_comm b.grad a.grad ▸ h.2⟩
  refl a e h := by simp only [Rall1d.equal, C15_scalar, sub_self, abs_zero]; exact ⟨h, h⟩
  mono a b e₁ e₂ h h1 := by
    simp only [Rall1d.equal, C15_scalar] at *; exact ⟨lt_of_lt_of_le h1.1 h, lt_of_lt_of_le h1.2 h⟩
  triangle a b c e₁ e₂ h1 h2 := by
    simp only [Rall1d.equal, C15_scalar] at *
    exact ⟨by linarith [abs_sub_le c.t b.t a.t], by linarith [abs_sub_le c.grad b.grad a.grad]⟩
  exact a b h := by
    simp only [Rall1d.equal, C15_scalar] at h
    ext
    · by_contra hne
      have := (h |b.t - a.t| (abs_pos.mpr (sub_ne_zero.mpr (Ne.symm hne)))).1
      exact lt_irrefl _ this
    · by_contra hne
      have := (h |b.grad - a.grad| (abs_pos.mpr (sub_ne_zero.mpr (Ne.symm hne)))).2
      exact lt_irrefl _ this
  empty a b e he h := by
    simp only [Rall1d.equal, C15_scalar] at h; linarith [abs_nonneg (b.t - a.t), h.1]

example : (⟨3, 4⟩ : Rall1d).mulAssignS 2 = ⟨6, 8⟩ ∧ (⟨3, 4⟩ : Rall1d).addAssignS 2 = ⟨5, 4⟩ := by
  constructor <;> ext <;> norm_num [Rall1d.mulAssignS, Rall1d.addAssignS]
example : ¬ Rall1d.equal ⟨0, 0⟩ ⟨0, 1⟩ (1 / 2) := by
  rintro ⟨-, h, -⟩; norm_num at h
end first

section second
variable {x y : Rall2d} {f g : ℝ → ℝ} {τ : ℝ}

/-- The constants, and assignment of a number: both derivatives are zero whatever the object held before. -/
theorem C17_constants (x : Rall2d) (c : ℝ) :
    (x.assignS c).Rep (fun _ => c) τ ∧ x.setToZero.Rep (fun _ => 0) τ ∧ x.setToIdentity.Rep (fun _ => 1) τ ∧
    Rall2d.zero.Rep (fun _ => 0) τ ∧ Rall2d.identity.Rep (fun _ => 1) τ :=
  ⟨C17_const c, C17_const 0, C17_const 1, C17_const 0, C17_const 1⟩

/-- The two-argument constructor represents a uniform motion. -/
theorem C17_linear (a v : ℝ) : (Rall2d.ofValD (a + v * τ) v).Rep (fun s => a + v * s) τ := by
  refine ⟨fun _ => v, Filter.Eventually.of_forall fun s => ?_, hasDerivAt_const τ v, rfl, rfl⟩
  simpa using ((hasDerivAt_id s).const_mul v).const_add a

/-- In-place operators with a number on the right. -/
theorem C17_inplace_scalar (s : ℝ) (hx : x.Rep f τ) :
    (x.mulAssignS s).Rep (fun u => f u * s) τ ∧ (s ≠ 0 → (x.divAssignS s).Rep (fun u => f u / s) τ) ∧
    (x.addAssignS s).Rep (fun u => f u + s) τ ∧ (x.subAssignS s).Rep (fun u => f u - s) τ := by
  obtain ⟨f', h1, h2, ht, hd⟩ := hx
  refine ⟨⟨fun u => f' u * s, h1.mono fun u hu => hu.mul_const s, h2.mul_const s, ?_, ?_⟩,
    fun _ => ⟨fun u => f' u / s, h1.mono fun u hu => hu.div_const s, h2.div_const s, ?_, ?_⟩,
    ⟨f', h1.mono fun u hu => hu.add_const s, h2, ?_, hd⟩, ⟨f', h1.mono fun u hu => hu.sub_const s, h2, ?_, hd⟩⟩
  · simp only [Rall2d.mulAssignS, ht]
  · simp only [Rall2d.mulAssignS, hd]
  · simp only [Rall2d.divAssignS, ht]
  · simp only [Rall2d.divAssignS, hd]
  · simp only [Rall2d.addAssignS, ht]
  · simp only [Rall2d.subAssignS, ht]

/-- `LinComb` and `LinCombR`, also when the result object is one of the operands, and whatever the result held. -/
theorem C17_linComb (alfa beta : ℝ) (r : Rall2d) (hx : x.Rep f τ) (hy : y.Rep g τ) :
    (Rall2d.linComb alfa x beta y).Rep (fun u => alfa * f u + beta * g u) τ ∧
    (Rall2d.linCombR alfa x beta y r).Rep (fun u => alfa * f u + beta * g u) τ ∧
    (Rall2d.linCombRFst alfa x beta y).Rep (fun u => alfa * f u + beta * g u) τ ∧
    (Rall2d.linCombRSnd alfa x beta y).Rep (fun u => alfa * f u + beta * g u) τ := by
  have h : (Rall2d.linComb alfa x beta y).Rep (fun u => alfa * f u + beta * g u) τ := by
    obtain ⟨f', h1, h2, ht, hd⟩ := hx
    obtain ⟨g', k1, k2, kt, kd⟩ := hy
    refine ⟨fun u => alfa * f' u + beta * g' u, ?_, (h2.const_mul alfa).add (k2.const_mul beta), ?_, ?_⟩
    · filter_upwards [h1, k1] with u hu ku using (hu.const_mul alfa).add (ku.const_mul beta)
    · simp only [Rall2d.linComb, ht, kt]
    · simp only [Rall2d.linComb, hd, kd]
  exact ⟨h, h, h, h⟩

/-- In-place operators applied to the object itself: right for `/=`, `+=` and `-=`.  Full statement: also `x *= x`.
Missing: `*=`, refuted by `C17_self_violated`. -/
theorem C17_inplace_self_partial (hx : x.Rep f τ) :
    (x.t ≠ 0 → x.divAssignSelf.Rep (fun u => f u / f u) τ) ∧
    x.addAssignSelf.Rep (fun u => f u + f u) τ ∧ x.subAssignSelf.Rep (fun u => f u - f u) τ := by
  refine ⟨fun h => ?_, C17_add hx hx, C17_sub hx hx⟩
  have := C17_div hx hx h
  have e : x.divAssignSelf = x.div x := by
    ext <;> simp only [Rall2d.divAssignSelf, Rall2d.div, div_self h] <;> ring
  rw [e]; exact this

/-- **Violation.**  `x *= x` multiplies by the square that is already stored: for `s` at `s = 2`, i.e. `(2,1,0)`, it leaves
`(4, 8, 128)`; the square has `(4, 4, 2)`. -/
theorem C17_self_violated :
    ∃ (x : Rall2d) (f : ℝ → ℝ) (τ : ℝ), x.Rep f τ ∧ x.mulAssignSelf = ⟨4, 8, 128⟩ ∧ x.mul x = ⟨4, 4, 2⟩ ∧
      ¬ x.mulAssignSelf.Rep (fun s => f s * f s) τ := by
  have hid : (⟨2, 1, 0⟩ : Rall2d).Rep (fun s => s) 2 :=
    ⟨fun _ => 1, Filter.Eventually.of_forall fun s => hasDerivAt_id s, hasDerivAt_const 2 1, rfl, rfl⟩
  refine ⟨⟨2, 1, 0⟩, fun s => s, 2, hid, ?_, ?_, ?_⟩
  · ext <;> norm_num [Rall2d.mulAssignSelf]
  · ext <;> norm_num [Rall2d.mul]
  rintro ⟨h', hh, _, _, hd⟩
  obtain ⟨k', hk, _, _, kd⟩ := C17_mul hid hid
  have e := hh.self_of_nhds.unique hk.self_of_nhds
  rw [← hd, ← kd] at e
  norm_num [Rall2d.mulAssignSelf, Rall2d.mul] at e

/-- `x *= x` is right in all three parts exactly under these two equations; constants and the zero function with zero
derivative satisfy them, every `x` with `x.t ∉ {0, 1}` and `x.d ≠ 0` violates the first. -/
theorem C17_self_condition (x : Rall2d) :
    x.mulAssignSelf = x.mul x ↔ x.t * x.d * (x.t - 1) = 0 ∧ x.t * x.dd * (x.t - 1) + x.d ^ 2 * (4 * x.t ^ 4 - 1) = 0 := by
  rw [Rall2d.ext_iff]
  simp only [Rall2d.mulAssignSelf, Rall2d.mul, true_and]
  constructor
  · rintro ⟨h1, h2⟩
    exact ⟨by linear_combination h1 / 2, by linear_combination h2 / 2⟩
  · rintro ⟨h1, h2⟩
    exact ⟨by linear_combination 2 * h1, by linear_combination 2 * h2⟩

/-- `x *= y` on distinct objects is right in all three parts exactly under this condition. -/
theorem C17_mulAssign_exact (x y : Rall2d) :
    x.mulAssign y = x.mul y ↔ x.t * y.d = 0 ∧ (y.t = 1 ∨ 2 * x.d * y.d + x.t * y.dd = 0) := by
  rw [Rall2d.ext_iff]
  simp only [Rall2d.mulAssign, Rall2d.mul, true_and]
  constructor
  · rintro ⟨h1, h2⟩
    have e1 : (y.t - 1) * (x.t * y.d) = 0 := by linear_combination h1
    by_cases hy : y.t = 1
    · refine ⟨?_, Or.inl hy⟩
      rw [hy] at h2
      have : x.t * y.d * y.d = 0 := by linear_combination h2 / 2
      rcases mul_eq_zero.mp this with h | h
      · exact h
      · rw [h, mul_zero]
    · have hz : x.t * y.d = 0 := (mul_eq_zero.mp e1).resolve_left (sub_ne_zero.mpr hy)
      refine ⟨hz, Or.inr ?_⟩
      have e2 : (y.t - 1) * (2 * x.d * y.d + x.t * y.dd) = 0 := by
        linear_combination h2 - 2 * y.t * y.d * hz
      exact (mul_eq_zero.mp e2).resolve_left (sub_ne_zero.mpr hy)
  · rintro ⟨hz, h | h⟩
    · rw [h]; exact ⟨by ring, by linear_combination 2 * y.d * hz⟩
    · exact ⟨by linear_combination (y.t - 1) * hz, by linear_combination (y.t - 1) * h + 2 * y.t * y.d * hz⟩

/-- `Norm` is the absolute value of the value part. -/
theorem C17_norm (hx : x.Rep f τ) : x.norm = |f τ| := by
  obtain ⟨_, _, _, h, _⟩ := hx; rw [← h]; rfl

/-- `Equal` on dual numbers: value and derivatives differ by strictly less than the tolerance. -/
theorem C15_components_rall (eps : ℝ) :
    (∀ a b : Rall1d, a.equal b eps ↔ |a.t - b.t| < eps ∧ |a.grad - b.grad| < eps) ∧
    ∀ a b : Rall2d, a.equal b eps ↔ |a.t - b.t| < eps ∧ |a.d - b.d| < eps ∧ |a.dd - b.dd| < eps := by
  refine ⟨fun a b => ?_, fun a b => ?_⟩
  · rw [abs_sub_comm a.t, abs_sub_comm a.grad]
    simp only [Rall1d.equal, C15_scalar]
  · rw [abs_sub_comm a.t, abs_sub_comm a.d, abs_sub_comm a.dd]
    simp only [Rall2d.equal, C15_scalar]

/-- `Equal` on `Rall2d` is a tolerance. -/
theorem C15_rall2d : IsTolerance Rall2d.equal where
  symm a b e h := by
    simp only [Rall2d.equal, C15_scalar] at *
    exact ⟨abs_sub_comm b.t a.t ▸ h.1, abs_sub_comm b.d a.d ▸ h.2.1, abs_sub_comm b.dd a.dd ▸ h.2.2⟩
  refl a e h := by simp only [Rall2d.equal, C15_scalar, sub_self, abs_zero]; exact ⟨h, h, h⟩
  mono a b e₁ e₂ h h1 := by
    simp only [Rall2d.equal, C15_scalar] at *
    exact ⟨lt_of_lt_of_le h1.1 h, lt_of_lt_of_le h1.2.1 h, lt_of_lt_of_le h1.2.2 h⟩
  triangle a b c e₁ e₂ h1 h2 := by
    simp only [Rall2d.equal, C15_scalar] at *
    exact ⟨by linarith [abs_sub_le c.t b.t a.t], by linarith [abs_sub_le c.d b.d a.d],
      by linarith [abs_sub_le c.dd b.dd a.dd]⟩
  exact a b h := by
    simp only [Rall2d.equal, C15_scalar] at h
    ext
    · by_contra hne
      exact lt_irrefl _ (h |b.t - a.t| (abs_pos.mpr (sub_ne_zero.mpr (Ne.symm hne)))).1
    · by_contra hne
      exact lt_irrefl _ (h |b.d - a.d| (abs_pos.mpr (sub_ne_zero.mpr (Ne.symm hne)))).2.1
    · by_contra hne
      exact lt_irrefl _ (h |b.dd - a.dd| (abs_pos.mpr (sub_ne_zero.mpr (Ne.symm hne)))).2.2
  empty a b e he h := by
    simp only [Rall2d.equal, C15_scalar] at h; linarith [abs_nonneg (b.t - a.t), h.1]

/-- The linear combination of `s²` and `s` at 3. -/
example : (Rall2d.linComb 2 ⟨9, 6, 2⟩ 5 ⟨3, 1, 0⟩) = ⟨33, 17, 4⟩ := by
  ext <;> norm_num [Rall2d.linComb]
example : (⟨2, 1, 3⟩ : Rall2d).divAssignSelf = ⟨1, 0, 0⟩ := by
  ext <;> norm_num [Rall2d.divAssignSelf]
example : ¬ Rall2d.equal ⟨0, 0, 0⟩ ⟨0, 0, 1⟩ (1 / 2) := by
  rintro ⟨-, -, h, -⟩; norm_num at h
end second
end KDL
