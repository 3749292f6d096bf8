import Verif.Props.IkPos

/-!
# C47 – the limits chosen by the constructor without limits
-/

noncomputable section
namespace KDL

/-- The values of `numeric_limits<double>`: the smallest normal number `2^-1022` as the lower and the largest number
`2^1024 - 2^971` as the upper limit of every joint. -/
theorem C47_default_values (c : Chain) (maxiter : ℕ) (eps : ℝ) (i : ℕ) (hi : i < c.nrOfJoints) :
    ((NrJlState.newDefault c maxiter eps).q_min[i]?).map (· * 2 ^ 1022) = some 1 ∧
    (NrJlState.newDefault c maxiter eps).q_max[i]? = some (2 ^ 1024 - 2 ^ 971) ∧
    (NrJlState.newDefault c maxiter eps).q_min.length = c.nrOfJoints ∧ (NrJlState.newDefault c maxiter eps).q_max.length = c.nrOfJoints := by
  have e1 : dblMin * 2 ^ 1022 = 1 := by
    rw [dblMin]
    exact inv_mul_cancel₀ (by positivity)
  have e2 : dblMax = 2 ^ 1024 - 2 ^ 971 := by
    rw [dblMax, sub_mul]
    have h1 : (2 : ℝ) * 2 ^ (1023 : ℕ) = 2 ^ (1024 : ℕ) := by rw [← pow_succ']
    have h2 : ((2 : ℝ) ^ (52 : ℕ))⁻¹ * 2 ^ (1023 : ℕ) = 2 ^ (971 : ℕ) := by
      rw [show (1023 : ℕ) = 52 + 971 from rfl, pow_add, ← mul_assoc, inv_mul_cancel₀ (by positivity), one_mul]
    rw [h1, h2]
  refine ⟨?_, ?_, by simp [NrJlState.newDefault], by simp [NrJlState.newDefault]⟩
  · simp only [NrJlState.newDefault, List.getElem?_replicate, if_pos hi, Option.map_some, e1]
  · simp only [NrJlState.newDefault, List.getElem?_replicate, if_pos hi, e2]

example : ∃ i, i < xChain.nrOfJoints := ⟨0, by simp [xChain]⟩

end KDL
