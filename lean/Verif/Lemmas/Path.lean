import Verif.Model.Path
import Verif.Lemmas.Calculus
import Verif.Props.AxisAngle
import Mathlib.Analysis.Calculus.Deriv.Shift

/-! Lemmas about normalisation and interpolation used for the paths. -/

noncomputable section
namespace KDL
open Real

/-- The vector is zero or at least one component reaches the library tolerance `epsilon` (`1e-6`). -/
def Vec.Resolved (v : Vec) : Prop := v = 0 ∨ epsilon ≤ |v.x| ∨ epsilon ≤ |v.y| ∨ epsilon ≤ |v.z|

/-- The rotation is outside the tolerance band of `GetRotAngle`: some entry of the skew part reaches `epsilon`, or the
matrix is exactly symmetric (identity or half turn). -/
def Rot.Resolved (R : Rot) : Prop :=
  R.Regular epsilon ∨ (R.m01 = R.m10 ∧ R.m02 = R.m20 ∧ R.m12 = R.m21)

theorem Vec.len_zero : (0 : Vec).len = 0 := by simp [Vec.len]

theorem Vec.abs_le_len (v : Vec) : |v.x| ≤ v.len ∧ |v.y| ≤ v.len ∧ |v.z| ≤ v.len := by
  unfold Vec.len
  refine ⟨abs_le_sqrt ?_, abs_le_sqrt ?_, abs_le_sqrt ?_⟩ <;> nlinarith [sq_nonneg v.x, sq_nonneg v.y, sq_nonneg v.z]

theorem Vec.normalize_zero : (0 : Vec).normalize = (⟨1, 0, 0⟩, 0) := by
  have h : (0 : Vec).norm = 0 := by
    rw [Vec.norm_eq _ _ epsilon_pos, Vec.len_zero]; split_ifs <;> rfl
  unfold Vec.normalize
  dsimp only
  rw [h, if_pos epsilon_pos]

theorem Vec.normalize_of_le (v : Vec) (h : epsilon ≤ v.norm) : v.normalize = (v / v.len, v.len) ∧ v.norm = v.len := by
  have hl : v.norm = v.len := by
    have := Vec.norm_eq v epsilon epsilon_pos
    split_ifs at this with hc
    · rw [this] at h; exact absurd h (not_le.mpr epsilon_pos)
    · exact this
  refine ⟨?_, hl⟩
  unfold Vec.normalize
  dsimp only
  rw [if_neg (not_lt.mpr h), hl]

theorem Vec.norm_of_comp (v : Vec) (h : epsilon ≤ |v.x| ∨ epsilon ≤ |v.y| ∨ epsilon ≤ |v.z|) : epsilon ≤ v.norm := by
  rw [Vec.norm_eq _ _ epsilon_pos]
  obtain ⟨a, b, c⟩ := Vec.abs_le_len v
  split_ifs with hc
  · rcases h with h | h | h <;> linarith [hc.1, hc.2.1, hc.2.2]
  · rcases h with h | h | h <;> linarith

/-- What `Normalize` leaves of a resolved vector: a unit vector and the length whose product is the vector. -/
theorem Vec.normalize_resolved (v : Vec) (h : v.Resolved) : v.normalize.2 = v.len ∧ v.normalize.2 • v.normalize.1 = v := by
  rcases h with rfl | h
  · rw [Vec.normalize_zero, Vec.len_zero]; simp
  · have h1 := Vec.norm_of_comp v h
    obtain ⟨h2, h3⟩ := Vec.normalize_of_le v h1
    have hpos : 0 < v.len := h3 ▸ lt_of_lt_of_le epsilon_pos h1
    rw [h2]
    refine ⟨rfl, ?_⟩
    ext <;> simp <;> field_simp

theorem Vec.normalize_nonneg (v : Vec) : 0 ≤ v.normalize.2 := by
  unfold Vec.normalize
  dsimp only
  split_ifs
  · exact le_rfl
  · exact Vec.norm_nonneg _ _ epsilon_pos

theorem Vec.normalize_unit (v : Vec) : v.normalize.1.dot v.normalize.1 = 1 := Vec.normalize_dot v _ epsilon_pos

theorem Vec.len_smul_unit (c : ℝ) (u : Vec) (h : u.dot u = 1) : (c • u).len = |c| := by
  rw [Vec.len_eq_sqrt_dot, Vec.smul_dot, Vec.dot_smul, h, mul_one, ← pow_two, sqrt_sq_eq_abs]

theorem Rot.IsProper.len {R : Rot} (h : R.IsProper) (v : Vec) : (R * v).len = v.len := by
  rw [Vec.len_eq_sqrt_dot, Vec.len_eq_sqrt_dot, h.dot]

theorem Rot.resolved_axis (R : Rot) (hR : R.IsProper) (h : R.Resolved) :
    R.getRotAngle.1.dot R.getRotAngle.1 = 1 :=
  C08_axis_unit R epsilon epsilon_pos (by norm_num [epsilon]) (h.imp_right fun k => ⟨hR, k⟩)

theorem Rot.resolved_roundtrip (R : Rot) (hR : R.IsProper) (h : R.Resolved) :
    Rot.rot2 R.getRotAngle.1 R.getRotAngle.2 = R := by
  rcases h with h | ⟨h1, h2, h3⟩
  · exact C08_roundtrip_regular R hR epsilon le_rfl h
  · exact C08_roundtrip_symmetric R hR epsilon epsilon_pos (by norm_num [epsilon]) h1 h2 h3

theorem Rot.one_resolved : (1 : Rot).Resolved := Or.inr ⟨rfl, rfl, rfl⟩

theorem Rot.getRotAngle_one : (1 : Rot).getRotAngle = (⟨0, 0, 1⟩, 0) := by
  have h3 : ((1 : ℝ) + 1 + 1 - 3) = 0 := by norm_num
  simp [Rot.getRotAngle, epsilon_pos, h3]

/-- A frame curve that agrees near `s` with a shifted curve has its twist. -/
theorem Frame.HasTwist.shift {G F : ℝ → Frame} {v : Twist} {s a b : ℝ} (hm : Frame.HasTwist G v (s - a))
    (heq : ∀ u, a < u → u < b → F u = G (u - a)) (h0 : a < s) (h1 : s < b) : Frame.HasTwist F v s := by
  have hev : F =ᶠ[nhds s] fun u => G (u - a) := by
    filter_upwards [Ioo_mem_nhds h0 h1] with u hu
    exact heq u hu.1 hu.2
  have key : ∀ (f : Frame → ℝ) (f' : ℝ), HasDerivAt (fun u => f (G u)) f' (s - a) → HasDerivAt (fun u => f (F u)) f' s := by
    intro f f' h
    refine (HasDerivAt.comp_sub_const s a h).congr_of_eventuallyEq ?_
    filter_upwards [hev] with u hu
    rw [hu]
  refine ⟨⟨key (fun X => X.p.x) _ hm.vel.x, key (fun X => X.p.y) _ hm.vel.y, key (fun X => X.p.z) _ hm.vel.z⟩, ?_⟩
  have hs : F s = G (s - a) := heq s h0 h1
  unfold Rot.HasAngVel
  dsimp only
  rw [hs]
  have hr := hm.rot
  exact ⟨key (fun X => X.M.m00) _ hr.m00, key (fun X => X.M.m01) _ hr.m01, key (fun X => X.M.m02) _ hr.m02,
    key (fun X => X.M.m10) _ hr.m10, key (fun X => X.M.m11) _ hr.m11, key (fun X => X.M.m12) _ hr.m12,
    key (fun X => X.M.m20) _ hr.m20, key (fun X => X.M.m21) _ hr.m21, key (fun X => X.M.m22) _ hr.m22⟩

end KDL
