import Verif.Model.Hash
import Verif.Props.Quaternion
import Verif.Props.Equal
import Mathlib.Topology.LocallyConstant.Basic
import Mathlib.Topology.Connected.LocallyConnected
import Mathlib.Topology.Algebra.Order.LiminfLimsup

/-!
C74: hash codes.  `std::unordered_map` and its relatives require that objects which compare equal have the same hash
code.
-/

namespace KDL
open Real Topology

/-! ## What the codes depend on -/

theorem hashCombine_inj {seed a b : UInt64} (e : hashCombine seed a = hashCombine seed b) : a = b := by
  have e := (UInt64.xor_right_inj _).mp e
  rw [UInt64.add_left_inj, UInt64.add_left_inj, UInt64.add_left_inj] at e
  exact e

/-- **C74, formula.**  The code of a planar vector, written out. -/
theorem C74_formula (h : ℝ → UInt64) (x y : ℝ) (s : UInt64) (hs : s = h x + 2654435769) :
    Vec2.hash h ⟨x, y⟩ = s ^^^ (h y + 2654435769 + s * 64 + s / 4) := by
  have h0 : hashCombine 0 (h x) = s := by
    rw [hs]
    show (0 : UInt64) ^^^ (h x + 0x9e3779b9 + 0 + 0) = _
    rw [UInt64.zero_xor, UInt64.add_zero, UInt64.add_zero]
  have h1 : s <<< (6 : UInt64) = s * 64 := by
    apply UInt64.toNat_inj.mp
    rw [UInt64.toNat_shiftLeft, UInt64.toNat_mul, Nat.shiftLeft_eq]
    rfl
  have h2 : s >>> (2 : UInt64) = s / 4 := by
    apply UInt64.toNat_inj.mp
    rw [UInt64.toNat_shiftRight, UInt64.toNat_div, Nat.shiftRight_eq_div_pow]
    rfl
  unfold Vec2.hash
  dsimp only
  rw [h0, hashCombine, h1, h2]

/-- **C74, sensitivity.**  Of two objects that agree but for the component hashed last, the codes are equal only if the
codes of these components are. -/
theorem C74_last (h : ℝ → UInt64) :
    (∀ x y z z', Vec.hash h ⟨x, y, z⟩ = Vec.hash h ⟨x, y, z'⟩ → h z = h z') ∧
    (∀ x y y', Vec2.hash h ⟨x, y⟩ = Vec2.hash h ⟨x, y'⟩ → h y = h y') ∧
    (∀ r r', Rot2D.hash h r = Rot2D.hash h r' → h r.getRot = h r'.getRot) ∧
    (∀ f t t', Wrench.hash h ⟨f, t⟩ = Wrench.hash h ⟨f, t'⟩ → t.hash h = t'.hash h) ∧
    (∀ v r r', Twist.hash h ⟨v, r⟩ = Twist.hash h ⟨v, r'⟩ → r.hash h = r'.hash h) ∧
    (∀ M M' p, Frame.hash h ⟨M, p⟩ = Frame.hash h ⟨M', p⟩ → M.hash h = M'.hash h) ∧
    (∀ M M' p, Frame2D.hash h ⟨M, p⟩ = Frame2D.hash h ⟨M', p⟩ → M.hash h = M'.hash h) :=
  ⟨fun _ _ _ _ e => hashCombine_inj e, fun _ _ _ e => hashCombine_inj e, fun _ _ e => hashCombine_inj e,
    fun _ _ _ e => hashCombine_inj e, fun _ _ _ e => hashCombine_inj e, fun _ _ _ e => hashCombine_inj e,
    fun _ _ _ e => hashCombine_inj e⟩

/-- **C74, order.**  The codes tell apart objects that hold the same numbers in another order: no two components of a
vector are interchangeable, nor are the halves of a twist, of a wrench. -/
theorem C74_order : ∃ h : ℝ → UInt64,
    Vec.hash h ⟨1, 0, 0⟩ ≠ Vec.hash h ⟨0, 1, 0⟩ ∧ Vec.hash h ⟨1, 0, 0⟩ ≠ Vec.hash h ⟨0, 0, 1⟩ ∧
    Vec.hash h ⟨0, 1, 0⟩ ≠ Vec.hash h ⟨0, 0, 1⟩ ∧ Vec2.hash h ⟨1, 0⟩ ≠ Vec2.hash h ⟨0, 1⟩ ∧
    Twist.hash h ⟨⟨1, 0, 0⟩, 0⟩ ≠ Twist.hash h ⟨0, ⟨1, 0, 0⟩⟩ ∧
    Wrench.hash h ⟨⟨1, 0, 0⟩, 0⟩ ≠ Wrench.hash h ⟨0, ⟨1, 0, 0⟩⟩ := by
  refine ⟨fun x => if x = 0 then 0 else 1, ?_⟩
  simp only [Vec.hash, Vec2.hash, Twist.hash, Wrench.hash, Vec.zero_x, Vec.zero_y, Vec.zero_z, if_true, one_ne_zero, if_false]
  decide

/-- The quaternion of a rotation whose trace is positive. -/
theorem getQuaternion_quaternion (x y z w : ℝ) (hu : x * x + y * y + z * z + w * w = 1) (hw : 0 < w)
    (ht : 4 * w ^ 2 - 1 > 1 / 10 ^ 12) : (Rot.quaternion x y z w).getQuaternion = ⟨x, y, z, w⟩ := by
  have ht' : (Rot.quaternion x y z w).m00 + (Rot.quaternion x y z w).m11 + (Rot.quaternion x y z w).m22 = 4 * w ^ 2 - 1 := by
    simp only [Rot.quaternion]; linear_combination -hu
  have hs : Real.sqrt (4 * w ^ 2 - 1 + 1) = 2 * w := by
    rw [show 4 * w ^ 2 - 1 + 1 = (2 * w) ^ 2 by ring]; exact Real.sqrt_sq (by linarith)
  unfold Rot.getQuaternion
  dsimp only
  rw [ht', if_pos ht, hs]
  ext <;> simp only [Rot.quaternion] <;> field_simp <;> ring

theorem sqrt_four (a b : ℝ) (ha : 0 < a) (h : b = (2 * a) ^ 2) : Real.sqrt b = 2 * a := by
  rw [h]; exact Real.sqrt_sq (by linarith)

open Classical in
/-- The sign rule for the quaternion of a rotation: the scalar part is positive for rotations by less than about 120°; beyond, the
largest component of the vector part is, the later one of two that are equally large. -/
def Canonical (x y z w : ℝ) : Prop :=
  if 4 * w ^ 2 - 1 > 1 / 10 ^ 12 then 0 < w
  else if y ^ 2 < x ^ 2 ∧ z ^ 2 < x ^ 2 then 0 < x
  else if z ^ 2 < y ^ 2 then 0 < y
  else 0 < z

/-- Of the two quaternions of a rotation exactly one obeys the rule. -/
theorem canonical_one (x y z w : ℝ) (hu : x * x + y * y + z * z + w * w = 1) :
    (Canonical x y z w ∨ Canonical (-x) (-y) (-z) (-w)) ∧ ¬ (Canonical x y z w ∧ Canonical (-x) (-y) (-z) (-w)) := by
  unfold Canonical
  simp only [neg_sq]
  split_ifs with h1 h2 h3
  · have : w ≠ 0 := by rintro rfl; norm_num at h1
    refine ⟨?_, by rintro ⟨a, b⟩; linarith⟩
    rcases lt_or_gt_of_ne this with h | h
    · right; linarith
    · left; exact h
  · have : x ≠ 0 := by rintro rfl; nlinarith [h2.1, sq_nonneg y]
    refine ⟨?_, by rintro ⟨a, b⟩; linarith⟩
    rcases lt_or_gt_of_ne this with h | h
    · right; linarith
    · left; exact h
  · have : y ≠ 0 := by rintro rfl; nlinarith [sq_nonneg z]
    refine ⟨?_, by rintro ⟨a, b⟩; linarith⟩
    rcases lt_or_gt_of_ne this with h | h
    · right; linarith
    · left; exact h
  · have : z ≠ 0 := by
      rintro rfl
      have hy : y ^ 2 = 0 := le_antisymm (by simpa using not_lt.mp h3) (sq_nonneg y)
      have hx : x ^ 2 = 0 := by
        by_contra hx
        have : 0 < x ^ 2 := lt_of_le_of_ne (sq_nonneg x) (Ne.symm hx)
        exact h2 ⟨by rw [hy]; exact this, by simpa using this⟩
      have : w ^ 2 = 1 := by nlinarith
      rw [this] at h1
      norm_num at h1
    refine ⟨?_, by rintro ⟨a, b⟩; linarith⟩
    rcases lt_or_gt_of_ne this with h | h
    · right; linarith
    · left; exact h

theorem getQuaternion_canonical (x y z w : ℝ) (hu : x * x + y * y + z * z + w * w = 1) (hc : Canonical x y z w) :
    (Rot.quaternion x y z w).getQuaternion = ⟨x, y, z, w⟩ := by
  unfold Canonical at hc
  by_cases h1 : 4 * w ^ 2 - 1 > 1 / 10 ^ 12
  · rw [if_pos h1] at hc
    exact getQuaternion_quaternion x y z w hu hc h1
  rw [if_neg h1] at hc
  have ht' : (Rot.quaternion x y z w).m00 + (Rot.quaternion x y z w).m11 + (Rot.quaternion x y z w).m22 = 4 * w ^ 2 - 1 := by
    simp only [Rot.quaternion]; linear_combination -hu
  have e1 : ((Rot.quaternion x y z w).m00 > (Rot.quaternion x y z w).m11 ∧ (Rot.quaternion x y z w).m00 > (Rot.quaternion x y z w).m22) ↔
      (y ^ 2 < x ^ 2 ∧ z ^ 2 < x ^ 2) := by
    simp only [Rot.quaternion]
    constructor <;> rintro ⟨a, b⟩ <;> constructor <;> nlinarith
  have e2 : ((Rot.quaternion x y z w).m11 > (Rot.quaternion x y z w).m22) ↔ z ^ 2 < y ^ 2 := by
    simp only [Rot.quaternion]
    constructor <;> intro a <;> nlinarith
  unfold Rot.getQuaternion
  dsimp only
  rw [ht', if_neg h1]
  by_cases h2 : y ^ 2 < x ^ 2 ∧ z ^ 2 < x ^ 2
  · rw [if_pos h2] at hc
    rw [if_pos (e1.mpr h2), sqrt_four x _ hc (by simp only [Rot.quaternion]; linear_combination -hu)]
    ext <;> simp only [Rot.quaternion] <;> field_simp <;> ring
  · rw [if_neg h2] at hc
    rw [if_neg (fun h => h2 (e1.mp h))]
    by_cases h3 : z ^ 2 < y ^ 2
    · rw [if_pos h3] at hc
      rw [if_pos (e2.mpr h3), sqrt_four y _ hc (by simp only [Rot.quaternion]; linear_combination -hu)]
      ext <;> simp only [Rot.quaternion] <;> field_simp <;> ring
    · rw [if_neg h3] at hc
      rw [if_neg (fun h => h3 (e2.mp h)), sqrt_four z _ hc (by simp only [Rot.quaternion]; linear_combination -hu)]
      ext <;> simp only [Rot.quaternion] <;> field_simp <;> ring

/-- **C74, rotations.**  The code of a rotation is made of the one of its two quaternions that obeys the sign rule; both quaternions
give the same code. -/
theorem C74_rotation (h : ℝ → UInt64) (x y z w : ℝ) (hu : x * x + y * y + z * z + w * w = 1) :
    (Canonical x y z w ∨ Canonical (-x) (-y) (-z) (-w)) ∧ ¬ (Canonical x y z w ∧ Canonical (-x) (-y) (-z) (-w)) ∧
    (Canonical x y z w →
      Rot.hash h (Rot.quaternion x y z w) = hashCombine (Vec.hash h ⟨x, y, z⟩) (h w) ∧
        Rot.hash h (Rot.quaternion (-x) (-y) (-z) (-w)) = hashCombine (Vec.hash h ⟨x, y, z⟩) (h w)) := by
  refine ⟨(canonical_one x y z w hu).1, (canonical_one x y z w hu).2, fun hc => ?_⟩
  have e : Rot.hash h (Rot.quaternion x y z w) = hashCombine (Vec.hash h ⟨x, y, z⟩) (h w) := by
    unfold Rot.hash Vec.hash
    rw [getQuaternion_canonical x y z w hu hc]
  refine ⟨e, ?_⟩
  rw [(C07_double_cover x y z w).1, e]

/-- A half turn about the y axis, of which the rule picks the quaternion `(0, 1, 0, 0)`. -/
example : (0 : ℝ) * 0 + 1 * 1 + 0 * 0 + 0 * 0 = 1 ∧ Canonical 0 1 0 0 := by
  unfold Canonical
  norm_num

/-! ## Equal objects -/

/-- A function that does not tell apart objects that are equal is constant along every curve on which neighbours are
equal. -/
theorem const_of_path {α β : Type*} {eqv : α → α → Prop} {H : α → β} (hH : ∀ a b, eqv a b → H a = H b) {f : ℝ → α}
    (hf : ∀ t, ∀ᶠ s in 𝓝 t, eqv (f s) (f t)) (s t : ℝ) : H (f s) = H (f t) := by
  have : IsLocallyConstant (H ∘ f) := (IsLocallyConstant.iff_eventually_eq _).mpr fun t => (hf t).mono fun s hs => hH _ _ hs
  exact this.apply_eq_of_preconnectedSpace s t

theorem near {g : ℝ → ℝ} (hg : Continuous g) (t : ℝ) : ∀ᶠ s in 𝓝 t, realEqual (g s) (g t) epsilon := by
  have := (hg.tendsto t).eventually (Metric.ball_mem_nhds (g t) epsilon_pos)
  refine this.mono fun s hs => ?_
  rw [C15_scalar]
  exact hs

/-- **C74 cannot hold.**  With this `operator==` no function at all but a constant one gives equal vectors equal codes … -/
theorem C74_vector_only_constant {β : Type*} (H : Vec → β) (hH : ∀ a b, Vec.eqOp a b → H a = H b) (v w : Vec) : H v = H w := by
  have key := const_of_path hH (f := fun t => ⟨v.x + t * (w.x - v.x), v.y + t * (w.y - v.y), v.z + t * (w.z - v.z)⟩)
    (fun t => by
      filter_upwards [near (g := fun t => v.x + t * (w.x - v.x)) (by fun_prop) t,
        near (g := fun t => v.y + t * (w.y - v.y)) (by fun_prop) t,
        near (g := fun t => v.z + t * (w.z - v.z)) (by fun_prop) t] with s h1 h2 h3
      exact ⟨h1, h2, h3⟩) 0 1
  simpa using key

/-- … nor equal rotations … -/
theorem C74_rotation_only_constant {β : Type*} (H : Rot → β)
    (hH : ∀ a b, a.IsProper → b.IsProper → Rot.eqOp a b → H a = H b) (R R' : Rot) (hR : R.IsProper) (hR' : R'.IsProper) :
    H R = H R' := by
  suffices key : ∀ R : Rot, R.IsProper → H R = H 1 by rw [key R hR, key R' hR']
  clear hR hR' R R'
  intro R hR
  have hu := C07_unit R hR
  have hr := C07_roundtrip R hR
  dsimp only at hu hr
  generalize R.getQuaternion = q at hu hr
  obtain ⟨x, y, z, w⟩ := q
  dsimp only at hu hr
  have hn : 0 ≤ x ^ 2 + y ^ 2 + z ^ 2 := by positivity
  have hw1 : w ^ 2 ≤ 1 := by nlinarith
  have hw2 : -1 ≤ w ∧ w ≤ 1 := abs_le.mp ((sq_le_one_iff_abs_le_one w).mp hw1)
  by_cases h0 : x ^ 2 + y ^ 2 + z ^ 2 = 0
  · have hx : x = 0 := by nlinarith [sq_nonneg x, sq_nonneg y, sq_nonneg z]
    have hy : y = 0 := by nlinarith [sq_nonneg x, sq_nonneg y, sq_nonneg z]
    have hz : z = 0 := by nlinarith [sq_nonneg x, sq_nonneg y, sq_nonneg z]
    have : R = 1 := by
      rw [← hr, hx, hy, hz]
      have : w * w = 1 := by nlinarith
      ext <;> simp [Rot.quaternion, this]
    rw [this]
  · set n := sqrt (x ^ 2 + y ^ 2 + z ^ 2) with hndef
    have hn0 : 0 < n := sqrt_pos.mpr (lt_of_le_of_ne hn (Ne.symm h0))
    have hn2 : n ^ 2 = x ^ 2 + y ^ 2 + z ^ 2 := sq_sqrt hn
    have hsin : sin (arccos w) = n := by
      rw [sin_arccos, hndef]; congr 1; linarith
    have hcos : cos (arccos w) = w := cos_arccos hw2.1 hw2.2
    have hax : (x / n) ^ 2 + (y / n) ^ 2 + (z / n) ^ 2 = 1 := by
      field_simp; linarith
    let f : ℝ → Rot := fun t => Rot.quaternion (sin (t * arccos w) * (x / n)) (sin (t * arccos w) * (y / n))
      (sin (t * arccos w) * (z / n)) (cos (t * arccos w))
    have hf : ∀ t, (f t).IsProper := fun t => Rot.isProper_quaternion _ _ _ _ (by
      linear_combination (sin (t * arccos w)) ^ 2 * hax + sin_sq_add_cos_sq (t * arccos w))
    have key := const_of_path (eqv := fun a b : Rot => a.IsProper ∧ b.IsProper ∧ Rot.eqOp a b) (H := H)
      (fun a b h => hH a b h.1 h.2.1 h.2.2) (f := f) (fun t => by
        filter_upwards [near (g := fun t => (f t).m00) (by simp only [f, Rot.quaternion]; fun_prop) t,
          near (g := fun t => (f t).m01) (by simp only [f, Rot.quaternion]; fun_prop) t,
          near (g := fun t => (f t).m02) (by simp only [f, Rot.quaternion]; fun_prop) t,
          near (g := fun t => (f t).m10) (by simp only [f, Rot.quaternion]; fun_prop) t,
          near (g := fun t => (f t).m11) (by simp only [f, Rot.quaternion]; fun_prop) t,
          near (g := fun t => (f t).m12) (by simp only [f, Rot.quaternion]; fun_prop) t,
          near (g := fun t => (f t).m20) (by simp only [f, Rot.quaternion]; fun_prop) t,
          near (g := fun t => (f t).m21) (by simp only [f, Rot.quaternion]; fun_prop) t,
          near (g := fun t => (f t).m22) (by simp only [f, Rot.quaternion]; fun_prop) t] with s h1 h2 h3 h4 h5 h6 h7 h8 h9
        exact ⟨hf s, hf t, h1, h2, h3, h4, h5, h6, h7, h8, h9⟩) 1 0
    have e1 : f 1 = R := by
      simp only [f, one_mul, hsin, hcos]
      rw [← hr]
      congr 1 <;> field_simp
    have e0 : f 0 = 1 := by ext <;> simp [f, Rot.quaternion]
    rwa [e1, e0] at key

/-- … nor equal frames. -/
theorem C74_frame_only_constant {β : Type*} (H : Frame → β)
    (hH : ∀ a b, a.M.IsProper → b.M.IsProper → Frame.eqOp a b → H a = H b) (F F' : Frame) (hF : F.M.IsProper)
    (hF' : F'.M.IsProper) : H F = H F' := by
  have refl : ∀ x, realEqual x x epsilon := fun x => by rw [C15_scalar]; simpa using epsilon_pos
  have h1 := C74_vector_only_constant (fun p => H ⟨F.M, p⟩) (fun a b h => hH _ _ hF hF
    ⟨h, refl _, refl _, refl _, refl _, refl _, refl _, refl _, refl _, refl _⟩) F.p F'.p
  have h2 := C74_rotation_only_constant (fun M => H ⟨M, F'.p⟩) (fun a b ha hb h => hH _ _ ha hb
    ⟨⟨refl _, refl _, refl _⟩, h⟩) F.M F'.M hF hF'
  exact h1.trans h2

/-- **C74 fails for vectors.**  Whatever the hash of a `double` is, as long as it is not constant, there are vectors that
compare equal and have different codes. -/
theorem C74_vector_violated (h : ℝ → UInt64) (hh : ∃ x y, h x ≠ h y) : ∃ a b, Vec.eqOp a b ∧ Vec.hash h a ≠ Vec.hash h b := by
  by_contra hc
  push Not at hc
  obtain ⟨x, y, hxy⟩ := hh
  exact hxy ((C74_last h).1 0 0 x y (C74_vector_only_constant _ hc _ _))

/-- **C74 fails for planar vectors.** -/
theorem C74_vector2_violated (h : ℝ → UInt64) (hh : ∃ x y, h x ≠ h y) :
    ∃ a b, Vec2.eqOp a b ∧ Vec2.hash h a ≠ Vec2.hash h b := by
  by_contra hc
  push Not at hc
  obtain ⟨x, y, hxy⟩ := hh
  have refl : ∀ x, realEqual x x epsilon := fun x => by rw [C15_scalar]; simpa using epsilon_pos
  have key := const_of_path hc (f := fun t => ⟨0, x + t * (y - x)⟩) (fun t =>
    (near (g := fun t => x + t * (y - x)) (by fun_prop) t).mono fun s hs => ⟨refl _, hs⟩) 0 1
  exact hxy ((C74_last h).2.1 0 x y (by simpa using key))

/-- **C74 fails for wrenches.** -/
theorem C74_wrench_violated (h : ℝ → UInt64) (hh : ∃ x y, h x ≠ h y) :
    ∃ a b, Wrench.eqOp a b ∧ Wrench.hash h a ≠ Wrench.hash h b := by
  obtain ⟨a, b, e, hne⟩ := C74_vector_violated h hh
  have refl : ∀ x, realEqual x x epsilon := fun x => by rw [C15_scalar]; simpa using epsilon_pos
  exact ⟨⟨0, a⟩, ⟨0, b⟩, ⟨⟨refl _, refl _, refl _⟩, e⟩, fun h' => hne ((C74_last h).2.2.2.1 _ _ _ h')⟩

/-- **C74 fails for twists.** -/
theorem C74_twist_violated (h : ℝ → UInt64) (hh : ∃ x y, h x ≠ h y) :
    ∃ a b, Twist.eqOp a b ∧ Twist.hash h a ≠ Twist.hash h b := by
  obtain ⟨a, b, e, hne⟩ := C74_vector_violated h hh
  have refl : ∀ x, realEqual x x epsilon := fun x => by rw [C15_scalar]; simpa using epsilon_pos
  exact ⟨⟨0, a⟩, ⟨0, b⟩, ⟨e, ⟨refl _, refl _, refl _⟩⟩, fun h' => hne ((C74_last h).2.2.2.2.1 _ _ _ h')⟩

/-- **C74 fails for rotations** and for frames, if there are rotations whose codes differ. -/
theorem C74_rotation_violated (h : ℝ → UInt64) (R R' : Rot) (hR : R.IsProper) (hR' : R'.IsProper)
    (hh : R.hash h ≠ R'.hash h) :
    (∃ a b : Rot, a.IsProper ∧ b.IsProper ∧ Rot.eqOp a b ∧ Rot.hash h a ≠ Rot.hash h b) ∧
      ∃ a b : Frame, a.M.IsProper ∧ b.M.IsProper ∧ Frame.eqOp a b ∧ Frame.hash h a ≠ Frame.hash h b := by
  have key : ∃ a b : Rot, a.IsProper ∧ b.IsProper ∧ Rot.eqOp a b ∧ Rot.hash h a ≠ Rot.hash h b := by
    by_contra hc
    push Not at hc
    exact hh (C74_rotation_only_constant _ hc R R' hR hR')
  refine ⟨key, ?_⟩
  obtain ⟨a, b, ha, hb, e, hne⟩ := key
  have refl : ∀ x, realEqual x x epsilon := fun x => by rw [C15_scalar]; simpa using epsilon_pos
  exact ⟨⟨a, 0⟩, ⟨b, 0⟩, ha, hb, ⟨⟨refl _, refl _, refl _⟩, e⟩, fun h' => hne ((C74_last h).2.2.2.2.2.1 _ _ _ h')⟩

/-- There are such hash functions and rotations. -/
example : ∃ (h : ℝ → UInt64) (R : Rot), R.IsProper ∧ Rot.hash h R ≠ Rot.hash h 1 := by
  refine ⟨fun x => if x = 1 then 1 else 0, Rot.quaternion 0 0 (3 / 5) (4 / 5), Rot.isProper_quaternion _ _ _ _ (by norm_num), ?_⟩
  have e : (1 : Rot) = Rot.quaternion 0 0 0 1 := by ext <;> simp [Rot.quaternion]
  rw [e, ((C74_rotation _ _ _ _ _ (by norm_num)).2.2 (by unfold Canonical; norm_num)).1,
    ((C74_rotation _ _ _ _ _ (by norm_num)).2.2 (by unfold Canonical; norm_num)).1]
  norm_num [Vec.hash]
  decide

end KDL
