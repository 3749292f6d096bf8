import Verif.Lemmas.ChainKin
import Verif.Lemmas.RoundingIk
import Verif.Props.RoundingJac
import Mathlib.Analysis.SpecialFunctions.Trigonometric.Deriv
import Mathlib.Analysis.Calculus.Deriv.MeanValue
import Mathlib.Analysis.SpecialFunctions.Trigonometric.Bounds

/-! Second order bounds for rotations, segments and chains (for C101). -/

noncomputable section
namespace KDL

theorem vlen_sub_le (a b : Vec) : vlen (a - b) ≤ vlen a + vlen b := by
  have h := vlen_add a ((-1 : ℝ) • b)
  rw [FlM.vlen_smul] at h
  have e : a + (-1 : ℝ) • b = a - b := by ext <;> simp <;> ring
  rw [e] at h
  simpa using h

theorem dot_eq_vlen (v : Vec) : v.dot v = vlen v ^ 2 := by rw [vlen_sq]; simp [Vec.dot]; ring

theorem trig_second {x : ℝ} : (1 - Real.cos x) ^ 2 + (x - Real.sin x) ^ 2 ≤ (x ^ 2 / 2) ^ 2 := by
  have key : ∀ y : ℝ, 0 ≤ y → 0 ≤ y ^ 4 / 4 - 2 + 2 * Real.cos y - y ^ 2 + 2 * y * Real.sin y := by
    intro y hy
    have hd : ∀ t : ℝ, HasDerivAt (fun y : ℝ => y ^ 4 / 4 - 2 + 2 * Real.cos y - y ^ 2 + 2 * y * Real.sin y)
        (t * (t ^ 2 - 2 * (1 - Real.cos t))) t := by
      intro t
      have h := (((((hasDerivAt_pow 4 t).div_const 4).sub_const 2).add ((Real.hasDerivAt_cos t).const_mul 2)).sub (hasDerivAt_pow 2 t)).add
        (((hasDerivAt_id t).const_mul 2).mul (Real.hasDerivAt_sin t))
      refine h.congr_deriv ?_
      simp
      ring
    have hm : MonotoneOn (fun y : ℝ => y ^ 4 / 4 - 2 + 2 * Real.cos y - y ^ 2 + 2 * y * Real.sin y) (Set.Ici 0) := by
      refine monotoneOn_of_deriv_nonneg (convex_Ici 0) (fun t _ => (hd t).continuousAt.continuousWithinAt)
        (fun t _ => (hd t).differentiableAt.differentiableWithinAt) (fun t ht => ?_)
      rw [(hd t).deriv]
      rw [interior_Ici] at ht
      have := Real.one_sub_sq_div_two_le_cos (x := t)
      exact mul_nonneg (le_of_lt ht) (by linarith)
    have := hm (Set.mem_Ici.mpr le_rfl) (Set.mem_Ici.mpr hy) hy
    norm_num at this
    linarith
  have h1 : (1 - Real.cos x) ^ 2 + (x - Real.sin x) ^ 2 = 2 - 2 * Real.cos x + x ^ 2 - 2 * x * Real.sin x := by
    have := Real.sin_sq_add_cos_sq x
    linear_combination this
  rw [h1]
  rcases le_total 0 x with h | h
  · have := key x h; linarith [show (x ^ 2 / 2) ^ 2 = x ^ 4 / 4 by ring]
  · have := key (-x) (by linarith)
    rw [Real.cos_neg, Real.sin_neg] at this
    linarith [show (x ^ 2 / 2) ^ 2 = x ^ 4 / 4 by ring, show (-x) ^ 4 = x ^ 4 by ring, show (-x) ^ 2 = x ^ 2 by ring,
      show 2 * -x * -Real.sin x = 2 * x * Real.sin x by ring]

/-- Part of `v` across the unit vector `u`. -/
theorem across_le {u : Vec} (hu : u.dot u = 1) (v : Vec) :
    vlen (u * v) ^ 2 = vlen v ^ 2 - u.dot v ^ 2 := by
  rw [vlen_sq, vlen_sq]
  simp only [Vec.dot] at hu ⊢
  simp
  linear_combination (v.x ^ 2 + v.y ^ 2 + v.z ^ 2) * hu

/-- Two vectors of the same length across each other. -/
theorem vlen_comb {p w : Vec} (h1 : p.dot w = 0) (h2 : p.dot p = w.dot w) (a b : ℝ) :
    vlen (a • p + b • w) ^ 2 = (a ^ 2 + b ^ 2) * vlen w ^ 2 := by
  rw [vlen_sq, vlen_sq]
  simp only [Vec.dot] at h1 h2
  simp
  linear_combination 2 * a * b * h1 + a ^ 2 * h2

theorem across_orth (u v : Vec) : (v - u.dot v • u).dot (u * v) = 0 := by
  simp [Vec.dot]
  ring

theorem across_len {u : Vec} (hu : u.dot u = 1) (v : Vec) : (v - u.dot v • u).dot (v - u.dot v • u) = (u * v).dot (u * v) := by
  rw [dot_eq_vlen (u * v), across_le hu, vlen_sq]
  simp only [Vec.dot] at hu ⊢
  simp
  linear_combination (u.x * v.x + u.y * v.y + u.z * v.z) ^ 2 * hu

theorem across_vlen {u : Vec} (hu : u.dot u = 1) (v : Vec) : vlen (u * v) ^ 2 ≤ vlen v ^ 2 := by
  have h1 := across_le hu v
  nlinarith [sq_nonneg (u.dot v)]

theorem rot2_first {u : Vec} (hu : u.dot u = 1) (a : ℝ) (v : Vec) : vlen (Rot.rot2 u a * v - v) ≤ |a| * vlen v := by
  refine abs_le_of_sq_le_sq' ?_ (by have := vlen_nonneg v; positivity) |>.2
  have e : Rot.rot2 u a * v - v = (Real.cos a - 1) • (v - u.dot v • u) + Real.sin a • (u * v) := by
    rw [Rot.rot2_app]
    ext <;> simp <;> ring
  rw [e, vlen_comb (across_orth u v) (across_len hu v), mul_pow, sq_abs]
  have h2 := Real.one_sub_sq_div_two_le_cos (x := a)
  have h3 := Real.sin_sq_add_cos_sq a
  exact mul_le_mul (by nlinarith) (across_vlen hu v) (sq_nonneg _) (sq_nonneg _)

theorem rot2_second {u : Vec} (hu : u.dot u = 1) (a : ℝ) (v : Vec) :
    vlen (Rot.rot2 u a * v - v - (a • u) * v) ≤ a ^ 2 / 2 * vlen v := by
  refine abs_le_of_sq_le_sq' ?_ (by have := vlen_nonneg v; positivity) |>.2
  have e : Rot.rot2 u a * v - v - (a • u) * v = (Real.cos a - 1) • (v - u.dot v • u) + (Real.sin a - a) • (u * v) := by
    rw [Rot.rot2_app]
    ext <;> simp <;> ring
  rw [e, vlen_comb (across_orth u v) (across_len hu v), mul_pow]
  refine mul_le_mul ?_ (across_vlen hu v) (sq_nonneg _) (sq_nonneg _)
  have := trig_second (x := a)
  nlinarith

/-- `X'` is `X` after a small motion with the twist `t`: rotations by at most `a`, slides by at most `T`, lengths at most `L`. -/
structure Moved (X X' : Frame) (t : Twist) (a T L : ℝ) : Prop where
  proper : X.M.IsProper
  proper' : X'.M.IsProper
  a0 : 0 ≤ a
  T0 : 0 ≤ T
  len : vlen X.p ≤ L
  len' : vlen X'.p ≤ L
  rot : vlen t.rot ≤ a
  first : ∀ v, vlen (X'.M * v - X.M * v) ≤ a * vlen v
  second : ∀ v, vlen (X'.M * v - X.M * v - t.rot * (X.M * v)) ≤ a ^ 2 / 2 * vlen v
  pos : vlen (X'.p - X.p) ≤ L * a + T
  rem : vlen (X'.p - X.p - t.vel) ≤ L * a ^ 2 / 2 + a * T

theorem vlen_zero : vlen 0 = 0 := by simp [vlen]

theorem Moved.one : Moved 1 1 0 0 0 0 := by
  refine ⟨Rot.IsProper.one, Rot.IsProper.one, le_rfl, le_rfl, ?_, ?_, ?_, ?_, ?_, ?_, ?_⟩
  · simp [vlen]
  · simp [vlen]
  · simp [vlen]
  · intro v; simp [vlen]
  · intro v; simp [vlen]
  · simp [vlen]
  · simp [vlen]

theorem Moved.mul {A A' B B' : Frame} {s t : Twist} {a b S T K L : ℝ} (hA : Moved A A' s a S K) (hB : Moved B B' t b T L) :
    Moved (A * B) (A' * B') ⟨s.vel + s.rot * (A.M * B.p) + A.M * t.vel, s.rot + A.M * t.rot⟩ (a + b) (S + T) (K + L) := by
  have hK : 0 ≤ K := (vlen_nonneg _).trans hA.len
  have hL : 0 ≤ L := (vlen_nonneg _).trans hB.len
  refine ⟨hA.proper.mul hB.proper, hA.proper'.mul hB.proper', add_nonneg hA.a0 hB.a0, add_nonneg hA.T0 hB.T0, ?_, ?_, ?_, ?_, ?_, ?_, ?_⟩
  · rw [Frame.mul_p]
    refine (vlen_add _ _).trans ?_
    rw [vlen_mul_proper hA.proper]
    linarith [hA.len, hB.len]
  · rw [Frame.mul_p]
    refine (vlen_add _ _).trans ?_
    rw [vlen_mul_proper hA.proper']
    linarith [hA.len', hB.len']
  · refine (vlen_add _ _).trans ?_
    rw [vlen_mul_proper hA.proper]
    linarith [hA.rot, hB.rot]
  · intro v
    have e : (A' * B').M * v - (A * B).M * v = (A'.M * (B'.M * v) - A.M * (B'.M * v)) + A.M * (B'.M * v - B.M * v) := by
      simp only [Frame.mul_M]
      ext <;> simp <;> ring
    rw [e]
    refine (vlen_add _ _).trans ?_
    rw [vlen_mul_proper hA.proper]
    have h1 := hA.first (B'.M * v)
    rw [vlen_mul_proper hB.proper'] at h1
    linarith [hB.first v]
  · intro v
    have e : (A' * B').M * v - (A * B).M * v - (s.rot + A.M * t.rot) * ((A * B).M * v) =
        (A'.M * (B'.M * v) - A.M * (B'.M * v) - s.rot * (A.M * (B'.M * v))) +
        (A.M * (B'.M * v - B.M * v - t.rot * (B.M * v)) + s.rot * (A.M * (B'.M * v - B.M * v))) := by
      have h := hA.proper.cross t.rot (B.M * v)
      simp only [Frame.mul_M, Rot.mul_app, Rot.app_sub, Vec.cross_sub, Vec.add_cross, ← h]
      abel
    rw [e]
    refine (vlen_add _ _).trans ?_
    have h1 := hA.second (B'.M * v)
    rw [vlen_mul_proper hB.proper'] at h1
    have h2 := (vlen_add (A.M * (B'.M * v - B.M * v - t.rot * (B.M * v))) (s.rot * (A.M * (B'.M * v - B.M * v))))
    rw [vlen_mul_proper hA.proper] at h2
    have h3 := vlen_cross s.rot (A.M * (B'.M * v - B.M * v))
    rw [vlen_mul_proper hA.proper] at h3
    have h4 := mul_le_mul hA.rot (hB.first v) (vlen_nonneg _) hA.a0
    have h5 := hB.second v
    have : (a + b) ^ 2 / 2 * vlen v = a ^ 2 / 2 * vlen v + b ^ 2 / 2 * vlen v + a * (b * vlen v) := by ring
    linarith
  · have e : (A' * B').p - (A * B).p = (A'.p - A.p) + ((A'.M * B'.p - A.M * B'.p) + A.M * (B'.p - B.p)) := by
      simp only [Frame.mul_p]
      ext <;> simp <;> ring
    rw [e]
    refine (vlen_add _ _).trans ?_
    have h1 := vlen_add (A'.M * B'.p - A.M * B'.p) (A.M * (B'.p - B.p))
    rw [vlen_mul_proper hA.proper] at h1
    have h2 := (hA.first B'.p).trans (mul_le_mul_of_nonneg_left hB.len' hA.a0)
    have := mul_nonneg hK hB.a0
    linarith [hA.pos, hB.pos, show (K + L) * (a + b) = K * a + K * b + L * a + L * b by ring]
  · have e : (A' * B').p - (A * B).p - (s.vel + s.rot * (A.M * B.p) + A.M * t.vel) = (A'.p - A.p - s.vel) +
        ((A'.M * B'.p - A.M * B'.p - s.rot * (A.M * B'.p)) + (A.M * (B'.p - B.p - t.vel) + s.rot * (A.M * (B'.p - B.p)))) := by
      simp only [Frame.mul_p]
      ext <;> simp <;> ring
    dsimp only
    rw [e]
    refine (vlen_add _ _).trans ?_
    have h0 := vlen_add (A'.M * B'.p - A.M * B'.p - s.rot * (A.M * B'.p)) (A.M * (B'.p - B.p - t.vel) + s.rot * (A.M * (B'.p - B.p)))
    have h1 := vlen_add (A.M * (B'.p - B.p - t.vel)) (s.rot * (A.M * (B'.p - B.p)))
    have h2 := vlen_cross s.rot (A.M * (B'.p - B.p))
    rw [vlen_mul_proper hA.proper] at h1 h2
    have h3 := mul_le_mul hA.rot hB.pos (vlen_nonneg _) hA.a0
    have h4 := (hA.second B'.p).trans (mul_le_mul_of_nonneg_left hB.len' (by have := hA.a0; positivity))
    have h5 := hA.rem
    have h6 := hB.rem
    have p1 := mul_nonneg hK (mul_nonneg hA.a0 hB.a0)
    have p2 := mul_nonneg hK (sq_nonneg b)
    have p3 := mul_nonneg hB.a0 hA.T0
    linarith [show (K + L) * (a + b) ^ 2 / 2 + (a + b) * (S + T) = K * a ^ 2 / 2 + K * (a * b) + K * b ^ 2 / 2 + L * a ^ 2 / 2 + L * (a * b) +
      L * b ^ 2 / 2 + a * S + a * T + b * S + b * T by ring, show a * (L * b + T) = L * (a * b) + a * T by ring,
      show a ^ 2 / 2 * L = L * a ^ 2 / 2 by ring]

/-- Turning (in radians) and sliding of one joint for the displacement `x`. -/
def Joint.turns (j : Joint) (x : ℝ) : ℝ :=
  match j.type with
  | .RotAxis | .RotX | .RotY | .RotZ => |j.scale * x|
  | _ => 0
def Joint.slides (j : Joint) (x : ℝ) : ℝ :=
  match j.type with
  | .TransAxis | .TransX | .TransY | .TransZ => |j.scale * x|
  | _ => 0
/-- Extension of a sliding joint. -/
def Joint.extension (j : Joint) (q : ℝ) : ℝ :=
  match j.type with
  | .TransAxis | .TransX | .TransY | .TransZ => |j.scale * q + j.offset|
  | _ => 0

/-- Bound of the length of a segment at the joint positions `q` and `q'`. -/
def Segment.span (s : Segment) (q q' : ℝ) : ℝ :=
  vlen s.joint.origin + vlen s.f_tip.p + s.joint.extension q + s.joint.extension q'

theorem vlen_unit {u : Vec} (h : u.dot u = 1) : vlen u = 1 := by
  rw [dot_eq_vlen] at h
  nlinarith [vlen_nonneg u]

theorem Segment.moved_rot {u o : Vec} (hu : u.dot u = 1) {f : Frame} (hf : f.M.IsProper) (a h L : ℝ) (hL : vlen o + vlen f.p ≤ L) :
    Moved (⟨Rot.rot2 u a, o⟩ * f) (⟨Rot.rot2 u (a + h), o⟩ * f) ⟨(h • u) * (Rot.rot2 u a * f.p), h • u⟩ |h| 0 L := by
  have hR := Rot.isProper_rot2 u hu a
  have hR' := Rot.isProper_rot2 u hu (a + h)
  have e : ∀ v : Vec, Rot.rot2 u (a + h) * v = Rot.rot2 u h * (Rot.rot2 u a * v) := by
    intro v; rw [add_comm, ← Rot.rot2_mul u hu, Rot.mul_app]
  have fL : vlen f.p ≤ L := by linarith [vlen_nonneg o]
  refine ⟨hR.mul hf, hR'.mul hf, abs_nonneg _, le_rfl, ?_, ?_, ?_, ?_, ?_, ?_, ?_⟩
  · rw [Frame.mul_p]
    refine (vlen_add _ _).trans ?_
    dsimp only
    rw [vlen_mul_proper hR]
    linarith
  · rw [Frame.mul_p]
    refine (vlen_add _ _).trans ?_
    dsimp only
    rw [vlen_mul_proper hR']
    linarith
  · dsimp only
    rw [FlM.vlen_smul, vlen_unit hu, mul_one]
  · intro v
    simp only [Frame.mul_M, Rot.mul_app, e]
    refine (rot2_first hu h _).trans ?_
    rw [vlen_mul_proper hR, vlen_mul_proper hf]
  · intro v
    simp only [Frame.mul_M, Rot.mul_app, e]
    refine (rot2_second hu h _).trans ?_
    rw [vlen_mul_proper hR, vlen_mul_proper hf, sq_abs]
  · have e1 : ((⟨Rot.rot2 u (a + h), o⟩ : Frame) * f).p - ((⟨Rot.rot2 u a, o⟩ : Frame) * f).p =
        Rot.rot2 u h * (Rot.rot2 u a * f.p) - Rot.rot2 u a * f.p := by
      simp only [Frame.mul_p, e]; abel
    rw [e1]
    refine (rot2_first hu h _).trans ?_
    rw [vlen_mul_proper hR]
    nlinarith [mul_le_mul_of_nonneg_left fL (abs_nonneg h)]
  · have e1 : ((⟨Rot.rot2 u (a + h), o⟩ : Frame) * f).p - ((⟨Rot.rot2 u a, o⟩ : Frame) * f).p - (h • u) * (Rot.rot2 u a * f.p) =
        Rot.rot2 u h * (Rot.rot2 u a * f.p) - Rot.rot2 u a * f.p - (h • u) * (Rot.rot2 u a * f.p) := by
      simp only [Frame.mul_p, e]; abel
    rw [e1]
    refine (rot2_second hu h _).trans ?_
    rw [vlen_mul_proper hR, sq_abs]
    nlinarith [mul_le_mul_of_nonneg_left fL (sq_nonneg h)]

theorem Segment.moved_trans {u o : Vec} (hu : u.dot u = 1) {f : Frame} (hf : f.M.IsProper) (a h L : ℝ)
    (hL : vlen o + vlen f.p + |a| + |a + h| ≤ L) :
    Moved (Frame.ofVec (o + a • u) * f) (Frame.ofVec (o + (a + h) • u) * f) ⟨h • u, 0⟩ 0 |h| L := by
  refine ⟨Rot.IsProper.one.mul hf, Rot.IsProper.one.mul hf, le_rfl, abs_nonneg _, ?_, ?_, ?_, ?_, ?_, ?_, ?_⟩
  · rw [Frame.mul_p]
    simp only [Frame.ofVec, Rot.one_app]
    have h1 := vlen_add f.p (o + a • u)
    have h2 := vlen_add o (a • u)
    rw [FlM.vlen_smul, vlen_unit hu, mul_one] at h2
    linarith [abs_nonneg (a + h)]
  · rw [Frame.mul_p]
    simp only [Frame.ofVec, Rot.one_app]
    have h1 := vlen_add f.p (o + (a + h) • u)
    have h2 := vlen_add o ((a + h) • u)
    rw [FlM.vlen_smul, vlen_unit hu, mul_one] at h2
    linarith [abs_nonneg a]
  · exact le_of_eq vlen_zero
  · intro v; simp [Frame.ofVec, vlen]
  · intro v; simp [Frame.ofVec, vlen]
  · have e1 : (Frame.ofVec (o + (a + h) • u) * f).p - (Frame.ofVec (o + a • u) * f).p = h • u := by
      ext <;> simp [Frame.ofVec] <;> ring
    rw [e1, FlM.vlen_smul, vlen_unit hu]
    linarith
  · have e1 : (Frame.ofVec (o + (a + h) • u) * f).p - (Frame.ofVec (o + a • u) * f).p - h • u = 0 := by
      ext <;> simp [Frame.ofVec] <;> ring
    dsimp only
    rw [e1, vlen_zero]
    simp

theorem Moved.mono_len {X X' : Frame} {t : Twist} {a T L L' : ℝ} (h : Moved X X' t a T L) (hL : L ≤ L') : Moved X X' t a T L' := by
  have := mul_le_mul_of_nonneg_right hL h.a0
  have := mul_le_mul_of_nonneg_right hL (sq_nonneg a)
  exact ⟨h.proper, h.proper', h.a0, h.T0, h.len.trans hL, h.len'.trans hL, h.rot, h.first, h.second, by linarith [h.pos], by linarith [h.rem]⟩

theorem Segment.moved (s : Segment) (hs : s.Valid) (q h : ℝ) :
    Moved (s.pose q) (s.pose (q + h)) (s.twist q h) (s.joint.turns h) (s.joint.slides h) (s.span q (q + h)) := by
  obtain ⟨hj, hf⟩ := hs
  have ea : s.joint.scale * (q + h) + s.joint.offset = s.joint.scale * q + s.joint.offset + s.joint.scale * h := by ring
  have ux : (⟨1, 0, 0⟩ : Vec).dot ⟨1, 0, 0⟩ = 1 := by simp [Vec.dot]
  have uy : (⟨0, 1, 0⟩ : Vec).dot ⟨0, 1, 0⟩ = 1 := by simp [Vec.dot]
  have uz : (⟨0, 0, 1⟩ : Vec).dot ⟨0, 0, 1⟩ = 1 := by simp [Vec.dot]
  have o0 := vlen_nonneg s.joint.origin
  have f0 := vlen_nonneg s.f_tip.p
  have z0 : vlen (⟨0, 0, 0⟩ : Vec) = 0 := by simp [vlen]
  have t0 : vlen (0 : Vec) = 0 := vlen_zero
  unfold Segment.pose Segment.twist Segment.span Joint.turns Joint.slides Joint.extension Joint.pose Joint.twist
  cases ht : s.joint.type <;> simp only [ea]
  · have := Segment.moved_rot (o := s.joint.origin) (hj (.inl ht)) hf (s.joint.scale * q + s.joint.offset) (s.joint.scale * h) _ le_rfl
    refine Moved.mono_len (L := vlen s.joint.origin + vlen s.f_tip.p) ?_ (by linarith)
    convert this using 1
    ext <;> simp [Twist.refPoint]
  · have := Segment.moved_rot (o := 0) ux hf (s.joint.scale * q + s.joint.offset) (s.joint.scale * h) _ le_rfl
    refine Moved.mono_len (L := vlen 0 + vlen s.f_tip.p) ?_ (by linarith)
    simp only [Rot.rotX_eq, Frame.ofRot]
    convert this using 1
    ext <;> simp [Twist.refPoint]
  · have := Segment.moved_rot (o := 0) uy hf (s.joint.scale * q + s.joint.offset) (s.joint.scale * h) _ le_rfl
    refine Moved.mono_len (L := vlen 0 + vlen s.f_tip.p) ?_ (by linarith)
    simp only [Rot.rotY_eq, Frame.ofRot]
    convert this using 1
    ext <;> simp [Twist.refPoint]
  · have := Segment.moved_rot (o := 0) uz hf (s.joint.scale * q + s.joint.offset) (s.joint.scale * h) _ le_rfl
    refine Moved.mono_len (L := vlen 0 + vlen s.f_tip.p) ?_ (by linarith)
    simp only [Rot.rotZ_eq, Frame.ofRot]
    convert this using 1
    ext <;> simp [Twist.refPoint]
  · have := Segment.moved_trans (o := s.joint.origin) (hj (.inr ht)) hf (s.joint.scale * q + s.joint.offset) (s.joint.scale * h) _ le_rfl
    convert this using 1
    ext <;> simp [Twist.refPoint]
  · have := Segment.moved_trans (o := 0) ux hf (s.joint.scale * q + s.joint.offset) (s.joint.scale * h) _ le_rfl
    refine Moved.mono_len (L := vlen 0 + vlen s.f_tip.p + |s.joint.scale * q + s.joint.offset| +
      |s.joint.scale * q + s.joint.offset + s.joint.scale * h|) ?_ (by linarith)
    convert this using 1
    · congr 2; ext <;> simp
    · congr 2; ext <;> simp
    · ext <;> simp [Twist.refPoint]
  · have := Segment.moved_trans (o := 0) uy hf (s.joint.scale * q + s.joint.offset) (s.joint.scale * h) _ le_rfl
    refine Moved.mono_len (L := vlen 0 + vlen s.f_tip.p + |s.joint.scale * q + s.joint.offset| +
      |s.joint.scale * q + s.joint.offset + s.joint.scale * h|) ?_ (by linarith)
    convert this using 1
    · congr 2; ext <;> simp
    · congr 2; ext <;> simp
    · ext <;> simp [Twist.refPoint]
  · have := Segment.moved_trans (o := 0) uz hf (s.joint.scale * q + s.joint.offset) (s.joint.scale * h) _ le_rfl
    refine Moved.mono_len (L := vlen 0 + vlen s.f_tip.p + |s.joint.scale * q + s.joint.offset| +
      |s.joint.scale * q + s.joint.offset + s.joint.scale * h|) ?_ (by linarith)
    convert this using 1
    · congr 2; ext <;> simp
    · congr 2; ext <;> simp
    · ext <;> simp [Twist.refPoint]
  · have h1 : Moved (1 * s.f_tip) (1 * s.f_tip) ((0 : Twist).refPoint ((1 : Frame).M * s.f_tip.p)) 0 0 (vlen s.f_tip.p) := by
      have e : (0 : Twist).refPoint ((1 : Frame).M * s.f_tip.p) = 0 := by ext <;> simp [Twist.refPoint]
      rw [e, one_mul]
      refine ⟨hf, hf, le_rfl, le_rfl, le_rfl, le_rfl, ?_, ?_, ?_, ?_, ?_⟩
      · simp [vlen]
      · intro v; simp [vlen]
      · intro v; simp [vlen]
      · simp [vlen]
      · simp [vlen]
    exact h1.mono_len (by linarith)

/-! ## chains -/

/-- Sum of the turnings of all joints for the displacements `d`, the first moving segment using joint `j`. -/
def turnSum (d : ℕ → ℝ) : List Segment → ℕ → ℝ
  | [], _ => 0
  | s :: ss, j => if s.moving then s.joint.turns (d j) + turnSum d ss (j + 1) else turnSum d ss j
/-- Sum of the slides. -/
def slideSum (d : ℕ → ℝ) : List Segment → ℕ → ℝ
  | [], _ => 0
  | s :: ss, j => if s.moving then s.joint.slides (d j) + slideSum d ss (j + 1) else slideSum d ss j
/-- Bound of the distances of the tip and the joints, at `q` and `q'`. -/
def spanSum (q q' : ℕ → ℝ) : List Segment → ℕ → ℝ
  | [], _ => 0
  | s :: ss, j => if s.moving then s.span (q j) (q' j) + spanSum q q' ss (j + 1) else s.span 0 0 + spanSum q q' ss j

/-- Pose and velocity of the chain, multiplied from the tip. -/
def velF (q d : ℕ → ℝ) : List Segment → ℕ → FrameVel
  | [], _ => .ofTwist 1 0
  | s :: ss, j =>
    if s.moving then (FrameVel.ofTwist (s.pose (q j)) (s.twist (q j) (d j))).mul (velF q d ss (j + 1))
    else (FrameVel.ofTwist (s.pose 0) (s.twist 0 0)).mul (velF q d ss j)

theorem velF_frame (q d : ℕ → ℝ) : ∀ (ss : List Segment) (j : ℕ), (velF q d ss j).getFrame = fkF q ss j := by
  intro ss
  induction ss with
  | nil => intro j; rfl
  | cons s ss ih =>
    intro j
    unfold velF fkF
    split_ifs
    · rw [← ih]; rfl
    · rw [← ih]; rfl

theorem moved_chain (q d : ℕ → ℝ) : ∀ (ss : List Segment) (j : ℕ), (∀ s ∈ ss, s.Valid) →
    Moved (fkF q ss j) (fkF (fun i => q i + d i) ss j) (velF q d ss j).getTwist (turnSum d ss j) (slideSum d ss j)
      (spanSum q (fun i => q i + d i) ss j) := by
  intro ss
  induction ss with
  | nil => intro j _; exact Moved.one
  | cons s ss ih =>
    intro j h
    have h1 := h s (by simp)
    have h2 : ∀ x ∈ ss, x.Valid := fun x hx => h x (by simp [hx])
    have key : ∀ (x y : ℝ) (k : ℕ), (FrameVel.mul (FrameVel.ofTwist (s.pose x) (s.twist x y)) (velF q d ss k)).getTwist =
        ⟨(s.twist x y).vel + (s.twist x y).rot * ((s.pose x).M * (fkF q ss k).p) + (s.pose x).M * (velF q d ss k).getTwist.vel,
         (s.twist x y).rot + (s.pose x).M * (velF q d ss k).getTwist.rot⟩ := by
      intro x y k
      rw [← velF_frame q d ss k]
      ext <;> simp [FrameVel.mul, FrameVel.getTwist, FrameVel.getFrame, FrameVel.ofTwist, RotVel.mul, RotVel.app, VecVel.add] <;> ring
    unfold fkF velF turnSum slideSum spanSum
    split_ifs with hm
    · rw [key]
      exact (Segment.moved s h1 _ _).mul (ih _ h2)
    · rw [key]
      have := Segment.moved s h1 0 0
      rw [add_zero] at this
      have z1 : s.joint.turns 0 = 0 := by unfold Joint.turns; split <;> simp
      have z2 : s.joint.slides 0 = 0 := by unfold Joint.slides; split <;> simp
      rw [z1, z2] at this
      have := this.mul (ih j h2)
      rwa [zero_add, zero_add] at this

theorem velF_rep (Q : ℝ → ℕ → ℝ) (qd : ℕ → ℝ) (τ : ℝ) (hq : JntHasDeriv Q qd τ) : ∀ (ss : List Segment) (j : ℕ), (∀ s ∈ ss, s.Valid) →
    (velF (Q τ) qd ss j).Rep (fun t => fkF (Q t) ss j) τ := by
  intro ss
  induction ss with
  | nil => intro j _; exact ⟨⟨rfl, Rot.HasAngVel.const 1⟩, ⟨rfl, Vec.HasDeriv.const _⟩⟩
  | cons s ss ih =>
    intro j h
    have h1 := h s (by simp)
    have h2 : ∀ x ∈ ss, x.Valid := fun x hx => h x (by simp [hx])
    have k1 : ∀ (x : ℝ → ℝ) (y : ℝ) (k : ℕ), HasDerivAt x y τ →
        (FrameVel.mul (.ofTwist (s.pose (x τ)) (s.twist (x τ) y)) (velF (Q τ) qd ss k)).Rep (fun t => s.pose (x t) * fkF (Q t) ss k) τ := by
      intro x y k hx
      have a1 : (FrameVel.ofTwist (s.pose (x τ)) (s.twist (x τ) y)).Rep (fun t => s.pose (x t)) τ := rep_segment h1.1 hx
      have a2 := ih k h2
      have a3 : ((fun t => s.pose (x t)) τ).IsProper := Segment.isProper_pose h1 _
      exact C18_frame_mul a3 a1 a2
    by_cases hm : s.moving
    · have := k1 (fun t => Q t j) (qd j) (j + 1) (hq j)
      simpa only [velF, fkF, if_pos hm] using this
    · have := k1 (fun _ => 0) 0 j (hasDerivAt_const τ 0)
      simpa only [velF, fkF, if_neg hm] using this

end KDL
