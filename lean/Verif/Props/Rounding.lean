import Verif.Lemmas.Rounding
import Verif.Props.ForwardKinematics

/-!
# C98 – rounding errors of the forward kinematics
-/

noncomputable section
namespace KDL

/-- `R` is within `e` of `Q` in the rotation (Frobenius norm) and within `e'` in the position. -/
def Near (e e' : ℝ) (R Q : Frame) : Prop := rdist R.M Q.M ≤ e ∧ vdist R.p Q.p ≤ e'

/-- Bound of the rotation error after `n` products, where `k` is that of a single one. -/
def rotErr (k : ℝ) (n : ℕ) : ℝ := Real.sqrt 3 * ((1 + k) ^ n - 1)
/-- What the `n`-th product adds to the position error; `l` bounds the lengths of the segments, `e'` their errors. -/
def posStep (u g k l e' : ℝ) (n : ℕ) : ℝ :=
  (1 + u) * (e' + (rotErr k n + g * (Real.sqrt 3 * (1 + k) ^ n)) * (l + e')) + u * ((n + 1) * l)
/-- Bound of the position error after `n` products. -/
def posErr (u g k l e' : ℝ) (n : ℕ) : ℝ := n * ((1 + u) ^ n * posStep u g k l e' n)

theorem frameMul_step {F : Fl} (hF : F.Ok) {P X R Q : Frame} (hX : X.M.IsProper) (hQ : Q.M.IsProper) {d e r r' : ℝ}
    (hP : Near d e P X) (hR : Near r r' R Q) :
    rdist (F.frameMul P R).M (X * Q).M ≤ (Real.sqrt 3 + d) * (1 + (r + F.g3 * (Real.sqrt 3 + r))) - Real.sqrt 3 ∧
    vdist (F.frameMul P R).p (X * Q).p ≤
      (1 + F.u) * (e + r' + (d + F.g3 * (Real.sqrt 3 + d)) * (vlen Q.p + r')) + F.u * (vlen Q.p + vlen X.p) := by
  obtain ⟨h1, h2⟩ := hP
  obtain ⟨h3, h4⟩ := hR
  have g0 := Fl.g3_nonneg hF
  have u0 := hF.nonneg
  have d0 : 0 ≤ d := (rdist_nonneg _ _).trans h1
  have r0 : 0 ≤ r := (rdist_nonneg _ _).trans h3
  have fP : fro P.M ≤ Real.sqrt 3 + d := by
    have := fro_le P.M X.M
    rw [fro_proper hX] at this
    linarith
  have fR : fro R.M ≤ Real.sqrt 3 + r := by
    have := fro_le R.M Q.M
    rw [fro_proper hQ] at this
    linarith
  have s3 : 0 ≤ Real.sqrt 3 := Real.sqrt_nonneg _
  constructor
  · show rdist (F.rotMul P.M R.M) (X.M * Q.M) ≤ _
    have a1 := rdist_triangle (F.rotMul P.M R.M) (P.M * R.M) (X.M * Q.M)
    have a2 := rdist_triangle (P.M * R.M) (P.M * Q.M) (X.M * Q.M)
    rw [rdist_mul_proper hQ] at a2
    have a3 := Fl.rotMul_err hF P.M R.M
    have a4 := rdist_mul_left P.M R.M Q.M
    have a5 : F.g3 * fro P.M * fro R.M ≤ F.g3 * (Real.sqrt 3 + d) * (Real.sqrt 3 + r) :=
      mul_le_mul (mul_le_mul_of_nonneg_left fP g0) fR (fro_nonneg _) (by positivity)
    have a6 : fro P.M * rdist R.M Q.M ≤ (Real.sqrt 3 + d) * r := mul_le_mul fP h3 (rdist_nonneg _ _) (by positivity)
    nlinarith
  · show vdist (F.vecAdd (F.rotVec P.M R.p) P.p) (X.M * Q.p + X.p) ≤ _
    set w := F.rotVec P.M R.p with hw
    have lR : vlen R.p ≤ vlen Q.p + r' := (vlen_le R.p Q.p).trans (by linarith)
    have lR0 := vlen_nonneg R.p
    have b1 := vdist_triangle (F.vecAdd w P.p) (w + P.p) (X.M * Q.p + X.p)
    have b2 := vdist_add w P.p (X.M * Q.p) X.p
    have b3 := vdist_triangle w (P.M * R.p) (X.M * Q.p)
    have b4 := vdist_triangle (P.M * R.p) (X.M * R.p) (X.M * Q.p)
    rw [vdist_mul_proper hX] at b4
    have b5 := Fl.rotVec_err hF P.M R.p
    rw [← hw] at b5
    have b6 := vdist_mul_right P.M X.M R.p
    have b7 : F.g3 * fro P.M * vlen R.p ≤ F.g3 * (Real.sqrt 3 + d) * (vlen Q.p + r') :=
      mul_le_mul (mul_le_mul_of_nonneg_left fP g0) lR lR0 (by positivity)
    have b8 : rdist P.M X.M * vlen R.p ≤ d * (vlen Q.p + r') := mul_le_mul h1 lR lR0 d0
    have b9 : vdist (w + P.p) (X.M * Q.p + X.p) ≤ e + r' + (d + F.g3 * (Real.sqrt 3 + d)) * (vlen Q.p + r') := by nlinarith
    have b10 := Fl.vecAdd_err hF w P.p
    have b11 := vlen_le (w + P.p) (X.M * Q.p + X.p)
    have b12 := vlen_add (X.M * Q.p) X.p
    rw [vlen_mul_proper hX] at b12
    have b13 : F.u * vlen (w + P.p) ≤
        F.u * (vlen Q.p + vlen X.p + (e + r' + (d + F.g3 * (Real.sqrt 3 + d)) * (vlen Q.p + r'))) :=
      mul_le_mul_of_nonneg_left (by linarith) u0
    linarith

theorem rotErr_nonneg {k : ℝ} (hk : 0 ≤ k) (n : ℕ) : 0 ≤ rotErr k n :=
  mul_nonneg (Real.sqrt_nonneg _) (by linarith [one_le_pow₀ (by linarith : 1 ≤ 1 + k) (n := n)])

theorem posStep_mono {u g k l e' : ℝ} (hu : 0 ≤ u) (hg : 0 ≤ g) (hk : 0 ≤ k) (hl : 0 ≤ l) (he : 0 ≤ e') (n : ℕ) :
    0 ≤ posStep u g k l e' n ∧ posStep u g k l e' n ≤ posStep u g k l e' (n + 1) := by
  have h1 := rotErr_nonneg hk n
  have hs := Real.sqrt_nonneg 3
  have hp : (1 + k) ^ n ≤ (1 + k) ^ (n + 1) := pow_le_pow_right₀ (by linarith) (by omega)
  have hp0 : 0 ≤ (1 + k) ^ n := by positivity
  constructor
  · unfold posStep
    positivity
  · unfold posStep
    have a1 : rotErr k n ≤ rotErr k (n + 1) := mul_le_mul_of_nonneg_left (by linarith) hs
    have a2 : g * (Real.sqrt 3 * (1 + k) ^ n) ≤ g * (Real.sqrt 3 * (1 + k) ^ (n + 1)) :=
      mul_le_mul_of_nonneg_left (mul_le_mul_of_nonneg_left hp hs) hg
    have a3 : (rotErr k n + g * (Real.sqrt 3 * (1 + k) ^ n)) * (l + e') ≤
        (rotErr k (n + 1) + g * (Real.sqrt 3 * (1 + k) ^ (n + 1))) * (l + e') :=
      mul_le_mul_of_nonneg_right (by linarith) (by linarith)
    have a4 : (1 + u) * (e' + (rotErr k n + g * (Real.sqrt 3 * (1 + k) ^ n)) * (l + e')) ≤
        (1 + u) * (e' + (rotErr k (n + 1) + g * (Real.sqrt 3 * (1 + k) ^ (n + 1))) * (l + e')) :=
      mul_le_mul_of_nonneg_left (by linarith) (by linarith)
    have a5 : u * (((n : ℝ) + 1) * l) ≤ u * ((((n + 1 : ℕ) : ℝ) + 1) * l) := by
      push_cast
      exact mul_le_mul_of_nonneg_left (mul_le_mul_of_nonneg_right (by linarith) hl) hu
    linarith

/-- One more product: the bounds for `n` products become those for `n + 1`. -/
theorem near_step {F : Fl} (hF : F.Ok) {P X R Q : Frame} (hX : X.M.IsProper) (hQ : Q.M.IsProper) {r r' l : ℝ} {n : ℕ}
    (hXp : vlen X.p ≤ n * l) (hQp : vlen Q.p ≤ l)
    (hP : Near (rotErr (r + F.g3 * (Real.sqrt 3 + r)) n) (posErr F.u F.g3 (r + F.g3 * (Real.sqrt 3 + r)) l r' n) P X)
    (hR : Near r r' R Q) :
    Near (rotErr (r + F.g3 * (Real.sqrt 3 + r)) (n + 1)) (posErr F.u F.g3 (r + F.g3 * (Real.sqrt 3 + r)) l r' (n + 1))
      (F.frameMul P R) (X * Q) ∧ (X * Q).M.IsProper ∧ vlen (X * Q).p ≤ (n + 1 : ℕ) * l := by
  have hs := Real.sqrt_nonneg 3
  have g0 := Fl.g3_nonneg hF
  have u0 := hF.nonneg
  have r0 : 0 ≤ r := (rdist_nonneg _ _).trans hR.1
  have r0' : 0 ≤ r' := (vdist_nonneg _ _).trans hR.2
  have l0 : 0 ≤ l := (vlen_nonneg _).trans hQp
  set k := r + F.g3 * (Real.sqrt 3 + r) with hk
  have k0 : 0 ≤ k := by positivity
  obtain ⟨a1, a2⟩ := frameMul_step hF hX hQ hP hR
  rw [← hk] at a1
  obtain ⟨m0, m1⟩ := posStep_mono u0 g0 k0 l0 r0' (u := F.u) (g := F.g3) n
  refine ⟨⟨a1.trans (le_of_eq ?_), a2.trans ?_⟩, hX.mul hQ, ?_⟩
  · rw [rotErr, rotErr, pow_succ]; ring
  · have e1 : Real.sqrt 3 + rotErr k n = Real.sqrt 3 * (1 + k) ^ n := by rw [rotErr]; ring
    rw [e1]
    have b0 : 0 ≤ rotErr k n + F.g3 * (Real.sqrt 3 * (1 + k) ^ n) := add_nonneg (rotErr_nonneg k0 n) (by positivity)
    have b1 : (rotErr k n + F.g3 * (Real.sqrt 3 * (1 + k) ^ n)) * (vlen Q.p + r') ≤
        (rotErr k n + F.g3 * (Real.sqrt 3 * (1 + k) ^ n)) * (l + r') := mul_le_mul_of_nonneg_left (by linarith) b0
    have b2 : F.u * (vlen Q.p + vlen X.p) ≤ F.u * ((n + 1) * l) := mul_le_mul_of_nonneg_left (by linarith) u0
    have b3 : (1 + F.u) * (posErr F.u F.g3 k l r' n + r' + (rotErr k n + F.g3 * (Real.sqrt 3 * (1 + k) ^ n)) * (vlen Q.p + r')) ≤
        (1 + F.u) * (posErr F.u F.g3 k l r' n + r' + (rotErr k n + F.g3 * (Real.sqrt 3 * (1 + k) ^ n)) * (l + r')) :=
      mul_le_mul_of_nonneg_left (by linarith) (by linarith)
    have b4 : (1 + F.u) * (posErr F.u F.g3 k l r' n + r' + (rotErr k n + F.g3 * (Real.sqrt 3 * (1 + k) ^ n)) * (l + r')) +
        F.u * ((n + 1) * l) = (1 + F.u) * posErr F.u F.g3 k l r' n + posStep F.u F.g3 k l r' n := by
      rw [posStep]; ring
    have b5 : (1 + F.u) * posErr F.u F.g3 k l r' n = n * ((1 + F.u) ^ (n + 1) * posStep F.u F.g3 k l r' n) := by
      rw [posErr, pow_succ]; ring
    have b6 : 1 ≤ (1 + F.u) ^ (n + 1) := one_le_pow₀ (by linarith)
    have b7 : (1 + F.u) ^ (n + 1) * posStep F.u F.g3 k l r' n ≤ (1 + F.u) ^ (n + 1) * posStep F.u F.g3 k l r' (n + 1) :=
      mul_le_mul_of_nonneg_left m1 (by linarith)
    have b8 : posStep F.u F.g3 k l r' n ≤ (1 + F.u) ^ (n + 1) * posStep F.u F.g3 k l r' n := by nlinarith
    have b9 : (n : ℝ) * ((1 + F.u) ^ (n + 1) * posStep F.u F.g3 k l r' n) ≤
        n * ((1 + F.u) ^ (n + 1) * posStep F.u F.g3 k l r' (n + 1)) := mul_le_mul_of_nonneg_left b7 (Nat.cast_nonneg _)
    have b10 : posErr F.u F.g3 k l r' (n + 1) = n * ((1 + F.u) ^ (n + 1) * posStep F.u F.g3 k l r' (n + 1)) +
        (1 + F.u) ^ (n + 1) * posStep F.u F.g3 k l r' (n + 1) := by
      rw [posErr]; push_cast; ring
    linarith
  · show vlen (X.M * Q.p + X.p) ≤ _
    have := vlen_add (X.M * Q.p) X.p
    rw [vlen_mul_proper hX] at this
    push_cast
    linarith

/-- Two segments that move alike: the poses computed for `s` are within `r` and `r'` of those of the ideal segment `s'`, whose
poses are proper and not longer than `l`. -/
def SegNear (F : Fl) (q : List ℝ) (r r' l : ℝ) (s s' : Segment) : Prop :=
  s.moving = s'.moving ∧ s'.Valid ∧ ∀ x, x ∈ q ∨ x = 0 → Near r r' (F.segPose s x) (s'.pose x) ∧ vlen (s'.pose x).p ≤ l

theorem fkLoop_near {F : Fl} (hF : F.Ok) {q : List ℝ} {r r' l : ℝ} {ss ss' : List Segment}
    (h : List.Forall₂ (SegNear F q r r' l) ss ss') : ∀ (j n : ℕ) (P X : Frame), j + nMoving ss ≤ q.length → X.M.IsProper →
    vlen X.p ≤ n * l →
    Near (rotErr (r + F.g3 * (Real.sqrt 3 + r)) n) (posErr F.u F.g3 (r + F.g3 * (Real.sqrt 3 + r)) l r' n) P X →
    ∃ P', F.fkLoop q ss j P = some P' ∧
      Near (rotErr (r + F.g3 * (Real.sqrt 3 + r)) (n + ss.length))
        (posErr F.u F.g3 (r + F.g3 * (Real.sqrt 3 + r)) l r' (n + ss.length)) P' (X * fkF (rd q) ss' j) := by
  induction h with
  | nil =>
    intro j n P X _ _ _ hP
    exact ⟨P, rfl, by simpa [fkF] using hP⟩
  | @cons s s' ss ss' h1 h2 ih =>
    intro j n P X hj hX hXp hP
    obtain ⟨hm, hv, hx⟩ := h1
    rw [Fl.fkLoop, fkF, ← hm]
    by_cases hs : s.moving
    · rw [if_pos hs, if_pos hs]
      have hn : nMoving (s :: ss) = 1 + nMoving ss := by simp [nMoving, hs]; omega
      have hjl : j < q.length := by omega
      have e : rd q j = q[j] := by simp [rd, List.getD_eq_getElem?_getD, hjl]
      rw [List.getElem?_eq_getElem hjl]
      simp only [Option.bind_eq_bind, Option.bind_some]
      obtain ⟨hR, hl⟩ := hx q[j] (.inl (List.getElem_mem hjl))
      obtain ⟨a1, a2, a3⟩ := near_step hF hX (Segment.isProper_pose hv _) hXp hl hP hR
      obtain ⟨P', b1, b2⟩ := ih (j + 1) (n + 1) _ _ (by omega) a2 a3 a1
      refine ⟨P', b1, ?_⟩
      rw [e, ← mul_assoc, List.length_cons, show n + (ss.length + 1) = n + 1 + ss.length by omega]
      exact b2
    · rw [if_neg hs, if_neg hs]
      have hn : nMoving (s :: ss) = nMoving ss := by simp [nMoving, hs]
      obtain ⟨hR, hl⟩ := hx 0 (.inr rfl)
      obtain ⟨a1, a2, a3⟩ := near_step hF hX (Segment.isProper_pose hv _) hXp hl hP hR
      obtain ⟨P', b1, b2⟩ := ih j (n + 1) _ _ (by omega) a2 a3 a1
      refine ⟨P', b1, ?_⟩
      rw [← mul_assoc, List.length_cons, show n + (ss.length + 1) = n + 1 + ss.length by omega]
      exact b2

/-- The frame computed by the forward kinematics in floating point arithmetic differs from that of the ideal chain by at
most the stated bounds; these vanish with the errors of the segments and the unit roundoff.  The return codes are the same
as in exact arithmetic. -/
theorem C98_fk (F : Fl) (hF : F.Ok) (c c' : Chain) (hc : c.WF) (hc' : c'.WF) (q : List ℝ) (r r' l : ℝ)
    (h : List.Forall₂ (SegNear F q r r' l) c.segments c'.segments) (k : ℤ) :
    (q.length ≠ c.nrOfJoints → F.fkPos c q k = some (E_SIZE_MISMATCH, 1)) ∧
    (q.length = c.nrOfJoints → segmentNr c k > c.nrOfSegments → F.fkPos c q k = some (E_OUT_OF_RANGE, 1)) ∧
    (q.length = c.nrOfJoints → segmentNr c k ≤ c.nrOfSegments → ∃ P, F.fkPos c q k = some (E_NOERROR, P) ∧
      Near (rotErr (r + F.g3 * (Real.sqrt 3 + r)) (segmentNr c k))
        (posErr F.u F.g3 (r + F.g3 * (Real.sqrt 3 + r)) l r' (segmentNr c k)) P (fkSpec c' q (segmentNr c k))) := by
  refine ⟨fun h1 => ?_, fun h1 h2 => ?_, fun h1 h2 => ?_⟩
  · unfold Fl.fkPos; rw [if_pos h1]
  · unfold Fl.fkPos; dsimp only; rw [if_neg (not_not.mpr h1), if_pos h2]
  · set n := segmentNr c k with hn
    have hlen := h.length_eq
    have hnl : n ≤ c.segments.length := by rw [← hc.1]; exact h2
    have ht : List.Forall₂ (SegNear F q r r' l) (c.segments.take n) (c'.segments.take n) := List.forall₂_take n h
    have hb : nMoving (c.segments.take n) ≤ c.nrOfJoints := by rw [hc.2]; exact nMoving_take_le _ _
    obtain ⟨P, e, hP⟩ := fkLoop_near hF ht 0 0 1 1 (by omega) Rot.IsProper.one (by simp [vlen])
      ⟨by simp [rdist, rotErr], by simp [vdist, posErr]⟩
    refine ⟨P, ?_, ?_⟩
    · unfold Fl.fkPos
      dsimp only
      rw [if_neg (not_not.mpr h1), if_neg (by omega), ← hn, e]
      rfl
    · rw [one_mul, fkF_eq_spec c' q n (by omega)] at hP
      simpa [List.length_take, Nat.min_eq_left hnl] using hP

theorem rdist_mul_right (A B C : Rot) : rdist (A * C) (B * C) ≤ rdist A B * fro C := by
  refine Real.sqrt_le_iff.mpr ⟨mul_nonneg (rdist_nonneg _ _) (fro_nonneg _), ?_⟩
  rw [mul_pow, fro_sq, rdist, Real.sq_sqrt (by positivity)]
  have s : ∀ a b c a' b' c' x y z : ℝ, (a * x + b * y + c * z - (a' * x + b' * y + c' * z)) ^ 2 ≤
      ((a - a') ^ 2 + (b - b') ^ 2 + (c - c') ^ 2) * (x ^ 2 + y ^ 2 + z ^ 2) := by
    intro a b c a' b' c' x y z
    refine le_trans (le_of_eq ?_) (cs3 (a - a') (b - b') (c - c') x y z)
    ring
  have s1 := s A.m00 A.m01 A.m02 B.m00 B.m01 B.m02 C.m00 C.m10 C.m20
  have s2 := s A.m00 A.m01 A.m02 B.m00 B.m01 B.m02 C.m01 C.m11 C.m21
  have s3 := s A.m00 A.m01 A.m02 B.m00 B.m01 B.m02 C.m02 C.m12 C.m22
  have s4 := s A.m10 A.m11 A.m12 B.m10 B.m11 B.m12 C.m00 C.m10 C.m20
  have s5 := s A.m10 A.m11 A.m12 B.m10 B.m11 B.m12 C.m01 C.m11 C.m21
  have s6 := s A.m10 A.m11 A.m12 B.m10 B.m11 B.m12 C.m02 C.m12 C.m22
  have s7 := s A.m20 A.m21 A.m22 B.m20 B.m21 B.m22 C.m00 C.m10 C.m20
  have s8 := s A.m20 A.m21 A.m22 B.m20 B.m21 B.m22 C.m01 C.m11 C.m21
  have s9 := s A.m20 A.m21 A.m22 B.m20 B.m21 B.m22 C.m02 C.m12 C.m22
  simp
  linarith

/-- How far a matrix within `d` of a proper rotation, such as one computed by the forward kinematics, is from being
orthogonal: with this error its `Inverse()` (the transposed matrix) is its inverse. -/
theorem C98_orthogonal (P Q : Rot) (hQ : Q.IsProper) (d : ℝ) (h : rdist P Q ≤ d) :
    rdist (P * P.inv) 1 ≤ d * (2 * Real.sqrt 3 + d) := by
  have d0 : 0 ≤ d := (rdist_nonneg _ _).trans h
  have ht : ∀ A B : Rot, rdist A.inv B.inv = rdist A B := by
    intro A B
    rw [rdist, rdist]
    congr 1
    simp
    ring
  have hf : fro P.inv ≤ Real.sqrt 3 + d := by
    have := fro_le P.inv Q.inv
    rw [fro_proper hQ.inv, ht] at this
    linarith
  have a1 := rdist_triangle (P * P.inv) (Q * P.inv) 1
  have a2 := rdist_mul_right P Q P.inv
  have a3 := rdist_mul_left Q P.inv Q.inv
  rw [hQ.orth, ht, fro_proper hQ] at a3
  have a4 : rdist P Q * fro P.inv ≤ d * (Real.sqrt 3 + d) := mul_le_mul h hf (fro_nonneg _) d0
  have a5 : Real.sqrt 3 * rdist P Q ≤ Real.sqrt 3 * d := mul_le_mul_of_nonneg_left h (Real.sqrt_nonneg _)
  nlinarith

/-! ## the pose of a joint -/

theorem Fl.arg_err {F : Fl} (hF : F.Ok) (j : Joint) (x A : ℝ) (hA : |j.scale * x| + |j.offset| ≤ A) :
    |F.arg j x - (j.scale * x + j.offset)| ≤ (2 + F.u) * F.u * A := by
  have u0 := hF.nonneg
  have h1 : |F.rnd (j.scale * x) + j.offset - (j.scale * x + j.offset)| ≤ F.u * |j.scale * x| := by
    rw [show F.rnd (j.scale * x) + j.offset - (j.scale * x + j.offset) = F.rnd (j.scale * x) - j.scale * x by ring]
    exact hF.rnd _
  have h2 := Fl.rnd_add hF h1
  have h3 := abs_add_le (j.scale * x) j.offset
  have h4 := abs_nonneg (j.scale * x)
  have h5 := abs_nonneg j.offset
  have h6 : F.u * |j.scale * x + j.offset| ≤ F.u * A := mul_le_mul_of_nonneg_left (by linarith) u0
  have h7 : (1 + F.u) * (F.u * |j.scale * x|) ≤ (1 + F.u) * (F.u * A) :=
    mul_le_mul_of_nonneg_left (mul_le_mul_of_nonneg_left (by linarith) u0) (by linarith)
  refine h2.trans ?_
  linarith

/-- A product of two numbers known with errors. -/
theorem mul_err {x x' y y' a b X Y : ℝ} (hx : |x - x'| ≤ a) (hy : |y - y'| ≤ b) (hX : |x'| ≤ X) (hY : |y'| ≤ Y) :
    |x * y - x' * y'| ≤ a * (Y + b) + X * b := by
  have a0 : 0 ≤ a := (abs_nonneg _).trans hx
  have b0 : 0 ≤ b := (abs_nonneg _).trans hy
  have X0 : 0 ≤ X := (abs_nonneg _).trans hX
  rw [show x * y - x' * y' = (x - x') * y + x' * (y - y') by ring]
  refine (abs_add_le _ _).trans ?_
  rw [abs_mul, abs_mul]
  have hy' : |y| ≤ Y + b := by
    have := abs_sub_abs_le_abs_sub y y'
    linarith
  exact add_le_add (mul_le_mul hx hy' (abs_nonneg _) a0) (mul_le_mul hX hy (abs_nonneg _) X0)

theorem rdist_le {A B : Rot} {e : ℝ} (h : |A.m00 - B.m00| ≤ e ∧ |A.m01 - B.m01| ≤ e ∧ |A.m02 - B.m02| ≤ e ∧ |A.m10 - B.m10| ≤ e ∧
    |A.m11 - B.m11| ≤ e ∧ |A.m12 - B.m12| ≤ e ∧ |A.m20 - B.m20| ≤ e ∧ |A.m21 - B.m21| ≤ e ∧ |A.m22 - B.m22| ≤ e) :
    rdist A B ≤ 3 * e := by
  obtain ⟨h1, h2, h3, h4, h5, h6, h7, h8, h9⟩ := h
  have e0 : 0 ≤ e := (abs_nonneg _).trans h1
  have s : ∀ x : ℝ, |x| ≤ e → x ^ 2 ≤ e ^ 2 := fun x hx => by
    rw [← sq_abs]; exact pow_le_pow_left₀ (abs_nonneg _) hx 2
  refine Real.sqrt_le_iff.mpr ⟨by linarith, ?_⟩
  have := s _ h1; have := s _ h2; have := s _ h3; have := s _ h4; have := s _ h5
  have := s _ h6; have := s _ h7; have := s _ h8; have := s _ h9
  nlinarith

theorem vdist_le {a b : Vec} {e : ℝ} (h : |a.x - b.x| ≤ e ∧ |a.y - b.y| ≤ e ∧ |a.z - b.z| ≤ e) : vdist a b ≤ 2 * e := by
  obtain ⟨h1, h2, h3⟩ := h
  have e0 : 0 ≤ e := (abs_nonneg _).trans h1
  have s : ∀ x : ℝ, |x| ≤ e → x ^ 2 ≤ e ^ 2 := fun x hx => by
    rw [← sq_abs]; exact pow_le_pow_left₀ (abs_nonneg _) hx 2
  refine Real.sqrt_le_iff.mpr ⟨by linarith, ?_⟩
  have := s _ h1; have := s _ h2; have := s _ h3
  nlinarith

theorem rot2_err {F : Fl} (hF : F.Ok) {t : ℝ} (ht : t ≤ 1 / 16) (hu : F.u ≤ t) {v w : Vec} (hw : w.dot w = 1)
    (hv : |v.x - w.x| ≤ t ∧ |v.y - w.y| ≤ t ∧ |v.z - w.z| ≤ t) {a b : ℝ} (hc : |F.cos a - Real.cos b| ≤ t)
    (hs : |F.sin a - Real.sin b| ≤ t) : rdist (F.rot2 v a) (Rot.rot2 w b) ≤ 78 * t := by
  have u0 := hF.nonneg
  have t0 : 0 ≤ t := u0.trans hu
  obtain ⟨hx, hy, hz⟩ := hv
  have hw' : w.x * w.x + w.y * w.y + w.z * w.z = 1 := by simpa [Vec.dot] using hw
  have wx : |w.x| ≤ 1 := abs_le_one_iff_mul_self_le_one.mpr (by nlinarith [mul_self_nonneg w.y, mul_self_nonneg w.z])
  have wy : |w.y| ≤ 1 := abs_le_one_iff_mul_self_le_one.mpr (by nlinarith [mul_self_nonneg w.x, mul_self_nonneg w.z])
  have wz : |w.z| ≤ 1 := abs_le_one_iff_mul_self_le_one.mpr (by nlinarith [mul_self_nonneg w.x, mul_self_nonneg w.y])
  have cb : |Real.cos b| ≤ 1 := Real.abs_cos_le_one b
  have sb : |Real.sin b| ≤ 1 := Real.abs_sin_le_one b
  have vb : |1 - Real.cos b| ≤ 2 := by rw [abs_le] at cb ⊢; constructor <;> linarith [cb.1, cb.2]
  have rn : ∀ {x x' e X E : ℝ}, |x - x'| ≤ e → |x'| ≤ X → 17 / 16 * e + t * X ≤ E → |F.rnd x - x'| ≤ E := by
    intro x x' e X E h1 h2 h3
    have e0 : 0 ≤ e := (abs_nonneg _).trans h1
    have := Fl.rnd_add hF h1
    have : F.u * |x'| ≤ t * X := mul_le_mul hu h2 (abs_nonneg _) t0
    have : (1 + F.u) * e ≤ 17 / 16 * e := mul_le_mul_of_nonneg_right (by linarith) e0
    linarith
  -- `vt`
  have hvt : |F.rnd (1 - F.cos a) - (1 - Real.cos b)| ≤ 4 * t := by
    refine rn (e := t) (X := 2) ?_ vb (by linarith)
    rw [show 1 - F.cos a - (1 - Real.cos b) = -(F.cos a - Real.cos b) by ring, abs_neg]
    exact hc
  set vt := F.rnd (1 - F.cos a) with hvtd
  -- `m_vt_i`
  have mvt : ∀ {p p' : ℝ}, |p - p'| ≤ t → |p'| ≤ 1 → |F.rnd (vt * p) - (1 - Real.cos b) * p'| ≤ 10 * t := by
    intro p p' h1 h2
    refine rn (e := 7 * t) (X := 2) ((mul_err hvt h1 vb h2).trans (by nlinarith)) ?_ (by nlinarith)
    rw [abs_mul]
    nlinarith [abs_nonneg p', abs_nonneg (1 - Real.cos b)]
  -- `m_st_i`
  have mst : ∀ {p p' : ℝ}, |p - p'| ≤ t → |p'| ≤ 1 → |F.rnd (p * F.sin a) - p' * Real.sin b| ≤ 5 * t := by
    intro p p' h1 h2
    refine rn (e := 3 * t) (X := 1) ((mul_err h1 hs h2 sb).trans (by nlinarith)) ?_ (by nlinarith)
    rw [abs_mul]
    nlinarith [abs_nonneg p', abs_nonneg (Real.sin b)]
  -- `m_vt_i_j`
  have mm : ∀ {m m' p p' : ℝ}, |m - (1 - Real.cos b) * m'| ≤ 10 * t → |m'| ≤ 1 → |p - p'| ≤ t → |p'| ≤ 1 →
      |F.rnd (m * p) - (1 - Real.cos b) * m' * p'| ≤ 16 * t := by
    intro m m' p p' h1 h2 h3 h4
    have hm : |(1 - Real.cos b) * m'| ≤ 2 := by
      rw [abs_mul]; nlinarith [abs_nonneg m', abs_nonneg (1 - Real.cos b)]
    refine rn (e := 13 * t) (X := 2) ((mul_err h1 h3 hm h4).trans (by nlinarith)) ?_ (by nlinarith)
    rw [abs_mul]
    nlinarith [abs_nonneg p', abs_nonneg ((1 - Real.cos b) * m')]
  have mb : ∀ {m' p' : ℝ}, |m'| ≤ 1 → |p'| ≤ 1 → |(1 - Real.cos b) * m' * p'| ≤ 2 := by
    intro m' p' h1 h2
    rw [abs_mul, abs_mul]
    have : |1 - Real.cos b| * |m'| ≤ 2 := by nlinarith [abs_nonneg m', abs_nonneg (1 - Real.cos b)]
    nlinarith [abs_nonneg p', mul_nonneg (abs_nonneg (1 - Real.cos b)) (abs_nonneg m')]
  have pb : ∀ {p' : ℝ}, |p'| ≤ 1 → |p' * Real.sin b| ≤ 1 := by
    intro p' h
    rw [abs_mul]
    nlinarith [abs_nonneg p', abs_nonneg (Real.sin b)]
  have fin : ∀ {x x' y y' e X : ℝ}, |x - x'| ≤ e → |y - y'| ≤ 16 * t → e ≤ 5 * t → |x'| ≤ 1 → |y'| ≤ 2 →
      |F.rnd (x + y) - (x' + y')| ≤ 26 * t := by
    intro x x' y y' e X h1 h2 h3 h4 h5
    refine rn (e := 21 * t) (X := 3) ?_ ((abs_add_le _ _).trans (by linarith)) (by linarith)
    rw [show x + y - (x' + y') = (x - x') + (y - y') by ring]
    exact (abs_add_le _ _).trans (by linarith)
  have ng : ∀ {x x' e : ℝ}, |x - x'| ≤ e → |-x - -x'| ≤ e := by
    intro x x' e h
    rwa [show -x - -x' = -(x - x') by ring, abs_neg]
  have nb : ∀ {x : ℝ}, |x| ≤ 1 → |-x| ≤ 1 := fun h => by rwa [abs_neg]
  have ct5 : t ≤ 5 * t := by linarith
  have key : rdist (F.rot2 v a) (Rot.rot2 w b) ≤ 3 * (26 * t) := by
    refine rdist_le ⟨?_, ?_, ?_, ?_, ?_, ?_, ?_, ?_, ?_⟩
    · exact fin (X := 0) hc (mm (mvt hx wx) wx hx wx) ct5 cb (mb wx wx)
    · exact fin (X := 0) (ng (mst hz wz)) (mm (mvt hx wx) wx hy wy) le_rfl (nb (pb wz)) (mb wx wy)
    · exact fin (X := 0) (mst hy wy) (mm (mvt hx wx) wx hz wz) le_rfl (pb wy) (mb wx wz)
    · exact fin (X := 0) (mst hz wz) (mm (mvt hx wx) wx hy wy) le_rfl (pb wz) (mb wx wy)
    · exact fin (X := 0) hc (mm (mvt hy wy) wy hy wy) ct5 cb (mb wy wy)
    · exact fin (X := 0) (ng (mst hx wx)) (mm (mvt hy wy) wy hz wz) le_rfl (nb (pb wx)) (mb wy wz)
    · exact fin (X := 0) (ng (mst hy wy)) (mm (mvt hx wx) wx hz wz) le_rfl (nb (pb wy)) (mb wx wz)
    · exact fin (X := 0) (mst hx wx) (mm (mvt hy wy) wy hz wz) le_rfl (pb wx) (mb wy wz)
    · exact fin (X := 0) hc (mm (mvt hz wz) wz hz wz) ct5 cb (mb wz wz)
  linarith

/-- One coordinate of `origin + axis*(scale*q+offset)`. -/
theorem trans_err {F : Fl} (hF : F.Ok) {t : ℝ} (ht : t ≤ 1 / 16) (hu : F.u ≤ t) {A B a o p p' y : ℝ} (hAB : |A - B| ≤ t)
    (hB : |B| ≤ a) (h1 : |p - p'| ≤ t) (h2 : |p'| ≤ 1) (h3 : |y| ≤ o) :
    |F.rnd (y + F.rnd (p * A)) - (y + B * p')| ≤ (5 * a + o + 4) * t := by
  have u0 := hF.nonneg
  have t0 : 0 ≤ t := u0.trans hu
  have a0 : 0 ≤ a := (abs_nonneg _).trans hB
  have o0 : 0 ≤ o := (abs_nonneg _).trans h3
  have at0 : 0 ≤ a * t := mul_nonneg a0 t0
  have ot0 : 0 ≤ o * t := mul_nonneg o0 t0
  have tt : t * t ≤ 1 / 16 * t := mul_le_mul_of_nonneg_right ht t0
  have rn : ∀ {x x' e X E : ℝ}, |x - x'| ≤ e → |x'| ≤ X → 17 / 16 * e + t * X ≤ E → |F.rnd x - x'| ≤ E := by
    intro x x' e X E h1 h2 h3
    have e0 : 0 ≤ e := (abs_nonneg _).trans h1
    have := Fl.rnd_add hF h1
    have : F.u * |x'| ≤ t * X := mul_le_mul hu h2 (abs_nonneg _) t0
    have : (1 + F.u) * e ≤ 17 / 16 * e := mul_le_mul_of_nonneg_right (by linarith) e0
    linarith
  have k0 : |p' * B| ≤ a := by
    rw [abs_mul]
    calc |p'| * |B| ≤ 1 * a := mul_le_mul h2 hB (abs_nonneg _) zero_le_one
      _ = a := one_mul a
  have k1 : |F.rnd (p * A) - p' * B| ≤ (3 * a + 3) * t :=
    rn (e := t * (a + t) + 1 * t) (mul_err h1 hAB h2 hB) k0 (by linarith)
  have k2 : |y + F.rnd (p * A) - (y + p' * B)| ≤ (3 * a + 3) * t := by
    rwa [show y + F.rnd (p * A) - (y + p' * B) = F.rnd (p * A) - p' * B by ring]
  rw [mul_comm B p']
  exact rn (X := o + a) k2 ((abs_add_le _ _).trans (add_le_add h3 k0)) (by linarith)

/-- The pose of a joint in floating point arithmetic.  `j` is the joint with the numbers stored, `j'` the ideal one, which differs
in the axis only, by at most `t` in each coordinate; `a` bounds the argument `scale*q+offset` and `o` the origin. -/
theorem C98_joint (F : Fl) (hF : F.Ok) (j j' : Joint) (hty : j.type = j'.type) (hsc : j.scale = j'.scale) (hof : j.offset = j'.offset)
    (hor : j.origin = j'.origin) (hv : j'.Valid) (t a o x : ℝ) (ht : t ≤ 1 / 16)
    (hax : (j.type = .RotAxis ∨ j.type = .TransAxis) →
      |j.axis.x - j'.axis.x| ≤ t ∧ |j.axis.y - j'.axis.y| ≤ t ∧ |j.axis.z - j'.axis.z| ≤ t)
    (ha : |j.scale * x| + |j.offset| ≤ a) (ho : |j.origin.x| ≤ o ∧ |j.origin.y| ≤ o ∧ |j.origin.z| ≤ o)
    (hu : 2 * F.u + (2 + F.u) * F.u * a ≤ t) :
    Near (78 * t) (2 * ((5 * a + o + 4) * t)) (F.jointPose j x) (j'.pose x) := by
  have u0 := hF.nonneg
  have a0 : 0 ≤ a := le_trans (by positivity) ha
  have o0 : 0 ≤ o := (abs_nonneg _).trans ho.1
  have hu' : F.u ≤ t := by nlinarith [mul_nonneg (mul_nonneg (by linarith : (0 : ℝ) ≤ 2 + F.u) u0) a0]
  have t0 : 0 ≤ t := u0.trans hu'
  have harg := Fl.arg_err hF j x a ha
  set A := F.arg j x with hA
  set B := j.scale * x + j.offset with hB
  have hB' : j'.scale * x + j'.offset = B := by rw [hB, hsc, hof]
  have hBa : |B| ≤ a := (abs_add_le _ _).trans ha
  have hAB : |A - B| ≤ t := harg.trans (by linarith)
  have hc : |F.cos A - Real.cos B| ≤ t := by
    have h1 := hF.cos A
    have h2 : |Real.cos A - Real.cos B| ≤ |A - B| := Real.abs_cos_sub_cos_le A B
    have := abs_sub_le (F.cos A) (Real.cos A) (Real.cos B)
    linarith
  have hs : |F.sin A - Real.sin B| ≤ t := by
    have h1 := hF.sin A
    have h2 : |Real.sin A - Real.sin B| ≤ |A - B| := Real.abs_sin_sub_sin_le A B
    have := abs_sub_le (F.sin A) (Real.sin A) (Real.sin B)
    linarith
  have z : |(0 : ℝ) - 0| ≤ t := by simpa using t0
  have z1 : |(1 : ℝ) - 1| ≤ t := by simpa using t0
  have hs' : |-F.sin A - -Real.sin B| ≤ t := by rwa [show -F.sin A - -Real.sin B = -(F.sin A - Real.sin B) by ring, abs_neg]
  have p0 : 0 ≤ 2 * ((5 * a + o + 4) * t) := by positivity
  have v0 : ∀ v : Vec, vdist v v = 0 := fun v => by simp [vdist]
  have r0 : ∀ R : Rot, rdist R R = 0 := fun R => by simp [rdist]
  have pt : t ≤ (5 * a + o + 4) * t := by nlinarith [mul_nonneg a0 t0, mul_nonneg o0 t0]
  have zt : |(0 : ℝ) - 0| ≤ (5 * a + o + 4) * t := z.trans pt
  have rt : ∀ {A B : Rot}, rdist A B ≤ 3 * t → rdist A B ≤ 78 * t := fun h => h.trans (by linarith)
  unfold Near Fl.jointPose Joint.pose
  dsimp only
  rw [← hA, ← hty, hB']
  cases hj : j.type with
  | RotAxis =>
    have hw : j'.axis.dot j'.axis = 1 := hv (.inl (by rw [← hty, hj]))
    dsimp only
    refine ⟨rot2_err hF ht hu' hw (hax (.inl hj)) hc hs, ?_⟩
    rw [hor, v0]
    exact p0
  | RotX => exact ⟨rt (rdist_le ⟨z1, z, z, z, hc, hs', z, hs, hc⟩), le_of_eq_of_le (v0 _) p0⟩
  | RotY => exact ⟨rt (rdist_le ⟨hc, z, hs, z, z1, z, hs', z, hc⟩), le_of_eq_of_le (v0 _) p0⟩
  | RotZ => exact ⟨rt (rdist_le ⟨hc, hs', z, hs, hc, z, z, z, z1⟩), le_of_eq_of_le (v0 _) p0⟩
  | TransX => exact ⟨le_of_eq_of_le (r0 _) (by linarith), vdist_le ⟨hAB.trans pt, zt, zt⟩⟩
  | TransY => exact ⟨le_of_eq_of_le (r0 _) (by linarith), vdist_le ⟨zt, hAB.trans pt, zt⟩⟩
  | TransZ => exact ⟨le_of_eq_of_le (r0 _) (by linarith), vdist_le ⟨zt, zt, hAB.trans pt⟩⟩
  | Fixed => exact ⟨le_of_eq_of_le (r0 _) (by linarith), le_of_eq_of_le (v0 _) p0⟩
  | TransAxis =>
    have hw : j'.axis.dot j'.axis = 1 := hv (.inr (by rw [← hty, hj]))
    set w := j'.axis with hwd
    have hw' : w.x * w.x + w.y * w.y + w.z * w.z = 1 := by simpa [Vec.dot] using hw
    have wx : |w.x| ≤ 1 := abs_le_one_iff_mul_self_le_one.mpr (by nlinarith [mul_self_nonneg w.y, mul_self_nonneg w.z])
    have wy : |w.y| ≤ 1 := abs_le_one_iff_mul_self_le_one.mpr (by nlinarith [mul_self_nonneg w.x, mul_self_nonneg w.z])
    have wz : |w.z| ≤ 1 := abs_le_one_iff_mul_self_le_one.mpr (by nlinarith [mul_self_nonneg w.x, mul_self_nonneg w.y])
    obtain ⟨hx, hy, hz⟩ := hax (.inr hj)
    refine ⟨le_of_eq_of_le (r0 _) (by linarith), vdist_le ⟨?_, ?_, ?_⟩⟩
    · rw [← hor]; exact trans_err hF ht hu' hAB hBa hx wx ho.1
    · rw [← hor]; exact trans_err hF ht hu' hAB hBa hy wy ho.2.1
    · rw [← hor]; exact trans_err hF ht hu' hAB hBa hz wz ho.2.2

/-- The pose of a segment, from those of its joint (see `C98_joint`) and its tip; together with `C98_fk` this bounds the error of
the forward kinematics by that of the numbers the chain is made of. -/
theorem C98_segment (F : Fl) (hF : F.Ok) (s s' : Segment) (hs : s'.Valid) (x d e r r' m : ℝ)
    (hj : Near d e (F.jointPose s.joint x) (s'.joint.pose x)) (ht : Near r r' s.f_tip s'.f_tip) (hm : vlen s'.f_tip.p ≤ m)
    (hm' : vlen (s'.joint.pose x).p ≤ m) :
    Near ((Real.sqrt 3 + d) * (1 + (r + F.g3 * (Real.sqrt 3 + r))) - Real.sqrt 3)
      ((1 + F.u) * (e + r' + (d + F.g3 * (Real.sqrt 3 + d)) * (m + r')) + F.u * (m + m)) (F.segPose s x) (s'.pose x) ∧
    vlen (s'.pose x).p ≤ m + m := by
  have hp := Joint.isProper_pose hs.1 x
  obtain ⟨a1, a2⟩ := frameMul_step hF hp hs.2 hj ht
  have d0 : 0 ≤ d := (rdist_nonneg _ _).trans hj.1
  have g0 := Fl.g3_nonneg hF
  have u0 := hF.nonneg
  refine ⟨⟨a1, a2.trans ?_⟩, ?_⟩
  · have h1 : (d + F.g3 * (Real.sqrt 3 + d)) * (vlen s'.f_tip.p + r') ≤ (d + F.g3 * (Real.sqrt 3 + d)) * (m + r') :=
      mul_le_mul_of_nonneg_left (by linarith) (by positivity)
    have h2 : F.u * (vlen s'.f_tip.p + vlen (s'.joint.pose x).p) ≤ F.u * (m + m) := mul_le_mul_of_nonneg_left (by linarith) u0
    have h3 : (1 + F.u) * (e + r' + (d + F.g3 * (Real.sqrt 3 + d)) * (vlen s'.f_tip.p + r')) ≤
        (1 + F.u) * (e + r' + (d + F.g3 * (Real.sqrt 3 + d)) * (m + r')) := mul_le_mul_of_nonneg_left (by linarith) (by linarith)
    linarith
  · show vlen ((s'.joint.pose x).M * s'.f_tip.p + (s'.joint.pose x).p) ≤ _
    have := vlen_add ((s'.joint.pose x).M * s'.f_tip.p) (s'.joint.pose x).p
    rw [vlen_mul_proper hp] at this
    linarith

/-- Without rounding the program is the one examined in C25. -/
theorem C98_exact (u : ℝ) (c : Chain) (q : List ℝ) (k : ℤ) : (Fl.mk u id Real.sin Real.cos).fkPos c q k = fkPos c q k := by
  set F := Fl.mk u id Real.sin Real.cos with hF
  have hm : ∀ a b : Frame, F.frameMul a b = a * b := fun a b => rfl
  have hj : ∀ (j : Joint) (x : ℝ), F.jointPose j x = j.pose x := by
    intro j x
    unfold Fl.jointPose Joint.pose
    cases j.type <;> first | rfl | skip
    all_goals
      simp only [Frame.ofVec, Fl.vecAdd, Fl.vecScale, Fl.arg, hF, id]
      ext <;> simp <;> ring
  have hs : ∀ (s : Segment) (x : ℝ), F.segPose s x = s.pose x := by
    intro s x
    show F.frameMul _ _ = _
    rw [hm, hj]
    rfl
  have hl : ∀ (ss : List Segment) (j : ℕ) (p : Frame), F.fkLoop q ss j p = fkLoop q ss j p := by
    intro ss
    induction ss with
    | nil => intro j p; rfl
    | cons s ss ih =>
      intro j p
      rw [Fl.fkLoop, fkLoop]
      simp only [hm, hs, ih]
  unfold Fl.fkPos fkPos
  simp only [hl]

/-! ## with the numbers of `double` -/

/-- A segment `s` with the numbers of the machine and the ideal one `s'`: equal up to errors of the axis and the tip of a few units
in the last place; arguments of the joint functions at most 10, coordinates of the origin at most 10, tip at most 30 away. -/
structure SegClose (q : List ℝ) (s s' : Segment) : Prop where
  type : s.joint.type = s'.joint.type
  scale : s.joint.scale = s'.joint.scale
  offset : s.joint.offset = s'.joint.offset
  origin : s.joint.origin = s'.joint.origin
  valid : s'.Valid
  axis : s.joint.type = .RotAxis ∨ s.joint.type = .TransAxis → |s.joint.axis.x - s'.joint.axis.x| ≤ 3 / 10 ^ 15 ∧
    |s.joint.axis.y - s'.joint.axis.y| ≤ 3 / 10 ^ 15 ∧ |s.joint.axis.z - s'.joint.axis.z| ≤ 3 / 10 ^ 15
  arg : ∀ x, x ∈ q ∨ x = 0 → |s.joint.scale * x| + |s.joint.offset| ≤ 10
  orig : |s.joint.origin.x| ≤ 10 ∧ |s.joint.origin.y| ≤ 10 ∧ |s.joint.origin.z| ≤ 10
  tip : Near (1 / 10 ^ 14) (1 / 10 ^ 14) s.f_tip s'.f_tip
  length : vlen s'.f_tip.p ≤ 30

theorem Near.mono {e e' d d' : ℝ} {R Q : Frame} (h : Near e e' R Q) (h1 : e ≤ d) (h2 : e' ≤ d') : Near d d' R Q :=
  ⟨h.1.trans h1, h.2.trans h2⟩

theorem vlen_le_sum {v : Vec} {a b c : ℝ} (h1 : |v.x| ≤ a) (h2 : |v.y| ≤ b) (h3 : |v.z| ≤ c) {m : ℝ} (hm : 0 ≤ m)
    (h : a ^ 2 + b ^ 2 + c ^ 2 ≤ m ^ 2) : vlen v ≤ m := by
  refine Real.sqrt_le_iff.mpr ⟨hm, ?_⟩
  have s : ∀ {x e : ℝ}, |x| ≤ e → x ^ 2 ≤ e ^ 2 := fun hx => by
    rw [← sq_abs]; exact pow_le_pow_left₀ (abs_nonneg _) hx 2
  linarith [s h1, s h2, s h3]

theorem joint_length {j : Joint} (hv : j.Valid) {x : ℝ} (ha : |j.scale * x| + |j.offset| ≤ 10)
    (ho : |j.origin.x| ≤ 10 ∧ |j.origin.y| ≤ 10 ∧ |j.origin.z| ≤ 10) : vlen (j.pose x).p ≤ 30 := by
  have hB : |j.scale * x + j.offset| ≤ 10 := (abs_add_le _ _).trans ha
  have o : vlen j.origin ≤ 18 := vlen_le_sum ho.1 ho.2.1 ho.2.2 (by norm_num) (by norm_num)
  have z : vlen (⟨0, 0, 0⟩ : Vec) ≤ 30 := by simp [vlen]
  have z0 : |(0 : ℝ)| ≤ 0 := by simp
  unfold Joint.pose
  cases hj : j.type with
  | RotAxis => exact o.trans (by norm_num)
  | RotX => exact z
  | RotY => exact z
  | RotZ => exact z
  | Fixed => exact z
  | TransX => exact vlen_le_sum hB z0 z0 (by norm_num) (by norm_num)
  | TransY => exact vlen_le_sum z0 hB z0 (by norm_num) (by norm_num)
  | TransZ => exact vlen_le_sum z0 z0 hB (by norm_num) (by norm_num)
  | TransAxis =>
    have hw : j.axis.dot j.axis = 1 := hv (.inr hj)
    have h1 := vlen_add j.origin ((j.scale * x + j.offset) • j.axis)
    have h2 : vlen ((j.scale * x + j.offset) • j.axis) ≤ 10 := by
      refine Real.sqrt_le_iff.mpr ⟨by norm_num, ?_⟩
      have h3 : (j.scale * x + j.offset) ^ 2 ≤ 10 ^ 2 := by
        rw [← sq_abs]; exact pow_le_pow_left₀ (abs_nonneg _) hB 2
      have h4 : j.axis.x * j.axis.x + j.axis.y * j.axis.y + j.axis.z * j.axis.z = 1 := by simpa [Vec.dot] using hw
      simp
      nlinarith
    show vlen (j.origin + (j.scale * x + j.offset) • j.axis) ≤ 30
    linarith

theorem sqrt3_le : Real.sqrt 3 ≤ 1733 / 1000 := Real.sqrt_le_iff.mpr ⟨by norm_num, by norm_num⟩

/-- In double precision, a chain of at most ten segments within the ranges of `SegClose`: the frame returned is within `1e-11` of
the ideal one in the rotation and within `1e-8` in the position. -/
theorem C98_double (F : Fl) (hF : F.Ok) (hu : F.u = 1 / 2 ^ 53) (c c' : Chain) (hc : c.WF) (hc' : c'.WF) (q : List ℝ)
    (h : List.Forall₂ (SegClose q) c.segments c'.segments) (k : ℤ) (hq : q.length = c.nrOfJoints)
    (hk : segmentNr c k ≤ c.nrOfSegments) (hn : c.nrOfSegments ≤ 10) :
    ∃ P, F.fkPos c q k = some (E_NOERROR, P) ∧ Near (1 / 10 ^ 11) (1 / 10 ^ 8) P (fkSpec c' q (segmentNr c k)) := by
  have hg : F.g3 ≤ 34 / 10 ^ 17 := by rw [Fl.g3, hu]; norm_num
  have g0 := Fl.g3_nonneg hF
  have s0 := Real.sqrt_nonneg 3
  have s3 := sqrt3_le
  have hseg : List.Forall₂ (SegNear F q (3 / 10 ^ 13) (1 / 10 ^ 11) 60) c.segments c'.segments := by
    refine h.imp fun s s' hs => ⟨?_, hs.valid, fun x hx => ?_⟩
    · simp [Segment.moving, Joint.moving, hs.type]
    · have hj := C98_joint F hF s.joint s'.joint hs.type hs.scale hs.offset hs.origin hs.valid.1 (3 / 10 ^ 15) 10 10 x (by norm_num)
        hs.axis (hs.arg x hx) hs.orig (by rw [hu]; norm_num)
      have hl : vlen (s'.joint.pose x).p ≤ 30 := by
        refine joint_length hs.valid.1 ?_ ?_
        · rw [← hs.scale, ← hs.offset]; exact hs.arg x hx
        · rw [← hs.origin]; exact hs.orig
      obtain ⟨a1, a2⟩ := C98_segment F hF s s' hs.valid x _ _ _ _ 30 hj hs.tip hs.length hl
      refine ⟨a1.mono ?_ ?_, a2.trans (by norm_num)⟩
      · have : F.g3 * (Real.sqrt 3 + 1 / 10 ^ 14) ≤ 34 / 10 ^ 17 * (1733 / 1000 + 1 / 10 ^ 14) :=
          mul_le_mul hg (by linarith) (by positivity) (by norm_num)
        have h2 : 1 / 10 ^ 14 + F.g3 * (Real.sqrt 3 + 1 / 10 ^ 14) ≤ 11 / 10 ^ 15 := by norm_num at this ⊢; linarith
        have h3 : (Real.sqrt 3 + 78 * (3 / 10 ^ 15)) * (1 / 10 ^ 14 + F.g3 * (Real.sqrt 3 + 1 / 10 ^ 14)) ≤
            (1733 / 1000 + 78 * (3 / 10 ^ 15)) * (11 / 10 ^ 15) :=
          mul_le_mul (by linarith) h2 (by positivity) (by norm_num)
        norm_num at h3 ⊢
        linarith
      · have : F.g3 * (Real.sqrt 3 + 78 * (3 / 10 ^ 15)) ≤ 34 / 10 ^ 17 * (1733 / 1000 + 78 * (3 / 10 ^ 15)) :=
          mul_le_mul hg (by linarith) (by positivity) (by norm_num)
        rw [hu]
        norm_num at this ⊢
        linarith
  obtain ⟨P, e, hP⟩ := (C98_fk F hF c c' hc hc' q _ _ _ hseg k).2.2 hq hk
  refine ⟨P, e, hP.mono ?_ ?_⟩
  all_goals
    set n := segmentNr c k with hnd
    set κ : ℝ := 3 / 10 ^ 13 + F.g3 * (Real.sqrt 3 + 3 / 10 ^ 13) with hκ
    have k0 : 0 ≤ κ := by positivity
    have k1 : κ ≤ 31 / 10 ^ 14 := by
      have : F.g3 * (Real.sqrt 3 + 3 / 10 ^ 13) ≤ 34 / 10 ^ 17 * (1733 / 1000 + 3 / 10 ^ 13) :=
        mul_le_mul hg (by linarith) (by positivity) (by norm_num)
      rw [hκ]
      norm_num at this ⊢
      linarith
    have p1 : (1 + κ) ^ n ≤ 1 + 32 / 10 ^ 13 :=
      calc (1 + κ) ^ n ≤ (1 + κ) ^ 10 := pow_le_pow_right₀ (by linarith) (by omega)
        _ ≤ (1 + 31 / 10 ^ 14) ^ 10 := pow_le_pow_left₀ (by linarith) (by linarith) 10
        _ ≤ _ := by norm_num
    have p0 : 1 ≤ (1 + κ) ^ n := one_le_pow₀ (by linarith)
    have r1 : rotErr κ n ≤ 56 / 10 ^ 13 := by
      have : rotErr κ n ≤ 1733 / 1000 * (32 / 10 ^ 13) := mul_le_mul s3 (by linarith) (by linarith) (by norm_num)
      norm_num at this ⊢
      linarith
  · exact r1.trans (by norm_num)
  · have n10 : (n : ℝ) ≤ 10 := by
      have : n ≤ 10 := by omega
      exact_mod_cast this
    have n0 : (0 : ℝ) ≤ n := Nat.cast_nonneg n
    have w1 : F.g3 * (Real.sqrt 3 * (1 + κ) ^ n) ≤ 34 / 10 ^ 17 * (1733 / 1000 * (1 + 32 / 10 ^ 13)) :=
      mul_le_mul hg (mul_le_mul s3 p1 (by linarith) (by norm_num)) (by positivity) (by norm_num)
    have w0 := (posStep_mono hF.nonneg g0 k0 (by norm_num : (0 : ℝ) ≤ 60) (by norm_num : (0 : ℝ) ≤ 1 / 10 ^ 11) n
      (u := F.u) (g := F.g3)).1
    have w2 : posStep F.u F.g3 κ 60 (1 / 10 ^ 11) n ≤ 4 / 10 ^ 10 := by
      rw [posStep, hu]
      norm_num at w1 r1 ⊢
      linarith
    have w3 : (1 + F.u) ^ n ≤ 2 :=
      calc (1 + F.u) ^ n ≤ (1 + F.u) ^ 10 := pow_le_pow_right₀ (by linarith [hF.nonneg]) (by omega)
        _ ≤ 2 := by rw [hu]; norm_num
    have w4 : (1 + F.u) ^ n * posStep F.u F.g3 κ 60 (1 / 10 ^ 11) n ≤ 2 * (4 / 10 ^ 10) := mul_le_mul w3 w2 w0 (by norm_num)
    have w5 : 0 ≤ (1 + F.u) ^ n * posStep F.u F.g3 κ 60 (1 / 10 ^ 11) n := mul_nonneg (by have := hF.nonneg; positivity) w0
    have w6 : posErr F.u F.g3 κ 60 (1 / 10 ^ 11) n ≤ 10 * (2 * (4 / 10 ^ 10)) := mul_le_mul n10 w4 w5 (by norm_num)
    exact w6.trans (by norm_num)

/-! ## the assumptions can be met -/

/-- An arithmetic that is not exact. -/
def sloppy : Fl := ⟨1 / 2 ^ 53, fun x => x * (1 + 1 / 2 ^ 53), fun x => Real.sin x + 1 / 2 ^ 53, fun x => Real.cos x - 1 / 2 ^ 53⟩

theorem sloppy_ok : sloppy.Ok := by
  refine ⟨by norm_num [sloppy], fun x => ?_, fun x => ?_, fun x => ?_⟩
  · simp only [sloppy]
    rw [show x * (1 + 1 / 2 ^ 53) - x = 1 / 2 ^ 53 * x by ring, abs_mul]
    norm_num
  · simp only [sloppy]
    norm_num
  · simp only [sloppy]
    norm_num

/-- A chain with a rotating and a sliding joint, one of them with a skew axis, meets the assumptions of `C98_double` (and with them
those of `C98_fk`, `C98_joint` and `C98_segment`); the stored tip differs from the ideal one. -/
example : ∃ (c c' : Chain) (q : List ℝ), c.WF ∧ c'.WF ∧ List.Forall₂ (SegClose q) c.segments c'.segments ∧
    q.length = c.nrOfJoints ∧ c.nrOfSegments ≤ 10 ∧ c ≠ c' ∧ c.nrOfSegments = 2 ∧ sloppy.Ok := by
  set j : Joint := ⟨"", .RotAxis, 1, 0, 0, 0, 0, ⟨3 / 5, 4 / 5, 0⟩, ⟨1, 2, 3⟩⟩ with hj
  set i : Joint := ⟨"", .TransX, 1, 0, 0, 0, 0, ⟨0, 0, 0⟩, ⟨0, 0, 0⟩⟩ with hi
  set s' : Segment := ⟨"", j, RBI.zero, ⟨1, ⟨1, 0, 0⟩⟩⟩ with hs'
  set s : Segment := ⟨"", j, RBI.zero, ⟨1, ⟨1 + 1 / 10 ^ 15, 0, 0⟩⟩⟩ with hs
  set t : Segment := ⟨"", i, RBI.zero, ⟨1, ⟨0, 1, 0⟩⟩⟩ with ht
  have vj : j.Valid := fun _ => by rw [hj]; simp [Vec.dot]; norm_num
  have vi : i.Valid := fun h => by rw [hi] at h; simp at h
  have a : ∀ x : ℝ, x ∈ [(1 : ℝ), 2] ∨ x = 0 → |1 * x| + |(0 : ℝ)| ≤ 10 := by
    intro x hx
    have : x = 1 ∨ x = 2 ∨ x = 0 := by simpa [or_assoc] using hx
    rcases this with rfl | rfl | rfl <;> norm_num
  refine ⟨⟨2, 2, [s, t]⟩, ⟨2, 2, [s', t]⟩, [1, 2], ⟨rfl, ?_⟩, ⟨rfl, ?_⟩, .cons ?_ (.cons ?_ .nil), rfl, by norm_num, ?_, rfl, sloppy_ok⟩
  · simp [nMoving, hs, ht, Segment.moving, Joint.moving, hj, hi]
  · simp [nMoving, hs', ht, Segment.moving, Joint.moving, hj, hi]
  · refine ⟨rfl, rfl, rfl, rfl, ⟨vj, Rot.IsProper.one⟩, fun _ => by simp [hs, hs']; norm_num, a, ?_, ⟨?_, ?_⟩, ?_⟩
    · simp [hs, hj]; norm_num
    · simp [rdist, hs, hs']
    · refine vdist_le (e := 1 / (2 * 10 ^ 14)) ⟨?_, ?_, ?_⟩ |>.trans (by norm_num) <;> simp [hs, hs'] <;> norm_num
    · exact vlen_le_sum (a := 1) (b := 0) (c := 0) (by simp [hs']) (by simp [hs']) (by simp [hs']) (by norm_num) (by norm_num)
  · refine ⟨rfl, rfl, rfl, rfl, ⟨vi, Rot.IsProper.one⟩, fun _ => by simp; norm_num, a, ?_, ⟨?_, ?_⟩, ?_⟩
    · simp [ht, hi]
    · simp [rdist]
    · simp [vdist]
    · exact vlen_le_sum (a := 0) (b := 1) (c := 0) (by simp [ht]) (by simp [ht]) (by simp [ht]) (by norm_num) (by norm_num)
  · intro h
    have : s.f_tip.p.x = s'.f_tip.p.x := by
      have h2 : [s, t] = [s', t] := congrArg Chain.segments h
      have h3 : s = s' := by simpa using h2
      rw [h3]
    rw [hs, hs'] at this
    norm_num at this

end KDL
