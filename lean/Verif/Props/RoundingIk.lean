import Verif.Lemmas.RoundingIk
import Verif.Props.IkPos

/-!
# C100 – verdict of the inverse position solver with joint limits in floating point arithmetic
-/

noncomputable section
namespace KDL

theorem rdist_inv (A B : Rot) : rdist A.inv B.inv = rdist A B := by
  rw [rdist, rdist]; congr 1; simp; ring

theorem rdist_proper_left {Q : Rot} (h : Q.IsProper) (A B : Rot) : rdist (Q * A) (Q * B) = rdist A B := by
  have e : ∀ A : Rot, (Q * A).inv = A.inv * Q.inv := fun A => by ext <;> simp <;> ring
  rw [← rdist_inv, e, e, rdist_mul_proper h.inv, rdist_inv]

/-- Error of the matrix `a.Inverse()*b` if `a` and `b` have the errors `d` and `d'`. -/
def relErr (g d d' : ℝ) : ℝ := d * (Real.sqrt 3 + d') + d' + g * (Real.sqrt 3 + d) * (Real.sqrt 3 + d')

namespace FlM
variable {F : FlM}

theorem rel_err (hF : F.toFl.Ok) {A B X G : Rot} (hX : X.IsProper) (hG : G.IsProper) {d d' : ℝ} (h : rdist A X ≤ d) (h' : rdist B G ≤ d') :
    rdist (F.rotMul A.inv B) (X.inv * G) ≤ relErr F.g3 d d' := by
  have d0 := (rdist_nonneg _ _).trans h
  have d0' := (rdist_nonneg _ _).trans h'
  have g0 := Fl.g3_nonneg hF
  have s0 := Real.sqrt_nonneg 3
  have fB : fro B ≤ Real.sqrt 3 + d' := by
    have := fro_le B G
    rw [fro_proper hG] at this
    linarith
  have fA : fro A.inv ≤ Real.sqrt 3 + d := by
    have := fro_le A.inv X.inv
    rw [fro_proper hX.inv, rdist_inv] at this
    linarith
  have a1 := rdist_triangle (F.rotMul A.inv B) (A.inv * B) (X.inv * G)
  have a2 := rdist_triangle (A.inv * B) (X.inv * B) (X.inv * G)
  rw [rdist_proper_left hX.inv] at a2
  have a3 := Fl.rotMul_err hF A.inv B
  have a4 := rdist_mul_right A.inv X.inv B
  rw [rdist_inv] at a4
  have a5 : F.g3 * fro A.inv * fro B ≤ F.g3 * (Real.sqrt 3 + d) * (Real.sqrt 3 + d') :=
    mul_le_mul (mul_le_mul_of_nonneg_left fA g0) fB (fro_nonneg _) (by positivity)
  have a6 : rdist A X * fro B ≤ d * (Real.sqrt 3 + d') := mul_le_mul h fB (fro_nonneg _) d0
  unfold relErr
  linarith

theorem g3_le (hF : F.toFl.Ok) (hu : F.u ≤ 1 / 10 ^ 5) : F.g3 ≤ 301 / 100 * F.u := by
  have u0 := hF.nonneg
  rw [Fl.g3, show (1 + F.u) ^ 3 - 1 = 3 * F.u + 3 * (F.u * F.u) + F.u * F.u * F.u by ring]
  have h1 : F.u * F.u ≤ F.u * (1 / 10 ^ 5) := mul_le_mul_of_nonneg_left hu u0
  have h2 : F.u * F.u * F.u ≤ F.u * F.u * (1 / 10 ^ 5) := mul_le_mul_of_nonneg_left hu (by positivity)
  norm_num at h1 h2 ⊢
  linarith

theorem relErr_le (hF : F.toFl.Ok) (hu : F.u ≤ 1 / 10 ^ 5) {d d' : ℝ} (hd0 : 0 ≤ d) (hd0' : 0 ≤ d') (hd : d ≤ 1 / 10 ^ 4)
    (hd' : d' ≤ 1 / 10 ^ 4) : relErr F.g3 d d' ≤ 18 / 10 * d + d' + 10 * F.u := by
  have u0 := hF.nonneg
  have g0 := Fl.g3_nonneg hF
  have g1 := g3_le hF hu
  have s0 := Real.sqrt_nonneg 3
  have s3 := sqrt3_le
  have a1 : d * (Real.sqrt 3 + d') ≤ d * (18 / 10) := mul_le_mul_of_nonneg_left (by norm_num at hd' ⊢; linarith) hd0
  have a2 : F.g3 * (Real.sqrt 3 + d) ≤ 301 / 100 * F.u * (1734 / 1000) :=
    mul_le_mul g1 (by norm_num at hd ⊢; linarith) (by positivity) (by positivity)
  have a3 : F.g3 * (Real.sqrt 3 + d) * (Real.sqrt 3 + d') ≤ 301 / 100 * F.u * (1734 / 1000) * (1734 / 1000) :=
    mul_le_mul a2 (by norm_num at hd' ⊢; linarith) (by positivity) (by positivity)
  unfold relErr
  linarith

/-- Two roundings. -/
theorem rnd2_lower (hF : F.toFl.Ok) (hu : F.u ≤ 1 / 10 ^ 5) {x eps : ℝ} (h : F.eq (F.rnd (x / 1)) 0 eps) :
    |x| ≤ 10001 / 10000 * eps := by
  obtain ⟨h1, h2⟩ := h
  have h3 : |F.rnd (F.rnd (x / 1) - 0)| ≤ eps := abs_le.mpr ⟨by linarith, by linarith⟩
  rw [div_one, sub_zero] at h3
  have a1 := rnd_lower hF (F.rnd x)
  have a2 := rnd_lower hF x
  have b1 : F.u * |F.rnd x| ≤ 1 / 10 ^ 5 * |F.rnd x| := mul_le_mul_of_nonneg_right hu (abs_nonneg _)
  have b2 : F.u * |x| ≤ 1 / 10 ^ 5 * |x| := mul_le_mul_of_nonneg_right hu (abs_nonneg _)
  have := abs_nonneg x
  norm_num at b1 b2
  linarith

theorem vlen_of_coords {v : Vec} {e : ℝ} (h1 : |v.x| ≤ e) (h2 : |v.y| ≤ e) (h3 : |v.z| ≤ e) : vlen v ≤ 17321 / 10000 * e := by
  have e0 := (abs_nonneg _).trans h1
  refine vlen_le_sum h1 h2 h3 (by positivity) ?_
  nlinarith [sq_nonneg e]

/-- The convergence test on frames known up to errors. -/
theorem diff_verdict (hF : F.Ok) (hu : F.u ≤ 1 / 10 ^ 5) {A B X G : Frame} (hX : X.M.IsProper) (hG : G.M.IsProper) {d e d' e' eps : ℝ}
    (hA : Near d e A X) (hB : Near d' e' B G) (hd : d ≤ 1 / 10 ^ 4) (hd' : d' ≤ 1 / 10 ^ 4) (heps : eps ≤ 1 / 10)
    (h : F.eqTwist (F.diff A B) 0 eps) :
    rdist X.M G.M ≤ 37 / 10 * eps + 18 / 10 ^ 7 + 36 / 10 * d + 2 * d' + 29 * F.u ∧
    vdist X.p G.p ≤ 1733 / 1000 * eps + e + e' := by
  have u0 := hF.fl.nonneg
  have hu3 : F.u ≤ 1 / 1000 := hu.trans (by norm_num)
  have d0 := (rdist_nonneg _ _).trans hA.1
  have d0' := (rdist_nonneg _ _).trans hB.1
  have g0 := Fl.g3_nonneg hF.fl
  have g1 := g3_le hF.fl hu
  have s0 := Real.sqrt_nonneg 3
  have s3 := sqrt3_le
  obtain ⟨⟨r1, r2, r3⟩, ⟨v1, v2, v3⟩⟩ := h
  constructor
  · set v := F.getRot (F.rotMul A.M.inv B.M) with hv
    set w := F.rotVec A.M v with hw
    have b1 := rnd2_lower hF.fl hu (x := w.x) r1
    have b2 := rnd2_lower hF.fl hu (x := w.y) r2
    have b3 := rnd2_lower hF.fl hu (x := w.z) r3
    have b4 := vlen_of_coords b1 b2 b3
    have v0 := vlen_nonneg v
    have c1 := Fl.rotVec_err hF.fl A.M v
    rw [← hw] at c1
    have fA : fro A.M ≤ Real.sqrt 3 + d := by
      have := fro_le A.M X.M
      rw [fro_proper hX] at this
      linarith [hA.1]
    have c2 : F.g3 * fro A.M * vlen v ≤ 301 / 100 * F.u * (1734 / 1000) * vlen v :=
      mul_le_mul_of_nonneg_right (mul_le_mul g1 (by norm_num at hd ⊢; linarith) (fro_nonneg _) (by positivity)) v0
    have c3 := vdist_mul_right A.M X.M v
    have c4 := vlen_mul_proper hX v
    have c5 := vlen_le (X.M * v) w
    have c6 := vdist_triangle (X.M * v) (A.M * v) w
    have sym : ∀ a b, vdist a b = vdist b a := fun a b => by rw [vdist, vdist]; congr 1; ring
    have y1 := sym (X.M * v) (A.M * v)
    have y2 := sym (A.M * v) w
    have c7 : rdist A.M X.M * vlen v ≤ 1 / 10 ^ 4 * vlen v := mul_le_mul_of_nonneg_right (hA.1.trans hd) v0
    have c8 : F.u * vlen v ≤ 1 / 10 ^ 5 * vlen v := mul_le_mul_of_nonneg_right hu v0
    have e0 : 0 ≤ eps := by have := (abs_nonneg _).trans b1; linarith
    have hL : vlen v ≤ 1734 / 1000 * eps := by norm_num at c7 c8; linarith
    have hδ := relErr_le hF.fl hu d0 d0' hd hd'
    have key := getRot_verdict hF hu3 (hX.inv.mul hG) (δ := relErr F.g3 d d') (by norm_num at hd hd' hu; linarith)
      (rel_err hF.fl hX hG hA.1 hB.1) hL (by linarith)
    have e : rdist X.M G.M = rdist (X.M.inv * G.M) 1 := by
      rw [← rdist_proper_left hX.inv X.M G.M, hX.inv_mul_self]
      rw [rdist, rdist]; congr 1; ring
    rw [e]
    refine key.trans ?_
    linarith
  · have hs : ∀ x : ℝ, F.eq (F.rnd (F.rnd x / 1)) 0 eps → |x| ≤ 10002 / 10000 * eps := by
      intro x hx
      have a1 := rnd2_lower hF.fl hu hx
      have a2 := rnd_lower hF.fl x
      have b2 : F.u * |x| ≤ 1 / 10 ^ 5 * |x| := mul_le_mul_of_nonneg_right hu (abs_nonneg _)
      have := abs_nonneg x
      norm_num at b2
      linarith
    have b1 := hs _ v1
    have b2 := hs _ v2
    have b3 := hs _ v3
    have b4 := vlen_of_coords (v := B.p - A.p) b1 b2 b3
    rw [← vdist_eq_vlen] at b4
    have sym : ∀ a b, vdist a b = vdist b a := fun a b => by rw [vdist, vdist]; congr 1; ring
    have t1 := vdist_triangle X.p A.p G.p
    have t2 := vdist_triangle A.p B.p G.p
    have y1 := sym X.p A.p
    have y2 := sym A.p B.p
    have e0 : 0 ≤ eps := by have := (abs_nonneg _).trans b1; linarith
    linarith [hA.2, hB.2]

/-- The convergence test recognises frames that are near each other. -/
theorem diff_recognised (hF : F.Ok) (hu : F.u ≤ 1 / 10 ^ 7) {A B X G : Frame} (hX : X.M.IsProper) (hG : G.M.IsProper) {d e d' e' eps r p : ℝ}
    (hA : Near d e A X) (hB : Near d' e' B G) (hd : d ≤ 1 / 10 ^ 8) (hd' : d' ≤ 1 / 10 ^ 8) (hu8 : F.u ≤ 1 / 10 ^ 9)
    (hr : rdist X.M G.M ≤ r) (hr2 : r ≤ 1 / 10) (hp : vdist X.p G.p ≤ p)
    (h1 : 13 / 10 * r + 4 * d + 2 * d' + 25 * F.u < eps) (h2 : 1001 / 1000 * (p + e + e') < eps) :
    F.eqTwist (F.diff A B) 0 eps := by
  have u0 := hF.fl.nonneg
  have hu5 : F.u ≤ 1 / 10 ^ 5 := hu.trans (by norm_num)
  have d0 := (rdist_nonneg _ _).trans hA.1
  have d0' := (rdist_nonneg _ _).trans hB.1
  have r0 := (rdist_nonneg _ _).trans hr
  have g0 := Fl.g3_nonneg hF.fl
  have g1 := g3_le hF.fl hu5
  have s0 := Real.sqrt_nonneg 3
  have s3 := sqrt3_le
  have sym : ∀ a b, vdist a b = vdist b a := fun a b => by rw [vdist, vdist]; congr 1; ring
  have up : ∀ x : ℝ, |F.rnd x| ≤ 10001 / 10000 * |x| := by
    intro x
    have a1 := hF.fl.rnd x
    have a2 := abs_sub_abs_le_abs_sub (F.rnd x) x
    have a3 : F.u * |x| ≤ 1 / 10 ^ 5 * |x| := mul_le_mul_of_nonneg_right hu5 (abs_nonneg _)
    have := abs_nonneg x
    norm_num at a3
    linarith
  have test : ∀ x : ℝ, 10003 / 10000 * |x| < eps → F.eq (F.rnd (x / 1)) 0 eps := by
    intro x hx
    have a1 := up x
    have a2 := up (F.rnd x)
    have a3 : |F.rnd (F.rnd x)| < eps := by have := abs_nonneg x; linarith
    have a4 := abs_lt.mp a3
    unfold FlM.eq
    rw [div_one, sub_zero]
    exact ⟨a4.2, a4.1⟩
  constructor
  · set v := F.getRot (F.rotMul A.M.inv B.M) with hv
    set w := F.rotVec A.M v with hw
    have v0 := vlen_nonneg v
    have hδ := relErr_le hF.fl hu5 d0 d0' (hd.trans (by norm_num)) (hd'.trans (by norm_num))
    have e : rdist (X.M.inv * G.M) 1 = rdist X.M G.M := by
      rw [← rdist_proper_left hX.inv X.M G.M, hX.inv_mul_self]
      rw [rdist, rdist]; congr 1; ring
    have hL := getRot_upper hF hu (hX.inv.mul hG) (δ := relErr F.g3 d d') (by norm_num at hd hd' hu8 ⊢; linarith)
      (rel_err hF.fl hX hG hA.1 hB.1) (e.le.trans hr) hr2
    rw [← hv] at hL
    have fA : fro A.M ≤ Real.sqrt 3 + d := by
      have := fro_le A.M X.M
      rw [fro_proper hX] at this
      linarith [hA.1]
    have c1 := Fl.rotVec_err hF.fl A.M v
    rw [← hw] at c1
    have c2 : F.g3 * fro A.M * vlen v ≤ 301 / 100 * F.u * (1734 / 1000) * vlen v :=
      mul_le_mul_of_nonneg_right (mul_le_mul g1 (by norm_num at hd ⊢; linarith) (fro_nonneg _) (by positivity)) v0
    have c3 := vdist_mul_right A.M X.M v
    have c4 := vlen_mul_proper hX v
    have c5 := vlen_le w (X.M * v)
    have c6 := vdist_triangle w (A.M * v) (X.M * v)
    have c7 : rdist A.M X.M * vlen v ≤ 1 / 10 ^ 8 * vlen v := mul_le_mul_of_nonneg_right (hA.1.trans hd) v0
    have c8 : F.u * vlen v ≤ 1 / 10 ^ 5 * vlen v := mul_le_mul_of_nonneg_right hu5 v0
    have hW : vlen w ≤ 1001 / 1000 * vlen v := by norm_num at c7 c8; linarith
    have hW2 : 10003 / 10000 * vlen w < eps := by linarith
    obtain ⟨k1, k2, k3⟩ := coord_le w
    exact ⟨test w.x (by linarith), test w.y (by linarith), test w.z (by linarith)⟩
  · have t1 := vdist_triangle A.p X.p B.p
    have t2 := vdist_triangle X.p G.p B.p
    have y1 := sym G.p B.p
    have t3 : vlen (B.p - A.p) ≤ p + e + e' := by
      rw [← vdist_eq_vlen, sym]
      linarith [hA.2, hB.2]
    have c := coord_le (B.p - A.p)
    simp only [Vec.sub_x, Vec.sub_y, Vec.sub_z] at c
    have test2 : ∀ x : ℝ, |x| ≤ vlen (B.p - A.p) → F.eq (F.rnd (F.rnd x / 1)) 0 eps := by
      intro x hx
      refine test _ ?_
      have := up x
      have := abs_nonneg x
      linarith
    exact ⟨test2 _ c.1, test2 _ c.2.1, test2 _ c.2.2⟩

end FlM

/-! ## the loop -/

/-- What the loop returns: a successful code is `E_NOERROR` and was found by the test on the returned array; that array is the initial
one or an array with limited entries. -/
theorem FlM.jlLoop_result {F : FlM} {c : Chain} {ik : VelSolver} {p : Frame} {eps : ℝ} {lo hi : List ℝ} : ∀ (n i : ℕ) (q : List ℝ) (rc : Int)
    (q' : List ℝ), q.length = lo.length → q.length = hi.length → F.jlLoop c ik p eps lo hi n i q = some (rc, q') →
    (0 ≤ rc → rc = E_NOERROR ∧ ∃ code f, F.fkPos c q' (-1) = some (code, f) ∧ 0 ≤ code ∧ F.eqTwist (F.diff f p) 0 eps) ∧
    q'.length = q.length ∧ (q' = q ∨ ∃ q0 : List ℝ, q0.length = q.length ∧ q' = NrJlState.clampHigh (NrJlState.clampLow q0 lo) hi) := by
  classical
  intro n
  induction n with
  | zero =>
    intro i q rc q' _ _ h
    simp only [FlM.jlLoop, Option.some.injEq, Prod.mk.injEq] at h
    obtain ⟨rfl, rfl⟩ := h
    exact ⟨fun h => by simp [E_MAX_ITERATIONS_EXCEEDED] at h, rfl, .inl rfl⟩
  | succ n ih =>
    intro i q rc q' h1 h2 h
    rw [FlM.jlLoop] at h
    rcases hfk : F.fkPos c q (-1) with _ | ⟨code, f⟩
    · rw [hfk] at h; simp at h
    rw [hfk] at h
    simp only [Option.bind_eq_bind, Option.bind_some] at h
    by_cases hc : code < 0
    · rw [if_pos hc] at h
      simp only [Option.some.injEq, Prod.mk.injEq] at h
      obtain ⟨rfl, rfl⟩ := h
      exact ⟨fun h => by simp [E_FKSOLVERPOS_FAILED] at h, rfl, .inl rfl⟩
    rw [if_neg hc] at h
    by_cases ht : F.eqTwist (F.diff f p) 0 eps
    · rw [if_pos ht] at h
      simp only [Option.some.injEq, Prod.mk.injEq] at h
      obtain ⟨rfl, rfl⟩ := h
      exact ⟨fun _ => ⟨rfl, code, f, hfk, not_lt.mp hc, ht⟩, rfl, .inl rfl⟩
    rw [if_neg ht] at h
    rcases hik : ik i q (F.diff f p) with _ | ⟨r, dq⟩
    · rw [hik] at h; simp at h
    rw [hik] at h
    simp only [Option.bind_some] at h
    by_cases hr : r < 0
    · rw [if_pos hr] at h
      simp only [Option.some.injEq, Prod.mk.injEq] at h
      obtain ⟨rfl, rfl⟩ := h
      exact ⟨fun h => by simp [E_IKSOLVER_FAILED] at h, rfl, .inl rfl⟩
    rw [if_neg hr] at h
    unfold FlM.jntAdd at h
    by_cases hl : q.length = dq.length
    · rw [if_pos hl] at h
      simp only [Option.bind_some] at h
      set q0 := List.zipWith (fun x y => F.rnd (x + y)) q dq with hq0
      have l0 : q0.length = q.length := by simp [hq0, hl]
      have l1 : (NrJlState.clampHigh (NrJlState.clampLow q0 lo) hi).length = q.length := by
        simp [NrJlState.clampHigh, NrJlState.clampLow]; omega
      obtain ⟨a1, a2, a3⟩ := ih (i + 1) _ rc q' (by omega) (by omega) h
      refine ⟨a1, by omega, .inr ?_⟩
      rcases a3 with a3 | ⟨q1, b1, b2⟩
      · exact ⟨q0, l0, a3⟩
      · exact ⟨q1, by omega, b2⟩
    · rw [if_neg hl] at h; simp at h

theorem FlM.jl_run {F : FlM} {s : NrJlState} {c : Chain} {ik : VelSolver} {q_init q_out : List ℝ} {p : Frame} {rc : Int} {q : List ℝ}
    (h : F.jlCartToJnt s c ik q_init p q_out = some (rc, q)) :
    (rc = E_NOT_UP_TO_DATE ∧ q = q_out ∧ s.nj ≠ c.nrOfJoints) ∨
    (rc = E_SIZE_MISMATCH ∧ q = q_out ∧ s.nj = c.nrOfJoints ∧
      (s.nj ≠ q_init.length ∨ s.nj ≠ q_out.length ∨ s.nj ≠ s.q_min.length ∨ s.nj ≠ s.q_max.length)) ∨
    (s.nj = c.nrOfJoints ∧ q_init.length = s.nj ∧ s.q_min.length = s.nj ∧ s.q_max.length = s.nj ∧
      F.jlLoop c ik p s.eps s.q_min s.q_max s.maxiter 0 q_init = some (rc, q)) := by
  unfold FlM.jlCartToJnt at h
  split_ifs at h with h1 h2
  · simp only [Option.some.injEq, Prod.mk.injEq] at h
    exact .inl ⟨h.1.symm, h.2.symm, h1⟩
  · simp only [Option.some.injEq, Prod.mk.injEq] at h
    exact .inr (.inl ⟨h.1.symm, h.2.symm, not_not.mp h1, h2⟩)
  · push Not at h1 h2
    exact .inr (.inr ⟨h1, h2.1.symm, h2.2.2.1.symm, h2.2.2.2.symm, h⟩)

theorem proper_fkSpec {F : Fl} {c c' : Chain} (hc : c.WF) {q : List ℝ} {r r' l : ℝ}
    (hs : List.Forall₂ (SegNear F q r r' l) c.segments c'.segments) : (fkSpec c' q c.nrOfSegments).M.IsProper := by
  have hv : ∀ t ∈ c'.segments, t.Valid := by
    intro t ht
    generalize c.segments = x at hs
    generalize c'.segments = y at hs ht
    induction hs with
    | nil => simp at ht
    | cons k _ ih =>
      rcases List.mem_cons.mp ht with rfl | ht
      · exact k.2.1
      · exact ih ht
  have hl : c.nrOfSegments ≤ c'.segments.length := by rw [← hs.length_eq, hc.1]
  rw [← fkF_eq_spec c' q c.nrOfSegments hl]
  exact isProper_fkF _ _ _ fun t ht => hv t (List.mem_of_mem_take ht)

/-! ## the theorems -/

/-- A successful return in floating point arithmetic: the code is `E_NOERROR`, and the pose of the ideal chain at the returned
positions is near the goal, in the position within `√3 eps` and in the rotation (Frobenius norm; `√2` times the angle for small ones)
within `3.7 eps` plus `1.8e-6` (tolerances built into `GetRotAngle` and `Norm`), each plus the rounding errors of the forward kinematics (C98)
and the errors of the goal.  Nothing is assumed of the velocity solver. -/
theorem C100_verdict (F : FlM) (hF : F.Ok) (hu : F.u ≤ 1 / 10 ^ 5) (s : NrJlState) (c : Chain) (hc : c.WF) (ik : VelSolver) (q_init q_out : List ℝ)
    (p_in : Frame) (rc : Int) (q : List ℝ) (h : F.jlCartToJnt s c ik q_init p_in q_out = some (rc, q)) (h0 : 0 ≤ rc) (heps : s.eps ≤ 1 / 10) :
    rc = E_NOERROR ∧ ∀ (c' : Chain) (r r' l : ℝ), c'.WF → List.Forall₂ (SegNear F.toFl q r r' l) c.segments c'.segments →
      ∀ (G : Frame) (d' e' : ℝ), G.M.IsProper → Near d' e' p_in G → d' ≤ 1 / 10 ^ 4 →
      ∀ d e, d = rotErr (r + F.g3 * (Real.sqrt 3 + r)) c.nrOfSegments → d ≤ 1 / 10 ^ 4 →
        e = posErr F.u F.g3 (r + F.g3 * (Real.sqrt 3 + r)) l r' c.nrOfSegments →
      rdist (fkSpec c' q c.nrOfSegments).M G.M ≤ 37 / 10 * s.eps + 18 / 10 ^ 7 + 36 / 10 * d + 2 * d' + 29 * F.u ∧
      vdist (fkSpec c' q c.nrOfSegments).p G.p ≤ 1733 / 1000 * s.eps + e + e' := by
  rcases FlM.jl_run h with h | h | ⟨h1, h2, h3, h4, h⟩
  · rw [h.1] at h0; simp [E_NOT_UP_TO_DATE] at h0
  · rw [h.1] at h0; simp [E_SIZE_MISMATCH] at h0
  obtain ⟨a1, a2, -⟩ := FlM.jlLoop_result s.maxiter 0 q_init rc q (by omega) (by omega) h
  obtain ⟨b1, code, f, b2, b3, b4⟩ := a1 h0
  refine ⟨b1, fun c' r r' l hc' hs G d' e' hG hp hd' d e hd hd4 he => ?_⟩
  have hseg : segmentNr c (-1) = c.nrOfSegments := by simp [segmentNr]
  obtain ⟨P, p1, p2⟩ := (C98_fk F.toFl hF.fl c c' hc hc' q r r' l hs (-1)).2.2 (by omega) (by rw [hseg])
  rw [p1] at b2
  simp only [Option.some.injEq, Prod.mk.injEq] at b2
  obtain ⟨-, rfl⟩ := b2
  rw [hseg, ← hd, ← he] at p2
  exact FlM.diff_verdict hF hu (proper_fkSpec hc hs) hG p2 hp hd4 hd' heps b4

/-- The converse at the start: if the ideal pose at the initial positions is near enough to the goal (the rotation within about
`eps/1.3`, the position within about `eps`), the initial positions are accepted without an iteration. -/
theorem C100_recognised (F : FlM) (hF : F.Ok) (hu : F.u ≤ 1 / 10 ^ 9) (s : NrJlState) (c c' : Chain) (hc : c.WF) (hc' : c'.WF) (ik : VelSolver)
    (q_init q_out : List ℝ) (p_in G : Frame) (hnj : s.nj = c.nrOfJoints) (hq : q_init.length = s.nj) (ho : q_out.length = s.nj)
    (hlo : s.q_min.length = s.nj) (hhi : s.q_max.length = s.nj) (hm : 1 ≤ s.maxiter) (r r' l : ℝ)
    (hs : List.Forall₂ (SegNear F.toFl q_init r r' l) c.segments c'.segments) (d e d' e' : ℝ) (hG : G.M.IsProper) (hp : Near d' e' p_in G)
    (hd : d = rotErr (r + F.g3 * (Real.sqrt 3 + r)) c.nrOfSegments)
    (he : e = posErr F.u F.g3 (r + F.g3 * (Real.sqrt 3 + r)) l r' c.nrOfSegments) (hd8 : d ≤ 1 / 10 ^ 8) (hd8' : d' ≤ 1 / 10 ^ 8)
    (hr : rdist (fkSpec c' q_init c.nrOfSegments).M G.M ≤ 1 / 10)
    (h1 : 13 / 10 * rdist (fkSpec c' q_init c.nrOfSegments).M G.M + 4 * d + 2 * d' + 25 * F.u < s.eps)
    (h2 : 1001 / 1000 * (vdist (fkSpec c' q_init c.nrOfSegments).p G.p + e + e') < s.eps) :
    F.jlCartToJnt s c ik q_init p_in q_out = some (E_NOERROR, q_init) := by
  have hseg : segmentNr c (-1) = c.nrOfSegments := by simp [segmentNr]
  obtain ⟨P, p1, p2⟩ := (C98_fk F.toFl hF.fl c c' hc hc' q_init r r' l hs (-1)).2.2 (by omega) (by rw [hseg])
  rw [hseg, ← hd, ← he] at p2
  have ht := FlM.diff_recognised hF (hu.trans (by norm_num)) (proper_fkSpec hc hs) hG p2 hp hd8 hd8' hu le_rfl hr le_rfl h1 h2
  unfold FlM.jlCartToJnt
  rw [if_neg (not_not.mpr hnj), if_neg (by omega)]
  obtain ⟨n, hn⟩ : ∃ n, s.maxiter = n + 1 := ⟨s.maxiter - 1, by omega⟩
  rw [hn, FlM.jlLoop, p1]
  simp only [Option.bind_eq_bind, Option.bind_some]
  rw [if_neg (by simp [E_NOERROR]), if_pos ht]

/-- The limits hold exactly whatever the rounding does: the returned array is the initial one or lies within the limits. -/
theorem C100_limits (F : FlM) (s : NrJlState) (c : Chain) (ik : VelSolver) (q_init q_out : List ℝ) (p_in : Frame) (rc : Int) (q : List ℝ)
    (hlim : ∀ i, s.q_min.getD i 0 ≤ s.q_max.getD i 0) (h : F.jlCartToJnt s c ik q_init p_in q_out = some (rc, q))
    (h3 : rc ≠ E_NOT_UP_TO_DATE) (h4 : rc ≠ E_SIZE_MISMATCH) : q = q_init ∨ WithinLimits q s.q_min s.q_max := by
  rcases FlM.jl_run h with h | h | ⟨k1, k2, k3, k4, h⟩
  · exact absurd h.1 h3
  · exact absurd h.1 h4
  obtain ⟨-, a2, a3⟩ := FlM.jlLoop_result s.maxiter 0 q_init rc q (by omega) (by omega) h
  refine a3.imp id ?_
  rintro ⟨q0, l0, rfl⟩
  have hcl := isClamp_clamp q0 s.q_min s.q_max (by omega) (by omega)
  refine ⟨by omega, by omega, fun i hi => ?_⟩
  rw [hcl.2 i (by omega)]
  exact ⟨le_min (le_max_right _ _) (hlim i), min_le_right _ _⟩

/-- The guards, and the codes that can be returned. -/
theorem C100_codes (F : FlM) (s : NrJlState) (c : Chain) (ik : VelSolver) (q_init q_out : List ℝ) (p_in : Frame) :
    (s.nj ≠ c.nrOfJoints → F.jlCartToJnt s c ik q_init p_in q_out = some (E_NOT_UP_TO_DATE, q_out)) ∧
    (s.nj = c.nrOfJoints → ¬ (s.nj = q_init.length ∧ s.nj = q_out.length ∧ s.nj = s.q_min.length ∧ s.nj = s.q_max.length) →
      F.jlCartToJnt s c ik q_init p_in q_out = some (E_SIZE_MISMATCH, q_out)) ∧
    (s.nj = c.nrOfJoints → s.nj = q_init.length → s.nj = q_out.length → s.nj = s.q_min.length → s.nj = s.q_max.length → s.maxiter = 0 →
      F.jlCartToJnt s c ik q_init p_in q_out = some (E_MAX_ITERATIONS_EXCEEDED, q_init)) := by
  refine ⟨fun h => ?_, fun h1 h2 => ?_, fun h1 h2 h3 h4 h5 h6 => ?_⟩
  · unfold FlM.jlCartToJnt; rw [if_pos h]
  · unfold FlM.jlCartToJnt; rw [if_neg (not_not.mpr h1), if_pos (by tauto)]
  · unfold FlM.jlCartToJnt; rw [if_neg (not_not.mpr h1), if_neg (by tauto), h6]; rfl

/-- Without rounding this is the solver of C47. -/
theorem C100_exact (u : ℝ) (s : NrJlState) (c : Chain) (ik : VelSolver) (q_init q_out : List ℝ) (p_in : Frame) :
    (FlM.mk ⟨u, id, Real.sin, Real.cos⟩ Real.sqrt KDL.atan2).jlCartToJnt s c ik q_init p_in q_out =
      (s.cartToJnt c (fkOf c) ik q_init p_in q_out).map fun r => (r.ret, r.q_out) := by
  classical
  set F : FlM := FlM.mk ⟨u, id, Real.sin, Real.cos⟩ Real.sqrt KDL.atan2 with hF
  have hnorm : ∀ v, F.norm v = v.norm := by
    intro v
    unfold FlM.norm Vec.norm FlM.scaled FlM.eps0
    simp only [hF, id, sq]
  have hnz : ∀ v, F.normalize v = v.normalize.1 := by
    intro v
    unfold FlM.normalize Vec.normalize
    rw [hnorm]
    dsimp only
    have e : F.eps0 = epsilon := rfl
    rw [e]
    split_ifs <;> rfl
  have hra : ∀ R, F.getRotAngle R = R.getRotAngle := by
    intro R
    unfold FlM.getRotAngle Rot.getRotAngle
    dsimp only
    rw [hnz, hnorm]
    rfl
  have hgr : ∀ R, F.getRot R = R.getRot := by
    intro R
    unfold FlM.getRot Rot.getRot
    rw [hra]
    simp only [Fl.vecScale, hF, id]
    ext <;> simp <;> ring
  have hd : ∀ a b, F.diff a b = Frame.diff a b 1 := by
    intro a b
    have e1 : F.rotDiff a.M b.M = Rot.diff a.M b.M 1 := by
      unfold FlM.rotDiff Rot.diff
      rw [hgr]
      rfl
    have e2 : F.vecDiv (F.vecSub b.p a.p) 1 = Vec.diff a.p b.p 1 := rfl
    unfold FlM.diff Frame.diff
    rw [e1, e2]
  have ht : ∀ (a : Twist) eps, F.eqTwist a 0 eps ↔ Twist.equal a 0 eps := fun a eps => Iff.rfl
  have hfk : ∀ q, F.fkPos c q (-1) = fkPos c q (-1) := fun q => C98_exact u c q (-1)
  have hadd : ∀ a b, F.jntAdd a b = jntAdd a b := fun a b => rfl
  have hl : ∀ n i q, F.jlLoop c ik p_in s.eps s.q_min s.q_max n i q =
      (NrJlState.loop (fkOf c) ik p_in s.eps s.q_min s.q_max n i q).map fun r => (r.ret, r.q_out) := by
    intro n
    induction n with
    | zero => intro i q; rfl
    | succ n ih =>
      intro i q
      rw [FlM.jlLoop, NrJlState.loop, hfk, fkOf]
      rcases fkPos c q (-1) with _ | ⟨code, f⟩
      · rfl
      simp only [Option.bind_eq_bind, Option.bind_some]
      by_cases h1 : code < 0
      · rw [if_pos h1, if_pos h1]; rfl
      rw [if_neg h1, if_neg h1, hd]
      by_cases h2 : Twist.equal (Frame.diff f p_in 1) 0 s.eps
      · rw [if_pos ((ht _ _).mpr h2), if_pos h2]; rfl
      rw [if_neg (fun h => h2 ((ht _ _).mp h)), if_neg h2]
      rcases ik i q (Frame.diff f p_in 1) with _ | ⟨r, dq⟩
      · rfl
      simp only [Option.bind_some]
      by_cases h3 : r < 0
      · rw [if_pos h3, if_pos h3]; rfl
      rw [if_neg h3, if_neg h3, hadd]
      rcases jntAdd q dq with _ | q'
      · rfl
      simp only [Option.bind_some]
      exact ih _ _
  unfold FlM.jlCartToJnt NrJlState.cartToJnt
  split_ifs
  · rfl
  · rfl
  · exact hl _ _ _

/-- In double precision, a chain of at most ten segments within the ranges of `SegClose` and a goal with errors of at most `1e-9`: after a
successful return the pose of the ideal chain is within `1.733 eps + 2e-8` of the goal in the position and within `3.7 eps + 1.81e-6` in the
rotation. -/
theorem C100_double (F : FlM) (hF : F.Ok) (hu : F.u = 1 / 2 ^ 53) (s : NrJlState) (c c' : Chain) (hc : c.WF) (hc' : c'.WF) (ik : VelSolver)
    (q_init q_out : List ℝ) (p_in G : Frame) (rc : Int) (q : List ℝ) (h : F.jlCartToJnt s c ik q_init p_in q_out = some (rc, q))
    (h0 : 0 ≤ rc) (heps : s.eps ≤ 1 / 10) (hs : List.Forall₂ (SegClose q) c.segments c'.segments) (hn : c.nrOfSegments ≤ 10)
    (hG : G.M.IsProper) (hp : Near (1 / 10 ^ 9) (1 / 10 ^ 9) p_in G) :
    vdist (fkSpec c' q c.nrOfSegments).p G.p ≤ 1733 / 1000 * s.eps + 2 / 10 ^ 8 ∧
    rdist (fkSpec c' q c.nrOfSegments).M G.M ≤ 37 / 10 * s.eps + 181 / 10 ^ 8 := by
  have hseg : segmentNr c (-1) = c.nrOfSegments := by simp [segmentNr]
  rcases FlM.jl_run h with h | h | ⟨h1, h2, h3, h4, h⟩
  · rw [h.1] at h0; simp [E_NOT_UP_TO_DATE] at h0
  · rw [h.1] at h0; simp [E_SIZE_MISMATCH] at h0
  obtain ⟨a1, a2, -⟩ := FlM.jlLoop_result s.maxiter 0 q_init rc q (by omega) (by omega) h
  obtain ⟨b1, code, f, b2, b3, b4⟩ := a1 h0
  obtain ⟨P, p1, p2⟩ := C98_double F.toFl hF.fl hu c c' hc hc' q hs (-1) (by omega) (by rw [hseg]) hn
  rw [p1] at b2
  simp only [Option.some.injEq, Prod.mk.injEq] at b2
  obtain ⟨-, rfl⟩ := b2
  rw [hseg] at p2
  have hv : ∀ t ∈ c'.segments, t.Valid := by
    intro t ht
    generalize c.segments = x at hs
    generalize c'.segments = y at hs ht
    induction hs with
    | nil => simp at ht
    | cons k _ ih =>
      rcases List.mem_cons.mp ht with rfl | ht
      · exact k.valid
      · exact ih ht
  have hX : (fkSpec c' q c.nrOfSegments).M.IsProper := by
    have hl : c.nrOfSegments ≤ c'.segments.length := by rw [← hs.length_eq, hc.1]
    rw [← fkF_eq_spec c' q c.nrOfSegments hl]
    exact isProper_fkF _ _ _ fun t ht => hv t (List.mem_of_mem_take ht)
  obtain ⟨k1, k2⟩ := FlM.diff_verdict hF (by rw [hu]; norm_num) hX hG p2 hp (by norm_num) (by norm_num) heps b4
  rw [hu] at k1
  constructor
  · norm_num at k2 ⊢; linarith
  · norm_num at k1 ⊢; linarith

/-! ## the tolerance of `GetRotAngle` is visible -/

/-- A chain with one joint turning about X. -/
def turnX : Chain := ⟨1, 1, [⟨"", ⟨"", .RotX, 1, 0, 0, 0, 0, ⟨0, 0, 0⟩, ⟨0, 0, 0⟩⟩, RBI.zero, ⟨1, ⟨0, 0, 0⟩⟩⟩]⟩

theorem turnX_wf : turnX.WF := by
  refine ⟨rfl, ?_⟩
  simp [turnX, nMoving, Segment.moving, Joint.moving]

theorem turnX_fk (x : ℝ) : fkPos turnX [x] (-1) = some (E_NOERROR, ⟨Rot.rotX x, ⟨0, 0, 0⟩⟩) := by
  simp only [fkPos, turnX, segmentNr, fkLoop, Segment.moving, Joint.moving]
  simp [fkLoop, Segment.pose, Joint.pose, Segment.moving, Joint.moving]
  ext <;> simp [Frame.ofRot]

/-- However small `eps` is, a deviation of `4e-7` about the X axis is accepted (without rounding, too): the band of `1.8e-6` in
`C100_verdict` cannot be removed. -/
theorem C100_band (u : ℝ) (ik : VelSolver) (eps : ℝ) (he : 0 < eps) :
    (FlM.mk ⟨u, id, Real.sin, Real.cos⟩ Real.sqrt KDL.atan2).jlCartToJnt ⟨1, [-1], [1], 100, eps, 0⟩ turnX ik [4 / 10 ^ 7] 1 [0] =
      some (E_NOERROR, [4 / 10 ^ 7]) ∧
    5 / 10 ^ 7 ≤ rdist (fkSpec turnX [4 / 10 ^ 7] 1).M (1 : Frame).M := by
  obtain ⟨x, hx⟩ : ∃ x : ℝ, x = 4 / 10 ^ 7 := ⟨_, rfl⟩
  rw [← hx]
  have x0 : 0 < x := by rw [hx]; norm_num
  have hsin : |Real.sin x| ≤ x := by
    have := Real.abs_sin_le_abs (x := x)
    rwa [abs_of_pos x0] at this
  have hsin0 : 3999 / 10 ^ 10 ≤ Real.sin x := by
    have := Real.sin_gt_sub_cube x0
    have h2 : 3999 / 10 ^ 10 ≤ x - x ^ 3 / 6 := by rw [hx]; norm_num
    linarith
  have hcos : 1 - x ^ 2 / 2 ≤ Real.cos x := Real.one_sub_sq_div_two_le_cos
  have hcos1 := Real.cos_le_one x
  constructor
  · rw [C100_exact]
    have hang : (⟨1, 0, 0, 0, Real.cos x, Real.sin x, 0, -Real.sin x, Real.cos x⟩ : Rot).getRotAngle = (⟨0, 0, 1⟩, 0) := by
      unfold Rot.getRotAngle
      dsimp only
      have hb : x ^ 2 / 2 ≤ 1 / 10 ^ 12 := by rw [hx]; norm_num
      rw [if_pos, if_pos]
      · refine ⟨by simp [epsilon], by simp [epsilon], by simp [epsilon], ?_⟩
        rw [abs_lt]
        simp only [epsilon]
        norm_num at hb ⊢
        constructor <;> linarith
      · refine ⟨by simp [epsilon], by simp [epsilon], ?_⟩
        rw [sub_neg_eq_add, ← two_mul, abs_mul, abs_two]
        simp only [epsilon]
        have : x < 1 / 2000000 := by rw [hx]; norm_num
        norm_num
        linarith
    have hd : Frame.diff ⟨Rot.rotX x, ⟨0, 0, 0⟩⟩ 1 1 = 0 := by
      have hi : (Rot.rotX x).inv * (1 : Rot) = ⟨1, 0, 0, 0, Real.cos x, Real.sin x, 0, -Real.sin x, Real.cos x⟩ := by
        ext <;> simp [Rot.rotX]
      have hr : Rot.diff (Rot.rotX x) 1 1 = 0 := by
        unfold Rot.diff Rot.getRot
        rw [hi, hang]
        ext <;> simp
      have hv : Vec.diff ⟨0, 0, 0⟩ (1 : Frame).p 1 = 0 := by
        unfold Vec.diff
        ext <;> simp
      unfold Frame.diff
      show (⟨Vec.diff ⟨0, 0, 0⟩ (1 : Frame).p 1, Rot.diff (Rot.rotX x) (1 : Frame).M 1⟩ : Twist) = 0
      rw [hv, show (1 : Frame).M = 1 from rfl, hr]
      rfl
    have hlp : NrJlState.loop (fkOf turnX) ik 1 eps [-1] [1] 100 0 [x] = some ⟨E_NOERROR, E_NOERROR, [x]⟩ := by
      rw [NrJlState.loop, fkOf, turnX_fk]
      simp only [Option.bind_eq_bind, Option.bind_some]
      rw [if_neg (by simp [E_NOERROR]), hd, if_pos]
      simp [Twist.equal, Vec.equal, realEqual, he]
    unfold NrJlState.cartToJnt
    rw [if_neg (by simp [turnX]), if_neg (by simp), hlp]
    rfl
  · have e : fkSpec turnX [x] 1 = ⟨Rot.rotX x, ⟨0, 0, 0⟩⟩ := by
      rw [← fkF_eq_spec turnX [x] 1 (by simp [turnX])]
      simp [fkF, turnX, Segment.moving, Joint.moving, Segment.pose, Joint.pose, rd]
      ext <;> simp [Frame.ofRot]
    rw [e]
    refine Real.le_sqrt_of_sq_le ?_
    simp [Rot.rotX]
    nlinarith

/-! ## the assumptions can be met -/

/-- An arithmetic that is not exact. -/
def sloppyM : FlM := ⟨sloppy, fun x => Real.sqrt x * (1 - 1 / 2 ^ 53), fun y x => KDL.atan2 y x + 1 / 2 ^ 52⟩

theorem sloppyM_ok : sloppyM.Ok := by
  have e : sloppyM.u = 1 / 2 ^ 53 := rfl
  refine ⟨sloppy_ok, fun x _ => ?_, fun y x => ?_⟩
  · simp only [e]
    simp only [sloppyM]
    rw [show Real.sqrt x * (1 - 1 / 2 ^ 53) - Real.sqrt x = -(1 / 2 ^ 53 * Real.sqrt x) by ring, abs_neg,
      abs_of_nonneg (by positivity)]
  · simp only [e]
    simp only [sloppyM]
    rw [add_sub_cancel_left, abs_of_nonneg (by positivity)]
    norm_num

theorem turnX_close (x : ℝ) (hx : |x| ≤ 10) : List.Forall₂ (SegClose [x]) turnX.segments turnX.segments := by
  refine .cons ⟨rfl, rfl, rfl, rfl, ⟨fun h => by simp at h, Rot.IsProper.one⟩, fun _ => by simp; norm_num, ?_, ?_, ⟨?_, ?_⟩, ?_⟩ .nil
  · intro y hy
    have : y = x ∨ y = 0 := by simpa using hy
    rcases this with rfl | rfl
    · simpa using hx
    · simp
  · simp
  · simp [rdist]
  · simp [vdist]
  · exact vlen_le_sum (a := 0) (b := 0) (c := 0) (by simp) (by simp) (by simp) (by norm_num) (by norm_num)

/-- An inexact arithmetic, a joint turned by half a radian and its ideal pose as the goal: the assumptions of `C100_recognised` hold, the
solver succeeds at once, and with it the assumptions of `C100_verdict`, `C100_double` and `C100_limits` hold. -/
example (ik : VelSolver) : sloppyM.Ok ∧ sloppyM.u = 1 / 2 ^ 53 ∧ turnX.WF ∧ List.Forall₂ (SegClose [1 / 2]) turnX.segments turnX.segments ∧
    (∀ i, ([-1] : List ℝ).getD i 0 ≤ ([1] : List ℝ).getD i 0) ∧ (fkSpec turnX [1 / 2] 1).M.IsProper ∧
    Near (1 / 10 ^ 9) (1 / 10 ^ 9) (fkSpec turnX [1 / 2] 1) (fkSpec turnX [1 / 2] 1) ∧
    sloppyM.jlCartToJnt ⟨1, [-1], [1], 100, 1 / 1000, 0⟩ turnX ik [1 / 2] (fkSpec turnX [1 / 2] 1) [0] = some (E_NOERROR, [1 / 2]) := by
  have hu : sloppyM.u = 1 / 2 ^ 53 := rfl
  have hcl := turnX_close (1 / 2) (by rw [abs_of_pos] <;> norm_num)
  have hs : List.Forall₂ (SegNear sloppyM.toFl [1 / 2] (3 / 10 ^ 13) (1 / 10 ^ 11) 60) turnX.segments turnX.segments := by
    refine .cons (segClose_near sloppyM_ok.fl hu (List.forall₂_cons.mp hcl).1 (by simp)).1 .nil
  have hG := proper_fkSpec turnX_wf hs
  have hG1 : (fkSpec turnX [1 / 2] 1).M.IsProper := hG
  have n0 : ∀ f : Frame, rdist f.M f.M = 0 := fun f => by simp [rdist]
  have n1 : ∀ f : Frame, vdist f.p f.p = 0 := fun f => by simp [vdist]
  have near : Near (1 / 10 ^ 9) (1 / 10 ^ 9) (fkSpec turnX [1 / 2] 1) (fkSpec turnX [1 / 2] 1) :=
    ⟨by rw [n0]; norm_num, by rw [n1]; norm_num⟩
  refine ⟨sloppyM_ok, hu, turnX_wf, hcl, fun i => ?_, hG1, near, ?_⟩
  · rcases i with _ | i <;> simp
  · have hg : sloppyM.g3 ≤ 34 / 10 ^ 17 := by rw [Fl.g3, hu]; norm_num
    have g0 := Fl.g3_nonneg sloppyM_ok.fl
    have s0 := Real.sqrt_nonneg 3
    have s3 := sqrt3_le
    have k1 : sloppyM.g3 * (Real.sqrt 3 + 3 / 10 ^ 13) ≤ 34 / 10 ^ 17 * 2 := mul_le_mul hg (by norm_num; linarith) (by positivity) (by norm_num)
    have k0 : 0 ≤ sloppyM.g3 * (Real.sqrt 3 + 3 / 10 ^ 13) := by positivity
    have b1 : rotErr (3 / 10 ^ 13 + sloppyM.g3 * (Real.sqrt 3 + 3 / 10 ^ 13)) 1 ≤ 1 / 10 ^ 10 := by
      have : rotErr (3 / 10 ^ 13 + sloppyM.g3 * (Real.sqrt 3 + 3 / 10 ^ 13)) 1 ≤ 1733 / 1000 * (1 / 10 ^ 12) :=
        mul_le_mul s3 (by norm_num at k1 ⊢; linarith) (by norm_num; linarith) (by norm_num)
      exact this.trans (by norm_num)
    have b2 : posErr sloppyM.u sloppyM.g3 (3 / 10 ^ 13 + sloppyM.g3 * (Real.sqrt 3 + 3 / 10 ^ 13)) 60 (1 / 10 ^ 11) 1 ≤ 1 / 10 ^ 7 := by
      have h1 : sloppyM.g3 * (Real.sqrt 3 * (1 + (3 / 10 ^ 13 + sloppyM.g3 * (Real.sqrt 3 + 3 / 10 ^ 13))) ^ 1) ≤ 34 / 10 ^ 17 * (2 * 2) := by
        refine mul_le_mul hg (mul_le_mul (by linarith) ?_ (by positivity) (by norm_num)) (by positivity) (by norm_num)
        norm_num at k1 ⊢
        linarith
      rw [posErr, posStep, hu]
      norm_num at h1 b1 ⊢
      linarith
    refine C100_recognised sloppyM sloppyM_ok (by rw [hu]; norm_num) _ turnX turnX turnX_wf turnX_wf ik _ _ _ _ rfl rfl rfl rfl rfl
      (by norm_num) (3 / 10 ^ 13) (1 / 10 ^ 11) 60 hs _ _ (1 / 10 ^ 9) (1 / 10 ^ 9) hG1 near rfl rfl (b1.trans (by norm_num)) (by norm_num) ?_ ?_ ?_
    · exact (n0 _).le.trans (by norm_num)
    · have : rdist (fkSpec turnX [1 / 2] turnX.nrOfSegments).M (fkSpec turnX [1 / 2] 1).M = 0 := n0 _
      rw [this, hu]
      have b1' : rotErr (3 / 10 ^ 13 + sloppyM.g3 * (Real.sqrt 3 + 3 / 10 ^ 13)) turnX.nrOfSegments ≤ 1 / 10 ^ 10 := b1
      norm_num at b1' ⊢
      linarith
    · have : vdist (fkSpec turnX [1 / 2] turnX.nrOfSegments).p (fkSpec turnX [1 / 2] 1).p = 0 := n1 _
      rw [this]
      have b2' : posErr sloppyM.u sloppyM.g3 (3 / 10 ^ 13 + sloppyM.g3 * (Real.sqrt 3 + 3 / 10 ^ 13)) 60 (1 / 10 ^ 11) turnX.nrOfSegments ≤
        1 / 10 ^ 7 := b2
      norm_num at b2' ⊢
      linarith

end KDL
