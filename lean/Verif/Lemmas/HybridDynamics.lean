import Verif.Model.HybridDynamics
import Verif.Lemmas.Dynamics
import Verif.Lemmas.MassMatrix
import Verif.Lemmas.NewtonEuler
import Verif.Props.Dynamics
import Mathlib.Algebra.BigOperators.Field

/-! Helper lemmas for the hybrid dynamics solver. -/

noncomputable section
namespace KDL
open Matrix

/-- The first sweep in closed form. -/
def hdLinksF (q qd : ℕ → ℝ) : List Segment → List Wrench → ℕ → Frame → Twist → List HdLink
  | s :: ss, fe :: fes, j, Ft, v =>
    let X := Xs q s j
    let v' := up q qd s j v
    ⟨s, X, Ft * X, X * Ss q s j, v', X * (v' * (qd j • Ss q s j)), v' * (s.I * v') - (Ft * X).M.inv * fe⟩ ::
      hdLinksF q qd ss fes (j + 1) (Ft * X) v'
  | _, _, _, _, _ => []

theorem hdLinksF_cons (q qd : ℕ → ℝ) (s : Segment) (ss : List Segment) (fe : Wrench) (fes : List Wrench) (j : ℕ)
    (Ft : Frame) (v : Twist) : hdLinksF q qd (s :: ss) (fe :: fes) j Ft v =
    ⟨s, Xs q s j, Ft * Xs q s j, Xs q s j * Ss q s j, up q qd s j v,
      Xs q s j * (up q qd s j v * (qd j • Ss q s j)), up q qd s j v * (s.I * up q qd s j v) - (Ft * Xs q s j).M.inv * fe⟩ ::
      hdLinksF q qd ss fes (j + 1) (Ft * Xs q s j) (up q qd s j v) := rfl

theorem hdUp_eq (q qd : List ℝ) (fext : List Wrench) : ∀ (ss : List Segment) (i j : ℕ) (Ft : Frame) (prev : Option Twist),
    (∀ s ∈ ss, s.moving) → j + ss.length ≤ q.length → j + ss.length ≤ qd.length → i + ss.length = fext.length →
    hdUp q qd fext ss i j Ft prev = some (hdLinksF (rd q) (rd qd) ss (fext.drop i) j Ft (prev.getD 0)) := by
  intro ss
  induction ss with
  | nil => intro i j Ft prev _ _ _ _; simp [hdUp, hdLinksF]
  | cons s ss ih =>
    intro i j Ft prev hm h1 h2 h3
    simp only [List.length_cons] at h1 h2 h3
    have hs : s.moving = true := hm s (by simp)
    have e1 : q[j]? = some (rd q j) := by rw [List.getElem?_eq_getElem (by omega)]; simp [rd, show j < q.length by omega]
    have e2 : qd[j]? = some (rd qd j) := by rw [List.getElem?_eq_getElem (by omega)]; simp [rd, show j < qd.length by omega]
    have e3 : fext[i]? = some (fext[i]'(by omega)) := List.getElem?_eq_getElem (by omega)
    unfold hdUp
    simp only [e1, e2, e3, Option.bind_eq_bind, Option.bind_some, hs, if_true]
    rw [ih (i + 1) (j + 1) _ _ (fun t ht => hm t (by simp [ht])) (by omega) (by omega) (by omega)]
    simp only [Option.bind_some, Option.getD_some]
    rw [List.drop_eq_getElem_cons (show i < fext.length by omega)]
    rw [hdLinksF_cons]
    have hX : s.pose (rd q j) = Xs (rd q) s j := by simp [Xs, qv, hs]
    have hS : (Xs (rd q) s j).M.invTwist (s.twist (rd q j) 1) = Ss (rd q) s j := by simp [Ss, qv, hs]
    have hvj : (Xs (rd q) s j).M.invTwist (s.twist (rd q j) (rd qd j)) = rd qd j • Ss (rd q) s j := by
      have := invTwist_twist (rd q) (rd qd) s j
      simpa [qv, hs] using this
    simp only [hX, hS, hvj, C38_ofRBI]
    cases prev with
    | none =>
      have hv : rd qd j • Ss (rd q) s j = up (rd q) (rd qd) s j 0 := by simp [up, qv, hs, Frame.invTwist_zero]
      simp only [Option.getD_none, ← hv]
    | some v0 =>
      have hv : (Xs (rd q) s j).invTwist v0 + rd qd j • Ss (rd q) s j = up (rd q) (rd qd) s j v0 := by simp [up, qv, hs]
      simp only [Option.getD_some, hv]

theorem hdLinksF_length (q qd : ℕ → ℝ) : ∀ (ss : List Segment) (fes : List Wrench) (j : ℕ) (Ft : Frame) (v : Twist),
    fes.length = ss.length → (hdLinksF q qd ss fes j Ft v).length = ss.length := by
  intro ss
  induction ss with
  | nil => intro fes j Ft v _; simp [hdLinksF]
  | cons s ss ih =>
    intro fes j Ft v h
    cases fes with
    | nil => simp at h
    | cons fe fes => simp only [hdLinksF, List.length_cons, ih fes _ _ _ (by simpa using h)]

theorem hdFf_eq (ff : List ℝ) : ∀ (rs : List Segment), (∀ s ∈ rs, s.moving) → rs.length ≤ ff.length →
    hdFf ff rs ((rs.length : ℤ) - 1) = some (ff.take rs.length).reverse := by
  intro rs
  induction rs with
  | nil => intro _ _; simp [hdFf]
  | cons s rs ih =>
    intro hm h
    simp only [List.length_cons] at h
    have hs : s.moving = true := hm s (by simp)
    have e : getJnt ff (((s :: rs).length : ℤ) - 1) = some (ff[rs.length]'(by omega)) := by
      unfold getJnt
      rw [if_pos (by simp), show (((s :: rs).length : ℤ) - 1).toNat = rs.length by simp]
      exact List.getElem?_eq_getElem (by omega)
    unfold hdFf
    rw [e]
    simp only [Option.bind_eq_bind, Option.bind_some, hs, if_true]
    rw [show (((s :: rs).length : ℤ) - 1 - 1) = (rs.length : ℤ) - 1 by simp, ih (fun t ht => hm t (by simp [ht])) (by omega)]
    simp only [Option.bind_some, List.length_cons]
    rw [List.take_add_one (l := ff) (i := rs.length), List.getElem?_eq_getElem (show rs.length < ff.length by omega)]
    rw [List.reverse_append]; rfl

/-- Joint acceleration found by the last sweep. -/
def hdX {nc : ℕ} (nu : Fin nc → ℝ) (s : HdArt nc) (ap : Twist) : ℝ :=
  s.u / s.D + -(s.link.Z.dot (s.P * ap)) / s.D + -(s.link.Z.dot (hdE s.E nu)) / s.D
def hdCt {nc : ℕ} (nu : Fin nc → ℝ) (s : HdArt nc) : ℝ := -(s.link.Z.dot (hdE s.E nu))
def hdTt {nc : ℕ} (nu : Fin nc → ℝ) (s : HdArt nc) (ap : Twist) : ℝ :=
  s.u + -(s.link.Z.dot (s.P * ap)) + -(s.link.Z.dot (hdE s.E nu))
/-- Acceleration of the segment. -/
def hdA {nc : ℕ} (nu : Fin nc → ℝ) (s : HdArt nc) (ap : Twist) : Twist :=
  s.link.F.invTwist (ap + hdX nu s ap • s.link.Z + s.link.C)
/-- The accelerations of the parents of the segments. -/
def hdAps {nc : ℕ} (nu : Fin nc → ℝ) : List (HdArt nc) → Twist → List (HdArt nc × Twist)
  | [], _ => []
  | s :: ss, ap => (s, ap) :: hdAps nu ss (hdA nu s ap)

theorem hdAps_length {nc : ℕ} (nu : Fin nc → ℝ) : ∀ (ss : List (HdArt nc)) (ap : Twist), (hdAps nu ss ap).length = ss.length := by
  intro ss
  induction ss with
  | nil => intro ap; rfl
  | cons s ss ih => intro ap; simp [hdAps, ih]

theorem setJnt_ok (l : List ℝ) (j : ℕ) (x : ℝ) (h : j < l.length) : setJnt l (j : ℤ) x = some (l.set j x) := by
  unfold setJnt
  rw [if_pos ⟨by omega, by omega⟩]; simp

theorem take_set_succ (l : List ℝ) (j : ℕ) (x : ℝ) (h : j < l.length) : (l.set j x).take (j + 1) = l.take j ++ [x] := by
  rw [List.take_add_one, List.getElem?_eq_getElem (by simpa using h)]
  rw [List.take_set, List.set_eq_of_length_le (by simp)]
  simp

theorem hdFinal_eq {nc : ℕ} (nu : Fin nc → ℝ) : ∀ (ss : List (HdArt nc)) (j : ℕ) (ap : Twist) (o : HdOut),
    (∀ s ∈ ss, s.link.seg.moving) → o.qdd.length = j + ss.length → o.ct.length = j + ss.length →
    o.tt.length = j + ss.length →
    hdFinal nu ss j ap o = some ⟨o.qdd.take j ++ (hdAps nu ss ap).map (fun p => hdX nu p.1 p.2),
      o.ct.take j ++ (hdAps nu ss ap).map (fun p => hdCt nu p.1),
      o.tt.take j ++ (hdAps nu ss ap).map (fun p => hdTt nu p.1 p.2),
      o.acc ++ (hdAps nu ss ap).map (fun p => hdA nu p.1 p.2)⟩ := by
  intro ss
  induction ss with
  | nil =>
    intro j ap o _ h1 h2 h3
    simp only [List.length_nil, add_zero] at h1 h2 h3
    simp only [hdFinal, hdAps, List.map_nil, List.append_nil]
    rw [← h1, List.take_length, h1, ← h2, List.take_length, h2, ← h3, List.take_length]
  | cons s ss ih =>
    intro j ap o hm h1 h2 h3
    simp only [List.length_cons] at h1 h2 h3
    have hs : s.link.seg.moving = true := hm s (by simp)
    unfold hdFinal
    simp only [setJnt_ok _ _ _ (show j < o.ct.length by omega), setJnt_ok _ _ _ (show j < o.tt.length by omega),
      setJnt_ok _ _ _ (show j < o.qdd.length by omega), Option.bind_eq_bind, Option.bind_some, hs, if_true]
    rw [ih (j + 1) _ _ (fun t ht => hm t (by simp [ht])) (by simp; omega) (by simp; omega) (by simp; omega)]
    simp only [take_set_succ _ _ _ (show j < o.ct.length by omega), take_set_succ _ _ _ (show j < o.tt.length by omega),
      take_set_succ _ _ _ (show j < o.qdd.length by omega)]
    simp [hdAps, hdX, hdCt, hdTt, hdA]

/-! ### algebra -/

theorem ABI.add_mul (a b : ABI) (t : Twist) : (a + b) * t = a * t + b * t := (C38_linear a b 0 t t).1
theorem ABI.sub_mul (a b : ABI) (t : Twist) : (a - b) * t = a * t - b * t := (C38_linear a b 0 t t).2.1
theorem ABI.frame_app (X : Frame) (hX : X.IsProper) (i : ABI) (hi : i.Symm) (t : Twist) : (X * i) * (X * t) = X * (i * t) :=
  (C38_transform i hi 0 1 Rot.IsProper.one X hX t).2.2
theorem Frame.symm (X : Frame) (i : ABI) (hi : i.Symm) : (X * i).Symm :=
  (C38_symm i i hi hi 0 0 1 X RBI.zero (by ext <;> rfl)).2.2.2.2.2.1

theorem hdPZ_app (PZ : Wrench) (D : ℝ) (t : Twist) : hdPZ PZ D * t = (t.dot PZ / D) • PZ := by
  rw [ABI.mul_twist]
  simp only [hdPZ, Mat3.tr_smul, Mat3.smul_app, Mat3.outer_app]
  have : (Mat3.outer PZ.torque PZ.force).tr = Mat3.outer PZ.force PZ.torque := by
    ext <;> simp [Mat3.outer, Mat3.tr, mul_comm]
  rw [this, Mat3.outer_app]
  ext <;> simp [Twist.dot, Vec.dot] <;> ring
theorem hdPZ_symm (PZ : Wrench) (D : ℝ) : (hdPZ PZ D).Symm := by
  constructor <;> ext <;> simp [hdPZ, Mat3.outer, Mat3.tr, Mat3.smul_def, mul_comm]

theorem hdE_add {nc : ℕ} (E F : Fin nc → Wrench) (nu : Fin nc → ℝ) :
    hdE (fun c => E c + F c) nu = hdE E nu + hdE F nu := by
  ext <;> simp [hdE, add_mul, Finset.sum_add_distrib]
theorem hdE_smul {nc : ℕ} (k : Fin nc → ℝ) (w : Wrench) (nu : Fin nc → ℝ) :
    hdE (fun c => k c • w) nu = (∑ c, k c * nu c) • w := by
  ext <;> simp only [hdE, Finset.sum_mul] <;> simp [Finset.sum_mul] <;> exact Finset.sum_congr rfl fun c _ => by ring
theorem dot_hdE {nc : ℕ} (t : Twist) (E : Fin nc → Wrench) (nu : Fin nc → ℝ) :
    t.dot (hdE E nu) = ∑ c, t.dot (E c) * nu c := by
  simp only [Twist.dot, Vec.dot, hdE, Finset.sum_mul, ← Finset.sum_add_distrib]
  exact Finset.sum_congr rfl fun c _ => by ring
theorem Wrench.ext_dot {a b : Wrench} (h : ∀ t : Twist, t.dot a = t.dot b) : a = b := by
  ext
  · simpa [Twist.dot, Vec.dot] using h ⟨⟨1, 0, 0⟩, 0⟩
  · simpa [Twist.dot, Vec.dot] using h ⟨⟨0, 1, 0⟩, 0⟩
  · simpa [Twist.dot, Vec.dot] using h ⟨⟨0, 0, 1⟩, 0⟩
  · simpa [Twist.dot, Vec.dot] using h ⟨0, ⟨1, 0, 0⟩⟩
  · simpa [Twist.dot, Vec.dot] using h ⟨0, ⟨0, 1, 0⟩⟩
  · simpa [Twist.dot, Vec.dot] using h ⟨0, ⟨0, 0, 1⟩⟩
theorem app_hdE {nc : ℕ} (X : Frame) (hX : X.IsProper) (E : Fin nc → Wrench) (nu : Fin nc → ℝ) :
    hdE (fun c => X * E c) nu = X * hdE E nu := by
  refine Wrench.ext_dot fun t => ?_
  rw [dot_hdE, ← Frame.dot_invTwist X hX, dot_hdE]
  exact Finset.sum_congr rfl fun c _ => by rw [Frame.dot_invTwist X hX]
theorem Wrench.div_eq (w : Wrench) (c : ℝ) : w / c = (1 / c) • w := by ext <;> simp <;> ring
theorem Twist.div_eq (w : Twist) (c : ℝ) : w / c = (1 / c) • w := by ext <;> simp <;> ring

/-- The external wrenches in the frames of the segments, with `w` taken away from the last one. -/
def locF (q : ℕ → ℝ) (w : Wrench) : List Segment → List Wrench → ℕ → Frame → List Wrench
  | s :: ss, fe :: fes, j, Ft =>
    ((Ft * Xs q s j).M.inv * fe - if ss = [] then w else 0) :: locF q w ss fes (j + 1) (Ft * Xs q s j)
  | _, _, _, _ => []

/-- `P_tilde`, … of the first link of a list. -/
def hdT {nc : ℕ} (EN : Fin nc → Wrench) (l : HdLink) (ls : List (HdLink × ℝ)) : HdTilde nc :=
  match hdDown EN ls with
  | [] => ⟨ABI.ofRBI l.seg.I, l.U, EN, 0, 0⟩
  | ch :: _ => hdTilde (ABI.ofRBI l.seg.I) l.U ch

theorem hdDown_cons {nc : ℕ} (EN : Fin nc → Wrench) (l : HdLink) (ff : ℝ) (ls : List (HdLink × ℝ)) :
    hdDown EN ((l, ff) :: ls) = hdJoint l ff (hdT EN l ls) :: hdDown EN ls := rfl

theorem hdDown_length {nc : ℕ} (EN : Fin nc → Wrench) : ∀ ls : List (HdLink × ℝ), (hdDown EN ls).length = ls.length := by
  intro ls
  induction ls with
  | nil => rfl
  | cons p ls ih => obtain ⟨l, ff⟩ := p; rw [hdDown_cons, List.length_cons, ih]; rfl

/-- One step of the articulated body recursion: the wrench through the joint of the child is an affine function of the
acceleration of the parent. -/
theorem hd_child {nc : ℕ} (s : HdArt nc) (hP : s.P.Symm) (hD : s.D ≠ 0) (hPZ : s.PZ = s.P * s.link.Z)
    (hPC : s.PC = s.P * s.link.C) (hEZ : ∀ c, s.EZ c = s.link.Z.dot (s.E c)) (H : ABI) (U : Wrench) (nu : Fin nc → ℝ)
    (a : Twist) :
    (hdTilde H U s).P * a + (hdTilde H U s).R + hdE (hdTilde H U s).E nu =
      H * a + U + (s.P * (a + hdX nu s a • s.link.Z + s.link.C) + s.R + hdE s.E nu) := by
  refine Wrench.ext_dot fun t => ?_
  have e1 : (hdTilde H U s).P * a = H * a + s.P * a - hdPZ s.PZ s.D * a := by
    change (H + s.P - hdPZ s.PZ s.D) * a = _
    rw [ABI.sub_mul, ABI.add_mul]
  have e2 : t.dot (hdE (hdTilde H U s).E nu) = t.dot (hdE s.E nu) - s.link.Z.dot (hdE s.E nu) * (t.dot s.PZ / s.D) := by
    rw [dot_hdE, dot_hdE, dot_hdE, Finset.sum_mul, ← Finset.sum_sub_distrib]
    refine Finset.sum_congr rfl fun c _ => ?_
    simp only [hdTilde]
    rw [Twist.dot_sub, Twist.dot_smul, Wrench.div_eq, Twist.dot_smul, hEZ]
    ring
  have e3 : a.dot s.PZ = s.link.Z.dot (s.P * a) := by rw [hPZ, hP.dot_comm]
  rw [Twist.dot_add, Twist.dot_add, e2, e1, Twist.dot_sub, Twist.dot_add, hdPZ_app, Twist.dot_smul, e3]
  simp only [hdTilde]
  rw [ABI.mul_add, ABI.mul_add, ABI.mul_smul]
  simp only [Twist.dot_add, Twist.dot_smul, Wrench.div_eq, ← hPZ, ← hPC, hdX]
  field_simp
  ring

/-- The same for the acceleration energies of the constraints. -/
theorem hd_child_energy {nc : ℕ} (s : HdArt nc) (hP : s.P.Symm) (hD : s.D ≠ 0) (hPZ : s.PZ = s.P * s.link.Z)
    (hEZ : ∀ c, s.EZ c = s.link.Z.dot (s.E c)) (H : ABI) (U : Wrench) (nu : Fin nc → ℝ) (a : Twist) (c : Fin nc) :
    a.dot ((hdTilde H U s).E c) + (hdTilde H U s).G c + ∑ d, (hdTilde H U s).M c d * nu d =
      (a + hdX nu s a • s.link.Z + s.link.C).dot (s.E c) + s.G c + ∑ d, s.M c d * nu d := by
  have e3 : a.dot s.PZ = s.link.Z.dot (s.P * a) := by rw [hPZ, hP.dot_comm]
  have e4 : ∑ d, (hdTilde H U s).M c d * nu d = ∑ d, s.M c d * nu d - s.EZ c / s.D * s.link.Z.dot (hdE s.E nu) := by
    rw [dot_hdE, Finset.mul_sum, ← Finset.sum_sub_distrib]
    refine Finset.sum_congr rfl fun d _ => ?_
    simp only [hdTilde]; rw [hEZ d]; ring
  rw [e4]
  simp only [hdTilde, Twist.dot_sub, Twist.dot_smul, Wrench.div_eq, Twist.div_eq, e3, Twist.add_dot, Twist.smul_dot, hEZ, hdX]
  field_simp
  ring

theorem hdJoint_facts {nc : ℕ} (l : HdLink) (ff : ℝ) (t : HdTilde nc) :
    (hdJoint l ff t).PZ = (hdJoint l ff t).P * l.Z ∧ (hdJoint l ff t).PC = (hdJoint l ff t).P * l.C ∧
    (∀ c, (hdJoint l ff t).EZ c = l.Z.dot ((hdJoint l ff t).E c)) ∧ (hdJoint l ff t).link = l :=
  ⟨rfl, rfl, fun _ => rfl, rfl⟩

theorem hdDown_mem {nc : ℕ} (EN : Fin nc → Wrench) : ∀ (ls : List (HdLink × ℝ)) (a : HdArt nc), a ∈ hdDown EN ls →
    ∃ l ff t, (l, ff) ∈ ls ∧ a = hdJoint l ff t := by
  intro ls
  induction ls with
  | nil => intro a h; simp [hdDown] at h
  | cons p ls ih =>
    obtain ⟨l, ff⟩ := p
    intro a h
    rw [hdDown_cons, List.mem_cons] at h
    rcases h with h | h
    · exact ⟨l, ff, _, by simp, h⟩
    · obtain ⟨l', ff', t, h1, h2⟩ := ih a h
      exact ⟨l', ff', t, by simp [h1], h2⟩

theorem Frame.invTwist_app (X : Frame) (hX : X.IsProper) (t : Twist) : X.invTwist (X * t) = t :=
  (C04_inverse_undoes X t 0 hX).1
theorem Frame.app_invTwist (X : Frame) (hX : X.IsProper) (t : Twist) : X * X.invTwist t = t :=
  (C04_inverse_undoes X t 0 hX).2.1

/-- The acceleration found by the last sweep is the one of the Newton-Euler recursion. -/
theorem hdA_eq {nc : ℕ} (q qd qdd : ℕ → ℝ) (s : Segment) (hs : s.Valid) (hm : s.moving) (fe : Wrench) (j : ℕ) (Ft : Frame)
    (v : Twist) (nu : Fin nc → ℝ) (ff : ℝ) (t : HdTilde nc) (a : Twist) (l : HdLink)
    (hl : l = ⟨s, Xs q s j, Ft * Xs q s j, Xs q s j * Ss q s j, up q qd s j v,
      Xs q s j * (up q qd s j v * (qd j • Ss q s j)),
      up q qd s j v * (s.I * up q qd s j v) - (Ft * Xs q s j).M.inv * fe⟩)
    :
    (qdd j = hdX nu (hdJoint l ff t) a → hdA nu (hdJoint l ff t) a = ap q qd qdd s j v a) ∧
    Xs q s j * ap q qd qdd s j v a = a + qdd j • l.Z + l.C := by
  have hX := isProper_Xs q hs j
  have e : (Xs q s j).invTwist (a + qdd j • l.Z + l.C) = ap q qd qdd s j v a := by
    rw [hl]
    simp only [Frame.invTwist_add, Frame.invTwist_smul, Frame.invTwist_app _ hX, ap, qv, hm, if_true]
  refine ⟨fun hx => ?_, ?_⟩
  · unfold hdA
    rw [← hx]
    rw [← e]
    have : (hdJoint l ff t).link = l := rfl
    rw [this, hl]
  · rw [← e, Frame.app_invTwist _ hX]

/-- The three sweeps solve the equations of motion: inverse dynamics of the accelerations found gives back the given torques,
with the constraint forces acting on the last segment; and the acceleration energies add up. -/
theorem hd_core {nc : ℕ} (q qd qdd : ℕ → ℝ) (EN : Fin nc → Wrench) (nu : Fin nc → ℝ) :
    ∀ (ss : List Segment) (fes : List Wrench) (τs : List ℝ) (j : ℕ) (Ft : Frame) (v a : Twist),
      fes.length = ss.length → τs.length = ss.length → (∀ s ∈ ss, s.Valid) → (∀ s ∈ ss, s.moving) →
      (∀ s ∈ ss, s.I.I.tr = s.I.I) →
      (∀ x ∈ hdDown EN ((hdLinksF q qd ss fes j Ft v).zip τs), x.D ≠ 0) →
      ((∀ k < ss.length, qdd (j + k) =
        ((hdAps nu (hdDown EN ((hdLinksF q qd ss fes j Ft v).zip τs)) a).map fun p => hdX nu p.1 p.2).getD k 0) ∨
        (rneF q qd qdd ss (locF q (hdE EN nu) ss fes j Ft) j v a).1 = τs) →
      (∀ k < ss.length, qdd (j + k) =
        ((hdAps nu (hdDown EN ((hdLinksF q qd ss fes j Ft v).zip τs)) a).map fun p => hdX nu p.1 p.2).getD k 0) ∧
      (rneF q qd qdd ss (locF q (hdE EN nu) ss fes j Ft) j v a).1 = τs ∧
      (∀ x xs, hdDown EN ((hdLinksF q qd ss fes j Ft v).zip τs) = x :: xs →
        (rneF q qd qdd ss (locF q (hdE EN nu) ss fes j Ft) j v a).2 =
          x.P * (a + hdX nu x a • x.link.Z + x.link.C) + x.R + hdE x.E nu ∧ x.P.Symm ∧
        ∀ c, (a + hdX nu x a • x.link.Z + x.link.C).dot (x.E c) + x.G c + ∑ d, x.M c d * nu d =
          (aP q qd qdd ss j v a).dot (EN c)) ∧
      ((hdAps nu (hdDown EN ((hdLinksF q qd ss fes j Ft v).zip τs)) a).map fun p => hdA nu p.1 p.2) =
        (List.range ss.length).map fun k => aP q qd qdd (ss.take (k + 1)) j v a := by
  intro ss
  induction ss with
  | nil =>
    intro fes τs j Ft v a _ h _ _ _ _ _
    have : τs = [] := List.length_eq_zero_iff.mp (by simpa using h)
    subst this
    refine ⟨by simp, rfl, fun x xs h => by simp [hdLinksF, hdDown] at h, by simp [hdLinksF, hdDown, hdAps]⟩
  | cons s ss ih =>
    intro fes τs j Ft v a h1 h2 hv hm hI hD hx
    cases fes with
    | nil => simp at h1
    | cons fe fes =>
    cases τs with
    | nil => simp at h2
    | cons τ τs =>
    simp only [List.length_cons, add_left_inj] at h1 h2
    have hs := hv s (by simp)
    have hms : s.moving = true := hm s (by simp)
    have hX := isProper_Xs q hs j
    rw [hdLinksF_cons, List.zip_cons_cons] at hD hx ⊢
    rw [hdDown_cons] at hD hx ⊢
    generalize hl : (⟨s, Xs q s j, Ft * Xs q s j, Xs q s j * Ss q s j, up q qd s j v,
      Xs q s j * (up q qd s j v * (qd j • Ss q s j)),
      up q qd s j v * (s.I * up q qd s j v) - (Ft * Xs q s j).M.inv * fe⟩ : HdLink) = l at hD hx ⊢
    generalize ht : hdT EN l ((hdLinksF q qd ss fes (j + 1) (Ft * Xs q s j) (up q qd s j v)).zip τs) = t at hD hx ⊢
    obtain ⟨hA', hXA⟩ := hdA_eq q qd qdd s hs hms fe j Ft v nu τ t a l hl.symm
    have hnx : nx s j = j + 1 := by simp [nx, hms]
    have hrne : rneF q qd qdd (s :: ss) (locF q (hdE EN nu) (s :: ss) (fe :: fes) j Ft) j v a =
        (((Ss q s j).dot (fl s (up q qd s j v) (ap q qd qdd s j v a)
            ((Ft * Xs q s j).M.inv * fe - if ss = [] then hdE EN nu else 0) +
          (rneF q qd qdd ss (locF q (hdE EN nu) ss fes (j + 1) (Ft * Xs q s j)) (j + 1) (up q qd s j v)
            (ap q qd qdd s j v a)).2) + s.joint.inertia * qdd j) ::
          (rneF q qd qdd ss (locF q (hdE EN nu) ss fes (j + 1) (Ft * Xs q s j)) (j + 1) (up q qd s j v)
            (ap q qd qdd s j v a)).1,
          Xs q s j * (fl s (up q qd s j v) (ap q qd qdd s j v a)
            ((Ft * Xs q s j).M.inv * fe - if ss = [] then hdE EN nu else 0) +
          (rneF q qd qdd ss (locF q (hdE EN nu) ss fes (j + 1) (Ft * Xs q s j)) (j + 1) (up q qd s j v)
            (ap q qd qdd s j v a)).2)) := by
      rw [locF, rneF, hnx]; simp only [hms, if_true]
    have hih := ih fes τs (j + 1) (Ft * Xs q s j) (up q qd s j v) (ap q qd qdd s j v a) h1 h2
      (fun t ht => hv t (by simp [ht])) (fun t ht => hm t (by simp [ht])) (fun t ht => hI t (by simp [ht]))
      (fun x hx => hD x (by simp [hx])) (by
        rcases hx with hx | hx
        · refine Or.inl fun k hk => ?_
          have hx0 : qdd j = hdX nu (hdJoint l τ t) a := by simpa [hdAps] using hx 0 (by simp)
          have := hx (k + 1) (by simpa using hk)
          rw [show j + (k + 1) = j + 1 + k by omega] at this
          rw [this, hdAps, hA' hx0]; simp
        · rw [hrne] at hx
          exact Or.inr (List.cons.inj hx).2)
    obtain ⟨i0, i1, i2, i3⟩ := hih
    -- the wrench on the segment
    have hT : fl s (up q qd s j v) (ap q qd qdd s j v a)
            ((Ft * Xs q s j).M.inv * fe - if ss = [] then hdE EN nu else 0) +
          (rneF q qd qdd ss (locF q (hdE EN nu) ss fes (j + 1) (Ft * Xs q s j)) (j + 1) (up q qd s j v)
            (ap q qd qdd s j v a)).2 = t.P * ap q qd qdd s j v a + t.R + hdE t.E nu ∧ t.P.Symm ∧
        ∀ c, (ap q qd qdd s j v a).dot (t.E c) + t.G c + ∑ d, t.M c d * nu d =
          (aP q qd qdd ss (j + 1) (up q qd s j v) (ap q qd qdd s j v a)).dot (EN c) := by
      have hIs : (ABI.ofRBI s.I).Symm :=
        (C38_symm (ABI.ofRBI RBI.zero) (ABI.ofRBI RBI.zero) ⟨rfl, by ext <;> rfl⟩ ⟨rfl, by ext <;> rfl⟩ 0 0 1 1 s.I
          (hI s (by simp))).2.2.2.2.2.2
      have hUl : l.U = up q qd s j v * (s.I * up q qd s j v) - (Ft * Xs q s j).M.inv * fe := by rw [← hl]
      have hsl : l.seg = s := by rw [← hl]
      rcases hss : hdDown EN ((hdLinksF q qd ss fes (j + 1) (Ft * Xs q s j) (up q qd s j v)).zip τs) with _ | ⟨x, xs⟩
      · have hl0 : ss = [] := by
          have := congrArg List.length hss
          rw [hdDown_length, List.length_zip, hdLinksF_length _ _ _ _ _ _ _ h1, h2] at this
          exact List.length_eq_zero_iff.mp (by simpa using this)
        have : t = ⟨ABI.ofRBI s.I, l.U, EN, 0, 0⟩ := by rw [← ht, hdT, hss]; simp only [hsl]
        rw [this]
        refine ⟨?_, hIs, fun c => ?_⟩
        · subst hl0
          rw [rneF]
          · simp only [if_true, fl, C38_ofRBI, hUl]
            abel
          · simp
        · subst hl0; simp [aP]
      · have hne : ss ≠ [] := by
          rintro rfl
          simp [hdLinksF, hdDown] at hss
        obtain ⟨k1, k2, k3⟩ := i2 x xs hss
        obtain ⟨l', ff', t', _, hx'⟩ := hdDown_mem EN _ x (by rw [hss]; simp)
        have hDx : x.D ≠ 0 := hD x (by rw [hss]; simp)
        have : t = hdTilde (ABI.ofRBI s.I) l.U x := by rw [← ht, hdT, hss]; simp only [hsl]
        rw [this]
        have f1 : x.PZ = x.P * x.link.Z := by rw [hx']; rfl
        have f2 : x.PC = x.P * x.link.C := by rw [hx']; rfl
        have f3 : ∀ c, x.EZ c = x.link.Z.dot (x.E c) := by rw [hx']; exact fun _ => rfl
        refine ⟨?_, ?_, fun c => ?_⟩
        · rw [hd_child x k2 hDx f1 f2 f3, k1, if_neg hne, sub_zero, hUl, C38_ofRBI, fl]
          abel
        · have s1 := (C38_symm _ _ hIs k2 0 0 1 1 s.I (hI s (by simp))).1
          exact (C38_symm _ _ s1 (hdPZ_symm x.PZ x.D) 0 0 1 1 s.I (hI s (by simp))).2.1
        · rw [hd_child_energy x k2 hDx f1 f3, k3]
    obtain ⟨g1, g2, g3⟩ := hT
    have hP : (hdJoint l τ t).P = Xs q s j * t.P := by rw [← hl]; rfl
    have hR : (hdJoint l τ t).R = Xs q s j * t.R := by rw [← hl]; rfl
    have hE : (hdJoint l τ t).E = fun c => Xs q s j * t.E c := by rw [← hl]; rfl
    have hZ : l.Z = Xs q s j * Ss q s j := by rw [← hl]
    have hlk : (hdJoint l τ t).link = l := rfl
    have hW0 : Xs q s j * (t.P * ap q qd qdd s j v a + t.R + hdE t.E nu) =
        (hdJoint l τ t).P * (a + qdd j • l.Z + l.C) + (hdJoint l τ t).R + hdE (hdJoint l τ t).E nu := by
      rw [hP, hR, hE, app_hdE _ hX, ← hXA, ABI.frame_app _ hX _ g2, Frame.app_add_wrench, Frame.app_add_wrench]
    have hDj : (hdJoint l τ t).D = s.joint.inertia + l.Z.dot ((hdJoint l τ t).P * l.Z) := by
      change (if l.seg.moving then l.seg.joint.inertia + _ else _) = _
      rw [show l.seg = s by rw [← hl], if_pos hms]
      rfl
    have huj : (hdJoint l τ t).u = τ + -(l.Z.dot ((hdJoint l τ t).R + (hdJoint l τ t).P * l.C)) := rfl
    have hD0 : (hdJoint l τ t).D ≠ 0 := hD _ (by simp)
    have hx1 : hdX nu (hdJoint l τ t) a * (hdJoint l τ t).D =
        (hdJoint l τ t).u + -(l.Z.dot ((hdJoint l τ t).P * a)) + -(l.Z.dot (hdE (hdJoint l τ t).E nu)) := by
      unfold hdX; rw [hlk]; field_simp
    have hSs : (Ss q s j).dot (t.P * ap q qd qdd s j v a + t.R + hdE t.E nu) + s.joint.inertia * qdd j =
        τ + (qdd j - hdX nu (hdJoint l τ t) a) * (hdJoint l τ t).D := by
      have : (Ss q s j).dot (t.P * ap q qd qdd s j v a + t.R + hdE t.E nu) =
          l.Z.dot (Xs q s j * (t.P * ap q qd qdd s j v a + t.R + hdE t.E nu)) := by
        rw [hZ, ← Frame.dot_invTwist _ hX, Frame.invTwist_app _ hX]
      rw [this, hW0, ABI.mul_add, ABI.mul_add, ABI.mul_smul, sub_mul, hx1, hDj, huj]
      simp only [Twist.dot_add, Twist.dot_smul]
      ring
    have hx0 : qdd j = hdX nu (hdJoint l τ t) a := by
      rcases hx with hx | hx
      · simpa [hdAps] using hx 0 (by simp)
      · rw [hrne, g1, hSs] at hx
        have := (List.cons.inj hx).1
        have h0 : (qdd j - hdX nu (hdJoint l τ t) a) * (hdJoint l τ t).D = 0 := by linarith
        rcases mul_eq_zero.mp h0 with h | h
        · linarith
        · exact absurd h hD0
    have hA := hA' hx0
    have hW : Xs q s j * (t.P * ap q qd qdd s j v a + t.R + hdE t.E nu) =
        (hdJoint l τ t).P * (a + hdX nu (hdJoint l τ t) a • (hdJoint l τ t).link.Z + (hdJoint l τ t).link.C) +
          (hdJoint l τ t).R + hdE (hdJoint l τ t).E nu := by rw [hW0, hlk, ← hx0]
    rw [hrne, g1]
    refine ⟨?_, ?_, ?_, ?_⟩
    · intro k hk
      cases k with
      | zero => simpa [hdAps] using hx0
      | succ k =>
        have := i0 k (by simpa using hk)
        rw [show j + (k + 1) = j + 1 + k by omega, this, hdAps, hA]
        simp
    · rw [i1, hSs, hx0]
      refine congrArg (· :: τs) ?_
      ring
    · intro x xs hxx
      obtain ⟨rfl, rfl⟩ : hdJoint l τ t = x ∧ _ = xs := by
        rw [List.cons.injEq] at hxx; exact hxx
      refine ⟨hW, ?_, fun c => ?_⟩
      · rw [hP]; exact Frame.symm _ _ g2
      · have hg : (hdJoint l τ t).G = t.G := rfl
        have hM : (hdJoint l τ t).M = t.M := rfl
        rw [hg, hM, hE, hlk, ← hx0, ← hXA, aP, hnx, ← g3 c, ← Frame.dot_invTwist _ hX, Frame.invTwist_app _ hX]
    · rw [hdAps, List.map_cons, hA, i3, List.length_cons, List.range_succ_eq_map, List.map_cons, List.map_map]
      congr 1
      refine List.map_congr_left fun k _ => ?_
      simp only [Function.comp, List.take_succ_cons, aP, hnx]

/-! ### divisors -/

theorem hd_schur (P : ABI) (hP : P.Symm) (h0 : ∀ t : Twist, 0 ≤ t.dot (P * t)) (Z : Twist) (m : ℝ) (hm : 0 ≤ m)
    (hD : 0 < m + Z.dot (P * Z)) (t : Twist) : 0 ≤ t.dot ((P - hdPZ (P * Z) (m + Z.dot (P * Z))) * t) := by
  rw [ABI.sub_mul, hdPZ_app, Twist.dot_sub, Twist.dot_smul]
  generalize hd : m + Z.dot (P * Z) = D at hD
  have h := h0 (t + (-(t.dot (P * Z) / D)) • Z)
  rw [ABI.mul_add, ABI.mul_smul, Twist.dot_add, Twist.dot_smul, Twist.add_dot, Twist.add_dot, Twist.smul_dot,
    Twist.smul_dot, hP.dot_comm Z t] at h
  have hz : Z.dot (P * Z) ≤ D := by linarith
  have h2 : (t.dot (P * Z) / D) * (t.dot (P * Z) / D) * Z.dot (P * Z) ≤ (t.dot (P * Z) / D) * (t.dot (P * Z) / D) * D :=
    mul_le_mul_of_nonneg_left hz (mul_self_nonneg _)
  have h3 : (t.dot (P * Z) / D) * (t.dot (P * Z) / D) * D = t.dot (P * Z) / D * t.dot (P * Z) := by
    field_simp
  nlinarith

theorem hd_pos {nc : ℕ} (q qd : ℕ → ℝ) (EN : Fin nc → Wrench) :
    ∀ (ss : List Segment) (fes : List Wrench) (τs : List ℝ) (j : ℕ) (Ft : Frame) (v : Twist),
      fes.length = ss.length → τs.length = ss.length → (∀ s ∈ ss, s.Valid) → (∀ s ∈ ss, s.moving) →
      (∀ s ∈ ss, s.I.I.tr = s.I.I) → (∀ s ∈ ss, s.I.PSD ∧ 0 ≤ s.joint.inertia) →
      ((∀ s ∈ ss, s.moving → 0 < s.joint.inertia) ∨ (∀ s ∈ ss, s.moving → s.I.PD ∧ s.joint.scale ≠ 0)) →
      (∀ x ∈ hdDown EN ((hdLinksF q qd ss fes j Ft v).zip τs), 0 < x.D) ∧
      ∀ x xs, hdDown EN ((hdLinksF q qd ss fes j Ft v).zip τs) = x :: xs →
        x.P.Symm ∧ ∀ (H : ABI) (U : Wrench) (t : Twist), 0 ≤ t.dot (H * t) → t.dot (H * t) ≤ t.dot ((hdTilde H U x).P * t) := by
  intro ss
  induction ss with
  | nil =>
    intro fes τs j Ft v _ _ _ _ _ _ _
    exact ⟨fun x h => by simp [hdLinksF, hdDown] at h, fun x xs h => by simp [hdLinksF, hdDown] at h⟩
  | cons s ss ih =>
    intro fes τs j Ft v h1 h2 hv hm hI hps hor
    cases fes with
    | nil => simp at h1
    | cons fe fes =>
    cases τs with
    | nil => simp at h2
    | cons τ τs =>
    simp only [List.length_cons, add_left_inj] at h1 h2
    have hs := hv s (by simp)
    have hms : s.moving = true := hm s (by simp)
    have hX := isProper_Xs q hs j
    rw [hdLinksF_cons, List.zip_cons_cons, hdDown_cons]
    obtain ⟨i1, i2⟩ := ih fes τs (j + 1) (Ft * Xs q s j) (up q qd s j v) h1 h2 (fun t ht => hv t (by simp [ht]))
      (fun t ht => hm t (by simp [ht])) (fun t ht => hI t (by simp [ht])) (fun t ht => hps t (by simp [ht]))
      (hor.imp (fun h t ht => h t (by simp [ht])) (fun h t ht => h t (by simp [ht])))
    generalize hl : (⟨s, Xs q s j, Ft * Xs q s j, Xs q s j * Ss q s j, up q qd s j v,
      Xs q s j * (up q qd s j v * (qd j • Ss q s j)),
      up q qd s j v * (s.I * up q qd s j v) - (Ft * Xs q s j).M.inv * fe⟩ : HdLink) = l
    generalize ht : hdT EN l ((hdLinksF q qd ss fes (j + 1) (Ft * Xs q s j) (up q qd s j v)).zip τs) = t
    have hIs : (ABI.ofRBI s.I).Symm :=
      (C38_symm (ABI.ofRBI RBI.zero) (ABI.ofRBI RBI.zero) ⟨rfl, by ext <;> rfl⟩ ⟨rfl, by ext <;> rfl⟩ 0 0 1 1 s.I
        (hI s (by simp))).2.2.2.2.2.2
    have hsl : l.seg = s := by rw [← hl]
    have hZ : l.Z = Xs q s j * Ss q s j := by rw [← hl]
    have hps0 : ∀ a : Twist, 0 ≤ a.dot (ABI.ofRBI s.I * a) := fun a => by rw [C38_ofRBI]; exact (hps s (by simp)).1 a
    -- the articulated inertia dominates that of the segment
    have hT : t.P.Symm ∧ ∀ a : Twist, a.dot (ABI.ofRBI s.I * a) ≤ a.dot (t.P * a) := by
      rcases hss : hdDown EN ((hdLinksF q qd ss fes (j + 1) (Ft * Xs q s j) (up q qd s j v)).zip τs) with _ | ⟨x, xs⟩
      · have : t = ⟨ABI.ofRBI s.I, l.U, EN, 0, 0⟩ := by rw [← ht, hdT, hss]; simp only [hsl]
        rw [this]; exact ⟨hIs, fun a => le_rfl⟩
      · obtain ⟨k1, k2⟩ := i2 x xs hss
        have : t = hdTilde (ABI.ofRBI s.I) l.U x := by rw [← ht, hdT, hss]; simp only [hsl]
        rw [this]
        refine ⟨?_, fun a => k2 _ _ a (hps0 a)⟩
        have s1 := (C38_symm _ _ hIs k1 0 0 1 1 s.I (hI s (by simp))).1
        exact (C38_symm _ _ s1 (hdPZ_symm x.PZ x.D) 0 0 1 1 s.I (hI s (by simp))).2.1
    obtain ⟨g1, g2⟩ := hT
    have hP : (hdJoint l τ t).P = Xs q s j * t.P := by rw [← hl]; rfl
    have hform : ∀ u : Twist, u.dot ((hdJoint l τ t).P * u) = ((Xs q s j).invTwist u).dot (t.P * (Xs q s j).invTwist u) := by
      intro u; rw [hP, ABI.frame_form _ hX _ g1]
    have hPpsd : ∀ u : Twist, 0 ≤ u.dot ((hdJoint l τ t).P * u) := fun u => by
      rw [hform]; exact (hps0 _).trans (g2 _)
    have hDj : (hdJoint l τ t).D = s.joint.inertia + l.Z.dot ((hdJoint l τ t).P * l.Z) := by
      change (if l.seg.moving then l.seg.joint.inertia + _ else _) = _
      rw [hsl, if_pos hms]
      rfl
    have hPs : (hdJoint l τ t).P.Symm := by rw [hP]; exact Frame.symm _ _ g1
    have hDpos : 0 < (hdJoint l τ t).D := by
      rw [hDj]
      have n1 := hPpsd l.Z
      rcases hor with h | h
      · have := h s (by simp) hms; linarith
      · obtain ⟨hpd, hsc⟩ := h s (by simp) hms
        have := hpd _ (Ss_ne_zero q hs hms hsc j)
        rw [← C38_ofRBI] at this
        have h3 := g2 (Ss q s j)
        rw [hform, hZ, Frame.invTwist_app _ hX]
        have := (hps s (by simp)).2
        linarith
    refine ⟨fun x hx => ?_, fun x xs hxx => ?_⟩
    · rcases List.mem_cons.mp hx with rfl | hx
      · exact hDpos
      · exact i1 x hx
    · obtain ⟨rfl, rfl⟩ : hdJoint l τ t = x ∧ _ = xs := by
        rw [List.cons.injEq] at hxx; exact hxx
      refine ⟨hPs, fun H U a h0 => ?_⟩
      have := hd_schur _ hPs hPpsd l.Z s.joint.inertia (hps s (by simp)).2 (by rw [← hDj]; exact hDpos) a
      have e : (hdTilde H U (hdJoint l τ t)).P = H + (hdJoint l τ t).P -
        hdPZ ((hdJoint l τ t).P * l.Z) (s.joint.inertia + l.Z.dot ((hdJoint l τ t).P * l.Z)) := by rw [← hDj]; rfl
      rw [e, ABI.sub_mul, ABI.add_mul, Twist.dot_sub, Twist.dot_add]
      rw [ABI.sub_mul, Twist.dot_sub] at this
      linarith

/-! ### poses, wrenches and the final shape -/

theorem Frame.one_mul' (F : Frame) : (1 : Frame) * F = F := by
  simp

theorem fkF_cons_moving (q : ℕ → ℝ) (s : Segment) (hm : s.moving) (ss : List Segment) (j : ℕ) :
    fkF q (s :: ss) j = Xs q s j * fkF q ss (j + 1) := by
  unfold Xs qv; conv_lhs => unfold fkF
  simp only [hm, if_true]

theorem hdLinksF_base (q qd : ℕ → ℝ) : ∀ (ss : List Segment) (fes : List Wrench) (j : ℕ) (Ft : Frame) (v : Twist),
    fes.length = ss.length → (∀ s ∈ ss, s.moving) → (hdLinksF q qd ss fes j Ft v).map (·.base) =
      (List.range ss.length).map fun i => Ft * fkF q (ss.take (i + 1)) j := by
  intro ss
  induction ss with
  | nil => intro fes j Ft v _ _; simp [hdLinksF]
  | cons s ss ih =>
    intro fes j Ft v h hm
    cases fes with
    | nil => simp at h
    | cons fe fes =>
    rw [hdLinksF_cons, List.map_cons, ih _ _ _ _ (by simpa using h) (fun t ht => hm t (by simp [ht])), List.length_cons,
      List.range_succ_eq_map, List.map_cons, List.map_map]
    congr 1
    · simp only [Nat.zero_add, List.take_succ_cons, List.take_zero]
      rw [fkF_cons_moving _ _ (hm s (by simp))]; simp [fkF]
    · refine List.map_congr_left fun i _ => ?_
      simp only [Function.comp, List.take_succ_cons]
      rw [fkF_cons_moving _ _ (hm s (by simp)), ← mul_assoc]

theorem hdLinksF_seg (q qd : ℕ → ℝ) : ∀ (ss : List Segment) (fes : List Wrench) (j : ℕ) (Ft : Frame) (v : Twist),
    ∀ l ∈ hdLinksF q qd ss fes j Ft v, l.seg ∈ ss := by
  intro ss
  induction ss with
  | nil => intro fes j Ft v l h; simp [hdLinksF] at h
  | cons s ss ih =>
    intro fes j Ft v l h
    cases fes with
    | nil => simp [hdLinksF] at h
    | cons fe fes =>
    rw [hdLinksF_cons, List.mem_cons] at h
    rcases h with rfl | h
    · simp
    · exact List.mem_cons_of_mem _ (ih _ _ _ _ l h)

theorem locF_eq (q : ℕ → ℝ) (w : Wrench) : ∀ (ss : List Segment) (fes : List Wrench) (j : ℕ) (Ft : Frame),
    fes.length = ss.length → (∀ s ∈ ss, s.moving) → locF q w ss fes j Ft =
      (List.range ss.length).map fun i => (Ft * fkF q (ss.take (i + 1)) j).M.inv * fes.getD i 0 -
        if i + 1 = ss.length then w else 0 := by
  intro ss
  induction ss with
  | nil => intro fes j Ft _ _; simp [locF]
  | cons s ss ih =>
    intro fes j Ft h hm
    cases fes with
    | nil => simp at h
    | cons fe fes =>
    rw [locF, ih _ _ _ (by simpa using h) (fun t ht => hm t (by simp [ht])), List.length_cons,
      List.range_succ_eq_map, List.map_cons, List.map_map]
    congr 1
    · simp only [Nat.zero_add, List.take_succ_cons, List.take_zero]
      rw [fkF_cons_moving _ _ (hm s (by simp))]
      have : (ss = []) ↔ (1 = ss.length + 1) := by rw [← List.length_eq_zero_iff]; omega
      simp [fkF]
    · refine List.map_congr_left fun i _ => ?_
      simp only [Function.comp, List.take_succ_cons]
      rw [fkF_cons_moving _ _ (hm s (by simp)), ← mul_assoc]
      simp

theorem nMoving_all : ∀ ss : List Segment, (∀ s ∈ ss, s.moving) → nMoving ss = ss.length := by
  intro ss
  induction ss with
  | nil => intro _; rfl
  | cons s ss ih =>
    intro hm
    rw [nMoving_cons, ih (fun t ht => hm t (by simp [ht])), if_pos (hm s (by simp)), List.length_cons, add_comm]

/-! ### variation of the accelerations -/

theorem ap_sub (q qd x y : ℕ → ℝ) (s : Segment) (j : ℕ) (v a b : Twist) :
    ap q qd x s j v a - ap q qd y s j v b = up q (fun k => x k - y k) s j (a - b) := by
  have : (Xs q s j).invTwist (a - b) = (Xs q s j).invTwist a - (Xs q s j).invTwist b := by
    have h := Frame.invTwist_add (Xs q s j) (a - b) b
    rw [sub_add_cancel] at h; rw [h]; abel
  unfold ap up
  rw [this]
  have h2 : qv s (fun k => x k - y k) j = qv s x j - qv s y j := by unfold qv; split_ifs <;> simp
  rw [h2, sub_smul]
  abel

theorem aP_sub (q qd x y : ℕ → ℝ) : ∀ (ss : List Segment) (j : ℕ) (v a b : Twist),
    aP q qd x ss j v a - aP q qd y ss j v b = uP q (fun k => x k - y k) ss j (a - b) := by
  intro ss
  induction ss with
  | nil => intro j v a b; rfl
  | cons s ss ih => intro j v a b; unfold aP uP; rw [ih, ap_sub]

theorem lw_sub (q qd x y δ : ℕ → ℝ) : ∀ (ss : List Segment) (f g : List Wrench) (j : ℕ) (u v a b : Twist),
    f.length = ss.length → g.length = ss.length →
    lw q qd x δ ss f j u v a - lw q qd y δ ss g j u v b =
      kin q δ (fun k => x k - y k) ss j u (a - b) - (few q δ ss f j u - few q δ ss g j u) := by
  intro ss
  induction ss with
  | nil => intro f g j u v a b h1 h2; simp [lw, kin, few]
  | cons s ss ih =>
    intro f g j u v a b h1 h2
    cases f with
    | nil => simp at h1
    | cons f0 f =>
    cases g with
    | nil => simp at h2
    | cons g0 g =>
    unfold lw kin few
    have := ih f g (nx s j) (up q δ s j u) (up q qd s j v) (ap q qd x s j v a) (ap q qd y s j v b) (by simpa using h1)
      (by simpa using h2)
    rw [ap_sub] at this
    have h2 : qv s (fun k => x k - y k) j = qv s x j - qv s y j := by unfold qv; split_ifs <;> simp
    have h3 : s.I * ap q qd x s j v a = s.I * ap q qd y s j v b + s.I * up q (fun k => x k - y k) s j (a - b) := by
      rw [← RBI.mul_add, ← ap_sub q qd x y s j v a b, add_sub_cancel]
    rw [h2]
    simp only [fl, Twist.dot_add, Twist.dot_sub, h3]
    linear_combination this

theorem few_locF (q δ : ℕ → ℝ) (w : Wrench) : ∀ (ss : List Segment) (fes : List Wrench) (j : ℕ) (Ft : Frame) (u : Twist),
    fes.length = ss.length → ss ≠ [] → (∀ s ∈ ss, s.moving) →
    few q δ ss (locF q w ss fes j Ft) j u = few q δ ss (locF q 0 ss fes j Ft) j u - (uP q δ ss j u).dot w := by
  intro ss
  induction ss with
  | nil => intro fes j Ft u _ h _; exact absurd rfl h
  | cons s ss ih =>
    intro fes j Ft u h _ hm
    cases fes with
    | nil => simp at h
    | cons fe fes =>
    have hnx : nx s j = j + 1 := by simp [nx, hm s (by simp)]
    simp only [locF, few, uP, hnx]
    by_cases hs : ss = []
    · subst hs
      simp [few, uP, Twist.dot_sub]
    · rw [ih fes (j + 1) (Ft * Xs q s j) _ (by simpa using h) hs (fun t ht => hm t (by simp [ht]))]
      simp only [if_neg hs, Twist.dot_sub]
      ring

theorem up_add (q δ e : ℕ → ℝ) (s : Segment) (j : ℕ) (u w : Twist) :
    up q (fun k => δ k + e k) s j (u + w) = up q δ s j u + up q e s j w := by
  have h2 : qv s (fun k => δ k + e k) j = qv s δ j + qv s e j := by unfold qv; split_ifs <;> simp
  unfold up; rw [h2, add_smul, Frame.invTwist_add]; abel

theorem kin_gauss (q δ e : ℕ → ℝ) : ∀ (ss : List Segment) (j : ℕ) (u w : Twist), (∀ s ∈ ss, s.I.I.tr = s.I.I) →
    kin q (fun k => δ k + e k) (fun k => δ k + e k) ss j (u + w) (u + w) =
      kin q δ δ ss j u u + 2 * kin q e δ ss j w u + kin q e e ss j w w := by
  intro ss
  induction ss with
  | nil => intro j u w _; simp [kin]
  | cons s ss ih =>
    intro j u w hI
    unfold kin
    have h2 : qv s (fun k => δ k + e k) j = qv s δ j + qv s e j := by unfold qv; split_ifs <;> simp
    have hIs : (ABI.ofRBI s.I).Symm :=
      (C38_symm (ABI.ofRBI RBI.zero) (ABI.ofRBI RBI.zero) ⟨rfl, by ext <;> rfl⟩ ⟨rfl, by ext <;> rfl⟩ 0 0 1 1 s.I
        (hI s (by simp))).2.2.2.2.2.2
    have h3 := hIs.dot_comm (up q δ s j u) (up q e s j w)
    rw [C38_ofRBI, C38_ofRBI] at h3
    rw [up_add, ih _ _ _ (fun t ht => hI t (by simp [ht])), h2, RBI.mul_add]
    simp only [Twist.dot_add, Twist.add_dot]
    linear_combination h3

/-! ### the coupling matrix -/

theorem hd_M {nc : ℕ} (EN : Fin nc → Wrench) : ∀ (ls : List (HdLink × ℝ)), (∀ x ∈ hdDown EN ls, 0 < x.D) →
    ∀ H U x xs, hdDown EN ls = x :: xs → (hdTilde H U x).Mᵀ = (hdTilde H U x).M ∧
      ∀ y : Fin nc → ℝ, ∑ c, ∑ d, y c * (hdTilde H U x).M c d * y d ≤ 0 := by
  intro ls
  induction ls with
  | nil => intro _ H U x xs h; simp [hdDown] at h
  | cons p ls ih =>
    obtain ⟨l, ff⟩ := p
    intro hD H U x xs h
    rw [hdDown_cons] at h hD
    obtain ⟨rfl, rfl⟩ : _ = x ∧ _ = xs := by rw [List.cons.injEq] at h; exact h
    have ht : (hdT EN l ls).Mᵀ = (hdT EN l ls).M ∧ ∀ y : Fin nc → ℝ, ∑ c, ∑ d, y c * (hdT EN l ls).M c d * y d ≤ 0 := by
      unfold hdT
      rcases hss : hdDown EN ls with _ | ⟨x', xs'⟩
      · simp
      · exact ih (fun x hx => hD x (by simp [hx])) _ _ x' xs' hss
    have hD0 := hD _ (List.mem_cons_self)
    generalize hx : hdJoint l ff (hdT EN l ls) = x at hD0 ⊢
    have hM : x.M = (hdT EN l ls).M := by rw [← hx]; rfl
    constructor
    · ext c d
      have := congrFun (congrFun ht.1 c) d
      rw [transpose_apply] at this
      rw [transpose_apply]
      change x.M d c - x.EZ d * x.EZ c / x.D = x.M c d - x.EZ c * x.EZ d / x.D
      rw [hM, this]
      ring
    · intro y
      have e : ∑ c, ∑ d, y c * (hdTilde H U x).M c d * y d =
          ∑ c, ∑ d, y c * (hdT EN l ls).M c d * y d - (∑ c, y c * x.EZ c) * (∑ c, y c * x.EZ c) / x.D := by
        rw [Finset.sum_mul_sum, Finset.sum_div, ← Finset.sum_sub_distrib]
        refine Finset.sum_congr rfl fun c _ => ?_
        rw [Finset.sum_div, ← Finset.sum_sub_distrib]
        refine Finset.sum_congr rfl fun d _ => ?_
        simp only [hdTilde, hM]
        ring
      rw [e]
      have := div_nonneg (mul_self_nonneg (∑ c, y c * x.EZ c)) hD0.le
      linarith [ht.2 y]

end KDL
