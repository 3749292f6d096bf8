import Verif.Model.Dynamics
import Verif.Lemmas.Inertia
import Verif.Lemmas.ChainKin
import Verif.Lemmas.TreeKin
import Verif.Props.Inertia

/-! Helper lemmas for the dynamics solvers. -/

noncomputable section
namespace KDL

/-- Value used by segment `s` whose joint, if it moves, has index `j`. -/
def qv (s : Segment) (q : ℕ → ℝ) (j : ℕ) : ℝ := if s.moving then q j else 0
/-- Joint counter after the segment. -/
def nx (s : Segment) (j : ℕ) : ℕ := if s.moving then j + 1 else j
def Xs (q : ℕ → ℝ) (s : Segment) (j : ℕ) : Frame := s.pose (qv s q j)
def Ss (q : ℕ → ℝ) (s : Segment) (j : ℕ) : Twist := (Xs q s j).M.invTwist (s.twist (qv s q j) 1)
/-- Propagation of velocities with rates `δ`. -/
def up (q δ : ℕ → ℝ) (s : Segment) (j : ℕ) (u : Twist) : Twist := (Xs q s j).invTwist u + qv s δ j • Ss q s j
/-- Propagation of accelerations. -/
def ap (q qd qdd : ℕ → ℝ) (s : Segment) (j : ℕ) (v a : Twist) : Twist :=
  (Xs q s j).invTwist a + qv s qdd j • Ss q s j + up q qd s j v * (qv s qd j • Ss q s j)
/-- Net wrench on a segment. -/
def fl (s : Segment) (v a : Twist) (fe : Wrench) : Wrench := s.I * a + v * (s.I * v) - fe

/-- The two sweeps as one recursion: torques of the moving joints and wrench passed to the parent. -/
def rneF (q qd qdd : ℕ → ℝ) : List Segment → List Wrench → ℕ → Twist → Twist → List ℝ × Wrench
  | s :: ss, fe :: fes, j, v, a =>
    let v' := up q qd s j v
    let a' := ap q qd qdd s j v a
    let r := rneF q qd qdd ss fes (nx s j) v' a'
    let f := fl s v' a' fe + r.2
    (if s.moving then ((Ss q s j).dot f + s.joint.inertia * qdd j) :: r.1 else r.1, Xs q s j * f)
  | _, _, _, _, _ => ([], 0)

def linksF (q qd qdd : ℕ → ℝ) : List Segment → List Wrench → ℕ → Twist → Twist → List Link
  | s :: ss, fe :: fes, j, v, a =>
    let v' := up q qd s j v
    let a' := ap q qd qdd s j v a
    ⟨s, Xs q s j, Ss q s j, v', a', fl s v' a' fe⟩ :: linksF q qd qdd ss fes (nx s j) v' a'
  | _, _, _, _, _ => []

theorem Frame.invTwist_zero (X : Frame) : X.invTwist 0 = 0 := by
  ext <;> simp [Frame.invTwist, Rot.invVec]
theorem Rot.invTwist_smul (R : Rot) (c : ℝ) (t : Twist) : R.invTwist (c • t) = c • R.invTwist t := by
  ext <;> simp [Rot.invTwist, Rot.invVec] <;> ring
theorem Frame.invTwist_add (X : Frame) (a b : Twist) : X.invTwist (a + b) = X.invTwist a + X.invTwist b := by
  ext <;> simp [Frame.invTwist, Rot.invVec] <;> ring
theorem Frame.invTwist_smul (X : Frame) (c : ℝ) (a : Twist) : X.invTwist (c • a) = c • X.invTwist a := by
  ext <;> simp [Frame.invTwist, Rot.invVec] <;> ring

theorem invTwist_twist (q δ : ℕ → ℝ) (s : Segment) (j : ℕ) :
    (Xs q s j).M.invTwist (s.twist (qv s q j) (qv s δ j)) = qv s δ j • Ss q s j := by
  rw [s.twist_eq_smul, Rot.invTwist_smul]; rfl

theorem rneFwd_eq (ag : Twist) (q qd qdd : List ℝ) (fext : List Wrench) :
    ∀ (ss : List Segment) (i j : ℕ) (prev : Option (Twist × Twist)),
      j + nMoving ss ≤ q.length → j + nMoving ss ≤ qd.length → j + nMoving ss ≤ qdd.length →
      i + ss.length = fext.length →
      rneFwd ag q qd qdd fext ss i j prev =
        some (linksF (rd q) (rd qd) (rd qdd) ss (fext.drop i) j (prev.getD (0, ag)).1 (prev.getD (0, ag)).2) := by
  intro ss
  induction ss with
  | nil => intro i j prev _ _ _ _; simp [rneFwd, linksF]
  | cons s ss ih =>
    intro i j prev h1 h2 h3 h4
    rw [nMoving_cons] at h1 h2 h3
    simp only [List.length_cons] at h4
    have hfe : fext[i]? = some fext[i] := List.getElem?_eq_getElem (by omega)
    have hdrop : fext.drop i = fext[i] :: fext.drop (i + 1) := List.drop_eq_getElem_cons (by omega)
    have ht := invTwist_twist (rd q) (rd qd) s j
    unfold rneFwd
    rw [hdrop]
    unfold linksF
    by_cases hm : s.moving
    · rw [if_pos hm] at h1 h2 h3
      rw [if_pos hm, getElem?_eq_rd (q := q) (by omega), getElem?_eq_rd (q := qd) (by omega),
        getElem?_eq_rd (q := qdd) (by omega)]
      simp only [Option.bind_eq_bind, Option.bind_some, hfe]
      simp only [Xs, Ss, qv, if_pos hm] at ht
      rcases prev with _ | ⟨v0, a0⟩ <;>
      · simp only [ht]
        rw [ih (i + 1) (j + 1) _ (by omega) (by omega) (by omega) (by omega)]
        simp only [Option.bind_some, Option.getD_some, Option.getD_none, nx, if_pos hm, fl, up, ap, Xs, Ss, qv,
          Frame.invTwist_zero, zero_add]
    · rw [if_neg hm] at h1 h2 h3
      rw [if_neg hm]
      simp only [Option.bind_eq_bind, Option.bind_some, hfe]
      simp only [Xs, Ss, qv, if_neg hm] at ht
      rcases prev with _ | ⟨v0, a0⟩ <;>
      · simp only [ht]
        rw [ih (i + 1) (j) _ (by omega) (by omega) (by omega) (by omega)]
        simp only [Option.bind_some, Option.getD_some, Option.getD_none, nx, if_neg hm, fl, up, ap, Xs, Ss, qv,
          Frame.invTwist_zero, zero_add]

theorem rneF_length (q qd qdd : ℕ → ℝ) : ∀ (ss : List Segment) (fes : List Wrench) (j : ℕ) (v a : Twist),
    fes.length = ss.length → (rneF q qd qdd ss fes j v a).1.length = nMoving ss := by
  intro ss
  induction ss with
  | nil => intro fes j v a _; simp [rneF]
  | cons s ss ih =>
    intro fes j v a h
    cases fes with
    | nil => simp at h
    | cons fe fes =>
      simp only [List.length_cons, add_left_inj] at h
      unfold rneF
      rw [nMoving_cons]
      by_cases hm : s.moving <;> simp [hm, ih _ _ _ _ h]

theorem rneBack_eq (q qd : ℕ → ℝ) (qdd : List ℝ) : ∀ (ss : List Segment) (fes : List Wrench) (j : ℕ) (v a : Twist)
    (rest : List Link) (A B C : List ℝ), fes.length = ss.length → A.length = j → B.length = nMoving ss →
    j + nMoving ss ≤ qdd.length →
    rneBack qdd ((linksF q qd (rd qdd) ss fes j v a).reverse ++ rest) ((j : ℤ) + nMoving ss - 1) none (A ++ B ++ C) =
      rneBack qdd rest ((j : ℤ) - 1) (if ss = [] then none else some (rneF q qd (rd qdd) ss fes j v a).2)
        (A ++ (rneF q qd (rd qdd) ss fes j v a).1 ++ C) := by
  intro ss
  induction ss with
  | nil =>
    intro fes j v a rest A B C h hA hB _
    have : B = [] := List.length_eq_zero_iff.mp hB
    subst this
    simp [linksF, rneF]
  | cons s ss ih =>
    intro fes j v a rest A B C h hA hB hq
    cases fes with
    | nil => simp at h
    | cons fe fes =>
      simp only [List.length_cons, add_left_inj] at h
      rw [nMoving_cons] at hB hq ⊢
      unfold linksF rneF
      simp only [List.reverse_cons, List.append_assoc, List.singleton_append, reduceCtorEq, if_false]
      set v' := up q qd s j v
      set a' := ap q qd (rd qdd) s j v a
      by_cases hm : s.moving
      · rw [if_pos hm] at hB hq ⊢
        obtain ⟨b, B, rfl⟩ : ∃ b B', B = b :: B' := by
          cases B with
          | nil => simp at hB
          | cons b B => exact ⟨b, B, rfl⟩
        have hn : nx s j = j + 1 := by simp [nx, hm]
        have := ih fes (nx s j) v' a' (⟨s, Xs q s j, Ss q s j, v', a', fl s v' a' fe⟩ :: rest) (A ++ [b]) B C h (by simp [hA, hn])
          (by simp at hB; omega) (by omega)
        simp only [List.append_assoc, List.singleton_append, List.cons_append, List.nil_append] at this ⊢
        rw [show ((j : ℤ) + ((nMoving ss + 1 : ℕ) : ℤ) - 1) = (((nx s j : ℕ) : ℤ) + (nMoving ss : ℤ) - 1) by rw [hn]; push_cast; ring]
        rw [this]
        conv_lhs => unfold rneBack
        simp only [if_pos hm]
        have hj : ((nx s j : ℕ) : ℤ) - 1 = j := by rw [hn]; push_cast; ring
        rw [hj]
        have hg : getJnt qdd (j : ℤ) = some (rd qdd j) := by
          unfold getJnt; rw [if_pos (by omega), Int.toNat_natCast, getElem?_eq_rd (by omega)]
        rw [hg]
        simp only [Option.bind_eq_bind, Option.bind_some]
        have hs : ∀ x, setJnt (A ++ b :: ((rneF q qd (rd qdd) ss fes (nx s j) v' a').1 ++ C)) (j : ℤ) x =
            some (A ++ x :: ((rneF q qd (rd qdd) ss fes (nx s j) v' a').1 ++ C)) := by
          intro x
          unfold setJnt
          rw [if_pos ⟨by omega, by simp [hA]; omega⟩, Int.toNat_natCast, List.set_append_right _ _ (by omega)]
          simp [hA]
        rw [hs]
        simp only [Option.bind_some, List.cons_append]
        by_cases hss : ss = []
        · subst hss; simp [rneF]
        · simp only [if_neg hss]
      · rw [if_neg hm] at hB hq ⊢
        have hn : nx s j = j := by simp [nx, hm]
        have := ih fes (nx s j) v' a' (⟨s, Xs q s j, Ss q s j, v', a', fl s v' a' fe⟩ :: rest) A B C h (by simp [hA, hn])
          hB (by omega)
        simp only [List.append_assoc, List.singleton_append, List.cons_append, List.nil_append] at this ⊢
        rw [show ((j : ℤ) + (nMoving ss : ℤ) - 1) = (((nx s j : ℕ) : ℤ) + (nMoving ss : ℤ) - 1) by rw [hn]]
        rw [this]
        conv_lhs => unfold rneBack
        simp only [if_neg hm]
        rw [hn]
        by_cases hss : ss = []
        · subst hss; simp [rneF]
        · simp only [if_neg hss]

/-- The inverse dynamics solver in closed form. -/
theorem idRne_eq (c : Chain) (hc : c.WF) (grav : Vec) (q qd qdd : List ℝ) (fext : List Wrench) (τ : List ℝ)
    (h1 : q.length = c.nrOfJoints) (h2 : qd.length = c.nrOfJoints) (h3 : qdd.length = c.nrOfJoints)
    (h4 : τ.length = c.nrOfJoints) (h5 : fext.length = c.nrOfSegments) :
    idRne c c.nrOfJoints c.nrOfSegments grav q qd qdd fext τ =
      some (E_NOERROR, (rneF (rd q) (rd qd) (rd qdd) c.segments fext 0 0 (-⟨grav, 0⟩)).1) := by
  unfold idRne
  rw [if_neg (by simp), if_neg (by simp [h1, h2, h3, h4, h5])]
  have hseg : c.segments.take c.nrOfSegments = c.segments := by rw [hc.1]; simp
  rw [hseg, rneFwd_eq _ _ _ _ _ _ _ _ _ (by rw [h1, hc.2]; simp) (by rw [h2, hc.2]; simp) (by rw [h3, hc.2]; simp)
    (by rw [h5, hc.1]; simp)]
  simp only [Option.bind_eq_bind, Option.bind_some, List.drop_zero, Option.getD_none]
  have := rneBack_eq (rd q) (rd qd) qdd c.segments fext 0 0 (-⟨grav, 0⟩) [] [] τ [] (by rw [h5, hc.1]) rfl
    (by rw [h4, hc.2]) (by rw [h3, hc.2]; simp)
  simp only [List.append_nil, List.nil_append, Nat.cast_zero, zero_add] at this
  rw [show ((c.nrOfJoints : ℤ) - 1) = (nMoving c.segments : ℤ) - 1 by rw [hc.2], this]
  simp [rneBack]

/-! ### virtual work -/

theorem Frame.dot_invTwist (X : Frame) (hX : X.IsProper) (u : Twist) (f : Wrench) :
    (X.invTwist u).dot f = u.dot (X * f) := by
  rw [← C04_power_frame X hX, (C04_inverse_undoes X u 0 hX).2.1]

theorem Twist.dot_sub (t : Twist) (u w : Wrench) : t.dot (u - w) = t.dot u - t.dot w := by
  simp [Twist.dot, Vec.dot]; ring

/-- Weighted sum of a list of numbers. -/
def wsum (δ : ℕ → ℝ) : List ℝ → ℕ → ℝ
  | [], _ => 0
  | t :: ts, j => δ j * t + wsum δ ts (j + 1)

/-- Power of the net wrenches under the virtual rates `δ`. -/
def lw (q qd qdd δ : ℕ → ℝ) : List Segment → List Wrench → ℕ → Twist → Twist → Twist → ℝ
  | s :: ss, fe :: fes, j, u, v, a =>
    (up q δ s j u).dot (fl s (up q qd s j v) (ap q qd qdd s j v a) fe) +
      qv s δ j * (s.joint.inertia * qv s qdd j) +
      lw q qd qdd δ ss fes (nx s j) (up q δ s j u) (up q qd s j v) (ap q qd qdd s j v a)
  | _, _, _, _, _, _ => 0

theorem isProper_Xs (q : ℕ → ℝ) {s : Segment} (h : s.Valid) (j : ℕ) : (Xs q s j).IsProper := Segment.isProper_pose h _

theorem virtual_work (q qd qdd δ : ℕ → ℝ) : ∀ (ss : List Segment) (fes : List Wrench) (j : ℕ) (u v a : Twist),
    (∀ s ∈ ss, s.Valid) → fes.length = ss.length →
    wsum δ (rneF q qd qdd ss fes j v a).1 j + u.dot (rneF q qd qdd ss fes j v a).2 = lw q qd qdd δ ss fes j u v a := by
  intro ss
  induction ss with
  | nil => intro fes j u v a _ _; simp [rneF, wsum, lw]
  | cons s ss ih =>
    intro fes j u v a hv h
    cases fes with
    | nil => simp at h
    | cons fe fes =>
      simp only [List.length_cons, add_left_inj] at h
      have hs := hv s (by simp)
      have hIH := ih fes (nx s j) (up q δ s j u) (up q qd s j v) (ap q qd qdd s j v a)
        (fun t ht => hv t (by simp [ht])) h
      unfold rneF lw
      rw [← hIH]
      dsimp only
      generalize rneF q qd qdd ss fes (nx s j) (up q qd s j v) (ap q qd qdd s j v a) = r
      rw [← Frame.dot_invTwist _ (isProper_Xs q hs j)]
      have e : ∀ w, (up q δ s j u).dot w = ((Xs q s j).invTwist u).dot w + qv s δ j * (Ss q s j).dot w := by
        intro w; rw [up, Twist.add_dot, Twist.smul_dot]
      rw [e, e, Twist.dot_add]
      by_cases hm : s.moving
      · simp only [if_pos hm, wsum, qv, nx, Twist.dot_add]; ring
      · simp only [if_neg hm, qv, nx, Twist.dot_add]; ring

/-- Bilinear form of the inertias. -/
def kin (q δ e : ℕ → ℝ) : List Segment → ℕ → Twist → Twist → ℝ
  | [], _, _, _ => 0
  | s :: ss, j, u, w =>
    (up q δ s j u).dot (s.I * up q e s j w) + qv s δ j * (s.joint.inertia * qv s e j) +
      kin q δ e ss (nx s j) (up q δ s j u) (up q e s j w)
/-- Power of the external wrenches. -/
def few (q δ : ℕ → ℝ) : List Segment → List Wrench → ℕ → Twist → ℝ
  | s :: ss, fe :: fes, j, u => (up q δ s j u).dot fe + few q δ ss fes (nx s j) (up q δ s j u)
  | _, _, _, _ => 0

@[simp] theorem qv_zero (s : Segment) (j : ℕ) : qv s (fun _ => 0) j = 0 := by simp [qv]

theorem ap_add_up (q qd qdd : ℕ → ℝ) (s : Segment) (j : ℕ) (v b w : Twist) :
    ap q qd qdd s j v (b + w) = ap q qd (fun _ => 0) s j v b + up q qdd s j w := by
  simp only [ap, up, Frame.invTwist_add, qv_zero, zero_smul, add_zero]; abel
theorem up_zero (q : ℕ → ℝ) (s : Segment) (j : ℕ) : up q (fun _ => 0) s j 0 = 0 := by
  simp [up, Frame.invTwist_zero]
theorem ap_zero_rate (q : ℕ → ℝ) (s : Segment) (j : ℕ) (v g : Twist) :
    ap q (fun _ => 0) (fun _ => 0) s j v g = (Xs q s j).invTwist g := by
  have e : ∀ t : Twist, t * (0 : Twist) = 0 := fun t => by ext <;> simp
  simp [ap, e]
theorem ap_add_grav (q qd : ℕ → ℝ) (s : Segment) (j : ℕ) (v b g : Twist) :
    ap q qd (fun _ => 0) s j v (b + g) = ap q qd (fun _ => 0) s j v b + ap q (fun _ => 0) (fun _ => 0) s j 0 g := by
  rw [ap_zero_rate]
  simp only [ap, Frame.invTwist_add]; abel

theorem RBI.mul_add (i : RBI) (a b : Twist) : i * (a + b) = i * a + i * b := (C37_linear i i 0 a b).2.2.1

theorem lw_accel (q qd qdd δ : ℕ → ℝ) : ∀ (ss : List Segment) (fes : List Wrench) (j : ℕ) (u v b w : Twist),
    fes.length = ss.length →
    lw q qd qdd δ ss fes j u v (b + w) = lw q qd (fun _ => 0) δ ss fes j u v b + kin q δ qdd ss j u w := by
  intro ss
  induction ss with
  | nil => intro fes j u v b w _; simp [lw, kin]
  | cons s ss ih =>
    intro fes j u v b w h
    cases fes with
    | nil => simp at h
    | cons fe fes =>
      simp only [List.length_cons, add_left_inj] at h
      unfold lw kin
      rw [ap_add_up, ih _ _ _ _ _ _ h, qv_zero]
      simp only [fl, RBI.mul_add, Twist.dot_sub, Twist.dot_add]
      ring

theorem lw_split (q qd δ : ℕ → ℝ) : ∀ (ss : List Segment) (fes : List Wrench) (j : ℕ) (u v b g : Twist),
    fes.length = ss.length →
    lw q qd (fun _ => 0) δ ss fes j u v (b + g) =
      lw q qd (fun _ => 0) δ ss (List.replicate ss.length 0) j u v b +
      lw q (fun _ => 0) (fun _ => 0) δ ss (List.replicate ss.length 0) j u 0 g - few q δ ss fes j u := by
  intro ss
  induction ss with
  | nil => intro fes j u v b w _; simp [lw, few]
  | cons s ss ih =>
    intro fes j u v b g h
    cases fes with
    | nil => simp at h
    | cons fe fes =>
      simp only [List.length_cons, add_left_inj] at h
      simp only [List.length_cons, List.replicate_succ]
      unfold lw few
      rw [ap_add_grav, ih _ _ _ _ _ _ h, qv_zero, up_zero]
      have e0 : ∀ w : Wrench, (0 : Twist) * w = 0 := fun w => by ext <;> simp
      simp only [fl, RBI.mul_add, Twist.dot_sub, Twist.dot_add, e0, Twist.dot_zero]
      ring

end KDL
