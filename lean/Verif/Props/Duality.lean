import Verif.Props.ForwardDynamics
import Verif.Props.Energy
import Verif.Props.TreeEnergy

/-! C106: the dynamics solvers and the Jacobian solver describe the same mechanism.  Torques of external wrenches, the mass
matrix and the gravity torques are those computed from the Jacobians of the segments. -/

noncomputable section
namespace KDL
open Finset

/-- What the position solver and the Jacobian solver (no joint locked) report for the tip of every segment. -/
structure TipData (c : Chain) (q : List ℝ) (F : ℕ → Frame) (J : ℕ → Jac) : Prop where
  pose : ∀ i < c.nrOfSegments, fkPos c q ((i + 1 : ℕ) : ℤ) = some (E_NOERROR, F i)
  jac : ∀ i < c.nrOfSegments, jntToJac c (List.replicate c.nrOfJoints false) q (Jac.zeros c.nrOfJoints) ((i + 1 : ℕ) : ℤ) =
    some (E_NOERROR, J i)

/-- Torque of joint `k` equivalent to wrenches on the segments (each given in the tip frame of its segment):
transpose of the Jacobian times wrench, summed up. -/
def jacTorque (c : Chain) (F : ℕ → Frame) (J : ℕ → Jac) (w : ℕ → Wrench) (k : ℕ) : ℝ :=
  ∑ i ∈ range c.nrOfSegments, ((J i).getD k 0).dot ((F i).M * w i)

/-! ### Helpers -/

theorem mulJac_unit : ∀ (J : Jac) (n : ℕ), J.length = n → ∀ k < n,
    multiplyJacobian J (unitJnt n k) = some (J.getD k 0) := by
  intro J n hJ k hk
  unfold multiplyJacobian
  rw [if_pos (by rw [unitJnt_length, hJ])]
  congr 1
  have main : ∀ (J : Jac) (f : ℕ → ℝ) (k : ℕ), (∀ i, i ≠ k → f i = 0) → f k = 1 →
      (List.zipWith (fun (t : Twist) (x : ℝ) => x • t) J ((List.range J.length).map f)).foldr (· + ·) 0 = J.getD k 0 := by
    intro J
    induction J with
    | nil => intro f k _ _; rfl
    | cons t J ih =>
      intro f k h0 h1
      rw [List.length_cons, List.range_succ_eq_map, List.map_cons, List.map_map, List.zipWith_cons_cons, List.foldr_cons]
      cases k with
      | zero =>
        have z : ∀ (J : Jac) (g : ℕ → ℝ), (∀ i, g i = 0) →
            (List.zipWith (fun (t : Twist) (x : ℝ) => x • t) J ((List.range J.length).map g)).foldr (· + ·) 0 = 0 := by
          intro J
          induction J with
          | nil => intro g _; rfl
          | cons t J ih =>
            intro g hg
            rw [List.length_cons, List.range_succ_eq_map, List.map_cons, List.map_map, List.zipWith_cons_cons, List.foldr_cons,
              ih (g ∘ Nat.succ) (fun i => hg _), hg]
            ext <;> simp
        rw [z J (f ∘ Nat.succ) (fun i => h0 _ (by simp)), h1]
        show (1:ℝ) • t + 0 = t
        ext <;> simp
      | succ k =>
        rw [ih (f ∘ Nat.succ) k (fun i hi => h0 _ (by simpa using hi)) h1, h0 0 (by omega)]
        show (0:ℝ) • t + J.getD k 0 = J.getD k 0
        ext <;> simp
  subst hJ
  exact main J _ k (fun i hi => by simp [hi]) (by simp)

/-- Joint `k` moved away from `q`. -/
def ray (q : List ℝ) (k : ℕ) (s : ℝ) : List ℝ := q.mapIdx fun j x => if j = k then x + s else x

theorem ray_length (q : List ℝ) (k : ℕ) (s : ℝ) : (ray q k s).length = q.length := by simp [ray]
theorem ray_zero (q : List ℝ) (k : ℕ) : ray q k 0 = q := by
  apply List.ext_getElem?
  intro i
  simp only [ray, List.getElem?_mapIdx, add_zero, ite_self]
  cases q[i]? <;> rfl
theorem ray_deriv (q : List ℝ) (k : ℕ) (hk : k < q.length) (j : ℕ) :
    HasDerivAt (fun s => (ray q k s).getD j 0) ((unitJnt q.length k).getD j 0) 0 := by
  have e : (unitJnt q.length k).getD j 0 = if j = k then 1 else 0 := by
    have := congrFun (rd_unitJnt q.length k hk) j
    simp only [rd, unitRate] at this
    rw [this]
  rw [e]
  have e2 : (fun s => (ray q k s).getD j 0) = fun s => if j = k then q.getD j 0 + s else q.getD j 0 := by
    funext s
    simp only [ray, List.getD_eq_getElem?_getD, List.getElem?_mapIdx]
    cases hj : q[j]? with
    | none =>
      have : j ≠ k := by rintro rfl; rw [List.getElem?_eq_getElem hk] at hj; simp at hj
      simp [this]
    | some x => split_ifs <;> rfl
  rw [e2]
  split_ifs
  · simpa using (hasDerivAt_id (0:ℝ)).const_add (q.getD j 0)
  · exact hasDerivAt_const _ _

theorem TipData.twist {c : Chain} (hc : c.WF) (hv : c.Valid) {q : List ℝ} (hq : q.length = c.nrOfJoints) {F : ℕ → Frame} {J : ℕ → Jac}
    (h : TipData c q F J) {i k : ℕ} (hi : i < c.nrOfSegments) (hk : k < c.nrOfJoints) :
    segTwist c q (unitJnt c.nrOfJoints k) i = (F i).M.invTwist ((J i).getD k 0) := by
  obtain ⟨J', v, e1, e2, e3, e4⟩ := C27_jac c hc q (unitJnt c.nrOfJoints k) (Jac.zeros c.nrOfJoints) ((i + 1 : ℕ) : ℤ) hq
    (unitJnt_length _ _) (by simp [Jac.zeros]) (by rw [segmentNr_ofNat]; omega)
  rw [h.jac i hi] at e1; cases e1
  rw [mulJac_unit _ _ e2 k hk] at e4
  obtain ⟨G, v', g1, g2, g3, -⟩ := C26_fkVel c hc hv (ray q k) (unitJnt c.nrOfJoints k) 0
    (fun t => by rw [ray_length]; exact hq) (unitJnt_length _ _) (by rw [← hq]; exact ray_deriv q k (by omega))
    ((i + 1 : ℕ) : ℤ) (by rw [segmentNr_ofNat]; omega)
  rw [ray_zero, e3] at g2; cases g2
  have g1' := g1 0
  rw [ray_zero, h.pose i hi] at g1'
  simp only [Option.some.injEq, Prod.mk.injEq, true_and] at g1'
  rw [Option.some.injEq] at e4
  simp only [segTwist, e3]
  rw [e4, g3, g1']

theorem Rot.invTwist_dot (R : Rot) (t : Twist) (w : Wrench) : (R.invTwist t).dot w = t.dot (R * w) := by
  simp [Rot.invTwist, Rot.invVec, Twist.dot, Vec.dot]
  ring

/-! ### C106 -/

/-- The two solvers succeed for every segment. -/
theorem C106_data (c : Chain) (hc : c.WF) (q : List ℝ) (hq : q.length = c.nrOfJoints) :
    ∃ F J, TipData c q F J ∧ ∀ i < c.nrOfSegments, (J i).length = c.nrOfJoints := by
  have h : ∀ i : ℕ, ∃ x : Frame × Jac, i < c.nrOfSegments → fkPos c q ((i + 1 : ℕ) : ℤ) = some (E_NOERROR, x.1) ∧
      jntToJac c (List.replicate c.nrOfJoints false) q (Jac.zeros c.nrOfJoints) ((i + 1 : ℕ) : ℤ) = some (E_NOERROR, x.2) ∧
      x.2.length = c.nrOfJoints := by
    intro i
    by_cases hi : i < c.nrOfSegments
    · obtain ⟨J, v, e1, e2, -, -⟩ := C27_jac c hc q q (Jac.zeros c.nrOfJoints) ((i + 1 : ℕ) : ℤ) hq hq (by simp [Jac.zeros])
        (by rw [segmentNr_ofNat]; omega)
      have e3 := C25_fk c hc q ((i + 1 : ℕ) : ℤ)
      rw [if_neg (not_not.mpr hq), segmentNr_ofNat, if_neg (by omega)] at e3
      exact ⟨(_, J), fun _ => ⟨e3, e1, e2⟩⟩
    · exact ⟨(1, []), fun h => absurd h hi⟩
  choose x hx using h
  exact ⟨fun i => (x i).1, fun i => (x i).2, ⟨fun i hi => (hx i hi).1, fun i hi => (hx i hi).2.1⟩, fun i hi => (hx i hi).2.2⟩

section
variable {c : Chain} (hc : c.WF) (hv : c.Valid) (hI : c.SymmI) {q : List ℝ} (hq : q.length = c.nrOfJoints) {F : ℕ → Frame}
  {J : ℕ → Jac} (hT : TipData c q F J)
include hc hv hq hT

theorem sum_wrench (w : ℕ → Wrench) {k : ℕ} (hk : k < c.nrOfJoints) :
    ∑ i ∈ range c.nrOfSegments, (segTwist c q (unitJnt c.nrOfJoints k) i).dot (w i) = jacTorque c F J w k := by
  refine sum_congr rfl fun i hi => ?_
  rw [hT.twist hc hv hq (mem_range.mp hi) hk, Rot.invTwist_dot]

include hI in
/-- Statics: wrenches on the segments take the torques `Jᵀ w` off the joints, at every speed and acceleration. -/
theorem C106_wrenches (grav : Vec) (qd qdd : List ℝ) (fext : List Wrench) (τ0 : List ℝ) (hqd : qd.length = c.nrOfJoints)
    (hqdd : qdd.length = c.nrOfJoints) (hf : fext.length = c.nrOfSegments) (hτ : τ0.length = c.nrOfJoints) :
    ∃ τ τf, idRne c c.nrOfJoints c.nrOfSegments grav q qd qdd (List.replicate c.nrOfSegments 0) τ0 = some (E_NOERROR, τ) ∧
      idRne c c.nrOfJoints c.nrOfSegments grav q qd qdd fext τ0 = some (E_NOERROR, τf) ∧
      ∀ k < c.nrOfJoints, τf.getD k 0 = τ.getD k 0 - jacTorque c F J (fun i => fext.getD i 0) k := by
  obtain ⟨τ, H, C, G, a1, a2, a3, a4, -, -, -, -, a9⟩ := C39_decomposition c hc hv hI grav q qd qdd
    (List.replicate c.nrOfSegments 0) τ0 τ0 τ0 ⟨c.nrOfJoints, fun _ _ => 0⟩ hq hqd hqdd (by simp) hτ hτ hτ rfl
  obtain ⟨τf, H', C', G', b1, b2, b3, b4, -, -, -, -, b9⟩ := C39_decomposition c hc hv hI grav q qd qdd
    fext τ0 τ0 τ0 ⟨c.nrOfJoints, fun _ _ => 0⟩ hq hqd hqdd hf hτ hτ hτ rfl
  rw [a2] at b2; cases b2
  rw [a3] at b3; cases b3
  rw [a4] at b4; cases b4
  refine ⟨τ, τf, a1, b1, fun k hk => ?_⟩
  have z : ∀ i, (List.replicate c.nrOfSegments (0 : Wrench)).getD i 0 = 0 := fun i => by
    simp only [List.getD_eq_getElem?_getD, List.getElem?_replicate]; split_ifs <;> rfl
  have z2 : ∀ t : Twist, t.dot 0 = 0 := fun t => by simp [Twist.dot, Vec.dot]
  have a := a9 k hk
  simp only [z, z2, sum_const_zero] at a
  rw [a, b9 k hk, sum_wrench hc hv hq hT (fun i => fext.getD i 0) hk]
  ring

omit hT in
include hI in
/-- A wrench on the tip: the torques are those of the transposed Jacobian of the whole chain. -/
theorem C106_tip (grav : Vec) (qd qdd : List ℝ) (w : Wrench) (τ0 : List ℝ) (hn : 0 < c.nrOfSegments)
    (hqd : qd.length = c.nrOfJoints) (hqdd : qdd.length = c.nrOfJoints) (hτ : τ0.length = c.nrOfJoints) :
    ∃ (τ τw : List ℝ) (J : Jac) (T : Frame),
      idRne c c.nrOfJoints c.nrOfSegments grav q qd qdd (List.replicate c.nrOfSegments 0) τ0 = some (E_NOERROR, τ) ∧
      idRne c c.nrOfJoints c.nrOfSegments grav q qd qdd (List.replicate (c.nrOfSegments - 1) 0 ++ [w]) τ0 = some (E_NOERROR, τw) ∧
      jntToJac c (List.replicate c.nrOfJoints false) q (Jac.zeros c.nrOfJoints) (-1) = some (E_NOERROR, J) ∧
      fkPos c q (-1) = some (E_NOERROR, T) ∧
      ∀ k < c.nrOfJoints, τw.getD k 0 = τ.getD k 0 - (J.getD k 0).dot (T.M * w) := by
  obtain ⟨F, J, hT, -⟩ := C106_data c hc q hq
  obtain ⟨τ, τw, e1, e2, e3⟩ := C106_wrenches hc hv hI hq hT grav qd qdd (List.replicate (c.nrOfSegments - 1) 0 ++ [w]) τ0 hqd hqdd
    (by simp; omega) hτ
  have hl : c.nrOfSegments - 1 < c.nrOfSegments := by omega
  have hm : segmentNr c (((c.nrOfSegments - 1) + 1 : ℕ) : ℤ) = segmentNr c (-1) := by
    rw [segmentNr_ofNat]; simp [segmentNr]; omega
  refine ⟨τ, τw, J (c.nrOfSegments - 1), F (c.nrOfSegments - 1), e1, e2, ?_, ?_, fun k hk => ?_⟩
  · have := hT.jac _ hl
    unfold jntToJac at this ⊢
    rwa [hm] at this
  · have := hT.pose _ hl
    unfold fkPos at this ⊢
    rwa [hm] at this
  · rw [e3 k hk]
    congr 1
    unfold jacTorque
    rw [sum_eq_single (c.nrOfSegments - 1)]
    · congr 2
      simp [List.getD_eq_getElem?_getD]
    · intro i hi hne
      have hi' := mem_range.mp hi
      have : (List.replicate (c.nrOfSegments - 1) (0 : Wrench) ++ [w]).getD i 0 = 0 := by
        rw [List.getD_eq_getElem?_getD, List.getElem?_append_left (by simp; omega), List.getElem?_replicate]
        split_ifs <;> rfl
      dsimp only
      rw [this]
      simp [Twist.dot, Vec.dot, Rot.app_zero]
    · intro h; exact absurd (mem_range.mpr hl) h

include hI in
/-- Mass matrix: `Σ Jᵀ I J` over the bodies, each with its inertia in its tip frame, plus the rotors on the diagonal. -/
theorem C106_mass (grav : Vec) (H0 : JMat) (hH : H0.n = c.nrOfJoints) :
    ∃ H, (DynState.new c grav).mass c q H0 = some (E_NOERROR, H) ∧ H.n = c.nrOfJoints ∧
      ∀ k < c.nrOfJoints, ∀ l < c.nrOfJoints, H.d k l =
        ∑ i ∈ range c.nrOfSegments, ((J i).getD k 0).dot ((F i).M * (segInertia c i * (F i).M.invTwist ((J i).getD l 0))) +
        if k = l then jntInertia c k else 0 := by
  obtain ⟨H, e1, e2, -⟩ := C40_form c hc hv hI q hq grav H0 hH
  refine ⟨H, e1, e2, fun k hk l hl => ?_⟩
  rw [C40_entries c hc hv hI q hq grav H0 H hH e1 k l hk hl]
  unfold energyForm
  congr 1
  · refine sum_congr rfl fun i hi => ?_
    rw [hT.twist hc hv hq (mem_range.mp hi) hk, hT.twist hc hv hq (mem_range.mp hi) hl, Rot.invTwist_dot]
  · have un : ∀ n < c.nrOfJoints, ∀ m, (unitJnt c.nrOfJoints n).getD m 0 = if m = n then 1 else 0 := fun n hn m => by
      have := congrFun (rd_unitJnt c.nrOfJoints n hn) m
      simp only [rd, unitRate] at this
      rw [this]
    simp only [un k hk, un l hl, ite_mul, one_mul, zero_mul, mul_ite, mul_one, mul_zero, sum_ite_eq', mem_range, if_pos hk, if_pos hl]
    by_cases h : k = l
    · subst h; simp
    · rw [if_neg h, if_neg (Ne.symm h)]

/-- Gravity torques: minus the weights times the velocities of the centres of gravity (`m c = h` for a body with centre of
gravity `c` in its tip frame). -/
theorem C106_gravity (grav : Vec) (G0 : List ℝ) (hG : G0.length = c.nrOfJoints) :
    ∃ G, (DynState.new c grav).gravity c q G0 = some (E_NOERROR, G) ∧
      ∀ k < c.nrOfJoints, G.getD k 0 = -∑ i ∈ range c.nrOfSegments, Vec.dot grav
        ((segInertia c i).m • ((J i).getD k 0).vel + ((J i).getD k 0).rot * ((F i).M * (segInertia c i).h)) := by
  have hz : (List.replicate c.nrOfJoints (0:ℝ)).length = c.nrOfJoints := by simp
  have eG : (DynState.new c grav).gravity c q G0 = some (E_NOERROR, _) :=
    idRne_eq c hc grav q (List.replicate c.nrOfJoints 0) (List.replicate c.nrOfJoints 0)
      (List.replicate c.nrOfSegments 0) G0 hq hz hz hG (by simp)
  refine ⟨_, eG, fun k hk => ?_⟩
  have hd : ∀ j, HasDerivAt (fun s => (ray q k s).getD j 0) ((unitJnt c.nrOfJoints k).getD j 0) 0 := by
    rw [← hq]; exact ray_deriv q k (by omega)
  have hr : ∀ t, (ray q k t).length = c.nrOfJoints := fun t => by rw [ray_length]; exact hq
  obtain ⟨G, g1, -, g2⟩ := C43_gravity_gradient c hc hv grav (ray q k) (unitJnt c.nrOfJoints k) 0 G0 hr (unitJnt_length _ _) hG hd
  rw [ray_zero, eG] at g1; cases g1
  have g3 := potential_hasDeriv c hc hv grav (ray q k) (unitJnt c.nrOfJoints k) 0 hr (unitJnt_length _ _) hd
  have u := g2.unique g3
  have un : ∀ m, (unitJnt c.nrOfJoints k).getD m 0 = if m = k then 1 else 0 := fun m => by
    have := congrFun (rd_unitJnt c.nrOfJoints k hk) m
    simp only [rd, unitRate] at this
    rw [this]
  simp only [un, ite_mul, one_mul, zero_mul, sum_ite_eq', mem_range, if_pos hk, ray_zero] at u
  rw [u, ← sum_neg_distrib]
  refine sum_congr rfl fun i hi => ?_
  have hi' := mem_range.mp hi
  have hP := segFrame_isProper c hc hv q i hq hi'
  have hPM : (segFrame c q i).M.IsProper := hP
  have hF : segFrame c q i = F i := by simp only [segFrame, hT.pose i hi']
  rw [hT.twist hc hv hq hi' hk]
  rw [hF] at hP hPM ⊢
  rw [← C04_power_frame _ hP, grav_wrench _ hP]
  rw [Rot.invTwist_eq]
  simp only [Twist.dot, Frame.app_twist_vel, Frame.app_twist_rot, hPM.app_inv_app]
  generalize (F i).M * (segInertia c i).h = h
  generalize (segInertia c i).m = m
  have n1 : (-(⟨m • grav, (m • (F i).p + h) * grav⟩ : Wrench)).force = -(m • grav) := rfl
  have n2 : (-(⟨m • grav, (m • (F i).p + h) * grav⟩ : Wrench)).torque = -((m • (F i).p + h) * grav) := rfl
  rw [n1, n2]
  simp [Vec.dot]
  ring

include hI in
/-- Forward dynamics: external wrenches act like the joint torques `Jᵀ w`. -/
theorem C106_forward (hM : c.Massive) (grav : Vec) (qd τ : List ℝ) (fext : List Wrench) (qdd0 : List ℝ) (H0 : ℕ → ℕ → ℝ)
    (T0 : ℕ → ℝ) (L0 : LDL) (r0 x0 : ℕ → ℝ) (hqd : qd.length = c.nrOfJoints) (hqdd : qdd0.length = c.nrOfJoints)
    (hτ : τ.length = c.nrOfJoints) (hf : fext.length = c.nrOfSegments) :
    ∃ qdd, fdRne (.new c grav) c q qd τ fext qdd0 H0 T0 L0 r0 x0 = some (.ret E_NOERROR qdd) ∧
      fdRne (.new c grav) c q qd (τ.mapIdx fun k x => x + jacTorque c F J (fun i => fext.getD i 0) k)
        (List.replicate c.nrOfSegments 0) qdd0 H0 T0 L0 r0 x0 = some (.ret E_NOERROR qdd) := by
  obtain ⟨qdd, e⟩ := C42_total c hc hv hI hM grav q qd τ fext qdd0 H0 T0 L0 r0 x0 hq hqd hqdd hτ hf
  refine ⟨qdd, e, ?_⟩
  obtain ⟨-, hl, hid⟩ := C42_id_of_fd c hc hv hI grav q qd τ fext qdd0 τ H0 T0 L0 r0 x0 hq hqd hqdd hτ hf hτ _ qdd e
  obtain ⟨σ, σf, s1, s2, s3⟩ := C106_wrenches hc hv hI hq hT grav qd qdd fext τ hqd hl hf hτ
  rw [hid] at s2; cases s2
  obtain ⟨ρ, t1, t2⟩ := C42_fd_of_id c hc hv hI hM grav q qd qdd (List.replicate c.nrOfSegments 0) qdd0 τ H0 T0 L0 r0 x0 hq hqd hl
    hqdd (by simp) hτ
  rw [s1] at t1; cases t1
  have hσ : σ.length = c.nrOfJoints := by
    obtain ⟨τ', -, -, -, a1, -, -, -, a5, -⟩ := C39_decomposition c hc hv hI grav q qd qdd
      (List.replicate c.nrOfSegments 0) τ τ τ ⟨c.nrOfJoints, fun _ _ => 0⟩ hq hqd hl (by simp) hτ hτ hτ rfl
    rw [s1] at a1; cases a1; exact a5
  have : σ = τ.mapIdx fun k x => x + jacTorque c F J (fun i => fext.getD i 0) k := by
    refine List.ext_getElem (by simp [hσ, hτ]) fun k h1 h2 => ?_
    have hk : k < c.nrOfJoints := by omega
    have := s3 k hk
    simp only [List.getD_eq_getElem?_getD, List.getElem?_eq_getElem h1,
      List.getElem?_eq_getElem (show k < τ.length by omega), Option.getD_some] at this
    simp only [List.getElem_mapIdx, this]
    ring_nf
    simp
  rw [← this]
  exact t2

end

/-! ### Trees -/

theorem dsum_unit (k : ℕ) : ∀ (J : Jac) (j : ℕ), j ≤ k → dsum (unitRate k) J j = J.getD (k - j) 0 := by
  have z : ∀ (J : Jac) (j : ℕ), k < j → dsum (unitRate k) J j = 0 := by
    intro J
    induction J with
    | nil => intro j _; rfl
    | cons t J ih =>
      intro j hj
      rw [dsum, ih (j + 1) (by omega)]
      simp [unitRate, show j ≠ k by omega]
  intro J
  induction J with
  | nil => intro j _; rfl
  | cons t J ih =>
    intro j hj
    rw [dsum]
    rcases Nat.lt_or_ge j k with h | h
    · rw [ih (j + 1) h, show k - j = (k - (j + 1)) + 1 by omega, List.getD_cons_succ]
      simp [unitRate, show j ≠ k by omega]
    · have : j = k := by omega
      subst this
      rw [z J (j + 1) (by omega), Nat.sub_self, List.getD_cons_zero]
      simp [unitRate]

open Tree in
/-- Trees: wrenches on the named segments take the torques `Jᵀ w` off the joints, with the poses and Jacobians that the two
tree solvers report for the segments. -/
theorem C106_tree (t : Tree) (h : t.Reach) (hv : ∀ x ∈ t.segments, x.segment.Valid) (h0 : 0 < t.nrOfJoints) (s : TreeRne)
    (grav : Vec) (hag : s.ag = -⟨grav, 0⟩) (hs : s.Ready t) (q qd a : List ℝ) (fext : String → Option Wrench) (τ0 : List ℝ)
    (jac : Jac) (hq : q.length = t.nrOfJoints) (hqd : qd.length = t.nrOfJoints) (ha : a.length = t.nrOfJoints)
    (hτ : τ0.length = t.nrOfJoints) (hj : jac.length = t.nrOfJoints) :
    ∃ (τ τf : List ℝ) (F : String → Frame) (J : String → Jac),
      s.cartToJnt t false q qd a (fun _ => none) τ0 = some (E_NOERROR, τ) ∧
      s.cartToJnt t false q qd a fext τ0 = some (E_NOERROR, τf) ∧
      (∀ n ∈ t.names, t.fkTree q n = some (0, some (F n)) ∧ t.jacTree q jac n = some (0, J n)) ∧
      ∀ k < t.nrOfJoints, τf.getD k 0 = τ.getD k 0 -
        (t.segments.map fun x => ((J x.name).getD k 0).dot ((F x.name).M * (fext x.name).getD 0)).sum := by
  obtain ⟨path, hpath⟩ : ∃ path : String → List TreeElem, ∀ n ∈ t.names, Path t n (path n) := by
    have : ∀ n, ∃ l, n ∈ t.names → Path t n l := fun n => by
      by_cases hn : n ∈ t.names
      · obtain ⟨l, hl, -⟩ := path_of_mem h.wf hn
        exact ⟨l, fun _ => hl⟩
      · exact ⟨[], fun h => absurd h hn⟩
    choose f hf using this
    exact ⟨f, hf⟩
  have hJ : ∀ n, ∃ J : Jac, n ∈ t.names → t.jacTree q jac n = some (0, J) ∧
      ∀ k < t.nrOfJoints, bodyTwist (rd q) (unitRate k) (path n) = (fkP (rd q) (path n)).M.invTwist (J.getD k 0) := fun n => by
    by_cases hn : n ∈ t.names
    · obtain ⟨J, e1, -, -, e4⟩ := C35_jacobian t h hv h0 q hq jac hj n (path n) (hpath n hn)
      refine ⟨J, fun _ => ⟨e1, fun k hk => ?_⟩⟩
      have hvp : ∀ e ∈ path n, e.segment.Valid := fun e he => hv e ((hpath n hn).mem e he)
      have hd : JntHasDeriv (fun u => rd (ray q k u)) (unitRate k) 0 := fun j => by
        have := ray_deriv q k (by omega) j
        rw [hq] at this
        refine this.congr_deriv ?_
        exact congrFun (rd_unitJnt t.nrOfJoints k hk) j
      have d1 := e4 _ _ 0 hd (by simp only [ray_zero])
      have d2 := twP_hasTwist hd (path n) hvp
      have : dsum (unitRate k) J 0 = twP (rd (ray q k 0)) (unitRate k) (path n) := by
        ext1
        · exact d1.vel.unique d2.vel
        · exact Rot.HasAngVel.unique d1.rot d2.rot (isProper_fkP _ (path n) hvp)
      rw [dsum_unit k J 0 (by omega), Nat.sub_zero, ray_zero] at this
      rw [bodyTwist, this]
    · exact ⟨[], fun h => absurd h hn⟩
  choose J hJ using hJ
  obtain ⟨τ, τf, e1, e2, e3⟩ := C94_external t h hv s grav hag hs path hpath q qd a fext τ0 hq hqd ha hτ
  refine ⟨τ, τf, fun n => fkP (rd q) (path n), J, e1, e2,
    fun n hn => ⟨(C34_fk t h h0 q n).2.2 hq _ (hpath n hn), (hJ n hn).1⟩, fun k hk => ?_⟩
  have := e3 (unitRate k)
  simp only [unitRate, ite_mul, one_mul, zero_mul, sum_ite_eq', mem_range, if_pos hk] at this
  have e : (t.segments.map fun x => (bodyTwist (rd q) (unitRate k) (path x.name)).dot ((fext x.name).getD 0)) =
      t.segments.map fun x => ((J x.name).getD k 0).dot ((fkP (rd q) (path x.name)).M * (fext x.name).getD 0) := by
    refine List.map_congr_left fun x hx => ?_
    rw [(hJ _ (List.mem_map_of_mem hx)).2 k hk, Rot.invTwist_dot]
  rw [← e, ← show τ.getD k 0 - τf.getD k 0 = _ from this]
  ring

/-! ### Instances -/

/-- The two solvers on the example chain. -/
theorem exData (a b : ℝ) : ∃ F J, TipData exChain [a, b] F J := by
  obtain ⟨F, J, h, -⟩ := C106_data exChain exChain_ok.1 [a, b] rfl
  exact ⟨F, J, h⟩
example (a b x y : ℝ) (grav : Vec) (w : Wrench) : ∃ (τ τw : List ℝ) (J : Jac) (T : Frame),
    idRne exChain 2 3 grav [a, b] [x, y] [1, 2] [0, 0, 0] [0, 0] = some (0, τ) ∧
    idRne exChain 2 3 grav [a, b] [x, y] [1, 2] [0, 0, w] [0, 0] = some (0, τw) ∧
    jntToJac exChain [false, false] [a, b] [0, 0] (-1) = some (0, J) ∧ fkPos exChain [a, b] (-1) = some (0, T) ∧
    ∀ k < 2, τw.getD k 0 = τ.getD k 0 - (J.getD k 0).dot (T.M * w) :=
  C106_tip exChain_ok.1 exChain_ok.2.1 exChain_ok.2.2.1 rfl grav _ _ w [0, 0] (by decide) rfl rfl rfl
example (a b : ℝ) (H : JMat) (h : (DynState.new exChain 0).mass exChain [a, b] ⟨2, fun _ _ => 7⟩ = some (0, H)) :
    ∃ F J, TipData exChain [a, b] F J ∧ H.d 0 1 =
      ∑ i ∈ range 3, ((J i).getD 0 0).dot ((F i).M * (segInertia exChain i * (F i).M.invTwist ((J i).getD 1 0))) := by
  obtain ⟨F, J, hT⟩ := exData a b
  obtain ⟨H', e1, -, e3⟩ := C106_mass exChain_ok.1 exChain_ok.2.1 exChain_ok.2.2.1 rfl hT 0 ⟨2, fun _ _ => 7⟩ rfl
  rw [h] at e1; cases e1
  have := e3 0 (by decide) 1 (by decide)
  simp only [zero_ne_one, if_false, add_zero] at this
  exact ⟨F, J, hT, this⟩
example (a b : ℝ) (grav : Vec) : ∃ F J G, TipData exChain [a, b] F J ∧
    (DynState.new exChain grav).gravity exChain [a, b] [7, 7] = some (0, G) ∧
    G.getD 1 0 = -∑ i ∈ range 3, Vec.dot grav ((segInertia exChain i).m • ((J i).getD 1 0).vel +
      ((J i).getD 1 0).rot * ((F i).M * (segInertia exChain i).h)) := by
  obtain ⟨F, J, hT⟩ := exData a b
  obtain ⟨G, e1, e2⟩ := C106_gravity exChain_ok.1 exChain_ok.2.1 rfl hT grav [7, 7] rfl
  exact ⟨F, J, G, hT, e1, e2 1 (by decide)⟩
example (a b : ℝ) (w u v : Wrench) : ∃ F J qdd, TipData exChain [a, b] F J ∧
    fdRne (.new exChain 0) exChain [a, b] [1, 2] [3, 4] [u, v, w] [0, 0] (fun _ _ => 7) (fun _ => 7)
      ⟨fun _ _ => 7, fun _ => 7⟩ (fun _ => 7) (fun _ => 7) = some (.ret 0 qdd) ∧
    fdRne (.new exChain 0) exChain [a, b] [1, 2]
      [3 + jacTorque exChain F J (fun i => [u, v, w].getD i 0) 0, 4 + jacTorque exChain F J (fun i => [u, v, w].getD i 0) 1]
      [0, 0, 0] [0, 0] (fun _ _ => 7) (fun _ => 7) ⟨fun _ _ => 7, fun _ => 7⟩ (fun _ => 7) (fun _ => 7) = some (.ret 0 qdd) := by
  obtain ⟨F, J, hT⟩ := exData a b
  obtain ⟨qdd, e1, e2⟩ := C106_forward exChain_ok.1 exChain_ok.2.1 exChain_ok.2.2.1 rfl hT exChain_ok.2.2.2 0 [1, 2] [3, 4]
    [u, v, w] [0, 0] (fun _ _ => 7) (fun _ => 7) ⟨fun _ _ => 7, fun _ => 7⟩ (fun _ => 7) (fun _ => 7) rfl rfl rfl rfl
  exact ⟨F, J, qdd, hT, e1, e2⟩

open Tree in
example (grav : Vec) (a b c x y z : ℝ) (fext : String → Option Wrench) : ∃ (τ τf : List ℝ) (F : String → Frame) (J : String → Jac),
    (TreeRne.new exTree grav).cartToJnt exTree false [a, b, c] [x, y, z] [1, 2, 3] (fun _ => none) [0, 0, 0] = some (E_NOERROR, τ) ∧
    (TreeRne.new exTree grav).cartToJnt exTree false [a, b, c] [x, y, z] [1, 2, 3] fext [0, 0, 0] = some (E_NOERROR, τf) ∧
    (∀ n ∈ exTree.names, exTree.fkTree [a, b, c] n = some (0, some (F n)) ∧ exTree.jacTree [a, b, c] [0, 0, 0] n = some (0, J n)) ∧
    ∀ k < exTree.nrOfJoints, τf.getD k 0 = τ.getD k 0 -
      (exTree.segments.map fun x => ((J x.name).getD k 0).dot ((F x.name).M * (fext x.name).getD 0)).sum := by
  have hnj : exTree.nrOfJoints = 3 := by rw [exTree_eq]
  exact C106_tree exTree exTree_reach exTree_valid (by rw [hnj]; decide) _ grav rfl (exTree_ready grav) _ _ _ fext _ _
    (by rw [hnj]; rfl) (by rw [hnj]; rfl) (by rw [hnj]; rfl) (by rw [hnj]; rfl) (by rw [hnj]; rfl)

end KDL
