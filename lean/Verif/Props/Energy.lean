import Verif.Props.Dynamics

/-! C43: gravity torques are the gradient of the potential energy; power balance of inverse dynamics. -/

noncomputable section
namespace KDL
open Finset

/-- Kinetic energy of the chain: the segments and the rotors. -/
def kineticEnergy (c : Chain) (q qd : List ℝ) : ℝ := energyForm c q qd qd / 2
/-- Potential energy in a homogeneous field `g`: `−Σ_i m_i g·c_i`, with `m_i c_i = m_i p_i + R_i h_i`. -/
def potentialEnergy (c : Chain) (g : Vec) (q : List ℝ) : ℝ :=
  -∑ i ∈ range c.nrOfSegments,
    Vec.dot g ((segInertia c i).m • (segFrame c q i).p + (segFrame c q i).M * (segInertia c i).h)

/-! ## auxiliary -/

theorem segFrame_isProper (c : Chain) (hc : c.WF) (hv : c.Valid) (q : List ℝ) (i : ℕ) (hq : q.length = c.nrOfJoints)
    (hi : i < c.nrOfSegments) : (segFrame c q i).IsProper := by
  rw [segFrame_eq c hc q i hq hi]
  exact isProper_fkF _ _ _ (fun s hs => hv s (List.mem_of_mem_take hs))

theorem potential_hasDeriv (c : Chain) (hc : c.WF) (hv : c.Valid) (g : Vec) (Q : ℝ → List ℝ) (qd : List ℝ) (t : ℝ)
    (hQ : ∀ s, (Q s).length = c.nrOfJoints) (hqd : qd.length = c.nrOfJoints)
    (hd : ∀ j, HasDerivAt (fun s => (Q s).getD j 0) (qd.getD j 0) t) :
    HasDerivAt (fun s => potentialEnergy c g (Q s))
      (∑ i ∈ range c.nrOfSegments, (segTwist c (Q t) qd i).dot
        (segInertia c i * (segFrame c (Q t) i).invTwist (-⟨g, 0⟩))) t := by
  unfold potentialEnergy
  rw [← neg_neg (∑ i ∈ range c.nrOfSegments, (segTwist c (Q t) qd i).dot _), ← sum_neg_distrib]
  refine HasDerivAt.neg (HasDerivAt.fun_sum fun i hi => ?_)
  have hi' : i < c.nrOfSegments := by simpa using hi
  obtain ⟨w, hw, e⟩ := segFrame_hasTwist c hc hv Q qd t hQ hqd hd i hi'
  have hP := segFrame_isProper c hc hv (Q t) i (hQ t) hi'
  have hPM : (segFrame c (Q t) i).M.IsProper := hP
  have h1 := (Vec.HasDeriv.smul (hasDerivAt_const t (segInertia c i).m) hw.vel).add
    (hw.rot.app (Vec.HasDeriv.const (segInertia c i).h))
  have h2 := (Vec.HasDeriv.const (t := t) g).dot h1
  refine h2.congr_deriv ?_
  rw [← C04_power_frame _ hP, grav_wrench _ hP, e]
  rw [Rot.invTwist_eq]
  simp only [Twist.dot, Frame.app_twist_vel, Frame.app_twist_rot, hPM.app_inv_app]
  generalize (segFrame c (Q t) i).M * (segInertia c i).h = h
  generalize (segInertia c i).m = m
  have n1 : (-(⟨m • g, (m • (segFrame c (Q t) i).p + h) * g⟩ : Wrench)).force = -(m • g) := rfl
  have n2 : (-(⟨m • g, (m • (segFrame c (Q t) i).p + h) * g⟩ : Wrench)).torque =
    -((m • (segFrame c (Q t) i).p + h) * g) := rfl
  rw [n1, n2]
  simp [Vec.dot, Rot.app_zero]
  ring

theorem Twist.dot_cross_self (v : Twist) (w : Wrench) : v.dot (v * w) = 0 := by
  show Vec.dot v.vel (v.rot * w.force) + Vec.dot v.rot (v.rot * w.torque + v.vel * w.force) = 0
  simp [Vec.dot]; ring

theorem Twist.hasDeriv_dot {v : ℝ → Twist} {w : ℝ → Wrench} {v' : Twist} {w' : Wrench} {t : ℝ}
    (hv : Twist.HasDeriv v v' t) (hw : Wrench.HasDeriv w w' t) :
    HasDerivAt (fun s => (v s).dot (w s)) (v'.dot (w t) + (v t).dot w') t := by
  have := (hv.vel.dot hw.force).add (hv.rot.dot hw.torque)
  refine this.congr_deriv ?_
  simp [Twist.dot, Vec.dot]; ring

/-- Gravity torques are the gradient of the potential energy: `d/dt U(q(t)) = Σ_k G_k q̇_k` for every curve `q`. -/
theorem C43_gravity_gradient (c : Chain) (hc : c.WF) (hv : c.Valid) (grav : Vec) (Q : ℝ → List ℝ) (qd : List ℝ) (t : ℝ)
    (G0 : List ℝ) (hQ : ∀ s, (Q s).length = c.nrOfJoints) (hqd : qd.length = c.nrOfJoints) (hG : G0.length = c.nrOfJoints)
    (hd : ∀ j, HasDerivAt (fun s => (Q s).getD j 0) (qd.getD j 0) t) :
    ∃ G, (DynState.new c grav).gravity c (Q t) G0 = some (E_NOERROR, G) ∧ G.length = c.nrOfJoints ∧
      HasDerivAt (fun s => potentialEnergy c grav (Q s)) (∑ k ∈ range c.nrOfJoints, qd.getD k 0 * G.getD k 0) t := by
  have hz : (List.replicate c.nrOfJoints (0:ℝ)).length = c.nrOfJoints := by simp
  have hw : (List.replicate c.nrOfSegments (0:Wrench)).length = c.nrOfSegments := by simp
  have hw' : (List.replicate c.nrOfSegments (0:Wrench)).length = c.segments.length := by simp [hc.1]
  have hrz : rd (List.replicate c.nrOfJoints (0:ℝ)) = fun _ => 0 := by
    funext i; simp only [rd, List.getD_eq_getElem?_getD, List.getElem?_replicate]; split_ifs <;> rfl
  have hl := rneF_length (rd (Q t)) (fun _ => 0) (fun _ => 0) c.segments (List.replicate c.nrOfSegments 0) 0 0 (-⟨grav, 0⟩) hw'
  have eG : (DynState.new c grav).gravity c (Q t) G0 = some (E_NOERROR, _) :=
    idRne_eq c hc grav (Q t) (List.replicate c.nrOfJoints 0) (List.replicate c.nrOfJoints 0)
      (List.replicate c.nrOfSegments 0) G0 (hQ t) hz hz hG hw
  rw [hrz] at eG
  refine ⟨_, eG, by rw [hl, hc.2], (potential_hasDeriv c hc hv grav Q qd t hQ hqd hd).congr_deriv ?_⟩
  have t1 := virtual_work (rd (Q t)) (fun _ => 0) (fun _ => 0) (rd qd) c.segments (List.replicate c.nrOfSegments 0) 0 0 0
    (-⟨grav, 0⟩) hv hw'
  rw [Twist.zero_dot, add_zero, wsum_eq_sum, hl, ← hc.2] at t1
  simp only [Nat.zero_add] at t1
  show _ = ∑ k ∈ range c.nrOfJoints, rd qd k * _
  rw [t1, lw_eq_sum _ _ _ _ _ _ _ _ _ _ hw', hc.1]
  refine sum_congr rfl fun i hi => ?_
  have hi' : i < c.segments.length := by simpa using hi
  have hi2 : i < c.nrOfSegments := by rw [hc.1]; exact hi'
  have hI : segInertia c i = c.segments[i].I := by simp [segInertia, hi']
  rw [List.getElem?_eq_getElem hi']
  simp only
  have ha := aP_add (rd (Q t)) (fun _ => 0) (fun _ => 0) (c.segments.take (i + 1)) 0 0 0 (-⟨grav, 0⟩)
    (fun s hs => hv s (List.mem_of_mem_take hs))
  have hu : ∀ (ss : List Segment) (j : ℕ), uP (rd (Q t)) (fun _ => 0) ss j 0 = 0 := by
    intro ss
    induction ss with
    | nil => intro j; rfl
    | cons s ss ih => intro j; unfold uP; rw [up_zero]; exact ih _
  have h0 : ∀ (ss : List Segment) (j : ℕ), aP (rd (Q t)) (fun _ => 0) (fun _ => 0) ss j 0 0 = 0 := by
    intro ss
    induction ss with
    | nil => intro j; rfl
    | cons s ss ih =>
      intro j; unfold aP; rw [up_zero, ap_zero_rate, Frame.invTwist_zero]; exact ih _
  rw [zero_add, h0, zero_add] at ha
  rw [ha, hu, segTwist_eq c hc hv _ _ i (hQ t) hqd hi2, segFrame_eq c hc _ i (hQ t) hi2, hI]
  have hq0 : ∀ j, qv c.segments[i] (fun _ => 0) j = 0 := fun j => by simp [qv]
  rw [hq0, mul_zero, mul_zero, add_zero]
  congr 1
  unfold fl
  have : (0 : Twist) * (c.segments[i].I * (0 : Twist)) = 0 := by
    show Wrench.mk _ _ = 0
    ext <;> simp
  rw [this, add_zero]
  have : (List.replicate c.nrOfSegments (0:Wrench)).getD i 0 = 0 := by
    simp only [List.getD_eq_getElem?_getD, List.getElem?_replicate]; split_ifs <;> rfl
  rw [hc.1] at this
  rw [this, sub_zero]

theorem rotor_hasDeriv (c : Chain) (Qd : ℝ → List ℝ) (qdd : List ℝ) (t : ℝ)
    (h2 : ∀ j, HasDerivAt (fun s => (Qd s).getD j 0) (qdd.getD j 0) t) :
    HasDerivAt (fun s => ∑ k ∈ range c.nrOfJoints, (Qd s).getD k 0 * (jntInertia c k * (Qd s).getD k 0))
      (2 * ∑ k ∈ range c.nrOfJoints, (Qd t).getD k 0 * (jntInertia c k * qdd.getD k 0)) t := by
  rw [mul_sum]
  refine HasDerivAt.fun_sum fun k _ => ?_
  exact ((h2 k).mul ((h2 k).const_mul (jntInertia c k))).congr_deriv (by ring)

/-- Power balance: along any trajectory the joint torques returned by inverse dynamics deliver, together with the external
wrenches, exactly the rate of change of kinetic plus potential energy. -/
theorem C43_power_balance (c : Chain) (hc : c.WF) (hv : c.Valid) (hI : c.SymmI) (grav : Vec) (Q Qd : ℝ → List ℝ)
    (qdd : List ℝ) (t : ℝ)
    (fext : List Wrench) (τ0 : List ℝ) (hQ : ∀ s, (Q s).length = c.nrOfJoints) (hQd : ∀ s, (Qd s).length = c.nrOfJoints)
    (hqdd : qdd.length = c.nrOfJoints) (hf : fext.length = c.nrOfSegments) (hτ : τ0.length = c.nrOfJoints)
    (h1 : ∀ j, HasDerivAt (fun s => (Q s).getD j 0) ((Qd t).getD j 0) t)
    (h2 : ∀ j, HasDerivAt (fun s => (Qd s).getD j 0) (qdd.getD j 0) t) :
    ∃ τ, idRne c c.nrOfJoints c.nrOfSegments grav (Q t) (Qd t) qdd fext τ0 = some (E_NOERROR, τ) ∧
      HasDerivAt (fun s => kineticEnergy c (Q s) (Qd s) + potentialEnergy c grav (Q s))
        ((∑ k ∈ range c.nrOfJoints, (Qd t).getD k 0 * τ.getD k 0) +
          ∑ i ∈ range c.nrOfSegments, (segTwist c (Q t) (Qd t) i).dot (fext.getD i 0)) t := by
  have hfl : fext.length = c.segments.length := by rw [hf, hc.1]
  have hl := rneF_length (rd (Q t)) (rd (Qd t)) (rd qdd) c.segments fext 0 0 (-⟨grav, 0⟩) hfl
  refine ⟨_, idRne_eq c hc grav (Q t) (Qd t) qdd fext τ0 (hQ t) (hQd t) hqdd hτ hf, ?_⟩
  have hU := potential_hasDeriv c hc hv grav Q (Qd t) t hQ (hQd t) h1
  have hK : HasDerivAt (fun s => kineticEnergy c (Q s) (Qd s))
      ((∑ i ∈ range c.nrOfSegments, (segTwist c (Q t) (Qd t) i).dot (segInertia c i *
        aP (rd (Q t)) (rd (Qd t)) (rd qdd) (c.segments.take (i + 1)) 0 0 0)) +
        ∑ k ∈ range c.nrOfJoints, (Qd t).getD k 0 * (jntInertia c k * qdd.getD k 0)) t := by
    unfold kineticEnergy energyForm
    have hS : HasDerivAt (fun s => ∑ i ∈ range c.nrOfSegments, (segTwist c (Q s) (Qd s) i).dot
        (segInertia c i * segTwist c (Q s) (Qd s) i)) (2 * ∑ i ∈ range c.nrOfSegments,
        (segTwist c (Q t) (Qd t) i).dot (segInertia c i *
        aP (rd (Q t)) (rd (Qd t)) (rd qdd) (c.segments.take (i + 1)) 0 0 0)) t := by
      rw [mul_sum]
      refine HasDerivAt.fun_sum fun i hi => ?_
      have hi2 : i < c.nrOfSegments := by simpa using hi
      have hi' : i < c.segments.length := by rw [← hc.1]; exact hi2
      have hder : Twist.HasDeriv (fun s => segTwist c (Q s) (Qd s) i)
          (aP (rd (Q t)) (rd (Qd t)) (rd qdd) (c.segments.take (i + 1)) 0 0 0) t := by
        have := uP_hasDeriv (Q := fun s => rd (Q s)) (Qd := fun s => rd (Qd s)) (qdd := rd qdd) (τ := t) h1 h2
          (c.segments.take (i + 1)) 0 (fun _ => 0) 0 (fun s hs => hv s (List.mem_of_mem_take hs)) (.const 0 t)
        refine cast ?_ this
        congr 1
        funext s
        rw [segTwist_eq c hc hv _ _ i (hQ s) (hQd s) hi2]
      refine (Twist.hasDeriv_dot hder (RBI.hasDeriv_mul (segInertia c i) hder)).congr_deriv ?_
      have hs : (segInertia c i).I.tr = (segInertia c i).I := by
        have : segInertia c i = c.segments[i].I := by simp [segInertia, hi']
        rw [this]; exact hI _ (List.getElem_mem hi')
      rw [RBI.dot_comm hs (aP _ _ _ _ _ _ _)]
      ring
    exact ((hS.add (rotor_hasDeriv c Qd qdd t h2)).div_const 2).congr_deriv (by ring)
  refine (hK.add hU).congr_deriv ?_
  have t1 := virtual_work (rd (Q t)) (rd (Qd t)) (rd qdd) (rd (Qd t)) c.segments fext 0 0 0 (-⟨grav, 0⟩) hv hfl
  rw [Twist.zero_dot, add_zero, wsum_eq_sum, hl, ← hc.2] at t1
  simp only [Nat.zero_add] at t1
  have t2 : ∑ k ∈ range c.nrOfJoints, (Qd t).getD k 0 * _ = _ := t1
  rw [t2, lw_eq_sum _ _ _ _ _ _ _ _ _ _ hfl]
  have hr := rotor_sum (rd (Qd t)) (rd qdd) c.segments 0
  simp only [Nat.zero_add] at hr ⊢
  rw [← hc.2] at hr
  have h3 : ∑ k ∈ range c.nrOfJoints, (Qd t).getD k 0 * (jntInertia c k * qdd.getD k 0) = _ := hr.symm
  rw [h3, hc.1, ← sum_add_distrib, ← sum_add_distrib, ← sum_add_distrib]
  refine sum_congr rfl fun i hi => ?_
  have hi' : i < c.segments.length := by simpa using hi
  have hi2 : i < c.nrOfSegments := by rw [hc.1]; exact hi'
  have hIe : segInertia c i = c.segments[i].I := by simp [segInertia, hi']
  rw [List.getElem?_eq_getElem hi']
  simp only
  have ha := aP_add (rd (Q t)) (rd (Qd t)) (rd qdd) (c.segments.take (i + 1)) 0 0 0 (-⟨grav, 0⟩)
    (fun s hs => hv s (List.mem_of_mem_take hs))
  rw [zero_add] at ha
  rw [ha, hIe, segTwist_eq c hc hv _ _ i (hQ t) (hQd t) hi2, segFrame_eq c hc _ i (hQ t) hi2]
  unfold fl
  rw [RBI.mul_add, Twist.dot_sub, Twist.dot_add, Twist.dot_add, Twist.dot_cross_self]
  ring

/-- The Coriolis and centrifugal torques do the work that changes the inertia matrix: with constant joint rates,
`d/dt ½ q̇ᵀH(q)q̇ = Σ_k q̇_k C_k` (the skew symmetry of `Ḣ − 2C`). -/
theorem C43_coriolis_power (c : Chain) (hc : c.WF) (hv : c.Valid) (hI : c.SymmI) (grav : Vec) (Q : ℝ → List ℝ)
    (qd : List ℝ) (t : ℝ) (C0 : List ℝ) (hQ : ∀ s, (Q s).length = c.nrOfJoints) (hqd : qd.length = c.nrOfJoints)
    (hC : C0.length = c.nrOfJoints) (h1 : ∀ j, HasDerivAt (fun s => (Q s).getD j 0) (qd.getD j 0) t) :
    ∃ C, (DynState.new c grav).coriolis c (Q t) qd C0 = some (E_NOERROR, C) ∧
      HasDerivAt (fun s => kineticEnergy c (Q s) qd) (∑ k ∈ range c.nrOfJoints, qd.getD k 0 * C.getD k 0) t := by
  have hz : ∀ j, (List.replicate c.nrOfJoints (0:ℝ)).getD j 0 = 0 := fun j => by
    simp only [List.getD_eq_getElem?_getD, List.getElem?_replicate]; split_ifs <;> rfl
  have hw : ∀ j, (List.replicate c.nrOfSegments (0:Wrench)).getD j 0 = 0 := fun j => by
    simp only [List.getD_eq_getElem?_getD, List.getElem?_replicate]; split_ifs <;> rfl
  obtain ⟨C, e, h⟩ := C43_power_balance c hc hv hI 0 Q (fun _ => qd) (List.replicate c.nrOfJoints 0) t
    (List.replicate c.nrOfSegments 0) C0 hQ (fun _ => hqd) (by simp) (by simp) hC h1
    (fun j => by rw [hz]; exact hasDerivAt_const _ _)
  refine ⟨C, e, ?_⟩
  have hp : ∀ s, potentialEnergy c 0 (Q s) = 0 := fun s => by
    unfold potentialEnergy
    rw [sum_eq_zero, neg_zero]
    intro i _; simp [Vec.dot]
  simp only [hp, add_zero, hw, Twist.dot_zero, sum_const_zero] at h
  exact h

end KDL
