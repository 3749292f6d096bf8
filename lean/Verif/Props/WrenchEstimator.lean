import Verif.Model.WrenchEstimator
import Verif.Lemmas.Recurrence
import Verif.Props.IkVel
import Verif.Props.HybridDynamics

/-!
# C46  The external wrench estimator

`ChainExternalWrenchEstimator` runs a momentum observer.  `extTorque` is what it is meant to observe: the torque that is
missing in the equation of motion, with the acceleration taken from two successive samples.
-/

noncomputable section
namespace KDL
open Matrix Finset Filter Topology

/-! ## Specification -/

/-- Generalised mass matrix at `q`: the matrix of the kinetic energy form. -/
def massAt (c : Chain) (q : List ℝ) (k l : ℕ) : ℝ := energyForm c q (unitJnt c.nrOfJoints k) (unitJnt c.nrOfJoints l)
/-- Torques that keep the robot at velocity `qd` without acceleration and without external forces. -/
def biasTorque (c : Chain) (grav : Vec) (q qd : List ℝ) (k : ℕ) : ℝ :=
  match idRne c c.nrOfJoints c.nrOfSegments grav q qd (List.replicate c.nrOfJoints 0) (List.replicate c.nrOfSegments 0)
    (List.replicate c.nrOfJoints 0) with
  | some (_, t) => t.getD k 0
  | none => 0
/-- External joint torque between two samples, `dt` apart: `M (q̇₁ - q̇₀)/dt` plus the bias torque, minus the motor torque. -/
def extTorque (c : Chain) (grav : Vec) (dt : ℝ) (q0 qd0 q1 qd1 τ1 : List ℝ) (k : ℕ) : ℝ :=
  (∑ l ∈ range c.nrOfJoints, massAt c q0 k l * (qd1.getD l 0 - qd0.getD l 0)) / dt + biasTorque c grav q1 qd1 k - τ1.getD k 0
/-- The transposed Jacobian of the last segment, in its own frame: row `k` is its twist when joint `k` moves at unit rate. -/
def tipJac (c : Chain) (q : List ℝ) : Matrix (Fin c.nrOfJoints) (Fin 6) ℝ :=
  of fun k r => (segTwist c q (unitJnt c.nrOfJoints k) (c.nrOfSegments - 1)).comp r
/-- Components of a wrench. -/
def Wrench.comp (w : Wrench) : Fin 6 → ℝ := ![w.force.x, w.force.y, w.force.z, w.torque.x, w.torque.y, w.torque.z]

namespace EstState

/-- The state fits the chain. -/
structure Ok (s : EstState) (c : Chain) (grav : Vec) (K : ℝ) : Prop where
  nj : s.nj = c.nrOfJoints
  ns : s.ns = c.nrOfSegments
  mass : s.mass.n = c.nrOfJoints
  prev : s.prev.n = c.nrOfJoints
  p0 : s.p0.length = c.nrOfJoints
  integral : s.integral.length = c.nrOfJoints
  filtered : s.filtered.length = c.nrOfJoints
  gain : s.gain = List.replicate c.nrOfJoints K
  dyn : s.dyn = .new c grav
  locked : s.locked = c.nrOfJoints

/-- The constants of a state. -/
def SameConsts (s s' : EstState) : Prop := s'.freq = s.freq ∧ s'.filter = s.filter ∧ s'.eps = s.eps

/-- The estimate before the low-pass filter, after a call with velocity `qd`. -/
def estimate (s : EstState) (qd : List ℝ) (k : ℕ) : ℝ :=
  s.gain.getD k 0 * ((mulVec s.prev qd).getD k 0 - s.integral.getD k 0 - s.p0.getD k 0)

/-- The state after a call. -/
def Result.state : Result → Option EstState
  | .err _ s => some s
  | .nonfinite => none
  | .ok _ s => some s

end EstState

/-! ## auxiliary -/

theorem Twist.dot_eq_comp (t : Twist) (w : Wrench) : t.dot w = ∑ r, t.comp r * w.comp r := by
  simp only [Fin.sum_univ_six, Twist.dot, Vec.dot, Twist.comp, Wrench.comp]
  simp
  ring
theorem Wrench.comp_ofComp (w : Fin 6 → ℝ) : (Wrench.ofComp w).comp = w := by
  funext r; fin_cases r <;> rfl
theorem tipJac_mulVec (c : Chain) (q : List ℝ) (w : Wrench) (k : Fin c.nrOfJoints) :
    (tipJac c q *ᵥ w.comp) k = (segTwist c q (unitJnt c.nrOfJoints k) (c.nrOfSegments - 1)).dot w := by
  rw [Twist.dot_eq_comp]; rfl

theorem getD_map_range (n : ℕ) (f : ℕ → ℝ) (k : ℕ) (hk : k < n) : ((List.range n).map f).getD k 0 = f k := by
  simp [List.getD_eq_getElem?_getD, hk]

theorem mulVec_getD (H : JMat) (v : List ℝ) (k : ℕ) (hk : k < H.n) :
    (EstState.mulVec H v).getD k 0 = ∑ l ∈ range H.n, H.d k l * v.getD l 0 := by
  unfold EstState.mulVec; rw [getD_map_range _ _ _ hk]

/-- The Jacobian that the estimator decomposes. -/
theorem est_jac (c : Chain) (hc : c.WF) (q : List ℝ) (hq : q.length = c.nrOfJoints) :
    ∃ (F : Frame) (J : Jac), fkPos c q (-1) = some (E_NOERROR, F) ∧
      jntToJac c (List.replicate c.nrOfJoints false) q (Jac.zeros c.nrOfJoints) (-1) = some (E_NOERROR, J) ∧
      (jacMat c.nrOfJoints (J.changeBase F.M.inv))ᵀ = tipJac c q := by
  have hk : segmentNr c (-1) ≤ c.nrOfSegments := by simp [segmentNr]
  have hfk : fkPos c q (-1) = some (E_NOERROR, fkSpec c q (segmentNr c (-1))) := by
    rw [C25_fk c hc, if_neg (by simp [hq]), if_neg (by omega)]
  obtain ⟨J, hJ1, hJ2⟩ := jac_ok c hc q hq (Jac.zeros c.nrOfJoints) (by simp [Jac.zeros])
  refine ⟨_, J, hfk, hJ2, ?_⟩
  ext k r
  have hns : 0 < c.nrOfSegments := by
    rcases Nat.eq_zero_or_pos c.nrOfSegments with h | h
    · have h1 := hc.1; have h2 := hc.2
      rw [h] at h1
      have : c.segments = [] := List.length_eq_zero_iff.mp h1.symm
      rw [this] at h2
      have h3 := k.2
      simp [nMoving] at h2
      omega
    · exact h
  obtain ⟨J', v, e1, _, e2, e3⟩ := C27_jac c hc q (unitJnt c.nrOfJoints k) (Jac.zeros c.nrOfJoints) (-1) hq
    (unitJnt_length _ _) (by simp [Jac.zeros]) hk
  rw [hJ2] at e1
  have : J' = J := by simpa using e1.symm
  subst this
  have hof : List.ofFn (Pi.single k 1 : Fin c.nrOfJoints → ℝ) = unitJnt c.nrOfJoints k := by
    refine List.ext_getElem (by simp [unitJnt]) fun i h1 h2 => ?_
    simp only [List.getElem_ofFn, unitJnt, List.getElem_map, List.getElem_range, Pi.single_apply, Fin.ext_iff]
  have hcol : ∀ r, (J'.getD k 0).comp r = v.getTwist.comp r := fun r => by
    rw [← hof] at e3
    have := mulVec_multiplyJacobian J' _ hJ1 _ _ e3 r
    rw [Matrix.mulVec_single_one] at this
    exact this
  have hcolT : J'.getD k 0 = v.getTwist := by
    ext
    · exact hcol 0
    · exact hcol 1
    · exact hcol 2
    · exact hcol 3
    · exact hcol 4
    · exact hcol 5
  have hfr : v.getFrame = fkSpec c q (segmentNr c (-1)) := by
    have hb : nMoving (c.segments.take (segmentNr c (-1))) ≤ c.nrOfJoints := by rw [hc.2]; exact nMoving_take_le _ _
    unfold fkVel at e2
    rw [if_neg (by simp [hq, unitJnt_length])] at e2
    rw [if_neg (by omega), fkVelLoop_eq _ _ _ _ _ (by omega) (by rw [unitJnt_length]; omega)] at e2
    simp only [Option.bind_eq_bind, Option.bind_some, Option.some.injEq, Prod.mk.injEq, true_and] at e2
    rw [← e2, (fkVelF_twist _ _ _ _ _).1, fkF_eq_spec c q _ (by rw [← hc.1]; exact hk)]
    have : (FrameVel.ofFrame 1).getFrame = 1 := rfl
    rw [this, one_mul]
  have hseg : fkVel c q (unitJnt c.nrOfJoints k) ((c.nrOfSegments - 1 + 1 : ℕ) : ℤ) = some (E_NOERROR, v) := by
    rw [← e2]
    have h1 : segmentNr c ((c.nrOfSegments - 1 + 1 : ℕ) : ℤ) = segmentNr c (-1) := by
      rw [segmentNr_ofNat]; simp only [segmentNr]; simp; omega
    unfold fkVel; rw [h1]
  have hs : segTwist c q (unitJnt c.nrOfJoints k) (c.nrOfSegments - 1) = v.getFrame.M.invTwist v.getTwist := by
    unfold segTwist; rw [hseg]
  show (jacMat _ _) r k = _
  have e5 : (J'.changeBase (fkSpec c q (segmentNr c (-1))).M.inv).getD k 0 = v.getFrame.M.invTwist v.getTwist := by
    have hk2 : (k : ℕ) < J'.length := by rw [hJ1]; exact k.2
    have : J'[(k : ℕ)] = v.getTwist := by rw [← hcolT, List.getD_eq_getElem?_getD]; simp [hk2]
    rw [List.getD_eq_getElem?_getD]
    simp only [Jac.changeBase, List.getElem?_map, hk2, getElem?_pos, Option.map_some, Option.getD_some, this, hfr]
    ext <;> simp [Rot.invTwist, Rot.invVec]
  show ((J'.changeBase (fkSpec c q (segmentNr c (-1))).M.inv).getD k 0).comp r = _
  rw [e5, ← hs]; rfl

open Classical in
/-- What a call does, once its arguments have passed the checks. -/
theorem est_call (c : Chain) (hc : c.WF) (hv : c.Valid) (hI : c.SymmI) (grav : Vec) (K : ℝ) (s : EstState) (hs : s.Ok c grav K)
    (hf : s.freq ≠ 0) (svd : (n : ℕ) → Matrix (Fin n) (Fin 6) ℝ → SvdOut n 6) (q qd τ : List ℝ)
    (hq : q.length = c.nrOfJoints) (hqd : qd.length = c.nrOfJoints) (hτ : τ.length = c.nrOfJoints) :
    ∃ (M : JMat) (C G : List ℝ), M.n = c.nrOfJoints ∧ (∀ k < c.nrOfJoints, ∀ l < c.nrOfJoints, M.d k l = massAt c q k l) ∧
      (∀ k < c.nrOfJoints, C.getD k 0 + G.getD k 0 = biasTorque c grav q qd k) ∧
      let s' := s.observe M C G qd τ
      let r := svd c.nrOfJoints (tipJac c q)
      s.jntToExtWrench c svd q qd τ = some (if r.code ≠ E_NOERROR then .err E_SVD_FAILED s'
        else if ∃ i, ¬ |r.S i| < s.eps ∧ r.S i = 0 then .nonfinite
        else .ok (.ofComp ((r.V * diagonal (invS r.S s.eps) * r.Uᵀ) *ᵥ fun k => s'.filtered.getD k 0)) s') := by
  obtain ⟨τ', H, C, G, e1, e2, e3, e4, _, h2, h3, h4, h5⟩ := C39_decomposition c hc hv hI grav q qd
    (List.replicate c.nrOfJoints 0) (List.replicate c.nrOfSegments 0) (List.replicate c.nrOfJoints 0)
    (List.replicate c.nrOfJoints 0) (List.replicate c.nrOfJoints 0) s.mass hq hqd (by simp) (by simp) (by simp) (by simp)
    (by simp) hs.mass
  refine ⟨H, C, G, h4, fun k hk l hl => C40_entries c hc hv hI q hq grav _ H hs.mass e2 k l hk hl, fun k hk => ?_, ?_⟩
  · have := h5 k hk
    unfold biasTorque
    rw [e1]
    simp only
    rw [this]
    have z1 : ∀ l, (List.replicate c.nrOfJoints (0 : ℝ)).getD l 0 = 0 := fun l => congrFun (rd_zero c.nrOfJoints) l
    have z2 : ∀ l, (List.replicate c.nrOfSegments (0 : Wrench)).getD l 0 = 0 := fun l => by
      simp only [List.getD_eq_getElem?_getD, List.getElem?_replicate]
      split_ifs <;> rfl
    simp [z1, z2, Twist.dot_zero]
  · intro s' r
    obtain ⟨F, J, f1, f2, f3⟩ := est_jac c hc q hq
    unfold EstState.jntToExtWrench
    rw [if_neg (by simp [hs.nj, hs.ns]), if_neg (by simp [hs.nj, hq, hqd, hτ]), hs.dyn, e2]
    simp only [Option.bind_eq_bind, Option.bind_some]
    rw [if_neg (by simp), hs.nj, e3]
    simp only [Option.bind_eq_bind, Option.bind_some]
    rw [if_neg (by simp), e4]
    simp only [Option.bind_eq_bind, Option.bind_some]
    rw [if_neg (by simp), if_neg hf, f1]
    simp only [Option.bind_eq_bind, Option.bind_some]
    rw [if_neg (by simp), hs.locked, f2]
    simp only [Option.bind_eq_bind, Option.bind_some]
    rw [if_neg (by simp), f3]
    split_ifs <;> rfl

/-- The recursion of the observer. -/
theorem observe_spec (c : Chain) (grav : Vec) (K : ℝ) (s : EstState) (hs : s.Ok c grav K) (hf : s.freq ≠ 0) (M : JMat)
    (C G q qd qd0 τ : List ℝ) (hM : M.n = c.nrOfJoints)
    (hCG : ∀ k < c.nrOfJoints, C.getD k 0 + G.getD k 0 = biasTorque c grav q qd k) :
    let s' := s.observe M C G qd τ
    s'.Ok c grav K ∧ s.SameConsts s' ∧ s'.prev = M ∧ ∀ k < c.nrOfJoints,
      s'.filtered.getD k 0 = s.filter * s.filtered.getD k 0 + (1 - s.filter) * s'.estimate qd k ∧
      s'.estimate qd k = s.estimate qd0 k + K / s.freq * ((∑ l ∈ range c.nrOfJoints, s.prev.d k l * (qd.getD l 0 - qd0.getD l 0)) /
        (1 / s.freq) + biasTorque c grav q qd k - τ.getD k 0 - s.filtered.getD k 0) := by
  intro s'
  refine ⟨⟨hs.nj, hs.ns, hM, hM, hs.p0, ?_, ?_, hs.gain, hs.dyn, hs.locked⟩, ⟨rfl, rfl, rfl⟩, rfl, fun k hk => ⟨?_, ?_⟩⟩
  · simp [s', EstState.observe, hs.nj]
  · simp [s', EstState.observe, hs.nj]
  · have hk' : k < s.nj := by rw [hs.nj]; exact hk
    simp only [s', EstState.observe, EstState.estimate]
    rw [getD_map_range _ _ _ hk', getD_map_range _ _ _ hk']
  · have hk' : k < s.nj := by rw [hs.nj]; exact hk
    simp only [s', EstState.observe, EstState.estimate]
    rw [getD_map_range _ _ _ hk', getD_map_range _ _ _ hk', mulVec_getD _ _ _ (by rw [hM]; exact hk),
      mulVec_getD _ _ _ (by exact hk'), mulVec_getD _ _ _ (by rw [hs.prev]; exact hk), ← hCG k hk, hs.gain]
    have hg : (List.replicate c.nrOfJoints K).getD k 0 = K := by simp [List.getD_eq_getElem?_getD, hk]
    simp only [hg, hM, hs.prev, hs.nj]
    have e1 : ∑ l ∈ range c.nrOfJoints, (M.d k l - s.prev.d k l) / (1 / s.freq) * qd.getD l 0 =
        (∑ l ∈ range c.nrOfJoints, M.d k l * qd.getD l 0 - ∑ l ∈ range c.nrOfJoints, s.prev.d k l * qd.getD l 0) * s.freq := by
      rw [← sum_sub_distrib, sum_mul]
      refine sum_congr rfl fun l _ => ?_
      field_simp
    have e2 : ∑ l ∈ range c.nrOfJoints, s.prev.d k l * (qd.getD l 0 - qd0.getD l 0) =
        ∑ l ∈ range c.nrOfJoints, s.prev.d k l * qd.getD l 0 - ∑ l ∈ range c.nrOfJoints, s.prev.d k l * qd0.getD l 0 := by
      rw [← sum_sub_distrib]
      exact sum_congr rfl fun l _ => by ring
    rw [e1, e2]
    field_simp
    ring

theorem rd_replicate (n : ℕ) (x : ℝ) (k : ℕ) (hk : k < n) : (List.replicate n x).getD k 0 = x := by
  simp [List.getD_eq_getElem?_getD, hk]

/-! ## C46 -/

/-- A new estimator fits the chain, and its estimate is zero at rest. -/
theorem C46_new (c : Chain) (grav : Vec) (freq K filter eps : ℝ) :
    (EstState.new c grav freq K filter eps).Ok c grav K ∧
    ∀ k < c.nrOfJoints, (EstState.new c grav freq K filter eps).filtered.getD k 0 = 0 ∧
      ∀ qd, (EstState.new c grav freq K filter eps).estimate qd k = 0 := by
  refine ⟨⟨rfl, rfl, rfl, rfl, by simp [EstState.new], by simp [EstState.new], by simp [EstState.new], rfl, rfl, rfl⟩,
    fun k hk => ⟨rd_replicate _ _ _ hk, fun qd => ?_⟩⟩
  unfold EstState.estimate
  rw [mulVec_getD _ _ _ hk]
  simp only [EstState.new, JMat.zero, rd_replicate _ _ _ hk]
  simp

/-- `setInitialMomentum` succeeds, keeps the state consistent and clears the filter. -/
theorem C46_setInitialMomentum (c : Chain) (hc : c.WF) (hv : c.Valid) (hI : c.SymmI) (grav : Vec) (K : ℝ) (s : EstState)
    (hs : s.Ok c grav K) (q qd : List ℝ) (hq : q.length = c.nrOfJoints) (hqd : qd.length = c.nrOfJoints) :
    ∃ s', s.setInitialMomentum c q qd = some (E_NOERROR, s') ∧ s'.Ok c grav K ∧ s.SameConsts s' ∧ s'.prev = s.prev ∧
      ∀ k < c.nrOfJoints, s'.filtered.getD k 0 = 0 ∧ s'.integral.getD k 0 = 0 ∧
        s'.p0.getD k 0 = ∑ l ∈ range c.nrOfJoints, massAt c q k l * qd.getD l 0 := by
  obtain ⟨H, e1, e2, e3⟩ := jntToMass_eq c hc hv hI q s.mass hq hs.mass
  have em : s.dyn.mass c q s.mass = some (E_NOERROR, H) := by rw [hs.dyn]; exact e1
  have em' : (DynState.new c grav).mass c q s.mass = some (E_NOERROR, H) := by rw [← hs.dyn]; exact em
  unfold EstState.setInitialMomentum
  rw [if_neg (by simp [hs.nj, hq, hqd]), em]
  simp only [Option.bind_eq_bind, Option.bind_some]
  rw [if_neg (by simp)]
  refine ⟨_, rfl, ⟨hs.nj, hs.ns, e2, hs.prev, ?_, ?_, ?_, hs.gain, hs.dyn, hs.locked⟩, ⟨rfl, rfl, rfl⟩, rfl, fun k hk => ⟨?_, ?_, ?_⟩⟩
  · simp [EstState.mulVec, e2]
  · simp [hs.nj]
  · simp [hs.nj]
  · simp only [hs.nj]; exact rd_replicate _ _ _ hk
  · simp only [hs.nj]; exact rd_replicate _ _ _ hk
  · simp only
    rw [mulVec_getD _ _ _ (by rw [e2]; exact hk), e2]
    exact sum_congr rfl fun l hl => by
      rw [C40_entries c hc hv hI q hq grav _ H hs.mass em' k l hk (mem_range.mp hl)]; rfl

/-- One sample.  If the last sample was `(q0, qd0)`, so that the stored inertia matrix is the one at `q0`, the estimate moves
towards the external torque by the fraction `K·dt`, and the output is the low-pass filtered estimate. -/
theorem C46_step (c : Chain) (hc : c.WF) (hv : c.Valid) (hI : c.SymmI) (grav : Vec) (K : ℝ) (s s' : EstState)
    (hs : s.Ok c grav K) (hf : s.freq ≠ 0) (svd : (n : ℕ) → Matrix (Fin n) (Fin 6) ℝ → SvdOut n 6) (q0 qd0 q qd τ : List ℝ)
    (hprev : ∀ k < c.nrOfJoints, ∀ l < c.nrOfJoints, s.prev.d k l = massAt c q0 k l)
    (hq : q.length = c.nrOfJoints) (hqd : qd.length = c.nrOfJoints) (hτ : τ.length = c.nrOfJoints) (r : EstState.Result)
    (hr : s.jntToExtWrench c svd q qd τ = some r) (hs' : r.state = some s') :
    s'.Ok c grav K ∧ s.SameConsts s' ∧ (∀ k < c.nrOfJoints, ∀ l < c.nrOfJoints, s'.prev.d k l = massAt c q k l) ∧
    ∀ k < c.nrOfJoints,
      s'.filtered.getD k 0 = s.filter * s.filtered.getD k 0 + (1 - s.filter) * s'.estimate qd k ∧
      s'.estimate qd k = s.estimate qd0 k +
        K / s.freq * (extTorque c grav (1 / s.freq) q0 qd0 q qd τ k - s.filtered.getD k 0) := by
  obtain ⟨M, C, G, h1, h2, h3, h4⟩ := est_call c hc hv hI grav K s hs hf svd q qd τ hq hqd hτ
  simp only at h4
  rw [h4, Option.some.injEq] at hr
  have es : s' = s.observe M C G qd τ := by
    rw [← hr] at hs'
    split_ifs at hs' <;> simp only [EstState.Result.state, Option.some.injEq, reduceCtorEq] at hs' <;> exact hs'.symm
  obtain ⟨o1, o2, o3, o4⟩ := observe_spec c grav K s hs hf M C G q qd qd0 τ h1 h3
  rw [← es] at o1 o2 o3 o4
  refine ⟨o1, o2, fun k hk l hl => by rw [o3]; exact h2 k hk l hl, fun k hk => ⟨(o4 k hk).1, ?_⟩⟩
  rw [(o4 k hk).2]
  unfold extTorque
  have : ∑ l ∈ range c.nrOfJoints, s.prev.d k l * (qd.getD l 0 - qd0.getD l 0) =
      ∑ l ∈ range c.nrOfJoints, massAt c q0 k l * (qd.getD l 0 - qd0.getD l 0) :=
    sum_congr rfl fun l hl => by rw [hprev k hk l (mem_range.mp hl)]
  rw [this]

/-- A call with arguments of the right sizes gives a result; it leaves the estimator without a usable state only if a
vanishing singular value is inverted, which takes a threshold `eps ≤ 0`. -/
theorem C46_total (c : Chain) (hc : c.WF) (hv : c.Valid) (hI : c.SymmI) (grav : Vec) (K : ℝ) (s : EstState)
    (hs : s.Ok c grav K) (hf : s.freq ≠ 0) (he : 0 < s.eps) (svd : (n : ℕ) → Matrix (Fin n) (Fin 6) ℝ → SvdOut n 6)
    (q qd τ : List ℝ) (hq : q.length = c.nrOfJoints) (hqd : qd.length = c.nrOfJoints) (hτ : τ.length = c.nrOfJoints) :
    ∃ r s', s.jntToExtWrench c svd q qd τ = some r ∧ r.state = some s' := by
  obtain ⟨M, C, G, h1, h2, h3, h4⟩ := est_call c hc hv hI grav K s hs hf svd q qd τ hq hqd hτ
  refine ⟨_, s.observe M C G qd τ, h4, ?_⟩
  rw [if_neg (c := ∃ i, _) (by rintro ⟨i, hi, h0⟩; rw [h0, abs_zero] at hi; exact hi he)]
  split_ifs <;> rfl

/-- A run: `s k` is the state after the `k`-th sample. -/
def EstRun (c : Chain) (svd : (n : ℕ) → Matrix (Fin n) (Fin 6) ℝ → SvdOut n 6) (q qd τ : ℕ → List ℝ) (s : ℕ → EstState)
    (r : ℕ → EstState.Result) : Prop :=
  ∀ k, (s k).jntToExtWrench c svd (q (k + 1)) (qd (k + 1)) (τ (k + 1)) = some (r (k + 1)) ∧ (r (k + 1)).state = some (s (k + 1))

theorem est_run (c : Chain) (hc : c.WF) (hv : c.Valid) (hI : c.SymmI) (grav : Vec) (K : ℝ)
    (svd : (n : ℕ) → Matrix (Fin n) (Fin 6) ℝ → SvdOut n 6) (q qd τ : ℕ → List ℝ) (s : ℕ → EstState) (r : ℕ → EstState.Result)
    (hs : (s 0).Ok c grav K) (hf : (s 0).freq ≠ 0)
    (hprev : ∀ k < c.nrOfJoints, ∀ l < c.nrOfJoints, (s 0).prev.d k l = massAt c (q 0) k l)
    (hq : ∀ k, (q k).length = c.nrOfJoints) (hqd : ∀ k, (qd k).length = c.nrOfJoints) (hτ : ∀ k, (τ k).length = c.nrOfJoints)
    (hrun : EstRun c svd q qd τ s r) (k : ℕ) :
    (s k).Ok c grav K ∧ (s 0).SameConsts (s k) ∧
      ∀ i < c.nrOfJoints, ∀ l < c.nrOfJoints, (s k).prev.d i l = massAt c (q k) i l := by
  induction k with
  | zero => exact ⟨hs, ⟨rfl, rfl, rfl⟩, hprev⟩
  | succ k ih =>
    obtain ⟨h1, h2, h3⟩ := ih
    obtain ⟨g1, g2, g3, _⟩ := C46_step c hc hv hI grav K (s k) (s (k + 1)) h1 (by rw [h2.1]; exact hf) svd (q k) (qd k) _ _ _ h3
      (hq _) (hqd _) (hτ _) _ (hrun k).1 (hrun k).2
    exact ⟨g1, ⟨g2.1.trans h2.1, g2.2.1.trans h2.2.1, g2.2.2.trans h2.2.2⟩, g3⟩

/-- The recursion of a whole run. -/
theorem C46_recursion (c : Chain) (hc : c.WF) (hv : c.Valid) (hI : c.SymmI) (grav : Vec) (K : ℝ)
    (svd : (n : ℕ) → Matrix (Fin n) (Fin 6) ℝ → SvdOut n 6) (q qd τ : ℕ → List ℝ) (s : ℕ → EstState) (r : ℕ → EstState.Result)
    (hs : (s 0).Ok c grav K) (hf : (s 0).freq ≠ 0)
    (hprev : ∀ k < c.nrOfJoints, ∀ l < c.nrOfJoints, (s 0).prev.d k l = massAt c (q 0) k l)
    (hq : ∀ k, (q k).length = c.nrOfJoints) (hqd : ∀ k, (qd k).length = c.nrOfJoints) (hτ : ∀ k, (τ k).length = c.nrOfJoints)
    (hrun : EstRun c svd q qd τ s r) (k j : ℕ) (hj : j < c.nrOfJoints) :
    (s (k + 1)).estimate (qd (k + 1)) j = (s k).estimate (qd k) j + K / (s 0).freq *
      (extTorque c grav (1 / (s 0).freq) (q k) (qd k) (q (k + 1)) (qd (k + 1)) (τ (k + 1)) j - (s k).filtered.getD j 0) ∧
    (s (k + 1)).filtered.getD j 0 =
      (s 0).filter * (s k).filtered.getD j 0 + (1 - (s 0).filter) * (s (k + 1)).estimate (qd (k + 1)) j := by
  obtain ⟨h1, h2, h3⟩ := est_run c hc hv hI grav K svd q qd τ s r hs hf hprev hq hqd hτ hrun k
  obtain ⟨_, _, _, g⟩ := C46_step c hc hv hI grav K (s k) (s (k + 1)) h1 (by rw [h2.1]; exact hf) svd (q k) (qd k) _ _ _ h3
    (hq _) (hqd _) (hτ _) _ (hrun k).1 (hrun k).2
  obtain ⟨g1, g2⟩ := g j hj
  rw [h2.1] at g2
  rw [h2.2.1] at g1
  exact ⟨g2, g1⟩

/-- The first call stores the inertia matrix, whatever was stored before. -/
theorem est_first (c : Chain) (hc : c.WF) (hv : c.Valid) (hI : c.SymmI) (grav : Vec) (K : ℝ) (s s' : EstState)
    (hs : s.Ok c grav K) (hf : s.freq ≠ 0) (svd : (n : ℕ) → Matrix (Fin n) (Fin 6) ℝ → SvdOut n 6) (q qd τ : List ℝ)
    (hq : q.length = c.nrOfJoints) (hqd : qd.length = c.nrOfJoints) (hτ : τ.length = c.nrOfJoints) (r : EstState.Result)
    (hr : s.jntToExtWrench c svd q qd τ = some r) (hs' : r.state = some s') :
    s'.Ok c grav K ∧ s.SameConsts s' ∧ ∀ k < c.nrOfJoints, ∀ l < c.nrOfJoints, s'.prev.d k l = massAt c q k l := by
  obtain ⟨M, C, G, h1, h2, h3, h4⟩ := est_call c hc hv hI grav K s hs hf svd q qd τ hq hqd hτ
  simp only at h4
  rw [h4, Option.some.injEq] at hr
  have es : s' = s.observe M C G qd τ := by
    rw [← hr] at hs'
    split_ifs at hs' <;> simp only [EstState.Result.state, Option.some.injEq, reduceCtorEq] at hs' <;> exact hs'.symm
  obtain ⟨o1, o2, o3, _⟩ := observe_spec c grav K s hs hf M C G q qd qd τ h1 h3
  rw [← es] at o1 o2 o3
  exact ⟨o1, o2, fun k hk l hl => by rw [o3]; exact h2 k hk l hl⟩

/-- The estimated torque of a joint converges to the external torque if that stays constant, for any gain below the stability
limit `K·dt < 2(1+c)/(1-c)` of the loop with filter constant `c`, from every initial state that fits the chain. -/
theorem C46_converges (c : Chain) (hc : c.WF) (hv : c.Valid) (hI : c.SymmI) (grav : Vec) (K : ℝ)
    (svd : (n : ℕ) → Matrix (Fin n) (Fin 6) ℝ → SvdOut n 6) (q qd τ : ℕ → List ℝ) (s : ℕ → EstState) (r : ℕ → EstState.Result)
    (hs : (s 0).Ok c grav K) (hf : (s 0).freq ≠ 0)
    (hq : ∀ k, (q k).length = c.nrOfJoints) (hqd : ∀ k, (qd k).length = c.nrOfJoints) (hτ : ∀ k, (τ k).length = c.nrOfJoints)
    (hrun : EstRun c svd q qd τ s r) (j : ℕ) (hj : j < c.nrOfJoints) (t : ℝ)
    (ht : ∀ k ≥ 1, extTorque c grav (1 / (s 0).freq) (q k) (qd k) (q (k + 1)) (qd (k + 1)) (τ (k + 1)) j = t)
    (hc1 : |(s 0).filter| < 1) (ha : 0 < K / (s 0).freq)
    (hst : (1 - (s 0).filter) * (K / (s 0).freq) < 2 * (1 + (s 0).filter)) :
    Tendsto (fun k => (s k).filtered.getD j 0) atTop (𝓝 t) := by
  obtain ⟨a1, a2, a3⟩ := est_first c hc hv hI grav K (s 0) (s 1) hs hf svd _ _ _ (hq _) (hqd _) (hτ _) _ (hrun 0).1 (hrun 0).2
  obtain ⟨f1, f2, f3⟩ := a2
  have hrun' : EstRun c svd (fun k => q (k + 1)) (fun k => qd (k + 1)) (fun k => τ (k + 1)) (fun k => s (k + 1))
      (fun k => r (k + 1)) := fun k => hrun (k + 1)
  have hrec := fun k => C46_recursion c hc hv hI grav K svd _ _ _ _ _ a1 (by rw [f1]; exact hf) a3 (fun _ => hq _)
    (fun _ => hqd _) (fun _ => hτ _) hrun' k j hj
  simp only [zero_add, f1, f2] at hrec
  refine (tendsto_add_atTop_iff_nat 1).mp ?_
  refine tendsto_observer (fun k => (s (k + 1)).estimate (qd (k + 1)) j) _ (K / (s 0).freq) (s 0).filter t hc1 ha hst
    (fun k => ?_) fun k => ?_
  · rw [← ht (k + 1) (by omega)]
    exact (hrec k).1
  · exact (hrec k).2

/-- Without the filter the error shrinks by the factor `1 - K·dt` with every sample. -/
theorem C46_rate (c : Chain) (hc : c.WF) (hv : c.Valid) (hI : c.SymmI) (grav : Vec) (K : ℝ)
    (svd : (n : ℕ) → Matrix (Fin n) (Fin 6) ℝ → SvdOut n 6) (q qd τ : ℕ → List ℝ) (s : ℕ → EstState) (r : ℕ → EstState.Result)
    (hs : (s 0).Ok c grav K) (hf : (s 0).freq ≠ 0)
    (hprev : ∀ k < c.nrOfJoints, ∀ l < c.nrOfJoints, (s 0).prev.d k l = massAt c (q 0) k l)
    (hq : ∀ k, (q k).length = c.nrOfJoints) (hqd : ∀ k, (qd k).length = c.nrOfJoints) (hτ : ∀ k, (τ k).length = c.nrOfJoints)
    (hrun : EstRun c svd q qd τ s r) (j : ℕ) (hj : j < c.nrOfJoints) (t : ℝ)
    (ht : ∀ k, extTorque c grav (1 / (s 0).freq) (q k) (qd k) (q (k + 1)) (qd (k + 1)) (τ (k + 1)) j = t)
    (hc0 : (s 0).filter = 0) (k : ℕ) :
    (s (k + 1)).filtered.getD j 0 - t = (1 - K / (s 0).freq) ^ k * ((s 1).filtered.getD j 0 - t) := by
  have hrec := fun k => C46_recursion c hc hv hI grav K svd q qd τ s r hs hf hprev hq hqd hτ hrun k j hj
  induction k with
  | zero => simp
  | succ k ih =>
    obtain ⟨a1, a2⟩ := hrec (k + 1)
    obtain ⟨b1, b2⟩ := hrec k
    rw [hc0] at a2 b2
    rw [ht (k + 1)] at a1
    rw [a2, a1, pow_succ]
    linear_combination (1 - K / (s 0).freq) * ih + (-1) * b2

/-- The wrench: the minimum-norm least-squares solution of `Jᵀ w = estimated torque`, with the singular values below the
threshold set to zero; `J` is the Jacobian of the last segment in its own frame. -/
theorem C46_wrench (c : Chain) (hc : c.WF) (hv : c.Valid) (hI : c.SymmI) (grav : Vec) (K : ℝ) (s s' : EstState)
    (hs : s.Ok c grav K) (he : 0 < s.eps) (svd : (n : ℕ) → Matrix (Fin n) (Fin 6) ℝ → SvdOut n 6) (q qd τ : List ℝ)
    (hsvd : IsSvd (tipJac c q) (svd c.nrOfJoints (tipJac c q)))
    (hq : q.length = c.nrOfJoints) (hqd : qd.length = c.nrOfJoints) (hτ : τ.length = c.nrOfJoints) (w : Wrench)
    (hr : s.jntToExtWrench c svd q qd τ = some (.ok w s')) :
    MinNormLsq (truncMat (svd c.nrOfJoints (tipJac c q)) s.eps) (fun k => s'.filtered.getD k 0) w.comp ∧
    ((∀ i, (svd c.nrOfJoints (tipJac c q)).S i = 0 ∨ s.eps ≤ (svd c.nrOfJoints (tipJac c q)).S i) →
      MinNormLsq (tipJac c q) (fun k => s'.filtered.getD k 0) w.comp) := by
  have hf : s.freq ≠ 0 := by
    intro h0
    obtain ⟨τ', H, C, G, e1, e2, e3, e4, _⟩ := C39_decomposition c hc hv hI grav q qd
      (List.replicate c.nrOfJoints 0) (List.replicate c.nrOfSegments 0) (List.replicate c.nrOfJoints 0)
      (List.replicate c.nrOfJoints 0) (List.replicate c.nrOfJoints 0) s.mass hq hqd (by simp) (by simp) (by simp) (by simp)
      (by simp) hs.mass
    unfold EstState.jntToExtWrench at hr
    rw [if_neg (by simp [hs.nj, hs.ns]), if_neg (by simp [hs.nj, hq, hqd, hτ]), hs.dyn, e2] at hr
    simp only [Option.bind_eq_bind, Option.bind_some] at hr
    rw [if_neg (by simp), hs.nj, e3] at hr
    simp only [Option.bind_eq_bind, Option.bind_some] at hr
    rw [if_neg (by simp), e4] at hr
    simp only [Option.bind_eq_bind, Option.bind_some] at hr
    rw [if_neg (by simp), if_pos h0] at hr
    simp at hr
  obtain ⟨M, C, G, h1, h2, h3, h4⟩ := est_call c hc hv hI grav K s hs hf svd q qd τ hq hqd hτ
  simp only at h4
  rw [h4, Option.some.injEq] at hr
  have key : s' = s.observe M C G qd τ ∧ w.comp = ((svd c.nrOfJoints (tipJac c q)).V *
      diagonal (invS (svd c.nrOfJoints (tipJac c q)).S s.eps) * (svd c.nrOfJoints (tipJac c q)).Uᵀ) *ᵥ
        fun k => s'.filtered.getD k 0 := by
    split_ifs at hr
    rw [EstState.Result.ok.injEq] at hr
    obtain ⟨a, b⟩ := hr
    refine ⟨b.symm, ?_⟩
    rw [← a, Wrench.comp_ofComp, ← b]
  have hm := minNorm_pinv hsvd.toIsDec s.eps he (fun k => s'.filtered.getD k 0)
  rw [key.2]
  refine ⟨hm, fun hS => ?_⟩
  have : truncMat (svd c.nrOfJoints (tipJac c q)) s.eps = tipJac c q := by
    unfold truncMat
    rw [trunc_eq fun i hi => ?_, ← hsvd.fact]
    rcases hS i with h | h
    · exact h
    · exact absurd (lt_of_le_of_lt (le_abs_self _) hi) (not_lt.mpr h)
  rwa [this] at hm

/-- A robot held still: the motors balance gravity and a wrench `w` on the last segment (in the frame of that segment). -/
def Holds (c : Chain) (grav : Vec) (q τ : List ℝ) (w : Wrench) : Prop :=
  idRne c c.nrOfJoints c.nrOfSegments grav q (List.replicate c.nrOfJoints 0) (List.replicate c.nrOfJoints 0)
    (List.replicate (c.nrOfSegments - 1) 0 ++ [w]) (List.replicate c.nrOfJoints 0) = some (E_NOERROR, τ)

/-- External torque of a robot held still. -/
theorem C46_held (c : Chain) (hc : c.WF) (hv : c.Valid) (hI : c.SymmI) (grav : Vec) (dt : ℝ) (q τ : List ℝ) (w : Wrench)
    (hq : q.length = c.nrOfJoints) (hns : 0 < c.nrOfSegments) (h : Holds c grav q τ w) (k : Fin c.nrOfJoints) :
    extTorque c grav dt q (List.replicate c.nrOfJoints 0) q (List.replicate c.nrOfJoints 0) τ k = (tipJac c q *ᵥ w.comp) k := by
  obtain ⟨τ', H, C, G, e1, e2, e3, e4, _, h2, h3, h4, h5⟩ := C39_decomposition c hc hv hI grav q
    (List.replicate c.nrOfJoints 0) (List.replicate c.nrOfJoints 0) (List.replicate (c.nrOfSegments - 1) 0 ++ [w])
    (List.replicate c.nrOfJoints 0) (List.replicate c.nrOfJoints 0) (List.replicate c.nrOfJoints 0) (JMat.zero c.nrOfJoints)
    hq (by simp) (by simp) (by simp; omega) (by simp) (by simp) (by simp) rfl
  obtain ⟨τ2, H2, C2, G2, f1, f2, f3, f4, _, _, _, _, f5⟩ := C39_decomposition c hc hv hI grav q
    (List.replicate c.nrOfJoints 0) (List.replicate c.nrOfJoints 0) (List.replicate c.nrOfSegments 0)
    (List.replicate c.nrOfJoints 0) (List.replicate c.nrOfJoints 0) (List.replicate c.nrOfJoints 0) (JMat.zero c.nrOfJoints)
    hq (by simp) (by simp) (by simp) (by simp) (by simp) (by simp) rfl
  rw [e2] at f2; rw [e3] at f3; rw [e4] at f4
  simp only [Option.some.injEq, Prod.mk.injEq, true_and] at f2 f3 f4
  subst f2 f3 f4
  have hτ : τ = τ' := by
    have := h.symm.trans e1
    simpa using this
  subst hτ
  have z1 : ∀ l, (List.replicate c.nrOfJoints (0 : ℝ)).getD l 0 = 0 := fun l => congrFun (rd_zero c.nrOfJoints) l
  have z2 : ∀ l, (List.replicate c.nrOfSegments (0 : Wrench)).getD l 0 = 0 := fun l => by
    simp only [List.getD_eq_getElem?_getD, List.getElem?_replicate]
    split_ifs <;> rfl
  have hb : biasTorque c grav q (List.replicate c.nrOfJoints 0) k = τ2.getD k 0 := by
    unfold biasTorque; rw [f1]
  unfold extTorque
  rw [hb, h5 k k.2, f5 k k.2, tipJac_mulVec]
  have e : ∑ i ∈ range c.nrOfSegments, (segTwist c q (unitJnt c.nrOfJoints k) i).dot
      ((List.replicate (c.nrOfSegments - 1) 0 ++ [w]).getD i 0) =
      (segTwist c q (unitJnt c.nrOfJoints k) (c.nrOfSegments - 1)).dot w := by
    rw [sum_eq_single (c.nrOfSegments - 1)]
    · congr 1
      simp [List.getD_eq_getElem?_getD]
    · intro i hi hne
      have hlt : i < c.nrOfSegments - 1 := by have := mem_range.mp hi; omega
      have : (List.replicate (c.nrOfSegments - 1) (0 : Wrench) ++ [w]).getD i 0 = 0 := by
        simp [List.getD_eq_getElem?_getD, List.getElem?_append, hlt]
      rw [this, Twist.dot_zero]
    · intro hh
      exact absurd (mem_range.mpr (by omega)) hh
  rw [e]
  simp [z1, z2, Twist.dot_zero]

/-- A robot held still, started with a new estimator: the estimated torques converge to `Jᵀ w`, and if the Jacobian has full
rank with all singular values at or above the threshold, the reported wrench converges to the wrench that acts on the robot. -/
theorem C46_static (c : Chain) (hc : c.WF) (hv : c.Valid) (hI : c.SymmI) (grav : Vec) (freq K filter eps : ℝ)
    (svd : (n : ℕ) → Matrix (Fin n) (Fin 6) ℝ → SvdOut n 6) (q τ : List ℝ) (w : Wrench) (s : ℕ → EstState)
    (r : ℕ → EstState.Result) (hq : q.length = c.nrOfJoints) (hτ : τ.length = c.nrOfJoints) (hns : 0 < c.nrOfSegments)
    (h0 : s 0 = .new c grav freq K filter eps) (hfr : freq ≠ 0) (he : 0 < eps) (hw : Holds c grav q τ w)
    (hrun : EstRun c svd (fun _ => q) (fun _ => List.replicate c.nrOfJoints 0) (fun _ => τ) s r)
    (hc1 : |filter| < 1) (ha : 0 < K / freq) (hst : (1 - filter) * (K / freq) < 2 * (1 + filter)) :
    (∀ j : Fin c.nrOfJoints, Tendsto (fun k => (s k).filtered.getD j 0) atTop (𝓝 ((tipJac c q *ᵥ w.comp) j))) ∧
    ((svd c.nrOfJoints (tipJac c q)).code = 0 → IsSvd (tipJac c q) (svd c.nrOfJoints (tipJac c q)) →
      (∀ i, eps ≤ (svd c.nrOfJoints (tipJac c q)).S i) →
      ∃ ws : ℕ → Wrench, (∀ k, r (k + 1) = .ok (ws k) (s (k + 1))) ∧
        ∀ i, Tendsto (fun k => (ws k).comp i) atTop (𝓝 (w.comp i))) := by
  have hok : (s 0).Ok c grav K := by rw [h0]; exact (C46_new c grav freq K filter eps).1
  have t1 : (s 0).freq = freq := by rw [h0]; rfl
  have t2 : (s 0).filter = filter := by rw [h0]; rfl
  have t3 : (s 0).eps = eps := by rw [h0]; rfl
  have hz : (List.replicate c.nrOfJoints (0 : ℝ)).length = c.nrOfJoints := by simp
  have hconv : ∀ j : Fin c.nrOfJoints, Tendsto (fun k => (s k).filtered.getD j 0) atTop (𝓝 ((tipJac c q *ᵥ w.comp) j)) := by
    intro j
    refine C46_converges c hc hv hI grav K svd _ _ _ s r hok (by rw [t1]; exact hfr) (fun _ => hq) (fun _ => hz) (fun _ => hτ)
      hrun j j.2 _ (fun k _ => ?_) (by rw [t2]; exact hc1) (by rw [t1]; exact ha) (by rw [t1, t2]; exact hst)
    exact C46_held c hc hv hI grav _ q τ w hq hns hw j
  refine ⟨hconv, fun hcode hsvd hS => ?_⟩
  have hall : ∀ k, (s k).Ok c grav K ∧ (s k).freq = freq ∧ (s k).eps = eps := by
    intro k
    induction k with
    | zero => exact ⟨hok, t1, t3⟩
    | succ k ih =>
      obtain ⟨a1, a2, _⟩ := est_first c hc hv hI grav K (s k) (s (k + 1)) ih.1 (by rw [ih.2.1]; exact hfr) svd _ _ _ hq hz hτ _
        (hrun k).1 (hrun k).2
      exact ⟨a1, a2.1.trans ih.2.1, a2.2.2.trans ih.2.2⟩
  set R := svd c.nrOfJoints (tipJac c q) with hR
  set P : Matrix (Fin 6) (Fin c.nrOfJoints) ℝ := R.V * diagonal (invS R.S eps) * R.Uᵀ with hP
  have hcall : ∀ k, r (k + 1) = .ok (.ofComp (P *ᵥ fun j : Fin c.nrOfJoints => (s (k + 1)).filtered.getD j 0)) (s (k + 1)) := by
    intro k
    obtain ⟨M, C, G, h1, h2, h3, h4⟩ := est_call c hc hv hI grav K (s k) (hall k).1 (by rw [(hall k).2.1]; exact hfr) svd q
      (List.replicate c.nrOfJoints 0) τ hq hz hτ
    simp only at h4
    rw [(hall k).2.2, ← hR, if_neg (show ¬ R.code ≠ E_NOERROR from not_not.mpr hcode), if_neg (by
      rintro ⟨i, hi, h00⟩
      rw [h00, abs_zero] at hi; exact hi he)] at h4
    obtain ⟨g1, g2⟩ := hrun k
    have g3 := g1.symm.trans h4
    rw [Option.some.injEq] at g3
    rw [g3] at g2 ⊢
    have g4 : (s k).observe M C G (List.replicate c.nrOfJoints 0) τ = s (k + 1) := by
      simpa [EstState.Result.state] using g2
    rw [g4]
  refine ⟨_, hcall, fun i => ?_⟩
  have hPA : P *ᵥ (tipJac c q *ᵥ w.comp) = w.comp := by
    rw [Matrix.mulVec_mulVec]
    have hSne : ∀ i, R.S i ≠ 0 := fun i h => by
      have := hS i; rw [h] at this; linarith
    have hinv : ∀ i, invS R.S eps i * R.S i = 1 := fun i => by
      unfold invS
      rw [if_neg (not_lt.mpr ((hS i).trans (le_abs_self _))), one_div, inv_mul_cancel₀ (hSne i)]
    have e1 : P * tipJac c q = R.V * (diagonal (invS R.S eps) * (R.Uᵀ * R.U) * diagonal R.S) * R.Vᵀ := by
      conv_lhs => rw [hsvd.fact]
      simp only [hP, Matrix.mul_assoc]
    rw [e1, sandwich hsvd.orthU _ _ (fun i => inv_ne i) (fun i h => h)]
    simp only [hinv]
    have : (diagonal fun _ : Fin 6 => (1 : ℝ)) = 1 := Matrix.diagonal_one
    rw [this, Matrix.mul_one, mul_eq_one_comm.mp hsvd.orthV, Matrix.one_mulVec]
  have hl : Tendsto (fun k => (P *ᵥ fun j : Fin c.nrOfJoints => (s (k + 1)).filtered.getD j 0) i) atTop
      (𝓝 ((P *ᵥ (tipJac c q *ᵥ w.comp)) i)) := by
    simp only [Matrix.mulVec, dotProduct]
    exact tendsto_finsetSum _ fun j _ => ((tendsto_add_atTop_iff_nat 1).mpr (hconv j)).const_mul _
  rw [hPA] at hl
  simpa only [Wrench.comp_ofComp] using hl

/-! ### Start of the estimation -/

/-- What `setInitialMomentum` is for: after it, the first sample moves the estimate from zero by `K·dt` times the external
torque. -/
def StartsRight (c : Chain) (grav : Vec) (s : EstState) (q0 qd0 : List ℝ) : Prop :=
  ∀ (s1 s2 : EstState) (svd : (n : ℕ) → Matrix (Fin n) (Fin 6) ℝ → SvdOut n 6) (q qd τ : List ℝ) (r : EstState.Result),
    q.length = c.nrOfJoints → qd.length = c.nrOfJoints → τ.length = c.nrOfJoints →
    s.setInitialMomentum c q0 qd0 = some (E_NOERROR, s1) → s1.jntToExtWrench c svd q qd τ = some r → r.state = some s2 →
    ∀ k < c.nrOfJoints, s2.filtered.getD k 0 =
      (1 - s.filter) * (s.gain.getD k 0 / s.freq * extTorque c grav (1 / s.freq) q0 qd0 q qd τ k)

/-- The first estimate after `setInitialMomentum`: it is off by the momentum that the stored inertia matrix does not account
for. -/
theorem est_start (c : Chain) (hc : c.WF) (hv : c.Valid) (hI : c.SymmI) (grav : Vec) (K : ℝ) (s s1 s2 : EstState)
    (hs : s.Ok c grav K) (hf : s.freq ≠ 0) (svd : (n : ℕ) → Matrix (Fin n) (Fin 6) ℝ → SvdOut n 6) (q0 qd0 q qd τ : List ℝ)
    (hq0 : q0.length = c.nrOfJoints) (hqd0 : qd0.length = c.nrOfJoints)
    (hq : q.length = c.nrOfJoints) (hqd : qd.length = c.nrOfJoints) (hτ : τ.length = c.nrOfJoints) (r : EstState.Result)
    (h1 : s.setInitialMomentum c q0 qd0 = some (E_NOERROR, s1)) (h2 : s1.jntToExtWrench c svd q qd τ = some r)
    (h3 : r.state = some s2) (k : ℕ) (hk : k < c.nrOfJoints) :
    s2.filtered.getD k 0 = (1 - s.filter) * (K / s.freq * extTorque c grav (1 / s.freq) q0 qd0 q qd τ k) +
      (1 - s.filter) * K * ∑ l ∈ range c.nrOfJoints, (s.prev.d k l - massAt c q0 k l) * qd.getD l 0 := by
  obtain ⟨s1', g1, g2, g3, g4, g5⟩ := C46_setInitialMomentum c hc hv hI grav K s hs q0 qd0 hq0 hqd0
  rw [h1] at g1
  simp only [Option.some.injEq, Prod.mk.injEq, true_and] at g1
  subst g1
  obtain ⟨k1, k2, k3⟩ := g5 k hk
  obtain ⟨M, C, G, m1, m2, m3, m4⟩ := est_call c hc hv hI grav K s1 g2 (by rw [g3.1]; exact hf) svd q qd τ hq hqd hτ
  simp only at m4
  rw [m4, Option.some.injEq] at h2
  have es : s2 = s1.observe M C G qd τ := by
    rw [← h2] at h3
    split_ifs at h3 <;> simp only [EstState.Result.state, Option.some.injEq, reduceCtorEq] at h3 <;> exact h3.symm
  obtain ⟨o1, o2, o3, o4⟩ := observe_spec c grav K s1 g2 (by rw [g3.1]; exact hf) M C G q qd qd0 τ m1 m3
  rw [← es] at o4
  obtain ⟨p1, p2⟩ := o4 k hk
  rw [p1, p2, k1, g3.1, g3.2.1, g4]
  unfold EstState.estimate extTorque
  rw [g2.gain, rd_replicate _ _ _ hk, k2, k3, mulVec_getD _ _ _ (by rw [g2.prev]; exact hk), g4, hs.prev]
  have hsum : ∀ (A : ℕ → ℝ), ∑ l ∈ range c.nrOfJoints, A l * (qd.getD l 0 - qd0.getD l 0) =
      ∑ l ∈ range c.nrOfJoints, A l * qd.getD l 0 - ∑ l ∈ range c.nrOfJoints, A l * qd0.getD l 0 := fun A => by
    rw [← sum_sub_distrib]; exact sum_congr rfl fun l _ => by ring
  have hsum2 : ∑ l ∈ range c.nrOfJoints, (s.prev.d k l - massAt c q0 k l) * qd.getD l 0 =
      ∑ l ∈ range c.nrOfJoints, s.prev.d k l * qd.getD l 0 - ∑ l ∈ range c.nrOfJoints, massAt c q0 k l * qd.getD l 0 := by
    rw [← sum_sub_distrib]; exact sum_congr rfl fun l _ => by ring
  rw [hsum, hsum, hsum2]
  field_simp
  ring

/-- **Partial.**  The estimation starts right if the inertia matrix stored from an earlier call is the one at the initial
position.  Missing: `setInitialMomentum` does not store it (`C46_start_violated`). -/
theorem C46_start_partial (c : Chain) (hc : c.WF) (hv : c.Valid) (hI : c.SymmI) (grav : Vec) (K : ℝ) (s : EstState)
    (hs : s.Ok c grav K) (hf : s.freq ≠ 0) (q0 qd0 : List ℝ) (hq0 : q0.length = c.nrOfJoints) (hqd0 : qd0.length = c.nrOfJoints)
    (hprev : ∀ k < c.nrOfJoints, ∀ l < c.nrOfJoints, s.prev.d k l = massAt c q0 k l) : StartsRight c grav s q0 qd0 := by
  intro s1 s2 svd q qd τ r hq hqd hτ h1 h2 h3 k hk
  rw [est_start c hc hv hI grav K s s1 s2 hs hf svd q0 qd0 q qd τ hq0 hqd0 hq hqd hτ r h1 h2 h3 k hk, hs.gain, rd_replicate _ _ _ hk]
  have : ∑ l ∈ range c.nrOfJoints, (s.prev.d k l - massAt c q0 k l) * qd.getD l 0 = 0 :=
    sum_eq_zero fun l hl => by rw [hprev k hk l (mem_range.mp hl)]; ring
  rw [this]; ring

/-- **Partial.**  A robot that stands still at the first sample: the estimation starts right for every estimator. -/
theorem C46_start_still_partial (c : Chain) (hc : c.WF) (hv : c.Valid) (hI : c.SymmI) (grav : Vec) (K : ℝ) (s s1 s2 : EstState)
    (hs : s.Ok c grav K) (hf : s.freq ≠ 0) (svd : (n : ℕ) → Matrix (Fin n) (Fin 6) ℝ → SvdOut n 6) (q0 qd0 q τ : List ℝ)
    (hq0 : q0.length = c.nrOfJoints) (hqd0 : qd0.length = c.nrOfJoints)
    (hq : q.length = c.nrOfJoints) (hτ : τ.length = c.nrOfJoints) (r : EstState.Result)
    (h1 : s.setInitialMomentum c q0 qd0 = some (E_NOERROR, s1))
    (h2 : s1.jntToExtWrench c svd q (List.replicate c.nrOfJoints 0) τ = some r)
    (h3 : r.state = some s2) (k : ℕ) (hk : k < c.nrOfJoints) :
    s2.filtered.getD k 0 =
      (1 - s.filter) * (K / s.freq * extTorque c grav (1 / s.freq) q0 qd0 q (List.replicate c.nrOfJoints 0) τ k) := by
  rw [est_start c hc hv hI grav K s s1 s2 hs hf svd q0 qd0 q _ τ hq0 hqd0 hq (by simp) hτ r h1 h2 h3 k hk]
  have z1 : ∀ l, (List.replicate c.nrOfJoints (0 : ℝ)).getD l 0 = 0 := fun l => congrFun (rd_zero c.nrOfJoints) l
  simp [z1]

theorem massAt_pos (c : Chain) (hc : c.WF) (hv : c.Valid) (hI : c.SymmI) (hM : c.Massive) (q : List ℝ)
    (hq : q.length = c.nrOfJoints) (k : ℕ) (hk : k < c.nrOfJoints) : 0 < massAt c q k k := by
  obtain ⟨H, e1, e2⟩ := C40_posdef c hc hv hI hM q hq 0 (JMat.zero c.nrOfJoints) rfl
  have e3 := C40_entries c hc hv hI q hq 0 _ H rfl e1 k k hk hk
  have := e2 (fun i => if i = k then 1 else 0) ⟨k, hk, by simp⟩
  unfold massAt
  rw [← e3]
  simpa [hk] using this

/-- **Violated.**  `setInitialMomentum` does not store the inertia matrix, so the first call takes the change of the inertia
since the construction, that is all of it, for a change within one sample.  For no massive chain does a new estimator start
right: a robot that moves at the first sample is reported to feel an external torque of `-K·M·q̇` too much. -/
theorem C46_start_violated (c : Chain) (hc : c.WF) (hv : c.Valid) (hI : c.SymmI) (hM : c.Massive) (hn : 0 < c.nrOfJoints)
    (grav : Vec) (freq K filter eps : ℝ) (hf : freq ≠ 0) (hK : K ≠ 0) (hc1 : filter ≠ 1) (he : 0 < eps) (q0 qd0 : List ℝ)
    (hq0 : q0.length = c.nrOfJoints) (hqd0 : qd0.length = c.nrOfJoints) :
    ¬ StartsRight c grav (.new c grav freq K filter eps) q0 qd0 := by
  intro h
  have hok := (C46_new c grav freq K filter eps).1
  obtain ⟨s1, g1, g2, g3, _, _⟩ := C46_setInitialMomentum c hc hv hI grav K _ hok q0 qd0 hq0 hqd0
  obtain ⟨r, s2, m1, m2⟩ := C46_total c hc hv hI grav K s1 g2 (by rw [g3.1]; exact hf) (by rw [g3.2.2]; exact he)
    (fun n A => ⟨0, 0, 0, 0⟩) q0 (unitJnt c.nrOfJoints 0) (List.replicate c.nrOfJoints 0) hq0 (unitJnt_length _ _) (by simp)
  have a := h s1 s2 _ q0 _ _ r hq0 (unitJnt_length _ _) (by simp) g1 m1 m2 0 hn
  rw [est_start c hc hv hI grav K _ s1 s2 hok hf _ q0 qd0 q0 _ _ hq0 hqd0 hq0 (unitJnt_length _ _) (by simp) r g1 m1 m2 0 hn,
    hok.gain, rd_replicate _ _ _ hn] at a
  have hsum : ∑ l ∈ range c.nrOfJoints, ((EstState.new c grav freq K filter eps).prev.d 0 l - massAt c q0 0 l) *
      (unitJnt c.nrOfJoints 0).getD l 0 = -massAt c q0 0 0 := by
    have e : ∀ l ∈ range c.nrOfJoints, ((EstState.new c grav freq K filter eps).prev.d 0 l - massAt c q0 0 l) *
        (unitJnt c.nrOfJoints 0).getD l 0 = if l = 0 then -massAt c q0 0 0 else 0 := fun l hl => by
      unfold unitJnt
      rw [getD_map_range _ _ _ (mem_range.mp hl)]
      by_cases h0 : l = 0
      · subst h0; simp [EstState.new, JMat.zero]
      · simp [h0]
    rw [sum_congr rfl e]
    simp [hn.ne']
  rw [hsum] at a
  have hpos := massAt_pos c hc hv hI hM q0 hq0 0 hn
  have e1 : (EstState.new c grav freq K filter eps).filter = filter := rfl
  rw [e1] at a
  have : (1 - filter) * K * massAt c q0 0 0 = 0 := by linarith
  rcases mul_eq_zero.mp this with h1 | h1
  · rcases mul_eq_zero.mp h1 with h2 | h2
    · exact hc1 (by linarith)
    · exact hK h2
  · exact hpos.ne' h1

/-! ### Changes of the chain, errors -/

/-- `updateInternalDataStructures` makes the state fit the changed chain; with the number of joints unchanged nothing that was
estimated is lost. -/
theorem C46_update (c c' : Chain) (grav : Vec) (K : ℝ) (s : EstState) (hs : s.Ok c grav K) (hn : 0 < c.nrOfJoints)
    (j1 j2 : ℕ → ℕ → ℝ) :
    ∃ s', s.update c' j1 j2 = some s' ∧ s'.Ok c' grav K ∧ s.SameConsts s' ∧
      (c'.nrOfJoints = c.nrOfJoints → s'.prev = s.prev ∧ s'.p0 = s.p0 ∧ s'.integral = s.integral ∧ s'.filtered = s.filtered) ∧
      (c'.nrOfJoints ≠ c.nrOfJoints → s'.prev = ⟨c'.nrOfJoints, j2⟩) ∧
      ∀ k, (k < c'.nrOfJoints → s'.p0.getD k 0 = s.p0.getD k 0 ∧ s'.integral.getD k 0 = s.integral.getD k 0 ∧
        s'.filtered.getD k 0 = s.filtered.getD k 0) := by
  have hlen : ∀ (l : List ℝ) (n : ℕ), (jntResize l n).length = n := fun l n => by
    simp only [jntResize, List.length_append, List.length_take, List.length_replicate]; omega
  have hsame : ∀ (l : List ℝ) (n : ℕ), l.length = n → jntResize l n = l := fun l n h => by subst h; simp [jntResize]
  have hget : ∀ (l : List ℝ) (n k : ℕ), k < n → (jntResize l n).getD k 0 = l.getD k 0 := fun l n k hk => by
    simp only [jntResize, List.getD_eq_getElem?_getD, List.getElem?_append, List.length_take]
    split_ifs with h
    · rw [List.getElem?_take_of_lt hk]
    · rw [List.getElem?_replicate, List.getElem?_eq_none (l := l) (by omega)]
      split_ifs <;> rfl
  have hg : s.gain[0]? = some K := by rw [hs.gain]; simp [hn]
  have hres : ∀ (H : JMat) (n : ℕ) (j : ℕ → ℕ → ℝ), (H.resize n j).n = n := fun H n j => by
    unfold JMat.resize; split_ifs with h
    · exact h
    · rfl
  unfold EstState.update
  rw [hg]
  refine ⟨_, rfl, ⟨rfl, rfl, hres _ _ _, hres _ _ _, hlen _ _, hlen _ _, hlen _ _, ?_, ?_, rfl⟩, ⟨rfl, rfl, rfl⟩, fun h => ?_,
    fun h => ?_, fun k hk => ⟨hget _ _ _ hk, hget _ _ _ hk, hget _ _ _ hk⟩⟩
  · simp only [vecResize, hs.gain, List.take_replicate, List.length_replicate, List.replicate_append_replicate]
    congr 1
    omega
  · simp only [DynState.update, hs.dyn, DynState.new]
  · simp only
    refine ⟨?_, hsame _ _ (by rw [h]; exact hs.p0), hsame _ _ (by rw [h]; exact hs.integral), hsame _ _ (by rw [h]; exact hs.filtered)⟩
    unfold JMat.resize
    rw [if_pos (by rw [hs.prev, h])]
  · simp only [JMat.resize]
    rw [if_neg (by rw [hs.prev]; exact fun e => h e.symm)]

/-- **Violated.**  An estimator of a chain without joints cannot be updated: entry 0 of the empty gain vector is read. -/
theorem C46_update_empty_violated (c c' : Chain) (grav : Vec) (K : ℝ) (s : EstState) (hs : s.Ok c grav K)
    (hn : c.nrOfJoints = 0) (j1 j2 : ℕ → ℕ → ℝ) : s.update c' j1 j2 = none := by
  unfold EstState.update
  rw [hs.gain, hn]
  rfl

/-- **Violated.**  After a change of the number of joints the next estimate depends on uninitialised memory: of two calls that
differ in what the resized matrix happens to contain, the torques differ. -/
theorem C46_update_size_violated (c c' : Chain) (hc : c'.WF) (hv : c'.Valid) (hI : c'.SymmI) (grav : Vec) (K : ℝ) (s : EstState)
    (hs : s.Ok c grav K) (hn : 0 < c.nrOfJoints) (hn' : 0 < c'.nrOfJoints) (hne : c'.nrOfJoints ≠ c.nrOfJoints)
    (hf : s.freq ≠ 0) (he : 0 < s.eps) (hK : K ≠ 0) (hc1 : s.filter ≠ 1)
    (svd : (n : ℕ) → Matrix (Fin n) (Fin 6) ℝ → SvdOut n 6) (q τ : List ℝ) (hq : q.length = c'.nrOfJoints)
    (hτ : τ.length = c'.nrOfJoints) (j1 : ℕ → ℕ → ℝ) :
    ∃ (j2 j2' : ℕ → ℕ → ℝ) (qd : List ℝ) (s1 s1' s2 s2' : EstState) (r r' : EstState.Result), qd.length = c'.nrOfJoints ∧
      s.update c' j1 j2 = some s1 ∧ s.update c' j1 j2' = some s1' ∧
      s1.jntToExtWrench c' svd q qd τ = some r ∧ s1'.jntToExtWrench c' svd q qd τ = some r' ∧
      r.state = some s2 ∧ r'.state = some s2' ∧ s2.filtered.getD 0 0 ≠ s2'.filtered.getD 0 0 := by
  obtain ⟨s1, a1, a2, a3, _, a4, a5⟩ := C46_update c c' grav K s hs hn j1 (fun _ _ => 0)
  obtain ⟨s1', b1, b2, b3, _, b4, b5⟩ := C46_update c c' grav K s hs hn j1 (fun _ _ => 1)
  have hu := unitJnt_length c'.nrOfJoints 0
  have h1 := est_call c' hc hv hI grav K s1 a2 (by rw [a3.1]; exact hf) svd q (unitJnt c'.nrOfJoints 0) τ hq hu hτ
  have h2 := est_call c' hc hv hI grav K s1' b2 (by rw [b3.1]; exact hf) svd q (unitJnt c'.nrOfJoints 0) τ hq hu hτ
  obtain ⟨M, C, G, x1, x2, x3, x4⟩ := h1
  obtain ⟨M', C', G', y1, y2, y3, y4⟩ := h2
  have hst : ∀ (t t' : EstState), t.eps = s.eps → ∀ (R : SvdOut c'.nrOfJoints 6) (w : Wrench),
      (if R.code ≠ E_NOERROR then EstState.Result.err E_SVD_FAILED t'
        else if ∃ i, ¬ |R.S i| < t.eps ∧ R.S i = 0 then .nonfinite else .ok w t').state = some t' := by
    intro t t' ht R w
    rw [if_neg (c := ∃ i, _) (by rintro ⟨i, hi, h0⟩; rw [h0, abs_zero, ht] at hi; exact hi he)]
    split_ifs <;> rfl
  refine ⟨_, _, unitJnt c'.nrOfJoints 0, s1, s1', _, _, _, _, hu, a1, b1, x4, y4, hst s1 _ a3.2.2 _ _, hst s1' _ b3.2.2 _ _, ?_⟩
  obtain ⟨_, _, _, o1⟩ := observe_spec c' grav K s1 a2 (by rw [a3.1]; exact hf) M C G q (unitJnt c'.nrOfJoints 0)
    (List.replicate c'.nrOfJoints 0) τ x1 x3
  obtain ⟨_, _, _, o2⟩ := observe_spec c' grav K s1' b2 (by rw [b3.1]; exact hf) M' C' G' q (unitJnt c'.nrOfJoints 0)
    (List.replicate c'.nrOfJoints 0) τ y1 y3
  rw [(o1 0 hn').1, (o1 0 hn').2, (o2 0 hn').1, (o2 0 hn').2]
  have z1 : ∀ l, (List.replicate c'.nrOfJoints (0 : ℝ)).getD l 0 = 0 := fun l => congrFun (rd_zero c'.nrOfJoints) l
  obtain ⟨p1, p2, p3⟩ := a5 0 hn'
  obtain ⟨r1, r2, r3⟩ := b5 0 hn'
  have ee : ∀ t : EstState, t.Ok c' grav K → t.p0.getD 0 0 = s.p0.getD 0 0 → t.integral.getD 0 0 = s.integral.getD 0 0 →
      t.estimate (List.replicate c'.nrOfJoints 0) 0 = K * (0 - s.integral.getD 0 0 - s.p0.getD 0 0) := by
    intro t ht e1 e2
    unfold EstState.estimate
    rw [ht.gain, rd_replicate _ _ _ hn', mulVec_getD _ _ _ (by rw [ht.prev]; exact hn'), e1, e2]
    simp [z1]
  rw [ee s1 a2 p1 p2, ee s1' b2 r1 r2, p3, r3, a4 hne, b4 hne, a3.1, b3.1, a3.2.1, b3.2.1]
  have hsum : ∑ l ∈ range c'.nrOfJoints, (1 : ℝ) * ((unitJnt c'.nrOfJoints 0).getD l 0 - (List.replicate c'.nrOfJoints 0).getD l 0) = 1 := by
    rw [sum_eq_single 0]
    · rw [z1]; unfold unitJnt; rw [getD_map_range _ _ _ hn']; simp
    · intro l hl h0
      rw [z1]; unfold unitJnt; rw [getD_map_range _ _ _ (mem_range.mp hl)]; simp [h0]
    · intro hh; exact absurd (mem_range.mpr hn') hh
  simp only [hsum, zero_mul, sum_const_zero]
  intro hh
  have : (1 - s.filter) * K = 0 := by
    have e : K / s.freq * (1 / (1 / s.freq)) = K := by field_simp
    linear_combination -hh - (1 - s.filter) * e
  rcases mul_eq_zero.mp this with h | h
  · exact hc1 (by linarith)
  · exact hK h

/-- Errors: the wrench is not written and the state is left alone, except for a failure of the decomposition, which comes after
the observer has advanced. -/
theorem C46_errors (c : Chain) (s : EstState) (svd : (n : ℕ) → Matrix (Fin n) (Fin 6) ℝ → SvdOut n 6) (q qd τ : List ℝ) :
    ((s.nj ≠ c.nrOfJoints ∨ s.ns ≠ c.nrOfSegments) → s.jntToExtWrench c svd q qd τ = some (.err E_NOT_UP_TO_DATE s)) ∧
    (s.nj = c.nrOfJoints → s.ns = c.nrOfSegments → (q.length ≠ s.nj ∨ qd.length ≠ s.nj ∨ τ.length ≠ s.nj) →
      s.jntToExtWrench c svd q qd τ = some (.err E_SIZE_MISMATCH s)) ∧
    ((q.length ≠ s.nj ∨ qd.length ≠ s.nj) → s.setInitialMomentum c q qd = some (E_SIZE_MISMATCH, s)) ∧
    (q.length = s.nj → qd.length = s.nj → (s.dyn.nj ≠ c.nrOfJoints ∨ s.dyn.ns ≠ c.nrOfSegments) →
      s.setInitialMomentum c q qd = some (-102, s)) := by
  refine ⟨fun h => ?_, fun h1 h2 h => ?_, fun h => ?_, fun h1 h2 h => ?_⟩
  · unfold EstState.jntToExtWrench; rw [if_pos h]
  · unfold EstState.jntToExtWrench; rw [if_neg (by tauto), if_pos h]
  · unfold EstState.setInitialMomentum; rw [if_pos h]
  · unfold EstState.setInitialMomentum
    rw [if_neg (by tauto), (C40_errors s.dyn c q s.mass).1 h]
    simp only [Option.bind_eq_bind, Option.bind_some]
    rw [if_pos (by decide)]

/-- A failing decomposition is reported, but the observer has advanced: the state is the same as after a successful call. -/
theorem C46_svd_failed (c : Chain) (hc : c.WF) (hv : c.Valid) (hI : c.SymmI) (grav : Vec) (K : ℝ) (s s' : EstState)
    (hs : s.Ok c grav K) (hf : s.freq ≠ 0) (svd svd' : (n : ℕ) → Matrix (Fin n) (Fin 6) ℝ → SvdOut n 6) (q qd τ : List ℝ)
    (hq : q.length = c.nrOfJoints) (hqd : qd.length = c.nrOfJoints) (hτ : τ.length = c.nrOfJoints) (w : Wrench)
    (h : s.jntToExtWrench c svd q qd τ = some (.ok w s')) (hfail : (svd' c.nrOfJoints (tipJac c q)).code ≠ E_NOERROR) :
    s.jntToExtWrench c svd' q qd τ = some (.err E_SVD_FAILED s') := by
  obtain ⟨τ', H, C, G, e1, e2, e3, e4, _⟩ := C39_decomposition c hc hv hI grav q qd
    (List.replicate c.nrOfJoints 0) (List.replicate c.nrOfSegments 0) (List.replicate c.nrOfJoints 0)
    (List.replicate c.nrOfJoints 0) (List.replicate c.nrOfJoints 0) s.mass hq hqd (by simp) (by simp) (by simp) (by simp)
    (by simp) hs.mass
  obtain ⟨F, J, f1, f2, f3⟩ := est_jac c hc q hq
  unfold EstState.jntToExtWrench at h ⊢
  rw [if_neg (by simp [hs.nj, hs.ns]), if_neg (by simp [hs.nj, hq, hqd, hτ]), hs.dyn, e2] at h ⊢
  simp only [Option.bind_eq_bind, Option.bind_some] at h ⊢
  rw [if_neg (by simp), hs.nj, e3] at h ⊢
  simp only [Option.bind_eq_bind, Option.bind_some] at h ⊢
  rw [if_neg (by simp), e4] at h ⊢
  simp only [Option.bind_eq_bind, Option.bind_some] at h ⊢
  rw [if_neg (by simp), if_neg hf, f1] at h ⊢
  simp only [Option.bind_eq_bind, Option.bind_some] at h ⊢
  rw [if_neg (by simp), hs.locked, f2] at h ⊢
  simp only [Option.bind_eq_bind, Option.bind_some] at h ⊢
  rw [if_neg (by simp), f3] at h ⊢
  rw [if_pos hfail]
  split_ifs at h
  · simp at h
  · simp at h
  · rw [Option.some.injEq, EstState.Result.ok.injEq] at h
    rw [h.2]

/-- `getEstimatedJntTorque` hands out the filtered estimate, for an array of the right size. -/
theorem C46_torque (c : Chain) (grav : Vec) (K : ℝ) (s : EstState) (hs : s.Ok c grav K) (n : ℕ) :
    s.getEstimatedJntTorque n = if n = c.nrOfJoints then some s.filtered else none := by
  unfold EstState.getEstimatedJntTorque; rw [hs.filtered]

/-! ## Non-vacuity -/

/-- `C46_start_violated` is not vacuous: a sliding body. -/
example : ¬ StartsRight (hdSlides 1) 0 (.new (hdSlides 1) 0 1000 10 0 (1 / 100000)) [0] [1] :=
  C46_start_violated _ (hdSlide_ok 1).1 (hdSlide_ok 1).2.1 (hdSlide_ok 1).2.2.1 (hdSlide_ok 1).2.2.2.1 Nat.one_pos 0 1000 10 0 _
    (by norm_num) (by norm_num) (by norm_num) (by norm_num) _ _ rfl rfl

theorem gantry_fk : fkF (rd (List.replicate 6 0)) gantry.segments 0 = 1 := by
  have hq : ∀ j, rd (List.replicate 6 0) j = 0 := fun j => congrFun (rd_zero 6) j
  have hp : ∀ s ∈ gantry.segments, s.pose 0 = 1 ∧ s.moving = true := by
    intro s hs
    simp only [gantry, List.map_cons, List.map_nil, List.mem_cons, List.not_mem_nil, or_false] at hs
    rcases hs with rfl | rfl | rfl | rfl | rfl | rfl <;> refine ⟨?_, rfl⟩ <;>
      simp only [Segment.pose, Joint.pose, Frame.ofVec, Frame.ofRot] <;> ext <;> simp [Rot.rotX, Rot.rotY, Rot.rotZ]
  have hfk : ∀ (l : List Segment), (∀ s ∈ l, s.pose 0 = 1 ∧ s.moving = true) → ∀ j,
      fkF (rd (List.replicate 6 0)) l j = 1 := by
    intro l
    induction l with
    | nil => intro _ j; rfl
    | cons s l ih =>
      intro hl j
      unfold fkF
      rw [if_pos (hl s (by simp)).2, hq, (hl s (by simp)).1, ih (fun t ht => hl t (by simp [ht]))]
      ext <;> simp
  exact hfk _ hp 0

theorem gantry_tipJac : tipJac gantry (List.replicate 6 0) = (1 : Matrix (Fin 6) (Fin 6) ℝ) := by
  obtain ⟨F, J, h1, h2, h3⟩ := est_jac gantry gantry_wf (List.replicate 6 0) rfl
  obtain ⟨J', e1, e2⟩ := gantry_jac
  have : J = J' := by
    have := h2.symm.trans e1
    simpa using this
  subst this
  have hF : F = 1 := by
    rw [C25_fk gantry gantry_wf, if_neg (by simp [gantry]), if_neg (by simp [segmentNr])] at h1
    simp only [Option.some.injEq, Prod.mk.injEq, true_and] at h1
    rw [← h1, ← fkF_eq_spec gantry _ _ (by simp [segmentNr, gantry])]
    exact gantry_fk
  rw [← h3, hF]
  have : J.changeBase (1 : Frame).M.inv = J := by
    unfold Jac.changeBase
    rw [List.map_congr_left (g := id) (fun t _ => ?_), List.map_id]
    have h : (1 : Frame).M = 1 := rfl
    rw [h]; ext <;> simp
  rw [this]
  show (jacMat 6 J)ᵀ = 1
  rw [e2, Matrix.transpose_one]

theorem gantry_valid : gantry.Valid ∧ gantry.SymmI := by
  refine ⟨fun s hs => ?_, fun s hs => ?_⟩ <;>
    simp only [gantry, List.map_cons, List.map_nil, List.mem_cons, List.not_mem_nil, or_false] at hs
  · rcases hs with rfl | rfl | rfl | rfl | rfl | rfl <;> exact ⟨fun hh => by simp at hh, Rot.IsProper.one⟩
  · rcases hs with rfl | rfl | rfl | rfl | rfl | rfl <;> ext <;> rfl

/-- `C46_static` is not vacuous: a gantry at its zero position, held against any wrench, with a sampling frequency of 1000,
gain 10, and filter constant 1/2. -/
example (w : Wrench) : ∃ (svd : (n : ℕ) → Matrix (Fin n) (Fin 6) ℝ → SvdOut n 6) (τ : List ℝ) (s : ℕ → EstState) (r : ℕ → EstState.Result) (ws : ℕ → Wrench),
    s 0 = .new gantry 0 1000 10 (1 / 2) (1 / 100000) ∧ Holds gantry 0 (List.replicate 6 0) τ w ∧
    EstRun gantry svd (fun _ => List.replicate 6 0) (fun _ => List.replicate 6 0) (fun _ => τ) s r ∧
    (∀ k, r (k + 1) = .ok (ws k) (s (k + 1))) ∧ ∀ i, Tendsto (fun k => (ws k).comp i) atTop (𝓝 (w.comp i)) := by
  obtain ⟨hv, hI⟩ := gantry_valid
  have hc := gantry_wf
  choose U S V h using fun (n : ℕ) (A : Matrix (Fin n) (Fin 6) ℝ) => exists_svd A
  have hs : ∀ n A, IsSvd A (⟨0, U n A, S n A, V n A⟩ : SvdOut n 6) := fun n A =>
    ⟨⟨(h n A).1, (h n A).2.1, (h n A).2.2.1, (h n A).2.2.2.1⟩, (h n A).2.2.2.2⟩
  obtain ⟨τ, H, C, G, e1, -, -, -, e2, -⟩ := C39_decomposition gantry hc hv hI 0 (List.replicate 6 0) (List.replicate 6 0)
    (List.replicate 6 0) (List.replicate 5 0 ++ [w]) (List.replicate 6 0) (List.replicate 6 0) (List.replicate 6 0)
    (JMat.zero 6) rfl rfl rfl rfl rfl rfl rfl rfl
  let svd : (n : ℕ) → Matrix (Fin n) (Fin 6) ℝ → SvdOut n 6 := fun n A => ⟨0, U n A, S n A, V n A⟩
  have hS1 : ∀ i, (svd 6 (tipJac gantry (List.replicate 6 0))).S i = 1 := by
    have h := hs _ (tipJac gantry (List.replicate 6 0))
    intro i
    have h' : IsSvd (1 : Matrix (Fin 6) (Fin 6) ℝ) (svd 6 (tipJac gantry (List.replicate 6 0))) := by
      rw [← gantry_tipJac]; exact h
    exact svd_of_one h' i
  have hstep : ∀ t : EstState, t.Ok gantry 0 10 ∧ t.freq = 1000 ∧ t.eps = 1 / 100000 → ∃ rt : EstState.Result × EstState,
      t.jntToExtWrench gantry svd (List.replicate 6 0) (List.replicate 6 0) τ = some rt.1 ∧ rt.1.state = some rt.2 ∧
      rt.2.Ok gantry 0 10 ∧ rt.2.freq = 1000 ∧ rt.2.eps = 1 / 100000 := by
    rintro t ⟨a1, a2, a3⟩
    have hf : t.freq ≠ 0 := by rw [a2]; norm_num
    obtain ⟨r, s', b1, b2⟩ := C46_total gantry hc hv hI 0 10 t a1 hf (by rw [a3]; norm_num) svd (List.replicate 6 0)
      (List.replicate 6 0) τ rfl rfl e2
    obtain ⟨b3, b4, _⟩ := est_first gantry hc hv hI 0 10 t s' a1 hf svd _ _ _ rfl rfl e2 r b1 b2
    exact ⟨(r, s'), b1, b2, b3, b4.1.trans a2, b4.2.2.trans a3⟩
  have : Nonempty (EstState.Result × EstState) := ⟨(.nonfinite, .new gantry 0 1000 10 0 1)⟩
  choose! f hf using hstep
  let s : ℕ → EstState := fun k => Nat.rec (.new gantry 0 1000 10 (1 / 2) (1 / 100000)) (fun _ t => (f t).2) k
  have hok : ∀ k, (s k).Ok gantry 0 10 ∧ (s k).freq = 1000 ∧ (s k).eps = 1 / 100000 := by
    intro k
    induction k with
    | zero => exact ⟨(C46_new _ _ _ _ _ _).1, rfl, rfl⟩
    | succ k ih => exact (hf (s k) ih).2.2
  let r : ℕ → EstState.Result := fun k => (f (s (k - 1))).1
  have hrun : EstRun gantry svd (fun _ => List.replicate 6 0) (fun _ => List.replicate 6 0) (fun _ => τ) s r := fun k =>
    ⟨(hf (s k) (hok k)).1, (hf (s k) (hok k)).2.1⟩
  have hw : Holds gantry 0 (List.replicate 6 0) τ w := e1
  obtain ⟨_, hfin⟩ := C46_static gantry hc hv hI 0 1000 10 (1 / 2) (1 / 100000) svd (List.replicate 6 0) τ w s r rfl e2
    (by simp [gantry]) rfl (by norm_num) (by norm_num) hw hrun (by rw [abs_lt]; constructor <;> norm_num) (by norm_num) (by norm_num)
  obtain ⟨ws, h1, h2⟩ := hfin rfl (hs _ _) (fun i => (by norm_num : (1 / 100000 : ℝ) ≤ 1).trans (hS1 i).ge)
  exact ⟨svd, τ, s, r, ws, rfl, hw, hrun, h1, h2⟩

end KDL
