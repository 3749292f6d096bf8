import Verif.Lemmas.NewtonEuler
import Verif.Props.ForwardKinematics
import Verif.Props.LinearSolve
import Mathlib.Algebra.Order.BigOperators.Ring.Finset

/-! C39 (inverse dynamics decomposition), C40 (joint-space inertia matrix). -/

noncomputable section
namespace KDL
open Finset

/-! ## Specification vocabulary -/

/-- The twist of segment `i` when the joints are at `q` and move at rates `r`: what the velocity solver reports for the
tip of the segment, expressed in the tip frame itself. -/
def segTwist (c : Chain) (q r : List ℝ) (i : ℕ) : Twist :=
  match fkVel c q r ((i + 1 : ℕ) : ℤ) with
  | some (_, v) => v.getFrame.M.invTwist v.getTwist
  | none => 0
/-- Only joint `k` moves, at unit rate. -/
def unitJnt (n k : ℕ) : List ℝ := (List.range n).map fun i => if i = k then 1 else 0
/-- Inertia of segment `i`. -/
def segInertia (c : Chain) (i : ℕ) : RBI := (c.segments.map Segment.I).getD i RBI.zero
/-- Rotor inertia of joint `k`: that of the `k`-th segment with a moving joint. -/
def jntInertia (c : Chain) (k : ℕ) : ℝ := ((c.segments.filter Segment.moving).map fun s => s.joint.inertia).getD k 0
/-- All inertia tensors are symmetric, as `RotationalInertia`'s constructor makes them. -/
def Chain.SymmI (c : Chain) : Prop := ∀ s ∈ c.segments, s.I.I.tr = s.I.I
/-- The kinetic energy form: the sum over the segments of twist · inertia · twist, plus the rotors. -/
def energyForm (c : Chain) (q r s : List ℝ) : ℝ :=
  (∑ i ∈ range c.nrOfSegments, (segTwist c q r i).dot (segInertia c i * segTwist c q s i)) +
  ∑ k ∈ range c.nrOfJoints, r.getD k 0 * (jntInertia c k * s.getD k 0)

/-! ## auxiliary -/

theorem segTwist_eq (c : Chain) (hc : c.WF) (hv : c.Valid) (q r : List ℝ) (i : ℕ) (hq : q.length = c.nrOfJoints)
    (hr : r.length = c.nrOfJoints) (hi : i < c.nrOfSegments) :
    segTwist c q r i = uP (rd q) (rd r) (c.segments.take (i + 1)) 0 0 := by
  have hbi : nMoving (c.segments.take (i + 1)) ≤ c.nrOfJoints := by rw [hc.2]; exact nMoving_take_le _ _
  have : fkVel c q r ((i + 1 : ℕ) : ℤ) =
      some (E_NOERROR, fkVelF (rd q) (rd r) (c.segments.take (i + 1)) 0 (.ofFrame 1)) := by
    unfold fkVel
    simp only [segmentNr_ofNat]
    rw [if_neg (by simp [hq, hr]), if_neg (by omega), fkVelLoop_eq _ _ _ _ _ (by omega) (by omega)]
    rfl
  rw [uP_eq _ _ _ (fun s hs => hv s (List.mem_of_mem_take hs))]
  simp only [segTwist, this]

theorem rotor_sum (δ e : ℕ → ℝ) : ∀ (ss : List Segment) (j : ℕ),
    ∑ i ∈ range ss.length, (match ss[i]? with
      | some s => qv s δ (j + nMoving (ss.take i)) * (s.joint.inertia * qv s e (j + nMoving (ss.take i)))
      | none => 0) =
    ∑ k ∈ range (nMoving ss), δ (j + k) * (((ss.filter Segment.moving).map fun s => s.joint.inertia).getD k 0 * e (j + k)) := by
  intro ss
  induction ss with
  | nil => intro j; simp
  | cons s ss ih =>
    intro j
    rw [List.length_cons, sum_range_succ']
    have hstep : ∀ i, j + nMoving ((s :: ss).take (i + 1)) = nx s j + nMoving (ss.take i) := by
      intro i; rw [List.take_succ_cons, nMoving_cons]; simp only [nx]; split_ifs <;> omega
    simp only [List.getElem?_cons_succ, hstep]
    rw [ih, nMoving_cons]
    simp only [List.getElem?_cons_zero, List.take_zero, nMoving_nil, Nat.add_zero]
    by_cases hm : s.moving
    · simp only [if_pos hm, nx, qv, List.filter_cons, List.map_cons]
      rw [sum_range_succ']
      simp only [List.getD_cons_succ, List.getD_cons_zero, Nat.add_zero]
      congr 1
      exact sum_congr rfl fun k _ => by rw [show j + 1 + k = j + (k + 1) by omega]
    · simp [if_neg hm, nx, qv, List.filter_cons]

theorem kin_eq_energyForm (c : Chain) (hc : c.WF) (hv : c.Valid) (q r s : List ℝ) (hq : q.length = c.nrOfJoints)
    (hr : r.length = c.nrOfJoints) (hs : s.length = c.nrOfJoints) :
    kin (rd q) (rd r) (rd s) c.segments 0 0 0 = energyForm c q r s := by
  rw [kin_eq_sum, energyForm]
  have h2 := rotor_sum (rd r) (rd s) c.segments 0
  simp only [Nat.zero_add] at h2 ⊢
  rw [← hc.2] at h2
  have h3 : ∑ k ∈ range c.nrOfJoints, r.getD k 0 * (jntInertia c k * s.getD k 0) = _ := h2.symm
  rw [h3, hc.1, ← sum_add_distrib]
  refine sum_congr rfl fun i hi => ?_
  have hi' : i < c.segments.length := by simpa using hi
  rw [segTwist_eq c hc hv q r i hq hr (by rw [hc.1]; exact hi'), segTwist_eq c hc hv q s i hq hs (by rw [hc.1]; exact hi'),
    List.getElem?_eq_getElem hi']
  simp [segInertia, hi']

theorem rd_unitJnt (n k : ℕ) (hk : k < n) : rd (unitJnt n k) = unitRate k := by
  funext i
  simp only [rd, unitJnt, unitRate]
  by_cases hi : i < n
  · simp [hi]
  · simp [hi]; omega
theorem unitJnt_length (n k : ℕ) : (unitJnt n k).length = n := by simp [unitJnt]

/-! ## C40 -/

/-- The computed matrix is the matrix of the kinetic energy form: for all rates `r`, `s`,
`rᵀ H s = Σ_i twist_i(r) · I_i twist_i(s) + Σ_k r_k J_k s_k`.  Here `r = s` gives twice the kinetic energy, and unit rates
give the single entries.  No undefined behaviour, whatever the previous contents of the matrix. -/
theorem C40_form (c : Chain) (hc : c.WF) (hv : c.Valid) (hI : c.SymmI) (q : List ℝ) (hq : q.length = c.nrOfJoints)
    (grav : Vec) (H0 : JMat) (hH : H0.n = c.nrOfJoints) :
    ∃ H, (DynState.new c grav).mass c q H0 = some (E_NOERROR, H) ∧ H.n = c.nrOfJoints ∧
      ∀ r s : List ℝ, r.length = c.nrOfJoints → s.length = c.nrOfJoints →
        ∑ x ∈ range c.nrOfJoints, ∑ y ∈ range c.nrOfJoints, r.getD x 0 * H.d x y * s.getD y 0 = energyForm c q r s := by
  obtain ⟨H, e1, e2, e3⟩ := jntToMass_eq c hc hv hI q H0 hq hH
  refine ⟨H, e1, e2, fun r s hr hs => ?_⟩
  rw [← kin_eq_energyForm c hc hv q r s hq hr hs]
  exact e3 (rd r) (rd s)

/-- Entry by entry. -/
theorem C40_entries (c : Chain) (hc : c.WF) (hv : c.Valid) (hI : c.SymmI) (q : List ℝ) (hq : q.length = c.nrOfJoints)
    (grav : Vec) (H0 H : JMat) (hH : H0.n = c.nrOfJoints)
    (hm : (DynState.new c grav).mass c q H0 = some (E_NOERROR, H)) (k l : ℕ) (hk : k < c.nrOfJoints) (hl : l < c.nrOfJoints) :
    H.d k l = energyForm c q (unitJnt c.nrOfJoints k) (unitJnt c.nrOfJoints l) := by
  obtain ⟨H', e1, e2, e3⟩ := jntToMass_eq c hc hv hI q H0 hq hH
  have : some (E_NOERROR, H) = some (E_NOERROR, H') := hm.symm.trans e1
  cases this
  rw [← kin_eq_energyForm c hc hv q _ _ hq (unitJnt_length _ _) (unitJnt_length _ _), rd_unitJnt _ _ hk, rd_unitJnt _ _ hl,
    ← e3, form_unit _ _ hk]
  rw [sum_eq_single l]
  · simp [unitRate]
  · intro b _ hb; simp [unitRate, hb]
  · simp [hl]

theorem RBI.dot_comm {i : RBI} (h : i.I.tr = i.I) (u w : Twist) : u.dot (i * w) = w.dot (i * u) := by
  have : (ABI.ofRBI i).Symm := ⟨rfl, h⟩
  rw [← C38_ofRBI, ← C38_ofRBI]
  exact this.dot_comm u w

/-- The matrix is symmetric. -/
theorem C40_symmetric (c : Chain) (hc : c.WF) (hv : c.Valid) (hI : c.SymmI) (q : List ℝ) (hq : q.length = c.nrOfJoints)
    (grav : Vec) (H0 H : JMat) (hH : H0.n = c.nrOfJoints)
    (hm : (DynState.new c grav).mass c q H0 = some (E_NOERROR, H)) (k l : ℕ) (hk : k < c.nrOfJoints) (hl : l < c.nrOfJoints) :
    H.d k l = H.d l k := by
  rw [C40_entries c hc hv hI q hq grav H0 H hH hm k l hk hl, C40_entries c hc hv hI q hq grav H0 H hH hm l k hl hk]
  unfold energyForm
  congr 1
  · refine sum_congr rfl fun i hi => ?_
    have hi' : i < c.segments.length := by rw [← hc.1]; simpa using hi
    refine RBI.dot_comm ?_ _ _
    have : segInertia c i = c.segments[i].I := by simp [segInertia, hi']
    rw [this]; exact hI _ (List.getElem_mem hi')
  · exact sum_congr rfl fun k _ => by ring

/-- A physical body: nonnegative kinetic energy for every twist.  By C37 this holds for nonnegative mass and positive
semidefinite central inertia. -/
def RBI.PSD (i : RBI) : Prop := ∀ t : Twist, 0 ≤ t.dot (i * t)
/-- Positive definite body. -/
def RBI.PD (i : RBI) : Prop := ∀ t : Twist, t ≠ 0 → 0 < t.dot (i * t)

/-- Physical bodies and rotors give a positive semidefinite matrix. -/
theorem C40_psd (c : Chain) (hc : c.WF) (hv : c.Valid) (hI : c.SymmI) (hB : ∀ s ∈ c.segments, s.I.PSD)
    (hJ : ∀ s ∈ c.segments, 0 ≤ s.joint.inertia) (q : List ℝ) (hq : q.length = c.nrOfJoints)
    (grav : Vec) (H0 : JMat) (hH : H0.n = c.nrOfJoints) :
    ∃ H, (DynState.new c grav).mass c q H0 = some (E_NOERROR, H) ∧
      ∀ r : List ℝ, r.length = c.nrOfJoints →
        0 ≤ ∑ x ∈ range c.nrOfJoints, ∑ y ∈ range c.nrOfJoints, r.getD x 0 * H.d x y * r.getD y 0 := by
  obtain ⟨H, e1, _, e3⟩ := C40_form c hc hv hI q hq grav H0 hH
  refine ⟨H, e1, fun r hr => ?_⟩
  rw [e3 r r hr hr]
  refine add_nonneg (sum_nonneg fun i hi => ?_) (sum_nonneg fun k hk => ?_)
  · have hi' : i < c.segments.length := by rw [← hc.1]; simpa using hi
    have : segInertia c i = c.segments[i].I := by simp [segInertia, hi']
    rw [this]; exact hB _ (List.getElem_mem hi') _
  · have : 0 ≤ jntInertia c k := by
      unfold jntInertia
      rw [List.getD_eq_getElem?_getD]
      cases h : ((c.segments.filter Segment.moving).map fun s => s.joint.inertia)[k]? with
      | none => simp
      | some x =>
        have := List.mem_of_getElem? h
        simp only [List.mem_map, List.mem_filter] at this
        obtain ⟨s, hs, rfl⟩ := this
        exact hJ s hs.1
    nlinarith [mul_self_nonneg (r.getD k 0)]

/-- Physical chain without massless degrees of freedom: every body and rotor has nonnegative energy, and either all rotors
of moving joints have positive inertia, or all segments with a moving joint are positive definite bodies (and the joints'
scales are not zero). -/
def Chain.Massive (c : Chain) : Prop :=
  (∀ s ∈ c.segments, s.I.PSD ∧ 0 ≤ s.joint.inertia) ∧
  ((∀ s ∈ c.segments, s.moving → 0 < s.joint.inertia) ∨ (∀ s ∈ c.segments, s.moving → s.I.PD ∧ s.joint.scale ≠ 0))

theorem Joint.twist_ne_zero {j : Joint} (h : j.Valid) (hm : j.moving) (hs : j.scale ≠ 0) (v : Vec) :
    (j.twist 1).refPoint v ≠ 0 := by
  intro e
  have e1 : ((j.twist 1).refPoint v).vel = 0 := by rw [e]; rfl
  have e2 : (j.twist 1).rot = 0 := by
    have : ((j.twist 1).refPoint v).rot = 0 := by rw [e]; rfl
    exact this
  have e3 : (j.twist 1).vel = 0 := by
    simp only [Twist.refPoint, e2] at e1
    have z : (0 : Vec) * v = 0 := by ext <;> simp
    rwa [z, add_zero] at e1
  obtain ⟨name, type, scale, offset, inertia, damping, stiffness, axis, origin⟩ := j
  have ha : type = .RotAxis ∨ type = .TransAxis → axis ≠ 0 := by
    intro ht h0
    have := h ht
    simp only at this
    rw [h0] at this
    simp [Vec.dot] at this
  have hsm : ∀ {a : Vec}, (scale * 1) • a = 0 → a = 0 := fun {a} h => by
    rcases smul_eq_zero.mp h with h | h
    · exact absurd (by simpa using h) hs
    · exact h
  cases type <;> simp only [Joint.twist] at e2 e3 <;> simp only [Joint.moving] at hm
  case RotAxis => exact ha (Or.inl rfl) (hsm e2)
  case TransAxis => exact ha (Or.inr rfl) (hsm e3)
  case Fixed => simp at hm
  case RotX => exact hs (by simpa using congrArg Vec.x e2)
  case RotY => exact hs (by simpa using congrArg Vec.y e2)
  case RotZ => exact hs (by simpa using congrArg Vec.z e2)
  case TransX => exact hs (by simpa using congrArg Vec.x e3)
  case TransY => exact hs (by simpa using congrArg Vec.y e3)
  case TransZ => exact hs (by simpa using congrArg Vec.z e3)

theorem Ss_ne_zero (q : ℕ → ℝ) {s : Segment} (h : s.Valid) (hm : s.moving) (hs : s.joint.scale ≠ 0) (j : ℕ) :
    Ss q s j ≠ 0 := by
  intro e
  have hP : (Xs q s j).M.IsProper := isProper_Xs q h j
  unfold Ss at e
  rw [Rot.invTwist_eq] at e
  have h1 : (s.twist (qv s q j) 1).vel = 0 := by
    rw [← hP.app_inv_app (s.twist (qv s q j) 1).vel, show (Xs q s j).M.inv * (s.twist (qv s q j) 1).vel = 0 from congrArg Twist.vel e]
    ext <;> simp
  have h2 : (s.twist (qv s q j) 1).rot = 0 := by
    rw [← hP.app_inv_app (s.twist (qv s q j) 1).rot, show (Xs q s j).M.inv * (s.twist (qv s q j) 1).rot = 0 from congrArg Twist.rot e]
    ext <;> simp
  exact Joint.twist_ne_zero h.1 hm hs _ (Twist.ext h1 h2)

theorem kin_nonneg (q δ : ℕ → ℝ) : ∀ (ss : List Segment) (j : ℕ) (u : Twist),
    (∀ s ∈ ss, s.I.PSD ∧ 0 ≤ s.joint.inertia) → 0 ≤ kin q δ δ ss j u u := by
  intro ss
  induction ss with
  | nil => intro j u _; simp [kin]
  | cons s ss ih =>
    intro j u h
    unfold kin
    have h1 := (h s (by simp)).1 (up q δ s j u)
    have h2 := ih (nx s j) (up q δ s j u) (fun x hx => h x (by simp [hx]))
    have h3 : 0 ≤ qv s δ j * (s.joint.inertia * qv s δ j) := by
      nlinarith [mul_nonneg (h s (by simp)).2 (mul_self_nonneg (qv s δ j))]
    linarith

theorem kin_eq_zero (q δ : ℕ → ℝ) : ∀ (ss : List Segment) (j : ℕ) (u : Twist), (∀ s ∈ ss, s.Valid) →
    (∀ s ∈ ss, s.I.PSD ∧ 0 ≤ s.joint.inertia) →
    ((∀ s ∈ ss, s.moving → 0 < s.joint.inertia) ∨
      (u = 0 ∧ ∀ s ∈ ss, s.moving → s.I.PD ∧ s.joint.scale ≠ 0)) →
    kin q δ δ ss j u u = 0 → ∀ k < nMoving ss, δ (j + k) = 0 := by
  intro ss
  induction ss with
  | nil => intro j u _ _ _ _ k hk; simp [nMoving] at hk
  | cons s ss ih =>
    intro j u hv h hor h0 k hk
    unfold kin at h0
    have h1 := (h s (by simp)).1 (up q δ s j u)
    have h2 := kin_nonneg q δ ss (nx s j) (up q δ s j u) (fun x hx => h x (by simp [hx]))
    have h3 : 0 ≤ qv s δ j * (s.joint.inertia * qv s δ j) := by
      nlinarith [mul_nonneg (h s (by simp)).2 (mul_self_nonneg (qv s δ j))]
    have z1 : (up q δ s j u).dot (s.I * up q δ s j u) = 0 := by linarith
    have z2 : kin q δ δ ss (nx s j) (up q δ s j u) (up q δ s j u) = 0 := by linarith
    have z3 : qv s δ j * (s.joint.inertia * qv s δ j) = 0 := by linarith
    have hq : qv s δ j = 0 ∧ ((∀ s ∈ ss, s.moving → 0 < s.joint.inertia) ∨
      (up q δ s j u = 0 ∧ ∀ s ∈ ss, s.moving → s.I.PD ∧ s.joint.scale ≠ 0)) := by
      rcases hor with hi | ⟨hu, hi⟩
      · refine ⟨?_, Or.inl fun x hx => hi x (by simp [hx])⟩
        by_cases hm : s.moving
        · have := hi s (by simp) hm
          rcases mul_eq_zero.mp z3 with e | e
          · exact e
          · rcases mul_eq_zero.mp e with e | e
            · exact absurd e this.ne'
            · exact e
        · simp [qv, hm]
      · have hup : up q δ s j u = 0 ∧ qv s δ j = 0 := by
          by_cases hm : s.moving
          · obtain ⟨hpd, hsc⟩ := hi s (by simp) hm
            have e : up q δ s j u = 0 := by
              by_contra hne
              exact absurd z1 (hpd _ hne).ne'
            refine ⟨e, ?_⟩
            rw [up, hu, Frame.invTwist_zero, zero_add] at e
            rcases smul_eq_zero.mp e with e | e
            · exact e
            · exact absurd e (Ss_ne_zero q (hv s (by simp)) hm hsc j)
          · have : qv s δ j = 0 := by simp [qv, hm]
            exact ⟨by rw [up, hu, Frame.invTwist_zero, this, zero_smul, add_zero], this⟩
        exact ⟨hup.2, Or.inr ⟨hup.1, fun x hx => hi x (by simp [hx])⟩⟩
    have hih := ih (nx s j) _ (fun x hx => hv x (by simp [hx])) (fun x hx => h x (by simp [hx])) hq.2 z2
    rw [nMoving_cons] at hk
    by_cases hm : s.moving
    · cases k with
      | zero => have := hq.1; simp only [qv, if_pos hm] at this; simpa using this
      | succ k =>
        rw [if_pos hm] at hk
        have := hih k (by omega)
        simp only [nx, if_pos hm] at this
        rw [show j + (k + 1) = j + 1 + k by omega]; exact this
    · rw [if_neg hm] at hk
      have := hih k (by omega)
      simpa only [nx, if_neg hm] using this

/-- … and positive definite when there is no massless degree of freedom: `rᵀ H r > 0` for rates that are not all zero. -/
theorem C40_posdef (c : Chain) (hc : c.WF) (hv : c.Valid) (hI : c.SymmI) (hM : c.Massive) (q : List ℝ)
    (hq : q.length = c.nrOfJoints) (grav : Vec) (H0 : JMat) (hH : H0.n = c.nrOfJoints) :
    ∃ H, (DynState.new c grav).mass c q H0 = some (E_NOERROR, H) ∧ PosDefOn c.nrOfJoints H.d := by
  obtain ⟨H, e1, _, e3⟩ := jntToMass_eq c hc hv hI q H0 hq hH
  refine ⟨H, e1, fun x ⟨i, hi, hx⟩ => ?_⟩
  rw [e3 x x]
  refine lt_of_le_of_ne (kin_nonneg _ _ _ _ _ hM.1) fun h0 => hx ?_
  have := kin_eq_zero (rd q) x c.segments 0 0 hv hM.1 (hM.2.imp id fun h => ⟨rfl, h⟩) h0.symm i (by rw [← hc.2]; exact hi)
  simpa using this

/-- A body of positive mass whose central inertia is positive definite is a positive definite body. -/
theorem C40_body_pd (m : ℝ) (cg : Vec) (Ic : Mat3) (hm : 0 < m) (hI : ∀ v : Vec, v ≠ 0 → 0 < Vec.dot v (Ic * v)) :
    (RBI.ofCog m cg Ic).PD := by
  intro t ht
  rw [C37_energy]
  have sq : ∀ v : Vec, 0 ≤ Vec.dot v v := fun v => by
    simp only [Vec.dot]; nlinarith [mul_self_nonneg v.x, mul_self_nonneg v.y, mul_self_nonneg v.z]
  have sqp : ∀ v : Vec, v ≠ 0 → 0 < Vec.dot v v := fun v hv => by
    refine lt_of_le_of_ne (sq v) fun e => hv ?_
    simp only [Vec.dot] at e
    have hx : v.x * v.x = 0 := by nlinarith [mul_self_nonneg v.x, mul_self_nonneg v.y, mul_self_nonneg v.z]
    have hy : v.y * v.y = 0 := by nlinarith [mul_self_nonneg v.x, mul_self_nonneg v.y, mul_self_nonneg v.z]
    have hz : v.z * v.z = 0 := by nlinarith [mul_self_nonneg v.x, mul_self_nonneg v.y, mul_self_nonneg v.z]
    exact Vec.ext (mul_self_eq_zero.mp hx) (mul_self_eq_zero.mp hy) (mul_self_eq_zero.mp hz)
  by_cases hr : t.rot = 0
  · have hv : t.vel ≠ 0 := fun h => ht (Twist.ext h hr)
    rw [hr]
    have z : (0 : Vec) * cg = 0 := by ext <;> simp
    have z2 : Vec.dot 0 (Ic * (0 : Vec)) = 0 := by simp [Vec.dot]
    rw [z, z2, add_zero, add_zero]
    exact mul_pos hm (sqp _ hv)
  · have := hI _ hr
    have := mul_nonneg hm.le (sq (t.vel + t.rot * cg))
    linarith

/-- Outcomes of the wrong calls: the matrix is left alone and the code tells the cause. -/
theorem C40_errors (d : DynState) (c : Chain) (q : List ℝ) (H0 : JMat) :
    ((d.nj ≠ c.nrOfJoints ∨ d.ns ≠ c.nrOfSegments) → d.mass c q H0 = some (E_NOT_UP_TO_DATE, H0)) ∧
    (d.nj = c.nrOfJoints → d.ns = c.nrOfSegments → (q.length ≠ d.nj ∨ H0.n ≠ d.nj) →
      d.mass c q H0 = some (E_SIZE_MISMATCH, H0)) := by
  refine ⟨fun h => by unfold DynState.mass jntToMass; rw [if_pos h], fun h1 h2 h => ?_⟩
  unfold DynState.mass jntToMass; rw [if_neg (by tauto), if_pos h]

/-! ## C39 -/

/-- Inverse dynamics splits as `τ = H(q) q̈ + C(q,q̇) + G(q) − Σ_i J_iᵀ f_i`: the four solvers are consistent with each
other, where column `k` of `J_i` is the twist of segment `i` for unit rate of joint `k` (in the frame of the segment, the
frame in which the external wrenches are given).  All calls succeed, whatever the outputs held before. -/
theorem C39_decomposition (c : Chain) (hc : c.WF) (hv : c.Valid) (hI : c.SymmI) (grav : Vec) (q qd qdd : List ℝ)
    (fext : List Wrench) (τ0 C0 G0 : List ℝ) (H0 : JMat)
    (hq : q.length = c.nrOfJoints) (hqd : qd.length = c.nrOfJoints) (hqdd : qdd.length = c.nrOfJoints)
    (hf : fext.length = c.nrOfSegments) (hτ : τ0.length = c.nrOfJoints) (hC : C0.length = c.nrOfJoints)
    (hG : G0.length = c.nrOfJoints) (hH : H0.n = c.nrOfJoints) :
    ∃ τ H C G, idRne c c.nrOfJoints c.nrOfSegments grav q qd qdd fext τ0 = some (E_NOERROR, τ) ∧
      (DynState.new c grav).mass c q H0 = some (E_NOERROR, H) ∧
      (DynState.new c grav).coriolis c q qd C0 = some (E_NOERROR, C) ∧
      (DynState.new c grav).gravity c q G0 = some (E_NOERROR, G) ∧
      τ.length = c.nrOfJoints ∧ C.length = c.nrOfJoints ∧ G.length = c.nrOfJoints ∧ H.n = c.nrOfJoints ∧
      ∀ k < c.nrOfJoints, τ.getD k 0 =
        ∑ l ∈ range c.nrOfJoints, H.d k l * qdd.getD l 0 + C.getD k 0 + G.getD k 0 -
        ∑ i ∈ range c.nrOfSegments, (segTwist c q (unitJnt c.nrOfJoints k) i).dot (fext.getD i 0) := by
  obtain ⟨H, e1, e2, e3⟩ := jntToMass_eq c hc hv hI q H0 hq hH
  have hz : (List.replicate c.nrOfJoints (0:ℝ)).length = c.nrOfJoints := by simp
  have hw : (List.replicate c.nrOfSegments (0:Wrench)).length = c.nrOfSegments := by simp
  have hw' : (List.replicate c.segments.length (0:Wrench)).length = c.segments.length := by simp
  have hrz : rd (List.replicate c.nrOfJoints (0:ℝ)) = fun _ => 0 := by
    funext i; simp only [rd, List.getD_eq_getElem?_getD, List.getElem?_replicate]; split_ifs <;> rfl
  have hfl : fext.length = c.segments.length := by rw [hf, hc.1]
  have eC : (DynState.new c grav).coriolis c q qd C0 = some (E_NOERROR, _) :=
    idRne_eq c hc 0 q qd (List.replicate c.nrOfJoints 0) (List.replicate c.nrOfSegments 0) C0 hq hqd hz hC hw
  have eG : (DynState.new c grav).gravity c q G0 = some (E_NOERROR, _) :=
    idRne_eq c hc grav q (List.replicate c.nrOfJoints 0) (List.replicate c.nrOfJoints 0)
      (List.replicate c.nrOfSegments 0) G0 hq hz hz hG hw
  rw [hrz, hc.1] at eC eG
  refine ⟨_, H, _, _, idRne_eq c hc grav q qd qdd fext τ0 hq hqd hqdd hτ hf, e1, eC, eG, ?_, ?_, ?_, e2, ?_⟩
  · rw [rneF_length _ _ _ _ _ _ _ _ hfl, hc.2]
  · rw [rneF_length _ _ _ _ _ _ _ _ hw', hc.2]
  · rw [rneF_length _ _ _ _ _ _ _ _ hw', hc.2]
  intro k hk
  have vw := fun a b fes (h : List.length fes = c.segments.length) (x : Twist) =>
    virtual_work (rd q) a b (unitRate k) c.segments fes 0 0 0 x hv h
  have t1 := vw (rd qd) (rd qdd) fext hfl (-⟨grav, 0⟩)
  have t2 := vw (rd qd) (fun _ => 0) _ hw' (-⟨0, 0⟩)
  have t3 := vw (fun _ => 0) (fun _ => 0) _ hw' (-⟨grav, 0⟩)
  rw [Twist.zero_dot, add_zero, wsum_unit _ _ (by rw [rneF_length _ _ _ _ _ _ _ _ hfl, ← hc.2]; exact hk)] at t1
  rw [Twist.zero_dot, add_zero, wsum_unit _ _ (by rw [rneF_length _ _ _ _ _ _ _ _ hw', ← hc.2]; exact hk)] at t2 t3
  rw [hc.1, t1, t2, t3]
  have a0 : (-⟨0, 0⟩ : Twist) = 0 := by ext <;> simp
  have s1 := lw_accel (rd q) (rd qd) (rd qdd) (unitRate k) c.segments fext 0 0 0 (-⟨grav, 0⟩) 0 hfl
  have s2 := lw_split (rd q) (rd qd) (unitRate k) c.segments fext 0 0 0 0 (-⟨grav, 0⟩) hfl
  rw [add_zero] at s1
  rw [zero_add] at s2
  rw [s1, s2, a0, ← e3, form_unit _ _ hk, few_eq_sum _ _ _ _ _ _ hfl]
  have : ∑ i ∈ range c.segments.length, (segTwist c q (unitJnt c.nrOfJoints k) i).dot (fext.getD i 0) =
      ∑ i ∈ range c.segments.length, (uP (rd q) (unitRate k) (c.segments.take (i + 1)) 0 0).dot (fext.getD i 0) := by
    refine sum_congr rfl fun i hi => ?_
    rw [segTwist_eq c hc hv q _ i hq (unitJnt_length _ _) (by rw [hc.1]; simpa using hi), rd_unitJnt _ _ hk]
  rw [this]
  simp only [rd]
  ring

/-- Pose of the tip of segment `i` as reported by the position solver. -/
def segFrame (c : Chain) (q : List ℝ) (i : ℕ) : Frame :=
  match fkPos c q ((i + 1 : ℕ) : ℤ) with
  | some (_, F) => F
  | none => 1
/-- Momentum of segment `i` with respect to the base origin, in base coordinates. -/
def segMomentum (c : Chain) (q qd : List ℝ) (i : ℕ) : Wrench :=
  segFrame c q i * (segInertia c i * segTwist c q qd i)
/-- Weight of segment `i`: the force `m g` acting in the centre of gravity; moment about the base origin
(`m·c = h` for a body with centre of gravity `c`). -/
def segWeight (c : Chain) (q : List ℝ) (g : Vec) (i : ℕ) : Wrench :=
  ⟨(segInertia c i).m • g, ((segInertia c i).m • (segFrame c q i).p + (segFrame c q i).M * (segInertia c i).h) * g⟩

theorem segFrame_eq (c : Chain) (hc : c.WF) (q : List ℝ) (i : ℕ) (hq : q.length = c.nrOfJoints) (hi : i < c.nrOfSegments) :
    segFrame c q i = fkF (rd q) (c.segments.take (i + 1)) 0 := by
  have hbi : nMoving (c.segments.take (i + 1)) ≤ c.nrOfJoints := by rw [hc.2]; exact nMoving_take_le _ _
  have : fkPos c q ((i + 1 : ℕ) : ℤ) = some (E_NOERROR, fkF (rd q) (c.segments.take (i + 1)) 0) := by
    unfold fkPos
    simp only [segmentNr_ofNat]
    rw [if_neg (by simp [hq]), if_neg (by omega), fkLoop_eq _ _ _ _ (by omega)]
    simp
  simp only [segFrame, this]

/-- The segment twist is the twist of the moving tip frame, expressed in that frame. -/
theorem segFrame_hasTwist (c : Chain) (hc : c.WF) (hv : c.Valid) (Q : ℝ → List ℝ) (qd : List ℝ) (t : ℝ)
    (hQ : ∀ s, (Q s).length = c.nrOfJoints) (hqd : qd.length = c.nrOfJoints)
    (hd : ∀ j, HasDerivAt (fun s => (Q s).getD j 0) (qd.getD j 0) t) (i : ℕ) (hi : i < c.nrOfSegments) :
    ∃ w, Frame.HasTwist (fun s => segFrame c (Q s) i) w t ∧
      segTwist c (Q t) qd i = (segFrame c (Q t) i).M.invTwist w := by
  obtain ⟨F, v, e1, e2, e3, e4⟩ := C26_fkVel c hc hv Q qd t hQ hqd hd ((i + 1 : ℕ) : ℤ) (by rw [segmentNr_ofNat]; omega)
  have hF : (fun s => segFrame c (Q s) i) = F := by funext s; simp only [segFrame, e1]
  refine ⟨v.getTwist, by rw [hF]; exact e4, ?_⟩
  have : segFrame c (Q t) i = F t := congrFun hF t
  rw [this, ← e3]
  simp only [segTwist, e2]

/-- The computed torques are those of Newton's and Euler's laws (d'Alembert's principle): along any trajectory, the
torque of joint `k` is the power, under unit rate of that joint, of `dP_i/dt − weight_i − external wrench_i` summed over the
segments, plus the rotor's `J_k q̈_k`.  `P_i` is the momentum of the body in the inertial base frame, whose derivative
exists. -/
theorem C39_newton (c : Chain) (hc : c.WF) (hv : c.Valid) (grav : Vec) (Q Qd : ℝ → List ℝ) (qdd : List ℝ) (t : ℝ)
    (fext : List Wrench) (τ0 : List ℝ) (hQ : ∀ s, (Q s).length = c.nrOfJoints) (hQd : ∀ s, (Qd s).length = c.nrOfJoints)
    (hqdd : qdd.length = c.nrOfJoints) (hf : fext.length = c.nrOfSegments) (hτ : τ0.length = c.nrOfJoints)
    (h1 : ∀ j, HasDerivAt (fun s => (Q s).getD j 0) ((Qd t).getD j 0) t)
    (h2 : ∀ j, HasDerivAt (fun s => (Qd s).getD j 0) (qdd.getD j 0) t) :
    ∃ (τ : List ℝ) (Pd : ℕ → Wrench),
      idRne c c.nrOfJoints c.nrOfSegments grav (Q t) (Qd t) qdd fext τ0 = some (E_NOERROR, τ) ∧
      τ.length = c.nrOfJoints ∧
      (∀ i < c.nrOfSegments, Wrench.HasDeriv (fun s => segMomentum c (Q s) (Qd s) i) (Pd i) t) ∧
      ∀ k < c.nrOfJoints, τ.getD k 0 =
        (∑ i ∈ range c.nrOfSegments, (segFrame c (Q t) i * segTwist c (Q t) (unitJnt c.nrOfJoints k) i).dot
          (Pd i - segWeight c (Q t) grav i - segFrame c (Q t) i * fext.getD i 0)) + jntInertia c k * qdd.getD k 0 := by
  have hfl : fext.length = c.segments.length := by rw [hf, hc.1]
  have hFp : ∀ i, (fkF (rd (Q t)) (c.segments.take (i + 1)) 0).IsProper := fun i =>
    isProper_fkF _ _ _ (fun s hs => hv s (List.mem_of_mem_take hs))
  refine ⟨_, fun i => segFrame c (Q t) i * (segInertia c i *
      aP (rd (Q t)) (rd (Qd t)) (rd qdd) (c.segments.take (i + 1)) 0 0 0 +
      segTwist c (Q t) (Qd t) i * (segInertia c i * segTwist c (Q t) (Qd t) i)),
    idRne_eq c hc grav (Q t) (Qd t) qdd fext τ0 (hQ t) (hQd t) hqdd hτ hf, ?_, ?_, ?_⟩
  · rw [rneF_length _ _ _ _ _ _ _ _ hfl, hc.2]
  · intro i hi
    obtain ⟨w, hw, e⟩ := segFrame_hasTwist c hc hv Q (Qd t) t hQ (hQd t) h1 i hi
    have hder : Twist.HasDeriv (fun s => segTwist c (Q s) (Qd s) i)
        (aP (rd (Q t)) (rd (Qd t)) (rd qdd) (c.segments.take (i + 1)) 0 0 0) t := by
      have := uP_hasDeriv (Q := fun s => rd (Q s)) (Qd := fun s => rd (Qd s)) (qdd := rd qdd) (τ := t) h1 h2
        (c.segments.take (i + 1)) 0 (fun _ => 0) 0 (fun s hs => hv s (List.mem_of_mem_take hs)) (.const 0 t)
      refine cast ?_ this
      congr 1
      funext s
      rw [segTwist_eq c hc hv _ _ i (hQ s) (hQd s) hi]
    have hp : (segFrame c (Q t) i).IsProper := by rw [segFrame_eq c hc _ i (hQ t) hi]; exact hFp i
    have := Wrench.hasDeriv_app hw hp (RBI.hasDeriv_mul (segInertia c i) hder)
    rw [← e] at this
    exact this
  · intro k hk
    have t1 := virtual_work (rd (Q t)) (rd (Qd t)) (rd qdd) (unitRate k) c.segments fext 0 0 0 (-⟨grav, 0⟩) hv hfl
    rw [Twist.zero_dot, add_zero, wsum_unit _ _ (by rw [rneF_length _ _ _ _ _ _ _ _ hfl, ← hc.2]; exact hk)] at t1
    rw [t1, lw_eq_sum _ _ _ _ _ _ _ _ _ _ hfl]
    have hr := rotor_sum (unitRate k) (rd qdd) c.segments 0
    have hr' : ∑ j ∈ range (nMoving c.segments), unitRate k (0 + j) *
        (((c.segments.filter Segment.moving).map fun s => s.joint.inertia).getD j 0 * rd qdd (0 + j)) =
        jntInertia c k * qdd.getD k 0 := by
      rw [← hc.2, sum_eq_single k]
      · simp [unitRate, jntInertia, rd]
      · intro b _ hb; simp [unitRate, hb]
      · simp [hk]
    rw [← hr', ← hr, hc.1, ← sum_add_distrib]
    refine sum_congr rfl fun i hi => ?_
    have hi' : i < c.segments.length := by simpa using hi
    have hi2 : i < c.nrOfSegments := by rw [hc.1]; exact hi'
    rw [List.getElem?_eq_getElem hi']
    simp only
    congr 1
    have hI : segInertia c i = c.segments[i].I := by simp [segInertia, hi']
    rw [segWeight, hI, segTwist_eq c hc hv _ _ i (hQ t) (hQd t) hi2,
      segTwist_eq c hc hv _ _ i (hQ t) (unitJnt_length _ _) hi2, rd_unitJnt _ _ hk, segFrame_eq c hc _ i (hQ t) hi2]
    have ha := aP_add (rd (Q t)) (rd (Qd t)) (rd qdd) (c.segments.take (i + 1)) 0 0 0 (-⟨grav, 0⟩)
      (fun s hs => hv s (List.mem_of_mem_take hs))
    rw [zero_add] at ha
    have hg := congrArg Neg.neg (grav_wrench _ (hFp i) c.segments[i].I grav)
    rw [neg_neg] at hg
    rw [ha, ← hg, sub_neg_eq_add, ← Frame.app_add_wrench, ← Frame.app_sub_wrench,
      C04_power_frame _ (hFp i)]
    congr 1
    unfold fl
    rw [RBI.mul_add]
    abel

/-- Outcomes of the wrong calls: the torques are left alone and the code tells the cause. -/
theorem C39_errors (c : Chain) (nj ns : ℕ) (grav : Vec) (q qd qdd : List ℝ) (fext : List Wrench) (τ : List ℝ) :
    ((nj ≠ c.nrOfJoints ∨ ns ≠ c.nrOfSegments) → idRne c nj ns grav q qd qdd fext τ = some (E_NOT_UP_TO_DATE, τ)) ∧
    (nj = c.nrOfJoints → ns = c.nrOfSegments →
      (q.length ≠ nj ∨ qd.length ≠ nj ∨ qdd.length ≠ nj ∨ τ.length ≠ nj ∨ fext.length ≠ ns) →
      idRne c nj ns grav q qd qdd fext τ = some (E_SIZE_MISMATCH, τ)) := by
  refine ⟨fun h => by unfold idRne; rw [if_pos h], fun h1 h2 h => ?_⟩
  unfold idRne; rw [if_neg (by tauto), if_pos h]

/-! ## Non-vacuity -/

/-- A link of mass 1 at distance 1 from a revolute joint, followed by a prismatic one with a fixed flange. -/
def exLink (n : String) (ty : JointType) : Segment :=
  ⟨n, ⟨n, ty, 1, 0, 0, 0, 0, 0, 0⟩, RBI.ofCog 1 ⟨1, 0, 0⟩ (rotationalInertia 1 1 1 0 0 0), ⟨1, ⟨1, 0, 0⟩⟩⟩
def exChain : Chain := ⟨2, 3, [exLink "a" .RotZ, exLink "b" .TransX, exLink "c" .Fixed]⟩

theorem exLink_pd (n : String) (ty : JointType) : (exLink n ty).I.PD := by
  refine C40_body_pd _ _ _ one_pos fun v hv => ?_
  simp only [rotationalInertia, Vec.dot, Mat3.app_x, Mat3.app_y, Mat3.app_z]
  have : v.x ≠ 0 ∨ v.y ≠ 0 ∨ v.z ≠ 0 := by
    by_contra h; push Not at h; exact hv (Vec.ext h.1 h.2.1 h.2.2)
  rcases this with h | h | h <;> have := mul_self_pos.mpr h <;>
    nlinarith [mul_self_nonneg v.x, mul_self_nonneg v.y, mul_self_nonneg v.z]
theorem exLink_valid (n : String) (ty : JointType) (h : ty ≠ .RotAxis ∧ ty ≠ .TransAxis) : (exLink n ty).Valid := by
  refine ⟨fun hh => ?_, ?_⟩
  · simp only [exLink] at hh; exact absurd hh (by tauto)
  · simp only [exLink]; exact Rot.IsProper.one
theorem exChain_ok : exChain.WF ∧ exChain.Valid ∧ exChain.SymmI ∧ exChain.Massive := by
  have hmem : ∀ s ∈ exChain.segments, ∃ n ty, s = exLink n ty ∧ ty ≠ .RotAxis ∧ ty ≠ .TransAxis := by
    intro s hs
    simp only [exChain, List.mem_cons, List.not_mem_nil, or_false] at hs
    rcases hs with rfl | rfl | rfl <;> exact ⟨_, _, rfl, by simp, by simp⟩
  refine ⟨⟨rfl, rfl⟩, fun s hs => ?_, fun s hs => ?_, fun s hs => ?_, Or.inr fun s hs _ => ?_⟩ <;>
    obtain ⟨n, ty, rfl, ht⟩ := hmem s hs
  · exact exLink_valid n ty ht
  · simp only [exLink, RBI.ofCog, rotationalInertia]
    ext <;> simp [Mat3.tr, Mat3.sub_def, Mat3.smul_def, Mat3.outer, Mat3.one_def]
  · refine ⟨fun t => ?_, by simp [exLink]⟩
    by_cases h : t = 0
    · subst h
      rw [Twist.zero_dot]
    · exact (exLink_pd n ty t h).le
  · exact ⟨exLink_pd n ty, by simp [exLink]⟩

/-- The hypotheses of C39 and C40 hold for the example, and its inertia matrix is not diagonal by accident: it is positive
definite for every position. -/
example (a b : ℝ) : ∃ H, (DynState.new exChain ⟨0, 0, -9.81⟩).mass exChain [a, b] ⟨2, fun _ _ => 7⟩ = some (0, H) ∧
    PosDefOn 2 H.d := by
  obtain ⟨h1, h2, h3, h4⟩ := exChain_ok
  exact C40_posdef exChain h1 h2 h3 h4 [a, b] rfl _ _ rfl
example : ∃ τ H C G, idRne exChain 2 3 ⟨0, 0, -9.81⟩ [1, 2] [3, 4] [5, 6] [0, 0, ⟨⟨1, 0, 0⟩, 0⟩] [0, 0] = some (0, τ) ∧
    (DynState.new exChain ⟨0, 0, -9.81⟩).mass exChain [1, 2] ⟨2, fun _ _ => 7⟩ = some (0, H) ∧
    (DynState.new exChain ⟨0, 0, -9.81⟩).coriolis exChain [1, 2] [3, 4] [0, 0] = some (0, C) ∧
    (DynState.new exChain ⟨0, 0, -9.81⟩).gravity exChain [1, 2] [0, 0] = some (0, G) := by
  obtain ⟨h1, h2, h3, _⟩ := exChain_ok
  obtain ⟨τ, H, C, G, e⟩ := C39_decomposition exChain h1 h2 h3 ⟨0, 0, -9.81⟩ [1, 2] [3, 4] [5, 6] [0, 0, ⟨⟨1, 0, 0⟩, 0⟩]
    [0, 0] [0, 0] [0, 0] ⟨2, fun _ _ => 7⟩ rfl rfl rfl rfl rfl rfl rfl rfl
  exact ⟨τ, H, C, G, e.1, e.2.1, e.2.2.1, e.2.2.2.1⟩
/-- A pendulum: with gravity along −y and the link along x the holding torque is `m g l` at the centre of gravity, 2 m from
the axis (the tip frame is at 1 m, the centre of gravity 1 m beyond it). -/
example : ∃ τ, idRne ⟨1, 1, [exLink "a" .RotZ]⟩ 1 1 ⟨0, -10, 0⟩ [0] [0] [0] [0] [0] = some (0, τ) ∧ τ = [20] := by
  refine ⟨_, idRne_eq ⟨1, 1, [exLink "a" .RotZ]⟩ ⟨rfl, rfl⟩ ⟨0, -10, 0⟩ [0] [0] [0] [0] [0] rfl rfl rfl rfl rfl, ?_⟩
  · simp [rneF, exLink, Segment.moving, Joint.moving, rd, Ss, Xs, qv, up, ap, fl, Segment.twist, Segment.pose, Joint.twist,
      Joint.pose, Twist.dot, Vec.dot, Frame.ofRot, Rot.rotZ, Twist.refPoint, Frame.invTwist, Rot.invTwist, Rot.invVec,
      RBI.mul_twist, RBI.ofCog]
    norm_num

end KDL
