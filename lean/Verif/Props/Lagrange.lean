import Verif.Lemmas.Lagrange
import Verif.Props.Energy
import Verif.Props.ForwardDynamics
import Mathlib.Analysis.Calculus.MeanValue

/-! C88: inverse dynamics satisfies Lagrange's equations; the Coriolis torques are those of the Christoffel symbols of the
inertia matrix; a motion that follows the forward dynamics without torques keeps its energy. -/

noncomputable section
namespace KDL
open Finset

/-! ## Specification vocabulary -/

/-- Generalised momentum of joint `k`: the partial derivative of the kinetic energy with respect to the joint's rate. -/
def genMomentum (c : Chain) (q qd : List ℝ) (k : ℕ) : ℝ :=
  deriv (fun x => kineticEnergy c q (qd.set k x)) (qd.getD k 0)
/-- Entry of the joint space inertia matrix that `JntToMass` computes. -/
def inertiaEntry (c : Chain) (grav : Vec) (q : List ℝ) (i j : ℕ) : ℝ :=
  match (DynState.new c grav).mass c q ⟨c.nrOfJoints, fun _ _ => 0⟩ with
  | some (_, H) => H.d i j
  | none => 0

/-! ## auxiliary -/

/-- Derivative of the energy form in direction `ε` with fixed rates. -/
def dForm (c : Chain) (q ε r s : List ℝ) : ℝ :=
  ∑ i ∈ range c.nrOfSegments,
    ((dP (rd q) (rd ε) (rd r) (c.segments.take (i + 1)) 0 0 0).dot (segInertia c i * segTwist c q s i) +
      (segTwist c q r i).dot (segInertia c i * dP (rd q) (rd ε) (rd s) (c.segments.take (i + 1)) 0 0 0))

theorem segTwist_hasDeriv (c : Chain) (hc : c.WF) (hv : c.Valid) (Q R : ℝ → List ℝ) (ε r' : List ℝ) (t : ℝ)
    (hQ : ∀ s, (Q s).length = c.nrOfJoints) (hR : ∀ s, (R s).length = c.nrOfJoints) (hr : r'.length = c.nrOfJoints)
    (h1 : ∀ j, HasDerivAt (fun s => (Q s).getD j 0) (ε.getD j 0) t)
    (h2 : ∀ j, HasDerivAt (fun s => (R s).getD j 0) (r'.getD j 0) t) (i : ℕ) (hi : i < c.nrOfSegments) :
    Twist.HasDeriv (fun s => segTwist c (Q s) (R s) i)
      (dP (rd (Q t)) (rd ε) (rd (R t)) (c.segments.take (i + 1)) 0 0 0 + segTwist c (Q t) r' i) t := by
  have h0 : Twist.HasDeriv (fun _ => (0 : Twist)) (0 + 0) t := by rw [add_zero]; exact .const 0 t
  have := uP_hasDeriv_dir (Q := fun s => rd (Q s)) (R := fun s => rd (R s)) (ε := rd ε) (r' := rd r') (τ := t) h1 h2
    (c.segments.take (i + 1)) 0 (fun _ => 0) 0 0 (fun s hs => hv s (List.mem_of_mem_take hs)) h0
  rw [← segTwist_eq c hc hv _ _ i (hQ t) hr hi] at this
  refine cast ?_ this
  congr 1
  funext s
  rw [segTwist_eq c hc hv _ _ i (hQ s) (hR s) hi]

theorem energyForm_hasDeriv (c : Chain) (hc : c.WF) (hv : c.Valid) (Q R S : ℝ → List ℝ) (ε r' s' : List ℝ) (t : ℝ)
    (hQ : ∀ s, (Q s).length = c.nrOfJoints) (hR : ∀ s, (R s).length = c.nrOfJoints) (hS : ∀ s, (S s).length = c.nrOfJoints)
    (hr : r'.length = c.nrOfJoints) (hs : s'.length = c.nrOfJoints)
    (h1 : ∀ j, HasDerivAt (fun s => (Q s).getD j 0) (ε.getD j 0) t)
    (h2 : ∀ j, HasDerivAt (fun s => (R s).getD j 0) (r'.getD j 0) t)
    (h3 : ∀ j, HasDerivAt (fun s => (S s).getD j 0) (s'.getD j 0) t) :
    HasDerivAt (fun s => energyForm c (Q s) (R s) (S s))
      (dForm c (Q t) ε (R t) (S t) + energyForm c (Q t) r' (S t) + energyForm c (Q t) (R t) s') t := by
  unfold energyForm dForm
  have hA := HasDerivAt.fun_sum (u := range c.nrOfSegments) (x := t) fun i hi =>
    Twist.hasDeriv_dot (segTwist_hasDeriv c hc hv Q R ε r' t hQ hR hr h1 h2 i (by simpa using hi))
      (RBI.hasDeriv_mul (segInertia c i) (segTwist_hasDeriv c hc hv Q S ε s' t hQ hS hs h1 h3 i (by simpa using hi)))
  have hB := HasDerivAt.fun_sum (u := range c.nrOfJoints) (x := t) fun k _ =>
    (h2 k).mul ((h3 k).const_mul (jntInertia c k))
  refine (hA.add hB).congr_deriv ?_
  simp only [RBI.mul_add, Twist.dot_add, Twist.add_dot, sum_add_distrib]
  ring

theorem energyForm_comm (c : Chain) (hc : c.WF) (hI : c.SymmI) (q r s : List ℝ) :
    energyForm c q r s = energyForm c q s r := by
  unfold energyForm
  congr 1
  · refine sum_congr rfl fun i hi => RBI.dot_comm ?_ _ _
    have hi' : i < c.segments.length := by rw [← hc.1]; simpa using hi
    have : segInertia c i = c.segments[i].I := by simp [segInertia, hi']
    rw [this]; exact hI _ (List.getElem_mem hi')
  · exact sum_congr rfl fun k _ => by ring

theorem set_hasDeriv (q : List ℝ) (k : ℕ) (hk : k < q.length) (x : ℝ) (j : ℕ) :
    HasDerivAt (fun y => (q.set k y).getD j 0) ((unitJnt q.length k).getD j 0) x := by
  have hu : (unitJnt q.length k).getD j 0 = if j = k then 1 else 0 := by
    have := congrFun (rd_unitJnt q.length k hk) j
    exact this
  rw [hu]
  by_cases h : j = k
  · subst h
    rw [if_pos rfl]
    have : (fun y : ℝ => (q.set j y).getD j 0) = fun y => y := by
      funext y; simp [List.getD_eq_getElem?_getD, hk]
    rw [this]; exact hasDerivAt_id x
  · rw [if_neg h]
    have : (fun y : ℝ => (q.set k y).getD j 0) = fun _ => q.getD j 0 := by
      funext y; simp [List.getD_eq_getElem?_getD, List.getElem?_set_ne (Ne.symm h)]
    rw [this]; exact hasDerivAt_const x _

theorem set_getD_self (q : List ℝ) (k : ℕ) : q.set k (q.getD k 0) = q := by
  by_cases h : k < q.length
  · rw [List.getD_eq_getElem?_getD, List.getElem?_eq_getElem h]; simp
  · exact List.set_eq_of_length_le (by omega)

theorem getD_replicate_zero (n j : ℕ) : (List.replicate n (0:ℝ)).getD j 0 = 0 := by
  simp only [List.getD_eq_getElem?_getD, List.getElem?_replicate]; split_ifs <;> rfl

theorem dForm_zero (c : Chain) (q r s : List ℝ) : dForm c q (List.replicate c.nrOfJoints 0) r s = 0 := by
  have hrz : rd (List.replicate c.nrOfJoints (0:ℝ)) = fun _ => 0 := by
    funext i; exact getD_replicate_zero _ _
  unfold dForm
  rw [hrz]
  refine sum_eq_zero fun i _ => ?_
  rw [dP_zero, dP_zero, Twist.zero_dot]
  have : segInertia c i * (0 : Twist) = 0 := by
    show Wrench.mk _ _ = 0
    ext <;> simp
  rw [this, Twist.dot_zero, add_zero]

theorem momentum_hasDeriv (c : Chain) (hc : c.WF) (hv : c.Valid) (hI : c.SymmI) (q qd : List ℝ) (k : ℕ)
    (hq : q.length = c.nrOfJoints) (hqd : qd.length = c.nrOfJoints) (hk : k < c.nrOfJoints) :
    HasDerivAt (fun x => kineticEnergy c q (qd.set k x)) (energyForm c q (unitJnt c.nrOfJoints k) qd) (qd.getD k 0) := by
  have hl : ∀ x, (qd.set k x).length = c.nrOfJoints := fun x => by simp [hqd]
  have hd := set_hasDeriv qd k (by omega) (qd.getD k 0)
  rw [hqd] at hd
  have := energyForm_hasDeriv c hc hv (fun _ => q) (fun x => qd.set k x) (fun x => qd.set k x)
    (List.replicate c.nrOfJoints 0) (unitJnt c.nrOfJoints k) (unitJnt c.nrOfJoints k) (qd.getD k 0) (fun _ => hq) hl hl
    (unitJnt_length _ _) (unitJnt_length _ _) (fun j => by rw [getD_replicate_zero]; exact hasDerivAt_const _ _) hd hd
  unfold kineticEnergy
  refine (this.div_const 2).congr_deriv ?_
  simp only [set_getD_self]
  rw [dForm_zero, energyForm_comm c hc hI q qd]
  ring

theorem genMomentum_eq (c : Chain) (hc : c.WF) (hv : c.Valid) (hI : c.SymmI) (q qd : List ℝ) (k : ℕ)
    (hq : q.length = c.nrOfJoints) (hqd : qd.length = c.nrOfJoints) (hk : k < c.nrOfJoints) :
    genMomentum c q qd k = energyForm c q (unitJnt c.nrOfJoints k) qd :=
  (momentum_hasDeriv c hc hv hI q qd k hq hqd hk).deriv

theorem energyForm_zero (c : Chain) (hc : c.WF) (hv : c.Valid) (q s : List ℝ) (hq : q.length = c.nrOfJoints) :
    energyForm c q (List.replicate c.nrOfJoints 0) s = 0 := by
  have hrz : rd (List.replicate c.nrOfJoints (0:ℝ)) = fun _ => 0 := by
    funext i; exact getD_replicate_zero _ _
  have hu : ∀ (ss : List Segment) (j : ℕ), uP (rd q) (fun _ => 0) ss j 0 = 0 := by
    intro ss
    induction ss with
    | nil => intro j; rfl
    | cons s ss ih => intro j; unfold uP; rw [up_zero]; exact ih _
  unfold energyForm
  rw [sum_eq_zero, sum_eq_zero, add_zero]
  · intro k _; rw [getD_replicate_zero, zero_mul]
  · intro i hi
    rw [segTwist_eq c hc hv q _ i hq (by simp) (by simpa using hi), hrz, hu, Twist.zero_dot]

theorem Twist.sub_dot (a b : Twist) (w : Wrench) : (a - b).dot w = a.dot w - b.dot w := by
  show Vec.dot (a.vel - b.vel) _ + Vec.dot (a.rot - b.rot) _ = _
  simp [Twist.dot, Vec.dot]; ring

/-- The torque as derivative of the momentum minus derivative of the kinetic energy plus gravity. -/
theorem torque_eq (c : Chain) (hc : c.WF) (hv : c.Valid) (hI : c.SymmI) (grav : Vec) (q qd qdd : List ℝ)
    (fext : List Wrench) (hq : q.length = c.nrOfJoints) (hqd : qd.length = c.nrOfJoints) (hqdd : qdd.length = c.nrOfJoints)
    (hf : fext.length = c.nrOfSegments) (k : ℕ) (hk : k < c.nrOfJoints) :
    (rneF (rd q) (rd qd) (rd qdd) c.segments fext 0 0 (-⟨grav, 0⟩)).1.getD k 0 =
      dForm c q qd (unitJnt c.nrOfJoints k) qd + energyForm c q (unitJnt c.nrOfJoints k) qdd -
      dForm c q (unitJnt c.nrOfJoints k) qd qd / 2 +
      (∑ i ∈ range c.nrOfSegments, (segTwist c q (unitJnt c.nrOfJoints k) i).dot
        (segInertia c i * (segFrame c q i).invTwist (-⟨grav, 0⟩))) -
      ∑ i ∈ range c.nrOfSegments, (segTwist c q (unitJnt c.nrOfJoints k) i).dot (fext.getD i 0) := by
  have hfl : fext.length = c.segments.length := by rw [hf, hc.1]
  have hl := rneF_length (rd q) (rd qd) (rd qdd) c.segments fext 0 0 (-⟨grav, 0⟩) hfl
  have t1 := virtual_work (rd q) (rd qd) (rd qdd) (unitRate k) c.segments fext 0 0 0 (-⟨grav, 0⟩) hv hfl
  rw [Twist.zero_dot, add_zero, wsum_unit _ _ (by rw [hl, ← hc.2]; exact hk)] at t1
  rw [t1, lw_eq_sum _ _ _ _ _ _ _ _ _ _ hfl]
  have hr := rotor_sum (unitRate k) (rd qdd) c.segments 0
  have hr' : ∑ j ∈ range c.nrOfJoints, (unitJnt c.nrOfJoints k).getD j 0 * (jntInertia c j * qdd.getD j 0) =
      ∑ j ∈ range (nMoving c.segments), unitRate k (0 + j) *
        (((c.segments.filter Segment.moving).map fun s => s.joint.inertia).getD j 0 * rd qdd (0 + j)) := by
    rw [← hc.2]
    refine sum_congr rfl fun j _ => ?_
    rw [Nat.zero_add, ← rd_unitJnt _ _ hk]; rfl
  unfold energyForm
  rw [hr', ← hr]
  unfold dForm
  rw [hc.1, div_eq_mul_inv, sum_mul, ← sum_add_distrib, ← sum_add_distrib, ← sum_sub_distrib, ← sum_add_distrib, ← sum_sub_distrib]
  refine sum_congr rfl fun i hi => ?_
  have hi' : i < c.segments.length := by simpa using hi
  have hi2 : i < c.nrOfSegments := by rw [hc.1]; exact hi'
  rw [List.getElem?_eq_getElem hi']
  simp only
  have hIe : segInertia c i = c.segments[i].I := by simp [segInertia, hi']
  have hIs : c.segments[i].I.I.tr = c.segments[i].I.I := hI _ (List.getElem_mem hi')
  have hvt : ∀ s ∈ c.segments.take (i + 1), s.Valid := fun s hs => hv s (List.mem_of_mem_take hs)
  have ha := aP_add (rd q) (rd qd) (rd qdd) (c.segments.take (i + 1)) 0 0 0 (-⟨grav, 0⟩) hvt
  rw [zero_add] at ha
  have hd := aP_eq_dP (rd q) (rd qd) (rd qdd) (c.segments.take (i + 1)) 0 0 0 0
  rw [add_zero] at hd
  have hcm := dP_comm (rd q) (rd qd) (unitRate k) (c.segments.take (i + 1)) 0 0 0 0 0 hvt
    (by rw [sub_zero, Twist.cross_self])
  rw [ha, hd, hIe, segTwist_eq c hc hv q _ i hq hqd hi2, segTwist_eq c hc hv q _ i hq hqdd hi2,
    segTwist_eq c hc hv q _ i hq (unitJnt_length _ _) hi2, rd_unitJnt _ _ hk, segFrame_eq c hc q i hq hi2]
  generalize uP (rd q) (unitRate k) (c.segments.take (i + 1)) 0 0 = u at *
  generalize uP (rd q) (rd qd) (c.segments.take (i + 1)) 0 0 = v at *
  generalize uP (rd q) (rd qdd) (c.segments.take (i + 1)) 0 0 = w at *
  have h4 := congrArg (fun x : Twist => x.dot (c.segments[i].I * v)) hcm
  simp only [Twist.sub_dot, Twist.cross_dot] at h4
  rw [RBI.dot_comm hIs v]
  unfold fl
  rw [RBI.mul_add, RBI.mul_add, Twist.dot_sub, Twist.dot_add, Twist.dot_add, Twist.dot_add, ← h4]
  ring

theorem getD_unitJnt (n k j : ℕ) (hk : k < n) : (unitJnt n k).getD j 0 = if j = k then 1 else 0 :=
  congrFun (rd_unitJnt n k hk) j

theorem dForm_dir (c : Chain) (q ε r s : List ℝ) (hε : ε.length = c.nrOfJoints) :
    dForm c q ε r s = ∑ l ∈ range c.nrOfJoints, ε.getD l 0 * dForm c q (unitJnt c.nrOfJoints l) r s := by
  have hrd : rd ε = fun i => if i < c.nrOfJoints then rd ε i else 0 := by
    funext i
    by_cases h : i < c.nrOfJoints
    · rw [if_pos h]
    · rw [if_neg h]; simp only [rd]; rw [List.getD_eq_getElem?_getD, List.getElem?_eq_none (by omega)]; rfl
  have hs : ∀ (δ : ℕ → ℝ) (ss : List Segment), dP (rd q) (rd ε) δ ss 0 0 0 =
      ∑ l ∈ range c.nrOfJoints, rd ε l • dP (rd q) (unitRate l) δ ss 0 0 0 := fun δ ss => by
    have := dP_sum (rd q) δ ss 0 0 (rd ε) c.nrOfJoints
    rw [← hrd] at this
    exact this
  have hsd : ∀ (f : ℕ → Twist) (a : ℕ → ℝ) (n : ℕ) (w : Wrench),
      (∑ l ∈ range n, a l • f l).dot w = ∑ l ∈ range n, a l * (f l).dot w := by
    intro f a n w
    induction n with
    | zero => simp [Twist.zero_dot]
    | succ n ih =>
      rw [sum_range_succ, sum_range_succ, Twist.add_dot, ih]
      congr 1
      simp [Twist.dot, Vec.dot]; ring
  have hsI : ∀ (f : ℕ → Twist) (a : ℕ → ℝ) (n : ℕ) (u : Twist) (I : RBI),
      u.dot (I * ∑ l ∈ range n, a l • f l) = ∑ l ∈ range n, a l * u.dot (I * f l) := by
    intro f a n u I
    induction n with
    | zero =>
      have : I * (0 : Twist) = 0 := by
        show Wrench.mk _ _ = 0
        ext <;> simp
      simp [this, Twist.dot_zero]
    | succ n ih =>
      rw [sum_range_succ, sum_range_succ, RBI.mul_add, Twist.dot_add, ih]
      congr 1
      rw [(C37_linear I I (a n) 0 (f n)).2.2.2.1]
      simp [Twist.dot, Vec.dot]; ring
  unfold dForm
  simp only [hs, hsd, hsI]
  simp only [← sum_add_distrib]
  rw [sum_comm]
  refine sum_congr rfl fun l hl => ?_
  rw [mul_sum, rd_unitJnt _ _ (by simpa using hl)]
  refine sum_congr rfl fun i _ => ?_
  simp only [rd]
  ring

/-! ## C88 -/

/-- Lagrange's equations: along any trajectory, the torque that inverse dynamics returns for joint `k` is
`d/dt ∂T/∂q̇_k − ∂T/∂q_k + ∂U/∂q_k` minus the generalised force of the external wrenches.  All derivatives exist. -/
theorem C88_lagrange (c : Chain) (hc : c.WF) (hv : c.Valid) (hI : c.SymmI) (grav : Vec) (Q Qd : ℝ → List ℝ)
    (qdd : List ℝ) (t : ℝ) (fext : List Wrench) (τ0 : List ℝ)
    (hQ : ∀ s, (Q s).length = c.nrOfJoints) (hQd : ∀ s, (Qd s).length = c.nrOfJoints)
    (hqdd : qdd.length = c.nrOfJoints) (hf : fext.length = c.nrOfSegments) (hτ : τ0.length = c.nrOfJoints)
    (h1 : ∀ j, HasDerivAt (fun s => (Q s).getD j 0) ((Qd t).getD j 0) t)
    (h2 : ∀ j, HasDerivAt (fun s => (Qd s).getD j 0) (qdd.getD j 0) t) :
    ∃ (τ : List ℝ) (pd Tq Uq : ℕ → ℝ),
      idRne c c.nrOfJoints c.nrOfSegments grav (Q t) (Qd t) qdd fext τ0 = some (E_NOERROR, τ) ∧
      τ.length = c.nrOfJoints ∧
      ∀ k < c.nrOfJoints,
        (∀ s, DifferentiableAt ℝ (fun x => kineticEnergy c (Q s) ((Qd s).set k x)) ((Qd s).getD k 0)) ∧
        HasDerivAt (fun s => genMomentum c (Q s) (Qd s) k) (pd k) t ∧
        HasDerivAt (fun x => kineticEnergy c ((Q t).set k x) (Qd t)) (Tq k) ((Q t).getD k 0) ∧
        HasDerivAt (fun x => potentialEnergy c grav ((Q t).set k x)) (Uq k) ((Q t).getD k 0) ∧
        τ.getD k 0 = pd k - Tq k + Uq k -
          ∑ i ∈ range c.nrOfSegments, (segTwist c (Q t) (unitJnt c.nrOfJoints k) i).dot (fext.getD i 0) := by
  have hfl : fext.length = c.segments.length := by rw [hf, hc.1]
  refine ⟨_, fun k => dForm c (Q t) (Qd t) (unitJnt c.nrOfJoints k) (Qd t) +
      energyForm c (Q t) (unitJnt c.nrOfJoints k) qdd,
    fun k => dForm c (Q t) (unitJnt c.nrOfJoints k) (Qd t) (Qd t) / 2,
    fun k => ∑ i ∈ range c.nrOfSegments, (segTwist c (Q t) (unitJnt c.nrOfJoints k) i).dot
        (segInertia c i * (segFrame c (Q t) i).invTwist (-⟨grav, 0⟩)),
    idRne_eq c hc grav (Q t) (Qd t) qdd fext τ0 (hQ t) (hQd t) hqdd hτ hf, ?_, fun k hk => ⟨fun s => ?_, ?_, ?_, ?_, ?_⟩⟩
  · rw [rneF_length _ _ _ _ _ _ _ _ hfl, hc.2]
  · exact (momentum_hasDeriv c hc hv hI (Q s) (Qd s) k (hQ s) (hQd s) hk).differentiableAt
  · have := energyForm_hasDeriv c hc hv Q (fun _ => unitJnt c.nrOfJoints k) Qd (Qd t) (List.replicate c.nrOfJoints 0) qdd t
      hQ (fun _ => unitJnt_length _ _) hQd (by simp) hqdd h1
      (fun j => by rw [getD_replicate_zero]; exact hasDerivAt_const _ _) h2
    rw [energyForm_zero c hc hv _ _ (hQ t), add_zero] at this
    refine cast ?_ this
    congr 1
    funext s
    rw [genMomentum_eq c hc hv hI (Q s) (Qd s) k (hQ s) (hQd s) hk]
  · have hl : ∀ x, ((Q t).set k x).length = c.nrOfJoints := fun x => by simp [hQ]
    have hd := set_hasDeriv (Q t) k (by rw [hQ]; exact hk) ((Q t).getD k 0)
    rw [hQ] at hd
    have hz : ∀ j x, HasDerivAt (fun _ : ℝ => (Qd t).getD j 0) ((List.replicate c.nrOfJoints (0:ℝ)).getD j 0) x :=
      fun j x => by rw [getD_replicate_zero]; exact hasDerivAt_const _ _
    have := energyForm_hasDeriv c hc hv (fun x => (Q t).set k x) (fun _ => Qd t) (fun _ => Qd t) _
      (List.replicate c.nrOfJoints 0) (List.replicate c.nrOfJoints 0) ((Q t).getD k 0) hl (fun _ => hQd t) (fun _ => hQd t)
      (by simp) (by simp) hd (fun j => hz j _) (fun j => hz j _)
    unfold kineticEnergy
    refine (this.div_const 2).congr_deriv ?_
    simp only [set_getD_self]
    rw [energyForm_comm c hc hI _ (Qd t) (List.replicate _ _), energyForm_zero c hc hv _ _ (hQ t)]
    ring
  · have hl : ∀ x, ((Q t).set k x).length = c.nrOfJoints := fun x => by simp [hQ]
    have hd := set_hasDeriv (Q t) k (by rw [hQ]; exact hk) ((Q t).getD k 0)
    rw [hQ] at hd
    have := potential_hasDeriv c hc hv grav (fun x => (Q t).set k x) (unitJnt c.nrOfJoints k) ((Q t).getD k 0) hl
      (unitJnt_length _ _) hd
    simpa only [set_getD_self] using this
  · exact torque_eq c hc hv hI grav (Q t) (Qd t) qdd fext (hQ t) (hQd t) hqdd hf k hk

theorem inertiaEntry_form (c : Chain) (hc : c.WF) (hv : c.Valid) (hI : c.SymmI) (grav : Vec) (q r s : List ℝ)
    (hq : q.length = c.nrOfJoints) (hr : r.length = c.nrOfJoints) (hs : s.length = c.nrOfJoints) :
    energyForm c q r s =
      ∑ i ∈ range c.nrOfJoints, ∑ j ∈ range c.nrOfJoints, r.getD i 0 * inertiaEntry c grav q i j * s.getD j 0 := by
  obtain ⟨H, e, _, h⟩ := C40_form c hc hv hI q hq grav ⟨c.nrOfJoints, fun _ _ => 0⟩ rfl
  rw [← h r s hr hs]
  simp only [inertiaEntry, e]

theorem inertiaEntry_eq (c : Chain) (hc : c.WF) (hv : c.Valid) (hI : c.SymmI) (grav : Vec) (q : List ℝ)
    (hq : q.length = c.nrOfJoints) (i j : ℕ) (hi : i < c.nrOfJoints) (hj : j < c.nrOfJoints) :
    inertiaEntry c grav q i j = energyForm c q (unitJnt c.nrOfJoints i) (unitJnt c.nrOfJoints j) := by
  obtain ⟨H, e, _, h⟩ := C40_form c hc hv hI q hq grav ⟨c.nrOfJoints, fun _ _ => 0⟩ rfl
  rw [← C40_entries c hc hv hI q hq grav _ H rfl e i j hi hj]
  simp only [inertiaEntry, e]

theorem form_hasDeriv (c : Chain) (hc : c.WF) (hv : c.Valid) (hI : c.SymmI) (q r s : List ℝ) (k : ℕ)
    (hq : q.length = c.nrOfJoints) (hr : r.length = c.nrOfJoints) (hs : s.length = c.nrOfJoints) (hk : k < c.nrOfJoints) :
    HasDerivAt (fun x => energyForm c (q.set k x) r s) (dForm c q (unitJnt c.nrOfJoints k) r s) (q.getD k 0) := by
  have hl : ∀ x, (q.set k x).length = c.nrOfJoints := fun x => by simp [hq]
  have hd := set_hasDeriv q k (by rw [hq]; exact hk) (q.getD k 0)
  rw [hq] at hd
  have hz : ∀ (l : List ℝ) j x, HasDerivAt (fun _ : ℝ => l.getD j 0) ((List.replicate c.nrOfJoints (0:ℝ)).getD j 0) x :=
    fun l j x => by rw [getD_replicate_zero]; exact hasDerivAt_const _ _
  have := energyForm_hasDeriv c hc hv (fun x => q.set k x) (fun _ => r) (fun _ => s) _
    (List.replicate c.nrOfJoints 0) (List.replicate c.nrOfJoints 0) (q.getD k 0) hl (fun _ => hr) (fun _ => hs)
    (by simp) (by simp) hd (fun j => hz r j _) (fun j => hz s j _)
  simp only [set_getD_self] at this
  rw [energyForm_comm c hc hI _ r (List.replicate _ _), energyForm_zero c hc hv _ _ hq, energyForm_zero c hc hv _ _ hq,
    add_zero, add_zero] at this
  exact this

theorem dForm_rates (c : Chain) (hc : c.WF) (hv : c.Valid) (hI : c.SymmI) (q r s : List ℝ) (k : ℕ)
    (hq : q.length = c.nrOfJoints) (hr : r.length = c.nrOfJoints) (hs : s.length = c.nrOfJoints) (hk : k < c.nrOfJoints) :
    dForm c q (unitJnt c.nrOfJoints k) r s = ∑ i ∈ range c.nrOfJoints, ∑ j ∈ range c.nrOfJoints,
      r.getD i 0 * dForm c q (unitJnt c.nrOfJoints k) (unitJnt c.nrOfJoints i) (unitJnt c.nrOfJoints j) * s.getD j 0 := by
  have h1 := form_hasDeriv c hc hv hI q r s k hq hr hs hk
  have h2 : HasDerivAt (fun x => energyForm c (q.set k x) r s) (∑ i ∈ range c.nrOfJoints, ∑ j ∈ range c.nrOfJoints,
      r.getD i 0 * dForm c q (unitJnt c.nrOfJoints k) (unitJnt c.nrOfJoints i) (unitJnt c.nrOfJoints j) * s.getD j 0)
      (q.getD k 0) := by
    have e : (fun x => energyForm c (q.set k x) r s) = fun x => ∑ i ∈ range c.nrOfJoints, ∑ j ∈ range c.nrOfJoints,
        r.getD i 0 * energyForm c (q.set k x) (unitJnt c.nrOfJoints i) (unitJnt c.nrOfJoints j) * s.getD j 0 := by
      funext x
      rw [inertiaEntry_form c hc hv hI 0 (q.set k x) r s (by simp [hq]) hr hs]
      refine sum_congr rfl fun i hi => sum_congr rfl fun j hj => ?_
      rw [inertiaEntry_eq c hc hv hI 0 _ (by simp [hq]) i j (by simpa using hi) (by simpa using hj)]
    rw [e]
    refine HasDerivAt.fun_sum fun i _ => HasDerivAt.fun_sum fun j _ => ?_
    exact ((form_hasDeriv c hc hv hI q _ _ k hq (unitJnt_length _ _) (unitJnt_length _ _) hk).const_mul _).mul_const _
  exact h1.unique h2

/-- The Coriolis and centrifugal torques are those of the Christoffel symbols of the inertia matrix:
`C_k = Σ_ij ½ (∂H_ki/∂q_j + ∂H_kj/∂q_i − ∂H_ij/∂q_k) q̇_i q̇_j`, where `H` is what `JntToMass` computes and `D l i j` its
partial derivatives. -/
theorem C88_christoffel (c : Chain) (hc : c.WF) (hv : c.Valid) (hI : c.SymmI) (grav : Vec) (q qd C0 : List ℝ)
    (hq : q.length = c.nrOfJoints) (hqd : qd.length = c.nrOfJoints) (hC : C0.length = c.nrOfJoints) :
    ∃ (C : List ℝ) (D : ℕ → ℕ → ℕ → ℝ), (DynState.new c grav).coriolis c q qd C0 = some (E_NOERROR, C) ∧
      C.length = c.nrOfJoints ∧
      (∀ l < c.nrOfJoints, ∀ i < c.nrOfJoints, ∀ j < c.nrOfJoints,
        HasDerivAt (fun x => inertiaEntry c grav (q.set l x) i j) (D l i j) (q.getD l 0)) ∧
      ∀ k < c.nrOfJoints, C.getD k 0 = ∑ i ∈ range c.nrOfJoints, ∑ j ∈ range c.nrOfJoints,
        (D j k i + D i k j - D k i j) / 2 * qd.getD i 0 * qd.getD j 0 := by
  set n := c.nrOfJoints with hn
  have hz : (List.replicate n (0:ℝ)).length = n := by simp
  have hw : (List.replicate c.nrOfSegments (0:Wrench)).length = c.nrOfSegments := by simp
  have hw' : (List.replicate c.nrOfSegments (0:Wrench)).length = c.segments.length := by simp [hc.1]
  have eC : (DynState.new c grav).coriolis c q qd C0 = some (E_NOERROR, _) :=
    idRne_eq c hc 0 q qd (List.replicate n 0) (List.replicate c.nrOfSegments 0) C0 hq hqd hz hC hw
  refine ⟨_, fun l i j => dForm c q (unitJnt n l) (unitJnt n i) (unitJnt n j), eC, ?_, ?_, ?_⟩
  · rw [rneF_length _ _ _ _ _ _ _ _ hw', ← hc.2]
  · intro l hl i hi j hj
    have e : (fun x => inertiaEntry c grav (q.set l x) i j) = fun x => energyForm c (q.set l x) (unitJnt n i) (unitJnt n j) := by
      funext x
      exact inertiaEntry_eq c hc hv hI grav _ (by simp [hq, hn]) i j hi hj
    rw [e]
    exact form_hasDeriv c hc hv hI q _ _ l hq (unitJnt_length _ _) (unitJnt_length _ _) hl
  · intro k hk
    have ht := torque_eq c hc hv hI 0 q qd (List.replicate n 0) (List.replicate c.nrOfSegments 0) hq hqd hz hw k hk
    rw [← hn] at ht
    have a0 : (-⟨0, 0⟩ : Twist) = 0 := by ext <;> simp
    have hI0 : ∀ I : RBI, I * (0 : Twist) = 0 := fun I => by
      show Wrench.mk _ _ = 0
      ext <;> simp
    have hw0 : ∀ i, (List.replicate c.nrOfSegments (0:Wrench)).getD i 0 = 0 := fun i => by
      simp only [List.getD_eq_getElem?_getD, List.getElem?_replicate]; split_ifs <;> rfl
    have hE : energyForm c q (unitJnt n k) (List.replicate n 0) = 0 := by
      rw [energyForm_comm c hc hI]; exact energyForm_zero c hc hv q _ hq
    simp only [a0, Frame.invTwist_zero, hI0, hw0, Twist.dot_zero, sum_const_zero, hE, add_zero, sub_zero] at ht
    rw [a0, ht, dForm_dir c q qd _ _ hqd, dForm_rates c hc hv hI q qd qd k hq hqd hqd hk]
    have e1 : ∀ l < n, dForm c q (unitJnt n l) (unitJnt n k) qd =
        ∑ j ∈ range n, dForm c q (unitJnt n l) (unitJnt n k) (unitJnt n j) * qd.getD j 0 := fun l hl => by
      rw [dForm_rates c hc hv hI q (unitJnt n k) qd l hq (unitJnt_length _ _) hqd hl, ← hn, sum_eq_single k]
      · refine sum_congr rfl fun j _ => ?_
        rw [getD_unitJnt n k k hk, if_pos rfl, one_mul]
      · intro b _ hb
        refine sum_eq_zero fun j _ => ?_
        rw [getD_unitJnt n k b hk, if_neg hb, zero_mul, zero_mul]
      · simp [hk]
    rw [← hn]
    have e2 : ∑ l ∈ range n, qd.getD l 0 * dForm c q (unitJnt n l) (unitJnt n k) qd =
        ∑ l ∈ range n, ∑ j ∈ range n, dForm c q (unitJnt n l) (unitJnt n k) (unitJnt n j) * qd.getD l 0 * qd.getD j 0 := by
      refine sum_congr rfl fun l hl => ?_
      rw [e1 l (by simpa using hl), mul_sum]
      exact sum_congr rfl fun j _ => by ring
    have e3 : ∑ l ∈ range n, ∑ j ∈ range n, dForm c q (unitJnt n l) (unitJnt n k) (unitJnt n j) * qd.getD l 0 * qd.getD j 0 =
        ∑ l ∈ range n, ∑ j ∈ range n, dForm c q (unitJnt n j) (unitJnt n k) (unitJnt n l) * qd.getD l 0 * qd.getD j 0 := by
      rw [sum_comm]
      exact sum_congr rfl fun l _ => sum_congr rfl fun j _ => by ring
    have e4 : ∀ A B : ℝ, A = B → A - (∑ i ∈ range n, ∑ j ∈ range n,
        qd.getD i 0 * dForm c q (unitJnt n k) (unitJnt n i) (unitJnt n j) * qd.getD j 0) / 2 = (B + A -
        ∑ i ∈ range n, ∑ j ∈ range n,
        qd.getD i 0 * dForm c q (unitJnt n k) (unitJnt n i) (unitJnt n j) * qd.getD j 0) / 2 := fun A B h => by rw [h]; ring
    rw [e2, e4 _ _ e3, ← sum_add_distrib, ← sum_sub_distrib, div_eq_mul_inv, sum_mul]
    refine sum_congr rfl fun i _ => ?_
    rw [← sum_add_distrib, ← sum_sub_distrib, sum_mul]
    exact sum_congr rfl fun j _ => by ring

/-- A motion whose accelerations are at every instant those of the forward dynamics solver, without torques and external
wrenches, keeps its total energy for all time; whatever the solver's work arrays hold before each call. -/
theorem C88_conserved (c : Chain) (hc : c.WF) (hv : c.Valid) (hI : c.SymmI) (grav : Vec) (Q Qd Qdd : ℝ → List ℝ)
    (hQ : ∀ s, (Q s).length = c.nrOfJoints) (hQd : ∀ s, (Qd s).length = c.nrOfJoints)
    (h1 : ∀ t j, HasDerivAt (fun s => (Q s).getD j 0) ((Qd t).getD j 0) t)
    (h2 : ∀ t j, HasDerivAt (fun s => (Qd s).getD j 0) ((Qdd t).getD j 0) t)
    (h3 : ∀ t, ∃ qdd0 H0 T0 L0 r0 x0 code, qdd0.length = c.nrOfJoints ∧
      fdRne (.new c grav) c (Q t) (Qd t) (List.replicate c.nrOfJoints 0) (List.replicate c.nrOfSegments 0) qdd0 H0 T0 L0 r0
        x0 = some (.ret code (Qdd t))) (a b : ℝ) :
    kineticEnergy c (Q a) (Qd a) + potentialEnergy c grav (Q a) =
      kineticEnergy c (Q b) (Qd b) + potentialEnergy c grav (Q b) := by
  have hd : ∀ t, HasDerivAt (fun s => kineticEnergy c (Q s) (Qd s) + potentialEnergy c grav (Q s)) 0 t := by
    intro t
    obtain ⟨qdd0, H0, T0, L0, r0, x0, code, hl, hfd⟩ := h3 t
    obtain ⟨_, hlen, hid⟩ := C42_id_of_fd c hc hv hI grav (Q t) (Qd t) (List.replicate c.nrOfJoints 0)
      (List.replicate c.nrOfSegments 0) qdd0 (List.replicate c.nrOfJoints 0) H0 T0 L0 r0 x0 (hQ t) (hQd t) hl (by simp)
      (by simp) (by simp) code (Qdd t) hfd
    obtain ⟨τ, e, h⟩ := C43_power_balance c hc hv hI grav Q Qd (Qdd t) t (List.replicate c.nrOfSegments 0)
      (List.replicate c.nrOfJoints 0) hQ hQd hlen (by simp) (by simp) (h1 t) (h2 t)
    rw [hid] at e
    cases e
    refine h.congr_deriv ?_
    have hw0 : ∀ i, (List.replicate c.nrOfSegments (0:Wrench)).getD i 0 = 0 := fun i => by
      simp only [List.getD_eq_getElem?_getD, List.getElem?_replicate]; split_ifs <;> rfl
    simp only [getD_replicate_zero, hw0, mul_zero, Twist.dot_zero, sum_const_zero, add_zero]
  have hD : Differentiable ℝ (fun s => kineticEnergy c (Q s) (Qd s) + potentialEnergy c grav (Q s)) :=
    fun t => (hd t).differentiableAt
  exact is_const_of_deriv_eq_zero hD (fun t => (hd t).deriv) a b

/-! ## Non-vacuity -/

/-- A curve of the example with velocities and accelerations that differ from zero: Lagrange's equations hold along it. -/
example : ∃ (τ : List ℝ) (pd Tq Uq : ℕ → ℝ),
    idRne exChain 2 3 ⟨0, -10, 0⟩ [1, 1] [1, 2] [0, 2] [0, 0, 0] [0, 0] = some (0, τ) ∧
    ∀ k < 2, τ.getD k 0 = pd k - Tq k + Uq k := by
  obtain ⟨h1, h2, h3, _⟩ := exChain_ok
  obtain ⟨τ, pd, Tq, Uq, e, _, h⟩ := C88_lagrange exChain h1 h2 h3 ⟨0, -10, 0⟩ (fun s => [s, s * s]) (fun s => [1, 2 * s])
    [0, 2] 1 [0, 0, 0] [0, 0] (fun _ => rfl) (fun _ => rfl) rfl rfl rfl
    (fun j => by
      rcases j with _ | _ | j
      · exact hasDerivAt_id 1
      · refine ((hasDerivAt_id (1:ℝ)).mul (hasDerivAt_id (1:ℝ))).congr_deriv ?_
        show _ = (2 * 1 : ℝ)
        simp; norm_num
      · exact hasDerivAt_const _ _)
    (fun j => by
      rcases j with _ | _ | j
      · exact hasDerivAt_const _ _
      · refine ((hasDerivAt_id (1:ℝ)).const_mul 2).congr_deriv ?_
        show _ = (2 : ℝ)
        norm_num
      · exact hasDerivAt_const _ _)
  refine ⟨τ, pd, Tq, Uq, ?_, fun k hk => ?_⟩
  · norm_num at e; exact e
  · rw [(h k hk).2.2.2.2]
    have hw0 : ∀ i, ([0, 0, 0] : List Wrench).getD i 0 = 0 := fun i => by
      rcases i with _ | _ | _ | i <;> rfl
    simp only [hw0, Twist.dot_zero, sum_const_zero, sub_zero]

/-- A link that spins freely about its axis satisfies the hypotheses of `C88_conserved`. -/
example : ∀ t : ℝ, ∃ qdd0 H0 T0 L0 r0 x0 code, qdd0.length = 1 ∧
    fdRne (.new ⟨1, 1, [exLink "a" .RotZ]⟩ 0) ⟨1, 1, [exLink "a" .RotZ]⟩ [t] [1] [0] [0] qdd0 H0 T0 L0 r0 x0 =
      some (.ret code [0]) := by
  intro t
  have hm : ∀ s ∈ [exLink "a" .RotZ], s ∈ exChain.segments := by intro s hs; simp only [List.mem_singleton] at hs; simp [hs, exChain]
  obtain ⟨h1, h2, h3, h4⟩ := exChain_ok
  have hc : (⟨1, 1, [exLink "a" .RotZ]⟩ : Chain).WF := ⟨rfl, rfl⟩
  have hM : (⟨1, 1, [exLink "a" .RotZ]⟩ : Chain).Massive := by
    refine ⟨fun s hs => h4.1 s (hm s hs), ?_⟩
    rcases h4.2 with h | h
    · exact Or.inl fun s hs => h s (hm s hs)
    · exact Or.inr fun s hs => h s (hm s hs)
  obtain ⟨τ, e1, e2⟩ := C42_fd_of_id ⟨1, 1, [exLink "a" .RotZ]⟩ hc (fun s hs => h2 s (hm s hs)) (fun s hs => h3 s (hm s hs)) hM
    0 [t] [1] [0] [0] [0] [0] (fun _ _ => 7) (fun _ => 7) ⟨fun _ _ => 7, fun _ => 7⟩ (fun _ => 7) (fun _ => 7)
    rfl rfl rfl rfl rfl rfl
  have e3 := idRne_eq ⟨1, 1, [exLink "a" .RotZ]⟩ hc 0 [t] [1] [0] [0] [0] rfl rfl rfl rfl rfl
  have e4 : (rneF (rd [t]) (rd [1]) (rd [0]) [exLink "a" .RotZ] [0] 0 0 (-⟨0, 0⟩)).1 = [0] := by
    simp [rneF, exLink, Segment.moving, Joint.moving, rd, Ss, Xs, qv, up, ap, fl, Segment.twist, Segment.pose, Joint.twist,
      Joint.pose, Twist.dot, Vec.dot, Frame.ofRot, Rot.rotZ, Twist.refPoint, Frame.invTwist, Rot.invTwist, Rot.invVec,
      RBI.mul_twist, RBI.ofCog]
    ring
  have e5 : τ = [0] := by
    have := e1.symm.trans e3
    simp only [Option.some.injEq, Prod.mk.injEq, true_and] at this
    rw [this]; exact e4
  rw [e5] at e2
  exact ⟨_, _, _, _, _, _, _, rfl, e2⟩

end KDL
