import Verif.Props.TreeDynamics
import Verif.Props.Energy
import Verif.Lemmas.HybridDynamics
import Verif.Props.Lagrange

/-!
# C94: energy and inertia of a tree (`TreeIdSolver_RNE`)

The tree solver has no companion that computes the inertia matrix or the gravity torques, so these are stated about the
torques of the one solver there is.
-/

noncomputable section
namespace KDL
open Tree Finset

/-- The solver was built for, or updated to, this tree; what its maps hold does not matter. -/
def TreeRne.Ready (s : TreeRne) (t : Tree) : Prop :=
  s.nj = t.nrOfJoints ∧ s.ns = t.nrOfSegments ∧ ∀ n ∈ t.names, (s.aux n).isSome

/-- Twice the mixed kinetic energy of the tree for the rates `δ`, `ε`: all bodies and all rotors. -/
def treeForm (t : Tree) (path : String → List TreeElem) (q δ ε : ℕ → ℝ) : ℝ :=
  (t.segments.map fun x => (bodyTwist q δ (path x.name)).dot (x.segment.I * bodyTwist q ε (path x.name))).sum +
    ((t.segments.filter TreeElem.moving).map fun x => δ x.q_nr * (x.segment.joint.inertia * ε x.q_nr)).sum
/-- Kinetic energy of the tree. -/
def treeKinetic (t : Tree) (path : String → List TreeElem) (q qd : ℕ → ℝ) : ℝ := treeForm t path q qd qd / 2
/-- Potential energy of the tree in a homogeneous field `g`: `−Σ m g·c`, with `m c = m p + R h`. -/
def treePotential (t : Tree) (path : String → List TreeElem) (g : Vec) (q : ℕ → ℝ) : ℝ :=
  -(t.segments.map fun x =>
    Vec.dot g (x.segment.I.m • (fkP q (path x.name)).p + (fkP q (path x.name)).M * x.segment.I.h)).sum

/-- Generalised momentum of joint `k`: the partial derivative of the kinetic energy with respect to the joint's rate. -/
def treeMomentum (t : Tree) (path : String → List TreeElem) (q qd : ℕ → ℝ) (k : ℕ) : ℝ :=
  deriv (fun x => treeKinetic t path q (Function.update qd k x)) (qd k)

/-! ## auxiliary -/

theorem vaT_qdd (q qd x y : ℕ → ℝ) (g : Twist) (l : List TreeElem) :
    (vaT q qd x g l).2 - (vaT q qd y g l).2 = uT q (fun k => x k - y k) l := by
  induction l using List.reverseRecOn with
  | nil => simp [vaT, uT]
  | append_singleton l e ih =>
    simp only [vaT_append, uT_append, vaT_fst, ← ih]
    exact ap_sub q qd x y e.segment e.q_nr _ _ _

theorem sum_joints {t : Tree} (ht : t.WF) (f : ℕ → ℝ) :
    ∑ k ∈ range t.nrOfJoints, f k = ((t.segments.filter TreeElem.moving).map fun x => f x.q_nr).sum := by
  have := congrArg (fun l : List ℕ => (l.map f).sum) ht.numbering
  simp only [List.map_map] at this
  exact this.symm

theorem sum_filter_ite (l : List TreeElem) (P : TreeElem → Bool) (f : TreeElem → ℝ) :
    ((l.filter P).map f).sum = (l.map fun x => if P x = true then f x else 0).sum := by
  induction l with
  | nil => rfl
  | cons x l ih =>
    by_cases hx : P x = true
    · simp [hx, ih]
    · simp [hx, ih]

theorem hasDerivAt_listSum {α : Type} (l : List α) (f : α → ℝ → ℝ) (f' : α → ℝ) (u : ℝ)
    (h : ∀ x ∈ l, HasDerivAt (f x) (f' x) u) :
    HasDerivAt (fun v => (l.map fun x => f x v).sum) (l.map f').sum u := by
  induction l with
  | nil => simpa using hasDerivAt_const u (0:ℝ)
  | cons x l ih =>
    simp only [List.map_cons, List.sum_cons]
    exact (h x (by simp)).add (ih fun y hy => h y (by simp [hy]))

theorem bodyTwist_zero (q : ℕ → ℝ) (l : List TreeElem) (hl : ∀ e ∈ l, e.segment.Valid) :
    bodyTwist q (fun _ => 0) l = 0 := by
  rw [← uT_eq _ _ _ hl]
  induction l using List.reverseRecOn with
  | nil => rfl
  | append_singleton l e ih => rw [uT_append, ih fun x hx => hl x (by simp [hx]), up_zero]

theorem treePotential_hasDeriv (t : Tree) (hv : ∀ x ∈ t.segments, x.segment.Valid) (g : Vec)
    (path : String → List TreeElem) (hpath : ∀ n ∈ t.names, Path t n (path n)) {Q : ℝ → ℕ → ℝ} {qd : ℕ → ℝ} {u : ℝ}
    (hd : ∀ j, HasDerivAt (fun v => Q v j) (qd j) u) :
    HasDerivAt (fun v => treePotential t path g (Q v)) (t.segments.map fun x => (bodyTwist (Q u) qd (path x.name)).dot
      (x.segment.I * (fkP (Q u) (path x.name)).invTwist (-⟨g, 0⟩))).sum u := by
  unfold treePotential
  have := (hasDerivAt_listSum t.segments (fun x v => Vec.dot g (x.segment.I.m • (fkP (Q v) (path x.name)).p +
    (fkP (Q v) (path x.name)).M * x.segment.I.h)) (fun x => -(bodyTwist (Q u) qd (path x.name)).dot
      (x.segment.I * (fkP (Q u) (path x.name)).invTwist (-⟨g, 0⟩))) u ?_).neg
  · refine this.congr_deriv ?_
    have hneg : ∀ (l : List TreeElem) (f : TreeElem → ℝ), -(l.map fun x => -f x).sum = (l.map f).sum := by
      intro l f
      induction l with
      | nil => simp
      | cons x l ih => simp only [List.map_cons, List.sum_cons, ← ih]; ring
    exact hneg _ _
  intro x hx
  have hxv : ∀ e ∈ path x.name, e.segment.Valid := fun e he => hv e ((hpath _ (List.mem_map_of_mem hx)).mem e he)
  have hw := twP_hasTwist hd (path x.name) hxv
  have hP := isProper_fkP (Q u) (path x.name) hxv
  have hPM : (fkP (Q u) (path x.name)).M.IsProper := hP
  have h1 := (Vec.HasDeriv.smul (hasDerivAt_const u x.segment.I.m) hw.vel).add (hw.rot.app (Vec.HasDeriv.const x.segment.I.h))
  refine ((Vec.HasDeriv.const (t := u) g).dot h1).congr_deriv ?_
  rw [← C04_power_frame _ hP, grav_wrench _ hP, bodyTwist, Rot.invTwist_eq]
  simp only [Twist.dot, Frame.app_twist_vel, Frame.app_twist_rot, hPM.app_inv_app]
  generalize (fkP (Q u) (path x.name)).M * x.segment.I.h = h
  generalize x.segment.I.m = m
  have n1 : (-(⟨m • g, (m • (fkP (Q u) (path x.name)).p + h) * g⟩ : Wrench)).force = -(m • g) := rfl
  have n2 : (-(⟨m • g, (m • (fkP (Q u) (path x.name)).p + h) * g⟩ : Wrench)).torque =
    -((m • (fkP (Q u) (path x.name)).p + h) * g) := rfl
  rw [n1, n2]
  simp [Vec.dot, Rot.app_zero]
  ring

/-- Work of the torques under the rates `δ`. -/
theorem tree_work (t : Tree) (h : t.Reach) (hv : ∀ x ∈ t.segments, x.segment.Valid) (s : TreeRne) (grav : Vec)
    (hag : s.ag = -⟨grav, 0⟩) (hs : s.Ready t) (path : String → List TreeElem) (hpath : ∀ n ∈ t.names, Path t n (path n))
    (Q Qd Qdd : List ℝ) (fext : String → Option Wrench) (τ0 : List ℝ) (hQ : Q.length = t.nrOfJoints)
    (hQd : Qd.length = t.nrOfJoints) (hqdd : Qdd.length = t.nrOfJoints) (hτ : τ0.length = t.nrOfJoints) :
    ∃ τ : List ℝ, s.cartToJnt t false Q Qd Qdd fext τ0 = some (E_NOERROR, τ) ∧ τ.length = t.nrOfJoints ∧
      ∀ δ : ℕ → ℝ, ∑ k ∈ range t.nrOfJoints, δ k * τ.getD k 0 =
        (t.segments.map fun x => (bodyTwist (rd Q) δ (path x.name)).dot
          (x.segment.I * ((vaT (rd Q) (rd Qd) (rd Qdd) 0 (path x.name)).2 + (fkP (rd Q) (path x.name)).invTwist (-⟨grav, 0⟩)) +
            bodyTwist (rd Q) (rd Qd) (path x.name) * (x.segment.I * bodyTwist (rd Q) (rd Qd) (path x.name)) -
            (fext x.name).getD 0)).sum +
        ((t.segments.filter TreeElem.moving).map fun x => δ x.q_nr * (x.segment.joint.inertia * rd Qdd x.q_nr)).sum := by
  obtain ⟨hnj, hns, hkeys⟩ := hs
  have ht := h.wf
  have hpv : ∀ n ∈ t.names, ∀ e ∈ path n, e.segment.Valid := fun n hn e he => hv e ((hpath n hn).mem e he)
  obtain ⟨r, g1, g2, g3, g4⟩ := ht.root
  have hrn : r.name = t.root_name := by show r.segment.name = _; rw [g2]; rfl
  have hr : t.find t.root_name = some r := by rw [← hrn]; exact find_of_get ht.nodup g1
  have hrm : r.segment.moving = false := by rw [g2]; rfl
  have hroot : path t.root_name = [] := (hpath _ (mem_names.mpr ⟨r, hr⟩)).unique (.root hr)
  have hstep : ∀ n e p, t.find n = some e → n ≠ t.root_name → e.parent = some p → path n = path p ++ [e] := by
    intro n e p he hn hp
    have hnn := hpath n (mem_names.mpr ⟨e, he⟩)
    obtain ⟨j, x, hj⟩ : ∃ (j : ℕ) (x : TreeElem), t.segments[j]? = some x ∧ x.name = p := by
      obtain ⟨i, hi, hie⟩ := List.getElem_of_mem (find_some he).1
      have hget : t.segments[i]? = some e := by rw [List.getElem?_eq_getElem hi, hie]
      have hi0 : i ≠ 0 := by
        rintro rfl
        rw [hget] at g1; cases g1
        rw [g3] at hp; cases hp
      obtain ⟨j, x, _, k2, k3⟩ := ht.parents i e hget hi0
      rw [hp] at k3
      simp only [Option.some.injEq] at k3
      exact ⟨j, x, k2, k3.symm⟩
    have hpm : p ∈ t.names := by rw [← hj.2]; exact List.mem_map_of_mem (List.mem_of_getElem? hj.1)
    exact hnn.unique (.step he hn hp (hpath p hpm))
  set q := rd Q with hq
  set qd := rd Qd with hqd
  set V : String → Twist := fun n => uT q qd (path n) with hVd
  set A : String → Twist := fun n => (vaT q qd (rd Qdd) s.ag (path n)).2 with hAd
  obtain ⟨F, hF⟩ := exists_subF ht q (flE t V A fext)
  obtain ⟨τ, k1, k2, k3⟩ := rne_root h s Q Qd Qdd τ0 fext V A F hnj hns hkeys hQ hQd hqdd hτ
    (by simp [hVd, hroot, uT]) (by simp [hAd, hroot, vaT])
    (by
      intro n e p he hn hp
      simp only [hVd, hAd, hstep n e p he hn hp, uT_append, vaT_append, vaT_fst]
      exact ⟨rfl, rfl⟩) hF
  refine ⟨τ, k1, k2, fun δ => ?_⟩
  rw [sum_joints ht]
  have e1 : ((t.segments.filter TreeElem.moving).map fun x => δ x.q_nr * τ.getD x.q_nr 0).sum =
      ((t.segments.filter TreeElem.moving).map fun x => δ x.q_nr * (Ss q x.segment x.q_nr).dot (F x.name)).sum +
      ((t.segments.filter TreeElem.moving).map fun x => δ x.q_nr * (x.segment.joint.inertia * rd Qdd x.q_nr)).sum := by
    rw [← List.sum_map_add]
    congr 1
    refine List.map_congr_left fun x hx => ?_
    have hx' := List.mem_filter.mp hx
    rw [List.getD_eq_getElem?_getD, k3 x hx'.1 hx'.2, Option.getD_some, tauE]
    ring
  rw [e1]
  congr 1
  have hvw := tree_virtual ht hv q δ (fun n => uT q δ (path n)) (flE t V A fext) F
    (by intro n x p hx hn hp; simp only [hstep n x p hx hn hp, uT_append]) hF
    (fun n => match t.find n with | some x => qv x.segment δ x.q_nr | none => 0)
    (by intro n x hx; simp [hx]) t.segments.length 0 t.root_name r r.children hr (fun _ h => h)
    ((above_children ht g1).mono (by omega)) (by omega)
  have hU0 : uT q δ (path t.root_name) = 0 := by simp [hroot, uT]
  rw [hU0, Twist.zero_dot, zero_add] at hvw
  have hperm := h.dfs_perm
  rw [childrenOf_eq hr] at hperm
  have hsum : ∀ f : String → ℝ, f t.root_name = 0 → ((dfs t t.segments.length r.children).map f).sum =
      (t.segments.map fun x => f x.name).sum := by
    intro f h0
    have := (hperm.map f).sum_eq
    rw [List.map_cons, List.sum_cons, h0, zero_add] at this
    rw [this, names, List.map_map]; rfl
  rw [hsum _ (by simp [hr, qv, hrm]), hsum _ (by simp [hU0, Twist.zero_dot])] at hvw
  have hl : ((t.segments.filter TreeElem.moving).map fun x => δ x.q_nr * (Ss q x.segment x.q_nr).dot (F x.name)).sum =
      (t.segments.map fun x => (match t.find x.name with
        | some x => qv x.segment δ x.q_nr | none => 0) * (sE t q x.name).dot (F x.name)).sum := by
    rw [sum_filter_ite]
    congr 1
    refine List.map_congr_left fun x hx => ?_
    have hfx : t.find x.name = some x := find_of_mem ht.nodup hx
    simp only [hfx, sE, qv]
    by_cases hm : x.segment.moving = true
    · have hm' : x.moving = true := hm
      rw [if_pos hm, if_pos hm']
    · have hm' : ¬ x.moving = true := hm
      rw [if_neg hm, if_neg hm', zero_mul]
  rw [hl, hvw]
  congr 1
  refine List.map_congr_left fun x hx => ?_
  have hxv := hpv x.name (List.mem_map_of_mem hx)
  have hfx : t.find x.name = some x := find_of_mem ht.nodup hx
  simp only [flE, hfx, fl, hVd, hAd]
  rw [vaT_add _ _ _ _ _ hxv, hag, uT_eq _ _ _ hxv, uT_eq _ _ _ hxv]

/-! ### Lagrange's equations -/

/-- Derivative in direction `ε` of the twist for the rates `δ`. -/
def dT (q ε δ : ℕ → ℝ) (l : List TreeElem) : Twist × Twist :=
  l.foldl (fun z e => (up q δ e.segment e.q_nr z.1, dp q ε δ e.segment e.q_nr z.1 z.2)) (0, 0)

theorem dT_append (q ε δ : ℕ → ℝ) (l : List TreeElem) (e : TreeElem) :
    dT q ε δ (l ++ [e]) = (up q δ e.segment e.q_nr (dT q ε δ l).1, dp q ε δ e.segment e.q_nr (dT q ε δ l).1 (dT q ε δ l).2) := by
  simp [dT]
theorem dT_fst (q ε δ : ℕ → ℝ) (l : List TreeElem) : (dT q ε δ l).1 = uT q δ l := by
  induction l using List.reverseRecOn with
  | nil => rfl
  | append_singleton l e ih => rw [dT_append, uT_append, ih]

theorem uT_hasDeriv_dir {Q R : ℝ → ℕ → ℝ} {ε r' : ℕ → ℝ} {u : ℝ} (h1 : JntHasDeriv Q ε u) (h2 : JntHasDeriv R r' u)
    (l : List TreeElem) (hl : ∀ e ∈ l, e.segment.Valid) :
    Twist.HasDeriv (fun v => uT (Q v) (R v) l) ((dT (Q u) ε (R u) l).2 + uT (Q u) r' l) u := by
  induction l using List.reverseRecOn with
  | nil =>
    have : Twist.HasDeriv (fun _ => (0 : Twist)) ((0 : Twist) + 0) u := by rw [add_zero]; exact .const 0 u
    exact this
  | append_singleton l e ih =>
    have := up_hasDeriv_dir (hl e (by simp)) h1 h2 e.q_nr (ih fun x hx => hl x (by simp [hx]))
    simp only [uT_append, dT_append, dT_fst]
    exact this

theorem dT_comm (q ε δ : ℕ → ℝ) (l : List TreeElem) (hl : ∀ e ∈ l, e.segment.Valid) :
    (dT q ε δ l).2 - (dT q δ ε l).2 = uT q δ l * uT q ε l := by
  induction l using List.reverseRecOn with
  | nil => exact (sub_zero _).trans (Twist.cross_self 0).symm
  | append_singleton l e ih =>
    have := dP_comm q ε δ [e.segment] e.q_nr (uT q δ l) (uT q ε l) (dT q ε δ l).2 (dT q δ ε l).2
      (fun s hs => by rw [List.mem_singleton.mp hs]; exact hl e (by simp)) (ih fun x hx => hl x (by simp [hx]))
    simp only [dT_append, uT_append, dT_fst]
    exact this

theorem vaT_eq_dT (q qd qdd : ℕ → ℝ) (l : List TreeElem) :
    (vaT q qd qdd 0 l).2 = (dT q qd qd l).2 + uT q qdd l := by
  induction l using List.reverseRecOn with
  | nil => exact (add_zero _).symm
  | append_singleton l e ih =>
    have := aP_eq_dP q qd qdd [e.segment] e.q_nr (uT q qd l) (dT q qd qd l).2 (uT q qdd l)
    simp only [vaT_append, dT_append, uT_append, dT_fst, vaT_fst, ih]
    exact this

theorem dT_zero (q δ : ℕ → ℝ) (l : List TreeElem) : (dT q (fun _ => 0) δ l).2 = 0 := by
  induction l using List.reverseRecOn with
  | nil => rfl
  | append_singleton l e ih =>
    have := dP_zero q δ [e.segment] e.q_nr (uT q δ l)
    simp only [dT_append, dT_fst, ih]
    exact this

/-- Derivative of the mixed energy in direction `ε` with fixed rates. -/
def dTreeForm (t : Tree) (path : String → List TreeElem) (q ε r s : ℕ → ℝ) : ℝ :=
  (t.segments.map fun x => (dT q ε r (path x.name)).2.dot (x.segment.I * bodyTwist q s (path x.name)) +
    (bodyTwist q r (path x.name)).dot (x.segment.I * (dT q ε s (path x.name)).2)).sum

theorem treeForm_hasDeriv (t : Tree) (path : String → List TreeElem) (hpv : ∀ x ∈ t.segments, ∀ e ∈ path x.name, e.segment.Valid)
    {Q R S : ℝ → ℕ → ℝ} {ε r' s' : ℕ → ℝ} {u : ℝ} (h1 : JntHasDeriv Q ε u) (h2 : JntHasDeriv R r' u) (h3 : JntHasDeriv S s' u) :
    HasDerivAt (fun v => treeForm t path (Q v) (R v) (S v))
      (dTreeForm t path (Q u) ε (R u) (S u) + treeForm t path (Q u) r' (S u) + treeForm t path (Q u) (R u) s') u := by
  unfold treeForm dTreeForm
  have hB := hasDerivAt_listSum t.segments (fun x v => (bodyTwist (Q v) (R v) (path x.name)).dot
      (x.segment.I * bodyTwist (Q v) (S v) (path x.name)))
    (fun x => ((dT (Q u) ε (R u) (path x.name)).2 + bodyTwist (Q u) r' (path x.name)).dot
        (x.segment.I * bodyTwist (Q u) (S u) (path x.name)) +
      (bodyTwist (Q u) (R u) (path x.name)).dot (x.segment.I * ((dT (Q u) ε (S u) (path x.name)).2 +
        bodyTwist (Q u) s' (path x.name)))) u (by
    intro x hx
    have a := uT_hasDeriv_dir h1 h2 (path x.name) (hpv x hx)
    have b := uT_hasDeriv_dir h1 h3 (path x.name) (hpv x hx)
    simp only [uT_eq _ _ _ (hpv x hx)] at a b
    exact Twist.hasDeriv_dot a (RBI.hasDeriv_mul x.segment.I b))
  have hR := hasDerivAt_listSum (t.segments.filter TreeElem.moving)
    (fun x v => R v x.q_nr * (x.segment.joint.inertia * S v x.q_nr))
    (fun x => r' x.q_nr * (x.segment.joint.inertia * S u x.q_nr) + R u x.q_nr * (x.segment.joint.inertia * s' x.q_nr)) u (by
    intro x _
    exact (h2 x.q_nr).mul ((h3 x.q_nr).const_mul x.segment.joint.inertia))
  refine (hB.add hR).congr_deriv ?_
  rw [List.sum_map_add, List.sum_map_add]
  simp only [RBI.mul_add, Twist.dot_add, Twist.add_dot, List.sum_map_add]
  ring

theorem treeForm_zero (t : Tree) (path : String → List TreeElem) (hpv : ∀ x ∈ t.segments, ∀ e ∈ path x.name, e.segment.Valid)
    (q s : ℕ → ℝ) : treeForm t path q (fun _ => 0) s = 0 := by
  unfold treeForm
  have a : (t.segments.map fun x => (bodyTwist q (fun _ => 0) (path x.name)).dot
      (x.segment.I * bodyTwist q s (path x.name))) = t.segments.map fun _ => (0:ℝ) :=
    List.map_congr_left fun x hx => by rw [bodyTwist_zero _ _ (hpv x hx), Twist.zero_dot]
  rw [a]
  simp

theorem update_hasDeriv (q : ℕ → ℝ) (k : ℕ) (x : ℝ) : JntHasDeriv (fun y => Function.update q k y) (unitRate k) x := by
  intro j
  by_cases h : j = k
  · subst h; simpa [unitRate] using hasDerivAt_id' x
  · simpa [unitRate, h] using hasDerivAt_const x (q j)

theorem dTreeForm_zero (t : Tree) (path : String → List TreeElem) (q r s : ℕ → ℝ) :
    dTreeForm t path q (fun _ => 0) r s = 0 := by
  unfold dTreeForm
  have h0 : ∀ i : RBI, i * (0 : Twist) = 0 := fun i => by
    show Wrench.mk _ _ = 0
    ext <;> simp
  simp [dT_zero, Twist.zero_dot, Twist.dot_zero, h0]

/-- Every segment has its path from the root. -/
theorem exists_paths {t : Tree} (h : t.Reach) :
    ∃ path : String → List TreeElem, ∀ n ∈ t.names, Path t n (path n) := by
  have hex : ∀ n : String, ∃ l : List TreeElem, n ∈ t.names → Path t n l := fun n => by
    by_cases hn : n ∈ t.names
    · obtain ⟨e, he⟩ := mem_names.mp hn
      obtain ⟨i, hi, hie⟩ := List.getElem_of_mem (find_some he).1
      obtain ⟨l, hl, _⟩ := exists_path h.wf i e (by rw [List.getElem?_eq_getElem hi, hie])
      rw [(find_some he).2] at hl
      exact ⟨l, fun _ => hl⟩
    · exact ⟨[], fun h => absurd h hn⟩
  choose path hpath using hex
  exact ⟨path, hpath⟩

/-! ## the theorems -/

/-- Power balance: along any motion the joint torques returned for the tree deliver, together with the external wrenches,
exactly the rate of change of the kinetic plus potential energy of all its bodies and rotors. -/
theorem C94_power_balance (t : Tree) (h : t.Reach) (hv : ∀ x ∈ t.segments, x.segment.Valid)
    (hI : ∀ x ∈ t.segments, x.segment.I.I.tr = x.segment.I.I) (s : TreeRne) (grav : Vec)
    (hag : s.ag = -⟨grav, 0⟩) (hs : s.Ready t) (path : String → List TreeElem) (hpath : ∀ n ∈ t.names, Path t n (path n))
    (Q Qd : ℝ → List ℝ) (qdd : List ℝ) (u : ℝ) (fext : String → Option Wrench) (τ0 : List ℝ)
    (hQ : (Q u).length = t.nrOfJoints) (hQd : (Qd u).length = t.nrOfJoints)
    (hqdd : qdd.length = t.nrOfJoints) (hτ : τ0.length = t.nrOfJoints)
    (h1 : ∀ j, HasDerivAt (fun v => (Q v).getD j 0) ((Qd u).getD j 0) u)
    (h2 : ∀ j, HasDerivAt (fun v => (Qd v).getD j 0) (qdd.getD j 0) u) :
    ∃ τ, s.cartToJnt t false (Q u) (Qd u) qdd fext τ0 = some (E_NOERROR, τ) ∧
      HasDerivAt (fun v => treeKinetic t path (rd (Q v)) (rd (Qd v)) + treePotential t path grav (rd (Q v)))
        (∑ k ∈ range t.nrOfJoints, (Qd u).getD k 0 * τ.getD k 0 +
          (t.segments.map fun x =>
            (bodyTwist (rd (Q u)) (rd (Qd u)) (path x.name)).dot ((fext x.name).getD 0)).sum) u := by
  obtain ⟨τ, e1, _, e3⟩ := tree_work t h hv s grav hag hs path hpath (Q u) (Qd u) qdd fext τ0 hQ hQd hqdd hτ
  refine ⟨τ, e1, ?_⟩
  have hpv : ∀ x ∈ t.segments, ∀ e ∈ path x.name, e.segment.Valid :=
    fun x hx e he => hv e ((hpath _ (List.mem_map_of_mem hx)).mem e he)
  have hU := treePotential_hasDeriv t hv grav path hpath (Q := fun v => rd (Q v)) (qd := rd (Qd u)) h1
  have hB := hasDerivAt_listSum t.segments (fun x v => (bodyTwist (rd (Q v)) (rd (Qd v)) (path x.name)).dot
      (x.segment.I * bodyTwist (rd (Q v)) (rd (Qd v)) (path x.name)))
    (fun x => 2 * (bodyTwist (rd (Q u)) (rd (Qd u)) (path x.name)).dot
      (x.segment.I * (vaT (rd (Q u)) (rd (Qd u)) (rd qdd) 0 (path x.name)).2)) u (by
    intro x hx
    have hd := uT_hasDeriv (Q := fun v => rd (Q v)) (Qd := fun v => rd (Qd v)) (qdd := rd qdd) h1 h2 (path x.name) (hpv x hx)
    simp only [uT_eq _ _ _ (hpv x hx)] at hd
    refine (Twist.hasDeriv_dot hd (RBI.hasDeriv_mul x.segment.I hd)).congr_deriv ?_
    rw [RBI.dot_comm (hI x hx) (vaT _ _ _ _ _).2]
    ring)
  have hR := hasDerivAt_listSum (t.segments.filter TreeElem.moving)
    (fun x v => rd (Qd v) x.q_nr * (x.segment.joint.inertia * rd (Qd v) x.q_nr))
    (fun x => 2 * (rd (Qd u) x.q_nr * (x.segment.joint.inertia * rd qdd x.q_nr))) u (by
    intro x _
    exact ((h2 x.q_nr).mul ((h2 x.q_nr).const_mul x.segment.joint.inertia)).congr_deriv (by simp only [rd]; ring))
  refine (((hB.add hR).div_const 2).add hU).congr_deriv ?_
  have e4 : ∑ k ∈ range t.nrOfJoints, (Qd u).getD k 0 * τ.getD k 0 = _ := e3 (rd (Qd u))
  rw [e4, List.sum_map_mul_left, List.sum_map_mul_left, add_right_comm, ← List.sum_map_add]
  rw [show ∀ a b c : ℝ, (2 * a + 2 * b) / 2 + c = a + c + b from fun a b c => by ring, ← List.sum_map_add]
  congr 2
  refine List.map_congr_left fun x _ => ?_
  rw [RBI.mul_add, Twist.dot_sub, Twist.dot_add, Twist.dot_add, Twist.dot_cross_self]
  ring

/-- The torques are affine in the accelerations: the work of the difference of two torques under the rates `δ` is the mixed
kinetic energy of `δ` and the difference of the accelerations, whatever the joint velocities, the gravity and the external
wrenches.  In other words the torques are `H(q) q̈ + bias` with `H` the inertia matrix of the tree. -/
theorem C94_inertia (t : Tree) (h : t.Reach) (hv : ∀ x ∈ t.segments, x.segment.Valid) (s : TreeRne) (grav : Vec)
    (hag : s.ag = -⟨grav, 0⟩) (hs : s.Ready t) (path : String → List TreeElem) (hpath : ∀ n ∈ t.names, Path t n (path n))
    (q qd a b : List ℝ) (fext : String → Option Wrench) (τ0 : List ℝ) (hq : q.length = t.nrOfJoints)
    (hqd : qd.length = t.nrOfJoints) (ha : a.length = t.nrOfJoints) (hb : b.length = t.nrOfJoints)
    (hτ : τ0.length = t.nrOfJoints) :
    ∃ τa τb : List ℝ, s.cartToJnt t false q qd a fext τ0 = some (E_NOERROR, τa) ∧
      s.cartToJnt t false q qd b fext τ0 = some (E_NOERROR, τb) ∧
      ∀ δ : ℕ → ℝ, ∑ k ∈ range t.nrOfJoints, δ k * (τa.getD k 0 - τb.getD k 0) =
        treeForm t path (rd q) δ (fun k => a.getD k 0 - b.getD k 0) := by
  obtain ⟨τa, a1, _, a3⟩ := tree_work t h hv s grav hag hs path hpath q qd a fext τ0 hq hqd ha hτ
  obtain ⟨τb, b1, _, b3⟩ := tree_work t h hv s grav hag hs path hpath q qd b fext τ0 hq hqd hb hτ
  refine ⟨τa, τb, a1, b1, fun δ => ?_⟩
  have hpv : ∀ x ∈ t.segments, ∀ e ∈ path x.name, e.segment.Valid :=
    fun x hx e he => hv e ((hpath _ (List.mem_map_of_mem hx)).mem e he)
  have : ∑ k ∈ range t.nrOfJoints, δ k * (τa.getD k 0 - τb.getD k 0) =
      ∑ k ∈ range t.nrOfJoints, δ k * τa.getD k 0 - ∑ k ∈ range t.nrOfJoints, δ k * τb.getD k 0 := by
    rw [← sum_sub_distrib]; exact sum_congr rfl fun k _ => by ring
  rw [this, a3, b3, add_sub_add_comm, treeForm]
  have hsub : ∀ (l : List TreeElem) (f g : TreeElem → ℝ), (l.map f).sum - (l.map g).sum = (l.map fun x => f x - g x).sum := by
    intro l f g
    induction l with
    | nil => simp
    | cons x l ih => simp only [List.map_cons, List.sum_cons, ← ih]; ring
  rw [hsub, hsub]
  congr 1
  · congr 1
    refine List.map_congr_left fun x hx => ?_
    have e := vaT_qdd (rd q) (rd qd) (rd a) (rd b) 0 (path x.name)
    rw [uT_eq _ _ _ (hpv x hx)] at e
    have e' : bodyTwist (rd q) (fun k => a.getD k 0 - b.getD k 0) (path x.name) = _ := e.symm
    have e2 := RBI.mul_add x.segment.I ((vaT (rd q) (rd qd) (rd a) 0 (path x.name)).2 -
      (vaT (rd q) (rd qd) (rd b) 0 (path x.name)).2) (vaT (rd q) (rd qd) (rd b) 0 (path x.name)).2
    rw [sub_add_cancel] at e2
    rw [e', RBI.mul_add, RBI.mul_add, e2]
    simp only [Twist.dot_sub, Twist.dot_add]
    ring
  · congr 1
    refine List.map_congr_left fun x _ => ?_
    simp only [rd]
    ring

/-- `H` is symmetric for symmetric inertias: the mixed kinetic energy does not depend on the order. -/
theorem C94_symmetric (t : Tree) (hI : ∀ x ∈ t.segments, x.segment.I.I.tr = x.segment.I.I)
    (path : String → List TreeElem) (q δ ε : ℕ → ℝ) : treeForm t path q δ ε = treeForm t path q ε δ := by
  unfold treeForm
  congr 1
  · congr 1
    exact List.map_congr_left fun x hx => RBI.dot_comm (hI x hx) _ _
  · congr 1
    exact List.map_congr_left fun x _ => by ring

/-- Reciprocity read off the solver: the work of the torques that `b` adds, under `a`, is the work of those that `a` adds,
under `b`. -/
theorem C94_reciprocal (t : Tree) (h : t.Reach) (hv : ∀ x ∈ t.segments, x.segment.Valid)
    (hI : ∀ x ∈ t.segments, x.segment.I.I.tr = x.segment.I.I) (s : TreeRne) (grav : Vec)
    (hag : s.ag = -⟨grav, 0⟩) (hs : s.Ready t) (q qd a b z : List ℝ) (fext : String → Option Wrench) (τ0 : List ℝ)
    (hq : q.length = t.nrOfJoints) (hqd : qd.length = t.nrOfJoints) (ha : a.length = t.nrOfJoints)
    (hb : b.length = t.nrOfJoints) (hz : z = List.replicate t.nrOfJoints 0) (hτ : τ0.length = t.nrOfJoints) :
    ∃ τa τb τz : List ℝ, s.cartToJnt t false q qd a fext τ0 = some (E_NOERROR, τa) ∧
      s.cartToJnt t false q qd b fext τ0 = some (E_NOERROR, τb) ∧
      s.cartToJnt t false q qd z fext τ0 = some (E_NOERROR, τz) ∧
      ∑ k ∈ range t.nrOfJoints, a.getD k 0 * (τb.getD k 0 - τz.getD k 0) =
        ∑ k ∈ range t.nrOfJoints, b.getD k 0 * (τa.getD k 0 - τz.getD k 0) := by
  obtain ⟨path, hpath⟩ := exists_paths h
  obtain ⟨τa, τz, a1, z1, a3⟩ := C94_inertia t h hv s grav hag hs path hpath q qd a z fext τ0 hq hqd ha (by simp [hz]) hτ
  obtain ⟨τb, τz', b1, z1', b3⟩ := C94_inertia t h hv s grav hag hs path hpath q qd b z fext τ0 hq hqd hb (by simp [hz]) hτ
  rw [z1] at z1'; cases z1'
  refine ⟨τa, τb, τz, a1, b1, z1, ?_⟩
  have hz0 : ∀ k, z.getD k 0 = 0 := fun k => by
    rw [hz]; simp only [List.getD_eq_getElem?_getD, List.getElem?_replicate]; split_ifs <;> rfl
  rw [a3, b3, C94_symmetric t hI]
  simp only [hz0, sub_zero]

/-- The partial derivative that defines the generalised momentum exists; the momentum is `Σ_l H_kl q̇_l`. -/
theorem C94_momentum (t : Tree) (hv : ∀ x ∈ t.segments, x.segment.Valid)
    (hI : ∀ x ∈ t.segments, x.segment.I.I.tr = x.segment.I.I)
    (path : String → List TreeElem) (hpath : ∀ n ∈ t.names, Path t n (path n)) (q qd : ℕ → ℝ) (k : ℕ) :
    DifferentiableAt ℝ (fun x => treeKinetic t path q (Function.update qd k x)) (qd k) ∧
      treeMomentum t path q qd k = treeForm t path q (unitRate k) qd := by
  have hpv : ∀ x ∈ t.segments, ∀ e ∈ path x.name, e.segment.Valid :=
    fun x hx e he => hv e ((hpath _ (List.mem_map_of_mem hx)).mem e he)
  have hd : HasDerivAt (fun x => treeKinetic t path q (Function.update qd k x)) (treeForm t path q (unitRate k) qd) (qd k) := by
    have := treeForm_hasDeriv t path hpv (Q := fun _ => q) (ε := fun _ => 0) (u := qd k) (fun j => hasDerivAt_const _ _)
      (update_hasDeriv qd k (qd k)) (update_hasDeriv qd k (qd k))
    unfold treeKinetic
    refine (this.div_const 2).congr_deriv ?_
    rw [Function.update_eq_self, dTreeForm_zero, C94_symmetric t hI path q qd]
    ring
  exact ⟨hd.differentiableAt, hd.deriv⟩

/-- Lagrange's equations for the tree: along any motion the torque returned for joint `k` is
`d/dt ∂T/∂q̇_k − ∂T/∂q_k + ∂U/∂q_k` minus the generalised force of the external wrenches.  All derivatives exist. -/
theorem C94_lagrange (t : Tree) (h : t.Reach) (hv : ∀ x ∈ t.segments, x.segment.Valid)
    (hI : ∀ x ∈ t.segments, x.segment.I.I.tr = x.segment.I.I) (s : TreeRne) (grav : Vec)
    (hag : s.ag = -⟨grav, 0⟩) (hs : s.Ready t) (path : String → List TreeElem) (hpath : ∀ n ∈ t.names, Path t n (path n))
    (Q Qd : ℝ → List ℝ) (qdd : List ℝ) (u : ℝ) (fext : String → Option Wrench) (τ0 : List ℝ)
    (hQ : (Q u).length = t.nrOfJoints) (hQd : (Qd u).length = t.nrOfJoints)
    (hqdd : qdd.length = t.nrOfJoints) (hτ : τ0.length = t.nrOfJoints)
    (h1 : ∀ j, HasDerivAt (fun v => (Q v).getD j 0) ((Qd u).getD j 0) u)
    (h2 : ∀ j, HasDerivAt (fun v => (Qd v).getD j 0) (qdd.getD j 0) u) :
    ∃ (τ : List ℝ) (pd Tq Uq : ℕ → ℝ), s.cartToJnt t false (Q u) (Qd u) qdd fext τ0 = some (E_NOERROR, τ) ∧
      τ.length = t.nrOfJoints ∧
      ∀ k < t.nrOfJoints,
        HasDerivAt (fun v => treeMomentum t path (rd (Q v)) (rd (Qd v)) k) (pd k) u ∧
        HasDerivAt (fun x => treeKinetic t path (Function.update (rd (Q u)) k x) (rd (Qd u))) (Tq k) (rd (Q u) k) ∧
        HasDerivAt (fun x => treePotential t path grav (Function.update (rd (Q u)) k x)) (Uq k) (rd (Q u) k) ∧
        τ.getD k 0 = pd k - Tq k + Uq k - (t.segments.map fun x =>
          (bodyTwist (rd (Q u)) (unitRate k) (path x.name)).dot ((fext x.name).getD 0)).sum := by
  have hpv : ∀ x ∈ t.segments, ∀ e ∈ path x.name, e.segment.Valid :=
    fun x hx e he => hv e ((hpath _ (List.mem_map_of_mem hx)).mem e he)
  obtain ⟨τ, e1, e2, e3⟩ := tree_work t h hv s grav hag hs path hpath (Q u) (Qd u) qdd fext τ0 hQ hQd hqdd hτ
  refine ⟨τ, fun k => dTreeForm t path (rd (Q u)) (rd (Qd u)) (unitRate k) (rd (Qd u)) +
      treeForm t path (rd (Q u)) (unitRate k) (rd qdd),
    fun k => dTreeForm t path (rd (Q u)) (unitRate k) (rd (Qd u)) (rd (Qd u)) / 2,
    fun k => (t.segments.map fun x => (bodyTwist (rd (Q u)) (unitRate k) (path x.name)).dot
      (x.segment.I * (fkP (rd (Q u)) (path x.name)).invTwist (-⟨grav, 0⟩))).sum, e1, e2, fun k hk => ⟨?_, ?_, ?_, ?_⟩⟩
  · simp only [(C94_momentum t hv hI path hpath _ _ k).2]
    have := treeForm_hasDeriv t path hpv (Q := fun v => rd (Q v)) (R := fun _ => unitRate k) (S := fun v => rd (Qd v))
      (ε := rd (Qd u)) (r' := fun _ => 0) (s' := rd qdd) (u := u) h1 (fun j => hasDerivAt_const _ _) h2
    rw [treeForm_zero t path hpv, add_zero] at this
    exact this
  · have := treeForm_hasDeriv t path hpv (R := fun _ => rd (Qd u)) (S := fun _ => rd (Qd u)) (r' := fun _ => 0) (s' := fun _ => 0)
      (update_hasDeriv (rd (Q u)) k (rd (Q u) k)) (fun j => hasDerivAt_const _ _) (fun j => hasDerivAt_const _ _)
    unfold treeKinetic
    refine (this.div_const 2).congr_deriv ?_
    rw [Function.update_eq_self, C94_symmetric t hI path _ (rd (Qd u)), treeForm_zero t path hpv]
    ring
  · have := treePotential_hasDeriv t hv grav path hpath (update_hasDeriv (rd (Q u)) k (rd (Q u) k))
    rw [Function.update_eq_self] at this
    exact this
  · have e4 := e3 (unitRate k)
    have e5 : ∑ j ∈ range t.nrOfJoints, unitRate k j * τ.getD j 0 = τ.getD k 0 := by
      rw [sum_eq_single k]
      · simp [unitRate]
      · intro j _ hj; simp [unitRate, hj]
      · simp [hk]
    rw [e5] at e4
    rw [e4]
    dsimp only
    unfold treeForm dTreeForm
    have key : ∀ x ∈ t.segments, (bodyTwist (rd (Q u)) (unitRate k) (path x.name)).dot
          (x.segment.I * ((vaT (rd (Q u)) (rd (Qd u)) (rd qdd) 0 (path x.name)).2 +
            (fkP (rd (Q u)) (path x.name)).invTwist (-⟨grav, 0⟩)) +
            bodyTwist (rd (Q u)) (rd (Qd u)) (path x.name) * (x.segment.I * bodyTwist (rd (Q u)) (rd (Qd u)) (path x.name)) -
            (fext x.name).getD 0) =
        ((dT (rd (Q u)) (rd (Qd u)) (unitRate k) (path x.name)).2.dot
            (x.segment.I * bodyTwist (rd (Q u)) (rd (Qd u)) (path x.name)) +
          (bodyTwist (rd (Q u)) (unitRate k) (path x.name)).dot
            (x.segment.I * (dT (rd (Q u)) (rd (Qd u)) (rd (Qd u)) (path x.name)).2)) +
        (bodyTwist (rd (Q u)) (unitRate k) (path x.name)).dot (x.segment.I * bodyTwist (rd (Q u)) (rd qdd) (path x.name)) +
        (-1/2) * ((dT (rd (Q u)) (unitRate k) (rd (Qd u)) (path x.name)).2.dot
            (x.segment.I * bodyTwist (rd (Q u)) (rd (Qd u)) (path x.name)) +
          (bodyTwist (rd (Q u)) (rd (Qd u)) (path x.name)).dot
            (x.segment.I * (dT (rd (Q u)) (unitRate k) (rd (Qd u)) (path x.name)).2)) +
        (bodyTwist (rd (Q u)) (unitRate k) (path x.name)).dot
          (x.segment.I * (fkP (rd (Q u)) (path x.name)).invTwist (-⟨grav, 0⟩)) +
        (-1) * (bodyTwist (rd (Q u)) (unitRate k) (path x.name)).dot ((fext x.name).getD 0) := by
      intro x hx
      have hcm := dT_comm (rd (Q u)) (rd (Qd u)) (unitRate k) (path x.name) (hpv x hx)
      rw [vaT_eq_dT, uT_eq _ _ _ (hpv x hx)]
      rw [uT_eq _ _ _ (hpv x hx), uT_eq _ _ _ (hpv x hx)] at hcm
      have h4 := congrArg (fun z : Twist => z.dot (x.segment.I * bodyTwist (rd (Q u)) (rd (Qd u)) (path x.name))) hcm
      simp only [Twist.sub_dot, Twist.cross_dot] at h4
      rw [RBI.dot_comm (hI x hx) (bodyTwist (rd (Q u)) (rd (Qd u)) (path x.name))]
      rw [RBI.mul_add, RBI.mul_add, Twist.dot_sub, Twist.dot_add, Twist.dot_add, Twist.dot_add, ← h4]
      ring
    rw [List.map_congr_left key, List.sum_map_add, List.sum_map_add, List.sum_map_add, List.sum_map_add,
      List.sum_map_mul_left, List.sum_map_mul_left]
    ring

/-- No body or rotor of negative inertia: nonnegative kinetic energy. -/
theorem C94_psd (t : Tree) (hB : ∀ x ∈ t.segments, x.segment.I.PSD) (hJ : ∀ x ∈ t.segments, 0 ≤ x.segment.joint.inertia)
    (path : String → List TreeElem) (q δ : ℕ → ℝ) : 0 ≤ treeForm t path q δ δ := by
  refine add_nonneg (List.sum_nonneg fun y hy => ?_) (List.sum_nonneg fun y hy => ?_)
  · obtain ⟨x, hx, rfl⟩ := List.mem_map.mp hy
    exact hB x hx _
  · obtain ⟨x, hx, rfl⟩ := List.mem_map.mp hy
    have := hJ x (List.mem_filter.mp hx).1
    nlinarith [mul_nonneg this (mul_self_nonneg (δ x.q_nr))]

/-- If moreover every moving segment has a rotor, or a joint of nonzero scale and a body that no twist leaves without kinetic
energy, then only zero rates have zero energy. -/
theorem C94_posdef (t : Tree) (h : t.Reach) (hv : ∀ x ∈ t.segments, x.segment.Valid)
    (hB : ∀ x ∈ t.segments, x.segment.I.PSD) (hJ : ∀ x ∈ t.segments, 0 ≤ x.segment.joint.inertia)
    (hM : ∀ x ∈ t.segments, x.moving = true → 0 < x.segment.joint.inertia ∨ x.segment.I.PD ∧ x.segment.joint.scale ≠ 0)
    (path : String → List TreeElem) (hpath : ∀ n ∈ t.names, Path t n (path n)) (q δ : ℕ → ℝ)
    (h0 : treeForm t path q δ δ = 0) : ∀ k < t.nrOfJoints, δ k = 0 := by
  have ht := h.wf
  have hBn : ∀ x ∈ t.segments, 0 ≤ (bodyTwist q δ (path x.name)).dot (x.segment.I * bodyTwist q δ (path x.name)) :=
    fun x hx => hB x hx _
  have hJn : ∀ x ∈ t.segments.filter TreeElem.moving, 0 ≤ δ x.q_nr * (x.segment.joint.inertia * δ x.q_nr) := fun x hx => by
    have := hJ x (List.mem_filter.mp hx).1
    nlinarith [mul_nonneg this (mul_self_nonneg (δ x.q_nr))]
  have hzero : ∀ (l : List TreeElem) (f : TreeElem → ℝ), (∀ x ∈ l, 0 ≤ f x) → (l.map f).sum ≤ 0 → ∀ x ∈ l, f x = 0 := by
    intro l f hf
    induction l with
    | nil => simp
    | cons y l ih =>
      intro hs x hx
      simp only [List.map_cons, List.sum_cons] at hs
      have hy := hf y (by simp)
      have hl : 0 ≤ (l.map f).sum := List.sum_nonneg fun z hz => by
        obtain ⟨w, hw, rfl⟩ := List.mem_map.mp hz
        exact hf w (by simp [hw])
      rcases List.mem_cons.mp hx with rfl | hx
      · linarith
      · exact ih (fun w hw => hf w (by simp [hw])) (by linarith) x hx
  have s1 : 0 ≤ (t.segments.map fun x =>
      (bodyTwist q δ (path x.name)).dot (x.segment.I * bodyTwist q δ (path x.name))).sum :=
    List.sum_nonneg fun z hz => by obtain ⟨w, hw, rfl⟩ := List.mem_map.mp hz; exact hBn w hw
  have s2 : 0 ≤ ((t.segments.filter TreeElem.moving).map fun x => δ x.q_nr * (x.segment.joint.inertia * δ x.q_nr)).sum :=
    List.sum_nonneg fun z hz => by obtain ⟨w, hw, rfl⟩ := List.mem_map.mp hz; exact hJn w hw
  unfold treeForm at h0
  have z1 := hzero _ _ hBn (by linarith)
  have z2 := hzero _ _ hJn (by linarith)
  -- along every path
  have key : ∀ (n : String) (l : List TreeElem), Path t n l → uT q δ l = 0 ∧ ∀ e ∈ l, e.moving = true → δ e.q_nr = 0 := by
    intro n l hl
    induction hl with
    | root => exact ⟨rfl, by simp⟩
    | @step n p e l h1 h2 h3 h4 ih =>
      obtain ⟨he, hen⟩ := find_some h1
      have hpn : path e.name = l ++ [e] :=
        (hpath _ (List.mem_map_of_mem he)).unique (by rw [hen]; exact .step h1 h2 h3 h4)
      have hval : ∀ x ∈ l ++ [e], x.segment.Valid := fun x hx => by
        refine hv x ((Path.step h1 h2 h3 h4).mem x hx)
      have hup : uT q δ (l ++ [e]) = qv e.segment δ e.q_nr • Ss q e.segment e.q_nr := by
        rw [uT_append, ih.1, up, Frame.invTwist_zero, zero_add]
      have hz := z1 e he
      rw [hpn, ← uT_eq _ _ _ hval] at hz
      have hq0 : qv e.segment δ e.q_nr = 0 := by
        by_cases hm : e.moving = true
        · have hm' : e.segment.moving = true := hm
          rcases hM e he hm with hr | ⟨hpd, hsc⟩
          · have := z2 e (List.mem_filter.mpr ⟨he, hm⟩)
            rw [qv, if_pos hm']
            rcases mul_eq_zero.mp this with e0 | e0
            · exact e0
            · exact (mul_eq_zero.mp e0).resolve_left hr.ne'
          · have e0 : uT q δ (l ++ [e]) = 0 := by
              by_contra hne
              exact absurd hz (hpd _ hne).ne'
            rw [hup] at e0
            exact (smul_eq_zero.mp e0).resolve_right (Ss_ne_zero q (hv e he) hm' hsc _)
        · have hm' : ¬ e.segment.moving = true := hm
          rw [qv, if_neg hm']
      refine ⟨by rw [hup, hq0, zero_smul], fun x hx hxm => ?_⟩
      rcases List.mem_append.mp hx with hx | hx
      · exact ih.2 x hx hxm
      · rw [List.mem_singleton.mp hx] at hxm ⊢
        have hm' : e.segment.moving = true := hxm
        rw [qv, if_pos hm'] at hq0
        exact hq0
  intro k hk
  have : k ∈ (t.segments.filter TreeElem.moving).map TreeElem.q_nr := by rw [ht.numbering]; simpa using hk
  obtain ⟨x, hx, rfl⟩ := List.mem_map.mp this
  obtain ⟨hx1, hx2⟩ := List.mem_filter.mp hx
  have hp := hpath x.name (List.mem_map_of_mem hx1)
  refine (key _ _ hp).2 x ?_ hx2
  have hfx : t.find x.name = some x := find_of_mem ht.nodup hx1
  generalize path x.name = l at hp
  generalize hn : x.name = n at hp hfx
  cases hp with
  | root hr =>
    exfalso
    obtain ⟨r, g1, g2, _, _⟩ := ht.root
    have hrn : r.name = t.root_name := by show r.segment.name = _; rw [g2]; rfl
    have := find_of_get ht.nodup g1
    rw [hrn, hfx] at this
    cases this
    have hx2' : x.segment.moving = true := hx2
    rw [g2] at hx2'
    cases hx2'
  | step h1 _ _ _ =>
    rw [hfx] at h1; cases h1; simp

/-- Under the same conditions the accelerations are determined by the torques. -/
theorem C94_injective (t : Tree) (h : t.Reach) (hv : ∀ x ∈ t.segments, x.segment.Valid)
    (hB : ∀ x ∈ t.segments, x.segment.I.PSD) (hJ : ∀ x ∈ t.segments, 0 ≤ x.segment.joint.inertia)
    (hM : ∀ x ∈ t.segments, x.moving = true → 0 < x.segment.joint.inertia ∨ x.segment.I.PD ∧ x.segment.joint.scale ≠ 0)
    (s : TreeRne) (grav : Vec) (hag : s.ag = -⟨grav, 0⟩) (hs : s.Ready t)
    (path : String → List TreeElem) (hpath : ∀ n ∈ t.names, Path t n (path n))
    (q qd a b : List ℝ) (fext : String → Option Wrench) (τ0 τ : List ℝ) (hq : q.length = t.nrOfJoints)
    (hqd : qd.length = t.nrOfJoints) (ha : a.length = t.nrOfJoints) (hb : b.length = t.nrOfJoints)
    (hτ : τ0.length = t.nrOfJoints) (ea : s.cartToJnt t false q qd a fext τ0 = some (E_NOERROR, τ))
    (eb : s.cartToJnt t false q qd b fext τ0 = some (E_NOERROR, τ)) : a = b := by
  obtain ⟨τa, τb, e1, e2, e3⟩ := C94_inertia t h hv s grav hag hs path hpath q qd a b fext τ0 hq hqd ha hb hτ
  rw [ea] at e1; cases e1
  rw [eb] at e2; cases e2
  have h0 := e3 fun k => a.getD k 0 - b.getD k 0
  simp only [sub_self, mul_zero, sum_const_zero] at h0
  have := C94_posdef t h hv hB hJ hM path hpath (rd q) _ h0.symm
  refine List.ext_getElem (by rw [ha, hb]) fun k k1 k2 => ?_
  have := this k (by omega)
  simp only [List.getD_eq_getElem?_getD, List.getElem?_eq_getElem k1, List.getElem?_eq_getElem k2, Option.getD_some] at this
  linarith

/-- At rest, without accelerations and external wrenches, the torques are the gradient of the potential energy. -/
theorem C94_gravity_gradient (t : Tree) (h : t.Reach) (hv : ∀ x ∈ t.segments, x.segment.Valid) (s : TreeRne) (grav : Vec)
    (hag : s.ag = -⟨grav, 0⟩) (hs : s.Ready t) (path : String → List TreeElem) (hpath : ∀ n ∈ t.names, Path t n (path n))
    (Q : ℝ → List ℝ) (qd z : List ℝ) (u : ℝ) (τ0 : List ℝ)
    (hQ : (Q u).length = t.nrOfJoints) (hz : z = List.replicate t.nrOfJoints 0) (hτ : τ0.length = t.nrOfJoints)
    (h1 : ∀ j, HasDerivAt (fun v => (Q v).getD j 0) (qd.getD j 0) u) :
    ∃ G, s.cartToJnt t false (Q u) z z (fun _ => none) τ0 = some (E_NOERROR, G) ∧
      HasDerivAt (fun v => treePotential t path grav (rd (Q v))) (∑ k ∈ range t.nrOfJoints, qd.getD k 0 * G.getD k 0) u := by
  have hzl : z.length = t.nrOfJoints := by simp [hz]
  obtain ⟨G, e1, _, e3⟩ := tree_work t h hv s grav hag hs path hpath (Q u) z z (fun _ => none) τ0 hQ hzl hzl hτ
  refine ⟨G, e1, (treePotential_hasDeriv t hv grav path hpath (Q := fun v => rd (Q v)) (qd := rd qd) h1).congr_deriv ?_⟩
  have hpv : ∀ x ∈ t.segments, ∀ e ∈ path x.name, e.segment.Valid :=
    fun x hx e he => hv e ((hpath _ (List.mem_map_of_mem hx)).mem e he)
  have hz0 : rd z = fun _ => 0 := by
    funext k
    rw [hz]; simp only [rd, List.getD_eq_getElem?_getD, List.getElem?_replicate]; split_ifs <;> rfl
  have e4 : ∑ k ∈ range t.nrOfJoints, qd.getD k 0 * G.getD k 0 = _ := e3 (rd qd)
  rw [e4, hz0]
  have r0 : ((t.segments.filter TreeElem.moving).map fun x => rd qd x.q_nr * (x.segment.joint.inertia * 0)).sum = 0 := by
    simp
  rw [r0, add_zero]
  congr 1
  refine List.map_congr_left fun x hx => ?_
  have hv0 : ∀ l : List TreeElem, (vaT (rd (Q u)) (fun _ => 0) (fun _ => 0) 0 l).2 = 0 := by
    intro l
    induction l using List.reverseRecOn with
    | nil => rfl
    | append_singleton l e ih => simp only [vaT_append, ih, ap_zero_rate, Frame.invTwist_zero]
  have hc0 : (0 : Twist) * (x.segment.I * (0 : Twist)) = 0 := by
    show Wrench.mk _ _ = 0
    ext <;> simp
  rw [hv0, zero_add, bodyTwist_zero _ _ (hpv x hx), hc0, add_zero, Option.getD_none, sub_zero]

/-- External wrenches enter by the transposed Jacobians of the bodies they act on and nothing else. -/
theorem C94_external (t : Tree) (h : t.Reach) (hv : ∀ x ∈ t.segments, x.segment.Valid) (s : TreeRne) (grav : Vec)
    (hag : s.ag = -⟨grav, 0⟩) (hs : s.Ready t) (path : String → List TreeElem) (hpath : ∀ n ∈ t.names, Path t n (path n))
    (q qd a : List ℝ) (fext : String → Option Wrench) (τ0 : List ℝ) (hq : q.length = t.nrOfJoints)
    (hqd : qd.length = t.nrOfJoints) (ha : a.length = t.nrOfJoints) (hτ : τ0.length = t.nrOfJoints) :
    ∃ τ τf : List ℝ, s.cartToJnt t false q qd a (fun _ => none) τ0 = some (E_NOERROR, τ) ∧
      s.cartToJnt t false q qd a fext τ0 = some (E_NOERROR, τf) ∧
      ∀ δ : ℕ → ℝ, ∑ k ∈ range t.nrOfJoints, δ k * (τ.getD k 0 - τf.getD k 0) =
        (t.segments.map fun x => (bodyTwist (rd q) δ (path x.name)).dot ((fext x.name).getD 0)).sum := by
  obtain ⟨τa, a1, _, a3⟩ := tree_work t h hv s grav hag hs path hpath q qd a (fun _ => none) τ0 hq hqd ha hτ
  obtain ⟨τb, b1, _, b3⟩ := tree_work t h hv s grav hag hs path hpath q qd a fext τ0 hq hqd ha hτ
  refine ⟨τa, τb, a1, b1, fun δ => ?_⟩
  have : ∑ k ∈ range t.nrOfJoints, δ k * (τa.getD k 0 - τb.getD k 0) =
      ∑ k ∈ range t.nrOfJoints, δ k * τa.getD k 0 - ∑ k ∈ range t.nrOfJoints, δ k * τb.getD k 0 := by
    rw [← sum_sub_distrib]; exact sum_congr rfl fun k _ => by ring
  rw [this, a3, b3, add_sub_add_right_eq_sub, sub_eq_iff_eq_add, ← List.sum_map_add]
  congr 1
  refine List.map_congr_left fun x _ => ?_
  simp only [Option.getD_none, sub_zero, Twist.dot_sub]
  ring

/-- With torques and external wrenches zero all along a motion, its energy is constant. -/
theorem C94_conservation (t : Tree) (h : t.Reach) (hv : ∀ x ∈ t.segments, x.segment.Valid)
    (hI : ∀ x ∈ t.segments, x.segment.I.I.tr = x.segment.I.I) (s : TreeRne) (grav : Vec)
    (hag : s.ag = -⟨grav, 0⟩) (hs : s.Ready t) (path : String → List TreeElem) (hpath : ∀ n ∈ t.names, Path t n (path n))
    (Q Qd Qdd : ℝ → List ℝ) (τ0 : List ℝ) (hQ : ∀ u, (Q u).length = t.nrOfJoints) (hQd : ∀ u, (Qd u).length = t.nrOfJoints)
    (hqdd : ∀ u, (Qdd u).length = t.nrOfJoints) (hτ : τ0.length = t.nrOfJoints)
    (h1 : ∀ u j, HasDerivAt (fun v => (Q v).getD j 0) ((Qd u).getD j 0) u)
    (h2 : ∀ u j, HasDerivAt (fun v => (Qd v).getD j 0) ((Qdd u).getD j 0) u)
    (hfree : ∀ u, s.cartToJnt t false (Q u) (Qd u) (Qdd u) (fun _ => none) τ0 =
      some (E_NOERROR, List.replicate t.nrOfJoints 0)) (u v : ℝ) :
    treeKinetic t path (rd (Q u)) (rd (Qd u)) + treePotential t path grav (rd (Q u)) =
      treeKinetic t path (rd (Q v)) (rd (Qd v)) + treePotential t path grav (rd (Q v)) := by
  have hd : ∀ w, HasDerivAt (fun v => treeKinetic t path (rd (Q v)) (rd (Qd v)) + treePotential t path grav (rd (Q v))) 0 w := by
    intro w
    obtain ⟨τ, e1, e2⟩ := C94_power_balance t h hv hI s grav hag hs path hpath Q Qd (Qdd w) w (fun _ => none) τ0 (hQ w) (hQd w)
      (hqdd w) hτ (h1 w) (h2 w)
    rw [hfree w] at e1; cases e1
    refine e2.congr_deriv ?_
    have : ∀ k, (List.replicate t.nrOfJoints (0:ℝ)).getD k 0 = 0 := fun k => by
      simp only [List.getD_eq_getElem?_getD, List.getElem?_replicate]; split_ifs <;> rfl
    have h0 : (t.segments.map fun x =>
        (bodyTwist (rd (Q w)) (rd (Qd w)) (path x.name)).dot ((none : Option Wrench).getD 0)).sum = 0 := by
      simp [Twist.dot_zero]
    simp only [this, mul_zero, sum_const_zero, h0, add_zero]
  exact is_const_of_deriv_eq_zero (fun w => (hd w).differentiableAt) (fun w => (hd w).deriv) u v

/-! ## Non-vacuity: the tree with two branches of C36 -/

theorem exTree_ready (grav : Vec) : (TreeRne.new exTree grav).Ready exTree :=
  ⟨rfl, rfl, (C36_keys exTree grav (TreeRne.new exTree grav)).1⟩

theorem exTree_bodies : (∀ x ∈ exTree.segments, x.segment.I.I.tr = x.segment.I.I) ∧
    (∀ x ∈ exTree.segments, x.segment.I.PSD) ∧ (∀ x ∈ exTree.segments, 0 ≤ x.segment.joint.inertia) ∧
    ∀ x ∈ exTree.segments, x.moving = true → 0 < x.segment.joint.inertia ∨ x.segment.I.PD ∧ x.segment.joint.scale ≠ 0 := by
  have hmem : ∀ x ∈ exTree.segments, x.segment = Segment.ofName "r" ∨ ∃ n ty, x.segment = exLink n ty := by
    rw [exTree_eq]
    intro x hx
    simp only [List.mem_cons, List.not_mem_nil, or_false] at hx
    rcases hx with rfl | rfl | rfl | rfl
    · exact .inl rfl
    · exact .inr ⟨_, _, rfl⟩
    · exact .inr ⟨_, _, rfl⟩
    · exact .inr ⟨_, _, rfl⟩
  refine ⟨fun x hx => ?_, fun x hx => ?_, fun x hx => ?_, fun x hx hm => ?_⟩
  · rcases hmem x hx with e | ⟨n, ty, e⟩ <;> rw [e]
    · simp only [Segment.ofName]
      ext <;> simp [Mat3.tr, RBI.zero, RBI.ofCog, rotationalInertia, Mat3.sub_def, Mat3.smul_def, Mat3.outer, Mat3.one_def]
    · simp only [exLink, RBI.ofCog, rotationalInertia]
      ext <;> simp [Mat3.tr, Mat3.sub_def, Mat3.smul_def, Mat3.outer, Mat3.one_def]
  · rcases hmem x hx with e | ⟨n, ty, e⟩ <;> rw [e]
    · intro w
      simp [Segment.ofName, Twist.dot, RBI.mul_twist, Vec.dot, RBI.zero, RBI.ofCog, rotationalInertia, Mat3.sub_def, Mat3.smul_def,
        Mat3.outer, Mat3.one_def]
    · intro w
      by_cases h : w = 0
      · subst h; rw [Twist.zero_dot]
      · exact (exLink_pd n ty w h).le
  · rcases hmem x hx with e | ⟨n, ty, e⟩ <;> rw [e] <;> simp [Segment.ofName, exLink]
  · have hm' : x.segment.moving = true := hm
    rcases hmem x hx with e | ⟨n, ty, e⟩
    · rw [e] at hm'; cases hm'
    · rw [e]; exact .inr ⟨exLink_pd n ty, by simp [exLink]⟩

/-- Different accelerations need different torques, whatever the position, velocity, gravity and external wrenches. -/
example (grav : Vec) (q qd a b : List ℝ) (hq : q.length = 3) (hqd : qd.length = 3) (ha : a.length = 3) (hb : b.length = 3)
    (hab : a ≠ b) (fext : String → Option Wrench) :
    (TreeRne.new exTree grav).cartToJnt exTree false q qd a fext [0, 0, 0] ≠
      (TreeRne.new exTree grav).cartToJnt exTree false q qd b fext [0, 0, 0] := by
  intro he
  have hnj : exTree.nrOfJoints = 3 := by rw [exTree_eq]
  obtain ⟨path, hpath⟩ := exists_paths exTree_reach
  obtain ⟨_, hB, hJ, hM⟩ := exTree_bodies
  obtain ⟨τa, _, e1, _⟩ := C94_inertia exTree exTree_reach exTree_valid (TreeRne.new exTree grav) grav rfl (exTree_ready grav)
    path hpath q qd a b fext [0, 0, 0] (by rw [hnj, hq]) (by rw [hnj, hqd]) (by rw [hnj, ha]) (by rw [hnj, hb]) (by rw [hnj]; rfl)
  exact hab (C94_injective exTree exTree_reach exTree_valid hB hJ hM (TreeRne.new exTree grav) grav rfl (exTree_ready grav)
    path hpath q qd a b fext [0, 0, 0] τa (by rw [hnj, hq]) (by rw [hnj, hqd]) (by rw [hnj, ha]) (by rw [hnj, hb])
    (by rw [hnj]; rfl) e1 (he ▸ e1))

/-- A motion at constant speed in the example. -/
example (grav : Vec) (fext : String → Option Wrench) : ∃ (path : String → List TreeElem) (τ : List ℝ),
    (TreeRne.new exTree grav).cartToJnt exTree false [0, 0, 0] [1, 0, 0] [0, 0, 0] fext [0, 0, 0] = some (E_NOERROR, τ) ∧
    HasDerivAt (fun v => treeKinetic exTree path (rd [v, 0, 0]) (rd [1, 0, 0]) + treePotential exTree path grav (rd [v, 0, 0]))
      (∑ k ∈ range exTree.nrOfJoints, ([1, 0, 0] : List ℝ).getD k 0 * τ.getD k 0 + (exTree.segments.map fun x =>
        (bodyTwist (rd [0, 0, 0]) (rd [1, 0, 0]) (path x.name)).dot ((fext x.name).getD 0)).sum) 0 := by
  have hnj : exTree.nrOfJoints = 3 := by rw [exTree_eq]
  obtain ⟨path, hpath⟩ := exists_paths exTree_reach
  obtain ⟨τ, e1, e2⟩ := C94_power_balance exTree exTree_reach exTree_valid exTree_bodies.1 (TreeRne.new exTree grav) grav rfl
    (exTree_ready grav) path hpath (fun v => [v, 0, 0]) (fun _ => [1, 0, 0]) [0, 0, 0] 0 fext [0, 0, 0] (by rw [hnj]; rfl)
    (by rw [hnj]; rfl) (by rw [hnj]; rfl) (by rw [hnj]; rfl)
    (by
      intro j
      rcases j with _ | _ | _ | j
      · simpa using hasDerivAt_id' (0 : ℝ)
      all_goals simpa using hasDerivAt_const (0 : ℝ) (0 : ℝ))
    (by
      intro j
      rcases j with _ | _ | _ | j
      · simpa using hasDerivAt_const (0 : ℝ) (1 : ℝ)
      all_goals simpa using hasDerivAt_const (0 : ℝ) (0 : ℝ))
  exact ⟨path, τ, e1, e2⟩

/-- The third torque is the derivative of the potential energy along the slider. -/
example (grav : Vec) (x y z : ℝ) : ∃ (path : String → List TreeElem) (G : List ℝ),
    (TreeRne.new exTree grav).cartToJnt exTree false [x, y, z] [0, 0, 0] [0, 0, 0] (fun _ => none) [0, 0, 0] =
      some (E_NOERROR, G) ∧
    HasDerivAt (fun v => treePotential exTree path grav (rd [x, y, z + v]))
      (∑ k ∈ range exTree.nrOfJoints, ([0, 0, 1] : List ℝ).getD k 0 * G.getD k 0) 0 := by
  have hnj : exTree.nrOfJoints = 3 := by rw [exTree_eq]
  obtain ⟨path, hpath⟩ := exists_paths exTree_reach
  obtain ⟨G, e1, e2⟩ := C94_gravity_gradient exTree exTree_reach exTree_valid (TreeRne.new exTree grav) grav rfl
    (exTree_ready grav) path hpath (fun v => [x, y, z + v]) [0, 0, 1] [0, 0, 0] 0 [0, 0, 0] (by rw [hnj]; rfl)
    (by rw [hnj]; rfl) (by rw [hnj]; rfl)
    (by
      intro j
      rcases j with _ | _ | _ | j
      · simpa using hasDerivAt_const (0 : ℝ) x
      · simpa using hasDerivAt_const (0 : ℝ) y
      · simpa using (hasDerivAt_id (0 : ℝ)).const_add z
      · simpa using hasDerivAt_const (0 : ℝ) (0 : ℝ))
  simp only [add_zero] at e1
  exact ⟨path, G, e1, e2⟩

/-- Lagrange's equations at constant speed. -/
example (grav : Vec) (fext : String → Option Wrench) : ∃ (path : String → List TreeElem) (τ : List ℝ) (pd Tq Uq : ℕ → ℝ),
    (TreeRne.new exTree grav).cartToJnt exTree false [0, 0, 0] [1, 0, 0] [0, 0, 0] fext [0, 0, 0] = some (E_NOERROR, τ) ∧
    ∀ k < 3, HasDerivAt (fun v => treeMomentum exTree path (rd [v, 0, 0]) (rd [1, 0, 0]) k) (pd k) 0 ∧
      τ.getD k 0 = pd k - Tq k + Uq k - (exTree.segments.map fun x =>
        (bodyTwist (rd [0, 0, 0]) (unitRate k) (path x.name)).dot ((fext x.name).getD 0)).sum := by
  have hnj : exTree.nrOfJoints = 3 := by rw [exTree_eq]
  obtain ⟨path, hpath⟩ := exists_paths exTree_reach
  obtain ⟨τ, pd, Tq, Uq, e1, _, e2⟩ := C94_lagrange exTree exTree_reach exTree_valid exTree_bodies.1 (TreeRne.new exTree grav)
    grav rfl (exTree_ready grav) path hpath (fun v => [v, 0, 0]) (fun _ => [1, 0, 0]) [0, 0, 0] 0 fext [0, 0, 0]
    (by rw [hnj]; rfl) (by rw [hnj]; rfl) (by rw [hnj]; rfl) (by rw [hnj]; rfl)
    (by
      intro j
      rcases j with _ | _ | _ | j
      · simpa using hasDerivAt_id' (0 : ℝ)
      all_goals simpa using hasDerivAt_const (0 : ℝ) (0 : ℝ))
    (by
      intro j
      rcases j with _ | _ | _ | j
      · simpa using hasDerivAt_const (0 : ℝ) (1 : ℝ)
      all_goals simpa using hasDerivAt_const (0 : ℝ) (0 : ℝ))
  exact ⟨path, τ, pd, Tq, Uq, e1, fun k hk => ⟨(e2 k (by rw [hnj]; exact hk)).1, (e2 k (by rw [hnj]; exact hk)).2.2.2⟩⟩

/-- A free motion: the example at rest without gravity. -/
example (x y z : ℝ) : (TreeRne.new exTree 0).cartToJnt exTree false [x, y, z] [0, 0, 0] [0, 0, 0] (fun _ => none) [0, 0, 0] =
    some (E_NOERROR, List.replicate exTree.nrOfJoints 0) := by
  have hnj : exTree.nrOfJoints = 3 := by rw [exTree_eq]
  obtain ⟨path, hpath⟩ := exists_paths exTree_reach
  obtain ⟨τ, e1, e2, e3⟩ := tree_work exTree exTree_reach exTree_valid (TreeRne.new exTree 0) 0 rfl
    (exTree_ready 0) path hpath [x, y, z] [0, 0, 0] [0, 0, 0] (fun _ => none) [0, 0, 0] (by rw [hnj]; rfl)
    (by rw [hnj]; rfl) (by rw [hnj]; rfl) (by rw [hnj]; rfl)
  rw [e1]
  congr 2
  refine List.ext_getElem (by simp [e2]) fun k k1 k2 => ?_
  have hk : k < exTree.nrOfJoints := by omega
  obtain ⟨G, g1, g2⟩ := C94_gravity_gradient exTree exTree_reach exTree_valid (TreeRne.new exTree 0) 0 rfl
    (exTree_ready 0) path hpath (fun v => [x, y, z].set k ([x, y, z].getD k 0 + v)) (unitJnt 3 k) [0, 0, 0] 0 [0, 0, 0]
    (by rw [hnj]; simp) (by rw [hnj]; rfl) (by rw [hnj]; rfl)
    (by
      intro j
      have hd := set_hasDeriv [x, y, z] k (by rw [hnj] at hk; exact hk) ([x, y, z].getD k 0 + 0) j
      have := hd.comp (0 : ℝ) ((hasDerivAt_id' (0 : ℝ)).const_add ([x, y, z].getD k 0))
      rw [mul_one] at this
      exact this)
  simp only [add_zero, set_getD_self] at g1
  rw [e1] at g1
  cases g1
  have h0 : (fun v : ℝ => treePotential exTree path 0 (rd ([x, y, z].set k ([x, y, z].getD k 0 + v)))) = fun _ => 0 := by
    funext v
    simp [treePotential, Vec.dot]
  rw [h0] at g2
  have h1 := g2.unique (hasDerivAt_const (0 : ℝ) (0 : ℝ))
  rw [sum_eq_single k] at h1
  · rw [getD_unitJnt 3 k k (by rw [hnj] at hk; exact hk), if_pos rfl, one_mul, List.getD_eq_getElem?_getD,
      List.getElem?_eq_getElem k1] at h1
    simpa using h1
  · intro j _ hj
    rw [getD_unitJnt 3 k j (by rw [hnj] at hk; exact hk), if_neg hj, zero_mul]
  · simp [hk]

end KDL
