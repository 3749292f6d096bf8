import Verif.Lemmas.TreeDynamics
import Verif.Props.Dynamics
import Verif.Props.TreeKin

/-!
# C36: inverse dynamics of a tree (`TreeIdSolver_RNE`)
-/

noncomputable section
namespace KDL
open Tree

/-- Twist of the body at the end of the path `l`, expressed in its own frame. -/
def bodyTwist (q qd : ℕ → ℝ) (l : List TreeElem) : Twist := (fkP q l).M.invTwist (twP q qd l)
/-- Momentum of a body with inertia `I` at the end of the path, with respect to the root origin in root coordinates. -/
def bodyMomentum (q qd : ℕ → ℝ) (I : RBI) (l : List TreeElem) : Wrench := fkP q l * (I * bodyTwist q qd l)
/-- Weight of that body: `m g` in its centre of gravity. -/
def bodyWeight (q : ℕ → ℝ) (I : RBI) (g : Vec) (l : List TreeElem) : Wrench :=
  ⟨I.m • g, (I.m • (fkP q l).p + (fkP q l).M * I.h) * g⟩

/-- The body twist is the velocity of the frame the position solver reports. -/
theorem C36_bodyTwist {Q : ℝ → ℕ → ℝ} {qd : ℕ → ℝ} {s : ℝ} (hq : ∀ j, HasDerivAt (fun u => Q u j) (qd j) s)
    (l : List TreeElem) (hl : ∀ e ∈ l, e.segment.Valid) :
    ∃ w, Frame.HasTwist (fun u => fkP (Q u) l) w s ∧ bodyTwist (Q s) qd l = (fkP (Q s) l).M.invTwist w :=
  ⟨_, twP_hasTwist hq l hl, rfl⟩

/-! ### Velocities and accelerations along a path -/

def uT (q δ : ℕ → ℝ) (l : List TreeElem) : Twist := l.foldl (fun u e => up q δ e.segment e.q_nr u) 0
def vaT (q qd qdd : ℕ → ℝ) (a0 : Twist) (l : List TreeElem) : Twist × Twist :=
  l.foldl (fun z e => (up q qd e.segment e.q_nr z.1, ap q qd qdd e.segment e.q_nr z.1 z.2)) (0, a0)

theorem uT_append (q δ : ℕ → ℝ) (l : List TreeElem) (e : TreeElem) :
    uT q δ (l ++ [e]) = up q δ e.segment e.q_nr (uT q δ l) := by simp [uT]
theorem vaT_append (q qd qdd : ℕ → ℝ) (a0 : Twist) (l : List TreeElem) (e : TreeElem) :
    vaT q qd qdd a0 (l ++ [e]) = (up q qd e.segment e.q_nr (vaT q qd qdd a0 l).1,
      ap q qd qdd e.segment e.q_nr (vaT q qd qdd a0 l).1 (vaT q qd qdd a0 l).2) := by simp [vaT]
theorem vaT_fst (q qd qdd : ℕ → ℝ) (a0 : Twist) (l : List TreeElem) : (vaT q qd qdd a0 l).1 = uT q qd l := by
  induction l using List.reverseRecOn with
  | nil => rfl
  | append_singleton l e ih => rw [vaT_append, uT_append, ih]

theorem pose_qv (q : ℕ → ℝ) (e : TreeElem) : e.segment.pose (q e.q_nr) = Xs q e.segment e.q_nr := by
  unfold Xs qv
  split_ifs with h
  · rfl
  · exact fixed_pose (by simpa using h) _ _

theorem twP_append (q qd : ℕ → ℝ) (l m : List TreeElem) (hl : ∀ e ∈ l, e.segment.Valid) :
    twP q qd (l ++ m) = (twP q qd l).refPoint ((fkP q l).M * (fkP q m).p) + (fkP q l).M * twP q qd m := by
  induction l with
  | nil =>
    simp only [List.nil_append, twP, fkP, List.map_nil, List.prod_nil]
    ext <;> simp [Twist.refPoint]
  | cons e l ih =>
    have h : ∀ k, fkP q (e :: k) = e.segment.pose (q e.q_nr) * fkP q k := fun k => by simp [fkP]
    simp only [List.cons_append, twP, ih fun x hx => hl x (by simp [hx]), h, fkP_append]
    have hX : (e.segment.pose (q e.q_nr)).M.IsProper := Segment.isProper_pose (hl e (by simp)) _
    generalize e.segment.pose (q e.q_nr) = X at hX ⊢
    generalize e.segment.twist (q e.q_nr) (qd e.q_nr) = w
    generalize fkP q l = G
    generalize fkP q m = H
    generalize twP q qd l = a
    generalize twP q qd m = b
    have e1 : (G * H).p = G.M * H.p + G.p := rfl
    have e2 : (X * G).M = X.M * G.M := rfl
    show Twist.mk (w.vel + w.rot * (X.M * (G * H).p) + X.M * (a.vel + a.rot * (G.M * H.p) + G.M * b.vel))
        (w.rot + X.M * (a.rot + G.M * b.rot)) =
      Twist.mk (w.vel + w.rot * (X.M * G.p) + X.M * a.vel + (w.rot + X.M * a.rot) * ((X * G).M * H.p) + (X * G).M * b.vel)
        (w.rot + X.M * a.rot + (X * G).M * b.rot)
    rw [e1, e2]
    simp only [Rot.app_add, Rot.mul_app, Vec.cross_add, Vec.add_cross, hX.cross]
    congr 1 <;> abel

theorem uT_eq (q δ : ℕ → ℝ) (l : List TreeElem) (hl : ∀ e ∈ l, e.segment.Valid) : uT q δ l = bodyTwist q δ l := by
  induction l using List.reverseRecOn with
  | nil =>
    simp only [uT, bodyTwist, fkP, twP, List.foldl_nil, List.map_nil, List.prod_nil]
    ext <;> simp [Rot.invTwist, Rot.invVec]
  | append_singleton l e ih =>
    have hF := isProper_fkP q l (fun x hx => hl x (by simp [hx]))
    have hs := hl e (by simp)
    rw [uT_append, ih fun x hx => hl x (by simp [hx]), bodyTwist, bodyTwist, twP_append _ _ _ _ fun x hx => hl x (by simp [hx]), fkP_append]
    have h1 : fkP q [e] = Xs q e.segment e.q_nr := by simp [fkP, pose_qv]
    have h2 : twP q δ [e] = e.segment.twist (qv e.segment q e.q_nr) (qv e.segment δ e.q_nr) := by
      have h3 : twP q δ [e] = e.segment.twist (q e.q_nr) (δ e.q_nr) := by
        simp only [twP, fkP, List.map_nil, List.prod_nil]
        ext <;> simp [Twist.refPoint]
      rw [h3]
      unfold qv
      split_ifs with h
      · rfl
      · rw [twist_fixed (by simpa using h), twist_fixed (by simpa using h)]
    rw [h1, h2, up, ← invTwist_twist]
    have hX := isProper_Xs q hs e.q_nr
    generalize Xs q e.segment e.q_nr = X at hX ⊢
    generalize e.segment.twist (qv e.segment q e.q_nr) (qv e.segment δ e.q_nr) = w
    generalize twP q δ l = a
    generalize fkP q l = G at hF ⊢
    have hG : G.M.IsProper := hF
    have hG' := hG.inv
    have e1 : (G * X).M.inv = X.M.inv * G.M.inv := Rot.inv_mul _ _
    simp only [Frame.invTwist_eq, Rot.invTwist_eq, e1, Twist.refPoint]
    show Twist.mk _ _ + Twist.mk _ _ = Twist.mk (X.M.inv * G.M.inv * (a.vel + a.rot * (G.M * X.p) + G.M * w.vel))
      (X.M.inv * G.M.inv * (a.rot + G.M * w.rot))
    simp only [Rot.app_add, Rot.mul_app, Rot.app_sub, hG.inv_app_app, ← hG'.cross]
    show Twist.mk (_ + _) (_ + _) = _
    congr 1
    rw [Vec.cross_comm X.p, Rot.app_neg]
    simp only [sub_neg_eq_add, add_assoc]

theorem uT_hasDeriv {Q Qd : ℝ → ℕ → ℝ} {qdd : ℕ → ℝ} {s : ℝ} (h1 : JntHasDeriv Q (Qd s) s) (h2 : JntHasDeriv Qd qdd s)
    (l : List TreeElem) (hl : ∀ e ∈ l, e.segment.Valid) :
    Twist.HasDeriv (fun u => uT (Q u) (Qd u) l) (vaT (Q s) (Qd s) qdd 0 l).2 s := by
  induction l using List.reverseRecOn with
  | nil => exact .const 0 s
  | append_singleton l e ih =>
    have := up_hasDeriv (hl e (by simp)) h1 h2 e.q_nr (ih fun x hx => hl x (by simp [hx]))
    simp only [uT_append, vaT_append, vaT_fst]
    exact this

theorem vaT_add (q qd qdd : ℕ → ℝ) (g : Twist) (l : List TreeElem) (hl : ∀ e ∈ l, e.segment.Valid) :
    (vaT q qd qdd g l).2 = (vaT q qd qdd 0 l).2 + (fkP q l).invTwist g := by
  induction l using List.reverseRecOn with
  | nil =>
    simp only [vaT, List.foldl_nil, fkP, List.map_nil, List.prod_nil]
    ext <;> simp [Frame.invTwist, Rot.invVec]
  | append_singleton l e ih =>
    have hF := isProper_fkP q l (fun x hx => hl x (by simp [hx]))
    have h1 : fkP q [e] = Xs q e.segment e.q_nr := by simp [fkP, pose_qv]
    simp only [vaT_append, vaT_fst, ih fun x hx => hl x (by simp [hx]), fkP_append, Frame.invTwist_mul _ _ hF, h1, ap,
      Frame.invTwist_add]
    abel

/-- The maps of a new solver, and of one after `updateInternalDataStructures`, have an entry for every segment. -/
theorem C36_keys (t : Tree) (grav : Vec) (s : TreeRne) : (∀ n ∈ t.names, ((TreeRne.new t grav).aux n).isSome) ∧
    (∀ n ∈ t.names, ((s.update t).aux n).isSome) ∧ (TreeRne.new t grav).nj = t.nrOfJoints ∧
    (TreeRne.new t grav).ns = t.nrOfSegments ∧ (TreeRne.new t grav).ag = -⟨grav, 0⟩ ∧
    (s.update t).nj = t.nrOfJoints ∧ (s.update t).ns = t.nrOfSegments ∧ (s.update t).ag = s.ag := by
  have h : ∀ m, ∀ n ∈ t.names, (TreeRne.initAux t m n).isSome := by
    intro m n hn
    obtain ⟨e, he⟩ := mem_names.mp hn
    simp [TreeRne.initAux, he]
  exact ⟨h _, h _, rfl, rfl, rfl, rfl, rfl, rfl⟩

/-- Newton's and Euler's laws for every body of the tree: along any trajectory, the torque of a joint is the power, under
unit rate of that joint, of `dP/dt − weight − external wrench` summed over all bodies of the tree, plus the rotor's
`J q̈`.  `s` is any solver object whose sizes and keys match the tree; the values left in its maps do not matter. -/
theorem C36_newton (t : Tree) (h : t.Reach) (hv : ∀ x ∈ t.segments, x.segment.Valid) (s : TreeRne) (grav : Vec)
    (hag : s.ag = -⟨grav, 0⟩) (hnj : s.nj = t.nrOfJoints) (hns : s.ns = t.nrOfSegments)
    (hkeys : ∀ n ∈ t.names, (s.aux n).isSome) (path : String → List TreeElem) (hpath : ∀ n ∈ t.names, Path t n (path n))
    (Q Qd : ℝ → List ℝ) (qdd : List ℝ) (u : ℝ) (fext : String → Option Wrench) (τ0 : List ℝ)
    (hQ : (Q u).length = t.nrOfJoints) (hQd : (Qd u).length = t.nrOfJoints)
    (hqdd : qdd.length = t.nrOfJoints) (hτ : τ0.length = t.nrOfJoints)
    (h1 : ∀ j, HasDerivAt (fun v => (Q v).getD j 0) ((Qd u).getD j 0) u)
    (h2 : ∀ j, HasDerivAt (fun v => (Qd v).getD j 0) (qdd.getD j 0) u) :
    ∃ (τ : List ℝ) (Pd : TreeElem → Wrench),
      s.cartToJnt t false (Q u) (Qd u) qdd fext τ0 = some (E_NOERROR, τ) ∧ τ.length = t.nrOfJoints ∧
      (∀ x ∈ t.segments, Wrench.HasDeriv (fun v => bodyMomentum (rd (Q v)) (rd (Qd v)) x.segment.I (path x.name)) (Pd x) u) ∧
      ∀ e ∈ t.segments, e.moving = true → τ[e.q_nr]? = some ((t.segments.map fun x =>
        (fkP (rd (Q u)) (path x.name) * bodyTwist (rd (Q u)) (unitRate e.q_nr) (path x.name)).dot
          (Pd x - bodyWeight (rd (Q u)) x.segment.I grav (path x.name) -
            fkP (rd (Q u)) (path x.name) * (fext x.name).getD 0)).sum + e.segment.joint.inertia * qdd.getD e.q_nr 0) := by
  have ht := h.wf
  have hpv : ∀ n ∈ t.names, ∀ e ∈ path n, e.segment.Valid := fun n hn e he => hv e ((hpath n hn).mem e he)
  obtain ⟨r, g1, g2, g3, g4⟩ := ht.root
  have hrn : r.name = t.root_name := by show r.segment.name = _; rw [g2]; rfl
  have hr : t.find t.root_name = some r := by rw [← hrn]; exact find_of_get ht.nodup g1
  have hrm : r.segment.moving = false := by rw [g2]; rfl
  have hroot : path t.root_name = [] := (hpath _ (mem_names.mpr ⟨r, hr⟩)).unique (.root hr)
  -- paths grow by one element
  have hstep : ∀ n e p, t.find n = some e → n ≠ t.root_name → e.parent = some p → path n = path p ++ [e] := by
    intro n e p he hn hp
    have hnn := hpath n (mem_names.mpr ⟨e, he⟩)
    obtain ⟨j, x, hj⟩ : ∃ (j : ℕ) (x : TreeElem), t.segments[j]? = some x ∧ x.name = p := by
      obtain ⟨i, hi, hie⟩ := List.getElem_of_mem (find_some he).1
      have hget : t.segments[i]? = some e := by rw [List.getElem?_eq_getElem hi, hie]
      have hi0 : i ≠ 0 := by
        rintro rfl
        rw [hget] at g1; cases g1
        rw [g3] at hp; cases hp
      obtain ⟨j, x, _, k2, k3⟩ := ht.parents i e hget hi0
      rw [hp] at k3
      simp only [Option.some.injEq] at k3
      exact ⟨j, x, k2, k3.symm⟩
    have hpm : p ∈ t.names := by rw [← hj.2]; exact List.mem_map_of_mem (List.mem_of_getElem? hj.1)
    exact hnn.unique (.step he hn hp (hpath p hpm))
  set q := rd (Q u) with hq
  set qd := rd (Qd u) with hqd
  set V : String → Twist := fun n => uT q qd (path n) with hVd
  set A : String → Twist := fun n => (vaT q qd (rd qdd) s.ag (path n)).2 with hAd
  obtain ⟨F, hF⟩ := exists_subF ht q (flE t V A fext)
  obtain ⟨τ, k1, k2, k3⟩ := rne_root h s (Q u) (Qd u) qdd τ0 fext V A F hnj hns hkeys hQ hQd hqdd hτ
    (by simp [hVd, hroot, uT]) (by simp [hAd, hroot, vaT])
    (by
      intro n e p he hn hp
      simp only [hVd, hAd, hstep n e p he hn hp, uT_append, vaT_append, vaT_fst]
      exact ⟨rfl, rfl⟩) hF
  refine ⟨τ, fun x => fkP q (path x.name) * (x.segment.I * (vaT q qd (rd qdd) 0 (path x.name)).2 +
    V x.name * (x.segment.I * V x.name)), k1, k2, ?_, ?_⟩
  · intro x hx
    have hxv := hpv x.name (List.mem_map_of_mem hx)
    have hd := uT_hasDeriv (Q := fun v => rd (Q v)) (Qd := fun v => rd (Qd v)) (qdd := rd qdd) h1 h2 (path x.name) hxv
    have hw := twP_hasTwist (Q := fun v => rd (Q v)) h1 (path x.name) hxv
    have := Wrench.hasDeriv_app hw (isProper_fkP _ _ hxv) (RBI.hasDeriv_mul x.segment.I hd)
    simp only [bodyMomentum]
    have e1 : ∀ v, uT (rd (Q v)) (rd (Qd v)) (path x.name) = bodyTwist (rd (Q v)) (rd (Qd v)) (path x.name) :=
      fun v => uT_eq _ _ _ hxv
    have e2 : V x.name = (fkP q (path x.name)).M.invTwist (twP q qd (path x.name)) := e1 u
    simp only [e1] at this
    rw [e2]
    have e3 : bodyTwist q qd (path x.name) = (fkP q (path x.name)).M.invTwist (twP q qd (path x.name)) := rfl
    rw [← hq, ← hqd, e3] at this
    exact this
  · intro e he hm
    rw [k3 e he hm]
    congr 1
    unfold tauE
    rw [show rd qdd e.q_nr = qdd.getD e.q_nr 0 from rfl]
    congr 1
    -- virtual work with the unit rate of this joint
    have hvw := tree_virtual ht hv q (unitRate e.q_nr) (fun n => uT q (unitRate e.q_nr) (path n)) (flE t V A fext) F
      (by intro n x p hx hn hp; simp only [hstep n x p hx hn hp, uT_append]) hF
      (fun n => match t.find n with | some x => qv x.segment (unitRate e.q_nr) x.q_nr | none => 0)
      (by intro n x hx; simp [hx]) t.segments.length 0 t.root_name r r.children hr (fun _ h => h)
      ((above_children ht g1).mono (by omega)) (by omega)
    have hU0 : uT q (unitRate e.q_nr) (path t.root_name) = 0 := by simp [hroot, uT]
    rw [hU0, Twist.zero_dot, zero_add] at hvw
    have hperm := h.dfs_perm
    rw [childrenOf_eq hr] at hperm
    -- both sums over all names
    have hsum : ∀ f : String → ℝ, f t.root_name = 0 → ((dfs t t.segments.length r.children).map f).sum =
        (t.segments.map fun x => f x.name).sum := by
      intro f h0
      have := (hperm.map f).sum_eq
      rw [List.map_cons, List.sum_cons, h0, zero_add] at this
      rw [this, names, List.map_map]; rfl
    rw [hsum _ (by simp [hr, qv, hrm]), hsum _ (by simp [hU0, Twist.zero_dot])] at hvw
    have hl : (t.segments.map fun x => (match t.find x.name with
        | some x => qv x.segment (unitRate e.q_nr) x.q_nr | none => 0) * (sE t q x.name).dot (F x.name)).sum =
        (Ss q e.segment e.q_nr).dot (F e.name) := by
      have hnd : t.segments.Nodup := ht.nodup.of_map _
      classical
      rw [← List.sum_toFinset _ hnd, Finset.sum_eq_single e]
      · have : t.find e.name = some e := find_of_mem ht.nodup he
        have hm' : e.segment.moving = true := hm
        simp [this, sE, qv, hm', unitRate]
      · intro x hx hxe
        have hx' : x ∈ t.segments := by simpa using hx
        have : t.find x.name = some x := find_of_mem ht.nodup hx'
        simp only [this, qv]
        by_cases hxm : x.segment.moving = true
        · rw [if_pos hxm]
          have : x.q_nr ≠ e.q_nr := fun hh => hxe (q_nr_inj ht hx' he hxm hm hh)
          simp [unitRate, this]
        · simp [hxm]
      · intro hne; exact absurd (by simpa using he) hne
    rw [hl] at hvw
    rw [hvw]
    congr 1
    refine List.map_congr_left fun x hx => ?_
    have hxv := hpv x.name (List.mem_map_of_mem hx)
    have hfx : t.find x.name = some x := find_of_mem ht.nodup hx
    have hFp := isProper_fkP q (path x.name) hxv
    have hg := congrArg Neg.neg (grav_wrench _ hFp x.segment.I grav)
    rw [neg_neg] at hg
    rw [uT_eq _ _ _ hxv, bodyWeight, ← hg, sub_neg_eq_add, ← Frame.app_add_wrench, ← Frame.app_sub_wrench,
      C04_power_frame _ hFp]
    congr 1
    simp only [flE, hfx, fl, hVd, hAd]
    rw [vaT_add _ _ _ _ _ hxv, RBI.mul_add, hag]
    abel

/-- Argument checks: a tree of other size, then arrays of wrong length; `torques` keeps its value. -/
theorem C36_errors (s : TreeRne) (t : Tree) (strict : Bool) (q qd qdd : List ℝ) (fext : String → Option Wrench) (τ : List ℝ) :
    (s.nj ≠ t.nrOfJoints ∨ s.ns ≠ t.nrOfSegments →
      s.cartToJnt t strict q qd qdd fext τ = some (E_NOT_UP_TO_DATE, τ)) ∧
    (s.nj = t.nrOfJoints → s.ns = t.nrOfSegments →
      q.length ≠ s.nj ∨ qd.length ≠ s.nj ∨ qdd.length ≠ s.nj ∨ τ.length ≠ s.nj →
      s.cartToJnt t strict q qd qdd fext τ = some (E_SIZE_MISMATCH, τ)) := by
  refine ⟨fun h => by rw [TreeRne.cartToJnt, if_pos h], fun h1 h2 h => ?_⟩
  rw [TreeRne.cartToJnt, if_neg (by simp [h1, h2]), if_pos h]

/-- With matching sizes the call succeeds exactly when the solver has an entry for every segment of the tree; otherwise
(the tree was replaced by one with other names) it reports `E_NOT_UP_TO_DATE`.  It never has undefined behaviour other
than the reference formed from the root's parent iterator, which is missing from this statement (`C36_root_parent_violated`). -/
theorem C36_outcome_partial (t : Tree) (h : t.Reach) (s : TreeRne) (q qd qdd : List ℝ) (fext : String → Option Wrench)
    (τ : List ℝ) (hnj : s.nj = t.nrOfJoints) (hns : s.ns = t.nrOfSegments)
    (hq : q.length = t.nrOfJoints) (hqd : qd.length = t.nrOfJoints) (hqdd : qdd.length = t.nrOfJoints)
    (hτ : τ.length = t.nrOfJoints) :
    ∃ code τ', s.cartToJnt t false q qd qdd fext τ = some (code, τ') ∧ τ'.length = t.nrOfJoints ∧
      code = if ∀ n ∈ t.names, (s.aux n).isSome then E_NOERROR else E_NOT_UP_TO_DATE := by
  have ht := h.wf
  have h0 : ∀ e ∈ t.segments, e.moving = true → e.q_nr < t.nrOfJoints := by
    intro e he hm
    have : e.q_nr ∈ List.range t.nrOfJoints := by
      rw [← ht.numbering]; exact List.mem_map_of_mem (List.mem_filter.mpr ⟨he, hm⟩)
    simpa using this
  obtain ⟨r, g1, g2, g3, g4⟩ := ht.root
  have hrn : r.name = t.root_name := by show r.segment.name = _; rw [g2]; rfl
  have hr : t.find t.root_name = some r := by rw [← hrn]; exact find_of_get ht.nodup g1
  have hk := rneStep_keys ht false s.ag q qd qdd fext hq hqd hqdd h0 (t.segments.length + 1) 0 t.root_name "" r ⟨s.aux, τ⟩ g1
    hrn (by simp [parentName, g3]) (.inl rfl) (by omega) hτ
  have hmem : ∀ m, m ∈ dfs t (t.segments.length + 1) [t.root_name] ↔ m ∈ t.names := by
    intro m
    rw [← h.dfs_perm.mem_iff]
    simp [dfs]
  have hc : s.cartToJnt t false q qd qdd fext τ =
      match rneStep t false s.ag q qd qdd fext (t.segments.length + 1) t.root_name ⟨s.aux, τ⟩ with
      | .ub => none
      | .thrown τ' => some (E_NOT_UP_TO_DATE, τ')
      | .ok st => some (E_NOERROR, st.torques) := by
    rw [TreeRne.cartToJnt, if_neg (by simp [hnj, hns]), if_neg (by simp [hnj, hq, hqd, hqdd, hτ])]
    rfl
  rcases hk with ⟨k1, st', e1, k2, k3⟩ | ⟨⟨m, hm, k1⟩, τ', e1, k2⟩
  · refine ⟨_, st'.torques, by rw [hc, e1], k3, ?_⟩
    rw [if_pos fun n hn => k1 n ((hmem n).mpr hn)]
  · refine ⟨_, τ', by rw [hc, e1], k2, ?_⟩
    rw [if_neg]
    intro hall
    have := hall m ((hmem m).mp hm)
    have k1' : s.aux m = none := k1
    rw [k1'] at this; cases this

/-- Read strictly, every accepted call dereferences the root's singular parent iterator (undefined behaviour). -/
theorem C36_root_parent_violated (t : Tree) (h : t.Reach) (s : TreeRne) (q qd qdd : List ℝ) (fext : String → Option Wrench)
    (τ : List ℝ) (hnj : s.nj = t.nrOfJoints) (hns : s.ns = t.nrOfSegments)
    (hq : q.length = t.nrOfJoints) (hqd : qd.length = t.nrOfJoints) (hqdd : qdd.length = t.nrOfJoints)
    (hτ : τ.length = t.nrOfJoints) : s.cartToJnt t true q qd qdd fext τ = none := by
  have ht := h.wf
  obtain ⟨r, g1, g2, g3, g4⟩ := ht.root
  have hrn : r.name = t.root_name := by show r.segment.name = _; rw [g2]; rfl
  have hr : t.find t.root_name = some r := by rw [← hrn]; exact find_of_get ht.nodup g1
  rw [TreeRne.cartToJnt, if_neg (by simp [hnj, hns]), if_neg (by simp [hnj, hq, hqd, hqdd, hτ]), rneStep]
  have : parentName true r = none := by simp [parentName, g3]
  simp only [hr, this]

/-! ### Trees that are chains -/

theorem _root_.KDL.Tree.Path.end_eq {t : Tree} {n : String} {l : List TreeElem} (hl : Path t n l) :
    n = (l.getLast?.map TreeElem.name).getD t.root_name := by
  cases hl with
  | root => rfl
  | step h1 _ _ _ => simp [(find_some h1).2]

/-- Wrench passed up by the first of a list of segments. -/
def headF (t : Tree) (q : ℕ → ℝ) (F : String → Wrench) : List TreeElem → Wrench
  | [] => 0
  | e :: _ => xE t q e.name * F e.name

theorem path_prefix {t : Tree} {n : String} {l : List TreeElem} (hl : Path t n l) : ∀ (pre : List TreeElem) (e : TreeElem)
    (rest : List TreeElem), l = pre ++ e :: rest → ∃ p, Path t p pre ∧ e.parent = some p ∧ t.find e.name = some e ∧
      e.name ≠ t.root_name ∧ Path t e.name (pre ++ [e]) := by
  induction hl with
  | root => intro pre e rest h; simp at h
  | @step n p y l h1 h2 h3 h4 ih =>
    intro pre e rest h
    rcases List.eq_nil_or_concat rest with hr | ⟨rest', z, hr⟩
    · subst hr
      obtain ⟨h5, h6⟩ := List.append_inj' h rfl
      simp only [List.cons.injEq, and_true] at h6
      subst h5 h6
      have hn := (find_some h1).2
      subst hn
      exact ⟨p, h4, h3, h1, h2, .step h1 h2 h3 h4⟩
    · rw [List.concat_eq_append] at hr
      subst hr
      have : l ++ [y] = (pre ++ e :: rest') ++ [z] := by simpa using h
      exact ih pre e rest' (List.append_inj' this rfl).1

/-- A path as long as the tree is the whole tree, in the order of insertion. -/
theorem segments_of_path {t : Tree} (ht : t.WF) {r : TreeElem} (hr : t.segments[0]? = some r) {n : String}
    {l : List TreeElem} (hl : Path t n l) : ∀ (i : ℕ) (e : TreeElem), t.segments[i]? = some e → e.name = n → l.length = i →
      t.segments.take (i + 1) = r :: l := by
  induction hl with
  | @root r' h =>
    intro i e hi hn hlen
    simp only [List.length_nil] at hlen
    subst hlen
    rw [List.take_add_one]; simp [hr]
  | @step n p y l h1 h2 h3 h4 ih =>
    intro i e hi hn hlen
    have hye : y = e := by
      have := find_of_get ht.nodup hi
      rw [hn, h1] at this; cases this; rfl
    subst hye
    simp only [List.length_append, List.length_singleton] at hlen
    obtain ⟨j, x, hj, hx, hxp⟩ := ht.parents i y hi (by omega)
    rw [h3] at hxp
    simp only [Option.some.injEq] at hxp
    obtain ⟨l', hl', hlen'⟩ := exists_path ht j x hx
    rw [← hxp] at hl'
    rw [h4.unique hl'] at hlen ⊢
    have hji : l'.length = j := by omega
    have := ih j x hx hxp.symm (by rw [h4.unique hl']; exact hji)
    have hij : i = j + 1 := by omega
    subst hij
    rw [List.take_add_one, this, hi, h4.unique hl']
    simp

theorem rneF_path {t : Tree} (ht : t.WF) {n : String} {l : List TreeElem} (hl : Path t n l) {r : TreeElem}
    (hseg : t.segments = r :: l) (hrm : r.moving = false) (hrp : r.parent = none)
    (q qd qdd : ℕ → ℝ) (fext : String → Option Wrench) (V A : String → Twist) (F : String → Wrench)
    (hV : ∀ n e p, t.find n = some e → n ≠ t.root_name → e.parent = some p →
      V n = up q qd e.segment e.q_nr (V p) ∧ A n = ap q qd qdd e.segment e.q_nr (V p) (A p))
    (hF : ∀ n e, t.find n = some e → F n = flE t V A fext n + (e.children.map fun c => xE t q c * F c).sum) :
    ∀ (suf pre : List TreeElem) (p : String), l = pre ++ suf → Path t p pre →
      rneF q qd qdd (suf.map TreeElem.segment) (suf.map fun e => (fext e.name).getD 0) (nMoving (pre.map TreeElem.segment))
        (V p) (A p) =
      ((suf.filter TreeElem.moving).map (tauE q qdd F), headF t q F suf) := by
  intro suf
  induction suf with
  | nil => intro pre p _ _; simp [rneF, headF]
  | cons e suf ih =>
    intro pre p hpre hp
    obtain ⟨p', h1, h2, h3, h4, h5⟩ := path_prefix hl pre e suf hpre
    have hpp : p' = p := h1.end_eq.trans hp.end_eq.symm
    subst hpp
    obtain ⟨hVe, hAe⟩ := hV e.name e p' h3 h4 h2
    -- joint number
    have hnr : e.moving = true → e.q_nr = nMoving (pre.map TreeElem.segment) := by
      intro hm
      have hnum := ht.numbering
      rw [hseg, hpre] at hnum
      have hget := congrArg (fun z => z[nMoving (pre.map TreeElem.segment)]?) hnum
      have hcount : nMoving (pre.map TreeElem.segment) = ((pre.filter TreeElem.moving).map TreeElem.q_nr).length := by
        rw [List.length_map, ← List.countP_eq_length_filter, nMoving, List.countP_map]; rfl
      simp only [List.filter_cons, hrm, List.filter_append, hm, if_true, List.map_append, List.map_cons,
        Bool.false_eq_true, if_false] at hget
      rw [List.getElem?_append_right (by rw [hcount]), hcount, Nat.sub_self] at hget
      simp only [List.getElem?_cons_zero] at hget
      have := List.getElem?_eq_some_iff.mp hget.symm
      obtain ⟨hlt, hv⟩ := this
      rw [List.getElem_range] at hv
      rw [hcount, ← hv]
    have hXs : ∀ δ : ℕ → ℝ, qv e.segment δ (nMoving (pre.map TreeElem.segment)) = qv e.segment δ e.q_nr := by
      intro δ
      unfold qv
      by_cases hm : e.segment.moving = true
      · rw [if_pos hm, if_pos hm, hnr hm]
      · rw [if_neg hm, if_neg hm]
    have hX : Xs q e.segment (nMoving (pre.map TreeElem.segment)) = Xs q e.segment e.q_nr := by unfold Xs; rw [hXs]
    have hS : Ss q e.segment (nMoving (pre.map TreeElem.segment)) = Ss q e.segment e.q_nr := by unfold Ss; rw [hXs, hX]
    have hup : up q qd e.segment (nMoving (pre.map TreeElem.segment)) (V p') = V e.name := by
      rw [hVe, up, up, hX, hXs, hS]
    have hap : ap q qd qdd e.segment (nMoving (pre.map TreeElem.segment)) (V p') (A p') = A e.name := by
      rw [hAe, ap, ap, hup, hX, hXs, hXs, hS, ← hVe]
    have hnx : nx e.segment (nMoving (pre.map TreeElem.segment)) = nMoving ((pre ++ [e]).map TreeElem.segment) := by
      rw [List.map_append, nMoving_append, nx]
      by_cases hm : e.segment.moving = true <;> simp [nMoving, hm]
    -- children
    have hch : (e.children.map fun c => xE t q c * F c).sum =
        headF t q F suf := by
      have hmem := (find_some h3).1
      have hkid : ∀ c ∈ e.children, ∃ x rest, suf = x :: rest ∧ c = x.name := by
        intro c hc
        obtain ⟨x, hx, hxp, hxr⟩ := child_find ht hmem hc
        obtain ⟨hx1, hx2⟩ := find_some hx
        rw [hseg] at hx1
        rcases List.mem_cons.mp hx1 with rfl | hx1
        · rw [hrp] at hxp; cases hxp
        · obtain ⟨a, b, hab⟩ := List.append_of_mem hx1
          obtain ⟨pp, k1, k2, k3, k4, k5⟩ := path_prefix hl a x b hab
          rw [hxp] at k2
          simp only [Option.some.injEq] at k2
          rw [← k2] at k1
          have := k1.unique h5
          rw [hpre, this] at hab
          have hab' : suf = x :: b := by simpa using hab
          exact ⟨x, b, hab', hx2.symm⟩
      cases suf with
      | nil =>
        have : e.children = [] := by
          by_contra hne
          obtain ⟨c, hc⟩ := List.exists_mem_of_ne_nil _ hne
          obtain ⟨x, b, h, _⟩ := hkid c hc
          cases h
        simp [this, headF]
      | cons x rest =>
        obtain ⟨px, k1, k2, k3, k4, _⟩ := path_prefix hl (pre ++ [e]) x rest (by rw [hpre]; simp)
        have hpe : px = e.name := k1.end_eq.trans h5.end_eq.symm
        have hxc : x.name ∈ e.children :=
          (parent_of_child ht hmem (find_some k3).1).mpr (by rw [k2, hpe])
        have hnd : e.children.Nodup := by
          rw [ht.children e hmem]
          exact (ht.nodup.sublist (List.Sublist.map _ List.filter_sublist))
        have hall : ∀ c ∈ e.children, c = x.name := by
          intro c hc
          obtain ⟨x', b, h, h'⟩ := hkid c hc
          simp only [List.cons.injEq] at h
          rw [h', ← h.1]
        have : e.children = [x.name] := by
          rcases hl' : e.children with _ | ⟨a, _ | ⟨b, k⟩⟩
          · rw [hl'] at hxc; simp at hxc
          · rw [hl'] at hall; simp [hall a (by simp)]
          · rw [hl'] at hall hnd
            rw [hall a (by simp), hall b (by simp)] at hnd
            simp at hnd
        simp [this, headF]
    have hIH := ih (pre ++ [e]) e.name (by rw [hpre]; simp) h5
    simp only [List.map_cons, rneF]
    rw [hup, hap, hnx, hIH, hX, hS]
    have hFe : fl e.segment (V e.name) (A e.name) ((fext e.name).getD 0) +
        headF t q F suf = F e.name := by
      rw [hF e.name e h3, hch]; simp [flE, h3]
    simp only [hFe]
    have hxe : xE t q e.name = Xs q e.segment e.q_nr := by simp [xE, h3]
    rw [headF, hxe]
    refine Prod.ext ?_ rfl
    by_cases hm : e.segment.moving = true
    · have hm' : e.moving = true := hm
      simp only [if_pos hm, List.filter_cons, if_pos hm', List.map_cons, tauE]
      rw [hnr hm']
    · have hm' : ¬ e.moving = true := hm
      simp only [if_neg hm, List.filter_cons, if_neg hm']

/-- For a tree that is a single chain the tree solver and the chain solver compute the same torques. -/
theorem C36_chain (t : Tree) (h : t.Reach) (s : TreeRne) (grav : Vec) (hag : s.ag = -⟨grav, 0⟩)
    (hnj : s.nj = t.nrOfJoints) (hns : s.ns = t.nrOfSegments) (hkeys : ∀ n ∈ t.names, (s.aux n).isSome)
    (n : String) (c : Chain) (hn : n ∈ t.names) (hc : t.getChain t.root_name n = some (true, c))
    (hall : c.nrOfSegments = t.nrOfSegments)
    (q qd qdd : List ℝ) (fext : String → Option Wrench) (τ : List ℝ)
    (hq : q.length = t.nrOfJoints) (hqd : qd.length = t.nrOfJoints) (hqdd : qdd.length = t.nrOfJoints)
    (hτ : τ.length = t.nrOfJoints) :
    c.nrOfJoints = t.nrOfJoints ∧
    s.cartToJnt t false q qd qdd fext τ =
      idRne c c.nrOfJoints c.nrOfSegments grav q qd qdd (c.segments.map fun g => (fext g.name).getD 0) τ := by
  have ht := h.wf
  obtain ⟨l, hl, hlen⟩ := path_of_mem ht hn
  obtain ⟨c', k1, k2, k3⟩ := C33_from_root t h n l hl
  rw [hc] at k1
  simp only [Option.some.injEq, Prod.mk.injEq, true_and] at k1
  subst k1
  obtain ⟨r, g1, g2, g3, g4⟩ := ht.root
  have hrn : r.name = t.root_name := by show r.segment.name = _; rw [g2]; rfl
  have hr : t.find t.root_name = some r := by rw [← hrn]; exact find_of_get ht.nodup g1
  have hrm : r.moving = false := by show r.segment.moving = _; rw [g2]; rfl
  have hll : l.length + 1 = t.segments.length := by
    have := k2.1
    rw [k3, List.length_map, hall] at this
    rw [ht.nseg]; omega
  have hseg : t.segments = r :: l := by
    obtain ⟨e, he⟩ := mem_names.mp hn
    obtain ⟨i, hi, hie⟩ := List.getElem_of_mem (find_some he).1
    have hget : t.segments[i]? = some e := by rw [List.getElem?_eq_getElem hi, hie]
    obtain ⟨l', hl', hlen'⟩ := exists_path ht i e hget
    rw [(find_some he).2] at hl'
    rw [hl'.unique hl] at hlen'
    have := segments_of_path ht g1 hl i e hget (find_some he).2 (by omega)
    rw [← this, List.take_of_length_le (by omega)]
  have hcj : c.nrOfJoints = t.nrOfJoints := by
    have hnum := congrArg List.length ht.numbering
    rw [List.length_map, List.length_range, hseg] at hnum
    rw [k2.2, k3, ← hnum, nMoving, List.countP_map, List.filter_cons, if_neg (by simp [hrm]), List.countP_eq_length_filter]
    rfl
  refine ⟨hcj, ?_⟩
  -- path of every name
  have hex : ∀ m, ∃ l, m ∈ t.names → Path t m l := by
    intro m
    by_cases hm : m ∈ t.names
    · obtain ⟨l, hl, _⟩ := path_of_mem ht hm; exact ⟨l, fun _ => hl⟩
    · exact ⟨[], fun h => absurd h hm⟩
  choose path hpath using hex
  have hroot : path t.root_name = [] := (hpath _ (mem_names.mpr ⟨r, hr⟩)).unique (.root hr)
  have hstep : ∀ n e p, t.find n = some e → n ≠ t.root_name → e.parent = some p → path n = path p ++ [e] := by
    intro m e p he hm hp
    have hnn := hpath m (mem_names.mpr ⟨e, he⟩)
    have hpm : p ∈ t.names := by
      obtain ⟨i, hi, hie⟩ := List.getElem_of_mem (find_some he).1
      have hget : t.segments[i]? = some e := by rw [List.getElem?_eq_getElem hi, hie]
      have hi0 : i ≠ 0 := by
        rintro rfl
        rw [hget] at g1; cases g1
        rw [g3] at hp; cases hp
      obtain ⟨j, x, _, j2, j3⟩ := ht.parents i e hget hi0
      rw [hp] at j3
      simp only [Option.some.injEq] at j3
      rw [j3]; exact List.mem_map_of_mem (List.mem_of_getElem? j2)
    exact hnn.unique (.step he hm hp (hpath p hpm))
  have hV : ∀ n e p, t.find n = some e → n ≠ t.root_name → e.parent = some p →
      uT (rd q) (rd qd) (path n) = up (rd q) (rd qd) e.segment e.q_nr (uT (rd q) (rd qd) (path p)) ∧
      (vaT (rd q) (rd qd) (rd qdd) s.ag (path n)).2 = ap (rd q) (rd qd) (rd qdd) e.segment e.q_nr
        (uT (rd q) (rd qd) (path p)) (vaT (rd q) (rd qd) (rd qdd) s.ag (path p)).2 := by
    intro m e p he hm hp
    rw [hstep m e p he hm hp, uT_append, vaT_append, vaT_fst]
    exact ⟨rfl, rfl⟩
  obtain ⟨F, hF⟩ := exists_subF ht (rd q) (flE t (fun n => uT (rd q) (rd qd) (path n))
    (fun n => (vaT (rd q) (rd qd) (rd qdd) s.ag (path n)).2) fext)
  obtain ⟨τ', j1, j2, j3⟩ := rne_root h s q qd qdd τ fext (fun n => uT (rd q) (rd qd) (path n))
    (fun n => (vaT (rd q) (rd qd) (rd qdd) s.ag (path n)).2) F hnj hns hkeys hq hqd hqdd hτ
    (by simp [hroot, uT]) (by simp [hroot, vaT]) hV hF
  have hrne := rneF_path ht hl hseg hrm g3 (rd q) (rd qd) (rd qdd) fext (fun n => uT (rd q) (rd qd) (path n))
    (fun n => (vaT (rd q) (rd qd) (rd qdd) s.ag (path n)).2) F hV hF l [] t.root_name rfl (.root hr)
  simp only [hroot, uT, vaT, List.foldl_nil, hag] at hrne
  rw [j1, idRne_eq c k2 grav q qd qdd _ τ (by rw [hcj, hq]) (by rw [hcj, hqd]) (by rw [hcj, hqdd]) (by rw [hcj, hτ])
    (by rw [List.length_map, k2.1])]
  have e1 : c.segments.map (fun g => (fext g.name).getD 0) = l.map fun e => (fext e.name).getD 0 := by
    rw [k3, List.map_map]; rfl
  rw [e1, k3]
  have e2 : nMoving (([] : List TreeElem).map TreeElem.segment) = 0 := rfl
  rw [e2] at hrne
  rw [hrne]
  congr 2
  -- same entries
  have hlen' : ((l.filter TreeElem.moving).map (tauE (rd q) (rd qdd) F)).length = t.nrOfJoints := by
    have hnum := congrArg List.length ht.numbering
    rw [List.length_map, List.length_range, hseg, List.filter_cons, if_neg (by simp [hrm])] at hnum
    rw [List.length_map, hnum]
  refine List.ext_getElem? fun k => ?_
  by_cases hk : k < t.nrOfJoints
  · have hnum := ht.numbering
    rw [hseg, List.filter_cons, if_neg (by simp [hrm])] at hnum
    have hkl : k < (l.filter TreeElem.moving).length := by rw [List.length_map] at hlen'; omega
    have hget := congrArg (fun z => z[k]?) hnum
    simp only [List.getElem?_map, List.getElem?_eq_getElem hkl, Option.map_some, List.getElem?_range hk,
      Option.some.injEq] at hget
    have hmem := List.getElem_mem hkl
    obtain ⟨m1, m2⟩ := List.mem_filter.mp hmem
    have := j3 _ (by rw [hseg]; exact List.mem_cons_of_mem _ m1) m2
    rw [hget] at this
    rw [this, List.getElem?_map, List.getElem?_eq_getElem hkl]
    rfl
  · rw [List.getElem?_eq_none (by omega), List.getElem?_eq_none (by dsimp only; omega)]

/-! ### Example: a tree with two branches -/

/-- Links `A` and `B` on the root, a slider `C` on `A`. -/
def exTree : Tree :=
  ((((Tree.new "r").addSegment (exLink "A" .RotZ) "r").2.addSegment (exLink "B" .RotX) "r").2.addSegment
    (exLink "C" .TransX) "A").2

theorem exTree_reach : exTree.Reach := .add _ _ (.add _ _ (.add _ _ (.new _)))

theorem exTree_eq : exTree = ⟨[⟨Segment.ofName "r", 0, none, ["A", "B"]⟩, ⟨exLink "A" .RotZ, 0, some "r", ["C"]⟩,
    ⟨exLink "B" .RotX, 1, some "r", []⟩, ⟨exLink "C" .TransX, 2, some "A", []⟩], 3, 3, "r"⟩ := by
  simp [exTree, addSegment, find, Tree.new, TreeElem.name, Segment.ofName, attach, exLink, Segment.moving, Joint.moving]

theorem exTree_valid : ∀ x ∈ exTree.segments, x.segment.Valid := by
  rw [exTree_eq]
  intro x hx
  simp only [List.mem_cons, List.not_mem_nil, or_false] at hx
  rcases hx with rfl | rfl | rfl | rfl <;>
    exact ⟨fun h => by simp [Segment.ofName, exLink] at h, Rot.IsProper.one⟩

/-- The hypotheses of `C36_newton` hold for the example tree, moving or not. -/
example (grav : Vec) (q qd qdd : List ℝ) (hq : q.length = 3) (hqd : qd.length = 3) (hqdd : qdd.length = 3)
    (fext : String → Option Wrench) : ∃ τ, (TreeRne.new exTree grav).cartToJnt exTree false q qd qdd fext [0, 0, 0] =
      some (E_NOERROR, τ) ∧ τ.length = 3 := by
  have hnj : exTree.nrOfJoints = 3 := by rw [exTree_eq]
  obtain ⟨code, τ, h1, h2, h3⟩ := C36_outcome_partial exTree exTree_reach (TreeRne.new exTree grav) q qd qdd fext [0, 0, 0] rfl rfl
    (by rw [hnj, hq]) (by rw [hnj, hqd]) (by rw [hnj, hqdd]) (by rw [hnj]; rfl)
  rw [if_pos (C36_keys exTree grav (TreeRne.new exTree grav)).1] at h3
  exact ⟨τ, by rw [h1, h3], by rw [h2, hnj]⟩

example (grav : Vec) (fext : String → Option Wrench) (path : String → List TreeElem)
    (hpath : ∀ n ∈ exTree.names, Path exTree n (path n)) :
    ∃ (τ : List ℝ) (Pd : TreeElem → Wrench),
      (TreeRne.new exTree grav).cartToJnt exTree false [0, 0, 0] [0, 0, 0] [0, 0, 0] fext [0, 0, 0] = some (E_NOERROR, τ) ∧
      ∀ e ∈ exTree.segments, e.moving = true → τ[e.q_nr]? = some ((exTree.segments.map fun x =>
        (fkP (rd [0, 0, 0]) (path x.name) * bodyTwist (rd [0, 0, 0]) (unitRate e.q_nr) (path x.name)).dot
          (Pd x - bodyWeight (rd [0, 0, 0]) x.segment.I grav (path x.name) -
            fkP (rd [0, 0, 0]) (path x.name) * (fext x.name).getD 0)).sum +
        e.segment.joint.inertia * [(0 : ℝ), 0, 0].getD e.q_nr 0) := by
  have hnj : exTree.nrOfJoints = 3 := by rw [exTree_eq]
  have hd : ∀ j, HasDerivAt (fun _ : ℝ => [(0 : ℝ), 0, 0].getD j 0) ([(0 : ℝ), 0, 0].getD j 0) 0 := by
    intro j
    have : [(0 : ℝ), 0, 0].getD j 0 = 0 := by
      rcases j with _ | _ | _ | j <;> simp
    rw [this]
    exact hasDerivAt_const _ _
  obtain ⟨τ, Pd, h1, _, _, h2⟩ := C36_newton exTree exTree_reach exTree_valid (TreeRne.new exTree grav) grav rfl rfl rfl
    (C36_keys exTree grav (TreeRne.new exTree grav)).1 path hpath (fun _ => [0, 0, 0]) (fun _ => [0, 0, 0]) [0, 0, 0] 0 fext
    [0, 0, 0] (by rw [hnj]; rfl) (by rw [hnj]; rfl) (by rw [hnj]; rfl) (by rw [hnj]; rfl) hd hd
  exact ⟨τ, Pd, h1, h2⟩

/-- Replacing the tree by one with the same sizes but another name is noticed. -/
example : let t1 := ((Tree.new "r").addSegment (exLink "A" .RotZ) "r").2
    let t2 := ((Tree.new "r").addSegment (exLink "B" .RotZ) "r").2
    ∃ τ, (TreeRne.new t1 0).cartToJnt t2 false [0] [0] [0] (fun _ => none) [0] = some (E_NOT_UP_TO_DATE, τ) := by
  intro t1 t2
  have e1 : t1 = ⟨[⟨Segment.ofName "r", 0, none, ["A"]⟩, ⟨exLink "A" .RotZ, 0, some "r", []⟩], 1, 1, "r"⟩ := by
    simp [t1, addSegment, find, Tree.new, TreeElem.name, Segment.ofName, attach, exLink, Segment.moving, Joint.moving]
  have e2 : t2 = ⟨[⟨Segment.ofName "r", 0, none, ["B"]⟩, ⟨exLink "B" .RotZ, 0, some "r", []⟩], 1, 1, "r"⟩ := by
    simp [t2, addSegment, find, Tree.new, TreeElem.name, Segment.ofName, attach, exLink, Segment.moving, Joint.moving]
  have hr : t2.Reach := .add _ _ (.new _)
  obtain ⟨code, τ, h1, _, h3⟩ := C36_outcome_partial t2 hr (TreeRne.new t1 0) [0] [0] [0] (fun _ => none) [0]
    (by rw [e1, e2]; rfl) (by rw [e1, e2]; rfl) (by rw [e2]; rfl) (by rw [e2]; rfl) (by rw [e2]; rfl) (by rw [e2]; rfl)
  rw [if_neg] at h3
  · exact ⟨τ, by rw [h1, h3]⟩
  · intro hall
    have := hall "B" (by rw [e2]; simp [names, TreeElem.name, exLink])
    rw [e1] at this
    simp [TreeRne.new, TreeRne.initAux, find, TreeElem.name, Segment.ofName, exLink] at this

/-- A tree with one segment is a chain. -/
example (grav : Vec) (x y z : ℝ) (fext : String → Option Wrench) :
    let t := ((Tree.new "r").addSegment (exLink "A" .RotZ) "r").2
    ∃ c, t.getChain "r" "A" = some (true, c) ∧ (TreeRne.new t grav).cartToJnt t false [x] [y] [z] fext [0] =
      idRne c 1 1 grav [x] [y] [z] (c.segments.map fun g => (fext g.name).getD 0) [0] := by
  intro t
  have e1 : t = ⟨[⟨Segment.ofName "r", 0, none, ["A"]⟩, ⟨exLink "A" .RotZ, 0, some "r", []⟩], 1, 1, "r"⟩ := by
    simp [t, addSegment, find, Tree.new, TreeElem.name, Segment.ofName, attach, exLink, Segment.moving, Joint.moving]
  have hr : t.Reach := .add _ _ (.new _)
  have hroot : t.root_name = "r" := by rw [e1]
  have hf : t.find "A" = some ⟨exLink "A" .RotZ, 0, some "r", []⟩ := by
    rw [e1]; simp [find, TreeElem.name, Segment.ofName, exLink]
  have hfr : t.find t.root_name = some ⟨Segment.ofName "r", 0, none, ["A"]⟩ := by
    rw [e1]; simp [find, TreeElem.name, Segment.ofName]
  have hp : Path t "A" ([] ++ [⟨exLink "A" .RotZ, 0, some "r", []⟩]) :=
    .step hf (by rw [hroot]; decide) rfl (hroot ▸ .root hfr)
  obtain ⟨c, h1, h2, h3⟩ := C33_from_root t hr "A" _ hp
  have hn : c.nrOfSegments = t.nrOfSegments := by rw [h2.1, h3, e1]; rfl
  obtain ⟨h4, h5⟩ := C36_chain t hr (TreeRne.new t grav) grav rfl rfl rfl (C36_keys t grav (TreeRne.new t grav)).1 "A" c
    (mem_names.mpr ⟨_, hf⟩) h1 hn [x] [y] [z] fext [0] (by rw [e1]; rfl) (by rw [e1]; rfl) (by rw [e1]; rfl) (by rw [e1]; rfl)
  have hj : c.nrOfJoints = 1 := by rw [h4, e1]
  have hs : c.nrOfSegments = 1 := by rw [hn, e1]
  rw [hj, hs] at h5
  exact ⟨c, by rw [← hroot]; exact h1, h5⟩

end KDL
