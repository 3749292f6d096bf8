import Verif.Props.TreeIkOnline
import Verif.Props.TreeIkVel

/-!
# C71: Newton-Raphson inverse position solver for trees with joint limits (`TreeIkSolverPos_NR_JL`)
-/

noncomputable section

namespace KDL
namespace TreeNrJl

open Matrix

/-- `q` is the value of `q_out` after `i` updates (with the members `frames`, `delta_twists`, `delta_q` at that time), none of
which was preceded by a velocity solver result below `eps`. -/
inductive Reaches (fk : TreePosFn) (ik : TreeVelFn) (p_in : SMap Frame) (s : TreeNrJl) (q0 : List ℝ) :
    ℕ → List ℝ → SMap Frame → SMap Twist → List ℝ → Prop
  | start : Reaches fk ik p_in s q0 0 q0 s.frames s.delta_twists s.delta_q
  | step {i : ℕ} {q : List ℝ} {fr : SMap Frame} {tw : SMap Twist} {dq : List ℝ} {fr' : SMap Frame} {tw' : SMap Twist}
      {res : ℝ} {dq' q' : List ℝ} : Reaches fk ik p_in s q0 i q fr tw dq →
      Aimed fk id i q p_in fr tw fr' tw' → ik i q tw' dq = some (res, dq') → s.eps ≤ res → q.length = dq'.length →
      q'.length = q.length →
      (∀ j, j < q.length → q'.getD j 0 = clamp1 (q.getD j 0 + dq'.getD j 0) (s.q_min.getD j 0) (s.q_max.getD j 0)) →
      Reaches fk ik p_in s q0 (i + 1) q' fr' tw' dq'

theorem loop_eq (fk : TreePosFn) (ik : TreeVelFn) (p_in : SMap Frame) (hp : (p_in.map Prod.fst).Nodup) (s0 : TreeNrJl)
    (q0 : List ℝ) (h1 : q0.length = s0.q_min.length) (h2 : q0.length = s0.q_max.length)
    (hk : ∀ n ∈ p_in.map Prod.fst, n ∈ s0.frames.map Prod.fst ∧ n ∈ s0.delta_twists.map Prod.fst) :
    ∀ (n i : ℕ) (s : TreeNrJl) (q : List ℝ) (o : TreeIkOut TreeNrJl),
    Reaches fk ik p_in s0 q0 i q s.frames s.delta_twists s.delta_q → q.length = q0.length →
    s.frames.map Prod.fst = s0.frames.map Prod.fst → s.delta_twists.map Prod.fst = s0.delta_twists.map Prod.fst →
    s = { s0 with frames := s.frames, delta_twists := s.delta_twists, delta_q := s.delta_q } →
    loop fk ik p_in n i s q = some o →
    o.st = { s0 with frames := o.st.frames, delta_twists := o.st.delta_twists, delta_q := o.st.delta_q } ∧
    o.q_out.length = q0.length ∧
    o.st.frames.map Prod.fst = s0.frames.map Prod.fst ∧ o.st.delta_twists.map Prod.fst = s0.delta_twists.map Prod.fst ∧
    ((∃ k fr tw dq, i ≤ k ∧ k < i + n ∧ Reaches fk ik p_in s0 q0 k o.q_out fr tw dq ∧
        fr.map Prod.fst = s0.frames.map Prod.fst ∧ tw.map Prod.fst = s0.delta_twists.map Prod.fst ∧
        Aimed fk id k o.q_out p_in fr tw o.st.frames o.st.delta_twists ∧
        ik k o.q_out o.st.delta_twists dq = some (o.ret, o.st.delta_q) ∧ o.ret < s0.eps) ∨
      (o.ret = -3 ∧ Reaches fk ik p_in s0 q0 (i + n) o.q_out o.st.frames o.st.delta_twists o.st.delta_q)) := by
  intro n
  induction n with
  | zero =>
    intro i s q o hR hq hF hT hs h
    rw [loop] at h
    obtain rfl := Option.some.inj h
    exact ⟨hs, hq, hF, hT, .inr ⟨rfl, hR⟩⟩
  | succ n ih =>
    intro i s q o hR hq hF hT hs h
    rw [loop] at h
    simp only [Option.bind_eq_bind] at h
    obtain ⟨⟨fr, tw⟩, ha, h⟩ := Option.bind_eq_some_iff.mp h
    obtain ⟨⟨res, dq⟩, hi, h⟩ := Option.bind_eq_some_iff.mp h
    obtain ⟨a1, a2, a3, a4⟩ := aim_eq fk id i q p_in s.frames s.delta_twists hp (by rw [hF, hT]; exact hk) fr tw ha
    have hA : Aimed fk id i q p_in s.frames s.delta_twists fr tw := ⟨a1, a2, a4, a3⟩
    dsimp only at hi h
    have he : s.eps = s0.eps := by rw [hs]
    have hlo : s.q_min = s0.q_min := by rw [hs]
    have hhi : s.q_max = s0.q_max := by rw [hs]
    have hs' : ({ s with frames := fr, delta_twists := tw, delta_q := dq } : TreeNrJl) =
        { s0 with frames := fr, delta_twists := tw, delta_q := dq } := by rw [hs]
    by_cases hlt : res < s.eps
    · rw [if_pos hlt] at h
      obtain rfl := Option.some.inj h
      exact ⟨hs', hq, a1.trans hF, a2.trans hT, .inl ⟨i, s.frames, s.delta_twists, s.delta_q, le_rfl, by omega, hR, hF, hT,
        hA, hi, he ▸ hlt⟩⟩
    · rw [if_neg hlt] at h
      obtain ⟨q', hadd, h⟩ := Option.bind_eq_some_iff.mp h
      obtain ⟨q'', hcl, h⟩ := Option.bind_eq_some_iff.mp h
      obtain ⟨hl, rfl⟩ := (jntAdd_eq _ _ _).mp hadd
      have hlen : (jsum q dq).length = q.length := by simp [jsum, hl]
      obtain ⟨r, e, hr1, hr2⟩ := clampAll_eq (jsum q dq) s.q_min s.q_max (by rw [hlo]; omega) (by rw [hhi]; omega)
      rw [e] at hcl
      obtain rfl := Option.some.inj hcl
      have hR' : Reaches fk ik p_in s0 q0 (i + 1) r fr tw dq := by
        refine .step hR hA hi (he ▸ not_lt.mp hlt) hl (by omega) fun j hj => ?_
        rw [hr2 j (by omega), ← hlo, ← hhi]
        congr 1
        rw [jsum, getD_lt _ _ (by simp; omega), List.getElem_zipWith, getD_lt _ _ hj, getD_lt _ _ (by omega)]
      obtain ⟨k1, k2, k3, k4, k5⟩ := ih (i + 1) { s with frames := fr, delta_twists := tw, delta_q := dq } r o hR' (by omega)
        (a1.trans hF) (a2.trans hT) hs' h
      refine ⟨k1, k2, k3, k4, ?_⟩
      rcases k5 with ⟨k, x1, x2, x3, b1, b2, b3⟩ | ⟨b1, b2⟩
      · exact .inl ⟨k, x1, x2, x3, by omega, by omega, b3⟩
      · exact .inr ⟨b1, by rw [show i + (n + 1) = i + 1 + n by omega]; exact b2⟩

/-- The constructor: both maps have the endpoints as keys, the twists are zero. -/
theorem C71_new (nj : ℕ) (endpoints : List String) (a b : List ℝ) (m : ℕ) (e : ℝ) (n : String) :
    (n ∈ (new nj endpoints a b m e).frames.map Prod.fst ↔ n ∈ endpoints) ∧
    (n ∈ (new nj endpoints a b m e).delta_twists.map Prod.fst ↔ n ∈ endpoints) ∧
    (∀ t, (new nj endpoints a b m e).delta_twists.find n = some t → t = 0) ∧
    (new nj endpoints a b m e).q_min = a ∧ (new nj endpoints a b m e).q_max = b ∧
    (new nj endpoints a b m e).maxiter = m ∧ (new nj endpoints a b m e).eps = e ∧
    (new nj endpoints a b m e).delta_q.length = nj := by
  refine ⟨(SMap.build_spec endpoints fun _ => (1 : Frame)).2.2 n, (SMap.build_spec endpoints fun _ => (0 : Twist)).2.2 n,
    fun t ht => ?_, rfl, rfl, rfl, rfl, by simp [new]⟩
  have h : (SMap.build endpoints fun _ => (0 : Twist)).find n = some t := ht
  rw [SMap.find_build] at h
  split_ifs at h
  exact (Option.some.inj h).symm

/-- A goal for a name that is not an endpoint: −2, `q_out = q_init`, the solver is not changed. -/
theorem C71_unknown (s : TreeNrJl) (fk : TreePosFn) (ik : TreeVelFn) (q_init : List ℝ) (p_in : SMap Frame)
    (h : ∃ n ∈ p_in.map Prod.fst, n ∉ s.frames.map Prod.fst) : s.cartToJnt fk ik q_init p_in = some ⟨-2, q_init, s⟩ := by
  unfold cartToJnt
  obtain ⟨n, hn, h⟩ := h
  obtain ⟨e, he, rfl⟩ := List.mem_map.mp hn
  exact if_pos ⟨e, he, SMap.find_eq_none.mpr h⟩

/-- A call ends in one of two ways: before some update, at a configuration reached by the iteration, the velocity solver
reports a value below `eps` (an error code or a distance), which is returned; or −3 after `maxiter` updates. -/
theorem C71_result (s : TreeNrJl) (fk : TreePosFn) (ik : TreeVelFn) (q_init : List ℝ) (p_in : SMap Frame)
    (hp : (p_in.map Prod.fst).Nodup) (h1 : q_init.length = s.q_min.length) (h2 : q_init.length = s.q_max.length)
    (hk : ∀ n ∈ p_in.map Prod.fst, n ∈ s.frames.map Prod.fst ∧ n ∈ s.delta_twists.map Prod.fst)
    (o : TreeIkOut TreeNrJl) (ho : s.cartToJnt fk ik q_init p_in = some o) :
    o.st = { s with frames := o.st.frames, delta_twists := o.st.delta_twists, delta_q := o.st.delta_q } ∧
    o.q_out.length = q_init.length ∧
    o.st.frames.map Prod.fst = s.frames.map Prod.fst ∧ o.st.delta_twists.map Prod.fst = s.delta_twists.map Prod.fst ∧
    ((∃ k fr tw dq, k < s.maxiter ∧ Reaches fk ik p_in s q_init k o.q_out fr tw dq ∧
        fr.map Prod.fst = s.frames.map Prod.fst ∧ tw.map Prod.fst = s.delta_twists.map Prod.fst ∧
        Aimed fk id k o.q_out p_in fr tw o.st.frames o.st.delta_twists ∧
        ik k o.q_out o.st.delta_twists dq = some (o.ret, o.st.delta_q) ∧ o.ret < s.eps) ∨
      (o.ret = -3 ∧ Reaches fk ik p_in s q_init s.maxiter o.q_out o.st.frames o.st.delta_twists o.st.delta_q)) := by
  unfold cartToJnt at ho
  rw [if_neg (by
    rintro ⟨e, he, h⟩
    exact SMap.find_eq_none.mp h (hk e.1 (List.mem_map_of_mem he)).1)] at ho
  obtain ⟨k1, k2, k3, k4, k5⟩ := loop_eq fk ik p_in hp s q_init h1 h2 hk s.maxiter 0 s q_init o .start rfl rfl rfl rfl ho
  refine ⟨k1, k2, k3, k4, ?_⟩
  rcases k5 with ⟨k, x1, x2, x3, -, b2, b3⟩ | ⟨b1, b2⟩
  · exact .inl ⟨k, x1, x2, x3, by omega, b3⟩
  · exact .inr ⟨b1, by rw [zero_add] at b2; exact b2⟩

/-- A call has a result (no undefined behaviour) if the inner solvers have one and the joint arrays have the right sizes. -/
theorem C71_total (s : TreeNrJl) (fk : TreePosFn) (ik : TreeVelFn) (q_init : List ℝ) (p_in : SMap Frame)
    (hp : (p_in.map Prod.fst).Nodup) (h1 : q_init.length = s.q_min.length) (h2 : q_init.length = s.q_max.length)
    (hk : ∀ n ∈ p_in.map Prod.fst, n ∈ s.frames.map Prod.fst ∧ n ∈ s.delta_twists.map Prod.fst)
    (hfk : ∀ i q n f, q.length = q_init.length → (fk i q n f).isSome)
    (hik : ∀ i q tw dq, q.length = q_init.length → ∃ res dq', ik i q tw dq = some (res, dq') ∧
      (s.eps ≤ res → dq'.length = q_init.length)) :
    (s.cartToJnt fk ik q_init p_in).isSome := by
  unfold cartToJnt
  rw [if_neg (by
    rintro ⟨e, he, h⟩
    exact SMap.find_eq_none.mp h (hk e.1 (List.mem_map_of_mem he)).1)]
  have gen : ∀ (n i : ℕ) (s' : TreeNrJl) (q : List ℝ), q.length = q_init.length → s'.eps = s.eps → s'.q_min = s.q_min →
      s'.q_max = s.q_max → (∀ n ∈ p_in.map Prod.fst, n ∈ s'.frames.map Prod.fst ∧ n ∈ s'.delta_twists.map Prod.fst) →
      (loop fk ik p_in n i s' q).isSome := by
    intro n
    induction n with
    | zero => intros; rfl
    | succ n ih =>
      intro i s' q hq he hlo hhi hk'
      obtain ⟨⟨fr, tw⟩, ha⟩ := Option.isSome_iff_exists.mp
        (aim_some fk id i q (fun n f => hfk i q n f hq) p_in s'.frames s'.delta_twists hk')
      obtain ⟨a1, a2, -, -⟩ := aim_eq fk id i q p_in s'.frames s'.delta_twists hp hk' fr tw ha
      obtain ⟨res, dq, hi, hl⟩ := hik i q tw s'.delta_q hq
      rw [loop, ha]
      simp only [Option.bind_eq_bind, Option.bind_some, hi]
      by_cases hlt : res < s'.eps
      · rw [if_pos hlt]; rfl
      · rw [if_neg hlt]
        have hl := hl (he ▸ not_lt.mp hlt)
        rw [(jntAdd_eq q dq (jsum q dq)).mpr ⟨by omega, rfl⟩, Option.bind_some]
        obtain ⟨r, e, hr1, -⟩ := clampAll_eq (jsum q dq) s'.q_min s'.q_max (by rw [hlo]; simp [jsum]; omega)
          (by rw [hhi]; simp [jsum]; omega)
        rw [e, Option.bind_some]
        refine ih (i + 1) _ r ?_ he hlo hhi (by dsimp only; rw [a1, a2]; exact hk')
        rw [hr1]; simp [jsum]; omega
  exact gen s.maxiter 0 s q_init rfl rfl rfl rfl hk

/-- Every update ends within the joint limits; so the result is within the limits if `q_init` was, or if there was an
update.  Missing: a start outside the limits that meets the goals, see `C71_init_violated`. -/
theorem C71_limits_partial {fk : TreePosFn} {ik : TreeVelFn} {p_in : SMap Frame} {s : TreeNrJl} {q0 : List ℝ} {i : ℕ} {q : List ℝ}
    {fr : SMap Frame} {tw : SMap Twist} {dq : List ℝ} (h : Reaches fk ik p_in s q0 i q fr tw dq)
    (hb : ∀ j, j < q0.length → s.q_min.getD j 0 ≤ s.q_max.getD j 0)
    (hi : 0 < i ∨ ∀ j, j < q0.length → s.q_min.getD j 0 ≤ q0.getD j 0 ∧ q0.getD j 0 ≤ s.q_max.getD j 0) :
    q.length = q0.length ∧ ∀ j, j < q0.length → s.q_min.getD j 0 ≤ q.getD j 0 ∧ q.getD j 0 ≤ s.q_max.getD j 0 := by
  have hlen : ∀ {i q fr tw dq}, Reaches fk ik p_in s q0 i q fr tw dq → q.length = q0.length := by
    intro i q fr tw dq h
    induction h with
    | start => rfl
    | step _ _ _ _ _ h _ ih => exact h.trans ih
  refine ⟨hlen h, fun j hj => ?_⟩
  cases h with
  | start =>
    rcases hi with hi | hi
    · exact absurd hi (lt_irrefl _)
    · exact hi j hj
  | step hR _ _ _ _ hl hc =>
    rw [hc j (by rw [hlen hR]; exact hj)]
    exact clamp1_mem (hb j hj)

/-- Endpoints without a goal keep the twist they had before the call, in every iteration. -/
theorem C71_stale {fk : TreePosFn} {ik : TreeVelFn} {p_in : SMap Frame} {s : TreeNrJl} {q0 : List ℝ} {i : ℕ} {q : List ℝ}
    {fr : SMap Frame} {tw : SMap Twist} {dq : List ℝ} (h : Reaches fk ik p_in s q0 i q fr tw dq) (n : String)
    (hn : n ∉ p_in.map Prod.fst) : tw.find n = s.delta_twists.find n := by
  induction h with
  | start => rfl
  | step _ ha _ _ _ _ _ ih => rw [(ha.other n hn).2, ih]

/-- Violated: that the result respects the joint limits.  A start outside the limits that already meets the goals is
returned as it is, with a value that is not negative. -/
theorem C71_init_violated : ∃ o, (new 1 ["e"] [0] [1] 5 1).cartToJnt (fun _ _ _ _ => some (0, 1))
    (fun _ _ _ _ => some (0, [0])) [7] [("e", 1)] = some o ∧ o.ret = 0 ∧ o.q_out = [7] := by
  have hn := C71_new 1 ["e"] [0] [1] 5 1
  have hk : ∀ n ∈ ([("e", 1)] : SMap Frame).map Prod.fst, n ∈ (new 1 ["e"] [0] [1] 5 1).frames.map Prod.fst ∧
      n ∈ (new 1 ["e"] [0] [1] 5 1).delta_twists.map Prod.fst := fun n hm =>
    ⟨(hn n).1.mpr (by simpa using hm), (hn n).2.1.mpr (by simpa using hm)⟩
  obtain ⟨o, ho⟩ := Option.isSome_iff_exists.mp (C71_total (new 1 ["e"] [0] [1] 5 1) (fun _ _ _ _ => some (0, 1))
    (fun _ _ _ _ => some (0, [0])) [7] [("e", 1)] (by simp) rfl rfl hk (fun _ _ _ _ _ => rfl)
    (fun _ _ _ _ _ => ⟨0, [0], rfl, fun _ => rfl⟩))
  obtain ⟨-, -, -, -, h⟩ := C71_result (new 1 ["e"] [0] [1] 5 1) _ _ [7] [("e", 1)] (by simp) rfl rfl hk o ho
  have hno : ∀ {i q fr tw dq}, Reaches (fun _ _ _ _ => some (0, 1)) (fun _ _ _ _ => some (0, [0])) [("e", 1)]
      (new 1 ["e"] [0] [1] 5 1) [7] i q fr tw dq → i = 0 ∧ q = [7] := by
    intro i q fr tw dq hR
    cases hR with
    | start => exact ⟨rfl, rfl⟩
    | step _ _ hi he _ _ _ =>
      obtain ⟨rfl, -⟩ := Prod.mk.inj (Option.some.inj hi)
      norm_num [new] at he
  refine ⟨o, ho, ?_⟩
  rcases h with ⟨k, fr, tw, dq, -, hR, -, -, -, hi, -⟩ | ⟨-, hR⟩
  · exact ⟨(congrArg Prod.fst (Option.some.inj hi)).symm, (hno hR).2⟩
  · exact absurd (hno hR).1 (by norm_num [new])

/-! ### With the library's own inner solvers -/

/-- `TreeFkSolverPos_recursive` on tree `T`: the frame is left alone in case of an error. -/
def libFk (T : Tree) : TreePosFn := fun _ q n f0 => (T.fkTree q n).map fun r => (r.1, r.2.getD f0)
/-- `TreeIkSolverVel_wdls`. -/
def libIk (w : TreeWdls) (svd : TreeWdls.SvdFn) : TreeVelFn := fun _ q tw dq =>
  match w.cartToJnt svd q tw dq with
  | some (.done r qd) => some (r, qd)
  | _ => none

/-- The value returned by the velocity solver for a full set of twists: the weighted norm of the stacked twists, or
`E_SVD_FAILED`. -/
theorem libIk_value (w : TreeWdls) (hw : w.Ready) (svd : TreeWdls.SvdFn) (q : List ℝ) (hq : q.length = w.tree.nrOfJoints)
    (tw : SMap Twist) (dq : List ℝ) (hv : ∀ n, n ∈ tw.map Prod.fst ↔ n ∈ w.jacobians.map Prod.fst) (i : ℕ) (ret : ℝ)
    (dq' : List ℝ) (h : libIk w svd i q tw dq = some (ret, dq')) :
    ret = TreeWdls.E_SVD_FAILED ∨ ∃ (J : Matrix (Fin w.rows) (Fin w.tree.nrOfJoints) ℝ) (d : Fin w.rows → ℝ),
      TreeWdls.IsStack w.jtree q tw (w.jacobians.map Prod.fst) J d ∧ ret = Real.sqrt (sqn (w.wy *ᵥ d)) := by
  obtain ⟨J, d, hst, e⟩ := TreeWdls.call_eq w hw svd q hq tw dq (fun e he => (hv e.1).mp (List.mem_map_of_mem he))
    (fun n hn => Option.isSome_iff_exists.mp (SMap.find_isSome.mpr ((hv n).mpr hn)))
  unfold libIk at h
  rw [e] at h
  split_ifs at h with h1 h2
  · left
    exact (congrArg Prod.fst (Option.some.inj h)).symm
  · right
    exact ⟨J, d, hst, (congrArg Prod.fst (Option.some.inj h)).symm⟩

/-- The documented meaning of the returned value, when every endpoint has a goal: a value that is not negative is the
weighted distance from the frames of the endpoints at `q_out` to their goals, and it is below `eps`. -/
theorem C71_distance (s : TreeNrJl) (w : TreeWdls) (hw : w.Ready) (svd : TreeWdls.SvdFn) (q_init : List ℝ)
    (hq : q_init.length = w.tree.nrOfJoints) (p_in : SMap Frame)
    (hp : (p_in.map Prod.fst).Nodup) (h1 : q_init.length = s.q_min.length) (h2 : q_init.length = s.q_max.length)
    (hk : ∀ n, n ∈ s.frames.map Prod.fst ↔ n ∈ w.jacobians.map Prod.fst)
    (hk' : ∀ n, n ∈ s.delta_twists.map Prod.fst ↔ n ∈ w.jacobians.map Prod.fst)
    (hall : ∀ n, n ∈ p_in.map Prod.fst ↔ n ∈ w.jacobians.map Prod.fst)
    (o : TreeIkOut TreeNrJl) (ho : s.cartToJnt (libFk w.jtree) (libIk w svd) q_init p_in = some o) (h0 : 0 ≤ o.ret) :
    o.ret < s.eps ∧ ∃ d : Fin w.rows → ℝ, o.ret = Real.sqrt (sqn (w.wy *ᵥ d)) ∧
      (∀ (k : ℕ) (c : Fin 6) (r : Fin w.rows) (nm : String), r.val = 6 * k + c.val →
        (w.jacobians.map Prod.fst)[k]? = some nm → ∃ goal l, (nm, goal) ∈ p_in ∧ Tree.Path w.jtree nm l ∧
          d r = (Frame.diff (Tree.fkP (rd o.q_out) l) goal 1).comp c) ∧
      ∀ r : Fin w.rows, 6 * w.jacobians.length ≤ r.val → d r = 0 := by
  have hkk : ∀ n ∈ p_in.map Prod.fst, n ∈ s.frames.map Prod.fst ∧ n ∈ s.delta_twists.map Prod.fst := fun n hn =>
    ⟨(hk n).mpr ((hall n).mp hn), (hk' n).mpr ((hall n).mp hn)⟩
  obtain ⟨-, e2, -, e4, h⟩ := C71_result s _ _ q_init p_in hp h1 h2 hkk o ho
  rcases h with ⟨k, fr, tw, dq, -, -, -, -, ha, hi, hlt⟩ | ⟨h, -⟩
  · refine ⟨hlt, ?_⟩
    rcases libIk_value w hw svd o.q_out (e2.trans hq) o.st.delta_twists dq (fun n => by rw [e4]; exact hk' n) k _ _ hi with h | h
    · rw [h] at h0
      exact absurd h0 (by norm_num [TreeWdls.E_SVD_FAILED])
    · obtain ⟨J, d, hst, hret⟩ := h
      refine ⟨d, hret, fun k' c r nm hr hnm => ?_, fun r hr => (hst.rest r (by rw [List.length_map]; exact hr)).1⟩
      obtain ⟨t, ht, hd⟩ := hst.goal k' c r nm hr hnm
      have hmem := List.mem_of_getElem? hnm
      obtain ⟨⟨nm', goal⟩, hg, rfl⟩ := List.mem_map.mp ((hall nm).mpr hmem)
      obtain ⟨e, he, hen⟩ := List.mem_map.mp hmem
      obtain ⟨l, hl⟩ := (Tree.C34_path w.jtree hw.reach nm').1.mp (by
        have := hw.inTree e he
        rwa [hen] at this)
      refine ⟨goal, l, hg, hl, ?_⟩
      obtain ⟨f0, c', f, -, hf, -, htw⟩ := ha.goal nm' goal hg
      have hfk := (Tree.C34_fk w.jtree hw.reach hw.joints o.q_out nm').2.2 (e2.trans (hq.trans hw.same.symm)) l hl
      simp only [libFk, hfk, Option.map_some, Option.getD_some, Option.some.injEq, Prod.mk.injEq] at hf
      rw [ht, ← hf.2] at htw
      rw [hd, Option.some.inj htw]
      rfl
  · rw [h] at h0
    exact absurd h0 (by norm_num)

/-- A call in which some endpoint has no goal.  With identity weights such a call fails whenever the twist left behind for that
endpoint by an earlier call is not shorter than `eps`, even if all goals it was given are
met. -/
theorem C71_stale_fails (s : TreeNrJl) (w : TreeWdls) (hw : w.Ready) (hwy : w.wy = 1) (svd : TreeWdls.SvdFn)
    (q_init : List ℝ) (hq : q_init.length = w.tree.nrOfJoints) (p_in : SMap Frame)
    (hp : (p_in.map Prod.fst).Nodup) (h1 : q_init.length = s.q_min.length) (h2 : q_init.length = s.q_max.length)
    (hk : ∀ n, n ∈ s.frames.map Prod.fst ↔ n ∈ w.jacobians.map Prod.fst)
    (hk' : ∀ n, n ∈ s.delta_twists.map Prod.fst ↔ n ∈ w.jacobians.map Prod.fst)
    (hsub : ∀ n ∈ p_in.map Prod.fst, n ∈ w.jacobians.map Prod.fst) (hrows : 6 * w.jacobians.length ≤ w.rows)
    (n : String) (hn : n ∉ p_in.map Prod.fst) (t : Twist) (ht : s.delta_twists.find n = some t)
    (c : Fin 6) (hbig : s.eps ≤ |t.comp c|) (o : TreeIkOut TreeNrJl)
    (ho : s.cartToJnt (libFk w.jtree) (libIk w svd) q_init p_in = some o) : o.ret < 0 := by
  by_contra h0
  have h0 := not_lt.mp h0
  have hkk : ∀ n ∈ p_in.map Prod.fst, n ∈ s.frames.map Prod.fst ∧ n ∈ s.delta_twists.map Prod.fst := fun n hn =>
    ⟨(hk n).mpr (hsub n hn), (hk' n).mpr (hsub n hn)⟩
  obtain ⟨-, e2, -, e4, h⟩ := C71_result s _ _ q_init p_in hp h1 h2 hkk o ho
  rcases h with ⟨k, fr, tw, dq, -, hR, -, -, ha, hi, hlt⟩ | ⟨h, -⟩
  · rcases libIk_value w hw svd o.q_out (e2.trans hq) o.st.delta_twists dq (fun n => by rw [e4]; exact hk' n) k _ _ hi with h | h
    · rw [h] at h0
      exact absurd h0 (by norm_num [TreeWdls.E_SVD_FAILED])
    · obtain ⟨J, d, hst, hret⟩ := h
      have hfind : o.st.delta_twists.find n = some t := by rw [(ha.other n hn).2, C71_stale hR n hn, ht]
      have hmem : n ∈ w.jacobians.map Prod.fst := (hk' n).mp (SMap.find_isSome.mp (by rw [ht]; rfl))
      obtain ⟨k', hk1, hk2⟩ := List.mem_iff_getElem.mp hmem
      have hlen : k' < w.jacobians.length := by simpa using hk1
      obtain ⟨t', ht', hd⟩ := hst.goal k' c ⟨6 * k' + c.val, by have := c.2; omega⟩ n rfl
        (by rw [List.getElem?_eq_getElem hk1, hk2])
      rw [hfind] at ht'
      obtain rfl := Option.some.inj ht'
      have hle : t.comp c ^ 2 ≤ sqn d := by
        rw [← hd, sq]
        exact Finset.single_le_sum (f := fun r => d r * d r) (fun r _ => mul_self_nonneg _) (Finset.mem_univ _)
      have : |t.comp c| ≤ o.ret := by
        rw [hret, hwy, Matrix.one_mulVec]
        exact Real.abs_le_sqrt hle
      linarith
  · rw [h] at h0
    exact absurd h0 (by norm_num)

/-- The library's velocity solver with damping always has a result for a full set of twists. -/
theorem libIk_total (w : TreeWdls) (hw : w.Ready) (hl : w.lambda ≠ 0) (svd : TreeWdls.SvdFn) (hsvd : TreeWdls.GoodSvdFn svd)
    (hok : ∀ m n A, 0 ≤ (svd m n A).code) (q : List ℝ) (hq : q.length = w.tree.nrOfJoints)
    (tw : SMap Twist) (dq : List ℝ) (hv : ∀ n, n ∈ tw.map Prod.fst ↔ n ∈ w.jacobians.map Prod.fst) (i : ℕ) :
    ∃ ret dq', libIk w svd i q tw dq = some (ret, dq') ∧ 0 ≤ ret ∧ dq'.length = w.tree.nrOfJoints := by
  obtain ⟨J, d, -, -, h⟩ := TreeWdls.C70_damped w hw svd hsvd hl q hq tw dq (fun e he => (hv e.1).mp (List.mem_map_of_mem he))
    (fun n hn => Option.isSome_iff_exists.mp (SMap.find_isSome.mpr ((hv n).mpr hn)))
  obtain ⟨x, -, e⟩ := h (hok _ _ _)
  refine ⟨_, _, ?_, Real.sqrt_nonneg (sqn (w.wy *ᵥ d)), List.length_ofFn (f := w.wq *ᵥ x)⟩
  unfold libIk
  rw [e]

/-- Without undefined behaviour: the solver with the library's own inner solvers, a damped velocity solver and as many goals
as endpoints or fewer, has a result, which is a distance below `eps` or −3. -/
theorem C71_library (s : TreeNrJl) (w : TreeWdls) (hw : w.Ready) (hl : w.lambda ≠ 0) (svd : TreeWdls.SvdFn)
    (hsvd : TreeWdls.GoodSvdFn svd) (hok : ∀ m n A, 0 ≤ (svd m n A).code) (q_init : List ℝ)
    (hq : q_init.length = w.tree.nrOfJoints) (p_in : SMap Frame) (hp : (p_in.map Prod.fst).Nodup)
    (h1 : q_init.length = s.q_min.length) (h2 : q_init.length = s.q_max.length)
    (hk : ∀ n, n ∈ s.frames.map Prod.fst ↔ n ∈ w.jacobians.map Prod.fst)
    (hk' : ∀ n, n ∈ s.delta_twists.map Prod.fst ↔ n ∈ w.jacobians.map Prod.fst)
    (hsub : ∀ n ∈ p_in.map Prod.fst, n ∈ w.jacobians.map Prod.fst) :
    ∃ o, s.cartToJnt (libFk w.jtree) (libIk w svd) q_init p_in = some o ∧ (o.ret = -3 ∨ (0 ≤ o.ret ∧ o.ret < s.eps)) := by
  have hkk : ∀ n ∈ p_in.map Prod.fst, n ∈ s.frames.map Prod.fst ∧ n ∈ s.delta_twists.map Prod.fst := fun n hn =>
    ⟨(hk n).mpr (hsub n hn), (hk' n).mpr (hsub n hn)⟩
  have gen : ∀ (n i : ℕ) (s' : TreeNrJl) (q : List ℝ), q.length = q_init.length → s'.q_min = s.q_min →
      s'.q_max = s.q_max → s'.frames.map Prod.fst = s.frames.map Prod.fst →
      s'.delta_twists.map Prod.fst = s.delta_twists.map Prod.fst →
      (loop (libFk w.jtree) (libIk w svd) p_in n i s' q).isSome := by
    intro n
    induction n with
    | zero => intros; rfl
    | succ n ih =>
      intro i s' q hq' hlo hhi hF hT
      have hsome : ∀ nm ∈ p_in.map Prod.fst, ∀ f0, (libFk w.jtree i q nm f0).isSome := by
        intro nm hnm f0
        obtain ⟨e, he, hen⟩ := List.mem_map.mp (hsub nm hnm)
        obtain ⟨l, hl⟩ := (Tree.C34_path w.jtree hw.reach nm).1.mp (by rw [← hen]; exact hw.inTree e he)
        have := (Tree.C34_fk w.jtree hw.reach hw.joints q nm).2.2 (hq'.trans (hq.trans hw.same.symm)) l hl
        simp [libFk, this]
      obtain ⟨⟨fr, tw⟩, ha⟩ := Option.isSome_iff_exists.mp
        (aim_some' (libFk w.jtree) id i q p_in hsome s'.frames s'.delta_twists (by rw [hF, hT]; exact hkk))
      obtain ⟨a1, a2, -, -⟩ := aim_eq (libFk w.jtree) id i q p_in s'.frames s'.delta_twists hp (by rw [hF, hT]; exact hkk) fr tw ha
      obtain ⟨res, dq, hi, -, hld⟩ := libIk_total w hw hl svd hsvd hok q (hq'.trans hq) tw s'.delta_q
        (fun n => by rw [a2, hT]; exact hk' n) i
      rw [loop, ha]
      simp only [Option.bind_eq_bind, Option.bind_some, hi]
      by_cases hlt : res < s'.eps
      · rw [if_pos hlt]; rfl
      · rw [if_neg hlt]
        rw [(jntAdd_eq q dq (jsum q dq)).mpr ⟨by omega, rfl⟩, Option.bind_some]
        obtain ⟨r, e, hr1, -⟩ := clampAll_eq (jsum q dq) s'.q_min s'.q_max (by rw [hlo]; simp [jsum]; omega)
          (by rw [hhi]; simp [jsum]; omega)
        rw [e, Option.bind_some]
        refine ih (i + 1) _ r ?_ hlo hhi (a1.trans hF) (a2.trans hT)
        rw [hr1]; simp [jsum]; omega
  have hno : ¬ ∃ e ∈ p_in, s.frames.find e.1 = none := by
    rintro ⟨e, he, h⟩
    exact SMap.find_eq_none.mp h (hkk e.1 (List.mem_map_of_mem he)).1
  obtain ⟨o, ho⟩ := Option.isSome_iff_exists.mp (gen s.maxiter 0 s q_init rfl rfl rfl rfl rfl)
  have ho' : s.cartToJnt (libFk w.jtree) (libIk w svd) q_init p_in = some o := by
    unfold cartToJnt
    rw [if_neg hno]; exact ho
  refine ⟨o, ho', ?_⟩
  obtain ⟨-, e2, -, e4, h⟩ := C71_result s _ _ q_init p_in hp h1 h2 hkk o ho'
  rcases h with ⟨k, fr, tw, dq, -, -, -, -, ha, hi, hlt⟩ | ⟨h, -⟩
  · right
    obtain ⟨ret, dq', hi', h0, -⟩ := libIk_total w hw hl svd hsvd hok o.q_out (e2.trans hq) o.st.delta_twists dq
      (fun n => by rw [e4]; exact hk' n) k
    rw [hi'] at hi
    obtain ⟨rfl, -⟩ := Prod.mk.inj (Option.some.inj hi)
    exact ⟨h0, hlt⟩
  · exact .inl h

/-- Violated, concretely: the damped solver for endpoints "A" and "B" of the example tree.  After a call that did not reach
its goal for "A", a call without any goal fails as well — for every `q_init`, however often it is repeated. -/
theorem C71_stale_violated (svd : TreeWdls.SvdFn) (hsvd : TreeWdls.GoodSvdFn svd) (hok : ∀ m n A, 0 ≤ (svd m n A).code) :
    ∃ w s o, TreeWdls.new Tree.demo ["A", "B"] (fun _ => [0, 0, 0]) = some w ∧
      s = TreeNrJl.new 3 ["A", "B"] [-9, -9, -9] [9, 9, 9] 1 1 ∧
      s.cartToJnt (libFk w.jtree) (libIk (w.setLambda 1) svd) [0, 0, 0] [("A", ⟨1, ⟨5, 0, 0⟩⟩), ("B", 1)] = some o ∧
      o.ret = -3 ∧
      ∀ q : List ℝ, q.length = 3 → ∃ o', o.st.cartToJnt (libFk w.jtree) (libIk (w.setLambda 1) svd) q [] = some o' ∧ o'.ret = -3 := by
  obtain ⟨w0, e0, hw0, -, -, hwy, h3, hA, hr, hroot, hk⟩ := TreeWdls.demo_ready ["A", "B"] (by simp)
  set w := w0.setLambda 1 with hwdef
  have hw : w.Ready := ⟨hw0.reach, hw0.valid, hw0.joints, hw0.same, hw0.sizes, hw0.inTree, hw0.wy, hw0.wq⟩
  have hl : w.lambda ≠ 0 := by norm_num [hwdef, TreeWdls.setLambda]
  have hn3 : w.tree.nrOfJoints = 3 := h3
  have hkw : ∀ n, n ∈ w.jacobians.map Prod.fst ↔ n ∈ ["A", "B"] := hk
  set s := TreeNrJl.new 3 ["A", "B"] [-9, -9, -9] [9, 9, 9] 1 1 with hs
  have hn := C71_new 3 ["A", "B"] [-9, -9, -9] [9, 9, 9] 1 1
  have hkF : ∀ n, n ∈ s.frames.map Prod.fst ↔ n ∈ w.jacobians.map Prod.fst := fun n => (hn n).1.trans (hkw n).symm
  have hkT : ∀ n, n ∈ s.delta_twists.map Prod.fst ↔ n ∈ w.jacobians.map Prod.fst := fun n => (hn n).2.1.trans (hkw n).symm
  have hpath : Tree.Path w.jtree "A" [⟨Tree.mv "A", 0, some "r", ["C"]⟩] := show Tree.Path w0.jtree "A" _ from
    .step (l := []) hA (by rw [hroot]; decide) rfl (hroot ▸ .root (hroot ▸ hr))
  have hpos : ∀ q : ℕ → ℝ, (Tree.fkP q [⟨Tree.mv "A", 0, some "r", ["C"]⟩]).p.x = 0 := by
    intro q
    simp [Tree.fkP, Segment.pose, Joint.pose, Tree.mv, Frame.ofRot]
  obtain ⟨o, ho, hret⟩ := C71_library s w hw hl svd hsvd hok [0, 0, 0] hn3.symm [("A", ⟨1, ⟨5, 0, 0⟩⟩), ("B", 1)] (by simp)
    rfl rfl hkF hkT (fun n hn => (hkw n).mpr (by simpa using hn))
  obtain ⟨e1, e2, e3, e4, h⟩ := C71_result s _ _ [0, 0, 0] [("A", ⟨1, ⟨5, 0, 0⟩⟩), ("B", 1)] (by simp) rfl rfl
    (fun n hn => ⟨(hkF n).mpr ((hkw n).mpr (by simpa using hn)), (hkT n).mpr ((hkw n).mpr (by simpa using hn))⟩) o ho
  -- the twist left behind for "A"
  have htw : ∀ (k : ℕ) (q : List ℝ) (fr : SMap Frame) (tw : SMap Twist) (fr' : SMap Frame) (tw' : SMap Twist), q.length = 3 →
      Aimed (libFk w.jtree) id k q [("A", ⟨1, ⟨5, 0, 0⟩⟩), ("B", 1)] fr tw fr' tw' →
      ∃ t, tw'.find "A" = some t ∧ t.comp 0 = 5 := by
    intro k q fr tw fr' tw' hq ha
    obtain ⟨f0, c', f, -, hf, -, ht⟩ := ha.goal "A" ⟨1, ⟨5, 0, 0⟩⟩ (by simp)
    have hfk := (Tree.C34_fk w.jtree hw.reach hw.joints q "A").2.2 (hq.trans (hn3.symm.trans hw.same.symm)) _ hpath
    simp only [libFk, hfk, Option.map_some, Option.getD_some, Option.some.injEq, Prod.mk.injEq] at hf
    refine ⟨_, ht, ?_⟩
    rw [← hf.2]
    simp [Twist.comp, Frame.diff, Vec.diff, hpos]
  have hrows : 6 * w.jacobians.length ≤ w.rows := by
    obtain ⟨w1, g1, -, -, -, -, -, -, g8, -, -, -, -, g13, g14, -⟩ := TreeWdls.C70_new Tree.demo Tree.demo_reach ["A", "B"] (fun _ => [0, 0, 0])
    rw [g1] at e0
    obtain rfl := Option.some.inj e0
    show 6 * w1.jacobians.length ≤ w1.rows
    rw [g8]
    have hsubset : w1.jacobians.map Prod.fst ⊆ ["A", "B"] := fun n hn => (g14 n).mp hn
    have := (g13.nodup.subperm hsubset).length_le
    simp only [List.length_map, List.length_cons, List.length_nil] at this ⊢
    omega
  have hst : o.ret = -3 ∧ ∃ t, o.st.delta_twists.find "A" = some t ∧ t.comp 0 = 5 := by
    rcases h with ⟨k, fr, tw, dq, -, -, -, -, ha, hi, hlt⟩ | ⟨h, hR⟩
    · exfalso
      obtain ⟨t, ht, h5⟩ := htw k o.q_out fr tw _ _ e2 ha
      rcases libIk_value w hw svd o.q_out (e2.trans hn3.symm) o.st.delta_twists dq (fun n => by rw [e4]; exact hkT n) k _ _ hi with h | h
      · rcases hret with h' | h'
        · rw [h'] at h; norm_num [TreeWdls.E_SVD_FAILED] at h
        · rw [h] at h'; norm_num [TreeWdls.E_SVD_FAILED] at h'
      · obtain ⟨J, d, hstk, hv⟩ := h
        obtain ⟨k', hk1, hk2⟩ := List.mem_iff_getElem.mp ((hkw "A").mpr (by simp))
        have hlen : k' < w.jacobians.length := by simpa using hk1
        obtain ⟨t', ht', hd⟩ := hstk.goal k' 0 ⟨6 * k' + (0 : Fin 6).val, by simp; omega⟩ "A" rfl
          (by rw [List.getElem?_eq_getElem hk1, hk2])
        rw [ht] at ht'
        obtain rfl := Option.some.inj ht'
        have hle : t.comp 0 ^ 2 ≤ sqn d := by
          rw [← hd, sq]
          exact Finset.single_le_sum (f := fun r => d r * d r) (fun r _ => mul_self_nonneg _) (Finset.mem_univ _)
        have hwy' : w.wy = 1 := hwy
        have hge : |t.comp 0| ≤ o.ret := by
          rw [hv, hwy', Matrix.one_mulVec]
          exact Real.abs_le_sqrt hle
        rw [h5] at hge
        have hlt : o.ret < 1 := hlt
        norm_num at hge
        linarith
    · refine ⟨h, ?_⟩
      have hR : Reaches (libFk w.jtree) (libIk w svd) [("A", ⟨1, ⟨5, 0, 0⟩⟩), ("B", 1)] s [0, 0, 0] (0 + 1) o.q_out o.st.frames
        o.st.delta_twists o.st.delta_q := hR
      generalize o.q_out = q1 at hR
      generalize o.st.frames = f1 at hR
      generalize o.st.delta_twists = t1 at hR ⊢
      generalize o.st.delta_q = d1 at hR
      cases hR with
      | step hR0 ha _ _ _ _ _ =>
        cases hR0
        exact htw 0 [0, 0, 0] _ _ _ _ rfl ha
  obtain ⟨hm3, t, ht, h5⟩ := hst
  have hmin : o.st.q_min = [-9, -9, -9] := by rw [e1]; rfl
  have hmax : o.st.q_max = [9, 9, 9] := by rw [e1]; rfl
  have heps : o.st.eps = 1 := by rw [e1]; rfl
  refine ⟨w0, s, o, e0, rfl, ho, hm3, fun q hq => ?_⟩
  have hkF' : ∀ n, n ∈ o.st.frames.map Prod.fst ↔ n ∈ w.jacobians.map Prod.fst := fun n => by rw [e3]; exact hkF n
  have hkT' : ∀ n, n ∈ o.st.delta_twists.map Prod.fst ↔ n ∈ w.jacobians.map Prod.fst := fun n => by rw [e4]; exact hkT n
  obtain ⟨o', ho', hret'⟩ := C71_library o.st w hw hl svd hsvd hok q (hq.trans hn3.symm) [] (by simp)
    (by rw [hmin]; exact hq) (by rw [hmax]; exact hq) hkF' hkT' (by simp)
  have hneg := C71_stale_fails o.st w hw hwy svd q (hq.trans hn3.symm) [] (by simp)
    (by rw [hmin]; exact hq) (by rw [hmax]; exact hq) hkF' hkT' (by simp) hrows "A" (by simp) t ht 0
    (by rw [h5, heps]; norm_num) o' ho'
  refine ⟨o', ho', ?_⟩
  rcases hret' with h | h
  · exact h
  · exact absurd h.1 (not_le.mpr hneg)

end TreeNrJl
end KDL
