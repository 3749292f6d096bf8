import Verif.Props.ForwardDynamics
import Verif.Props.TreeEnergy

/-! C104: similarity of motions.  Scaling the inertias, the time and the loads scales the torques accordingly; a motion can be
run backwards. -/

noncomputable section
namespace KDL
open Finset

/-- The segment with all its inertias, body and rotor, multiplied by `m`. -/
def Segment.heavier (m : ℝ) (s : Segment) : Segment :=
  { s with I := m • s.I, joint := { s.joint with inertia := m * s.joint.inertia } }
/-- The chain made of another material: all inertias multiplied by `m`. -/
def Chain.heavier (m : ℝ) (c : Chain) : Chain := { c with segments := c.segments.map (Segment.heavier m) }
/-- A joint array multiplied by a number. -/
def times (a : ℝ) (x : List ℝ) : List ℝ := x.map (fun y => a * y)
/-- Wrenches multiplied by a number. -/
def timesW (a : ℝ) (x : List Wrench) : List Wrench := x.map (fun w => a • w)

/-! ### Helpers -/

theorem times_length (a : ℝ) (x : List ℝ) : (times a x).length = x.length := by simp [times]
theorem timesW_length (a : ℝ) (x : List Wrench) : (timesW a x).length = x.length := by simp [timesW]
theorem rd_times (a : ℝ) (x : List ℝ) : rd (times a x) = fun i => a * rd x i := by
  funext i
  simp only [rd, times, List.getD_eq_getElem?_getD, List.getElem?_map]
  cases x[i]? <;> simp
theorem times_getD (a : ℝ) (x : List ℝ) (i : ℕ) : (times a x).getD i 0 = a * x.getD i 0 := congrFun (rd_times a x) i
theorem times_one (x : List ℝ) : times 1 x = x := by simp [times]
theorem timesW_one (x : List Wrench) : timesW 1 x = x := by
  have : (fun w : Wrench => (1:ℝ) • w) = id := by funext w; ext <;> simp
  simp [timesW, this]
theorem timesW_zero (a : ℝ) (n : ℕ) : timesW a (List.replicate n 0) = List.replicate n 0 := by
  have : a • (0 : Wrench) = 0 := by ext <;> simp
  simp [timesW, this]
theorem times_zero (a : ℝ) (n : ℕ) : times a (List.replicate n 0) = List.replicate n 0 := by simp [times]

theorem heavier_moving (m : ℝ) (s : Segment) : (s.heavier m).moving = s.moving := rfl
theorem nMoving_heavier (m : ℝ) (L : List Segment) : nMoving (L.map (Segment.heavier m)) = nMoving L := by
  induction L with
  | nil => rfl
  | cons s L ih => rw [List.map_cons, nMoving_cons, nMoving_cons, ih]; rfl
theorem heavier_WF {c : Chain} (hc : c.WF) (m : ℝ) : (c.heavier m).WF := by
  refine ⟨?_, ?_⟩
  · simp only [Chain.heavier, List.length_map]; exact hc.1
  · simp only [Chain.heavier, nMoving_heavier]; exact hc.2
theorem heavier_one (c : Chain) : c.heavier 1 = c := by
  have : Segment.heavier 1 = id := by
    funext s
    unfold Segment.heavier
    have e : (1:ℝ) • s.I = s.I := by
      rw [RBI.smul_def]
      have : (1:ℝ) • s.I.I = s.I.I := Mat3.ext_app fun v => by rw [Mat3.smul_app]; ext <;> simp
      have h2 : (1:ℝ) • s.I.h = s.I.h := by ext <;> simp
      rw [this, h2, one_mul]
    rw [e, one_mul]; rfl
  simp [Chain.heavier, this]

theorem rneF_similar (m l : ℝ) (q qd qdd : ℕ → ℝ) : ∀ (ss : List Segment) (fes : List Wrench) (j : ℕ) (v a : Twist),
    rneF q (fun i => l * qd i) (fun i => l ^ 2 * qdd i) (ss.map (Segment.heavier m)) (timesW (m * l ^ 2) fes) j (l • v)
      (l ^ 2 • a) =
    (times (m * l ^ 2) (rneF q qd qdd ss fes j v a).1, (m * l ^ 2) • (rneF q qd qdd ss fes j v a).2) := by
  intro ss
  induction ss with
  | nil =>
    intro fes j v a
    have : (m * l ^ 2) • (0 : Wrench) = 0 := by ext <;> simp
    simp [rneF, times, this]
  | cons s ss ih =>
    intro fes j v a
    cases fes with
    | nil =>
      have : (m * l ^ 2) • (0 : Wrench) = 0 := by ext <;> simp
      simp [rneF, times, timesW, this]
    | cons fe fes =>
      have hX : Xs q (s.heavier m) j = Xs q s j := rfl
      have hS : Ss q (s.heavier m) j = Ss q s j := rfl
      have hnx : nx (s.heavier m) j = nx s j := rfl
      have q1 : ∀ (k : ℝ) (r : ℕ → ℝ), qv (s.heavier m) (fun i => k * r i) j = k * qv s r j := fun k r => by
        unfold qv; rw [heavier_moving]; split_ifs <;> ring
      have hu : up q (fun i => l * qd i) (s.heavier m) j (l • v) = l • up q qd s j v := by
        unfold up
        rw [q1, hX, hS, Frame.invTwist_smul]
        generalize (Xs q s j).invTwist v = x
        generalize Ss q s j = y
        ext <;> simp <;> ring
      have ha : ap q (fun i => l * qd i) (fun i => l ^ 2 * qdd i) (s.heavier m) j (l • v) (l ^ 2 • a) =
          l ^ 2 • ap q qd qdd s j v a := by
        unfold ap
        rw [hu, q1, q1, hX, hS, Frame.invTwist_smul]
        generalize (Xs q s j).invTwist a = x
        generalize Ss q s j = y
        generalize up q qd s j v = z
        ext <;> simp <;> ring
      have hfl : ∀ (v a : Twist), fl (s.heavier m) (l • v) (l ^ 2 • a) ((m * l ^ 2) • fe) = (m * l ^ 2) • fl s v a fe := by
        intro v a
        have hI : (s.heavier m).I = m • s.I := rfl
        unfold fl
        rw [hI, (C37_linear s.I s.I m 0 _).2.1, (C37_linear s.I s.I (l ^ 2) 0 a).2.2.2.1,
          (C37_linear s.I s.I m 0 _).2.1, (C37_linear s.I s.I l 0 v).2.2.2.1]
        generalize s.I * a = x
        generalize s.I * v = y
        ext <;> simp <;> ring
      rw [List.map_cons]
      have ew : timesW (m * l ^ 2) (fe :: fes) = (m * l ^ 2) • fe :: timesW (m * l ^ 2) fes := rfl
      rw [ew]
      simp only [rneF, hu, ha, hfl, hX, hS, hnx, ih, heavier_moving]
      generalize fl s (up q qd s j v) (ap q qd qdd s j v a) fe = g
      generalize rneF q qd qdd ss fes (nx s j) (up q qd s j v) (ap q qd qdd s j v a) = r
      have e1 : (m * l ^ 2) • g + (m * l ^ 2) • r.2 = (m * l ^ 2) • (g + r.2) := by ext <;> simp <;> ring
      have e2 : (Ss q s j).dot ((m * l ^ 2) • (g + r.2)) = m * l ^ 2 * (Ss q s j).dot (g + r.2) := by
        simp [Twist.dot, Vec.dot]; ring
      have e3 : (s.heavier m).joint.inertia = m * s.joint.inertia := rfl
      rw [e1, (C04_linear (Xs q s j) (m * l ^ 2) 0 0 (g + r.2) 0).2.2.2, e2, e3]
      congr 1
      split_ifs
      · simp only [times, List.map_cons]
        congr 1
        ring
      · rfl

/-! ### C104 -/

/-- Similarity: with all inertias multiplied by `m`, the speeds by `l`, the accelerations and the gravity by `l²` and the
external wrenches by `m l²`, the torques are multiplied by `m l²`. -/
theorem C104_similarity (c : Chain) (hc : c.WF) (m l : ℝ) (grav : Vec) (q qd qdd : List ℝ) (fext : List Wrench) (τ0 : List ℝ)
    (hq : q.length = c.nrOfJoints) (hqd : qd.length = c.nrOfJoints) (hqdd : qdd.length = c.nrOfJoints)
    (hf : fext.length = c.nrOfSegments) (hτ : τ0.length = c.nrOfJoints) :
    ∃ τ, idRne c c.nrOfJoints c.nrOfSegments grav q qd qdd fext τ0 = some (E_NOERROR, τ) ∧
      idRne (c.heavier m) c.nrOfJoints c.nrOfSegments (l ^ 2 • grav) q (times l qd) (times (l ^ 2) qdd)
        (timesW (m * l ^ 2) fext) τ0 = some (E_NOERROR, times (m * l ^ 2) τ) := by
  refine ⟨_, idRne_eq c hc grav q qd qdd fext τ0 hq hqd hqdd hτ hf, ?_⟩
  have e := idRne_eq (c.heavier m) (heavier_WF hc m) (l ^ 2 • grav) q (times l qd) (times (l ^ 2) qdd)
    (timesW (m * l ^ 2) fext) τ0 hq (by rw [times_length]; exact hqd) (by rw [times_length]; exact hqdd) hτ
    (by rw [timesW_length]; exact hf)
  have e0 : (0 : Twist) = l • (0 : Twist) := by ext <;> simp
  have e1 : (-⟨l ^ 2 • grav, 0⟩ : Twist) = l ^ 2 • (-⟨grav, 0⟩ : Twist) := by ext <;> simp
  rw [rd_times, rd_times, e1] at e
  have s := rneF_similar m l (rd q) (rd qd) (rd qdd) c.segments fext 0 0 (-⟨grav, 0⟩)
  rw [← e0] at s
  exact e.trans (by rw [show (c.heavier m).segments = c.segments.map (Segment.heavier m) from rfl, s])

/-- Running a motion backwards needs the same torques: only the squares of the speeds matter. -/
theorem C104_reversal (c : Chain) (hc : c.WF) (grav : Vec) (q qd qdd : List ℝ) (fext : List Wrench) (τ0 : List ℝ)
    (hq : q.length = c.nrOfJoints) (hqd : qd.length = c.nrOfJoints) (hqdd : qdd.length = c.nrOfJoints)
    (hf : fext.length = c.nrOfSegments) (hτ : τ0.length = c.nrOfJoints) :
    ∃ τ, idRne c c.nrOfJoints c.nrOfSegments grav q qd qdd fext τ0 = some (E_NOERROR, τ) ∧
      idRne c c.nrOfJoints c.nrOfSegments grav q (times (-1) qd) qdd fext τ0 = some (E_NOERROR, τ) := by
  obtain ⟨τ, h1, h2⟩ := C104_similarity c hc 1 (-1) grav q qd qdd fext τ0 hq hqd hqdd hf hτ
  have e : (1:ℝ) * (-1) ^ 2 = 1 := by norm_num
  have e' : ((-1:ℝ)) ^ 2 = 1 := by norm_num
  have eg : (1:ℝ) • grav = grav := by ext <;> simp
  rw [e, e', heavier_one, times_one, times_one, timesW_one, eg] at h2
  exact ⟨τ, h1, h2⟩

/-- The Coriolis and centrifugal torques grow with the square of the speed. -/
theorem C104_coriolis (c : Chain) (hc : c.WF) (l : ℝ) (grav : Vec) (q qd C0 : List ℝ)
    (hq : q.length = c.nrOfJoints) (hqd : qd.length = c.nrOfJoints) (hC : C0.length = c.nrOfJoints) :
    ∃ C, (DynState.new c grav).coriolis c q qd C0 = some (E_NOERROR, C) ∧
      (DynState.new c grav).coriolis c q (times l qd) C0 = some (E_NOERROR, times (l ^ 2) C) := by
  obtain ⟨C, h1, h2⟩ := C104_similarity c hc 1 l 0 q qd (List.replicate c.nrOfJoints 0) (List.replicate c.nrOfSegments 0) C0
    hq hqd (by simp) (by simp) hC
  have eg : l ^ 2 • (0 : Vec) = 0 := by ext <;> simp
  rw [heavier_one, times_zero, timesW_zero, eg, one_mul] at h2
  exact ⟨C, h1, h2⟩

/-- Time scaling (Hollerbach): the torques of a motion run `l` times as fast, without the part that holds the weight, are
`l²` times those of the motion. -/
theorem C104_time_scaling (c : Chain) (hc : c.WF) (hv : c.Valid) (hI : c.SymmI) (l : ℝ) (grav : Vec) (q qd qdd : List ℝ)
    (τ0 G0 : List ℝ) (hq : q.length = c.nrOfJoints) (hqd : qd.length = c.nrOfJoints) (hqdd : qdd.length = c.nrOfJoints)
    (hτ : τ0.length = c.nrOfJoints) (hG : G0.length = c.nrOfJoints) :
    ∃ τ σ G, idRne c c.nrOfJoints c.nrOfSegments grav q qd qdd (List.replicate c.nrOfSegments 0) τ0 = some (E_NOERROR, τ) ∧
      idRne c c.nrOfJoints c.nrOfSegments grav q (times l qd) (times (l ^ 2) qdd) (List.replicate c.nrOfSegments 0) τ0 =
        some (E_NOERROR, σ) ∧
      (DynState.new c grav).gravity c q G0 = some (E_NOERROR, G) ∧
      ∀ k < c.nrOfJoints, σ.getD k 0 - G.getD k 0 = l ^ 2 * (τ.getD k 0 - G.getD k 0) := by
  obtain ⟨τ, H, C, G, a1, a2, a3, a4, -, -, -, -, a9⟩ := C39_decomposition c hc hv hI grav q qd qdd
    (List.replicate c.nrOfSegments 0) τ0 τ0 G0 ⟨c.nrOfJoints, fun _ _ => 0⟩ hq hqd hqdd (by simp) hτ hτ hG rfl
  obtain ⟨σ, H', C', G', b1, b2, b3, b4, -, -, -, -, b9⟩ := C39_decomposition c hc hv hI grav q (times l qd) (times (l ^ 2) qdd)
    (List.replicate c.nrOfSegments 0) τ0 τ0 G0 ⟨c.nrOfJoints, fun _ _ => 0⟩ hq (by rw [times_length]; exact hqd)
    (by rw [times_length]; exact hqdd) (by simp) hτ hτ hG rfl
  rw [a2] at b2; cases b2
  rw [a4] at b4; cases b4
  obtain ⟨C1, c1, c2⟩ := C104_coriolis c hc l grav q qd τ0 hq hqd hτ
  rw [a3] at c1; cases c1
  rw [b3] at c2; cases c2
  refine ⟨τ, σ, G, a1, b1, a4, fun k hk => ?_⟩
  have z : ∀ (t : ℕ → Twist), ∑ i ∈ range c.nrOfSegments, (t i).dot ((List.replicate c.nrOfSegments (0 : Wrench)).getD i 0) = 0 := by
    intro t
    refine sum_eq_zero fun i _ => ?_
    have : (List.replicate c.nrOfSegments (0 : Wrench)).getD i 0 = 0 := by
      simp only [List.getD_eq_getElem?_getD, List.getElem?_replicate]; split_ifs <;> rfl
    rw [this]; simp [Twist.dot, Vec.dot]
  rw [a9 k hk, b9 k hk, z]
  simp only [times_getD]
  have : ∑ i ∈ range c.nrOfJoints, H.d k i * (l ^ 2 * qdd.getD i 0) = l ^ 2 * ∑ i ∈ range c.nrOfJoints, H.d k i * qdd.getD i 0 := by
    rw [mul_sum]; exact sum_congr rfl fun i _ => by ring
  rw [this]; ring

theorem heavier_valid {c : Chain} (hv : c.Valid) (m : ℝ) : (c.heavier m).Valid := by
  intro s hs
  simp only [Chain.heavier, List.mem_map] at hs
  obtain ⟨x, hx, rfl⟩ := hs
  exact ⟨(hv x hx).1, (hv x hx).2⟩
theorem heavier_symm {c : Chain} (hI : c.SymmI) (m : ℝ) : (c.heavier m).SymmI := by
  intro s hs
  simp only [Chain.heavier, List.mem_map] at hs
  obtain ⟨x, hx, rfl⟩ := hs
  have : (x.heavier m).I.I = m • x.I.I := by unfold Segment.heavier; rw [RBI.smul_def]
  rw [this, Mat3.tr_smul, hI x hx]
theorem heavier_massive {c : Chain} (hM : c.Massive) {m : ℝ} (hm : 0 < m) : (c.heavier m).Massive := by
  have e : ∀ (x : Segment) (t : Twist), t.dot ((x.heavier m).I * t) = m * t.dot (x.I * t) := fun x t => by
    have : (x.heavier m).I * t = m • (x.I * t) := (C37_linear x.I x.I m 0 t).2.1
    rw [this]; simp [Twist.dot, Vec.dot]; ring
  obtain ⟨h1, h2⟩ := hM
  refine ⟨fun s hs => ?_, ?_⟩
  · simp only [Chain.heavier, List.mem_map] at hs
    obtain ⟨x, hx, rfl⟩ := hs
    exact ⟨fun t => by rw [e]; exact mul_nonneg hm.le ((h1 x hx).1 t), mul_nonneg hm.le (h1 x hx).2⟩
  · rcases h2 with h2 | h2
    · left
      intro s hs hmv
      simp only [Chain.heavier, List.mem_map] at hs
      obtain ⟨x, hx, rfl⟩ := hs
      exact mul_pos hm (h2 x hx hmv)
    · right
      intro s hs hmv
      simp only [Chain.heavier, List.mem_map] at hs
      obtain ⟨x, hx, rfl⟩ := hs
      exact ⟨fun t ht => by rw [e]; exact mul_pos hm ((h2 x hx hmv).1 t ht), (h2 x hx hmv).2⟩

/-- Forward dynamics: with the inertias, speeds, gravity, torques and external wrenches scaled in this way, the accelerations
found are `l²` times the original ones. -/
theorem C104_forward (c : Chain) (hc : c.WF) (hv : c.Valid) (hI : c.SymmI) (hM : c.Massive) (m l : ℝ) (hm : 0 < m)
    (grav : Vec) (q qd τ : List ℝ) (fext : List Wrench) (qdd0 : List ℝ) (H0 : ℕ → ℕ → ℝ) (T0 : ℕ → ℝ) (L0 : LDL) (r0 x0 : ℕ → ℝ)
    (hq : q.length = c.nrOfJoints) (hqd : qd.length = c.nrOfJoints) (hqdd : qdd0.length = c.nrOfJoints)
    (hτ : τ.length = c.nrOfJoints) (hf : fext.length = c.nrOfSegments) :
    ∃ qdd, fdRne (.new c grav) c q qd τ fext qdd0 H0 T0 L0 r0 x0 = some (.ret E_NOERROR qdd) ∧
      fdRne (.new (c.heavier m) (l ^ 2 • grav)) (c.heavier m) q (times l qd) (times (m * l ^ 2) τ)
        (timesW (m * l ^ 2) fext) qdd0 H0 T0 L0 r0 x0 = some (.ret E_NOERROR (times (l ^ 2) qdd)) := by
  obtain ⟨qdd, e⟩ := C42_total c hc hv hI hM grav q qd τ fext qdd0 H0 T0 L0 r0 x0 hq hqd hqdd hτ hf
  refine ⟨qdd, e, ?_⟩
  obtain ⟨-, hl, hid⟩ := C42_id_of_fd c hc hv hI grav q qd τ _ qdd0 τ H0 T0 L0 r0 x0 hq hqd hqdd hτ hf hτ _ qdd e
  obtain ⟨σ, s1, s2⟩ := C104_similarity c hc m l grav q qd qdd fext τ hq hqd hl hf hτ
  rw [hid] at s1; cases s1
  obtain ⟨σ, t1, t2⟩ := C42_fd_of_id (c.heavier m) (heavier_WF hc m) (heavier_valid hv m) (heavier_symm hI m)
    (heavier_massive hM hm) (l ^ 2 • grav) q (times l qd) (times (l ^ 2) qdd) (timesW (m * l ^ 2) fext) qdd0 τ H0 T0 L0 r0 x0
    hq (by rw [times_length]; exact hqd) (by rw [times_length]; exact hl) hqdd (by rw [timesW_length]; exact hf) hτ
  have t1' : idRne (c.heavier m) c.nrOfJoints c.nrOfSegments (l ^ 2 • grav) q (times l qd) (times (l ^ 2) qdd)
        (timesW (m * l ^ 2) fext) τ = some (E_NOERROR, σ) := t1
  rw [s2] at t1'; cases t1'
  exact t2

/-! ### Trees -/

theorem uT_scale (q δ : ℕ → ℝ) (l : ℝ) (p : List TreeElem) : uT q (fun i => l * δ i) p = l • uT q δ p := by
  induction p using List.reverseRecOn with
  | nil => simp only [uT, List.foldl_nil]; ext <;> simp
  | append_singleton p e ih =>
    rw [uT_append, uT_append, ih]
    unfold up
    have q1 : qv e.segment (fun i => l * δ i) e.q_nr = l * qv e.segment δ e.q_nr := by unfold qv; split_ifs <;> ring
    rw [q1, Frame.invTwist_smul]
    generalize (Xs q e.segment e.q_nr).invTwist (uT q δ p) = x
    generalize Ss q e.segment e.q_nr = y
    ext <;> simp <;> ring

theorem vaT_scale (q qd qdd : ℕ → ℝ) (l : ℝ) (p : List TreeElem) :
    (vaT q (fun i => l * qd i) (fun i => l ^ 2 * qdd i) 0 p).2 = l ^ 2 • (vaT q qd qdd 0 p).2 := by
  induction p using List.reverseRecOn with
  | nil => simp only [vaT, List.foldl_nil]; ext <;> simp
  | append_singleton p e ih =>
    simp only [vaT_append, vaT_fst, ih, uT_scale]
    have hu := uT_scale q qd l (p ++ [e])
    rw [uT_append, uT_append, uT_scale] at hu
    unfold ap
    rw [hu]
    have q1 : ∀ (k : ℝ) (r : ℕ → ℝ), qv e.segment (fun i => k * r i) e.q_nr = k * qv e.segment r e.q_nr := fun k r => by
      unfold qv; split_ifs <;> ring
    rw [q1, q1, Frame.invTwist_smul]
    generalize (Xs q e.segment e.q_nr).invTwist _ = x
    generalize Ss q e.segment e.q_nr = y
    generalize up q qd e.segment e.q_nr (uT q qd p) = z
    ext <;> simp <;> ring

open Tree in
/-- The same for the solver of a tree: with the speeds multiplied by `l` and the accelerations, the gravity and the external
wrenches by `l²` the torques are multiplied by `l²`; with `l = -1`, a motion run backwards needs the same torques. -/
theorem C104_tree (t : Tree) (h : t.Reach) (hv : ∀ x ∈ t.segments, x.segment.Valid) (s s' : TreeRne) (grav : Vec) (l : ℝ)
    (hag : s.ag = -⟨grav, 0⟩) (hag' : s'.ag = -⟨l ^ 2 • grav, 0⟩) (hs : s.Ready t) (hs' : s'.Ready t)
    (q qd qdd : List ℝ) (fext : String → Option Wrench) (τ0 : List ℝ) (hq : q.length = t.nrOfJoints)
    (hqd : qd.length = t.nrOfJoints) (hqdd : qdd.length = t.nrOfJoints) (hτ : τ0.length = t.nrOfJoints) :
    ∃ τ, s.cartToJnt t false q qd qdd fext τ0 = some (E_NOERROR, τ) ∧
      s'.cartToJnt t false q (times l qd) (times (l ^ 2) qdd) (fun n => (fext n).map (fun w => l ^ 2 • w)) τ0 =
        some (E_NOERROR, times (l ^ 2) τ) := by
  obtain ⟨path, hpath⟩ := exists_paths h
  obtain ⟨τ, e1, l1, w1⟩ := tree_work t h hv s grav hag hs path hpath q qd qdd fext τ0 hq hqd hqdd hτ
  obtain ⟨σ, e2, l2, w2⟩ := tree_work t h hv s' (l ^ 2 • grav) hag' hs' path hpath q (times l qd) (times (l ^ 2) qdd)
    (fun n => (fext n).map (fun w => l ^ 2 • w)) τ0 hq (by rw [times_length]; exact hqd) (by rw [times_length]; exact hqdd) hτ
  refine ⟨τ, e1, ?_⟩
  rw [e2]
  have key : ∀ δ : ℕ → ℝ, ∑ k ∈ range t.nrOfJoints, δ k * σ.getD k 0 = l ^ 2 * ∑ k ∈ range t.nrOfJoints, δ k * τ.getD k 0 := by
    intro δ
    have smul_sum : ∀ (L : List TreeElem) (f : TreeElem → ℝ), l ^ 2 * (L.map f).sum = (L.map fun x => l ^ 2 * f x).sum := by
      intro L f
      induction L with
      | nil => simp
      | cons x L ih => simp only [List.map_cons, List.sum_cons, ← ih]; ring
    rw [w1, w2, mul_add, smul_sum, smul_sum, rd_times, rd_times]
    congr 1
    · congr 1
      refine List.map_congr_left fun x hx => ?_
      have hxv : ∀ e ∈ path x.name, e.segment.Valid := fun e he => hv e ((hpath _ (List.mem_map_of_mem hx)).mem e he)
      have eg : (-⟨l ^ 2 • grav, 0⟩ : Twist) = l ^ 2 • (-⟨grav, 0⟩ : Twist) := by ext <;> simp
      have ef : (Option.map (fun w : Wrench => l ^ 2 • w) (fext x.name)).getD 0 = l ^ 2 • (fext x.name).getD 0 := by
        cases fext x.name with
        | none => simp only [Option.map_none, Option.getD_none]; ext <;> simp
        | some w => rfl
      rw [← uT_eq _ _ _ hxv, ← uT_eq _ _ _ hxv, ← uT_eq _ _ _ hxv, uT_scale, vaT_scale, eg, Frame.invTwist_smul, ef]
      have ea : l ^ 2 • (vaT (rd q) (rd qd) (rd qdd) 0 (path x.name)).2 + l ^ 2 • (fkP (rd q) (path x.name)).invTwist (-⟨grav, 0⟩) =
          l ^ 2 • ((vaT (rd q) (rd qd) (rd qdd) 0 (path x.name)).2 + (fkP (rd q) (path x.name)).invTwist (-⟨grav, 0⟩)) := by
        ext <;> simp <;> ring
      rw [ea, (C37_linear x.segment.I x.segment.I (l ^ 2) 0 _).2.2.2.1, (C37_linear x.segment.I x.segment.I l 0 _).2.2.2.1]
      generalize x.segment.I * ((vaT (rd q) (rd qd) (rd qdd) 0 (path x.name)).2 + (fkP (rd q) (path x.name)).invTwist (-⟨grav, 0⟩)) = a
      generalize x.segment.I * uT (rd q) (rd qd) (path x.name) = b
      generalize uT (rd q) (rd qd) (path x.name) = c
      generalize (fext x.name).getD 0 = d
      simp [Twist.dot, Vec.dot]
      ring
    · congr 1
      exact List.map_congr_left fun x _ => by ring
  congr 2
  refine List.ext_getElem (by rw [times_length, l1, l2]) fun k hk hk' => ?_
  have hk2 : k < t.nrOfJoints := by omega
  have u := key (unitRate k)
  have one : ∀ f : List ℝ, ∑ i ∈ range t.nrOfJoints, unitRate k i * f.getD i 0 = f.getD k 0 := by
    intro f
    rw [sum_eq_single k]
    · simp [unitRate]
    · intro i _ hne; simp [unitRate, hne]
    · intro hne; exact absurd (mem_range.mpr hk2) hne
  rw [one, one] at u
  have g : ∀ (f : List ℝ) (hf : k < f.length), f.getD k 0 = f[k] := fun f hf => by simp [List.getD_eq_getElem?_getD, hf]
  rw [← g σ hk, ← g _ hk', times_getD, u]

/-- The hypotheses hold for the example chain; its Coriolis torques at twice the speed are four times as large. -/
example (a b : ℝ) : ∃ C, (DynState.new exChain ⟨0, 0, -9.81⟩).coriolis exChain [a, b] [1, 2] [0, 0] = some (0, C) ∧
    (DynState.new exChain ⟨0, 0, -9.81⟩).coriolis exChain [a, b] [2, 4] [0, 0] = some (0, times 4 C) := by
  obtain ⟨C, h1, h2⟩ := C104_coriolis exChain exChain_ok.1 2 ⟨0, 0, -9.81⟩ [a, b] [1, 2] [0, 0] rfl rfl rfl
  refine ⟨C, h1, ?_⟩
  have e1 : times 2 [1, 2] = [2, 4] := by simp [times]; norm_num
  have e2 : ((2:ℝ)) ^ 2 = 4 := by norm_num
  rw [e1, e2] at h2
  exact h2
example (a b : ℝ) : ∃ qdd, fdRne (.new exChain 0) exChain [a, b] [1, 2] [3, 4] [0, 0, 0] [0, 0] (fun _ _ => 7) (fun _ => 7)
      ⟨fun _ _ => 7, fun _ => 7⟩ (fun _ => 7) (fun _ => 7) = some (.ret 0 qdd) ∧
    fdRne (.new (exChain.heavier 5) ((3:ℝ) ^ 2 • 0)) (exChain.heavier 5) [a, b] (times 3 [1, 2]) (times (5 * 3 ^ 2) [3, 4])
      (timesW (5 * 3 ^ 2) [0, 0, 0]) [0, 0] (fun _ _ => 7) (fun _ => 7)
      ⟨fun _ _ => 7, fun _ => 7⟩ (fun _ => 7) (fun _ => 7) = some (.ret 0 (times (3 ^ 2) qdd)) := by
  obtain ⟨h1, h2, h3, h4⟩ := exChain_ok
  exact C104_forward exChain h1 h2 h3 h4 5 3 (by norm_num) 0 _ _ _ _ _ _ _ _ _ _ rfl rfl rfl rfl rfl

open Tree in
/-- A motion of the example tree run backwards. -/
example (grav : Vec) (a b c x y z : ℝ) (fext : String → Option Wrench) : ∃ τ,
    (TreeRne.new exTree grav).cartToJnt exTree false [a, b, c] [x, y, z] [1, 2, 3] fext [0, 0, 0] = some (E_NOERROR, τ) ∧
    (TreeRne.new exTree ((-1:ℝ) ^ 2 • grav)).cartToJnt exTree false [a, b, c] (times (-1) [x, y, z]) (times ((-1) ^ 2) [1, 2, 3])
      (fun n => (fext n).map (fun w => (-1:ℝ) ^ 2 • w)) [0, 0, 0] = some (E_NOERROR, times ((-1) ^ 2) τ) := by
  have hnj : exTree.nrOfJoints = 3 := by rw [exTree_eq]
  have hr : ∀ g, (TreeRne.new exTree g).Ready exTree := fun g => ⟨rfl, rfl, (C36_keys exTree g (TreeRne.new exTree g)).1⟩
  exact C104_tree exTree exTree_reach exTree_valid _ _ grav (-1) rfl rfl (hr _) (hr _) [a, b, c] [x, y, z] [1, 2, 3] fext
    [0, 0, 0] (by rw [hnj]; rfl) (by rw [hnj]; rfl) (by rw [hnj]; rfl) (by rw [hnj]; rfl)

end KDL
