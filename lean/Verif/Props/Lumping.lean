import Verif.Props.ForwardDynamics

/-! C103: a fixed segment is part of the link it is mounted on.  A fixed segment behind another one can be merged with it,
and a fixed segment at the base is a change of the base frame: no solver can tell the difference. -/

noncomputable section
namespace KDL
open Finset

/-- The segment `f`, mounted rigidly on the tip of `s`, merged with `s`: the tip of `f` becomes the tip, and the inertia of
`s` (which refers to its own tip frame) is moved to the new tip frame and added. -/
def lump (s f : Segment) : Segment := ⟨s.name, s.joint, f.f_tip.inv * s.I + f.I, s.f_tip * f.f_tip⟩
/-- The external wrench on the merged segment, in the new tip frame: both wrenches together. -/
def lumpWrench (f : Segment) (ws wf : Wrench) : Wrench := f.f_tip.inv * ws + wf

/-- `c` contains the fixed segment `f` directly behind the segment `s`; `c'` is the same chain with the two merged. -/
structure Merged (c c' : Chain) (pre : List Segment) (s f : Segment) (post : List Segment) : Prop where
  wf : c.WF
  wf' : c'.WF
  segs : c.segments = pre ++ s :: f :: post
  segs' : c'.segments = pre ++ lump s f :: post
  fixed : f.joint.type = .Fixed

/-! ### Helpers -/

theorem lump_moving (s f : Segment) : (lump s f).moving = s.moving := rfl
theorem lump_pose (s f : Segment) (x : ℝ) : (lump s f).pose x = s.pose x * f.f_tip := by
  unfold Segment.pose lump; rw [mul_assoc]
theorem fixed_not_moving {f : Segment} (hf : f.joint.type = .Fixed) : ¬ f.moving = true := by
  simp [Segment.moving, Joint.moving, hf]
theorem fixed_pose {f : Segment} (hf : f.joint.type = .Fixed) (x : ℝ) : f.pose x = f.f_tip := by
  unfold Segment.pose Joint.pose; rw [hf]; exact one_mul _
theorem lump_valid {s f : Segment} (hs : s.Valid) (hf : f.Valid) : (lump s f).Valid := ⟨hs.1, hs.2.mul hf.2⟩

theorem invTwist_refPoint (X : Frame) (t : Twist) : X.M.invTwist (t.refPoint X.p) = X.invTwist t := by
  ext <;> simp [Frame.invTwist, Rot.invTwist, Rot.invVec] <;> ring

theorem Ss_eq_joint (q : ℕ → ℝ) (s : Segment) (j : ℕ) :
    Ss q s j = (Xs q s j).invTwist ((s.joint.twist 1).refPoint (-(s.joint.pose (qv s q j)).p)) := by
  rw [← invTwist_refPoint, Twist.refPoint_refPoint]
  have : -(s.joint.pose (qv s q j)).p + (Xs q s j).p = (s.joint.pose (qv s q j)).M * s.f_tip.p := by
    unfold Xs Segment.pose; ext <;> simp
  rw [this]; rfl

section
variable {s f : Segment} (hs : s.Valid)
include hs

theorem lump_inv (q : ℕ → ℝ) (j : ℕ) (t : Twist) :
    (Xs q s j * f.f_tip).invTwist t = f.f_tip.invTwist ((Xs q s j).invTwist t) :=
  Frame.invTwist_mul _ _ (Segment.isProper_pose hs _) t

theorem lump_Ss (q : ℕ → ℝ) (j : ℕ) : Ss q (lump s f) j = f.f_tip.invTwist (Ss q s j) := by
  have e : Xs q (lump s f) j = Xs q s j * f.f_tip := lump_pose s f _
  rw [Ss_eq_joint, Ss_eq_joint, e, lump_inv hs]
  rfl

theorem lump_up (q δ : ℕ → ℝ) (j : ℕ) (u : Twist) : up q δ (lump s f) j u = f.f_tip.invTwist (up q δ s j u) := by
  have e : Xs q (lump s f) j = Xs q s j * f.f_tip := lump_pose s f _
  unfold up
  rw [lump_Ss hs, e, lump_inv hs, Frame.invTwist_add, Frame.invTwist_smul]
  rfl

theorem lump_ap (hf : f.Valid) (q qd qdd : ℕ → ℝ) (j : ℕ) (v a : Twist) :
    ap q qd qdd (lump s f) j v a = f.f_tip.invTwist (ap q qd qdd s j v a) := by
  have e : Xs q (lump s f) j = Xs q s j * f.f_tip := lump_pose s f _
  have hi := hf.2.inv
  unfold ap
  rw [lump_up hs, lump_Ss hs, e, lump_inv hs, Frame.invTwist_add,
    Frame.invTwist_add, Frame.invTwist_smul]
  congr 1
  have k : ∀ t : Twist, f.f_tip.invTwist t = f.f_tip.inv * t := fun t => (C04_inverse_overloads _ t 0 hf.2).1
  have e2 : qv (lump s f) qd j = qv s qd j := rfl
  rw [e2, ← Frame.invTwist_smul, k, k, k, (C05_equivariant _ hi _ _ 0).1]

end

theorem fixed_up {f : Segment} (hfix : f.joint.type = .Fixed) (q δ : ℕ → ℝ) (j : ℕ) (u : Twist) :
    up q δ f j u = f.f_tip.invTwist u := by
  unfold up Xs qv
  rw [if_neg (fixed_not_moving hfix), if_neg (fixed_not_moving hfix), fixed_pose hfix]
  ext <;> simp

theorem fixed_ap {f : Segment} (hfix : f.joint.type = .Fixed) (q qd qdd : ℕ → ℝ) (j : ℕ) (v a : Twist) :
    ap q qd qdd f j v a = f.f_tip.invTwist a := by
  unfold ap Xs qv
  rw [if_neg (fixed_not_moving hfix), if_neg (fixed_not_moving hfix), if_neg (fixed_not_moving hfix), fixed_pose hfix]
  ext <;> simp

/-- The net wrench of the merged body. -/
theorem lump_fl {s f : Segment} (hf : f.f_tip.IsProper) (v a : Twist) (ws wf : Wrench) :
    f.f_tip * fl (lump s f) (f.f_tip.invTwist v) (f.f_tip.invTwist a) (lumpWrench f ws wf) =
      fl s v a ws + f.f_tip * fl f (f.f_tip.invTwist v) (f.f_tip.invTwist a) wf := by
  have hi := hf.inv
  have k : ∀ t : Twist, f.f_tip.invTwist t = f.f_tip.inv * t := fun t => (C04_inverse_overloads _ t 0 hf).1
  have kw : ∀ w : Wrench, f.f_tip * (f.f_tip.inv * w) = w := fun w => by
    rw [← (C04_inverse_overloads _ 0 w hf).2, (C04_inverse_undoes _ 0 w hf).2.2.2]
  have kI : ∀ t : Twist, (lump s f).I * (f.f_tip.inv * t) = f.f_tip.inv * (s.I * t) + f.I * (f.f_tip.inv * t) := fun t => by
    unfold lump
    rw [(C37_linear _ _ 0 0 _).1, C37_frame _ hi]
  have h1 : fl (lump s f) (f.f_tip.inv * v) (f.f_tip.inv * a) (lumpWrench f ws wf) =
      f.f_tip.inv * fl s v a ws + fl f (f.f_tip.inv * v) (f.f_tip.inv * a) wf := by
    unfold fl lumpWrench
    rw [kI, kI]
    have e1 : (f.f_tip.inv * v) * (f.f_tip.inv * (s.I * v) + f.I * (f.f_tip.inv * v)) =
        f.f_tip.inv * (v * (s.I * v)) + (f.f_tip.inv * v) * (f.I * (f.f_tip.inv * v)) := by
      rw [(C05_equivariant _ hi v 0 (s.I * v)).2]
      generalize f.f_tip.inv * v = x
      generalize f.f_tip.inv * (s.I * v) = y
      generalize f.I * x = z
      ext <;> simp <;> ring
    have e2 : f.f_tip.inv * (s.I * a + v * (s.I * v) - ws) =
        f.f_tip.inv * (s.I * a) + f.f_tip.inv * (v * (s.I * v)) - f.f_tip.inv * ws := by
      generalize s.I * a = x
      generalize v * (s.I * v) = y
      ext <;> simp <;> ring
    rw [e1, e2]
    abel
  rw [k, k, h1, (C04_linear f.f_tip 0 0 0 _ _).2.2.1, kw]

theorem rneF_append_congr (q qd qdd : ℕ → ℝ) {X Y : List Segment} {fx fy : List Wrench}
    (h : ∀ j v a, rneF q qd qdd X fx j v a = rneF q qd qdd Y fy j v a) :
    ∀ (pre : List Segment) (fp : List Wrench) (j : ℕ) (v a : Twist), fp.length = pre.length →
      rneF q qd qdd (pre ++ X) (fp ++ fx) j v a = rneF q qd qdd (pre ++ Y) (fp ++ fy) j v a := by
  intro pre
  induction pre with
  | nil =>
    intro fp j v a hl
    have : fp = [] := List.length_eq_zero_iff.mp hl
    subst this; exact h j v a
  | cons s pre ih =>
    intro fp j v a hl
    cases fp with
    | nil => simp at hl
    | cons w fp =>
      simp only [List.length_cons, add_left_inj] at hl
      simp only [List.cons_append, rneF]
      rw [ih fp _ _ _ hl]

theorem lump_rneF (q qd qdd : ℕ → ℝ) {s f : Segment} (hs : s.Valid) (hf : f.Valid) (hfix : f.joint.type = .Fixed)
    (post : List Segment) (ws wf : Wrench) (fp : List Wrench) (j : ℕ) (v a : Twist) :
    rneF q qd qdd (s :: f :: post) (ws :: wf :: fp) j v a =
      rneF q qd qdd (lump s f :: post) (lumpWrench f ws wf :: fp) j v a := by
  have hnx : ∀ j, nx f j = j := fun j => by unfold nx; rw [if_neg (fixed_not_moving hfix)]
  have hX : ∀ j, Xs q f j = f.f_tip := fun j => fixed_pose hfix _
  have e : Xs q (lump s f) j = Xs q s j * f.f_tip := lump_pose s f _
  have enx : nx (lump s f) j = nx s j := rfl
  have hp : (Xs q s j).IsProper := Segment.isProper_pose hs (qv s q j)
  simp only [rneF, hnx, hX, fixed_up hfix, fixed_ap hfix, lump_up hs, lump_ap hs hf, enx, lump_moving,
    if_neg (fixed_not_moving hfix), e, lump_Ss hs]
  generalize up q qd s j v = v'
  generalize ap q qd qdd s j v a = a'
  generalize rneF q qd qdd post fp (nx s j) (f.f_tip.invTwist v') (f.f_tip.invTwist a') = r
  have key : f.f_tip * (fl (lump s f) (f.f_tip.invTwist v') (f.f_tip.invTwist a') (lumpWrench f ws wf) + r.2) =
      fl s v' a' ws + f.f_tip * (fl f (f.f_tip.invTwist v') (f.f_tip.invTwist a') wf + r.2) := by
    rw [(C04_linear f.f_tip 0 0 0 _ _).2.2.1, (C04_linear f.f_tip 0 0 0 _ _).2.2.1, lump_fl hf.2, add_assoc]
  rw [(C04_wrench_action _ _ _ hp).1, key]
  congr 1
  have ed : (f.f_tip.invTwist (Ss q s j)).dot (fl (lump s f) (f.f_tip.invTwist v') (f.f_tip.invTwist a') (lumpWrench f ws wf) + r.2)
      = (Ss q s j).dot (fl s v' a' ws + f.f_tip * (fl f (f.f_tip.invTwist v') (f.f_tip.invTwist a') wf + r.2)) := by
    rw [← key, ← C04_power_frame _ hf.2, (C04_inverse_undoes _ _ 0 hf.2).2.1]
  rw [ed]
  rfl

theorem lump_fkF (q : ℕ → ℝ) {s f : Segment} (hfix : f.joint.type = .Fixed) (post : List Segment) (j : ℕ) :
    fkF q (s :: f :: post) j = fkF q (lump s f :: post) j := by
  simp only [fkF, if_neg (fixed_not_moving hfix), fixed_pose hfix, lump_moving, lump_pose, mul_assoc]

theorem lump_colsF (q : ℕ → ℝ) {s f : Segment} (hs : s.Valid) (hfix : f.joint.type = .Fixed) (post : List Segment)
    (j : ℕ) (T : Frame) (hT : T.IsProper) : colsF q (s :: f :: post) j T = colsF q (lump s f :: post) j T := by
  have hE := lump_fkF q (s := s) hfix post j
  conv_lhs => rw [colsF]
  conv_rhs => rw [colsF]
  rw [hE, lump_moving]
  split_ifs with hm
  · rw [colsF, if_neg (fixed_not_moving hfix), fixed_pose hfix, lump_pose, mul_assoc T]
    congr 1
    have hr : ∀ (t : Twist) (p : Vec), T.M * t.refPoint p = (T.M * t).refPoint (T.M * p) := fun t p => by
      ext1
      · simp [Rot.app_add, Rot.IsProper.cross (R := T.M) hT]
      · simp
    unfold Segment.twist
    rw [hr, hr, Twist.refPoint_refPoint, Twist.refPoint_refPoint]
    have e1 : (lump s f).joint = s.joint := rfl
    have e2 : (lump s f).f_tip = s.f_tip * f.f_tip := rfl
    rw [e1, e2]
    congr 1
    unfold Segment.pose
    generalize (T * fkF q (lump s f :: post) j).p = E
    generalize s.joint.pose (q j) = P
    ext <;> simp [Rot.mul_app] <;> ring
  · rw [colsF, if_neg (fixed_not_moving hfix), fixed_pose hfix, lump_pose, mul_assoc T]

theorem colsF_append_congr (q : ℕ → ℝ) {X Y : List Segment} (hn : ∀ j, fkF q X j = fkF q Y j)
    (h : ∀ j T, T.IsProper → colsF q X j T = colsF q Y j T) :
    ∀ (pre : List Segment) (j : ℕ) (T : Frame), (∀ s ∈ pre, s.Valid) → T.IsProper →
      colsF q (pre ++ X) j T = colsF q (pre ++ Y) j T := by
  intro pre
  induction pre with
  | nil => intro j T _ hT; exact h j T hT
  | cons s pre ih =>
    intro j T hp hT
    have h1 := hp s (by simp)
    have h2 : ∀ x ∈ pre, x.Valid := fun x hx => hp x (by simp [hx])
    have hk : fkF q (pre ++ X) (j + 1) = fkF q (pre ++ Y) (j + 1) := by rw [fkF_append, fkF_append, hn]
    simp only [List.cons_append, colsF, fkF, hk]
    split_ifs with hm
    · rw [ih _ _ h2 (hT.mul (Segment.isProper_pose h1 _))]
    · exact ih _ _ h2 (hT.mul (Segment.isProper_pose h1 _))

theorem nMoving_lump {s f : Segment} (hfix : f.joint.type = .Fixed) (pre post : List Segment) :
    nMoving (pre ++ s :: f :: post) = nMoving (pre ++ lump s f :: post) := by
  rw [nMoving_append, nMoving_append]
  simp only [nMoving_cons, if_neg (fixed_not_moving hfix), lump_moving, zero_add]
  rfl

theorem take_split (pre : List Segment) (s f : Segment) (post : List Segment) (k : ℕ) (hk : pre.length + 1 ≤ k) :
    (pre ++ s :: f :: post).take (k + 1) = pre ++ s :: f :: post.take (k - (pre.length + 1)) ∧
    (pre ++ s :: post).take k = pre ++ s :: post.take (k - (pre.length + 1)) := by
  obtain ⟨m, rfl⟩ := Nat.exists_eq_add_of_le hk
  have e1 : pre.length + 1 + m + 1 - pre.length = m + 1 + 1 := by omega
  have e2 : pre.length + 1 + m - pre.length = m + 1 := by omega
  have e3 : pre.length + 1 + m - (pre.length + 1) = m := by omega
  rw [List.take_append, List.take_append, List.take_of_length_le (l := pre) (by omega),
    List.take_of_length_le (l := pre) (by omega), e1, e2, e3]
  exact ⟨rfl, rfl⟩

theorem fkLoop_congr (q : List ℝ) {L L' : List Segment} (h : fkF (rd q) L 0 = fkF (rd q) L' 0)
    (hn : nMoving L = nMoving L') (hq : nMoving L ≤ q.length) (p : Frame) : fkLoop q L 0 p = fkLoop q L' 0 p := by
  rw [fkLoop_eq q L 0 p (by omega), fkLoop_eq q L' 0 p (by omega), h]

theorem FrameVel.ext' {a b : FrameVel} (h : a.getFrame = b.getFrame) (h' : a.getTwist = b.getTwist) : a = b := by
  obtain ⟨⟨R, w⟩, p, v⟩ := a
  obtain ⟨⟨R', w'⟩, p', v'⟩ := b
  simp only [FrameVel.getFrame, FrameVel.getTwist, Frame.mk.injEq, Twist.mk.injEq] at h h'
  obtain ⟨rfl, rfl⟩ := h
  obtain ⟨rfl, rfl⟩ := h'
  rfl

theorem fkVelLoop_congr (q qd : List ℝ) {L L' : List Segment} (h : fkF (rd q) L 0 = fkF (rd q) L' 0)
    (h2 : colsF (rd q) L 0 1 = colsF (rd q) L' 0 1)
    (hn : nMoving L = nMoving L') (hq : nMoving L ≤ q.length) (hqd : nMoving L ≤ qd.length) :
    fkVelLoop q qd L 0 (.ofFrame 1) = fkVelLoop q qd L' 0 (.ofFrame 1) := by
  rw [fkVelLoop_eq q qd L 0 _ (by omega) (by omega), fkVelLoop_eq q qd L' 0 _ (by omega) (by omega)]
  congr 1
  obtain ⟨a1, a2⟩ := fkVelF_twist (rd q) (rd qd) L 0 (.ofFrame 1)
  obtain ⟨b1, b2⟩ := fkVelF_twist (rd q) (rd qd) L' 0 (.ofFrame 1)
  have e1 : (FrameVel.ofFrame 1).getFrame = 1 := rfl
  refine FrameVel.ext' (by rw [a1, b1, h]) ?_
  rw [a2, b2, h, e1, h2]

theorem jacLoop_congr (q : List ℝ) (b : List Bool) {L L' : List Segment} (h : fkF (rd q) L 0 = fkF (rd q) L' 0)
    (h2 : colsF (rd q) L 0 1 = colsF (rd q) L' 0 1)
    (hn : nMoving L = nMoving L') (hq : nMoving L ≤ q.length) (hb : nMoving L ≤ b.length) (m : ℕ) (hm : nMoving L ≤ m) :
    jacLoop q b L 0 0 1 (List.replicate m 0) = jacLoop q b L' 0 0 1 (List.replicate m 0) := by
  have k := keep_length_le (fun i => b.getD i false) (colsF (rd q) L 0 1) 0
  rw [colsF_length] at k
  have e1 := jacLoop_eq q b L 0 1 [] m (by omega) (by omega) (by omega)
  have e2 := jacLoop_eq q b L' 0 1 [] m (by omega) (by omega) (by rw [← h2]; omega)
  rw [← h, ← h2] at e2
  exact e1.trans e2.symm

section
variable {c c' : Chain} {pre : List Segment} {s f : Segment} {post : List Segment} (hm : Merged c c' pre s f post)
include hm

theorem Merged.joints : c'.nrOfJoints = c.nrOfJoints := by
  rw [hm.wf.2, hm.wf'.2, hm.segs, hm.segs', nMoving_lump hm.fixed]
theorem Merged.count : c.nrOfSegments = c'.nrOfSegments + 1 ∧ c'.nrOfSegments = pre.length + 1 + post.length := by
  rw [hm.wf.1, hm.wf'.1, hm.segs, hm.segs']
  simp only [List.length_append, List.length_cons]
  omega

theorem Merged.lists (q : ℕ → ℝ) (k k' : ℕ)
    (hk : (k ≤ pre.length ∧ k' = k) ∨ (pre.length + 1 ≤ k' ∧ k = k' + 1)) :
    nMoving (c.segments.take k) = nMoving (c'.segments.take k') ∧
    fkF q (c.segments.take k) 0 = fkF q (c'.segments.take k') 0 ∧
    (c.Valid → colsF q (c.segments.take k) 0 1 = colsF q (c'.segments.take k') 0 1) := by
  rcases hk with ⟨h1, rfl⟩ | ⟨h1, rfl⟩
  · rw [hm.segs, hm.segs', List.take_append_of_le_length h1, List.take_append_of_le_length h1]
    exact ⟨rfl, rfl, fun _ => rfl⟩
  · obtain ⟨e1, _⟩ := take_split pre s f post k' h1
    obtain ⟨_, e2⟩ := take_split pre (lump s f) f post k' h1
    rw [hm.segs, hm.segs', e1, e2]
    refine ⟨nMoving_lump hm.fixed _ _, ?_, fun hv => ?_⟩
    · rw [fkF_append, fkF_append, lump_fkF q hm.fixed]
    · have hv' : ∀ x ∈ pre ++ s :: f :: post, x.Valid := by have := hv; unfold Chain.Valid at this; rwa [hm.segs] at this
      exact colsF_append_congr q (fun j => lump_fkF q hm.fixed _ j)
        (fun j T hT => lump_colsF q (hv' s (by simp)) hm.fixed _ j T hT) pre 0 1 (fun x hx => hv' x (by simp [hx]))
        Frame.IsProper.one

theorem Merged.valid' (hv : c.Valid) : c'.Valid := by
  have hv' : ∀ x ∈ pre ++ s :: f :: post, x.Valid := by have := hv; unfold Chain.Valid at this; rwa [hm.segs] at this
  intro x hx
  rw [hm.segs'] at hx
  simp only [List.mem_append, List.mem_cons] at hx
  rcases hx with hx | rfl | hx
  · exact hv' x (by simp [hx])
  · exact lump_valid (hv' s (by simp)) (hv' f (by simp))
  · exact hv' x (by simp [hx])

theorem Merged.symm' (hv : c.Valid) (hI : c.SymmI) : c'.SymmI := by
  have hv' : ∀ x ∈ pre ++ s :: f :: post, x.Valid := by have := hv; unfold Chain.Valid at this; rwa [hm.segs] at this
  have hI' : ∀ x ∈ pre ++ s :: f :: post, x.I.I.tr = x.I.I := by
    have := hI; unfold Chain.SymmI at this; rwa [hm.segs] at this
  intro x hx
  rw [hm.segs'] at hx
  simp only [List.mem_append, List.mem_cons] at hx
  rcases hx with hx | rfl | hx
  · exact hI' x (by simp [hx])
  · have hi := (hv' f (by simp)).2.inv
    have z := fun (i : RBI) (h : i.I.tr = i.I) => (C38_symm ⟨1, 1, 1⟩ ⟨1, 1, 1⟩ ⟨rfl, rfl⟩ ⟨rfl, rfl⟩ 0 0 1 1 i h).2.2.2.2.2.2
    have s1 := (C38_symm _ ⟨1, 1, 1⟩ (z s.I (hI' s (by simp))) ⟨rfl, rfl⟩ 0 0 1 f.f_tip.inv s.I (hI' s (by simp))).2.2.2.2.2.1
    rw [← (C38_ofRBI_ops s.I s.I 0 0 1 Rot.IsProper.one _ hi).2.2.2.2] at s1
    have s2 := (C38_symm _ _ s1 (z f.I (hI' f (by simp))) 0 0 1 1 f.I (hI' f (by simp))).1
    rw [← (C38_ofRBI_ops (f.f_tip.inv * s.I) f.I 0 0 1 Rot.IsProper.one _ hi).1] at s2
    exact s2.2
  · exact hI' x (by simp [hx])

/-! ### C103: merging a fixed segment with the one before it -/

/-- The position of every segment (but the one that has disappeared) is the same, and so are the error codes. -/
theorem C103_position (q : List ℝ) :
    fkPos c q (-1) = fkPos c' q (-1) ∧ (∀ k : ℕ, k ≤ pre.length → fkPos c q k = fkPos c' q k) ∧
    ∀ k : ℕ, pre.length + 1 ≤ k → fkPos c q ((k + 1 : ℕ) : ℤ) = fkPos c' q k := by
  have main : ∀ z z' : ℤ, ((segmentNr c z ≤ pre.length ∧ segmentNr c' z' = segmentNr c z) ∨
      (pre.length + 1 ≤ segmentNr c' z' ∧ segmentNr c z = segmentNr c' z' + 1)) → fkPos c q z = fkPos c' q z' := by
    intro z z' h
    obtain ⟨e1, e2, -⟩ := hm.lists (rd q) _ _ h
    obtain ⟨n1, n2⟩ := hm.count
    have hb : nMoving (c.segments.take (segmentNr c z)) ≤ c.nrOfJoints := by rw [hm.wf.2]; exact nMoving_take_le _ _
    unfold fkPos
    dsimp only
    rw [hm.joints]
    by_cases hq : q.length = c.nrOfJoints
    · rw [if_neg (not_not.mpr hq), if_neg (not_not.mpr hq), fkLoop_congr q e2 e1 (by omega)]
      by_cases hk : segmentNr c z > c.nrOfSegments
      · rw [if_pos hk, if_pos (by omega)]
      · rw [if_neg hk, if_neg (by omega)]
    · rw [if_pos hq, if_pos hq]
  obtain ⟨n1, n2⟩ := hm.count
  refine ⟨main _ _ (.inr ?_), fun k hk => main _ _ (.inl ?_), fun k hk => main _ _ (.inr ?_)⟩
  · unfold segmentNr; rw [if_pos (by norm_num), if_pos (by norm_num)]; omega
  · unfold segmentNr; rw [if_neg (by omega), if_neg (by omega)]; omega
  · unfold segmentNr; rw [if_neg (by omega), if_neg (by omega)]; omega

/-- The velocities are the same. -/
theorem C103_velocity (hv : c.Valid) (q qd : List ℝ) :
    fkVel c q qd (-1) = fkVel c' q qd (-1) ∧ (∀ k : ℕ, k ≤ pre.length → fkVel c q qd k = fkVel c' q qd k) ∧
    ∀ k : ℕ, pre.length + 1 ≤ k → fkVel c q qd ((k + 1 : ℕ) : ℤ) = fkVel c' q qd k := by
  have main : ∀ z z' : ℤ, ((segmentNr c z ≤ pre.length ∧ segmentNr c' z' = segmentNr c z) ∨
      (pre.length + 1 ≤ segmentNr c' z' ∧ segmentNr c z = segmentNr c' z' + 1)) → fkVel c q qd z = fkVel c' q qd z' := by
    intro z z' h
    obtain ⟨e1, e2, e3⟩ := hm.lists (rd q) _ _ h
    obtain ⟨n1, n2⟩ := hm.count
    have hb : nMoving (c.segments.take (segmentNr c z)) ≤ c.nrOfJoints := by rw [hm.wf.2]; exact nMoving_take_le _ _
    unfold fkVel
    dsimp only
    rw [hm.joints]
    by_cases hq : q.length = c.nrOfJoints ∧ qd.length = c.nrOfJoints
    · rw [if_neg (not_not.mpr hq), if_neg (not_not.mpr hq),
        fkVelLoop_congr q qd e2 (e3 hv) e1 (by omega) (by omega)]
      by_cases hk : segmentNr c z > c.nrOfSegments
      · rw [if_pos hk, if_pos (by omega)]
      · rw [if_neg hk, if_neg (by omega)]
    · rw [if_pos hq, if_pos hq]
  obtain ⟨n1, n2⟩ := hm.count
  refine ⟨main _ _ (.inr ?_), fun k hk => main _ _ (.inl ?_), fun k hk => main _ _ (.inr ?_)⟩
  · unfold segmentNr; rw [if_pos (by norm_num), if_pos (by norm_num)]; omega
  · unfold segmentNr; rw [if_neg (by omega), if_neg (by omega)]; omega
  · unfold segmentNr; rw [if_neg (by omega), if_neg (by omega)]; omega

/-- The Jacobians are the same, for any locked joints. -/
theorem C103_jacobian (hv : c.Valid) (locked : List Bool) (q : List ℝ) (J : Jac) :
    jntToJac c locked q J (-1) = jntToJac c' locked q J (-1) ∧
    (∀ k : ℕ, k ≤ pre.length → jntToJac c locked q J k = jntToJac c' locked q J k) ∧
    ∀ k : ℕ, pre.length + 1 ≤ k → jntToJac c locked q J ((k + 1 : ℕ) : ℤ) = jntToJac c' locked q J k := by
  have main : ∀ z z' : ℤ, ((segmentNr c z ≤ pre.length ∧ segmentNr c' z' = segmentNr c z) ∨
      (pre.length + 1 ≤ segmentNr c' z' ∧ segmentNr c z = segmentNr c' z' + 1)) →
      jntToJac c locked q J z = jntToJac c' locked q J z' := by
    intro z z' h
    obtain ⟨e1, e2, e3⟩ := hm.lists (rd q) _ _ h
    obtain ⟨n1, n2⟩ := hm.count
    have hb : nMoving (c.segments.take (segmentNr c z)) ≤ c.nrOfJoints := by rw [hm.wf.2]; exact nMoving_take_le _ _
    unfold jntToJac
    dsimp only
    rw [hm.joints]
    by_cases hl : locked.length = c.nrOfJoints
    · rw [if_neg (not_not.mpr hl), if_neg (not_not.mpr hl)]
      by_cases hq : q.length = c.nrOfJoints ∧ J.length = c.nrOfJoints
      · have hz : J.setToZero = List.replicate c.nrOfJoints 0 := by simp [Jac.setToZero, hq.2]
        have hq' : ¬ (q.length ≠ c.nrOfJoints ∨ J.length ≠ c.nrOfJoints) := by tauto
        rw [if_neg hq', if_neg hq', hz,
          jacLoop_congr q locked e2 (e3 hv) e1 (by omega) (by omega) _ hb]
        by_cases hk : segmentNr c z > c.nrOfSegments
        · rw [if_pos hk, if_pos (by omega)]
        · rw [if_neg hk, if_neg (by omega)]
      · have hq' : q.length ≠ c.nrOfJoints ∨ J.length ≠ c.nrOfJoints := by tauto
        rw [if_pos hq', if_pos hq']
    · rw [if_pos hl, if_pos hl]
  obtain ⟨n1, n2⟩ := hm.count
  refine ⟨main _ _ (.inr ?_), fun k hk => main _ _ (.inl ?_), fun k hk => main _ _ (.inr ?_)⟩
  · unfold segmentNr; rw [if_pos (by norm_num), if_pos (by norm_num)]; omega
  · unfold segmentNr; rw [if_neg (by omega), if_neg (by omega)]; omega
  · unfold segmentNr; rw [if_neg (by omega), if_neg (by omega)]; omega

/-- The inverse dynamics needs the same torques, when the wrenches on the two segments are added up. -/
theorem C103_inverse (hv : c.Valid) (grav : Vec) (q qd qdd τ0 : List ℝ) (fp fq : List Wrench) (ws wf : Wrench)
    (hp : fp.length = pre.length) (hr : fq.length = post.length)
    (hq : q.length = c.nrOfJoints) (hqd : qd.length = c.nrOfJoints) (hqdd : qdd.length = c.nrOfJoints)
    (hτ : τ0.length = c.nrOfJoints) :
    ∃ τ, τ.length = c.nrOfJoints ∧
      idRne c c.nrOfJoints c.nrOfSegments grav q qd qdd (fp ++ ws :: wf :: fq) τ0 = some (E_NOERROR, τ) ∧
      idRne c' c'.nrOfJoints c'.nrOfSegments grav q qd qdd (fp ++ lumpWrench f ws wf :: fq) τ0 = some (E_NOERROR, τ) := by
  have hv' : ∀ x ∈ pre ++ s :: f :: post, x.Valid := by have := hv; unfold Chain.Valid at this; rwa [hm.segs] at this
  obtain ⟨n1, n2⟩ := hm.count
  have hj := hm.joints
  have l1 : (fp ++ ws :: wf :: fq).length = c.nrOfSegments := by simp; omega
  have l2 : (fp ++ lumpWrench f ws wf :: fq).length = c'.nrOfSegments := by simp; omega
  refine ⟨_, ?_, idRne_eq c hm.wf grav q qd qdd _ τ0 hq hqd hqdd hτ l1, ?_⟩
  · rw [rneF_length _ _ _ _ _ _ _ _ (by rw [l1, hm.wf.1]), hm.wf.2]
  rw [idRne_eq c' hm.wf' grav q qd qdd _ τ0 (by omega) (by omega) (by omega) (by omega) l2, hm.segs, hm.segs',
    rneF_append_congr (rd q) (rd qd) (rd qdd)
      (fun j v a => lump_rneF (rd q) (rd qd) (rd qdd) (hv' s (by simp)) (hv' f (by simp)) hm.fixed post ws wf fq j v a)
      pre fp 0 0 _ hp]

omit hm in
theorem lumpWrench_zero (f : Segment) : lumpWrench f 0 0 = 0 := by unfold lumpWrench; ext <;> simp

theorem Merged.quiet :
    List.replicate c.nrOfSegments (0 : Wrench) = List.replicate pre.length 0 ++ 0 :: 0 :: List.replicate post.length 0 ∧
    List.replicate c'.nrOfSegments (0 : Wrench) =
      List.replicate pre.length 0 ++ lumpWrench f 0 0 :: List.replicate post.length 0 := by
  obtain ⟨n1, n2⟩ := hm.count
  have e1 : c.nrOfSegments = pre.length + (post.length + 1 + 1) := by omega
  have e2 : c'.nrOfSegments = pre.length + (post.length + 1) := by omega
  rw [e1, e2, lumpWrench_zero, List.replicate_add pre.length (post.length + 1 + 1), List.replicate_add pre.length (post.length + 1)]
  exact ⟨rfl, rfl⟩

/-- The Coriolis and the gravity torques of `ChainDynParam` are the same. -/
theorem C103_coriolis_gravity (hv : c.Valid) (grav : Vec) (q qd C0 : List ℝ)
    (hq : q.length = c.nrOfJoints) (hqd : qd.length = c.nrOfJoints) (hC : C0.length = c.nrOfJoints) :
    ∃ C G, (DynState.new c grav).coriolis c q qd C0 = some (E_NOERROR, C) ∧
      (DynState.new c' grav).coriolis c' q qd C0 = some (E_NOERROR, C) ∧
      (DynState.new c grav).gravity c q C0 = some (E_NOERROR, G) ∧
      (DynState.new c' grav).gravity c' q C0 = some (E_NOERROR, G) := by
  have hz : (List.replicate c.nrOfJoints (0:ℝ)).length = c.nrOfJoints := by simp
  obtain ⟨w1, w2⟩ := hm.quiet
  have hj := hm.joints
  obtain ⟨C, -, a1, a2⟩ := C103_inverse hm hv 0 q qd (List.replicate c.nrOfJoints 0) C0 (List.replicate pre.length 0)
    (List.replicate post.length 0) 0 0 (by simp) (by simp) hq hqd hz hC
  obtain ⟨G, -, b1, b2⟩ := C103_inverse hm hv grav q (List.replicate c.nrOfJoints 0) (List.replicate c.nrOfJoints 0) C0
    (List.replicate pre.length 0) (List.replicate post.length 0) 0 0 (by simp) (by simp) hq hz hz hC
  rw [← w1] at a1 b1
  rw [← w2] at a2 b2
  refine ⟨C, G, a1, ?_, b1, ?_⟩
  · rw [← hj] at a2; exact a2
  · rw [← hj] at b2; exact b2

/-- The mass matrices are the same. -/
theorem C103_mass (hv : c.Valid) (hI : c.SymmI) (grav : Vec) (q : List ℝ) (H0 : JMat)
    (hq : q.length = c.nrOfJoints) (hH : H0.n = c.nrOfJoints) :
    ∃ H H', (DynState.new c grav).mass c q H0 = some (E_NOERROR, H) ∧
      (DynState.new c' grav).mass c' q H0 = some (E_NOERROR, H') ∧ H.n = c.nrOfJoints ∧ H'.n = c.nrOfJoints ∧
      ∀ k < c.nrOfJoints, ∀ l < c.nrOfJoints, H.d k l = H'.d k l := by
  have hj := hm.joints
  have hz : (List.replicate c.nrOfJoints (0:ℝ)).length = c.nrOfJoints := by simp
  have hz0 : ∀ l, (List.replicate c.nrOfJoints (0:ℝ)).getD l 0 = 0 := fun l => by
    simp only [List.getD_eq_getElem?_getD, List.getElem?_replicate]; split_ifs <;> rfl
  have hv' := hm.valid' hv
  have hI' := hm.symm' hv hI
  obtain ⟨w1, w2⟩ := hm.quiet
  have D := fun qdd (h : List.length qdd = c.nrOfJoints) => C39_decomposition c hm.wf hv hI grav q
    (List.replicate c.nrOfJoints 0) qdd (List.replicate c.nrOfSegments 0) (List.replicate c.nrOfJoints 0)
    (List.replicate c.nrOfJoints 0) (List.replicate c.nrOfJoints 0) H0 hq hz h (by simp) hz hz hz hH
  have D' := fun qdd (h : List.length qdd = c'.nrOfJoints) => C39_decomposition c' hm.wf' hv' hI' grav q
    (List.replicate c.nrOfJoints 0) qdd (List.replicate c'.nrOfSegments 0) (List.replicate c.nrOfJoints 0)
    (List.replicate c.nrOfJoints 0) (List.replicate c.nrOfJoints 0) H0 (by omega) (by omega) h (by simp) (by omega) (by omega)
    (by omega) (by omega)
  have E := fun qdd (h : List.length qdd = c.nrOfJoints) => C103_inverse hm hv grav q (List.replicate c.nrOfJoints 0) qdd
    (List.replicate c.nrOfJoints 0) (List.replicate pre.length 0) (List.replicate post.length 0) 0 0 (by simp) (by simp)
    hq hz h hz
  rw [← w1, ← w2] at E
  obtain ⟨τ, H, C, G, a1, a2, a3, a4, -, -, -, a8, a9⟩ := D _ hz
  obtain ⟨τ', H', C', G', b1, b2, b3, b4, -, -, -, b8, b9⟩ := D' (List.replicate c.nrOfJoints 0) (by omega)
  refine ⟨H, H', a2, b2, a8, by omega, fun k hk l hl => ?_⟩
  have hu : (unitJnt c.nrOfJoints l).length = c.nrOfJoints := unitJnt_length _ _
  obtain ⟨σ, K, C1, G1, c1, c2, c3, c4, -, -, -, -, c9⟩ := D _ hu
  obtain ⟨σ', K', C1', G1', d1, d2, d3, d4, -, -, -, -, d9⟩ := D' (unitJnt c.nrOfJoints l) (by omega)
  rw [a2] at c2; cases c2
  rw [a3] at c3; cases c3
  rw [a4] at c4; cases c4
  rw [b2] at d2; cases d2
  rw [b3] at d3; cases d3
  rw [b4] at d4; cases d4
  obtain ⟨x, -, x1, x2⟩ := E _ hz
  rw [a1] at x1; cases x1
  rw [b1] at x2; cases x2
  obtain ⟨y, -, y1, y2⟩ := E _ hu
  rw [c1] at y1; cases y1
  rw [d1] at y2; cases y2
  have u : ∀ A : ℕ → ℝ, ∑ m ∈ range c.nrOfJoints, A m * (unitJnt c.nrOfJoints l).getD m 0 = A l := by
    intro A
    rw [sum_eq_single l]
    · have := congrFun (rd_unitJnt c.nrOfJoints l hl) l
      simp only [rd, unitRate] at this
      rw [this]; simp
    · intro m _ hne
      have := congrFun (rd_unitJnt c.nrOfJoints l hl) m
      simp only [rd, unitRate] at this
      rw [this]; simp [hne]
    · intro h; exact absurd (mem_range.mpr hl) h
  have p1 := a9 k hk
  have p2 := c9 k hk
  have p3 := b9 k (by omega)
  have p4 := d9 k (by omega)
  rw [hj] at p3 p4
  simp only [u] at p2 p4
  simp only [hz0, mul_zero, sum_const_zero] at p1 p3
  linarith

/-- Merging keeps the bodies physical: a chain whose joints all carry mass still does. -/
theorem C103_massive (hv : c.Valid) (hM : c.Massive) : c'.Massive := by
  have hv' : ∀ x ∈ pre ++ s :: f :: post, x.Valid := by have := hv; unfold Chain.Valid at this; rwa [hm.segs] at this
  have hi := (hv' f (by simp)).2.inv
  have hf := (hv' f (by simp)).2
  obtain ⟨h1, h2⟩ := hM
  rw [hm.segs] at h1 h2
  have en : ∀ t : Twist, t.dot ((lump s f).I * t) =
      (f.f_tip * t).dot (s.I * (f.f_tip * t)) + t.dot (f.I * t) := by
    intro t
    have e := C37_energy_frame _ hi s.I (f.f_tip * t)
    rw [← (C04_inverse_overloads _ (f.f_tip * t) 0 hf).1, (C04_inverse_undoes _ t 0 hf).1] at e
    rw [← e]
    have e2 : (lump s f).I * t = (f.f_tip.inv * s.I) * t + f.I * t := (C37_linear _ _ 0 0 t).1
    rw [e2]
    simp only [Twist.dot, Vec.dot, Wrench.add_force, Wrench.add_torque, Vec.add_x, Vec.add_y, Vec.add_z]
    ring
  have tz : ∀ t : Twist, t ≠ 0 → f.f_tip * t ≠ 0 := by
    intro t ht h0
    have := (C04_inverse_undoes _ t 0 hf).1
    rw [h0, Frame.invTwist_zero] at this
    exact ht this.symm
  refine ⟨fun x hx => ?_, ?_⟩
  · rw [hm.segs'] at hx
    simp only [List.mem_append, List.mem_cons] at hx
    rcases hx with hx | rfl | hx
    · exact h1 x (by simp [hx])
    · refine ⟨fun t => ?_, (h1 s (by simp)).2⟩
      rw [en]
      exact add_nonneg ((h1 s (by simp)).1 _) ((h1 f (by simp)).1 _)
    · exact h1 x (by simp [hx])
  · rcases h2 with h2 | h2
    · left
      intro x hx hmv
      rw [hm.segs'] at hx
      simp only [List.mem_append, List.mem_cons] at hx
      rcases hx with hx | rfl | hx
      · exact h2 x (by simp [hx]) hmv
      · exact h2 s (by simp) hmv
      · exact h2 x (by simp [hx]) hmv
    · right
      intro x hx hmv
      rw [hm.segs'] at hx
      simp only [List.mem_append, List.mem_cons] at hx
      rcases hx with hx | rfl | hx
      · exact h2 x (by simp [hx]) hmv
      · obtain ⟨p1, p2⟩ := h2 s (by simp) hmv
        refine ⟨fun t ht => ?_, p2⟩
        rw [en]
        exact add_pos_of_pos_of_nonneg (p1 _ (tz t ht)) ((h1 f (by simp)).1 _)
      · exact h2 x (by simp [hx]) hmv

/-- Forward dynamics: the accelerations found for the chain with the separate fixed segment are those found for the merged
one, whatever the output and the work arrays held before. -/
theorem C103_forward (hv : c.Valid) (hI : c.SymmI) (hM : c'.Massive) (grav : Vec) (q qd τ qdd0 : List ℝ)
    (fp fq : List Wrench) (ws wf : Wrench) (hp : fp.length = pre.length) (hr : fq.length = post.length)
    (hq : q.length = c.nrOfJoints) (hqd : qd.length = c.nrOfJoints) (hqdd : qdd0.length = c.nrOfJoints)
    (hτ : τ.length = c.nrOfJoints) (H0 : ℕ → ℕ → ℝ) (T0 : ℕ → ℝ) (L0 : LDL) (r0 x0 : ℕ → ℝ) (code : Int) (qdd : List ℝ)
    (h : fdRne (.new c grav) c q qd τ (fp ++ ws :: wf :: fq) qdd0 H0 T0 L0 r0 x0 = some (.ret code qdd)) :
    fdRne (.new c' grav) c' q qd τ (fp ++ lumpWrench f ws wf :: fq) qdd0 H0 T0 L0 r0 x0 = some (.ret E_NOERROR qdd) := by
  obtain ⟨n1, n2⟩ := hm.count
  have hj := hm.joints
  have l1 : (fp ++ ws :: wf :: fq).length = c.nrOfSegments := by simp; omega
  have l2 : (fp ++ lumpWrench f ws wf :: fq).length = c'.nrOfSegments := by simp; omega
  obtain ⟨-, hl, hid⟩ := C42_id_of_fd c hm.wf hv hI grav q qd τ _ qdd0 τ H0 T0 L0 r0 x0 hq hqd hqdd hτ l1 hτ code qdd h
  obtain ⟨σ, -, s1, s2⟩ := C103_inverse hm hv grav q qd qdd τ fp fq ws wf hp hr hq hqd hl hτ
  rw [hid] at s1; cases s1
  obtain ⟨σ, t1, t2⟩ := C42_fd_of_id c' hm.wf' (hm.valid' hv) (hm.symm' hv hI) hM grav q qd qdd _ qdd0 τ H0 T0 L0 r0 x0
    (by omega) (by omega) (by omega) (by omega) l2 (by omega)
  rw [s2] at t1; cases t1
  exact t2

end

/-! ### C103: a fixed segment at the base -/

theorem base_fkF (q : ℕ → ℝ) {b : Segment} (hfix : b.joint.type = .Fixed) (L : List Segment) (j : ℕ) :
    fkF q (b :: L) j = b.f_tip * fkF q L j := by
  simp only [fkF, if_neg (fixed_not_moving hfix), fixed_pose hfix]

theorem colsF_rotate (q : ℕ → ℝ) : ∀ (L : List Segment) (j : ℕ) (B T : Frame), B.IsProper →
    colsF q L j (B * T) = (colsF q L j T).map (fun t : Twist => B.M * t) := by
  intro L
  induction L with
  | nil => intro j B T _; rfl
  | cons s L ih =>
    intro j B T hB
    have hr : ∀ (t : Twist) (p : Vec), B.M * t.refPoint p = (B.M * t).refPoint (B.M * p) := fun t p => by
      ext1
      · simp [Rot.app_add, Rot.IsProper.cross (R := B.M) hB]
      · simp
    have e1 : ∀ t : Twist, (B * T).M * t = B.M * (T.M * t) := fun t => by ext1 <;> simp [Rot.mul_app]
    have e2 : ∀ X Y : Frame, (B * X).p - (B * Y).p = B.M * (X.p - Y.p) := fun X Y => by
      simp only [Frame.mul_p, Rot.app_sub]
      ext <;> simp
    simp only [colsF, mul_assoc B, ih _ B _ hB]
    split_ifs with hm
    · rw [List.map_cons, e1, e2, hr]
    · rfl

theorem keep_map {α β : Type} (g : α → β) (p : ℕ → Bool) : ∀ (l : List α) (j : ℕ),
    keep p (l.map g) j = (keep p l j).map g := by
  intro l
  induction l with
  | nil => intro j; rfl
  | cons a l ih =>
    intro j
    simp only [List.map_cons, keep, ih]
    split_ifs <;> rfl

section
variable {c c' : Chain} {b : Segment} (hc : c.WF) (hc' : c'.WF) (hs : c'.segments = b :: c.segments)
  (hfix : b.joint.type = .Fixed)
include hc hc' hs hfix

theorem base_counts : c'.nrOfJoints = c.nrOfJoints ∧ c'.nrOfSegments = c.nrOfSegments + 1 := by
  rw [hc.1, hc.2, hc'.1, hc'.2, hs, nMoving_cons, if_neg (fixed_not_moving hfix)]
  simp

/-- A fixed segment before the first one places the whole chain: every frame is multiplied by its tip frame. -/
theorem C103_base_position (q : List ℝ) (k : ℤ) (F : Frame) (h : fkPos c q k = some (E_NOERROR, F)) :
    fkPos c' q (if k < 0 then k else k + 1) = some (E_NOERROR, b.f_tip * F) := by
  obtain ⟨n1, n2⟩ := base_counts hc hc' hs hfix
  have hsn : segmentNr c' (if k < 0 then k else k + 1) = segmentNr c k + 1 := by
    unfold segmentNr
    by_cases hk : k < 0
    · rw [if_pos hk, if_pos hk, if_pos hk]; omega
    · rw [if_neg hk, if_neg hk, if_neg (by omega)]; omega
  have hb : nMoving (c.segments.take (segmentNr c k)) ≤ c.nrOfJoints := by rw [hc.2]; exact nMoving_take_le _ _
  unfold fkPos at h ⊢
  dsimp only at h ⊢
  rw [hsn, n1, n2, hs, List.take_succ_cons]
  by_cases hq : q.length = c.nrOfJoints
  · by_cases hk : segmentNr c k > c.nrOfSegments
    · rw [if_neg (not_not.mpr hq), if_pos hk] at h
      simp [E_NOERROR, E_OUT_OF_RANGE] at h
    · rw [if_neg (not_not.mpr hq), if_neg hk, fkLoop_eq q _ 0 1 (by omega)] at h
      simp only [Option.bind_eq_bind, Option.bind_some, one_mul, Option.some.injEq, Prod.mk.injEq, true_and] at h
      have hb' : nMoving (b :: c.segments.take (segmentNr c k)) = nMoving (c.segments.take (segmentNr c k)) := by
        rw [nMoving_cons, if_neg (fixed_not_moving hfix)]
      rw [if_neg (not_not.mpr hq), if_neg (by omega), fkLoop_eq q _ 0 1 (by omega), base_fkF _ hfix, h]
      simp only [Option.bind_eq_bind, Option.bind_some, one_mul]
  · rw [if_pos hq] at h
    simp [E_NOERROR, E_SIZE_MISMATCH] at h

/-- … every column of the Jacobian is turned by its rotation … -/
theorem C103_base_jacobian (hb : b.Valid) (locked : List Bool) (q : List ℝ) (J0 J : Jac) (k : ℤ)
    (h : jntToJac c locked q J0 k = some (E_NOERROR, J)) :
    jntToJac c' locked q J0 (if k < 0 then k else k + 1) = some (E_NOERROR, J.map (fun t : Twist => b.f_tip.M * t)) := by
  obtain ⟨n1, n2⟩ := base_counts hc hc' hs hfix
  have hsn : segmentNr c' (if k < 0 then k else k + 1) = segmentNr c k + 1 := by
    unfold segmentNr
    by_cases hk : k < 0
    · rw [if_pos hk, if_pos hk, if_pos hk]; omega
    · rw [if_neg hk, if_neg hk, if_neg (by omega)]; omega
  have hb2 : nMoving (c.segments.take (segmentNr c k)) ≤ c.nrOfJoints := by rw [hc.2]; exact nMoving_take_le _ _
  unfold jntToJac at h ⊢
  dsimp only at h ⊢
  rw [hsn, n1, n2, hs, List.take_succ_cons]
  by_cases hl : locked.length = c.nrOfJoints
  swap
  · rw [if_pos hl] at h
    simp [E_NOERROR, E_NOT_UP_TO_DATE] at h
  by_cases hq : q.length ≠ c.nrOfJoints ∨ J0.length ≠ c.nrOfJoints
  · rw [if_neg (not_not.mpr hl), if_pos hq] at h
    simp [E_NOERROR, E_SIZE_MISMATCH] at h
  by_cases hk : segmentNr c k > c.nrOfSegments
  · rw [if_neg (not_not.mpr hl), if_neg hq, if_pos hk] at h
    simp [E_NOERROR, E_OUT_OF_RANGE] at h
  obtain ⟨hq1, hq2⟩ : q.length = c.nrOfJoints ∧ J0.length = c.nrOfJoints := by tauto
  have hz : J0.setToZero = [] ++ List.replicate c.nrOfJoints 0 := by simp [Jac.setToZero, hq2]
  have hb' : nMoving (b :: c.segments.take (segmentNr c k)) = nMoving (c.segments.take (segmentNr c k)) := by
    rw [nMoving_cons, if_neg (fixed_not_moving hfix)]
  have ec : colsF (rd q) (b :: c.segments.take (segmentNr c k)) 0 1 =
      (colsF (rd q) (c.segments.take (segmentNr c k)) 0 1).map (fun t : Twist => b.f_tip.M * t) := by
    rw [colsF, if_neg (fixed_not_moving hfix), fixed_pose hfix, one_mul, ← colsF_rotate _ _ _ _ _ hb.2, mul_one]
  have kl := keep_length_le (fun i => locked.getD i false) (colsF (rd q) (c.segments.take (segmentNr c k)) 0 1) 0
  rw [colsF_length] at kl
  have e1 := jacLoop_eq q locked (c.segments.take (segmentNr c k)) 0 1 [] c.nrOfJoints (by omega) (by omega) (by omega)
  have e2 := jacLoop_eq q locked (b :: c.segments.take (segmentNr c k)) 0 1 [] c.nrOfJoints (by omega) (by omega)
    (by rw [ec, keep_map, List.length_map]; omega)
  simp only [List.length_nil] at e1 e2
  rw [if_neg (not_not.mpr hl), if_neg hq, if_neg hk, hz, e1] at h
  rw [if_neg (not_not.mpr hl), if_neg hq, if_neg (by omega), hz, e2]
  simp only [Option.bind_eq_bind, Option.bind_some, Option.some.injEq, Prod.mk.injEq, true_and] at h ⊢
  rw [← h, ec, keep_map, List.length_map, List.map_append, List.map_append, List.map_replicate]
  have e0 : b.f_tip.M * (0 : Twist) = 0 := by ext <;> simp
  rw [e0]
  rfl

/-- … and the torques are those of the chain alone in the gravity seen from its own base; the inertia of the fixed segment
and the wrench on it do not matter. -/
theorem C103_base_inverse (hb : b.Valid) (grav : Vec) (q qd qdd τ0 : List ℝ) (fext : List Wrench) (wb : Wrench)
    (hq : q.length = c.nrOfJoints) (hqd : qd.length = c.nrOfJoints) (hqdd : qdd.length = c.nrOfJoints)
    (hτ : τ0.length = c.nrOfJoints) (hf : fext.length = c.nrOfSegments) :
    ∃ τ, idRne c c.nrOfJoints c.nrOfSegments (b.f_tip.M.inv * grav) q qd qdd fext τ0 = some (E_NOERROR, τ) ∧
      idRne c' c'.nrOfJoints c'.nrOfSegments grav q qd qdd (wb :: fext) τ0 = some (E_NOERROR, τ) := by
  obtain ⟨n1, n2⟩ := base_counts hc hc' hs hfix
  refine ⟨_, idRne_eq c hc _ q qd qdd _ τ0 hq hqd hqdd hτ hf, ?_⟩
  rw [idRne_eq c' hc' grav q qd qdd _ τ0 (by omega) (by omega) (by omega) (by omega) (by simp; omega), hs]
  have hnx : nx b 0 = 0 := by unfold nx; rw [if_neg (fixed_not_moving hfix)]
  have ea : b.f_tip.invTwist (-⟨grav, 0⟩) = -⟨b.f_tip.M.inv * grav, 0⟩ := by
    rw [(C04_inverse_overloads _ _ 0 hb.2).1]
    ext <;> simp
    <;> ring
  simp only [rneF, hnx, fixed_up hfix, fixed_ap hfix, if_neg (fixed_not_moving hfix), Frame.invTwist_zero, ea]

end

/-! ### Examples -/

/-- The example chain ends in a fixed segment; merged with the one before it, it is a chain of two segments. -/
def exMerged : Chain := ⟨2, 2, [exLink "a" .RotZ, lump (exLink "b" .TransX) (exLink "c" .Fixed)]⟩
theorem exMerged_ok : Merged exChain exMerged [exLink "a" .RotZ] (exLink "b" .TransX) (exLink "c" .Fixed) [] :=
  ⟨exChain_ok.1, ⟨rfl, rfl⟩, rfl, rfl, rfl⟩
/-- The merged body has both masses, and its centre of gravity between the two. -/
example : (lump (exLink "b" .TransX) (exLink "c" .Fixed)).I.m = 2 ∧
    (lump (exLink "b" .TransX) (exLink "c" .Fixed)).I.getCOG = ⟨1 / 2, 0, 0⟩ := by
  have e : (⟨1, ⟨1, 0, 0⟩⟩ : Frame).inv * RBI.ofCog 1 ⟨1, 0, 0⟩ (rotationalInertia 1 1 1 0 0 0) =
      RBI.ofCog 1 ((⟨1, ⟨1, 0, 0⟩⟩ : Frame).inv * (⟨1, 0, 0⟩ : Vec)) _ :=
    (C37_parallel_axis _ (Frame.IsProper.inv (F := ⟨1, ⟨1, 0, 0⟩⟩) Rot.IsProper.one) 0 1 ⟨1, 0, 0⟩ _).2
  have e2 : (⟨1, ⟨1, 0, 0⟩⟩ : Frame).inv * (⟨1, 0, 0⟩ : Vec) = 0 := by
    rw [Frame.app_vec]; unfold Frame.inv; ext <;> simp [Rot.invVec, Rot.inv]
  unfold lump exLink
  dsimp only
  rw [e, e2, RBI.add_def]
  unfold RBI.getCOG RBI.ofCog
  refine ⟨by norm_num, ?_⟩
  dsimp only
  rw [if_neg (by norm_num)]
  ext <;> simp <;> norm_num
example (a b : ℝ) (w1 w2 w3 : Wrench) : ∃ qdd,
    fdRne (.new exChain ⟨0, 0, -9.81⟩) exChain [a, b] [1, 2] [3, 4] [w1, w2, w3] [0, 0] (fun _ _ => 7)
      (fun _ => 7) ⟨fun _ _ => 7, fun _ => 7⟩ (fun _ => 7) (fun _ => 7) = some (.ret 0 qdd) ∧
    fdRne (.new exMerged ⟨0, 0, -9.81⟩) exMerged [a, b] [1, 2] [3, 4] [w1, lumpWrench (exLink "c" .Fixed) w2 w3] [0, 0]
      (fun _ _ => 7) (fun _ => 7) ⟨fun _ _ => 7, fun _ => 7⟩ (fun _ => 7) (fun _ => 7) = some (.ret 0 qdd) := by
  obtain ⟨h1, h2, h3, h4⟩ := exChain_ok
  obtain ⟨qdd, e⟩ := C42_total exChain h1 h2 h3 h4 ⟨0, 0, -9.81⟩ [a, b] [1, 2] [3, 4] [w1, w2, w3] [0, 0] (fun _ _ => 7)
    (fun _ => 7) ⟨fun _ _ => 7, fun _ => 7⟩ (fun _ => 7) (fun _ => 7) rfl rfl rfl rfl rfl
  exact ⟨qdd, e, C103_forward exMerged_ok h2 h3 (C103_massive exMerged_ok h2 h4) _ _ _ _ _ [w1] [] w2 w3 rfl rfl rfl rfl rfl
    rfl _ _ _ _ _ _ _ e⟩
/-- A mounting plate: the base of the example chain, tilted. -/
def exPlate : Segment := ⟨"base", ⟨"base", .Fixed, 1, 0, 0, 0, 0, 0, 0⟩, RBI.zero, ⟨Rot.rotX 1, ⟨1, 2, 3⟩⟩⟩
example (q qd qdd : List ℝ) (hq : q.length = 2) (hqd : qd.length = 2) (hqdd : qdd.length = 2) (g : Vec) (w1 w2 w3 wb : Wrench) :
    ∃ τ, idRne exChain 2 3 ((Rot.rotX 1).inv * g) q qd qdd [w1, w2, w3] [0, 0] = some (0, τ) ∧
      idRne ⟨2, 4, exPlate :: exChain.segments⟩ 2 4 g q qd qdd [wb, w1, w2, w3] [0, 0] = some (0, τ) := by
  obtain ⟨h1, h2, -, -⟩ := exChain_ok
  have hb : exPlate.Valid := ⟨fun h => absurd h (by simp [exPlate]), Rot.isProper_rotX 1⟩
  exact C103_base_inverse (c := exChain) (c' := ⟨2, 4, exPlate :: exChain.segments⟩) (b := exPlate) h1 ⟨rfl, rfl⟩ rfl rfl hb
    g q qd qdd [0, 0] [w1, w2, w3] wb hq hqd hqdd rfl rfl

end KDL
