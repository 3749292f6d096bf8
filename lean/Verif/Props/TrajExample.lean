import Verif.Lemmas.TrajExample
import Verif.Props.RoundedSpeed
import Verif.Props.RoundedIo
import Verif.Props.TrapProfile
import Verif.Lemmas.OwnershipRead
import Mathlib.Analysis.Calculus.MeanValue
import Mathlib.Analysis.Calculus.Deriv.MeanValue

/-!
# C90: the program `examples/trajectory_example.cpp`
-/

noncomputable section
namespace KDL
open Real PathComposite

namespace TrajExample

/-- The calls of `Add` and `Finish` that the program makes succeed. -/
theorem built : ∃ parts R, addPoints waypoints [] ⟨.new, 0.2, 0.01, 1, 1, 0⟩ = .ok (parts, R) ∧ Built R waypoints ∧
    LineOk R.F_base_start R.F_base_via ∧ R.eqradius = 0.01 ∧
    parts.map isCircle = [false, false, true, false, true, false, true] ∧ R.comp.gv = parts.map TextIo.partPath := by
  have he := eps_val
  obtain ⟨a, τ, ha, τ1, τ2, e3⟩ := turn3
  obtain ⟨b, σ, hb, σ1, σ2, e4⟩ := turn4
  obtain ⟨d1, f1, l1, h1⟩ := corner1 ha τ1 τ2
  obtain ⟨d2, f2, l2, h2⟩ := corner2 ha τ1 τ2 hb σ1 σ2 (show 0 ≤ d1 by linarith) h1
  obtain ⟨d3, f3, l3, h3⟩ := corner3 hb σ1 σ2 (show 0 ≤ d2 by linarith) h2
  have k3 := ok3 ha (show 0 ≤ τ by linarith)
  have k4 := ok4 hb (show 0 ≤ σ by linarith)
  have hp := pi_gt_three
  -- the third point
  have s3 := Leg.straight ⟨.new, 0.2, 0.01, leg1.A, leg2.A, 2⟩ leg1 leg2 ok1 ok2 le_rfl (Leg.at_zero _).symm end1.symm end1.symm rfl
    (by rw [he]; norm_num [leg1]) (by rw [he]; norm_num [leg2])
    (turns' ok1 (by norm_num [leg1]) le_rfl (by show (1 : ℝ) / 10 ≤ π / 2; linarith) (le_refl (π / 2)))
  obtain ⟨w3, p3, a3⟩ := s3
  rw [end2 a τ] at w3 p3 a3
  dsimp only at p3 a3
  obtain ⟨c3, hc3⟩ : ∃ c, c = PathComposite.new.add (PathLine.ofFrames (leg1.at 0) (leg1.at leg1.L) 0.01).toPath := ⟨_, rfl⟩
  rw [← hc3] at a3
  -- the corners
  obtain ⟨-, w4, C1, -, p4, a4⟩ := Leg.corner ⟨c3, 0.2, 0.01, leg2.at 0, (leg3 a τ).A, 2 + 1⟩ leg2 (leg3 a τ) ok2 k3 0 d1 (by norm_num)
    rfl (end2 a τ).symm (end2 a τ).symm f1
  dsimp only at p4 a4
  generalize hc4 : (c3.add (PathLine.ofFrames (leg2.at 0) (leg2.at (leg2.L - d1)) 0.01).toPath).add C1.toPath = c4 at a4
  obtain ⟨-, w5, C2, -, p5, a5⟩ := Leg.corner ⟨c4, 0.2, 0.01, (leg3 a τ).at d1, (leg3 a τ).at (leg3 a τ).L, 2 + 1 + 1⟩ (leg3 a τ) (leg4 b σ)
    k3 k4 d1 d2 (by norm_num) rfl rfl e3.symm f2
  dsimp only at p5 a5
  generalize hc5 : (c4.add (PathLine.ofFrames ((leg3 a τ).at d1) ((leg3 a τ).at ((leg3 a τ).L - d2)) 0.01).toPath).add C2.toPath = c5 at a5
  obtain ⟨-, w6, C3, -, p6, a6⟩ := Leg.corner ⟨c5, 0.2, 0.01, (leg4 b σ).at d2, (leg4 b σ).at (leg4 b σ).L, 2 + 1 + 1 + 1⟩ (leg4 b σ) leg5
    k4 ok5 d2 d3 (by norm_num) rfl rfl e4.symm f3
  dsimp only at p6 a6
  generalize hc6 : (c5.add (PathLine.ofFrames ((leg4 b σ).at d2) ((leg4 b σ).at ((leg4 b σ).L - d3)) 0.01).toPath).add C3.toPath = c6 at a6
  have hw : waypoints = [leg1.A, leg2.A, (leg3 a τ).A, (leg3 a τ).at (leg3 a τ).L, (leg4 b σ).at (leg4 b σ).L, leg5.at leg5.L] := by
    rw [e3, e4, end5]; rfl
  have h0 : RoundedComposite.new 0.2 0.01 = .ok ⟨.new, 0.2, 0.01, 1, 1, 0⟩ := by
    unfold RoundedComposite.new
    rw [if_neg (by norm_num)]
  have a1 : RoundedComposite.add ⟨.new, 0.2, 0.01, 1, 1, 0⟩ leg1.A = (.ok (), ⟨.new, 0.2, 0.01, leg1.A, 1, 1⟩) := by
    unfold RoundedComposite.add
    rw [if_pos rfl]
  have a2 : RoundedComposite.add ⟨.new, 0.2, 0.01, leg1.A, 1, 1⟩ leg2.A = (.ok (), ⟨.new, 0.2, 0.01, leg1.A, leg2.A, 2⟩) := by
    unfold RoundedComposite.add
    rw [if_neg (by norm_num), if_pos rfl]
  have p1 : TextIo.addedParts ⟨.new, 0.2, 0.01, 1, 1, 0⟩ leg1.A = [] := by
    unfold TextIo.addedParts; rw [if_pos rfl]
  have p2 : TextIo.addedParts ⟨.new, 0.2, 0.01, leg1.A, 1, 1⟩ leg2.A = [] := by
    unfold TextIo.addedParts; rw [if_neg (by norm_num), if_pos rfl]
  have hz : ∀ (R : RoundedComposite) F, R.nrofpoints < 2 → StepOk R F := fun R F h h2 => absurd h2 (not_le.mpr h)
  have b6 := ((((((Built.new h0).add a1 (hz _ _ (by norm_num))).add a2 (hz _ _ (by norm_num))).add a3 w3).add a4 w4).add a5 w5).add a6 w6
  rw [hw]
  refine ⟨[.inl (PathLine.ofFrames (leg1.at 0) (leg1.at leg1.L) 0.01),
    .inl (PathLine.ofFrames (leg2.at 0) (leg2.at (leg2.L - d1)) 0.01), .inr C1,
    .inl (PathLine.ofFrames ((leg3 a τ).at d1) ((leg3 a τ).at ((leg3 a τ).L - d2)) 0.01), .inr C2,
    .inl (PathLine.ofFrames ((leg4 b σ).at d2) ((leg4 b σ).at ((leg4 b σ).L - d3)) 0.01), .inr C3], _, ?_, b6, ?_, rfl, rfl, ?_⟩
  · simp only [addPoints, a1, a2, a3, a4, a5, a6, p1, p2, p3, p4, p5, p6]
    rfl
  · dsimp only
    obtain ⟨r1, r2⟩ := root74
    refine ok5.lineOk ?_ (turns' ok5 ?_ ?_ ?_ ?_)
    · show 2 * epsilon ≤ √0.74 - d3
      rw [he]; linarith
    · show √0.74 / 10 ≤ √0.74 - d3
      linarith
    · show √0.74 - d3 ≤ √0.74
      linarith
    · show (1 : ℝ) / 10 ≤ 0.7; norm_num
    · show (0.7 : ℝ) ≤ π / 2; linarith
  · dsimp only
    rw [← hc6, ← hc5, ← hc4, hc3]
    rfl

/-! ## Specification -/

/-- `F` is the frame at path length `s` of the segments `gs`, one after the other. -/
def At (gs : List PathI) (s : ℝ) (F : Frame) : Prop :=
  ∃ i g, gs[i]? = some g ∧ ((gs.take i).map PathI.length).sum ≤ s ∧ s ≤ ((gs.take (i + 1)).map PathI.length).sum ∧
    F = g.pos (s - ((gs.take i).map PathI.length).sum)

/-- The sampled motion: frames at the times `0, dt, 2 dt, …` up to the last one that is not after `T`. -/
structure Samples (gs : List PathI) (q : ℝ → ℝ) (T dt : ℝ) (frames : List Frame) : Prop where
  enough : T < frames.length * dt
  within : ∀ (k : ℕ) F, frames[k]? = some F → k * dt ≤ T ∧ At gs (q (k * dt)) F

/-- The report describes the segments `gs`: start and end of each, without gaps. -/
def Describes (gs : List PathI) (report : List Info) : Prop :=
  report.length = gs.length ∧ ∀ (i : ℕ) (x : Info), report[i]? = some x →
    x.starts = ((gs.take i).map PathI.length).sum ∧ x.ends = ((gs.take (i + 1)).map PathI.length).sum

/-! ### helpers -/

/-- What is known about the finished path. -/
structure Road (gs : List PathI) : Prop where
  ne : gs ≠ []
  nonneg : ∀ g ∈ gs, 0 ≤ g.length
  joined : Joined gs
  slow : ∀ g ∈ gs, g.Slow

theorem Road.pos {gs : List PathI} (r : Road gs) {c : PathComposite} (h : Reach c) (hg : c.gv = gs) (s : ℝ) (h0 : 0 ≤ s)
    (h1 : s ≤ (gs.map PathI.length).sum) : ∃ F c', c.pos s = some (F, c') ∧ Reach c' ∧ c'.gv = gs ∧ At gs s F := by
  subst hg
  have hl := (C62_lengths c h).1
  rw [← hl] at h1
  obtain ⟨F, c', e, hr, hg', hF⟩ := C62_pos c h r.ne r.nonneg r.joined s h0 h1
  obtain ⟨-, c1, g, -, -, hg, -, a1, a2⟩ := lookup_spec h.inv r.ne r.nonneg s h0 h1
  exact ⟨F, c', e, hr, hg', _, g, hg, a1, a2, hF _ g hg a1 a2⟩

theorem Road.unique {gs : List PathI} (r : Road gs) {c : PathComposite} (h : Reach c) (hg : c.gv = gs) {s : ℝ} (h0 : 0 ≤ s)
    (h1 : s ≤ (gs.map PathI.length).sum) {F G : Frame} (hF : At gs s F) {c' : PathComposite} (hG : c.pos s = some (G, c')) : F = G := by
  subst hg
  rw [← (C62_lengths c h).1] at h1
  obtain ⟨K, d, e, -, -, hK⟩ := C62_pos c h r.ne r.nonneg r.joined s h0 h1
  obtain ⟨i, g, hg, a1, a2, rfl⟩ := hF
  rw [hG] at e
  injection e with e
  injection e with e _
  rw [e]
  exact (hK i g hg a1 a2).symm

theorem Road.near {gs : List PathI} (r : Road gs) {c : PathComposite} (h : Reach c) (hg : c.gv = gs) {s t : ℝ} (h0 : 0 ≤ s)
    (hst : s ≤ t) (h1 : t ≤ (gs.map PathI.length).sum) {F G : Frame} (hF : At gs s F) (hG : At gs t G) :
    (G.p - F.p).len ≤ t - s := by
  subst hg
  obtain ⟨F', G', d, d', e1, e2, hl⟩ := composite_slow c h r.ne r.nonneg r.joined r.slow s t h0 hst (by rwa [(C62_lengths c h).1])
  rw [r.unique h rfl h0 (hst.trans h1) hF e1, r.unique h rfl (h0.trans hst) h1 hG e2]
  exact hl

theorem sample_spec {gs : List PathI} (r : Road gs) (q : Quad3) (dt : ℝ) (hdt : 0 < dt)
    (hq : ∀ t, 0 ≤ q.pos t ∧ q.pos t ≤ (gs.map PathI.length).sum) (n : ℕ) :
    ∀ (t : ℝ) (c : PathComposite) (file : List (List ℝ)), Reach c → c.gv = gs → q.duration < t + n * dt →
      ∃ (frames : List Frame) (c' : PathComposite), sample q dt (n + 1) t c file = .value (file ++ frames.map row, c') ∧ Reach c' ∧ c'.gv = gs ∧
        q.duration < t + frames.length * dt ∧
        ∀ (k : ℕ) F, frames[k]? = some F → t + k * dt ≤ q.duration ∧ At gs (q.pos (t + k * dt)) F := by
  induction n with
  | zero =>
    intro t c file hc hg ht
    refine ⟨[], c, ?_, hc, hg, by simpa using ht, by simp⟩
    simp only [Nat.cast_zero, zero_mul, add_zero] at ht
    simp only [sample, if_neg (not_le.mpr ht)]
    simp
  | succ n ih =>
    intro t c file hc hg ht
    by_cases hle : t ≤ q.duration
    · obtain ⟨F, c1, e, hc1, hg1, hF⟩ := r.pos hc hg (q.pos t) (hq t).1 (hq t).2
      obtain ⟨fs, c', e', hc', hg', hd, hs⟩ := ih (t + dt) c1 (file ++ [row F]) hc1 hg1 (by push_cast at ht; linarith)
      refine ⟨F :: fs, c', ?_, hc', hg', by push_cast [List.length_cons]; linarith, ?_⟩
      · rw [sample, if_pos hle, e]
        dsimp only
        rw [e']
        simp
      · intro k G hG
        cases k with
        | zero =>
          simp only [List.getElem?_cons_zero, Option.some.injEq] at hG
          subst hG
          simpa using ⟨hle, hF⟩
        | succ k =>
          rw [List.getElem?_cons_succ] at hG
          have := hs k G hG
          have e : t + ((k + 1 : ℕ) : ℝ) * dt = t + dt + k * dt := by push_cast; ring
          rwa [e]
    · refine ⟨[], c, ?_, hc, hg, by simpa using hle, by simp⟩
      rw [sample, if_neg hle]
      simp

theorem info_spec {parts : List (PathLine ⊕ PathCircle)} {c : PathComposite} (h : Reach c) (hl : parts.length = c.gv.length)
    (i : ℕ) (hi : i < parts.length) :
    info parts c i = some ⟨pre c.gv i, pre c.gv (i + 1), isCircle parts[i]⟩ := by
  have hk : ∀ j, j < c.gv.length → c.lengthToEnd j = some (pre c.gv (j + 1)) := fun j hj => ((C62_lengths c h).2.1 j hj).1
  unfold info
  rw [hk i (by omega), List.getElem?_eq_getElem hi]
  cases i with
  | zero => simp [pre_zero]
  | succ i =>
    rw [if_neg (by omega), Nat.add_sub_cancel, hk i (by omega)]
    rfl

theorem infos_spec {parts : List (PathLine ⊕ PathCircle)} {c : PathComposite} (h : Reach c) (hl : parts.length = c.gv.length)
    (is : List ℕ) : ∀ out, (∀ i ∈ is, i < parts.length) →
      ∃ rs : List Info, infos parts c is out = some (out ++ rs) ∧ rs.length = is.length ∧
        ∀ (k i : ℕ) (x : Info), is[k]? = some i → rs[k]? = some x → x = ⟨pre c.gv i, pre c.gv (i + 1), (parts.map isCircle).getD i false⟩ := by
  induction is with
  | nil => intro out _; exact ⟨[], by simp [infos], rfl, by simp⟩
  | cons i is ih =>
    intro out hi
    have hii := hi i (List.mem_cons_self ..)
    have e := info_spec h hl i hii
    obtain ⟨rs, e', hr, hx⟩ := ih (out ++ [⟨pre c.gv i, pre c.gv (i + 1), isCircle parts[i]⟩]) fun j hj => hi j (List.mem_cons_of_mem _ hj)
    refine ⟨⟨pre c.gv i, pre c.gv (i + 1), isCircle parts[i]⟩ :: rs, ?_, by simp [hr], ?_⟩
    · rw [infos, e]
      dsimp only
      rw [e']
      simp
    · intro k j x hj hx'
      cases k with
      | zero =>
        simp only [List.getElem?_cons_zero, Option.some.injEq] at hj hx'
        subst hj hx'
        simp [List.getD, List.getElem?_eq_getElem hii]
      | succ k => exact hx k j x (by simpa using hj) (by simpa using hx')

theorem mv (q : Quad3) {ℓ V A : ℝ} (m : MotionLaw q 0 ℓ V A) {t u C : ℝ} (h : t ≤ u) (hC : ∀ x, t ≤ x → x ≤ u → |q.vel x| ≤ C) :
    |q.pos u - q.pos t| ≤ C * (u - t) := by
  have := (convex_Icc t u).norm_image_sub_le_of_norm_hasDerivWithin_le (f := q.pos) (f' := q.vel) (C := C)
    (fun x _ => (m.deriv x).hasDerivWithinAt) (fun x hx => hC x hx.1 hx.2) (Set.left_mem_Icc.mpr h) (Set.right_mem_Icc.mpr h)
  rwa [Real.norm_eq_abs, Real.norm_eq_abs, abs_of_nonneg (sub_nonneg.mpr h)] at this

theorem mono (q : Quad3) {ℓ V A : ℝ} (m : MotionLaw q 0 ℓ V A) (hl : 0 < ℓ) : Monotone q.pos := by
  refine monotone_of_deriv_nonneg (fun t => (m.deriv t).differentiableAt) fun t => ?_
  rw [(m.deriv t).deriv]
  have := m.dir t
  rw [sub_zero] at this
  exact nonneg_of_mul_nonneg_right this hl

theorem range (q : Quad3) {ℓ V A : ℝ} (m : MotionLaw q 0 ℓ V A) (hl : 0 < ℓ) (t : ℝ) : 0 ≤ q.pos t ∧ q.pos t ≤ ℓ := by
  constructor
  · rw [← m.start (min t 0) (min_le_right _ _)]; exact mono q m hl (min_le_left _ _)
  · rw [← m.arrive (max t q.duration) (le_max_right _ _)]; exact mono q m hl (le_max_left _ _)

theorem rest (q : Quad3) {ℓ V A : ℝ} (m : MotionLaw q 0 ℓ V A) : q.vel q.duration = 0 := by
  have h1 : HasDerivWithinAt q.pos (q.vel q.duration) (Set.Ici q.duration) q.duration := (m.deriv _).hasDerivWithinAt
  have h2 : HasDerivWithinAt q.pos 0 (Set.Ici q.duration) q.duration :=
    (hasDerivWithinAt_const q.duration (Set.Ici q.duration) ℓ).congr (fun x hx => m.arrive x hx) (m.arrive _ le_rfl)
  exact (uniqueDiffWithinAt_Ici _).eq_deriv _ h1 h2

/-- The path that the program builds. -/
theorem road : ∃ parts R, buildPath waypoints = .ok (parts, R) ∧ Reach R.comp ∧ R.comp.gv = parts.map TextIo.partPath ∧
    parts.map isCircle = [false, false, true, false, true, false, true, false] ∧ Road R.comp.gv ∧
    (∃ c, R.comp.pos 0 = some (⟨Rot.rpy π 0 0, ⟨-1, 0, 0⟩⟩, c)) ∧
    ∃ c, R.comp.pos R.comp.pathlength = some (⟨Rot.rpy 0.7 0.7 0, ⟨1, 1, 0⟩⟩, c) := by
  obtain ⟨parts, R, e, hb, hl, heq, hk, hg⟩ := built
  have sp := hb.spec
  have hf : R.finish = { R with comp := R.comp.add (PathLine.ofFrames R.F_base_start R.F_base_via R.eqradius).toPath } := by
    unfold RoundedComposite.finish
    rw [if_pos (by rw [sp.count]; decide)]
  obtain ⟨h1, h2, h3, h4, h5⟩ := C63_path_partial R waypoints hb _ _ (by decide) rfl rfl hl
  refine ⟨parts ++ [.inl (PathLine.ofFrames R.F_base_start R.F_base_via R.eqradius)], R.finish, ?_, h1, ?_, ?_, ⟨?_, h3, h2, ?_⟩, h4, h5⟩
  · have h0 : RoundedComposite.new 0.2 0.01 = .ok ⟨.new, 0.2, 0.01, 1, 1, 0⟩ := by
      unfold RoundedComposite.new
      rw [if_neg (by norm_num)]
    unfold buildPath
    rw [h0]
    dsimp only
    rw [e]
    dsimp only
    rw [if_pos (by rw [sp.count]; decide)]
  · rw [hf]
    simp [PathComposite.add, hg, TextIo.partPath]
  · rw [List.map_append, hk]; rfl
  · rw [hf]; simp [PathComposite.add]
  · intro g hg
    rw [hf] at hg
    simp only [PathComposite.add, List.mem_append, List.mem_singleton] at hg
    rcases hg with hg | rfl
    · exact hb.slow g hg
    · exact line_slow _ _ _ sp.eq_pos hl

end TrajExample

open TrajExample

/-- A line of the file: the matrix of the frame, row by row. -/
theorem C90_row (F : Frame) : row F = [F.M.m00, F.M.m01, F.M.m02, F.p.x, F.M.m10, F.M.m11, F.M.m12, F.p.y,
    F.M.m20, F.M.m21, F.M.m22, F.p.z, 0, 0, 0, 1] := rfl

/-- **C90.**  The program ends regularly: no call of `Add` throws, no assertion fails and the sampling loop stops.  The path
`gs` is continuous, runs from the first to the last frame of the program in eight segments (line, line, circle, line, circle,
line, circle, line) and is travelled by a motion law `q` with velocity limit 0.5 and acceleration limit 0.1.  The file has one line per
sample at `0, 0.1, 0.2, …`, up to the end of the motion; the first is the first frame, two consecutive positions are at most 0.05 apart
and the last position is within 0.001 of the goal.  The report lists start and end of the segments and their kinds; one second of standing still
is appended to the trajectory. -/
theorem C90_run : ∃ (gs : List PathI) (q : Quad3) (ℓ : ℝ), ℓ = (gs.map PathI.length).sum ∧ √5 ≤ ℓ ∧
    MotionLaw q 0 ℓ 0.5 0.1 ∧ Joined gs ∧ At gs 0 ⟨Rot.rpy π 0 0, ⟨-1, 0, 0⟩⟩ ∧ At gs ℓ ⟨Rot.rpy 0.7 0.7 0, ⟨1, 1, 0⟩⟩ ∧
    ∀ limit : ℕ, 10 * q.duration + 2 ≤ limit → ∃ (frames : List Frame) (report : List Info),
      run limit = .done (frames.map row) report q.duration (q.duration + 1) ∧
      Samples gs q.pos q.duration 0.1 frames ∧ frames.head? = some ⟨Rot.rpy π 0 0, ⟨-1, 0, 0⟩⟩ ∧
      (∀ (k : ℕ) F G, frames[k]? = some F → frames[k + 1]? = some G → (G.p - F.p).len ≤ 0.05) ∧
      (∀ F, frames.getLast? = some F → ((⟨1, 1, 0⟩ : Vec) - F.p).len ≤ 0.001) ∧
      Describes gs report ∧ report.map Info.circle = [false, false, true, false, true, false, true, false] := by
  obtain ⟨parts, R, e, hr, hg, hk, rd, ⟨c0, e0⟩, ⟨c1, e1⟩⟩ := road
  obtain ⟨gs, hgs⟩ : ∃ gs, gs = R.comp.gv := ⟨_, rfl⟩
  obtain ⟨ℓ, hℓ⟩ : ∃ ℓ, ℓ = (gs.map PathI.length).sum := ⟨_, rfl⟩
  rw [← hgs] at rd
  have hpl : R.comp.pathlength = ℓ := by rw [hℓ, hgs]; exact (C62_lengths _ hr).1
  have h0 : 0 ≤ ℓ := by
    rw [hℓ]
    refine List.sum_nonneg fun x hx => ?_
    obtain ⟨g, hg, rfl⟩ := List.mem_map.mp hx
    exact rd.nonneg g hg
  obtain ⟨F0, d0, f0, -, -, A0⟩ := rd.pos hr hgs.symm 0 le_rfl (hℓ ▸ h0)
  obtain ⟨F1, d1, f1, -, -, A1⟩ := rd.pos hr hgs.symm ℓ h0 hℓ.le
  rw [e0] at f0
  rw [hpl, f1] at e1
  injection f0 with f0
  injection f0 with f0 _
  injection e1 with e1
  injection e1 with e1 _
  subst f0 e1
  have h5 : √5 ≤ ℓ := by
    have := rd.near hr hgs.symm le_rfl h0 hℓ.le A0 A1
    rw [sub_zero] at this
    refine le_trans (le_of_eq ?_) this
    unfold Vec.len
    congr 1
    simp [Vec.dot]
    norm_num
  have hpos : 0 < ℓ := lt_of_lt_of_le (by positivity) h5
  obtain ⟨p', hp, m⟩ := C56_setProfile (TrapProfile.new 0.5 0.1) (by norm_num [TrapProfile.new]) (by norm_num [TrapProfile.new]) 0 ℓ
  change MotionLaw p'.q 0 ℓ 0.5 0.1 at m
  refine ⟨gs, p'.q, ℓ, hℓ, h5, m, rd.joined, A0, A1, fun limit hlim => ?_⟩
  have hd := m.dur
  obtain ⟨n, rfl⟩ : ∃ n, limit = n + 1 := ⟨limit - 1, by
    have : (0 : ℝ) < limit := by linarith
    have := Nat.cast_pos.mp this
    omega⟩
  have hrange := fun t => range p'.q m hpos t
  obtain ⟨frames, c', es, hc', hg', hen, hwi⟩ := sample_spec rd p'.q 0.1 (by norm_num) (by rw [← hℓ]; exact hrange) n 0 R.comp []
    hr hgs.symm (by push_cast at hlim; linarith)
  have hwi' : ∀ (k : ℕ) F, frames[k]? = some F → k * 0.1 ≤ p'.q.duration ∧ At gs (p'.q.pos (k * 0.1)) F := by
    intro k F hF
    simpa using hwi k F hF
  rw [zero_add] at hen
  have hlen : parts.length = c'.gv.length := by rw [hg', hgs, hg, List.length_map]
  obtain ⟨report, er, hrl, hrx⟩ := infos_spec hc' hlen (List.range c'.dv.length) [] (by
    intro i hi
    rw [List.mem_range, hc'.inv.dv_length] at hi
    omega)
  have hp8 : parts.length = 8 := by have := congrArg List.length hk; simpa using this
  have hdv : c'.dv.length = 8 := by rw [hc'.inv.dv_length, ← hlen, hp8]
  have hr8 : report.length = 8 := by rw [hrl, List.length_range, hdv]
  rw [hg'] at hlen
  have hx : ∀ (i : ℕ) (x : Info), report[i]? = some x → x = ⟨pre gs i, pre gs (i + 1), (parts.map isCircle).getD i false⟩ := by
    intro i x hix
    have hi := (List.getElem?_eq_some_iff.mp hix).1
    have := hrx i i x (by rw [List.getElem?_range (by omega)]) hix
    rwa [hg'] at this
  refine ⟨frames, report, ?_, ⟨hen, hwi'⟩, ?_, ?_, ?_, ⟨by omega, fun (i : ℕ) (x : Info) h => ?_⟩, ?_⟩
  · unfold run
    rw [e]
    dsimp only
    rw [hpl, hp]
    dsimp only
    rw [es]
    dsimp only
    rw [er]
    simp [trajStationary]
  · cases frames with
    | nil => simp at hen; linarith
    | cons F fs =>
      have := (hwi' 0 F rfl).2
      rw [Nat.cast_zero, zero_mul, m.start 0 le_rfl] at this
      rw [List.head?_cons, rd.unique hr hgs.symm le_rfl (hℓ ▸ h0) this e0]
  · intro k F G hF hG
    obtain ⟨-, AF⟩ := hwi' k F hF
    obtain ⟨-, AG⟩ := hwi' (k + 1) G hG
    have hle : (k : ℝ) * 0.1 ≤ ((k + 1 : ℕ) : ℝ) * 0.1 := by push_cast; linarith
    have hm := mono p'.q m hpos hle
    refine (rd.near hr hgs.symm (hrange _).1 hm (hℓ ▸ (hrange _).2) AF AG).trans ?_
    have := mv p'.q m hle fun x _ _ => m.vmax x
    rw [abs_of_nonneg (sub_nonneg.mpr hm)] at this
    push_cast at this ⊢
    linarith
  · intro F hF
    rw [List.getLast?_eq_getElem?] at hF
    obtain ⟨hT, AF⟩ := hwi' _ F hF
    have hl1 : 1 ≤ frames.length := by
      cases frames with
      | nil => simp at hF
      | cons _ _ => simp
    rw [Nat.cast_sub hl1] at hT AF
    push_cast at hT AF
    refine (rd.near hr hgs.symm (hrange _).1 (hrange _).2 hℓ.le AF A1).trans ?_
    have := mv p'.q m hT (C := 0.01) fun x h1 h2 => by
      have := m.lip x p'.q.duration
      rw [rest p'.q m, sub_zero, abs_of_nonpos (by linarith : x - p'.q.duration ≤ 0)] at this
      linarith
    rw [m.arrive _ le_rfl] at this
    have := (abs_le.mp this).2
    linarith
  · rw [hx i x h]
    exact ⟨rfl, rfl⟩
  · refine List.ext_getElem? fun i => ?_
    rw [← hk, List.getElem?_map]
    rcases lt_or_ge i 8 with hi | hi
    · rw [List.getElem?_eq_getElem (by omega)]
      rw [hx i _ (List.getElem?_eq_getElem (by omega))]
      have : i < (parts.map isCircle).length := by rw [List.length_map]; omega
      rw [List.getElem?_eq_getElem this]
      simp [List.getD, List.getElem?_eq_getElem (show i < parts.length by omega)]
    · rw [List.getElem?_eq_none (by omega), List.getElem?_eq_none (by rw [List.length_map]; omega)]
      rfl

/-- The limit of `C90_run` can be met, so the program terminates. -/
example : ∃ limit file report T, run limit = .done file report T (T + 1) := by
  obtain ⟨gs, q, ℓ, -, -, -, -, -, -, h⟩ := C90_run
  obtain ⟨n, hn⟩ := exists_nat_ge (10 * q.duration + 2)
  obtain ⟨f, r, e, -⟩ := h n hn
  exact ⟨n, _, r, _, e⟩

namespace Mem

theorem Ext.put {H H1 : Heap} {S : List ℕ} (e : Ext H H1 S) {c : ℕ} {o : Obj} (o' : Obj) (hc : H1.obj c = some o) (hm : c ∈ S) :
    Ext H ⟨fun x => if x = c then some o' else H1.obj x, H1.next⟩ S := by
  obtain ⟨a1, a2, a3, a4, a5⟩ := e
  refine ⟨a1, fun x hx => ?_, a3, a4, fun x hx => ?_⟩
  · have : x ≠ c := by
      rintro rfl
      have := a2 x hx
      rw [hc] at this; cases this
    simp only [this, if_false]
    exact a2 x hx
  · have : x ≠ c := fun h => hx (h ▸ hm)
    simp only [this, if_false]
    exact a5 x hx

theorem points_eq (ord : Bool) (n r : ℕ) : ∀ ks, forEach (roundedAdd ord n r) ks = readPoints ord n r (ks.map some)
  | [] => rfl
  | k :: ks => by
    rw [List.map_cons, forEach, readPoints, points_eq ord n r ks]

/-- **C90 (memory).**  Every object that the program creates is destroyed exactly once: when it ends the heap is what it was.  `ks`
are the corners at the points from the third on, `n` bounds the depth of destruction. -/
theorem C90_memory (ord : Bool) (ks : List Corner) (hk : ∀ k ∈ ks, k.Fine) (H : Heap) (w : H.WF) (n : ℕ)
    (hn : 4 * ks.length + 20 ≤ n) : ∃ H', trajExample ord n ks H = some (.ok (), H') ∧ H'.obj = H.obj := by
  unfold trajExample
  obtain ⟨H1, a1, a2, a3⟩ := alloc_ext w .orient
  rw [M.bind_ok a1]
  unfold newRounded
  simp only [Bool.false_eq_true, if_false]
  obtain ⟨H2, b1, b2, b3⟩ := alloc_ext a2.2.1 (.composite [])
  obtain ⟨H3, c1, c2, c3⟩ := alloc_ext b2.2.1 (.rounded H1.next H.next 0 true)
  rw [M.bind_ok (M.bind_ok b1 |>.trans c1)]
  have a3' : H2.obj H.next = some .orient := (b2.old a2.2.1 (by rw [a3]; simp)).trans a3
  have l1 : ∀ x ∈ [H.next], H1.obj x ≠ none := by simp [a3]
  have l2 : ∀ x ∈ [H1.next] ++ [H.next], H2.obj x ≠ none := by simp [a3', b3]
  have inv : RInv H H3 [] H.next H1.next H2.next 0 [] [] :=
    ⟨((a2.trans b2 l1).trans c2 l2).perm (by
      show (H2.next :: [H1.next, H.next]).Perm (H2.next :: [H.next, H1.next])
      exact (List.Perm.swap _ _ _).cons _), by simp, c3, (c2.old b2.2.1 (by rw [a3']; simp)).trans a3',
      (c2.old b2.2.1 (by rw [b3]; simp)).trans b3, .nil⟩
  obtain ⟨res, H4, np, gv, T, d1, d2, d3, d4⟩ := readPoints_spec (ord := ord) (n := n) (by omega) w
    ((.straight :: .straight :: ks).map some) inv
  rcases d4 with rfl | ⟨nf, -⟩
  swap
  · exfalso
    apply nf
    intro k hk'
    obtain ⟨k', hk'', rfl⟩ := List.mem_map.mp hk'
    refine ⟨k', rfl, ?_⟩
    rcases List.mem_cons.mp hk'' with rfl | hk''
    · trivial
    rcases List.mem_cons.mp hk'' with rfl | hk''
    · trivial
    exact hk k' hk''
  simp only [List.length_nil, Nat.zero_add, List.length_map, List.length_cons] at d3
  obtain ⟨H5, gv', T', f1, f2, f3⟩ := roundedFinish_spec (ord := ord) (n := n) (by omega) d2
  rw [← points_eq] at d1
  have assoc : ∀ (m : M Unit), ((roundedAdd ord n H2.next .straight).bind fun _ => (roundedAdd ord n H2.next .straight).bind fun _ =>
      (forEach (roundedAdd ord n H2.next) ks).bind fun _ => m) H3 = m H4 := by
    intro m
    rw [← M.bind_ok (f := fun _ => m) d1]
    simp only [forEach]
    unfold M.bind
    cases roundedAdd ord n H2.next .straight H3 with
    | none => rfl
    | some y =>
      obtain ⟨u, v⟩ := y
      cases u with
      | error e => rfl
      | ok u =>
        dsimp only
        cases roundedAdd ord n H2.next .straight v with
        | none => rfl
        | some y =>
          obtain ⟨u, v⟩ := y
          cases u <;> rfl
  rw [assoc, M.bind_ok f1]
  -- the path and its parts
  obtain ⟨S, hS⟩ : ∃ S, S = H2.next :: H.next :: H1.next :: T' := ⟨_, rfl⟩
  have e5 : Ext H H5 S := by rw [hS]; exact f2.ext
  have t5 : Owned H5.obj [H2.next] S := by rw [hS]; exact .one f2.hr (.cons f2.ho .nil (.one f2.hc f2.ht))
  have hSl : S.length ≤ 4 * ks.length + 13 := by rw [hS]; simp; omega
  generalize H2.next = r at t5 ⊢
  -- the profile and the segment
  obtain ⟨H6, g1, g2, g3⟩ := alloc_ext e5.2.1 .profile
  obtain ⟨H7, h1, h2, h3⟩ := alloc_ext g2.2.1 (.segment r H5.next true)
  have t6 : Owned H6.obj [r] S := t5.congr fun x hx => g2.old e5.2.1 (t5.live x hx)
  have t7 : Owned H7.obj [r] S := t6.congr fun x hx => h2.old g2.2.1 (t6.live x hx)
  have v7 : H7.obj H5.next = some .profile := (h2.old g2.2.1 (by rw [g3]; simp)).trans g3
  have s7 : Owned H7.obj [H6.next] (H6.next :: (H5.next :: S)) := .one h3 (.cons v7 .nil t7)
  have e7 : Ext H H7 (H6.next :: (H5.next :: S)) := by
    refine (e5.trans g2 t5.live).trans h2 fun x hx => ?_
    rcases List.mem_append.mp hx with h | h
    · simp only [List.mem_singleton] at h; rw [h, g3]; simp
    · exact t6.live x h
  rw [M.bind_ok g1, M.bind_ok h1]
  obtain ⟨S', hS'⟩ : ∃ S', S' = H6.next :: (H5.next :: S) := ⟨_, rfl⟩
  rw [← hS'] at s7 e7
  have hSl' : S'.length ≤ 4 * ks.length + 15 := by rw [hS']; simp; omega
  generalize H6.next = t at s7 ⊢
  -- the composite trajectory
  obtain ⟨H8, i1, i2, i3⟩ := alloc_ext e7.2.1 (.trajComposite [])
  have s8 : Owned H8.obj [t] S' := s7.congr fun x hx => i2.old e7.2.1 (s7.live x hx)
  have e8 : Ext H H8 (H7.next :: S') := e7.trans i2 s7.live
  rw [M.bind_ok i1]
  generalize H7.next = c at i3 e8 ⊢
  have nd := List.nodup_cons.mp e8.2.2.1
  obtain ⟨ot, _, ht, _⟩ := s8.inv1
  obtain ⟨H9, hH9⟩ : ∃ H9 : Heap, H9 = ⟨fun x => if x = c then some (.trajComposite [t]) else H8.obj x, H8.next⟩ := ⟨_, rfl⟩
  have add1 : trajAdd c t H8 = some (.ok (), H9) := by
    unfold trajAdd
    rw [M.bind_ok (get_ok i3), M.bind_ok (get_ok ht), hH9]
    rfl
  have e9 : Ext H H9 (c :: S') := by rw [hH9]; exact e8.put _ i3 (by simp)
  have k9 : H9.obj c = some (.trajComposite [t]) := by rw [hH9]; simp
  have s9 : Owned H9.obj [t] S' := s8.congr fun x hx => by
    have : x ≠ c := fun h => nd.1 (h ▸ hx)
    rw [hH9]; simp [this]
  rw [M.bind_ok add1]
  -- standing still
  obtain ⟨H10, j1, j2, j3⟩ := alloc_ext e9.2.1 .stationary
  have l9 : ∀ x ∈ c :: S', H9.obj x ≠ none := by
    intro x hx
    rcases List.mem_cons.mp hx with rfl | hx
    · rw [k9]; simp
    · exact s9.live x hx
  have e10 : Ext H H10 (H9.next :: (c :: S')) := e9.trans j2 l9
  have k10 : H10.obj c = some (.trajComposite [t]) := (j2.old e9.2.1 (by rw [k9]; simp)).trans k9
  have s10 : Owned H10.obj [t] S' := s9.congr fun x hx => j2.old e9.2.1 (s9.live x hx)
  rw [M.bind_ok j1]
  generalize H9.next = u at j3 e10 ⊢
  obtain ⟨H11, hH11⟩ : ∃ H11 : Heap, H11 = ⟨fun x => if x = c then some (.trajComposite [t, u]) else H10.obj x, H10.next⟩ := ⟨_, rfl⟩
  have add2 : trajAdd c u H10 = some (.ok (), H11) := by
    unfold trajAdd
    rw [M.bind_ok (get_ok k10), M.bind_ok (get_ok j3), hH11]
    rfl
  have nd' := e10.2.2.1
  simp only [List.nodup_cons, List.mem_cons, not_or] at nd'
  have e11 : Ext H H11 (c :: (S' ++ [u])) := by
    refine Ext.perm (S := u :: c :: S') (by rw [hH11]; exact e10.put _ k10 (by simp)) ?_
    refine (List.Perm.swap _ _ _).trans (List.Perm.cons _ ?_)
    exact (List.perm_append_singleton u S').symm
  have s11 : Owned H11.obj [t] S' := s10.congr fun x hx => by
    have : x ≠ c := fun h => nd.1 (h ▸ hx)
    rw [hH11]; simp [this]
  have u11 : H11.obj u = some .stationary := by
    rw [hH11]; simp only [nd'.1.1, if_false]; exact j3
  have tree : Owned H11.obj [c] (c :: (S' ++ [u])) :=
    .one (o := .trajComposite [t, u]) (by rw [hH11]; simp) (s11.append (.one u11 .nil))
  rw [M.bind_ok add2]
  refine ⟨_, delete_owned tree e11.2.2.1 n (by simp; omega), ?_⟩
  funext x
  exact (e11.undo w).2.2.2.2 x (by simp)

/-- The corners of `C90_run`, on an empty heap. -/
example : ∃ H', trajExample true 40 [.straight, .round false, .round false, .round false] ⟨fun _ => none, 0⟩ = some (.ok (), H') ∧
    ∀ x, H'.obj x = none := by
  obtain ⟨H', h1, h2⟩ := C90_memory true [.straight, .round false, .round false, .round false] (by simp [Corner.Fine]) ⟨fun _ => none, 0⟩
    (fun _ _ => rfl) 40 (by simp)
  exact ⟨H', h1, fun x => by rw [h2]⟩

end Mem

/-- Hypotheses of `C63_speed_partial`: the path of the program. -/
example : ∃ R, Built R waypoints ∧ LineOk R.F_base_start R.F_base_via := by
  obtain ⟨-, R, -, h1, h2, -⟩ := built
  exact ⟨R, h1, h2⟩

/-- Hypotheses of `C63_feasible_turn`: two legs of length 1 at a right angle, turning by 1 and 1/2. -/
example : ∃ R', RoundedComposite.add ⟨.new, 1 / 4, 1, 1, ⟨Rot.rot2 ⟨0, 0, 1⟩ 1, ⟨1, 0, 0⟩⟩, 2⟩
    ⟨Rot.rot2 ⟨0, 0, 1⟩ 1 * Rot.rot2 ⟨1, 0, 0⟩ (1 / 2), ⟨1, 1, 0⟩⟩ = (.ok (), R') := by
  have he := eps_val
  have hpi := pi_gt_three
  have d1 : (⟨1, 0, 0⟩ : Vec) - (1 : Frame).p = ⟨1, 0, 0⟩ := by ext <;> simp
  have d2 : (⟨1, 1, 0⟩ : Vec) - ⟨1, 0, 0⟩ = ⟨0, 1, 0⟩ := by ext <;> simp
  have l1 : (⟨1, 0, 0⟩ : Vec).len = 1 := by simp [Vec.len]
  have l2 : (⟨0, 1, 0⟩ : Vec).len = 1 := by simp [Vec.len]
  have u1 : dir ⟨1, 0, 0⟩ = ⟨1, 0, 0⟩ := by rw [dir, l1]; simp
  have u2 : dir ⟨0, 1, 0⟩ = ⟨0, 1, 0⟩ := by rw [dir, l2]; simp
  have hz : (⟨1, 0, 0⟩ : Vec).dot ⟨0, 1, 0⟩ = 0 := by simp [Vec.dot]
  obtain ⟨-, l, C, -, -, h⟩ := C63_feasible_turn ⟨.new, 1 / 4, 1, 1, ⟨Rot.rot2 ⟨0, 0, 1⟩ 1, ⟨1, 0, 0⟩⟩, 2⟩ 1
    ⟨Rot.rot2 ⟨0, 0, 1⟩ 1, ⟨1, 0, 0⟩⟩ ⟨Rot.rot2 ⟨0, 0, 1⟩ 1 * Rot.rot2 ⟨1, 0, 0⟩ (1 / 2), ⟨1, 1, 0⟩⟩ ⟨0, 0, 1⟩ ⟨1, 0, 0⟩ 1 (1 / 2) 0 (1 / 4)
    le_rfl Rot.IsProper.one (by simp [Vec.dot]) (by simp [Vec.dot]) (by norm_num) (by norm_num) (by simp) rfl (by
      dsimp only
      rw [zero_div, zero_mul, Rot.rot2_zero, mul_one, zero_smul, add_zero]) rfl (by
      dsimp only
      rw [d1, d2, u1, u2, hz, arccos_zero, show (π - π / 2) / 2 = π / 4 by ring, tan_pi_div_four]; norm_num)
    (by dsimp only; rw [he]; norm_num) (by dsimp only; rw [d1, l1]; norm_num) (by dsimp only; rw [d2, l2, he]; norm_num)
    (by dsimp only; rw [d1, d2, u1, u2, hz, arccos_zero, sin_pi_div_two, he]; norm_num)
    (by dsimp only; rw [d1, d2, u1, u2, l1, l2, hz, arccos_zero, sin_pi_div_two, he]; norm_num)
    (by dsimp only; rw [d1, l1, he]; norm_num) (by dsimp only; rw [d2, l2]; norm_num)
    (by
      intro x hx
      dsimp only at hx ⊢
      rw [d1, l1] at hx ⊢
      right
      have : x = 1 ∨ x = 3 / 4 := by
        simp only [List.mem_cons, List.not_mem_nil, or_false] at hx
        rcases hx with rfl | rfl
        · left; norm_num
        · right; norm_num
      have hx1 : 1 / 1000 ≤ x / 1 * 1 ∧ x / 1 * 1 ≤ 1 := by rcases this with rfl | rfl <;> norm_num
      exact ⟨by linarith, sin_big hx1.1 (by linarith)⟩)
    (.inr ⟨by linarith, sin_big (by norm_num) (by linarith)⟩)
    (by
      dsimp only
      rw [d1, d2, l1, l2]
      exact two_turns _ _ (by simp [Vec.dot]) (by simp [Vec.dot]) _ _ (by norm_num) (by norm_num) (by norm_num) (.inr (by norm_num)))
  exact ⟨_, h⟩

end KDL
