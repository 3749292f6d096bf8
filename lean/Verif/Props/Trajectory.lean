import Verif.Props.PathComposite
import Verif.Props.PathLine
import Verif.Props.TrapProfile
import Verif.Props.SimpleProfiles

/-!
# C65: trajectories

`Trajectory_Segment` runs along a path with a velocity profile, `Trajectory_Composite` runs its members one after the other.
-/

noncomputable section
namespace KDL
open Real

/-! ## `Trajectory_Segment` -/

/-- `Vel` and `Acc` of a path are the twist of the moving frame and the derivative of the twist, for every motion along the
path. -/
structure PathI.Moves (g : PathI) : Prop where
  vel : ∀ (s : ℝ → ℝ) (t sd : ℝ), HasDerivAt s sd t → Frame.HasTwist (fun t => g.pos (s t)) (g.vel (s t) sd) t
  acc : ∀ (s sd : ℝ → ℝ) (t sdd : ℝ), HasDerivAt s (sd t) t → HasDerivAt sd sdd t →
    Twist.HasDeriv (fun t => g.vel (s t) (sd t)) (g.acc (s t) (sd t) sdd) t

/-- Lines are such paths. -/
theorem PathLine.moves (A B : Frame) (r : ℝ) (h : LineOk A B) : (PathLine.ofFrames A B r).toPath.Moves :=
  ⟨fun s t sd hs => C60_vel A B r h.start h.stop h.turn s t sd hs, fun s sd t sdd _ hs => C60_acc A B r s sd t sdd hs⟩

/-- **C65 (velocity of a segment).** -/
theorem C65_segment_vel (g : PathI) (hg : g.Moves) (prof : ProfI) (t v : ℝ) (hv : prof.vel t = .val v)
    (hd : HasDerivAt prof.pos v t) :
    ∃ w, (trajSegment g prof).vel t = some w ∧ Frame.HasTwist (trajSegment g prof).pos w t := by
  refine ⟨g.vel (prof.pos t) v, ?_, hg.vel prof.pos t v hd⟩
  unfold trajSegment
  dsimp only
  rw [hv]

/-- **C65 (acceleration of a segment).**  Where the velocity of the profile is differentiable. -/
theorem C65_segment_acc (g : PathI) (hg : g.Moves) (prof : ProfI) (V : ℝ → ℝ) (hV : ∀ u, prof.vel u = .val (V u)) (t a : ℝ)
    (ha : prof.acc t = .val a) (hd : HasDerivAt prof.pos (V t) t) (hd' : HasDerivAt V a t) :
    ∃ W w, (∀ u, (trajSegment g prof).vel u = some (W u)) ∧ (trajSegment g prof).acc t = some w ∧ Twist.HasDeriv W w t := by
  refine ⟨fun u => g.vel (prof.pos u) (V u), g.acc (prof.pos t) (V t) a, ?_, ?_, hg.acc prof.pos V t a hd hd'⟩
  · intro u
    unfold trajSegment
    dsimp only
    rw [hV]
  · unfold trajSegment
    dsimp only
    rw [hV, ha]

/-- **C65 (ends of a segment).** -/
theorem C65_segment_ends (g : PathI) (prof : ProfI) (h0 : prof.pos 0 = 0) (h1 : prof.pos prof.duration = g.length) :
    (trajSegment g prof).pos 0 = g.pos 0 ∧ (trajSegment g prof).pos (trajSegment g prof).duration = g.pos g.length := by
  unfold trajSegment
  dsimp only
  rw [h0, h1]
  exact ⟨rfl, rfl⟩

/-- **C65 (a line with a trapezoidal profile).**  The usual combination, from the constructors to the motion: the trajectory
rests at `A` before time 0 and at `B` from `Duration()` on, `Vel` is its twist at every time, the linear speed and the speed
of a point at distance `eqradius` from the rotation axis never exceed the maximal velocity, and `Vel` changes at a rate of
at most the maximal acceleration. -/
theorem C65_line_trap (A B : Frame) (r : ℝ) (hr : 0 < r) (h : LineOk A B) (p p' : TrapProfile) (hv : 0 < p.maxvel)
    (ha : 0 < p.maxacc) (hl : (PathLine.ofFrames A B r).pathlength ≠ 0)
    (hp : p.setProfile 0 (PathLine.ofFrames A B r).pathlength = .ok p') :
    let T := trajSegment (PathLine.ofFrames A B r).toPath p'.q.toProf
    (∀ t ≤ 0, T.pos t = A) ∧ (∀ t, T.duration ≤ t → T.pos t = B) ∧
      (∀ t, ∃ w, T.vel t = some w ∧ Frame.HasTwist T.pos w t ∧ w.vel.len ≤ p.maxvel ∧ r * w.rot.len ≤ p.maxvel) ∧
      ∀ t u w w', T.vel t = some w → T.vel u = some w' →
        (w.vel - w'.vel).len ≤ p.maxacc * |t - u| ∧ r * (w.rot - w'.rot).len ≤ p.maxacc * |t - u| := by
  intro T
  obtain ⟨p'', e, law⟩ := C56_setProfile p hv ha 0 (PathLine.ofFrames A B r).pathlength
  rw [hp] at e
  injection e with e
  subst e
  have hT : ∀ t, T.vel t = some ((PathLine.ofFrames A B r).vel (p'.q.pos t) (p'.q.vel t)) := fun t => rfl
  refine ⟨fun t ht => ?_, fun t ht => ?_, fun t => ?_, fun t u w w' hw hw' => ?_⟩
  · show (PathLine.ofFrames A B r).pos (p'.q.pos t) = A
    rw [law.start t ht, C60_start]
  · show (PathLine.ofFrames A B r).pos (p'.q.pos t) = B
    rw [law.arrive t ht]
    exact C60_stop_partial A B r h (Or.inl hr)
  · obtain ⟨w, hw, htw⟩ := C65_segment_vel _ (PathLine.moves A B r h) p'.q.toProf t (p'.q.vel t) rfl (law.deriv t)
    refine ⟨w, hw, htw, ?_⟩
    have hw' : w = (PathLine.ofFrames A B r).vel (p'.q.pos t) (p'.q.vel t) := (Option.some.inj hw).symm
    obtain ⟨s1, s2, -⟩ := C60_speed A B r hr.le h hl (p'.q.pos t) (p'.q.vel t)
    rw [hw']
    exact ⟨s1.trans (law.vmax t), s2.trans (law.vmax t)⟩
  · rw [hT] at hw hw'
    simp only [Option.some.injEq] at hw hw'
    have hd : ∀ s s' a b, ((PathLine.ofFrames A B r).vel s a).vel - ((PathLine.ofFrames A B r).vel s' b).vel =
          ((PathLine.ofFrames A B r).vel s (a - b)).vel ∧
        ((PathLine.ofFrames A B r).vel s a).rot - ((PathLine.ofFrames A B r).vel s' b).rot =
          ((PathLine.ofFrames A B r).vel s (a - b)).rot := by
      intro s s' a b
      simp only [PathLine.vel, PathLine.ofFrames, PathLine.build, RotInterp.vel, RotInterp.setStartEnd]
      constructor <;> ext <;> simp <;> ring
    obtain ⟨d1, d2⟩ := hd (p'.q.pos t) (p'.q.pos u) (p'.q.vel t) (p'.q.vel u)
    obtain ⟨s1, s2, -⟩ := C60_speed A B r hr.le h hl (p'.q.pos t) (p'.q.vel t - p'.q.vel u)
    rw [← hw, ← hw', d1, d2]
    exact ⟨s1.trans (law.lip t u), s2.trans (law.lip t u)⟩

/-! ## `Trajectory_Composite` -/

namespace TrajComposite

/-- Composites built by the constructor and `Add`. -/
inductive Reach : TrajComposite → Prop
  | new : Reach .new
  | add {c} (h : Reach c) (e : TrajI) : Reach (c.add e)

/-- Start time of the member number `i`. -/
def start (es : List TrajI) (i : ℕ) : ℝ := ((es.take i).map TrajI.duration).sum

/-- Partial sums of the durations. -/
def sums : ℝ → List TrajI → List ℝ
  | _, [] => []
  | prev, e :: es => (prev + e.duration) :: sums (prev + e.duration) es

theorem sums_append (es : List TrajI) (e : TrajI) : ∀ prev,
    sums prev (es ++ [e]) = sums prev es ++ [prev + (es.map TrajI.duration).sum + e.duration] := by
  induction es with
  | nil => intro prev; simp [sums]
  | cons x xs ih => intro prev; simp [sums, ih, add_assoc]

theorem Reach.inv {c : TrajComposite} (h : Reach c) :
    c.vd = sums 0 c.vt ∧ c.duration = (c.vt.map TrajI.duration).sum := by
  induction h with
  | new => simp [TrajComposite.new, sums]
  | add h e ih =>
    obtain ⟨h1, h2⟩ := ih
    constructor
    · simp only [TrajComposite.add]
      rw [sums_append, h1, h2, zero_add]
    · simp [TrajComposite.add, h2]

theorem findLoop_at (t : ℝ) : ∀ (es : List TrajI) (prev : ℝ), (∀ e ∈ es, 0 ≤ e.duration) → ∀ i e, es[i]? = some e →
    prev + start es i ≤ t → t < prev + start es (i + 1) →
    findLoop t es (sums prev es) prev = some (e, t - (prev + start es i)) := by
  intro es
  induction es with
  | nil => intro prev _ i e h; simp at h
  | cons x xs ih =>
    intro prev hn i e hi h0 h1
    have hx := hn x (by simp)
    unfold sums findLoop
    cases i with
    | zero =>
      simp only [List.getElem?_cons_zero, Option.some.injEq] at hi
      subst hi
      simp only [start, List.take_succ_cons, List.take_zero, List.map_cons, List.map_nil, List.sum_cons, List.sum_nil,
        add_zero] at h1 ⊢
      rw [if_pos h1]
    | succ i =>
      simp only [List.getElem?_cons_succ] at hi
      have hs : ∀ j, start (x :: xs) (j + 1) = x.duration + start xs j := by
        intro j; simp [start]
      rw [hs] at h0 h1
      have hnn : 0 ≤ start xs i := by
        apply List.sum_nonneg
        intro y hy
        obtain ⟨e', he', rfl⟩ := List.mem_map.mp hy
        exact hn e' (List.mem_cons_of_mem _ (List.mem_of_mem_take he'))
      rw [if_neg (by linarith), hs, ih (prev + x.duration) (fun e he => hn e (List.mem_cons_of_mem _ he)) i e hi (by linarith)
        (by linarith)]
      rw [add_assoc]

theorem findLoop_none (t : ℝ) : ∀ (es : List TrajI) (prev : ℝ), (∀ e ∈ es, 0 ≤ e.duration) →
    prev + (es.map TrajI.duration).sum ≤ t → findLoop t es (sums prev es) prev = none := by
  intro es
  induction es with
  | nil => intro prev _ _; rfl
  | cons x xs ih =>
    intro prev hn h
    unfold sums findLoop
    simp only [List.map_cons, List.sum_cons] at h
    have hnn : 0 ≤ (xs.map TrajI.duration).sum := by
      apply List.sum_nonneg
      intro y hy
      obtain ⟨e', he', rfl⟩ := List.mem_map.mp hy
      exact hn e' (List.mem_cons_of_mem _ he')
    rw [if_neg (by linarith)]
    exact ih _ (fun e he => hn e (List.mem_cons_of_mem _ he)) (by linarith)

/-- **C65 (duration).**  The durations add up. -/
theorem C65_duration (c : TrajComposite) (h : Reach c) : c.duration = (c.vt.map TrajI.duration).sum := h.inv.2

theorem start_nonneg (es : List TrajI) (hn : ∀ e ∈ es, 0 ≤ e.duration) (i : ℕ) : 0 ≤ start es i := by
  apply List.sum_nonneg
  intro y hy
  obtain ⟨e', he', rfl⟩ := List.mem_map.mp hy
  exact hn e' (List.mem_of_mem_take he')

theorem find_at (c : TrajComposite) (h : Reach c) (hn : ∀ e ∈ c.vt, 0 ≤ e.duration) (i : ℕ) (e : TrajI)
    (hi : c.vt[i]? = some e) (t : ℝ) (h0 : start c.vt i ≤ t) (h1 : t < start c.vt (i + 1)) :
    c.find t = some (e, t - start c.vt i) := by
  have hp := start_nonneg c.vt hn i
  unfold find
  rw [if_neg (by linarith), h.inv.1, findLoop_at t c.vt 0 hn i e hi (by linarith) (by linarith)]
  simp

/-- **C65 (members one after the other).**  From the start of a member to just before its end `Pos`, `Vel` and `Acc` are those
of the member at the time since its start. -/
theorem C65_pos (c : TrajComposite) (h : Reach c) (hn : ∀ e ∈ c.vt, 0 ≤ e.duration) (i : ℕ) (e : TrajI)
    (hi : c.vt[i]? = some e) (t : ℝ) (h0 : start c.vt i ≤ t) (h1 : t < start c.vt (i + 1)) :
    c.pos t = some (e.pos (t - start c.vt i)) ∧ c.vel t = some (e.vel (t - start c.vt i)) ∧
      c.acc t = some (e.acc (t - start c.vt i)) := by
  unfold pos vel acc
  rw [find_at c h hn i e hi t h0 h1]
  exact ⟨rfl, rfl, rfl⟩

theorem find_after (c : TrajComposite) (h : Reach c) (hn : ∀ e ∈ c.vt, 0 ≤ e.duration) (e : TrajI)
    (he : c.vt.getLast? = some e) (t : ℝ) (h0 : c.duration ≤ t) : c.find t = some (e, e.duration) := by
  have hd : 0 ≤ c.duration := by
    rw [h.inv.2]
    apply List.sum_nonneg
    intro y hy
    obtain ⟨e', he', rfl⟩ := List.mem_map.mp hy
    exact hn e' he'
  unfold find
  rw [if_neg (by linarith), h.inv.1, findLoop_none t c.vt 0 hn (by rw [zero_add, ← h.inv.2]; exact h0), he]
  rfl

/-- **C65 (outside).**  Before time 0 the first member at its time 0, from `Duration()` on the last member at its end. -/
theorem C65_outside (c : TrajComposite) (h : Reach c) (hn : ∀ e ∈ c.vt, 0 ≤ e.duration) (t : ℝ) :
    (∀ e, c.vt.head? = some e → t < 0 → c.pos t = some (e.pos 0) ∧ c.vel t = some (e.vel 0) ∧ c.acc t = some (e.acc 0)) ∧
    (∀ e, c.vt.getLast? = some e → c.duration ≤ t →
      c.pos t = some (e.pos e.duration) ∧ c.vel t = some (e.vel e.duration) ∧ c.acc t = some (e.acc e.duration)) := by
  refine ⟨fun e he ht => ?_, fun e he ht => ?_⟩
  · have hf : c.find t = some (e, 0) := by
      unfold find
      rw [if_pos ht, he]; rfl
    unfold pos vel acc
    rw [hf]
    exact ⟨rfl, rfl, rfl⟩
  · unfold pos vel acc
    rw [find_after c h hn e he t ht]
    exact ⟨rfl, rfl, rfl⟩

/-- Each member ends where the next one starts. -/
def Joined (es : List TrajI) : Prop := ∀ i e f, es[i]? = some e → es[i + 1]? = some f → e.pos e.duration = f.pos 0

theorem start_succ (es : List TrajI) (i : ℕ) (e : TrajI) (hi : es[i]? = some e) :
    start es (i + 1) = start es i + e.duration := by
  obtain ⟨hl, rfl⟩ := List.getElem?_eq_some_iff.mp hi
  unfold start
  rw [List.take_add_one, hi, List.map_append, List.sum_append]
  simp [-List.map_take]

/-- **C65 (continuity).**  When every member ends where the next one starts and takes a positive time, `Pos` agrees with each
member on its whole closed time interval: it is continuous at the joints. -/
theorem C65_continuous (c : TrajComposite) (h : Reach c) (hn : ∀ e ∈ c.vt, 0 < e.duration) (hj : Joined c.vt) (i : ℕ)
    (e : TrajI) (hi : c.vt[i]? = some e) (t : ℝ) (h0 : start c.vt i ≤ t) (h1 : t ≤ start c.vt (i + 1)) :
    c.pos t = some (e.pos (t - start c.vt i)) := by
  have hn' : ∀ e ∈ c.vt, 0 ≤ e.duration := fun e he => (hn e he).le
  rcases h1.lt_or_eq with h1 | h1
  · exact (C65_pos c h hn' i e hi t h0 h1).1
  · have hd : t - start c.vt i = e.duration := by rw [h1, start_succ _ _ _ hi]; ring
    rw [hd]
    rcases hf : c.vt[i + 1]? with _ | f
    · have hil := (List.getElem?_eq_some_iff.mp hi).1
      have hlen : c.vt.length = i + 1 := by
        have := List.getElem?_eq_none_iff.mp hf
        omega
      have hlast : c.vt.getLast? = some e := by
        rw [List.getLast?_eq_getElem?, hlen]; exact hi
      refine ((C65_outside c h hn' t).2 e hlast ?_).1
      rw [C65_duration c h, h1]
      unfold start
      rw [List.take_of_length_le (by omega)]
    · have hfm : f ∈ c.vt := List.mem_of_getElem? hf
      have := (C65_pos c h hn' (i + 1) f hf t h1.ge (by rw [start_succ _ _ _ hf, h1]; linarith [hn f hfm])).1
      rw [this, h1, sub_self, hj i e f hi hf]

/-- **C65 (velocity).**  Strictly inside a member `Vel` is the twist of the composite trajectory, if it is that of the
member. -/
theorem C65_motion (c : TrajComposite) (h : Reach c) (hn : ∀ e ∈ c.vt, 0 ≤ e.duration) (i : ℕ) (e : TrajI)
    (hi : c.vt[i]? = some e) (t : ℝ) (h0 : start c.vt i < t) (h1 : t < start c.vt (i + 1)) (w : Twist)
    (hw : e.vel (t - start c.vt i) = some w) (hm : Frame.HasTwist e.pos w (t - start c.vt i)) (F : ℝ → Frame)
    (hF : ∀ u, c.pos u = some (F u)) : c.vel t = some (some w) ∧ Frame.HasTwist F w t := by
  refine ⟨by rw [(C65_pos c h hn i e hi t h0.le h1).2.1, hw], ?_⟩
  refine Frame.HasTwist.shift hm (fun u k0 k1 => ?_) h0 h1
  have := (C65_pos c h hn i e hi u k0.le k1).1
  rw [hF u] at this
  exact Option.some.inj this

/-- **C65 (empty composite).**  `vt[0]` and `vt[vt.size()-1]` do not exist. -/
theorem C65_empty (t : ℝ) : new.pos t = none ∧ new.vel t = none ∧ new.acc t = none := by
  have : new.find t = none := by
    unfold find new
    split_ifs <;> rfl
  unfold pos vel acc
  rw [this]
  exact ⟨rfl, rfl, rfl⟩

/-- One metre along `x` in one second with constant velocity. -/
def run : TrajI := trajSegment (slidePath 0 ⟨1, 0, 0⟩ 1) (RectProfile.toProf ⟨1, 0, 1, 1⟩)

/-- **C65 (velocity outside).**  After the end of a trajectory with a rectangular profile the position is constant, but `Vel`
of the composite keeps reporting the velocity of the motion; `Vel` of the member itself is zero there.  Likewise before
time 0. -/
theorem C65_rest_violated :
    let c := new.add run
    Reach c ∧ c.duration = 1 ∧ (∀ t, 1 ≤ t → c.pos t = some ⟨1, ⟨1, 0, 0⟩⟩ ∧ c.vel t = some (some ⟨⟨1, 0, 0⟩, 0⟩)) ∧
      (∀ t, t < 0 → c.pos t = some 1 ∧ c.vel t = some (some ⟨⟨1, 0, 0⟩, 0⟩)) ∧ ∀ t, 1 < t → run.vel t = some 0 := by
  intro c
  have hr : Reach c := .add .new run
  have hd : run.duration = 1 := rfl
  have hn : ∀ e ∈ c.vt, 0 ≤ e.duration := by
    intro e he
    simp only [c, TrajComposite.add, new, List.nil_append, List.mem_singleton] at he
    rw [he, hd]; norm_num
  have hdur : c.duration = 1 := by
    show 0 + run.duration = 1
    rw [hd]; ring
  have p1 : run.pos 1 = ⟨1, ⟨1, 0, 0⟩⟩ := by
    show (⟨1, 0 + RectProfile.pos ⟨1, 0, 1, 1⟩ 1 • (⟨1, 0, 0⟩ : Vec)⟩ : Frame) = _
    have : RectProfile.pos ⟨1, 0, 1, 1⟩ 1 = 1 := by simp [RectProfile.pos]
    rw [this, one_smul, zero_add]
  have p0 : run.pos 0 = 1 := by
    show (⟨1, 0 + RectProfile.pos ⟨1, 0, 1, 1⟩ 0 • (⟨1, 0, 0⟩ : Vec)⟩ : Frame) = ⟨1, 0⟩
    have : RectProfile.pos ⟨1, 0, 1, 1⟩ 0 = 0 := by simp [RectProfile.pos]
    rw [this, zero_smul, zero_add]
  have v : ∀ t, run.vel t = some ⟨RectProfile.vel ⟨1, 0, 1, 1⟩ t • (⟨1, 0, 0⟩ : Vec), 0⟩ := fun t => rfl
  have v1 : run.vel 1 = some ⟨⟨1, 0, 0⟩, 0⟩ := by
    rw [v]
    have : RectProfile.vel ⟨1, 0, 1, 1⟩ 1 = 1 := by simp [RectProfile.vel]
    rw [this, one_smul]
  have v0 : run.vel 0 = some ⟨⟨1, 0, 0⟩, 0⟩ := by
    rw [v]
    have : RectProfile.vel ⟨1, 0, 1, 1⟩ 0 = 1 := by simp [RectProfile.vel]
    rw [this, one_smul]
  refine ⟨hr, hdur, fun t ht => ?_, fun t ht => ?_, fun t ht => ?_⟩
  · obtain ⟨a, b, -⟩ := (C65_outside c hr hn t).2 run rfl (by rw [hdur]; exact ht)
    rw [a, b, hd, p1, v1]
    exact ⟨rfl, rfl⟩
  · obtain ⟨a, b, -⟩ := (C65_outside c hr hn t).1 run rfl ht
    rw [a, b, p0, v0]
    exact ⟨rfl, rfl⟩
  · rw [v]
    have : RectProfile.vel ⟨1, 0, 1, 1⟩ t = 0 := by
      unfold RectProfile.vel
      rw [if_neg (by linarith), if_pos ht]
    rw [this, zero_smul]
    rfl

/-- **C65 (Destroy).**  `Destroy` empties the composite but keeps its duration: an object that is filled again is late.  Here
the second trajectory takes one second, but the composite reports two. -/
theorem C65_destroy_violated :
    let c := ((new.add run).destroy).add run
    c.vt = [run] ∧ run.duration = 1 ∧ c.duration = 2 := by
  intro c
  have hd : run.duration = 1 := rfl
  refine ⟨rfl, hd, ?_⟩
  show 0 + run.duration + run.duration = 2
  rw [hd]; norm_num

/-- **C65 (Destroy), partial.**  The full claim is `(c.destroy.add e).duration = e.duration` for every composite; it holds only
when the discarded members took no time. -/
theorem C65_destroy_partial (c : TrajComposite) (h : Reach c) (hz : c.duration = 0) (e : TrajI) :
    (c.destroy.add e).duration = e.duration ∧ (c.destroy.add e).vt = [e] ∧ c.destroy = new := by
  refine ⟨?_, rfl, ?_⟩
  · show c.duration + e.duration = e.duration
    rw [hz, zero_add]
  · show (⟨[], [], c.duration⟩ : TrajComposite) = ⟨[], [], 0⟩
    rw [hz]

/-- Non-vacuity: two runs of one second, joined by a stop of half a second. -/
example : ∃ c : TrajComposite, Reach c ∧ (∀ e ∈ c.vt, 0 < e.duration) ∧ Joined c.vt ∧ c.duration = 3 / 2 := by
  have hd : run.duration = 1 := rfl
  have p1 : run.pos 1 = ⟨1, ⟨1, 0, 0⟩⟩ := by
    show (⟨1, 0 + RectProfile.pos ⟨1, 0, 1, 1⟩ 1 • (⟨1, 0, 0⟩ : Vec)⟩ : Frame) = _
    have : RectProfile.pos ⟨1, 0, 1, 1⟩ 1 = 1 := by simp [RectProfile.pos]
    rw [this, one_smul, zero_add]
  refine ⟨(new.add run).add (trajStationary (1 / 2) ⟨1, ⟨1, 0, 0⟩⟩), .add (.add .new _) _, ?_, ?_, ?_⟩
  · intro e he
    simp only [TrajComposite.add, new, List.nil_append, List.cons_append, List.mem_cons, List.not_mem_nil, or_false] at he
    rcases he with rfl | rfl
    · rw [hd]; norm_num
    · show (0 : ℝ) < 1 / 2
      norm_num
  · intro i e f hi hf
    match i with
    | 0 =>
      simp only [TrajComposite.add, new, List.nil_append, List.cons_append, List.getElem?_cons_zero, Option.some.injEq] at hi hf
      simp only [zero_add, List.getElem?_cons_succ, List.getElem?_cons_zero, Option.some.injEq] at hf
      subst hi hf
      rw [hd, p1]; rfl
    | i + 1 => simp [TrajComposite.add, new] at hf
  · show 0 + run.duration + 1 / 2 = 3 / 2
    rw [hd]; norm_num

end TrajComposite
end KDL
