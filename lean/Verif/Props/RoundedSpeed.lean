import Verif.Lemmas.Leg

/-!
# C63: rounded paths whose legs turn, and the speed along them
-/

noncomputable section
namespace KDL
open Real PathComposite

theorem Vec.dot_le_len (a b : Vec) : a.dot b ≤ a.len * b.len := by
  refine le_of_abs_le (abs_le_of_sq_le_sq ?_ (mul_nonneg a.len_nonneg b.len_nonneg))
  rw [mul_pow, Vec.len_sq, Vec.len_sq]
  simp only [Vec.dot]
  nlinarith [sq_nonneg (a.x * b.y - a.y * b.x), sq_nonneg (a.x * b.z - a.z * b.x), sq_nonneg (a.y * b.z - a.z * b.y)]

theorem Vec.len_add_le (a b : Vec) : (a + b).len ≤ a.len + b.len := by
  refine le_of_abs_le (abs_le_of_sq_le_sq ?_ (add_nonneg a.len_nonneg b.len_nonneg))
  have h := Vec.dot_le_len a b
  have e1 := Vec.len_sq (a + b)
  have e2 := Vec.len_sq a
  have e3 := Vec.len_sq b
  have : (a + b).dot (a + b) = a.dot a + b.dot b + 2 * a.dot b := by simp [Vec.dot]; ring
  nlinarith

/-- The position moves at most as far as the path parameter. -/
def PathI.Slow (g : PathI) : Prop := ∀ s t, ((g.pos t).p - (g.pos s).p).len ≤ |t - s|

theorem line_slow (A B : Frame) (r : ℝ) (hr : 0 < r) (h : LineOk A B) : (PathLine.ofFrames A B r).toPath.Slow := by
  intro s t
  show (((PathLine.ofFrames A B r).pos t).p - ((PathLine.ofFrames A B r).pos s).p).len ≤ _
  have e : ((PathLine.ofFrames A B r).pos t).p - ((PathLine.ofFrames A B r).pos s).p =
      ((t - s) * (PathLine.ofFrames A B r).scalelin) • (B.p - A.p).normalize.1 := by
    have q : ∀ x, ((PathLine.ofFrames A B r).pos x).p = A.p + (x * (PathLine.ofFrames A B r).scalelin) • (B.p - A.p).normalize.1 :=
      fun x => rfl
    rw [q, q, sub_mul, sub_smul]; abel
  rw [e]
  by_cases hl : (PathLine.ofFrames A B r).pathlength ≠ 0
  · exact (C60_speed A B r hr.le h hl 0 (t - s)).1
  · have hz : (PathLine.ofFrames A B r).scalelin = 1 := by
      have e1 : (PathLine.ofFrames A B r).scalelin = (PathLine.scales (A.M.inv * B.M).getRotAngle.2 (B.p - A.p).normalize.2 r).2.2 := rfl
      have e2 : (PathLine.ofFrames A B r).pathlength = (PathLine.scales (A.M.inv * B.M).getRotAngle.2 (B.p - A.p).normalize.2 r).1 := rfl
      have hl := not_not.mp hl
      rw [e2] at hl
      rw [e1]
      unfold PathLine.scales at hl ⊢
      split_ifs at hl ⊢ with c1 c2
      · exact absurd hl (mul_ne_zero c1.1 hr.ne')
      · rfl
      · rfl
    rw [Vec.len_smul_unit _ _ (Vec.normalize_unit _), hz, mul_one]

theorem circle_slow (F : Frame) (ctr p : Vec) (R : Rot) (alpha eq : ℝ) (C : PathCircle)
    (h : PathCircle.new F ctr p R alpha eq = .ok C) (hF : F.IsProper) (hR : R.IsProper)
    (hres : (F.M.inv * R).Resolved) (ha : 0 ≤ alpha) (he : 0 ≤ eq) : C.toPath.Slow := by
  intro s t
  obtain ⟨sp, -⟩ := circle_spec F ctr p R alpha eq C h
  have hr := sp.radius_pos
  have hsp := (C61_speed F ctr p R alpha eq C h hF hR hres ha he 0 (t - s)).2.1
  show ((C.pos t).p - (C.pos s).p).len ≤ _
  refine le_trans ?_ hsp
  have e1 : (C.vel 0 (t - s)).vel = C.F_base_center.M * (⟨0, (t - s) * C.scalelin, 0⟩ : Vec) := by
    show C.F_base_center.M * (_ : Vec) = _
    congr 1
    ext
    · simp
    · simp; field_simp
    · rfl
  have e2 : (C.pos t).p - (C.pos s).p = C.F_base_center.M *
      (⟨C.radius * cos (t * C.scalelin / C.radius) - C.radius * cos (s * C.scalelin / C.radius),
        C.radius * sin (t * C.scalelin / C.radius) - C.radius * sin (s * C.scalelin / C.radius), 0⟩ : Vec) := by
    show (C.F_base_center.M * (_ : Vec) + C.F_base_center.p) - (C.F_base_center.M * (_ : Vec) + C.F_base_center.p) = _
    ext <;> simp <;> ring
  rw [e1, e2, Rot.IsProper.len sp.frame, Rot.IsProper.len sp.frame]
  refine le_of_abs_le (abs_le_of_sq_le_sq ?_ (Vec.len_nonneg _))
  rw [Vec.len_sq, Vec.len_sq]
  simp only [Vec.dot]
  set x := t * C.scalelin / C.radius with hx
  set y := s * C.scalelin / C.radius with hy
  have hxy : (t - s) * C.scalelin = C.radius * (x - y) := by rw [hx, hy]; field_simp
  have k := one_sub_sq_div_two_le_cos (x := x - y)
  rw [cos_sub] at k
  have h1 := sin_sq_add_cos_sq x
  have h2 := sin_sq_add_cos_sq y
  rw [hxy]
  have : (C.radius * cos x - C.radius * cos y) * (C.radius * cos x - C.radius * cos y) +
      (C.radius * sin x - C.radius * sin y) * (C.radius * sin x - C.radius * sin y) + 0 * 0 =
      C.radius ^ 2 * (2 - 2 * (cos x * cos y + sin x * sin y)) := by
    linear_combination C.radius ^ 2 * h1 + C.radius ^ 2 * h2
  rw [this]
  have hr2 : 0 ≤ C.radius ^ 2 := sq_nonneg _
  nlinarith [mul_le_mul_of_nonneg_left k hr2]

/-- Along joined segments of this kind the position moves at most as far as the path parameter. -/
theorem slow_chain {gs : List PathI} (hj : Joined gs) (hn : ∀ g ∈ gs, 0 ≤ g.length) (hs : ∀ g ∈ gs, g.Slow) (i : ℕ) (g : PathI) (hg : gs[i]? = some g) :
    ∀ (k : ℕ) (h : PathI), gs[i + k]? = some h → ∀ s t, s ≤ t → s ≤ pre gs (i + 1) → pre gs (i + k) ≤ t →
      ((h.pos (t - pre gs (i + k))).p - (g.pos (s - pre gs i)).p).len ≤ t - s := by
  intro k
  induction k with
  | zero =>
    intro h hh s t hst _ _
    rw [Nat.add_zero] at hh ⊢
    rw [hg] at hh
    cases hh
    have := hs g (List.mem_of_getElem? hg) (s - pre gs i) (t - pre gs i)
    rwa [show t - pre gs i - (s - pre gs i) = t - s by ring, abs_of_nonneg (by linarith)] at this
  | succ k ih =>
    intro h hh s t hst h1 h2
    have hk : i + k < gs.length := by
      have := (List.getElem?_eq_some_iff.mp hh).1; omega
    obtain ⟨m, hm⟩ : ∃ m, gs[i + k]? = some m := ⟨_, List.getElem?_eq_getElem hk⟩
    have hmid := pre_succ gs (i + k) m hm
    have hml := hn m (List.mem_of_getElem? hm)
    have hmono := pre_mono gs hn (show i + 1 ≤ i + k + 1 by omega)
    have a := ih m hm s (pre gs (i + k + 1)) (by linarith) h1 (by linarith)
    rw [show pre gs (i + k + 1) - pre gs (i + k) = m.length by rw [hmid]; ring, hj (i + k) m h hm hh] at a
    have b := hs h (List.mem_of_getElem? hh) 0 (t - pre gs (i + k + 1))
    rw [sub_zero, abs_of_nonneg (by rw [← add_assoc] at h2; linarith)] at b
    rw [← add_assoc]
    have := Vec.len_add_le ((h.pos (t - pre gs (i + k + 1))).p - (h.pos 0).p) ((h.pos 0).p - (g.pos (s - pre gs i)).p)
    rw [sub_add_sub_cancel] at this
    linarith

theorem composite_slow (c : PathComposite) (h : Reach c) (hne : c.gv ≠ []) (hn : ∀ g ∈ c.gv, 0 ≤ g.length) (hj : Joined c.gv)
    (hs : ∀ g ∈ c.gv, g.Slow) (s t : ℝ) (h0 : 0 ≤ s) (hst : s ≤ t) (h1 : t ≤ c.pathlength) :
    ∃ F G d d', c.pos s = some (F, d) ∧ c.pos t = some (G, d') ∧ (G.p - F.p).len ≤ t - s := by
  obtain ⟨F, d, p1, -, -, e1⟩ := C62_pos c h hne hn hj s h0 (hst.trans h1)
  obtain ⟨G, d', p2, -, -, e2⟩ := C62_pos c h hne hn hj t (h0.trans hst) h1
  refine ⟨F, G, d, d', p1, p2, ?_⟩
  obtain ⟨-, c1, g, -, -, hg, -, a1, a2⟩ := lookup_spec h.inv hne hn s h0 (hst.trans h1)
  obtain ⟨-, c2, g', -, -, hg', -, b1, b2⟩ := lookup_spec h.inv hne hn t (h0.trans hst) h1
  rcases le_or_gt c1.cachedIndex c2.cachedIndex with hle | hlt
  · obtain ⟨k, hk⟩ := Nat.exists_eq_add_of_le hle
    rw [hk] at hg' b1 b2
    rw [e1 _ _ hg a1 a2, e2 _ _ hg' b1 b2]
    exact slow_chain hj hn hs _ g hg k g' hg' s t hst a2 b1
  · have := pre_mono c.gv hn (show c2.cachedIndex + 1 ≤ c1.cachedIndex by omega)
    have hts : t = s := le_antisymm (by linarith) hst
    subst hts
    rw [e1 _ _ hg a1 a2, e2 _ _ hg a1 a2, sub_self, sub_self, Vec.len_zero]

/-- The segments of a rounded path. -/
theorem Built.slow {R : RoundedComposite} {pts : List Frame} (h : Built R pts) : ∀ g ∈ R.comp.gv, g.Slow := by
  induction h with
  | @new radius eqradius R h =>
    unfold RoundedComposite.new at h
    split_ifs at h with he
    injection h with h
    subst h
    simp [PathComposite.new]
  | @add R R' pts F hb ha hs ih =>
    have sp := hb.spec
    unfold RoundedComposite.add at ha
    by_cases n0 : R.nrofpoints = 0
    · rw [if_pos n0] at ha
      simp only [Prod.mk.injEq, true_and] at ha
      subst ha
      exact ih
    rw [if_neg n0] at ha
    by_cases n1 : R.nrofpoints = 1
    · rw [if_pos n1] at ha
      simp only [Prod.mk.injEq, true_and] at ha
      subst ha
      exact ih
    rw [if_neg n1] at ha
    obtain ⟨hs1, hs2⟩ := hs (by omega)
    dsimp only at ha
    by_cases c1 : (R.F_base_via.p - R.F_base_start.p).norm < 1 / 10 ^ 7
    · rw [if_pos c1] at ha; cases ha
    rw [if_neg c1] at ha
    by_cases c2 : (F.p - R.F_base_via.p).norm < 1 / 10 ^ 7
    · rw [if_pos c2] at ha; cases ha
    rw [if_neg c2] at ha
    by_cases c3 : π - RoundedComposite.cornerAngle (R.F_base_via.p - R.F_base_start.p) (F.p - R.F_base_via.p) < 1 / 10 ^ 7
    · rw [if_pos c3] at ha; cases ha
    rw [if_neg c3] at ha
    by_cases c4 : RoundedComposite.cornerAngle (R.F_base_via.p - R.F_base_start.p) (F.p - R.F_base_via.p) < 1 / 10 ^ 7
    · rw [if_pos c4] at ha
      simp only [Prod.mk.injEq, true_and] at ha
      subst ha
      intro g hg
      simp only [PathComposite.add, List.mem_append, List.mem_singleton] at hg
      rcases hg with hg | rfl
      · exact ih g hg
      · exact line_slow _ _ _ sp.eq_pos (hs1 c4)
    rw [if_neg c4] at ha
    split_ifs at ha
    · cases ha
    · cases ha
    · split at ha
      · cases ha
      · rename_i l cres E hcorner
        split at ha
        · rename_i C
          simp only [Prod.mk.injEq, true_and] at ha
          subst ha
          obtain ⟨k1, k2, k3, k4⟩ := hs2 (not_lt.mp c4) l C E hcorner
          obtain ⟨q1, q2, q3, q4, q5, q6, q7, q8, q9, q10, q11, q12⟩ := C63_corner_partial _ _ _ _ _ k1 l C E hcorner
          obtain ⟨S, ctr, hnew⟩ := corner_circle _ _ _ _ _ _ _ _ _ _ hcorner
          have hS := C61_start _ _ _ _ _ _ _ hnew
          rw [← hS] at hnew
          intro g hg
          simp only [PathComposite.add, List.mem_append, List.mem_singleton] at hg
          rcases hg with (hg | rfl) | rfl
          · exact ih g hg
          · rw [q1]; exact line_slow _ _ _ sp.eq_pos k2
          · exact circle_slow _ _ _ _ _ _ _ hnew k2.stop k3 k4 q4.le sp.eq_pos.le
        all_goals cases ha

/-- Along a finished path the position moves at most as far as the path parameter: a velocity limit of the profile is a limit
of the linear speed.  As in `C63_path_partial` outside the tolerance bands only. -/
theorem C63_speed_partial (R : RoundedComposite) (pts : List Frame) (h : Built R pts) (h2 : 2 ≤ pts.length)
    (hl : LineOk R.F_base_start R.F_base_via) (s t : ℝ) (h0 : 0 ≤ s) (hst : s ≤ t) (h1 : t ≤ R.finish.comp.pathlength) :
    ∃ F G c c', R.finish.comp.pos s = some (F, c) ∧ R.finish.comp.pos t = some (G, c') ∧ (G.p - F.p).len ≤ t - s := by
  have sp := h.spec
  obtain ⟨A, hA⟩ : ∃ A, pts.head? = some A := by
    cases pts with
    | nil => simp at h2
    | cons a _ => exact ⟨a, rfl⟩
  have hf : R.finish = { R with comp := R.comp.add (PathLine.ofFrames R.F_base_start R.F_base_via R.eqradius).toPath } := by
    unfold RoundedComposite.finish
    rw [if_pos (by rw [sp.count]; omega)]
  have hr := (sp.runs A hA).line _ sp.eq_pos hl
  have hsl : ∀ g ∈ (R.comp.add (PathLine.ofFrames R.F_base_start R.F_base_via R.eqradius).toPath).gv, g.Slow := by
    intro g hg
    simp only [PathComposite.add, List.mem_append, List.mem_singleton] at hg
    rcases hg with hg | rfl
    · exact h.slow g hg
    · exact line_slow _ _ _ sp.eq_pos hl
  rw [hf] at h1 ⊢
  dsimp only at h1 ⊢
  exact composite_slow _ hr.reach (by simp [PathComposite.add]) hr.nonneg hr.joined hsl s t h0 hst h1

/-- A corner whose legs may turn: `Add` accepts the point `P` and appends a line and a circle.  `a1`, `θ1` and `a2`, `θ2` are axis
and angle of the turns of the two legs, `d` is the distance from the corner to the touching points of the circle; the path so
far ends at distance `o` from the start `A` of the first leg (it is the end of the previous corner).  The circle starts on the
first leg, the next line on the second one, with the orientations of the legs there.  In `C63_feasible` the legs do not turn. -/
theorem C63_feasible_turn (R : RoundedComposite) (A V P : Frame) (a1 a2 : Vec) (θ1 θ2 o d : ℝ) (h2 : 2 ≤ R.nrofpoints)
    (hA : A.IsProper) (ha1 : a1.dot a1 = 1) (ha2 : a2.dot a2 = 1) (hθ1 : 0 ≤ θ1) (hθ2 : 0 ≤ θ2)
    (hV : V.M = A.M * Rot.rot2 a1 θ1) (hP : P.M = V.M * Rot.rot2 a2 θ2)
    (hstart : R.F_base_start = ⟨A.M * Rot.rot2 a1 (o / (V.p - A.p).len * θ1), A.p + o • dir (V.p - A.p)⟩) (hvia : R.F_base_via = V)
    (hd : d = R.radius / tan ((π - arccos ((dir (V.p - A.p)).dot (dir (P.p - V.p)))) / 2))
    -- the lengths
    (hr : 2 * epsilon ≤ R.radius) (hab : 0 < (V.p - A.p).len) (hbc : 2 * epsilon ≤ (P.p - V.p).len)
    (hbend : 2 * epsilon ≤ sin (arccos ((dir (V.p - A.p)).dot (dir (P.p - V.p)))))
    (harea : 2 * epsilon ≤ ((V.p - A.p).len - o) ^ 2 * (P.p - V.p).len * sin (arccos ((dir (V.p - A.p)).dot (dir (P.p - V.p)))))
    (hbefore : 2 * epsilon ≤ (V.p - A.p).len - d - o) (hafter : d < (P.p - V.p).len)
    -- the turns are nothing or outside the tolerance band
    (ht : ∀ x ∈ [(V.p - A.p).len - o, (V.p - A.p).len - d - o], θ1 = 0 ∨
      (x / (V.p - A.p).len * θ1 < π ∧ epsilon ≤ sin (x / (V.p - A.p).len * θ1)))
    (ht2 : θ2 = 0 ∨ (θ2 < π ∧ epsilon ≤ sin θ2))
    (ht3 : (Rot.rot2 a1 (d / (V.p - A.p).len * θ1) * Rot.rot2 a2 (d / (P.p - V.p).len * θ2)).Resolved) :
    StepOk R P ∧ ∃ (l : PathLine) (C : PathCircle),
      l = PathLine.ofFrames R.F_base_start (C.pos 0) R.eqradius ∧
      C.pos 0 = ⟨A.M * Rot.rot2 a1 (((V.p - A.p).len - d) / (V.p - A.p).len * θ1), V.p - d • dir (V.p - A.p)⟩ ∧
      R.add P = (.ok (), { R with
        comp := (R.comp.add l.toPath).add C.toPath
        F_base_start := ⟨V.M * Rot.rot2 a2 (d / (P.p - V.p).len * θ2), V.p + d • dir (P.p - V.p)⟩
        F_base_via := P
        nrofpoints := R.nrofpoints + 1 }) := by
  have he := epsilon_pos
  have hbc0 : 0 < (P.p - V.p).len := by linarith
  have e1 := len_dir _ hab
  have e2 := len_dir _ hbc0
  have u : ∀ v : Vec, 0 < v.len → (dir v).dot (dir v) = 1 := by
    intro v hv
    have h := congrArg (fun w : Vec => w.dot w) (len_dir v hv)
    simp only [Vec.smul_dot, Vec.dot_smul] at h
    have h' := Vec.len_sq v
    have : v.len ^ 2 * ((dir v).dot (dir v) - 1) = 0 := by rw [← h'] at h; linarith
    rcases mul_eq_zero.mp this with k | k
    · exact absurd k (pow_ne_zero 2 hv.ne')
    · linarith
  set g : Leg := ⟨A, dir (V.p - A.p), (V.p - A.p).len, a1, θ1⟩ with hg
  set k : Leg := ⟨V, dir (P.p - V.p), (P.p - V.p).len, a2, θ2⟩ with hk
  have hgo : g.Ok := ⟨hA, u _ hab, ha1, hab, hθ1⟩
  have hVp : V.IsProper := by
    show V.M.IsProper
    rw [hV]
    exact Rot.IsProper.mul hA (Rot.isProper_rot2 _ ha1 _)
  have hko : k.Ok := ⟨hVp, u _ hbc0, ha2, hbc0, hθ2⟩
  have gV : g.at g.L = V := by
    unfold Leg.at
    rw [div_self hab.ne', one_mul]
    refine Frame.ext hV.symm ?_
    show A.p + (V.p - A.p).len • dir (V.p - A.p) = V.p
    rw [← e1]; abel
  have kP : k.at k.L = P := by
    unfold Leg.at
    rw [div_self hbc0.ne', one_mul]
    refine Frame.ext hP.symm ?_
    show V.p + (P.p - V.p).len • dir (P.p - V.p) = P.p
    rw [← e2]; abel
  obtain ⟨-, hstep, C, hC, -, hadd⟩ := Leg.corner R g k hgo hko o d h2 (by rw [hstart]; rfl) (by rw [hvia, gV]) (by rw [gV])
    ⟨hd, hr, hbend, harea, hbefore, hafter, hbc, ht _ (List.mem_cons_self ..), ht _ (List.mem_cons_of_mem _ (List.mem_cons_self ..)),
      by rcases ht2 with h | h
         · exact Or.inl h
         · right; show (P.p - V.p).len / (P.p - V.p).len * θ2 < π ∧ epsilon ≤ sin ((P.p - V.p).len / (P.p - V.p).len * θ2)
           rw [div_self hbc0.ne', one_mul]; exact h, ht3⟩
  rw [kP] at hstep hadd
  refine ⟨hstep, _, C, rfl, ?_, ?_⟩
  · rw [hC]
    refine Frame.ext rfl ?_
    show A.p + ((V.p - A.p).len - d) • dir (V.p - A.p) = _
    rw [sub_smul, ← e1]; abel_nf
  · rw [hadd, hC, hstart]
    rfl

end KDL
