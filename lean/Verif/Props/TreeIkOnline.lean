import Verif.Lemmas.TreeIk
import Verif.Props.IkPos
import Verif.Lemmas.Rotations
import Mathlib.Tactic.Positivity
import Mathlib.Tactic.FieldSimp

/-!
# C53: online inverse position solver for trees (`TreeIkSolverPos_Online`)
-/

noncomputable section

namespace KDL

/-! ## Joint velocity limits -/

/-- `s` is the largest factor in `[0, 1]` that brings the joint rates within `± m`. -/
structure IsMaxScale (qd m : List ℝ) (s : ℝ) : Prop where
  nonneg : 0 ≤ s
  le_one : s ≤ 1
  bound : ∀ j, j < qd.length → |qd.getD j 0 * s| ≤ m.getD j 0
  max : ∀ s', 0 ≤ s' → s' ≤ 1 → (∀ j, j < qd.length → |qd.getD j 0 * s'| ≤ m.getD j 0) → s' ≤ s

theorem getD_lt (l : List ℝ) (d : ℝ) {j : ℕ} (h : j < l.length) : l.getD j d = l[j] := by
  simp [List.getD_eq_getElem?_getD, List.getElem?_eq_getElem h]

theorem mem_zip_getD {a b : List ℝ} (hl : a.length = b.length) (p : ℝ × ℝ) :
    p ∈ a.zip b ↔ ∃ j, j < a.length ∧ p = (a.getD j 0, b.getD j 0) := by
  rw [List.mem_iff_getElem]
  constructor
  · rintro ⟨j, hj, rfl⟩
    rw [List.length_zip] at hj
    refine ⟨j, by omega, ?_⟩
    rw [List.getElem_zip, getD_lt _ _ (by omega), getD_lt _ _ (by omega)]
  · rintro ⟨j, hj, rfl⟩
    refine ⟨j, by rw [List.length_zip]; omega, ?_⟩
    rw [List.getElem_zip, getD_lt _ _ (by omega), getD_lt _ _ (by omega)]

/-- `enforceJointVelLimits` multiplies all joint rates by one factor, the largest one in `[0, 1]` for which no rate exceeds
its limit.  A limit of 0 is allowed. -/
theorem C53_joint_velocity (qd m : List ℝ) (hl : qd.length = m.length) (hm : ∀ x ∈ m, 0 ≤ x) :
    ∃ s, enforceJoint qd m = some (qd.map (· * s)) ∧ IsMaxScale qd m s := by
  obtain ⟨e, r, h1, h2, -, h4, h5⟩ := overshoot_eq qd m hl hm false 0 le_rfl (fun _ => rfl)
  have hmj : ∀ j, j < qd.length → 0 ≤ m.getD j 0 := fun j hj => by
    rw [getD_lt _ _ (hl ▸ hj)]; exact hm _ (List.getElem_mem _)
  cases e with
  | false =>
    refine ⟨1, ?_, zero_le_one, le_rfl, fun j hj => ?_, fun s' _ h _ => h⟩
    · rw [enforceJoint, h1]; simp
    · rw [mul_one]
      by_contra hn
      have := (h4 (qd.getD j 0, m.getD j 0) ((mem_zip_getD hl _).mpr ⟨j, hj, rfl⟩) (not_le.mp hn)).1
      exact absurd this (by simp)
  | true =>
    obtain ⟨p, hp, hlt, rfl⟩ : ∃ p ∈ qd.zip m, p.2 < |p.1| ∧ r = posDiv (|p.1| - p.2) p.2 := by
      rcases h5 rfl with ⟨h, -⟩ | h
      · exact absurd h (by simp)
      · exact h
    have hs := velScale_nonneg h2
    refine ⟨velScale (posDiv (|p.1| - p.2) p.2), ?_, hs.1, hs.2, fun j hj => ?_, fun s' h0 _ hb => ?_⟩
    · rw [enforceJoint, h1]; simp
    · by_cases hx : m.getD j 0 < |qd.getD j 0|
      · exact velScale_bound (hmj j hj) hx (h4 (qd.getD j 0, m.getD j 0) ((mem_zip_getD hl _).mpr ⟨j, hj, rfl⟩) hx).2
      · rw [abs_mul, abs_of_nonneg hs.1]
        exact (mul_le_of_le_one_right (abs_nonneg _) hs.2).trans (not_lt.mp hx)
    · obtain ⟨j, hj, rfl⟩ := (mem_zip_getD hl _).mp hp
      exact velScale_max (hmj j hj) hlt h0 (hb j hj)

/-- Non-vacuity: a rate of 4 with limit 1 and one of −1 with limit 2 are both divided by 4. -/
example : ∃ s, enforceJoint [4, -1] [1, 2] = some ([4, -1].map (· * s)) ∧ IsMaxScale [4, -1] [1, 2] s :=
  C53_joint_velocity _ _ rfl (by simp)

/-! ## Cartesian velocity limits -/

theorem Vec.len_smul (a : ℝ) (ha : 0 ≤ a) (v : Vec) : (a • v).len = a * v.len := by
  unfold Vec.len
  rw [← Real.sqrt_sq ha, ← Real.sqrt_mul (sq_nonneg a), Real.sqrt_sq ha]
  congr 1
  simp only [Vec.smul_x, Vec.smul_y, Vec.smul_z]; ring

/-- Documented aim of `enforceCartVelLimits`: "Scales translational and rotational velocity by the same factor so that both
are within their limits", and not more than needed. -/
structure IsMaxCart (tmax rmax : ℝ) (t : Twist) (s : ℝ) : Prop where
  nonneg : 0 ≤ s
  le_one : s ≤ 1
  trans : s * t.vel.len ≤ tmax
  rot : s * t.rot.len ≤ rmax
  max : ∀ s', 0 ≤ s' → s' ≤ 1 → s' * t.vel.len ≤ tmax → s' * t.rot.len ≤ rmax → s' ≤ s

/-- A twist within the limits is left alone. -/
theorem C53_cart_inside (tmax rmax : ℝ) (t : Twist) (h1 : t.vel.len ≤ tmax) (h2 : t.rot.len ≤ rmax) :
    enforceCart tmax rmax t = t := by
  unfold Vec.len at h1 h2
  unfold enforceCart
  exact if_neg (by rw [not_or]; exact ⟨not_lt.mpr h1, not_lt.mpr h2⟩)

/-- What is done to a twist outside the limits: the whole twist is scaled so that the component of larger length (not the
one that exceeds its limit most) gets the length of its limit; nothing is done if both components have the same length. -/
theorem C53_cart_outside (tmax rmax : ℝ) (ht : 0 ≤ tmax) (hr : 0 ≤ rmax) (t : Twist) (h : tmax < t.vel.len ∨ rmax < t.rot.len) :
    (t.rot.len < t.vel.len → ∃ s, 0 ≤ s ∧ enforceCart tmax rmax t = ⟨s • t.vel, s • t.rot⟩ ∧ s * t.vel.len = tmax) ∧
    (t.vel.len < t.rot.len → ∃ s, 0 ≤ s ∧ enforceCart tmax rmax t = ⟨s • t.vel, s • t.rot⟩ ∧ s * t.rot.len = rmax) ∧
    (t.vel.len = t.rot.len → enforceCart tmax rmax t = t) := by
  have hv := t.vel.len_nonneg
  have hw := t.rot.len_nonneg
  unfold enforceCart
  dsimp only
  change (_ → ∃ s, 0 ≤ s ∧ (if t.vel.len > tmax ∨ t.rot.len > rmax then _ else _) = _ ∧ _) ∧
    (_ → ∃ s, 0 ≤ s ∧ (if t.vel.len > tmax ∨ t.rot.len > rmax then _ else _) = _ ∧ _) ∧
    (_ → (if t.vel.len > tmax ∨ t.rot.len > rmax then _ else _) = _)
  rw [if_pos h]
  refine ⟨fun hlt => ⟨tmax / t.vel.len, by positivity, if_pos hlt, ?_⟩,
    fun hlt => ⟨rmax / t.rot.len, by positivity, ?_, ?_⟩, fun he => ?_⟩
  · field_simp [(lt_of_le_of_lt hw hlt).ne']
  · exact (if_neg (not_lt.mpr hlt.le)).trans (if_pos hlt)
  · field_simp [(lt_of_le_of_lt hv hlt).ne']
  · exact (if_neg (show ¬ t.vel.len > t.rot.len by rw [he]; exact lt_irrefl _)).trans
      (if_neg (show ¬ t.rot.len > t.vel.len by rw [he]; exact lt_irrefl _))

/-- The documented aim is met when the longer component is the one that exceeds its limit most, relative to the limit
(`rot/rmax ≤ vel/tmax` for a longer translation).  Missing, because false: the other twists outside the limits. -/
theorem C53_cart_partial (tmax rmax : ℝ) (ht : 0 ≤ tmax) (hr : 0 ≤ rmax) (t : Twist)
    (h : (t.vel.len ≤ tmax ∧ t.rot.len ≤ rmax) ∨ (t.rot.len < t.vel.len ∧ t.rot.len * tmax ≤ t.vel.len * rmax) ∨
      (t.vel.len < t.rot.len ∧ t.vel.len * rmax ≤ t.rot.len * tmax)) :
    ∃ s, enforceCart tmax rmax t = ⟨s • t.vel, s • t.rot⟩ ∧ IsMaxCart tmax rmax t s := by
  have hv := t.vel.len_nonneg
  have hw := t.rot.len_nonneg
  by_cases hin : t.vel.len ≤ tmax ∧ t.rot.len ≤ rmax
  · refine ⟨1, ?_, zero_le_one, le_rfl, by rw [one_mul]; exact hin.1, by rw [one_mul]; exact hin.2, fun _ _ h _ _ => h⟩
    rw [C53_cart_inside tmax rmax t hin.1 hin.2]
    ext <;> simp
  have hout : tmax < t.vel.len ∨ rmax < t.rot.len := by
    rw [not_and_or, not_le, not_le] at hin; exact hin
  obtain ⟨k1, k2, -⟩ := C53_cart_outside tmax rmax ht hr t hout
  rcases h with h | ⟨h1, h2⟩ | ⟨h1, h2⟩
  · exact absurd h hin
  · obtain ⟨s, s0, e, hs⟩ := k1 h1
    have hpos : 0 < t.vel.len := lt_of_le_of_lt hw h1
    have hge : tmax ≤ t.vel.len := by
      rcases hout with h | h
      · exact h.le
      · by_contra hn
        have a := mul_lt_mul_of_pos_left (not_le.mp hn) (lt_of_le_of_lt hr h)
        have b := mul_lt_mul_of_pos_left h hpos
        linarith
    refine ⟨s, e, s0, ?_, hs.le, ?_, fun s' _ _ h3 _ => ?_⟩
    · by_contra hn
      have := mul_lt_mul_of_pos_right (not_le.mp hn) hpos
      linarith
    · by_contra hn
      have := mul_lt_mul_of_pos_right (not_le.mp hn) hpos
      have : t.rot.len * tmax = s * t.rot.len * t.vel.len := by rw [← hs]; ring
      linarith
    · rw [← hs] at h3
      exact le_of_mul_le_mul_right h3 hpos
  · obtain ⟨s, s0, e, hs⟩ := k2 h1
    have hpos : 0 < t.rot.len := lt_of_le_of_lt hv h1
    have hge : rmax ≤ t.rot.len := by
      rcases hout with h | h
      · by_contra hn
        have a := mul_lt_mul_of_pos_left (not_le.mp hn) (lt_of_le_of_lt ht h)
        have b := mul_lt_mul_of_pos_left h hpos
        linarith
      · exact h.le
    refine ⟨s, e, s0, ?_, ?_, hs.le, fun s' _ _ _ h3 => ?_⟩
    · by_contra hn
      have := mul_lt_mul_of_pos_right (not_le.mp hn) hpos
      linarith
    · by_contra hn
      have := mul_lt_mul_of_pos_right (not_le.mp hn) hpos
      have : t.vel.len * rmax = s * t.vel.len * t.rot.len := by rw [← hs]; ring
      linarith
    · rw [← hs] at h3
      exact le_of_mul_le_mul_right h3 hpos

/-- In particular it is met for equal limits, unless both components have the same length beyond the limit. -/
theorem C53_cart_equal_limits_partial (m : ℝ) (hm : 0 ≤ m) (t : Twist) (h : t.vel.len ≠ t.rot.len ∨ t.vel.len ≤ m) :
    ∃ s, enforceCart m m t = ⟨s • t.vel, s • t.rot⟩ ∧ IsMaxCart m m t s := by
  refine C53_cart_partial m m hm hm t ?_
  rcases lt_trichotomy t.vel.len t.rot.len with h1 | h1 | h1
  · exact .inr (.inr ⟨h1, mul_le_mul_of_nonneg_right h1.le hm⟩)
  · rcases h with h | h
    · exact absurd h1 h
    · exact .inl ⟨h, h1 ▸ h⟩
  · exact .inr (.inl ⟨h1, mul_le_mul_of_nonneg_right h1.le hm⟩)

theorem len_axis (a : ℝ) (ha : 0 ≤ a) : (⟨a, 0, 0⟩ : Vec).len = a := by
  simp [Vec.len, Real.sqrt_sq ha]

/-- Non-vacuity: lengths 4 and 1 with limits 2 and 1 are halved. -/
example : ∃ s, enforceCart 2 1 ⟨⟨4, 0, 0⟩, ⟨1, 0, 0⟩⟩ = ⟨s • ⟨4, 0, 0⟩, s • ⟨1, 0, 0⟩⟩ ∧
    IsMaxCart 2 1 ⟨⟨4, 0, 0⟩, ⟨1, 0, 0⟩⟩ s :=
  C53_cart_partial 2 1 (by norm_num) (by norm_num) _ (.inr (.inl (by
    rw [len_axis 4 (by norm_num), len_axis 1 (by norm_num)]; norm_num)))

/-- Violated: a rotational velocity of 5 with limit 1 stays 5 when the translational velocity is longer (and at its limit). -/
theorem C53_cart_limit_violated : enforceCart 10 1 ⟨⟨10, 0, 0⟩, ⟨5, 0, 0⟩⟩ = ⟨⟨10, 0, 0⟩, ⟨5, 0, 0⟩⟩ ∧
    ¬ (⟨5, 0, 0⟩ : Vec).len ≤ 1 := by
  have h1 := len_axis 10 (by norm_num)
  have h2 := len_axis 5 (by norm_num)
  refine ⟨?_, by rw [h2]; norm_num⟩
  obtain ⟨s, s0, e, hs⟩ := (C53_cart_outside 10 1 (by norm_num) (by norm_num) ⟨⟨10, 0, 0⟩, ⟨5, 0, 0⟩⟩
    (.inr (by rw [h2]; norm_num))).1 (by rw [h1, h2]; norm_num)
  rw [h1] at hs
  obtain rfl : s = 1 := by linarith
  rw [e]; ext <;> simp

/-- Violated: a twist that rotates too fast is made ten times faster when its translation is longer but far below the
translational limit. -/
theorem C53_cart_amplifies_violated : enforceCart 10 (1 / 10) ⟨⟨1, 0, 0⟩, ⟨1 / 2, 0, 0⟩⟩ = ⟨⟨10, 0, 0⟩, ⟨5, 0, 0⟩⟩ := by
  have h1 := len_axis 1 (by norm_num)
  have h2 := len_axis (1 / 2) (by norm_num)
  obtain ⟨s, s0, e, hs⟩ := (C53_cart_outside 10 (1 / 10) (by norm_num) (by norm_num) ⟨⟨1, 0, 0⟩, ⟨1 / 2, 0, 0⟩⟩
    (.inr (by rw [h2]; norm_num))).1 (by rw [h1, h2]; norm_num)
  rw [h1] at hs
  obtain rfl : s = 10 := by linarith
  rw [e]; ext <;> simp <;> norm_num

/-- Violated: nothing is done to a twist beyond both limits if its components have the same length. -/
theorem C53_cart_equal_violated (m a : ℝ) (hm : 0 ≤ m) (ha : m < a) :
    enforceCart m m ⟨⟨a, 0, 0⟩, ⟨a, 0, 0⟩⟩ = ⟨⟨a, 0, 0⟩, ⟨a, 0, 0⟩⟩ ∧ ¬ (⟨a, 0, 0⟩ : Vec).len ≤ m := by
  have h1 := len_axis a (hm.trans ha.le)
  exact ⟨(C53_cart_outside m m hm hm ⟨⟨a, 0, 0⟩, ⟨a, 0, 0⟩⟩ (.inl (by rw [h1]; exact ha))).2.2 rfl, by
    rw [h1]; exact not_le.mpr ha⟩

/-! ## The whole call -/

/-- The maps `frames` and `delta_twists` after the loop over the goals: every goal endpoint has the frame computed by the
forward solver at `q` and the (limited) difference from it to the goal; all other entries are those of before the call. -/
structure Aimed (fk : TreePosFn) (lim : Twist → Twist) (i : ℕ) (q : List ℝ) (p_in : SMap Frame) (fr : SMap Frame)
    (tw : SMap Twist) (fr' : SMap Frame) (tw' : SMap Twist) : Prop where
  keysF : fr'.map Prod.fst = fr.map Prod.fst
  keysT : tw'.map Prod.fst = tw.map Prod.fst
  goal : ∀ n g, (n, g) ∈ p_in → ∃ f0 c f, fr.find n = some f0 ∧ fk i q n f0 = some (c, f) ∧ fr'.find n = some f ∧
    tw'.find n = some (lim (Frame.diff f g 1))
  other : ∀ n, n ∉ p_in.map Prod.fst → fr'.find n = fr.find n ∧ tw'.find n = tw.find n

/-- The constructors create both maps with the endpoints as keys; `CartToJnt` does not change the keys. -/
theorem C53_keys (nj : ℕ) (endpoints : List String) (a b c : List ℝ) (x y : ℝ) (n : String) :
    (n ∈ (TreeOnline.new nj endpoints a b c x y).frames.map Prod.fst ↔ n ∈ endpoints) ∧
    (n ∈ (TreeOnline.new nj endpoints a b c x y).delta_twists.map Prod.fst ↔ n ∈ endpoints) ∧
    (∀ t, (TreeOnline.new nj endpoints a b c x y).delta_twists.find n = some t → t = 0) ∧
    (TreeOnline.new nj endpoints a b c x y).q_min = a ∧ (TreeOnline.new nj endpoints a b c x y).q_max = b ∧
    (TreeOnline.new nj endpoints a b c x y).q_dot_max = c ∧ (TreeOnline.new nj endpoints a b c x y).x_dot_trans_max = x ∧
    (TreeOnline.new nj endpoints a b c x y).x_dot_rot_max = y := by
  refine ⟨(SMap.build_spec endpoints fun _ => (1 : Frame)).2.2 n, (SMap.build_spec endpoints fun _ => (0 : Twist)).2.2 n,
    fun t ht => ?_, rfl, rfl, rfl, rfl, rfl⟩
  have h : (SMap.build endpoints fun _ => (0 : Twist)).find n = some t := ht
  rw [SMap.find_build] at h
  split_ifs at h
  exact (Option.some.inj h).symm

/-- A goal for a name that is not an endpoint: −2, `q_out = q_in`, the solver is not changed. -/
theorem C53_unknown (s : TreeOnline) (fk : TreePosFn) (ik : TreeVelFn) (q_in : List ℝ) (p_in : SMap Frame)
    (h : ∃ n ∈ p_in.map Prod.fst, n ∉ s.frames.map Prod.fst) : s.cartToJnt fk ik q_in p_in = some ⟨-2, q_in, s⟩ := by
  unfold TreeOnline.cartToJnt
  obtain ⟨n, hn, h⟩ := h
  obtain ⟨e, he, rfl⟩ := List.mem_map.mp hn
  exact if_pos ⟨e, he, SMap.find_eq_none.mpr h⟩

/-- A call with known endpoints: the inverse velocity solver is handed the limited differences to the goals (and, for
endpoints without a goal, the twists of earlier calls); a negative result or a size mismatch (−1) leaves `q_out = q_in`;
otherwise `q_out` is `q_in` plus the joint rates of the inverse solver, scaled to the rate limits, and then limited to
`[q_min, q_max]`. -/
theorem C53_call (s : TreeOnline) (fk : TreePosFn) (ik : TreeVelFn) (q_in : List ℝ) (p_in : SMap Frame)
    (hp : (p_in.map Prod.fst).Nodup) (hk : ∀ n ∈ p_in.map Prod.fst, n ∈ s.frames.map Prod.fst ∧ n ∈ s.delta_twists.map Prod.fst)
    (hfk : ∀ n f, (fk 0 q_in n f).isSome) :
    ∃ fr tw, Aimed fk (enforceCart s.x_dot_trans_max s.x_dot_rot_max) 0 q_in p_in s.frames s.delta_twists fr tw ∧
      (ik 0 q_in tw s.q_dot = none → s.cartToJnt fk ik q_in p_in = none) ∧
      ∀ res qd, ik 0 q_in tw s.q_dot = some (res, qd) →
        (res < 0 → s.cartToJnt fk ik q_in p_in =
          some ⟨res, q_in, { s with frames := fr, delta_twists := tw, q_dot := qd }⟩) ∧
        (0 ≤ res → (q_in.length ≠ s.q_min.length ∨ q_in.length ≠ s.q_max.length ∨ q_in.length ≠ s.q_dot_max.length) →
          s.cartToJnt fk ik q_in p_in = some ⟨-1, q_in, { s with frames := fr, delta_twists := tw, q_dot := qd }⟩) ∧
        (0 ≤ res → q_in.length = s.q_min.length → q_in.length = s.q_max.length → q_in.length = s.q_dot_max.length →
          qd.length = q_in.length → (∀ m ∈ s.q_dot_max, 0 ≤ m) →
          ∃ sc r, IsMaxScale qd s.q_dot_max sc ∧
            s.cartToJnt fk ik q_in p_in =
              some ⟨res, r, { s with frames := fr, delta_twists := tw, q_dot := qd.map (· * sc) }⟩ ∧
            r.length = q_in.length ∧ ∀ j, j < q_in.length →
              r.getD j 0 = clamp1 (q_in.getD j 0 + qd.getD j 0 * sc) (s.q_min.getD j 0) (s.q_max.getD j 0)) := by
  obtain ⟨⟨fr, tw⟩, ha⟩ := Option.isSome_iff_exists.mp
    (aim_some fk (enforceCart s.x_dot_trans_max s.x_dot_rot_max) 0 q_in hfk p_in s.frames s.delta_twists hk)
  obtain ⟨a1, a2, a3, a4⟩ := aim_eq fk _ 0 q_in p_in s.frames s.delta_twists hp hk fr tw ha
  have hg : ¬ ∃ e ∈ p_in, s.frames.find e.1 = none := by
    rintro ⟨e, he, h⟩
    exact SMap.find_eq_none.mp h (hk e.1 (List.mem_map_of_mem he)).1
  have key : s.cartToJnt fk ik q_in p_in = (ik 0 q_in tw s.q_dot).bind fun x =>
      if x.1 < 0 then some ⟨x.1, q_in, { s with frames := fr, delta_twists := tw, q_dot := x.2 }⟩
      else if q_in.length ≠ s.q_min.length ∨ q_in.length ≠ s.q_max.length ∨ q_in.length ≠ s.q_dot_max.length then
        some ⟨-1, q_in, { s with frames := fr, delta_twists := tw, q_dot := x.2 }⟩
      else (enforceJoint x.2 s.q_dot_max).bind fun qd' => (jntAdd q_in qd').bind fun q' =>
        (clampAll q' s.q_min s.q_max).bind fun q'' =>
          some ⟨x.1, q'', { s with frames := fr, delta_twists := tw, q_dot := qd' }⟩ := by
    unfold TreeOnline.cartToJnt
    rw [if_neg hg, ha]
    rfl
  refine ⟨fr, tw, ⟨a1, a2, a4, a3⟩, fun h => by rw [key, h]; rfl, fun res qd h => ⟨fun h0 => ?_, fun h0 hsz => ?_, ?_⟩⟩
  · rw [key, h]; exact if_pos h0
  · rw [key, h]; exact (if_neg (not_lt.mpr h0)).trans (if_pos hsz)
  · intro h0 s1 s2 s3 hl hm
    obtain ⟨sc, e1, hsc⟩ := C53_joint_velocity qd s.q_dot_max (by omega) hm
    have e2 : jntAdd q_in (qd.map (· * sc)) = some (jsum q_in (qd.map (· * sc))) :=
      (jntAdd_eq _ _ _).mpr ⟨by simp [hl], rfl⟩
    have hlen : (jsum q_in (qd.map (· * sc))).length = q_in.length := by simp [jsum, hl]
    obtain ⟨r, e3, hr1, hr2⟩ := clampAll_eq (jsum q_in (qd.map (· * sc))) s.q_min s.q_max (by omega) (by omega)
    refine ⟨sc, r, hsc, ?_, by omega, fun j hj => ?_⟩
    · rw [key, h]
      refine (if_neg (not_lt.mpr h0)).trans ((if_neg (by omega)).trans ?_)
      dsimp only
      rw [e1, Option.bind_some, e2, Option.bind_some, e3, Option.bind_some]
    · rw [hr2 j (by omega)]
      congr 1
      rw [jsum, getD_lt _ _ (by simp [hl, hj]), List.getElem_zipWith, List.getElem_map,
        getD_lt _ _ hj, getD_lt _ _ (by omega)]

/-- Consequences for a call that does not fail: the result lies within the position limits, and no joint moves further than
its rate limit in one call (if it started within the limits). -/
theorem C53_limits (s : TreeOnline) (fk : TreePosFn) (ik : TreeVelFn) (q_in : List ℝ) (p_in : SMap Frame)
    (hp : (p_in.map Prod.fst).Nodup) (hk : ∀ n ∈ p_in.map Prod.fst, n ∈ s.frames.map Prod.fst ∧ n ∈ s.delta_twists.map Prod.fst)
    (hfk : ∀ n f, (fk 0 q_in n f).isSome)
    (hik : ∀ tw d res qd, ik 0 q_in tw d = some (res, qd) → 0 ≤ res → qd.length = q_in.length)
    (hm : ∀ m ∈ s.q_dot_max, 0 ≤ m) (hb : ∀ j, j < q_in.length → s.q_min.getD j 0 ≤ s.q_max.getD j 0)
    (o : TreeIkOut TreeOnline) (ho : s.cartToJnt fk ik q_in p_in = some o) (h0 : 0 ≤ o.ret) :
    o.q_out.length = q_in.length ∧
    (∀ j, j < q_in.length → s.q_min.getD j 0 ≤ o.q_out.getD j 0 ∧ o.q_out.getD j 0 ≤ s.q_max.getD j 0) ∧
    ((∀ j, j < q_in.length → s.q_min.getD j 0 ≤ q_in.getD j 0 ∧ q_in.getD j 0 ≤ s.q_max.getD j 0) →
      ∀ j, j < q_in.length → |o.q_out.getD j 0 - q_in.getD j 0| ≤ s.q_dot_max.getD j 0) := by
  obtain ⟨fr, tw, -, h1, h2⟩ := C53_call s fk ik q_in p_in hp hk hfk
  cases he : ik 0 q_in tw s.q_dot with
  | none => rw [h1 he] at ho; exact absurd ho (by simp)
  | some x =>
    obtain ⟨res, qd⟩ := x
    obtain ⟨k1, k2, k3⟩ := h2 res qd he
    by_cases hres : res < 0
    · rw [k1 hres] at ho
      obtain rfl := Option.some.inj ho
      exact absurd h0 (not_le.mpr hres)
    have hres := not_lt.mp hres
    by_cases hsz : q_in.length ≠ s.q_min.length ∨ q_in.length ≠ s.q_max.length ∨ q_in.length ≠ s.q_dot_max.length
    · rw [k2 hres hsz] at ho
      obtain rfl := Option.some.inj ho
      exact absurd h0 (by norm_num)
    · rw [not_or, not_or, not_not, not_not, not_not] at hsz
      have hlq := hik tw s.q_dot res qd he hres
      obtain ⟨sc, r, hsc, e, hl, hr⟩ := k3 hres hsz.1 hsz.2.1 hsz.2.2 hlq hm
      rw [e] at ho
      obtain rfl := Option.some.inj ho
      refine ⟨hl, fun j hj => ?_, fun hin j hj => ?_⟩
      · show _ ≤ r.getD j 0 ∧ r.getD j 0 ≤ _
        rw [hr j hj]; exact clamp1_mem (hb j hj)
      · show |r.getD j 0 - _| ≤ _
        rw [hr j hj]
        refine (clamp1_near (hin j hj).1 (hin j hj).2).trans ?_
        rw [add_sub_cancel_left]
        exact hsc.bound j (by omega)

/-- A solver for the examples: one endpoint "e", one joint with rate limit 2 and range `[0, 9]`. -/
def onl : TreeOnline := TreeOnline.new 1 ["e"] [0] [9] [2] 1 1

/-- Non-vacuity of `C53_call` and `C53_limits`: from 1, a velocity solver that asks for a rate of 8 leads to 3. -/
example : ∃ o, onl.cartToJnt (fun _ _ _ _ => some (0, 1)) (fun _ _ _ _ => some (0, [8])) [1] [("e", 1)] = some o ∧
    o.ret = 0 ∧ o.q_out = [3] := by
  have hk : ∀ n ∈ ([("e", 1)] : SMap Frame).map Prod.fst, n ∈ onl.frames.map Prod.fst ∧ n ∈ onl.delta_twists.map Prod.fst := by
    intro n hn
    have h := C53_keys 1 ["e"] [0] [9] [2] 1 1 n
    exact ⟨h.1.mpr (by simpa using hn), h.2.1.mpr (by simpa using hn)⟩
  obtain ⟨fr, tw, -, -, h⟩ := C53_call onl (fun _ _ _ _ => some (0, 1)) (fun _ _ _ _ => some (0, [8])) [1] [("e", 1)]
    (by simp) hk (fun _ _ => rfl)
  obtain ⟨sc, r, hsc, e, hl, hr⟩ := (h 0 [8] rfl).2.2 le_rfl rfl rfl rfl rfl (by simp [onl, TreeOnline.new])
  refine ⟨_, e, rfl, ?_⟩
  have hs : sc = 1 / 4 := by
    have b := hsc.bound 0 (by simp)
    have m := hsc.max (1 / 4) (by norm_num) (by norm_num) (by
      intro j hj
      have : j = 0 := by simpa using hj
      subst this
      simp [onl, TreeOnline.new]; norm_num [abs_of_pos])
    simp only [onl, TreeOnline.new, List.getD_cons_zero] at b
    have := le_abs_self (8 * sc)
    linarith
  have h0 := hr 0 (by simp)
  simp only [onl, TreeOnline.new, List.getD_cons_zero, hs] at h0
  rw [clamp1_of_mem (by norm_num) (by norm_num)] at h0
  match r, hl with
  | [x], _ => simp only [List.getD_cons_zero] at h0; rw [h0]; norm_num

/-- An endpoint for which a call names no goal keeps its twist: the velocity solver is handed the one of the last call that
had a goal for it. -/
theorem C53_stale (s : TreeOnline) (fk : TreePosFn) (ik : TreeVelFn) (q_in : List ℝ) (p_in : SMap Frame)
    (hp : (p_in.map Prod.fst).Nodup) (hk : ∀ n ∈ p_in.map Prod.fst, n ∈ s.frames.map Prod.fst ∧ n ∈ s.delta_twists.map Prod.fst)
    (hfk : ∀ n f, (fk 0 q_in n f).isSome) (n : String) (hn : n ∉ p_in.map Prod.fst) (t : Twist)
    (ht : s.delta_twists.find n = some t) (o : TreeIkOut TreeOnline)
    (ho : s.cartToJnt fk ik q_in p_in = some o) : o.st.delta_twists.find n = some t ∧
      ∃ res qd, ik 0 q_in o.st.delta_twists s.q_dot = some (res, qd) := by
  obtain ⟨fr, tw, ha, h1, -⟩ := C53_call s fk ik q_in p_in hp hk hfk
  have hx := (ha.other n hn).2
  have hg : ¬ ∃ e ∈ p_in, s.frames.find e.1 = none := by
    rintro ⟨e, he, h⟩
    exact SMap.find_eq_none.mp h (hk e.1 (List.mem_map_of_mem he)).1
  obtain ⟨⟨fr', tw'⟩, hb⟩ := Option.isSome_iff_exists.mp
    (aim_some fk (enforceCart s.x_dot_trans_max s.x_dot_rot_max) 0 q_in hfk p_in s.frames s.delta_twists hk)
  obtain ⟨-, -, b3, -⟩ := aim_eq fk _ 0 q_in p_in s.frames s.delta_twists hp hk fr' tw' hb
  unfold TreeOnline.cartToJnt at ho
  rw [if_neg hg, hb] at ho
  simp only [Option.bind_eq_bind, Option.bind_some] at ho
  obtain ⟨⟨res, qd⟩, he, ho⟩ := Option.bind_eq_some_iff.mp ho
  have hst : o.st.delta_twists = tw' := by
    dsimp only at ho
    split_ifs at ho
    · obtain rfl := Option.some.inj ho; rfl
    · obtain rfl := Option.some.inj ho; rfl
    · obtain ⟨_, _, ho⟩ := Option.bind_eq_some_iff.mp ho
      obtain ⟨_, _, ho⟩ := Option.bind_eq_some_iff.mp ho
      obtain ⟨_, _, ho⟩ := Option.bind_eq_some_iff.mp ho
      obtain rfl := Option.some.inj ho; rfl
  rw [hst]
  exact ⟨(b3 n hn).2.trans ht, res, qd, he⟩

theorem x_diff0 (g : ℝ) : Frame.diff (1 : Frame) ⟨1, ⟨g, 0, 0⟩⟩ 1 = ⟨⟨g, 0, 0⟩, 0⟩ := by
  simp only [Frame.diff, Vec.diff]
  rw [show (1 : Frame).M = 1 from rfl, rot_diff_one]
  ext <;> simp

/-- Violated: that each call aims at the goals it is given.  After a call with a goal for endpoint "a", a call without any
goal still asks the velocity solver to move "a" (and the solver's answer is added to `q_out`). -/
theorem C53_stale_violated (fk : TreePosFn) (hfk : fk = fun _ _ _ _ => some (0, 1)) (ik : TreeVelFn) (rate : Twist → ℝ)
    (hik : ik = fun _ _ tw _ => some (0, [rate ((tw.find "a").getD 0)])) :
    ∃ o1 o2, (TreeOnline.new 1 ["a"] [-9] [9] [9] 1 1).cartToJnt fk ik [0] [("a", ⟨1, ⟨1 / 2, 0, 0⟩⟩)] = some o1 ∧
      o1.st.cartToJnt fk ik [0] [] = some o2 ∧ o2.st.delta_twists.find "a" = some ⟨⟨1 / 2, 0, 0⟩, 0⟩ ∧
      (|rate ⟨⟨1 / 2, 0, 0⟩, 0⟩| ≤ 9 → o2.q_out = [rate ⟨⟨1 / 2, 0, 0⟩, 0⟩]) := by
  set s := TreeOnline.new 1 ["a"] [-9] [9] [9] 1 1 with hs
  set r := rate ⟨⟨1 / 2, 0, 0⟩, 0⟩ with hr
  have hkeys := C53_keys 1 ["a"] [-9] [9] [9] 1 1 "a"
  have hk : ∀ n ∈ ([("a", ⟨1, ⟨1 / 2, 0, 0⟩⟩)] : SMap Frame).map Prod.fst,
      n ∈ s.frames.map Prod.fst ∧ n ∈ s.delta_twists.map Prod.fst := by
    intro n hn
    obtain rfl : n = "a" := by simpa using hn
    exact ⟨hkeys.1.mpr (by simp), hkeys.2.1.mpr (by simp)⟩
  obtain ⟨fr, tw, ha, -, h⟩ := C53_call s fk ik [0] [("a", ⟨1, ⟨1 / 2, 0, 0⟩⟩)] (by simp) hk (by simp [hfk])
  have htw : tw.find "a" = some ⟨⟨1 / 2, 0, 0⟩, 0⟩ := by
    obtain ⟨f0, c, f, -, h2, -, h4⟩ := ha.goal "a" _ (List.mem_singleton.mpr rfl)
    rw [hfk] at h2
    obtain rfl : f = 1 := (congrArg Prod.snd (Option.some.inj h2)).symm
    rw [h4]
    have hd : Frame.diff (1 : Frame) ⟨1, ⟨1 / 2, 0, 0⟩⟩ 1 = ⟨⟨1 / 2, 0, 0⟩, 0⟩ := by
      have := x_diff0 (1 / 2)
      exact this
    rw [hd]
    congr 1
    refine C53_cart_inside _ _ _ ?_ ?_
    · rw [len_axis _ (by norm_num)]; simp only [hs, TreeOnline.new]; norm_num
    · rw [show ((⟨⟨1 / 2, 0, 0⟩, 0⟩ : Twist).rot) = (⟨0, 0, 0⟩ : Vec) from rfl, len_axis _ le_rfl]
      simp only [hs, TreeOnline.new]; norm_num
  have hik1 : ∀ q d, ik 0 q tw d = some (0, [r]) := by intro q d; rw [hik]; simp only [htw]; rfl
  obtain ⟨sc, q1, hsc, e1, -, -⟩ := (h 0 [r] (hik1 _ _)).2.2 le_rfl rfl rfl rfl rfl (by simp [hs, TreeOnline.new])
  obtain ⟨fr2, tw2, ha2, -, h2⟩ := C53_call { s with frames := fr, delta_twists := tw, q_dot := [r].map (· * sc) } fk ik [0] []
    (by simp) (by simp) (by simp [hfk])
  have htw2 : tw2.find "a" = some ⟨⟨1 / 2, 0, 0⟩, 0⟩ := by rw [(ha2.other "a" (by simp)).2]; exact htw
  obtain ⟨sc2, q2, hsc2, e2, hl2, hq2⟩ := (h2 0 [r] (by rw [hik]; simp only [htw2]; rfl)).2.2 le_rfl rfl rfl rfl rfl
    (by simp [hs, TreeOnline.new])
  refine ⟨_, _, e1, e2, htw2, fun hb => ?_⟩
  have hsc1 : sc2 = 1 := le_antisymm hsc2.le_one (hsc2.max 1 zero_le_one le_rfl (by
    intro j hj
    obtain rfl : j = 0 := by simpa using hj
    simpa [hs, TreeOnline.new] using hb))
  have h0 := hq2 0 (by simp)
  simp only [hs, TreeOnline.new, List.getD_cons_zero, hsc1, mul_one, zero_add] at h0
  obtain ⟨b1, b2⟩ := abs_le.mp hb
  rw [clamp1_of_mem b1 b2] at h0
  match q2, hl2 with
  | [x], _ => simp only [List.getD_cons_zero] at h0; rw [h0]

end KDL
