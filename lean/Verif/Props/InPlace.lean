import Verif.Model.InPlace
import Verif.Lemmas.Dynamics
import Verif.Props.IkVel

/-!
# C102: solver calls in place

A solver that is given the same `JntArray` object as an input and as the output should compute what it computes for
separate objects.  The values for separate objects are those of `Model/Dynamics.lean` and `Model/IkVel.lean`.
-/

noncomputable section

namespace KDL

theorem JntStore.put_same (h : JntStore) (x : ℕ) (l : List ℝ) : h.put x l x = l := by simp [JntStore.put]
theorem JntStore.put_other (h : JntStore) {x y : ℕ} (l : List ℝ) (hy : y ≠ x) : h.put x l y = h y := by simp [JntStore.put, hy]
theorem JntStore.put_put (h : JntStore) (x : ℕ) (l m : List ℝ) : (h.put x l).put x m = h.put x m := by
  funext y; unfold JntStore.put; split <;> rfl
theorem JntStore.put_self (h : JntStore) (x : ℕ) : h.put x (h x) = h := by
  funext y; unfold JntStore.put; split <;> simp_all

/-- The store after a call that returned a code and the new contents of one object. -/
def wrote (h : JntStore) (x : ℕ) (r : Int × List ℝ) : Int × JntStore := (r.1, h.put x r.2)

theorem setJnt_set {l m : List ℝ} {j : ℤ} {x : ℝ} (y : ℝ) (h : setJnt l j x = some m) :
    getJnt m j = some x ∧ setJnt m j y = setJnt l j y := by
  unfold setJnt at h ⊢
  split at h
  · rename_i hj
    simp only [Option.some.injEq] at h
    subst h
    have : j.toNat < l.length := by omega
    simp [getJnt, hj, this]
  · simp at h

theorem rneBack_cons (acc : List ℝ) (l : Link) (ls : List Link) (j : ℤ) (w : Option Wrench) (t : List ℝ) :
    rneBack acc (l :: ls) j w t = if l.seg.moving then
      (getJnt acc j).bind fun a => (setJnt t j (l.S.dot (w.elim l.f (l.f + ·)) + l.seg.joint.inertia * a)).bind fun t' =>
        rneBack acc ls (j - 1) (some (l.X * w.elim l.f (l.f + ·))) t'
    else rneBack acc ls j (some (l.X * w.elim l.f (l.f + ·))) t := by
  cases w <;> rfl

theorem rneBackAt_cons (qdd tau : ℕ) (l : Link) (ls : List Link) (j : ℤ) (w : Option Wrench) (h : JntStore) :
    rneBackAt qdd tau (l :: ls) j w h = if l.seg.moving then
      (setJnt (h tau) j (l.S.dot (w.elim l.f (l.f + ·)))).bind fun t =>
        (getJnt (h.put tau t qdd) j).bind fun a => (getJnt (h.put tau t tau) j).bind fun b =>
          (setJnt (h.put tau t tau) j (b + l.seg.joint.inertia * a)).bind fun t' =>
            rneBackAt qdd tau ls (j - 1) (some (l.X * w.elim l.f (l.f + ·))) ((h.put tau t).put tau t')
    else rneBackAt qdd tau ls j (some (l.X * w.elim l.f (l.f + ·))) h := by
  cases w <;> rfl

theorem rneBackAt_other {qdd tau : ℕ} (ht : tau ≠ qdd) : ∀ (ls : List Link) (j : ℤ) (w : Option Wrench) (h : JntStore),
    rneBackAt qdd tau ls j w h = (rneBack (h qdd) ls j w (h tau)).map (h.put tau) := by
  intro ls
  induction ls with
  | nil => intro j w h; simp [rneBackAt, rneBack, JntStore.put_self]
  | cons l ls ih =>
    intro j w h
    rw [rneBackAt_cons, rneBack_cons]
    by_cases hm : l.seg.moving
    · simp only [hm, if_true, Option.bind_eq_bind]
      generalize w.elim l.f (l.f + ·) = f
      by_cases hj : 0 ≤ j ∧ j < ((h tau).length : ℤ)
      · have h1 : ∀ x, setJnt (h tau) j x = some ((h tau).set j.toNat x) := fun x => by simp [setJnt, hj]
        rw [h1]
        simp only [Option.bind_some, JntStore.put_same, JntStore.put_other _ _ (Ne.symm ht)]
        obtain ⟨h2, h3⟩ := setJnt_set 0 (h1 (l.S.dot f))
        cases hq : getJnt (h qdd) j with
        | none => simp
        | some a =>
          simp only [Option.bind_some, h2, (setJnt_set _ (h1 (l.S.dot f))).2, h1]
          rw [ih]
          simp only [JntStore.put_same, JntStore.put_put, JntStore.put_other _ _ (Ne.symm ht)]
          congr 1
          funext t
          simp [JntStore.put_put]
      · have h1 : ∀ x, setJnt (h tau) j x = none := fun x => by simp only [setJnt, hj, if_false]
        rw [h1]
        simp [h1]
    · simp only [hm, Bool.false_eq_true, if_false]
      exact ih _ _ _

/-- `ChainIdSolver_RNE::CartToJnt` with `torques` another object than `q_dotdot`: whether or not `torques` is `q` or
`q_dot` (or these are one object), the call computes what it computes for separate objects, and changes `torques` only. -/
theorem C102_inverse (c : Chain) (nj ns : ℕ) (grav : Vec) (q qd qdd : ℕ) (fext : List Wrench) (tau : ℕ) (h : JntStore)
    (ht : tau ≠ qdd) :
    idRneAt c nj ns grav q qd qdd fext tau h =
      (idRne c nj ns grav (h q) (h qd) (h qdd) fext (h tau)).map (wrote h tau) := by
  unfold idRneAt idRne
  split
  · simp [wrote, JntStore.put_self]
  split
  · simp [wrote, JntStore.put_self]
  simp only [Option.bind_eq_bind]
  cases rneFwd (-⟨grav, 0⟩) (h q) (h qd) (h qdd) fext (c.segments.take ns) 0 0 none with
  | none => rfl
  | some ls =>
    simp only [Option.bind_some]
    rw [rneBackAt_other ht]
    cases rneBack (h qdd) ls.reverse ((nj : ℤ) - 1) none (h tau) <;> simp [wrote]

/-- `ChainDynParam::JntToCoriolis`: the output may be the array of the positions or that of the speeds. -/
theorem C102_coriolis (d : DynState) (c : Chain) (null q qd out : ℕ) (h : JntStore) (hq : q ≠ null) (hqd : qd ≠ null)
    (ho : out ≠ null) :
    coriolisAt d c null q qd out h =
      (d.coriolis c (h q) (h qd) (h out)).map (wrote (h.put null (List.replicate d.jnull 0)) out) := by
  unfold coriolisAt DynState.coriolis
  rw [C102_inverse _ _ _ _ _ _ _ _ _ _ ho]
  simp only [JntStore.put_same, JntStore.put_other _ _ hq, JntStore.put_other _ _ hqd, JntStore.put_other _ _ ho]

/-- `ChainDynParam::JntToGravity`: the output may be the array of the positions. -/
theorem C102_gravity (d : DynState) (c : Chain) (null q out : ℕ) (h : JntStore) (hq : q ≠ null) (ho : out ≠ null) :
    gravityAt d c null q out h =
      (d.gravity c (h q) (h out)).map (wrote (h.put null (List.replicate d.jnull 0)) out) := by
  unfold gravityAt DynState.gravity
  rw [C102_inverse _ _ _ _ _ _ _ _ _ _ ho]
  simp only [JntStore.put_same, JntStore.put_other _ _ hq, JntStore.put_other _ _ ho]

/-! ## Torques written over the accelerations -/

/-- The inertias of the joints that move, in the order of the joint numbers. -/
def rotors (ss : List Segment) : List ℝ := (ss.filter (·.moving)).map (·.joint.inertia)

/-- Number of moving segments of a list of links. -/
def movers (ls : List Link) : ℕ := (ls.filter (·.seg.moving)).length

/-- The joint inertias of links listed from the last to the first. -/
def Rotors (I : ℕ → ℝ) : List Link → Prop
  | [] => True
  | l :: ls => (l.seg.moving = true → I (movers ls) = l.seg.joint.inertia) ∧ Rotors I ls

theorem movers_cons (l : Link) (ls : List Link) : movers (l :: ls) = if l.seg.moving then movers ls + 1 else movers ls := by
  unfold movers; by_cases h : l.seg.moving <;> simp [h]

theorem rotors_append (I : ℕ → ℝ) : ∀ (ls : List Link) (l : Link), Rotors (fun k => I (k + if l.seg.moving then 1 else 0)) ls →
    (l.seg.moving = true → I 0 = l.seg.joint.inertia) → Rotors I (ls ++ [l]) := by
  intro ls
  induction ls with
  | nil => intro l _ h; exact ⟨fun hm => by simpa [movers] using h hm, trivial⟩
  | cons a ls ih =>
    intro l h1 h2
    refine ⟨fun hm => ?_, ih l h1.2 h2⟩
    rw [← h1.1 hm]
    congr 1
    unfold movers
    by_cases h : l.seg.moving <;> simp [h]

theorem rotors_reverse : ∀ (ls : List Link) (ss : List Segment), ls.map (·.seg) = ss → Rotors (fun k => (rotors ss).getD k 0) ls.reverse := by
  intro ls
  induction ls with
  | nil => intro ss _; trivial
  | cons l ls ih =>
    intro ss hs
    rw [List.reverse_cons]
    rw [List.map_cons] at hs
    subst hs
    apply rotors_append
    · convert ih _ rfl using 2 with k
      unfold rotors
      by_cases h : l.seg.moving <;> simp [h]
    · intro hm
      unfold rotors
      simp [hm]

theorem rneFwd_seg (ag : Twist) (q qd qdd : List ℝ) (fext : List Wrench) : ∀ (ss : List Segment) (i j : ℕ)
    (prev : Option (Twist × Twist)) (ls : List Link), rneFwd ag q qd qdd fext ss i j prev = some ls → ls.map (·.seg) = ss := by
  intro ss
  induction ss with
  | nil => intro i j prev ls h; simp [rneFwd] at h; simp [← h]
  | cons s ss ih =>
    intro i j prev ls h
    unfold rneFwd at h
    simp only [Option.bind_eq_bind] at h
    rw [Option.bind_eq_some_iff] at h
    obtain ⟨⟨a, b, c, j'⟩, _, h⟩ := h
    dsimp only at h
    rw [Option.bind_eq_some_iff] at h
    obtain ⟨fe, _, h⟩ := h
    rw [Option.bind_eq_some_iff] at h
    obtain ⟨rest, hr, h⟩ := h
    simp only [Option.some.injEq] at h
    subst h
    simp [ih _ _ _ _ hr]

/-- What the two runs have in common after the joints from `j + 1` on: `t` was computed in place. -/
def Scaled (I : ℕ → ℝ) (acc t0 t : List ℝ) (j : ℤ) : Prop :=
  t.length = acc.length ∧ t0.length = acc.length ∧ (∀ k : ℕ, (k : ℤ) ≤ j → t[k]? = acc[k]?) ∧
    ∀ k : ℕ, j < k → k < acc.length → t.getD k 0 = (1 + I k) * (t0.getD k 0 - I k * acc.getD k 0)

theorem rneBackAt_over (tau : ℕ) (I : ℕ → ℝ) (acc : List ℝ) : ∀ (ls : List Link) (w : Option Wrench) (h : JntStore) (t0 r0 : List ℝ),
    Rotors I ls → movers ls ≤ acc.length → Scaled I acc t0 (h tau) ((movers ls : ℤ) - 1) →
    rneBack acc ls ((movers ls : ℤ) - 1) w t0 = some r0 →
    ∃ r, rneBackAt tau tau ls ((movers ls : ℤ) - 1) w h = some (h.put tau r) ∧ Scaled I acc r0 r (-1) := by
  intro ls
  induction ls with
  | nil =>
    intro w h t0 r0 _ _ hs hb
    simp only [rneBack, Option.some.injEq] at hb
    subst hb
    exact ⟨h tau, by simp [rneBackAt, JntStore.put_self], by simpa [movers] using hs⟩
  | cons l ls ih =>
    intro w h t0 r0 hI hn hs hb
    rw [rneBackAt_cons]
    rw [rneBack_cons] at hb
    by_cases hm : l.seg.moving
    · simp only [hm, if_true, Option.bind_eq_bind] at hb ⊢
      generalize w.elim l.f (l.f + ·) = f at hb ⊢
      have hc : movers (l :: ls) = movers ls + 1 := by rw [movers_cons, if_pos hm]
      rw [hc] at hs hb hn ⊢
      obtain ⟨n, hn'⟩ : ∃ n, n = movers ls := ⟨_, rfl⟩
      rw [← hn'] at hs hb hn ih ⊢
      have e1 : ((n + 1 : ℕ) : ℤ) - 1 = n := by push_cast; ring
      rw [e1] at hs hb ⊢
      obtain ⟨s1, s2, s3, s4⟩ := hs
      have hset : ∀ (t : List ℝ) x, t.length = acc.length → setJnt t (n : ℤ) x = some (t.set n x) := by
        intro t x ht
        have : (n : ℤ) < t.length := by rw [ht]; exact_mod_cast (by omega : n < acc.length)
        simp [setJnt, this]
      have hget : ∀ (t : List ℝ), getJnt t (n : ℤ) = t[n]? := by intro t; simp [getJnt]
      have hna : n < acc.length := by omega
      rw [hget, List.getElem?_eq_getElem hna] at hb
      simp only [Option.bind_some] at hb
      rw [hset _ _ s2] at hb
      simp only [Option.bind_some] at hb
      rw [hset _ _ s1]
      simp only [Option.bind_some, JntStore.put_same, hget]
      rw [List.getElem?_set_self (by omega)]
      simp only [Option.bind_some]
      rw [hset _ _ (by simp [s1])]
      simp only [Option.bind_some, List.set_set, JntStore.put_put]
      obtain ⟨r, h1, h2⟩ := ih _ (h.put tau ((h tau).set n (l.S.dot f + l.seg.joint.inertia * l.S.dot f))) _ r0 hI.2 (by omega)
        (by
          rw [JntStore.put_same]
          refine ⟨by simp [s1], by simp [s2], fun k hk => ?_, fun k hk hk2 => ?_⟩
          · rw [List.getElem?_set_ne (by omega)]
            exact s3 k (by omega)
          · by_cases hkn : k = n
            · subst hkn
              have hi := hI.1 hm
              rw [← hn'] at hi
              simp only [List.getD_eq_getElem?_getD]
              rw [List.getElem?_set_self (by omega), List.getElem?_set_self (by omega), List.getElem?_eq_getElem hk2]
              simp only [Option.getD_some]
              rw [hi]
              ring
            · have := s4 k (by omega) hk2
              simp only [List.getD_eq_getElem?_getD] at this ⊢
              rw [List.getElem?_set_ne (Ne.symm hkn), List.getElem?_set_ne (Ne.symm hkn)]
              exact this) hb
      exact ⟨r, by rw [h1, JntStore.put_put], h2⟩
    · simp only [hm, Bool.false_eq_true, if_false] at hb ⊢
      have hc : movers (l :: ls) = movers ls := by rw [movers_cons, if_neg hm]
      rw [hc] at hs hb hn ⊢
      exact ih _ h t0 r0 hI.2 hn hs hb

/-- `torques` and `q_dotdot` one object: instead of the torque `t` of a joint with inertia `I` the call stores
`(1 + I) * (t - I * q_dotdot)`, because the joint inertia is multiplied with the torque just stored over the acceleration. -/
theorem C102_inverse_over (c : Chain) (hc : nMoving c.segments = c.nrOfJoints) (hs : c.segments.length = c.nrOfSegments) (grav : Vec) (q qd acc : ℕ) (fext : List Wrench)
    (h : JntStore) (t : List ℝ)
    (ht : idRne c c.nrOfJoints c.nrOfSegments grav (h q) (h qd) (h acc) fext (h acc) = some (E_NOERROR, t)) :
    ∃ r, idRneAt c c.nrOfJoints c.nrOfSegments grav q qd acc fext acc h = some (E_NOERROR, h.put acc r) ∧ r.length = t.length ∧
      ∀ j, j < t.length →
        r.getD j 0 = (1 + (rotors c.segments).getD j 0) * (t.getD j 0 - (rotors c.segments).getD j 0 * (h acc).getD j 0) := by
  unfold idRne at ht
  unfold idRneAt
  rw [if_neg (by simp)] at ht ⊢
  by_cases hl : (h q).length ≠ c.nrOfJoints ∨ (h qd).length ≠ c.nrOfJoints ∨ (h acc).length ≠ c.nrOfJoints ∨
    (h acc).length ≠ c.nrOfJoints ∨ fext.length ≠ c.nrOfSegments
  · rw [if_pos hl] at ht
    simp [E_SIZE_MISMATCH, E_NOERROR] at ht
  rw [if_neg hl] at ht ⊢
  have hlen : (h acc).length = c.nrOfJoints := by by_contra hne; exact hl (by simp [hne])
  simp only [Option.bind_eq_bind] at ht ⊢
  rw [Option.bind_eq_some_iff] at ht
  obtain ⟨ls, hls, ht⟩ := ht
  rw [Option.bind_eq_some_iff] at ht
  obtain ⟨t', hb, ht⟩ := ht
  simp only [Option.some.injEq, Prod.mk.injEq, true_and] at ht
  subst ht
  have hseg := rneFwd_seg _ _ _ _ _ _ _ _ _ _ hls
  rw [← hs, List.take_length] at hseg
  have hmv : movers ls.reverse = c.nrOfJoints := by
    rw [← hc, ← hseg]
    unfold movers nMoving
    rw [List.filter_reverse, List.length_reverse, List.countP_map, List.countP_eq_length_filter]
    rfl
  rw [← hmv] at hb
  obtain ⟨r, h1, h2⟩ := rneBackAt_over acc _ (h acc) ls.reverse none h (h acc) t' (rotors_reverse ls _ hseg) (by rw [hmv, hlen])
    ⟨rfl, rfl, fun _ _ => rfl, fun k hk hk2 => by rw [hmv] at hk; omega⟩ hb
  rw [hmv] at h1
  rw [hls]
  simp only [Option.bind_some, h1]
  exact ⟨r, rfl, by rw [h2.1, h2.2.1], fun j hj => h2.2.2.2 j (by omega) (by rw [← h2.2.1]; exact hj)⟩

/-- Missing from the claim: joints with inertia, for which it fails (`C102_inverse_violated`).  With joints without inertia
`torques` may be the array of the accelerations. -/
theorem C102_inverse_over_partial (c : Chain) (hc : nMoving c.segments = c.nrOfJoints) (hs : c.segments.length = c.nrOfSegments)
    (hI : ∀ s ∈ c.segments, s.moving = true → s.joint.inertia = 0) (grav : Vec) (q qd acc : ℕ) (fext : List Wrench)
    (h : JntStore) (t : List ℝ)
    (ht : idRne c c.nrOfJoints c.nrOfSegments grav (h q) (h qd) (h acc) fext (h acc) = some (E_NOERROR, t)) :
    idRneAt c c.nrOfJoints c.nrOfSegments grav q qd acc fext acc h = some (wrote h acc (E_NOERROR, t)) := by
  obtain ⟨r, h1, h2, h3⟩ := C102_inverse_over c hc hs grav q qd acc fext h t ht
  have hr : ∀ k, (rotors c.segments).getD k 0 = 0 := by
    intro k
    rw [List.getD_eq_getElem?_getD]
    cases hk : (rotors c.segments)[k]? with
    | none => rfl
    | some x =>
      have := List.mem_of_getElem? hk
      unfold rotors at this
      rw [List.mem_map] at this
      obtain ⟨s, hs', rfl⟩ := this
      rw [List.mem_filter] at hs'
      exact hI s hs'.1 hs'.2
  have : r = t := by
    apply List.ext_getElem h2
    intro j hj1 hj2
    have := h3 j hj2
    rw [hr] at this
    simpa [List.getD_eq_getElem?_getD, List.getElem?_eq_getElem hj1, List.getElem?_eq_getElem hj2] using this
  rw [h1, this]
  rfl

/-- A joint that slides along x, without a body but with the joint inertia 1. -/
def motorOnly : Chain := ⟨1, 1, [⟨"", ⟨"", .TransX, 1, 0, 1, 0, 0, ⟨0, 0, 0⟩, ⟨0, 0, 0⟩⟩, RBI.zero, ⟨1, ⟨0, 0, 0⟩⟩⟩]⟩

theorem zero_body (t : Twist) : RBI.zero * t = (0 : Wrench) := by
  ext <;> simp [RBI.mul_twist, RBI.zero, RBI.ofCog, rotationalInertia, Mat3.outer, HSub.hSub, Sub.sub, HSMul.hSMul, SMul.smul]
theorem twist_zeroWrench (t : Twist) : t * (0 : Wrench) = 0 := by
  ext <;> simp

theorem motorOnly_id (a b x y : ℝ) : idRne motorOnly 1 1 0 [a] [b] [x] [0] [y] = some (E_NOERROR, [x]) := by
  simp [idRne, motorOnly, rneFwd, rneBack, zero_body, twist_zeroWrench, Segment.moving, Joint.moving, getJnt, setJnt]

/-- The claim fails when `torques` is the array of the accelerations: for a motor with inertia 1 that is to accelerate by 1
the torque is 1, but the call in place returns 0. -/
theorem C102_inverse_violated : ∃ (c : Chain) (h : JntStore), nMoving c.segments = c.nrOfJoints ∧ c.segments.length = c.nrOfSegments ∧
    idRne c c.nrOfJoints c.nrOfSegments 0 (h 0) (h 1) (h 2) [0] (h 2) = some (E_NOERROR, [1]) ∧
    ∃ h', idRneAt c c.nrOfJoints c.nrOfSegments 0 0 1 2 [0] 2 h = some (E_NOERROR, h') ∧ h' 2 = [0] := by
  have h0 := motorOnly_id 0 0 1 1
  refine ⟨motorOnly, fun x => if x = 2 then [1] else [0], by simp [motorOnly, nMoving, Segment.moving, Joint.moving], rfl, h0, ?_⟩
  obtain ⟨r, h1, h2, h3⟩ := C102_inverse_over motorOnly (by simp [motorOnly, nMoving, Segment.moving, Joint.moving]) rfl 0 0 1 2 [0]
    (fun x => if x = 2 then [1] else [0]) [1] h0
  refine ⟨_, h1, ?_⟩
  rw [JntStore.put_same]
  have := h3 0 (by simp)
  match r, h2 with
  | [x], _ =>
    simp [rotors, motorOnly, Segment.moving, Joint.moving] at this
    rw [this]

/-- The hypotheses of `C102_inverse_over_partial` can be met. -/
example : ∃ (c : Chain) (h : JntStore) (t : List ℝ), nMoving c.segments = c.nrOfJoints ∧ c.segments.length = c.nrOfSegments ∧
    (∀ s ∈ c.segments, s.moving = true → s.joint.inertia = 0) ∧
    idRne c c.nrOfJoints c.nrOfSegments 0 (h 0) (h 1) (h 2) [0] (h 2) = some (E_NOERROR, t) := by
  refine ⟨⟨1, 1, [⟨"", ⟨"", .TransX, 1, 0, 0, 0, 0, ⟨0, 0, 0⟩, ⟨0, 0, 0⟩⟩, RBI.zero, ⟨1, ⟨0, 0, 0⟩⟩⟩]⟩, fun _ => [1], [0], ?_, rfl, ?_, ?_⟩
  · simp [nMoving, Segment.moving, Joint.moving]
  · simp
  · simp [idRne, rneFwd, rneBack, zero_body, twist_zeroWrench, Segment.moving, Joint.moving, getJnt, setJnt]

/-- The cases of `C102_inverse`, `C102_coriolis` and `C102_gravity` occur. -/
example : ∃ (c : Chain) (h h' : JntStore), idRneAt c c.nrOfJoints c.nrOfSegments 0 0 1 2 [0] 0 h = some (E_NOERROR, h') ∧ h' 0 ≠ h 0 := by
  refine ⟨motorOnly, fun x => if x = 2 then [1] else [0], (fun x => if x = 0 then [1] else if x = 2 then [1] else [0] : JntStore), ?_, ?_⟩
  · rw [C102_inverse _ _ _ _ _ _ _ _ _ _ (by norm_num)]
    have h0 := motorOnly_id 0 0 1 0
    show Option.map _ (idRne motorOnly 1 1 0 [0] [0] [1] [0] [0]) = _
    rw [h0]
    rfl
  · simp [JntStore.put, wrote]

end KDL
