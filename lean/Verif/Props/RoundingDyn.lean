import Verif.Lemmas.RoundingDyn

/-! C109: rounding errors of the inverse dynamics. -/

namespace KDL

/-! ## the bound: rational numbers, computed along the sweeps of the solver -/

/-- What is known of the machine, the segments and the arguments. -/
structure DynB where
  /-- unit roundoff -/
  u : ℚ
  /-- error of the rotation of a segment -/
  d : ℚ
  /-- error and length of its tip vector -/
  p : VErr
  /-- its twist at the given rate -/
  tw : TErr
  /-- its twist at the rate 1 -/
  un : TErr
  /-- joint accelerations -/
  k : ℚ
  /-- mass, first moment and norm of the inertia of a segment -/
  m : VErr
  h : VErr
  n : VErr
  /-- external forces and torques -/
  ff : ℚ
  ft : ℚ
  /-- inertia of a joint -/
  ji : ℚ
  /-- gravity -/
  g : ℚ

namespace DynB
variable (b : DynB)
def vj : TErr := b.tw.inv b.u b.d
def S : TErr := b.un.inv b.u b.d
/-- Velocity and acceleration of segment `i`. -/
def va : ℕ → TErr × TErr
  | 0 => (b.vj, ((TErr.finv b.u b.d b.p ⟨⟨0, b.g⟩, ⟨0, 0⟩⟩).add b.u (b.S.scale b.u b.k)).add b.u (b.vj.cross b.u b.vj))
  | i + 1 =>
    let v := (((va i).1).finv b.u b.d b.p).add b.u b.vj
    (v, ((((va i).2).finv b.u b.d b.p).add b.u (b.S.scale b.u b.k)).add b.u (v.cross b.u b.vj))
/-- Wrench of segment `i` alone. -/
def f (i : ℕ) : TErr :=
  (((b.va i).2.rbi b.u b.m b.h b.n).add b.u ((b.va i).1.wrench b.u ((b.va i).1.rbi b.u b.m b.h b.n))).add b.u ⟨⟨0, b.ff⟩, ⟨0, b.ft⟩⟩
/-- Wrench at the `k`-th segment from the end of `N`, with all that follow. -/
def F (N : ℕ) : ℕ → TErr
  | 0 => b.f (N - 1)
  | k + 1 => (b.f (N - 1 - (k + 1))).add b.u ((F N k).frame b.u b.d b.p)
/-- Torque of the joint of that segment. -/
def tau (N k : ℕ) : ℚ := ((b.S.dot b.u (b.F N k)).add b.u ⟨b.u * (b.ji * b.k), b.ji * b.k⟩).e
end DynB

noncomputable section

/-! ## vocabulary -/

/-- The segment `s` stored in the machine is, within `b`, the ideal segment `s'` at the given joint values. -/
structure DynNear (F : FlD) (b : DynB) (q qd : List ℝ) (s s' : Segment) : Prop where
  moving : s.moving = s'.moving
  valid : s'.Valid
  pose : ∀ x, x ∈ q ∨ x = 0 → rdist (F.segPose s x).M (s'.pose x).M ≤ b.d ∧ VB b.p (F.segPose s x).p (s'.pose x).p
  twist : ∀ x y, (x ∈ q ∧ y ∈ qd) ∨ (x = 0 ∧ y = 0) → TB b.tw (F.segTwist s x y) (s'.twist x y)
  unit : ∀ x, x ∈ q ∨ x = 0 → TB b.un (F.segTwist s x 1) (s'.twist x 1)
  mass : SB b.m s.I.m s'.I.m
  moment : VB b.h s.I.h s'.I.h
  inertia : rdist (asRot s.I.I) (asRot s'.I.I) ≤ b.n.e ∧ fro (asRot s'.I.I) ≤ b.n.l
  motor : s.joint.inertia = s'.joint.inertia
  rotor : |s.joint.inertia| ≤ b.ji

/-! ## helpers -/

/-- Link `i` of the two runs. -/
structure LinkB (b : DynB) (i : ℕ) (l l' : Link) : Prop where
  moving : l.seg.moving = l'.seg.moving
  X : rdist l.X.M l'.X.M ≤ b.d
  proper : l'.X.M.IsProper
  p : VB b.p l.X.p l'.X.p
  S : TB b.S l.S l'.S
  f : WB (b.f i) l.f l'.f
  motor : l.seg.joint.inertia = l'.seg.joint.inertia
  rotor : |l.seg.joint.inertia| ≤ b.ji

def nMovL (ls : List Link) : ℕ := nMoving (ls.map Link.seg)

theorem forall₂_write {R : ℝ → ℝ → Prop} {l l' : List ℝ} (h : List.Forall₂ R l l') (m : ℕ) {x y : ℝ} (hxy : R x y) :
    List.Forall₂ R (l.set m x) (l'.set m y) := by
  induction h generalizing m with
  | nil => exact .nil
  | cons g1 g2 ih =>
    rcases m with _ | m
    · exact .cons hxy g2
    · exact .cons g1 (ih m)

section
variable {F : FlD} (hF : F.Ok) {b : DynB} (hu : F.u ≤ b.u)
include hF hu

theorem fwd_near {ag : Twist} (hag : TB ⟨⟨0, b.g⟩, ⟨0, 0⟩⟩ ag ag) {q qd qdd : List ℝ} {fext : List Wrench}
    (hk : ∀ z ∈ qdd, |z| ≤ b.k) (hk0 : (0 : ℝ) ≤ b.k) (hf : ∀ w ∈ fext, vlen w.force ≤ b.ff ∧ vlen w.torque ≤ b.ft)
    {ss ss' : List Segment} (h : List.Forall₂ (DynNear F b q qd) ss ss') :
    ∀ (i j : ℕ) (pr pr' : Option (Twist × Twist)), j + nMoving ss ≤ q.length → j + nMoving ss ≤ qd.length → j + nMoving ss ≤ qdd.length →
    i + ss.length ≤ fext.length →
    (i = 0 ∧ pr = none ∧ pr' = none ∨ ∃ i0 v a v' a', i = i0 + 1 ∧ pr = some (v, a) ∧ pr' = some (v', a') ∧
      TB (b.va i0).1 v v' ∧ TB (b.va i0).2 a a') →
    ∃ ls ls', F.rneFwd ag q qd qdd fext ss i j pr = some ls ∧ rneFwd ag q qd qdd fext ss' i j pr' = some ls' ∧
      ls.length = ss.length ∧ ls'.length = ss.length ∧ ls.map Link.seg = ss ∧
      ∀ k l l', ls[k]? = some l → ls'[k]? = some l' → LinkB b (i + k) l l' := by
  induction h with
  | nil =>
    intro i j pr pr' _ _ _ _ _
    exact ⟨[], [], rfl, rfl, rfl, rfl, rfl, fun k l l' h => by simp at h⟩
  | @cons s s' ss ss' h1 h2 ih =>
    intro i j pr pr' hq hqd hqdd hfe hpr
    rw [List.length_cons] at hfe
    rw [nMoving_cons] at hq hqd hqdd
    -- the numbers read
    obtain ⟨x, y, z, j', e1, e1', hxy, hx, hz, hj1, hj2, hj3⟩ : ∃ (x y z : ℝ) (j' : ℕ),
        (if s.moving then (do let a ← q[j]?; let b ← qd[j]?; let c ← qdd[j]?; some (a, b, c, j + 1))
          else some (0, 0, 0, j) : Option (ℝ × ℝ × ℝ × ℕ)) = some (x, y, z, j') ∧
        (if s'.moving then (do let a ← q[j]?; let b ← qd[j]?; let c ← qdd[j]?; some (a, b, c, j + 1))
          else some (0, 0, 0, j) : Option (ℝ × ℝ × ℝ × ℕ)) = some (x, y, z, j') ∧
        ((x ∈ q ∧ y ∈ qd) ∨ (x = 0 ∧ y = 0)) ∧ (x ∈ q ∨ x = 0) ∧ |z| ≤ b.k ∧
        j' + nMoving ss ≤ q.length ∧ j' + nMoving ss ≤ qd.length ∧ j' + nMoving ss ≤ qdd.length := by
      rw [← h1.moving]
      by_cases hs : s.moving
      · rw [if_pos hs] at hq hqd hqdd
        have a1 : j < q.length := by omega
        have a2 : j < qd.length := by omega
        have a3 : j < qdd.length := by omega
        refine ⟨q[j], qd[j], qdd[j], j + 1, ?_, ?_, .inl ⟨List.getElem_mem a1, List.getElem_mem a2⟩, .inl (List.getElem_mem a1),
          hk _ (List.getElem_mem a3), by omega, by omega, by omega⟩ <;>
        · rw [if_pos hs, List.getElem?_eq_getElem a1, List.getElem?_eq_getElem a2, List.getElem?_eq_getElem a3]
          rfl
      · rw [if_neg hs] at hq hqd hqdd
        refine ⟨0, 0, 0, j, by rw [if_neg hs], by rw [if_neg hs], .inr ⟨rfl, rfl⟩, .inr rfl, by simpa using hk0, by omega, by omega, by omega⟩
    obtain ⟨hX, hp⟩ := h1.pose x hx
    have hXp : (s'.pose x).M.IsProper := Segment.isProper_pose h1.valid x
    have hvj : TB b.vj (F.rotInvTwist (F.segPose s x).M (F.segTwist s x y)) ((s'.pose x).M.invTwist (s'.twist x y)) :=
      TB.inv hF hu hXp hX (h1.twist x y hxy)
    have hS : TB b.S (F.rotInvTwist (F.segPose s x).M (F.segTwist s x 1)) ((s'.pose x).M.invTwist (s'.twist x 1)) :=
      TB.inv hF hu hXp hX (h1.unit x hx)
    have hfi : i < fext.length := by omega
    obtain ⟨v, a, v', a', e2, e2', hv, ha⟩ : ∃ v a v' a',
        F.rneFwd ag q qd qdd fext (s :: ss) i j pr = (F.rneFwd ag q qd qdd fext ss (i + 1) j' (some (v, a))).bind (fun r =>
          some (⟨s, F.segPose s x, F.rotInvTwist (F.segPose s x).M (F.segTwist s x 1), v, a,
            F.wrenchSub (F.wrenchAdd (F.rbiTwist s.I a) (F.twistWrench v (F.rbiTwist s.I v))) fext[i]⟩ :: r)) ∧
        rneFwd ag q qd qdd fext (s' :: ss') i j pr' = (rneFwd ag q qd qdd fext ss' (i + 1) j' (some (v', a'))).bind (fun r =>
          some (⟨s', s'.pose x, (s'.pose x).M.invTwist (s'.twist x 1), v', a', s'.I * a' + v' * (s'.I * v') - fext[i]⟩ :: r)) ∧
        TB (b.va i).1 v v' ∧ TB (b.va i).2 a a' := by
      rcases hpr with ⟨rfl, rfl, rfl⟩ | ⟨i0, v0, a0, v0', a0', rfl, rfl, rfl, hv0, ha0⟩
      · refine ⟨_, _, _, _, ?_, ?_, hvj,
          TB.add hF hu (TB.add hF hu (TB.finv hF hu hXp hX hp hag) (TB.scale hF hu hS hz)) (TB.cross hF hu hvj hvj)⟩
        · rw [FlD.rneFwd, e1, List.getElem?_eq_getElem hfi]
          rfl
        · rw [rneFwd, e1', List.getElem?_eq_getElem hfi]
          rfl
      · have hv := TB.add hF hu (TB.finv hF hu hXp hX hp hv0) hvj
        refine ⟨_, _, _, _, ?_, ?_, hv,
          TB.add hF hu (TB.add hF hu (TB.finv hF hu hXp hX hp ha0) (TB.scale hF hu hS hz)) (TB.cross hF hu hv hvj)⟩
        · rw [FlD.rneFwd, e1, List.getElem?_eq_getElem hfi]
          rfl
        · rw [rneFwd, e1', List.getElem?_eq_getElem hfi]
          rfl
    obtain ⟨ls, ls', f1, f2, f3, f4, f5, f6⟩ := ih (i + 1) j' (some (v, a)) (some (v', a')) hj1 hj2 hj3 (by omega)
      (.inr ⟨i, v, a, v', a', rfl, rfl, rfl, hv, ha⟩)
    have hfw : WB ⟨⟨0, b.ff⟩, ⟨0, b.ft⟩⟩ fext[i] fext[i] :=
      ⟨vb_self (hf _ (List.getElem_mem hfi)).1, vb_self (hf _ (List.getElem_mem hfi)).2⟩
    have hw : WB (b.f i) (F.wrenchSub (F.wrenchAdd (F.rbiTwist s.I a) (F.twistWrench v (F.rbiTwist s.I v))) fext[i])
        (s'.I * a' + v' * (s'.I * v') - fext[i]) := by
      exact WB.sub hF hu (WB.add hF hu (TB.rbi hF hu h1.mass h1.moment h1.inertia ha)
        (TB.wrench hF hu hv (TB.rbi hF hu h1.mass h1.moment h1.inertia hv))) hfw
    refine ⟨_, _, by rw [e2, f1]; rfl, by rw [e2', f2]; rfl, ?_, ?_, ?_, ?_⟩
    · simp [f3]
    · simp [f4]
    · simp [f5]
    · intro k l l' g1 g2
      rcases k with _ | k
      · simp only [List.getElem?_cons_zero, Option.some.injEq] at g1 g2
        rw [← g1, ← g2]
        exact ⟨h1.moving, hX, hXp, hp, hS, hw, h1.motor, h1.rotor⟩
      · rw [List.getElem?_cons_succ] at g1 g2
        have := f6 k l l' g1 g2
        rwa [show i + 1 + k = i + (k + 1) by omega] at this

theorem back_near {qdd : List ℝ} (hk : ∀ z ∈ qdd, |z| ≤ b.k) {N : ℕ} {T : ℝ} (hT : ∀ k < N, (b.tau N k : ℝ) ≤ T) :
    ∀ (ls ls' : List Link) (k : ℕ) (j : ℤ) (c c' : Option Wrench) (τ τ' : List ℝ), ls.length = ls'.length → k + ls.length ≤ N →
    j + 1 = nMovL ls → j < qdd.length → j < τ.length →
    (∀ i l l', ls[i]? = some l → ls'[i]? = some l' → LinkB b (N - 1 - (k + i)) l l') →
    (k = 0 ∧ c = none ∧ c' = none ∨ ∃ k0 w w', k = k0 + 1 ∧ c = some w ∧ c' = some w' ∧ WB ((b.F N k0).frame b.u b.d b.p) w w') →
    List.Forall₂ (fun x y => |x - y| ≤ T) τ τ' →
    ∃ σ σ', F.rneBack qdd ls j c τ = some σ ∧ rneBack qdd ls' j c' τ' = some σ' ∧ List.Forall₂ (fun x y => |x - y| ≤ T) σ σ' := by
  intro ls
  induction ls with
  | nil =>
    intro ls' k j c c' τ τ' hl _ _ _ _ _ _ hτ
    have : ls' = [] := List.length_eq_zero_iff.mp hl.symm
    subst this
    exact ⟨τ, τ', rfl, rfl, hτ⟩
  | cons l ls ih =>
    intro ls' k j c c' τ τ' hl hN hj hjq hjτ hL hc hτ
    obtain ⟨l', ls', rfl⟩ : ∃ l' r, ls' = l' :: r := by
      cases ls' with
      | nil => simp at hl
      | cons a r => exact ⟨a, r, rfl⟩
    have hl' : ls.length = ls'.length := by simpa using hl
    rw [List.length_cons] at hN
    have h0 := hL 0 l l' (by simp) (by simp)
    rw [add_zero] at h0
    have hL' : ∀ i m m', ls[i]? = some m → ls'[i]? = some m' → LinkB b (N - 1 - (k + 1 + i)) m m' := by
      intro i m m' g1 g2
      have := hL (i + 1) m m' (by simpa using g1) (by simpa using g2)
      rwa [show k + (i + 1) = k + 1 + i by omega] at this
    obtain ⟨f, f', ef, ef', hf⟩ : ∃ f f',
        F.rneBack qdd (l :: ls) j c τ = (if l.seg.moving then do
          let qddj ← getJnt qdd j
          let τ' ← setJnt τ j (F.rnd (F.twistDot l.S f + F.rnd (l.seg.joint.inertia * qddj)))
          F.rneBack qdd ls (j - 1) (some (F.frameWrench l.X f)) τ'
        else F.rneBack qdd ls j (some (F.frameWrench l.X f)) τ) ∧
        rneBack qdd (l' :: ls') j c' τ' = (if l'.seg.moving then do
          let qddj ← getJnt qdd j
          let τ'' ← setJnt τ' j (l'.S.dot f' + l'.seg.joint.inertia * qddj)
          rneBack qdd ls' (j - 1) (some (l'.X * f')) τ''
        else rneBack qdd ls' j (some (l'.X * f')) τ') ∧ WB (b.F N k) f f' := by
      rcases hc with ⟨rfl, rfl, rfl⟩ | ⟨k0, w, w', rfl, rfl, rfl, hw⟩
      · exact ⟨_, _, rfl, rfl, h0.f⟩
      · exact ⟨_, _, rfl, rfl, WB.add hF hu h0.f hw⟩
    have hcar : WB ((b.F N k).frame b.u b.d b.p) (F.frameWrench l.X f) (l'.X * f') := WB.frame hF hu h0.proper h0.X h0.p hf
    have hnm : nMovL (l :: ls) = nMoving (l.seg :: ls.map Link.seg) := rfl
    rw [hnm, nMoving_cons] at hj
    change j + 1 = (((if l.seg.moving then nMovL ls + 1 else nMovL ls) : ℕ) : ℤ) at hj
    rw [ef, ef', ← h0.moving]
    by_cases hs : l.seg.moving
    · rw [if_pos hs] at hj
      rw [if_pos hs, if_pos hs]
      have j0 : 0 ≤ j := by push_cast at hj; omega
      obtain ⟨m, rfl⟩ := Int.eq_ofNat_of_zero_le j0
      have a1 : m < qdd.length := by omega
      have a2 : m < τ.length := by omega
      have a3 : m < τ'.length := by rw [← hτ.length_eq]; exact a2
      have e1 : getJnt qdd (m : ℤ) = some qdd[m] := by
        unfold getJnt
        rw [if_pos j0, Int.toNat_natCast, List.getElem?_eq_getElem a1]
      have e2 : ∀ x, setJnt τ (m : ℤ) x = some (τ.set m x) := by
        intro x
        unfold setJnt
        rw [if_pos ⟨j0, by omega⟩, Int.toNat_natCast]
      have e3 : ∀ x, setJnt τ' (m : ℤ) x = some (τ'.set m x) := by
        intro x
        unfold setJnt
        rw [if_pos ⟨j0, by omega⟩, Int.toNat_natCast]
      rw [e1]
      simp only [Option.bind_eq_bind, Option.bind_some]
      rw [e2, e3]
      simp only [Option.bind_some]
      have hz := hk _ (List.getElem_mem a1)
      have hin : |l.seg.joint.inertia * qdd[m]| ≤ ((b.ji * b.k : ℚ) : ℝ) := by
        rw [abs_mul]
        push_cast
        exact mul_le_mul h0.rotor hz (abs_nonneg _) ((abs_nonneg _).trans h0.rotor)
      have ht := SB.add hF hu (TB.dot hF hu h0.S hf) (SB.rnd hF hu hin)
      refine ih ls' (k + 1) _ _ _ _ _ hl' (by omega) (by push_cast at hj; omega) (by omega) (by rw [List.length_set]; omega) hL'
        (.inr ⟨k, _, _, rfl, rfl, rfl, hcar⟩) ?_
      rw [← h0.motor]
      have hle : |F.rnd (F.twistDot l.S f + F.rnd (l.seg.joint.inertia * qdd[m])) - (l'.S.dot f' + l.seg.joint.inertia * qdd[m])| ≤ T :=
        ht.1.trans (hT k (by omega))
      exact forall₂_write hτ m hle
    · rw [if_neg hs] at hj
      rw [if_neg hs, if_neg hs]
      exact ih ls' (k + 1) _ _ _ _ _ hl' (by omega) (by push_cast at hj; omega) hjq hjτ hL' (.inr ⟨k, _, _, rfl, rfl, rfl, hcar⟩) hτ

end

/-! ## C109 -/

/-- The inverse dynamics in floating point arithmetic, on a chain whose segments are near the ideal ones: errors are reported as
without rounding, and otherwise every torque is within the bound of that of the ideal chain. -/
theorem C109_torques (F : FlD) (hF : F.Ok) (b : DynB) (hu : F.u ≤ b.u) (c c' : Chain) (hc : c.WF) (hc' : c'.WF) (grav : Vec)
    (q qd qdd : List ℝ) (fext : List Wrench) (τ : List ℝ) (nj ns : ℕ) (h : List.Forall₂ (DynNear F b q qd) c.segments c'.segments)
    (hg : vlen grav ≤ b.g) (hk0 : 0 ≤ b.k) (hk : ∀ z ∈ qdd, |z| ≤ b.k) (hf : ∀ w ∈ fext, vlen w.force ≤ b.ff ∧ vlen w.torque ≤ b.ft)
    (T : ℝ) (hT0 : 0 ≤ T) (hT : ∀ k < c.nrOfSegments, (b.tau c.nrOfSegments k : ℝ) ≤ T) :
    ((nj ≠ c.nrOfJoints ∨ ns ≠ c.nrOfSegments ∨ q.length ≠ nj ∨ qd.length ≠ nj ∨ qdd.length ≠ nj ∨ τ.length ≠ nj ∨ fext.length ≠ ns) →
      F.idRne c nj ns grav q qd qdd fext τ = idRne c nj ns grav q qd qdd fext τ) ∧
    (nj = c.nrOfJoints → ns = c.nrOfSegments → q.length = nj → qd.length = nj → qdd.length = nj → τ.length = nj → fext.length = ns →
      ∃ σ σ', F.idRne c nj ns grav q qd qdd fext τ = some (E_NOERROR, σ) ∧ idRne c' nj ns grav q qd qdd fext τ = some (E_NOERROR, σ') ∧
        List.Forall₂ (fun x y => |x - y| ≤ T) σ σ') := by
  constructor
  · intro he
    unfold FlD.idRne idRne
    by_cases h1 : nj ≠ c.nrOfJoints ∨ ns ≠ c.nrOfSegments
    · rw [if_pos h1, if_pos h1]
    · have h2 : q.length ≠ nj ∨ qd.length ≠ nj ∨ qdd.length ≠ nj ∨ τ.length ≠ nj ∨ fext.length ≠ ns := by tauto
      rw [if_neg h1, if_neg h1, if_pos h2, if_pos h2]
  · intro hnj hns h1 h2 h3 h4 h5
    have hlen := h.length_eq
    have hnS : c'.nrOfSegments = c.nrOfSegments := by rw [hc.1, hc'.1, hlen]
    have hnJ : c'.nrOfJoints = c.nrOfJoints := by
      rw [hc.2, hc'.2]
      clear hlen
      generalize c.segments = x at h
      generalize c'.segments = y at h
      induction h with
      | nil => rfl
      | cons h1 _ ih => rw [nMoving_cons, nMoving_cons, ih, h1.moving]
    have hseg : c.segments.take ns = c.segments := List.take_of_length_le (by rw [hns, hc.1])
    have hseg' : c'.segments.take ns = c'.segments := List.take_of_length_le (by rw [hns, hc.1, hlen])
    have hag : TB ⟨⟨0, b.g⟩, ⟨0, 0⟩⟩ (-⟨grav, 0⟩ : Twist) (-⟨grav, 0⟩) := by
      refine ⟨(vb_self hg).neg, ?_⟩
      have : vlen (0 : Vec) ≤ ((0 : ℚ) : ℝ) := by simp [vlen]
      exact (vb_self this).neg
    have hm : nMoving c.segments = nj := by rw [hnj, hc.2]
    have hl : c.segments.length = ns := by rw [hns, hc.1]
    obtain ⟨ls, ls', e1, e2, e3, e4, e5, e6⟩ := fwd_near hF hu hag hk (by exact_mod_cast hk0) hf h 0 0 none none (by omega) (by omega)
      (by omega) (by omega) (.inl ⟨rfl, rfl, rfl⟩)
    have r1 : nMovL ls.reverse = nj := by
      unfold nMovL
      rw [List.map_reverse, e5]
      unfold nMoving at hm ⊢
      rw [List.countP_reverse, hm]
    rw [← hns] at hT
    obtain ⟨σ, σ', g1, g2, g3⟩ := back_near hF hu hk hT ls.reverse ls'.reverse 0 ((nj : ℤ) - 1) none none τ τ (by simp [e3, e4])
      (by simp [e3, hl]) (by rw [r1]; ring) (by omega) (by omega) (fun i l l' a1 a2 => by
        have hi : i < ls.length := by
          have := (List.getElem?_eq_some_iff.mp a1).1
          simpa using this
        have hi' : i < ls'.length := by omega
        rw [List.getElem?_reverse hi] at a1
        rw [List.getElem?_reverse hi'] at a2
        have hll : ls'.length = ls.length := by omega
        rw [hll] at a2
        have := e6 _ l l' a1 a2
        rwa [show 0 + (ls.length - 1 - i) = ns - 1 - (0 + i) by omega] at this)
      (.inl ⟨rfl, rfl, rfl⟩) (List.forall₂_same.mpr fun x _ => by simpa using hT0)
    refine ⟨σ, σ', ?_, ?_, g3⟩
    · unfold FlD.idRne
      rw [if_neg (by tauto), if_neg (by tauto), hseg, e1]
      simp only [Option.bind_eq_bind, Option.bind_some]
      rw [g1]
      rfl
    · unfold idRne
      rw [hnJ, hnS, if_neg (by tauto), if_neg (by tauto), hseg', e2]
      simp only [Option.bind_eq_bind, Option.bind_some]
      rw [g2]
      rfl

/-- With exact arithmetic the model is the one of C39. -/
theorem C109_exact (u : ℝ) (c : Chain) (nj ns : ℕ) (grav : Vec) (q qd qdd : List ℝ) (fext : List Wrench) (τ : List ℝ) :
    (FlD.mk ⟨u, id, Real.sin, Real.cos⟩ (fun I v => I * v)).idRne c nj ns grav q qd qdd fext τ =
      idRne c nj ns grav q qd qdd fext τ := by
  obtain ⟨F, hF⟩ : ∃ F, F = FlD.mk ⟨u, id, Real.sin, Real.cos⟩ (fun I v => I * v) := ⟨_, rfl⟩
  rw [← hF]
  have hj : ∀ (j : Joint) (x : ℝ), F.jointPose j x = j.pose x := by
    intro j x
    rw [hF]
    unfold Fl.jointPose Joint.pose
    cases j.type <;> first | rfl | skip
    all_goals
      simp only [Frame.ofVec, Fl.vecAdd, Fl.vecScale, Fl.arg, id]
      ext <;> simp <;> ring
  have hs : ∀ (s : Segment) (x : ℝ), F.segPose s x = s.pose x := by
    intro s x
    show F.frameMul _ _ = _
    rw [hj, hF]
    rfl
  have hjt : ∀ (j : Joint) (x : ℝ), F.jointTwist j x = j.twist x := by
    intro j x
    rw [hF]
    unfold Fl.jointTwist Joint.twist
    cases j.type <;> first | rfl | skip
    all_goals
      simp only [Fl.vecScale, id]
      ext <;> simp <;> ring
  have ht : ∀ (s : Segment) (x y : ℝ), F.segTwist s x y = s.twist x y := by
    intro s x y
    show F.refPoint _ _ = _
    rw [hj, hjt, hF]
    rfl
  have o1 : ∀ (R : Rot) (t : Twist), F.rotInvTwist R t = R.invTwist t := fun R t => by rw [hF]; rfl
  have o2 : ∀ (X : Frame) (t : Twist), F.frameInvTwist X t = X.invTwist t := fun X t => by rw [hF]; rfl
  have o3 : ∀ a b : Twist, F.twistAdd a b = a + b := fun a b => by rw [hF]; rfl
  have o4 : ∀ (a : Twist) (k : ℝ), F.twistScale a k = k • a := fun a k => by
    rw [hF]
    simp only [FlD.twistScale, Fl.vecScale, id]
    ext <;> simp <;> ring
  have o5 : ∀ a b : Twist, F.twistCross a b = a * b := fun a b => by rw [hF]; rfl
  have o6 : ∀ (a : Twist) (b : Wrench), F.twistWrench a b = a * b := fun a b => by rw [hF]; rfl
  have o7 : ∀ a b : Wrench, F.wrenchAdd a b = a + b := fun a b => by rw [hF]; rfl
  have o8 : ∀ a b : Wrench, F.wrenchSub a b = a - b := fun a b => by rw [hF]; rfl
  have o9 : ∀ (i : RBI) (t : Twist), F.rbiTwist i t = i * t := fun i t => by
    rw [hF]
    show (⟨_, _⟩ : Wrench) = ⟨_, _⟩
    congr 1
    simp only [Fl.vecScale, Fl.vecSub, Fl.cross, id]
    ext <;> simp <;> ring
  have o10 : ∀ (X : Frame) (w : Wrench), F.frameWrench X w = X * w := fun X w => by rw [hF]; rfl
  have o11 : ∀ (t : Twist) (w : Wrench), F.twistDot t w = t.dot w := fun t w => by
    rw [hF]
    simp only [FlD.twistDot, FlD.vecDot, Fl.dot3, id, Twist.dot, Vec.dot]
  have o12 : ∀ x, F.rnd x = x := fun x => by rw [hF]; rfl
  have hl : ∀ (ag : Twist) (ss : List Segment) (i j : ℕ) (pr : Option (Twist × Twist)),
      F.rneFwd ag q qd qdd fext ss i j pr = rneFwd ag q qd qdd fext ss i j pr := by
    intro ag ss
    induction ss with
    | nil => intro i j pr; rfl
    | cons s ss ih =>
      intro i j pr
      rw [FlD.rneFwd, rneFwd]
      simp only [hs, ht, o1, o2, o3, o4, o5, o6, o7, o8, o9, ih]
      rcases pr with _ | ⟨v, a⟩ <;> rfl
  have hb : ∀ (ls : List Link) (j : ℤ) (w : Option Wrench) (t : List ℝ), F.rneBack qdd ls j w t = rneBack qdd ls j w t := by
    intro ls
    induction ls with
    | nil => intro j w t; rfl
    | cons l ls ih =>
      intro j w t
      rcases w with _ | w
      all_goals
        simp only [FlD.rneBack, rneBack, o7, o10, o11, o12, ih]
  unfold FlD.idRne idRne
  simp only [hl, hb]

/-- The product of a matrix and a vector summed from the left is one of those allowed. -/
theorem C109_matvec (F : Fl) (hF : F.Ok) : (FlD.mk F fun I v => F.rotVec (asRot I) v).Ok :=
  ⟨hF, fun I v => Fl.rotVec_err hF (asRot I) v⟩

/-! ## double precision -/

/-- The numbers of `C109_double`. -/
def dblB : DynB where
  u := 1 / 2 ^ 53
  d := 3 / 10 ^ 13
  p := ⟨1 / 10 ^ 11, 60⟩
  tw := ⟨⟨1 / 10 ^ 11, 31⟩, ⟨3 / 10 ^ 14, 1⟩⟩
  un := ⟨⟨1 / 10 ^ 11, 31⟩, ⟨3 / 10 ^ 14, 1⟩⟩
  k := 1
  m := ⟨1 / 10 ^ 14, 10⟩
  h := ⟨1 / 10 ^ 14, 10⟩
  n := ⟨1 / 10 ^ 13, 100⟩
  ff := 100
  ft := 100
  ji := 1
  g := 10

theorem dblB_tau : ∀ N < 7, ∀ k < N, dblB.tau N k ≤ 4 / 10 ^ 4 := by decide +kernel

/-- A segment as stored and the ideal one: geometry as in `SegClose`, joint rates and scales at most 1, mass at most 10, first moment
at most 10, inertia of norm at most 100, with errors of `1e-14`, `1e-14` and `1e-13`; motor inertia at most 1 and without error. -/
structure DynClose (q qd : List ℝ) (s s' : Segment) : Prop where
  close : SegClose q s s'
  rate : ∀ y ∈ qd, |s.joint.scale * y| ≤ 1
  scale : |s.joint.scale| ≤ 1
  mass : |s.I.m - s'.I.m| ≤ 1 / 10 ^ 14 ∧ |s'.I.m| ≤ 10
  moment : vdist s.I.h s'.I.h ≤ 1 / 10 ^ 14 ∧ vlen s'.I.h ≤ 10
  inertia : rdist (asRot s.I.I) (asRot s'.I.I) ≤ 1 / 10 ^ 13 ∧ fro (asRot s'.I.I) ≤ 100
  motor : s.joint.inertia = s'.joint.inertia
  rotor : |s.joint.inertia| ≤ 1

theorem DynClose.near {F : FlD} (hF : F.Ok) (hu : F.u = 1 / 2 ^ 53) {q qd : List ℝ} {s s' : Segment} (h : DynClose q qd s s') :
    DynNear F dblB q qd s s' := by
  obtain ⟨p1, p2, p3⟩ := segClose_pose hF.base hu h.close
  have h0 : SegClose (0 :: q) s s' :=
    { h.close with arg := fun x hx => h.close.arg x (by simp only [List.mem_cons] at hx; tauto) }
  have r1 := segClose_rate hF.base hu h.close h.rate
  have r2 := segClose_rate hF.base hu h0 (qd := [1]) (fun y hy => by
    rw [List.mem_singleton] at hy
    rw [hy, mul_one]
    exact h.scale)
  have conv : ∀ {t t' : Twist}, ColNear (3 / 10 ^ 14) (1 / 10 ^ 11) 1 31 t t' → TB ⟨⟨1 / 10 ^ 11, 31⟩, ⟨3 / 10 ^ 14, 1⟩⟩ t t' := by
    rintro t t' ⟨⟨a1, a2⟩, a3, a4⟩
    refine ⟨⟨?_, ?_⟩, ⟨?_, ?_⟩⟩ <;> push_cast <;> assumption
  refine ⟨p1, p2, fun x hx => ?_, fun x y hxy => conv (r1 x y hxy), fun x hx => conv (r2 x 1 (.inl ⟨?_, by simp⟩)), ?_, ?_, ?_,
    h.motor, ?_⟩
  · obtain ⟨⟨a1, a2⟩, a3⟩ := p3 x hx
    refine ⟨?_, ?_, ?_⟩ <;> simp only [dblB] <;> push_cast <;> assumption
  · rw [List.mem_cons]; tauto
  · refine ⟨?_, ?_⟩ <;> simp only [dblB] <;> push_cast
    exacts [h.mass.1, h.mass.2]
  · refine ⟨?_, ?_⟩ <;> simp only [dblB] <;> push_cast
    exacts [h.moment.1, h.moment.2]
  · refine ⟨?_, ?_⟩ <;> simp only [dblB] <;> push_cast
    exacts [h.inertia.1, h.inertia.2]
  · simpa [dblB] using h.rotor

/-- In double precision, a chain of at most six segments within the ranges of `DynClose`, joint accelerations at most 1, external
forces and torques at most 100, gravity at most 10: every torque returned is within `4e-4` of that of the ideal chain. -/
theorem C109_double (F : FlD) (hF : F.Ok) (hu : F.u = 1 / 2 ^ 53) (c c' : Chain) (hc : c.WF) (hc' : c'.WF) (grav : Vec)
    (q qd qdd : List ℝ) (fext : List Wrench) (τ : List ℝ) (h : List.Forall₂ (DynClose q qd) c.segments c'.segments)
    (hn : c.nrOfSegments ≤ 6) (hg : vlen grav ≤ 10) (hk : ∀ z ∈ qdd, |z| ≤ 1)
    (hf : ∀ w ∈ fext, vlen w.force ≤ 100 ∧ vlen w.torque ≤ 100) (h1 : q.length = c.nrOfJoints) (h2 : qd.length = c.nrOfJoints)
    (h3 : qdd.length = c.nrOfJoints) (h4 : τ.length = c.nrOfJoints) (h5 : fext.length = c.nrOfSegments) :
    ∃ σ σ', F.idRne c c.nrOfJoints c.nrOfSegments grav q qd qdd fext τ = some (E_NOERROR, σ) ∧
      idRne c' c.nrOfJoints c.nrOfSegments grav q qd qdd fext τ = some (E_NOERROR, σ') ∧
      List.Forall₂ (fun x y => |x - y| ≤ 4 / 10 ^ 4) σ σ' := by
  refine (C109_torques F hF dblB (by rw [hu]; simp [dblB]) c c' hc hc' grav q qd qdd fext τ c.nrOfJoints c.nrOfSegments
    (h.imp fun s s' hs => hs.near hF hu) (by simpa [dblB] using hg) (by simp [dblB]) (by simpa [dblB] using hk)
    (by simpa [dblB] using hf) (4 / 10 ^ 4) (by norm_num) fun k hk => ?_).2 rfl rfl h1 h2 h3 h4 h5
  have := dblB_tau c.nrOfSegments (by omega) k hk
  have e : ((dblB.tau c.nrOfSegments k : ℚ) : ℝ) ≤ ((4 / 10 ^ 4 : ℚ) : ℝ) := by exact_mod_cast this
  push_cast at e
  exact e

/-- Non-vacuity: a machine that rounds every number up and a chain of one segment, with mass, moving joint, load and gravity, meet the
assumptions of `C109_double` and, with `dblB`, those of `C109_torques`; the stored tip differs from the ideal one. -/
example : ∃ (F : FlD) (c c' : Chain) (grav : Vec) (q qd qdd : List ℝ) (fext : List Wrench) (τ : List ℝ), F.Ok ∧ F.u = 1 / 2 ^ 53 ∧
    c.WF ∧ c'.WF ∧ c ≠ c' ∧ List.Forall₂ (DynClose q qd) c.segments c'.segments ∧
    List.Forall₂ (DynNear F dblB q qd) c.segments c'.segments ∧ c.nrOfSegments ≤ 6 ∧ vlen grav ≤ 10 ∧ grav ≠ 0 ∧
    (∀ z ∈ qdd, |z| ≤ 1) ∧ (∀ w ∈ fext, vlen w.force ≤ 100 ∧ vlen w.torque ≤ 100) ∧ q.length = c.nrOfJoints ∧
    qd.length = c.nrOfJoints ∧ qdd.length = c.nrOfJoints ∧ τ.length = c.nrOfJoints ∧ fext.length = c.nrOfSegments ∧
    (∀ k < c.nrOfSegments, dblB.tau c.nrOfSegments k ≤ 4 / 10 ^ 4) ∧ qd ≠ [0] ∧ qdd ≠ [0] ∧ c.nrOfJoints = 1 := by
  obtain ⟨j, hj⟩ : ∃ j : Joint, j = ⟨"", .RotAxis, 1, 0, 1, 0, 0, ⟨3 / 5, 4 / 5, 0⟩, ⟨1, 2, 3⟩⟩ := ⟨_, rfl⟩
  obtain ⟨I, hI⟩ : ∃ I : RBI, I = ⟨2, ⟨1, 0, 0⟩, ⟨1, 0, 0, 0, 1, 0, 0, 0, 1⟩⟩ := ⟨_, rfl⟩
  obtain ⟨s', hs'⟩ : ∃ s : Segment, s = ⟨"", j, I, ⟨1, ⟨1, 0, 0⟩⟩⟩ := ⟨_, rfl⟩
  obtain ⟨s, hs⟩ : ∃ s : Segment, s = ⟨"", j, I, ⟨1, ⟨1 + 1 / 10 ^ 15, 0, 0⟩⟩⟩ := ⟨_, rfl⟩
  have vj : j.Valid := fun _ => by rw [hj]; simp [Vec.dot]; norm_num
  have hcl : SegClose [(0 : ℝ)] s s' := by
    refine ⟨by rw [hs, hs'], by rw [hs, hs'], by rw [hs, hs'], by rw [hs, hs'], ?_, fun _ => by simp [hs, hs']; norm_num, ?_, ?_, ⟨?_, ?_⟩, ?_⟩
    · rw [hs']; exact ⟨vj, Rot.IsProper.one⟩
    · intro x hx
      have : x = 0 := by simpa using hx
      rw [this, hs, hj]
      norm_num
    · simp [hs, hj]; norm_num
    · simp [rdist, hs, hs']
    · refine vdist_le (e := 1 / (2 * 10 ^ 14)) ⟨?_, ?_, ?_⟩ |>.trans (by norm_num) <;> simp [hs, hs'] <;> norm_num
    · exact vlen_le_sum (a := 1) (b := 0) (c := 0) (by simp [hs']) (by simp [hs']) (by simp [hs']) (by norm_num) (by norm_num)
  have hd : DynClose [0] [1] s s' := by
    refine ⟨hcl, ?_, ?_, ⟨?_, ?_⟩, ⟨?_, ?_⟩, ⟨?_, ?_⟩, by rw [hs, hs'], ?_⟩
    · intro y hy
      rw [List.mem_singleton] at hy
      rw [hy, hs, hj]
      norm_num
    · rw [hs, hj]; norm_num
    · rw [hs, hs']; norm_num
    · rw [hs', hI]; norm_num
    · rw [hs, hs', vdist_self]; norm_num
    · rw [hs', hI]
      exact vlen_le_sum (a := 1) (b := 0) (c := 0) (by simp) (by simp) (by simp) (by norm_num) (by norm_num)
    · rw [hs, hs']; norm_num [rdist]
    · rw [hs', hI]
      simp only [asRot, fro]
      rw [Real.sqrt_le_left (by norm_num)]
      norm_num
    · rw [hs, hj]; norm_num
  refine ⟨⟨sloppy, fun I v => sloppy.rotVec (asRot I) v⟩, ⟨1, 1, [s]⟩, ⟨1, 1, [s']⟩, ⟨0, 0, -9⟩, [0], [1], [1], [⟨⟨1, 0, 0⟩, 0⟩], [0],
    C109_matvec _ sloppy_ok, rfl, ⟨rfl, ?_⟩, ⟨rfl, ?_⟩, ?_, .cons hd .nil, .cons (hd.near (C109_matvec _ sloppy_ok) rfl) .nil, by norm_num,
    ?_, ?_, by simp, ?_, rfl, rfl, rfl, rfl, rfl, dblB_tau 1 (by norm_num), by norm_num, by norm_num, rfl⟩
  · simp [nMoving, hs, Segment.moving, Joint.moving, hj]
  · simp [nMoving, hs', Segment.moving, Joint.moving, hj]
  · intro h
    have : s.f_tip.p.x = s'.f_tip.p.x := by
      have h2 : [s] = [s'] := congrArg Chain.segments h
      have h3 : s = s' := by simpa using h2
      rw [h3]
    rw [hs, hs'] at this
    norm_num at this
  · exact vlen_le_sum (a := 0) (b := 0) (c := 9) (by simp) (by simp) (by simp) (by norm_num) (by norm_num)
  · intro h
    have := congrArg Vec.z h
    simp at this
  · intro w hw
    rw [List.mem_singleton] at hw
    rw [hw]
    exact ⟨vlen_le_sum (a := 1) (b := 0) (c := 0) (by simp) (by simp) (by simp) (by norm_num) (by norm_num),
      vlen_le_sum (a := 0) (b := 0) (c := 0) (by simp) (by simp) (by simp) (by norm_num) (by norm_num)⟩

end
end KDL
