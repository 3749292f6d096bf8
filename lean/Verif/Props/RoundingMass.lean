import Verif.Lemmas.RoundingMass
import Verif.Props.RoundingDH

/-! C115: rounding errors of the joint space inertia matrix. -/

namespace KDL

/-! ## the bound: rational numbers, computed along the loops of the solver -/

namespace DynB
variable (b : DynB)
/-- Composite inertia of the `k`-th segment from the end with all that follow. -/
def ic : ℕ → AErr
  | 0 => .ofRBI b.u b.m b.h b.n
  | k + 1 => (AErr.ofRBI b.u b.m b.h b.n).add b.u ((ic k).frame b.u b.d b.p)
/-- Its wrench at unit acceleration of the joint, seen `i` segments further to the base. -/
def wr (k : ℕ) : ℕ → TErr
  | 0 => (b.ic k).twist b.u b.S
  | i + 1 => (wr k i).frame b.u b.d b.p
/-- Entry on the diagonal, entry off the diagonal. -/
def dg (k : ℕ) : ℚ := ((b.S.dot b.u (b.wr k 0)).add b.u ⟨0, b.ji⟩).e
def og (k i : ℕ) : ℚ := (b.S.dot b.u (b.wr k (i + 1))).e
end DynB

theorem armB_mass : ∀ k < 11, armB.dg k ≤ 3 / 10 ^ 8 ∧ ∀ i < 10 - k, armB.og k i ≤ 3 / 10 ^ 8 := by decide +kernel
theorem dblB_mass : ∀ k < 6, dblB.dg k ≤ 4 / 10 ^ 5 ∧ ∀ i < 5 - k, dblB.og k i ≤ 4 / 10 ^ 5 := by decide +kernel

noncomputable section

/-! ## vocabulary -/

/-- Two matrices of the same size, entries within `T`. -/
def HB (T : ℝ) (H H' : JMat) : Prop := H.n = H'.n ∧ ∀ a b, |H.d a b - H'.d a b| ≤ T

/-! ## helpers -/

structure MLinkB (b : DynB) (l l' : MLink) : Prop where
  moving : l.seg.moving = l'.seg.moving
  X : rdist l.X.M l'.X.M ≤ b.d
  proper : l'.X.M.IsProper
  p : VB b.p l.X.p l'.X.p
  S : TB b.S l.S l'.S
  mass : SB b.m l.seg.I.m l'.seg.I.m
  moment : VB b.h l.seg.I.h l'.seg.I.h
  inertia : NB b.n l.seg.I.I l'.seg.I.I
  motor : l.seg.joint.inertia = l'.seg.joint.inertia
  rotor : |l.seg.joint.inertia| ≤ b.ji

def JMat.upd (H : JMat) (k j : ℤ) (x : ℝ) : JMat := ⟨H.n, fun a b => if a = k.toNat ∧ b = j.toNat then x else H.d a b⟩
theorem JMat.set_upd {H : JMat} {k j : ℤ} {x : ℝ} (h : (0 ≤ k ∧ k < H.n) ∧ (0 ≤ j ∧ j < H.n)) : H.set k j x = some (H.upd k j x) := if_pos h
theorem JMat.get_upd {H : JMat} {k j : ℤ} {x : ℝ} (h : (0 ≤ k ∧ k < H.n) ∧ (0 ≤ j ∧ j < H.n)) : (H.upd k j x).get k j = some x := by
  unfold JMat.get
  rw [if_pos (show (0 ≤ k ∧ k < (H.upd k j x).n) ∧ (0 ≤ j ∧ j < (H.upd k j x).n) from h)]
  simp [JMat.upd]
theorem JMat.upd_upd (H : JMat) (k j : ℤ) (x y : ℝ) : (H.upd k j x).upd k j y = H.upd k j y := by
  unfold JMat.upd
  congr 1
  funext a b
  by_cases h : a = k.toNat ∧ b = j.toNat <;> simp [h]
theorem HB.upd {T : ℝ} {H H' : JMat} (h : HB T H H') (k j : ℤ) {x x' : ℝ} (hx : |x - x'| ≤ T) : HB T (H.upd k j x) (H'.upd k j x') := by
  refine ⟨h.1, fun a b => ?_⟩
  unfold JMat.upd
  by_cases e : a = k.toNat ∧ b = j.toNat
  · simp only [e, and_self, if_true]; exact hx
  · simp only [e, if_false]; exact h.2 a b

def nMovM (ls : List MLink) : ℕ := nMoving (ls.map MLink.seg)
theorem nMovM_cons (l : MLink) (ls : List MLink) : nMovM (l :: ls) = nMovM ls + (if l.seg.moving then 1 else 0) := by
  unfold nMovM
  rw [List.map_cons, nMoving_cons]
  split <;> omega

section
variable {F : FlD} (hF : F.Ok) {b : DynB} (hu : F.u ≤ b.u)
include hF hu

theorem mfwd_near {q : List ℝ} {ss ss' : List Segment} (h : List.Forall₂ (DynNear F b q []) ss ss') :
    ∀ k, k + nMoving ss ≤ q.length → ∃ ls ls', F.massFwd q ss k = some ls ∧ massFwd q ss' k = some ls' ∧ List.Forall₂ (MLinkB b) ls ls' ∧
      ls.map MLink.seg = ss := by
  induction h with
  | nil => intro k _; exact ⟨[], [], rfl, rfl, .nil, rfl⟩
  | @cons s s' ss ss' h1 h2 ih =>
    intro k hk
    rw [nMoving_cons] at hk
    obtain ⟨x, k', e1, e1', hx, hk'⟩ : ∃ (x : ℝ) (k' : ℕ),
        (if s.moving then (do let a ← q[k]?; some (a, k + 1)) else some (0, k) : Option (ℝ × ℕ)) = some (x, k') ∧
        (if s'.moving then (do let a ← q[k]?; some (a, k + 1)) else some (0, k) : Option (ℝ × ℕ)) = some (x, k') ∧
        (x ∈ q ∨ x = 0) ∧ k' + nMoving ss ≤ q.length := by
      rw [← h1.moving]
      by_cases hs : s.moving
      · rw [if_pos hs] at hk
        have a1 : k < q.length := by omega
        refine ⟨q[k], k + 1, ?_, ?_, .inl (List.getElem_mem a1), by omega⟩ <;>
        · rw [if_pos hs, List.getElem?_eq_getElem a1]
          rfl
      · rw [if_neg hs] at hk
        exact ⟨0, k, by rw [if_neg hs], by rw [if_neg hs], .inr rfl, by omega⟩
    obtain ⟨hX, hp⟩ := h1.pose x hx
    have hXp : (s'.pose x).M.IsProper := Segment.isProper_pose h1.valid x
    have hS : TB b.S (F.rotInvTwist (F.segPose s x).M (F.segTwist s x 1)) ((s'.pose x).M.invTwist (s'.twist x 1)) :=
      TB.inv hF hu hXp hX (h1.unit x hx)
    obtain ⟨ls, ls', f1, f2, f3, f4⟩ := ih k' hk'
    refine ⟨⟨s, F.segPose s x, F.rotInvTwist (F.segPose s x).M (F.segTwist s x 1)⟩ :: ls,
      ⟨s', s'.pose x, (s'.pose x).M.invTwist (s'.twist x 1)⟩ :: ls', ?_, ?_, .cons ⟨h1.moving, hX, hXp, hp, hS, h1.mass, h1.moment, h1.inertia,
      h1.motor, h1.rotor⟩ f3, by rw [List.map_cons, f4]⟩
    · rw [FlD.massFwd, e1]
      simp only [Option.bind_eq_bind, Option.bind_some, f1]
    · rw [KDL.massFwd, e1']
      simp only [Option.bind_eq_bind, Option.bind_some, f2]

theorem inner_near {k : ℤ} {m : ℕ} {T : ℝ} {ls ls' : List MLink} (h : List.Forall₂ (MLinkB b) ls ls') :
    ∀ (i : ℕ) (X X' : Frame) (j : ℤ) (W W' : Wrench) (H H' : JMat), (∀ t, t < i + ls.length → (b.og m t : ℝ) ≤ T) → rdist X.M X'.M ≤ b.d →
    X'.M.IsProper → VB b.p X.p X'.p → WB (b.wr m i) W W' → j = nMovM ls → 0 ≤ k → k < H.n → j ≤ k → HB T H H' →
    ∃ K K', F.massInner k X ls j W H = some K ∧ massInner k X' ls' j W' H' = some K' ∧ HB T K K' ∧ K.n = H.n := by
  induction h with
  | nil => intro i X X' j W W' H H' _ _ _ _ _ _ _ _ _ hH; exact ⟨H, H', rfl, rfl, hH, rfl⟩
  | @cons l l' ls ls' h1 h2 ih =>
    intro i X X' j W W' H H' hT hX hXp hp hW hj hk0 hk hjk hH
    rw [nMovM_cons] at hj
    have hW' : WB (b.wr m (i + 1)) (F.frameWrench X W) (X' * W') := WB.frame hF hu hXp hX hp hW
    have hT' : ∀ t, t < i + 1 + ls.length → (b.og m t : ℝ) ≤ T := fun t ht => hT t (by rw [List.length_cons]; omega)
    by_cases hm : l.seg.moving
    · rw [if_pos hm] at hj
      have hx : |F.twistDot l.S (F.frameWrench X W) - l'.S.dot (X' * W')| ≤ T :=
        (TB.dot hF hu h1.S hW').1.trans (hT i (by rw [List.length_cons]; omega))
      have r : (0 ≤ k ∧ k < H.n) ∧ (0 ≤ j - 1 ∧ j - 1 < H.n) := ⟨⟨hk0, hk⟩, by omega, by omega⟩
      have r' : (0 ≤ k ∧ k < H'.n) ∧ (0 ≤ j - 1 ∧ j - 1 < H'.n) := by rw [← hH.1]; exact r
      obtain ⟨K, K', f1, f2, f3, f4⟩ := ih (i + 1) l.X l'.X (j - 1) _ _ _ _ hT' h1.X h1.proper h1.p hW' (by omega) hk0 (by exact hk) (by omega)
        ((hH.upd k (j - 1) hx).upd (j - 1) k hx)
      refine ⟨K, K', ?_, ?_, f3, f4⟩
      · rw [FlD.massInner]
        simp only [hm, if_true, JMat.set_upd r, Option.bind_eq_bind, Option.bind_some, JMat.get_upd r]
        rw [JMat.set_upd (H := H.upd k (j - 1) _) ⟨r.2, r.1⟩]
        exact f1
      · have hm' : l'.seg.moving = true := by rw [← h1.moving]; exact hm
        rw [KDL.massInner]
        simp only [hm', if_true, JMat.set_upd r', Option.bind_eq_bind, Option.bind_some, JMat.get_upd r']
        rw [JMat.set_upd (H := H'.upd k (j - 1) _) ⟨r'.2, r'.1⟩]
        exact f2
    · rw [if_neg hm] at hj
      obtain ⟨K, K', f1, f2, f3, f4⟩ := ih (i + 1) l.X l'.X j _ _ H H' hT' h1.X h1.proper h1.p hW' (by omega) hk0 hk (by omega) hH
      have hm' : ¬ l'.seg.moving = true := by rw [← h1.moving]; exact hm
      refine ⟨K, K', ?_, ?_, f3, f4⟩
      · rw [FlD.massInner]
        simp only [hm, if_false]
        exact f1
      · rw [KDL.massInner]
        simp only [hm', if_false]
        exact f2

theorem outer_near {N : ℕ} {T : ℝ} (hT : ∀ k < N, (b.dg k : ℝ) ≤ T) (hT' : ∀ k i, k + i + 1 < N → (b.og k i : ℝ) ≤ T) {ls ls' : List MLink}
    (h : List.Forall₂ (MLinkB b) ls ls') :
    ∀ (m : ℕ) (k : ℤ) (c c' : Option ABI) (H H' : JMat), m + ls.length ≤ N → k + 1 = nMovM ls → k < H.n →
    (m = 0 ∧ c = none ∧ c' = none ∨ ∃ m0 w w', m = m0 + 1 ∧ c = some w ∧ c' = some w' ∧ AB ((b.ic m0).frame b.u b.d b.p) w w') → HB T H H' →
    ∃ K K', F.massOuter ls k c H = some K ∧ massOuter ls' k c' H' = some K' ∧ HB T K K' ∧ K.n = H.n := by
  induction h with
  | nil => intro m k c c' H H' _ _ _ _ hH; exact ⟨H, H', rfl, rfl, hH, rfl⟩
  | @cons l l' ls ls' h1 h2 ih =>
    intro m k c c' H H' hN hk hkn hc hH
    rw [nMovM_cons] at hk
    rw [List.length_cons] at hN
    have hI := AB.ofRBI hF hu h1.mass h1.moment h1.inertia
    obtain ⟨J, J', d1, d2, hJ⟩ : ∃ J J', F.massOuter (l :: ls) k c H = (if l.seg.moving then do
          let H1 ← H.set k k (F.twistDot l.S (F.abiTwist J l.S))
          let h ← H1.get k k
          let H2 ← H1.set k k (F.rnd (h + l.seg.joint.inertia))
          let H3 ← F.massInner k l.X ls k (F.abiTwist J l.S) H2
          F.massOuter ls (k - 1) (some (F.frameAbi l.X J)) H3
        else F.massOuter ls k (some (F.frameAbi l.X J)) H) ∧
        massOuter (l' :: ls') k c' H' = (if l'.seg.moving then do
          let H1 ← H'.set k k (l'.S.dot (J' * l'.S))
          let h ← H1.get k k
          let H2 ← H1.set k k (h + l'.seg.joint.inertia)
          let H3 ← massInner k l'.X ls' k (J' * l'.S) H2
          massOuter ls' (k - 1) (some (l'.X * J')) H3
        else massOuter ls' k (some (l'.X * J')) H') ∧ AB (b.ic m) J J' := by
      rcases hc with ⟨rfl, rfl, rfl⟩ | ⟨m0, w, w', rfl, rfl, rfl, hw⟩
      · exact ⟨_, _, rfl, rfl, hI⟩
      · exact ⟨_, _, rfl, rfl, AB.add hF hu hI hw⟩
    have hW : WB (b.wr m 0) (F.abiTwist J l.S) (J' * l'.S) := AB.twist hF hu hJ h1.S
    have hnext := AB.frame hF hu h1.proper h1.X h1.p hJ
    by_cases hm : l.seg.moving
    · have hm' : l'.seg.moving = true := by rw [← h1.moving]; exact hm
      rw [if_pos hm] at hk
      have hmo : SB ⟨0, b.ji⟩ l.seg.joint.inertia l'.seg.joint.inertia := by
        rw [← h1.motor]
        exact ⟨by simp, h1.rotor⟩
      have hx := ((SB.add hF hu (TB.dot hF hu h1.S hW) hmo).1).trans (hT m (by omega))
      have r : (0 ≤ k ∧ k < H.n) ∧ (0 ≤ k ∧ k < H.n) := ⟨⟨by omega, hkn⟩, by omega, hkn⟩
      have r' : (0 ≤ k ∧ k < H'.n) ∧ (0 ≤ k ∧ k < H'.n) := by rw [← hH.1]; exact r
      obtain ⟨K, K', f1, f2, f3, f4⟩ := inner_near hF hu (k := k) (m := m) (T := T) h2 0 l.X l'.X k _ _ _ _ (fun t ht => hT' m t (by omega)) h1.X h1.proper
        h1.p hW (by omega) r.1.1 (by exact hkn) le_rfl (hH.upd k k hx)
      obtain ⟨L, L', g1, g2, g3, g4⟩ := ih (m + 1) (k - 1) (some (F.frameAbi l.X J)) (some (l'.X * J')) K K' (by omega) (by omega)
        (by rw [f4]; show k - 1 < H.n; omega) (.inr ⟨m, _, _, rfl, rfl, rfl, hnext⟩) f3
      refine ⟨L, L', ?_, ?_, g3, by rw [g4, f4]; rfl⟩
      · rw [d1]
        simp only [hm, if_true, JMat.set_upd r, Option.bind_eq_bind, Option.bind_some, JMat.get_upd r]
        rw [JMat.set_upd (H := H.upd k k _) r, Option.bind_some, JMat.upd_upd, f1, Option.bind_some]
        exact g1
      · rw [d2]
        simp only [hm', if_true, JMat.set_upd r', Option.bind_eq_bind, Option.bind_some, JMat.get_upd r']
        rw [JMat.set_upd (H := H'.upd k k _) r', Option.bind_some, JMat.upd_upd, f2, Option.bind_some]
        exact g2
    · have hm' : ¬ l'.seg.moving = true := by rw [← h1.moving]; exact hm
      rw [if_neg hm] at hk
      obtain ⟨L, L', g1, g2, g3, g4⟩ := ih (m + 1) k (some (F.frameAbi l.X J)) (some (l'.X * J')) H H' (by omega) (by omega) hkn
        (.inr ⟨m, _, _, rfl, rfl, rfl, hnext⟩) hH
      refine ⟨L, L', ?_, ?_, g3, g4⟩
      · rw [d1, if_neg hm]
        exact g1
      · rw [d2, if_neg hm']
        exact g2
end

/-! ## C115 -/

/-- The matrix returned is, entry by entry, within `T` of that of the ideal chain, if the bounds computed along the loops are. Wrong sizes are reported
as without rounding. -/
theorem C115_mass (F : FlD) (hF : F.Ok) (b : DynB) (hu : F.u ≤ b.u) (c c' : Chain) (hc : c.WF) (hc' : c'.WF) (q : List ℝ) (H : JMat) (nj ns : ℕ)
    (h : List.Forall₂ (DynNear F b q []) c.segments c'.segments) (T : ℝ) (hT0 : 0 ≤ T) (hT : ∀ k < c.nrOfSegments, (b.dg k : ℝ) ≤ T)
    (hT' : ∀ k i, k + i + 1 < c.nrOfSegments → (b.og k i : ℝ) ≤ T) :
    ((nj ≠ c.nrOfJoints ∨ ns ≠ c.nrOfSegments ∨ q.length ≠ nj ∨ H.n ≠ nj) → F.jntToMass c nj ns q H = jntToMass c nj ns q H) ∧
    (nj = c.nrOfJoints → ns = c.nrOfSegments → q.length = nj → H.n = nj →
      ∃ K K', F.jntToMass c nj ns q H = some (E_NOERROR, K) ∧ jntToMass c' nj ns q H = some (E_NOERROR, K') ∧ K.n = nj ∧ K'.n = nj ∧
        ∀ i j, |K.d i j - K'.d i j| ≤ T) := by
  constructor
  · intro he
    unfold FlD.jntToMass jntToMass
    by_cases h1 : nj ≠ c.nrOfJoints ∨ ns ≠ c.nrOfSegments
    · rw [if_pos h1, if_pos h1]
    · have h2 : q.length ≠ nj ∨ H.n ≠ nj := by tauto
      rw [if_neg h1, if_neg h1, if_pos h2, if_pos h2]
  · intro hnj hns h1 h2
    have hlen := h.length_eq
    have hnS : c'.nrOfSegments = c.nrOfSegments := by rw [hc.1, hc'.1, hlen]
    have hnJ : c'.nrOfJoints = c.nrOfJoints := by
      rw [hc.2, hc'.2]
      clear hlen
      generalize c.segments = x at h
      generalize c'.segments = y at h
      induction h with
      | nil => rfl
      | cons h1 _ ih => rw [nMoving_cons, nMoving_cons, ih, h1.moving]
    have hseg : c.segments.take ns = c.segments := List.take_of_length_le (by rw [hns, hc.1])
    have hseg' : c'.segments.take ns = c'.segments := List.take_of_length_le (by rw [hns, hc.1, hlen])
    have hm : nMoving c.segments = nj := by rw [hnj, hc.2]
    obtain ⟨ls, ls', e1, e2, e3, e4⟩ := mfwd_near hF hu h 0 (by omega)
    have r1 : nMovM ls.reverse = nj := by
      unfold nMovM
      rw [List.map_reverse, e4]
      unfold nMoving at hm ⊢
      rw [List.countP_reverse, hm]
    have r2 : ls.reverse.length = c.nrOfSegments := by rw [List.length_reverse, ← List.length_map (f := MLink.seg), e4, hc.1]
    obtain ⟨K, K', f1, f2, f3, f4⟩ := outer_near hF hu hT hT' (List.rel_reverse e3) 0 ((nj : ℤ) - 1) none none H H (by omega) (by omega)
      (by omega) (.inl ⟨rfl, rfl, rfl⟩) ⟨rfl, fun a b => by simpa using hT0⟩
    refine ⟨K, K', ?_, ?_, by omega, by rw [← f3.1]; omega, f3.2⟩
    · unfold FlD.jntToMass
      rw [if_neg (by omega), if_neg (by omega), hseg, e1]
      simp only [Option.bind_eq_bind, Option.bind_some, f1]
    · unfold jntToMass
      rw [if_neg (by omega), if_neg (by omega), hseg', e2]
      simp only [Option.bind_eq_bind, Option.bind_some, f2]

/-- In double precision, a chain of at most six segments in the ranges of C109: every entry is within `4e-5`. -/
theorem C115_double (F : FlD) (hF : F.Ok) (hu : F.u = 1 / 2 ^ 53) (c c' : Chain) (hc : c.WF) (hc' : c'.WF) (q : List ℝ) (H : JMat)
    (h : List.Forall₂ (DynClose q []) c.segments c'.segments) (hn : c.nrOfSegments ≤ 6) (h1 : q.length = c.nrOfJoints) (h2 : H.n = c.nrOfJoints) :
    ∃ K K', F.jntToMass c c.nrOfJoints c.nrOfSegments q H = some (E_NOERROR, K) ∧ jntToMass c' c.nrOfJoints c.nrOfSegments q H = some (E_NOERROR, K') ∧
      K.n = c.nrOfJoints ∧ K'.n = c.nrOfJoints ∧ ∀ i j, |K.d i j - K'.d i j| ≤ 4 / 10 ^ 5 := by
  have cv : ∀ {x : ℚ}, x ≤ 4 / 10 ^ 5 → (x : ℝ) ≤ 4 / 10 ^ 5 := by
    intro x hx
    have : (x : ℝ) ≤ ((4 / 10 ^ 5 : ℚ) : ℝ) := by exact_mod_cast hx
    push_cast at this
    exact this
  exact (C115_mass F hF dblB (by rw [hu]; simp [dblB]) c c' hc hc' q H _ _ (h.imp fun s s' hs => hs.near hF hu) (4 / 10 ^ 5) (by norm_num)
    (fun k hk => cv (dblB_mass k (by omega)).1) (fun k i hk => cv ((dblB_mass k (by omega)).2 i (by omega)))).2 rfl rfl h1 h2

/-- The Puma 560 built by `Puma560()` in double precision, joint angles at most 4: every entry of the matrix is within `3e-8` of that of the ideal
arm. -/
theorem C115_puma (F : FlD) (hF : F.Ok) (hu : F.u = 1 / 2 ^ 53) (q : List ℝ) (H : JMat) (hq : q.length = 6 ∧ ∀ x ∈ q, |x| ≤ 4) (hH : H.n = 6) :
    ∃ K K', F.jntToMass F.puma560 6 11 q H = some (E_NOERROR, K) ∧ jntToMass puma560 6 11 q H = some (E_NOERROR, K') ∧ K.n = 6 ∧ K'.n = 6 ∧
      ∀ i j, |K.d i j - K'.d i j| ≤ 3 / 10 ^ 8 := by
  obtain ⟨w1, n1, n2, w4⟩ := C111_puma F hF hu
  have hs : List.Forall₂ (DynNear F armB q []) F.puma560.segments puma560.segments := by
    have ha := puma_arm
    generalize F.puma560.segments = x at w4
    generalize puma560.segments = y at w4 ha
    induction w4 with
    | nil => exact .nil
    | cons g1 _ ih => exact .cons (arm_near hF hu hq.2 (by simp) g1 (ha _ (by simp))) (ih fun s hs => ha s (by simp [hs]))
  have cv : ∀ {x : ℚ}, x ≤ 3 / 10 ^ 8 → (x : ℝ) ≤ 3 / 10 ^ 8 := by
    intro x hx
    have : (x : ℝ) ≤ ((3 / 10 ^ 8 : ℚ) : ℝ) := by exact_mod_cast hx
    push_cast at this
    exact this
  exact (C115_mass F hF armB (by rw [hu]; simp [armB]) _ _ w1 C76_puma_shape.2.2.1 q H 6 11 hs (3 / 10 ^ 8) (by norm_num)
    (fun k hk => cv (armB_mass k (by omega)).1) (fun k i hk => cv ((armB_mass k (by omega)).2 i (by omega)))).2 n1.symm n2.symm hq.1 hH

/-- Exact arithmetic is the program over the reals. -/
theorem C115_exact (u : ℝ) (c : Chain) (nj ns : ℕ) (q : List ℝ) (H : JMat) :
    (FlD.mk ⟨u, id, Real.sin, Real.cos⟩ fun I v => I * v).jntToMass c nj ns q H = jntToMass c nj ns q H := by
  obtain ⟨F, hF⟩ : ∃ F, F = FlD.mk ⟨u, id, Real.sin, Real.cos⟩ (fun I v => I * v) := ⟨_, rfl⟩
  rw [← hF]
  have hj : ∀ (j : Joint) (x : ℝ), F.jointPose j x = j.pose x := by
    intro j x
    rw [hF]
    unfold Fl.jointPose Joint.pose
    cases j.type <;> first | rfl | skip
    all_goals
      simp only [Frame.ofVec, Fl.vecAdd, Fl.vecScale, Fl.arg, id]
      ext <;> simp <;> ring
  have hs : ∀ (s : Segment) (x : ℝ), F.segPose s x = s.pose x := by
    intro s x
    show F.frameMul _ _ = _
    rw [hj, hF]
    rfl
  have hjt : ∀ (j : Joint) (x : ℝ), F.jointTwist j x = j.twist x := by
    intro j x
    rw [hF]
    unfold Fl.jointTwist Joint.twist
    cases j.type <;> first | rfl | skip
    all_goals
      simp only [Fl.vecScale, id]
      ext <;> simp <;> ring
  have ht : ∀ (s : Segment) (x y : ℝ), F.segTwist s x y = s.twist x y := by
    intro s x y
    show Fl.refPoint F.toFl _ _ = _
    rw [hj, hjt, hF]
    rfl
  have o1 : ∀ (R : Rot) (t : Twist), F.rotInvTwist R t = R.invTwist t := fun R t => by rw [hF]; rfl
  have o2 : ∀ i : RBI, F.abiOfRBI i = ABI.ofRBI i := fun i => by rw [hF]; rfl
  have o3 : ∀ a b : ABI, F.abiAdd a b = a + b := fun a b => by rw [hF]; rfl
  have o4 : ∀ (a : ABI) (t : Twist), F.abiTwist a t = a * t := fun a t => by rw [hF]; rfl
  have o5 : ∀ (T : Frame) (a : ABI), F.frameAbi T a = T * a := fun T a => by rw [hF]; rfl
  have o10 : ∀ (X : Frame) (w : Wrench), F.frameWrench X w = X * w := fun X w => by rw [hF]; rfl
  have o11 : ∀ (t : Twist) (w : Wrench), F.twistDot t w = t.dot w := fun t w => by
    rw [hF]
    simp only [FlD.twistDot, FlD.vecDot, Fl.dot3, id, Twist.dot, Vec.dot]
  have o12 : ∀ x, F.rnd x = x := fun x => by rw [hF]; rfl
  have h1 : ∀ (ss : List Segment) (k : ℕ), F.massFwd q ss k = massFwd q ss k := by
    intro ss
    induction ss with
    | nil => intro k; rfl
    | cons s ss ih =>
      intro k
      rw [FlD.massFwd, KDL.massFwd]
      simp only [hs, ht, o1, ih]
  have h2 : ∀ (k : ℤ) (ls : List MLink) (X : Frame) (j : ℤ) (W : Wrench) (H : JMat), F.massInner k X ls j W H = massInner k X ls j W H := by
    intro k ls
    induction ls with
    | nil => intro X j W H; rfl
    | cons l ls ih =>
      intro X j W H
      simp only [FlD.massInner, KDL.massInner, o10, o11, ih]
  have h3 : ∀ (ls : List MLink) (k : ℤ) (w : Option ABI) (H : JMat), F.massOuter ls k w H = massOuter ls k w H := by
    intro ls
    induction ls with
    | nil => intro k w H; rfl
    | cons l ls ih =>
      intro k w H
      rcases w with _ | w
      all_goals
        simp only [FlD.massOuter, KDL.massOuter, o2, o3, o4, o5, o11, o12, h2, ih]
  unfold FlD.jntToMass jntToMass
  simp only [h1, h3]

/-- Not vacuous: a machine that rounds every number up; for it the Puma 560 meets the assumptions of `C115_mass` with `armB` and `3e-8`. -/
example : ∃ (F : FlD) (q : List ℝ) (H : JMat), F.Ok ∧ F.u = 1 / 2 ^ 53 ∧ F.rnd 1 ≠ 1 ∧ (q.length = 6 ∧ ∀ x ∈ q, |x| ≤ 4) ∧ H.n = 6 ∧ F.u ≤ armB.u ∧
    F.puma560.WF ∧ puma560.WF ∧ List.Forall₂ (DynNear F armB q []) F.puma560.segments puma560.segments := by
  have hF := C109_matvec _ sloppy_ok
  have hq : ∀ x ∈ List.replicate 6 (1 : ℝ), |x| ≤ 4 := by
    intro x hx
    rw [(List.mem_replicate.mp hx).2]; norm_num
  refine ⟨⟨sloppy, fun I v => sloppy.rotVec (asRot I) v⟩, List.replicate 6 1, ⟨6, fun _ _ => 0⟩, hF, rfl, by simp [sloppy], ⟨rfl, hq⟩, rfl, ?_,
    (C111_puma _ hF rfl).1, C76_puma_shape.2.2.1, ?_⟩
  · simp [sloppy, armB]
  · have w4 := (C111_puma _ hF rfl).2.2.2
    have ha := puma_arm
    generalize FlD.puma560 _ = x at w4
    generalize puma560.segments = y at w4 ha
    generalize x.segments = z at w4 ⊢
    induction w4 with
    | nil => exact .nil
    | cons g1 _ ih => exact .cons (arm_near hF rfl hq (by simp) g1 (ha _ (by simp))) (ih fun s hs => ha s (by simp [hs]))

/-- Not vacuous: a machine that rounds every number up and a chain of one segment with mass meet the assumptions of `C115_double`; the stored tip
differs from the ideal one. -/
example : ∃ (F : FlD) (c c' : Chain) (q : List ℝ) (H : JMat), F.Ok ∧ F.u = 1 / 2 ^ 53 ∧ c.WF ∧ c'.WF ∧ c ≠ c' ∧
    List.Forall₂ (DynClose q []) c.segments c'.segments ∧ c.nrOfSegments ≤ 6 ∧ q.length = c.nrOfJoints ∧ H.n = c.nrOfJoints ∧ c.nrOfJoints = 1 := by
  obtain ⟨j, hj⟩ : ∃ j : Joint, j = ⟨"", .RotAxis, 1, 0, 1, 0, 0, ⟨3 / 5, 4 / 5, 0⟩, ⟨1, 2, 3⟩⟩ := ⟨_, rfl⟩
  obtain ⟨I, hI⟩ : ∃ I : RBI, I = ⟨2, ⟨1, 0, 0⟩, ⟨1, 0, 0, 0, 1, 0, 0, 0, 1⟩⟩ := ⟨_, rfl⟩
  obtain ⟨s', hs'⟩ : ∃ s : Segment, s = ⟨"", j, I, ⟨1, ⟨1, 0, 0⟩⟩⟩ := ⟨_, rfl⟩
  obtain ⟨s, hs⟩ : ∃ s : Segment, s = ⟨"", j, I, ⟨1, ⟨1 + 1 / 10 ^ 15, 0, 0⟩⟩⟩ := ⟨_, rfl⟩
  have vj : j.Valid := fun _ => by rw [hj]; simp [Vec.dot]; norm_num
  have hcl : SegClose [(0 : ℝ)] s s' := by
    refine ⟨by rw [hs, hs'], by rw [hs, hs'], by rw [hs, hs'], by rw [hs, hs'], ?_, fun _ => by simp [hs, hs']; norm_num, ?_, ?_, ⟨?_, ?_⟩, ?_⟩
    · rw [hs']; exact ⟨vj, Rot.IsProper.one⟩
    · intro x hx
      have : x = 0 := by simpa using hx
      rw [this, hs, hj]
      norm_num
    · simp [hs, hj]; norm_num
    · simp [rdist, hs, hs']
    · refine vdist_le (e := 1 / (2 * 10 ^ 14)) ⟨?_, ?_, ?_⟩ |>.trans (by norm_num) <;> simp [hs, hs'] <;> norm_num
    · exact vlen_le_sum (a := 1) (b := 0) (c := 0) (by simp [hs']) (by simp [hs']) (by simp [hs']) (by norm_num) (by norm_num)
  have hd : DynClose [0] [] s s' := by
    refine ⟨hcl, ?_, ?_, ⟨?_, ?_⟩, ⟨?_, ?_⟩, ⟨?_, ?_⟩, by rw [hs, hs'], ?_⟩
    · intro y hy
      simp at hy
    · rw [hs, hj]; norm_num
    · rw [hs, hs']; norm_num
    · rw [hs', hI]; norm_num
    · rw [hs, hs', vdist_self]; norm_num
    · rw [hs', hI]
      exact vlen_le_sum (a := 1) (b := 0) (c := 0) (by simp) (by simp) (by simp) (by norm_num) (by norm_num)
    · rw [hs, hs']; norm_num [rdist]
    · rw [hs', hI]
      simp only [asRot, fro]
      rw [Real.sqrt_le_left (by norm_num)]
      norm_num
    · rw [hs, hj]; norm_num
  refine ⟨⟨sloppy, fun I v => sloppy.rotVec (asRot I) v⟩, ⟨1, 1, [s]⟩, ⟨1, 1, [s']⟩, [0], ⟨1, fun _ _ => 0⟩,
    C109_matvec _ sloppy_ok, rfl, ⟨rfl, ?_⟩, ⟨rfl, ?_⟩, ?_, .cons hd .nil, by norm_num, rfl, rfl, rfl⟩
  · simp [nMoving, hs, Segment.moving, Joint.moving, hj]
  · simp [nMoving, hs', Segment.moving, Joint.moving, hj]
  · intro h
    have : s.f_tip.p.x = s'.f_tip.p.x := by
      have h2 : [s] = [s'] := congrArg Chain.segments h
      have h3 : s = s' := by simpa using h2
      rw [h3]
    rw [hs, hs'] at this
    norm_num at this

end
end KDL
