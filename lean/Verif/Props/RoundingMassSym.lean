import Verif.Props.RoundingMass

/-! C115: the computed joint space inertia matrix is symmetric, whatever the rounding. -/

namespace KDL
noncomputable section

/-! ## helpers -/

/-- Symmetric in the rows and columns from `k` on. -/
def SymFrom (k : ℤ) (H : JMat) : Prop := ∀ a b : ℕ, a < H.n → b < H.n → k ≤ a ∨ k ≤ b → H.d a b = H.d b a

theorem sym_inner (F : FlD) {k : ℤ} : ∀ (ls : List MLink) (X : Frame) (j : ℤ) (W : Wrench) (H : JMat), j = nMovM ls → 0 ≤ k → k < H.n → j ≤ k →
    SymFrom (k + 1) H → (∀ t : ℕ, j ≤ t → t < k → H.d k.toNat t = H.d t k.toNat) →
    ∃ K, F.massInner k X ls j W H = some K ∧ K.n = H.n ∧ SymFrom k K := by
  intro ls
  induction ls with
  | nil =>
    intro X j W H hj hk0 hk hjk hS hR
    refine ⟨H, rfl, rfl, fun a b la lb hab => ?_⟩
    have j0 : j = 0 := by rw [hj]; rfl
    by_cases h1 : k + 1 ≤ a ∨ k + 1 ≤ b
    · exact hS a b la lb h1
    · by_cases ha : (a : ℤ) = k
      · have : a = k.toNat := by omega
        by_cases hb : (b : ℤ) = k
        · rw [show a = b by omega]
        · rw [this]
          exact hR b (by omega) (by omega)
      · have : b = k.toNat := by omega
        rw [this]
        exact (hR a (by omega) (by omega)).symm
  | cons l ls ih =>
    intro X j W H hj hk0 hk hjk hS hR
    rw [nMovM_cons] at hj
    by_cases hm : l.seg.moving
    · rw [if_pos hm] at hj
      have r : (0 ≤ k ∧ k < H.n) ∧ (0 ≤ j - 1 ∧ j - 1 < H.n) := ⟨⟨hk0, hk⟩, by omega, by omega⟩
      obtain ⟨x, hx⟩ : ∃ x, x = F.twistDot l.S (F.frameWrench X W) := ⟨_, rfl⟩
      obtain ⟨K, f1, f2, f3⟩ := ih l.X (j - 1) (F.frameWrench X W) ((H.upd k (j - 1) x).upd (j - 1) k x) (by omega) hk0 hk (by omega)
        (fun a b la lb hab => by
          have n1 : ¬ (a = (j - 1).toNat ∧ b = k.toNat) := by omega
          have n2 : ¬ (b = (j - 1).toNat ∧ a = k.toNat) := by omega
          have n3 : ¬ (a = k.toNat ∧ b = (j - 1).toNat) := by omega
          have n4 : ¬ (b = k.toNat ∧ a = (j - 1).toNat) := by omega
          simp only [JMat.upd, n1, n2, n3, n4, if_false]
          exact hS a b la lb hab)
        (fun t h1 h2 => by
          by_cases e : (t : ℤ) = j - 1
          · have e' : t = (j - 1).toNat := by omega
            have n1 : ¬ (k.toNat = (j - 1).toNat ∧ t = k.toNat) := by omega
            simp only [JMat.upd, n1, if_false]
            simp [e']
          · have n1 : ¬ t = (j - 1).toNat := by omega
            have n2 : ¬ (k.toNat = (j - 1).toNat ∧ t = k.toNat) := by omega
            have n4 : ¬ (t = k.toNat ∧ k.toNat = (j - 1).toNat) := by omega
            simp only [JMat.upd]
            rw [if_neg n2, if_neg (fun h => n1 h.2), if_neg (fun h => n1 h.1), if_neg n4]
            exact hR t (by omega) h2)
      refine ⟨K, ?_, f2, f3⟩
      rw [FlD.massInner]
      simp only [hm, if_true, JMat.set_upd r, Option.bind_eq_bind, Option.bind_some, JMat.get_upd r]
      rw [JMat.set_upd (H := H.upd k (j - 1) _) ⟨r.2, r.1⟩, ← hx]
      exact f1
    · rw [if_neg hm] at hj
      obtain ⟨K, f1, f2, f3⟩ := ih l.X j (F.frameWrench X W) H (by omega) hk0 hk (by omega) hS hR
      refine ⟨K, ?_, f2, f3⟩
      rw [FlD.massInner]
      simp only [hm]
      exact f1

theorem sym_outer (F : FlD) : ∀ (ls : List MLink) (k : ℤ) (c : Option ABI) (H : JMat), k + 1 = nMovM ls → k < H.n → SymFrom (k + 1) H →
    ∃ K, F.massOuter ls k c H = some K ∧ K.n = H.n ∧ SymFrom 0 K := by
  intro ls
  induction ls with
  | nil =>
    intro k c H hk _ hS
    refine ⟨H, rfl, rfl, ?_⟩
    rw [show (0 : ℤ) = k + 1 by rw [hk]; rfl]
    exact hS
  | cons l ls ih =>
    intro k c H hk hkn hS
    rw [nMovM_cons] at hk
    obtain ⟨J, d1⟩ : ∃ J, F.massOuter (l :: ls) k c H = (if l.seg.moving then do
          let H1 ← H.set k k (F.twistDot l.S (F.abiTwist J l.S))
          let h ← H1.get k k
          let H2 ← H1.set k k (F.rnd (h + l.seg.joint.inertia))
          let H3 ← F.massInner k l.X ls k (F.abiTwist J l.S) H2
          F.massOuter ls (k - 1) (some (F.frameAbi l.X J)) H3
        else F.massOuter ls k (some (F.frameAbi l.X J)) H) := by
      rcases c with _ | w
      · exact ⟨_, rfl⟩
      · exact ⟨_, rfl⟩
    by_cases hm : l.seg.moving
    · rw [if_pos hm] at hk
      have r : (0 ≤ k ∧ k < H.n) ∧ (0 ≤ k ∧ k < H.n) := ⟨⟨by omega, hkn⟩, by omega, hkn⟩
      obtain ⟨x, hx⟩ : ∃ x, x = F.rnd (F.twistDot l.S (F.abiTwist J l.S) + l.seg.joint.inertia) := ⟨_, rfl⟩
      obtain ⟨K, f1, f2, f3⟩ := sym_inner F ls l.X k (F.abiTwist J l.S) (H.upd k k x) (by omega) r.1.1 hkn le_rfl
        (fun a b la lb hab => by
          have n1 : ¬ (a = k.toNat ∧ b = k.toNat) := by omega
          have n2 : ¬ (b = k.toNat ∧ a = k.toNat) := by omega
          simp only [JMat.upd, n1, n2, if_false]
          exact hS a b la lb hab)
        (fun t h1 h2 => by omega)
      obtain ⟨L, g1, g2, g3⟩ := ih (k - 1) (some (F.frameAbi l.X J)) K (by omega) (by rw [f2]; show k - 1 < H.n; omega)
        (by rw [sub_add_cancel]; exact f3)
      refine ⟨L, ?_, by rw [g2, f2]; rfl, g3⟩
      rw [d1]
      simp only [hm, if_true, JMat.set_upd r, Option.bind_eq_bind, Option.bind_some, JMat.get_upd r]
      rw [JMat.set_upd (H := H.upd k k _) r, Option.bind_some, JMat.upd_upd, ← hx, f1, Option.bind_some]
      exact g1
    · rw [if_neg hm] at hk
      obtain ⟨L, g1, g2, g3⟩ := ih k (some (F.frameAbi l.X J)) H (by omega) hkn hS
      exact ⟨L, by rw [d1, if_neg hm]; exact g1, g2, g3⟩

theorem sym_fwd (F : FlD) (q : List ℝ) : ∀ (ss : List Segment) (k : ℕ), k + nMoving ss ≤ q.length →
    ∃ ls, F.massFwd q ss k = some ls ∧ ls.map MLink.seg = ss := by
  intro ss
  induction ss with
  | nil => intro k _; exact ⟨[], rfl, rfl⟩
  | cons s ss ih =>
    intro k hk
    rw [nMoving_cons] at hk
    by_cases hs : s.moving
    · rw [if_pos hs] at hk
      obtain ⟨ls, f1, f2⟩ := ih (k + 1) (by omega)
      refine ⟨⟨s, F.segPose s q[k], F.rotInvTwist (F.segPose s q[k]).M (F.segTwist s q[k] 1)⟩ :: ls, ?_, by rw [List.map_cons, f2]⟩
      rw [FlD.massFwd, if_pos hs, List.getElem?_eq_getElem (by omega)]
      simp only [Option.bind_eq_bind, Option.bind_some, f1]
    · rw [if_neg hs] at hk
      obtain ⟨ls, f1, f2⟩ := ih k (by omega)
      refine ⟨⟨s, F.segPose s 0, F.rotInvTwist (F.segPose s 0).M (F.segTwist s 0 1)⟩ :: ls, ?_, by rw [List.map_cons, f2]⟩
      rw [FlD.massFwd, if_neg hs]
      simp only [Option.bind_eq_bind, Option.bind_some, f1]

/-! ## C115 -/

/-- On any machine, with any rounding however bad, for any chain and any contents of the matrix passed in: `JntToMass` returns without error a matrix
that is exactly symmetric. -/
theorem C115_symmetric (F : FlD) (c : Chain) (hc : c.WF) (q : List ℝ) (H : JMat) (hq : q.length = c.nrOfJoints) (hH : H.n = c.nrOfJoints) :
    ∃ K, F.jntToMass c c.nrOfJoints c.nrOfSegments q H = some (E_NOERROR, K) ∧ K.n = c.nrOfJoints ∧
      ∀ i j, i < c.nrOfJoints → j < c.nrOfJoints → K.d i j = K.d j i := by
  obtain ⟨ls, e1, e4⟩ := sym_fwd F q c.segments 0 (by rw [← hc.2]; omega)
  have hm : nMoving c.segments = c.nrOfJoints := hc.2.symm
  have r1 : nMovM ls.reverse = c.nrOfJoints := by
    unfold nMovM
    rw [List.map_reverse, e4]
    unfold nMoving at hm ⊢
    rw [List.countP_reverse, hm]
  obtain ⟨K, f1, f2, f3⟩ := sym_outer F ls.reverse ((c.nrOfJoints : ℤ) - 1) none H (by omega) (by omega) (fun a b la lb hab => by omega)
  refine ⟨K, ?_, f2.trans hH, fun i j hi hj => f3 i j (by omega) (by omega) (by omega)⟩
  unfold FlD.jntToMass
  rw [if_neg (by simp), if_neg (by omega), List.take_of_length_le (by rw [hc.1]), e1]
  simp only [Option.bind_eq_bind, Option.bind_some, f1]

/-- Not vacuous: the Puma 560 and a matrix that is not symmetric to begin with. -/
example : ∃ (c : Chain) (q : List ℝ) (H : JMat), c.WF ∧ q.length = c.nrOfJoints ∧ H.n = c.nrOfJoints ∧ c.nrOfJoints = 6 ∧ H.d 0 1 ≠ H.d 1 0 := by
  obtain ⟨h1, -, h3, -⟩ := C76_puma_shape
  exact ⟨puma560, List.replicate 6 1, ⟨6, fun a _ => a⟩, h3, by rw [h1]; rfl, by rw [h1], h1, by norm_num⟩

end
end KDL
