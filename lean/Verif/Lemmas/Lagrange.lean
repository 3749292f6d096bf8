import Verif.Lemmas.NewtonEuler

/-! Lemmas on derivatives of the body twists when the direction in which the joints move (`ε`) and the rates that enter
the twist (`δ`) are different.  The two orders differ by the commutator of the body twists. -/

noncomputable section
namespace KDL
open Finset

/-- Derivative in direction `ε` of the body twist for rates `δ`, propagated over one segment. -/
def dp (q ε δ : ℕ → ℝ) (s : Segment) (j : ℕ) (u d : Twist) : Twist :=
  (Xs q s j).invTwist d + up q δ s j u * (qv s ε j • Ss q s j)
/-- The same over a list of segments. -/
def dP (q ε δ : ℕ → ℝ) : List Segment → ℕ → Twist → Twist → Twist
  | [], _, _, d => d
  | s :: ss, j, u, d => dP q ε δ ss (nx s j) (up q δ s j u) (dp q ε δ s j u d)

theorem Twist.smul_cross_smul (a b : ℝ) (v : Twist) : (a • v) * (b • v) = 0 := by
  show Twist.mk ((a • v).rot * (b • v).vel + (a • v).vel * (b • v).rot) ((a • v).rot * (b • v).rot) = 0
  ext <;> simp <;> ring

theorem up_hasDeriv_dir {s : Segment} (hs : s.Valid) {Q R : ℝ → ℕ → ℝ} {ε r' : ℕ → ℝ} {τ : ℝ}
    (h1 : JntHasDeriv Q ε τ) (h2 : JntHasDeriv R r' τ) (j : ℕ) {u : ℝ → Twist} {d w : Twist}
    (hu : Twist.HasDeriv u (d + w) τ) :
    Twist.HasDeriv (fun t => up (Q t) (R t) s j (u t)) (dp (Q τ) ε (R τ) s j (u τ) d + up (Q τ) r' s j w) τ := by
  have hX := Segment.hasTwist hs.1 (qv_hasDeriv s h1 j)
  have hP := Segment.isProper_pose hs (qv s (Q τ) j)
  have e1 := Twist.HasDeriv.invTwist hX hP hu
  have e3 := e1.add (Twist.HasDeriv.smul_const (qv_hasDeriv s h2 j) (bodyS s))
  unfold up dp Xs
  simp only [Ss_eq _ hs]
  refine e3.congr_deriv ?_
  have e4 := invTwist_twist (Q τ) ε s j
  rw [Ss_eq _ hs] at e4
  unfold up Xs at *
  rw [e4, Ss_eq _ hs, Twist.add_cross, Twist.smul_cross_smul, Frame.invTwist_add]
  abel

theorem uP_hasDeriv_dir {Q R : ℝ → ℕ → ℝ} {ε r' : ℕ → ℝ} {τ : ℝ} (h1 : JntHasDeriv Q ε τ) (h2 : JntHasDeriv R r' τ) :
    ∀ (ss : List Segment) (j : ℕ) (u : ℝ → Twist) (d w : Twist), (∀ s ∈ ss, s.Valid) → Twist.HasDeriv u (d + w) τ →
    Twist.HasDeriv (fun t => uP (Q t) (R t) ss j (u t)) (dP (Q τ) ε (R τ) ss j (u τ) d + uP (Q τ) r' ss j w) τ := by
  intro ss
  induction ss with
  | nil => intro j u d w _ h; exact h
  | cons s ss ih =>
    intro j u d w hv h
    exact ih _ _ _ _ (fun x hx => hv x (by simp [hx])) (up_hasDeriv_dir (hv s (by simp)) h1 h2 j h)

theorem Twist.cross_lin (a b c : Twist) (x y : ℝ) :
    (a + x • c) * (b + y • c) = a * b + a * (y • c) - b * (x • c) := by
  show Twist.mk ((a + x • c).rot * (b + y • c).vel + (a + x • c).vel * (b + y • c).rot)
    ((a + x • c).rot * (b + y • c).rot) = _
  have e : a * b + a * (y • c) - b * (x • c) = Twist.mk
      ((a.rot * b.vel + a.vel * b.rot) + (a.rot * (y • c).vel + a.vel * (y • c).rot) -
        (b.rot * (x • c).vel + b.vel * (x • c).rot))
      (a.rot * b.rot + a.rot * (y • c).rot - b.rot * (x • c).rot) := rfl
  rw [e]
  congr 1 <;> ext <;> simp <;> ring

theorem Frame.invTwist_cross (X : Frame) (hX : X.IsProper) (a b : Twist) :
    X.invTwist (a * b) = X.invTwist a * X.invTwist b := by
  have hM : X.M.IsProper := hX
  have e : ∀ u w : Twist, u * w = ⟨u.rot * w.vel + u.vel * w.rot, u.rot * w.rot⟩ := fun _ _ => rfl
  simp only [Frame.invTwist_eq, e]
  congr 1
  · rw [hM.inv.cross, hM.inv.cross, ← Rot.app_add]
    congr 1
    ext <;> simp <;> ring
  · rw [hM.inv.cross]

theorem up_cross_smul (q δ ε : ℕ → ℝ) (s : Segment) (j : ℕ) (u : Twist) :
    up q δ s j u * (qv s ε j • Ss q s j) = (Xs q s j).invTwist u * (qv s ε j • Ss q s j) := by
  unfold up
  rw [Twist.add_cross, Twist.smul_cross_smul, add_zero]

/-- The mixed derivatives of the body twists differ by their commutator. -/
theorem dP_comm (q ε δ : ℕ → ℝ) : ∀ (ss : List Segment) (j : ℕ) (u w d e : Twist), (∀ s ∈ ss, s.Valid) →
    d - e = u * w →
    dP q ε δ ss j u d - dP q δ ε ss j w e = uP q δ ss j u * uP q ε ss j w := by
  intro ss
  induction ss with
  | nil => intro j u w d e _ h; exact h
  | cons s ss ih =>
    intro j u w d e hv h
    refine ih _ _ _ _ _ (fun x hx => hv x (by simp [hx])) ?_
    unfold dp
    rw [up_cross_smul, up_cross_smul]
    have hX := isProper_Xs q (hv s (by simp)) j
    have h1 := congrArg (Xs q s j).invTwist h
    rw [Frame.invTwist_cross _ hX] at h1
    have h2 : (Xs q s j).invTwist (d - e) = (Xs q s j).invTwist d - (Xs q s j).invTwist e := by
      rw [sub_eq_add_neg, Frame.invTwist_add, ← neg_one_smul ℝ e, Frame.invTwist_smul, neg_one_smul, ← sub_eq_add_neg]
    rw [h2] at h1
    unfold up
    rw [Twist.cross_lin, ← h1]
    abel

/-- The accelerations are the mixed derivative plus the twists for the joint accelerations. -/
theorem aP_eq_dP (q qd qdd : ℕ → ℝ) : ∀ (ss : List Segment) (j : ℕ) (v d w : Twist),
    aP q qd qdd ss j v (d + w) = dP q qd qd ss j v d + uP q qdd ss j w := by
  intro ss
  induction ss with
  | nil => intro j v d w; rfl
  | cons s ss ih =>
    intro j v d w
    show aP q qd qdd ss _ _ (ap q qd qdd s j v (d + w)) = _
    have : ap q qd qdd s j v (d + w) = dp q qd qd s j v d + up q qdd s j w := by
      unfold ap dp up
      rw [Frame.invTwist_add]; abel
    rw [this, ih]
    rfl

theorem Twist.cross_dot (u v : Twist) (w : Wrench) : (u * v).dot w = u.dot (v * w) := by
  have e : u * v = ⟨u.rot * v.vel + u.vel * v.rot, u.rot * v.rot⟩ := rfl
  rw [e]
  show Vec.dot _ _ + Vec.dot _ _ = Vec.dot u.vel (v.rot * w.force) + Vec.dot u.rot (v.rot * w.torque + v.vel * w.force)
  simp [Vec.dot]; ring

/-! ## linearity in the direction -/

theorem Twist.cross_add (a b c : Twist) : a * (b + c) = a * b + a * c := by
  show Twist.mk (a.rot * (b + c).vel + a.vel * (b + c).rot) (a.rot * (b + c).rot) =
    Twist.mk ((a.rot * b.vel + a.vel * b.rot) + (a.rot * c.vel + a.vel * c.rot)) (a.rot * b.rot + a.rot * c.rot)
  congr 1 <;> ext <;> simp <;> ring
theorem Twist.cross_smul (a b : Twist) (x : ℝ) : a * (x • b) = x • (a * b) := by
  show Twist.mk (a.rot * (x • b).vel + a.vel * (x • b).rot) (a.rot * (x • b).rot) =
    Twist.mk (x • (a.rot * b.vel + a.vel * b.rot)) (x • (a.rot * b.rot))
  congr 1 <;> ext <;> simp <;> ring

theorem dP_lin (q ε η δ : ℕ → ℝ) (x : ℝ) : ∀ (ss : List Segment) (j : ℕ) (u d e : Twist),
    dP q (fun i => ε i + x * η i) δ ss j u (d + x • e) = dP q ε δ ss j u d + x • dP q η δ ss j u e := by
  intro ss
  induction ss with
  | nil => intro j u d e; rfl
  | cons s ss ih =>
    intro j u d e
    show dP q _ δ ss _ _ (dp q (fun i => ε i + x * η i) δ s j u (d + x • e)) = _
    have hq : qv s (fun i => ε i + x * η i) j = qv s ε j + x * qv s η j := by unfold qv; split_ifs <;> simp
    have : dp q (fun i => ε i + x * η i) δ s j u (d + x • e) = dp q ε δ s j u d + x • dp q η δ s j u e := by
      unfold dp
      rw [hq, Frame.invTwist_add, Frame.invTwist_smul, add_smul, Twist.cross_add, smul_add, mul_smul,
        Twist.cross_smul _ (qv s η j • Ss q s j) x]
      abel
    rw [this, ih]
    rfl

theorem dP_zero (q δ : ℕ → ℝ) : ∀ (ss : List Segment) (j : ℕ) (u : Twist), dP q (fun _ => 0) δ ss j u 0 = 0 := by
  intro ss
  induction ss with
  | nil => intro j u; rfl
  | cons s ss ih =>
    intro j u
    show dP q _ δ ss _ _ (dp q (fun _ => 0) δ s j u 0) = 0
    have : dp q (fun _ => 0) δ s j u 0 = 0 := by
      unfold dp
      have h0 : qv s (fun _ => (0:ℝ)) j = 0 := by unfold qv; split_ifs <;> rfl
      rw [h0, Frame.invTwist_zero, Twist.cross_smul, zero_smul, zero_add]
    rw [this]; exact ih _ _

theorem dP_sum (q δ : ℕ → ℝ) (ss : List Segment) (j : ℕ) (u : Twist) (r : ℕ → ℝ) (n : ℕ) :
    dP q (fun i => if i < n then r i else 0) δ ss j u 0 = ∑ k ∈ range n, r k • dP q (unitRate k) δ ss j u 0 := by
  induction n with
  | zero => simpa using dP_zero q δ ss j u
  | succ n ih =>
    rw [sum_range_succ, ← ih, ← dP_lin, smul_zero, add_zero]
    congr 1
    funext i
    unfold unitRate
    rcases lt_trichotomy i n with h | h | h
    · simp [h, Nat.lt_succ_of_lt h, ne_of_lt h]
    · subst h; simp
    · have h2 : ¬ i < n + 1 := by omega
      have h3 : ¬ i < n := by omega
      simp [h2, h3, ne_of_gt h]

end KDL
