import Verif.Lemmas.Dynamics
import Mathlib.Algebra.BigOperators.Ring.Finset

/-! The composite rigid body algorithm computes the matrix of the kinetic energy form. -/

noncomputable section
namespace KDL
open Finset

def nM (ls : List MLink) : ℕ := ls.countP (fun l => l.seg.moving)
theorem nM_cons (l : MLink) (ls : List MLink) : nM (l :: ls) = if l.seg.moving then nM ls + 1 else nM ls := by
  unfold nM; rw [List.countP_cons]; split_ifs <;> simp

/-- Velocity of the first link of a reversed list. -/
def uR (δ : ℕ → ℝ) : List MLink → Twist
  | [] => 0
  | l :: ls => l.X.invTwist (uR δ ls) + (if l.seg.moving then δ (nM ls) else 0) • l.S

/-- The kinetic energy form of a reversed list. -/
def kinR (δ e : ℕ → ℝ) : List MLink → ℝ
  | [] => 0
  | l :: ls => (uR δ (l :: ls)).dot (l.seg.I * uR e (l :: ls)) +
      (if l.seg.moving then δ (nM ls) * (l.seg.joint.inertia * e (nM ls)) else 0) + kinR δ e ls

theorem ABI.Symm.dot_comm {i : ABI} (h : i.Symm) (u w : Twist) : u.dot (i * w) = w.dot (i * u) := by
  simp only [ABI.mul_twist, Twist.dot, Vec.dot_add, Mat3.dot_app, h.1, h.2, Mat3.tr_tr]
  rw [Vec.dot_comm' (i.M * u.vel), Vec.dot_comm' (i.I * u.rot), Mat3.dot_app, Mat3.dot_app, h.1, h.2,
    Vec.dot_comm' (i.H * u.vel), Vec.dot_comm' (i.H.tr * u.rot), Mat3.dot_app, Mat3.dot_app, Mat3.tr_tr]
  rw [Vec.dot_comm' (i.M * w.vel), Vec.dot_comm' (i.I * w.rot)]
  rw [Vec.dot_comm' u.vel, Vec.dot_comm' u.rot]
  ring

theorem ABI.mul_add (i : ABI) (a b : Twist) : i * (a + b) = i * a + i * b := (C38_linear i i 0 a b).2.2.2.1
theorem ABI.mul_smul (i : ABI) (k : ℝ) (a : Twist) : i * (k • a) = k • (i * a) := (C38_linear i i k a a).2.2.2.2
theorem ABI.mul_zero (i : ABI) : i * (0 : Twist) = 0 := by
  have := i.mul_smul 0 0; simpa using this

theorem ABI.frame_form (X : Frame) (hX : X.IsProper) (i : ABI) (hi : i.Symm) (u w : Twist) :
    (X.invTwist u).dot (i * X.invTwist w) = u.dot ((X * i) * w) := by
  rw [Frame.dot_invTwist X hX, ← (C38_transform i hi 0 1 Rot.IsProper.one X hX _).2.2, (C04_inverse_undoes X w 0 hX).2.1]

theorem JMat.set_ok (H : JMat) (k j : ℕ) (hk : k < H.n) (hj : j < H.n) (x : ℝ) :
    H.set (k : ℤ) (j : ℤ) x = some ⟨H.n, fun a b => if a = k ∧ b = j then x else H.d a b⟩ := by
  unfold JMat.set
  rw [if_pos ⟨⟨by omega, by omega⟩, by omega, by omega⟩]
  simp
theorem JMat.get_ok (H : JMat) (k j : ℕ) (hk : k < H.n) (hj : j < H.n) : H.get (k : ℤ) (j : ℤ) = some (H.d k j) := by
  unfold JMat.get
  rw [if_pos ⟨⟨by omega, by omega⟩, by omega, by omega⟩]
  simp

theorem massInner_eq (k : ℕ) : ∀ (ps : List MLink) (X : Frame) (F : Wrench) (H : JMat), k < H.n → nM ps ≤ k →
    (∀ p ∈ ps, p.X.IsProper) →
    ∃ H', massInner k X ps (nM ps : ℤ) F H = some H' ∧ H'.n = H.n ∧
      (∀ a b, ¬ (a = k ∧ b < nM ps) → ¬ (b = k ∧ a < nM ps) → H'.d a b = H.d a b) ∧
      (∀ y, y < nM ps → H'.d y k = H'.d k y) ∧
      (∀ δ : ℕ → ℝ, ∑ y ∈ range (nM ps), H'.d k y * δ y = (uR δ ps).dot (X * F)) := by
  intro ps
  induction ps with
  | nil =>
    intro X F H hk _ _
    exact ⟨H, by simp [massInner], rfl, fun _ _ _ _ => rfl, by simp [nM], by simp [nM, uR]⟩
  | cons p ps ih =>
    intro X F H hk hn hX
    have hXp := hX p (by simp)
    have hXs : ∀ x ∈ ps, x.X.IsProper := fun x hx => hX x (by simp [hx])
    rw [nM_cons] at hn ⊢
    unfold massInner
    simp only
    by_cases hm : p.seg.moving
    · rw [if_pos hm] at hn
      simp only [if_pos hm]
      rw [show (((nM ps + 1 : ℕ) : ℤ) - 1) = (nM ps : ℤ) by push_cast; ring]
      rw [JMat.set_ok _ _ _ hk (by omega)]
      simp only [Option.bind_eq_bind, Option.bind_some]
      rw [JMat.get_ok _ _ _ (by exact hk) (by show nM ps < H.n; omega)]
      simp only [Option.bind_some, and_self, if_true]
      rw [JMat.set_ok _ _ _ (by show nM ps < H.n; omega) (by exact hk)]
      simp only [Option.bind_some]
      obtain ⟨H', e1, e2, e3, e4, e5⟩ := ih p.X (X * F) ⟨H.n, fun a b => if a = nM ps ∧ b = k then p.S.dot (X * F) else
        if a = k ∧ b = nM ps then p.S.dot (X * F) else H.d a b⟩ hk (by omega) hXs
      refine ⟨H', e1, e2, ?_, ?_, ?_⟩
      · intro a b h1 h2
        rw [e3 a b (by omega) (by omega)]
        simp only
        rw [if_neg (by omega), if_neg (by omega)]
      · intro y hy
        by_cases hy' : y < nM ps
        · exact e4 y hy'
        · have : y = nM ps := by omega
          subst this
          rw [e3 _ _ (by omega) (by omega), e3 _ _ (by omega) (by omega)]
          simp only [and_self, if_true]
          rw [if_neg (by omega)]
      · intro δ
        rw [sum_range_succ, e5, e3 _ _ (by omega) (by omega)]
        simp only [and_self, if_true]
        rw [if_neg (by omega)]
        simp only [uR, if_pos hm, Twist.add_dot, Twist.smul_dot, Frame.dot_invTwist _ hXp]
        ring
    · rw [if_neg hm] at hn
      simp only [if_neg hm]
      obtain ⟨H', e1, e2, e3, e4, e5⟩ := ih p.X (X * F) H hk hn hXs
      refine ⟨H', e1, e2, e3, e4, ?_⟩
      intro δ
      rw [e5]
      simp only [uR, if_neg hm, zero_smul, add_zero, Frame.dot_invTwist _ hXp]

/-- Contribution of the carried inertia to the form. -/
def cF (carry : Option ABI) (u w : Twist) : ℝ := match carry with | none => 0 | some c => u.dot (c * w)
/-- The composite inertia after adding the carried one. -/
def aC (i : ABI) (carry : Option ABI) : ABI := match carry with | none => i | some w => i + w

theorem massOuter_cons (l : MLink) (ls : List MLink) (k : ℤ) (carry : Option ABI) (H : JMat) :
    massOuter (l :: ls) k carry H =
      if l.seg.moving then do
        let H1 ← H.set k k (l.S.dot (aC (ABI.ofRBI l.seg.I) carry * l.S))
        let h ← H1.get k k
        let H2 ← H1.set k k (h + l.seg.joint.inertia)
        let H3 ← massInner k l.X ls k (aC (ABI.ofRBI l.seg.I) carry * l.S) H2
        massOuter ls (k - 1) (some (l.X * aC (ABI.ofRBI l.seg.I) carry)) H3
      else massOuter ls k (some (l.X * aC (ABI.ofRBI l.seg.I) carry)) H := by
  cases carry <;> rfl

theorem massOuter_eq : ∀ (ls : List MLink) (carry : Option ABI) (H : JMat), nM ls ≤ H.n →
    (∀ p ∈ ls, p.X.IsProper ∧ p.seg.I.I.tr = p.seg.I.I) → (∀ c ∈ carry, c.Symm) →
    ∃ H', massOuter ls ((nM ls : ℤ) - 1) carry H = some H' ∧ H'.n = H.n ∧
      (∀ a b, nM ls ≤ a ∨ nM ls ≤ b → H'.d a b = H.d a b) ∧
      (∀ δ e : ℕ → ℝ, ∑ x ∈ range (nM ls), ∑ y ∈ range (nM ls), δ x * H'.d x y * e y =
        kinR δ e ls + cF carry (uR δ ls) (uR e ls)) := by
  intro ls
  induction ls with
  | nil =>
    intro carry H _ _ _
    refine ⟨H, by simp [massOuter], rfl, fun _ _ _ => rfl, fun δ e => ?_⟩
    cases carry <;> simp [nM, kinR, uR, cF]
  | cons l ls ih =>
    intro carry H hn hX hc
    have hl := hX l (by simp)
    have hls : ∀ p ∈ ls, p.X.IsProper ∧ p.seg.I.I.tr = p.seg.I.I := fun x hx => hX x (by simp [hx])
    have hI : (ABI.ofRBI l.seg.I).Symm := ⟨rfl, hl.2⟩
    have hS : (aC (ABI.ofRBI l.seg.I) carry).Symm := by
      cases carry with
      | none => exact hI
      | some c => exact (C38_symm _ c hI (hc c rfl) 0 0 1 1 l.seg.I hl.2).1
    have hform : ∀ u w : Twist, u.dot (aC (ABI.ofRBI l.seg.I) carry * w) = u.dot (l.seg.I * w) + cF carry u w := by
      intro u w
      cases carry with
      | none => simp [aC, cF, C38_ofRBI]
      | some c =>
        simp only [aC, cF]
        rw [(C38_linear _ c 0 w w).1, Twist.dot_add, C38_ofRBI]
    rw [massOuter_cons]
    generalize aC (ABI.ofRBI l.seg.I) carry = Ic at hS hform ⊢
    have hXS : (l.X * Ic).Symm := (C38_symm Ic Ic hS hS 0 0 1 l.X l.seg.I hl.2).2.2.2.2.2.1
    have hform' : ∀ δ e : ℕ → ℝ, (uR δ (l :: ls)).dot (l.seg.I * uR e (l :: ls)) +
          cF carry (uR δ (l :: ls)) (uR e (l :: ls)) =
        (uR δ ls).dot ((l.X * Ic) * uR e ls) +
        (if l.seg.moving then δ (nM ls) * (uR e ls).dot (l.X * (Ic * l.S)) +
          e (nM ls) * (uR δ ls).dot (l.X * (Ic * l.S)) + δ (nM ls) * e (nM ls) * l.S.dot (Ic * l.S) else 0) := by
      intro δ e
      rw [← hform]
      simp only [uR]
      rw [← ABI.frame_form _ hl.1 _ hS]
      simp only [ABI.mul_add, ABI.mul_smul, Twist.add_dot, Twist.dot_add, Twist.smul_dot, Twist.dot_smul]
      rw [hS.dot_comm l.S (l.X.invTwist (uR e ls)), Frame.dot_invTwist _ hl.1 _ (Ic * l.S),
        Frame.dot_invTwist _ hl.1 _ (Ic * l.S)]
      split_ifs <;> ring
    rw [nM_cons]
    rw [nM_cons] at hn
    by_cases hm : l.seg.moving
    · rw [if_pos hm] at hn
      simp only [if_pos hm] at hform' ⊢
      rw [show (((nM ls + 1 : ℕ) : ℤ) - 1) = (nM ls : ℤ) by push_cast; ring]
      rw [JMat.set_ok _ _ _ (by omega) (by omega)]
      simp only [Option.bind_eq_bind, Option.bind_some]
      rw [JMat.get_ok _ _ _ (by show nM ls < H.n; omega) (by show nM ls < H.n; omega)]
      simp only [Option.bind_some, and_self, if_true]
      rw [JMat.set_ok _ _ _ (by show nM ls < H.n; omega) (by show nM ls < H.n; omega)]
      simp only [Option.bind_some]
      set H2 : JMat := ⟨H.n, fun a b => if a = nM ls ∧ b = nM ls then l.S.dot (Ic * l.S) + l.seg.joint.inertia else
        if a = nM ls ∧ b = nM ls then l.S.dot (Ic * l.S) else H.d a b⟩ with hH2
      obtain ⟨H3, e1, e2, e3, e4, e5⟩ := massInner_eq (nM ls) ls l.X (Ic * l.S) H2 (by show nM ls < H.n; omega) le_rfl
        (fun p hp => (hls p hp).1)
      rw [e1]
      simp only [Option.bind_some]
      obtain ⟨H', f1, f2, f3, f4⟩ := ih (some (l.X * Ic)) H3 (by rw [e2]; show nM ls ≤ H.n; omega) hls (by simpa using hXS)
      refine ⟨H', f1, by rw [f2, e2], ?_, ?_⟩
      · intro a b hab
        rw [f3 a b (by omega), e3 a b (by omega) (by omega), hH2]
        simp only
        rw [if_neg (by omega), if_neg (by omega)]
      · intro δ e
        have r1 : ∑ y ∈ range (nM ls), H'.d (nM ls) y * e y = (uR e ls).dot (l.X * (Ic * l.S)) := by
          rw [← e5]
          exact sum_congr rfl fun y _ => by rw [f3 _ _ (by omega)]
        have r2 : ∑ x ∈ range (nM ls), δ x * H'.d x (nM ls) = (uR δ ls).dot (l.X * (Ic * l.S)) := by
          rw [← e5]
          refine sum_congr rfl fun y hy => ?_
          rw [f3 _ _ (by omega), e4 y (by simpa using hy)]; ring
        have r3 : H'.d (nM ls) (nM ls) = l.S.dot (Ic * l.S) + l.seg.joint.inertia := by
          rw [f3 _ _ (by omega), e3 _ _ (by omega) (by omega), hH2]; simp
        have r4 := f4 δ e
        simp only [cF] at r4
        simp only [sum_range_succ, sum_add_distrib]
        rw [r4, r3]
        have r5 : ∑ x ∈ range (nM ls), δ x * H'.d x (nM ls) * e (nM ls) = (uR δ ls).dot (l.X * (Ic * l.S)) * e (nM ls) := by
          rw [← r2, sum_mul]
        have r6 : ∑ y ∈ range (nM ls), δ (nM ls) * H'.d (nM ls) y * e y = δ (nM ls) * (uR e ls).dot (l.X * (Ic * l.S)) := by
          rw [← r1, mul_sum]; exact sum_congr rfl fun y _ => by ring
        rw [r5, r6]
        have := hform' δ e
        simp only [kinR, if_pos hm]
        linear_combination -this
    · rw [if_neg hm] at hn
      simp only [if_neg hm] at hform' ⊢
      obtain ⟨H', f1, f2, f3, f4⟩ := ih (some (l.X * Ic)) H hn hls (by simpa using hXS)
      refine ⟨H', f1, f2, f3, ?_⟩
      intro δ e
      have := hform' δ e
      rw [f4 δ e]
      simp only [kinR, if_neg hm, cF] at this ⊢
      linear_combination -this

def mlinksF (q : ℕ → ℝ) : List Segment → ℕ → List MLink
  | [], _ => []
  | s :: ss, j => ⟨s, Xs q s j, Ss q s j⟩ :: mlinksF q ss (nx s j)

/-- Velocity propagation through a list of segments. -/
def uP (q δ : ℕ → ℝ) : List Segment → ℕ → Twist → Twist
  | [], _, u => u
  | s :: ss, j, u => uP q δ ss (nx s j) (up q δ s j u)

theorem massFwd_eq (q : List ℝ) : ∀ (ss : List Segment) (j : ℕ), j + nMoving ss ≤ q.length →
    massFwd q ss j = some (mlinksF (rd q) ss j) := by
  intro ss
  induction ss with
  | nil => intro j _; rfl
  | cons s ss ih =>
    intro j h
    rw [nMoving_cons] at h
    unfold massFwd mlinksF
    by_cases hm : s.moving
    · rw [if_pos hm] at h
      rw [if_pos hm, getElem?_eq_rd (by omega)]
      simp only [Option.bind_eq_bind, Option.bind_some]
      rw [ih (j + 1) (by omega)]
      simp [nx, hm, Xs, Ss, qv]
    · rw [if_neg hm] at h
      rw [if_neg hm]
      simp only [Option.bind_eq_bind, Option.bind_some]
      rw [ih j h]
      simp [nx, hm, Xs, Ss, qv]

theorem nM_append (a b : List MLink) : nM (a ++ b) = nM a + nM b := by simp [nM]
theorem nM_reverse (a : List MLink) : nM a.reverse = nM a := by simp [nM]
theorem nM_mlinksF (q : ℕ → ℝ) : ∀ (ss : List Segment) (j : ℕ), nM (mlinksF q ss j) = nMoving ss := by
  intro ss
  induction ss with
  | nil => intro j; rfl
  | cons s ss ih => intro j; unfold mlinksF; rw [nM_cons, nMoving_cons, ih]

theorem uR_mlinksF (q δ : ℕ → ℝ) : ∀ (ss : List Segment) (j : ℕ) (rest : List MLink), nM rest = j →
    uR δ ((mlinksF q ss j).reverse ++ rest) = uP q δ ss j (uR δ rest) := by
  intro ss
  induction ss with
  | nil => intro j rest _; simp [mlinksF, uP]
  | cons s ss ih =>
    intro j rest h
    unfold mlinksF uP
    rw [List.reverse_cons, List.append_assoc, List.singleton_append, ih (nx s j) _ (by
      rw [nM_cons, h]; rfl)]
    simp only [uR, h, up, qv]

theorem kinR_mlinksF (q δ e : ℕ → ℝ) : ∀ (ss : List Segment) (j : ℕ) (rest : List MLink), nM rest = j →
    kinR δ e ((mlinksF q ss j).reverse ++ rest) = kin q δ e ss j (uR δ rest) (uR e rest) + kinR δ e rest := by
  intro ss
  induction ss with
  | nil => intro j rest _; simp [mlinksF, kin]
  | cons s ss ih =>
    intro j rest h
    unfold mlinksF kin
    rw [List.reverse_cons, List.append_assoc, List.singleton_append, ih (nx s j) _ (by
      rw [nM_cons, h]; rfl)]
    have e1 : ∀ δ, uR δ (⟨s, Xs q s j, Ss q s j⟩ :: rest) = up q δ s j (uR δ rest) := by
      intro δ; simp only [uR, h, up, qv]
    simp only [kinR, e1, h, qv]
    by_cases hm : s.moving
    · simp only [if_pos hm]; ring
    · simp only [if_neg hm]; ring

theorem mem_mlinksF (q : ℕ → ℝ) : ∀ (ss : List Segment) (j : ℕ) (l : MLink), l ∈ mlinksF q ss j →
    l.seg ∈ ss ∧ ∃ x, l.X = l.seg.pose x := by
  intro ss
  induction ss with
  | nil => intro j l h; simp [mlinksF] at h
  | cons s ss ih =>
    intro j l h
    unfold mlinksF at h
    rcases List.mem_cons.mp h with rfl | h
    · exact ⟨by simp, _, rfl⟩
    · obtain ⟨h1, h2⟩ := ih _ _ h
      exact ⟨by simp [h1], h2⟩

/-- The mass matrix solver in closed form. -/
theorem jntToMass_eq (c : Chain) (hc : c.WF) (hv : c.Valid) (hI : ∀ s ∈ c.segments, s.I.I.tr = s.I.I) (q : List ℝ)
    (H : JMat) (h1 : q.length = c.nrOfJoints) (h2 : H.n = c.nrOfJoints) :
    ∃ H', jntToMass c c.nrOfJoints c.nrOfSegments q H = some (E_NOERROR, H') ∧ H'.n = c.nrOfJoints ∧
      ∀ δ e : ℕ → ℝ, ∑ x ∈ range c.nrOfJoints, ∑ y ∈ range c.nrOfJoints, δ x * H'.d x y * e y =
        kin (rd q) δ e c.segments 0 0 0 := by
  have hseg : c.segments.take c.nrOfSegments = c.segments := by rw [hc.1]; simp
  have hn : nM (mlinksF (rd q) c.segments 0).reverse = c.nrOfJoints := by rw [nM_reverse, nM_mlinksF, hc.2]
  obtain ⟨H', e1, e2, e3, e4⟩ := massOuter_eq (mlinksF (rd q) c.segments 0).reverse none H (by rw [hn, h2])
    (by
      intro p hp
      obtain ⟨m1, x, m2⟩ := mem_mlinksF _ _ _ _ (List.mem_reverse.mp hp)
      exact ⟨by rw [m2]; exact Segment.isProper_pose (hv _ m1) _, hI _ m1⟩) (by simp)
  refine ⟨H', ?_, by rw [e2, h2], ?_⟩
  · unfold jntToMass
    rw [if_neg (by simp), if_neg (by simp [h1, h2]), hseg, massFwd_eq _ _ _ (by rw [h1, hc.2]; simp)]
    simp only [Option.bind_eq_bind, Option.bind_some]
    rw [hn] at e1
    rw [e1]
    rfl
  · intro δ e
    have := e4 δ e
    rw [hn] at this
    rw [this]
    have k := kinR_mlinksF (rd q) δ e c.segments 0 [] rfl
    simp only [List.append_nil] at k
    rw [k]
    simp [cF, kinR, uR]

/-! ### relation with the velocity solver -/

theorem uP_append (q δ : ℕ → ℝ) : ∀ (a b : List Segment) (j : ℕ) (u : Twist),
    uP q δ (a ++ b) j u = uP q δ b (j + nMoving a) (uP q δ a j u) := by
  intro a
  induction a with
  | nil => intro b j u; simp [uP]
  | cons s a ih =>
    intro b j u
    simp only [List.cons_append, uP]
    rw [ih, nMoving_cons]
    congr 1
    simp only [nx]; split_ifs <;> omega

theorem fkVelF_append (q qd : ℕ → ℝ) : ∀ (a b : List Segment) (j : ℕ) (p : FrameVel),
    fkVelF q qd (a ++ b) j p = fkVelF q qd b (j + nMoving a) (fkVelF q qd a j p) := by
  intro a
  induction a with
  | nil => intro b j p; simp [fkVelF]
  | cons s a ih =>
    intro b j p
    simp only [List.cons_append, fkVelF]
    rw [nMoving_cons]
    split_ifs with hm
    · rw [ih]; congr 1; omega
    · rw [ih]

theorem fkVelF_isProper (q qd : ℕ → ℝ) (ss : List Segment) (hv : ∀ s ∈ ss, s.Valid) :
    (fkVelF q qd ss 0 (.ofFrame 1)).getFrame.IsProper := by
  rw [(fkVelF_twist q qd ss 0 (.ofFrame 1)).1]
  have : (FrameVel.ofFrame 1).getFrame = 1 := rfl
  rw [this, one_mul]
  exact isProper_fkF _ _ _ hv

theorem uP_eq (q δ : ℕ → ℝ) (ss : List Segment) (hv : ∀ s ∈ ss, s.Valid) :
    uP q δ ss 0 0 = (fkVelF q δ ss 0 (.ofFrame 1)).getFrame.M.invTwist (fkVelF q δ ss 0 (.ofFrame 1)).getTwist := by
  induction ss using List.reverseRecOn with
  | nil =>
    simp only [uP, fkVelF]
    ext <;> simp [FrameVel.ofFrame, FrameVel.getTwist, FrameVel.getFrame, RotVel.ofRot, VecVel.ofVec, Rot.invTwist, Rot.invVec]
  | append_singleton ss s ih =>
    have hss : ∀ t ∈ ss, t.Valid := fun t ht => hv t (by simp [ht])
    have hs : s.Valid := hv s (by simp)
    have hP := fkVelF_isProper q δ ss hss
    rw [uP_append, fkVelF_append, ih hss]
    generalize fkVelF q δ ss 0 (.ofFrame 1) = p at hP
    simp only [uP, fkVelF]
    have key : ∀ x y : ℝ, (p.mul (.ofTwist (s.pose x) (s.twist x y))).getFrame.M.invTwist
          (p.mul (.ofTwist (s.pose x) (s.twist x y))).getTwist =
        (s.pose x).invTwist (p.getFrame.M.invTwist p.getTwist) + (s.pose x).M.invTwist (s.twist x y) := by
      intro x y
      rw [FrameVel.getTwist_mul_ofTwist, FrameVel.getFrame_mul_ofTwist]
      have hX := Segment.isProper_pose hs x
      have hPM : p.getFrame.M.IsProper := hP
      generalize s.pose x = X at hX
      generalize s.twist x y = t
      have e1 : (p.getFrame * X).p - p.getFrame.p = p.getFrame.M * X.p := by
        show p.getFrame.M * X.p + p.getFrame.p - p.getFrame.p = _; abel
      rw [e1]
      have e2 : (p.getFrame * X).M.inv = X.M.inv * p.getFrame.M.inv := by
        show (p.getFrame.M * X.M).inv = _
        ext <;> simp [Rot.inv] <;> ring
      generalize p.getFrame = F at *
      generalize p.getTwist = T
      have e3 : ∀ (R : Rot) (t : Twist), R.invTwist t = ⟨R.inv * t.vel, R.inv * t.rot⟩ := fun R t => by
        ext <;> simp [Rot.invTwist, Rot.invVec]
      have e4 : X.invTwist (F.M.invTwist T) = ⟨X.M.inv * ((F.M.inv * T.vel) + (F.M.inv * T.rot) * X.p), X.M.inv * (F.M.inv * T.rot)⟩ := by
        rw [e3]; ext <;> simp [Frame.invTwist, Rot.invVec] <;> ring
      rw [e4, e3, e3, e2]
      have hT : (T.refPoint (F.M * X.p) + F.M * t) = ⟨T.vel + T.rot * (F.M * X.p) + F.M * t.vel, T.rot + F.M * t.rot⟩ := rfl
      rw [hT]
      have hc : F.M.inv * (T.rot * (F.M * X.p)) = (F.M.inv * T.rot) * X.p := by
        rw [← hPM.inv.cross, hPM.inv_app_app]
      show Twist.mk _ _ = Twist.mk (_ + _) (_ + _)
      simp only [Rot.mul_app, Rot.app_add, hc, hPM.inv_app_app]
    unfold up Xs Ss
    by_cases hm : s.moving
    · simp only [if_pos hm, qv, key]
      congr 1
      rw [s.twist_eq_smul (q _) (δ _), Rot.invTwist_smul]
      simp only [Xs, qv, if_pos hm]
    · simp only [if_neg hm, qv, key, zero_smul, add_zero]
      rw [s.twist_zero]
      congr 1
      ext <;> simp [Rot.invTwist, Rot.invVec]

theorem kin_eq_sum (q δ e : ℕ → ℝ) : ∀ (ss : List Segment) (j : ℕ) (u w : Twist),
    kin q δ e ss j u w = ∑ i ∈ range ss.length, (match ss[i]? with
      | some s => (uP q δ (ss.take (i + 1)) j u).dot (s.I * uP q e (ss.take (i + 1)) j w) +
          qv s δ (j + nMoving (ss.take i)) * (s.joint.inertia * qv s e (j + nMoving (ss.take i)))
      | none => 0) := by
  intro ss
  induction ss with
  | nil => intro j u w; simp [kin]
  | cons s ss ih =>
    intro j u w
    unfold kin
    rw [List.length_cons, sum_range_succ', ih, add_comm]
    congr 1
    refine sum_congr rfl fun i _ => ?_
    simp only [List.getElem?_cons_succ, List.take_succ_cons, uP, nMoving_cons]
    have : nx s j + nMoving (ss.take i) = j + (if s.moving then nMoving (ss.take i) + 1 else nMoving (ss.take i)) := by
      simp only [nx]; split_ifs <;> omega
    rw [this]

theorem few_eq_sum (q δ : ℕ → ℝ) : ∀ (ss : List Segment) (fes : List Wrench) (j : ℕ) (u : Twist),
    fes.length = ss.length →
    few q δ ss fes j u = ∑ i ∈ range ss.length, (uP q δ (ss.take (i + 1)) j u).dot (fes.getD i 0) := by
  intro ss
  induction ss with
  | nil => intro fes j u _; simp [few]
  | cons s ss ih =>
    intro fes j u h
    cases fes with
    | nil => simp at h
    | cons fe fes =>
      simp only [List.length_cons, add_left_inj] at h
      unfold few
      rw [List.length_cons, sum_range_succ', ih _ _ _ h, add_comm]
      simp [uP]

theorem wsum_eq_sum (δ : ℕ → ℝ) : ∀ (ts : List ℝ) (j : ℕ), wsum δ ts j = ∑ k ∈ range ts.length, δ (j + k) * ts.getD k 0 := by
  intro ts
  induction ts with
  | nil => intro j; simp [wsum]
  | cons t ts ih =>
    intro j
    unfold wsum
    rw [List.length_cons, sum_range_succ', ih, add_comm]
    simp only [List.getD_cons_succ, List.getD_cons_zero, Nat.add_zero]
    congr 1
    exact sum_congr rfl fun i _ => by rw [show j + 1 + i = j + (i + 1) by omega]

/-- The unit rate of joint `k`. -/
def unitRate (k : ℕ) : ℕ → ℝ := fun i => if i = k then 1 else 0

theorem wsum_unit (k : ℕ) (ts : List ℝ) (h : k < ts.length) : wsum (unitRate k) ts 0 = ts.getD k 0 := by
  rw [wsum_eq_sum]
  simp only [unitRate, Nat.zero_add, ite_mul, one_mul, zero_mul]
  rw [sum_ite_eq' (range ts.length) k]
  simp [h]

theorem form_unit (n k : ℕ) (hk : k < n) (H : ℕ → ℕ → ℝ) (e : ℕ → ℝ) :
    ∑ x ∈ range n, ∑ y ∈ range n, unitRate k x * H x y * e y = ∑ y ∈ range n, H k y * e y := by
  rw [sum_eq_single k]
  · simp [unitRate]
  · intro b _ hb; simp [unitRate, hb]
  · simp [hk]

end KDL
