import Verif.Model.ChainKin
import Verif.Lemmas.Chain
import Verif.Props.FrameVelAcc
import Mathlib.Algebra.BigOperators.Group.Finset.Basic
import Mathlib.Algebra.BigOperators.Intervals

/-! Helpers for the chain solvers: the loops without the undefined-behaviour bookkeeping, as functions of `q : ℕ → ℝ`. -/

noncomputable section
namespace KDL

/-- Total read of a joint list. -/
def rd (q : List ℝ) : ℕ → ℝ := fun j => q.getD j 0

theorem getElem?_eq_rd {q : List ℝ} {j : ℕ} (h : j < q.length) : q[j]? = some (rd q j) := by
  simp [rd, h]

/-- Frame product of the segments, the first moving one using joint `j`. -/
def fkF (q : ℕ → ℝ) : List Segment → ℕ → Frame
  | [], _ => 1
  | s :: ss, j => if s.moving then s.pose (q j) * fkF q ss (j + 1) else s.pose 0 * fkF q ss j

theorem fkLoop_eq (q : List ℝ) : ∀ (ss : List Segment) (j : ℕ) (p : Frame), j + nMoving ss ≤ q.length →
    fkLoop q ss j p = some (p * fkF (rd q) ss j) := by
  intro ss
  induction ss with
  | nil => intro j p _; simp [fkLoop, fkF]
  | cons s ss ih =>
    intro j p h
    rw [nMoving_cons] at h
    unfold fkLoop fkF
    split_ifs with hm
    · rw [if_pos hm] at h
      rw [getElem?_eq_rd (by omega)]
      simp only [Option.bind_eq_bind, Option.bind_some]
      rw [ih _ _ (by omega), mul_assoc]
    · rw [if_neg hm] at h
      rw [ih _ _ h, mul_assoc]

theorem fkF_append (q : ℕ → ℝ) : ∀ (a b : List Segment) (j : ℕ),
    fkF q (a ++ b) j = fkF q a j * fkF q b (j + nMoving a) := by
  intro a
  induction a with
  | nil => intro b j; simp [fkF]
  | cons s a ih =>
    intro b j
    simp only [List.cons_append, fkF, nMoving_cons]
    split_ifs with hm
    · rw [ih, mul_assoc]; congr 3; omega
    · rw [ih, mul_assoc]

theorem isProper_fkF (q : ℕ → ℝ) : ∀ (ss : List Segment) (j : ℕ), (∀ s ∈ ss, s.Valid) → (fkF q ss j).IsProper := by
  intro ss
  induction ss with
  | nil => intro j _; exact Frame.IsProper.one
  | cons s ss ih =>
    intro j h
    have h1 := h s (by simp)
    have h2 : ∀ x ∈ ss, x.Valid := fun x hx => h x (by simp [hx])
    unfold fkF
    split_ifs
    · exact Frame.IsProper.mul (Segment.isProper_pose h1 _) (ih _ h2)
    · exact Frame.IsProper.mul (Segment.isProper_pose h1 _) (ih _ h2)

theorem fkF_congr (q r : ℕ → ℝ) : ∀ (ss : List Segment) (j : ℕ), (∀ i, j ≤ i → i < j + nMoving ss → q i = r i) →
    fkF q ss j = fkF r ss j := by
  intro ss
  induction ss with
  | nil => intro j _; rfl
  | cons s ss ih =>
    intro j h
    rw [nMoving_cons] at h
    unfold fkF
    split_ifs with hm
    · rw [if_pos hm] at h
      rw [h j le_rfl (by omega), ih (j + 1) (fun i h1 h2 => h i (by omega) (by omega))]
    · rw [if_neg hm] at h
      rw [ih j h]

/-! ### velocity -/

/-- Differentiable joint motion. -/
def JntHasDeriv (Q : ℝ → ℕ → ℝ) (qd : ℕ → ℝ) (τ : ℝ) : Prop := ∀ j, HasDerivAt (fun t => Q t j) (qd j) τ

/-- Velocity loop without bookkeeping. -/
def fkVelF (q qd : ℕ → ℝ) : List Segment → ℕ → FrameVel → FrameVel
  | [], _, p => p
  | s :: ss, j, p =>
    if s.moving then fkVelF q qd ss (j + 1) (p.mul (.ofTwist (s.pose (q j)) (s.twist (q j) (qd j))))
    else fkVelF q qd ss j (p.mul (.ofTwist (s.pose 0) (s.twist 0 0)))

theorem fkVelLoop_eq (q qd : List ℝ) : ∀ (ss : List Segment) (j : ℕ) (p : FrameVel), j + nMoving ss ≤ q.length →
    j + nMoving ss ≤ qd.length → fkVelLoop q qd ss j p = some (fkVelF (rd q) (rd qd) ss j p) := by
  intro ss
  induction ss with
  | nil => intro j p _ _; simp [fkVelLoop, fkVelF]
  | cons s ss ih =>
    intro j p h h'
    rw [nMoving_cons] at h h'
    unfold fkVelLoop fkVelF
    split_ifs with hm
    · rw [if_pos hm] at h h'
      rw [getElem?_eq_rd (by omega), getElem?_eq_rd (q := qd) (by omega)]
      simp only [Option.bind_eq_bind, Option.bind_some]
      exact ih _ _ (by omega) (by omega)
    · rw [if_neg hm] at h h'
      exact ih _ _ h h'

theorem rep_segment {s : Segment} (h : s.joint.Valid) {q : ℝ → ℝ} {q' τ : ℝ} (hq : HasDerivAt q q' τ) :
    (FrameVel.ofTwist (s.pose (q τ)) (s.twist (q τ) q')).Rep (fun r => s.pose (q r)) τ :=
  have h1 := Segment.hasTwist h hq
  ⟨⟨rfl, h1.rot⟩, ⟨rfl, h1.vel⟩⟩

theorem fkVelF_rep (Q : ℝ → ℕ → ℝ) (qd : ℕ → ℝ) (τ : ℝ) (hq : JntHasDeriv Q qd τ) :
    ∀ (ss : List Segment) (j : ℕ) (p : FrameVel) (P : ℝ → Frame), (∀ s ∈ ss, s.Valid) → p.Rep P τ →
      (P τ).IsProper → (fkVelF (Q τ) qd ss j p).Rep (fun t => P t * fkF (Q t) ss j) τ := by
  intro ss
  induction ss with
  | nil => intro j p P _ hp _; simpa [fkVelF, fkF] using hp
  | cons s ss ih =>
    intro j p P hv hp hP
    have h1 := hv s (by simp)
    have h2 : ∀ x ∈ ss, x.Valid := fun x hx => hv x (by simp [hx])
    unfold fkVelF fkF
    split_ifs with hm
    · have := ih (j + 1) _ (fun t => P t * s.pose (Q t j)) h2
        (C18_frame_mul hP hp (rep_segment h1.1 (hq j))) (Frame.IsProper.mul hP (Segment.isProper_pose h1 _))
      simpa only [mul_assoc] using this
    · have := ih j _ (fun t => P t * s.pose 0) h2
        (C18_frame_mul hP hp (rep_segment h1.1 (hasDerivAt_const τ 0))) (Frame.IsProper.mul hP (Segment.isProper_pose h1 _))
      simpa only [mul_assoc] using this

/-! ### Jacobian -/

/-- The final columns contributed by the segments `ss`, which start at frame `T`. -/
def colsF (q : ℕ → ℝ) : List Segment → ℕ → Frame → List Twist
  | [], _, _ => []
  | s :: ss, j, T =>
    if s.moving then
      (T.M * s.twist (q j) 1).refPoint ((T * fkF q (s :: ss) j).p - (T * s.pose (q j)).p)
        :: colsF q ss (j + 1) (T * s.pose (q j))
    else colsF q ss j (T * s.pose 0)

theorem colsF_length (q : ℕ → ℝ) : ∀ (ss : List Segment) (j : ℕ) (T : Frame), (colsF q ss j T).length = nMoving ss := by
  intro ss
  induction ss with
  | nil => intro j T; rfl
  | cons s ss ih =>
    intro j T
    unfold colsF
    rw [nMoving_cons]
    split_ifs with hm <;> simp [ih]

/-- Elements whose lock flag is off. -/
def keep {α : Type} (locked : ℕ → Bool) : List α → ℕ → List α
  | [], _ => []
  | a :: l, j => if locked j then keep locked l (j + 1) else a :: keep locked l (j + 1)

theorem keep_length_le {α : Type} (locked : ℕ → Bool) : ∀ (l : List α) (j : ℕ), (keep locked l j).length ≤ l.length := by
  intro l
  induction l with
  | nil => intro j; simp [keep]
  | cons a l ih =>
    intro j
    unfold keep
    have := ih (j + 1)
    split_ifs <;> simp <;> omega

theorem keep_false {α : Type} (locked : ℕ → Bool) : ∀ (l : List α) (j : ℕ),
    (∀ i, j ≤ i → i < j + l.length → locked i = false) → keep locked l j = l := by
  intro l
  induction l with
  | nil => intro j _; rfl
  | cons a l ih =>
    intro j h
    unfold keep
    rw [if_neg (by simp [h j le_rfl (by simp)]), ih (j + 1) (fun i h1 h2 => h i (by omega) (by simp at h2 ⊢; omega))]

theorem keep_eq_filter {α : Type} (b : List Bool) : ∀ (l : List α) (j : ℕ), j + l.length ≤ b.length →
    keep (fun i => b.getD i false) l j = ((l.zip (b.drop j)).filter (fun x => !x.2)).map (·.1) := by
  intro l
  induction l with
  | nil => intro j _; simp [keep]
  | cons a l ih =>
    intro j h
    simp only [List.length_cons] at h
    have hj : j < b.length := by omega
    rw [List.drop_eq_getElem_cons hj]
    unfold keep
    rw [ih (j + 1) (by omega)]
    simp only [List.getD_eq_getElem?_getD, List.getElem?_eq_getElem hj, Option.getD_some, List.zip_cons_cons,
      List.filter_cons]
    cases b[j] <;> simp

theorem keep_append {α : Type} (locked : ℕ → Bool) : ∀ (l m : List α) (j : ℕ),
    keep locked (l ++ m) j = keep locked l j ++ keep locked m (j + l.length) := by
  intro l
  induction l with
  | nil => intro m j; simp [keep]
  | cons a l ih =>
    intro m j
    simp only [List.cons_append, keep, ih, List.length_cons]
    have : j + 1 + l.length = j + (l.length + 1) := by omega
    rw [this]
    split_ifs <;> simp

theorem Twist.refPoint_refPoint (t : Twist) (a b : Vec) : (t.refPoint a).refPoint b = t.refPoint (a + b) := by
  ext <;> simp <;> ring
@[simp] theorem Twist.refPoint_zero (t : Twist) : t.refPoint 0 = t := by ext <;> simp
@[simp] theorem Twist.zero_refPoint (a : Vec) : (0 : Twist).refPoint a = 0 := by ext <;> simp
theorem Twist.add_refPoint (t u : Twist) (a : Vec) : (t + u).refPoint a = t.refPoint a + u.refPoint a := by
  ext <;> simp <;> ring
theorem Twist.smul_refPoint (t : Twist) (c : ℝ) (a : Vec) : (c • t).refPoint a = c • t.refPoint a := by
  ext <;> simp <;> ring

theorem Jac.changeRefPoint_append (A B : Jac) (v : Vec) :
    Jac.changeRefPoint (A ++ B) v = Jac.changeRefPoint A v ++ Jac.changeRefPoint B v := by
  simp [Jac.changeRefPoint]
theorem Jac.changeRefPoint_zeros (m : ℕ) (v : Vec) :
    Jac.changeRefPoint (List.replicate m 0) v = List.replicate m 0 := by
  simp [Jac.changeRefPoint]
theorem Jac.changeRefPoint_changeRefPoint (A : Jac) (v w : Vec) :
    Jac.changeRefPoint (Jac.changeRefPoint A v) w = Jac.changeRefPoint A (v + w) := by
  simp [Jac.changeRefPoint, Twist.refPoint_refPoint]

theorem jacLoop_eq (q : List ℝ) (b : List Bool) : ∀ (ss : List Segment) (j : ℕ) (T : Frame) (A : Jac) (m : ℕ),
    j + nMoving ss ≤ q.length → j + nMoving ss ≤ b.length →
    (keep (fun i => b.getD i false) (colsF (rd q) ss j T) j).length ≤ m →
    jacLoop q b ss j A.length T (A ++ List.replicate m 0) =
      some (T * fkF (rd q) ss j,
        Jac.changeRefPoint A ((T * fkF (rd q) ss j).p - T.p)
          ++ keep (fun i => b.getD i false) (colsF (rd q) ss j T) j
          ++ List.replicate (m - (keep (fun i => b.getD i false) (colsF (rd q) ss j T) j).length) 0) := by
  intro ss
  induction ss with
  | nil =>
    intro j T A m _ _ _
    simp [jacLoop, fkF, colsF, keep, Jac.changeRefPoint]
  | cons s ss ih =>
    intro j T A m hq hb hm
    rw [nMoving_cons] at hq hb
    have hcat : ∀ (X Y : Frame) (v : Vec), (X * Y).p - X.p + v = v + ((X * Y).p - X.p) := fun _ _ _ => add_comm _ _
    by_cases hmv : s.moving
    · rw [if_pos hmv] at hq hb
      have hfk : fkF (rd q) (s :: ss) j = s.pose (rd q j) * fkF (rd q) ss (j + 1) := by
        conv_lhs => unfold fkF
        rw [if_pos hmv]
      have hcols : colsF (rd q) (s :: ss) j T =
          (T.M * s.twist (rd q j) 1).refPoint ((T * fkF (rd q) (s :: ss) j).p - (T * s.pose (rd q j)).p)
            :: colsF (rd q) ss (j + 1) (T * s.pose (rd q j)) := by
        conv_lhs => unfold colsF
        rw [if_pos hmv]
      unfold jacLoop
      rw [if_pos hmv, getElem?_eq_rd (by omega)]
      have hbj : b[j]? = some (b.getD j false) := by simp [show j < b.length by omega]
      rw [hbj]
      simp only [Option.bind_eq_bind, Option.bind_some]
      rw [Jac.changeRefPoint_append, Jac.changeRefPoint_zeros]
      rw [hcols] at hm ⊢
      have hkc : keep (fun i => b.getD i false) ((T.M * s.twist (rd q j) 1).refPoint
          ((T * fkF (rd q) (s :: ss) j).p - (T * s.pose (rd q j)).p)
            :: colsF (rd q) ss (j + 1) (T * s.pose (rd q j))) j =
          if b.getD j false then keep (fun i => b.getD i false) (colsF (rd q) ss (j + 1) (T * s.pose (rd q j))) (j + 1)
          else (T.M * s.twist (rd q j) 1).refPoint ((T * fkF (rd q) (s :: ss) j).p - (T * s.pose (rd q j)).p) ::
            keep (fun i => b.getD i false) (colsF (rd q) ss (j + 1) (T * s.pose (rd q j))) (j + 1) := rfl
      rw [hkc] at hm ⊢
      have hend : T * s.pose (rd q j) * fkF (rd q) ss (j + 1) = T * fkF (rd q) (s :: ss) j := by
        rw [hfk, mul_assoc]
      by_cases hl : b.getD j false = true
      · rw [if_pos hl] at hm ⊢
        rw [if_pos hl]
        have := ih (j + 1) (T * s.pose (rd q j)) (Jac.changeRefPoint A ((T * s.pose (rd q j)).p - T.p)) m
          (by omega) (by omega) hm
        rw [show (Jac.changeRefPoint A ((T * s.pose (rd q j)).p - T.p)).length = A.length by
          simp [Jac.changeRefPoint]] at this
        rw [this, hend, Jac.changeRefPoint_changeRefPoint]
        congr 5; abel
      · rw [if_neg hl] at hm ⊢
        rw [if_neg hl]
        simp only [List.length_cons] at hm
        obtain ⟨m', rfl⟩ : ∃ m', m = m' + 1 := ⟨m - 1, by omega⟩
        have hlen : (Jac.changeRefPoint A ((T * s.pose (rd q j)).p - T.p)).length = A.length := by
          simp [Jac.changeRefPoint]
        have hset : Jac.setColumn (Jac.changeRefPoint A ((T * s.pose (rd q j)).p - T.p) ++ List.replicate (m' + 1) 0)
            A.length (T.M * s.twist (rd q j) 1) =
            some ((Jac.changeRefPoint A ((T * s.pose (rd q j)).p - T.p) ++ [T.M * s.twist (rd q j) 1]) ++
              List.replicate m' 0) := by
          unfold Jac.setColumn
          rw [if_pos (by rw [List.length_append, hlen]; simp)]
          congr 1
          rw [List.set_append_right _ _ (by rw [hlen]), hlen, Nat.sub_self, List.replicate_succ]
          simp
        rw [hset]
        simp only [Option.bind_some]
        have := ih (j + 1) (T * s.pose (rd q j))
          (Jac.changeRefPoint A ((T * s.pose (rd q j)).p - T.p) ++ [T.M * s.twist (rd q j) 1]) m'
          (by omega) (by omega) (by omega)
        rw [show (Jac.changeRefPoint A ((T * s.pose (rd q j)).p - T.p) ++ [T.M * s.twist (rd q j) 1]).length
          = A.length + 1 by rw [List.length_append, hlen]; rfl] at this
        rw [this, hend, Jac.changeRefPoint_append, Jac.changeRefPoint_changeRefPoint]
        have e1 : (T * s.pose (rd q j)).p - T.p + ((T * fkF (rd q) (s :: ss) j).p - (T * s.pose (rd q j)).p)
            = (T * fkF (rd q) (s :: ss) j).p - T.p := by abel
        rw [e1]
        simp [Jac.changeRefPoint]
    · rw [if_neg hmv] at hq hb
      have hfk : fkF (rd q) (s :: ss) j = s.pose 0 * fkF (rd q) ss j := by
        conv_lhs => unfold fkF
        rw [if_neg hmv]
      have hcols : colsF (rd q) (s :: ss) j T = colsF (rd q) ss j (T * s.pose 0) := by
        conv_lhs => unfold colsF
        rw [if_neg hmv]
      unfold jacLoop
      rw [if_neg hmv]
      rw [hcols] at hm ⊢
      simp only
      rw [Jac.changeRefPoint_append, Jac.changeRefPoint_zeros]
      have := ih j (T * s.pose 0) (Jac.changeRefPoint A ((T * s.pose 0).p - T.p)) m hq hb hm
      rw [show (Jac.changeRefPoint A ((T * s.pose 0).p - T.p)).length = A.length by simp [Jac.changeRefPoint]] at this
      rw [this, hfk, mul_assoc, Jac.changeRefPoint_changeRefPoint]
      congr 5; abel

/-! ### Jacobian times joint rates -/

/-- Weighted sum of columns, the first one with weight `qd j`. -/
def dsum (qd : ℕ → ℝ) : List Twist → ℕ → Twist
  | [], _ => 0
  | c :: cs, j => qd j • c + dsum qd cs (j + 1)

theorem dsum_append (qd : ℕ → ℝ) : ∀ (a b : List Twist) (j : ℕ),
    dsum qd (a ++ b) j = dsum qd a j + dsum qd b (j + a.length) := by
  intro a
  induction a with
  | nil => intro b j; simp [dsum]
  | cons c a ih =>
    intro b j
    simp only [List.cons_append, dsum, ih, List.length_cons, add_assoc]
    congr 4; omega

theorem dsum_zeros (qd : ℕ → ℝ) : ∀ (m j : ℕ), dsum qd (List.replicate m 0) j = 0 := by
  intro m
  induction m with
  | zero => intro j; rfl
  | succ m ih => intro j; simp [List.replicate_succ, dsum, ih]

theorem multiplyJacobian_eq (J : Jac) (q : List ℝ) (h : J.length = q.length) :
    multiplyJacobian J q = some (dsum (rd q) J 0) := by
  unfold multiplyJacobian
  rw [if_pos h]
  congr 1
  suffices H : ∀ (J : Jac) (q : List ℝ) (f : ℕ → ℝ) (j : ℕ), J.length = q.length →
      (∀ i, i < q.length → f (j + i) = rd q i) →
      (List.zipWith (fun (t : Twist) (x : ℝ) => x • t) J q).foldr (· + ·) 0 = dsum f J j by
    exact H J q (rd q) 0 h (by intro i _; simp)
  intro J
  induction J with
  | nil => intro q f j h _; simp [dsum]
  | cons c J ih =>
    intro q f j h hf
    cases q with
    | nil => simp at h
    | cons x q =>
      simp only [List.length_cons, add_left_inj] at h
      simp only [List.zipWith_cons_cons, List.foldr_cons, dsum]
      rw [ih q f (j + 1) h (by
        intro i hi
        have := hf (i + 1) (by simp; omega)
        rw [show j + 1 + i = j + (i + 1) by omega, this]; simp [rd])]
      have := hf 0 (by simp)
      simp only [Nat.add_zero] at this
      rw [this]; simp [rd]

@[simp] theorem FrameVel.getTwist_mul_ofTwist (p : FrameVel) (F : Frame) (t : Twist) :
    (p.mul (.ofTwist F t)).getTwist = p.getTwist.refPoint ((p.getFrame * F).p - p.getFrame.p) + p.getFrame.M * t := by
  have e : (p.getFrame * F).p - p.getFrame.p = p.M.R * F.p := by
    show p.M.R * F.p + p.p.p - p.p.p = _
    abel
  rw [e]
  ext <;> simp [FrameVel.getTwist, FrameVel.mul, FrameVel.ofTwist, FrameVel.getFrame, RotVel.mul, RotVel.app,
    VecVel.add] <;> ring
@[simp] theorem FrameVel.getFrame_mul_ofTwist (p : FrameVel) (F : Frame) (t : Twist) :
    (p.mul (.ofTwist F t)).getFrame = p.getFrame * F := rfl

theorem fkVelF_twist (q qd : ℕ → ℝ) : ∀ (ss : List Segment) (j : ℕ) (p : FrameVel),
    (fkVelF q qd ss j p).getFrame = p.getFrame * fkF q ss j ∧
    (fkVelF q qd ss j p).getTwist = p.getTwist.refPoint ((p.getFrame * fkF q ss j).p - p.getFrame.p) +
      dsum qd (colsF q ss j p.getFrame) j := by
  intro ss
  induction ss with
  | nil => intro j p; simp [fkVelF, fkF, colsF, dsum]
  | cons s ss ih =>
    intro j p
    by_cases hm : s.moving
    · have hfk : fkF q (s :: ss) j = s.pose (q j) * fkF q ss (j + 1) := by
        conv_lhs => unfold fkF
        rw [if_pos hm]
      obtain ⟨h1, h2⟩ := ih (j + 1) (p.mul (.ofTwist (s.pose (q j)) (s.twist (q j) (qd j))))
      simp only [FrameVel.getFrame_mul_ofTwist, FrameVel.getTwist_mul_ofTwist] at h1 h2
      unfold fkVelF colsF
      rw [if_pos hm, if_pos hm, h1, h2, hfk]
      refine ⟨mul_assoc _ _ _, ?_⟩
      simp only [dsum, Twist.add_refPoint, Twist.refPoint_refPoint, mul_assoc]
      rw [s.twist_eq_smul (q j) (qd j)]
      have e1 : p.getFrame.M * (qd j • s.twist (q j) 1) = qd j • (p.getFrame.M * s.twist (q j) 1) := by
        ext <;> simp <;> ring
      rw [e1, Twist.smul_refPoint, add_assoc]
      congr 2; abel
    · have hfk : fkF q (s :: ss) j = s.pose 0 * fkF q ss j := by
        conv_lhs => unfold fkF
        rw [if_neg hm]
      obtain ⟨h1, h2⟩ := ih j (p.mul (.ofTwist (s.pose 0) (s.twist 0 0)))
      simp only [FrameVel.getFrame_mul_ofTwist, FrameVel.getTwist_mul_ofTwist] at h1 h2
      unfold fkVelF colsF
      rw [if_neg hm, if_neg hm, h1, h2, hfk]
      refine ⟨mul_assoc _ _ _, ?_⟩
      have e0 : p.getFrame.M * s.twist 0 0 = 0 := by rw [s.twist_zero]; ext <;> simp
      simp only [Twist.add_refPoint, Twist.refPoint_refPoint, mul_assoc, e0, Twist.zero_refPoint, add_zero]
      congr 2; abel

end KDL
