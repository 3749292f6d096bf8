import Verif.Model.Lma
import Verif.Lemmas.JacDot
import Verif.Lemmas.Svd
import Verif.Props.IkVel

/-!
# Lemmas for the Levenberg-Marquardt solver
-/

noncomputable section
namespace KDL
open Matrix

/-- Frames in front of the moving segments. -/
def rootsF (q : ℕ → ℝ) : List Segment → ℕ → Frame → List Frame
  | [], _, _ => []
  | s :: ss, j, T => if s.moving then T :: rootsF q ss (j + 1) (T * s.pose (q j)) else rootsF q ss j (T * s.pose 0)
/-- Frames behind the moving segments. -/
def tipsF (q : ℕ → ℝ) : List Segment → ℕ → Frame → List Frame
  | [], _, _ => []
  | s :: ss, j, T =>
    if s.moving then T * s.pose (q j) :: tipsF q ss (j + 1) (T * s.pose (q j)) else tipsF q ss j (T * s.pose 0)

theorem lmaFwdLoop_eq (q : List ℝ) : ∀ (ss : List Segment) (j : ℕ) (T : Frame) (A B C D : List Frame),
    A.length = j → B.length = nMoving ss → C.length = j → D.length = nMoving ss → j + nMoving ss ≤ q.length →
    lmaFwdLoop q ss j ⟨T, A ++ B, C ++ D⟩ =
      some ⟨T * fkF (rd q) ss j, A ++ rootsF (rd q) ss j T, C ++ tipsF (rd q) ss j T⟩ := by
  intro ss
  induction ss with
  | nil =>
    intro j T A B C D _ hB _ hD _
    have h1 : B = [] := List.length_eq_zero_iff.mp (by simpa [nMoving] using hB)
    have h2 : D = [] := List.length_eq_zero_iff.mp (by simpa [nMoving] using hD)
    subst h1 h2
    simp [lmaFwdLoop, fkF, rootsF, tipsF]
  | cons s ss ih =>
    intro j T A B C D hA hB hC hD hq
    rw [nMoving_cons] at hB hD hq
    by_cases hm : s.moving
    · rw [if_pos hm] at hB hD hq
      obtain ⟨b, B, rfl⟩ := List.exists_cons_of_length_pos (l := B) (by omega)
      obtain ⟨d, D, rfl⟩ := List.exists_cons_of_length_pos (l := D) (by omega)
      simp only [List.length_cons] at hB hD
      unfold lmaFwdLoop fkF rootsF tipsF
      rw [if_pos hm, if_pos hm, if_pos hm, if_pos hm, getElem?_eq_rd (by omega)]
      simp only [Option.bind_eq_bind, Option.bind_some]
      rw [if_pos (by simp; omega)]
      have e1 : (A ++ b :: B).set j T = (A ++ [T]) ++ B := by
        rw [List.set_append_right _ _ (by omega), hA, Nat.sub_self]; simp
      have e2 : (C ++ d :: D).set j (T * s.pose (rd q j)) = (C ++ [T * s.pose (rd q j)]) ++ D := by
        rw [List.set_append_right _ _ (by omega), hC, Nat.sub_self]; simp
      rw [e1, e2, ih (j + 1) _ _ _ _ _ (by simp [hA]) (by omega) (by simp [hC]) (by omega) (by omega), mul_assoc]
      simp
    · rw [if_neg hm] at hB hD hq
      unfold lmaFwdLoop fkF rootsF tipsF
      rw [if_neg hm, if_neg hm, if_neg hm, if_neg hm]
      rw [ih j _ _ _ _ _ hA (by omega) hC (by omega) (by omega), mul_assoc]

theorem lmaJacLoop_eq (q : List ℝ) (H : Frame) : ∀ (ss : List Segment) (j : ℕ) (T : Frame) (A C : List Frame) (J K : Jac),
    A.length = j → C.length = j → J.length = j → K.length = nMoving ss → j + nMoving ss ≤ q.length →
    H = T * fkF (rd q) ss j →
    lmaJacLoop q ⟨H, A ++ rootsF (rd q) ss j T, C ++ tipsF (rd q) ss j T⟩ ss j (J ++ K) =
      some (J ++ colsF (rd q) ss j T) := by
  intro ss
  induction ss with
  | nil =>
    intro j T A C J K _ _ _ hK _ _
    have h1 : K = [] := List.length_eq_zero_iff.mp (by simpa [nMoving] using hK)
    subst h1
    simp [lmaJacLoop, colsF]
  | cons s ss ih =>
    intro j T A C J K hA hC hJ hK hq hH
    rw [nMoving_cons] at hK hq
    by_cases hm : s.moving
    · rw [if_pos hm] at hK hq
      obtain ⟨k, K, rfl⟩ := List.exists_cons_of_length_pos (l := K) (by omega)
      simp only [List.length_cons] at hK
      have hH' : H = T * s.pose (rd q j) * fkF (rd q) ss (j + 1) := by
        rw [hH, mul_assoc]
        conv_lhs => unfold fkF
        rw [if_pos hm]
      unfold lmaJacLoop rootsF tipsF colsF
      rw [if_pos hm, if_pos hm, if_pos hm, if_pos hm, getElem?_eq_rd (by omega),
        List.getElem?_append_right (by omega), List.getElem?_append_right (by omega), hA, hC, Nat.sub_self]
      simp only [Option.bind_eq_bind, Option.bind_some, List.getElem?_cons_zero]
      unfold Jac.setColumn
      rw [if_pos (by simp; omega)]
      simp only [Option.bind_some]
      rw [List.set_append_right _ _ (by omega), hJ, Nat.sub_self, List.set_cons_zero, ← hH]
      have := ih (j + 1) (T * s.pose (rd q j)) (A ++ [T]) (C ++ [T * s.pose (rd q j)])
        (J ++ [(T.M * s.twist (rd q j) 1).refPoint (H.p - (T * s.pose (rd q j)).p)]) K (by simp [hA]) (by simp [hC])
        (by simp [hJ]) (by omega) (by omega) hH'
      simpa using this
    · rw [if_neg hm] at hK hq
      have hH' : H = T * s.pose 0 * fkF (rd q) ss j := by
        rw [hH, mul_assoc]
        conv_lhs => unfold fkF
        rw [if_neg hm]
      unfold lmaJacLoop rootsF tipsF colsF
      rw [if_neg hm, if_neg hm, if_neg hm, if_neg hm]
      exact ih j _ _ _ _ _ hA hC hJ (by omega) (by omega) hH'

/-- Pose of the end of the chain. -/
def endF (c : Chain) (q : List ℝ) : Frame := fkF (rd q) c.segments 0

/-- The vectors have the size of the chain. -/
def LmaFk.Sized (w : LmaFk) (c : Chain) : Prop := w.root.length = c.nrOfJoints ∧ w.tip.length = c.nrOfJoints

theorem lmaFwdpos_eq (c : Chain) (hc : c.WF) (q : List ℝ) (hq : q.length = c.nrOfJoints) (w : LmaFk) (hw : w.Sized c) :
    lmaFwdpos c q w = some ⟨endF c q, rootsF (rd q) c.segments 0 1, tipsF (rd q) c.segments 0 1⟩ := by
  have := lmaFwdLoop_eq q c.segments 0 1 [] w.root [] w.tip rfl (by rw [hw.1, hc.2]) rfl (by rw [hw.2, hc.2])
    (by rw [hq, hc.2]; omega)
  simpa [lmaFwdpos, endF] using this

theorem rootsF_length (q : ℕ → ℝ) : ∀ (ss : List Segment) (j : ℕ) (T : Frame), (rootsF q ss j T).length = nMoving ss := by
  intro ss
  induction ss with
  | nil => intro j T; rfl
  | cons s ss ih =>
    intro j T
    unfold rootsF
    rw [nMoving_cons]
    split_ifs with hm <;> simp [ih]
theorem tipsF_length (q : ℕ → ℝ) : ∀ (ss : List Segment) (j : ℕ) (T : Frame), (tipsF q ss j T).length = nMoving ss := by
  intro ss
  induction ss with
  | nil => intro j T; rfl
  | cons s ss ih =>
    intro j T
    unfold tipsF
    rw [nMoving_cons]
    split_ifs with hm <;> simp [ih]

theorem lmaJacobian_eq (c : Chain) (hc : c.WF) (q : List ℝ) (hq : q.length = c.nrOfJoints) (J : Jac)
    (hJ : J.length = c.nrOfJoints) :
    lmaJacobian c q ⟨endF c q, rootsF (rd q) c.segments 0 1, tipsF (rd q) c.segments 0 1⟩ J =
      some (colsF (rd q) c.segments 0 1) := by
  have := lmaJacLoop_eq q (endF c q) c.segments 0 1 [] [] [] J rfl rfl rfl (by rw [hJ, hc.2]) (by rw [hq, hc.2]; omega)
    (by rw [endF, one_mul])
  simpa [lmaJacobian] using this

end KDL
