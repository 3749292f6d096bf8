import Verif.Model.JntArray
import Verif.Lemmas.ChainKin
import Verif.Props.FrameGroup

/-! C29: change of reference point, base and frame of a Jacobian. -/

noncomputable section
namespace KDL

theorem jacChangeLoop_eq (same : Bool) (op : Twist → Twist) (src : Jac) :
    ∀ (k i : ℕ) (A B : Jac), A.length = i → B.length = k →
      (same = true → ∀ j, j < k → src[i + j]? = B[j]?) → i + k = src.length →
      jacChangeLoop same op src i k (A ++ B) = some (A ++ (src.drop i).map op) := by
  intro k
  induction k with
  | zero =>
    intro i A B hA hB _ h
    have : B = [] := List.length_eq_zero_iff.mp hB
    subst this
    have : src.drop i = [] := by simp; omega
    simp [jacChangeLoop, this]
  | succ k ih =>
    intro i A B hA hB hal h
    obtain ⟨b, B, rfl⟩ : ∃ b B', B = b :: B' := by
      cases B with
      | nil => simp at hB
      | cons b B => exact ⟨b, B, rfl⟩
    have hi : i < src.length := by omega
    have hget : (if same then (A ++ b :: B)[i]? else src[i]?) = some src[i] := by
      cases same with
      | false => simp [List.getElem?_eq_getElem hi]
      | true =>
        have := hal rfl 0 (by omega)
        simp only [Nat.add_zero, List.getElem?_eq_getElem hi, List.getElem?_cons_zero, Option.some.injEq] at this
        rw [if_pos rfl, List.getElem?_append_right (by omega), hA, Nat.sub_self, this]
        rfl
    unfold jacChangeLoop
    rw [hget]
    simp only [Option.bind_eq_bind, Option.bind_some]
    have hset : Jac.setColumn (A ++ b :: B) i (op src[i]) = some ((A ++ [op src[i]]) ++ B) := by
      unfold Jac.setColumn
      rw [if_pos (by simp; omega), List.set_append_right _ _ (by omega)]
      simp [hA]
    rw [hset]
    simp only [Option.bind_some]
    rw [ih (i + 1) (A ++ [op src[i]]) B (by simp [hA]) (by simpa using hB) (by
      intro ha j hj
      have := hal ha (j + 1) (by omega)
      rw [List.getElem?_cons_succ] at this
      rw [← this]; congr 1; omega) (by omega)]
    rw [List.drop_eq_getElem_cons hi, List.map_cons, List.append_assoc]
    rfl

/-- The free functions: no undefined behaviour; `false` with the destination untouched iff the sizes differ; otherwise
`true` and every column is transformed.  Also when source and destination are the same object. -/
theorem C29_change (op : Twist → Twist) (src dest : Jac) :
    jacChange false op src dest = some (if src.length = dest.length then (true, src.map op) else (false, dest)) ∧
    jacChange true op src src = some (true, src.map op) := by
  constructor
  · unfold jacChange
    by_cases h : src.length = dest.length
    · rw [if_neg (by simp [h]), if_pos h]
      have := jacChangeLoop_eq false op src src.length 0 [] dest rfl h.symm (by simp) (by omega)
      simp only [List.nil_append, List.drop_zero] at this
      rw [this]; rfl
    · rw [if_pos h, if_neg h]
  · unfold jacChange
    rw [if_neg (by simp)]
    have := jacChangeLoop_eq true op src src.length 0 [] src rfl rfl (by simp) (by omega)
    simp only [List.nil_append, List.drop_zero] at this
    rw [this]; rfl

/-- The member functions are the aliased loops (jacobian.cpp:84, :98, :112 differ only in the object written to). -/
theorem C29_member (J : Jac) (v : Vec) (R : Rot) (F : Frame) :
    jacChange true (fun t => t.refPoint v) J J = some (true, J.changeRefPoint v) ∧
    jacChange true (fun t => R * t) J J = some (true, J.changeBase R) ∧
    jacChange true (fun t => F * t) J J = some (true, J.changeRefFrame F) :=
  ⟨(C29_change _ J J).2, (C29_change _ J J).2, (C29_change _ J J).2⟩

theorem dsum_map (qd : ℕ → ℝ) (op : Twist → Twist) (h0 : op 0 = 0) (hadd : ∀ a b, op (a + b) = op a + op b)
    (hs : ∀ (c : ℝ) a, op (c • a) = c • op a) : ∀ (J : List Twist) (j : ℕ), dsum qd (J.map op) j = op (dsum qd J j) := by
  intro J
  induction J with
  | nil => intro j; simp [dsum, h0]
  | cons c J ih => intro j; simp only [List.map_cons, dsum, ih, hadd, hs]

/-- Transforming the Jacobian transforms its product with every joint rate vector (of the right size). -/
theorem C29_multiply (J : Jac) (qd : List ℝ) (t : Twist) (h : multiplyJacobian J qd = some t) (v : Vec) (R : Rot) (F : Frame) :
    multiplyJacobian (J.changeRefPoint v) qd = some (t.refPoint v) ∧
    multiplyJacobian (J.changeBase R) qd = some (R * t) ∧
    multiplyJacobian (J.changeRefFrame F) qd = some (F * t) := by
  have hl : J.length = qd.length := by
    by_contra hne
    simp [multiplyJacobian, hne] at h
  rw [multiplyJacobian_eq J qd hl] at h
  cases h
  refine ⟨?_, ?_, ?_⟩
  · rw [multiplyJacobian_eq _ _ (by simp [Jac.changeRefPoint, hl])]
    congr 1
    refine dsum_map _ _ ?_ ?_ ?_ _ _
    · ext <;> simp [Twist.refPoint]
    · intro a b; ext <;> simp [Twist.refPoint] <;> ring
    · intro c a; ext <;> simp [Twist.refPoint] <;> ring
  · rw [multiplyJacobian_eq _ _ (by simp [Jac.changeBase, hl])]
    congr 1
    refine dsum_map _ _ ?_ ?_ ?_ _ _
    · ext <;> simp
    · intro a b; ext <;> simp <;> ring
    · intro c a; ext <;> simp <;> ring
  · rw [multiplyJacobian_eq _ _ (by simp [Jac.changeRefFrame, hl])]
    congr 1
    refine dsum_map _ _ ?_ ?_ ?_ _ _
    · ext <;> simp
    · intro a b; ext <;> simp <;> ring
    · intro c a; ext <;> simp <;> ring

/-- Changes compose like the group. -/
theorem C29_compose (J : Jac) (v w : Vec) (R S : Rot) (F G : Frame) (hF : F.IsProper) :
    (J.changeRefPoint v).changeRefPoint w = J.changeRefPoint (v + w) ∧
    (J.changeBase S).changeBase R = J.changeBase (R * S) ∧
    (J.changeRefFrame G).changeRefFrame F = J.changeRefFrame (F * G) ∧
    J.changeRefPoint 0 = J ∧ J.changeBase 1 = J ∧ J.changeRefFrame 1 = J := by
  refine ⟨Jac.changeRefPoint_changeRefPoint _ _ _, ?_, ?_, ?_, ?_, ?_⟩
  · simp only [Jac.changeBase, List.map_map]
    congr 1; funext t; ext <;> simp <;> ring
  · simp only [Jac.changeRefFrame, List.map_map]
    congr 1; funext t
    exact (C04_twist_action F G t hF).1.symm
  · simp only [Jac.changeRefPoint]
    conv_rhs => rw [← List.map_id J]
    congr 1; funext t; ext <;> simp [Twist.refPoint]
  · simp only [Jac.changeBase]
    conv_rhs => rw [← List.map_id J]
    congr 1; funext t; ext <;> simp
  · simp only [Jac.changeRefFrame]
    conv_rhs => rw [← List.map_id J]
    congr 1; funext t; ext <;> simp

/-- A change of frame is a change of base followed by a change of reference point. -/
theorem C29_frame (J : Jac) (F : Frame) : J.changeRefFrame F = (J.changeBase F.M).changeRefPoint (-F.p) := by
  simp only [Jac.changeRefFrame, Jac.changeBase, Jac.changeRefPoint, List.map_map]
  congr 1; funext t
  ext <;> simp [Twist.refPoint] <;> ring

/-- Non-vacuity: different sizes are rejected, equal sizes are transformed. -/
example : jacChange false (fun t => t.refPoint ⟨1, 0, 0⟩) [⟨0, ⟨0, 0, 1⟩⟩] [] = some (false, []) ∧
    ∃ J, jacChange false (fun t => t.refPoint ⟨1, 0, 0⟩) [⟨0, ⟨0, 0, 1⟩⟩] [0] = some (true, J) ∧
      J = [⟨⟨0, 1, 0⟩, ⟨0, 0, 1⟩⟩] := by
  refine ⟨by simp [jacChange], _, rfl, ?_⟩
  simp [Twist.refPoint, Vec.ext_iff]

end KDL
