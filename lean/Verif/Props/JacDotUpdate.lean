import Verif.Model.JacDotUpdate
import Verif.Props.JacobianDot

/-! C28: choice of the representation and update of the Jacobian time derivative solver. -/

noncomputable section
namespace KDL

/-- The representation is one of the three at any time: the known numbers select it, all others change nothing; nothing
else is touched. -/
theorem C28_representation (s : JacDotState) (r : Int) :
    s.setHybrid = { s with rep := .hybrid } ∧ s.setBodyFixed = { s with rep := .bodyFixed } ∧
    s.setInertial = { s with rep := .inertial } ∧
    (r = 0 → s.setRepresentation r = s.setHybrid) ∧ (r = 1 → s.setRepresentation r = s.setBodyFixed) ∧
    (r = 2 → s.setRepresentation r = s.setInertial) ∧ (r < 0 ∨ 2 < r → s.setRepresentation r = s) := by
  refine ⟨rfl, rfl, rfl, ?_, ?_, ?_, ?_⟩
  · rintro rfl; rfl
  · rintro rfl; rfl
  · rintro rfl; rfl
  · intro h
    unfold JacDotState.setRepresentation
    rw [if_neg (by omega), if_neg (by omega), if_neg (by omega)]
example (c : Chain) : (((JacDotState.init c).setRepresentation 2).setRepresentation 7).rep = .inertial := rfl

/-- After the chain was changed, `updateInternalDataStructures` turns a solver without locked joints into one for the
new chain, in the same representation, whatever the new memory holds. -/
theorem C28_update (c c' : Chain) (s : JacDotState) (hs : s.Fresh c) (junk junk' : Jac)
    (h1 : c'.nrOfJoints ≤ c.nrOfJoints + junk.length) (h2 : c'.nrOfJoints ≤ c.nrOfJoints + junk'.length) :
    (s.update c' junk junk').Fresh c' ∧ (s.update c' junk junk').rep = s.rep := by
  have hl : lockedResize (List.replicate c.nrOfJoints false) c'.nrOfJoints = List.replicate c'.nrOfJoints false := by
    unfold lockedResize
    rw [List.take_replicate, List.length_replicate, List.replicate_append_replicate]
    congr 1
    omega
  have hu : s.update c' junk junk' =
      { locked := List.replicate c'.nrOfJoints false, nrUnlocked := c'.nrOfJoints,
        jacLocked := List.replicate c'.nrOfJoints false, jac := jacResize s.jac c'.nrOfJoints junk,
        jacDot := jacResize s.jacDot c'.nrOfJoints junk', rep := s.rep } := by
    unfold JacDotState.update JacDotState.setLocked
    simp only [hs.locked, hs.jacLocked, hl]
    rw [if_neg (by simp)]
    simp [List.countP_replicate]
  rw [hu]
  refine ⟨⟨rfl, rfl, rfl, ?_, ?_⟩, rfl⟩
  · simp only [jacResize, List.length_take, List.length_append, hs.jac]; omega
  · simp only [jacResize, List.length_take, List.length_append, hs.jacDot]; omega
example (c c' : Chain) : ((JacDotState.init c).update c' (Jac.zeros c'.nrOfJoints) (Jac.zeros c'.nrOfJoints)).Fresh c' :=
  (C28_update c c' _ (JacDotState.fresh_init c .hybrid) _ _ (by simp [Jac.zeros]) (by simp [Jac.zeros])).1

/-- With locked joints the update keeps the flags of the remaining joints, leaves new joints free and counts again. -/
theorem C28_update_locked (c' : Chain) (s : JacDotState) (junk junk' : Jac) :
    (s.update c' junk junk').locked.length = c'.nrOfJoints ∧
    (∀ i, i < c'.nrOfJoints → (s.update c' junk junk').locked[i]? = some (s.locked.getD i false)) ∧
    (s.update c' junk junk').nrUnlocked = (s.update c' junk junk').locked.count false := by
  have h : (s.update c' junk junk').locked = lockedResize s.locked c'.nrOfJoints ∧
      (s.update c' junk junk').nrUnlocked = (lockedResize s.locked c'.nrOfJoints).count false := by
    unfold JacDotState.update
    simp only [(C28_setLocked _ _).1, and_self]
  rw [h.1, h.2]
  have hlen : (lockedResize s.locked c'.nrOfJoints).length = c'.nrOfJoints := by
    unfold lockedResize; simp; omega
  refine ⟨hlen, fun i hi => ?_, rfl⟩
  unfold lockedResize
  by_cases hi' : i < s.locked.length
  · rw [List.getElem?_append_left (by simp; omega), List.getElem?_take_of_lt hi]
    simp [hi']
  · rw [List.getElem?_append_right (by simp; omega), List.getElem?_replicate, if_pos (by simp; omega)]
    simp [List.getElem?_eq_none (Nat.le_of_not_lt hi')]
example (c' : Chain) (s : JacDotState) (h : s.locked = [true]) (hc : c'.nrOfJoints = 2) (j j' : Jac) :
    (s.update c' j j').locked[0]? = some true ∧ (s.update c' j j').locked[1]? = some false := by
  rw [(C28_update_locked c' s j j').2.1 0 (by omega), (C28_update_locked c' s j j').2.1 1 (by omega), h]
  exact ⟨rfl, rfl⟩

end KDL
