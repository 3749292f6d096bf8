import Verif.Model.VelIo
import Verif.Props.FramesIo

/-! C81, display of velocity and acceleration types and of dual numbers. -/

namespace KDL
open TextIo VelIo

variable {N : NumIo} {rnd : ℝ → ℝ}

private theorem det {α : Type} {m : Rd α} {l r r' : List Char} {a a' : α} (h : Reads m l a r) (h' : Reads m l a' r') :
    a = a' ∧ r = r' := by
  have := (h []).symm.trans (h' [])
  injection this with h1 h2
  injection h2 with h3
  injection h3 with h4
  exact ⟨h1, h4⟩

private theorem vec_inj (hN : NumOk N rnd) {v v' : Vec} {r r' : List Char} (h : writeVec N v ++ r = writeVec N v' ++ r') :
    rndVec rnd v = rndVec rnd v' ∧ r = r' := by
  have a1 := (C67_roundtrip hN v ⟨0, 0⟩ ⟨0, 0⟩ 1 1 r).1
  rw [h] at a1
  exact det a1 (C67_roundtrip hN v' ⟨0, 0⟩ ⟨0, 0⟩ 1 1 r').1

private theorem rot_inj (hN : NumOk N rnd) {v v' : Rot} {r r' : List Char} (h : writeRot N v ++ r = writeRot N v' ++ r') :
    rndRot rnd v = rndRot rnd v' ∧ r = r' := by
  have a1 := (C67_roundtrip hN 0 ⟨0, 0⟩ ⟨0, 0⟩ v 1 r).2.2.2.1
  rw [h] at a1
  exact det a1 (C67_roundtrip hN 0 ⟨0, 0⟩ ⟨0, 0⟩ v' 1 r').2.2.2.1

/-- The same rounded vectors. -/
def VecVel.Agree (rnd : ℝ → ℝ) (a b : VecVel) : Prop := rndVec rnd a.p = rndVec rnd b.p ∧ rndVec rnd a.v = rndVec rnd b.v
/-- The same rounded rotation and angular velocity. -/
def RotVel.Agree (rnd : ℝ → ℝ) (a b : RotVel) : Prop := rndRot rnd a.R = rndRot rnd b.R ∧ rndVec rnd a.w = rndVec rnd b.w
/-- The same rounded vectors. -/
def VecAcc.Agree (rnd : ℝ → ℝ) (a b : VecAcc) : Prop :=
  rndVec rnd a.p = rndVec rnd b.p ∧ rndVec rnd a.v = rndVec rnd b.v ∧ rndVec rnd a.dv = rndVec rnd b.dv
/-- The same rounded rotation, angular velocity and acceleration. -/
def RotAcc.Agree (rnd : ℝ → ℝ) (a b : RotAcc) : Prop :=
  rndRot rnd a.R = rndRot rnd b.R ∧ rndVec rnd a.w = rndVec rnd b.w ∧ rndVec rnd a.dw = rndVec rnd b.dw

private theorem vecVel_inj (hN : NumOk N rnd) {a b : VecVel} {r r' : List Char}
    (h : writeVecVel N a ++ r = writeVecVel N b ++ r') : a.Agree rnd b ∧ r = r' := by
  simp only [writeVecVel, List.append_assoc, List.cons_append, List.cons.injEq, true_and, List.nil_append] at h
  obtain ⟨h1, h2⟩ := vec_inj hN h
  obtain ⟨h3, h4⟩ := vec_inj hN (List.cons.inj h2).2
  simp only [List.cons.injEq, true_and] at h4
  exact ⟨⟨h1, h3⟩, h4⟩

private theorem rotVel_inj (hN : NumOk N rnd) {a b : RotVel} {r r' : List Char}
    (h : writeRotVel N a ++ r = writeRotVel N b ++ r') : a.Agree rnd b ∧ r = r' := by
  simp only [writeRotVel, List.append_assoc, List.cons_append, List.cons.injEq, true_and, List.nil_append] at h
  obtain ⟨h1, h2⟩ := rot_inj hN h
  simp only [List.cons.injEq, true_and] at h2
  obtain ⟨h3, h4⟩ := vec_inj hN h2
  simp only [List.cons.injEq, true_and] at h4
  exact ⟨⟨h1, h3⟩, h4⟩

private theorem vecAcc_inj (hN : NumOk N rnd) {a b : VecAcc} {r r' : List Char}
    (h : writeVecAcc N a ++ r = writeVecAcc N b ++ r') : a.Agree rnd b ∧ r = r' := by
  simp only [writeVecAcc, List.append_assoc, List.cons_append, List.cons.injEq, true_and, List.nil_append] at h
  obtain ⟨h1, h2⟩ := vec_inj hN h
  obtain ⟨h3, h4⟩ := vec_inj hN (List.cons.inj h2).2
  obtain ⟨h5, h6⟩ := vec_inj hN (List.cons.inj h4).2
  simp only [List.cons.injEq, true_and] at h6
  exact ⟨⟨h1, h3, h5⟩, h6⟩

private theorem rotAcc_inj (hN : NumOk N rnd) {a b : RotAcc} {r r' : List Char}
    (h : writeRotAcc N a ++ r = writeRotAcc N b ++ r') : a.Agree rnd b ∧ r = r' := by
  simp only [writeRotAcc, List.append_assoc, List.cons_append, List.cons.injEq, true_and, List.nil_append] at h
  obtain ⟨h1, h2⟩ := rot_inj hN h
  simp only [List.cons.injEq, true_and] at h2
  obtain ⟨h3, h4⟩ := vec_inj hN h2
  simp only [List.cons.injEq, true_and] at h4
  obtain ⟨h5, h6⟩ := vec_inj hN h4
  simp only [List.cons.injEq, true_and] at h6
  exact ⟨⟨h1, h3, h5⟩, h6⟩

/-- The text of a velocity type determines its parts up to the rounding of the numbers, also inside of a longer text. -/
theorem C81_vel (hN : NumOk N rnd) (r r' : List Char) :
    (∀ a b : VecVel, writeVecVel N a ++ r = writeVecVel N b ++ r' → a.Agree rnd b ∧ r = r') ∧
    (∀ a b : RotVel, writeRotVel N a ++ r = writeRotVel N b ++ r' → a.Agree rnd b ∧ r = r') ∧
    (∀ a b : FrameVel, writeFrameVel N a ++ r = writeFrameVel N b ++ r' → a.M.Agree rnd b.M ∧ a.p.Agree rnd b.p ∧ r = r') ∧
    (∀ a b : TwistVel, writeTwistVel N a ++ r = writeTwistVel N b ++ r' →
      a.vel.Agree rnd b.vel ∧ a.rot.Agree rnd b.rot ∧ r = r') := by
  refine ⟨fun a b => vecVel_inj hN, fun a b => rotVel_inj hN, fun a b h => ?_, fun a b h => ?_⟩
  · simp only [writeFrameVel, List.append_assoc, List.cons_append, List.cons.injEq, true_and, List.nil_append] at h
    obtain ⟨h1, h2⟩ := rotVel_inj hN h
    simp only [List.cons.injEq, true_and] at h2
    obtain ⟨h3, h4⟩ := vecVel_inj hN h2
    simp only [List.cons.injEq, true_and] at h4
    exact ⟨h1, h3, h4⟩
  · simp only [writeTwistVel, List.append_assoc, List.cons_append, List.cons.injEq, true_and, List.nil_append] at h
    obtain ⟨h1, h2⟩ := vecVel_inj hN h
    simp only [List.cons.injEq, true_and] at h2
    obtain ⟨h3, h4⟩ := vecVel_inj hN h2
    simp only [List.cons.injEq, true_and] at h4
    exact ⟨h1, h3, h4⟩

/-- The text of an acceleration type determines its parts up to the rounding of the numbers, also inside of a longer text. -/
theorem C81_acc (hN : NumOk N rnd) (r r' : List Char) :
    (∀ a b : VecAcc, writeVecAcc N a ++ r = writeVecAcc N b ++ r' → a.Agree rnd b ∧ r = r') ∧
    (∀ a b : RotAcc, writeRotAcc N a ++ r = writeRotAcc N b ++ r' → a.Agree rnd b ∧ r = r') ∧
    (∀ a b : FrameAcc, writeFrameAcc N a ++ r = writeFrameAcc N b ++ r' → a.M.Agree rnd b.M ∧ a.p.Agree rnd b.p ∧ r = r') ∧
    (∀ a b : TwistAcc, writeTwistAcc N a ++ r = writeTwistAcc N b ++ r' →
      a.vel.Agree rnd b.vel ∧ a.rot.Agree rnd b.rot ∧ r = r') := by
  refine ⟨fun a b => vecAcc_inj hN, fun a b => rotAcc_inj hN, fun a b h => ?_, fun a b h => ?_⟩
  · simp only [writeFrameAcc, List.append_assoc, List.cons_append, List.cons.injEq, true_and, List.nil_append] at h
    obtain ⟨h1, h2⟩ := rotAcc_inj hN h
    simp only [List.cons.injEq, true_and] at h2
    obtain ⟨h3, h4⟩ := vecAcc_inj hN h2
    simp only [List.cons.injEq, true_and] at h4
    exact ⟨h1, h3, h4⟩
  · simp only [writeTwistAcc, List.append_assoc, List.cons_append, List.cons.injEq, true_and, List.nil_append] at h
    obtain ⟨h1, h2⟩ := vecAcc_inj hN h
    simp only [List.cons.injEq, true_and] at h2
    obtain ⟨h3, h4⟩ := vecAcc_inj hN h2
    simp only [List.cons.injEq, true_and] at h4
    exact ⟨h1, h3, h4⟩

private theorem num_inj (hN : NumOk N rnd) {x y : ℝ} {r r' : List Char} (h : N.fmt x ++ ',' :: r = N.fmt y ++ ',' :: r') :
    rnd x = rnd y ∧ r = r' := by
  have h1 := hN.read x (',' :: r) ⟨',', r, rfl, by decide⟩
  have h2 := hN.read y (',' :: r') ⟨',', r', rfl, by decide⟩
  rw [h] at h1
  have := h1.symm.trans h2
  simp only [Prod.mk.injEq, Option.some.injEq, List.cons.injEq, true_and] at this
  exact this

private theorem num_end (hN : NumOk N rnd) {x y : ℝ} (h : N.fmt x ++ [')'] = N.fmt y ++ [')']) : rnd x = rnd y := by
  have h1 := List.append_cancel_right h
  have h2 := hN.read x [','] ⟨',', [], rfl, by decide⟩
  have h3 := hN.read y [','] ⟨',', [], rfl, by decide⟩
  rw [h1] at h2
  have := h2.symm.trans h3
  simp only [Prod.mk.injEq, Option.some.injEq, and_true] at this
  exact this

private theorem rall1d_inj (hN : NumOk N rnd) (p q u : List Char) (ty ty' : List Char) {x y x' y' : ℝ}
    (h : p ++ ty ++ q ++ ty' ++ q ++ ty' ++ u ++ N.fmt x ++ ',' :: N.fmt y ++ [')'] =
      p ++ ty ++ q ++ ty' ++ q ++ ty' ++ u ++ N.fmt x' ++ ',' :: N.fmt y' ++ [')']) : rnd x = rnd x' ∧ rnd y = rnd y' := by
  simp only [List.append_assoc, List.cons_append, List.append_cancel_left_eq] at h
  obtain ⟨h1, h2⟩ := num_inj hN h
  exact ⟨h1, num_end hN h2⟩

private theorem rall2d_inj (hN : NumOk N rnd) (p q u : List Char) (ty ty' : List Char) {x y z x' y' z' : ℝ}
    (h : p ++ ty ++ q ++ ty' ++ q ++ ty' ++ u ++ N.fmt x ++ ',' :: N.fmt y ++ ',' :: N.fmt z ++ [')'] =
      p ++ ty ++ q ++ ty' ++ q ++ ty' ++ u ++ N.fmt x' ++ ',' :: N.fmt y' ++ ',' :: N.fmt z' ++ [')']) :
    rnd x = rnd x' ∧ rnd y = rnd y' ∧ rnd z = rnd z' := by
  simp only [List.append_assoc, List.cons_append, List.append_cancel_left_eq] at h
  obtain ⟨h1, h2⟩ := num_inj hN h
  obtain ⟨h3, h4⟩ := num_inj hN h2
  exact ⟨h1, h3, num_end hN h4⟩

/-- The text of a dual number determines value and derivatives up to the rounding of the numbers, whatever the compiler calls
`double`. -/
theorem C81_rall (hN : NumOk N rnd) (ty : List Char) :
    (∀ a b : Rall1d, writeRall1d N ty a = writeRall1d N ty b → rnd a.t = rnd b.t ∧ rnd a.grad = rnd b.grad) ∧
    (∀ a b : Rall2d, writeRall2d N ty a = writeRall2d N ty b →
      rnd a.t = rnd b.t ∧ rnd a.d = rnd b.d ∧ rnd a.dd = rnd b.dd) := by
  refine ⟨fun a b h => rall1d_inj hN _ _ _ _ _ h, fun a b h => rall2d_inj hN _ _ _ _ _ h⟩

/-- Objects that agree are written alike if the format depends on the rounded number only: the conclusions are not stronger than
what the text can show. -/
example (hf : ∀ x y, rnd x = rnd y → N.fmt x = N.fmt y) (a b : VecVel) (h : a.Agree rnd b) : writeVecVel N a = writeVecVel N b := by
  obtain ⟨h1, h2⟩ := h
  simp only [rndVec, Vec.mk.injEq] at h1 h2
  simp only [writeVecVel, writeVec, hf _ _ h1.1, hf _ _ h1.2.1, hf _ _ h1.2.2, hf _ _ h2.1, hf _ _ h2.2.1, hf _ _ h2.2.2]
end KDL
