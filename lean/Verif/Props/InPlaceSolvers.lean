import Verif.Props.InPlace
import Verif.Props.ForwardDynamics
import Verif.Props.Inertia
import Verif.Props.NewtonPinv

/-!
# C102: forward dynamics and the null space solver in place
-/

noncomputable section

namespace KDL

open Matrix

/-! ## Forward dynamics -/

/-- The arrays after a forward dynamics call with the given outcome. -/
def fdWrote (h : JntStore) (x : ℕ) : FdResult → FdStoreOut
  | .ret e a => .ret e (h.put x a)
  | .nan => .nan

/-- `ChainFdSolver_RNE::CartToJnt` with `q_dotdot` an object of its own: `q`, `q_dot` and `torques` may be one object. -/
theorem C102_forward (s : FdState) (c : Chain) (q qd tau : ℕ) (fext : List Wrench) (qdd : ℕ) (h : JntStore) (H0 : ℕ → ℕ → ℝ)
    (T0 : ℕ → ℝ) (L0 : LDL) (r0 x0 : ℕ → ℝ) (h1 : qdd ≠ q) (h2 : qdd ≠ qd) (h3 : qdd ≠ tau) :
    fdRneAt s c q qd tau fext qdd h H0 T0 L0 r0 x0 =
      (fdRne s c (h q) (h qd) (h tau) fext (h qdd) H0 T0 L0 r0 x0).map (fdWrote h qdd) := by
  unfold fdRneAt fdRne
  split
  · simp [fdWrote, JntStore.put_self]
  split
  · simp [fdWrote, JntStore.put_self]
  simp only [Option.bind_eq_bind, JntStore.put_same, JntStore.put_other _ _ h1.symm, JntStore.put_other _ _ h2.symm,
    JntStore.put_other _ _ h3.symm, JntStore.put_put]
  cases s.dyn.mass c (h q) ⟨s.work, H0⟩ with
  | none => rfl
  | some eH =>
    obtain ⟨e, H⟩ := eH
    simp only [Option.bind_some]
    split
    · simp [fdWrote, JntStore.put_self]
    cases idRne c s.id.1 s.id.2 s.dyn.grav (h q) (h qd) (List.replicate s.nj 0) fext ((List.range s.work).map T0) with
    | none => rfl
    | some eT =>
      obtain ⟨e, T⟩ := eT
      simp only [Option.bind_some]
      split
      · simp [fdWrote]
      split
      · rfl
      split <;> simp_all [fdWrote]

/-- `q_dotdot` and `torques` one object: the torques are cleared before they are read; the call computes the accelerations
of the mechanism without any torques. -/
theorem C102_forward_torques (s : FdState) (c : Chain) (q qd : ℕ) (fext : List Wrench) (qdd : ℕ) (h : JntStore) (H0 : ℕ → ℕ → ℝ)
    (T0 : ℕ → ℝ) (L0 : LDL) (r0 x0 : ℕ → ℝ) (h1 : qdd ≠ q) (h2 : qdd ≠ qd) :
    fdRneAt s c q qd qdd fext qdd h H0 T0 L0 r0 x0 =
      (fdRne s c (h q) (h qd) (List.replicate s.nj 0) fext (h qdd) H0 T0 L0 r0 x0).map (fdWrote h qdd) := by
  unfold fdRneAt fdRne
  split
  · simp [fdWrote, JntStore.put_self]
  by_cases hl : (h q).length ≠ s.nj ∨ (h qd).length ≠ s.nj ∨ (h qdd).length ≠ s.nj ∨ (h qdd).length ≠ s.nj ∨ fext.length ≠ s.ns
  · rw [if_pos hl, if_pos (by rw [List.length_replicate]; tauto)]
    simp [fdWrote, JntStore.put_self]
  rw [if_neg hl, if_neg (by rw [List.length_replicate]; tauto)]
  simp only [Option.bind_eq_bind, JntStore.put_same, JntStore.put_other _ _ h1.symm, JntStore.put_other _ _ h2.symm, JntStore.put_put]
  cases s.dyn.mass c (h q) ⟨s.work, H0⟩ with
  | none => rfl
  | some eH =>
    obtain ⟨e, H⟩ := eH
    simp only [Option.bind_some]
    split
    · simp [fdWrote, JntStore.put_self]
    cases idRne c s.id.1 s.id.2 s.dyn.grav (h q) (h qd) (List.replicate s.nj 0) fext ((List.range s.work).map T0) with
    | none => rfl
    | some eT =>
      obtain ⟨e, T⟩ := eT
      simp only [Option.bind_some]
      split
      · simp [fdWrote]
      split
      · rfl
      split <;> simp_all [fdWrote]

/-- `q_dotdot` and `q_dot` one object: the call computes the accelerations of the mechanism at rest. -/
theorem C102_forward_speeds (s : FdState) (c : Chain) (q tau : ℕ) (fext : List Wrench) (qdd : ℕ) (h : JntStore) (H0 : ℕ → ℕ → ℝ)
    (T0 : ℕ → ℝ) (L0 : LDL) (r0 x0 : ℕ → ℝ) (h1 : qdd ≠ q) (h3 : qdd ≠ tau) :
    fdRneAt s c q qdd tau fext qdd h H0 T0 L0 r0 x0 =
      (fdRne s c (h q) (List.replicate s.nj 0) (h tau) fext (h qdd) H0 T0 L0 r0 x0).map (fdWrote h qdd) := by
  unfold fdRneAt fdRne
  split
  · simp [fdWrote, JntStore.put_self]
  by_cases hl : (h q).length ≠ s.nj ∨ (h qdd).length ≠ s.nj ∨ (h qdd).length ≠ s.nj ∨ (h tau).length ≠ s.nj ∨ fext.length ≠ s.ns
  · rw [if_pos hl, if_pos (by rw [List.length_replicate]; tauto)]
    simp [fdWrote, JntStore.put_self]
  rw [if_neg hl, if_neg (by rw [List.length_replicate]; tauto)]
  simp only [Option.bind_eq_bind, JntStore.put_same, JntStore.put_other _ _ h1.symm, JntStore.put_other _ _ h3.symm, JntStore.put_put]
  cases s.dyn.mass c (h q) ⟨s.work, H0⟩ with
  | none => rfl
  | some eH =>
    obtain ⟨e, H⟩ := eH
    simp only [Option.bind_some]
    split
    · simp [fdWrote, JntStore.put_self]
    cases idRne c s.id.1 s.id.2 s.dyn.grav (h q) (List.replicate s.nj 0) (List.replicate s.nj 0) fext ((List.range s.work).map T0) with
    | none => rfl
    | some eT =>
      obtain ⟨e, T⟩ := eT
      simp only [Option.bind_some]
      split
      · simp [fdWrote]
      split
      · rfl
      split <;> simp_all [fdWrote]

theorem zero_abi (t : Twist) : ABI.ofRBI RBI.zero * t = (0 : Wrench) := by
  rw [C38_ofRBI, zero_body]

theorem motorOnly_fd (a b t x : ℝ) (H0 : ℕ → ℕ → ℝ) (T0 : ℕ → ℝ) (L0 : LDL) (r0 x0 : ℕ → ℝ) :
    fdRne (.new motorOnly 0) motorOnly [a] [b] [t] [0] [x] H0 T0 L0 r0 x0 = some (.ret E_NOERROR [t]) := by
  have hz : ((List.range motorOnly.nrOfJoints).map T0) = [T0 0] := rfl
  have hid : idRne motorOnly motorOnly.nrOfJoints motorOnly.nrOfSegments 0 [a] [b] (List.replicate 1 0) [0] [T0 0] = some (E_NOERROR, [0]) :=
    motorOnly_id a b 0 (T0 0)
  have hm : ∃ H, (FdState.new motorOnly 0).dyn.mass motorOnly [a] ⟨1, H0⟩ = some (E_NOERROR, H) ∧ H.d 0 0 = 1 := by
    simp [FdState.new, DynState.new, DynState.mass, jntToMass, motorOnly, massFwd, massOuter, massInner, Segment.moving, Joint.moving, JMat.set, JMat.get, zero_abi]
  obtain ⟨H, hH, h00⟩ := hm
  unfold fdRne
  rw [if_neg (by simp [FdState.new]), if_neg (by simp [FdState.new, motorOnly])]
  simp only [Option.bind_eq_bind, show (FdState.new motorOnly 0).work = 1 from rfl, hH, Option.bind_some]
  rw [if_neg (by simp [E_NOERROR])]
  rw [show (FdState.new motorOnly 0).id = (motorOnly.nrOfJoints, motorOnly.nrOfSegments) from rfl, show (FdState.new motorOnly 0).dyn.grav = 0 from rfl,
    show (FdState.new motorOnly 0).nj = 1 from rfl, show (List.range 1).map T0 = [T0 0] from rfl, hid]
  simp only [Option.bind_some]
  rw [if_neg (by simp [E_NOERROR]), if_neg (by norm_num)]
  simp [ldlSolve, ldlFactor, ldlCol, ldlD, ldlFwd, ldlBwd, ldlFwdAcc, ldlBwdAcc, h00]

/-- The claim fails when `q_dotdot` is the array of the torques: a motor with inertia 1 under the torque 1 accelerates by 1,
but the call in place returns 0. -/
theorem C102_forward_violated (H0 : ℕ → ℕ → ℝ) (T0 : ℕ → ℝ) (L0 : LDL) (r0 x0 : ℕ → ℝ) :
    ∃ (c : Chain) (h : JntStore), nMoving c.segments = c.nrOfJoints ∧ c.segments.length = c.nrOfSegments ∧
      fdRne (.new c 0) c (h 0) (h 1) (h 2) [0] (h 2) H0 T0 L0 r0 x0 = some (.ret E_NOERROR [1]) ∧
      ∃ h', fdRneAt (.new c 0) c 0 1 2 [0] 2 h H0 T0 L0 r0 x0 = some (.ret E_NOERROR h') ∧ h' 2 = [0] := by
  refine ⟨motorOnly, fun x => if x = 2 then [1] else [0], by simp [motorOnly, nMoving, Segment.moving, Joint.moving], rfl,
    motorOnly_fd 0 0 1 1 H0 T0 L0 r0 x0, JntStore.put (fun x => if x = 2 then [1] else [0]) 2 [0], ?_, JntStore.put_same _ 2 [0]⟩
  rw [C102_forward_torques _ _ _ _ _ _ _ _ _ _ _ _ (by norm_num) (by norm_num)]
  have := motorOnly_fd 0 0 0 1 H0 T0 L0 r0 x0
  show Option.map _ (fdRne (.new motorOnly 0) motorOnly [0] [0] [0] [0] [1] H0 T0 L0 r0 x0) = _
  rw [this]
  rfl

/-- The hypotheses of `C102_forward` and `C102_forward_speeds` can be met by calls that succeed. -/
example (H0 : ℕ → ℕ → ℝ) (T0 : ℕ → ℝ) (L0 : LDL) (r0 x0 : ℕ → ℝ) : ∃ h', fdRneAt (.new motorOnly 0) motorOnly 0 0 0 [0] 2 (fun _ => [1]) H0 T0 L0 r0 x0 =
    some (.ret E_NOERROR h') := by
  rw [C102_forward _ _ _ _ _ _ _ _ _ _ _ _ _ (by norm_num) (by norm_num) (by norm_num), motorOnly_fd 1 1 1 1 H0 T0 L0 r0 x0]
  exact ⟨_, rfl⟩

/-! ## Null space optimisation -/

/-- The arrays after a velocity call with the given outcome. -/
def velWrote (h : JntStore) (x : ℕ) : VelOut → VelStoreOut
  | .done e a => .done e (h.put x a)
  | .nonfinite e => .nonfinite e

theorem vecOf_ofFn {n : ℕ} (x : Fin n → ℝ) : vecOf n (List.ofFn x) = x := by
  funext i; simp [vecOf]

/-- `ChainIkSolverVel_pinv_nso::CartToJnt` with separate arrays. -/
theorem C102_nullspace (s : NsoState) (c : Chain) (svd : (n : ℕ) → Matrix (Fin 6) (Fin n) ℝ → SvdOut 6 n) (jac0 : Jac) (q : ℕ)
    (v : Twist) (out : ℕ) (h : JntStore) (ho : out ≠ q) :
    s.cartToJntAt c svd jac0 q v out h = (s.cartToJnt c svd jac0 (h q) v (h out)).map (velWrote h out) := by
  unfold NsoState.cartToJntAt NsoState.cartToJnt
  split
  · simp [velWrote, JntStore.put_self]
  split
  · simp [velWrote, JntStore.put_self]
  simp only [Option.bind_eq_bind]
  cases jntToJac c (List.replicate s.nj false) (h q) jac0 (-1) with
  | none => rfl
  | some eJ =>
    obtain ⟨e, J⟩ := eJ
    simp only [Option.bind_some]
    split
    · simp [velWrote, JntStore.put_self]
    split
    · simp [velWrote]
    split
    · rfl
    split
    · simp [velWrote]
    simp only [JntStore.put_other _ _ ho.symm, JntStore.put_same, vecOf_ofFn, JntStore.put_put, nsoQdot]
    split <;> simp [velWrote]

/-- `q_in` and `qdot_out` one object: the joint speeds of the task overwrite the positions before the null space criterion
reads them; the criterion is evaluated at these speeds. -/
theorem C102_nullspace_over (s : NsoState) (c : Chain) (svd : (n : ℕ) → Matrix (Fin 6) (Fin n) ℝ → SvdOut 6 n) (jac0 J : Jac) (q : ℕ)
    (v : Twist) (h : JntStore) (hn : s.nj = c.nrOfJoints) (hq : (h q).length = s.nj) (ho : s.opt_pos.length = s.nj)
    (hw : s.weights.length = s.nj) (hJ : jntToJac c (List.replicate s.nj false) (h q) jac0 (-1) = some (E_NOERROR, J))
    (hc : (svd s.nj (jacMat s.nj J)).code = 0) (h6 : 6 ≤ s.nj) (he : 0 < s.eps) :
    s.cartToJntAt c svd jac0 q v q h = some (.done E_NOERROR (h.put q (List.ofFn
      (nsoQdot (svd s.nj (jacMat s.nj J)).U (svd s.nj (jacMat s.nj J)).S (svd s.nj (jacMat s.nj J)).V s.eps s.alpha
        (((svd s.nj (jacMat s.nj J)).V * diagonal (nsoSinv (svd s.nj (jacMat s.nj J)).S s.eps) * (svd s.nj (jacMat s.nj J)).Uᵀ) *ᵥ v.comp)
        (vecOf s.nj s.opt_pos) (vecOf s.nj s.weights) v)))) := by
  unfold NsoState.cartToJntAt
  rw [if_neg (by simp [hn]), if_neg (by simp [hq, ho, hw])]
  simp only [Option.bind_eq_bind, hJ, Option.bind_some]
  rw [if_neg (by simp), if_neg (by simp [hc]), if_neg (by omega), if_neg]
  · simp only [JntStore.put_same, vecOf_ofFn, JntStore.put_put, nsoQdot]
    split <;> rfl
  · rintro ⟨i, h1, h2⟩
    rw [h2] at h1
    simp [he] at h1

/-- The portal robot with a seventh joint that moves nothing (its scale is 0). -/
def portalIdle : Chain :=
  ⟨7, 7, [plainSegment .TransX, plainSegment .TransY, plainSegment .TransZ, plainSegment .RotX, plainSegment .RotY, plainSegment .RotZ,
    ⟨"", ⟨"", .TransX, 0, 0, 0, 0, 0, ⟨0, 0, 0⟩, ⟨0, 0, 0⟩⟩, RBI.zero, ⟨1, ⟨0, 0, 0⟩⟩⟩]⟩

theorem portalIdle_jac : jntToJac portalIdle (List.replicate 7 false) [0, 0, 0, 0, 0, 0, 1] (Jac.zeros 7) (-1) =
    some (0, [⟨⟨1, 0, 0⟩, 0⟩, ⟨⟨0, 1, 0⟩, 0⟩, ⟨⟨0, 0, 1⟩, 0⟩, ⟨0, ⟨1, 0, 0⟩⟩, ⟨0, ⟨0, 1, 0⟩⟩, ⟨0, ⟨0, 0, 1⟩⟩, 0]) := by
  simp [jntToJac, portalIdle, plainSegment, segmentNr, jacLoop, Segment.moving, Joint.moving, Segment.pose, Joint.pose, Segment.twist, Joint.twist, E_NOERROR,
    Jac.setToZero, Jac.setColumn, Jac.changeRefPoint, Frame.ofRot, Frame.ofVec, List.replicate, Jac.zeros]
  refine ⟨?_, ?_, ?_, ?_, ?_, ?_, ?_⟩ <;> ext <;> simp [Rot.rotX, Rot.rotY, Rot.rotZ]

theorem comp_zero : (0 : Twist).comp = 0 := by
  funext i; fin_cases i <;> rfl

/-- The claim fails when `qdot_out` is the array `q_in`: a joint that does not move the tool stands at 1, its preferred
position is 0.  With separate arrays the solver drives it back, in place it does not. -/
theorem C102_nullspace_violated : ∃ (svd : (n : ℕ) → Matrix (Fin 6) (Fin n) ℝ → SvdOut 6 n) (c : Chain) (s : NsoState) (h : JntStore),
    GoodSvd svd ∧ s = NsoState.new c (List.replicate 7 0) (List.replicate 7 1) (1 / 10 ^ 5) (1 / 4) ∧
    (∃ r, s.cartToJnt c svd (Jac.zeros 7) (h 0) 0 (h 0) = some (.done E_NOERROR r) ∧ r.getD 6 0 = -1 / 4) ∧
    ∃ h', s.cartToJntAt c svd (Jac.zeros 7) 0 0 0 h = some (.done E_NOERROR h') ∧ h' 0 = List.replicate 7 0 := by
  obtain ⟨svd, hs, hcode⟩ := exists_goodSvd
  obtain ⟨J, hJd⟩ : ∃ J : Jac, J = [⟨⟨1, 0, 0⟩, 0⟩, ⟨⟨0, 1, 0⟩, 0⟩, ⟨⟨0, 0, 1⟩, 0⟩, ⟨0, ⟨1, 0, 0⟩⟩, ⟨0, ⟨0, 1, 0⟩⟩, ⟨0, ⟨0, 0, 1⟩⟩, 0] := ⟨_, rfl⟩
  have hJ : jntToJac portalIdle (List.replicate 7 false) [0, 0, 0, 0, 0, 0, 1] (Jac.zeros 7) (-1) = some (E_NOERROR, J) := by
    rw [portalIdle_jac, hJd]; rfl
  obtain ⟨r, hr⟩ : ∃ r, r = svd 7 (jacMat 7 J) := ⟨_, rfl⟩
  have hdec := hs 7 (jacMat 7 J) (hcode _ _)
  rw [← hr] at hdec
  refine ⟨svd, portalIdle, ⟨7, 1 / 10 ^ 5, 1 / 4, List.replicate 7 1, List.replicate 7 0⟩, fun _ => [0, 0, 0, 0, 0, 0, 1], hs, rfl, ?_, ?_⟩
  · have h1 := nso_cart ⟨7, 1 / 10 ^ 5, 1 / 4, List.replicate 7 1, List.replicate 7 0⟩ portalIdle svd (Jac.zeros 7) J
      [0, 0, 0, 0, 0, 0, 1] 0 [0, 0, 0, 0, 0, 0, 1] rfl rfl rfl (by simp) (by simp) hJ (by norm_num) (by norm_num)
    rw [if_neg (by simp [hcode])] at h1
    refine ⟨_, h1, ?_⟩
    dsimp only
    rw [← hr]
    have hq : vecOf 7 [0, 0, 0, 0, 0, 0, 1] = Pi.single 6 1 := by
      funext i; fin_cases i <;> simp [vecOf]
    have ho : vecOf 7 (List.replicate 7 0) = 0 := by
      funext i; fin_cases i <;> simp [vecOf]
    have hw : vecOf 7 (List.replicate 7 1) = 1 := by
      funext i; fin_cases i <;> simp [vecOf]
    rw [hq, ho, hw]
    have hA : nsoA (Pi.single 6 1 : Fin 7 → ℝ) 0 1 = 1 := by
      unfold nsoA
      rw [Finset.sum_eq_single 6] <;> simp +contextual
    have hG : nsoG (Pi.single 6 1 : Fin 7 → ℝ) 0 1 = 1 / 2 := by
      unfold nsoG
      rw [Finset.sum_eq_single 6] <;> simp +contextual
    have ht : (fun i => (1 : Fin 7 → ℝ) i * ((Pi.single 6 1 : Fin 7 → ℝ) i - (0 : Fin 7 → ℝ) i) / 1) = Pi.single 6 1 := by
      funext i; simp
    have hz : jacMat 7 J *ᵥ (Pi.single 6 1 : Fin 7 → ℝ) = 0 := by
      funext i
      rw [Matrix.mulVec_single_one]
      simp only [Matrix.col_apply, jacMat, hJd]
      fin_cases i <;> rfl
    have hz2 : (r.V * diagonal (nsoSinv r.S (1 / 10 ^ 5)) * r.Uᵀ * r.U * diagonal r.S * r.Vᵀ) *ᵥ (Pi.single 6 1 : Fin 7 → ℝ) = 0 := by
      rw [show r.V * diagonal (nsoSinv r.S (1 / 10 ^ 5)) * r.Uᵀ * r.U * diagonal r.S * r.Vᵀ =
        r.V * diagonal (nsoSinv r.S (1 / 10 ^ 5)) * r.Uᵀ * (r.U * diagonal r.S * r.Vᵀ) by simp only [Matrix.mul_assoc], ← hdec.fact,
        ← Matrix.mulVec_mulVec, hz, Matrix.mulVec_zero]
    unfold nsoQdot
    rw [hA, if_pos (by norm_num), hG]
    dsimp only
    rw [ht, hz2, comp_zero, Matrix.mulVec_zero]
    simp [List.getD_eq_getElem?_getD]
    norm_num
  · have h1 := C102_nullspace_over ⟨7, 1 / 10 ^ 5, 1 / 4, List.replicate 7 1, List.replicate 7 0⟩ portalIdle svd (Jac.zeros 7) J 0 0
      (fun _ => [0, 0, 0, 0, 0, 0, 1]) rfl rfl (by simp) (by simp) hJ (hcode _ _) (by norm_num) (by norm_num)
    refine ⟨_, h1, ?_⟩
    rw [JntStore.put_same]
    dsimp only
    rw [← hr, comp_zero, Matrix.mulVec_zero]
    have ho : vecOf 7 (List.replicate 7 0) = 0 := by
      funext i; fin_cases i <;> simp [vecOf]
    rw [ho]
    unfold nsoQdot
    rw [if_neg (by simp [nsoA]), comp_zero, Matrix.mulVec_zero]
    simp [List.replicate, List.ofFn_succ]

end KDL
