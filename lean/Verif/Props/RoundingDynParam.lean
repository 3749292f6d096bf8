import Verif.Model.RoundingDynParam
import Verif.Props.RoundingDH

/-! C114: rounding errors of the Coriolis and gravity torques. -/

namespace KDL
noncomputable section

/-! ## helpers -/

theorem rep_zero {n : ℕ} {c : ℝ} (hc : 0 ≤ c) : ∀ z ∈ List.replicate n (0 : ℝ), |z| ≤ c := by
  intro z hz
  rw [(List.mem_replicate.mp hz).2, abs_zero]
  exact hc
theorem vlen_origin : vlen (0 : Vec) = 0 := by simp [vlen]
theorem rep_load {n : ℕ} : ∀ w ∈ List.replicate n (0 : Wrench), vlen w.force ≤ 100 ∧ vlen w.torque ≤ 100 := by
  intro w hw
  rw [(List.mem_replicate.mp hw).2]
  have h : vlen (0 : Vec) ≤ 100 := by rw [vlen_origin]; norm_num
  exact ⟨h, h⟩

/-! ## C114 -/

/-- Coriolis torques, in the ranges of C109: within `4e-4` of those of the ideal chain. -/
theorem C114_coriolis (F : FlD) (hF : F.Ok) (hu : F.u = 1 / 2 ^ 53) (c c' : Chain) (hc : c.WF) (hc' : c'.WF) (grav : Vec) (q qd out : List ℝ)
    (h : List.Forall₂ (DynClose q qd) c.segments c'.segments) (hn : c.nrOfSegments ≤ 6) (h1 : q.length = c.nrOfJoints)
    (h2 : qd.length = c.nrOfJoints) (h3 : out.length = c.nrOfJoints) :
    ∃ σ σ', F.coriolis (.new c grav) c q qd out = some (E_NOERROR, σ) ∧ (DynState.new c grav).coriolis c' q qd out = some (E_NOERROR, σ') ∧
      List.Forall₂ (fun x y => |x - y| ≤ 4 / 10 ^ 4) σ σ' :=
  C109_double F hF hu c c' hc hc' 0 q qd _ _ out h hn (by rw [vlen_origin]; norm_num) (rep_zero (by norm_num)) rep_load h1 h2
    (List.length_replicate ..) h3 (List.length_replicate ..)

/-- Gravity torques; no joint rate enters. -/
theorem C114_gravity (F : FlD) (hF : F.Ok) (hu : F.u = 1 / 2 ^ 53) (c c' : Chain) (hc : c.WF) (hc' : c'.WF) (grav : Vec) (hg : vlen grav ≤ 10)
    (q out : List ℝ) (h : List.Forall₂ (DynClose q []) c.segments c'.segments) (hn : c.nrOfSegments ≤ 6) (h1 : q.length = c.nrOfJoints)
    (h3 : out.length = c.nrOfJoints) :
    ∃ σ σ', F.gravity (.new c grav) c q out = some (E_NOERROR, σ) ∧ (DynState.new c grav).gravity c' q out = some (E_NOERROR, σ') ∧
      List.Forall₂ (fun x y => |x - y| ≤ 4 / 10 ^ 4) σ σ' :=
  C109_double F hF hu c c' hc hc' grav q _ _ _ out (h.imp fun s s' k => { k with
      rate := fun y hy => by rw [(List.mem_replicate.mp hy).2, mul_zero, abs_zero]; norm_num }) hn hg (rep_zero (by norm_num)) rep_load h1
    (List.length_replicate ..) (List.length_replicate ..) h3 (List.length_replicate ..)

/-- The Puma 560 built by `Puma560()` in double precision, joint angles at most 4, rates at most 1: Coriolis and gravity torques are within `1e-6` of
those of the ideal arm. -/
theorem C114_puma (F : FlD) (hF : F.Ok) (hu : F.u = 1 / 2 ^ 53) (grav : Vec) (hg : vlen grav ≤ 10) (q qd out : List ℝ)
    (hq : q.length = 6 ∧ ∀ x ∈ q, |x| ≤ 4) (hqd : qd.length = 6 ∧ ∀ y ∈ qd, |y| ≤ 1) (ho : out.length = 6) :
    (∃ σ σ', F.coriolis (.new F.puma560 grav) F.puma560 q qd out = some (E_NOERROR, σ) ∧
      (DynState.new puma560 grav).coriolis puma560 q qd out = some (E_NOERROR, σ') ∧ List.Forall₂ (fun x y => |x - y| ≤ 1 / 10 ^ 6) σ σ') ∧
    (∃ σ σ', F.gravity (.new F.puma560 grav) F.puma560 q out = some (E_NOERROR, σ) ∧
      (DynState.new puma560 grav).gravity puma560 q out = some (E_NOERROR, σ') ∧ List.Forall₂ (fun x y => |x - y| ≤ 1 / 10 ^ 6) σ σ') := by
  obtain ⟨-, n1, n2, -⟩ := C111_puma F hF hu
  have m1 : puma560.nrOfJoints = 6 := C76_puma_shape.1
  have m2 : puma560.nrOfSegments = 11 := C76_puma_shape.2.1
  unfold FlD.coriolis FlD.gravity DynState.coriolis DynState.gravity DynState.new
  dsimp only
  rw [n1, n2, m1, m2]
  have z : (List.replicate 6 (0 : ℝ)).length = 6 ∧ ∀ x ∈ List.replicate 6 (0 : ℝ), |x| ≤ 1 := ⟨rfl, rep_zero (by norm_num)⟩
  exact ⟨C111_puma_torques F hF hu 0 (by rw [vlen_origin]; norm_num) q qd _ out _ hq hqd z ho ⟨rfl, rep_load⟩,
    C111_puma_torques F hF hu grav hg q _ _ out _ hq z z ho ⟨rfl, rep_load⟩⟩

/-- The exact arithmetic gives the exact programs. -/
theorem C114_exact (u : ℝ) (d : DynState) (c : Chain) (q qd out : List ℝ) :
    (FlD.mk ⟨u, id, Real.sin, Real.cos⟩ fun I v => I * v).coriolis d c q qd out = d.coriolis c q qd out ∧
    (FlD.mk ⟨u, id, Real.sin, Real.cos⟩ fun I v => I * v).gravity d c q out = d.gravity c q out :=
  ⟨C109_exact .., C109_exact ..⟩

/-- Not vacuous: a machine that rounds every number up, the Puma bent and moving in the gravity of the earth.  (The assumptions of
`C114_coriolis` and `C114_gravity` are among those of `C109_double`, shown satisfiable beside it.) -/
example : ∃ (F : FlD) (grav : Vec) (q qd out : List ℝ), F.Ok ∧ F.u = 1 / 2 ^ 53 ∧ F.rnd 1 ≠ 1 ∧ vlen grav ≤ 10 ∧ grav ≠ 0 ∧
    (q.length = 6 ∧ ∀ x ∈ q, |x| ≤ 4) ∧ (qd.length = 6 ∧ ∀ y ∈ qd, |y| ≤ 1) ∧ out.length = 6 := by
  refine ⟨⟨sloppy, fun I v => sloppy.rotVec (asRot I) v⟩, ⟨0, 0, -9.81⟩, List.replicate 6 1, List.replicate 6 1, List.replicate 6 0,
    C109_matvec _ sloppy_ok, rfl, by simp [sloppy], ?_, ?_, ⟨rfl, ?_⟩, ⟨rfl, ?_⟩, rfl⟩
  · refine Real.sqrt_le_iff.mpr ⟨by norm_num, ?_⟩
    norm_num
  · intro h
    have := congrArg Vec.z h
    norm_num at this
  · intro x hx
    rw [(List.mem_replicate.mp hx).2]; norm_num
  · intro x hx
    rw [(List.mem_replicate.mp hx).2]; norm_num

end
end KDL
