import Verif.Model.PyBind
import Verif.Props.EulerBand

/-! C79: pickling through the Python bindings. -/

open Real

namespace KDL

/-- The rotations contained in an object. -/
def PyVal.rots : PyVal → List Rot
  | .rot R => [R]
  | .frame F => [F.M]
  | .rotVel R => [R.R]
  | .frameVel F => [F.M.R]
  | _ => []

/-- Two objects agree except that their rotations may differ by at most `e` in every entry. -/
def PyVal.Near (e : ℝ) : PyVal → PyVal → Prop
  | .rot A, .rot B => A.Within B e
  | .frame A, .frame B => A.p = B.p ∧ A.M.Within B.M e
  | .rotVel A, .rotVel B => A.w = B.w ∧ A.R.Within B.R e
  | .frameVel A, .frameVel B => A.p = B.p ∧ A.M.w = B.M.w ∧ A.M.R.Within B.M.R e
  | a, b => a = b

/-- The roll, pitch and yaw angles of the rotation rebuild it exactly: outside `1e-12` of the gimbal lock, or in it. -/
def Rot.OffBand (R : Rot) : Prop :=
  R.IsProper ∧ (|atan2 (-R.m20) (sqrt (R.m00 ^ 2 + R.m10 ^ 2))| ≤ π / 2 - 1 / 10 ^ 12 ∨ (R.m00 = 0 ∧ R.m10 = 0))

/-- The rotation after a pickle round trip. -/
private noncomputable def rr (R : Rot) : Rot := Rot.rpy R.getRPY.roll R.getRPY.pitch R.getRPY.yaw
/-- The object after a pickle round trip. -/
private noncomputable def rb : PyVal → PyVal
  | .rot R => .rot (rr R)
  | .frame F => .frame { F with M := rr F.M }
  | .rotVel R => .rotVel { R with R := rr R.R }
  | .frameVel F => .frameVel { F with M := { F.M with R := rr F.M.R } }
  | o => o

private theorem dumps_num (x : ℝ) : (PyVal.num x).dumps = .num x := by
  rw [PyVal.dumps]; rfl
private theorem dumps_obj {o : PyVal} {c : PyClass} {l : List PyVal} (h : o.getstate = .inr (c, l)) :
    o.dumps = .obj c (l.map PyVal.dumps) := by
  rw [PyVal.dumps]
  split
  · rename_i h'; rw [h] at h'; cases h'
  · rename_i h'
    rw [h] at h'
    cases h'
    simp

private theorem loadsAll_nil : PyVal.loadsAll [] = .ok [] := by rw [PyVal.loadsAll]
private theorem loadsAll_cons {p : Pkl} {ps : List Pkl} {o : PyVal} {os : List PyVal}
    (h : PyVal.loads p = .ok o) (hs : PyVal.loadsAll ps = .ok os) : PyVal.loadsAll (p :: ps) = .ok (o :: os) := by
  rw [PyVal.loadsAll, h, hs]; rfl
private theorem loads_obj {c : PyClass} {ps : List Pkl} {os : List PyVal}
    (hs : PyVal.loadsAll ps = .ok os) : PyVal.loads (.obj c ps) = PyVal.setstate c os := by
  rw [PyVal.loads, hs]; rfl

private theorem ld_num (x : ℝ) : PyVal.loads (PyVal.num x).dumps = .ok (.num x) := by
  rw [dumps_num, PyVal.loads]
private theorem ld_vec (v : Vec) : PyVal.loads (PyVal.vec v).dumps = .ok (.vec v) := by
  rw [dumps_obj rfl]
  exact loads_obj (loadsAll_cons (ld_num _) (loadsAll_cons (ld_num _) (loadsAll_cons (ld_num _) loadsAll_nil)))
private theorem ld_rot (R : Rot) : PyVal.loads (PyVal.rot R).dumps = .ok (.rot (rr R)) := by
  rw [dumps_obj rfl]
  exact loads_obj (loadsAll_cons (ld_num _) (loadsAll_cons (ld_num _) (loadsAll_cons (ld_num _) loadsAll_nil)))
private theorem ld_two {o a b a' b' o' : PyVal} {c : PyClass} (h : o.getstate = .inr (c, [a, b]))
    (ha : PyVal.loads a.dumps = .ok a') (hb : PyVal.loads b.dumps = .ok b')
    (hs : PyVal.setstate c [a', b'] = .ok o') : PyVal.loads o.dumps = .ok o' := by
  rw [dumps_obj h, ← hs]
  exact loads_obj (loadsAll_cons ha (loadsAll_cons hb loadsAll_nil))
private theorem ld_vecVel (v : VecVel) : PyVal.loads (PyVal.vecVel v).dumps = .ok (.vecVel v) :=
  ld_two rfl (ld_vec _) (ld_vec _) rfl
private theorem ld_rotVel (R : RotVel) : PyVal.loads (PyVal.rotVel R).dumps = .ok (.rotVel { R with R := rr R.R }) :=
  ld_two rfl (ld_rot _) (ld_vec _) rfl

private theorem loads_dumps (o : PyVal) : PyVal.loads o.dumps = .ok (rb o) := by
  cases o with
  | num x => exact ld_num x
  | vec v => exact ld_vec v
  | rot R => exact ld_rot R
  | wrench w => exact ld_two rfl (ld_vec _) (ld_vec _) rfl
  | twist t => exact ld_two rfl (ld_vec _) (ld_vec _) rfl
  | frame F => exact ld_two rfl (ld_rot _) (ld_vec _) rfl
  | vecVel v => exact ld_vecVel v
  | twistVel t => exact ld_two rfl (ld_vecVel _) (ld_vecVel _) rfl
  | rotVel R => exact ld_rotVel R
  | frameVel F => exact ld_two rfl (ld_rotVel _) (ld_vecVel _) rfl

/-- `pickle.loads(pickle.dumps(o))` gives back exactly `o` if its rotations are proper and not within `1e-12` of the gimbal
lock (or exactly in it); in particular every object without a rotation.  Full statement: for every object.  Missing:
`C79_pickle_violated`. -/
theorem C79_pickle_partial (o : PyVal) (h : ∀ R ∈ o.rots, R.OffBand) : PyVal.loads o.dumps = .ok o := by
  have hr : ∀ R : Rot, R.OffBand → rr R = R := by
    rintro R ⟨h1, h2 | ⟨h2, h3⟩⟩
    · exact C06_rpy_roundtrip R h1 h2
    · exact (C06_rpy_roundtrip_gimbal R h1 h2 h3).1
  rw [loads_dumps]
  cases o <;> simp only [PyVal.rots, List.mem_singleton, forall_eq] at h <;> simp only [rb]
  all_goals rw [hr _ h]

/-- For *all* proper rotations the round trip ends with an object that differs by at most `2e-12` in entries of rotations
and nowhere else. -/
theorem C79_pickle_near (o : PyVal) (h : ∀ R ∈ o.rots, R.IsProper) :
    ∃ o', PyVal.loads o.dumps = .ok o' ∧ PyVal.Near (2 / 10 ^ 12) o' o := by
  refine ⟨_, loads_dumps o, ?_⟩
  cases o <;> simp only [PyVal.rots, List.mem_singleton, forall_eq] at h <;> simp only [rb, PyVal.Near]
  · exact C06_rpy_band _ h
  · exact ⟨trivial, C06_rpy_band _ h⟩
  · exact ⟨trivial, C06_rpy_band _ h⟩
  · exact ⟨trivial, trivial, C06_rpy_band _ h⟩

private theorem req {a b e eps : ℝ} (h : |a - b| ≤ e) (he : e < eps) : realEqual a b eps := by
  have := abs_le.mp h
  exact ⟨by linarith, by linarith⟩
private theorem veq (a : Vec) {eps : ℝ} (he : 0 < eps) : Vec.equal a a eps := by
  simp only [Vec.equal, realEqual, sub_self]
  exact ⟨⟨he, by linarith⟩, ⟨he, by linarith⟩, ⟨he, by linarith⟩⟩
private theorem Within.equal {A B : Rot} {e eps : ℝ} (h : A.Within B e) (he : e < eps) : Rot.equal A B eps := by
  obtain ⟨h0, h1, h2, h3, h4, h5, h6, h7, h8⟩ := h
  exact ⟨req h0 he, req h1 he, req h2 he, req h3 he, req h4 he, req h5 he, req h6 he, req h7 he, req h8 he⟩

/-- The round trip ends with an object that the bound `==` takes for equal, for every tolerance above `2e-12` (the
tolerance of the library is `1e-6`). -/
theorem C79_pickle_eq (o : PyVal) (h : ∀ R ∈ o.rots, R.IsProper) (eps : ℝ) (he : 2 / 10 ^ 12 < eps) :
    ∃ o', PyVal.loads o.dumps = .ok o' ∧ PyVal.eq eps o' o := by
  have h0 : 0 < eps := lt_trans (by norm_num) he
  refine ⟨_, loads_dumps o, ?_⟩
  cases o <;> simp only [PyVal.rots, List.mem_singleton, forall_eq] at h <;> simp only [rb, PyVal.eq]
  · exact veq _ h0
  · exact ⟨veq _ h0, veq _ h0⟩
  · exact ⟨veq _ h0, veq _ h0⟩
  · exact Within.equal (C06_rpy_band _ h) he
  · exact ⟨veq _ h0, Within.equal (C06_rpy_band _ h) he⟩
  · exact ⟨veq _ h0, veq _ h0⟩
  · exact ⟨⟨veq _ h0, veq _ h0⟩, ⟨veq _ h0, veq _ h0⟩⟩
  · exact ⟨veq _ h0, Within.equal (C06_rpy_band _ h) he⟩
  · exact ⟨⟨veq _ h0, Within.equal (C06_rpy_band _ h) he⟩, ⟨veq _ h0, veq _ h0⟩⟩

/-- Whatever is pickled, the rotations that come back are proper. -/
theorem C79_pickle_proper (o : PyVal) : ∃ o', PyVal.loads o.dumps = .ok o' ∧ ∀ R ∈ o'.rots, R.IsProper := by
  refine ⟨_, loads_dumps o, ?_⟩
  cases o <;> simp only [rb, PyVal.rots, List.not_mem_nil, List.mem_singleton, forall_eq, false_implies, implies_true]
  all_goals exact C02_rpy _ _ _

/-- **Violation.**  The pickled tuple does not "fully encode the state" of a rotation: a matrix that is not a rotation
(which can be built with the nine-argument constructor or by writing elements) comes back as a different matrix, here
twice the identity as the identity, and there are proper rotations that do not come back exactly. -/
theorem C79_pickle_violated :
    PyVal.loads (PyVal.rot ⟨2, 0, 0, 0, 2, 0, 0, 0, 2⟩).dumps = .ok (.rot ⟨1, 0, 0, 0, 1, 0, 0, 0, 1⟩) ∧
    ∃ R : Rot, R.IsProper ∧ PyVal.loads (PyVal.rot R).dumps ≠ .ok (.rot R) := by
  constructor
  · rw [ld_rot]
    have h1 : atan2 0 2 = 0 := by
      have := Complex.arg_ofReal_of_nonneg (x := 2) (by norm_num)
      exact this
    have hs : sqrt ((2 : ℝ) ^ 2 + 0 ^ 2) = 2 := by
      rw [show (2 : ℝ) ^ 2 + 0 ^ 2 = 2 ^ 2 by norm_num, sqrt_sq (by norm_num)]
    have hp := two_le_pi
    have hn : ¬ (|(0 : ℝ)| > π / 2 - 1 / 10 ^ 12) := by rw [abs_zero]; norm_num; linarith
    have : rr ⟨2, 0, 0, 0, 2, 0, 0, 0, 2⟩ = ⟨1, 0, 0, 0, 1, 0, 0, 0, 1⟩ := by
      simp only [rr, Rot.getRPY, neg_zero, hs, h1]
      rw [if_neg hn]
      simp [Rot.rpy]
    rw [this]
  · obtain ⟨h1, h2⟩ := C06_rpy_band_inexact
    refine ⟨_, h1, ?_⟩
    rw [ld_rot]
    intro h
    injection h with h
    injection h with h
    exact h2 h

/-- The class of an object, `none` for a float. -/
def PyVal.cls : PyVal → Option PyClass
  | .num _ => none
  | .vec _ => some .vec | .wrench _ => some .wrench | .twist _ => some .twist | .rot _ => some .rot | .frame _ => some .frame
  | .vecVel _ => some .vecVel | .twistVel _ => some .twistVel | .rotVel _ => some .rotVel | .frameVel _ => some .frameVel
/-- What the state tuple of a class has to consist of. -/
def PyClass.stateTypes : PyClass → List (Option PyClass)
  | .vec => [none, none, none]
  | .wrench => [some .vec, some .vec]
  | .twist => [some .vec, some .vec]
  | .rot => [none, none, none]
  | .frame => [some .rot, some .vec]
  | .vecVel => [some .vec, some .vec]
  | .twistVel => [some .vecVel, some .vecVel]
  | .rotVel => [some .rot, some .vec]
  | .frameVel => [some .rotVel, some .vecVel]

/-- A state tuple of the wrong size is rejected with `RuntimeError`, one of the right size with an element of the wrong class
with `CastError`; every other tuple gives an object of the class, which has this tuple as its state (for a rotation: which is
proper). -/
theorem C79_setstate (c : PyClass) (l : List PyVal) :
    (l.length ≠ c.stateTypes.length → PyVal.setstate c l = .error .runtimeError) ∧
    (l.length = c.stateTypes.length → l.map PyVal.cls ≠ c.stateTypes → PyVal.setstate c l = .error .castError) ∧
    (l.map PyVal.cls = c.stateTypes → ∃ o, PyVal.setstate c l = .ok o ∧ o.cls = some c ∧
      (c ≠ .rot → o.getstate = .inr (c, l)) ∧ (c = .rot → ∃ R, o = .rot R ∧ R.IsProper)) := by
  refine ⟨?_, ?_, ?_⟩
  · intro h
    rcases l with _ | ⟨a, _ | ⟨b, _ | ⟨d, _ | ⟨e, l⟩⟩⟩⟩ <;> cases c <;> first | rfl | exact absurd rfl h
  · intro h h'
    rcases l with _ | ⟨a, _ | ⟨b, _ | ⟨d, _ | ⟨e, l⟩⟩⟩⟩ <;> cases c <;>
      first
      | (exfalso; simp only [List.length_cons, List.length_nil, PyClass.stateTypes] at h; omega)
      | (cases a <;> cases b <;> first | rfl | exact absurd rfl h' |
          (cases d <;> first | rfl | exact absurd rfl h'))
  · intro h
    rcases l with _ | ⟨a, _ | ⟨b, _ | ⟨d, _ | ⟨e, l⟩⟩⟩⟩ <;> cases c <;>
      simp only [PyClass.stateTypes, List.map_cons, List.map_nil, List.cons.injEq, reduceCtorEq, and_true, and_false,
        List.nil_eq] at h <;>
      (cases a <;> simp only [PyVal.cls, reduceCtorEq, false_and, Option.some.injEq] at h) <;>
      (cases b <;> simp only [PyVal.cls, reduceCtorEq, false_and, and_false, Option.some.injEq] at h) <;>
      first
      | exact ⟨_, rfl, rfl, fun _ => rfl, fun e => by cases e⟩
      | (cases d <;> simp only [PyVal.cls, reduceCtorEq, and_false] at h <;>
          first
          | exact ⟨_, rfl, rfl, fun _ => rfl, fun e => by cases e⟩
          | exact ⟨_, rfl, rfl, fun e => absurd rfl e, fun _ => ⟨_, rfl, C02_rpy _ _ _⟩⟩)

example (v : Vec) : PyVal.loads (PyVal.vec v).dumps = .ok (.vec v) :=
  C79_pickle_partial _ (fun _ h => absurd h List.not_mem_nil)
example : ∃ R : Rot, R.OffBand := by
  refine ⟨⟨0, 0, 1, 0, 1, 0, -1, 0, 0⟩, ?_, Or.inr ⟨rfl, rfl⟩⟩
  have := C02_rpy 0 (π / 2) 0
  simpa [Rot.rpy] using this
example (R : Rot) (h : R.IsProper) : ∃ o', PyVal.loads (PyVal.rot R).dumps = .ok o' ∧ PyVal.eq (1 / 10 ^ 6) o' (.rot R) :=
  C79_pickle_eq _ (fun S hS => by rw [PyVal.rots, List.mem_singleton] at hS; rw [hS]; exact h) _ (by norm_num)
example : PyVal.loads (.obj .vec [.num 1, .num 2]) = .error .runtimeError := by
  simp [PyVal.loads, PyVal.loadsAll, PyVal.setstate, bind, Except.bind, pure, Except.pure]
end KDL
