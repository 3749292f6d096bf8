import Verif.Model.FrameVel

/-! # Diagonal stiffness, stiffness.hpp, and random objects, utilities/utility.h:274–280, frames.inl:1214–1270 -/

namespace KDL

/-- `Stiffness`, stiffness.hpp:36: three entries for translations, three for rotations. -/
@[ext] structure Stiffness where
  data : Fin 6 → ℝ

namespace Stiffness

/-- `Stiffness()`, stiffness.hpp:39. -/
def zero : Stiffness := ⟨![0, 0, 0, 0, 0, 0]⟩
/-- `Stiffness(double*)`, stiffness.hpp:47, with the values the pointer refers to; fewer than six of them: `none`,
undefined. -/
def ofArray (d : List ℝ) : Option Stiffness := do
  let d0 ← d[0]?
  let d1 ← d[1]?
  let d2 ← d[2]?
  let d3 ← d[3]?
  let d4 ← d[4]?
  let d5 ← d[5]?
  pure ⟨![d0, d1, d2, d3, d4, d5]⟩
/-- `Stiffness(x,y,z,rx,ry,rz)`, stiffness.hpp:55. -/
def mk6 (x y z rx ry rz : ℝ) : Stiffness := ⟨![x, y, z, rx, ry, rz]⟩
/-- `operator[](int)`, stiffness.hpp:63, :66.  There is no check of the index: `none`, undefined. -/
def get (s : Stiffness) (i : ℤ) : Option ℝ := if h : 0 ≤ i ∧ i < 6 then some (s.data ⟨i.toNat, by omega⟩) else none

/-- `operator*(Stiffness,Twist)`, stiffness.hpp:81. -/
def mulTwist (s : Stiffness) (t : Twist) : Wrench :=
  ⟨⟨s.data 0 * t.vel.x, s.data 1 * t.vel.y, s.data 2 * t.vel.z⟩, ⟨s.data 3 * t.rot.x, s.data 4 * t.rot.y, s.data 5 * t.rot.z⟩⟩

/-- A division of doubles; `none`: by zero, the result is infinite or not a number. -/
noncomputable def quo (x y : ℝ) : Option ℝ := if y = 0 then none else some (x / y)

/-- `Stiffness::Inverse(Wrench)`, stiffness.hpp:69.  `none`: some component is not a number or infinite. -/
noncomputable def inverse (s : Stiffness) (w : Wrench) : Option Twist := do
  let t0 ← quo w.force.x (s.data 0)
  let t1 ← quo w.force.y (s.data 1)
  let t2 ← quo w.force.z (s.data 2)
  let t3 ← quo w.torque.x (s.data 3)
  let t4 ← quo w.torque.y (s.data 4)
  let t5 ← quo w.torque.z (s.data 5)
  pure ⟨⟨t0, t1, t2⟩, ⟨t3, t4, t5⟩⟩

/-- `operator+(Stiffness,Stiffness)`, stiffness.hpp:92. -/
def add (a b : Stiffness) : Stiffness :=
  ⟨![a.data 0 + b.data 0, a.data 1 + b.data 1, a.data 2 + b.data 2, a.data 3 + b.data 3, a.data 4 + b.data 4, a.data 5 + b.data 5]⟩

end Stiffness

/-! ## Random objects

`ω n` is the value of the `n`-th call of `rand()`, divided by `RAND_MAX`; the state is the number of calls made so far. -/

namespace Random
variable (ω : ℕ → ℝ)

/-- `rand()/(double)RAND_MAX` -/
def rand : StateM ℕ ℝ := fun n => (ω n, n + 1)

/-- `random(double&)`, utilities/utility.h:274. -/
noncomputable def random : StateM ℕ ℝ := do
  let r ← rand ω
  pure (1.98 * r - 0.99)
/-- `posrandom(double&)`, utilities/utility.h:278. -/
noncomputable def posrandom : StateM ℕ ℝ := do
  let r ← rand ω
  pure (0.001 + 0.99 * r)

/-- `random(Vector&)`, frames.inl:1214. -/
noncomputable def randomVec : StateM ℕ Vec := do
  let x ← random ω
  let y ← random ω
  let z ← random ω
  pure ⟨x, y, z⟩
/-- `random(Twist&)`, frames.inl:1219. -/
noncomputable def randomTwist : StateM ℕ Twist := do
  let rot ← randomVec ω
  let vel ← randomVec ω
  pure ⟨vel, rot⟩
/-- `random(Wrench&)`, frames.inl:1223. -/
noncomputable def randomWrench : StateM ℕ Wrench := do
  let torque ← randomVec ω
  let force ← randomVec ω
  pure ⟨force, torque⟩
/-- `random(Rotation&)`, frames.inl:1228. -/
noncomputable def randomRot : StateM ℕ Rot := do
  let alfa ← random ω
  let beta ← random ω
  let gamma ← random ω
  pure (Rot.eulerZYX alfa beta gamma)
/-- `random(Frame&)`, frames.inl:1238. -/
noncomputable def randomFrame : StateM ℕ Frame := do
  let M ← randomRot ω
  let p ← randomVec ω
  pure ⟨M, p⟩
/-- `posrandom(Vector&)`, frames.inl:1243. -/
noncomputable def posrandomVec : StateM ℕ Vec := do
  let x ← posrandom ω
  let y ← posrandom ω
  let z ← posrandom ω
  pure ⟨x, y, z⟩
/-- `posrandom(Twist&)`, frames.inl:1248. -/
noncomputable def posrandomTwist : StateM ℕ Twist := do
  let rot ← posrandomVec ω
  let vel ← posrandomVec ω
  pure ⟨vel, rot⟩
/-- `posrandom(Wrench&)`, frames.inl:1252. -/
noncomputable def posrandomWrench : StateM ℕ Wrench := do
  let torque ← posrandomVec ω
  let force ← posrandomVec ω
  pure ⟨force, torque⟩
/-- `posrandom(Rotation&)`, frames.inl:1257. -/
noncomputable def posrandomRot : StateM ℕ Rot := do
  let alfa ← posrandom ω
  let beta ← posrandom ω
  let gamma ← posrandom ω
  pure (Rot.eulerZYX alfa beta gamma)
/-- `posrandom(Frame&)`, frames.inl:1267: it calls `random`. -/
noncomputable def posrandomFrame : StateM ℕ Frame := do
  let M ← randomRot ω
  let p ← randomVec ω
  pure ⟨M, p⟩
/-- `posrandom(Stiffness&)`, stiffness.hpp:102, and `random(Stiffness&)`, :111. -/
noncomputable def posrandomStiffness : StateM ℕ Stiffness := do
  let d0 ← posrandom ω
  let d1 ← posrandom ω
  let d2 ← posrandom ω
  let d3 ← posrandom ω
  let d4 ← posrandom ω
  let d5 ← posrandom ω
  pure ⟨![d0, d1, d2, d3, d4, d5]⟩

/-- `random(VectorVel&)`, framevel.hpp:372. -/
noncomputable def randomVecVel : StateM ℕ VecVel := do
  let p ← randomVec ω
  let v ← randomVec ω
  pure ⟨p, v⟩
/-- `random(TwistVel&)`, framevel.hpp:376. -/
noncomputable def randomTwistVel : StateM ℕ TwistVel := do
  let vel ← randomVecVel ω
  let rot ← randomVecVel ω
  pure ⟨vel, rot⟩
/-- `random(RotationVel&)`, framevel.hpp:381. -/
noncomputable def randomRotVel : StateM ℕ RotVel := do
  let R ← randomRot ω
  let w ← randomVec ω
  pure ⟨R, w⟩
/-- `random(FrameVel&)`, framevel.hpp:386. -/
noncomputable def randomFrameVel : StateM ℕ FrameVel := do
  let M ← randomRotVel ω
  let p ← randomVecVel ω
  pure ⟨M, p⟩
/-- `posrandom(VectorVel&)`, framevel.hpp:390. -/
noncomputable def posrandomVecVel : StateM ℕ VecVel := do
  let p ← posrandomVec ω
  let v ← posrandomVec ω
  pure ⟨p, v⟩
/-- `posrandom(RotationVel&)`, framevel.hpp:399. -/
noncomputable def posrandomRotVel : StateM ℕ RotVel := do
  let R ← posrandomRot ω
  let w ← posrandomVec ω
  pure ⟨R, w⟩
/-- `posrandom(FrameVel&)`, framevel.hpp:404. -/
noncomputable def posrandomFrameVel : StateM ℕ FrameVel := do
  let M ← posrandomRotVel ω
  let p ← posrandomVecVel ω
  pure ⟨M, p⟩
/-- `posrandom(TwistVel&)`, framevel.hpp:394. -/
noncomputable def posrandomTwistVel : StateM ℕ TwistVel := do
  let vel ← posrandomVecVel ω
  let rot ← posrandomVecVel ω
  pure ⟨vel, rot⟩
/-- `random(doubleVel&)`, framevel.hpp:45. -/
noncomputable def randomDoubleVel : StateM ℕ Rall1d := do
  let t ← random ω
  let grad ← random ω
  pure ⟨t, grad⟩
/-- `posrandom(doubleVel&)`, framevel.hpp:49. -/
noncomputable def posrandomDoubleVel : StateM ℕ Rall1d := do
  let t ← posrandom ω
  let grad ← posrandom ω
  pure ⟨t, grad⟩

end Random
end KDL
