import Verif.Model.Frames

/-!
# Hash codes, utilities/hash_combine.h and frames.hpp:1262–1352

`std::size_t` has 64 bits; its arithmetic wraps around.  The hash of a `double` belongs to the standard library and is a
parameter.
-/

namespace KDL

/-- `hash_combine(seed,v)`, utilities/hash_combine.h:21, with the hash `hv` of `v`; the new value of `seed`. -/
def hashCombine (seed hv : UInt64) : UInt64 := seed ^^^ (hv + (0x9e3779b9 : UInt64) + (seed <<< (6 : UInt64)) + (seed >>> (2 : UInt64)))

section
variable (h : ℝ → UInt64)

/-- `std::hash<Vector>`, frames.hpp:1262. -/
def Vec.hash (v : Vec) : UInt64 :=
  let seed : UInt64 := 0
  let seed := hashCombine seed (h v.x)
  let seed := hashCombine seed (h v.y)
  hashCombine seed (h v.z)

/-- `std::hash<Rotation>`, frames.hpp:1274. -/
noncomputable def Rot.hash (r : Rot) : UInt64 :=
  let seed : UInt64 := 0
  let q := r.getQuaternion
  let seed := hashCombine seed (h q.x)
  let seed := hashCombine seed (h q.y)
  let seed := hashCombine seed (h q.z)
  hashCombine seed (h q.w)

/-- `std::hash<Frame>`, frames.hpp:1289. -/
noncomputable def Frame.hash (f : Frame) : UInt64 :=
  let seed : UInt64 := 0
  let seed := hashCombine seed (f.p.hash h)
  hashCombine seed (f.M.hash h)

/-- `std::hash<Wrench>`, frames.hpp:1300. -/
def Wrench.hash (w : Wrench) : UInt64 :=
  let seed : UInt64 := 0
  let seed := hashCombine seed (w.force.hash h)
  hashCombine seed (w.torque.hash h)

/-- `std::hash<Twist>`, frames.hpp:1311. -/
def Twist.hash (t : Twist) : UInt64 :=
  let seed : UInt64 := 0
  let seed := hashCombine seed (t.vel.hash h)
  hashCombine seed (t.rot.hash h)

/-- `std::hash<Vector2>`, frames.hpp:1322. -/
def Vec2.hash (v : Vec2) : UInt64 :=
  let seed : UInt64 := 0
  let seed := hashCombine seed (h v.x)
  hashCombine seed (h v.y)

/-- `std::hash<Rotation2>`, frames.hpp:1333. -/
noncomputable def Rot2D.hash (r : Rot2D) : UInt64 :=
  let seed : UInt64 := 0
  hashCombine seed (h r.getRot)

/-- `std::hash<Frame2>`, frames.hpp:1343. -/
noncomputable def Frame2D.hash (f : Frame2D) : UInt64 :=
  let seed : UInt64 := 0
  let seed := hashCombine seed (f.p.hash h)
  hashCombine seed (f.M.hash h)

end

/-- `Equal(Vector2,Vector2,eps)`, frames.inl:1054. -/
def Vec2.equal (a b : Vec2) (eps : ℝ) : Prop := realEqual a.x b.x eps ∧ realEqual a.y b.y eps

/-! `operator==`: `KDL_USE_EQUAL` is defined (utilities/kdl-config.h:33), so that it is `Equal` with the default
tolerance.  `Rotation2` and `Frame2` have no `operator==`. -/

/-- `operator==(Vector,Vector)`, frames.inl:1288. -/
def Vec.eqOp (a b : Vec) : Prop := Vec.equal a b epsilon
/-- `operator==(Rotation,Rotation)`, frames.cpp:430. -/
def Rot.eqOp (a b : Rot) : Prop := Rot.equal a b epsilon
/-- `operator==(Frame,Frame)`, frames.inl:1275. -/
def Frame.eqOp (a b : Frame) : Prop := Frame.equal a b epsilon
/-- `operator==(Wrench,Wrench)`, frames.inl:1315. -/
def Wrench.eqOp (a b : Wrench) : Prop := Wrench.equal a b epsilon
/-- `operator==(Twist,Twist)`, frames.inl:1302. -/
def Twist.eqOp (a b : Twist) : Prop := Twist.equal a b epsilon
/-- `operator==(Vector2,Vector2)`, frames.inl:1331. -/
def Vec2.eqOp (a b : Vec2) : Prop := Vec2.equal a b epsilon

end KDL
