import Verif.Model.Chain

/-!
# The robots of the models directory, models/puma560.cpp and models/kukaLWR_DHnew.cpp

`PI_2` (utilities/utility.cxx:17) is taken to be `π / 2`; decimal literals are taken to be the numbers they denote.
-/

noncomputable section
namespace KDL

/-- `Joint(type)`, joint.hpp:77 with its default arguments (scale 1, the rest 0), joint.cpp:36. -/
def Joint.ofType (type : JointType) : CtorResult Joint := Joint.mk' "NoName" type 1 0 0 0 0
/-- The object constructed by `Joint(type)` for a type other than `RotAxis`, `TransAxis`. -/
def Joint.simple (type : JointType) : Joint := ⟨"NoName", type, 1, 0, 0, 0, 0, 0, 0⟩

/-- `Segment(joint,f_tip,I)`, segment.hpp:75, segment.cpp:31. -/
def Segment.ofJoint (joint : Joint) (f_tip : Frame) (I : RBI) : Segment := Segment.mk' "NoName" joint f_tip I
/-- `Segment()`, segment.hpp:75: joint `Fixed`, frame `Identity`, inertia `Zero`. -/
def Segment.default : Segment := Segment.ofJoint (.simple .Fixed) 1 RBI.zero

/-- `Puma560()`, models/puma560.cpp:27. -/
def puma560 : Chain :=
  let c := Chain.empty
  let c := c.addSegment .default
  let c := c.addSegment (.ofJoint (.simple .RotZ) (Frame.dh 0 (Real.pi / 2) 0 0)
    (RBI.ofCog 0 0 (rotationalInertia 0 0.35 0 0 0 0)))
  let c := c.addSegment (.ofJoint (.simple .RotZ) (Frame.dh 0.4318 0 0 0)
    (RBI.ofCog 17.4 ⟨-0.3638, 0.006, 0.2275⟩ (rotationalInertia 0.13 0.524 0.539 0 0 0)))
  let c := c.addSegment .default
  let c := c.addSegment (.ofJoint (.simple .RotZ) (Frame.dh 0.0203 (-(Real.pi / 2)) 0.15005 0)
    (RBI.ofCog 4.8 ⟨-0.0203, -0.0141, 0.070⟩ (rotationalInertia 0.066 0.086 0.0125 0 0 0)))
  let c := c.addSegment (.ofJoint (.simple .RotZ) (Frame.dh 0 (Real.pi / 2) 0.4318 0)
    (RBI.ofCog 0.82 ⟨0, 0.019, 0⟩ (rotationalInertia 1.8e-3 1.3e-3 1.8e-3 0 0 0)))
  let c := c.addSegment .default
  let c := c.addSegment .default
  let c := c.addSegment (.ofJoint (.simple .RotZ) (Frame.dh 0 (-(Real.pi / 2)) 0 0)
    (RBI.ofCog 0.34 0 (rotationalInertia 0.3e-3 0.4e-3 0.3e-3 0 0 0)))
  let c := c.addSegment (.ofJoint (.simple .RotZ) (Frame.dh 0 0 0 0)
    (RBI.ofCog 0.09 ⟨0, 0, 0.032⟩ (rotationalInertia 0.15e-3 0.15e-3 0.04e-3 0 0 0)))
  c.addSegment .default

/-- The angle written `1.5707963` in models/kukaLWR_DHnew.cpp. -/
def quarter : ℝ := 1.5707963

/-- `KukaLWR_DHnew()`, models/kukaLWR_DHnew.cpp:26. -/
def kukaLWR : Chain :=
  let c := Chain.empty
  let c := c.addSegment (.ofJoint (.simple .Fixed) (Frame.dhCraig 0 0 0.31 0) RBI.zero)
  let c := c.addSegment (.ofJoint (.simple .RotZ) (Frame.dhCraig 0 quarter 0 0)
    ((Frame.dhCraig 0 quarter 0 0).inv * RBI.ofCog 2 0 (rotationalInertia 0 0 0.0115343 0 0 0)))
  let c := c.addSegment (.ofJoint (.simple .RotZ) (Frame.dhCraig 0 (-quarter) 0.4 0)
    ((Frame.dhCraig 0 (-quarter) 0.4 0).inv * RBI.ofCog 2 ⟨0, -0.3120511, -0.0038871⟩
      (rotationalInertia (-0.5471572) (-0.0000302) (-0.5423253) 0 0 0.0018828)))
  let c := c.addSegment (.ofJoint (.simple .RotZ) (Frame.dhCraig 0 (-quarter) 0 0)
    ((Frame.dhCraig 0 (-quarter) 0 0).inv * RBI.ofCog 2 ⟨0, -0.0015515, 0⟩
      (rotationalInertia 0.0063507 0 0.0107804 0 0 (-0.0005147))))
  let c := c.addSegment (.ofJoint (.simple .RotZ) (Frame.dhCraig 0 quarter 0.39 0)
    ((Frame.dhCraig 0 quarter 0.39 0).inv * RBI.ofCog 2 ⟨0, 0.5216809, 0⟩
      (rotationalInertia (-1.0436952) 0 (-1.0392780) 0 0 0.0005324)))
  let c := c.addSegment (.ofJoint (.simple .RotZ) (Frame.dhCraig 0 quarter 0 0)
    ((Frame.dhCraig 0 quarter 0 0).inv * RBI.ofCog 2 ⟨0, 0.0119891, 0⟩
      (rotationalInertia 0.0036654 0 0.0060429 0 0 0.0004226)))
  let c := c.addSegment (.ofJoint (.simple .RotZ) (Frame.dhCraig 0 (-quarter) 0 0)
    ((Frame.dhCraig 0 (-quarter) 0 0).inv * RBI.ofCog 2 ⟨0, 0.0080787, 0⟩
      (rotationalInertia 0.0010431 0 0.0036376 0 0 0.0000101)))
  c.addSegment (.ofJoint (.simple .RotZ) 1 (RBI.ofCog 2 0 (rotationalInertia 0.000001 0 0.0001203 0 0 0)))

end KDL
