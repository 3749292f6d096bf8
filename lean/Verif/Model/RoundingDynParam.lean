import Verif.Model.RoundingDyn

/-!
# Coriolis and gravity torques in floating point arithmetic

The arithmetic is that of Model/Rounding.lean.  Citations are relative to `/repo/orocos_kdl/src`.
-/

noncomputable section
namespace KDL
namespace FlD
variable (F : FlD)

/-- `ChainDynParam::JntToCoriolis`, chaindynparam.cpp:127 (see `DynState.coriolis`). -/
def coriolis (d : DynState) (c : Chain) (q qd out : List ℝ) : Option (Int × List ℝ) :=
  F.idRne c d.cor.1 d.cor.2 0 q qd (List.replicate d.jnull 0) (List.replicate d.wnull 0) out

/-- `ChainDynParam::JntToGravity`, chaindynparam.cpp:139 (see `DynState.gravity`). -/
def gravity (d : DynState) (c : Chain) (q out : List ℝ) : Option (Int × List ℝ) :=
  F.idRne c d.grv.1 d.grv.2 d.grav q (List.replicate d.jnull 0) (List.replicate d.jnull 0) (List.replicate d.wnull 0) out

end FlD
end KDL
