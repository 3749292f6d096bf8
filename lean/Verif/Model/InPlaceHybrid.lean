import Verif.Model.InPlace
import Verif.Model.HybridDynamics

/-!
# Model of `chainhdsolver_vereshchagin.cpp` on arrays that may be the same object

Citations are relative to `/repo/orocos_kdl/src`.  As in `Model/InPlace.lean`: the `JntArray` arguments are addresses, and
every read takes what the array holds at that moment.  The first three sweeps write to no argument and are taken over
unchanged; `total_torques` is a member and stays a value.
-/

noncomputable section
namespace KDL
open Matrix

/-- What the final sweep leaves behind: the arrays, `total_torques` and the `acc` of the segments. -/
structure HdStoreOut where
  h : JntStore
  tt : List ℝ
  acc : List Twist

/-- `final_upwards_sweep`, chainhdsolver_vereshchagin.cpp:293, statement by statement: line 332 assigns
`constraint_torques(j)`, lines 336 and 339 read it, line 343 assigns `q_dotdot(j)`, line 345 reads it. -/
def hdFinalAt {nc : ℕ} (nu : Fin nc → ℝ) (qdd ct : ℕ) : List (HdArt nc) → ℕ → Twist → HdStoreOut → Option HdStoreOut
  | [], _, _, o => some o
  | s :: ss, j, ap, o => do
    let pf := -(s.link.Z.dot (s.P * ap))
    let l1 ← setJnt (o.h ct) j (-(s.link.Z.dot (hdE s.E nu)))
    let h1 := o.h.put ct l1
    let c1 ← getJnt (h1 ct) j
    let tt ← setJnt o.tt j (s.u + pf + c1)
    let c2 ← getJnt (h1 ct) j
    let l2 ← setJnt (h1 qdd) j (s.u / s.D + pf / s.D + c2 / s.D)
    let h2 := h1.put qdd l2
    let x ← getJnt (h2 qdd) j
    let acc := s.link.F.invTwist (ap + x • s.link.Z + s.link.C)
    hdFinalAt nu qdd ct ss (if s.link.seg.moving then j + 1 else j) acc ⟨h2, tt, o.acc ++ [acc]⟩

/-- Outcome of a call on objects. -/
inductive HdResultAt (nc : ℕ)
  /-- a size check failed; nothing was written -/
  | err (code : Int)
  /-- the results hold infinities or NaNs: one of the divisors `D` is zero -/
  | nan
  /-- return code 0; the constraint force magnitudes `nu`, the poses `F_base` of the segments and the outputs -/
  | ok (nu : Fin nc → ℝ) (base : List Frame) (out : HdStoreOut)

open Classical in
/-- `ChainHdSolver_Vereshchagin::CartToJnt`, chainhdsolver_vereshchagin.cpp:55, on the objects `q`, `q_dot`, `q_dotdot`, `beta`,
`ff_torques` and `constraint_torques`.  `tt0` are the old contents of `total_torques`. -/
def HdState.cartToJntAt (s : HdState) (c : Chain) (svd : (n : ℕ) → Matrix (Fin n) (Fin n) ℝ → SvdOut n n) (tt0 : ℕ → ℝ)
    (q qd qdd : ℕ) (alfa : Jac) (beta : ℕ) (fext : List Wrench) (ff ct : ℕ) (h : JntStore) : Option (HdResultAt s.nc) :=
  let nj := c.nrOfJoints
  if s.ns ≠ c.nrOfSegments then some (.err E_NOT_UP_TO_DATE)
  else if (h q).length ≠ nj ∨ (h qd).length ≠ nj ∨ (h qdd).length ≠ nj ∨ (h ff).length ≠ nj ∨ (h ct).length ≠ nj ∨
      fext.length ≠ s.ns then some (.err E_SIZE_MISMATCH)
  else if alfa.length ≠ s.nc ∨ (h beta).length ≠ s.nc then some (.err E_SIZE_MISMATCH)
  else do
    let segs := c.segments.take s.ns
    let links ← hdUp (h q) (h qd) fext segs 0 0 1 none
    let ffs ← hdFf (h ff) segs.reverse ((nj : ℤ) - 1)
    let Ft : Frame := (links.getLast?.map (·.base)).getD 1
    let EN : Fin s.nc → Wrench := fun k =>
      let t := alfa.getD k 0
      Ft.M.inv * (⟨t.vel, t.rot⟩ : Wrench)
    let arts := hdDown EN (links.zip ffs.reverse)
    let nu := hdNu svd s.acc (hdBase EN arts) (fun k => (h beta).getD k 0)
    let out ← hdFinalAt nu qdd ct arts 0 s.acc ⟨h, (List.range s.tt).map tt0, []⟩
    if ∃ a ∈ arts, a.D = 0 then some .nan else some (.ok nu (links.map (·.base)) out)

end KDL
