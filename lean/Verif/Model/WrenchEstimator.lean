import Verif.Model.Dynamics
import Verif.Model.ChainKin
import Verif.Model.IkVel

/-!
# Model of `ChainExternalWrenchEstimator` (chainexternalwrenchestimator.cpp)

The estimator keeps a reference to the chain, so the chain is an argument of every call.  `svd_eigen_HH` is a parameter, as
in `Verif.Model.IkVel`.  The working arrays that every call writes before it reads them (`coriolis_torque`, `gravity_torque`,
`total_torque`, `estimated_ext_torque`, the Jacobian, `U`, `V`, `S`, `tmp`) are not part of the state; they have the size
`nj` at all times.
-/

noncomputable section
namespace KDL
open Matrix Finset

/-- `external_wrench(i) = estimated_wrench(i)`, chainexternalwrenchestimator.cpp:192, with `Wrench::operator()` (frames.inl:223). -/
def Wrench.ofComp (w : Fin 6 → ℝ) : Wrench := ⟨⟨w 0, w 1, w 2⟩, ⟨w 3, w 4, w 5⟩⟩

/-- Members of the class that outlive a call.  `freq` stands for `DT_SEC = 1/sample_frequency`; `locked` is the number of
joints known to the Jacobian solver (none of them locked). -/
structure EstState where
  freq : ℝ
  filter : ℝ
  eps : ℝ
  nj : ℕ
  ns : ℕ
  mass : JMat
  prev : JMat
  p0 : List ℝ
  integral : List ℝ
  filtered : List ℝ
  gain : List ℝ
  dyn : DynState
  locked : ℕ

/-- A `JntSpaceInertiaMatrix` fresh from its constructor (jntspaceinertiamatrix.cpp:30) is zero. -/
def JMat.zero (n : ℕ) : JMat := ⟨n, fun _ _ => 0⟩
/-- `JntSpaceInertiaMatrix::resize`, jntspaceinertiamatrix.cpp:53: a new size leaves the entries uninitialised (`junk`). -/
def JMat.resize (H : JMat) (n : ℕ) (junk : ℕ → ℕ → ℝ) : JMat := if H.n = n then H else ⟨n, junk⟩
/-- `conservativeResizeLike` (Eigen) to a constant vector: the old entries are kept, new ones are `x`. -/
def vecResize (l : List ℝ) (n : ℕ) (x : ℝ) : List ℝ := l.take n ++ List.replicate (n - l.length) x

namespace EstState
/-- Constructor, chainexternalwrenchestimator.cpp:25. -/
def new (c : Chain) (grav : Vec) (freq gain filter eps : ℝ) : EstState :=
  let n := c.nrOfJoints
  { freq, filter, eps, nj := n, ns := c.nrOfSegments, mass := .zero n, prev := .zero n, p0 := List.replicate n 0,
    integral := List.replicate n 0, filtered := List.replicate n 0, gain := List.replicate n gain, dyn := .new c grav,
    locked := n }

/-- `updateInternalDataStructures`, chainexternalwrenchestimator.cpp:45.  `none`: `ESTIMATION_GAIN(0)` is read although
there are no entries. -/
def update (s : EstState) (c : Chain) (junk1 junk2 : ℕ → ℕ → ℝ) : Option EstState := do
  let n := c.nrOfJoints
  let g ← s.gain[0]?
  some { s with
    nj := n, ns := c.nrOfSegments, mass := s.mass.resize n junk1, prev := s.prev.resize n junk2
    p0 := jntResize s.p0 n, integral := jntResize s.integral n, filtered := jntResize s.filtered n
    gain := vecResize s.gain n g, dyn := s.dyn.update c, locked := n }

/-- The product of an inertia matrix and a joint array. -/
def mulVec (H : JMat) (v : List ℝ) : List ℝ := (List.range H.n).map fun k => ∑ l ∈ range H.n, H.d k l * v.getD l 0

/-- `setInitialMomentum`, chainexternalwrenchestimator.cpp:74. -/
def setInitialMomentum (s : EstState) (c : Chain) (q qd : List ℝ) : Option (Int × EstState) :=
  if q.length ≠ s.nj ∨ qd.length ≠ s.nj then some (E_SIZE_MISMATCH, s)
  else do
    let m ← s.dyn.mass c q s.mass
    if m.1 ≠ E_NOERROR then some (-102, { s with mass := m.2 })
    else some (E_NOERROR, { s with
      mass := m.2, p0 := mulVec m.2 qd, integral := List.replicate s.nj 0, filtered := List.replicate s.nj 0 })

/-- The observer, chainexternalwrenchestimator.cpp:139–156. -/
def observe (s : EstState) (M : JMat) (C G qd τ : List ℝ) : EstState :=
  let dt := 1 / s.freq
  let v := fun l : List ℝ => fun k => l.getD k 0
  let mdot : JMat := ⟨s.nj, fun k l => (M.d k l - s.prev.d k l) / dt⟩
  let total := (List.range s.nj).map fun k => v τ k - v G k - v C k + v (mulVec mdot qd) k
  let integral := (List.range s.nj).map fun k => v s.integral k + (v total k + v s.filtered k) * dt
  let est := (List.range s.nj).map fun k => v s.gain k * (v (mulVec M qd) k - v integral k - v s.p0 k)
  { s with
    mass := M, prev := M, integral
    filtered := (List.range s.nj).map fun k => s.filter * v s.filtered k + (1 - s.filter) * v est k }

/-- Outcome of `JntToExtWrench`. -/
inductive Result
  /-- an error code; the wrench was not written -/
  | err (code : Int) (s : EstState)
  /-- return code 0, but the sampling frequency is zero or a zero singular value was inverted: infinities or NaNs -/
  | nonfinite
  | ok (w : Wrench) (s : EstState)

open Classical in
/-- `JntToExtWrench`, chainexternalwrenchestimator.cpp:106. -/
def jntToExtWrench (s : EstState) (c : Chain) (svd : (n : ℕ) → Matrix (Fin n) (Fin 6) ℝ → SvdOut n 6) (q qd τ : List ℝ) :
    Option Result :=
  if s.nj ≠ c.nrOfJoints ∨ s.ns ≠ c.nrOfSegments then some (.err E_NOT_UP_TO_DATE s)
  else if q.length ≠ s.nj ∨ qd.length ≠ s.nj ∨ τ.length ≠ s.nj then some (.err E_SIZE_MISMATCH s)
  else do
    let m ← s.dyn.mass c q s.mass
    if m.1 ≠ E_NOERROR then some (.err (-102) { s with mass := m.2 })
    else do
    let C ← s.dyn.coriolis c q qd (List.replicate s.nj 0)
    if C.1 ≠ E_NOERROR then some (.err (-103) { s with mass := m.2 })
    else do
    let G ← s.dyn.gravity c q (List.replicate s.nj 0)
    if G.1 ≠ E_NOERROR then some (.err (-104) { s with mass := m.2 })
    else if s.freq = 0 then some .nonfinite
    else do
    let s' := s.observe m.2 C.2 G.2 qd τ
    let F ← fkPos c q (-1)
    if F.1 ≠ E_NOERROR then some (.err (-100) s')
    else do
    let J ← jntToJac c (List.replicate s.locked false) q (Jac.zeros s.nj) (-1)
    if J.1 ≠ E_NOERROR then some (.err (-101) s')
    else
    let r := svd s.nj (jacMat s.nj (J.2.changeBase F.2.M.inv))ᵀ
    if r.code ≠ E_NOERROR then some (.err E_SVD_FAILED s')
    else if ∃ i, ¬ |r.S i| < s.eps ∧ r.S i = 0 then some .nonfinite
    else
    let Sinv := fun i => if |r.S i| < s.eps then 0 else 1 / r.S i
    some (.ok (.ofComp ((r.V * diagonal Sinv * r.Uᵀ) *ᵥ fun k => s'.filtered.getD k 0)) s')

/-- `getEstimatedJntTorque`, chainexternalwrenchestimator.cpp:198: `none` is the failing assertion. -/
def getEstimatedJntTorque (s : EstState) (outLen : ℕ) : Option (List ℝ) :=
  if outLen = s.filtered.length then some s.filtered else none
end EstState

end KDL
