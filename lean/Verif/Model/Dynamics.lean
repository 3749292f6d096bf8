import Verif.Model.ChainKin
import Verif.Model.Inertia

/-!
# Model of the chain dynamics solvers

`chainidsolver_recursive_newton_euler.cpp`, `chaindynparam.cpp`, `utilities/ldl_solver_eigen.cpp`,
`chainfdsolver_recursive_newton_euler.cpp`.  All citations are relative to `/repo/orocos_kdl/src`.

`JntArray`s are lists of reals; a read or write outside a list is undefined behaviour (`none`).  The solvers hold a
reference to the caller's `Chain` and remember the numbers of joints and segments it had when they were constructed or
last updated; both are parameters here.  As in `Model/ChainKin`, `chain.getSegment(i)` for `i < ns` runs over
`segments.take ns`.  The per-segment vectors `X`, `S`, `v`, `a`, `f`, `Ic` (all resized to `ns`, written at `i` before
being read at `i`) are a list of records.  Output arguments are assumed not to be the same object as an input.
-/

noncomputable section

namespace KDL

/-- Write `v(k)` of a `JntArray`; the index is an `unsigned` that may have wrapped below zero, which is out of bounds. -/
def setJnt (l : List ℝ) (k : ℤ) (x : ℝ) : Option (List ℝ) :=
  if 0 ≤ k ∧ k < l.length then some (l.set k.toNat x) else none

/-- Read `v(k)` with such an index. -/
def getJnt (l : List ℝ) (k : ℤ) : Option ℝ := if 0 ≤ k then l[k.toNat]? else none

/-! ## Recursive Newton-Euler -/

/-- Entry `i` of the vectors `X`, `S`, `v`, `a`, `f` (chainidsolver_recursive_newton_euler.hpp:70–74) with the segment. -/
structure Link where
  seg : Segment
  X : Frame
  S : Twist
  v : Twist
  a : Twist
  f : Wrench

/-- Forward sweep, chainidsolver_recursive_newton_euler.cpp:57–88.  `prev` holds `v[i-1]`, `a[i-1]`; it is `none` for
`i == 0`. -/
def rneFwd (ag : Twist) (q qd qdd : List ℝ) (fext : List Wrench) :
    List Segment → ℕ → ℕ → Option (Twist × Twist) → Option (List Link)
  | [], _, _, _ => some []
  | s :: ss, i, j, prev => do
    let (q_, qdot_, qdotdot_, j') ← (if s.moving then do
        let a ← q[j]?
        let b ← qd[j]?
        let c ← qdd[j]?
        some (a, b, c, j + 1)
      else some (0, 0, 0, j) : Option (ℝ × ℝ × ℝ × ℕ))
    let X := s.pose q_
    let vj := X.M.invTwist (s.twist q_ qdot_)
    let S := X.M.invTwist (s.twist q_ 1)
    let (v, a) := (match prev with
      | none => (vj, X.invTwist ag + qdotdot_ • S + vj * vj)
      | some (v0, a0) =>
        let v := X.invTwist v0 + vj
        (v, X.invTwist a0 + qdotdot_ • S + v * vj) : Twist × Twist)
    let fe ← fext[i]?
    let f := s.I * a + v * (s.I * v) - fe
    let rest ← rneFwd ag q qd qdd fext ss (i + 1) j' (some (v, a))
    some (⟨s, X, S, v, a, f⟩ :: rest)

/-- Backward sweep, chainidsolver_recursive_newton_euler.cpp:90–100, over the links from the last to the first.
`carry` is the wrench `X[i+1]*f[i+1]` that the previous iteration added to `f[i]`. -/
def rneBack (qdd : List ℝ) : List Link → ℤ → Option Wrench → List ℝ → Option (List ℝ)
  | [], _, _, τ => some τ
  | l :: ls, j, carry, τ =>
    let f := match carry with | none => l.f | some w => l.f + w
    if l.seg.moving then do
      let qddj ← getJnt qdd j
      let τ' ← setJnt τ j (l.S.dot f + l.seg.joint.inertia * qddj)
      rneBack qdd ls (j - 1) (some (l.X * f)) τ'
    else rneBack qdd ls j (some (l.X * f)) τ

/-- `ChainIdSolver_RNE::CartToJnt`, chainidsolver_recursive_newton_euler.cpp:45, with `ag = -Twist(grav, 0)` from the
constructor (:31).  Result: return code and `torques`. -/
def idRne (c : Chain) (nj ns : ℕ) (grav : Vec) (q qd qdd : List ℝ) (fext : List Wrench) (τ : List ℝ) :
    Option (Int × List ℝ) :=
  if nj ≠ c.nrOfJoints ∨ ns ≠ c.nrOfSegments then some (E_NOT_UP_TO_DATE, τ)
  else if q.length ≠ nj ∨ qd.length ≠ nj ∨ qdd.length ≠ nj ∨ τ.length ≠ nj ∨ fext.length ≠ ns then
    some (E_SIZE_MISMATCH, τ)
  else do
    let ls ← rneFwd (-⟨grav, 0⟩) q qd qdd fext (c.segments.take ns) 0 0 none
    let τ' ← rneBack qdd ls.reverse ((nj : ℤ) - 1) none τ
    some (E_NOERROR, τ')

/-! ## Joint-space inertia matrix -/

/-- `KDL::JntSpaceInertiaMatrix`, jntspaceinertiamatrix.hpp:42: a square matrix of size `n`.  Entries outside the
square are never read or written. -/
structure JMat where
  n : ℕ
  d : ℕ → ℕ → ℝ

namespace JMat
/-- Write `H(k,j)`; both indices may have wrapped below zero. -/
def set (H : JMat) (k j : ℤ) (x : ℝ) : Option JMat :=
  if (0 ≤ k ∧ k < H.n) ∧ (0 ≤ j ∧ j < H.n) then
    some ⟨H.n, fun a b => if a = k.toNat ∧ b = j.toNat then x else H.d a b⟩
  else none
/-- Read `H(k,j)`. -/
def get (H : JMat) (k j : ℤ) : Option ℝ :=
  if (0 ≤ k ∧ k < H.n) ∧ (0 ≤ j ∧ j < H.n) then some (H.d k.toNat j.toNat) else none
end JMat

/-- Entry `i` of the vectors `X`, `S` and the initial `Ic` of chaindynparam.hpp:66–69 with the segment. -/
structure MLink where
  seg : Segment
  X : Frame
  S : Twist

/-- Forward sweep, chaindynparam.cpp:72–88. -/
def massFwd (q : List ℝ) : List Segment → ℕ → Option (List MLink)
  | [], _ => some []
  | s :: ss, k => do
    let (q_, k') ← (if s.moving then do
        let a ← q[k]?
        some (a, k + 1)
      else some (0, k) : Option (ℝ × ℕ))
    let X := s.pose q_
    let rest ← massFwd q ss k'
    some (⟨s, X, X.M.invTwist (s.twist q_ 1)⟩ :: rest)

/-- Inner loop, chaindynparam.cpp:110–122: `X` is `X[l]` of the current segment, the list holds the segments before it,
nearest first; `j` counts the joints down. -/
def massInner (k : ℤ) : Frame → List MLink → ℤ → Wrench → JMat → Option JMat
  | _, [], _, _, H => some H
  | X, p :: ps, j, F, H =>
    let F' := X * F
    if p.seg.moving then do
      let H1 ← H.set k (j - 1) (p.S.dot F')
      let h ← H1.get k (j - 1)
      let H2 ← H1.set (j - 1) k h
      massInner k p.X ps (j - 1) F' H2
    else massInner k p.X ps j F' H

/-- Outer loop, chaindynparam.cpp:92–126, over the segments from the last to the first; `carry` is `X[i+1]*Ic[i+1]`,
added to `Ic[i]` by the previous iteration. -/
def massOuter : List MLink → ℤ → Option ABI → JMat → Option JMat
  | [], _, _, H => some H
  | l :: ls, k, carry, H =>
    let Ic : ABI := match carry with | none => ABI.ofRBI l.seg.I | some w => ABI.ofRBI l.seg.I + w
    let F : Wrench := Ic * l.S
    if l.seg.moving then do
      let H1 ← H.set k k (l.S.dot F)
      let h ← H1.get k k
      let H2 ← H1.set k k (h + l.seg.joint.inertia)
      let H3 ← massInner k l.X ls k F H2
      massOuter ls (k - 1) (some (l.X * Ic)) H3
    else massOuter ls k (some (l.X * Ic)) H

/-- `ChainDynParam::JntToMass`, chaindynparam.cpp:61. -/
def jntToMass (c : Chain) (nj ns : ℕ) (q : List ℝ) (H : JMat) : Option (Int × JMat) :=
  if nj ≠ c.nrOfJoints ∨ ns ≠ c.nrOfSegments then some (E_NOT_UP_TO_DATE, H)
  else if q.length ≠ nj ∨ H.n ≠ nj then some (E_SIZE_MISMATCH, H)
  else do
    let ls ← massFwd q (c.segments.take ns) 0
    let H' ← massOuter ls.reverse ((nj : ℤ) - 1) none H
    some (E_NOERROR, H')

/-- The remembered sizes of a `ChainDynParam` object: its own `nj`, `ns`, the sizes of `jntarraynull` and `wrenchnull`,
and those of the two inverse dynamics solvers it owns (chaindynparam.hpp:57–69). -/
structure DynState where
  nj : ℕ
  ns : ℕ
  jnull : ℕ
  wnull : ℕ
  cor : ℕ × ℕ
  grv : ℕ × ℕ
  grav : Vec

namespace DynState
/-- `ChainDynParam::ChainDynParam`, chaindynparam.cpp:28. -/
def new (c : Chain) (grav : Vec) : DynState :=
  ⟨c.nrOfJoints, c.nrOfSegments, c.nrOfJoints, c.nrOfSegments, (c.nrOfJoints, c.nrOfSegments),
    (c.nrOfJoints, c.nrOfSegments), grav⟩
/-- `ChainDynParam::updateInternalDataStructures`, chaindynparam.cpp:46. -/
def update (d : DynState) (c : Chain) : DynState := new c d.grav
/-- `ChainDynParam::JntToMass`. -/
def mass (d : DynState) (c : Chain) (q : List ℝ) (H : JMat) : Option (Int × JMat) := jntToMass c d.nj d.ns q H
/-- `ChainDynParam::JntToCoriolis`, chaindynparam.cpp:127. -/
def coriolis (d : DynState) (c : Chain) (q qd out : List ℝ) : Option (Int × List ℝ) :=
  idRne c d.cor.1 d.cor.2 0 q qd (List.replicate d.jnull 0) (List.replicate d.wnull 0) out
/-- `ChainDynParam::JntToGravity`, chaindynparam.cpp:139. -/
def gravity (d : DynState) (c : Chain) (q out : List ℝ) : Option (Int × List ℝ) :=
  idRne c d.grv.1 d.grv.2 d.grav q (List.replicate d.jnull 0) (List.replicate d.jnull 0) (List.replicate d.wnull 0) out
end DynState

/-! ## LDL solver -/

/-- Working matrices of `ldl_solver_eigen`. -/
structure LDL where
  L : ℕ → ℕ → ℝ
  D : ℕ → ℝ

/-- `D(i) -= D(j)*L(i,j)*L(i,j)` for `j = 0 … m-1`, utilities/ldl_solver_eigen.cpp:36–40. -/
def ldlD (s : LDL) (i : ℕ) : ℕ → ℝ → ℝ
  | 0, d => d
  | m + 1, d => ldlD s i m d - s.D m * s.L i m * s.L i m

/-- `L(j,i) -= L(j,k)*L(i,k)*D(k)/D(i)` for `k = 0 … m-1`, utilities/ldl_solver_eigen.cpp:43–47. -/
def ldlL (s : LDL) (j i : ℕ) (Di : ℝ) : ℕ → ℝ → ℝ
  | 0, x => x
  | m + 1, x => ldlL s j i Di m x - s.L j m * s.L i m * s.D m / Di

/-- Loop over `j = 1 … n-1` with `j > i`, utilities/ldl_solver_eigen.cpp:41–49. -/
def ldlCol (A : ℕ → ℕ → ℝ) (i : ℕ) : ℕ → LDL → LDL
  | 0, s => s
  | m + 1, s =>
    let s' := ldlCol A i m s
    -- iteration `j = m`; `j = 0` never satisfies `j > i`
    if i < m then ⟨fun a b => if a = m ∧ b = i then ldlL s' m i (s'.D i) i (A i m / s'.D i) else s'.L a b, s'.D⟩ else s'

/-- The factorisation loop over `i = 0 … m-1`, utilities/ldl_solver_eigen.cpp:34–50.  `none`: a pivot `D(i)` is zero, so
that the code goes on with infinities or NaNs (it divides by every pivot, at the latest in the back substitution). -/
def ldlFactor (A : ℕ → ℕ → ℝ) (n : ℕ) : ℕ → LDL → Option LDL
  | 0, s => some s
  | m + 1, s => do
    let s ← ldlFactor A n m s
    let d := ldlD s m m (A m m)
    if d = 0 then none
    else some (ldlCol A m n ⟨s.L, fun a => if a = m then d else s.D a⟩)

/-- `vtmp(i) -= L(i,j)*vtmp(j)` for `j = 0 … m-1`, utilities/ldl_solver_eigen.cpp:53–56. -/
def ldlFwdAcc (L : ℕ → ℕ → ℝ) (w : ℕ → ℝ) (i : ℕ) : ℕ → ℝ → ℝ
  | 0, x => x
  | m + 1, x => ldlFwdAcc L w i m x - L i m * w m
/-- Forward substitution, utilities/ldl_solver_eigen.cpp:51–57. -/
def ldlFwd (L : ℕ → ℕ → ℝ) (v : ℕ → ℝ) : ℕ → (ℕ → ℝ) → ℕ → ℝ
  | 0, w => w
  | m + 1, w =>
    let w' := ldlFwd L v m w
    fun a => if a = m then ldlFwdAcc L w' m m (v m) else w' a
/-- `q(i) -= L(j,i)*q(j)` for `j = i+1, …` (`k` steps), utilities/ldl_solver_eigen.cpp:60–63. -/
def ldlBwdAcc (L : ℕ → ℕ → ℝ) (x : ℕ → ℝ) (i : ℕ) : ℕ → ℝ → ℝ
  | 0, y => y
  | k + 1, y => ldlBwdAcc L x i k y - L (i + 1 + k) i * x (i + 1 + k)
/-- Back substitution for `i = n-1, …, n-m`, utilities/ldl_solver_eigen.cpp:58–64. -/
def ldlBwd (s : LDL) (w : ℕ → ℝ) (n : ℕ) : ℕ → (ℕ → ℝ) → ℕ → ℝ
  | 0, x => x
  | m + 1, x =>
    let x' := ldlBwd s w n m x
    let i := n - 1 - m
    fun a => if a = i then ldlBwdAcc s.L x' i (n - 1 - i) (w i / s.D i) else x' a

/-- `ldl_solver_eigen`, utilities/ldl_solver_eigen.cpp:25, for arguments of matching size `n` (the only caller passes
members that were all allocated with the same size): the solution `q`, and the factors `L`, `D` with the final
normalisation of `L` (:65–79). -/
def ldlSolve (n : ℕ) (A : ℕ → ℕ → ℝ) (v : ℕ → ℝ) (s0 : LDL) (w0 x0 : ℕ → ℝ) : Option ((ℕ → ℝ) × LDL) := do
  let s ← ldlFactor A n n s0
  let w := ldlFwd s.L v n w0
  let x := ldlBwd s w n n x0
  some (x, ⟨fun a b => if a < n ∧ b < n then (if a = b then 1 else if a < b then 0 else s.L a b) else s.L a b, s.D⟩)

/-! ## Forward dynamics -/

/-- The remembered sizes of a `ChainFdSolver_RNE`: its own `nj`, `ns`, those of the owned `DynSolver` and `IdSolver`, and
the common size of the work arrays `H`, `Tzeroacc`, `H_eig`, … (chainfdsolver_recursive_newton_euler.hpp:95–107). -/
structure FdState where
  nj : ℕ
  ns : ℕ
  dyn : DynState
  id : ℕ × ℕ
  work : ℕ

namespace FdState
/-- chainfdsolver_recursive_newton_euler.cpp:29. -/
def new (c : Chain) (grav : Vec) : FdState :=
  ⟨c.nrOfJoints, c.nrOfSegments, .new c grav, (c.nrOfJoints, c.nrOfSegments), c.nrOfJoints⟩
/-- `ChainFdSolver_RNE::updateInternalDataStructures`, chainfdsolver_recursive_newton_euler.cpp:46: only `nj` and `ns`
are refreshed. -/
def update (s : FdState) (c : Chain) : FdState := { s with nj := c.nrOfJoints, ns := c.nrOfSegments }
end FdState

/-- Outcome of a forward dynamics call. -/
inductive FdResult
  /-- normal return: code and `q_dotdot` -/
  | ret (code : Int) (qdd : List ℝ)
  /-- a zero pivot was divided by: the result holds infinities or NaNs -/
  | nan

/-- `ChainFdSolver_RNE::CartToJnt`, chainfdsolver_recursive_newton_euler.cpp:51.  `H0` and `T0` are the contents the
work arrays `H` and `Tzeroacc` happen to have.  `none` = undefined behaviour. -/
def fdRne (s : FdState) (c : Chain) (q qd τ : List ℝ) (fext : List Wrench) (qdd0 : List ℝ) (H0 : ℕ → ℕ → ℝ)
    (T0 : ℕ → ℝ) (L0 : LDL) (r0 x0 : ℕ → ℝ) : Option FdResult :=
  if s.nj ≠ c.nrOfJoints ∨ s.ns ≠ c.nrOfSegments then some (.ret E_NOT_UP_TO_DATE qdd0)
  else if q.length ≠ s.nj ∨ qd.length ≠ s.nj ∨ qdd0.length ≠ s.nj ∨ τ.length ≠ s.nj ∨ fext.length ≠ s.ns then
    some (.ret E_SIZE_MISMATCH qdd0)
  else do
    let (e, H) ← s.dyn.mass c q ⟨s.work, H0⟩
    if e < 0 then some (.ret e qdd0)
    else do
      let zero := List.replicate s.nj (0 : ℝ)
      let (e, T) ← idRne c s.id.1 s.id.2 s.dyn.grav q qd zero fext ((List.range s.work).map T0)
      if e < 0 then some (.ret e zero)
      -- :80–88 and :90–92 read and write the work arrays at all indices below `nj`
      else if s.work < s.nj then none
      else
        match ldlSolve s.work H.d (fun i => τ.getD i 0 - T.getD i 0) L0 r0 x0 with
        | none => some .nan
        | some (x, _) => some (.ret E_NOERROR ((List.range s.nj).map x))

end KDL
