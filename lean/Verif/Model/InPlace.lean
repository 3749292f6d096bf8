import Verif.Model.Dynamics
import Verif.Model.IkVel

/-!
# Model of solver calls whose array arguments may be the same object

`chainidsolver_recursive_newton_euler.cpp`, `chaindynparam.cpp`, `chainfdsolver_recursive_newton_euler.cpp`,
`chainiksolvervel_pinv_nso.cpp`.  All citations are relative to `/repo/orocos_kdl/src`.

`Model/Dynamics.lean` and `Model/IkVel.lean` take the values of the arguments and so assume that the output array is not
also an input.  Here the `JntArray` arguments are objects: a call gets their addresses and the contents of all arrays, and
every read takes what the array holds at that moment.  The work arrays of the solvers are members, which no caller can
pass as an argument, and stay values.  The two forward sweeps write to no argument and are taken over unchanged.
-/

noncomputable section

namespace KDL

/-- What the `JntArray` objects of a program hold, by address. -/
abbrev JntStore := ℕ → List ℝ

/-- The store after an assignment to the object at address `x`. -/
def JntStore.put (h : JntStore) (x : ℕ) (l : List ℝ) : JntStore := fun y => if y = x then l else h y

/-- Backward sweep, chainidsolver_recursive_newton_euler.cpp:90–100, statement by statement: line 91 assigns
`torques(j)`, line 92 reads `q_dotdot(j)` and adds to `torques(j)`. -/
def rneBackAt (qdd tau : ℕ) : List Link → ℤ → Option Wrench → JntStore → Option JntStore
  | [], _, _, h => some h
  | l :: ls, j, carry, h =>
    let f := match carry with | none => l.f | some w => l.f + w
    if l.seg.moving then do
      let t ← setJnt (h tau) j (l.S.dot f)
      let h1 := h.put tau t
      let acc ← getJnt (h1 qdd) j
      let old ← getJnt (h1 tau) j
      let t' ← setJnt (h1 tau) j (old + l.seg.joint.inertia * acc)
      rneBackAt qdd tau ls (j - 1) (some (l.X * f)) (h1.put tau t')
    else rneBackAt qdd tau ls j (some (l.X * f)) h

/-- `ChainIdSolver_RNE::CartToJnt`, chainidsolver_recursive_newton_euler.cpp:45, on the objects `q`, `q_dot`, `q_dotdot`
and `torques`. -/
def idRneAt (c : Chain) (nj ns : ℕ) (grav : Vec) (q qd qdd : ℕ) (fext : List Wrench) (tau : ℕ) (h : JntStore) :
    Option (Int × JntStore) :=
  if nj ≠ c.nrOfJoints ∨ ns ≠ c.nrOfSegments then some (E_NOT_UP_TO_DATE, h)
  else if (h q).length ≠ nj ∨ (h qd).length ≠ nj ∨ (h qdd).length ≠ nj ∨ (h tau).length ≠ nj ∨ fext.length ≠ ns then
    some (E_SIZE_MISMATCH, h)
  else do
    let ls ← rneFwd (-⟨grav, 0⟩) (h q) (h qd) (h qdd) fext (c.segments.take ns) 0 0 none
    let h' ← rneBackAt qdd tau ls.reverse ((nj : ℤ) - 1) none h
    some (E_NOERROR, h')

/-- `ChainDynParam::JntToCoriolis`, chaindynparam.cpp:127: the accelerations are the member `jntarraynull`, at the address
`null`, which line 130 clears. -/
def coriolisAt (d : DynState) (c : Chain) (null q qd out : ℕ) (h : JntStore) : Option (Int × JntStore) :=
  idRneAt c d.cor.1 d.cor.2 0 q qd null (List.replicate d.wnull 0) out (h.put null (List.replicate d.jnull 0))

/-- `ChainDynParam::JntToGravity`, chaindynparam.cpp:139: speeds and accelerations are both the member `jntarraynull`. -/
def gravityAt (d : DynState) (c : Chain) (null q out : ℕ) (h : JntStore) : Option (Int × JntStore) :=
  idRneAt c d.grv.1 d.grv.2 d.grav q null null (List.replicate d.wnull 0) out (h.put null (List.replicate d.jnull 0))

/-- Outcome of a forward dynamics call on objects. -/
inductive FdStoreOut
  /-- normal return: code and the arrays -/
  | ret (code : Int) (h : JntStore)
  /-- a zero pivot was divided by: `q_dotdot` holds infinities or NaNs -/
  | nan

/-- `ChainFdSolver_RNE::CartToJnt`, chainfdsolver_recursive_newton_euler.cpp:51, on the objects `q`, `q_dot`, `torques` and
`q_dotdot`: line 74 clears `q_dotdot` before line 76 reads `q` and `q_dot` and line 82 reads `torques`. -/
def fdRneAt (s : FdState) (c : Chain) (q qd tau : ℕ) (fext : List Wrench) (qdd : ℕ) (h : JntStore) (H0 : ℕ → ℕ → ℝ)
    (T0 : ℕ → ℝ) (L0 : LDL) (r0 x0 : ℕ → ℝ) : Option FdStoreOut :=
  if s.nj ≠ c.nrOfJoints ∨ s.ns ≠ c.nrOfSegments then some (.ret E_NOT_UP_TO_DATE h)
  else if (h q).length ≠ s.nj ∨ (h qd).length ≠ s.nj ∨ (h qdd).length ≠ s.nj ∨ (h tau).length ≠ s.nj ∨ fext.length ≠ s.ns then
    some (.ret E_SIZE_MISMATCH h)
  else do
    let (e, H) ← s.dyn.mass c (h q) ⟨s.work, H0⟩
    if e < 0 then some (.ret e h)
    else do
      let h1 := h.put qdd (List.replicate s.nj 0)
      let (e, T) ← idRne c s.id.1 s.id.2 s.dyn.grav (h1 q) (h1 qd) (h1 qdd) fext ((List.range s.work).map T0)
      if e < 0 then some (.ret e h1)
      else if s.work < s.nj then none
      else
        match ldlSolve s.work H.d (fun i => (h1 tau).getD i 0 - T.getD i 0) L0 r0 x0 with
        | none => some .nan
        | some (x, _) => some (.ret E_NOERROR (h1.put qdd ((List.range s.nj).map x)))

/-- Outcome of a velocity call on objects. -/
inductive VelStoreOut
  | done (ret : Int) (h : JntStore)
  | nonfinite (ret : Int)

open Matrix

open Classical in
/-- `ChainIkSolverVel_pinv_nso::CartToJnt`, chainiksolvervel_pinv_nso.cpp:84, on the objects `q_in` and `qdot_out`: line
120 assigns `qdot_out`, lines 143 and 151 read `q_in`, line 159 adds to `qdot_out`. -/
def NsoState.cartToJntAt (s : NsoState) (c : Chain) (svd : (n : ℕ) → Matrix (Fin 6) (Fin n) ℝ → SvdOut 6 n)
    (jac0 : Jac) (q_in : ℕ) (v_in : Twist) (qdot_out : ℕ) (h : JntStore) : Option VelStoreOut :=
  if s.nj ≠ c.nrOfJoints then some (.done E_NOT_UP_TO_DATE h)
  else if s.nj ≠ (h q_in).length ∨ s.nj ≠ (h qdot_out).length ∨ s.nj ≠ s.opt_pos.length ∨ s.nj ≠ s.weights.length then
    some (.done E_SIZE_MISMATCH h)
  else do
    let (err, J) ← jntToJac c (List.replicate s.nj false) (h q_in) jac0 (-1)
    if err < E_NOERROR then some (.done err h)
    else
      let r := svd s.nj (jacMat s.nj J)
      if r.code ≠ 0 then some (.done E_SVD_FAILED (h.put qdot_out (List.replicate s.nj 0)))
      else if s.nj < 6 then none
      else if ∃ i, ¬ |r.S i| < s.eps ∧ r.S i = 0 then some (.nonfinite E_NOERROR)
      else
        let h1 := h.put qdot_out (List.ofFn ((r.V * diagonal (nsoSinv r.S s.eps) * r.Uᵀ) *ᵥ v_in.comp))
        let q := vecOf s.nj (h1 q_in)
        let opt := vecOf s.nj s.opt_pos
        let w := vecOf s.nj s.weights
        let A := nsoA q opt w
        if A > 1 / 10 ^ 9 then
          let tmp : Fin s.nj → ℝ := fun i => w i * (q i - opt i) / A
          let tmp2 := (r.V * diagonal (nsoSinv r.S s.eps) * r.Uᵀ * r.U * diagonal r.S * r.Vᵀ) *ᵥ tmp
          let qdot := vecOf s.nj (h1 qdot_out)
          some (.done E_NOERROR (h1.put qdot_out
            (List.ofFn fun i => qdot i + -2 * s.alpha * nsoG q opt w * (tmp i - tmp2 i))))
        else some (.done E_NOERROR h1)

end KDL
