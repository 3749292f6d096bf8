import Verif.Model.RallOps

/-! Model of the template `Rall1d<T,V,S>` of `utilities/rall1d.h` with other value and gradient types than `double` (for those
see `Verif/Model/Rall.lean`): nested dual numbers `Rall1d<Rall1d<…>, Rall1d<…>, double>` for derivatives of any order, which
the documentation of the class names (rall1d.h:40) and `utilities/rallNd.h` spells out, and gradients in a vector-like type.

A value of type `TOps T` lists what the template uses of a value type `T` with scalars `double`, a value of type `VOps T V` what
it uses of a gradient type.  Left out: `operator*=`, `operator/=` with a dual number as argument, `LinComb` and `LinCombR` (their
calls with a nested number do not match the parameter `S` or `const T&` of the templates, so that they do not instantiate) and
`abs` (see `Verif/Model/Rall.lean`).  Division by zero is not distinguished; the theorems exclude it. -/

noncomputable section
namespace KDL.RallN

/-- `Rall1d<T,V,S>`, rall1d.h:48–60. -/
@[ext] structure Dual (T V : Type) where
  t : T
  grad : V

/-- The operations on values. -/
structure TOps (T : Type) where
  /-- `T()`. -/
  default : T
  /-- `operator=(S)`. -/
  assignS : T → ℝ → T
  add : T → T → T
  sub : T → T → T
  mul : T → T → T
  div : T → T → T
  neg : T → T
  /-- `s * v`. -/
  smul : ℝ → T → T
  /-- `v * s`. -/
  muls : T → ℝ → T
  /-- `s + v`. -/
  sadd : ℝ → T → T
  /-- `v + s`. -/
  adds : T → ℝ → T
  /-- `s - v`. -/
  ssub : ℝ → T → T
  /-- `v - s`. -/
  subs : T → ℝ → T
  /-- `s / v`. -/
  sdiv : ℝ → T → T
  /-- `v / s`. -/
  divs : T → ℝ → T
  addAssign : T → T → T
  subAssign : T → T → T
  mulAssignS : T → ℝ → T
  divAssignS : T → ℝ → T
  addAssignS : T → ℝ → T
  subAssignS : T → ℝ → T
  exp : T → T
  log : T → T
  sin : T → T
  cos : T → T
  tan : T → T
  sinh : T → T
  cosh : T → T
  tanh : T → T
  sqr : T → T
  pow : T → ℝ → T
  sqrt : T → T
  atan : T → T
  asin : T → T
  acos : T → T
  hypot : T → T → T
  atan2 : T → T → T
  norm : T → ℝ
  setToZero : T → T
  setToIdentity : T → T
  equal : T → T → ℝ → Prop

/-- The operations on gradients. -/
structure VOps (T V : Type) where
  /-- `V()`. -/
  default : V
  add : V → V → V
  sub : V → V → V
  neg : V → V
  /-- `t * v`. -/
  tmul : T → V → V
  /-- `v * t`. -/
  mult : V → T → V
  /-- `v / t`. -/
  divt : V → T → V
  /-- `s * v`. -/
  smul : ℝ → V → V
  /-- `v * s`. -/
  muls : V → ℝ → V
  /-- `v / s`. -/
  divs : V → ℝ → V
  addAssign : V → V → V
  subAssign : V → V → V
  mulAssignS : V → ℝ → V
  divAssignS : V → ℝ → V
  setToZero : V → V
  equal : V → V → ℝ → Prop

/-- `double` as value type: the operators of the language, `<cmath>` and utility.h:231–258. -/
def realOps : TOps ℝ where
  default := 0
  assignS := fun _ c => c
  add := fun a b => a + b
  sub := fun a b => a - b
  mul := fun a b => a * b
  div := fun a b => a / b
  neg := fun a => -a
  smul := fun s v => s * v
  muls := fun v s => v * s
  sadd := fun s v => s + v
  adds := fun v s => v + s
  ssub := fun s v => s - v
  subs := fun v s => v - s
  sdiv := fun s v => s / v
  divs := fun v s => v / s
  addAssign := fun a b => a + b
  subAssign := fun a b => a - b
  mulAssignS := fun a s => a * s
  divAssignS := fun a s => a / s
  addAssignS := fun a s => a + s
  subAssignS := fun a s => a - s
  exp := Real.exp
  log := Real.log
  sin := Real.sin
  cos := Real.cos
  tan := Real.tan
  sinh := Real.sinh
  cosh := Real.cosh
  tanh := Real.tanh
  sqr := fun a => a * a
  pow := fun a m => a ^ m
  sqrt := Real.sqrt
  atan := Real.arctan
  asin := Real.arcsin
  acos := Real.arccos
  hypot := fun y x => Real.sqrt (y ^ 2 + x ^ 2)
  atan2 := KDL.atan2
  norm := fun a => |a|
  setToZero := fun _ => 0
  setToIdentity := fun _ => 1
  equal := realEqual

/-- A value type as gradient type of itself. -/
def TOps.self {T : Type} (o : TOps T) : VOps T T where
  default := o.default
  add := o.add
  sub := o.sub
  neg := o.neg
  tmul := o.mul
  mult := o.mul
  divt := o.div
  smul := o.smul
  muls := o.muls
  divs := o.divs
  addAssign := o.addAssign
  subAssign := o.subAssign
  mulAssignS := o.mulAssignS
  divAssignS := o.divAssignS
  setToZero := o.setToZero
  equal := o.equal

/-- Vectors of doubles as gradient type: everything entry by entry. -/
def vecOps (N : ℕ) : VOps ℝ (Fin N → ℝ) where
  default := fun _ => 0
  add := fun a b i => a i + b i
  sub := fun a b i => a i - b i
  neg := fun a i => -a i
  tmul := fun t v i => t * v i
  mult := fun v t i => v i * t
  divt := fun v t i => v i / t
  smul := fun s v i => s * v i
  muls := fun v s i => v i * s
  divs := fun v s i => v i / s
  addAssign := fun a b i => a i + b i
  subAssign := fun a b i => a i - b i
  mulAssignS := fun v s i => v i * s
  divAssignS := fun v s i => v i / s
  setToZero := fun _ _ => 0
  equal := fun a b eps => ∀ i, realEqual (a i) (b i) eps

variable {T V : Type}

/-- `Rall1d(typename TI<T>::Arg c)`, rall1d.h:68: `grad` is default constructed and then set to zero. -/
def ofVal (w : VOps T V) (c : T) : Dual T V := ⟨c, w.setToZero w.default⟩

/-- The operators and functions of rall1d.h, for a value type with the operations `o` and a gradient type with the operations
`w`. -/
def dualOps (o : TOps T) (w : VOps T V) : TOps (Dual T V) where
  -- :57
  default := ⟨o.default, w.default⟩
  -- :97
  assignS := fun x c => ⟨o.assignS x.t c, w.setToZero x.grad⟩
  -- :229
  add := fun l r => ⟨o.add l.t r.t, w.add l.grad r.grad⟩
  -- :236
  sub := fun l r => ⟨o.sub l.t r.t, w.sub l.grad r.grad⟩
  -- :223
  mul := fun l r => ⟨o.mul l.t r.t, w.add (w.tmul r.t l.grad) (w.tmul l.t r.grad)⟩
  -- :217
  div := fun l r => ⟨o.div l.t r.t, w.divt (w.sub (w.mult l.grad r.t) (w.tmul l.t r.grad)) (o.mul r.t r.t)⟩
  -- :242
  neg := fun a => ⟨o.neg a.t, w.neg a.grad⟩
  -- :248
  smul := fun s v => ⟨o.smul s v.t, w.smul s v.grad⟩
  -- :254
  muls := fun v s => ⟨o.muls v.t s, w.muls v.grad s⟩
  -- :260
  sadd := fun s v => ⟨o.sadd s v.t, v.grad⟩
  -- :266
  adds := fun v s => ⟨o.adds v.t s, v.grad⟩
  -- :272
  ssub := fun s v => ⟨o.ssub s v.t, w.neg v.grad⟩
  -- :278
  subs := fun v s => ⟨o.subs v.t s, v.grad⟩
  -- :284
  sdiv := fun s v => ⟨o.sdiv s v.t, w.divt (w.smul (-s) v.grad) (o.mul v.t v.t)⟩
  -- :290
  divs := fun v s => ⟨o.divs v.t s, w.divs v.grad s⟩
  -- :117
  addAssign := fun a b =>
    let a := { a with grad := w.addAssign a.grad b.grad }
    { a with t := o.addAssign a.t b.t }
  -- :124
  subAssign := fun a b =>
    let a := { a with grad := w.subAssign a.grad b.grad }
    { a with t := o.subAssign a.t b.t }
  -- :138
  mulAssignS := fun a s =>
    let a := { a with grad := w.mulAssignS a.grad s }
    { a with t := o.mulAssignS a.t s }
  -- :131
  divAssignS := fun a s =>
    let a := { a with grad := w.divAssignS a.grad s }
    { a with t := o.divAssignS a.t s }
  -- :145
  addAssignS := fun a s => { a with t := o.addAssignS a.t s }
  -- :151
  subAssignS := fun a s => { a with t := o.subAssignS a.t s }
  -- :297
  exp := fun a => let v := o.exp a.t; ⟨v, w.tmul v a.grad⟩
  -- :305
  log := fun a => ⟨o.log a.t, w.divt a.grad a.t⟩
  -- :313
  sin := fun a => ⟨o.sin a.t, w.tmul (o.cos a.t) a.grad⟩
  -- :321
  cos := fun a => ⟨o.cos a.t, w.tmul (o.neg (o.sin a.t)) a.grad⟩
  -- :329
  tan := fun a => ⟨o.tan a.t, w.divt a.grad (o.sqr (o.cos a.t))⟩
  -- :337
  sinh := fun a => ⟨o.sinh a.t, w.tmul (o.cosh a.t) a.grad⟩
  -- :345
  cosh := fun a => ⟨o.cosh a.t, w.tmul (o.sinh a.t) a.grad⟩
  -- :424
  tanh := fun a => ⟨o.tanh a.t, w.divt a.grad (o.sqr (o.cosh a.t))⟩
  -- :353
  sqr := fun a => ⟨o.mul a.t a.t, w.tmul (o.smul 2 a.t) a.grad⟩
  -- :361
  pow := fun a m => let v := o.pow a.t m; ⟨v, w.tmul (o.div (o.smul m v) a.t) a.grad⟩
  -- :369
  sqrt := fun a => let v := o.sqrt a.t; ⟨v, w.tmul (o.sdiv 0.5 v) a.grad⟩
  -- :377
  atan := fun x => ⟨o.atan x.t, w.divt x.grad (o.sadd 1 (o.sqr x.t))⟩
  -- :393
  asin := fun x => ⟨o.asin x.t, w.divt x.grad (o.sqrt (o.ssub 1 (o.sqr x.t)))⟩
  -- :401
  acos := fun x => ⟨o.acos x.t, w.divt (w.neg x.grad) (o.sqrt (o.ssub 1 (o.sqr x.t)))⟩
  -- :385
  hypot := fun y x =>
    let v := o.hypot y.t x.t
    ⟨v, w.add (w.tmul (o.div x.t v) x.grad) (w.tmul (o.div y.t v) y.grad)⟩
  -- :431
  atan2 := fun y x =>
    let v := o.add (o.mul x.t x.t) (o.mul y.t y.t)
    ⟨o.atan2 y.t x.t, w.divt (w.sub (w.tmul x.t y.grad) (w.tmul y.t x.grad)) v⟩
  -- :418
  norm := fun a => o.norm a.t
  -- :456
  setToZero := fun a =>
    let a := { a with grad := w.setToZero a.grad }
    { a with t := o.setToZero a.t }
  -- :462
  setToIdentity := fun a =>
    let a := { a with t := o.setToIdentity a.t }
    { a with grad := w.setToZero a.grad }
  -- :469
  equal := fun y x eps => o.equal x.t y.t eps ∧ w.equal x.grad y.grad eps

/-- The nested types: `double`, `Rall1d<double>`, `Rall1d<Rall1d<double>, Rall1d<double>, double>`, …; `Nd (n+1)` is `RallNd<n+1>` of
rallNd.h:14–39 (there in a comment; tests/rallnumbertest.cpp:50–76). -/
def Nd : ℕ → Type
  | 0 => ℝ
  | n + 1 => Dual (Nd n) (Nd n)

/-- Their operations. -/
def ops : (n : ℕ) → TOps (Nd n)
  | 0 => realOps
  | n + 1 => dualOps (ops n) (ops n).self

/-- `RallNd(double value, double d[])`, rallNd.h:21–24 and :34–37; `d 0` is `value`, `d (k+1)` is `d[k]`. -/
def ofDerivs : (n : ℕ) → (ℕ → ℝ) → Nd n
  | 0, d => d 0
  | n + 1, d => ⟨ofDerivs n d, ofDerivs n fun k => d (k + 1)⟩

end KDL.RallN
