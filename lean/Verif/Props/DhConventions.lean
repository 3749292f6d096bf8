import Verif.Props.FrameGroup

/-! C11, C12: the two Denavit–Hartenberg conventions describe the same chains, and in-place rotations add up. -/

noncomputable section
namespace KDL

/-- The parameters of one link: length and twist of the link, offset and angle of the joint. -/
structure DhLink where
  a : ℝ
  alpha : ℝ
  d : ℝ
  theta : ℝ

/-- A chain in the original convention: the links one after the other, each with the joint before it. -/
def dhChain : List DhLink → Frame
  | [] => 1
  | l :: ls => Frame.dh l.a l.alpha l.d l.theta * dhChain ls
/-- A chain in the convention of Craig: every link is taken together with the joint *behind* it; `a`, `alpha` are those of
the link before the chain. -/
def craigChain (a alpha : ℝ) : List DhLink → Frame
  | [] => Frame.dhCraig a alpha 0 0
  | l :: ls => Frame.dhCraig a alpha l.d l.theta * craigChain l.a l.alpha ls

/-- Both constructors are made of the same two transforms — along the joint axis and along the link — in opposite order;
they agree exactly where one of the two is missing. -/
theorem C11_parts (a alpha d theta : ℝ) :
    Frame.dh a alpha d theta = Frame.dh 0 0 d theta * Frame.dh a alpha 0 0 ∧
    Frame.dhCraig a alpha d theta = Frame.dh a alpha 0 0 * Frame.dh 0 0 d theta ∧
    Frame.dhCraig a alpha 0 0 = Frame.dh a alpha 0 0 ∧ Frame.dhCraig 0 0 d theta = Frame.dh 0 0 d theta := by
  refine ⟨?_, ?_, ?_, ?_⟩ <;> (unfold Frame.dh; try unfold Frame.dhCraig) <;> ext <;> simp <;> try ring

/-- The same links give the same chain in both conventions. -/
theorem C11_conventions : ∀ (ls : List DhLink) (a alpha : ℝ),
    craigChain a alpha ls = Frame.dh a alpha 0 0 * dhChain ls := by
  intro ls
  induction ls with
  | nil => intro a alpha; rw [craigChain, dhChain, (C11_parts a alpha 0 0).2.2.1, mul_one]
  | cons l ls ih =>
    intro a alpha
    rw [craigChain, dhChain, ih, (C11_parts a alpha l.d l.theta).2.1, (C11_parts l.a l.alpha l.d l.theta).1]
    simp only [mul_assoc]

/-- With a base link of length and twist zero the two chains are equal. -/
theorem C11_same_chain (ls : List DhLink) : craigChain 0 0 ls = dhChain ls := by
  have e : Frame.dh 0 0 0 0 = 1 := by unfold Frame.dh; ext <;> simp
  rw [C11_conventions, e, one_mul]

/-- The order matters: a link of length one and a quarter turn of the joint lead to different points. -/
theorem C11_differ : (Frame.dh 1 0 0 (Real.pi / 2)).p = ⟨0, 1, 0⟩ ∧ (Frame.dhCraig 1 0 0 (Real.pi / 2)).p = ⟨1, 0, 0⟩ := by
  unfold Frame.dh Frame.dhCraig
  constructor <;> ext <;> simp

/-- Two in-place rotations about the same axis add up, and the opposite angle undoes one. -/
theorem C12_sum (R : Rot) (a b : ℝ) :
    (R.doRotX a).doRotX b = R.doRotX (a + b) ∧ (R.doRotY a).doRotY b = R.doRotY (a + b) ∧
    (R.doRotZ a).doRotZ b = R.doRotZ (a + b) ∧
    (R.doRotX a).doRotX (-a) = R ∧ (R.doRotY a).doRotY (-a) = R ∧ (R.doRotZ a).doRotZ (-a) = R := by
  have x : ∀ a b, Rot.rotX a * Rot.rotX b = Rot.rotX (a + b) := fun a b => by
    ext <;> simp [Rot.rotX, Real.cos_add, Real.sin_add] <;> ring
  have y : ∀ a b, Rot.rotY a * Rot.rotY b = Rot.rotY (a + b) := fun a b => by
    ext <;> simp [Rot.rotY, Real.cos_add, Real.sin_add] <;> ring
  have z : ∀ a b, Rot.rotZ a * Rot.rotZ b = Rot.rotZ (a + b) := fun a b => by
    ext <;> simp [Rot.rotZ, Real.cos_add, Real.sin_add] <;> ring
  have x0 : Rot.rotX 0 = 1 := by ext <;> simp [Rot.rotX]
  have y0 : Rot.rotY 0 = 1 := by ext <;> simp [Rot.rotY]
  have z0 : Rot.rotZ 0 = 1 := by ext <;> simp [Rot.rotZ]
  simp only [C12_doRotX, C12_doRotY, C12_doRotZ, mul_assoc, x, y, z, add_neg_cancel, x0, y0, z0, mul_one, and_self]

/-- In-place rotations keep a rotation a rotation. -/
theorem C12_proper (R : Rot) (h : R.IsProper) (a : ℝ) : (R.doRotX a).IsProper ∧ (R.doRotY a).IsProper ∧ (R.doRotZ a).IsProper := by
  rw [C12_doRotX, C12_doRotY, C12_doRotZ]
  exact ⟨h.mul (Rot.isProper_rotX a), h.mul (Rot.isProper_rotY a), h.mul (Rot.isProper_rotZ a)⟩

/-! ### Examples -/
example (x y : ℝ) : Frame.dhCraig 0 0 0 x * (Frame.dhCraig 1 0 0 y * Frame.dhCraig 1 0 0 0) =
    Frame.dh 1 0 0 x * (Frame.dh 1 0 0 y * 1) := C11_same_chain [⟨1, 0, 0, x⟩, ⟨1, 0, 0, y⟩]
example (R : Rot) : (R.doRotZ 1).doRotZ (-1) = R := (C12_sum R 1 0).2.2.2.2.2

end KDL
