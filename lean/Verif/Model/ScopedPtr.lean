import Mathlib.Data.Finset.Basic

/-! `scoped_ptr`, orocos_kdl/src/utilities/scoped_ptr.hpp, and the programs that use it: variables of this type come into scope
and leave it, raw pointers are passed in and handed out.  The type `T` is left out; an object is its address, `none` the null
pointer.  Simplification: the addresses of deleted objects are not used again. -/

namespace KDL.Sp

/-- Memory: which objects live, the next address, the `ptr_` of the `scoped_ptr` variables in scope, and the deletions so far,
each with the variables as the destructor of the object sees them. -/
structure St where
  alive : ℕ → Bool
  next : ℕ
  vars : ℕ → Option (Option ℕ)
  log : List (ℕ × (ℕ → Option (Option ℕ)))

/-- Nothing allocated, no variable in scope. -/
def St.empty : St := ⟨fun _ => false, 0, fun _ => none, []⟩

/-- `new T`. -/
def St.new (s : St) : ℕ × St :=
  (s.next, { s with alive := fun a => if a = s.next then true else s.alive a, next := s.next + 1 })

/-- `delete p`: nothing for the null pointer, undefined if the object does not live. -/
def St.delete (s : St) : Option ℕ → Option St
  | none => some s
  | some a => if s.alive a then
      some { s with alive := fun b => if b = a then false else s.alive b, log := (a, s.vars) :: s.log }
    else none

/-- Assignment to `ptr_` of a variable. -/
def St.set (s : St) (v : ℕ) (p : Option (Option ℕ)) : St := { s with vars := fun w => if w = v then p else s.vars w }

/-- `scoped_ptr()`, scoped_ptr.hpp:40. -/
def St.mk0 (s : St) (v : ℕ) : St := s.set v (some none)
/-- `scoped_ptr(T* p)`, scoped_ptr.hpp:41. -/
def St.mkp (s : St) (v : ℕ) (p : Option ℕ) : St := s.set v (some p)
/-- `~scoped_ptr()`, scoped_ptr.hpp:43; then the variable is gone.  `none`: no such variable. -/
def St.destroy (s : St) (v : ℕ) : Option St := do
  let ptr_ ← s.vars v
  let s ← s.delete ptr_
  some (s.set v none)
/-- `get()`, scoped_ptr.hpp:48. -/
def St.get (s : St) (v : ℕ) : Option (Option ℕ) := s.vars v
/-- Use of a member through `operator->`, scoped_ptr.hpp:45–46: undefined for the null pointer and if the object does not live. -/
def St.arrow (s : St) (v : ℕ) : Option ℕ := do
  let p ← s.vars v
  let a ← p
  if s.alive a then some a else none
/-- `reset(T* p)`, scoped_ptr.hpp:50. -/
def St.reset (s : St) (v : ℕ) (p : Option ℕ) : Option St := do
  let old ← s.vars v
  let s := s.set v (some p)
  s.delete old
/-- `release()`, scoped_ptr.hpp:56. -/
def St.release (s : St) (v : ℕ) : Option (Option ℕ × St) := do
  let old ← s.vars v
  let s := s.set v (some none)
  some (old, s)
/-- `swap(a,b)`, scoped_ptr.hpp:72: `std::swap` of the two pointers. -/
def St.swap (s : St) (v w : ℕ) : Option St := do
  let tmp ← s.vars v
  let b ← s.vars w
  let s := s.set v (some b)
  some (s.set w (some tmp))

/-- One statement of a program that uses `scoped_ptr`. -/
inductive Op
  | new
  | mk0 (v : ℕ)
  | mkp (v : ℕ) (p : Option ℕ)
  | destroy (v : ℕ)
  | reset (v : ℕ) (p : Option ℕ)
  | release (v : ℕ)
  | swap (v w : ℕ)
  | arrow (v : ℕ)
  | delete (p : Option ℕ)

/-- Its effect; `none` is undefined behaviour. -/
def St.step (s : St) : Op → Option St
  | .new => some s.new.2
  | .mk0 v => some (s.mk0 v)
  | .mkp v p => some (s.mkp v p)
  | .destroy v => s.destroy v
  | .reset v p => s.reset v p
  | .release v => (s.release v).map (·.2)
  | .swap v w => s.swap v w
  | .arrow v => (s.arrow v).map fun _ => s
  | .delete p => s.delete p

/-- A program. -/
def St.run (s : St) : List Op → Option St
  | [] => some s
  | o :: os => do
    let s ← s.step o
    s.run os

end KDL.Sp
