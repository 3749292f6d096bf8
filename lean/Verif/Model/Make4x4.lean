import Verif.Model.PyBind

/-! Model of `Frame::Make4x4` (orocos_kdl/src/frames.cpp:39–51).

Simplification: the buffer `double* d` is the function from element numbers to values; the caller has to provide 16
elements (it is not checked), so that writes to 0–15 are valid. -/

noncomputable section

namespace KDL

/-- The assignment `d[i] = x`. -/
def poke (d : ℕ → ℝ) (i : ℕ) (x : ℝ) : ℕ → ℝ := fun k => if k = i then x else d k

/-- Inner loop and last statement of the outer loop, frames.cpp:44–46, for row `i`; `none`: an element outside of the
storage of `M` or `p` is read. -/
def make4x4Row (F : Frame) (i : ℕ) (d : ℕ → ℝ) : Option (ℕ → ℝ) := do
  let d ← (List.range 3).foldlM (fun d (j : ℕ) => do
    let x ← F.M.at2 (i : ℕ) (j : ℕ)
    some (poke d (i * 4 + j) x)) d
  let x ← F.p.data i
  some (poke d (i * 4 + 3) x)

/-- `Frame::Make4x4`, frames.cpp:39–51. -/
def Frame.make4x4 (F : Frame) (d : ℕ → ℝ) : Option (ℕ → ℝ) := do
  let d ← (List.range 3).foldlM (fun d i => make4x4Row F i d) d
  let d := (List.range 3).foldl (fun d j => poke d (12 + j) 0) d
  some (poke d 15 1)

end KDL
