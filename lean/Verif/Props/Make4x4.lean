import Verif.Model.Make4x4
import Verif.Lemmas.Frames

/-! C03: the buffer written by `Frame::Make4x4`. -/

noncomputable section

namespace KDL

/-- `Make4x4` writes exactly the sixteen elements of the buffer, row by row: element `4 i + j` is `(*this)(i,j)` as
returned by `operator()`. -/
theorem C03_make4x4 (F : Frame) (d : ℕ → ℝ) :
    ∃ d', F.make4x4 d = some d' ∧ (∀ i j : Fin 4, d' (4 * i + j) = F.entry i j ∧
      F.at2 (i : ℕ) (j : ℕ) = some (d' (4 * i + j))) ∧ ∀ k, 16 ≤ k → d' k = d k := by
  have e : F.make4x4 d = some (fun k => match k with
      | 0 => F.M.m00 | 1 => F.M.m01 | 2 => F.M.m02 | 3 => F.p.x
      | 4 => F.M.m10 | 5 => F.M.m11 | 6 => F.M.m12 | 7 => F.p.y
      | 8 => F.M.m20 | 9 => F.M.m21 | 10 => F.M.m22 | 11 => F.p.z
      | 12 => 0 | 13 => 0 | 14 => 0 | 15 => 1
      | k + 16 => d (k + 16)) := by
    simp only [Frame.make4x4, make4x4Row, List.range, List.range.loop, List.foldlM, List.foldl, Rot.at2, Rot.data, Vec.data,
      Option.bind_eq_bind, Option.bind_some, Option.pure_def]
    norm_num [Rot.data, Vec.data]
    funext k
    rcases k with _ | _ | _ | _ | _ | _ | _ | _ | _ | _ | _ | _ | _ | _ | _ | _ | k <;> simp [poke]
  refine ⟨_, e, ?_, ?_⟩
  · intro i j
    fin_cases i <;> fin_cases j <;> constructor <;> simp [Frame.entry, Frame.at2, Rot.at2, Rot.data, Vec.data]
  · intro k hk
    obtain ⟨m, rfl⟩ := Nat.exists_eq_add_of_le hk
    rw [Nat.add_comm]

/-- Non-vacuity: the fourth column of a translation. -/
example : ∃ d', (⟨1, ⟨5, 6, 7⟩⟩ : Frame).make4x4 (fun _ => 9) = some d' ∧ d' 3 = 5 ∧ d' 7 = 6 ∧ d' 11 = 7 ∧ d' 16 = 9 := by
  obtain ⟨d', h, h1, h2⟩ := C03_make4x4 ⟨1, ⟨5, 6, 7⟩⟩ (fun _ => 9)
  exact ⟨d', h, (h1 0 3).1, (h1 1 3).1, (h1 2 3).1, h2 16 le_rfl⟩

end KDL
