import Verif.Props.PathCircle
import Mathlib.Algebra.Order.Floor.Ring

/-!
# C64: `Path_Cyclic_Closed`

The inner path is traversed `times` times.
-/

noncomputable section
namespace KDL
open Real

theorem fmod_of_nonneg {s L : ℝ} (hL : 0 < L) (h0 : 0 ≤ s) : fmod s L = s - L * ⌊s / L⌋ := by
  unfold fmod
  rw [if_pos (div_nonneg h0 hL.le)]

theorem fmod_cycle {s L : ℝ} (hL : 0 < L) (k : ℕ) (h0 : k * L ≤ s) (h1 : s < (k + 1) * L) : fmod s L = s - k * L := by
  have hs : 0 ≤ s := le_trans (by positivity) h0
  have hf : ⌊s / L⌋ = (k : ℤ) := by
    rw [Int.floor_eq_iff]
    constructor
    · rw [le_div_iff₀ hL]; simpa using h0
    · rw [div_lt_iff₀ hL]; simpa using h1
  rw [fmod_of_nonneg hL hs, hf]
  push_cast; ring

namespace CyclicClosed

/-- **C64 (length).** -/
theorem C64_length (c : CyclicClosed) : c.length = c.times * c.geom.length := by
  unfold length; ring

/-- **C64 (position).**  During the traversal number `k` (from 0) position, velocity and acceleration are those of the inner
path at the length since the start of that traversal. -/
theorem C64_cycle (c : CyclicClosed) (hL : 0 < c.geom.length) (k : ℕ) (s sd sdd : ℝ)
    (h0 : k * c.geom.length ≤ s) (h1 : s < (k + 1) * c.geom.length) :
    c.pos s = some (c.geom.pos (s - k * c.geom.length)) ∧ c.vel s sd = some (c.geom.vel (s - k * c.geom.length) sd) ∧
      c.acc s sd sdd = some (c.geom.acc (s - k * c.geom.length) sd sdd) := by
  have hr : c.reduce s = some (s - k * c.geom.length) := by
    unfold reduce
    rw [if_neg hL.ne', fmod_cycle hL k h0 h1]
  unfold pos vel acc
  rw [hr]
  exact ⟨rfl, rfl, rfl⟩

/-- **C64 (every length is in some traversal).**  For `0 ≤ s < PathLength()` the traversal is one of the `times`. -/
theorem C64_cover (c : CyclicClosed) (hL : 0 < c.geom.length) (s : ℝ) (h0 : 0 ≤ s) (h1 : s < c.length) :
    ∃ k : ℕ, (k : ℤ) < c.times ∧ k * c.geom.length ≤ s ∧ s < (k + 1) * c.geom.length := by
  have hf : 0 ≤ ⌊s / c.geom.length⌋ := Int.floor_nonneg.mpr (div_nonneg h0 hL.le)
  obtain ⟨k, hk⟩ := Int.eq_ofNat_of_zero_le hf
  have h2 := Int.floor_le (s / c.geom.length)
  have h3 := Int.lt_floor_add_one (s / c.geom.length)
  rw [hk] at h2 h3
  rw [le_div_iff₀ hL] at h2
  rw [div_lt_iff₀ hL] at h3
  refine ⟨k, ?_, by simpa using h2, by simpa using h3⟩
  have h4 : (k : ℝ) * c.geom.length < c.times * c.geom.length := by
    rw [← C64_length]; exact lt_of_le_of_lt (by simpa using h2) h1
  have h5 := lt_of_mul_lt_mul_right h4 hL.le
  exact_mod_cast h5

/-- **C64 (period).** -/
theorem C64_periodic (c : CyclicClosed) (hL : 0 < c.geom.length) (s sd sdd : ℝ) (h0 : 0 ≤ s) :
    c.pos (s + c.geom.length) = c.pos s ∧ c.vel (s + c.geom.length) sd = c.vel s sd ∧
      c.acc (s + c.geom.length) sd sdd = c.acc s sd sdd := by
  have hr : c.reduce (s + c.geom.length) = c.reduce s := by
    unfold reduce
    rw [if_neg hL.ne', if_neg hL.ne', fmod_of_nonneg hL (by linarith), fmod_of_nonneg hL h0, add_div, div_self hL.ne',
      Int.floor_add_one]
    push_cast
    congr 1; ring
  unfold pos vel acc
  rw [hr]
  exact ⟨rfl, rfl, rfl⟩

/-- **C64 (closed path).**  When the inner path returns to its start, position is continuous from one traversal to the next
and the last one ends at the end of the inner path. -/
theorem C64_closed (c : CyclicClosed) (hL : 0 < c.geom.length) (hc : c.geom.pos c.geom.length = c.geom.pos 0) (k : ℕ) :
    (∀ s, k * c.geom.length ≤ s → s ≤ (k + 1) * c.geom.length → c.pos s = some (c.geom.pos (s - k * c.geom.length))) ∧
      (0 ≤ c.times → c.pos 0 = some (c.geom.pos 0) ∧ c.pos c.length = some (c.geom.pos c.geom.length)) := by
  have hk : ∀ k : ℕ, c.pos (k * c.geom.length) = some (c.geom.pos 0) := by
    intro k
    have := (C64_cycle c hL k (k * c.geom.length) 0 0 le_rfl (by linarith)).1
    rwa [sub_self] at this
  refine ⟨fun s h0 h1 => ?_, fun ht => ⟨?_, ?_⟩⟩
  · rcases h1.lt_or_eq with h1 | h1
    · exact (C64_cycle c hL k s 0 0 h0 h1).1
    · have := hk (k + 1)
      push_cast at this
      rw [h1, this, ← hc]
      congr 2; ring
  · simpa using hk 0
  · obtain ⟨n, hn⟩ := Int.eq_ofNat_of_zero_le ht
    have := hk n
    rw [C64_length, hn]
    push_cast
    rw [this, hc]

/-- **C64 (velocity).**  Strictly inside a traversal `Vel(s, 1)` is the twist of the cyclic path, if it is that of the inner
path. -/
theorem C64_motion (c : CyclicClosed) (hL : 0 < c.geom.length) (k : ℕ) (s : ℝ) (h0 : k * c.geom.length < s)
    (h1 : s < (k + 1) * c.geom.length)
    (hm : Frame.HasTwist c.geom.pos (c.geom.vel (s - k * c.geom.length) 1) (s - k * c.geom.length)) (F : ℝ → Frame)
    (hF : ∀ u, 0 ≤ u → c.pos u = some (F u)) :
    ∃ v, c.vel s 1 = some v ∧ Frame.HasTwist F v s := by
  refine ⟨_, (C64_cycle c hL k s 1 0 h0.le h1).2.1, ?_⟩
  refine Frame.HasTwist.shift hm (fun u k0 k1 => ?_) h0 h1
  have h := (C64_cycle c hL k u 0 0 k0.le k1).1
  rw [hF u (le_trans (by positivity) k0.le)] at h
  exact Option.some.inj h

/-- **C64 (periodic inner path).**  When the inner path is itself periodic (a full circle), the cyclic path is the inner path
continued, for negative lengths too. -/
theorem C64_unrolled (c : CyclicClosed) (hL : 0 < c.geom.length)
    (hp : ∀ s, c.geom.pos (s + c.geom.length) = c.geom.pos s) (s : ℝ) : c.pos s = some (c.geom.pos s) := by
  have hn : ∀ (n : ℕ) s, c.geom.pos (s + n * c.geom.length) = c.geom.pos s := by
    intro n
    induction n with
    | zero => intro s; simp
    | succ n ih =>
      intro s
      have : s + ((n + 1 : ℕ) : ℝ) * c.geom.length = (s + n * c.geom.length) + c.geom.length := by push_cast; ring
      rw [this, hp, ih]
  have hz : ∀ (k : ℤ) s, c.geom.pos (s - c.geom.length * k) = c.geom.pos s := by
    intro k s
    obtain ⟨n, rfl | rfl⟩ := Int.eq_nat_or_neg k
    · have := hn n (s - c.geom.length * (n : ℤ))
      rw [← this]; congr 1; push_cast; ring
    · have := hn n s
      rw [← this]; congr 1; push_cast; ring
  unfold pos reduce
  rw [if_neg hL.ne']
  simp only [Option.map_some, Option.some.injEq]
  unfold fmod
  split_ifs
  · exact hz _ s
  · exact hz _ s

/-- **C64 (before the start).**  A negative length is reduced to one between `-PathLength` of the inner path and 0, so the
inner path is continued backwards beyond its start, not traversed from its end. -/
theorem C64_negative (c : CyclicClosed) (hL : 0 < c.geom.length) (k : ℕ) (s sd sdd : ℝ)
    (h0 : -((k + 1) * c.geom.length) < s) (h1 : s ≤ -(k * c.geom.length)) (hs : s < 0) :
    c.pos s = some (c.geom.pos (s + k * c.geom.length)) ∧ c.vel s sd = some (c.geom.vel (s + k * c.geom.length) sd) ∧
      c.acc s sd sdd = some (c.geom.acc (s + k * c.geom.length) sd sdd) := by
  have hf : ⌈s / c.geom.length⌉ = -(k : ℤ) := by
    rw [Int.ceil_eq_iff]
    constructor
    · rw [lt_div_iff₀ hL]; push_cast; linarith
    · rw [div_le_iff₀ hL]; push_cast; linarith
  have hr : c.reduce s = some (s + k * c.geom.length) := by
    unfold reduce fmod
    rw [if_neg hL.ne', if_neg (not_le.mpr (div_neg_of_neg_of_pos hs hL)), hf]
    push_cast
    congr 1; ring
  unfold pos vel acc
  rw [hr]
  exact ⟨rfl, rfl, rfl⟩

/-- **C64 (degenerate).**  Repeating a path of length zero evaluates `fmod(s, 0)`: the result is NaN. -/
theorem C64_zero (c : CyclicClosed) (h : c.geom.length = 0) (s : ℝ) : c.pos s = none := by
  unfold pos reduce
  rw [if_pos h]; rfl

/-- Nothing checks that the inner path is closed; at the end of an open one the position jumps back to its start. -/
theorem C64_open (c : CyclicClosed) (hL : 0 < c.geom.length) (ht : 0 ≤ c.times) : c.pos c.length = some (c.geom.pos 0) := by
  obtain ⟨n, hn⟩ := Int.eq_ofNat_of_zero_le ht
  have h := (C64_cycle c hL n (n * c.geom.length) 0 0 le_rfl (by linarith)).1
  rw [sub_self] at h
  rw [C64_length, hn]
  push_cast
  exact h

/-- Non-vacuity: a full circle of radius one, three times. -/
example : ∃ C, PathCircle.new ⟨1, ⟨1, 0, 0⟩⟩ 0 ⟨0, 1, 0⟩ 1 (2 * π) 1 = .ok C ∧
    0 < (CyclicClosed.mk 3 C.toPath).geom.length ∧
    (∀ s, C.toPath.pos (s + C.toPath.length) = C.toPath.pos s) ∧ (CyclicClosed.mk 3 C.toPath).length = 6 * π := by
  refine ⟨_, arc_ok (2 * π) 1 (by positivity), show 0 < 2 * π by positivity, ?_, ?_⟩
  · intro s
    show PathCircle.pos _ (s + 2 * π) = PathCircle.pos _ s
    unfold PathCircle.pos
    dsimp only
    simp only [mul_one, div_one, mul_zero, cos_add_two_pi, sin_add_two_pi]
  · rw [C64_length]
    show (3 : ℤ) * (2 * π) = 6 * π
    push_cast; ring

end CyclicClosed
end KDL
