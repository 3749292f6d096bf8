import Verif.Lemmas.Path
import Mathlib.Algebra.BigOperators.Group.List.Basic
import Mathlib.Algebra.Order.BigOperators.Group.List

/-!
# C62: `Path_Composite`

The composite runs through its segments one after the other.  The `const` members keep a cache of the last segment; the
theorems quantify over every object reachable by construction, `Add` and any sequence of queries.
-/

noncomputable section
namespace KDL
open Real

namespace PathComposite

/-- Objects that can be produced by the public interface. -/
inductive Reach : PathComposite → Prop
  | new : Reach .new
  | add {c} (h : Reach c) (g : PathI) : Reach (c.add g)
  | query {c s r c'} (h : Reach c) (hq : c.lookup s = some (r, c')) : Reach c'

end PathComposite

/-- Path length before segment `i`. -/
def pre (gs : List PathI) (i : ℕ) : ℝ := ((gs.take i).map PathI.length).sum

/-- Consecutive segments join: each ends where the next one starts. -/
def Joined (gs : List PathI) : Prop :=
  ∀ i g h, gs[i]? = some g → gs[i + 1]? = some h → g.pos g.length = h.pos 0

/-! ### helpers -/

theorem pre_zero (gs : List PathI) : pre gs 0 = 0 := by simp [pre]

theorem pre_succ (gs : List PathI) (i : ℕ) (g : PathI) (h : gs[i]? = some g) : pre gs (i + 1) = pre gs i + g.length := by
  unfold pre
  rw [List.take_add_one, h]
  simp

theorem pre_append (gs hs : List PathI) (i : ℕ) (h : i ≤ gs.length) : pre (gs ++ hs) i = pre gs i := by
  unfold pre
  rw [List.take_append_of_le_length h]

theorem pre_mono (gs : List PathI) (h : ∀ g ∈ gs, 0 ≤ g.length) {i j : ℕ} (hij : i ≤ j) : pre gs i ≤ pre gs j := by
  induction hij with
  | refl => exact le_rfl
  | @step m _ ih =>
    refine ih.trans ?_
    rcases hm : gs[m]? with _ | g
    · unfold pre
      rw [List.take_add_one, hm]; simp
    · rw [Nat.succ_eq_add_one, pre_succ gs m g hm]
      have := h g (List.mem_of_getElem? hm)
      linarith

theorem Joined.skip {gs : List PathI} (hj : Joined gs) (hn : ∀ g ∈ gs, 0 ≤ g.length) (i : ℕ) (g : PathI)
    (hg : gs[i]? = some g) : ∀ (k : ℕ) (h : PathI), gs[i + k]? = some h → ∀ s, pre gs i ≤ s → s ≤ pre gs (i + 1) →
      pre gs (i + k) ≤ s → s ≤ pre gs (i + k + 1) → g.pos (s - pre gs i) = h.pos (s - pre gs (i + k)) := by
  intro k
  induction k with
  | zero => intro h hh s _ _ _ _; rw [Nat.add_zero] at hh ⊢; rw [hg] at hh; cases hh; rfl
  | succ k ih =>
    intro h hh s h1 h2 h3 h4
    have hk : i + k < gs.length := by
      have := (List.getElem?_eq_some_iff.mp hh).1
      omega
    obtain ⟨m, hm⟩ : ∃ m, gs[i + k]? = some m := ⟨gs[i + k], List.getElem?_eq_getElem hk⟩
    have e1 : pre gs (i + 1) ≤ pre gs (i + (k + 1)) := pre_mono gs hn (by omega)
    have e2 : pre gs (i + k) ≤ pre gs (i + k + 1) := pre_mono gs hn (by omega)
    have e3 : s = pre gs (i + k + 1) := le_antisymm (h2.trans e1) h3
    have hs : pre gs (i + k) ≤ s := e3 ▸ e2
    have := ih m hm s h1 h2 hs e3.le
    rw [this, e3, pre_succ gs _ m hm]
    have e4 : pre gs (i + (k + 1)) = pre gs (i + k) + m.length := pre_succ gs _ m hm
    rw [e4]
    simp only [add_sub_cancel_left, sub_self]
    exact hj _ _ _ hm hh

namespace PathComposite

/-- The invariant of reachable objects. -/
structure Inv (c : PathComposite) : Prop where
  dv : ∀ i, c.dv[i]? = if i < c.gv.length then some (pre c.gv (i + 1)) else none
  len : c.pathlength = pre c.gv c.gv.length
  starts : c.cachedStarts = pre c.gv c.cachedIndex
  ends : (c.cachedIndex < c.gv.length ∧ c.cachedEnds = pre c.gv (c.cachedIndex + 1)) ∨ (c.cachedIndex = 0 ∧ c.cachedEnds = 0)

theorem Inv.dv_length {c : PathComposite} (h : Inv c) : c.dv.length = c.gv.length := by
  apply le_antisymm
  · by_contra hc
    have := h.dv c.gv.length
    rw [if_neg (lt_irrefl _)] at this
    rw [List.getElem?_eq_none_iff] at this
    omega
  · by_contra hc
    push Not at hc
    have := h.dv c.dv.length
    rw [if_pos hc, List.getElem?_eq_none le_rfl] at this
    cases this

theorem lookupLoop_spec (s : ℝ) : ∀ (es : List ℝ) (i : ℕ) (prev : ℝ) (r : ℝ) (j : ℕ) (a b : ℝ),
    lookupLoop s es i prev = some (r, j, a, b) → ∃ k, j = i + k ∧ es[k]? = some b ∧ (prev :: es)[k]? = some a ∧ r = s - a ∧
      (∀ l e, l < k → es[l]? = some e → e < s) ∧ (s ≤ b ∨ k + 1 = es.length) := by
  intro es
  induction es with
  | nil => intro i prev r j a b h; simp [lookupLoop] at h
  | cons e es ih =>
    intro i prev r j a b h
    unfold lookupLoop at h
    split_ifs at h with hc
    · simp only [Option.some.injEq, Prod.mk.injEq] at h
      obtain ⟨rfl, rfl, rfl, rfl⟩ := h
      refine ⟨0, rfl, rfl, rfl, rfl, by simp, ?_⟩
      rcases hc with hc | hc
      · exact Or.inl hc
      · right; simp [hc]
    · obtain ⟨k, rfl, h2, h3, h4, h5, h6⟩ := ih _ _ _ _ _ _ h
      refine ⟨k + 1, by omega, by simpa using h2, by simpa using h3, h4, ?_, ?_⟩
      · intro l e' hl he
        cases l with
        | zero => simp at he; subst he; exact lt_of_not_ge fun q => hc (Or.inl q)
        | succ l => exact h5 l e' (by omega) (by simpa using he)
      · rcases h6 with h6 | h6
        · exact Or.inl h6
        · right; simp [h6]

theorem lookupLoop_total (s : ℝ) : ∀ (es : List ℝ) (i : ℕ) (prev : ℝ), es ≠ [] → (lookupLoop s es i prev).isSome := by
  intro es
  induction es with
  | nil => intro i prev h; exact absurd rfl h
  | cons e es ih =>
    intro i prev _
    unfold lookupLoop
    split_ifs with hc
    · rfl
    · exact ih _ _ fun h => hc (Or.inr h)

theorem lookup_gv {c c' : PathComposite} {s r : ℝ} (h : c.lookup s = some (r, c')) :
    c'.gv = c.gv ∧ c'.dv = c.dv ∧ c'.pathlength = c.pathlength := by
  unfold lookup at h
  split_ifs at h
  · cases h; exact ⟨rfl, rfl, rfl⟩
  · split at h <;> · cases h; exact ⟨rfl, rfl, rfl⟩

private theorem dv_pre {c : PathComposite} (h : Inv c) (k : ℕ) (a : ℝ) (ha : ((0 : ℝ) :: c.dv)[k]? = some a)
    : a = pre c.gv k := by
  cases k with
  | zero => simp at ha; rw [← ha, pre_zero]
  | succ k =>
    simp only [List.getElem?_cons_succ] at ha
    rw [h.dv] at ha
    split_ifs at ha
    cases ha; rfl

/-- What one lookup does, in terms of the segments only. -/
theorem lookup_inv {c c' : PathComposite} {s r : ℝ} (hI : Inv c) (h : c.lookup s = some (r, c')) : Inv c' := by
  unfold lookup at h
  split_ifs at h with h1 h2
  · cases h; exact hI
  · rcases hl : lookupLoop s c.dv 0 0 with _ | ⟨r', i, a, b⟩
    · rw [hl] at h; cases h; exact hI
    · rw [hl] at h
      simp only [Option.some.injEq, Prod.mk.injEq] at h
      obtain ⟨rfl, rfl⟩ := h
      obtain ⟨k, rfl, h2, h3, h4, h5, h6⟩ := lookupLoop_spec _ _ _ _ _ _ _ _ hl
      rw [Nat.zero_add]
      have hb := hI.dv k
      rw [h2] at hb
      split_ifs at hb with hk
      exact ⟨hI.dv, hI.len, dv_pre hI k a h3, Or.inl ⟨hk, Option.some.inj hb⟩⟩

theorem Reach.inv {c : PathComposite} (h : Reach c) : Inv c := by
  induction h with
  | new => exact ⟨by simp [PathComposite.new], by simp [PathComposite.new, pre], by simp [PathComposite.new, pre],
      Or.inr ⟨rfl, rfl⟩⟩
  | @add c _ g ih =>
    have hl := ih.dv_length
    refine ⟨?_, ?_, ?_, ?_⟩
    · intro i
      simp only [PathComposite.add, List.length_append, List.length_cons, List.length_nil]
      rcases lt_trichotomy i c.gv.length with h | h | h
      · rw [List.getElem?_append_left (by omega), ih.dv, if_pos h, if_pos (by omega), pre_append _ _ _ (by omega)]
      · subst h
        rw [List.getElem?_append_right (by omega), hl, if_pos (by omega), Nat.sub_self]
        rw [pre_succ (c.gv ++ [g]) _ g (by simp), pre_append _ _ _ le_rfl, ih.len]; rfl
      · rw [if_neg (by omega), List.getElem?_eq_none]
        simp; omega
    · simp only [PathComposite.add, List.length_append, List.length_cons, List.length_nil]
      rw [pre_succ (c.gv ++ [g]) _ g (by simp), pre_append _ _ _ le_rfl, ih.len]
    · simp only [PathComposite.add]
      rw [ih.starts, pre_append]
      rcases ih.ends with h | h <;> omega
    · simp only [PathComposite.add, List.length_append, List.length_cons, List.length_nil]
      rcases ih.ends with h | h
      · exact Or.inl ⟨by omega, by rw [h.2, pre_append _ _ _ (by omega)]⟩
      · exact Or.inr h
  | query _ hq ih => exact lookup_inv ih hq

/-- A lookup inside the path finds a segment that contains `s`. -/
theorem lookup_spec {c : PathComposite} (hI : Inv c) (hne : c.gv ≠ []) (hn : ∀ g ∈ c.gv, 0 ≤ g.length) (s : ℝ)
    (h0 : 0 ≤ s) (h1 : s ≤ c.pathlength) :
    ∃ r c' g, c.lookup s = some (r, c') ∧ c'.gv = c.gv ∧ c.gv[c'.cachedIndex]? = some g ∧ r = s - pre c.gv c'.cachedIndex ∧
      pre c.gv c'.cachedIndex ≤ s ∧ s ≤ pre c.gv (c'.cachedIndex + 1) := by
  have hlen : 0 < c.gv.length := List.length_pos_iff.mpr hne
  unfold lookup
  rw [if_pos ⟨by norm_num; linarith, by norm_num; linarith⟩]
  split_ifs with h2
  · rcases hI.ends with ⟨hi, he⟩ | ⟨hi, he⟩
    · exact ⟨_, _, c.gv[c.cachedIndex], rfl, rfl, List.getElem?_eq_getElem hi, by rw [hI.starts], hI.starts ▸ h2.1,
        he ▸ h2.2⟩
    · refine ⟨_, _, c.gv[0], rfl, rfl, ?_, by rw [hI.starts], hI.starts ▸ h2.1, ?_⟩
      · rw [hi]; exact List.getElem?_eq_getElem hlen
      · have : s = 0 := le_antisymm (he ▸ h2.2) h0
        rw [this]
        have := pre_mono c.gv hn (Nat.zero_le (c.cachedIndex + 1))
        rwa [pre_zero] at this
  · have hd : c.dv ≠ [] := by
      rw [← List.length_pos_iff, hI.dv_length]; exact hlen
    obtain ⟨⟨r, j, a, b⟩, hl⟩ := Option.isSome_iff_exists.mp (lookupLoop_total s c.dv 0 0 hd)
    obtain ⟨k, rfl, e2, e3, e4, e5, e6⟩ := lookupLoop_spec _ _ _ _ _ _ _ _ hl
    rw [Nat.zero_add] at hl
    rw [hl]
    have hb := hI.dv k
    rw [e2] at hb
    split_ifs at hb with hk
    have ha := dv_pre hI k a e3
    refine ⟨r, _, c.gv[k], rfl, rfl, List.getElem?_eq_getElem hk, by rw [e4, ha], ?_, ?_⟩
    · dsimp only
      rw [← ha]
      cases k with
      | zero => simp at e3; rw [← e3]; exact h0
      | succ k =>
        simp only [List.getElem?_cons_succ] at e3
        exact (e5 k a (by omega) e3).le
    · dsimp only
      rw [← Option.some.inj hb]
      rcases e6 with e6 | e6
      · exact e6
      · have : c.pathlength = b := by
          rw [Option.some.inj hb, hI.len, ← hI.dv_length, e6]
        rw [← this]; exact h1

end PathComposite

/-! ### C62 -/

open PathComposite

/-- `PathLength`, `GetLengthToEndOfSegment`, `GetSegment` of every reachable object: total and partial sums of the lengths
of the segments, in the order in which they were added; queries change none of these. -/
theorem C62_lengths (c : PathComposite) (h : Reach c) :
    c.pathlength = (c.gv.map PathI.length).sum ∧
      (∀ i, i < c.gv.length → c.lengthToEnd i = some ((c.gv.take (i + 1)).map PathI.length).sum ∧ c.getSegment i = c.gv[i]?) ∧
      (∀ g, (c.add g).gv = c.gv ++ [g]) ∧ (∀ s r c', c.lookup s = some (r, c') → c'.gv = c.gv) := by
  refine ⟨?_, ?_, fun g => rfl, fun s r c' hq => (lookup_gv hq).1⟩
  · rw [h.inv.len, pre, List.take_length]
  · intro i hi
    unfold lengthToEnd getSegment
    rw [h.inv.dv, if_pos hi, h.inv.dv_length, if_pos hi]
    exact ⟨rfl, rfl⟩

/-- `Pos(s)` for `0 ≤ s ≤ PathLength()` is the position of a segment that contains `s`, at the length relative to the start of
that segment.  When the segments join the result is the same for every segment containing `s`; it does not depend on
earlier calls. -/
theorem C62_pos (c : PathComposite) (h : Reach c) (hne : c.gv ≠ []) (hn : ∀ g ∈ c.gv, 0 ≤ g.length) (hj : Joined c.gv)
    (s : ℝ) (h0 : 0 ≤ s) (h1 : s ≤ c.pathlength) :
    ∃ F c', c.pos s = some (F, c') ∧ Reach c' ∧ c'.gv = c.gv ∧
      ∀ i g, c.gv[i]? = some g → pre c.gv i ≤ s → s ≤ pre c.gv (i + 1) → F = g.pos (s - pre c.gv i) := by
  obtain ⟨r, c', g, hl, hg, hgi, hr, e1, e2⟩ := lookup_spec h.inv hne hn s h0 h1
  refine ⟨g.pos r, c', ?_, h.query hl, hg, ?_⟩
  · unfold PathComposite.pos
    rw [hl]
    simp only [Option.bind_eq_bind, Option.bind_some]
    rw [hg, hgi]; rfl
  · intro i g' hg' k1 k2
    rw [hr]
    rcases le_total i c'.cachedIndex with hle | hle
    · obtain ⟨k, hk⟩ := Nat.exists_eq_add_of_le hle
      rw [hk] at hgi e1 e2 ⊢
      exact (hj.skip hn i g' hg' k g hgi s k1 k2 e1 e2).symm
    · obtain ⟨k, hk⟩ := Nat.exists_eq_add_of_le hle
      rw [hk] at hg' k1 k2 ⊢
      exact hj.skip hn _ g hgi k g' hg' s e1 e2 k1 k2

/-- The path starts where the first segment starts and ends where the last one ends. -/
theorem C62_endpoints (c : PathComposite) (h : Reach c) (gs : List PathI) (a b : PathI) (hn : ∀ g ∈ c.gv, 0 ≤ g.length)
    (hj : Joined c.gv) (ha : c.gv.head? = some a) (hb : c.gv = gs ++ [b]) :
    (∃ c', c.pos 0 = some (a.pos 0, c')) ∧ ∃ c', c.pos c.pathlength = some (b.pos b.length, c') := by
  have hne : c.gv ≠ [] := by rw [hb]; simp
  have hp : 0 ≤ c.pathlength := by
    rw [h.inv.len]
    have := pre_mono c.gv hn (Nat.zero_le c.gv.length)
    rwa [pre_zero] at this
  have hb' : c.gv[gs.length]? = some b := by rw [hb]; simp
  constructor
  · obtain ⟨F, c', e1, -, -, e2⟩ := C62_pos c h hne hn hj 0 le_rfl hp
    refine ⟨c', ?_⟩
    have := e2 0 a (by rw [← List.head?_eq_getElem?]; exact ha) (by rw [pre_zero])
      (by have := pre_mono c.gv hn (Nat.zero_le 1); rwa [pre_zero] at this)
    rw [e1, this, pre_zero, sub_zero]
  · obtain ⟨F, c', e1, -, -, e2⟩ := C62_pos c h hne hn hj _ hp le_rfl
    refine ⟨c', ?_⟩
    have hl : c.pathlength = pre c.gv (gs.length + 1) := by rw [h.inv.len, hb]; simp
    have := e2 gs.length b hb' (by rw [hl]; exact pre_mono c.gv hn (by omega)) (by rw [hl])
    rw [e1, this, hl, pre_succ _ _ b hb']
    simp

/-- Strictly inside a segment `Vel` and `Acc` are those of the segment, whatever was called before. -/
theorem C62_vel_partial (c : PathComposite) (h : Reach c) (hn : ∀ g ∈ c.gv, 0 ≤ g.length)
    (i : ℕ) (g : PathI) (hg : c.gv[i]? = some g) (s sd sdd : ℝ) (h0 : pre c.gv i < s) (h1 : s < pre c.gv (i + 1)) :
    (∃ c', c.vel s sd = some (g.vel (s - pre c.gv i) sd, c') ∧ Reach c') ∧
      (∃ c', c.acc s sd sdd = some (g.acc (s - pre c.gv i) sd sdd, c') ∧ Reach c') ∧
      ∃ c', c.currentSegment s = some (i, s - pre c.gv i, c') ∧ Reach c' := by
  have hne : c.gv ≠ [] := by rintro e; rw [e] at hg; simp at hg
  have hil := (List.getElem?_eq_some_iff.mp hg).1
  have k0 : 0 ≤ s := by
    have := pre_mono c.gv hn (Nat.zero_le i)
    rw [pre_zero] at this; linarith
  have k1 : s ≤ c.pathlength := by
    rw [h.inv.len]; exact h1.le.trans (pre_mono c.gv hn (by omega))
  obtain ⟨r, c', g', hl, hgv, hgi, hr, e1, e2⟩ := lookup_spec h.inv hne hn s k0 k1
  have hi : c'.cachedIndex = i := by
    rcases lt_trichotomy c'.cachedIndex i with hlt | heq | hgt
    · have := pre_mono c.gv hn (show c'.cachedIndex + 1 ≤ i by omega); linarith
    · exact heq
    · have := pre_mono c.gv hn (show i + 1 ≤ c'.cachedIndex by omega); linarith
  rw [hi] at hgi hr
  rw [hg] at hgi
  cases hgi
  refine ⟨⟨c', ?_, h.query hl⟩, ⟨c', ?_, h.query hl⟩, ⟨c', ?_, h.query hl⟩⟩
  · unfold PathComposite.vel
    rw [hl]
    simp only [Option.bind_eq_bind, Option.bind_some]
    rw [hgv, hi, hg, hr]; rfl
  · unfold PathComposite.acc
    rw [hl]
    simp only [Option.bind_eq_bind, Option.bind_some]
    rw [hgv, hi, hg, hr]; rfl
  · unfold PathComposite.currentSegment
    rw [hl]
    simp only [Option.bind_eq_bind, Option.bind_some]
    rw [hi, hr]

/-- Strictly inside a segment `Vel(s, 1)` is the twist of the composite path, if it is that of the segment. -/
theorem C62_motion (c : PathComposite) (h : Reach c) (hn : ∀ g ∈ c.gv, 0 ≤ g.length) (hj : Joined c.gv)
    (i : ℕ) (g : PathI) (hg : c.gv[i]? = some g) (s : ℝ) (h0 : pre c.gv i < s) (h1 : s < pre c.gv (i + 1))
    (hm : Frame.HasTwist g.pos (g.vel (s - pre c.gv i) 1) (s - pre c.gv i)) (F : ℝ → Frame)
    (hF : ∀ u, 0 ≤ u → u ≤ c.pathlength → (c.pos u).map Prod.fst = some (F u)) :
    ∃ v c', c.vel s 1 = some (v, c') ∧ Frame.HasTwist F v s := by
  obtain ⟨⟨c', hv, -⟩, -⟩ := C62_vel_partial c h hn i g hg s 1 0 h0 h1
  refine ⟨_, c', hv, ?_⟩
  have hne : c.gv ≠ [] := by rintro e; rw [e] at hg; simp at hg
  have hil := (List.getElem?_eq_some_iff.mp hg).1
  have heq : ∀ u, pre c.gv i < u → u < pre c.gv (i + 1) → F u = g.pos (u - pre c.gv i) := by
    intro u k0 k1
    have a0 : 0 ≤ u := by
      have := pre_mono c.gv hn (Nat.zero_le i)
      rw [pre_zero] at this; linarith
    have a1 : u ≤ c.pathlength := by
      rw [h.inv.len]; exact k1.le.trans (pre_mono c.gv hn (by omega))
    obtain ⟨G, c2, e1, -, -, e2⟩ := C62_pos c h hne hn hj u a0 a1
    have := hF u a0 a1
    rw [e1] at this
    simp only [Option.map_some, Option.some.injEq] at this
    rw [← this]
    exact e2 i g hg k0.le k1.le
  exact Frame.HasTwist.shift hm heq h0 h1

/-- A unit speed motion along a direction, as a path of the given length. -/
def slidePath (p d : Vec) (len : ℝ) : PathI :=
  ⟨len, fun s => ⟨1, p + s • d⟩, fun _ sd => ⟨sd • d, 0⟩, fun _ _ sdd => ⟨sdd • d, 0⟩⟩

/-- One unit along `x`, then one unit along `y`. -/
def bend : PathComposite := (PathComposite.new.add (slidePath 0 ⟨1, 0, 0⟩ 1)).add (slidePath ⟨1, 0, 0⟩ ⟨0, 1, 0⟩ 1)

/-- At a corner `Vel` depends on what was asked before: `x` direction on a new object, `y` direction after a call of
`Pos(1.5)`, although both members are `const` and the path is the same. -/
theorem C62_vel_violated :
    Reach bend ∧ Joined bend.gv ∧ (∃ c, bend.vel 1 1 = some (⟨⟨1, 0, 0⟩, 0⟩, c)) ∧
      ∃ F c c', bend.pos (3 / 2) = some (F, c) ∧ c.gv = bend.gv ∧ c.vel 1 1 = some (⟨⟨0, 1, 0⟩, 0⟩, c') := by
  have hb : bend = ⟨[slidePath 0 ⟨1, 0, 0⟩ 1, slidePath ⟨1, 0, 0⟩ ⟨0, 1, 0⟩ 1], [1, 2], 2, 0, 0, 0⟩ := by
    simp [bend, PathComposite.add, PathComposite.new, slidePath]; norm_num
  have l1 : bend.lookup 1 = some (1, { bend with cachedIndex := 0, cachedStarts := 0, cachedEnds := 1 }) := by
    rw [hb]; unfold lookup
    dsimp only
    rw [if_pos (by norm_num), if_neg (by norm_num)]
    norm_num [lookupLoop]
  have l2 : bend.lookup (3 / 2) = some (1 / 2, { bend with cachedIndex := 1, cachedStarts := 1, cachedEnds := 2 }) := by
    rw [hb]; unfold lookup
    dsimp only
    rw [if_pos (by norm_num), if_neg (by norm_num)]
    norm_num [lookupLoop]
  have l3 : ({ bend with cachedIndex := 1, cachedStarts := 1, cachedEnds := 2 } : PathComposite).lookup 1 =
      some (0, { bend with cachedIndex := 1, cachedStarts := 1, cachedEnds := 2 }) := by
    rw [hb]; unfold lookup
    dsimp only
    rw [if_pos (by norm_num), if_pos (by norm_num)]
    norm_num
  refine ⟨.add (.add .new _) _, ?_, ?_, ?_⟩
  · intro i g h hg hh
    rw [hb] at hg hh
    match i with
    | 0 => simp at hg hh; subst hg hh; simp [slidePath]
    | i + 1 => simp at hh
  · refine ⟨{ bend with cachedIndex := 0, cachedStarts := 0, cachedEnds := 1 }, ?_⟩
    unfold PathComposite.vel
    rw [l1]
    simp only [Option.bind_eq_bind, Option.bind_some]
    rw [hb]
    simp [slidePath]
  · refine ⟨(slidePath ⟨1, 0, 0⟩ ⟨0, 1, 0⟩ 1).pos (1 / 2),
      { bend with cachedIndex := 1, cachedStarts := 1, cachedEnds := 2 },
      { bend with cachedIndex := 1, cachedStarts := 1, cachedEnds := 2 }, ?_, rfl, ?_⟩
    · unfold PathComposite.pos
      rw [l2]
      simp only [Option.bind_eq_bind, Option.bind_some]
      rw [hb]
      simp
    · unfold PathComposite.vel
      rw [l3]
      simp only [Option.bind_eq_bind, Option.bind_some]
      rw [hb]
      simp [slidePath]

/-- A composite without segments cannot be evaluated. -/
theorem C62_empty (s : ℝ) : PathComposite.new.pos s = none := by
  unfold PathComposite.pos
  rcases h : PathComposite.new.lookup s with _ | ⟨r, c'⟩
  · rfl
  · simp only [Option.bind_eq_bind, Option.bind_some]
    rw [(lookup_gv h).1]
    rfl

/-- Outside the path (by more than `1e-12`) the assertions fail. -/
theorem C62_range (c : PathComposite) (s : ℝ) (h : s < -(1 / 10 ^ 12) ∨ c.pathlength + 1 / 10 ^ 12 < s) :
    c.pos s = none ∧ (∀ sd, c.vel s sd = none) ∧ (∀ sd sdd, c.acc s sd sdd = none) ∧ c.currentSegment s = none := by
  have : c.lookup s = none := by
    unfold lookup
    rw [if_neg]
    rintro ⟨h1, h2⟩
    rcases h with h | h <;> linarith
  unfold PathComposite.pos PathComposite.vel PathComposite.acc PathComposite.currentSegment
  rw [this]
  exact ⟨rfl, fun _ => rfl, fun _ _ => rfl, rfl⟩

/-- `Clone` has the same segments (up to cloning them), lengths and no cache. -/
theorem C62_clone (cl : PathI → PathI) (c : PathComposite) (h : Reach c) (hl : ∀ g ∈ c.gv, (cl g).length = g.length) :
    Reach (c.clone cl) ∧ (c.clone cl).gv = c.gv.map cl ∧ (c.clone cl).pathlength = c.pathlength ∧ (c.clone cl).dv = c.dv := by
  have key : ∀ (gs : List PathI) (d : PathComposite), Reach d →
      Reach (gs.foldl (fun d g => d.add (cl g)) d) ∧ (gs.foldl (fun d g => d.add (cl g)) d).gv = d.gv ++ gs.map cl := by
    intro gs
    induction gs with
    | nil => intro d hd; exact ⟨hd, by simp⟩
    | cons g gs ih =>
      intro d hd
      obtain ⟨h1, h2⟩ := ih (d.add (cl g)) (hd.add _)
      refine ⟨h1, ?_⟩
      rw [List.foldl_cons, h2]
      simp [PathComposite.add]
  obtain ⟨k1, k2⟩ := key c.gv .new .new
  have k1 : Reach (c.clone cl) := k1
  have k3 : (c.clone cl).gv = c.gv.map cl := by
    unfold PathComposite.clone; rw [k2]; rfl
  have hpre : ∀ i, pre (c.gv.map cl) i = pre c.gv i := by
    intro i
    unfold pre
    rw [← List.map_take, List.map_map]
    congr 1
    apply List.map_congr_left
    intro g hg
    exact hl g (List.mem_of_mem_take hg)
  refine ⟨k1, k3, ?_, ?_⟩
  · rw [k1.inv.len, h.inv.len, k3, List.length_map, hpre]
  · apply List.ext_getElem?
    intro i
    rw [k1.inv.dv, h.inv.dv, k3, List.length_map, hpre]

/-- The hypotheses of the theorems hold for the bent path. -/
example : Reach bend ∧ bend.gv ≠ [] ∧ (∀ g ∈ bend.gv, 0 ≤ g.length) ∧ Joined bend.gv ∧ bend.pathlength = 2 := by
  refine ⟨C62_vel_violated.1, ?_, ?_, C62_vel_violated.2.1, ?_⟩
  · simp [bend, PathComposite.add]
  · intro g hg
    simp [bend, PathComposite.add, PathComposite.new] at hg
    rcases hg with rfl | rfl <;> simp [slidePath]
  · simp [bend, PathComposite.add, PathComposite.new, slidePath]; norm_num

end KDL
