import Verif.Lemmas.SvdDiag

/-! The loops of the diagonalisation end regularly and keep the factorisation. -/

noncomputable section

namespace KDL
namespace Svd

open Matrix Finset

variable {m n : ℕ}

theorem split_spec (T : Tests) (a : ℝ) {S tmp : ℕ → ℝ} (h0 : T.tiny a (tmp 0)) : ∀ k, ∃ p nm, split T a S tmp k = some (p, nm) ∧ p ≤ k ∧
    (∀ i, p < i → i ≤ k → ¬ T.tiny a (tmp i)) ∧ (∀ i, p ≤ i → i < k → ¬ T.tinyS a (S i)) ∧
    ((nm = none ∧ T.tiny a (tmp p)) ∨ ∃ q, p = q + 1 ∧ nm = some q ∧ ¬ T.tiny a (tmp p) ∧ T.tinyS a (S q))
  | 0 => by
    refine ⟨0, none, ?_, le_rfl, fun i _ _ => by omega, fun i _ _ => by omega, Or.inl ⟨rfl, h0⟩⟩
    rw [split, if_pos h0]
  | k + 1 => by
    rw [split]
    by_cases h1 : T.tiny a (tmp (k + 1))
    · rw [if_pos h1]
      exact ⟨k + 1, none, rfl, le_rfl, fun i _ _ => by omega, fun i _ _ => by omega, Or.inl ⟨rfl, h1⟩⟩
    · rw [if_neg h1]
      by_cases h2 : T.tinyS a (S k)
      · rw [if_pos h2]
        exact ⟨k + 1, some k, rfl, le_rfl, fun i _ _ => by omega, fun i _ _ => by omega, Or.inr ⟨k, rfl, rfl, h1, h2⟩⟩
      · rw [if_neg h2]
        obtain ⟨p, nm, e, r1, r2, r3, r4⟩ := split_spec T a (S := S) h0 k
        refine ⟨p, nm, e, by omega, ?_, ?_, r4⟩
        · intro i e1 e2
          by_cases e3 : i = k + 1
          · rw [e3]; exact h1
          · exact r2 i e1 (by omega)
        · intro i e1 e2
          by_cases e3 : i = k
          · rw [e3]; exact h2
          · exact r3 i e1 (by omega)

/-- Splitting and cancellation. -/
theorem front_spec (T : Tests) (a : ℝ) (h0 : T.tiny a 0) (h0' : T.tinyS a 0) {A : Matrix (Fin m) (Fin n) ℝ} {k : ℕ} (hk : k < n)
    (δ E ε : ℝ) (st : Dg) (ht0 : st.tmp 0 = 0) : ∃ p nm st1, split T a st.S st.tmp k = some (p, nm) ∧
    cancelIf T a k p nm st = .ok st1 ∧ p ≤ k ∧ st1.V = st.V ∧ st1.tmp 0 = 0 ∧ (∀ j, k < j → st1.S j = st.S j) ∧
    (∀ i, p < i → i ≤ k → st1.tmp i ≠ 0) ∧ (∀ i, p ≤ i → i < k → st1.S i ≠ 0) ∧ (Iso m n st.U st.V → Iso m n st1.U st1.V) ∧
    ((∀ x, T.tiny a x → |x| ≤ δ) → (∀ x, |x| ≤ fro A + E → T.tinyS a x → |x| ≤ δ) → ε ≤ E →
      Near A (M m n st.U) (M n n st.V) (M n n (Bk (k + 1) st.S st.tmp)) ε →
      Near A (M m n st1.U) (M n n st1.V) (M n n (Bk (k + 1) st1.S (set st1.tmp p 0))) (ε + 3 * δ)) := by
  obtain ⟨p, nm, e, hp, r1, r2, r3⟩ := split_spec T a (S := st.S) (tmp := st.tmp) (by rw [ht0]; exact h0) k
  have ht : ∀ i, p < i → i ≤ k → st.tmp i ≠ 0 := fun i h1 h2 h => r1 i h1 h2 (by rw [h]; exact h0)
  have hS : ∀ i, p ≤ i → i < k → st.S i ≠ 0 := fun i h1 h2 h => r2 i h1 h2 (by rw [h]; exact h0')
  rcases r3 with ⟨rfl, h1⟩ | ⟨q, rfl, rfl, h1, h2⟩
  · refine ⟨p, none, st, e, rfl, hp, rfl, ht0, fun _ _ => rfl, ht, hS, id, ?_⟩
    intro hd _ _ hN
    have hδ : 0 ≤ δ := (abs_nonneg _).trans (hd _ h0)
    by_cases hp0 : p = 0
    · refine (hN.congr ?_).mono (by linarith)
      intro r _ c _
      simp only [Bk]
      by_cases e1 : c = r
      · rw [if_pos e1, if_pos e1]
      · rw [if_neg e1, if_neg e1]
        by_cases e2 : c = r + 1 ∧ c < k + 1
        · rw [if_pos e2, if_pos e2, set_ne _ _ (by omega)]
        · rw [if_neg e2, if_neg e2]
    · obtain ⟨q, rfl⟩ := Nat.exists_eq_succ_of_ne_zero hp0
      refine (hN.put (i := q) (j := q + 1) (δ := δ) (by omega) (by omega) ?_ ?_).mono (by linarith)
      · intro r c hrc
        simp only [Bk]
        by_cases e1 : c = r
        · rw [if_pos e1, if_pos e1]
        · rw [if_neg e1, if_neg e1]
          by_cases e2 : c = r + 1 ∧ c < k + 1
          · rw [if_pos e2, if_pos e2, set_ne _ _ (by omega)]
          · rw [if_neg e2, if_neg e2]
      · have e3 : q + 1 < k + 1 := by omega
        simp only [Bk, show ¬ q + 1 = q by omega, if_false, e3, and_self, if_true, Nat.succ_eq_add_one, set_same, sub_zero]
        exact hd _ h1
  · have hn1 : st.tmp (q + 1) ≠ 0 := fun h => h1 (by rw [h]; exact h0)
    obtain ⟨st1, e1, c1, c2, c3, c4, c5, c6, c7, c8, c9⟩ := cancel_spec T a h0 (A := A) (nm := q) hk st.V δ (k + 1 - (q + 1)) (q + 1) 0 1
      st (ε + δ) (by omega) (by omega) rfl (by intro h; omega) (by intro _; exact ⟨rfl, rfl⟩) (by intro h; omega)
      (by
        intro j h3 h4
        by_cases h5 : j = q + 1
        · rw [h5]; exact hn1
        · exact ht j (by omega) h4)
      (by intro j h3 h4; exact hS j (by omega) h4) (by intro j h3 h4; omega)
    refine ⟨q + 1, some q, st1, e, e1, hp, c1, ?_, fun j hj => (c4 j hj).2, c6, fun i h3 h4 => c7 i (by omega) h4, ?_, ?_⟩
    · rw [c3 0 (by omega), ht0]
    · rw [c1]; exact c8
    · intro hd hdS hE hN
      have hSq : |st.S q| ≤ δ := by
        refine hdS _ ?_ h2
        have := hN.entry ⟨q, by omega⟩ ⟨q, by omega⟩
        simp only [M, Bk, if_true] at this
        linarith
      have hN1 : Near A (M m n st.U) (M n n st.V) (M n n (Ck (k + 1) q (q + 1) 0 1 st.S st.tmp)) (ε + δ) := by
        refine hN.put (i := q) (j := q) (by omega) (by omega) ?_ ?_
        · intro r c hrc
          simp only [Bk, Ck]
          by_cases e1 : c = r
          · subst e1
            have e2 : ¬ c = q := fun h => hrc ⟨h, h⟩
            simp only [if_true, e2, if_false, false_and, add_zero]
          · simp only [e1, if_false]
            by_cases e2 : c = r + 1 ∧ c < k + 1
            · rw [if_pos e2, if_pos e2]
              by_cases e3 : c = q + 1
              · rw [if_pos e3, if_pos ⟨by omega, e3, by omega⟩, e3]; ring
              · rw [if_neg e3, if_neg (fun h => e3 h.2.1)]; ring
            · rw [if_neg e2, if_neg e2, if_neg (by rintro ⟨rfl, h2, h3⟩; exact e2 ⟨h2, by omega⟩), add_zero]
        · simp only [Bk, Ck, if_true, show ¬ q = q + 1 by omega, false_and, and_false, if_false, add_zero, sub_zero]
          exact hSq
      have hN2 := c9 hd hN1
      rw [c1]
      refine (hN2.put (C' := Bk (k + 1) st1.S (set st1.tmp (q + 1) 0)) (i := q) (j := q) (δ := δ) (by omega) (by omega) ?_ ?_).mono (by linarith)
      · intro r c hrc
        simp only [Bk]
        by_cases e1 : c = r
        · rw [if_pos e1, if_pos e1, set_ne _ _ (by omega)]
        · rw [if_neg e1, if_neg e1]
      · simp only [Bk, if_true, set_same, zero_sub, abs_neg, c2]
        exact hSq

theorem Qk_start {t p : ℕ} (f : ℝ) (S tm : ℕ → ℝ) (r q : ℕ) : Bk t S (set tm p 0) r q = Qk t p p f (S p) 1 1 S tm r q := by
  simp only [Bk, Qk, lt_irrefl, false_and, if_false, add_zero, one_mul]
  by_cases e1 : q = r
  · rw [if_pos e1, if_pos e1]
    by_cases e2 : r = p
    · rw [if_pos e2, e2]
    · rw [if_neg e2]
  · rw [if_neg e1, if_neg e1]
    by_cases e2 : q = r + 1 ∧ q < t
    · rw [if_pos e2, if_pos e2]
      by_cases e3 : q = p
      · rw [if_pos e3, e3, set_same]
      · rw [if_neg e3, if_neg e3, set_ne _ _ e3, ite_self]
    · rw [if_neg e2, if_neg e2]

theorem Qk_end {p k : ℕ} (hp : p < k) (f x c s : ℝ) (S tm : ℕ → ℝ) (r q : ℕ) :
    Qk (k + 1) p k f x c s S tm r q = Bk (k + 1) (set S k x) (set (set tm p 0) k f) r q := by
  simp only [Bk, Qk, show ¬ (p < k ∧ r + 1 = k ∧ q = k + 1 ∧ q < k + 1) by omega, if_false, add_zero]
  by_cases e1 : q = r
  · rw [if_pos e1, if_pos e1]
    by_cases e2 : r = k
    · rw [if_pos e2, e2, set_same]
    · rw [if_neg e2, set_ne _ _ e2]
  · rw [if_neg e1, if_neg e1]
    by_cases e2 : q = r + 1 ∧ q < k + 1
    · rw [if_pos e2, if_pos e2]
      by_cases e3 : q = p
      · rw [if_pos e3, set_ne _ _ (by omega), e3, set_same]
      · rw [if_neg e3]
        by_cases e4 : q = k
        · rw [if_pos e4, e4, set_same]
        · rw [if_neg e4, if_neg (by omega), set_ne _ _ e4, set_ne _ _ e3]
    · rw [if_neg e2, if_neg e2]

/-- The iterations for one singular value. -/
theorem diagK_spec (T : Tests) (a : ℝ) (h0 : T.tiny a 0) (h0' : T.tinyS a 0) (hb : ∀ x, T.big x → x ≠ 0) {A : Matrix (Fin m) (Fin n) ℝ}
    {k : ℕ} (hk : k < n) (δ E : ℝ) : ∀ (N : ℕ) (its : Int) (st : Dg) (ε : ℝ), st.tmp 0 = 0 →
    ∃ its' st', diagK T a k N its st = .ok (its', st') ∧ st'.tmp 0 = 0 ∧ its ≤ its' ∧ its' ≤ its + N ∧ (k = 0 → its' = its) ∧
      (∀ j, k < j → st'.S j = st.S j) ∧ (Iso m n st.U st.V → Iso m n st'.U st'.V) ∧ (its' < its + N → 0 ≤ st'.S k) ∧
      ((∀ x, ¬ T.big x → x = 0) → (∀ x, T.tiny a x → |x| ≤ δ) → (∀ x, |x| ≤ fro A + E → T.tinyS a x → |x| ≤ δ) →
        ε + 3 * δ * N ≤ E → Near A (M m n st.U) (M n n st.V) (M n n (Bk (k + 1) st.S st.tmp)) ε → its' < its + N →
        Near A (M m n st'.U) (M n n st'.V) (M n n (Bk k st'.S st'.tmp)) (ε + 3 * δ * N))
  | 0, its, st, ε, ht0 => by
    refine ⟨its, st, rfl, ht0, le_rfl, by simp, fun _ => rfl, fun _ _ => rfl, id, ?_, ?_⟩
    · intro h; simp at h
    · intro _ _ _ _ _ h; simp at h
  | N + 1, its, st, ε, ht0 => by
    obtain ⟨p, nm, st1, e1, e2, hp, c1, c2, c3, c4, c5, c6, c7⟩ := front_spec T a h0 h0' (A := A) hk δ E ε st ht0
    rw [diagK, e1]
    dsimp only
    rw [e2]
    simp only [bind, Except.bind]
    by_cases hpk : p = k
    · rw [if_pos hpk]
      subst hpk
      have hB : ∀ (S' : ℕ → ℝ) r c, Bk (p + 1) S' (set st1.tmp p 0) r c = Bk p S' st1.tmp r c := by
        intro S' r c
        simp only [Bk]
        by_cases d1 : c = r
        · rw [if_pos d1, if_pos d1]
        · rw [if_neg d1, if_neg d1]
          by_cases d2 : c = r + 1 ∧ c < p
          · rw [if_pos ⟨d2.1, by omega⟩, if_pos d2, set_ne _ _ (by omega)]
          · rw [if_neg d2]
            by_cases d3 : c = r + 1 ∧ c < p + 1
            · rw [if_pos d3, show c = p by omega, set_same]
            · rw [if_neg d3]
      have hN' : (∀ x, T.tiny a x → |x| ≤ δ) → (∀ x, |x| ≤ fro A + E → T.tinyS a x → |x| ≤ δ) →
          ε + 3 * δ * ((N + 1 : ℕ) : ℝ) ≤ E → Near A (M m n st.U) (M n n st.V) (M n n (Bk (p + 1) st.S st.tmp)) ε →
          Near A (M m n st1.U) (M n n st1.V) (M n n (Bk p st1.S st1.tmp)) (ε + 3 * δ * ((N + 1 : ℕ) : ℝ)) := by
        intro hd hdS hE hN
        have hδ : 0 ≤ δ := (abs_nonneg _).trans (hd _ h0)
        have hm : 0 ≤ δ * N := mul_nonneg hδ (Nat.cast_nonneg N)
        push_cast at hE ⊢
        exact ((c7 hd hdS (by nlinarith) hN).congr fun r _ c _ => hB _ r c).mono (by nlinarith)
      by_cases hz : st1.S p < 0
      · rw [if_pos hz]
        refine ⟨_, _, rfl, c2, le_rfl, by push_cast; omega, fun _ => rfl, ?_, fun hI => (c6 hI).flip p, ?_, ?_⟩
        · intro j hj; dsimp only; rw [set_ne _ _ (by omega), c3 j hj]
        · intro _; dsimp only; rw [set_same]; linarith
        · intro _ hd hdS hE hN _
          refine ((hN' hd hdS hE hN).flip p).congr ?_
          intro r _ c _
          simp only [flipCol, Bk]
          by_cases d1 : c = r
          · subst d1
            simp only [if_true]
            by_cases d2 : c = p
            · rw [if_pos d2, d2, set_same]
            · rw [if_neg d2, set_ne _ _ d2]
          · simp only [d1, if_false]
            by_cases d2 : c = r + 1 ∧ c < p
            · rw [if_pos d2, if_neg (by omega)]
            · rw [if_neg d2, neg_zero, ite_self]
      · rw [if_neg hz]
        exact ⟨_, _, rfl, c2, le_rfl, by push_cast; omega, fun _ => rfl, c3, c6, fun _ => not_lt.mp hz,
          fun _ hd hdS hE hN _ => hN' hd hdS hE hN⟩
    · rw [if_neg hpk]
      have hpk' : p < k := by omega
      have hxk : st1.tmp k ≠ 0 := c4 k hpk' le_rfl
      have hy : st1.S (k - 1) ≠ 0 := c5 _ (by omega) (by omega)
      rw [if_neg (by tauto), if_neg (c5 p le_rfl hpk'), if_neg (add_SIGN_ne fun h => one_ne_zero (pythag_eq_zero.mp h).2)]
      generalize ((st1.S p - st1.S k) * (st1.S p + st1.S k) + _) / st1.S p = f
      obtain ⟨f', x', c', s', st2, q1, q2, q3, q4, q5⟩ := qr_spec T hb (A := A) (p := p) hk (ε + 3 * δ) (k - p) p f (st1.S p) 1 1 st1
        (by omega) le_rfl (fun _ => one_ne_zero) c4 (fun i d1 d2 => c5 i (by omega) d2)
      rw [q1]
      dsimp only
      have ht2 : set (set st2.tmp p 0) k f' 0 = 0 := by
        rw [set_ne _ _ (by omega)]
        by_cases d1 : p = 0
        · rw [d1, set_same]
        · rw [set_ne _ _ (by omega), (q2 0 (by omega)).1, c2]
      obtain ⟨its', st3, d1, d2, d3, d4, d5, d6, d7, d8, d9⟩ := diagK_spec T a h0 h0' hb (A := A) hk δ E N (its + 1)
        { st2 with tmp := set (set st2.tmp p 0) k f', S := set st2.S k x' } (ε + 3 * δ) ht2
      refine ⟨its', st3, d1, d2, by omega, by push_cast; omega, by omega, ?_, fun hI => d7 (q4 (c6 hI)), fun h => d8 (by push_cast at h; omega), ?_⟩
      · intro j hj; rw [d6 j hj]; dsimp only; rw [set_ne _ _ (by omega), (q3 j hj).2, c3 j hj]
      · intro hx hd hdS hE hN hc
        have hδ : 0 ≤ δ := (abs_nonneg _).trans (hd _ h0)
        have hm : 0 ≤ δ * N := mul_nonneg hδ (Nat.cast_nonneg N)
        push_cast at hE hc ⊢
        refine (d9 hx hd hdS (by nlinarith) ?_ (by omega)).mono (by nlinarith)
        have hQ := q5 hx ((c7 hd hdS (by nlinarith) hN).congr fun r _ c _ => Qk_start f _ _ r c)
        exact hQ.congr fun r _ c _ => Qk_end hpk' _ _ _ _ _ _ r c

/-- The loop over the singular values. -/
theorem diagAll_spec (T : Tests) (a : ℝ) (h0 : T.tiny a 0) (h0' : T.tinyS a 0) (hb : ∀ x, T.big x → x ≠ 0) {A : Matrix (Fin m) (Fin n) ℝ}
    (δ E : ℝ) (maxiter : Int) : ∀ (t : ℕ) (l : List Int) (st : Dg) (ε : ℝ), t ≤ n → st.tmp 0 = 0 →
    ∃ l2 st', diagAll T a maxiter t l st = .ok (l2 ++ l, st') ∧ l2.length = t ∧ (0 < t → l2.head? = some 1) ∧
      (∀ x ∈ l2, 1 ≤ x ∧ x ≤ 1 + maxiter.toNat) ∧ (Iso m n st.U st.V → Iso m n st'.U st'.V) ∧ (∀ j, t ≤ j → st'.S j = st.S j) ∧
      ((∀ x ∈ l2, x < 1 + maxiter.toNat) → ∀ j < t, 0 ≤ st'.S j) ∧
      ((∀ x, ¬ T.big x → x = 0) → (∀ x, T.tiny a x → |x| ≤ δ) → (∀ x, |x| ≤ fro A + E → T.tinyS a x → |x| ≤ δ) →
        ε + 3 * δ * maxiter.toNat * t ≤ E → Near A (M m n st.U) (M n n st.V) (M n n (Bk t st.S st.tmp)) ε →
        (∀ x ∈ l2, x < 1 + maxiter.toNat) →
        Near A (M m n st'.U) (M n n st'.V) (M n n (Bk 0 st'.S st'.tmp)) (ε + 3 * δ * maxiter.toNat * t))
  | 0, l, st, ε, _, _ => by
    refine ⟨[], st, rfl, rfl, by simp, by simp, id, fun _ _ => rfl, fun _ j hj => by omega, ?_⟩
    intro _ _ _ _ hN _; simpa using hN
  | t + 1, l, st, ε, ht, ht0 => by
    obtain ⟨its, st1, e1, c1, c2, c3, c3', c4, c5, c6, c7⟩ := diagK_spec T a h0 h0' hb (A := A) (by omega : t < n) δ E maxiter.toNat 1 st ε ht0
    rw [diagAll, e1]
    simp only [bind, Except.bind]
    obtain ⟨l2, st2, e2, d1, d1', d2, d3, d4, d5, d6⟩ := diagAll_spec T a h0 h0' hb (A := A) δ E maxiter t (its :: l) st1
      (ε + 3 * δ * maxiter.toNat) (by omega) c1
    refine ⟨l2 ++ [its], st2, ?_, ?_, ?_, ?_, fun h => d3 (c5 h), ?_, ?_, ?_⟩
    · rw [e2, List.append_assoc]; rfl
    · rw [List.length_append, d1]; rfl
    · intro _
      rcases Nat.eq_zero_or_pos t with h | h
      · have : l2 = [] := List.length_eq_zero_iff.mp (by omega)
        rw [this, c3' h]; rfl
      · rw [List.head?_append, d1' h]; rfl
    · intro x hx
      rcases List.mem_append.mp hx with h | h
      · exact d2 x h
      · rw [List.mem_singleton.mp h]; exact ⟨c2, c3⟩
    · intro j hj; rw [d4 j (by omega), c4 j (by omega)]
    · intro hc j hj
      by_cases h : j = t
      · rw [h, d4 t le_rfl]; exact c6 (hc _ (by simp))
      · exact d5 (fun x hx => hc x (by simp [hx])) j (by omega)
    · intro hx hd hdS hE hN hc
      have hδ : 0 ≤ δ := (abs_nonneg _).trans (hd _ h0)
      have hm : 0 ≤ δ * maxiter.toNat * t := by positivity
      push_cast at hE ⊢
      have hN1 := c7 hx hd hdS (by nlinarith) hN (hc _ (by simp))
      exact (d6 hx hd hdS (by nlinarith) hN1 (fun x hx => hc x (by simp [hx]))).mono (by nlinarith)

end Svd
end KDL
