import Verif.Model.RoundingJac
import Verif.Props.Rounding

/-! C99: rounding errors of the Jacobian. -/

noncomputable section
namespace KDL

/-! ## bounds of single operations -/

/-- Error of a computed matrix (within `d` of a rotation) times a computed vector (within `t` of one of length `a`). -/
def mapErr (g d a t : ℝ) : ℝ := t + (d + g * (Real.sqrt 3 + d)) * (a + t)
/-- Error of a computed vector product; `A` and `E` are the errors of the factors, `a` and `l` bound their lengths. -/
def crossErr (g a A l E : ℝ) : ℝ := (2 * g * (a + A) + A) * (l + E) + a * E

theorem vdist_self (v : Vec) : vdist v v = 0 := by simp [vdist]
theorem vdist_eq_vlen (a b : Vec) : vdist a b = vlen (a - b) := by simp [vdist, vlen]

theorem vlen_cross (a b : Vec) : vlen (a * b) ≤ vlen a * vlen b := by
  refine Real.sqrt_le_iff.mpr ⟨mul_nonneg (vlen_nonneg _) (vlen_nonneg _), ?_⟩
  rw [mul_pow, vlen_sq, vlen_sq]
  simp
  nlinarith [sq_nonneg (a.x * b.x + a.y * b.y + a.z * b.z)]

theorem Fl.cross_err {F : Fl} (h : F.Ok) (a b : Vec) : vdist (F.cross a b) (a * b) ≤ 2 * F.g3 * vlen a * vlen b := by
  have g0 := Fl.g3_nonneg h
  have u0 := h.nonneg
  have s : ∀ p q r s : ℝ, (F.rnd (F.rnd (p * q) - F.rnd (r * s)) - (p * q - r * s)) ^ 2 ≤
      F.g3 ^ 2 * ((p ^ 2 + r ^ 2) * (q ^ 2 + s ^ 2)) := by
    intro p q r s
    have e1 : |F.rnd (p * q) - p * q| ≤ F.u * (|p| * |q|) := by rw [← abs_mul]; exact h.rnd _
    have e2 : |F.rnd (r * s) - r * s| ≤ F.u * (|r| * |s|) := by rw [← abs_mul]; exact h.rnd _
    have e3 : |F.rnd (p * q) - F.rnd (r * s) - (p * q - r * s)| ≤ F.u * (|p| * |q|) + F.u * (|r| * |s|) := by
      rw [show F.rnd (p * q) - F.rnd (r * s) - (p * q - r * s) = (F.rnd (p * q) - p * q) - (F.rnd (r * s) - r * s) by ring]
      exact (abs_sub _ _).trans (add_le_add e1 e2)
    have e4 := Fl.rnd_add h e3
    have e5 : |p * q - r * s| ≤ |p| * |q| + |r| * |s| := by
      rw [← abs_mul, ← abs_mul]; exact abs_sub _ _
    set P := |p| * |q| with hP
    set R := |r| * |s| with hR
    have P0 : 0 ≤ P := by positivity
    have R0 : 0 ≤ R := by positivity
    have e6 : |F.rnd (F.rnd (p * q) - F.rnd (r * s)) - (p * q - r * s)| ≤ F.g3 * (P + R) := by
      have := mul_le_mul_of_nonneg_left e5 u0
      have : 0 ≤ F.u * (P + R) := by positivity
      have : 0 ≤ F.u * F.u * (P + R) := by positivity
      have : 0 ≤ F.u * F.u * F.u * (P + R) := by positivity
      refine e4.trans ?_
      rw [Fl.g3]
      nlinarith
    calc _ = |F.rnd (F.rnd (p * q) - F.rnd (r * s)) - (p * q - r * s)| ^ 2 := (sq_abs _).symm
      _ ≤ (F.g3 * (P + R)) ^ 2 := pow_le_pow_left₀ (abs_nonneg _) e6 2
      _ = F.g3 ^ 2 * (P + R) ^ 2 := by ring
      _ ≤ _ := by
        refine mul_le_mul_of_nonneg_left ?_ (sq_nonneg _)
        rw [hP, hR, ← sq_abs p, ← sq_abs q, ← sq_abs r, ← sq_abs s]
        nlinarith [sq_nonneg (|p| * |s| - |r| * |q|)]
  refine Real.sqrt_le_iff.mpr ⟨by have := vlen_nonneg a; have := vlen_nonneg b; positivity, ?_⟩
  rw [mul_pow, mul_pow, mul_pow, vlen_sq, vlen_sq]
  have s1 := s a.y b.z a.z b.y
  have s2 := s a.z b.x a.x b.z
  have s3 := s a.x b.y a.y b.x
  have hg : 0 ≤ F.g3 ^ 2 := sq_nonneg _
  have k : (a.y ^ 2 + a.z ^ 2) * (b.z ^ 2 + b.y ^ 2) + (a.z ^ 2 + a.x ^ 2) * (b.x ^ 2 + b.z ^ 2) +
      (a.x ^ 2 + a.y ^ 2) * (b.y ^ 2 + b.x ^ 2) ≤ 2 ^ 2 * ((a.x ^ 2 + a.y ^ 2 + a.z ^ 2) * (b.x ^ 2 + b.y ^ 2 + b.z ^ 2)) := by
    nlinarith [mul_nonneg (sq_nonneg a.x) (sq_nonneg b.x), mul_nonneg (sq_nonneg a.x) (sq_nonneg b.y),
      mul_nonneg (sq_nonneg a.x) (sq_nonneg b.z), mul_nonneg (sq_nonneg a.y) (sq_nonneg b.x),
      mul_nonneg (sq_nonneg a.y) (sq_nonneg b.y), mul_nonneg (sq_nonneg a.y) (sq_nonneg b.z),
      mul_nonneg (sq_nonneg a.z) (sq_nonneg b.x), mul_nonneg (sq_nonneg a.z) (sq_nonneg b.y),
      mul_nonneg (sq_nonneg a.z) (sq_nonneg b.z)]
  have k2 := mul_le_mul_of_nonneg_left k hg
  simp [Fl.cross]
  linarith

/-- A computed vector product against the exact one of the ideal factors. -/
theorem cross_near {F : Fl} (hF : F.Ok) {w w' D D' : Vec} {a A l E : ℝ} (hw : vdist w w' ≤ A) (hD : vdist D D' ≤ E)
    (hw' : vlen w' ≤ a) (hD' : vlen D' ≤ l) : vdist (F.cross w D) (w' * D') ≤ crossErr F.g3 a A l E := by
  have g0 := Fl.g3_nonneg hF
  have A0 : 0 ≤ A := (vdist_nonneg _ _).trans hw
  have E0 : 0 ≤ E := (vdist_nonneg _ _).trans hD
  have a0 : 0 ≤ a := (vlen_nonneg _).trans hw'
  have l0 : 0 ≤ l := (vlen_nonneg _).trans hD'
  have lw : vlen w ≤ a + A := (vlen_le w w').trans (by linarith)
  have lD : vlen D ≤ l + E := (vlen_le D D').trans (by linarith)
  have h1 := Fl.cross_err hF w D
  have h2 := vdist_triangle (F.cross w D) (w * D) (w' * D')
  have h3 := vdist_triangle (w * D) (w' * D) (w' * D')
  have h4 : vdist (w * D) (w' * D) ≤ A * (l + E) := by
    have : vdist (w * D) (w' * D) = vlen ((w - w') * D) := by
      rw [vdist_eq_vlen]; congr 1; ext <;> simp <;> ring
    rw [this]
    refine (vlen_cross _ _).trans ?_
    rw [← vdist_eq_vlen]
    exact mul_le_mul hw lD (vlen_nonneg _) A0
  have h5 : vdist (w' * D) (w' * D') ≤ a * E := by
    have : vdist (w' * D) (w' * D') = vlen (w' * (D - D')) := by
      rw [vdist_eq_vlen]; congr 1; ext <;> simp <;> ring
    rw [this]
    refine (vlen_cross _ _).trans ?_
    rw [← vdist_eq_vlen]
    exact mul_le_mul hw' hD (vdist_nonneg _ _) a0
  have h6 : 2 * F.g3 * vlen w * vlen D ≤ 2 * F.g3 * (a + A) * (l + E) :=
    mul_le_mul (mul_le_mul_of_nonneg_left lw (by positivity)) lD (vlen_nonneg _) (by positivity)
  rw [crossErr]
  linarith

/-- A computed rotation times a computed vector. -/
theorem map_near {F : Fl} (hF : F.Ok) {P X : Rot} (hX : X.IsProper) {w w' : Vec} {d a t : ℝ} (hP : rdist P X ≤ d)
    (hw : vdist w w' ≤ t) (hw' : vlen w' ≤ a) : vdist (F.rotVec P w) (X * w') ≤ mapErr F.g3 d a t := by
  have g0 := Fl.g3_nonneg hF
  have d0 : 0 ≤ d := (rdist_nonneg _ _).trans hP
  have t0 : 0 ≤ t := (vdist_nonneg _ _).trans hw
  have a0 : 0 ≤ a := (vlen_nonneg _).trans hw'
  have s3 := Real.sqrt_nonneg 3
  have fP : fro P ≤ Real.sqrt 3 + d := by
    have := fro_le P X
    rw [fro_proper hX] at this
    linarith
  have lw : vlen w ≤ a + t := (vlen_le w w').trans (by linarith)
  have b1 := vdist_triangle (F.rotVec P w) (P * w) (X * w')
  have b2 := vdist_triangle (P * w) (X * w) (X * w')
  rw [vdist_mul_proper hX] at b2
  have b3 := Fl.rotVec_err hF P w
  have b4 := vdist_mul_right P X w
  have b5 : F.g3 * fro P * vlen w ≤ F.g3 * (Real.sqrt 3 + d) * (a + t) :=
    mul_le_mul (mul_le_mul_of_nonneg_left fP g0) lw (vlen_nonneg _) (by positivity)
  have b6 : rdist P X * vlen w ≤ d * (a + t) := mul_le_mul hP lw (vlen_nonneg _) d0
  rw [mapErr]
  linarith

theorem sub_near {F : Fl} (hF : F.Ok) {p q p' q' : Vec} {e l : ℝ} (hp : vdist p p' ≤ e) (hq : vdist q q' ≤ e)
    (hl : vlen (p' - q') ≤ l) : vdist (F.vecSub p q) (p' - q') ≤ 2 * e + F.u * (l + 2 * e) := by
  have h1 : F.vecSub p q = F.vecAdd p (-q) := by
    unfold Fl.vecSub Fl.vecAdd
    simp [sub_eq_add_neg]
  have h2 : p' - q' = p' + -q' := by ext <;> simp <;> ring
  have h3 : vdist (-q) (-q') = vdist q q' := by
    unfold vdist; congr 1; simp; ring
  have a1 := Fl.vecAdd_err hF p (-q)
  have a2 := vdist_add p (-q) p' (-q')
  have a3 := vdist_triangle (F.vecAdd p (-q)) (p + -q) (p' + -q')
  have a4 := vlen_le (p + -q) (p' + -q')
  rw [h2] at hl
  rw [h1, h2]
  rw [h3] at a2
  have a5 : F.u * vlen (p + -q) ≤ F.u * (l + 2 * e) := mul_le_mul_of_nonneg_left (by linarith) hF.nonneg
  linarith

/-! ## columns -/

/-- The column `t` is within `A` (rotation part) and `ε` (velocity part) of `t'`, whose parts are not longer than `a` and `b`. -/
def ColNear (A ε a b : ℝ) (t t' : Twist) : Prop :=
  (vdist t.rot t'.rot ≤ A ∧ vdist t.vel t'.vel ≤ ε) ∧ vlen t'.rot ≤ a ∧ vlen t'.vel ≤ b

theorem col_step {F : Fl} (hF : F.Ok) {t t' : Twist} {D D' : Vec} {A ε a b l E : ℝ} (h : ColNear A ε a b t t')
    (hD : vdist D D' ≤ E) (hD' : vlen D' ≤ l) :
    ColNear A ((1 + F.u) * (ε + crossErr F.g3 a A l E) + F.u * (b + a * l)) a (b + a * l) (F.refPoint t D) (t'.refPoint D') := by
  obtain ⟨⟨h1, h2⟩, h3, h4⟩ := h
  have u0 := hF.nonneg
  have a0 : 0 ≤ a := (vlen_nonneg _).trans h3
  have hc := cross_near hF h1 hD h3 hD'
  have hl : vlen (t'.vel + t'.rot * D') ≤ b + a * l := by
    have := vlen_add t'.vel (t'.rot * D')
    have := vlen_cross t'.rot D'
    have : vlen t'.rot * vlen D' ≤ a * l := mul_le_mul h3 hD' (vlen_nonneg _) a0
    linarith
  refine ⟨⟨h1, ?_⟩, h3, hl⟩
  show vdist (F.vecAdd t.vel (F.cross t.rot D)) (t'.vel + t'.rot * D') ≤ _
  set x := F.cross t.rot D with hx
  have b1 := Fl.vecAdd_err hF t.vel x
  have b2 := vdist_add t.vel x t'.vel (t'.rot * D')
  have b3 := vdist_triangle (F.vecAdd t.vel x) (t.vel + x) (t'.vel + t'.rot * D')
  have b4 := vlen_le (t.vel + x) (t'.vel + t'.rot * D')
  have b5 : F.u * vlen (t.vel + x) ≤ F.u * (b + a * l + (ε + crossErr F.g3 a A l E)) :=
    mul_le_mul_of_nonneg_left (by linarith) u0
  linarith

theorem ColNear.mono {A ε a b A' ε' a' b' : ℝ} {t t' : Twist} (h : ColNear A ε a b t t') (h1 : A ≤ A') (h2 : ε ≤ ε') (h3 : a ≤ a')
    (h4 : b ≤ b') : ColNear A' ε' a' b' t t' :=
  ⟨⟨h.1.1.trans h1, h.1.2.trans h2⟩, h.2.1.trans h3, h.2.2.trans h4⟩

theorem rotErr_mono {k : ℝ} (hk : 0 ≤ k) {m n : ℕ} (h : m ≤ n) : rotErr k m ≤ rotErr k n := by
  have : (1 + k) ^ m ≤ (1 + k) ^ n := pow_le_pow_right₀ (by linarith) h
  exact mul_le_mul_of_nonneg_left (by linarith) (Real.sqrt_nonneg 3)

theorem posErr_mono {u g k l e' : ℝ} (hu : 0 ≤ u) (hg : 0 ≤ g) (hk : 0 ≤ k) (hl : 0 ≤ l) (he : 0 ≤ e') {m n : ℕ} (h : m ≤ n) :
    posErr u g k l e' m ≤ posErr u g k l e' n := by
  induction h with
  | refl => exact le_rfl
  | @step n _ ih =>
    refine ih.trans ?_
    obtain ⟨h0, h1⟩ := posStep_mono hu hg hk hl he (u := u) (g := g) n
    have h2 : (1 + u) ^ n ≤ (1 + u) ^ (n + 1) := pow_le_pow_right₀ (by linarith) (by omega)
    have h3 : 0 ≤ (1 + u) ^ (n + 1) := by positivity
    have h4 : (1 + u) ^ n * posStep u g k l e' n ≤ (1 + u) ^ (n + 1) * posStep u g k l e' (n + 1) := mul_le_mul h2 h1 h0 h3
    unfold posErr
    refine mul_le_mul (by push_cast; linarith) h4 (by positivity) (by positivity)

theorem posErr_nonneg {u g k l e' : ℝ} (hu : 0 ≤ u) (hg : 0 ≤ g) (hk : 0 ≤ k) (hl : 0 ≤ l) (he : 0 ≤ e') (n : ℕ) :
    0 ≤ posErr u g k l e' n := by
  have := (posStep_mono hu hg hk hl he (u := u) (g := g) n).1
  unfold posErr
  positivity

theorem mapErr_mono {g d d' a t : ℝ} (hg : 0 ≤ g) (ha : 0 ≤ a) (ht : 0 ≤ t) (h : d ≤ d') :
    mapErr g d a t ≤ mapErr g d' a t := by
  unfold mapErr
  have : g * (Real.sqrt 3 + d) ≤ g * (Real.sqrt 3 + d') := mul_le_mul_of_nonneg_left (by linarith) hg
  have : (d + g * (Real.sqrt 3 + d)) * (a + t) ≤ (d' + g * (Real.sqrt 3 + d')) * (a + t) :=
    mul_le_mul_of_nonneg_right (by linarith) (by linarith)
  linarith

theorem mapErr_nonneg {g d a t : ℝ} (hg : 0 ≤ g) (hd : 0 ≤ d) (ha : 0 ≤ a) (ht : 0 ≤ t) : 0 ≤ mapErr g d a t := by
  unfold mapErr
  positivity

/-- What a segment adds to the error of the velocity part of a column: `B` that of a new column, `A` that of the rotation part,
`e` that of the position, `a` and `b` the lengths of a new column, `l` that of a segment, `n` the number of segments. -/
def jacStep (u g a A b B l e : ℝ) (n : ℕ) : ℝ :=
  B + (1 + u) * crossErr g a A l (2 * e + u * (l + 2 * e)) + u * (b + n * (a * l))
/-- Bound of the error of the velocity part after `m` of `n` segments. -/
def jacErr (u g a A b B l e : ℝ) (n m : ℕ) : ℝ := m * ((1 + u) ^ m * jacStep u g a A b B l e n)

/-- The twist computed for `s` at unit speed is near that of the ideal segment. -/
def TwistNear (F : Fl) (q : List ℝ) (t t' a b : ℝ) (s s' : Segment) : Prop :=
  s.moving → ∀ x ∈ q, ColNear t t' a b (F.segTwist s x 1) (s'.twist x 1)

theorem forall₂_set {R : Twist → Twist → Prop} : ∀ {J J' : List Twist} (_ : List.Forall₂ R J J') (k : ℕ) {t t' : Twist} (_ : R t t'),
    List.Forall₂ R (J.set k t) (J'.set k t')
  | _, _, .nil, _, _, _, _ => by simp
  | _, _, .cons h1 h2, 0, _, _, ht => by simpa using ⟨ht, h2⟩
  | _, _, .cons h1 h2, k + 1, _, _, ht => by simpa using ⟨h1, forall₂_set h2 k ht⟩

theorem forall₂_map {R S : Twist → Twist → Prop} {f f' : Twist → Twist} (hf : ∀ t t', R t t' → S (f t) (f' t')) :
    ∀ {J J' : List Twist} (_ : List.Forall₂ R J J'), List.Forall₂ S (J.map f) (J'.map f')
  | _, _, .nil => by simp
  | _, _, .cons h1 h2 => by simpa using ⟨hf _ _ h1, by simpa using forall₂_map hf h2⟩

section loop
variable {F : Fl} (hF : F.Ok) {r r' l a b t t' : ℝ} (h0 : (0 ≤ r ∧ 0 ≤ r') ∧ 0 ≤ l ∧ (0 ≤ a ∧ 0 ≤ b) ∧ 0 ≤ t ∧ 0 ≤ t') (N : ℕ)
include hF h0

/-- All columns after one more segment. -/
theorem jac_step {κ : ℝ} (hκ : κ = r + F.g3 * (Real.sqrt 3 + r)) {m : ℕ} (hm : m + 1 ≤ N) {P X P' X' : Frame} {J J' : Jac}
    (hP : Near (rotErr κ m) (posErr F.u F.g3 κ l r' m) P X)
    (hP' : Near (rotErr κ (m + 1)) (posErr F.u F.g3 κ l r' (m + 1)) P' X') (hl : vlen (X'.p - X.p) ≤ l)
    (hJ : List.Forall₂ (ColNear (mapErr F.g3 (rotErr κ N) a t) (jacErr F.u F.g3 a (mapErr F.g3 (rotErr κ N) a t) b
      (mapErr F.g3 (rotErr κ N) b t') l (posErr F.u F.g3 κ l r' N) N m) a (b + m * (a * l))) J J') :
    List.Forall₂ (ColNear (mapErr F.g3 (rotErr κ N) a t) (jacErr F.u F.g3 a (mapErr F.g3 (rotErr κ N) a t) b
      (mapErr F.g3 (rotErr κ N) b t') l (posErr F.u F.g3 κ l r' N) N (m + 1)) a (b + (m + 1 : ℕ) * (a * l)))
      (F.changeRefPoint J (F.vecSub P'.p P.p)) (J'.changeRefPoint (X'.p - X.p)) := by
  obtain ⟨⟨r0, r0'⟩, l0, ⟨a0, b0⟩, t0, t0'⟩ := h0
  have u0 := hF.nonneg
  have g0 := Fl.g3_nonneg hF
  have hs := Real.sqrt_nonneg 3
  have k0 : 0 ≤ κ := by rw [hκ]; positivity
  set e := posErr F.u F.g3 κ l r' N with he
  have e0 : 0 ≤ e := posErr_nonneg u0 g0 k0 l0 r0' N
  have hD := sub_near hF (hP'.2.trans (posErr_mono u0 g0 k0 l0 r0' hm)) (hP.2.trans (posErr_mono u0 g0 k0 l0 r0' (by omega : m ≤ N))) hl
  rw [← he] at hD
  set A := mapErr F.g3 (rotErr κ N) a t with hA
  have A0 : 0 ≤ A := mapErr_nonneg g0 (rotErr_nonneg k0 N) a0 t0
  set B := mapErr F.g3 (rotErr κ N) b t' with hB
  have B0 : 0 ≤ B := mapErr_nonneg g0 (rotErr_nonneg k0 N) b0 t0'
  refine forall₂_map (fun c c' hc => ?_) hJ
  refine (col_step hF hc hD hl).mono le_rfl ?_ le_rfl (le_of_eq (by push_cast; ring))
  have hc0 : 0 ≤ crossErr F.g3 a A l (2 * e + F.u * (l + 2 * e)) := by unfold crossErr; positivity
  have w : (b + (m : ℝ) * (a * l) + a * l) ≤ b + N * (a * l) := by
    have : ((m + 1 : ℕ) : ℝ) ≤ N := by exact_mod_cast hm
    push_cast at this
    have := mul_le_mul_of_nonneg_right this (mul_nonneg a0 l0)
    linarith
  have w2 := mul_le_mul_of_nonneg_left w u0
  have V0 : 0 ≤ jacStep F.u F.g3 a A b B l e N := by unfold jacStep; positivity
  have V1 : (1 + F.u) * crossErr F.g3 a A l (2 * e + F.u * (l + 2 * e)) + F.u * (b + m * (a * l) + a * l) ≤
      jacStep F.u F.g3 a A b B l e N := by unfold jacStep; linarith
  set V := jacStep F.u F.g3 a A b B l e N with hV
  have p1 : 1 ≤ (1 + F.u) ^ (m + 1) := one_le_pow₀ (by linarith)
  have p2 : V ≤ (1 + F.u) ^ (m + 1) * V := by nlinarith
  have p3 : (1 + F.u) * jacErr F.u F.g3 a A b B l e N m + (1 + F.u) ^ (m + 1) * V = jacErr F.u F.g3 a A b B l e N (m + 1) := by
    unfold jacErr
    rw [← hV, pow_succ]
    push_cast
    ring
  linarith

theorem jacLoop_near {q : List ℝ} {locked : List Bool} {ss ss' : List Segment}
    (h : List.Forall₂ (fun s s' => SegNear F q r r' l s s' ∧ TwistNear F q t t' a b s s') ss ss') {κ : ℝ}
    (hκ : κ = r + F.g3 * (Real.sqrt 3 + r)) (hlk : locked.length = q.length) :
    ∀ (j k m : ℕ) (P X : Frame) (J J' : Jac), j + nMoving ss ≤ q.length → k + nMoving ss ≤ J.length → X.M.IsProper →
    vlen X.p ≤ m * l → Near (rotErr κ m) (posErr F.u F.g3 κ l r' m) P X → m + ss.length ≤ N →
    List.Forall₂ (ColNear (mapErr F.g3 (rotErr κ N) a t) (jacErr F.u F.g3 a (mapErr F.g3 (rotErr κ N) a t) b
      (mapErr F.g3 (rotErr κ N) b t') l (posErr F.u F.g3 κ l r' N) N m) a (b + m * (a * l))) J J' →
    ∃ P1 X1 J1 J1', F.jacLoop q locked ss j k P J = some (P1, J1) ∧ jacLoop q locked ss' j k X J' = some (X1, J1') ∧
      List.Forall₂ (ColNear (mapErr F.g3 (rotErr κ N) a t) (jacErr F.u F.g3 a (mapErr F.g3 (rotErr κ N) a t) b
        (mapErr F.g3 (rotErr κ N) b t') l (posErr F.u F.g3 κ l r' N) N (m + ss.length)) a
        (b + (m + ss.length : ℕ) * (a * l))) J1 J1' := by
  have u0 := hF.nonneg
  have g0 := Fl.g3_nonneg hF
  have hs3 := Real.sqrt_nonneg 3
  have k0 : 0 ≤ κ := by rw [hκ]; have := h0.1.1; positivity
  induction h with
  | nil =>
    intro j k m P X J J' _ _ _ _ _ _ hJ
    exact ⟨P, X, J, J', rfl, rfl, by simpa using hJ⟩
  | @cons s s' ss ss' h1 h2 ih =>
    intro j k m P X J J' hj hk hX hXp hP hm hJ
    obtain ⟨⟨hmv, hv, hx⟩, ht⟩ := h1
    have hle : ∀ x, vlen (s'.pose x).p ≤ l → vlen ((X * s'.pose x).p - X.p) ≤ l := by
      intro x hl
      have : (X * s'.pose x).p - X.p = X.M * (s'.pose x).p := by ext <;> simp
      rw [this, vlen_mul_proper hX]
      exact hl
    rw [List.length_cons] at hm
    rw [List.length_cons, show m + (ss.length + 1) = m + 1 + ss.length by omega]
    rw [Fl.jacLoop, jacLoop, ← hmv]
    by_cases hs : s.moving
    · rw [if_pos hs, if_pos hs]
      have hn : nMoving (s :: ss) = 1 + nMoving ss := by simp [nMoving, hs]; omega
      have hjl : j < q.length := by omega
      have hjl' : j < locked.length := by omega
      rw [List.getElem?_eq_getElem hjl, List.getElem?_eq_getElem hjl']
      simp only [Option.bind_eq_bind, Option.bind_some]
      obtain ⟨hR, hl⟩ := hx q[j] (.inl (List.getElem_mem hjl))
      obtain ⟨a1, a2, a3⟩ := near_step hF hX (Segment.isProper_pose hv _) hXp hl (by rw [← hκ]; exact hP) hR
      rw [← hκ] at a1
      have hJ1 := jac_step hF h0 N hκ (by omega) hP a1 (hle _ hl) hJ
      have hl1 : (F.changeRefPoint J (F.vecSub (F.frameMul P (F.segPose s q[j])).p P.p)).length = J.length := by
        simp [Fl.changeRefPoint]
      by_cases hb : locked[j]
      · rw [if_pos hb, if_pos hb]
        exact ih (j + 1) k (m + 1) _ _ _ _ (by omega) (by omega) a2 a3 a1 (by omega) hJ1
      · rw [if_neg hb, if_neg hb]
        have hlen := hJ1.length_eq
        have hc := ht hs q[j] (List.getElem_mem hjl)
        rw [Jac.setColumn, Jac.setColumn, if_pos (by omega), if_pos (by omega)]
        simp only [Option.bind_some]
        refine ih (j + 1) (k + 1) (m + 1) _ _ _ _ (by omega) (by simp; omega) a2 a3 a1 (by omega) (forall₂_set hJ1 k ?_)
        have hd : rdist P.M X.M ≤ rotErr κ N := hP.1.trans (rotErr_mono k0 (by omega))
        have A0 := mapErr_nonneg g0 (rotErr_nonneg k0 N) h0.2.2.1.1 h0.2.2.2.1
        have B0 := mapErr_nonneg g0 (rotErr_nonneg k0 N) h0.2.2.1.2 h0.2.2.2.2
        set A := mapErr F.g3 (rotErr κ N) a t with hA
        set B := mapErr F.g3 (rotErr κ N) b t' with hB
        have e0 := posErr_nonneg u0 g0 k0 h0.2.1 h0.1.2 N
        set e := posErr F.u F.g3 κ l r' N with he
        obtain ⟨⟨r0, r0'⟩, l0, ⟨ha0, hb0⟩, t0, t0'⟩ := h0
        have hc0 : 0 ≤ crossErr F.g3 a A l (2 * e + F.u * (l + 2 * e)) := by unfold crossErr; positivity
        refine ⟨⟨map_near hF hX hd hc.1.1 hc.2.1, (map_near hF hX hd hc.1.2 hc.2.2).trans ?_⟩, ?_, ?_⟩
        · have V1 : B ≤ jacStep F.u F.g3 a A b B l e N := by
            unfold jacStep
            have : 0 ≤ (1 + F.u) * crossErr F.g3 a A l (2 * e + F.u * (l + 2 * e)) := by positivity
            have : 0 ≤ F.u * (b + N * (a * l)) := by positivity
            linarith
          rw [← hB, jacErr]
          set V := jacStep F.u F.g3 a A b B l e N with hV
          have p1 : 1 ≤ (1 + F.u) ^ (m + 1) := one_le_pow₀ (by linarith)
          have p2 : (1 : ℝ) ≤ ((m + 1 : ℕ) : ℝ) := by exact_mod_cast Nat.le_add_left 1 m
          have p3 : V ≤ (1 + F.u) ^ (m + 1) * V := by nlinarith
          nlinarith
        · show vlen (X.M * _) ≤ _
          rw [vlen_mul_proper hX]
          exact hc.2.1
        · show vlen (X.M * _) ≤ _
          rw [vlen_mul_proper hX]
          have : 0 ≤ ((m + 1 : ℕ) : ℝ) * (a * l) := by positivity
          linarith [hc.2.2]
    · rw [if_neg hs, if_neg hs]
      have hn : nMoving (s :: ss) = nMoving ss := by simp [nMoving, hs]
      obtain ⟨hR, hl⟩ := hx 0 (.inr rfl)
      obtain ⟨a1, a2, a3⟩ := near_step hF hX (Segment.isProper_pose hv _) hXp hl (by rw [← hκ]; exact hP) hR
      rw [← hκ] at a1
      have hJ1 := jac_step hF h0 N hκ (by omega) hP a1 (hle _ hl) hJ
      have hl1 : (F.changeRefPoint J (F.vecSub (F.frameMul P (F.segPose s 0)).p P.p)).length = J.length := by
        simp [Fl.changeRefPoint]
      exact ih j k (m + 1) _ _ _ _ (by omega) (by omega) a2 a3 a1 (by omega) hJ1

end loop

theorem nrOfJoints_near {F : Fl} {c c' : Chain} (hc : c.WF) (hc' : c'.WF) {q : List ℝ} {r r' l a b t t' : ℝ}
    (h : List.Forall₂ (fun s s' => SegNear F q r r' l s s' ∧ TwistNear F q t t' a b s s') c.segments c'.segments) :
    c'.nrOfJoints = c.nrOfJoints := by
  rw [hc.2, hc'.2]
  generalize c.segments = x at h
  generalize c'.segments = y at h
  induction h with
  | nil => rfl
  | cons h1 _ ih =>
    unfold nMoving at ih ⊢
    rw [List.countP_cons, List.countP_cons, ih, h1.1.1]

/-- The Jacobian computed in floating point arithmetic differs from that of the ideal chain by at most the stated bounds, column by
column; these vanish with the errors of the segments and the unit roundoff.  `r`, `r'` bound the errors of the poses of the segments,
`t`, `t'` those of their twists; `l`, `a` and `b` bound the lengths of the ideal ones.  When the arguments are rejected the result is
that of exact arithmetic. -/
theorem C99_jac (F : Fl) (hF : F.Ok) (c c' : Chain) (hc : c.WF) (hc' : c'.WF) (q : List ℝ) (locked : List Bool) (J0 : Jac)
    (r r' l a b t t' κ A B : ℝ) (h0 : (0 ≤ r ∧ 0 ≤ r') ∧ 0 ≤ l ∧ (0 ≤ a ∧ 0 ≤ b) ∧ 0 ≤ t ∧ 0 ≤ t')
    (h : List.Forall₂ (fun s s' => SegNear F q r r' l s s' ∧ TwistNear F q t t' a b s s') c.segments c'.segments) (k : ℤ)
    (hκ : κ = r + F.g3 * (Real.sqrt 3 + r)) (hA : A = mapErr F.g3 (rotErr κ (segmentNr c k)) a t)
    (hB : B = mapErr F.g3 (rotErr κ (segmentNr c k)) b t') :
    (locked.length ≠ c.nrOfJoints ∨ q.length ≠ c.nrOfJoints ∨ J0.length ≠ c.nrOfJoints ∨ segmentNr c k > c.nrOfSegments →
      F.jntToJac c locked q J0 k = jntToJac c locked q J0 k) ∧
    (locked.length = c.nrOfJoints → q.length = c.nrOfJoints → J0.length = c.nrOfJoints → segmentNr c k ≤ c.nrOfSegments →
      ∃ J J', F.jntToJac c locked q J0 k = some (E_NOERROR, J) ∧ jntToJac c' locked q J0 k = some (E_NOERROR, J') ∧
        List.Forall₂ (ColNear A (jacErr F.u F.g3 a A b B l (posErr F.u F.g3 κ l r' (segmentNr c k)) (segmentNr c k) (segmentNr c k)) a
          (b + segmentNr c k * (a * l))) J J') := by
  constructor
  · intro he
    unfold Fl.jntToJac jntToJac
    dsimp only
    by_cases h1 : locked.length ≠ c.nrOfJoints
    · rw [if_pos h1, if_pos h1]
    · rw [if_neg h1, if_neg h1]
      by_cases h2 : q.length ≠ c.nrOfJoints ∨ J0.length ≠ c.nrOfJoints
      · rw [if_pos h2, if_pos h2]
      · rw [if_neg h2, if_neg h2]
        have h3 : segmentNr c k > c.nrOfSegments := by tauto
        rw [if_pos h3, if_pos h3]
  · intro hl hq hJ hk
    have hlen := h.length_eq
    have hnS : c'.nrOfSegments = c.nrOfSegments := by rw [hc.1, hc'.1, hlen]
    have hnJ : c'.nrOfJoints = c.nrOfJoints := nrOfJoints_near hc hc' h
    have hsn : segmentNr c' k = segmentNr c k := by unfold segmentNr; rw [hnS]
    set n := segmentNr c k with hn
    have hnl : n ≤ c.segments.length := by rw [← hc.1]; exact hk
    have ht := List.forall₂_take n h
    have hb : nMoving (c.segments.take n) ≤ c.nrOfJoints := by rw [hc.2]; exact nMoving_take_le _ _
    have k0 : 0 ≤ κ := by rw [hκ]; have := Fl.g3_nonneg hF; have := h0.1.1; have := Real.sqrt_nonneg 3; positivity
    have hz : List.Forall₂ (ColNear A (jacErr F.u F.g3 a A b B l (posErr F.u F.g3 κ l r' n) n 0) a (b + (0 : ℕ) * (a * l)))
        J0.setToZero J0.setToZero := by
      have hA0 : 0 ≤ A := by
        rw [hA]; exact mapErr_nonneg (Fl.g3_nonneg hF) (rotErr_nonneg k0 n) h0.2.2.1.1 h0.2.2.2.1
      refine List.forall₂_same.mpr fun x hx => ?_
      have hx0 : x = 0 := by
        simp only [Jac.setToZero, List.mem_map] at hx
        obtain ⟨_, _, rfl⟩ := hx
        rfl
      rw [hx0]
      refine ⟨⟨by rw [vdist_self]; exact hA0, by rw [vdist_self]; simp [jacErr]⟩, ?_, ?_⟩
      · simpa [vlen] using h0.2.2.1.1
      · simpa [vlen] using h0.2.2.1.2
    rw [hA, hB] at hz
    obtain ⟨P1, X1, J1, J1', e1, e2, hJJ⟩ := jacLoop_near hF h0 n ht hκ (by omega : locked.length = q.length) 0 0 0 1 1 _ _
      (by omega) (by simp [Jac.setToZero]; omega) Rot.IsProper.one (by simp [vlen]) ⟨by simp [rdist, rotErr], by simp [vdist, posErr]⟩
      (by simp [Nat.min_eq_left hnl]) hz
    refine ⟨J1, J1', ?_, ?_, ?_⟩
    · unfold Fl.jntToJac
      dsimp only
      rw [if_neg (not_not.mpr hl), if_neg (by omega), if_neg (by omega), ← hn, e1]
      rfl
    · unfold jntToJac
      dsimp only
      rw [hnJ, hnS, hsn, if_neg (not_not.mpr hl), if_neg (by omega), if_neg (by omega), e2]
      rfl
    · rw [hA, hB]
      simpa [List.length_take, Nat.min_eq_left hnl] using hJJ

theorem multiply_near {A ε a b : ℝ} : ∀ {J J' : List Twist} (_ : List.Forall₂ (ColNear A ε a b) J J') (qd : List ℝ),
    vdist ((List.zipWith (fun (t : Twist) (x : ℝ) => x • t) J qd).foldr (· + ·) 0).rot
      ((List.zipWith (fun (t : Twist) (x : ℝ) => x • t) J' qd).foldr (· + ·) 0).rot ≤
        ((List.zipWith (fun (_ : Twist) (x : ℝ) => |x|) J qd).sum) * A ∧
    vdist ((List.zipWith (fun (t : Twist) (x : ℝ) => x • t) J qd).foldr (· + ·) 0).vel
      ((List.zipWith (fun (t : Twist) (x : ℝ) => x • t) J' qd).foldr (· + ·) 0).vel ≤
        ((List.zipWith (fun (_ : Twist) (x : ℝ) => |x|) J qd).sum) * ε
  | _, _, .nil, _ => by simp [vdist]
  | _, _, .cons _ _, [] => by simp [vdist]
  | _, _, .cons (a := t) (b := t') h1 h2, x :: qd => by
    have ih := multiply_near h2 qd
    have hs : ∀ v w : Vec, vdist (x • v) (x • w) = |x| * vdist v w := by
      intro v w
      rw [vdist, vdist, ← Real.sqrt_sq (abs_nonneg x), ← Real.sqrt_mul (sq_nonneg _), sq_abs]
      congr 1
      simp
      ring
    simp only [List.zipWith_cons_cons, List.foldr_cons, List.sum_cons, add_mul]
    constructor
    · refine (vdist_add _ _ _ _).trans (add_le_add ?_ ih.1)
      show vdist (x • t.rot) (x • t'.rot) ≤ _
      rw [hs]
      exact mul_le_mul_of_nonneg_left h1.1.1 (abs_nonneg _)
    · refine (vdist_add _ _ _ _).trans (add_le_add ?_ ih.2)
      show vdist (x • t.vel) (x • t'.vel) ≤ _
      rw [hs]
      exact mul_le_mul_of_nonneg_left h1.1.2 (abs_nonneg _)

/-- The computed Jacobian is, up to these errors, the derivative of the forward kinematics of the ideal chain: along every motion
its product with the joint rates is near the velocity of the end point. -/
theorem C99_derivative (F : Fl) (hF : F.Ok) (c c' : Chain) (hc : c.WF) (hc' : c'.WF) (Q : ℝ → List ℝ) (qd : List ℝ) (τ : ℝ) (J0 : Jac)
    (r r' l a b t t' κ A B : ℝ) (h0 : (0 ≤ r ∧ 0 ≤ r') ∧ 0 ≤ l ∧ (0 ≤ a ∧ 0 ≤ b) ∧ 0 ≤ t ∧ 0 ≤ t')
    (h : List.Forall₂ (fun s s' => SegNear F (Q τ) r r' l s s' ∧ TwistNear F (Q τ) t t' a b s s') c.segments c'.segments) (k : ℤ)
    (hκ : κ = r + F.g3 * (Real.sqrt 3 + r)) (hA : A = mapErr F.g3 (rotErr κ (segmentNr c k)) a t)
    (hB : B = mapErr F.g3 (rotErr κ (segmentNr c k)) b t')
    (hQ : ∀ s, (Q s).length = c.nrOfJoints) (hqd : qd.length = c.nrOfJoints) (hJ : J0.length = c.nrOfJoints)
    (hd : ∀ j, HasDerivAt (fun s => (Q s).getD j 0) (qd.getD j 0) τ) (hk : segmentNr c k ≤ c.nrOfSegments) :
    ∃ (J : Jac) (P : ℝ → Frame) (v w : Twist),
      F.jntToJac c (List.replicate c.nrOfJoints false) (Q τ) J0 k = some (E_NOERROR, J) ∧ multiplyJacobian J qd = some v ∧
      (∀ s, fkPos c' (Q s) k = some (E_NOERROR, P s)) ∧ Frame.HasTwist P w τ ∧
      vdist v.rot w.rot ≤ (qd.map (|·|)).sum * A ∧
      vdist v.vel w.vel ≤ (qd.map (|·|)).sum *
        jacErr F.u F.g3 a A b B l (posErr F.u F.g3 κ l r' (segmentNr c k)) (segmentNr c k) (segmentNr c k) := by
  obtain ⟨J, J', e1, e2, hJJ⟩ := (C99_jac F hF c c' hc hc' (Q τ) (List.replicate c.nrOfJoints false) J0 r r' l a b t t' κ A B h0 h k hκ
    hA hB).2 (by simp) (hQ τ) hJ hk
  have hlen := h.length_eq
  have hnS : c'.nrOfSegments = c.nrOfSegments := by rw [hc.1, hc'.1, hlen]
  have hsn : segmentNr c' k = segmentNr c k := by unfold segmentNr; rw [hnS]
  have hn : c'.nrOfJoints = c.nrOfJoints := nrOfJoints_near hc hc' h
  have hv : c'.Valid := by
    intro s' hs'
    have : ∀ {x y : List Segment}, List.Forall₂ (fun s s' => SegNear F (Q τ) r r' l s s' ∧ TwistNear F (Q τ) t t' a b s s') x y →
        ∀ s' ∈ y, s'.Valid := by
      intro x y hxy
      induction hxy with
      | nil => simp
      | cons h1 _ ih =>
        intro z hz
        rcases List.mem_cons.mp hz with rfl | hz
        · exact h1.1.2.1
        · exact ih z hz
    exact this h s' hs'
  obtain ⟨J2, P, w, e3, e4, e5, e6⟩ := C27_derivative c' hc' hv Q qd τ J0 (by rw [hn]; exact hQ) (by rw [hn]; exact hqd)
    (by rw [hn]; exact hJ) hd k (by omega)
  rw [hn, e2] at e3
  have hJ2 : J' = J2 := by simpa using e3
  rw [← hJ2] at e5
  unfold multiplyJacobian at e5
  split at e5
  · rename_i hl'
    have hl : J.length = qd.length := by rw [hJJ.length_eq, hl']
    have hw : (List.zipWith (fun (t : Twist) (x : ℝ) => x • t) J' qd).foldr (· + ·) 0 = w := by simpa using e5
    have hm := multiply_near hJJ qd
    have hsum : List.zipWith (fun (_ : Twist) (x : ℝ) => |x|) J qd = qd.map (|·|) := by
      exact List.ext_getElem (by simp [hl]) fun i h1 h2 => by rw [List.getElem_zipWith, List.getElem_map]
    rw [hw, hsum] at hm
    refine ⟨J, P, _, w, e1, ?_, e4, e6, hm.1, hm.2⟩
    unfold multiplyJacobian
    rw [if_pos hl]
  · cases e5

/-- Without rounding the program is the one examined in C27. -/
theorem C99_exact (u : ℝ) (c : Chain) (locked : List Bool) (q : List ℝ) (J0 : Jac) (k : ℤ) :
    (Fl.mk u id Real.sin Real.cos).jntToJac c locked q J0 k = jntToJac c locked q J0 k := by
  set F := Fl.mk u id Real.sin Real.cos with hF
  have hm : ∀ a b : Frame, F.frameMul a b = a * b := fun a b => rfl
  have hj : ∀ (j : Joint) (x : ℝ), F.jointPose j x = j.pose x := by
    intro j x
    unfold Fl.jointPose Joint.pose
    cases j.type <;> first | rfl | skip
    all_goals
      simp only [Frame.ofVec, Fl.vecAdd, Fl.vecScale, Fl.arg, hF, id]
      ext <;> simp <;> ring
  have hs : ∀ (s : Segment) (x : ℝ), F.segPose s x = s.pose x := by
    intro s x
    show F.frameMul _ _ = _
    rw [hm, hj]
    rfl
  have hr : ∀ (t : Twist) (v : Vec), F.refPoint t v = t.refPoint v := fun t v => rfl
  have hjt : ∀ (j : Joint) (x : ℝ), F.jointTwist j x = j.twist x := by
    intro j x
    unfold Fl.jointTwist Joint.twist
    cases j.type <;> first | rfl | skip
    all_goals
      simp only [Fl.vecScale, hF, id]
      ext <;> simp <;> ring
  have hrv : ∀ (R : Rot) (v : Vec), F.rotVec R v = R * v := fun R v => rfl
  have ht : ∀ (s : Segment) (x y : ℝ), F.segTwist s x y = s.twist x y := by
    intro s x y
    show F.refPoint _ _ = _
    rw [hr, hj, hjt, hrv]
    rfl
  have hc : ∀ (J : Jac) (v : Vec), F.changeRefPoint J v = J.changeRefPoint v := fun J v => rfl
  have hrt : ∀ (R : Rot) (t : Twist), F.rotTwist R t = R * t := fun R t => rfl
  have hv : ∀ a b : Vec, F.vecSub a b = a - b := fun a b => rfl
  have hl : ∀ (ss : List Segment) (j k : ℕ) (p : Frame) (J : Jac), F.jacLoop q locked ss j k p J = jacLoop q locked ss j k p J := by
    intro ss
    induction ss with
    | nil => intro j k p J; rfl
    | cons s ss ih =>
      intro j k p J
      rw [Fl.jacLoop, jacLoop]
      simp only [hm, hs, ht, hc, hv, hrt, ih]
  unfold Fl.jntToJac jntToJac
  simp only [hl]

/-! ## the twists of a joint and of a segment -/

/-- The twist of a joint at unit speed; `j` with the numbers stored, `j'` the ideal one.  `σ` bounds the scale. -/
theorem C99_joint (F : Fl) (hF : F.Ok) (j j' : Joint) (hty : j.type = j'.type) (hsc : j.scale = j'.scale) (hv : j'.Valid) (t σ : ℝ)
    (ht : t ≤ 1 / 16) (hu : F.u ≤ t) (hσ : |j.scale| ≤ σ)
    (hax : (j.type = .RotAxis ∨ j.type = .TransAxis) →
      |j.axis.x - j'.axis.x| ≤ t ∧ |j.axis.y - j'.axis.y| ≤ t ∧ |j.axis.z - j'.axis.z| ≤ t) :
    ColNear (8 * t * σ) (8 * t * σ) σ σ (F.jointTwist j 1) (j'.twist 1) := by
  have u0 := hF.nonneg
  have t0 : 0 ≤ t := u0.trans hu
  have σ0 : 0 ≤ σ := (abs_nonneg _).trans hσ
  have hts : 0 ≤ t * σ := mul_nonneg t0 σ0
  have htt : t * t ≤ 1 / 16 * t := mul_le_mul_of_nonneg_right ht t0
  have htts : t * t * σ ≤ 1 / 16 * t * σ := mul_le_mul_of_nonneg_right htt σ0
  have hus : F.u * σ ≤ t * σ := mul_le_mul_of_nonneg_right hu σ0
  have ha : |F.rnd (j.scale * 1) - j.scale * 1| ≤ t * σ := by
    refine (hF.rnd _).trans ?_
    rw [mul_one]
    exact mul_le_mul hu hσ (abs_nonneg _) t0
  set α := F.rnd (j.scale * 1) with hα
  have z4 : |(0 : ℝ) - 0| ≤ 4 * t * σ := by simp; positivity
  have a4 : |α - j.scale * 1| ≤ 4 * t * σ := ha.trans (by nlinarith)
  have e8 : 2 * (4 * t * σ) = 8 * t * σ := by ring
  have p8 : 0 ≤ 8 * t * σ := by positivity
  have zz : vdist (⟨0, 0, 0⟩ : Vec) ⟨0, 0, 0⟩ ≤ 8 * t * σ := by rw [vdist_self]; exact p8
  have zl : vlen (⟨0, 0, 0⟩ : Vec) ≤ σ := by simpa [vlen] using σ0
  have z0 : |(0 : ℝ)| ≤ 0 := by simp
  have s1 : |j.scale * 1| ≤ σ := by rwa [mul_one]
  -- along the axis
  have axis : j'.axis.dot j'.axis = 1 → (|j.axis.x - j'.axis.x| ≤ t ∧ |j.axis.y - j'.axis.y| ≤ t ∧ |j.axis.z - j'.axis.z| ≤ t) →
      vdist (F.vecScale j.axis α) ((j.scale * 1) • j'.axis) ≤ 8 * t * σ ∧ vlen ((j.scale * 1) • j'.axis) ≤ σ := by
    intro hw hd
    set w := j'.axis with hwd
    have hw' : w.x * w.x + w.y * w.y + w.z * w.z = 1 := by simpa [Vec.dot] using hw
    have wx : |w.x| ≤ 1 := abs_le_one_iff_mul_self_le_one.mpr (by nlinarith [mul_self_nonneg w.y, mul_self_nonneg w.z])
    have wy : |w.y| ≤ 1 := abs_le_one_iff_mul_self_le_one.mpr (by nlinarith [mul_self_nonneg w.x, mul_self_nonneg w.z])
    have wz : |w.z| ≤ 1 := abs_le_one_iff_mul_self_le_one.mpr (by nlinarith [mul_self_nonneg w.x, mul_self_nonneg w.y])
    have one : ∀ {p p' : ℝ}, |p - p'| ≤ t → |p'| ≤ 1 → |F.rnd (p * α) - j.scale * 1 * p'| ≤ 4 * t * σ := by
      intro p p' h1 h2
      rw [mul_comm (j.scale * 1) p']
      have m1 := mul_err h1 ha h2 s1
      have m2 := Fl.rnd_add hF m1
      have m3 : |p' * (j.scale * 1)| ≤ σ := by
        rw [abs_mul]
        calc |p'| * |j.scale * 1| ≤ 1 * σ := mul_le_mul h2 s1 (abs_nonneg _) zero_le_one
          _ = σ := one_mul σ
      have m4 := mul_le_mul hu m3 (abs_nonneg _) t0
      have m5 : 0 ≤ t * (σ + t * σ) + 1 * (t * σ) := by positivity
      have m6 : (1 + F.u) * (t * (σ + t * σ) + 1 * (t * σ)) ≤ 17 / 16 * (t * (σ + t * σ) + 1 * (t * σ)) :=
        mul_le_mul_of_nonneg_right (by linarith) m5
      nlinarith
    refine ⟨by rw [← e8]; exact vdist_le ⟨one hd.1 wx, one hd.2.1 wy, one hd.2.2 wz⟩, ?_⟩
    refine Real.sqrt_le_iff.mpr ⟨σ0, ?_⟩
    have h3 : (j.scale * 1) ^ 2 ≤ σ ^ 2 := by
      rw [← sq_abs]; exact pow_le_pow_left₀ (abs_nonneg _) s1 2
    simp only [Vec.smul_x, Vec.smul_y, Vec.smul_z]
    nlinarith
  unfold ColNear Fl.jointTwist Joint.twist
  dsimp only
  rw [← hα, ← hty, ← hsc]
  cases hj : j.type with
  | RotAxis =>
    obtain ⟨h1, h2⟩ := axis (hv (.inl (by rw [← hty, hj]))) (hax (.inl hj))
    exact ⟨⟨h1, zz⟩, h2, zl⟩
  | TransAxis =>
    obtain ⟨h1, h2⟩ := axis (hv (.inr (by rw [← hty, hj]))) (hax (.inr hj))
    exact ⟨⟨zz, h1⟩, zl, h2⟩
  | RotX => exact ⟨⟨by rw [← e8]; exact vdist_le ⟨a4, z4, z4⟩, zz⟩, vlen_le_sum s1 z0 z0 σ0 (by simp), zl⟩
  | RotY => exact ⟨⟨by rw [← e8]; exact vdist_le ⟨z4, a4, z4⟩, zz⟩, vlen_le_sum z0 s1 z0 σ0 (by simp), zl⟩
  | RotZ => exact ⟨⟨by rw [← e8]; exact vdist_le ⟨z4, z4, a4⟩, zz⟩, vlen_le_sum z0 z0 s1 σ0 (by simp), zl⟩
  | TransX => exact ⟨⟨zz, by rw [← e8]; exact vdist_le ⟨a4, z4, z4⟩⟩, zl, vlen_le_sum s1 z0 z0 σ0 (by simp)⟩
  | TransY => exact ⟨⟨zz, by rw [← e8]; exact vdist_le ⟨z4, a4, z4⟩⟩, zl, vlen_le_sum z0 s1 z0 σ0 (by simp)⟩
  | TransZ => exact ⟨⟨zz, by rw [← e8]; exact vdist_le ⟨z4, z4, a4⟩⟩, zl, vlen_le_sum z0 z0 s1 σ0 (by simp)⟩
  | Fixed => exact ⟨⟨zz, zz⟩, zl, zl⟩

/-- The twist of a segment, from that of its joint (see `C99_joint`), the pose of the joint (see `C98_joint`) and the tip. -/
theorem C99_segment (F : Fl) (hF : F.Ok) (s s' : Segment) (hs : s'.Valid) (x d e r r' m A B a b : ℝ)
    (hj : Near d e (F.jointPose s.joint x) (s'.joint.pose x)) (ht : Near r r' s.f_tip s'.f_tip) (hm : vlen s'.f_tip.p ≤ m)
    (hw : ColNear A B a b (F.jointTwist s.joint 1) (s'.joint.twist 1)) :
    ColNear A ((1 + F.u) * (B + crossErr F.g3 a A m (mapErr F.g3 d m r')) + F.u * (b + a * m)) a (b + a * m)
      (F.segTwist s x 1) (s'.twist x 1) := by
  have hp := Joint.isProper_pose hs.1 x
  refine col_step hF hw (map_near hF hp hj.1 ht.2 hm) ?_
  rw [vlen_mul_proper hp]
  exact hm

/-! ## with the numbers of `double` -/

theorem crossErr_mono {g a A l E g' A' E' : ℝ} (g0 : 0 ≤ g) (a0 : 0 ≤ a) (A0 : 0 ≤ A) (l0 : 0 ≤ l) (E0 : 0 ≤ E) (h1 : g ≤ g')
    (h2 : A ≤ A') (h3 : E ≤ E') : crossErr g a A l E ≤ crossErr g' a A' l E' := by
  unfold crossErr
  have w1 : 2 * g * (a + A) ≤ 2 * g' * (a + A') := mul_le_mul (by linarith) (by linarith) (by positivity) (by linarith)
  have w2 : (2 * g * (a + A) + A) * (l + E) ≤ (2 * g' * (a + A') + A') * (l + E') :=
    mul_le_mul (by linarith) (by linarith) (by positivity) (by
      have : 0 ≤ 2 * g * (a + A) := by positivity
      linarith)
  have w3 : a * E ≤ a * E' := mul_le_mul_of_nonneg_left h3 a0
  linarith

theorem mapErr_le {g d a t g' d' s : ℝ} (g0 : 0 ≤ g) (d0 : 0 ≤ d) (a0 : 0 ≤ a) (t0 : 0 ≤ t) (h1 : g ≤ g') (h2 : d ≤ d')
    (hs : Real.sqrt 3 ≤ s) : mapErr g d a t ≤ t + (d' + g' * (s + d')) * (a + t) := by
  unfold mapErr
  have := Real.sqrt_nonneg 3
  have w1 : g * (Real.sqrt 3 + d) ≤ g' * (s + d') := mul_le_mul h1 (by linarith) (by positivity) (by linarith)
  have w2 : (d + g * (Real.sqrt 3 + d)) * (a + t) ≤ (d' + g' * (s + d')) * (a + t) :=
    mul_le_mul_of_nonneg_right (by linarith) (by linarith)
  linarith

theorem segClose_near {F : Fl} (hF : F.Ok) (hu : F.u = 1 / 2 ^ 53) {q : List ℝ} {s s' : Segment} (hs : SegClose q s s')
    (hsc : |s.joint.scale| ≤ 1) :
    SegNear F q (3 / 10 ^ 13) (1 / 10 ^ 11) 60 s s' ∧ TwistNear F q (3 / 10 ^ 14) (1 / 10 ^ 11) 1 31 s s' := by
  have hg : F.g3 ≤ 34 / 10 ^ 17 := by rw [Fl.g3, hu]; norm_num
  have g0 := Fl.g3_nonneg hF
  have s0 := Real.sqrt_nonneg 3
  have s3 := sqrt3_le
  refine ⟨⟨?_, hs.valid, fun x hx => ?_⟩, fun _ x hx => ?_⟩
  · simp [Segment.moving, Joint.moving, hs.type]
  · have hj := C98_joint F hF s.joint s'.joint hs.type hs.scale hs.offset hs.origin hs.valid.1 (3 / 10 ^ 15) 10 10 x (by norm_num)
      hs.axis (hs.arg x hx) hs.orig (by rw [hu]; norm_num)
    have hl : vlen (s'.joint.pose x).p ≤ 30 := by
      refine joint_length hs.valid.1 ?_ ?_
      · rw [← hs.scale, ← hs.offset]; exact hs.arg x hx
      · rw [← hs.origin]; exact hs.orig
    obtain ⟨a1, a2⟩ := C98_segment F hF s s' hs.valid x _ _ _ _ 30 hj hs.tip hs.length hl
    refine ⟨a1.mono ?_ ?_, a2.trans (by norm_num)⟩
    · have : F.g3 * (Real.sqrt 3 + 1 / 10 ^ 14) ≤ 34 / 10 ^ 17 * (1733 / 1000 + 1 / 10 ^ 14) :=
        mul_le_mul hg (by linarith) (by positivity) (by norm_num)
      have h2 : 1 / 10 ^ 14 + F.g3 * (Real.sqrt 3 + 1 / 10 ^ 14) ≤ 11 / 10 ^ 15 := by norm_num at this ⊢; linarith
      have h3 : (Real.sqrt 3 + 78 * (3 / 10 ^ 15)) * (1 / 10 ^ 14 + F.g3 * (Real.sqrt 3 + 1 / 10 ^ 14)) ≤
          (1733 / 1000 + 78 * (3 / 10 ^ 15)) * (11 / 10 ^ 15) :=
        mul_le_mul (by linarith) h2 (by positivity) (by norm_num)
      norm_num at h3 ⊢
      linarith
    · have : F.g3 * (Real.sqrt 3 + 78 * (3 / 10 ^ 15)) ≤ 34 / 10 ^ 17 * (1733 / 1000 + 78 * (3 / 10 ^ 15)) :=
        mul_le_mul hg (by linarith) (by positivity) (by norm_num)
      rw [hu]
      norm_num at this ⊢
      linarith
  · have hj := C98_joint F hF s.joint s'.joint hs.type hs.scale hs.offset hs.origin hs.valid.1 (3 / 10 ^ 15) 10 10 x (by norm_num)
      hs.axis (hs.arg x (.inl hx)) hs.orig (by rw [hu]; norm_num)
    have hw := C99_joint F hF s.joint s'.joint hs.type hs.scale hs.valid.1 (3 / 10 ^ 15) 1 (by norm_num) (by rw [hu]; norm_num) hsc hs.axis
    refine (C99_segment F hF s s' hs.valid x _ _ _ _ 30 _ _ _ _ hj hs.tip hs.length hw).mono (by norm_num) ?_ le_rfl (by norm_num)
    have m1 : mapErr F.g3 (78 * (3 / 10 ^ 15)) 30 (1 / 10 ^ 14) ≤ 8 / 10 ^ 12 :=
      (mapErr_le g0 (by norm_num) (by norm_num) (by norm_num) hg le_rfl s3).trans (by norm_num)
    have m0 : 0 ≤ mapErr F.g3 (78 * (3 / 10 ^ 15)) 30 (1 / 10 ^ 14) := mapErr_nonneg g0 (by norm_num) (by norm_num) (by norm_num)
    have m2 := crossErr_mono g0 (zero_le_one) (by norm_num : (0 : ℝ) ≤ 8 * (3 / 10 ^ 15) * 1) (by norm_num : (0 : ℝ) ≤ 30) m0 hg le_rfl m1
    have m3 : crossErr (34 / 10 ^ 17) 1 (8 * (3 / 10 ^ 15) * 1) 30 (8 / 10 ^ 12) ≤ 9 / 10 ^ 12 := by unfold crossErr; norm_num
    have m4 := m2.trans m3
    rw [hu]
    norm_num at m4 ⊢
    linarith

/-- In double precision, a chain of at most ten segments within the ranges of `SegClose` and with scales of at most 1: the columns of
the Jacobian returned are within `1e-11` of those of the ideal chain in the rotation part and within `1e-6` in the velocity part. -/
theorem C99_double (F : Fl) (hF : F.Ok) (hu : F.u = 1 / 2 ^ 53) (c c' : Chain) (hc : c.WF) (hc' : c'.WF) (q : List ℝ)
    (locked : List Bool) (J0 : Jac) (h : List.Forall₂ (SegClose q) c.segments c'.segments) (hσ : ∀ s ∈ c.segments, |s.joint.scale| ≤ 1)
    (k : ℤ) (hl : locked.length = c.nrOfJoints) (hq : q.length = c.nrOfJoints) (hJ : J0.length = c.nrOfJoints)
    (hk : segmentNr c k ≤ c.nrOfSegments) (hn : c.nrOfSegments ≤ 10) :
    ∃ J J', F.jntToJac c locked q J0 k = some (E_NOERROR, J) ∧ jntToJac c' locked q J0 k = some (E_NOERROR, J') ∧
      List.Forall₂ (fun t t' => vdist t.rot t'.rot ≤ 1 / 10 ^ 11 ∧ vdist t.vel t'.vel ≤ 1 / 10 ^ 6) J J' := by
  have hg : F.g3 ≤ 34 / 10 ^ 17 := by rw [Fl.g3, hu]; norm_num
  have g0 := Fl.g3_nonneg hF
  have u0 := hF.nonneg
  have s0 := Real.sqrt_nonneg 3
  have s3 := sqrt3_le
  have hseg : List.Forall₂ (fun s s' => SegNear F q (3 / 10 ^ 13) (1 / 10 ^ 11) 60 s s' ∧ TwistNear F q (3 / 10 ^ 14) (1 / 10 ^ 11) 1 31 s s')
      c.segments c'.segments := by
    revert hσ
    generalize c.segments = x at h
    generalize c'.segments = y at h
    induction h with
    | nil => intro _; exact .nil
    | cons h1 _ ih =>
      intro hσ
      exact .cons (segClose_near hF hu h1 (hσ _ (by simp))) (ih fun s hs => hσ s (by simp [hs]))
  obtain ⟨J, J', e1, e2, hJJ⟩ := (C99_jac F hF c c' hc hc' q locked J0 (3 / 10 ^ 13) (1 / 10 ^ 11) 60 1 31 (3 / 10 ^ 14) (1 / 10 ^ 11) _ _ _
    (by norm_num) hseg k rfl rfl rfl).2 hl hq hJ hk
  refine ⟨J, J', e1, e2, hJJ.imp fun x y hxy => ?_⟩
  set n := segmentNr c k with hnd
  set κ : ℝ := 3 / 10 ^ 13 + F.g3 * (Real.sqrt 3 + 3 / 10 ^ 13) with hκ
  have k0 : 0 ≤ κ := by positivity
  have k1 : κ ≤ 31 / 10 ^ 14 := by
    have : F.g3 * (Real.sqrt 3 + 3 / 10 ^ 13) ≤ 34 / 10 ^ 17 * (1733 / 1000 + 3 / 10 ^ 13) :=
      mul_le_mul hg (by linarith) (by positivity) (by norm_num)
    rw [hκ]
    norm_num at this ⊢
    linarith
  have p1 : (1 + κ) ^ n ≤ 1 + 32 / 10 ^ 13 :=
    calc (1 + κ) ^ n ≤ (1 + κ) ^ 10 := pow_le_pow_right₀ (by linarith) (by omega)
      _ ≤ (1 + 31 / 10 ^ 14) ^ 10 := pow_le_pow_left₀ (by linarith) (by linarith) 10
      _ ≤ _ := by norm_num
  have p0 : 1 ≤ (1 + κ) ^ n := one_le_pow₀ (by linarith)
  have r0 : 0 ≤ rotErr κ n := rotErr_nonneg k0 n
  have r1 : rotErr κ n ≤ 56 / 10 ^ 13 := by
    have : rotErr κ n ≤ 1733 / 1000 * (32 / 10 ^ 13) := mul_le_mul s3 (by linarith) (by linarith) (by norm_num)
    norm_num at this ⊢
    linarith
  have n10 : (n : ℝ) ≤ 10 := by
    have : n ≤ 10 := by omega
    exact_mod_cast this
  have n0 : (0 : ℝ) ≤ n := Nat.cast_nonneg n
  have w1 : F.g3 * (Real.sqrt 3 * (1 + κ) ^ n) ≤ 34 / 10 ^ 17 * (1733 / 1000 * (1 + 32 / 10 ^ 13)) :=
    mul_le_mul hg (mul_le_mul s3 p1 (by linarith) (by norm_num)) (by positivity) (by norm_num)
  have w0 := (posStep_mono hF.nonneg g0 k0 (by norm_num : (0 : ℝ) ≤ 60) (by norm_num : (0 : ℝ) ≤ 1 / 10 ^ 11) n
    (u := F.u) (g := F.g3)).1
  have w2 : posStep F.u F.g3 κ 60 (1 / 10 ^ 11) n ≤ 4 / 10 ^ 10 := by
    rw [posStep, hu]
    norm_num at w1 r1 ⊢
    linarith
  have w3 : (1 + F.u) ^ n ≤ 2 :=
    calc (1 + F.u) ^ n ≤ (1 + F.u) ^ 10 := pow_le_pow_right₀ (by linarith [hF.nonneg]) (by omega)
      _ ≤ 2 := by rw [hu]; norm_num
  have w3' : 0 ≤ (1 + F.u) ^ n := by positivity
  have w4 : (1 + F.u) ^ n * posStep F.u F.g3 κ 60 (1 / 10 ^ 11) n ≤ 2 * (4 / 10 ^ 10) := mul_le_mul w3 w2 w0 (by norm_num)
  have w5 : 0 ≤ (1 + F.u) ^ n * posStep F.u F.g3 κ 60 (1 / 10 ^ 11) n := mul_nonneg w3' w0
  have w6 : posErr F.u F.g3 κ 60 (1 / 10 ^ 11) n ≤ 8 / 10 ^ 9 := by
    have : posErr F.u F.g3 κ 60 (1 / 10 ^ 11) n ≤ 10 * (2 * (4 / 10 ^ 10)) := mul_le_mul n10 w4 w5 (by norm_num)
    exact this.trans (by norm_num)
  have w7 := posErr_nonneg u0 g0 k0 (by norm_num : (0 : ℝ) ≤ 60) (by norm_num : (0 : ℝ) ≤ 1 / 10 ^ 11) n
  set e := posErr F.u F.g3 κ 60 (1 / 10 ^ 11) n with he
  obtain ⟨⟨h1, h2⟩, -⟩ := hxy
  have A0 : 0 ≤ mapErr F.g3 (rotErr κ n) 1 (3 / 10 ^ 14) := mapErr_nonneg g0 r0 (by norm_num) (by norm_num)
  have A1 : mapErr F.g3 (rotErr κ n) 1 (3 / 10 ^ 14) ≤ 6 / 10 ^ 12 :=
    (mapErr_le g0 r0 (by norm_num) (by norm_num) hg r1 s3).trans (by norm_num)
  set A := mapErr F.g3 (rotErr κ n) 1 (3 / 10 ^ 14) with hA
  have B0 : 0 ≤ mapErr F.g3 (rotErr κ n) 31 (1 / 10 ^ 11) := mapErr_nonneg g0 r0 (by norm_num) (by norm_num)
  have B1 : mapErr F.g3 (rotErr κ n) 31 (1 / 10 ^ 11) ≤ 2 / 10 ^ 10 :=
    (mapErr_le g0 r0 (by norm_num) (by norm_num) hg r1 s3).trans (by norm_num)
  set B := mapErr F.g3 (rotErr κ n) 31 (1 / 10 ^ 11) with hB
  refine ⟨h1.trans (A1.trans (by norm_num)), h2.trans ?_⟩
  have E0 : 0 ≤ 2 * e + F.u * (60 + 2 * e) := by positivity
  have E1 : 2 * e + F.u * (60 + 2 * e) ≤ 17 / 10 ^ 9 := by
    rw [hu]
    norm_num at w6 ⊢
    linarith
  have c1 := crossErr_mono g0 zero_le_one A0 (by norm_num : (0 : ℝ) ≤ 60) E0 hg A1 E1
  have c2 : crossErr (34 / 10 ^ 17) 1 (6 / 10 ^ 12) 60 (17 / 10 ^ 9) ≤ 18 / 10 ^ 9 := by unfold crossErr; norm_num
  have c0 : 0 ≤ crossErr F.g3 1 A 60 (2 * e + F.u * (60 + 2 * e)) := by unfold crossErr; positivity
  have V0 : 0 ≤ jacStep F.u F.g3 1 A 31 B 60 e n := by unfold jacStep; positivity
  have V1 : jacStep F.u F.g3 1 A 31 B 60 e n ≤ 2 / 10 ^ 8 := by
    unfold jacStep
    have c3 := c1.trans c2
    set C := crossErr F.g3 1 A 60 (2 * e + F.u * (60 + 2 * e)) with hC
    rw [hu]
    norm_num at c3 B1 ⊢
    linarith
  have v4 : (1 + F.u) ^ n * jacStep F.u F.g3 1 A 31 B 60 e n ≤ 2 * (2 / 10 ^ 8) := mul_le_mul w3 V1 V0 (by norm_num)
  have v6 : jacErr F.u F.g3 1 A 31 B 60 e n n ≤ 10 * (2 * (2 / 10 ^ 8)) := mul_le_mul n10 v4 (mul_nonneg w3' V0) (by norm_num)
  exact v6.trans (by norm_num)

/-! ## the assumptions can be met -/

/-- A hinge with a skew axis; the stored tip differs from the ideal one. -/
example : ∃ (c c' : Chain) (Q : ℝ → List ℝ) (qd : List ℝ) (J0 : Jac), c.WF ∧ c'.WF ∧ c ≠ c' ∧ c.nrOfSegments = 1 ∧
    List.Forall₂ (SegClose (Q 0)) c.segments c'.segments ∧ (∀ s ∈ c.segments, |s.joint.scale| ≤ 1) ∧
    List.Forall₂ (fun s s' => SegNear sloppy (Q 0) (3 / 10 ^ 13) (1 / 10 ^ 11) 60 s s' ∧
      TwistNear sloppy (Q 0) (3 / 10 ^ 14) (1 / 10 ^ 11) 1 31 s s') c.segments c'.segments ∧
    (∀ s, (Q s).length = c.nrOfJoints) ∧ qd.length = c.nrOfJoints ∧ J0.length = c.nrOfJoints ∧
    (∀ j, HasDerivAt (fun s => (Q s).getD j 0) (qd.getD j 0) 0) ∧ segmentNr c (-1) ≤ c.nrOfSegments ∧
    c.segments.any Segment.moving = true ∧ sloppy.Ok := by
  set j : Joint := ⟨"", .RotAxis, 1, 0, 0, 0, 0, ⟨3 / 5, 4 / 5, 0⟩, ⟨1, 2, 3⟩⟩ with hj
  set s' : Segment := ⟨"", j, RBI.zero, ⟨1, ⟨1, 0, 0⟩⟩⟩ with hs'
  set s : Segment := ⟨"", j, RBI.zero, ⟨1, ⟨1 + 1 / 10 ^ 15, 0, 0⟩⟩⟩ with hs
  have vj : j.Valid := fun _ => by rw [hj]; simp [Vec.dot]; norm_num
  have a : ∀ x : ℝ, x ∈ [(0 : ℝ)] ∨ x = 0 → |1 * x| + |(0 : ℝ)| ≤ 10 := by
    intro x hx
    have : x = 0 := by simpa using hx
    rw [this]
    norm_num
  have hcl : SegClose [(0 : ℝ)] s s' := by
    refine ⟨rfl, rfl, rfl, rfl, ⟨vj, Rot.IsProper.one⟩, fun _ => by simp [hs, hs']; norm_num, a, ?_, ⟨?_, ?_⟩, ?_⟩
    · simp [hs, hj]; norm_num
    · simp [rdist, hs, hs']
    · refine vdist_le (e := 1 / (2 * 10 ^ 14)) ⟨?_, ?_, ?_⟩ |>.trans (by norm_num) <;> simp [hs, hs'] <;> norm_num
    · exact vlen_le_sum (a := 1) (b := 0) (c := 0) (by simp [hs']) (by simp [hs']) (by simp [hs']) (by norm_num) (by norm_num)
  have hsc : |s.joint.scale| ≤ 1 := by simp [hs, hj]
  refine ⟨⟨1, 1, [s]⟩, ⟨1, 1, [s']⟩, fun x => [x], [1], [0], ⟨rfl, ?_⟩, ⟨rfl, ?_⟩, ?_, rfl, .cons hcl .nil, by simpa using hsc,
    .cons (segClose_near sloppy_ok rfl hcl hsc) .nil, fun _ => rfl, rfl, rfl, fun i => ?_, by simp [segmentNr], ?_, sloppy_ok⟩
  · simp [nMoving, hs, Segment.moving, Joint.moving, hj]
  · simp [nMoving, hs', Segment.moving, Joint.moving, hj]
  · intro h
    have : s.f_tip.p.x = s'.f_tip.p.x := by
      have h2 : [s] = [s'] := congrArg Chain.segments h
      have h3 : s = s' := by simpa using h2
      rw [h3]
    rw [hs, hs'] at this
    norm_num at this
  · rcases i with _ | i
    · exact hasDerivAt_id' (0 : ℝ)
    · simpa using hasDerivAt_const (0 : ℝ) (0 : ℝ)
  · simp [hs, Segment.moving, Joint.moving, hj]

end KDL
