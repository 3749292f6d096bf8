import Verif.Model.Ownership
import Mathlib.Data.List.Basic
import Mathlib.Order.Basic

/-! Ownership trees and the effect of deleting, cloning and reading on them. -/

namespace KDL.Mem

/-- Specification: the objects handed over to an object with `aggregate = true` (path_roundedcomposite.hpp:85: "if true, this
object will own the pointer, i.e. it will delete the pointer when the destructor of this object is called"), the composite inside
a rounded composite and the elements of a composite trajectory. -/
def children : Obj → List ℕ
  | .line o true => [o]
  | .circle o true => [o]
  | .composite gv => gv.filterMap fun it => if it.2 then some it.1 else none
  | .cyclic g true => [g]
  | .rounded c o _ true => [o, c]
  | .rounded c _ _ false => [c]
  | .segment g m true => [m, g]
  | .trajComposite vt => vt
  | _ => []

/-- Specification: `Owned h ps S`: the objects at `ps` live and own, directly or indirectly, exactly the live objects at `S`
(themselves included). -/
inductive Owned (h : ℕ → Option Obj) : List ℕ → List ℕ → Prop
  | nil : Owned h [] []
  | cons {p : ℕ} {o : Obj} {S T ps : List ℕ} : h p = some o → Owned h (children o) S → Owned h ps T →
      Owned h (p :: ps) (p :: S ++ T)

namespace M
variable {α β : Type}
theorem bind_ok {m : M α} {f : α → M β} {H H' : Heap} {a : α} (h : m H = some (.ok a, H')) : m.bind f H = f a H' := by
  unfold bind; rw [h]
theorem bind_err {m : M α} {f : α → M β} {H H' : Heap} (h : m H = some (.error (), H')) : m.bind f H = some (.error (), H') := by
  unfold bind; rw [h]
theorem onThrow_ok {m : M α} {c : M Unit} {H H' : Heap} {a : α} (h : m H = some (.ok a, H')) :
    m.onThrow c H = some (.ok a, H') := by
  unfold onThrow; rw [h]
theorem onThrow_err {m : M α} {c : M Unit} {H H' H'' : Heap} {r : Except Unit Unit} (h : m H = some (.error (), H'))
    (hc : c H' = some (r, H'')) : m.onThrow c H = some (.error (), H'') := by
  unfold onThrow; rw [h]; dsimp only; rw [hc]
end M

theorem get_ok {p : ℕ} {H : Heap} {o : Obj} (h : H.obj p = some o) : get p H = some (.ok o, H) := by
  unfold get; rw [h]

theorem Owned.congr {h h' : ℕ → Option Obj} {ps S : List ℕ} (t : Owned h ps S) (e : ∀ x ∈ S, h' x = h x) : Owned h' ps S := by
  induction t with
  | nil => exact .nil
  | cons hp _ _ i1 i2 =>
    refine .cons ((e _ (by simp)).trans hp) (i1 fun x hx => e x (by simp [hx])) (i2 fun x hx => e x (by simp [hx]))

theorem Owned.live {h : ℕ → Option Obj} {ps S : List ℕ} (t : Owned h ps S) : ∀ x ∈ S, h x ≠ none := by
  induction t with
  | nil => intro x hx; cases hx
  | cons hp _ _ i1 i2 =>
    intro x hx
    simp only [List.cons_append, List.mem_cons, List.mem_append] at hx
    rcases hx with rfl | hx | hx
    · rw [hp]; simp
    · exact i1 x hx
    · exact i2 x hx

theorem Owned.inv {h : ℕ → Option Obj} {p : ℕ} {ps S : List ℕ} (t : Owned h (p :: ps) S) :
    ∃ o A T, h p = some o ∧ Owned h (children o) A ∧ Owned h ps T ∧ S = p :: A ++ T := by
  cases t with
  | cons hp a b => exact ⟨_, _, _, hp, a, b, rfl⟩

theorem Owned.inv1 {h : ℕ → Option Obj} {p : ℕ} {S : List ℕ} (t : Owned h [p] S) :
    ∃ o A, h p = some o ∧ Owned h (children o) A ∧ S = p :: A := by
  obtain ⟨o, A, T, hp, a, b, e⟩ := t.inv
  cases b
  exact ⟨o, A, hp, a, by simpa using e⟩

theorem Owned.one {h : ℕ → Option Obj} {p : ℕ} {o : Obj} {A : List ℕ} (hp : h p = some o) (a : Owned h (children o) A) :
    Owned h [p] (p :: A) := by
  simpa using Owned.cons hp a .nil

theorem Owned.append {h : ℕ → Option Obj} {ps qs S T : List ℕ} (t : Owned h ps S) (u : Owned h qs T) :
    Owned h (ps ++ qs) (S ++ T) := by
  induction t with
  | nil => exact u
  | cons hp a _ _ i2 =>
    have := Owned.cons hp a i2
    simpa using this

theorem Owned.split {h : ℕ → Option Obj} {p : ℕ} {ps S : List ℕ} (t : Owned h (p :: ps) S) :
    ∃ A T, Owned h [p] A ∧ Owned h ps T ∧ S = A ++ T := by
  obtain ⟨o, A, T, hp, a, b, e⟩ := t.inv
  exact ⟨p :: A, T, .one hp a, b, e⟩

theorem Owned.nil_eq {h : ℕ → Option Obj} {S : List ℕ} (t : Owned h [] S) : S = [] := by cases t; rfl

/-- The destructors delete the owned objects. -/
theorem destructor_eq (del : ℕ → M Unit) (o : Obj) (H : Heap) : destructor del o H = forEach del (children o) H := by
  have r : ∀ (m : M Unit), m.bind (fun _ => M.ret ()) = m := fun m => by
    funext H; unfold M.bind M.ret
    cases m H with
    | none => rfl
    | some x => obtain ⟨a, b⟩ := x; cases a <;> rfl
  have b : ∀ (f : Unit → M Unit), (M.ret ()).bind f = f () := fun f => rfl
  cases o with
  | orient => rfl
  | profile => rfl
  | point => rfl
  | stationary => rfl
  | line o agg => cases agg <;> simp [destructor, children, forEach, r]
  | circle o agg => cases agg <;> simp [destructor, children, forEach, r]
  | cyclic o agg => cases agg <;> simp [destructor, children, forEach, r]
  | rounded c o k agg => cases agg <;> simp [destructor, children, forEach, r, b]
  | segment g m agg => cases agg <;> simp [destructor, children, forEach, r]
  | trajComposite vt => rfl
  | composite gv =>
    simp only [destructor, children]
    induction gv generalizing H with
    | nil => rfl
    | cons a as ih =>
      obtain ⟨x, f⟩ := a
      cases f
      · show forEach _ as H = _
        rw [ih]
        simp
      · have fm : List.filterMap (fun it : ℕ × Bool => if it.2 then some it.1 else none) ((x, true) :: as) =
            x :: List.filterMap (fun it : ℕ × Bool => if it.2 then some it.1 else none) as := by simp
        rw [fm]
        show (del x).bind (fun _ => forEach _ as) H = (del x).bind (fun _ => forEach del _) H
        unfold M.bind
        cases del x H with
        | none => rfl
        | some y =>
          obtain ⟨u, v⟩ := y
          cases u with
          | error e => rfl
          | ok u => exact ih v

/-- The heap without the objects at `S`. -/
def Heap.without (H : Heap) (S : List ℕ) : Heap := ⟨fun x => if x ∈ S then none else H.obj x, H.next⟩

theorem delete_forest {h : ℕ → Option Obj} {ps S : List ℕ} (t : Owned h ps S) (nd : S.Nodup) (n : ℕ) (hn : S.length ≤ n)
    (H : Heap) (e : ∀ x ∈ S, H.obj x = h x) : forEach (delete n) ps H = some (.ok (), H.without S) := by
  induction t generalizing n H with
  | nil => simp [forEach, M.ret, Heap.without]
  | @cons p o S T ps hp a b i1 i2 =>
    obtain ⟨n, rfl⟩ : ∃ m, n = m + 1 := ⟨n - 1, by simp at hn; omega⟩
    simp only [List.cons_append, List.nodup_cons, List.nodup_append, List.mem_append, not_or, List.length_cons,
      List.length_append] at nd hn
    have g : get p H = some (.ok o, H) := get_ok ((e p (by simp)).trans hp)
    have d1 := i1 nd.2.1 n (by omega) H (fun x hx => e x (by simp [hx]))
    have f1 : free p (H.without S) = some (.ok (), H.without (p :: S)) := by
      have : (H.without S).obj p = some o := by
        simp only [Heap.without, nd.1.1, if_false]
        exact (e p (by simp)).trans hp
      unfold free
      rw [this]
      simp only [Heap.without, List.mem_cons]
      congr 3
      funext x
      by_cases hx : x = p <;> simp [hx]
    have D : delete (n + 1) p H = some (.ok (), H.without (p :: S)) := by
      unfold delete
      rw [M.bind_ok g, M.bind_ok ((destructor_eq _ _ _).trans d1), f1]
    have d2 := i2 nd.2.2.1 (n + 1) (by omega) (H.without (p :: S)) (by
      intro x hx
      have h1 : x ≠ p := fun h => nd.1.2 (h ▸ hx)
      have h2 : x ∉ S := fun h => nd.2.2.2 x h x hx rfl
      simp only [Heap.without, List.mem_cons, h1, h2, or_self, if_false]
      exact e x (by simp [hx]))
    unfold forEach
    rw [M.bind_ok D, d2]
    congr 2
    simp only [Heap.without, List.cons_append, List.mem_cons, List.mem_append]
    congr 1
    funext x
    by_cases h1 : x = p <;> by_cases h2 : x ∈ S <;> by_cases h3 : x ∈ T <;> simp [h1, h2, h3]

theorem delete_owned {H : Heap} {p : ℕ} {S : List ℕ} (t : Owned H.obj [p] S) (nd : S.Nodup) (n : ℕ) (hn : S.length ≤ n) :
    delete n p H = some (.ok (), H.without S) := by
  have h := delete_forest t nd n hn H (fun _ _ => rfl)
  unfold forEach at h
  unfold M.bind at h
  revert h
  cases hd : delete n p H with
  | none => intro h; cases h
  | some y =>
    obtain ⟨u, v⟩ := y
    cases u with
    | error e => intro h; simp at h
    | ok u => intro h; simpa [forEach, M.ret] using h

/-! ### Clones -/

/-- Objects whose `Clone` owns all it creates: what is cloned must have been handed over. -/
def CloneOk (h : ℕ → Option Obj) : Obj → Prop
  | .line o false => h o ≠ none
  | .circle _ agg => agg = true
  | .composite gv => ∀ it ∈ gv, it.2 = true
  | .cyclic _ agg => agg = true
  | .rounded _ o _ false => h o = some .orient
  | _ => True

/-- The interpolation of lines, circles and rounded composites is one, the profile of a segment a profile: the static types of
the C++ members. -/
def Typed (h : ℕ → Option Obj) : Obj → Prop
  | .line o true => h o = some .orient
  | .circle o true => h o = some .orient
  | .rounded c o _ agg => (agg = true → h o = some .orient) ∧ ∃ gv, h c = some (.composite gv)
  | .segment _ m true => h m = some .profile
  | _ => True

/-- `H'` is `H` with the new live objects at `S` only. -/
def Ext (H H' : Heap) (S : List ℕ) : Prop :=
  H.next ≤ H'.next ∧ H'.WF ∧ S.Nodup ∧ (∀ x ∈ S, H.next ≤ x) ∧ ∀ x, x ∉ S → H'.obj x = H.obj x

/-- Outcome of a clone: a new object with its own tree of new objects, or an exception (if `T`) that leaves nothing behind. -/
def Cloned (H : Heap) (T : Prop) (m : ℕ) (r : Option (Except Unit ℕ × Heap)) : Prop :=
  (∃ p' H' S', r = some (.ok p', H') ∧ Ext H H' S' ∧ Owned H'.obj [p'] S' ∧ S'.length ≤ m) ∨
  (T ∧ ∃ H', r = some (.error (), H') ∧ Ext H H' [])

theorem Ext.refl {H : Heap} (w : H.WF) : Ext H H [] := ⟨Nat.le_refl _, w, List.nodup_nil, by simp, fun _ _ => rfl⟩

theorem alloc_ext {H : Heap} (w : H.WF) (o : Obj) :
    ∃ H', alloc o H = some (.ok H.next, H') ∧ Ext H H' [H.next] ∧ H'.obj H.next = some o := by
  refine ⟨_, rfl, ⟨Nat.le_succ _, ?_, by simp, by simp, ?_⟩, by simp⟩
  · intro x hx
    have : x ≠ H.next := by simp at hx; omega
    simp only [this, if_false]
    exact w x (by simp at hx; omega)
  · intro x hx
    simp only [List.mem_singleton] at hx
    simp [hx]

theorem Ext.lt {H H' : Heap} {S : List ℕ} (_ : Ext H H' S) (w : H'.WF) (l : ∀ x ∈ S, H'.obj x ≠ none) : ∀ x ∈ S, x < H'.next := by
  intro x hx
  by_contra hc
  exact l x hx (w x (Nat.not_lt.mp hc))

/-- Two extensions one after the other. -/
theorem Ext.trans {H H1 H2 : Heap} {S T : List ℕ} (a : Ext H H1 S) (b : Ext H1 H2 T) (l : ∀ x ∈ S, H1.obj x ≠ none) :
    Ext H H2 (T ++ S) := by
  obtain ⟨a1, a2, a3, a4, a5⟩ := a
  have lt := Ext.lt ⟨a1, a2, a3, a4, a5⟩ a2 l
  obtain ⟨b1, b2, b3, b4, b5⟩ := b
  refine ⟨Nat.le_trans a1 b1, b2, ?_, ?_, ?_⟩
  · rw [List.nodup_append]
    exact ⟨b3, a3, fun x hx y hy h => absurd (b4 x hx) (by have := lt y hy; omega)⟩
  · intro x hx
    rcases List.mem_append.mp hx with h | h
    · exact Nat.le_trans a1 (b4 x h)
    · exact a4 x h
  · intro x hx
    simp only [List.mem_append, not_or] at hx
    rw [b5 x hx.1, a5 x hx.2]

theorem Ext.perm {H H' : Heap} {S T : List ℕ} (e : Ext H H' S) (p : S.Perm T) : Ext H H' T :=
  ⟨e.1, e.2.1, p.nodup_iff.mp e.2.2.1, fun x hx => e.2.2.2.1 x (p.mem_iff.mpr hx), fun x hx => e.2.2.2.2 x fun h => hx (p.mem_iff.mp h)⟩

/-- Deleting what was created. -/
theorem Ext.undo {H H' : Heap} {S : List ℕ} (e : Ext H H' S) (w : H.WF) : Ext H (H'.without S) [] := by
  refine ⟨e.1, ?_, List.nodup_nil, by simp, ?_⟩
  · intro x hx
    simp only [Heap.without]
    split
    · rfl
    · exact e.2.1 x hx
  · intro x _
    simp only [Heap.without]
    split
    · next h => exact (w x (e.2.2.2.1 x h)).symm
    · next h => exact e.2.2.2.2 x h

/-- Live objects keep living. -/
theorem Ext.old {H H' : Heap} {S : List ℕ} (e : Ext H H' S) (w : H.WF) {x : ℕ} (hx : H.obj x ≠ none) : H'.obj x = H.obj x := by
  refine e.2.2.2.2 x fun h => hx (w x (e.2.2.2.1 x h))

/-- A circle whose clone cannot be constructed. -/
def Throws (bad : ℕ → Bool) (H : Heap) (S : List ℕ) : Prop := ∃ x ∈ S, bad x = true ∧ ∃ o a, H.obj x = some (.circle o a)

/-- No exception, or none where its unwinding would leave something behind: composite trajectories, and rounded composites and
segments if the second argument is evaluated first. -/
def Safe (ord : Bool) (bad : ℕ → Bool) (H : Heap) (S : List ℕ) : Prop :=
  ¬ Throws bad H S ∨ ∀ x ∈ S, ∀ ob, H.obj x = some ob → (∀ vt, ob ≠ .trajComposite vt) ∧
    (ord = true ∨ ((∀ c o k a, ob ≠ .rounded c o k a) ∧ ∀ g m a, ob ≠ .segment g m a))

structure Good (ord : Bool) (bad : ℕ → Bool) (H : Heap) (ps S : List ℕ) : Prop where
  owned : Owned H.obj ps S
  ok : ∀ x ∈ S, ∀ o, H.obj x = some o → CloneOk H.obj o ∧ Typed H.obj o
  safe : Safe ord bad H S

theorem Throws.mono {bad : ℕ → Bool} {H : Heap} {S T : List ℕ} (h : Throws bad H S) (s : ∀ x ∈ S, x ∈ T) : Throws bad H T :=
  let ⟨x, hx, h⟩ := h
  ⟨x, s x hx, h⟩
theorem Safe.mono {ord : Bool} {bad : ℕ → Bool} {H : Heap} {S T : List ℕ} (h : Safe ord bad H T) (s : ∀ x ∈ S, x ∈ T) :
    Safe ord bad H S := by
  rcases h with h | h
  · exact .inl fun t => h (t.mono s)
  · exact .inr fun x hx => h x (s x hx)

theorem Good.ext {ord : Bool} {bad : ℕ → Bool} {H H' : Heap} {ps S N : List ℕ} (g : Good ord bad H ps S) (w : H.WF)
    (e : Ext H H' N) : Good ord bad H' ps S ∧ (Throws bad H' S ↔ Throws bad H S) := by
  have eq : ∀ x ∈ S, H'.obj x = H.obj x := fun x hx => e.old w (g.owned.live x hx)
  have th : Throws bad H' S ↔ Throws bad H S := by
    constructor
    · rintro ⟨x, hx, h1, o, a, h2⟩
      exact ⟨x, hx, h1, o, a, (eq x hx) ▸ h2⟩
    · rintro ⟨x, hx, h1, o, a, h2⟩
      exact ⟨x, hx, h1, o, a, (eq x hx).trans h2⟩
  have some' : ∀ x ob, H.obj x = some ob → H'.obj x = some ob := fun x ob h => (e.old w (by rw [h]; simp)).trans h
  refine ⟨⟨g.owned.congr eq, ?_, ?_⟩, th⟩
  · intro x hx o ho
    rw [eq x hx] at ho
    obtain ⟨a, b⟩ := g.ok x hx o ho
    constructor
    · unfold CloneOk at a ⊢
      split at a
      · rw [e.old w a]; exact a
      · exact a
      · exact a
      · exact a
      · exact some' _ _ a
      · simp only
    · unfold Typed at b ⊢
      split at b
      · exact some' _ _ b
      · exact some' _ _ b
      · exact ⟨fun h => some' _ _ (b.1 h), b.2.imp fun _ h => some' _ _ h⟩
      · exact some' _ _ b
      · trivial
  · rcases g.safe with h | h
    · exact .inl fun t => h (th.mp t)
    · exact .inr fun x hx ob ho => h x hx ob (eq x hx ▸ ho)

theorem Good.split {ord : Bool} {bad : ℕ → Bool} {H : Heap} {p : ℕ} {ps S : List ℕ} (g : Good ord bad H (p :: ps) S) :
    ∃ A T, Good ord bad H [p] A ∧ Good ord bad H ps T ∧ S = A ++ T := by
  obtain ⟨A, T, a, b, e⟩ := g.owned.split
  refine ⟨A, T, ⟨a, fun x hx => g.ok x (by simp [e, hx]), g.safe.mono fun x hx => by simp [e, hx]⟩,
    ⟨b, fun x hx => g.ok x (by simp [e, hx]), g.safe.mono fun x hx => by simp [e, hx]⟩, e⟩

theorem Good.inner {ord : Bool} {bad : ℕ → Bool} {H : Heap} {p : ℕ} {S : List ℕ} (g : Good ord bad H [p] S) :
    ∃ o A, H.obj p = some o ∧ Good ord bad H (children o) A ∧ S = p :: A := by
  obtain ⟨o, A, hp, a, e⟩ := g.owned.inv1
  exact ⟨o, A, hp, ⟨a, fun x hx => g.ok x (by simp [e, hx]), g.safe.mono fun x hx => by simp [e, hx]⟩, e⟩

theorem Cloned.weaken {H : Heap} {T T' : Prop} {m m' : ℕ} {r} (c : Cloned H T m r) (t : T → T') (h : m ≤ m') : Cloned H T' m' r := by
  rcases c with ⟨p, H', S, a, b, c, d⟩ | ⟨a, b⟩
  · exact .inl ⟨p, H', S, a, b, c, Nat.le_trans d h⟩
  · exact .inr ⟨t a, b⟩

/-- A new object without owned ones. -/
theorem cloned_leaf {H : Heap} (w : H.WF) (o : Obj) (ho : children o = []) (T : Prop) : Cloned H T 1 (alloc o H) := by
  obtain ⟨H', a, e, h⟩ := alloc_ext w o
  exact .inl ⟨_, H', _, a, e, .one h (by rw [ho]; exact .nil), by simp⟩

/-- A new object that owns the one just made. -/
theorem cloned_wrap {H : Heap} (w : H.WF) {T : Prop} {m : ℕ} {a : M ℕ} (c : Cloned H T m (a H)) (f : ℕ → Obj)
    (hf : ∀ x, children (f x) = [x]) : Cloned H T (m + 1) ((a.bind fun x => alloc (f x)) H) := by
  rcases c with ⟨p, H1, S, h, e, t, l⟩ | ⟨a, H1, h, e⟩
  · rw [M.bind_ok h]
    obtain ⟨H2, h2, e2, o2⟩ := alloc_ext e.2.1 (f p)
    refine .inl ⟨_, H2, _, h2, e.trans e2 t.live, ?_, by simp; omega⟩
    refine .one o2 ?_
    rw [hf]
    exact t.congr fun x hx => e2.old e.2.1 (t.live x hx)
  · rw [M.bind_err h]
    exact .inr ⟨a, H1, rfl, e⟩

/-- Two objects made one after the other, the second without an exception, and an object that owns them. -/
theorem cloned_pair {H : Heap} (w : H.WF) {T : Prop} {ma mb : ℕ} {a b : M ℕ} (ca : Cloned H T ma (a H))
    (cb : ∀ H1 S, Ext H H1 S → Cloned H1 False mb (b H1)) (f : ℕ → ℕ → Obj)
    (hf : ∀ x y, children (f x y) = [x, y] ∨ children (f x y) = [y, x]) :
    Cloned H T (ma + mb + 1) ((a.bind fun x => b.bind fun y => alloc (f x y)) H) := by
  rcases ca with ⟨p, H1, S, h, e, t, l⟩ | ⟨a, H1, h, e⟩
  · rw [M.bind_ok h]
    rcases cb H1 S e with ⟨q, H2, S2, h2, e2, t2, l2⟩ | ⟨x, _⟩
    · rw [M.bind_ok h2]
      obtain ⟨H3, h3, e3, o3⟩ := alloc_ext e2.2.1 (f p q)
      have k1 : Owned H3.obj [q] S2 := t2.congr fun x hx => e3.old e2.2.1 (t2.live x hx)
      have k0 : Owned H2.obj [p] S := t.congr fun x hx => e2.old e.2.1 (t.live x hx)
      have k2 : Owned H3.obj [p] S := k0.congr fun x hx => e3.old e2.2.1 (k0.live x hx)
      have E := (e.trans e2 t.live).trans e3 (by
        intro x hx
        rcases List.mem_append.mp hx with h | h
        · exact t2.live x h
        · exact k0.live x h)
      rcases hf p q with h | h
      · have k3 : Owned H3.obj (children (f p q)) (S ++ S2) := by rw [h]; exact k2.append k1
        refine .inl ⟨_, H3, _, h3, E.perm ?_, .one o3 k3, by simp; omega⟩
        show (H2.next :: (S2 ++ S)).Perm _
        exact (List.perm_append_comm).cons _
      · have k3 : Owned H3.obj (children (f p q)) (S2 ++ S) := by rw [h]; exact k1.append k2
        exact .inl ⟨_, H3, _, h3, E, .one o3 k3, by simp; omega⟩
    · exact x.elim
  · rw [M.bind_err h]
    exact .inr ⟨a, H1, rfl, e⟩

/-- Adding a new part to a composite that is itself new. -/
theorem add_part {H0 H H1 : Heap} {c g : ℕ} {S T : List ℕ} {oc oc' : Obj} (e : Ext H0 H (c :: T)) (hc : H.obj c = some oc)
    (ht : Owned H.obj (children oc) T) (e1 : Ext H H1 S) (t1 : Owned H1.obj [g] S) (h' : children oc' = children oc ++ [g]) :
    Ext H0 ⟨fun x => if x = c then some oc' else H1.obj x, H1.next⟩ (c :: (T ++ S)) ∧
      Owned (fun x => if x = c then some oc' else H1.obj x) (children oc') (T ++ S) := by
  have lc : ∀ x ∈ c :: T, H.obj x ≠ none := by
    intro x hx
    rcases List.mem_cons.mp hx with h | h
    · rw [h, hc]; simp
    · exact ht.live x h
  have E := e.trans e1 lc
  have P : (S ++ c :: T).Perm (c :: (T ++ S)) := by
    refine List.perm_append_comm.trans ?_
    simp
  have E' := E.perm P
  obtain ⟨a1, a2, a3, a4, a5⟩ := E'
  have nd := List.nodup_cons.mp a3
  have cH1 : H1.obj c = some oc := (e1.old e.2.1 (by rw [hc]; simp)).trans hc
  refine ⟨⟨a1, ?_, a3, a4, ?_⟩, ?_⟩
  · intro x hx
    have : x ≠ c := by
      rintro rfl
      have := a2 x hx
      rw [cH1] at this; cases this
    simp only [this, if_false]
    exact a2 x hx
  · intro x hx
    have : x ≠ c := fun h => hx (by simp [h])
    simp only [this, if_false]
    exact a5 x hx
  · rw [h']
    have k1 : Owned H1.obj (children oc) T := ht.congr fun x hx => e1.old e.2.1 (ht.live x hx)
    refine (k1.append t1).congr fun x hx => ?_
    have : x ≠ c := fun h => nd.1 (h ▸ hx)
    simp [this]

theorem cloneLoop_spec {ord : Bool} {bad : ℕ → Bool} {n k : ℕ}
    (IH : ∀ H p S, H.WF → Good ord bad H [p] S → S.length ≤ k → Cloned H (Throws bad H S) (2 * S.length) (clone ord bad n p H))
    {H0 : Heap} (w0 : H0.WF) {c : ℕ} : ∀ (gv : List (ℕ × Bool)) (H : Heap) (gv0 : List (ℕ × Bool)) (T A : List ℕ),
    (∀ it ∈ gv, it.2 = true) → Good ord bad H0 (children (.composite gv)) A → A.length ≤ k → Ext H0 H (c :: T) →
    H.obj c = some (.composite gv0) → Owned H.obj (children (.composite gv0)) T →
    ∃ r H' gv' T', cloneLoop (clone ord bad n) c gv H = some (r, H') ∧ Ext H0 H' (c :: T') ∧ H'.obj c = some (.composite gv') ∧
      Owned H'.obj (children (.composite gv')) T' ∧ T'.length ≤ T.length + 2 * A.length ∧
      (r = .ok () ∨ Throws bad H0 A ∧ r = .error ())
  | [], H, gv0, T, A, _, _, _, e, hc, ht => ⟨_, H, gv0, T, rfl, e, hc, ht, by omega, .inl rfl⟩
  | (p, f) :: gv, H, gv0, T, A, hall, g, hk, e, hc, ht => by
    have hf : f = true := hall (p, f) (by simp)
    subst hf
    have hch : children (.composite ((p, true) :: gv)) = p :: children (.composite gv) := by simp [children]
    rw [hch] at g
    obtain ⟨B, C, gB, gC, rfl⟩ := g.split
    simp only [List.length_append] at hk ⊢
    obtain ⟨gB', tB⟩ := gB.ext w0 e
    unfold cloneLoop
    rcases IH H p B e.2.1 gB' (by omega) with ⟨q, H1, S, h1, e1, t1, l1⟩ | ⟨t, H1, h1, e1⟩
    · obtain ⟨E, O⟩ := add_part (oc' := .composite (gv0 ++ [(q, true)])) e hc ht e1 t1 (by simp [children])
      obtain ⟨oq, hq⟩ : ∃ oq, H1.obj q = some oq := by
        obtain ⟨o, _, h, _⟩ := t1.inv1
        exact ⟨o, h⟩
      have hc1 : H1.obj c = some (.composite gv0) := (e1.old e.2.1 (by rw [hc]; simp)).trans hc
      have ad : compositeAdd c q true H1 =
          some (.ok (), ⟨fun x => if x = c then some (.composite (gv0 ++ [(q, true)])) else H1.obj x, H1.next⟩) := by
        unfold compositeAdd
        rw [M.bind_ok (get_ok hc1), M.bind_ok (get_ok hq)]
        rfl
      obtain ⟨r, H', gv', T', l1', l2, l3, l4, l5, l6⟩ := cloneLoop_spec IH w0 gv _ (gv0 ++ [(q, true)]) (T ++ S) C
        (fun it h => hall it (by simp [h])) gC (by omega) E (by simp) O
      refine ⟨r, H', gv', T', ?_, l2, l3, l4, ?_, ?_⟩
      · rw [M.bind_ok h1, M.bind_ok ad, l1']
      · simp only [List.length_append] at l5; omega
      · rcases l6 with l | l
        · exact .inl l
        · exact .inr ⟨l.1.mono (by simp +contextual), l.2⟩
    · have k1 : Owned H1.obj (children (.composite gv0)) T := ht.congr fun x hx => e1.old e.2.1 (ht.live x hx)
      refine ⟨_, H1, gv0, T, M.bind_err h1, ?_, (e1.old e.2.1 (by rw [hc]; simp)).trans hc, k1, by omega,
        .inr ⟨(tB.mp t).mono (by simp +contextual), rfl⟩⟩
      have := e.trans e1 (by
        intro x hx
        rcases List.mem_cons.mp hx with h | h
        · rw [h, hc]; simp
        · exact ht.live x h)
      exact this

theorem trajCloneLoop_spec {ord : Bool} {bad : ℕ → Bool} {n k : ℕ}
    (IH : ∀ H p S, H.WF → Good ord bad H [p] S → S.length ≤ k → Cloned H (Throws bad H S) (2 * S.length) (clone ord bad n p H))
    {H0 : Heap} (w0 : H0.WF) {c : ℕ} : ∀ (vt : List ℕ) (H : Heap) (vt0 : List ℕ) (T A : List ℕ),
    Good ord bad H0 vt A → ¬ Throws bad H0 A → A.length ≤ k → Ext H0 H (c :: T) →
    H.obj c = some (.trajComposite vt0) → Owned H.obj vt0 T →
    ∃ H' vt' T', trajCloneLoop (clone ord bad n) c vt H = some (.ok (), H') ∧ Ext H0 H' (c :: T') ∧
      H'.obj c = some (.trajComposite vt') ∧ Owned H'.obj vt' T' ∧ T'.length ≤ T.length + 2 * A.length
  | [], H, gv0, T, A, _, _, _, e, hc, ht => ⟨H, gv0, T, rfl, e, hc, ht, by omega⟩
  | p :: gv, H, gv0, T, A, g, nt, hk, e, hc, ht => by
    obtain ⟨B, C, gB, gC, rfl⟩ := g.split
    simp only [List.length_append] at hk ⊢
    obtain ⟨gB', tB⟩ := gB.ext w0 e
    unfold trajCloneLoop
    rcases IH H p B e.2.1 gB' (by omega) with ⟨q, H1, S, h1, e1, t1, l1⟩ | ⟨t, H1, h1, e1⟩
    · obtain ⟨E, O⟩ := add_part (oc' := .trajComposite (gv0 ++ [q])) e hc (oc := .trajComposite gv0) ht e1 t1 rfl
      obtain ⟨oq, hq⟩ : ∃ oq, H1.obj q = some oq := by
        obtain ⟨o, _, h, _⟩ := t1.inv1
        exact ⟨o, h⟩
      have hc1 : H1.obj c = some (.trajComposite gv0) := (e1.old e.2.1 (by rw [hc]; simp)).trans hc
      have ad : trajAdd c q H1 =
          some (.ok (), ⟨fun x => if x = c then some (.trajComposite (gv0 ++ [q])) else H1.obj x, H1.next⟩) := by
        unfold trajAdd
        rw [M.bind_ok (get_ok hc1), M.bind_ok (get_ok hq)]
        rfl
      obtain ⟨H', gv', T', l1', l2, l3, l4, l5⟩ := trajCloneLoop_spec IH w0 gv _ (gv0 ++ [q]) (T ++ S) C gC
        (fun t => nt (t.mono (by simp +contextual))) (by omega) E (by simp) O
      refine ⟨H', gv', T', ?_, l2, l3, l4, ?_⟩
      · rw [M.bind_ok h1, M.bind_ok ad, l1']
      · simp only [List.length_append] at l5; omega
    · exact absurd ((tB.mp t).mono (T := B ++ C) (by simp +contextual)) nt

theorem clone_orient {ord : Bool} {bad : ℕ → Bool} {n p : ℕ} {H : Heap} (h : H.obj p = some .orient) :
    clone ord bad (n + 1) p H = alloc .orient H := by
  unfold clone
  rw [M.bind_ok (get_ok h)]
theorem clone_profile {ord : Bool} {bad : ℕ → Bool} {n p : ℕ} {H : Heap} (h : H.obj p = some .profile) :
    clone ord bad (n + 1) p H = alloc .profile H := by
  unfold clone
  rw [M.bind_ok (get_ok h)]

/-- The order of evaluation of the two arguments. -/
theorem both_bind {α β γ : Type} (ord : Bool) (a : M α) (b : M β) (f : α × β → M γ) :
    (both ord a b).bind f = if ord then a.bind fun x => b.bind fun y => f (x, y) else b.bind fun y => a.bind fun x => f (x, y) := by
  cases ord
  · funext H
    simp only [both, Bool.false_eq_true, if_false, M.bind, M.ret]
    cases b H with
    | none => rfl
    | some x =>
      obtain ⟨u, H1⟩ := x
      cases u with
      | error => rfl
      | ok y =>
        dsimp only
        cases a H1 with
        | none => rfl
        | some x => obtain ⟨u, H2⟩ := x; cases u <;> rfl
  · funext H
    simp only [both, if_true, M.bind, M.ret]
    cases a H with
    | none => rfl
    | some x =>
      obtain ⟨u, H1⟩ := x
      cases u with
      | error => rfl
      | ok y =>
        dsimp only
        cases b H1 with
        | none => rfl
        | some x => obtain ⟨u, H2⟩ := x; cases u <;> rfl

/-- The outcome of `Clone`. -/
theorem clone_spec (ord : Bool) (bad : ℕ → Bool) : ∀ (k n : ℕ), 2 * k ≤ n → ∀ H p S, H.WF → Good ord bad H [p] S → S.length ≤ k →
    Cloned H (Throws bad H S) (2 * S.length) (clone ord bad n p H) := by
  intro k
  induction k with
  | zero =>
    intro n _ H p S _ g hk
    obtain ⟨_, _, _, _, e⟩ := g.inner
    rw [e] at hk; simp at hk
  | succ k ih =>
    intro n hn H p S w g hk
    obtain ⟨m, rfl⟩ : ∃ m, n = m + 1 := ⟨n - 1, by omega⟩
    have IH := ih m (by omega)
    have Gk := g
    obtain ⟨ob, A, hp, gA, rfl⟩ := g.inner
    simp only [List.length_cons] at hk
    have hok := Gk.ok p (by simp) ob hp
    have sub : Throws bad H A → Throws bad H (p :: A) := fun t => t.mono (by simp +contextual)
    unfold clone
    rw [M.bind_ok (get_ok hp)]
    simp only [List.length_cons]
    have leaf : ∀ o, children o = [] → Cloned H (Throws bad H (p :: A)) (2 * (A.length + 1)) (alloc o H) := fun o ho =>
      (cloned_leaf w o ho _).weaken id (by omega)
    have one : ∀ q, Good ord bad H [q] A → ∀ f : ℕ → Obj, (∀ x, children (f x) = [x]) →
        Cloned H (Throws bad H (p :: A)) (2 * (A.length + 1)) (((clone ord bad m q).bind fun x => alloc (f x)) H) := fun q gq f hf =>
      (cloned_wrap w (IH H q A w gq (by omega)) f hf).weaken sub (by omega)
    cases ob with
    | orient => exact leaf _ rfl
    | profile => exact leaf _ rfl
    | point => exact leaf _ rfl
    | stationary => exact leaf _ rfl
    | line o agg =>
      cases agg with
      | true => exact one o gA (fun x => .line x true) fun _ => rfl
      | false =>
        have : H.obj o ≠ none := hok.1
        obtain ⟨oo, ho⟩ := Option.ne_none_iff_exists'.mp this
        simp only [Bool.false_eq_true, if_false]
        rw [M.bind_ok (get_ok ho)]
        exact leaf _ rfl
    | circle o agg =>
      obtain rfl : agg = true := hok.1
      have c := IH H o A w gA (by omega)
      dsimp only
      cases hb : bad p with
      | false =>
        have := cloned_wrap w c (fun x => .circle x true) fun _ => rfl
        simpa [newCircle] using this.weaken sub (by omega)
      | true =>
        rcases c with ⟨q, H1, S, h, e, t, l⟩ | ⟨t, H1, h, e⟩
        · rw [M.bind_ok h]
          refine .inr ⟨⟨p, by simp, hb, o, true, hp⟩, H1.without S, ?_, e.undo w⟩
          unfold newCircle
          simp only [if_true]
          rw [M.bind_ok (delete_owned t e.2.2.1 m (by omega))]
          rfl
        · rw [M.bind_err h]
          exact .inr ⟨sub t, H1, rfl, e⟩
    | cyclic gg agg =>
      obtain rfl : agg = true := hok.1
      exact one gg gA (fun x => .cyclic x true) fun _ => rfl
    | composite gv =>
      dsimp only
      obtain ⟨H1, h1, e1, o1⟩ := alloc_ext w (.composite [])
      rw [M.bind_ok h1]
      obtain ⟨r, H', gv', T', l1, l2, l3, l4, l5, l6⟩ := cloneLoop_spec IH w gv H1 [] [] A hok.1 gA (by omega) e1 o1 .nil
      simp only [List.length_nil, Nat.zero_add] at l5
      rcases l6 with rfl | ⟨t, rfl⟩
      · rw [M.bind_ok (M.onThrow_ok l1)]
        exact .inl ⟨_, H', _, rfl, l2, .one l3 l4, by simp; omega⟩
      · have d := delete_owned (Owned.one l3 l4) l2.2.2.1 m (by simp; omega)
        rw [M.bind_err (M.onThrow_err l1 d)]
        exact .inr ⟨sub t, _, rfl, l2.undo w⟩
    | rounded c o np agg =>
      dsimp only
      rw [both_bind]
      obtain ⟨m, rfl⟩ : ∃ m', m = m' + 1 := ⟨m - 1, by omega⟩
      have ho : H.obj o = some .orient := by
        cases agg with
        | true => exact hok.2.1 rfl
        | false => exact hok.1
      obtain ⟨C, gC, lC, sC⟩ : ∃ C, Good ord bad H [c] C ∧ C.length ≤ A.length ∧ ∀ x ∈ C, x ∈ A := by
        cases agg with
        | true =>
          obtain ⟨B, C, _, gC, rfl⟩ := gA.split
          exact ⟨C, gC, by simp, by simp +contextual⟩
        | false => exact ⟨A, gA, Nat.le_refl _, fun _ h => h⟩
      have cc := IH H c C w gC (by omega)
      have or1 : ∀ H1 N, Ext H H1 N → Cloned H1 False 1 (clone ord bad (m + 1) o H1) := fun H1 N e => by
        rw [clone_orient ((e.old w (by rw [ho]; simp)).trans ho)]
        exact cloned_leaf e.2.1 _ rfl _
      cases hord : ord with
      | true =>
        simp only [if_true]
        subst hord
        exact (cloned_pair w cc or1 (fun x y => .rounded x y np true) fun x y => .inr rfl).weaken
          (fun t => t.mono fun x hx => by simp [sC x hx]) (by omega)
      | false =>
        simp only [Bool.false_eq_true, if_false]
        subst hord
        have nt : ¬ Throws bad H (p :: A) := by
          rcases Gk.safe with h | h
          · exact h
          · rcases (h p (by simp) _ hp).2 with h | h
            · cases h
            · exact absurd rfl (h.1 c o np agg)
        have c1 : ∀ H1 N, Ext H H1 N → Cloned H1 False (2 * C.length) (clone false bad (m + 1) c H1) := fun H1 N e => by
          obtain ⟨g1, t1⟩ := gC.ext w e
          exact (IH H1 c C e.2.1 g1 (by omega)).weaken
            (fun t => nt ((t1.mp t).mono fun x hx => by simp [sC x hx])) (Nat.le_refl _)
        exact (cloned_pair w ((or1 H [] (.refl w)).weaken (m' := 1) (T' := Throws bad H (p :: A)) False.elim (Nat.le_refl _)) c1
          (fun x y => .rounded y x np true) fun x y => .inl rfl).weaken id (by omega)
    | segment gg mm agg =>
      cases agg with
      | false => exact leaf _ rfl
      | true =>
        simp only [if_true]
        rw [both_bind]
        obtain ⟨m, rfl⟩ : ∃ m', m = m' + 1 := ⟨m - 1, by omega⟩
        have ho : H.obj mm = some .profile := hok.2
        obtain ⟨B, C, gB, gC, rfl⟩ := gA.split
        have lB : 1 ≤ B.length := by
          obtain ⟨_, _, _, _, e⟩ := gB.inner
          rw [e]; simp
        simp only [List.length_append] at hk ⊢
        have cc := IH H gg C w gC (by omega)
        have or1 : ∀ H1 N, Ext H H1 N → Cloned H1 False 1 (clone ord bad (m + 1) mm H1) := fun H1 N e => by
          rw [clone_profile ((e.old w (by rw [ho]; simp)).trans ho)]
          exact cloned_leaf e.2.1 _ rfl _
        cases hord : ord with
        | true =>
          simp only [if_true]
          subst hord
          exact (cloned_pair w cc or1 (fun x y => .segment x y true) fun x y => .inr rfl).weaken
            (fun t => t.mono fun x hx => by simp [hx]) (by omega)
        | false =>
          simp only [Bool.false_eq_true, if_false]
          subst hord
          have nt : ¬ Throws bad H (p :: (B ++ C)) := by
            rcases Gk.safe with h | h
            · exact h
            · rcases (h p (by simp) _ hp).2 with h | h
              · cases h
              · exact absurd rfl (h.2 gg mm true)
          have c1 : ∀ H1 N, Ext H H1 N → Cloned H1 False (2 * C.length) (clone false bad (m + 1) gg H1) := fun H1 N e => by
            obtain ⟨g1, t1⟩ := gC.ext w e
            exact (IH H1 gg C e.2.1 g1 (by omega)).weaken
              (fun t => nt ((t1.mp t).mono fun x hx => by simp [hx])) (Nat.le_refl _)
          exact (cloned_pair w ((or1 H [] (.refl w)).weaken (m' := 1) (T' := Throws bad H (p :: (B ++ C))) False.elim (Nat.le_refl _)) c1
            (fun x y => .segment y x true) fun x y => .inl rfl).weaken id (by omega)
    | trajComposite vt =>
      dsimp only
      obtain ⟨H1, h1, e1, o1⟩ := alloc_ext w (.trajComposite [])
      rw [M.bind_ok h1]
      have nt : ¬ Throws bad H A := by
        rcases Gk.safe with h | h
        · exact fun t => h (sub t)
        · exact absurd rfl ((h p (by simp) _ hp).1 vt)
      obtain ⟨H', gv', T', l1, l2, l3, l4, l5⟩ := trajCloneLoop_spec IH w vt H1 [] [] A gA nt (by omega) e1 o1 .nil
      simp only [List.length_nil, Nat.zero_add] at l5
      rw [M.bind_ok l1]
      exact .inl ⟨_, H', _, rfl, l2, .one l3 l4, by simp; omega⟩

end KDL.Mem
