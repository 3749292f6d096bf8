import Verif.Lemmas.OwnershipRead

/-!
# C78: ownership of paths, velocity profiles and trajectories

"If true, this object will own the pointer, i.e. it will delete the pointer when the destructor of this object is called": a
destructor frees exactly what was handed over, `Clone` makes an independent object that owns all that was made for it, and
reading from a stream either returns such an object or throws and leaves nothing behind. The specification side is `children`
and `Owned` of Lemmas/Ownership.lean: the tree of the objects handed over.
-/

namespace KDL.Mem

/-- `delete` returns the memory of the object and of all it owns, once, and of nothing else; a second `delete` is undefined. -/
theorem C78_delete (H : Heap) (p : ℕ) (S : List ℕ) (t : Owned H.obj [p] S) (nd : S.Nodup) (n : ℕ) (hn : S.length ≤ n) :
    ∃ H', delete n p H = some (.ok (), H') ∧ (∀ x, H'.obj x = if x ∈ S then none else H.obj x) ∧ ∀ m, delete m p H' = none := by
  refine ⟨_, delete_owned t nd n hn, fun x => rfl, fun m => ?_⟩
  obtain ⟨o, A, _, _, rfl⟩ := t.inv1
  cases m with
  | zero => rfl
  | succ m =>
    unfold delete M.bind get Heap.without
    simp

/-- `Path_Composite::Add` hands the part over if asked to, and takes nothing over otherwise. -/
theorem C78_add (H : Heap) (c g : ℕ) (gv : List (ℕ × Bool)) (S T : List ℕ) (agg : Bool) (hc : H.obj c = some (.composite gv))
    (tc : Owned H.obj [c] T) (tg : Owned H.obj [g] S) (nd : T.Nodup) (dis : ∀ x ∈ S, x ≠ c) :
    ∃ H', compositeAdd c g agg H = some (.ok (), H') ∧ (∀ x, x ≠ c → H'.obj x = H.obj x) ∧
      Owned H'.obj [c] (if agg then T ++ S else T) := by
  obtain ⟨og, _, hg, _⟩ := tg.inv1
  obtain ⟨oc, A, hc', a, rfl⟩ := tc.inv1
  rw [hc] at hc'
  cases hc'
  refine ⟨_, by unfold compositeAdd; rw [M.bind_ok (get_ok hc), M.bind_ok (get_ok hg)]; rfl, fun x hx => by simp [hx], ?_⟩
  have nc := (List.nodup_cons.mp nd).1
  cases agg with
  | true =>
    have hch : children (.composite (gv ++ [(g, true)])) = children (.composite gv) ++ [g] := by simp [children]
    refine .one (o := .composite (gv ++ [(g, true)])) (by simp) ?_
    rw [hch]
    refine (a.append tg).congr fun x hx => ?_
    have : x ≠ c := by
      rcases List.mem_append.mp hx with h | h
      · exact fun e => nc (e ▸ h)
      · exact dis x h
    simp [this]
  | false =>
    have hch : children (.composite (gv ++ [(g, false)])) = children (.composite gv) := by simp [children]
    refine .one (o := .composite (gv ++ [(g, false)])) (by simp) ?_
    rw [hch]
    refine a.congr fun x hx => ?_
    have : x ≠ c := fun e => nc (e ▸ hx)
    simp [this]

/-- `Trajectory_Composite::Add` hands the part over. -/
theorem C78_trajAdd (H : Heap) (c g : ℕ) (vt : List ℕ) (S T : List ℕ) (hc : H.obj c = some (.trajComposite vt))
    (tc : Owned H.obj [c] T) (tg : Owned H.obj [g] S) (nd : T.Nodup) (dis : ∀ x ∈ S, x ≠ c) :
    ∃ H', trajAdd c g H = some (.ok (), H') ∧ (∀ x, x ≠ c → H'.obj x = H.obj x) ∧ Owned H'.obj [c] (T ++ S) := by
  obtain ⟨og, _, hg, _⟩ := tg.inv1
  obtain ⟨oc, A, hc', a, rfl⟩ := tc.inv1
  rw [hc] at hc'
  cases hc'
  refine ⟨_, by unfold trajAdd; rw [M.bind_ok (get_ok hc), M.bind_ok (get_ok hg)]; rfl, fun x hx => by simp [hx], ?_⟩
  have nc := (List.nodup_cons.mp nd).1
  refine .one (o := .trajComposite (vt ++ [g])) (by simp) ?_
  refine (a.append tg).congr fun x hx => ?_
  have : x ≠ c := by
    rcases List.mem_append.mp hx with h | h
    · exact fun e => nc (e ▸ h)
    · exact dis x h
  simp [this]

/-- `Trajectory_Composite::Destroy` frees the parts and leaves an empty composite that can be deleted afterwards. -/
theorem C78_destroy (H : Heap) (c : ℕ) (vt S : List ℕ) (hc : H.obj c = some (.trajComposite vt)) (t : Owned H.obj [c] S)
    (nd : S.Nodup) (n : ℕ) (hn : S.length ≤ n) :
    ∃ H', trajDestroy n c H = some (.ok (), H') ∧ H'.obj c = some (.trajComposite []) ∧
      (∀ x, x ≠ c → H'.obj x = if x ∈ S then none else H.obj x) ∧
      ∃ H'', delete n c H' = some (.ok (), H'') ∧ ∀ x, H''.obj x = if x ∈ S then none else H.obj x := by
  obtain ⟨oc, A, hc', a, rfl⟩ := t.inv1
  rw [hc] at hc'
  cases hc'
  have nc := (List.nodup_cons.mp nd)
  simp only [List.length_cons] at hn
  have d := delete_forest (ps := vt) a nc.2 n (by omega) H fun _ _ => rfl
  refine ⟨_, by unfold trajDestroy; rw [M.bind_ok (get_ok hc)]; dsimp only; rw [M.bind_ok d]; rfl, by simp, ?_, ?_⟩
  · intro x hx
    simp [hx, Heap.without]
  · refine ⟨_, delete_owned (S := [c]) (.one (o := .trajComposite []) (by simp) .nil) (by simp) n (by simp; omega), fun x => ?_⟩
    by_cases h : x = c <;> simp [Heap.without, h]

/-- `Clone`, when no constructor throws: a new object that owns new objects only and all of them; the objects that existed are
as before. Missing: objects of which a circle, a composite or a cyclic path holds a part without owning it, see
`C78_clone_leak_violated`. -/
theorem C78_clone_partial (ord : Bool) (bad : ℕ → Bool) (H : Heap) (w : H.WF) (p : ℕ) (S : List ℕ) (t : Owned H.obj [p] S)
    (ok : ∀ x ∈ S, ∀ o, H.obj x = some o → CloneOk H.obj o ∧ Typed H.obj o) (good : ¬ Throws bad H S) (n : ℕ)
    (hn : 2 * S.length ≤ n) :
    ∃ p' H' S', clone ord bad n p H = some (.ok p', H') ∧ H'.WF ∧ Owned H'.obj [p'] S' ∧ S'.Nodup ∧ S'.length ≤ 2 * S.length ∧
      (∀ x ∈ S', H.obj x = none) ∧ ∀ x, x ∉ S' → H'.obj x = H.obj x := by
  rcases clone_spec ord bad S.length n hn H p S w ⟨t, ok, .inl good⟩ (Nat.le_refl _) with ⟨p', H', S', a, e, o, l⟩ | ⟨h, _⟩
  · exact ⟨p', H', S', a, e.2.1, o, e.2.2.1, l, fun x hx => w x (e.2.2.2.1 x hx), e.2.2.2.2⟩
  · exact absurd h good

/-- The original and the clone can be deleted in either order, after which nothing is left of them. Same hypotheses as
`C78_clone_partial`. -/
theorem C78_clone_delete_partial (ord : Bool) (bad : ℕ → Bool) (H : Heap) (w : H.WF) (p : ℕ) (S : List ℕ) (t : Owned H.obj [p] S)
    (nd : S.Nodup) (ok : ∀ x ∈ S, ∀ o, H.obj x = some o → CloneOk H.obj o ∧ Typed H.obj o) (good : ¬ Throws bad H S) (n : ℕ)
    (hn : 2 * S.length ≤ n) :
    ∃ p' H' H1 H2, clone ord bad n p H = some (.ok p', H') ∧
      ((delete n p).bind fun _ => delete n p') H' = some (.ok (), H1) ∧
      ((delete n p').bind fun _ => delete n p) H' = some (.ok (), H2) ∧
      ∀ x, H1.obj x = (if x ∈ S then none else H.obj x) ∧ H2.obj x = (if x ∈ S then none else H.obj x) := by
  obtain ⟨p', H', S', a, w', o, nd', l, fresh, old⟩ := C78_clone_partial ord bad H w p S t ok good n hn
  have dis : ∀ x ∈ S, x ∉ S' := fun x hx h => t.live x hx (fresh x h)
  have t' : Owned H'.obj [p] S := t.congr fun x hx => old x (dis x hx)
  have A := delete_owned t' nd n (by omega)
  have B := delete_owned o nd' n (by omega)
  have A' := delete_owned (H := H'.without S') (t'.congr fun x hx => by simp [Heap.without, dis x hx]) nd n (by omega)
  have B' := delete_owned (H := H'.without S)
    (o.congr fun x hx => by have : x ∉ S := fun h => dis x h hx; simp [Heap.without, this]) nd' n (by omega)
  refine ⟨p', H', _, _, a, by rw [M.bind_ok A, B'], by rw [M.bind_ok B, A'], fun x => ?_⟩
  have key : (if x ∈ S' then none else if x ∈ S then none else H'.obj x) = if x ∈ S then none else H.obj x := by
    by_cases h1 : x ∈ S'
    · have : x ∉ S := fun h => dis x h h1
      simp [h1, this, fresh x h1]
    · simp [h1, old x h1]
  constructor
  · exact key
  · rw [← key]
    simp only [Heap.without]
    by_cases h1 : x ∈ S' <;> by_cases h2 : x ∈ S <;> simp [h1, h2]

/-- `Clone`, when the constructor of a circle may throw: nothing that was made remains. Missing: composite trajectories
(`C78_clone_trajectory_violated`), and rounded composites and segments if the compiler evaluates the second argument of their
constructor first (`C78_clone_order_violated`). -/
theorem C78_clone_throw_partial (bad : ℕ → Bool) (H : Heap) (w : H.WF) (p : ℕ) (S : List ℕ) (t : Owned H.obj [p] S)
    (ok : ∀ x ∈ S, ∀ o, H.obj x = some o → CloneOk H.obj o ∧ Typed H.obj o)
    (paths : ∀ x ∈ S, ∀ vt, H.obj x ≠ some (.trajComposite vt)) (n : ℕ) (hn : 2 * S.length ≤ n) :
    (∃ p' H', clone true bad n p H = some (.ok p', H')) ∨
    ∃ H', clone true bad n p H = some (.error (), H') ∧ H'.obj = H.obj := by
  rcases clone_spec true bad S.length n hn H p S w ⟨t, ok, .inr fun x hx ob h => ⟨fun vt e => paths x hx vt (e ▸ h), .inl rfl⟩⟩
    (Nat.le_refl _) with ⟨p', H', S', a, _⟩ | ⟨_, H', h, e⟩
  · exact .inl ⟨p', H', a⟩
  · exact .inr ⟨H', h, funext fun x => e.2.2.2.2 x (by simp)⟩

/-- `Path::Read`: a new object that owns all that was made, or an exception that leaves nothing behind; an exception only if the
input is not correct. Missing: rounded composites with an equivalent radius that is not positive, see
`C78_rounded_violated`. -/
theorem C78_read_partial (ord : Bool) (i : In) (H : Heap) (w : H.WF) (pos : i.Pos) (n : ℕ) (hn : i.size ≤ n) :
    (∃ p' H' S', read ord n i H = some (.ok p', H') ∧ Owned H'.obj [p'] S' ∧ S'.Nodup ∧ (∀ x ∈ S', H.obj x = none) ∧
      ∀ x, x ∉ S' → H'.obj x = H.obj x) ∨
    (¬ i.Fine ∧ ∃ H', read ord n i H = some (.error (), H') ∧ H'.obj = H.obj) := by
  rcases read_spec ord n i H w pos hn with ⟨p', H', S', a, e, o, l⟩ | ⟨f, H', h, e⟩
  · exact .inl ⟨p', H', S', a, o, e.2.2.1, fun x hx => w x (e.2.2.2.1 x hx), e.2.2.2.2⟩
  · exact .inr ⟨f, H', h, funext fun x => e.2.2.2.2 x (by simp)⟩

/-- `Trajectory::Read`, likewise. -/
theorem C78_readTraj_partial (ord word prof post : Bool) (i : In) (H : Heap) (w : H.WF) (pos : i.Pos) (n : ℕ)
    (hn : i.size + 1 ≤ n) :
    (∃ p' H' S', readTraj ord n word i prof post H = some (.ok p', H') ∧ Owned H'.obj [p'] S' ∧ S'.Nodup ∧
      (∀ x ∈ S', H.obj x = none) ∧ ∀ x, x ∉ S' → H'.obj x = H.obj x) ∨
    (¬ (word = true ∧ i.Fine ∧ prof = true ∧ post = true) ∧
      ∃ H', readTraj ord n word i prof post H = some (.error (), H') ∧ H'.obj = H.obj) := by
  rcases readTraj_spec ord n word i prof post H w pos hn with ⟨p', H', S', a, e, o, l⟩ | ⟨f, H', h, e⟩
  · exact .inl ⟨p', H', S', a, o, e.2.2.1, fun x hx => w x (e.2.2.2.1 x hx), e.2.2.2.2⟩
  · exact .inr ⟨f, H', h, funext fun x => e.2.2.2.2 x (by simp)⟩

/-! ### Where the code violates the property -/

/-- A heap with the objects of a list. -/
def heapOf (l : List Obj) : Heap := ⟨fun x => l[x]?, l.length⟩

/-- The clone of a circle, a composite or a cyclic path that does not own its part makes a new part and does not own it
either: after the clone is deleted the new part is still there (at address 2, 3 and 2, where nothing was before), and nobody knows
its address. -/
theorem C78_clone_leak_violated :
    (∃ H', ((clone true (fun _ => false) 9 1).bind (delete 9)) (heapOf [.orient, .circle 0 false]) = some (.ok (), H') ∧
      H'.obj 2 = some .orient) ∧
    (∃ H', ((clone true (fun _ => false) 9 1).bind (delete 9)) (heapOf [.point, .composite [(0, false)]]) = some (.ok (), H') ∧
      H'.obj 3 = some .point) ∧
    ∃ H', ((clone true (fun _ => false) 9 1).bind (delete 9)) (heapOf [.point, .cyclic 0 false]) = some (.ok (), H') ∧
      H'.obj 2 = some .point :=
  ⟨⟨_, rfl, rfl⟩, ⟨_, rfl, rfl⟩, ⟨_, rfl, rfl⟩⟩

/-- The same for every circle that does not own its interpolation. -/
theorem C78_clone_circle_violated (ord : Bool) (bad : ℕ → Bool) (H : Heap) (w : H.WF) (p o n : ℕ) (hn : 2 ≤ n)
    (hp : H.obj p = some (.circle o false)) (ho : H.obj o = some .orient) (hb : bad p = false) :
    ∃ H', ((clone ord bad n p).bind (delete n)) H = some (.ok (), H') ∧ H.obj H.next = none ∧ H'.obj H.next = some .orient := by
  obtain ⟨n, rfl⟩ : ∃ m, n = m + 2 := ⟨n - 2, by omega⟩
  obtain ⟨H1, a1, a2, a3⟩ := alloc_ext w .orient
  obtain ⟨H2, b1, b2, b3⟩ := alloc_ext a2.2.1 (.circle H.next false)
  have cl : clone ord bad (n + 2) p H = some (.ok H1.next, H2) := by
    rw [clone, M.bind_ok (get_ok hp)]
    dsimp only
    rw [M.bind_ok ((clone_orient ho).trans a1), hb]
    exact b1
  have ne : H.next ≠ H1.next := by
    intro h
    have := a2.2.1 H.next (by omega)
    rw [a3] at this; cases this
  refine ⟨_, by rw [M.bind_ok cl, delete_owned (S := [H1.next]) (.one b3 .nil) (by simp) _ (by simp)], w _ (Nat.le_refl _), ?_⟩
  simp only [Heap.without, List.mem_singleton, ne, if_false]
  exact (b2.old a2.2.1 (by rw [a3]; simp)).trans a3

/-- If the compiler evaluates the second argument of the constructor first, an exception while the first one is cloned loses
the clone of the second: segment of a circle with profile, rounded composite of a circle. -/
theorem C78_clone_order_violated :
    (∃ H', clone false (fun x => x == 1) 9 3 (heapOf [.orient, .circle 0 true, .profile, .segment 1 2 true]) =
      some (.error (), H') ∧ H'.obj 4 = some .profile) ∧
    ∃ H', clone false (fun x => x == 1) 9 4
        (heapOf [.orient, .circle 0 true, .composite [(1, true)], .orient, .rounded 2 3 3 true]) =
      some (.error (), H') ∧ H'.obj 5 = some .orient :=
  ⟨⟨_, rfl, rfl⟩, ⟨_, rfl, rfl⟩⟩

/-- `Trajectory_Composite::Clone` keeps the new composite in a plain pointer: an exception loses it and the parts cloned so
far, whatever the order of evaluation. -/
theorem C78_clone_trajectory_violated (ord : Bool) :
    ∃ H', clone ord (fun x => x == 1) 9 5
        (heapOf [.orient, .circle 0 true, .profile, .segment 1 2 true, .stationary, .trajComposite [4, 3]]) =
      some (.error (), H') ∧ H'.obj 6 = some (.trajComposite [7]) ∧ H'.obj 7 = some .stationary := by
  cases ord <;> exact ⟨_, rfl, rfl, rfl⟩

/-- The constructor of `Path_RoundedComposite` throws without deleting the composite it made and the interpolation handed over
to it, also when called by `Path::Read`. -/
theorem C78_rounded_violated :
    (∀ (H : Heap) (o : ℕ) (agg : Bool), H.obj o = some .orient → H.WF → ∃ H', newRounded true o agg H = some (.error (), H') ∧
      H'.obj o = some .orient ∧ H.obj H.next = none ∧ H'.obj H.next = some (.composite [])) ∧
    ∀ (ord size post : Bool) (points : List (Option Corner)) (H : Heap) (n : ℕ), H.WF →
      ∃ H', read ord n (.rounded true true true size points post) H = some (.error (), H') ∧
        H'.obj H.next = some .orient ∧ H'.obj (H.next + 1) = some (.composite []) := by
  constructor
  · intro H o agg ho w
    refine ⟨_, rfl, ?_, w _ (Nat.le_refl _), by simp⟩
    have : o ≠ H.next := fun h => by rw [h, w _ (Nat.le_refl _)] at ho; cases ho
    simp [this, ho]
  · intro ord size post points H n w
    unfold read
    exact ⟨_, rfl, by simp, by simp⟩

/-- The copy made by the copy constructor shares the parts: deleting both is undefined behaviour, for every object that owns
something. -/
theorem C78_copy_violated (H : Heap) (w : H.WF) (p : ℕ) (o : Obj) (q : ℕ) (qs S : List ℕ) (hp : H.obj p = some o)
    (hc : children o = q :: qs) (t : Owned H.obj [p] S) (nd : S.Nodup) (n m : ℕ) (hn : S.length ≤ n) :
    ∃ c H', copyConstruct p H = some (.ok c, H') ∧ c ≠ p ∧ H'.obj c = some o ∧
      ((delete n p).bind fun _ => delete m c) H' = none := by
  obtain ⟨H', a1, a2, a3⟩ := alloc_ext w o
  have old : ∀ x ∈ S, H'.obj x = H.obj x := fun x hx => a2.old w (t.live x hx)
  have t' : Owned H'.obj [p] S := t.congr old
  obtain ⟨ob, A, h1, h2, rfl⟩ := t.inv1
  rw [hp] at h1
  cases h1
  rw [hc] at h2
  obtain ⟨oq, B, C, hq, _, _, rfl⟩ := h2.inv
  refine ⟨H.next, H', by unfold copyConstruct; rw [M.bind_ok (get_ok hp), a1], ?_, a3, ?_⟩
  · intro h
    rw [← h, w _ (Nat.le_refl _)] at hp; cases hp
  · rw [M.bind_ok (delete_owned t' nd n hn)]
    cases m with
    | zero => rfl
    | succ m =>
      have nc : H.next ∉ p :: (q :: B ++ C) := fun h => t.live _ h (w _ (Nat.le_refl _))
      have g : (H'.without (p :: (q :: B ++ C))).obj H.next = some o := by
        simp only [Heap.without, nc, if_false]; exact a3
      have dq : ∀ k, delete k q (H'.without (p :: (q :: B ++ C))) = none := by
        intro k
        cases k with
        | zero => rfl
        | succ k =>
          unfold delete M.bind get Heap.without
          simp
      unfold delete
      rw [M.bind_ok (get_ok g)]
      unfold M.bind
      rw [destructor_eq, hc]
      unfold forEach M.bind
      rw [dq]

/-- A part added twice is deleted twice. -/
theorem C78_add_twice_violated :
    ((compositeAdd 1 0 true).bind fun _ => (compositeAdd 1 0 true).bind fun _ => delete 9 1) (heapOf [.point, .composite []]) =
      none := rfl

/-! ### Non-vacuity -/

theorem heapOf_wf (l : List Obj) : (heapOf l).WF := fun x hx => List.getElem?_eq_none hx

/-- A composite of a line and a cyclic circle. -/
def sample : Heap :=
  heapOf [.orient, .line 0 true, .orient, .circle 2 true, .cyclic 3 true, .composite [(1, true), (4, true)], .stationary]

theorem sample_owned : Owned sample.obj [5] [5, 1, 0, 4, 3, 2] :=
  .one (o := .composite [(1, true), (4, true)]) rfl
    (.cons (S := [0]) (T := [4, 3, 2]) (o := .line 0 true) rfl (.one rfl .nil)
      (.one (o := .cyclic 3 true) rfl (.one (o := .circle 2 true) rfl (.one rfl .nil))))

/-- The hypotheses of `C78_delete`, `C78_clone_partial`, `C78_clone_delete_partial` and `C78_clone_throw_partial` hold of it. -/
example : sample.WF ∧ Owned sample.obj [5] [5, 1, 0, 4, 3, 2] ∧ [5, 1, 0, 4, 3, 2].Nodup ∧
    (∀ x ∈ [5, 1, 0, 4, 3, 2], ∀ o, sample.obj x = some o → CloneOk sample.obj o ∧ Typed sample.obj o) ∧
    ¬ Throws (fun _ => false) sample [5, 1, 0, 4, 3, 2] ∧ Throws (fun _ => true) sample [5, 1, 0, 4, 3, 2] ∧
    ∀ x ∈ [5, 1, 0, 4, 3, 2], ∀ vt, sample.obj x ≠ some (.trajComposite vt) := by
  refine ⟨heapOf_wf _, sample_owned, by decide, ?_, ?_, ⟨3, by simp, rfl, 2, true, rfl⟩, ?_⟩
  · simp [sample, heapOf, CloneOk, Typed]
  · rintro ⟨x, _, h, _⟩; cases h
  · simp [sample, heapOf]

/-- The clone throws if the circle cannot be made again; the six objects made before are gone. -/
example : ∃ H', clone true (fun x => x == 3) 12 5 sample = some (.error (), H') ∧ ∀ x < 20, H'.obj x = sample.obj x :=
  ⟨_, rfl, by decide⟩

/-- Adding and destroying: hypotheses of `C78_add`, `C78_trajAdd`, `C78_destroy`. -/
example : ∃ H, compositeAdd 0 1 true (heapOf [.composite [], .point]) = some (.ok (), H) ∧ Owned H.obj [0] [0, 1] := by
  obtain ⟨H, a, _, b⟩ := C78_add (heapOf [.composite [], .point]) 0 1 [] [1] [0] true rfl (.one rfl .nil) (.one rfl .nil)
    (by simp) (by simp)
  exact ⟨H, a, b⟩
example : ∃ H H', ((trajAdd 0 1).bind fun _ => trajDestroy 3 0) (heapOf [.trajComposite [], .stationary]) = some (.ok (), H) ∧
    H.obj 0 = some (.trajComposite []) ∧ H.obj 1 = none ∧ delete 3 0 H = some (.ok (), H') ∧ H'.obj 0 = none :=
  ⟨_, _, rfl, rfl, rfl, rfl, rfl⟩

/-- Inputs that are correct, and one that fails in its last part. -/
example : ∃ H, read true 20 (.composite true [.line true true true, .point true] true) (heapOf []) = some (.ok 0, H) ∧
    Owned H.obj [0] [0, 2, 1, 3] := by
  refine ⟨_, rfl, ?_⟩
  exact .one (o := .composite [(2, true), (3, true)]) rfl
    (.cons (S := [1]) (o := .line 1 true) (T := [3]) rfl (.one rfl .nil) (.one (o := .point) rfl .nil))
example : ∃ H, read true 20 (.composite true [.line true true true, .point false] true) (heapOf []) = some (.error (), H) ∧
    ∀ x < 9, H.obj x = none := ⟨_, rfl, by decide⟩
/-- Three points: a line and an arc, and the last line. -/
example (H : Heap) (w : H.WF) (n : ℕ) (hn : 17 ≤ n) : ∃ p' H' S',
    read true n (.rounded true true false true [some .straight, some .straight, some (.round false)] true) H =
      some (.ok p', H') ∧ Owned H'.obj [p'] S' := by
  rcases C78_read_partial true (.rounded true true false true [some .straight, some .straight, some (.round false)] true) H w
    rfl n (by simpa [In.size] using hn) with ⟨p', H', S', a, b, _⟩ | ⟨h, _⟩
  · exact ⟨p', H', S', a, b⟩
  · exact absurd (by simp [In.Fine, Corner.Fine]) h
example : ∃ H, readTraj true 20 true (.circle true true true false) true true (heapOf []) = some (.ok 3, H) ∧
    H.obj 3 = some (.segment 1 2 true) := ⟨_, rfl, rfl⟩

end KDL.Mem
