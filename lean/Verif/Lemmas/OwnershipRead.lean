import Verif.Lemmas.Ownership

/-! Memory of the objects made by `Path::Read`, `Path_RoundedComposite::Add` and `Trajectory::Read`. -/

namespace KDL.Mem

/-- Specification: a corner that can be rounded. -/
def Corner.Fine : Corner → Prop
  | .infeasible => False
  | .straight => True
  | .round circleThrows => circleThrows = false

mutual
/-- Bound of the number of objects made from an input. -/
def In.size : In → ℕ
  | .unknown => 0
  | .point _ => 1
  | .line _ _ _ => 2
  | .circle _ _ _ _ => 2
  | .rounded _ _ _ _ points _ => 4 * points.length + 5
  | .composite _ parts _ => sizes parts + 1
  | .cyclic part _ => part.size + 1
def sizes : List In → ℕ
  | [] => 0
  | i :: is => i.size + sizes is
end

mutual
/-- Specification: the equivalent radii of rounded composites are positive. -/
def In.Pos : In → Prop
  | .rounded _ _ eqneg _ _ _ => eqneg = false
  | .composite _ parts _ => allPos parts
  | .cyclic part _ => part.Pos
  | _ => True
def allPos : List In → Prop
  | [] => True
  | i :: is => i.Pos ∧ allPos is
end

mutual
/-- Specification: a correct input. -/
def In.Fine : In → Prop
  | .unknown => False
  | .point pre => pre = true
  | .line pre ori post => pre = true ∧ ori = true ∧ post = true
  | .circle pre ori post ct => pre = true ∧ ori = true ∧ post = true ∧ ct = false
  | .rounded pre ori eqneg size points post => pre = true ∧ ori = true ∧ eqneg = false ∧ size = true ∧ post = true ∧
      ∀ k ∈ points, ∃ c, k = some c ∧ c.Fine
  | .composite size parts post => size = true ∧ post = true ∧ allFine parts
  | .cyclic part post => part.Fine ∧ post = true
def allFine : List In → Prop
  | [] => True
  | i :: is => i.Fine ∧ allFine is
end

theorem Ext.drop {H0 H : Heap} {S N : List ℕ} (e : Ext H0 H (S ++ N)) (w : H0.WF) : Ext H0 (H.without S) N := by
  obtain ⟨a1, a2, a3, a4, a5⟩ := e
  refine ⟨a1, ?_, (List.nodup_append.mp a3).2.1, fun x hx => a4 x (by simp [hx]), ?_⟩
  · intro x hx
    simp only [Heap.without]
    split
    · rfl
    · exact a2 x hx
  · intro x hx
    simp only [Heap.without]
    split
    · next h => exact (w x (a4 x (by simp [h]))).symm
    · next h => exact a5 x (by simp [h, hx])

/-- A rounded composite under construction, with further new objects at `X`. -/
structure RInv (H0 H : Heap) (X : List ℕ) (o c r np : ℕ) (gv : List (ℕ × Bool)) (T : List ℕ) : Prop where
  ext : Ext H0 H (X ++ r :: o :: c :: T)
  live : ∀ x ∈ X, H.obj x ≠ none
  hr : H.obj r = some (.rounded c o np true)
  ho : H.obj o = some .orient
  hc : H.obj c = some (.composite gv)
  ht : Owned H.obj (children (.composite gv)) T

theorem RInv.lives {H0 H : Heap} {X : List ℕ} {o c r np : ℕ} {gv} {T : List ℕ} (i : RInv H0 H X o c r np gv T) :
    ∀ x ∈ X ++ r :: o :: c :: T, H.obj x ≠ none := by
  intro x hx
  simp only [List.mem_append, List.mem_cons] at hx
  rcases hx with h | rfl | rfl | rfl | h
  · exact i.live x h
  · rw [i.hr]; simp
  · rw [i.ho]; simp
  · rw [i.hc]; simp
  · exact i.ht.live x h

theorem RInv.new {H0 H H1 : Heap} {X S : List ℕ} {o c r np : ℕ} {gv} {T : List ℕ} (i : RInv H0 H X o c r np gv T)
    (e : Ext H H1 S) (l : ∀ x ∈ S, H1.obj x ≠ none) : RInv H0 H1 (S ++ X) o c r np gv T := by
  have w := i.ext.2.1
  have old : ∀ x ob, H.obj x = some ob → H1.obj x = some ob := fun x ob h => (e.old w (by rw [h]; simp)).trans h
  refine ⟨by simpa using i.ext.trans e i.lives, ?_, old _ _ i.hr, old _ _ i.ho, old _ _ i.hc,
    i.ht.congr fun x hx => e.old w (i.ht.live x hx)⟩
  intro x hx
  rcases List.mem_append.mp hx with h | h
  · exact l x h
  · rw [e.old w (i.live x h)]; exact i.live x h

theorem RInv.take {H0 H : Heap} {X S : List ℕ} {o c r np g : ℕ} {gv} {T : List ℕ} (i : RInv H0 H (S ++ X) o c r np gv T)
    (t : Owned H.obj [g] S) : ∃ H', compositeAdd c g true H = some (.ok (), H') ∧
      RInv H0 H' X o c r np (gv ++ [(g, true)]) (T ++ S) ∧ ∀ x ∈ X, H'.obj x = H.obj x := by
  obtain ⟨og, _, hg, _⟩ := t.inv1
  have P : (S ++ X ++ r :: o :: c :: T).Perm (X ++ r :: o :: c :: (T ++ S)) := by
    rw [List.append_assoc]
    refine List.perm_append_comm.trans ?_
    simp
  obtain ⟨a1, a2, a3, a4, a5⟩ := i.ext.perm P
  have nd := List.nodup_append.mp a3
  have n2 := nd.2.1
  simp only [List.nodup_cons, List.mem_cons, List.mem_append, not_or] at n2
  have ncX : ∀ x ∈ X, x ≠ c := fun x hx => nd.2.2 x hx c (by simp)
  refine ⟨⟨fun x => if x = c then some (.composite (gv ++ [(g, true)])) else H.obj x, H.next⟩, ?_, ⟨⟨a1, ?_, a3, a4, ?_⟩, ?_, ?_, ?_, ?_, ?_⟩, ?_⟩
  · unfold compositeAdd
    rw [M.bind_ok (get_ok i.hc), M.bind_ok (get_ok hg)]
    rfl
  · intro x hx
    have : x ≠ c := by
      rintro rfl
      have := a2 x hx
      rw [i.hc] at this; cases this
    simp only [this, if_false]
    exact a2 x hx
  · intro x hx
    have : x ≠ c := fun h => hx (by simp [h])
    simp only [this, if_false]
    exact a5 x hx
  · intro x hx
    simp only [ncX x hx, if_false]
    exact i.live x (by simp [hx])
  · simp only [n2.1.2.1, if_false]; exact i.hr
  · simp only [n2.2.1.1, if_false]; exact i.ho
  · simp
  · have hch : children (.composite (gv ++ [(g, true)])) = children (.composite gv) ++ [g] := by simp [children]
    rw [hch]
    refine (i.ht.append t).congr fun x hx => ?_
    have : x ≠ c := by
      rintro rfl
      rcases List.mem_append.mp hx with h | h
      · exact n2.2.2.1.1 h
      · exact n2.2.2.1.2 h
    simp [this]
  · intro x hx
    simp [ncX x hx]

theorem RInv.drop {H0 H : Heap} {X S : List ℕ} {o c r np g n : ℕ} {gv} {T : List ℕ} (w : H0.WF)
    (i : RInv H0 H (S ++ X) o c r np gv T) (t : Owned H.obj [g] S) (hn : S.length ≤ n) :
    ∃ H', delete n g H = some (.ok (), H') ∧ RInv H0 H' X o c r np gv T ∧ ∀ x ∈ X, H'.obj x = H.obj x := by
  have e := i.ext
  rw [List.append_assoc] at e
  have nd := List.nodup_append.mp e.2.2.1
  have keep : ∀ x ∈ X ++ r :: o :: c :: T, (H.without S).obj x = H.obj x := by
    intro x hx
    have : x ∉ S := fun h => nd.2.2 x h x hx rfl
    simp [Heap.without, this]
  refine ⟨_, delete_owned t nd.1 n hn, ⟨e.drop w, ?_, ?_, ?_, ?_, ?_⟩, fun x hx => keep x (by simp [hx])⟩
  · intro x hx
    rw [keep x (by simp [hx])]; exact i.live x (by simp [hx])
  · rw [keep r (by simp)]; exact i.hr
  · rw [keep o (by simp)]; exact i.ho
  · rw [keep c (by simp)]; exact i.hc
  · exact i.ht.congr fun x hx => keep x (by simp [hx])

theorem RInv.count {H0 H : Heap} {o c r np : ℕ} {gv} {T : List ℕ} (i : RInv H0 H [] o c r np gv T) (k : ℕ) :
    ∃ H', put r (.rounded c o k true) H = some (.ok (), H') ∧ RInv H0 H' [] o c r k gv T := by
  obtain ⟨a1, a2, a3, a4, a5⟩ := i.ext
  have n2 := a3
  simp only [List.nil_append, List.nodup_cons, List.mem_cons, not_or] at n2
  refine ⟨_, rfl, ⟨⟨a1, ?_, a3, a4, ?_⟩, by simp, by simp, ?_, ?_, ?_⟩⟩
  · intro x hx
    have : x ≠ r := by
      rintro rfl
      have := a2 x hx
      rw [i.hr] at this; cases this
    simp only [this, if_false]
    exact a2 x hx
  · intro x hx
    have : x ≠ r := fun h => hx (by simp [h])
    simp only [this, if_false]
    exact a5 x hx
  · have : o ≠ r := fun h => n2.1.1 h.symm
    simp only [this, if_false]; exact i.ho
  · have : c ≠ r := fun h => n2.1.2.1 h.symm
    simp only [this, if_false]; exact i.hc
  · refine i.ht.congr fun x hx => ?_
    have : x ≠ r := fun h => n2.1.2.2 (h ▸ hx)
    simp [this]

theorem newLine_ok {ord : Bool} {n o : ℕ} {H : Heap} (w : H.WF) (ho : H.obj o = some .orient) (hn : 1 ≤ n) :
    ∃ l H1 S, newLine ord n o H = some (.ok l, H1) ∧ Ext H H1 S ∧ Owned H1.obj [l] S ∧ S.length ≤ 2 := by
  obtain ⟨n, rfl⟩ : ∃ m, n = m + 1 := ⟨n - 1, by omega⟩
  have c := cloned_leaf w .orient rfl False
  rw [← clone_orient (ord := ord) (bad := fun _ => false) (n := n) ho] at c
  rcases cloned_wrap w c (fun x => .line x true) fun _ => rfl with ⟨l, H1, S, a, b, c, d⟩ | ⟨h, _⟩
  · exact ⟨l, H1, S, a, b, c, d⟩
  · exact h.elim

theorem newCircle_ok {n o : ℕ} {ct : Bool} {H H1 : Heap} {S : List ℕ} (w : H.WF) (e : Ext H H1 S) (t : Owned H1.obj [o] S)
    (hn : S.length ≤ n) : Cloned H (ct = true) (S.length + 1) (newCircle n ct o true H1) := by
  unfold newCircle
  cases ct with
  | true =>
    simp only [if_true]
    rw [M.bind_ok (delete_owned t e.2.2.1 n hn)]
    exact .inr ⟨trivial, _, rfl, e.undo w⟩
  | false =>
    simp only [Bool.false_eq_true, if_false]
    obtain ⟨H2, h2, e2, o2⟩ := alloc_ext e.2.1 (.circle o true)
    refine .inl ⟨_, H2, _, h2, e.trans e2 t.live, .one o2 (t.congr fun x hx => e2.old e.2.1 (t.live x hx)), by simp⟩

/-- `Path_RoundedComposite::Add`. -/
theorem roundedAdd_spec {ord : Bool} {n : ℕ} (hn : 2 ≤ n) {H0 : Heap} (w : H0.WF) {o c r : ℕ} (k : Corner) {H : Heap} {np : ℕ}
    {gv : List (ℕ × Bool)} {T : List ℕ} (i : RInv H0 H [] o c r np gv T) :
    ∃ res H' np' gv' T', roundedAdd ord n r k H = some (res, H') ∧ RInv H0 H' [] o c r np' gv' T' ∧
      T'.length ≤ T.length + 4 ∧ (res = .ok () ∨ ¬ k.Fine ∧ res = .error ()) := by
  unfold roundedAdd
  rw [M.bind_ok (get_ok i.hr)]
  dsimp only
  by_cases h2 : np < 2
  · rw [if_pos h2, M.bind_ok (H' := H) (a := ()) rfl]
    obtain ⟨H1, h1, i1⟩ := i.count (np + 1)
    exact ⟨_, H1, _, gv, T, h1, i1, by omega, .inl rfl⟩
  rw [if_neg h2]
  cases k with
  | infeasible =>
    exact ⟨_, H, np, gv, T, M.bind_err rfl, i, by omega, .inr ⟨id, rfl⟩⟩
  | straight =>
    obtain ⟨l, H1, S, a1, a2, a3, a4⟩ := newLine_ok (ord := ord) (n := n) i.ext.2.1 i.ho (by omega)
    obtain ⟨H2, b1, b2, _⟩ := (i.new a2 a3.live).take a3
    obtain ⟨H3, d1, d2⟩ := b2.count (np + 1)
    refine ⟨_, H3, _, _, _, ?_, d2, by simp; omega, .inl rfl⟩
    rw [M.bind_ok (H' := H2) (a := ())]
    · exact d1
    · dsimp only
      rw [M.bind_ok a1, b1]
  | round ct =>
    obtain ⟨l1, H1, S1, a1, a2, a3, a4⟩ := newLine_ok (ord := ord) (n := n) i.ext.2.1 i.ho (by omega)
    have j1 := i.new a2 a3.live
    obtain ⟨l2, H2, S2, b1, b2, b3, b4⟩ := newLine_ok (ord := ord) (n := n) j1.ext.2.1 j1.ho (by omega)
    have j2 := j1.new b2 b3.live
    have k1 : Owned H2.obj [l1] S1 := a3.congr fun x hx => b2.old j1.ext.2.1 (a3.live x hx)
    obtain ⟨l3, H3, S3, c1, c2, c3, c4⟩ := newLine_ok (ord := ord) (n := n) j2.ext.2.1 j2.ho (by omega)
    have j3 := j2.new c2 c3.live
    have p1 : Owned H3.obj [l1] S1 := k1.congr fun x hx => c2.old j2.ext.2.1 (k1.live x hx)
    have p2 : Owned H3.obj [l2] S2 := b3.congr fun x hx => c2.old j2.ext.2.1 (b3.live x hx)
    obtain ⟨H4, d1, j4, d3⟩ := j3.take c3
    have q1 : Owned H4.obj [l1] S1 := p1.congr fun x hx => d3 x (by simp [hx])
    have q2 : Owned H4.obj [l2] S2 := p2.congr fun x hx => d3 x (by simp [hx])
    obtain ⟨n, rfl⟩ : ∃ m, n = m + 1 := ⟨n - 1, by omega⟩
    have cl := clone_orient (ord := ord) (bad := fun _ => false) (n := n) j4.ho
    obtain ⟨H5, e1, e2, e3⟩ := alloc_ext j4.ext.2.1 .orient
    have cr := newCircle_ok (n := n + 1) (ct := ct) j4.ext.2.1 e2 (.one e3 .nil) (by simp)
    -- deletion of the two lines of which only the lengths are used
    have fin : ∀ {H : Heap} {gv : List (ℕ × Bool)} {T : List ℕ}, RInv H0 H (S2 ++ (S1 ++ [])) o c r np gv T →
        Owned H.obj [l1] S1 → Owned H.obj [l2] S2 →
        ∃ H', ((delete (n + 1) l2).bind fun _ => delete (n + 1) l1) H = some (.ok (), H') ∧ RInv H0 H' [] o c r np gv T := by
      intro H gv T j o1 o2
      obtain ⟨H6, f1, f2, f3⟩ := j.drop (n := n + 1) w o2 (by omega)
      obtain ⟨H7, g1, g2, _⟩ := f2.drop (n := n + 1) w (o1.congr fun x hx => f3 x (by simp [hx])) (by omega)
      exact ⟨H7, by rw [M.bind_ok f1, g1], g2⟩
    rcases cr with ⟨ci, H6, S6, f1, f2, f3, f4⟩ | ⟨t, H6, f1, f2⟩
    · have j6 := j4.new f2 f3.live
      have r1 : Owned H6.obj [l1] S1 := q1.congr fun x hx => f2.old j4.ext.2.1 (q1.live x hx)
      have r2 : Owned H6.obj [l2] S2 := q2.congr fun x hx => f2.old j4.ext.2.1 (q2.live x hx)
      obtain ⟨H7, g1, g2, g3⟩ := j6.take f3
      obtain ⟨H8, s1, s2⟩ := fin g2 (r1.congr fun x hx => g3 x (by simp [hx])) (r2.congr fun x hx => g3 x (by simp [hx]))
      obtain ⟨H9, u1, u2⟩ := s2.count (np + 1)
      refine ⟨_, H9, _, _, _, ?_, u2, by simp at f4 ⊢; omega, .inl rfl⟩
      rw [M.bind_ok (H' := H8) (a := ())]
      · exact u1
      · dsimp only
        rw [M.bind_ok a1, M.bind_ok b1, M.bind_ok (M.onThrow_ok (H' := H7) (a := ()) _)]
        · exact s1
        · rw [M.bind_ok c1, M.bind_ok d1, M.bind_ok (cl.trans e1), M.bind_ok f1, g1]
    · have j6 := j4.new f2 (by simp)
      have r1 : Owned H6.obj [l1] S1 := q1.congr fun x hx => f2.old j4.ext.2.1 (q1.live x hx)
      have r2 : Owned H6.obj [l2] S2 := q2.congr fun x hx => f2.old j4.ext.2.1 (q2.live x hx)
      obtain ⟨H8, s1, s2⟩ := fin j6 r1 r2
      refine ⟨_, H8, np, _, _, ?_, s2, by simp; omega, .inr ⟨by simp [Corner.Fine, t], rfl⟩⟩
      rw [M.bind_err]
      dsimp only
      rw [M.bind_ok a1, M.bind_ok b1, M.bind_err (M.onThrow_err (H' := H6) _ s1)]
      rw [M.bind_ok c1, M.bind_ok d1, M.bind_ok (cl.trans e1), M.bind_err f1]

theorem readPoints_spec {ord : Bool} {n : ℕ} (hn : 2 ≤ n) {H0 : Heap} (w : H0.WF) {o c r : ℕ} :
    ∀ (ks : List (Option Corner)) {H : Heap} {np : ℕ} {gv : List (ℕ × Bool)} {T : List ℕ}, RInv H0 H [] o c r np gv T →
    ∃ res H' np' gv' T', readPoints ord n r ks H = some (res, H') ∧ RInv H0 H' [] o c r np' gv' T' ∧
      T'.length ≤ T.length + 4 * ks.length ∧ (res = .ok () ∨ (¬ ∀ k ∈ ks, ∃ c, k = some c ∧ c.Fine) ∧ res = .error ())
  | [], H, np, gv, T, i => ⟨_, H, np, gv, T, rfl, i, by simp, .inl rfl⟩
  | none :: ks, H, np, gv, T, i => ⟨_, H, np, gv, T, rfl, i, by omega, .inr ⟨fun h => by simpa using h none (by simp), rfl⟩⟩
  | some k :: ks, H, np, gv, T, i => by
    obtain ⟨res, H1, np1, gv1, T1, a1, a2, a3, a4⟩ := roundedAdd_spec (ord := ord) hn w k i
    unfold readPoints
    rcases a4 with rfl | ⟨nf, rfl⟩
    · obtain ⟨res, H2, np2, gv2, T2, b1, b2, b3, b4⟩ := readPoints_spec (ord := ord) hn w ks a2
      refine ⟨res, H2, np2, gv2, T2, by rw [M.bind_ok a1, b1], b2, by simp; omega, ?_⟩
      rcases b4 with h | ⟨h, h'⟩
      · exact .inl h
      · exact .inr ⟨fun q => h fun k hk => q k (by simp [hk]), h'⟩
    · refine ⟨_, H1, np1, gv1, T1, M.bind_err a1, a2, by simp; omega, .inr ⟨fun q => ?_, rfl⟩⟩
      obtain ⟨c, h, hc⟩ := q (some k) (by simp)
      cases h
      exact nf hc

theorem roundedFinish_spec {ord : Bool} {n : ℕ} (hn : 2 ≤ n) {H0 : Heap} {o c r : ℕ}
    {H : Heap} {np : ℕ} {gv : List (ℕ × Bool)} {T : List ℕ} (i : RInv H0 H [] o c r np gv T) :
    ∃ H' gv' T', roundedFinish ord n r H = some (.ok (), H') ∧ RInv H0 H' [] o c r np gv' T' ∧ T'.length ≤ T.length + 2 := by
  unfold roundedFinish
  rw [M.bind_ok (get_ok i.hr)]
  dsimp only
  by_cases h : 1 ≤ np
  · rw [if_pos h]
    obtain ⟨l, H1, S, a1, a2, a3, a4⟩ := newLine_ok (ord := ord) (n := n) i.ext.2.1 i.ho (by omega)
    obtain ⟨H2, b1, b2, _⟩ := (i.new a2 a3.live).take a3
    exact ⟨H2, _, _, by rw [M.bind_ok a1, b1], b2, by simp; omega⟩
  · rw [if_neg h]
    exact ⟨H, gv, T, rfl, i, by omega⟩

theorem step_ok {b : Bool} {H : Heap} : step b H = some (if b then .ok () else .error (), H) := by
  cases b <;> rfl

theorem bind_step {α : Type} {b : Bool} {m : M α} {H : Heap} :
    ((step b).bind fun _ => m) H = if b then m H else some (.error (), H) := by
  cases b <;> rfl

theorem failed {H : Heap} (w : H.WF) {T : Prop} {m : ℕ} (t : T) : Cloned H T m (some (.error (), H)) :=
  .inr ⟨t, H, rfl, .refl w⟩

/-- A guarded object: deleted if the rest fails. -/
theorem guarded {H H1 : Heap} {S : List ℕ} {p n : ℕ} {b : Bool} (w : H.WF) (e : Ext H H1 S) (t : Owned H1.obj [p] S)
    (hn : S.length ≤ n) :
    ∃ H2, (step b).onThrow (delete n p) H1 = some (if b then .ok () else .error (), H2) ∧
      (b = true → H2 = H1) ∧ (b = false → Ext H H2 []) := by
  cases b with
  | true => exact ⟨H1, rfl, fun _ => rfl, nofun⟩
  | false => exact ⟨H1.without S, M.onThrow_err rfl (delete_owned t e.2.2.1 n hn), nofun, fun _ => e.undo w⟩

theorem Cloned.guard {H : Heap} {T : Prop} {m n : ℕ} {a : M ℕ} (w : H.WF) (c : Cloned H T m (a H)) (hn : m ≤ n) (b : Bool)
    {f : ℕ → Obj} (hf : ∀ x, children (f x) = [x]) :
    Cloned H (T ∨ b = false) (m + 1) ((a.bind fun g => ((step b).onThrow (delete n g)).bind fun _ => alloc (f g)) H) := by
  rcases c with ⟨p, H1, S, h, e, t, l⟩ | ⟨t, H1, h, e⟩
  · rw [M.bind_ok h]
    obtain ⟨H2, h2, h3, h4⟩ := guarded (b := b) w e t (Nat.le_trans l hn)
    cases b with
    | true =>
      rw [M.bind_ok h2]
      obtain rfl := h3 rfl
      obtain ⟨H3, g1, g2, g3⟩ := alloc_ext e.2.1 (f p)
      refine .inl ⟨_, H3, _, g1, e.trans g2 t.live, .one g3 ?_, by simp; omega⟩
      rw [hf]
      exact t.congr fun x hx => g2.old e.2.1 (t.live x hx)
    | false =>
      rw [M.bind_err h2]
      exact .inr ⟨.inr rfl, H2, rfl, h4 rfl⟩
  · rw [M.bind_err h]
    exact .inr ⟨.inl t, H1, rfl, e⟩

mutual
theorem read_spec (ord : Bool) (n : ℕ) : ∀ (i : In) (H : Heap), H.WF → i.Pos → i.size ≤ n →
    Cloned H (¬ i.Fine) i.size (read ord n i H)
  | .unknown, H, w, _, _ => by
    unfold read
    exact failed w (by simp [In.Fine])
  | .point pre, H, w, _, _ => by
    unfold read
    rw [bind_step]
    cases pre with
    | true => exact cloned_leaf w .point rfl _
    | false => exact failed w (by simp [In.Fine])
  | .line pre ori post, H, w, _, hn => by
    unfold read
    rw [bind_step]
    cases pre with
    | false => exact failed w (by simp [In.Fine])
    | true =>
    simp only [if_true]
    rw [bind_step]
    cases ori with
    | false => exact failed w (by simp [In.Fine])
    | true =>
    simp only [if_true]
    simp only [In.size] at hn ⊢
    exact ((cloned_leaf w .orient rfl False).guard w (by omega) post (f := fun o => .line o true) fun _ => rfl).weaken
      (by simp [In.Fine]) (Nat.le_refl _)
  | .circle pre ori post ct, H, w, _, hn => by
    unfold read
    rw [bind_step]
    cases pre with
    | false => exact failed w (by simp [In.Fine])
    | true =>
    simp only [if_true]
    rw [bind_step]
    cases ori with
    | false => exact failed w (by simp [In.Fine])
    | true =>
    simp only [if_true]
    simp only [In.size] at hn ⊢
    obtain ⟨H1, e1, e2, e3⟩ := alloc_ext w .orient
    rw [M.bind_ok e1]
    obtain ⟨H2, h2, h3, h4⟩ := guarded (b := post) (n := n) w e2 (.one e3 .nil) (by simp; omega)
    cases post with
    | false =>
      rw [M.bind_err h2]
      exact .inr ⟨by simp [In.Fine], H2, rfl, h4 rfl⟩
    | true =>
      rw [M.bind_ok h2]
      obtain rfl := h3 rfl
      exact (newCircle_ok (ct := ct) w e2 (.one e3 .nil) (by simp; omega)).weaken (by simp [In.Fine]) (by simp)
  | .rounded pre ori eqneg size points post, H, w, hp, hn => by
    unfold read
    rw [bind_step]
    cases pre with
    | false => exact failed w (by simp [In.Fine])
    | true =>
    simp only [if_true]
    rw [bind_step]
    cases ori with
    | false => exact failed w (by simp [In.Fine])
    | true =>
    simp only [if_true]
    simp only [In.size] at hn ⊢
    simp only [In.Pos] at hp
    subst hp
    obtain ⟨H1, a1, a2, a3⟩ := alloc_ext w .orient
    rw [M.bind_ok a1]
    unfold newRounded
    simp only [Bool.false_eq_true, if_false]
    obtain ⟨H2, b1, b2, b3⟩ := alloc_ext a2.2.1 (.composite [])
    obtain ⟨H3, c1, c2, c3⟩ := alloc_ext b2.2.1 (.rounded H1.next H.next 0 true)
    rw [M.bind_ok (M.bind_ok b1 |>.trans c1)]
    have a3' : H2.obj H.next = some .orient := (b2.old a2.2.1 (by rw [a3]; simp)).trans a3
    have l1 : ∀ x ∈ [H.next], H1.obj x ≠ none := by simp [a3]
    have l2 : ∀ x ∈ [H1.next] ++ [H.next], H2.obj x ≠ none := by simp [a3', b3]
    have inv : RInv H H3 [] H.next H1.next H2.next 0 [] [] :=
      ⟨((a2.trans b2 l1).trans c2 l2).perm (by
        show (H2.next :: [H1.next, H.next]).Perm (H2.next :: [H.next, H1.next])
        exact (List.Perm.swap _ _ _).cons _), by simp, c3, (c2.old b2.2.1 (by rw [a3']; simp)).trans a3',
        (c2.old b2.2.1 (by rw [b3]; simp)).trans b3, .nil⟩
    have tree : ∀ {H' : Heap} {np gv T}, RInv H H' [] H.next H1.next H2.next np gv T →
        Owned H'.obj [H2.next] (H2.next :: H.next :: H1.next :: T) := by
      intro H' np gv T i
      exact .one i.hr (.cons i.ho .nil (.one i.hc i.ht))
    have fail : ∀ {H' : Heap} {np gv T} {m : M Unit}, RInv H H' [] H.next H1.next H2.next np gv T → 3 + T.length ≤ n →
        m H3 = some (.error (), H') → ¬ In.Fine (.rounded true true false size points post) →
        Cloned H (¬ In.Fine (.rounded true true false size points post)) (4 * points.length + 5)
          ((m.onThrow (delete n H2.next)).bind (fun _ => M.ret H2.next) H3) := by
      intro H' np gv T m i hl hm nf
      rw [M.bind_err (M.onThrow_err hm (delete_owned (tree i) i.ext.2.2.1 n (by simp; omega)))]
      exact .inr ⟨nf, _, rfl, i.ext.undo w⟩
    cases size with
    | false =>
      exact fail inv (by simp; omega) (by rw [bind_step]; rfl) (by simp [In.Fine])
    | true =>
    obtain ⟨res, H4, np, gv, T, d1, d2, d3, d4⟩ := readPoints_spec (ord := ord) (n := n) (by omega) w points inv
    simp only [List.length_nil, Nat.zero_add] at d3
    rcases d4 with rfl | ⟨nf, rfl⟩
    · obtain ⟨H5, gv', T', f1, f2, f3⟩ := roundedFinish_spec (ord := ord) (n := n) (by omega) d2
      cases post with
      | true =>
        rw [M.bind_ok (M.onThrow_ok (H' := H5) (a := ()) (by rw [bind_step, if_pos rfl, M.bind_ok d1, M.bind_ok f1]; rfl))]
        exact .inl ⟨_, H5, _, rfl, f2.ext, tree f2, by simp; omega⟩
      | false =>
        exact fail f2 (by omega) (by rw [bind_step, if_pos rfl, M.bind_ok d1, M.bind_ok f1]; rfl) (by simp [In.Fine])
    · exact fail d2 (by omega) (by rw [bind_step, if_pos rfl, M.bind_err d1]) (fun h => nf h.2.2.2.2.2)
  | .composite size parts post, H, w, hp, hn => by
    unfold read
    simp only [In.size] at hn ⊢
    simp only [In.Pos] at hp
    obtain ⟨H1, a1, a2, a3⟩ := alloc_ext w (.composite [])
    rw [M.bind_ok a1]
    have fail : ∀ {H' : Heap} {gv T} {m : M Unit}, Ext H H' (H.next :: T) → H'.obj H.next = some (.composite gv) →
        Owned H'.obj (children (.composite gv)) T → 1 + T.length ≤ n →
        m H1 = some (.error (), H') → ¬ In.Fine (.composite size parts post) →
        Cloned H (¬ In.Fine (.composite size parts post)) (sizes parts + 1)
          ((m.onThrow (delete n H.next)).bind (fun _ => M.ret H.next) H1) := by
      intro H' gv T m e hc ht hl hm nf
      rw [M.bind_err (M.onThrow_err hm (delete_owned (.one hc ht) e.2.2.1 n (by simp; omega)))]
      exact .inr ⟨nf, _, rfl, e.undo w⟩
    cases size with
    | false =>
      exact fail a2 a3 .nil (by simp; omega) (by rw [bind_step]; rfl) (by simp [In.Fine])
    | true =>
    obtain ⟨res, H2, gv, T, b1, b2, b3, b4, b5, b6⟩ := readParts_spec ord n parts H w H.next hp (by omega) H1 [] [] a2 a3 .nil
    simp only [List.length_nil, Nat.zero_add] at b5
    rcases b6 with rfl | ⟨nf, rfl⟩
    · cases post with
      | true =>
        rw [M.bind_ok (M.onThrow_ok (H' := H2) (a := ()) (by rw [bind_step, if_pos rfl, M.bind_ok b1]; rfl))]
        exact .inl ⟨_, H2, _, rfl, b2, .one b3 b4, by simp; omega⟩
      | false =>
        exact fail b2 b3 b4 (by omega) (by rw [bind_step, if_pos rfl, M.bind_ok b1]; rfl) (by simp [In.Fine])
    · exact fail b2 b3 b4 (by omega) (by rw [bind_step, if_pos rfl, M.bind_err b1]) (fun h => nf h.2.2)
  | .cyclic part post, H, w, hp, hn => by
    unfold read
    simp only [In.size] at hn ⊢
    simp only [In.Pos] at hp
    refine ((read_spec ord n part H w hp (by omega)).guard w (by omega) post (f := fun g => .cyclic g true) fun _ => rfl).weaken
      ?_ (Nat.le_refl _)
    rintro (h | h)
    · exact fun f => h f.1
    · subst h; simp [In.Fine]
theorem readParts_spec (ord : Bool) (n : ℕ) : ∀ (is : List In) (H0 : Heap), H0.WF → ∀ c : ℕ, allPos is → sizes is ≤ n →
    ∀ (H : Heap) (gv0 : List (ℕ × Bool)) (T : List ℕ), Ext H0 H (c :: T) → H.obj c = some (.composite gv0) →
    Owned H.obj (children (.composite gv0)) T →
    ∃ r H' gv' T', readParts ord n c is H = some (r, H') ∧ Ext H0 H' (c :: T') ∧ H'.obj c = some (.composite gv') ∧
      Owned H'.obj (children (.composite gv')) T' ∧ T'.length ≤ T.length + sizes is ∧ (r = .ok () ∨ ¬ allFine is ∧ r = .error ())
  | [], _, _, _, _, _, H, gv0, T, e, hc, ht => ⟨_, H, gv0, T, by unfold readParts; rfl, e, hc, ht, by simp [sizes], .inl rfl⟩
  | i :: is, H0, w0, c, hp, hn, H, gv0, T, e, hc, ht => by
    simp only [sizes] at hn ⊢
    simp only [allPos] at hp
    unfold readParts
    rcases read_spec ord n i H e.2.1 hp.1 (by omega) with ⟨q, H1, S, h1, e1, t1, l1⟩ | ⟨t, H1, h1, e1⟩
    · obtain ⟨E, O⟩ := add_part (oc' := .composite (gv0 ++ [(q, true)])) e hc ht e1 t1 (by simp [children])
      obtain ⟨oq, hq⟩ : ∃ oq, H1.obj q = some oq := by
        obtain ⟨o, _, h, _⟩ := t1.inv1
        exact ⟨o, h⟩
      have hc1 : H1.obj c = some (.composite gv0) := (e1.old e.2.1 (by rw [hc]; simp)).trans hc
      have ad : compositeAdd c q true H1 =
          some (.ok (), ⟨fun x => if x = c then some (.composite (gv0 ++ [(q, true)])) else H1.obj x, H1.next⟩) := by
        unfold compositeAdd
        rw [M.bind_ok (get_ok hc1), M.bind_ok (get_ok hq)]
        rfl
      obtain ⟨r, H', gv', T', l1', l2, l3, l4, l5, l6⟩ := readParts_spec ord n is H0 w0 c hp.2 (by omega) _
        (gv0 ++ [(q, true)]) (T ++ S) E (by simp) O
      refine ⟨r, H', gv', T', ?_, l2, l3, l4, ?_, ?_⟩
      · rw [M.bind_ok h1, M.bind_ok ad, l1']
      · simp only [List.length_append] at l5; omega
      · rcases l6 with l | l
        · exact .inl l
        · exact .inr ⟨fun h => l.1 h.2, l.2⟩
    · have k1 : Owned H1.obj (children (.composite gv0)) T := ht.congr fun x hx => e1.old e.2.1 (ht.live x hx)
      refine ⟨_, H1, gv0, T, M.bind_err h1, ?_, (e1.old e.2.1 (by rw [hc]; simp)).trans hc, k1, by omega,
        .inr ⟨fun h => t h.1, rfl⟩⟩
      have := e.trans e1 (by
        intro x hx
        rcases List.mem_cons.mp hx with h | h
        · rw [h, hc]; simp
        · exact ht.live x h)
      exact this
end

/-- `Trajectory::Read`. -/
theorem readTraj_spec (ord : Bool) (n : ℕ) (word : Bool) (i : In) (prof post : Bool) (H : Heap) (w : H.WF) (hp : i.Pos)
    (hn : i.size + 1 ≤ n) : Cloned H (¬ (word = true ∧ i.Fine ∧ prof = true ∧ post = true)) (i.size + 2)
      (readTraj ord n word i prof post H) := by
  unfold readTraj
  rw [bind_step]
  cases word with
  | false => exact failed w (by simp)
  | true =>
  simp only [if_true]
  rcases read_spec ord n i H w hp (by omega) with ⟨g, H1, S, h1, e1, t1, l1⟩ | ⟨t, H1, h1, e1⟩
  · rw [M.bind_ok h1]
    cases prof with
    | false =>
      rw [M.bind_err (M.onThrow_err (by rw [bind_step]; rfl) (delete_owned t1 e1.2.2.1 n (by omega)))]
      exact .inr ⟨by simp, _, rfl, e1.undo w⟩
    | true =>
      obtain ⟨H2, b1, b2, b3⟩ := alloc_ext e1.2.1 .profile
      obtain ⟨H3, c1, c2, c3⟩ := guarded (b := post) (n := n) e1.2.1 b2 (.one b3 .nil) (by simp; omega)
      cases post with
      | false =>
        have e3 := c3 rfl
        have t3 : Owned H3.obj [g] S := t1.congr fun x hx => e3.old e1.2.1 (t1.live x hx)
        have E : Ext H H3 S := e1.trans e3 t1.live
        rw [M.bind_err (M.onThrow_err (by rw [bind_step, if_pos rfl, M.bind_ok b1, M.bind_err c1])
          (delete_owned t3 E.2.2.1 n (by omega)))]
        exact .inr ⟨by simp, _, rfl, E.undo w⟩
      | true =>
        obtain rfl := c2 rfl
        rw [M.bind_ok (M.onThrow_ok (H' := H3) (a := H1.next) (by rw [bind_step, if_pos rfl, M.bind_ok b1, M.bind_ok c1]; rfl))]
        obtain ⟨H4, d1, d2, d3⟩ := alloc_ext b2.2.1 (.segment g H1.next true)
        have t3 : Owned H3.obj [g] S := t1.congr fun x hx => b2.old e1.2.1 (t1.live x hx)
        have t4 : Owned H4.obj [g] S := t3.congr fun x hx => d2.old b2.2.1 (t3.live x hx)
        have m4 : H4.obj H1.next = some .profile := (d2.old b2.2.1 (by rw [b3]; simp)).trans b3
        refine .inl ⟨_, H4, H3.next :: (H1.next :: S), d1, (e1.trans b2 t1.live).trans d2 ?_, .one d3 (.cons m4 .nil t4), by simp; omega⟩
        intro x hx
        rcases List.mem_append.mp hx with h | h
        · simp only [List.mem_singleton] at h; rw [h, b3]; simp
        · exact t3.live x h
  · rw [M.bind_err h1]
    exact .inr ⟨fun h => t h.2.1, H1, rfl, e1⟩

end KDL.Mem
