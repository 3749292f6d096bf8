import Verif.Model.KinfamIo
import Verif.Lemmas.Tree
import Verif.Props.MotionIo

/-! C81: display of trees, chains and matrices. -/

namespace KDL.KinfamIo
open TextIo Tree

variable {N : NumIo} {rnd : ℝ → ℝ}

/-! ## Trees -/

/-- The elements met below `cs` in depth-first order with their depths. -/
private def pre (t : Tree) : ℕ → ℕ → List String → List (TreeElem × ℕ)
  | 0, _, _ => []
  | fuel + 1, lvl, cs => cs.flatMap fun c =>
    match t.find c with
    | some e => (e, lvl) :: pre t fuel (lvl + 1) e.children
    | none => []

private theorem mapM_some {α β : Type} {f : α → Option β} {g : α → β} :
    ∀ l : List α, (∀ x ∈ l, f x = some (g x)) → l.mapM f = some (l.map g)
  | [], _ => rfl
  | a :: l, h => by
    rw [List.mapM_cons, h a (by simp), mapM_some l (fun x hx => h x (by simp [hx]))]; rfl

private theorem Above.found {t : Tree} (ht : t.WF) {k : ℕ} {cs : List String} (h : Above t k cs) {c : String} (hc : c ∈ cs) :
    ∃ e, t.find c = some e ∧ Above t (k + 1) e.children := by
  obtain ⟨i, e, h1, h2, h3⟩ := h c hc
  exact ⟨e, by rw [← h2]; exact find_of_get ht.nodup h1, (above_children ht h1).mono (by omega)⟩

private theorem Above.empty {t : Tree} {k : ℕ} {cs : List String} (h : Above t k cs) (hN : t.segments.length ≤ k) : cs = [] := by
  by_contra hne
  obtain ⟨c, hc⟩ := List.exists_mem_of_ne_nil cs hne
  have := h.lt hc
  omega

/-- The line of `tree2str` for one segment. -/
def lineOf (N : NumIo) (sep preamble : List Char) (x : TreeElem × ℕ) : List Char :=
  preamble ++ (List.replicate x.2 sep).flatten ++ x.1.name.toList ++ "(q_nr: ".toList ++ N.fmtInt x.1.q_nr ++ ")\n".toList

private theorem elem2str_pre {t : Tree} (ht : t.WF) (sep preamble : List Char) : ∀ (fuel k lvl : ℕ) (cs : List String),
    Above t k cs → t.segments.length ≤ fuel + k → ∀ c ∈ cs,
    elem2str N t sep preamble fuel lvl c = some ((pre t fuel lvl [c]).flatMap (lineOf N sep preamble)) := by
  intro fuel
  induction fuel with
  | zero => intro k lvl cs h hN c hc; rw [Above.empty h (by omega)] at hc; cases hc
  | succ fuel ih =>
    intro k lvl cs h hN c hc
    obtain ⟨e, he, hA⟩ := Above.found ht h hc
    have hch := mapM_some (f := elem2str N t sep preamble fuel (lvl + 1)) e.children
      (fun x hx => ih (k + 1) (lvl + 1) e.children hA (by omega) x hx)
    have hp : pre t (fuel + 1) lvl [c] = (e, lvl) :: pre t fuel (lvl + 1) e.children := by
      simp only [pre, List.flatMap_cons, List.flatMap_nil, List.append_nil, he]
    have hj : ((e.children.map fun x => (pre t fuel (lvl + 1) [x]).flatMap (lineOf N sep preamble))).flatten =
        (pre t fuel (lvl + 1) e.children).flatMap (lineOf N sep preamble) := by
      cases fuel with
      | zero => simp [pre]
      | succ f =>
        rw [← List.flatMap_def]
        simp only [pre, List.flatMap_assoc, List.flatMap_cons, List.flatMap_nil, List.append_nil]
    rw [elem2str, he]
    simp only [Option.bind_eq_bind, Option.bind_some, hch]
    rw [hp, List.flatMap_cons, hj]
    rfl

private theorem pre_names {t : Tree} (ht : t.WF) : ∀ (fuel k lvl : ℕ) (cs : List String), Above t k cs →
    (pre t fuel lvl cs).map (fun x => x.1.name) = dfs t fuel cs := by
  intro fuel
  induction fuel with
  | zero => intro k lvl cs _; rfl
  | succ fuel ih =>
    intro k lvl cs h
    rw [pre, dfs, List.map_flatMap]
    apply List.flatMap_congr
    intro c hc
    obtain ⟨e, he, hA⟩ := Above.found ht h hc
    rw [he]
    simp only [List.map_cons]
    rw [ih (k + 1) (lvl + 1) e.children hA, childrenOf, he, (find_some he).2]

private theorem pre_find {t : Tree} : ∀ (fuel lvl : ℕ) (cs : List String), ∀ x ∈ pre t fuel lvl cs,
    t.find x.1.name = some x.1 ∧ lvl ≤ x.2 := by
  intro fuel
  induction fuel with
  | zero => intro lvl cs x hx; cases hx
  | succ fuel ih =>
    intro lvl cs x hx
    rw [pre, List.mem_flatMap] at hx
    obtain ⟨c, hc, hx⟩ := hx
    cases he : t.find c with
    | none => rw [he] at hx; cases hx
    | some e =>
      rw [he] at hx
      rcases List.mem_cons.mp hx with rfl | hx
      · exact ⟨by rw [(find_some he).2]; exact he, Nat.le_refl _⟩
      · obtain ⟨h1, h2⟩ := ih _ _ x hx
        exact ⟨h1, by omega⟩

private theorem pre_nested {t : Tree} (ht : t.WF) : ∀ (fuel lvl : ℕ) (cs : List String)
    (A : List (TreeElem × ℕ)) (x : TreeElem × ℕ) (B : List (TreeElem × ℕ)), pre t fuel lvl cs = A ++ x :: B →
    (x.2 = lvl ∧ x.1.name ∈ cs) ∨
    ∃ A₁ p A₂, A = A₁ ++ p :: A₂ ∧ x.1.parent = some p.1.name ∧ x.2 = p.2 + 1 ∧ ∀ y ∈ A₂, p.2 < y.2 := by
  intro fuel
  induction fuel with
  | zero => intro lvl cs A x B h; simp [pre] at h
  | succ fuel ih =>
    intro lvl cs
    induction cs with
    | nil => intro A x B h; simp [pre] at h
    | cons c cs ihc =>
      intro A x B h
      have hsplit : pre t (fuel + 1) lvl (c :: cs) = pre t (fuel + 1) lvl [c] ++ pre t (fuel + 1) lvl cs := by
        simp only [pre, List.flatMap_cons, List.flatMap_nil, List.append_nil]
      have hrest : ∀ A' B', pre t (fuel + 1) lvl cs = A' ++ x :: B' → A = pre t (fuel + 1) lvl [c] ++ A' →
          (x.2 = lvl ∧ x.1.name ∈ c :: cs) ∨
          ∃ A₁ p A₂, A = A₁ ++ p :: A₂ ∧ x.1.parent = some p.1.name ∧ x.2 = p.2 + 1 ∧ ∀ y ∈ A₂, p.2 < y.2 := by
        intro A' B' h' hA
        rcases ihc A' x B' h' with ⟨h1, h2⟩ | ⟨A₁, p, A₂, h1, h2⟩
        · exact Or.inl ⟨h1, List.mem_cons_of_mem _ h2⟩
        · exact Or.inr ⟨_ ++ A₁, p, A₂, by rw [hA, h1, List.append_assoc], h2⟩
      rw [hsplit] at h
      cases he : t.find c with
      | none =>
        have h0 : pre t (fuel + 1) lvl [c] = [] := by
          simp only [pre, List.flatMap_cons, List.flatMap_nil, List.append_nil, he]
        rw [h0, List.nil_append] at h
        exact hrest A B h (by rw [h0, List.nil_append])
      | some e =>
        have h0 : pre t (fuel + 1) lvl [c] = (e, lvl) :: pre t fuel (lvl + 1) e.children := by
          simp only [pre, List.flatMap_cons, List.flatMap_nil, List.append_nil, he]
        rcases List.append_eq_append_iff.mp h with ⟨A', hA, hB⟩ | ⟨C, hC, hD⟩
        · exact hrest A' B hB hA
        · cases C with
          | nil =>
            rw [List.append_nil] at hC
            rw [List.nil_append] at hD
            exact hrest [] B hD.symm (by rw [hC, List.append_nil])
          | cons z C =>
            rw [List.cons_append, List.cons.injEq] at hD
            rw [← hD.1, h0] at hC
            cases A with
            | nil =>
              rw [List.nil_append, List.cons.injEq] at hC
              left
              rw [← hC.1]
              exact ⟨rfl, by rw [(find_some he).2]; exact List.mem_cons_self⟩
            | cons y A =>
              rw [List.cons_append, List.cons.injEq] at hC
              right
              rcases ih (lvl + 1) e.children A x C hC.2 with ⟨h1, h2⟩ | ⟨A₁, p, A₂, h1, h2⟩
              · refine ⟨[], y, A, rfl, ?_, by rw [← hC.1]; exact h1, ?_⟩
                · rw [← hC.1]
                  have hx : x ∈ pre t fuel (lvl + 1) e.children := by rw [hC.2]; simp
                  exact (parent_of_child ht (find_some he).1 (find_some (pre_find _ _ _ x hx).1).1).mp h2
                · intro w hw
                  have hw' : w ∈ pre t fuel (lvl + 1) e.children := by rw [hC.2]; simp [hw]
                  rw [← hC.1]
                  exact (pre_find _ _ _ w hw').2
              · exact ⟨y :: A₁, p, A₂, by rw [h1, List.cons_append], h2⟩

/-- The indented listing `L` of a tree, as pairs of element and depth: every element once; the root first with depth 0; every
other element one level deeper than its parent, which is the last element before it that is less deep; the children of every
element in the order in which they were added.  The tree can be read off such a list. -/
structure Listing (t : Tree) (L : List (TreeElem × ℕ)) : Prop where
  once : (L.map Prod.fst).Perm t.segments
  nested : ∀ A x B, L = A ++ x :: B →
    (A = [] ∧ x.2 = 0 ∧ x.1.name = t.root_name) ∨
    ∃ A₁ p A₂, A = A₁ ++ p :: A₂ ∧ x.1.parent = some p.1.name ∧ x.2 = p.2 + 1 ∧ ∀ y ∈ A₂, p.2 < y.2
  order : ∀ p ∈ t.segments, ((L.map Prod.fst).filter fun e => e.parent = some p.name).map TreeElem.name = p.children

private theorem root_above {t : Tree} (ht : t.WF) : Above t 0 [t.root_name] := by
  obtain ⟨r, h1, h2, _, _⟩ := ht.root
  intro c hc
  rw [List.mem_singleton] at hc
  exact ⟨0, r, h1, by rw [hc]; show r.segment.name = _; rw [h2]; rfl, Nat.le_refl _⟩

private theorem listing {t : Tree} (h : t.Reach) : Listing t (pre t t.segments.length 0 [t.root_name]) := by
  have ht := h.wf
  have hA := root_above ht
  obtain ⟨r, rest, hs, hname, hfr, -⟩ := root_cons ht
  have hlen : t.segments.length = (t.segments.length - 1) + 1 := by rw [hs]; rfl
  have hst : dfs t t.segments.length (childrenOf t t.root_name) =
      dfs t (t.segments.length - 1) (childrenOf t t.root_name) := by
    conv_lhs => rw [hlen]
    exact dfs_stable ht _ 1 _ (above_root ht) (by omega)
  have hd : dfs t t.segments.length [t.root_name] = t.root_name :: dfs t t.segments.length (childrenOf t t.root_name) := by
    conv_lhs => rw [hlen, dfs]
    rw [hst]
    simp
  have hn := pre_names ht t.segments.length 0 0 _ hA
  have hperm : ((pre t t.segments.length 0 [t.root_name]).map fun x => x.1.name).Perm t.names := by
    rw [hn, hd]; exact h.dfs_perm
  have hfind := pre_find (t := t) t.segments.length 0 [t.root_name]
  set L := pre t t.segments.length 0 [t.root_name] with hL
  have hnd : ((L.map Prod.fst).map TreeElem.name).Nodup := by
    rw [List.map_map]; exact hperm.nodup_iff.mpr ht.nodup
  refine ⟨?_, ?_, ?_⟩
  · rw [List.perm_ext_iff_of_nodup (List.Nodup.of_map _ hnd) (List.Nodup.of_map _ ht.nodup)]
    intro e
    constructor
    · intro he
      obtain ⟨x, hx, rfl⟩ := List.mem_map.mp he
      exact (find_some (hfind x hx).1).1
    · intro he
      have : e.name ∈ L.map fun x => x.1.name := hperm.mem_iff.mpr (List.mem_map_of_mem he)
      obtain ⟨x, hx, hxe⟩ := List.mem_map.mp this
      have h1 := (hfind x hx).1
      rw [hxe, find_of_mem ht.nodup he] at h1
      rw [Option.some.inj h1]
      exact List.mem_map_of_mem hx
  · intro A x B hx
    rcases pre_nested ht _ _ _ A x B hx with ⟨h1, h2⟩ | h3
    · rw [List.mem_singleton] at h2
      refine Or.inl ⟨?_, h1, h2⟩
      have hLc : ∃ y L', L = y :: L' ∧ y.1.name = t.root_name := by
        have := hn
        rw [hd] at this
        cases hL' : L with
        | nil => rw [hL'] at this; cases this
        | cons y L' => rw [hL', List.map_cons, List.cons.injEq] at this; exact ⟨y, L', rfl, this.1⟩
      obtain ⟨y, L', hy, hyn⟩ := hLc
      cases A with
      | nil => rfl
      | cons z A =>
        rw [hx, List.cons_append, List.cons.injEq] at hy
        rw [hx, List.map_map, List.map_append, List.map_cons] at hnd
        have := (List.nodup_append.mp hnd).2.2 z.1.name (by simp) x.1.name (by simp)
        rw [hy.1, hyn, h2] at this
        exact absurd rfl this
    · exact Or.inr h3
  · intro p hp
    have hP := dfsP_fst t t.segments.length (childrenOf t t.root_name) t.root_name
    have hpar := dfsP_parent ht t.segments.length 1 (childrenOf t t.root_name) t.root_name (above_root ht) (by
      intro c hc e he
      rw [childrenOf, hfr] at hc
      have := (parent_of_child ht (find_some hfr).1 (find_some he).1).mp (by rw [(find_some he).2]; exact hc)
      rw [this, hname])
    have hndd : (t.root_name :: dfs t t.segments.length (childrenOf t t.root_name)).Nodup :=
      h.dfs_perm.nodup_iff.mpr ht.nodup
    have hch := dfsP_children ht p.name t.segments.length 1 (childrenOf t t.root_name) t.root_name (above_root ht)
      (by omega) (List.nodup_cons.mp hndd).2 (List.nodup_cons.mp hndd).1
    have hres : ((dfsP t t.segments.length (childrenOf t t.root_name) t.root_name).filter fun x => x.2 = p.name).map Prod.fst =
        p.children := by
      rw [hch]
      have hpf : t.find p.name = some p := find_of_mem ht.nodup hp
      by_cases h1 : p.name = t.root_name
      · rw [if_pos h1, ← h1, childrenOf, hpf]
      · have h2 : p.name ∈ t.root_name :: dfs t t.segments.length (childrenOf t t.root_name) :=
          h.dfs_perm.mem_iff.mpr (List.mem_map_of_mem hp)
        rcases List.mem_cons.mp h2 with h3 | h3
        · exact absurd h3 h1
        · rw [if_neg h1, if_pos h3, childrenOf, hpf]
    rw [← hres]
    -- compare element by element
    have key : ∀ (l : List TreeElem) (d : List (String × String)), l.map TreeElem.name = d.map Prod.fst →
        (∀ e ∈ l, t.find e.name = some e) → (∀ x ∈ d, ∃ e, t.find x.1 = some e ∧ e.parent = some x.2) →
        (l.filter fun e => e.parent = some p.name).map TreeElem.name =
          (d.filter fun x => x.2 = p.name).map Prod.fst := by
      intro l
      induction l with
      | nil =>
        intro d h1 _ _
        cases d with
        | nil => rfl
        | cons x d => cases h1
      | cons e l ih =>
        intro d h1 h2 h3
        cases d with
        | nil => cases h1
        | cons x d =>
          rw [List.map_cons, List.map_cons, List.cons.injEq] at h1
          have hi := ih d h1.2 (fun y hy => h2 y (by simp [hy])) (fun y hy => h3 y (by simp [hy]))
          obtain ⟨e', he', hpe⟩ := h3 x (by simp)
          rw [← h1.1, h2 e (by simp)] at he'
          rw [← Option.some.inj he'] at hpe
          by_cases hq : x.2 = p.name
          · rw [List.filter_cons_of_pos (by simp [hpe, hq]), List.filter_cons_of_pos (by simp [hq]), List.map_cons,
              List.map_cons, hi, h1.1]
          · rw [List.filter_cons_of_neg (by simp [hpe, hq]), List.filter_cons_of_neg (by simp [hq]), hi]
    have hLn : L.map (fun x => x.1.name) = t.root_name :: dfs t t.segments.length (childrenOf t t.root_name) := by
      rw [← hd]; exact hn
    cases hL' : L with
    | nil => rw [hL'] at hLn; cases hLn
    | cons y L' =>
      rw [hL', List.map_cons, List.cons.injEq] at hLn
      have hy : y.1 = r := by
        have := (hfind y (by rw [hL']; simp)).1
        rw [hLn.1, hfr] at this
        exact (Option.some.inj this).symm
      have hyp : y.1.parent = none := by
        obtain ⟨r', h1, _, h3, _⟩ := ht.root
        rw [hs] at h1
        rw [hy, Option.some.inj h1]
        exact h3
      rw [List.map_cons, List.filter_cons_of_neg (by simp [hyp])]
      refine key _ _ (by rw [List.map_map, hP]; exact hLn.2) ?_ hpar
      intro e he
      obtain ⟨x, hx, rfl⟩ := List.mem_map.mp he
      exact (hfind x (by rw [hL']; simp [hx])).1

/-- `tree2str` ends for every tree and gives one line for every segment: preamble, separators according to the depth, name
and joint number; the lines form an indented listing of the tree. -/
theorem C81_tree2str (N : NumIo) (t : Tree) (h : t.Reach) (sep preamble : List Char) :
    ∃ L, Listing t L ∧ tree2str N t sep preamble = some (L.flatMap (lineOf N sep preamble)) := by
  refine ⟨_, listing h, ?_⟩
  exact elem2str_pre h.wf sep preamble _ 0 0 _ (root_above h.wf) (by omega) _ (List.mem_singleton.mpr rfl)

/-- Only white space. -/
private def White (w : List Char) : Prop := ∀ c ∈ w, c = ' ' ∨ c = '\t' ∨ c = '\n'
private def item (N : NumIo) (x : TreeElem × ℕ) : List Char :=
  x.1.name.toList ++ "(q_nr: ".toList ++ N.fmtInt x.1.q_nr ++ ")\n".toList
private inductive Woven (N : NumIo) : List (TreeElem × ℕ) → List Char → Prop
  | nil : Woven N [] []
  | cons (x : TreeElem × ℕ) (w : List Char) (L : List (TreeElem × ℕ)) (out : List Char) :
      White w → Woven N L out → Woven N (x :: L) (item N x ++ w ++ out)

private theorem Woven.append {A B : List (TreeElem × ℕ)} {a b : List Char} (h : Woven N A a) (h' : Woven N B b) :
    Woven N (A ++ B) (a ++ b) := by
  induction h with
  | nil => exact h'
  | cons x w L out hw _ ih => rw [List.cons_append, List.append_assoc]; exact .cons x w _ _ hw ih

private theorem Woven.white {A : List (TreeElem × ℕ)} {a w : List Char} (h : Woven N A a) (hA : A ≠ []) (hw : White w) :
    Woven N A (a ++ w) := by
  induction h with
  | nil => exact absurd rfl hA
  | cons x w' L out hw' hL ih =>
    by_cases hLn : L = []
    · subst hLn
      cases hL
      rw [List.append_nil, List.append_assoc, ← List.append_nil (w' ++ w), ← List.append_assoc]
      refine .cons x _ _ _ ?_ .nil
      intro c hc
      rcases List.mem_append.mp hc with h | h
      · exact hw' c h
      · exact hw c h
    · rw [List.append_assoc]
      exact .cons x w' L _ hw' (ih hLn)

private theorem Woven.out {L : List (TreeElem × ℕ)} {out : List Char} (h : Woven N L out) :
    ∃ ws : List (List Char), ws.length = L.length ∧ (∀ w ∈ ws, White w) ∧
      out = (List.zipWith (fun x w => item N x ++ w) L ws).flatten := by
  induction h with
  | nil => exact ⟨[], rfl, fun _ h => absurd h List.not_mem_nil, rfl⟩
  | cons x w L out hw _ ih =>
    obtain ⟨ws, h1, h2, h3⟩ := ih
    refine ⟨w :: ws, by rw [List.length_cons, List.length_cons, h1], ?_, ?_⟩
    · intro v hv
      rcases List.mem_cons.mp hv with rfl | h
      · exact hw
      · exact h2 v h
    · rw [List.zipWith_cons_cons, List.flatten_cons, ← h3]

private theorem pre_ne {t : Tree} {fuel lvl : ℕ} {c : String} {e : TreeElem} (h : t.find c = some e) :
    pre t (fuel + 1) lvl [c] = (e, lvl) :: pre t fuel (lvl + 1) e.children := by
  simp only [pre, List.flatMap_cons, List.flatMap_nil, List.append_nil, h]

private theorem writeElem_pre {t : Tree} (ht : t.WF) : ∀ (fuel k lvl : ℕ) (cs : List String),
    Above t k cs → t.segments.length ≤ fuel + k → ∀ c ∈ cs,
    ∃ out, writeElem N t fuel c = some out ∧ Woven N (pre t fuel lvl [c]) out ∧ pre t fuel lvl [c] ≠ [] := by
  intro fuel
  induction fuel with
  | zero => intro k lvl cs h hN c hc; rw [Above.empty h (by omega)] at hc; cases hc
  | succ fuel ih =>
    intro k lvl cs h hN c hc
    obtain ⟨e, he, hA⟩ := Above.found ht h hc
    have hch : ∀ ds : List String, (∀ d ∈ ds, d ∈ e.children) → ∃ parts, ds.mapM (writeElem N t fuel) = some parts ∧
        Woven N (pre t fuel (lvl + 1) ds) (parts.flatMap fun p => p ++ ['\t']) := by
      intro ds
      induction ds with
      | nil =>
        intro _
        refine ⟨[], rfl, ?_⟩
        have : pre t fuel (lvl + 1) [] = [] := by cases fuel <;> rfl
        rw [this]; exact .nil
      | cons d ds ihd =>
        intro hd
        obtain ⟨parts, h1, h2⟩ := ihd (fun x hx => hd x (List.mem_cons_of_mem _ hx))
        obtain ⟨out, h3, h4, h5⟩ := ih (k + 1) (lvl + 1) e.children hA (by omega) d (hd d List.mem_cons_self)
        refine ⟨out :: parts, by rw [List.mapM_cons, h3, h1]; rfl, ?_⟩
        have hs : pre t fuel (lvl + 1) (d :: ds) = pre t fuel (lvl + 1) [d] ++ pre t fuel (lvl + 1) ds := by
          cases fuel with
          | zero => rfl
          | succ f => simp only [pre, List.flatMap_cons, List.flatMap_nil, List.append_nil]
        rw [hs, List.flatMap_cons]
        exact (h4.white h5 (by intro c hc; rw [List.mem_singleton] at hc; exact Or.inr (Or.inl hc))).append h2
    obtain ⟨parts, h1, h2⟩ := hch e.children (fun _ h => h)
    refine ⟨_, by rw [writeElem, he]; simp only [Option.bind_eq_bind, Option.bind_some, h1]; rfl, ?_, ?_⟩
    · rw [pre_ne he]
      have := (Woven.cons (N := N) (e, lvl) " \t".toList _ _ (by
        intro c hc
        rw [show " \t".toList = [' ', '\t'] by decide] at hc
        rcases List.mem_cons.mp hc with h | h
        · exact Or.inl h
        · exact Or.inr (Or.inl (List.mem_singleton.mp h))) h2).white (List.cons_ne_nil _ _) (w := ['\n'])
        (by intro c hc; rw [List.mem_singleton] at hc; exact Or.inr (Or.inr hc))
      have e1 : (")\n".toList ++ " \t".toList : List Char) = ")".toList ++ "\n \t".toList := by decide
      rw [item, List.append_assoc (e.name.toList ++ _ ++ _), e1, ← List.append_assoc] at this
      exact this
    · rw [pre_ne he]; exact List.cons_ne_nil _ _

/-- `<< Tree` ends for every tree and shows the same segments in the same order, each as its name and joint number and a
newline, with only white space in between. -/
theorem C81_tree (N : NumIo) (t : Tree) (h : t.Reach) :
    ∃ L ws, Listing t L ∧ ws.length = L.length ∧ (∀ w ∈ ws, ∀ c ∈ w, c = ' ' ∨ c = '\t' ∨ c = '\n') ∧
      writeTree N t = some ((List.zipWith (fun (x : TreeElem × ℕ) (w : List Char) =>
        x.1.name.toList ++ "(q_nr: ".toList ++ N.fmtInt x.1.q_nr ++ ")\n".toList ++ w) L ws).flatten) := by
  obtain ⟨out, h1, h2, -⟩ := writeElem_pre (N := N) h.wf t.segments.length 0 0 _ (root_above h.wf) (by omega) _ (List.mem_singleton.mpr rfl)
  obtain ⟨ws, h3, h4, h5⟩ := h2.out
  exact ⟨_, ws, listing h, h3, h4, by rw [writeTree, h1, h5]; rfl⟩

/-! ## Matrices -/

private theorem pad12 {x : ℝ} (h : (N.fmt x).length ≤ 12) : (pad (N.fmt x)).length = 12 := by
  rw [pad, List.length_append, List.length_replicate]; omega

private theorem matrix_inj (hN : NumOk N rnd) {r c : ℕ} {m m' : ℕ → ℕ → ℝ}
    (hw : ∀ i < r, ∀ j < c, (N.fmt (m i j)).length ≤ 12) (hw' : ∀ i < r, ∀ j < c, (N.fmt (m' i j)).length ≤ 12)
    (h : writeMatrix N r c m = writeMatrix N r c m') : ∀ i < r, ∀ j < c, rnd (m i j) = rnd (m' i j) := by
  rw [writeMatrix, writeMatrix] at h
  replace h := List.append_cancel_right (List.cons.inj h).2
  rw [List.flatMap_def, List.flatMap_def] at h
  have hlen : ∀ (m : ℕ → ℕ → ℝ), (∀ i < r, ∀ j < c, (N.fmt (m i j)).length ≤ 12) → ∀ i < r,
      ((List.range c).map fun j => pad (N.fmt (m i j))).map List.length = (List.range c).map fun _ => 12 := by
    intro m hm i hi
    rw [List.map_map]
    apply List.map_congr_left
    intro j hj
    exact pad12 (hm i hi j (List.mem_range.mp hj))
  have hrow : ∀ (m : ℕ → ℕ → ℝ), (∀ i < r, ∀ j < c, (N.fmt (m i j)).length ≤ 12) → ∀ i < r,
      ((List.range c).flatMap fun j => pad (N.fmt (m i j))).length = ((List.range c).map fun _ => 12).sum := by
    intro m hm i hi
    rw [List.flatMap_def, List.length_flatten, hlen m hm i hi]
  have h1 := (List.eq_iff_flatten_eq).mpr ⟨h, by
    rw [List.map_map, List.map_map]
    apply List.map_congr_left
    intro i hi
    have hi := List.mem_range.mp hi
    simp only [Function.comp_apply, List.length_append]
    rw [hrow m hw i hi, hrow m' hw' i hi]⟩
  intro i hi j hj
  have h2 := List.map_inj_left.mp h1 i (List.mem_range.mpr hi)
  replace h2 := List.append_cancel_right h2
  rw [List.flatMap_def, List.flatMap_def] at h2
  have h3 := (List.eq_iff_flatten_eq).mpr ⟨h2, by rw [hlen m hw i hi, hlen m' hw' i hi]⟩
  exact pad_inj hN _ _ (List.map_inj_left.mp h3 j (List.mem_range.mpr hj))

private theorem matrix_len {r c : ℕ} {m : ℕ → ℕ → ℝ} (hw : ∀ i < r, ∀ j < c, (N.fmt (m i j)).length ≤ 12) :
    (writeMatrix N r c m).length = r * (12 * c + 1) + 2 := by
  have hsum : ∀ (n k : ℕ) (f : ℕ → List Char), (∀ i < n, (f i).length = k) → ((List.range n).flatMap f).length = n * k := by
    intro n k f hf
    induction n with
    | zero => simp
    | succ n ih =>
      rw [List.range_succ, List.flatMap_append, List.length_append, ih (fun i hi => hf i (by omega)),
        List.flatMap_cons, List.flatMap_nil, List.append_nil, hf n (by omega)]
      ring
  rw [writeMatrix, List.length_append, List.length_cons, List.length_singleton,
    hsum r (12 * c + 1) _ (fun i hi => by
      rw [List.length_append, List.length_singleton, hsum c 12 _ (fun j hj => pad12 (hw i hi j hj))]; ring)]

/-- If no formatted number is wider than its field, the text of a Jacobian and of an inertia matrix determines the size and the
rounded entries: the fields are not separated, but all of the same width. -/
theorem C81_matrix (hN : NumOk N rnd) (J J' : Jac) (H H' : JMat)
    (hJ : ∀ i < 6, ∀ j < J.length, (N.fmt (jacEntry J i j)).length ≤ 12)
    (hJ' : ∀ i < 6, ∀ j < J'.length, (N.fmt (jacEntry J' i j)).length ≤ 12)
    (hH : ∀ i < H.n, ∀ j < H.n, (N.fmt (H.d i j)).length ≤ 12)
    (hH' : ∀ i < H'.n, ∀ j < H'.n, (N.fmt (H'.d i j)).length ≤ 12) :
    (writeJac N J = writeJac N J' → J.length = J'.length ∧ ∀ j (h : j < J.length) (h' : j < J'.length),
      rndVec rnd J[j].vel = rndVec rnd J'[j].vel ∧ rndVec rnd J[j].rot = rndVec rnd J'[j].rot) ∧
    (writeJMat N H = writeJMat N H' → H.n = H'.n ∧ ∀ i < H.n, ∀ j < H.n, rnd (H.d i j) = rnd (H'.d i j)) := by
  constructor
  · intro h
    have hl := congrArg List.length h
    rw [writeJac, writeJac, matrix_len hJ, matrix_len hJ'] at hl
    have hn : J.length = J'.length := by omega
    refine ⟨hn, ?_⟩
    rw [writeJac, writeJac, ← hn] at h
    rw [← hn] at hJ'
    have key := matrix_inj hN hJ hJ' h
    intro j h1 h2
    have k0 := key 0 (by omega) j h1
    have k1 := key 1 (by omega) j h1
    have k2 := key 2 (by omega) j h1
    have k3 := key 3 (by omega) j h1
    have k4 := key 4 (by omega) j h1
    have k5 := key 5 (by omega) j h1
    have g1 : J.getD j 0 = J[j] := by rw [List.getD_eq_getElem?_getD, List.getElem?_eq_getElem h1]; rfl
    have g2 : J'.getD j 0 = J'[j] := by rw [List.getD_eq_getElem?_getD, List.getElem?_eq_getElem h2]; rfl
    simp only [jacEntry, g1, g2] at k0 k1 k2 k3 k4 k5
    constructor
    · rw [rndVec, rndVec, Vec.mk.injEq]; exact ⟨k0, k1, k2⟩
    · rw [rndVec, rndVec, Vec.mk.injEq]; exact ⟨k3, k4, k5⟩
  · intro h
    have hl := congrArg List.length h
    rw [writeJMat, writeJMat, matrix_len hH, matrix_len hH'] at hl
    have hn : H.n = H'.n := by
      rcases Nat.lt_trichotomy H.n H'.n with hlt | he | hgt
      · exfalso
        have := Nat.mul_le_mul (Nat.le_of_lt hlt) (show 12 * H.n + 1 ≤ 12 * H'.n + 1 by omega)
        have h2 : H.n * (12 * H.n + 1) < H'.n * (12 * H'.n + 1) := by nlinarith
        omega
      · exact he
      · exfalso
        have h2 : H'.n * (12 * H'.n + 1) < H.n * (12 * H.n + 1) := by nlinarith
        omega
    refine ⟨hn, ?_⟩
    rw [writeJMat, writeJMat, ← hn] at h
    rw [← hn] at hH'
    exact matrix_inj hN hH hH' h

/-! ## Joints, segments and chains -/

/-- What the text of a joint shows, with rounded numbers. -/
def JointAgree (rnd : ℝ → ℝ) (j j' : Joint) : Prop :=
  j.name = j'.name ∧ j.type = j'.type ∧ rndVec rnd j.jointAxis = rndVec rnd j'.jointAxis ∧
  rndVec rnd j.origin = rndVec rnd j'.origin
/-- What the text of a segment shows, with rounded numbers. -/
def SegmentAgree (rnd : ℝ → ℝ) (s s' : Segment) : Prop :=
  s.name = s'.name ∧ JointAgree rnd s.joint s'.joint ∧
  rndFrame rnd (s.joint.pose 0 * s.f_tip) = rndFrame rnd (s'.joint.pose 0 * s'.f_tip)

private theorem split_colon : ∀ (a b r r' : List Char), ':' ∉ a → ':' ∉ b → a ++ ':' :: r = b ++ ':' :: r' → a = b ∧ r = r'
  | [], [], r, r', _, _, h => ⟨rfl, (List.cons.inj h).2⟩
  | [], c :: b, r, r', _, hb, h => absurd (by rw [(List.cons.inj h).1]; exact List.mem_cons_self) hb
  | c :: a, [], r, r', ha, _, h => absurd (by rw [← (List.cons.inj h).1]; exact List.mem_cons_self) ha
  | c :: a, d :: b, r, r', ha, hb, h => by
    rw [List.cons_append, List.cons_append, List.cons.injEq] at h
    obtain ⟨h1, h2⟩ := split_colon a b r r' (fun h => ha (List.mem_cons_of_mem _ h)) (fun h => hb (List.mem_cons_of_mem _ h)) h.2
    exact ⟨by rw [h.1, h1], h2⟩

private theorem reads_det {α : Type} {m : Rd α} {l r r' : List Char} {a a' : α} (h : Reads m l a r) (h' : Reads m l a' r') :
    a = a' ∧ r = r' := by
  have := (h []).symm.trans (h' [])
  injection this with h1 h2
  injection h2 with h3
  injection h3 with h4
  exact ⟨h1, h4⟩

private theorem type_split (T T' : JointType) (r r' : List Char)
    (h : (typeName T).toList ++ ',' :: r = (typeName T').toList ++ ',' :: r') : T = T' ∧ r = r' := by
  cases T <;> cases T' <;> simp_all [typeName]

private theorem joint_inj (hN : NumOk N rnd) {j j' : Joint} {r r' : List Char} (hj : ':' ∉ j.name.toList)
    (hj' : ':' ∉ j'.name.toList) (h : writeJoint N j ++ r = writeJoint N j' ++ r') : JointAgree rnd j j' ∧ r = r' := by
  have e : ∀ (j : Joint) (r : List Char), writeJoint N j ++ r = j.name.toList ++ ':' :: '[' :: ((typeName j.type).toList ++
      ',' :: (" axis: ".toList ++ (writeVec N j.jointAxis ++ (", origin".toList ++ (writeVec N j.jointOrigin ++
        ("]".toList ++ r)))))) := by
    intro j r
    simp only [writeJoint, List.append_assoc]
    rfl
  rw [e, e] at h
  obtain ⟨h1, h2⟩ := split_colon _ _ _ _ hj hj' h
  obtain ⟨h3, h4⟩ := type_split _ _ _ _ (List.cons.inj h2).2
  replace h4 := List.append_cancel_left h4
  have a1 := (C67_roundtrip hN j.jointAxis ⟨0, 0⟩ ⟨0, 0⟩ 1 1 (", origin".toList ++ (writeVec N j.jointOrigin ++
        ("]".toList ++ r)))).1
  have a2 := (C67_roundtrip hN j'.jointAxis ⟨0, 0⟩ ⟨0, 0⟩ 1 1 (", origin".toList ++ (writeVec N j'.jointOrigin ++
        ("]".toList ++ r')))).1
  rw [h4] at a1
  obtain ⟨h5, h6⟩ := reads_det a1 a2
  replace h6 := List.append_cancel_left h6
  have b1 := (C67_roundtrip hN j.jointOrigin ⟨0, 0⟩ ⟨0, 0⟩ 1 1 ("]".toList ++ r)).1
  have b2 := (C67_roundtrip hN j'.jointOrigin ⟨0, 0⟩ ⟨0, 0⟩ 1 1 ("]".toList ++ r')).1
  rw [h6] at b1
  obtain ⟨h7, h8⟩ := reads_det b1 b2
  exact ⟨⟨String.toList_inj.mp h1, h3, h5, h7⟩, List.append_cancel_left h8⟩

private theorem segment_inj (hN : NumOk N rnd) {s s' : Segment} {r r' : List Char} (hs : ':' ∉ s.name.toList)
    (hs' : ':' ∉ s'.name.toList) (hj : ':' ∉ s.joint.name.toList) (hj' : ':' ∉ s'.joint.name.toList)
    (h : KinfamIo.writeSegment N s ++ r = KinfamIo.writeSegment N s' ++ r') : SegmentAgree rnd s s' ∧ r = r' := by
  have e : ∀ (s : Segment) (r : List Char), KinfamIo.writeSegment N s ++ r = s.name.toList ++ ':' :: '[' ::
      (writeJoint N s.joint ++ (",\n tip: \n".toList ++ (writeFrame N s.getFrameToTip ++ ("]".toList ++ r)))) := by
    intro s r
    simp only [KinfamIo.writeSegment, List.append_assoc]
    rfl
  rw [e, e] at h
  obtain ⟨h1, h2⟩ := split_colon _ _ _ _ hs hs' h
  obtain ⟨h3, h4⟩ := joint_inj hN hj hj' (List.cons.inj h2).2
  replace h4 := List.append_cancel_left h4
  have a1 := (C67_roundtrip hN 0 ⟨0, 0⟩ ⟨0, 0⟩ 1 s.getFrameToTip ("]".toList ++ r)).2.2.2.2
  have a2 := (C67_roundtrip hN 0 ⟨0, 0⟩ ⟨0, 0⟩ 1 s'.getFrameToTip ("]".toList ++ r')).2.2.2.2
  rw [h4] at a1
  obtain ⟨h5, h6⟩ := reads_det a1 a2
  exact ⟨⟨String.toList_inj.mp h1, h3, h5⟩, List.append_cancel_left h6⟩

/-- The text of a chain whose names contain no colon determines the number of segments and, up to the rounding of the numbers,
everything that is shown: names, joint types, axes, origins and tip frames. -/
theorem C81_chain (hN : NumOk N rnd) (c c' : Chain)
    (hc : ∀ s ∈ c.segments, ':' ∉ s.name.toList ∧ ':' ∉ s.joint.name.toList)
    (hc' : ∀ s ∈ c'.segments, ':' ∉ s.name.toList ∧ ':' ∉ s.joint.name.toList)
    (h : writeChain N c = writeChain N c') : List.Forall₂ (SegmentAgree rnd) c.segments c'.segments := by
  let f : Segment → List Char := fun s => KinfamIo.writeSegment N s ++ ['\n']
  have hlen : ∀ (s : Segment) (l : List Char), 2 ≤ (f s ++ l).length := by
    intro s l
    have : ":[".toList.length = 2 := by decide
    simp only [f, KinfamIo.writeSegment, List.length_append, this]
    omega
  have key : ∀ S S' : List Segment, (∀ s ∈ S, ':' ∉ s.name.toList ∧ ':' ∉ s.joint.name.toList) →
      (∀ s ∈ S', ':' ∉ s.name.toList ∧ ':' ∉ s.joint.name.toList) →
      S.flatMap f ++ [']'] = S'.flatMap f ++ [']'] → List.Forall₂ (SegmentAgree rnd) S S' := by
    intro S
    induction S with
    | nil =>
      intro S' _ _ h
      cases S' with
      | nil => exact .nil
      | cons s' S' =>
        rw [List.flatMap_cons, List.append_assoc] at h
        have h2 := hlen s' (S'.flatMap f ++ [']'])
        rw [← h] at h2
        simp at h2
    | cons s S ih =>
      intro S' hc hc' h
      cases S' with
      | nil =>
        rw [List.flatMap_cons, List.append_assoc] at h
        have h2 := hlen s (S.flatMap f ++ [']'])
        rw [h] at h2
        simp at h2
      | cons s' S' =>
        rw [List.flatMap_cons, List.flatMap_cons, List.append_assoc, List.append_assoc] at h
        simp only [f] at h
        rw [List.append_assoc, List.append_assoc] at h
        obtain ⟨h1, h2⟩ := segment_inj hN (hc s (by simp)).1 (hc' s' (by simp)).1 (hc s (by simp)).2 (hc' s' (by simp)).2 h
        exact .cons h1 (ih S' (fun x hx => hc x (by simp [hx])) (fun x hx => hc' x (by simp [hx]))
          (List.append_cancel_left h2))
  exact key _ _ hc hc' (List.cons.inj h).2

/-- Number formats as required exist, see the example in FramesIo.lean; the listing of a tree with one more segment. -/
example (N : NumIo) (s : Segment) (r : String) :
    ∃ L, Listing ((Tree.new r).addSegment s r).2 L ∧
      tree2str N ((Tree.new r).addSegment s r).2 "  ".toList [] = some (L.flatMap (lineOf N "  ".toList [])) :=
  C81_tree2str N _ (Tree.Reach.add s r (Tree.Reach.new r)) _ _
example (N : NumIo) : tree2str N (Tree.new "base") "  ".toList [] = some ("base(q_nr: ".toList ++ N.fmtInt 0 ++ ")\n".toList) := by
  simp [tree2str, elem2str, Tree.new, Tree.find, TreeElem.name, Segment.ofName]
example (N : NumIo) : writeJac N [] = "[\n\n\n\n\n\n]".toList := by
  simp [writeJac, writeMatrix, List.range_succ]
end KDL.KinfamIo
