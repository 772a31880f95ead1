import Verif.CatVisitSpec
import Verif.CatalogLemmas
import Mathlib.Data.List.Flatten

/-! Helper lemmas for traversals. -/

namespace Verif.Catalog

theorem size_pos (t : Tree) : 0 < t.size := by cases t; simp [Tree.size]; omega

theorem size_mem {k : Tree} : ∀ {ks : List Tree}, k ∈ ks → k.size ≤ sizes ks := by
  intro ks
  induction ks with
  | nil => simp
  | cons t ts ih =>
    intro h
    rcases List.mem_cons.mp h with rfl | h
    · simp [sizes]
    · simp only [sizes]; have := ih h; omega

theorem Tree.induct {P : Tree → Prop} (h : ∀ n ks, (∀ k ∈ ks, P k) → P (.node n ks)) : ∀ t, P t := by
  have : ∀ (m : Nat) (t : Tree), t.size ≤ m → P t := by
    intro m
    induction m with
    | zero => intro t ht; have := size_pos t; omega
    | succ m ih =>
      intro t ht
      cases t with
      | node n ks =>
        apply h
        intro k hk
        apply ih
        have := size_mem hk
        simp [Tree.size] at ht
        omega
  exact fun t => this _ t (Nat.le_refl _)

theorem preL_eq (ks : List Tree) : preL ks = ks.flatMap pre := by
  induction ks with
  | nil => rfl
  | cons k ks ih => simp [preL, ih]

theorem postL_eq (ks : List Tree) : postL ks = ks.flatMap post := by
  induction ks with
  | nil => rfl
  | cons k ks ih => simp [postL, ih]

theorem inOrderL_eq (i : Nat) (ks : List Tree) : inOrderL i ks = ks.map (inOrder i) := by
  induction ks with
  | nil => rfl
  | cons k ks ih => simp [inOrderL, ih]

variable {V : Type}

/-! ### the code computes the orders -/

theorem visitPost_eq (f : Nat → Option V) : ∀ t, visitPost f t = (post t).map f := by
  apply Tree.induct
  intro n ks ih
  have hk : visitPostKids f ks = (postL ks).map f := by
    clear n
    induction ks with
    | nil => rfl
    | cons k ks ih' =>
      simp [visitPostKids, postL, ih k (List.mem_cons_self ..),
        ih' (fun k' h => ih k' (List.mem_cons_of_mem _ h))]
  simp [visitPost, post, hk]

theorem visitPostKids_eq (f : Nat → Option V) (ks : List Tree) :
    visitPostKids f ks = (postL ks).map f := by
  induction ks with
  | nil => rfl
  | cons k ks ih => simp [visitPostKids, postL, visitPost_eq, ih]

/-- The child loop once the root index is passed or not applicable. -/
theorem visitAtKids_done (f : Nat → Option V) (i : Int) (n : Nat) (incl : Bool) (ord : Tree → List Nat)
    (ks : List Tree) (h : ∀ k ∈ ks, visitAt f i k = (ord k).map f) :
    ∀ (j : Nat) (doroot : Bool), (i < (j : Int) ∨ incl = false ∨ (ks.length : Int) + j ≤ i) →
      visitAtKids f i n incl ks j doroot
        = (ks.flatMap ord).map f ++ if doroot && incl then [f n] else [] := by
  induction ks with
  | nil => intro j d _; simp [visitAtKids]
  | cons k ks ih =>
    intro j d hi
    have hne : ¬ ((j : Int) = i ∧ incl = true) := by
      rintro ⟨h1, h2⟩
      rcases hi with h | h | h
      · omega
      · simp [h] at h2
      · simp at h; omega
    simp only [visitAtKids]
    rw [if_neg hne, h k (List.mem_cons_self ..), ih (fun k' h' => h k' (List.mem_cons_of_mem _ h')) (j + 1) d (by
      rcases hi with h | h | h
      · left; push_cast; omega
      · right; left; exact h
      · right; right; push_cast at h ⊢; simp at h; omega)]
    simp

theorem visitAtKids_hit (f : Nat → Option V) (i : Nat) (n : Nat) (ord : Tree → List Nat)
    (ks : List Tree) (h : ∀ k ∈ ks, visitAt f i k = (ord k).map f) :
    ∀ j, j ≤ i → i < ks.length + j →
      visitAtKids f i n true ks j true
        = ((ks.map ord).take (i - j)).flatten.map f ++ f n :: ((ks.map ord).drop (i - j)).flatten.map f := by
  induction ks with
  | nil => intro j h1 h2; simp at h2; omega
  | cons k ks ih =>
    intro j h1 h2
    simp only [visitAtKids]
    by_cases hj : j = i
    · subst hj
      rw [if_pos (by simp), h k (List.mem_cons_self ..),
        visitAtKids_done f j n true ord ks (fun k' h' => h k' (List.mem_cons_of_mem _ h')) (j + 1) false
          (Or.inl (by push_cast; omega))]
      simp [List.flatMap]
    · rw [if_neg (by rintro ⟨h', _⟩; exact hj (by exact_mod_cast h')), h k (List.mem_cons_self ..),
        ih (fun k' h' => h k' (List.mem_cons_of_mem _ h')) (j + 1) (by omega) (by simp at h2; omega)]
      have : i - j = (i - (j + 1)) + 1 := by omega
      rw [this]
      simp

theorem visitAt_nat (f : Nat → Option V) (i : Nat) : ∀ t, visitAt f (i : Int) t = (inOrder i t).map f := by
  apply Tree.induct
  intro n ks ih
  unfold visitAt inOrder
  rw [inOrderL_eq]
  by_cases hi : i < ks.length
  · rw [if_pos hi, visitAtKids_hit f i n (inOrder i) ks ih 0 (Nat.zero_le _) (by omega)]
    simp
  · rw [if_neg hi, visitAtKids_done f i n true (inOrder i) ks ih 0 true (Or.inr (Or.inr (by push_cast; omega)))]
    simp [List.flatMap]

theorem visitAt_neg (f : Nat → Option V) (i : Int) (hi : i < 0) : ∀ t, visitAt f i t = (post t).map f := by
  apply Tree.induct
  intro n ks ih
  unfold visitAt post
  rw [postL_eq, visitAtKids_done f i n true post ks ih 0 true (Or.inl (by push_cast; omega))]
  simp

theorem inOrder_zero : ∀ t, inOrder 0 t = pre t := by
  apply Tree.induct
  intro n ks ih
  have hL : (inOrderL 0 ks).flatten = preL ks := by
    rw [inOrderL_eq, preL_eq, List.flatMap]
    congr 1
    exact List.map_congr_left ih
  unfold inOrder pre
  split
  · simp [hL]
  · rename_i h
    have : ks = [] := by
      cases ks with
      | nil => rfl
      | cons a b => simp at h
    subst this
    simp [preL, inOrderL]

/-! ### level order -/

/-- Breadth-first order by its defining equation (fuel: number of nodes). -/
def bfs : Nat → List Tree → List Nat
  | 0, _ => []
  | _ + 1, [] => []
  | m + 1, t :: q => t.id :: bfs m (q ++ t.kids)

theorem size_eq (t : Tree) : t.size = 1 + sizes t.kids := by cases t; simp [Tree.size, Tree.kids]

theorem levelLoop_eq (f : Nat → Option V) : ∀ (m : Nat) (q : List Tree), sizes q ≤ m →
    levelLoop f q = (bfs m q).map f := by
  intro m
  induction m with
  | zero =>
    intro q hq
    cases q with
    | nil => simp [levelLoop, bfs]
    | cons t q => have := size_pos t; simp [sizes] at hq; omega
  | succ m ih =>
    intro q hq
    cases q with
    | nil => simp [levelLoop, bfs]
    | cons t q =>
      have hs := size_eq t
      cases t with
      | node n ks =>
        simp only [levelLoop, bfs, List.map_cons, Tree.id, Tree.kids]
        rw [ih (q ++ ks) (by simp only [sizes_append]; simp only [sizes, Tree.kids] at hq hs; omega)]

theorem bfs_split : ∀ (a b : List Tree) (m : Nat), sizes (a ++ b) ≤ m →
    ∃ m', sizes (b ++ a.flatMap Tree.kids) ≤ m' ∧ bfs m (a ++ b) = a.map Tree.id ++ bfs m' (b ++ a.flatMap Tree.kids) := by
  intro a
  induction a with
  | nil => intro b m hm; exact ⟨m, by simpa using hm, by simp⟩
  | cons t a ih =>
    intro b m hm
    cases m with
    | zero => have := size_pos t; simp [sizes] at hm; omega
    | succ m =>
      have hs := size_eq t
      obtain ⟨m', h1, h2⟩ := ih (b ++ t.kids) m (by
        simp only [sizes_append, List.cons_append, sizes] at hm ⊢; omega)
      refine ⟨m', by simpa [sizes_append, Nat.add_comm, Nat.add_left_comm] using h1, ?_⟩
      simp only [List.cons_append, bfs, List.map_cons, List.append_assoc, h2, List.flatMap_cons]

theorem heightL_eq_zero {ts : List Tree} : heightL ts = 0 ↔ ts = [] := by
  cases ts with
  | nil => simp [heightL]
  | cons t ts => cases t; simp [heightL, height]

theorem height_kids (t : Tree) : height t = 1 + heightL t.kids := by cases t; rfl

theorem heightL_kids : ∀ (ts : List Tree), heightL (ts.flatMap Tree.kids) = heightL ts - 1 := by
  intro ts
  have happ : ∀ a b : List Tree, heightL (a ++ b) = max (heightL a) (heightL b) := by
    intro a b
    induction a with
    | nil => simp [heightL]
    | cons t a ih => simp [heightL, ih, Nat.max_assoc]
  induction ts with
  | nil => rfl
  | cons t ts ih =>
    simp only [List.flatMap_cons, happ, ih, heightL, height_kids]
    omega

theorem flatMap_atDepth_succ (d : Nat) (ts : List Tree) :
    ts.flatMap (atDepth (d + 1)) = (ts.flatMap Tree.kids).flatMap (atDepth d) := by
  rw [List.flatMap_assoc]
  rfl

theorem bfs_levels : ∀ (k : Nat) (ts : List Tree) (m : Nat), heightL ts = k → sizes ts ≤ m →
    bfs m ts = (List.range k).flatMap (fun d => ts.flatMap (atDepth d)) := by
  intro k
  induction k with
  | zero =>
    intro ts m hh _
    rw [heightL_eq_zero] at hh
    subst hh
    cases m <;> simp [bfs]
  | succ k ih =>
    intro ts m hh hm
    obtain ⟨m', h1, h2⟩ := bfs_split ts [] m (by simpa using hm)
    simp only [List.append_nil, List.nil_append] at h1 h2
    rw [h2, ih (ts.flatMap Tree.kids) m' (by rw [heightL_kids]; omega) h1, List.range_succ_eq_map]
    simp only [List.flatMap_cons, List.flatMap_map, flatMap_atDepth_succ]
    congr 1
    exact List.map_eq_flatMap

theorem levelLoop_tree (f : Nat → Option V) (t : Tree) : levelLoop f [t] = (levelOrder t).map f := by
  rw [levelLoop_eq f (sizes [t]) [t] (Nat.le_refl _), bfs_levels (height t) [t] _ (by simp [heightL]) (Nat.le_refl _)]
  simp [levelOrder]

/-! ### each node once -/

theorem post_perm : ∀ t, (post t).Perm (pre t) := by
  apply Tree.induct
  intro n ks ih
  unfold post pre
  rw [postL_eq, preL_eq]
  have : (ks.flatMap post).Perm (ks.flatMap pre) := List.Perm.flatMap_left _ ih
  exact (List.perm_append_singleton _ _).trans (this.cons n)

theorem inOrder_perm (i : Nat) : ∀ t, (inOrder i t).Perm (pre t) := by
  apply Tree.induct
  intro n ks ih
  unfold inOrder pre
  rw [inOrderL_eq, preL_eq]
  have : (ks.map (inOrder i)).flatten.Perm (ks.flatMap pre) := by
    have := List.Perm.flatMap_left ks ih
    simpa [List.flatMap] using this
  split
  · refine (List.perm_middle).trans (List.Perm.cons n ?_)
    rw [← List.flatten_append, List.take_append_drop]
    exact this
  · exact (List.perm_append_singleton _ _).trans (this.cons n)

theorem bfs_perm : ∀ (m : Nat) (q : List Tree), sizes q ≤ m → (bfs m q).Perm (preL q) := by
  intro m
  induction m with
  | zero =>
    intro q hq
    cases q with
    | nil => simp [preL, bfs]
    | cons t q => have := size_pos t; simp [sizes] at hq; omega
  | succ m ih =>
    intro q hq
    cases q with
    | nil => simp [preL, bfs]
    | cons t q =>
      have hs := size_eq t
      cases t with
      | node n ks =>
        simp only [bfs, preL, pre, Tree.id, Tree.kids, List.cons_append]
        refine List.Perm.cons n ((ih (q ++ ks) ?_).trans ?_)
        · simp only [sizes_append]; simp only [sizes, Tree.kids] at hq hs; omega
        · have : preL (q ++ ks) = preL q ++ preL ks := by simp [preL_eq]
          rw [this]
          exact List.perm_append_comm

theorem level_perm (t : Tree) : (levelOrder t).Perm (pre t) := by
  have h1 := bfs_levels (height t) [t] (sizes [t]) (by simp [heightL]) (Nat.le_refl _)
  have h2 := bfs_perm (sizes [t]) [t] (Nat.le_refl _)
  rw [h1] at h2
  simpa [levelOrder, preL] using h2

/-! ### nnodes -/

theorem nnodes_eq : ∀ t, nnodes t = (pre t).length := by
  apply Tree.induct
  intro n ks ih
  have hL : ∀ (acc : Nat), nnodesSum ks acc = acc + (preL ks).length := by
    clear n
    induction ks with
    | nil => intro acc; simp [nnodesSum, preL]
    | cons k ks ih' =>
      intro acc
      simp only [nnodesSum, preL, List.length_append]
      rw [ih' (fun k' h => ih k' (List.mem_cons_of_mem _ h)), ih k (List.mem_cons_self ..)]
      omega
  simp [nnodes, pre, hL]
  omega

/-! ### subtrees are contiguous -/

theorem pre_sub {s t : Tree} (h : Sub s t) : pre s <:+: pre t := by
  induction h with
  | refl => exact List.infix_refl _
  | @kid n ks k hk _ ih =>
    refine ih.trans ?_
    simp only [pre, preL_eq]
    obtain ⟨a, b, rfl⟩ := List.append_of_mem hk
    exact ⟨n :: a.flatMap pre, b.flatMap pre, by simp⟩

theorem post_sub {s t : Tree} (h : Sub s t) : post s <:+: post t := by
  induction h with
  | refl => exact List.infix_refl _
  | @kid n ks k hk _ ih =>
    refine ih.trans ?_
    simp only [post, postL_eq]
    obtain ⟨a, b, rfl⟩ := List.append_of_mem hk
    exact ⟨a.flatMap post, b.flatMap post ++ [n], by simp⟩

/-! ### unfolding the graph -/

/-- `t` shows the graph's links. -/
inductive IsTree (h : Forest) : Tree → Prop
  | mk {n ks} : ks.map Tree.id = h.kids n → (∀ k ∈ ks, IsTree h k) → IsTree h (.node n ks)

theorem mapM_some {α β : Type} (g : α → Option β) : ∀ (l : List α) (r : List β), l.mapM g = some r →
    List.Forall₂ (fun a b => g a = some b) l r := by
  intro l
  induction l with
  | nil => intro r h; simp at h; subst h; exact .nil
  | cons a l ih =>
    intro r h
    rw [List.mapM_cons] at h
    cases hg : g a with
    | none => simp [hg] at h
    | some b =>
      cases hl : l.mapM g with
      | none => simp [hg, hl] at h
      | some bs =>
        simp [hg, hl] at h
        subst h
        exact .cons hg (ih bs hl)

theorem mapM_exists {α β : Type} (g : α → Option β) : ∀ (l : List α), (∀ a ∈ l, ∃ b, g a = some b) →
    ∃ r, l.mapM g = some r := by
  intro l
  induction l with
  | nil => intro _; exact ⟨[], rfl⟩
  | cons a l ih =>
    intro h
    obtain ⟨b, hb⟩ := h a (List.mem_cons_self ..)
    obtain ⟨r, hr⟩ := ih (fun x hx => h x (List.mem_cons_of_mem _ hx))
    exact ⟨b :: r, by simp [List.mapM_cons, hb, hr]⟩

theorem unfold_isTree {h : Forest} : ∀ (fuel n : Nat) (t : Tree), unfold h fuel n = some t →
    t.id = n ∧ IsTree h t := by
  intro fuel
  induction fuel with
  | zero => intro n t ht; simp [unfold] at ht
  | succ fuel ih =>
    intro n t ht
    simp only [unfold, Option.map_eq_some_iff] at ht
    obtain ⟨ks, hks, rfl⟩ := ht
    have hf := mapM_some _ _ _ hks
    clear hks
    have hk1 : ks.map Tree.id = h.kids n := by
      generalize h.kids n = l at hf
      induction hf with
      | nil => rfl
      | cons ha _ ih' => simp [ih', (ih _ _ ha).1]
    refine ⟨rfl, .mk hk1 ?_⟩
    · clear hk1
      intro k hk
      generalize h.kids n = l at hf
      induction hf with
      | nil => simp at hk
      | cons ha _ ih' =>
        rcases List.mem_cons.mp hk with rfl | hk
        · exact (ih _ _ ha).2
        · exact ih' hk

theorem unfold_exists {h : Forest} (hi : Inv h) : ∀ (fuel n : Nat) (l : List Nat), n < h.size → l.Nodup →
    (∀ x ∈ l, x < h.size ∧ Above h x n) → l.length + fuel = h.size + 1 → ∃ t, unfold h fuel n = some t := by
  intro fuel
  induction fuel with
  | zero =>
    intro n l _ hn hl he
    have := nodup_bound hn (fun x hx => (hl x hx).1)
    omega
  | succ fuel ih =>
    intro n l hn hnd hl he
    have : ∃ r, (h.kids n).mapM (unfold h fuel) = some r := by
      apply mapM_exists
      intro c hc
      have hp := (hi.link c n).mp hc
      apply ih c (n :: l) (hi.kid_lt hc) (List.nodup_cons.mpr ⟨?_, hnd⟩) ?_ (by simp; omega)
      · intro hm; exact hi.acyc n (hl n hm).2
      · intro x hx
        rcases List.mem_cons.mp hx with rfl | hx
        · exact ⟨hn, .base hp⟩
        · exact ⟨(hl x hx).1, .step hp (hl x hx).2⟩
    obtain ⟨r, hr⟩ := this
    exact ⟨.node n r, by simp [unfold, hr]⟩

theorem isTree_below {h : Forest} (hi : Inv h) : ∀ t, IsTree h t → ∀ m ∈ pre t, m = t.id ∨ Above h t.id m := by
  apply Tree.induct
  intro n ks ih ht m hm
  cases ht with
  | mk hk hks =>
    simp only [pre, preL_eq, List.mem_cons, List.mem_flatMap] at hm
    rcases hm with rfl | ⟨k, hkm, hmk⟩
    · left; rfl
    · right
      have hp : h.parent k.id = some n := (hi.link _ _).mp (by rw [← hk]; exact List.mem_map.mpr ⟨k, hkm, rfl⟩)
      rcases ih k hkm (hks k hkm) m hmk with rfl | h'
      · exact .base hp
      · exact Above.trans (.base hp) h'

theorem isTree_closed {h : Forest} : ∀ t, IsTree h t → ∀ m ∈ pre t, ∀ c ∈ h.kids m, c ∈ pre t := by
  apply Tree.induct
  intro n ks ih ht m hm c hc
  cases ht with
  | mk hk hks =>
    simp only [pre, preL_eq, List.mem_cons, List.mem_flatMap] at hm ⊢
    right
    rcases hm with rfl | ⟨k, hkm, hmk⟩
    · rw [← hk] at hc
      obtain ⟨k, hk', rfl⟩ := List.mem_map.mp hc
      refine ⟨k, hk', ?_⟩
      cases k; simp [pre, Tree.id]
    · exact ⟨k, hkm, ih k hkm (hks k hkm) m hmk c hc⟩

theorem isTree_mem {h : Forest} (hi : Inv h) {t : Tree} (ht : IsTree h t) (m : Nat) :
    m ∈ pre t ↔ m = t.id ∨ Above h t.id m := by
  refine ⟨isTree_below hi t ht m, ?_⟩
  rintro (rfl | ha)
  · cases t; simp [pre, Tree.id]
  · induction ha with
    | base hp =>
      exact isTree_closed t ht t.id (by cases t; simp [pre, Tree.id]) _ ((hi.link _ _).mpr hp)
    | step hp _ ih => exact isTree_closed t ht _ ih _ ((hi.link _ _).mpr hp)

theorem above_comparable {h : Forest} {a b x : Nat} (ha : Above h a x) (hb : Above h b x) :
    a = b ∨ Above h a b ∨ Above h b a := by
  induction ha with
  | base hp =>
    cases hb with
    | base hp' => rw [hp] at hp'; left; exact Option.some.inj hp'
    | step hp' hb' => rw [hp] at hp'; rw [← Option.some.inj hp'] at hb'; right; right; exact hb'
  | step hp ha' ih =>
    cases hb with
    | base hp' => rw [hp] at hp'; rw [Option.some.inj hp'] at ha'; right; left; exact ha'
    | step hp' hb' => rw [hp] at hp'; rw [← Option.some.inj hp'] at hb'; exact ih hb'

theorem siblings_incomparable {h : Forest} (hi : Inv h) {a b n : Nat} (ha : h.parent a = some n)
    (hb : h.parent b = some n) : ¬ Above h a b := by
  intro hab
  have : a = n ∨ Above h a n := by
    cases hab with
    | base hp => rw [hb] at hp; left; exact (Option.some.inj hp).symm
    | step hp h' => rw [hb] at hp; rw [← Option.some.inj hp] at h'; right; exact h'
  rcases this with rfl | h'
  · exact hi.acyc a (.base ha)
  · exact hi.acyc n (Above.trans (.base ha) h')

theorem isTree_nodup {h : Forest} (hi : Inv h) : ∀ t, IsTree h t → (pre t).Nodup := by
  apply Tree.induct
  intro n ks ih ht
  have hbel := isTree_below hi _ ht
  cases ht with
  | mk hk hks =>
    have hpar : ∀ k ∈ ks, h.parent k.id = some n := fun k hkm =>
      (hi.link _ _).mp (by rw [← hk]; exact List.mem_map.mpr ⟨k, hkm, rfl⟩)
    simp only [pre, preL_eq, List.nodup_cons, List.nodup_flatMap]
    refine ⟨?_, fun k hkm => ih k hkm (hks k hkm), ?_⟩
    · intro hm
      obtain ⟨k, hkm, hmk⟩ := List.mem_flatMap.mp hm
      rcases isTree_below hi k (hks k hkm) n hmk with h' | h'
      · have := hpar k hkm; rw [← h'] at this; exact hi.acyc n (.base this)
      · exact hi.acyc n (Above.trans (.base (hpar k hkm)) h')
    · have hnd : (ks.map Tree.id).Nodup := by rw [hk]; exact hi.nodup n
      rw [List.nodup_iff_pairwise_ne, List.pairwise_map] at hnd
      refine List.Pairwise.imp_of_mem ?_ hnd
      intro a b ham hbm hne
      show (pre a).Disjoint (pre b)
      rw [List.disjoint_iff_ne]
      rintro x hxa y hyb rfl
      have h1 := isTree_below hi a (hks a ham) x hxa
      have h2 := isTree_below hi b (hks b hbm) x hyb
      have ia := siblings_incomparable hi (hpar a ham) (hpar b hbm)
      have ib := siblings_incomparable hi (hpar b hbm) (hpar a ham)
      rcases h1 with h1 | h1 <;> rcases h2 with h2 | h2
      · exact hne (h1.symm.trans h2)
      · rw [h1] at h2; exact ib h2
      · rw [h2] at h1; exact ia h1
      · rcases above_comparable h1 h2 with h3 | h3 | h3
        · exact hne h3
        · exact ia h3
        · exact ib h3

end Verif.Catalog
