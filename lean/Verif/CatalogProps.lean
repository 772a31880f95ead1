import Verif.CatalogLemmas

/-!
# Property theorems for the catalog node graph (C11, C12, C16, C45-C47)

`Above h a n` (specification, in `CatalogSpec`): `a` is reached from `n` by following `parent` at least once.
-/

namespace Verif.Catalog

open Verif

/-- **C11**: after any history of calls (with `Op.Safe`: child orders given by non-negative indices, sorts
that are permutations), a node is listed among the children of exactly its parent and exactly once there, no
node is its own ancestor, and `ActionNode`s have no children. -/
theorem forest_links_consistent (eqv : Nat → Nat → Bool) (ops : List Op) (hs : ∀ op ∈ ops, op.Safe) :
    (∀ p n, ((run eqv empty ops).kids p).count n = if (run eqv empty ops).parent n = some p then 1 else 0) ∧
    (∀ n, ¬ Above (run eqv empty ops) n n) ∧
    (∀ n, (run eqv empty ops).kind n = .action → (run eqv empty ops).kids n = []) := by
  have h := inv_run eqv ops empty inv_empty hs
  refine ⟨fun p n => ?_, h.acyc, h.act⟩
  have hl := h.link n p
  have hn := h.nodup p
  by_cases hp : (run eqv empty ops).parent n = some p
  · rw [if_pos hp]
    exact List.count_eq_one_of_mem hn (hl.mpr hp)
  · rw [if_neg hp]
    exact List.count_eq_zero.mpr (fun hm => hp (hl.mp hm))

/-- Four nodes built, moved, a cycle refused: node 0 has children 2, 1; node 3 is under 1. -/
example : let h := run (fun _ _ => false) empty [.create .catalog none, .create .field (some 0),
      .create .field (some 0), .create .action (some 1), .setParent 1 (some 0), .setParent 0 (some 1),
      .setParent 1 (some 3), .removeChild 0 3, .reorder 0 .reverse]
    (h.kids 0, h.kids 1, h.parent 3, h.size) = ([1, 2], [3], some 1, 4) := by decide

/-- The history restriction of C11 is needed: `reorderChildren([-1,1])` makes node 2 a child twice and node 1
no child at all, although node 0 is its parent. -/
theorem reorder_negative_breaks_links :
    let h := run (fun _ _ => false) empty [.create .catalog none, .create .field (some 0),
      .create .field (some 0), .reorder 0 (.inds [-1, 1] false)]
    h.kids 0 = [2, 2] ∧ h.parent 1 = some 0 := by decide

/-- A reachable state. -/
def Reach (eqv : Nat → Nat → Bool) (h : Forest) : Prop :=
  ∃ ops : List Op, (∀ op ∈ ops, op.Safe) ∧ h = run eqv empty ops

theorem Reach.inv {eqv : Nat → Nat → Bool} {h : Forest} (hr : Reach eqv h) : Inv h := by
  obtain ⟨ops, hs, rfl⟩ := hr
  exact inv_run eqv ops empty inv_empty hs

/-- **C12**, rejection: in every reachable state, `n.parent = v` raises CycleError exactly when `v` is `n` or a
descendant of `n`, and then nothing changes. -/
theorem setParent_cycle_iff (eqv : Nat → Nat → Bool) (h : Forest) (hr : Reach eqv h) (n v : Nat)
    (hn : n < h.size) (hv : v < h.size) :
    ((setParent h n (some v)).2 = .error .cycleError ↔ (v = n ∨ Above h n v)) ∧
    ((v = n ∨ Above h n v) → (setParent h n (some v)).1 = h) := by
  have hi := hr.inv
  by_cases hc : v = n ∨ Above h n v
  · have hcc := cycleCheck_err hi hv hc
    have : setParent h n (some v) = (h, .error .cycleError) := by simp [setParent, hcc]
    simp [this, hc]
  · refine ⟨⟨fun he => ?_, fun h' => absurd h' hc⟩, fun h' => absurd h' hc⟩
    have hcc := cycleCheck_ok hi hv hc
    by_cases ha : h.kind v = .action
    · simp [setParent, hcc, ha] at he
    · rw [setParent_ok hi hn hv ha hc] at he; simp at he

/-- **C12**, success: otherwise (and if `v` can have children) the assignment succeeds: `n` becomes the last
child of `v`, disappears from everywhere else, and all other links and orders are unchanged. -/
theorem setParent_moves (eqv : Nat → Nat → Bool) (h : Forest) (hr : Reach eqv h) (n v : Nat)
    (hn : n < h.size) (hv : v < h.size) (ha : h.kind v ≠ .action) (hc : ¬ (v = n ∨ Above h n v)) :
    (setParent h n (some v)).2 = .ok () ∧
    (∀ m, (setParent h n (some v)).1.parent m = if m = n then some v else h.parent m) ∧
    (∀ m, (setParent h n (some v)).1.kids m
      = (h.kids m).filter (· ≠ n) ++ if m = v then [n] else []) := by
  rw [setParent_ok hr.inv hn hv ha hc]
  exact ⟨rfl, fun _ => rfl, fun _ => rfl⟩

/-- **C12** for `n.parent = None`. -/
theorem setParent_none (eqv : Nat → Nat → Bool) (h : Forest) (hr : Reach eqv h) (n : Nat) :
    (setParent h n none).2 = .ok () ∧
    (∀ m, (setParent h n none).1.parent m = if m = n then none else h.parent m) ∧
    (∀ m, (setParent h n none).1.kids m = (h.kids m).filter (· ≠ n)) := by
  rw [setParent_none_ok hr.inv]
  exact ⟨rfl, fun _ => rfl, fun _ => rfl⟩

/-- Assigning an `ActionNode` as parent is refused and changes nothing. -/
theorem setParent_action (eqv : Nat → Nat → Bool) (h : Forest) (hr : Reach eqv h) (n v : Nat)
    (hv : v < h.size) (ha : h.kind v = .action) (hc : ¬ (v = n ∨ Above h n v)) :
    setParent h n (some v) = (h, .error .attributeError) := by
  have hcc := cycleCheck_ok hr.inv hv hc
  simp [setParent, hcc, ha]

/-- **C12** for `self.addChild(node)`: a node that is not a `FieldNode` is refused with ValueError, and a
`FieldNode` that would close a cycle with CycleError, both without any change; otherwise `node` becomes the
last child of `self` and leaves its old parent. -/
theorem addChild_spec (eqv : Nat → Nat → Bool) (h : Forest) (hr : Reach eqv h) (self node : Nat)
    (hn : node < h.size) (hv : self < h.size) (ha : h.kind self ≠ .action) :
    (h.kind node ≠ .field → addChild h self node = (h, .error .valueError)) ∧
    (h.kind node = .field → (self = node ∨ Above h node self) →
      addChild h self node = (h, .error .cycleError)) ∧
    (h.kind node = .field → ¬ (self = node ∨ Above h node self) →
      (addChild h self node).2 = .ok () ∧
      (∀ m, (addChild h self node).1.parent m = if m = node then some self else h.parent m) ∧
      (∀ m, (addChild h self node).1.kids m
        = (h.kids m).filter (· ≠ node) ++ if m = self then [node] else [])) := by
  refine ⟨fun hk => by simp [addChild, hk], fun hk hc => ?_, fun hk hc => ?_⟩
  · have h1 := setParent_cycle_iff eqv h hr node self hn hv
    have : addChild h self node = setParent h node (some self) := by simp [addChild, hk]
    rw [this, Prod.ext_iff]
    exact ⟨h1.2 hc, h1.1.mpr hc⟩
  · have : addChild h self node = setParent h node (some self) := by simp [addChild, hk]
    rw [this]
    exact setParent_moves eqv h hr node self hn hv ha hc

/-- A reachable state with a two-level tree for the theorems above. -/
example : Reach (fun _ _ => false) (run (fun _ _ => false) empty
    [.create .catalog none, .create .field (some 0), .create .field (some 1)]) :=
  ⟨_, by intro op h; fin_cases h <;> trivial, rfl⟩
example : Above (run (fun _ _ => false) empty
    [.create .catalog none, .create .field (some 0), .create .field (some 1)]) 0 2 :=
  .step (m := 1) (by decide) (.base (by decide))

/-! ## C16 -/

/-- **C16**, refusals: whenever `reorderChildren` raises, nothing changes. -/
theorem reorder_error_unchanged (h : Forest) (n : Nat) (o : Order) (e : Exc)
    (he : (reorder h n o).2 = .error e) : (reorder h n o).1 = h := by
  cases o with
  | reverse => simp [reorder] at he
  | sort f => simp [reorder] at he
  | inds is inv =>
    unfold reorder at he ⊢
    dsimp only at he ⊢
    split
    · rfl
    · split
      · rfl
      · split
        · rfl
        · split
          · rfl
          · rename_i h1 h2 h3 _ cs hcs
            simp [h1, h2, h3, hcs] at he

/-- **C16**, success, for non-negative indices: the new children are `[old[i] for i in neworder]`, which is a
permutation of the old ones; other nodes are untouched.
Missing: negative indices, for which it is false (`reorder_negative_breaks_links`). -/
theorem reorder_permutes (h : Forest) (n : Nat) (is : List Int) (hpos : ∀ i ∈ is, 0 ≤ i) (inv : Bool)
    (hok : (reorder h n (.inds is inv)).2 = .ok ()) :
    ((reorder h n (.inds is inv)).1.kids n).map some = is.map (fun i => (h.kids n)[i.toNat]?) ∧
    ((reorder h n (.inds is inv)).1.kids n).Perm (h.kids n) ∧
    ∀ m ≠ n, (reorder h n (.inds is inv)).1.kids m = h.kids m := by
  obtain ⟨cs, hl, hn, hf, hr⟩ := reorder_inds_ok hok
  rw [hr]
  refine ⟨?_, ?_, fun m hm => by simp [set, hm]⟩
  · simpa [set] using fancy_map hpos hf
  · simpa [set] using fancy_perm hpos hl hn hf

/-- **C16** for `'reverse'`: reversing twice is the identity. -/
theorem reorder_reverse_twice (h : Forest) (n : Nat) :
    (reorder (reorder h n .reverse).1 n .reverse).1 = h := by
  obtain ⟨s, k, p, kids⟩ := h
  simp only [reorder, Forest.mk.injEq, true_and]
  funext m
  by_cases hm : m = n <;> simp [set, hm]

example : ((reorder (run (fun _ _ => false) empty [.create .catalog none, .create .field (some 0),
    .create .field (some 0), .create .field (some 0)]) 0 (.inds [2, 0, 1] false)).1.kids 0,
    (reorder (run (fun _ _ => false) empty [.create .catalog none, .create .field (some 0),
    .create .field (some 0), .create .field (some 0)]) 0 (.inds [2, 0, 1] false)).2) = ([3, 1, 2], .ok ()) := by
  decide

/-- `inverseinds=True` never works: it raises NameError even for a valid order (`argsort` is undefined). -/
theorem reorder_inverse_raises (h : Forest) (n : Nat) (is : List Int) :
    ∃ e, (reorder h n (.inds is true)).2 = .error e := by
  unfold reorder
  dsimp only
  split
  · exact ⟨_, rfl⟩
  · split
    · exact ⟨_, rfl⟩
    · exact ⟨_, rfl⟩

/-! ## C45: mergeNode -/

/-- **C45**: in a reachable state, if the catalog `self` is not below (or equal to) any child that is to be
moved, `mergeNode` moves exactly the children of `node` that pass the tests, in order, to the end of `self`'s
children, and returns their number; all other links are unchanged. -/
theorem mergeNode_moves (eqv : Nat → Nat → Bool) (h : Forest) (hr : Reach eqv h) (take : Nat → Bool)
    (self node : Nat) (hs : self < h.size) (ha : h.kind self ≠ .action)
    (hc : ∀ c ∈ h.kids node, take c = true → self ≠ c ∧ ¬ Above h c self) :
    (mergeNode take h self node).2 = .ok ((h.kids node).filter take).length ∧
    (∀ m, (mergeNode take h self node).1.parent m
      = if m ∈ (h.kids node).filter take then some self else h.parent m) ∧
    (∀ m, (mergeNode take h self node).1.kids m
      = (h.kids m).filter (· ∉ (h.kids node).filter take) ++
        if m = self then (h.kids node).filter take else []) := by
  have hi := hr.inv
  have := mergeLoop_ok take self (h.kids node) h 0 hi hs ha (hi.nodup node)
    (fun c hc' => hi.kid_lt hc') hc
  simpa [mergeNode] using this

example : let h := run (fun _ _ => false) empty [.create .catalog none, .create .catalog none,
      .create .field (some 1), .create .field (some 1), .create .field (some 1), .create .field (some 0)]
    (mergeNode (· ≠ 3) h 0 1).2 = .ok 2 ∧ (mergeNode (· ≠ 3) h 0 1).1.kids 0 = [5, 2, 4] ∧
    (mergeNode (· ≠ 3) h 0 1).1.kids 1 = [3] := by decide

/-- Without the hypothesis the merge stops half way: moving the children 1, 2, 3 of node 0 into the catalog 2
moves child 1 and then raises CycleError. -/
theorem mergeNode_partial_failure :
    let h := run (fun _ _ => false) empty [.create .catalog none, .create .field (some 0),
      .create .catalog (some 0), .create .field (some 0)]
    (mergeNode (fun _ => true) h 2 0).2 = .error .cycleError ∧ (mergeNode (fun _ => true) h 2 0).1.kids 0 = [2, 3] ∧
    (mergeNode (fun _ => true) h 2 0).1.kids 2 = [1] := by decide

/-! ## C46: removeChild -/

/-- The full claim C46: `removeChild(node)` orphans `node` exactly when it is a child of `self`, and raises
ValueError without any change otherwise. -/
def RemoveOk (eqv : Nat → Nat → Bool) (h : Forest) (self node : Nat) : Prop :=
  if node ∈ h.kids self then (removeChild eqv h self node).2 = .ok () ∧
    ∀ m, (removeChild eqv h self node).1.parent m = if m = node then none else h.parent m
  else removeChild eqv h self node = (h, .error .valueError)

/-- **C46** for Catalogs, as long as no two distinct nodes compare equal.
Missing: nodes with equal field values, and `FieldNode`s as parents, for which it is false (below). -/
theorem removeChild_own (h : Forest) (hr : Reach (fun _ _ => false) h) (self node : Nat)
    (hk : h.kind self = .catalog) : RemoveOk (fun _ _ => false) h self node := by
  unfold RemoveOk
  have hany : (h.kids self).any (fun c => c == node || false) = decide (node ∈ h.kids self) := by
    simp only [Bool.or_false]
    by_cases hm : node ∈ h.kids self
    · simp only [hm, decide_true, List.any_eq_true, beq_iff_eq]
      exact ⟨node, hm, rfl⟩
    · simp only [hm, decide_false, List.any_eq_false, beq_iff_eq]
      rintro x hx rfl
      exact hm hx
  split
  · rename_i hm
    have : removeChild (fun _ _ => false) h self node = setParent h node none := by
      unfold removeChild
      rw [if_pos ⟨hk, by rw [hany]; simpa using hm⟩]
    rw [this]
    exact ⟨(setParent_none _ h hr node).1, (setParent_none _ h hr node).2.1⟩
  · rename_i hm
    unfold removeChild
    rw [if_neg]
    rintro ⟨_, h2⟩
    rw [hany] at h2
    exact hm (by simpa using h2)

/-- A node that is no child of catalog 0 but has the same field values as one is torn from its own parent. -/
theorem removeChild_wrong_node :
    let eqv := fun a b => (a == 2 && b == 3) || (a == 3 && b == 2)
    let h := run eqv empty [.create .catalog none, .create .catalog none, .create .field (some 0),
      .create .field (some 1)]
    3 ∉ h.kids 0 ∧ (removeChild eqv h 0 3).2 = .ok () ∧ h.parent 3 = some 1 ∧
    (removeChild eqv h 0 3).1.parent 3 = none := by decide

/-- On a `FieldNode`, `removeChild` always fails, also for its actual children. -/
theorem removeChild_field_raises (eqv : Nat → Nat → Bool) (h : Forest) (self node : Nat)
    (hk : h.kind self = .field) : removeChild eqv h self node = (h, .error .valueError) := by
  unfold removeChild
  rw [if_neg (by simp [hk])]

/-! ## C47: idstr -/

/-- `idstr` does not identify a node in its hierarchy: two cousins with the same position have the same string. -/
theorem idstr_not_unique :
    let h := run (fun _ _ => false) empty [.create .catalog none, .create .catalog (some 0),
      .create .catalog (some 0), .create .field (some 1), .create .field (some 2)]
    idstr h 3 = idstr h 4 ∧ idstr h 3 = some (.sub 2 0 0) := by decide

/-- **C47**, the part that holds: the children of one node have different `idstr`s. -/
theorem idstr_siblings (eqv : Nat → Nat → Bool) (h : Forest) (hr : Reach eqv h) (a b p : Nat)
    (ha : h.parent a = some p) (hb : h.parent b = some p) (hne : a ≠ b) : idstr h a ≠ idstr h b := by
  have hi := hr.inv
  have hta := rootDepth_isSome hi (hi.child_lt ha)
  have htb := rootDepth_isSome hi (hi.child_lt hb)
  obtain ⟨⟨d1, r1⟩, h1⟩ := Option.isSome_iff_exists.mp hta
  obtain ⟨⟨d2, r2⟩, h2⟩ := Option.isSome_iff_exists.mp htb
  simp only [idstr, ha, hb, h1, h2, Option.map_some, ne_eq, Option.some.injEq, IdStr.sub.injEq, not_and]
  intro _ hidx
  exfalso
  have ma := (hi.link a p).mpr ha
  have mb := (hi.link b p).mpr hb
  have e1 := findIdx_get ma
  have e2 := findIdx_get mb
  rw [hidx, e2] at e1
  exact hne (Option.some.inj e1).symm

/-- Number of steps from `n` up to its root `r`. -/
inductive Steps (h : Forest) (r : Nat) : Nat → Nat → Prop
  | root : h.parent r = none → Steps h r r 0
  | up {n p d} : h.parent n = some p → Steps h r p d → Steps h r n (d + 1)

theorem rootDepth_steps {h : Forest} : ∀ (fuel n d r : Nat), rootDepth h fuel n = some (d, r) → Steps h r n d := by
  intro fuel
  induction fuel with
  | zero => intro n d r hd; simp [rootDepth] at hd
  | succ f ih =>
    intro n d r hd
    unfold rootDepth at hd
    cases hp : h.parent n with
    | none =>
      rw [hp] at hd
      simp only [Option.some.injEq, Prod.mk.injEq] at hd
      obtain ⟨rfl, rfl⟩ := hd
      exact .root hp
    | some p =>
      rw [hp] at hd
      simp only [Option.map_eq_some_iff, Prod.mk.injEq] at hd
      obtain ⟨⟨d', r'⟩, h1, h2, h3⟩ := hd
      dsimp only at h2 h3
      subst h2 h3
      exact .up hp (ih _ _ _ h1)

/-- **C47**, what the string says: for every node of a reachable state, `idstr` is the root form exactly for
roots, and otherwise names the number of steps up to the root, the position among the parent's children, and
the root. -/
theorem idstr_describes (eqv : Nat → Nat → Bool) (h : Forest) (hr : Reach eqv h) (n : Nat) (hn : n < h.size) :
    (h.parent n = none ∧ idstr h n = some (.root n)) ∨
    ∃ p d i r, h.parent n = some p ∧ idstr h n = some (.sub d i r) ∧ Steps h r n d ∧ (h.kids p)[i]? = some n := by
  have hi := hr.inv
  cases hp : h.parent n with
  | none => left; simp [idstr, hp]
  | some p =>
    right
    obtain ⟨⟨d, r⟩, h1⟩ := Option.isSome_iff_exists.mp (rootDepth_isSome hi hn)
    refine ⟨p, d, _, r, rfl, by simp [idstr, hp, h1], rootDepth_steps _ _ _ _ h1,
      findIdx_get ((hi.link n p).mpr hp)⟩

end Verif.Catalog
