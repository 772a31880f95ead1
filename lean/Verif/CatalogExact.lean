import Verif.CatalogProps

/-!
# Exact forms of C16, C46 and C47

What `reorderChildren`, `removeChild` and `idstr` do for *every* argument, so that the inputs on which the
documented behaviour fails are named precisely.
-/

namespace Verif.Catalog

open Verif

/-- The place an index stands for in a sequence of `L` entries: a negative one counts from the end. -/
def place (L : Nat) (i : Int) : Nat := if 0 ≤ i then i.toNat else (L + i).toNat

theorem get_place {l : List Nat} {i : Int} (h1 : -(l.length : Int) ≤ i) (h2 : i < l.length) :
    Py.get? l i = l[place l.length i]? := by
  unfold Py.get? Py.idx place
  by_cases h : 0 ≤ i
  · rw [if_pos h, if_pos h]
    rw [if_pos h2]; rfl
  · rw [if_neg h, if_neg h]
    rw [if_pos (by omega), Int.add_comm]; rfl

theorem get_none {l : List Nat} {i : Int} (h : ¬ (-(l.length : Int) ≤ i ∧ i < l.length)) : Py.get? l i = none := by
  unfold Py.get? Py.idx
  by_cases h0 : 0 ≤ i
  · rw [if_pos h0, if_neg (by omega)]; rfl
  · rw [if_neg h0, if_neg (by omega)]; rfl

theorem fancy_some_iff {l : List Nat} : ∀ {is : List Int}, (∃ cs, fancy l is = some cs) ↔
    ∀ i ∈ is, -(l.length : Int) ≤ i ∧ i < l.length := by
  intro is
  induction is with
  | nil => simp [fancy]
  | cons i is ih =>
    constructor
    · rintro ⟨cs, hc⟩
      unfold fancy at hc
      split at hc
      · rename_i x xs hx hxs
        intro j hj
        rcases List.mem_cons.mp hj with rfl | hj
        · by_contra hb
          rw [get_none hb] at hx
          cases hx
        · exact ih.mp ⟨xs, hxs⟩ j hj
      · cases hc
    · intro hb
      obtain ⟨xs, hxs⟩ := ih.mpr (fun j hj => hb j (List.mem_cons_of_mem _ hj))
      have hi := hb i (List.mem_cons_self ..)
      have hlt : place l.length i < l.length := by unfold place; split <;> omega
      refine ⟨l[place l.length i] :: xs, ?_⟩
      unfold fancy
      rw [get_place hi.1 hi.2, List.getElem?_eq_getElem hlt, hxs]

theorem fancy_place {l : List Nat} : ∀ {is : List Int} {cs : List Nat}, fancy l is = some cs →
    fancy l (is.map (fun i => (place l.length i : Int))) = some cs := by
  intro is
  induction is with
  | nil => intro cs h; exact h
  | cons i is ih =>
    intro cs h
    have hb := fancy_some_iff.mp ⟨cs, h⟩ i (List.mem_cons_self ..)
    unfold fancy at h
    split at h
    · rename_i x xs hx hxs
      rw [List.map_cons]
      unfold fancy
      have hlt : place l.length i < l.length := by unfold place; split <;> omega
      rw [ih hxs, get_place (by omega) (by omega)]
      have : place l.length (place l.length i : Int) = place l.length i := by
        show (if (0:Int) ≤ (place l.length i : Int) then ((place l.length i : Int)).toNat else _) = _
        rw [if_pos (by omega)]; simp
      rw [this, ← get_place hb.1 hb.2, hx]
      exact h
    · cases h

/-- **C16**, exactly.  For every sequence of integers and every node (whose children are distinct, which C11
gives): `reorderChildren(neworder)` is accepted iff it has one index per child, no repeated index, each index in
`[-L, L)`, and `inverseinds` is off.  The new children are then the old ones at those places (negative indices
counted from the end), other nodes keep theirs, and the children are still the same nodes iff no two indices
stand for the same place. When it is not accepted nothing changes (`reorder_error_unchanged`). -/
theorem reorder_exact (h : Forest) (n : Nat) (is : List Int) (inverse : Bool) (hnd : (h.kids n).Nodup) :
    ((reorder h n (.inds is inverse)).2 = .ok () ↔
      is.length = (h.kids n).length ∧ is.Nodup ∧ inverse = false ∧
      ∀ i ∈ is, -((h.kids n).length : Int) ≤ i ∧ i < (h.kids n).length) ∧
    ((reorder h n (.inds is inverse)).2 = .ok () →
      ((reorder h n (.inds is inverse)).1.kids n).map some
        = is.map (fun i => (h.kids n)[place (h.kids n).length i]?) ∧
      (∀ m ≠ n, (reorder h n (.inds is inverse)).1.kids m = h.kids m) ∧
      (reorder h n (.inds is inverse)).1.parent = h.parent ∧
      (((reorder h n (.inds is inverse)).1.kids n).Perm (h.kids n) ↔
        (is.map (place (h.kids n).length)).Nodup)) := by
  constructor
  · constructor
    · intro hok
      obtain ⟨cs, hl, hn, hf, _⟩ := reorder_inds_ok hok
      refine ⟨hl, hn, ?_, fancy_some_iff.mp ⟨cs, hf⟩⟩
      cases inverse with
      | false => rfl
      | true =>
        obtain ⟨e, he⟩ := reorder_inverse_raises h n is
        rw [he] at hok; cases hok
    · rintro ⟨hl, hn, rfl, hb⟩
      obtain ⟨cs, hf⟩ := fancy_some_iff.mpr hb
      simp [reorder, hl, hn, hf]
  · intro hok
    obtain ⟨cs, hl, hn, hf, hr⟩ := reorder_inds_ok hok
    have hpl := fancy_place hf
    have hpos : ∀ i ∈ is.map (fun i => (place (h.kids n).length i : Int)), 0 ≤ i := by
      intro i hi
      obtain ⟨j, _, rfl⟩ := List.mem_map.mp hi
      omega
    have hm := fancy_map hpos hpl
    rw [List.map_map] at hm
    have hm' : cs.map some = is.map (fun i => (h.kids n)[place (h.kids n).length i]?) := by
      rw [hm]; apply List.map_congr_left; intro i _; simp
    have hk : (reorder h n (.inds is inverse)).1.kids n = cs := by rw [hr]; simp [set]
    rw [hk]
    refine ⟨hm', fun m hm => by rw [hr]; simp [set, hm], by rw [hr], fun hp => ?_, fun hq => ?_⟩
    · have h1 : (cs.map some).Nodup := (hp.nodup_iff.mpr hnd).map (Option.some_injective _)
      rw [hm'] at h1
      have h2 : is.map (fun i => (h.kids n)[place (h.kids n).length i]?)
          = (is.map (place (h.kids n).length)).map (fun k => (h.kids n)[k]?) := by rw [List.map_map]; rfl
      rw [h2] at h1
      exact h1.of_map
    · refine fancy_perm hpos (by simpa using hl) ?_ hpl
      have : is.map (fun i => (place (h.kids n).length i : Int))
          = (is.map (place (h.kids n).length)).map (fun k : Nat => (k : Int)) := by rw [List.map_map]; rfl
      rw [this]
      exact hq.map (fun a b hab => by exact_mod_cast hab)

/-- `[-1, 0, 1]` on three children is a rotation; `[-1, 2, 0]` is accepted but doubles one child and loses
another. -/
example : let h := run (fun _ _ => false) empty [.create .catalog none, .create .field (some 0),
      .create .field (some 0), .create .field (some 0)]
    (reorder h 0 (.inds [-1, 0, 1] false)).1.kids 0 = [3, 1, 2] ∧
    (reorder h 0 (.inds [-1, 2, 0] false)).2 = .ok () ∧
    (reorder h 0 (.inds [-1, 2, 0] false)).1.kids 0 = [3, 3, 1] := by decide

/-! ## C46 -/

/-- **C46**, exactly.  `removeChild(node)` does what its documentation says (orphans `node` if it is a child,
refuses without change otherwise) iff: `self` is a Catalog and `node` is a child of it or compares equal to none
of its children; or `self` is not a Catalog and `node` is not a child of it.  (In the remaining cases an
unrelated node is torn from its parent, or an actual child is refused.) -/
theorem removeChild_exact (eqv : Nat → Nat → Bool) (h : Forest) (hr : Reach eqv h) (self node : Nat) :
    RemoveOk eqv h self node ↔
      (h.kind self = .catalog ∧ (node ∈ h.kids self ∨ ∀ c ∈ h.kids self, eqv c node = false)) ∨
      (h.kind self ≠ .catalog ∧ node ∉ h.kids self) := by
  unfold RemoveOk
  by_cases hk : h.kind self = .catalog
  · by_cases hm : node ∈ h.kids self
    · rw [if_pos hm]
      refine ⟨fun _ => Or.inl ⟨hk, Or.inl hm⟩, fun _ => ?_⟩
      have : removeChild eqv h self node = setParent h node none := by
        unfold removeChild
        rw [if_pos ⟨hk, List.any_eq_true.mpr ⟨node, hm, by simp⟩⟩]
      rw [this]
      exact ⟨(setParent_none _ h hr node).1, (setParent_none _ h hr node).2.1⟩
    · rw [if_neg hm]
      constructor
      · intro he
        refine Or.inl ⟨hk, Or.inr fun c hc => ?_⟩
        by_contra hne
        have : removeChild eqv h self node = setParent h node none := by
          unfold removeChild
          rw [if_pos ⟨hk, List.any_eq_true.mpr ⟨c, hc, by simp [hne]⟩⟩]
        rw [this] at he
        have := (setParent_none _ h hr node).1
        rw [he] at this
        cases this
      · rintro (⟨_, h1 | h1⟩ | ⟨h1, _⟩)
        · exact absurd h1 hm
        · unfold removeChild
          rw [if_neg]
          rintro ⟨_, h2⟩
          rw [List.any_eq_true] at h2
          obtain ⟨c, hc, h2⟩ := h2
          rw [h1 c hc, Bool.or_false, beq_iff_eq] at h2
          exact hm (h2 ▸ hc)
        · exact absurd hk h1
  · have hf : removeChild eqv h self node = (h, .error .valueError) := by
      unfold removeChild
      rw [if_neg (fun h' => hk h'.1)]
    by_cases hm : node ∈ h.kids self
    · rw [if_pos hm, hf]
      constructor
      · rintro ⟨h1, _⟩; cases h1
      · rintro (⟨h1, _⟩ | ⟨_, h1⟩)
        · exact absurd h1 hk
        · exact absurd hm h1
    · rw [if_neg hm]
      exact ⟨fun _ => Or.inr ⟨hk, hm⟩, fun _ => hf⟩

/-- Both sides of the equivalence occur in reachable states, with a comparison that identifies 2 and 3. -/
example : let eqv := fun a b => (a == 2 && b == 3) || (a == 3 && b == 2)
    let h := run eqv empty [.create .catalog none, .create .catalog none, .create .field (some 0),
      .create .field (some 1)]
    (h.kind 0 = .catalog ∧ 2 ∈ h.kids 0) ∧ ¬ (3 ∈ h.kids 0 ∨ ∀ c ∈ h.kids 0, eqv c 3 = false) := by decide

/-! ## C47 -/

theorem Steps.det {h : Forest} {n r r' d d' : Nat} (h1 : Steps h r n d) : Steps h r' n d' → r = r' ∧ d = d' := by
  induction h1 generalizing d' with
  | root hp =>
    intro h2
    cases h2 with
    | root _ => exact ⟨rfl, rfl⟩
    | up hp' _ => rw [hp] at hp'; cases hp'
  | up hp _ ih =>
    intro h2
    cases h2 with
    | root hp' => rw [hp] at hp'; cases hp'
    | up hp' h3 =>
      rw [hp] at hp'
      cases hp'
      obtain ⟨h4, h5⟩ := ih h3
      exact ⟨h4, by rw [h5]⟩

/-- **C47**, exactly: two existing nodes have the same `idstr` iff they are the same node, or both have parents
and they have the same root, the same depth below it, and the same position among their parent's children. -/
theorem idstr_eq_iff (eqv : Nat → Nat → Bool) (h : Forest) (hr : Reach eqv h) (a b : Nat) (ha : a < h.size)
    (hb : b < h.size) :
    idstr h a = idstr h b ↔ a = b ∨ ∃ p q r d i : Nat, h.parent a = some p ∧ h.parent b = some q ∧ Steps h r a d ∧
      Steps h r b d ∧ (h.kids p)[i]? = some a ∧ (h.kids q)[i]? = some b := by
  have hi := hr.inv
  have hpos : ∀ {p : Nat} {i j : Nat} {x : Nat}, (h.kids p)[i]? = some x → (h.kids p)[j]? = some x → i = j := by
    intro p i j x h1 h2
    obtain ⟨l1, e1⟩ := List.getElem?_eq_some_iff.mp h1
    obtain ⟨l2, e2⟩ := List.getElem?_eq_some_iff.mp h2
    exact (List.Nodup.getElem_inj_iff (hi.nodup p)).mp (e1.trans e2.symm)
  constructor
  · intro heq
    rcases idstr_describes eqv h hr a ha with ⟨_, h1⟩ | ⟨p, d, i, r, hp, h1, hs, hg⟩
    · rcases idstr_describes eqv h hr b hb with ⟨_, h2⟩ | ⟨q, d', i', r', hq, h2, hs', hg'⟩
      · rw [h1, h2] at heq
        left; simpa using heq
      · rw [h1, h2] at heq; simp at heq
    · rcases idstr_describes eqv h hr b hb with ⟨_, h2⟩ | ⟨q, d', i', r', hq, h2, hs', hg'⟩
      · rw [h1, h2] at heq; simp at heq
      · rw [h1, h2] at heq
        simp only [Option.some.injEq, IdStr.sub.injEq] at heq
        obtain ⟨rfl, rfl, rfl⟩ := heq
        exact Or.inr ⟨p, q, r, d, i, hp, hq, hs, hs', hg, hg'⟩
  · rintro (rfl | ⟨p, q, r, d, i, hp, hq, hs, hs', hg, hg'⟩)
    · rfl
    · rcases idstr_describes eqv h hr a ha with ⟨h0, _⟩ | ⟨p1, d1, i1, r1, hp1, h1, hs1, hg1⟩
      · rw [h0] at hp; cases hp
      rcases idstr_describes eqv h hr b hb with ⟨h0, _⟩ | ⟨q1, d2, i2, r2, hq1, h2, hs2, hg2⟩
      · rw [h0] at hq; cases hq
      rw [hp] at hp1; cases hp1
      rw [hq] at hq1; cases hq1
      obtain ⟨rfl, rfl⟩ := hs.det hs1
      obtain ⟨rfl, rfl⟩ := hs'.det hs2
      rw [h1, h2, hpos hg1 hg, hpos hg2 hg']

end Verif.Catalog
