import Verif.CatalogProps

/-!
# Putting a catalog in the place of a node (astropysics/objcat.py 2597-2612) (C224)

`Catalog.insertInto`, on the node graph of `Verif.Catalog`.
-/

namespace Verif.InsertInto

open Verif Verif.Catalog

/-- `insertInto(insertnode)` (objcat.py:2608-2613).  `index` is a method of `FieldNode`s only (from `Sequence`: the position of a *field* whose
value is the given one), neither of `Catalog` nor of `None`; `idx` is its result for a field node. -/
def insertInto (idx : Nat → Nat → Option Nat) (h : Forest) (self node : Nat) : Forest × Except Exc Unit :=
  match h.parent node with
  | none => (h, .error .attributeError)
  | some np =>
    if h.kind np ≠ .field then (h, .error .attributeError)
    else match idx np node with
      | none => (h, .error .valueError)
      | some ind =>
        match setParent h node (some self) with
        | (h1, .error e) => (h1, .error e)
        | (h1, .ok _) =>
          match setParent h1 self (some np) with
          | (h2, .error e) => (h2, .error e)
          | (h2, .ok _) =>
            match (h2.kids np).getLast? with
            | none => (h2, .error .indexError)
            | some x =>
              let rest := (h2.kids np).dropLast
              ({ h2 with kids := Catalog.set h2.kids np (rest.take ind ++ x :: rest.drop ind) }, .ok ())

/-- **C224.** `insertInto` never succeeds where it is meant to be used: with a node that has no parent, or whose parent is a `Catalog`, it raises
`AttributeError` and changes nothing. -/
theorem never_into_catalog (idx : Nat → Nat → Option Nat) (h : Forest) (self node : Nat)
    (hp : ∀ np, h.parent node = some np → h.kind np = .catalog) :
    insertInto idx h self node = (h, .error .attributeError) := by
  unfold insertInto
  cases hq : h.parent node with
  | none => rfl
  | some np => simp [hp np hq]

/-- **C224.** Below a field node it raises `ValueError` and changes nothing, unless a field of the parent has the node for its value. -/
theorem field_parent (idx : Nat → Nat → Option Nat) (h : Forest) (self node np : Nat) (hp : h.parent node = some np)
    (hk : h.kind np = .field) (hi : idx np node = none) : insertInto idx h self node = (h, .error .valueError) := by
  simp [insertInto, hp, hk, hi]

/-- **C224.** And if one has — then, for catalogs that are not above the node's parent, the catalog takes the place of that *field's* number among the parent's children,
the node becomes its last child, and the other children keep their order. -/
theorem with_link (eqv : Nat → Nat → Bool) (idx : Nat → Nat → Option Nat) (h : Forest) (hr : Reach eqv h) (self node np ind : Nat)
    (hs : self < h.size) (hn : node < h.size) (hsk : h.kind self = .catalog) (hp : h.parent node = some np)
    (hk : h.kind np = .field) (hi : idx np node = some ind)
    (hne : self ≠ node) (h1 : ¬ Above h node self) (hnp : self ≠ np) (h2 : ¬ Above h self np) :
    ∃ h', insertInto idx h self node = (h', .ok ()) ∧ h'.parent node = some self ∧ h'.parent self = some np ∧
      h'.kids self = (h.kids self).filter (· ≠ node) ++ [node] ∧
      h'.kids np = (((h.kids np).filter (· ≠ node)).filter (· ≠ self)).take ind ++ self ::
        (((h.kids np).filter (· ≠ node)).filter (· ≠ self)).drop ind := by
  have hi' := hr.inv
  have hnps : np < h.size := hi'.pbound node np hp
  have hc1 : ¬ (self = node ∨ Above h node self) := by rintro (e | e); exacts [hne e, h1 e]
  have e1 := setParent_ok hi' hn hs (by rw [hsk]; decide) hc1
  have hi1 := inv_set_some hi' hn hs (by rw [hsk]; decide) hc1
  generalize hh : ({ h with parent := Catalog.set h.parent node (some self)
                            kids := fun m => (h.kids m).filter (· ≠ node) ++ if m = self then [node] else [] } : Forest) = g at e1 hi1
  have gp : g.parent = Catalog.set h.parent node (some self) := by rw [← hh]
  have gk : g.kids = fun m => (h.kids m).filter (· ≠ node) ++ if m = self then [node] else [] := by rw [← hh]
  have gs : g.size = h.size := by rw [← hh]
  have gkind : g.kind = h.kind := by rw [← hh]
  have hc2 : ¬ (np = self ∨ Above g self np) := by
    rintro (e | e)
    · exact hnp e.symm
    · rw [← hh] at e
      rcases above_set_some e with e | ⟨e, _⟩
      · exact h2 e
      · rcases e with e | e
        · subst e; exact hi'.acyc _ (.base hp)
        · exact hi'.acyc node (.step hp e)
  have e2 := setParent_ok hi1 (n := self) (v := np) (by rw [gs]; exact hs) (by rw [gs]; exact hnps) (by rw [gkind, hk]; decide) hc2
  have hnp' : np ≠ self := fun e => hnp e.symm
  have hkn : (g.kids np).filter (· ≠ self) = ((h.kids np).filter (· ≠ node)).filter (· ≠ self) := by
    rw [gk]; simp [hnp']
  refine ⟨_, by
    unfold insertInto
    simp only [hp, hk, ne_eq, not_true_eq_false, if_false, hi, e1, e2, if_true, List.getLast?_concat, List.dropLast_concat]
    rfl, ?_, ?_, ?_, ?_⟩
  · simp [gp, Catalog.set, hne.symm]
  · simp [Catalog.set]
  · have : self ∉ h.kids self := fun hm => hi'.acyc self (.base ((hi'.link self self).1 hm))
    have hself : ((h.kids self).filter (· ≠ node)).filter (· ≠ self) = (h.kids self).filter (· ≠ node) :=
      filter_ne_self fun hm => this (List.mem_filter.1 hm).1
    simp only [ne_eq, decide_not] at hself
    simp [Catalog.set, hnp, gk, hself, hne.symm]
  · simp only [Catalog.set, if_true]
    rw [← hkn]

/-- **C224.** If the catalog is above the node's parent, the call stops with `CycleError` half way: the node has already been moved into the catalog. -/
theorem half_way (eqv : Nat → Nat → Bool) (idx : Nat → Nat → Option Nat) (h : Forest) (hr : Reach eqv h) (self node np ind : Nat)
    (hs : self < h.size) (hn : node < h.size) (hsk : h.kind self = .catalog) (hp : h.parent node = some np)
    (hk : h.kind np = .field) (hi : idx np node = some ind) (h2 : Above h self np) :
    (insertInto idx h self node).2 = .error .cycleError ∧ (insertInto idx h self node).1.parent node = some self := by
  have hi' := hr.inv
  have hnps : np < h.size := hi'.pbound node np hp
  have hab : Above h self node := .step hp h2
  have hc1 : ¬ (self = node ∨ Above h node self) := by
    rintro (e | e)
    · subst e; exact hi'.acyc _ hab
    · exact hi'.acyc _ (Above.trans e hab)
  have e1 := setParent_ok hi' hn hs (by rw [hsk]; decide) hc1
  have hi1 := inv_set_some hi' hn hs (by rw [hsk]; decide) hc1
  generalize hh : ({ h with parent := Catalog.set h.parent node (some self)
                            kids := fun m => (h.kids m).filter (· ≠ node) ++ if m = self then [node] else [] } : Forest) = g at e1 hi1
  have gp : g.parent = Catalog.set h.parent node (some self) := by rw [← hh]
  have gs : g.size = h.size := by rw [← hh]
  have keep : ∀ b, Above h self b → b ≠ node → ¬ Above h node b → Above g self b := by
    intro b hb
    induction hb with
    | @base b e => intro hbn _; exact .base (by rw [gp]; simp [Catalog.set, hbn, e])
    | @step b m e _ ih =>
      intro hbn hna
      refine .step (by rw [gp]; simp [Catalog.set, hbn]; exact e) (ih ?_ ?_)
      · rintro rfl; exact hna (.base e)
      · intro hm; exact hna (.step e hm)
  have hg : Above g self np := by
    apply keep np h2
    · rintro rfl; exact hi'.acyc _ (.base hp)
    · intro e; exact hi'.acyc node (.step hp e)
  have hcc := cycleCheck_err hi1 (src := self) (v := np) (by rw [gs]; exact hnps) (Or.inr hg)
  have e2 : setParent g self (some np) = (g, .error .cycleError) := by simp [setParent, hcc]
  have hval : insertInto idx h self node = (g, .error .cycleError) := by
    simp [insertInto, hp, hk, hi, e1, e2]
  rw [hval]
  exact ⟨rfl, by simp [gp, Catalog.set]⟩

/-! ## Concrete cases -/

/-- A catalog with a catalog and a field node in it: the usual call fails. -/
example : let h := run (fun _ _ => false) empty [.create .catalog none, .create .catalog none, .create .field (some 0)]
    (insertInto (fun _ _ => none) h 1 2).2 = .error .attributeError ∧ h.kids 0 = [2] := by decide

/-- Under a field node with a link to its second child in its first field. -/
example : let h := run (fun _ _ => false) empty [.create .field none, .create .catalog none, .create .field (some 0), .create .field (some 0)]
    let r := insertInto (fun _ _ => some 0) h 1 3
    r.2 = .ok () ∧ r.1.kids 0 = [1, 2] ∧ r.1.kids 1 = [3] := by decide

end Verif.InsertInto
