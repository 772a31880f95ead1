import Verif.Catalog
import Mathlib.Data.List.Perm.Subperm
import Mathlib.Data.List.Nodup
import Mathlib.Tactic.FinCases

/-! Specification vocabulary and helper lemmas for the catalog forest. -/

namespace Verif.Catalog

open Verif

/-- Specification: `a` is reached from `n` by following `parent` one or more times. -/
inductive Above (h : Forest) (a : Nat) : Nat → Prop
  | base {n} : h.parent n = some a → Above h a n
  | step {n m} : h.parent n = some m → Above h a m → Above h a n

/-- Calls covered by C11: orders given by indices use non-negative ones; a sort only permutes. -/
def Op.Safe : Op → Prop
  | .reorder _ (.inds is _) => ∀ i ∈ is, 0 ≤ i
  | .reorder _ (.sort f) => ∀ l, (f l).Perm l
  | _ => True

/-- The invariant. -/
structure Inv (h : Forest) : Prop where
  fresh : ∀ n, h.size ≤ n → h.parent n = none ∧ h.kids n = []
  pbound : ∀ n p, h.parent n = some p → p < h.size
  link : ∀ n p, n ∈ h.kids p ↔ h.parent n = some p
  nodup : ∀ p, (h.kids p).Nodup
  acyc : ∀ n, ¬ Above h n n
  act : ∀ n, h.kind n = .action → h.kids n = []

theorem inv_empty : Inv empty where
  fresh := by intro n _; exact ⟨rfl, rfl⟩
  pbound := by intro n p h; simp [empty] at h
  link := by intro n p; simp [empty]
  nodup := by intro p; simp [empty]
  acyc := by intro n h; cases h <;> (rename_i h; simp [empty] at h)
  act := by intro n _; rfl

theorem Inv.child_lt {h : Forest} (hi : Inv h) {n p : Nat} (hp : h.parent n = some p) : n < h.size := by
  by_contra hc
  have := (hi.fresh n (by omega)).1
  rw [this] at hp; simp at hp

theorem Inv.kid_lt {h : Forest} (hi : Inv h) {n p : Nat} (hp : n ∈ h.kids p) : n < h.size :=
  hi.child_lt ((hi.link n p).mp hp)

theorem Above.trans {h : Forest} {a b c : Nat} (h1 : Above h a b) (h2 : Above h b c) : Above h a c := by
  induction h2 with
  | base hp => exact .step hp h1
  | step hp _ ih => exact .step hp ih

/-! ### the cycle check -/

theorem cycleCheck_ok_not {h : Forest} {src : Nat} : ∀ (fuel v : Nat), cycleCheck h src fuel v = .ok () →
    ¬ (v = src ∨ Above h src v) := by
  intro fuel
  induction fuel with
  | zero => intro v hc; simp [cycleCheck] at hc
  | succ fuel ih =>
    intro v hc
    unfold cycleCheck at hc
    split at hc
    · simp at hc
    · rename_i hne
      rintro (rfl | ha)
      · exact hne rfl
      · split at hc
        · rename_i hp
          cases ha with
          | base h' => rw [hp] at h'; simp at h'
          | step h' _ => rw [hp] at h'; simp at h'
        · rename_i p hp
          apply ih p hc
          cases ha with
          | base h' => rw [hp] at h'; left; exact Option.some.inj h'
          | step h' h'' => rw [hp] at h'; right; rw [Option.some.inj h']; exact h''

theorem cycleCheck_cycle {h : Forest} {src : Nat} : ∀ (fuel v : Nat),
    cycleCheck h src fuel v = .error .cycleError → v = src ∨ Above h src v := by
  intro fuel
  induction fuel with
  | zero => intro v hc; simp [cycleCheck] at hc
  | succ fuel ih =>
    intro v hc
    unfold cycleCheck at hc
    split at hc
    · left; assumption
    · split at hc
      · simp at hc
      · rename_i p hp
        right
        rcases ih p hc with rfl | h'
        · exact .base hp
        · exact .step hp h'

theorem cycleCheck_kinds {h : Forest} {src : Nat} : ∀ (fuel v : Nat),
    cycleCheck h src fuel v = .ok () ∨ cycleCheck h src fuel v = .error .cycleError ∨
    cycleCheck h src fuel v = .error .recursionError := by
  intro fuel
  induction fuel with
  | zero => intro v; right; right; rfl
  | succ fuel ih =>
    intro v
    unfold cycleCheck
    split
    · right; left; rfl
    · split
      · left; rfl
      · exact ih _

theorem chain_of_recursion {h : Forest} (hi : Inv h) {src : Nat} : ∀ (fuel v : Nat), v < h.size →
    cycleCheck h src fuel v = .error .recursionError →
    ∃ l : List Nat, l.length = fuel ∧ l.Nodup ∧ ∀ x ∈ l, (x = v ∨ Above h x v) ∧ x < h.size := by
  intro fuel
  induction fuel with
  | zero => intro v _ _; exact ⟨[], rfl, List.nodup_nil, by simp⟩
  | succ fuel ih =>
    intro v hv hc
    unfold cycleCheck at hc
    split at hc
    · simp at hc
    · split at hc
      · simp at hc
      · rename_i p hp
        obtain ⟨l, hl, hn, hm⟩ := ih p (hi.pbound v p hp) hc
        refine ⟨v :: l, by simp [hl], List.nodup_cons.mpr ⟨?_, hn⟩, ?_⟩
        · intro hv'
          rcases (hm v hv').1 with rfl | h'
          · exact hi.acyc v (.base hp)
          · exact hi.acyc v (.step hp h')
        · intro x hx
          rcases List.mem_cons.mp hx with rfl | hx
          · exact ⟨Or.inl rfl, hv⟩
          · obtain ⟨h1, h2⟩ := hm x hx
            refine ⟨Or.inr ?_, h2⟩
            rcases h1 with rfl | h1
            · exact .base hp
            · exact .step hp h1

theorem nodup_bound {l : List Nat} {n : Nat} (hn : l.Nodup) (hb : ∀ x ∈ l, x < n) : l.length ≤ n := by
  have hs : l ⊆ List.range n := fun x hx => List.mem_range.mpr (hb x hx)
  have := (List.subperm_of_subset hn hs).length_le
  simpa using this

theorem cycleCheck_no_recursion {h : Forest} (hi : Inv h) {src v : Nat} (hv : v < h.size) :
    cycleCheck h src (h.size + 1) v ≠ .error .recursionError := by
  intro hc
  obtain ⟨l, hl, hn, hm⟩ := chain_of_recursion hi _ v hv hc
  have := nodup_bound hn (fun x hx => (hm x hx).2)
  omega

theorem cycleCheck_ok {h : Forest} (hi : Inv h) {src v : Nat} (hv : v < h.size)
    (hc : ¬ (v = src ∨ Above h src v)) : cycleCheck h src (h.size + 1) v = .ok () := by
  rcases cycleCheck_kinds (h := h) (src := src) (h.size + 1) v with h1 | h1 | h1
  · exact h1
  · exact absurd (cycleCheck_cycle _ _ h1) hc
  · exact absurd h1 (cycleCheck_no_recursion hi hv)

theorem cycleCheck_err {h : Forest} (hi : Inv h) {src v : Nat} (hv : v < h.size)
    (hc : v = src ∨ Above h src v) : cycleCheck h src (h.size + 1) v = .error .cycleError := by
  rcases cycleCheck_kinds (h := h) (src := src) (h.size + 1) v with h1 | h1 | h1
  · exact absurd hc (cycleCheck_ok_not _ _ h1)
  · exact h1
  · exact absurd h1 (cycleCheck_no_recursion hi hv)

/-! ### reparenting -/

theorem delFirst_mem {n : Nat} : ∀ {l : List Nat}, n ∈ l → delFirst n l = some (l.erase n) := by
  intro l
  induction l with
  | nil => simp
  | cons c cs ih =>
    intro hm
    unfold delFirst
    by_cases hc : c = n
    · subst hc; simp
    · have : n ∈ cs := by
        rcases List.mem_cons.mp hm with rfl | h
        · exact absurd rfl hc
        · exact h
      rw [if_neg hc, ih this]
      simp [List.erase_cons, hc]

theorem erase_filter {n : Nat} {l : List Nat} (hn : l.Nodup) : l.erase n = l.filter (· ≠ n) := by
  rw [hn.erase_eq_filter]
  apply List.filter_congr
  intro x _
  simp [bne, Bool.beq_eq_decide_eq]

theorem filter_ne_self {n : Nat} {l : List Nat} (hn : n ∉ l) : l.filter (· ≠ n) = l := by
  apply List.filter_eq_self.mpr
  intro x hx
  simp
  rintro rfl
  exact hn hx

theorem setParent_none_ok {h : Forest} (hi : Inv h) {n : Nat} :
    setParent h n none = ({ h with parent := set h.parent n none
                                   kids := fun m => (h.kids m).filter (· ≠ n) }, .ok ()) := by
  unfold setParent detach
  dsimp only
  cases hp : h.parent n with
  | none =>
    simp only [Prod.mk.injEq, and_true]
    have : h.kids = fun m => (h.kids m).filter (· ≠ n) := by
      funext m
      refine (filter_ne_self ?_).symm
      intro hm
      have := (hi.link n m).mp hm
      rw [hp] at this; simp at this
    rw [← this]
  | some p =>
    simp only
    rw [delFirst_mem ((hi.link n p).mpr hp)]
    simp only [Prod.mk.injEq, and_true, Forest.mk.injEq, true_and]
    funext m
    by_cases hm : m = p
    · subst hm; simp only [set, if_true]; exact erase_filter (hi.nodup m)
    · simp only [set, if_neg hm]
      refine (filter_ne_self ?_).symm
      intro hm'
      have := (hi.link n m).mp hm'
      rw [hp] at this
      exact hm (Option.some.inj this).symm

theorem setParent_ok {h : Forest} (hi : Inv h) {n v : Nat} (_hn : n < h.size) (hv : v < h.size)
    (ha : h.kind v ≠ .action) (hc : ¬ (v = n ∨ Above h n v)) :
    setParent h n (some v) = ({ h with parent := set h.parent n (some v)
                                       kids := fun m => (h.kids m).filter (· ≠ n) ++ if m = v then [n] else [] },
      .ok ()) := by
  have hcc := cycleCheck_ok hi hv hc
  unfold setParent
  simp only [hcc, if_neg ha]
  unfold detach
  dsimp only
  cases hp : h.parent n with
  | none =>
    simp only [Prod.mk.injEq, and_true, Forest.mk.injEq, true_and]
    funext m
    have hnm : n ∉ h.kids m := by
      intro hm; have := (hi.link n m).mp hm; rw [hp] at this; simp at this
    rw [filter_ne_self hnm]
    by_cases hm : m = v
    · subst hm; simp [set]
    · simp [set, hm]
  | some p =>
    simp only
    have hmem : n ∈ h.kids p := (hi.link n p).mpr hp
    have hother : ∀ m, m ≠ p → n ∉ h.kids m := by
      intro m hm hm'
      have := (hi.link n m).mp hm'
      rw [hp] at this
      exact hm (Option.some.inj this).symm
    by_cases hpv : p = v
    · subst hpv
      have hd : delFirst n (set h.kids p (h.kids p ++ [n]) p) = some ((h.kids p).erase n ++ [n]) := by
        simp only [set, if_true]
        rw [delFirst_mem (by simp), List.erase_append_left _ hmem]
      rw [hd]
      simp only [Prod.mk.injEq, and_true, Forest.mk.injEq, true_and]
      funext m
      by_cases hm : m = p
      · subst hm; simp [set, erase_filter (hi.nodup m)]
      · rw [filter_ne_self (hother m hm)]; simp [set, hm]
    · have hd : delFirst n (set h.kids v (h.kids v ++ [n]) p) = some ((h.kids p).erase n) := by
        simp only [set, if_neg hpv]
        exact delFirst_mem hmem
      rw [hd]
      simp only [Prod.mk.injEq, and_true, Forest.mk.injEq, true_and]
      funext m
      by_cases hm : m = p
      · subst hm; simp [set, erase_filter (hi.nodup m), hpv]
      · rw [filter_ne_self (hother m hm)]
        by_cases hmv : m = v <;> simp [set, hm, hmv]
        rintro rfl; exact absurd rfl hpv

theorem above_set_none {h : Forest} {n : Nat} {ks a b} (ha : Above { h with parent := set h.parent n none, kids := ks } a b) :
    Above h a b := by
  induction ha with
  | @base b hp =>
    by_cases hb : b = n
    · simp [set, hb] at hp
    · simp [set, hb] at hp; exact .base hp
  | @step b m hp _ ih =>
    by_cases hb : b = n
    · simp [set, hb] at hp
    · simp [set, hb] at hp; exact .step hp ih

theorem above_set_some {h : Forest} {n v : Nat} {ks a b}
    (ha : Above { h with parent := set h.parent n (some v), kids := ks } a b) :
    Above h a b ∨ ((b = n ∨ Above h n b) ∧ (a = v ∨ Above h a v)) := by
  induction ha with
  | @base b hp =>
    by_cases hb : b = n
    · simp [set, hb] at hp; right; exact ⟨Or.inl hb, Or.inl hp.symm⟩
    · simp [set, hb] at hp; left; exact .base hp
  | @step b m hp _ ih =>
    by_cases hb : b = n
    · simp [set, hb] at hp
      subst hp
      right
      refine ⟨Or.inl hb, ?_⟩
      rcases ih with h' | ⟨_, h'⟩
      · exact Or.inr h'
      · exact h'
    · simp [set, hb] at hp
      rcases ih with h' | ⟨h1, h2⟩
      · left; exact .step hp h'
      · right
        refine ⟨Or.inr ?_, h2⟩
        rcases h1 with rfl | h1
        · exact .base hp
        · exact .step hp h1

theorem inv_set_none {h : Forest} (hi : Inv h) (n : Nat) :
    Inv { h with parent := set h.parent n none, kids := fun m => (h.kids m).filter (· ≠ n) } where
  fresh m hm := by
    obtain ⟨h1, h2⟩ := hi.fresh m hm
    refine ⟨?_, by simp [h2]⟩
    simp only [set]; split <;> simp [h1]
  pbound m p hp := by
    simp only [set] at hp
    split at hp
    · simp at hp
    · exact hi.pbound m p hp
  link m p := by
    simp only [List.mem_filter, decide_eq_true_eq, set, hi.link m p]
    by_cases hm : m = n <;> simp [hm]
  nodup p := (hi.nodup p).filter _
  acyc m ha := hi.acyc m (above_set_none ha)
  act m hm := by simp [hi.act m hm]

theorem inv_set_some {h : Forest} (hi : Inv h) {n v : Nat} (hn : n < h.size) (hv : v < h.size)
    (ha : h.kind v ≠ .action) (hc : ¬ (v = n ∨ Above h n v)) :
    Inv { h with parent := set h.parent n (some v)
                 kids := fun m => (h.kids m).filter (· ≠ n) ++ if m = v then [n] else [] } where
  fresh m hm := by
    obtain ⟨h1, h2⟩ := hi.fresh m hm
    have hm' : h.size ≤ m := hm
    have hmn : m ≠ n := by omega
    have hmv : m ≠ v := by omega
    exact ⟨by simp [set, hmn, h1], by simp [h2, hmv]⟩
  pbound m p hp := by
    simp only [set] at hp
    split at hp
    · simp at hp; subst hp; exact hv
    · exact hi.pbound m p hp
  link m p := by
    simp only [List.mem_append, List.mem_filter, decide_eq_true_eq, set, hi.link m p]
    by_cases hm : m = n
    · by_cases hp : p = v
      · subst hp; simp [hm]
      · have : ¬ v = p := fun h => hp h.symm
        simp [hm, hp, this]
    · by_cases hp : p = v <;> simp [hm, hp]
  nodup p := by
    rw [List.nodup_append]
    refine ⟨(hi.nodup p).filter _, by split <;> simp, ?_⟩
    intro a ha' b hb
    split at hb
    · simp at hb; subst hb
      simp at ha'; exact ha'.2
    · simp at hb
  acyc m hm := by
    rcases above_set_some hm with h' | ⟨h1, h2⟩
    · exact hi.acyc m h'
    · apply hc
      rcases h1 with rfl | h1
      · rcases h2 with rfl | h2
        · exact Or.inl rfl
        · exact Or.inr h2
      · rcases h2 with rfl | h2
        · exact Or.inr h1
        · exact Or.inr (h1.trans h2)
  act m hm := by
    have : m ≠ v := by rintro rfl; exact ha hm
    simp [hi.act m hm, this]

theorem inv_setParent {h : Forest} (hi : Inv h) (n : Nat) (val : Option Nat) (hn : n < h.size)
    (hv : ∀ v ∈ val, v < h.size) : Inv (setParent h n val).1 := by
  cases val with
  | none => rw [setParent_none_ok hi]; exact inv_set_none hi n
  | some v =>
    have hv' := hv v rfl
    by_cases hc : v = n ∨ Above h n v
    · have hcc := cycleCheck_err hi hv' hc
      simp only [setParent, hcc]; exact hi
    · by_cases ha : h.kind v = .action
      · have hcc := cycleCheck_ok hi hv' hc
        simp only [setParent, hcc, if_pos ha]; exact hi
      · rw [setParent_ok hi hn hv' ha hc]; exact inv_set_some hi hn hv' ha hc

theorem size_setParent (h : Forest) (n : Nat) (val : Option Nat) : (setParent h n val).1.size = h.size ∧
    (setParent h n val).1.kind = h.kind := by
  unfold setParent detach
  split
  · split
    · exact ⟨rfl, rfl⟩
    · split <;> exact ⟨rfl, rfl⟩
  · split
    · exact ⟨rfl, rfl⟩
    · split
      · exact ⟨rfl, rfl⟩
      · split
        · exact ⟨rfl, rfl⟩
        · split <;> exact ⟨rfl, rfl⟩

/-! ### creation -/

theorem inv_grow {h : Forest} (hi : Inv h) (k : Kind) :
    Inv { size := h.size + 1, kind := set h.kind h.size k,
          parent := set h.parent h.size none, kids := set h.kids h.size [] } := by
  have hp : set h.parent h.size none = h.parent := by
    funext m
    simp only [set]; split
    · rename_i hm; subst hm; exact ((hi.fresh _ (Nat.le_refl _)).1).symm
    · rfl
  have hk : set h.kids h.size [] = h.kids := by
    funext m
    simp only [set]; split
    · rename_i hm; subst hm; exact ((hi.fresh _ (Nat.le_refl _)).2).symm
    · rfl
  rw [hp, hk]
  have hab : ∀ {a b}, Above { size := h.size + 1, kind := set h.kind h.size k, parent := h.parent, kids := h.kids } a b →
      Above h a b := by
    intro a b hab
    induction hab with
    | base hp => exact .base hp
    | step hp _ ih => exact .step hp ih
  exact {
    fresh := fun n hn => hi.fresh n (by simp at hn; omega)
    pbound := fun n p hp => Nat.lt_succ_of_lt (hi.pbound n p hp)
    link := hi.link
    nodup := hi.nodup
    acyc := fun n hn => hi.acyc n (hab hn)
    act := fun n hn => by
      simp only [set] at hn
      split at hn
      · rename_i hm; exact (hi.fresh n (by omega)).2
      · exact hi.act n hn }

theorem inv_create {h : Forest} (hi : Inv h) (k : Kind) (par : Option Nat) (hp : ∀ p ∈ par, p < h.size) :
    Inv (create h k par).1 := by
  unfold create
  dsimp only
  cases par with
  | none => exact inv_grow hi k
  | some p =>
    have hg := inv_grow hi k
    have := inv_setParent hg h.size (some p) (by simp) (by
      intro v hv; simp at hv; subst hv; exact Nat.lt_succ_of_lt (hp p rfl))
    simp only
    split
    · rename_i h1 _ heq; rw [heq] at this; exact this
    · exact hi

/-! ### reordering -/

theorem inv_kids_perm {h : Forest} (hi : Inv h) (n : Nat) (cs : List Nat) (hp : cs.Perm (h.kids n)) :
    Inv { h with kids := set h.kids n cs } := by
  have hab : ∀ {a b}, Above { h with kids := set h.kids n cs } a b → Above h a b := by
    intro a b hab
    induction hab with
    | base hp => exact .base hp
    | step hp _ ih => exact .step hp ih
  have hmem : ∀ m x, x ∈ set h.kids n cs m ↔ x ∈ h.kids m := by
    intro m x
    simp only [set]; split
    · rename_i hm; subst hm; exact hp.mem_iff
    · rfl
  have hnil : ∀ m, h.kids m = [] → set h.kids n cs m = [] := by
    intro m hm
    simp only [set]; split
    · rename_i h'; subst h'; rw [hm] at hp; exact hp.eq_nil
    · exact hm
  exact {
    fresh := fun m hm => ⟨(hi.fresh m hm).1, hnil m (hi.fresh m hm).2⟩
    pbound := hi.pbound
    link := fun m p => (hmem p m).trans (hi.link m p)
    nodup := fun p => by
      simp only [set]; split
      · rename_i hm; subst hm; exact hp.nodup_iff.mpr (hi.nodup p)
      · exact hi.nodup p
    acyc := fun m hm => hi.acyc m (hab hm)
    act := fun m hm => hnil m (hi.act m hm) }

theorem reorder_inds_ok {h : Forest} {n : Nat} {is : List Int} {inv : Bool}
    (hok : (reorder h n (.inds is inv)).2 = .ok ()) :
    ∃ cs, is.length = (h.kids n).length ∧ is.Nodup ∧ fancy (h.kids n) is = some cs ∧
      reorder h n (.inds is inv) = ({ h with kids := set h.kids n cs }, .ok ()) := by
  by_cases h1 : is.length ≠ (h.kids n).length
  · simp [reorder, h1] at hok
  by_cases h2 : ¬ is.Nodup
  · simp [reorder, h1, h2] at hok
  by_cases h3 : inv = true
  · simp [reorder, h1, h2, h3] at hok
  cases h4 : fancy (h.kids n) is with
  | none => simp [reorder, h1, h2, h3, h4] at hok
  | some cs =>
    push Not at h1 h2
    refine ⟨cs, h1, h2, rfl, ?_⟩
    simp [reorder, h1, h2, h3, h4]

theorem fancy_map {l : List Nat} : ∀ {is : List Int} {cs : List Nat}, (∀ i ∈ is, 0 ≤ i) → fancy l is = some cs →
    cs.map some = is.map (fun i => l[i.toNat]?) := by
  intro is
  induction is with
  | nil => intro cs _ h; simp [fancy] at h; subst h; rfl
  | cons i is ih =>
    intro cs hpos h
    unfold fancy at h
    split at h
    · rename_i x xs hx hxs
      simp at h; subst h
      have := ih (fun j hj => hpos j (List.mem_cons_of_mem _ hj)) hxs
      have hi := hpos i (List.mem_cons_self ..)
      simp only [List.map_cons, this, List.cons.injEq, and_true]
      rw [← hx]
      unfold Py.get? Py.idx
      rw [if_pos hi]
      split
      · rfl
      · rename_i hlt
        have : l.length ≤ i.toNat := by omega
        simp [this]
    · simp at h

theorem fancy_perm {l : List Nat} {is : List Int} {cs : List Nat} (hpos : ∀ i ∈ is, 0 ≤ i)
    (hlen : is.length = l.length) (hn : is.Nodup) (hf : fancy l is = some cs) : cs.Perm l := by
  have hm := fancy_map hpos hf
  have hlt : ∀ i ∈ is.map Int.toNat, i < l.length := by
    intro i hi
    obtain ⟨j, hj, rfl⟩ := List.mem_map.mp hi
    have : l[j.toNat]? ∈ cs.map some := by rw [hm]; exact List.mem_map.mpr ⟨j, hj, rfl⟩
    obtain ⟨x, _, hx⟩ := List.mem_map.mp this
    exact (List.getElem?_eq_some_iff.mp hx.symm).1
  have hnd : (is.map Int.toNat).Nodup := by
    apply List.Nodup.map_on _ hn
    intro x hx y hy hxy
    have := hpos x hx; have := hpos y hy
    omega
  have hperm : (is.map Int.toNat).Perm (List.range l.length) := by
    have hs := List.subperm_of_subset hnd (fun x hx => List.mem_range.mpr (hlt x hx))
    exact hs.perm_of_length_le (by simp [hlen])
  have h2 : (cs.map some).Perm (l.map some) := by
    rw [hm]
    have h3 := hperm.map (fun i => l[i]?)
    rw [List.map_map] at h3
    have h4 : (List.range l.length).map (fun i => l[i]?) = l.map some := by
      apply List.ext_getElem
      · simp
      · intro i h1 h2; simp at h1; simp [h1]
    rw [h4] at h3
    exact h3
  have h5 := h2.filterMap id
  simpa [List.filterMap_map] using h5

theorem inv_reorder {h : Forest} (hi : Inv h) (n : Nat) (o : Order) (hs : (Op.reorder n o).Safe) :
    Inv (reorder h n o).1 := by
  cases o with
  | reverse => exact inv_kids_perm hi n _ (List.reverse_perm _)
  | sort f => exact inv_kids_perm hi n _ (hs _)
  | inds is inv =>
    by_cases hok : (reorder h n (.inds is inv)).2 = .ok ()
    · obtain ⟨cs, hl, hn, hf, hr⟩ := reorder_inds_ok hok
      rw [hr]
      exact inv_kids_perm hi n _ (fancy_perm hs hl hn hf)
    · have : (reorder h n (.inds is inv)).1 = h := by
        unfold reorder at hok ⊢
        dsimp only at hok ⊢
        split
        · rfl
        · split
          · rfl
          · split
            · rfl
            · split
              · rfl
              · rename_i h1 h2 h3 _ cs hcs
                simp [h1, h2, h3, hcs] at hok
      rw [this]; exact hi

/-! ### merging -/

theorem inv_mergeLoop (take : Nat → Bool) (self : Nat) : ∀ (cs : List Nat) (h : Forest) (k : Nat), Inv h →
    self < h.size → (∀ c ∈ cs, c < h.size) → Inv (mergeLoop take self h cs k).1 := by
  intro cs
  induction cs with
  | nil => intro h k hi _ _; exact hi
  | cons c cs ih =>
    intro h k hi hs hc
    unfold mergeLoop
    split
    · have h1 := inv_setParent hi c (some self) (hc c (List.mem_cons_self ..)) (by simpa using hs)
      have h2 := (size_setParent h c (some self)).1
      rcases hsp : setParent h c (some self) with ⟨h', r⟩
      rw [hsp] at h1 h2
      cases r with
      | error e => exact h1
      | ok _ =>
        simp only at h2
        exact ih h' _ h1 (by rw [h2]; exact hs)
          (fun x hx => by rw [h2]; exact hc x (List.mem_cons_of_mem _ hx))
    · exact ih h k hi hs (fun x hx => hc x (List.mem_cons_of_mem _ hx))

theorem mergeLoop_ok (take : Nat → Bool) (self : Nat) : ∀ (cs : List Nat) (h : Forest) (k : Nat), Inv h →
    self < h.size → h.kind self ≠ .action → cs.Nodup → (∀ c ∈ cs, c < h.size) →
    (∀ c ∈ cs, take c = true → self ≠ c ∧ ¬ Above h c self) →
    (mergeLoop take self h cs k).2 = .ok (k + (cs.filter take).length) ∧
    (∀ m, (mergeLoop take self h cs k).1.parent m = if m ∈ cs.filter take then some self else h.parent m) ∧
    (∀ m, (mergeLoop take self h cs k).1.kids m
      = (h.kids m).filter (· ∉ cs.filter take) ++ if m = self then cs.filter take else []) := by
  intro cs
  induction cs with
  | nil =>
    intro h k hi _ _ _ _ _
    refine ⟨rfl, fun m => by simp [mergeLoop], fun m => ?_⟩
    simp [mergeLoop]
  | cons c cs ih =>
    intro h k hi hs ha hn hc hcyc
    unfold mergeLoop
    have hn' := List.nodup_cons.mp hn
    by_cases ht : take c = true
    · rw [if_pos ht]
      obtain ⟨hne, hnab⟩ := hcyc c (List.mem_cons_self ..) ht
      have hcc : ¬ (self = c ∨ Above h c self) := by rintro (h' | h'); exact hne h'; exact hnab h'
      have hok := setParent_ok hi (hc c (List.mem_cons_self ..)) hs ha hcc
      have hinv := inv_set_some hi (hc c (List.mem_cons_self ..)) hs ha hcc
      rw [hok]
      simp only
      have := ih _ (k + 1) hinv hs ha hn'.2 (fun x hx => hc x (List.mem_cons_of_mem _ hx)) (by
        intro x hx hx'
        obtain ⟨h1, h2⟩ := hcyc x (List.mem_cons_of_mem _ hx) hx'
        refine ⟨h1, fun hab => ?_⟩
        rcases above_set_some hab with h3 | ⟨h3, _⟩
        · exact h2 h3
        · exact hcc h3)
      obtain ⟨g1, g2, g3⟩ := this
      have hf : (c :: cs).filter take = c :: cs.filter take := by simp [ht]
      have hcnot : c ∉ cs.filter take := fun hm => hn'.1 (List.mem_filter.mp hm).1
      rw [hf]
      refine ⟨?_, ?_, ?_⟩
      · rw [g1]; simp [Nat.add_comm, Nat.add_left_comm]
      · intro m
        rw [g2]
        by_cases hm : m = c
        · subst hm; simp [hcnot, set]
        · simp [set, hm]
      · intro m
        rw [g3]
        simp only [List.filter_append, List.filter_filter]
        have e1 : (h.kids m).filter (fun a => decide (a ∉ cs.filter take) && decide (a ≠ c))
            = (h.kids m).filter (fun a => decide (a ∉ c :: cs.filter take)) := by
          apply List.filter_congr
          intro x _
          simp only [List.mem_cons, not_or, Bool.decide_and, Bool.and_comm]
        rw [e1]
        by_cases hm : m = self
        · subst hm
          simp only [if_true]
          have e2 : [c].filter (fun x => decide (x ∉ cs.filter take)) = [c] := by simp [hn'.1]
          rw [e2, List.append_assoc]; rfl
        · simp [hm]
    · rw [if_neg ht]
      have := ih h k hi hs ha hn'.2 (fun x hx => hc x (List.mem_cons_of_mem _ hx))
        (fun x hx => hcyc x (List.mem_cons_of_mem _ hx))
      have hf : (c :: cs).filter take = cs.filter take := by simp [ht]
      rw [hf]
      exact this

/-! ### histories -/

theorem inv_step (eqv : Nat → Nat → Bool) {h : Forest} (hi : Inv h) (op : Op) (hs : op.Safe) :
    Inv (step eqv h op) := by
  unfold step
  split
  · rename_i hall
    simp only [List.all_eq_true, decide_eq_true_eq] at hall
    cases op with
    | create k par => exact inv_create hi k par (fun p hp => hall p (by simpa [Op.nodes] using hp))
    | setParent n val =>
      exact inv_setParent hi n val (hall n (by simp [Op.nodes])) (fun v hv => hall v (by
        simp only [Op.nodes, List.mem_cons]; right; simpa using hv))
    | addChild a b =>
      simp only [addChild]
      split
      · exact hi
      · exact inv_setParent hi b (some a) (hall b (by simp [Op.nodes])) (by
          intro v hv; simp at hv; subst hv; exact hall _ (by simp [Op.nodes]))
    | removeChild a b =>
      simp only [removeChild]
      split
      · exact inv_setParent hi b none (hall b (by simp [Op.nodes])) (by simp)
      · exact hi
    | reorder n o => exact inv_reorder hi n o hs
    | merge take a b =>
      exact inv_mergeLoop take a _ h 0 hi (hall a (by simp [Op.nodes])) (fun c hc => hi.kid_lt hc)
  · exact hi

theorem inv_run (eqv : Nat → Nat → Bool) : ∀ (ops : List Op) (h : Forest), Inv h → (∀ op ∈ ops, op.Safe) →
    Inv (run eqv h ops) := by
  intro ops
  induction ops with
  | nil => intro h hi _; exact hi
  | cons op ops ih =>
    intro h hi hs
    exact ih _ (inv_step eqv hi op (hs op (List.mem_cons_self ..))) (fun o ho => hs o (List.mem_cons_of_mem _ ho))

/-! ### idstr -/

theorem rootDepth_some_of {h : Forest} : ∀ (fuel v : Nat), (rootDepth h fuel v).isSome ∨
    cycleCheck h h.size fuel v = .error .recursionError ∨ cycleCheck h h.size fuel v = .error .cycleError := by
  intro fuel
  induction fuel with
  | zero => intro v; right; left; rfl
  | succ fuel ih =>
    intro v
    unfold rootDepth cycleCheck
    by_cases hv : v = h.size
    · right; right; rw [if_pos hv]
    · rw [if_neg hv]
      cases hp : h.parent v with
      | none => left; rfl
      | some p =>
        rcases ih p with h1 | h1
        · left; simpa using h1
        · right; exact h1

theorem above_lt {h : Forest} (hi : Inv h) {a b : Nat} (ha : Above h a b) : a < h.size := by
  induction ha with
  | base hp => exact hi.pbound _ _ hp
  | step _ _ ih => exact ih

theorem rootDepth_isSome {h : Forest} (hi : Inv h) {n : Nat} (hn : n < h.size) :
    (rootDepth h (h.size + 1) n).isSome := by
  rcases rootDepth_some_of (h := h) (h.size + 1) n with h1 | h1 | h1
  · exact h1
  · exact absurd h1 (cycleCheck_no_recursion hi hn)
  · rcases cycleCheck_cycle _ _ h1 with h2 | h2
    · omega
    · have := above_lt hi h2; omega

theorem findIdx_get {l : List Nat} {a : Nat} (h : a ∈ l) : l[l.findIdx (· = a)]? = some a := by
  have hlt : l.findIdx (· = a) < l.length := List.findIdx_lt_length_of_exists ⟨a, h, by simp⟩
  rw [List.getElem?_eq_getElem hlt]
  have := List.findIdx_getElem (w := hlt)
  simpa using this

end Verif.Catalog
