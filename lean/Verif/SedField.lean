import Mathlib.Data.List.Basic
import Mathlib.Tactic.SplitIfs

/-!
# C138: spectral energy distributions (astropysics/objcat.py:3183-3340)

The values of an `SEDField` are spectra and photometric observations, by number; masked values are kept as a set of
positions.  Magnitudes, fluxes and overlaps are parameters.
-/

namespace Verif.SedField

/-- A value: a `Spectrum` or a `PhotObservation`. -/
inductive Obj
  | spec (id : Nat)
  | phot (id : Nat)
deriving DecidableEq, Repr

/-- The field: values in order, and `_maskedsedvals`. -/
structure Sed where
  vals : List Obj
  masked : List Int
deriving DecidableEq, Repr

/-- Exceptions. -/
inductive Exc
  | value | key | type
deriving DecidableEq, Repr

/-- `isinstance(o,Spectrum)`. -/
def isSpec : Obj → Bool
  | .spec _ => true
  | .phot _ => false

/-- The values of one class that are not masked, counted from position `i` (astropysics/objcat.py:3236-3252). -/
def unmasked (want : Obj → Bool) (masked : List Int) : Nat → List Obj → List Obj
  | _, [] => []
  | i, o :: l => if want o && !decide ((i : Int) ∈ masked) then o :: unmasked want masked (i + 1) l
    else unmasked want masked (i + 1) l

/-- `specs` (astropysics/objcat.py:3236-3239). -/
def specs (s : Sed) : List Obj := unmasked isSpec s.masked 0 s.vals

/-- `phots` (astropysics/objcat.py:3245-3248). -/
def phots (s : Sed) : List Obj := unmasked (fun o => !isSpec o) s.masked 0 s.vals

/-- What `mask` and `unmask` are given: a position, or a source. -/
inductive Which
  | pos (i : Int)
  | source (name : String)
deriving DecidableEq, Repr

/-- `mask` (astropysics/objcat.py:3283-3291): `self.index(source)` compares the source with the values and never finds it. -/
def mask (s : Sed) : Which → Sed × Except Exc Unit
  | .pos i => ({ s with masked := if i ∈ s.masked then s.masked else s.masked ++ [i] }, .ok ())
  | .source _ => (s, .error .value)

/-- `unmask` (astropysics/objcat.py:3292-3300). -/
def unmask (s : Sed) : Which → Sed × Except Exc Unit
  | .pos i => if i ∈ s.masked then ({ s with masked := s.masked.filter (fun x => x ≠ i) }, .ok ()) else (s, .error .key)
  | .source _ => (s, .error .value)

/-- `unmaskAll` (astropysics/objcat.py:3301-3305). -/
def unmaskAll (s : Sed) : Sed := { s with masked := [] }

/-- Replacing the value at a position, or appending one (`Field.__setitem__`, astropysics/objcat.py:1329-1348). -/
def setAt (s : Sed) (i : Nat) (o : Obj) : Sed := { s with vals := if i < s.vals.length then s.vals.set i o else s.vals ++ [o] }

/-- `del field[i]` (astropysics/objcat.py:1350-1358): the masks stay where they are. -/
def delAt (s : Sed) (i : Nat) : Sed := { s with vals := s.vals.eraseIdx i }

/-- `field.currentobj = source` for the source of the value at `i` (astropysics/objcat.py:1439-1454). -/
def makeCurrent (s : Sed) (i : Nat) : Sed :=
  match s.vals[i]? with
  | some o => { s with vals := o :: s.vals.eraseIdx i }
  | none => s

/-- What is known of the values: the bands of an observation with their magnitudes, and of a spectrum the magnitudes it gives
for the bands it overlaps. -/
structure Data (M : Type) where
  photBand : Nat → String → Option M
  specBand : Nat → String → Option M

/-- The number a value has for a band. -/
def Data.read {M : Type} (d : Data M) (b : String) : Obj → Option M
  | .phot i => d.photBand i b
  | .spec i => d.specBand i b

/-- `getBand` for one band (astropysics/objcat.py:3307-3348); without a value the message fails to be formatted, a TypeError. -/
def getBand {M : Type} (d : Data M) (s : Sed) (b : String) : Except Exc M :=
  match (phots s).findSome? (d.read b) with
  | some v => .ok v
  | none => match (specs s).findSome? (d.read b) with
    | some v => .ok v
    | none => .error .type

/-! ## Specification and theorems -/

/-- The value at position `i` is shown. -/
def Shown (s : Sed) (i : Nat) : Prop := i < s.vals.length ∧ (i : Int) ∉ s.masked

theorem unmasked_eq (want : Obj → Bool) (masked : List Int) : ∀ (l : List Obj) (i : Nat), unmasked want masked i l =
    ((l.zipIdx i).filter (fun p => want p.1 && !decide ((p.2 : Int) ∈ masked))).map (·.1) := by
  intro l
  induction l with
  | nil => intro i; rfl
  | cons o l ih =>
    intro i
    simp only [unmasked, List.zipIdx_cons, List.filter_cons, ih]
    split_ifs <;> simp

/-- **C138**: the spectra (photometric observations) are exactly those at positions that are not masked, in order. -/
theorem shown_exact (s : Sed) :
    specs s = ((s.vals.zipIdx).filter (fun p => isSpec p.1 && !decide ((p.2 : Int) ∈ s.masked))).map (·.1) ∧
    phots s = ((s.vals.zipIdx).filter (fun p => !isSpec p.1 && !decide ((p.2 : Int) ∈ s.masked))).map (·.1) ∧
    (∀ o, o ∈ specs s ∨ o ∈ phots s ↔ ∃ i, ∃ h : i < s.vals.length, s.vals[i] = o ∧ Shown s i) := by
  refine ⟨unmasked_eq _ _ _ _, unmasked_eq _ _ _ _, fun o => ?_⟩
  simp only [specs, phots, unmasked_eq, List.mem_map, List.mem_filter]
  constructor
  · rintro (⟨⟨o', i⟩, ⟨hm, hf⟩, rfl⟩ | ⟨⟨o', i⟩, ⟨hm, hf⟩, rfl⟩) <;>
    · obtain ⟨h1, h2, h3⟩ := List.mem_zipIdx hm
      simp only [Nat.zero_add] at h2
      simp only [Bool.and_eq_true, Bool.not_eq_true', decide_eq_false_iff_not] at hf
      exact ⟨i, h2, by simpa using h3.symm, h2, hf.2⟩
  · rintro ⟨i, h, rfl, _, hm⟩
    have hz : (s.vals[i], i) ∈ s.vals.zipIdx := by
      rw [List.mem_zipIdx_iff_getElem?]
      simp [h]
    cases hs : isSpec s.vals[i] with
    | true => exact .inl ⟨_, ⟨hz, by simp [hs, hm]⟩, rfl⟩
    | false => exact .inr ⟨_, ⟨hz, by simp [hs, hm]⟩, rfl⟩

/-- **C138**: masking a position hides the value there and no other; unmasking shows it again; positions that are not masked
cannot be unmasked. -/
theorem mask_exact (s : Sed) (i : Nat) :
    (mask s (.pos i)).2 = .ok () ∧
    (∀ j, Shown (mask s (.pos i)).1 j ↔ Shown s j ∧ j ≠ i) ∧
    ((i : Int) ∈ s.masked → (unmask s (.pos i)).2 = .ok () ∧ ∀ j, Shown (unmask s (.pos i)).1 j ↔ Shown s j ∨ (j = i ∧ j < s.vals.length)) ∧
    ((i : Int) ∉ s.masked → unmask s (.pos i) = (s, .error .key)) ∧
    (∀ j, Shown (unmaskAll s) j ↔ j < s.vals.length) := by
  refine ⟨rfl, fun j => ?_, fun h => ⟨by simp [unmask, h], fun j => ?_⟩, fun h => by simp [unmask, h], fun j => ?_⟩
  · simp only [Shown, mask]
    split_ifs with h
    · constructor
      · rintro ⟨a, b⟩
        exact ⟨⟨a, b⟩, by rintro rfl; exact b h⟩
      · exact fun h => h.1
    · simp only [List.mem_append, List.mem_singleton, not_or, Int.natCast_inj, and_assoc, ne_eq]
  · simp only [Shown, unmask, h, if_true, List.mem_filter, decide_eq_true_eq, ne_eq, Int.natCast_inj]
    constructor
    · rintro ⟨a, b⟩
      by_cases hj : j = i
      · exact .inr ⟨hj, a⟩
      · exact .inl ⟨a, fun hm => b ⟨hm, hj⟩⟩
    · rintro (⟨a, b⟩ | ⟨rfl, a⟩)
      · exact ⟨a, fun hm => b hm.1⟩
      · exact ⟨a, fun hm => hm.2 rfl⟩
  · simp [Shown, unmaskAll]

/-- **C138**: replacing or adding a value does not change which of the others are shown. -/
theorem set_keeps_masks (s : Sed) (i : Nat) (o : Obj) (j : Nat) (hj : j < s.vals.length) :
    (Shown (setAt s i o) j ↔ Shown s j) ∧ (setAt s i o).vals[j]? = (if j = i then some o else s.vals[j]?) ∧
      (s.vals.length ≤ i → (setAt s i o).vals[s.vals.length]? = some o) := by
  refine ⟨?_, ?_, ?_⟩
  rotate_left
  · simp only [setAt]
    by_cases h : i < s.vals.length
    · rw [if_pos h, List.getElem?_set]
      by_cases e : i = j
      · subst e; simp [h]
      · simp [e, Ne.symm e]
    · rw [if_neg h, List.getElem?_append_left hj, if_neg (by omega)]
  · intro h
    simp only [setAt, if_neg (Nat.not_lt.2 h)]
    simp
  simp only [Shown, setAt]
  split_ifs
  · simp
  · simp only [List.length_append, List.length_singleton]
    constructor
    · exact fun h => ⟨hj, h.2⟩
    · exact fun h => ⟨by omega, h.2⟩

/-- **C138**, limit: a source cannot be masked or unmasked. -/
theorem mask_by_source_fails (s : Sed) (name : String) :
    mask s (.source name) = (s, .error .value) ∧ unmask s (.source name) = (s, .error .value) := ⟨rfl, rfl⟩

/-- **C138**, exact: after a deletion the value that was at `j > i` is shown exactly if position `j - 1` is not masked. -/
theorem delete_shifts (s : Sed) (i j : Nat) (hi : i < s.vals.length) (hij : i < j) (hj : j < s.vals.length) :
    (delAt s i).vals[j - 1]? = s.vals[j]? ∧ (Shown (delAt s i) (j - 1) ↔ ((j - 1 : Nat) : Int) ∉ s.masked) := by
  constructor
  · simp only [delAt, List.getElem?_eraseIdx]
    rw [if_neg (by omega)]
    congr 1
    omega
  · simp only [Shown, delAt, List.length_eraseIdx, hi, if_true]
    constructor
    · exact fun h => h.2
    · exact fun h => ⟨by omega, h⟩

theorem findSome_first {A B : Type} (f : A → Option B) : ∀ (l : List A) (v : B), l.findSome? f = some v ↔
    ∃ a x b, l = a ++ x :: b ∧ (∀ y ∈ a, f y = none) ∧ f x = some v := by
  intro l
  induction l with
  | nil => simp
  | cons y l ih =>
    intro v
    cases hy : f y with
    | some w =>
      simp only [List.findSome?_cons, hy, Option.some.injEq]
      constructor
      · rintro rfl; exact ⟨[], y, l, rfl, by simp, hy⟩
      · rintro ⟨a, x, b, e, h1, h2⟩
        cases a with
        | nil =>
          simp only [List.nil_append, List.cons.injEq] at e
          rw [← e.1, hy] at h2
          simpa using h2
        | cons z a =>
          simp only [List.cons_append, List.cons.injEq] at e
          have := h1 z (by simp)
          rw [← e.1, hy] at this
          cases this
    | none =>
      simp only [List.findSome?_cons, hy, ih]
      constructor
      · rintro ⟨a, x, b, rfl, h1, h2⟩
        refine ⟨y :: a, x, b, rfl, ?_, h2⟩
        intro z hz
        rcases List.mem_cons.mp hz with rfl | hz
        · exact hy
        · exact h1 z hz
      · rintro ⟨a, x, b, e, h1, h2⟩
        cases a with
        | nil =>
          simp only [List.nil_append, List.cons.injEq] at e
          rw [← e.1, hy] at h2
          cases h2
        | cons z a =>
          simp only [List.cons_append, List.cons.injEq] at e
          exact ⟨a, x, b, e.2, fun w hw => h1 w (List.mem_cons_of_mem _ hw), h2⟩

/-- **C138**: a band is read from the first observation shown that has it, else from the first spectrum shown that covers it;
if there is none the call fails. -/
theorem getBand_exact {M : Type} (d : Data M) (s : Sed) (b : String) :
    (∀ v, getBand d s b = .ok v ↔
      (∃ a x c, phots s = a ++ x :: c ∧ (∀ y ∈ a, d.read b y = none) ∧ d.read b x = some v) ∨
      ((∀ y ∈ phots s, d.read b y = none) ∧
        ∃ a x c, specs s = a ++ x :: c ∧ (∀ y ∈ a, d.read b y = none) ∧ d.read b x = some v)) ∧
    (getBand d s b = .error .type ↔ ∀ i, ∀ h : i < s.vals.length, Shown s i → d.read b s.vals[i] = none) := by
  have hA : ∀ o, o ∈ specs s ∨ o ∈ phots s ↔ ∃ i, ∃ h : i < s.vals.length, s.vals[i] = o ∧ Shown s i := (shown_exact s).2.2
  unfold getBand
  cases hp : (phots s).findSome? (d.read b) with
  | some w =>
    obtain ⟨a, x, c, e1, e2, e3⟩ := (findSome_first _ _ _).mp hp
    simp only [Except.ok.injEq, reduceCtorEq, false_iff]
    refine ⟨fun v => ?_, fun h => ?_⟩
    · constructor
      · rintro rfl; exact .inl ⟨a, x, c, e1, e2, e3⟩
      · rintro (⟨a', x', c', f1, f2, f3⟩ | ⟨h, _⟩)
        · have := (findSome_first (d.read b) (phots s) v).mpr ⟨a', x', c', f1, f2, f3⟩
          rw [hp] at this; simpa using this
        · have := h x (by rw [e1]; simp)
          rw [e3] at this; cases this
    · obtain ⟨i, hi, hx, hsh⟩ := (hA x).mp (.inr (by rw [e1]; simp))
      have := h i hi hsh
      rw [hx, e3] at this; cases this
  | none =>
    have hpn := List.findSome?_eq_none_iff.mp hp
    simp only
    cases hs : (specs s).findSome? (d.read b) with
    | some w =>
      obtain ⟨a, x, c, e1, e2, e3⟩ := (findSome_first _ _ _).mp hs
      simp only [Except.ok.injEq, reduceCtorEq, false_iff]
      refine ⟨fun v => ?_, fun h => ?_⟩
      · constructor
        · rintro rfl; exact .inr ⟨hpn, a, x, c, e1, e2, e3⟩
        · rintro (⟨a', x', c', f1, f2, f3⟩ | ⟨_, a', x', c', f1, f2, f3⟩)
          · have := (findSome_first (d.read b) (phots s) v).mpr ⟨a', x', c', f1, f2, f3⟩
            rw [hp] at this; cases this
          · have := (findSome_first (d.read b) (specs s) v).mpr ⟨a', x', c', f1, f2, f3⟩
            rw [hs] at this; simpa using this
      · obtain ⟨i, hi, hx, hsh⟩ := (hA x).mp (.inl (by rw [e1]; simp))
        have := h i hi hsh
        rw [hx, e3] at this; cases this
    | none =>
      have hsn := List.findSome?_eq_none_iff.mp hs
      simp only [reduceCtorEq, true_iff, false_iff]
      refine ⟨fun v => ?_, fun i hi hsh => ?_⟩
      · rintro (⟨a', x', c', f1, f2, f3⟩ | ⟨_, a', x', c', f1, f2, f3⟩)
        · have := (findSome_first (d.read b) (phots s) v).mpr ⟨a', x', c', f1, f2, f3⟩
          rw [hp] at this; cases this
        · have := (findSome_first (d.read b) (specs s) v).mpr ⟨a', x', c', f1, f2, f3⟩
          rw [hs] at this; cases this
      · rcases (hA s.vals[i]).mpr ⟨i, hi, rfl, hsh⟩ with h | h
        · exact hsn _ h
        · exact hpn _ h

/-- Two spectra and an observation; the second spectrum is masked. -/
def demoSed : Sed := (mask ⟨[.spec 1, .spec 2, .phot 3], []⟩ (.pos 1)).1

example : specs demoSed = [.spec 1] ∧ phots demoSed = [.phot 3] := by decide

/-- Making the masked spectrum current shows it and hides another one. -/
theorem current_moves_masks : specs (makeCurrent demoSed 1) = [.spec 2] ∧ (makeCurrent demoSed 1).masked = [1] := by decide

/-- So does removing a value before it. -/
theorem delete_moves_masks : specs (delAt demoSed 0) = [.spec 2] ∧ phots (delAt demoSed 0) = [] := by decide

end Verif.SedField
