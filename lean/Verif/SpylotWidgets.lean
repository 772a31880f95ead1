import Mathlib.Data.List.Perm.Basic
import Mathlib.Data.List.Nodup
import Mathlib.Data.Rat.Defs
import Mathlib.Algebra.Order.Field.Rat
import Mathlib.Tactic.Common

/-!
# Labels, tools and overlays in Spylot (astropysics/gui/spylot.py 739-743, 858-909, 998-1057) (C230)

What is hung into the plot: the labels of the major lines, and the tool and overlay of the selection mode.  Objects are numbers, new ones are fresh.  Trusted about
the Traits library: a handler `_name_changed` runs after the value was set, and only if it changed.
-/

namespace Verif.SpylotWidgets

/-- A line: its name, `loc`. -/
structure Line where
  name : String
  loc : ℚ
  deriving DecidableEq

/-- A label in the plot. -/
structure Label where
  id : ℕ
  text : String
  x : ℚ
  visible : Bool
  deriving DecidableEq

/-- `featureselmode`. -/
inductive Mode
  | none
  | click
  | range
  | base
  | delete
  deriving DecidableEq

structure State where
  /-- The plot's own tools and overlays, from the constructor. -/
  baseTools : List ℕ
  baseOverlays : List ℕ
  next : ℕ
  tools : List ℕ
  overlays : List ℕ
  labels : List Label
  /-- `maintool` -/
  main : Option ℕ × Option ℕ
  /-- Is the right button the one to drag the plot? -/
  rightDrag : Bool
  mode : Mode
  /-- `majorlineeditor.selectedobjs` -/
  lines : List Line
  z : ℚ
  showLabels : Bool

/-- New labels for lines (spylot.py:870-883), the ids from `n`.  `l.loc` is used, whatever the unit of the spectrum. -/
def makeLabels (z : ℚ) (n : ℕ) : List Line → List Label
  | [] => []
  | l :: ls => ⟨n, l.name, l.loc * (z + 1), true⟩ :: makeLabels z (n + 1) ls

/-- `_rebuild_labels` (spylot.py:865-883). -/
def rebuild (s : State) : State :=
  let cleaned := s.labels.foldl (fun o l => o.erase l.id) s.overlays
  if s.showLabels then
    let new := makeLabels s.z s.next s.lines
    { s with labels := new, overlays := cleaned ++ new.map (·.id), next := s.next + s.lines.length }
  else { s with labels := [], overlays := cleaned }

/-- `_majorlines_changed` (spylot.py:891-905), as far as labels go: nothing if no line is selected. -/
def linesChanged (s : State) : State := if 0 < s.lines.length then rebuild s else s

/-- `_showlabels_changed` (spylot.py:858-864). -/
def showChanged (s : State) : State :=
  if s.labels.length = 0 then rebuild s
  else { s with labels := s.labels.map fun l => { l with visible := s.showLabels } }

/-- The new `maintool` of a mode (spylot.py:1014-1055), and the ids used: a range has a tool and an overlay, a base line is both, clicks have a tool only. -/
def newMain (n : ℕ) : Mode → (Option ℕ × Option ℕ) × ℕ
  | .none => ((none, none), n)
  | .click => ((some n, none), n + 1)
  | .delete => ((some n, none), n + 1)
  | .range => ((some n, some (n + 1)), n + 2)
  | .base => ((some n, some n), n + 1)

/-- `l.remove(a)` unless `a` is `None` (spylot.py:1002-1005). -/
def unhang (a : Option ℕ) (l : List ℕ) : List ℕ :=
  match a with
  | some a => l.erase a
  | none => l

/-- `l.append(a)` unless `a` is `None` (spylot.py:1006-1009). -/
def hang (a : Option ℕ) (l : List ℕ) : List ℕ :=
  match a with
  | some a => l ++ [a]
  | none => l

/-- `_maintool_changed` (spylot.py:998-1009). -/
def maintoolChanged (s : State) (old new : Option ℕ × Option ℕ) : State :=
  { s with tools := hang new.1 (unhang old.1 s.tools), overlays := hang new.2 (unhang old.2 s.overlays) }

inductive Op
  | select (ls : List Line)
  | setZ (z : ℚ)
  | setShow (b : Bool)
  | setMode (m : Mode)

/-- A step of the user. -/
def step (s : State) : Op → State
  | .select ls => linesChanged { s with lines := ls }
  | .setZ z => if z = s.z then s else linesChanged { s with z := z }
  | .setShow b => if b = s.showLabels then s else showChanged { s with showLabels := b }
  | .setMode m =>
    if m = s.mode then s
    else
      let nm := newMain s.next m
      maintoolChanged { s with mode := m, rightDrag := decide (m ≠ .none), main := nm.1, next := nm.2 } s.main nm.1

/-- The start: no labels, no mode (spylot.py:563-655). -/
def start (tools overlays : List ℕ) (next : ℕ) (ls : List Line) (z : ℚ) : State :=
  ⟨tools, overlays, next, tools, overlays, [], (none, none), false, .none, ls, z, false⟩

def run (s : State) (ops : List Op) : State := ops.foldl step s

/-! ## Theorems -/

/-- Text, place and visibility of the labels. -/
def shown (s : State) : List (String × ℚ × Bool) := s.labels.map fun l => (l.text, l.x, l.visible)

/-- The labels the selected lines should have. -/
def wanted (s : State) (b : Bool) : List (String × ℚ × Bool) := s.lines.map fun l => (l.name, l.loc * (s.z + 1), b)

/-- The invariant of the bookkeeping. -/
structure Inv (t o : List ℕ) (s : State) : Prop where
  hbt : s.baseTools = t
  hbo : s.baseOverlays = o
  tools : s.tools = t ++ s.main.1.toList
  overlays : s.overlays.Perm (o ++ (s.labels.map (·.id) ++ s.main.2.toList))
  nodup : s.overlays.Nodup
  fresh : ∀ a ∈ s.overlays, a < s.next
  freshTools : ∀ a ∈ s.tools, a < s.next
  toolFree : ∀ a, s.main.1 = some a → a ∉ t
  drag : s.rightDrag = decide (s.mode ≠ .none)
  mainTool : s.main.1.isSome = decide (s.mode ≠ .none)
  mainOver : s.main.2.isSome = decide (s.mode = .range ∨ s.mode = .base)

theorem makeLabels_ids (z : ℚ) (n : ℕ) (ls : List Line) : (makeLabels z n ls).map (·.id) = List.range' n ls.length := by
  induction ls generalizing n with
  | nil => rfl
  | cons l ls ih => simp [makeLabels, List.range'_succ, ih]

theorem makeLabels_shown (z : ℚ) (n : ℕ) (ls : List Line) :
    (makeLabels z n ls).map (fun l => (l.text, l.x, l.visible)) = ls.map fun l => (l.name, l.loc * (z + 1), true) := by
  induction ls generalizing n with
  | nil => rfl
  | cons l ls ih => simp [makeLabels, ih]

theorem erase_labels (ls : List Label) (o rest : List ℕ) (h : o.Perm (ls.map (·.id) ++ rest)) : (ls.foldl (fun o l => o.erase l.id) o).Perm rest := by
  induction ls generalizing o with
  | nil => simpa using h
  | cons l ls ih =>
    refine ih (o.erase l.id) ?_
    have := h.erase l.id
    simpa using this

theorem rebuild_inv (t o : List ℕ) (s : State) (h : Inv t o s) : Inv t o (rebuild s) := by
  obtain ⟨h1, h2, h3, h4, h5, h6, h7, h8, h9, h10, h11⟩ := h
  have hp : s.overlays.Perm (s.labels.map (·.id) ++ (o ++ s.main.2.toList)) := by
    refine h4.trans ?_
    rw [← List.append_assoc, ← List.append_assoc]
    exact List.Perm.append_right _ List.perm_append_comm
  have hc := erase_labels s.labels s.overlays _ hp
  have hsub : ∀ a ∈ s.labels.foldl (fun o l => o.erase l.id) s.overlays, a ∈ s.overlays := by
    intro a ha
    exact hp.mem_iff.2 (List.mem_append_right _ (hc.mem_iff.1 ha))
  have hnd : (s.labels.foldl (fun o l => o.erase l.id) s.overlays).Nodup := by
    rw [hc.nodup_iff]
    exact (hp.nodup_iff.1 h5).of_append_right
  unfold rebuild
  split
  · constructor <;> simp only []
    · exact h1
    · exact h2
    · exact h3
    · rw [makeLabels_ids]
      refine (hc.append_right _).trans ?_
      rw [List.append_assoc]
      exact List.Perm.append_left _ List.perm_append_comm
    · rw [makeLabels_ids, List.nodup_append]
      refine ⟨hnd, List.nodup_range', ?_⟩
      rintro a ha b hb rfl
      have := h6 a (hsub a ha)
      rw [List.mem_range'_1] at hb
      omega
    · intro a ha
      rw [makeLabels_ids] at ha
      rcases List.mem_append.1 ha with ha | ha
      · exact Nat.lt_add_right _ (h6 a (hsub a ha))
      · rw [List.mem_range'_1] at ha; omega
    · exact fun a ha => Nat.lt_add_right _ (h7 a ha)
    · exact h8
    · exact h9
    · exact h10
    · exact h11
  · constructor <;> simp only [List.map_nil, List.nil_append]
    · exact h1
    · exact h2
    · exact h3
    · exact hc
    · exact hnd
    · exact fun a ha => h6 a (hsub a ha)
    · exact h7
    · exact h8
    · exact h9
    · exact h10
    · exact h11

theorem linesChanged_inv (t o : List ℕ) (s : State) (h : Inv t o s) : Inv t o (linesChanged s) := by
  unfold linesChanged
  split
  · exact rebuild_inv t o s h
  · exact h

theorem showChanged_inv (t o : List ℕ) (s : State) (h : Inv t o s) : Inv t o (showChanged s) := by
  unfold showChanged
  split
  · exact rebuild_inv t o s h
  · obtain ⟨h1, h2, h3, h4, h5, h6, h7, h8, h9, h10, h11⟩ := h
    constructor <;> simp only [List.map_map] <;> assumption

theorem mode_inv (t o : List ℕ) (s : State) (h : Inv t o s) (hto : ∀ a ∈ t, a < s.next) (m : Mode) :
    Inv t o (maintoolChanged { s with mode := m, rightDrag := decide (m ≠ .none), main := (newMain s.next m).1, next := (newMain s.next m).2 } s.main (newMain s.next m).1) := by
  obtain ⟨h1, h2, h3, h4, h5, h6, h7, h8, h9, h10, h11⟩ := h
  obtain ⟨bt, bo, next, tools, overlays, labels, ⟨m1, m2⟩, rd, mode, lines, z, sl⟩ := s
  simp only at h1 h2 h3 h4 h5 h6 h7 h8 h9 h10 h11 hto
  subst h1 h2
  have ht : unhang m1 tools = bt := by
    cases m1 with
    | none => simpa [unhang] using h3
    | some a =>
      rw [h3]
      simp only [Option.toList_some, unhang]
      rw [List.erase_append_right _ (h8 a rfl)]
      simp
  have ho : (unhang m2 overlays).Perm (bo ++ labels.map (fun l : Label => l.id)) := by
    cases m2 with
    | none => simpa [unhang] using h4
    | some a =>
      have hp : overlays.Perm (a :: (bo ++ labels.map (fun l : Label => l.id))) := by
        refine h4.trans ?_
        rw [← List.append_assoc]
        exact List.perm_append_singleton _ _
      have := hp.erase a
      simpa [unhang] using this
  have hmem : ∀ a ∈ unhang m2 overlays, a ∈ overlays := by
    intro a ha
    cases m2 with
    | none => exact ha
    | some b => exact List.mem_of_mem_erase ha
  have hn : (unhang m2 overlays).Nodup := by
    cases m2 with
    | none => exact h5
    | some b => exact h5.erase b
  generalize hoo : unhang m2 overlays = oo at ho hmem hn
  have hf : next ∉ oo ∧ next + 1 ∉ oo := ⟨fun h => absurd (h6 _ (hmem _ h)) (by omega), fun h => absurd (h6 _ (hmem _ h)) (by omega)⟩
  have hfo : ∀ a ∈ oo, a < next := fun a ha => h6 a (hmem a ha)
  have hft : next ∉ bt := fun h => absurd (hto _ h) (by omega)
  have add1 : ∀ a, (oo ++ [a]).Perm (bo ++ (labels.map (fun l : Label => l.id) ++ [a])) := by
    intro a; rw [← List.append_assoc]; exact ho.append_right _
  have addN : ∀ a, a ∉ oo → (oo ++ [a]).Nodup := by
    intro a ha
    rw [List.nodup_append]
    refine ⟨hn, by simp, ?_⟩
    rintro b hb c hc rfl
    rw [List.mem_singleton] at hc
    exact ha (hc ▸ hb)
  cases m
  · constructor <;> simp only [maintoolChanged, newMain, hang, ht, hoo] <;> try trivial
    · simp
    · simpa using ho
    · intro a h; cases h
  · constructor <;> simp only [maintoolChanged, newMain, hang, ht, hoo] <;> try trivial
    · simpa using ho
    · exact fun a ha => Nat.lt_succ_of_lt (hfo a ha)
    · intro a ha
      rcases List.mem_append.1 ha with ha | ha
      · exact Nat.lt_succ_of_lt (hto a ha)
      · rw [List.mem_singleton] at ha; omega
    · rintro a h; cases h; exact hft
  · constructor <;> simp only [maintoolChanged, newMain, hang, ht, hoo] <;> try trivial
    · exact add1 _
    · exact addN _ hf.2
    · intro a ha
      rcases List.mem_append.1 ha with ha | ha
      · have := hfo a ha; omega
      · rw [List.mem_singleton] at ha; omega
    · intro a ha
      rcases List.mem_append.1 ha with ha | ha
      · have := hto a ha; omega
      · rw [List.mem_singleton] at ha; omega
    · rintro a h; cases h; exact hft
  · constructor <;> simp only [maintoolChanged, newMain, hang, ht, hoo] <;> try trivial
    · exact add1 _
    · exact addN _ hf.1
    · intro a ha
      rcases List.mem_append.1 ha with ha | ha
      · have := hfo a ha; omega
      · rw [List.mem_singleton] at ha; omega
    · intro a ha
      rcases List.mem_append.1 ha with ha | ha
      · have := hto a ha; omega
      · rw [List.mem_singleton] at ha; omega
    · rintro a h; cases h; exact hft
  · constructor <;> simp only [maintoolChanged, newMain, hang, ht, hoo] <;> try trivial
    · simpa using ho
    · exact fun a ha => Nat.lt_succ_of_lt (hfo a ha)
    · intro a ha
      rcases List.mem_append.1 ha with ha | ha
      · exact Nat.lt_succ_of_lt (hto a ha)
      · rw [List.mem_singleton] at ha; omega
    · rintro a h; cases h; exact hft

theorem step_inv (t o : List ℕ) (s : State) (op : Op) (h : Inv t o s) : Inv t o (step s op) := by
  have hto : ∀ a ∈ t, a < s.next := fun a ha => h.freshTools a (by rw [h.tools]; exact List.mem_append_left _ ha)
  cases op with
  | select ls => exact linesChanged_inv t o _ ⟨h.1, h.2, h.3, h.4, h.5, h.6, h.7, h.8, h.9, h.10, h.11⟩
  | setZ z =>
    simp only [step]
    split
    · exact h
    · exact linesChanged_inv t o _ ⟨h.1, h.2, h.3, h.4, h.5, h.6, h.7, h.8, h.9, h.10, h.11⟩
  | setShow b =>
    simp only [step]
    split
    · exact h
    · exact showChanged_inv t o _ ⟨h.1, h.2, h.3, h.4, h.5, h.6, h.7, h.8, h.9, h.10, h.11⟩
  | setMode m =>
    simp only [step]
    split
    · exact h
    · exact mode_inv t o s h hto m

theorem run_inv (t o : List ℕ) (s : State) (ops : List Op) (h : Inv t o s) : Inv t o (run s ops) := by
  induction ops generalizing s with
  | nil => exact h
  | cons op ops ih => exact ih _ (step_inv t o s op h)

/-- The plot of the constructor: its objects are different ones. -/
def Fresh (tools overlays : List ℕ) (next : ℕ) : Prop := overlays.Nodup ∧ (∀ a ∈ tools, a < next) ∧ ∀ a ∈ overlays, a < next

/-- **C230.** After any history the plot has its own tools and at most one more, that of the mode, and its own overlays, one for every label and that of the mode, each once: nothing
piles up and nothing is lost. -/
theorem hung_in (tools overlays : List ℕ) (next : ℕ) (hf : Fresh tools overlays next) (ls : List Line) (z : ℚ) (ops : List Op) :
    (run (start tools overlays next ls z) ops).tools = tools ++ (run (start tools overlays next ls z) ops).main.1.toList ∧
    (run (start tools overlays next ls z) ops).overlays.Nodup ∧
    (run (start tools overlays next ls z) ops).overlays.Perm
      (overlays ++ ((run (start tools overlays next ls z) ops).labels.map (·.id) ++ (run (start tools overlays next ls z) ops).main.2.toList)) := by
  have h : Inv tools overlays (run (start tools overlays next ls z) ops) := by
    refine run_inv _ _ _ _ ?_
    exact ⟨rfl, rfl, by simp [start], by simp [start], hf.1, hf.2.2, hf.2.1, (by intro a h; cases h), rfl, rfl, rfl⟩
  exact ⟨h.tools, h.nodup, h.overlays⟩

/-- **C230.** There is a tool, and the plot is dragged with the right button, exactly in the modes that select; an overlay exactly for ranges and base lines. -/
theorem mode_tools (tools overlays : List ℕ) (next : ℕ) (hf : Fresh tools overlays next) (ls : List Line) (z : ℚ) (ops : List Op) :
    ((run (start tools overlays next ls z) ops).main.1.isSome = true ↔ (run (start tools overlays next ls z) ops).mode ≠ .none) ∧
    ((run (start tools overlays next ls z) ops).rightDrag = true ↔ (run (start tools overlays next ls z) ops).mode ≠ .none) ∧
    ((run (start tools overlays next ls z) ops).main.2.isSome = true ↔
      (run (start tools overlays next ls z) ops).mode = .range ∨ (run (start tools overlays next ls z) ops).mode = .base) := by
  have h : Inv tools overlays (run (start tools overlays next ls z) ops) := by
    refine run_inv _ _ _ _ ?_
    exact ⟨rfl, rfl, by simp [start], by simp [start], hf.1, hf.2.2, hf.2.1, (by intro a h; cases h), rfl, rfl, rfl⟩
  refine ⟨?_, ?_, ?_⟩
  · rw [h.mainTool, decide_eq_true_eq]
  · rw [h.drag, decide_eq_true_eq]
  · rw [h.mainOver, decide_eq_true_eq]

/-- What is known of the labels. -/
def LabelInv (s : State) : Prop :=
  (s.lines ≠ [] → (s.showLabels = true → shown s = wanted s true) ∧ (s.showLabels = false → s.labels = [] ∨ shown s = wanted s false)) ∧
  (s.showLabels = false → ∀ l ∈ s.labels, l.visible = false) ∧ (s.showLabels = true → ∀ l ∈ s.labels, l.visible = true)

theorem rebuild_labels (s : State) :
    (s.showLabels = true → shown (rebuild s) = wanted s true) ∧ (s.showLabels = false → (rebuild s).labels = []) ∧
    (rebuild s).lines = s.lines ∧ (rebuild s).z = s.z ∧ (rebuild s).showLabels = s.showLabels := by
  unfold rebuild
  split
  · next h =>
    refine ⟨fun _ => makeLabels_shown _ _ _, ?_, rfl, rfl, rfl⟩
    intro h'; rw [h] at h'; cases h'
  · next h => exact ⟨fun h' => absurd h' h, fun _ => rfl, rfl, rfl, rfl⟩

theorem rebuild_linv (s : State) : LabelInv (rebuild s) := by
  obtain ⟨h1, h2, h3, h4, h5⟩ := rebuild_labels s
  have hw : ∀ b, wanted (rebuild s) b = wanted s b := by intro b; unfold wanted; rw [h3, h4]
  refine ⟨?_, ?_, ?_⟩
  · intro _
    rw [h5, hw]
    exact ⟨h1, fun h => Or.inl (h2 h)⟩
  · rw [h5]; intro h l hl; rw [h2 h] at hl; cases hl
  · rw [h5]
    intro h l hl
    have := h1 h
    have hm : (l.text, l.x, l.visible) ∈ wanted s true := by rw [← this]; exact List.mem_map_of_mem hl
    obtain ⟨a, _, e⟩ := List.mem_map.1 hm
    exact (congrArg (fun t => t.2.2) e).symm

theorem step_linv (s : State) (op : Op) (h : LabelInv s) : LabelInv (step s op) := by
  have changed : ∀ s' : State, s'.labels = s.labels → s'.showLabels = s.showLabels → LabelInv (linesChanged s') := by
    intro s' hl hs
    unfold linesChanged
    split
    · exact rebuild_linv s'
    · next hn =>
      have hn' : s'.lines = [] := List.eq_nil_of_length_eq_zero (by omega)
      exact ⟨fun h0 => absurd hn' h0, by rw [hl, hs]; exact h.2.1, by rw [hl, hs]; exact h.2.2⟩
  cases op with
  | select ls => exact changed _ rfl rfl
  | setZ z =>
    simp only [step]
    split
    · exact h
    · exact changed _ rfl rfl
  | setMode m =>
    simp only [step]
    split
    · exact h
    · exact h
  | setShow b =>
    simp only [step]
    split
    · exact h
    · next hb =>
      unfold showChanged
      split
      · exact rebuild_linv _
      · next hl =>
        have hne : s.labels ≠ [] := fun h0 => hl (by show s.labels.length = 0; rw [h0]; rfl)
        have key : ∀ c, shown s = wanted s c → s.labels.map (fun l => (l.text, l.x, b)) = s.lines.map fun l => (l.name, l.loc * (s.z + 1), b) := by
          intro c e
          have := congrArg (List.map fun t : String × ℚ × Bool => (t.1, t.2.1, b)) e
          simpa [shown, wanted, Function.comp_def] using this
        refine ⟨?_, ?_, ?_⟩
        · intro hln
          have h1 : ∃ c, shown s = wanted s c := by
            cases hs : s.showLabels with
            | true => exact ⟨true, (h.1 hln).1 hs⟩
            | false =>
              rcases (h.1 hln).2 hs with h0 | h0
              · exact absurd h0 hne
              · exact ⟨false, h0⟩
          obtain ⟨c, hc⟩ := h1
          have := key c hc
          simp only [shown, wanted, List.map_map]
          constructor
          · rintro rfl; exact this
          · rintro rfl; exact Or.inr this
        · intro hbf l hl
          obtain ⟨l', _, rfl⟩ := List.mem_map.1 hl
          exact hbf
        · intro hbt l hl
          obtain ⟨l', _, rfl⟩ := List.mem_map.1 hl
          exact hbt

theorem run_linv (s : State) (ops : List Op) (h : LabelInv s) : LabelInv (run s ops) := by
  induction ops generalizing s with
  | nil => exact h
  | cons op ops ih => exact ih _ (step_linv s op h)

/-- **C230.** After any history: with labels switched on and some major line selected, the labels are exactly those of the selected lines, in order, at their observed places, all
visible; with labels switched off none is visible. -/
theorem labels_current (tools overlays : List ℕ) (next : ℕ) (ls : List Line) (z : ℚ) (ops : List Op) (s : State)
    (hs : s = run (start tools overlays next ls z) ops) :
    (s.showLabels = true → s.lines ≠ [] → s.labels.map (fun l => (l.text, l.x, l.visible)) = s.lines.map fun l => (l.name, l.loc * (1 + s.z), true)) ∧
    (s.showLabels = false → ∀ l ∈ s.labels, l.visible = false) := by
  subst hs
  have h : LabelInv (run (start tools overlays next ls z) ops) := by
    refine run_linv _ _ ⟨fun _ => ⟨(by intro h; cases h), fun _ => Or.inl rfl⟩, ?_, ?_⟩
    · intro _ l hl; cases hl
    · intro _ l hl; cases hl
  refine ⟨fun h1 h2 => ?_, h.2.1⟩
  have := (h.1 h2).1 h1
  unfold shown wanted at this
  rw [this]
  apply List.map_congr_left
  intro l _
  rw [add_comm]

/-- **C230.** Deselecting all lines leaves the labels where they are, in every state, and so does every change of the redshift from then on. -/
theorem stale_labels (s : State) (zs : List ℚ) :
    (run s (.select [] :: zs.map .setZ)).labels = s.labels ∧ (run s (.select [] :: zs.map .setZ)).overlays = s.overlays := by
  have gen : ∀ (zs : List ℚ) (s : State), s.lines = [] → (run s (zs.map .setZ)).labels = s.labels ∧ (run s (zs.map .setZ)).overlays = s.overlays := by
    intro zs
    induction zs with
    | nil => intro s _; exact ⟨rfl, rfl⟩
    | cons z zs ih =>
      intro s hs
      have e : (step s (.setZ z)).lines = [] ∧ (step s (.setZ z)).labels = s.labels ∧ (step s (.setZ z)).overlays = s.overlays := by
        simp only [step]
        split
        · exact ⟨hs, rfl, rfl⟩
        · simp [linesChanged, hs]
      obtain ⟨i1, i2⟩ := ih _ e.1
      exact ⟨i1.trans e.2.1, i2.trans e.2.2⟩
  exact gen zs (step s (.select [])) (by rfl)

/-! ## Concrete cases -/

def ha : Line := ⟨"Ha", 6563⟩
def oiii : Line := ⟨"OIII", 5007⟩

def final : State := run (start [1, 2] [2, 3] 10 [ha] 0) [.setShow true, .setMode .range, .select [oiii, ha], .setZ 1, .setMode .base, .setShow false, .setMode .none, .setShow true]

example : shown final = [("OIII", 10014, true), ("Ha", 13126, true)] ∧ final.tools = [1, 2] ∧ final.overlays.length = 4 := by decide +kernel

example : Fresh [1, 2] [2, 3] 10 := by unfold Fresh; decide

end Verif.SpylotWidgets
