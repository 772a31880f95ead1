import Mathlib.Data.List.Perm.Basic
import Mathlib.Data.List.Nodup
import Mathlib.Data.List.Induction
import Mathlib.Data.Rat.Defs
import Mathlib.Algebra.Order.Field.Rat
import Mathlib.Tactic.Linarith
import Mathlib.Tactic.SplitIfs

/-!
# Line lists and feature lists in Spylot (astropysics/gui/spylot.py, 86-145, 349-357, 939-950, 1084-1116, 1165-1174) (C238, C239)
-/

namespace Verif.SpylotLists

inductive Err
  | value | index
  deriving DecidableEq

/-! ### Lines -/

/-- A known line (spec.py:1695-1717): its name, and its place rounded to a whole number, as text. -/
structure Line where
  name : String
  place : String
  deriving DecidableEq

/-- Is one text part of another? -/
def part : List Char → List Char → Bool
  | p, [] => p.isEmpty
  | p, c :: s => p.isPrefixOf (c :: s) || part p s

/-- `KnownFeature.__str__` (spec.py:1713-1718). -/
def Line.str (l : Line) : String := if part l.place.toList l.name.toList then l.name else l.name ++ "(" ++ l.place ++ ")"

/-- A line editor: its candidates and the names selected (spylot.py:86-92). -/
structure Editor where
  cands : List Line
  names : List String

/-- `selectedobjs` (spylot.py:116-118): for each name the first candidate with this text; `tuple.index` raises ValueError. -/
def find (cs : List Line) : List String → Except Err (List Line)
  | [] => .ok []
  | n :: ns => match cs.find? fun c => c.str = n with
    | none => .error .value
    | some c => match find cs ns with
      | .error e => .error e
      | .ok l => .ok (c :: l)

def Editor.selected (e : Editor) : Except Err (List Line) := find e.cands e.names

/-- What `selectedobjs` can be set to: texts, places or lines. -/
inductive Item
  | text (s : String)
  | place (p : String)
  | line (l : Line)

/-- Is an item among the candidates? -/
def known (cs : List Line) : Item → Bool
  | .text s => cs.any fun c => c.str = s
  | .place p => cs.any fun c => c.place = p
  | .line l => cs.any fun c => c = l

/-- Setting `selectedobjs` (spylot.py:121-145): the names are stored in `self.names`, which nothing reads. Places are compared as numbers; here by their text. -/
def Editor.setSelected (e : Editor) (v : List Item) : Editor × Except Err Unit := (e, if v.all (known e.cands) then .ok () else .error .value)

/-- `_get_default_lines` (spylot.py:1165-1174): candidates and the names of the major and the minor lines; for stars the last test compares lines with names and so
always holds. -/
def defaults (load : String → List Line) (kind : String) : List Line × List String × List String :=
  let cs := load kind
  let galaxy := ["Ly_alpha", "H_alpha", "H_beta", "H_gamma", "[OIII]_5007", "[OIII]_4959", "[OII]_3727", "Balmer_limit", "[SII]_6717", "[SII]_6731"]
  let stellar := ["H_alpha", "H_beta", "CaII_a", "CaII_b", "CaII_c", "NaI_a", "NaI_b"]
  if kind = "galaxy" then (cs, (cs.filter fun c => c.name ∈ galaxy).map Line.str, (cs.filter fun c => c.name ∉ galaxy).map Line.str)
  else if kind = "stellar" then (cs, (cs.filter fun c => c.name ∈ stellar).map Line.str, cs.map Line.str)
  else (cs, [], [])

/-- `linenamelist` (spylot.py:939-950): `max` of nothing raises ValueError. -/
def lineNames (major minor : List Line) : Except Err (List String) :=
  let ns := major.map (·.name) ++ minor.map (·.name)
  if ns = [] then .error .value
  else .ok (major.map (·.name) ++ String.ofList (List.replicate ((ns.map String.length).foldr max 0) '-') :: minor.map (·.name))

/-! ### Features -/

/-- A feature of the spectrum: who it is and its extent. -/
structure Feature where
  id : ℕ
  ext : ℚ × ℚ
  deriving DecidableEq

/-- The features of the spectrum, the extents that are highlighted, the number selected in the table (negative: none), the highlighted number. -/
structure State where
  feats : List Feature
  shown : List (ℚ × ℚ)
  sel : ℤ
  mark : Option ℤ
  deriving DecidableEq

/-- `_update_featurelist` (spylot.py:1112-1118). -/
def update (s : State) : State := { s with shown := s.feats.map (·.ext) }

/-- Python's `del l[i]`. -/
def delAt (l : List Feature) (i : ℤ) : Except Err (List Feature) :=
  if 0 ≤ i ∧ i < l.length then .ok (l.eraseIdx i.toNat)
  else if i < 0 ∧ 0 ≤ i + l.length then .ok (l.eraseIdx (i + l.length).toNat)
  else .error .index

/-- What the user types as extent (spylot.py:353-356), the numbers between the commas: if the first is greater than the second all are reversed.  Only pairs can be
highlighted. -/
def typed : List ℚ → Except Err (List ℚ)
  | a :: b :: l => .ok (if a ≤ b then a :: b :: l else (a :: b :: l).reverse)
  | _ => .error .index

inductive Op
  | add (f : Feature)
  | select (i : ℤ)
  | delete
  | clear
  | edit (i : ℕ) (a b : ℚ)
  | recalc (e : ℚ × ℚ)

/-- `_clearfeatures_fired` (spylot.py:1095-1097): as many times as there are features the first is deleted. -/
def clearAll : ℕ → State → State
  | 0, s => s
  | n + 1, s => match delAt s.feats 0 with
    | .ok l => clearAll n (update { s with feats := l })
    | .error _ => s

/-- A step: buttons are enabled only if there are features and, except for clearing, one is selected (spylot.py:541-544).  Recalculating (1090-1094) gives the
selected feature another extent and does not update the highlights. -/
def step (s : State) : Op → State × Except Err Unit
  | .add f => (update { s with feats := s.feats ++ [f] }, .ok ())
  | .select i => ({ s with sel := i, mark := if 0 ≤ i then some i else none }, .ok ())
  | .delete =>
    if s.feats ≠ [] ∧ 0 ≤ s.sel then
      match delAt s.feats s.sel with
      | .ok l => (update { s with feats := l }, .ok ())
      | .error e => (s, .error e)
    else (s, .ok ())
  | .clear => (clearAll s.feats.length s, .ok ())
  | .edit i a b =>
    match s.feats[i]? with
    | none => (s, .ok ())
    | some f => (update { s with feats := s.feats.set i { f with ext := if a ≤ b then (a, b) else (b, a) } }, .ok ())
  | .recalc e =>
    if s.feats ≠ [] ∧ 0 ≤ s.sel then
      match s.feats[s.sel.toNat]? with
      | none => (s, .error .index)
      | some f => ({ s with feats := s.feats.set s.sel.toNat { f with ext := e } }, .ok ())
    else (s, .ok ())

def run (s : State) (ops : List Op) : State := ops.foldl (fun s o => (step s o).1) s

/-! ## Theorems on lines -/

/-- Each object selected is the first candidate with its name. -/
theorem find_spec (cs : List Line) : ∀ (ns : List String) (l : List Line), find cs ns = .ok l → l.map Line.str = ns ∧
    ∀ c ∈ l, ∃ before after, cs = before ++ c :: after ∧ ∀ b ∈ before, b.str ≠ c.str := by
  intro ns
  induction ns with
  | nil => intro l h; cases h; exact ⟨rfl, by simp⟩
  | cons n ns ih =>
    intro l h
    unfold find at h
    cases hf : cs.find? fun c => c.str = n with
    | none => rw [hf] at h; cases h
    | some c =>
      rw [hf] at h
      cases hr : find cs ns with
      | error e => rw [hr] at h; cases h
      | ok r =>
        rw [hr] at h; cases h
        obtain ⟨h1, h2⟩ := ih r hr
        have hc : c.str = n := by simpa using List.find?_some hf
        refine ⟨by rw [List.map_cons, hc, h1], ?_⟩
        intro d hd
        rcases List.mem_cons.1 hd with rfl | hd
        · obtain ⟨-, a, b, he, hb⟩ := List.find?_eq_some_iff_append.1 hf
          exact ⟨a, b, he, fun x hx => by rw [hc]; simpa using hb x hx⟩
        · exact h2 d hd

/-- **C238.** It is a ValueError exactly if some name is the text of no candidate. -/
theorem find_fails (cs : List Line) (ns : List String) : find cs ns = .error .value ↔ ∃ n ∈ ns, ∀ c ∈ cs, c.str ≠ n := by
  induction ns with
  | nil => simp [find]
  | cons n ns ih =>
    unfold find
    cases hf : cs.find? fun c => c.str = n with
    | none =>
      have := List.find?_eq_none.1 hf
      simp only [decide_eq_true_eq] at this
      simp only [true_iff]
      exact ⟨n, List.mem_cons_self, this⟩
    | some c =>
      have hc : c.str = n := by simpa using List.find?_some hf
      have hm := List.mem_of_find?_eq_some hf
      have : (∃ m ∈ n :: ns, ∀ d ∈ cs, d.str ≠ m) ↔ ∃ m ∈ ns, ∀ d ∈ cs, d.str ≠ m := by
        constructor
        · rintro ⟨m, hm', h⟩
          rcases List.mem_cons.1 hm' with rfl | h'
          · exact absurd hc (h c hm)
          · exact ⟨m, h', h⟩
        · rintro ⟨m, hm', h⟩; exact ⟨m, List.mem_cons_of_mem _ hm', h⟩
      rw [this, ← ih]
      cases hr : find cs ns with
      | error e => cases e <;> simp
      | ok r => simp

/-- **C238.** If the texts of the candidates are all different, selecting candidates by their texts selects these, in the order they were selected in. -/
theorem select_exact (cs : List Line) (h : (cs.map Line.str).Nodup) (l : List Line) (hl : ∀ c ∈ l, c ∈ cs) : Editor.selected ⟨cs, l.map Line.str⟩ = .ok l := by
  unfold Editor.selected
  simp only
  induction l with
  | nil => rfl
  | cons c l ih =>
    have hc := hl c List.mem_cons_self
    have : cs.find? (fun d => d.str = c.str) = some c := by
      obtain ⟨a, b, rfl⟩ := List.append_of_mem hc
      rw [List.find?_eq_some_iff_append]
      refine ⟨by simp, a, b, rfl, ?_⟩
      intro x hx
      rw [List.map_append, List.map_cons] at h
      have hd := List.nodup_append.1 h
      have := hd.2.2 x.str (List.mem_map_of_mem hx) c.str List.mem_cons_self
      simpa using this
    simp only [List.map_cons, find, this, ih fun d hd => hl d (List.mem_cons_of_mem _ hd)]

/-- **C238.** A candidate whose text an earlier one has can never be selected. -/
theorem shadowed (before after : List Line) (c d : Line) (hd : d ∈ before) (hs : d.str = c.str) (hc : c ∉ before) (ha : c ∉ after) (ns : List String) (l : List Line)
    (h : Editor.selected ⟨before ++ c :: after, ns⟩ = .ok l) : c ∉ l := by
  intro hcl
  obtain ⟨b, a, he, hb⟩ := (find_spec _ ns l h).2 c hcl
  have hbe : b = before := by
    rcases List.append_eq_append_iff.1 he with ⟨x, h1, h2⟩ | ⟨x, h1, h2⟩
    · cases x with
      | nil => simpa using h1
      | cons y x =>
        rw [List.cons_append] at h2
        have h3 := List.cons.inj h2
        rw [← h3.1] at h1
        exfalso
        refine ha ?_
        rw [h3.2]; simp
    · cases x with
      | nil => simpa using h1.symm
      | cons y x =>
        rw [List.cons_append] at h2
        have h3 := List.cons.inj h2
        exfalso
        refine hc ?_
        rw [h1, ← h3.1]; simp
  subst hbe
  exact hb d hd hs

/-- **C238.** Setting the selected lines never changes the selection: it is a ValueError for items that are no candidates, and without effect for others. -/
theorem set_without_effect (e : Editor) (v : List Item) : (e.setSelected v).1.selected = e.selected ∧
    ((e.setSelected v).2 = .ok () ↔ ∀ i ∈ v, known e.cands i = true) := by
  refine ⟨rfl, ?_⟩
  unfold Editor.setSelected
  simp only [← List.all_eq_true]
  split
  · next h => simp [h]
  · next h => simp [h]

/-- **C238.** For galaxies every candidate is either a major or a minor line; for stars every candidate is a minor line, the major ones too; for other lists nothing
is selected. -/
theorem default_lists (load : String → List Line) :
    ((defaults load "galaxy").2.1 ++ (defaults load "galaxy").2.2).Perm ((load "galaxy").map Line.str) ∧
    (∀ c ∈ load "galaxy", (c.name ∈ ["Ly_alpha", "H_alpha", "H_beta", "H_gamma", "[OIII]_5007", "[OIII]_4959", "[OII]_3727", "Balmer_limit", "[SII]_6717", "[SII]_6731"] →
      c.str ∈ (defaults load "galaxy").2.1)) ∧
    (defaults load "stellar").2.2 = (load "stellar").map Line.str ∧ (∀ n ∈ (defaults load "stellar").2.1, n ∈ (defaults load "stellar").2.2) ∧
    (∀ c ∈ load "stellar", (c.name ∈ ["H_alpha", "H_beta", "CaII_a", "CaII_b", "CaII_c", "NaI_a", "NaI_b"] → c.str ∈ (defaults load "stellar").2.1)) ∧
    (∀ k, k ≠ "galaxy" → k ≠ "stellar" → (defaults load k).2 = ([], [])) := by
  refine ⟨?_, ?_, ?_, ?_, ?_, ?_⟩
  · simp only [defaults, if_true, ← List.map_append]
    refine List.Perm.map _ ?_
    have := List.filter_append_perm (fun c : Line => decide (c.name ∈ ["Ly_alpha", "H_alpha", "H_beta", "H_gamma", "[OIII]_5007", "[OIII]_4959", "[OII]_3727", "Balmer_limit", "[SII]_6717", "[SII]_6731"])) (load "galaxy")
    simpa only [decide_not] using this
  · intro c hc hn
    simp only [defaults, if_true]
    exact List.mem_map_of_mem (List.mem_filter.2 ⟨hc, by simpa using hn⟩)
  · rfl
  · intro n hn
    have e1 : (defaults load "stellar").2.1 = ((load "stellar").filter fun c => c.name ∈ ["H_alpha", "H_beta", "CaII_a", "CaII_b", "CaII_c", "NaI_a", "NaI_b"]).map Line.str := rfl
    have e2 : (defaults load "stellar").2.2 = (load "stellar").map Line.str := rfl
    rw [e1] at hn
    rw [e2]
    obtain ⟨c, hc, rfl⟩ := List.mem_map.1 hn
    exact List.mem_map_of_mem (List.mem_filter.1 hc).1
  · intro c hc hn
    have e1 : (defaults load "stellar").2.1 = ((load "stellar").filter fun c => c.name ∈ ["H_alpha", "H_beta", "CaII_a", "CaII_b", "CaII_c", "NaI_a", "NaI_b"]).map Line.str := rfl
    rw [e1]
    exact List.mem_map_of_mem (List.mem_filter.2 ⟨hc, by simpa using hn⟩)
  · intro k h1 h2
    simp [defaults, h1, h2]

theorem foldr_max (l : List ℕ) : (∀ n ∈ l, n ≤ l.foldr max 0) ∧ (l ≠ [] → l.foldr max 0 ∈ l) := by
  induction l with
  | nil => simp
  | cons a l ih =>
    refine ⟨?_, ?_⟩
    · intro n hn
      rcases List.mem_cons.1 hn with rfl | hn
      · exact le_max_left _ _
      · exact le_trans (ih.1 n hn) (le_max_right _ _)
    · intro _
      simp only [List.foldr_cons]
      rcases le_total (l.foldr max 0) a with h | h
      · rw [max_eq_left h]; exact List.mem_cons_self
      · rw [max_eq_right h]
        cases l with
        | nil => simp only [List.foldr_nil] at h ⊢; have : a = 0 := by omega
                 rw [this]; exact List.mem_cons_self
        | cons b l => exact List.mem_cons_of_mem _ (ih.2 (by simp))

/-- **C238.** The names to choose from are those of the major lines, a rule as long as the longest name, and those of the minor lines; without any line it is a
ValueError. -/
theorem names_exact (major minor : List Line) : (lineNames major minor = .error .value ↔ major = [] ∧ minor = []) ∧
    ∀ r, lineNames major minor = .ok r → ∃ k, r = major.map (·.name) ++ String.ofList (List.replicate k '-') :: minor.map (·.name) ∧
      (∀ l ∈ major ++ minor, l.name.length ≤ k) ∧ ∃ l ∈ major ++ minor, l.name.length = k := by
  unfold lineNames
  simp only []
  split
  · next h =>
    refine ⟨?_, fun r hr => by cases hr⟩
    have := List.append_eq_nil_iff.1 h
    simp only [List.map_eq_nil_iff] at this
    simp [this]
  · next h =>
    refine ⟨?_, ?_⟩
    · constructor
      · intro h2; cases h2
      · rintro ⟨rfl, rfl⟩; exact absurd rfl h
    · intro r hr
      cases hr
      have hm := foldr_max ((major.map (·.name) ++ minor.map (·.name)).map String.length)
      refine ⟨_, rfl, ?_, ?_⟩
      · intro l hl
        refine hm.1 _ (List.mem_map_of_mem ?_)
        rw [← List.map_append]
        exact List.mem_map_of_mem hl
      · have := hm.2 (by simpa using h)
        obtain ⟨n, hn, he⟩ := List.mem_map.1 this
        rw [← List.map_append] at hn
        obtain ⟨l, hl, rfl⟩ := List.mem_map.1 hn
        exact ⟨l, hl, he⟩

/-! ## Theorems on features -/

theorem clearAll_spec (n : ℕ) : ∀ s : State, s.feats.length = n → (clearAll n s).feats = [] ∧ (s.shown = s.feats.map (·.ext) → (clearAll n s).shown = []) ∧
    (0 < n → (clearAll n s).shown = []) ∧ (clearAll n s).sel = s.sel ∧ (clearAll n s).mark = s.mark := by
  induction n with
  | zero =>
    intro s h
    have := List.length_eq_zero_iff.1 h
    exact ⟨this, fun hs => by show s.shown = []; rw [hs, this]; rfl, by omega, rfl, rfl⟩
  | succ n ih =>
    intro s h
    have hd : delAt s.feats 0 = .ok (s.feats.eraseIdx 0) := by unfold delAt; rw [if_pos ⟨le_rfl, by omega⟩]; rfl
    unfold clearAll
    rw [hd]
    simp only
    have := ih (update { s with feats := s.feats.eraseIdx 0 }) (by simp only [update]; rw [List.length_eraseIdx_of_lt (by omega)]; omega)
    exact ⟨this.1, fun _ => this.2.1 rfl, fun _ => this.2.1 rfl, this.2.2.2.1, this.2.2.2.2⟩

/-- Nothing but recalculating lets the highlights and the features differ. -/
def Synced (s : State) : Prop := s.shown = s.feats.map (·.ext)

def isRecalc : Op → Bool
  | .recalc _ => true
  | _ => false

theorem step_synced (s : State) (o : Op) (h : Synced s) (ho : isRecalc o = false) : Synced (step s o).1 := by
  cases o with
  | add f => rfl
  | select i => exact h
  | delete =>
    simp only [step]
    split
    · split
      · rfl
      · exact h
    · exact h
  | clear =>
    have := clearAll_spec _ s rfl
    show (clearAll s.feats.length s).shown = _
    rw [this.2.1 h]
    simp only [step, this.1, List.map_nil]
  | edit i a b =>
    simp only [step]
    split
    · exact h
    · rfl
  | recalc e => cases ho

/-- **C239.** After any history of adding, selecting, deleting, clearing and editing features exactly the extents of the features are highlighted, and the marked
one is the selected one. -/
theorem highlights (s : State) (ops : List Op) (h : Synced s) (ho : ∀ o ∈ ops, isRecalc o = false) : Synced (run s ops) := by
  induction ops generalizing s with
  | nil => exact h
  | cons o ops ih => exact ih _ (step_synced s o h (ho o List.mem_cons_self)) fun p hp => ho p (List.mem_cons_of_mem _ hp)

theorem step_mark (s : State) (o : Op) (h : s.mark = if 0 ≤ s.sel then some s.sel else none) :
    (step s o).1.mark = if 0 ≤ (step s o).1.sel then some (step s o).1.sel else none := by
  cases o with
  | add f => exact h
  | select i => rfl
  | delete =>
    simp only [step]
    split
    · split <;> exact h
    · exact h
  | clear =>
    have := clearAll_spec _ s rfl
    show (clearAll s.feats.length s).mark = if 0 ≤ (clearAll s.feats.length s).sel then some (clearAll s.feats.length s).sel else none
    rw [this.2.2.2.1, this.2.2.2.2]; exact h
  | edit i a b =>
    cases hf : s.feats[i]? with
    | none => simp only [step, hf]; exact h
    | some f => simp only [step, hf, update]; exact h
  | recalc e =>
    simp only [step]
    split
    · split <;> exact h
    · exact h

/-- **C239.** The marked feature is the one selected in the table, after any history. -/
theorem marked (s : State) (ops : List Op) (h : s.mark = if 0 ≤ s.sel then some s.sel else none) :
    (run s ops).mark = if 0 ≤ (run s ops).sel then some (run s ops).sel else none := by
  induction ops generalizing s with
  | nil => exact h
  | cons o ops ih => exact ih _ (step_mark s o h)

/-- **C239.** Deleting removes exactly the selected feature and keeps the number selected, so it is the next feature that is selected then; after deleting the last one
the button stays enabled, and pressing it is an IndexError without effect, however often, until something else is done. -/
theorem delete_exact (s : State) (i : ℕ) (hs : s.sel = i) :
    (i < s.feats.length → (step s .delete).2 = .ok () ∧ (step s .delete).1.feats = s.feats.take i ++ s.feats.drop (i + 1) ∧ (step s .delete).1.sel = i) ∧
    (s.feats ≠ [] → s.feats.length ≤ i → step s .delete = (s, .error .index)) := by
  refine ⟨?_, ?_⟩
  · intro h
    have hne : s.feats ≠ [] := by rintro he; rw [he] at h; simp at h
    have hd : delAt s.feats s.sel = .ok (s.feats.eraseIdx i) := by
      unfold delAt; rw [hs, if_pos ⟨by omega, by exact_mod_cast h⟩]; rfl
    have hst : step s .delete = (update { s with feats := s.feats.eraseIdx i }, .ok ()) := by
      simp only [step]
      rw [if_pos ⟨hne, by omega⟩, hd]
    rw [hst]
    exact ⟨rfl, List.eraseIdx_eq_take_drop_succ _ _, hs⟩
  · intro hne h
    have hd : delAt s.feats s.sel = .error .index := by
      unfold delAt; rw [hs, if_neg (by omega), if_neg (by omega)]
    simp only [step]
    rw [if_pos ⟨hne, by omega⟩, hd]

/-- **C239.** Clearing leaves no feature and no highlight. -/
theorem clear_exact (s : State) (h : Synced s) : (step s .clear).1.feats = [] ∧ (step s .clear).1.shown = [] :=
  ⟨(clearAll_spec _ s rfl).1, (clearAll_spec _ s rfl).2.1 h⟩

/-- **C239.** An edited extent has its lower end first; the others are as they were. -/
theorem edit_exact (s : State) (i : ℕ) (a b : ℚ) (f : Feature) (h : s.feats[i]? = some f) :
    ∃ e, (step s (.edit i a b)).1.feats = s.feats.set i { f with ext := e } ∧ e.1 = min a b ∧ e.2 = max a b := by
  simp only [step, h, update]
  refine ⟨_, rfl, ?_⟩
  split
  · next h => exact ⟨(min_eq_left h).symm, (max_eq_right h).symm⟩
  · next h => exact ⟨(min_eq_right (le_of_lt (not_le.1 h))).symm, (max_eq_left (le_of_lt (not_le.1 h))).symm⟩

/-- **C239.** A typed list of more than two numbers is kept whole, its first two in order only if they were, or if reversing it puts them so. -/
theorem typed_exact (a b : ℚ) (l : List ℚ) : typed [a, b] = .ok [min a b, max a b] ∧ (a ≤ b → typed (a :: b :: l) = .ok (a :: b :: l)) ∧ typed [a] = .error .index := by
  refine ⟨?_, fun h => by simp [typed, h], rfl⟩
  show Except.ok (if a ≤ b then [a, b] else [b, a]) = _
  split
  · next h => rw [min_eq_left h, max_eq_right h]
  · next h =>
    have := le_of_lt (not_le.1 h)
    rw [min_eq_right this, max_eq_left this]

/-- **C239.** Recalculating a feature leaves the old extent highlighted; the next change of the list shows the new one. -/
theorem recalc_stale (s : State) (i : ℕ) (hs : s.sel = i) (f : Feature) (h : s.feats[i]? = some f) (e : ℚ × ℚ) (he : e ≠ f.ext) (hsy : Synced s) :
    ¬ Synced (step s (.recalc e)).1 ∧ ∀ g, Synced (step (step s (.recalc e)).1 (.add g)).1 := by
  have hi : i < s.feats.length := (List.getElem?_eq_some_iff.1 h).1
  have hne : s.feats ≠ [] := by rintro he; rw [he] at hi; simp at hi
  refine ⟨?_, fun g => rfl⟩
  simp only [step]
  rw [if_pos ⟨hne, by omega⟩, hs]
  simp only [Int.toNat_natCast, h]
  intro h2
  unfold Synced at h2 hsy
  simp only [hsy] at h2
  have h3 := congrArg (fun l => l[i]?) h2
  simp only [List.getElem?_map, h, List.getElem?_set_self hi, Option.map_some, Option.some.injEq] at h3
  exact he h3.symm

/-! ## Concrete cases -/

def ha : Line := ⟨"H_alpha", "6563"⟩
def oiii : Line := ⟨"[OIII]_5007", "5007"⟩

example : ha.str = "H_alpha(6563)" ∧ oiii.str = "[OIII]_5007" := by decide +kernel

example : (([ha, oiii] : List Line).map Line.str).Nodup := by decide +kernel

example : (run ⟨[], [], 0, some 0⟩ [.add ⟨1, (1, 2)⟩, .add ⟨2, (3, 4)⟩, .edit 0 5 4, .select 1, .delete, .delete]) = ⟨[⟨1, (4, 5)⟩], [(4, 5)], 1, some 1⟩ := by
  decide +kernel

end Verif.SpylotLists
